import Mathlib.Data.List.Perm.Basic
import Mathlib.Data.List.Dedup
import Verif.Spec.TurtleDoc
import Verif.Props.TurtleStable
/-! C174: graphs whose files are the same. -/
namespace Verif
open Spec Turtle Turtle.Spec

/-! ### Renamed alike -/

theorem forall2_imp_mem {α β : Type} {r q : α → β → Prop} : ∀ {l : List α} {l' : List β}, List.Forall₂ r l l' → (∀ x ∈ l, ∀ y ∈ l', r x y → q x y) → List.Forall₂ q l l'
  | _, _, .nil, _ => .nil
  | _, _, .cons h hs, H => .cons (H _ (List.mem_cons_self ..) _ (List.mem_cons_self ..) h)
      (forall2_imp_mem hs fun x hx y hy => H x (List.mem_cons_of_mem _ hx) y (List.mem_cons_of_mem _ hy))

/-- An IRI, a literal or a blank node. -/
def Term.Node (x : Term) : Prop := (∃ n, x = .named n) ∨ (∃ i, x = .bnode i) ∨ ∃ v l d, x = .lit v l d

theorem corr_of_rename {f f' : Nat → Nat} {R : Nat → Nat → Prop} {x y : Term} (hx : x.Node) (hy : y.Node) (e : x.rename f = y.rename f')
    (h : ∀ a b, x = .bnode a → y = .bnode b → f a = f' b → R a b) : TermCorr R x y := by
  rcases hx with ⟨n, rfl⟩ | ⟨i, rfl⟩ | ⟨v, l, d, rfl⟩ <;> rcases hy with ⟨n', rfl⟩ | ⟨i', rfl⟩ | ⟨v', l', d', rfl⟩ <;> simp only [Term.rename, Term.named.injEq, Term.bnode.injEq,
    Term.lit.injEq, reduceCtorEq] at e
  · subst e; exact .named _
  · exact .bnode (h _ _ rfl rfl e)
  · obtain ⟨rfl, rfl, rfl⟩ := e; exact .lit _ _ _

/-- Statements that are the same after renaming the blank nodes on both sides, one to one, are isomorphic. -/
theorem isomorphic_of_rename {l l' : List Stmt} {f f' : Nat → Nat} (hl : ∀ t ∈ l, t.IsRdf) (hl' : ∀ t ∈ l', t.IsRdf)
    (hi : ∀ t ∈ l, ∀ t' ∈ l, ∀ i j, t.HasBnode i → t'.HasBnode j → f i = f j → i = j) (hi' : ∀ t ∈ l', ∀ t' ∈ l', ∀ i j, t.HasBnode i → t'.HasBnode j → f' i = f' j → i = j)
    (h : (l.map (·.rename f)).Perm (l'.map (·.rename f'))) : Isomorphic l l' := by
  obtain ⟨l'', h1, h2⟩ := List.perm_comp_forall₂ (r := fun x t => x = Stmt.rename f' t) h (List.forall₂_map_left_iff.2 (List.forall₂_same.2 fun _ _ => rfl))
  rw [List.forall₂_map_left_iff] at h1
  refine ⟨fun a b => (∃ t ∈ l, t.HasBnode a) ∧ (∃ t ∈ l', t.HasBnode b) ∧ f a = f' b, ⟨?_, ?_⟩, l'', h2, forall2_imp_mem h1 fun x hx y hy e => ?_⟩
  · rintro a b b' ⟨-, ⟨t, ht, hb⟩, e⟩ ⟨-, ⟨t', ht', hb'⟩, e'⟩
    exact hi' t ht t' ht' _ _ hb hb' (e.symm.trans e')
  · rintro a a' b ⟨⟨t, ht, hb⟩, -, e⟩ ⟨⟨t', ht', hb'⟩, -, e'⟩
    exact hi t ht t' ht' _ _ hb hb' (e.trans e'.symm)
  · have hy' := h2.mem_iff.1 hy
    obtain ⟨a1, a2, a3, a4⟩ := hl x hx
    obtain ⟨b1, b2, b3, b4⟩ := hl' y hy'
    simp only [Stmt.rename, Stmt.mk.injEq] at e
    refine ⟨corr_of_rename (a1.imp_right .inl) (b1.imp_right .inl) e.1 fun a b ha hb k => ⟨⟨x, hx, .inl ha⟩, ⟨y, hy', .inl hb⟩, k⟩,
      corr_of_rename (.inl a2) (.inl b2) e.2.1 fun a b ha hb k => ⟨⟨x, hx, .inr (.inl ha)⟩, ⟨y, hy', .inr (.inl hb)⟩, k⟩,
      corr_of_rename a3 b3 e.2.2.1 fun a b ha hb k => ⟨⟨x, hx, .inr (.inr ha)⟩, ⟨y, hy', .inr (.inr hb)⟩, k⟩, a4.trans b4.symm⟩

theorem Term.rename_inj {f : Nat → Nat} {x y : Term} (e : x.rename f = y.rename f) (h : ∀ a b, x = .bnode a → y = .bnode b → f a = f b → a = b) : x = y := by
  cases x <;> cases y <;> simp only [Term.rename, Term.bnode.injEq, reduceCtorEq] at e <;> first | exact e | exact congrArg _ (h _ _ rfl rfl e) | rfl

/-! ### N-Triples -/

theorem survive_id (f : Nat → Nat) (x : Term) : x.survive f = (x.survive id).rename f := by
  cases x with
  | lit v l d =>
    cases l with
    | none => cases d with
      | none => rfl
      | some d => cases d <;> rfl
    | some l => cases l with
      | nil => cases d with
        | none => rfl
        | some d => cases d <;> rfl
      | cons c r => rfl
  | _ => rfl

theorem survive_stmt (f : Nat → Nat) (t : Stmt) : t.survive f = (t.survive id).rename f := by
  simp only [Stmt.survive, mkTriple, Stmt.rename, ← survive_id, Option.map_none]

theorem survive_bnode {x : Term} {i : Nat} : x.survive id = .bnode i ↔ x = .bnode i := by
  cases x with
  | lit v l d =>
    cases l with
    | none => cases d with
      | none => simp [Term.survive]
      | some d => cases d <;> simp [Term.survive]
    | some l => cases l with
      | nil => cases d with
        | none => simp [Term.survive]
        | some d => cases d <;> simp [Term.survive]
      | cons c r => simp [Term.survive]
  | _ => simp [Term.survive]

theorem survive_hasBnode {t : Stmt} {i : Nat} : (t.survive id).HasBnode i ↔ t.HasBnode i := by
  simp only [Stmt.HasBnode, Stmt.survive, mkTriple, survive_bnode]

theorem survive_isRdf {t : Stmt} (h : t.IsRdf) : (t.survive id).IsRdf := by
  obtain ⟨h1, ⟨n, h2⟩, h3, h4⟩ := h
  have ho : ∀ v l d, ∃ v' l' d', (Term.lit v l d).survive id = .lit v' l' d' := by
    intro v l d
    cases l with
    | none => cases d with
      | none => exact ⟨_, _, _, rfl⟩
      | some d => cases d <;> exact ⟨_, _, _, rfl⟩
    | some l => cases l with
      | nil => cases d with
        | none => exact ⟨_, _, _, rfl⟩
        | some d => cases d <;> exact ⟨_, _, _, rfl⟩
      | cons c r => exact ⟨_, _, _, rfl⟩
  refine ⟨?_, ⟨_, by simp only [Stmt.survive, mkTriple, h2]; rfl⟩, ?_, rfl⟩
  · rcases h1 with ⟨n, h⟩ | ⟨i, h⟩
    · exact .inl ⟨_, by simp only [Stmt.survive, mkTriple, h]; rfl⟩
    · exact .inr ⟨i, by simp only [Stmt.survive, mkTriple, h]; rfl⟩
  · rcases h3 with ⟨n, h⟩ | ⟨i, h⟩ | ⟨v, l, d, h⟩
    · exact .inl ⟨_, by simp only [Stmt.survive, mkTriple, h]; rfl⟩
    · exact .inr (.inl ⟨i, by simp only [Stmt.survive, mkTriple, h]; rfl⟩)
    · exact .inr (.inr (by simp only [Stmt.survive, mkTriple, h]; exact ho v l d))

theorem Stmt.rename_inj {f : Nat → Nat} {x y : Stmt} (hx : x.IsRdf) (hy : y.IsRdf) (e : x.rename f = y.rename f)
    (h : ∀ i j, x.HasBnode i → y.HasBnode j → f i = f j → i = j) : x = y := by
  have gx := hx.triple
  have gy := hy.triple
  obtain ⟨s, p, o, g⟩ := x
  obtain ⟨s', p', o', g'⟩ := y
  simp only [Stmt.rename, Stmt.mk.injEq] at e
  dsimp only at gx gy
  subst gx gy
  rw [Term.rename_inj e.1 fun a b ha hb => h a b (.inl ha) (.inl hb), Term.rename_inj e.2.1 fun a b ha hb => h a b (.inr (.inl ha)) (.inr (.inl hb)),
    Term.rename_inj e.2.2.1 fun a b ha hb => h a b (.inr (.inr ha)) (.inr (.inr hb))]

/-- **C174 for N-Triples, exactly what is left**: if two graphs of terms that can be read have the same text, what N-Triples keeps of their triples is the same, up to the choice of blank nodes. -/
theorem C174_ntriples_exact {g g' : Graph} {ord ord' : List Stmt → List Stmt} (hord : IsOrder ord) (hord' : IsOrder ord') (h : ∀ t ∈ g.triples, t.IsRdf ∧ t.Readable)
    (h' : ∀ t ∈ g'.triples, t.IsRdf ∧ t.Readable) (same : serializeNTriples (g.iter ord) = serializeNTriples (g'.iter ord')) :
    Isomorphic (g.triples.map (·.survive id)).dedup (g'.triples.map (·.survive id)).dedup := by
  obtain ⟨text, r, n, f, a1, a2, a3, -, a5⟩ := C37_roundtrip_exact g ord hord h 0
  obtain ⟨text', r', n', f', b1, b2, b3, -, b5⟩ := C37_roundtrip_exact g' ord' hord' h' 0
  rw [a1, b1] at same
  obtain rfl : text = text' := (Prod.mk.inj same).1
  rw [a2] at b2
  obtain rfl : r = r' := (Prod.mk.inj b2).1
  have mem : ∀ {k : Graph} {x}, x ∈ (k.triples.map (·.survive id)).dedup ↔ ∃ t ∈ k.triples, t.survive id = x := fun {k x} => by rw [List.mem_dedup, List.mem_map]
  have inj : ∀ {k : Graph} {f : Nat → Nat}, (∀ t ∈ k.triples, ∀ t' ∈ k.triples, ∀ i j, t.HasBnode i → t'.HasBnode j → f i = f j → i = j) →
      ∀ t ∈ (k.triples.map (·.survive id)).dedup, ∀ t' ∈ (k.triples.map (·.survive id)).dedup, ∀ i j, t.HasBnode i → t'.HasBnode j → f i = f j → i = j := by
    intro k f H t ht t' ht' i j hi hj
    obtain ⟨x, hx, rfl⟩ := mem.1 ht
    obtain ⟨y, hy, rfl⟩ := mem.1 ht'
    exact H x hx y hy i j (survive_hasBnode.1 hi) (survive_hasBnode.1 hj)
  have rdf : ∀ {k : Graph}, (∀ t ∈ k.triples, t.IsRdf ∧ t.Readable) → ∀ t ∈ (k.triples.map (·.survive id)).dedup, t.IsRdf := by
    intro k H t ht
    obtain ⟨x, hx, rfl⟩ := mem.1 ht
    exact survive_isRdf (H x hx).1
  have nd : ∀ {k : Graph} {f : Nat → Nat}, (∀ t ∈ k.triples, t.IsRdf ∧ t.Readable) →
      (∀ t ∈ k.triples, ∀ t' ∈ k.triples, ∀ i j, t.HasBnode i → t'.HasBnode j → f i = f j → i = j) → ((k.triples.map (·.survive id)).dedup.map (·.rename f)).Nodup := by
    intro k f H H'
    exact List.Nodup.map_on (fun x hx y hy e => Stmt.rename_inj (rdf H x hx) (rdf H y hy) e (inj H' x hx y hy)) (List.nodup_dedup _)
  refine isomorphic_of_rename (rdf h) (rdf h') (inj a3) (inj b3) ((List.perm_ext_iff_of_nodup (nd h a3) (nd h' b3)).2 fun x => ?_)
  have key : ∀ {k : Graph} {f : Nat → Nat}, x ∈ (k.triples.map (·.survive id)).dedup.map (·.rename f) ↔ ∃ t ∈ k.triples, x = t.survive f := by
    intro k f
    rw [List.mem_map]
    constructor
    · rintro ⟨y, hy, rfl⟩
      obtain ⟨t, ht, rfl⟩ := mem.1 hy
      exact ⟨t, ht, (survive_stmt f t).symm⟩
    · rintro ⟨t, ht, rfl⟩
      exact ⟨_, mem.2 ⟨t, ht, rfl⟩, (survive_stmt f t).symm⟩
  rw [key, key, ← a5, ← b5]

theorem plain_survive {t : Stmt} (hr : t.IsRdf) (h : t.s.Plain ∧ t.p.Plain ∧ t.o.Plain) : t.survive id = t := by
  have id_ : ∀ x : Term, x.rename id = x := fun x => by cases x <;> rfl
  obtain ⟨s, p, o, g⟩ := t
  have := hr.triple
  dsimp only at this h
  subst this
  simp only [Stmt.survive, mkTriple, (h.1.survive id).1, (h.2.1.survive id).1, (h.2.2.survive id).1, id_]

/-- C174 for N-Triples and graphs of IRIs of URI characters and literals without dropped characters. Missing: other IRIs and literals, see `C174_ntriples_exact`. -/
theorem C174_ntriples_partial (u u' : Term) (ops ops' : List Verif.Spec.GOp) {ord ord' : List Stmt → List Stmt} (hord : IsOrder ord) (hord' : IsOrder ord')
    (h : ∀ t ∈ (Graph.run u ops).triples, t.IsRdf ∧ t.s.Plain ∧ t.p.Plain ∧ t.o.Plain) (h' : ∀ t ∈ (Graph.run u' ops').triples, t.IsRdf ∧ t.s.Plain ∧ t.p.Plain ∧ t.o.Plain)
    (same : serializeNTriples ((Graph.run u ops).iter ord) = serializeNTriples ((Graph.run u' ops').iter ord')) :
    Isomorphic (Graph.run u ops).triples (Graph.run u' ops').triples := by
  have keep : ∀ {k : Graph}, (∀ t ∈ k.triples, t.IsRdf ∧ t.s.Plain ∧ t.p.Plain ∧ t.o.Plain) → k.triples.Nodup → (k.triples.map (·.survive id)).dedup = k.triples := by
    intro k H nd
    rw [(List.map_congr_left fun x hx => plain_survive (H x hx).1 (H x hx).2 : k.triples.map (·.survive id) = k.triples.map id), List.map_id]
    exact List.dedup_eq_self.2 nd
  have read : ∀ {k : Graph}, (∀ t ∈ k.triples, t.IsRdf ∧ t.s.Plain ∧ t.p.Plain ∧ t.o.Plain) → ∀ t ∈ k.triples, t.IsRdf ∧ t.Readable := fun H t ht =>
    ⟨(H t ht).1, ((H t ht).2.1.survive id).2, ((H t ht).2.2.1.survive id).2, ((H t ht).2.2.2.survive id).2⟩
  have := C174_ntriples_exact hord hord' (read h) (read h') same
  rwa [keep h (Graph.rep_run u ops).inv.nodup, keep h' (Graph.rep_run u' ops').inv.nodup] at this

/-! ### Turtle -/

theorem asRead_lit (v : PStr) (l d : Option PStr) : ∃ v' l' d', Turtle.asRead (.lit v l d) = .lit v' l' d' := by
  cases l with
  | none => cases d <;> exact ⟨_, _, _, rfl⟩
  | some l => cases l <;> cases d <;> exact ⟨_, _, _, rfl⟩

theorem readStmt_hasBnode {t : Stmt} {b : Nat} : (readStmt t).HasBnode b ↔ t.HasBnode b := by
  have : ∀ x : Term, Turtle.asRead x = .bnode b ↔ x = .bnode b := fun x => by
    cases x with
    | lit v l d => obtain ⟨_, _, _, e⟩ := asRead_lit v l d; simp [e]
    | _ => simp [Turtle.asRead]
  simp only [Stmt.HasBnode, readStmt, this]

/-- **C174 for Turtle**: two graphs of IRIs, literals and blank nodes that can be written, with the same base and profile, in whatever runs and with whatever labels. If the texts are the same, so
    are the triples, up to the choice of blank nodes, and plain literals may be typed `xsd:string`. -/
theorem C174_turtle_exact {nl : PStr → Bool} {m : PrefixMap} {base : Option PStr} (hm : SafeProfileAt nl m (base.getD [])) {namer namer' : Namer} (u u' : Term)
    (ops ops' : List Verif.Spec.GOp) (hs : ∀ t ∈ Verif.Spec.runSet ops, TextTriAt nl m (base.getD []) namer t) (hs' : ∀ t ∈ Verif.Spec.runSet ops', TextTriAt nl m (base.getD []) namer' t)
    (live : ∀ t ∈ everAdded ops, ∃ t' ∈ Verif.Spec.runSet ops, t'.s = t.s) (live' : ∀ t ∈ everAdded ops', ∃ t' ∈ Verif.Spec.runSet ops', t'.s = t.s)
    {o o' : Orders} (ho : Orders.OK o) (ho' : Orders.OK o') {w w' : World} (fuel fuel' : Nat) (hr : resolveKey w listC (py! "rdf:rest") = .ok (some (Heap.rdfNs ++ py! "rest")))
    (hr' : resolveKey w' listC (py! "rdf:rest") = .ok (some (Heap.rdfNs ++ py! "rest")))
    (same : serializeTurtle o w fuel (Graph.run u ops) base (some m) namer = serializeTurtle o' w' fuel' (Graph.run u' ops') base (some m) namer') :
    Isomorphic ((Graph.run u ops).triples.map readStmt) ((Graph.run u' ops').triples.map readStmt) := by
  have rdf : ∀ {nm : Namer} (v : Term) (ps : List Verif.Spec.GOp), (∀ t ∈ Verif.Spec.runSet ps, TextTriAt nl m (base.getD []) nm t) →
      ∀ t ∈ (Graph.run v ps).triples.map readStmt, t.IsRdf := by
    intro nm v ps H y hy
    obtain ⟨x, hx, rfl⟩ := List.mem_map.1 hy
    obtain ⟨t, ht, rfl⟩ := ((Graph.rep_run v ps).mem x).1 hx
    obtain ⟨c1, ⟨i, c2, -⟩, c3⟩ := H t ht
    refine ⟨?_, ⟨i, c2⟩, ?_, rfl⟩
    · rcases c1 with ⟨i, hi, -⟩ | ⟨⟨k, hk⟩, -⟩
      · exact .inl ⟨i, hi⟩
      · exact .inr ⟨k, hk⟩
    · show (∃ n, Turtle.asRead t.o = .named n) ∨ (∃ i, Turtle.asRead t.o = .bnode i) ∨ ∃ v l d, Turtle.asRead t.o = .lit v l d
      generalize t.o = x at c3
      cases c3 with
      | iri h => exact .inl ⟨_, rfl⟩
      | lit h => exact .inr (.inr (asRead_lit _ _ _))
      | bnode h _ => exact .inr (.inl ⟨_, rfl⟩)
  have inj : ∀ {k : Graph} {ρ : Nat → Nat} {n n'}, Renames ρ k.triples n n' →
      ∀ t ∈ k.triples.map readStmt, ∀ t' ∈ k.triples.map readStmt, ∀ i j, t.HasBnode i → t'.HasBnode j → ρ i = ρ j → i = j := by
    intro k ρ n n' H t ht t' ht' i j hi hj
    obtain ⟨x, hx, rfl⟩ := List.mem_map.1 ht
    obtain ⟨y, hy, rfl⟩ := List.mem_map.1 ht'
    exact H.inj x hx y hy i j (readStmt_hasBnode.1 hi) (readStmt_hasBnode.1 hj)
  obtain ⟨text, a1, a2⟩ := written_is_read hm (safeGraphAt_run u ops hs live) ho (w := w) fuel hr
  obtain ⟨text', b1, b2⟩ := written_is_read hm (safeGraphAt_run u' ops' hs' live') ho' (w := w') fuel' hr'
  rw [a1, b1] at same
  obtain rfl : text = text' := Except.ok.inj same
  obtain ⟨n, ts, ρ, a3, a4, a5⟩ := a2 0
  obtain ⟨n', ts', ρ', b3, b4, b5⟩ := b2 0
  rw [a3] at b3
  obtain rfl : ts = ts' := (Prod.mk.inj (Except.ok.inj b3)).2
  refine isomorphic_of_rename (rdf u ops hs) (rdf u' ops' hs') (inj a5) (inj b5) ?_
  rw [List.map_map, List.map_map]
  exact a4.symm.trans b4

/-- C174 for Turtle and graphs without plain literals. Missing: plain literals (`C174_turtle_exact`, `C174_turtle_same`), lists, and everything that is not safe. -/
theorem C174_turtle_partial {nl : PStr → Bool} {m : PrefixMap} {base : Option PStr} (hm : SafeProfileAt nl m (base.getD [])) {namer namer' : Namer} (u u' : Term)
    (ops ops' : List Verif.Spec.GOp) (hs : ∀ t ∈ Verif.Spec.runSet ops, SafeTriAt nl m (base.getD []) namer t) (hs' : ∀ t ∈ Verif.Spec.runSet ops', SafeTriAt nl m (base.getD []) namer' t)
    (live : ∀ t ∈ everAdded ops, ∃ t' ∈ Verif.Spec.runSet ops, t'.s = t.s) (live' : ∀ t ∈ everAdded ops', ∃ t' ∈ Verif.Spec.runSet ops', t'.s = t.s)
    {o o' : Orders} (ho : Orders.OK o) (ho' : Orders.OK o') {w w' : World} (fuel fuel' : Nat) (hr : resolveKey w listC (py! "rdf:rest") = .ok (some (Heap.rdfNs ++ py! "rest")))
    (hr' : resolveKey w' listC (py! "rdf:rest") = .ok (some (Heap.rdfNs ++ py! "rest")))
    (same : serializeTurtle o w fuel (Graph.run u ops) base (some m) namer = serializeTurtle o' w' fuel' (Graph.run u' ops') base (some m) namer') :
    Isomorphic (Graph.run u ops).triples (Graph.run u' ops').triples := by
  have keep : ∀ {nm : Namer} (v : Term) (ps : List Verif.Spec.GOp), (∀ t ∈ Verif.Spec.runSet ps, SafeTriAt nl m (base.getD []) nm t) →
      (Graph.run v ps).triples.map readStmt = (Graph.run v ps).triples := by
    intro nm v ps H
    refine (List.map_congr_left fun x hx => ?_).trans (List.map_id _)
    obtain ⟨t, ht, rfl⟩ := ((Graph.rep_run v ps).mem x).1 hx
    have := (H t ht).2.2.asRead
    simp [readStmt, Verif.Spec.Tri.stmt, mkTriple, this]
  have := C174_turtle_exact hm u u' ops ops' (fun t ht => (hs t ht).text) (fun t ht => (hs' t ht).text) live live' ho ho' fuel fuel' hr hr' same
  rwa [keep u ops hs, keep u' ops' hs'] at this

/-! ### The claim -/

/-- Full statement of C174: graphs of well-formed triples that have the same N-Triples text, or the same Turtle text, have the same triples, up to the choice of blank nodes. -/
def C174_statement : Prop := ∀ (u u' : Term) (ops ops' : List Verif.Spec.GOp), (∀ t ∈ everAdded ops ++ everAdded ops', t.stmt.IsRdf ∧ t.stmt.WellFormed) →
  (∀ (ord ord' : List Stmt → List Stmt) (text : PStr), IsOrder ord → IsOrder ord' → serializeNTriples ((Graph.run u ops).iter ord) = (text, .ok ()) →
    serializeNTriples ((Graph.run u' ops').iter ord') = (text, .ok ()) → Isomorphic (Graph.run u ops).triples (Graph.run u' ops').triples) ∧
  ∀ (o o' : Orders) (fuel : Nat) (base : Option PStr) (m : Option PrefixMap) (namer : Namer) (text : PStr), Orders.OK o → Orders.OK o' →
    serializeTurtle o World.new fuel (Graph.run u ops) base m namer = .ok text → serializeTurtle o' World.new fuel (Graph.run u' ops') base m namer = .ok text →
    Isomorphic (Graph.run u ops).triples (Graph.run u' ops').triples

/-- Two graphs with one triple each, whose N-Triples are the same. -/
def sameNT (i : PStr) : List Verif.Spec.GOp := [.add ⟨.named i, .named (py! "x:p"), .named (py! "x:o")⟩]

theorem C174_ntriples_same : serializeNTriples ((Graph.run .none (sameNT (py! "x:é"))).iter id) = (py! "<x:%C3%A9> <x:p> <x:o> .\n", .ok ()) ∧
    serializeNTriples ((Graph.run .none (sameNT (py! "x:%C3%A9"))).iter id) = (py! "<x:%C3%A9> <x:p> <x:o> .\n", .ok ()) := by decide

/-- One triple whose string has a quote and a full stop, and two triples: the same Turtle. -/
theorem C174_turtle_same :
    serializeTurtle {} World.new 0 (Graph.run .none [.add ⟨.named (py! "x:s"), .named (py! "x:p"), .lit (py! "a\" ;\n      <x:q> \"b") none none⟩]) =
      .ok (py! "@prefix xsd: <http://www.w3.org/2001/XMLSchema#> .\n<x:s> <x:p> \"a\" ;\n      <x:q> \"b\" ;\n      .\n\n") ∧
    serializeTurtle {} World.new 0 (Graph.run .none [.add ⟨.named (py! "x:s"), .named (py! "x:p"), .lit (py! "a") none none⟩,
        .add ⟨.named (py! "x:s"), .named (py! "x:q"), .lit (py! "b") none none⟩]) =
      .ok (py! "@prefix xsd: <http://www.w3.org/2001/XMLSchema#> .\n<x:s> <x:p> \"a\" ;\n      <x:q> \"b\" ;\n      .\n\n") := ⟨rfl, rfl⟩

/-- Two blank nodes, `a` and `b`. -/
def samePair (a b : Nat) : List Verif.Spec.GOp :=
  [.add ⟨.bnode a, .named (py! "x:p"), .named (py! "http://e/a#b")⟩, .add ⟨.named (py! "http://e/a#b"), .named (py! "x:p"), .bnode a⟩, .add ⟨.bnode a, .named (py! "x:p"), .bnode b⟩]

theorem samePair_safe {a b : Nat} : ∀ t ∈ everAdded (samePair a b), SafeTriAt (fun _ => true) defaultPrefixes exBase.text (some exNamer) t := by
  intro t ht
  have hn : ∀ k, SafeSubjAt (fun _ => true) defaultPrefixes exBase.text (some exNamer) (.bnode k) := fun k => .inr ⟨⟨k, rfl⟩, _, rfl, exNamer_safe⟩
  simp only [samePair, everAdded, List.flatMap_cons, List.flatMap_nil, List.append_nil, List.cons_append, List.nil_append, List.mem_cons, List.not_mem_nil, or_false] at ht
  rcases ht with rfl | rfl | rfl
  · exact ⟨hn a, ⟨_, rfl, safeAt_xp, by decide⟩, .iri safeAt_ab⟩
  · exact ⟨.inl ⟨_, rfl, safeAt_ab⟩, ⟨_, rfl, safeAt_xp, by decide⟩, .bnode rfl exNamer_safe⟩
  · exact ⟨hn a, ⟨_, rfl, safeAt_xp, by decide⟩, .bnode rfl exNamer_safe⟩

example : Isomorphic (Graph.run .none (samePair 7 3)).triples (Graph.run .none (samePair 1 8)).triples :=
  C174_turtle_partial (base := some exBase.text) exProfile .none .none (samePair 7 3) (samePair 1 8) (fun t ht => samePair_safe t (runSet_everAdded t ht))
    (fun t ht => samePair_safe t (runSet_everAdded t ht)) (by decide) (by decide) Orders.OK.default Orders.OK.default 0 0 resolveKey_rest resolveKey_rest
    (show serializeTurtle {} World.new 0 _ (some exBase.text) (some defaultPrefixes) (some exNamer) = serializeTurtle {} World.new 0 _ (some exBase.text) _ (some exNamer) from rfl)

/-- What N-Triples keeps of the two graphs of `C174_ntriples_same` is the same. -/
example : Isomorphic ((Graph.run .none (sameNT (py! "x:é"))).triples.map (·.survive id)).dedup ((Graph.run .none (sameNT (py! "x:%C3%A9"))).triples.map (·.survive id)).dedup :=
  C174_ntriples_exact (ord := id) (ord' := id) (fun _ => List.Perm.refl _) (fun _ => List.Perm.refl _)
    (by
      have e' : (Graph.run .none (sameNT (py! "x:é"))).triples = [mkTriple (.named (py! "x:é")) (.named (py! "x:p")) (.named (py! "x:o"))] := by decide
      rw [e']
      intro t ht
      rw [List.mem_singleton] at ht
      subst ht
      exact ⟨⟨.inl ⟨_, rfl⟩, ⟨_, rfl⟩, .inl ⟨_, rfl⟩, rfl⟩, by simp [mkTriple, Stmt.Readable, Term.Readable, scalarValue]⟩)
    (by
      have e : (Graph.run .none (sameNT (py! "x:%C3%A9"))).triples = [mkTriple (.named (py! "x:%C3%A9")) (.named (py! "x:p")) (.named (py! "x:o"))] := by decide
      rw [e]
      intro t ht
      rw [List.mem_singleton] at ht
      subst ht
      exact ⟨⟨.inl ⟨_, rfl⟩, ⟨_, rfl⟩, .inl ⟨_, rfl⟩, rfl⟩, by simp [mkTriple, Stmt.Readable, Term.Readable, scalarValue]⟩)
    (C174_ntriples_same.1.trans C174_ntriples_same.2.symm)

theorem C174_refuted : ¬ C174_statement := by
  intro h
  obtain ⟨ρ, -, l, hl, h2⟩ := (h .none .none (sameNT (py! "x:é")) (sameNT (py! "x:%C3%A9")) (by
    intro t ht
    simp only [sameNT, everAdded, List.flatMap_cons, List.flatMap_nil, List.append_nil, List.cons_append, List.nil_append, List.mem_cons, List.not_mem_nil, or_false] at ht
    rcases ht with rfl | rfl <;> exact ⟨⟨.inl ⟨_, rfl⟩, ⟨_, rfl⟩, .inl ⟨_, rfl⟩, rfl⟩, by simp [Verif.Spec.Tri.stmt, mkTriple, Stmt.WellFormed, Term.WellFormed]⟩)).1 id id _
    (fun _ => List.Perm.refl _) (fun _ => List.Perm.refl _) C174_ntriples_same.1 C174_ntriples_same.2
  have e : (Graph.run .none (sameNT (py! "x:%C3%A9"))).triples = [mkTriple (.named (py! "x:%C3%A9")) (.named (py! "x:p")) (.named (py! "x:o"))] := by decide
  have e' : (Graph.run .none (sameNT (py! "x:é"))).triples = [mkTriple (.named (py! "x:é")) (.named (py! "x:p")) (.named (py! "x:o"))] := by decide
  rw [e] at hl
  rw [List.perm_singleton.1 hl, e'] at h2
  cases h2 with
  | cons h _ =>
    have := h.s
    simp only [mkTriple] at this
    cases this

end Verif
