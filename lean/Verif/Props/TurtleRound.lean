import Verif.Lemmas.TurtleWrite
/-
C97 with a base, and C118: a graph with blank nodes, written with the caller's names for them, is read as the same graph up to the
choice of blank nodes.
-/
namespace Verif.Turtle
open Verif.Turtle.Spec

/-! ### Declarations -/

/-- The statements of the directives. -/
def docDecls (base : Option PStr) (m : PrefixMap) : List PTStmt := (match base with | none => [] | some b => [.base false b]) ++ declStmts m

theorem header_frag_at {P : List Tok → PStr → Prop} (hP : Reads P) {m : PrefixMap} (h : ∀ e ∈ m, PnPrefix e.1 ∧ LegalIri e.2) {base : Option PStr} (hb : LegalIri (base.getD [])) {tks : List Tok} {r : PStr}
    (hr : P tks r) : P (docToks (docDecls base m) ++ tks) (header base m ++ r) := by
  have h0 := header_frag hP h hr
  cases base with
  | none => exact h0
  | some b =>
    have e1 : docToks (docDecls (some b) m) ++ tks = [.atBase, .iri (.ref b), .dot] ++ (docToks (declStmts m) ++ tks) := by
      simp [docDecls, docToks, TStmt.toks]
    have e2 : header (some b) m ++ r = py! "@base" ++ (32 :: ((60 :: (b ++ [62])) ++ (32 :: ([46] ++ (10 :: (header none m ++ r)))))) := by
      simp [header]
    rw [e1, e2]
    refine hP.tok .atBase trivial (hP.white (.inl rfl) (hP.tok (.ref hb.body) trivial (hP.white (.inl rfl) (hP.tok .dot ?_ (hP.white (by simp [isWhite]) h0)))))
    intro c hc
    cases hc
    simp [isDigitChar]

theorem eval_decls {m : PrefixMap} {nl : PStr → Bool} {b : PStr} (h : ∀ e ∈ m, LegalIri e.2) (hj : ∀ e ∈ m, e.1 ≠ py! "rdf" → Joins nl b e.2 e.2) {ds : List PTStmt} :
    ∀ {st st' : TState} {es : List EStmt}, st.base = b → evalStmts nl { st with prefixes := declared m st.prefixes } ds = .ok (st', es) →
      ∃ k, evalStmts nl st (declStmts m ++ ds) = .ok (st', List.replicate k .directive ++ es) := by
  induction m with
  | nil => intro st st' es _ h; exact ⟨0, h⟩
  | cons e m ih =>
    intro st st' es hb hev
    have ih := @ih (fun e he => h e (List.mem_cons_of_mem _ he)) (fun e he => hj e (List.mem_cons_of_mem _ he))
    rw [declStmts, List.flatMap_cons]
    rw [declared, List.foldl_cons] at hev
    by_cases he : e.1 ≠ py! "rdf"
    · rw [if_pos he] at hev ⊢
      obtain ⟨k, hk⟩ := ih (st := { st with prefixes := st.prefixes.set e.1 e.2 }) hb hev
      refine ⟨k + 1, ?_⟩
      show (match evalStmt nl st (.pre false e.1 e.2) with | .error e => _ | .ok (st, s) => _) = _
      have hr : resolveRef nl st.base e.2 = .ok e.2 := by rw [hb]; exact (h e (List.mem_cons_self ..)).resolveAt (hj e (List.mem_cons_self ..) he)
      rw [evalStmt, hr]
      show (match evalStmts nl { st with prefixes := st.prefixes.set e.1 e.2 } (declStmts m ++ ds) with | .error e => _ | .ok (st, ss) => _) = _
      rw [hk]; rfl
    · rw [if_neg he] at hev ⊢
      exact ih hb hev

theorem eval_docDecls {m : PrefixMap} {nl : PStr → Bool} {base : Option PStr} (hm : SafeProfileAt nl m (base.getD [])) {ds : List PTStmt} {st' : TState} {es : List EStmt} {bn : BState}
    (hev : evalStmts nl { base := base.getD [], prefixes := declared m initialPrefixes, bn } ds = .ok (st', es)) :
    ∃ k, evalStmts nl { base := [], prefixes := initialPrefixes, bn } (docDecls base m ++ ds) = .ok (st', List.replicate k .directive ++ es) := by
  have h1 : ∀ e ∈ m, LegalIri e.2 := fun e he => (hm.names e he).2
  cases base with
  | none => exact eval_decls h1 hm.joins (st := { base := [], prefixes := initialPrefixes, bn }) rfl hev
  | some b =>
    obtain ⟨k, hk⟩ := eval_decls h1 hm.joins (st := { base := b, prefixes := initialPrefixes, bn }) rfl hev
    refine ⟨k + 1, ?_⟩
    show (match evalStmt nl { base := [], prefixes := initialPrefixes, bn } (.base false b) with | .error e => _ | .ok (st, s) => _) = _
    have hr : resolveRef nl [] b = .ok b := hm.baseLegal.resolveAt (C67_no_base nl b)
    rw [evalStmt, hr]
    show (match evalStmts nl { base := b, prefixes := initialPrefixes, bn } (declStmts m ++ ds) with | .error e => _ | .ok (st, ss) => _) = _
    rw [hk]; rfl

theorem agreesAt_declared {m : PrefixMap} (hm : SafeProfile m) (b : PStr) (bn : BState) : AgreesAt b m { base := b, prefixes := declared m initialPrefixes, bn } :=
  ⟨rfl, (agrees_declared hm bn).get⟩

/-! ### The round trip -/

/-- A blank node of a statement. -/
def HasBnode (t : Stmt) (b : Nat) : Prop := t.s = .bnode b ∨ t.p = .bnode b ∨ t.o = .bnode b

/-- `ρ` renames the blank nodes of the statements, one to one, to nodes that are new (from `n` on). -/
structure Renames (ρ : Nat → Nat) (ts : List Stmt) (n n' : Nat) : Prop where
  inj : ∀ t ∈ ts, ∀ t' ∈ ts, ∀ b b', HasBnode t b → HasBnode t' b' → ρ b = ρ b' → b = b'
  fresh : ∀ t ∈ ts, ∀ b, HasBnode t b → n ≤ ρ b ∧ ρ b < n'

theorem Term.rename_bnode {ρ ρ' : Nat → Nat} {x : Term} {b : Nat} (h : x = .bnode b) (e : x.rename ρ = x.rename ρ') : ρ b = ρ' b := by
  subst h; injection e

theorem HasBnode.rename_eq {ρ ρ' : Nat → Nat} {t : Stmt} {b : Nat} (h : HasBnode t b) (e : t.rename ρ = t.rename ρ') : ρ b = ρ' b := by
  simp only [Stmt.rename, Stmt.mk.injEq] at e
  rcases h with h | h | h
  · exact Term.rename_bnode h e.1
  · exact Term.rename_bnode h e.2.1
  · exact Term.rename_bnode h e.2.2.1

/-- The node that the parser has for a blank node of the writer. -/
def readAs (nm : Names) (bs : BState) (b : Nat) : Nat := ((nm.map.get? b).bind bs.map.get?).getD 0

theorem compat_readAs (nm : Names) (bs : BState) : Compat (readAs nm bs) nm bs := by
  intro b t i h1 h2
  simp [readAs, h1, h2]

/-- If the statements read do not depend on anything else than names, they are a renaming. -/
theorem renames_readAs {namer : Namer} {nm : Names} (hn : NInv namer nm) {n : Nat} {bs : BState} (hb : BState.OK n bs) {ts us : List Stmt}
    (h : ∀ ρ, Compat ρ nm bs → us = ts.map (·.rename ρ)) : Renames (readAs nm bs) ts n bs.next := by
  have has : ∀ t ∈ ts, ∀ b, HasBnode t b → ∃ l i, nm.map.get? b = some l ∧ bs.map.get? l = some i := by
    intro t ht b hbt
    cases hg : (nm.map.get? b).bind bs.map.get? with
    | some i =>
      cases hl : nm.map.get? b with
      | none => rw [hl] at hg; cases hg
      | some l => rw [hl] at hg; exact ⟨l, i, rfl, hg⟩
    | none =>
      exfalso
      have hc : ∀ k, Compat (fun x => if x = b then k else readAs nm bs x) nm bs := by
        intro k x l i h1 h2
        dsimp only
        split
        · next e => subst e; rw [h1] at hg; rw [show (some l).bind bs.map.get? = bs.map.get? l from rfl, h2] at hg; cases hg
        · exact compat_readAs nm bs x l i h1 h2
      have e := (h _ (hc 0)).symm.trans (h _ (hc 1))
      have := hbt.rename_eq (List.map_inj_left.1 e t ht)
      simp at this
  refine ⟨fun t ht t' ht' b b' hbt hbt' e => ?_, fun t ht b hbt => ?_⟩
  · obtain ⟨l, i, h1, h2⟩ := has t ht b hbt
    obtain ⟨l', i', h1', h2'⟩ := has t' ht' b' hbt'
    simp only [readAs, h1, h1', Option.bind_some, h2, h2', Option.getD_some] at e
    subst e
    have := hb.inj l l' i h2 h2'
    subst this
    exact hn.inj _ _ _ h1 h1'
  · obtain ⟨l, i, h1, h2⟩ := has t ht b hbt
    simp only [readAs, h1, Option.bind_some, h2, Option.getD_some]
    exact hb.range l i h2

theorem hasBnode_readStmt {t : Stmt} {b : Nat} (h : HasBnode t b) : HasBnode (readStmt t) b := by
  rcases h with h | h | h
  · exact .inl h
  · exact .inr (.inl h)
  · exact .inr (.inr (by show asRead t.o = _; rw [h]; rfl))

/-- The writer succeeds on a graph of IRIs, blank nodes with names, and literals that Turtle can write, and the parser reads its text as the graph with plain literals typed, up to the choice of
    blank nodes; the objects of a subject and predicate come in the order in which `match` gives them. -/
theorem written_is_read_order {nl : PStr → Bool} {m : PrefixMap} {base : Option PStr} (hm : SafeProfileAt nl m (base.getD [])) {namer : Namer} {g : Graph}
    (hg : SafeGraphAt nl m (base.getD []) namer g) {o : Orders} (ho : Orders.OK o) {w : World} (fuel : Nat)
    (hr : resolveKey w listC (py! "rdf:rest") = .ok (some (Heap.rdfNs ++ py! "rest"))) :
    ∃ text, serializeTurtle o w fuel g base (some m) namer = .ok text ∧
      ∀ n, ∃ n' ts ρ, parseText nl [] n text = .ok (n', ts) ∧ ts.Perm (g.triples.map fun t => (readStmt t).rename ρ) ∧ Renames ρ g.triples n n' ∧
        ∃ us : List Stmt, us.Perm g.triples ∧ ts = us.map (fun t => (readStmt t).rename ρ) ∧
          ∀ t0 ∈ us, (us.filter fun t => t.s = t0.s ∧ t.p = t0.p) = g.match o.stmts t0.s t0.p .none := by
  have hno : ∀ t ∈ g.triples, t.p ≠ .named (Heap.rdfNs ++ py! "rest") := fun t ht h => by
    obtain ⟨j, h1, _, h2⟩ := hg.pred t ht
    rw [h] at h1; cases h1; exact h2 rfl
  obtain ⟨nm, ss, h1, hn, _, h2, h3⟩ := sortedNames_at (base := base) hm.toSafeProfile (NInv.empty namer) (ts := g.subjects) hg.inv.wspo.1 (fun s hs => by
    obtain ⟨t, ht, rfl⟩ := hg.live s hs
    exact hg.subj t ht)
  obtain ⟨nm', X, ds, ts, a1, hn', _, _, a2, a3, a5, a6, a7⟩ := subjs_frag_at hm.toSafeProfile hg ho (c := listC) (fuel := fuel) hr ss nm hn
    (fun e he => ⟨h2.mem_iff.1 (List.mem_map.2 ⟨e, he, rfl⟩), h3 e he⟩) (h2.nodup_iff.2 hg.inv.wspo.1)
  have hperm : ts.Perm g.triples := by
    refine (List.perm_ext_iff_of_nodup a5 hg.inv.nodup).2 fun t => ?_
    rw [a6, h2.mem_iff]
    exact ⟨fun h => h.1, fun h => ⟨h, Idx.mem_keys_of_find ((hg.inv.spo _ _ _ t).2 ⟨h, rfl, rfl, rfl⟩)⟩⟩
  refine ⟨header base m ++ X, ?_, fun n => ?_⟩
  · simp only [serializeTurtle, Option.getD_some, plainSubjects_all g.subjects fun x _ => isList_false hno hg.inv ho.stmts hr x, h1, a1]
  · obtain ⟨bs, es, k1, k2, k3, k4⟩ := a3 n _ (agreesAt_declared hm.toSafeProfile (base.getD []) { map := [], next := n }) (BState.OK.init n)
    have hp : Plainly lark (docToks (docDecls base m ++ ds)) (header base m ++ X) := by
      have := header_frag_at .plainly hm.names hm.baseLegal (a2 [] [] (.nil (.inl .nil)))
      simpa [docToks] using this
    obtain ⟨k, hk⟩ := eval_docDecls hm k1
    have hgk : ∀ ρ, Compat ρ nm' bs → ∀ k, genStmts bs.next (List.replicate k .directive ++ es) = (bs.next, ts.map fun t => (readStmt t).rename ρ) := by
      intro ρ hρ k
      induction k with
      | zero => exact k4 ρ hρ bs.next
      | succ k ih => rw [List.replicate_succ, List.cons_append, genStmts]; simp [genStmt, ih]
    have hren := renames_readAs hn' k2 (ts := ts.map readStmt) (us := (genStmts bs.next (List.replicate k .directive ++ es)).2) fun ρ hρ => by rw [hgk ρ hρ, List.map_map]; rfl
    refine ⟨bs.next, ts.map fun t => (readStmt t).rename (readAs nm' bs), readAs nm' bs, ?_, hperm.map _, ?_, ts, hperm, rfl, a7⟩
    · rw [parseText, C96_exact hp]
      show (match evalStmts nl { base := [], prefixes := initialPrefixes, bn := { map := [], next := n } } (docDecls base m ++ ds) with | .error _ => _ | .ok (st, es) => _) = _
      rw [hk]
      show Except.ok (genStmts bs.next _) = _
      rw [hgk _ (compat_readAs nm' bs)]
    · have hin : ∀ t ∈ g.triples, readStmt t ∈ ts.map readStmt := fun t ht => List.mem_map.2 ⟨t, hperm.mem_iff.2 ht, rfl⟩
      exact ⟨fun t ht t' ht' b b' hb hb' => hren.inj _ (hin t ht) _ (hin t' ht') b b' (hasBnode_readStmt hb) (hasBnode_readStmt hb'),
        fun t ht b hb => hren.fresh _ (hin t ht) b (hasBnode_readStmt hb)⟩

theorem written_is_read {nl : PStr → Bool} {m : PrefixMap} {base : Option PStr} (hm : SafeProfileAt nl m (base.getD [])) {namer : Namer} {g : Graph}
    (hg : SafeGraphAt nl m (base.getD []) namer g) {o : Orders} (ho : Orders.OK o) {w : World} (fuel : Nat)
    (hr : resolveKey w listC (py! "rdf:rest") = .ok (some (Heap.rdfNs ++ py! "rest"))) :
    ∃ text, serializeTurtle o w fuel g base (some m) namer = .ok text ∧
      ∀ n, ∃ n' ts ρ, parseText nl [] n text = .ok (n', ts) ∧ ts.Perm (g.triples.map fun t => (readStmt t).rename ρ) ∧ Renames ρ g.triples n n' := by
  obtain ⟨text, h1, h2⟩ := written_is_read_order hm hg ho fuel hr
  refine ⟨text, h1, fun n => ?_⟩
  obtain ⟨n', ts, ρ, a, b, c, _⟩ := h2 n
  exact ⟨n', ts, ρ, a, b, c⟩

/-! ### Bases -/

open Verif.Spec in
/-- An IRI that `urllib` leaves alone: the conditions of C91. -/
def StandsAlone (nl : PStr → Bool) (iri : PStr) : Prop :=
  ∃ (r : Ref) (s : PStr), r.text = iri ∧ r.WF ∧ r.scheme = some s ∧ nl (r.authority.getD []) = true ∧
    (s.map asciiLower ∉ Verif.Spec.hierSchemes ∨ (s.map asciiLower = s ∧ (∃ a, r.authority = some a ∧ a ≠ []) ∧ r.query ≠ some [] ∧ r.path.getLast? ≠ some 59))

theorem joins_alone {nl : PStr → Bool} {b : Verif.Spec.Ref} (hb : GoodBase nl b) {iri : PStr} (h : StandsAlone nl iri) : Joins nl b.text iri iri := by
  obtain ⟨r, s, rfl, h1, h2, h3, h4⟩ := h
  obtain ⟨a, ha, _, hna⟩ := hb.authority
  exact C91_partial (urlparse_text hb.wf nl [] (by rw [ha]; exact hna)) h1 h2 h3 h4

/-- Against a base that ends in `#`, a fragment stands for the base followed by it. -/
theorem joins_hash {nl : PStr → Bool} (hnl : nl [] = true) {b : Verif.Spec.Ref} (hb : GoodBase nl b) (hf : b.fragment = some []) {frag : PStr} (hl : LegalIri frag) :
    Joins nl b.text (35 :: frag) (b.text ++ frag) := by
  let r : Verif.Spec.Ref := ⟨none, none, [], none, some frag⟩
  have hr : GoodRel r :=
    { wf := { scheme := by simp [r]
              authority := by simp [r]
              path := by simp [r]
              pathAuth := by simp [r]
              pathNoAuth := by simp [r]
              pathNoScheme := by simp [r]
              query := by simp [r]
              visible := by
                intro c hc
                have : c = 35 ∨ c ∈ frag := by simpa [r, Verif.Spec.Ref.text] using hc
                rcases this with rfl | hc
                · decide
                · exact (hl c hc).1 }
      scheme := rfl, authority := rfl
      noEmpty := by simp [r]
      noSemi := by simp [r]
      noDotSemi := by simp [r]
      noDotsSemi := by simp [r]
      query := by simp [r] }
  have ht : r.text = 35 :: frag := rfl
  have := C92_partial hnl hb hr (.inl (by rw [ht]; simp))
  rw [ht] at this
  rw [Joins, this]
  congr 1
  obtain ⟨sc, au, pa, qu, fr⟩ := b
  simp only at hf
  subst hf
  simp [Verif.Spec.resolve, r, Verif.Spec.Ref.text]

/-- Against a base that ends in `/`, a relative path without dot segments stands for the base followed by it. -/
theorem joins_slash {nl : PStr → Bool} (hnl : nl [] = true) {b : Verif.Spec.Ref} (hb : GoodBase nl b) (hp : b.path.getLast? = some 47) (hq : b.query = none) (hf : b.fragment = none)
    {rest : PStr} (hr : GoodRel ⟨none, none, rest, none, none⟩) (hne : rest ≠ []) (h47 : rest.head? ≠ some 47) (hd : Verif.Spec.removeDots (b.path ++ rest) = b.path ++ rest) :
    Joins nl b.text rest (b.text ++ rest) := by
  have ht : Verif.Spec.Ref.text ⟨none, none, rest, none, none⟩ = rest := by simp [Verif.Spec.Ref.text]
  have := C92_partial hnl hb hr (.inl (by rw [ht]; exact hne))
  rw [ht] at this
  rw [Joins, this]
  congr 1
  obtain ⟨sc, au, pa, qu, fr⟩ := b
  simp only at hf hq hp hd
  subst hf hq
  have h1 : rest.take 1 ≠ [47] := by
    cases rest with
    | nil => simp
    | cons c r => simpa using h47
  obtain ⟨q, rfl⟩ := List.getLast?_eq_some_iff.1 hp
  have hm : Verif.Spec.mergePaths ⟨sc, au, q ++ [47], none, none⟩ rest = q ++ [47] ++ rest := by
    rw [Verif.Spec.mergePaths, if_neg (by simp)]
    simp
  rw [Verif.Spec.resolve, if_neg (by simp), if_neg (by simp), if_neg hne, if_neg h1, hm, hd]
  simp [Verif.Spec.Ref.text]

/-! ### C97 with a base, C118 -/

/-- A triple that survives, with a base and names for blank nodes. -/
def SafeTriAt (nl : PStr → Bool) (m : PrefixMap) (b : PStr) (namer : Namer) (t : Verif.Spec.Tri) : Prop :=
  SafeSubjAt nl m b namer t.s ∧ (∃ i, t.p = .named i ∧ SafeIriAt nl m b i ∧ i ≠ Heap.rdfNs ++ py! "rest") ∧ SafeNodeAt nl m b namer t.o

/-- A triple that is written as Turtle: as `SafeTriAt`, and the object may be a plain literal. -/
def TextTriAt (nl : PStr → Bool) (m : PrefixMap) (b : PStr) (namer : Namer) (t : Verif.Spec.Tri) : Prop :=
  SafeSubjAt nl m b namer t.s ∧ (∃ i, t.p = .named i ∧ SafeIriAt nl m b i ∧ i ≠ Heap.rdfNs ++ py! "rest") ∧ TextNodeAt nl m b namer t.o

theorem SafeTriAt.text {nl : PStr → Bool} {m : PrefixMap} {b : PStr} {namer : Namer} {t : Verif.Spec.Tri} (h : SafeTriAt nl m b namer t) : TextTriAt nl m b namer t :=
  ⟨h.1, h.2.1, h.2.2.text⟩

theorem safeGraphAt_run {nl : PStr → Bool} {m : PrefixMap} {b : PStr} {namer : Namer} (u : Term) (ops : List Verif.Spec.GOp) (hs : ∀ t ∈ Verif.Spec.runSet ops, TextTriAt nl m b namer t)
    (live : ∀ t ∈ everAdded ops, ∃ t' ∈ Verif.Spec.runSet ops, t'.s = t.s) : SafeGraphAt nl m b namer (Graph.run u ops) := by
  have rep := Graph.rep_run u ops
  refine ⟨rep.inv, fun x hx => ?_, fun x hx => ?_, fun x hx => ?_, fun x hx => ?_⟩
  · obtain ⟨t, ht, rfl⟩ := (rep.mem x).1 hx; exact (hs t ht).1
  · obtain ⟨t, ht, rfl⟩ := (rep.mem x).1 hx; exact (hs t ht).2.1
  · obtain ⟨t, ht, rfl⟩ := (rep.mem x).1 hx; exact (hs t ht).2.2
  · obtain ⟨t, ht, rfl⟩ := ((C04_lists_ever_added u ops).1.2 x).1 hx
    obtain ⟨t', ht', e⟩ := live t ht
    exact ⟨t'.stmt, (rep.mem _).2 ⟨t', ht', rfl⟩, e⟩

/-- Full statement of C118: if a graph of well-formed triples is written, with different labels for its blank nodes, what is written is read as the same graph, up to the choice of blank nodes. -/
def C118_statement : Prop := ∀ (nl : PStr → Bool) (u : Term) (ops : List Verif.Spec.GOp) (o : Orders) (fuel : Nat) (base : Option PStr) (m : Option PrefixMap) (f : Nat → PStr) (text : PStr),
  Orders.OK o → SafeNamer f → (∀ t ∈ everAdded ops, WellFormed t) → serializeTurtle o World.new fuel (Graph.run u ops) base m (some f) = .ok text →
  ∀ n, ∃ n' ts ρ, parseText nl [] n text = .ok (n', ts) ∧ Renames ρ (Graph.run u ops).triples n n' ∧ ∀ x, x ∈ ts ↔ ∃ t ∈ Verif.Spec.runSet ops, x = t.stmt.rename ρ

/-- C118 with plain literals: they come back with the datatype `xsd:string` (`asRead`), and everything else is the same. Missing: lists, and everything that is not safe. -/
theorem C118_plain_partial {nl : PStr → Bool} {m : PrefixMap} {base : Option PStr} (hm : SafeProfileAt nl m (base.getD [])) {namer : Namer} (u : Term) (ops : List Verif.Spec.GOp)
    (hs : ∀ t ∈ Verif.Spec.runSet ops, TextTriAt nl m (base.getD []) namer t) (live : ∀ t ∈ everAdded ops, ∃ t' ∈ Verif.Spec.runSet ops, t'.s = t.s) {o : Orders} (ho : Orders.OK o)
    {w : World} (fuel : Nat) (hr : resolveKey w listC (py! "rdf:rest") = .ok (some (Heap.rdfNs ++ py! "rest"))) :
    ∃ text, serializeTurtle o w fuel (Graph.run u ops) base (some m) namer = .ok text ∧
      ∀ n u', ∃ g n' ρ, parse (fun g t => g.add t) nl [] n (Graph.new u') (.str text) = (g, n', .ok ()) ∧ Renames ρ (Graph.run u ops).triples n n' ∧
        ∀ x, g.contains x = true ↔ ∃ t ∈ Verif.Spec.runSet ops, x = (readStmt t.stmt).rename ρ := by
  have rep := Graph.rep_run u ops
  obtain ⟨text, h1, h2⟩ := written_is_read hm (safeGraphAt_run u ops hs live) ho (w := w) fuel hr
  refine ⟨text, h1, fun n u' => ?_⟩
  obtain ⟨n', ts, ρ, h3, h4, h5⟩ := h2 n
  refine ⟨(Graph.new u').addAll ts, n', ρ, ?_, h5, fun x => ?_⟩
  · simp only [parse, h3]; rfl
  · rw [Graph.contains, decide_eq_true_eq, Graph.mem_addAll, h4.mem_iff, List.mem_map]
    constructor
    · rintro (⟨t, ht, rfl⟩ | h)
      · obtain ⟨t, ht', rfl⟩ := (rep.mem t).1 ht
        exact ⟨t, ht', rfl⟩
      · simp [Graph.new] at h
    · rintro ⟨t, ht, rfl⟩
      exact .inl ⟨_, (rep.mem _).2 ⟨t, ht, rfl⟩, rfl⟩

/-- C118 for safe triples, any history in which every subject still has a triple, and any base: the graph is written, and reading the text into a new graph makes the same graph, up to a
    one-to-one choice of new blank nodes. Missing: lists, and everything that is not safe. -/
theorem C118_round_trip_partial {nl : PStr → Bool} {m : PrefixMap} {base : Option PStr} (hm : SafeProfileAt nl m (base.getD [])) {namer : Namer} (u : Term) (ops : List Verif.Spec.GOp)
    (hs : ∀ t ∈ Verif.Spec.runSet ops, SafeTriAt nl m (base.getD []) namer t) (live : ∀ t ∈ everAdded ops, ∃ t' ∈ Verif.Spec.runSet ops, t'.s = t.s) {o : Orders} (ho : Orders.OK o)
    {w : World} (fuel : Nat) (hr : resolveKey w listC (py! "rdf:rest") = .ok (some (Heap.rdfNs ++ py! "rest"))) :
    ∃ text, serializeTurtle o w fuel (Graph.run u ops) base (some m) namer = .ok text ∧
      ∀ n u', ∃ g n' ρ, parse (fun g t => g.add t) nl [] n (Graph.new u') (.str text) = (g, n', .ok ()) ∧ Renames ρ (Graph.run u ops).triples n n' ∧
        ∀ x, g.contains x = true ↔ ∃ t ∈ Verif.Spec.runSet ops, x = t.stmt.rename ρ := by
  obtain ⟨text, h1, h2⟩ := C118_plain_partial hm u ops (fun t ht => (hs t ht).text) live ho (w := w) fuel hr
  refine ⟨text, h1, fun n u' => ?_⟩
  obtain ⟨g, n', ρ, h3, h4, h5⟩ := h2 n u'
  refine ⟨g, n', ρ, h3, h4, fun x => (h5 x).trans ?_⟩
  have key : ∀ t ∈ Verif.Spec.runSet ops, readStmt t.stmt = t.stmt := fun t ht => by
    have := (hs t ht).2.2.asRead
    simp [readStmt, Verif.Spec.Tri.stmt, mkTriple, this]
  exact ⟨fun ⟨t, ht, e⟩ => ⟨t, ht, by rw [e, key t ht]⟩, fun ⟨t, ht, e⟩ => ⟨t, ht, by rw [e, key t ht]⟩⟩

/-- C97 with a base: a graph of safe triples without blank nodes is read as the same graph. -/
theorem C97_base_partial {nl : PStr → Bool} {m : PrefixMap} {base : Option PStr} (hm : SafeProfileAt nl m (base.getD [])) (namer : Namer) (u : Term) (ops : List Verif.Spec.GOp)
    (hs : ∀ t ∈ Verif.Spec.runSet ops, Ground t ∧ SafeTriAt nl m (base.getD []) namer t) (live : ∀ t ∈ everAdded ops, ∃ t' ∈ Verif.Spec.runSet ops, t'.s = t.s) {o : Orders} (ho : Orders.OK o)
    {w : World} (fuel : Nat) (hr : resolveKey w listC (py! "rdf:rest") = .ok (some (Heap.rdfNs ++ py! "rest"))) :
    ∃ text, serializeTurtle o w fuel (Graph.run u ops) base (some m) namer = .ok text ∧
      ∀ n u', ∃ g n', parse (fun g t => g.add t) nl [] n (Graph.new u') (.str text) = (g, n', .ok ()) ∧
        ∀ x, g.contains x = true ↔ ∃ t ∈ Verif.Spec.runSet ops, x = t.stmt := by
  obtain ⟨text, h1, h2⟩ := C118_round_trip_partial hm u ops (fun t ht => (hs t ht).2) live ho fuel hr
  refine ⟨text, h1, fun n u' => ?_⟩
  obtain ⟨g, n', ρ, h3, _, h5⟩ := h2 n u'
  refine ⟨g, n', h3, fun x => (h5 x).trans ?_⟩
  have key : ∀ t ∈ Verif.Spec.runSet ops, t.stmt.rename ρ = t.stmt := by
    intro t ht
    obtain ⟨⟨⟨i, a⟩, ⟨j, b⟩, c⟩, _⟩ := hs t ht
    obtain ⟨s, p, o⟩ := t
    simp only at a b c
    subst a b
    rcases c with ⟨k, rfl⟩ | ⟨v, l, d, rfl⟩ <;> rfl
  constructor
  · rintro ⟨t, ht, rfl⟩; exact ⟨t, ht, key t ht⟩
  · rintro ⟨t, ht, rfl⟩; exact ⟨t, ht, (key t ht).symm⟩

/-- With a base that does not end in `#` or `/`, IRIs are cut where the reader does not join them. -/
theorem C97_base_cut : serializeTurtle {} World.new 0 (Graph.run .none [.add ⟨.named (py! "http://e/abc"), .named (py! "x:p"), .named (py! "x:o")⟩]) (some (py! "http://e/a")) =
      .ok (py! "@base <http://e/a> .\n@prefix xsd: <http://www.w3.org/2001/XMLSchema#> .\n<bc> <x:p> <x:o> ;\n     .\n\n") ∧
    parseText (fun _ => true) [] 0 (py! "@base <http://e/a> .\n@prefix xsd: <http://www.w3.org/2001/XMLSchema#> .\n<bc> <x:p> <x:o> ;\n     .\n\n") =
      .ok (0, [mkTriple (.named (py! "http://e/bc")) (.named (py! "x:p")) (.named (py! "x:o"))]) := ⟨rfl, rfl⟩

/-- Labels `_:b0`, `_:b00`, `_:b000`, ... -/
def exNamer (i : Nat) : PStr := 0x5F :: 0x3A :: 98 :: List.replicate (i + 1) 48

theorem exNamer_safe : SafeNamer exNamer := by
  have ht : ∀ n, DotTail (List.replicate n 48) := fun n => by
    refine ⟨fun c hc => ?_, fun h => ?_⟩
    · obtain ⟨_, rfl⟩ := List.mem_replicate.1 hc
      exact .inl (by simp [Spec.pnChars, isDigitChar])
    · have := List.mem_of_getLast? h
      simp at this
  refine ⟨fun i => ⟨98, _, rfl, .inl (by simp [Spec.pnCharsU, Spec.pnCharsBase, isAlpha]), ht _⟩, fun i j h => ?_⟩
  have := congrArg List.length h
  simp [exNamer] at this
  exact this

theorem C118_refuted : ¬ C118_statement := by
  intro h
  obtain ⟨n', ts, ρ, h1, h2, h3⟩ := h (fun _ => true) .none [.add ⟨.named (py! "http://e/abc"), .named (py! "x:p"), .named (py! "x:o")⟩] {} 0 (some (py! "http://e/a")) none exNamer _
    Orders.OK.default exNamer_safe (by
      intro t ht
      simp [everAdded] at ht
      subst ht
      exact ⟨.inl ⟨_, rfl⟩, ⟨_, rfl⟩, .inl ⟨_, rfl⟩⟩) C97_base_cut.1 0
  rw [C97_base_cut.2] at h1
  cases h1
  obtain ⟨t, ht, e⟩ := (h3 _).1 (List.mem_singleton_self _)
  have : Verif.Spec.runSet [.add ⟨.named (py! "http://e/abc"), .named (py! "x:p"), .named (py! "x:o")⟩] = {⟨.named (py! "http://e/abc"), .named (py! "x:p"), .named (py! "x:o")⟩} := by decide
  rw [this, Finset.mem_singleton] at ht
  subst ht
  simp [mkTriple, Verif.Spec.Tri.stmt, Stmt.rename, Term.rename] at e

/-- C62 with a base, and for blank nodes: the text of a safe node, as the object of a statement after the written declarations, is read as that node, or as a new blank node. (`x:s` and `x:p`
    stand for themselves with every base that `urllib` can parse, `joins_alone`.) -/
theorem C62_base_partial {nl : PStr → Bool} {m : PrefixMap} {base : Option PStr} (hm : SafeProfileAt nl m (base.getD [])) {namer : Namer} {x : Term}
    (hx : SafeNodeAt nl m (base.getD []) namer x) (hj : Joins nl (base.getD []) (py! "x:s") (py! "x:s") ∧ Joins nl (base.getD []) (py! "x:p") (py! "x:p")) (n : Nat)
    {nm : Names} (hn : NInv namer nm) :
    ∃ nm' w n' ρ, name ⟨m, base, namer⟩ nm x = .ok (nm', w) ∧
      parseText nl [] n (docAbout base m w) = .ok (n', [mkTriple (.named (py! "x:s")) (.named (py! "x:p")) (x.rename ρ)]) ∧ ∀ b, x = .bnode b → n ≤ ρ b ∧ ρ b < n' := by
  obtain ⟨nm', w, t, h1, hn', _, _, h2, h3⟩ := node_frag_at hm.toSafeProfile hx.text hn
  rw [hx.asRead] at h3
  have l1 : LegalIri (py! "x:s") := by unfold LegalIri; decide
  have l2 : LegalIri (py! "x:p") := by unfold LegalIri; decide
  let d : PTStmt := .node (.iri (.ref (py! "x:s"))) (.last (.iri (.ref (py! "x:p"))) (.one (.leaf t)) 0)
  have hp : Plainly lark (docToks (docDecls base m ++ [d])) (docAbout base m w) := by
    rw [docToks, List.flatMap_append, docAbout, List.append_assoc, List.append_assoc]
    refine header_frag_at .plainly hm.names hm.baseLegal ?_
    have e1 : ([d].flatMap TStmt.toks) = .iri (.ref (py! "x:s")) :: .iri (.ref (py! "x:p")) :: (t.toks ++ [.dot]) := by
      simp [d, TStmt.toks, Pol.toks, Objs.toks, Obj.toks, NodeTok.toks, VerbTok.toks]
    have e2 : (py! "<x:s> <x:p> " ++ (w ++ py! " .") : PStr) = (60 :: (py! "x:s" ++ [62])) ++ (32 :: ((60 :: (py! "x:p" ++ [62])) ++ (32 :: (w ++ (32 :: [46]))))) := by simp
    rw [e1, e2]
    refine Plainly.tok (.ref l1.body) trivial (Plainly.white (.inl rfl) (Plainly.tok (.ref l2.body) trivial (Plainly.white (.inl rfl) (h2.plainly _ _ (.inr ⟨32, [46], rfl, .inl rfl⟩) (Plainly.white (.inl rfl) ?_)))))
    exact Plainly.tok (r := []) .dot (by intro c h; cases h) (.nil (.inl .nil))
  obtain ⟨bs, y, k1, k2, _, k4⟩ := h3 n _ (agreesAt_declared hm.toSafeProfile (base.getD []) { map := [], next := n }) (BState.OK.init n)
  have hev : evalStmts nl { base := base.getD [], prefixes := declared m initialPrefixes, bn := { map := [], next := n } } [d] =
      .ok ({ base := base.getD [], prefixes := declared m initialPrefixes, bn := bs }, [.node (.named (py! "x:s")) (.last (.named (py! "x:p")) (.one (.leaf y)) 0)]) := by
    have i1 : evalIri nl { base := base.getD [], prefixes := declared m initialPrefixes, bn := { map := [], next := n } } (.ref (py! "x:s")) = .ok (py! "x:s") := l1.resolveAt hj.1
    have i2 : evalIri nl { base := base.getD [], prefixes := declared m initialPrefixes, bn := { map := [], next := n } } (.ref (py! "x:p")) = .ok (py! "x:p") := l2.resolveAt hj.2
    simp only [evalStmts, d, evalStmt, evalNode, i1, evalPol, evalVerb, i2, evalObjs, evalObj, k1, Except.map]
  obtain ⟨k, hk⟩ := eval_docDecls hm hev
  have hgk : ∀ k, genStmts bs.next (List.replicate k .directive ++ [.node (.named (py! "x:s")) (.last (.named (py! "x:p")) (.one (.leaf y)) 0)]) =
      (bs.next, [mkTriple (.named (py! "x:s")) (.named (py! "x:p")) y]) := by
    intro k
    induction k with
    | zero => rfl
    | succ k ih => rw [List.replicate_succ, List.cons_append, genStmts]; simp [genStmt, ih]
  have hren := renames_readAs hn' k2 (ts := [mkTriple (.named (py! "x:s")) (.named (py! "x:p")) x]) (us := [mkTriple (.named (py! "x:s")) (.named (py! "x:p")) y]) fun ρ hρ => by
    rw [k4 ρ hρ]; rfl
  refine ⟨nm', w, bs.next, readAs nm' bs, h1, ?_, fun b hb => hren.fresh _ (List.mem_singleton_self _) b (.inr (.inr hb))⟩
  rw [parseText, C96_exact hp]
  show (match evalStmts nl { base := [], prefixes := initialPrefixes, bn := { map := [], next := n } } (docDecls base m ++ [d]) with | .error _ => _ | .ok (st, es) => _) = _
  rw [hk]
  show Except.ok (genStmts bs.next _) = _
  rw [hgk, k4 _ (compat_readAs nm' bs)]

/-! A graph that meets the hypotheses: a base that ends in `#`, blank nodes, an IRI inside the base, one outside, and one that a namespace applies to. -/

def exBase : Verif.Spec.Ref := ⟨some (py! "http"), some (py! "e"), py! "/a", none, some []⟩

theorem exBase_good : GoodBase (fun _ => true) exBase :=
  { wf := { scheme := by rintro _ ⟨⟩; exact ⟨_, _, rfl, by decide, by decide⟩
            authority := by rintro _ ⟨⟩; decide
            path := by decide
            pathAuth := by decide
            pathNoAuth := by simp [exBase]
            pathNoScheme := by simp [exBase]
            query := by simp [exBase]
            visible := by decide }
    scheme := ⟨_, rfl, by decide⟩
    authority := ⟨_, rfl, by decide, rfl⟩
    noEmpty := by decide
    noSemi := by decide
    query := by simp [exBase] }

theorem exBase_text : exBase.text = py! "http://e/a#" := by decide

theorem alone_x (c : Nat) (hc : 97 ≤ c ∧ c ≤ 122) : StandsAlone (fun _ => true) [120, 58, c] := by
  refine ⟨⟨some [120], none, [c], none, none⟩, [120], rfl, ?_, rfl, rfl, .inl (by decide)⟩
  refine { scheme := by rintro _ ⟨⟩; exact ⟨_, _, rfl, by decide, by simp⟩
           authority := by simp
           path := by simp; omega
           pathAuth := by simp
           pathNoAuth := by simp
           pathNoScheme := by simp
           query := by simp
           visible := by simp [Verif.Spec.Ref.text]; omega }

theorem exProfile : SafeProfileAt (fun _ => true) defaultPrefixes exBase.text := by
  refine { safe_default with baseLegal := by rw [exBase_text]; unfold LegalIri; decide, joins := ?_ }
  intro e he hne
  rw [exBase_text]
  simp only [defaultPrefixes, List.mem_cons, List.not_mem_nil, or_false] at he
  rcases he with rfl | rfl
  · exact absurd rfl hne
  · show smartUrljoin _ _ _ = _; decide

theorem safe_short_at {i : PStr} (hne : i ≠ []) (hl : LegalIri i) (h : i.length < 20) (habs : ¬ exBase.text <+: i → Joins (fun _ => true) exBase.text i i)
    (hrel : ∀ rest, i = exBase.text ++ rest → ¬ exBase.text <:+: rest) : SafeIriAt (fun _ => true) defaultPrefixes exBase.text i := by
  refine ⟨hne, hl, fun p ns rest hc e => ?_, habs, fun _ _ rest e => ⟨hrel rest e, ?_⟩⟩
  · obtain ⟨a, b, e1, h1, _⟩ := hc
    have hm : (p, ns) ∈ defaultPrefixes := by rw [e1]; simp
    have : 20 ≤ ns.length := by
      simp only [defaultPrefixes, List.mem_cons, List.not_mem_nil, or_false, Prod.mk.injEq] at hm
      rcases hm with ⟨rfl, rfl⟩ | ⟨rfl, rfl⟩ <;> decide
    have := List.IsPrefix.length_le h1
    simp at this
    omega
  · rw [if_pos (by decide), e]
    exact joins_hash rfl exBase_good rfl fun c hc => hl c (by rw [e]; exact List.mem_append_right _ hc)

example : Joins (fun _ => true) (py! "http://e/d/") (py! "b/c") (py! "http://e/d/b/c") := by
  refine joins_slash (b := ⟨some (py! "http"), some (py! "e"), py! "/d/", none, none⟩) rfl ?_ (by decide) rfl rfl ?_ (by decide) (by decide) (by decide)
  · exact { wf := { scheme := by rintro _ ⟨⟩; exact ⟨_, _, rfl, by decide, by decide⟩
                    authority := by rintro _ ⟨⟩; decide
                    path := by decide
                    pathAuth := by decide
                    pathNoAuth := by simp
                    pathNoScheme := by simp
                    query := by simp
                    visible := by decide }
            scheme := ⟨_, rfl, by decide⟩, authority := ⟨_, rfl, by decide, rfl⟩, noEmpty := by decide, noSemi := by decide, query := by simp }
  · exact { wf := { scheme := by simp
                    authority := by simp
                    path := by decide
                    pathAuth := by simp
                    pathNoAuth := by decide
                    pathNoScheme := by decide
                    query := by simp
                    visible := by decide }
            scheme := rfl, authority := rfl, noEmpty := by decide, noSemi := by decide, noDotSemi := by decide, noDotsSemi := by decide, query := by simp }

def exBlank : List Verif.Spec.GOp :=
  [.add ⟨.bnode 7, .named (py! "x:p"), .named (py! "http://e/a#b")⟩, .add ⟨.named (py! "http://e/a#b"), .named (py! "x:p"), .bnode 7⟩, .add ⟨.bnode 7, .named (py! "x:p"), .bnode 3⟩]

example : serializeTurtle {} World.new 0 (Graph.run .none exBlank) (some exBase.text) (some defaultPrefixes) (some exNamer) =
    .ok (py! "@base <http://e/a#> .\n@prefix xsd: <http://www.w3.org/2001/XMLSchema#> .\n<#b> <x:p> _:b0 ;\n     .\n\n_:b0 <x:p> <#b>,\n           _:b00 ;\n     .\n\n") := rfl

example := C118_round_trip_partial (base := some exBase.text) (namer := some exNamer) exProfile .none exBlank
  (by
    intro t ht
    have : Verif.Spec.runSet exBlank = {⟨.bnode 7, .named (py! "x:p"), .named (py! "http://e/a#b")⟩, ⟨.named (py! "http://e/a#b"), .named (py! "x:p"), .bnode 7⟩,
      ⟨.bnode 7, .named (py! "x:p"), .bnode 3⟩} := by decide
    rw [this] at ht
    simp only [Finset.mem_insert, Finset.mem_singleton] at ht
    have hp : SafeIriAt (fun _ => true) defaultPrefixes exBase.text (py! "x:p") := safe_short_at (by decide) (by unfold LegalIri; decide) (by decide)
      (fun _ => joins_alone exBase_good (alone_x 112 (by decide))) (fun rest e => by
        have := congrArg List.head? e
        rw [exBase_text] at this
        cases this)
    have hb : SafeIriAt (fun _ => true) defaultPrefixes exBase.text (py! "http://e/a#b") := safe_short_at (by decide) (by unfold LegalIri; decide) (by decide)
      (fun h => absurd (by decide) h) (fun rest e => by
        have : rest.length = 1 := by have := congrArg List.length e; rw [exBase_text] at this; simp at this; omega
        intro hi
        have := hi.length_le
        rw [exBase_text] at this
        simp at this
        omega)
    have hn : ∀ k, SafeSubjAt (fun _ => true) defaultPrefixes exBase.text (some exNamer) (.bnode k) := fun k => .inr ⟨⟨k, rfl⟩, _, rfl, exNamer_safe⟩
    rcases ht with rfl | rfl | rfl
    · exact ⟨hn 7, ⟨_, rfl, hp, by decide⟩, .iri hb⟩
    · exact ⟨.inl ⟨_, rfl, hb⟩, ⟨_, rfl, hp, by decide⟩, .bnode rfl exNamer_safe⟩
    · exact ⟨hn 7, ⟨_, rfl, hp, by decide⟩, .bnode rfl exNamer_safe⟩)
  (by decide) Orders.OK.default 0 resolveKey_rest

end Verif.Turtle
