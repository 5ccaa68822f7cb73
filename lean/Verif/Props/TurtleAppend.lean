import Verif.Props.SameFile
import Verif.Props.CutTurtle
/-! C176: the Turtle texts of two graphs, written one after the other to the same file. -/
namespace Verif.Turtle
open Verif.Turtle.Spec

theorem evalStmts_concat {nl : PStr → Bool} : ∀ {a b : List PTStmt} {st st1 st2 : TState} {e1 e2 : List EStmt}, evalStmts nl st a = .ok (st1, e1) → evalStmts nl st1 b = .ok (st2, e2) →
    evalStmts nl st (a ++ b) = .ok (st2, e1 ++ e2)
  | [], b, st, st1, st2, e1, e2, h, h' => by
    simp only [evalStmts, Except.ok.injEq, Prod.mk.injEq] at h
    obtain ⟨rfl, rfl⟩ := h
    exact h'
  | x :: a, b, st, st1, st2, e1, e2, h, h' => by
    rw [evalStmts] at h
    rw [List.cons_append, evalStmts]
    cases hx : evalStmt nl st x with
    | error e => rw [hx] at h; cases h
    | ok r =>
      obtain ⟨s1, y⟩ := r
      rw [hx] at h
      dsimp only at h ⊢
      cases hy : evalStmts nl s1 a with
      | error e => rw [hy] at h; cases h
      | ok r =>
        obtain ⟨s2, ys⟩ := r
        rw [hy] at h
        cases h
        rw [evalStmts_concat hy h']
        rfl

/-- The directives of a text that comes after another. -/
theorem eval_docDecls_after {m : PrefixMap} {nl : PStr → Bool} {B : PStr} {base : Option PStr} (hm : SafeProfileAt nl m (base.getD [])) (hB : base = none → B = [])
    (hj : ∀ b, base = some b → Joins nl B b b) {P : PrefixMap} {ds : List PTStmt} {st' : TState} {es : List EStmt} {bn : BState}
    (hev : evalStmts nl { base := base.getD [], prefixes := declared m P, bn } ds = .ok (st', es)) :
    ∃ k, evalStmts nl { base := B, prefixes := P, bn } (docDecls base m ++ ds) = .ok (st', List.replicate k .directive ++ es) := by
  have h1 : ∀ e ∈ m, LegalIri e.2 := fun e he => (hm.names e he).2
  cases base with
  | none => obtain rfl := hB rfl; exact eval_decls h1 hm.joins (st := { base := [], prefixes := P, bn }) rfl hev
  | some b =>
    obtain ⟨k, hk⟩ := eval_decls h1 hm.joins (st := { base := b, prefixes := P, bn }) rfl hev
    refine ⟨k + 1, ?_⟩
    show (match evalStmt nl { base := B, prefixes := P, bn } (.base false b) with | .error e => _ | .ok (st, s) => _) = _
    have hr : resolveRef nl B b = .ok b := hm.baseLegal.resolveAt (hj b rfl)
    rw [evalStmt, hr]
    show (match evalStmts nl { base := b, prefixes := P, bn } (declStmts m ++ ds) with | .error e => _ | .ok (st, ss) => _) = _
    rw [hk]; rfl

theorem declared_rdf {m P : PrefixMap} (hm : SafeProfile m) : Dict.get? (declared m P) (py! "rdf") = Dict.get? P (py! "rdf") := by
  rw [declared_get _ hm.wf, if_pos rfl]

/-- The prefixes of the last directives count. -/
theorem agreesAt_after {m P : PrefixMap} (hm : SafeProfile m) (hP : Dict.get? P (py! "rdf") = Dict.get? initialPrefixes (py! "rdf")) (b : PStr) (bn : BState) :
    AgreesAt b m { base := b, prefixes := declared m P, bn } := by
  refine ⟨rfl, fun e he => ?_⟩
  obtain ⟨p, ns⟩ := e
  show Dict.get? (declared m P) p = some ns
  rw [declared_get _ hm.wf]
  split
  · next h => rw [h] at he ⊢; rw [hP, hm.rdf ns he]; rfl
  · rw [get?_of_mem hm.wf he]; rfl

/-- The text of a graph, as the beginning of a file. -/
theorem written_frag {nl : PStr → Bool} {m : PrefixMap} {base : Option PStr} (hm : SafeProfileAt nl m (base.getD [])) {namer : Namer} {g : Graph}
    (hg : SafeGraphAt nl m (base.getD []) namer g) {o : Orders} (ho : Orders.OK o) {w : World} (fuel : Nat)
    (hr : resolveKey w listC (py! "rdf:rest") = .ok (some (Heap.rdfNs ++ py! "rest"))) :
    ∃ text nm ds, ∃ ts : List Stmt, serializeTurtle o w fuel g base (some m) namer = .ok text ∧ NInv namer nm ∧
      (∀ r tks, Plainly lark tks r → Plainly lark (docToks (docDecls base m ++ ds) ++ tks) (text ++ r)) ∧
      (∀ n0 st, AgreesAt (base.getD []) m st → BState.OK n0 st.bn → ∃ bs es, evalStmts nl st ds = .ok ({ st with bn := bs }, es) ∧ BState.OK n0 bs ∧ st.bn.Ext bs ∧
        ∀ ρ, Compat ρ nm bs → ∀ n, genStmts n es = (n, ts.map (fun t => (readStmt t).rename ρ))) ∧ ts.Perm g.triples := by
  have hno : ∀ t ∈ g.triples, t.p ≠ .named (Heap.rdfNs ++ py! "rest") := fun t ht h => by
    obtain ⟨j, h1, _, h2⟩ := hg.pred t ht
    rw [h] at h1; cases h1; exact h2 rfl
  obtain ⟨nm, ss, h1, hn, _, h2, h3⟩ := sortedNames_at (base := base) hm.toSafeProfile (NInv.empty namer) (ts := g.subjects) hg.inv.wspo.1 (fun s hs => by
    obtain ⟨t, ht, rfl⟩ := hg.live s hs
    exact hg.subj t ht)
  obtain ⟨nm', X, ds, ts, a1, hn', _, _, a2, a3, a5, a6, -⟩ := subjs_frag_at hm.toSafeProfile hg ho (c := listC) (fuel := fuel) hr ss nm hn
    (fun e he => ⟨h2.mem_iff.1 (List.mem_map.2 ⟨e, he, rfl⟩), h3 e he⟩) (h2.nodup_iff.2 hg.inv.wspo.1)
  refine ⟨header base m ++ X, nm', ds, ts, ?_, hn', fun r tks h => ?_, a3, ?_⟩
  · simp only [serializeTurtle, Option.getD_some, plainSubjects_all g.subjects fun x _ => isList_false hno hg.inv ho.stmts hr x, h1, a1]
  · have := header_frag_at .plainly hm.names hm.baseLegal (a2 r tks h)
    simpa [docToks] using this
  · refine (List.perm_ext_iff_of_nodup a5 hg.inv.nodup).2 fun t => ?_
    rw [a6, h2.mem_iff]
    exact ⟨fun h => h.1, fun h => ⟨h, Idx.mem_keys_of_find ((hg.inv.spo _ _ _ t).2 ⟨h, rfl, rfl, rfl⟩)⟩⟩

theorem gen_directives (k n : Nat) (es : List EStmt) : genStmts n (List.replicate k .directive ++ es) = genStmts n es := by
  induction k with
  | zero => rfl
  | succ k ih => rw [List.replicate_succ, List.cons_append, genStmts]; simp [genStmt, ih]

/-- **C176, what is read**: the texts of two graphs, one after the other, are read as the triples of the first graph and those of the second, plain literals typed, each with its own blank nodes
    renamed one to one. A blank node of the first may become the same as one of the second (`C176_refuted`). The profiles may differ; the second base, if there is one, is absolute. -/
theorem C176_exact {nl : PStr → Bool} {m m' : PrefixMap} {base base' : Option PStr} (hm : SafeProfileAt nl m (base.getD [])) (hm' : SafeProfileAt nl m' (base'.getD []))
    (hB : base' = none → base.getD [] = []) (hj : ∀ b, base' = some b → Joins nl (base.getD []) b b) {namer namer' : Namer} (u u' : Term) (ops ops' : List Verif.Spec.GOp)
    (hs : ∀ t ∈ Verif.Spec.runSet ops, TextTriAt nl m (base.getD []) namer t) (hs' : ∀ t ∈ Verif.Spec.runSet ops', TextTriAt nl m' (base'.getD []) namer' t)
    (live : ∀ t ∈ everAdded ops, ∃ t' ∈ Verif.Spec.runSet ops, t'.s = t.s) (live' : ∀ t ∈ everAdded ops', ∃ t' ∈ Verif.Spec.runSet ops', t'.s = t.s)
    {o o' : Orders} (ho : Orders.OK o) (ho' : Orders.OK o') {w w' : World} (fuel fuel' : Nat) (hr : resolveKey w listC (py! "rdf:rest") = .ok (some (Heap.rdfNs ++ py! "rest")))
    (hr' : resolveKey w' listC (py! "rdf:rest") = .ok (some (Heap.rdfNs ++ py! "rest"))) :
    ∃ text text', serializeTurtle o w fuel (Graph.run u ops) base (some m) namer = .ok text ∧ serializeTurtle o' w' fuel' (Graph.run u' ops') base' (some m') namer' = .ok text' ∧
      ∀ n, ∃ n' ρ ρ', ∃ ts ts' : List Stmt, parseText nl [] n (text ++ text') = .ok (n', ts ++ ts') ∧
        ts.Perm ((Graph.run u ops).triples.map fun t => (readStmt t).rename ρ) ∧ ts'.Perm ((Graph.run u' ops').triples.map fun t => (readStmt t).rename ρ') ∧
        Renames ρ (Graph.run u ops).triples n n' ∧ Renames ρ' (Graph.run u' ops').triples n n' := by
  obtain ⟨text, nm, ds, us, a1, a2, a3, a4, a5⟩ := written_frag hm (safeGraphAt_run u ops hs live) ho (w := w) fuel hr
  obtain ⟨text', nm', ds', us', b1, b2, b3, b4, b5⟩ := written_frag hm' (safeGraphAt_run u' ops' hs' live') ho' (w := w') fuel' hr'
  refine ⟨text, text', a1, b1, fun n => ?_⟩
  obtain ⟨bs, es, k1, k2, -, k4⟩ := a4 n _ (agreesAt_after hm.toSafeProfile rfl (base.getD []) { map := [], next := n }) (BState.OK.init n)
  obtain ⟨bs', es', l1, l2, l3, l4⟩ := b4 n _ (agreesAt_after hm'.toSafeProfile (declared_rdf hm.toSafeProfile) (base'.getD []) bs) k2
  obtain ⟨q, hq⟩ := eval_docDecls_after hm' hB hj l1
  obtain ⟨p, hp⟩ := eval_docDecls hm (evalStmts_concat k1 hq)
  have hpl : Plainly lark (docToks (docDecls base m ++ (ds ++ (docDecls base' m' ++ ds')))) (text ++ text') := by
    have := a3 _ _ (b3 [] [] (.nil (.inl .nil)))
    simpa [docToks] using this
  have gen : ∀ {ρ ρ'}, Compat ρ nm bs' → Compat ρ' nm' bs' → ∀ n, genStmts n (List.replicate p .directive ++ (es ++ (List.replicate q .directive ++ es'))) =
      (n, us.map (fun t => (readStmt t).rename ρ) ++ us'.map fun t => (readStmt t).rename ρ') := by
    intro ρ ρ' h h' n
    rw [gen_directives, genStmts_app, k4 ρ (h.mono (.refl _) l3)]
    dsimp only
    rw [gen_directives, l4 ρ' h']
  have hren : ∀ {us0 : List Stmt} {g : Graph} {nm0 : Names} {namer0 : Namer} {es0 : List EStmt}, NInv namer0 nm0 → us0.Perm g.triples →
      (∀ ρ, Compat ρ nm0 bs' → ∀ n, genStmts n es0 = (n, us0.map fun t => (readStmt t).rename ρ)) → Renames (readAs nm0 bs') g.triples n bs'.next := by
    intro us0 g nm0 namer0 es0 H1 H2 H3
    have hren := renames_readAs H1 l2 (ts := us0.map readStmt) (us := (genStmts 0 es0).2) fun ρ hρ => by rw [H3 ρ hρ, List.map_map]; rfl
    have hin : ∀ t ∈ g.triples, readStmt t ∈ us0.map readStmt := fun t ht => List.mem_map.2 ⟨t, H2.mem_iff.2 ht, rfl⟩
    exact ⟨fun t ht t' ht' b b' hb hb' => hren.inj _ (hin t ht) _ (hin t' ht') b b' (hasBnode_readStmt hb) (hasBnode_readStmt hb'),
      fun t ht b hb => hren.fresh _ (hin t ht) b (hasBnode_readStmt hb)⟩
  refine ⟨bs'.next, readAs nm bs', readAs nm' bs', _, _, ?_, a5.map _, b5.map _, hren a2 a5 fun ρ hρ => k4 ρ (hρ.mono (.refl _) l3), hren b2 b5 l4⟩
  rw [parseText, C96_exact hpl]
  show (match evalStmts nl { base := [], prefixes := initialPrefixes, bn := { map := [], next := n } } (docDecls base m ++ (ds ++ (docDecls base' m' ++ ds'))) with
    | .error _ => _ | .ok (st, es) => _) = _
  rw [hp]
  show Except.ok (genStmts bs'.next _) = _
  rw [gen (compat_readAs nm bs') (compat_readAs nm' bs')]

/-- The triples of one graph and of another, with blank nodes renamed one to one. -/
def ReadAsUnion (ts : List Stmt) (n n' : Nat) (g g' : Graph) : Prop :=
  ∃ ρ, Renames ρ (g.triples ++ g'.triples) n n' ∧ ∀ x, x ∈ ts ↔ ∃ t ∈ g.triples ++ g'.triples, x = t.rename ρ

/-- Full statement of C176: the texts of two graphs, one after the other, are read as the triples of both, up to a one-to-one choice of blank nodes. For graphs each of which comes back alone
    (C118). -/
def C176_statement : Prop := ∀ (nl : PStr → Bool) (m : PrefixMap) (base : Option PStr) (f : Nat → PStr) (u u' : Term) (ops ops' : List Verif.Spec.GOp) (o o' : Orders) (fuel n : Nat)
  (text text' : PStr), SafeProfileAt nl m (base.getD []) → (∀ b, base = some b → Joins nl b b b) → SafeNamer f → Orders.OK o → Orders.OK o' →
  (∀ t ∈ everAdded ops ++ everAdded ops', SafeTriAt nl m (base.getD []) (some f) t) → (∀ t ∈ everAdded ops, ∃ t' ∈ Verif.Spec.runSet ops, t'.s = t.s) →
  (∀ t ∈ everAdded ops', ∃ t' ∈ Verif.Spec.runSet ops', t'.s = t.s) →
  serializeTurtle o World.new fuel (Graph.run u ops) base (some m) (some f) = .ok text → serializeTurtle o' World.new fuel (Graph.run u' ops') base (some m) (some f) = .ok text' →
  ∃ n' ts, parseText nl [] n (text ++ text') = .ok (n', ts) ∧ ReadAsUnion ts n n' (Graph.run u ops) (Graph.run u' ops')

theorem joins_exBase : Joins (fun _ => true) exBase.text exBase.text exBase.text := by rfl

/-- One triple with a blank node. -/
def appendOps (a : Nat) (i : PStr) : List Verif.Spec.GOp := [.add ⟨.bnode a, .named (py! "x:p"), .named i⟩]

theorem appendOps_safe {a : Nat} {i : PStr} (h : i = py! "x:p" ∨ i = py! "http://e/a#b") : ∀ t ∈ everAdded (appendOps a i), SafeTriAt (fun _ => true) defaultPrefixes exBase.text (some exNamer) t := by
  intro t ht
  simp only [appendOps, everAdded, List.flatMap_cons, List.flatMap_nil, List.append_nil, List.mem_cons, List.not_mem_nil, or_false] at ht
  subst ht
  refine ⟨.inr ⟨⟨a, rfl⟩, _, rfl, exNamer_safe⟩, ⟨_, rfl, safeAt_xp, by decide⟩, ?_⟩
  rcases h with rfl | rfl
  · exact .iri safeAt_xp
  · exact .iri safeAt_ab

set_option maxRecDepth 20000 in
/-- The blank nodes of two graphs get the same label, and are read as one. -/
theorem C176_conflated :
    serializeTurtle {} World.new 0 (Graph.run .none (appendOps 1 (py! "x:p"))) (some exBase.text) (some defaultPrefixes) (some exNamer) =
      .ok (py! "@base <http://e/a#> .\n@prefix xsd: <http://www.w3.org/2001/XMLSchema#> .\n_:b0 <x:p> <x:p> ;\n     .\n\n") ∧
    serializeTurtle {} World.new 0 (Graph.run .none (appendOps 2 (py! "http://e/a#b"))) (some exBase.text) (some defaultPrefixes) (some exNamer) =
      .ok (py! "@base <http://e/a#> .\n@prefix xsd: <http://www.w3.org/2001/XMLSchema#> .\n_:b0 <x:p> <#b> ;\n     .\n\n") ∧
    parseText (fun _ => true) [] 0 (py! "@base <http://e/a#> .\n@prefix xsd: <http://www.w3.org/2001/XMLSchema#> .\n_:b0 <x:p> <x:p> ;\n     .\n\n" ++
        py! "@base <http://e/a#> .\n@prefix xsd: <http://www.w3.org/2001/XMLSchema#> .\n_:b0 <x:p> <#b> ;\n     .\n\n") =
      .ok (1, [mkTriple (.bnode 0) (.named (py! "x:p")) (.named (py! "x:p")), mkTriple (.bnode 0) (.named (py! "x:p")) (.named (py! "http://e/a#b"))]) := ⟨rfl, rfl, rfl⟩

theorem C176_refuted : ¬ C176_statement := by
  intro h
  obtain ⟨h1, h2, h3⟩ := C176_conflated
  obtain ⟨n', ts, e, ρ, hρ, hx⟩ := h (fun _ => true) defaultPrefixes (some exBase.text) exNamer .none .none (appendOps 1 (py! "x:p")) (appendOps 2 (py! "http://e/a#b")) {} {} 0 0 _ _
    exProfile (by rintro _ ⟨⟩; exact joins_exBase) exNamer_safe Orders.OK.default Orders.OK.default
    (fun t ht => (List.mem_append.1 ht).elim (appendOps_safe (.inl rfl) t) (appendOps_safe (.inr rfl) t)) (by decide) (by decide) h1 h2
  rw [h3] at e
  cases e
  have t1 : mkTriple (.bnode 1) (.named (py! "x:p")) (.named (py! "x:p")) ∈
      (Graph.run .none (appendOps 1 (py! "x:p"))).triples ++ (Graph.run .none (appendOps 2 (py! "http://e/a#b"))).triples := by decide
  have t2 : mkTriple (.bnode 2) (.named (py! "x:p")) (.named (py! "http://e/a#b")) ∈
      (Graph.run .none (appendOps 1 (py! "x:p"))).triples ++ (Graph.run .none (appendOps 2 (py! "http://e/a#b"))).triples := by decide
  have zero : ∀ t ∈ (Graph.run .none (appendOps 1 (py! "x:p"))).triples ++ (Graph.run .none (appendOps 2 (py! "http://e/a#b"))).triples, (t.rename ρ).s = .bnode 0 := by
    intro t ht
    have := (hx (t.rename ρ)).2 ⟨t, ht, rfl⟩
    simp only [List.mem_cons, List.not_mem_nil, or_false] at this
    rcases this with e | e <;> rw [e] <;> rfl
  have := hρ.inj _ t1 _ t2 1 2 (.inl rfl) (.inl rfl) ((Term.bnode.inj (zero _ t1)).trans (Term.bnode.inj (zero _ t2)).symm)
  exact absurd this (by decide)

theorem ground_bnode {t : Verif.Spec.Tri} (h : Ground t) (b : Nat) : ¬ HasBnode t.stmt b := by
  obtain ⟨s, p, x⟩ := t
  obtain ⟨⟨i, hi⟩, ⟨j, hj⟩, hx⟩ := h
  dsimp only at hi hj hx
  subst hi hj
  rcases hx with ⟨k, rfl⟩ | ⟨v, l, d, rfl⟩ <;> rintro (h | h | h) <;> cases h

/-- C176 if one of the graphs has no blank nodes. The profiles and names may differ. Missing: blank nodes in both. -/
theorem C176_partial {nl : PStr → Bool} {m m' : PrefixMap} {base base' : Option PStr} (hm : SafeProfileAt nl m (base.getD [])) (hm' : SafeProfileAt nl m' (base'.getD []))
    (hB : base' = none → base.getD [] = []) (hj : ∀ b, base' = some b → Joins nl (base.getD []) b b) {namer namer' : Namer} (u u' : Term) (ops ops' : List Verif.Spec.GOp)
    (hs : ∀ t ∈ Verif.Spec.runSet ops, SafeTriAt nl m (base.getD []) namer t) (hs' : ∀ t ∈ Verif.Spec.runSet ops', SafeTriAt nl m' (base'.getD []) namer' t)
    (hone : (∀ t ∈ Verif.Spec.runSet ops, Ground t) ∨ ∀ t ∈ Verif.Spec.runSet ops', Ground t)
    (live : ∀ t ∈ everAdded ops, ∃ t' ∈ Verif.Spec.runSet ops, t'.s = t.s) (live' : ∀ t ∈ everAdded ops', ∃ t' ∈ Verif.Spec.runSet ops', t'.s = t.s)
    {o o' : Orders} (ho : Orders.OK o) (ho' : Orders.OK o') {w w' : World} (fuel fuel' : Nat) (hr : resolveKey w listC (py! "rdf:rest") = .ok (some (Heap.rdfNs ++ py! "rest")))
    (hr' : resolveKey w' listC (py! "rdf:rest") = .ok (some (Heap.rdfNs ++ py! "rest"))) :
    ∃ text text', serializeTurtle o w fuel (Graph.run u ops) base (some m) namer = .ok text ∧ serializeTurtle o' w' fuel' (Graph.run u' ops') base' (some m') namer' = .ok text' ∧
      ∀ n, ∃ n' ts, parseText nl [] n (text ++ text') = .ok (n', ts) ∧ ReadAsUnion ts n n' (Graph.run u ops) (Graph.run u' ops') := by
  have rep := Graph.rep_run u ops
  have rep' := Graph.rep_run u' ops'
  obtain ⟨text, text', h1, h2, h3⟩ := C176_exact hm hm' hB hj u u' ops ops' (fun t ht => (hs t ht).text) (fun t ht => (hs' t ht).text) live live' ho ho' (w := w) (w' := w') fuel fuel' hr hr'
  refine ⟨text, text', h1, h2, fun n => ?_⟩
  obtain ⟨n', ρ, ρ', ts, ts', h4, h5, h6, h7, h8⟩ := h3 n
  have key : ∀ x ∈ (Graph.run u ops).triples, readStmt x = x := fun x hx => by
    obtain ⟨t, ht, rfl⟩ := (rep.mem x).1 hx
    have := (hs t ht).2.2.asRead
    simp [readStmt, Verif.Spec.Tri.stmt, mkTriple, this]
  have key' : ∀ x ∈ (Graph.run u' ops').triples, readStmt x = x := fun x hx => by
    obtain ⟨t, ht, rfl⟩ := (rep'.mem x).1 hx
    have := (hs' t ht).2.2.asRead
    simp [readStmt, Verif.Spec.Tri.stmt, mkTriple, this]
  have mem : ∀ x, x ∈ ts ++ ts' ↔ (∃ t ∈ (Graph.run u ops).triples, x = t.rename ρ) ∨ ∃ t ∈ (Graph.run u' ops').triples, x = t.rename ρ' := by
    intro x
    rw [List.mem_append, h5.mem_iff, h6.mem_iff, List.mem_map, List.mem_map]
    exact or_congr ⟨fun ⟨t, ht, e⟩ => ⟨t, ht, by rw [← e, key t ht]⟩, fun ⟨t, ht, e⟩ => ⟨t, ht, by rw [e, key t ht]⟩⟩
      ⟨fun ⟨t, ht, e⟩ => ⟨t, ht, by rw [← e, key' t ht]⟩, fun ⟨t, ht, e⟩ => ⟨t, ht, by rw [e, key' t ht]⟩⟩
  refine ⟨n', ts ++ ts', h4, ?_⟩
  rcases hone with hg | hg
  · have nb : ∀ x ∈ (Graph.run u ops).triples, ∀ b, ¬ HasBnode x b := fun x hx b => by
      obtain ⟨t, ht, rfl⟩ := (rep.mem x).1 hx; exact ground_bnode (hg t ht) b
    have same : ∀ x ∈ (Graph.run u ops).triples, x.rename ρ = x.rename ρ' := fun x hx => by
      obtain ⟨t, ht, rfl⟩ := (rep.mem x).1 hx
      have a := rename_ground (hg t ht) (hs t ht)
      rw [key _ hx] at a
      rw [a, a]
    refine ⟨ρ', ⟨fun t ht t' ht' b b' hb hb' e => ?_, fun t ht b hb => ?_⟩, fun x => ?_⟩
    · exact h8.inj t ((List.mem_append.1 ht).resolve_left fun h => nb t h b hb) t' ((List.mem_append.1 ht').resolve_left fun h => nb t' h b' hb') b b' hb hb' e
    · exact h8.fresh t ((List.mem_append.1 ht).resolve_left fun h => nb t h b hb) b hb
    · rw [mem]
      simp only [List.mem_append, or_and_right, exists_or]
      exact or_congr ⟨fun ⟨t, ht, e⟩ => ⟨t, ht, by rw [e, same t ht]⟩, fun ⟨t, ht, e⟩ => ⟨t, ht, by rw [e, same t ht]⟩⟩ Iff.rfl
  · have nb : ∀ x ∈ (Graph.run u' ops').triples, ∀ b, ¬ HasBnode x b := fun x hx b => by
      obtain ⟨t, ht, rfl⟩ := (rep'.mem x).1 hx; exact ground_bnode (hg t ht) b
    have same : ∀ x ∈ (Graph.run u' ops').triples, x.rename ρ = x.rename ρ' := fun x hx => by
      obtain ⟨t, ht, rfl⟩ := (rep'.mem x).1 hx
      have a := rename_ground (hg t ht) (hs' t ht)
      rw [key' _ hx] at a
      rw [a, a]
    refine ⟨ρ, ⟨fun t ht t' ht' b b' hb hb' e => ?_, fun t ht b hb => ?_⟩, fun x => ?_⟩
    · exact h7.inj t ((List.mem_append.1 ht).resolve_right fun h => nb t h b hb) t' ((List.mem_append.1 ht').resolve_right fun h => nb t' h b' hb') b b' hb hb' e
    · exact h7.fresh t ((List.mem_append.1 ht).resolve_right fun h => nb t h b hb) b hb
    · rw [mem]
      simp only [List.mem_append, or_and_right, exists_or]
      exact or_congr Iff.rfl ⟨fun ⟨t, ht, e⟩ => ⟨t, ht, by rw [e, same t ht]⟩, fun ⟨t, ht, e⟩ => ⟨t, ht, by rw [e, same t ht]⟩⟩

/-- A graph with blank nodes, and one without. -/
example := C176_partial (base := some exBase.text) (base' := some exBase.text) (namer := some exNamer) (namer' := none) exProfile exProfile (by simp) (by rintro _ ⟨⟩; exact joins_exBase) .none .none
  (samePair 7 3) [.add ⟨.named (py! "x:p"), .named (py! "x:p"), .named (py! "http://e/a#b")⟩] (fun t ht => samePair_safe t (runSet_everAdded t ht))
  (fun t ht => by
    have ht := runSet_everAdded t ht
    simp only [everAdded, List.flatMap_cons, List.flatMap_nil, List.append_nil, List.mem_cons, List.not_mem_nil, or_false] at ht
    subst ht
    exact ⟨.inl ⟨_, rfl, safeAt_xp⟩, ⟨_, rfl, safeAt_xp, by decide⟩, .iri safeAt_ab⟩)
  (.inr fun t ht => by
    have ht := runSet_everAdded t ht
    simp only [everAdded, List.flatMap_cons, List.flatMap_nil, List.append_nil, List.mem_cons, List.not_mem_nil, or_false] at ht
    subst ht
    exact ⟨⟨_, rfl⟩, ⟨_, rfl⟩, .inl ⟨_, rfl⟩⟩)
  (by decide) (by decide) Orders.OK.default Orders.OK.default 0 0 resolveKey_rest resolveKey_rest

end Verif.Turtle
