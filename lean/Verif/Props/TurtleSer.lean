import Verif.Props.TurtleTerm
import Verif.Lemmas.GraphRun
import Verif.Lemmas.ResRead
import Verif.Props.Graph
/-
C97: a graph written as Turtle and read again. C61: which graphs can be written.
-/
namespace Verif.Turtle
open Verif.Turtle.Spec

theorem objs_frag {m : PrefixMap} (hm : SafeProfile m) {o : Orders} {c fuel : Nat} {g : Graph} {namer : Namer} {w : World} (nm : Names) (indent : Nat) :
    ∀ (ts : List Stmt) (first : Bool), ts ≠ [] → (∀ t ∈ ts, SafeNode m t.o ∧ isList o w g c t.o = .ok false) →
      ∃ X os eos, objsText o c fuel g ⟨m, none, namer⟩ indent first ⟨w, nm⟩ ts = .ok (⟨w, nm⟩, (if first then [] else [44, 10] ++ spaces indent) ++ X) ∧
        Frag (Objs.toks os) X ∧ (∀ nl st, Agrees m st → evalObjs nl st os = .ok (st, eos)) ∧
        (∀ s v n, genMany s v n eos = (n, ts.map fun t => mkTriple s v t.o)) ∧ ∀ s v n, genObjs s v n eos = (n, ts.map fun t => mkTriple s v t.o) := by
  intro ts
  induction ts with
  | nil => intro _ h; exact absurd rfl h
  | cons t ts ih =>
    intro first _ hts
    obtain ⟨hsafe, hl⟩ := hts t (List.mem_cons_self ..)
    obtain ⟨x, lf, h1, h2, h3⟩ := node_frag hm hsafe
    have hobj : objText o c fuel g ⟨m, none, namer⟩ ⟨w, nm⟩ t.o = .ok (⟨w, nm⟩, x) := by simp only [objText, hl, h1 namer nm]
    have hev : ∀ nl st, Agrees m st → evalObj nl st (.leaf lf) = .ok (st, .leaf t.o) := fun nl st hst => by simp only [evalObj, h3 nl st hst]
    cases ts with
    | nil =>
      refine ⟨x, .one (.leaf lf), .one (.leaf t.o), ?_, h2, fun nl st hst => ?_, fun s v n => rfl, fun s v n => ?_⟩
      · simp [objsText, hobj]
      · simp only [evalObjs, hev nl st hst]
      · simp [genObjs, genObj]
    | cons t' ts' =>
      obtain ⟨X, os, eos, i1, i2, i3, i4, i5⟩ := ih false (by simp) fun t ht => hts t (List.mem_cons_of_mem _ ht)
      refine ⟨x ++ ([44, 10] ++ spaces indent) ++ X, .cons (.leaf lf) os, .cons (.leaf t.o) eos, ?_, ?_, fun nl st hst => ?_, fun s v n => ?_, fun s v n => ?_⟩
      · rw [objsText, hobj]
        show (match objsText o c fuel g ⟨m, none, namer⟩ indent false ⟨w, nm⟩ (t' :: ts') with | .error e => _ | .ok (st, rest) => _) = _
        rw [i1]
        simp
      · intro P hP r tks hr hp
        have e : (x ++ ([44, 10] ++ spaces indent) ++ X ++ r : PStr) = x ++ ([44] ++ (10 :: (spaces indent ++ (X ++ r)))) := by simp
        rw [e, Objs.toks, List.append_assoc, List.cons_append]
        exact h2 P hP _ _ (.inr ⟨44, _, rfl, .inr (.inl rfl)⟩) (hP.tok .comma trivial (hP.white (by simp [isWhite]) (hP.spaces (i2 P hP _ _ hr hp) _)))
      · simp only [evalObjs, hev nl st hst, i3 nl st hst]
      · simp [genMany, childTerm, i4]
      · simp [genObjs, genMany, childTerm, i4]

/-- The statements of a subject and predicate, in the order in which they are written. -/
theorem preds_frag {m : PrefixMap} (hm : SafeProfile m) {o : Orders} {c fuel : Nat} {g : Graph} {namer : Namer} {w : World} (nm : Names) (s : Term) (indent : Nat) :
    ∀ (ps : List (PStr × Term)) (first : Bool), ps ≠ [] →
      (∀ e ∈ ps, ∃ i, e = (iriRepr m none i, .named i) ∧ SafeIri m i ∧ g.match o.stmts s e.2 .none ≠ [] ∧
        ∀ t ∈ g.match o.stmts s e.2 .none, SafeNode m t.o ∧ isList o w g c t.o = .ok false) →
      ∃ X pol epol, predsText o c fuel g ⟨m, none, namer⟩ s indent first ⟨w, nm⟩ ps = .ok (⟨w, nm⟩, (if first then [] else spaces indent) ++ X) ∧
        (∀ r tks, Plainly lark tks r → Plainly lark (Pol.toks pol ++ tks) (X ++ r)) ∧ (∀ nl st, Agrees m st → evalPol nl st pol = .ok (st, epol)) ∧
        ∀ n, genPol s n epol = (n, ps.flatMap fun e => (g.match o.stmts s e.2 .none).map fun t => mkTriple s e.2 t.o) := by
  intro ps
  induction ps with
  | nil => intro _ h; exact absurd rfl h
  | cons e ps ih =>
    intro first _ hps
    obtain ⟨i, rfl, hi, hne, hts⟩ := hps e (List.mem_cons_self ..)
    obtain ⟨it, f1, f2⟩ := iri_frag hm hi
    obtain ⟨X, os, eos, g1, g2, g3, _, g5⟩ := objs_frag hm (o := o) (c := c) (fuel := fuel) (g := g) (namer := namer) (w := w) nm (indent + (iriRepr m none i).length + 1)
      (g.match o.stmts s (.named i) .none) true hne hts
    have hv : ∀ nl st, Agrees m st → evalVerb nl st (.iri it) = .ok (st, .named i) := fun nl st hst => by simp only [evalVerb, f2 nl st hst, Except.map]
    have hw : ∀ tks r, Plainly lark tks r → Plainly lark (.iri it :: (os.toks ++ .semi :: tks)) (iriRepr m none i ++ (32 :: (X ++ (32 :: ([59] ++ (10 :: r)))))) := fun tks r h =>
      f1.plainly _ _ (.inr ⟨32, _, rfl, .inl rfl⟩) (Plainly.white (.inl rfl) (g2.plainly _ _ (.inr ⟨32, _, rfl, .inl rfl⟩) (Plainly.white (.inl rfl)
        (Plainly.tok .semi trivial (Plainly.white (by simp [isWhite]) h)))))
    cases ps with
    | nil =>
      refine ⟨iriRepr m none i ++ [32] ++ X ++ [32, 59, 10], .last (.iri it) os 1, .last (.named i) eos 1, ?_, fun r tks h => ?_, fun nl st hst => ?_, fun n => ?_⟩
      · rw [predsText, g1]
        simp [predsText]
      · have := hw tks r h
        simpa [Pol.toks, VerbTok.toks] using this
      · simp only [evalPol, hv nl st hst, g3 nl st hst]
      · simp [genPol, g5]
    | cons e' ps' =>
      obtain ⟨Y, pol, epol, i1, i2, i3, i4⟩ := ih false (by simp) fun e he => hps e (List.mem_cons_of_mem _ he)
      refine ⟨iriRepr m none i ++ [32] ++ X ++ [32, 59, 10] ++ (spaces indent ++ Y), .cons (.iri it) os 0 pol, .cons (.named i) eos 0 epol, ?_, fun r tks h => ?_, fun nl st hst => ?_, fun n => ?_⟩
      · rw [predsText, g1]
        show (match predsText o c fuel g ⟨m, none, namer⟩ s indent false ⟨w, nm⟩ (e' :: ps') with | .error e => _ | .ok (st, rest) => _) = _
        rw [i1]
        simp
      · have := hw (pol.toks ++ tks) (spaces indent ++ (Y ++ r)) (Plainly.spaces (i2 r tks h) _)
        simpa [Pol.toks, VerbTok.toks] using this
      · simp only [evalPol, hv nl st hst, g3 nl st hst, i3 nl st hst]
      · simp [genPol, g5, i4]

/-! ### Sorting -/

theorem insertPair_perm (x : PStr × Term) : ∀ l, (insertPair x l).Perm (x :: l)
  | [] => .refl _
  | y :: ys => by
    rw [insertPair]
    split
    · exact .refl _
    · exact ((insertPair_perm x ys).cons y).trans (.swap ..)

theorem sort_perm : ∀ l : List (PStr × Term), (l.foldr insertPair []).Perm l
  | [] => .refl _
  | x :: l => (insertPair_perm x _).trans ((sort_perm l).cons x)

theorem names_named {m : PrefixMap} {base : Option PStr} {namer : Namer} (nm : Names) : ∀ ts : List Term, (∀ t ∈ ts, ∃ i, t = .named i) →
    ∃ xs, names ⟨m, base, namer⟩ nm ts = .ok (nm, xs) ∧ xs.map (·.2) = ts ∧ ∀ x ∈ xs, ∃ i, x = (iriRepr m base i, .named i)
  | [], _ => ⟨[], rfl, rfl, by simp⟩
  | t :: ts, h => by
    obtain ⟨i, rfl⟩ := h t (List.mem_cons_self ..)
    obtain ⟨xs, h1, h2, h3⟩ := names_named (m := m) (base := base) (namer := namer) nm ts fun t ht => h t (List.mem_cons_of_mem _ ht)
    refine ⟨(iriRepr m base i, .named i) :: xs, ?_, by simp [h2], ?_⟩
    · rw [names]
      show (match names ⟨m, base, namer⟩ nm ts with | .error e => _ | .ok (nm, xs) => _) = _
      rw [h1]
    · intro x hx
      rcases List.mem_cons.1 hx with rfl | hx
      · exact ⟨i, rfl⟩
      · exact h3 x hx

theorem incomparable_named : ∀ xs : List (PStr × Term), (∀ x ∈ xs, x.2.isNamed = true) → incomparable xs = false
  | [], _ => rfl
  | x :: xs, h => by
    rw [incomparable, incomparable_named xs fun y hy => h y (List.mem_cons_of_mem _ hy)]
    simp [h x (List.mem_cons_self ..)]
    intro a b hab _
    exact h _ (List.mem_cons_of_mem _ hab)

theorem sortedNames_named {m : PrefixMap} {base : Option PStr} {namer : Namer} (nm : Names) {ts : List Term} (h : ∀ t ∈ ts, ∃ i, t = .named i) :
    ∃ xs, sortedNames ⟨m, base, namer⟩ nm ts = .ok (nm, xs) ∧ (xs.map (·.2)).Perm ts ∧ ∀ x ∈ xs, ∃ i, x = (iriRepr m base i, .named i) := by
  obtain ⟨xs, h1, h2, h3⟩ := names_named (m := m) (base := base) (namer := namer) nm ts h
  refine ⟨xs.foldr insertPair [], ?_, h2 ▸ (sort_perm xs).map _, fun x hx => h3 x ((sort_perm xs).mem_iff.1 hx)⟩
  rw [sortedNames, h1]
  show (if _ then _ else _) = _
  rw [if_neg]
  rw [incomparable_named xs fun x hx => by obtain ⟨i, rfl⟩ := h3 x hx; rfl]
  simp

/-! ### Subjects -/

/-- What C97 asks of a graph. -/
structure SafeGraph (m : PrefixMap) (g : Graph) : Prop where
  inv : Graph.Inv g
  subj : ∀ t ∈ g.triples, ∃ i, t.s = .named i ∧ SafeIri m i
  pred : ∀ t ∈ g.triples, ∃ i, t.p = .named i ∧ SafeIri m i ∧ i ≠ Heap.rdfNs ++ py! "rest"
  obj : ∀ t ∈ g.triples, SafeNode m t.o
  live : ∀ s ∈ g.subjects, ∃ t ∈ g.triples, t.s = s

theorem isList_false {g : Graph} (hg : ∀ t ∈ g.triples, t.p ≠ .named (Heap.rdfNs ++ py! "rest")) (inv : Graph.Inv g) {o : Orders} (ho : Verif.Spec.IsOrder o.stmts) {w : World} {c : Nat}
    (hr : resolveKey w c (py! "rdf:rest") = .ok (some (Heap.rdfNs ++ py! "rest"))) (x : Term) : isList o w g c x = .ok false := by
  rw [isList, hr]
  show Except.ok (decide _) = _
  have : g.match o.stmts x (.named (Heap.rdfNs ++ py! "rest")) .none = [] := by
    apply List.eq_nil_iff_forall_not_mem.2
    intro t ht
    obtain ⟨h1, _, h2, _⟩ := (Graph.mem_match inv ho x _ .none t).1 ht
    exact hg t h1 (h2 rfl)
  simp [predTerm, this]

/-- The triples of a subject, in the order in which they are written. -/
def writtenOf (o : Orders) (g : Graph) (s : Term) (ps : List Term) : List Stmt := ps.flatMap fun p => (g.match o.stmts s p .none).map fun t => mkTriple s p t.o

theorem safeIri_truthy {m : PrefixMap} {i : PStr} (h : SafeIri m i) : (Term.named i).truthy = true := by
  cases i with
  | nil => exact absurd rfl h.ne
  | cons => rfl

theorem subj_frag {m : PrefixMap} (hm : SafeProfile m) {g : Graph} (hg : SafeGraph m g) {o : Orders} (ho : Orders.OK o) {c fuel : Nat} {namer : Namer} {w : World} (nm : Names)
    (hr : resolveKey w c (py! "rdf:rest") = .ok (some (Heap.rdfNs ++ py! "rest"))) {i : PStr} (hi : .named i ∈ g.subjects) :
    ∃ X d e ts, subjText o c fuel g ⟨m, none, namer⟩ ⟨w, nm⟩ (iriRepr m none i) (.named i) = .ok (⟨w, nm⟩, X) ∧
      (∀ r tks, Plainly lark tks r → Plainly lark (TStmt.toks d ++ tks) (X ++ r)) ∧ (∀ nl st, Agrees m st → evalStmt nl st d = .ok (st, e)) ∧
      (∀ n, genStmt n e = (n, ts)) ∧ ts.Nodup ∧ ∀ t, t ∈ ts ↔ t ∈ g.triples ∧ t.s = .named i := by
  obtain ⟨t0, ht0, hs0⟩ := hg.live _ hi
  have hsi : SafeIri m i := by
    obtain ⟨j, h1, h2⟩ := hg.subj t0 ht0
    rw [hs0] at h1; cases h1; exact h2
  have htr := safeIri_truthy hsi
  have hno : ∀ t ∈ g.triples, t.p ≠ .named (Heap.rdfNs ++ py! "rest") := fun t ht h => by
    obtain ⟨j, h1, _, h2⟩ := hg.pred t ht
    rw [h] at h1; cases h1; exact h2 rfl
  let preds := o.terms (pySet ((g.match o.stmts (.named i) .none .none).map (·.p)))
  have mem_preds : ∀ p, p ∈ preds ↔ ∃ t ∈ g.triples, t.s = .named i ∧ t.p = p := by
    intro p
    rw [(ho.terms _).mem_iff, mem_pySet, List.mem_map]
    constructor
    · rintro ⟨t, ht, rfl⟩
      obtain ⟨h1, h2, _⟩ := (Graph.mem_match hg.inv ho.stmts _ _ _ t).1 ht
      exact ⟨t, h1, h2 htr, rfl⟩
    · rintro ⟨t, h1, h2, rfl⟩
      exact ⟨t, (Graph.mem_match hg.inv ho.stmts _ _ _ t).2 ⟨h1, fun _ => h2, (by intro h; cases h), (by intro h; cases h)⟩, rfl⟩
  obtain ⟨ps, h1, h2, h3⟩ := sortedNames_named (m := m) (base := none) (namer := namer) nm (ts := preds) (fun p hp => by
    obtain ⟨t, ht, _, rfl⟩ := (mem_preds p).1 hp
    obtain ⟨j, hj, _⟩ := hg.pred t ht
    exact ⟨j, hj⟩)
  have mem_ps : ∀ e ∈ ps, ∃ t ∈ g.triples, t.s = .named i ∧ t.p = e.2 := fun e he => (mem_preds e.2).1 (h2.mem_iff.1 (List.mem_map.2 ⟨e, he, rfl⟩))
  have mem_m : ∀ e ∈ ps, ∀ t, t ∈ g.match o.stmts (.named i) e.2 .none ↔ t ∈ g.triples ∧ t.s = .named i ∧ t.p = e.2 := by
    intro e he t
    obtain ⟨t1, ht1, _, hp1⟩ := mem_ps e he
    obtain ⟨j, hj, hj2, _⟩ := hg.pred t1 ht1
    have hpt : e.2.truthy = true := by rw [← hp1, hj]; exact safeIri_truthy hj2
    rw [Graph.mem_match hg.inv ho.stmts]
    constructor
    · rintro ⟨a, b, c, _⟩; exact ⟨a, b htr, c hpt⟩
    · rintro ⟨a, b, c⟩; exact ⟨a, fun _ => b, fun _ => c, by intro h; cases h⟩
  have hne : ps ≠ [] := by
    rintro rfl
    have := h2.mem_iff.2 ((mem_preds t0.p).2 ⟨t0, ht0, hs0, rfl⟩)
    simp at this
  obtain ⟨X, pol, epol, p1, p2, p3, p4⟩ := preds_frag hm (o := o) (c := c) (fuel := fuel) (g := g) (namer := namer) (w := w) nm (.named i) ((iriRepr m none i).length + 1) ps true hne (by
    intro e he
    obtain ⟨t1, ht1, hs1, hp1⟩ := mem_ps e he
    obtain ⟨j, rfl⟩ := h3 e he
    obtain ⟨j', hj, hj2, _⟩ := hg.pred t1 ht1
    rw [hp1] at hj; cases hj
    refine ⟨_, rfl, hj2, fun h => ?_, fun t ht => ⟨hg.obj t ((mem_m _ he t).1 ht).1, isList_false hno hg.inv ho.stmts hr _⟩⟩
    have := (mem_m _ he t1).2 ⟨ht1, hs1, hp1⟩
    rw [h] at this; cases this)
  obtain ⟨it, f1, f2⟩ := iri_frag hm hsi
  have hmap : ∀ e ∈ ps, (g.match o.stmts (.named i) e.2 .none).map (fun t => mkTriple (.named i) e.2 t.o) = g.match o.stmts (.named i) e.2 .none := by
    intro e he
    conv => rhs; rw [← List.map_id (g.match o.stmts (.named i) e.2 .none)]
    apply List.map_congr_left
    intro t ht
    obtain ⟨a, b, c⟩ := (mem_m e he t).1 ht
    have := hg.inv.isTri t a
    cases t; simp_all [mkTriple]
  refine ⟨iriRepr m none i ++ [32] ++ X ++ spaces ((iriRepr m none i).length + 1) ++ [46, 10, 10], .node (.iri it) pol, .node (.named i) epol, _, ?_, fun r tks h => ?_, fun nl st hst => ?_, fun n => p4 n, ?_, fun t => ?_⟩
  · show (match sortedNames ⟨m, none, namer⟩ nm preds with | .error e => _ | .ok (nm, ps) => _) = _
    rw [h1]
    show (match predsText o c fuel g ⟨m, none, namer⟩ (.named i) ((iriRepr m none i).length + 1) true ⟨w, nm⟩ ps with | .error e => _ | .ok (st, t) => _) = _
    rw [p1]
    simp
  · have e : (iriRepr m none i ++ [32] ++ X ++ spaces ((iriRepr m none i).length + 1) ++ [46, 10, 10] ++ r : PStr) =
        iriRepr m none i ++ (32 :: (X ++ (spaces ((iriRepr m none i).length + 1) ++ ([46] ++ (10 :: (10 :: r)))))) := by simp
    have e2 : (TStmt.toks (.node (.iri it) pol) ++ tks : List Tok) = [.iri it] ++ (pol.toks ++ (.dot :: tks)) := by simp [TStmt.toks, NodeTok.toks]
    rw [e, e2]
    refine f1.plainly _ _ (.inr ⟨32, _, rfl, .inl rfl⟩) (Plainly.white (.inl rfl) (p2 _ _ (Plainly.spaces (Plainly.tok .dot ?_ (Plainly.white (by simp [isWhite]) (Plainly.white (by simp [isWhite]) h))) _)))
    intro c hc
    cases hc
    simp [isDigitChar]
  · simp only [evalStmt, evalLeaf_iri (f2 nl st hst), p3 nl st hst, Except.map]
  · rw [List.nodup_iff_pairwise_ne, List.pairwise_flatMap]
    refine ⟨fun e he => ?_, ?_⟩
    · rw [hmap e he]; exact List.nodup_iff_pairwise_ne.1 (Graph.nodup_match hg.inv.toIxInv ho.stmts _ _ _)
    · have nd : (ps.map (·.2)).Nodup := h2.nodup_iff.2 ((ho.terms _).nodup_iff.2 (nodup_pySet _))
      refine (List.pairwise_map.1 (List.nodup_iff_pairwise_ne.1 nd)).imp fun {a b} hab x hx y hy => ?_
      obtain ⟨_, _, rfl⟩ := List.mem_map.1 hx
      obtain ⟨_, _, rfl⟩ := List.mem_map.1 hy
      intro h; injection h with _ h; exact hab h
  · rw [List.mem_flatMap]
    constructor
    · rintro ⟨e, he, ht⟩
      rw [hmap e he] at ht
      obtain ⟨a, b, _⟩ := (mem_m e he t).1 ht
      exact ⟨a, b⟩
    · rintro ⟨a, b⟩
      obtain ⟨e, he, hep⟩ := List.mem_map.1 (h2.mem_iff.2 ((mem_preds t.p).2 ⟨t, a, b, rfl⟩))
      exact ⟨e, he, by rw [hmap e he]; exact (mem_m e he t).2 ⟨a, b, hep.symm⟩⟩

theorem subjs_frag {m : PrefixMap} (hm : SafeProfile m) {g : Graph} (hg : SafeGraph m g) {o : Orders} (ho : Orders.OK o) {c fuel : Nat} {namer : Namer} {w : World} (nm : Names)
    (hr : resolveKey w c (py! "rdf:rest") = .ok (some (Heap.rdfNs ++ py! "rest"))) :
    ∀ ss : List (PStr × Term), (∀ e ∈ ss, e.2 ∈ g.subjects ∧ ∃ i, e = (iriRepr m none i, .named i)) → (ss.map (·.2)).Nodup →
      ∃ X ds es ts, subjsText o c fuel g ⟨m, none, namer⟩ ⟨w, nm⟩ ss = .ok (⟨w, nm⟩, X) ∧ Plainly lark (docToks ds) X ∧
        (∀ nl st, Agrees m st → evalStmts nl st ds = .ok (st, es)) ∧ (∀ n, genStmts n es = (n, ts)) ∧ ts.Nodup ∧
        ∀ t, t ∈ ts ↔ t ∈ g.triples ∧ t.s ∈ ss.map (·.2)
  | [], _, _ => ⟨[], [], [], [], rfl, .nil (.inl .nil), fun _ _ _ => rfl, fun _ => rfl, .nil, by simp⟩
  | e :: ss, h, nd => by
    obtain ⟨hs, i, rfl⟩ := h e (List.mem_cons_self ..)
    obtain ⟨X, d, e, ts, a1, a2, a3, a4, a5, a6⟩ := subj_frag hm hg ho (c := c) (fuel := fuel) (namer := namer) nm hr hs
    obtain ⟨Y, ds, es, us, b1, b2, b3, b4, b5, b6⟩ := subjs_frag hm hg ho (c := c) (fuel := fuel) (namer := namer) nm hr ss (fun e he => h e (List.mem_cons_of_mem _ he)) (List.nodup_cons.1 nd).2
    refine ⟨X ++ Y, d :: ds, e :: es, ts ++ us, ?_, a2 _ _ b2, fun nl st hst => ?_, fun n => ?_, ?_, fun t => ?_⟩
    · simp only [subjsText, a1, b1]
    · simp only [evalStmts, a3 nl st hst, b3 nl st hst]
    · simp [genStmts, a4, b4]
    · rw [List.nodup_append]
      refine ⟨a5, b5, fun x hx y hy hxy => ?_⟩
      subst hxy
      have h1 := ((a6 x).1 hx).2
      have h2 := ((b6 x).1 hy).2
      rw [h1] at h2
      exact (List.nodup_cons.1 nd).1 h2
    · rw [List.mem_append, a6, b6, List.map_cons, List.mem_cons]
      constructor
      · rintro (⟨a, b⟩ | ⟨a, b⟩)
        · exact ⟨a, .inl b⟩
        · exact ⟨a, .inr b⟩
      · rintro ⟨a, b | b⟩
        · exact .inl ⟨a, b⟩
        · exact .inr ⟨a, b⟩

theorem plainSubjects_all {o : Orders} {w : World} {c : Nat} {g : Graph} : ∀ l : List Term, (∀ x ∈ l, isList o w g c x = .ok false) → plainSubjects o w c g l = .ok l
  | [], _ => rfl
  | x :: l, h => by
    rw [plainSubjects, h x (List.mem_cons_self ..)]
    show (match plainSubjects o w c g l with | .error e => _ | .ok rest => _) = _
    rw [plainSubjects_all l fun x hx => h x (List.mem_cons_of_mem _ hx)]
    rfl

/-- C97 for safe graphs in safe profiles, without a base: the writer succeeds, and the parser reads from its text every triple of the graph once, and no other triple. -/
theorem C97_round_trip_partial {m : PrefixMap} (hm : SafeProfile m) {g : Graph} (hg : SafeGraph m g) {o : Orders} (ho : Orders.OK o) {w : World} (fuel : Nat) (namer : Namer)
    (hr : resolveKey w listC (py! "rdf:rest") = .ok (some (Heap.rdfNs ++ py! "rest"))) :
    ∃ text, serializeTurtle o w fuel g none (some m) namer = .ok text ∧
      ∀ nl n, ∃ ts, parseText nl [] n text = .ok (n, ts) ∧ ts.Perm g.triples := by
  have hno : ∀ t ∈ g.triples, t.p ≠ .named (Heap.rdfNs ++ py! "rest") := fun t ht h => by
    obtain ⟨j, h1, _, h2⟩ := hg.pred t ht
    rw [h] at h1; cases h1; exact h2 rfl
  obtain ⟨ss, h1, h2, h3⟩ := sortedNames_named (m := m) (base := none) (namer := namer) {} (ts := g.subjects) (fun s hs => by
    obtain ⟨t, ht, rfl⟩ := hg.live s hs
    obtain ⟨i, hi, _⟩ := hg.subj t ht
    exact ⟨i, hi⟩)
  obtain ⟨X, ds, es, ts, a1, a2, a3, a4, a5, a6⟩ := subjs_frag hm hg ho (c := listC) (fuel := fuel) (namer := namer) {} hr ss
    (fun e he => ⟨h2.mem_iff.1 (List.mem_map.2 ⟨e, he, rfl⟩), h3 e he⟩) (h2.nodup_iff.2 hg.inv.wspo.1)
  refine ⟨header none m ++ X, ?_, fun nl n => ⟨ts, ?_, ?_⟩⟩
  · simp only [serializeTurtle, Option.getD_some, plainSubjects_all g.subjects fun x _ => isList_false hno hg.inv ho.stmts hr x, h1, a1]
  · have hp : Plainly lark (docToks (declStmts m ++ ds)) (header none m ++ X) := by
      rw [docToks, List.flatMap_append]; exact header_frag .plainly hm.names a2
    rw [parseText, C96_exact hp]
    have hA := agrees_declared hm { map := [], next := n }
    obtain ⟨k, hk⟩ := eval_header (st := { base := [], prefixes := initialPrefixes, bn := { map := [], next := n } }) hm.names nl rfl (a3 nl _ hA)
    show (match evalStmts nl { base := [], prefixes := initialPrefixes, bn := { map := [], next := n } } (declStmts m ++ ds) with | .error _ => _ | .ok (st, es) => _) = _
    rw [hk]
    show Except.ok (genStmts n _) = _
    have hgk : ∀ k, genStmts n (List.replicate k .directive ++ es) = (n, ts) := by
      intro k
      induction k with
      | zero => exact a4 n
      | succ k ih => rw [List.replicate_succ, List.cons_append, genStmts]; simp [genStmt, ih]
    rw [hgk]
  · refine (List.perm_ext_iff_of_nodup a5 hg.inv.nodup).2 fun t => ?_
    rw [a6, h2.mem_iff]
    exact ⟨fun h => h.1, fun h => ⟨h, Idx.mem_keys_of_find ((hg.inv.spo _ _ _ t).2 ⟨h, rfl, rfl, rfl⟩)⟩⟩

/-! ### C97 -/

/-- Terms without blank nodes, and with IRIs where RDF wants them. -/
def Ground (t : Verif.Spec.Tri) : Prop :=
  (∃ i, t.s = .named i) ∧ (∃ i, t.p = .named i) ∧ ((∃ i, t.o = .named i) ∨ ∃ v l d, t.o = .lit v l d)

/-- Full statement of C97: what is written for a graph without blank nodes, if anything, is read as the same set of triples. -/
def C97_statement : Prop := ∀ (u : Term) (ops : List Verif.Spec.GOp) (o : Orders) (fuel : Nat) (base : Option PStr) (m : Option PrefixMap) (namer : Namer) (text : PStr),
  Orders.OK o → (∀ t ∈ everAdded ops, Ground t) → serializeTurtle o World.new fuel (Graph.run u ops) base m namer = .ok text →
  ∀ nl n, ∃ n' ts, parseText nl [] n text = .ok (n', ts) ∧ ∀ x, x ∈ ts ↔ ∃ t ∈ Verif.Spec.runSet ops, x = t.stmt

/-- A triple that survives. -/
def SafeTri (m : PrefixMap) (t : Verif.Spec.Tri) : Prop :=
  (∃ i, t.s = .named i ∧ SafeIri m i) ∧ (∃ i, t.p = .named i ∧ SafeIri m i ∧ i ≠ Heap.rdfNs ++ py! "rest") ∧ SafeNode m t.o

/-- C97 for graphs with any history, if every subject it ever had still has a triple, and its triples are safe: the graph is written, and reading it into a new graph makes an equal
    graph. (With a base: `C97_base_partial`; blank nodes: C118.) Missing: lists, and everything that is not safe (of which some is read as other triples or not at all: `C62_refuted`, `C97_refuted`). -/
theorem C97_same_graph_partial {m : PrefixMap} (hm : SafeProfile m) (u : Term) (ops : List Verif.Spec.GOp) (hs : ∀ t ∈ Verif.Spec.runSet ops, SafeTri m t)
    (live : ∀ t ∈ everAdded ops, ∃ t' ∈ Verif.Spec.runSet ops, t'.s = t.s) {o : Orders} (ho : Orders.OK o) {w : World} (fuel : Nat) (namer : Namer)
    (hr : resolveKey w listC (py! "rdf:rest") = .ok (some (Heap.rdfNs ++ py! "rest"))) :
    ∃ text, serializeTurtle o w fuel (Graph.run u ops) none (some m) namer = .ok text ∧
      ∀ nl n u', ∃ g, parse (fun g t => g.add t) nl [] n (Graph.new u') (.str text) = (g, n, .ok ()) ∧
        ∀ x, g.contains x = true ↔ ∃ t ∈ Verif.Spec.runSet ops, x = t.stmt := by
  have rep := Graph.rep_run u ops
  have hg : SafeGraph m (Graph.run u ops) := by
    refine ⟨rep.inv, fun x hx => ?_, fun x hx => ?_, fun x hx => ?_, fun x hx => ?_⟩
    · obtain ⟨t, ht, rfl⟩ := (rep.mem x).1 hx; exact (hs t ht).1
    · obtain ⟨t, ht, rfl⟩ := (rep.mem x).1 hx; exact (hs t ht).2.1
    · obtain ⟨t, ht, rfl⟩ := (rep.mem x).1 hx; exact (hs t ht).2.2
    · obtain ⟨t, ht, rfl⟩ := ((C04_lists_ever_added u ops).1.2 x).1 hx
      obtain ⟨t', ht', e⟩ := live t ht
      exact ⟨t'.stmt, (rep.mem _).2 ⟨t', ht', rfl⟩, e⟩
  obtain ⟨text, h1, h2⟩ := C97_round_trip_partial hm hg ho fuel namer hr
  refine ⟨text, h1, fun nl n u' => ?_⟩
  obtain ⟨ts, h3, h4⟩ := h2 nl n
  refine ⟨(Graph.new u').addAll ts, ?_, fun x => ?_⟩
  · simp only [parse, h3]; rfl
  · rw [Graph.contains, decide_eq_true_eq, Graph.mem_addAll, h4.mem_iff, rep.mem]
    simp [Graph.new]

def exTri : Verif.Spec.Tri := ⟨.named (py! "x:s"), .named (py! "x:p"), .named (py! "x:o")⟩

/-- A subject all of whose triples were removed is still written, without a predicate; no parser reads that. -/
theorem C97_stale_subject : serializeTurtle {} World.new 0 (Graph.run .none [.add exTri, .remove exTri]) =
      .ok (py! "@prefix xsd: <http://www.w3.org/2001/XMLSchema#> .\n<x:s>       .\n\n") ∧
    parseText (fun _ => true) [] 0 (py! "@prefix xsd: <http://www.w3.org/2001/XMLSchema#> .\n<x:s>       .\n\n") = .error .unexpectedInput := ⟨rfl, rfl⟩

theorem C97_refuted : ¬ C97_statement := by
  intro h
  obtain ⟨n', ts, h1, _⟩ := h .none [.add exTri, .remove exTri] {} 0 none none none _ Orders.OK.default (by
    intro t ht
    simp [everAdded] at ht
    subst ht
    exact ⟨⟨_, rfl⟩, ⟨_, rfl⟩, .inl ⟨_, rfl⟩⟩) C97_stale_subject.1 (fun _ => true) 0
  rw [C97_stale_subject.2] at h1
  cases h1

/-! ### C61 -/

/-- Well-formed triples. -/
def WellFormed (t : Verif.Spec.Tri) : Prop :=
  ((∃ i, t.s = .named i) ∨ ∃ b, t.s = .bnode b) ∧ (∃ i, t.p = .named i) ∧ ((∃ i, t.o = .named i) ∨ (∃ b, t.o = .bnode b) ∨ ∃ v l d, t.o = .lit v l d)

/-- Full statement of C61: every graph of well-formed triples can be written, by the defaults. -/
def C61_statement : Prop := ∀ (u : Term) (ops : List Verif.Spec.GOp), (∀ t ∈ everAdded ops, WellFormed t) →
  ∃ fuel text, serializeTurtle {} World.new fuel (Graph.run u ops) = .ok text

/-- An IRI or a literal. -/
def PlainTerm (x : Term) : Prop := (∃ i, x = .named i) ∨ ∃ v l d, x = .lit v l d

theorem xsdOf_get {m : PrefixMap} {ns : PStr} (hm : Dict.get? m (py! "xsd") = some ns) {n : PStr} (hn : n ≠ []) : xsdOf m n = .ok (ns ++ n) := by
  have hb : bracketed (py! "xsd:" ++ n) = false := by simp [bracketed]
  have hp : pyPartition 58 (py! "xsd:" ++ n) = (py! "xsd", [58], n) := by simp [pyPartition]
  rw [xsdOf, PrefixMap.resolve, parseCurie, if_neg (by simp)]
  simp only [hb]
  show (if _ then _ else match (pyPartition 58 (py! "xsd:" ++ n)).2.2, m.get? [] with | [], some d => _ | reference, _ => _) = _
  cases n with
  | nil => exact absurd rfl hn
  | cons c n =>
    simp only [List.cons_append, List.nil_append] at hp
    have hs : py! "xsd" ∉ schemes := by decide
    simp [hp, hs, hm]

theorem litRepr_ok {m : PrefixMap} {ns : PStr} (hm : Dict.get? m (py! "xsd") = some ns) (v : PStr) (l d : Option PStr) : ∃ x, litRepr m v l d = .ok x := by
  have x1 := xsdOf_get hm (n := py! "string") (by decide)
  have x2 := xsdOf_get hm (n := py! "integer") (by decide)
  have x3 := xsdOf_get hm (n := py! "decimal") (by decide)
  have x4 := xsdOf_get hm (n := py! "double") (by decide)
  have x5 := xsdOf_get hm (n := py! "boolean") (by decide)
  have bind : ∀ {α β} (a : α) (f : α → Except Exc β), (Except.ok a >>= f) = f a := fun _ _ => rfl
  rw [litRepr.eq_def, x1, bind]
  split
  · exact ⟨_, rfl⟩
  cases d with
  | none =>
    cases l with
    | none => exact ⟨_, rfl⟩
    | some l =>
      show ∃ x, (if l ≠ [] then _ else _) = _
      split <;> exact ⟨_, rfl⟩
  | some d =>
    show ∃ x, (xsdOf m (py! "integer") >>= _) = _
    rw [x2, bind]
    split
    · exact ⟨_, rfl⟩
    show ∃ x, (xsdOf m (py! "decimal") >>= _) = _
    rw [x3, bind]
    split
    · exact ⟨_, rfl⟩
    show ∃ x, (xsdOf m (py! "double") >>= _) = _
    rw [x4, bind]
    split
    · exact ⟨_, rfl⟩
    show ∃ x, (xsdOf m (py! "boolean") >>= _) = _
    rw [x5, bind]
    split <;> exact ⟨_, rfl⟩

theorem name_plain {m : PrefixMap} {ns : PStr} (hm : Dict.get? m (py! "xsd") = some ns) {base : Option PStr} {namer : Namer} (nm : Names) {x : Term} (h : PlainTerm x) :
    ∃ t, name ⟨m, base, namer⟩ nm x = .ok (nm, t) := by
  rcases h with ⟨i, rfl⟩ | ⟨v, l, d, rfl⟩
  · exact ⟨_, rfl⟩
  · obtain ⟨t, ht⟩ := litRepr_ok hm v l d
    exact ⟨t, by simp [name, ht, Except.map]⟩

section Loops
variable {m : PrefixMap} {ns : PStr} (hm : Dict.get? m (py! "xsd") = some ns) {base : Option PStr} {o : Orders} {c fuel : Nat} {g : Graph} {w : World}
  (hl : ∀ x, isList o w g c x = .ok false)
include hm hl

theorem objsText_ok {namer : Namer} (nm : Names) : ∀ (ts : List Stmt) (indent : Nat) (first : Bool), (∀ t ∈ ts, PlainTerm t.o) →
    ∃ X, objsText o c fuel g ⟨m, base, namer⟩ indent first ⟨w, nm⟩ ts = .ok (⟨w, nm⟩, X)
  | [], _, _, _ => ⟨_, rfl⟩
  | t :: ts, indent, first, h => by
    obtain ⟨x, hx⟩ := name_plain hm (base := base) (namer := namer) nm (h t (List.mem_cons_self ..))
    obtain ⟨X, hX⟩ := objsText_ok (namer := namer) nm ts indent false fun t ht => h t (List.mem_cons_of_mem _ ht)
    exact ⟨_, by simp only [objsText, objText, hl, hx, hX]; rfl⟩

theorem predsText_ok {namer : Namer} (nm : Names) (s : Term) : ∀ (ps : List (PStr × Term)) (indent : Nat) (first : Bool), (∀ e ∈ ps, ∀ t ∈ g.match o.stmts s e.2 .none, PlainTerm t.o) →
    ∃ X, predsText o c fuel g ⟨m, base, namer⟩ s indent first ⟨w, nm⟩ ps = .ok (⟨w, nm⟩, X)
  | [], _, _, _ => ⟨_, rfl⟩
  | e :: ps, indent, first, hts => by
    obtain ⟨x, hx⟩ := objsText_ok hm (base := base) (fuel := fuel) hl (namer := namer) nm (g.match o.stmts s e.2 .none) (indent + e.1.length + 1) true (hts e (List.mem_cons_self ..))
    obtain ⟨X, hX⟩ := predsText_ok (namer := namer) nm s ps indent false fun e he => hts e (List.mem_cons_of_mem _ he)
    exact ⟨_, by simp only [predsText, hx, hX]; rfl⟩

theorem objsText_err : ∀ (ts : List Stmt) (indent : Nat) (first : Bool), (∀ t ∈ ts, PlainTerm t.o ∨ ∃ b, t.o = .bnode b) → (∃ t ∈ ts, ∃ b, t.o = .bnode b) →
    ∃ e, objsText o c fuel g ⟨m, base, defaultNamer⟩ indent first ⟨w, {}⟩ ts = .error e
  | [], _, _, _, h => by obtain ⟨_, h, _⟩ := h; cases h
  | t :: ts, indent, first, h, hb => by
    rcases h t (List.mem_cons_self ..) with hp | ⟨b, e⟩
    · obtain ⟨x, hx⟩ := name_plain hm (base := base) (namer := defaultNamer) {} hp
      have : ∃ t ∈ ts, ∃ b, t.o = .bnode b := by
        obtain ⟨t', ht', b, e⟩ := hb
        rcases List.mem_cons.1 ht' with rfl | ht'
        · rw [e] at hp; rcases hp with ⟨_, h⟩ | ⟨_, _, _, h⟩ <;> cases h
        · exact ⟨t', ht', b, e⟩
      obtain ⟨e, he⟩ := objsText_err ts indent false (fun t ht => h t (List.mem_cons_of_mem _ ht)) this
      exact ⟨e, by simp only [objsText, objText, hl, hx, he]⟩
    · refine ⟨.attributeError, ?_⟩
      simp only [objsText, objText, hl, e]
      rfl

theorem predsText_err (s : Term) (hts : ∀ p, ∀ t ∈ g.match o.stmts s p .none, PlainTerm t.o ∨ ∃ b, t.o = .bnode b) : ∀ (ps : List (PStr × Term)) (indent : Nat) (first : Bool),
    (∃ e ∈ ps, ∃ t ∈ g.match o.stmts s e.2 .none, ∃ b, t.o = .bnode b) → ∃ e, predsText o c fuel g ⟨m, base, defaultNamer⟩ s indent first ⟨w, {}⟩ ps = .error e
  | [], _, _, h => by obtain ⟨_, h, _⟩ := h; cases h
  | e :: ps, indent, first, h => by
    by_cases hb : ∃ t ∈ g.match o.stmts s e.2 .none, ∃ b, t.o = .bnode b
    · obtain ⟨x, hx⟩ := objsText_err hm (base := base) (fuel := fuel) hl (g.match o.stmts s e.2 .none) (indent + e.1.length + 1) true (hts e.2) hb
      exact ⟨x, by simp only [predsText, hx]⟩
    · obtain ⟨x, hx⟩ := objsText_ok hm (base := base) (fuel := fuel) hl (namer := defaultNamer) {} (g.match o.stmts s e.2 .none) (indent + e.1.length + 1) true
        (fun t ht => (hts e.2 t ht).resolve_right fun h => hb ⟨t, ht, h⟩)
      have : ∃ e ∈ ps, ∃ t ∈ g.match o.stmts s e.2 .none, ∃ b, t.o = .bnode b := by
        obtain ⟨e', he', h⟩ := h
        rcases List.mem_cons.1 he' with rfl | he'
        · exact absurd h hb
        · exact ⟨e', he', h⟩
      obtain ⟨X, hX⟩ := predsText_err s hts ps indent false this
      exact ⟨X, by simp only [predsText, hx, hX]⟩

/-- The loop over subjects, if there are no blank nodes. -/
theorem subjsText_ok {namer : Namer} (nm : Names) (ho : Orders.OK o) (hg : ∀ s p, ∀ t ∈ g.match o.stmts s p .none, PlainTerm t.o ∧ ∃ i, t.p = .named i) : ∀ ss : List (PStr × Term),
    ∃ X, subjsText o c fuel g ⟨m, base, namer⟩ ⟨w, nm⟩ ss = .ok (⟨w, nm⟩, X)
  | [] => ⟨_, rfl⟩
  | e :: ss => by
    obtain ⟨ps, h1, _, _⟩ := sortedNames_named (m := m) (base := base) (namer := namer) nm (ts := o.terms (pySet ((g.match o.stmts e.2 .none .none).map (·.p)))) (fun p hp => by
      rw [(ho.terms _).mem_iff, mem_pySet, List.mem_map] at hp
      obtain ⟨t, ht, rfl⟩ := hp
      exact (hg _ _ t ht).2)
    obtain ⟨X, hX⟩ := predsText_ok hm (base := base) (fuel := fuel) hl (namer := namer) nm e.2 ps (e.1.length + 1) true fun _ _ t ht => (hg _ _ t ht).1
    obtain ⟨Y, hY⟩ := subjsText_ok (namer := namer) nm ho hg ss
    exact ⟨_, by simp only [subjsText, subjText, h1, hX, hY]; rfl⟩

theorem subjsText_err (ho : Orders.OK o) (hg : ∀ s p, ∀ t ∈ g.match o.stmts s p .none, (PlainTerm t.o ∨ ∃ b, t.o = .bnode b) ∧ ∃ i, t.p = .named i) : ∀ ss : List (PStr × Term),
    (∃ e ∈ ss, ∃ t ∈ g.match o.stmts e.2 .none .none, t ∈ g.match o.stmts e.2 t.p .none ∧ ∃ b, t.o = .bnode b) →
    ∃ x, subjsText o c fuel g ⟨m, base, defaultNamer⟩ ⟨w, {}⟩ ss = .error x
  | [], h => by obtain ⟨_, h, _⟩ := h; cases h
  | e :: ss, h => by
    obtain ⟨ps, h1, h2, _⟩ := sortedNames_named (m := m) (base := base) (namer := defaultNamer) {} (ts := o.terms (pySet ((g.match o.stmts e.2 .none .none).map (·.p)))) (fun p hp => by
      rw [(ho.terms _).mem_iff, mem_pySet, List.mem_map] at hp
      obtain ⟨t, ht, rfl⟩ := hp
      exact (hg _ _ t ht).2)
    by_cases hb : ∃ e' ∈ ps, ∃ t ∈ g.match o.stmts e.2 e'.2 .none, ∃ b, t.o = .bnode b
    · obtain ⟨x, hx⟩ := predsText_err hm (base := base) (fuel := fuel) hl e.2 (fun p t ht => (hg _ _ t ht).1) ps (e.1.length + 1) true hb
      exact ⟨x, by simp only [subjsText, subjText, h1, hx]⟩
    · have hrest : ∃ e ∈ ss, ∃ t ∈ g.match o.stmts e.2 .none .none, t ∈ g.match o.stmts e.2 t.p .none ∧ ∃ b, t.o = .bnode b := by
        obtain ⟨e', he', t, ht, ht2, b, hbt⟩ := h
        rcases List.mem_cons.1 he' with rfl | he'
        · obtain ⟨q, hq, hqe⟩ := List.mem_map.1 (h2.mem_iff.2 ((ho.terms _).mem_iff.2 ((mem_pySet _ _).2 (List.mem_map.2 ⟨t, ht, rfl⟩))))
          exact absurd ⟨q, hq, t, hqe ▸ ht2, b, hbt⟩ hb
        · exact ⟨e', he', t, ht, ht2, b, hbt⟩
      obtain ⟨Y, hY⟩ := subjsText_err ho hg ss hrest
      obtain ⟨X, hX⟩ := predsText_ok hm (base := base) (fuel := fuel) hl (namer := defaultNamer) {} e.2 ps (e.1.length + 1) true
        fun e' he' t ht => (hg _ _ t ht).1.resolve_right fun h => hb ⟨e', he', t, ht, h⟩
      exact ⟨Y, by simp only [subjsText, subjText, h1, hX, hY]⟩
end Loops

theorem names_err {m : PrefixMap} {base : Option PStr} : ∀ ts : List Term, (∀ t ∈ ts, (∃ i, t = .named i) ∨ ∃ b, t = .bnode b) → (∃ t ∈ ts, ∃ b, t = .bnode b) →
    ∃ e, names ⟨m, base, defaultNamer⟩ {} ts = .error e
  | [], _, h => by obtain ⟨_, h, _⟩ := h; cases h
  | t :: ts, h, hb => by
    rcases h t (List.mem_cons_self ..) with ⟨i, rfl⟩ | ⟨b, rfl⟩
    · obtain ⟨e, he⟩ := names_err (m := m) (base := base) ts (fun t ht => h t (List.mem_cons_of_mem _ ht)) (by
        obtain ⟨t', ht', b, e⟩ := hb
        rcases List.mem_cons.1 ht' with rfl | ht'
        · cases e
        · exact ⟨t', ht', b, e⟩)
      refine ⟨e, ?_⟩
      rw [names]
      show (match names ⟨m, base, defaultNamer⟩ {} ts with | .error e => _ | .ok (nm, xs) => _) = _
      rw [he]
    · exact ⟨_, rfl⟩

/-- No triple says that something is a list. -/
def NoLists (S : Finset Verif.Spec.Tri) : Prop := ∀ t ∈ S, t.p ≠ .named (Heap.rdfNs ++ py! "rest")

/-- C61 for graphs without blank nodes and lists, any profile with a prefix xsd, any base and any names for blank nodes. Missing: blank nodes and lists; by `C61_exact` and
    `C61_list_of_iris` the writer fails on them. -/
theorem C61_writes_partial (u : Term) (ops : List Verif.Spec.GOp) (hg : ∀ t ∈ everAdded ops, ∃ i, t.s = .named i)
    (hS : ∀ t ∈ Verif.Spec.runSet ops, Ground t) (hn : NoLists (Verif.Spec.runSet ops)) {m : PrefixMap} {ns : PStr} (hm : Dict.get? m (py! "xsd") = some ns)
    {o : Orders} (ho : Orders.OK o) {w : World} (hr : resolveKey w listC (py! "rdf:rest") = .ok (some (Heap.rdfNs ++ py! "rest"))) (fuel : Nat) (base : Option PStr) (namer : Namer) :
    ∃ text, serializeTurtle o w fuel (Graph.run u ops) base (some m) namer = .ok text := by
  have rep := Graph.rep_run u ops
  have hl : ∀ x, isList o w (Graph.run u ops) listC x = .ok false := isList_false (fun x hx => by
    obtain ⟨t, ht, rfl⟩ := (rep.mem x).1 hx; exact hn t ht) rep.inv ho.stmts hr
  obtain ⟨ss, h1, _, _⟩ := sortedNames_named (m := m) (base := base) (namer := namer) {} (ts := (Graph.run u ops).subjects) (fun s hs => by
    obtain ⟨t, ht, rfl⟩ := ((C04_lists_ever_added u ops).1.2 s).1 hs
    exact hg t ht)
  obtain ⟨X, hX⟩ := subjsText_ok hm (base := base) (fuel := fuel) hl (namer := namer) {} ho (fun s p t ht' => by
    obtain ⟨t, ht, rfl⟩ := (rep.mem t).1 ((Graph.mem_match rep.inv ho.stmts _ _ _ t).1 ht').1
    exact ⟨(hS t ht).2.2, (hS t ht).2.1⟩) ss
  exact ⟨_, by simp only [serializeTurtle, Option.getD_some, plainSubjects_all _ fun x _ => hl x, h1, hX]; rfl⟩

theorem runSet_everAdded {ops : List Verif.Spec.GOp} : ∀ t ∈ Verif.Spec.runSet ops, t ∈ everAdded ops := by
  have : ∀ (ops : List Verif.Spec.GOp) (S : Finset Verif.Spec.Tri), ∀ t ∈ ops.foldl (fun S op => op.apply S) S, t ∈ S ∨ t ∈ everAdded ops := by
    intro ops
    induction ops with
    | nil => intro S t h; exact .inl h
    | cons op ops ih =>
      intro S t h
      rcases ih _ t h with h | h
      · cases op <;> simp [Verif.Spec.GOp.apply] at h <;> simp [everAdded]
        · rcases h with h | h
          · exact .inr (.inl h)
          · exact .inl h
        · rcases h with h | h
          · exact .inl h
          · exact .inr (.inl h)
        · exact .inl h.2
      · right
        simp only [everAdded, List.flatMap_cons, List.mem_append]
        exact .inr h
  intro t h
  exact (this ops ∅ t h).resolve_left (by simp)

/-- Exactly which graphs without lists are written by default: those without blank nodes. (A blank node that was a subject once counts, C04.) -/
theorem C61_exact (u : Term) (ops : List Verif.Spec.GOp) (hg : ∀ t ∈ everAdded ops, WellFormed t) (hn : NoLists (Verif.Spec.runSet ops)) {m : PrefixMap} {ns : PStr}
    (hm : Dict.get? m (py! "xsd") = some ns) {o : Orders} (ho : Orders.OK o) {w : World}
    (hr : resolveKey w listC (py! "rdf:rest") = .ok (some (Heap.rdfNs ++ py! "rest"))) (fuel : Nat) (base : Option PStr)
    (hne : ∀ t ∈ everAdded ops, t.s.truthy = true ∧ t.p.truthy = true) :
    (∃ text, serializeTurtle o w fuel (Graph.run u ops) base (some m) = .ok text) ↔
      (∀ t ∈ everAdded ops, ∀ b, t.s ≠ .bnode b) ∧ ∀ t ∈ Verif.Spec.runSet ops, ∀ b, t.o ≠ .bnode b := by
  have rep := Graph.rep_run u ops
  have hS : ∀ t ∈ Verif.Spec.runSet ops, t ∈ everAdded ops := runSet_everAdded
  have hl : ∀ x, isList o w (Graph.run u ops) listC x = .ok false := isList_false (fun x hx => by
    obtain ⟨t, ht, rfl⟩ := (rep.mem x).1 hx; exact hn t ht) rep.inv ho.stmts hr
  constructor
  · rintro ⟨text, ht⟩
    have hsub : ∀ t ∈ everAdded ops, ∀ b, t.s ≠ .bnode b := by
      intro t hte b hb
      obtain ⟨e, he⟩ := names_err (m := m) (base := base) (Graph.run u ops).subjects (fun s hs => by
        obtain ⟨t, ht, rfl⟩ := ((C04_lists_ever_added u ops).1.2 s).1 hs
        exact (hg t ht).1) ⟨_, ((C04_lists_ever_added u ops).1.2 _).2 ⟨t, hte, rfl⟩, b, hb⟩
      simp only [serializeTurtle, Option.getD_some, plainSubjects_all _ fun x _ => hl x, sortedNames, he] at ht
      cases ht
    refine ⟨hsub, fun t htS b hb => ?_⟩
    obtain ⟨ss, h1, h2, _⟩ := sortedNames_named (m := m) (base := base) (namer := defaultNamer) {} (ts := (Graph.run u ops).subjects) (fun s hs => by
      obtain ⟨t, ht, rfl⟩ := ((C04_lists_ever_added u ops).1.2 s).1 hs
      exact (hg t ht).1.resolve_right fun ⟨b, e⟩ => hsub t ht b e)
    obtain ⟨e, he, hes⟩ := List.mem_map.1 (h2.mem_iff.2 (((C04_lists_ever_added u ops).1.2 _).2 ⟨t, hS t htS, rfl⟩))
    have htr := hne t (hS t htS)
    have hmem := (rep.mem _).2 ⟨t, htS, rfl⟩
    obtain ⟨x, hx⟩ := subjsText_err hm (base := base) (fuel := fuel) hl ho (fun s p t ht' => by
      obtain ⟨t, ht, rfl⟩ := (rep.mem t).1 ((Graph.mem_match rep.inv ho.stmts _ _ _ t).1 ht').1
      obtain ⟨_, hp, h | h | h⟩ := hg t (hS t ht)
      · exact ⟨.inl (.inl h), hp⟩
      · exact ⟨.inr h, hp⟩
      · exact ⟨.inl (.inr h), hp⟩) ss
      ⟨e, he, t.stmt, (Graph.mem_match rep.inv ho.stmts _ _ _ _).2 ⟨hmem, fun _ => hes.symm, (by intro h; cases h), (by intro h; cases h)⟩,
        (Graph.mem_match rep.inv ho.stmts _ _ _ _).2 ⟨hmem, fun _ => hes.symm, fun _ => rfl, by intro h; cases h⟩, b, hb⟩
    simp only [serializeTurtle, Option.getD_some, plainSubjects_all _ fun x _ => hl x, h1, hx] at ht
    cases ht
  · rintro ⟨h1, h2⟩
    refine C61_writes_partial u ops (fun t ht => (hg t ht).1.resolve_right fun ⟨b, e⟩ => h1 t ht b e) (fun t ht => ?_) hn hm ho hr fuel base defaultNamer
    obtain ⟨a, b, c⟩ := hg t (hS t ht)
    refine ⟨a.resolve_right fun ⟨b, e⟩ => h1 t (hS t ht) b e, b, ?_⟩
    rcases c with h | ⟨b, e⟩ | h
    · exact .inl h
    · exact absurd e (h2 t ht b)
    · exact .inr h

/-- A blank node stops the default writer. -/
theorem C61_blank_node : ∀ fuel, serializeTurtle {} World.new fuel (Graph.run .none [.add ⟨.bnode 0, .named (py! "x:p"), .named (py! "x:o")⟩]) = .error .attributeError := fun _ => rfl

/-- A name generator that gives two blank nodes the same name stops the writer too: it would have to compare the nodes. -/
theorem C61_same_name : ∀ fuel, serializeTurtle {} World.new fuel (Graph.run .none
    [.add ⟨.bnode 0, .named (py! "x:p"), .named (py! "x:o")⟩, .add ⟨.bnode 1, .named (py! "x:p"), .named (py! "x:o")⟩]) none none
    (some fun _ => py! "_:b") = .error .typeError := fun _ => rfl

/-- A list of IRIs stops every writer. -/
theorem C61_list_of_iris : ∀ fuel namer, (serializeTurtle {} World.new (fuel + 1) (Graph.run .none
    [.add ⟨.named (py! "x:s"), .named (py! "x:p"), .named (py! "x:l")⟩, .add ⟨.named (py! "x:l"), rdfFirst, .named (py! "x:o")⟩,
     .add ⟨.named (py! "x:l"), rdfRest, rdfNil⟩]) none none namer) = .error .attributeError := fun _ _ => rfl

theorem C61_refuted : ¬ C61_statement := by
  intro h
  obtain ⟨fuel, text, h⟩ := h .none [.add ⟨.bnode 0, .named (py! "x:p"), .named (py! "x:o")⟩] (by
    intro t ht
    simp [everAdded] at ht
    subst ht
    exact ⟨.inr ⟨_, rfl⟩, ⟨_, rfl⟩, .inl ⟨_, rfl⟩⟩)
  rw [C61_blank_node] at h
  cases h

/-! A graph that meets the hypotheses of C97 and C61. -/

def exOps : List Verif.Spec.GOp :=
  [.add exTri, .add ⟨.named (py! "x:s"), .named (py! "x:p"), .lit (py! "a b") none (some (xsd (py! "string")))⟩, .remove exTri,
   .add ⟨.named (py! "x:s"), .named (Heap.rdfNs ++ py! "type"), .named (py! "http://example.com/a?b=c#d.")⟩]

example : serializeTurtle {} World.new 0 (Graph.run .none exOps) =
    .ok (py! "@prefix xsd: <http://www.w3.org/2001/XMLSchema#> .\n<x:s> <x:p> \"a b\" ;\n      rdf:type <http://example.com/a?b=c#d.> ;\n      .\n\n") := rfl

theorem resolveKey_rest : resolveKey World.new listC (py! "rdf:rest") = .ok (some (Heap.rdfNs ++ py! "rest")) := rfl

theorem safe_short {i : PStr} (hne : i ≠ []) (hl : LegalIri i) (h : i.length < 20) : SafeIri defaultPrefixes i := by
  refine ⟨hne, hl, fun p ns rest hc e => ?_⟩
  obtain ⟨a, b, e1, h1, _⟩ := hc
  have hm : (p, ns) ∈ defaultPrefixes := by rw [e1]; simp
  have : 20 ≤ ns.length := by
    simp only [defaultPrefixes, List.mem_cons, List.not_mem_nil, or_false, Prod.mk.injEq] at hm
    rcases hm with ⟨rfl, rfl⟩ | ⟨rfl, rfl⟩ <;> decide
  have := List.IsPrefix.length_le h1
  simp at this
  omega

example := C97_same_graph_partial safe_default .none exOps
  (by
    intro t ht
    have : Verif.Spec.runSet exOps = {⟨.named (py! "x:s"), .named (py! "x:p"), .lit (py! "a b") none (some (xsd (py! "string")))⟩,
      ⟨.named (py! "x:s"), .named (Heap.rdfNs ++ py! "type"), .named (py! "http://example.com/a?b=c#d.")⟩} := by decide
    rw [this] at ht
    simp only [Finset.mem_insert, Finset.mem_singleton] at ht
    have hs : SafeIri defaultPrefixes (py! "x:s") := safe_short (by decide) (by decide) (by decide)
    have hp : SafeIri defaultPrefixes (py! "x:p") := safe_short (by decide) (by decide) (by decide)
    rcases ht with rfl | rfl
    · exact ⟨⟨_, rfl, hs⟩, ⟨_, rfl, hp, by decide⟩, .lit (.string (by unfold Clean; decide))⟩
    · exact ⟨⟨_, rfl, hs⟩, ⟨_, rfl, safe_rdf_type, by decide⟩, .iri safe_plain⟩)
  (by decide) Orders.OK.default 0 none resolveKey_rest

end Verif.Turtle
