import Verif.Props.ResClass
/-
Properties of List, the class for RDF collections (C58).
-/
namespace Verif
open Spec Graph

/-- The claim: iterating over a well-formed list gives its elements in order. `List` is class 1. -/
def C58_statement : Prop :=
  ∀ (o : Orders), o.OK → ∀ g : Graph, g.Reach → ∀ head es,
    IsRdfList g.triples (.named (Heap.rdfNs ++ py! "first")) (.named (Heap.rdfNs ++ py! "rest")) (.named (Heap.rdfNs ++ py! "nil")) head es →
    ∃ vs, (listTake o g 1 (es.length + 1) World.new (.test ⟨1, head⟩)).2 = (vs, some (.ok ())) ∧ vs.map Val.term = es

/-- An element that a scalar key of a class with this language shows. -/
def Readable (lang : Option PStr) (e : Term) : Prop :=
  ∀ l, lang = some l → IsResource e ∨ InLanguage l e ∨ HasDatatype e ∨ Untagged e

/-- What the class must provide: `rdf:first` and `rdf:rest` as scalars, and `rdf:nil`. -/
structure ListClass (w : World) (c : Nat) (iFirst iRest iNil : PStr) : Prop where
  first : resolveKey w c (py! "rdf:first") = .ok (some iFirst)
  rest : resolveKey w c (py! "rdf:rest") = .ok (some iRest)
  nil : resolveKey w c (py! "rdf:nil") = .ok (some iNil)
  sfirst : isScalar w c (some iFirst) = true
  srest : isScalar w c (some iRest) = true
  nfirst : iFirst ≠ []
  nrest : iRest ≠ []
  lang : w.lang c ≠ some []

theorem ListClass.ext {w w' : World} {c : Nat} {f r n : PStr} (h : ListClass w c f r n) (wf : w.WF) (hc : c < w.classes.length)
    (hx : w.Ext w') : ListClass w' c f r n :=
  ⟨by rw [hx.resolve hc]; exact h.first, by rw [hx.resolve hc]; exact h.rest, by rw [hx.resolve hc]; exact h.nil,
    by rw [hx.isScalar hc]; exact h.sfirst, by rw [hx.isScalar hc]; exact h.srest, h.nfirst, h.nrest, by rw [hx.lang wf hc]; exact h.lang⟩

/-- Reading the one object of a scalar key. -/
theorem getOne_single {o : Orders} (ho : o.OK) {w : World} {g : Graph} (hg : g.Reach) {r : Res} (hs : r.s.truthy = true)
    {k p : PStr} {t : Term} (hp : p ≠ []) (hk : resolveKey w r.c k = .ok (some p)) (hn : isScalar w r.c (some p) = true)
    (hl : w.lang r.c ≠ some []) (h : ∀ x, mkTriple r.s (.named p) x ∈ g.triples ↔ x = t) (ht : Readable (w.lang r.c) t) :
    getOne o w g r (.name k) = classify o w g r.c t := by
  unfold getOne
  rw [getItem_single hk hn hl (objectsOf_single ho hg hs (predTerm_truthy hp) h) ht]
  generalize classify o w g r.c t = q
  obtain ⟨w1, e | v⟩ := q <;> rfl

theorem listTake_yielded {o : Orders} {w w1 : World} {g : Graph} {c k : Nat} {cur : Res} {s : Term} {iNil : PStr} (n : Nat)
    (h : getOne o w g cur (.name (py! "rdf:rest")) = (w1, .ok (.res k s))) (hn : resolveKey w1 c (py! "rdf:nil") = .ok (some iNil)) :
    listTake o g c (n + 1) w (.yielded cur) = listTake o g c (n + 1) w1 (.test (if s = .named iNil then ⟨k, s⟩ else ⟨c, s⟩)) := by
  have : listNext o w g c (.yielded cur) = listNext o w1 g c (.test (if s = .named iNil then ⟨k, s⟩ else ⟨c, s⟩)) := by
    unfold listNext
    simp only [h, hn, predTerm]
    by_cases hs : s = .named iNil <;> simp only [hs, if_true, if_false]
  rw [listTake, listTake, this]

/-- Iteration over a well-formed list whose elements the class can read: the elements in order, and then the end; or TypeError at a node
    that cannot be classified (see C53), after the elements before it. -/
theorem C58_list_partial {o : Orders} (ho : o.OK) {w : World} (wr : w.Reach) {g : Graph} (hg : g.Reach) {c : Nat}
    (hc : c < w.classes.length) {iFirst iRest iNil : PStr} (hL : ListClass w c iFirst iRest iNil) {head : Term} {es : List Term}
    (h : IsRdfList g.triples (.named iFirst) (.named iRest) (.named iNil) head es) (hr : ∀ e ∈ es, Readable (w.lang c) e) :
    ∀ k, (head ≠ .named iNil → k = c) →
    (∃ vs, (listTake o g c (es.length + 1) w (.test ⟨k, head⟩)).2 = (vs, some (.ok ())) ∧ vs.map Val.term = es) ∨
    (∃ vs, (listTake o g c (es.length + 1) w (.test ⟨k, head⟩)).2 = (vs, some (.error .typeError)) ∧ vs.map Val.term <+: es ∧
      ∃ w1 x, w1.Reach ∧ w.Ext w1 ∧ (classify o w1 g c x).2 = .error .typeError) := by
  induction h generalizing w with
  | nil =>
    intro k _
    left
    refine ⟨[], ?_, rfl⟩
    unfold listTake listNext listTest
    simp only [hL.nil, predTerm, if_true]
  | @cons s s' e es hs hst hsn hf hre htail ih =>
    intro k hk
    obtain rfl := hk hsn
    have g1 := getOne_single (o := o) ho hg (r := ⟨k, s⟩) hst hL.nfirst hL.first hL.sfirst hL.lang hf (hr e (by simp))
    have c1 := classify_spec (o := o) wr g hc e
    have hsr : IsResource s' := by
      cases htail with
      | nil => exact Or.inl ⟨_, rfl⟩
      | cons h => exact h
    have hsn' : s'.isNode = true := by rcases hsr with ⟨i, rfl⟩ | ⟨i, rfl⟩ <;> rfl
    rw [List.length_cons]
    cases hq1 : classify o w g k e with
    | mk w1 rv =>
    rw [hq1] at c1
    cases rv with
    | error ex =>
      right
      dsimp only at c1
      rcases c1.2.2 with h | ⟨v, h, _⟩
      · simp only [Except.error.injEq] at h
        subst h
        refine ⟨[], ?_, by simp, w, e, wr, .refl w, by rw [hq1]⟩
        unfold listTake listNext listTest
        simp only [hL.nil, predTerm, hsn, if_false, g1, hq1]
      · cases h
    | ok v =>
      dsimp only at c1
      obtain ⟨r1, x1, c1⟩ := c1
      have hv : v.term = e := by
        rcases c1 with h | ⟨v', h, h2, _⟩
        · cases h
        · simp only [Except.ok.injEq] at h; subst h; exact h2
      have hc1 := Nat.lt_of_lt_of_le hc x1.length
      have hL1 := hL.ext wr.wf hc x1
      have hstep : ∀ n, listTake o g k (n + 1) w (.test ⟨k, s⟩) =
          ((listTake o g k n w1 (.yielded ⟨k, s⟩)).1, v :: (listTake o g k n w1 (.yielded ⟨k, s⟩)).2.1,
            (listTake o g k n w1 (.yielded ⟨k, s⟩)).2.2) := by
        intro n
        have : listNext o w g k (.test ⟨k, s⟩) = (w1, .yielded ⟨k, s⟩, .item v) := by
          unfold listNext listTest
          simp only [hL.nil, predTerm, hsn, if_false, g1, hq1]
        rw [listTake, this]
      rw [hstep]
      have g2 := getOne_single (o := o) ho hg (w := w1) (r := ⟨k, s⟩) hst hL1.nrest hL1.rest hL1.srest hL1.lang hre
        (fun l _ => Or.inl hsr)
      have c2 := classify_spec (o := o) r1 g hc1 s'
      cases hq2 : classify o w1 g k s' with
      | mk w2 rv2 =>
      rw [hq2] at c2
      dsimp only at c2
      cases rv2 with
      | error ex =>
        right
        rcases c2.2.2 with h | ⟨v, h, _⟩
        · simp only [Except.error.injEq] at h
          subst h
          have : listTake o g k (es.length + 1) w1 (.yielded ⟨k, s⟩) = (w2, [], some (.error .typeError)) := by
            unfold listTake listNext
            simp only [g2, hq2]
          rw [this]
          refine ⟨[v], rfl, by simp [hv], w1, s', r1, x1, by rw [hq2]⟩
        · cases h
      | ok v2 =>
        obtain ⟨r2, x2, c2⟩ := c2
        rcases c2 with h | ⟨v', h, _, h2⟩
        · cases h
        · simp only [Except.ok.injEq] at h
          subst h
          obtain ⟨k2, rfl, hk2⟩ := h2 hsn'
          have hL2 := hL1.ext r1.wf hc1 x2
          rw [listTake_yielded es.length (by rw [g2, hq2]) hL2.nil]
          have hlang : w2.lang k = w.lang k := by rw [x2.lang r1.wf hc1, x1.lang wr.wf hc]
          have hi := ih r2 (Nat.lt_of_lt_of_le hc1 x2.length) hL2 (fun x hx => by rw [hlang]; exact hr x (by simp [hx]))
            (if s' = .named iNil then k2 else k) (fun h => if_neg h)
          have e1 : (if s' = .named iNil then (⟨k2, s'⟩ : Res) else ⟨k, s'⟩) = ⟨if s' = .named iNil then k2 else k, s'⟩ := by
            split <;> rfl
          rw [e1]
          rcases hi with ⟨vs, h1, h2⟩ | ⟨vs, h1, h2, w3, x, h3, h4, h5⟩
          · left; refine ⟨v :: vs, ?_, ?_⟩
            · rw [h1]
            · rw [List.map_cons, hv, h2]
          · right; refine ⟨v :: vs, ?_, ?_, w3, x, h3, (x1.trans x2).trans h4, h5⟩
            · rw [h1]
            · rw [List.map_cons, hv]; exact List.cons_prefix_cons.2 ⟨rfl, h2⟩

/-- Without registered classes nothing is raised. -/
theorem C58_list_no_classes {o : Orders} (ho : o.OK) {w : World} (wr : w.Reach) {g : Graph} (hg : g.Reach) {c : Nat}
    (hc : c < w.classes.length) {iFirst iRest iNil : PStr} (hL : ListClass w c iFirst iRest iNil) (hb : w.byType = []) {head : Term}
    {es : List Term} (h : IsRdfList g.triples (.named iFirst) (.named iRest) (.named iNil) head es)
    (hr : ∀ e ∈ es, Readable (w.lang c) e) :
    ∃ vs, (listTake o g c (es.length + 1) w (.test ⟨c, head⟩)).2 = (vs, some (.ok ())) ∧ vs.map Val.term = es := by
  rcases C58_list_partial ho wr hg hc hL h hr c (fun _ => rfl) with h | ⟨_, _, _, w1, x, h1, h2, h3⟩
  · exact h
  · exfalso
    have hb' : w1.byType = [] := h2.byType.trans hb
    obtain ⟨ns, _, ht⟩ := rdfType_ok h1.wf (Nat.lt_of_lt_of_le hc h2.length)
    have hcl : ∀ ty obj, classesOf o w1 g ty obj = [] := fun ty obj => by
      unfold classesOf; rw [hb']; simp
    unfold classify at h3
    cases x with
    | none => cases h3
    | lit => cases h3
    | named => simp only [ht, classifyNode, hcl] at h3; cases h3
    | bnode => simp only [ht, classifyNode, hcl] at h3; cases h3
    | gen => simp only [ht, classifyNode, hcl] at h3; cases h3

/-- The class List itself. -/
theorem listClass_new : ListClass World.new 1 (Heap.rdfNs ++ py! "first") (Heap.rdfNs ++ py! "rest") (Heap.rdfNs ++ py! "nil") :=
  ⟨by decide, by decide, by decide, by decide, by decide, by decide, by decide, by decide⟩

/-- A list whose one element is a literal in another language than the class's. -/
def frList : Graph :=
  ((Graph.new .none).add (mkTriple (.bnode 1) (.named (Heap.rdfNs ++ py! "first")) (.lit (py! "un") (some (py! "fr")) none))).add
    (mkTriple (.bnode 1) (.named (Heap.rdfNs ++ py! "rest")) (.named (Heap.rdfNs ++ py! "nil")))

theorem frList_isList : IsRdfList frList.triples (.named (Heap.rdfNs ++ py! "first")) (.named (Heap.rdfNs ++ py! "rest"))
    (.named (Heap.rdfNs ++ py! "nil")) (.bnode 1) [.lit (py! "un") (some (py! "fr")) none] := by
  have ht : ∀ t, t ∈ frList.triples ↔ t = mkTriple (.bnode 1) (.named (Heap.rdfNs ++ py! "first")) (.lit (py! "un") (some (py! "fr")) none) ∨
      t = mkTriple (.bnode 1) (.named (Heap.rdfNs ++ py! "rest")) (.named (Heap.rdfNs ++ py! "nil")) := by
    intro t
    have : frList.triples = [mkTriple (.bnode 1) (.named (Heap.rdfNs ++ py! "first")) (.lit (py! "un") (some (py! "fr")) none),
      mkTriple (.bnode 1) (.named (Heap.rdfNs ++ py! "rest")) (.named (Heap.rdfNs ++ py! "nil"))] := by decide
    rw [this]; simp
  have hne : (Term.named (Heap.rdfNs ++ py! "first")) ≠ .named (Heap.rdfNs ++ py! "rest") := by decide
  refine .cons (Or.inr ⟨1, rfl⟩) rfl (by decide) (fun x => ?_) (fun x => ?_) .nil
  · rw [ht]
    constructor
    · rintro (h | h)
      · exact (mkTriple_inj.1 h).2.2
      · exact absurd (mkTriple_inj.1 h).2.1 hne
    · rintro rfl; exact Or.inl rfl
  · rw [ht]
    constructor
    · rintro (h | h)
      · exact absurd (mkTriple_inj.1 h).2.1.symm hne
      · exact (mkTriple_inj.1 h).2.2
    · rintro rfl; exact Or.inr rfl

/-- The element is given as None. -/
theorem C58_refuted : ¬ C58_statement := by
  intro h
  obtain ⟨vs, h1, h2⟩ := h {} .default frList (((Graph.Reach.new _).add _ _ _).add _ _ _) _ _ frList_isList
  have h3 : (listTake {} frList 1 2 World.new (.test ⟨1, .bnode 1⟩)).2 = ([.none], some (.ok ())) := by decide
  rw [List.length_singleton, h3] at h1
  cases h1
  cases h2

/-- A list of one cell whose rest is the cell itself. -/
def cyclic : Graph :=
  ((Graph.new .none).add (mkTriple (.bnode 1) (.named (Heap.rdfNs ++ py! "first")) (.lit (py! "x") none none))).add
    (mkTriple (.bnode 1) (.named (Heap.rdfNs ++ py! "rest")) (.bnode 1))

/-- Iteration over a cyclic list never ends. -/
theorem C58_cyclic_never_ends (n : Nat) :
    (listTake {} cyclic 1 n World.new (.test ⟨1, .bnode 1⟩)).2 = (List.replicate n (.lit (py! "x") none none), none) := by
  have hy : ∀ n, listTake {} cyclic 1 n World.new (.yielded ⟨1, .bnode 1⟩) = (World.new, List.replicate n (.lit (py! "x") none none), none) := by
    intro n
    induction n with
    | zero => rfl
    | succ n ih =>
      have : listNext {} World.new cyclic 1 (.yielded ⟨1, .bnode 1⟩) = (World.new, .yielded ⟨1, .bnode 1⟩, .item (.lit (py! "x") none none)) := by
        decide
      unfold listTake
      rw [this]
      simp only [ih, List.replicate_succ]
  cases n with
  | zero => rfl
  | succ n =>
    have : listNext {} World.new cyclic 1 (.test ⟨1, .bnode 1⟩) = (World.new, .yielded ⟨1, .bnode 1⟩, .item (.lit (py! "x") none none)) := by
      decide
    unfold listTake
    rw [this]
    simp only [hy, List.replicate_succ]

/-- `is_list` holds exactly of nodes with a `rdf:rest`. -/
theorem C58_is_list {o : Orders} (ho : o.OK) {w : World} {g : Graph} (hg : g.Reach) {c : Nat} {p : PStr}
    (hk : resolveKey w c (py! "rdf:rest") = .ok (some p)) (hp : p ≠ []) {node : Term} (hn : node.truthy = true) :
    ∃ b, isList o w g c node = .ok b ∧ (b = true ↔ ∃ x, mkTriple node (.named p) x ∈ g.triples) := by
  unfold isList
  rw [hk]
  refine ⟨_, rfl, ?_⟩
  simp only [decide_eq_true_eq, ne_eq, List.eq_nil_iff_forall_not_mem, not_forall, not_not]
  constructor
  · rintro ⟨t, ht⟩
    rw [mem_match hg.inv ho.stmts] at ht
    have e := eq_mkTriple (hg.inv.isTri t ht.1)
    rw [ht.2.1 hn, ht.2.2.1 (predTerm_truthy hp)] at e
    exact ⟨t.o, e ▸ ht.1⟩
  · rintro ⟨x, hx⟩
    exact ⟨_, (mem_match hg.inv ho.stmts _ _ _ _).2 ⟨hx, fun _ => rfl, fun _ => rfl, fun h => by cases h⟩⟩

/-- Non-vacuity: a list of two elements. -/
example : (listTake {} ((((Graph.new .none).add (mkTriple (.bnode 1) (.named (Heap.rdfNs ++ py! "first")) (.lit (py! "a") none none))).add
    (mkTriple (.bnode 1) (.named (Heap.rdfNs ++ py! "rest")) (.bnode 2)) |>.add
    (mkTriple (.bnode 2) (.named (Heap.rdfNs ++ py! "first")) (.named (py! "http://b")))).add
    (mkTriple (.bnode 2) (.named (Heap.rdfNs ++ py! "rest")) (.named (Heap.rdfNs ++ py! "nil")))) 1 3 World.new (.test ⟨1, .bnode 1⟩)).2 =
    ([.lit (py! "a") none none, .res 0 (.named (py! "http://b"))], some (.ok ())) := by decide

/-- A loop over a list that came to its end, or raised, is over: whatever happens to the graph and the classes afterwards, `next` gives nothing more. -/
theorem C58_finished {o : Orders} {w : World} {g : Graph} {c : Nat} {it : LIter} (h : ∀ v, (listNext o w g c it).2.2 ≠ .item v) (o' : Orders) (w' : World) (g' : Graph) :
    listNext o' w' g' c (listNext o w g c it).2.1 = (w', (listNext o w g c it).2.1, .stop) := by
  have test : ∀ w cur, (∀ v, (listTest o w g c cur).2.2 ≠ .item v) → (listTest o w g c cur).2.1 = .done := by
    intro w cur h
    unfold listTest at h ⊢
    cases hr : resolveKey w c (py! "rdf:nil") with
    | error e => rfl
    | ok nil =>
      rw [hr] at h
      dsimp only at h ⊢
      split
      · rfl
      · next hne =>
        rw [if_neg hne] at h
        split
        · rfl
        · next hv => rw [hv] at h; exact absurd rfl (h _)
  have done : (listNext o w g c it).2.1 = .done := by
    cases it with
    | done => rfl
    | test cur => exact test w cur h
    | yielded cur =>
      unfold listNext at h ⊢
      dsimp only at h ⊢
      split
      · rfl
      · next hv =>
        rw [hv] at h
        dsimp only at h
        split
        · rfl
        · next hn => rw [hn] at h; exact test _ _ h
      · rfl
  rw [done]
  rfl

end Verif
