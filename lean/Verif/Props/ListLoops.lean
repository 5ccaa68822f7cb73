import Verif.Props.ListEnds
import Verif.Props.ListExact
/-
C127 exactly: over cells with one first and one rest each, iteration ends if and only if rdf:nil is reached; otherwise it yields for ever.
-/
namespace Verif
open Spec Graph

/-- `cell i` for `i = 0, 1, …` are cells of a list without an end: each has exactly one first, `elem i`, and exactly one rest, the next cell, and none is rdf:nil. -/
structure Spec.Endless (ts : List Stmt) (first rest nil : Term) (cell elem : Nat → Term) : Prop where
  res : ∀ i, IsResource (cell i)
  truthy : ∀ i, (cell i).truthy = true
  notNil : ∀ i, cell i ≠ nil
  one : ∀ i x, mkTriple (cell i) first x ∈ ts ↔ x = elem i
  next : ∀ i x, mkTriple (cell i) rest x ∈ ts ↔ x = cell (i + 1)

/-- Every node that is reached from `head` by rests is rdf:nil or a cell with exactly one first and exactly one rest. -/
def Spec.ProperCells (ts : List Stmt) (first rest nil head : Term) : Prop :=
  ∀ s, Relation.ReflTransGen (RestLink ts rest) head s → s = nil ∨
    (IsResource s ∧ s.truthy = true ∧ (∃ e, ∀ x, mkTriple s first x ∈ ts ↔ x = e) ∧ ∃ s', ∀ x, mkTriple s rest x ∈ ts ↔ x = s')

/-- A list without an end is iterated for ever, whatever its cells and elements are, unless a node cannot be classified: the first `n` values are what the class shows of the first `n`
    elements. -/
theorem C127_endless {o : Orders} (ho : o.OK) {g : Graph} (hg : g.Reach) {c : Nat} {iFirst iRest iNil : PStr} {cell elem : Nat → Term}
    (h : Endless g.triples (.named iFirst) (.named iRest) (.named iNil) cell elem) :
    ∀ (n i : Nat) {w : World} (_ : w.Reach) (_ : c < w.classes.length) (_ : ListClass w c iFirst iRest iNil),
    (∃ vs, (listTake o g c n w (.test ⟨c, cell i⟩)).2 = (vs, none) ∧ vs.map Val.term = (List.range' i n).map fun j => shownAs (w.lang c) (elem j)) ∨
    (∃ vs, (listTake o g c n w (.test ⟨c, cell i⟩)).2 = (vs, some (.error .typeError)) ∧ ∃ w1 x, w1.Reach ∧ w.Ext w1 ∧ (classify o w1 g c x).2 = .error .typeError)
  | 0, i, w, wr, hc, hL => Or.inl ⟨[], rfl, rfl⟩
  | n + 1, i, w, wr, hc, hL => by
    have g1 := getOne_shown (o := o) ho hg (r := ⟨c, cell i⟩) (h.truthy i) hL.nfirst hL.first hL.sfirst hL.lang (h.one i)
    have c1 := classify_spec (o := o) wr g hc (shownAs (w.lang c) (elem i))
    have hsn' : (cell (i + 1)).isNode = true := by rcases h.res (i + 1) with ⟨i, e⟩ | ⟨i, e⟩ <;> rw [e] <;> rfl
    cases hq1 : classify o w g c (shownAs (w.lang c) (elem i)) with
    | mk w1 rv =>
    rw [hq1] at c1
    dsimp only at c1
    obtain ⟨r1, x1, c1⟩ := c1
    cases rv with
    | error ex =>
      right
      rcases c1 with hx | ⟨v, hx, _⟩
      · cases hx
        refine ⟨[], ?_, w, shownAs (w.lang c) (elem i), wr, .refl w, by rw [hq1]⟩
        unfold listTake listNext listTest
        simp only [hL.nil, predTerm, h.notNil i, if_false, g1, hq1]
      · cases hx
    | ok v =>
      have hv : v.term = shownAs (w.lang c) (elem i) := by
        rcases c1 with hx | ⟨v', hx, h2, _⟩
        · cases hx
        · cases hx; exact h2
      have hc1 := Nat.lt_of_lt_of_le hc x1.length
      have hL1 := hL.ext wr.wf hc x1
      have hstep : listTake o g c (n + 1) w (.test ⟨c, cell i⟩) =
          ((listTake o g c n w1 (.yielded ⟨c, cell i⟩)).1, v :: (listTake o g c n w1 (.yielded ⟨c, cell i⟩)).2.1,
            (listTake o g c n w1 (.yielded ⟨c, cell i⟩)).2.2) := by
        have : listNext o w g c (.test ⟨c, cell i⟩) = (w1, .yielded ⟨c, cell i⟩, .item v) := by
          unfold listNext listTest
          simp only [hL.nil, predTerm, h.notNil i, if_false, g1, hq1]
        rw [listTake, this]
      rw [hstep]
      cases n with
      | zero => exact Or.inl ⟨[v], rfl, by rw [List.map_cons, hv]; rfl⟩
      | succ n =>
      have g2 := getOne_single (o := o) ho hg (w := w1) (r := ⟨c, cell i⟩) (h.truthy i) hL1.nrest hL1.rest hL1.srest hL1.lang (h.next i)
        (fun l _ => Or.inl (h.res (i + 1)))
      have c2 := classify_spec (o := o) r1 g hc1 (cell (i + 1))
      cases hq2 : classify o w1 g c (cell (i + 1)) with
      | mk w2 rv2 =>
      rw [hq2] at c2
      dsimp only at c2
      obtain ⟨r2, x2, c2⟩ := c2
      cases rv2 with
      | error ex =>
        right
        rcases c2 with hx | ⟨v, hx, _⟩
        · cases hx
          have : listTake o g c (n + 1) w1 (.yielded ⟨c, cell i⟩) = (w2, [], some (.error .typeError)) := by
            unfold listTake listNext
            simp only [g2, hq2]
          rw [this]
          exact ⟨[v], rfl, w1, cell (i + 1), r1, x1, by rw [hq2]⟩
        · cases hx
      | ok v2 =>
        rcases c2 with hx | ⟨v', hx, _, h2⟩
        · cases hx
        · cases hx
          obtain ⟨k2, rfl, hk2⟩ := h2 hsn'
          have hL2 := hL1.ext r1.wf hc1 x2
          rw [listTake_yielded n (by rw [g2, hq2]) hL2.nil, if_neg (h.notNil (i + 1))]
          have hlang : w2.lang c = w.lang c := by rw [x2.lang r1.wf hc1, x1.lang wr.wf hc]
          have hi := C127_endless ho hg h (n + 1) (i + 1) r2 (Nat.lt_of_lt_of_le hc1 x2.length) hL2
          rw [hlang] at hi
          rcases hi with ⟨vs, e1, e2⟩ | ⟨vs, e1, w3, x, h3, h4, h5⟩
          · left; refine ⟨v :: vs, by rw [e1], ?_⟩
            rw [List.map_cons, hv, e2, List.range'_succ (n := n + 1), List.map_cons]
          · right; exact ⟨v :: vs, by rw [e1], w3, x, h3, (x1.trans x2).trans h4, h5⟩

/-- Proper cells form a list with an end, or one without. -/
theorem proper_dichotomy {ts : List Stmt} {first rest nil head : Term} (h : ProperCells ts first rest nil head) :
    (∃ es, IsRdfList ts first rest nil head es) ∨ ∃ cell elem, cell 0 = head ∧ Endless ts first rest nil cell elem := by
  classical
  let nxt : Term → Term := fun s => if hx : ∃ s', ∀ x, mkTriple s rest x ∈ ts ↔ x = s' then hx.choose else s
  let fst : Term → Term := fun s => if hx : ∃ e, ∀ x, mkTriple s first x ∈ ts ↔ x = e then hx.choose else s
  have hnxt : ∀ s, (∃ s', ∀ x, mkTriple s rest x ∈ ts ↔ x = s') → ∀ x, mkTriple s rest x ∈ ts ↔ x = nxt s := by
    intro s hx; simp only [nxt, dif_pos hx]; exact hx.choose_spec
  have hfst : ∀ s, (∃ e, ∀ x, mkTriple s first x ∈ ts ↔ x = e) → ∀ x, mkTriple s first x ∈ ts ↔ x = fst s := by
    intro s hx; simp only [fst, dif_pos hx]; exact hx.choose_spec
  by_cases hn : ∃ k, nxt^[k] head = nil
  · left
    obtain ⟨k, hk⟩ := hn
    induction k generalizing head with
    | zero => exact ⟨[], by rw [show head = nil from hk]; exact .nil⟩
    | succ k ih =>
      by_cases h0 : head = nil
      · exact ⟨[], by rw [h0]; exact .nil⟩
      · obtain ⟨h1, h2, h3, h4⟩ := (h head .refl).resolve_left h0
        have hl : RestLink ts rest head (nxt head) := (hnxt head h4 _).2 rfl
        obtain ⟨es, he⟩ := ih (head := nxt head) (fun s hs => h s (.head hl hs)) hk
        exact ⟨_, .cons h1 h2 h0 (hfst head h3) (hnxt head h4) he⟩
  · right
    have hn : ∀ k, nxt^[k] head ≠ nil := fun k hk => hn ⟨k, hk⟩
    have hr : ∀ k, Relation.ReflTransGen (RestLink ts rest) head (nxt^[k] head) := by
      intro k
      induction k with
      | zero => exact .refl
      | succ k ih =>
        obtain ⟨_, _, _, h4⟩ := (h _ ih).resolve_left (hn k)
        rw [Function.iterate_succ_apply']
        exact ih.tail ((hnxt _ h4 _).2 rfl)
    refine ⟨fun k => nxt^[k] head, fun k => fst (nxt^[k] head), rfl, fun i => ((h _ (hr i)).resolve_left (hn i)).1, fun i => ((h _ (hr i)).resolve_left (hn i)).2.1, hn,
      fun i => hfst _ ((h _ (hr i)).resolve_left (hn i)).2.2.1, fun i => ?_⟩
    rw [Function.iterate_succ_apply']
    exact hnxt _ ((h _ (hr i)).resolve_left (hn i)).2.2.2

theorem isRdfList_reaches {ts : List Stmt} {first rest nil head : Term} {es : List Term} (h : IsRdfList ts first rest nil head es) :
    Relation.ReflTransGen (RestLink ts rest) head nil := by
  induction h with
  | nil => exact .refl
  | cons _ _ _ _ hr _ ih => exact .head ((hr _).2 rfl) ih

theorem endless_reach {ts : List Stmt} {first rest nil : Term} {cell elem : Nat → Term} (h : Endless ts first rest nil cell elem) {s : Term}
    (hs : Relation.ReflTransGen (RestLink ts rest) (cell 0) s) : ∃ i, s = cell i := by
  induction hs with
  | refl => exact ⟨0, rfl⟩
  | tail _ hl ih =>
    obtain ⟨i, rfl⟩ := ih
    exact ⟨i + 1, (h.next i _).1 hl⟩

theorem classify_no_classes {o : Orders} {w : World} (wr : w.Reach) {g : Graph} {c : Nat} (hc : c < w.classes.length) (hb : w.byType = []) (x : Term) :
    (classify o w g c x).2 ≠ .error .typeError := by
  intro h3
  obtain ⟨ns, _, ht⟩ := rdfType_ok wr.wf hc
  have hcl : ∀ ty obj, classesOf o w g ty obj = [] := fun ty obj => by
    unfold classesOf; rw [hb]; simp
  unfold classify at h3
  cases x with
  | none => cases h3
  | lit => cases h3
  | named => simp only [ht, classifyNode, hcl] at h3; cases h3
  | bnode => simp only [ht, classifyNode, hcl] at h3; cases h3
  | gen => simp only [ht, classifyNode, hcl] at h3; cases h3

/-- So, without registered classes, iteration over cells with one first and one rest each ends if and only if rdf:nil is reached by rests; and if it ends, it ends normally. -/
theorem C127_iff {o : Orders} (ho : o.OK) {w : World} (wr : w.Reach) {g : Graph} (hg : g.Reach) {c : Nat} (hc : c < w.classes.length)
    {iFirst iRest iNil : PStr} (hL : ListClass w c iFirst iRest iNil) (hb : w.byType = []) {head : Term}
    (hp : ProperCells g.triples (.named iFirst) (.named iRest) (.named iNil) head) :
    ((∃ n, (listTake o g c n w (.test ⟨c, head⟩)).2.2 ≠ none) ↔ Relation.ReflTransGen (RestLink g.triples (.named iRest)) head (.named iNil)) ∧
    ((∃ n, (listTake o g c n w (.test ⟨c, head⟩)).2.2 ≠ none) → ∃ n, (listTake o g c n w (.test ⟨c, head⟩)).2.2 = some (.ok ())) := by
  rcases proper_dichotomy hp with ⟨es, he⟩ | ⟨cell, elem, rfl, he⟩
  · have hok : (listTake o g c (es.length + 1) w (.test ⟨c, head⟩)).2.2 = some (.ok ()) := by
      rcases C58_exact ho wr hg hc hL he c (fun _ => rfl) with ⟨vs, h1, -⟩ | ⟨vs, -, -, w1, x, h1, h2, h3⟩
      · rw [h1]
      · exact absurd h3 (classify_no_classes h1 (Nat.lt_of_lt_of_le hc h2.length) (h2.byType.trans hb) x)
    exact ⟨⟨fun _ => isRdfList_reaches he, fun _ => ⟨_, by rw [hok]; simp⟩⟩, fun _ => ⟨_, hok⟩⟩
  · have hno : ∀ n, (listTake o g c n w (.test ⟨c, cell 0⟩)).2.2 = none := by
      intro n
      rcases C127_endless ho hg he n 0 wr hc hL with ⟨vs, h1, -⟩ | ⟨vs, -, w1, x, h1, h2, h3⟩
      · rw [h1]
      · exact absurd h3 (classify_no_classes h1 (Nat.lt_of_lt_of_le hc h2.length) (h2.byType.trans hb) x)
    refine ⟨⟨fun ⟨n, hn⟩ => absurd (hno n) hn, fun hr => ?_⟩, fun ⟨n, hn⟩ => absurd (hno n) hn⟩
    obtain ⟨i, hi⟩ := endless_reach he hr
    exact absurd hi.symm (he.notNil i)

/-- The cell that is its own rest is a list without an end, and the French list is one with an end. -/
example : Endless cyclic.triples (.named (Heap.rdfNs ++ py! "first")) (.named (Heap.rdfNs ++ py! "rest")) (.named (Heap.rdfNs ++ py! "nil"))
    (fun _ => .bnode 1) (fun _ => .lit (py! "x") none none) := by
  have ht : cyclic.triples = [mkTriple (.bnode 1) (.named (Heap.rdfNs ++ py! "first")) (.lit (py! "x") none none),
    mkTriple (.bnode 1) (.named (Heap.rdfNs ++ py! "rest")) (.bnode 1)] := by decide
  have hne : (Term.named (Heap.rdfNs ++ py! "first")) ≠ .named (Heap.rdfNs ++ py! "rest") := by decide
  refine ⟨fun _ => Or.inr ⟨1, rfl⟩, fun _ => rfl, fun _ => (by decide), fun _ x => ?_, fun _ x => ?_⟩
  · rw [ht]; simp [mkTriple_inj, hne]
  · rw [ht]; simp [mkTriple_inj, hne.symm]

example : ProperCells cyclic.triples (.named (Heap.rdfNs ++ py! "first")) (.named (Heap.rdfNs ++ py! "rest")) (.named (Heap.rdfNs ++ py! "nil")) (.bnode 1) ∧
    ListClass World.new 1 (Heap.rdfNs ++ py! "first") (Heap.rdfNs ++ py! "rest") (Heap.rdfNs ++ py! "nil") ∧ World.new.byType = [] := by
  have ht : cyclic.triples = [mkTriple (.bnode 1) (.named (Heap.rdfNs ++ py! "first")) (.lit (py! "x") none none),
    mkTriple (.bnode 1) (.named (Heap.rdfNs ++ py! "rest")) (.bnode 1)] := by decide
  have hne : (Term.named (Heap.rdfNs ++ py! "first")) ≠ .named (Heap.rdfNs ++ py! "rest") := by decide
  refine ⟨fun s hs => ?_, listClass_new, rfl⟩
  have : s = .bnode 1 := by
    induction hs with
    | refl => rfl
    | tail _ hl ih =>
      unfold RestLink at hl
      rw [ht, ih] at hl
      simpa [mkTriple_inj, hne.symm] using hl
  subst this
  refine Or.inr ⟨Or.inr ⟨1, rfl⟩, rfl, ⟨.lit (py! "x") none none, fun x => ?_⟩, ⟨.bnode 1, fun x => ?_⟩⟩
  · rw [ht]; simp [mkTriple_inj, hne]
  · rw [ht]; simp [mkTriple_inj, hne.symm]

end Verif
