import Verif.Props.ResMro
/-
C53, C141 II: exactly when classes can be combined (the C3 merge succeeds), and what `classify` does in every case.
-/
namespace Verif
open Spec Graph

/-- `r` is an order of classes, none twice, that keeps each of the given orders. -/
structure Agrees (ls : List (List Nat)) (r : List Nat) : Prop where
  nodup : r.Nodup
  each : ∀ l ∈ ls, l.Sublist r

theorem tail_sublist {a b : Nat} {t r : List Nat} (h : (b :: t).Sublist (a :: r)) : t.Sublist r := by
  cases h with
  | cons _ h => exact (List.sublist_cons_self b t).trans h
  | cons_cons _ h => exact h

/-- If there is such an order, one of the lists begins with a class that is behind no other. -/
theorem exists_pick {ls : List (List Nat)} {r : List Nat} (h : Agrees ls r) (hne : ls ≠ []) (hn : ∀ l ∈ ls, l ≠ []) :
    ∃ k, (∃ l ∈ ls, l.head? = some k) ∧ ∀ l ∈ ls, k ∉ l.tail := by
  induction r with
  | nil =>
    obtain ⟨l, hl⟩ := List.exists_mem_of_ne_nil ls hne
    exact absurd (List.sublist_nil.1 (h.each l hl)) (hn l hl)
  | cons a r ih =>
    by_cases ha : ∃ l ∈ ls, l.head? = some a
    · refine ⟨a, ha, fun l hl hm => ?_⟩
      cases l with
      | nil => cases hm
      | cons b t => exact (List.nodup_cons.1 h.nodup).1 ((tail_sublist (h.each _ hl)).subset hm)
    · refine ih ⟨(List.nodup_cons.1 h.nodup).2, fun l hl => ?_⟩
      have hs := h.each l hl
      cases hs with
      | cons _ hs => exact hs
      | cons_cons _ hs => exact absurd ⟨_, hl, rfl⟩ ha

theorem c3Pick_isSome {ls : List (List Nat)} {r : List Nat} (h : Agrees ls r) (hne : ls ≠ []) (hn : ∀ l ∈ ls, l ≠ []) :
    ∃ k, c3Pick ls = some k ∧ ∃ l ∈ ls, l.head? = some k := by
  obtain ⟨k, ⟨l, hl, hk⟩, ht⟩ := exists_pick h hne hn
  have hs : (c3Pick ls).isSome = true := by
    unfold c3Pick
    rw [List.find?_isSome]
    refine ⟨k, List.mem_filterMap.2 ⟨l, hl, hk⟩, ?_⟩
    simp only [List.all_eq_true, Bool.not_eq_true', List.contains_eq_mem, decide_eq_false_iff_not]
    exact ht
  obtain ⟨k', hk'⟩ := Option.isSome_iff_exists.1 hs
  refine ⟨k', hk', ?_⟩
  have := List.mem_of_find?_eq_some hk'
  obtain ⟨l', hl', e⟩ := List.mem_filterMap.1 this
  exact ⟨l', hl', e⟩

theorem sum_pop_le (k : Nat) (ls : List (List Nat)) :
    ((ls.map fun l => if l.head? = some k then l.tail else l).map List.length).sum ≤ (ls.map List.length).sum := by
  induction ls with
  | nil => simp
  | cons l ls ih =>
    simp only [List.map_cons, List.sum_cons]
    have : (if l.head? = some k then l.tail else l).length ≤ l.length := by split <;> simp
    omega

theorem sum_pop_lt {k : Nat} {ls : List (List Nat)} (h : ∃ l ∈ ls, l.head? = some k) :
    ((ls.map fun l => if l.head? = some k then l.tail else l).map List.length).sum < (ls.map List.length).sum := by
  induction ls with
  | nil => obtain ⟨l, hl, _⟩ := h; cases hl
  | cons l ls ih =>
    simp only [List.map_cons, List.sum_cons]
    have h1 : (if l.head? = some k then l.tail else l).length ≤ l.length := by split <;> simp
    have h2 := sum_pop_le k ls
    by_cases hl : l.head? = some k
    · have : l.tail.length < l.length := by cases l with
        | nil => cases hl
        | cons a l => simp
      rw [if_pos hl]
      omega
    · have : ∃ l ∈ ls, l.head? = some k := by
        obtain ⟨l', hl', e⟩ := h
        rcases List.mem_cons.1 hl' with rfl | hl'
        · exact absurd e hl
        · exact ⟨l', hl', e⟩
      have := ih this
      omega

theorem sum_filter_le (ls : List (List Nat)) : ((ls.filter (· ≠ [])).map List.length).sum ≤ (ls.map List.length).sum := by
  induction ls with
  | nil => simp
  | cons l ls ih =>
    rw [List.filter_cons]
    split
    · simp only [List.map_cons, List.sum_cons]; omega
    · simp only [List.map_cons, List.sum_cons]; omega

theorem c3Merge_complete : ∀ (n : Nat) (ls : List (List Nat)) (r : List Nat), Agrees ls r → (ls.map List.length).sum < n →
    ∃ r', c3Merge n ls = some r' := by
  intro n
  induction n with
  | zero => intro ls r _ h; omega
  | succ n ih =>
    intro ls r h hlt
    have hf : Agrees (ls.filter (· ≠ [])) r := ⟨h.nodup, fun l hl => h.each l (List.mem_filter.1 hl).1⟩
    have hn : ∀ l ∈ ls.filter (· ≠ []), l ≠ [] := fun l hl => by simpa using (List.mem_filter.1 hl).2
    have hs := sum_filter_le ls
    unfold c3Merge
    simp only
    generalize ls.filter (· ≠ []) = fs at hf hn hs
    cases fs with
    | nil => exact ⟨[], rfl⟩
    | cons f fs =>
      obtain ⟨k, hk, hex⟩ := c3Pick_isSome hf (by simp) hn
      dsimp only
      rw [hk]
      dsimp only
      have := sum_pop_lt hex
      have ha : Agrees ((f :: fs).map fun l => if l.head? = some k then l.tail else l) r := by
        refine ⟨h.nodup, fun l hl => ?_⟩
        obtain ⟨l', hl', rfl⟩ := List.mem_map.1 hl
        have := hf.each l' hl'
        split
        · exact (List.tail_sublist l').trans this
        · exact this
      obtain ⟨r', hr'⟩ := ih _ r ha (by omega)
      exact ⟨k :: r', by rw [hr']; rfl⟩

/-- A class with these bases can be made exactly if there is an order that keeps the order of the bases and the resolution order of each. -/
theorem mroOf_isSome_iff {w : World} {c : Nat} {bases : List Nat} :
    (∃ m, mroOf w c bases = some m) ↔ ∃ r : List Nat, r.Nodup ∧ bases.Sublist r ∧ ∀ b ∈ bases, (w.cls b).mro.Sublist r := by
  constructor
  · rintro ⟨m, hm⟩
    obtain ⟨r, _, h1, h2, h3, _⟩ := mroOf_spec hm
    exact ⟨r, h1, h2, h3⟩
  · rintro ⟨r, h1, h2, h3⟩
    have ha : Agrees (bases.map (fun b => (w.cls b).mro) ++ [bases]) r := by
      refine ⟨h1, fun l hl => ?_⟩
      rcases List.mem_append.1 hl with hl | hl
      · obtain ⟨b, hb, rfl⟩ := List.mem_map.1 hl; exact h3 b hb
      · rw [List.mem_singleton] at hl; subst hl; exact h2
    obtain ⟨r', hr'⟩ := c3Merge_complete _ _ _ ha (Nat.lt_succ_self _)
    unfold mroOf
    simp only
    rw [hr']
    exact ⟨_, rfl⟩

/-- An order of classes that keeps the order of the bases and the resolution order of each base. -/
def Combines (w : World) (bases r : List Nat) : Prop :=
  r.Nodup ∧ bases.Sublist r ∧ ∀ b ∈ bases, (w.cls b).mro.Sublist r

theorem addScalars_isOk_iff {pm : PrefixMap} : ∀ (xs s : List PStr),
    (∃ s', addScalars pm s xs = .ok s') ↔ ∀ x ∈ xs, ∃ iri, parseCurie x pm = .ok iri
  | [], s => ⟨fun _ x hx => (by cases hx), fun _ => ⟨s, rfl⟩⟩
  | x :: xs, s => by
    unfold addScalars
    cases h : parseCurie x pm with
    | error e =>
      refine ⟨fun ⟨_, h'⟩ => (by cases h'), fun h' => ?_⟩
      obtain ⟨iri, hi⟩ := h' x (List.mem_cons_self ..)
      rw [h] at hi; cases hi
    | ok iri =>
      dsimp only
      rw [addScalars_isOk_iff xs]
      refine ⟨fun h' y hy => ?_, fun h' y hy => h' y (List.mem_cons_of_mem _ hy)⟩
      rcases List.mem_cons.1 hy with rfl | hy
      · exact ⟨iri, h⟩
      · exact h' y hy

/-- **C141: which class statements are accepted.** Exactly those whose scalars resolve with the class's prefixes (its own over the inherited ones), and
    for which some order of classes keeps the order of the bases and the resolution order of each base. -/
theorem C141_accepts_iff {w : World} {name : PStr} {bases : List Nat} {own : Own} :
    (∃ w' c, newClass w name bases own = .ok (w', c)) ↔
      (∀ x ∈ own.scalars, ∃ iri, parseCurie x (Dict.update (inheritedPrefixes w bases) own.prefixes) = .ok iri) ∧
      ∃ r, Combines w bases r := by
  constructor
  · rintro ⟨w', c, h⟩
    obtain ⟨_, s, m, hs, hm, _⟩ := newClass_ok h
    exact ⟨(addScalars_isOk_iff _ _).1 ⟨s, hs⟩, mroOf_isSome_iff.1 ⟨m, hm⟩⟩
  · rintro ⟨h1, h2⟩
    obtain ⟨s, hs⟩ := (addScalars_isOk_iff own.scalars (inheritedScalars w bases)).2 h1
    obtain ⟨m, hm⟩ := (mroOf_isSome_iff (w := w) (c := w.classes.length)).2 h2
    unfold newClass
    dsimp only
    rw [hs]
    dsimp only
    rw [hm]
    exact ⟨_, _, rfl⟩

/-- **C141: what is refused.** If there is no such order, and the scalars resolve, TypeError. -/
theorem C141_no_order {w : World} {name : PStr} {bases : List Nat} {own : Own}
    (h1 : ∀ x ∈ own.scalars, ∃ iri, parseCurie x (Dict.update (inheritedPrefixes w bases) own.prefixes) = .ok iri)
    (h2 : ¬ ∃ r, Combines w bases r) : newClass w name bases own = .error .typeError := by
  obtain ⟨s, hs⟩ := (addScalars_isOk_iff own.scalars (inheritedScalars w bases)).2 h1
  unfold newClass
  dsimp only
  rw [hs]
  dsimp only
  cases hm : mroOf w w.classes.length bases with
  | none => rfl
  | some m => exact absurd (mroOf_isSome_iff.1 ⟨m, hm⟩) h2

/-- **C53: what `classify` gives in every case.** The types of the node are met in some order `ts`; `cs` are the classes registered for them, in that order. No class: a plain
    Resource. One: that class. Several: the class recorded for these types, if there is one. Otherwise a new class that inherits from all of them and is
    recorded, if they can be combined in this order; if not, TypeError, and nothing is recorded. -/
theorem C53_exact {o : Orders} (ho : o.OK) {w : World} (wr : w.Reach) {g : Graph} (hg : g.Reach) {c : Nat}
    (hc : c < w.classes.length) {obj : Term} (hn : IsResource obj) (h2 : obj.truthy = true) {ty : Term} (ht : rdfType w c = .ok ty) :
    ∃ ts : List Term, ts.Nodup ∧ (∀ t, t ∈ ts ↔ mkTriple obj ty t ∈ g.triples) ∧
      match ts.filterMap (fun t => w.byType.get? t) with
      | [] => classify o w g c obj = (w, .ok (.res 0 obj))
      | [k] => classify o w g c obj = (w, .ok (.res k obj))
      | cs =>
        (∀ pre e post, w.bySet = pre ++ e :: post → (∀ t, t ∈ e.1 ↔ t ∈ ts) → (∀ e' ∈ pre, ¬ ∀ t, t ∈ e'.1 ↔ t ∈ ts) →
          classify o w g c obj = (w, .ok (.res e.2 obj))) ∧
        ((∀ e ∈ w.bySet, ¬ ∀ t, t ∈ e.1 ↔ t ∈ ts) →
          ((∃ r, Combines w cs r) →
            (classify o w g c obj).2 = .ok (.res w.classes.length obj) ∧ (classify o w g c obj).1.Reach ∧
            (∀ b ∈ cs, (classify o w g c obj).1.isSub w.classes.length b = true) ∧
            (∀ t, t ∈ (classify o w g c obj).1.rdfClasses w.classes.length ↔ t ∈ ts) ∧
            ∃ e, (classify o w g c obj).1.bySet = w.bySet ++ [(e, w.classes.length)] ∧ ∀ t, t ∈ e ↔ t ∈ ts) ∧
          ((¬ ∃ r, Combines w cs r) →
            classify o w g c obj = (w, .error .typeError))) := by
  obtain ⟨ns, _, ht'⟩ := rdfType_ok wr.wf hc
  have h1 : ty.truthy = true := by rw [ht] at ht'; cases ht'; cases ns <;> rfl
  have hnode : obj.isNode = true := by rcases hn with ⟨i, rfl⟩ | ⟨i, rfl⟩ <;> rfl
  have wrc := (classify_spec (o := o) wr g hc obj).1
  have hmem : ∀ t, t ∈ typesOf o g ty obj ↔ mkTriple obj ty t ∈ g.triples := mem_typesOf ho hg h1 h2
  have hp := ho.terms (typesOf o g ty obj)
  refine ⟨o.terms (typesOf o g ty obj), hp.nodup_iff.2 (by unfold typesOf; exact nodup_pySet _), fun t => by rw [hp.mem_iff, hmem], ?_⟩
  have hcls : (o.terms (typesOf o g ty obj)).filterMap (fun t => w.byType.get? t) = classesOf o w g ty obj := rfl
  rw [hcls]
  rw [classify_node hnode ht] at wrc ⊢
  unfold classifyNode at wrc ⊢
  have hin : ∀ b ∈ classesOf o w g ty obj, b < w.classes.length := by
    intro b hb
    obtain ⟨t, _, hb⟩ := (mem_classesOf ho hg h1 h2 b).1 hb
    exact wr.wf.types t b hb
  generalize hcs : classesOf o w g ty obj = cs at wrc hin ⊢
  match cs, wrc, hin with
  | [], _, _ => rfl
  | [k], _, _ => rfl
  | a :: b :: cs, wrc, hin =>
    dsimp only at wrc ⊢
    have iff_same : ∀ e : List Term × Nat, sameSet e.1 (typesOf o g ty obj) = true ↔ ∀ t, t ∈ e.1 ↔ t ∈ o.terms (typesOf o g ty obj) := by
      intro e
      rw [sameSet_iff]
      exact forall_congr' fun t => by rw [hp.mem_iff]
    constructor
    · intro pre e post he h3 h4
      have : w.lookupSet (typesOf o g ty obj) = some e.2 := by
        unfold World.lookupSet
        rw [he, List.find?_append, List.find?_eq_none.2 (fun e' h' => by rw [iff_same]; exact h4 e' h')]
        rw [List.find?_cons_of_pos (p := fun e : List Term × Nat => sameSet e.1 (typesOf o g ty obj)) ((iff_same e).2 h3)]
        rfl
      rw [autoClass_of_cached this]
    · intro hno
      have hl : w.lookupSet (typesOf o g ty obj) = none := by
        unfold World.lookupSet
        rw [List.find?_eq_none.2 (fun e' h' => by rw [iff_same]; exact hno e' h')]
        rfl
      constructor
      · intro hr
        obtain ⟨m, hm⟩ := (mroOf_isSome_iff (w := w) (c := w.classes.length)).2 hr
        rcases autoClass_cases w (typesOf o g ty obj) (a :: b :: cs) with ⟨k', hk, he⟩ | ⟨_, e, hne, he⟩ | ⟨_, m', hm', he⟩
        · rw [hk] at hl; cases hl
        · obtain ⟨w', c', hok⟩ := (C141_accepts_iff (w := w) (name := (a :: b :: cs).flatMap fun c => (w.cls c).name) (bases := a :: b :: cs) (own := {})).2
            ⟨fun x hx => (by cases hx), hr⟩
          rw [hok] at hne
          cases hne
        · have hinh := autoClass_inherits hl (pcs := a :: b :: cs) (k := w.classes.length) (by rw [he])
          rw [he] at wrc hinh ⊢
          refine ⟨rfl, wrc, hinh, fun t => ?_, _, rfl, fun t => by rw [hp.mem_iff]⟩
          unfold World.rdfClasses World.lookup
          dsimp only
          rw [cls_last]
          obtain ⟨r, rfl, -⟩ := mroOf_spec hm'
          dsimp only
          rw [List.findSome?_cons, cls_last]
          dsimp only
          rw [Option.getD_some, hp.mem_iff]
      · intro hr
        have hne := C141_no_order (w := w) (name := (a :: b :: cs).flatMap fun c => (w.cls c).name) (bases := a :: b :: cs) (own := {})
          (fun x hx => by cases hx) hr
        unfold autoClass
        rw [hl, hne]

/-- `class D(A, B)` with `A` and `B` directly below Resource can be made, in this order. -/
example : Combines mroW2 [2, 3] [2, 3, 0] :=
  ⟨by decide, by decide, by decide⟩

/-- `class D(Resource, A)` cannot: Resource would have to come before and after `A`. -/
theorem no_order_resource_first : ¬ ∃ r, Combines mroW2 [0, 2] r := by
  rintro ⟨r, h1, h2, h3⟩
  have h4 : [2, 0].Sublist r := h3 2 (by decide)
  have : (2 : Nat) = 0 := by
    induction r with
    | nil => cases h2
    | cons a r ih =>
      rw [List.nodup_cons] at h1
      cases h2 with
      | cons _ h2 =>
        cases h4 with
        | cons _ h4 => exact ih h1.2 h2 (fun b hb => by
            rcases List.mem_cons.1 hb with rfl | hb
            · exact (List.singleton_sublist.2 (h2.subset (by simp)))
            · rw [List.mem_singleton] at hb; subst hb; exact h4) h4
        | cons_cons _ h4 => exact absurd (h2.subset (by simp)) h1.1
      | cons_cons _ h2 =>
        cases h4 with
        | cons _ h4 => exact absurd (h4.subset (by simp)) h1.1
  exact absurd this (by decide)

example : newClass mroW2 (py! "D") [0, 2] {} = .error .typeError :=
  C141_no_order (fun x hx => by cases hx) no_order_resource_first

/-- Two types with classes that can be combined, not met before (C53_exact, third case), and one class registered for both (last case). -/
example : classesOf {} threeClasses bothTypes (.named (Heap.rdfNs ++ py! "type")) (.named (py! "http://x")) = [2, 3] ∧
    Combines threeClasses [2, 3] [2, 3, 0] ∧ threeClasses.bySet = [] ∧
    classesOf {} dupWorld bothTypes (.named (Heap.rdfNs ++ py! "type")) (.named (py! "http://x")) = [2, 2] ∧
    ¬ ∃ r, Combines dupWorld [2, 2] r := by
  refine ⟨by decide, ⟨by decide, by decide, by decide⟩, by decide, by decide, ?_⟩
  rintro ⟨r, h1, h2, _⟩
  exact absurd (h1.sublist h2) (by decide)

theorem filterMap_dup {α β : Type} {f : α → Option β} {a b : α} {k : β} (hab : a ≠ b) (ha : f a = some k) (hb : f b = some k) : ∀ {l : List α}, a ∈ l → b ∈ l → ¬ (l.filterMap f).Nodup
  | [], h, _ => by cases h
  | x :: l, h, h' => by
    intro hn
    rcases List.mem_cons.1 h with rfl | h0
    · rw [List.filterMap_cons, ha] at hn
      exact (List.nodup_cons.1 hn).1 (List.mem_filterMap.2 ⟨b, (List.mem_cons.1 h').resolve_left (Ne.symm hab), hb⟩)
    · rcases List.mem_cons.1 h' with rfl | h0'
      · rw [List.filterMap_cons, hb] at hn
        exact (List.nodup_cons.1 hn).1 (List.mem_filterMap.2 ⟨a, (List.mem_cons.1 h).resolve_left hab, ha⟩)
      · refine filterMap_dup hab ha hb h0 h0' ?_
        rw [List.filterMap_cons] at hn
        split at hn
        · exact hn
        · exact (List.nodup_cons.1 hn).2

/-- **One class registered for two types of a node**: whatever other types the node has, and whatever the order, it cannot be classified (unless a class was recorded for its types
    before the second registration). The same goes for every access that has to classify the node. -/
theorem C53_registered_twice {o : Orders} (ho : o.OK) {w : World} (wr : w.Reach) {g : Graph} (hg : g.Reach) {c : Nat}
    (hc : c < w.classes.length) {obj : Term} (hn : IsResource obj) (h2 : obj.truthy = true) {ty : Term} (ht : rdfType w c = .ok ty)
    {a b : Term} {k : Nat} (hab : a ≠ b) (ha : mkTriple obj ty a ∈ g.triples) (hb : mkTriple obj ty b ∈ g.triples)
    (hka : w.byType.get? a = some k) (hkb : w.byType.get? b = some k)
    (hnew : ∀ e ∈ w.bySet, ¬ ∀ t, t ∈ e.1 ↔ mkTriple obj ty t ∈ g.triples) : classify o w g c obj = (w, .error .typeError) := by
  obtain ⟨ts, hts, hmem, h⟩ := C53_exact ho wr hg hc hn h2 ht
  have hd := filterMap_dup (f := fun t => w.byType.get? t) hab hka hkb ((hmem a).2 ha) ((hmem b).2 hb)
  generalize ts.filterMap (fun t => w.byType.get? t) = cs at h hd
  match cs, h, hd with
  | [], _, hd => exact absurd List.nodup_nil hd
  | [x], _, hd => exact absurd (by simp) hd
  | x :: y :: zs, h, hd =>
    refine (h.2 fun e he hx => hnew e he fun t => (hx t).trans (hmem t)).2 ?_
    rintro ⟨r, h1, h3, _⟩
    exact hd (h1.sublist h3)

example : classify {} dupWorld bothTypes 0 (.named (py! "http://x")) = (dupWorld, .error .typeError) :=
  C53_registered_twice .default dupWorld_reach (((Graph.Reach.new _).add _ _ _).add _ _ _) (by decide) (.inl ⟨_, rfl⟩) rfl (ty := .named (Heap.rdfNs ++ py! "type")) (by decide)
    (a := .named (py! "http://a")) (b := .named (py! "http://b")) (k := 2) (by decide) (by decide) (by decide) (by decide) (by decide)
    (fun e he => by rw [show dupWorld.bySet = [] from by decide] at he; cases he)

end Verif
