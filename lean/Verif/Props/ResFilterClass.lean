import Verif.Props.ResFilter
/-
Assignment of resources through a class filter, `r[name, Class] = resources`: C84 for a predicate that is not scalar, C86 for a scalar one.
-/
namespace Verif
open Spec Graph

theorem objectifyAll_ress {o : Orders} {w : World} {g : Graph} {lang dt : Option PStr} (us : List PyVal) (h : ∀ u ∈ us, ∃ c t, u = .res c t) :
    ∃ xs, objectifyAll o g lang dt w us = (w, .ok xs) ∧ ∀ y ∈ xs, ∃ c t, y = .res c t ∧ .res c t ∈ us := by
  induction us with
  | nil => exact ⟨[], rfl, by simp⟩
  | cons u us ih =>
    obtain ⟨c, t, rfl⟩ := h u (by simp)
    obtain ⟨xs, h2, h3⟩ := ih (fun x hx => h x (by simp [hx]))
    refine ⟨.res c t :: xs, ?_, ?_⟩
    · unfold objectifyAll
      simp only [objectify, h2]
    · intro y hy
      rcases List.mem_cons.1 hy with rfl | hy
      · exact ⟨c, t, rfl, by simp⟩
      · obtain ⟨c', t', h4, h5⟩ := h3 y hy
        exact ⟨c', t', h4, by simp [h5]⟩

/-- Values that are all resources: nothing is raised, and no class is created. -/
theorem literalize_ress {o : Orders} (ho : o.OK) {w : World} {g : Graph} {lang dt : Option PStr} {value : SetVal}
    (h : ∀ u ∈ values value, ∃ c t, u = .res c t) :
    ∃ x, literalize o w g lang dt value = (w, .ok x) ∧ ∀ y ∈ x.vals o, ∃ c t, y = .res c t ∧ .res c t ∈ values value := by
  cases value with
  | one u =>
    obtain ⟨c, t, rfl⟩ := h u (by simp [values])
    refine ⟨.one (.res c t), rfl, ?_⟩
    intro y hy
    simp only [LVal.vals, List.mem_singleton] at hy
    exact ⟨c, t, hy, by simp [values]⟩
  | many us =>
    obtain ⟨xs, h1, h2⟩ := objectifyAll_ress (o := o) (w := w) (g := g) (lang := lang) (dt := dt) us h
    refine ⟨.many (frozen xs), ?_, ?_⟩
    · dsimp only [literalize]
      rw [h1]
    · intro y hy
      simp only [LVal.vals] at hy
      exact h2 y (frozen_sub xs y ((ho.vals _).mem_iff.1 hy))

/-- Instances of the filter's class pass the check. -/
theorem checkObjects_cls {o : Orders} {w : World} {rc : Nat} {x : LVal} (h : ∀ y ∈ x.vals o, y.isInst w rc = true) :
    checkObjects o w none none (some rc) x = .ok true := by
  have h0 : truthyStr none = false := rfl
  cases x with
  | one v =>
    have := h v (by simp [LVal.vals])
    simp only [checkObjects, h0, Bool.false_eq_true, if_false, this]
  | many vs =>
    refine checkElems_all fun v hv => ?_
    have := h v hv
    simp [checkElem, h0, this]

/-- `r[name, Class] = resources`, where the predicate is not scalar and every value is a resource of the class (or of a subclass). What the key shows before
    (`objs`, C83_class_selection) is replaced by the given resources; every other object stays. If the key cannot be read, nothing changes, with the same
    exception. -/
theorem C84_class_filter {o : Orders} (ho : o.OK) {w : World} (wr : w.Reach) {g : Graph} (hg : g.Reach) {r : Res} (hc : r.c < w.classes.length)
    (hs : r.s.truthy = true) {k p : PStr} (hk : resolveKey w r.c k = .ok (some p)) (hp : p ≠ [])
    (hn : isScalar w r.c (some p) = false) (rc : Nat) {value : SetVal}
    (hv : ∀ u ∈ values value, ∃ c t, u = .res c t ∧ w.isSub c rc = true) :
    (∀ e, (objectsForKey o w g r (.pair k (.cls rc))).2 = .error e → (setItem o w g r (.pair k (.cls rc)) value).2 = (g, .error e)) ∧
    ∀ w' q objs, objectsForKey o w g r (.pair k (.cls rc)) = (w', .ok (q, objs)) →
      (setItem o w g r (.pair k (.cls rc)) value).2.2 = .ok () ∧ (setItem o w g r (.pair k (.cls rc)) value).1 = w' ∧
      ∀ x, mkTriple r.s (.named p) x ∈ (setItem o w g r (.pair k (.cls rc)) value).2.1.triples ↔
        (∃ c, .res c x ∈ values value) ∨ (mkTriple r.s (.named p) x ∈ g.triples ∧ x ∉ objs) := by
  have hik : interpretKey w r (.pair k (.cls rc)) = .ok ⟨some p, none, none, some rc⟩ := by
    unfold interpretKey; simp only [Key.text, hk]
  have h0 : truthyStr none = false := rfl
  obtain ⟨x, h1, h2⟩ := literalize_ress ho (w := w) (g := g) (lang := none) (dt := none) (value := value) fun u hu => by
    obtain ⟨c, t, h, -⟩ := hv u hu; exact ⟨c, t, h⟩
  have hch : checkObjects o w none none (some rc) x = .ok true := checkObjects_cls fun y hy => by
    obtain ⟨c, t, rfl, hm⟩ := h2 y hy
    obtain ⟨c', t', he, hsub⟩ := hv _ hm
    cases he
    exact hsub
  have hrl : removalList o w g r (.pair k (.cls rc)) ⟨some p, none, none, some rc⟩ x = objectsByType o w g r (.named p) (some rc) := by
    unfold removalList objectsForExplicitSet
    simp only [Key.isTuple, if_true, hch, h0, hn, Bool.false_and, Bool.false_eq_true, if_false, predTerm]
  have hok : objectsForKey o w g r (.pair k (.cls rc)) =
      match objectsByType o w g r (.named p) (some rc) with
      | (w, .error e) => (w, .error e)
      | (w, .ok objs) => (w, .ok (some p, objs)) := by
    unfold objectsForKey
    rw [hik]
    simp only [objectsForSel, predTerm, h0, reduceCtorEq, and_false, if_false, Bool.false_eq_true]
    generalize objectsByType o w g r (.named p) (some rc) = z
    obtain ⟨w1, e' | objs⟩ := z <;> rfl
  constructor
  · intro e he
    rw [hok] at he
    unfold setItem
    rw [hik]
    simp only [h1]
    have : (if (Key.pair k (Filt.cls rc)).isTuple = true then objectsForExplicitSet o w g r ⟨some p, none, none, some rc⟩ x
        else (w, objectsForImplicitSet o w g r (some p) x)) = objectsByType o w g r (.named p) (some rc) := hrl
    rw [this]
    generalize objectsByType o w g r (.named p) (some rc) = z at he ⊢
    obtain ⟨w1, e' | objs⟩ := z
    · cases he; rfl
    · cases he
  · intro w' q objs h
    obtain ⟨-, nd, hsub, -⟩ := C83_class_selection ho wr hg hc hs hk hp rc h
    rw [hok] at h
    have hz : objectsByType o w g r (.named p) (some rc) = (w', .ok objs) := by
      generalize objectsByType o w g r (.named p) (some rc) = z at h ⊢
      obtain ⟨w1, e' | objs'⟩ := z
      · cases h
      · cases h; rfl
    have hp' : (Term.named p).truthy = true := predTerm_truthy hp
    have := setItem_replaces ho wr hg hs hik hp h1 (hrl.trans hz) nd (S := fun y => y ∈ objs) fun y =>
      ⟨fun hy => ⟨(mem_objectsOf ho hg hs hp' y).2 (hsub y hy).1, hy⟩, fun hy => hy.2⟩
    refine ⟨this.1, this.2.1, fun y => (this.2.2 y).trans ?_⟩
    constructor
    · rintro (⟨u, hu, hst⟩ | hr)
      · obtain ⟨c, t, rfl, -⟩ := hv u hu
        cases hst
        exact Or.inl ⟨c, hu⟩
      · exact Or.inr hr
    · rintro (⟨c, hu⟩ | hr)
      · exact Or.inl ⟨_, hu, rfl⟩
      · exact Or.inr hr

/-- A scalar predicate: resources of the class, one or several, replace everything. -/
theorem C86_scalar_class_set {o : Orders} (ho : o.OK) {w : World} (wr : w.Reach) {g : Graph} (hg : g.Reach) {r : Res}
    (hs : r.s.truthy = true) {k p : PStr} (hk : resolveKey w r.c k = .ok (some p)) (hp : p ≠ [])
    (hn : isScalar w r.c (some p) = true) (rc : Nat) {value : SetVal}
    (hv : ∀ u ∈ values value, ∃ c t, u = .res c t ∧ w.isSub c rc = true) :
    (setItem o w g r (.pair k (.cls rc)) value).2.2 = .ok () ∧
    (setItem o w g r (.pair k (.cls rc)) value).1 = w ∧
    ∀ x, mkTriple r.s (.named p) x ∈ (setItem o w g r (.pair k (.cls rc)) value).2.1.triples ↔ ∃ c, .res c x ∈ values value := by
  have hik : interpretKey w r (.pair k (.cls rc)) = .ok ⟨some p, none, none, some rc⟩ := by
    unfold interpretKey; simp only [Key.text, hk]
  have h0 : truthyStr none = false := rfl
  have hp' : (Term.named p).truthy = true := predTerm_truthy hp
  have nd := nodup_objectsOf ho hg hs hp'
  obtain ⟨x, h1, h2⟩ := literalize_ress ho (w := w) (g := g) (lang := none) (dt := none) (value := value) fun u hu => by
    obtain ⟨c, t, h, -⟩ := hv u hu; exact ⟨c, t, h⟩
  have hch : checkObjects o w none none (some rc) x = .ok true := checkObjects_cls fun y hy => by
    obtain ⟨c, t, rfl, hm⟩ := h2 y hy
    obtain ⟨c', t', he, hsub⟩ := hv _ hm
    cases he
    exact hsub
  have hrl : removalList o w g r (.pair k (.cls rc)) ⟨some p, none, none, some rc⟩ x = (w, .ok (objectsOf o g r.s (.named p))) := by
    unfold removalList objectsForExplicitSet
    simp only [Key.isTuple, if_true, hch, h0, hn, Bool.false_and, Bool.false_eq_true, if_false, predTerm]
  have := setItem_replaces ho wr hg hs hik hp h1 hrl nd (S := fun _ => True) fun y => by simp
  refine ⟨this.1, this.2.1, fun y => (this.2.2 y).trans ?_⟩
  constructor
  · rintro (⟨u, hu, hst⟩ | hr)
    · obtain ⟨c, t, rfl, -⟩ := hv u hu
      cases hst
      exact ⟨c, hu⟩
    · exact absurd trivial hr.2
  · rintro ⟨c, hu⟩
    exact Or.inl ⟨_, hu, rfl⟩

/-- Two resources through the filter for Resource itself: `rdfs:seeAlso` is not a scalar, `rdfs:label` is. -/
example :
    resolveKey World.new 0 (py! "rdfs:seeAlso") = .ok (some (rdfsNs ++ py! "seeAlso")) ∧ isScalar World.new 0 (some (rdfsNs ++ py! "seeAlso")) = false ∧
    isScalar World.new 0 (some (rdfsNs ++ py! "label")) = true ∧
    (∀ u ∈ values (.many [.res 0 (.named (py! "http://y")), .res 0 (.bnode 3)]), ∃ c t, u = .res c t ∧ World.new.isSub c 0 = true) ∧
    objectsOf {} (setItem {} World.new sample ⟨0, .named (py! "http://x")⟩ (.pair (py! "rdfs:label") (.cls 0))
      (.many [.res 0 (.named (py! "http://y")), .res 0 (.bnode 3)])).2.1 (.named (py! "http://x")) (.named (rdfsNs ++ py! "label")) =
      [.named (py! "http://y"), .bnode 3] := by
  refine ⟨by decide, by decide, by decide, ?_, by decide⟩
  intro u hu
  simp only [values, List.mem_cons, List.not_mem_nil, or_false] at hu
  rcases hu with rfl | rfl
  · exact ⟨_, _, rfl, by decide⟩
  · exact ⟨_, _, rfl, by decide⟩

end Verif
