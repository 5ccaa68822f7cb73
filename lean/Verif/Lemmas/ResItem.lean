import Verif.Lemmas.ResClass
import Verif.Spec.Resource
/-
Selecting, storing and deleting: the helpers of `__getitem__`, `__setitem__`, `__delitem__`.
-/
namespace Verif
open Spec Graph

/-! ### The tests -/

theorem isNode_iff (t : Term) : t.isNode = true ↔ IsResource t := by
  cases t <;> simp [Term.isNode, IsResource]

theorem isBare_iff (t : Term) : t.isBare = true ↔ Untagged t := by
  cases t with
  | lit v l d => cases l <;> cases d <;> simp [Term.isBare, Untagged]
  | _ => simp [Term.isBare, Untagged]

theorem hasLang_some_iff (l : PStr) (t : Term) : t.hasLang (some l) = true ↔ InLanguage l t := by
  cases t with
  | lit v l' d =>
    cases l' with
    | none => simp [Term.hasLang, InLanguage, langMatch]
    | some l' => simp [Term.hasLang, InLanguage]
  | _ => simp [Term.hasLang, InLanguage]

theorem hasLang_none_iff (t : Term) : t.hasLang none = true ↔ HasLanguage t := by
  cases t with
  | lit v l d => cases l <;> simp [Term.hasLang, HasLanguage]
  | _ => simp [Term.hasLang, HasLanguage]

theorem hasDt_some_iff (d : PStr) (t : Term) : t.hasDt (some d) = true ↔ OfDatatype d t := by
  cases t with
  | lit v l d' => cases d' <;> simp [Term.hasDt, OfDatatype]
  | _ => simp [Term.hasDt, OfDatatype]

theorem hasDt_none_iff (t : Term) : t.hasDt none = true ↔ HasDatatype t := by
  cases t with
  | lit v l d => cases d <;> simp [Term.hasDt, HasDatatype]
  | _ => simp [Term.hasDt, HasDatatype]

/-! ### The filters -/

theorem mem_nodesOf {o g s p x} : x ∈ nodesOf o g s p ↔ x ∈ objectsOf o g s p ∧ IsResource x := by
  unfold nodesOf; rw [List.mem_filter, isNode_iff]

theorem mem_bareLiterals {o g s p x} : x ∈ bareLiterals o g s p ↔ x ∈ objectsOf o g s p ∧ Untagged x := by
  unfold bareLiterals; rw [List.mem_filter, isBare_iff]

theorem mem_byLang {o g s p x l} (hl : l ≠ []) :
    x ∈ objectsByLang o g s p (some l) ↔ x ∈ objectsOf o g s p ∧ InLanguage l x := by
  unfold objectsByLang
  rw [if_neg (by simpa using hl), List.mem_filter, hasLang_some_iff]

theorem mem_byLang_none {o g s p x} : x ∈ objectsByLang o g s p none ↔ x ∈ objectsOf o g s p ∧ HasLanguage x := by
  unfold objectsByLang
  rw [if_neg (by simp), List.mem_filter, hasLang_none_iff]

theorem mem_byDt {o g s p x d} (hd : d ≠ []) :
    x ∈ objectsByDatatype o g s p (some d) ↔ x ∈ objectsOf o g s p ∧ OfDatatype d x := by
  unfold objectsByDatatype
  rw [if_neg (by simpa using hd), List.mem_filter, hasDt_some_iff]

theorem mem_byDt_none {o g s p x} : x ∈ objectsByDatatype o g s p none ↔ x ∈ objectsOf o g s p ∧ HasDatatype x := by
  unfold objectsByDatatype
  rw [if_neg (by simp), List.mem_filter, hasDt_none_iff]

theorem sub_nodesOf (o g s p) : (nodesOf o g s p).Sublist (objectsOf o g s p) := List.filter_sublist
theorem sub_bareLiterals (o g s p) : (bareLiterals o g s p).Sublist (objectsOf o g s p) := List.filter_sublist
theorem sub_byLang (o g s p l) : (objectsByLang o g s p l).Sublist (objectsOf o g s p) := by
  unfold objectsByLang; split
  · exact sub_bareLiterals o g s p
  · exact List.filter_sublist
theorem sub_byDt (o g s p l) : (objectsByDatatype o g s p l).Sublist (objectsOf o g s p) := by
  unfold objectsByDatatype; split
  · exact sub_bareLiterals o g s p
  · exact List.filter_sublist

/-! ### `objects_by_type` with a class -/

theorem filterByType_spec {o : Orders} (g : Graph) {c : Nat} (rc : Nat) (xs : List Term) {w : World} (wr : w.Reach)
    (hc : c < w.classes.length) :
    (filterByType o g c rc w xs).1.Reach ∧ w.Ext (filterByType o g c rc w xs).1 ∧
    ((filterByType o g c rc w xs).2 = .error .typeError ∨
     ∃ r, (filterByType o g c rc w xs).2 = .ok r ∧ r.Sublist xs ∧ ∀ x ∈ r, IsResource x) := by
  induction xs generalizing w with
  | nil => exact ⟨wr, .refl w, Or.inr ⟨[], rfl, .slnil, by simp⟩⟩
  | cons x xs ih =>
    unfold filterByType
    split
    · next hn =>
      have hs := classify_spec (o := o) wr g hc x
      generalize classify o w g c x = q at hs
      obtain ⟨w1, e | v⟩ := q
      · dsimp only at hs ⊢
        refine ⟨hs.1, hs.2.1, Or.inl ?_⟩
        rcases hs.2.2 with h | ⟨v, h, _⟩
        · simp only [Except.error.injEq] at h ⊢; exact h
        · simp at h
      · have hi := ih hs.1 (Nat.lt_of_lt_of_le hc hs.2.1.length)
        dsimp only at hi ⊢
        generalize filterByType o g c rc w1 xs = q2 at hi
        obtain ⟨w2, e | r⟩ := q2
        · dsimp only at hi ⊢
          refine ⟨hi.1, hs.2.1.trans hi.2.1, Or.inl ?_⟩
          rcases hi.2.2 with h | ⟨v, h, _⟩
          · exact h
          · simp at h
        · refine ⟨hi.1, hs.2.1.trans hi.2.1, Or.inr ⟨_, rfl, ?_, ?_⟩⟩
          · rcases hi.2.2 with h | ⟨r', h, h2, _⟩
            · simp at h
            · simp only [Except.ok.injEq] at h; subst h
              split
              · exact h2.cons_cons x
              · exact h2.cons x
          · rcases hi.2.2 with h | ⟨r', h, _, h3⟩
            · simp at h
            · simp only [Except.ok.injEq] at h; subst h
              intro y hy
              split at hy
              · rcases List.mem_cons.1 hy with rfl | hy
                · exact (isNode_iff _).1 hn
                · exact h3 y hy
              · exact h3 y hy
    · have hi := ih wr hc
      refine ⟨hi.1, hi.2.1, ?_⟩
      rcases hi.2.2 with h | ⟨r, h, h2, h3⟩
      · exact Or.inl h
      · exact Or.inr ⟨r, h, h2.cons x, h3⟩

/-! ### Keys -/

theorem interpretKey_pred {w : World} {r : Res} {key : Key} {sel : Sel} (h : interpretKey w r key = .ok sel) :
    resolveKey w r.c key.text = .ok sel.pred := by
  unfold interpretKey at h
  cases hr : resolveKey w r.c key.text with
  | error e => rw [hr] at h; simp at h
  | ok p =>
    rw [hr] at h
    simp only at h
    split at h <;> (cases h; rfl)

theorem interpretKey_error {w : World} {r : Res} {key : Key} {e : Exc} (h : resolveKey w r.c key.text = .error e) :
    interpretKey w r key = .error e := by
  unfold interpretKey; rw [h]


/-! ### What a key selects -/

theorem mem_langObjects_explicit {o g s p l x} (hl : l ≠ []) :
    (x ∈ langObjects o g s p (some l) true false ↔ x ∈ objectsOf o g s p ∧ InLanguage l x) ∧
    ∀ imp, (x ∈ langObjects o g s p (some l) false imp ↔ x ∈ objectsOf o g s p ∧ (InLanguage l x ∨ IsResource x)) := by
  constructor
  · simp [langObjects, mem_byLang hl]
  · intro imp
    simp only [langObjects, Bool.and_false, Bool.false_and, Bool.not_false, if_true, List.mem_append,
      mem_nodesOf]
    simp only [Bool.false_eq_true, if_false, mem_byLang hl, ← and_or_left]

/-- The implicit read of a scalar: the first non-empty one of four selections. -/
theorem langObjects_scalar (o g s p l) :
    langObjects o g s p (some l) true true =
      if objectsByLang o g s p (some l) ≠ [] then objectsByLang o g s p (some l)
      else if nodesOf o g s p ≠ [] then nodesOf o g s p
      else if objectsByDatatype o g s p none ≠ [] then objectsByDatatype o g s p none
      else bareLiterals o g s p := by
  unfold langObjects
  by_cases h1 : objectsByLang o g s p (some l) = []
  · by_cases h2 : nodesOf o g s p = []
    · by_cases h3 : objectsByDatatype o g s p none = [] <;> simp [h1, h2, h3]
    · simp [h1, h2]
  · simp [h1]

theorem mem_dtObjects {o g s p d x} (hd : d ≠ []) :
    (x ∈ dtObjects o g s p (some d) true ↔ x ∈ objectsOf o g s p ∧ OfDatatype d x) ∧
    (x ∈ dtObjects o g s p (some d) false ↔ x ∈ objectsOf o g s p ∧ (OfDatatype d x ∨ IsResource x)) := by
  simp [dtObjects, mem_byDt hd, mem_nodesOf, ← and_or_left]

theorem not_resource_byLang {o g s p l x} (hx : x ∈ objectsByLang o g s p l) : ¬ IsResource x := by
  rintro (⟨i, rfl⟩ | ⟨i, rfl⟩) <;>
  · unfold objectsByLang bareLiterals at hx
    split at hx <;> simp [Term.isBare, Term.hasLang] at hx

theorem not_resource_byDt {o g s p l x} (hx : x ∈ objectsByDatatype o g s p l) : ¬ IsResource x := by
  rintro (⟨i, rfl⟩ | ⟨i, rfl⟩) <;>
  · unfold objectsByDatatype bareLiterals at hx
    split at hx <;> simp [Term.isBare, Term.hasDt] at hx

theorem nodup_append_nodes {a : List Term} {o g s p} (ha : ∀ x ∈ a, ¬ IsResource x) (na : a.Nodup)
    (nd : (objectsOf o g s p).Nodup) : (a ++ nodesOf o g s p).Nodup := by
  rw [List.nodup_append]
  exact ⟨na, nd.sublist (sub_nodesOf o g s p), fun x hx y hy e => ha x hx (e ▸ (mem_nodesOf.1 hy).2)⟩

theorem langObjects_sub (o g s p l scalar imp) :
    (∀ x ∈ langObjects o g s p l scalar imp, x ∈ objectsOf o g s p) ∧
    ((objectsOf o g s p).Nodup → (langObjects o g s p l scalar imp).Nodup) := by
  have key : ∀ objs : List Term, (∀ x ∈ objs, x ∈ objectsOf o g s p) → ((objectsOf o g s p).Nodup → objs.Nodup) →
      (scalar = false → ∀ x ∈ objs, ¬ IsResource x) →
      (∀ x ∈ (if !scalar then objs ++ nodesOf o g s p else objs), x ∈ objectsOf o g s p) ∧
      ((objectsOf o g s p).Nodup → (if !scalar then objs ++ nodesOf o g s p else objs).Nodup) := by
    intro objs h1 h2 h3
    cases scalar with
    | true => simpa using ⟨h1, h2⟩
    | false =>
      simp only [Bool.not_false, if_true]
      refine ⟨fun x hx => ?_, fun nd => nodup_append_nodes (h3 rfl) (h2 nd) nd⟩
      rcases List.mem_append.1 hx with hx | hx
      · exact h1 x hx
      · exact (mem_nodesOf.1 hx).1
  unfold langObjects
  refine key _ ?_ ?_ ?_
  · split
    · next h =>
      simp only [Bool.and_eq_true, decide_eq_true_eq] at h
      rw [h.2]
      simp only [List.nil_append]
      split
      · next h2 =>
        rw [h2]
        simp only [List.nil_append]
        split
        · next h3 => rw [h3]; exact (sub_bareLiterals o g s p).subset
        · exact (sub_byDt o g s p none).subset
      · exact (sub_nodesOf o g s p).subset
    · exact (sub_byLang o g s p l).subset
  · intro nd
    split
    · next h =>
      simp only [Bool.and_eq_true, decide_eq_true_eq] at h
      rw [h.2]
      simp only [List.nil_append]
      split
      · next h2 =>
        rw [h2]
        simp only [List.nil_append]
        split
        · next h3 => rw [h3]; exact nd.sublist (sub_bareLiterals o g s p)
        · exact nd.sublist (sub_byDt o g s p none)
      · exact nd.sublist (sub_nodesOf o g s p)
    · exact nd.sublist (sub_byLang o g s p l)
  · rintro rfl
    simp only [Bool.and_false, Bool.false_and, Bool.false_eq_true, if_false]
    exact fun x hx => not_resource_byLang hx

theorem dtObjects_sub (o g s p d scalar) :
    (∀ x ∈ dtObjects o g s p d scalar, x ∈ objectsOf o g s p) ∧
    ((objectsOf o g s p).Nodup → (dtObjects o g s p d scalar).Nodup) := by
  unfold dtObjects
  cases scalar with
  | true => simpa using ⟨fun x hx => (sub_byDt o g s p d).subset hx, fun nd => nd.sublist (sub_byDt o g s p d)⟩
  | false =>
    simp only [Bool.not_false, if_true]
    refine ⟨fun x hx => ?_, fun nd => nodup_append_nodes (fun x hx => not_resource_byDt hx) (nd.sublist (sub_byDt o g s p d)) nd⟩
    rcases List.mem_append.1 hx with hx | hx
    · exact (sub_byDt o g s p d).subset hx
    · exact (mem_nodesOf.1 hx).1

/-- Everything the selection can do, once the key is interpreted. -/
theorem objectsForSel_spec {o : Orders} {w : World} (wr : w.Reach) (g : Graph) {r : Res} (hc : r.c < w.classes.length) (sel : Sel)
    (imp : Bool) :
    (objectsForSel o w g r sel imp).1.Reach ∧ w.Ext (objectsForSel o w g r sel imp).1 ∧
    (∀ objs, (objectsForSel o w g r sel imp).2 = .ok objs →
      (∀ x ∈ objs, x ∈ objectsOf o g r.s (predTerm sel.pred)) ∧
      ((objectsOf o g r.s (predTerm sel.pred)).Nodup → objs.Nodup)) ∧
    (∀ e, (objectsForSel o w g r sel imp).2 = .error e → e = .typeError) := by
  -- the simple outcomes: the world is unchanged
  have simple : ∀ (q : World × Except Exc (List Term)) (objs : List Term), q = (w, .ok objs) →
      (∀ x ∈ objs, x ∈ objectsOf o g r.s (predTerm sel.pred)) →
      ((objectsOf o g r.s (predTerm sel.pred)).Nodup → objs.Nodup) →
      q.1.Reach ∧ w.Ext q.1 ∧
      (∀ objs, q.2 = .ok objs →
        (∀ x ∈ objs, x ∈ objectsOf o g r.s (predTerm sel.pred)) ∧
        ((objectsOf o g r.s (predTerm sel.pred)).Nodup → objs.Nodup)) ∧
      (∀ e, q.2 = .error e → e = .typeError) := by
    rintro q objs rfl h1 h2
    refine ⟨wr, .refl w, fun objs' h => ?_, by simp⟩
    simp only [Except.ok.injEq] at h
    subst h
    exact ⟨h1, h2⟩
  unfold objectsForSel
  dsimp only
  split
  · exact simple _ _ rfl (fun _ h => h) id
  · split
    · exact simple _ _ rfl (langObjects_sub ..).1 (langObjects_sub ..).2
    · split
      · exact simple _ _ rfl (dtObjects_sub ..).1 (dtObjects_sub ..).2
      · split
        · next rc hrc =>
          have hf := filterByType_spec (o := o) g rc (objectsOf o g r.s (predTerm sel.pred)) wr hc
          dsimp only [objectsByType]
          refine ⟨hf.1, hf.2.1, fun objs' h => ?_, fun e h => ?_⟩
          · rcases hf.2.2 with h' | ⟨v, h', h2, _⟩
            · rw [h'] at h; cases h
            · rw [h'] at h; cases h; exact ⟨fun x hx => h2.subset hx, fun nd => nd.sublist h2⟩
          · rcases hf.2.2 with h' | ⟨v, h', h2, _⟩
            · rw [h'] at h; cases h; rfl
            · rw [h'] at h; cases h
        · exact simple _ _ rfl (fun x hx => (sub_bareLiterals ..).subset hx) (fun nd => nd.sublist (sub_bareLiterals ..))

theorem objectsForKey_eq {o : Orders} {w : World} {g : Graph} {r : Res} {key : Key} {sel : Sel} (hk : interpretKey w r key = .ok sel) :
    (objectsForKey o w g r key).1 = (objectsForSel o w g r sel (!key.isTuple)).1 ∧
    (objectsForKey o w g r key).2 = (objectsForSel o w g r sel (!key.isTuple)).2.map fun objs => (sel.pred, objs) := by
  unfold objectsForKey; rw [hk]; dsimp only
  generalize objectsForSel o w g r sel (!key.isTuple) = q
  obtain ⟨w', e | objs⟩ := q <;> exact ⟨rfl, rfl⟩

/-- Everything `_objects_for_key` can do. -/
theorem objectsForKey_spec {o : Orders} {w : World} (wr : w.Reach) (g : Graph) {r : Res} (hc : r.c < w.classes.length) (key : Key) :
    (objectsForKey o w g r key).1.Reach ∧ w.Ext (objectsForKey o w g r key).1 ∧
    (∀ p objs, (objectsForKey o w g r key).2 = .ok (p, objs) →
      resolveKey w r.c key.text = .ok p ∧ (∀ x ∈ objs, x ∈ objectsOf o g r.s (predTerm p)) ∧
      ((objectsOf o g r.s (predTerm p)).Nodup → objs.Nodup)) ∧
    (∀ e, (objectsForKey o w g r key).2 = .error e → resolveKey w r.c key.text = .error e ∨ e = .typeError) := by
  cases hk : interpretKey w r key with
  | error e =>
    have : objectsForKey o w g r key = (w, .error e) := by unfold objectsForKey; rw [hk]
    rw [this]
    refine ⟨wr, .refl w, by simp, fun e' he => ?_⟩
    simp only [Except.error.injEq] at he; subst he
    cases hr : resolveKey w r.c key.text with
    | error e' => rw [interpretKey_error hr] at hk; cases hk; exact Or.inl rfl
    | ok p => unfold interpretKey at hk; rw [hr] at hk; simp only at hk; split at hk <;> cases hk
  | ok sel =>
    have hp := interpretKey_pred hk
    obtain ⟨h1, h2⟩ := objectsForKey_eq (o := o) (g := g) hk
    have hs := objectsForSel_spec (o := o) wr g hc sel (!key.isTuple)
    rw [h1, h2]
    refine ⟨hs.1, hs.2.1, fun p objs h => ?_, fun e h => ?_⟩
    · cases hq : (objectsForSel o w g r sel (!key.isTuple)).2 with
      | error e => rw [hq] at h; cases h
      | ok objs' => rw [hq] at h; cases h; exact ⟨hp, hs.2.2.1 _ hq⟩
    · cases hq : (objectsForSel o w g r sel (!key.isTuple)).2 with
      | error e => rw [hq] at h; cases h; exact Or.inr (hs.2.2.2 _ hq)
      | ok objs' => rw [hq] at h; cases h

end Verif
