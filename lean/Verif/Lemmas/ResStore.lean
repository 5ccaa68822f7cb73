import Verif.Lemmas.ResItem
/-
`literalize` and `__setitem__`.
-/
namespace Verif
open Spec Graph

theorem objectify_spec {o : Orders} {w : World} (wr : w.Reach) (g : Graph) (lang dt : Option PStr) (v : PyVal) :
    (objectify o w g lang dt v).1.Reach ∧ w.Ext (objectify o w g lang dt v).1 ∧
    (∀ x, (objectify o w g lang dt v).2 = .ok x → storedTerm lang dt v = some x.term) ∧
    (∀ e, (objectify o w g lang dt v).2 = .error e → (e = .typeError ∧ ∃ t, storedTerm lang dt v = some t ∧ IsResource t) ∨
      (e = .keyError ∧ storedTerm lang dt v = none)) := by
  have h0 : 0 < w.classes.length := by have := wr.wf.two; omega
  have hn : ∀ t : Term, t.isNode = true → storedTerm lang dt v = some t → objectify o w g lang dt v = classify o w g 0 t →
      (objectify o w g lang dt v).1.Reach ∧ w.Ext (objectify o w g lang dt v).1 ∧
      (∀ x, (objectify o w g lang dt v).2 = .ok x → storedTerm lang dt v = some x.term) ∧
      (∀ e, (objectify o w g lang dt v).2 = .error e → (e = .typeError ∧ ∃ t, storedTerm lang dt v = some t ∧ IsResource t) ∨
        (e = .keyError ∧ storedTerm lang dt v = none)) := by
    intro t ht hs he
    have hc := classify_spec (o := o) wr g h0 t
    rw [he]
    refine ⟨hc.1, hc.2.1, fun x hx => ?_, fun e hx => ?_⟩
    · rcases hc.2.2 with h | ⟨y, h, h2, _⟩
      · rw [h] at hx; cases hx
      · rw [h] at hx; cases hx; rw [h2]; exact hs
    · rcases hc.2.2 with h | ⟨y, h, h2, _⟩
      · rw [h] at hx; cases hx; exact Or.inl ⟨rfl, t, hs, (isNode_iff t).1 ht⟩
      · rw [h] at hx; cases hx
  have triv : ∀ x : Val, objectify o w g lang dt v = (w, .ok x) → storedTerm lang dt v = some x.term →
      (objectify o w g lang dt v).1.Reach ∧ w.Ext (objectify o w g lang dt v).1 ∧
      (∀ x, (objectify o w g lang dt v).2 = .ok x → storedTerm lang dt v = some x.term) ∧
      (∀ e, (objectify o w g lang dt v).2 = .error e → (e = .typeError ∧ ∃ t, storedTerm lang dt v = some t ∧ IsResource t) ∨
        (e = .keyError ∧ storedTerm lang dt v = none)) := by
    intro x he hs
    rw [he]
    refine ⟨wr, .refl w, fun y hy => ?_, by simp⟩
    simp only [Except.ok.injEq] at hy; subst hy; exact hs
  cases v with
  | iri s => exact hn _ rfl rfl rfl
  | bnode i => exact hn _ rfl rfl rfl
  | lit v l d => exact triv _ rfl rfl
  | res c s => exact triv _ rfl rfl
  | str s => exact triv _ rfl rfl
  | other a =>
    cases a with
    | str s => exact triv _ rfl rfl
    | int n => exact triv _ rfl rfl
    | datetime s => exact triv _ rfl rfl
    | other => exact ⟨wr, .refl w, by simp [objectify, mkLiteral], fun e h => by
        simp only [objectify, mkLiteral, Except.error.injEq] at h; exact Or.inr ⟨h.symm, rfl⟩⟩

theorem objectifyAll_spec {o : Orders} (g : Graph) (lang dt : Option PStr) (vs : List PyVal) {w : World} (wr : w.Reach) :
    (objectifyAll o g lang dt w vs).1.Reach ∧ w.Ext (objectifyAll o g lang dt w vs).1 ∧
    (∀ xs, (objectifyAll o g lang dt w vs).2 = .ok xs → vs.map (storedTerm lang dt) = xs.map (fun x => some x.term)) ∧
    (∀ e, (objectifyAll o g lang dt w vs).2 = .error e →
      (e = .typeError ∧ ∃ v ∈ vs, ∃ t, storedTerm lang dt v = some t ∧ IsResource t) ∨
      (e = .keyError ∧ ∃ v ∈ vs, storedTerm lang dt v = none)) := by
  induction vs generalizing w with
  | nil => exact ⟨wr, .refl w, by simp [objectifyAll], by simp [objectifyAll]⟩
  | cons v vs ih =>
    unfold objectifyAll
    have hs := objectify_spec (o := o) wr g lang dt v
    generalize objectify o w g lang dt v = q at hs ⊢
    obtain ⟨w1, e | x⟩ := q
    · dsimp only at hs ⊢
      refine ⟨hs.1, hs.2.1, by simp, fun e' he => ?_⟩
      simp only [Except.error.injEq] at he; subst he
      rcases hs.2.2.2 e rfl with ⟨h1, t, h2⟩ | ⟨h1, h2⟩
      · exact Or.inl ⟨h1, v, by simp, t, h2⟩
      · exact Or.inr ⟨h1, v, by simp, h2⟩
    · have hi := ih hs.1
      dsimp only at hi hs ⊢
      generalize objectifyAll o g lang dt w1 vs = q2 at hi ⊢
      obtain ⟨w2, e | xs⟩ := q2
      · dsimp only at hi ⊢
        refine ⟨hi.1, hs.2.1.trans hi.2.1, by simp, fun e' he => ?_⟩
        simp only [Except.error.injEq] at he; subst he
        rcases hi.2.2.2 e rfl with ⟨h1, v, hv, t, h2⟩ | ⟨h1, v, hv, h2⟩
        · exact Or.inl ⟨h1, v, by simp [hv], t, h2⟩
        · exact Or.inr ⟨h1, v, by simp [hv], h2⟩
      · dsimp only at hi ⊢
        refine ⟨hi.1, hs.2.1.trans hi.2.1, fun xs' h => ?_, by simp⟩
        simp only [Except.ok.injEq] at h; subst h
        rw [List.map_cons, List.map_cons, hs.2.2.1 x rfl, hi.2.2.1 xs rfl]

theorem same_term {a b : Val} (h : a.same b = true) : a.term = b.term := by
  unfold Val.same at h
  split at h
  · simp only [decide_eq_true_eq] at h; exact h
  · simp only [decide_eq_true_eq] at h; rw [h]

theorem frozen_terms (vs : List Val) (t : Term) : t ∈ (frozen vs).map Val.term ↔ t ∈ vs.map Val.term := by
  induction vs with
  | nil => rfl
  | cons v vs ih =>
    simp only [frozen, List.map_cons, List.mem_cons]
    constructor
    · rintro (h | h)
      · exact Or.inl h
      · obtain ⟨u, hu, rfl⟩ := List.mem_map.1 h
        exact Or.inr (ih.1 (List.mem_map_of_mem (List.mem_filter.1 hu).1))
    · rintro (h | h)
      · exact Or.inl h
      · obtain ⟨u, hu, rfl⟩ := List.mem_map.1 (ih.2 h)
        by_cases hs : v.same u = true
        · exact Or.inl (same_term hs).symm
        · exact Or.inr (List.mem_map_of_mem (List.mem_filter.2 ⟨hu, by simpa using hs⟩))

/-- Everything `literalize` can do. -/
theorem literalize_spec {o : Orders} (ho : o.OK) {w : World} (wr : w.Reach) (g : Graph) (lang dt : Option PStr) (v : SetVal) :
    (literalize o w g lang dt v).1.Reach ∧ w.Ext (literalize o w g lang dt v).1 ∧
    (∀ x, (literalize o w g lang dt v).2 = .ok x →
      (∀ u ∈ values v, (storedTerm lang dt u).isSome) ∧
      (∀ t, t ∈ (x.vals o).map Val.term ↔ ∃ u ∈ values v, storedTerm lang dt u = some t) ∧
      ((∃ u, v = .one u) ↔ ∃ y, x = .one y)) ∧
    (∀ e, (literalize o w g lang dt v).2 = .error e →
      (e = .typeError ∧ ∃ u ∈ values v, ∃ t, storedTerm lang dt u = some t ∧ IsResource t) ∨
      (e = .keyError ∧ ∃ u ∈ values v, storedTerm lang dt u = none)) := by
  cases v with
  | one v =>
    have hs := objectify_spec (o := o) wr g lang dt v
    dsimp only [literalize]
    generalize objectify o w g lang dt v = q at hs ⊢
    obtain ⟨w1, e | x⟩ := q
    · dsimp only at hs ⊢
      refine ⟨hs.1, hs.2.1, by simp, fun e' he => ?_⟩
      simp only [Except.error.injEq] at he; subst he
      simpa [values] using hs.2.2.2 e rfl
    · dsimp only at hs ⊢
      refine ⟨hs.1, hs.2.1, fun x' h => ?_, by simp⟩
      simp only [Except.ok.injEq] at h; subst h
      have := hs.2.2.1 x rfl
      refine ⟨?_, fun t => ?_, ⟨fun _ => ⟨x, rfl⟩, fun _ => ⟨v, rfl⟩⟩⟩
      · intro u hu
        rw [List.mem_singleton.1 hu, this]; rfl
      · simp only [values, LVal.vals, List.map_cons, List.map_nil, List.mem_singleton, exists_eq_left, this, Option.some.injEq]
        exact eq_comm
  | many vs =>
    have hs := objectifyAll_spec (o := o) g lang dt vs wr
    dsimp only [literalize]
    generalize objectifyAll o g lang dt w vs = q at hs ⊢
    obtain ⟨w1, e | xs⟩ := q
    · dsimp only at hs ⊢
      refine ⟨hs.1, hs.2.1, by simp, fun e' he => ?_⟩
      simp only [Except.error.injEq] at he; subst he
      simpa [values] using hs.2.2.2 e rfl
    · dsimp only at hs ⊢
      refine ⟨hs.1, hs.2.1, fun x' h => ?_, by simp⟩
      simp only [Except.ok.injEq] at h; subst h
      have h := hs.2.2.1 xs rfl
      refine ⟨fun u hu => ?_, fun t => ?_, by simp⟩
      · have : storedTerm lang dt u ∈ vs.map (storedTerm lang dt) := List.mem_map_of_mem hu
        rw [h] at this
        obtain ⟨x, _, hx⟩ := List.mem_map.1 this
        rw [← hx]; rfl
      · have hp : t ∈ ((LVal.many (frozen xs)).vals o).map Val.term ↔ t ∈ xs.map Val.term := by
          rw [← frozen_terms xs]
          exact ((ho.vals _).map _).mem_iff
        rw [hp]
        have h2 : some t ∈ vs.map (storedTerm lang dt) ↔ some t ∈ xs.map (fun x => some x.term) := by rw [h]
        simp only [List.mem_map, Option.some.injEq] at h2
        simpa [values] using h2.symm

/-! ### `__setitem__` -/

/-- The removal list of an assignment. -/
def removalList (o : Orders) (w : World) (g : Graph) (r : Res) (key : Key) (sel : Sel) (v : LVal) : World × Except Exc (List Term) :=
  if key.isTuple then objectsForExplicitSet o w g r sel v else (w, objectsForImplicitSet o w g r sel.pred v)

theorem implicitSet_sub {o w g r pred v objs} (h : objectsForImplicitSet o w g r pred v = .ok objs) :
    ∀ x ∈ objs, x ∈ objectsOf o g r.s (predTerm pred) := by
  unfold objectsForImplicitSet at h
  dsimp only at h
  split at h
  · cases h
  · cases h
    intro x hx
    simp only [List.mem_append] at hx
    rcases hx with ((hx | hx) | hx) | hx
    · exact (sub_byLang ..).subset hx
    · exact (sub_byDt ..).subset hx
    · exact (sub_nodesOf ..).subset hx
    · exact (sub_bareLiterals ..).subset hx
  · cases h; exact fun _ h => h

theorem explicitSet_spec {o : Orders} {w : World} (wr : w.Reach) (g : Graph) {r : Res} (hc : r.c < w.classes.length) (sel : Sel) (v : LVal) :
    (objectsForExplicitSet o w g r sel v).1.Reach ∧ w.Ext (objectsForExplicitSet o w g r sel v).1 ∧
    ∀ objs, (objectsForExplicitSet o w g r sel v).2 = .ok objs → ∀ x ∈ objs, x ∈ objectsOf o g r.s (predTerm sel.pred) := by
  unfold objectsForExplicitSet
  dsimp only
  split
  · exact ⟨wr, .refl w, by simp⟩
  · exact ⟨wr, .refl w, by simp⟩
  · split
    · refine ⟨wr, .refl w, fun objs h => ?_⟩
      cases h
      intro x hx
      simp only [List.mem_append] at hx
      rcases hx with (hx | hx) | hx
      · exact (sub_byLang ..).subset hx
      · exact (sub_byDt ..).subset hx
      · exact (sub_nodesOf ..).subset hx
    · split
      · refine ⟨wr, .refl w, fun objs h => ?_⟩
        cases h
        intro x hx
        rcases List.mem_append.1 hx with hx | hx
        · exact (sub_byLang ..).subset hx
        · exact (sub_nodesOf ..).subset hx
      · split
        · refine ⟨wr, .refl w, fun objs h => ?_⟩
          cases h; exact fun _ h => h
        · split
          · refine ⟨wr, .refl w, fun objs h => ?_⟩
            cases h
            intro x hx
            rcases List.mem_append.1 hx with hx | hx
            · exact (sub_byDt ..).subset hx
            · exact (sub_nodesOf ..).subset hx
          · split
            · next rc _ =>
              have hf := filterByType_spec (o := o) g rc (objectsOf o g r.s (predTerm sel.pred)) wr hc
              refine ⟨hf.1, hf.2.1, fun objs h => ?_⟩
              rcases hf.2.2 with h' | ⟨v, h', h2, _⟩
              · simp only [objectsByType] at h; rw [h'] at h; cases h
              · simp only [objectsByType] at h; rw [h'] at h; cases h; exact fun x hx => h2.subset hx
            · exact ⟨wr, .refl w, by simp⟩

theorem removalList_spec {o : Orders} {w : World} (wr : w.Reach) (g : Graph) {r : Res} (hc : r.c < w.classes.length) (key : Key) (sel : Sel)
    (v : LVal) :
    (removalList o w g r key sel v).1.Reach ∧ w.Ext (removalList o w g r key sel v).1 ∧
    ∀ objs, (removalList o w g r key sel v).2 = .ok objs → ∀ x ∈ objs, x ∈ objectsOf o g r.s (predTerm sel.pred) := by
  unfold removalList
  split
  · exact explicitSet_spec wr g hc sel v
  · exact ⟨wr, .refl w, fun objs h => implicitSet_sub h⟩

/-- How an assignment can end: it fails before the graph is touched, or in the removal loop, or it succeeds. -/
inductive SetOutcome (o : Orders) (w : World) (g : Graph) (r : Res) (key : Key) (value : SetVal) : World × Graph × Except Exc Unit → Prop
  | key {e} : interpretKey w r key = .error e → SetOutcome o w g r key value (w, g, .error e)
  | value {sel e} : interpretKey w r key = .ok sel → (literalize o w g sel.lang sel.dt value).2 = .error e →
      SetOutcome o w g r key value ((literalize o w g sel.lang sel.dt value).1, g, .error e)
  | check {sel v e} : interpretKey w r key = .ok sel → (literalize o w g sel.lang sel.dt value).2 = .ok v →
      (removalList o (literalize o w g sel.lang sel.dt value).1 g r key sel v).2 = .error e →
      SetOutcome o w g r key value ((removalList o (literalize o w g sel.lang sel.dt value).1 g r key sel v).1, g, .error e)
  | remove {sel v objs e} : interpretKey w r key = .ok sel → (literalize o w g sel.lang sel.dt value).2 = .ok v →
      (removalList o (literalize o w g sel.lang sel.dt value).1 g r key sel v).2 = .ok objs →
      (removeObjs r.s (predTerm sel.pred) g objs).2 = .error e →
      SetOutcome o w g r key value ((removalList o (literalize o w g sel.lang sel.dt value).1 g r key sel v).1,
        (removeObjs r.s (predTerm sel.pred) g objs).1, .error e)
  | ok {sel v objs} : interpretKey w r key = .ok sel → (literalize o w g sel.lang sel.dt value).2 = .ok v →
      (removalList o (literalize o w g sel.lang sel.dt value).1 g r key sel v).2 = .ok objs →
      (removeObjs r.s (predTerm sel.pred) g objs).2 = .ok () →
      SetOutcome o w g r key value ((removalList o (literalize o w g sel.lang sel.dt value).1 g r key sel v).1,
        ((v.vals o).map Val.term).foldl (fun g x => g.add (mkTriple r.s (predTerm sel.pred) x))
          (removeObjs r.s (predTerm sel.pred) g objs).1, .ok ())

theorem setItem_outcome (o : Orders) (w : World) (g : Graph) (r : Res) (key : Key) (value : SetVal) :
    SetOutcome o w g r key value (setItem o w g r key value) := by
  unfold setItem
  cases hk : interpretKey w r key with
  | error e => exact .key hk
  | ok sel =>
    dsimp only
    have hl : ∀ q, literalize o w g sel.lang sel.dt value = q → q = ((literalize o w g sel.lang sel.dt value).1, q.2) := by
      rintro q rfl; rfl
    cases hv : literalize o w g sel.lang sel.dt value with
    | mk w1 rv =>
      have e1 : w1 = (literalize o w g sel.lang sel.dt value).1 := by rw [hv]
      have e2 : rv = (literalize o w g sel.lang sel.dt value).2 := by rw [hv]
      cases rv with
      | error e => dsimp only; rw [e1]; exact .value hk e2.symm
      | ok v =>
        dsimp only
        have hr : (if key.isTuple = true then objectsForExplicitSet o w1 g r sel v else (w1, objectsForImplicitSet o w1 g r sel.pred v))
            = removalList o w1 g r key sel v := rfl
        rw [hr]
        cases ho : removalList o w1 g r key sel v with
        | mk w2 ro =>
          have f1 : w2 = (removalList o (literalize o w g sel.lang sel.dt value).1 g r key sel v).1 := by rw [← e1, ho]
          have f2 : ro = (removalList o (literalize o w g sel.lang sel.dt value).1 g r key sel v).2 := by rw [← e1, ho]
          cases ro with
          | error e => dsimp only; rw [f1]; exact .check hk e2.symm f2.symm
          | ok objs =>
            dsimp only
            cases hg : removeObjs r.s (predTerm sel.pred) g objs with
            | mk g1 rg =>
              have g1e : g1 = (removeObjs r.s (predTerm sel.pred) g objs).1 := by rw [hg]
              have g2e : rg = (removeObjs r.s (predTerm sel.pred) g objs).2 := by rw [hg]
              cases rg with
              | error e => dsimp only; rw [f1, g1e]; exact .remove hk e2.symm f2.symm g2e.symm
              | ok u =>
                dsimp only
                have := SetOutcome.ok hk e2.symm f2.symm g2e.symm
                rw [List.foldl_map] at this
                rw [f1, g1e]; exact this

/-- Everything an assignment can do to the graph: statements with another subject or predicate are untouched. -/
theorem setItem_frame {o : Orders} (ho : o.OK) {w : World} (wr : w.Reach) {g : Graph} (hg : g.Reach) {r : Res}
    (hc : r.c < w.classes.length) (key : Key) (value : SetVal) :
    (setItem o w g r key value).1.Reach ∧ w.Ext (setItem o w g r key value).1 ∧ (setItem o w g r key value).2.1.Reach ∧
    (∀ e, resolveKey w r.c key.text = .error e → setItem o w g r key value = (w, g, .error e)) ∧
    ∀ p, resolveKey w r.c key.text = .ok p → ∀ t : Stmt, (t.s ≠ r.s ∨ t.p ≠ predTerm p) →
      (t ∈ (setItem o w g r key value).2.1.triples ↔ t ∈ g.triples) := by
  have hs := setItem_outcome o w g r key value
  have herr : ∀ e, resolveKey w r.c key.text = .error e → setItem o w g r key value = (w, g, .error e) := by
    intro e he; unfold setItem; rw [interpretKey_error he]
  generalize setItem o w g r key value = q at hs herr ⊢
  cases hs with
  | key hk => exact ⟨wr, .refl w, hg, herr, fun _ _ _ _ => Iff.rfl⟩
  | @value sel e hk hv =>
    have hl := literalize_spec ho wr g sel.lang sel.dt value
    exact ⟨hl.1, hl.2.1, hg, herr, fun _ _ _ _ => Iff.rfl⟩
  | @check sel v e hk hv hr =>
    have hl := literalize_spec ho wr g sel.lang sel.dt value
    have hrl := removalList_spec (o := o) hl.1 g (Nat.lt_of_lt_of_le hc hl.2.1.length) key sel v
    exact ⟨hrl.1, hl.2.1.trans hrl.2.1, hg, herr, fun _ _ _ _ => Iff.rfl⟩
  | @remove sel v objs e hk hv hr hx =>
    have hl := literalize_spec ho wr g sel.lang sel.dt value
    have hrl := removalList_spec (o := o) hl.1 g (Nat.lt_of_lt_of_le hc hl.2.1.length) key sel v
    have hf := removeObjs_frame hg r.s (predTerm sel.pred) objs
    refine ⟨hrl.1, hl.2.1.trans hrl.2.1, hf.1, herr, fun p hp t ht => ⟨hf.2.1 t, fun h => hf.2.2 t h fun x _ => ?_⟩⟩
    rw [interpretKey_pred hk] at hp; cases hp
    rintro rfl
    rcases ht with ht | ht <;> exact ht rfl
  | @ok sel v objs hk hv hr hx =>
    have hl := literalize_spec ho wr g sel.lang sel.dt value
    have hrl := removalList_spec (o := o) hl.1 g (Nat.lt_of_lt_of_le hc hl.2.1.length) key sel v
    have hf := removeObjs_frame hg r.s (predTerm sel.pred) objs
    refine ⟨hrl.1, hl.2.1.trans hrl.2.1, hf.1.adds _ _ _, herr, fun p hp t ht => ?_⟩
    rw [interpretKey_pred hk] at hp; cases hp
    have hne : ∀ x, t ≠ mkTriple r.s (predTerm sel.pred) x := by
      rintro x rfl
      rcases ht with ht | ht <;> exact ht rfl
    dsimp only
    rw [mem_adds]
    constructor
    · rintro (⟨x, _, rfl⟩ | h)
      · exact absurd rfl (hne x)
      · exact hf.2.1 t h
    · intro h; exact Or.inr (hf.2.2 t h fun x _ => hne x)

/-- A successful assignment: the removal list is gone, the values are there, everything else of the predicate is kept. -/
theorem setItem_ok {o : Orders} (ho : o.OK) {w : World} (wr : w.Reach) {g : Graph} (hg : g.Reach) {r : Res}
    (hs : r.s.truthy = true) {key : Key} {value : SetVal} {sel : Sel} {v : LVal} {objs : List Term}
    (hk : interpretKey w r key = .ok sel) (hp : (predTerm sel.pred).truthy = true)
    (hv : (literalize o w g sel.lang sel.dt value).2 = .ok v)
    (hr : (removalList o (literalize o w g sel.lang sel.dt value).1 g r key sel v).2 = .ok objs)
    (nd : objs.Nodup) (hsub : ∀ x ∈ objs, x ∈ objectsOf o g r.s (predTerm sel.pred)) :
    (setItem o w g r key value).2.2 = .ok () ∧
    (setItem o w g r key value).1 = (removalList o (literalize o w g sel.lang sel.dt value).1 g r key sel v).1 ∧
    ∀ x, mkTriple r.s (predTerm sel.pred) x ∈ (setItem o w g r key value).2.1.triples ↔
      (∃ u ∈ values value, storedTerm sel.lang sel.dt u = some x) ∨
      (mkTriple r.s (predTerm sel.pred) x ∈ g.triples ∧ x ∉ objs) := by
  have hso := setItem_outcome o w g r key value
  have hrm := removeObjs_ok hg r.s (predTerm sel.pred) objs nd fun x hx => (mem_objectsOf ho hg hs hp x).1 (hsub x hx)
  have hl := literalize_spec ho wr g sel.lang sel.dt value
  generalize setItem o w g r key value = q at hso ⊢
  cases hso with
  | key h => rw [h] at hk; cases hk
  | value h h2 => rw [h] at hk; cases hk; rw [h2] at hv; cases hv
  | check h h2 h3 => rw [h] at hk; cases hk; rw [h2] at hv; cases hv; rw [h3] at hr; cases hr
  | remove h h2 h3 h4 =>
    rw [h] at hk; cases hk; rw [h2] at hv; cases hv; rw [h3] at hr; cases hr; rw [h4] at hrm; exact absurd hrm.1 (by simp)
  | ok h h2 h3 h4 =>
    rw [h] at hk; cases hk; rw [h2] at hv; cases hv; rw [h3] at hr; cases hr
    refine ⟨rfl, rfl, fun x => ?_⟩
    dsimp only
    rw [mem_adds, hrm.2]
    have hm := fun t => ((hl.2.2.1 _ h2).2.1 t)
    constructor
    · rintro (⟨t, ht, he⟩ | ⟨h5, h6⟩)
      · rw [mkTriple_inj] at he
        rw [he.2.2]; exact Or.inl ((hm t).1 ht)
      · exact Or.inr ⟨h5, fun hx => h6 x hx rfl⟩
    · rintro (h5 | ⟨h5, h6⟩)
      · exact Or.inl ⟨x, (hm x).2 h5, rfl⟩
      · refine Or.inr ⟨h5, fun y hy he => ?_⟩
        rw [mkTriple_inj] at he
        exact h6 (he.2.2 ▸ hy)

end Verif
