import Verif.Lemmas.Graph
/-
Lemmas on the suspended `match` generator.
-/
namespace Verif.Graph

/-- `Drains ord g it l`: calling `next` on `it` with the graph unchanged yields exactly `l` and then stops. -/
inductive Drains (ord : List Stmt → List Stmt) (g : Graph) : MIter → List Stmt → Prop
  | stop {it it'} : next ord g it = (it', .stop) → Drains ord g it []
  | item {it it' t l} : next ord g it = (it', .item t) → Drains ord g it' l → Drains ord g it (t :: l)

theorem Drains.unique {ord g it l l'} (h : Drains ord g it l) (h' : Drains ord g it l') : l = l' := by
  induction h generalizing l' with
  | stop e =>
    cases h' with
    | stop e' => rfl
    | item e' _ => rw [e] at e'; cases e'
  | item e _ ih =>
    cases h' with
    | stop e' => rw [e] at e'; cases e'
    | item e' h2 => rw [e] at e'; cases e'; rw [ih h2]

theorem drains_inner_none {ord g w k1 k2} (l : List Stmt) :
    Drains ord g (.inner w k1 k2 ((g.ix w).l2 k1 k2).length l none) l := by
  induction l with
  | nil => exact .stop (it' := .done) (by simp [next, resumeInner])
  | cons t l ih => exact .item (by simp [next, resumeInner]) ih

/-- The continuation of the outer loop, as a list. -/
def outerList (g : Graph) (w : Ix) (k1 : Term) (ks : List Term) : List Stmt :=
  ks.flatMap fun k => ((g.ix w).l2 k1 k).values

/-- Yield `l` then continue as `it`. -/
theorem drains_outer {ord g w k1} (ks : List Term) :
    ∀ (it : MIter), next ord g it = resumeOuter g w k1 ((g.ix w).l1 k1).length ks →
      Drains ord g it (outerList g w k1 ks) := by
  induction ks with
  | nil =>
    intro it h
    exact .stop (it' := .done) (h.trans (by simp [resumeOuter]))
  | cons k ks ih =>
    intro it h
    rw [resumeOuter] at h
    simp only [ne_eq, not_true_eq_false, if_false] at h
    unfold outerList
    rw [List.flatMap_cons]
    cases hv : ((g.ix w).l2 k1 k).values with
    | nil => rw [hv] at h; exact ih it h
    | cons t rest =>
      rw [hv] at h
      refine .item h ?_
      clear h hv
      induction rest with
      | nil =>
        refine ih _ ?_
        simp [next, resumeInner]
      | cons t' rest ih' =>
        exact .item (by simp [next, resumeInner]) ih'

theorem drains_set {ord g} (l : List Stmt) : Drains ord g (.setIter g.triples.length l) l := by
  induction l with
  | nil => exact .stop (it' := .done) (by simp [next, resumeSet])
  | cons t l ih => exact .item (by simp [next, resumeSet]) ih

theorem Drains.congr {ord g it it' l} (h : next ord g it = next ord g it') (d : Drains ord g it' l) :
    Drains ord g it l := by
  cases d with
  | stop e => exact .stop (h.trans e)
  | item e d => exact .item (h.trans e) d

theorem drains_stop {ord g it} (h : next ord g it = (.done, .stop)) : Drains ord g it [] := .stop h

/-- Consuming the generator without changing the graph lists the matches. -/
theorem drains_match (ord) (g : Graph) (s p o : Term) : Drains ord g (.start s p o) (g.match ord s p o) := by
  have inner : ∀ w k1 k2, next ord g (.start s p o) = startInner g w k1 k2 →
      Drains ord g (.start s p o) ((g.ix w).l2 k1 k2).values := by
    intro w k1 k2 h
    exact .congr (h.trans rfl) (drains_inner_none _)
  have outer : ∀ w k1, next ord g (.start s p o) = startOuter g w k1 →
      Drains ord g (.start s p o) (outerList g w k1 ((g.ix w).l1 k1).keys) := by
    intro w k1 h
    exact drains_outer _ _ h
  unfold Graph.match
  by_cases hs : s.truthy <;> by_cases hp : p.truthy <;> by_cases ho : o.truthy <;>
    simp only [hs, hp, ho, if_true, if_false, Bool.false_eq_true]
  · split
    · next h => exact .item (it' := .bound) (by simp [next, hs, hp, ho, h]) (.stop (it' := .done) rfl)
    · next h => exact .stop (it' := .done) (by simp [next, hs, hp, ho, h])
  · split
    · next h => exact inner .spo s p (by simp only [next, hs, hp, ho, h]; rfl)
    · next h => exact .stop (it' := .done) (by simp only [next, hs, hp, ho, h]; rfl)
  · split
    · next h => exact inner .osp o s (by simp only [next, hs, hp, ho, h]; rfl)
    · next h => exact .stop (it' := .done) (by simp only [next, hs, hp, ho, h]; rfl)
  · split
    · next h => exact outer .spo s (by simp only [next, hs, hp, ho, h]; rfl)
    · next h => exact .stop (it' := .done) (by simp only [next, hs, hp, ho, h]; rfl)
  · split
    · next h => exact inner .pos p o (by simp only [next, hs, hp, ho, h]; rfl)
    · next h => exact .stop (it' := .done) (by simp only [next, hs, hp, ho, h]; rfl)
  · split
    · next h => exact outer .pos p (by simp only [next, hs, hp, ho, h]; rfl)
    · next h => exact .stop (it' := .done) (by simp only [next, hs, hp, ho, h]; rfl)
  · split
    · next h => exact outer .osp o (by simp only [next, hs, hp, ho, h]; rfl)
    · next h => exact .stop (it' := .done) (by simp only [next, hs, hp, ho, h]; rfl)
  · exact .congr (by simp [next, hs, hp, ho]) (drains_set (ord g.triples))

/-- What a generator that has just yielded `t` is suspended on. -/
inductive At (g : Graph) (t : Stmt) : MIter → Prop
  | inner {w k1 k2 rest outer} : t ∈ ((g.ix w).l2 k1 k2).values →
      At g t (.inner w k1 k2 ((g.ix w).l2 k1 k2).length rest outer)
  | setIter {rest} : t ∈ g.triples → At g t (.setIter g.triples.length rest)

theorem resumeOuter_at {g : Graph} {w k1 n} (ks : List Term) {it t}
    (h : resumeOuter g w k1 n ks = (it, .item t)) : At g t it := by
  induction ks with
  | nil => rw [resumeOuter] at h; split at h <;> cases h
  | cons k ks ih =>
    rw [resumeOuter] at h
    split at h
    · cases h
    · cases hv : ((g.ix w).l2 k1 k).values with
      | nil => rw [hv] at h; exact ih h
      | cons x rest =>
        rw [hv] at h
        cases h
        exact .inner (by rw [hv]; simp)

/-- Unless the pattern is fully bound, the first `next` suspends in a loop over a dict or set that contains the yielded triple. -/
theorem next_start_at {ord} (hord : Spec.IsOrder ord) {g : Graph} {s p o : Term}
    (hb : ¬ (s.truthy = true ∧ p.truthy = true ∧ o.truthy = true)) {it t}
    (h : next ord g (.start s p o) = (it, .item t)) : At g t it := by
  have inner : ∀ w k1 k2, startInner g w k1 k2 = (it, .item t) → At g t it := by
    intro w k1 k2 h
    unfold startInner resumeInner at h
    simp only [ne_eq, not_true_eq_false, if_false] at h
    cases hv : ((g.ix w).l2 k1 k2).values with
    | nil => rw [hv] at h; cases h
    | cons x rest => rw [hv] at h; cases h; exact .inner (by rw [hv]; simp)
  have outer : ∀ w k1, startOuter g w k1 = (it, .item t) → At g t it :=
    fun w k1 h => resumeOuter_at _ h
  simp only [next] at h
  split at h
  · split at h
    · split at h
      · next hs hp ho => exact absurd ⟨hs, hp, ho⟩ hb
      · split at h
        · exact inner _ _ _ h
        · cases h
    · split at h
      · split at h
        · exact inner _ _ _ h
        · cases h
      · split at h
        · exact outer _ _ h
        · cases h
  · split at h
    · split at h
      · split at h
        · exact inner _ _ _ h
        · cases h
      · split at h
        · exact outer _ _ h
        · cases h
    · split at h
      · split at h
        · exact outer _ _ h
        · cases h
      · unfold resumeSet at h
        simp only [ne_eq, not_true_eq_false, if_false] at h
        cases hv : ord g.triples with
        | nil => rw [hv] at h; cases h
        | cons x rest =>
          rw [hv] at h; cases h
          exact .setIter ((hord _).mem_iff.1 (by rw [hv]; simp))

/-- The innermost key of a statement in an index. -/
def lastKey : Ix → Stmt → Term
  | .spo, t => t.o
  | .pos, t => t.s
  | .osp, t => t.p

theorem find_ix {g : Graph} (inv : IxInv g) {w k1 k2 t} (h : t ∈ ((g.ix w).l2 k1 k2).values) :
    t ∈ g.triples ∧ ((g.removed t).ix w).l2 k1 k2 = ((g.ix w).l2 k1 k2).del (lastKey w t)
    ∧ ∃ x, ((g.ix w).l2 k1 k2).get? (lastKey w t) = some x := by
  cases w with
  | spo =>
    obtain ⟨c, hc⟩ := (Idx.mem_l2_values inv.wspo k1 k2 t).1 h
    have hc' := hc
    rw [inv.spo] at hc
    obtain ⟨hm, rfl, rfl, rfl⟩ := hc
    refine ⟨hm, ?_, _, hc'⟩
    show Idx.l2 (Idx.del3 _ _ _ _) _ _ = _
    rw [Idx.l2_del3]; simp; rfl
  | pos =>
    obtain ⟨c, hc⟩ := (Idx.mem_l2_values inv.wpos k1 k2 t).1 h
    have hc' := hc
    rw [inv.pos] at hc
    obtain ⟨hm, rfl, rfl, rfl⟩ := hc
    refine ⟨hm, ?_, _, hc'⟩
    show Idx.l2 (Idx.del3 _ _ _ _) _ _ = _
    rw [Idx.l2_del3]; simp; rfl
  | osp =>
    obtain ⟨c, hc⟩ := (Idx.mem_l2_values inv.wosp k1 k2 t).1 h
    have hc' := hc
    rw [inv.osp] at hc
    obtain ⟨hm, rfl, rfl, rfl⟩ := hc
    refine ⟨hm, ?_, _, hc'⟩
    show Idx.l2 (Idx.del3 _ _ _ _) _ _ = _
    rw [Idx.l2_del3]; simp; rfl

/-- Removing the triple just yielded makes the next `next` raise. -/
theorem next_removed {ord} {g : Graph} (inv : IxInv g) {t it} (h : At g t it) :
    next ord (g.removed t) it = (.done, .raise .runtimeError) := by
  cases h with
  | @inner w k1 k2 rest outer hv =>
    obtain ⟨_, e, x, hx⟩ := find_ix inv hv
    simp only [next, resumeInner]
    have hk := Dict.length_del ((Dict.mem_keys_iff ((g.ix w).l2 k1 k2) _).2 (by rw [hx]; rfl))
    rw [e, if_pos]
    omega
  | setIter hm =>
    simp only [next, resumeSet]
    have h1 : (g.removed t).triples.length = g.triples.length - 1 := List.length_erase_of_mem hm
    have h2 := List.length_pos_of_mem hm
    rw [if_pos]
    omega

end Verif.Graph
