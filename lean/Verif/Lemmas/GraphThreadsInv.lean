import Verif.Lemmas.GraphThreads
/-
Threads on one Graph: what holds as long as no two of them are about to make the same dict.
-/
namespace Verif

theorem Idx.find_touch1 {ix : Idx} {x : Term} (h : Dict.get? ix x = none) (a b c : Term) : Idx.find (Dict.set ix x []) a b c = ix.find a b c := by
  unfold Idx.find Idx.l2
  rw [Idx.l1_set]
  split
  · next e =>
    subst e
    have : ix.l1 x = [] := by unfold Idx.l1; rw [h]; rfl
    rw [this]
  · rfl

theorem Idx.find_touch2 {ix : Idx} {x y : Term} (h : (ix.l1 x).get? y = none) (a b c : Term) :
    Idx.find (Dict.set ix x ((ix.l1 x).set y [])) a b c = ix.find a b c := by
  unfold Idx.find Idx.l2
  rw [Idx.l1_set]
  split
  · next e =>
    subst e
    rw [Dict.get?_set]
    split
    · next e => subst e; rw [h]; rfl
    · rfl
  · rfl

/-- The thread holds dicts that are in the index, and is about to store one only under a missing key. -/
def Linked (sh : SharedGraph) : Pc → Prop
  | .idle => True
  | .look1 _ _ => True
  | .store1 op w r => (sh.heap (.root w)).get? (w.keys op.stmt).1 = none ∧ sh.heap r = []
  | .look2 op w cur => (sh.heap (.root w)).get? (w.keys op.stmt).1 = some (.dict cur)
  | .store2 op w cur r => (sh.heap (.root w)).get? (w.keys op.stmt).1 = some (.dict cur) ∧ (sh.heap cur).get? (w.keys op.stmt).2.1 = none ∧ sh.heap r = []
  | .last op w cur => ∃ p, (sh.heap (.root w)).get? (w.keys op.stmt).1 = some (.dict p) ∧ (sh.heap p).get? (w.keys op.stmt).2.1 = some (.dict cur)

/-- The call a thread is in, and the line. -/
def Pc.at : Pc → Option (ThOp × Graph.Ix)
  | .idle => none
  | .look1 op w => some (op, w)
  | .store1 op w _ => some (op, w)
  | .look2 op w _ => some (op, w)
  | .store2 op w _ _ => some (op, w)
  | .last op w _ => some (op, w)

/-- The number of a line. -/
def Graph.Ix.num : Graph.Ix → Nat
  | .spo => 0
  | .pos => 1
  | .osp => 2

theorem Graph.Ix.num_inj {w w' : Graph.Ix} : w.num = w'.num ↔ w = w' := by
  cases w <;> cases w' <;> simp [Graph.Ix.num]

/-- The thread is in the call `op` and has not done the line for `w`. -/
def Pc.Pending (pc : Pc) (op : ThOp) (w : Graph.Ix) : Prop := ∃ w', pc.at = some (op, w') ∧ w'.num ≤ w.num

/-- The calls do not make the same dict, and neither removes what the other is about. -/
structure Compat (sh : SharedGraph) (op op' : ThOp) : Prop where
  one : ∀ w : Graph.Ix, (w.keys op.stmt).1 = (w.keys op'.stmt).1 → (sh.heap (.root w)).get? (w.keys op.stmt).1 ≠ none
  two : ∀ w : Graph.Ix, (w.keys op.stmt).1 = (w.keys op'.stmt).1 → (w.keys op.stmt).2.1 = (w.keys op'.stmt).2.1 →
    ∀ r, (sh.heap (.root w)).get? (w.keys op.stmt).1 = some (.dict r) → (sh.heap r).get? (w.keys op.stmt).2.1 ≠ none
  same : op.stmt = op'.stmt → op = .add op.stmt ∧ op' = .add op.stmt

namespace SharedGraph

variable {sh : SharedGraph}

/-- Steps before the last of a line do not change what the index finds. -/
theorem find_step (h : Shape sh) {th : GThread} (hp : PcShape sh.next th.pc) (hl : Linked sh th.pc) (hn : ∀ op w cur, th.pc ≠ .last op w cur)
    (w' : Graph.Ix) (a b c : Term) : ((sh.step th).1.top w').find a b c = (sh.top w').find a b c := by
  obtain ⟨pc, todo, outs⟩ := th
  cases pc with
  | idle =>
    cases todo with
    | nil => rfl
    | cons op todo =>
      cases op with
      | add t => rfl
      | remove t => simp only [step]; split <;> rfl
  | look1 op w =>
    simp only [step]
    split
    · rfl
    · rfl
    · rw [top_newDict h]
  | store1 op w r =>
    obtain ⟨m, hm, rfl⟩ := hp
    simp only [step]
    by_cases e : w' = w
    · subst e
      rw [top_store1 h hl.2, Idx.find_touch1 (top_get_none h hl.1)]
    · rw [top_put_other h e (Or.inl rfl)]
  | look2 op w cur =>
    simp only [step]
    split
    · rfl
    · rfl
    · rw [top_newDict h]
  | store2 op w cur r =>
    obtain ⟨⟨m, hm, rfl⟩, m', hm', rfl⟩ := hp
    obtain ⟨l1, l2, l3⟩ := hl
    simp only [step]
    by_cases e : w' = w
    · subst e
      rw [top_store2 h l1 l3, Idx.find_touch2]
      unfold Idx.l1
      rw [top_get h l1]
      exact mid_get_none h l2
    · rw [top_put_other h e (Or.inr (Or.inl ⟨_, _, rfl⟩))]
  | last op w cur => exact absurd rfl (hn op w cur)

/-- `cur[k3] = triple` -/
theorem top_last_add (h : Shape sh) {th : GThread} {t : Stmt} {w : Graph.Ix} {cur : DRef} (hpc : th.pc = .last (.add t) w cur) (hp : PcShape sh.next th.pc)
    (hl : Linked sh th.pc) : (sh.step th).1.top w = (sh.top w).put (w.keys t).1 (w.keys t).2.1 (w.keys t).2.2 t ∧ ∀ w', w' ≠ w → (sh.step th).1.top w' = sh.top w' := by
  obtain ⟨pc, todo, outs⟩ := th
  subst hpc
  obtain ⟨m, hm, m', hm', rfl⟩ := hp
  obtain ⟨p, l1, l2⟩ := hl
  have hpp : p = .made (.root w) (w.keys t).1 m := by
    obtain ⟨m1, -, e1⟩ := h.placed _ _ _ l1
    subst e1
    obtain ⟨m2, -, e2⟩ := h.placed _ _ _ l2
    cases e2; rfl
  subst hpp
  simp only [step]
  refine ⟨?_, fun w' e => top_put_other h e (Or.inr (Or.inr ⟨_, _, _, _, rfl⟩)) _⟩
  have l1' : (sh.heap (.root w)).get? (w.keys t).1 = some (.dict (.made (.root w) (w.keys t).1 m)) := l1
  have l2' : (sh.heap (.made (.root w) (w.keys t).1 m)).get? (w.keys t).2.1 = some (.dict (.made (.made (.root w) (w.keys t).1 m) (w.keys t).2.1 m')) := l2
  show (sh.put (.made (.made (.root w) (w.keys t).1 m) (w.keys t).2.1 m') _).top w = _
  rw [top_put_leaf h l1' l2', Dict.collect_set (acc_leaf h w _ _ _ _) rfl]
  unfold Idx.put Idx.l2
  rw [show (sh.top w).l1 (w.keys t).1 = sh.mid (.made (.root w) (w.keys t).1 m) by unfold Idx.l1; rw [top_get h l1']; rfl, mid_get h l2']
  rfl

/-- `del cur[k3]` -/
theorem top_last_remove (h : Shape sh) {th : GThread} {t : Stmt} {w : Graph.Ix} {cur : DRef} (hpc : th.pc = .last (.remove t) w cur) (hp : PcShape sh.next th.pc)
    (hl : Linked sh th.pc) (hf : (sh.top w).find (w.keys t).1 (w.keys t).2.1 (w.keys t).2.2 ≠ none) :
    (sh.step th).2 = th.advance (.remove t) w ∧ (sh.step th).1.top w = (sh.top w).del3 (w.keys t).1 (w.keys t).2.1 (w.keys t).2.2 ∧
      ∀ w', w' ≠ w → (sh.step th).1.top w' = sh.top w' := by
  obtain ⟨pc, todo, outs⟩ := th
  subst hpc
  obtain ⟨m, hm, m', hm', rfl⟩ := hp
  obtain ⟨p, l1, l2⟩ := hl
  have hpp : p = .made (.root w) (w.keys t).1 m := by
    obtain ⟨m1, -, e1⟩ := h.placed _ _ _ l1
    subst e1
    obtain ⟨m2, -, e2⟩ := h.placed _ _ _ l2
    cases e2; rfl
  subst hpp
  have l1' : (sh.heap (.root w)).get? (w.keys t).1 = some (.dict (.made (.root w) (w.keys t).1 m)) := l1
  have l2' : (sh.heap (.made (.root w) (w.keys t).1 m)).get? (w.keys t).2.1 = some (.dict (.made (.made (.root w) (w.keys t).1 m) (w.keys t).2.1 m')) := l2
  have e2 : (sh.top w).l2 (w.keys t).1 (w.keys t).2.1 = sh.leaf (.made (.made (.root w) (w.keys t).1 m) (w.keys t).2.1 m') := by
    unfold Idx.l2
    rw [show (sh.top w).l1 (w.keys t).1 = sh.mid (.made (.root w) (w.keys t).1 m) by unfold Idx.l1; rw [top_get h l1']; rfl, mid_get h l2']
    rfl
  have has : (sh.heap (.made (.made (.root w) (w.keys t).1 m) (w.keys t).2.1 m')).has (w.keys t).2.2 = true := by
    unfold Idx.find at hf
    rw [e2] at hf
    unfold leaf at hf
    rw [Dict.get?_collect (h.wf _)] at hf
    unfold Dict.has
    revert hf
    cases (sh.heap (.made (.made (.root w) (w.keys t).1 m) (w.keys t).2.1 m')).get? (w.keys t).2.2 with
    | none => intro hf; exact absurd rfl hf
    | some v => intro _; rfl
  have e : sh.step ⟨.last (.remove t) w (.made (.made (.root w) (w.keys t).1 m) (w.keys t).2.1 m'), todo, outs⟩ =
      (sh.put (.made (.made (.root w) (w.keys t).1 m) (w.keys t).2.1 m') ((sh.heap (.made (.made (.root w) (w.keys t).1 m) (w.keys t).2.1 m')).del (w.keys t).2.2),
        GThread.advance ⟨.last (.remove t) w (.made (.made (.root w) (w.keys t).1 m) (w.keys t).2.1 m'), todo, outs⟩ (.remove t) w) := by
    simp only [step]; rw [if_pos has]
  show (sh.step ⟨.last (.remove t) w (.made (.made (.root w) (w.keys t).1 m) (w.keys t).2.1 m'), todo, outs⟩).2 = _ ∧
    (sh.step ⟨.last (.remove t) w (.made (.made (.root w) (w.keys t).1 m) (w.keys t).2.1 m'), todo, outs⟩).1.top w = _ ∧ _
  rw [e]
  refine ⟨rfl, ?_, fun w' hw => ?_⟩
  · rw [top_put_leaf h l1' l2', Dict.collect_del (acc_leaf h w _ _ _ _)]
    unfold Idx.del3
    rw [e2]; rfl
  · exact e ▸ top_put_other h hw (Or.inr (Or.inr ⟨_, _, _, _, rfl⟩)) _

end SharedGraph

/-! ### Links are kept -/

theorem SharedGraph.heap_newDict (sh : SharedGraph) (p : DRef) (k : Term) (x : DRef) :
    (sh.newDict p k).1.heap x = if x = .made p k sh.next then [] else sh.heap x := rfl

/-- The thread that makes the step. -/
theorem Linked.own {sh : SharedGraph} {th : GThread} (hp : PcShape sh.next th.pc) (hl : Linked sh th.pc) : Linked (sh.step th).1 (sh.step th).2.pc := by
  obtain ⟨pc, todo, outs⟩ := th
  cases pc with
  | idle =>
    cases todo with
    | nil => trivial
    | cons op todo =>
      cases op with
      | add t => trivial
      | remove t => simp only [SharedGraph.step]; split <;> trivial
  | look1 op w =>
    simp only [SharedGraph.step]
    split
    · next r hr => exact hr
    · trivial
    · next hr =>
      refine ⟨?_, ?_⟩
      · rw [SharedGraph.heap_newDict, if_neg (by simp)]; exact hr
      · rw [SharedGraph.heap_newDict]; exact if_pos rfl
  | store1 op w r =>
    show ((sh.put (.root w) _).heap (.root w)).get? _ = _
    rw [SharedGraph.heap_put, if_pos rfl, Dict.get?_set, if_pos rfl]
  | look2 op w cur =>
    obtain ⟨m, hm, rfl⟩ := hp
    simp only [SharedGraph.step]
    split
    · next r hr => exact ⟨_, hl, hr⟩
    · trivial
    · next hr =>
      refine ⟨?_, ?_, ?_⟩
      · rw [SharedGraph.heap_newDict, if_neg (by simp)]; exact hl
      · rw [SharedGraph.heap_newDict, if_neg (by simp)]; exact hr
      · rw [SharedGraph.heap_newDict]; exact if_pos rfl
  | store2 op w cur r =>
    obtain ⟨⟨m, hm, rfl⟩, m', hm', rfl⟩ := hp
    refine ⟨.made (.root w) (w.keys op.stmt).1 m, ?_, ?_⟩
    · show ((sh.put (.made (.root w) (w.keys op.stmt).1 m) _).heap (.root w)).get? _ = some (.dict (.made (.root w) (w.keys op.stmt).1 m))
      rw [SharedGraph.heap_put, if_neg (by simp)]; exact hl.1
    · show ((sh.put (.made (.root w) (w.keys op.stmt).1 m) _).heap (.made (.root w) (w.keys op.stmt).1 m)).get? _ = _
      rw [SharedGraph.heap_put, if_pos rfl, Dict.get?_set, if_pos rfl]
  | last op w cur =>
    cases op with
    | add t => simp only [SharedGraph.step]; cases w <;> trivial
    | remove t =>
      simp only [SharedGraph.step]
      split
      · cases w <;> trivial
      · trivial

/-- A new dict disturbs nobody. -/
theorem Linked.newDict {sh : SharedGraph} (h : Shape sh) {pc : Pc} (hp : PcShape sh.next pc) (hl : Linked sh pc) (p : DRef) (k : Term) :
    Linked (sh.newDict p k).1 pc := by
  have keep : ∀ q k' m, m < sh.next → (sh.newDict p k).1.heap (.made q k' m) = sh.heap (.made q k' m) := by
    intro q k' m hm
    rw [SharedGraph.heap_newDict, if_neg]
    intro e; cases e; omega
  have root : ∀ w, (sh.newDict p k).1.heap (.root w) = sh.heap (.root w) := by
    intro w; rw [SharedGraph.heap_newDict, if_neg (by simp)]
  cases pc with
  | idle => trivial
  | look1 op w => trivial
  | store1 op w r =>
    obtain ⟨m, hm, rfl⟩ := hp
    exact ⟨by rw [root]; exact hl.1, by rw [keep _ _ _ hm]; exact hl.2⟩
  | look2 op w cur => show ((sh.newDict p k).1.heap (.root w)).get? _ = _; rw [root]; exact hl
  | store2 op w cur r =>
    obtain ⟨⟨m, hm, rfl⟩, m', hm', rfl⟩ := hp
    exact ⟨by rw [root]; exact hl.1, by rw [keep _ _ _ hm]; exact hl.2.1, by rw [keep _ _ _ hm']; exact hl.2.2⟩
  | last op w cur =>
    obtain ⟨q, l1, l2⟩ := hl
    obtain ⟨m, hm, e⟩ := h.placed _ _ _ l1
    exact ⟨q, by rw [root]; exact l1, by rw [e, keep _ _ _ hm, ← e]; exact l2⟩

/-- The other threads. -/
theorem Linked.other {sh : SharedGraph} (h : Shape sh) {th : GThread} (hp : PcShape sh.next th.pc) (hl : Linked sh th.pc)
    {pc : Pc} (hp' : PcShape sh.next pc) (hl' : Linked sh pc)
    (hc : ∀ op w op' w', th.pc.at = some (op, w) → pc.at = some (op', w') → (∀ cur, pc ≠ .last op' w' cur) → Compat sh op op') :
    Linked (sh.step th).1 pc := by
  obtain ⟨tpc, todo, outs⟩ := th
  cases tpc with
  | idle =>
    have : (sh.step ⟨.idle, todo, outs⟩).1.heap = sh.heap := by
      cases todo with
      | nil => rfl
      | cons op todo =>
        cases op with
        | add t => rfl
        | remove t => simp only [SharedGraph.step]; split <;> rfl
    cases pc <;> simp only [Linked, this] <;> exact hl'
  | look1 op w =>
    simp only [SharedGraph.step]
    split
    · exact hl'
    · exact hl'
    · exact hl'.newDict h hp' _ _
  | look2 op w cur =>
    simp only [SharedGraph.step]
    split
    · exact hl'
    · exact hl'
    · exact hl'.newDict h hp' _ _
  | store1 op w r =>
    simp only [SharedGraph.step]
    have ne : ∀ q k m, (sh.put (.root w) ((sh.heap (.root w)).set (w.keys op.stmt).1 (.dict r))).heap (.made q k m) = sh.heap (.made q k m) := by
      intro q k m; rw [SharedGraph.heap_put, if_neg (by simp)]
    have pos : ∀ w' k v, (sh.heap (.root w')).get? k = some v →
        ((sh.put (.root w) ((sh.heap (.root w)).set (w.keys op.stmt).1 (.dict r))).heap (.root w')).get? k = some v := by
      intro w' k v hk
      rw [SharedGraph.heap_put]
      split
      · next e =>
        cases e
        rw [Dict.get?_set, if_neg]
        · exact hk
        · rintro rfl; rw [hl.1] at hk; cases hk
      · exact hk
    cases pc with
    | idle => trivial
    | look1 op' w' => trivial
    | store1 op' w' r' =>
      obtain ⟨m, hm, rfl⟩ := hp'
      refine ⟨?_, by rw [ne]; exact hl'.2⟩
      rw [SharedGraph.heap_put]
      split
      · next e =>
        cases e
        rw [Dict.get?_set, if_neg]
        · exact hl'.1
        · intro e
          exact (hc op w op' w rfl rfl (by simp)).one w e hl.1
      · exact hl'.1
    | look2 op' w' cur => exact pos _ _ _ hl'
    | store2 op' w' cur r' =>
      obtain ⟨⟨m, hm, rfl⟩, m', hm', rfl⟩ := hp'
      exact ⟨pos _ _ _ hl'.1, by rw [ne]; exact hl'.2.1, by rw [ne]; exact hl'.2.2⟩
    | last op' w' cur =>
      obtain ⟨q, l1, l2⟩ := hl'
      obtain ⟨m, hm, rfl⟩ := h.placed _ _ _ l1
      exact ⟨_, pos _ _ _ l1, by rw [ne]; exact l2⟩
  | store2 op w cur r =>
    obtain ⟨⟨m, hm, rfl⟩, m', hm', rfl⟩ := hp
    obtain ⟨l1, l2, l3⟩ := hl
    simp only [SharedGraph.step]
    generalize hd : (sh.heap (.made (.root w) (w.keys op.stmt).1 m)).set (w.keys op.stmt).2.1 (.dict (.made (.made (.root w) (w.keys op.stmt).1 m) (w.keys op.stmt).2.1 m')) = d
    have root : ∀ w', (sh.put (.made (.root w) (w.keys op.stmt).1 m) d).heap (.root w') = sh.heap (.root w') := by
      intro w'; rw [SharedGraph.heap_put, if_neg (by simp)]
    have two : ∀ q k1 n1 k n, (sh.put (.made (.root w) (w.keys op.stmt).1 m) d).heap (.made (.made q k1 n1) k n) = sh.heap (.made (.made q k1 n1) k n) := by
      intro q k1 n1 k n; rw [SharedGraph.heap_put, if_neg (by simp)]
    cases pc with
    | idle => trivial
    | look1 op' w' => trivial
    | store1 op' w' r' =>
      obtain ⟨n, hn, rfl⟩ := hp'
      refine ⟨by rw [root]; exact hl'.1, ?_⟩
      rw [SharedGraph.heap_put, if_neg]
      · exact hl'.2
      · intro e
        simp only [DRef.made.injEq, DRef.root.injEq] at e
        obtain ⟨rfl, e, -⟩ := e
        have := hl'.1
        rw [e, l1] at this; cases this
    | look2 op' w' cur => show ((sh.put _ d).heap (.root w')).get? _ = _; rw [root]; exact hl'
    | store2 op' w' cur r' =>
      obtain ⟨⟨n, hn, rfl⟩, n', hn', rfl⟩ := hp'
      obtain ⟨k1, k2, k3⟩ := hl'
      refine ⟨by rw [root]; exact k1, ?_, by rw [two]; exact k3⟩
      rw [SharedGraph.heap_put]
      split
      · next e =>
        rw [e] at k2
        simp only [DRef.made.injEq, DRef.root.injEq] at e
        obtain ⟨rfl, e, -⟩ := e
        rw [← hd, Dict.get?_set, if_neg]
        · exact k2
        · intro e2
          exact (hc op w' op' w' rfl rfl (by simp)).two w' e.symm e2 _ l1 l2
      · exact k2
    | last op' w' cur =>
      obtain ⟨q, k1, k2⟩ := hl'
      refine ⟨q, by rw [root]; exact k1, ?_⟩
      rw [SharedGraph.heap_put]
      split
      · next e =>
        subst e
        rw [← hd, Dict.get?_set, if_neg]
        · exact k2
        · rintro e2; rw [← e2, l2] at k2; cases k2
      · exact k2
  | last op w cur =>
    have gen : ∀ d, Linked (sh.put cur d) pc := by
      intro d
      obtain ⟨m, hm, m', hm', rfl⟩ := hp
      obtain ⟨q0, l1, l2⟩ := hl
      have hq : q0 = .made (.root w) (w.keys op.stmt).1 m := by
        obtain ⟨m1, -, rfl⟩ := h.placed _ _ _ l1
        obtain ⟨m2, -, e2⟩ := h.placed _ _ _ l2
        cases e2; rfl
      subst hq
      have root : ∀ w', (sh.put (.made (.made (.root w) (w.keys op.stmt).1 m) (w.keys op.stmt).2.1 m') d).heap (.root w') = sh.heap (.root w') := by
        intro w'; rw [SharedGraph.heap_put, if_neg (by simp)]
      have one : ∀ w' k n, (sh.put (.made (.made (.root w) (w.keys op.stmt).1 m) (w.keys op.stmt).2.1 m') d).heap (.made (.root w') k n) = sh.heap (.made (.root w') k n) := by
        intro w' k n; rw [SharedGraph.heap_put, if_neg (by simp)]
      cases pc with
      | idle => trivial
      | look1 op' w' => trivial
      | store1 op' w' r' =>
        obtain ⟨n, hn, rfl⟩ := hp'
        exact ⟨by rw [root]; exact hl'.1, by rw [one]; exact hl'.2⟩
      | look2 op' w' cur => show ((sh.put _ d).heap (.root w')).get? _ = _; rw [root]; exact hl'
      | store2 op' w' cur r' =>
        obtain ⟨⟨n, hn, rfl⟩, n', hn', rfl⟩ := hp'
        obtain ⟨k1, k2, k3⟩ := hl'
        refine ⟨by rw [root]; exact k1, by rw [one]; exact k2, ?_⟩
        rw [SharedGraph.heap_put, if_neg]
        · exact k3
        · intro e
          simp only [DRef.made.injEq, DRef.root.injEq] at e
          obtain ⟨⟨rfl, e1, rfl⟩, e2, -⟩ := e
          rw [e1, e2, l2] at k2; cases k2
      | last op' w' cur =>
        obtain ⟨q, k1, k2⟩ := hl'
        obtain ⟨n, hn, rfl⟩ := h.placed _ _ _ k1
        exact ⟨_, by rw [root]; exact k1, by rw [one]; exact k2⟩
    cases op with
    | add t => exact gen _
    | remove t =>
      simp only [SharedGraph.step]
      split
      · exact gen _
      · exact hl'

/-! ### What the indexes find -/

/-- The index finds the statement. -/
def SharedGraph.Found (sh : SharedGraph) (w : Graph.Ix) (t : Stmt) : Prop := (sh.top w).find (w.keys t).1 (w.keys t).2.1 (w.keys t).2.2 = some t

/-- The call a thread is in or about to begin. -/
def GThread.now (th : GThread) : Option ThOp :=
  match th.pc.at with
  | some (op, _) => some op
  | none => th.todo.head?

structure GSys.Good (s : GSys) : Prop where
  shaped : s.Shaped
  links : ∀ i, Linked s.sh (s.threads i).pc
  nodup : s.sh.triples.Nodup
  tri : ∀ t ∈ s.sh.triples, t.g = none
  ops : ∀ i, ∀ op ∈ (s.threads i).todo, op.stmt.g = none
  cur : ∀ i op w, (s.threads i).pc.at = some (op, w) → op.stmt.g = none
  c1 : ∀ w t, s.sh.Found w t → t ∈ s.sh.triples ∨ ∃ i, (s.threads i).pc.Pending (.remove t) w
  c2 : ∀ t ∈ s.sh.triples, ∀ w, s.sh.Found w t ∨ ∃ i, (s.threads i).pc.Pending (.add t) w
  c3 : ∀ i w t, (s.threads i).pc.Pending (.remove t) w → s.sh.Found w t ∧ t ∉ s.sh.triples
  c4 : ∀ i w t, (s.threads i).pc.at = some (.add t, w) → t ∈ s.sh.triples

theorem GSys.step_self (s : GSys) (i : Nat) : (s.step i).threads i = (s.sh.step (s.threads i)).2 := by simp [GSys.step]

theorem GSys.step_other (s : GSys) {i j : Nat} (h : j ≠ i) : (s.step i).threads j = s.threads j := by simp [GSys.step, h]

theorem keys_inj {w : Graph.Ix} {t t' : Stmt} (ht : t.g = none) (ht' : t'.g = none) (h : w.keys t = w.keys t') : t = t' := by
  obtain ⟨a, b, c, g⟩ := t
  obtain ⟨a', b', c', g'⟩ := t'
  cases ht; cases ht'
  cases w <;> simp [Graph.Ix.keys] at h ⊢ <;> simp [h]

/-- Steps that only go on within a line. -/
theorem GSys.Good.same {s : GSys} (h : s.Good) {i : Nat} (hl : ∀ j, Linked (s.step i).sh ((s.step i).threads j).pc)
    (ht : (s.step i).sh.triples = s.sh.triples) (hf : ∀ w t, (s.step i).sh.Found w t ↔ s.sh.Found w t)
    (ha : ((s.step i).threads i).pc.at = (s.threads i).pc.at) (hd : ((s.step i).threads i).todo = (s.threads i).todo) : (s.step i).Good := by
  have ha' : ∀ j, ((s.step i).threads j).pc.at = (s.threads j).pc.at := by
    intro j
    by_cases e : j = i
    · subst e; exact ha
    · rw [GSys.step_other s e]
  have hp : ∀ j op w, ((s.step i).threads j).pc.Pending op w ↔ (s.threads j).pc.Pending op w := by
    intro j op w; unfold Pc.Pending; rw [ha']
  refine ⟨h.shaped.step i, hl, ht ▸ h.nodup, ht ▸ h.tri, fun j op hj => ?_, fun j op w hj => h.cur j op w (ha' j ▸ hj), fun w t hw => ?_, fun t h1 w => ?_,
    fun j w t hj => ?_, fun j w t hj => ht ▸ h.c4 j w t (ha' j ▸ hj)⟩
  · by_cases e : j = i
    · subst e; exact h.ops j op (hd ▸ hj)
    · exact h.ops j op (GSys.step_other s e ▸ hj)
  · rw [ht]
    rcases h.c1 w t ((hf w t).1 hw) with h1 | ⟨j, hj⟩
    · exact Or.inl h1
    · exact Or.inr ⟨j, (hp _ _ _).2 hj⟩
  · rw [ht] at h1
    rcases h.c2 t h1 w with h2 | ⟨j, hj⟩
    · exact Or.inl ((hf w t).2 h2)
    · exact Or.inr ⟨j, (hp _ _ _).2 hj⟩
  · obtain ⟨h1, h2⟩ := h.c3 j w t ((hp _ _ _).1 hj)
    exact ⟨(hf w t).2 h1, ht ▸ h2⟩

theorem Pc.pending_look1 {op op' : ThOp} {w w' : Graph.Ix} : (Pc.look1 op w).Pending op' w' ↔ op = op' ∧ w.num ≤ w'.num := by
  unfold Pc.Pending Pc.at
  constructor
  · rintro ⟨v, e, hv⟩; cases e; exact ⟨rfl, hv⟩
  · rintro ⟨rfl, hv⟩; exact ⟨w, rfl, hv⟩

theorem Pc.pending_idle {op : ThOp} {w : Graph.Ix} : ¬ Pc.idle.Pending op w := by
  rintro ⟨v, e, -⟩; cases e

/-- After the line for `w`. -/
theorem GThread.pending_advance (th : GThread) {op op' : ThOp} {w w' : Graph.Ix} : (th.advance op w).pc.Pending op' w' ↔ op = op' ∧ w.num < w'.num := by
  cases w with
  | spo => show (Pc.look1 op .pos).Pending op' w' ↔ _; rw [Pc.pending_look1]; exact Iff.rfl
  | pos => show (Pc.look1 op .osp).Pending op' w' ↔ _; rw [Pc.pending_look1]; exact Iff.rfl
  | osp =>
    show Pc.idle.Pending op' w' ↔ _
    constructor
    · intro h; exact absurd h Pc.pending_idle
    · rintro ⟨-, h⟩; cases w' <;> simp [Graph.Ix.num] at h

theorem GThread.at_advance (th : GThread) {op op' : ThOp} {w w' : Graph.Ix} (h : (th.advance op w).pc.at = some (op', w')) : op' = op := by
  cases w with
  | spo => cases h; rfl
  | pos => cases h; rfl
  | osp => cases h

theorem Graph.Ix.num_le_spo (w : Graph.Ix) : Graph.Ix.spo.num ≤ w.num := Nat.zero_le _

/-- A step that clashes with no other thread. -/
theorem GSys.Good.step {s : GSys} (h : s.Good) (i : Nat)
    (hc : ∀ j, j ≠ i → ∀ op op' w', (s.threads i).now = some op → (s.threads j).pc.at = some (op', w') → Compat s.sh op op') : (s.step i).Good := by
  have hS := h.shaped.heap
  have hP := h.shaped.pcs i
  have hL := h.links i
  have links : ∀ j, Linked (s.step i).sh ((s.step i).threads j).pc := by
    intro j
    by_cases e : j = i
    · subst e; rw [GSys.step_self]; exact Linked.own hP hL
    · rw [GSys.step_other s e]
      refine Linked.other hS hP hL (h.shaped.pcs j) (h.links j) (fun op w op' w' h1 h2 _ => hc j e op op' w' ?_ h2)
      unfold GThread.now; rw [h1]
  have shaped := h.shaped.step i
  have now : ∀ {op w}, (s.threads i).pc.at = some (op, w) → (s.threads i).now = some op := by
    intro op w e; unfold GThread.now; rw [e]
  -- steps within a line
  have mid : (∀ op w cur, (s.threads i).pc ≠ .last op w cur) → ((s.step i).sh.triples = s.sh.triples) →
      ((s.step i).threads i).pc.at = (s.threads i).pc.at → ((s.step i).threads i).todo = (s.threads i).todo → (s.step i).Good := by
    intro hn ht ha hd
    refine h.same links ht (fun w t => ?_) ha hd
    unfold SharedGraph.Found
    show ((s.sh.step (s.threads i)).1.top w).find _ _ _ = _ ↔ _
    rw [SharedGraph.find_step hS hP hL hn]
  rcases hth : s.threads i with ⟨pc, todo, outs⟩
  rw [hth] at hP hL
  cases pc with
  | idle =>
    cases todo with
    | nil =>
      refine mid ?_ ?_ ?_ ?_ <;> simp [GSys.step, hth, SharedGraph.step]
    | cons op todo =>
      have hnow : (s.threads i).now = some op := by rw [hth]; rfl
      have hop : op.stmt.g = none := h.ops i op (by rw [hth]; exact List.mem_cons_self)
      have hrest : ∀ op' ∈ todo, op'.stmt.g = none := fun op' ho => h.ops i op' (by rw [hth]; exact List.mem_cons_of_mem _ ho)
      have hni : ∀ op w, ¬ (s.threads i).pc.Pending op w := by intro op w; rw [hth]; exact Pc.pending_idle
      have hjne : ∀ j op w, (s.threads j).pc.Pending op w → j ≠ i := by rintro j op w hj rfl; exact hni _ _ hj
      cases op with
      | add t =>
        have hsh : (s.step i).sh = { s.sh with triples := Graph.setAdd s.sh.triples t } := by simp [GSys.step, hth, SharedGraph.step]
        have hthi : (s.step i).threads i = ⟨.look1 (.add t) .spo, todo, outs⟩ := by simp [GSys.step, hth, SharedGraph.step]
        have hF : ∀ w x, (s.step i).sh.Found w x ↔ s.sh.Found w x := by intro w x; rw [hsh]; exact Iff.rfl
        have htr : ∀ x, x ∈ (s.step i).sh.triples ↔ x = t ∨ x ∈ s.sh.triples := by intro x; rw [hsh]; exact Graph.mem_setAdd _ _ _
        refine ⟨shaped, links, by rw [hsh]; exact Graph.nodup_setAdd h.nodup t, fun x hx => ?_, fun j op hj => ?_, fun j op w hj => ?_, fun w x hx => ?_,
          fun x hx w => ?_, fun j w x hj => ?_, fun j w x hj => ?_⟩
        · rcases (htr x).1 hx with rfl | hx
          exacts [hop, h.tri x hx]
        · by_cases e : j = i
          · subst e; rw [hthi] at hj; exact hrest op hj
          · rw [GSys.step_other s e] at hj; exact h.ops j op hj
        · by_cases e : j = i
          · subst e; rw [hthi] at hj; cases hj; exact hop
          · rw [GSys.step_other s e] at hj; exact h.cur j op w hj
        · rw [htr]
          rcases h.c1 w x ((hF w x).1 hx) with h1 | ⟨j, hj⟩
          · exact Or.inl (Or.inr h1)
          · exact Or.inr ⟨j, by rw [GSys.step_other s (hjne _ _ _ hj)]; exact hj⟩
        · rcases (htr x).1 hx with rfl | hx
          · exact Or.inr ⟨i, by rw [hthi]; exact Pc.pending_look1.2 ⟨rfl, Graph.Ix.num_le_spo w⟩⟩
          · rcases h.c2 x hx w with h1 | ⟨j, hj⟩
            · exact Or.inl ((hF w x).2 h1)
            · exact Or.inr ⟨j, by rw [GSys.step_other s (hjne _ _ _ hj)]; exact hj⟩
        · by_cases e : j = i
          · subst e; rw [hthi] at hj; obtain ⟨e, -⟩ := Pc.pending_look1.1 hj; cases e
          · rw [GSys.step_other s e] at hj
            obtain ⟨h1, h2⟩ := h.c3 j w x hj
            refine ⟨(hF w x).2 h1, fun hx => ?_⟩
            rcases (htr x).1 hx with rfl | hx
            · obtain ⟨w', hw, -⟩ := hj
              have := ((hc j e _ _ _ hnow hw).same rfl).2
              cases this
            · exact h2 hx
        · rw [htr]
          by_cases e : j = i
          · subst e; rw [hthi] at hj; cases hj; exact Or.inl rfl
          · rw [GSys.step_other s e] at hj; exact Or.inr (h.c4 j w x hj)
      | remove t =>
        by_cases hm : t ∈ s.sh.triples
        · have hsh : (s.step i).sh = { s.sh with triples := s.sh.triples.erase t } := by simp [GSys.step, hth, SharedGraph.step, hm]
          have hthi : (s.step i).threads i = ⟨.look1 (.remove t) .spo, todo, outs⟩ := by simp [GSys.step, hth, SharedGraph.step, hm]
          have hF : ∀ w x, (s.step i).sh.Found w x ↔ s.sh.Found w x := by intro w x; rw [hsh]; exact Iff.rfl
          have htr : ∀ x, x ∈ (s.step i).sh.triples ↔ x ≠ t ∧ x ∈ s.sh.triples := by intro x; rw [hsh]; exact h.nodup.mem_erase_iff
          refine ⟨shaped, links, by rw [hsh]; exact h.nodup.erase t, fun x hx => h.tri x ((htr x).1 hx).2, fun j op hj => ?_, fun j op w hj => ?_, fun w x hx => ?_,
            fun x hx w => ?_, fun j w x hj => ?_, fun j w x hj => ?_⟩
          · by_cases e : j = i
            · subst e; rw [hthi] at hj; exact hrest op hj
            · rw [GSys.step_other s e] at hj; exact h.ops j op hj
          · by_cases e : j = i
            · subst e; rw [hthi] at hj; cases hj; exact hop
            · rw [GSys.step_other s e] at hj; exact h.cur j op w hj
          · rcases h.c1 w x ((hF w x).1 hx) with h1 | ⟨j, hj⟩
            · by_cases e : x = t
              · subst e; exact Or.inr ⟨i, by rw [hthi]; exact Pc.pending_look1.2 ⟨rfl, Graph.Ix.num_le_spo w⟩⟩
              · exact Or.inl ((htr x).2 ⟨e, h1⟩)
            · exact Or.inr ⟨j, by rw [GSys.step_other s (hjne _ _ _ hj)]; exact hj⟩
          · rcases h.c2 x ((htr x).1 hx).2 w with h1 | ⟨j, hj⟩
            · exact Or.inl ((hF w x).2 h1)
            · exact Or.inr ⟨j, by rw [GSys.step_other s (hjne _ _ _ hj)]; exact hj⟩
          · by_cases e : j = i
            · subst e; rw [hthi] at hj; obtain ⟨e, -⟩ := Pc.pending_look1.1 hj; cases e
              refine ⟨(hF w t).2 ?_, fun hx => ((htr t).1 hx).1 rfl⟩
              rcases h.c2 t hm w with h1 | ⟨j', hj'⟩
              · exact h1
              · have hne := hjne _ _ _ hj'
                obtain ⟨w', hw, -⟩ := hj'
                have := ((hc j' hne _ _ _ hnow hw).same rfl).1
                cases this
            · rw [GSys.step_other s e] at hj
              obtain ⟨h1, h2⟩ := h.c3 j w x hj
              exact ⟨(hF w x).2 h1, fun hx => h2 ((htr x).1 hx).2⟩
          · by_cases e : j = i
            · subst e; rw [hthi] at hj; cases hj
            · rw [GSys.step_other s e] at hj
              refine (htr x).2 ⟨?_, h.c4 j w x hj⟩
              rintro rfl
              have := ((hc j e _ _ _ hnow hj).same rfl).1
              cases this
        · have hsh : (s.step i).sh = s.sh := by simp [GSys.step, hth, SharedGraph.step, hm]
          have hthi : (s.step i).threads i = ⟨.idle, todo, outs ++ [.error .keyError]⟩ := by simp [GSys.step, hth, SharedGraph.step, hm, GThread.finish]
          refine ⟨shaped, links, hsh ▸ h.nodup, hsh ▸ h.tri, fun j op hj => ?_, fun j op w hj => ?_, fun w x hx => ?_, fun x hx w => ?_, fun j w x hj => ?_, fun j w x hj => ?_⟩
          · by_cases e : j = i
            · subst e; rw [hthi] at hj; exact hrest op hj
            · rw [GSys.step_other s e] at hj; exact h.ops j op hj
          · by_cases e : j = i
            · subst e; rw [hthi] at hj; cases hj
            · rw [GSys.step_other s e] at hj; exact h.cur j op w hj
          · rw [hsh] at hx ⊢
            rcases h.c1 w x hx with h1 | ⟨j, hj⟩
            · exact Or.inl h1
            · exact Or.inr ⟨j, by rw [GSys.step_other s (hjne _ _ _ hj)]; exact hj⟩
          · rw [hsh] at hx ⊢
            rcases h.c2 x hx w with h1 | ⟨j, hj⟩
            · exact Or.inl h1
            · exact Or.inr ⟨j, by rw [GSys.step_other s (hjne _ _ _ hj)]; exact hj⟩
          · by_cases e : j = i
            · subst e; rw [hthi] at hj; exact absurd hj Pc.pending_idle
            · rw [GSys.step_other s e] at hj; rw [hsh]; exact h.c3 j w x hj
          · by_cases e : j = i
            · subst e; rw [hthi] at hj; cases hj
            · rw [GSys.step_other s e] at hj; rw [hsh]; exact h.c4 j w x hj
  | look1 op w =>
    have hst : (∃ r, (s.sh.heap (.root w)).get? (w.keys op.stmt).1 = some (.dict r)) ∨ (s.sh.heap (.root w)).get? (w.keys op.stmt).1 = none := by
      cases hv : (s.sh.heap (.root w)).get? (w.keys op.stmt).1 with
      | none => exact Or.inr rfl
      | some v =>
        cases v with
        | dict r => exact Or.inl ⟨r, rfl⟩
        | stmt t => exact (hS.placed _ _ _ hv).elim
    rcases hst with ⟨r, hr⟩ | hr
    · refine mid ?_ ?_ ?_ ?_ <;> simp [GSys.step, hth, SharedGraph.step, hr, Pc.at]
    · refine mid ?_ ?_ ?_ ?_ <;> simp [GSys.step, hth, SharedGraph.step, hr, Pc.at, SharedGraph.newDict, SharedGraph.put]
  | store1 op w r =>
    refine mid ?_ ?_ ?_ ?_ <;> simp [GSys.step, hth, SharedGraph.step, Pc.at, SharedGraph.put]
  | look2 op w cur =>
    obtain ⟨m, hm, rfl⟩ := hP
    have hst : (∃ r, (s.sh.heap (.made (.root w) (w.keys op.stmt).1 m)).get? (w.keys op.stmt).2.1 = some (.dict r)) ∨ (s.sh.heap (.made (.root w) (w.keys op.stmt).1 m)).get? (w.keys op.stmt).2.1 = none := by
      cases hv : (s.sh.heap (.made (.root w) (w.keys op.stmt).1 m)).get? (w.keys op.stmt).2.1 with
      | none => exact Or.inr rfl
      | some v =>
        cases v with
        | dict r => exact Or.inl ⟨r, rfl⟩
        | stmt t => exact (hS.placed _ _ _ hv).elim
    rcases hst with ⟨r, hr⟩ | hr
    · refine mid ?_ ?_ ?_ ?_ <;> simp [GSys.step, hth, SharedGraph.step, hr, Pc.at]
    · refine mid ?_ ?_ ?_ ?_ <;> simp [GSys.step, hth, SharedGraph.step, hr, Pc.at, SharedGraph.newDict, SharedGraph.put]
  | store2 op w cur r =>
    refine mid ?_ ?_ ?_ ?_ <;> simp [GSys.step, hth, SharedGraph.step, Pc.at, SharedGraph.put]
  | last op w cur =>
    have hat : (s.threads i).pc.at = some (op, w) := by rw [hth]; rfl
    have hop : op.stmt.g = none := h.cur i op w hat
    have hnow := now hat
    have hpend : ∀ v, (s.threads i).pc.Pending op v ↔ w.num ≤ v.num := by
      intro v; unfold Pc.Pending; rw [hat]
      constructor
      · rintro ⟨w', e, hv⟩; cases e; exact hv
      · intro hv; exact ⟨w, rfl, hv⟩
    have hpend' : ∀ op' v, (s.threads i).pc.Pending op' v → op' = op := by
      rintro op' v ⟨w', e, hv⟩; rw [hat] at e; cases e; rfl
    cases op with
    | add t =>
      obtain ⟨e1, e2⟩ := SharedGraph.top_last_add (th := s.threads i) hS (by rw [hth]) (by rw [hth]; exact hP) (by rw [hth]; exact hL)
      have hthi : (s.step i).threads i = GThread.advance ⟨.last (.add t) w cur, todo, outs⟩ (.add t) w := by rw [GSys.step_self, hth]; rfl
      have htr : (s.step i).sh.triples = s.sh.triples := by simp [GSys.step, hth, SharedGraph.step, SharedGraph.put]
      have htodo : ((s.step i).threads i).todo = todo := by rw [hthi]; cases w <;> rfl
      have hF : ∀ v x, (x.g = none) → ((s.step i).sh.Found v x ↔ (v = w ∧ x = t) ∨ s.sh.Found v x) := by
        intro v x hx
        unfold SharedGraph.Found
        by_cases e : v = w
        · subst e
          show ((s.sh.step (s.threads i)).1.top v).find _ _ _ = _ ↔ _
          rw [e1, Idx.find_put]
          constructor
          · intro hh
            split at hh
            · next e => cases hh; exact Or.inl ⟨rfl, rfl⟩
            · exact Or.inr hh
          · rintro (⟨-, rfl⟩ | hh)
            · simp
            · split
              · next e =>
                have := keys_inj (w := v) hop hx (by ext1; exact e.1; ext1; exacts [e.2.1, e.2.2])
                exact congrArg some this
              · exact hh
        · show ((s.sh.step (s.threads i)).1.top v).find _ _ _ = _ ↔ _
          rw [e2 v e]; simp [e]
      have hFg : ∀ v x, (s.step i).sh.Found v x → x = t ∨ s.sh.Found v x := by
        intro v x hx
        unfold SharedGraph.Found at hx ⊢
        by_cases e : v = w
        · subst e
          change ((s.sh.step (s.threads i)).1.top v).find _ _ _ = _ at hx
          rw [e1, Idx.find_put] at hx
          split at hx
          · cases hx; exact Or.inl rfl
          · exact Or.inr hx
        · change ((s.sh.step (s.threads i)).1.top v).find _ _ _ = _ at hx
          rw [e2 v e] at hx; exact Or.inr hx
      refine ⟨shaped, links, htr ▸ h.nodup, htr ▸ h.tri, fun j op hj => ?_, fun j op v hj => ?_, fun v x hx => ?_, fun x hx v => ?_, fun j v x hj => ?_, fun j v x hj => ?_⟩
      · by_cases e : j = i
        · subst e; rw [htodo] at hj; exact h.ops j op (by rw [hth]; exact hj)
        · rw [GSys.step_other s e] at hj; exact h.ops j op hj
      · by_cases e : j = i
        · subst e; rw [hthi] at hj; rw [GThread.at_advance _ hj]; exact hop
        · rw [GSys.step_other s e] at hj; exact h.cur j op v hj
      · rw [htr]
        rcases hFg v x hx with rfl | hx
        · exact Or.inl (h.c4 i w x hat)
        · rcases h.c1 v x hx with h1 | ⟨j, hj⟩
          · exact Or.inl h1
          · refine Or.inr ⟨j, ?_⟩
            have : j ≠ i := by rintro rfl; cases hpend' _ _ hj
            rw [GSys.step_other s this]; exact hj
      · rw [htr] at hx
        rw [hF v x (h.tri x hx)]
        rcases h.c2 x hx v with h1 | ⟨j, hj⟩
        · exact Or.inl (Or.inr h1)
        · by_cases e : j = i
          · subst e
            cases hpend' _ _ hj
            have := (hpend v).1 hj
            by_cases e : v = w
            · exact Or.inl (Or.inl ⟨e, rfl⟩)
            · refine Or.inr ⟨j, ?_⟩
              rw [hthi, GThread.pending_advance]
              refine ⟨rfl, lt_of_le_of_ne this (fun e' => e (Graph.Ix.num_inj.1 e').symm)⟩
          · exact Or.inr ⟨j, by rw [GSys.step_other s e]; exact hj⟩
      · by_cases e : j = i
        · subst e; rw [hthi, GThread.pending_advance] at hj; cases hj.1
        · rw [GSys.step_other s e] at hj
          obtain ⟨h1, h2⟩ := h.c3 j v x hj
          obtain ⟨w', hw, -⟩ := hj
          exact ⟨(hF v x (h.cur j _ _ hw)).2 (Or.inr h1), htr ▸ h2⟩
      · rw [htr]
        by_cases e : j = i
        · subst e; rw [hthi] at hj; cases GThread.at_advance _ hj; exact h.c4 j w _ hat
        · rw [GSys.step_other s e] at hj; exact h.c4 j v x hj
    | remove t =>
      have hfound := (h.c3 i w t ((hpend w).2 (le_refl _))).1
      have hnot := (h.c3 i w t ((hpend w).2 (le_refl _))).2
      obtain ⟨e0, e1, e2⟩ := SharedGraph.top_last_remove (th := s.threads i) hS (by rw [hth]) (by rw [hth]; exact hP) (by rw [hth]; exact hL) (by rw [hfound]; simp)
      have hthi : (s.step i).threads i = (s.threads i).advance (.remove t) w := by rw [GSys.step_self]; exact e0
      have htr : (s.step i).sh.triples = s.sh.triples := by
        show (s.sh.step (s.threads i)).1.triples = _
        rw [hth]; simp only [SharedGraph.step]; split <;> rfl
      have htodo : ((s.step i).threads i).todo = todo := by rw [hthi, hth]; cases w <;> rfl
      have hF : ∀ v x, x ≠ t → x.g = none → ((s.step i).sh.Found v x ↔ s.sh.Found v x) := by
        intro v x hne hx
        unfold SharedGraph.Found
        show ((s.sh.step (s.threads i)).1.top v).find _ _ _ = _ ↔ _
        by_cases e : v = w
        · subst e
          rw [e1, Idx.find_del3 (SharedGraph.top_wf hS v)]
          rw [if_neg]
          intro e
          exact hne (keys_inj (w := v) hx hop (by ext1; exact e.1.symm; ext1; exacts [e.2.1.symm, e.2.2.symm]))
        · rw [e2 v e]
      have hFt : ∀ v, (s.step i).sh.Found v t → v ≠ w ∧ s.sh.Found v t := by
        intro v hv
        unfold SharedGraph.Found at hv
        change ((s.sh.step (s.threads i)).1.top v).find _ _ _ = _ at hv
        by_cases e : v = w
        · subst e
          rw [e1, Idx.find_del3 (SharedGraph.top_wf hS v), if_pos ⟨rfl, rfl, rfl⟩] at hv
          cases hv
        · rw [e2 v e] at hv; exact ⟨e, hv⟩
      have hFk : ∀ v, v ≠ w → s.sh.Found v t → (s.step i).sh.Found v t := by
        intro v e hv
        unfold SharedGraph.Found at hv ⊢
        show ((s.sh.step (s.threads i)).1.top v).find _ _ _ = _
        rw [e2 v e]; exact hv
      have hFg : ∀ v x, (s.step i).sh.Found v x → s.sh.Found v x := by
        intro v x hx
        unfold SharedGraph.Found at hx ⊢
        change ((s.sh.step (s.threads i)).1.top v).find _ _ _ = _ at hx
        by_cases e : v = w
        · subst e
          rw [e1, Idx.find_del3 (SharedGraph.top_wf hS v)] at hx
          split at hx
          · cases hx
          · exact hx
        · rw [e2 v e] at hx; exact hx
      refine ⟨shaped, links, htr ▸ h.nodup, htr ▸ h.tri, fun j op hj => ?_, fun j op v hj => ?_, fun v x hx => ?_, fun x hx v => ?_, fun j v x hj => ?_, fun j v x hj => ?_⟩
      · by_cases e : j = i
        · subst e; rw [htodo] at hj; exact h.ops j op (by rw [hth]; exact hj)
        · rw [GSys.step_other s e] at hj; exact h.ops j op hj
      · by_cases e : j = i
        · subst e; rw [hthi] at hj; rw [GThread.at_advance _ hj]; exact hop
        · rw [GSys.step_other s e] at hj; exact h.cur j op v hj
      · rw [htr]
        rcases h.c1 v x (hFg v x hx) with h1 | ⟨j, hj⟩
        · exact Or.inl h1
        · by_cases e : j = i
          · subst e
            cases hpend' _ _ hj
            refine Or.inr ⟨j, ?_⟩
            rw [hthi, GThread.pending_advance]
            exact ⟨rfl, lt_of_le_of_ne ((hpend v).1 hj) (fun e' => (hFt v hx).1 (Graph.Ix.num_inj.1 e').symm)⟩
          · exact Or.inr ⟨j, by rw [GSys.step_other s e]; exact hj⟩
      · rw [htr] at hx
        have hne : x ≠ t := by rintro rfl; exact hnot hx
        rw [hF v x hne (h.tri x hx)]
        rcases h.c2 x hx v with h1 | ⟨j, hj⟩
        · exact Or.inl h1
        · have : j ≠ i := by rintro rfl; cases hpend' _ _ hj
          exact Or.inr ⟨j, by rw [GSys.step_other s this]; exact hj⟩
      · rw [htr]
        by_cases e : j = i
        · subst e; rw [hthi, GThread.pending_advance] at hj
          obtain ⟨e, hlt⟩ := hj
          cases e
          exact ⟨hFk v (by rintro rfl; omega) (h.c3 j v t ((hpend v).2 (le_of_lt hlt))).1, hnot⟩
        · rw [GSys.step_other s e] at hj
          obtain ⟨h1, h2⟩ := h.c3 j v x hj
          obtain ⟨w', hw, -⟩ := hj
          have hne : x ≠ t := by
            rintro rfl
            have := ((hc j e _ _ _ hnow hw).same rfl).1
            cases this
          exact ⟨(hF v x hne (h.cur j _ _ hw)).2 h1, h2⟩
      · rw [htr]
        by_cases e : j = i
        · subst e; rw [hthi] at hj; cases GThread.at_advance _ hj
        · rw [GSys.step_other s e] at hj; exact h.c4 j v x hj

/-- Between calls the indexes agree with the set. -/
theorem GSys.Good.inv {s : GSys} (h : s.Good) (hi : ∀ i, (s.threads i).pc = .idle) : Graph.Inv s.sh.graph := by
  have hS := h.shaped.heap
  have key : ∀ w t, s.sh.Found w t ↔ t ∈ s.sh.triples := by
    intro w t
    constructor
    · intro hf
      rcases h.c1 w t hf with h1 | ⟨j, hj⟩
      · exact h1
      · rw [hi] at hj; exact absurd hj Pc.pending_idle
    · intro ht
      rcases h.c2 t ht w with h1 | ⟨j, hj⟩
      · exact h1
      · rw [hi] at hj; exact absurd hj Pc.pending_idle
  have find : ∀ (w : Graph.Ix) a b c t, (s.sh.top w).find a b c = some t ↔ t ∈ s.sh.triples ∧ w.keys t = (a, b, c) := by
    intro w a b c t
    constructor
    · intro hf
      have := SharedGraph.top_find hS hf
      refine ⟨(key w t).1 ?_, this⟩
      unfold SharedGraph.Found; rw [this]; exact hf
    · rintro ⟨ht, e⟩
      have := (key w t).2 ht
      unfold SharedGraph.Found at this; rw [e] at this; exact this
  refine ⟨⟨h.nodup, SharedGraph.top_wf hS .spo, SharedGraph.top_wf hS .pos, SharedGraph.top_wf hS .osp, fun a b c t => ?_, fun a b c t => ?_, fun a b c t => ?_⟩, h.tri⟩
  · refine (find .spo a b c t).trans ?_
    simp [Graph.Ix.keys, SharedGraph.graph]
  · refine (find .pos b c a t).trans ?_
    simp [Graph.Ix.keys, SharedGraph.graph]; intro _; tauto
  · refine (find .osp c a b t).trans ?_
    simp [Graph.Ix.keys, SharedGraph.graph]; intro _; tauto

end Verif
