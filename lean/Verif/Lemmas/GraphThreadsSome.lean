import Verif.Lemmas.GraphReader
import Verif.Lemmas.GraphThreadsInv
/-
Threads that only add to a Graph: what is stored under a first key may be overwritten, but never by nothing.
-/
namespace Verif
open Spec

/-- Something is found under the first key. -/
def Lives (sh : SharedGraph) (w : Graph.Ix) (a : Term) : Prop :=
  ∃ r1 b r2 c v, (sh.heap (.root w)).get? a = some (.dict r1) ∧ (sh.heap r1).get? b = some (.dict r2) ∧ (sh.heap r2).get? c = some v

/-- The thread is on its way to store something under the first key, in a dict that can be reached. -/
def Busy (sh : SharedGraph) (w : Graph.Ix) (a : Term) : Pc → Prop
  | .idle => False
  | .look1 op v | .store1 op v _ => (w.keys op.stmt).1 = a ∧ v.num ≤ w.num
  | .look2 op v cur | .store2 op v cur _ => (w.keys op.stmt).1 = a ∧ (v.num < w.num ∨ v = w ∧ (sh.heap (.root w)).get? a = some (.dict cur))
  | .last op v cur => (w.keys op.stmt).1 = a ∧ (v.num < w.num ∨ v = w ∧ ∃ p, (sh.heap (.root w)).get? a = some (.dict p) ∧ (sh.heap p).get? (w.keys op.stmt).2.1 = some (.dict cur))

theorem Lives.congr {sh sh' : SharedGraph} (e : sh'.heap = sh.heap) {w a} (h : Lives sh w a) : Lives sh' w a := by
  unfold Lives; rw [e]; exact h

theorem Busy.congr {sh sh' : SharedGraph} (e : sh'.heap = sh.heap) {w a pc} (h : Busy sh w a pc) : Busy sh' w a pc := by
  cases pc <;> simp only [Busy] at h ⊢ <;> (try rw [e]) <;> exact h

theorem Graph.Ix.le_cases {v w : Graph.Ix} (h : v.num ≤ w.num) : v.num < w.num ∨ v = w := by
  rcases Nat.lt_or_eq_of_le h with h | h
  · exact Or.inl h
  · exact Or.inr (Graph.Ix.num_inj.1 h)

/-- The thread itself. -/
theorem Busy.own {sh : SharedGraph} (hS : Shape sh) (hu : Unborn sh) {th : GThread} (hp : PcShape sh.next th.pc) (hadd : ∀ op w, th.pc.at = some (op, w) → op = .add op.stmt) {w a}
    (h : Busy sh w a th.pc) : Lives (sh.step th).1 w a ∨ Busy (sh.step th).1 w a (sh.step th).2.pc := by
  obtain ⟨pc, todo, outs⟩ := th
  cases pc with
  | idle => exact h.elim
  | look1 op v =>
    refine Or.inr ?_
    obtain ⟨rfl, h2⟩ := h
    simp only [SharedGraph.step]
    split
    · next r e =>
      refine ⟨rfl, (Graph.Ix.le_cases h2).imp id ?_⟩
      rintro rfl
      exact ⟨rfl, e⟩
    · next e => exact (hS.placed _ _ _ e).elim
    · exact ⟨rfl, h2⟩
  | store1 op v r =>
    refine Or.inr ?_
    obtain ⟨rfl, h2⟩ := h
    refine ⟨rfl, (Graph.Ix.le_cases h2).imp id ?_⟩
    rintro rfl
    refine ⟨rfl, ?_⟩
    show ((sh.put _ _).heap _).get? _ = _
    rw [SharedGraph.heap_put, if_pos rfl, Dict.get?_set, if_pos rfl]
  | look2 op v cur =>
    refine Or.inr ?_
    obtain ⟨rfl, h2⟩ := h
    obtain ⟨m, hm, rfl⟩ := hp
    simp only [SharedGraph.step]
    split
    · next r e =>
      refine ⟨rfl, h2.imp id ?_⟩
      rintro ⟨rfl, h3⟩
      exact ⟨rfl, _, h3, e⟩
    · next e => exact (hS.placed _ _ _ e).elim
    · refine ⟨rfl, h2.imp id ?_⟩
      rintro ⟨rfl, h3⟩
      refine ⟨rfl, ?_⟩
      rw [(hu.newDict _ _).2]
      exact h3
  | store2 op v cur r =>
    refine Or.inr ?_
    obtain ⟨rfl, h2⟩ := h
    obtain ⟨⟨m, hm, rfl⟩, -⟩ := hp
    refine ⟨rfl, h2.imp id ?_⟩
    rintro ⟨rfl, h3⟩
    refine ⟨rfl, .made (.root v) (v.keys op.stmt).1 m, ?_, ?_⟩
    · show ((sh.put _ _).heap _).get? _ = _
      rw [SharedGraph.heap_put, if_neg (by simp)]
      exact h3
    · show ((sh.put _ _).heap _).get? _ = _
      rw [SharedGraph.heap_put, if_pos rfl, Dict.get?_set, if_pos rfl]
  | last op v cur =>
    obtain ⟨rfl, h2⟩ := h
    obtain ⟨m, hm, m', hm', rfl⟩ := hp
    have := hadd op v rfl
    cases op with
    | remove t => cases this
    | add t =>
      rcases h2 with h2 | ⟨rfl, p, h3, h4⟩
      · refine Or.inr ?_
        show Busy _ w _ (GThread.advance _ (.add t) v).pc
        unfold GThread.advance
        cases v <;> cases w <;> simp [Graph.Ix.num] at h2 <;> exact ⟨rfl, by simp [Graph.Ix.num]⟩
      · refine Or.inl ⟨p, (v.keys t).2.1, .made (.made (.root v) (v.keys t).1 m) (v.keys t).2.1 m', (v.keys t).2.2, .stmt t, ?_, ?_, ?_⟩
        · show ((sh.put _ _).heap _).get? _ = _
          rw [SharedGraph.heap_put, if_neg (by simp)]
          exact h3
        · obtain ⟨m1, -, rfl⟩ := hS.placed _ _ _ h3
          show ((sh.put _ _).heap _).get? _ = _
          rw [SharedGraph.heap_put, if_neg (by intro e; cases e)]
          exact h4
        · show ((sh.put _ _).heap _).get? _ = _
          rw [SharedGraph.heap_put]
          exact (congrArg (fun d => Dict.get? d (v.keys t).2.2) (if_pos rfl)).trans ((Dict.get?_set ..).trans (if_pos rfl))

/-- What the others see of a step: what can be reached can still be reached, or the thread that made the step is on its way. -/
theorem Busy.others {sh : SharedGraph} (hS : Shape sh) (hu : Unborn sh) {th : GThread} (hp : PcShape sh.next th.pc) (hadd : ∀ op w, th.pc.at = some (op, w) → op = .add op.stmt) (w a) :
    Busy (sh.step th).1 w a (sh.step th).2.pc ∨ (Lives sh w a → Lives (sh.step th).1 w a) ∧ ∀ pc, Busy sh w a pc → Busy (sh.step th).1 w a pc := by
  have keep : ∀ {sh' : SharedGraph}, (∀ r, (sh.heap (.root w)).get? a = some (.dict r) → (sh'.heap (.root w)).get? a = some (.dict r)) →
      (∀ r b r2, (sh.heap (.root w)).get? a = some (.dict r) → (sh.heap r).get? b = some (.dict r2) → (sh'.heap r).get? b = some (.dict r2)) →
      (∀ r b r2 c v, (sh.heap (.root w)).get? a = some (.dict r) → (sh.heap r).get? b = some (.dict r2) → (sh.heap r2).get? c = some v → ∃ v', (sh'.heap r2).get? c = some v') →
      (Lives sh w a → Lives sh' w a) ∧ ∀ pc, Busy sh w a pc → Busy sh' w a pc := by
    intro sh' k1 k2 k3
    refine ⟨?_, fun pc hb => ?_⟩
    · rintro ⟨r1, b, r2, c, v, h1, h2, h3⟩
      obtain ⟨v', h4⟩ := k3 _ _ _ _ _ h1 h2 h3
      exact ⟨r1, b, r2, c, v', k1 _ h1, k2 _ _ _ h1 h2, h4⟩
    · cases pc with
      | idle => exact hb
      | look1 op v => exact hb
      | store1 op v r => exact hb
      | look2 op v cur => exact ⟨hb.1, hb.2.imp id (fun h => ⟨h.1, k1 _ h.2⟩)⟩
      | store2 op v cur r => exact ⟨hb.1, hb.2.imp id (fun h => ⟨h.1, k1 _ h.2⟩)⟩
      | last op v cur => exact ⟨hb.1, hb.2.imp id (fun ⟨h, p, h1, h2⟩ => ⟨h, p, k1 _ h1, k2 _ _ _ h1 h2⟩)⟩
  have mid : ∀ {r}, (sh.heap (.root w)).get? a = some (.dict r) → ∃ m, r = .made (.root w) a m := by
    intro r h
    obtain ⟨m, -, e⟩ := hS.placed _ _ _ h
    exact ⟨m, e⟩
  have leaf : ∀ {r b r2}, (sh.heap (.root w)).get? a = some (.dict r) → (sh.heap r).get? b = some (.dict r2) → ∃ m m', r2 = .made (.made (.root w) a m) b m' := by
    intro r b r2 h h'
    obtain ⟨m, rfl⟩ := mid h
    obtain ⟨m', -, e⟩ := hS.placed _ _ _ h'
    exact ⟨m, m', e⟩
  cases Wrote.step hu th with
  | nothing e => exact Or.inr ⟨fun h => h.congr e, fun pc h => h.congr e⟩
  | store1 op v r e1 e =>
    by_cases hk : v = w ∧ (w.keys op.stmt).1 = a
    · obtain ⟨rfl, rfl⟩ := hk
      refine Or.inl ?_
      have : (sh.step th).2.pc = .look2 op v r := by unfold SharedGraph.step; rw [e1]
      rw [this]
      refine ⟨rfl, Or.inr ⟨rfl, ?_⟩⟩
      rw [e, SharedGraph.heap_put, if_pos rfl, Dict.get?_set, if_pos rfl]
    · refine Or.inr (keep (fun r' h => ?_) (fun r' b r2 h1 h2 => ?_) (fun r' b r2 c x h1 h2 h3 => ⟨x, ?_⟩))
      · rw [e, SharedGraph.heap_put]
        split
        · next e' =>
          cases e'
          rw [Dict.get?_set, if_neg (fun e'' => hk ⟨rfl, e''⟩)]
          exact h
        · exact h
      · obtain ⟨m, rfl⟩ := mid h1
        rwa [e, SharedGraph.heap_put, if_neg (by simp)]
      · obtain ⟨m, m', rfl⟩ := leaf h1 h2
        rwa [e, SharedGraph.heap_put, if_neg (by simp)]
  | store2 op v cur r e1 e =>
    rw [e1] at hp
    obtain ⟨⟨m0, -, rfl⟩, -⟩ := hp
    by_cases hk : (sh.heap (.root w)).get? a = some (.dict (.made (.root v) (v.keys op.stmt).1 m0))
    · obtain ⟨m, em⟩ := mid hk
      cases em
      refine Or.inl ?_
      have : (sh.step th).2.pc = .last op w r := by unfold SharedGraph.step; rw [e1]
      rw [this]
      refine ⟨rfl, Or.inr ⟨rfl, .made (.root w) (w.keys op.stmt).1 m0, ?_, ?_⟩⟩
      · rw [e, SharedGraph.heap_put, if_neg (by simp)]; exact hk
      · rw [e, SharedGraph.heap_put, if_pos rfl, Dict.get?_set, if_pos rfl]
    · refine Or.inr (keep (fun r' h => ?_) (fun r' b r2 h1 h2 => ?_) (fun r' b r2 c x h1 h2 h3 => ⟨x, ?_⟩))
      · rwa [e, SharedGraph.heap_put, if_neg (by simp)]
      · rw [e, SharedGraph.heap_put, if_neg (by rintro rfl; exact hk h1)]
        exact h2
      · obtain ⟨m, m', rfl⟩ := leaf h1 h2
        rwa [e, SharedGraph.heap_put, if_neg (by intro e'; cases e')]
  | add t v cur e1 e =>
    rw [e1] at hp
    obtain ⟨m0, -, m1, -, rfl⟩ := hp
    refine Or.inr (keep (fun r' h => ?_) (fun r' b r2 h1 h2 => ?_) (fun r' b r2 c x h1 h2 h3 => ?_))
    · rwa [e, SharedGraph.heap_put, if_neg (by simp)]
    · obtain ⟨m, rfl⟩ := mid h1
      rwa [e, SharedGraph.heap_put, if_neg (by intro e'; cases e')]
    · rw [e, SharedGraph.heap_put]
      split
      · next e' =>
        rw [Dict.get?_set]
        split
        · exact ⟨_, rfl⟩
        · exact ⟨x, e' ▸ h3⟩
      · exact ⟨x, h3⟩
  | remove t v cur e1 _ e =>
    have := hadd (.remove t) v (by rw [e1]; rfl)
    cases this

/-- Threads that only add. -/
structure GSys.OnlyAdds (s : GSys) : Prop where
  todo : ∀ i, ∀ op ∈ (s.threads i).todo, op = .add op.stmt
  cur : ∀ i op w, (s.threads i).pc.at = some (op, w) → op = .add op.stmt

/-- Under the first key of each triple there is something, or some thread is on its way. -/
def GSys.Some (s : GSys) : Prop := ∀ t ∈ s.sh.triples, ∀ w : Graph.Ix, Lives s.sh w (w.keys t).1 ∨ ∃ j, Busy s.sh w (w.keys t).1 (s.threads j).pc

theorem GSys.Some.step {s : GSys} (hs : s.Shaped) (hu : Unborn s.sh) (ha : s.OnlyAdds) (h : s.Some) (i : Nat) : (s.step i).Some := by
  intro t ht w
  have own := fun a hb => Busy.own (w := w) (a := a) hs.heap hu (hs.pcs i) (ha.cur i) hb
  have key : ∀ a, (Lives s.sh w a ∨ ∃ j, Busy s.sh w a (s.threads j).pc) → Lives (s.step i).sh w a ∨ ∃ j, Busy (s.step i).sh w a ((s.step i).threads j).pc := by
    intro a hb
    have self : Busy (s.sh.step (s.threads i)).1 w a (s.sh.step (s.threads i)).2.pc → ∃ j, Busy (s.step i).sh w a ((s.step i).threads j).pc :=
      fun h => ⟨i, by rw [GSys.step_self]; exact h⟩
    rcases Busy.others hs.heap hu (hs.pcs i) (ha.cur i) w a with h1 | ⟨h1, h2⟩
    · exact Or.inr (self h1)
    · rcases hb with hb | ⟨j, hb⟩
      · exact Or.inl (h1 hb)
      · by_cases e : j = i
        · subst e
          exact (own a hb).imp id self
        · exact Or.inr ⟨j, by rw [GSys.step_other s e]; exact h2 _ hb⟩
  rcases s.sh.step_begins (s.threads i) with ⟨h0, op, rest, h1, h2, h3⟩ | ⟨-, -, h3⟩
  · have eop := ha.todo i op (h1 ▸ List.mem_cons_self ..)
    have ht : t ∈ (s.sh.step (s.threads i)).1.triples := ht
    rw [h3, eop] at ht
    have : t ∈ s.sh.triples ∨ t = op.stmt := by
      simp only [ThOp.onSet, Graph.setAdd] at ht
      split at ht
      · exact Or.inl ht
      · simpa using ht
    rcases this with h4 | rfl
    · exact key _ (h t h4 w)
    · refine Or.inr ⟨i, ?_⟩
      rw [GSys.step_self]
      have : (s.sh.step (s.threads i)).2.pc = .look1 op .spo := by
        unfold SharedGraph.step
        rw [h0, h1]
        cases op with
        | add t => rfl
        | remove t => cases eop
      rw [this]
      exact ⟨rfl, Graph.Ix.num_le_spo w⟩
  · exact key _ (h t (h3 ▸ ht) w)

end Verif
