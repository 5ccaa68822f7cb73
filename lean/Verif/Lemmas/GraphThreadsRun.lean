import Verif.Lemmas.GraphThreadsInv
import Verif.Spec.Threads
/-
Threads on one Graph: whole runs. The order in which the calls began is the order of the specification.
-/
namespace Verif
open Spec

/-- What a call does to `_triples`. -/
def ThOp.onSet (T : List Stmt) : ThOp → List Stmt
  | .add t => Graph.setAdd T t
  | .remove t => T.erase t

/-- How a call ends that nobody disturbs. -/
def ThOp.outcome (T : List Stmt) : ThOp → Except Exc Unit
  | .add _ => .ok ()
  | .remove t => if t ∈ T then .ok () else .error .keyError

/-- A step begins a call, or goes on with one. -/
theorem SharedGraph.step_begins (sh : SharedGraph) (th : GThread) :
    (th.pc = .idle ∧ ∃ op rest, th.todo = op :: rest ∧ (sh.step th).2.todo = rest ∧ (sh.step th).1.triples = op.onSet sh.triples) ∨
      (¬ (th.pc = .idle ∧ th.todo ≠ []) ∧ (sh.step th).2.todo = th.todo ∧ (sh.step th).1.triples = sh.triples) := by
  have adv : ∀ (th : GThread) op w, (th.advance op w).todo = th.todo := by intro th op w; cases w <;> rfl
  obtain ⟨pc, todo, outs⟩ := th
  cases pc with
  | idle =>
    cases todo with
    | nil => exact Or.inr ⟨by simp, rfl, rfl⟩
    | cons op todo =>
      refine Or.inl ⟨rfl, op, todo, rfl, ?_⟩
      cases op with
      | add t => exact ⟨rfl, rfl⟩
      | remove t =>
        simp only [step]
        split
        · exact ⟨rfl, rfl⟩
        · next h => exact ⟨rfl, (List.erase_of_not_mem h).symm⟩
  | look1 op w => refine Or.inr ⟨by simp, ?_⟩; simp only [step]; split <;> exact ⟨rfl, rfl⟩
  | store1 op w r => exact Or.inr ⟨by simp, rfl, rfl⟩
  | look2 op w cur => refine Or.inr ⟨by simp, ?_⟩; simp only [step]; split <;> exact ⟨rfl, rfl⟩
  | store2 op w cur r => exact Or.inr ⟨by simp, rfl, rfl⟩
  | last op w cur =>
    refine Or.inr ⟨by simp, ?_⟩
    cases op with
    | add t => exact ⟨adv _ _ _, rfl⟩
    | remove t =>
      simp only [step]
      split
      · exact ⟨adv _ _ _, rfl⟩
      · exact ⟨rfl, rfl⟩

/-- Between two states the calls `l` began, in this order. -/
structure Linear (s s' : GSys) (l : List (Nat × ThOp)) : Prop where
  todo : ∀ i, (s.threads i).todo = (l.filter (fun x => x.1 = i)).map Prod.snd ++ (s'.threads i).todo
  triples : s'.sh.triples = (l.map Prod.snd).foldl ThOp.onSet s.sh.triples

theorem Linear.refl (s : GSys) : Linear s s [] := ⟨fun _ => rfl, rfl⟩

theorem Linear.trans {s s' s'' : GSys} {l l'} (h : Linear s s' l) (h' : Linear s' s'' l') : Linear s s'' (l ++ l') := by
  refine ⟨fun i => ?_, ?_⟩
  · rw [h.todo, h'.todo]; simp
  · rw [h'.triples, h.triples]; simp

/-- What a step begins. -/
def GSys.begins (s : GSys) (i : Nat) : List (Nat × ThOp) :=
  match (s.threads i).pc, (s.threads i).todo with
  | .idle, op :: _ => [(i, op)]
  | _, _ => []

theorem Linear.step (s : GSys) (i : Nat) : Linear s (s.step i) (s.begins i) := by
  rcases s.sh.step_begins (s.threads i) with ⟨h0, op, rest, h1, h2, h3⟩ | ⟨h0, h2, h3⟩
  · have hb : s.begins i = [(i, op)] := by unfold GSys.begins; rw [h0, h1]
    rw [hb]
    refine ⟨fun j => ?_, h3⟩
    by_cases e : j = i
    · subst e; rw [GSys.step_self, h2, h1]; simp
    · rw [GSys.step_other s e]; simp [Ne.symm e]
  · have hb : s.begins i = [] := by
      unfold GSys.begins
      split
      · next e1 e2 => exact absurd ⟨e1, by rw [e2]; simp⟩ h0
      · rfl
    rw [hb]
    refine ⟨fun j => ?_, h3⟩
    by_cases e : j = i
    · subst e; rw [GSys.step_self, h2]; rfl
    · rw [GSys.step_other s e]; rfl

/-- The calls in the order in which they begin. -/
def GSys.order : GSys → List Nat → List (Nat × ThOp)
  | _, [] => []
  | s, i :: sched => s.begins i ++ (s.step i).order sched

theorem Linear.run (s : GSys) (sched : List Nat) : Linear s (s.run sched) (s.order sched) := by
  induction sched generalizing s with
  | nil => exact Linear.refl s
  | cons i sched ih => exact (Linear.step s i).trans (ih (s.step i))

/-! ### Outcomes -/

/-- A call that will succeed. -/
def Pc.pend : Pc → List (Except Exc Unit)
  | .idle => []
  | _ => [.ok ()]

/-- The outcomes of the calls of thread `i`. -/
def ThOp.outcomes (i : Nat) : List Stmt → List (Nat × ThOp) → List (Except Exc Unit)
  | _, [] => []
  | T, (j, op) :: l => (if j = i then [op.outcome T] else []) ++ outcomes i (op.onSet T) l

theorem ThOp.outcomes_append (i : Nat) (T : List Stmt) (l l' : List (Nat × ThOp)) :
    outcomes i T (l ++ l') = outcomes i T l ++ outcomes i ((l.map Prod.snd).foldl ThOp.onSet T) l' := by
  induction l generalizing T with
  | nil => rfl
  | cons a l ih => obtain ⟨j, op⟩ := a; simp [outcomes, ih]

theorem GSys.Good.outs {s : GSys} (h : s.Good) (i j : Nat) :
    ((s.step i).threads j).outs ++ ((s.step i).threads j).pc.pend = (s.threads j).outs ++ (s.threads j).pc.pend ++ ThOp.outcomes j s.sh.triples (s.begins i) := by
  by_cases e : j = i
  swap
  · rw [GSys.step_other s e]
    have : ThOp.outcomes j s.sh.triples (s.begins i) = [] := by
      unfold GSys.begins
      split
      · simp [ThOp.outcomes, Ne.symm e]
      · rfl
    rw [this, List.append_nil]
  subst e
  have hS := h.shaped.heap
  have hP := h.shaped.pcs j
  have hL := h.links j
  have hc3 := h.c3 j
  rw [GSys.step_self]
  unfold GSys.begins
  rcases hth : s.threads j with ⟨pc, todo, outs⟩
  rw [hth] at hP hL hc3
  have adv : ∀ op w, (GThread.advance ⟨pc, todo, outs⟩ op w).outs ++ (GThread.advance ⟨pc, todo, outs⟩ op w).pc.pend = outs ++ [.ok ()] := by
    intro op w; cases w <;> simp [GThread.advance, Graph.Ix.after, Pc.pend, GThread.finish]
  cases pc with
  | idle =>
    cases todo with
    | nil => simp [SharedGraph.step, Pc.pend, ThOp.outcomes]
    | cons op todo =>
      cases op with
      | add t => simp [SharedGraph.step, Pc.pend, ThOp.outcomes, ThOp.outcome]
      | remove t =>
        by_cases hm : t ∈ s.sh.triples
        · simp [SharedGraph.step, Pc.pend, ThOp.outcomes, ThOp.outcome, hm]
        · simp [SharedGraph.step, Pc.pend, ThOp.outcomes, ThOp.outcome, hm, GThread.finish]
  | look1 op w =>
    cases hv : (s.sh.heap (.root w)).get? (w.keys op.stmt).1 with
    | none => simp [SharedGraph.step, hv, Pc.pend, ThOp.outcomes]
    | some v =>
      cases v with
      | dict r => simp [SharedGraph.step, hv, Pc.pend, ThOp.outcomes]
      | stmt t => exact (hS.placed _ _ _ hv).elim
  | store1 op w r => simp [SharedGraph.step, Pc.pend, ThOp.outcomes]
  | look2 op w cur =>
    obtain ⟨m, hm, rfl⟩ := hP
    cases hv : (s.sh.heap (.made (.root w) (w.keys op.stmt).1 m)).get? (w.keys op.stmt).2.1 with
    | none => simp [SharedGraph.step, hv, Pc.pend, ThOp.outcomes]
    | some v =>
      cases v with
      | dict r => simp [SharedGraph.step, hv, Pc.pend, ThOp.outcomes]
      | stmt t => exact (hS.placed _ _ _ hv).elim
  | store2 op w cur r => simp [SharedGraph.step, Pc.pend, ThOp.outcomes]
  | last op w cur =>
    cases op with
    | add t =>
      simp only [SharedGraph.step]
      rw [adv]; simp [Pc.pend, ThOp.outcomes]
    | remove t =>
      have hf := (hc3 w t ⟨w, rfl, le_refl _⟩).1
      obtain ⟨e0, -, -⟩ := SharedGraph.top_last_remove (th := ⟨.last (.remove t) w cur, todo, outs⟩) hS rfl hP hL (by rw [hf]; simp)
      rw [e0, adv]; simp [Pc.pend, ThOp.outcomes]

/-! ### Runs without clashes -/

/-- No step clashes with another thread. -/
def GSys.Safe : GSys → List Nat → Prop
  | _, [] => True
  | s, i :: sched => (∀ j, j ≠ i → ∀ op op' w', (s.threads i).now = some op → (s.threads j).pc.at = some (op', w') → Compat s.sh op op') ∧ (s.step i).Safe sched

theorem GSys.Good.run {s : GSys} (h : s.Good) {sched : List Nat} (hs : s.Safe sched) : (s.run sched).Good ∧ ∀ j,
    ((s.run sched).threads j).outs ++ ((s.run sched).threads j).pc.pend = (s.threads j).outs ++ (s.threads j).pc.pend ++ ThOp.outcomes j s.sh.triples (s.order sched) := by
  induction sched generalizing s with
  | nil => exact ⟨h, fun j => by simp [GSys.run, GSys.order, ThOp.outcomes]⟩
  | cons i sched ih =>
    obtain ⟨h1, h2⟩ := ih (h.step i hs.1) hs.2
    refine ⟨h1, fun j => ?_⟩
    rw [show s.run (i :: sched) = (s.step i).run sched from rfl, h2 j, h.outs i j]
    show _ = _ ++ ThOp.outcomes j s.sh.triples (s.begins i ++ (s.step i).order sched)
    rw [ThOp.outcomes_append, ← (Linear.step s i).triples]
    simp

/-- A graph between calls, and threads about to run. -/
theorem GSys.Good.start {s : GSys} (h : s.Good) (hi : ∀ i, (s.threads i).pc = .idle) {ops : Nat → List ThOp} (ho : ∀ i, ∀ op ∈ ops i, op.stmt.g = none) :
    (GSys.start s.sh ops).Good := by
  have noP : ∀ i op w, ¬ (s.threads i).pc.Pending op w := by intro i op w; rw [hi]; exact Pc.pending_idle
  refine ⟨.start h.shaped.heap ops, fun _ => trivial, h.nodup, h.tri, ho, fun i op w e => (by cases e), fun w t hf => ?_, fun t ht w => ?_, fun i w t hp => absurd hp Pc.pending_idle,
    fun i w t e => (by cases e)⟩
  · rcases h.c1 w t hf with h1 | ⟨j, hj⟩
    · exact Or.inl h1
    · exact absurd hj (noP _ _ _)
  · rcases h.c2 t ht w with h1 | ⟨j, hj⟩
    · exact Or.inl h1
    · exact absurd hj (noP _ _ _)

theorem GSys.Good.new (u : Term) {ops : Nat → List ThOp} (ho : ∀ i, ∀ op ∈ ops i, op.stmt.g = none) : (GSys.start (SharedGraph.new u) ops).Good := by
  refine ⟨.start (.new u) ops, fun _ => trivial, by simp [GSys.start, SharedGraph.new], by simp [GSys.start, SharedGraph.new], ho, fun i op w e => (by cases e),
    fun w t hf => ?_, by simp [GSys.start, SharedGraph.new], fun i w t hp => absurd hp Pc.pending_idle, fun i w t e => (by cases e)⟩
  exfalso
  have : ((SharedGraph.new u).top w) = [] := rfl
  change Idx.find ((SharedGraph.new u).top w) _ _ _ = _ at hf
  rw [this] at hf
  simp [Idx.find, Idx.l2, Idx.l1] at hf

/-! ### Keys that are there -/

/-- The dicts of a statement in an index are there. -/
def SharedGraph.Known (sh : SharedGraph) (t : Stmt) : Prop := ∀ w, ∃ cur, Linked sh (.last (.add t) w cur) ∧ PcShape sh.next (.last (.add t) w cur)

theorem SharedGraph.Known.of_found {sh : SharedGraph} (h : Shape sh) {t : Stmt} (hf : ∀ w, sh.Found w t) : sh.Known t := by
  intro w
  have hf := hf w
  unfold Found Idx.find Idx.l2 Idx.l1 at hf
  cases h1 : (sh.heap (.root w)).get? (w.keys t).1 with
  | none => rw [top_get_none h h1] at hf; simp at hf
  | some v =>
    have p1 := h.placed _ _ _ h1
    cases v with
    | stmt t => exact p1.elim
    | dict r =>
      obtain ⟨m, hm, rfl⟩ := p1
      rw [top_get h h1] at hf
      simp only [Option.getD_some] at hf
      cases h2 : (sh.heap (.made (.root w) (w.keys t).1 m)).get? (w.keys t).2.1 with
      | none => rw [mid_get_none h h2] at hf; simp at hf
      | some v =>
        have p2 := h.placed _ _ _ h2
        cases v with
        | stmt t => exact p2.elim
        | dict r =>
          obtain ⟨m', hm', rfl⟩ := p2
          exact ⟨_, ⟨_, h1, h2⟩, m, hm, m', hm', rfl⟩

theorem SharedGraph.Known.step {sh : SharedGraph} (h : Shape sh) {th : GThread} (hp : PcShape sh.next th.pc) (hl : Linked sh th.pc) {t : Stmt} (hk : sh.Known t) :
    (sh.step th).1.Known t := by
  intro w
  obtain ⟨cur, h1, h2⟩ := hk w
  refine ⟨cur, Linked.other h hp hl h2 h1 ?_, h2.mono (SharedGraph.next_step _ _)⟩
  intro op w1 op' w' _ e hn
  cases e
  exact absurd rfl (hn cur)

end Verif
