import Verif.Lemmas.DatasetThreads
/-
Threads on one Dataset: whole runs. The order in which the calls take effect is the order of the specification.
-/
namespace Verif
open Spec

/-- The calls of a thread that have not begun in a graph. -/
def DSys.coming (s : DSys) (j : Nat) : List DThOp :=
  (match (s.threads j).pc with
    | .idle => []
    | .look op _ => [op]
    | .made op _ _ => [op]
    | .got op _ => [op]
    | .inside op i => if ((s.graphs i).threads j).pc = .idle then [op] else []) ++ (s.threads j).todo

/-- A call that will succeed. -/
def DSys.pend (s : DSys) (j : Nat) : List (Except Exc Unit) :=
  match (s.threads j).pc with
  | .inside _ i => ((s.graphs i).threads j).pc.pend
  | _ => []

theorem Pc.pend_idle : Pc.idle.pend = [] := rfl

/-- How a call ends that nobody disturbs. -/
def DThOp.outcome (S : Finset Qd) : DThOp → Except Exc Unit
  | .add _ _ => .ok ()
  | .remove n t => if (⟨t.s, t.p, t.o, n⟩ : Qd) ∈ S then .ok () else .error .keyError

def DThOp.outcomes (i : Nat) : Finset Qd → List (Nat × DThOp) → List (Except Exc Unit)
  | _, [] => []
  | S, (j, op) :: l => (if j = i then [op.outcome S] else []) ++ outcomes i (op.onQuads S) l

theorem DThOp.outcomes_append (i : Nat) (S : Finset Qd) (l l' : List (Nat × DThOp)) :
    outcomes i S (l ++ l') = outcomes i S l ++ outcomes i ((l.map Prod.snd).foldl DThOp.onQuads S) l' := by
  induction l generalizing S with
  | nil => rfl
  | cons a l ih => obtain ⟨j, op⟩ := a; simp [outcomes, ih]

theorem DSys.enter_threads (s : DSys) (j : Nat) (op : DThOp) (again : Bool) (i k : Nat) (hk : k ≠ j) : (s.enter j op again i).threads k = s.threads k := by
  unfold DSys.enter
  split <;> exact setThread_other _ _ hk

theorem DSys.enter_graphs (s : DSys) (j : Nat) (op : DThOp) (again : Bool) (i i' k : Nat) (hk : k ≠ j) : ((s.enter j op again i).graphs i').threads k = (s.graphs i').threads k := by
  unfold DSys.enter
  split
  · rfl
  · show ((s.setGraph i _).graphs i').threads k = _
    by_cases e : i' = i
    · subst e; rw [setGraph_self, GSys.push_other _ _ hk]
    · rw [setGraph_other _ _ e]

theorem DSys.step_other (s : DSys) {j k : Nat} (hk : k ≠ j) : (s.step j).threads k = s.threads k := by
  unfold DSys.step
  dsimp only
  split
  · split
    · rfl
    · exact setThread_other _ _ hk
  · split
    · exact enter_threads _ _ _ _ _ _ hk
    · exact setThread_other _ _ hk
  · exact enter_threads _ _ _ _ _ _ hk
  · exact setThread_other _ _ hk
  · split
    · exact setThread_other _ _ hk
    · rfl

/-- A step of a thread does not change where another is in a graph of the dataset. -/
theorem DSys.step_graphs (s : DSys) {j k : Nat} (hk : k ≠ j) {i : Nat} (hi : i ≠ s.next) : ((s.step j).graphs i).threads k = (s.graphs i).threads k := by
  unfold DSys.step
  dsimp only
  split
  · split <;> rfl
  · split
    · exact enter_graphs _ _ _ _ _ _ _ hk
    · show ((s.setGraph s.next GSys.new).graphs i).threads k = _
      rw [setGraph_other _ _ hi]
  · exact enter_graphs _ _ _ _ _ _ _ hk
  · rename_i op i' _
    show ((s.setGraph i' _).graphs i).threads k = _
    by_cases e : i = i'
    · subst e; rw [setGraph_self]; rfl
    · rw [setGraph_other _ _ e]
  · rename_i op i' _
    have : ((s.setGraph i' ((s.graphs i').step j)).graphs i).threads k = (s.graphs i).threads k := by
      by_cases e : i = i'
      · subst e; rw [setGraph_self, GSys.step_other _ hk]
      · rw [setGraph_other _ _ e]
    split <;> exact this

theorem DSys.coming_enter {s : DSys} {j : Nat} {op : DThOp} {again : Bool} {i : Nat} (h : ((s.graphs i).threads j).pc = .idle) :
    (s.enter j op again i).coming j = op :: (s.threads j).todo ∧ (s.enter j op again i).pend j = [] ∧ ((s.enter j op again i).threads j).outs = (s.threads j).outs := by
  have key : ∀ op : DThOp, ((s.setGraph i ((s.graphs i).push j op.op)).setThread j { s.threads j with pc := .inside op i }).coming j = op :: (s.threads j).todo ∧
      ((s.setGraph i ((s.graphs i).push j op.op)).setThread j { s.threads j with pc := .inside op i }).pend j = [] ∧
      (((s.setGraph i ((s.graphs i).push j op.op)).setThread j { s.threads j with pc := .inside op i }).threads j).outs = (s.threads j).outs := by
    intro op
    have h1 : (((s.setGraph i ((s.graphs i).push j op.op)).setThread j { s.threads j with pc := .inside op i }).graphs i).threads j = ((s.graphs i).push j op.op).threads j := by
      show ((s.setGraph i ((s.graphs i).push j op.op)).graphs i).threads j = _
      rw [setGraph_self]
    have h2 := GSys.push_pc (s.graphs i) j op.op j
    rw [h] at h2
    unfold coming pend
    rw [setThread_self]
    simp only [h1, h2]
    simp [Pc.pend]
  unfold enter
  split
  · unfold coming pend
    dsimp only
    rw [setThread_self]
    simp
  · exact key _

/-- What a step does to the calls to come and to the outcomes. -/
theorem DSys.Ok.linear {s : DSys} {S : Finset Qd} (h : s.Good S) (j k : Nat) :
    s.coming k = ((s.begins j).filter (fun x => x.1 = k)).map Prod.snd ++ (s.step j).coming k ∧
      ((s.step j).threads k).outs ++ (s.step j).pend k = (s.threads k).outs ++ s.pend k ++ DThOp.outcomes k S (s.begins j) := by
  by_cases e : k = j
  swap
  · have hb : (s.begins j).filter (fun x => x.1 = k) = [] ∧ DThOp.outcomes k S (s.begins j) = [] := by
      unfold DSys.begins
      split
      · split
        · simp [Ne.symm e, DThOp.outcomes]
        · exact ⟨rfl, rfl⟩
      · exact ⟨rfl, rfl⟩
    rw [hb.1, hb.2, List.append_nil]
    have h0 := h.atOk k trivial
    unfold coming pend
    rw [step_other s e]
    cases hp : (s.threads k).pc with
    | inside op i =>
      rw [hp] at h0
      have hi : i ≠ s.next := by have := h.lt h0.2.1; omega
      simp [step_graphs s e hi]
    | _ => simp
  subst e
  have h0 := h.atOk k trivial
  cases hp : (s.threads k).pc with
  | idle =>
    have hb : s.begins k = [] := by unfold DSys.begins; rw [hp]
    rw [hb]
    have hr : s.pend k = [] := by unfold pend; rw [hp]
    rw [hr]
    cases ht : (s.threads k).todo with
    | nil =>
      have : s.step k = s := by unfold DSys.step; simp [hp, ht]
      rw [this, hr]; simp [DThOp.outcomes]
    | cons op todo =>
      have : s.step k = s.setThread k { s.threads k with pc := .look op false, todo } := by unfold DSys.step; simp [hp, ht]
      rw [this]
      unfold coming pend
      rw [setThread_self, hp, ht]
      simp [DThOp.outcomes]
  | look op again =>
    have hb : s.begins k = [] := by unfold DSys.begins; rw [hp]
    rw [hb]
    have hr : s.pend k = [] := by unfold pend; rw [hp]
    rw [hr]
    have hcm : s.coming k = op :: (s.threads k).todo := by unfold coming; rw [hp]; rfl
    rw [hcm]
    cases hn : s.names.get? op.name with
    | some i =>
      have : s.step k = s.enter k op again i := by unfold DSys.step; simp [hp, hn]
      rw [this]
      obtain ⟨h1, h2, h3⟩ := coming_enter (s := s) (j := k) (op := op) (again := again) (i := i) (h.rest k i (fun _ op' e => by rw [hp] at e; cases e)).1
      rw [h1, h2, h3]; simp [DThOp.outcomes]
    | none =>
      have : s.step k = ({ (s.setGraph s.next GSys.new) with next := s.next + 1 } : DSys).setThread k { s.threads k with pc := .made op again s.next } := by
        unfold DSys.step; simp only [hp, hn]
      rw [this]
      unfold coming pend
      rw [setThread_self]
      simp [DThOp.outcomes]
  | made op again i =>
    have hb : s.begins k = [] := by unfold DSys.begins; rw [hp]
    rw [hb]
    have hr : s.pend k = [] := by unfold pend; rw [hp]
    rw [hr]
    have hcm : s.coming k = op :: (s.threads k).todo := by unfold coming; rw [hp]; rfl
    rw [hcm]
    have : s.step k = ({ s with names := s.names.set op.name i } : DSys).enter k op again i := by unfold DSys.step; simp only [hp]
    rw [this]
    obtain ⟨h1, h2, h3⟩ := coming_enter (s := { s with names := s.names.set op.name i }) (j := k) (op := op) (again := again) (i := i)
      (h.rest k i (fun _ op' e => by rw [hp] at e; cases e)).1
    rw [h1, h2, h3]; simp [DThOp.outcomes]
  | got op i =>
    have hb : s.begins k = [] := by unfold DSys.begins; rw [hp]
    rw [hb]
    have hr : s.pend k = [] := by unfold pend; rw [hp]
    rw [hr]
    have hcm : s.coming k = op :: (s.threads k).todo := by unfold coming; rw [hp]; rfl
    rw [hcm]
    have : s.step k = (s.setGraph i ((s.graphs i).setUri op.name)).setThread k { s.threads k with pc := .look op true } := by unfold DSys.step; simp only [hp]
    rw [this]
    unfold coming pend
    rw [setThread_self]
    simp [DThOp.outcomes]
  | inside op i =>
    rw [hp] at h0
    obtain ⟨⟨a, rfl⟩, hn, -, hin⟩ := h0
    have hs := step_inside h hp
    have ho := (h.good i).outs k k
    obtain ⟨st, sp⟩ := hin.step (s.graphs i).sh
    rw [← GSys.step_self] at st sp
    have hg : ((s.step k).graphs i).threads k = ((s.graphs i).step k).threads k := by
      rw [hs]; show ((s.setGraph i ((s.graphs i).step k)).graphs i).threads k = _; rw [setGraph_self]
    have hpend : (s.step k).pend k = (((s.graphs i).step k).threads k).pc.pend := by
      unfold pend
      split
      · next op' i' e =>
        rw [hs, setThread_self] at e
        split at e
        · cases e
        · rw [hp] at e; cases e; rw [hg]
      · next hne =>
        by_cases e : (((s.graphs i).step k).threads k).pc = .idle
        · rw [e]; rfl
        · refine absurd ?_ (hne a.op i)
          rw [hs, setThread_self, if_neg e]; exact hp
    have hpend0 : s.pend k = ((s.graphs i).threads k).pc.pend := by unfold pend; rw [hp]
    have houts : ((s.step k).threads k).outs = (s.threads k).outs ++ (if (((s.graphs i).step k).threads k).pc = .idle then [(((s.graphs i).step k).threads k).outs.getLast?.getD (.ok ())] else []) := by
      rw [hs, setThread_self]; split <;> simp
    have hcom : (s.step k).coming k = (s.threads k).todo := by
      by_cases e : (((s.graphs i).step k).threads k).pc = .idle
      · rw [if_pos e] at hs
        unfold coming
        rw [hs, setThread_self]; rfl
      · rw [if_neg e] at hs
        unfold coming
        rw [hs, setThread_self, hp]
        show (if (((s.setGraph i ((s.graphs i).step k)).graphs i).threads k).pc = .idle then _ else _) ++ _ = _
        rw [setGraph_self, if_neg e]; rfl
    rw [hpend, hpend0, houts, hcom]
    rcases hin with ⟨h1, h2⟩ | ⟨⟨w, h1⟩, h2⟩
    · have hb : s.begins k = [(k, a.op)] := by unfold DSys.begins; rw [hp]; simp [h1]
      have hgb : (s.graphs i).begins k = [(k, a.op.op)] := by unfold GSys.begins; rw [h1, h2]
      have hoc : a.op.op.outcome (s.graphs i).sh.triples = a.op.outcome S := by
        cases a with
        | add q => rfl
        | remove q =>
          show (if _ then _ else _) = (if q ∈ S then _ else _)
          have : mkTriple q.s q.p q.o ∈ (s.graphs i).sh.triples ↔ q ∈ S := by
            rw [h.mem q]
            constructor
            · intro h4; exact ⟨i, hn, h4⟩
            · rintro ⟨i', h3, h4⟩
              rw [show s.names.get? q.g = some i from hn] at h3; cases h3; exact h4
          simp only [QAct.op, this]
      rw [hgb, h1] at ho
      simp only [Pc.pend_idle, ThOp.outcomes, if_true, List.append_nil] at ho
      refine ⟨by unfold coming; rw [hp]; simp [hb, h1], ?_⟩
      rw [hb, h1]
      simp only [Pc.pend_idle, DThOp.outcomes, if_true, List.append_nil]
      rw [List.append_assoc]
      congr 1
      rw [← hoc]
      rcases sp with e | ⟨w, e⟩
      · rw [e] at ho
        simp only [Pc.pend_idle, List.append_nil] at ho
        rw [e, if_pos rfl, ho]
        simp [Pc.pend]
      · have hne : (((s.graphs i).step k).threads k).pc ≠ .idle := fun e' => by rw [e'] at e; cases e
        have hpe : (((s.graphs i).step k).threads k).pc.pend = [.ok ()] := by
          generalize (((s.graphs i).step k).threads k).pc = pc at hne
          cases pc <;> first | rfl | exact absurd rfl hne
        rw [hpe] at ho
        rw [if_neg hne, hpe]
        have := (List.append_inj' ho rfl).2
        simpa using this
    · have hni : ((s.graphs i).threads k).pc ≠ .idle := fun e => by rw [e] at h1; cases h1
      have hb : s.begins k = [] := by unfold DSys.begins; rw [hp]; simp [hni]
      have hgb : (s.graphs i).begins k = [] := by
        unfold GSys.begins
        split
        · next e _ => exact absurd e hni
        · rfl
      have hp0 : ((s.graphs i).threads k).pc.pend = [.ok ()] := by
        generalize ((s.graphs i).threads k).pc = pc at hni
        cases pc <;> first | rfl | exact absurd rfl hni
      rw [hgb, hp0] at ho
      simp only [ThOp.outcomes, List.append_nil] at ho
      refine ⟨by unfold coming; rw [hp]; simp [hb, hni], ?_⟩
      rw [hb, hp0]
      simp only [DThOp.outcomes, List.append_nil]
      rw [List.append_assoc]
      congr 1
      rcases sp with e | ⟨w, e⟩
      · rw [e] at ho
        simp only [Pc.pend_idle, List.append_nil] at ho
        rw [e, if_pos rfl, ho]
        simp [Pc.pend]
      · have hne : (((s.graphs i).step k).threads k).pc ≠ .idle := fun e' => by rw [e'] at e; cases e
        have hpe : (((s.graphs i).step k).threads k).pc.pend = [.ok ()] := by
          generalize (((s.graphs i).step k).threads k).pc = pc at hne
          cases pc <;> first | rfl | exact absurd rfl hne
        rw [if_neg hne, hpe]; rfl

/-! ### Runs -/

/-- The calls in the order in which they take effect. -/
def DSys.order : DSys → List Nat → List (Nat × DThOp)
  | _, [] => []
  | s, j :: sched => s.begins j ++ (s.step j).order sched

/-- No step clashes with another thread. -/
def DSys.Safe : DSys → List Nat → Prop
  | _, [] => True
  | s, j :: sched => s.Clear j ∧ (s.step j).Safe sched

theorem DSys.Ok.run {s : DSys} {S : Finset Qd} (h : s.Good S) {sched : List Nat} (hs : s.Safe sched) :
    (s.run sched).Good (((s.order sched).map Prod.snd).foldl DThOp.onQuads S) ∧ ∀ k,
      s.coming k = ((s.order sched).filter (fun x => x.1 = k)).map Prod.snd ++ (s.run sched).coming k ∧
      ((s.run sched).threads k).outs ++ (s.run sched).pend k = (s.threads k).outs ++ s.pend k ++ DThOp.outcomes k S (s.order sched) := by
  induction sched generalizing s S with
  | nil => exact ⟨h, fun k => by simp [DSys.run, DSys.order, DThOp.outcomes]⟩
  | cons j sched ih =>
    obtain ⟨h1, h2⟩ := ih (h.step hs.1) hs.2
    refine ⟨?_, fun k => ?_⟩
    · show ((s.step j).run sched).Good (((s.begins j ++ (s.step j).order sched).map Prod.snd).foldl DThOp.onQuads S)
      rw [List.map_append, List.foldl_append]; exact h1
    · obtain ⟨h3, h4⟩ := h2 k
      obtain ⟨h5, h6⟩ := h.linear j k
      refine ⟨?_, ?_⟩
      · rw [h5, h3]
        show _ = ((s.begins j ++ (s.step j).order sched).filter _).map _ ++ ((s.step j).run sched).coming k
        simp
      · rw [show s.run (j :: sched) = (s.step j).run sched from rfl, h4, h6]
        show _ = _ ++ DThOp.outcomes k S (s.begins j ++ (s.step j).order sched)
        rw [DThOp.outcomes_append]; simp

theorem DSys.Good.new {ops : Nat → List DThOp} (ho : ∀ j, ∀ op ∈ ops j, ∃ a : QAct, op = a.op) : (DSys.new ops).Good ∅ := by
  refine ⟨fun _ => .new _ (by simp), by simp [DSys.new, Dict.WF, Dict.keys], fun e => (by cases e), fun e => (by cases e), fun e => (by cases e), fun q => ?_, ho, fun _ _ => trivial, fun _ _ _ => ⟨rfl, rfl⟩,
    fun _ _ _ _ _ _ _ _ _ _ e => by cases e⟩
  simp [DSys.new]

/-- A dataset between calls, and threads about to run. -/
theorem DSys.Ok.restart {s : DSys} {S : Finset Qd} (h : s.Good S) (hi : ∀ j, (s.threads j).pc = .idle) {ops : Nat → List DThOp} (ho : ∀ j, ∀ op ∈ ops j, ∃ a : QAct, op = a.op) :
    (s.restart ops).Good S := by
  refine ⟨fun i => ?_, h.wf, h.lt, h.inj, h.uri, h.mem, ho, fun _ _ => trivial, fun _ _ _ => ⟨rfl, rfl⟩, fun _ _ _ _ _ _ _ _ _ _ e => by cases e⟩
  exact (h.good i).start (fun j => (h.rest j i (fun _ op e => by rw [hi] at e; cases e)).1) (by simp)

theorem DSys.Ok.rep {s : DSys} {S : Finset Qd} (h : s.Good S) (hi : ∀ j, (s.threads j).pc = .idle) : Dataset.Rep s.dataset S :=
  ⟨h.wf, h.lt, h.inj, fun {_ i} _ => (h.good i).inv (fun j => (h.rest j i (fun _ op e => by rw [hi] at e; cases e)).1), h.uri, h.mem⟩

end Verif
