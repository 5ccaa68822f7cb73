import Verif.Lemmas.GraphThreadsSpec
import Verif.Lemmas.Dataset
import Verif.Model.DatasetThreads
/-
Threads on one Dataset: an invariant of runs in which no two threads make the same graph.
-/
namespace Verif
open Spec

/-- The call of the model. -/
def Spec.QAct.op : QAct → DThOp
  | .add q => .add q.g (mkTriple q.s q.p q.o)
  | .remove q => .remove q.g (mkTriple q.s q.p q.o)

theorem QAct.op_inj {a b : QAct} (h : a.op = b.op) : a = b := by
  cases a <;> cases b <;> simp [QAct.op, mkTriple] at h ⊢ <;> rename_i q q' <;> cases q <;> cases q' <;> simp_all

theorem QAct.op_name (a : QAct) : a.op.name = a.quad.g := by cases a <;> rfl

theorem QAct.op_stmt (a : QAct) : a.op.op.stmt = mkTriple a.quad.s a.quad.p a.quad.o := by cases a <;> rfl

theorem QAct.op_g (a : QAct) : a.op.op.stmt.g = none := by cases a <;> rfl

/-! ### One graph -/

theorem SharedGraph.step_uri (sh : SharedGraph) (th : GThread) : (sh.step th).1.uri = sh.uri := by
  obtain ⟨pc, todo, outs⟩ := th
  cases pc with
  | idle =>
    cases todo with
    | nil => rfl
    | cons op todo =>
      cases op with
      | add t => rfl
      | remove t => simp only [step]; split <;> rfl
  | look1 op w => simp only [step]; split <;> rfl
  | store1 op w r => rfl
  | look2 op w cur => simp only [step]; split <;> rfl
  | store2 op w cur r => rfl
  | last op w cur =>
    cases op with
    | add t => rfl
    | remove t => simp only [step]; split <;> rfl

/-- The thread is in the call or about to begin it, and has no other to make. -/
def InCall (th : GThread) (op : ThOp) : Prop := (th.pc = .idle ∧ th.todo = [op]) ∨ ((∃ w, th.pc.at = some (op, w)) ∧ th.todo = [])

theorem Pc.at_none {pc : Pc} (h : pc.at = none) : pc = .idle := by cases pc <;> first | rfl | cases h

theorem InCall.now {th : GThread} {op op' : ThOp} (h : InCall th op) (hn : th.now = some op') : op' = op := by
  unfold GThread.now at hn
  rcases h with ⟨h1, h2⟩ | ⟨⟨w, h1⟩, -⟩
  · rw [h1, h2] at hn; cases hn; rfl
  · rw [h1] at hn; cases hn; rfl

theorem InCall.step {th : GThread} {op : ThOp} (h : InCall th op) (sh : SharedGraph) :
    (sh.step th).2.todo = [] ∧ ((sh.step th).2.pc = .idle ∨ ∃ w, (sh.step th).2.pc.at = some (op, w)) := by
  refine ⟨?_, ?_⟩
  · rcases sh.step_begins th with ⟨h0, op', rest, h1, h2, -⟩ | ⟨h0, h2, -⟩
    · rcases h with ⟨-, h4⟩ | ⟨-, h4⟩
      · rw [h4] at h1; cases h1; exact h2
      · rw [h4] at h1; cases h1
    · rcases h with ⟨h3, h4⟩ | ⟨-, h4⟩
      · exact absurd ⟨h3, by rw [h4]; simp⟩ h0
      · rw [h2, h4]
  · cases e : (sh.step th).2.pc.at with
    | none => exact Or.inl (Pc.at_none e)
    | some x =>
      obtain ⟨op', w⟩ := x
      right
      have : op' = op := by
        obtain ⟨pc, todo, outs⟩ := th
        have adv : ∀ (th : GThread) op1 w1, (th.advance op1 w1).pc.at = some (op', w) → op1 = op' := fun th op1 w1 e => (th.at_advance e).symm
        rcases h with ⟨rfl, h2⟩ | ⟨⟨w', h1⟩, -⟩
        · change todo = [op] at h2
          subst h2
          cases op with
          | add t => cases e; rfl
          | remove t =>
            simp only [SharedGraph.step] at e
            split at e
            · cases e; rfl
            · cases e
        · change pc.at = some (op, w') at h1
          cases pc with
          | idle => cases h1
          | look1 op1 w1 =>
            cases h1
            simp only [SharedGraph.step] at e
            split at e <;> cases e <;> rfl
          | store1 op1 w1 r => cases h1; cases e; rfl
          | look2 op1 w1 cur =>
            cases h1
            simp only [SharedGraph.step] at e
            split at e <;> cases e <;> rfl
          | store2 op1 w1 cur r => cases h1; cases e; rfl
          | last op1 w1 cur =>
            cases h1
            cases op with
            | add t => exact (adv _ _ _ e).symm
            | remove t =>
              simp only [SharedGraph.step] at e
              split at e
              · exact (adv _ _ _ e).symm
              · cases e
      exact ⟨w, by rw [this]⟩

theorem GSys.push_pc (s : GSys) (j : Nat) (op : ThOp) (k : Nat) : ((s.push j op).threads k).pc = (s.threads k).pc := by
  simp only [GSys.push]; split <;> rfl

theorem GSys.push_other (s : GSys) {j : Nat} (op : ThOp) {k : Nat} (h : k ≠ j) : (s.push j op).threads k = s.threads k := by simp [GSys.push, h]

theorem GSys.push_self (s : GSys) (j : Nat) (op : ThOp) : (s.push j op).threads j = { s.threads j with todo := (s.threads j).todo ++ [op] } := by simp [GSys.push]

theorem GSys.Good.push {s : GSys} (h : s.Good) {j : Nat} {op : ThOp} (ho : op.stmt.g = none) : (s.push j op).Good := by
  have e := GSys.push_pc s j op
  refine ⟨⟨h.shaped.heap, fun i => by rw [e]; exact h.shaped.pcs i⟩, fun i => by rw [e]; exact h.links i, h.nodup, h.tri, fun i op' h' => ?_,
    fun i op' w => by rw [e]; exact h.cur i op' w, fun w t hf => ?_, fun t ht w => ?_, fun i w t => by rw [e]; exact h.c3 i w t, fun i w t => by rw [e]; exact h.c4 i w t⟩
  · by_cases ei : i = j
    · subst ei
      rw [GSys.push_self] at h'
      rcases List.mem_append.1 h' with h1 | h1
      · exact h.ops i op' h1
      · rw [List.mem_singleton] at h1; rw [h1]; exact ho
    · rw [GSys.push_other s op ei] at h'; exact h.ops i op' h'
  · rcases h.c1 w t hf with h1 | ⟨i, h1⟩
    exacts [Or.inl h1, Or.inr ⟨i, by rw [e]; exact h1⟩]
  · rcases h.c2 t ht w with h1 | ⟨i, h1⟩
    exacts [Or.inl h1, Or.inr ⟨i, by rw [e]; exact h1⟩]

theorem GSys.Good.setUri {s : GSys} (h : s.Good) (u : Term) : (s.setUri u).Good :=
  ⟨⟨⟨h.shaped.heap.wf, h.shaped.heap.placed⟩, h.shaped.pcs⟩, fun i => by have := h.links i; revert this; show Linked _ (s.threads i).pc → Linked _ (s.threads i).pc; cases (s.threads i).pc <;> exact id,
    h.nodup, h.tri, h.ops, h.cur, h.c1, h.c2, h.c3, h.c4⟩

/-! ### The invariant -/

/-- Where a thread is agrees with the dataset. -/
def DSys.AtOk (s : DSys) (j : Nat) : DPc → Prop
  | .idle => True
  | .look op again => (∃ a : QAct, op = a.op) ∧ (again = true → ∃ i, s.names.get? op.name = some i ∧ (s.graphs i).sh.uri = op.name)
  | .made op again i => (∃ a : QAct, op = a.op) ∧ again = false ∧ s.names.get? op.name = none ∧ i < s.next ∧ (s.graphs i).sh.triples = [] ∧ ∀ n, s.names.get? n ≠ some i
  | .got op i => (∃ a : QAct, op = a.op) ∧ s.names.get? op.name = some i
  | .inside op i => (∃ a : QAct, op = a.op) ∧ s.names.get? op.name = some i ∧ (∀ n t, op = .add n t → (s.graphs i).sh.uri = n) ∧ InCall ((s.graphs i).threads j) op.op

/-- The dataset holds the quads of `S`, and the threads of `K` are where they can be; the others are in no graph. -/
structure DSys.Ok (s : DSys) (S : Finset Qd) (K : Nat → Prop) : Prop where
  good : ∀ i, (s.graphs i).Good
  wf : s.names.WF
  lt : ∀ {n i}, s.names.get? n = some i → i < s.next
  inj : ∀ {n n' i}, s.names.get? n = some i → s.names.get? n' = some i → n = n'
  uri : ∀ {n i}, s.names.get? n = some i → (s.graphs i).sh.triples ≠ [] → (s.graphs i).sh.uri = n
  mem : ∀ q : Qd, q ∈ S ↔ ∃ i, s.names.get? q.g = some i ∧ mkTriple q.s q.p q.o ∈ (s.graphs i).sh.triples
  todo : ∀ j, ∀ op ∈ (s.threads j).todo, ∃ a : QAct, op = a.op
  atOk : ∀ j, K j → s.AtOk j (s.threads j).pc
  rest : ∀ j i, (K j → ∀ op, (s.threads j).pc ≠ .inside op i) → ((s.graphs i).threads j).pc = .idle ∧ ((s.graphs i).threads j).todo = []
  fresh : ∀ j k, K j → K k → j ≠ k → ∀ op a i op' a', (s.threads j).pc = .made op a i → (s.threads k).pc ≠ .made op' a' i

abbrev DSys.Good (s : DSys) (S : Finset Qd) : Prop := s.Ok S (fun _ => True)

theorem DSys.AtOk.mono {s s' : DSys} {k : Nat} {pc : DPc} (h : s.AtOk k pc) (h1 : ∀ n i, s.names.get? n = some i → s'.names.get? n = some i) (h2 : s.next ≤ s'.next)
    (h3 : ∀ op a i, pc = .made op a i → s'.names.get? op.name = none ∧ (∀ n, s'.names.get? n ≠ some i) ∧ (s'.graphs i).sh.triples = [])
    (h4 : ∀ n i, s.names.get? n = some i → ((s.graphs i).sh.uri = n → (s'.graphs i).sh.uri = n) ∧ (s'.graphs i).threads k = (s.graphs i).threads k) : s'.AtOk k pc := by
  cases pc with
  | idle => trivial
  | look op again =>
    refine ⟨h.1, fun e => ?_⟩
    obtain ⟨i, h5, h6⟩ := h.2 e
    exact ⟨i, h1 _ _ h5, (h4 _ _ h5).1 h6⟩
  | made op again i =>
    obtain ⟨h5, h6, -, h7, -⟩ := h
    obtain ⟨h8, h9, h10⟩ := h3 _ _ _ rfl
    exact ⟨h5, h6, h8, lt_of_lt_of_le h7 h2, h10, h9⟩
  | got op i => exact ⟨h.1, h1 _ _ h.2⟩
  | inside op i =>
    obtain ⟨h5, h6, h7, h8⟩ := h
    refine ⟨h5, h1 _ _ h6, fun n t e => ?_, by rw [(h4 _ _ h6).2]; exact h8⟩
    subst e
    exact (h4 _ _ h6).1 (h7 _ _ rfl)

theorem DSys.setThread_self (s : DSys) (j : Nat) (th : DThread) : (s.setThread j th).threads j = th := by simp [DSys.setThread]
theorem DSys.setThread_other (s : DSys) {j k : Nat} (th : DThread) (h : k ≠ j) : (s.setThread j th).threads k = s.threads k := by simp [DSys.setThread, h]
theorem DSys.setGraph_self (s : DSys) (i : Nat) (g : GSys) : (s.setGraph i g).graphs i = g := by simp [DSys.setGraph]
theorem DSys.setGraph_other (s : DSys) {i k : Nat} (g : GSys) (h : k ≠ i) : (s.setGraph i g).graphs k = s.graphs k := by simp [DSys.setGraph, h]

/-- Leave out a thread that is in no graph. -/
theorem DSys.Ok.out {s : DSys} {S : Finset Qd} (h : s.Good S) {j : Nat} (hi : ∀ op i, (s.threads j).pc ≠ .inside op i) : s.Ok S (· ≠ j) := by
  refine ⟨h.good, h.wf, h.lt, h.inj, h.uri, h.mem, h.todo, fun k _ => h.atOk k trivial, fun k i hk => h.rest k i (fun _ op => ?_), fun k k' _ _ => h.fresh k k' trivial trivial⟩
  by_cases e : k = j
  · subst e; exact hi op i
  · exact hk e op

/-- Move a thread. -/
theorem DSys.Ok.setThread {s : DSys} {S : Finset Qd} {j : Nat} (h : s.Ok S (· ≠ j)) {th : DThread} (ht : ∀ op ∈ th.todo, ∃ a : QAct, op = a.op) (ha : s.AtOk j th.pc)
    (hi : ∀ op i, th.pc ≠ .inside op i) (hf : ∀ op a i, th.pc = .made op a i → ∀ k, k ≠ j → ∀ op' a', (s.threads k).pc ≠ .made op' a' i) : (s.setThread j th).Good S := by
  refine ⟨h.good, h.wf, h.lt, h.inj, h.uri, h.mem, fun k => ?_, fun k _ => ?_, fun k i hk => ?_, fun k k' _ _ hne op a i op' a' h1 h2 => ?_⟩
  · by_cases e : k = j
    · subst e; rw [setThread_self]; exact ht
    · rw [setThread_other s th e]; exact h.todo k
  · by_cases e : k = j
    · subst e; rw [setThread_self]; exact ha
    · rw [setThread_other s th e]; exact h.atOk k e
  · refine h.rest k i (fun e op => ?_)
    have := hk trivial op
    rwa [setThread_other s th e] at this
  · by_cases e : k = j
    · subst e
      rw [setThread_self] at h1
      rw [setThread_other s th (Ne.symm hne)] at h2
      exact hf _ _ _ h1 k' (Ne.symm hne) _ _ h2
    · rw [setThread_other s th e] at h1
      by_cases e' : k' = j
      · subst e'
        rw [setThread_self] at h2
        exact hf _ _ _ h2 k hne _ _ h1
      · rw [setThread_other s th e'] at h2
        exact h.fresh k k' e e' hne _ _ _ _ _ h1 h2

/-- A thread calls a method of a graph. -/
theorem DSys.Ok.call {s : DSys} {S : Finset Qd} {j : Nat} (h : s.Ok S (· ≠ j)) {th : DThread} (ht : ∀ op ∈ th.todo, ∃ a : QAct, op = a.op) {op : DThOp} (ho : ∃ a : QAct, op = a.op)
    {i : Nat} (hn : s.names.get? op.name = some i) (hu : ∀ n t, op = .add n t → (s.graphs i).sh.uri = n) (hp : th.pc = .inside op i) :
    ((s.setGraph i ((s.graphs i).push j op.op)).setThread j th).Good S := by
  have sh : ∀ i', ((s.setGraph i ((s.graphs i).push j op.op)).graphs i').sh = (s.graphs i').sh := by
    intro i'
    by_cases e : i' = i
    · subst e; rw [setGraph_self]; rfl
    · rw [setGraph_other s _ e]
  have th' : ∀ i' k, k ≠ j → ((s.setGraph i ((s.graphs i).push j op.op)).graphs i').threads k = (s.graphs i').threads k := by
    intro i' k hk
    by_cases e : i' = i
    · subst e; rw [setGraph_self, GSys.push_other _ _ hk]
    · rw [setGraph_other s _ e]
  refine ⟨fun i' => ?_, h.wf, h.lt, h.inj, fun {n i'} h1 h2 => ?_, fun q => ?_, fun k => ?_, fun k _ => ?_, fun k i' hk => ?_, fun k k' _ _ hne op1 a i1 op' a' h1 h2 => ?_⟩
  · show ((s.setGraph i ((s.graphs i).push j op.op)).graphs i').Good
    by_cases e : i' = i
    · subst e; rw [setGraph_self]; obtain ⟨a, rfl⟩ := ho; exact (h.good i').push (QAct.op_g a)
    · rw [setGraph_other s _ e]; exact h.good i'
  · have h2 : ((s.setGraph i ((s.graphs i).push j op.op)).graphs i').sh.triples ≠ [] := h2
    show ((s.setGraph i ((s.graphs i).push j op.op)).graphs i').sh.uri = n
    rw [sh] at h2 ⊢
    exact h.uri h1 h2
  · rw [h.mem q]
    refine exists_congr fun i' => and_congr_right fun _ => ?_
    show _ ↔ _ ∈ ((s.setGraph i ((s.graphs i).push j op.op)).graphs i').sh.triples
    rw [sh]
  · by_cases e : k = j
    · subst e; rw [setThread_self]; exact ht
    · rw [setThread_other _ th e]; exact h.todo k
  · by_cases e : k = j
    · subst e
      rw [setThread_self, hp]
      refine ⟨ho, hn, fun n t e => ?_, Or.inl ?_⟩
      · show ((s.setGraph i ((s.graphs i).push k op.op)).graphs i).sh.uri = n
        rw [sh]; exact hu n t e
      · show (((s.setGraph i ((s.graphs i).push k op.op)).graphs i).threads k).pc = _ ∧ (((s.setGraph i ((s.graphs i).push k op.op)).graphs i).threads k).todo = _
        obtain ⟨h1, h2⟩ := h.rest k i (fun e => absurd rfl e)
        rw [setGraph_self, GSys.push_self]
        exact ⟨h1, by simp [h2]⟩
    · rw [setThread_other _ th e]
      refine (h.atOk k e).mono (s' := (s.setGraph i ((s.graphs i).push j op.op)).setThread j th) (fun _ _ => id) (le_refl _) (fun op1 a i1 e1 => ?_) (fun n i' h1 => ?_)
      · have := h.atOk k e
        change s.AtOk k (s.threads k).pc at this
        change (s.threads k).pc = _ at e1
        rw [e1] at this
        obtain ⟨-, -, h5, -, h6, h7⟩ := this
        exact ⟨h5, h7, by show ((s.setGraph i ((s.graphs i).push j op.op)).graphs i1).sh.triples = []; rw [sh]; exact h6⟩
      · refine ⟨fun h2 => ?_, th' i' k e⟩
        show ((s.setGraph i ((s.graphs i).push j op.op)).graphs i').sh.uri = n
        rw [sh]; exact h2
  · show (((s.setGraph i ((s.graphs i).push j op.op)).graphs i').threads k).pc = _ ∧ (((s.setGraph i ((s.graphs i).push j op.op)).graphs i').threads k).todo = _
    by_cases e : k = j
    · subst e
      by_cases ei : i' = i
      · subst ei
        exact absurd (by rw [setThread_self]; exact hp) (hk trivial op)
      · rw [setGraph_other s _ ei]; exact h.rest k i' (fun e => absurd rfl e)
    · rw [th' i' k e]
      refine h.rest k i' (fun _ op' => ?_)
      have := hk trivial op'
      rwa [setThread_other _ th e] at this
  · by_cases e : k = j
    · subst e; rw [setThread_self, hp] at h1; cases h1
    · rw [setThread_other _ th e] at h1
      by_cases e' : k' = j
      · subst e'; rw [setThread_self, hp] at h2; cases h2
      · rw [setThread_other _ th e'] at h2
        exact h.fresh k k' e e' hne _ _ _ _ _ h1 h2

/-- A thread has got hold of the graph. -/
theorem DSys.Ok.enter {s : DSys} {S : Finset Qd} {j : Nat} (h : s.Ok S (· ≠ j)) {op : DThOp} (ho : ∃ a : QAct, op = a.op) {again : Bool}
    {i : Nat} (hn : s.names.get? op.name = some i) (hu : again = true → (s.graphs i).sh.uri = op.name) : (s.enter j op again i).Good S := by
  have ht := h.todo j
  have key : (∀ n t, op = .add n t → (s.graphs i).sh.uri = n) → ((s.setGraph i ((s.graphs i).push j op.op)).setThread j { s.threads j with pc := .inside op i }).Good S :=
    fun hu' => h.call (th := { s.threads j with pc := .inside op i }) ht ho hn hu' rfl
  unfold DSys.enter
  cases op with
  | add n t =>
    cases again with
    | false => exact h.setThread (th := { s.threads j with pc := .got (.add n t) i }) ht ⟨ho, hn⟩ (fun _ _ e => by cases e) (fun _ _ _ e => by cases e)
    | true => exact key (fun n' t' e => by cases e; exact hu rfl)
  | remove n t => exact key (fun n' t' e => by cases e)

/-- `Graph()` is made. -/
theorem DSys.Ok.alloc {s : DSys} {S : Finset Qd} {j : Nat} (h : s.Ok S (· ≠ j)) : ({ (s.setGraph s.next GSys.new) with next := s.next + 1 } : DSys).Ok S (· ≠ j) := by
  have g : ∀ {n i}, s.names.get? n = some i → (s.setGraph s.next GSys.new).graphs i = s.graphs i := fun hn => setGraph_other s _ (by have := h.lt hn; omega)
  refine ⟨fun i => ?_, h.wf, fun hn => Nat.lt_succ_of_lt (h.lt hn), h.inj, fun {n i} h1 h2 => ?_, fun q => ?_, h.todo, fun k hk => ?_, fun k i hk => ?_, h.fresh⟩
  · show ((s.setGraph s.next GSys.new).graphs i).Good
    by_cases e : i = s.next
    · subst e; rw [setGraph_self]; exact .new _ (by simp)
    · rw [setGraph_other s _ e]; exact h.good i
  · change ((s.setGraph s.next GSys.new).graphs i).sh.triples ≠ [] at h2
    show ((s.setGraph s.next GSys.new).graphs i).sh.uri = n
    rw [g h1] at h2 ⊢
    exact h.uri h1 h2
  · rw [h.mem q]
    refine exists_congr fun i' => and_congr_right fun h1 => ?_
    show _ ↔ _ ∈ ((s.setGraph s.next GSys.new).graphs i').sh.triples
    rw [g h1]
  · have h0 := h.atOk k hk
    refine h0.mono (fun _ _ => id) (Nat.le_succ _) (fun op1 a i1 e1 => ?_) (fun n i' h1 => ?_)
    · change (s.threads k).pc = _ at e1
      rw [e1] at h0
      obtain ⟨-, -, h5, h8, h6, h7⟩ := h0
      exact ⟨h5, h7, by show ((s.setGraph s.next GSys.new).graphs i1).sh.triples = []; rw [setGraph_other s _ (by omega)]; exact h6⟩
    · show (_ → ((s.setGraph s.next GSys.new).graphs i').sh.uri = n) ∧ ((s.setGraph s.next GSys.new).graphs i').threads k = _
      rw [g h1]; exact ⟨id, rfl⟩
  · show (((s.setGraph s.next GSys.new).graphs i).threads k).pc = _ ∧ (((s.setGraph s.next GSys.new).graphs i).threads k).todo = _
    by_cases e : i = s.next
    · subst e; rw [setGraph_self]; exact ⟨rfl, rfl⟩
    · rw [setGraph_other s _ e]; exact h.rest k i hk

/-- The new graph is stored under its name. -/
theorem DSys.Ok.store {s : DSys} {S : Finset Qd} {j : Nat} (h : s.Ok S (· ≠ j)) {n : Term} {i : Nat} (hn : s.names.get? n = none) (hi : i < s.next) (he : (s.graphs i).sh.triples = [])
    (hr : ∀ n, s.names.get? n ≠ some i) (ho : ∀ k, k ≠ j → ∀ op a i', (s.threads k).pc = .made op a i' → op.name ≠ n ∧ i' ≠ i) : ({ s with names := s.names.set n i } : DSys).Ok S (· ≠ j) := by
  have get : ∀ n', (s.names.set n i).get? n' = if n = n' then some i else s.names.get? n' := fun n' => by rw [Dict.get?_set]
  refine ⟨h.good, h.wf.set _ _, fun {n' i'} h1 => ?_, fun {n1 n2 i'} h1 h2 => ?_, fun {n' i'} h1 h2 => ?_, fun q => ?_, h.todo, fun k hk => ?_, h.rest, h.fresh⟩
  · change (s.names.set n i).get? n' = _ at h1
    rw [get] at h1
    split at h1
    · cases h1; exact hi
    · exact h.lt h1
  · change (s.names.set n i).get? _ = _ at h1 h2
    rw [get] at h1 h2
    split at h1 <;> split at h2
    · simp_all
    · cases h1; exact absurd h2 (hr _)
    · cases h2; exact absurd h1 (hr _)
    · exact h.inj h1 h2
  · change (s.names.set n i).get? _ = _ at h1
    rw [get] at h1
    split at h1
    · cases h1; exact absurd he h2
    · exact h.uri h1 h2
  · rw [h.mem q]
    show _ ↔ ∃ i', (s.names.set n i).get? q.g = some i' ∧ _
    rw [get]
    split
    · next e =>
      subst e
      constructor
      · rintro ⟨i', h1, -⟩; rw [hn] at h1; cases h1
      · rintro ⟨i', h1, h2⟩
        cases h1
        change _ ∈ (s.graphs i).sh.triples at h2
        rw [he] at h2; cases h2
    · rfl
  · have h0 := h.atOk k hk
    refine h0.mono (fun n' i' h1 => ?_) (le_refl _) (fun op1 a i1 e1 => ?_) (fun n i' h1 => ⟨id, rfl⟩)
    · show (s.names.set n i).get? _ = _
      rw [get, if_neg (fun e => by subst e; rw [hn] at h1; cases h1)]; exact h1
    · change (s.threads k).pc = _ at e1
      rw [e1] at h0
      obtain ⟨-, -, h5, h8, h6, h7⟩ := h0
      obtain ⟨h9, h10⟩ := ho k hk _ _ _ e1
      refine ⟨?_, fun n' => ?_, h6⟩
      · show (s.names.set n i).get? _ = _
        rw [get, if_neg (Ne.symm h9)]; exact h5
      · show (s.names.set n i).get? _ ≠ _
        rw [get]
        split
        · intro e; cases e; exact h10 rfl
        · exact h7 n'

/-- `graph._uri = n` -/
theorem DSys.Ok.setUri {s : DSys} {S : Finset Qd} {j : Nat} (h : s.Ok S (· ≠ j)) {n : Term} {i : Nat} (hn : s.names.get? n = some i) :
    (s.setGraph i ((s.graphs i).setUri n)).Ok S (· ≠ j) := by
  have tr : ∀ i', ((s.setGraph i ((s.graphs i).setUri n)).graphs i').sh.triples = (s.graphs i').sh.triples := by
    intro i'
    by_cases e : i' = i
    · subst e; rw [setGraph_self]; rfl
    · rw [setGraph_other s _ e]
  have th' : ∀ i', ((s.setGraph i ((s.graphs i).setUri n)).graphs i').threads = (s.graphs i').threads := by
    intro i'
    by_cases e : i' = i
    · subst e; rw [setGraph_self]; rfl
    · rw [setGraph_other s _ e]
  have ur : ∀ {n' i'}, s.names.get? n' = some i' → (s.graphs i').sh.uri = n' → ((s.setGraph i ((s.graphs i).setUri n)).graphs i').sh.uri = n' := by
    intro n' i' h1 h2
    by_cases e : i' = i
    · subst e; rw [setGraph_self, h.inj h1 hn]; rfl
    · rw [setGraph_other s _ e]; exact h2
  refine ⟨fun i' => ?_, h.wf, h.lt, h.inj, fun {n' i'} h1 h2 => ?_, fun q => ?_, h.todo, fun k hk => ?_, fun k i' hk => by rw [th']; exact h.rest k i' hk, h.fresh⟩
  · by_cases e : i' = i
    · subst e; rw [setGraph_self]; exact (h.good i').setUri n
    · rw [setGraph_other s _ e]; exact h.good i'
  · rw [tr] at h2
    exact ur h1 (h.uri h1 h2)
  · rw [h.mem q]
    refine exists_congr fun i' => and_congr_right fun h1 => ?_
    rw [tr]
  · have h0 := h.atOk k hk
    refine h0.mono (fun _ _ => id) (le_refl _) (fun op1 a i1 e1 => ?_) (fun n' i' h1 => ⟨ur h1, by rw [th']⟩)
    change (s.threads k).pc = _ at e1
    rw [e1] at h0
    obtain ⟨-, -, h5, -, h6, h7⟩ := h0
    exact ⟨h5, h7, by rw [tr]; exact h6⟩

/-! ### Steps -/

/-- The call a thread is in. -/
def DPc.at : DPc → Option DThOp
  | .idle => none
  | .look op _ => some op
  | .made op _ _ => some op
  | .got op _ => some op
  | .inside op _ => some op

/-- The step of the thread does not clash with a call that another thread is in: the graph is there, and the calls do not clash in it. -/
def DSys.Clear (s : DSys) (j : Nat) : Prop :=
  ∀ k, k ≠ j → ∀ op op', (s.threads j).pc.at = some op → (s.threads k).pc.at = some op' → op.name = op'.name →
    ∃ i, s.names.get? op.name = some i ∧ Compat (s.graphs i).sh op.op op'.op

/-- What a call does to the quads. -/
def DThOp.onQuads (S : Finset Qd) : DThOp → Finset Qd
  | .add n t => insert ⟨t.s, t.p, t.o, n⟩ S
  | .remove n t => S.erase ⟨t.s, t.p, t.o, n⟩

theorem QAct.op_onQuads (a : QAct) (S : Finset Qd) : a.op.onQuads S = a.apply S := by cases a <;> rfl

/-- What a step begins: the call takes effect on `_triples` of the graph. -/
def DSys.begins (s : DSys) (j : Nat) : List (Nat × DThOp) :=
  match (s.threads j).pc with
  | .inside op i => if ((s.graphs i).threads j).pc = .idle then [(j, op)] else []
  | _ => []

/-- A step in a graph. -/
theorem DSys.Ok.inside {s : DSys} {S : Finset Qd} (h : s.Good S) {j : Nat} (hc : s.Clear j) {op : DThOp} {i : Nat} (hp : (s.threads j).pc = .inside op i) {th : DThread}
    (ht : th.todo = (s.threads j).todo) (hpc : th.pc = if (((s.graphs i).step j).threads j).pc = .idle then .idle else .inside op i) :
    ((s.setGraph i ((s.graphs i).step j)).setThread j th).Good (((s.begins j).map Prod.snd).foldl DThOp.onQuads S) := by
  have h0 := h.atOk j trivial
  rw [hp] at h0
  obtain ⟨⟨a, ha⟩, hn, hu, hin⟩ := h0
  have hg : ((s.graphs i).step j).Good := by
    refine (h.good i).step j (fun k hk op1 op2 w' h1 h2 => ?_)
    rw [hin.now h1]
    have hk2 : ∃ op', (s.threads k).pc = .inside op' i := by
      by_contra hne
      rw [(h.rest k i (fun _ op' e => hne ⟨op', e⟩)).1] at h2; cases h2
    obtain ⟨op', e'⟩ := hk2
    have h3 := h.atOk k trivial
    rw [e'] at h3
    obtain ⟨-, h4, -, h5⟩ := h3
    obtain ⟨i', h6, h7⟩ := hc k hk op op' (by rw [hp]; rfl) (by rw [e']; rfl) (h.inj hn h4)
    rw [hn] at h6; cases h6
    have : op2 = op'.op := h5.now (by unfold GThread.now; rw [h2])
    rw [this]; exact h7
  have ur : ∀ i', ((s.setGraph i ((s.graphs i).step j)).graphs i').sh.uri = (s.graphs i').sh.uri := by
    intro i'
    by_cases e : i' = i
    · subst e; rw [setGraph_self]; exact SharedGraph.step_uri _ _
    · rw [setGraph_other s _ e]
  have oth : ∀ i' k, k ≠ j → ((s.setGraph i ((s.graphs i).step j)).graphs i').threads k = (s.graphs i').threads k := by
    intro i' k hk
    by_cases e : i' = i
    · subst e; rw [setGraph_self, GSys.step_other _ hk]
    · rw [setGraph_other s _ e]
  obtain ⟨st, sp⟩ := hin.step (s.graphs i).sh
  have tr : ((s.begins j = [(j, op)] ∧ ((s.graphs i).step j).sh.triples = op.op.onSet (s.graphs i).sh.triples) ∨
      (s.begins j = [] ∧ ((s.graphs i).step j).sh.triples = (s.graphs i).sh.triples)) := by
    unfold DSys.begins
    rw [hp]
    rcases (s.graphs i).sh.step_begins ((s.graphs i).threads j) with ⟨h1, op', rest, h2, -, h3⟩ | ⟨h1, -, h3⟩
    · left
      refine ⟨by simp [h1], ?_⟩
      rcases hin with ⟨-, h4⟩ | ⟨⟨w, h4⟩, -⟩
      · rw [h4] at h2; cases h2; exact h3
      · rw [h1] at h4; cases h4
    · right
      refine ⟨?_, h3⟩
      rcases hin with ⟨h4, h5⟩ | ⟨⟨w, h4⟩, -⟩
      · exact absurd ⟨h4, by rw [h5]; simp⟩ h1
      · have : ((s.graphs i).threads j).pc ≠ .idle := fun e => by rw [e] at h4; cases h4
        simp [this]
  refine ⟨fun i' => ?_, h.wf, h.lt, h.inj, fun {n' i'} h1 h2 => ?_, fun q => ?_, fun k => ?_, fun k _ => ?_, fun k i' hk => ?_, fun k k' _ _ hne op1 a i1 op' a' h1 h2 => ?_⟩
  · show ((s.setGraph i ((s.graphs i).step j)).graphs i').Good
    by_cases e : i' = i
    · subst e; rw [setGraph_self]; exact hg
    · rw [setGraph_other s _ e]; exact h.good i'
  · show ((s.setGraph i ((s.graphs i).step j)).graphs i').sh.uri = n'
    change ((s.setGraph i ((s.graphs i).step j)).graphs i').sh.triples ≠ [] at h2
    rw [ur]
    by_cases e : i' = i
    · subst e
      rw [setGraph_self] at h2
      obtain rfl := h.inj hn h1
      rcases tr with ⟨-, h3⟩ | ⟨-, h3⟩
      · rw [h3] at h2
        cases a with
        | add q => subst ha; exact hu _ _ rfl
        | remove q =>
          refine h.uri h1 (fun e => h2 ?_)
          rw [ha, e]; rfl
      · rw [h3] at h2; exact h.uri h1 h2
    · rw [setGraph_other s _ e] at h2; exact h.uri h1 h2
  · show _ ↔ ∃ i', s.names.get? q.g = some i' ∧ _ ∈ ((s.setGraph i ((s.graphs i).step j)).graphs i').sh.triples
    rcases tr with ⟨h2, h3⟩ | ⟨h2, h3⟩
    · rw [h2]
      show q ∈ op.onQuads S ↔ _
      have other : q.g ≠ op.name → ((∃ i', s.names.get? q.g = some i' ∧ mkTriple q.s q.p q.o ∈ ((s.setGraph i ((s.graphs i).step j)).graphs i').sh.triples) ↔ q ∈ S) := by
        intro hq
        rw [h.mem q]
        refine exists_congr fun i' => and_congr_right fun h1 => ?_
        rw [setGraph_other s _ (fun e => hq (by subst e; exact h.inj h1 hn))]
      have same : q.g = op.name → ((∃ i', s.names.get? q.g = some i' ∧ mkTriple q.s q.p q.o ∈ ((s.setGraph i ((s.graphs i).step j)).graphs i').sh.triples) ↔
          mkTriple q.s q.p q.o ∈ op.op.onSet (s.graphs i).sh.triples) := by
        intro hq
        rw [hq, hn, ← h3]
        constructor
        · rintro ⟨i', h1, h4⟩; cases h1; rwa [setGraph_self] at h4
        · intro h4; exact ⟨i, rfl, by rwa [setGraph_self]⟩
      have mem' : q.g = op.name → (q ∈ S ↔ mkTriple q.s q.p q.o ∈ (s.graphs i).sh.triples) := by
        intro hq
        rw [h.mem q, hq, hn]
        constructor
        · rintro ⟨i', h1, h4⟩; cases h1; exact h4
        · intro h4; exact ⟨i, rfl, h4⟩
      subst ha
      have tri : ∀ q' : Qd, mkTriple q.s q.p q.o = mkTriple q'.s q'.p q'.o → q.g = q'.g → q = q' := by
        intro q' e1 e2; cases q; cases q'; simp [mkTriple] at e1; simp_all
      by_cases hq : q.g = a.op.name
      · rw [same hq, QAct.op_onQuads]
        have hq' : q.g = a.quad.g := hq.trans (QAct.op_name a)
        cases a with
        | add q' =>
          show q ∈ insert q' S ↔ mkTriple q.s q.p q.o ∈ Graph.setAdd (s.graphs i).sh.triples (mkTriple q'.s q'.p q'.o)
          rw [Finset.mem_insert, mem' hq]
          unfold Graph.setAdd
          split
          · next hm =>
            constructor
            · rintro (rfl | h4)
              exacts [hm, h4]
            · exact Or.inr
          · rw [List.mem_append, List.mem_singleton]
            constructor
            · rintro (rfl | h4)
              exacts [Or.inr rfl, Or.inl h4]
            · rintro (h4 | h4)
              exacts [Or.inr h4, Or.inl (tri q' h4 hq')]
        | remove q' =>
          show q ∈ S.erase q' ↔ mkTriple q.s q.p q.o ∈ (s.graphs i).sh.triples.erase (mkTriple q'.s q'.p q'.o)
          rw [Finset.mem_erase, (h.good i).nodup.mem_erase_iff, mem' hq]
          refine and_congr_left fun _ => ⟨fun h4 h5 => h4 (tri q' h5 hq'), fun h4 h5 => h4 (by rw [h5])⟩
      · rw [other hq, QAct.op_onQuads]
        have hq' : ∀ q' : Qd, q'.g = a.op.name → q ≠ q' := fun q' e e' => hq (e' ▸ e)
        cases a with
        | add q' =>
          show q ∈ insert q' S ↔ _
          rw [Finset.mem_insert]
          exact ⟨fun h4 => h4.resolve_left (hq' q' rfl), Or.inr⟩
        | remove q' =>
          show q ∈ S.erase q' ↔ _
          rw [Finset.mem_erase]
          exact ⟨fun h4 => h4.2, fun h4 => ⟨hq' q' rfl, h4⟩⟩
    · rw [h2]
      show q ∈ S ↔ _
      rw [h.mem q]
      refine exists_congr fun i' => and_congr_right fun h1 => ?_
      by_cases e : i' = i
      · subst e; rw [setGraph_self, h3]
      · rw [setGraph_other s _ e]
  · by_cases e : k = j
    · subst e; rw [setThread_self, ht]; exact h.todo k
    · rw [setThread_other _ th e]; exact h.todo k
  · by_cases e : k = j
    · subst e
      rw [setThread_self, hpc]
      split
      · trivial
      · next hne =>
        refine ⟨⟨a, ha⟩, hn, fun n t e => ?_, Or.inr ?_⟩
        · show ((s.setGraph i ((s.graphs i).step k)).graphs i).sh.uri = n
          rw [ur]; exact hu n t e
        · show (∃ w, (((s.setGraph i ((s.graphs i).step k)).graphs i).threads k).pc.at = _) ∧ (((s.setGraph i ((s.graphs i).step k)).graphs i).threads k).todo = _
          rw [setGraph_self]
          rw [GSys.step_self] at hne ⊢
          exact ⟨sp.resolve_left hne, st⟩
    · rw [setThread_other _ th e]
      have h0 := h.atOk k trivial
      refine h0.mono (s' := (s.setGraph i ((s.graphs i).step j)).setThread j th) (fun _ _ => id) (le_refl _) (fun op1 a i1 e1 => ?_) (fun n i' h1 => ?_)
      · change (s.threads k).pc = _ at e1
        rw [e1] at h0
        obtain ⟨-, -, h5, -, h6, h7⟩ := h0
        refine ⟨h5, h7, ?_⟩
        show ((s.setGraph i ((s.graphs i).step j)).graphs i1).sh.triples = []
        rw [setGraph_other s _ (fun e => by subst e; exact h7 _ hn)]; exact h6
      · refine ⟨fun h2 => ?_, oth i' k e⟩
        show ((s.setGraph i ((s.graphs i).step j)).graphs i').sh.uri = n
        rw [ur]; exact h2
  · show (((s.setGraph i ((s.graphs i).step j)).graphs i').threads k).pc = _ ∧ (((s.setGraph i ((s.graphs i).step j)).graphs i').threads k).todo = _
    by_cases e : k = j
    · subst e
      by_cases ei : i' = i
      · subst ei
        have := hk trivial op
        rw [setThread_self, hpc] at this
        rw [setGraph_self]
        split at this
        · next e => exact ⟨e, by rw [GSys.step_self]; exact st⟩
        · exact absurd rfl this
      · rw [setGraph_other s _ ei]
        refine h.rest k i' (fun _ op' e => ?_)
        rw [hp] at e; cases e; exact ei rfl
    · rw [oth i' k e]
      refine h.rest k i' (fun _ op' => ?_)
      have := hk trivial op'
      rwa [setThread_other _ th e] at this
  · have nm : ∀ op a i', th.pc ≠ .made op a i' := by intro op a i' e; rw [hpc] at e; split at e <;> cases e
    by_cases e : k = j
    · subst e; rw [setThread_self] at h1; exact nm _ _ _ h1
    · rw [setThread_other _ th e] at h1
      by_cases e' : k' = j
      · subst e'; rw [setThread_self] at h2; exact nm _ _ _ h2
      · rw [setThread_other _ th e'] at h2
        exact h.fresh k k' trivial trivial hne _ _ _ _ _ h1 h2

theorem DSys.setThread_eta (s : DSys) (j : Nat) : s.setThread j (s.threads j) = s := by
  unfold DSys.setThread
  congr 1
  funext k
  split
  · next e => rw [e]
  · rfl

/-- The step of a thread in a graph. -/
theorem DSys.step_inside {s : DSys} {S : Finset Qd} (h : s.Good S) {j : Nat} {op : DThOp} {i : Nat} (hp : (s.threads j).pc = .inside op i) :
    s.step j = (s.setGraph i ((s.graphs i).step j)).setThread j (if (((s.graphs i).step j).threads j).pc = .idle then
      { s.threads j with pc := .idle, outs := (s.threads j).outs ++ [(((s.graphs i).step j).threads j).outs.getLast?.getD (.ok ())] } else s.threads j) := by
  have h0 := h.atOk j trivial
  rw [hp] at h0
  have st : (((s.graphs i).step j).threads j).todo = [] := by rw [GSys.step_self]; exact (h0.2.2.2.step _).1
  unfold DSys.step
  simp only [hp, st, and_true]
  split
  · rfl
  · exact (setThread_eta (s.setGraph i ((s.graphs i).step j)) j).symm

theorem DSys.Ok.step {s : DSys} {S : Finset Qd} (h : s.Good S) {j : Nat} (hc : s.Clear j) : (s.step j).Good (((s.begins j).map Prod.snd).foldl DThOp.onQuads S) := by
  have h0 := h.atOk j trivial
  cases hp : (s.threads j).pc with
  | idle =>
    have hb : s.begins j = [] := by unfold DSys.begins; rw [hp]
    rw [hb]
    unfold DSys.step
    simp only [hp]
    cases ht : (s.threads j).todo with
    | nil => exact h
    | cons op todo =>
      have htd := h.todo j
      rw [ht] at htd
      exact (h.out (fun _ _ e => by rw [hp] at e; cases e)).setThread (th := { s.threads j with pc := .look op false, todo }) (fun op' h' => htd op' (List.mem_cons_of_mem _ h'))
        ⟨htd op (List.mem_cons_self ..), fun e => by cases e⟩ (fun _ _ e => by cases e) (fun _ _ _ e => by cases e)
  | look op again =>
    have hb : s.begins j = [] := by unfold DSys.begins; rw [hp]
    rw [hb]
    rw [hp] at h0
    have ho : s.Ok S (· ≠ j) := h.out (fun _ _ e => by rw [hp] at e; cases e)
    unfold DSys.step
    simp only [hp]
    cases hn : s.names.get? op.name with
    | some i =>
      refine ho.enter h0.1 hn (fun e => ?_)
      obtain ⟨i', h1, h2⟩ := h0.2 e
      rw [hn] at h1; cases h1; exact h2
    | none =>
      refine ho.alloc.setThread (th := { s.threads j with pc := .made op again s.next }) (h.todo j) ?_ (fun _ _ e => by cases e) (fun op' a i e k hk op'' a'' e' => ?_)
      · refine ⟨h0.1, ?_, hn, Nat.lt_succ_self _, ?_, fun n e => ?_⟩
        · cases again with
          | false => rfl
          | true => obtain ⟨i', h1, -⟩ := h0.2 rfl; rw [hn] at h1; cases h1
        · show ((s.setGraph s.next GSys.new).graphs s.next).sh.triples = []
          rw [setGraph_self]; rfl
        · exact absurd (h.lt e) (by show ¬ s.next < s.next; omega)
      · cases e
        have h5 := h.atOk k trivial
        change (s.threads k).pc = _ at e'
        rw [e'] at h5
        exact absurd h5.2.2.2.1 (by omega)
  | made op again i =>
    have hb : s.begins j = [] := by unfold DSys.begins; rw [hp]
    rw [hb]
    rw [hp] at h0
    obtain ⟨ha, rfl, hn, hi, he, hr⟩ := h0
    have ho : s.Ok S (· ≠ j) := h.out (fun _ _ e => by rw [hp] at e; cases e)
    unfold DSys.step
    simp only [hp]
    refine (ho.store hn hi he hr (fun k hk op' a i' e => ⟨fun e' => ?_, fun e' => ?_⟩)).enter ha (by show (s.names.set op.name i).get? op.name = some i; rw [Dict.get?_set]; simp) (fun e => by cases e)
    · obtain ⟨i'', h1, -⟩ := hc k hk op op' (by rw [hp]; rfl) (by rw [e]; rfl) e'.symm
      rw [hn] at h1; cases h1
    · subst e'
      exact h.fresh j k trivial trivial (Ne.symm hk) _ _ _ _ _ hp e
  | got op i =>
    have hb : s.begins j = [] := by unfold DSys.begins; rw [hp]
    rw [hb]
    rw [hp] at h0
    have ho : s.Ok S (· ≠ j) := h.out (fun _ _ e => by rw [hp] at e; cases e)
    unfold DSys.step
    simp only [hp]
    refine (ho.setUri h0.2).setThread (th := { s.threads j with pc := .look op true }) (h.todo j) ⟨h0.1, fun _ => ⟨i, h0.2, ?_⟩⟩ (fun _ _ e => by cases e) (fun _ _ _ e => by cases e)
    rw [setGraph_self]; rfl
  | inside op i =>
    rw [step_inside h hp]
    refine h.inside hc hp ?_ ?_
    · split <;> rfl
    · split
      · rfl
      · exact hp

end Verif
