import Verif.Lemmas.GraphReader
/-
A thread that reads a Graph while others change it: what holds in every run.
-/
namespace Verif

open Spec

/-- The statement is one the plan is about. -/
def Plan.Has : Plan → Stmt → Prop
  | .bound t, x => x = t
  | .two w a b, x => (w.keys x).1 = a ∧ (w.keys x).2.1 = b
  | .one w a, x => (w.keys x).1 = a
  | .all, _ => True

/-- Where the reader can be. -/
def RdOk (P : Stmt → Prop) (sh : SharedGraph) : Plan → RPc → Prop
  | .bound _, _ => True
  | .two w a b, pc => RdIn sh w a (some b) pc
  | .one w a, pc => RdIn sh w a none pc
  | .all, .set _ rest _ => ∀ t ∈ rest, P t
  | .all, _ => True

/-- What holds in every run: all statements have `P`, and the reader has got statements of its plan. -/
structure RSys.Ok (P : Stmt → Prop) (s : RSys) : Prop where
  shaped : s.g.Shaped
  unborn : Unborn s.g.sh
  all : s.g.From P
  triples : ∀ t ∈ s.g.sh.triples, P t
  pc : RdOk P s.g.sh s.rd.plan s.rd.pc
  got : ∀ t ∈ s.rd.got, P t ∧ s.rd.plan.Has t
  ended : Ended s.rd.out

theorem RdOk.touch {P : Stmt → Prop} {sh sh' : SharedGraph} (h : Later sh sh') {plan : Plan} {pc : RPc} (hr : RdOk P sh plan pc) : RdOk P sh' plan (pc.touch sh sh') := by
  cases plan with
  | bound t => trivial
  | two w a b => exact RdIn.touch h hr
  | one w a => exact RdIn.touch h hr
  | all => cases pc <;> exact hr

theorem SharedGraph.triples_step (sh : SharedGraph) (th : GThread) (t : Stmt) (h : t ∈ (sh.step th).1.triples) : t ∈ sh.triples ∨ .add t ∈ th.todo := by
  obtain ⟨pc, todo, outs⟩ := th
  cases pc with
  | idle =>
    cases todo with
    | nil => exact Or.inl h
    | cons op todo =>
      cases op with
      | add t' =>
        simp only [SharedGraph.step, Graph.setAdd] at h
        split at h
        · exact Or.inl h
        · rcases List.mem_append.1 h with h | h
          · exact Or.inl h
          · rw [List.mem_singleton] at h; subst h; exact Or.inr (List.mem_cons_self ..)
      | remove t' =>
        simp only [SharedGraph.step] at h
        split at h
        · exact Or.inl (List.mem_of_mem_erase h)
        · exact Or.inl h
  | look1 op w => simp only [SharedGraph.step] at h; split at h <;> exact Or.inl h
  | store1 op w r => exact Or.inl h
  | look2 op w cur => simp only [SharedGraph.step] at h; split at h <;> exact Or.inl h
  | store2 op w cur r => exact Or.inl h
  | last op w cur =>
    cases op with
    | add t' => exact Or.inl h
    | remove t' => simp only [SharedGraph.step] at h; split at h <;> exact Or.inl h

theorem RSys.Ok.write {P : Stmt → Prop} {ord} {s : RSys} (h : s.Ok P) (i : Nat) : (s.step ord (.write i)).Ok P := by
  refine ⟨h.shaped.step i, h.unborn.step (h.shaped.pcs i), h.all.step h.shaped i, fun t ht => ?_, h.pc.touch (Later.step h.unborn (h.shaped.pcs i)), h.got, h.ended⟩
  rcases s.g.sh.triples_step _ t ht with h1 | h1
  · exact h.triples t h1
  · exact h.all.todo i t h1

theorem RSys.Ok.readIn {P : Stmt → Prop} {s : RSys} (h : s.Ok P) (c : Nat) {w : Graph.Ix} {a : Term} {b : Option Term} (hp : RdIn s.g.sh w a b s.rd.pc)
    (hh : ∀ t : Stmt, (w.keys t).1 = a → (∀ x, b = some x → (w.keys t).2.1 = x) → s.rd.plan.Has t)
    (hr : ∀ sh pc, RdIn sh w a b pc → RdOk P sh s.rd.plan pc) :
    RSys.Ok P { g := { s.g with sh := (s.rd.stepIn s.g.sh c w a b).1 },
                rd := { (s.rd.stepIn s.g.sh c w a b).2 with pc := (s.rd.stepIn s.g.sh c w a b).2.pc.touch s.g.sh (s.rd.stepIn s.g.sh c w a b).1 } } := by
  have r := Reader.stepIn_read h.shaped.heap h.unborn c hp
  refine ⟨⟨r.shape, fun i => (h.shaped.pcs i).mono r.later.next⟩, r.unborn, ⟨fun x k t e => h.all.heap x k t (r.heap x k t e), h.all.todo, h.all.cur⟩, fun t ht => h.triples t (r.triples ▸ ht), ?_, ?_,
    r.ended h.ended⟩
  · show RdOk P _ (s.rd.stepIn s.g.sh c w a b).2.plan _
    rw [r.plan]; exact hr _ _ r.pc
  · show ∀ t ∈ (s.rd.stepIn s.g.sh c w a b).2.got, P t ∧ (s.rd.stepIn s.g.sh c w a b).2.plan.Has t
    rw [r.plan]
    rcases r.got with e | ⟨x, k, t, h1, h2, h3, h4⟩
    · rw [e]; exact h.got
    · rw [h2]
      intro t' ht'
      rcases List.mem_append.1 ht' with h5 | h5
      · exact h.got t' h5
      · rw [List.mem_singleton] at h5
        subst h5
        exact ⟨h.all.heap x k t' h1, hh t' h3 h4⟩

/-- A step that changes only the reader. -/
theorem RSys.Ok.reader {P : Stmt → Prop} {s : RSys} (h : s.Ok P) {rd : Reader} (hp : RdOk P s.g.sh rd.plan rd.pc) (hg : ∀ t ∈ rd.got, P t ∧ rd.plan.Has t) (he : Ended rd.out) :
    RSys.Ok P { g := { s.g with sh := s.g.sh }, rd := { rd with pc := rd.pc.touch s.g.sh s.g.sh } } :=
  ⟨h.shaped, h.unborn, h.all, h.triples, hp.touch (.refl _), hg, he⟩

theorem RSys.Ok.read {P : Stmt → Prop} {ord} (hord : IsOrder ord) {s : RSys} (h : s.Ok P) (c : Nat) : (s.step ord (.read c)).Ok P := by
  obtain ⟨g, plan, pc, got, out⟩ := s
  cases plan with
  | two w a b =>
    exact h.readIn c (b := some b) h.pc (fun t h1 h2 => ⟨h1, h2 b rfl⟩) (fun _ _ h => h)
  | one w a =>
    exact h.readIn c (b := none) h.pc (fun t h1 _ => h1) (fun _ _ h => h)
  | bound t =>
    show RSys.Ok P { g := { g with sh := g.sh }, rd := { (Reader.stepBound g.sh t ⟨.bound t, pc, got, out⟩) with pc := (Reader.stepBound g.sh t ⟨.bound t, pc, got, out⟩).pc.touch g.sh g.sh } }
    refine h.reader ?_ ?_ ?_
    · unfold Reader.stepBound
      cases pc <;> first | exact trivial | skip
      dsimp only
      split <;> exact trivial
    · unfold Reader.stepBound
      cases pc <;> first | exact h.got | skip
      dsimp only
      split
      · next ht =>
        intro t' ht'
        rcases List.mem_append.1 ht' with h5 | h5
        · exact h.got t' h5
        · rw [List.mem_singleton] at h5; subst h5; exact ⟨h.triples _ ht, rfl⟩
      · exact h.got
    · unfold Reader.stepBound
      cases pc <;> first | exact h.ended | exact Or.inr (Or.inl rfl) | skip
      dsimp only
      split
      · exact h.ended
      · exact Or.inr (Or.inl rfl)
  | all =>
    show RSys.Ok P { g := { g with sh := g.sh }, rd := { (Reader.stepAll ord g.sh c ⟨.all, pc, got, out⟩) with pc := (Reader.stepAll ord g.sh c ⟨.all, pc, got, out⟩).pc.touch g.sh g.sh } }
    have key : RdOk P g.sh (Reader.stepAll ord g.sh c ⟨.all, pc, got, out⟩).plan (Reader.stepAll ord g.sh c ⟨.all, pc, got, out⟩).pc ∧
        (∀ t ∈ (Reader.stepAll ord g.sh c ⟨.all, pc, got, out⟩).got, P t ∧ (Reader.stepAll ord g.sh c ⟨.all, pc, got, out⟩).plan.Has t) ∧
        Ended (Reader.stepAll ord g.sh c ⟨.all, pc, got, out⟩).out := by
      cases pc with
      | start => exact ⟨fun t ht => h.triples t ((hord _).mem_iff.1 ht), h.got, h.ended⟩
      | set size rest dirty =>
        have hp : ∀ t ∈ rest, P t := h.pc
        unfold Reader.stepAll
        dsimp only
        split
        · exact ⟨trivial, h.got, Or.inr (Or.inr rfl)⟩
        · split
          · split
            · next t ht =>
              refine ⟨hp, fun t' ht' => ?_, h.ended⟩
              rcases List.mem_append.1 ht' with h5 | h5
              · exact h.got t' h5
              · rw [List.mem_singleton] at h5; subst h5; exact ⟨h.triples _ (List.mem_of_getElem? ht), trivial⟩
            · exact ⟨trivial, h.got, Or.inr (Or.inl rfl)⟩
          · split
            · exact ⟨trivial, h.got, Or.inr (Or.inl rfl)⟩
            · next t rest =>
              refine ⟨fun t' ht' => hp t' (List.mem_cons_of_mem _ ht'), fun t' ht' => ?_, h.ended⟩
              rcases List.mem_append.1 ht' with h5 | h5
              · exact h.got t' h5
              · rw [List.mem_singleton] at h5; subst h5; exact ⟨hp _ (List.mem_cons_self ..), trivial⟩
      | _ => exact ⟨trivial, h.got, h.ended⟩
    exact h.reader key.1 key.2.1 key.2.2

theorem RSys.Ok.run {P : Stmt → Prop} {ord} (hord : IsOrder ord) {s : RSys} (h : s.Ok P) (sched : List RStep) : (s.run ord sched).Ok P := by
  induction sched generalizing s with
  | nil => exact h
  | cons x sched ih =>
    refine ih ?_
    cases x with
    | write i => exact h.write i
    | read c => exact h.read hord c

end Verif
