import Verif.Model.GraphReaders
import Verif.Lemmas.GraphReaderRun
import Verif.Lemmas.GraphThreadsAlone
/-
Readers beside threads that do not overwrite each other's dicts.
-/
namespace Verif
open Spec

/-- Nothing in the index or in the dicts of the first level is overwritten or taken out. -/
structure Stays (sh sh' : SharedGraph) : Prop where
  root : ∀ w a v, (sh.heap (.root w)).get? a = some v → (sh'.heap (.root w)).get? a = some v
  mid : ∀ w a r b v, (sh.heap (.root w)).get? a = some (.dict r) → (sh.heap r).get? b = some v → (sh'.heap r).get? b = some v

theorem Stays.refl (sh : SharedGraph) : Stays sh sh := ⟨fun _ _ _ h => h, fun _ _ _ _ _ _ h => h⟩

theorem Stays.step {s : GSys} (hs : s.Shaped) (hu : Unborn s.sh) (i : Nat) (hl : Linked s.sh (s.threads i).pc) : Stays s.sh (s.step i).sh := by
  have hp := hs.pcs i
  have wr := Wrote.step hu (s.threads i)
  have e0 : (s.step i).sh = (s.sh.step (s.threads i)).1 := rfl
  rw [e0]
  have leafish : ∀ {w : Graph.Ix} {a : Term} {r : DRef}, (s.sh.heap (.root w)).get? a = some (.dict r) → ∃ m, r = .made (.root w) a m := by
    intro w a r h
    obtain ⟨m, -, e⟩ := hs.heap.placed _ _ _ h
    exact ⟨m, e⟩
  cases wr with
  | nothing e => exact ⟨fun w a v h => by rwa [e], fun w a r b v _ h => by rwa [e]⟩
  | store1 op w' r' e1 e =>
    rw [e1] at hl
    refine ⟨fun w a v h => ?_, fun w a r b v h1 h => ?_⟩
    · rw [e, SharedGraph.heap_put]
      split
      · next e' =>
        cases e'
        rw [Dict.get?_set, if_neg (by rintro rfl; rw [hl.1] at h; cases h)]
        exact h
      · exact h
    · obtain ⟨m, rfl⟩ := leafish h1
      rwa [e, SharedGraph.heap_put, if_neg (by simp)]
  | store2 op w' cur r' e1 e =>
    rw [e1] at hl hp
    obtain ⟨⟨m1, _, rfl⟩, -⟩ := hp
    refine ⟨fun w a v h => ?_, fun w a r b v h1 h => ?_⟩
    · rwa [e, SharedGraph.heap_put, if_neg (by simp)]
    · rw [e, SharedGraph.heap_put]
      split
      · next e' =>
        subst e'
        rw [Dict.get?_set, if_neg (by rintro rfl; rw [hl.2.1] at h; cases h)]
        exact h
      · exact h
  | add t w' cur e1 e =>
    rw [e1] at hp
    obtain ⟨m1, _, m2, _, rfl⟩ := hp
    refine ⟨fun w a v h => ?_, fun w a r b v h1 h => ?_⟩
    · rwa [e, SharedGraph.heap_put, if_neg (by simp)]
    · obtain ⟨m, rfl⟩ := leafish h1
      rwa [e, SharedGraph.heap_put, if_neg (by simp)]
  | remove t w' cur e1 _ e =>
    rw [e1] at hp
    obtain ⟨m1, _, m2, _, rfl⟩ := hp
    refine ⟨fun w a v h => ?_, fun w a r b v h1 h => ?_⟩
    · rwa [e, SharedGraph.heap_put, if_neg (by simp)]
    · obtain ⟨m, rfl⟩ := leafish h1
      rwa [e, SharedGraph.heap_put, if_neg (by simp)]

/-- The outer loop goes over the dict that is in the index, and its keys are there. -/
def LoopSees (sh : SharedGraph) (w : Graph.Ix) (a : Term) (it : DIter) : Prop :=
  (sh.heap (.root w)).get? a = some (.dict it.r) ∧ ∀ k ∈ it.rest, (sh.heap it.r).get? k ≠ none

def OutSees (sh : SharedGraph) (w : Graph.Ix) (a : Term) : Option DIter → Prop
  | none => True
  | some it => LoopSees sh w a it

/-- What the reader is about to look up is there. -/
def Sees (sh : SharedGraph) (w : Graph.Ix) (a : Term) : RPc → Prop
  | .test2in r1 | .outer1 r1 => (sh.heap (.root w)).get? a = some (.dict r1)
  | .outer it => LoopSees sh w a it
  | .get1 b' out => (∃ r1, (sh.heap (.root w)).get? a = some (.dict r1) ∧ (sh.heap r1).get? b' ≠ none) ∧ OutSees sh w a out
  | .get2 b' r1 out => (sh.heap (.root w)).get? a = some (.dict r1) ∧ (sh.heap r1).get? b' ≠ none ∧ OutSees sh w a out
  | .made2 .. => False
  | .inner0 _ out | .inner _ out => OutSees sh w a out
  | _ => True

theorem Stays.mid_ne {sh sh' : SharedGraph} (h : Stays sh sh') {w a r b} (h1 : (sh.heap (.root w)).get? a = some (.dict r)) (h2 : (sh.heap r).get? b ≠ none) : (sh'.heap r).get? b ≠ none := by
  cases e : (sh.heap r).get? b with
  | none => exact absurd e h2
  | some v => rw [h.mid _ _ _ _ _ h1 e]; exact fun e => (by cases e)

theorem LoopSees.touch {sh sh' : SharedGraph} (h : Stays sh sh') {w a it} (hs : LoopSees sh w a it) : LoopSees sh' w a (it.touch sh sh') :=
  ⟨h.root _ _ _ hs.1, fun k hk => h.mid_ne hs.1 (hs.2 k hk)⟩

theorem OutSees.touch {sh sh' : SharedGraph} (h : Stays sh sh') {w a out} (hs : OutSees sh w a out) : OutSees sh' w a (out.map (DIter.touch sh sh')) := by
  cases out with
  | none => trivial
  | some it => exact LoopSees.touch h hs

theorem Sees.touch {sh sh' : SharedGraph} (h : Stays sh sh') {w a pc} (hs : Sees sh w a pc) : Sees sh' w a (pc.touch sh sh') := by
  cases pc with
  | test2in r1 => exact h.root _ _ _ hs
  | outer1 r1 => exact h.root _ _ _ hs
  | outer it => exact LoopSees.touch h hs
  | get1 b' out => obtain ⟨⟨r1, h1, h2⟩, h3⟩ := hs; exact ⟨⟨r1, h.root _ _ _ h1, h.mid_ne h1 h2⟩, h3.touch h⟩
  | get2 b' r1 out => exact ⟨h.root _ _ _ hs.1, h.mid_ne hs.1 hs.2.1, hs.2.2.touch h⟩
  | made2 b' r1 r2 out => exact hs.elim
  | inner0 r2 out => exact OutSees.touch h hs
  | inner it out => exact OutSees.touch h hs
  | _ => trivial

theorem DIter.next_key {sh : SharedGraph} {it it' : DIter} {c : Nat} {k : Term} (hr : ∀ k ∈ it.rest, (sh.heap it.r).get? k ≠ none) (h : it.next sh c = .ok (some (k, it'))) :
    (sh.heap it.r).get? k ≠ none ∧ it'.r = it.r ∧ ∀ x ∈ it'.rest, x ∈ it.rest := by
  obtain ⟨r, size, rest, dirty⟩ := it
  unfold DIter.next at h
  dsimp only at h
  split at h
  · cases h
  · split at h
    · cases e : (Dict.keys (sh.heap r))[c]? with
      | none => rw [e] at h; cases h
      | some k' =>
        rw [e] at h
        cases h
        refine ⟨?_, rfl, fun x hx => hx⟩
        have hk : k ∈ Dict.keys (sh.heap r) := List.mem_of_getElem? e
        exact fun e => (Dict.get?_eq_none_iff _ _).1 e hk
    · cases rest with
      | nil => cases h
      | cons k' rest =>
        cases h
        exact ⟨hr k (List.mem_cons_self ..), rfl, fun x hx => List.mem_cons_of_mem _ hx⟩

/-- The reader stores nothing. -/
theorem Sees.step {sh : SharedGraph} {w : Graph.Ix} {a : Term} {b : Option Term} {rd : Reader} (h : Sees sh w a rd.pc) (c : Nat) :
    (rd.stepIn sh c w a b).1 = sh ∧ Sees sh w a (rd.stepIn sh c w a b).2.pc := by
  obtain ⟨plan, pc, got, out⟩ := rd
  have keysIn : ∀ {r : DRef} {k : Term}, k ∈ (sh.heap r).keys → (sh.heap r).get? k ≠ none := fun hk e => (Dict.get?_eq_none_iff _ _).1 e hk
  cases pc with
  | start => exact ⟨rfl, trivial⟩
  | test1 =>
    refine ⟨rfl, ?_⟩
    simp only [Reader.stepIn]
    split
    · dsimp only
      split <;> trivial
    · trivial
  | test2 =>
    simp only [Reader.stepIn]
    split
    · next e => exact ⟨rfl, e⟩
    · exact ⟨rfl, trivial⟩
  | test2in r1 =>
    have h : (sh.heap (.root w)).get? a = some (.dict r1) := h
    cases b with
    | none => exact ⟨rfl, h⟩
    | some b =>
      refine ⟨rfl, ?_⟩
      simp only [Reader.stepIn]
      split
      · next e => exact ⟨⟨r1, h, fun e' => by rw [Dict.has, e'] at e; cases e⟩, trivial⟩
      · trivial
  | outer0 =>
    simp only [Reader.stepIn]
    split
    · next e => exact ⟨rfl, e⟩
    · exact ⟨rfl, trivial⟩
  | outer1 r1 => exact ⟨rfl, h, fun k hk => keysIn hk⟩
  | outer it =>
    have h : LoopSees sh w a it := h
    simp only [Reader.stepIn]
    split
    · exact ⟨rfl, trivial⟩
    · exact ⟨rfl, trivial⟩
    · next b' it' e =>
      obtain ⟨h1, h2, h3⟩ := DIter.next_key h.2 e
      exact ⟨rfl, ⟨it.r, h.1, h1⟩, by rw [h2]; exact h.1, fun k hk => by rw [h2]; exact h.2 k (h3 k hk)⟩
  | get1 b' o =>
    obtain ⟨⟨r1, h1, h2⟩, h3⟩ := h
    simp only [Reader.stepIn]
    rw [h1]
    exact ⟨rfl, h1, h2, h3⟩
  | get2 b' r1 o =>
    obtain ⟨h1, h2, h3⟩ := h
    simp only [Reader.stepIn]
    split
    · exact ⟨rfl, h3⟩
    · exact ⟨rfl, trivial⟩
    · next e => exact absurd e h2
  | made2 => exact h.elim
  | inner0 r2 o => exact ⟨rfl, h⟩
  | inner it o =>
    have h : OutSees sh w a o := h
    simp only [Reader.stepIn]
    split
    · exact ⟨rfl, trivial⟩
    · refine ⟨rfl, ?_⟩
      cases o with
      | none => trivial
      | some it' => exact h
    · split
      · exact ⟨rfl, h⟩
      · exact ⟨rfl, trivial⟩
  | set => exact ⟨rfl, trivial⟩
  | after => exact ⟨rfl, trivial⟩
  | done => exact ⟨rfl, trivial⟩

/-- What each reader looks up is there. -/
def PlanSees (sh : SharedGraph) (rd : Reader) : Prop :=
  match rd.plan with
  | .two w a _ | .one w a => Sees sh w a rd.pc
  | _ => True

theorem PlanSees.touch {sh sh' : SharedGraph} (h : Stays sh sh') {rd : Reader} (hs : PlanSees sh rd) : PlanSees sh' { rd with pc := rd.pc.touch sh sh' } := by
  obtain ⟨plan, pc, got, out⟩ := rd
  cases plan with
  | two w a b => exact Sees.touch (w := w) (a := a) h hs
  | one w a => exact Sees.touch (w := w) (a := a) h hs
  | _ => trivial

theorem Reader.stepIn_plan {sh : SharedGraph} {c : Nat} {rd : Reader} {w : Graph.Ix} {a : Term} {b : Option Term} : (rd.stepIn sh c w a b).2.plan = rd.plan := by
  obtain ⟨plan, pc, got, out⟩ := rd
  cases pc <;> simp only [Reader.stepIn, Reader.finish, Reader.leave] <;> (repeat' split) <;> rfl

theorem PlanSees.step {ord} {sh : SharedGraph} {rd : Reader} (h : PlanSees sh rd) (c : Nat) : (rd.step ord sh c).1 = sh ∧ PlanSees sh (rd.step ord sh c).2 := by
  obtain ⟨plan, pc, got, out⟩ := rd
  cases plan with
  | two w a b =>
    obtain ⟨h1, h2⟩ := Sees.step (rd := ⟨.two w a b, pc, got, out⟩) (w := w) (a := a) (b := some b) h c
    refine ⟨h1, ?_⟩
    have e : (Reader.stepIn sh c ⟨.two w a b, pc, got, out⟩ w a (some b)).2.plan = .two w a b := Reader.stepIn_plan
    show PlanSees sh (Reader.stepIn sh c ⟨.two w a b, pc, got, out⟩ w a (some b)).2
    unfold PlanSees
    rw [e]
    exact h2
  | one w a =>
    obtain ⟨h1, h2⟩ := Sees.step (rd := ⟨.one w a, pc, got, out⟩) (w := w) (a := a) (b := none) h c
    refine ⟨h1, ?_⟩
    have e : (Reader.stepIn sh c ⟨.one w a, pc, got, out⟩ w a none).2.plan = .one w a := Reader.stepIn_plan
    show PlanSees sh (Reader.stepIn sh c ⟨.one w a, pc, got, out⟩ w a none).2
    unfold PlanSees
    rw [e]
    exact h2
  | bound t =>
    refine ⟨rfl, ?_⟩
    cases pc <;> simp only [Reader.step, Reader.stepBound] <;> (repeat' split) <;> trivial
  | all =>
    refine ⟨rfl, ?_⟩
    cases pc <;> simp only [Reader.step, Reader.stepAll] <;> (repeat' split) <;> trivial

theorem DIter.touch_same (sh : SharedGraph) (it : DIter) : it.touch sh sh = it := by
  obtain ⟨r, size, rest, dirty⟩ := it
  simp [DIter.touch]

theorem RPc.touch_same (sh : SharedGraph) (pc : RPc) : pc.touch sh sh = pc := by
  have h : ∀ out : Option DIter, out.map (DIter.touch sh sh) = out := by
    intro out
    cases out with
    | none => rfl
    | some it => simp [DIter.touch_same]
  cases pc <;> simp [RPc.touch, DIter.touch_same, h]

/-! ### Runs -/

/-- Readers beside threads that keep out of each other's way change nothing, and each of them goes as if the others were not there. -/
theorem RsSys.run_apart {ord} {s : RsSys} (hg : s.g.Good) (hu : Unborn s.g.sh) (hr : ∀ j, PlanSees s.g.sh (s.rds j)) (sched : List RsStep) (hs : s.g.Safe (RsStep.writes sched)) :
    (s.run ord sched).g = s.g.run (RsStep.writes sched) ∧ ∀ j, (s.run ord sched).rds j = (RSys.run ord ⟨s.g, s.rds j⟩ (RsStep.only j sched)).rd := by
  induction sched generalizing s with
  | nil => exact ⟨rfl, fun j => rfl⟩
  | cons x sched ih =>
    cases x with
    | write i =>
      have hs : s.g.Safe (i :: RsStep.writes sched) := hs
      have st := Stays.step hg.shaped hu i (hg.links i)
      obtain ⟨h1, h2⟩ := ih (s := s.step ord (.write i)) (hg.step i hs.1) (hu.step (hg.shaped.pcs i)) (fun j => (hr j).touch st) hs.2
      exact ⟨h1, h2⟩
    | read k c =>
      obtain ⟨e1, h2⟩ := (hr k).step (ord := ord) c
      have eg : (s.step ord (.read k c)).g = s.g := by
        show { s.g with sh := ((s.rds k).step ord s.g.sh c).1 } = s.g
        rw [e1]
      have er : ∀ j, (s.step ord (.read k c)).rds j = if j = k then ((s.rds k).step ord s.g.sh c).2 else s.rds j := by
        intro j
        show (let rd := if j = k then ((s.rds k).step ord s.g.sh c).2 else s.rds j; ({ rd with pc := rd.pc.touch s.g.sh ((s.rds k).step ord s.g.sh c).1 } : Reader)) = _
        rw [e1]
        dsimp only
        rw [RPc.touch_same]
      obtain ⟨h3, h4⟩ := ih (s := s.step ord (.read k c)) (by rw [eg]; exact hg) (by rw [eg]; exact hu)
        (fun j => by rw [eg, er]; split; exact h2; exact hr j) (by rw [eg]; exact hs)
      refine ⟨h3.trans (by rw [eg]; rfl), fun j => (h4 j).trans ?_⟩
      rw [eg, er]
      by_cases e : j = k
      · subst e
        have : RsStep.only j (.read j c :: sched) = .read c :: RsStep.only j sched := by simp [RsStep.only]
        rw [this, if_pos rfl]
        show _ = (RSys.run ord (RSys.step ord ⟨s.g, s.rds j⟩ (.read c)) _).rd
        have es : RSys.step ord ⟨s.g, s.rds j⟩ (.read c) = ⟨s.g, ((s.rds j).step ord s.g.sh c).2⟩ := by
          show (⟨{ s.g with sh := ((s.rds j).step ord s.g.sh c).1 }, { ((s.rds j).step ord s.g.sh c).2 with pc := ((s.rds j).step ord s.g.sh c).2.pc.touch s.g.sh ((s.rds j).step ord s.g.sh c).1 }⟩ : RSys) = _
          rw [e1, RPc.touch_same]
        rw [es]
      · have : RsStep.only j (.read k c :: sched) = RsStep.only j sched := by
          simp [RsStep.only, Ne.symm e]
        rw [this, if_neg e]

/-- A step of a reader, as the others see it. -/
theorem Reader.step_later {P : Stmt → Prop} {ord} {s : RSys} (h : s.Ok P) (c : Nat) : Later s.g.sh (s.rd.step ord s.g.sh c).1 := by
  obtain ⟨g, plan, pc, got, out⟩ := s
  cases plan with
  | two w a b => exact (Reader.stepIn_read h.shaped.heap h.unborn c (b := some b) h.pc).later
  | one w a => exact (Reader.stepIn_read h.shaped.heap h.unborn c (b := none) h.pc).later
  | bound t => exact .refl _
  | all => exact .refl _

theorem RsSys.ok_run {P : Stmt → Prop} {ord} (hord : IsOrder ord) {s : RsSys} (h : ∀ j, RSys.Ok P ⟨s.g, s.rds j⟩) (sched : List RsStep) :
    ∀ j, RSys.Ok P ⟨(s.run ord sched).g, (s.run ord sched).rds j⟩ := by
  induction sched generalizing s with
  | nil => exact h
  | cons x sched ih =>
    refine ih (s := s.step ord x) (fun j => ?_)
    cases x with
    | write i => exact (h j).write (ord := ord) i
    | read k c =>
      have hk := (h k).read hord c
      have hl := Reader.step_later (ord := ord) (h k) c
      by_cases e : j = k
      · subst e
        have : (s.step ord (.read j c)).rds j = (RSys.step ord ⟨s.g, s.rds j⟩ (.read c)).rd := by simp [RsSys.step, RSys.step]
        rw [this]
        exact hk
      · have : (s.step ord (.read k c)).rds j = { s.rds j with pc := (s.rds j).pc.touch s.g.sh ((s.rds k).step ord s.g.sh c).1 } := by simp [RsSys.step, e]
        rw [this]
        exact ⟨hk.shaped, hk.unborn, hk.all, hk.triples, (h j).pc.touch hl, (h j).got, (h j).ended⟩

end Verif
