import Verif.Lemmas.GraphReaders
import Verif.Props.GraphReaderOneWay
import Verif.Props.GraphThreadsSome
/-
C165: threads that read a Graph and the threads beside them.
-/
namespace Verif
open Spec

/-! ### Statement -/

/-- A pattern for `match`. -/
structure Pat where
  s : Option Term
  p : Option Term
  o : Option Term

def Pat.NonEmpty (q : Pat) : Prop := Spec.NonEmpty q.s ∧ Spec.NonEmpty q.p ∧ Spec.NonEmpty q.o

/-- The threads with their calls, and readers, each in a `list(graph.match(...))`, after the steps of the schedule. -/
def readersRun (ord : List Stmt → List Stmt) (sh : SharedGraph) (prog : Nat → List Act) (pats : Nat → Pat) (sched : List RsStep) : RsSys :=
  RsSys.run ord { g := GSys.start sh (fun i => (prog i).map Act.op), rds := fun j => { plan := Plan.of (arg (pats j).s) (arg (pats j).p) (arg (pats j).o) } } sched

/-- Both graphs show the same to a caller. -/
def ShowsSame (g g' : Graph) : Prop :=
  (∀ x, g.contains x = g'.contains x) ∧ g.len = g'.len ∧
    ∀ ord, IsOrder ord → ∀ q : Pat, q.NonEmpty → g.match ord (arg q.s) (arg q.p) (arg q.o) = g'.match ord (arg q.s) (arg q.p) (arg q.o)

/-- Reading changes nothing: when the threads have finished, the graph and the outcomes of the calls could have come about without the readers, and what a reader has got and how it ended without
    the other readers. -/
def C165_statement : Prop :=
  ∀ u before sh, Prepared u before sh → ∀ prog pats, (∀ j, (pats j).NonEmpty) → ∀ ord, IsOrder ord → ∀ sched, (readersRun ord sh prog pats sched).g.Finished →
    (∃ sched', (threadsRun sh prog sched').Finished ∧ ShowsSame (readersRun ord sh prog pats sched).g.sh.graph (threadsRun sh prog sched').sh.graph ∧
      ∀ i, ((readersRun ord sh prog pats sched).g.threads i).outs = ((threadsRun sh prog sched').threads i).outs) ∧
    ∀ j, ∃ sched', ((readersRun ord sh prog pats sched).rds j).got = (readRun ord sh prog (pats j).s (pats j).p (pats j).o sched').rd.got ∧
      ((readersRun ord sh prog pats sched).rds j).out = (readRun ord sh prog (pats j).s (pats j).p (pats j).o sched').rd.out

/-! ### Proofs -/

theorem RsSys.plan_run (ord) (s : RsSys) (sched : List RsStep) (j : Nat) : ((s.run ord sched).rds j).plan = (s.rds j).plan := by
  induction sched generalizing s with
  | nil => rfl
  | cons x sched ih =>
    refine (ih (s.step ord x)).trans ?_
    cases x with
    | write i => rfl
    | read k c =>
      by_cases e : j = k
      · subst e
        have : (s.step ord (.read j c)).rds j = (RSys.step ord ⟨s.g, s.rds j⟩ (.read c)).rd := by simp [RsSys.step, RSys.step]
        rw [this]
        exact RSys.plan_step ord ⟨s.g, s.rds j⟩ (.read c)
      · simp [RsSys.step, e]

theorem PlanSees.start (sh : SharedGraph) (plan : Plan) : PlanSees sh { plan } := by
  cases plan <;> exact trivial

/-- Readers beside threads that do not clash. -/
theorem readers_apart {u : Term} {before : List Act} {sh : SharedGraph} (h : Prepared u before sh) {prog : Nat → List Act} (pats : Nat → Pat) (ord : List Stmt → List Stmt)
    {sched : List RsStep} (hs : (GSys.start sh (fun i => (prog i).map Act.op)).Safe (RsStep.writes sched)) :
    (readersRun ord sh prog pats sched).g = threadsRun sh prog (RsStep.writes sched) ∧
      ∀ j, (readersRun ord sh prog pats sched).rds j = (readRun ord sh prog (pats j).s (pats j).p (pats j).o (RsStep.only j sched)).rd := by
  obtain ⟨g, -, -, -⟩ := h.good prog
  exact RsSys.run_apart (s := { g := GSys.start sh (fun i => (prog i).map Act.op), rds := fun j => { plan := Plan.of (arg (pats j).s) (arg (pats j).p) (arg (pats j).o) } })
    g (h.tight.unborn g.shaped.heap) (fun j => .start _ _) sched hs

theorem Apart.starts {u : Term} {before : List Act} {sh : SharedGraph} (h : Prepared u before sh) {prog : Nat → List Act} (ha : Apart (runActs ∅ before) prog) (sched : List Nat) :
    (GSys.start sh (fun i => (prog i).map Act.op)).Safe sched := by
  obtain ⟨g, -, hfound, -⟩ := h.good prog
  refine ha.safe g (fun i => ⟨fun op ho => ?_, fun op w e => by cases e⟩) (fun t ht => SharedGraph.Known.of_found g.shaped.heap (hfound t ht)) sched
  obtain ⟨a, h1, h2⟩ := List.mem_map.1 ho
  exact ⟨a, h1, h2.symm⟩

/-- Beside threads that keep apart, any number of readers, also in the middle of the run: the graph, the indexes and the threads are in the very state they are in without the readers, and each
    reader is where it is without the others. Missing for `C165_statement`: threads that clash; see `C165_refuted`. -/
theorem C165_partial (u : Term) (before : List Act) (sh : SharedGraph) (h : Prepared u before sh) (prog : Nat → List Act) (ha : Apart (runActs ∅ before) prog)
    (pats : Nat → Pat) (ord : List Stmt → List Stmt) (sched : List RsStep) :
    (readersRun ord sh prog pats sched).g = threadsRun sh prog (RsStep.writes sched) ∧
      ∀ j, (readersRun ord sh prog pats sched).rds j = (readRun ord sh prog (pats j).s (pats j).p (pats j).o (RsStep.only j sched)).rd :=
  readers_apart h pats ord (ha.starts h _)

/-- With a lock around each call of add and remove, and readers that take no lock. -/
theorem C165_locked (u : Term) (before : List Act) (sh : SharedGraph) (h : Prepared u before sh) (prog : Nat → List Act)
    (pats : Nat → Pat) (ord : List Stmt → List Stmt) (sched : List RsStep) (hl : Locked (GSys.start sh (fun i => (prog i).map Act.op)) (RsStep.writes sched)) :
    (readersRun ord sh prog pats sched).g = threadsRun sh prog (RsStep.writes sched) ∧
      ∀ j, (readersRun ord sh prog pats sched).rds j = (readRun ord sh prog (pats j).s (pats j).p (pats j).o (RsStep.only j sched)).rd :=
  readers_apart h pats ord hl.safe

/-- One thread that adds and removes, and any number of readers, none with a lock: when the thread has finished, the graph shows what its calls make of it and they have had the outcomes they have
    alone. -/
theorem C165_one_writer (u : Term) (before : List Act) (sh : SharedGraph) (h : Prepared u before sh) (l : List Act)
    (pats : Nat → Pat) (ord : List Stmt → List Stmt) (sched : List RsStep) (hf : (readersRun ord sh (oneThread l) pats sched).g.Finished) :
    ShowsSet (readersRun ord sh (oneThread l) pats sched).g.sh.graph (runActs (runActs ∅ before) l) ∧
      ShowsMatches (readersRun ord sh (oneThread l) pats sched).g.sh.graph (runActs (runActs ∅ before) l) ∧
      ((readersRun ord sh (oneThread l) pats sched).g.threads 0).outs = (results 0 (runActs ∅ before) (l.map fun a => (0, a))).map outcomeOf := by
  have ha : Apart (runActs ∅ before) (oneThread l) := by
    intro i j hij a hi b hj
    exfalso
    unfold oneThread at hi hj
    split at hi
    · split at hj
      · omega
      · cases hj
    · cases hi
  rw [(C165_partial u before sh h _ ha pats ord sched).1] at hf ⊢
  obtain ⟨l', hi, h1, h2, h3⟩ := C162_partial u before sh h _ ha _ hf
  have e0 : l'.map Prod.snd = l := interleaves_zero hi
  have e1 : l' = l.map fun a => (0, a) := by
    rw [← e0, List.map_map]
    symm
    refine (List.map_congr_left (fun x hx => ?_)).trans (List.map_id _)
    have hm : x ∈ l'.filter (fun y => y.1 = x.1) := by simp [hx]
    have h4 := hi x.1
    by_cases e : x.1 = 0
    · exact Prod.ext e.symm rfl
    · rw [show oneThread l x.1 = [] by simp [oneThread, e], List.map_eq_nil_iff] at h4
      rw [h4] at hm
      cases hm
  rw [e0] at h1 h2
  refine ⟨h1, h2, ?_⟩
  rw [h3 0, e1]

/-- Whatever the threads do, and any number of readers: each reader gets only triples that fit its pattern and that were there before or that some thread adds, and ends in order or with
    RuntimeError. -/
theorem C165_sound (u : Term) (before : List Act) (sh : SharedGraph) (h : Prepared u before sh) (prog : Nat → List Act) (pats : Nat → Pat) (hq : ∀ j, (pats j).NonEmpty) {ord} (hord : IsOrder ord)
    (sched : List RsStep) (j : Nat) :
    (∀ x ∈ ((readersRun ord sh prog pats sched).rds j).got,
        ∃ t : Tri, x = t.stmt ∧ t.Matches (pats j).s (pats j).p (pats j).o ∧ (t ∈ runActs ∅ before ∨ ∃ i, .add t ∈ prog i)) ∧
      (((readersRun ord sh prog pats sched).rds j).out = none ∨ ((readersRun ord sh prog pats sched).rds j).out = some (.ok ()) ∨
        ((readersRun ord sh prog pats sched).rds j).out = some (.error .runtimeError)) := by
  have ok := RsSys.ok_run hord (s := { g := GSys.start sh (fun i => (prog i).map Act.op), rds := fun j => { plan := Plan.of (arg (pats j).s) (arg (pats j).p) (arg (pats j).o) } })
    (fun j => readRun_ok h prog hord (pats j).s (pats j).p (pats j).o []) sched j
  refine ⟨fun x hx => ?_, ok.ended⟩
  obtain ⟨⟨t, rfl, ht⟩, h2⟩ := ok.got x hx
  have h2 : ((readersRun ord sh prog pats sched).rds j).plan.Has t.stmt := h2
  rw [show ((readersRun ord sh prog pats sched).rds j).plan = Plan.of (arg (pats j).s) (arg (pats j).p) (arg (pats j).o) from RsSys.plan_run ..] at h2
  exact ⟨t, rfl, (Plan.of_has (hq j).1 (hq j).2.1 (hq j).2.2 t).1 h2, ht⟩

/-! ### Refutation -/

/-- Both threads look up the new subject and miss it; thread 0 stores its triple in the first index; the reader finds the predicate under the subject; thread 1 stores its dict over that of thread 0;
    the reader takes that dict, finds it empty and makes a dict for the predicate; thread 1 stores its triple; the reader stores its empty dict over that of thread 1. -/
def wipeSched : List RsStep :=
  let w n i := List.replicate n (RsStep.write i)
  let r n := List.replicate n (RsStep.read 0 0)
  w 2 0 ++ w 2 1 ++ w 4 0 ++ r 4 ++ w 1 1 ++ r 2 ++ w 3 1 ++ r 1 ++ w 10 0 ++ w 10 1

def wipePats : Nat → Pat := fun _ => ⟨some exA, some exB, none⟩

def wipeRun : RsSys := readersRun id (SharedGraph.new .none) (twoThreads (.add exT1) (.add exT2)) wipePats wipeSched

/-- A reader wipes out what `match` found: both triples are in the graph, and neither is found by the subject, nor by subject and predicate; for that the reader need not go on. With the same
    steps of the threads and no reader, one of them is found. -/
theorem C165_wipes : wipeRun.g.sh.graph.contains exT1.stmt = true ∧ wipeRun.g.sh.graph.contains exT2.stmt = true ∧
    (wipeRun.g.threads 0).outs = [.ok ()] ∧ (wipeRun.g.threads 1).outs = [.ok ()] ∧ wipeRun.g.sh.graph.match id exA exB .none = [] ∧ wipeRun.g.sh.graph.match id exA .none .none = [] ∧
    (threadsRun (SharedGraph.new .none) (twoThreads (.add exT1) (.add exT2)) (RsStep.writes wipeSched)).sh.graph.match id exA exB .none = [exT2.stmt] := by decide

/-- Without readers this does not come about, whatever the steps. -/
theorem C165_new (sched : List Nat) (hf : (threadsRun (SharedGraph.new .none) (twoThreads (.add exT1) (.add exT2)) sched).Finished) :
    (threadsRun (SharedGraph.new .none) (twoThreads (.add exT1) (.add exT2)) sched).sh.graph.match id exA .none .none ≠ [] := by
  have e : twoThreads (.add exT1) (.add exT2) = fun i => adds (if i = 0 then [exT1] else if i = 1 then [exT2] else []) := by
    funext i
    simp only [twoThreads]
    split
    · rfl
    · split <;> rfl
  rw [e] at hf ⊢
  obtain ⟨t', h1, -⟩ := (C162_some .none [] _ (prepared_new .none) _ sched hf exT1 (Or.inr ⟨0, by simp⟩) (ord := id) (fun _ => .refl _)).1 (fun a e => by cases e; decide)
  intro e'
  have h1 : t'.stmt ∈ (threadsRun _ _ sched).sh.graph.match id exA .none .none := h1
  rw [e'] at h1
  cases h1

theorem RsSys.run_other (ord) (s : RsSys) (sched : List RsStep) (i : Nat) (h : i ∉ RsStep.writes sched) : (s.run ord sched).g.threads i = s.g.threads i := by
  induction sched generalizing s with
  | nil => rfl
  | cons x sched ih =>
    cases x with
    | write j =>
      simp only [RsStep.writes, List.filterMap_cons, List.mem_cons, not_or] at h
      exact (ih (s.step ord (.write j)) h.2).trans (GSys.step_other s.g h.1)
    | read j c => exact ih (s.step ord (.read j c)) h

theorem wipe_finished : wipeRun.g.Finished := by
  intro i
  by_cases e0 : i = 0
  · subst e0; decide
  by_cases e1 : i = 1
  · subst e1; decide
  have h : ∀ i ∈ RsStep.writes wipeSched, i = 0 ∨ i = 1 := by decide
  unfold wipeRun readersRun
  rw [RsSys.run_other _ _ _ i (fun hi => by rcases h i hi with h | h <;> contradiction)]
  exact ⟨rfl, by simp [GSys.start, twoThreads, e0, e1]⟩

theorem wipePats_nonEmpty (j : Nat) : (wipePats j).NonEmpty := by
  refine ⟨?_, ?_, ?_⟩ <;> simp [wipePats, Spec.NonEmpty] <;> decide

/-- Reading is not harmless. -/
theorem C165_refuted : ¬ C165_statement := by
  intro h
  obtain ⟨⟨sched', hf, ⟨-, -, h3⟩, -⟩, -⟩ := h .none [] _ (prepared_new .none) (twoThreads (.add exT1) (.add exT2)) wipePats wipePats_nonEmpty id (fun _ => .refl _) wipeSched wipe_finished
  have h4 : wipeRun.g.sh.graph.match id exA .none .none = _ := h3 id (fun _ => .refl _) ⟨some exA, none, none⟩ ⟨fun a e => (by cases e; decide), fun a e => (by cases e), fun a e => (by cases e)⟩
  exact C165_new sched' hf (h4.symm.trans C165_wipes.2.2.2.2.2.1)

/-! ### Cases -/

/-- Two readers beside threads that keep apart. -/
def twoReaders : RsSys :=
  readersRun id (aloneRun .none [.add exT1] 16).sh (twoThreads (.add ⟨exA, exB, exA⟩) (.add ⟨exA, exB, exB⟩)) (fun j => if j = 0 then ⟨some exA, none, none⟩ else ⟨none, none, none⟩)
    (List.replicate 3 (.read 0 0) ++ ((List.replicate 16 [RsStep.write 0, .write 1]).flatten) ++ List.replicate 12 (.read 0 0) ++ List.replicate 5 (.read 1 0))

example : (twoReaders.rds 0).out = some (.ok ()) ∧ (twoReaders.rds 0).got.length = 3 ∧ (twoReaders.rds 1).out = some (.ok ()) ∧ (twoReaders.rds 1).got.length = 3 := by decide

example : twoReaders.g.sh.graph.match id exA exB .none = [exT1.stmt, Tri.stmt ⟨exA, exB, exA⟩, exT2.stmt] := by decide

end Verif
