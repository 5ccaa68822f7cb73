import Verif.Lemmas.GraphReaderCalm
import Verif.Props.GraphThreads
/-
C164: a thread that reads a Graph while other threads change it.
-/
namespace Verif
open Spec

/-! ### Statement -/

/-- The threads with their calls, and a thread in `list(graph.match(s, p, o))`, after the steps of the schedule. -/
def readRun (ord : List Stmt → List Stmt) (sh : SharedGraph) (prog : Nat → List Act) (s p o : Option Term) (sched : List RStep) : RSys :=
  RSys.run ord { g := GSys.start sh (fun i => (prog i).map Act.op), rd := { plan := Plan.of (arg s) (arg p) (arg o) } } sched

/-- The reader has gone to the end and has got every matching triple that was there all the time, once, and otherwise only matching triples that were there before or
    that some thread adds. -/
def ReadsWell (S : Finset Tri) (prog : Nat → List Act) (s p o : Option Term) (rd : Reader) : Prop :=
  rd.out = some (.ok ()) ∧ rd.got.Nodup ∧ (∀ x ∈ rd.got, ∃ t : Tri, x = t.stmt ∧ t.Matches s p o ∧ (t ∈ S ∨ ∃ i, .add t ∈ prog i)) ∧
    ∀ t ∈ S, t.Matches s p o → (∀ i, .remove t ∉ prog i) → t.stmt ∈ rd.got

/-- A thread may read a graph while others change it. -/
def C164_statement : Prop :=
  ∀ u before sh, Prepared u before sh → ∀ prog ord, IsOrder ord → ∀ s p o, NonEmpty s → NonEmpty p → NonEmpty o → ∀ sched,
    (readRun ord sh prog s p o sched).rd.pc = .done → ReadsWell (runActs ∅ before) prog s p o (readRun ord sh prog s p o sched).rd

/-! ### Proofs -/

theorem Prepared.tight {u : Term} {before : List Act} {sh : SharedGraph} (h : Prepared u before sh) : Tight sh := by
  obtain ⟨n, -, rfl⟩ := h
  have g0 : (GSys.start (SharedGraph.new u) (fun i => if i = 0 then before.map Act.op else [])).Good := by
    refine .new u (fun i => ?_)
    split
    · exact op_g before
    · simp
  exact Tight.run g0 (fun p k m hne => absurd rfl hne) (GSys.safe_alone _ 0 n (fun _ _ => rfl))

theorem Tight.unborn {sh : SharedGraph} (ht : Tight sh) (h : Shape sh) : Unborn sh := by
  intro p k m hm
  by_contra hne
  have := h.placed _ _ _ (ht p k m hne)
  have key : ∃ m' < sh.next, DRef.made p k m = .made p k m' := by
    match p, this with
    | .root w, h => exact h
    | .made (.root w) a n, h => exact h
    | .made (.made q b n') a n, h => cases q <;> exact h.elim
  obtain ⟨m', h1, h2⟩ := key
  cases h2
  omega

theorem Plan.of_has {s p o : Option Term} (hs : NonEmpty s) (hp : NonEmpty p) (ho : NonEmpty o) (t : Tri) : (Plan.of (arg s) (arg p) (arg o)).Has t.stmt ↔ t.Matches s p o := by
  unfold Tri.Matches
  rw [Graph.agrees_iff hs, Graph.agrees_iff hp, Graph.agrees_iff ho]
  obtain ⟨t1, t2, t3⟩ := t
  unfold Plan.of
  cases (arg s).truthy <;> cases (arg p).truthy <;> cases (arg o).truthy <;> simp [Plan.Has, Graph.Ix.keys, Tri.stmt, mkTriple, and_comm]

theorem Plan.list_of (ord : List Stmt → List Stmt) (g : Graph) (s p o : Term) : g.match ord s p o = (match Plan.of s p o with
    | .bound t => if g.contains t then [t] else []
    | .two w a b => if (g.ix w).has a && ((g.ix w).l1 a).has b then ((g.ix w).l2 a b).values else []
    | .one w a => if (g.ix w).has a then ((g.ix w).l1 a).keys.flatMap fun b => ((g.ix w).l2 a b).values else []
    | .all => ord g.triples) := by
  unfold Graph.match Plan.of
  cases s.truthy <;> cases p.truthy <;> cases o.truthy <;> rfl

/-- What every run has. -/
theorem readRun_ok {u : Term} {before : List Act} {sh : SharedGraph} (h : Prepared u before sh) (prog : Nat → List Act) {ord} (hord : IsOrder ord) (s p o : Option Term) (sched : List RStep) :
    (readRun ord sh prog s p o sched).Ok (fun x => ∃ t : Tri, x = t.stmt ∧ (t ∈ runActs ∅ before ∨ ∃ i, .add t ∈ prog i)) := by
  obtain ⟨g, r, -, hh⟩ := h.good prog
  refine RSys.Ok.run hord ⟨g.shaped, h.tight.unborn g.shaped.heap, ⟨fun r' k t e => ?_, fun i t ht => ?_, fun i t w e => by cases e⟩, fun t ht => ?_, ?_, by simp, Or.inl rfl⟩ sched
  · obtain ⟨t', h1, h2⟩ := hh r' k t e
    exact ⟨t', h2, Or.inl h1⟩
  · obtain ⟨a, ha, e⟩ := List.mem_map.1 ht
    cases a with
    | add t' => cases e; exact ⟨t', rfl, Or.inr ⟨i, ha⟩⟩
    | remove t' => cases e
  · obtain ⟨t', h1, h2⟩ := (r.2 t).1 ht
    exact ⟨t', h2, Or.inl h1⟩
  · show RdOk _ _ (Plan.of _ _ _) .start
    cases Plan.of (arg s) (arg p) (arg o) <;> exact trivial

theorem RSys.plan_step (ord) (s : RSys) (x : RStep) : (s.step ord x).rd.plan = s.rd.plan := by
  obtain ⟨g, plan, pc, got, out⟩ := s
  cases x with
  | write i => rfl
  | read c =>
    cases plan with
    | bound t => cases pc <;> simp [RSys.step, Reader.step, Reader.stepBound, Reader.finish] <;> split <;> rfl
    | all =>
      cases pc <;> simp [RSys.step, Reader.step, Reader.stepAll, Reader.finish]
      repeat' split
      all_goals rfl
    | two w a b =>
      cases pc <;> simp [RSys.step, Reader.step, Reader.stepIn, Reader.finish, Reader.leave] <;> (repeat' split) <;> rfl
    | one w a =>
      cases pc <;> simp [RSys.step, Reader.step, Reader.stepIn, Reader.finish, Reader.leave] <;> (repeat' split) <;> rfl

theorem RSys.plan_run (ord) (s : RSys) (sched : List RStep) : (s.run ord sched).rd.plan = s.rd.plan := by
  induction sched generalizing s with
  | nil => rfl
  | cons x sched ih => exact (ih (s.step ord x)).trans (s.plan_step ord x)

/-- For every number of threads, all calls and every schedule, also in the middle: the reader has got only triples that fit the pattern and that were there before or that some
    thread adds, and it ends in order or with RuntimeError. -/
theorem C164_sound (u : Term) (before : List Act) (sh : SharedGraph) (h : Prepared u before sh) (prog : Nat → List Act) {ord} (hord : IsOrder ord)
    {s p o : Option Term} (hs : NonEmpty s) (hp : NonEmpty p) (ho : NonEmpty o) (sched : List RStep) :
    (∀ x ∈ (readRun ord sh prog s p o sched).rd.got, ∃ t : Tri, x = t.stmt ∧ t.Matches s p o ∧ (t ∈ runActs ∅ before ∨ ∃ i, .add t ∈ prog i)) ∧
      ((readRun ord sh prog s p o sched).rd.out = none ∨ (readRun ord sh prog s p o sched).rd.out = some (.ok ()) ∨
        (readRun ord sh prog s p o sched).rd.out = some (.error .runtimeError)) := by
  have ok := readRun_ok h prog hord s p o sched
  refine ⟨fun x hx => ?_, ok.ended⟩
  obtain ⟨⟨t, rfl, ht⟩, h2⟩ := ok.got x hx
  rw [show (readRun ord sh prog s p o sched).rd.plan = Plan.of (arg s) (arg p) (arg o) from RSys.plan_run ..] at h2
  exact ⟨t, rfl, (Plan.of_has hs hp ho t).1 h2, ht⟩

/-! ### Threads that leave alone what is read -/

theorem Dict.collect_values {α : Type} (f : DVal → Option α) (d : Dict Term DVal) (wf : d.WF) : (Dict.collect f d).values = (Dict.keys d).filterMap (fun k => (d.get? k).bind f) := by
  induction d with
  | nil => rfl
  | cons kv d ih =>
    obtain ⟨k, v⟩ := kv
    have hk : k ∉ Dict.keys d := (List.nodup_cons.1 wf).1
    have e1 : (Dict.keys ((k, v) :: d)).filterMap (fun x => (Dict.get? ((k, v) :: d) x).bind f) = (match f v with | some y => [y] | none => []) ++ (Dict.keys d).filterMap (fun x => (Dict.get? d x).bind f) := by
      show List.filterMap _ (k :: Dict.keys d) = _
      rw [List.filterMap_cons, show Dict.get? ((k, v) :: d) k = some v by simp [Dict.get?]]
      have e2 : (Dict.keys d).filterMap (fun x => (Dict.get? ((k, v) :: d) x).bind f) = (Dict.keys d).filterMap (fun x => (Dict.get? d x).bind f) := by
        refine List.filterMap_congr (fun x hx => ?_)
        have : k ≠ x := fun e => hk (e ▸ hx)
        simp [Dict.get?, this]
      rw [e2]
      show (match f v with | none => _ | some b => _) = _
      cases f v <;> rfl
    rw [e1, ← ih (List.nodup_cons.1 wf).2, Dict.collect_cons]
    cases f v <;> rfl

theorem Dict.collect_keys {α : Type} {f : DVal → Option α} {d : Dict Term DVal} (acc : ∀ kv ∈ d, (f kv.2).isSome) : (Dict.collect f d).keys = Dict.keys d := by
  induction d with
  | nil => rfl
  | cons kv d ih =>
    obtain ⟨k, v⟩ := kv
    have h1 := acc (k, v) (List.mem_cons_self ..)
    have h2 := ih (fun kv h => acc kv (List.mem_cons_of_mem _ h))
    rw [Dict.collect_cons]
    cases hf : f v with
    | none => rw [show f (k, v).2 = f v from rfl, hf] at h1; cases h1
    | some y => show k :: Dict.keys _ = k :: Dict.keys d; rw [h2]

theorem SharedGraph.under_eq {sh0 : SharedGraph} (hS : Shape sh0) {w : Graph.Ix} {a x : Term} {m : Nat} :
    sh0.under (.made (.root w) a m) x = (((sh0.mid (.made (.root w) a m)).get? x).getD []).values := by
  unfold SharedGraph.under
  cases hv : (sh0.heap (.made (.root w) a m)).get? x with
  | none => rw [SharedGraph.mid_get_none hS hv]; rfl
  | some v =>
    have pl := hS.placed _ _ _ hv
    cases v with
    | stmt t => exact pl.elim
    | dict r2 =>
      rw [SharedGraph.mid_get hS hv]
      show _ = (sh0.leaf r2).values
      unfold SharedGraph.leaf
      rw [Dict.collect_values _ _ (hS.wf _)]
      rfl

theorem Result.two_of {sh0 : SharedGraph} (hS : Shape sh0) (hT : Tight sh0) (w : Graph.Ix) (a b : Term) :
    Result sh0 w a (some b) (if (sh0.top w).has a && ((sh0.top w).l1 a).has b then ((sh0.top w).l2 a b).values else []) := by
  have e0 : (if (sh0.top w).has a && ((sh0.top w).l1 a).has b then ((sh0.top w).l2 a b).values else []) = ((sh0.top w).l2 a b).values := by
    split
    · rfl
    · next hh =>
      symm
      unfold Idx.l2
      cases h1 : Dict.get? (sh0.top w) a with
      | none => simp [Idx.l1, h1, Dict.get?, Dict.values]
      | some x =>
        cases h2 : ((sh0.top w).l1 a).get? b with
        | none => rfl
        | some y => exact absurd (by simp [Dict.has, h1, h2]) hh
  rw [e0]
  refine ⟨fun hn => ?_, fun r1 x hg hx => ?_, fun r1 _ e => by cases e⟩
  · unfold Idx.l2 Idx.l1
    rw [SharedGraph.top_get_none hS hn]
    rfl
  · cases hx
    obtain ⟨⟨m, rfl⟩, h2⟩ := hg
    cases hr : (sh0.heap (.root w)).get? a with
    | none =>
      have he : sh0.heap (.made (.root w) a m) = [] := by
        by_contra hne
        rw [hT _ _ _ hne] at hr
        cases hr
      unfold Idx.l2 Idx.l1 SharedGraph.under
      rw [SharedGraph.top_get_none hS hr, he]
      rfl
    | some v =>
      have := h2 v hr
      subst this
      rw [SharedGraph.under_eq hS]
      unfold Idx.l2 Idx.l1
      rw [SharedGraph.top_get hS hr]
      rfl

theorem Result.one_of {sh0 : SharedGraph} (hS : Shape sh0) (hT : Tight sh0) (w : Graph.Ix) (a : Term) :
    Result sh0 w a Option.none (if (sh0.top w).has a then ((sh0.top w).l1 a).keys.flatMap fun b => ((sh0.top w).l2 a b).values else []) := by
  refine ⟨fun hn => ?_, fun r1 x _ e => (by cases e), fun r1 hg _ => ?_⟩
  · have := SharedGraph.top_get_none hS hn
    rw [if_neg (by simp [Dict.has, this])]
  · obtain ⟨⟨m, rfl⟩, h2⟩ := hg
    cases hr : (sh0.heap (.root w)).get? a with
    | none =>
      have he : sh0.heap (.made (.root w) a m) = [] := by
        by_contra hne
        rw [hT _ _ _ hne] at hr
        cases hr
      have := SharedGraph.top_get_none hS hr
      rw [if_neg (by simp [Dict.has, this]), he]
      rfl
    | some v =>
      have := h2 v hr
      subst this
      have ht := SharedGraph.top_get hS hr
      rw [if_pos (by simp [Dict.has, ht])]
      have e1 : (sh0.top w).l1 a = sh0.mid (.made (.root w) a m) := by unfold Idx.l1; rw [ht]; rfl
      unfold Idx.l2
      rw [e1]
      have e2 : (sh0.mid (.made (.root w) a m)).keys = (sh0.heap (.made (.root w) a m)).keys := Dict.collect_keys (SharedGraph.acc_mid hS w a m _)
      rw [e2]
      congr 1
      funext x
      exact (SharedGraph.under_eq hS).symm


/-- The statements the plan is about are read in the graph `sh0`. -/
def CalmRun (ord : List Stmt → List Stmt) (sh0 : SharedGraph) (R : List Stmt) (s : RSys) : Prop :=
  match s.rd.plan with
  | .bound t => (t ∈ s.g.sh.triples ↔ t ∈ sh0.triples) ∧ (match s.rd.pc with
      | .start => s.rd.got = []
      | .after => s.rd.got = R
      | .done => s.rd.got = R ∧ s.rd.out = some (.ok ())
      | _ => False)
  | .two w a b => Frozen sh0 w a (some b) s.g ∧ RCalm sh0 w a (some b) R s.rd
  | .one w a => Frozen sh0 w a none s.g ∧ RCalm sh0 w a none R s.rd
  | .all => s.g.sh.triples = sh0.triples ∧ (match s.rd.pc with
      | .start => s.rd.got = []
      | .set size rest dirty => dirty = false ∧ size = sh0.triples.length ∧ s.rd.got ++ rest = R
      | .done => s.rd.got = R ∧ s.rd.out = some (.ok ())
      | _ => False)

theorem SharedGraph.mem_triples_step (sh : SharedGraph) (th : GThread) (t : Stmt) (h : .add t ∉ th.todo ∧ .remove t ∉ th.todo) : t ∈ (sh.step th).1.triples ↔ t ∈ sh.triples := by
  rcases sh.step_begins th with ⟨-, op, rest, h1, -, h3⟩ | ⟨-, -, h3⟩
  · rw [h3]
    rw [h1] at h
    cases op with
    | add t' =>
      have : t ≠ t' := fun e => h.1 (e ▸ List.mem_cons_self ..)
      simp only [ThOp.onSet, Graph.setAdd]
      split <;> simp [this]
    | remove t' =>
      have : t ≠ t' := fun e => h.2 (e ▸ List.mem_cons_self ..)
      exact List.mem_erase_of_ne this
  · rw [h3]

theorem SharedGraph.triples_step_nil (sh : SharedGraph) (th : GThread) (h : th.todo = []) : (sh.step th).1.triples = sh.triples := by
  rcases sh.step_begins th with ⟨-, op, rest, h1, -⟩ | ⟨-, -, h3⟩
  · rw [h] at h1; cases h1
  · exact h3

theorem CalmRun.write {P : Stmt → Prop} {ord : List Stmt → List Stmt} {sh0 : SharedGraph} {R : List Stmt} {s : RSys} (h : CalmRun ord sh0 R s) (ok : s.Ok P) {prog : Nat → List Act}
    (own : OwnCalls prog s.g) (calm : ∀ i, ∀ a ∈ prog i, ¬ s.rd.plan.Has a.tri.stmt) (i : Nat) : CalmRun ord sh0 R (s.step ord (.write i)) := by
  obtain ⟨g, plan, pc, got, out⟩ := s
  have calmAt : ∀ op w', (g.threads i).pc.at = some (op, w') → ¬ plan.Has op.stmt := by
    intro op w' e
    obtain ⟨a, ha, rfl⟩ := (own i).2 op w' e
    rw [Act.op_stmt]
    exact calm i a ha
  have calmTodo : ∀ op ∈ (g.threads i).todo, ¬ plan.Has op.stmt := by
    intro op e
    obtain ⟨a, ha, rfl⟩ := (own i).1 op e
    rw [Act.op_stmt]
    exact calm i a ha
  cases plan with
  | bound t =>
    obtain ⟨h1, h2⟩ := h
    refine ⟨?_, ?_⟩
    · refine Iff.trans ?_ h1
      exact SharedGraph.mem_triples_step _ _ t ⟨fun e => calmTodo _ e rfl, fun e => calmTodo _ e rfl⟩
    · cases pc <;> exact h2
  | two w a b =>
    obtain ⟨h1, h2⟩ := h
    have f' := h1.write ok.shaped ok.unborn i (fun op w' e e1 e2 => calmAt op w' e ⟨e1, e2 b rfl⟩)
    refine ⟨f', ?_⟩
    show RCalm sh0 w a (some b) R ⟨.two w a b, pc.touch g.sh (g.step i).sh, got, out⟩
    rw [show pc.touch g.sh (g.step i).sh = pc from RCalm.touch h1 f' h2]
    exact h2
  | one w a =>
    obtain ⟨h1, h2⟩ := h
    have f' := h1.write ok.shaped ok.unborn i (fun op w' e e1 e2 => calmAt op w' e e1)
    refine ⟨f', ?_⟩
    show RCalm sh0 w a none R ⟨.one w a, pc.touch g.sh (g.step i).sh, got, out⟩
    rw [show pc.touch g.sh (g.step i).sh = pc from RCalm.touch h1 f' h2]
    exact h2
  | all =>
    obtain ⟨h1, h2⟩ := h
    have ht : (g.step i).sh.triples = g.sh.triples := SharedGraph.triples_step_nil _ _ (List.eq_nil_iff_forall_not_mem.2 (fun op e => calmTodo op e trivial))
    refine ⟨ht.trans h1, ?_⟩
    cases pc <;> first | exact h2 | skip
    next size rest dirty =>
      obtain ⟨h3, h4, h5⟩ := h2
      refine ⟨?_, h4, h5⟩
      show (dirty || decide ((g.step i).sh.triples ≠ g.sh.triples)) = false
      rw [ht, h3]
      simp

theorem CalmRun.read {P : Stmt → Prop} {ord : List Stmt → List Stmt} (hord : IsOrder ord) {sh0 : SharedGraph} (hT : Tight sh0) (hS0 : Shape sh0) {s' p o : Term} {s : RSys}
    (hp : s.rd.plan = Plan.of s' p o) (h : CalmRun ord sh0 (sh0.graph.match ord s' p o) s) (ok : s.Ok P) (c : Nat) :
    CalmRun ord sh0 (sh0.graph.match ord s' p o) (s.step ord (.read c)) := by
  obtain ⟨g, plan, pc, got, out⟩ := s
  have hR := Plan.list_of ord sh0.graph s' p o
  rw [← show plan = Plan.of s' p o from hp] at hR
  cases plan with
  | bound t =>
    obtain ⟨h1, h2⟩ := h
    have hR : sh0.graph.match ord s' p o = if sh0.graph.contains t then [t] else [] := hR
    unfold CalmRun
    rw [RSys.plan_step]
    refine ⟨h1, ?_⟩
    cases pc <;> first | exact h2.elim | skip
    · have hg : got = [] := h2
      unfold RSys.step Reader.step Reader.stepBound
      dsimp only
      by_cases ht : t ∈ g.sh.triples
      · rw [if_pos ht]
        show got ++ [t] = _
        rw [hR, hg, if_pos (show sh0.graph.contains t = true from decide_eq_true (h1.1 ht))]
        rfl
      · rw [if_neg ht]
        refine ⟨?_, rfl⟩
        show got = _
        rw [hR, hg, if_neg (fun e : sh0.graph.contains t = true => ht (h1.2 (of_decide_eq_true e)))]
    · exact ⟨h2, rfl⟩
    · exact h2
  | two w a b =>
    obtain ⟨h1, h2⟩ := h
    have hR' : Result sh0 w a (some b) (sh0.graph.match ord s' p o) := by
      rw [hR]; dsimp only; rw [SharedGraph.graph_ix]; exact Result.two_of hS0 hT w a b
    obtain ⟨r1, r2⟩ := h2.read hT hS0 h1 hR' ok.shaped.heap c ok.pc
    have e0 : (RSys.step ord ⟨g, .two w a b, pc, got, out⟩ (.read c)) =
        { g := { g with sh := (Reader.stepIn g.sh c ⟨.two w a b, pc, got, out⟩ w a (some b)).1 },
          rd := { (Reader.stepIn g.sh c ⟨.two w a b, pc, got, out⟩ w a (some b)).2 with
            pc := (Reader.stepIn g.sh c ⟨.two w a b, pc, got, out⟩ w a (some b)).2.pc.touch g.sh (Reader.stepIn g.sh c ⟨.two w a b, pc, got, out⟩ w a (some b)).1 } } := rfl
    have ep := RSys.plan_step ord ⟨g, .two w a b, pc, got, out⟩ (.read c)
    unfold CalmRun
    rw [ep, e0]
    dsimp only at r1 r2 ⊢
    rw [r1, RCalm.touch h1 h1 r2]
    exact ⟨h1, r2⟩
  | one w a =>
    obtain ⟨h1, h2⟩ := h
    have hR' : Result sh0 w a none (sh0.graph.match ord s' p o) := by
      rw [hR]; dsimp only; rw [SharedGraph.graph_ix]; exact Result.one_of hS0 hT w a
    obtain ⟨r1, r2⟩ := h2.read hT hS0 h1 hR' ok.shaped.heap c ok.pc
    have e0 : (RSys.step ord ⟨g, .one w a, pc, got, out⟩ (.read c)) =
        { g := { g with sh := (Reader.stepIn g.sh c ⟨.one w a, pc, got, out⟩ w a none).1 },
          rd := { (Reader.stepIn g.sh c ⟨.one w a, pc, got, out⟩ w a none).2 with
            pc := (Reader.stepIn g.sh c ⟨.one w a, pc, got, out⟩ w a none).2.pc.touch g.sh (Reader.stepIn g.sh c ⟨.one w a, pc, got, out⟩ w a none).1 } } := rfl
    have ep := RSys.plan_step ord ⟨g, .one w a, pc, got, out⟩ (.read c)
    unfold CalmRun
    rw [ep, e0]
    dsimp only at r1 r2 ⊢
    rw [r1, RCalm.touch h1 h1 r2]
    exact ⟨h1, r2⟩
  | all =>
    obtain ⟨h1, h2⟩ := h
    have h1 : g.sh.triples = sh0.triples := h1
    have hR : sh0.graph.match ord s' p o = ord sh0.triples := hR
    rw [hR] at h2 ⊢
    unfold CalmRun
    rw [RSys.plan_step]
    refine ⟨h1, ?_⟩
    cases pc <;> first | exact h2.elim | skip
    · have hg : got = [] := h2
      refine ⟨(show (false || decide (g.sh.triples ≠ g.sh.triples)) = false by simp), ?_, ?_⟩
      · show g.sh.triples.length = _; rw [h1]
      · show got ++ ord g.sh.triples = _; rw [h1, hg]; rfl
    · next size rest dirty =>
      obtain ⟨h3, h4, h5⟩ := h2
      have h5 : got ++ rest = ord sh0.triples := h5
      subst h3
      unfold RSys.step Reader.step Reader.stepAll
      dsimp only
      rw [if_neg (by rw [h1, h4]; simp), if_neg (by simp)]
      cases rest with
      | nil => exact ⟨(show got = _ by rw [← h5]; simp), rfl⟩
      | cons t rest => exact ⟨(show (false || decide (g.sh.triples ≠ g.sh.triples)) = false by simp), h4, (show (got ++ [t]) ++ rest = _ by rw [← h5]; simp)⟩
    · exact h2

theorem CalmRun.run {P : Stmt → Prop} {ord : List Stmt → List Stmt} (hord : IsOrder ord) {sh0 : SharedGraph} (hT : Tight sh0) (hS0 : Shape sh0) {s' p o : Term} {s : RSys}
    (hp : s.rd.plan = Plan.of s' p o) (h : CalmRun ord sh0 (sh0.graph.match ord s' p o) s) (ok : s.Ok P) {prog : Nat → List Act}
    (own : OwnCalls prog s.g) (calm : ∀ i, ∀ a ∈ prog i, ¬ s.rd.plan.Has a.tri.stmt) (sched : List RStep) :
    CalmRun ord sh0 (sh0.graph.match ord s' p o) (s.run ord sched) := by
  induction sched generalizing s with
  | nil => exact h
  | cons x sched ih =>
    have e := s.plan_step ord x
    cases x with
    | write i => exact ih (e.trans hp) (h.write ok own calm i) (ok.write i) (own.step i) (fun j a ha => by rw [e]; exact calm j a ha)
    | read c => exact ih (e.trans hp) (h.read hord hT hS0 hp ok c) (ok.read hord c) own (fun j a ha => by rw [e]; exact calm j a ha)

/-- If no call of another thread is about a triple that matches, the reader goes to the end and gets what `match` gives of the graph as it was. -/
theorem C164_partial (u : Term) (before : List Act) (sh : SharedGraph) (h : Prepared u before sh) (prog : Nat → List Act) {ord} (hord : IsOrder ord)
    {s p o : Option Term} (hs : NonEmpty s) (hp : NonEmpty p) (ho : NonEmpty o) (calm : ∀ i, ∀ a ∈ prog i, ¬ a.tri.Matches s p o) (sched : List RStep)
    (hd : (readRun ord sh prog s p o sched).rd.pc = .done) :
    (readRun ord sh prog s p o sched).rd.out = some (.ok ()) ∧ (readRun ord sh prog s p o sched).rd.got = sh.graph.match ord (arg s) (arg p) (arg o) ∧
      (readRun ord sh prog s p o sched).rd.got.Nodup ∧
      ∀ x, x ∈ (readRun ord sh prog s p o sched).rd.got ↔ ∃ t ∈ runActs ∅ before, x = t.stmt ∧ t.Matches s p o := by
  obtain ⟨g, r, -⟩ := h.good prog
  have rep : Graph.Rep sh.graph (runActs ∅ before) := ⟨g.inv (fun i => rfl), r.2⟩
  have ok0 := readRun_ok h prog hord s p o []
  have c0 : CalmRun ord sh (sh.graph.match ord (arg s) (arg p) (arg o)) (readRun ord sh prog s p o []) := by
    have fr : ∀ w a b, Frozen sh w a b (GSys.start sh (fun i => (prog i).map Act.op)) := fun w a b =>
      ⟨fun v hv => ⟨hv, fun i op r e => (by cases e)⟩, fun _ _ _ => rfl, fun _ _ => rfl, fun _ _ _ _ => rfl⟩
    show CalmRun ord sh _ ⟨GSys.start sh (fun i => (prog i).map Act.op), { plan := Plan.of (arg s) (arg p) (arg o) }⟩
    cases Plan.of (arg s) (arg p) (arg o) with
    | bound t => exact ⟨Iff.rfl, rfl⟩
    | two w a b => exact ⟨fr _ _ _, rfl⟩
    | one w a => exact ⟨fr _ _ _, rfl⟩
    | all => exact ⟨rfl, rfl⟩
  have own0 : OwnCalls prog (readRun ord sh prog s p o []).g := by
    intro i
    refine ⟨fun op ho => ?_, fun op w e => by cases e⟩
    obtain ⟨a, ha, e⟩ := List.mem_map.1 ho
    exact ⟨a, ha, e.symm⟩
  have c1 := CalmRun.run hord h.tight g.shaped.heap rfl c0 ok0 own0 (fun i a ha e => calm i a ha ((Plan.of_has hs hp ho a.tri).1 e)) sched
  have e0 : RSys.run ord (readRun ord sh prog s p o []) sched = readRun ord sh prog s p o sched := rfl
  rw [e0] at c1
  have key : (readRun ord sh prog s p o sched).rd.got = sh.graph.match ord (arg s) (arg p) (arg o) ∧ (readRun ord sh prog s p o sched).rd.out = some (.ok ()) := by
    revert c1 hd
    generalize readRun ord sh prog s p o sched = z
    obtain ⟨g, plan, pc, got, out⟩ := z
    rintro hd c1
    have hd : pc = .done := hd
    subst hd
    cases plan with
    | bound t => exact c1.2
    | two w a b => exact c1.2
    | one w a => exact c1.2
    | all => exact c1.2
  refine ⟨key.2, key.1, ?_, ?_⟩
  · rw [key.1]; exact Graph.nodup_match rep.inv.toIxInv hord _ _ _
  · rw [key.1]; exact rep.mem_match hord hs hp ho


/-! ### What may go wrong -/

/-- One thread with these calls. -/
def oneThread (l : List Act) : Nat → List Act := fun i => if i = 0 then l else []

/-- The graph with one triple; a thread adds another with the same subject while the reader is in the loop. -/
def raisesRun : RSys :=
  readRun id (aloneRun .none [.add exT1] 16).sh (oneThread [.add exT2]) (some exA) none none (List.replicate 9 (.read 0) ++ List.replicate 16 (.write 0) ++ [.read 0])

theorem prepared_one : Prepared .none [.add exT1] (aloneRun .none [.add exT1] 16).sh := by
  refine ⟨16, fun i => ?_, rfl⟩
  by_cases e : i = 0
  · subst e; decide
  · rw [show (aloneRun .none [.add exT1] 16).threads i = _ from GSys.run_other _ _ i (by simp [e])]
    simp [GSys.start, e]

set_option maxRecDepth 20000 in
/-- The reader ends with RuntimeError, after it has got the triple that was there. -/
theorem C164_raises : raisesRun.rd.pc = .done ∧ raisesRun.rd.out = some (.error .runtimeError) ∧ raisesRun.rd.got = [exT1.stmt] := by decide

theorem C164_refuted : ¬ C164_statement := by
  intro h
  have h1 := (h .none [.add exT1] _ prepared_one (oneThread [.add exT2]) id isOrder_id (some exA) none none (by intro a e; cases e; decide) (by intro a e; cases e)
    (by intro a e; cases e) _ C164_raises.1).1
  have h2 : raisesRun.rd.out = some (.ok ()) := h1
  rw [C164_raises.2.1] at h2
  cases h2


/-- The `n`-th of some triples with the same subject and predicate. -/
def exO (n : Nat) : Tri := ⟨exA, exB, .named [n]⟩

/-- The graph has five of them. When the reader has got the first, a thread removes it and adds another: there are five again, and CPython moves the entries that stay to the
    front of a new table. The reader goes on at the second entry. -/
def skipsRun : RSys :=
  readRun id (aloneRun .none [.add (exO 1), .add (exO 2), .add (exO 3), .add (exO 4), .add (exO 5)] 80).sh (oneThread [.remove (exO 1), .add (exO 9)]) (some exA) (some exB) none
    (List.replicate 8 (.read 0) ++ List.replicate 32 (.write 0) ++ [.read 1, .read 2, .read 3, .read 4, .read 5])

set_option maxRecDepth 100000 in
set_option maxHeartbeats 1000000 in
/-- The reader ends in order and has not got a triple that was there all the time. -/
theorem C164_skips : skipsRun.rd.pc = .done ∧ skipsRun.rd.out = some (.ok ()) ∧ (exO 2).stmt ∉ skipsRun.rd.got ∧
    skipsRun.rd.got = [(exO 1).stmt, (exO 3).stmt, (exO 4).stmt, (exO 5).stmt, (exO 9).stmt] := by decide

/-- A reader that is not disturbed. -/
example : (readRun id (aloneRun .none [.add exT1] 16).sh (oneThread [.add ⟨exB, exB, exC⟩]) (some exA) none none
    ((List.replicate 12 [.read 0, .write 0]).flatten)).rd.pc = .done := by decide

end Verif
