import Verif.Lemmas.DatasetThreadsRun
import Verif.Props.GraphThreads
import Verif.Props.Dataset
/-
C163: threads that add to and remove from one Dataset.
-/
namespace Verif
open Spec

/-! ### Statement -/

/-- Membership, len, iteration and `match` are those of the set. -/
def ShowsQuads (ds : Dataset) (S : Finset Qd) : Prop :=
  (∀ q : Qd, ds.containsQuad q.s q.p q.o q.g = true ↔ q ∈ S) ∧ ds.len = S.card ∧
    ∀ ord, IsOrders ord → ((ds.iter ord).Nodup ∧ ∀ x, x ∈ ds.iter ord ↔ ∃ q ∈ S, x = q.stmt) ∧
      ∀ s p o g, NonEmpty s → NonEmpty p → NonEmpty o → NonEmpty g →
        (ds.match ord (arg s) (arg p) (arg o) (arg g)).2.Nodup ∧
          ∀ x, x ∈ (ds.match ord (arg s) (arg p) (arg o) (arg g)).2 ↔ ∃ q ∈ S, x = q.stmt ∧ q.Matches s p o g

/-- A thread that makes its calls alone on a new dataset. -/
def quadsAlone (before : List QAct) (n : Nat) : DSys := (DSys.new (fun i => if i = 0 then before.map QAct.op else [])).run (List.replicate n 0)

/-- The dataset that one thread has made with the calls `before`. -/
def QPrepared (before : List QAct) (s : DSys) : Prop := ∃ n, (quadsAlone before n).Finished ∧ s = quadsAlone before n

/-- The threads with their calls about to run. -/
def quadStart (s : DSys) (prog : Nat → List QAct) : DSys := s.restart (fun i => (prog i).map QAct.op)

/-- The threads with their calls, after the steps of the schedule. -/
def quadThreads (s : DSys) (prog : Nat → List QAct) (sched : List Nat) : DSys := (quadStart s prog).run sched

/-- The calls have had the effects and outcomes they have one after the other in the order `l`. -/
def QAsIf (S : Finset Qd) (s : DSys) (l : List (Nat × QAct)) : Prop :=
  ShowsQuads s.dataset (runQActs S (l.map Prod.snd)) ∧ ∀ i, (s.threads i).outs = (qresults i S l).map outcomeOf

/-- Threads may share a dataset: when all have finished, it is as if the calls had been made one after the other. -/
def C163_statement : Prop :=
  ∀ before s, QPrepared before s → ∀ prog sched, (quadThreads s prog sched).Finished →
    ∃ l, Interleaves l prog ∧ QAsIf (runQActs ∅ before) (quadThreads s prog sched) l

/-! ### Proofs -/

theorem Dataset.Rep.shows {ds : Dataset} {S : Finset Qd} (h : Dataset.Rep ds S) : ShowsQuads ds S :=
  ⟨h.contains, h.len, fun _ hord => ⟨⟨h.nodup_iter hord, h.mem_iter hord⟩, fun _ _ _ _ h1 h2 h3 h4 => ⟨h.nodup_match hord _ _ _ _, h.mem_match hord h1 h2 h3 h4⟩⟩⟩

theorem onQuads_acts (S : Finset Qd) (l : List (Nat × QAct)) :
    ((l.map (fun x => (x.1, x.2.op))).map Prod.snd).foldl DThOp.onQuads S = runQActs S (l.map Prod.snd) := by
  induction l generalizing S with
  | nil => rfl
  | cons x l ih =>
    show List.foldl DThOp.onQuads (x.2.op.onQuads S) _ = runQActs (x.2.apply S) _
    rw [QAct.op_onQuads]; exact ih _

theorem outcomes_acts (i : Nat) (S : Finset Qd) (l : List (Nat × QAct)) : DThOp.outcomes i S (l.map (fun x => (x.1, x.2.op))) = (qresults i S l).map outcomeOf := by
  induction l generalizing S with
  | nil => rfl
  | cons x l ih =>
    obtain ⟨j, a⟩ := x
    have e : a.op.outcome S = outcomeOf (decide (a.succeeds S)) := by
      cases a with
      | add t => rw [decide_eq_true (show (QAct.add t).succeeds S from trivial)]; rfl
      | remove t =>
        by_cases hm : t ∈ S
        · rw [decide_eq_true (show (QAct.remove t).succeeds S from hm)]; exact if_pos hm
        · rw [decide_eq_false (show ¬ (QAct.remove t).succeeds S from hm)]; exact if_neg hm
    simp only [List.map_cons, DThOp.outcomes, qresults, List.map_append, QAct.op_onQuads, ih, e]
    split <;> simp

theorem qop_mem (l : List QAct) : ∀ op ∈ l.map QAct.op, ∃ a : QAct, op = a.op := by
  intro op h
  obtain ⟨a, -, rfl⟩ := List.mem_map.1 h
  exact ⟨a, rfl⟩

/-- A run without clashes. -/
theorem DSys.Ok.asIf {s : DSys} {S : Finset Qd} (h : s.Good S) {prog : Nat → List QAct} (h0 : ∀ i, s.threads i = { todo := (prog i).map QAct.op }) {sched : List Nat}
    (hs : s.Safe sched) (hf : (s.run sched).Finished) :
    ∃ l, Interleaves l prog ∧ (s.run sched).Good (runQActs S (l.map Prod.snd)) ∧ QAsIf S (s.run sched) l := by
  obtain ⟨g1, g2⟩ := h.run hs
  have c0 : ∀ k, s.coming k = (prog k).map QAct.op := fun k => by unfold DSys.coming; rw [h0 k]; rfl
  have c1 : ∀ k, (s.run sched).coming k = [] := fun k => by unfold DSys.coming; rw [(hf k).1, (hf k).2]; rfl
  have p0 : ∀ k, s.pend k = [] := fun k => by unfold DSys.pend; rw [h0 k]
  have p1 : ∀ k, (s.run sched).pend k = [] := fun k => by unfold DSys.pend; rw [(hf k).1]
  obtain ⟨l, e, hi⟩ := order_map (prog := prog) (f := QAct.op) (l := s.order sched) (fun k => by have := (g2 k).1; rw [c0, c1, List.append_nil] at this; exact this)
  rw [e, onQuads_acts] at g1
  refine ⟨l, hi, g1, (g1.rep (fun j => (hf j).1)).shows, fun k => ?_⟩
  have := (g2 k).2
  rw [p0, p1, h0 k, e, outcomes_acts] at this
  simpa using this

/-- A schedule in which no thread makes a step while another is in a call, as with a lock around each call. -/
def QLocked : DSys → List Nat → Prop
  | _, [] => True
  | s, i :: sched => (∀ j, j ≠ i → (s.threads j).pc = .idle) ∧ QLocked (s.step i) sched

theorem QLocked.safe {s : DSys} {sched : List Nat} (h : QLocked s sched) : s.Safe sched := by
  induction sched generalizing s with
  | nil => trivial
  | cons i sched ih =>
    refine ⟨fun j hj op op' _ e => ?_, ih h.2⟩
    rw [h.1 j hj] at e; cases e

theorem QLocked.alone (s : DSys) (i n : Nat) (h : ∀ j, j ≠ i → (s.threads j).pc = .idle) : QLocked s (List.replicate n i) := by
  induction n generalizing s with
  | zero => trivial
  | succ n ih => exact ⟨h, ih (s.step i) (fun j hj => by rw [DSys.step_other s hj]; exact h j hj)⟩

theorem qprog_zero (before : List QAct) (i : Nat) : (if i = 0 then before.map QAct.op else []) = (if i = 0 then before else []).map QAct.op := by split <;> rfl

theorem qinterleaves_zero {l : List (Nat × QAct)} {before : List QAct} (h : Interleaves l (fun i => if i = 0 then before else [])) : l.map Prod.snd = before := by
  have h0 := h 0
  have : l.filter (fun x => x.1 = 0) = l := by
    rw [List.filter_eq_self]
    intro x hx
    by_contra hne
    have h1 : (l.filter (fun y => y.1 = x.1)).map Prod.snd = [] := by rw [h x.1]; simp at hne; simp [hne]
    rw [List.map_eq_nil_iff, List.filter_eq_nil_iff] at h1
    exact h1 x hx (by simp)
  rw [this] at h0
  simpa using h0

theorem quadsAlone_good (before : List QAct) : (DSys.new (fun i => if i = 0 then before.map QAct.op else [])).Good ∅ :=
  .new (fun j => by rw [qprog_zero]; exact qop_mem _)

theorem QPrepared.good {before : List QAct} {s : DSys} (h : QPrepared before s) : s.Good (runQActs ∅ before) ∧ s.Finished := by
  obtain ⟨n, hf, rfl⟩ := h
  obtain ⟨l, hi, g, -⟩ := (quadsAlone_good before).asIf (prog := fun i => if i = 0 then before else []) (fun i => by show DThread.mk _ (if i = 0 then before.map QAct.op else []) _ = _; rw [qprog_zero])
    (QLocked.alone _ 0 n (fun _ _ => rfl)).safe hf
  rw [qinterleaves_zero hi] at g
  exact ⟨g, hf⟩

theorem QPrepared.start {before : List QAct} {s : DSys} (h : QPrepared before s) (prog : Nat → List QAct) : (quadStart s prog).Good (runQActs ∅ before) :=
  h.good.1.restart (fun j => (h.good.2 j).1) (fun j => qop_mem _)

theorem QPrepared.asIf {before : List QAct} {s : DSys} (h : QPrepared before s) {prog : Nat → List QAct} {sched : List Nat} (hs : (quadStart s prog).Safe sched)
    (hf : (quadThreads s prog sched).Finished) : ∃ l, Interleaves l prog ∧ QAsIf (runQActs ∅ before) (quadThreads s prog sched) l := by
  obtain ⟨l, hi, -, h1⟩ := (h.start prog).asIf (fun _ => rfl) hs hf
  exact ⟨l, hi, h1⟩

/-- With a lock around each call, any threads may share a dataset. -/
theorem C163_locked (before : List QAct) (s : DSys) (h : QPrepared before s) (prog : Nat → List QAct) (sched : List Nat)
    (hl : QLocked (quadStart s prog) sched) (hf : (quadThreads s prog sched).Finished) :
    ∃ l, Interleaves l prog ∧ QAsIf (runQActs ∅ before) (quadThreads s prog sched) l := h.asIf hl.safe hf

/-! ### Threads that keep apart -/

/-- A graph that two threads both use has a quad at the start; what they both use in it as subject, predicate, object, or as two of these, is in a quad of this graph
    at the start; and no thread removes a quad that another thread adds or removes. -/
def QApart (S : Finset Qd) (prog : Nat → List QAct) : Prop :=
  ∀ i j, i ≠ j → ∀ a ∈ prog i, ∀ b ∈ prog j, a.quad.g = b.quad.g →
    (∃ q ∈ S, q.g = a.quad.g) ∧
    (a.quad.s = b.quad.s → ∃ q ∈ S, q.g = a.quad.g ∧ q.s = a.quad.s) ∧ (a.quad.p = b.quad.p → ∃ q ∈ S, q.g = a.quad.g ∧ q.p = a.quad.p) ∧
    (a.quad.o = b.quad.o → ∃ q ∈ S, q.g = a.quad.g ∧ q.o = a.quad.o) ∧
    (a.quad.s = b.quad.s → a.quad.p = b.quad.p → ∃ q ∈ S, q.g = a.quad.g ∧ q.s = a.quad.s ∧ q.p = a.quad.p) ∧
    (a.quad.p = b.quad.p → a.quad.o = b.quad.o → ∃ q ∈ S, q.g = a.quad.g ∧ q.p = a.quad.p ∧ q.o = a.quad.o) ∧
    (a.quad.o = b.quad.o → a.quad.s = b.quad.s → ∃ q ∈ S, q.g = a.quad.g ∧ q.o = a.quad.o ∧ q.s = a.quad.s) ∧
    (a.quad = b.quad → a = .add a.quad ∧ b = .add b.quad)

/-- The dicts of the quad are there. -/
def DSys.KnownQuad (s : DSys) (q : Qd) : Prop := ∃ i, s.names.get? q.g = some i ∧ (s.graphs i).sh.Known (mkTriple q.s q.p q.o)

/-- Where two graphs have the same dicts, the dicts of a statement are there in both. -/
theorem SharedGraph.Known.same {sh sh' : SharedGraph} (h1 : sh'.heap = sh.heap) (h2 : sh'.next = sh.next) {t : Stmt} (h : sh.Known t) : sh'.Known t := by
  intro w
  obtain ⟨cur, ⟨p, h3, h4⟩, h5⟩ := h w
  exact ⟨cur, ⟨p, by rw [h1]; exact h3, by rw [h1]; exact h4⟩, by rw [h2]; exact h5⟩

theorem DSys.KnownQuad.enter {s : DSys} {q : Qd} (h : s.KnownQuad q) (j : Nat) (op : DThOp) (again : Bool) (i : Nat) : (s.enter j op again i).KnownQuad q := by
  obtain ⟨i', h1, h2⟩ := h
  unfold DSys.enter
  split
  · exact ⟨i', h1, h2⟩
  · refine ⟨i', h1, ?_⟩
    show ((s.setGraph i _).graphs i').sh.Known _
    by_cases e : i' = i
    · subst e; rw [DSys.setGraph_self]; exact h2
    · rw [DSys.setGraph_other _ _ e]; exact h2

theorem DSys.KnownQuad.step {s : DSys} {S : Finset Qd} (hg : s.Good S) {q : Qd} (h : s.KnownQuad q) (j : Nat) : (s.step j).KnownQuad q := by
  obtain ⟨i, h1, h2⟩ := h
  have h0 := hg.atOk j trivial
  unfold DSys.step
  dsimp only
  split
  · split
    · exact ⟨i, h1, h2⟩
    · exact ⟨i, h1, h2⟩
  · split
    · exact DSys.KnownQuad.enter ⟨i, h1, h2⟩ _ _ _ _
    · refine ⟨i, h1, ?_⟩
      show ((s.setGraph s.next GSys.new).graphs i).sh.Known _
      rw [DSys.setGraph_other _ _ (by have := hg.lt h1; omega)]; exact h2
  · next op again i' hp =>
    rw [hp] at h0
    refine DSys.KnownQuad.enter (s := { s with names := s.names.set op.name i' }) ⟨i, ?_, h2⟩ _ _ _ _
    show (s.names.set op.name i').get? q.g = some i
    rw [Dict.get?_set, if_neg (fun e => by have := h0.2.2.1; rw [e, h1] at this; cases this)]
    exact h1
  · next op i' hp =>
    refine ⟨i, h1, ?_⟩
    show ((s.setGraph i' _).graphs i).sh.Known _
    by_cases e : i = i'
    · subst e; rw [DSys.setGraph_self]; exact h2.same rfl rfl
    · rw [DSys.setGraph_other _ _ e]; exact h2
  · next op i' hp =>
    have : ((s.setGraph i' ((s.graphs i').step j)).graphs i).sh.Known (mkTriple q.s q.p q.o) := by
      by_cases e : i = i'
      · subst e; rw [DSys.setGraph_self]; exact h2.step (hg.good i).shaped.heap ((hg.good i).shaped.pcs j) ((hg.good i).links j)
      · rw [DSys.setGraph_other _ _ e]; exact h2
    split
    · exact ⟨i, h1, this⟩
    · exact ⟨i, h1, this⟩

/-- The calls that a thread is in or is to make are its own. -/
def OwnQuads (prog : Nat → List QAct) (s : DSys) : Prop :=
  ∀ i, (∀ op ∈ (s.threads i).todo, ∃ a ∈ prog i, op = a.op) ∧ ∀ op, (s.threads i).pc.at = some op → ∃ a ∈ prog i, op = a.op

theorem DSys.enter_self (s : DSys) (j : Nat) (op : DThOp) (again : Bool) (i : Nat) :
    ((s.enter j op again i).threads j).todo = (s.threads j).todo ∧ ((s.enter j op again i).threads j).pc.at = some op := by
  unfold DSys.enter
  split
  · dsimp only; rw [DSys.setThread_self]; exact ⟨rfl, rfl⟩
  · dsimp only; rw [DSys.setThread_self]; exact ⟨rfl, rfl⟩

theorem OwnQuads.step {prog : Nat → List QAct} {s : DSys} (h : OwnQuads prog s) (j : Nat) : OwnQuads prog (s.step j) := by
  intro k
  by_cases e : k = j
  swap
  · rw [DSys.step_other s e]; exact h k
  subst e
  have hk := h k
  unfold DSys.step
  dsimp only
  cases hp : (s.threads k).pc with
  | idle =>
    dsimp only
    cases ht : (s.threads k).todo with
    | nil => exact hk
    | cons op todo =>
      dsimp only
      rw [DSys.setThread_self]
      rw [ht] at hk
      exact ⟨fun op' h' => hk.1 op' (List.mem_cons_of_mem _ h'), fun op' e => (by cases e; exact hk.1 _ (List.mem_cons_self ..))⟩
  | look op again =>
    rw [hp] at hk
    dsimp only
    split
    · obtain ⟨e1, e2⟩ := DSys.enter_self s k op again (by assumption)
      rw [e1, e2]; exact hk
    · rw [DSys.setThread_self]; exact hk
  | made op again i =>
    rw [hp] at hk
    dsimp only
    obtain ⟨e1, e2⟩ := DSys.enter_self { s with names := s.names.set op.name i } k op again i
    rw [e1, e2]; exact hk
  | got op i =>
    rw [hp] at hk
    dsimp only
    rw [DSys.setThread_self]; exact hk
  | inside op i =>
    dsimp only
    split
    · rw [DSys.setThread_self]; exact ⟨hk.1, fun op e => by cases e⟩
    · exact hk

theorem QApart.compat {S : Finset Qd} {prog : Nat → List QAct} (h : QApart S prog) {s : DSys} (hk : ∀ q ∈ S, s.KnownQuad q) {i j : Nat} (hij : i ≠ j) {a b : QAct}
    (ha : a ∈ prog i) (hb : b ∈ prog j) (hg : a.quad.g = b.quad.g) : ∃ n, s.names.get? a.quad.g = some n ∧ Compat (s.graphs n).sh a.op.op b.op.op := by
  obtain ⟨h0, h1, h2, h3, h12, h23, h31, hs⟩ := h i j hij a ha b hb hg
  obtain ⟨q0, hq0, e0⟩ := h0
  obtain ⟨n, hn, -⟩ := hk q0 hq0
  rw [e0] at hn
  have kn : ∀ q ∈ S, q.g = a.quad.g → (s.graphs n).sh.Known (mkTriple q.s q.p q.o) := by
    intro q hq e
    obtain ⟨n', h4, h5⟩ := hk q hq
    rw [e, hn] at h4; cases h4; exact h5
  refine ⟨n, hn, ?_⟩
  have e1 : a.op.op.stmt = mkTriple a.quad.s a.quad.p a.quad.o := QAct.op_stmt a
  have e2 : b.op.op.stmt = mkTriple b.quad.s b.quad.p b.quad.o := QAct.op_stmt b
  refine ⟨fun w e => ?_, fun w e e' r hr => ?_, fun e => ?_⟩
  · rw [e1, e2] at e
    rw [e1]
    have : ∃ q ∈ S, q.g = a.quad.g ∧ (w.keys (mkTriple q.s q.p q.o)).1 = (w.keys (mkTriple a.quad.s a.quad.p a.quad.o)).1 := by
      cases w
      · exact h1 e
      · exact h2 e
      · exact h3 e
    obtain ⟨q, hq, eg, et⟩ := this
    rw [← et]; exact (kn q hq eg).one w
  · rw [e1, e2] at e e'
    rw [e1] at hr ⊢
    have : ∃ q ∈ S, q.g = a.quad.g ∧ (w.keys (mkTriple q.s q.p q.o)).1 = (w.keys (mkTriple a.quad.s a.quad.p a.quad.o)).1 ∧
        (w.keys (mkTriple q.s q.p q.o)).2.1 = (w.keys (mkTriple a.quad.s a.quad.p a.quad.o)).2.1 := by
      cases w
      · exact h12 e e'
      · exact h23 e e'
      · exact h31 e e'
    obtain ⟨q, hq, eg, et, et'⟩ := this
    rw [← et] at hr
    rw [← et']; exact (kn q hq eg).two w r hr
  · rw [e1, e2] at e
    have hq : a.quad = b.quad := by
      simp only [mkTriple, Stmt.mk.injEq, and_true] at e
      rcases ha' : a.quad with ⟨s1, p1, o1, g1⟩
      rcases hb' : b.quad with ⟨s2, p2, o2, g2⟩
      rw [ha', hb'] at e hg
      obtain ⟨rfl, rfl, rfl⟩ := e
      change g1 = g2 at hg
      rw [hg]
    obtain ⟨h4, h5⟩ := hs hq
    constructor
    · rw [h4]; rfl
    · rw [h5, h4, ← hq]; rfl

theorem QApart.safe {S S' : Finset Qd} {prog : Nat → List QAct} (h : QApart S prog) {s : DSys} (hg : s.Good S') (ho : OwnQuads prog s) (hk : ∀ q ∈ S, s.KnownQuad q)
    (sched : List Nat) : s.Safe sched := by
  induction sched generalizing s S' with
  | nil => trivial
  | cons i sched ih =>
    have hc : s.Clear i := by
      intro j hj op op' h1 h2 hn
      obtain ⟨a, ha, rfl⟩ := (ho i).2 _ h1
      obtain ⟨b, hb, rfl⟩ := (ho j).2 _ h2
      rw [QAct.op_name, QAct.op_name] at hn
      rw [QAct.op_name]
      exact h.compat hk (Ne.symm hj) ha hb hn
    exact ⟨hc, ih (hg.step hc) (ho.step i) (fun q hq => (hk q hq).step hg i)⟩

/-- Threads that keep apart may share a dataset; in particular threads that use different graphs. Missing for `C163_statement`: threads that both use a graph that is
    not there at the start, or that do in a graph what C162 does not allow; see `C163_refuted`. -/
theorem C163_partial (before : List QAct) (s : DSys) (h : QPrepared before s) (prog : Nat → List QAct) (ha : QApart (runQActs ∅ before) prog)
    (sched : List Nat) (hf : (quadThreads s prog sched).Finished) :
    ∃ l, Interleaves l prog ∧ QAsIf (runQActs ∅ before) (quadThreads s prog sched) l := by
  have hg := h.start prog
  refine h.asIf (ha.safe hg (fun i => ⟨fun op ho => ?_, fun op e => by cases e⟩) (fun q hq => ?_) sched) hf
  · obtain ⟨a, h1, h2⟩ := List.mem_map.1 ho
    exact ⟨a, h1, h2.symm⟩
  · obtain ⟨i, h1, h2⟩ := (hg.mem q).1 hq
    refine ⟨i, h1, SharedGraph.Known.of_found (hg.good i).shaped.heap (fun w => ?_)⟩
    rcases (hg.good i).c2 _ h2 w with h3 | ⟨j, hj⟩
    · exact h3
    · exact absurd hj Pc.pending_idle

/-- Threads of which no two use the same graph. -/
theorem C163_own_graphs (before : List QAct) (s : DSys) (h : QPrepared before s) (prog : Nat → List QAct)
    (ha : ∀ i j, i ≠ j → ∀ a ∈ prog i, ∀ b ∈ prog j, a.quad.g ≠ b.quad.g) (sched : List Nat) (hf : (quadThreads s prog sched).Finished) :
    ∃ l, Interleaves l prog ∧ QAsIf (runQActs ∅ before) (quadThreads s prog sched) l :=
  C163_partial before s h prog (fun i j hij a h1 b h2 e => absurd e (ha i j hij a h1 b h2)) sched hf

/-! ### One thread -/

theorem DSys.run_add (s : DSys) (j n m : Nat) : s.run (List.replicate (n + m) j) = (s.run (List.replicate n j)).run (List.replicate m j) := by
  rw [List.replicate_add]; exact List.foldl_append

/-- A thread in a graph comes to the end of the call if it is the only one. -/
theorem DSys.inside_ends {j : Nat} {op : DThOp} {i : Nat} (n : Nat) : ∀ {s : DSys} {S : Finset Qd}, s.Good S → (∀ k, k ≠ j → (s.threads k).pc = .idle) → (s.threads j).pc = .inside op i →
    (((s.graphs i).run (List.replicate (n + 1) j)).threads j).pc = .idle → ∃ m S', (s.run (List.replicate m j)).Good S' ∧
      ((s.run (List.replicate m j)).threads j).pc = .idle ∧ ((s.run (List.replicate m j)).threads j).todo = (s.threads j).todo ∧
        ∀ k, k ≠ j → (s.run (List.replicate m j)).threads k = s.threads k := by
  induction n with
  | zero =>
    intro s S h ho hp hr
    have hc : s.Clear j := fun k hk op op' _ e => by rw [ho k hk] at e; cases e
    have hs := step_inside h hp
    have hr : (((s.graphs i).step j).threads j).pc = .idle := hr
    rw [if_pos hr] at hs
    refine ⟨1, _, h.step hc, ?_, ?_, fun k hk => step_other s hk⟩
    · show ((s.step j).threads j).pc = _
      rw [hs, setThread_self]
    · show ((s.step j).threads j).todo = _
      rw [hs, setThread_self]
  | succ n ih =>
    intro s S h ho hp hr
    have hc : s.Clear j := fun k hk op op' _ e => by rw [ho k hk] at e; cases e
    have hs := step_inside h hp
    by_cases hr1 : (((s.graphs i).step j).threads j).pc = .idle
    · rw [if_pos hr1] at hs
      refine ⟨1, _, h.step hc, ?_, ?_, fun k hk => step_other s hk⟩
      · show ((s.step j).threads j).pc = _
        rw [hs, setThread_self]
      · show ((s.step j).threads j).todo = _
        rw [hs, setThread_self]
    · rw [if_neg hr1] at hs
      have e1 : (s.step j).threads j = s.threads j := by rw [hs, setThread_self]
      have e2 : (s.step j).graphs i = (s.graphs i).step j := by
        rw [hs]; show (s.setGraph i _).graphs i = _; rw [setGraph_self]
      obtain ⟨m, S', h1, h2, h3, h4⟩ := ih (h.step hc) (fun k hk => by rw [step_other s hk]; exact ho k hk) (by rw [e1]; exact hp) (by
        rw [e2]; exact hr)
      refine ⟨m + 1, S', h1, h2, h3.trans (by rw [e1]), fun k hk => (h4 k hk).trans (step_other s hk)⟩

/-- A call that a thread makes alone comes to its end. -/
theorem DSys.call_ends {s : DSys} {S : Finset Qd} (h : s.Good S) {j : Nat} (ho : ∀ k, k ≠ j → (s.threads k).pc = .idle) (hp : (s.threads j).pc = .idle) {op : DThOp} {rest : List DThOp}
    (ht : (s.threads j).todo = op :: rest) : ∃ m S', (s.run (List.replicate m j)).Good S' ∧ ((s.run (List.replicate m j)).threads j).pc = .idle ∧
      ((s.run (List.replicate m j)).threads j).todo = rest ∧ ∀ k, k ≠ j → (s.run (List.replicate m j)).threads k = s.threads k := by
  have clear : ∀ s : DSys, (∀ k, k ≠ j → (s.threads k).pc = .idle) → s.Clear j := fun s ho k hk op op' _ e => by rw [ho k hk] at e; cases e
  have oth : ∀ s : DSys, (∀ k, k ≠ j → (s.threads k).pc = .idle) → ∀ k, k ≠ j → ((s.step j).threads k).pc = .idle := fun s ho k hk => by rw [step_other s hk]; exact ho k hk
  -- in the graph
  have fin : ∀ {s : DSys} {S : Finset Qd} {op i}, s.Good S → (∀ k, k ≠ j → (s.threads k).pc = .idle) → (s.threads j).pc = .inside op i → ((s.graphs i).threads j).pc = .idle →
      ∃ m S', (s.run (List.replicate m j)).Good S' ∧ ((s.run (List.replicate m j)).threads j).pc = .idle ∧
      ((s.run (List.replicate m j)).threads j).todo = (s.threads j).todo ∧ ∀ k, k ≠ j → (s.run (List.replicate m j)).threads k = s.threads k := by
    intro s S op i h ho hp hi
    have idle : ∀ k, ((s.graphs i).threads k).pc = .idle := by
      intro k
      by_cases e : k = j
      · subst e; exact hi
      · exact (h.rest k i (fun _ op e' => by rw [ho k e] at e'; cases e')).1
    obtain ⟨n, hn⟩ := GSys.alone (s.graphs i) (h.good i).shaped.heap ((h.good i).inv idle) j hi ((h.good i).ops j)
    exact inside_ends n h ho hp (by rw [(hn (n + 1) (Nat.le_succ n)).2.2.1])
  -- with the graph in hand, the second time
  have enterT : ∀ {s : DSys} {S : Finset Qd} {op i}, s.Good S → (∀ k, k ≠ j → (s.threads k).pc = .idle) → (s.threads j).pc = .look op true → s.names.get? op.name = some i →
      ∃ m S', (s.run (List.replicate m j)).Good S' ∧ ((s.run (List.replicate m j)).threads j).pc = .idle ∧
      ((s.run (List.replicate m j)).threads j).todo = (s.threads j).todo ∧ ∀ k, k ≠ j → (s.run (List.replicate m j)).threads k = s.threads k := by
    intro s S op i h ho hp hn
    have hs : s.step j = (s.setGraph i ((s.graphs i).push j op.op)).setThread j { s.threads j with pc := .inside op i } := by
      unfold DSys.step DSys.enter; simp [hp, hn]
    have hidle : ((s.graphs i).threads j).pc = .idle := (h.rest j i (fun _ op e => by rw [hp] at e; cases e)).1
    obtain ⟨m, S', h1, h2, h3, h4⟩ := fin (h.step (clear s ho)) (oth s ho) (by rw [hs, setThread_self]) (by
      rw [hs]; show (((s.setGraph i ((s.graphs i).push j op.op)).graphs i).threads j).pc = _; rw [setGraph_self, GSys.push_pc]; exact hidle)
    exact ⟨m + 1, S', h1, h2, h3.trans (by rw [hs, setThread_self]), fun k hk => (h4 k hk).trans (step_other s hk)⟩
  -- with the graph in hand, the first time
  have enterF : ∀ {s s' : DSys} {S : Finset Qd} {op i}, s'.Good S → (∀ k, k ≠ j → (s'.threads k).pc = .idle) → s' = s.enter j op false i → s.names.get? op.name = some i →
      (∀ i, ((s.graphs i).threads j).pc = .idle) → ∃ m S', (s'.run (List.replicate m j)).Good S' ∧ ((s'.run (List.replicate m j)).threads j).pc = .idle ∧
      ((s'.run (List.replicate m j)).threads j).todo = (s'.threads j).todo ∧ ∀ k, k ≠ j → (s'.run (List.replicate m j)).threads k = s'.threads k := by
    intro s s' S op i h ho he hn hidle
    cases op with
    | remove n t =>
      have he : s' = (s.setGraph i ((s.graphs i).push j (.remove t))).setThread j { s.threads j with pc := .inside (.remove n t) i } := he
      refine fin h ho (op := .remove n t) (i := i) (by rw [he, setThread_self]) ?_
      rw [he]; show (((s.setGraph i ((s.graphs i).push j (.remove t))).graphs i).threads j).pc = _; rw [setGraph_self, GSys.push_pc]; exact hidle i
    | add n t =>
      have he : s' = s.setThread j { s.threads j with pc := .got (.add n t) i } := he
      have hp : (s'.threads j).pc = .got (.add n t) i := by rw [he, setThread_self]
      have hs : s'.step j = (s'.setGraph i ((s'.graphs i).setUri n)).setThread j { s'.threads j with pc := .look (.add n t) true } := by
        unfold DSys.step; simp only [hp]; rfl
      obtain ⟨m, S', h1, h2, h3, h4⟩ := enterT (op := .add n t) (i := i) (h.step (clear s' ho)) (oth s' ho) (by rw [hs, setThread_self]) (by rw [hs, he]; exact hn)
      exact ⟨m + 1, S', h1, h2, h3.trans (by rw [hs, setThread_self]), fun k hk => (h4 k hk).trans (step_other s' hk)⟩
  -- the first two or three steps
  have s1 : s.step j = s.setThread j { s.threads j with pc := .look op false, todo := rest } := by unfold DSys.step; simp only [hp, ht]
  have g1 := h.step (clear s ho)
  have o1 := oth s ho
  have i1 : ∀ i, (((s.step j).graphs i).threads j).pc = .idle := by
    intro i; rw [s1]; exact (h.rest j i (fun _ op e => by rw [hp] at e; cases e)).1
  have p1 : ((s.step j).threads j).pc = .look op false := by rw [s1, setThread_self]
  have t1 : ((s.step j).threads j).todo = rest := by rw [s1, setThread_self]
  have k1 : ∀ k, k ≠ j → (s.step j).threads k = s.threads k := fun k hk => step_other s hk
  generalize hs1 : s.step j = u at g1 o1 i1 p1 t1 k1
  have g2 := g1.step (clear u o1)
  have o2 := oth u o1
  cases hn : u.names.get? op.name with
  | some i =>
    have s2 : u.step j = u.enter j op false i := by unfold DSys.step; simp only [p1, hn]
    obtain ⟨m, S', h1, h2, h3, h4⟩ := enterF g2 o2 s2 hn i1
    refine ⟨m + 1 + 1, S', ?_⟩
    have e : s.run (List.replicate (m + 1 + 1) j) = (u.step j).run (List.replicate m j) := by rw [← hs1]; rfl
    rw [e]
    exact ⟨h1, h2, h3.trans (by rw [s2, (enter_self u j op false i).1]; exact t1), fun k hk => (h4 k hk).trans ((step_other u hk).trans (k1 k hk))⟩
  | none =>
    have s2 : u.step j = ({ (u.setGraph u.next GSys.new) with next := u.next + 1 } : DSys).setThread j { u.threads j with pc := .made op false u.next } := by
      unfold DSys.step; simp only [p1, hn]
    have p2 : ((u.step j).threads j).pc = .made op false u.next := by rw [s2, setThread_self]
    have t2 : ((u.step j).threads j).todo = rest := by rw [s2, setThread_self]; exact t1
    have i2 : ∀ i, (((u.step j).graphs i).threads j).pc = .idle := by
      intro i; rw [s2]
      show (((u.setGraph u.next GSys.new).graphs i).threads j).pc = _
      by_cases e : i = u.next
      · subst e; rw [setGraph_self]; rfl
      · rw [setGraph_other _ _ e]; exact i1 i
    have k2 : ∀ k, k ≠ j → (u.step j).threads k = u.threads k := fun k hk => step_other u hk
    generalize hs2 : u.step j = v at g2 o2 p2 t2 i2 k2
    have s3 : v.step j = ({ v with names := v.names.set op.name u.next } : DSys).enter j op false u.next := by unfold DSys.step; simp only [p2]
    obtain ⟨m, S', h1, h2, h3, h4⟩ := enterF (g2.step (clear v o2)) (oth v o2) s3 (by show (v.names.set op.name u.next).get? op.name = _; rw [Dict.get?_set]; simp) i2
    refine ⟨m + 1 + 1 + 1, S', ?_⟩
    have e : s.run (List.replicate (m + 1 + 1 + 1) j) = (v.step j).run (List.replicate m j) := by rw [← hs2, ← hs1]; rfl
    rw [e]
    exact ⟨h1, h2, h3.trans (by rw [s3, (enter_self _ j op false u.next).1]; exact t2),
      fun k hk => (h4 k hk).trans ((step_other v hk).trans ((k2 k hk).trans (k1 k hk)))⟩

/-- A thread that is alone comes to its end. -/
theorem C163_ends (before : List QAct) : ∃ n, (quadsAlone before n).Finished := by
  have key : ∀ (todo : List DThOp) (s : DSys) (S : Finset Qd), s.Good S → (∀ k, k ≠ 0 → (s.threads k).pc = .idle ∧ (s.threads k).todo = []) → (s.threads 0).pc = .idle → (s.threads 0).todo = todo →
      ∃ n, (s.run (List.replicate n 0)).Finished := by
    intro todo
    induction todo with
    | nil =>
      intro s S h ho hp ht
      refine ⟨0, fun i => ?_⟩
      by_cases e : i = 0
      · subst e; exact ⟨hp, ht⟩
      · exact ho i e
    | cons op todo ih =>
      intro s S h ho hp ht
      obtain ⟨m, S', h1, h2, h3, h4⟩ := DSys.call_ends h (fun k hk => (ho k hk).1) hp ht
      obtain ⟨n, hn⟩ := ih _ S' h1 (fun k hk => by rw [h4 k hk]; exact ho k hk) h2 h3
      exact ⟨m + n, by rw [DSys.run_add]; exact hn⟩
  exact key _ _ ∅ (quadsAlone_good before) (fun k hk => ⟨rfl, by simp [DSys.new, hk]⟩) rfl rfl

/-- One thread alone: what the dataset shows and how the calls end is what the calls one after the other give. -/
theorem C163_alone (before : List QAct) (n : Nat) (hf : (quadsAlone before n).Finished) : ShowsQuads (quadsAlone before n).dataset (runQActs ∅ before) ∧
    ((quadsAlone before n).threads 0).outs = (qresults 0 ∅ (before.map (fun a => (0, a)))).map outcomeOf := by
  obtain ⟨l, hi, g, h1, h2⟩ := (quadsAlone_good before).asIf (prog := fun i => if i = 0 then before else [])
    (fun i => by show DThread.mk _ (if i = 0 then before.map QAct.op else []) _ = _; rw [qprog_zero]) (QLocked.alone _ 0 n (fun _ _ => rfl)).safe hf
  have e0 := qinterleaves_zero hi
  have e1 : l = before.map (fun a => (0, a)) := by
    have hz : ∀ x ∈ l, x.1 = 0 := by
      intro x hx
      by_contra hne
      have h1 : (l.filter (fun y => y.1 = x.1)).map Prod.snd = [] := by rw [hi x.1]; simp [hne]
      rw [List.map_eq_nil_iff, List.filter_eq_nil_iff] at h1
      exact h1 x hx (by simp)
    rw [← e0, List.map_map]
    symm
    conv_rhs => rw [← List.map_id l]
    exact List.map_congr_left (fun x hx => by obtain ⟨j, a⟩ := x; have : j = 0 := hz _ hx; subst this; rfl)
  rw [e0] at h1
  have h3 := h2 0
  rw [e1] at h3
  exact ⟨h1, h3⟩

/-! ### Refutation -/

/-- Two threads that each make one call. -/
def twoQuadThreads (a b : QAct) : Nat → List QAct := fun i => if i = 0 then [a] else if i = 1 then [b] else []

theorem DSys.run_other (s : DSys) (sched : List Nat) (i : Nat) (h : i ∉ sched) : (s.run sched).threads i = s.threads i := by
  induction sched generalizing s with
  | nil => rfl
  | cons j sched ih =>
    simp only [List.mem_cons, not_or] at h
    exact (ih (s.step j) h.2).trans (DSys.step_other s h.1)

theorem qprepared_new : QPrepared [] (quadsAlone [] 0) := ⟨0, fun i => ⟨rfl, by simp [quadsAlone, DSys.run, DSys.new]⟩, rfl⟩

theorem finished_two_quads {s : DSys} {a b : QAct} {sched : List Nat} (h0 : ∀ i ∈ sched, i = 0 ∨ i = 1)
    (h1 : ((quadThreads s (twoQuadThreads a b) sched).threads 0).pc = .idle ∧ ((quadThreads s (twoQuadThreads a b) sched).threads 0).todo = [])
    (h2 : ((quadThreads s (twoQuadThreads a b) sched).threads 1).pc = .idle ∧ ((quadThreads s (twoQuadThreads a b) sched).threads 1).todo = []) :
    (quadThreads s (twoQuadThreads a b) sched).Finished := by
  intro i
  by_cases e0 : i = 0
  · subst e0; exact h1
  by_cases e1 : i = 1
  · subst e1; exact h2
  unfold quadThreads
  rw [DSys.run_other _ _ i (fun hi => by rcases h0 i hi with h | h <;> contradiction)]
  exact ⟨rfl, by simp [quadStart, DSys.restart, twoQuadThreads, e0, e1]⟩

/-- A second quad of the same graph. -/
def exD4 : Qd := ⟨exB, exA, exA, exN1⟩

/-- Thread 0 looks up the new graph and misses it; thread 1 makes its whole call; thread 0 stores its Graph over that of thread 1. -/
def lostGraph : DSys := quadThreads (quadsAlone [] 0) (twoQuadThreads (.add exD1) (.add exD4)) ([0, 0] ++ List.replicate 24 1 ++ List.replicate 24 0)

theorem lostGraph_finished : lostGraph.Finished := finished_two_quads (by decide) (by decide) (by decide)

/-- Both calls succeeded, but the quad of thread 1 is not in the dataset, and the length is 1. -/
theorem C163_lost : (lostGraph.threads 0).outs = [.ok ()] ∧ (lostGraph.threads 1).outs = [.ok ()] ∧
    lostGraph.dataset.containsQuad exD4.s exD4.p exD4.o exD4.g = false ∧ lostGraph.dataset.len = 1 := by decide

theorem C163_refuted : ¬ C163_statement := by
  intro h
  obtain ⟨l, hi, ⟨h1, h2, -⟩, -⟩ := h [] _ qprepared_new (twoQuadThreads (.add exD1) (.add exD4)) ([0, 0] ++ List.replicate 24 1 ++ List.replicate 24 0) lostGraph_finished
  have hm := h1 exD4
  rw [show (quadThreads (quadsAlone [] 0) (twoQuadThreads (.add exD1) (.add exD4)) ([0, 0] ++ List.replicate 24 1 ++ List.replicate 24 0)) = lostGraph from rfl, C163_lost.2.2.1] at hm
  refine absurd (hm.2 ?_) (by simp)
  have adds : ∀ a ∈ l.map Prod.snd, ∃ q, a = QAct.add q := by
    intro a ha
    obtain ⟨⟨j, a'⟩, hx, rfl⟩ := List.mem_map.1 ha
    have : a' ∈ (l.filter (fun x => x.1 = j)).map Prod.snd := List.mem_map.2 ⟨(j, a'), List.mem_filter.2 ⟨hx, by simp⟩, rfl⟩
    rw [hi j] at this
    unfold twoQuadThreads at this
    split at this
    · rw [List.mem_singleton] at this; exact ⟨_, this⟩
    · split at this
      · rw [List.mem_singleton] at this; exact ⟨_, this⟩
      · cases this
  have hin : QAct.add exD4 ∈ l.map Prod.snd := by
    have : QAct.add exD4 ∈ (l.filter (fun x => x.1 = 1)).map Prod.snd := by rw [hi 1]; simp [twoQuadThreads]
    obtain ⟨x, hx, e⟩ := List.mem_map.1 this
    exact List.mem_map.2 ⟨x, (List.mem_filter.1 hx).1, e⟩
  have key : ∀ (l : List QAct) (S : Finset Qd), (∀ a ∈ l, ∃ q, a = QAct.add q) → (exD4 ∈ S ∨ QAct.add exD4 ∈ l) → exD4 ∈ runQActs S l := by
    intro l
    induction l with
    | nil => intro S _ h; exact h.resolve_right (by simp)
    | cons a l ih =>
      intro S ha h
      obtain ⟨q, rfl⟩ := ha a (List.mem_cons_self ..)
      refine ih (insert q S) (fun a h => ha a (List.mem_cons_of_mem _ h)) ?_
      rcases h with h | h
      · exact Or.inl (Finset.mem_insert_of_mem h)
      · rcases List.mem_cons.1 h with h | h
        · cases h; exact Or.inl (Finset.mem_insert_self ..)
        · exact Or.inr h
  exact key _ _ adds (Or.inr hin)

/-! ### The hypotheses can be met -/

/-- Two threads that add to different new graphs, step by step in turns. -/
example : (quadThreads (quadsAlone [] 0) (twoQuadThreads (.add exD1) (.add exD2)) ((List.replicate 24 [0, 1]).flatten)).Finished ∧
    (quadThreads (quadsAlone [] 0) (twoQuadThreads (.add exD1) (.add exD2)) ((List.replicate 24 [0, 1]).flatten)).dataset.len = 2 :=
  ⟨finished_two_quads (by decide) (by decide) (by decide), by decide⟩

example : ∀ i j, i ≠ j → ∀ a ∈ twoQuadThreads (.add exD1) (.add exD2) i, ∀ b ∈ twoQuadThreads (.add exD1) (.add exD2) j, a.quad.g ≠ b.quad.g := by
  intro i j hij a ha b hb
  unfold twoQuadThreads at ha hb
  split at ha
  · rw [List.mem_singleton] at ha; subst ha
    rw [if_neg (by omega)] at hb
    split at hb
    · rw [List.mem_singleton] at hb; subst hb; decide
    · cases hb
  · split at ha
    · rw [List.mem_singleton] at ha; subst ha
      split at hb
      · rw [List.mem_singleton] at hb; subst hb; decide
      · rw [if_neg (by omega)] at hb; cases hb
    · cases ha

/-- With a lock: thread 1 makes its call, then thread 0; the same graph, and both quads are there. -/
example : (quadThreads (quadsAlone [] 0) (twoQuadThreads (.add exD1) (.add exD4)) (List.replicate 24 1 ++ List.replicate 24 0)).Finished ∧
    (quadThreads (quadsAlone [] 0) (twoQuadThreads (.add exD1) (.add exD4)) (List.replicate 24 1 ++ List.replicate 24 0)).dataset.len = 2 :=
  ⟨finished_two_quads (by decide) (by decide) (by decide), by decide⟩

set_option maxRecDepth 20000 in
/-- A dataset with one quad, to whose graph two threads add quads of the same subject and predicate, step by step in turns. -/
example : (quadsAlone [.add exD1] 24).Finished ∧
    (quadThreads (quadsAlone [.add exD1] 24) (twoQuadThreads (.add ⟨exA, exB, exA, exN1⟩) (.add ⟨exA, exB, exB, exN1⟩)) ((List.replicate 24 [0, 1]).flatten)).Finished := by
  refine ⟨fun i => ?_, finished_two_quads (by decide) (by decide) (by decide)⟩
  by_cases e : i = 0
  · subst e; decide
  · unfold quadsAlone
    rw [DSys.run_other _ _ i (by simp [e])]
    exact ⟨rfl, by simp [DSys.new, e]⟩

example : QApart (runQActs ∅ [.add exD1]) (twoQuadThreads (.add ⟨exA, exB, exA, exN1⟩) (.add ⟨exA, exB, exB, exN1⟩)) := by
  have m : exD1 ∈ runQActs ∅ [.add exD1] := by decide
  intro i j hij a ha b hb hg
  unfold twoQuadThreads at ha hb
  split at ha
  · rw [List.mem_singleton] at ha
    subst ha
    rw [if_neg (by omega)] at hb
    split at hb
    · rw [List.mem_singleton] at hb
      subst hb
      exact ⟨⟨exD1, m, rfl⟩, fun _ => ⟨exD1, m, rfl, rfl⟩, fun _ => ⟨exD1, m, rfl, rfl⟩, fun e => absurd e (by decide), fun _ _ => ⟨exD1, m, rfl, rfl, rfl⟩,
        fun _ e => absurd e (by decide), fun e => absurd e (by decide), fun _ => ⟨rfl, rfl⟩⟩
    · cases hb
  · split at ha
    · rw [List.mem_singleton] at ha
      subst ha
      split at hb
      · rw [List.mem_singleton] at hb
        subst hb
        exact ⟨⟨exD1, m, rfl⟩, fun _ => ⟨exD1, m, rfl, rfl⟩, fun _ => ⟨exD1, m, rfl, rfl⟩, fun e => absurd e (by decide), fun _ _ => ⟨exD1, m, rfl, rfl, rfl⟩,
          fun _ e => absurd e (by decide), fun e => absurd e (by decide), fun _ => ⟨rfl, rfl⟩⟩
      · rw [if_neg (by omega)] at hb; cases hb
    · cases ha

end Verif
