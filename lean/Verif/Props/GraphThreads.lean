import Verif.Lemmas.GraphThreadsAlone
import Verif.Props.Graph
/-
C162: threads that add to and remove from one Graph.
-/
namespace Verif
open Spec

/-! ### Statement -/

/-- Membership, len and iteration are those of the set. -/
def ShowsSet (g : Graph) (S : Finset Tri) : Prop :=
  (∀ x, g.contains x = true ↔ ∃ t ∈ S, x = t.stmt) ∧ g.len = S.card ∧
    ∀ ord, IsOrder ord → (g.iter ord).Nodup ∧ ∀ x, x ∈ g.iter ord ↔ ∃ t ∈ S, x = t.stmt

/-- `match` finds what is in the set. -/
def ShowsMatches (g : Graph) (S : Finset Tri) : Prop :=
  ∀ ord, IsOrder ord → ∀ s p o, NonEmpty s → NonEmpty p → NonEmpty o →
    (g.match ord (arg s) (arg p) (arg o)).Nodup ∧ ∀ x, x ∈ g.match ord (arg s) (arg p) (arg o) ↔ ∃ t ∈ S, x = t.stmt ∧ t.Matches s p o

/-- A thread that makes its calls alone on a new graph. -/
def aloneRun (u : Term) (before : List Act) (n : Nat) : GSys :=
  (GSys.start (SharedGraph.new u) (fun i => if i = 0 then before.map Act.op else [])).run (List.replicate n 0)

/-- The graph that one thread has made with the calls `before`. -/
def Prepared (u : Term) (before : List Act) (sh : SharedGraph) : Prop := ∃ n, (aloneRun u before n).Finished ∧ sh = (aloneRun u before n).sh

/-- The threads with their calls, after the steps of the schedule. -/
def threadsRun (sh : SharedGraph) (prog : Nat → List Act) (sched : List Nat) : GSys := (GSys.start sh (fun i => (prog i).map Act.op)).run sched

/-- The calls have had the effects and outcomes they have one after the other in the order `l`. -/
def AsIf (S : Finset Tri) (s : GSys) (l : List (Nat × Act)) : Prop :=
  ShowsSet s.sh.graph (runActs S (l.map Prod.snd)) ∧ ShowsMatches s.sh.graph (runActs S (l.map Prod.snd)) ∧
    ∀ i, (s.threads i).outs = (results i S l).map outcomeOf

/-- Threads may share a graph: when all have finished, it is as if the calls had been made one after the other. -/
def C162_statement : Prop :=
  ∀ u before sh, Prepared u before sh → ∀ prog sched, (threadsRun sh prog sched).Finished →
    ∃ l, Interleaves l prog ∧ AsIf (runActs ∅ before) (threadsRun sh prog sched) l

/-! ### Proofs -/

theorem SetRep.shows {g : Graph} {S : Finset Tri} (h : SetRep g.triples S) : ShowsSet g S := by
  refine ⟨fun x => ?_, h.length, fun ord hord => ⟨(hord _).nodup_iff.2 h.1, fun x => ?_⟩⟩
  · rw [← h.2]; simp [Graph.contains]
  · rw [← h.2]; exact (hord _).mem_iff

theorem GSys.run_other (s : GSys) (sched : List Nat) (i : Nat) (h : i ∉ sched) : (s.run sched).threads i = s.threads i := by
  induction sched generalizing s with
  | nil => rfl
  | cons j sched ih =>
    simp only [List.mem_cons, not_or] at h
    exact (ih (s.step j) h.2).trans (GSys.step_other s h.1)

theorem GSys.order_of_finished {sh : SharedGraph} {prog : Nat → List Act} {sched : List Nat} (hf : (threadsRun sh prog sched).Finished) :
    ∃ l, Interleaves l prog ∧ (GSys.start sh (fun i => (prog i).map Act.op)).order sched = l.map (fun x => (x.1, x.2.op)) := by
  have hl := Linear.run (GSys.start sh (fun i => (prog i).map Act.op)) sched
  obtain ⟨l, e, hi⟩ := order_acts (prog := prog) (l := (GSys.start sh (fun i => (prog i).map Act.op)).order sched) (by
    intro i
    have := hl.todo i
    rw [show ((GSys.run (GSys.start sh (fun i => (prog i).map Act.op)) sched).threads i).todo = [] from (hf i).2, List.append_nil] at this
    exact this)
  exact ⟨l, hi, e⟩

theorem threads_set {sh : SharedGraph} {S : Finset Tri} (h : SetRep sh.triples S) {prog : Nat → List Act} {sched : List Nat} {l : List (Nat × Act)}
    (e : (GSys.start sh (fun i => (prog i).map Act.op)).order sched = l.map (fun x => (x.1, x.2.op))) :
    SetRep (threadsRun sh prog sched).sh.triples (runActs S (l.map Prod.snd)) := by
  have hl := (Linear.run (GSys.start sh (fun i => (prog i).map Act.op)) sched).triples
  rw [e] at hl
  unfold threadsRun
  rw [hl]
  exact h.run l

theorem GSys.safe_alone (s : GSys) (i n : Nat) (h : ∀ j, j ≠ i → (s.threads j).pc = .idle) : s.Safe (List.replicate n i) := by
  induction n generalizing s with
  | zero => trivial
  | succ n ih =>
    refine ⟨fun j hj op op' w' _ e => ?_, ih (s.step i) (fun j hj => by rw [GSys.step_other s hj]; exact h j hj)⟩
    rw [h j hj] at e; cases e

theorem op_g (l : List Act) : ∀ op ∈ l.map Act.op, op.stmt.g = none := by
  intro op h
  obtain ⟨a, -, rfl⟩ := List.mem_map.1 h
  exact Act.op_g a

theorem prog_zero (before : List Act) : (fun i : Nat => if i = 0 then before.map Act.op else []) = fun i => ((fun i : Nat => if i = 0 then before else []) i).map Act.op := by
  funext i; split <;> simp [*]

theorem interleaves_zero {l : List (Nat × Act)} {before : List Act} (h : Interleaves l (fun i => if i = 0 then before else [])) : l.map Prod.snd = before := by
  have h0 := h 0
  have : l.filter (fun x => x.1 = 0) = l := by
    rw [List.filter_eq_self]
    intro x hx
    by_contra hne
    have h1 : (l.filter (fun y => y.1 = x.1)).map Prod.snd = [] := by rw [h x.1]; simp at hne; simp [hne]
    rw [List.map_eq_nil_iff, List.filter_eq_nil_iff] at h1
    exact h1 x hx (by simp)
  rw [this] at h0
  simpa using h0

/-- The prepared graph. -/
theorem Prepared.good {u : Term} {before : List Act} {sh : SharedGraph} (h : Prepared u before sh) (prog : Nat → List Act) :
    (GSys.start sh (fun i => (prog i).map Act.op)).Good ∧ SetRep sh.triples (runActs ∅ before) ∧ (∀ t ∈ runActs ∅ before, ∀ w, sh.Found w t.stmt) ∧
      ∀ r k x, (sh.heap r).get? k = some (.stmt x) → ∃ t ∈ runActs ∅ before, x = t.stmt := by
  obtain ⟨n, hf, rfl⟩ := h
  have g0 : (GSys.start (SharedGraph.new u) (fun i => if i = 0 then before.map Act.op else [])).Good := by
    refine .new u (fun i => ?_)
    split
    · exact op_g before
    · simp
  have g1 := (g0.run (GSys.safe_alone _ 0 n (fun _ _ => rfl))).1
  have hs : SetRep (aloneRun u before n).sh.triples (runActs ∅ before) := by
    have e0 : aloneRun u before n = threadsRun (SharedGraph.new u) (fun i => if i = 0 then before else []) (List.replicate n 0) := by
      unfold aloneRun threadsRun; rw [prog_zero]
    rw [e0] at hf ⊢
    obtain ⟨l, hi, e⟩ := GSys.order_of_finished hf
    have := threads_set (S := ∅) (sh := SharedGraph.new u) (by simp [SetRep, SharedGraph.new]) e
    rwa [interleaves_zero hi] at this
  refine ⟨g1.start (fun i => (hf i).1) (fun i => op_g _), hs, fun t ht w => ?_, fun r k x hr => ?_⟩
  · rcases g1.c2 t.stmt ((hs.mem t).2 ht) w with h1 | ⟨j, hj⟩
    · exact h1
    · rw [show ((GSys.start (SharedGraph.new u) _).run (List.replicate n 0)).threads j = (aloneRun u before n).threads j from rfl, (hf j).1] at hj
      exact absurd hj Pc.pending_idle
  · have t0 : Tight (SharedGraph.new u) := fun p k m hne => absurd rfl hne
    have t1 : Tight (aloneRun u before n).sh := Tight.run g0 t0 (GSys.safe_alone _ 0 n (fun _ _ => rfl))
    obtain ⟨w, hw⟩ := t1.found g1.shaped.heap hr
    rcases g1.c1 w x hw with h1 | ⟨j, hj⟩
    · exact (hs.2 x).1 h1
    · rw [show ((GSys.start (SharedGraph.new u) _).run (List.replicate n 0)).threads j = (aloneRun u before n).threads j from rfl, (hf j).1] at hj
      exact absurd hj Pc.pending_idle

/-- A run without clashes. -/
theorem safe_asIf {u : Term} {before : List Act} {sh : SharedGraph} (h : Prepared u before sh) {prog : Nat → List Act} {sched : List Nat}
    (hs : (GSys.start sh (fun i => (prog i).map Act.op)).Safe sched) (hf : (threadsRun sh prog sched).Finished) :
    ∃ l, Interleaves l prog ∧ AsIf (runActs ∅ before) (threadsRun sh prog sched) l := by
  obtain ⟨g, r, -⟩ := h.good prog
  obtain ⟨g1, o1⟩ := g.run hs
  obtain ⟨l, hi, e⟩ := GSys.order_of_finished hf
  have hset := threads_set r e
  have rep : Graph.Rep (threadsRun sh prog sched).sh.graph (runActs (runActs ∅ before) (l.map Prod.snd)) := ⟨g1.inv (fun i => (hf i).1), hset.2⟩
  refine ⟨l, hi, hset.shows (g := (threadsRun sh prog sched).sh.graph), fun ord hord s p o h1 h2 h3 =>
    ⟨Graph.nodup_match rep.inv.toIxInv hord _ _ _, rep.mem_match hord h1 h2 h3⟩, fun i => ?_⟩
  have := o1 i
  rw [show ((GSys.run (GSys.start sh (fun i => (prog i).map Act.op)) sched).threads i).pc = .idle from (hf i).1, e] at this
  simp only [Pc.pend, List.append_nil] at this
  exact this.trans (by simpa [GSys.start, Pc.pend] using r.outcomes i l)

/-- For every number of threads, every calls and every schedule: membership, `len` and iteration are those of the calls one after the other, in the order in which
    they began. -/
theorem C162_set (u : Term) (before : List Act) (sh : SharedGraph) (h : Prepared u before sh) (prog : Nat → List Act) (sched : List Nat)
    (hf : (threadsRun sh prog sched).Finished) :
    ∃ l, Interleaves l prog ∧ ShowsSet (threadsRun sh prog sched).sh.graph (runActs (runActs ∅ before) (l.map Prod.snd)) := by
  obtain ⟨-, r, -⟩ := h.good prog
  obtain ⟨l, hi, e⟩ := GSys.order_of_finished hf
  exact ⟨l, hi, (threads_set r e).shows (g := (threadsRun sh prog sched).sh.graph)⟩

/-- For every schedule, also in the middle of calls: `match` gives only triples that fit the pattern and that were there before or that some thread adds. -/
theorem C162_sound (u : Term) (before : List Act) (sh : SharedGraph) (h : Prepared u before sh) (prog : Nat → List Act) (sched : List Nat)
    {ord} (hord : IsOrder ord) {s p o : Option Term} (hs : NonEmpty s) (hp : NonEmpty p) (ho : NonEmpty o) (x : Stmt)
    (hx : x ∈ (threadsRun sh prog sched).sh.graph.match ord (arg s) (arg p) (arg o)) :
    ∃ t : Tri, x = t.stmt ∧ t.Matches s p o ∧ (t ∈ runActs ∅ before ∨ ∃ i, .add t ∈ prog i) := by
  obtain ⟨g, r, -, hh⟩ := h.good prog
  let P : Stmt → Prop := fun x => ∃ t : Tri, x = t.stmt ∧ (t ∈ runActs ∅ before ∨ ∃ i, .add t ∈ prog i)
  have todoP : ∀ i t, ThOp.add t ∈ (prog i).map Act.op → P t := by
    intro i t ht
    obtain ⟨a, ha, e⟩ := List.mem_map.1 ht
    cases a with
    | add t' => cases e; exact ⟨t', rfl, Or.inr ⟨i, ha⟩⟩
    | remove t' => cases e
  have from0 : (GSys.start sh (fun i => (prog i).map Act.op)).From P := by
    refine ⟨fun r' k t e => ?_, todoP, fun i t w e => by cases e⟩
    obtain ⟨t', h1, h2⟩ := hh r' k t e
    exact ⟨t', h2, Or.inl h1⟩
  have fr := from0.run g.shaped sched
  have sp := g.shaped.run sched
  have setP : ∀ t ∈ (threadsRun sh prog sched).sh.graph.triples, P t := by
    have hl := (Linear.run (GSys.start sh (fun i => (prog i).map Act.op)) sched)
    have hmem : ∀ x ∈ (GSys.start sh (fun i => (prog i).map Act.op)).order sched, x.2 ∈ (prog x.1).map Act.op := by
      intro x hx
      have := hl.todo x.1
      show x.2 ∈ ((GSys.start sh (fun i => (prog i).map Act.op)).threads x.1).todo
      rw [this]
      refine List.mem_append_left _ (List.mem_map.2 ⟨x, List.mem_filter.2 ⟨hx, by simp⟩, rfl⟩)
    have key : ∀ (l : List (Nat × ThOp)) T, (∀ t ∈ T, P t) → (∀ x ∈ l, x.2 ∈ (prog x.1).map Act.op) → ∀ t ∈ (l.map Prod.snd).foldl ThOp.onSet T, P t := by
      intro l
      induction l with
      | nil => intro T hT _; exact hT
      | cons x l ih =>
        intro T hT hx
        refine ih _ ?_ (fun y hy => hx y (List.mem_cons_of_mem _ hy))
        intro t ht
        have hx := hx x (List.mem_cons_self ..)
        obtain ⟨j, op⟩ := x
        cases op with
        | add t' =>
          simp only [ThOp.onSet, Graph.setAdd] at ht
          split at ht
          · exact hT t ht
          · rcases List.mem_append.1 ht with h1 | h1
            · exact hT t h1
            · rw [List.mem_singleton] at h1; subst h1; exact todoP j t hx
        | remove t' => exact hT t (List.mem_of_mem_erase ht)
    intro t ht
    have ht : t ∈ (GSys.run (GSys.start sh (fun i => (prog i).map Act.op)) sched).sh.triples := ht
    rw [hl.triples] at ht
    refine key _ _ (fun t ht => ?_) hmem t ht
    obtain ⟨t', h1, h2⟩ := (r.2 t).1 ht
    exact ⟨t', h2, Or.inl h1⟩
  obtain ⟨⟨t, rfl, hP⟩, h1, h2, h3⟩ := Graph.match_from (P := P) (g := (threadsRun sh prog sched).sh.graph)
    (fun w => by rw [SharedGraph.graph_ix]; exact SharedGraph.top_wf sp.heap w)
    (fun w a b c t e => by
      rw [SharedGraph.graph_ix] at e
      refine ⟨SharedGraph.top_find sp.heap e, ?_⟩
      obtain ⟨r', k, e'⟩ := SharedGraph.find_heap sp.heap e
      exact fr.heap r' k t e')
    setP hord _ _ _ x hx
  exact ⟨t, rfl, ⟨(Graph.agrees_iff hs _).2 h1, (Graph.agrees_iff hp _).2 h2, (Graph.agrees_iff ho _).2 h3⟩, hP⟩

/-! ### Threads that keep apart -/

/-- What two threads both use as subject, predicate, object, or as two of these, is in a triple that is in the graph at the start, and no thread removes a triple
    that another thread adds or removes. -/
def Apart (S : Finset Tri) (prog : Nat → List Act) : Prop :=
  ∀ i j, i ≠ j → ∀ a ∈ prog i, ∀ b ∈ prog j,
    (a.tri.s = b.tri.s → ∃ t ∈ S, t.s = a.tri.s) ∧ (a.tri.p = b.tri.p → ∃ t ∈ S, t.p = a.tri.p) ∧ (a.tri.o = b.tri.o → ∃ t ∈ S, t.o = a.tri.o) ∧
    (a.tri.s = b.tri.s → a.tri.p = b.tri.p → ∃ t ∈ S, t.s = a.tri.s ∧ t.p = a.tri.p) ∧
    (a.tri.p = b.tri.p → a.tri.o = b.tri.o → ∃ t ∈ S, t.p = a.tri.p ∧ t.o = a.tri.o) ∧
    (a.tri.o = b.tri.o → a.tri.s = b.tri.s → ∃ t ∈ S, t.o = a.tri.o ∧ t.s = a.tri.s) ∧
    (a.tri = b.tri → a = .add a.tri ∧ b = .add b.tri)

theorem SharedGraph.Known.one {sh : SharedGraph} {t : Stmt} (h : sh.Known t) (w : Graph.Ix) : (sh.heap (.root w)).get? (w.keys t).1 ≠ none := by
  obtain ⟨cur, ⟨p, h1, -⟩, -⟩ := h w
  intro e
  rw [show (w.keys (ThOp.add t).stmt).1 = (w.keys t).1 from rfl, e] at h1
  cases h1

theorem SharedGraph.Known.two {sh : SharedGraph} {t : Stmt} (h : sh.Known t) (w : Graph.Ix) (r : DRef) (hr : (sh.heap (.root w)).get? (w.keys t).1 = some (.dict r)) :
    (sh.heap r).get? (w.keys t).2.1 ≠ none := by
  obtain ⟨cur, ⟨p, h1, h2⟩, -⟩ := h w
  rw [show (w.keys (ThOp.add t).stmt).1 = (w.keys t).1 from rfl, hr] at h1
  cases h1
  rw [show (w.keys (ThOp.add t).stmt).2.1 = (w.keys t).2.1 from rfl] at h2
  rw [h2]; simp

theorem Apart.compat {S : Finset Tri} {prog : Nat → List Act} (h : Apart S prog) {sh : SharedGraph} (hk : ∀ t ∈ S, sh.Known t.stmt) {i j : Nat} (hij : i ≠ j) {a b : Act}
    (ha : a ∈ prog i) (hb : b ∈ prog j) : Compat sh a.op b.op := by
  obtain ⟨h1, h2, h3, h12, h23, h31, hs⟩ := h i j hij a ha b hb
  have e1 : a.op.stmt = a.tri.stmt := Act.op_stmt a
  have e2 : b.op.stmt = b.tri.stmt := Act.op_stmt b
  refine ⟨fun w e => ?_, fun w e e' r hr => ?_, fun e => ?_⟩
  · rw [e1, e2] at e
    rw [e1]
    have : ∃ t ∈ S, (w.keys t.stmt).1 = (w.keys a.tri.stmt).1 := by
      cases w
      · exact h1 e
      · exact h2 e
      · exact h3 e
    obtain ⟨t, ht, et⟩ := this
    rw [← et]; exact (hk t ht).one w
  · rw [e1, e2] at e e'
    rw [e1] at hr ⊢
    have : ∃ t ∈ S, (w.keys t.stmt).1 = (w.keys a.tri.stmt).1 ∧ (w.keys t.stmt).2.1 = (w.keys a.tri.stmt).2.1 := by
      cases w
      · exact h12 e e'
      · exact h23 e e'
      · exact h31 e e'
    obtain ⟨t, ht, et, et'⟩ := this
    rw [← et] at hr
    rw [← et']; exact (hk t ht).two w r hr
  · rw [e1, e2, Graph.stmt_inj] at e
    obtain ⟨h4, h5⟩ := hs e
    constructor
    · rw [h4]; rfl
    · rw [h5, h4, ← e]; rfl

/-- The calls that a thread is in or is to make are its own. -/
def OwnCalls (prog : Nat → List Act) (s : GSys) : Prop :=
  ∀ i, (∀ op ∈ (s.threads i).todo, ∃ a ∈ prog i, op = a.op) ∧ ∀ op w, (s.threads i).pc.at = some (op, w) → ∃ a ∈ prog i, op = a.op

theorem SharedGraph.step_op (sh : SharedGraph) (th : GThread) (op : ThOp) (w : Graph.Ix) (h : (sh.step th).2.pc.at = some (op, w)) :
    (∃ w', th.pc.at = some (op, w')) ∨ op ∈ th.todo := by
  have adv : ∀ (th : GThread) op' w', (th.advance op' w').pc.at = some (op, w) → op' = op := by
    intro th op' w' e
    cases w' <;> simp [GThread.advance, Graph.Ix.after, GThread.finish, Pc.at] at e <;> exact e.1
  obtain ⟨pc, todo, outs⟩ := th
  cases pc with
  | idle =>
    cases todo with
    | nil => cases h
    | cons op' todo =>
      cases op' with
      | add t => cases h; exact Or.inr (List.mem_cons_self ..)
      | remove t =>
        simp only [step] at h
        split at h
        · cases h; exact Or.inr (List.mem_cons_self ..)
        · cases h
  | look1 op' w' =>
    simp only [step] at h
    split at h <;> cases h <;> exact Or.inl ⟨_, rfl⟩
  | store1 op' w' r => cases h; exact Or.inl ⟨_, rfl⟩
  | look2 op' w' cur =>
    simp only [step] at h
    split at h <;> cases h <;> exact Or.inl ⟨_, rfl⟩
  | store2 op' w' cur r => cases h; exact Or.inl ⟨_, rfl⟩
  | last op' w' cur =>
    cases op' with
    | add t => exact Or.inl ⟨w', by rw [← adv _ _ _ h]; rfl⟩
    | remove t =>
      simp only [step] at h
      split at h
      · exact Or.inl ⟨w', by rw [← adv _ _ _ h]; rfl⟩
      · cases h

theorem OwnCalls.step {prog : Nat → List Act} {s : GSys} (h : OwnCalls prog s) (i : Nat) : OwnCalls prog (s.step i) := by
  intro j
  by_cases e : j = i
  · subst e
    rw [GSys.step_self]
    refine ⟨fun op ho => (h j).1 op ?_, fun op w ho => ?_⟩
    · rcases s.sh.step_begins (s.threads j) with ⟨-, op', rest, h1, h2, -⟩ | ⟨-, h2, -⟩
      · rw [h2] at ho; rw [h1]; exact List.mem_cons_of_mem _ ho
      · rwa [h2] at ho
    · rcases s.sh.step_op _ op w ho with ⟨w', h1⟩ | h1
      · exact (h j).2 op w' h1
      · exact (h j).1 op h1
  · rw [GSys.step_other s e]; exact h j

theorem Apart.safe {S : Finset Tri} {prog : Nat → List Act} (h : Apart S prog) {s : GSys} (hg : s.Good) (ho : OwnCalls prog s) (hk : ∀ t ∈ S, s.sh.Known t.stmt) (sched : List Nat) :
    s.Safe sched := by
  induction sched generalizing s with
  | nil => trivial
  | cons i sched ih =>
    have hc : ∀ j, j ≠ i → ∀ op op' w', (s.threads i).now = some op → (s.threads j).pc.at = some (op', w') → Compat s.sh op op' := by
      intro j hj op op' w' h1 h2
      obtain ⟨b, hb, rfl⟩ := (ho j).2 _ _ h2
      have : ∃ a ∈ prog i, op = a.op := by
        unfold GThread.now at h1
        split at h1
        · next op1 w1 e => cases h1; exact (ho i).2 _ _ e
        · exact (ho i).1 _ (List.mem_of_mem_head? h1)
      obtain ⟨a, ha, rfl⟩ := this
      exact h.compat hk (Ne.symm hj) ha hb
    exact ⟨hc, ih (hg.step i hc) (ho.step i) (fun t ht => (hk t ht).step hg.shaped.heap (hg.shaped.pcs i) (hg.links i))⟩

/-- Threads that keep apart may share a graph. Missing for `C162_statement`: threads that both use a term or two terms that are not in the graph at the start, and
    threads that remove what others add or remove; see `C162_refuted`. -/
theorem C162_partial (u : Term) (before : List Act) (sh : SharedGraph) (h : Prepared u before sh) (prog : Nat → List Act) (ha : Apart (runActs ∅ before) prog)
    (sched : List Nat) (hf : (threadsRun sh prog sched).Finished) :
    ∃ l, Interleaves l prog ∧ AsIf (runActs ∅ before) (threadsRun sh prog sched) l := by
  obtain ⟨g, -, hfound, -⟩ := h.good prog
  refine safe_asIf h (ha.safe g (fun i => ⟨fun op ho => ?_, fun op w e => by cases e⟩) (fun t ht => SharedGraph.Known.of_found g.shaped.heap (hfound t ht)) sched) hf
  obtain ⟨a, h1, h2⟩ := List.mem_map.1 ho
  exact ⟨a, h1, h2.symm⟩

/-! ### A lock -/

/-- A thread makes a step only if no other thread is in a call, as with a lock around each call. -/
def Locked : GSys → List Nat → Prop
  | _, [] => True
  | s, i :: sched => (∀ j, j ≠ i → (s.threads j).pc = .idle) ∧ Locked (s.step i) sched

theorem Locked.safe {s : GSys} {sched : List Nat} (h : Locked s sched) : s.Safe sched := by
  induction sched generalizing s with
  | nil => trivial
  | cons i sched ih =>
    refine ⟨fun j hj op op' w' _ e => ?_, ih h.2⟩
    rw [h.1 j hj] at e; cases e

/-- With a lock around each call, any threads may share a graph. -/
theorem C162_locked (u : Term) (before : List Act) (sh : SharedGraph) (h : Prepared u before sh) (prog : Nat → List Act) (sched : List Nat)
    (hl : Locked (GSys.start sh (fun i => (prog i).map Act.op)) sched) (hf : (threadsRun sh prog sched).Finished) :
    ∃ l, Interleaves l prog ∧ AsIf (runActs ∅ before) (threadsRun sh prog sched) l := safe_asIf h hl.safe hf

/-! ### One thread -/

/-- One thread alone: the graph and the outcomes are exactly those of the sequential model, whose state is the three indexes and the set. -/
theorem C162_alone (u : Term) (before : List Act) : ∃ n, ∀ m, n ≤ m →
    (aloneRun u before m).Finished ∧ (aloneRun u before m).sh.graph = (ThOp.execAll (before.map Act.op) (Graph.new u)).1 ∧
      ((aloneRun u before m).threads 0).outs = (ThOp.execAll (before.map Act.op) (Graph.new u)).2 := by
  obtain ⟨n, h⟩ := GSys.alone (GSys.start (SharedGraph.new u) (fun i => if i = 0 then before.map Act.op else [])) (Shape.new u) (Graph.Inv.new u) 0 rfl (op_g before)
  refine ⟨n, fun m hm => ?_⟩
  obtain ⟨-, h2, h3, h4⟩ := h m hm
  refine ⟨fun i => ?_, h2, ?_⟩
  · by_cases e : i = 0
    · subst e; unfold aloneRun; rw [h3]; exact ⟨rfl, rfl⟩
    · unfold aloneRun; rw [h4 i e]; exact ⟨rfl, by simp [GSys.start, e]⟩
  · unfold aloneRun; rw [h3]; rfl

/-! ### Refutation -/

/-- Two threads that each make one call. -/
def twoThreads (a b : Act) : Nat → List Act := fun i => if i = 0 then [a] else if i = 1 then [b] else []

theorem prepared_new (u : Term) : Prepared u [] (SharedGraph.new u) :=
  ⟨0, fun i => ⟨rfl, by simp [aloneRun, GSys.run, GSys.start]⟩, rfl⟩

theorem finished_two {sh : SharedGraph} {a b : Act} {sched : List Nat} (h0 : ∀ i ∈ sched, i = 0 ∨ i = 1)
    (h1 : ((threadsRun sh (twoThreads a b) sched).threads 0).pc = .idle ∧ ((threadsRun sh (twoThreads a b) sched).threads 0).todo = [])
    (h2 : ((threadsRun sh (twoThreads a b) sched).threads 1).pc = .idle ∧ ((threadsRun sh (twoThreads a b) sched).threads 1).todo = []) :
    (threadsRun sh (twoThreads a b) sched).Finished := by
  intro i
  by_cases e0 : i = 0
  · subst e0; exact h1
  by_cases e1 : i = 1
  · subst e1; exact h2
  unfold threadsRun
  rw [GSys.run_other _ _ i (fun hi => by rcases h0 i hi with h | h <;> contradiction)]
  exact ⟨rfl, by simp [GSys.start, twoThreads, e0, e1]⟩

/-- Thread 0 looks up the new subject and misses it; thread 1 makes its whole call; thread 0 stores its dict over that of thread 1. -/
def lostSched : List Nat := [0, 0] ++ List.replicate 16 1 ++ List.replicate 14 0

def lostRun : GSys := threadsRun (SharedGraph.new .none) (twoThreads (.add exT1) (.add exT2)) lostSched

theorem lost_finished : lostRun.Finished := finished_two (by decide) (by decide) (by decide)

/-- Both triples are in the graph, and both calls succeeded, but `match` with the subject finds only one. -/
theorem C162_lost : lostRun.sh.graph.contains exT2.stmt = true ∧ (lostRun.threads 1).outs = [.ok ()] ∧
    lostRun.sh.graph.match id exA .none .none = [exT1.stmt] := by decide

theorem C162_refuted : ¬ C162_statement := by
  intro h
  obtain ⟨l, -, h1, h2, -⟩ := h .none [] _ (prepared_new .none) (twoThreads (.add exT1) (.add exT2)) lostSched lost_finished
  obtain ⟨t, ht, e⟩ := (h1.1 exT2.stmt).1 C162_lost.1
  have := ((h2 id isOrder_id (some exA) none none (by intro a e; cases e; decide) (by intro a e; cases e) (by intro a e; cases e)).2 exT2.stmt).2
    ⟨t, ht, e, by rw [Graph.stmt_inj] at e; subst e; exact ⟨fun a e => (by cases e; rfl), fun a e => (by cases e), fun a e => (by cases e)⟩⟩
  change exT2.stmt ∈ lostRun.sh.graph.match id exA .none .none at this
  rw [C162_lost.2.2] at this
  revert this
  decide

/-- Thread 0 begins to add a triple, thread 1 removes it: KeyError for thread 1, and `match` finds a triple that is not in the graph. -/
def ghostRun : GSys := threadsRun (SharedGraph.new .none) (twoThreads (.add exT1) (.remove exT1)) ([0] ++ List.replicate 16 1 ++ List.replicate 15 0)

theorem C162_ghost : ghostRun.sh.graph.contains exT1.stmt = false ∧ ghostRun.sh.graph.match id exA .none .none = [exT1.stmt] ∧
    (ghostRun.threads 1).outs = [.error .keyError] ∧ (ghostRun.threads 1).pc = .idle ∧ (ghostRun.threads 0).pc = .idle := by decide

/-! ### The hypotheses can be met -/

/-- A graph with one triple, to which two threads add triples of the same subject and predicate. -/
example : (aloneRun .none [.add exT1] 16).Finished := by
  intro i
  by_cases e : i = 0
  · subst e; decide
  · unfold aloneRun
    rw [GSys.run_other _ _ i (by simp [e])]
    exact ⟨rfl, by simp [GSys.start, e]⟩

example : Apart (runActs ∅ [.add exT1]) (twoThreads (.add ⟨exA, exB, exA⟩) (.add ⟨exA, exB, exB⟩)) := by
  have key : ∀ o o' : Term, o ≠ o' → ∀ a ∈ [Act.add ⟨exA, exB, o⟩], ∀ b ∈ [Act.add ⟨exA, exB, o'⟩],
      (a.tri.s = b.tri.s → ∃ t ∈ runActs ∅ [.add exT1], t.s = a.tri.s) ∧ (a.tri.p = b.tri.p → ∃ t ∈ runActs ∅ [.add exT1], t.p = a.tri.p) ∧
      (a.tri.o = b.tri.o → ∃ t ∈ runActs ∅ [.add exT1], t.o = a.tri.o) ∧
      (a.tri.s = b.tri.s → a.tri.p = b.tri.p → ∃ t ∈ runActs ∅ [.add exT1], t.s = a.tri.s ∧ t.p = a.tri.p) ∧
      (a.tri.p = b.tri.p → a.tri.o = b.tri.o → ∃ t ∈ runActs ∅ [.add exT1], t.p = a.tri.p ∧ t.o = a.tri.o) ∧
      (a.tri.o = b.tri.o → a.tri.s = b.tri.s → ∃ t ∈ runActs ∅ [.add exT1], t.o = a.tri.o ∧ t.s = a.tri.s) ∧
      (a.tri = b.tri → a = .add a.tri ∧ b = .add b.tri) := by
    intro o o' hne a ha b hb
    rw [List.mem_singleton] at ha hb
    subst ha
    subst hb
    have m : exT1 ∈ runActs ∅ [.add exT1] := by decide
    exact ⟨fun _ => ⟨exT1, m, rfl⟩, fun _ => ⟨exT1, m, rfl⟩, fun e => absurd e hne, fun _ _ => ⟨exT1, m, rfl, rfl⟩, fun _ e => absurd e hne, fun e => absurd e hne,
      fun e => ⟨rfl, rfl⟩⟩
  intro i j hij a ha b hb
  unfold twoThreads at ha hb
  by_cases i0 : i = 0
  · by_cases j1 : j = 1
    · rw [if_pos i0] at ha; rw [if_neg (by omega), if_pos j1] at hb
      exact key _ _ (by decide) a ha b hb
    · rw [if_neg (by omega), if_neg j1] at hb; cases hb
  · by_cases i1 : i = 1
    · by_cases j0 : j = 0
      · rw [if_neg i0, if_pos i1] at ha; rw [if_pos j0] at hb
        exact key _ _ (by decide) a ha b hb
      · rw [if_neg j0, if_neg (by omega)] at hb; cases hb
    · rw [if_neg i0, if_neg i1] at ha; cases ha

/-- A schedule in which the calls of two threads take turns step by step. -/
example : (threadsRun (aloneRun .none [.add exT1] 16).sh (twoThreads (.add ⟨exA, exB, exA⟩) (.add ⟨exA, exB, exB⟩)) ((List.replicate 16 [0, 1]).flatten)).Finished :=
  finished_two (by decide) (by decide) (by decide)

/-- With a lock: thread 1 makes its call, then thread 0. -/
example : (threadsRun (SharedGraph.new .none) (twoThreads (.add exT1) (.add exT2)) (List.replicate 16 1 ++ List.replicate 16 0)).Finished ∧
    (threadsRun (SharedGraph.new .none) (twoThreads (.add exT1) (.add exT2)) (List.replicate 16 1 ++ List.replicate 16 0)).sh.graph.match id exA .none .none =
      [exT2.stmt, exT1.stmt] := ⟨finished_two (by decide) (by decide) (by decide), by decide⟩

end Verif
