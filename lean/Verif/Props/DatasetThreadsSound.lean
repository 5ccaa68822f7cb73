import Verif.Props.DatasetThreads
/-
C163, for every schedule: where the quads come from that the dataset shows.
-/
namespace Verif
open Spec

/-- The quad of a triple in a graph. -/
def qdOf (t : Stmt) (n : Term) : Qd := ⟨t.s, t.p, t.o, n⟩

/-- The graph object of a thread has the name of its call. -/
def DSys.Holds (s : DSys) (nm : Nat → Term) : DPc → Prop
  | .made op _ i => nm i = op.name ∧ i < s.next
  | .got op i => nm i = op.name ∧ i < s.next
  | .inside op i => nm i = op.name ∧ i < s.next
  | _ => True

/-- Every quad that is in the dataset or about to be added has the property; `nm` is the name under which an object is or is about to be stored. -/
structure DSys.From (s : DSys) (P : Qd → Prop) (nm : Nat → Term) : Prop where
  shaped : ∀ i, (s.graphs i).Shaped
  graph : ∀ i, (s.graphs i).From (fun t => P (qdOf t (nm i)))
  set : ∀ i, ∀ t ∈ (s.graphs i).sh.triples, P (qdOf t (nm i))
  wf : s.names.WF
  names : ∀ {n i}, s.names.get? n = some i → nm i = n ∧ i < s.next
  holds : ∀ j, s.Holds nm (s.threads j).pc
  todo : ∀ j n t, .add n t ∈ (s.threads j).todo → P (qdOf t n)
  cur : ∀ j n t, (s.threads j).pc.at = some (.add n t) → P (qdOf t n)

theorem GSys.Shaped.push {s : GSys} (h : s.Shaped) (j : Nat) (op : ThOp) : (s.push j op).Shaped := ⟨h.heap, fun i => by rw [GSys.push_pc]; exact h.pcs i⟩

theorem GSys.From.push {s : GSys} {P : Stmt → Prop} (h : s.From P) {j : Nat} {op : ThOp} (ho : ∀ t, op = .add t → P t) : (s.push j op).From P := by
  refine ⟨h.heap, fun i t ht => ?_, fun i t w => by rw [GSys.push_pc]; exact h.cur i t w⟩
  by_cases e : i = j
  · subst e
    rw [GSys.push_self] at ht
    rcases List.mem_append.1 ht with h1 | h1
    · exact h.todo i t h1
    · exact ho t (List.mem_singleton.1 h1).symm
  · rw [GSys.push_other s op e] at ht; exact h.todo i t ht

theorem DSys.From.thread {s : DSys} {P : Qd → Prop} {nm : Nat → Term} (h : s.From P nm) {j : Nat} {th : DThread} (h1 : s.Holds nm th.pc)
    (h2 : ∀ n t, .add n t ∈ th.todo → P (qdOf t n)) (h3 : ∀ n t, th.pc.at = some (.add n t) → P (qdOf t n)) : (s.setThread j th).From P nm := by
  refine ⟨h.shaped, h.graph, h.set, h.wf, h.names, fun k => ?_, fun k => ?_, fun k => ?_⟩ <;>
  · by_cases e : k = j
    · subst e; rw [setThread_self]; assumption
    · rw [setThread_other s th e]
      first | exact h.holds k | exact h.todo k | exact h.cur k

theorem DSys.From.setGraph {s : DSys} {P : Qd → Prop} {nm : Nat → Term} (h : s.From P nm) {i : Nat} {g : GSys} (h1 : g.Shaped) (h2 : g.From (fun t => P (qdOf t (nm i))))
    (h3 : ∀ t ∈ g.sh.triples, P (qdOf t (nm i))) : (s.setGraph i g).From P nm := by
  refine ⟨fun k => ?_, fun k => ?_, fun k => ?_, h.wf, h.names, h.holds, h.todo, h.cur⟩ <;>
  · by_cases e : k = i
    · subst e; rw [setGraph_self]; assumption
    · rw [setGraph_other s g e]
      first | exact h.shaped k | exact h.graph k | exact h.set k

theorem DSys.From.enter {s : DSys} {P : Qd → Prop} {nm : Nat → Term} (h : s.From P nm) {j : Nat} {op : DThOp} (again : Bool) {i : Nat} (hn : nm i = op.name ∧ i < s.next)
    (hp : ∀ n t, op = .add n t → P (qdOf t n)) : (s.enter j op again i).From P nm := by
  have key : ((s.setGraph i ((s.graphs i).push j op.op)).setThread j { s.threads j with pc := .inside op i }).From P nm := by
    refine (h.setGraph ((h.shaped i).push j op.op) ((h.graph i).push (fun t e => ?_)) (h.set i)).thread hn (h.todo j) (fun n t e => hp n t (Option.some.inj e))
    cases op with
    | add n t' => cases e; rw [hn.1]; exact hp _ _ rfl
    | remove n t' => cases e
  cases op with
  | add n t =>
    cases again with
    | false => exact h.thread (th := { s.threads j with pc := .got (.add n t) i }) hn (h.todo j) (fun n t e => hp n t (Option.some.inj e))
    | true => exact key
  | remove n t => exact key

theorem SharedGraph.step_triples {sh : SharedGraph} {th : GThread} {P : Stmt → Prop} (h : ∀ t ∈ sh.triples, P t) (ha : ∀ t, .add t ∈ th.todo → P t) : ∀ t ∈ (sh.step th).1.triples, P t := by
  rcases sh.step_begins th with ⟨-, op, rest, h1, -, h3⟩ | ⟨-, -, h3⟩
  · rw [h3]
    intro t ht
    cases op with
    | add t' =>
      simp only [ThOp.onSet, Graph.setAdd] at ht
      split at ht
      · exact h t ht
      · rcases List.mem_append.1 ht with h4 | h4
        · exact h t h4
        · rw [List.mem_singleton] at h4; subst h4; exact ha t (by rw [h1]; exact List.mem_cons_self ..)
    | remove t' => exact h t (List.mem_of_mem_erase ht)
  · rw [h3]; exact h

theorem DSys.From.step {s : DSys} {P : Qd → Prop} {nm : Nat → Term} (h : s.From P nm) (j : Nat) : ∃ nm', (s.step j).From P nm' := by
  have h0 := h.holds j
  have hc := h.cur j
  unfold DSys.step
  dsimp only
  cases hp : (s.threads j).pc with
  | idle =>
    dsimp only
    have ht := h.todo j
    cases htd : (s.threads j).todo with
    | nil => exact ⟨nm, h⟩
    | cons op todo =>
      rw [htd] at ht
      exact ⟨nm, h.thread (th := { s.threads j with pc := .look op false, todo }) trivial (fun n t h' => ht n t (List.mem_cons_of_mem _ h'))
        (fun n t e => ht n t (by cases e; exact List.mem_cons_self ..))⟩
  | look op again =>
    rw [hp] at hc
    dsimp only
    cases hn : s.names.get? op.name with
    | some i => exact ⟨nm, h.enter again (h.names hn) (fun n t e => hc n t (by rw [e]; rfl))⟩
    | none =>
      dsimp only
      let nm' : Nat → Term := fun i => if i = s.next then op.name else nm i
      have lt' : ∀ {i}, i < s.next → nm' i = nm i := fun hi => if_neg (by omega)
      refine ⟨nm', ⟨fun k => ?_, fun k => ?_, fun k => ?_, h.wf, fun {n i} e => ?_, fun k => ?_, fun k => ?_, fun k => ?_⟩⟩
      · show ((s.setGraph s.next GSys.new).graphs k).Shaped
        by_cases e : k = s.next
        · subst e; rw [setGraph_self]; exact .start (.new _) _
        · rw [setGraph_other _ _ e]; exact h.shaped k
      · show ((s.setGraph s.next GSys.new).graphs k).From _
        by_cases e : k = s.next
        · subst e; rw [setGraph_self]
          exact ⟨fun r k t e => (by cases e), fun i t e => (by cases e), fun i t w e => (by cases e)⟩
        · rw [setGraph_other _ _ e, show nm' k = nm k from if_neg e]; exact h.graph k
      · show ∀ t ∈ ((s.setGraph s.next GSys.new).graphs k).sh.triples, _
        by_cases e : k = s.next
        · subst e; rw [setGraph_self]; intro t ht; cases ht
        · rw [setGraph_other _ _ e, show nm' k = nm k from if_neg e]; exact h.set k
      · obtain ⟨h1, h2⟩ := h.names (n := n) (i := i) e
        exact ⟨(lt' h2).trans h1, Nat.lt_succ_of_lt h2⟩
      · by_cases e : k = j
        · subst e; rw [setThread_self]; exact ⟨if_pos rfl, Nat.lt_succ_self _⟩
        · rw [setThread_other _ _ e]
          show DSys.Holds _ nm' (s.threads k).pc
          have := h.holds k
          revert this
          cases (s.threads k).pc <;> first | exact fun _ => trivial | exact fun h1 => ⟨(lt' h1.2).trans h1.1, Nat.lt_succ_of_lt h1.2⟩
      · by_cases e : k = j
        · subst e; rw [setThread_self]; exact h.todo k
        · rw [setThread_other _ _ e]; exact h.todo k
      · by_cases e : k = j
        · subst e; rw [setThread_self]; exact hc
        · rw [setThread_other _ _ e]; exact h.cur k
  | made op again i =>
    rw [hp] at hc h0
    dsimp only
    have h1 : ({ s with names := s.names.set op.name i } : DSys).From P nm := by
      refine ⟨h.shaped, h.graph, h.set, h.wf.set _ _, fun {n i'} e => ?_, h.holds, h.todo, h.cur⟩
      change (s.names.set op.name i).get? n = some i' at e
      rw [Dict.get?_set] at e
      split at e
      · next e' => cases e; rw [← e']; exact h0
      · exact h.names e
    exact ⟨nm, h1.enter again h0 (fun n t e => hc n t (by rw [e]; rfl))⟩
  | got op i =>
    rw [hp] at hc h0
    dsimp only
    refine ⟨nm, (h.setGraph (i := i) (g := (s.graphs i).setUri op.name) ⟨⟨(h.shaped i).heap.wf, (h.shaped i).heap.placed⟩, (h.shaped i).pcs⟩
      ⟨(h.graph i).heap, (h.graph i).todo, (h.graph i).cur⟩ (h.set i)).thread (th := { s.threads j with pc := .look op true }) trivial (h.todo j) hc⟩
  | inside op i =>
    rw [hp] at hc h0
    dsimp only
    have h1 := h.setGraph (i := i) (g := (s.graphs i).step j) ((h.shaped i).step j) ((h.graph i).step (h.shaped i) j)
      (SharedGraph.step_triples (h.set i) ((h.graph i).todo j))
    split
    · exact ⟨nm, h1.thread trivial (h.todo j) (fun n t e => by cases e)⟩
    · exact ⟨nm, h1⟩

theorem DSys.From.run {s : DSys} {P : Qd → Prop} {nm : Nat → Term} (h : s.From P nm) (sched : List Nat) : ∃ nm', (s.run sched).From P nm' := by
  induction sched generalizing s nm with
  | nil => exact ⟨nm, h⟩
  | cons j sched ih => obtain ⟨nm', h'⟩ := h.step j; exact ih h'

/-! ### The prepared dataset -/

/-- Graphs that have no name are empty, and the dicts that hold something can be reached. -/
def DSys.Neat (s : DSys) : Prop := ∀ i, Tight (s.graphs i).sh ∧ ((∀ n, s.names.get? n ≠ some i) → (s.graphs i).sh.triples = [])

theorem Tight.same {sh sh' : SharedGraph} (h : Tight sh) (e : sh'.heap = sh.heap) : Tight sh' := by unfold Tight; rw [e]; exact h

theorem DSys.Neat.enter {s : DSys} (h : s.Neat) (j : Nat) (op : DThOp) (again : Bool) (i : Nat) : (s.enter j op again i).Neat := by
  have key : ∀ op : DThOp, ((s.setGraph i ((s.graphs i).push j op.op)).setThread j { s.threads j with pc := .inside op i }).Neat := by
    intro op k
    show Tight ((s.setGraph i ((s.graphs i).push j op.op)).graphs k).sh ∧ (_ → ((s.setGraph i ((s.graphs i).push j op.op)).graphs k).sh.triples = [])
    by_cases e : k = i
    · subst e; rw [setGraph_self]; exact h k
    · rw [setGraph_other _ _ e]; exact h k
  cases op with
  | add n t =>
    cases again with
    | false => exact h
    | true => exact key (.add n t)
  | remove n t => exact key (.remove n t)

theorem DSys.Neat.step {s : DSys} {S : Finset Qd} (hg : s.Good S) (h : s.Neat) (j : Nat) : (s.step j).Neat := by
  have h0 := hg.atOk j trivial
  unfold DSys.step
  dsimp only
  cases hp : (s.threads j).pc with
  | idle =>
    dsimp only
    split
    · exact h
    · exact h
  | look op again =>
    dsimp only
    split
    · exact h.enter _ _ _ _
    · intro k
      show Tight ((s.setGraph s.next GSys.new).graphs k).sh ∧ (_ → ((s.setGraph s.next GSys.new).graphs k).sh.triples = [])
      by_cases e : k = s.next
      · subst e; rw [setGraph_self]; exact ⟨fun p k m hne => absurd rfl hne, fun _ => rfl⟩
      · rw [setGraph_other _ _ e]; exact h k
  | made op again i =>
    rw [hp] at h0
    dsimp only
    refine DSys.Neat.enter (s := { s with names := s.names.set op.name i }) (fun k => ⟨(h k).1, fun hn => (h k).2 (fun n e => ?_)⟩) _ _ _ _
    refine hn n ?_
    show (s.names.set op.name i).get? n = some k
    rw [Dict.get?_set, if_neg (fun e' => by have := h0.2.2.1; rw [e', e] at this; cases this)]
    exact e
  | got op i =>
    dsimp only
    intro k
    show Tight ((s.setGraph i ((s.graphs i).setUri op.name)).graphs k).sh ∧ (_ → ((s.setGraph i ((s.graphs i).setUri op.name)).graphs k).sh.triples = [])
    by_cases e : k = i
    · subst e; rw [setGraph_self]; exact ⟨(h k).1.same rfl, (h k).2⟩
    · rw [setGraph_other _ _ e]; exact h k
  | inside op i =>
    rw [hp] at h0
    dsimp only
    have key : (s.setGraph i ((s.graphs i).step j)).Neat := by
      intro k
      by_cases e : k = i
      · subst e; rw [setGraph_self]
        exact ⟨(h k).1.step (hg.good k).shaped.heap ((hg.good k).shaped.pcs j) ((hg.good k).links j), fun hn => absurd h0.2.1 (hn _)⟩
      · rw [setGraph_other _ _ e]; exact h k
    split <;> exact key

theorem DSys.Neat.run {s : DSys} {S : Finset Qd} (hg : s.Good S) (h : s.Neat) {sched : List Nat} (hs : s.Safe sched) : (s.run sched).Neat := by
  induction sched generalizing s S with
  | nil => exact h
  | cons j sched ih => exact ih (hg.step hs.1) (h.step hg j) hs.2

open Classical in
theorem QPrepared.from {before : List QAct} {s : DSys} (h : QPrepared before s) (prog : Nat → List QAct) :
    ∃ nm, (quadStart s prog).From (fun q => q ∈ runQActs ∅ before ∨ ∃ i, .add q ∈ prog i) nm := by
  obtain ⟨g, hf⟩ := h.good
  have neat : s.Neat := by
    obtain ⟨n, -, rfl⟩ := h
    exact DSys.Neat.run (quadsAlone_good before) (fun i => ⟨fun p k m hne => absurd rfl hne, fun _ => rfl⟩) (QLocked.alone _ 0 n (fun _ _ => rfl)).safe
  let nm : Nat → Term := fun i => if e : ∃ n, s.names.get? n = some i then e.choose else .none
  have hnm : ∀ {n i}, s.names.get? n = some i → nm i = n := by
    intro n i e
    have : ∃ n, s.names.get? n = some i := ⟨n, e⟩
    show (if e : ∃ n, s.names.get? n = some i then e.choose else .none) = n
    rw [dif_pos this]
    exact g.inj this.choose_spec e
  have idle : ∀ i j, ((s.graphs i).threads j).pc = .idle := fun i j => (g.rest j i (fun _ op e => by rw [(hf j).1] at e; cases e)).1
  have setP : ∀ i, ∀ t ∈ (s.graphs i).sh.triples, qdOf t (nm i) ∈ runQActs ∅ before := by
    intro i t ht
    by_cases e : ∃ n, s.names.get? n = some i
    · obtain ⟨n, e⟩ := e
      rw [hnm e]
      refine (g.mem _).2 ⟨i, e, ?_⟩
      show mkTriple t.s t.p t.o ∈ _
      rw [← Graph.eq_mkTriple ((g.good i).tri t ht)]; exact ht
    · rw [(neat i).2 (fun n e' => e ⟨n, e'⟩)] at ht; cases ht
  refine ⟨nm, ⟨fun i => .start (g.good i).shaped.heap _, fun i => ⟨fun r k t e => ?_, fun j t e => (by cases e), fun j t w e => (by cases e)⟩, fun i t ht => Or.inl (setP i t ht), g.wf,
    fun e => ⟨hnm e, g.lt e⟩, fun j => trivial, fun j n t e => ?_, fun j n t e => (by cases e)⟩⟩
  · left
    obtain ⟨w, hw⟩ := (neat i).1.found (g.good i).shaped.heap e
    rcases (g.good i).c1 w t hw with h1 | ⟨j, hj⟩
    · exact setP i t h1
    · rw [idle] at hj; exact absurd hj Pc.pending_idle
  · obtain ⟨a, ha, e'⟩ := List.mem_map.1 e
    cases a with
    | add q => cases e'; exact Or.inr ⟨j, ha⟩
    | remove q => cases e'

/-- For every schedule, also in the middle of calls: a quad that is in the dataset was there before or some thread adds it, and `match` gives only such quads, and
    only those that fit the pattern. (Not so for iteration: `C163_nameless`.) -/
theorem C163_sound (before : List QAct) (s : DSys) (h : QPrepared before s) (prog : Nat → List QAct) (sched : List Nat) :
    (∀ q : Qd, (quadThreads s prog sched).dataset.containsQuad q.s q.p q.o q.g = true → q ∈ runQActs ∅ before ∨ ∃ i, .add q ∈ prog i) ∧
    ∀ ord, IsOrders ord → ∀ s' p o g, NonEmpty s' → NonEmpty p → NonEmpty o → NonEmpty g → ∀ x ∈ ((quadThreads s prog sched).dataset.match ord (arg s') (arg p) (arg o) (arg g)).2,
      ∃ q : Qd, x = q.stmt ∧ q.Matches s' p o g ∧ (q ∈ runQActs ∅ before ∨ ∃ i, .add q ∈ prog i) := by
  obtain ⟨nm0, f0⟩ := h.from prog
  obtain ⟨nm, f⟩ := f0.run sched
  change (quadThreads s prog sched).From _ nm at f
  generalize quadThreads s prog sched = u at f
  refine ⟨fun q hq => ?_, fun ord hord s' p o g hs hp ho hg x hx => ?_⟩
  · unfold Dataset.containsQuad at hq
    cases e : u.dataset.names.get? q.g with
    | none => rw [e] at hq; cases hq
    | some i =>
      rw [e] at hq
      have hm : mkTriple q.s q.p q.o ∈ (u.graphs i).sh.triples := by
        have hq : decide (mkTriple q.s q.p q.o ∈ (u.graphs i).sh.triples) = true := hq
        simpa using hq
      have := f.set i _ hm
      rw [(f.names e).1] at this
      exact this
  · -- what `match` of a graph of the dataset gives
    have key : ∀ n i, u.names.get? n = some i → ∀ t ∈ (u.graphs i).sh.graph.match (ord i) (arg s') (arg p) (arg o),
        (agrees s' t.s ∧ agrees p t.p ∧ agrees o t.o) ∧ (qdOf t n ∈ runQActs ∅ before ∨ ∃ i, QAct.add (qdOf t n) ∈ prog i) := by
      intro n i e t ht
      have sp := f.shaped i
      obtain ⟨hP, h1, h2, h3⟩ := Graph.match_from (g := (u.graphs i).sh.graph) (P := fun t => qdOf t (nm i) ∈ runQActs ∅ before ∨ ∃ i', QAct.add (qdOf t (nm i)) ∈ prog i')
        (fun w => by rw [SharedGraph.graph_ix]; exact SharedGraph.top_wf sp.heap w)
        (fun w a b c t e => by
          rw [SharedGraph.graph_ix] at e
          refine ⟨SharedGraph.top_find sp.heap e, ?_⟩
          obtain ⟨r', k, e'⟩ := SharedGraph.find_heap sp.heap e
          exact (f.graph i).heap r' k t e')
        (f.set i) (hord i) _ _ _ t ht
      rw [(f.names e).1] at hP
      exact ⟨⟨(Graph.agrees_iff hs _).2 h1, (Graph.agrees_iff hp _).2 h2, (Graph.agrees_iff ho _).2 h3⟩, hP⟩
    unfold Dataset.match at hx
    cases g with
    | none =>
      have : (arg none).truthy = false := rfl
      rw [this, if_neg (by simp)] at hx
      obtain ⟨⟨n, i⟩, hn, hx⟩ := List.mem_flatMap.1 hx
      obtain ⟨t, ht, rfl⟩ := List.mem_map.1 hx
      obtain ⟨⟨h1, h2, h3⟩, hP⟩ := key n i ((Dict.mem_iff_get? f.wf).1 hn) t ht
      exact ⟨qdOf t n, rfl, ⟨h1, h2, h3, fun a e => by cases e⟩, hP⟩
    | some g =>
      have : (arg (some g)).truthy = true := (Graph.truthy_iff g).2 (hg g rfl)
      rw [if_pos this] at hx
      change x ∈ List.map (tAsQ g) (Graph.match (ord (u.dataset.touch g).2) ((u.dataset.touch g).1.heap (u.dataset.touch g).2) _ _ _) at hx
      obtain ⟨t, ht, rfl⟩ := List.mem_map.1 hx
      cases e : u.dataset.names.get? g with
      | some i =>
        rw [Dataset.touch_of_some e] at ht
        obtain ⟨⟨h1, h2, h3⟩, hP⟩ := key g i e t ht
        exact ⟨qdOf t g, rfl, ⟨h1, h2, h3, fun a e => by cases e; rfl⟩, hP⟩
      | none =>
        exfalso
        have e' : u.dataset.touch g = (Dataset.mk (u.dataset.names.set g u.dataset.next) (fun j => if j = u.dataset.next then Graph.new else u.dataset.heap j)
            (u.dataset.next + 1), u.dataset.next) := by unfold Dataset.touch; rw [e]; rfl
        rw [e'] at ht
        simp only [if_true] at ht
        rw [Graph.mem_match (Graph.Inv.new .none) (hord _)] at ht
        cases ht.1

/-- Thread 0 removes a quad of a new graph (KeyError); thread 1 adds a quad to it and looks the graph up a second time after thread 0 has stored its own Graph, whose
    name nobody sets: iteration then gives a quad whose graph is `NamedNode(None)`, the default name of a Graph, though membership gives the quad that was added. -/
def namelessRun : DSys := quadThreads (quadsAlone [] 0) (twoQuadThreads (.remove exD1) (.add exD4)) ([0, 0] ++ List.replicate 4 1 ++ List.replicate 24 0 ++ List.replicate 24 1)

theorem C163_nameless : namelessRun.Finished ∧ namelessRun.dataset.iter (fun _ => id) = [mkQuad exD4.s exD4.p exD4.o (.named (py! "None"))] ∧
    namelessRun.dataset.containsQuad exD4.s exD4.p exD4.o exD4.g = true ∧ (namelessRun.threads 0).outs = [.error .keyError] ∧ (namelessRun.threads 1).outs = [.ok ()] :=
  ⟨finished_two_quads (by decide) (by decide) (by decide), by decide⟩

end Verif
