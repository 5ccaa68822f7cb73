import Verif.Lemmas.GraphThreadsSome
import Verif.Props.GraphThreadsAdd
import Verif.Props.GraphReader
/-
C162: threads that only add never lose all that is under a subject, a predicate or an object.
-/
namespace Verif
open Spec

theorem Lives.of_found {sh : SharedGraph} (h : Shape sh) {w : Graph.Ix} {t : Stmt} (hf : sh.Found w t) : Lives sh w (w.keys t).1 := by
  unfold SharedGraph.Found Idx.find Idx.l2 Idx.l1 at hf
  cases h1 : (sh.heap (.root w)).get? (w.keys t).1 with
  | none => rw [SharedGraph.top_get_none h h1] at hf; simp at hf
  | some v =>
    have p1 := h.placed _ _ _ h1
    cases v with
    | stmt t => exact p1.elim
    | dict r =>
      obtain ⟨m, hm, rfl⟩ := p1
      rw [SharedGraph.top_get h h1] at hf
      simp only [Option.getD_some] at hf
      cases h2 : (sh.heap (.made (.root w) (w.keys t).1 m)).get? (w.keys t).2.1 with
      | none => rw [SharedGraph.mid_get_none h h2] at hf; simp at hf
      | some v =>
        have p2 := h.placed _ _ _ h2
        cases v with
        | stmt t => exact p2.elim
        | dict r =>
          rw [SharedGraph.mid_get h h2] at hf
          simp only [Option.getD_some] at hf
          unfold SharedGraph.leaf at hf
          rw [Dict.get?_collect (h.wf _)] at hf
          cases h3 : (sh.heap r).get? (w.keys t).2.2 with
          | none => rw [h3] at hf; cases hf
          | some v => exact ⟨_, _, _, _, _, h1, h2, h3⟩

theorem Lives.found {sh : SharedGraph} (h : Shape sh) {w : Graph.Ix} {a : Term} (hl : Lives sh w a) : ∃ x ∈ ((sh.top w).l1 a).keys.flatMap fun b => ((sh.top w).l2 a b).values, True := by
  obtain ⟨r1, b, r2, c, v, h1, h2, h3⟩ := hl
  obtain ⟨m, -, rfl⟩ := h.placed _ _ _ h1
  obtain ⟨m', -, rfl⟩ := h.placed _ _ _ h2
  have p3 := h.placed _ _ _ h3
  cases v with
  | dict r => exact p3.elim
  | stmt t =>
    have e1 : (sh.top w).l1 a = sh.mid (.made (.root w) a m) := by unfold Idx.l1; rw [SharedGraph.top_get h h1]; rfl
    have e2 : (sh.top w).l2 a b = sh.leaf (.made (.made (.root w) a m) b m') := by unfold Idx.l2; rw [e1, SharedGraph.mid_get h h2]; rfl
    refine ⟨t, List.mem_flatMap.2 ⟨b, ?_, ?_⟩, trivial⟩
    · rw [e1, Dict.mem_keys_iff, SharedGraph.mid_get h h2]
      rfl
    · rw [e2, Dict.mem_values]
      · refine ⟨c, ?_⟩
        unfold SharedGraph.leaf
        rw [Dict.get?_collect (h.wf _), h3]
        rfl
      · exact (h.wf _).collect

theorem Lives.match {sh : SharedGraph} (h : Shape sh) {w : Graph.Ix} {a : Term} (hl : Lives sh w a) (ord) {s p o : Term} (e : Plan.of s p o = .one w a) : ∃ x, x ∈ sh.graph.match ord s p o := by
  obtain ⟨x, hx, -⟩ := hl.found h
  refine ⟨x, ?_⟩
  rw [Plan.list_of, e]
  have eg : sh.graph.ix w = sh.top w := by cases w <;> rfl
  dsimp only
  rw [eg, if_pos]
  · exact hx
  · obtain ⟨r1, b, r2, c, v, h5, -, -⟩ := hl
    unfold Dict.has
    rw [SharedGraph.top_get h h5]
    rfl

theorem GSys.OnlyAdds.run {sh : SharedGraph} (ts : Nat → List Tri) (sched : List Nat) : (threadsRun sh (fun i => adds (ts i)) sched).OnlyAdds := by
  have key : ∀ (s : GSys), OwnCalls (fun i => adds (ts i)) s → ∀ sched, OwnCalls (fun i => adds (ts i)) (s.run sched) := by
    intro s hs sched
    induction sched generalizing s with
    | nil => exact hs
    | cons i sched ih => exact ih _ (hs.step i)
  have ho := key (GSys.start sh (fun i => (adds (ts i)).map Act.op)) (fun i => ⟨fun op ho => ?_, fun op w e => by cases e⟩) sched
  · have isAdd : ∀ i, ∀ a ∈ adds (ts i), a.op = .add a.op.stmt := by
      intro i a ha
      obtain ⟨t, -, rfl⟩ := List.mem_map.1 ha
      rfl
    refine ⟨fun i op h => ?_, fun i op w h => ?_⟩
    · obtain ⟨a, h1, rfl⟩ := (ho i).1 op h
      exact isAdd i a h1
    · obtain ⟨a, h1, rfl⟩ := (ho i).2 op w h
      exact isAdd i a h1
  · obtain ⟨a, h1, h2⟩ := List.mem_map.1 ho
    exact ⟨a, h1, h2.symm⟩

theorem threads_some {u : Term} {before : List Act} {sh : SharedGraph} (h : Prepared u before sh) (ts : Nat → List Tri) (sched : List Nat) :
    (threadsRun sh (fun i => adds (ts i)) sched).Shaped ∧ Unborn (threadsRun sh (fun i => adds (ts i)) sched).sh ∧ (threadsRun sh (fun i => adds (ts i)) sched).Some := by
  obtain ⟨g, r, hfound, -⟩ := h.good (fun i => adds (ts i))
  induction sched using List.reverseRecOn with
  | nil =>
    refine ⟨g.shaped, h.tight.unborn g.shaped.heap, fun t ht w => Or.inl ?_⟩
    obtain ⟨t', h1, rfl⟩ := (r.2 t).1 ht
    exact .of_found g.shaped.heap (hfound t' h1 w)
  | append_singleton sched i ih =>
    obtain ⟨h1, h2, h3⟩ := ih
    have e : threadsRun sh (fun i => adds (ts i)) (sched ++ [i]) = (threadsRun sh (fun i => adds (ts i)) sched).step i := by
      unfold threadsRun GSys.run; rw [List.foldl_append]; rfl
    rw [e]
    exact ⟨h1.step i, h2.step (h1.pcs i), h3.step h1 h2 (.run ts sched) i⟩

/-- Threads that only add, with any schedule: under the subject, under the predicate and under the object of each triple in the graph, `match` gives at least one triple with that subject,
    predicate or object, although it may give less than it should. -/
theorem C162_some (u : Term) (before : List Act) (sh : SharedGraph) (h : Prepared u before sh) (ts : Nat → List Tri) (sched : List Nat)
    (hf : (threadsRun sh (fun i => adds (ts i)) sched).Finished) (t : Tri) (ht : t ∈ runActs ∅ before ∨ ∃ i, t ∈ ts i) {ord} (hord : IsOrder ord) :
    (NonEmpty (some t.s) → ∃ t' : Tri, t'.stmt ∈ (threadsRun sh (fun i => adds (ts i)) sched).sh.graph.match ord t.s .none .none ∧ t'.s = t.s) ∧
    (NonEmpty (some t.p) → ∃ t' : Tri, t'.stmt ∈ (threadsRun sh (fun i => adds (ts i)) sched).sh.graph.match ord .none t.p .none ∧ t'.p = t.p) ∧
    (NonEmpty (some t.o) → ∃ t' : Tri, t'.stmt ∈ (threadsRun sh (fun i => adds (ts i)) sched).sh.graph.match ord .none .none t.o ∧ t'.o = t.o) := by
  obtain ⟨S, hS, hset, hm⟩ := C162_adds u before sh h ts sched hf
  obtain ⟨h1, h2, h3⟩ := threads_some h ts sched
  have mem : t.stmt ∈ (threadsRun sh (fun i => adds (ts i)) sched).sh.triples := by
    have := (hset.1 t.stmt).2 ⟨t, (hS t).2 ht, rfl⟩
    unfold Graph.contains at this
    exact of_decide_eq_true this
  have lives : ∀ w : Graph.Ix, Lives (threadsRun sh (fun i => adds (ts i)) sched).sh w (w.keys t.stmt).1 := by
    intro w
    rcases h3 t.stmt mem w with h4 | ⟨j, h4⟩
    · exact h4
    · rw [(hf j).1] at h4
      exact h4.elim
  have some_none : NonEmpty (none : Option Term) := fun a e => by cases e
  have truthy : ∀ {a : Term}, NonEmpty (some a) → (arg (some a)).truthy = true := fun hn => (Graph.truthy_iff _).2 (hn _ rfl)
  have get : ∀ s p o, NonEmpty s → NonEmpty p → NonEmpty o → ∀ w, Plan.of (arg s) (arg p) (arg o) = .one w (w.keys t.stmt).1 →
      ∃ t' : Tri, t'.stmt ∈ (threadsRun sh (fun i => adds (ts i)) sched).sh.graph.match ord (arg s) (arg p) (arg o) ∧ t'.Matches s p o := by
    intro s p o hs hp ho w e
    obtain ⟨x, hx⟩ := (lives w).match h1.heap ord e
    obtain ⟨t', -, rfl, h5⟩ := hm ord hord s p o hs hp ho x hx
    exact ⟨t', hx, h5⟩
  refine ⟨fun hn => ?_, fun hn => ?_, fun hn => ?_⟩
  · obtain ⟨t', h5, h6⟩ := get (some t.s) none none hn some_none some_none .spo (by unfold Plan.of; rw [truthy hn]; rfl)
    exact ⟨t', h5, h6.1 _ rfl⟩
  · obtain ⟨t', h5, h6⟩ := get none (some t.p) none some_none hn some_none .pos (by unfold Plan.of; rw [truthy hn]; rfl)
    exact ⟨t', h5, h6.2.1 _ rfl⟩
  · obtain ⟨t', h5, h6⟩ := get none none (some t.o) some_none some_none hn .osp (by unfold Plan.of; rw [truthy hn]; rfl)
    exact ⟨t', h5, h6.2.2 _ rfl⟩

/-- The lost triple of `C162_lost`: the subject still gives the other. -/
example : lostRun.sh.graph.match id exA .none .none = [exT1.stmt] := by decide

end Verif
