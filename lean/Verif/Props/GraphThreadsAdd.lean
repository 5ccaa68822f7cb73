import Verif.Props.GraphThreads
/-
C162: threads that only add.
-/
namespace Verif
open Spec

/-- The calls that add the triples. -/
def adds (ts : List Tri) : List Act := ts.map Act.add

theorem runActs_adds (S : Finset Tri) (l : List Act) (h : ∀ a ∈ l, ∃ t, a = .add t) (x : Tri) : x ∈ runActs S l ↔ x ∈ S ∨ .add x ∈ l := by
  unfold runActs
  induction l generalizing S with
  | nil => simp
  | cons a l ih =>
    obtain ⟨t, rfl⟩ := h a (List.mem_cons_self ..)
    rw [List.foldl_cons, ih _ (fun a ha => h a (List.mem_cons_of_mem _ ha))]
    simp only [Act.apply, Finset.mem_insert, List.mem_cons, Act.add.injEq]
    tauto

theorem interleaves_mem {l : List (Nat × Act)} {prog : Nat → List Act} (h : Interleaves l prog) (a : Act) : a ∈ l.map Prod.snd ↔ ∃ i, a ∈ prog i := by
  constructor
  · intro ha
    obtain ⟨x, hx, rfl⟩ := List.mem_map.1 ha
    refine ⟨x.1, ?_⟩
    rw [← h x.1]
    exact List.mem_map.2 ⟨x, List.mem_filter.2 ⟨hx, by simp⟩, rfl⟩
  · rintro ⟨i, hi⟩
    rw [← h i] at hi
    obtain ⟨x, hx, rfl⟩ := List.mem_map.1 hi
    exact List.mem_map.2 ⟨x, (List.mem_filter.1 hx).1, rfl⟩

/-- Threads that only add, with any schedule: all calls succeed; the graph has the triples it had and those that were added, as `in`, `len` and iteration see it; and
    `match` gives, for every pattern, only triples of the graph that match. -/
theorem C162_adds (u : Term) (before : List Act) (sh : SharedGraph) (h : Prepared u before sh) (ts : Nat → List Tri) (sched : List Nat)
    (hf : (threadsRun sh (fun i => adds (ts i)) sched).Finished) :
    ∃ S : Finset Tri, (∀ t, t ∈ S ↔ t ∈ runActs ∅ before ∨ ∃ i, t ∈ ts i) ∧ ShowsSet (threadsRun sh (fun i => adds (ts i)) sched).sh.graph S ∧
      ∀ ord, IsOrder ord → ∀ s p o, NonEmpty s → NonEmpty p → NonEmpty o → ∀ x ∈ (threadsRun sh (fun i => adds (ts i)) sched).sh.graph.match ord (arg s) (arg p) (arg o),
        ∃ t ∈ S, x = t.stmt ∧ t.Matches s p o := by
  obtain ⟨l, hi, hs⟩ := C162_set u before sh h _ sched hf
  have mem : ∀ t, t ∈ runActs (runActs ∅ before) (l.map Prod.snd) ↔ t ∈ runActs ∅ before ∨ ∃ i, t ∈ ts i := by
    intro t
    rw [runActs_adds _ _ (fun a ha => ?_), interleaves_mem hi]
    · simp [adds]
    · obtain ⟨i, h1⟩ := (interleaves_mem hi a).1 ha
      obtain ⟨t, -, rfl⟩ := List.mem_map.1 h1
      exact ⟨t, rfl⟩
  refine ⟨_, mem, hs, fun ord hord s p o h1 h2 h3 x hx => ?_⟩
  obtain ⟨t, e, hm, ht⟩ := C162_sound u before sh h _ sched hord h1 h2 h3 x hx
  refine ⟨t, (mem t).2 ?_, e, hm⟩
  rcases ht with ht | ⟨i, hi⟩
  · exact Or.inl ht
  · exact Or.inr ⟨i, by simpa [adds] using hi⟩

/-! ### Adding everything again -/

/-- Indexes that find only statements of the graph, each under its keys. -/
structure Graph.Sound (g : Graph) : Prop where
  wf : ∀ w, (g.ix w).WF
  find : ∀ w a b c t, (g.ix w).find a b c = some t → w.keys t = (a, b, c) ∧ t ∈ g.triples
  nodup : g.triples.Nodup
  tri : ∀ t ∈ g.triples, t.g = none

theorem Graph.add_ix (g : Graph) (t : Stmt) (w : Graph.Ix) : (g.add t).ix w = (g.ix w).put (w.keys t).1 (w.keys t).2.1 (w.keys t).2.2 t := by cases w <;> rfl

theorem Graph.Sound.add {g : Graph} (h : g.Sound) {t : Stmt} (ht : t ∈ g.triples) :
    (g.add t).Sound ∧ (g.add t).triples = g.triples ∧ (∀ w, ((g.add t).ix w).find (w.keys t).1 (w.keys t).2.1 (w.keys t).2.2 = some t) ∧
      ∀ w x, (g.ix w).find (w.keys x).1 (w.keys x).2.1 (w.keys x).2.2 = some x → ((g.add t).ix w).find (w.keys x).1 (w.keys x).2.1 (w.keys x).2.2 = some x := by
  have et : (g.add t).triples = g.triples := by simp [Graph.add, Graph.setAdd, ht]
  have ef : ∀ w a b c, ((g.add t).ix w).find a b c = if (w.keys t).1 = a ∧ (w.keys t).2.1 = b ∧ (w.keys t).2.2 = c then some t else (g.ix w).find a b c := by
    intro w a b c; rw [Graph.add_ix, Idx.find_put]
  refine ⟨⟨fun w => ?_, fun w a b c x hx => ?_, by rw [et]; exact h.nodup, by rw [et]; exact h.tri⟩, et, fun w => ?_, fun w x hx => ?_⟩
  · rw [Graph.add_ix]; exact (h.wf w).put _ _ _ _
  · rw [ef] at hx
    rw [et]
    split at hx
    · next e => cases hx; obtain ⟨rfl, rfl, rfl⟩ := e; exact ⟨rfl, ht⟩
    · exact h.find w a b c x hx
  · rw [ef, if_pos ⟨rfl, rfl, rfl⟩]
  · rw [ef]
    split
    · next e =>
      have : t = x := keys_inj (w := w) (h.tri t ht) (h.tri x (h.find w _ _ _ x hx).2) (by ext <;> simp [e])
      rw [this]
    · exact hx

theorem Graph.Sound.addMany {g : Graph} (h : g.Sound) (ts : List Stmt) (ht : ∀ t ∈ ts, t ∈ g.triples) :
    (ts.foldl Graph.add g).Sound ∧ (ts.foldl Graph.add g).triples = g.triples ∧
      (∀ t ∈ ts, ∀ w, ((ts.foldl Graph.add g).ix w).find (w.keys t).1 (w.keys t).2.1 (w.keys t).2.2 = some t) ∧
      ∀ w x, (g.ix w).find (w.keys x).1 (w.keys x).2.1 (w.keys x).2.2 = some x → ((ts.foldl Graph.add g).ix w).find (w.keys x).1 (w.keys x).2.1 (w.keys x).2.2 = some x := by
  induction ts generalizing g with
  | nil => exact ⟨h, rfl, by simp, fun _ _ hx => hx⟩
  | cons t ts ih =>
    obtain ⟨a1, a2, a3, a4⟩ := h.add (ht t (List.mem_cons_self ..))
    obtain ⟨b1, b2, b3, b4⟩ := ih a1 (fun x hx => by rw [a2]; exact ht x (List.mem_cons_of_mem _ hx))
    refine ⟨b1, b2.trans a2, fun x hx w => ?_, fun w x hx => b4 w x (a4 w x hx)⟩
    rcases List.mem_cons.1 hx with rfl | hx
    · exact b4 w x (a3 w)
    · exact b3 x hx w

theorem Graph.Sound.inv {g : Graph} (h : g.Sound) (hc : ∀ t ∈ g.triples, ∀ w, (g.ix w).find (w.keys t).1 (w.keys t).2.1 (w.keys t).2.2 = some t) : Graph.Inv g := by
  refine ⟨⟨h.nodup, h.wf .spo, h.wf .pos, h.wf .osp, fun a b c t => ?_, fun a b c t => ?_, fun a b c t => ?_⟩, h.tri⟩
  · constructor
    · intro e
      have := h.find .spo _ _ _ t e
      simp [Graph.Ix.keys] at this
      exact ⟨this.2, this.1⟩
    · rintro ⟨h1, rfl, rfl, rfl⟩; exact hc t h1 .spo
  · constructor
    · intro e
      have := h.find .pos _ _ _ t e
      simp [Graph.Ix.keys] at this
      exact ⟨this.2, this.1.2.2, this.1.1, this.1.2.1⟩
    · rintro ⟨h1, rfl, rfl, rfl⟩; exact hc t h1 .pos
  · constructor
    · intro e
      have := h.find .osp _ _ _ t e
      simp [Graph.Ix.keys] at this
      exact ⟨this.2, this.1.2.1, this.1.2.2, this.1.1⟩
    · rintro ⟨h1, rfl, rfl, rfl⟩; exact hc t h1 .osp

/-- Additions by a thread that is alone, to a graph in any state. -/
theorem SharedGraph.addMany {sh : SharedGraph} (h : Shape sh) (ts : List Stmt) (outs : List (Except Exc Unit)) :
    ∃ n sh', steps n (sh, ⟨.idle, ts.map ThOp.add, outs⟩) = (sh', ⟨.idle, [], outs ++ ts.map (fun _ => .ok ())⟩) ∧ Shape sh' ∧ sh'.graph = ts.foldl Graph.add sh.graph := by
  induction ts generalizing sh outs with
  | nil => exact ⟨0, sh, by simp [steps], h, rfl⟩
  | cons t ts ih =>
    obtain ⟨n, sh1, e1, h1, g1⟩ := lines (sh := { sh with triples := Graph.setAdd sh.triples t }) ⟨h.wf, h.placed⟩
      (th := ⟨.look1 (.add t) .spo, ts.map ThOp.add, outs⟩) (op := .add t) rfl (fun t e => by cases e)
    have g1' : sh1.graph = sh.graph.add t := by rw [g1]; rfl
    obtain ⟨m, sh2, e2, h2, g2⟩ := ih h1 (outs ++ [.ok ()])
    refine ⟨1 + n + m, sh2, ?_, h2, by rw [g2, g1']; rfl⟩
    rw [steps_add, steps_add]
    have : steps 1 (sh, (⟨.idle, (t :: ts).map ThOp.add, outs⟩ : GThread)) = ({ sh with triples := Graph.setAdd sh.triples t }, ⟨.look1 (.add t) .spo, ts.map ThOp.add, outs⟩) := rfl
    rw [this, e1, show GThread.finish ⟨.look1 (.add t) .spo, ts.map ThOp.add, outs⟩ (.ok ()) = ⟨.idle, ts.map ThOp.add, outs ++ [.ok ()]⟩ from rfl, e2]
    simp

/-- What was lost can be had back: if threads that only add have finished, and one thread then adds every triple of the graph again, `match` finds everything. -/
theorem C162_repair (u : Term) (before : List Act) (sh : SharedGraph) (h : Prepared u before sh) (ts : Nat → List Tri) (sched : List Nat)
    (hf : (threadsRun sh (fun i => adds (ts i)) sched).Finished) (again : List Tri)
    (ha : ∀ t : Tri, t ∈ again ↔ (threadsRun sh (fun i => adds (ts i)) sched).sh.graph.contains t.stmt = true) :
    ∃ n, ∀ m, n ≤ m → ∃ S : Finset Tri, (∀ t, t ∈ S ↔ t ∈ runActs ∅ before ∨ ∃ i, t ∈ ts i) ∧
      let s := threadsRun (threadsRun sh (fun i => adds (ts i)) sched).sh (fun i => if i = 0 then adds again else []) (List.replicate m 0)
      s.Finished ∧ ShowsSet s.sh.graph S ∧ ShowsMatches s.sh.graph S := by
  obtain ⟨S, mem, hs, -⟩ := C162_adds u before sh h ts sched hf
  obtain ⟨g, r, -, hh⟩ := h.good (fun i => adds (ts i))
  have sp : (threadsRun sh (fun i => adds (ts i)) sched).Shaped := g.shaped.run sched
  generalize hs1 : (threadsRun sh (fun i => adds (ts i)) sched) = s1 at *
  have setrep : SetRep s1.sh.triples S := by
    obtain ⟨h1, h2, h3⟩ := hs
    refine ⟨?_, fun x => ?_⟩
    · exact (h3 id isOrder_id).1
    · exact (h3 id isOrder_id).2 x
  -- the indexes are sound
  have sound : s1.sh.graph.Sound := by
    refine ⟨fun w => by rw [SharedGraph.graph_ix]; exact SharedGraph.top_wf sp.heap w, fun w a b c t e => ?_, setrep.1, fun t ht => ?_⟩
    · rw [SharedGraph.graph_ix] at e
      refine ⟨SharedGraph.top_find sp.heap e, ?_⟩
      obtain ⟨r', k, e'⟩ := SharedGraph.find_heap sp.heap e
      have from0 : (GSys.start sh (fun i => (adds (ts i)).map Act.op)).From (fun x => ∃ t ∈ S, x = t.stmt) := by
        refine ⟨fun r' k t e => ?_, fun i t ht => ?_, fun i t w e => by cases e⟩
        · obtain ⟨t', h1, h2⟩ := hh r' k t e
          exact ⟨t', (mem t').2 (Or.inl h1), h2⟩
        · obtain ⟨a, ha, e⟩ := List.mem_map.1 ht
          obtain ⟨t', h1, rfl⟩ := List.mem_map.1 ha
          cases e
          exact ⟨t', (mem t').2 (Or.inr ⟨i, h1⟩), rfl⟩
      have fr := (from0.run g.shaped sched).heap r' k t
      rw [show (GSys.start sh (fun i => (adds (ts i)).map Act.op)).run sched = s1 from hs1] at fr
      exact (setrep.2 t).2 (fr e')
    · obtain ⟨t', -, rfl⟩ := (setrep.2 t).1 ht; rfl
  have ha' : ∀ t ∈ again.map Tri.stmt, t ∈ s1.sh.graph.triples := by
    intro t ht
    obtain ⟨t', h1, rfl⟩ := List.mem_map.1 ht
    have := (ha t').1 h1
    simpa [Graph.contains] using this
  obtain ⟨c1, c2, c3, -⟩ := sound.addMany (again.map Tri.stmt) ha'
  obtain ⟨n, sh', e, -, g'⟩ := SharedGraph.addMany sp.heap (again.map Tri.stmt) []
  refine ⟨n, fun m hm => ⟨S, mem, ?_⟩⟩
  obtain ⟨k, rfl⟩ := Nat.exists_eq_add_of_le hm
  intro s
  have hr := GSys.run_replicate (GSys.start s1.sh (fun i => ((fun i => if i = 0 then adds again else []) i).map Act.op)) 0 (n + k)
  have eops : (adds again).map Act.op = (again.map Tri.stmt).map ThOp.add := by simp [adds, Act.op]
  have est : SharedGraph.steps (n + k) (s1.sh, (⟨.idle, (adds again).map Act.op, []⟩ : GThread)) = (sh', ⟨.idle, [], [] ++ (again.map Tri.stmt).map (fun _ => .ok ())⟩) := by
    rw [eops, SharedGraph.steps_add, e, SharedGraph.steps_done]
  have hsh : s.sh = sh' := hr.1.trans (congrArg Prod.fst est)
  have hth : s.threads 0 = _ := hr.2.1.trans (congrArg Prod.snd est)
  have triples : s.sh.graph.triples = s1.sh.triples := by rw [hsh, g', c2]; rfl
  have rep : Graph.Rep s.sh.graph S := by
    refine ⟨?_, fun x => by rw [triples]; exact setrep.2 x⟩
    rw [hsh, g']
    refine c1.inv (fun t ht w => c3 t ?_ w)
    rw [c2] at ht
    obtain ⟨t', h1, rfl⟩ := (setrep.2 t).1 ht
    refine List.mem_map.2 ⟨t', (ha t').2 ?_, rfl⟩
    simpa [Graph.contains] using ht
  refine ⟨fun i => ?_, SetRep.shows (by rw [triples]; exact setrep), fun ord hord s p o h1 h2 h3 =>
    ⟨Graph.nodup_match rep.inv.toIxInv hord _ _ _, rep.mem_match hord h1 h2 h3⟩⟩
  by_cases e0 : i = 0
  · subst e0; rw [hth]; exact ⟨rfl, rfl⟩
  · have := hr.2.2 i e0
    have e1 : s.threads i = _ := this
    rw [e1]
    exact ⟨rfl, by simp [GSys.start, e0]⟩

set_option maxRecDepth 20000 in
/-- The triple lost in `C162_lost` is found after both have been added again. -/
example : (threadsRun lostRun.sh (fun i => if i = 0 then adds [exT1, exT2] else []) (List.replicate 32 0)).sh.graph.match id exA .none .none = [exT1.stmt, exT2.stmt] := by decide

example : lostRun = threadsRun (SharedGraph.new .none) (fun i => adds (if i = 0 then [exT1] else if i = 1 then [exT2] else [])) lostSched := by
  unfold lostRun
  congr 1
  funext i
  unfold twoThreads adds
  split
  · rfl
  · split <;> rfl

end Verif
