import Verif.Lemmas.GraphThreadsSpec
/-
A thread that runs alone does what `Graph.add` and `Graph.remove` of the sequential model do.
-/
namespace Verif
open Spec

theorem Dict.set_set {α β : Type} [DecidableEq α] (d : Dict α β) (k : α) (v v' : β) : (d.set k v).set k v' = d.set k v' := by
  induction d with
  | nil => simp [Dict.set]
  | cons kv d ih =>
    obtain ⟨k', x⟩ := kv
    by_cases e : k' = k
    · simp [Dict.set, e]
    · simp [Dict.set, e, ih]

/-- An index after the two lookups. -/
structure Touched (a b : Term) (ix ix' : Idx) : Prop where
  l2 : ix'.l2 a b = ix.l2 a b
  set : ∀ x, Dict.set ix' a ((ix'.l1 a).set b x) = Dict.set ix a ((ix.l1 a).set b x)

theorem Touched.refl (a b : Term) (ix : Idx) : Touched a b ix ix := ⟨rfl, fun _ => rfl⟩

theorem Touched.trans {a b : Term} {ix ix' ix'' : Idx} (h : Touched a b ix ix') (h' : Touched a b ix' ix'') : Touched a b ix ix'' :=
  ⟨h'.l2.trans h.l2, fun x => (h'.set x).trans (h.set x)⟩

theorem Touched.one {a : Term} (b : Term) {ix : Idx} (h : Dict.get? ix a = none) : Touched a b ix (Dict.set ix a []) := by
  have h1 : ix.l1 a = [] := by unfold Idx.l1; rw [h]; rfl
  have h2 : Idx.l1 (Dict.set ix a []) a = [] := by rw [Idx.l1_set, if_pos rfl]
  refine ⟨?_, fun x => ?_⟩
  · unfold Idx.l2; rw [h1, h2]
  · rw [h1, h2, Dict.set_set]

theorem Touched.two {a b : Term} {ix : Idx} (h : (ix.l1 a).get? b = none) : Touched a b ix (Dict.set ix a ((ix.l1 a).set b [])) := by
  have h2 : Idx.l1 (Dict.set ix a ((ix.l1 a).set b [])) a = (ix.l1 a).set b [] := by rw [Idx.l1_set, if_pos rfl]
  refine ⟨?_, fun x => ?_⟩
  · unfold Idx.l2; rw [h2, h, Dict.get?_set, if_pos rfl]; rfl
  · rw [h2, Dict.set_set, Dict.set_set]

theorem Touched.put {a b : Term} {ix ix' : Idx} (h : Touched a b ix ix') (c : Term) (t : Stmt) : ix'.put a b c t = ix.put a b c t := by
  unfold Idx.put; rw [h.l2]; exact h.set _

theorem Touched.del3 {a b : Term} {ix ix' : Idx} (h : Touched a b ix ix') (c : Term) : ix'.del3 a b c = ix.del3 a b c := by
  unfold Idx.del3; rw [h.l2]; exact h.set _

theorem Touched.find {a b : Term} {ix ix' : Idx} (h : Touched a b ix ix') (c : Term) : ix'.find a b c = ix.find a b c := by
  unfold Idx.find; rw [h.l2]

/-- `n` steps of one thread. -/
def SharedGraph.steps : Nat → SharedGraph × GThread → SharedGraph × GThread
  | 0, x => x
  | n + 1, x => steps n (x.1.step x.2)

theorem SharedGraph.steps_add (n m : Nat) (x) : steps (n + m) x = steps m (steps n x) := by
  induction n generalizing x with
  | zero => simp [steps]
  | succ n ih => rw [Nat.succ_add]; exact ih _

/-- The same graph, but for keys made in one index. -/
structure SameBut (a b : Term) (w : Graph.Ix) (sh sh' : SharedGraph) : Prop where
  triples : sh'.triples = sh.triples
  uri : sh'.uri = sh.uri
  other : ∀ w', w' ≠ w → sh'.top w' = sh.top w'
  touched : Touched a b (sh.top w) (sh'.top w)

theorem SameBut.trans {a b w sh sh' sh''} (h : SameBut a b w sh sh') (h' : SameBut a b w sh' sh'') : SameBut a b w sh sh'' :=
  ⟨h'.triples.trans h.triples, h'.uri.trans h.uri, fun w' e => (h'.other w' e).trans (h.other w' e), h.touched.trans h'.touched⟩

namespace SharedGraph

variable {sh : SharedGraph}

theorem phase1 (h : Shape sh) {th : GThread} {op : ThOp} {w : Graph.Ix} (hpc : th.pc = .look1 op w) :
    ∃ n sh' cur, steps n (sh, th) = (sh', { th with pc := .look2 op w cur }) ∧ Shape sh' ∧ PcShape sh'.next (.look2 op w cur) ∧ Linked sh' (.look2 op w cur) ∧
      SameBut (w.keys op.stmt).1 (w.keys op.stmt).2.1 w sh sh' := by
  obtain ⟨pc, todo, outs⟩ := th
  subst hpc
  cases hv : (sh.heap (.root w)).get? (w.keys op.stmt).1 with
  | some v =>
    have p1 := h.placed _ _ _ hv
    cases v with
    | stmt t => exact p1.elim
    | dict r => exact ⟨1, sh, r, by simp [steps, step, hv], h, p1, hv, rfl, rfl, fun _ _ => rfl, .refl _ _ _⟩
  | none =>
    let m := sh.newDict (.root w) (w.keys op.stmt).1
    have e1 : sh.step ⟨.look1 op w, todo, outs⟩ = (m.1, ⟨.store1 op w m.2, todo, outs⟩) := by simp [step, hv, m]
    have s1 := h.step (th := ⟨.look1 op w, todo, outs⟩) trivial
    have l1 := Linked.own (sh := sh) (th := ⟨.look1 op w, todo, outs⟩) trivial trivial
    rw [e1] at s1 l1
    have s2 := s1.1.step (th := ⟨.store1 op w m.2, todo, outs⟩) s1.2
    have l2 := Linked.own (sh := m.1) (th := ⟨.store1 op w m.2, todo, outs⟩) s1.2 l1
    have t1 : ∀ w', m.1.top w' = sh.top w' := fun w' => top_newDict h _ _ w'
    refine ⟨2, (m.1.step ⟨.store1 op w m.2, todo, outs⟩).1, m.2, ?_, s2.1, s2.2, l2, rfl, rfl, fun w' hw => ?_, ?_⟩
    · simp only [steps, e1]; rfl
    · exact (top_put_other s1.1 hw (Or.inl rfl) _).trans (t1 w')
    · have := top_store1 s1.1 (w := w) (a := (w.keys op.stmt).1) (m := sh.next) l1.2
      show Touched _ _ _ (SharedGraph.top (m.1.put (.root w) ((m.1.heap (.root w)).set (w.keys op.stmt).1 (.dict (.made (.root w) (w.keys op.stmt).1 sh.next)))) w)
      rw [this, t1]
      exact .one _ (top_get_none h hv)

theorem phase2 (h : Shape sh) {th : GThread} {op : ThOp} {w : Graph.Ix} {cur : DRef} (hpc : th.pc = .look2 op w cur) (hp : PcShape sh.next th.pc) (hl : Linked sh th.pc) :
    ∃ n sh' r, steps n (sh, th) = (sh', { th with pc := .last op w r }) ∧ Shape sh' ∧ PcShape sh'.next (.last op w r) ∧ Linked sh' (.last op w r) ∧
      SameBut (w.keys op.stmt).1 (w.keys op.stmt).2.1 w sh sh' := by
  obtain ⟨pc, todo, outs⟩ := th
  subst hpc
  obtain ⟨k, hk, rfl⟩ := hp
  have hp : PcShape sh.next (.look2 op w (.made (.root w) (w.keys op.stmt).1 k)) := ⟨k, hk, rfl⟩
  have hl' : (sh.heap (.root w)).get? (w.keys op.stmt).1 = some (.dict (.made (.root w) (w.keys op.stmt).1 k)) := hl
  have hl1 : (sh.top w).l1 (w.keys op.stmt).1 = sh.mid (.made (.root w) (w.keys op.stmt).1 k) := by unfold Idx.l1; rw [top_get h hl']; rfl
  cases hv : (sh.heap (.made (.root w) (w.keys op.stmt).1 k)).get? (w.keys op.stmt).2.1 with
  | some v =>
    have p1 := h.placed _ _ _ hv
    cases v with
    | stmt t => exact p1.elim
    | dict r =>
      obtain ⟨m', hm', rfl⟩ := p1
      exact ⟨1, sh, _, by simp [steps, step, hv], h, ⟨k, hk, m', hm', rfl⟩, ⟨_, hl', hv⟩, rfl, rfl, fun _ _ => rfl, .refl _ _ _⟩
  | none =>
    let q : DRef := .made (.root w) (w.keys op.stmt).1 k
    let m := sh.newDict q (w.keys op.stmt).2.1
    have e1 : sh.step ⟨.look2 op w q, todo, outs⟩ = (m.1, ⟨.store2 op w q m.2, todo, outs⟩) := by simp [step, hv, m, q]
    have s1 := h.step (th := ⟨.look2 op w q, todo, outs⟩) hp
    have l1 := Linked.own (sh := sh) (th := ⟨.look2 op w q, todo, outs⟩) hp hl
    rw [e1] at s1 l1
    have s2 := s1.1.step (th := ⟨.store2 op w q m.2, todo, outs⟩) s1.2
    have l2 := Linked.own (sh := m.1) (th := ⟨.store2 op w q m.2, todo, outs⟩) s1.2 l1
    have t1 : ∀ w', m.1.top w' = sh.top w' := fun w' => top_newDict h _ _ w'
    refine ⟨2, (m.1.step ⟨.store2 op w q m.2, todo, outs⟩).1, m.2, ?_, s2.1, s2.2, l2, rfl, rfl, fun w' hw => ?_, ?_⟩
    · simp only [steps]
      rw [show (DRef.made (.root w) (w.keys op.stmt).1 k) = q from rfl, e1]; rfl
    · exact (top_put_other s1.1 hw (Or.inr (Or.inl ⟨_, _, rfl⟩)) _).trans (t1 w')
    · have := top_store2 s1.1 (w := w) (a := (w.keys op.stmt).1) (b := (w.keys op.stmt).2.1) (m := k) (m' := sh.next) l1.1 l1.2.2
      show Touched _ _ _ (SharedGraph.top (m.1.put (.made (.root w) (w.keys op.stmt).1 k)
        ((m.1.heap (.made (.root w) (w.keys op.stmt).1 k)).set (w.keys op.stmt).2.1 (.dict (.made (.made (.root w) (w.keys op.stmt).1 k) (w.keys op.stmt).2.1 sh.next)))) w)
      rw [this, t1]
      exact .two (by rw [hl1]; exact mid_get_none h hv)

/-- What a line does to its index. -/
def _root_.Verif.ThOp.onIx (op : ThOp) (w : Graph.Ix) (ix : Idx) : Idx :=
  match op with
  | .add t => ix.put (w.keys t).1 (w.keys t).2.1 (w.keys t).2.2 t
  | .remove t => ix.del3 (w.keys t).1 (w.keys t).2.1 (w.keys t).2.2

/-- A line. -/
theorem line (h : Shape sh) {th : GThread} {op : ThOp} {w : Graph.Ix} (hpc : th.pc = .look1 op w)
    (hf : ∀ t, op = .remove t → sh.Found w t) :
    ∃ n sh', steps n (sh, th) = (sh', th.advance op w) ∧ Shape sh' ∧ sh'.triples = sh.triples ∧ sh'.uri = sh.uri ∧ sh'.top w = op.onIx w (sh.top w) ∧
      ∀ w', w' ≠ w → sh'.top w' = sh.top w' := by
  obtain ⟨n1, sh1, cur, e1, h1, p1, l1, b1⟩ := phase1 h hpc
  obtain ⟨n2, sh2, r, e2, h2, p2, l2, b2⟩ := phase2 h1 (th := { th with pc := .look2 op w cur }) rfl p1 l1
  have b := b1.trans b2
  have adv : ∀ pc, GThread.advance { th with pc } op w = th.advance op w := by
    intro pc; unfold GThread.advance; cases w.after <;> rfl
  have e12 : steps (n1 + n2) (sh, th) = (sh2, { th with pc := .last op w r }) := by rw [steps_add, e1]; exact e2
  have s3 := h2.step (th := { th with pc := .last op w r }) p2
  refine ⟨n1 + n2 + 1, (sh2.step { th with pc := .last op w r }).1, ?_, s3.1, ?_⟩
  · rw [steps_add, e12]
    show sh2.step _ = _
    refine Prod.ext rfl ?_
    cases op with
    | add t => exact adv _
    | remove t =>
      have : (sh.top w).find (w.keys t).1 (w.keys t).2.1 (w.keys t).2.2 = some t := hf t rfl
      have ff : (sh2.top w).find (w.keys t).1 (w.keys t).2.1 (w.keys t).2.2 ≠ none := fun e => absurd (this.symm.trans ((b.touched.find (w.keys t).2.2).symm.trans e)) (by simp)
      exact (top_last_remove h2 (th := { th with pc := .last (.remove t) w r }) rfl p2 l2 ff).1.trans (adv _)
  · cases op with
    | add t =>
      have k := top_last_add h2 (th := { th with pc := .last (.add t) w r }) rfl p2 l2
      exact ⟨b.triples, b.uri, k.1.trans (b.touched.put _ _), fun w' e => (k.2 w' e).trans (b.other w' e)⟩
    | remove t =>
      have : (sh.top w).find (w.keys t).1 (w.keys t).2.1 (w.keys t).2.2 = some t := hf t rfl
      have ff : (sh2.top w).find (w.keys t).1 (w.keys t).2.1 (w.keys t).2.2 ≠ none := fun e => absurd (this.symm.trans ((b.touched.find (w.keys t).2.2).symm.trans e)) (by simp)
      have k := top_last_remove h2 (th := { th with pc := .last (.remove t) w r }) rfl p2 l2 ff
      refine ⟨?_, ?_, k.2.1.trans (b.touched.del3 _), fun w' e => (k.2.2 w' e).trans (b.other w' e)⟩
      · simp only [step]; split <;> exact b.triples
      · simp only [step]; split <;> exact b.uri

/-- The three lines. -/
theorem lines (h : Shape sh) {th : GThread} {op : ThOp} (hpc : th.pc = .look1 op .spo) (hf : ∀ t, op = .remove t → ∀ w, sh.Found w t) :
    ∃ n sh', steps n (sh, th) = (sh', th.finish (.ok ())) ∧ Shape sh' ∧
      sh'.graph = { sh.graph with spo := op.onIx .spo sh.graph.spo, pos := op.onIx .pos sh.graph.pos, osp := op.onIx .osp sh.graph.osp } := by
  obtain ⟨n1, sh1, e1, h1, t1, u1, i1, o1⟩ := line h hpc (fun t e => hf t e .spo)
  obtain ⟨n2, sh2, e2, h2, t2, u2, i2, o2⟩ := line h1 (th := th.advance op .spo) (op := op) (w := .pos) rfl (fun t e => by
    unfold Found; rw [o1 .pos (by decide)]; exact hf t e .pos)
  obtain ⟨n3, sh3, e3, h3, t3, u3, i3, o3⟩ := line h2 (th := (th.advance op .spo).advance op .pos) (op := op) (w := .osp) rfl (fun t e => by
    unfold Found; rw [o2 .osp (by decide), o1 .osp (by decide)]; exact hf t e .osp)
  refine ⟨n1 + n2 + n3, sh3, ?_, h3, ?_⟩
  · rw [steps_add, steps_add, e1, e2]; exact e3
  · have : ∀ sh : SharedGraph, sh.graph = { uri := sh.uri, triples := sh.triples, spo := sh.top .spo, pos := sh.top .pos, osp := sh.top .osp } := fun _ => rfl
    rw [this sh3, this sh, t3, t2, t1, u3, u2, u1, o3 .spo (by decide), o2 .spo (by decide), i1, o3 .pos (by decide), i2, o1 .pos (by decide), i3, o2 .osp (by decide), o1 .osp (by decide)]

/-- A call of the sequential model. -/
def _root_.Verif.ThOp.exec (op : ThOp) (g : Graph) : Graph × Except Exc Unit :=
  match op with
  | .add t => (g.add t, .ok ())
  | .remove t => g.remove t

theorem graph_triples (sh : SharedGraph) (T : List Stmt) : ({ sh with triples := T } : SharedGraph).graph = { sh.graph with triples := T } := rfl

/-- A call. -/
theorem call (h : Shape sh) (hi : Graph.Inv sh.graph) {th : GThread} {op : ThOp} {rest : List ThOp} (hpc : th.pc = .idle) (htd : th.todo = op :: rest) :
    ∃ n sh', steps n (sh, th) = (sh', { pc := .idle, todo := rest, outs := th.outs ++ [(op.exec sh.graph).2] }) ∧ Shape sh' ∧ sh'.graph = (op.exec sh.graph).1 := by
  obtain ⟨pc, todo, outs⟩ := th
  subst hpc
  subst htd
  cases op with
  | add t =>
    obtain ⟨n, sh', e, h', hg⟩ := lines (sh := { sh with triples := Graph.setAdd sh.triples t }) ⟨h.wf, h.placed⟩ (th := ⟨.look1 (.add t) .spo, rest, outs⟩) (op := .add t) rfl
      (fun t e => by cases e)
    refine ⟨1 + n, sh', ?_, h', ?_⟩
    · rw [steps_add]; exact e
    · rw [hg]; rfl
  | remove t =>
    by_cases hm : t ∈ sh.triples
    · have fnd : ∀ w, sh.Found w t := by
        intro w
        cases w
        · exact (hi.spo _ _ _ _).2 ⟨hm, rfl, rfl, rfl⟩
        · exact (hi.pos _ _ _ _).2 ⟨hm, rfl, rfl, rfl⟩
        · exact (hi.osp _ _ _ _).2 ⟨hm, rfl, rfl, rfl⟩
      obtain ⟨n, sh', e, h', hg⟩ := lines (sh := { sh with triples := sh.triples.erase t }) ⟨h.wf, h.placed⟩ (th := ⟨.look1 (.remove t) .spo, rest, outs⟩) (op := .remove t) rfl
        (fun t' e w => by cases e; exact fnd w)
      have hr : ThOp.exec (.remove t) sh.graph = (sh.graph.removed t, .ok ()) := Graph.remove_of_mem hi.toIxInv hm
      rw [hr]
      refine ⟨1 + n, sh', ?_, h', ?_⟩
      · rw [steps_add]
        have : steps 1 (sh, (⟨.idle, .remove t :: rest, outs⟩ : GThread)) = ({ sh with triples := sh.triples.erase t }, ⟨.look1 (.remove t) .spo, rest, outs⟩) := by
          simp [steps, step, hm]
        rw [this]; exact e
      · rw [hg]; rfl
    · have hr : ThOp.exec (.remove t) sh.graph = (sh.graph, .error .keyError) := Graph.remove_of_not_mem hm
      rw [hr]
      exact ⟨1, sh, by simp [steps, step, hm, GThread.finish], h, rfl⟩

end SharedGraph

/-- Calls of the sequential model. -/
def ThOp.execAll : List ThOp → Graph → Graph × List (Except Exc Unit)
  | [], g => (g, [])
  | op :: ops, g => let r := op.exec g; let q := execAll ops r.1; (q.1, r.2 :: q.2)

theorem ThOp.exec_inv {op : ThOp} (ho : op.stmt.g = none) {g : Graph} (h : Graph.Inv g) : Graph.Inv (op.exec g).1 := by
  cases op with
  | add t => exact h.add ho
  | remove t => exact h.remove t

theorem SharedGraph.calls {sh : SharedGraph} (h : Shape sh) (hi : Graph.Inv sh.graph) (ops : List ThOp) (ho : ∀ op ∈ ops, op.stmt.g = none) (outs : List (Except Exc Unit)) :
    ∃ n sh', steps n (sh, ⟨.idle, ops, outs⟩) = (sh', ⟨.idle, [], outs ++ (ThOp.execAll ops sh.graph).2⟩) ∧ Shape sh' ∧ sh'.graph = (ThOp.execAll ops sh.graph).1 := by
  induction ops generalizing sh outs with
  | nil => exact ⟨0, sh, by simp [steps, ThOp.execAll], h, rfl⟩
  | cons op ops ih =>
    obtain ⟨n, sh1, e1, h1, g1⟩ := call h hi (th := ⟨.idle, op :: ops, outs⟩) rfl rfl
    have hi1 : Graph.Inv sh1.graph := by rw [g1]; exact ThOp.exec_inv (ho op (List.mem_cons_self ..)) hi
    obtain ⟨m, sh2, e2, h2, g2⟩ := ih h1 hi1 (fun op' h' => ho op' (List.mem_cons_of_mem _ h')) (outs ++ [(op.exec sh.graph).2])
    rw [g1] at e2 g2
    refine ⟨n + m, sh2, ?_, h2, g2⟩
    rw [steps_add, e1, e2]
    simp [ThOp.execAll]

theorem SharedGraph.steps_done (sh : SharedGraph) (outs : List (Except Exc Unit)) (n : Nat) : steps n (sh, ⟨.idle, [], outs⟩) = (sh, ⟨.idle, [], outs⟩) := by
  induction n with
  | zero => rfl
  | succ n ih => exact ih

theorem GSys.run_replicate (s : GSys) (i n : Nat) : (s.run (List.replicate n i)).sh = (SharedGraph.steps n (s.sh, s.threads i)).1 ∧
    (s.run (List.replicate n i)).threads i = (SharedGraph.steps n (s.sh, s.threads i)).2 ∧ ∀ j, j ≠ i → (s.run (List.replicate n i)).threads j = s.threads j := by
  induction n generalizing s with
  | zero => exact ⟨rfl, rfl, fun _ _ => rfl⟩
  | succ n ih =>
    obtain ⟨h1, h2, h3⟩ := ih (s.step i)
    have e : ((s.step i).sh, (s.step i).threads i) = s.sh.step (s.threads i) := by rw [GSys.step_self]; rfl
    rw [e] at h1 h2
    exact ⟨h1, h2, fun j hj => (h3 j hj).trans (GSys.step_other s hj)⟩

/-! ### No dict is lost -/

/-- Every dict with something in it is where it was made for. -/
def Tight (sh : SharedGraph) : Prop := ∀ p k m, sh.heap (.made p k m) ≠ [] → (sh.heap p).get? k = some (.dict (.made p k m))

theorem Tight.newDict {sh : SharedGraph} (h : Shape sh) (ht : Tight sh) (q : DRef) (a : Term) : Tight (sh.newDict q a).1 := by
  intro p k m hne
  simp only [SharedGraph.newDict, SharedGraph.heap_put] at hne ⊢
  split at hne
  · exact absurd rfl hne
  · have h1 := ht p k m hne
    split
    · next e =>
      subst e
      have h2 := ht q a sh.next (fun e => by rw [e] at h1; cases h1)
      have h3 := h.placed _ _ _ h2
      rcases q with w | ⟨w | ⟨p, c, m3⟩, b, m2⟩
      · obtain ⟨n, hn, e⟩ := h3; cases e; omega
      · obtain ⟨n, hn, e⟩ := h3; cases e; omega
      · simp [Placed] at h3
    · exact h1

theorem Tight.set {sh : SharedGraph} (ht : Tight sh) {q : DRef} {k : Term} {v : DVal} (hn : (sh.heap q).get? k = none ∨ ∀ m, sh.heap (.made q k m) = [])
    (hq : ∀ p k m, q = .made p k m → (sh.heap p).get? k = some (.dict q)) (hself : ∀ p k m, q = .made p k m → p ≠ q) : Tight (sh.put q ((sh.heap q).set k v)) := by
  intro p k' m hne
  simp only [SharedGraph.heap_put] at hne ⊢
  have h1 : (sh.heap p).get? k' = some (.dict (.made p k' m)) := by
    split at hne
    · next e => exact e ▸ hq _ _ _ e.symm
    · exact ht _ _ _ hne
  split
  · next e =>
    subst e
    rw [Dict.get?_set]
    split
    · next e =>
      subst e
      have hh : sh.heap (.made p k m) ≠ [] := by
        split at hne
        · next e' => exact absurd rfl (hself _ _ _ e'.symm)
        · exact hne
      rcases hn with hn | hn
      · rw [h1] at hn; cases hn
      · exact absurd (hn m) hh
    · exact h1
  · exact h1

theorem Tight.step {sh : SharedGraph} (h : Shape sh) (ht : Tight sh) {th : GThread} (hp : PcShape sh.next th.pc) (hl : Linked sh th.pc) : Tight (sh.step th).1 := by
  obtain ⟨pc, todo, outs⟩ := th
  have self : ∀ (q p : DRef) (k : Term) (m : Nat), q = .made p k m → p ≠ q := by
    intro q p k m e e'
    have := congrArg sizeOf e
    subst e'
    simp at this
    omega
  cases pc with
  | idle =>
    cases todo with
    | nil => exact ht
    | cons op todo =>
      cases op with
      | add t => exact ht
      | remove t => simp only [SharedGraph.step]; split <;> exact ht
  | look1 op w =>
    simp only [SharedGraph.step]
    split
    · exact ht
    · exact ht
    · exact ht.newDict h _ _
  | store1 op w r => exact ht.set (Or.inl hl.1) (fun p k m e => by cases e) (self _)
  | look2 op w cur =>
    simp only [SharedGraph.step]
    split
    · exact ht
    · exact ht
    · exact ht.newDict h _ _
  | store2 op w cur r =>
    obtain ⟨⟨m, hm, rfl⟩, -⟩ := hp
    exact ht.set (Or.inl hl.2.1) (fun p k m' e => by cases e; exact hl.1) (self _)
  | last op w cur =>
    obtain ⟨m, hm, m', hm', rfl⟩ := hp
    have link : (sh.heap (.made (.root w) (w.keys op.stmt).1 m)).get? (w.keys op.stmt).2.1 = some (.dict (.made (.made (.root w) (w.keys op.stmt).1 m) (w.keys op.stmt).2.1 m')) := by
      obtain ⟨p, l1, l2⟩ := hl
      obtain ⟨m1, -, e1⟩ := h.placed _ _ _ l1
      subst e1
      obtain ⟨m2, -, e2⟩ := h.placed _ _ _ l2
      cases e2
      exact l2
    have leafs : ∀ k n, sh.heap (.made (.made (.made (.root w) (w.keys op.stmt).1 m) (w.keys op.stmt).2.1 m') k n) = [] := by
      intro k n
      by_contra hne
      exact h.placed _ _ _ (ht _ _ _ hne)
    cases op with
    | add t => exact ht.set (Or.inr (leafs _)) (fun p k m' e => by cases e; exact link) (self _)
    | remove t =>
      simp only [SharedGraph.step]
      split
      · intro p k n hne
        simp only [SharedGraph.heap_put] at hne ⊢
        have h1 : (sh.heap p).get? k = some (.dict (.made p k n)) := by
          split at hne
          · next e => cases e; exact link
          · exact ht _ _ _ hne
        split
        · next e => subst e; exact absurd h1 (fun e => h.placed _ _ _ e)
        · exact h1
      · exact ht

theorem Tight.found {sh : SharedGraph} (h : Shape sh) (ht : Tight sh) {r : DRef} {k : Term} {t : Stmt} (hr : (sh.heap r).get? k = some (.stmt t)) : ∃ w, sh.Found w t := by
  have p := h.placed _ _ _ hr
  rcases r with w | ⟨w | ⟨w | ⟨q, c, m3⟩, a, m2⟩, b, m⟩
  · exact p.elim
  · exact p.elim
  · have e : w.keys t = (a, b, k) := p
    have l2 := ht (.made (.root w) a m2) b m (fun e => by rw [e] at hr; cases hr)
    have l1 := ht (.root w) a m2 (fun e => by rw [e] at l2; cases l2)
    refine ⟨w, ?_⟩
    unfold SharedGraph.Found
    rw [e]
    unfold Idx.find Idx.l2 Idx.l1
    rw [SharedGraph.top_get h l1]
    simp only [Option.getD_some]
    rw [SharedGraph.mid_get h l2]
    simp only [Option.getD_some, SharedGraph.leaf]
    rw [Dict.get?_collect (h.wf _), hr]; rfl
  · exact p.elim

theorem Tight.run {s : GSys} (h : s.Good) (ht : Tight s.sh) {sched : List Nat} (hs : s.Safe sched) : Tight (s.run sched).sh := by
  induction sched generalizing s with
  | nil => exact ht
  | cons i sched ih => exact ih (h.step i hs.1) (ht.step h.shaped.heap (h.shaped.pcs i) (h.links i)) hs.2

/-- A thread that runs alone. -/
theorem GSys.alone (s : GSys) (h : Shape s.sh) (hi : Graph.Inv s.sh.graph) (i : Nat) (hpc : (s.threads i).pc = .idle) (ho : ∀ op ∈ (s.threads i).todo, op.stmt.g = none) :
    ∃ n, ∀ m, n ≤ m → Shape (s.run (List.replicate m i)).sh ∧ (s.run (List.replicate m i)).sh.graph = (ThOp.execAll (s.threads i).todo s.sh.graph).1 ∧
      (s.run (List.replicate m i)).threads i = ⟨.idle, [], (s.threads i).outs ++ (ThOp.execAll (s.threads i).todo s.sh.graph).2⟩ ∧
      ∀ j, j ≠ i → (s.run (List.replicate m i)).threads j = s.threads j := by
  rcases hth : s.threads i with ⟨pc, todo, outs⟩
  rw [hth] at hpc ho
  cases hpc
  obtain ⟨n, sh', e, h', g'⟩ := SharedGraph.calls h hi todo ho outs
  refine ⟨n, fun m hm => ?_⟩
  obtain ⟨k, rfl⟩ := Nat.exists_eq_add_of_le hm
  obtain ⟨h1, h2, h3⟩ := GSys.run_replicate s i (n + k)
  have : SharedGraph.steps (n + k) (s.sh, s.threads i) = (sh', ⟨.idle, [], outs ++ (ThOp.execAll todo s.sh.graph).2⟩) := by
    rw [SharedGraph.steps_add, hth, e, SharedGraph.steps_done]
  rw [h1, h2, this]
  exact ⟨h', g', rfl, h3⟩

end Verif
