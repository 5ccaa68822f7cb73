import Verif.Lemmas.GraphThreadsRun
import Verif.Lemmas.GraphRun
/-
Threads on one Graph: runs and the specification.
-/
namespace Verif
open Spec

/-- The call of the model. -/
def Spec.Act.op : Act → ThOp
  | .add t => .add t.stmt
  | .remove t => .remove t.stmt

/-- The outcome of a call that succeeds or does not. -/
def outcomeOf (b : Bool) : Except Exc Unit := if b then .ok () else .error .keyError

theorem Act.op_stmt (a : Act) : a.op.stmt = a.tri.stmt := by cases a <;> rfl

theorem Act.op_g (a : Act) : a.op.stmt.g = none := by cases a <;> rfl

theorem Act.op_inj {a b : Act} (h : a.op = b.op) : a = b := by
  cases a <;> cases b <;> simp [Act.op] at h ⊢ <;> exact Graph.stmt_inj.1 h

/-- `_triples` has the triples of the set. -/
def SetRep (T : List Stmt) (S : Finset Tri) : Prop := T.Nodup ∧ ∀ x, x ∈ T ↔ ∃ t ∈ S, x = t.stmt

theorem SetRep.mem {T S} (h : SetRep T S) (t : Tri) : t.stmt ∈ T ↔ t ∈ S := by
  rw [h.2]
  exact ⟨fun ⟨t', h1, h2⟩ => by rw [Graph.stmt_inj] at h2; exact h2 ▸ h1, fun h1 => ⟨t, h1, rfl⟩⟩

theorem SetRep.length {T S} (h : SetRep T S) : T.length = S.card := by
  have : T.Perm (S.toList.map Tri.stmt) := by
    rw [List.perm_ext_iff_of_nodup h.1]
    · intro x; rw [h.2]; simp [eq_comm]
    · exact (Finset.nodup_toList S).map (fun a b e => Graph.stmt_inj.1 e)
  rw [this.length_eq]; simp

theorem SetRep.apply {T S} (h : SetRep T S) (a : Act) : SetRep (a.op.onSet T) (a.apply S) := by
  cases a with
  | add t =>
    show SetRep (Graph.setAdd T t.stmt) (insert t S)
    unfold Graph.setAdd
    split
    · next hm => rw [Finset.insert_eq_of_mem ((h.mem t).1 hm)]; exact h
    · next hm =>
      refine ⟨?_, fun x => ?_⟩
      · rw [List.nodup_append]
        refine ⟨h.1, by simp, ?_⟩
        intro a ha b hb
        rw [List.mem_singleton] at hb
        rintro rfl
        exact hm (hb ▸ ha)
      · rw [List.mem_append, h.2, List.mem_singleton]
        simp only [Finset.mem_insert]
        constructor
        · rintro (⟨t', h1, rfl⟩ | rfl)
          exacts [⟨t', Or.inr h1, rfl⟩, ⟨t, Or.inl rfl, rfl⟩]
        · rintro ⟨t', rfl | h1, rfl⟩
          exacts [Or.inr rfl, Or.inl ⟨t', h1, rfl⟩]
  | remove t =>
    refine ⟨h.1.erase _, fun x => ?_⟩
    show x ∈ T.erase t.stmt ↔ ∃ t' ∈ S.erase t, _
    rw [h.1.mem_erase_iff, h.2]
    simp only [Finset.mem_erase]
    constructor
    · rintro ⟨h1, t', h2, rfl⟩; exact ⟨t', ⟨fun e => h1 (e ▸ rfl), h2⟩, rfl⟩
    · rintro ⟨t', ⟨h1, h2⟩, rfl⟩; exact ⟨fun e => h1 (Graph.stmt_inj.1 e), t', h2, rfl⟩

theorem SetRep.run {T S} (h : SetRep T S) (l : List (Nat × Act)) :
    SetRep (((l.map (fun x => (x.1, x.2.op))).map Prod.snd).foldl ThOp.onSet T) (runActs S (l.map Prod.snd)) := by
  induction l generalizing T S with
  | nil => exact h
  | cons a l ih => exact ih (h.apply a.2)

theorem SetRep.outcomes {T S} (h : SetRep T S) (i : Nat) (l : List (Nat × Act)) :
    ThOp.outcomes i T (l.map (fun x => (x.1, x.2.op))) = (results i S l).map outcomeOf := by
  induction l generalizing T S with
  | nil => rfl
  | cons a l ih =>
    obtain ⟨j, a⟩ := a
    have e : a.op.outcome T = outcomeOf (decide (a.succeeds S)) := by
      cases a with
      | add t => rw [decide_eq_true (show (Act.add t).succeeds S from trivial)]; rfl
      | remove t =>
        by_cases hm : t ∈ S
        · rw [decide_eq_true (show (Act.remove t).succeeds S from hm)]; simp [Act.op, ThOp.outcome, outcomeOf, (h.mem t).2 hm]
        · rw [decide_eq_false (show ¬ (Act.remove t).succeeds S from hm)]; simp [Act.op, ThOp.outcome, outcomeOf, mt (h.mem t).1 hm]
    simp only [List.map_cons, ThOp.outcomes, results, List.map_append, ih (h.apply a), e]
    split <;> simp

/-- The calls of the order are calls of the specification. -/
theorem order_map {α β : Type} {f : α → β} {prog : Nat → List α} {l : List (Nat × β)} (h : ∀ i, (prog i).map f = (l.filter (fun x => x.1 = i)).map Prod.snd) :
    ∃ l' : List (Nat × α), l = l'.map (fun x => (x.1, f x.2)) ∧ Interleaves l' prog := by
  induction l generalizing prog with
  | nil => exact ⟨[], rfl, fun i => by have := h i; simp at this; simp [this]⟩
  | cons x l ih =>
    obtain ⟨j, op⟩ := x
    have hj := h j
    simp at hj
    cases hp : prog j with
    | nil => rw [hp] at hj; simp at hj
    | cons a rest =>
      rw [hp] at hj
      simp only [List.map_cons, List.cons.injEq] at hj
      obtain ⟨l', e, hi⟩ := ih (prog := fun i => if i = j then rest else prog i) (by
        intro i
        by_cases e : i = j
        · subst e; simpa using hj.2
        · have := h i; simp [Ne.symm e] at this; simpa [e] using this)
      refine ⟨(j, a) :: l', by rw [List.map_cons, ← e]; simp [hj.1], fun i => ?_⟩
      have := hi i
      by_cases e : i = j
      · subst e; simp at this; simp [hp, this]
      · simp [e] at this; simp [Ne.symm e, this]

theorem order_acts {prog : Nat → List Act} {l : List (Nat × ThOp)} (h : ∀ i, (prog i).map Act.op = (l.filter (fun x => x.1 = i)).map Prod.snd) :
    ∃ l' : List (Nat × Act), l = l'.map (fun x => (x.1, x.2.op)) ∧ Interleaves l' prog := order_map h

/-! ### Where what `match` finds comes from -/

/-- Every statement in a dict has the property, and so have those about to be stored. -/
structure GSys.From (s : GSys) (P : Stmt → Prop) : Prop where
  heap : ∀ r k t, (s.sh.heap r).get? k = some (.stmt t) → P t
  todo : ∀ i t, .add t ∈ (s.threads i).todo → P t
  cur : ∀ i t w, (s.threads i).pc.at = some (.add t, w) → P t

theorem GSys.From.step {s : GSys} {P : Stmt → Prop} (hS : s.Shaped) (h : s.From P) (i : Nat) : (s.step i).From P := by
  have wf := hS.heap.wf
  have key : (∀ r k t, ((s.sh.step (s.threads i)).1.heap r).get? k = some (.stmt t) → P t) ∧ (∀ t, .add t ∈ (s.sh.step (s.threads i)).2.todo → P t) ∧
      ∀ t w, (s.sh.step (s.threads i)).2.pc.at = some (.add t, w) → P t := by
    have ht := h.todo i
    have hc := h.cur i
    rcases hth : s.threads i with ⟨pc, todo, outs⟩
    rw [hth] at ht hc
    have adv : ∀ op w, (GThread.advance ⟨pc, todo, outs⟩ op w).todo = todo ∧ ∀ t w', (GThread.advance ⟨pc, todo, outs⟩ op w).pc.at = some (.add t, w') → op = .add t := by
      intro op w
      cases w <;> refine ⟨rfl, fun t w' e => ?_⟩ <;> simp [GThread.advance, Graph.Ix.after, GThread.finish, Pc.at] at e <;> exact e.1
    cases pc with
    | idle =>
      cases todo with
      | nil => exact ⟨h.heap, ht, hc⟩
      | cons op todo =>
        cases op with
        | add t =>
          refine ⟨h.heap, fun t' h' => ht t' (List.mem_cons_of_mem _ h'), fun t' w e => ?_⟩
          cases e; exact ht _ (List.mem_cons_self ..)
        | remove t =>
          simp only [SharedGraph.step]
          split
          · exact ⟨h.heap, fun t' h' => ht t' (List.mem_cons_of_mem _ h'), fun t' w e => by cases e⟩
          · exact ⟨h.heap, fun t' h' => ht t' (List.mem_cons_of_mem _ h'), fun t' w e => by cases e⟩
    | look1 op w =>
      simp only [SharedGraph.step]
      split
      · exact ⟨h.heap, ht, fun t' w' e => hc t' w' e⟩
      · exact ⟨h.heap, ht, fun t' w' e => by cases e⟩
      · refine ⟨fun r k t e => ?_, ht, fun t' w' e => hc t' w' e⟩
        simp only [SharedGraph.newDict, SharedGraph.heap_put] at e
        split at e
        · simp at e
        · exact h.heap _ _ _ e
    | store1 op w r =>
      refine ⟨fun x k t e => ?_, ht, fun t' w' e => hc t' w' e⟩
      simp only [SharedGraph.step, SharedGraph.heap_put] at e
      split at e
      · rw [Dict.get?_set] at e
        split at e
        · cases e
        · exact h.heap _ _ _ e
      · exact h.heap _ _ _ e
    | look2 op w cur =>
      simp only [SharedGraph.step]
      split
      · exact ⟨h.heap, ht, fun t' w' e => hc t' w' e⟩
      · exact ⟨h.heap, ht, fun t' w' e => by cases e⟩
      · refine ⟨fun r k t e => ?_, ht, fun t' w' e => hc t' w' e⟩
        simp only [SharedGraph.newDict, SharedGraph.heap_put] at e
        split at e
        · simp at e
        · exact h.heap _ _ _ e
    | store2 op w cur r =>
      refine ⟨fun x k t e => ?_, ht, fun t' w' e => hc t' w' e⟩
      simp only [SharedGraph.step, SharedGraph.heap_put] at e
      split at e
      · rw [Dict.get?_set] at e
        split at e
        · cases e
        · exact h.heap _ _ _ e
      · exact h.heap _ _ _ e
    | last op w cur =>
      cases op with
      | add t =>
        simp only [SharedGraph.step]
        refine ⟨fun x k t' e => ?_, by rw [(adv _ _).1]; exact ht, fun t' w' e => ?_⟩
        · rw [SharedGraph.heap_put] at e
          split at e
          · rw [Dict.get?_set] at e
            split at e
            · cases e; exact hc _ _ rfl
            · exact h.heap _ _ _ e
          · exact h.heap _ _ _ e
        · have := (adv _ _).2 _ _ e
          cases this
          exact hc _ _ rfl
      | remove t =>
        simp only [SharedGraph.step]
        split
        · refine ⟨fun x k t' e => ?_, by rw [(adv _ _).1]; exact ht, fun t' w' e => ?_⟩
          · rw [SharedGraph.heap_put] at e
            split at e
            · rw [Dict.get?_del (wf _)] at e
              split at e
              · cases e
              · exact h.heap _ _ _ e
            · exact h.heap _ _ _ e
          · cases (adv _ _).2 _ _ e
        · exact ⟨h.heap, ht, fun t' w' e => by cases e⟩
  refine ⟨key.1, fun j t ht => ?_, fun j t w hc => ?_⟩
  · by_cases e : j = i
    · subst e; rw [GSys.step_self] at ht; exact key.2.1 t ht
    · rw [GSys.step_other s e] at ht; exact h.todo j t ht
  · by_cases e : j = i
    · subst e; rw [GSys.step_self] at hc; exact key.2.2 t w hc
    · rw [GSys.step_other s e] at hc; exact h.cur j t w hc

theorem GSys.From.run {s : GSys} {P : Stmt → Prop} (hS : s.Shaped) (h : s.From P) (sched : List Nat) : (s.run sched).From P := by
  induction sched generalizing s with
  | nil => exact h
  | cons i sched ih => exact ih (hS.step i) (h.step hS i)

/-- A statement that an index finds is in a dict. -/
theorem SharedGraph.find_heap {sh : SharedGraph} (h : Shape sh) {w : Graph.Ix} {a b c : Term} {t : Stmt} (hf : (sh.top w).find a b c = some t) :
    ∃ r k, (sh.heap r).get? k = some (.stmt t) := by
  unfold Idx.find Idx.l2 Idx.l1 at hf
  cases h1 : (sh.heap (.root w)).get? a with
  | none => rw [top_get_none h h1] at hf; simp at hf
  | some v =>
    have p1 := h.placed _ _ _ h1
    cases v with
    | stmt t => exact p1.elim
    | dict r =>
      rw [top_get h h1] at hf
      simp only [Option.getD_some] at hf
      cases h2 : (sh.heap r).get? b with
      | none => rw [mid_get_none h h2] at hf; simp at hf
      | some v =>
        obtain ⟨m, hm, rfl⟩ := p1
        have p2 := h.placed _ _ _ h2
        cases v with
        | stmt t => exact p2.elim
        | dict r =>
          rw [mid_get h h2] at hf
          simp only [Option.getD_some, leaf] at hf
          rw [Dict.get?_collect (h.wf _)] at hf
          cases h3 : (sh.heap r).get? c with
          | none => rw [h3] at hf; cases hf
          | some v =>
            rw [h3] at hf
            cases v with
            | dict r => cases hf
            | stmt t => cases hf; exact ⟨_, _, h3⟩

/-- What `match` gives, whatever is in the indexes. -/
theorem Graph.match_from {g : Graph} {P : Stmt → Prop} (hw : ∀ w, (g.ix w).WF) (hf : ∀ w a b c t, (g.ix w).find a b c = some t → w.keys t = (a, b, c) ∧ P t)
    (ht : ∀ t ∈ g.triples, P t) {ord} (hord : IsOrder ord) (s p o : Term) (t : Stmt) (hm : t ∈ g.match ord s p o) :
    P t ∧ (s.truthy → t.s = s) ∧ (p.truthy → t.p = p) ∧ (o.truthy → t.o = o) := by
  have w1 : g.spo.WF := hw .spo
  have w2 : g.pos.WF := hw .pos
  have w3 : g.osp.WF := hw .osp
  have f1 : ∀ a b c t, g.spo.find a b c = some t → (t.s = a ∧ t.p = b ∧ t.o = c) ∧ P t := by
    intro a b c t h; have := hf .spo _ _ _ _ h; simpa [Graph.Ix.keys] using this
  have f2 : ∀ a b c t, g.pos.find a b c = some t → (t.p = a ∧ t.o = b ∧ t.s = c) ∧ P t := by
    intro a b c t h; have := hf .pos _ _ _ _ h; simpa [Graph.Ix.keys] using this
  have f3 : ∀ a b c t, g.osp.find a b c = some t → (t.o = a ∧ t.s = b ∧ t.p = c) ∧ P t := by
    intro a b c t h; have := hf .osp _ _ _ _ h; simpa [Graph.Ix.keys] using this
  unfold Graph.match at hm
  by_cases hs : s.truthy <;> by_cases hp : p.truthy <;> by_cases ho : o.truthy <;>
    simp only [hs, hp, ho, if_true, if_false, Bool.false_eq_true, true_implies, false_implies, and_true, true_and] at hm ⊢
  · split at hm
    · next hc =>
      rw [List.mem_singleton] at hm
      subst hm
      exact ⟨ht _ (by simpa [Graph.contains] using hc), rfl, rfl, rfl⟩
    · cases hm
  · split at hm
    · rw [Idx.mem_l2_values w1] at hm
      obtain ⟨c, h⟩ := hm
      have := f1 _ _ _ _ h
      exact ⟨this.2, this.1.1, this.1.2.1⟩
    · cases hm
  · split at hm
    · rw [Idx.mem_l2_values w3] at hm
      obtain ⟨c, h⟩ := hm
      have := f3 _ _ _ _ h
      exact ⟨this.2, this.1.2.1, this.1.1⟩
    · cases hm
  · split at hm
    · rw [Idx.mem_l1_flat w1] at hm
      obtain ⟨b, c, h⟩ := hm
      have := f1 _ _ _ _ h
      exact ⟨this.2, this.1.1⟩
    · cases hm
  · split at hm
    · rw [Idx.mem_l2_values w2] at hm
      obtain ⟨c, h⟩ := hm
      have := f2 _ _ _ _ h
      exact ⟨this.2, this.1.1, this.1.2.1⟩
    · cases hm
  · split at hm
    · rw [Idx.mem_l1_flat w2] at hm
      obtain ⟨b, c, h⟩ := hm
      have := f2 _ _ _ _ h
      exact ⟨this.2, this.1.1⟩
    · cases hm
  · split at hm
    · rw [Idx.mem_l1_flat w3] at hm
      obtain ⟨b, c, h⟩ := hm
      have := f3 _ _ _ _ h
      exact ⟨this.2, this.1.1⟩
    · cases hm
  · exact ht _ ((hord g.triples).mem_iff.1 hm)

end Verif
