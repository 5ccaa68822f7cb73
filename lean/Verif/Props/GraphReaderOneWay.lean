import Verif.Lemmas.GraphReaderOneWay
import Verif.Props.GraphReader
import Verif.Props.LoopGroup
/-
C164: a thread that reads a Graph while other threads add to it or remove from it, but not both in one go of the reader.
-/
namespace Verif
open Spec

theorem Chain.of_found {sh : SharedGraph} (h : Shape sh) {w : Graph.Ix} {a b c : Term} {t : Stmt} (hf : (sh.top w).find a b c = some t) : ∃ r1 r2, Chain sh w a b c r1 r2 t := by
  unfold Idx.find Idx.l2 Idx.l1 at hf
  cases h1 : (sh.heap (.root w)).get? a with
  | none => rw [SharedGraph.top_get_none h h1] at hf; simp at hf
  | some v =>
    have p1 := h.placed _ _ _ h1
    cases v with
    | stmt t => exact p1.elim
    | dict r =>
      rw [SharedGraph.top_get h h1] at hf
      simp only [Option.getD_some] at hf
      cases h2 : (sh.heap r).get? b with
      | none => rw [SharedGraph.mid_get_none h h2] at hf; simp at hf
      | some v =>
        obtain ⟨m, hm, rfl⟩ := p1
        have p2 := h.placed _ _ _ h2
        cases v with
        | stmt t => exact p2.elim
        | dict r =>
          rw [SharedGraph.mid_get h h2] at hf
          simp only [Option.getD_some, SharedGraph.leaf] at hf
          rw [Dict.get?_collect (h.wf _)] at hf
          cases h3 : (sh.heap r).get? c with
          | none => rw [h3] at hf; cases hf
          | some v =>
            rw [h3] at hf
            cases v with
            | dict r => cases hf
            | stmt t => cases hf; exact ⟨_, _, h1, h2, h3⟩

/-- The reader is done only when it has an outcome. -/
theorem RSys.done_step {ord} {s : RSys} (h : s.rd.pc = .done → s.rd.out ≠ none) (x : RStep) : (s.step ord x).rd.pc = .done → (s.step ord x).rd.out ≠ none := by
  have touched : ∀ (sh sh' : SharedGraph) (pc : RPc), pc.touch sh sh' = .done → pc = .done := by
    intro sh sh' pc e
    cases pc <;> first | rfl | cases e
  obtain ⟨g, plan, pc, got, out⟩ := s
  cases x with
  | write i => exact fun e => h (touched _ _ _ e)
  | read c =>
    intro e
    have e := touched _ _ _ e
    revert e
    show (Reader.step ord g.sh c ⟨plan, pc, got, out⟩).2.pc = .done → (Reader.step ord g.sh c ⟨plan, pc, got, out⟩).2.out ≠ none
    have h : pc = .done → out ≠ none := h
    cases plan <;> cases pc <;> simp only [Reader.step, Reader.stepBound, Reader.stepAll, Reader.stepIn, Reader.finish, Reader.leave] <;> (repeat' split) <;>
      first
      | exact h
      | exact fun _ => h rfl
      | (intro e; cases e; done)
      | (intro _ e; cases e; done)

theorem RSys.done_run {ord} {s : RSys} (h : s.rd.pc = .done → s.rd.out ≠ none) (sched : List RStep) : (s.run ord sched).rd.pc = .done → (s.run ord sched).rd.out ≠ none := by
  induction sched generalizing s with
  | nil => exact h
  | cons x sched ih => exact ih (RSys.done_step h x)

/-- What holds if the changes go one way: `up` says which way for the set. -/
def OneWayRun (A Q : Stmt → Prop) (up : Bool) (sh0 : SharedGraph) (s : RSys) : Prop :=
  match s.rd.plan with
  | .bound t => (t ∈ sh0.triples → Q t → t ∈ s.g.sh.triples) ∧ (match s.rd.pc with
      | .start => s.rd.got = []
      | .after => s.rd.got = [t]
      | .done => s.rd.out = some (.ok ()) ∧ (s.rd.got = [t] ∨ s.rd.got = [] ∧ (t ∈ sh0.triples → ¬ Q t))
      | _ => False)
  | .two w a b => Kept Q sh0 w s.g ∧ OneWay A Q sh0 w a (some b) s.g.sh s.rd
  | .one w a => Kept Q sh0 w s.g ∧ OneWay A Q sh0 w a none s.g.sh s.rd
  | .all => s.g.sh.triples.Nodup ∧ (∀ x ∈ sh0.triples, Q x → x ∈ s.g.sh.triples) ∧ (match s.rd.pc with
      | .start => s.rd.got = []
      | .set size rest dirty => (dirty = true → if up then size < s.g.sh.triples.length else s.g.sh.triples.length < size) ∧ (dirty = false → size = s.g.sh.triples.length) ∧
          (s.rd.got ++ rest).Nodup ∧ ∀ x ∈ sh0.triples, Q x → x ∈ s.rd.got ++ rest
      | .done => s.rd.got.Nodup ∧ (s.rd.out = some (.ok ()) → ∀ x ∈ sh0.triples, Q x → x ∈ s.rd.got)
      | _ => False)

/-- What a step does to the set. -/
theorem SharedGraph.triples_way (sh : SharedGraph) (th : GThread) : (sh.step th).1.triples = sh.triples ∨
    (∃ t, .add t ∈ th.todo ∧ t ∉ sh.triples ∧ (sh.step th).1.triples = sh.triples ++ [t]) ∨ ∃ t, .remove t ∈ th.todo ∧ t ∈ sh.triples ∧ (sh.step th).1.triples = sh.triples.erase t := by
  rcases sh.step_begins th with ⟨-, op, rest, h1, -, h3⟩ | ⟨-, -, h3⟩
  · rw [h1, h3]
    cases op with
    | add t =>
      simp only [ThOp.onSet, Graph.setAdd]
      split
      · exact Or.inl rfl
      · next e => exact Or.inr (Or.inl ⟨t, List.mem_cons_self .., e, rfl⟩)
    | remove t =>
      simp only [ThOp.onSet]
      by_cases e : t ∈ sh.triples
      · exact Or.inr (Or.inr ⟨t, List.mem_cons_self .., e, rfl⟩)
      · exact Or.inl (List.erase_of_not_mem e)
  · exact Or.inl h3

/-- What the threads may still do, by the plan of the reader. -/
structure Permits (A Q : Stmt → Prop) (up : Bool) (plan : Plan) (g : GSys) : Prop where
  removes : ∀ i t w, (g.threads i).pc.at = some (.remove t, w) → t.g = none ∧ ¬ Q t
  todo : ∀ i t, .remove t ∈ (g.threads i).todo → ¬ Q t
  two : ∀ w a b, plan = .two w a b → Parted A Q w a (some b) g
  one : ∀ w a, plan = .one w a → Parted A Q w a none g
  all : plan = .all → ∀ i, (∀ t, .add t ∈ (g.threads i).todo → up = true) ∧ ∀ t, .remove t ∈ (g.threads i).todo → up = false

theorem OneWayRun.write {A Q P : Stmt → Prop} {up : Bool} (hP : ∀ t, P t → t.g = none) {ord : List Stmt → List Stmt} {sh0 : SharedGraph} {s : RSys} (h : OneWayRun A Q up sh0 s)
    (ok : s.Ok P) (pm : Permits A Q up s.rd.plan s.g) (i : Nat) : OneWayRun A Q up sh0 (s.step ord (.write i)) := by
  obtain ⟨g, plan, pc, got, out⟩ := s
  have tr := SharedGraph.triples_way g.sh (g.threads i)
  have e0 : (g.sh.step (g.threads i)).1 = (g.step i).sh := rfl
  rw [e0] at tr
  have stays : ∀ x ∈ g.sh.triples, Q x → x ∈ (g.step i).sh.triples := by
    intro x hx hq
    rcases tr with e | ⟨t, -, -, e⟩ | ⟨t, h1, -, e⟩
    · rw [e]; exact hx
    · rw [e]; exact List.mem_append_left _ hx
    · rw [e]; exact (List.mem_erase_of_ne (fun e : x = t => pm.todo i t h1 (e ▸ hq))).2 hx
  cases plan with
  | bound t =>
    obtain ⟨h1, h2⟩ := h
    refine ⟨fun e q => stays _ (h1 e q) q, ?_⟩
    cases pc <;> exact h2
  | two w a b =>
    obtain ⟨h1, h2⟩ := h
    exact ⟨h1.write hP ok.shaped ok.unborn ok.all pm.removes i, h2.touch (Moves.step ok.shaped ok.unborn (pm.two w a b rfl) i) (RdIn.it (w := w) (a := a) (b := some b) ok.pc)⟩
  | one w a =>
    obtain ⟨h1, h2⟩ := h
    exact ⟨h1.write hP ok.shaped ok.unborn ok.all pm.removes i, h2.touch (Moves.step ok.shaped ok.unborn (pm.one w a rfl) i) (RdIn.it (w := w) (a := a) (b := none) ok.pc)⟩
  | all =>
    obtain ⟨h0, h1, h2⟩ := h
    have h0 : g.sh.triples.Nodup := h0
    obtain ⟨up1, up2⟩ := pm.all rfl i
    refine ⟨?_, fun x hx q => stays x (h1 x hx q) q, ?_⟩
    · show (g.step i).sh.triples.Nodup
      rcases tr with e | ⟨t, -, ht, e⟩ | ⟨t, -, -, e⟩
      · rw [e]; exact h0
      · rw [e]; exact nodup_concat h0 ht
      · rw [e]; exact h0.erase t
    cases pc <;> first | exact h2 | skip
    next size rest dirty =>
      obtain ⟨h3, h4, h5, h6⟩ := h2
      refine ⟨?_, ?_, h5, h6⟩
      · show (dirty || decide ((g.step i).sh.triples ≠ g.sh.triples)) = true → if up then size < (g.step i).sh.triples.length else (g.step i).sh.triples.length < size
        intro hd
        have h3 : dirty = true → if up then size < g.sh.triples.length else g.sh.triples.length < size := h3
        have h4 : dirty = false → size = g.sh.triples.length := h4
        rcases tr with e | ⟨t, h7, ht, e⟩ | ⟨t, h7, ht, e⟩
        · rw [e] at hd ⊢
          exact h3 (by simpa using hd)
        · rw [e, List.length_append]
          have hu := up1 t h7
          subst hu
          simp only [if_true, List.length_singleton] at h3 ⊢
          cases dirty with
          | true => have := h3 rfl; omega
          | false => have := h4 rfl; omega
        · have hl := List.length_erase_of_mem ht
          have hpos : 0 < g.sh.triples.length := List.length_pos_of_mem ht
          rw [e, hl]
          have hu := up2 t h7
          subst hu
          simp only [Bool.false_eq_true, if_false] at h3 ⊢
          cases dirty with
          | true => have := h3 rfl; omega
          | false => have := h4 rfl; omega
      · show (dirty || decide ((g.step i).sh.triples ≠ g.sh.triples)) = false → size = (g.step i).sh.triples.length
        intro hd
        simp only [Bool.or_eq_false_iff, decide_eq_false_iff_not, not_not] at hd
        rw [hd.2]
        exact h4 hd.1

theorem OneWayRun.read {A Q P : Stmt → Prop} {up : Bool} {ord : List Stmt → List Stmt} (hord : IsOrder ord) {sh0 : SharedGraph} (hS0 : Shape sh0) {s : RSys} (h : OneWayRun A Q up sh0 s)
    (ok : s.Ok P) (c : Nat) : OneWayRun A Q up sh0 (s.step ord (.read c)) := by
  obtain ⟨g, plan, pc, got, out⟩ := s
  unfold OneWayRun
  rw [RSys.plan_step]
  cases plan with
  | bound t =>
    obtain ⟨h1, h2⟩ := h
    refine ⟨h1, ?_⟩
    cases pc <;> first | exact h2.elim | skip
    · have hg : got = [] := h2
      unfold RSys.step Reader.step Reader.stepBound
      dsimp only
      by_cases ht : t ∈ g.sh.triples
      · rw [if_pos ht]
        show got ++ [t] = _
        rw [hg]; rfl
      · rw [if_neg ht]
        exact ⟨rfl, Or.inr ⟨hg, fun e q => ht (h1 e q)⟩⟩
    · exact ⟨rfl, Or.inl h2⟩
    · exact h2
  | two w a b =>
    obtain ⟨h1, h2⟩ := h
    have hp : RdIn g.sh w a (some b) pc := ok.pc
    obtain ⟨r1, r2⟩ := h2.read hS0 h1 ok.shaped.heap c hp ok.ended
    exact ⟨h1.read ok.unborn c hp h2.made, r2.touch (Reader.stepIn_moves (rd := ⟨.two w a b, pc, got, out⟩) ok.unborn c hp) r1⟩
  | one w a =>
    obtain ⟨h1, h2⟩ := h
    have hp : RdIn g.sh w a none pc := ok.pc
    obtain ⟨r1, r2⟩ := h2.read hS0 h1 ok.shaped.heap c hp ok.ended
    exact ⟨h1.read ok.unborn c hp h2.made, r2.touch (Reader.stepIn_moves (rd := ⟨.one w a, pc, got, out⟩) ok.unborn c hp) r1⟩
  | all =>
    obtain ⟨h0, h1, h2⟩ := h
    have h0 : g.sh.triples.Nodup := h0
    refine ⟨h0, h1, ?_⟩
    have clean : ∀ d : Bool, (d || decide (g.sh.triples ≠ g.sh.triples)) = d := by simp
    cases pc <;> first | exact h2.elim | skip
    · have hg : got = [] := h2
      refine ⟨?_, ?_, ?_, ?_⟩
      · show (false || decide (g.sh.triples ≠ g.sh.triples)) = true → _
        rw [clean]; exact fun e => (by cases e)
      · exact fun _ => rfl
      · show (got ++ ord g.sh.triples).Nodup
        rw [hg]; exact (hord _).nodup_iff.2 h0
      · show ∀ x ∈ sh0.triples, Q x → x ∈ got ++ ord g.sh.triples
        rw [hg]; exact fun x hx q => (hord _).mem_iff.2 (h1 x hx q)
    · next size rest dirty =>
      obtain ⟨h3, h4, h5, h6⟩ := h2
      have h3 : dirty = true → if up then size < g.sh.triples.length else g.sh.triples.length < size := h3
      have h4 : dirty = false → size = g.sh.triples.length := h4
      have h5 : (got ++ rest).Nodup := h5
      have h6 : ∀ x ∈ sh0.triples, Q x → x ∈ got ++ rest := h6
      have hgot : got.Nodup := (List.nodup_append.1 h5).1
      unfold RSys.step Reader.step Reader.stepAll
      dsimp only
      cases dirty with
      | true =>
        rw [if_pos (by have := h3 rfl; split at this <;> omega)]
        exact ⟨hgot, fun e => (by cases e)⟩
      | false =>
        rw [if_neg (by have := h4 rfl; omega), if_neg (by simp)]
        cases rest with
        | nil => exact ⟨hgot, fun _ x hx q => (by have := h6 x hx q; rw [List.append_nil] at this; exact this)⟩
        | cons t rest =>
          refine ⟨?_, fun _ => h4 rfl, ?_, ?_⟩
          · show (false || decide (g.sh.triples ≠ g.sh.triples)) = true → _
            rw [clean]; exact fun e => (by cases e)
          · show ((got ++ [t]) ++ rest).Nodup
            rw [List.append_assoc]; exact h5
          · show ∀ x ∈ sh0.triples, Q x → x ∈ (got ++ [t]) ++ rest
            rw [List.append_assoc]; exact h6
    · exact h2

theorem OneWayRun.run {A Q P : Stmt → Prop} {up : Bool} (hP : ∀ t, P t → t.g = none) {ord : List Stmt → List Stmt} (hord : IsOrder ord) {sh0 : SharedGraph} (hS0 : Shape sh0) {s : RSys}
    (h : OneWayRun A Q up sh0 s) (ok : s.Ok P) {prog : Nat → List Act} (own : OwnCalls prog s.g) (pm : ∀ g, OwnCalls prog g → Permits A Q up s.rd.plan g) (sched : List RStep) :
    OneWayRun A Q up sh0 (s.run ord sched) := by
  induction sched generalizing s with
  | nil => exact h
  | cons x sched ih =>
    have e : (s.step ord x).rd.plan = s.rd.plan := RSys.plan_step ord s x
    cases x with
    | write i => exact ih (h.write hP ok (pm _ own) i) (ok.write i) (own.step i) (by rw [e]; exact pm)
    | read c => exact ih (h.read hord hS0 ok c) (ok.read hord c) own (by rw [e]; exact pm)

/-- Statements in one dict of the second level are those the reader goes through in one go. -/
theorem Plan.together {s p o : Option Term} (hs : NonEmpty s) (hp : NonEmpty p) (ho : NonEmpty o) {w : Graph.Ix} {a : Term}
    (hw : (∃ b, Plan.of (arg s) (arg p) (arg o) = .two w a b) ∨ Plan.of (arg s) (arg p) (arg o) = .one w a) {t t' : Tri} (e1 : (w.keys t'.stmt).1 = (w.keys t.stmt).1)
    (e2 : (w.keys t'.stmt).2.1 = (w.keys t.stmt).2.1) : t.Together s p o t' := by
  have f : ∀ {x : Option Term}, NonEmpty x → (arg x).truthy = x.isSome := by
    intro x hx
    cases x with
    | none => rfl
    | some y => exact (Graph.truthy_iff _).2 (hx y rfl)
  unfold Plan.of at hw
  rw [f hs, f hp, f ho] at hw
  cases s <;> cases p <;> cases o <;> simp at hw <;> obtain ⟨rfl, -⟩ := hw <;> first | exact ⟨e1, e2⟩ | exact ⟨e2, e1⟩

/-- If no thread adds a triple that the reader goes through in one go with one that a thread removes, the reader ends with RuntimeError, or it ends in order with every matching triple
    that was there and that no thread removes, each triple once, and otherwise only matching triples that were there or that some thread adds. -/
theorem C164_one_way (u : Term) (before : List Act) (sh : SharedGraph) (h : Prepared u before sh) (prog : Nat → List Act) {ord} (hord : IsOrder ord)
    {s p o : Option Term} (hs : NonEmpty s) (hp : NonEmpty p) (ho : NonEmpty o)
    (way : ∀ i j t t', .add t ∈ prog i → .remove t' ∈ prog j → t.Matches s p o → t'.Matches s p o → ¬ t'.Together s p o t) (sched : List RStep)
    (hd : (readRun ord sh prog s p o sched).rd.pc = .done) :
    (readRun ord sh prog s p o sched).rd.out = some (.error .runtimeError) ∨ ReadsWell (runActs ∅ before) prog s p o (readRun ord sh prog s p o sched).rd := by
  classical
  obtain ⟨g, r, found, -⟩ := h.good prog
  obtain ⟨snd, ends⟩ := C164_sound u before sh h prog hord hs hp ho sched
  have ok0 := readRun_ok h prog hord s p o []
  have hn : (readRun ord sh prog s p o sched).rd.out ≠ none := RSys.done_run (ord := ord) (s := readRun ord sh prog s p o []) (fun e => (by cases e)) sched hd
  rcases ends with e | e | e
  · exact absurd e hn
  · right
    let A : Stmt → Prop := fun x => ∃ i t, Act.add t ∈ prog i ∧ x = t.stmt
    let Q : Stmt → Prop := fun x => ∀ i t, Act.remove t ∈ prog i → x ≠ t.stmt
    let up : Bool := decide (∃ i t, Act.add t ∈ prog i)
    have isAdd : ∀ {a : Act} {t}, ThOp.add t = a.op → ∃ t', a = .add t' ∧ t = t'.stmt := by
      intro a t e
      cases a with
      | add t' => cases e; exact ⟨t', rfl, rfl⟩
      | remove t' => cases e
    have isRem : ∀ {a : Act} {t}, ThOp.remove t = a.op → ∃ t', a = .remove t' ∧ t = t'.stmt := by
      intro a t e
      cases a with
      | add t' => cases e
      | remove t' => cases e; exact ⟨t', rfl, rfl⟩
    have pm : ∀ g, OwnCalls prog g → Permits A Q up (Plan.of (arg s) (arg p) (arg o)) g := by
      intro g own
      have rem : ∀ i t w, (g.threads i).pc.at = some (.remove t, w) → ∃ t' : Tri, t = t'.stmt ∧ .remove t' ∈ prog i := by
        intro i t w e
        obtain ⟨a, ha, e⟩ := (own i).2 _ w e
        obtain ⟨t', rfl, e'⟩ := isRem e
        exact ⟨t', e', ha⟩
      have rem' : ∀ i t w, (g.threads i).pc.at = some (.remove t, w) → t.g = none ∧ ¬ Q t := by
        intro i t w e
        obtain ⟨t', rfl, h1⟩ := rem i t w e
        exact ⟨rfl, fun q => q i t' h1 rfl⟩
      have add : ∀ i t w, (g.threads i).pc.at = some (.add t, w) → A t := by
        intro i t w e
        obtain ⟨a, ha, e⟩ := (own i).2 _ w e
        obtain ⟨t', rfl, e'⟩ := isAdd e
        exact ⟨i, t', ha, e'⟩
      have todoR : ∀ i t, .remove t ∈ (g.threads i).todo → ∃ t' : Tri, t = t'.stmt ∧ .remove t' ∈ prog i := by
        intro i t e
        obtain ⟨a, ha, e⟩ := (own i).1 _ e
        obtain ⟨t', rfl, e'⟩ := isRem e
        exact ⟨t', e', ha⟩
      refine ⟨rem', ?_, ?_, ?_, ?_⟩
      · intro i t e q
        obtain ⟨t', rfl, h1⟩ := todoR i t e
        exact q i t' h1 rfl
      · intro w a b hpl
        refine ⟨add, fun i t w' e => ⟨(rem' i t w' e).1, (rem' i t w' e).2, ?_⟩⟩
        obtain ⟨t', rfl, h1⟩ := rem i t w' e
        rintro k1 k2 _ ⟨j, t2, h2, rfl⟩ k3 k4
        have k2 := k2 b rfl
        refine way j i t2 t' h2 h1 ((Plan.of_has hs hp ho t2).1 ?_) ((Plan.of_has hs hp ho t').1 ?_) (Plan.together hs hp ho (Or.inl ⟨b, hpl⟩) (k3.trans k1.symm) k4)
        · rw [hpl]; exact ⟨k3, k4.trans k2⟩
        · rw [hpl]; exact ⟨k1, k2⟩
      · intro w a hpl
        refine ⟨add, fun i t w' e => ⟨(rem' i t w' e).1, (rem' i t w' e).2, ?_⟩⟩
        obtain ⟨t', rfl, h1⟩ := rem i t w' e
        rintro k1 - _ ⟨j, t2, h2, rfl⟩ k3 k4
        refine way j i t2 t' h2 h1 ((Plan.of_has hs hp ho t2).1 ?_) ((Plan.of_has hs hp ho t').1 ?_) (Plan.together hs hp ho (Or.inr hpl) (k3.trans k1.symm) k4)
        · rw [hpl]; exact k3
        · rw [hpl]; exact k1
      · intro hpl i
        have none3 : s = none ∧ p = none ∧ o = none := by
          have f : ∀ {x : Option Term}, NonEmpty x → (arg x).truthy = x.isSome := by
            intro x hx
            cases x with
            | none => rfl
            | some y => exact (Graph.truthy_iff _).2 (hx y rfl)
          unfold Plan.of at hpl
          rw [f hs, f hp, f ho] at hpl
          cases s <;> cases p <;> cases o <;> simp at hpl <;> exact ⟨rfl, rfl, rfl⟩
        obtain ⟨rfl, rfl, rfl⟩ := none3
        have any : ∀ t : Tri, t.Matches none none none := fun t => (Plan.of_has hs hp ho t).1 (by rw [hpl]; trivial)
        refine ⟨fun t e => ?_, fun t e => ?_⟩
        · obtain ⟨a, ha, e⟩ := (own i).1 _ e
          obtain ⟨t', rfl, -⟩ := isAdd e
          exact decide_eq_true ⟨i, t', ha⟩
        · obtain ⟨t', -, h1⟩ := todoR i t e
          refine decide_eq_false ?_
          rintro ⟨j, t2, h2⟩
          exact way j i t2 t' h2 h1 (any _) (any _) trivial
    have a0 : OneWayRun A Q up sh (readRun ord sh prog s p o []) := by
      have kp : ∀ w, Kept Q sh w (GSys.start sh (fun i => (prog i).map Act.op)) := fun w =>
        ⟨fun a v hv => ⟨hv, fun i op r e => (by cases e)⟩, fun a m b v hv => ⟨hv, fun i op r e => (by cases e)⟩, fun _ _ _ _ _ _ _ h => h⟩
      have ra : ∀ w a b plan, OneWay A Q sh w a b sh { plan := plan } := fun w a b plan =>
        ⟨fun _ _ _ _ e => (by cases e), trivial, ⟨List.nodup_nil, rfl⟩, fun _ _ _ _ _ _ _ _ => trivial⟩
      show OneWayRun A Q up sh ⟨GSys.start sh (fun i => (prog i).map Act.op), { plan := Plan.of (arg s) (arg p) (arg o) }⟩
      cases Plan.of (arg s) (arg p) (arg o) with
      | bound t => exact ⟨fun h _ => h, rfl⟩
      | two w a b => exact ⟨kp w, ra _ _ _ _⟩
      | one w a => exact ⟨kp w, ra _ _ _ _⟩
      | all => exact ⟨r.1, fun x hx _ => hx, rfl⟩
    have own0 : OwnCalls prog (readRun ord sh prog s p o []).g := by
      intro i
      refine ⟨fun op ho => ?_, fun op w e => by cases e⟩
      obtain ⟨a, ha, e⟩ := List.mem_map.1 ho
      exact ⟨a, ha, e.symm⟩
    have a1 := OneWayRun.run (by rintro t ⟨t', rfl, -⟩; rfl) hord g.shaped.heap a0 ok0 own0 pm sched
    have e0 : RSys.run ord (readRun ord sh prog s p o []) sched = readRun ord sh prog s p o sched := rfl
    rw [e0] at a1
    have hpl : (readRun ord sh prog s p o sched).rd.plan = Plan.of (arg s) (arg p) (arg o) := RSys.plan_run ..
    have key : (readRun ord sh prog s p o sched).rd.got.Nodup ∧ ∀ t ∈ runActs ∅ before, t.Matches s p o → Q t.stmt → t.stmt ∈ (readRun ord sh prog s p o sched).rd.got := by
      have has : ∀ t : Tri, t.Matches s p o → (readRun ord sh prog s p o sched).rd.plan.Has t.stmt := by
        intro t ht; rw [hpl]; exact (Plan.of_has hs hp ho t).2 ht
      revert a1 hd e has
      generalize readRun ord sh prog s p o sched = z
      obtain ⟨g', plan, pc, got, out⟩ := z
      rintro hd e a1 has
      have hd : pc = .done := hd
      have e : out = some (.ok ()) := e
      subst hd
      cases plan with
      | bound t =>
        obtain ⟨-, -, h3⟩ := a1
        have h3 : got = [t] ∨ got = [] ∧ (t ∈ sh.triples → ¬ Q t) := h3
        refine ⟨?_, fun t' ht' hm q => ?_⟩
        · rcases h3 with h3 | ⟨h3, -⟩ <;> rw [show (RSys.mk g' ⟨.bound t, .done, got, out⟩).rd.got = got from rfl, h3] <;> simp
        · have h4 : t'.stmt = t := has t' hm
          have h5 : t'.stmt ∈ sh.triples := (r.mem t').2 ht'
          rcases h3 with h3 | ⟨-, h3⟩
          · show t'.stmt ∈ got; rw [h3, h4]; simp
          · rw [h4] at h5 q; exact absurd q (h3 h5)
      | two w a b =>
        obtain ⟨-, h3⟩ := a1
        refine ⟨h3.once.1, fun t' ht' hm q => ?_⟩
        obtain ⟨r1, r2, hc⟩ := Chain.of_found g.shaped.heap (found t' ht' w)
        obtain ⟨h4, h5⟩ := has t' hm
        rw [h4, h5] at hc
        exact h3.coming _ _ _ _ _ (fun y e => (by cases e; rfl)) q hc e
      | one w a =>
        obtain ⟨-, h3⟩ := a1
        refine ⟨h3.once.1, fun t' ht' hm q => ?_⟩
        obtain ⟨r1, r2, hc⟩ := Chain.of_found g.shaped.heap (found t' ht' w)
        have h4 : (w.keys t'.stmt).1 = a := has t' hm
        rw [h4] at hc
        exact h3.coming _ _ _ _ _ (fun y e => (by cases e)) q hc e
      | all =>
        obtain ⟨-, -, h3, h4⟩ := a1
        exact ⟨h3, fun t' ht' _ q => h4 e _ ((r.mem t').2 ht') q⟩
    refine ⟨e, key.1, snd, fun t ht hm nr => key.2 t ht hm ?_⟩
    intro i t' h1 e
    have : t = t' := by
      obtain ⟨_, _, _⟩ := t
      obtain ⟨_, _, _⟩ := t'
      simp only [Tri.stmt, mkTriple, Stmt.mk.injEq] at e
      obtain ⟨rfl, rfl, rfl, -⟩ := e
      rfl
    exact nr i (this ▸ h1)
  · exact Or.inl e

/-- In particular, if the other threads only add. -/
theorem C164_adds (u : Term) (before : List Act) (sh : SharedGraph) (h : Prepared u before sh) (prog : Nat → List Act) {ord} (hord : IsOrder ord)
    {s p o : Option Term} (hs : NonEmpty s) (hp : NonEmpty p) (ho : NonEmpty o) (adds : ∀ i, ∀ a ∈ prog i, ∃ t, a = .add t) (sched : List RStep)
    (hd : (readRun ord sh prog s p o sched).rd.pc = .done) :
    (readRun ord sh prog s p o sched).rd.out = some (.error .runtimeError) ∨ ReadsWell (runActs ∅ before) prog s p o (readRun ord sh prog s p o sched).rd :=
  C164_one_way u before sh h prog hord hs hp ho (fun _ j _ t' _ h2 _ _ => by obtain ⟨t, e⟩ := adds j _ h2; cases e) sched hd

/-- And if they only remove. -/
theorem C164_removes (u : Term) (before : List Act) (sh : SharedGraph) (h : Prepared u before sh) (prog : Nat → List Act) {ord} (hord : IsOrder ord)
    {s p o : Option Term} (hs : NonEmpty s) (hp : NonEmpty p) (ho : NonEmpty o) (removes : ∀ i, ∀ a ∈ prog i, ∃ t, a = .remove t) (sched : List RStep)
    (hd : (readRun ord sh prog s p o sched).rd.pc = .done) :
    (readRun ord sh prog s p o sched).rd.out = some (.error .runtimeError) ∨ ReadsWell (runActs ∅ before) prog s p o (readRun ord sh prog s p o sched).rd :=
  C164_one_way u before sh h prog hord hs hp ho (fun i _ _ _ h1 _ _ _ => by obtain ⟨t, e⟩ := removes i _ h1; cases e) sched hd

/-- One thread may add under one predicate while another removes under another: the hypothesis of `C164_one_way` holds. -/
example : ∀ i j t t', .add t ∈ twoThreads (.add ⟨exA, exC, exC⟩) (.remove exT1) i → .remove t' ∈ twoThreads (.add ⟨exA, exC, exC⟩) (.remove exT1) j →
    t.Matches (some exA) none none → t'.Matches (some exA) none none → ¬ t'.Together (some exA) none none t := by
  intro i j t t' h1 h2 _ _
  have e1 : t = ⟨exA, exC, exC⟩ := by
    unfold twoThreads at h1
    split at h1
    · simpa using h1
    · split at h1 <;> simp at h1
  have e2 : t' = exT1 := by
    unfold twoThreads at h2
    split at h2
    · simp at h2
    · split at h2
      · simpa using h2
      · simp at h2
  subst e1 e2
  decide

/-- Both can happen: RuntimeError in `C164_raises`; and this run, in which the triple comes after the loop, ends in order. -/
example : (readRun id (aloneRun .none [.add exT1] 16).sh (oneThread [.add exT2]) (some exA) none none (List.replicate 11 (.read 0) ++ List.replicate 16 (.write 0))).rd.out = some (.ok ()) ∧
    (readRun id (aloneRun .none [.add exT1] 16).sh (oneThread [.add exT2]) (some exA) none none (List.replicate 11 (.read 0) ++ List.replicate 16 (.write 0))).rd.got = [exT1.stmt] := by decide

set_option maxRecDepth 20000 in
/-- A triple goes while the reader is in the loop, or before it comes to it. -/
example : (readRun id (aloneRun .none [.add exT1] 16).sh (oneThread [.remove exT1]) (some exA) none none (List.replicate 9 (.read 0) ++ List.replicate 12 (.write 0) ++ [.read 0])).rd.out =
      some (.error .runtimeError) ∧
    (readRun id (aloneRun .none [.add exT1] 16).sh (oneThread [.remove exT1]) (some exA) none none (List.replicate 7 (.read 0) ++ List.replicate 12 (.write 0) ++ List.replicate 9 (.read 0))).rd.out =
      some (.ok ()) := by decide

/-! ### A pattern with subject, predicate and object -/

/-- The reader has looked: `got` stays, and the end will be in order. -/
theorem RSys.bound_rest {ord} {t : Stmt} {s : RSys} (hp : s.rd.plan = .bound t) (h : s.rd.pc = .after ∨ s.rd.pc = .done ∧ s.rd.out = some (.ok ())) (sched : List RStep) :
    (s.run ord sched).rd.got = s.rd.got ∧ ((s.run ord sched).rd.pc = .done → (s.run ord sched).rd.out = some (.ok ())) := by
  induction sched generalizing s with
  | nil =>
    refine ⟨rfl, fun e => ?_⟩
    rcases h with h | h
    · rw [show s.run ord [] = s from rfl, h] at e; cases e
    · exact h.2
  | cons x sched ih =>
    obtain ⟨g, plan, pc, got, out⟩ := s
    have hp : plan = .bound t := hp
    subst hp
    have h : pc = .after ∨ pc = .done ∧ out = some (.ok ()) := h
    have step : ((RSys.mk g ⟨.bound t, pc, got, out⟩).step ord x).rd.got = got ∧ (((RSys.mk g ⟨.bound t, pc, got, out⟩).step ord x).rd.pc = .after ∨
        ((RSys.mk g ⟨.bound t, pc, got, out⟩).step ord x).rd.pc = .done ∧ ((RSys.mk g ⟨.bound t, pc, got, out⟩).step ord x).rd.out = some (.ok ())) := by
      rcases h with rfl | ⟨rfl, rfl⟩
      · cases x with
        | write i => exact ⟨rfl, Or.inl rfl⟩
        | read c => exact ⟨rfl, Or.inr ⟨rfl, rfl⟩⟩
      · cases x with
        | write i => exact ⟨rfl, Or.inr ⟨rfl, rfl⟩⟩
        | read c => exact ⟨rfl, Or.inr ⟨rfl, rfl⟩⟩
    obtain ⟨i1, i2⟩ := ih (RSys.plan_step ord _ x) step.2
    exact ⟨i1.trans step.1, i2⟩

theorem RSys.bound_run {ord} {t : Stmt} {s : RSys} (hp : s.rd.plan = .bound t) (h : s.rd.pc = .start) (hg : s.rd.got = []) (sched : List RStep) (hd : (s.run ord sched).rd.pc = .done) :
    (s.run ord sched).rd.out = some (.ok ()) ∧ ∃ pre c post, sched = pre ++ .read c :: post ∧ (s.run ord sched).rd.got = if t ∈ (s.run ord pre).g.sh.triples then [t] else [] := by
  induction sched generalizing s with
  | nil => rw [show s.run ord [] = s from rfl, h] at hd; cases hd
  | cons x sched ih =>
    obtain ⟨g, plan, pc, got, out⟩ := s
    have hp : plan = .bound t := hp
    have h : pc = .start := h
    have hg : got = [] := hg
    subst hp h hg
    cases x with
    | write i =>
      obtain ⟨i1, pre, c, post, i2, i3⟩ := ih (s := (RSys.mk g ⟨.bound t, .start, [], out⟩).step ord (.write i)) rfl rfl rfl hd
      exact ⟨i1, .write i :: pre, c, post, by rw [i2]; rfl, i3⟩
    | read c =>
      have st : ((RSys.mk g ⟨.bound t, .start, [], out⟩).step ord (.read c)).rd.got = (if t ∈ g.sh.triples then [t] else []) ∧
          (((RSys.mk g ⟨.bound t, .start, [], out⟩).step ord (.read c)).rd.pc = .after ∨
          ((RSys.mk g ⟨.bound t, .start, [], out⟩).step ord (.read c)).rd.pc = .done ∧ ((RSys.mk g ⟨.bound t, .start, [], out⟩).step ord (.read c)).rd.out = some (.ok ())) := by
        unfold RSys.step Reader.step Reader.stepBound
        dsimp only
        by_cases ht : t ∈ g.sh.triples
        · rw [if_pos ht, if_pos ht]; exact ⟨rfl, Or.inl rfl⟩
        · rw [if_neg ht, if_neg ht]; exact ⟨rfl, Or.inr ⟨rfl, rfl⟩⟩
      obtain ⟨b1, b2⟩ := RSys.bound_rest (ord := ord) (s := (RSys.mk g ⟨.bound t, .start, [], out⟩).step ord (.read c)) (RSys.plan_step ord _ _) st.2 sched
      exact ⟨b2 hd, [], c, sched, rfl, b1.trans st.1⟩

/-- With subject, predicate and object all given, the reader never raises, whatever the other threads do: it gets the triple if it is in the graph at one moment of the reading,
    and nothing otherwise. -/
theorem C164_bound (sh : SharedGraph) (prog : Nat → List Act) (ord) (t : Tri) (hs : NonEmpty (some t.s)) (hp : NonEmpty (some t.p)) (ho : NonEmpty (some t.o)) (sched : List RStep)
    (hd : (readRun ord sh prog (some t.s) (some t.p) (some t.o) sched).rd.pc = .done) :
    (readRun ord sh prog (some t.s) (some t.p) (some t.o) sched).rd.out = some (.ok ()) ∧ ∃ pre c post, sched = pre ++ .read c :: post ∧
      (readRun ord sh prog (some t.s) (some t.p) (some t.o) sched).rd.got =
        if t.stmt ∈ (readRun ord sh prog (some t.s) (some t.p) (some t.o) pre).g.sh.triples then [t.stmt] else [] := by
  have e : Plan.of (arg (some t.s)) (arg (some t.p)) (arg (some t.o)) = .bound t.stmt := by
    have h1 : (arg (some t.s)).truthy = true := (Graph.truthy_iff _).2 (hs _ rfl)
    have h2 : (arg (some t.p)).truthy = true := (Graph.truthy_iff _).2 (hp _ rfl)
    have h3 : (arg (some t.o)).truthy = true := (Graph.truthy_iff _).2 (ho _ rfl)
    unfold Plan.of
    rw [h1, h2, h3]
    rfl
  exact RSys.bound_run (s := { g := GSys.start sh (fun i => (prog i).map Act.op), rd := { plan := Plan.of (arg (some t.s)) (arg (some t.p)) (arg (some t.o)) } }) e rfl rfl sched hd

/-- The triple is taken away before the reader looks, or after. -/
example : (readRun id (aloneRun .none [.add exT1] 16).sh (oneThread [.remove exT1]) (some exA) (some exB) (some exC) [.write 0, .read 0, .read 0]).rd.got = [] ∧
    (readRun id (aloneRun .none [.add exT1] 16).sh (oneThread [.remove exT1]) (some exA) (some exB) (some exC) [.read 0, .write 0, .read 0]).rd.got = [exT1.stmt] ∧
    (readRun id (aloneRun .none [.add exT1] 16).sh (oneThread [.remove exT1]) (some exA) (some exB) (some exC) [.read 0, .write 0, .read 0]).rd.pc = .done := by decide

end Verif
