import Verif.Lemmas.GraphReaderCalm
/-
A thread that reads a Graph while others add to it or remove from it, but not both in one dict it goes through.
-/
namespace Verif

open Spec

theorem Dict.keys_set_or {α β : Type} [DecidableEq α] (d : Dict α β) (k : α) (v : β) : (d.set k v).keys = d.keys ∨ d.length < (d.set k v).length := by
  induction d with
  | nil => exact Or.inr (by simp [Dict.set])
  | cons kv d ih =>
    obtain ⟨k', x⟩ := kv
    by_cases e : k' = k
    · left; simp [Dict.set, e, Dict.keys]
    · rcases ih with h | h
      · left
        simp only [Dict.set, e, if_false]
        show k' :: Dict.keys _ = k' :: Dict.keys d
        rw [h]
      · right; simp only [Dict.set, e, if_false, List.length_cons]; omega

theorem Dict.length_del_lt {α β : Type} [DecidableEq α] (d : Dict α β) (k : α) (h : d.has k = true) : (d.del k).length < d.length := by
  have hk : k ∈ d.keys := (Dict.mem_keys_iff d k).2 h
  have := Dict.length_del hk
  omega

/-- Each dict has the keys it had, or it has grown, or got smaller, as `dir` says; nothing is said of the dicts for which `dir` is none. -/
def Moves (dir : DRef → Option Bool) (sh sh' : SharedGraph) : Prop :=
  ∀ r, (sh'.heap r).keys = (sh.heap r).keys ∨ dir r = none ∨ (dir r = some true ∧ (sh.heap r).length < (sh'.heap r).length) ∨ (dir r = some false ∧ (sh'.heap r).length < (sh.heap r).length)

theorem Moves.of_heap {dir} {sh sh' : SharedGraph} (h : sh'.heap = sh.heap) : Moves dir sh sh' := fun r => Or.inl (by rw [h])

theorem Moves.put {dir : DRef → Option Bool} {sh sh' : SharedGraph} {x : DRef} {d : Dict Term DVal} (h : sh'.heap = (sh.put x d).heap)
    (hx : d.keys = (sh.heap x).keys ∨ dir x = none ∨ (dir x = some true ∧ (sh.heap x).length < d.length) ∨ (dir x = some false ∧ d.length < (sh.heap x).length)) : Moves dir sh sh' := by
  intro r
  rw [h, SharedGraph.heap_put]
  split
  · next e => subst e; exact hx
  · exact Or.inl rfl

theorem Moves.set {dir : DRef → Option Bool} {sh sh' : SharedGraph} {x : DRef} {k : Term} {v : DVal} (h : sh'.heap = (sh.put x ((sh.heap x).set k v)).heap)
    (hx : dir x = none ∨ dir x = some true) : Moves dir sh sh' := by
  refine .put h ?_
  rcases hx with hx | hx
  · exact Or.inr (Or.inl hx)
  · exact (Dict.keys_set_or _ _ _).imp id fun e => Or.inr (Or.inl ⟨hx, e⟩)

open Classical in
/-- For a reader of an index: its dicts of the first level only grow, and so do those of the second level to which a statement of `A` belongs; the others get smaller. -/
noncomputable def wayOf (A : Stmt → Prop) (w : Graph.Ix) (a : Term) (bo : Option Term) : DRef → Option Bool
  | .made (.root w') a' _ => if w' = w ∧ a' = a then some true else none
  | .made (.made (.root w') a' _) b' _ => if w' = w ∧ a' = a ∧ Fits bo b' then some (decide (∃ t, A t ∧ (w.keys t).1 = a ∧ (w.keys t).2.1 = b')) else none
  | _ => none

theorem wayOf_one {A w a bo m} : wayOf A w a bo (.made (.root w) a m) = some true := by simp [wayOf]

theorem wayOf_two {A w a bo m b m'} (h : Fits bo b) : wayOf A w a bo (.made (.made (.root w) a m) b m') ≠ none := by
  simp [wayOf, h]

/-- The calls under way: those that add are about statements of `A`, and those that remove are about others, and not from the same dict as those of `A`. -/
structure Parted (A Q : Stmt → Prop) (w : Graph.Ix) (a : Term) (bo : Option Term) (s : GSys) : Prop where
  adds : ∀ i t w', (s.threads i).pc.at = some (.add t, w') → A t
  removes : ∀ i t w', (s.threads i).pc.at = some (.remove t, w') → t.g = none ∧ ¬ Q t ∧
    ((w.keys t).1 = a → Fits bo (w.keys t).2.1 → ∀ t', A t' → (w.keys t').1 = a → (w.keys t').2.1 ≠ (w.keys t).2.1)

theorem Moves.step {A Q : Stmt → Prop} {w : Graph.Ix} {a : Term} {bo : Option Term} {s : GSys} (hs : s.Shaped) (hu : Unborn s.sh) (ha : Parted A Q w a bo s) (i : Nat) :
    Moves (wayOf A w a bo) s.sh (s.step i).sh := by
  show Moves _ s.sh (s.sh.step (s.threads i)).1
  have hp := hs.pcs i
  cases Wrote.step hu (s.threads i) with
  | nothing e => exact .of_heap e
  | store1 op w r _ e => exact .set e (Or.inl rfl)
  | store2 op w' cur r e1 e =>
    rw [e1] at hp
    obtain ⟨⟨m1, _, rfl⟩, -⟩ := hp
    refine .set e ?_
    simp only [wayOf]
    split
    · exact Or.inr rfl
    · exact Or.inl rfl
  | add t w' cur e1 e =>
    have hA := ha.adds i t w' (by rw [e1]; rfl)
    rw [e1] at hp
    obtain ⟨m1, _, m2, _, rfl⟩ := hp
    refine .set e ?_
    simp only [wayOf]
    split
    · next h =>
      obtain ⟨rfl, h2, -⟩ := h
      refine Or.inr (congrArg some (@decide_eq_true _ (_) ⟨t, hA, h2, rfl⟩))
    · exact Or.inl rfl
  | remove t w' cur e1 e2 e =>
    obtain ⟨-, -, hR⟩ := ha.removes i t w' (by rw [e1]; rfl)
    rw [e1] at hp
    obtain ⟨m1, _, m2, _, rfl⟩ := hp
    refine .put e (Or.inr ?_)
    simp only [wayOf]
    split
    · next h =>
      obtain ⟨rfl, h2, h3⟩ := h
      refine Or.inr (Or.inr ⟨congrArg some (@decide_eq_false _ (_) ?_), Dict.length_del_lt _ _ e2⟩)
      rintro ⟨t', h4, h5, h6⟩
      exact hR h2 h3 t' h4 h5 h6
    · exact Or.inl rfl

theorem SharedGraph.step_store2 {sh : SharedGraph} {th : GThread} {op : ThOp} {w : Graph.Ix} {cur r : DRef} (h : (sh.step th).2.pc = .store2 op w cur r) :
    (sh.heap cur).get? (w.keys op.stmt).2.1 = none := by
  have adv : ∀ (th : GThread) op' w', (th.advance op' w').pc ≠ .store2 op w cur r := by
    intro th op' w' e
    cases w' <;> simp [GThread.advance, Graph.Ix.after, GThread.finish] at e
  obtain ⟨pc, todo, outs⟩ := th
  cases pc with
  | idle =>
    cases todo with
    | nil => cases h
    | cons op' todo =>
      cases op' with
      | add t => cases h
      | remove t => simp only [SharedGraph.step] at h; split at h <;> cases h
  | look1 op' w' => simp only [SharedGraph.step] at h; split at h <;> cases h
  | store1 op' w' r => cases h
  | look2 op' w' cur =>
    simp only [SharedGraph.step] at h
    split at h
    · cases h
    · cases h
    · next e => cases h; exact e
  | store2 op' w' cur r => cases h
  | last op' w' cur =>
    cases op' with
    | add t => exact absurd h (adv _ _ _)
    | remove t =>
      simp only [SharedGraph.step] at h
      split at h
      · exact absurd h (adv _ _ _)
      · cases h

/-- What was in the index in `sh0` is there; of the statements, those of `Q`. -/
structure Kept (Q : Stmt → Prop) (sh0 : SharedGraph) (w : Graph.Ix) (s : GSys) : Prop where
  root : ∀ a v, (sh0.heap (.root w)).get? a = some v → (s.sh.heap (.root w)).get? a = some v ∧ ∀ i op r, (s.threads i).pc = .store1 op w r → (w.keys op.stmt).1 ≠ a
  mid : ∀ a m b v, (sh0.heap (.made (.root w) a m)).get? b = some v →
    (s.sh.heap (.made (.root w) a m)).get? b = some v ∧ ∀ i op r, (s.threads i).pc = .store2 op w (.made (.root w) a m) r → (w.keys op.stmt).2.1 ≠ b
  leaf : ∀ a m b m' c t, Q t → (sh0.heap (.made (.made (.root w) a m) b m')).get? c = some (.stmt t) → (s.sh.heap (.made (.made (.root w) a m) b m')).get? c = some (.stmt t)

theorem Kept.write {Q : Stmt → Prop} {sh0 : SharedGraph} {w : Graph.Ix} {s : GSys} {P : Stmt → Prop} (hP : ∀ t, P t → t.g = none) (h : Kept Q sh0 w s) (hs : s.Shaped) (hu : Unborn s.sh)
    (hf : s.From P) (ha : ∀ i t w', (s.threads i).pc.at = some (.remove t, w') → t.g = none ∧ ¬ Q t) (i : Nat) : Kept Q sh0 w (s.step i) := by
  have hp := hs.pcs i
  have wr := Wrote.step hu (s.threads i)
  have e0 : (s.step i).sh = (s.sh.step (s.threads i)).1 := rfl
  refine ⟨fun a v hv => ⟨?_, fun j op r hj => ?_⟩, fun a m b v hv => ⟨?_, fun j op r hj => ?_⟩, fun a m b m' c t hq hv => ?_⟩
  · rw [e0]
    have h1 := (h.root a v hv).1
    cases wr with
    | nothing e => rwa [e]
    | store1 op w' r e1 e =>
      rw [e, SharedGraph.heap_put]
      split
      · next e' =>
        cases e'
        rw [Dict.get?_set, if_neg ((h.root a v hv).2 i op r e1)]
        exact h1
      · exact h1
    | store2 op w' cur r e1 e => rw [e1] at hp; obtain ⟨⟨m1, _, rfl⟩, -⟩ := hp; rwa [e, SharedGraph.heap_put, if_neg (by simp)]
    | add t w' cur e1 e => rw [e1] at hp; obtain ⟨m1, _, m2, _, rfl⟩ := hp; rwa [e, SharedGraph.heap_put, if_neg (by simp)]
    | remove t w' cur e1 _ e => rw [e1] at hp; obtain ⟨m1, _, m2, _, rfl⟩ := hp; rwa [e, SharedGraph.heap_put, if_neg (by simp)]
  · by_cases ej : j = i
    · subst ej
      rw [GSys.step_self] at hj
      have := SharedGraph.step_store1 hj
      intro e
      rw [e, (h.root a v hv).1] at this
      cases this
    · rw [GSys.step_other s ej] at hj; exact (h.root a v hv).2 j op r hj
  · rw [e0]
    have h1 := (h.mid a m b v hv).1
    cases wr with
    | nothing e => rwa [e]
    | store1 op w' r e1 e => rwa [e, SharedGraph.heap_put, if_neg (by simp)]
    | store2 op w' cur r e1 e =>
      rw [e, SharedGraph.heap_put]
      split
      · next e' =>
        subst e'
        have hp' := hp
        rw [e1] at hp'
        obtain ⟨⟨m1, _, e2⟩, -⟩ := hp'
        cases e2
        rw [Dict.get?_set, if_neg ((h.mid _ m b v hv).2 i op r e1)]
        exact h1
      · exact h1
    | add t w' cur e1 e => rw [e1] at hp; obtain ⟨m1, _, m2, _, rfl⟩ := hp; rwa [e, SharedGraph.heap_put, if_neg (by simp)]
    | remove t w' cur e1 _ e => rw [e1] at hp; obtain ⟨m1, _, m2, _, rfl⟩ := hp; rwa [e, SharedGraph.heap_put, if_neg (by simp)]
  · by_cases ej : j = i
    · subst ej
      rw [GSys.step_self] at hj
      have := SharedGraph.step_store2 hj
      intro e
      rw [e, (h.mid a m b v hv).1] at this
      cases this
    · rw [GSys.step_other s ej] at hj; exact (h.mid a m b v hv).2 j op r hj
  · rw [e0]
    have h1 := h.leaf a m b m' c t hq hv
    cases wr with
    | nothing e => rwa [e]
    | store1 op w' r e1 e => rwa [e, SharedGraph.heap_put, if_neg (by simp)]
    | store2 op w' cur r e1 e => rw [e1] at hp; obtain ⟨⟨m1, _, rfl⟩, -⟩ := hp; rwa [e, SharedGraph.heap_put, if_neg (by simp)]
    | add t' w' cur e1 e =>
      rw [e1] at hp
      obtain ⟨m1, _, m2, _, rfl⟩ := hp
      rw [e, SharedGraph.heap_put]
      split
      · next e' =>
        cases e'
        rw [Dict.get?_set]
        split
        · next e2 =>
          have k1 := hs.heap.placed _ _ _ h1
          have k1 : w.keys t = _ := k1
          have : t' = t := keys_inj (hP _ (hf.cur i t' w (by rw [e1]; rfl))) (hP _ (hf.heap _ _ _ h1)) (w := w) (by rw [k1, ← e2]; rfl)
          rw [this]
        · exact h1
      · exact h1
    | remove t' w' cur e1 _ e =>
      rw [e1] at hp
      obtain ⟨m1, _, m2, _, rfl⟩ := hp
      rw [e, SharedGraph.heap_put]
      split
      · next e' =>
        cases e'
        rw [Dict.get?_del (hs.heap.wf _)]
        split
        · next e2 =>
          have k1 := hs.heap.placed _ _ _ h1
          have k1 : w.keys t = _ := k1
          obtain ⟨q1, q2⟩ := ha i t' w (by rw [e1]; rfl)
          have : t' = t := keys_inj q1 (hP _ (hf.heap _ _ _ h1)) (w := w) (by rw [k1, ← e2]; rfl)
          exact absurd hq (this ▸ q2)
        · exact h1
      · exact h1

/-! ### The reader -/

/-- If keys have come or gone, the loop will find out. -/
def DIter.Mono (dir : DRef → Option Bool) (sh : SharedGraph) (it : DIter) : Prop :=
  dir it.r ≠ none ∧ (it.dirty = true → (dir it.r = some true ∧ it.size < (sh.heap it.r).length) ∨ (dir it.r = some false ∧ (sh.heap it.r).length < it.size))

def OutMono (dir : DRef → Option Bool) (sh : SharedGraph) : Option DIter → Prop
  | none => True
  | some it => it.Mono dir sh

def PcMono (dir : DRef → Option Bool) (sh : SharedGraph) : RPc → Prop
  | .outer it => it.Mono dir sh
  | .get1 _ out | .get2 _ _ out | .made2 _ _ _ out | .inner0 _ out => OutMono dir sh out
  | .inner it out => it.Mono dir sh ∧ OutMono dir sh out
  | _ => True

/-- The key is still to come in this loop, if nothing happens to it. -/
def DIter.Has (k : Term) (it : DIter) : Prop := k ∈ it.rest ∨ it.dirty = true

def OutHas (k : Term) : Option DIter → Prop
  | none => False
  | some it => it.Has k

/-- A statement that is in the index in `sh0`, and where. -/
structure Chain (sh0 : SharedGraph) (w : Graph.Ix) (a b c : Term) (r1 r2 : DRef) (t : Stmt) : Prop where
  root : (sh0.heap (.root w)).get? a = some (.dict r1)
  mid : (sh0.heap r1).get? b = some (.dict r2)
  leaf : (sh0.heap r2).get? c = some (.stmt t)

/-- The reader has got the statement or will come by it. -/
def Coming (b c : Term) (r1 r2 : DRef) (t : Stmt) (rd : Reader) : Prop :=
  match rd.pc with
  | .test2in r | .outer1 r => r = r1
  | .outer it => t ∈ rd.got ∨ it.Has b
  | .get1 b' out => t ∈ rd.got ∨ b' = b ∨ OutHas b out
  | .get2 b' r out => r = r1 ∧ (t ∈ rd.got ∨ b' = b ∨ OutHas b out)
  | .made2 _ _ _ out => t ∈ rd.got ∨ OutHas b out
  | .inner0 r out => t ∈ rd.got ∨ r = r2 ∨ OutHas b out
  | .inner it out => t ∈ rd.got ∨ (it.r = r2 ∧ it.Has c) ∨ OutHas b out
  | .done => rd.out = some (.ok ()) → t ∈ rd.got
  | _ => True

/-- The keys to come in the loop are those of no statement got. -/
def FreshIt (w : Graph.Ix) (got : List Stmt) (it : DIter) : Prop := it.dirty = false → it.rest.Nodup ∧ ∀ x ∈ got, (w.keys x).2.1 ∉ it.rest

def FreshOut (w : Graph.Ix) (got : List Stmt) (b' : Term) : Option DIter → Prop
  | none => True
  | some it => FreshIt w got it ∧ (it.dirty = false → b' ∉ it.rest)

/-- No statement comes twice. -/
def NoRepeat (w : Graph.Ix) (a : Term) (rd : Reader) : Prop :=
  rd.got.Nodup ∧ match rd.pc with
  | .outer it => FreshIt w rd.got it
  | .get1 b' out | .get2 b' _ out => (∀ x ∈ rd.got, (w.keys x).2.1 ≠ b') ∧ FreshOut w rd.got b' out
  | .made2 b' r1 r2 out => (∀ x ∈ rd.got, (w.keys x).2.1 ≠ b') ∧ FreshOut w rd.got b' out ∧ (∃ m, r1 = .made (.root w) a m) ∧ ∃ m, r2 = .made r1 b' m
  | .inner0 r2 out => ∃ m b' m', r2 = .made (.made (.root w) a m) b' m' ∧ (∀ x ∈ rd.got, (w.keys x).2.1 ≠ b') ∧ FreshOut w rd.got b' out
  | .inner it out => ∃ m b' m', it.r = .made (.made (.root w) a m) b' m' ∧ FreshOut w rd.got b' out ∧
      (it.dirty = false → it.rest.Nodup ∧ ∀ x ∈ rd.got, (w.keys x).2.1 = b' → (w.keys x).2.2 ∉ it.rest)
  | .done => True
  | .set .. | .after => False
  | _ => rd.got = []

/-- The reader, if the changes go one way in each dict it goes through. -/
structure OneWay (A Q : Stmt → Prop) (sh0 : SharedGraph) (w : Graph.Ix) (a : Term) (bo : Option Term) (sh : SharedGraph) (rd : Reader) : Prop where
  made : ∀ b' r1 r2 out, rd.pc = .made2 b' r1 r2 out → (sh0.heap r1).get? b' = none
  mono : PcMono (wayOf A w a bo) sh rd.pc
  once : NoRepeat w a rd
  coming : ∀ b c r1 r2 t, Fits bo b → Q t → Chain sh0 w a b c r1 r2 t → Coming b c r1 r2 t rd

theorem DIter.Mono.touch {dir} {sh sh' : SharedGraph} (g : Moves dir sh sh') {it : DIter} (ok : it.Ok sh) (h : it.Mono dir sh) : (it.touch sh sh').Mono dir sh' := by
  refine ⟨h.1, fun hd => ?_⟩
  show (dir it.r = some true ∧ it.size < (sh'.heap it.r).length) ∨ (dir it.r = some false ∧ (sh'.heap it.r).length < it.size)
  have hd : (it.dirty || decide ((sh'.heap it.r).keys ≠ (sh.heap it.r).keys)) = true := hd
  have hl : (sh'.heap it.r).keys = (sh.heap it.r).keys → (sh'.heap it.r).length = (sh.heap it.r).length := by
    intro e
    have := congrArg List.length e
    simpa only [Dict.keys, List.length_map] using this
  cases e : it.dirty with
  | true =>
    rcases h.2 e with ⟨h1, h2⟩ | ⟨h1, h2⟩ <;> rcases g it.r with g1 | g1 | ⟨g1, g2⟩ | ⟨g1, g2⟩
    · exact Or.inl ⟨h1, by rw [hl g1]; exact h2⟩
    · exact absurd g1 h.1
    · exact Or.inl ⟨h1, h2.trans g2⟩
    · rw [h1] at g1; cases g1
    · exact Or.inr ⟨h1, by rw [hl g1]; exact h2⟩
    · exact absurd g1 h.1
    · rw [h1] at g1; cases g1
    · exact Or.inr ⟨h1, g2.trans h2⟩
  | false =>
    rw [e] at hd
    have hne : (sh'.heap it.r).keys ≠ (sh.heap it.r).keys := by simpa using hd
    rcases g it.r with g1 | g1 | g1 | g1
    · exact absurd g1 hne
    · exact absurd g1 h.1
    · exact Or.inl (by rw [(ok e).1]; exact g1)
    · exact Or.inr (by rw [(ok e).1]; exact g1)

/-- The loops of the reader. -/
def OutItOk (sh : SharedGraph) : Option DIter → Prop
  | none => True
  | some it => it.Ok sh

def ItOk (sh : SharedGraph) : RPc → Prop
  | .outer it => it.Ok sh
  | .get1 _ out | .get2 _ _ out | .made2 _ _ _ out | .inner0 _ out => OutItOk sh out
  | .inner it out => it.Ok sh ∧ OutItOk sh out
  | _ => True

theorem OutOk.it {sh : SharedGraph} {w : Graph.Ix} {a : Term} {b : Option Term} {out : Option DIter} (h : OutOk sh w a b out) : OutItOk sh out := by
  cases out with
  | none => trivial
  | some it => exact h.2.1

theorem RdIn.it {sh : SharedGraph} {w : Graph.Ix} {a : Term} {b : Option Term} {pc : RPc} (ok : RdIn sh w a b pc) : ItOk sh pc := by
  cases pc with
  | outer it => exact ok.2.2.1
  | get1 b' out => exact ok.2.2.it
  | get2 b' r1 out => exact ok.2.2.1.it
  | made2 b' r1 r2 out => exact ok.2.2.1.it
  | inner0 r2 out => exact ok.2.1.it
  | inner it out => exact ⟨ok.2.2.1, ok.2.1.it⟩
  | _ => trivial

theorem OutMono.touch {dir} {sh sh' : SharedGraph} (g : Moves dir sh sh') {out : Option DIter} (ok : OutItOk sh out) (h : OutMono dir sh out) :
    OutMono dir sh' (out.map (DIter.touch sh sh')) := by
  cases out with
  | none => trivial
  | some it => exact DIter.Mono.touch g ok h

theorem PcMono.touch {dir} {sh sh' : SharedGraph} (g : Moves dir sh sh') {pc : RPc} (ok : ItOk sh pc) (h : PcMono dir sh pc) : PcMono dir sh' (pc.touch sh sh') := by
  cases pc with
  | outer it => exact DIter.Mono.touch g ok h
  | get1 b' out => exact OutMono.touch g ok h
  | get2 b' r1 out => exact OutMono.touch g ok h
  | made2 b' r1 r2 out => exact OutMono.touch g ok h
  | inner0 r2 out => exact OutMono.touch g ok h
  | inner it out => exact ⟨DIter.Mono.touch g ok.1 h.1, OutMono.touch g ok.2 h.2⟩
  | _ => trivial

theorem DIter.Has.touch {sh sh' : SharedGraph} {it : DIter} {k : Term} (h : it.Has k) : (it.touch sh sh').Has k := by
  rcases h with h | h
  · exact Or.inl h
  · right; show (it.dirty || _) = true; rw [h]; rfl

theorem OutHas.touch {sh sh' : SharedGraph} {out : Option DIter} {k : Term} (h : OutHas k out) : OutHas k (out.map (DIter.touch sh sh')) := by
  cases out with
  | none => exact h
  | some it => exact DIter.Has.touch h

theorem DIter.clean_touch {sh sh' : SharedGraph} {it : DIter} (h : (it.touch sh sh').dirty = false) : it.dirty = false := by
  have h : (it.dirty || _) = false := h
  cases e : it.dirty with
  | false => rfl
  | true => rw [e] at h; cases h

theorem FreshIt.touch {sh sh' : SharedGraph} {w : Graph.Ix} {got : List Stmt} {it : DIter} (h : FreshIt w got it) : FreshIt w got (it.touch sh sh') := fun e => h (DIter.clean_touch e)

theorem FreshOut.touch {sh sh' : SharedGraph} {w : Graph.Ix} {got : List Stmt} {b' : Term} {out : Option DIter} (h : FreshOut w got b' out) : FreshOut w got b' (out.map (DIter.touch sh sh')) := by
  cases out with
  | none => trivial
  | some it => exact ⟨h.1.touch, fun e => h.2 (DIter.clean_touch e)⟩

theorem OneWay.touch {A Q : Stmt → Prop} {sh0 sh sh' : SharedGraph} {w : Graph.Ix} {a : Term} {b : Option Term} (g : Moves (wayOf A w a b) sh sh') {rd : Reader} (ok : ItOk sh rd.pc) (h : OneWay A Q sh0 w a b sh rd) :
    OneWay A Q sh0 w a b sh' { rd with pc := rd.pc.touch sh sh' } := by
  obtain ⟨plan, pc, got, out⟩ := rd
  obtain ⟨h1, h2, h3, h4⟩ := h
  refine ⟨?_, PcMono.touch g ok h2, ⟨h3.1, ?_⟩, fun b c r1 r2 t hb hq hc => ?_⟩
  · intro b' r1 r2 o e
    cases pc <;> cases e
    exact h1 _ _ _ _ rfl
  · have h3 := h3.2
    cases pc with
    | outer it => exact FreshIt.touch h3
    | get1 b' out => exact ⟨h3.1, h3.2.touch⟩
    | get2 b' r1 out => exact ⟨h3.1, h3.2.touch⟩
    | made2 b' r1 r2 out => exact ⟨h3.1, h3.2.1.touch, h3.2.2⟩
    | inner0 r2 out => obtain ⟨m, b', m', e, h5, h6⟩ := h3; exact ⟨m, b', m', e, h5, h6.touch⟩
    | inner it out => obtain ⟨m, b', m', e, h5, h6⟩ := h3; exact ⟨m, b', m', e, h5.touch, fun e => h6 (DIter.clean_touch e)⟩
    | _ => exact h3
  · have h4 := h4 b c r1 r2 t hb hq hc
    cases pc with
    | outer it => exact h4.imp id DIter.Has.touch
    | get1 b' out => exact h4.imp id (Or.imp id OutHas.touch)
    | get2 b' r1 out => exact ⟨h4.1, h4.2.imp id (Or.imp id OutHas.touch)⟩
    | made2 b' r1 r2 out => exact h4.imp id OutHas.touch
    | inner0 r2 out => exact h4.imp id (Or.imp id OutHas.touch)
    | inner it out => exact h4.imp id (Or.imp (And.imp id DIter.Has.touch) OutHas.touch)
    | _ => exact h4

/-- The next step of a loop over such a dict. -/
theorem DIter.Mono.next {dir} {sh : SharedGraph} {it : DIter} (ok : it.Ok sh) (h : it.Mono dir sh) (c : Nat) :
    (it.dirty = true ∧ it.next sh c = .error .runtimeError) ∨
      (it.dirty = false ∧ it.next sh c = match it.rest with | [] => .ok none | k :: rest => .ok (some (k, { it with rest }))) := by
  unfold DIter.next
  dsimp only
  cases e : it.dirty with
  | true => exact Or.inl ⟨rfl, by rw [if_pos (by rcases h.2 e with ⟨-, h⟩ | ⟨-, h⟩ <;> omega)]⟩
  | false =>
    refine Or.inr ⟨rfl, ?_⟩
    rw [if_neg (by simp [(ok e).1]), if_neg (by simp)]
    rcases it.rest with _ | ⟨k, rest⟩ <;> rfl


theorem Reader.stepIn_moves {A : Stmt → Prop} {sh : SharedGraph} (hu : Unborn sh) (c : Nat) {rd : Reader} {w : Graph.Ix} {a : Term} {b : Option Term} (ri : RdIn sh w a b rd.pc) :
    Moves (wayOf A w a b) sh (rd.stepIn sh c w a b).1 := by
  obtain ⟨plan, pc, got, out⟩ := rd
  cases pc with
  | made2 b' r1 r2 o =>
    obtain ⟨m0, -, e1⟩ := ri.2.2.2.1
    subst e1
    exact .set rfl (Or.inr wayOf_one)
  | _ => simp only [Reader.stepIn] <;> (repeat' split) <;> first | exact .of_heap rfl | exact .of_heap (hu.newDict _ _).2

theorem Kept.read {Q : Stmt → Prop} {sh0 : SharedGraph} {w : Graph.Ix} {a : Term} {b : Option Term} {s : GSys} (h : Kept Q sh0 w s) (hu : Unborn s.sh) (c : Nat) {rd : Reader} (ri : RdIn s.sh w a b rd.pc)
    (hm : ∀ b' r1 r2 out, rd.pc = .made2 b' r1 r2 out → (sh0.heap r1).get? b' = none) : Kept Q sh0 w { s with sh := (rd.stepIn s.sh c w a b).1 } := by
  have same : ∀ sh', sh'.heap = s.sh.heap → Kept Q sh0 w { s with sh := sh' } := by
    intro sh' e
    refine ⟨fun a v hv => ?_, fun a m b v hv => ?_, fun a m b m' c t hq hv => ?_⟩
    · show (sh'.heap _).get? _ = _ ∧ _; rw [e]; exact h.root a v hv
    · show (sh'.heap _).get? _ = _ ∧ _; rw [e]; exact h.mid a m b v hv
    · show (sh'.heap _).get? _ = _; rw [e]; exact h.leaf a m b m' c t hq hv
  obtain ⟨plan, pc, got, out⟩ := rd
  cases pc with
  | made2 b' r1 r2 o =>
    obtain ⟨m0, -, e1⟩ := ri.2.2.2.1
    have hn := hm b' r1 r2 o rfl
    subst e1
    refine ⟨fun a v hv => ⟨?_, (h.root a v hv).2⟩, fun a' m b v hv => ⟨?_, (h.mid a' m b v hv).2⟩, fun a m b m' c t hq hv => ?_⟩
    · show ((s.sh.put _ _).heap _).get? _ = _
      rw [SharedGraph.heap_put, if_neg (by simp)]
      exact (h.root a v hv).1
    · show ((s.sh.put _ _).heap _).get? _ = _
      rw [SharedGraph.heap_put]
      split
      · next e =>
        cases e
        rw [Dict.get?_set, if_neg (by intro e; subst e; rw [hn] at hv; cases hv)]
        exact (h.mid _ _ b v hv).1
      · exact (h.mid a' m b v hv).1
    · show ((s.sh.put _ _).heap _).get? _ = _
      rw [SharedGraph.heap_put, if_neg (by simp)]
      exact h.leaf a m b m' c t hq hv
  | _ =>
    apply same
    simp only [Reader.stepIn] <;> (repeat' split) <;> first | rfl | exact (hu.newDict _ _).2

theorem nodup_concat {α : Type} {l : List α} {x : α} (h : l.Nodup) (hx : x ∉ l) : (l ++ [x]).Nodup := by
  rw [List.nodup_append]
  exact ⟨h, by simp, by rintro y hy z hz rfl; rw [List.mem_singleton] at hz; exact hx (hz ▸ hy)⟩

theorem OneWay.read {A Q : Stmt → Prop} {sh0 : SharedGraph} (hS0 : Shape sh0) {w : Graph.Ix} {a : Term} {bo : Option Term} {s : GSys} (k : Kept Q sh0 w s) (hS : Shape s.sh) (c : Nat) {rd : Reader}
    (ri : RdIn s.sh w a bo rd.pc) (he : Ended rd.out) (h : OneWay A Q sh0 w a bo s.sh rd) :
    ItOk s.sh (rd.stepIn s.sh c w a bo).2.pc ∧ OneWay A Q sh0 w a bo s.sh (rd.stepIn s.sh c w a bo).2 := by
  obtain ⟨plan, pc, got, out⟩ := rd
  obtain ⟨h1, h2, ⟨h3, h4⟩, h5⟩ := h
  have h3 : got.Nodup := h3
  cases pc with
  | start => exact ⟨trivial, ⟨fun _ _ _ _ e => (by cases e), trivial, ⟨h3, h4⟩, fun _ _ _ _ _ _ _ _ => trivial⟩⟩
  | test1 =>
    simp only [Reader.stepIn]
    split
    · split
      · exact ⟨trivial, ⟨fun _ _ _ _ e => (by cases e), trivial, ⟨h3, h4⟩, fun _ _ _ _ _ _ _ _ => trivial⟩⟩
      · exact ⟨trivial, ⟨fun _ _ _ _ e => (by cases e), trivial, ⟨h3, h4⟩, fun _ _ _ _ _ _ _ _ => trivial⟩⟩
    · next hh =>
      refine ⟨trivial, ⟨fun _ _ _ _ e => (by cases e), trivial, ⟨h3, trivial⟩, fun b c r1 r2 t hb hq hc => ?_⟩⟩
      exact absurd (by simp [Dict.has, (k.root _ _ hc.root).1]) hh
  | test2 =>
    simp only [Reader.stepIn]
    split
    · next r1 e =>
      refine ⟨trivial, ⟨fun _ _ _ _ e => (by cases e), trivial, ⟨h3, h4⟩, fun b c r1' r2 t hb hq hc => ?_⟩⟩
      rw [(k.root _ _ hc.root).1] at e
      cases e; rfl
    · exact ⟨trivial, ⟨fun _ _ _ _ e => (by cases e), trivial, ⟨h3, trivial⟩, fun b c r1' r2 t hb hq hc e => (by cases e)⟩⟩
  | test2in r1 =>
    cases bo with
    | none => exact absurd ri.1 (by simp)
    | some b0 =>
      simp only [Reader.stepIn]
      have hg : got = [] := h4
      split
      · refine ⟨trivial, ⟨fun _ _ _ _ e => (by cases e), trivial, ⟨h3, ?_, trivial⟩, fun b c r1' r2 t hb hq hc => ?_⟩⟩
        · show ∀ x ∈ got, _; rw [hg]; simp
        · exact Or.inr (Or.inl (hb b0 rfl).symm)
      · next hh =>
        refine ⟨trivial, ⟨fun _ _ _ _ e => (by cases e), trivial, ⟨h3, trivial⟩, fun b c r1' r2 t hb hq hc => ?_⟩⟩
        have e1 : r1 = r1' := h5 b c r1' r2 t hb hq hc
        subst e1
        obtain ⟨m, -, e2⟩ := ri.2.2
        subst e2
        have := hb b0 rfl
        subst this
        exact absurd (by simp [Dict.has, (k.mid _ _ _ _ hc.mid).1]) hh
  | outer0 =>
    simp only [Reader.stepIn]
    split
    · next r1 e =>
      refine ⟨trivial, ⟨fun _ _ _ _ e => (by cases e), trivial, ⟨h3, h4⟩, fun b c r1' r2 t hb hq hc => ?_⟩⟩
      rw [(k.root _ _ hc.root).1] at e
      cases e; rfl
    · exact ⟨trivial, ⟨fun _ _ _ _ e => (by cases e), trivial, ⟨h3, trivial⟩, fun b c r1' r2 t hb hq hc e => (by cases e)⟩⟩
  | outer1 r1 =>
    have hg : got = [] := h4
    have hw : wayOf A w a bo r1 ≠ none := by
      obtain ⟨m, -, e2⟩ := ri.2.2
      rw [e2, wayOf_one]; exact fun e => (by cases e)
    refine ⟨SharedGraph.iterDict_ok _ _, ⟨fun _ _ _ _ e => (by cases e), ⟨hw, fun e => (by cases e)⟩, ⟨h3, fun _ => ⟨hS.wf r1, ?_⟩⟩, fun b c r1' r2 t hb hq hc => ?_⟩⟩
    · show ∀ x ∈ got, _; rw [hg]; simp
    · have e1 : r1 = r1' := h5 b c r1' r2 t hb hq hc
      subst e1
      obtain ⟨m, -, e2⟩ := ri.2.2
      subst e2
      refine Or.inr (Or.inl ?_)
      show b ∈ (s.sh.heap _).keys
      by_contra hn
      have := (k.mid _ _ _ _ hc.mid).1
      rw [(Dict.get?_eq_none_iff _ _).2 hn] at this
      cases this
  | outer it =>
    have h2 : it.Mono (wayOf A w a bo) s.sh := h2
    have ok := ri.2.2.1
    have h4 : FreshIt w got it := h4
    simp only [Reader.stepIn]
    rcases h2.next ok c with ⟨-, e⟩ | ⟨hd, e⟩
    · rw [e]
      exact ⟨trivial, ⟨fun _ _ _ _ e => (by cases e), trivial, ⟨h3, trivial⟩, fun b c r1' r2 t hb hq hc e => (by cases e)⟩⟩
    · rw [e]
      obtain ⟨r, size, rest, dirty⟩ := it
      cases rest with
      | nil =>
        refine ⟨trivial, ⟨fun _ _ _ _ e => (by cases e), trivial, ⟨h3, trivial⟩, fun b c r1' r2 t hb hq hc _ => ?_⟩⟩
        rcases h5 b c r1' r2 t hb hq hc with h | h | h
        · exact h
        · cases h
        · rw [hd] at h; cases h
      | cons x rest =>
        obtain ⟨n1, n2⟩ := h4 hd
        have n1 : (x :: rest).Nodup := n1
        refine ⟨fun _ => ⟨(ok hd).1, (List.suffix_cons x rest).trans (ok hd).2⟩, ⟨fun _ _ _ _ e => (by cases e), ⟨h2.1, fun e => (by rw [show dirty = false from hd] at e; cases e)⟩, ⟨h3, fun y hy e => ?_,
          fun _ => ⟨(List.nodup_cons.1 n1).2, fun y hy e => n2 y hy (List.mem_cons_of_mem _ e)⟩, fun _ => (List.nodup_cons.1 n1).1⟩, fun b c r1' r2 t hb hq hc => ?_⟩⟩
        · exact n2 y hy (by rw [e]; exact List.mem_cons_self ..)
        · rcases h5 b c r1' r2 t hb hq hc with h | h | h
          · exact Or.inl h
          · rcases List.mem_cons.1 h with h | h
            · exact Or.inr (Or.inl h.symm)
            · exact Or.inr (Or.inr (Or.inl h))
          · exact Or.inr (Or.inr (Or.inr h))
  | get1 b' o =>
    simp only [Reader.stepIn]
    split
    · next r1 e =>
      refine ⟨ri.2.2.it, ⟨fun _ _ _ _ e => (by cases e), h2, ⟨h3, h4⟩, fun b c r1' r2 t hb hq hc => ?_⟩⟩
      rw [(k.root _ _ hc.root).1] at e
      cases e
      exact ⟨rfl, h5 b c _ r2 t hb hq hc⟩
    · exact ⟨trivial, ⟨fun _ _ _ _ e => (by cases e), trivial, ⟨h3, trivial⟩, fun b c r1' r2 t hb hq hc e => (by cases e)⟩⟩
  | get2 b' r1 o =>
    obtain ⟨m1, -, em⟩ := ri.2.2.2
    simp only [Reader.stepIn]
    split
    · next r2 e =>
      have pl := hS.placed _ _ _ e
      rw [em] at pl
      obtain ⟨m', -, e2⟩ := pl
      refine ⟨ri.2.2.1.it, ⟨fun _ _ _ _ e => (by cases e), h2, ⟨h3, m1, b', m', e2, h4⟩, fun b c r1' r2' t hb hq hc => ?_⟩⟩
      obtain ⟨e1, h6⟩ := h5 b c r1' r2' t hb hq hc
      have e1 : r1 = r1' := e1
      subst e1
      rcases h6 with h6 | h6 | h6
      · exact Or.inl h6
      · subst h6
        subst em
        rw [(k.mid _ _ _ _ hc.mid).1] at e
        cases e
        exact Or.inr (Or.inl rfl)
      · exact Or.inr (Or.inr h6)
    · exact ⟨trivial, ⟨fun _ _ _ _ e => (by cases e), trivial, ⟨h3, trivial⟩, fun b c r1' r2 t hb hq hc e => (by cases e)⟩⟩
    · next e =>
      have hn : (sh0.heap r1).get? b' = none := by
        cases hv : (sh0.heap r1).get? b' with
        | none => rfl
        | some v => subst em; rw [(k.mid _ _ _ _ hv).1] at e; cases e
      refine ⟨ri.2.2.1.it, ⟨fun _ _ _ _ e => (by cases e; exact hn), h2, ⟨h3, h4.1, h4.2, ⟨m1, em⟩, _, rfl⟩, fun b c r1' r2' t hb hq hc => ?_⟩⟩
      obtain ⟨e1, h6⟩ := h5 b c r1' r2' t hb hq hc
      have e1 : r1 = r1' := e1
      subst e1
      rcases h6 with h6 | h6 | h6
      · exact Or.inl h6
      · subst h6
        rw [hc.mid] at hn
        cases hn
      · exact Or.inr h6
  | made2 b' r1 r2 o =>
    obtain ⟨n1, n2, ⟨m, em⟩, m', em'⟩ := h4
    subst em
    exact ⟨ri.2.2.1.it, ⟨fun _ _ _ _ e => (by cases e), h2, ⟨h3, m, b', m', em', n1, n2⟩, fun b c r1' r2' t hb hq hc => (h5 b c r1' r2' t hb hq hc).imp id Or.inr⟩⟩
  | inner0 r2 o =>
    obtain ⟨m, b', m', em, n1, n2⟩ := h4
    have hw : wayOf A w a bo r2 ≠ none := by
      obtain ⟨b2, f2, m2, -, m3, -, e2⟩ := ri.2.2
      rw [e2]; exact wayOf_two f2
    refine ⟨⟨SharedGraph.iterDict_ok _ _, ri.2.1.it⟩, ⟨fun _ _ _ _ e => (by cases e), ⟨⟨hw, fun e => (by cases e)⟩, h2⟩, ⟨h3, m, b', m', em, n2, fun _ => ⟨hS.wf r2, fun x hx e => absurd e (n1 x hx)⟩⟩, fun b c r1' r2' t hb hq hc => ?_⟩⟩
    rcases h5 b c r1' r2' t hb hq hc with h | h | h
    · exact Or.inl h
    · have h : r2 = r2' := h
      subst h
      subst em
      refine Or.inr (Or.inl ⟨rfl, Or.inl ?_⟩)
      show c ∈ (s.sh.heap _).keys
      by_contra hn
      have := k.leaf _ _ _ _ _ _ hq hc.leaf
      rw [(Dict.get?_eq_none_iff _ _).2 hn] at this
      cases this
    · exact Or.inr (Or.inr h)
  | inner it o =>
    obtain ⟨m, b', m', em, n2, n3⟩ := h4
    obtain ⟨mi, mo⟩ := h2
    have ok := ri.2.2.1
    simp only [Reader.stepIn]
    rcases mi.next ok c with ⟨-, e⟩ | ⟨hd, e⟩
    · rw [e]
      exact ⟨trivial, ⟨fun _ _ _ _ e => (by cases e), trivial, ⟨h3, trivial⟩, fun b c r1' r2 t hb hq hc e => (by cases e)⟩⟩
    · rw [e]
      obtain ⟨r, size, rest, dirty⟩ := it
      have em : r = _ := em
      have hd : dirty = false := hd
      cases rest with
      | nil =>
        have key : ∀ b c r1' r2' t, Fits bo b → Q t → Chain sh0 w a b c r1' r2' t → t ∈ got ∨ OutHas b o := by
          intro b c r1' r2' t hb hq hc
          rcases h5 b c r1' r2' t hb hq hc with h | ⟨-, h | h⟩ | h
          · exact Or.inl h
          · cases h
          · rw [show dirty = true from h] at hd; cases hd
          · exact Or.inr h
        cases o with
        | none =>
          exact ⟨trivial, ⟨fun _ _ _ _ e => (by cases e), trivial, ⟨h3, trivial⟩, fun b c r1' r2' t hb hq hc _ => (key b c r1' r2' t hb hq hc).resolve_right id⟩⟩
        | some it' =>
          exact ⟨ri.2.1.it, ⟨fun _ _ _ _ e => (by cases e), mo, ⟨h3, n2.1⟩, fun b c r1' r2' t hb hq hc => key b c r1' r2' t hb hq hc⟩⟩
      | cons x rest =>
        dsimp only
        have em : r = _ := em
        have hd : dirty = false := hd
        split
        · next t0 e0 =>
          have pl := hS.placed _ _ _ e0
          rw [em] at pl
          have pl : w.keys t0 = (a, b', x) := pl
          obtain ⟨n4, n5⟩ := n3 hd
          have n4 : (x :: rest).Nodup := n4
          have n5 : ∀ y ∈ got, (w.keys y).2.1 = b' → (w.keys y).2.2 ∉ x :: rest := n5
          have hnew : t0 ∉ got := fun e => n5 t0 e (by rw [pl]) (by rw [pl]; exact List.mem_cons_self ..)
          refine ⟨⟨fun _ => ⟨(ok hd).1, (List.suffix_cons x rest).trans (ok hd).2⟩, ri.2.1.it⟩, ⟨fun _ _ _ _ e => (by cases e), ⟨⟨mi.1, fun e => (by rw [show dirty = true from e] at hd; cases hd)⟩, mo⟩,
            ⟨nodup_concat h3 hnew, m, b', m', em, ?_, fun _ => ⟨(List.nodup_cons.1 n4).2, fun y hy e1 e2 => ?_⟩⟩, fun b c r1' r2' t hb hq hc => ?_⟩⟩
          · cases o with
            | none => trivial
            | some it' =>
              refine ⟨fun hd' => ⟨(n2.1 hd').1, fun y hy => ?_⟩, n2.2⟩
              rcases List.mem_append.1 hy with h | h
              · exact (n2.1 hd').2 y h
              · rw [List.mem_singleton] at h; subst h; rw [pl]; exact n2.2 hd'
          · rcases List.mem_append.1 hy with h | h
            · exact n5 y h e1 (List.mem_cons_of_mem _ e2)
            · rw [List.mem_singleton] at h; subst h; rw [pl] at e2; exact (List.nodup_cons.1 n4).1 e2
          · rcases h5 b c r1' r2' t hb hq hc with h | ⟨e1, h | h⟩ | h
            · exact Or.inl (List.mem_append_left _ h)
            · rcases List.mem_cons.1 h with h | h
              · left
                have e1 : r = r2' := e1
                subst e1
                subst h
                subst em
                rw [k.leaf _ _ _ _ _ _ hq hc.leaf] at e0
                cases e0
                exact List.mem_append_right _ (List.mem_singleton.2 rfl)
              · exact Or.inr (Or.inl ⟨e1, Or.inl h⟩)
            · rw [show dirty = true from h] at hd; cases hd
            · exact Or.inr (Or.inr h)
        · exact ⟨trivial, ⟨fun _ _ _ _ e => (by cases e), trivial, ⟨h3, trivial⟩, fun b c r1' r2 t hb hq hc e => (by cases e)⟩⟩
  | set => exact h4.elim
  | after => exact h4.elim
  | done => exact ⟨trivial, ⟨fun _ _ _ _ e => (by cases e), trivial, ⟨h3, trivial⟩, h5⟩⟩

end Verif
