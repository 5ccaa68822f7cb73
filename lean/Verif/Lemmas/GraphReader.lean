import Verif.Model.GraphReader
import Verif.Lemmas.GraphThreadsSpec
/-
A thread that reads a Graph while others change it: what a step of a writing thread does to the dicts, and what the reading thread can be doing.
-/
namespace Verif

/-- There is nothing in dicts that have not been made. -/
def Unborn (sh : SharedGraph) : Prop := ∀ p k m, sh.next ≤ m → sh.heap (.made p k m) = []

theorem Unborn.newDict {sh : SharedGraph} (h : Unborn sh) (p : DRef) (k : Term) : Unborn (sh.newDict p k).1 ∧ (sh.newDict p k).1.heap = sh.heap := by
  have e : (sh.newDict p k).1.heap = sh.heap := by
    funext x
    rw [SharedGraph.heap_newDict]
    split
    · next e => subst e; exact (h p k sh.next (le_refl _)).symm
    · rfl
  exact ⟨fun p' k' m hm => by rw [e]; exact h p' k' m (Nat.le_of_succ_le hm), e⟩

theorem Unborn.put {sh : SharedGraph} (h : Unborn sh) {r : DRef} {d : Dict Term DVal} (hr : ∀ p k m, r = .made p k m → m < sh.next) : Unborn (sh.put r d) := by
  intro p k m hm
  rw [SharedGraph.heap_put]
  split
  · next e => exact absurd (hr p k m e.symm) (by have : sh.next ≤ m := hm; omega)
  · exact h p k m hm

/-- What a step of a writing thread does to the dicts. -/
inductive Wrote (sh : SharedGraph) (th : GThread) (sh' : SharedGraph) : Prop
  | nothing : sh'.heap = sh.heap → Wrote sh th sh'
  | store1 (op w r) : th.pc = .store1 op w r → sh'.heap = (sh.put (.root w) ((sh.heap (.root w)).set (w.keys op.stmt).1 (.dict r))).heap → Wrote sh th sh'
  | store2 (op w cur r) : th.pc = .store2 op w cur r → sh'.heap = (sh.put cur ((sh.heap cur).set (w.keys op.stmt).2.1 (.dict r))).heap → Wrote sh th sh'
  | add (t w cur) : th.pc = .last (.add t) w cur → sh'.heap = (sh.put cur ((sh.heap cur).set (w.keys t).2.2 (.stmt t))).heap → Wrote sh th sh'
  | remove (t w cur) : th.pc = .last (.remove t) w cur → (sh.heap cur).has (w.keys t).2.2 = true → sh'.heap = (sh.put cur ((sh.heap cur).del (w.keys t).2.2)).heap → Wrote sh th sh'

theorem Wrote.step {sh : SharedGraph} (hu : Unborn sh) (th : GThread) : Wrote sh th (sh.step th).1 := by
  obtain ⟨pc, todo, outs⟩ := th
  cases pc with
  | idle =>
    refine .nothing ?_
    cases todo with
    | nil => rfl
    | cons op todo =>
      cases op with
      | add t => rfl
      | remove t => simp only [SharedGraph.step]; split <;> rfl
  | look1 op w =>
    refine .nothing ?_
    simp only [SharedGraph.step]
    split
    · rfl
    · rfl
    · exact (hu.newDict _ _).2
  | store1 op w r => exact .store1 op w r rfl rfl
  | look2 op w cur =>
    refine .nothing ?_
    simp only [SharedGraph.step]
    split
    · rfl
    · rfl
    · exact (hu.newDict _ _).2
  | store2 op w cur r => exact .store2 op w cur r rfl rfl
  | last op w cur =>
    cases op with
    | add t => exact .add t w cur rfl rfl
    | remove t =>
      by_cases h : (sh.heap cur).has (w.keys t).2.2
      · exact .remove t w cur rfl h (by simp only [SharedGraph.step]; rw [if_pos h])
      · exact .nothing (by simp only [SharedGraph.step]; rw [if_neg h])

theorem Unborn.step {sh : SharedGraph} (hu : Unborn sh) {th : GThread} (hp : PcShape sh.next th.pc) : Unborn (sh.step th).1 := by
  have hn := sh.next_step th
  intro p k m hm
  have hm' : sh.next ≤ m := hn.trans hm
  cases Wrote.step hu th with
  | nothing e => rw [e]; exact hu p k m hm'
  | store1 op w r _ e => rw [e, SharedGraph.heap_put, if_neg (by simp)]; exact hu p k m hm'
  | store2 op w cur r e1 e =>
    rw [e1] at hp
    obtain ⟨⟨m1, h1, rfl⟩, -⟩ := hp
    rw [e, SharedGraph.heap_put, if_neg (by rintro ⟨⟩; omega)]
    exact hu p k m hm'
  | add t w cur e1 e =>
    rw [e1] at hp
    obtain ⟨m1, h1, m2, h2, rfl⟩ := hp
    rw [e, SharedGraph.heap_put, if_neg (by rintro ⟨⟩; omega)]
    exact hu p k m hm'
  | remove t w cur e1 _ e =>
    rw [e1] at hp
    obtain ⟨m1, h1, m2, h2, rfl⟩ := hp
    rw [e, SharedGraph.heap_put, if_neg (by rintro ⟨⟩; omega)]
    exact hu p k m hm'

/-- Names are not taken out of the index itself. -/
theorem root_stays {sh : SharedGraph} (hu : Unborn sh) {th : GThread} (hp : PcShape sh.next th.pc) (w : Graph.Ix) {a : Term} (h : (sh.heap (.root w)).get? a ≠ none) :
    ((sh.step th).1.heap (.root w)).get? a ≠ none := by
  cases Wrote.step hu th with
  | nothing e => rwa [e]
  | store1 op w' r _ e =>
    rw [e, SharedGraph.heap_put]
    split
    · next e' =>
      cases e'
      rw [Dict.get?_set]
      split
      · simp
      · exact h
    · exact h
  | store2 op w' cur r e1 e =>
    rw [e1] at hp
    obtain ⟨⟨m1, h1, rfl⟩, -⟩ := hp
    rwa [e, SharedGraph.heap_put, if_neg (by simp)]
  | add t w cur e1 e =>
    rw [e1] at hp
    obtain ⟨m1, h1, m2, h2, rfl⟩ := hp
    rwa [e, SharedGraph.heap_put, if_neg (by simp)]
  | remove t w cur e1 _ e =>
    rw [e1] at hp
    obtain ⟨m1, h1, m2, h2, rfl⟩ := hp
    rwa [e, SharedGraph.heap_put, if_neg (by simp)]

/-! ### What the reading thread can be doing -/

/-- An iterator over a dict of the graph that has all the keys before it, unless something happened. -/
def DIter.Ok (sh : SharedGraph) (it : DIter) : Prop := it.dirty = false → it.size = (sh.heap it.r).length ∧ it.rest <:+ (sh.heap it.r).keys

/-- A dict of the first level. -/
def Ref1 (n : Nat) (w : Graph.Ix) (a : Term) (r : DRef) : Prop := ∃ m < n, r = .made (.root w) a m

/-- A dict of the second level. -/
def Ref2 (n : Nat) (w : Graph.Ix) (a b : Term) (r : DRef) : Prop := ∃ m < n, ∃ m' < n, r = .made (.made (.root w) a m) b m'

/-- The outer loop of the plan: none if the second key is given. -/
def OutOk (sh : SharedGraph) (w : Graph.Ix) (a : Term) (b : Option Term) : Option DIter → Prop
  | none => b.isSome
  | some it => b = none ∧ it.Ok sh ∧ Ref1 sh.next w a it.r

/-- Where a reader of an index can be. -/
def RdIn (sh : SharedGraph) (w : Graph.Ix) (a : Term) (b : Option Term) : RPc → Prop
  | .start | .test1 | .done => True
  | .test2 => b.isSome ∧ (sh.heap (.root w)).get? a ≠ none
  | .test2in r1 => b.isSome ∧ (sh.heap (.root w)).get? a ≠ none ∧ Ref1 sh.next w a r1
  | .outer0 => b = none ∧ (sh.heap (.root w)).get? a ≠ none
  | .outer1 r1 => b = none ∧ (sh.heap (.root w)).get? a ≠ none ∧ Ref1 sh.next w a r1
  | .outer it => (sh.heap (.root w)).get? a ≠ none ∧ OutOk sh w a b (some it)
  | .get1 b' out => (sh.heap (.root w)).get? a ≠ none ∧ (∀ x, b = some x → b' = x) ∧ OutOk sh w a b out
  | .get2 b' r1 out => (sh.heap (.root w)).get? a ≠ none ∧ (∀ x, b = some x → b' = x) ∧ OutOk sh w a b out ∧ Ref1 sh.next w a r1
  | .made2 b' r1 r2 out => (sh.heap (.root w)).get? a ≠ none ∧ (∀ x, b = some x → b' = x) ∧ OutOk sh w a b out ∧ Ref1 sh.next w a r1 ∧ ∃ m < sh.next, r2 = .made r1 b' m
  | .inner0 r2 out => (sh.heap (.root w)).get? a ≠ none ∧ OutOk sh w a b out ∧ ∃ b', (∀ x, b = some x → b' = x) ∧ Ref2 sh.next w a b' r2
  | .inner it out => (sh.heap (.root w)).get? a ≠ none ∧ OutOk sh w a b out ∧ it.Ok sh ∧ ∃ b', (∀ x, b = some x → b' = x) ∧ Ref2 sh.next w a b' it.r
  | .set .. | .after => False

/-- The dicts have changed in some way, and nothing is taken out of the index itself. -/
structure Later (sh sh' : SharedGraph) : Prop where
  next : sh.next ≤ sh'.next
  root : ∀ w a, (sh.heap (.root w)).get? a ≠ none → (sh'.heap (.root w)).get? a ≠ none

theorem Ref1.later {sh sh' : SharedGraph} (h : Later sh sh') {w a r} (hr : Ref1 sh.next w a r) : Ref1 sh'.next w a r := by
  obtain ⟨m, hm, e⟩ := hr; exact ⟨m, hm.trans_le h.next, e⟩

theorem Ref2.later {sh sh' : SharedGraph} (h : Later sh sh') {w a b r} (hr : Ref2 sh.next w a b r) : Ref2 sh'.next w a b r := by
  obtain ⟨m, hm, m', hm', e⟩ := hr; exact ⟨m, hm.trans_le h.next, m', hm'.trans_le h.next, e⟩

theorem DIter.Ok.touch {sh : SharedGraph} {it : DIter} (h : it.Ok sh) (sh' : SharedGraph) : (it.touch sh sh').Ok sh' := by
  intro hd
  simp only [DIter.touch, Bool.or_eq_false_iff, decide_eq_false_iff_not, ne_eq, not_not] at hd
  obtain ⟨h1, h2⟩ := h hd.1
  refine ⟨?_, ?_⟩
  · show it.size = (sh'.heap it.r).length
    have := congrArg List.length hd.2
    simp only [Dict.keys, List.length_map] at this
    rw [this, h1]
  · show it.rest <:+ (sh'.heap it.r).keys
    rw [hd.2]; exact h2

theorem OutOk.touch {sh sh' : SharedGraph} (h : Later sh sh') {w a b out} (ho : OutOk sh w a b out) : OutOk sh' w a b (out.map (DIter.touch sh sh')) := by
  cases out with
  | none => exact ho
  | some it => exact ⟨ho.1, ho.2.1.touch sh', ho.2.2.later h⟩

theorem RdIn.touch {sh sh' : SharedGraph} (h : Later sh sh') {w a b pc} (hr : RdIn sh w a b pc) : RdIn sh' w a b (pc.touch sh sh') := by
  cases pc with
  | start => trivial
  | test1 => trivial
  | done => trivial
  | test2 => exact ⟨hr.1, h.root _ _ hr.2⟩
  | test2in r1 => exact ⟨hr.1, h.root _ _ hr.2.1, hr.2.2.later h⟩
  | outer0 => exact ⟨hr.1, h.root _ _ hr.2⟩
  | outer1 r1 => exact ⟨hr.1, h.root _ _ hr.2.1, hr.2.2.later h⟩
  | outer it => exact ⟨h.root _ _ hr.1, OutOk.touch (out := some it) h hr.2⟩
  | get1 b' out => exact ⟨h.root _ _ hr.1, hr.2.1, hr.2.2.touch h⟩
  | get2 b' r1 out => exact ⟨h.root _ _ hr.1, hr.2.1, hr.2.2.1.touch h, hr.2.2.2.later h⟩
  | made2 b' r1 r2 out =>
    obtain ⟨m, hm, e⟩ := hr.2.2.2.2
    exact ⟨h.root _ _ hr.1, hr.2.1, hr.2.2.1.touch h, hr.2.2.2.1.later h, m, hm.trans_le h.next, e⟩
  | inner0 r2 out =>
    obtain ⟨b', h1, h2⟩ := hr.2.2
    exact ⟨h.root _ _ hr.1, hr.2.1.touch h, b', h1, h2.later h⟩
  | inner it out =>
    obtain ⟨b', h1, h2⟩ := hr.2.2.2
    exact ⟨h.root _ _ hr.1, hr.2.1.touch h, hr.2.2.1.touch sh', b', h1, h2.later h⟩
  | set n l d => exact hr.elim
  | after => exact hr.elim

theorem Later.refl (sh : SharedGraph) : Later sh sh := ⟨le_refl _, fun _ _ h => h⟩

theorem Later.step {sh : SharedGraph} (hu : Unborn sh) {th : GThread} (hp : PcShape sh.next th.pc) : Later sh (sh.step th).1 :=
  ⟨sh.next_step th, fun w _ h => root_stays hu hp w h⟩

/-- The next key of a loop. -/
theorem DIter.Ok.next {sh : SharedGraph} {it : DIter} (h : it.Ok sh) {c : Nat} {k : Term} {it' : DIter} (e : it.next sh c = .ok (some (k, it'))) :
    k ∈ (sh.heap it.r).keys ∧ it'.r = it.r ∧ it'.Ok sh := by
  unfold DIter.next at e
  simp only at e
  split at e
  · cases e
  · split at e
    · next hd =>
      cases hk : (sh.heap it.r).keys[c]? with
      | none => rw [hk] at e; cases e
      | some k' =>
        rw [hk] at e
        cases e
        exact ⟨List.mem_of_getElem? hk, rfl, h⟩
    · next hd =>
      obtain ⟨h1, h2⟩ := h (by simpa using hd)
      split at e
      · cases e
      · next k' rest hr =>
        cases e
        rw [hr] at h2
        exact ⟨h2.subset (List.mem_cons_self ..), rfl, fun _ => ⟨h1, (List.suffix_cons k rest).trans h2⟩⟩

theorem SharedGraph.iterDict_ok (sh : SharedGraph) (r : DRef) : (sh.iterDict r).Ok sh := fun _ => ⟨rfl, List.suffix_rfl⟩

theorem DIter.next_error {sh : SharedGraph} {it : DIter} {c : Nat} {e : Exc} (h : it.next sh c = .error e) : e = .runtimeError ∧ (sh.heap it.r).length ≠ it.size := by
  unfold DIter.next at h
  simp only at h
  split at h
  · next hl => cases h; exact ⟨rfl, hl⟩
  · split at h
    · cases h
    · split at h <;> cases h

/-- How a call can end. -/
def Ended (out : Option (Except Exc Unit)) : Prop := out = none ∨ out = some (.ok ()) ∨ out = some (.error .runtimeError)

/-- What a step of the reader of an index gives: its place, the dicts, and what it got. -/
structure Read (sh : SharedGraph) (rd : Reader) (w : Graph.Ix) (a : Term) (b : Option Term) (sh' : SharedGraph) (rd' : Reader) : Prop where
  shape : Shape sh'
  unborn : Unborn sh'
  later : Later sh sh'
  triples : sh'.triples = sh.triples
  heap : ∀ r k t, (sh'.heap r).get? k = some (.stmt t) → (sh.heap r).get? k = some (.stmt t)
  pc : RdIn sh' w a b (rd'.pc.touch sh sh')
  got : rd'.got = rd.got ∨ ∃ r k t, (sh.heap r).get? k = some (.stmt t) ∧ rd'.got = rd.got ++ [t] ∧ (w.keys t).1 = a ∧ ∀ x, b = some x → (w.keys t).2.1 = x
  ended : Ended rd.out → Ended rd'.out
  plan : rd'.plan = rd.plan

theorem Read.same {sh : SharedGraph} (hS : Shape sh) (hu : Unborn sh) {rd rd' : Reader} {w : Graph.Ix} {a : Term} {b : Option Term} (pc : RdIn sh w a b rd'.pc)
    (got : rd'.got = rd.got) (ended : Ended rd.out → Ended rd'.out) (plan : rd'.plan = rd.plan) : Read sh rd w a b sh rd' :=
  ⟨hS, hu, .refl _, rfl, fun _ _ _ h => h, pc.touch (.refl _), Or.inl got, ended, plan⟩

theorem Reader.stepIn_read {sh : SharedGraph} (hS : Shape sh) (hu : Unborn sh) (c : Nat) {rd : Reader} {w : Graph.Ix} {a : Term} {b : Option Term} (h : RdIn sh w a b rd.pc) :
    Read sh rd w a b (rd.stepIn sh c w a b).1 (rd.stepIn sh c w a b).2 := by
  obtain ⟨plan, pc, got, out⟩ := rd
  have fine : Ended out → Ended (some (Except.ok ())) := fun _ => Or.inr (Or.inl rfl)
  have err : Ended out → Ended (some (Except.error Exc.runtimeError)) := fun _ => Or.inr (Or.inr rfl)
  have root1 : (sh.heap (.root w)).get? a ≠ none → ∃ r1, (sh.heap (.root w)).get? a = some (.dict r1) ∧ Ref1 sh.next w a r1 := by
    intro h1
    cases h2 : (sh.heap (.root w)).get? a with
    | none => exact absurd h2 h1
    | some v =>
      have := hS.placed _ _ _ h2
      cases v with
      | stmt t => exact this.elim
      | dict r => exact ⟨r, rfl, this⟩
  cases pc with
  | start => exact .same hS hu trivial rfl id rfl
  | test1 =>
    simp only [Reader.stepIn]
    split
    · next hh =>
      have hh : (sh.heap (.root w)).get? a ≠ none := by simpa [Dict.has, Option.isSome_iff_ne_none] using hh
      cases b with
      | none => exact .same hS hu ⟨rfl, hh⟩ rfl id rfl
      | some b => exact .same hS hu ⟨rfl, hh⟩ rfl id rfl
    · exact .same hS hu trivial rfl fine rfl
  | test2 =>
    obtain ⟨r1, e, h1⟩ := root1 h.2
    simp only [Reader.stepIn, e]
    exact .same hS hu ⟨h.1, h.2, h1⟩ rfl id rfl
  | test2in r1 =>
    cases b with
    | none => exact absurd h.1 (by simp)
    | some b =>
      simp only [Reader.stepIn]
      split
      · exact .same hS hu ⟨h.2.1, fun x e => (by cases e; rfl), rfl⟩ rfl id rfl
      · exact .same hS hu trivial rfl fine rfl
  | outer0 =>
    obtain ⟨r1, e, h1⟩ := root1 h.2
    simp only [Reader.stepIn, e]
    exact .same hS hu ⟨h.1, h.2, h1⟩ rfl id rfl
  | outer1 r1 => exact .same hS hu ⟨h.2.1, h.1, sh.iterDict_ok r1, h.2.2⟩ rfl id rfl
  | outer it =>
    simp only [Reader.stepIn]
    split
    · next e he => rw [(DIter.next_error he).1]; exact .same hS hu trivial rfl err rfl
    · exact .same hS hu trivial rfl fine rfl
    · next k it' he =>
      obtain ⟨h1, h2, h3⟩ := h.2.2.1.next he
      exact .same hS hu ⟨h.1, fun x e => (by rw [h.2.1] at e; cases e), h.2.1, h3, by rw [h2]; exact h.2.2.2⟩ rfl id rfl
  | get1 b' o =>
    obtain ⟨r1, e, h1⟩ := root1 h.1
    simp only [Reader.stepIn, e]
    exact .same hS hu ⟨h.1, h.2.1, h.2.2, h1⟩ rfl id rfl
  | get2 b' r1 o =>
    obtain ⟨m, hm, rfl⟩ := h.2.2.2
    simp only [Reader.stepIn]
    split
    · next r2 e =>
      obtain ⟨m', hm', e'⟩ := hS.placed _ _ _ e
      exact .same hS hu ⟨h.1, h.2.2.1, b', h.2.1, m, hm, m', hm', e'⟩ rfl id rfl
    · next t e => exact (hS.placed _ _ _ e).elim
    · obtain ⟨u1, u2⟩ := hu.newDict (.made (.root w) a m) b'
      have lt : Later sh (sh.newDict (.made (.root w) a m) b').1 := ⟨Nat.le_succ _, fun w' a' hh => by rw [u2]; exact hh⟩
      exact ⟨hS.newDict _ _, u1, lt, rfl, fun r k t e => by rw [u2] at e; exact e,
        ⟨lt.root _ _ h.1, h.2.1, h.2.2.1.touch lt, h.2.2.2.later lt, sh.next, Nat.lt_succ_self _, rfl⟩, Or.inl rfl, id, rfl⟩
  | made2 b' r1 r2 o =>
    obtain ⟨h1, h2, h3, ⟨m, hm, rfl⟩, m', hm', rfl⟩ := h
    have lt : Later sh (sh.put (.made (.root w) a m) ((sh.heap (.made (.root w) a m)).set b' (.dict (.made (.made (.root w) a m) b' m')))) :=
      ⟨le_refl _, fun w' a' hh => by rw [SharedGraph.heap_put, if_neg (by simp)]; exact hh⟩
    refine ⟨hS.set ⟨m', hm', rfl⟩, hu.put (fun p k n e => by cases e; exact hm), lt, rfl, fun r k t e => ?_, ?_, Or.inl rfl, id, rfl⟩
    · simp only [Reader.stepIn, SharedGraph.heap_put] at e
      split at e
      · next er =>
        subst er
        rw [Dict.get?_set] at e
        split at e
        · cases e
        · exact e
      · exact e
    · exact ⟨lt.root _ _ h1, h3.touch lt, b', h2, m, hm, m', hm', rfl⟩
  | inner0 r2 o => exact .same hS hu ⟨h.1, h.2.1, sh.iterDict_ok r2, h.2.2⟩ rfl id rfl
  | inner it o =>
    obtain ⟨h1, h2, h3, b', h4, h5⟩ := h
    simp only [Reader.stepIn]
    split
    · next e he => rw [(DIter.next_error he).1]; exact .same hS hu trivial rfl err rfl
    · cases o with
      | none => exact .same hS hu trivial rfl fine rfl
      | some it' => exact .same hS hu ⟨h1, h2⟩ rfl id rfl
    · next k it' he =>
      obtain ⟨k1, k2, k3⟩ := h3.next he
      cases hv : (sh.heap it.r).get? k with
      | none => exact absurd ((Dict.get?_eq_none_iff _ _).1 hv) (fun hn => hn k1)
      | some v =>
        have pl := hS.placed _ _ _ hv
        obtain ⟨m, hm, m', hm', e5⟩ := h5
        rw [e5] at pl
        cases v with
        | dict r => exact pl.elim
        | stmt t =>
          have pl : w.keys t = (a, b', k) := pl
          rw [show (sh.heap it'.r).get? k = some (.stmt t) by rw [k2]; exact hv]
          refine ⟨hS, hu, .refl _, rfl, fun _ _ _ h => h, RdIn.touch (.refl _) (pc := .inner it' o) ⟨h1, h2, k3, b', h4, m, hm, m', hm', by rw [k2]; exact e5⟩,
            Or.inr ⟨it.r, k, t, hv, rfl, by rw [pl], fun x e => by rw [pl]; exact h4 x e⟩, id, rfl⟩
  | set n l d => exact h.elim
  | after => exact h.elim
  | done => exact .same hS hu trivial rfl id rfl

end Verif
