import Verif.Lemmas.GraphReaderRun
import Verif.Lemmas.GraphThreadsAlone
/-
A thread that reads a Graph while others change it, and none of their calls is about what it reads.
-/
namespace Verif

open Spec

/-- The key fits: it is the given one, if one is given. -/
def Fits (b : Option Term) (x : Term) : Prop := ∀ y, b = some y → x = y

/-- What the reader of `a` (and `b`) comes by is as in `sh0`. -/
structure Frozen (sh0 : SharedGraph) (w : Graph.Ix) (a : Term) (b : Option Term) (s : GSys) : Prop where
  root : ∀ v, (sh0.heap (.root w)).get? a = some v → (s.sh.heap (.root w)).get? a = some v ∧ ∀ i op r, (s.threads i).pc = .store1 op w r → (w.keys op.stmt).1 ≠ a
  mid : ∀ m x, Fits b x → (s.sh.heap (.made (.root w) a m)).get? x = (sh0.heap (.made (.root w) a m)).get? x
  midAll : b = none → ∀ m, s.sh.heap (.made (.root w) a m) = sh0.heap (.made (.root w) a m)
  leaf : ∀ m x m', Fits b x → s.sh.heap (.made (.made (.root w) a m) x m') = sh0.heap (.made (.made (.root w) a m) x m')

theorem SharedGraph.step_store1 {sh : SharedGraph} {th : GThread} {op : ThOp} {w : Graph.Ix} {r : DRef} (h : (sh.step th).2.pc = .store1 op w r) :
    (sh.heap (.root w)).get? (w.keys op.stmt).1 = none := by
  have adv : ∀ (th : GThread) op' w', (th.advance op' w').pc ≠ .store1 op w r := by
    intro th op' w' e
    cases w' <;> simp [GThread.advance, Graph.Ix.after, GThread.finish] at e
  obtain ⟨pc, todo, outs⟩ := th
  cases pc with
  | idle =>
    cases todo with
    | nil => cases h
    | cons op' todo =>
      cases op' with
      | add t => cases h
      | remove t => simp only [SharedGraph.step] at h; split at h <;> cases h
  | look1 op' w' =>
    simp only [SharedGraph.step] at h
    split at h
    · cases h
    · cases h
    · next e => cases h; exact e
  | store1 op' w' r => cases h
  | look2 op' w' cur => simp only [SharedGraph.step] at h; split at h <;> cases h
  | store2 op' w' cur r => cases h
  | last op' w' cur =>
    cases op' with
    | add t => exact absurd h (adv _ _ _)
    | remove t =>
      simp only [SharedGraph.step] at h
      split at h
      · exact absurd h (adv _ _ _)
      · cases h

theorem Frozen.write {sh0 : SharedGraph} {w : Graph.Ix} {a : Term} {b : Option Term} {s : GSys} (h : Frozen sh0 w a b s) (hs : s.Shaped) (hu : Unborn s.sh) (i : Nat)
    (calm : ∀ op w', (s.threads i).pc.at = some (op, w') → (w.keys op.stmt).1 = a → ¬ Fits b (w.keys op.stmt).2.1) : Frozen sh0 w a b (s.step i) := by
  have hp := hs.pcs i
  have wr := Wrote.step hu (s.threads i)
  have e0 : (s.step i).sh = (s.sh.step (s.threads i)).1 := rfl
  refine ⟨fun v hv => ⟨?_, fun j op r hj => ?_⟩, fun m x hx => ?_, fun hb m => ?_, fun m x m' hx => ?_⟩
  · rw [e0]
    have h1 := (h.root v hv).1
    cases wr with
    | nothing e => rwa [e]
    | store1 op w' r e1 e =>
      rw [e, SharedGraph.heap_put]
      split
      · next e' =>
        cases e'
        rw [Dict.get?_set, if_neg ((h.root v hv).2 i op r e1)]
        exact h1
      · exact h1
    | store2 op w' cur r e1 e => rw [e1] at hp; obtain ⟨⟨m1, _, rfl⟩, -⟩ := hp; rwa [e, SharedGraph.heap_put, if_neg (by simp)]
    | add t w' cur e1 e => rw [e1] at hp; obtain ⟨m1, _, m2, _, rfl⟩ := hp; rwa [e, SharedGraph.heap_put, if_neg (by simp)]
    | remove t w' cur e1 _ e => rw [e1] at hp; obtain ⟨m1, _, m2, _, rfl⟩ := hp; rwa [e, SharedGraph.heap_put, if_neg (by simp)]
  · by_cases ej : j = i
    · subst ej
      rw [GSys.step_self] at hj
      have := SharedGraph.step_store1 hj
      intro e
      rw [e, (h.root v hv).1] at this
      cases this
    · rw [GSys.step_other s ej] at hj; exact (h.root v hv).2 j op r hj
  · rw [← h.mid m x hx, e0]
    cases wr with
    | nothing e => rw [e]
    | store1 op w' r e1 e => rw [e, SharedGraph.heap_put, if_neg (by simp)]
    | store2 op w' cur r e1 e =>
      rw [e1] at hp
      obtain ⟨⟨m1, _, rfl⟩, -⟩ := hp
      rw [e, SharedGraph.heap_put]
      split
      · next e' =>
        cases e'
        rw [Dict.get?_set, if_neg (fun e2 => calm op w (by rw [e1]; rfl) rfl (by rw [e2]; exact hx))]
      · rfl
    | add t w' cur e1 e => rw [e1] at hp; obtain ⟨m1, _, m2, _, rfl⟩ := hp; rw [e, SharedGraph.heap_put, if_neg (by simp)]
    | remove t w' cur e1 _ e => rw [e1] at hp; obtain ⟨m1, _, m2, _, rfl⟩ := hp; rw [e, SharedGraph.heap_put, if_neg (by simp)]
  · rw [← h.midAll hb m, e0]
    cases wr with
    | nothing e => rw [e]
    | store1 op w' r e1 e => rw [e, SharedGraph.heap_put, if_neg (by simp)]
    | store2 op w' cur r e1 e =>
      rw [e1] at hp
      obtain ⟨⟨m1, _, rfl⟩, -⟩ := hp
      rw [e, SharedGraph.heap_put, if_neg]
      intro e'
      cases e'
      exact calm op w (by rw [e1]; rfl) rfl (fun y hy => by rw [hb] at hy; cases hy)
    | add t w' cur e1 e => rw [e1] at hp; obtain ⟨m1, _, m2, _, rfl⟩ := hp; rw [e, SharedGraph.heap_put, if_neg (by simp)]
    | remove t w' cur e1 _ e => rw [e1] at hp; obtain ⟨m1, _, m2, _, rfl⟩ := hp; rw [e, SharedGraph.heap_put, if_neg (by simp)]
  · rw [← h.leaf m x m' hx, e0]
    cases wr with
    | nothing e => rw [e]
    | store1 op w' r e1 e => rw [e, SharedGraph.heap_put, if_neg (by simp)]
    | store2 op w' cur r e1 e => rw [e1] at hp; obtain ⟨⟨m1, _, rfl⟩, -⟩ := hp; rw [e, SharedGraph.heap_put, if_neg (by simp)]
    | add t w' cur e1 e =>
      rw [e1] at hp
      obtain ⟨m1, _, m2, _, rfl⟩ := hp
      rw [e, SharedGraph.heap_put, if_neg]
      intro e'
      cases e'
      exact calm (.add t) w (by rw [e1]; rfl) rfl hx
    | remove t w' cur e1 _ e =>
      rw [e1] at hp
      obtain ⟨m1, _, m2, _, rfl⟩ := hp
      rw [e, SharedGraph.heap_put, if_neg]
      intro e'
      cases e'
      exact calm (.remove t) w (by rw [e1]; rfl) rfl hx

/-! ### The reader -/

/-- The statement under a key of a dict at the bottom. -/
def SharedGraph.at (sh : SharedGraph) (r : DRef) (k : Term) : Option Stmt := ((sh.heap r).get? k).bind DVal.stmt?

/-- The statements under a key of a dict of the first level. -/
def SharedGraph.under (sh : SharedGraph) (r1 : DRef) (b : Term) : List Stmt :=
  match (sh.heap r1).get? b with
  | some (.dict r2) => (sh.heap r2).keys.filterMap (sh.at r2)
  | _ => []

/-- The dict the reader gets for `a`. -/
def Gets (sh0 : SharedGraph) (w : Graph.Ix) (a : Term) (r1 : DRef) : Prop :=
  (∃ m, r1 = .made (.root w) a m) ∧ ∀ v, (sh0.heap (.root w)).get? a = some v → v = .dict r1

/-- An undisturbed loop over a dict that is as in `sh0`. -/
def Calm (sh0 : SharedGraph) (it : DIter) : Prop := it.dirty = false ∧ it.size = (sh0.heap it.r).length ∧ it.rest <:+ (sh0.heap it.r).keys

def CalmOut (sh0 : SharedGraph) (w : Graph.Ix) (a : Term) (b : Option Term) : Option DIter → Prop
  | none => b.isSome
  | some it => b = none ∧ Gets sh0 w a it.r ∧ Calm sh0 it

/-- What the outer loop has before it. -/
def SharedGraph.rest (sh0 : SharedGraph) : Option DIter → List Stmt
  | none => []
  | some it => it.rest.flatMap (sh0.under it.r)

/-- The reader has got a part of `R` and has the rest before it. -/
def RCalm (sh0 : SharedGraph) (w : Graph.Ix) (a : Term) (b : Option Term) (R : List Stmt) (rd : Reader) : Prop :=
  match rd.pc with
  | .start | .test1 | .test2 | .outer0 => rd.got = []
  | .test2in r1 => rd.got = [] ∧ Gets sh0 w a r1
  | .outer1 r1 => rd.got = [] ∧ Gets sh0 w a r1
  | .outer it => CalmOut sh0 w a b (some it) ∧ rd.got ++ it.rest.flatMap (sh0.under it.r) = R
  | .get1 b' out => Fits b b' ∧ CalmOut sh0 w a b out ∧ ∃ r1, Gets sh0 w a r1 ∧ (sh0.heap r1).get? b' ≠ none ∧ rd.got ++ (sh0.under r1 b' ++ sh0.rest out) = R
  | .get2 b' r1 out => Fits b b' ∧ CalmOut sh0 w a b out ∧ Gets sh0 w a r1 ∧ (sh0.heap r1).get? b' ≠ none ∧ rd.got ++ (sh0.under r1 b' ++ sh0.rest out) = R
  | .inner0 r2 out => CalmOut sh0 w a b out ∧ (∃ m x m', Fits b x ∧ r2 = .made (.made (.root w) a m) x m') ∧
      rd.got ++ ((sh0.heap r2).keys.filterMap (sh0.at r2) ++ sh0.rest out) = R
  | .inner it out => CalmOut sh0 w a b out ∧ (∃ m x m', Fits b x ∧ it.r = .made (.made (.root w) a m) x m') ∧ Calm sh0 it ∧
      rd.got ++ (it.rest.filterMap (sh0.at it.r) ++ sh0.rest out) = R
  | .done => rd.got = R ∧ rd.out = some (.ok ())
  | .made2 .. | .set .. | .after => False

/-- `R` is what there is to read in `sh0`. -/
structure Result (sh0 : SharedGraph) (w : Graph.Ix) (a : Term) (b : Option Term) (R : List Stmt) : Prop where
  none : (sh0.heap (.root w)).get? a = none → R = []
  two : ∀ r1 x, Gets sh0 w a r1 → b = some x → R = sh0.under r1 x
  one : ∀ r1, Gets sh0 w a r1 → b = .none → R = (sh0.heap r1).keys.flatMap (sh0.under r1)

theorem Calm.touch {sh0 sh sh' : SharedGraph} {it : DIter} (h : Calm sh0 it) (h1 : sh.heap it.r = sh0.heap it.r) (h2 : sh'.heap it.r = sh0.heap it.r) : it.touch sh sh' = it := by
  unfold DIter.touch
  rw [h1, h2]
  simp

theorem CalmOut.touch {sh0 : SharedGraph} {w : Graph.Ix} {a : Term} {b : Option Term} {s s' : GSys} (f : Frozen sh0 w a b s) (f' : Frozen sh0 w a b s') {out : Option DIter}
    (h : CalmOut sh0 w a b out) : out.map (DIter.touch s.sh s'.sh) = out := by
  cases out with
  | none => rfl
  | some it =>
    obtain ⟨hb, ⟨⟨m, e⟩, -⟩, hc⟩ := h
    show some _ = _
    rw [hc.touch (by rw [e]; exact f.midAll hb m) (by rw [e]; exact f'.midAll hb m)]

theorem RCalm.touch {sh0 : SharedGraph} {w : Graph.Ix} {a : Term} {b : Option Term} {s s' : GSys} (f : Frozen sh0 w a b s) (f' : Frozen sh0 w a b s') {R : List Stmt} {rd : Reader}
    (h : RCalm sh0 w a b R rd) : rd.pc.touch s.sh s'.sh = rd.pc := by
  obtain ⟨plan, pc, got, out⟩ := rd
  cases pc with
  | outer it => show RPc.outer _ = _; rw [Option.some.inj (CalmOut.touch f f' (out := some it) h.1)]
  | get1 b' out => show RPc.get1 _ _ = _; rw [CalmOut.touch f f' h.2.1]
  | get2 b' r1 out => show RPc.get2 _ _ _ = _; rw [CalmOut.touch f f' h.2.1]
  | inner0 r2 out => show RPc.inner0 _ _ = _; rw [CalmOut.touch f f' h.1]
  | inner it out =>
    obtain ⟨m, x, m', hx, e⟩ := h.2.1
    show RPc.inner _ _ = _
    rw [CalmOut.touch f f' h.1, h.2.2.1.touch (by rw [e]; exact f.leaf m x m' hx) (by rw [e]; exact f'.leaf m x m' hx)]
  | made2 => exact h.elim
  | set => exact h.elim
  | after => exact h.elim
  | _ => rfl

/-- The next step of an undisturbed loop. -/
theorem Calm.next {sh0 sh : SharedGraph} {it : DIter} (h : Calm sh0 it) (h1 : sh.heap it.r = sh0.heap it.r) (c : Nat) :
    it.next sh c = match it.rest with | [] => .ok none | k :: rest => .ok (some (k, { it with rest })) := by
  unfold DIter.next
  dsimp only
  rw [h1, if_neg (by simp [h.2.1]), if_neg (by simp [h.1])]
  rcases it.rest with _ | ⟨k, rest⟩ <;> rfl

theorem RCalm.read {sh0 : SharedGraph} (hT : Tight sh0) (hS0 : Shape sh0) {w : Graph.Ix} {a : Term} {b : Option Term} {s : GSys} (f : Frozen sh0 w a b s) {R : List Stmt}
    (hR : Result sh0 w a b R) (hS : Shape s.sh) (c : Nat) {rd : Reader} (ri : RdIn s.sh w a b rd.pc) (h : RCalm sh0 w a b R rd) :
    (rd.stepIn s.sh c w a b).1 = s.sh ∧ RCalm sh0 w a b R (rd.stepIn s.sh c w a b).2 := by
  obtain ⟨plan, pc, got, out⟩ := rd
  have gets : ∀ r1, (s.sh.heap (.root w)).get? a = some (.dict r1) → Gets sh0 w a r1 := by
    intro r1 e
    obtain ⟨m, -, em⟩ := hS.placed _ _ _ e
    refine ⟨⟨m, em⟩, fun v hv => ?_⟩
    have := (f.root v hv).1
    rw [e] at this
    exact (Option.some.inj this).symm
  have root1 : (s.sh.heap (.root w)).get? a ≠ none → ∃ r1, (s.sh.heap (.root w)).get? a = some (.dict r1) ∧ Gets sh0 w a r1 := by
    intro h1
    cases h2 : (s.sh.heap (.root w)).get? a with
    | none => exact absurd h2 h1
    | some v =>
      have := hS.placed _ _ _ h2
      cases v with
      | stmt t => exact this.elim
      | dict r => exact ⟨r, rfl, gets r h2⟩
  cases pc with
  | start => exact ⟨rfl, h⟩
  | test1 =>
    have hg : got = [] := h
    simp only [Reader.stepIn]
    split
    · cases b with
      | none => exact ⟨trivial, h⟩
      | some b => exact ⟨trivial, h⟩
    · next hh =>
      refine ⟨trivial, ?_, rfl⟩
      show got = R
      rw [hg]
      refine (hR.none ?_).symm
      cases hv : (sh0.heap (.root w)).get? a with
      | none => rfl
      | some v => exact absurd (by simp [Dict.has, (f.root v hv).1]) hh
  | test2 =>
    obtain ⟨r1, e, h1⟩ := root1 ri.2
    simp only [Reader.stepIn, e]
    exact ⟨trivial, h, h1⟩
  | test2in r1 =>
    obtain ⟨hg', h1⟩ := h
    have hg : got = [] := hg'
    clear hg'
    cases b with
    | none => exact absurd ri.1 (by simp)
    | some b =>
      obtain ⟨⟨m, rfl⟩, h2⟩ := h1
      have fm := f.mid m b (fun y e => (by cases e; rfl))
      simp only [Reader.stepIn]
      split
      · next hh =>
        refine ⟨trivial, fun y e => (by cases e; rfl), rfl, _, ⟨⟨m, rfl⟩, h2⟩, ?_, ?_⟩
        · rw [← fm]; simpa [Dict.has, Option.isSome_iff_ne_none] using hh
        · show got ++ (_ ++ []) = R
          rw [hg, hR.two _ b ⟨⟨m, rfl⟩, h2⟩ rfl]
          simp
      · next hh =>
        refine ⟨trivial, ?_, rfl⟩
        show got = R
        rw [hg, hR.two _ b ⟨⟨m, rfl⟩, h2⟩ rfl]
        unfold SharedGraph.under
        rw [← fm]
        have : (s.sh.heap (.made (.root w) a m)).get? b = none := by simpa [Dict.has, Option.isSome_iff_ne_none] using hh
        rw [this]
  | outer0 =>
    obtain ⟨r1, e, h1⟩ := root1 ri.2
    simp only [Reader.stepIn, e]
    exact ⟨trivial, h, h1⟩
  | outer1 r1 =>
    obtain ⟨hg, ⟨m, rfl⟩, h2⟩ := h
    have hg : got = [] := hg
    have fm := f.midAll ri.1 m
    refine ⟨rfl, ⟨ri.1, ⟨⟨m, rfl⟩, h2⟩, rfl, ?_, ?_⟩, ?_⟩
    · show (s.sh.heap _).length = _; rw [fm]; rfl
    · show (s.sh.heap _).keys <:+ _; rw [fm]; exact List.suffix_rfl
    · show got ++ ((s.sh.heap _).keys.flatMap (sh0.under _)) = R
      rw [hg, fm, hR.one _ ⟨⟨m, rfl⟩, h2⟩ ri.1]; rfl
  | outer it =>
    obtain ⟨⟨hb, ⟨⟨m, e⟩, h2⟩, hc⟩, hr⟩ := h
    have fm : s.sh.heap it.r = sh0.heap it.r := by rw [e]; exact f.midAll hb m
    have hr : got ++ it.rest.flatMap (sh0.under it.r) = R := hr
    simp only [Reader.stepIn, hc.next fm]
    obtain ⟨r, size, rest, dirty⟩ := it
    cases rest with
    | nil => exact ⟨rfl, (show got = R by simpa using hr), rfl⟩
    | cons k rest =>
      refine ⟨rfl, fun y e => (by rw [hb] at e; cases e), ⟨hb, ⟨⟨m, e⟩, h2⟩, hc.1, hc.2.1, (List.suffix_cons k rest).trans hc.2.2⟩, r, ⟨⟨m, e⟩, h2⟩, ?_, ?_⟩
      · intro e'; exact ((Dict.get?_eq_none_iff _ _).1 e') (hc.2.2.subset (List.mem_cons_self ..))
      · show got ++ (sh0.under r k ++ rest.flatMap (sh0.under r)) = R
        rw [← hr]; simp
  | get1 b' o =>
    obtain ⟨hf, ho, r1, hg1, hne, hr⟩ := h
    have hroot : (sh0.heap (.root w)).get? a = some (.dict r1) := by
      obtain ⟨⟨m, rfl⟩, -⟩ := hg1
      exact hT _ _ _ (fun e => by rw [e] at hne; exact hne rfl)
    simp only [Reader.stepIn, (f.root _ hroot).1]
    exact ⟨trivial, hf, ho, hg1, hne, hr⟩
  | get2 b' r1 o =>
    obtain ⟨hf, ho, ⟨⟨m, rfl⟩, h2⟩, hne, hr⟩ := h
    have hr : got ++ (sh0.under (.made (.root w) a m) b' ++ sh0.rest o) = R := hr
    have fm := f.mid m b' hf
    cases hv : (sh0.heap (.made (.root w) a m)).get? b' with
    | none => exact absurd hv hne
    | some v =>
      have pl := hS0.placed _ _ _ hv
      cases v with
      | stmt t => exact pl.elim
      | dict r2 =>
        obtain ⟨m', -, er⟩ := pl
        simp only [Reader.stepIn, fm, hv]
        refine ⟨trivial, ho, ⟨m, b', m', hf, er⟩, ?_⟩
        rw [← hr]
        show got ++ _ = got ++ _
        rw [show sh0.under (.made (.root w) a m) b' = (sh0.heap r2).keys.filterMap (sh0.at r2) by unfold SharedGraph.under; rw [hv]]
  | inner0 r2 o =>
    obtain ⟨ho, ⟨m, x, m', hx, rfl⟩, hr⟩ := h
    have fm := f.leaf m x m' hx
    refine ⟨rfl, ho, ⟨m, x, m', hx, rfl⟩, ⟨rfl, ?_, ?_⟩, ?_⟩
    · show (s.sh.heap _).length = _; rw [fm]; rfl
    · show (s.sh.heap _).keys <:+ _; rw [fm]; exact List.suffix_rfl
    · show got ++ ((s.sh.heap _).keys.filterMap _ ++ _) = R; rw [fm]; exact hr
  | inner it o =>
    obtain ⟨ho, ⟨m, x, m', hx, e⟩, hc, hr⟩ := h
    have fm : s.sh.heap it.r = sh0.heap it.r := by rw [e]; exact f.leaf m x m' hx
    have hr : got ++ (it.rest.filterMap (sh0.at it.r) ++ sh0.rest o) = R := hr
    simp only [Reader.stepIn, hc.next fm]
    obtain ⟨r, size, rest, dirty⟩ := it
    dsimp only at fm e
    cases rest with
    | nil =>
      have hr : got ++ sh0.rest o = R := by simpa using hr
      cases o with
      | none => exact ⟨rfl, (show got = R by simpa [SharedGraph.rest] using hr), rfl⟩
      | some it => exact ⟨rfl, ho, hr⟩
    | cons k rest =>
      dsimp only
      have hk : k ∈ (sh0.heap r).keys := hc.2.2.subset (List.mem_cons_self ..)
      cases hv : (sh0.heap r).get? k with
      | none => exact absurd hk ((Dict.get?_eq_none_iff _ _).1 hv)
      | some v =>
        have pl := hS0.placed _ _ _ hv
        rw [e] at pl
        cases v with
        | dict r => exact pl.elim
        | stmt t =>
          rw [fm, hv]
          refine ⟨rfl, ho, ⟨m, x, m', hx, e⟩, ⟨hc.1, hc.2.1, (List.suffix_cons k rest).trans hc.2.2⟩, ?_⟩
          show (got ++ [t]) ++ (rest.filterMap (sh0.at r) ++ sh0.rest o) = R
          rw [← hr]
          show _ = got ++ ((k :: rest).filterMap (sh0.at r) ++ _)
          rw [List.filterMap_cons, show sh0.at r k = some t by unfold SharedGraph.at; rw [hv]; rfl]
          simp
  | made2 => exact h.elim
  | set => exact h.elim
  | after => exact h.elim
  | done => exact ⟨rfl, h⟩

end Verif
