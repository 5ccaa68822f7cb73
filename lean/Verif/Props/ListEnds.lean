import Mathlib.Logic.Relation
import Mathlib.Data.List.Basic
import Verif.Props.ResList
import Verif.Model.TurtleSer

/-! C127: when iterating a list, and writing a graph as Turtle, comes to an end. -/

namespace Verif
open Spec Graph

/-- A triple says that the rest of the list cell `s` is `s'`. -/
def RestLink (ts : List Stmt) (rest : Term) (s s' : Term) : Prop := mkTriple s rest s' ∈ ts

/-- No cell that is reached from `head` is reached from itself. -/
def NoCycle (ts : List Stmt) (rest : Term) (head : Term) : Prop :=
  ∀ s, Relation.ReflTransGen (RestLink ts rest) head s → ¬ Relation.TransGen (RestLink ts rest) s s

/-- What `current["rdf:rest"]` gives, if it is a resource, is linked in the graph. -/
theorem getOne_link {o : Orders} (ho : o.OK) {w : World} (wr : w.Reach) {g : Graph} (hg : g.Reach) {r : Res} (hc : r.c < w.classes.length)
    (hs : r.s.truthy = true) {k p : PStr} (hk : resolveKey w r.c k = .ok (some p)) (hp : p ≠ []) :
    (getOne o w g r (.name k)).1.Reach ∧ w.Ext (getOne o w g r (.name k)).1 ∧
    ∀ kk s', (getOne o w g r (.name k)).2 = .ok (.res kk s') → mkTriple r.s (.named p) s' ∈ g.triples := by
  have hspec := objectsForKey_spec (o := o) wr g hc (.name k)
  unfold getOne getItem
  generalize objectsForKey o w g r (.name k) = z at hspec
  obtain ⟨w1, rr⟩ := z
  cases rr with
  | error e => exact ⟨hspec.1, hspec.2.1, by simp⟩
  | ok q =>
    obtain ⟨pr, objs⟩ := q
    dsimp only at hspec ⊢
    obtain ⟨h1, h2, h3⟩ := hspec.2.2.1 pr objs rfl
    rw [show Key.text (.name k) = k from rfl, hk] at h1
    cases h1
    cases hsc : isScalar w1 r.c (some p) with
    | false =>
      simp only [Bool.not_false, Bool.true_or, if_true]
      exact ⟨hspec.1, hspec.2.1, by simp⟩
    | true =>
      simp only [Bool.not_true, Key.isAll, Bool.or_false, Bool.false_eq_true, if_false]
      unfold classifyOne
      cases ho1 : oneOrNone objs with
      | error e => exact ⟨hspec.1, hspec.2.1, by simp⟩
      | ok x =>
        dsimp only
        have hc1 := Nat.lt_of_lt_of_le hc hspec.2.1.length
        have c1 := classify_spec (o := o) hspec.1 g hc1 (optTerm x)
        cases hcl : classify o w1 g r.c (optTerm x) with
        | mk w2 rv =>
        rw [hcl] at c1
        dsimp only at c1
        cases rv with
        | error e => exact ⟨c1.1, hspec.2.1.trans c1.2.1, by simp⟩
        | ok v =>
          refine ⟨c1.1, hspec.2.1.trans c1.2.1, fun kk s' hv => ?_⟩
          dsimp only at hv
          cases hv
          rcases c1.2.2 with h | ⟨v', h, ht, _⟩
          · cases h
          · cases h
            cases x with
            | none =>
              unfold optTerm classify at hcl
              cases hcl
            | some t =>
              have hm : t ∈ objs := by
                match objs, ho1 with
                | [y], ho1 => cases ho1; exact List.mem_singleton.2 rfl
              have := (mem_objectsOf ho hg hs (predTerm_truthy hp) t).1 (h2 t hm)
              have e : s' = t := ht
              rw [e]; exact this

/-- What one step of the iterator after a yield does: it ends, or it goes on at a linked cell that is not nil. -/
theorem listNext_yielded {o : Orders} (ho : o.OK) {w : World} (wr : w.Reach) {g : Graph} (hg : g.Reach) {c : Nat} (hc : c < w.classes.length)
    {iRest iNil : PStr} (hk : resolveKey w c (py! "rdf:rest") = .ok (some iRest)) (hp : iRest ≠ [])
    (hn : resolveKey w c (py! "rdf:nil") = .ok (some iNil)) {s : Term} (hs : s.truthy = true)
    (hf : ∃ iFirst, resolveKey w c (py! "rdf:first") = .ok (some iFirst) ∧ iFirst ≠ [])
    (he : mkTriple s (.named iRest) (.named []) ∉ g.triples ∧ mkTriple s (.named iRest) .none ∉ g.triples) :
    (listNext o w g c (.yielded ⟨c, s⟩)).1.Reach ∧ w.Ext (listNext o w g c (.yielded ⟨c, s⟩)).1 ∧
    ((∃ e, (listNext o w g c (.yielded ⟨c, s⟩)).2.2 = .raise e) ∨
     ((listNext o w g c (.yielded ⟨c, s⟩)).2.2 = .stop ∧ mkTriple s (.named iRest) (.named iNil) ∈ g.triples) ∨
     ∃ s' v, (listNext o w g c (.yielded ⟨c, s⟩)).2 = (.yielded ⟨c, s'⟩, .item v) ∧ mkTriple s (.named iRest) s' ∈ g.triples ∧
       s' ≠ .named iNil ∧ s'.truthy = true) := by
  obtain ⟨iFirst, hf1, hf2⟩ := hf
  have l1 := getOne_link (o := o) ho wr hg (r := ⟨c, s⟩) hc hs hk hp
  unfold listNext
  dsimp only
  generalize getOne o w g ⟨c, s⟩ (.name (py! "rdf:rest")) = z at l1
  obtain ⟨w1, rr⟩ := z
  dsimp only at l1
  cases rr with
  | error e => exact ⟨l1.1, l1.2.1, Or.inl ⟨e, rfl⟩⟩
  | ok v =>
    cases v with
    | res k s' =>
      have hlink := l1.2.2 k s' rfl
      have hn1 : resolveKey w1 c (py! "rdf:nil") = .ok (some iNil) := by rw [l1.2.1.resolve hc]; exact hn
      dsimp only
      rw [hn1]
      dsimp only
      by_cases hnil : s' = predTerm (some iNil)
      · rw [if_pos hnil]
        subst hnil
        unfold listTest
        simp only [hn1, if_true]
        exact ⟨l1.1, l1.2.1, Or.inr (Or.inl ⟨trivial, hlink⟩)⟩
      · rw [if_neg hnil]
        unfold listTest
        simp only [hn1, hnil, if_false]
        have hc1 := Nat.lt_of_lt_of_le hc l1.2.1.length
        have hs' : s'.truthy = true := by
          cases s' with
          | none => exact absurd hlink he.2
          | named i =>
            cases i with
            | nil => exact absurd hlink he.1
            | cons => rfl
          | bnode => rfl
          | lit => rfl
          | gen => rfl
        have l2 := getOne_link (o := o) ho l1.1 hg (r := ⟨c, s'⟩) hc1 hs' (by rw [l1.2.1.resolve hc]; exact hf1) hf2
        generalize getOne o w1 g ⟨c, s'⟩ (.name (py! "rdf:first")) = z2 at l2
        obtain ⟨w2, rr2⟩ := z2
        dsimp only at l2
        cases rr2 with
        | error e => exact ⟨l2.1, l1.2.1.trans l2.2.1, Or.inl ⟨e, rfl⟩⟩
        | ok v2 => exact ⟨l2.1, l1.2.1.trans l2.2.1, Or.inr (Or.inr ⟨s', v2, rfl, hlink, hnil, hs'⟩)⟩
    | none => exact ⟨l1.1, l1.2.1, Or.inl ⟨_, rfl⟩⟩
    | lit => exact ⟨l1.1, l1.2.1, Or.inl ⟨_, rfl⟩⟩

/-- What the class must provide for its lists. -/
structure ListNames (w : World) (c : Nat) (iFirst iRest iNil : PStr) : Prop where
  first : resolveKey w c (py! "rdf:first") = .ok (some iFirst)
  rest : resolveKey w c (py! "rdf:rest") = .ok (some iRest)
  nil : resolveKey w c (py! "rdf:nil") = .ok (some iNil)
  nfirst : iFirst ≠ []
  nrest : iRest ≠ []

theorem ListNames.ext {w w' : World} {c : Nat} {f r n : PStr} (h : ListNames w c f r n) (hc : c < w.classes.length) (hx : w.Ext w') :
    ListNames w' c f r n :=
  ⟨by rw [hx.resolve hc]; exact h.first, by rw [hx.resolve hc]; exact h.rest, by rw [hx.resolve hc]; exact h.nil, h.nfirst, h.nrest⟩

theorem ListClass.names {w : World} {c : Nat} {f r n : PStr} (h : ListClass w c f r n) : ListNames w c f r n :=
  ⟨h.first, h.rest, h.nil, h.nfirst, h.nrest⟩

/-- No cell has None or the empty IRI as its rest (with those, `graph.match` reads the rest of any cell, C03). -/
def NoEmptyRest (ts : List Stmt) (rest : Term) : Prop :=
  ∀ s, mkTriple s rest (.named []) ∉ ts ∧ mkTriple s rest .none ∉ ts

theorem yielded_ends {o : Orders} (ho : o.OK) {g : Graph} (hg : g.Reach) {c : Nat} {iFirst iRest iNil : PStr}
    (he : NoEmptyRest g.triples (.named iRest)) {head : Term} (nc : NoCycle g.triples (.named iRest) head) :
    ∀ (n : Nat) {w : World} (_ : w.Reach) (_ : c < w.classes.length) (_ : ListNames w c iFirst iRest iNil) (vis : List Term) {s : Term},
      s.truthy = true → Relation.ReflTransGen (RestLink g.triples (.named iRest)) head s → vis.Nodup →
      (∀ v ∈ vis, v ∈ g.triples.map (·.s) ∧ Relation.TransGen (RestLink g.triples (.named iRest)) v s) →
      g.triples.length < n + vis.length →
      (listTake o g c n w (.yielded ⟨c, s⟩)).2.2 ≠ none
  | 0, w, wr, hc, hL, vis, s, hs, hr, nd, hv, hlen => by
    exfalso
    have h1 : vis.length ≤ (g.triples.map (·.s)).length := (List.subperm_of_subset nd fun v h => (hv v h).1).length_le
    rw [List.length_map] at h1
    omega
  | n + 1, w, wr, hc, hL, vis, s, hs, hr, nd, hv, hlen => by
    have st := listNext_yielded (o := o) ho wr hg hc hL.rest hL.nrest hL.nil hs ⟨_, hL.first, hL.nfirst⟩ (he s)
    unfold listTake
    generalize listNext o w g c (.yielded ⟨c, s⟩) = z at st
    obtain ⟨w1, it, y⟩ := z
    dsimp only at st
    obtain ⟨r1, x1, ⟨e, rfl⟩ | ⟨rfl, _⟩ | ⟨s', v, h, hl, hn, ht⟩⟩ := st
    · simp
    · simp
    · cases h
      dsimp only
      refine yielded_ends ho hg he nc n r1 (Nat.lt_of_lt_of_le hc x1.length) (hL.ext hc x1) (s :: vis) ht (hr.tail hl)
        (List.nodup_cons.2 ⟨fun hm => nc s hr (hv s hm).2, nd⟩) (fun u hu => ?_) (by simp only [List.length_cons]; omega)
      rcases List.mem_cons.1 hu with rfl | hu
      · exact ⟨List.mem_map.2 ⟨_, hl, rfl⟩, .single hl⟩
      · exact ⟨(hv u hu).1, (hv u hu).2.tail hl⟩

/-- The claim: iterating a list comes to an end. -/
def C127_statement : Prop :=
  ∀ (o : Orders), o.OK → ∀ g : Graph, g.Reach → ∀ s : Term, IsResource s → s.truthy = true →
    ∃ n, (listTake o g 1 n World.new (.test ⟨1, s⟩)).2.2 ≠ none

/-- It does not for a cell that is its own rest. -/
theorem C127_refuted : ¬ C127_statement := by
  intro h
  obtain ⟨n, hn⟩ := h {} .default cyclic (((Graph.Reach.new _).add _ _ _).add _ _ _) (.bnode 1) (Or.inr ⟨1, rfl⟩) rfl
  rw [C58_cyclic_never_ends n] at hn
  exact hn rfl

/-- If no cell that is reached from the head by rests is reached from itself, the iteration ends, normally or with an exception, within as many steps as the graph has
    triples, and two. This is for every list, well-formed or not: cells with several or no rests or firsts, with rests that are literals, and so on. -/
theorem C127_ends_partial {o : Orders} (ho : o.OK) {w : World} (wr : w.Reach) {g : Graph} (hg : g.Reach) {c : Nat} (hc : c < w.classes.length)
    {iFirst iRest iNil : PStr} (hL : ListNames w c iFirst iRest iNil) (he : NoEmptyRest g.triples (.named iRest)) {head : Term}
    (hh : head.truthy = true) (nc : NoCycle g.triples (.named iRest) head) :
    (listTake o g c (g.triples.length + 2) w (.test ⟨c, head⟩)).2.2 ≠ none := by
  unfold listTake listNext listTest
  simp only [hL.nil, predTerm]
  by_cases hn : head = .named iNil
  · simp [hn]
  · simp only [hn, if_false]
    have l1 := getOne_link (o := o) ho wr hg (r := ⟨c, head⟩) hc hh hL.first hL.nfirst
    generalize getOne o w g ⟨c, head⟩ (.name (py! "rdf:first")) = z at l1
    obtain ⟨w1, rr⟩ := z
    dsimp only at l1
    cases rr with
    | error e => simp
    | ok v =>
      dsimp only
      exact yielded_ends ho hg he nc _ l1.1 (Nat.lt_of_lt_of_le hc l1.2.1.length) (hL.ext hc l1.2.1) [] hh .refl List.nodup_nil
        (by simp) (by simp)

theorem yielded_normal {o : Orders} (ho : o.OK) {g : Graph} (hg : g.Reach) {c : Nat} {iFirst iRest iNil : PStr}
    (he : NoEmptyRest g.triples (.named iRest)) :
    ∀ (n : Nat) {w : World} (_ : w.Reach) (_ : c < w.classes.length) (_ : ListNames w c iFirst iRest iNil) {s : Term},
      s.truthy = true → (listTake o g c n w (.yielded ⟨c, s⟩)).2.2 = some (.ok ()) →
      Relation.TransGen (RestLink g.triples (.named iRest)) s (.named iNil)
  | 0, w, wr, hc, hL, s, hs, h => by cases h
  | n + 1, w, wr, hc, hL, s, hs, h => by
    have st := listNext_yielded (o := o) ho wr hg hc hL.rest hL.nrest hL.nil hs ⟨_, hL.first, hL.nfirst⟩ (he s)
    unfold listTake at h
    generalize listNext o w g c (.yielded ⟨c, s⟩) = z at st h
    obtain ⟨w1, it, y⟩ := z
    dsimp only at st
    obtain ⟨r1, x1, ⟨e, rfl⟩ | ⟨rfl, hl⟩ | ⟨s', v, h', hl, hn, ht⟩⟩ := st
    · simp at h
    · exact .single hl
    · cases h'
      dsimp only at h
      exact .head hl (yielded_normal ho hg he n r1 (Nat.lt_of_lt_of_le hc x1.length) (hL.ext hc x1) ht h)

/-- Iteration ends normally only if the rests lead from the head to rdf:nil. In particular, it does not if all of them lead round a cycle. -/
theorem C127_normal {o : Orders} (ho : o.OK) {w : World} (wr : w.Reach) {g : Graph} (hg : g.Reach) {c : Nat} (hc : c < w.classes.length)
    {iFirst iRest iNil : PStr} (hL : ListNames w c iFirst iRest iNil) (he : NoEmptyRest g.triples (.named iRest)) {head : Term}
    (hh : head.truthy = true) {n : Nat} (h : (listTake o g c n w (.test ⟨c, head⟩)).2.2 = some (.ok ())) :
    Relation.ReflTransGen (RestLink g.triples (.named iRest)) head (.named iNil) := by
  cases n with
  | zero => cases h
  | succ n =>
  unfold listTake listNext listTest at h
  simp only [hL.nil, predTerm] at h
  by_cases hn : head = .named iNil
  · rw [hn]
  · simp only [hn, if_false] at h
    have l1 := getOne_link (o := o) ho wr hg (r := ⟨c, head⟩) hc hh hL.first hL.nfirst
    generalize getOne o w g ⟨c, head⟩ (.name (py! "rdf:first")) = z at l1 h
    obtain ⟨w1, rr⟩ := z
    dsimp only at l1
    cases rr with
    | error e => simp at h
    | ok v =>
      dsimp only at h
      exact (yielded_normal ho hg he _ l1.1 (Nat.lt_of_lt_of_le hc l1.2.1.length) (hL.ext hc l1.2.1) hh h).to_reflTransGen

/-- Once the iteration has ended, asking for more changes nothing. -/
theorem listTake_more {o : Orders} {g : Graph} {c : Nat} : ∀ (n : Nat) (w : World) (it : LIter) (m : Nat), n ≤ m →
    (listTake o g c n w it).2.2 ≠ none → listTake o g c m w it = listTake o g c n w it
  | 0, w, it, m, _, h => absurd rfl h
  | n + 1, w, it, 0, hm, h => by omega
  | n + 1, w, it, m + 1, hm, h => by
    unfold listTake at h ⊢
    generalize listNext o w g c it = z at h
    obtain ⟨w1, it1, y⟩ := z
    cases y with
    | stop => rfl
    | raise e => rfl
    | item v =>
      dsimp only at h ⊢
      rw [listTake_more n w1 it1 m (by omega) h]

/-! ### The Turtle writer -/

theorem getOne_fueled {o : Orders} {w : World} (wr : w.Reach) {g : Graph} {r : Res} (hc : r.c < w.classes.length) {k p : PStr}
    (hk : resolveKey w r.c k = .ok (some p)) : (getOne o w g r (.name k)).2 ≠ .error .outOfFuel := by
  have hspec := objectsForKey_spec (o := o) wr g hc (.name k)
  unfold getOne getItem
  generalize objectsForKey o w g r (.name k) = z at hspec
  obtain ⟨w1, rr⟩ := z
  cases rr with
  | error e =>
    rcases hspec.2.2.2 e rfl with h | h
    · rw [show Key.text (.name k) = k from rfl, hk] at h; cases h
    · subst h; simp
  | ok q =>
    obtain ⟨pr, objs⟩ := q
    dsimp only at hspec ⊢
    cases isScalar w1 r.c pr with
    | false => simp
    | true =>
      simp only [Bool.not_true, Key.isAll, Bool.or_false, Bool.false_eq_true, if_false]
      unfold classifyOne
      cases ho1 : oneOrNone objs with
      | error e =>
        have : e = .valueError := by
          match objs, ho1 with
          | _ :: _ :: _, ho1 => cases ho1; rfl
        subst this; simp
      | ok x =>
        dsimp only
        have hc1 := Nat.lt_of_lt_of_le hc hspec.2.1.length
        have c1 := classify_spec (o := o) hspec.1 g hc1 (optTerm x)
        cases hcl : classify o w1 g r.c (optTerm x) with
        | mk w2 rv =>
        rw [hcl] at c1
        dsimp only at c1
        cases rv with
        | error e =>
          rcases c1.2.2 with h | ⟨v', h, _⟩
          · cases h; simp
          · cases h
        | ok v => simp

theorem listNext_fueled {o : Orders} (ho : o.OK) {w : World} (wr : w.Reach) {g : Graph} (hg : g.Reach) {c : Nat} (hc : c < w.classes.length)
    {iFirst iRest iNil : PStr} (hL : ListNames w c iFirst iRest iNil) {s : Term} (hs : s.truthy = true) :
    (listNext o w g c (.yielded ⟨c, s⟩)).2.2 ≠ .raise .outOfFuel ∧ (listNext o w g c (.test ⟨c, s⟩)).2.2 ≠ .raise .outOfFuel := by
  have htest : ∀ w1 : World, w1.Reach → w.Ext w1 → ∀ r : Res, r.c = c ∨ r.s = predTerm (some iNil) → (listTest o w1 g c r).2.2 ≠ .raise .outOfFuel := by
    intro w1 r1 x1 r hr
    have hL1 := hL.ext hc x1
    unfold listTest
    rw [hL1.nil]
    dsimp only
    split
    · simp
    · next hn =>
      have hrc : r.c = c := by
        rcases hr with h | h
        · exact h
        · exact absurd h hn
      have := getOne_fueled (o := o) r1 (g := g) (r := r) (by rw [hrc]; exact Nat.lt_of_lt_of_le hc x1.length) (by rw [hrc]; exact hL1.first)
      generalize getOne o w1 g r (.name (py! "rdf:first")) = z at this
      obtain ⟨w2, rr⟩ := z
      cases rr with
      | error e => intro h; apply this; dsimp only at h ⊢; cases h; rfl
      | ok v => simp
  refine ⟨?_, ?_⟩
  · have l1 := getOne_link (o := o) ho wr hg (r := ⟨c, s⟩) hc hs hL.rest hL.nrest
    have l2 := getOne_fueled (o := o) wr (g := g) (r := ⟨c, s⟩) hc hL.rest
    unfold listNext
    dsimp only
    generalize getOne o w g ⟨c, s⟩ (.name (py! "rdf:rest")) = z at l1 l2
    obtain ⟨w1, rr⟩ := z
    dsimp only at l1 l2
    cases rr with
    | error e => intro h; apply l2; dsimp only at h ⊢; cases h; rfl
    | ok v =>
      cases v with
      | res k s' =>
        dsimp only
        rw [(hL.ext hc l1.2.1).nil]
        dsimp only
        refine htest w1 l1.1 l1.2.1 _ ?_
        split
        · next h => exact Or.inr h
        · exact Or.inl rfl
      | none => simp
      | lit => simp
  · unfold listNext
    exact htest w wr (.refl w) _ (Or.inl rfl)

theorem yielded_world {o : Orders} (ho : o.OK) {g : Graph} (hg : g.Reach) {c : Nat} {iFirst iRest iNil : PStr}
    (he : NoEmptyRest g.triples (.named iRest)) :
    ∀ (n : Nat) {w : World} (_ : w.Reach) (_ : c < w.classes.length) (_ : ListNames w c iFirst iRest iNil) {s : Term},
      s.truthy = true →
      (listTake o g c n w (.yielded ⟨c, s⟩)).1.Reach ∧ w.Ext (listTake o g c n w (.yielded ⟨c, s⟩)).1 ∧
      (listTake o g c n w (.yielded ⟨c, s⟩)).2.2 ≠ some (.error .outOfFuel)
  | 0, w, wr, hc, hL, s, hs => ⟨wr, .refl w, by simp [listTake]⟩
  | n + 1, w, wr, hc, hL, s, hs => by
    have st := listNext_yielded (o := o) ho wr hg hc hL.rest hL.nrest hL.nil hs ⟨_, hL.first, hL.nfirst⟩ (he s)
    have nf := (listNext_fueled (o := o) ho wr hg hc hL hs).1
    unfold listTake
    generalize listNext o w g c (.yielded ⟨c, s⟩) = z at st nf
    obtain ⟨w1, it, y⟩ := z
    dsimp only at st nf
    obtain ⟨r1, x1, ⟨e, rfl⟩ | ⟨rfl, hl⟩ | ⟨s', v, h', hl, hn, ht⟩⟩ := st
    · exact ⟨r1, x1, fun h => nf (by cases h; rfl)⟩
    · exact ⟨r1, x1, by simp⟩
    · cases h'
      have := yielded_world ho hg he n r1 (Nat.lt_of_lt_of_le hc x1.length) (hL.ext hc x1) ht
      exact ⟨this.1, x1.trans this.2.1, this.2.2⟩

theorem test_world {o : Orders} (ho : o.OK) {g : Graph} (hg : g.Reach) {c : Nat} {iFirst iRest iNil : PStr}
    (he : NoEmptyRest g.triples (.named iRest)) (n : Nat) {w : World} (wr : w.Reach) (hc : c < w.classes.length)
    (hL : ListNames w c iFirst iRest iNil) {s : Term} (hs : s.truthy = true) :
    (listTake o g c n w (.test ⟨c, s⟩)).1.Reach ∧ w.Ext (listTake o g c n w (.test ⟨c, s⟩)).1 ∧
      (listTake o g c n w (.test ⟨c, s⟩)).2.2 ≠ some (.error .outOfFuel) := by
  cases n with
  | zero => exact ⟨wr, .refl w, by simp [listTake]⟩
  | succ n =>
    have nf := (listNext_fueled (o := o) ho wr hg hc hL hs).2
    unfold listTake
    unfold listNext listTest at nf ⊢
    simp only [hL.nil, predTerm] at nf ⊢
    by_cases hn : s = .named iNil
    · simp only [hn, if_true]
      exact ⟨wr, .refl w, by simp⟩
    · simp only [hn, if_false] at nf ⊢
      have l1 := getOne_link (o := o) ho wr hg (r := ⟨c, s⟩) hc hs hL.first hL.nfirst
      generalize getOne o w g ⟨c, s⟩ (.name (py! "rdf:first")) = z at l1 nf
      obtain ⟨w1, rr⟩ := z
      dsimp only at l1 nf
      cases rr with
      | error e => exact ⟨l1.1, l1.2.1, fun h => nf (by cases h; rfl)⟩
      | ok v =>
        dsimp only
        have := yielded_world ho hg he n l1.1 (Nat.lt_of_lt_of_le hc l1.2.1.length) (hL.ext hc l1.2.1) hs (o := o)
        exact ⟨this.1, l1.2.1.trans this.2.1, this.2.2⟩

namespace Turtle

theorem xsdOf_fueled (m : PrefixMap) (n : PStr) : xsdOf m n ≠ .error .outOfFuel := by
  unfold xsdOf PrefixMap.resolve parseCurie
  simp only []
  repeat' split
  all_goals simp

theorem litRepr_fueled (m : PrefixMap) (v : PStr) (l d : Option PStr) : litRepr m v l d ≠ .error .outOfFuel := by
  have hx := xsdOf_fueled m
  unfold litRepr
  have b : ∀ {α β} (x : Except Exc α) (f : α → Except Exc β), x ≠ .error .outOfFuel → (∀ a, f a ≠ .error .outOfFuel) → (x >>= f) ≠ .error .outOfFuel := by
    intro α β x f h1 h2
    cases x with
    | error e => exact fun h => h1 (by cases h; rfl)
    | ok a => exact h2 a
  have p : ∀ {α} (a : α), (pure a : Except Exc α) ≠ .error .outOfFuel := fun a h => by cases h
  refine b _ _ (hx _) fun a => ?_
  split
  · exact p _
  · split
    · split
      · split
        · exact p _
        · exact p _
      · exact p _
    · refine b _ _ (hx _) fun a => ?_
      split
      · exact p _
      refine b _ _ (hx _) fun a => ?_
      split
      · exact p _
      refine b _ _ (hx _) fun a => ?_
      split
      · exact p _
      refine b _ _ (hx _) fun a => ?_
      split
      · exact p _
      exact p _

theorem name_fueled (cx : SerCtx) (nm : Names) (t : Term) : name cx nm t ≠ .error .outOfFuel := by
  cases t with
  | none => simp [name]
  | named i => simp [name]
  | bnode b =>
    simp only [name]
    repeat' split
    all_goals simp
  | lit v l d =>
    have := litRepr_fueled cx.prefixes v l d
    simp only [name]
    cases h : litRepr cx.prefixes v l d with
    | error e => rw [h] at this; exact fun h' => this (by cases h'; rfl)
    | ok x => simp [Except.map]
  | gen => simp [name]

theorem names_fueled (cx : SerCtx) : ∀ (ts : List Term) (nm : Names), names cx nm ts ≠ .error .outOfFuel
  | [], nm => by simp [names]
  | t :: ts, nm => by
    have h1 := name_fueled cx nm t
    unfold names
    cases h : name cx nm t with
    | error e => rw [h] at h1; exact fun h' => h1 (by cases h'; rfl)
    | ok r =>
      obtain ⟨nm1, x⟩ := r
      have h2 := names_fueled cx ts nm1
      dsimp only
      cases h' : names cx nm1 ts with
      | error e => rw [h'] at h2; exact fun h'' => h2 (by cases h''; rfl)
      | ok r => simp

theorem sortedNames_fueled (cx : SerCtx) (nm : Names) (ts : List Term) : sortedNames cx nm ts ≠ .error .outOfFuel := by
  have h2 := names_fueled cx ts nm
  unfold sortedNames
  cases h' : names cx nm ts with
  | error e => rw [h'] at h2; exact fun h'' => h2 (by cases h''; rfl)
  | ok r => dsimp only; split <;> simp

theorem items_fueled (cx : SerCtx) (fin : Option (Except Exc Unit)) (hf : fin ≠ none) (he : fin ≠ some (.error .outOfFuel)) :
    ∀ (vs : List Val) (b : Bool) (nm : Names), items cx b nm vs fin ≠ .error .outOfFuel
  | [], b, nm => by
    match fin, hf, he with
    | some (.ok ()), _, _ => simp [items]
    | some (.error e), _, he => simp only [items]; exact fun h => he (by cases h; rfl)
  | v :: vs, b, nm => by
    have h1 : itemName cx nm v ≠ .error .outOfFuel := by
      cases v with
      | lit x y z => exact name_fueled cx nm (.lit x y z)
      | none => simp [itemName]
      | res => simp [itemName]
    unfold items
    cases h : itemName cx nm v with
    | error e => rw [h] at h1; exact fun h' => h1 (by cases h'; rfl)
    | ok r =>
      obtain ⟨nm1, x⟩ := r
      have h2 := items_fueled cx fin hf he vs false nm1
      dsimp only
      cases h' : items cx false nm1 vs fin with
      | error e => rw [h'] at h2; exact fun h'' => h2 (by cases h''; rfl)
      | ok r => simp

/-- A computation that has come to an end with `N` units of fuel: more do not change it. -/
def Ended (N : Nat) (w : World) (f : Nat → Except Exc (SerSt × PStr)) : Prop :=
  (∀ n, N ≤ n → f n = f N) ∧ f N ≠ .error .outOfFuel ∧ ∀ st x, f N = .ok (st, x) → st.w.Reach ∧ w.Ext st.w

/-- What the writer needs of a graph to come to an end. -/
structure NoLoop (g : Graph) (rest : Term) : Prop where
  reach : g.Reach
  subj : ∀ t ∈ g.triples, IsResource t.s
  obj : ∀ t ∈ g.triples, t.o ≠ .none ∧ t.o ≠ .named []
  acyclic : ∀ s, ¬ Relation.TransGen (RestLink g.triples rest) s s

theorem NoLoop.noEmptyRest {g : Graph} {rest : Term} (h : NoLoop g rest) : NoEmptyRest g.triples rest :=
  fun s => ⟨fun hm => (h.obj _ hm).2 rfl, fun hm => (h.obj _ hm).1 rfl⟩

variable {o : Orders} {g : Graph} {cx : SerCtx} {iFirst iRest iNil : PStr}

theorem objText_ended (ho : o.OK) (hg : NoLoop g (.named iRest)) {c : Nat} {st : SerSt} (wr : st.w.Reach) (hc : c < st.w.classes.length)
    (hL : ListNames st.w c iFirst iRest iNil) {obj : Term} (h1 : obj ≠ .none) (h2 : obj ≠ .named []) :
    Ended (g.triples.length + 2) st.w (fun fuel => objText o c fuel g cx st obj) := by
  have htr : obj.truthy = true := by
    cases obj with
    | none => exact absurd rfl h1
    | named i =>
      cases i with
      | nil => exact absurd rfl h2
      | cons => rfl
    | bnode => rfl
    | lit => rfl
    | gen => rfl
  obtain ⟨b, hb, hbi⟩ := C58_is_list ho hg.reach hL.rest hL.nrest htr
  unfold Ended objText
  rw [hb]
  cases b with
  | false =>
    dsimp only
    have := name_fueled cx st.nm obj
    cases h : name cx st.nm obj with
    | error e => rw [h] at this; exact ⟨fun _ _ => rfl, fun h' => this (by cases h'; rfl), by simp⟩
    | ok r => exact ⟨fun _ _ => rfl, by simp, fun st' x h => by cases h; exact ⟨wr, .refl _⟩⟩
  | true =>
    dsimp only
    obtain ⟨x, hx⟩ := hbi.1 rfl
    have hs : asSubject obj = obj := by
      rcases hg.subj _ hx with ⟨i, hi⟩ | ⟨i, hi⟩
      · rw [show obj = .named i from hi]; rfl
      · rw [show obj = .bnode i from hi]; rfl
    rw [hs]
    have e1 := C127_ends_partial ho wr hg.reach hc hL hg.noEmptyRest htr fun s _ => hg.acyclic s
    have e2 := test_world (o := o) ho hg.reach hg.noEmptyRest (g.triples.length + 2) wr hc hL htr
    have e3 := fun n hn => listTake_more (o := o) (g := g) (c := c) _ st.w (.test ⟨c, obj⟩) n hn e1
    have e4 := items_fueled cx _ e1 e2.2.2 (listTake o g c (g.triples.length + 2) st.w (.test ⟨c, obj⟩)).2.1 true st.nm
    refine ⟨fun n hn => by rw [e3 n hn], ?_, ?_⟩
    · cases h : items cx true st.nm (listTake o g c (g.triples.length + 2) st.w (.test ⟨c, obj⟩)).2.1
        (listTake o g c (g.triples.length + 2) st.w (.test ⟨c, obj⟩)).2.2 with
      | error e => rw [h] at e4; exact fun h' => e4 (by cases h'; rfl)
      | ok r => simp
    · intro st' x h
      split at h
      · cases h
      · cases h; exact ⟨e2.1, e2.2.1⟩

theorem objsText_ended (ho : o.OK) (hg : NoLoop g (.named iRest)) {c : Nat} (indent : Nat) : ∀ (ts : List Stmt) (first : Bool) {st : SerSt}
    (_ : st.w.Reach) (_ : c < st.w.classes.length) (_ : ListNames st.w c iFirst iRest iNil) (_ : ∀ t ∈ ts, t ∈ g.triples),
    Ended (g.triples.length + 2) st.w (fun fuel => objsText o c fuel g cx indent first st ts)
  | [], first, st, wr, hc, hL, hts => ⟨fun _ _ => rfl, by simp [objsText], fun st' x h => by cases h; exact ⟨wr, .refl _⟩⟩
  | t :: ts, first, st, wr, hc, hL, hts => by
    have ht := hg.obj t (hts t (by simp))
    obtain ⟨a1, a2, a3⟩ := objText_ended (cx := cx) ho hg wr hc hL ht.1 ht.2
    dsimp only at a1 a2 a3
    unfold Ended objsText
    dsimp only
    cases h : objText o c (g.triples.length + 2) g cx st t.o with
    | error e =>
      refine ⟨fun n hn => by rw [a1 n hn, h], ?_, by simp⟩
      rw [h] at a2; exact fun h' => a2 (by cases h'; rfl)
    | ok r =>
      obtain ⟨st1, x⟩ := r
      obtain ⟨r1, x1⟩ := a3 _ _ h
      obtain ⟨b1, b2, b3⟩ := objsText_ended ho hg indent ts false r1 (Nat.lt_of_lt_of_le hc x1.length) (hL.ext hc x1)
        (fun t ht => hts t (by simp [ht]))
      dsimp only at b1 b2 b3 ⊢
      refine ⟨fun n hn => by rw [a1 n hn, h]; dsimp only; rw [b1 n hn], ?_, ?_⟩
      · cases h2 : objsText o c (g.triples.length + 2) g cx indent false st1 ts with
        | error e => rw [h2] at b2; exact fun h' => b2 (by cases h'; rfl)
        | ok r => simp
      · intro st' y hy
        split at hy
        · cases hy
        · next st2 rest h2 =>
          cases hy
          obtain ⟨c1, c2⟩ := b3 _ _ h2
          exact ⟨c1, x1.trans c2⟩

theorem predsText_ended (ho : o.OK) (hg : NoLoop g (.named iRest)) {c : Nat} (s : Term) (indent : Nat) :
    ∀ (ps : List (PStr × Term)) (first : Bool) {st : SerSt}
    (_ : st.w.Reach) (_ : c < st.w.classes.length) (_ : ListNames st.w c iFirst iRest iNil),
    Ended (g.triples.length + 2) st.w (fun fuel => predsText o c fuel g cx s indent first st ps)
  | [], first, st, wr, hc, hL => ⟨fun _ _ => rfl, by simp [predsText], fun st' x h => by cases h; exact ⟨wr, .refl _⟩⟩
  | (pname, p) :: ps, first, st, wr, hc, hL => by
    obtain ⟨a1, a2, a3⟩ := objsText_ended (cx := cx) ho hg (indent + pname.length + 1) (g.match o.stmts s p .none) true wr hc hL
      (fun t ht => ((mem_match hg.reach.inv ho.stmts _ _ _ _).1 ht).1)
    dsimp only at a1 a2 a3
    unfold Ended predsText
    dsimp only
    cases h : objsText o c (g.triples.length + 2) g cx (indent + pname.length + 1) true st (g.match o.stmts s p .none) with
    | error e =>
      refine ⟨fun n hn => by rw [a1 n hn, h], ?_, by simp⟩
      rw [h] at a2; exact fun h' => a2 (by cases h'; rfl)
    | ok r =>
      obtain ⟨st1, x⟩ := r
      obtain ⟨r1, x1⟩ := a3 _ _ h
      obtain ⟨b1, b2, b3⟩ := predsText_ended ho hg s indent ps false r1 (Nat.lt_of_lt_of_le hc x1.length) (hL.ext hc x1)
      dsimp only at b1 b2 b3 ⊢
      refine ⟨fun n hn => by rw [a1 n hn, h]; dsimp only; rw [b1 n hn], ?_, ?_⟩
      · cases h2 : predsText o c (g.triples.length + 2) g cx s indent false st1 ps with
        | error e => rw [h2] at b2; exact fun h' => b2 (by cases h'; rfl)
        | ok r => simp
      · intro st' y hy
        split at hy
        · cases hy
        · next st2 rest h2 =>
          cases hy
          obtain ⟨c1, c2⟩ := b3 _ _ h2
          exact ⟨c1, x1.trans c2⟩

theorem subjText_ended (ho : o.OK) (hg : NoLoop g (.named iRest)) {c : Nat} (sname : PStr) (s : Term) {st : SerSt}
    (wr : st.w.Reach) (hc : c < st.w.classes.length) (hL : ListNames st.w c iFirst iRest iNil) :
    Ended (g.triples.length + 2) st.w (fun fuel => subjText o c fuel g cx st sname s) := by
  have hn := sortedNames_fueled cx st.nm (o.terms (pySet ((g.match o.stmts s .none .none).map (·.p))))
  unfold Ended subjText
  dsimp only
  cases h : sortedNames cx st.nm (o.terms (pySet ((g.match o.stmts s .none .none).map (·.p)))) with
  | error e => rw [h] at hn; exact ⟨fun _ _ => rfl, fun h' => hn (by cases h'; rfl), by simp⟩
  | ok r =>
    obtain ⟨nm, ps⟩ := r
    obtain ⟨b1, b2, b3⟩ := predsText_ended (cx := cx) ho hg s (sname.length + 1) ps true (st := ⟨st.w, nm⟩) wr hc hL
    dsimp only at b1 b2 b3 ⊢
    refine ⟨fun n hn => by rw [b1 n hn], ?_, ?_⟩
    · cases h2 : predsText o c (g.triples.length + 2) g cx s (sname.length + 1) true ⟨st.w, nm⟩ ps with
      | error e => rw [h2] at b2; exact fun h' => b2 (by cases h'; rfl)
      | ok r => simp
    · intro st' y hy
      split at hy
      · cases hy
      · next st2 rest h2 =>
        cases hy
        exact b3 _ _ h2

theorem subjsText_ended (ho : o.OK) (hg : NoLoop g (.named iRest)) {c : Nat} : ∀ (ss : List (PStr × Term)) {st : SerSt}
    (_ : st.w.Reach) (_ : c < st.w.classes.length) (_ : ListNames st.w c iFirst iRest iNil),
    Ended (g.triples.length + 2) st.w (fun fuel => subjsText o c fuel g cx st ss)
  | [], st, wr, hc, hL => ⟨fun _ _ => rfl, by simp [subjsText], fun st' x h => by cases h; exact ⟨wr, .refl _⟩⟩
  | (sname, s) :: ss, st, wr, hc, hL => by
    obtain ⟨a1, a2, a3⟩ := subjText_ended (cx := cx) ho hg sname s wr hc hL
    dsimp only at a1 a2 a3
    unfold Ended subjsText
    dsimp only
    cases h : subjText o c (g.triples.length + 2) g cx st sname s with
    | error e =>
      refine ⟨fun n hn => by rw [a1 n hn, h], ?_, by simp⟩
      rw [h] at a2; exact fun h' => a2 (by cases h'; rfl)
    | ok r =>
      obtain ⟨st1, x⟩ := r
      obtain ⟨r1, x1⟩ := a3 _ _ h
      obtain ⟨b1, b2, b3⟩ := subjsText_ended ho hg ss r1 (Nat.lt_of_lt_of_le hc x1.length) (hL.ext hc x1)
      dsimp only at b1 b2 b3 ⊢
      refine ⟨fun n hn => by rw [a1 n hn, h]; dsimp only; rw [b1 n hn], ?_, ?_⟩
      · cases h2 : subjsText o c (g.triples.length + 2) g cx st1 ss with
        | error e => rw [h2] at b2; exact fun h' => b2 (by cases h'; rfl)
        | ok r => simp
      · intro st' y hy
        split at hy
        · cases hy
        · next st2 rest h2 =>
          cases hy
          obtain ⟨c1, c2⟩ := b3 _ _ h2
          exact ⟨c1, x1.trans c2⟩

theorem plainSubjects_ok {w : World} {c : Nat} (hk : resolveKey w c (py! "rdf:rest") = .ok (some iRest)) :
    ∀ ss : List Term, ∃ r, plainSubjects o w c g ss = .ok r
  | [] => ⟨[], rfl⟩
  | s :: ss => by
    obtain ⟨r, hr⟩ := plainSubjects_ok hk ss
    unfold plainSubjects isList
    rw [hk]; dsimp only; rw [hr]
    exact ⟨_, rfl⟩

/-- Writing a graph as Turtle comes to an end, normally or with an exception, if no node is reached from itself by rests: the outcome is the same for all bounds on the length of
    lists from the number of triples on, and is not that the bound was hit. -/
theorem C127_turtle_partial (ho : o.OK) {w : World} (wr : w.Reach) (hc : listC < w.classes.length) (hL : ListNames w listC iFirst iRest iNil)
    (hg : NoLoop g (.named iRest)) (base : Option PStr) (profile : Option PrefixMap) (namer : Namer) :
    ∃ r, r ≠ .error .outOfFuel ∧ ∀ fuel, g.triples.length + 2 ≤ fuel → serializeTurtle o w fuel g base profile namer = r := by
  refine ⟨serializeTurtle o w (g.triples.length + 2) g base profile namer, ?_⟩
  unfold serializeTurtle
  obtain ⟨ss, hss⟩ := plainSubjects_ok (o := o) (g := g) hL.rest g.subjects
  dsimp only
  rw [hss]
  dsimp only
  have hn := sortedNames_fueled ⟨profile.getD defaultPrefixes, base, namer⟩ {} ss
  cases h : sortedNames ⟨profile.getD defaultPrefixes, base, namer⟩ {} ss with
  | error e => rw [h] at hn; exact ⟨fun h' => hn (by cases h'; rfl), fun _ _ => rfl⟩
  | ok r =>
    obtain ⟨nm, ps⟩ := r
    obtain ⟨b1, b2, b3⟩ := subjsText_ended (cx := ⟨profile.getD defaultPrefixes, base, namer⟩) ho hg ps (st := ⟨w, nm⟩) wr hc hL
    dsimp only at b1 b2 b3 ⊢
    refine ⟨?_, fun n hn => by rw [b1 n hn]⟩
    cases h2 : subjsText o listC (g.triples.length + 2) g ⟨profile.getD defaultPrefixes, base, namer⟩ ⟨w, nm⟩ ps with
    | error e => rw [h2] at b2; exact fun h' => b2 (by cases h'; rfl)
    | ok r => simp

/-- A subject whose object is a list cell that is its own rest. -/
def loop : Graph := cyclic.add (mkTriple (.named (py! "http://x")) (.named (py! "http://p")) (.bnode 1))

theorem loop_never_ends (n : Nat) :
    (listTake {} loop 1 n World.new (.test ⟨1, .bnode 1⟩)).2 = (List.replicate n (.lit (py! "x") none none), none) := by
  have hy : ∀ n, listTake {} loop 1 n World.new (.yielded ⟨1, .bnode 1⟩) = (World.new, List.replicate n (.lit (py! "x") none none), none) := by
    intro n
    induction n with
    | zero => rfl
    | succ n ih =>
      have : listNext {} World.new loop 1 (.yielded ⟨1, .bnode 1⟩) = (World.new, .yielded ⟨1, .bnode 1⟩, .item (.lit (py! "x") none none)) := by
        decide
      unfold listTake
      rw [this]
      simp only [ih, List.replicate_succ]
  cases n with
  | zero => rfl
  | succ n =>
    have : listNext {} World.new loop 1 (.test ⟨1, .bnode 1⟩) = (World.new, .yielded ⟨1, .bnode 1⟩, .item (.lit (py! "x") none none)) := by
      decide
    unfold listTake
    rw [this]
    simp only [hy, List.replicate_succ]

theorem items_loop (cx : SerCtx) {t : PStr} (v : Val) (hv : ∀ nm, itemName cx nm v = .ok (nm, t)) :
    ∀ n b nm, items cx b nm (List.replicate n v) none = .error .outOfFuel
  | 0, b, nm => rfl
  | n + 1, b, nm => by
    rw [List.replicate_succ]
    unfold items
    rw [hv]
    dsimp only
    rw [items_loop cx v hv n]

/-- Writing that graph never ends, however long one waits. -/
theorem C127_turtle_loops (fuel : Nat) : serializeTurtle {} World.new fuel loop = .error .outOfFuel := by
  have h0 : objText {} listC fuel loop ⟨defaultPrefixes, none, defaultNamer⟩ ⟨World.new, {}⟩ (.bnode 1) = .error .outOfFuel := by
    have hl : isList {} World.new loop listC (.bnode 1) = .ok true := by decide
    unfold objText
    dsimp only
    rw [hl]
    dsimp only
    have := loop_never_ends fuel
    rw [show asSubject (.bnode 1) = .bnode 1 from rfl, show listC = 1 from rfl, this]
    dsimp only
    rw [items_loop _ (t := py! "\"x\"") (.lit (py! "x") none none) (fun nm => rfl)]
  have h1 : plainSubjects {} World.new listC loop loop.subjects = .ok [.named (py! "http://x")] := by decide
  have h2 : sortedNames ⟨defaultPrefixes, none, defaultNamer⟩ {} [.named (py! "http://x")] = .ok ({}, [(py! "<http://x>", .named (py! "http://x"))]) := by decide
  have h3 : sortedNames ⟨defaultPrefixes, none, defaultNamer⟩ {}
      (({} : Orders).terms (pySet ((loop.match ({} : Orders).stmts (.named (py! "http://x")) .none .none).map (·.p)))) =
      .ok ({}, [(py! "<http://p>", .named (py! "http://p"))]) := by decide
  have h4 : loop.match ({} : Orders).stmts (.named (py! "http://x")) (.named (py! "http://p")) .none =
    [mkTriple (.named (py! "http://x")) (.named (py! "http://p")) (.bnode 1)] := by decide
  unfold serializeTurtle
  dsimp only [Option.getD]
  rw [h1]; dsimp only; rw [h2]; dsimp only
  unfold subjsText subjText
  dsimp only
  rw [h3]; dsimp only
  unfold predsText
  rw [h4]
  unfold objsText
  rw [show (mkTriple (.named (py! "http://x")) (.named (py! "http://p")) (.bnode 1)).o = .bnode 1 from rfl, h0]

theorem acyclic_of_rank {ts : List Stmt} {rest : Term} (r : Term → Nat) (h : ∀ s s', RestLink ts rest s s' → r s' < r s) :
    ∀ s, ¬ Relation.TransGen (RestLink ts rest) s s := by
  have : ∀ {a b}, Relation.TransGen (RestLink ts rest) a b → r b < r a := by
    intro a b hab
    induction hab with
    | single h1 => exact h _ _ h1
    | tail _ h1 ih => exact Nat.lt_trans (h _ _ h1) ih
  exact fun s hs => Nat.lt_irrefl _ (this hs)

/-- A list of one cell meets the hypotheses. -/
example : NoLoop frList (.named (Heap.rdfNs ++ py! "rest")) ∧
    ListNames World.new listC (Heap.rdfNs ++ py! "first") (Heap.rdfNs ++ py! "rest") (Heap.rdfNs ++ py! "nil") := by
  have ht : frList.triples = [mkTriple (.bnode 1) (.named (Heap.rdfNs ++ py! "first")) (.lit (py! "un") (some (py! "fr")) none),
    mkTriple (.bnode 1) (.named (Heap.rdfNs ++ py! "rest")) (.named (Heap.rdfNs ++ py! "nil"))] := by decide
  refine ⟨⟨((Graph.Reach.new _).add _ _ _).add _ _ _, ?_, ?_, ?_⟩, listClass_new.names⟩
  · rw [ht]; intro t h
    rcases List.mem_cons.1 h with rfl | h
    · exact Or.inr ⟨1, rfl⟩
    · rcases List.mem_singleton.1 h with rfl
      exact Or.inr ⟨1, rfl⟩
  · rw [ht]; decide
  · refine acyclic_of_rank (fun t => if t = .bnode 1 then 1 else 0) fun s s' h => ?_
    unfold RestLink at h
    rw [ht] at h
    rcases List.mem_cons.1 h with h | h
    · exact absurd (mkTriple_inj.1 h).2.1 (by decide)
    · have := mkTriple_inj.1 (List.mem_singleton.1 h)
      rw [this.1, this.2.2]; decide

end Turtle

end Verif
