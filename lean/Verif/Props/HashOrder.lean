import Verif.Props.Independent
import Verif.Props.ResMroExact
import Verif.Props.ResWhole
import Verif.Props.ResIter
/-
What a program reads through resources in different runs, in which Python's hash sets are iterated in different orders: C157.
-/
namespace Verif
open Spec Graph

namespace Spec

/-- No node has two types for which classes are registered, and no object is the empty IRI. -/
structure OneClass (w : World) (g : Graph) : Prop where
  one : ∀ c ty, c < w.classes.length → rdfType w c = .ok ty → ∀ x t t' k k', mkTriple x ty t ∈ g.triples → mkTriple x ty t' ∈ g.triples →
    w.byType.get? t = some k → w.byType.get? t' = some k' → t = t'
  full : ∀ t ∈ g.triples, t.o.truthy = true

/-- The same triples. -/
def SameTriples (g g' : Graph) : Prop := ∀ t, t ∈ g.triples ↔ t ∈ g'.triples

end Spec

theorem filterMap_at_most {α β} {f : α → Option β} : ∀ {l : List α}, l.Nodup → (∀ t ∈ l, ∀ t' ∈ l, (f t).isSome → (f t').isSome → t = t') →
    l.filterMap f = [] ∨ ∃ k, l.filterMap f = [k]
  | [], _, _ => Or.inl rfl
  | a :: l, hn, h => by
    rw [List.nodup_cons] at hn
    have ih := filterMap_at_most (f := f) hn.2 fun t ht t' ht' => h t (by simp [ht]) t' (by simp [ht'])
    cases ha : f a with
    | none => rw [List.filterMap_cons_none ha]; exact ih
    | some k =>
      rw [List.filterMap_cons_some ha]
      refine Or.inr ⟨k, ?_⟩
      have : l.filterMap f = [] := by
        rw [List.filterMap_eq_nil_iff]
        intro b hb
        cases hbf : f b with
        | none => rfl
        | some k' =>
          have := h a (by simp) b (by simp [hb]) (by simp [ha]) (by simp [hbf])
          subst this; exact absurd hb hn.1
      rw [this]

section
variable {o o' : Orders} (ho : o.OK) (ho' : o'.OK) {g g' : Graph} (hg : g.Reach) (hg' : g'.Reach) (h : SameTriples g g') {w : World} (wr : w.Reach) (h1 : OneClass w g)
include ho ho' hg hg' h wr h1

/-- A node has the same class in both runs, and no class is made. -/
theorem classify_runs {c : Nat} (hc : c < w.classes.length) {x : Term} (hx : x.truthy = true ∨ x = .none) :
    ∃ v, classify o w g c x = (w, .ok v) ∧ classify o' w g' c x = (w, .ok v) ∧ v.term = x := by
  obtain ⟨ns, _, ht⟩ := rdfType_ok wr.wf hc
  generalize hty : Term.named (ns ++ py! "type") = ty at ht
  have hty' : ty.truthy = true := by subst hty; cases ns <;> rfl
  have key : x.truthy = true → ∃ v, classifyNode o w g ty x = (w, .ok v) ∧ classifyNode o' w g' ty x = (w, .ok v) ∧ v.term = x := by
    intro hx
    have hm : ∀ {o : Orders} (_ : o.OK) {g : Graph} (_ : g.Reach) t, t ∈ o.terms (typesOf o g ty x) ↔ mkTriple x ty t ∈ g.triples := by
      intro o ho g hg t; rw [(ho.terms _).mem_iff, mem_typesOf ho hg hty' hx]
    have hmem : ∀ k, k ∈ classesOf o w g ty x ↔ k ∈ classesOf o' w g' ty x := by
      intro k
      unfold classesOf
      simp only [List.mem_filterMap, hm ho hg, hm ho' hg', h _]
    have cases' : ∀ {o : Orders} (_ : o.OK) {g : Graph} (_ : g.Reach) (_ : OneClass w g),
        classesOf o w g ty x = [] ∨ ∃ k, classesOf o w g ty x = [k] := by
      intro o ho g hg h1
      refine filterMap_at_most ((ho.terms _).nodup_iff.2 (by unfold typesOf; exact nodup_pySet _)) fun t ht1 t' ht2 hs hs' => ?_
      obtain ⟨k, hk⟩ := Option.isSome_iff_exists.1 hs
      obtain ⟨k', hk'⟩ := Option.isSome_iff_exists.1 hs'
      exact h1.one c ty hc ht x t t' k k' ((hm ho hg t).1 ht1) ((hm ho hg t').1 ht2) hk hk'
    have h1' : OneClass w g' := ⟨fun c ty hc ht x t t' k k' a b => h1.one c ty hc ht x t t' k k' ((h _).2 a) ((h _).2 b), fun t ht => h1.full t ((h t).2 ht)⟩
    unfold classifyNode
    rcases cases' ho hg h1 with e | ⟨k, e⟩ <;> rcases cases' ho' hg' h1' with e' | ⟨k', e'⟩ <;> rw [e, e'] at hmem <;> rw [e, e']
    · exact ⟨_, rfl, rfl, rfl⟩
    · exact absurd ((hmem k').2 (by simp)) (by simp)
    · exact absurd ((hmem k).1 (by simp)) (by simp)
    · have := (hmem k).1 (by simp)
      simp only [List.mem_cons, List.not_mem_nil, or_false] at this
      subst this
      exact ⟨_, rfl, rfl, rfl⟩
  rcases hx with hx | rfl
  · unfold classify
    cases x with
    | none => cases hx
    | lit v l d => exact ⟨_, rfl, rfl, rfl⟩
    | _ => simp only [ht]; exact key hx
  · exact ⟨_, rfl, rfl, rfl⟩

/-- Filtering by a class gives the same nodes. -/
theorem filterByType_runs {c : Nat} (hc : c < w.classes.length) (rc : Nat) {xs ys : List Term} (hxs : ∀ x ∈ xs, x.truthy = true) (hxy : xs.Perm ys) :
    ∃ zs zs', filterByType o g c rc w xs = (w, .ok zs) ∧ filterByType o' g' c rc w ys = (w, .ok zs') ∧ zs.Perm zs' := by
  let f : Term → Bool := fun x => x.isNode && match (classify o w g c x).2 with
    | .ok v => v.isInst w rc
    | .error _ => false
  have A : ∀ xs : List Term, (∀ x ∈ xs, x.truthy = true) → filterByType o g c rc w xs = (w, .ok (xs.filter f)) ∧ filterByType o' g' c rc w xs = (w, .ok (xs.filter f)) := by
    intro xs
    induction xs with
    | nil => intro _; exact ⟨rfl, rfl⟩
    | cons x xs ih =>
      intro hx
      obtain ⟨i1, i2⟩ := ih fun y hy => hx y (by simp [hy])
      obtain ⟨v, e1, e2, -⟩ := classify_runs ho ho' hg hg' h wr h1 hc (Or.inl (hx x (by simp)))
      unfold filterByType
      rw [List.filter_cons]
      by_cases hn : x.isNode = true
      · rw [if_pos hn, if_pos hn, e1, e2]
        dsimp only
        rw [i1, i2]
        have : f x = v.isInst w rc := by simp only [f, hn, e1, Bool.true_and]
        rw [this]
        exact ⟨rfl, rfl⟩
      · rw [if_neg hn, if_neg hn, if_neg (by simp [f, hn])]
        exact ⟨i1, i2⟩
  exact ⟨_, _, (A xs hxs).1, (A ys fun y hy => hxs y (hxy.mem_iff.2 hy)).2, hxy.filter f⟩

end

section
variable {o o' : Orders} (ho : o.OK) (ho' : o'.OK) {g g' : Graph} (hg : g.Reach) (hg' : g'.Reach) (h : SameTriples g g') {s p : Term} (hs : s.truthy = true) (hp : p.truthy = true)
include ho ho' hg hg' h hs hp

theorem objectsOf_runs : (objectsOf o g s p).Perm (objectsOf o' g' s p) :=
  (List.perm_ext_iff_of_nodup (nodup_objectsOf ho hg hs hp) (nodup_objectsOf ho' hg' hs hp)).2 fun x => by
    rw [mem_objectsOf ho hg hs hp, mem_objectsOf ho' hg' hs hp]; exact h _

theorem bareLiterals_runs : (bareLiterals o g s p).Perm (bareLiterals o' g' s p) := (objectsOf_runs ho ho' hg hg' h hs hp).filter _

theorem nodesOf_runs : (nodesOf o g s p).Perm (nodesOf o' g' s p) := (objectsOf_runs ho ho' hg hg' h hs hp).filter _

theorem objectsByLang_runs (l : Option PStr) : (objectsByLang o g s p l).Perm (objectsByLang o' g' s p l) := by
  unfold objectsByLang
  split
  · exact bareLiterals_runs ho ho' hg hg' h hs hp
  · exact (objectsOf_runs ho ho' hg hg' h hs hp).filter _

theorem objectsByDatatype_runs (d : Option PStr) : (objectsByDatatype o g s p d).Perm (objectsByDatatype o' g' s p d) := by
  unfold objectsByDatatype
  split
  · exact bareLiterals_runs ho ho' hg hg' h hs hp
  · exact (objectsOf_runs ho ho' hg hg' h hs hp).filter _

theorem langObjects_runs (l : Option PStr) (sc im : Bool) : (langObjects o g s p l sc im).Perm (langObjects o' g' s p l sc im) := by
  have hn := nodesOf_runs ho ho' hg hg' h hs hp
  have hb := bareLiterals_runs ho ho' hg hg' h hs hp
  have hd := objectsByDatatype_runs ho ho' hg hg' h hs hp none
  have hl := objectsByLang_runs ho ho' hg hg' h hs hp l
  have nil : ∀ {xs ys : List Term}, xs.Perm ys → (xs = [] ↔ ys = []) := fun hxy =>
    ⟨fun e => by subst e; simpa using hxy.nil_eq.symm, fun e => by subst e; simpa using hxy⟩
  have app : ∀ {xs ys xs' ys' : List Term}, xs.Perm ys → xs'.Perm ys' →
      (if xs = [] then xs ++ xs' else xs).Perm (if ys = [] then ys ++ ys' else ys) := by
    intro xs ys xs' ys' h1 h2
    by_cases e : xs = []
    · rw [if_pos e, if_pos ((nil h1).1 e)]; exact h1.append h2
    · rw [if_neg e, if_neg (fun e' => e ((nil h1).2 e'))]; exact h1
  have cond : ∀ {b b' : Bool} {xs ys xs' ys' : List Term}, b = b' → xs.Perm ys → xs'.Perm ys' → (if b = true then xs else xs').Perm (if b' = true then ys else ys') := by
    intro b b' xs ys xs' ys' e h1 h2
    subst e
    cases b
    · exact h2
    · exact h1
  have hdec : decide (objectsByLang o g s p l = []) = decide (objectsByLang o' g' s p l = []) := by
    rw [decide_eq_decide]; exact nil hl
  have h4 := cond (congrArg (im && sc && ·) hdec) (app (app (hl.append hn) hd) hb) hl
  unfold langObjects
  dsimp only
  exact cond (b := !sc) rfl (h4.append hn) h4

end

section
variable {o o' : Orders} (ho : o.OK) (ho' : o'.OK) {g g' : Graph} (hg : g.Reach) (hg' : g'.Reach) (h : SameTriples g g') {w : World} (wr : w.Reach) (h1 : OneClass w g)
  {r : Res} (hc : r.c < w.classes.length) (hs : r.s.truthy = true) {p : PStr} (hp : p ≠ [])
include ho ho' hg hg' h wr h1 hc hs hp

theorem objectsByType_runs (rc : Nat) : ∃ xs ys, objectsByType o w g r (predTerm (some p)) (some rc) = (w, .ok xs) ∧
    objectsByType o' w g' r (predTerm (some p)) (some rc) = (w, .ok ys) ∧ xs.Perm ys := by
  have hp' := predTerm_truthy hp
  refine filterByType_runs ho ho' hg hg' h wr h1 hc rc (fun x hx => ?_) (objectsOf_runs ho ho' hg hg' h hs hp')
  exact h1.full _ ((mem_objectsOf ho hg hs hp' x).1 hx)

theorem objectsForSel_runs {sel : Sel} (hsel : sel.pred = some p) (im : Bool) :
    ∃ xs ys, objectsForSel o w g r sel im = (w, .ok xs) ∧ objectsForSel o' w g' r sel im = (w, .ok ys) ∧ xs.Perm ys := by
  have hp' : (predTerm (some p)).truthy = true := predTerm_truthy hp
  unfold objectsForSel
  rw [hsel]
  dsimp only
  split
  · exact ⟨_, _, rfl, rfl, objectsOf_runs ho ho' hg hg' h hs hp'⟩
  · split
    · exact ⟨_, _, rfl, rfl, langObjects_runs ho ho' hg hg' h hs hp' ..⟩
    · split
      · refine ⟨_, _, rfl, rfl, ?_⟩
        unfold dtObjects
        dsimp only
        split
        · exact (objectsByDatatype_runs ho ho' hg hg' h hs hp' _).append (nodesOf_runs ho ho' hg hg' h hs hp')
        · exact objectsByDatatype_runs ho ho' hg hg' h hs hp' _
      · split
        · exact objectsByType_runs ho ho' hg hg' h wr h1 hc hs hp _
        · exact ⟨_, _, rfl, rfl, bareLiterals_runs ho ho' hg hg' h hs hp'⟩

theorem objectsForKey_runs {key : Key} (hk : resolveKey w r.c key.text = .ok (some p)) :
    ∃ xs ys, objectsForKey o w g r key = (w, .ok (some p, xs)) ∧ objectsForKey o' w g' r key = (w, .ok (some p, ys)) ∧ xs.Perm ys ∧
      ∀ x ∈ xs, x.truthy = true := by
  have hp' : (predTerm (some p)).truthy = true := predTerm_truthy hp
  have hi : ∃ sel, interpretKey w r key = .ok sel ∧ sel.pred = some p := by
    unfold interpretKey
    rw [hk]
    cases key with
    | name k => exact ⟨_, rfl, rfl⟩
    | pair k f => cases f <;> exact ⟨_, rfl, rfl⟩
  obtain ⟨sel, hi, hsel⟩ := hi
  obtain ⟨xs, ys, e1, e2, hxy⟩ := objectsForSel_runs ho ho' hg hg' h wr h1 hc hs hp hsel (!key.isTuple)
  have e3 : objectsForKey o w g r key = (w, .ok (some p, xs)) := by unfold objectsForKey; rw [hi]; dsimp only; rw [e1, hsel]
  refine ⟨xs, ys, e3, ?_, hxy, fun x hx => ?_⟩
  · unfold objectsForKey; rw [hi]; dsimp only; rw [e2, hsel]
  · have hspec := objectsForKey_spec (o := o) wr g hc key
    rw [e3] at hspec
    have := (hspec.2.2.1 _ _ rfl).2.1 x hx
    exact h1.full _ ((mem_objectsOf ho hg hs hp' x).1 this)

end

/-! ### Assignments -/

namespace Spec

/-- The node a value refers to. -/
def PyVal.node? : PyVal → Option Term
  | .iri s => some (.named s)
  | .bnode i => some (.bnode i)
  | .res _ s => some s
  | _ => none

/-- The same value: one value, the same list or tuple, or the same set, whose elements come in any order; a set has no two elements for the same node. -/
def SameValue : SetVal → SetVal → Prop
  | .one u, .one u' => u = u'
  | .many us, .many us' => us = us' ∨ (us.Perm us' ∧ ∀ a ∈ us, ∀ b ∈ us, (PyVal.node? a).isSome → PyVal.node? a = PyVal.node? b → a = b)
  | _, _ => False

/-- Not the empty IRI. -/
def PyVal.Full (u : PyVal) : Prop := u ≠ .iri []

end Spec

/-- The same value after conversion. -/
def LSame : LVal → LVal → Prop
  | .one x, .one y => x = y
  | .many xs, .many ys => ∀ y, y ∈ xs ↔ y ∈ ys
  | _, _ => False

theorem mem_frozen_of {v : Val} : ∀ {xs : List Val}, v ∈ frozen xs → v ∈ xs
  | [], h => h
  | x :: xs, h => by
    rw [frozen, List.mem_cons] at h
    rcases h with rfl | h
    · exact List.mem_cons_self
    · exact List.mem_cons_of_mem _ (mem_frozen_of (List.mem_filter.1 h).1)

theorem mem_frozen_iff {v : Val} : ∀ {xs : List Val}, (∀ a ∈ xs, ∀ b ∈ xs, a.same b = true → a = b) → (v ∈ frozen xs ↔ v ∈ xs)
  | [], _ => Iff.rfl
  | x :: xs, h => by
    refine ⟨mem_frozen_of, fun hv => ?_⟩
    rw [frozen, List.mem_cons]
    by_cases e : v = x
    · exact Or.inl e
    · refine Or.inr (List.mem_filter.2 ⟨?_, ?_⟩)
      · refine (mem_frozen_iff fun a ha b hb => h a (by simp [ha]) b (by simp [hb])).2 ?_
        exact (List.mem_cons.1 hv).resolve_left e
      · cases hs : x.same v with
        | false => rfl
        | true => exact absurd (h x (by simp) v hv hs).symm e

theorem checkElems_iff {w : World} {lang dt : Option PStr} {rc : Option Nat} : ∀ {xs : List Val},
    checkElems w lang dt rc xs = .ok true ↔ ∀ x ∈ xs, checkElem w lang dt rc x = .ok true
  | [] => by simp [checkElems]
  | x :: xs => by
    rw [checkElems]
    cases hx : checkElem w lang dt rc x with
    | error e => simp [hx]
    | ok b => cases b <;> simp [hx, checkElems_iff (xs := xs)]

section
variable {o o' : Orders} (ho : o.OK) (ho' : o'.OK) {g g' : Graph} (hg : g.Reach) (hg' : g'.Reach) (h : SameTriples g g') {w : World} (wr : w.Reach) (h1 : OneClass w g)
include ho ho' hg hg' h wr h1

theorem objectify_runs (lang dt : Option PStr) {u : PyVal} (hu : PyVal.Full u) :
    (∃ e, objectify o w g lang dt u = (w, .error e) ∧ objectify o' w g' lang dt u = (w, .error e)) ∨
    ∃ v, objectify o w g lang dt u = (w, .ok v) ∧ objectify o' w g' lang dt u = (w, .ok v) ∧ ∀ c s, v = .res c s → PyVal.node? u = some s := by
  have h0 : 0 < w.classes.length := Nat.lt_of_lt_of_le (by decide) wr.wf.two
  cases u with
  | iri s =>
    have hx : (Term.named s).truthy = true := by
      cases s with
      | nil => exact absurd rfl hu
      | cons => rfl
    obtain ⟨v, e1, e2, e3⟩ := classify_runs ho ho' hg hg' h wr h1 h0 (Or.inl hx)
    exact Or.inr ⟨v, e1, e2, fun c t e => by subst e; simp only [Val.term] at e3; rw [e3]; rfl⟩
  | bnode i =>
    obtain ⟨v, e1, e2, e3⟩ := classify_runs ho ho' hg hg' h wr h1 h0 (x := .bnode i) (Or.inl rfl)
    exact Or.inr ⟨v, e1, e2, fun c t e => by subst e; simp only [Val.term] at e3; rw [e3]; rfl⟩
  | lit v l d => exact Or.inr ⟨_, rfl, rfl, fun c s e => by cases e⟩
  | res c s => exact Or.inr ⟨_, rfl, rfl, fun c' s' e => by cases e; rfl⟩
  | str s => exact Or.inr ⟨_, rfl, rfl, fun c s e => by cases e⟩
  | other a =>
    simp only [objectify]
    split
    · exact Or.inl ⟨_, rfl, rfl⟩
    · exact Or.inr ⟨_, rfl, rfl, fun c s e => by cases e⟩
    · exact Or.inl ⟨_, rfl, rfl⟩

/-- The value a converted element has. -/
theorem objectifyAll_runs (lang dt : Option PStr) {us us' : List PyVal} (hus : ∀ u ∈ us, PyVal.Full u) (hp : us.Perm us') :
    (∃ e e', objectifyAll o g lang dt w us = (w, .error e) ∧ objectifyAll o' g' lang dt w us' = (w, .error e')) ∨
    ∃ G : PyVal → Val, objectifyAll o g lang dt w us = (w, .ok (us.map G)) ∧ objectifyAll o' g' lang dt w us' = (w, .ok (us'.map G)) ∧
      ∀ u ∈ us, ∀ c s, G u = .res c s → PyVal.node? u = some s := by
  let G : PyVal → Val := fun u => match (objectify o w g lang dt u).2 with
    | .ok v => v
    | .error _ => .none
  have good : ∀ {us : List PyVal}, (∀ u ∈ us, PyVal.Full u) → (∀ u ∈ us, ∃ v, (objectify o w g lang dt u).2 = .ok v) →
      objectifyAll o g lang dt w us = (w, .ok (us.map G)) ∧ objectifyAll o' g' lang dt w us = (w, .ok (us.map G)) := by
    intro us
    induction us with
    | nil => intro _ _; exact ⟨rfl, rfl⟩
    | cons u us ih =>
      intro hf hok
      obtain ⟨i1, i2⟩ := ih (fun x hx => hf x (by simp [hx])) fun x hx => hok x (by simp [hx])
      obtain ⟨v, hv⟩ := hok u (by simp)
      rcases objectify_runs ho ho' hg hg' h wr h1 lang dt (hf u (by simp)) with ⟨e, e1, -⟩ | ⟨v', e1, e2, -⟩
      · rw [e1] at hv; cases hv
      · have hG : G u = v' := by simp only [G, e1]
        unfold objectifyAll
        rw [e1, e2]
        dsimp only
        rw [i1, i2, List.map_cons, hG]
        exact ⟨rfl, rfl⟩
  have bad : ∀ {us : List PyVal}, (∀ u ∈ us, PyVal.Full u) → (∃ u ∈ us, ∃ e, (objectify o w g lang dt u).2 = .error e) →
      (∃ e, objectifyAll o g lang dt w us = (w, .error e)) ∧ ∃ e, objectifyAll o' g' lang dt w us = (w, .error e) := by
    intro us
    induction us with
    | nil => intro _ h; obtain ⟨u, hu, _⟩ := h; cases hu
    | cons u us ih =>
      intro hf hok
      unfold objectifyAll
      rcases objectify_runs ho ho' hg hg' h wr h1 lang dt (hf u (by simp)) with ⟨e, e1, e2⟩ | ⟨v', e1, e2, -⟩
      · rw [e1, e2]; exact ⟨⟨_, rfl⟩, _, rfl⟩
      · rw [e1, e2]
        dsimp only
        obtain ⟨x, hx, e, he⟩ := hok
        rcases List.mem_cons.1 hx with rfl | hx
        · rw [e1] at he; cases he
        · obtain ⟨⟨a, i1⟩, b, i2⟩ := ih (fun x hx => hf x (by simp [hx])) ⟨x, hx, e, he⟩
          rw [i1, i2]; exact ⟨⟨_, rfl⟩, _, rfl⟩
  have hus' : ∀ u ∈ us', PyVal.Full u := fun u hu => hus u (hp.mem_iff.2 hu)
  by_cases hb : ∃ u ∈ us, ∃ e, (objectify o w g lang dt u).2 = .error e
  · obtain ⟨⟨e, h1⟩, -⟩ := bad hus hb
    obtain ⟨u, hu, x⟩ := hb
    obtain ⟨-, e', h2⟩ := bad hus' ⟨u, hp.mem_iff.1 hu, x⟩
    exact Or.inl ⟨e, e', h1, h2⟩
  · have ok : ∀ u ∈ us, ∃ v, (objectify o w g lang dt u).2 = .ok v := by
      intro u hu
      cases hq : (objectify o w g lang dt u).2 with
      | error e => exact absurd ⟨u, hu, e, hq⟩ hb
      | ok v => exact ⟨v, rfl⟩
    refine Or.inr ⟨G, (good hus ok).1, (good hus' fun u hu => ok u (hp.mem_iff.2 hu)).2, fun u hu c s e => ?_⟩
    rcases objectify_runs ho ho' hg hg' h wr h1 lang dt (hus u hu) with ⟨x, e1, -⟩ | ⟨v', e1, -, e3⟩
    · obtain ⟨v, hv⟩ := ok u hu
      rw [e1] at hv; cases hv
    · have hG : G u = v' := by simp only [G, e1]
      exact e3 c s (hG.symm.trans e)

theorem literalize_runs (lang dt : Option PStr) {v v' : SetVal} (hf : ∀ u ∈ values v, PyVal.Full u) (hv : SameValue v v') :
    (∃ e e', literalize o w g lang dt v = (w, .error e) ∧ literalize o' w g' lang dt v' = (w, .error e')) ∨
    ∃ x x', literalize o w g lang dt v = (w, .ok x) ∧ literalize o' w g' lang dt v' = (w, .ok x') ∧ LSame x x' := by
  match v, v', hv with
  | .one u, .one _, rfl =>
    simp only [literalize]
    rcases objectify_runs ho ho' hg hg' h wr h1 lang dt (hf u (by simp [values])) with ⟨e, e1, e2⟩ | ⟨x, e1, e2, -⟩
    · rw [e1, e2]; exact Or.inl ⟨_, _, rfl, rfl⟩
    · rw [e1, e2]; exact Or.inr ⟨_, _, rfl, rfl, rfl⟩
  | .many us, .many us', hv =>
    simp only [literalize]
    have hp : us.Perm us' := by
      rcases hv with rfl | hv
      · exact .refl _
      · exact hv.1
    rcases objectifyAll_runs ho ho' hg hg' h wr h1 lang dt (us := us) hf hp with ⟨e, e', e1, e2⟩ | ⟨G, e1, e2, e3⟩
    · rw [e1, e2]; exact Or.inl ⟨_, _, rfl, rfl⟩
    · rw [e1, e2]
      refine Or.inr ⟨_, _, rfl, rfl, fun y => ?_⟩
      rcases hv with rfl | ⟨-, hd⟩
      · exact Iff.rfl
      · have inj : ∀ a ∈ us.map G, ∀ b ∈ us.map G, a.same b = true → a = b := by
          intro a ha b hb hab
          obtain ⟨u, hu, rfl⟩ := List.mem_map.1 ha
          obtain ⟨u', hu', rfl⟩ := List.mem_map.1 hb
          have dec : ∀ {a b : Val}, decide (a = b) = true → a = b := fun h => of_decide_eq_true h
          cases ha' : G u with
          | res c s =>
            cases hb' : G u' with
            | res c' s' =>
              rw [ha', hb'] at hab
              have : s = s' := of_decide_eq_true hab
              have hn := e3 u hu c s ha'
              have hn' := e3 u' hu' c' s' hb'
              have := hd u hu u' hu' (by rw [hn]; rfl) (by rw [hn, hn', this])
              subst this
              rw [← ha', ← hb']
            | _ => rw [ha', hb'] at hab; exact of_decide_eq_true hab
          | _ => rw [ha'] at hab; exact of_decide_eq_true hab
        have inj' : ∀ a ∈ us'.map G, ∀ b ∈ us'.map G, a.same b = true → a = b := fun a ha b hb =>
          inj a ((hp.map G).mem_iff.2 ha) b ((hp.map G).mem_iff.2 hb)
        rw [mem_frozen_iff inj, mem_frozen_iff inj', (hp.map G).mem_iff]

theorem checkObjects_runs (lang dt : Option PStr) (rc : Option Nat) {x x' : LVal} (hx : LSame x x') :
    checkObjects o w lang dt rc x = .ok true ↔ checkObjects o' w lang dt rc x' = .ok true := by
  match x, x', hx with
  | .one v, .one _, rfl => exact Iff.rfl
  | .many xs, .many ys, hx =>
    simp only [checkObjects, checkElems_iff, (ho.vals xs).mem_iff, (ho'.vals ys).mem_iff]
    exact ⟨fun k y hy => k y ((hx y).2 hy), fun k y hy => k y ((hx y).1 hy)⟩

theorem removalList_runs {r : Res} (hc : r.c < w.classes.length) (hs : r.s.truthy = true) {p : PStr} (hp : p ≠ [])
    (key : Key) {sel : Sel} (hsel : sel.pred = some p) {x x' : LVal} (hx : LSame x x') :
    (∃ e e', removalList o w g r key sel x = (w, .error e) ∧ removalList o' w g' r key sel x' = (w, .error e')) ∨
    ∃ ys ys', removalList o w g r key sel x = (w, .ok ys) ∧ removalList o' w g' r key sel x' = (w, .ok ys') ∧ ys.Perm ys' := by
  have hp' : (predTerm (some p)).truthy = true := predTerm_truthy hp
  have hO := objectsOf_runs ho ho' hg hg' h hs hp'
  have hL := fun l => objectsByLang_runs ho ho' hg hg' h hs hp' l
  have hD := fun d => objectsByDatatype_runs ho ho' hg hg' h hs hp' d
  have hN := nodesOf_runs ho ho' hg hg' h hs hp'
  have hB := bareLiterals_runs ho ho' hg hg' h hs hp'
  unfold removalList
  by_cases hk : key.isTuple = true
  · rw [if_pos hk, if_pos hk]
    have hch := checkObjects_runs ho ho' hg hg' h wr h1 sel.lang sel.dt sel.cls hx
    unfold objectsForExplicitSet
    rw [hsel]
    dsimp only
    by_cases hok : checkObjects o w sel.lang sel.dt sel.cls x = .ok true
    · rw [hok, hch.1 hok]
      dsimp only
      split
      · exact Or.inr ⟨_, _, rfl, rfl, ((hL _).append (hD _)).append hN⟩
      · split
        · exact Or.inr ⟨_, _, rfl, rfl, (hL _).append hN⟩
        · split
          · exact Or.inr ⟨_, _, rfl, rfl, hO⟩
          · split
            · exact Or.inr ⟨_, _, rfl, rfl, (hD _).append hN⟩
            · split
              · exact Or.inr (objectsByType_runs ho ho' hg hg' h wr h1 hc hs hp _)
              · exact Or.inl ⟨_, _, rfl, rfl⟩
    · have hok' : ¬ checkObjects o' w sel.lang sel.dt sel.cls x' = .ok true := fun k => hok (hch.2 k)
      refine Or.inl ?_
      rcases hq : checkObjects o w sel.lang sel.dt sel.cls x with e | b <;> rcases hq' : checkObjects o' w sel.lang sel.dt sel.cls x' with e' | b'
      · exact ⟨_, _, rfl, rfl⟩
      · cases b'
        · exact ⟨_, _, rfl, rfl⟩
        · exact absurd hq' hok'
      · cases b
        · exact ⟨_, _, rfl, rfl⟩
        · exact absurd hq hok
      · cases b
        · cases b'
          · exact ⟨_, _, rfl, rfl⟩
          · exact absurd hq' hok'
        · exact absurd hq hok
  · rw [if_neg hk, if_neg hk]
    unfold objectsForImplicitSet
    rw [hsel]
    dsimp only
    match x, x', hx with
    | .one v, .one _, rfl =>
      split
      · exact Or.inl ⟨_, _, rfl, rfl⟩
      · exact Or.inr ⟨_, _, rfl, rfl, (((hL _).append (hD _)).append hN).append hB⟩
      · exact Or.inr ⟨_, _, rfl, rfl, hO⟩
    | .many xs, .many ys, hx =>
      cases isScalar w r.c (some p) with
      | true => exact Or.inl ⟨_, _, rfl, rfl⟩
      | false => exact Or.inr ⟨_, _, rfl, rfl, hO⟩

/-- Removing the same values ends in the same way. -/
theorem removeObjs_runs {s p : Term} {xs ys : List Term} (hxy : xs.Perm ys) :
    (∃ gf gf', removeObjs s p g xs = (gf, .error .keyError) ∧ removeObjs s p g' ys = (gf', .error .keyError)) ∨
    ∃ g1 g2, removeObjs s p g xs = (g1, .ok ()) ∧ removeObjs s p g' ys = (g2, .ok ()) ∧ SameTriples g1 g2 := by
  have a1 := removeObjs_iff hg s p xs
  have a2 := removeObjs_iff hg' s p ys
  have hiff : (removeObjs s p g xs).2 = .ok () ↔ (removeObjs s p g' ys).2 = .ok () := by
    rw [a1.1, a2.1, hxy.nodup_iff]
    exact and_congr_right fun _ => ⟨fun hx y hy => (h _).1 (hx y (hxy.mem_iff.2 hy)), fun hx y hy => (h _).2 (hx y (hxy.mem_iff.1 hy))⟩
  rcases a1.2 with e | e
  · refine Or.inr ⟨_, _, Prod.ext rfl e, Prod.ext rfl (hiff.1 e), fun t => ?_⟩
    have b1 := a1.1.1 e
    have b2 := a2.1.1 (hiff.1 e)
    rw [(removeObjs_ok hg s p xs b1.1 b1.2).2, (removeObjs_ok hg' s p ys b2.1 b2.2).2, h t]
    exact and_congr_right fun _ => ⟨fun hx y hy => hx y (hxy.mem_iff.2 hy), fun hx y hy => hx y (hxy.mem_iff.1 hy)⟩
  · rcases a2.2 with e' | e'
    · rw [hiff.2 e'] at e; cases e
    · exact Or.inl ⟨_, _, Prod.ext rfl e, Prod.ext rfl e'⟩

theorem setItem_runs {r : Res} (hc : r.c < w.classes.length) (hs : r.s.truthy = true) {key : Key} {p : PStr} (hk : resolveKey w r.c key.text = .ok (some p))
    (hp : p ≠ []) {v v' : SetVal} (hf : ∀ u ∈ values v, PyVal.Full u) (hv : SameValue v v') :
    (∃ gf gf' e e', setItem o w g r key v = (w, gf, .error e) ∧ setItem o' w g' r key v' = (w, gf', .error e')) ∨
    ∃ g1 g2, setItem o w g r key v = (w, g1, .ok ()) ∧ setItem o' w g' r key v' = (w, g2, .ok ()) ∧ SameTriples g1 g2 := by
  have hi : ∃ sel, interpretKey w r key = .ok sel ∧ sel.pred = some p := by
    unfold interpretKey
    rw [hk]
    cases key with
    | name k => exact ⟨_, rfl, rfl⟩
    | pair k f => cases f <;> exact ⟨_, rfl, rfl⟩
  obtain ⟨sel, hi, hsel⟩ := hi
  unfold setItem
  rw [hi]
  dsimp only
  rcases literalize_runs ho ho' hg hg' h wr h1 sel.lang sel.dt hf hv with ⟨e, e', e1, e2⟩ | ⟨x, x', e1, e2, hx⟩
  · rw [e1, e2]; exact Or.inl ⟨_, _, _, _, rfl, rfl⟩
  rw [e1, e2]
  dsimp only
  have er : ∀ (o : Orders) (g : Graph) (x : LVal), (if key.isTuple = true then objectsForExplicitSet o w g r sel x else (w, objectsForImplicitSet o w g r sel.pred x))
      = removalList o w g r key sel x := fun _ _ _ => rfl
  rw [er, er]
  rcases removalList_runs ho ho' hg hg' h wr h1 hc hs hp key hsel hx with ⟨e, e', f1, f2⟩ | ⟨ys, ys', f1, f2, hy⟩
  · rw [f1, f2]; exact Or.inl ⟨_, _, _, _, rfl, rfl⟩
  rw [f1, f2]
  dsimp only
  rcases removeObjs_runs ho ho' hg hg' h wr h1 (s := r.s) (p := predTerm sel.pred) hy with ⟨gf, gf', k1, k2⟩ | ⟨g1, g2, k1, k2, hsame⟩
  · rw [k1, k2]; exact Or.inl ⟨_, _, _, _, rfl, rfl⟩
  rw [k1, k2]
  refine Or.inr ⟨_, _, rfl, rfl, fun t => ?_⟩
  have ha : ∀ (xs : List Val) (gg : Graph), xs.foldl (fun g x => g.add (mkTriple r.s (predTerm sel.pred) x.term)) gg
      = (xs.map Val.term).foldl (fun g x => g.add (mkTriple r.s (predTerm sel.pred) x)) gg := fun xs gg => by rw [List.foldl_map]
  rw [ha, ha, mem_adds, mem_adds, hsame t]
  refine or_congr_left ?_
  have hm : ∀ v, v ∈ x.vals o ↔ v ∈ x'.vals o' := by
    match x, x', hx with
    | .one v, .one _, rfl => exact fun _ => Iff.rfl
    | .many xs, .many ys, hx => intro v; simp only [LVal.vals, (ho.vals xs).mem_iff, (ho'.vals ys).mem_iff]; exact hx v
  simp only [List.mem_map]
  exact ⟨fun ⟨u, ⟨a, b, c⟩, d⟩ => ⟨u, ⟨a, (hm a).1 b, c⟩, d⟩, fun ⟨u, ⟨a, b, c⟩, d⟩ => ⟨u, ⟨a, (hm a).2 b, c⟩, d⟩⟩

end

theorem removeStmts_reach : ∀ {ts : List Stmt} {g : Graph}, g.Reach → (∀ t ∈ ts, t.g = none) → (removeStmts g ts).1.Reach
  | [], _, hg, _ => hg
  | t :: ts, g, hg, h => by
    have hr := hg.remove t.s t.p t.o
    rw [← eq_mkTriple (h t (by simp))] at hr
    unfold removeStmts
    rcases hq : g.remove t with ⟨g1, e | u⟩ <;> rw [hq] at hr
    · exact hr
    · exact removeStmts_reach hr fun x hx => h x (by simp [hx])

theorem erase_reach {o : Orders} (ho : o.OK) {g : Graph} (hg : g.Reach) (r : Res) : (erase o g r).1.Reach :=
  removeStmts_reach hg fun t ht => hg.inv.isTri t ((mem_match hg.inv ho.stmts r.s .none .none t).1 ht).1

/-! ### Programs -/

namespace Spec

/-- What a program does with a resource: assign, delete, read (listing all values if there can be several), read with `get_scalar`, test for a key, list all properties, erase,
    make a resource of a class. -/
inductive Step
  | set (r : Res) (key : Key) (value : SetVal)
  | del (r : Res) (key : Key)
  | read (r : Res) (key : Key)
  | scalar (r : Res) (key : Key)
  | contains (r : Res) (key : Key)
  | pairs (r : Res)
  | erase (r : Res)
  | new (c : Nat) (subject : Term)

/-- What it sees of that. -/
inductive Out
  | done
  | value (v : Val)
  | values (vs : List Val)
  | flag (b : Bool)
  | pairs (ps : List (Term × Term))
  | res (r : Res)

/-- The same, but for the order of several values. -/
def Out.Same : Out → Out → Prop
  | .done, .done => True
  | .value v, .value v' => v = v'
  | .values vs, .values vs' => vs.Perm vs'
  | .flag b, .flag b' => b = b'
  | .pairs ps, .pairs ps' => ps.Perm ps'
  | .res r, .res r' => r = r'
  | _, _ => False

/-- `r[key]`, as a value or as the list of its values. -/
def readOut (o : Orders) (w : World) (g : Graph) (r : Res) (key : Key) : World × Except Exc Out :=
  match getItem o w g r key with
  | (w, .error e) => (w, .error e)
  | (w, .ok (.one v)) => (w, .ok (.value v))
  | (w, .ok (.iter xs)) =>
    match collect o g r.c w xs with
    | (w, .error e) => (w, .error e)
    | (w, .ok vs) => (w, .ok (.values vs))

def Step.run (o : Orders) (w : World) (g : Graph) : Step → World × Graph × Except Exc Out
  | .set r key v =>
    match setItem o w g r key v with
    | (w, g, .error e) => (w, g, .error e)
    | (w, g, .ok ()) => (w, g, .ok .done)
  | .del r key =>
    match delItem o w g r key with
    | (w, g, .error e) => (w, g, .error e)
    | (w, g, .ok ()) => (w, g, .ok .done)
  | .read r key => ((readOut o w g r key).1, g, (readOut o w g r key).2)
  | .scalar r key => ((getScalar o w g r key).1, g, (getScalar o w g r key).2.map .value)
  | .contains r key => ((containsKey o w g r key).1, g, (containsKey o w g r key).2.map .flag)
  | .pairs r => (w, g, .ok (.pairs (iterPairs o g r)))
  | .erase r =>
    match Verif.erase o g r with
    | (g, .error e) => (w, g, .error e)
    | (g, .ok ()) => (w, g, .ok .done)
  | .new c s =>
    match newRes o w g c (some s) 0 with
    | (g, .error e) => (w, g, .error e)
    | (g, .ok r) => (w, g, .ok (.res r))

/-- One step after the other, each with the iteration orders of its moment: what has been seen, and the exception that ended the program, if one did. -/
def runProgram : World → Graph → List (Orders × Step) → List Out × Option Exc × World × Graph
  | w, g, [] => ([], none, w, g)
  | w, g, (o, s) :: ss =>
    match s.run o w g with
    | (w, g, .error e) => ([], some e, w, g)
    | (w, g, .ok x) =>
      let q := runProgram w g ss
      (x :: q.1, q.2)

/-- The same step. A set that is assigned may be listed in another order. -/
def Step.Same : Step → Step → Prop
  | .set r k v, .set r' k' v' => r = r' ∧ k = k' ∧ SameValue v v'
  | a, b => a = b

/-- The same program in two runs. -/
inductive SameProgram : List (Orders × Step) → List (Orders × Step) → Prop
  | nil : SameProgram [] []
  | cons {o o' s s' ss ss'} : o.OK → o'.OK → Step.Same s s' → SameProgram ss ss' → SameProgram ((o, s) :: ss) ((o', s') :: ss')

/-- The key stands for a property. -/
structure NamesProperty (w : World) (r : Res) (key : Key) : Prop where
  cls : r.c < w.classes.length
  subject : r.s.truthy = true
  name : ∃ p, p ≠ [] ∧ resolveKey w r.c key.text = .ok (some p)

/-- The step is about existing classes, IRIs that are not empty, and keys that stand for properties. -/
def Step.Fine (w : World) : Step → Prop
  | .set r key v => NamesProperty w r key ∧ ∀ u ∈ values v, PyVal.Full u
  | .del r key => NamesProperty w r key
  | .read r key => NamesProperty w r key
  | .scalar r key => NamesProperty w r key
  | .contains r key => NamesProperty w r key
  | .pairs r => r.s.truthy = true
  | .erase r => r.s.truthy = true
  | .new c _ => c < w.classes.length

/-- Every step is fine, and at no moment before a step a node has two types with registered classes. -/
def Orderly : World → Graph → List (Orders × Step) → Prop
  | _, _, [] => True
  | w, g, (o, s) :: ss => s.Fine w ∧ OneClass w g ∧
    ∀ x, (s.run o w g).2.2 = .ok x → Orderly (s.run o w g).1 (s.run o w g).2.1 ss

end Spec

section
variable {o o' : Orders} (ho : o.OK) (ho' : o'.OK) {g g' : Graph} (hg : g.Reach) (hg' : g'.Reach) (h : SameTriples g g') {w : World} (wr : w.Reach) (h1 : OneClass w g)
include ho ho' hg hg' h wr h1

theorem collect_runs {c : Nat} (hc : c < w.classes.length) {xs ys : List Term} (hxs : ∀ x ∈ xs, x.truthy = true) (hxy : xs.Perm ys) :
    ∃ vs vs', collect o g c w xs = (w, .ok vs) ∧ collect o' g' c w ys = (w, .ok vs') ∧ vs.Perm vs' := by
  let f : Term → Val := fun x => match (classify o w g c x).2 with
    | .ok v => v
    | .error _ => .none
  have A : ∀ xs : List Term, (∀ x ∈ xs, x.truthy = true) → collect o g c w xs = (w, .ok (xs.map f)) ∧ collect o' g' c w xs = (w, .ok (xs.map f)) := by
    intro xs
    induction xs with
    | nil => intro _; exact ⟨rfl, rfl⟩
    | cons x xs ih =>
      intro hx
      obtain ⟨i1, i2⟩ := ih fun y hy => hx y (by simp [hy])
      obtain ⟨v, e1, e2, -⟩ := classify_runs ho ho' hg hg' h wr h1 hc (Or.inl (hx x (by simp)))
      have hf : f x = v := by simp only [f, e1]
      unfold collect
      rw [e1, e2]
      dsimp only
      rw [i1, i2, List.map_cons, hf]
      exact ⟨rfl, rfl⟩
  exact ⟨_, _, (A xs hxs).1, (A ys fun y hy => hxs y (hxy.mem_iff.2 hy)).2, hxy.map f⟩

theorem classifyOne_runs {c : Nat} (hc : c < w.classes.length) {xs ys : List Term} (hxs : ∀ x ∈ xs, x.truthy = true) (hxy : xs.Perm ys) :
    ∃ q, classifyOne o w g c xs = (w, q) ∧ classifyOne o' w g' c ys = (w, q) := by
  have hl := hxy.length_eq
  unfold classifyOne
  match xs, ys with
  | [], [] => exact ⟨_, rfl, rfl⟩
  | [x], [y] =>
    have : x = y := by simpa using hxy
    subst this
    obtain ⟨v, e1, e2, -⟩ := classify_runs ho ho' hg hg' h wr h1 hc (Or.inl (hxs x (by simp)))
    exact ⟨_, e1, e2⟩
  | _ :: _ :: _, _ :: _ :: _ => exact ⟨_, rfl, rfl⟩
  | [], _ :: _ => simp at hl
  | _ :: _, [] => simp at hl
  | [_], _ :: _ :: _ => simp at hl
  | _ :: _ :: _, [_] => simp at hl

theorem readOut_runs {r : Res} {key : Key} (hn : NamesProperty w r key) :
    (∃ e, readOut o w g r key = (w, .error e) ∧ readOut o' w g' r key = (w, .error e)) ∨
    ∃ x x', readOut o w g r key = (w, .ok x) ∧ readOut o' w g' r key = (w, .ok x') ∧ x.Same x' := by
  obtain ⟨p, hp, hk⟩ := hn.name
  obtain ⟨xs, ys, e1, e2, hxy, hx⟩ := objectsForKey_runs ho ho' hg hg' h wr h1 hn.cls hn.subject hp hk
  unfold readOut getItem
  rw [e1, e2]
  dsimp only
  by_cases hsc : (!isScalar w r.c (some p) || key.isAll) = true
  · rw [if_pos hsc, if_pos hsc]
    obtain ⟨vs, vs', f1, f2, hv⟩ := collect_runs ho ho' hg hg' h wr h1 hn.cls hx hxy
    dsimp only
    rw [f1, f2]
    exact Or.inr ⟨_, _, rfl, rfl, hv⟩
  · rw [if_neg hsc, if_neg hsc]
    obtain ⟨q, f1, f2⟩ := classifyOne_runs ho ho' hg hg' h wr h1 hn.cls hx hxy
    rw [f1, f2]
    cases q with
    | error e => exact Or.inl ⟨_, rfl, rfl⟩
    | ok v => exact Or.inr ⟨_, _, rfl, rfl, rfl⟩

/-- One step: it fails in both runs, or succeeds in both with the same to see, the same classes and the same triples. -/
theorem step_runs {s s' : Step} (hf : s.Fine w) (hss : Step.Same s s') :
    (∃ gf gf' e e', s.run o w g = (w, gf, .error e) ∧ s'.run o' w g' = (w, gf', .error e')) ∨
    ∃ g1 g2 x x', s.run o w g = (w, g1, .ok x) ∧ s'.run o' w g' = (w, g2, .ok x') ∧ x.Same x' ∧ SameTriples g1 g2 ∧ g1.Reach ∧ g2.Reach := by
  match s, s', hss with
  | .set r key v, .set _ _ v', ⟨rfl, rfl, hv⟩ =>
    obtain ⟨hn, hfu⟩ := hf
    obtain ⟨p, hp, hk⟩ := hn.name
    have r1 := (C46_set_reach ho wr hg hn.cls key v).2.1
    have r2 := (C46_set_reach ho' wr hg' hn.cls key v').2.1
    simp only [Step.run]
    rcases setItem_runs ho ho' hg hg' h wr h1 hn.cls hn.subject hk hp hfu hv with ⟨gf, gf', e, e', e1, e2⟩ | ⟨g1, g2, e1, e2, hs⟩
    · rw [e1, e2]; exact Or.inl ⟨_, _, _, _, rfl, rfl⟩
    · rw [e1] at r1; rw [e2] at r2
      rw [e1, e2]; exact Or.inr ⟨_, _, _, _, rfl, rfl, trivial, hs, r1, r2⟩
  | .del r key, _, rfl =>
    have hn : NamesProperty w r key := hf
    obtain ⟨p, hp, hk⟩ := hn.name
    obtain ⟨xs, ys, e1, e2, hxy, hx⟩ := objectsForKey_runs ho ho' hg hg' h wr h1 hn.cls hn.subject hp hk
    have d1 := C48_del_exact ho wr hg hn.cls hn.subject key e1 hp
    have d2 := C48_del_exact ho' wr hg' hn.cls hn.subject key e2 hp
    simp only [Step.run]
    rcases hq : delItem o w g r key with ⟨w1, g1, q⟩
    rcases hq' : delItem o' w g' r key with ⟨w2, g2, q'⟩
    rw [hq] at d1; rw [hq'] at d2
    obtain ⟨rfl, rfl, a3, a4⟩ := d1
    obtain ⟨rfl, rfl, b3, b4⟩ := d2
    refine Or.inr ⟨_, _, _, _, rfl, rfl, trivial, fun t => ?_, a3, b3⟩
    rw [a4 t, b4 t, h t]
    exact and_congr_right fun _ => ⟨fun k x hx => k x (hxy.mem_iff.2 hx), fun k x hx => k x (hxy.mem_iff.1 hx)⟩
  | .read r key, _, rfl =>
    simp only [Step.run]
    rcases readOut_runs ho ho' hg hg' h wr h1 (r := r) (key := key) hf with ⟨e, e1, e2⟩ | ⟨x, x', e1, e2, hx⟩
    · rw [e1, e2]; exact Or.inl ⟨_, _, _, _, rfl, rfl⟩
    · rw [e1, e2]; exact Or.inr ⟨_, _, _, _, rfl, rfl, hx, h, hg, hg'⟩
  | .scalar r key, _, rfl =>
    have hn : NamesProperty w r key := hf
    obtain ⟨p, hp, hk⟩ := hn.name
    obtain ⟨xs, ys, e1, e2, hxy, hx⟩ := objectsForKey_runs ho ho' hg hg' h wr h1 hn.cls hn.subject hp hk
    obtain ⟨q, f1, f2⟩ := classifyOne_runs ho ho' hg hg' h wr h1 hn.cls hx hxy
    have k1 : getScalar o w g r key = (w, q) := by unfold getScalar; rw [e1]; exact f1
    have k2 : getScalar o' w g' r key = (w, q) := by unfold getScalar; rw [e2]; exact f2
    simp only [Step.run]
    rw [k1, k2]
    cases q with
    | error e => exact Or.inl ⟨_, _, _, _, rfl, rfl⟩
    | ok v => exact Or.inr ⟨_, _, _, _, rfl, rfl, rfl, h, hg, hg'⟩
  | .contains r key, _, rfl =>
    have hn : NamesProperty w r key := hf
    obtain ⟨p, hp, hk⟩ := hn.name
    obtain ⟨xs, ys, e1, e2, hxy, hx⟩ := objectsForKey_runs ho ho' hg hg' h wr h1 hn.cls hn.subject hp hk
    have k1 : containsKey o w g r key = (w, .ok (decide (xs ≠ []))) := by unfold containsKey; rw [e1]
    have k2 : containsKey o' w g' r key = (w, .ok (decide (ys ≠ []))) := by unfold containsKey; rw [e2]
    simp only [Step.run]
    rw [k1, k2]
    refine Or.inr ⟨_, _, _, _, rfl, rfl, ?_, h, hg, hg'⟩
    change decide (xs ≠ []) = decide (ys ≠ [])
    rw [decide_eq_decide, not_iff_not]
    exact ⟨fun e => by subst e; simpa using hxy.nil_eq.symm, fun e => by subst e; simpa using hxy⟩
  | .pairs r, _, rfl =>
    obtain ⟨n1, m1⟩ := C126_iter ho hg (r := r) hf
    obtain ⟨n2, m2⟩ := C126_iter ho' hg' (r := r) hf
    refine Or.inr ⟨_, _, _, _, rfl, rfl, ?_, h, hg, hg'⟩
    exact (List.perm_ext_iff_of_nodup n1 n2).2 fun ⟨p, x⟩ => by rw [m1, m2]; exact h _
  | .erase r, _, rfl =>
    have a := C50_erase_exact ho hg r
    have b := C50_erase_exact ho' hg' r
    have ra := erase_reach ho hg r
    have rb := erase_reach ho' hg' r
    simp only [Step.run]
    rcases hq : erase o g r with ⟨g1, q⟩
    rcases hq' : erase o' g' r with ⟨g2, q'⟩
    rw [hq] at a ra; rw [hq'] at b rb
    obtain ⟨rfl, a2, -⟩ := a
    obtain ⟨rfl, b2, -⟩ := b
    refine Or.inr ⟨_, _, _, _, rfl, rfl, trivial, fun t => ?_, ra, rb⟩
    rw [a2 hf, b2 hf, h t]
  | .new c s, _, rfl =>
    have a := C51_new_exact ho wr hg hf (some s) 0
    have b := C51_new_exact ho' wr hg' hf (some s) 0
    dsimp only at a b
    simp only [Step.run]
    rcases hq : newRes o w g c (some s) 0 with ⟨g1, q⟩
    rcases hq' : newRes o' w g' c (some s) 0 with ⟨g2, q'⟩
    rw [hq] at a; rw [hq'] at b
    obtain ⟨rfl, ra, ⟨ty, hty, a3⟩, -⟩ := a
    obtain ⟨rfl, rb, ⟨ty', hty', b3⟩, -⟩ := b
    rw [hty] at hty'
    cases hty'
    refine Or.inr ⟨_, _, _, _, rfl, rfl, rfl, fun t => ?_, ra, rb⟩
    rw [a3, b3, h t]

end

/-- **C157, the part that holds.** If at no moment a node has two types with registered classes, a program that works with resources sees the same in every run, but for the order in
    which several values are listed, and leaves the same triples; it runs to its end in all runs or in none. -/
theorem C157_partial {w : World} (wr : w.Reach) {g g' : Graph} (hg : g.Reach) (hg' : g'.Reach) (h : SameTriples g g') {ss ss' : List (Orders × Step)}
    (hss : SameProgram ss ss') (ho : Orderly w g ss) :
    List.Forall₂ Out.Same (runProgram w g ss).1 (runProgram w g' ss').1 ∧
    ((runProgram w g ss).2.1 = none ↔ (runProgram w g' ss').2.1 = none) ∧
    ((runProgram w g ss).2.1 = none → SameTriples (runProgram w g ss).2.2.2 (runProgram w g' ss').2.2.2) := by
  induction hss generalizing g g' with
  | nil => exact ⟨.nil, Iff.rfl, fun _ => h⟩
  | @cons o o' s s' ss ss' oo oo' hs _ ih =>
    obtain ⟨hf, h1, hrest⟩ := ho
    unfold runProgram
    rcases step_runs oo oo' hg hg' h wr h1 hf hs with ⟨gf, gf', e, e', e1, e2⟩ | ⟨g1, g2, x, x', e1, e2, hx, ht, r1, r2⟩
    · rw [e1, e2]
      exact ⟨.nil, ⟨fun k => (by cases k), fun k => (by cases k)⟩, fun k => (by cases k)⟩
    · rw [e1] at hrest
      rw [e1, e2]
      obtain ⟨i1, i2, i3⟩ := ih r1 r2 ht (hrest x rfl)
      exact ⟨.cons hx i1, i2, i3⟩

/-! ### What depends on the run -/

theorem not_both_orders {a b : Nat} (hab : a ≠ b) : ∀ {r : List Nat}, r.Nodup → [a, b].Sublist r → [b, a].Sublist r → False
  | [], _, h, _ => by cases h
  | x :: r, hn, h, h' => by
    rw [List.nodup_cons] at hn
    cases h with
    | cons _ h =>
      cases h' with
      | cons _ h' => exact not_both_orders hab hn.2 h h'
      | cons_cons _ h' => exact hn.1 (h.subset (by simp))
    | cons_cons _ h =>
      cases h' with
      | cons _ h' => exact hn.1 (h'.subset (by simp))
      | cons_cons _ h' => exact hab rfl

/-- If the types are met in an order in which the class of one comes before a subclass of it, the classes cannot be combined. -/
theorem no_order_base_first {w : World} (wr : w.Reach) {a b : Nat} (hb : b < w.classes.length) (hab : a ≠ b) (hsub : w.isSub b a = true) {cs : List Nat}
    (hcs : [a, b].Sublist cs) : ¬ ∃ r, Combines w cs r := by
  rintro ⟨r, h1, h2, h3⟩
  have hm := h3 b (hcs.subset (by simp))
  refine not_both_orders hab h1 (hcs.trans h2) (.trans ?_ hm)
  have hself := (wr.wf.cls b hb).self
  have ha : a ∈ (w.cls b).mro := by simpa [World.isSub] using hsub
  cases hq : (w.cls b).mro with
  | nil => rw [hq] at ha; cases ha
  | cons x xs =>
    rw [hq] at hself ha
    cases hself
    refine .cons_cons _ (List.singleton_sublist.2 ?_)
    exact (List.mem_cons.1 ha).resolve_left hab

/-- Several registered classes that cannot be combined in the order in which the types are met: TypeError. -/
theorem classify_typeError {o : Orders} {w : World} {g : Graph} {c : Nat} {obj ty : Term} (hn : obj.isNode = true) (ht : rdfType w c = .ok ty)
    (hl : w.lookupSet (typesOf o g ty obj) = none) {a b : Nat} (hcs : [a, b].Sublist (classesOf o w g ty obj)) (hno : ¬ ∃ r, Combines w (classesOf o w g ty obj) r) :
    classify o w g c obj = (w, .error .typeError) := by
  rw [classify_node hn ht]
  unfold classifyNode
  split
  · next hq => rw [hq] at hcs; cases hcs
  · next k hq => rw [hq] at hcs; simpa using hcs.length_le
  · have := C141_no_order (w := w) (name := (classesOf o w g ty obj).flatMap fun c => (w.cls c).name) (bases := classesOf o w g ty obj) (own := {})
      (fun x hx => by cases hx) hno
    unfold autoClass
    rw [hl, this]

/-- **C157: a class and a subclass of it.** Let a node have a type registered for a class and another registered for a subclass of it, and let its types not have been met together
    before. Then there is an order of its types in which `classify` raises TypeError: whether the node can be read depends on the run. -/
theorem C157_subclass {w : World} (wr : w.Reach) {g : Graph} (hg : g.Reach) {c : Nat} (hc : c < w.classes.length) {obj : Term} (hn : IsResource obj)
    (h2 : obj.truthy = true) {ty : Term} (ht : rdfType w c = .ok ty) {t t' : Term} {a b : Nat} (h3 : mkTriple obj ty t ∈ g.triples) (h4 : mkTriple obj ty t' ∈ g.triples)
    (ha : w.byType.get? t = some a) (hb : w.byType.get? t' = some b) (hab : a ≠ b) (hsub : w.isSub b a = true)
    (hrec : ∀ e ∈ w.bySet, ¬ ∀ x, x ∈ e.1 ↔ mkTriple obj ty x ∈ g.triples) :
    ∃ o : Orders, o.OK ∧ classify o w g c obj = (w, .error .typeError) := by
  let f : List Term → List Term := fun l => l.filter (fun x => decide (x = t)) ++ l.filter (fun x => !decide (x = t))
  have ho : Orders.OK { terms := f } := ⟨fun _ => .refl _, fun l => List.filter_append_perm _ l, fun _ => .refl _⟩
  refine ⟨_, ho, ?_⟩
  obtain ⟨ns, _, ht'⟩ := rdfType_ok wr.wf hc
  have h1 : ty.truthy = true := by rw [ht] at ht'; cases ht'; cases ns <;> rfl
  have hnode : obj.isNode = true := by rcases hn with ⟨i, rfl⟩ | ⟨i, rfl⟩ <;> rfl
  have hmem := mem_typesOf ho hg h1 h2
  have hne : t' ≠ t := by rintro rfl; rw [ha] at hb; cases hb; exact hab rfl
  have hts : [t, t'].Sublist (f (typesOf { terms := f } g ty obj)) := by
    show ([t] ++ [t']).Sublist (_ ++ _)
    refine List.Sublist.append ?_ ?_
    · exact List.singleton_sublist.2 (List.mem_filter.2 ⟨(hmem t).2 h3, by simp⟩)
    · exact List.singleton_sublist.2 (List.mem_filter.2 ⟨(hmem t').2 h4, by simp [hne]⟩)
  have hcs : [a, b].Sublist (classesOf { terms := f } w g ty obj) := by
    have := hts.filterMap fun t => w.byType.get? t
    rw [List.filterMap_cons_some ha, List.filterMap_cons_some hb] at this
    exact this
  refine classify_typeError hnode ht ?_ hcs (no_order_base_first wr (wr.wf.types _ _ hb) hab hsub hcs)
  unfold World.lookupSet
  rw [List.find?_eq_none.2 fun e he => ?_]
  · rfl
  · rw [sameSet_iff]
    exact fun k => hrec e he fun x => (k x).trans (hmem x)

/-- Without the condition on types the claim reads: -/
def Spec.AllFine : World → Graph → List (Orders × Step) → Prop
  | _, _, [] => True
  | w, g, (o, s) :: ss => s.Fine w ∧ (∀ t ∈ g.triples, t.o.truthy = true) ∧
    ∀ x, (s.run o w g).2.2 = .ok x → AllFine (s.run o w g).1 (s.run o w g).2.1 ss

def C157_statement : Prop :=
  ∀ (w : World) (g g' : Graph) (ss ss' : List (Orders × Step)), w.Reach → g.Reach → g'.Reach → SameTriples g g' → SameProgram ss ss' → AllFine w g ss → AllFine w g' ss' →
    List.Forall₂ Out.Same (runProgram w g ss).1 (runProgram w g' ss').1 ∧
    ((runProgram w g ss).2.1 = none ↔ (runProgram w g' ss').2.1 = none) ∧
    ((runProgram w g ss).2.1 = none → SameTriples (runProgram w g ss).2.2.2 (runProgram w g' ss').2.2.2)

def backwards : Orders := { terms := List.reverse }

theorem backwards_ok : backwards.OK := ⟨fun _ => .refl _, fun l => List.reverse_perm l, fun _ => .refl _⟩

/-- `class A(Resource)`, `class E(A)`, registered for `http://x/A` and `http://x/E`. -/
def hoW1 : World := match newClass mroW1 (py! "E") [2] {} with
  | .ok (w, _) => w
  | .error _ => World.new

theorem hoW1_def : newClass mroW1 (py! "E") [2] {} = .ok (hoW1, 3) := by decide

def hoW : World := (registerClass (registerClass hoW1 (py! "http://x/A") 2).1 (py! "http://x/E") 3).1

theorem hoW_reach : hoW.Reach :=
  .register (.register (.define (.define .new (by simp) (by decide) mroW1_def) (by simp) (by decide) hoW1_def) (by decide)) (by decide)

/-- Something that refers to a node which is an A and an E, with an English and a French label. -/
def hoGraph : Graph :=
  ((((Graph.new.add (mkTriple (.named (py! "http://x/s")) (.named (py! "http://x/p")) (.named (py! "http://x/o")))).add
    (mkTriple (.named (py! "http://x/o")) (.named (py! "http://www.w3.org/1999/02/22-rdf-syntax-ns#type")) (.named (py! "http://x/A")))).add
    (mkTriple (.named (py! "http://x/o")) (.named (py! "http://www.w3.org/1999/02/22-rdf-syntax-ns#type")) (.named (py! "http://x/E")))).add
    (mkTriple (.named (py! "http://x/o")) (.named (py! "http://www.w3.org/2000/01/rdf-schema#label")) (.lit (py! "hello") (some (py! "en")) none))).add
    (mkTriple (.named (py! "http://x/o")) (.named (py! "http://www.w3.org/2000/01/rdf-schema#label")) (.lit (py! "bonjour") (some (py! "fr")) none))

theorem hoGraph_reach : hoGraph.Reach := (((((Graph.Reach.new _).add _ _ _).add _ _ _).add _ _ _).add _ _ _).add _ _ _

def hoRead : Step := .read ⟨0, .named (py! "http://x/s")⟩ (.name (py! "http://x/p"))

/-- Reading `s[p]` raises TypeError in one run, and gives an E in another. -/
theorem C157_either_way :
    (runProgram hoW hoGraph [({}, hoRead)]).2.1 = some .typeError ∧
    (runProgram hoW hoGraph [(backwards, hoRead)]).2.1 = none ∧
    (readOut backwards hoW hoGraph ⟨0, .named (py! "http://x/s")⟩ (.name (py! "http://x/p"))).2 = .ok (.values [.res 4 (.named (py! "http://x/o"))]) := by
  refine ⟨?_, ?_, ?_⟩ <;> rfl

theorem hoRead_fine : hoRead.Fine hoW := ⟨by decide, rfl, py! "http://x/p", by decide, by rfl⟩

theorem hoGraph_full : ∀ t ∈ hoGraph.triples, t.o.truthy = true := by decide

theorem C157_refuted : ¬ C157_statement := by
  intro h
  have hf : ∀ o, AllFine hoW hoGraph [(o, hoRead)] := fun o => ⟨hoRead_fine, hoGraph_full, fun _ _ => trivial⟩
  have := (h hoW hoGraph hoGraph [({}, hoRead)] [(backwards, hoRead)] hoW_reach hoGraph_reach hoGraph_reach (fun _ => .rfl)
    (.cons .default backwards_ok (by rfl) .nil) (hf _) (hf _)).2.1
  rw [C157_either_way.1, C157_either_way.2.1] at this
  cases this.2 rfl

/-- Classes for English and French, registered for `http://x/A` and `http://x/E`. -/
def hoL1 : World := match newClass World.new (py! "A") [0] { lang := some (some (py! "en")) } with
  | .ok (w, _) => w
  | .error _ => World.new

theorem hoL1_def : newClass World.new (py! "A") [0] { lang := some (some (py! "en")) } = .ok (hoL1, 2) := by decide

def hoL2 : World := match newClass hoL1 (py! "E") [0] { lang := some (some (py! "fr")) } with
  | .ok (w, _) => w
  | .error _ => World.new

theorem hoL2_def : newClass hoL1 (py! "E") [0] { lang := some (some (py! "fr")) } = .ok (hoL2, 3) := by decide

def hoL : World := (registerClass (registerClass hoL2 (py! "http://x/A") 2).1 (py! "http://x/E") 3).1

theorem hoL_reach : hoL.Reach :=
  .register (.register (.define (.define .new (by simp) (by decide) hoL1_def) (by simp) (by decide) hoL2_def) (by decide)) (by decide)

def hoLabel : Step := .read ⟨4, .named (py! "http://x/o")⟩ (.name (py! "rdfs:label"))

/-- When both runs succeed, they can still read different labels: the class made for both types has the language of the class whose type was met first. -/
theorem C157_language :
    (runProgram hoL hoGraph [({}, hoRead), ({}, hoLabel)]).1 =
      [.values [.res 4 (.named (py! "http://x/o"))], .value (.lit (py! "hello") (some (py! "en")) none)] ∧
    (runProgram hoL hoGraph [(backwards, hoRead), (backwards, hoLabel)]).1 =
      [.values [.res 4 (.named (py! "http://x/o"))], .value (.lit (py! "bonjour") (some (py! "fr")) none)] := by
  refine ⟨?_, ?_⟩ <;> rfl

/-- Two nodes, an A and an E. -/
def hoFine : Graph :=
  (((Graph.new.add (mkTriple (.named (py! "http://x/s")) (.named (py! "http://x/p")) (.named (py! "http://x/o")))).add
    (mkTriple (.named (py! "http://x/s")) (.named (py! "http://x/p")) (.named (py! "http://x/o2")))).add
    (mkTriple (.named (py! "http://x/o")) (.named (py! "http://www.w3.org/1999/02/22-rdf-syntax-ns#type")) (.named (py! "http://x/A")))).add
    (mkTriple (.named (py! "http://x/o2")) (.named (py! "http://www.w3.org/1999/02/22-rdf-syntax-ns#type")) (.named (py! "http://x/E")))

theorem hoFine_one : OneClass hoW hoFine := by
  refine ⟨fun c ty hc ht x t t' k k' h1 h2 h3 h4 => ?_, by decide⟩
  have hty : ∀ c < 4, rdfType hoW c = .ok (.named (py! "http://www.w3.org/1999/02/22-rdf-syntax-ns#type")) := by decide
  rw [hty c hc] at ht
  cases ht
  have := (by decide : ∀ a ∈ hoFine.triples, ∀ b ∈ hoFine.triples, a.s = b.s → a.p = .named (py! "http://www.w3.org/1999/02/22-rdf-syntax-ns#type") → b.p = a.p → a.o = b.o)
  exact this _ h1 _ h2 rfl rfl rfl

/-- A program of three steps for which the hypotheses of `C157_partial` hold, and what its first step sees. -/
example : Orderly hoW hoFine [({}, hoRead), ({}, .pairs ⟨2, .named (py! "http://x/s")⟩), ({}, .erase ⟨0, .named (py! "http://x/o")⟩)] :=
  ⟨hoRead_fine, hoFine_one, fun _ _ => ⟨rfl, hoFine_one, fun _ _ => ⟨rfl, hoFine_one, fun _ _ => trivial⟩⟩⟩

example : (runProgram hoW hoFine [({}, hoRead)]).1 = [.values [.res 2 (.named (py! "http://x/o")), .res 3 (.named (py! "http://x/o2"))]] := rfl

/-- The hypotheses of `C157_subclass` hold for the graph above. -/
example : ∃ o : Orders, o.OK ∧ classify o hoW hoGraph 0 (.named (py! "http://x/o")) = (hoW, .error .typeError) :=
  C157_subclass hoW_reach hoGraph_reach (by decide) (.inl ⟨_, rfl⟩) rfl (ty := .named (py! "http://www.w3.org/1999/02/22-rdf-syntax-ns#type")) (by decide)
    (t := .named (py! "http://x/A")) (t' := .named (py! "http://x/E")) (a := 2) (b := 3) (by decide) (by decide) (by decide) (by decide) (by decide) (by decide)
    (by intro e he; rw [show hoW.bySet = [] from by decide] at he; cases he)

end Verif
