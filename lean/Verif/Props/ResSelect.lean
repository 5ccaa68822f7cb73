import Verif.Props.ResItem
import Verif.Props.Curie
/-
What a key selects, and deleting it: C48, C49, C56, C59, C83.

`objectsForKey o w g r key` is the selection that `r[key]` reads, `key in r` tests and `del r[key]` removes (C49, C48).
-/
namespace Verif
open Spec Graph

/-! ### C83: what a key selects -/

/-- A key `(name, filter)` without a class selects exactly the objects the filter describes, each once. -/
theorem C83_filter_selection {o : Orders} (ho : o.OK) {w : World} {g : Graph} (hg : g.Reach) {r : Res}
    (hs : r.s.truthy = true) {k p : PStr} (hk : resolveKey w r.c k = .ok (some p)) (hp : p ≠ []) (f : Filt)
    (hf : Filt.isClass f = false) :
    ∃ objs, objectsForKey o w g r (.pair k f) = (w, .ok (some p, objs)) ∧ objs.Nodup ∧
      ∀ x, x ∈ objs ↔ mkTriple r.s (.named p) x ∈ g.triples ∧ Shown (isScalar w r.c (some p)) f x := by
  have hp' : (Term.named p).truthy = true := predTerm_truthy hp
  have nd := nodup_objectsOf ho hg hs hp'
  have hm := fun x => mem_objectsOf ho hg hs hp' x
  unfold objectsForKey interpretKey
  simp only [Key.text, hk, objectsForSel, predTerm]
  cases f with
  | none =>
    refine ⟨objectsOf o g r.s (.named p), by simp, nd, fun x => by rw [hm]; simp [Shown]⟩
  | cls c => simp [Filt.isClass] at hf
  | lang l =>
    cases l with
    | nil =>
      refine ⟨bareLiterals o g r.s (.named p), by simp [truthyStr], (sub_bareLiterals ..).nodup nd, fun x => ?_⟩
      rw [mem_bareLiterals, hm]; simp [Shown]
    | cons a l =>
      refine ⟨langObjects o g r.s (.named p) (some (a :: l)) (isScalar w r.c (some p)) false,
        by simp [truthyStr, Key.isTuple], (langObjects_sub ..).2 nd, fun x => ?_⟩
      have h := mem_langObjects_explicit (o := o) (g := g) (s := r.s) (p := .named p) (l := a :: l) (x := x) (by simp)
      cases isScalar w r.c (some p) with
      | true => rw [h.1, hm]; simp [Shown]
      | false => rw [h.2, hm]; simp [Shown]
  | dt d =>
    by_cases hd : d = [] ∨ d = xsd (py! "string")
    · have hi : interpretDatatype d = [] := by
        unfold interpretDatatype
        rcases hd with rfl | rfl
        · rfl
        · rfl
      refine ⟨bareLiterals o g r.s (.named p), by simp [truthyStr, hi], (sub_bareLiterals ..).nodup nd, fun x => ?_⟩
      rw [mem_bareLiterals, hm]
      simp only [Shown, if_pos hd]
    · rw [not_or] at hd
      have hi : interpretDatatype d = d := by unfold interpretDatatype; rw [if_neg hd.2]
      cases d with
      | nil => exact absurd rfl hd.1
      | cons a d =>
        refine ⟨dtObjects o g r.s (.named p) (some (a :: d)) (isScalar w r.c (some p)), by simp [truthyStr, hi],
          (dtObjects_sub ..).2 nd, fun x => ?_⟩
        have h := mem_dtObjects (o := o) (g := g) (s := r.s) (p := .named p) (d := a :: d) (x := x) (by simp)
        have hne : ¬ (a :: d = [] ∨ a :: d = xsd (py! "string")) := by rw [not_or]; exact hd
        cases isScalar w r.c (some p) with
        | true => rw [h.1, hm]; simp only [Shown, if_neg hne]; simp
        | false => rw [h.2, hm]; simp only [Shown, if_neg hne]; simp

/-- A plain name of a predicate that is not scalar selects all objects. -/
theorem C83_name_selection {o : Orders} (ho : o.OK) {w : World} {g : Graph} (hg : g.Reach) {r : Res}
    (hs : r.s.truthy = true) {k p : PStr} (hk : resolveKey w r.c k = .ok (some p)) (hp : p ≠ [])
    (hn : isScalar w r.c (some p) = false) :
    ∃ objs, objectsForKey o w g r (.name k) = (w, .ok (some p, objs)) ∧ objs.Nodup ∧
      ∀ x, x ∈ objs ↔ mkTriple r.s (.named p) x ∈ g.triples := by
  have hp' : (Term.named p).truthy = true := predTerm_truthy hp
  refine ⟨objectsOf o g r.s (.named p), ?_, nodup_objectsOf ho hg hs hp', fun x => mem_objectsOf ho hg hs hp' x⟩
  unfold objectsForKey
  rw [interpretKey_nonscalar hk hn]
  simp [objectsForSel, predTerm]

/-- The kinds of objects in the order in which a scalar without an explicit filter looks for them. -/
def scalarKinds (l : PStr) : List (Term → Prop) := [InLanguage l, IsResource, HasDatatype, Untagged]

/-- A plain name of a scalar predicate, in a class with language `l`: the objects of the first kind in `scalarKinds` of which there is
    one; nothing if there is none. -/
theorem C83_scalar_selection {o : Orders} (ho : o.OK) {w : World} {g : Graph} (hg : g.Reach) {r : Res}
    (hs : r.s.truthy = true) {k p : PStr} (hk : resolveKey w r.c k = .ok (some p)) (hp : p ≠ [])
    (hn : isScalar w r.c (some p) = true) {l : PStr} (hl : w.lang r.c = some l) (hne : l ≠ []) :
    ∃ objs, objectsForKey o w g r (.name k) = (w, .ok (some p, objs)) ∧ objs.Nodup ∧
      ((∃ pre P post, scalarKinds l = pre ++ P :: post ∧
          (∀ Q ∈ pre, ¬ ∃ x, mkTriple r.s (.named p) x ∈ g.triples ∧ Q x) ∧ objs ≠ [] ∧
          ∀ x, x ∈ objs ↔ mkTriple r.s (.named p) x ∈ g.triples ∧ P x) ∨
        (objs = [] ∧ ∀ Q ∈ scalarKinds l, ¬ ∃ x, mkTriple r.s (.named p) x ∈ g.triples ∧ Q x)) := by
  have hp' : (Term.named p).truthy = true := predTerm_truthy hp
  have nd := nodup_objectsOf ho hg hs hp'
  have hm := fun x => mem_objectsOf ho hg hs hp' x
  have htr : truthyStr (some l) = true := by cases l with | nil => exact absurd rfl hne | cons => rfl
  refine ⟨langObjects o g r.s (.named p) (some l) true true, ?_, (langObjects_sub ..).2 nd, ?_⟩
  · unfold objectsForKey
    rw [interpretKey_scalar hk hn, hl]
    simp [objectsForSel, predTerm, htr, hn, Key.isTuple]
  · have m1 := fun x => (mem_byLang (o := o) (g := g) (s := r.s) (p := .named p) (x := x) hne)
    have m2 := fun x => (mem_nodesOf (o := o) (g := g) (s := r.s) (p := .named p) (x := x))
    have m3 := fun x => (mem_byDt_none (o := o) (g := g) (s := r.s) (p := .named p) (x := x))
    have m4 := fun x => (mem_bareLiterals (o := o) (g := g) (s := r.s) (p := .named p) (x := x))
    simp only [hm] at m1 m2 m3 m4
    have em : ∀ {L : List Term} {P : Term → Prop} (_ : ∀ x, x ∈ L ↔ mkTriple r.s (.named p) x ∈ g.triples ∧ P x) (_ : L = []),
        ¬ ∃ x, mkTriple r.s (.named p) x ∈ g.triples ∧ P x := by
      rintro L P h rfl ⟨x, hx⟩
      exact absurd ((h x).2 hx) (by simp)
    rw [langObjects_scalar]
    by_cases h1 : objectsByLang o g r.s (.named p) (some l) = []
    · rw [if_neg (by simp [h1])]
      by_cases h2 : nodesOf o g r.s (.named p) = []
      · rw [if_neg (by simp [h2])]
        by_cases h3 : objectsByDatatype o g r.s (.named p) none = []
        · rw [if_neg (by simp [h3])]
          by_cases h4 : bareLiterals o g r.s (.named p) = []
          · right
            refine ⟨h4, fun Q hQ => ?_⟩
            simp only [scalarKinds, List.mem_cons, List.not_mem_nil, or_false] at hQ
            rcases hQ with rfl | rfl | rfl | rfl
            exacts [em m1 h1, em m2 h2, em m3 h3, em m4 h4]
          · left
            refine ⟨[InLanguage l, IsResource, HasDatatype], Untagged, [], rfl, fun Q hQ => ?_, h4, m4⟩
            simp only [List.mem_cons, List.not_mem_nil, or_false] at hQ
            rcases hQ with rfl | rfl | rfl
            exacts [em m1 h1, em m2 h2, em m3 h3]
        · rw [if_pos h3]; left
          refine ⟨[InLanguage l, IsResource], HasDatatype, [Untagged], rfl, fun Q hQ => ?_, h3, m3⟩
          simp only [List.mem_cons, List.not_mem_nil, or_false] at hQ
          rcases hQ with rfl | rfl
          exacts [em m1 h1, em m2 h2]
      · rw [if_pos h2]; left
        refine ⟨[InLanguage l], IsResource, [HasDatatype, Untagged], rfl, fun Q hQ => ?_, h2, m2⟩
        simp only [List.mem_cons, List.not_mem_nil, or_false] at hQ
        rcases hQ with rfl
        exact em m1 h1
    · rw [if_pos h1]; left
      exact ⟨[], InLanguage l, [IsResource, HasDatatype, Untagged], rfl, by simp, h1, m1⟩

/-- A plain name of a scalar predicate, in a class whose language is None: all objects. In a class whose language is the empty string: the plain literals. -/
theorem C83_scalar_no_language {o : Orders} (ho : o.OK) {w : World} {g : Graph} (hg : g.Reach) {r : Res}
    (hs : r.s.truthy = true) {k p : PStr} (hk : resolveKey w r.c k = .ok (some p)) (hp : p ≠ []) (hn : isScalar w r.c (some p) = true) :
    (w.lang r.c = none → ∃ objs, objectsForKey o w g r (.name k) = (w, .ok (some p, objs)) ∧ objs.Nodup ∧
      ∀ x, x ∈ objs ↔ mkTriple r.s (.named p) x ∈ g.triples) ∧
    (w.lang r.c = some [] → ∃ objs, objectsForKey o w g r (.name k) = (w, .ok (some p, objs)) ∧ objs.Nodup ∧
      ∀ x, x ∈ objs ↔ mkTriple r.s (.named p) x ∈ g.triples ∧ Untagged x) := by
  have hp' : (Term.named p).truthy = true := predTerm_truthy hp
  have nd := nodup_objectsOf ho hg hs hp'
  have hm := fun x => mem_objectsOf ho hg hs hp' x
  refine ⟨fun hl => ⟨objectsOf o g r.s (.named p), ?_, nd, hm⟩,
    fun hl => ⟨bareLiterals o g r.s (.named p), ?_, (sub_bareLiterals ..).nodup nd, fun x => by rw [mem_bareLiterals, hm]⟩⟩
  · unfold objectsForKey
    rw [interpretKey_scalar hk hn, hl]
    simp [objectsForSel, predTerm]
  · unfold objectsForKey
    rw [interpretKey_scalar hk hn, hl]
    simp [objectsForSel, predTerm, truthyStr]

/-- A class filter selects exactly the nodes that are classified as instances of the class: each node among the objects has, from then on,
    a class (`classify` returns it without changing anything), and it is selected iff this class is a subclass of the requested one. -/
theorem C83_class_selection {o : Orders} (ho : o.OK) {w : World} (wr : w.Reach) {g : Graph} (hg : g.Reach) {r : Res}
    (hc : r.c < w.classes.length) (hs : r.s.truthy = true) {k p : PStr} (hk : resolveKey w r.c k = .ok (some p)) (hp : p ≠ []) (rc : Nat)
    {w' : World} {objs : List Term} {q : Option PStr} (h : objectsForKey o w g r (.pair k (.cls rc)) = (w', .ok (q, objs))) :
    q = some p ∧ objs.Nodup ∧ (∀ x ∈ objs, mkTriple r.s (.named p) x ∈ g.triples ∧ IsResource x) ∧
    ∀ x, mkTriple r.s (.named p) x ∈ g.triples → IsResource x → x ≠ .named [] →
      ∃ v, (∀ o' : Orders, o'.OK → classify o' w' g r.c x = (w', .ok v)) ∧ (x ∈ objs ↔ v.isInst w' rc = true) := by
  have hp' : (Term.named p).truthy = true := predTerm_truthy hp
  have nd := nodup_objectsOf ho hg hs hp'
  obtain ⟨ns, _, ht⟩ := rdfType_ok wr.wf hc
  unfold objectsForKey interpretKey at h
  simp only [Key.text, hk, objectsForSel, predTerm, truthyStr, reduceCtorEq, and_false, if_false, Bool.false_eq_true, objectsByType] at h
  have hfs := filterByType_spec (o := o) g rc (objectsOf o g r.s (.named p)) wr hc
  cases hf : filterByType o g r.c rc w (objectsOf o g r.s (.named p)) with
  | mk w1 rr =>
  rw [hf] at h hfs
  cases rr with
  | error e => cases h
  | ok res =>
    dsimp only at h hfs
    simp only [Prod.mk.injEq, Except.ok.injEq] at h
    obtain ⟨rfl, rfl, rfl⟩ := h
    rcases hfs.2.2 with h | ⟨r', h, h2, h3⟩
    · cases h
    · cases h
      refine ⟨rfl, h2.nodup nd, fun x hx => ⟨(mem_objectsOf ho hg hs hp' x).1 (h2.subset hx), h3 x hx⟩, fun x hx hxr hxe => ?_⟩
      have hxt : x.truthy = true := by
        rcases hxr with ⟨i, rfl⟩ | ⟨i, rfl⟩
        · cases i with
          | nil => exact absurd rfl hxe
          | cons => rfl
        · rfl
      obtain ⟨v, hv, hst⟩ := filterByType_stable ho hg (by cases ns <;> rfl) _ wr hc ht nd hf x ((mem_objectsOf ho hg hs hp' x).2 hx)
        ((isNode_iff x).2 hxr) hxt
      exact ⟨v, fun o' ho' => hst o' ho' g w1 hg (.refl w1) fun _ => Iff.rfl, hv.symm⟩

/-! ### C49: `in` agrees with reading -/

/-- `key in r` is true iff the selection is not empty, and reading the same key shows the same selection: a generator over it; or, for a
    scalar, None when it is empty, the value of its only element, and ValueError when there is more than one. All with the same orders. -/
theorem C49_contains {o : Orders} {w : World} (wr : w.Reach) {g : Graph} {r : Res} (hc : r.c < w.classes.length) (key : Key) :
    (∀ e, (objectsForKey o w g r key).2 = .error e →
      (containsKey o w g r key).2 = .error e ∧ (getItem o w g r key).2 = .error e ∧ (getScalar o w g r key).2 = .error e) ∧
    ∀ q objs, (objectsForKey o w g r key).2 = .ok (q, objs) →
      (containsKey o w g r key).2 = .ok (decide (objs ≠ [])) ∧
      ((getItem o w g r key).2 = .ok (.iter objs) ∨
       (objs = [] ∧ (getItem o w g r key).2 = .ok (.one .none)) ∨
       (∃ x, objs = [x] ∧ ((getItem o w g r key).2 = .error .typeError ∨ ∃ v, (getItem o w g r key).2 = .ok (.one v) ∧ v.term = x)) ∨
       (2 ≤ objs.length ∧ (getItem o w g r key).2 = .error .valueError)) ∧
      ((objs = [] ∧ (getScalar o w g r key).2 = .ok .none) ∨
       (∃ x, objs = [x] ∧ ((getScalar o w g r key).2 = .error .typeError ∨ ∃ v, (getScalar o w g r key).2 = .ok v ∧ v.term = x)) ∨
       (2 ≤ objs.length ∧ (getScalar o w g r key).2 = .error .valueError)) := by
  have hspec := objectsForKey_spec (o := o) wr g hc key
  unfold containsKey getItem getScalar
  generalize objectsForKey o w g r key = q at hspec ⊢
  obtain ⟨w1, e | ⟨p, objs⟩⟩ := q
  · refine ⟨fun e' he => ?_, fun q objs h => by cases h⟩
    simp only [Except.error.injEq] at he; subst he; exact ⟨rfl, rfl, rfl⟩
  · refine ⟨fun e' he => (by cases he), fun q objs' h => ?_⟩
    simp only [Except.ok.injEq, Prod.mk.injEq] at h
    obtain ⟨rfl, rfl⟩ := h
    dsimp only at hspec ⊢
    have key2 : (objs = [] ∧ (classifyOne o w1 g r.c objs).2 = .ok .none) ∨
       (∃ x, objs = [x] ∧ ((classifyOne o w1 g r.c objs).2 = .error .typeError ∨
          ∃ v, (classifyOne o w1 g r.c objs).2 = .ok v ∧ v.term = x)) ∨
       (2 ≤ objs.length ∧ (classifyOne o w1 g r.c objs).2 = .error .valueError) := by
      unfold classifyOne
      match objs with
      | [] => exact Or.inl ⟨rfl, rfl⟩
      | [x] =>
        refine Or.inr (Or.inl ⟨x, rfl, ?_⟩)
        have hcs := classify_spec (o := o) hspec.1 g (Nat.lt_of_lt_of_le hc hspec.2.1.length) x
        rcases hcs.2.2 with h | ⟨v, h, h2, _⟩
        · exact Or.inl h
        · exact Or.inr ⟨v, h, h2⟩
      | x :: y :: l => exact Or.inr (Or.inr ⟨by simp, rfl⟩)
    refine ⟨rfl, ?_, key2⟩
    split
    · exact Or.inl rfl
    · right
      cases hq : classifyOne o w1 g r.c objs with
      | mk w2 rv =>
      rw [hq] at key2
      cases rv with
      | error e =>
        rcases key2 with ⟨_, h⟩ | ⟨x, h1, h | ⟨v, h, _⟩⟩ | ⟨h1, h⟩
        · cases h
        · cases h; exact Or.inr (Or.inl ⟨x, h1, Or.inl rfl⟩)
        · cases h
        · cases h; exact Or.inr (Or.inr ⟨h1, rfl⟩)
      | ok v =>
        rcases key2 with ⟨h1, h⟩ | ⟨x, h1, h | ⟨v, h, h2⟩⟩ | ⟨h1, h⟩
        · cases h; exact Or.inl ⟨h1, rfl⟩
        · cases h
        · cases h; exact Or.inr (Or.inl ⟨x, h1, Or.inr ⟨_, rfl, h2⟩⟩)
        · cases h

/-! ### C48: deleting -/

/-- `del r[key]` removes exactly the triples of the selected objects, and succeeds. -/
theorem C48_del_exact {o : Orders} (ho : o.OK) {w : World} (wr : w.Reach) {g : Graph} (hg : g.Reach) {r : Res}
    (hc : r.c < w.classes.length) (hs : r.s.truthy = true) (key : Key) {w' : World} {p : PStr} {objs : List Term}
    (h : objectsForKey o w g r key = (w', .ok (some p, objs))) (hp : p ≠ []) :
    (delItem o w g r key).1 = w' ∧ (delItem o w g r key).2.2 = .ok () ∧ (delItem o w g r key).2.1.Reach ∧
    ∀ t, t ∈ (delItem o w g r key).2.1.triples ↔ t ∈ g.triples ∧ ∀ x ∈ objs, t ≠ mkTriple r.s (.named p) x := by
  have hp' : (Term.named p).truthy = true := predTerm_truthy hp
  have hspec := objectsForKey_spec (o := o) wr g hc key
  rw [h] at hspec
  have hobj := hspec.2.2.1 _ _ rfl
  have hrm := removeObjs_ok hg r.s (.named p) objs (hobj.2.2 (nodup_objectsOf ho hg hs hp'))
    fun x hx => (mem_objectsOf ho hg hs hp' x).1 (hobj.2.1 x hx)
  unfold delItem
  rw [h]
  exact ⟨rfl, hrm.1, (removeObjs_frame hg r.s (.named p) objs).1, hrm.2⟩

/-- When there is no selection, `del` raises the same exception and changes nothing; it is the exception of the lookup of the name, or
    TypeError from a class filter. -/
theorem C48_del_error {o : Orders} {w : World} (wr : w.Reach) {g : Graph} {r : Res} (hc : r.c < w.classes.length) (key : Key) {e : Exc}
    (h : (objectsForKey o w g r key).2 = .error e) :
    (delItem o w g r key).2 = (g, .error e) ∧ (resolveKey w r.c key.text = .error e ∨ e = .typeError) := by
  have hspec := objectsForKey_spec (o := o) wr g hc key
  refine ⟨?_, hspec.2.2.2 e h⟩
  unfold delItem
  generalize objectsForKey o w g r key = q at h
  obtain ⟨w1, e' | x⟩ := q
  · simp only [Except.error.injEq] at h; subst h; rfl
  · cases h

theorem objectsForKey_after {o : Orders} (ho : o.OK) {w : World} (wr : w.Reach) {g : Graph} (hg : g.Reach) {r : Res}
    (hc : r.c < w.classes.length) (hs : r.s.truthy = true) (key : Key) {w' : World} {p : PStr} {objs : List Term}
    (h : objectsForKey o w g r key = (w', .ok (some p, objs))) (hp : p ≠ []) (x : Term) :
    mkTriple r.s (.named p) x ∈ (delItem o w g r key).2.1.triples ↔ mkTriple r.s (.named p) x ∈ g.triples ∧ x ∉ objs := by
  rw [(C48_del_exact ho wr hg hc hs key h hp).2.2.2]
  constructor
  · rintro ⟨h1, h2⟩; exact ⟨h1, fun hx => h2 x hx rfl⟩
  · rintro ⟨h1, h2⟩; refine ⟨h1, fun y hy he => h2 ?_⟩
    rw [mkTriple_inj] at he; rw [he.2.2]; exact hy

/-- After `del r[name, filter]`, where the filter is not a class, `(name, filter) in r` is false. -/
theorem C48_del_then_absent {o o' : Orders} (ho : o.OK) (ho' : o'.OK) {w : World} (wr : w.Reach) {g : Graph} (hg : g.Reach) {r : Res}
    (hc : r.c < w.classes.length) (hs : r.s.truthy = true) {k p : PStr} (hk : resolveKey w r.c k = .ok (some p)) (hp : p ≠ []) (f : Filt)
    (hf : Filt.isClass f = false) :
    (delItem o w g r (.pair k f)).2.2 = .ok () ∧
    (containsKey o' (delItem o w g r (.pair k f)).1 (delItem o w g r (.pair k f)).2.1 r (.pair k f)).2 = .ok false := by
  obtain ⟨objs, h1, _, h3⟩ := C83_filter_selection ho hg hs hk hp f hf
  have hd := C48_del_exact ho wr hg hc hs _ h1 hp
  refine ⟨hd.2.1, ?_⟩
  rw [hd.1]
  obtain ⟨objs', h1', _, h3'⟩ := C83_filter_selection (w := w) ho' hd.2.2.1 hs hk hp f hf
  have : objs' = [] := by
    refine List.eq_nil_iff_forall_not_mem.2 fun x hx => ?_
    have := (h3' x).1 hx
    rw [objectsForKey_after ho wr hg hc hs _ h1 hp] at this
    exact this.1.2 ((h3 x).2 ⟨this.1.1, this.2⟩)
  unfold containsKey
  rw [h1', this]; rfl

/-- After `del r[name]`, for a predicate that is not scalar, `name in r` is false. -/
theorem C48_del_name_then_absent {o o' : Orders} (ho : o.OK) (ho' : o'.OK) {w : World} (wr : w.Reach) {g : Graph} (hg : g.Reach) {r : Res}
    (hc : r.c < w.classes.length) (hs : r.s.truthy = true) {k p : PStr} (hk : resolveKey w r.c k = .ok (some p)) (hp : p ≠ [])
    (hn : isScalar w r.c (some p) = false) :
    (delItem o w g r (.name k)).2.2 = .ok () ∧
    (containsKey o' (delItem o w g r (.name k)).1 (delItem o w g r (.name k)).2.1 r (.name k)).2 = .ok false := by
  obtain ⟨objs, h1, _, h3⟩ := C83_name_selection ho hg hs hk hp hn
  have hd := C48_del_exact ho wr hg hc hs _ h1 hp
  refine ⟨hd.2.1, ?_⟩
  rw [hd.1]
  obtain ⟨objs', h1', _, h3'⟩ := C83_name_selection (w := w) ho' hd.2.2.1 hs hk hp hn
  have : objs' = [] := by
    refine List.eq_nil_iff_forall_not_mem.2 fun x hx => ?_
    have := (h3' x).1 hx
    rw [objectsForKey_after ho wr hg hc hs _ h1 hp] at this
    exact this.2 ((h3 x).2 this.1)
  unfold containsKey
  rw [h1', this]; rfl

/-- After a successful `del r[name, Class]`, `(name, Class) in r` is false, provided the name is not `rdf:type` (deleting types changes the
    classes of nodes) and no object is the empty IRI. -/
theorem C48_del_class_then_absent {o o' : Orders} (ho : o.OK) (ho' : o'.OK) {w : World} (wr : w.Reach) {g : Graph} (hg : g.Reach) {r : Res}
    (hc : r.c < w.classes.length) (hs : r.s.truthy = true) {k p : PStr} (hk : resolveKey w r.c k = .ok (some p)) (hp : p ≠ [])
    (hty : rdfType w r.c ≠ .ok (.named p)) (rc : Nat) (hne : mkTriple r.s (.named p) (.named []) ∉ g.triples)
    (hok : (delItem o w g r (.pair k (.cls rc))).2.2 = .ok ()) :
    (containsKey o' (delItem o w g r (.pair k (.cls rc))).1 (delItem o w g r (.pair k (.cls rc))).2.1 r (.pair k (.cls rc))).2
      = .ok false := by
  have hp' : (Term.named p).truthy = true := predTerm_truthy hp
  have hspec := objectsForKey_spec (o := o) wr g hc (.pair k (.cls rc))
  cases hq : objectsForKey o w g r (.pair k (.cls rc)) with
  | mk w' rr =>
  cases rr with
  | error e => unfold delItem at hok; rw [hq] at hok; cases hok
  | ok po =>
    obtain ⟨q, objs⟩ := po
    rw [hq] at hspec
    have hq' : q = some p := by
      have := (hspec.2.2.1 q objs rfl).1
      rw [show (Key.pair k (Filt.cls rc)).text = k from rfl, hk] at this; cases this; rfl
    subst hq'
    have hd := C48_del_exact ho wr hg hc hs _ hq hp
    have ha := objectsForKey_after ho wr hg hc hs _ hq hp
    rw [hd.1]
    have hext : w.Ext w' := hspec.2.1
    have hwr : w'.Reach := hspec.1
    generalize (delItem o w g r (.pair k (.cls rc))).2.1 = g' at hd ha ⊢
    obtain ⟨ns, _, ht⟩ := rdfType_ok wr.wf hc
    -- the filtering that was done
    unfold objectsForKey interpretKey at hq
    simp only [Key.text, hk, objectsForSel, predTerm, truthyStr, reduceCtorEq, and_false, if_false, Bool.false_eq_true, objectsByType] at hq
    cases hf : filterByType o g r.c rc w (objectsOf o g r.s (.named p)) with
    | mk w1 rr =>
    rw [hf] at hq
    cases rr with
    | error e => cases hq
    | ok res =>
      simp only [Prod.mk.injEq, Except.ok.injEq, true_and] at hq
      obtain ⟨rfl, rfl⟩ := hq
      have hst := filterByType_stable ho hg (by cases ns <;> rfl) _ wr hc ht (nodup_objectsOf ho hg hs hp') hf
      have hnone : filterByType o' g' r.c rc w1 (objectsOf o' g' r.s (.named p)) = (w1, .ok []) := by
        refine filterByType_none _ fun x hx hxn => ?_
        rw [mem_objectsOf ho' hd.2.2.1 hs hp', ha x] at hx
        have hxt : x.truthy = true := by
          cases x with
          | named i => cases i with
            | nil => exact absurd hx.1 hne
            | cons => rfl
          | bnode => rfl
          | _ => simp [Term.isNode] at hxn
        obtain ⟨v, hv, hv2⟩ := hst x ((mem_objectsOf ho hg hs hp' x).2 hx.1) hxn hxt
        refine ⟨v, hv2 o' ho' g' w1 hd.2.2.1 (.refl w1) fun t => ?_, ?_⟩
        · rw [hd.2.2.2]
          refine ⟨fun h => ⟨h, fun y _ he => ?_⟩, fun h => h.1⟩
          rw [mkTriple_inj] at he
          exact hty (by rw [ht, he.2.1])
        · have h2 : ¬ v.isInst w1 rc = true := fun h => hx.2 (hv.1 h)
          simpa using h2
      unfold containsKey objectsForKey interpretKey
      simp only [Key.text, hext.resolve hc, hk, objectsForSel, predTerm, truthyStr, reduceCtorEq, and_false, if_false, Bool.false_eq_true,
        objectsByType, hnone]
      rfl

/-! ### C59: the object filters partition the objects -/

/-- Every well-formed object of a predicate is selected by exactly one of `objects_by_lang(p)`, `objects_by_datatype(p)`,
    `bare_literals(p)` and `objects_by_type(p)`, and they select nothing else. -/
theorem C59_partition {o : Orders} {g : Graph} {s p : Term} :
    (∀ x, (x ∈ objectsByLang o g s p none ∨ x ∈ objectsByDatatype o g s p none ∨ x ∈ bareLiterals o g s p ∨ x ∈ nodesOf o g s p) →
      x ∈ objectsOf o g s p) ∧
    ∀ x ∈ objectsOf o g s p, WellFormed x →
      (x ∈ objectsByLang o g s p none ∧ x ∉ objectsByDatatype o g s p none ∧ x ∉ bareLiterals o g s p ∧ x ∉ nodesOf o g s p) ∨
      (x ∉ objectsByLang o g s p none ∧ x ∈ objectsByDatatype o g s p none ∧ x ∉ bareLiterals o g s p ∧ x ∉ nodesOf o g s p) ∨
      (x ∉ objectsByLang o g s p none ∧ x ∉ objectsByDatatype o g s p none ∧ x ∈ bareLiterals o g s p ∧ x ∉ nodesOf o g s p) ∨
      (x ∉ objectsByLang o g s p none ∧ x ∉ objectsByDatatype o g s p none ∧ x ∉ bareLiterals o g s p ∧ x ∈ nodesOf o g s p) := by
  simp only [mem_byLang_none, mem_byDt_none, mem_bareLiterals, mem_nodesOf]
  refine ⟨by tauto, fun x hx hw => ?_⟩
  have hd := kinds_disjoint hw
  simp only [hx, true_and]
  rcases hw with h | ⟨v, l, d, rfl, h⟩
  · have := hd.2.1 h; tauto
  · have hr : ¬ IsResource (.lit v l d) := by rintro (⟨i, h⟩ | ⟨i, h⟩) <;> cases h
    cases l with
    | some l =>
      have h1 : HasLanguage (.lit v (some l) d) := ⟨v, l, d, rfl⟩
      have := hd.1 h1
      have : ¬ Untagged (.lit v (some l) d) := fun h => (hd.2.2 h).1 h1
      tauto
    | none =>
      have h1 : ¬ HasLanguage (.lit v none d) := by rintro ⟨_, _, _, h⟩; cases h
      cases d with
      | some d =>
        have h2 : HasDatatype (.lit v none (some d)) := ⟨v, none, d, rfl⟩
        have : ¬ Untagged (.lit v none (some d)) := fun h => (hd.2.2 h).2 h2
        tauto
      | none =>
        have h2 : ¬ HasDatatype (.lit v none none) := by rintro ⟨_, _, _, h⟩; cases h
        have : Untagged (.lit v none none) := ⟨v, rfl⟩
        tauto

/-! ### C56: unresolvable names -/

/-- The claim: reading an unresolvable name raises. -/
def C56_statement : Prop :=
  ∀ (o : Orders), o.OK → ∀ (w : World), w.Reach → ∀ (g : Graph), g.Reach → ∀ (r : Res), r.c < w.classes.length → ∀ k : PStr,
    resolveKey w r.c k = .ok none → ∃ e, (getItem o w g r (.name k)).2 = .error e

/-- What happens instead: an unresolvable name without a colon selects the objects of all predicates, one entry for each triple. -/
theorem C56_unresolved_is_wildcard {o : Orders} (ho : o.OK) {w : World} {g : Graph} (hg : g.Reach) {r : Res}
    (hs : r.s.truthy = true) (k : PStr) (hk : resolveKey w r.c k = .ok none) :
    ∃ objs, getItem o w g r (.name k) = (w, .ok (.iter objs)) ∧
      ∀ x, x ∈ objs ↔ ∃ p, mkTriple r.s p x ∈ g.triples := by
  refine ⟨_, getItem_nonscalar hk rfl, fun x => ?_⟩
  unfold objectsOf
  rw [List.mem_map]
  constructor
  · rintro ⟨t, ht, rfl⟩
    rw [mem_match hg.inv ho.stmts] at ht
    exact ⟨t.p, by rw [← ht.2.1 hs, ← eq_mkTriple (hg.inv.isTri t ht.1)]; exact ht.1⟩
  · rintro ⟨p, hp⟩
    exact ⟨_, (mem_match hg.inv ho.stmts _ _ _ _).2 ⟨hp, fun _ => rfl, fun h => absurd h (by simp [predTerm, Term.truthy]),
      fun h => absurd h (by simp [Term.truthy])⟩, rfl⟩

theorem C56_refuted : ¬ C56_statement := by
  intro h
  obtain ⟨e, he⟩ := h {} .default World.new .new (Graph.new .none) (.new .none) ⟨0, .named (py! "http://a")⟩ (by decide) (py! "nonsense") (by decide)
  rw [getItem_nonscalar (p := none) (by decide) rfl] at he
  cases he

/-- Assigning to such a name raises KeyError as soon as the resource has any triple whose predicate is not None, whatever the value is
    (as long as it can be stored). -/
theorem C56_unresolved_set {o : Orders} (ho : o.OK) {w : World} (wr : w.Reach) {g : Graph} (hg : g.Reach) {r : Res}
    (hc : r.c < w.classes.length) (hs : r.s.truthy = true) (k : PStr) (hk : resolveKey w r.c k = .ok none) (value : SetVal)
    {v : LVal} (hv : (literalize o w g none none value).2 = .ok v) {p x : Term} (hx : mkTriple r.s p x ∈ g.triples)
    (hn : ∀ x, mkTriple r.s .none x ∉ g.triples) :
    (setItem o w g r (.name k) value).2.2 = .error .keyError := by
  have hik := interpretKey_nonscalar (w := w) (r := r) hk rfl
  have hl := literalize_spec ho wr g none none value
  have hrl : removalList o (literalize o w g none none value).1 g r (.name k) ⟨none, none, none, none⟩ v =
      ((literalize o w g none none value).1, .ok (objectsOf o g r.s .none)) := rfl
  have hmem : x ∈ objectsOf o g r.s .none := by
    unfold objectsOf
    rw [List.mem_map]
    exact ⟨_, (mem_match hg.inv ho.stmts _ _ _ _).2 ⟨hx, fun _ => rfl, fun h => absurd h (by simp [Term.truthy]),
      fun h => absurd h (by simp [Term.truthy])⟩, rfl⟩
  have herr := removeObjs_error hg r.s .none (objectsOf o g r.s .none) fun h => hn x (h.2 x hmem)
  have hso := setItem_outcome o w g r (.name k) value
  generalize setItem o w g r (.name k) value = q at hso
  cases hso with
  | key h => rw [hik] at h; cases h
  | value h1 h2 => rw [hik] at h1; cases h1; rw [hv] at h2; cases h2
  | check h1 h2 h3 => rw [hik] at h1; cases h1; rw [hv] at h2; cases h2; rw [hrl] at h3; cases h3
  | remove h1 h2 h3 h4 => rw [hik] at h1; cases h1; rw [hv] at h2; cases h2; rw [hrl] at h3; cases h3; rw [← h4]; exact herr
  | ok h1 h2 h3 h4 =>
    rw [hik] at h1; cases h1; rw [hv] at h2; cases h2; rw [hrl] at h3; cases h3
    exact absurd (h4.symm.trans herr) (by simp)

/-- A name whose prefix is unknown (to the class and to the global profile) does raise, for reading, testing, deleting and assigning.
    Missing for the full claim: names without a colon. -/
theorem C56_unknown_prefix_partial {o : Orders} {w : World} {g : Graph} {r : Res} (key : Key) (value : SetVal) {e : Exc}
    (hk : resolveKey w r.c key.text = .error e) :
    (getItem o w g r key).2 = .error e ∧ (containsKey o w g r key).2 = .error e ∧ (delItem o w g r key).2 = (g, .error e) ∧
    (setItem o w g r key value).2 = (g, .error e) := by
  have h : objectsForKey o w g r key = (w, .error e) := by unfold objectsForKey; rw [interpretKey_error hk]
  unfold getItem containsKey delItem setItem
  rw [h, interpretKey_error hk]
  exact ⟨rfl, rfl, rfl, rfl⟩

/-- Such names: `pre:ref` where neither the class nor the global profile knows `pre`, which is not an IRI scheme either. -/
theorem C56_unknown_prefix_raises {w : World} {c : Nat} {k pre ref : PStr} (hs : SplitsAt 58 k pre ref) (hcol : k.contains 58 = true)
    (hb : bracketed k = false) (hsch : pre ∉ schemes) (h1 : (w.cls c).prefixes.get? pre = none) (h2 : w.gPrefixes.get? pre = none)
    (hd : ref ≠ [] ∨ ((w.cls c).prefixes.get? [] = none ∧ w.gPrefixes.get? [] = none)) :
    resolveKey w c k = .error .valueError := by
  have hne : k ≠ [] := by rintro rfl; simp at hcol
  have hbody : curieBody k = k := by unfold curieBody; simp [hb]
  have r1 := ((parseCurie_rules k hne (w.cls c).prefixes pre ref (by rw [hbody]; exact hs)).2 (fun h => hsch h.2)).2
    (by rintro ⟨h, h'⟩; rcases hd with hd | hd; exact hd h; rw [hd.1] at h'; cases h')
  have r2 := ((parseCurie_rules k hne w.gPrefixes pre ref (by rw [hbody]; exact hs)).2 (fun h => hsch h.2)).2
    (by rintro ⟨h, h'⟩; rcases hd with hd | hd; exact hd h; rw [hd.2] at h'; cases h')
  unfold resolveKey PrefixMap.resolve
  rw [r1.2 h1]
  simp only [hcol, if_true]
  rw [r2.2 h2]; rfl

/-! ### Examples -/

/-- C83, C49: what some keys show. -/
example :
    (objectsForKey {} World.new sample ⟨0, .named (py! "http://x")⟩ (.pair (py! "rdfs:label") (.lang (py! "fr")))).2 =
      .ok (some (rdfsNs ++ py! "label"), [.lit (py! "un") (some (py! "fr")) none]) ∧
    (objectsForKey {} World.new sample ⟨0, .named (py! "http://x")⟩ (.name (py! "rdfs:label"))).2 =
      .ok (some (rdfsNs ++ py! "label"), [.lit (py! "one") (some (py! "en")) none]) ∧
    (objectsForKey {} World.new sample ⟨0, .named (py! "http://y")⟩ (.name (py! "rdfs:label"))).2 =
      .ok (some (rdfsNs ++ py! "label"), [.lit (py! "why") none none]) ∧
    (containsKey {} World.new sample ⟨0, .named (py! "http://x")⟩ (.pair (py! "rdfs:comment") (.lang []))).2 = .ok true ∧
    (containsKey {} World.new sample ⟨0, .named (py! "http://x")⟩ (.pair (py! "rdfs:label") (.lang (py! "de")))).2 = .ok false := by decide

/-- C48: deleting the French label. -/
example :
    (delItem {} World.new sample ⟨0, .named (py! "http://x")⟩ (.pair (py! "rdfs:label") (.lang (py! "fr")))).2.2 = .ok () ∧
    objectsOf {} (delItem {} World.new sample ⟨0, .named (py! "http://x")⟩ (.pair (py! "rdfs:label") (.lang (py! "fr")))).2.1
      (.named (py! "http://x")) (.named (rdfsNs ++ py! "label")) = [.lit (py! "one") (some (py! "en")) none] := by decide

/-- C56: a name that resolves to nothing. -/
example : resolveKey World.new 0 (py! "nothing") = .ok none ∧
    (getItem {} World.new sample ⟨0, .named (py! "http://x")⟩ (.name (py! "nothing"))).2 =
      .ok (.iter [.lit (py! "old") none none, .lit (py! "one") (some (py! "en")) none, .lit (py! "un") (some (py! "fr")) none]) := by decide

end Verif
