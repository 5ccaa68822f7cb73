import Verif.Props.ResSelect
/-
Assignment through a filter, `r[name, filter] = value`: C84-C87.
-/
namespace Verif
open Spec Graph

/-- A Resource object has a node as its subject (rdf.py:121-122). -/
def PyVal.OK : PyVal → Prop
  | .res _ s => IsResource s
  | _ => True

theorem objectify_lit {o : Orders} {w : World} {g : Graph} {lang dt : Option PStr} {u : PyVal} (hu : u.OK) {v : PStr} {l d : Option PStr}
    (h : storedTerm lang dt u = some (.lit v l d)) : objectify o w g lang dt u = (w, .ok (.lit v l d)) := by
  cases u with
  | iri => cases h
  | bnode => cases h
  | lit => cases h; rfl
  | res c s => cases h; rcases hu with ⟨i, h⟩ | ⟨i, h⟩ <;> cases h
  | str => cases h; rfl
  | other a => cases a <;> cases h <;> rfl

theorem objectifyAll_lits {o : Orders} {w : World} {g : Graph} {lang dt : Option PStr} (us : List PyVal) (hu : ∀ u ∈ us, u.OK)
    (h : ∀ u ∈ us, ∃ v l d, storedTerm lang dt u = some (.lit v l d)) :
    ∃ xs, objectifyAll o g lang dt w us = (w, .ok xs) ∧
      ∀ y ∈ xs, ∃ u ∈ us, ∃ v l d, y = .lit v l d ∧ storedTerm lang dt u = some (.lit v l d) := by
  induction us with
  | nil => exact ⟨[], rfl, by simp⟩
  | cons u us ih =>
    obtain ⟨v, l, d, h1⟩ := h u (by simp)
    obtain ⟨xs, h2, h3⟩ := ih (fun u h => hu u (by simp [h])) (fun x hx => h x (by simp [hx]))
    refine ⟨.lit v l d :: xs, ?_, ?_⟩
    · unfold objectifyAll
      rw [objectify_lit (hu u (by simp)) h1]
      simp only [h2]
    · intro y hy
      rcases List.mem_cons.1 hy with rfl | hy
      · exact ⟨u, by simp, v, l, d, rfl, h1⟩
      · obtain ⟨u', hu', h⟩ := h3 y hy
        exact ⟨u', by simp [hu'], h⟩

theorem frozen_sub (xs : List Val) : ∀ y ∈ frozen xs, y ∈ xs := by
  induction xs with
  | nil => simp [frozen]
  | cons a xs ih =>
    intro y hy
    simp only [frozen, List.mem_cons, List.mem_filter] at hy
    rcases hy with rfl | hy
    · simp
    · exact List.mem_cons_of_mem _ (ih y hy.1)

/-- Values that are all literals: nothing is raised, and no class is created. -/
theorem literalize_lits {o : Orders} (ho : o.OK) {w : World} {g : Graph} {lang dt : Option PStr} {value : SetVal}
    (hu : ∀ u ∈ values value, u.OK) (h : ∀ u ∈ values value, ∃ v l d, storedTerm lang dt u = some (.lit v l d)) :
    ∃ x, literalize o w g lang dt value = (w, .ok x) ∧
      ∀ y ∈ x.vals o, ∃ u ∈ values value, ∃ v l d, y = .lit v l d ∧ storedTerm lang dt u = some (.lit v l d) := by
  cases value with
  | one u =>
    obtain ⟨v, l, d, h1⟩ := h u (by simp [values])
    refine ⟨.one (.lit v l d), ?_, ?_⟩
    · dsimp only [literalize]
      rw [objectify_lit (hu u (by simp [values])) h1]
    · intro y hy
      simp only [LVal.vals, List.mem_singleton] at hy
      exact ⟨u, by simp [values], v, l, d, hy, h1⟩
  | many us =>
    obtain ⟨xs, h1, h2⟩ := objectifyAll_lits (o := o) (w := w) (g := g) us hu h
    refine ⟨.many (frozen xs), ?_, ?_⟩
    · dsimp only [literalize]
      rw [h1]
    · intro y hy
      simp only [LVal.vals] at hy
      exact h2 y (frozen_sub xs y ((ho.vals _).mem_iff.1 hy))

theorem truthyStr_of {l : PStr} (hl : l ≠ []) : truthyStr (some l) = true := by
  cases l with
  | nil => exact absurd rfl hl
  | cons => rfl

/-! ### Acceptance -/

theorem checkElems_all {w : World} {lang dt : Option PStr} {rc : Option Nat} {xs : List Val}
    (h : ∀ v ∈ xs, checkElem w lang dt rc v = .ok true) : checkElems w lang dt rc xs = .ok true := by
  induction xs with
  | nil => rfl
  | cons v vs ih =>
    unfold checkElems
    rw [h v (by simp)]
    exact ih fun v hv => h v (by simp [hv])

/-- If no element raises and one is refused, the set is refused. -/
theorem checkElems_bad {w : World} {lang dt : Option PStr} {rc : Option Nat} {xs : List Val}
    (h : ∀ v ∈ xs, ∃ b, checkElem w lang dt rc v = .ok b) (hb : ∃ v ∈ xs, checkElem w lang dt rc v = .ok false) :
    checkElems w lang dt rc xs = .ok false := by
  induction xs with
  | nil => obtain ⟨v, hv, _⟩ := hb; cases hv
  | cons v vs ih =>
    unfold checkElems
    obtain ⟨b, hb'⟩ := h v (by simp)
    rw [hb']
    cases b with
    | false => rfl
    | true =>
      refine ih (fun v hv => h v (by simp [hv])) ?_
      obtain ⟨v', hv', hf⟩ := hb
      rcases List.mem_cons.1 hv' with rfl | hv'
      · rw [hb'] at hf; cases hf
      · exact ⟨v', hv', hf⟩

theorem checkElem_lang {w : World} {l : PStr} (hl : l ≠ []) (v : Val) :
    ∃ b, checkElem w (some l) none none v = .ok b ∧ (b = true ↔ InLanguage l v.term ∧ ∃ s m d, v = .lit s m d) := by
  unfold checkElem
  cases v with
  | none => exact ⟨false, by simp [truthyStr_of hl], by simp⟩
  | res c s => exact ⟨false, by simp [truthyStr_of hl], by simp⟩
  | lit s m d =>
    refine ⟨langMatch m (some l), ?_, ?_⟩
    · have h0 : truthyStr none = false := rfl
      simp only [truthyStr_of hl, h0, Bool.true_and, Bool.false_eq_true, if_false]
      cases langMatch m (some l) <;> rfl
    · rw [(C36_reflexive_symmetric m (some l)).2.1]
      constructor
      · intro h
        cases m with
        | none => simp [langMatch] at h
        | some m => exact ⟨⟨s, m, d, rfl, h⟩, s, some m, d, rfl⟩
      · rintro ⟨⟨s', m', d', h1, h2⟩, _⟩
        cases h1; exact h2

theorem checkElem_dt {w : World} {d : PStr} (hd : d ≠ []) (s : PStr) (m e : Option PStr) :
    checkElem w none (some d) none (.lit s m e) = .ok (decide (e = some d)) := by
  unfold checkElem
  have h0 : truthyStr none = false := rfl
  simp only [truthyStr_of hd, h0, Bool.false_and, Bool.false_eq_true, if_false, if_true]
  by_cases h : e = some d <;> simp [h]

theorem checkObjects_lang_one {o : Orders} {w : World} {l : PStr} (hl : l ≠ []) (s : PStr) (m d : Option PStr) :
    checkObjects o w (some l) none none (.one (.lit s m d)) = .ok (langMatch m (some l)) := by
  unfold checkObjects
  simp only [truthyStr_of hl, if_true]
  cases langMatch m (some l) <;> simp [truthyStr]

theorem checkObjects_dt_one {o : Orders} {w : World} {d : PStr} (hd : d ≠ []) (s : PStr) (m e : Option PStr) :
    checkObjects o w none (some d) none (.one (.lit s m e)) = .ok (decide (e = some d)) := by
  unfold checkObjects
  have h0 : truthyStr none = false := rfl
  simp only [truthyStr_of hd, h0, Bool.false_eq_true, if_false, if_true]
  by_cases h : e = some d <;> simp [h]

/-- Literals in the filter's language pass the check. -/
theorem checkObjects_lang {o : Orders} {w : World} {l : PStr} (hl : l ≠ []) {x : LVal}
    (h : ∀ y ∈ x.vals o, ∃ v m d, y = .lit v m d ∧ InLanguage l (.lit v m d)) : checkObjects o w (some l) none none x = .ok true := by
  cases x with
  | one v =>
    obtain ⟨s, m, d, rfl, ⟨s', m', d', h1, h2⟩⟩ := h v (by simp [LVal.vals])
    cases h1
    rw [checkObjects_lang_one hl, (C36_reflexive_symmetric _ _).2.1, h2]
  | many vs =>
    refine checkElems_all fun v hv => ?_
    obtain ⟨s, m, d, rfl, h1⟩ := h v hv
    obtain ⟨b, h2, h3⟩ := checkElem_lang (w := w) hl (.lit s m d)
    rw [h2, h3.2 ⟨h1, s, m, d, rfl⟩]

theorem checkObjects_dt {o : Orders} {w : World} {d : PStr} (hd : d ≠ []) {x : LVal}
    (h : ∀ y ∈ x.vals o, ∃ v m, y = .lit v m (some d)) : checkObjects o w none (some d) none x = .ok true := by
  cases x with
  | one v =>
    obtain ⟨s, m, rfl⟩ := h v (by simp [LVal.vals])
    rw [checkObjects_dt_one hd]; simp
  | many vs =>
    refine checkElems_all fun v hv => ?_
    obtain ⟨s, m, rfl⟩ := h v hv
    rw [checkElem_dt hd]; simp

/-- A successful assignment, with the removal list given by what it selects. -/
theorem setItem_replaces {o : Orders} (ho : o.OK) {w w1 : World} (wr : w.Reach) {g : Graph} (hg : g.Reach) {r : Res}
    (hs : r.s.truthy = true) {key : Key} {value : SetVal} {lang dt : Option PStr} {cls : Option Nat} {p : PStr} {v : LVal}
    {objs : List Term} (hk : interpretKey w r key = .ok ⟨some p, lang, dt, cls⟩) (hp : p ≠ [])
    (hv : literalize o w g lang dt value = (w1, .ok v)) {w2 : World}
    (hr : removalList o w1 g r key ⟨some p, lang, dt, cls⟩ v = (w2, .ok objs)) (nd : objs.Nodup) {S : Term → Prop}
    (hS : ∀ x, x ∈ objs ↔ x ∈ objectsOf o g r.s (.named p) ∧ S x) :
    (setItem o w g r key value).2.2 = .ok () ∧ (setItem o w g r key value).1 = w2 ∧
    ∀ x, mkTriple r.s (.named p) x ∈ (setItem o w g r key value).2.1.triples ↔
      (∃ u ∈ values value, storedTerm lang dt u = some x) ∨ (mkTriple r.s (.named p) x ∈ g.triples ∧ ¬ S x) := by
  have hp' : (Term.named p).truthy = true := predTerm_truthy hp
  have hset := setItem_ok ho wr hg hs hk hp' (v := v) (by rw [hv]) (objs := objs) (by rw [hv]; dsimp only; rw [hr]) nd
    fun x hx => ((hS x).1 hx).1
  refine ⟨hset.1, ?_, fun y => (hset.2.2 y).trans ?_⟩
  · rw [hset.2.1, hv]; dsimp only; rw [hr]
  · rw [hS, mem_objectsOf ho hg hs hp']
    constructor
    · rintro (h | ⟨h1, h2⟩)
      · exact Or.inl h
      · exact Or.inr ⟨h1, fun h => h2 ⟨h1, h⟩⟩
    · rintro (h | ⟨h1, h2⟩)
      · exact Or.inl h
      · exact Or.inr ⟨h1, fun h => h2 h.2⟩

/-! ### C84: assignment through a filter to a predicate that is not scalar -/

theorem interpretKey_lang {w : World} {r : Res} {k : PStr} {p : Option PStr} (hk : resolveKey w r.c k = .ok p) (l : PStr) :
    interpretKey w r (.pair k (.lang l)) = .ok ⟨p, some l, none, none⟩ := by
  unfold interpretKey; simp only [Key.text, hk]

theorem interpretKey_dt {w : World} {r : Res} {k : PStr} {p : Option PStr} (hk : resolveKey w r.c k = .ok p) (d : PStr) :
    interpretKey w r (.pair k (.dt d)) = .ok ⟨p, none, some (interpretDatatype d), none⟩ := by
  unfold interpretKey; simp only [Key.text, hk]

/-- `r[k, l] = values`, where `k` is not scalar and every value is a literal in a language that matches `l` (a plain string gets the
    language `l`): the call succeeds, and the objects are then the given ones and the old ones that `r[k, l]` did not show. -/
theorem C84_language_filter {o : Orders} (ho : o.OK) {w : World} (wr : w.Reach) {g : Graph} (hg : g.Reach) {r : Res}
    (hs : r.s.truthy = true) {k p : PStr} (hk : resolveKey w r.c k = .ok (some p)) (hp : p ≠ [])
    (hn : isScalar w r.c (some p) = false) {l : PStr} (hl : l ≠ []) {value : SetVal} (hok : ∀ u ∈ values value, u.OK)
    (hv : ∀ u ∈ values value, ∃ t, storedTerm (some l) none u = some t ∧ InLanguage l t) :
    (setItem o w g r (.pair k (.lang l)) value).2.2 = .ok () ∧ (setItem o w g r (.pair k (.lang l)) value).1 = w ∧
    ∀ x, mkTriple r.s (.named p) x ∈ (setItem o w g r (.pair k (.lang l)) value).2.1.triples ↔
      (∃ u ∈ values value, storedTerm (some l) none u = some x) ∨
      (mkTriple r.s (.named p) x ∈ g.triples ∧ ¬ Shown false (.lang l) x) := by
  have hp' : (Term.named p).truthy = true := predTerm_truthy hp
  have nd := nodup_objectsOf ho hg hs hp'
  obtain ⟨x, h1, h2⟩ := literalize_lits ho (w := w) (g := g) (lang := some l) (dt := none) hok fun u hu => by
    obtain ⟨t, ha, ⟨v, m, d, rfl, _⟩⟩ := hv u hu; exact ⟨v, some m, d, ha⟩
  have hch : checkObjects o w (some l) none none x = .ok true := checkObjects_lang hl fun y hy => by
    obtain ⟨u, hu, v, m, d, rfl, h3⟩ := h2 y hy
    obtain ⟨t, h4, h5⟩ := hv u hu
    rw [h3] at h4; cases h4
    exact ⟨v, m, d, rfl, h5⟩
  have hrl : removalList o w g r (.pair k (.lang l)) ⟨some p, some l, none, none⟩ x =
      (w, .ok (objectsByLang o g r.s (.named p) (some l) ++ nodesOf o g r.s (.named p))) := by
    unfold removalList objectsForExplicitSet
    simp only [Key.isTuple, if_true, hch, truthyStr_of hl, hn, Bool.and_false, Bool.false_eq_true, if_false, predTerm]
  refine setItem_replaces ho wr hg hs (interpretKey_lang hk l) hp h1 hrl ?_ fun y => ?_
  · exact nodup_append_nodes (fun x hx => not_resource_byLang hx) ((sub_byLang ..).nodup nd) nd
  · simp only [List.mem_append, mem_byLang hl, mem_nodesOf, Shown, hl, if_false, true_and, ← and_or_left]

/-- The same for a datatype filter. -/
theorem C84_datatype_filter {o : Orders} (ho : o.OK) {w : World} (wr : w.Reach) {g : Graph} (hg : g.Reach) {r : Res}
    (hs : r.s.truthy = true) {k p : PStr} (hk : resolveKey w r.c k = .ok (some p)) (hp : p ≠ [])
    (hn : isScalar w r.c (some p) = false) {d : PStr} (hd : d ≠ []) (hd' : d ≠ xsd (py! "string")) {value : SetVal}
    (hok : ∀ u ∈ values value, u.OK)
    (hv : ∀ u ∈ values value, ∃ t, storedTerm none (some d) u = some t ∧ OfDatatype d t) :
    (setItem o w g r (.pair k (.dt d)) value).2.2 = .ok () ∧ (setItem o w g r (.pair k (.dt d)) value).1 = w ∧
    ∀ x, mkTriple r.s (.named p) x ∈ (setItem o w g r (.pair k (.dt d)) value).2.1.triples ↔
      (∃ u ∈ values value, storedTerm none (some d) u = some x) ∨
      (mkTriple r.s (.named p) x ∈ g.triples ∧ ¬ Shown false (.dt d) x) := by
  have hp' : (Term.named p).truthy = true := predTerm_truthy hp
  have nd := nodup_objectsOf ho hg hs hp'
  have hi : interpretDatatype d = d := by unfold interpretDatatype; rw [if_neg hd']
  have hik := interpretKey_dt hk d
  rw [hi] at hik
  obtain ⟨x, h1, h2⟩ := literalize_lits ho (w := w) (g := g) (lang := none) (dt := some d) hok fun u hu => by
    obtain ⟨t, ha, ⟨v, m, rfl⟩⟩ := hv u hu; exact ⟨v, m, some d, ha⟩
  have hch : checkObjects o w none (some d) none x = .ok true := checkObjects_dt hd fun y hy => by
    obtain ⟨u, hu, v, m, e, rfl, h3⟩ := h2 y hy
    obtain ⟨t, h4, ⟨v', m', rfl⟩⟩ := hv u hu
    rw [h3] at h4; cases h4
    exact ⟨v, m, rfl⟩
  have h0 : truthyStr none = false := rfl
  have hrl : removalList o w g r (.pair k (.dt d)) ⟨some p, none, some d, none⟩ x =
      (w, .ok (objectsByDatatype o g r.s (.named p) (some d) ++ nodesOf o g r.s (.named p))) := by
    unfold removalList objectsForExplicitSet
    simp only [Key.isTuple, if_true, hch, truthyStr_of hd, h0, hn, Bool.and_false, Bool.false_eq_true, if_false, predTerm]
  refine setItem_replaces ho wr hg hs hik hp h1 hrl ?_ fun y => ?_
  · exact nodup_append_nodes (fun x hx => not_resource_byDt hx) ((sub_byDt ..).nodup nd) nd
  · simp only [List.mem_append, mem_byDt hd, mem_nodesOf, Shown, hd, hd', or_self, if_false, true_and, ← and_or_left]

/-- A literal in another language, or without one, is refused with ValueError, and nothing changes; this holds for scalar predicates
    too. -/
theorem C84_wrong_language {o : Orders} (ho : o.OK) {w : World} (wr : w.Reach) {g : Graph} {r : Res} {k : PStr} {p : Option PStr}
    (hk : resolveKey w r.c k = .ok p) {l : PStr} (hl : l ≠ []) {value : SetVal} (hok : ∀ u ∈ values value, u.OK)
    (hv : ∀ u ∈ values value, ∃ v m d, storedTerm (some l) none u = some (.lit v m d))
    (hbad : ∃ u ∈ values value, ∃ t, storedTerm (some l) none u = some t ∧ ¬ InLanguage l t) :
    setItem o w g r (.pair k (.lang l)) value = (w, g, .error .valueError) := by
  have hfull := literalize_lits ho (w := w) (g := g) (lang := some l) (dt := none) hok hv
  obtain ⟨x, h1, h2⟩ := hfull
  have hch : checkObjects o w (some l) none none x = .ok false := by
    cases value with
    | one u =>
      obtain ⟨u', hu', t, h3, h4⟩ := hbad
      simp only [values, List.mem_singleton] at hu'
      subst hu'
      obtain ⟨v, m, d, h5⟩ := hv u' (by simp [values])
      rw [h5] at h3; cases h3
      have : x = .one (.lit v m d) := by
        have := h1
        dsimp only [literalize] at this
        rw [objectify_lit (hok u' (by simp [values])) h5] at this
        cases this; rfl
      subst this
      rw [checkObjects_lang_one hl]
      congr 1
      rw [Bool.eq_false_iff]
      intro hm
      cases m with
      | none => simp [langMatch] at hm
      | some m => rw [(C36_reflexive_symmetric _ _).2.1] at hm; exact h4 ⟨v, m, d, rfl, hm⟩
    | many us =>
      obtain ⟨xs, h3, h4⟩ := objectifyAll_lits (o := o) (w := w) (g := g) us hok hv
      have hx : x = .many (frozen xs) := by
        have := h1
        dsimp only [literalize] at this
        rw [h3] at this; cases this; rfl
      subst hx
      refine checkElems_bad (fun v _ => ?_) ?_
      · obtain ⟨b, h, _⟩ := checkElem_lang (w := w) hl v; exact ⟨b, h⟩
      · obtain ⟨u, hu, t, h5, h6⟩ := hbad
        have hmem := (((literalize_spec ho wr g (some l) none (.many us)).2.2.1 _ (by rw [h1])).2.1 t).2 ⟨u, hu, h5⟩
        obtain ⟨v, hv1, rfl⟩ := List.mem_map.1 hmem
        refine ⟨v, hv1, ?_⟩
        obtain ⟨b, h7, h8⟩ := checkElem_lang (w := w) hl v
        rw [h7]
        cases b with
        | false => rfl
        | true => exact absurd (h8.1 rfl).1 h6
  unfold setItem
  rw [interpretKey_lang hk l]
  simp only [h1, Key.isTuple, if_true, objectsForExplicitSet, hch]


/-! ### C85: references under a filter -/

/-- The claim of the documentation: "Object references are always acceptable to include." -/
def C85_statement : Prop :=
  ∀ (o : Orders), o.OK → ∀ w : World, w.Reach → ∀ g : Graph, g.Reach → ∀ r : Res, r.c < w.classes.length → r.s.truthy = true →
    ∀ (k p : PStr), resolveKey w r.c k = .ok (some p) → p ≠ [] → ∀ f : Filt, ∀ c s, IsResource s →
      (setItem o w g r (.pair k f) (.one (.res c s))).2.2 = .ok ()

/-- Exactly: a reference assigned through a language or datatype filter raises AttributeError; a set containing one is refused
    under a language filter. Nothing changes in the graph. -/
theorem C85_reference_refused {o : Orders} (ho : o.OK) {w : World} (wr : w.Reach) {g : Graph} {r : Res} {k : PStr} {p : Option PStr}
    (hk : resolveKey w r.c k = .ok p) {l : PStr} (hl : l ≠ []) (c : Nat) (s : Term) :
    setItem o w g r (.pair k (.lang l)) (.one (.res c s)) = (w, g, .error .attributeError) ∧
    (l ≠ xsd (py! "string") → setItem o w g r (.pair k (.dt l)) (.one (.res c s)) = (w, g, .error .attributeError)) ∧
    ∀ us : List PyVal, .res c s ∈ us → IsResource s →
      (setItem o w g r (.pair k (.lang l)) (.many us)).2.1 = g ∧ ∃ e, (setItem o w g r (.pair k (.lang l)) (.many us)).2.2 = .error e := by
  have h0 : truthyStr none = false := rfl
  refine ⟨?_, fun hd => ?_, fun us hu hs => ?_⟩
  · unfold setItem
    rw [interpretKey_lang hk l]
    simp only [literalize, objectify, Key.isTuple, if_true, objectsForExplicitSet, checkObjects, truthyStr_of hl]
  · unfold setItem
    rw [interpretKey_dt hk l]
    have hi : interpretDatatype l = l := by unfold interpretDatatype; rw [if_neg hd]
    simp only [literalize, objectify, Key.isTuple, if_true, objectsForExplicitSet, checkObjects, hi, h0, Bool.false_eq_true, if_false,
      truthyStr_of hl]
  · have hlit := literalize_spec ho wr g (some l) none (.many us)
    unfold setItem
    rw [interpretKey_lang hk l]
    dsimp only
    generalize literalize o w g (some l) none (.many us) = q at hlit ⊢
    obtain ⟨w1, e | x⟩ := q
    · exact ⟨rfl, e, rfl⟩
    · obtain ⟨-, h2, h3⟩ := hlit.2.2.1 x rfl
      have hm := (h2 s).2 ⟨_, hu, rfl⟩
      have hc : checkObjects o w1 (some l) none none x = .ok false := by
        cases x with
        | one y => obtain ⟨u, hu⟩ := h3.2 ⟨y, rfl⟩; cases hu
        | many xs =>
          obtain ⟨v, hv, hvt⟩ := List.mem_map.1 hm
          refine checkElems_bad (fun v _ => ?_) ⟨v, hv, ?_⟩
          · obtain ⟨b, hb, _⟩ := checkElem_lang (w := w1) hl v; exact ⟨b, hb⟩
          · obtain ⟨b, hb, hb'⟩ := checkElem_lang (w := w1) hl v
            rw [hb]
            cases b with
            | false => rfl
            | true =>
              obtain ⟨⟨a, m, d, h4, _⟩, _⟩ := hb'.1 rfl
              rw [hvt] at h4
              rw [h4] at hs
              rcases hs with ⟨_, h⟩ | ⟨_, h⟩ <;> cases h
      simp only [Key.isTuple, if_true, objectsForExplicitSet, hc]
      exact ⟨trivial, _, rfl⟩

/-! ### C86: assignment through a filter to a scalar predicate -/

/-- With a language filter: the objects are then the new literal and the old literals that have a language not matching the filter or
    neither language nor datatype. -/
theorem C86_scalar_language {o : Orders} (ho : o.OK) {w : World} (wr : w.Reach) {g : Graph} (hg : g.Reach) {r : Res}
    (hs : r.s.truthy = true) {k p : PStr} (hk : resolveKey w r.c k = .ok (some p)) (hp : p ≠ [])
    (hn : isScalar w r.c (some p) = true) {l : PStr} (hl : l ≠ []) {value : SetVal} (hok : ∀ u ∈ values value, u.OK)
    (hv : ∀ u ∈ values value, ∃ t, storedTerm (some l) none u = some t ∧ InLanguage l t)
    (hwf : ∀ x, mkTriple r.s (.named p) x ∈ g.triples → WellFormed x) :
    (setItem o w g r (.pair k (.lang l)) value).2.2 = .ok () ∧ (setItem o w g r (.pair k (.lang l)) value).1 = w ∧
    ∀ x, mkTriple r.s (.named p) x ∈ (setItem o w g r (.pair k (.lang l)) value).2.1.triples ↔
      (∃ u ∈ values value, storedTerm (some l) none u = some x) ∨
      (mkTriple r.s (.named p) x ∈ g.triples ∧ ¬ (InLanguage l x ∨ HasDatatype x ∨ IsResource x)) := by
  have hp' : (Term.named p).truthy = true := predTerm_truthy hp
  have nd := nodup_objectsOf ho hg hs hp'
  obtain ⟨x, h1, h2⟩ := literalize_lits ho (w := w) (g := g) (lang := some l) (dt := none) hok fun u hu => by
    obtain ⟨t, ha, ⟨v, m, d, rfl, _⟩⟩ := hv u hu; exact ⟨v, some m, d, ha⟩
  have hch : checkObjects o w (some l) none none x = .ok true := checkObjects_lang hl fun y hy => by
    obtain ⟨u, hu, v, m, d, rfl, h3⟩ := h2 y hy
    obtain ⟨t, h4, h5⟩ := hv u hu
    rw [h3] at h4; cases h4
    exact ⟨v, m, d, rfl, h5⟩
  have hrl : removalList o w g r (.pair k (.lang l)) ⟨some p, some l, none, none⟩ x =
      (w, .ok (objectsByLang o g r.s (.named p) (some l) ++ objectsByDatatype o g r.s (.named p) none ++ nodesOf o g r.s (.named p))) := by
    unfold removalList objectsForExplicitSet
    simp only [Key.isTuple, if_true, hch, truthyStr_of hl, hn, Bool.and_true, predTerm]
  refine setItem_replaces ho wr hg hs (interpretKey_lang hk l) hp h1 hrl ?_ fun y => ?_
  · have := nodup_taggedRemoval hl nd fun x hx => hwf x ((mem_objectsOf ho hg hs hp' x).1 hx)
    exact (List.nodup_append.1 this).1
  · simp only [List.mem_append, mem_byLang hl, mem_byDt_none, mem_nodesOf, ← and_or_left, or_assoc]

/-- With a datatype filter: the given values replace everything. -/
theorem C86_scalar_datatype {o : Orders} (ho : o.OK) {w : World} (wr : w.Reach) {g : Graph} (hg : g.Reach) {r : Res}
    (hs : r.s.truthy = true) {k p : PStr} (hk : resolveKey w r.c k = .ok (some p)) (hp : p ≠ [])
    (hn : isScalar w r.c (some p) = true) {d : PStr} (hd : d ≠ []) (hd' : d ≠ xsd (py! "string")) {value : SetVal}
    (hok : ∀ u ∈ values value, u.OK)
    (hv : ∀ u ∈ values value, ∃ t, storedTerm none (some d) u = some t ∧ OfDatatype d t) :
    (setItem o w g r (.pair k (.dt d)) value).2.2 = .ok () ∧ (setItem o w g r (.pair k (.dt d)) value).1 = w ∧
    ∀ x, mkTriple r.s (.named p) x ∈ (setItem o w g r (.pair k (.dt d)) value).2.1.triples ↔
      ∃ u ∈ values value, storedTerm none (some d) u = some x := by
  have hp' : (Term.named p).truthy = true := predTerm_truthy hp
  have nd := nodup_objectsOf ho hg hs hp'
  have hi : interpretDatatype d = d := by unfold interpretDatatype; rw [if_neg hd']
  have hik := interpretKey_dt hk d
  rw [hi] at hik
  obtain ⟨x, h1, h2⟩ := literalize_lits ho (w := w) (g := g) (lang := none) (dt := some d) hok fun u hu => by
    obtain ⟨t, ha, ⟨v, m, rfl⟩⟩ := hv u hu; exact ⟨v, m, some d, ha⟩
  have hch : checkObjects o w none (some d) none x = .ok true := checkObjects_dt hd fun y hy => by
    obtain ⟨u, hu, v, m, e, rfl, h3⟩ := h2 y hy
    obtain ⟨t, h4, ⟨v', m', rfl⟩⟩ := hv u hu
    rw [h3] at h4; cases h4
    exact ⟨v, m, rfl⟩
  have h0 : truthyStr none = false := rfl
  have hrl : removalList o w g r (.pair k (.dt d)) ⟨some p, none, some d, none⟩ x = (w, .ok (objectsOf o g r.s (.named p))) := by
    unfold removalList objectsForExplicitSet
    simp only [Key.isTuple, if_true, hch, h0, hn, Bool.false_and, Bool.false_eq_true, if_false, predTerm]
  have := setItem_replaces ho wr hg hs hik hp h1 hrl nd (S := fun _ => True) fun y => by simp
  refine ⟨this.1, this.2.1, fun y => (this.2.2 y).trans ?_⟩
  simp

/-- With a class filter: a resource of the class replaces everything. -/
theorem C86_scalar_class {o : Orders} (ho : o.OK) {w : World} (wr : w.Reach) {g : Graph} (hg : g.Reach) {r : Res}
    (hs : r.s.truthy = true) {k p : PStr} (hk : resolveKey w r.c k = .ok (some p)) (hp : p ≠ [])
    (hn : isScalar w r.c (some p) = true) (rc c : Nat) (hsub : w.isSub c rc = true) (t : Term) :
    (setItem o w g r (.pair k (.cls rc)) (.one (.res c t))).2.2 = .ok () ∧
    (setItem o w g r (.pair k (.cls rc)) (.one (.res c t))).1 = w ∧
    ∀ x, mkTriple r.s (.named p) x ∈ (setItem o w g r (.pair k (.cls rc)) (.one (.res c t))).2.1.triples ↔ x = t := by
  have hp' : (Term.named p).truthy = true := predTerm_truthy hp
  have nd := nodup_objectsOf ho hg hs hp'
  have hik : interpretKey w r (.pair k (.cls rc)) = .ok ⟨some p, none, none, some rc⟩ := by
    unfold interpretKey; simp only [Key.text, hk]
  have h0 : truthyStr none = false := rfl
  have hrl : removalList o w g r (.pair k (.cls rc)) ⟨some p, none, none, some rc⟩ (.one (.res c t)) =
      (w, .ok (objectsOf o g r.s (.named p))) := by
    unfold removalList objectsForExplicitSet
    simp only [Key.isTuple, if_true, checkObjects, h0, hn, Bool.false_and, Bool.false_eq_true, if_false, predTerm, Val.isInst, hsub]
  have := setItem_replaces ho wr hg hs hik hp (value := .one (.res c t)) rfl hrl nd (S := fun _ => True) fun y => by simp
  refine ⟨this.1, this.2.1, fun y => (this.2.2 y).trans ?_⟩
  simp [values, storedTerm, eq_comm]

/-! ### C87: the filters that show everything, or the plain literals, cannot be assigned through -/

/-- The claim: what `r[name, filter]` reads can be written through the same key. -/
def C87_statement : Prop :=
  ∀ (o : Orders), o.OK → ∀ w : World, w.Reach → ∀ g : Graph, g.Reach → ∀ r : Res, r.c < w.classes.length → r.s.truthy = true →
    ∀ (k p : PStr), resolveKey w r.c k = .ok (some p) → p ≠ [] → ∀ (f : Filt) (v : PStr), Shown (isScalar w r.c (some p)) f (.lit v none none) →
      (setItem o w g r (.pair k f) (.one (.lit v none none))).2.2 = .ok ()

/-- Exactly: a single value is refused with ValueError under each of these filters. -/
theorem C87_unassignable {o : Orders} {w : World} {g : Graph} {r : Res} {k : PStr} {p : Option PStr}
    (hk : resolveKey w r.c k = .ok p) (f : Filt) (hf : f = .none ∨ f = .lang [] ∨ f = .dt [] ∨ f = .dt (xsd (py! "string")))
    (v : PStr) (l d : Option PStr) :
    setItem o w g r (.pair k f) (.one (.lit v l d)) = (w, g, .error .valueError) := by
  have h0 : truthyStr none = false := rfl
  have h1 : truthyStr (some []) = false := rfl
  have h2 : interpretDatatype [] = [] := rfl
  have h3 : interpretDatatype (xsd (py! "string")) = [] := by unfold interpretDatatype; rw [if_pos rfl]
  unfold setItem interpretKey
  simp only [Key.text, hk]
  rcases hf with rfl | rfl | rfl | rfl <;>
    simp only [literalize, objectify, Key.isTuple, if_true, objectsForExplicitSet, checkObjects, h0, h1, h2, h3, Bool.false_eq_true, if_false]

/-- A set of literals, even the empty set, raises TypeError for a predicate that is not scalar: the values are accepted, but no objects to
    replace are determined. -/
theorem C87_sets_raise {o : Orders} (ho : o.OK) {w : World} {g : Graph} {r : Res} {k : PStr} {p : Option PStr}
    (hk : resolveKey w r.c k = .ok p) (hn : isScalar w r.c p = false) (f : Filt)
    (hf : f = .none ∨ f = .lang [] ∨ f = .dt [] ∨ f = .dt (xsd (py! "string"))) {us : List PyVal}
    (hu : ∀ u ∈ us, (∃ v l d, u = .lit v l d) ∨ ∃ s, u = .str s) :
    setItem o w g r (.pair k f) (.many us) = (w, g, .error .typeError) := by
  have key : ∀ lang dt : Option PStr, truthyStr lang = false → truthyStr dt = false →
      ∀ q, interpretKey w r (.pair k f) = .ok q → q = ⟨p, lang, dt, none⟩ →
      setItem o w g r (.pair k f) (.many us) = (w, g, .error .typeError) := by
    rintro lang dt h1 h2 q hq rfl
    obtain ⟨x, h3, h4⟩ := literalize_lits ho (w := w) (g := g) (lang := lang) (dt := dt) (value := .many us)
      (fun u h => by rcases hu u h with ⟨v, l, d, rfl⟩ | ⟨s, rfl⟩ <;> trivial)
      (fun u h => by
        rcases hu u h with ⟨v, l, d, rfl⟩ | ⟨s, rfl⟩
        · exact ⟨v, l, d, rfl⟩
        · exact ⟨s, lang, dt, rfl⟩)
    have hc : checkObjects o w lang dt none x = .ok true := by
      cases x with
      | one y =>
        exfalso
        unfold literalize at h3
        dsimp only at h3
        split at h3 <;> simp at h3
      | many xs =>
        refine checkElems_all fun v hv => ?_
        obtain ⟨_, _, a, l, d, rfl, _⟩ := h4 v hv
        simp [checkElem, h1, h2]
    unfold setItem
    simp only [hq, h3, Key.isTuple, if_true, objectsForExplicitSet, hc, h1, h2, hn, Bool.false_and, Bool.false_eq_true, if_false]
  have h3 : interpretDatatype (xsd (py! "string")) = [] := by unfold interpretDatatype; rw [if_pos rfl]
  rcases hf with rfl | rfl | rfl | rfl
  · exact key none none rfl rfl _ (by unfold interpretKey; simp only [Key.text, hk]) rfl
  · exact key (some []) none rfl rfl _ (by unfold interpretKey; simp only [Key.text, hk]) rfl
  · exact key none (some []) rfl rfl _ (by unfold interpretKey; simp only [Key.text, hk]; rfl) rfl
  · exact key none (some []) rfl rfl _ (by unfold interpretKey; simp only [Key.text, hk, h3]) rfl

theorem C87_refuted : ¬ C87_statement := by
  intro h
  have := h {} .default World.new .new sample sample_reach ⟨0, .named (py! "http://x")⟩ (by decide) rfl (py! "rdfs:comment") _ rfl (by decide)
    .none (py! "v") (by trivial)
  rw [C87_unassignable (p := some (rdfsNs ++ py! "comment")) (by decide) .none (Or.inl rfl)] at this
  cases this

theorem C85_refuted : ¬ C85_statement := by
  intro h
  have := h {} .default World.new .new sample sample_reach ⟨0, .named (py! "http://x")⟩ (by decide) rfl (py! "rdfs:comment") _ rfl (by decide)
    (.lang (py! "en")) 0 (.named (py! "http://y")) (Or.inl ⟨_, rfl⟩)
  rw [(C85_reference_refused Orders.OK.default .new (p := some (rdfsNs ++ py! "comment")) (by decide) (by decide) 0 _).1] at this
  cases this

end Verif
