import Verif.Lemmas.ResRead
/-
Dictionary-style access to a Resource: C45-C49, C56, C59.

In all statements `w` is any reachable state of the Resource classes, `g` any reachable graph, `r` a Resource of an existing class, and
`o`, `o'` are any iteration orders of the hash sets involved.
-/
namespace Verif
open Spec Graph

/-! ### C46: assignment touches only the addressed statements -/

/-- Whatever the key and the values, and whether or not the call raises: a statement with another subject or another predicate than the
    key's is in the graph afterwards iff it was before. If the key does not resolve nothing changes at all. -/
theorem C46_set_frame {o : Orders} (ho : o.OK) {w : World} (wr : w.Reach) {g : Graph} (hg : g.Reach) {r : Res}
    (hc : r.c < w.classes.length) (key : Key) (value : SetVal) :
    (∀ e, resolveKey w r.c key.text = .error e → (setItem o w g r key value).2 = (g, .error e)) ∧
    ∀ p, resolveKey w r.c key.text = .ok p → ∀ t : Stmt, (t.s ≠ r.s ∨ t.p ≠ predTerm p) →
      (t ∈ (setItem o w g r key value).2.1.triples ↔ t ∈ g.triples) := by
  have h := setItem_frame ho wr hg hc key value
  exact ⟨fun e he => by rw [h.2.2.2.1 e he], h.2.2.2.2⟩

/-- The state after an assignment is again a reachable graph and a reachable state of the classes. -/
theorem C46_set_reach {o : Orders} (ho : o.OK) {w : World} (wr : w.Reach) {g : Graph} (hg : g.Reach) {r : Res}
    (hc : r.c < w.classes.length) (key : Key) (value : SetVal) :
    (setItem o w g r key value).1.Reach ∧ (setItem o w g r key value).2.1.Reach ∧
    r.c < (setItem o w g r key value).1.classes.length := by
  have h := setItem_frame ho wr hg hc key value
  exact ⟨h.1, h.2.2.1, Nat.lt_of_lt_of_le hc h.2.1.length⟩

/-- The outcomes of an assignment: an exception other than KeyError leaves the graph as it was. -/
theorem C46_set_atomic (o : Orders) (w : World) (g : Graph) (r : Res) (key : Key) (value : SetVal) (e : Exc)
    (he : (setItem o w g r key value).2.2 = .error e) (hne : e ≠ .keyError) (hg : g.Reach) :
    (setItem o w g r key value).2.1 = g := by
  have hs := setItem_outcome o w g r key value
  generalize setItem o w g r key value = q at hs he
  cases hs with
  | key h => rfl
  | value h => rfl
  | check h => rfl
  | @remove sel v objs e' h1 h2 h3 h4 =>
    simp only [Except.error.injEq] at he
    by_cases hx : objs.Nodup ∧ ∀ x ∈ objs, mkTriple r.s (predTerm sel.pred) x ∈ g.triples
    · rw [(removeObjs_ok hg _ _ _ hx.1 hx.2).1] at h4; cases h4
    · rw [removeObjs_error hg _ _ _ hx] at h4
      simp only [Except.error.injEq] at h4
      exact absurd (he.symm.trans h4.symm) hne
  | ok => cases he

/-! ### C45: reading back -/

theorem interpretKey_nonscalar {w : World} {r : Res} {k : PStr} {p : Option PStr} (hk : resolveKey w r.c k = .ok p)
    (hn : isScalar w r.c p = false) : interpretKey w r (.name k) = .ok ⟨p, none, none, none⟩ := by
  unfold interpretKey
  simp only [Key.text, hk, hn]; rfl

theorem interpretKey_scalar {w : World} {r : Res} {k : PStr} {p : Option PStr} (hk : resolveKey w r.c k = .ok p)
    (hn : isScalar w r.c p = true) : interpretKey w r (.name k) = .ok ⟨p, w.lang r.c, none, none⟩ := by
  unfold interpretKey
  simp only [Key.text, hk, hn]; rfl

theorem setItem_ok_inv {o : Orders} {w w' : World} {g g' : Graph} {r : Res} {key : Key} {value : SetVal}
    (h : setItem o w g r key value = (w', g', .ok ())) :
    ∃ sel v objs, interpretKey w r key = .ok sel ∧ (literalize o w g sel.lang sel.dt value).2 = .ok v ∧
      (removalList o (literalize o w g sel.lang sel.dt value).1 g r key sel v).2 = .ok objs ∧
      (removeObjs r.s (predTerm sel.pred) g objs).2 = .ok () := by
  have hso := setItem_outcome o w g r key value
  rw [h] at hso
  cases hso with
  | @ok sel v objs h1 h2 h3 h4 => exact ⟨sel, v, objs, h1, h2, h3, h4⟩

theorem getItem_nonscalar {o : Orders} {w : World} {g : Graph} {r : Res} {k : PStr} {p : Option PStr} (hk : resolveKey w r.c k = .ok p)
    (hn : isScalar w r.c p = false) :
    getItem o w g r (.name k) = (w, .ok (.iter (objectsOf o g r.s (predTerm p)))) := by
  have hof : objectsForKey o w g r (.name k) = (w, .ok (p, objectsOf o g r.s (predTerm p))) := by
    unfold objectsForKey
    rw [interpretKey_nonscalar hk hn]
    simp only [objectsForSel, and_self, if_true]
  unfold getItem
  rw [hof]
  simp only [hn]
  rfl

theorem predTerm_truthy {p : PStr} (hp : p ≠ []) : (predTerm (some p)).truthy = true := by
  cases p with | nil => exact absurd rfl hp | cons => rfl

/-- A non-scalar predicate: if `r[k] = values` succeeds, `r[k]` afterwards iterates over exactly the given values, each once; listing it
    gives one value for each, whose term is the given one (or TypeError, when two registered classes do not combine, see C53). -/
theorem C45_nonscalar {o o' : Orders} (ho : o.OK) (ho' : o'.OK) {w : World} (wr : w.Reach) {g : Graph} (hg : g.Reach) {r : Res}
    (hc : r.c < w.classes.length) (hs : r.s.truthy = true) {k p : PStr} (hk : resolveKey w r.c k = .ok (some p)) (hp : p ≠ [])
    (hn : isScalar w r.c (some p) = false) (value : SetVal) {w' : World} {g' : Graph}
    (hset : setItem o w g r (.name k) value = (w', g', .ok ())) :
    ∃ objs, getItem o' w' g' r (.name k) = (w', .ok (.iter objs)) ∧ objs.Nodup ∧
      (∀ x, x ∈ objs ↔ ∃ u ∈ values value, storedTerm none none u = some x) ∧
      ((collect o' g' r.c w' objs).2 = .error .typeError ∨
        ∃ vs, (collect o' g' r.c w' objs).2 = .ok vs ∧ vs.map Val.term = objs) := by
  have hp' := predTerm_truthy hp
  have hfr := setItem_frame ho wr hg hc (.name k) value
  have hik := interpretKey_nonscalar hk hn
  obtain ⟨sel, v, objs, h1, h2, h3, h4⟩ := setItem_ok_inv hset
  rw [hik] at h1; cases h1
  have hrl : removalList o (literalize o w g none none value).1 g r (.name k) ⟨some p, none, none, none⟩ v =
      ((literalize o w g none none value).1, .ok (objectsOf o g r.s (predTerm (some p)))) := by
    have hl := literalize_spec ho wr g none none value
    unfold removalList
    rw [if_neg (by simp [Key.isTuple])]
    unfold objectsForImplicitSet
    simp only [hl.2.1.isScalar hc, hn]
  have hset' := setItem_ok ho wr hg hs hik hp' h2 (by rw [hrl]) (nodup_objectsOf ho hg hs hp') (fun x hx => hx)
  rw [hset] at hset' hfr
  dsimp only at hset' hfr
  have hext := hfr.2.1
  have hc' := Nat.lt_of_lt_of_le hc hext.length
  refine ⟨_, getItem_nonscalar ((hext.resolve hc k).trans hk) ((hext.isScalar hc _).trans hn), nodup_objectsOf ho' hfr.2.2.1 hs hp',
    fun x => ?_, (collect_spec _ _ hfr.1 hc').2.2⟩
  rw [mem_objectsOf ho' hfr.2.2.1 hs hp', hset'.2.2 x]
  constructor
  · rintro (h | ⟨h5, h6⟩)
    · exact h
    · exact absurd ((mem_objectsOf ho hg hs hp' x).2 h5) h6
  · exact Or.inl

/-- Setting a non-scalar predicate fails only if a value cannot be stored (KeyError: not a term, a `str`, an `int` or a `datetime`) or
    if a node among the values cannot be classified (TypeError); the graph is then unchanged. -/
theorem C45_nonscalar_fails {o : Orders} (ho : o.OK) {w : World} (wr : w.Reach) {g : Graph} (hg : g.Reach) {r : Res}
    (hc : r.c < w.classes.length) (hs : r.s.truthy = true) {k p : PStr} (hk : resolveKey w r.c k = .ok (some p)) (hp : p ≠ [])
    (hn : isScalar w r.c (some p) = false) (value : SetVal) {w' : World} {g' : Graph} {e : Exc}
    (hset : setItem o w g r (.name k) value = (w', g', .error e)) :
    g' = g ∧ ((e = .typeError ∧ ∃ u ∈ values value, ∃ t, storedTerm none none u = some t ∧ IsResource t) ∨
      (e = .keyError ∧ ∃ u ∈ values value, storedTerm none none u = none)) := by
  have hp' := predTerm_truthy hp
  have hso := setItem_outcome o w g r (.name k) value
  have hik := interpretKey_nonscalar hk hn
  have hl := literalize_spec ho wr g none none value
  have hrl : ∀ v, removalList o (literalize o w g none none value).1 g r (.name k) ⟨some p, none, none, none⟩ v =
      ((literalize o w g none none value).1, .ok (objectsOf o g r.s (predTerm (some p)))) := by
    intro v
    unfold removalList
    rw [if_neg (by simp [Key.isTuple])]
    unfold objectsForImplicitSet
    simp only [hl.2.1.isScalar hc, hn]
  rw [hset] at hso
  cases hso with
  | key h => rw [hik] at h; cases h
  | value h1 h2 => rw [hik] at h1; cases h1; exact ⟨rfl, hl.2.2.2 e h2⟩
  | check h1 h2 h3 => rw [hik] at h1; cases h1; rw [hrl] at h3; cases h3
  | remove h1 h2 h3 h4 =>
    rw [hik] at h1; cases h1; rw [hrl] at h3; cases h3
    rw [(removeObjs_ok hg r.s _ _ (nodup_objectsOf ho hg hs hp') fun x hx => (mem_objectsOf ho hg hs hp' x).1 hx).1] at h4
    cases h4

/-- Reading a scalar that has a single object: the object is found unless it is a literal in a language that does not match the class's. -/
theorem langObjects_single {o : Orders} {g : Graph} {s p t : Term} (l : PStr) (hl : l ≠ []) (h : objectsOf o g s p = [t])
    (ht : IsResource t ∨ InLanguage l t ∨ HasDatatype t ∨ Untagged t) : langObjects o g s p (some l) true true = [t] := by
  rw [langObjects_scalar]
  have e1 : objectsByLang o g s p (some l) = if t.hasLang (some l) then [t] else [] := by
    unfold objectsByLang
    rw [if_neg (by simp [hl]), h, List.filter_singleton]; cases t.hasLang (some l) <;> rfl
  have e2 : nodesOf o g s p = if t.isNode then [t] else [] := by unfold nodesOf; rw [h, List.filter_singleton]; cases t.isNode <;> rfl
  have e3 : objectsByDatatype o g s p none = if t.hasDt none then [t] else [] := by
    unfold objectsByDatatype
    rw [if_neg (by simp), h, List.filter_singleton]; cases t.hasDt none <;> rfl
  have e4 : bareLiterals o g s p = if t.isBare then [t] else [] := by unfold bareLiterals; rw [h, List.filter_singleton]; cases t.isBare <;> rfl
  rw [e1, e2, e3, e4]
  rw [← isNode_iff, ← hasLang_some_iff, ← hasDt_none_iff, ← isBare_iff] at ht
  cases h1 : t.hasLang (some l) <;> cases h2 : t.isNode <;> cases h3 : t.hasDt none <;> cases h4 : t.isBare <;> simp_all

/-- Reading a scalar predicate with a single object. -/
theorem getItem_single {o : Orders} {w : World} {g : Graph} {r : Res} {k p : PStr} {t : Term} (hk : resolveKey w r.c k = .ok (some p))
    (hn : isScalar w r.c (some p) = true) (hl : w.lang r.c ≠ some []) (h : objectsOf o g r.s (.named p) = [t])
    (ht : ∀ l, w.lang r.c = some l → IsResource t ∨ InLanguage l t ∨ HasDatatype t ∨ Untagged t) :
    getItem o w g r (.name k) = ((classify o w g r.c t).1, (classify o w g r.c t).2.map .one) := by
  have hof : objectsForKey o w g r (.name k) = (w, .ok (some p, [t])) := by
    unfold objectsForKey
    rw [interpretKey_scalar hk hn]
    simp only [objectsForSel, predTerm, h]
    cases hlang : w.lang r.c with
    | none => simp
    | some l =>
      have hl' : l ≠ [] := by rintro rfl; exact hl hlang
      have htr : truthyStr (some l) = true := by cases l with | nil => exact absurd rfl hl' | cons => rfl
      simp only [reduceCtorEq, false_and, if_false, htr, if_true, hn, Key.isTuple, Bool.not_false,
        langObjects_single l hl' h (ht l hlang)]
  unfold getItem
  rw [hof]
  simp only [hn, Key.isAll, Bool.not_true, Bool.or_false, Bool.false_eq_true, if_false, classifyOne, oneOrNone, optTerm]
  cases classify o w g r.c t with
  | mk w1 v => cases v <;> rfl

theorem objectsOf_single {o : Orders} (ho : o.OK) {g : Graph} (hg : g.Reach) {s p t : Term} (hs : s.truthy = true) (hp : p.truthy = true)
    (h : ∀ x, mkTriple s p x ∈ g.triples ↔ x = t) : objectsOf o g s p = [t] := by
  have nd := nodup_objectsOf ho hg hs hp
  have : (objectsOf o g s p).Perm [t] := (List.perm_ext_iff_of_nodup nd (List.nodup_singleton t)).2 fun x => by
    rw [mem_objectsOf ho hg hs hp, h, List.mem_singleton]
  exact List.perm_singleton.1 this

/-- A scalar predicate: after `r[k] = v`, with `v` a resource or a literal without a language, `r[k]` is that value (or TypeError when
    the node cannot be classified). The class's `lang` must not be the empty string. -/
theorem C45_scalar {o o' : Orders} (ho : o.OK) (ho' : o'.OK) {w : World} (wr : w.Reach) {g : Graph} (hg : g.Reach) {r : Res}
    (hc : r.c < w.classes.length) (hs : r.s.truthy = true) {k p : PStr} (hk : resolveKey w r.c k = .ok (some p)) (hp : p ≠ [])
    (hn : isScalar w r.c (some p) = true) (hlang : w.lang r.c ≠ some []) (u : PyVal) (t : Term)
    (ht : storedTerm (w.lang r.c) none u = some t) (hk' : IsResource t ∨ ∃ v d, t = .lit v none d) :
    (∀ e, (setItem o w g r (.name k) (.one u)).2.2 = .error e → e = .typeError ∧ IsResource t ∧
      (setItem o w g r (.name k) (.one u)).2.1 = g) ∧
    ∀ w' g', setItem o w g r (.name k) (.one u) = (w', g', .ok ()) →
      (getItem o' w' g' r (.name k)).2 = .error .typeError ∧ IsResource t ∨
      ∃ v, (getItem o' w' g' r (.name k)).2 = .ok (.one v) ∧ v.term = t := by
  have hp' := predTerm_truthy hp
  have hik := interpretKey_scalar hk hn
  have hl := literalize_spec ho wr g (w.lang r.c) none (.one u)
  have hrl : ∀ v, (literalize o w g (w.lang r.c) none (.one u)).2 = .ok v →
      removalList o (literalize o w g (w.lang r.c) none (.one u)).1 g r (.name k) ⟨some p, w.lang r.c, none, none⟩ v =
      ((literalize o w g (w.lang r.c) none (.one u)).1, .ok (objectsOf o g r.s (predTerm (some p)))) := by
    intro v hv
    have h := hl.2.2.1 v hv
    obtain ⟨y, rfl⟩ := h.2.2.1 ⟨u, rfl⟩
    have hy : y.term = t := by
      have := (h.2.1 y.term).1 (by simp [LVal.vals])
      obtain ⟨u', hu', hx⟩ := this
      rw [List.mem_singleton.1 hu', ht] at hx; cases hx; rfl
    unfold removalList
    rw [if_neg (by simp [Key.isTuple])]
    unfold objectsForImplicitSet
    simp only [hl.2.1.isScalar hc, hn]
    split
    · next heq => cases heq
    · next v l ls d _ heq =>
      simp only [LVal.one.injEq] at heq
      subst heq
      simp only [Val.term] at hy
      subst hy
      rcases hk' with (⟨i, h⟩ | ⟨i, h⟩) | ⟨v, d, h⟩ <;> cases h
    · rfl
  constructor
  · intro e he
    have hso := setItem_outcome o w g r (.name k) (.one u)
    generalize setItem o w g r (.name k) (.one u) = q at hso he
    cases hso with
    | key h => rw [hik] at h; cases h
    | value h1 h2 =>
      rw [hik] at h1; cases h1
      simp only [Except.error.injEq] at he; subst he
      rcases hl.2.2.2 _ h2 with ⟨h, u', hu', t', h3, h4⟩ | ⟨h, u', hu', h3⟩
      · rw [List.mem_singleton.1 hu', ht] at h3; cases h3
        exact ⟨h, h4, rfl⟩
      · rw [List.mem_singleton.1 hu', ht] at h3; cases h3
    | check h1 h2 h3 => rw [hik] at h1; cases h1; rw [hrl _ h2] at h3; cases h3
    | remove h1 h2 h3 h4 =>
      rw [hik] at h1; cases h1; rw [hrl _ h2] at h3; cases h3
      rw [(removeObjs_ok hg r.s _ _ (nodup_objectsOf ho hg hs hp') fun x hx => (mem_objectsOf ho hg hs hp' x).1 hx).1] at h4
      cases h4
    | ok => cases he
  · intro w' g' hset
    have hfr := setItem_frame ho wr hg hc (.name k) (.one u)
    obtain ⟨sel, v, objs, h1, h2, h3, h4⟩ := setItem_ok_inv hset
    rw [hik] at h1; cases h1
    have hset' := setItem_ok ho wr hg hs hik hp' h2 (by rw [hrl v h2]) (nodup_objectsOf ho hg hs hp') (fun x hx => hx)
    rw [hset] at hset' hfr
    dsimp only at hset' hfr
    have hext := hfr.2.1
    have hobj : objectsOf o' g' r.s (.named p) = [t] := objectsOf_single ho' hfr.2.2.1 hs hp' fun x => by
      refine (hset'.2.2 x).trans ?_
      simp only [values, List.mem_singleton, exists_eq_left, ht, Option.some.injEq]
      constructor
      · rintro (h | ⟨h5, h6⟩)
        · exact h.symm
        · exact absurd ((mem_objectsOf ho hg hs hp' x).2 h5) h6
      · intro h; exact Or.inl h.symm
    rw [getItem_single ((hext.resolve hc k).trans hk) ((hext.isScalar hc _).trans hn) (by rw [hext.lang wr.wf hc]; exact hlang) hobj
      (fun l _ => by
        rcases hk' with h | ⟨v, d, rfl⟩
        · exact Or.inl h
        · cases d with
          | none => exact Or.inr (Or.inr (Or.inr ⟨v, rfl⟩))
          | some d => exact Or.inr (Or.inr (Or.inl ⟨v, none, d, rfl⟩)))]
    have hcs := classify_spec (o := o') hfr.1 g' (Nat.lt_of_lt_of_le hc hext.length) t
    rcases hcs.2.2 with h | ⟨v, h, h2, _⟩
    · left
      refine ⟨by rw [h]; rfl, ?_⟩
      rcases hk' with h' | ⟨v, d, rfl⟩
      · exact h'
      · rw [classify_lit] at h; cases h
    · right
      exact ⟨v, by rw [h]; rfl, h2⟩

/-! ### C47: language versions of a scalar -/

/-- The values that are stored as a literal with language `l`. -/
def TaggedValue (lang : Option PStr) (u : PyVal) (v l : PStr) (d : Option PStr) : Prop :=
  u = .lit v (some l) d ∨ (u = .str v ∧ lang = some l ∧ d = none)

theorem literalize_tagged {o : Orders} {w : World} {g : Graph} {lang : Option PStr} {u : PyVal} {v l : PStr} {d : Option PStr}
    (h : TaggedValue lang u v l d) : literalize o w g lang none (.one u) = (w, .ok (.one (.lit v (some l) d))) := by
  rcases h with rfl | ⟨rfl, rfl, rfl⟩ <;> rfl

theorem storedTerm_tagged {lang : Option PStr} {u : PyVal} {v l : PStr} {d : Option PStr}
    (h : TaggedValue lang u v l d) : storedTerm lang none u = some (.lit v (some l) d) := by
  rcases h with rfl | ⟨rfl, rfl, rfl⟩ <;> rfl

/-- What an assignment of a tagged literal to a scalar removes. -/
def taggedRemoval (o : Orders) (g : Graph) (s p : Term) (l : PStr) : List Term :=
  objectsByLang o g s p (some l) ++ objectsByDatatype o g s p none ++ nodesOf o g s p ++ bareLiterals o g s p

theorem removalList_tagged {o : Orders} {w : World} {g : Graph} {r : Res} {k : PStr} {sel : Sel} {v l : PStr} {d : Option PStr}
    (hn : isScalar w r.c sel.pred = true) (hl : l ≠ []) :
    removalList o w g r (.name k) sel (.one (.lit v (some l) d)) = (w, .ok (taggedRemoval o g r.s (predTerm sel.pred) l)) := by
  unfold removalList
  rw [if_neg (by simp [Key.isTuple])]
  cases l with
  | nil => exact absurd rfl hl
  | cons => simp only [objectsForImplicitSet, hn]; rfl

theorem mem_taggedRemoval {o : Orders} {g : Graph} {s p x : Term} {l : PStr} (hl : l ≠ []) :
    x ∈ taggedRemoval o g s p l ↔
      x ∈ objectsOf o g s p ∧ (InLanguage l x ∨ HasDatatype x ∨ IsResource x ∨ Untagged x) := by
  unfold taggedRemoval
  simp only [List.mem_append, mem_byLang hl, mem_byDt_none, mem_nodesOf, mem_bareLiterals]
  tauto

theorem kinds_disjoint {x : Term} (hx : WellFormed x) :
    (HasLanguage x → ¬ HasDatatype x) ∧ (IsResource x → ¬ HasLanguage x ∧ ¬ HasDatatype x ∧ ¬ Untagged x) ∧
    (Untagged x → ¬ HasLanguage x ∧ ¬ HasDatatype x) := by
  refine ⟨?_, ?_, ?_⟩
  · rintro ⟨v, l, d, rfl⟩ ⟨v', l', d', h⟩
    cases h
    rcases hx with (⟨_, h⟩ | ⟨_, h⟩) | ⟨v, l, d, h, h' | h'⟩ <;> cases h
    · cases h'
    · cases h'
  · rintro (⟨i, rfl⟩ | ⟨i, rfl⟩)
    · exact ⟨(by rintro ⟨_, _, _, h⟩; cases h), (by rintro ⟨_, _, _, h⟩; cases h), (by rintro ⟨_, h⟩; cases h)⟩
    · exact ⟨(by rintro ⟨_, _, _, h⟩; cases h), (by rintro ⟨_, _, _, h⟩; cases h), (by rintro ⟨_, h⟩; cases h)⟩
  · rintro ⟨v, rfl⟩
    exact ⟨(by rintro ⟨_, _, _, h⟩; cases h), (by rintro ⟨_, _, _, h⟩; cases h)⟩

theorem hasLanguage_of {l : PStr} {x : Term} (h : InLanguage l x) : HasLanguage x := by
  obtain ⟨v, l', d, rfl, _⟩ := h; exact ⟨v, l', d, rfl⟩

theorem nodup_taggedRemoval {o : Orders} {g : Graph} {s p : Term} {l : PStr} (hl : l ≠ [])
    (nd : (objectsOf o g s p).Nodup) (hw : ∀ x ∈ objectsOf o g s p, WellFormed x) : (taggedRemoval o g s p l).Nodup := by
  have h1 := (sub_byLang o g s p (some l)).nodup nd
  have h2 := (sub_byDt o g s p none).nodup nd
  have h3 := (sub_nodesOf o g s p).nodup nd
  have h4 := (sub_bareLiterals o g s p).nodup nd
  unfold taggedRemoval
  refine List.Nodup.append (List.Nodup.append (List.Nodup.append h1 h2 ?_) h3 ?_) h4 ?_
  · intro x ha hb
    rw [mem_byLang hl] at ha; rw [mem_byDt_none] at hb
    exact (kinds_disjoint (hw x ha.1)).1 (hasLanguage_of ha.2) hb.2
  · intro x ha hb
    rw [mem_nodesOf] at hb
    have := (kinds_disjoint (hw x hb.1)).2.1 hb.2
    rcases List.mem_append.1 ha with h | h
    · rw [mem_byLang hl] at h; exact this.1 (hasLanguage_of h.2)
    · rw [mem_byDt_none] at h; exact this.2.1 h.2
  · intro x ha hb
    rw [mem_bareLiterals] at hb
    have := (kinds_disjoint (hw x hb.1)).2.2 hb.2
    rcases List.mem_append.1 ha with h | h
    · rcases List.mem_append.1 h with h | h
      · rw [mem_byLang hl] at h; exact this.1 (hasLanguage_of h.2)
      · rw [mem_byDt_none] at h; exact this.2 h.2
    · rw [mem_nodesOf] at h
      exact ((kinds_disjoint (hw x hb.1)).2.1 h.2).2.2 hb.2

/-- `r[k] = literal` with language `l`, for a scalar predicate whose objects are well formed: the call succeeds; afterwards the objects
    are the new literal and the old literals in languages that do not match `l`. -/
theorem C47_languages_coexist {o : Orders} (ho : o.OK) {w : World} (wr : w.Reach) {g : Graph} (hg : g.Reach) {r : Res}
    (hs : r.s.truthy = true) {k p : PStr} (hk : resolveKey w r.c k = .ok (some p)) (hp : p ≠ [])
    (hn : isScalar w r.c (some p) = true) {u : PyVal} {v l : PStr} {d : Option PStr} (hu : TaggedValue (w.lang r.c) u v l d) (hl : l ≠ [])
    (hwf : ∀ x, mkTriple r.s (.named p) x ∈ g.triples → WellFormed x) :
    (setItem o w g r (.name k) (.one u)).2.2 = .ok () ∧
    ∀ x, mkTriple r.s (.named p) x ∈ (setItem o w g r (.name k) (.one u)).2.1.triples ↔
      x = .lit v (some l) d ∨ (mkTriple r.s (.named p) x ∈ g.triples ∧ HasLanguage x ∧ ¬ InLanguage l x) := by
  have hp' := predTerm_truthy hp
  have hik := interpretKey_scalar hk hn
  have hlit := literalize_tagged (o := o) (w := w) (g := g) hu
  have hrl := removalList_tagged (o := o) (w := w) (g := g) (r := r) (k := k) (sel := ⟨some p, w.lang r.c, none, none⟩) (v := v) (d := d)
    hn hl
  have hset := setItem_ok ho wr hg hs hik hp' (v := .one (.lit v (some l) d)) (by rw [hlit]) (objs := taggedRemoval o g r.s (.named p) l)
    (by rw [hlit]; dsimp only; rw [hrl]; rfl)
    (nodup_taggedRemoval hl (nodup_objectsOf ho hg hs hp') fun x hx => hwf x ((mem_objectsOf ho hg hs hp' x).1 hx))
    (fun x hx => ((mem_taggedRemoval hl).1 hx).1)
  refine ⟨hset.1, fun x => (hset.2.2 x).trans ?_⟩
  simp only [values, List.mem_singleton, exists_eq_left, storedTerm_tagged hu, Option.some.injEq, mem_taggedRemoval hl,
    mem_objectsOf ho hg hs (p := .named p) hp']
  constructor
  · rintro (h | ⟨h1, h2⟩)
    · exact Or.inl h.symm
    · refine Or.inr ⟨h1, ?_, fun h => h2 ⟨h1, Or.inl h⟩⟩
      rcases hwf x h1 with h | ⟨v, l', d', rfl, _⟩
      · exact absurd ⟨h1, Or.inr (Or.inr (Or.inl h))⟩ h2
      · cases l' with
        | some l' => exact ⟨v, l', d', rfl⟩
        | none =>
          cases d' with
          | none => exact absurd ⟨h1, Or.inr (Or.inr (Or.inr ⟨v, rfl⟩))⟩ h2
          | some d' => exact absurd ⟨h1, Or.inr (Or.inl ⟨v, none, d', rfl⟩)⟩ h2
  · rintro (h | ⟨h1, h2, h3⟩)
    · exact Or.inl h.symm
    · refine Or.inr ⟨h1, fun h => ?_⟩
      have := kinds_disjoint (hwf x h1)
      rcases h.2 with h | h | h | h
      · exact h3 h
      · exact this.1 h2 h
      · exact (this.2.1 h).1 h2
      · exact (this.2.2 h).1 h2

/-- Reading such a scalar back: if the class's language is the language that was set, `r[k]` is the literal that was set. -/
theorem C47_read_back {o o' : Orders} (ho : o.OK) (ho' : o'.OK) {w : World} (wr : w.Reach) {g : Graph} (hg : g.Reach) {r : Res}
    (hc : r.c < w.classes.length) (hs : r.s.truthy = true) {k p : PStr} (hk : resolveKey w r.c k = .ok (some p)) (hp : p ≠ [])
    (hn : isScalar w r.c (some p) = true) {u : PyVal} {v l : PStr} {d : Option PStr} (hu : TaggedValue (w.lang r.c) u v l d) (hl : l ≠ [])
    (hlang : w.lang r.c = some l) (hself : langMatch (some l) (some l) = true)
    (hwf : ∀ x, mkTriple r.s (.named p) x ∈ g.triples → WellFormed x) :
    (getItem o' (setItem o w g r (.name k) (.one u)).1 (setItem o w g r (.name k) (.one u)).2.1 r (.name k)).2
      = .ok (.one (.lit v (some l) d)) := by
  have hp' : (Term.named p).truthy = true := predTerm_truthy hp
  have hset := C47_languages_coexist ho wr hg hs hk hp hn hu hl hwf
  have hfr := setItem_frame ho wr hg hc (.name k) (.one u)
  generalize setItem o w g r (.name k) (.one u) = q at hset hfr ⊢
  have hext := hfr.2.1
  have hby : objectsByLang o' q.2.1 r.s (.named p) (some l) = [.lit v (some l) d] := by
    have nd : (objectsByLang o' q.2.1 r.s (.named p) (some l)).Nodup := (sub_byLang ..).nodup (nodup_objectsOf ho' hfr.2.2.1 hs hp')
    refine List.perm_singleton.1 ((List.perm_ext_iff_of_nodup nd (List.nodup_singleton _)).2 fun x => ?_)
    rw [mem_byLang hl, mem_objectsOf ho' hfr.2.2.1 hs hp', hset.2 x, List.mem_singleton]
    constructor
    · rintro ⟨h | ⟨_, _, h⟩, h2⟩
      · exact h
      · exact absurd h2 h
    · rintro rfl
      exact ⟨Or.inl rfl, v, l, d, rfl, hself⟩
  have hik := interpretKey_scalar ((hext.resolve hc k).trans hk) ((hext.isScalar hc _).trans hn)
  rw [hext.lang wr.wf hc, hlang] at hik
  have htr : truthyStr (some l) = true := by cases l with | nil => exact absurd rfl hl | cons => rfl
  have hof : objectsForKey o' q.1 q.2.1 r (.name k) = (q.1, .ok (some p, [.lit v (some l) d])) := by
    unfold objectsForKey
    rw [hik]
    simp only [objectsForSel, predTerm, reduceCtorEq, false_and, if_false, htr, if_true, hext.isScalar hc, hn, Key.isTuple, Bool.not_false,
      langObjects_scalar, hby, ne_eq, not_false_eq_true, List.cons_ne_nil]
  unfold getItem
  rw [hof]
  simp only [hext.isScalar hc, hn, Key.isAll, Bool.not_true, Bool.or_false, Bool.false_eq_true, if_false, classifyOne, oneOrNone, optTerm,
    classify_lit]

/-- The hypothesis of well-formed objects is needed: an object literal that carries both a matching language and a datatype is listed
    twice for removal, and the second removal raises KeyError. -/
theorem C47_both_keyError {o : Orders} (ho : o.OK) {w : World} {g : Graph} (hg : g.Reach) {r : Res}
    (hs : r.s.truthy = true) {k p : PStr} (hk : resolveKey w r.c k = .ok (some p)) (hp : p ≠ [])
    (hn : isScalar w r.c (some p) = true) {u : PyVal} {v l : PStr} {d : Option PStr} (hu : TaggedValue (w.lang r.c) u v l d) (hl : l ≠ [])
    {x : Term} (hx : mkTriple r.s (.named p) x ∈ g.triples) (h1 : InLanguage l x) (h2 : HasDatatype x) :
    (setItem o w g r (.name k) (.one u)).2.2 = .error .keyError := by
  have hp' : (Term.named p).truthy = true := predTerm_truthy hp
  have hik := interpretKey_scalar hk hn
  have hlit := literalize_tagged (o := o) (w := w) (g := g) hu
  have hrl := removalList_tagged (o := o) (w := w) (g := g) (r := r) (k := k) (sel := ⟨some p, w.lang r.c, none, none⟩) (v := v) (d := d)
    hn hl
  have hmem := (mem_objectsOf ho hg hs hp' x).2 hx
  have hnd : ¬ (taggedRemoval o g r.s (.named p) l).Nodup := by
    intro h
    unfold taggedRemoval at h
    have h := (List.nodup_append.1 (List.nodup_append.1 (List.nodup_append.1 h).1).1).2.2
    exact h x ((mem_byLang hl).2 ⟨hmem, h1⟩) x (mem_byDt_none.2 ⟨hmem, h2⟩) rfl
  have herr := removeObjs_error hg r.s (.named p) (taggedRemoval o g r.s (.named p) l) fun h => hnd h.1
  have hso := setItem_outcome o w g r (.name k) (.one u)
  generalize setItem o w g r (.name k) (.one u) = q at hso
  cases hso with
  | key h => rw [hik] at h; cases h
  | value h1 h2 => rw [hik] at h1; cases h1; dsimp only at h2; rw [hlit] at h2; cases h2
  | check h1 h2 h3 =>
    rw [hik] at h1; cases h1; dsimp only at h2 h3; rw [hlit] at h2; cases h2; rw [hlit] at h3; dsimp only at h3; rw [hrl] at h3; cases h3
  | remove h1 h2 h3 h4 =>
    rw [hik] at h1; cases h1; dsimp only at h2 h3 h4; rw [hlit] at h2; cases h2; rw [hlit] at h3; dsimp only at h3; rw [hrl] at h3; cases h3
    rw [← h4]; exact herr
  | ok h1 h2 h3 h4 =>
    rw [hik] at h1; cases h1; dsimp only at h2 h3 h4; rw [hlit] at h2; cases h2; rw [hlit] at h3; dsimp only at h3; rw [hrl] at h3; cases h3
    exact absurd (h4.symm.trans herr) (by simp)

/-! ### Examples -/

/-- A resource with two literals and one IRI as comments, and a label in each of two languages. -/
def sample : Graph :=
  (((((Graph.new .none).add (mkTriple (.named (py! "http://x")) (.named (rdfsNs ++ py! "comment")) (.lit (py! "old") none none))).add
    (mkTriple (.named (py! "http://x")) (.named (rdfsNs ++ py! "label")) (.lit (py! "one") (some (py! "en")) none))).add
    (mkTriple (.named (py! "http://x")) (.named (rdfsNs ++ py! "label")) (.lit (py! "un") (some (py! "fr")) none))).add
    (mkTriple (.named (py! "http://y")) (.named (rdfsNs ++ py! "label")) (.lit (py! "why") none none)))

theorem sample_reach : sample.Reach := ((((Graph.Reach.new _).add _ _ _).add _ _ _).add _ _ _).add _ _ _

/-- C45, C46: assigning a set of values to a predicate that is not scalar, and reading it. -/
example :
    resolveKey World.new 0 (py! "rdfs:comment") = .ok (some (rdfsNs ++ py! "comment")) ∧
    isScalar World.new 0 (some (rdfsNs ++ py! "comment")) = false ∧
    (setItem {} World.new sample ⟨0, .named (py! "http://x")⟩ (.name (py! "rdfs:comment")) (.many [.str (py! "a"), .iri (py! "http://y"), .str (py! "a")])).2.2
      = .ok () ∧
    (getItem {} World.new (setItem {} World.new sample ⟨0, .named (py! "http://x")⟩ (.name (py! "rdfs:comment"))
      (.many [.str (py! "a"), .iri (py! "http://y"), .str (py! "a")])).2.1 ⟨0, .named (py! "http://x")⟩ (.name (py! "rdfs:comment"))).2 =
      .ok (.iter [.lit (py! "a") none none, .named (py! "http://y")]) := by decide

/-- C47: the scalar label in English is replaced, the French one is kept. -/
example :
    resolveKey World.new 0 (py! "rdfs:label") = .ok (some (rdfsNs ++ py! "label")) ∧
    isScalar World.new 0 (some (rdfsNs ++ py! "label")) = true ∧ World.new.lang 0 = some (py! "en") ∧
    objectsOf {} (setItem {} World.new sample ⟨0, .named (py! "http://x")⟩ (.name (py! "rdfs:label")) (.one (.str (py! "uno")))).2.1
      (.named (py! "http://x")) (.named (rdfsNs ++ py! "label")) =
      [.lit (py! "un") (some (py! "fr")) none, .lit (py! "uno") (some (py! "en")) none] ∧
    (getItem {} World.new (setItem {} World.new sample ⟨0, .named (py! "http://x")⟩ (.name (py! "rdfs:label"))
      (.one (.str (py! "uno")))).2.1 ⟨0, .named (py! "http://x")⟩ (.name (py! "rdfs:label"))).2 =
      .ok (.one (.lit (py! "uno") (some (py! "en")) none)) := by decide

/-- A class whose `lang` is the empty string. -/
def emptyLang : World :=
  { World.new with classes := World.new.classes ++ [⟨py! "E", resourceCls.prefixes, resourceCls.scalars, some (some []), none, [2, 0]⟩] }

theorem emptyLang_reach : emptyLang.Reach :=
  .define .new (name := py! "E") (bases := [0]) (own := { lang := some (some []) }) (c := 2) (by simp) (by simp; decide) (by decide)

/-- The condition of `C45_scalar` on the class's language is needed: with the empty string a resource that was assigned is not read
    back. -/
theorem C45_empty_lang :
    (setItem {} emptyLang sample ⟨2, .named (py! "http://x")⟩ (.name (py! "rdfs:label")) (.one (.iri (py! "http://y")))).2.2 = .ok () ∧
    (getItem {} emptyLang (setItem {} emptyLang sample ⟨2, .named (py! "http://x")⟩ (.name (py! "rdfs:label")) (.one (.iri (py! "http://y")))).2.1
      ⟨2, .named (py! "http://x")⟩ (.name (py! "rdfs:label"))).2 = .ok (.one .none) := by decide

end Verif
