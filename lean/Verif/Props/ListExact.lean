import Verif.Props.ResList
/-
C58 exactly: what a List shows of each element.
-/
namespace Verif
open Spec Graph

/-- What a scalar key of a class with this language shows of its only object: everything but a literal in another language, and that as None. -/
def Spec.shownAs : Option PStr → Term → Term
  | some l, .lit v (some l') none => if langMatch (some l) (some l') then .lit v (some l') none else .none
  | some _, .gen _ => .none
  | _, t => t

theorem shownAs_readable {lang : Option PStr} {e : Term} (h : Readable lang e) : shownAs lang e = e := by
  cases lang with
  | none => cases e <;> rfl
  | some l =>
    rcases h l rfl with (⟨i, rfl⟩ | ⟨i, rfl⟩) | ⟨v, l', d, rfl, hm⟩ | ⟨v, l', d, rfl⟩ | ⟨v, rfl⟩
    · rfl
    · rfl
    · cases d with
      | none => simp only [shownAs, hm, if_true]
      | some d => rfl
    · cases l' <;> rfl
    · rfl

theorem shownAs_unreadable {lang : Option PStr} {e : Term} (h : ¬ Readable lang e) : shownAs lang e = .none := by
  cases lang with
  | none => exact absurd (fun _ h => by cases h) h
  | some l =>
    cases e with
    | none => rfl
    | named i => exact absurd (fun _ _ => Or.inl (Or.inl ⟨_, rfl⟩)) h
    | bnode i => exact absurd (fun _ _ => Or.inl (Or.inr ⟨_, rfl⟩)) h
    | gen n => rfl
    | lit v l' d =>
      cases d with
      | some d => exact absurd (fun _ _ => Or.inr (Or.inr (Or.inl ⟨_, _, _, rfl⟩))) h
      | none =>
        cases l' with
        | none => exact absurd (fun _ _ => Or.inr (Or.inr (Or.inr ⟨_, rfl⟩))) h
        | some l' =>
          simp only [shownAs]
          rw [if_neg]
          intro hm
          exact h fun l2 e2 => by cases e2; exact Or.inr (Or.inl ⟨_, _, _, rfl, hm⟩)

theorem langObjects_unreadable {o : Orders} {g : Graph} {s p t : Term} (l : PStr) (hl : l ≠ []) (h : objectsOf o g s p = [t])
    (ht : ¬ (IsResource t ∨ InLanguage l t ∨ HasDatatype t ∨ Untagged t)) : langObjects o g s p (some l) true true = [] := by
  rw [langObjects_scalar]
  have e1 : objectsByLang o g s p (some l) = if t.hasLang (some l) then [t] else [] := by
    unfold objectsByLang
    rw [if_neg (by simp [hl]), h, List.filter_singleton]; cases t.hasLang (some l) <;> rfl
  have e2 : nodesOf o g s p = if t.isNode then [t] else [] := by unfold nodesOf; rw [h, List.filter_singleton]; cases t.isNode <;> rfl
  have e3 : objectsByDatatype o g s p none = if t.hasDt none then [t] else [] := by
    unfold objectsByDatatype
    rw [if_neg (by simp), h, List.filter_singleton]; cases t.hasDt none <;> rfl
  have e4 : bareLiterals o g s p = if t.isBare then [t] else [] := by unfold bareLiterals; rw [h, List.filter_singleton]; cases t.isBare <;> rfl
  rw [e1, e2, e3, e4]
  rw [← isNode_iff, ← hasLang_some_iff, ← hasDt_none_iff, ← isBare_iff] at ht
  cases h1 : t.hasLang (some l) <;> cases h2 : t.isNode <;> cases h3 : t.hasDt none <;> cases h4 : t.isBare <;> simp_all

theorem getOne_shown {o : Orders} (ho : o.OK) {w : World} {g : Graph} (hg : g.Reach) {r : Res} (hs : r.s.truthy = true)
    {k p : PStr} {t : Term} (hp : p ≠ []) (hk : resolveKey w r.c k = .ok (some p)) (hn : isScalar w r.c (some p) = true)
    (hl : w.lang r.c ≠ some []) (h : ∀ x, mkTriple r.s (.named p) x ∈ g.triples ↔ x = t) :
    getOne o w g r (.name k) = classify o w g r.c (shownAs (w.lang r.c) t) := by
  by_cases ht : Readable (w.lang r.c) t
  · rw [shownAs_readable ht]; exact getOne_single ho hg hs hp hk hn hl h ht
  · rw [shownAs_unreadable ht]
    have hob : objectsOf o g r.s (.named p) = [t] := objectsOf_single ho hg hs (predTerm_truthy hp) h
    have hof : objectsForKey o w g r (.name k) = (w, .ok (some p, [])) := by
      unfold objectsForKey
      rw [interpretKey_scalar hk hn]
      simp only [objectsForSel, predTerm]
      cases hlang : w.lang r.c with
      | none => rw [hlang] at ht; exact absurd (fun _ h => by cases h) ht
      | some l =>
        have hl' : l ≠ [] := by rintro rfl; exact hl hlang
        have htr : truthyStr (some l) = true := by cases l with | nil => exact absurd rfl hl' | cons => rfl
        have ht' : ¬ (IsResource t ∨ InLanguage l t ∨ HasDatatype t ∨ Untagged t) := fun h => ht fun l2 e2 => by rw [hlang] at e2; cases e2; exact h
        simp only [reduceCtorEq, false_and, if_false, htr, if_true, hn, Key.isTuple, Bool.not_false, langObjects_unreadable l hl' hob ht']
    unfold getOne getItem
    rw [hof]
    simp only [hn, Key.isAll, Bool.not_true, Bool.or_false, Bool.false_eq_true, if_false, classifyOne, oneOrNone, optTerm, classify]

/-- Iteration over any well-formed list: what the class shows of each element, in order, and then the end; or TypeError at a node that cannot be classified (see C53), after what it
    shows of the elements before it. -/
theorem C58_exact {o : Orders} (ho : o.OK) {w : World} (wr : w.Reach) {g : Graph} (hg : g.Reach) {c : Nat}
    (hc : c < w.classes.length) {iFirst iRest iNil : PStr} (hL : ListClass w c iFirst iRest iNil) {head : Term} {es : List Term}
    (h : IsRdfList g.triples (.named iFirst) (.named iRest) (.named iNil) head es) :
    ∀ k, (head ≠ .named iNil → k = c) →
    (∃ vs, (listTake o g c (es.length + 1) w (.test ⟨k, head⟩)).2 = (vs, some (.ok ())) ∧ vs.map Val.term = es.map (shownAs (w.lang c))) ∨
    (∃ vs, (listTake o g c (es.length + 1) w (.test ⟨k, head⟩)).2 = (vs, some (.error .typeError)) ∧ vs.map Val.term <+: es.map (shownAs (w.lang c)) ∧
      ∃ w1 x, w1.Reach ∧ w.Ext w1 ∧ (classify o w1 g c x).2 = .error .typeError) := by
  induction h generalizing w with
  | nil =>
    intro k _
    left
    refine ⟨[], ?_, rfl⟩
    unfold listTake listNext listTest
    simp only [hL.nil, predTerm, if_true]
  | @cons s s' e es hs hst hsn hf hre htail ih =>
    intro k hk
    obtain rfl := hk hsn
    have g1 := getOne_shown (o := o) ho hg (r := ⟨k, s⟩) hst hL.nfirst hL.first hL.sfirst hL.lang hf
    have c1 := classify_spec (o := o) wr g hc (shownAs (w.lang k) e)
    have hsr : IsResource s' := by
      cases htail with
      | nil => exact Or.inl ⟨_, rfl⟩
      | cons h => exact h
    have hsn' : s'.isNode = true := by rcases hsr with ⟨i, rfl⟩ | ⟨i, rfl⟩ <;> rfl
    rw [List.length_cons]
    cases hq1 : classify o w g k (shownAs (w.lang k) e) with
    | mk w1 rv =>
    rw [hq1] at c1
    cases rv with
    | error ex =>
      right
      dsimp only at c1
      rcases c1.2.2 with h | ⟨v, h, _⟩
      · simp only [Except.error.injEq] at h
        subst h
        refine ⟨[], ?_, by simp, w, shownAs (w.lang k) e, wr, .refl w, by rw [hq1]⟩
        unfold listTake listNext listTest
        simp only [hL.nil, predTerm, hsn, if_false, g1, hq1]
      · cases h
    | ok v =>
      dsimp only at c1
      obtain ⟨r1, x1, c1⟩ := c1
      have hv : v.term = shownAs (w.lang k) e := by
        rcases c1 with h | ⟨v', h, h2, _⟩
        · cases h
        · simp only [Except.ok.injEq] at h; subst h; exact h2
      have hc1 := Nat.lt_of_lt_of_le hc x1.length
      have hL1 := hL.ext wr.wf hc x1
      have hstep : ∀ n, listTake o g k (n + 1) w (.test ⟨k, s⟩) =
          ((listTake o g k n w1 (.yielded ⟨k, s⟩)).1, v :: (listTake o g k n w1 (.yielded ⟨k, s⟩)).2.1,
            (listTake o g k n w1 (.yielded ⟨k, s⟩)).2.2) := by
        intro n
        have : listNext o w g k (.test ⟨k, s⟩) = (w1, .yielded ⟨k, s⟩, .item v) := by
          unfold listNext listTest
          simp only [hL.nil, predTerm, hsn, if_false, g1, hq1]
        rw [listTake, this]
      rw [hstep]
      have g2 := getOne_single (o := o) ho hg (w := w1) (r := ⟨k, s⟩) hst hL1.nrest hL1.rest hL1.srest hL1.lang hre
        (fun l _ => Or.inl hsr)
      have c2 := classify_spec (o := o) r1 g hc1 s'
      cases hq2 : classify o w1 g k s' with
      | mk w2 rv2 =>
      rw [hq2] at c2
      dsimp only at c2
      cases rv2 with
      | error ex =>
        right
        rcases c2.2.2 with h | ⟨v, h, _⟩
        · simp only [Except.error.injEq] at h
          subst h
          have : listTake o g k (es.length + 1) w1 (.yielded ⟨k, s⟩) = (w2, [], some (.error .typeError)) := by
            unfold listTake listNext
            simp only [g2, hq2]
          rw [this]
          refine ⟨[v], rfl, by simp [hv], w1, s', r1, x1, by rw [hq2]⟩
        · cases h
      | ok v2 =>
        obtain ⟨r2, x2, c2⟩ := c2
        rcases c2 with h | ⟨v', h, _, h2⟩
        · cases h
        · simp only [Except.ok.injEq] at h
          subst h
          obtain ⟨k2, rfl, hk2⟩ := h2 hsn'
          have hL2 := hL1.ext r1.wf hc1 x2
          rw [listTake_yielded es.length (by rw [g2, hq2]) hL2.nil]
          have hlang : w2.lang k = w.lang k := by rw [x2.lang r1.wf hc1, x1.lang wr.wf hc]
          have hi := ih r2 (Nat.lt_of_lt_of_le hc1 x2.length) hL2
            (if s' = .named iNil then k2 else k) (fun h => if_neg h)
          rw [hlang] at hi
          have e1 : (if s' = .named iNil then (⟨k2, s'⟩ : Res) else ⟨k, s'⟩) = ⟨if s' = .named iNil then k2 else k, s'⟩ := by
            split <;> rfl
          rw [e1]
          rcases hi with ⟨vs, h1, h2⟩ | ⟨vs, h1, h2, w3, x, h3, h4, h5⟩
          · left; refine ⟨v :: vs, ?_, ?_⟩
            · rw [h1]
            · rw [List.map_cons, List.map_cons, hv, h2]
          · right; refine ⟨v :: vs, ?_, ?_, w3, x, h3, (x1.trans x2).trans h4, h5⟩
            · rw [h1]
            · rw [List.map_cons, List.map_cons, hv]; exact List.cons_prefix_cons.2 ⟨rfl, h2⟩

/-- So an element is lost, as None, exactly if it is a literal without datatype in a language that does not match the class's. -/
theorem C58_iff {o : Orders} (ho : o.OK) {w : World} (wr : w.Reach) {g : Graph} (hg : g.Reach) {c : Nat}
    (hc : c < w.classes.length) {iFirst iRest iNil : PStr} (hL : ListClass w c iFirst iRest iNil) {head : Term} {es : List Term}
    (h : IsRdfList g.triples (.named iFirst) (.named iRest) (.named iNil) head es) (hes : ∀ e ∈ es, IsResource e ∨ ∃ v l d, e = .lit v l d) {vs : List Val}
    (hv : (listTake o g c (es.length + 1) w (.test ⟨c, head⟩)).2 = (vs, some (.ok ()))) :
    vs.map Val.term = es ↔ ∀ l, w.lang c = some l → ∀ v l', Term.lit v (some l') none ∈ es → langMatch (some l) (some l') = true := by
  have hmap : vs.map Val.term = es.map (shownAs (w.lang c)) := by
    rcases C58_exact ho wr hg hc hL h c (fun _ => rfl) with ⟨vs', h1, h2⟩ | ⟨vs', h1, -⟩
    · rw [hv] at h1; cases h1; exact h2
    · rw [hv] at h1; cases h1
  rw [hmap]
  constructor
  · intro he l hl v l' hin
    have : ∀ e ∈ es, shownAs (w.lang c) e = e := by
      intro e hin
      have : es.map (shownAs (w.lang c)) = es.map id := by rw [List.map_id]; exact he
      exact List.map_inj_left.1 this e hin
    have h1 := this _ hin
    rw [hl] at h1
    simp only [shownAs] at h1
    split at h1
    · next hm => exact hm
    · cases h1
  · intro hall
    have : es.map (shownAs (w.lang c)) = es.map id := List.map_inj_left.2 fun e hin => by
      apply shownAs_readable
      intro l hl
      rcases hes e hin with h | ⟨v, l', d, rfl⟩
      · exact Or.inl h
      · cases d with
        | some d => exact Or.inr (Or.inr (Or.inl ⟨_, _, _, rfl⟩))
        | none =>
          cases l' with
          | none => exact Or.inr (Or.inr (Or.inr ⟨_, rfl⟩))
          | some l' => exact Or.inr (Or.inl ⟨_, _, _, rfl, hall l hl v l' hin⟩)
    rw [this, List.map_id]

/-- The French element of `C58_refuted`. -/
example : shownAs (some (py! "en")) (.lit (py! "un") (some (py! "fr")) none) = .none ∧ shownAs (some (py! "en")) (.lit (py! "one") (some (py! "en-GB")) none) = .lit (py! "one") (some (py! "en-GB")) none := by
  decide

end Verif
