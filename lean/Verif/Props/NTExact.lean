import Verif.Props.NTGrammar
/-
C107 and C108 exactly: of the documents of the recommendation the reader accepts the tidy ones and no others, and it never reads one of them as anything but what it means.
-/
namespace Verif
open Spec NTSpec

/-- The text after a statement, in the dialect. -/
def AfterS (D : Dialect) (r : PStr) : Prop := r = [] ∨ ∃ c t, r = c :: t ∧ (c = 0x20 ∨ c = 0x09 ∨ isEolChar c ∨ (D.comments ∧ c = 0x23))

/-- Terms, the dot that ends the statement, and the text after it. -/
inductive Terms (D : Dialect) : List RTerm → PStr → PStr → Prop
  | nil {s r} : Dot s r → AfterS D r → Terms D [] s r
  | cons {s o s1 os r} : Object D s o s1 → Terms D os s1 r → Terms D (o :: os) s r

/-- What is common to the recommendation and the library's reader: tokens that end at the same place for both. -/
def both : Dialect :=
  { w3c with
    comments := False
    noGraph := False
    bnodeGraph := False
    labelOk := fun l r => Longest (LabelTok code) l r ∧ ∃ os r', Terms code os r r'
    langOk := fun l => LangTok code l }

theorem object_head {D : Dialect} {s : PStr} {o : RTerm} {r : PStr} (h : Object D s o r) :
    ∃ c t, skipWs s = c :: t ∧ (c = 0x3C ∨ c = 0x5F ∨ c = 0x22) := by
  cases h with
  | node h =>
    cases h with
    | iri h => obtain ⟨hw, _⟩ := h; exact ⟨_, _, skipWs_stop hw (by decide) _, by simp⟩
    | @label w l r hw hl _ =>
      obtain ⟨c, t, rfl, _⟩ := hl.1
      exact ⟨_, _, by rw [List.cons_append]; exact skipWs_stop hw (by decide) _, by simp⟩
  | plain hw => exact ⟨_, _, skipWs_stop hw (by decide) _, by simp⟩
  | typed hw => exact ⟨_, _, skipWs_stop hw (by decide) _, by simp⟩
  | lang hw => exact ⟨_, _, skipWs_stop hw (by decide) _, by simp⟩

theorem terms_head {D : Dialect} {os : List RTerm} {s r : PStr} (h : Terms D os s r) :
    ∃ c t, skipWs s = c :: t ∧ ((c = 0x3C ∨ c = 0x5F ∨ c = 0x22) ∨ (c = 0x2E ∧ AfterS D t)) := by
  cases h with
  | nil hd ha => obtain ⟨hw⟩ := hd; exact ⟨_, _, skipWs_stop hw (by decide) _, .inr ⟨rfl, ha⟩⟩
  | cons ho _ =>
    obtain ⟨c, t, h1, h2⟩ := object_head ho
    exact ⟨c, t, h1, .inl h2⟩

theorem terms_head_cons {D : Dialect} {os : List RTerm} {x : Nat} {s r : PStr} (h : Terms D os (x :: s) r) (hx : isWs x = false) :
    (x = 0x3C ∨ x = 0x5F ∨ x = 0x22) ∨ (x = 0x2E ∧ AfterS D s) := by
  obtain ⟨c, t, h1, h2⟩ := terms_head h
  rw [show skipWs (x :: s) = x :: s from skipWs_stop (w := []) (by simp [Ws]) hx s] at h1
  cases h1
  exact h2

theorem label_stop {D : Dialect} {l r : PStr} (h : Longest (LabelTok D) l r) :
    ∃ k r', r = List.replicate k 0x2E ++ r' ∧ (r' = [] ∨ ∃ c t, r' = c :: t ∧ ¬ D.labelChar c ∧ c ≠ 0x2E) := by
  have main : ∀ r : PStr, ∃ k r', r = List.replicate k 0x2E ++ r' ∧ (r' = [] ∨ ∃ c t, r' = c :: t ∧ c ≠ 0x2E) := by
    intro r
    induction r with
    | nil => exact ⟨0, [], rfl, .inl rfl⟩
    | cons c r ih =>
      by_cases hc : c = 0x2E
      · obtain ⟨k, r', e, hr⟩ := ih
        exact ⟨k + 1, r', by rw [hc, e]; rfl, hr⟩
      · exact ⟨0, c :: r, rfl, .inr ⟨c, r, rfl, hc⟩⟩
  obtain ⟨k, r', rfl, hr⟩ := main r
  refine ⟨k, r', rfl, hr.imp_right ?_⟩
  rintro ⟨c, t, rfl, hc⟩
  refine ⟨c, t, rfl, fun hl => ?_, hc⟩
  obtain ⟨⟨f, u, rfl, h1, h2, h3⟩, hmax⟩ := h
  have := hmax (0x5F :: 0x3A :: f :: (u ++ (List.replicate k 0x2E ++ [c]))) ⟨t, by simp⟩ ⟨f, _, rfl, h1, ?_, ?_⟩
  · simp at this; omega
  · intro x hx
    rcases List.mem_append.1 hx with hx | hx
    · exact h2 x hx
    · rcases List.mem_append.1 hx with hx | hx
      · exact .inr (List.mem_replicate.1 hx).2
      · rw [List.mem_singleton.1 hx]; exact .inl hl
  · rw [← List.append_assoc, List.getLast?_concat]
    exact fun e => hc (Option.some.inj e)

/-- What can stand after a label of the reader if terms follow. -/
theorem label_next {L : PStr} {x : Nat} {R : PStr} (hl : Longest (LabelTok code) L (x :: R)) {os : List RTerm} {r : PStr} (h : Terms code os (x :: R) r)
    (hx : isWs x = false) : x = 0x22 ∨ (x = 0x2E ∧ AfterS code R) := by
  have no : ∀ x, code.labelChar x → x ≠ 0x2E → ¬ Longest (LabelTok code) L (x :: R) := by
    intro x hc hd hl
    obtain ⟨k, r', e, hr⟩ := label_stop hl
    cases k with
    | zero =>
      rw [List.replicate_zero, List.nil_append] at e
      rcases hr with rfl | ⟨c, t, rfl, h1, _⟩
      · cases e
      · cases e; exact h1 hc
    | succ k => cases e; exact hd rfl
  rcases terms_head_cons h hx with (rfl | rfl | rfl) | h
  · exact absurd hl (no _ (.inl (by decide)) (by decide))
  · exact absurd hl (no _ (.inl (by decide)) (by decide))
  · exact .inl rfl
  · exact .inr h

theorem w3c_labelChar {c : Nat} (h : w3c.labelChar c) : isWs c = false ∧ c ≠ 0x22 ∧ c ≠ 0x2E ∧ c ≠ 0x3C ∧ ¬ isEolChar c ∧ c ≠ 0x20 ∧ c ≠ 0x09 ∧ c ≠ 0x23 := by
  have h1 : isWs c = false ↔ ¬ (c = 0x20 ∨ c = 0x09) := by rw [← isWs_iff]; simp
  rw [h1]
  simp only [w3c, NTSpec.pnChars, NTSpec.pnCharsU, NTSpec.pnCharsBase, isAlpha, NTSpec.isDigitChar, isEolChar] at h ⊢
  omega

theorem w3c_labelFirst {c : Nat} (h : w3c.labelFirst c) : w3c.labelChar c := by
  rcases h with h | h
  · exact .inl h
  · exact .inr (.inr (.inl h))

theorem label_chars {l : PStr} (h : LabelTok w3c l) : ∀ c ∈ l, w3c.labelChar c ∨ c = 0x2E := by
  obtain ⟨c, t, rfl, h1, h2, _⟩ := h
  intro x hx
  simp only [List.mem_cons] at hx
  rcases hx with rfl | rfl | rfl | hx
  · exact .inl (.inl (.inr (.inl rfl)))
  · exact .inl (.inl (.inr (.inr rfl)))
  · exact .inl (w3c_labelFirst h1)
  · exact h2 x hx

theorem label_last {l : PStr} (h : LabelTok w3c l) : l.getLast? ≠ some 0x2E := by
  obtain ⟨c, t, rfl, h1, _, h3⟩ := h
  cases t with
  | nil =>
    intro e
    have : c = 0x2E := by simpa using e
    exact (w3c_labelChar (w3c_labelFirst h1)).2.2.1 this
  | cons x t => simpa using h3

/-- The reader's label cannot end inside a label of the recommendation. -/
theorem not_inside_label {L a b s : PStr} (hb : b ≠ []) (h : LabelTok w3c (a ++ b)) (hl : Longest (LabelTok code) L (b ++ s)) {os : List RTerm} {r : PStr}
    (ht : Terms code os (b ++ s) r) : False := by
  cases b with
  | nil => exact hb rfl
  | cons x b =>
    have hx := label_chars h x (by simp)
    have hws : isWs x = false := by
      rcases hx with hx | rfl
      · exact (w3c_labelChar hx).1
      · decide
    rcases label_next hl ht hws with e | ⟨e, ha⟩
    · rcases hx with hx | hx
      · exact (w3c_labelChar hx).2.1 e
      · rw [hx] at e; cases e
    · cases b with
      | nil => exact label_last h (by rw [List.getLast?_concat, e])
      | cons y b =>
        rcases ha with h' | ⟨c, t, h', hc⟩
        · cases h'
        · cases h'
          have hc : y = 0x20 ∨ y = 0x09 ∨ isEolChar y := by
            rcases hc with h | h | h | h
            · exact .inl h
            · exact .inr (.inl h)
            · exact .inr (.inr h)
            · exact h.1.elim
          rcases label_chars h y (by simp) with hy | rfl
          · have := w3c_labelChar hy
            rcases hc with h | h | h
            · exact this.2.2.2.2.2.1 h
            · exact this.2.2.2.2.2.2.1 h
            · exact this.2.2.2.2.1 h
          · revert hc; simp [isEolChar]

theorem iriBody_chars {b v : PStr} (h : IriBody w3c b v) : ∀ c ∈ b, 0x20 < c ∧ c ≠ 0x3C ∧ c ≠ 0x3E ∧ c ≠ 0x22 := by
  have hex : ∀ {n h v}, HexNumber n h v → ∀ c ∈ h, 0x20 < c ∧ c ≠ 0x3C ∧ c ≠ 0x3E ∧ c ≠ 0x22 := by
    intro n h v hh
    induction hh with
    | nil => simp
    | cons hd _ ih =>
      intro c hc
      rcases List.mem_cons.1 hc with rfl | hc
      · cases hd <;> omega
      · exact ih c hc
  induction h with
  | nil => simp
  | char h1 h2 _ ih =>
    intro c hc
    rcases List.mem_cons.1 hc with rfl | hc
    · refine ⟨h1, ?_, ?_, ?_⟩ <;> (rintro rfl; exact h2 (by decide))
    · exact ih c hc
  | uchar4 hh _ ih =>
    intro c hc
    simp only [List.mem_cons, List.mem_append] at hc
    rcases hc with rfl | rfl | hc | hc
    · decide
    · decide
    · exact hex hh c hc
    · exact ih c hc
  | uchar8 hh _ _ ih =>
    intro c hc
    simp only [List.mem_cons, List.mem_append] at hc
    rcases hc with rfl | rfl | hc | hc
    · decide
    · decide
    · exact hex hh c hc
    · exact ih c hc
  | gap h => exact h.elim

/-- Nor can it end inside an IRI. -/
theorem not_inside_iri {L b s : PStr} (hb : ∀ c ∈ b, 0x20 < c ∧ c ≠ 0x3C ∧ c ≠ 0x3E ∧ c ≠ 0x22) (hl : Longest (LabelTok code) L (b ++ 0x3E :: s)) {os : List RTerm} {r : PStr}
    (ht : Terms code os (b ++ 0x3E :: s) r) : False := by
  have big : ∀ c, 0x20 < c → isWs c = false := by
    intro c hc
    have h1 : isWs c = false ↔ ¬ (c = 0x20 ∨ c = 0x09) := by rw [← isWs_iff]; simp
    rw [h1]; omega
  cases b with
  | nil =>
    rcases label_next hl ht (by decide) with e | ⟨e, _⟩ <;> cases e
  | cons x b =>
    have hx := hb x (by simp)
    rcases label_next hl ht (big x hx.1) with e | ⟨e, ha⟩
    · exact hx.2.2.2 e
    · have : ∃ y t, b ++ 0x3E :: s = y :: t ∧ 0x20 < y := by
        cases b with
        | nil => exact ⟨_, _, rfl, by decide⟩
        | cons y b => exact ⟨y, _, rfl, (hb y (by simp)).1⟩
      obtain ⟨y, t, e2, hy⟩ := this
      rcases ha with h' | ⟨c, t', h', hc⟩
      · have e2 := h'.symm.trans e2; cases e2
      · have e2 := h'.symm.trans e2
        cases e2
        rcases hc with h | h | h | h
        · omega
        · omega
        · unfold isEolChar at h; omega
        · exact h.1.elim

/-- Whole terms that the reader takes for the end of a label: fewer terms remain. -/
theorem absorb {L u R : PStr} (hu : u ≠ []) (hc : ∀ x ∈ u, code.labelChar x ∨ x = 0x2E) (hlast : u.getLast? ≠ some 0x2E)
    (hl : Longest (LabelTok code) L R) {os' : List RTerm} {r' : PStr} (ht : Terms code os' R r') {r : PStr} :
    ∀ {os : List RTerm}, Terms w3c os (u ++ R) r → ∃ os2, os2.length < os.length ∧ Terms w3c os2 R r := by
  have hnws : ∀ x ∈ u, ¬ (x = 0x20 ∨ x = 0x09 ∨ isEolChar x ∨ x = 0x23 ∨ x = 0x22) := by
    intro x hx hw
    rcases hc x hx with h | h
    · revert h hw
      simp only [code, NTSpec.pnChars, NTSpec.pnCharsU, NTSpec.pnCharsBase, isAlpha, NTSpec.isDigitChar, isEolChar]
      omega
    · revert hw; rw [h]; simp [isEolChar]
  intro os h
  induction os generalizing u with
  | nil =>
    exfalso
    cases u with
    | nil => exact hu rfl
    | cons x u =>
      cases h with
      | nil hd ha =>
        generalize hs : x :: u ++ R = s at hd
        obtain ⟨hw⟩ := hd
        next w =>
        cases w with
        | cons y w =>
          have e : x = y := (List.cons.inj hs).1
          subst e
          exact hnws x (by simp) ((hw x (by simp)).imp_right .inl)
        | nil =>
          obtain ⟨rfl, rfl⟩ := List.cons.inj hs
          cases u with
          | nil => exact hlast rfl
          | cons y u =>
            rcases ha with h' | ⟨c, t, h', hy⟩
            · cases h'
            · cases h'
              apply hnws y (by simp)
              rcases hy with h | h | h | h
              · exact .inl h
              · exact .inr (.inl h)
              · exact .inr (.inr (.inl h))
              · exact .inr (.inr (.inr (.inl h.2)))
  | cons o os ih =>
    cases u with
    | nil => exact absurd rfl hu
    | cons x u =>
    have more : ∀ (v : PStr), Terms w3c os (v ++ R) r → (∀ y ∈ v, y ∈ x :: u) → (v ≠ [] → v.getLast? = (x :: u).getLast?) →
        ∃ os2, os2.length < (o :: os).length ∧ Terms w3c os2 R r := by
      intro v h1 h2 h3
      by_cases hv : v = []
      · subst hv; exact ⟨os, by simp, h1⟩
      · obtain ⟨os2, h4, h5⟩ := ih hv (fun y hy => hc y (h2 y hy)) (by rw [h3 hv]; exact hlast) (fun y hy => hnws y (h2 y hy)) h1
        exact ⟨os2, by rw [List.length_cons]; omega, h5⟩
    cases h with
    | cons ho htl =>
      generalize hs : x :: u ++ R = s at ho
      have hw0 : ∀ {w t : PStr} {c : Nat}, Ws w → x :: u ++ R = w ++ c :: t → w = [] := by
        intro w t c hw e
        cases w with
        | nil => rfl
        | cons y w =>
          have e : x = y := (List.cons.inj e).1
          subst e
          exact absurd ((hw x (by simp)).imp_right .inl) (hnws x (by simp))
      cases ho with
      | node hn =>
        cases hn with
        | iri hi =>
          obtain ⟨hw, hb⟩ := hi
          next w b _ =>
          obtain rfl := hw0 hw hs
          rw [List.nil_append, List.cons_append, List.cons.injEq] at hs
          obtain ⟨rfl, hs⟩ := hs
          have hch := iriBody_chars hb
          rcases List.append_eq_append_iff.1 hs with ⟨b2, h1, h2⟩ | ⟨u2, h1, h2⟩
          · rw [h2] at hl ht
            exact (not_inside_iri (fun c hc => hch c (by rw [h1]; simp [hc])) hl ht).elim
          · cases u2 with
            | nil =>
              rw [List.nil_append] at h2
              rw [← h2] at hl ht
              exact (not_inside_iri (b := []) (by simp) hl ht).elim
            | cons y u2 =>
              rw [List.cons_append, List.cons.injEq] at h2
              obtain ⟨rfl, rfl⟩ := h2
              refine more u2 htl (fun y hy => by rw [h1]; simp [hy]) fun hv => ?_
              rw [h1]
              obtain ⟨z, hz⟩ : ∃ z, u2.getLast? = some z := by
                cases h : u2.getLast? with
                | none => exact absurd (List.getLast?_eq_none_iff.1 h) hv
                | some z => exact ⟨z, rfl⟩
              rw [hz, List.append_cons, ← List.cons_append, List.getLast?_append, hz]
              rfl
        | @label w l s1 hw hl2 _ =>
          obtain rfl : w = [] := by
            obtain ⟨c, t, rfl, _⟩ := hl2.1
            exact hw0 hw hs
          rw [List.nil_append] at hs
          rcases List.append_eq_append_iff.1 hs with ⟨b2, h1, h2⟩ | ⟨u2, h1, h2⟩
          · by_cases hb2 : b2 = []
            · subst hb2
              rw [List.nil_append] at h2
              subst h2
              exact ⟨os, by simp, htl⟩
            · rw [h2] at hl ht
              have h3 := hl2.1
              rw [h1] at h3
              exact (not_inside_label hb2 h3 hl ht).elim
          · subst h2
            refine more u2 htl (fun y hy => by rw [h1]; simp [hy]) fun hv => ?_
            rw [h1]
            obtain ⟨z, hz⟩ : ∃ z, u2.getLast? = some z := by
              cases h : u2.getLast? with
              | none => exact absurd (List.getLast?_eq_none_iff.1 h) hv
              | some z => exact ⟨z, rfl⟩
            rw [hz, List.getLast?_append, hz]
            rfl
      | plain hw _ _ =>
        obtain rfl := hw0 hw hs
        exact absurd (List.cons.inj hs).1 fun e => hnws x (by simp) (by simp [e])
      | typed hw _ _ _ _ =>
        obtain rfl := hw0 hw hs
        exact absurd (List.cons.inj hs).1 fun e => hnws x (by simp) (by simp [e])
      | lang hw _ _ _ _ _ =>
        obtain rfl := hw0 hw hs
        exact absurd (List.cons.inj hs).1 fun e => hnws x (by simp) (by simp [e])

/-! ### One term -/

theorem iriBody_of_w3c {D : Dialect} {b v : PStr} (h : IriBody w3c b v) : IriBody D b v := by
  induction h with
  | nil => exact .nil
  | char h1 h2 _ ih => exact .char h1 h2 ih
  | uchar4 h _ ih => exact .uchar4 h ih
  | uchar8 h hc _ ih => exact .uchar8 h hc ih
  | gap h => exact h.elim

theorem iri_of_w3c {D : Dialect} {s v r : PStr} (h : Iri w3c s v r) : Iri D s v r := by
  obtain ⟨hw, hb⟩ := h
  exact .mk hw (iriBody_of_w3c hb)

theorem iri_unique {s v r v' r' : PStr} (h : Iri w3c s v r) (h' : Iri code s v' r') : v' = v ∧ r' = r := by
  have h1 := pIriRef_iff.2 (iri_of_w3c h)
  have h2 := pIriRef_iff.2 h'
  rw [h1] at h2
  cases h2
  exact ⟨rfl, rfl⟩

theorem string_unique {w b v u w2 b2 v2 u2 : PStr} (hw : Ws w) (hb : NTBody b) (hd : Denotes b v) (hw2 : Ws w2) (hb2 : NTBody b2) (hd2 : Denotes b2 v2)
    (e : w ++ 0x22 :: (b ++ 0x22 :: u) = w2 ++ 0x22 :: (b2 ++ 0x22 :: u2)) : v2 = v ∧ u2 = u := by
  have h := congrArg skipWs e
  rw [skipWs_stop hw (by decide), skipWs_stop hw2 (by decide), List.cons.injEq] at h
  have h1 := strAux_body hb u
  rw [h.2, strAux_body hb2] at h1
  cases h1
  have h2 := C88_denotes hd
  rw [C88_denotes hd2] at h2
  cases h2
  exact ⟨rfl, rfl⟩

theorem langTok_head {D : Dialect} {l : PStr} (h : LangTok D l) : ∃ c t, l = c :: t ∧ isAlpha c := by
  obtain ⟨p, s, rfl, hne, hp, _⟩ := h
  cases p with
  | nil => exact absurd rfl hne
  | cons c p => exact ⟨c, _, rfl, hp c (by simp)⟩

theorem w3c_lang_chars {w : PStr} (h : LangTok w3c w) : ∀ c ∈ w, isAlpha c ∨ NTSpec.isDigitChar c ∨ c = 0x2D := by
  have parts : ∀ {s}, LangParts w3c s → ∀ c ∈ s, isAlpha c ∨ NTSpec.isDigitChar c ∨ c = 0x2D := by
    intro s hs
    induction hs with
    | nil => simp
    | part _ hp _ ih =>
      intro c hc
      simp only [List.mem_cons, List.mem_append] at hc
      rcases hc with rfl | hc | hc
      · exact .inr (.inr rfl)
      · exact (hp c hc).imp_right .inl
      · exact ih c hc
  obtain ⟨p, s, rfl, _, hp, hs⟩ := h
  intro c hc
  rcases List.mem_append.1 hc with hc | hc
  · exact .inl (hp c hc)
  · exact parts hs c hc

/-- A language tag of the recommendation and one of the reader at the same place, each with terms after it, are the same. -/
theorem lang_align {l s1 l' s1' : PStr} (h : LangTok w3c l) (h' : LangTok code l') (e : l ++ s1 = l' ++ s1') {os os' : List RTerm} {r r' : PStr}
    (ht : Terms w3c os s1 r) (ht' : Terms code os' s1' r') : l' = l ∧ s1' = s1 := by
  rcases List.append_eq_append_iff.1 e with ⟨v, h1, h2⟩ | ⟨v, h1, h2⟩
  · cases v with
    | nil => rw [List.append_nil] at h1; rw [List.nil_append] at h2; exact ⟨h1, h2.symm⟩
    | cons x v =>
      exfalso
      have hx := langTok_chars h' x (by rw [h1]; simp)
      have hws : isWs x = false := by
        have h1 : isWs x = false ↔ ¬ (x = 0x20 ∨ x = 0x09) := by rw [← isWs_iff]; simp
        rw [h1]; unfold isAlpha at hx; omega
      rw [h2, List.cons_append] at ht
      have hh := terms_head_cons ht hws
      have hx5 : x = 0x5F := by
        unfold isAlpha at hx
        have : ¬ (x = 0x2E) := by omega
        rcases hh with hh | hh
        · omega
        · exact absurd hh.1 this
      subst hx5
      cases ht with
      | nil hd _ =>
        generalize hs : 95 :: (v ++ s1') = s at hd
        obtain ⟨hw⟩ := hd
        next w =>
        cases w with
        | nil => cases (List.cons.inj hs).1
        | cons y w => have e : 95 = y := (List.cons.inj hs).1
                      subst e
                      have := hw 95 (by simp); omega
      | cons ho _ =>
        have two : ∃ t, 95 :: (v ++ s1') = 95 :: 58 :: t := by
          generalize hs : 95 :: (v ++ s1') = s at ho
          have nows : ∀ {w t : PStr} {c : Nat}, Ws w → c ≠ 95 → 95 :: (v ++ s1') = w ++ c :: t → False := by
            intro w t c hw hc e
            cases w with
            | nil => exact hc (List.cons.inj e).1.symm
            | cons y w => have e : 95 = y := (List.cons.inj e).1
                          subst e
                          have := hw 95 (by simp); omega
          cases ho with
          | node hn =>
            cases hn with
            | iri hi => obtain ⟨hw, _⟩ := hi; exact (nows hw (by decide) hs).elim
            | @label w l r hw hl _ =>
              obtain ⟨c, t, rfl, _⟩ := hl.1
              cases w with
              | nil => exact ⟨_, rfl⟩
              | cons y w => have e : 95 = y := (List.cons.inj hs).1
                            subst e
                            have := hw 95 (by simp); omega
          | plain hw _ _ => exact (nows hw (by decide) hs).elim
          | typed hw _ _ _ _ => exact (nows hw (by decide) hs).elim
          | lang hw _ _ _ _ _ => exact (nows hw (by decide) hs).elim
        obtain ⟨t, ht2⟩ := two
        have ht2 := (List.cons.inj ht2).2
        cases v with
        | nil =>
          rw [List.nil_append] at ht2
          rw [ht2] at ht'
          have := terms_head_cons ht' (by decide)
          omega
        | cons y v =>
          have hy : y = 58 := (List.cons.inj ht2).1
          have := langTok_chars h' y (by rw [h1]; simp)
          unfold isAlpha at this
          omega
  · cases v with
    | nil => rw [List.append_nil] at h1; rw [List.nil_append] at h2; exact ⟨h1.symm, h2⟩
    | cons x v =>
      exfalso
      have hx := w3c_lang_chars h x (by rw [h1]; simp)
      have hws : isWs x = false := by
        have h1 : isWs x = false ↔ ¬ (x = 0x20 ∨ x = 0x09) := by rw [← isWs_iff]; simp
        rw [h1]; unfold isAlpha NTSpec.isDigitChar at hx; omega
      rw [h2, List.cons_append] at ht'
      have := terms_head_cons ht' hws
      unfold isAlpha NTSpec.isDigitChar at hx
      rcases this with hh | hh
      · omega
      · have := hh.1; omega

theorem terms_not {D : Dialect} {os : List RTerm} {w t r : PStr} {c : Nat} (hw : Ws w) (hc : isWs c = false) (h : Terms D os (w ++ c :: t) r)
    (h1 : c = 0x5E ∨ c = 0x40) : False := by
  obtain ⟨c', t', e, h⟩ := terms_head h
  rw [skipWs_stop hw hc] at e
  cases e
  rcases h with h | h
  · omega
  · have := h.1; omega

/-- The same term is read, or the reader has taken several terms for one. -/
theorem eat {s : PStr} {o : RTerm} {s1 : PStr} (h : Object w3c s o s1) {os : List RTerm} {r : PStr} (ht : Terms w3c os s1 r) {o' : RTerm} {s1' : PStr}
    (h' : Object code s o' s1') {os' : List RTerm} {r' : PStr} (ht' : Terms code os' s1' r') :
    (o' = o ∧ s1' = s1 ∧ Object both s o s1) ∨ ∃ os2, os2.length < os.length ∧ Terms w3c os2 s1' r := by
  have quote : ∀ {w x : PStr}, Ws w → s = w ++ 0x22 :: x → ∀ {t r1}, Node code s t r1 → False := by
    intro w x hw e t r1 hn
    obtain ⟨c, u, hc, h⟩ := object_head (Object.node hn)
    have : c = 0x3C ∨ c = 0x5F := by
      cases hn with
      | iri hi => obtain ⟨hw', _⟩ := hi; rw [skipWs_stop hw' (by decide)] at hc; cases hc; simp
      | @label w l r hw' hl _ =>
        obtain ⟨f, t, rfl, _⟩ := hl.1
        rw [List.cons_append, skipWs_stop hw' (by decide)] at hc; cases hc; simp
    rw [e, skipWs_stop hw (by decide)] at hc
    cases hc
    omega
  cases h with
  | node hn =>
    cases hn with
    | iri hi =>
      left
      have hb : Iri both s _ s1 := iri_of_w3c hi
      have hcode := pIriRef_iff.2 (iri_of_w3c (D := code) hi)
      obtain ⟨t0, ht0⟩ : ∃ t, skipWs s = 60 :: t := by obtain ⟨hw, _⟩ := hi; exact ⟨_, skipWs_stop hw (by decide) _⟩
      have no : ∀ {w' t : PStr} {c : Nat}, Ws w' → isWs c = false → c ≠ 60 → s = w' ++ c :: t → False := by
        intro w' t c hw' hc hne e
        rw [e, skipWs_stop hw' hc] at ht0
        exact hne (List.cons.inj ht0).1
      generalize hs2 : s = s2 at h'
      cases h' with
      | node hn' =>
        cases hn' with
        | iri hi' =>
          subst hs2
          have h2 := pIriRef_iff.2 hi'
          rw [hcode] at h2
          cases h2
          exact ⟨rfl, rfl, .node (.iri hb)⟩
        | @label w' l r hw' hl _ =>
          obtain ⟨f, t, rfl, _⟩ := hl.1
          exact (no hw' (c := 95) (by decide) (by decide) hs2).elim
      | plain hw' _ _ => exact (no hw' (c := 34) (by decide) (by decide) hs2).elim
      | typed hw' _ _ _ _ => exact (no hw' (c := 34) (by decide) (by decide) hs2).elim
      | lang hw' _ _ _ _ _ => exact (no hw' (c := 34) (by decide) (by decide) hs2).elim
    | @label w l _ hw hl _ =>
      have hl0 := hl
      obtain ⟨f, t, rfl, _⟩ := hl.1
      have no : ∀ {w' t' : PStr} {c : Nat}, Ws w' → isWs c = false → c ≠ 95 → w ++ (95 :: 58 :: f :: t ++ s1) = w' ++ c :: t' → False := by
        intro w' t' c hw' hc hne e
        have := congrArg skipWs e
        rw [List.cons_append, skipWs_stop hw (by decide), skipWs_stop hw' hc] at this
        exact hne (List.cons.inj this).1.symm
      generalize hs2 : w ++ (95 :: 58 :: f :: t ++ s1) = s2 at h'
      cases h' with
      | node hn' =>
        cases hn' with
        | iri hi' => obtain ⟨hw', _⟩ := hi'; exact (no hw' (by decide) (by decide) hs2).elim
        | @label w' l' _ hw' hl' _ =>
          have e : 95 :: 58 :: f :: t ++ s1 = l' ++ s1' := by
            obtain ⟨f', t', rfl, _⟩ := hl'.1
            have := congrArg skipWs hs2
            simp only [List.cons_append] at this ⊢
            rwa [skipWs_stop hw (by decide), skipWs_stop hw' (by decide)] at this
          rcases List.append_eq_append_iff.1 e with ⟨v, h1, h2⟩ | ⟨v, h1, h2⟩
          · by_cases hv : v = []
            · subst hv
              rw [List.append_nil] at h1; rw [List.nil_append] at h2
              subst h1; subst h2
              exact .inl ⟨rfl, rfl, .node (.label hw' hl0 ⟨hl', _, _, ht'⟩)⟩
            · right
              rw [h2] at ht
              have hv2 : (∀ x ∈ v, code.labelChar x ∨ x = 0x2E) ∧ v.getLast? ≠ some 0x2E := by
                obtain ⟨f', t', e', _, h4, h5⟩ := hl'.1
                rw [h1] at e'
                simp only [List.cons_append, List.cons.injEq, true_and] at e'
                obtain ⟨rfl, rfl⟩ := e'
                refine ⟨fun x hx => h4 x (by simp [hx]), ?_⟩
                obtain ⟨z, hz⟩ : ∃ z, v.getLast? = some z := by
                  cases h : v.getLast? with
                  | none => exact absurd (List.getLast?_eq_none_iff.1 h) hv
                  | some z => exact ⟨z, rfl⟩
                rw [List.getLast?_append, hz] at h5
                rw [hz]; exact h5
              exact absorb hv hv2.1 hv2.2 hl' ht' ht
          · by_cases hv : v = []
            · subst hv
              rw [List.append_nil] at h1; rw [List.nil_append] at h2
              subst h2
              rw [← h1] at hl' hs2 ⊢
              exact .inl ⟨rfl, rfl, .node (.label hw' hl0 ⟨hl', _, _, ht'⟩)⟩
            · exfalso
              rw [h2] at hl' ht'
              have h3 := hl0.1
              rw [h1] at h3
              exact not_inside_label hv h3 hl' ht'
      | plain hw' _ _ => exact (no hw' (c := 34) (by decide) (by decide) hs2).elim
      | typed hw' _ _ _ _ => exact (no hw' (c := 34) (by decide) (by decide) hs2).elim
      | lang hw' _ _ _ _ _ => exact (no hw' (c := 34) (by decide) (by decide) hs2).elim
  | @plain w b v _ hw hb hd =>
    left
    generalize hs2 : w ++ 34 :: (b ++ 34 :: s1) = s2 at h' quote
    cases h' with
    | node hn => exact (quote hw hs2.symm hn).elim
    | plain hw' hb' hd' =>
      obtain ⟨rfl, rfl⟩ := string_unique hw hb hd hw' hb' hd' hs2
      exact ⟨rfl, rfl, by rw [← hs2]; exact .plain hw hb hd⟩
    | typed hw' hb' hd' hw2 _ =>
      obtain ⟨_, e⟩ := string_unique hw hb hd hw' hb' hd' hs2
      rw [← e] at ht
      exact (terms_not hw2 (by decide) ht (.inl rfl)).elim
    | lang hw' hb' hd' hw2 _ _ =>
      obtain ⟨_, e⟩ := string_unique hw hb hd hw' hb' hd' hs2
      rw [← e] at ht
      exact (terms_not hw2 (by decide) ht (.inr rfl)).elim
  | @typed w b v w1 s0 d _ hw hb hd hw1 hi =>
    left
    generalize hs2 : w ++ 34 :: (b ++ 34 :: (w1 ++ 94 :: 94 :: s0)) = s2 at h' quote
    cases h' with
    | node hn => exact (quote hw hs2.symm hn).elim
    | plain hw' hb' hd' =>
      obtain ⟨_, e⟩ := string_unique hw hb hd hw' hb' hd' hs2
      rw [e] at ht'
      exact (terms_not hw1 (by decide) ht' (.inl rfl)).elim
    | typed hw' hb' hd' hw2 hi' =>
      obtain ⟨rfl, e⟩ := string_unique hw hb hd hw' hb' hd' hs2
      have e2 := congrArg skipWs e
      rw [skipWs_stop hw2 (by decide), skipWs_stop hw1 (by decide)] at e2
      simp only [List.cons.injEq, true_and] at e2
      subst e2
      obtain ⟨rfl, rfl⟩ := iri_unique hi hi'
      exact ⟨rfl, rfl, by rw [← hs2]; exact .typed hw hb hd hw1 (iri_of_w3c hi)⟩
    | lang hw' hb' hd' hw2 _ _ =>
      obtain ⟨_, e⟩ := string_unique hw hb hd hw' hb' hd' hs2
      have e2 := congrArg skipWs e
      rw [skipWs_stop hw2 (by decide), skipWs_stop hw1 (by decide)] at e2
      cases (List.cons.inj e2).1
  | @lang w b v w1 l _ hw hb hd hw1 hl _ =>
    left
    generalize hs2 : w ++ 34 :: (b ++ 34 :: (w1 ++ 64 :: (l ++ s1))) = s2 at h' quote
    cases h' with
    | node hn => exact (quote hw hs2.symm hn).elim
    | plain hw' hb' hd' =>
      obtain ⟨_, e⟩ := string_unique hw hb hd hw' hb' hd' hs2
      rw [e] at ht'
      exact (terms_not hw1 (by decide) ht' (.inr rfl)).elim
    | typed hw' hb' hd' hw2 hi' =>
      obtain ⟨_, e⟩ := string_unique hw hb hd hw' hb' hd' hs2
      have e2 := congrArg skipWs e
      rw [skipWs_stop hw2 (by decide), skipWs_stop hw1 (by decide)] at e2
      cases (List.cons.inj e2).1
    | lang hw' hb' hd' hw2 hl' _ =>
      obtain ⟨rfl, e⟩ := string_unique hw hb hd hw' hb' hd' hs2
      have e2 := congrArg skipWs e
      rw [skipWs_stop hw2 (by decide), skipWs_stop hw1 (by decide)] at e2
      have e3 := (List.cons.inj e2).2
      obtain ⟨rfl, rfl⟩ := lang_align hl.1 hl'.1 e3.symm ht ht'
      refine ⟨rfl, rfl, by rw [← hs2]; exact .lang hw hb hd hw1 (longest_congr (T := LangTok w3c) (T' := LangTok both) (fun _ => ⟨fun h => langTok_map h fun _ _ h => h, fun h => langTok_map h fun _ _ h => h⟩) hl) hl'.1⟩

/-- The reader finds at most as many terms as there are; and if it finds as many, they are the same. -/
theorem terms_align : ∀ (n : Nat) {os : List RTerm} (_ : os.length ≤ n) {s r : PStr} (_ : Terms w3c os s r) {os' : List RTerm} {r' : PStr} (_ : Terms code os' s r'),
    os'.length ≤ os.length ∧ (os'.length = os.length → os' = os ∧ r' = r ∧ Terms both os s r)
  | n, [], hn, s, r, .nil hd ha, os', r', h' => by
    cases h' with
    | nil hd' ha' =>
      obtain ⟨hw⟩ := hd
      next w =>
      have e := pDot_iff.2 (Dot.mk (r := r) hw)
      rw [pDot_iff.2 hd'] at e
      cases e
      refine ⟨Nat.le_refl _, fun _ => ⟨rfl, rfl, .nil (.mk hw) ?_⟩⟩
      rcases ha' with h | ⟨c, t, e, h⟩
      · exact .inl h
      · exact .inr ⟨c, t, e, h⟩
    | cons ho _ =>
      obtain ⟨c, t, e, h⟩ := object_head ho
      obtain ⟨hw⟩ := hd
      rw [skipWs_stop hw (by decide)] at e
      cases e
      omega
  | n + 1, o :: os, hn, s, r, .cons ho ht, os', r', h' => by
    cases h' with
    | nil _ _ => exact ⟨by simp, fun e => by simp at e⟩
    | @cons _ o' s1' os1' _ ho' ht' =>
      simp only [List.length_cons] at hn ⊢
      rcases eat ho ht ho' ht' with ⟨rfl, rfl, hb⟩ | ⟨os2, hlt, ht2⟩
      · obtain ⟨h1, h2⟩ := terms_align n (by omega) ht ht'
        refine ⟨by omega, fun e => ?_⟩
        obtain ⟨rfl, rfl, h3⟩ := h2 (by omega)
        exact ⟨rfl, rfl, .cons hb h3⟩
      · obtain ⟨h1, _⟩ := terms_align n (by omega) ht2 ht'
        exact ⟨by omega, fun e => by omega⟩

/-! ### Statements -/

def RStmt.terms (t : RStmt) : List RTerm := t.s :: t.p :: t.o :: t.g.toList

theorem statement_terms {D : Dialect} {q : Bool} {s : PStr} {t : RStmt} {r : PStr} (h : Statement D q s t r) (ha : AfterS D r) : Terms D t.terms s r := by
  cases h with
  | triple h1 h2 h3 h4 => exact .cons (.node h1) (.cons (.node (.iri h2)) (.cons h3 (.nil h4 ha)))
  | quad h1 h2 h3 h4 h5 => exact .cons (.node h1) (.cons (.node (.iri h2)) (.cons h3 (.cons (.node (.iri h4)) (.nil h5 ha))))
  | bnodeGraph _ h1 h2 h3 h4 h5 => exact .cons (.node h1) (.cons (.node (.iri h2)) (.cons h3 (.cons (.node h4) (.nil h5 ha))))
  | noGraph _ h1 h2 h3 h4 => exact .cons (.node h1) (.cons (.node (.iri h2)) (.cons h3 (.nil h4 ha)))

theorem object_iri {D : Dialect} {s v r : PStr} (h : Object D s (.iri v) r) : Iri D s v r := by
  cases h with
  | node h => cases h with | iri h => exact h

theorem object_node {D : Dialect} {s : PStr} {t : RTerm} {r : PStr} (h : Object D s t r) (ht : ∀ v l d, t ≠ .lit v l d) : Node D s t r := by
  cases h with
  | node h => exact h
  | plain => exact absurd rfl (ht _ _ _)
  | typed => exact absurd rfl (ht _ _ _)
  | lang => exact absurd rfl (ht _ _ _)

theorem node_not_lit {D : Dialect} {s : PStr} {t : RTerm} {r : PStr} (h : Node D s t r) : ∀ v l d, t ≠ .lit v l d := by
  cases h <;> (intro v l d e; cases e)

theorem statement_align {q : Bool} {s : PStr} {t t' : RStmt} {r r' : PStr} (h : Statement w3c q s t r) (ha : AfterS w3c r) (h' : Statement code q s t' r')
    (ha' : AfterS code r') : t' = t ∧ r' = r ∧ Statement both q s t r := by
  obtain ⟨h1, h2⟩ := terms_align _ (Nat.le_refl _) (statement_terms h ha) (statement_terms h' ha')
  cases h' with
  | triple n1 i1 o1 d1 =>
    cases h with
    | triple n2 i2 o2 d2 =>
      obtain ⟨e, rfl, hb⟩ := h2 rfl
      simp only [RStmt.terms, Option.toList, List.cons.injEq, and_true] at e
      obtain ⟨rfl, e, rfl⟩ := e
      cases e
      refine ⟨rfl, rfl, ?_⟩
      cases hb with
      | cons b1 hb => cases hb with
        | cons b2 hb => cases hb with
          | cons b3 hb => cases hb with
            | nil b4 _ => exact .triple (object_node b1 (node_not_lit n2)) (object_iri b2) b3 b4
  | quad n1 i1 o1 g1 d1 =>
    cases h with
    | quad n2 i2 o2 g2 d2 =>
      obtain ⟨e, rfl, hb⟩ := h2 rfl
      simp only [RStmt.terms, Option.toList, List.cons.injEq, and_true] at e
      obtain ⟨rfl, e, rfl, e'⟩ := e
      cases e; cases e'
      refine ⟨rfl, rfl, ?_⟩
      cases hb with
      | cons b1 hb => cases hb with
        | cons b2 hb => cases hb with
          | cons b3 hb => cases hb with
            | cons b4 hb => cases hb with
              | nil b5 _ => exact .quad (object_node b1 (node_not_lit n2)) (object_iri b2) b3 (object_iri b4) b5
    | bnodeGraph _ n2 i2 o2 g2 d2 =>
      obtain ⟨e, -, -⟩ := h2 rfl
      simp only [RStmt.terms, Option.toList, List.cons.injEq, and_true] at e
      cases e.2.2.2
    | noGraph _ n2 i2 o2 d2 => simp [RStmt.terms] at h1
  | bnodeGraph hD => exact hD.elim
  | noGraph hD => exact hD.elim

/-! ### Documents -/

theorem NTSpec.Rest.after {D : Dialect} {q : Bool} {s : PStr} {ts : List RStmt} (h : Rest D q s ts) : AfterS D s := by
  have le : ∀ {w}, LineEnd D w → ∀ r, AfterS D r → AfterS D (w ++ r) := by
    intro w hw r hr
    cases hw with
    | ws hw =>
      cases w with
      | nil => exact hr
      | cons c w => exact .inr ⟨c, w ++ r, rfl, (hw c (by simp)).imp_right .inl⟩
    | @comment w t hD hw _ =>
      cases w with
      | nil => exact .inr ⟨_, _, rfl, .inr (.inr (.inr ⟨hD, rfl⟩))⟩
      | cons c w => exact .inr ⟨c, _, rfl, (hw c (by simp)).imp_right .inl⟩
  have eo : ∀ {e}, Eol D e → ∀ r, AfterS D (e ++ r) := by
    intro e he r
    cases he with
    | one h => exact .inr ⟨_, _, rfl, .inr (.inr (.inl h))⟩
    | more h _ => exact .inr ⟨_, _, rfl, .inr (.inr (.inl h))⟩
    | comment _ h _ _ => exact .inr ⟨_, _, rfl, .inr (.inr (.inl h))⟩
  cases h with
  | eof hw => have := le hw [] (.inl rfl); rwa [List.append_nil] at this
  | eol hw he _ => exact le hw _ (eo he _)
  | next hw he _ _ => exact le hw _ (eo he _)

theorem statement_head {D : Dialect} {q : Bool} {s : PStr} {t : RStmt} {r : PStr} (h : Statement D q s t r) :
    ∃ c u, skipWs s = c :: u ∧ (c = 0x3C ∨ c = 0x5F) := by
  have key : ∀ {s a r1}, Node D s a r1 → ∃ c u, skipWs s = c :: u ∧ (c = 0x3C ∨ c = 0x5F) := by
    intro s a r1 h
    cases h with
    | iri h => obtain ⟨hw, _⟩ := h; exact ⟨_, _, skipWs_stop hw (by decide) _, by simp⟩
    | @label w l r hw hl _ =>
      obtain ⟨c, t, rfl, _⟩ := hl.1
      exact ⟨_, _, by rw [List.cons_append]; exact skipWs_stop hw (by decide) _, by simp⟩
  cases h with
  | triple h => exact key h
  | quad h => exact key h
  | bnodeGraph _ h => exact key h
  | noGraph _ h => exact key h

/-- What the reader's grammar says of the text after a statement. -/
theorem rest_code {q : Bool} {s : PStr} {ts : List RStmt} (h : Rest code q s ts) :
    (skipWs s = [] ∧ ts = []) ∨
    ∃ e s', skipWs s = e ++ s' ∧ e ≠ [] ∧ (∀ c ∈ e, isEolChar c) ∧
      ((skipWs s' = [] ∧ ts = []) ∨ ∃ t r ts1, Statement code q s' t r ∧ Rest code q r ts1 ∧ ts = t :: ts1) := by
  have eo : ∀ {e : PStr}, Eol code e → (∃ c u, e = c :: u ∧ isWs c = false) ∧ ∀ c ∈ e, isEolChar c := by
    intro e he
    obtain ⟨h1, h2⟩ := eol_iff.1 he
    have h3 : ∀ c ∈ e, isEolChar c := fun c hc => isEol_iff.1 (h2 c hc)
    refine ⟨?_, h3⟩
    cases e with
    | nil => exact absurd rfl h1
    | cons c u =>
      refine ⟨c, u, rfl, ?_⟩
      have := h3 c (by simp)
      have h1 : isWs c = false ↔ ¬ (c = 0x20 ∨ c = 0x09) := by rw [← isWs_iff]; simp
      rw [h1]; unfold isEolChar at this; omega
  cases h with
  | eof hw => exact .inl ⟨ws_nil_iff.2 (lineEnd_iff.1 hw), rfl⟩
  | @eol w e w' hw he hw' =>
    obtain ⟨⟨c, u, rfl, hc⟩, h2⟩ := eo he
    exact .inr ⟨c :: u, w', skipWs_stop (lineEnd_iff.1 hw) hc _, by simp, h2, .inl ⟨ws_nil_iff.2 (lineEnd_iff.1 hw'), rfl⟩⟩
  | @next w e s' t r ts1 hw he hs hr =>
    obtain ⟨⟨c, u, rfl, hc⟩, h2⟩ := eo he
    exact .inr ⟨c :: u, s', skipWs_stop (lineEnd_iff.1 hw) hc _, by simp, h2, .inr ⟨t, r, ts1, hs, hr, rfl⟩⟩

/-- The ends of lines are the same, and there are no comments among them. -/
theorem eol_align {e x e1 s' : PStr} (h : Eol w3c e) (hx : ∀ c t, x = c :: t → ¬ isEolChar c) (h1 : e1 ≠ []) (h2 : ∀ c ∈ e1, isEolChar c)
    (hs : ∀ c t, s' = c :: t → ¬ isEolChar c ∧ c ≠ 0x23) (he : e ++ x = e1 ++ s') : e = e1 ∧ x = s' ∧ Eol both e := by
  induction h generalizing e1 with
  | @one c hc =>
    cases e1 with
    | nil => exact absurd rfl h1
    | cons d e1 =>
      obtain ⟨rfl, e⟩ := List.cons.inj he
      cases e1 with
      | nil => exact ⟨rfl, e, .one hc⟩
      | cons d e1 => exact absurd (h2 d (by simp)) (hx d _ e)
  | @more c e hc he' ih =>
    cases e1 with
    | nil => exact absurd rfl h1
    | cons d e1 =>
      obtain ⟨rfl, e2⟩ := List.cons.inj he
      by_cases h3 : e1 = []
      · subst h3
        exfalso
        have : ∃ c t, e = c :: t ∧ isEolChar c := by
          cases he' with
          | one h => exact ⟨_, _, rfl, h⟩
          | more h _ => exact ⟨_, _, rfl, h⟩
          | comment _ h _ _ => exact ⟨_, _, rfl, h⟩
        obtain ⟨c', t, rfl, h⟩ := this
        exact (hs c' _ e2.symm).1 h
      · obtain ⟨rfl, rfl, h4⟩ := ih h3 (fun c h => h2 c (by simp [h])) e2
        exact ⟨rfl, rfl, .more hc h4⟩
  | @comment c t e _ hc ht _ _ =>
    exfalso
    cases e1 with
    | nil => exact absurd rfl h1
    | cons d e1 =>
      obtain ⟨rfl, e2⟩ := List.cons.inj he
      cases e1 with
      | nil => exact (hs 0x23 _ e2.symm).2 rfl
      | cons d e1 =>
        have e3 : 0x23 = d := (List.cons.inj e2).1
        have := h2 d (by simp)
        unfold isEolChar at this; omega

theorem skipWs_nonws {s : PStr} {c : Nat} {t : PStr} (h : s = c :: t) (hc : isWs c = false) : skipWs s = c :: t := by
  rw [h]; exact skipWs_stop (w := []) (by simp [Ws]) hc t

theorem eol_not_ws {c : Nat} (h : isEolChar c) : isWs c = false := by
  have h1 : isWs c = false ↔ ¬ (c = 0x20 ∨ c = 0x09) := by rw [← isWs_iff]; simp
  rw [h1]; unfold isEolChar at h; omega

/-- The end of a line, when the reader finds nothing but white space, or the end of a line. -/
theorem lineEnd_align {w x : PStr} (h : LineEnd w3c w) (hx : x = [] ∨ ∃ c t, x = c :: t ∧ isEolChar c) (hs : skipWs (w ++ x) = [] ∨ ∃ c t, skipWs (w ++ x) = c :: t ∧ isEolChar c) :
    Ws w ∧ skipWs (w ++ x) = x := by
  cases h with
  | ws hw =>
    refine ⟨hw, ?_⟩
    rw [skipWs_append hw]
    rcases hx with rfl | ⟨c, t, rfl, hc⟩
    · rfl
    · exact skipWs_nonws rfl (eol_not_ws hc)
  | comment _ hw _ =>
    exfalso
    rw [List.append_assoc, List.cons_append, skipWs_stop hw (by decide)] at hs
    rcases hs with h | ⟨c, t, h, hc⟩
    · cases h
    · cases h; revert hc; simp [isEolChar]

theorem rest_align {q : Bool} {s : PStr} {ts : List RStmt} (h : Rest w3c q s ts) : ∀ {ts' : List RStmt}, Rest code q s ts' → ts' = ts ∧ Rest both q s ts := by
  have heads : ∀ {ts' : List RStmt} {s : PStr}, ((skipWs s = [] ∧ ts' = []) ∨
    ∃ e s', skipWs s = e ++ s' ∧ e ≠ [] ∧ (∀ c ∈ e, isEolChar c) ∧
      ((skipWs s' = [] ∧ ts' = []) ∨ ∃ t r ts1, Statement code q s' t r ∧ Rest code q r ts1 ∧ ts' = t :: ts1)) →
      skipWs s = [] ∨ ∃ c t, skipWs s = c :: t ∧ isEolChar c := by
    intro ts' s hh
    rcases hh with ⟨h, _⟩ | ⟨e, s', h, h1, h2, _⟩
    · exact .inl h
    · cases e with
      | nil => exact absurd rfl h1
      | cons c e => exact .inr ⟨c, _, h, h2 c (by simp)⟩
  have after : ∀ {s' : PStr} {ts' : List RStmt}, ((skipWs s' = [] ∧ ts' = []) ∨ ∃ t r ts1, Statement code q s' t r ∧ Rest code q r ts1 ∧ ts' = t :: ts1) →
      ∀ c t, s' = c :: t → ¬ isEolChar c ∧ c ≠ 0x23 := by
    intro s' ts' hh c t e
    by_cases hw : isWs c = true
    · have := isWs_iff.1 hw
      unfold isEolChar; omega
    · have hk := skipWs_nonws e (by simpa using hw)
      rcases hh with ⟨h, _⟩ | ⟨t', r, ts1, hst, _⟩
      · rw [hk] at h; cases h
      · obtain ⟨c', u, h1, h2⟩ := statement_head hst
        rw [hk] at h1
        cases h1
        unfold isEolChar; omega
  have first : ∀ {e : PStr}, Eol w3c e → ∀ x, ∃ c t, e ++ x = c :: t ∧ isEolChar c := by
    intro e he x
    cases he with
    | one h => exact ⟨_, _, rfl, h⟩
    | more h _ => exact ⟨_, _, rfl, h⟩
    | comment _ h _ _ => exact ⟨_, _, rfl, h⟩
  induction h with
  | @eof w hw =>
    intro ts' h'
    have hc := rest_code h'
    have hh := heads hc
    have hl := lineEnd_align (x := []) hw (.inl rfl) (by rwa [List.append_nil])
    rw [List.append_nil] at hl
    rcases hc with ⟨_, rfl⟩ | ⟨e, s', h, h1, _⟩
    · exact ⟨rfl, .eof (.ws hl.1)⟩
    · rw [hl.2] at h
      cases e with
      | nil => exact absurd rfl h1
      | cons c e => cases h
  | @eol w e w' hw he hw' =>
    intro ts' h'
    have hc := rest_code h'
    obtain ⟨c0, t0, e0, hc0⟩ := first he w'
    have hl := lineEnd_align hw (.inr ⟨c0, t0, e0, hc0⟩) (heads hc)
    rcases hc with ⟨h, _⟩ | ⟨e1, s', h, h1, h2, h3⟩
    · rw [hl.2, e0] at h; cases h
    · rw [hl.2] at h
      have hx : ∀ c t, w' = c :: t → ¬ isEolChar c := by
        intro c t e hce
        subst e
        generalize e' : c :: t = w'' at hw'
        cases hw' with
        | ws hw => have := hw c (by rw [← e']; simp); unfold isEolChar at hce; omega
        | @comment w t' _ hw _ =>
          cases w with
          | nil => have : c = 0x23 := (List.cons.inj e').1; unfold isEolChar at hce; omega
          | cons d w => have e2 : c = d := (List.cons.inj e').1
                        have := hw d (by simp)
                        unfold isEolChar at hce; omega
      obtain ⟨rfl, rfl, hb⟩ := eol_align he hx h1 h2 (after h3) h
      have hws : skipWs w' = [] ∧ ts' = [] := by
        rcases h3 with h3 | ⟨t, r, ts1, hst, _⟩
        · exact h3
        · exfalso
          obtain ⟨c, u, h4, h5⟩ := statement_head hst
          cases hw' with
          | ws hw => rw [ws_nil_iff.2 hw] at h4; cases h4
          | comment _ hw _ => rw [skipWs_stop hw (by decide)] at h4; cases h4; omega
      exact ⟨hws.2, .eol (.ws hl.1) hb (.ws (ws_nil_iff.1 hws.1))⟩
  | @next w e s t r ts hw he hst hr ih =>
    intro ts' h'
    have hc := rest_code h'
    obtain ⟨c0, t0, e0, hc0⟩ := first he s
    have hl := lineEnd_align hw (.inr ⟨c0, t0, e0, hc0⟩) (heads hc)
    obtain ⟨c1, u1, hk1, hc1⟩ := statement_head hst
    rcases hc with ⟨h, _⟩ | ⟨e1, s', h, h1, h2, h3⟩
    · rw [hl.2, e0] at h; cases h
    · rw [hl.2] at h
      have hx : ∀ c t, s = c :: t → ¬ isEolChar c := by
        intro c t e hce
        rw [skipWs_nonws e (eol_not_ws hce)] at hk1
        cases hk1
        unfold isEolChar at hce; omega
      obtain ⟨rfl, rfl, hb⟩ := eol_align he hx h1 h2 (after h3) h
      rcases h3 with ⟨h3, _⟩ | ⟨t', r', ts1, hst', hr', rfl⟩
      · rw [hk1] at h3; cases h3
      · obtain ⟨rfl, rfl, hs⟩ := statement_align hst hr.after hst' hr'.after
        obtain ⟨rfl, hb2⟩ := ih hr'
        exact ⟨rfl, .next (.ws hl.1) hb hs hb2⟩

theorem afterS_head {D : Dialect} {s : PStr} (h : AfterS D s) {c : Nat} {u : PStr} (hk : skipWs s = c :: u) (hc : c = 0x3C ∨ c = 0x5F) : ∃ d t, s = d :: t ∧ isWs d = true := by
  rcases h with rfl | ⟨d, t, rfl, h⟩
  · cases hk
  · by_cases hw : isWs d = true
    · exact ⟨d, t, rfl, hw⟩
    · exfalso
      rw [skipWs_nonws rfl (by simpa using hw)] at hk
      cases hk
      rcases h with h | h | h | h
      · omega
      · omega
      · unfold isEolChar at h; omega
      · have := h.2; omega

theorem rest_head_skip {D : Dialect} {q : Bool} {s : PStr} {ts : List RStmt} (h : Rest D q s ts) {c : Nat} {u : PStr} (hk : skipWs s = c :: u) :
    isEolChar c ∨ c = 0x23 := by
  have le : ∀ {w}, LineEnd D w → ∀ r, (∀ c u, r = c :: u → isEolChar c) → ∀ c u, skipWs (w ++ r) = c :: u → isEolChar c ∨ c = 0x23 := by
    intro w hw r hr c u hk
    cases hw with
    | ws hw =>
      rw [skipWs_append hw] at hk
      cases r with
      | nil => cases hk
      | cons d r => rw [skipWs_nonws rfl (eol_not_ws (hr d r rfl))] at hk; cases hk; exact .inl (hr c u rfl)
    | comment _ hw _ =>
      rw [List.append_assoc, List.cons_append, skipWs_stop hw (by decide)] at hk
      cases hk; exact .inr rfl
  have first : ∀ {e : PStr}, Eol D e → ∀ x, ∀ c u, e ++ x = c :: u → isEolChar c := by
    intro e he x c u e2
    cases he with
    | one h => cases e2; exact h
    | more h _ => cases e2; exact h
    | comment _ h _ _ => cases e2; exact h
  cases h with
  | eof hw => exact le hw [] (by intro c u h; cases h) c u (by rwa [List.append_nil])
  | eol hw he _ => exact le hw _ (first he _) c u hk
  | next hw he _ _ => exact le hw _ (first he _) c u hk

theorem doc_align {q : Bool} {s : PStr} {ts ts' : List RStmt} (h : Doc w3c q s ts) (h' : Doc code q s ts') : ts' = ts ∧ Doc both q s ts := by
  have clash : ∀ {D D' : Dialect} {t r ts1}, Statement D q s t r → Rest D' q s ts1 → False := by
    intro D D' t r ts1 h1 h2
    obtain ⟨c, u, hk, hc⟩ := statement_head h1
    have := rest_head_skip h2 hk
    unfold isEolChar at this; omega
  cases h with
  | first h1 h2 =>
    cases h' with
    | first h3 h4 =>
      obtain ⟨rfl, rfl, hs⟩ := statement_align h1 h2.after h3 h4.after
      obtain ⟨rfl, hb⟩ := rest_align h2 h4
      exact ⟨rfl, .first hs hb⟩
    | rest h3 => exact (clash h1 h3).elim
  | rest h1 =>
    cases h' with
    | first h3 _ => exact (clash h3 h1).elim
    | rest h3 =>
      obtain ⟨rfl, hb⟩ := rest_align h1 h3
      exact ⟨rfl, .rest hb⟩

theorem longest_lang {D D' : Dialect} (e : D.langChar = D'.langChar) {l r : PStr} (h : Longest (LangTok D) l r) : Longest (LangTok D') l r := by
  have key : ∀ {D D' : Dialect}, D.langChar = D'.langChar → ∀ w, LangTok D w → LangTok D' w := by
    rintro D D' e w ⟨p, s, h1, h2, h3, h4⟩
    exact ⟨p, s, h1, h2, h3, langParts_map h4 (fun c _ hc => e ▸ hc)⟩
  exact ⟨key e _ h.1, fun w' hw h' => h.2 w' hw (key e.symm _ h')⟩

theorem Sub.both_tidy : Sub both tidy where
  gaps h := h
  comments h := h
  noGraph h := h
  bnodeGraph h := h
  label l r h hl hr := by
    obtain ⟨hl1, os, r', ht⟩ := hl
    refine ⟨h, ?_, ?_⟩
    · obtain ⟨c, t, rfl, h1, h2, _⟩ := hl1.1
      intro x hx
      simp only [List.mem_cons] at hx
      rcases hx with rfl | rfl | rfl | hx
      · decide
      · decide
      · rcases h1 with h1 | h1 <;> omega
      · rcases h2 x hx with (h | h) | h <;> omega
    · obtain ⟨c, t, rfl, hc⟩ := hr
      rcases hc with hc | hc | hc | ⟨rfl, _⟩ | ⟨h, _⟩
      · exact ⟨0, _, rfl, .inr ⟨c, t, rfl, .inl hc⟩⟩
      · exact ⟨0, _, rfl, .inr ⟨c, t, rfl, .inr (.inl hc)⟩⟩
      · subst hc
        have := label_next hl1 ht (by decide)
        omega
      · have ha := (terms_head_cons ht (by decide)).resolve_left (by omega)
        refine ⟨1, t, rfl, ha.2.imp_right fun ⟨c, u, e, h⟩ => ⟨c, u, e, ?_⟩⟩
        rcases h with h | h | h | h
        · exact .inl h
        · exact .inr (.inl h)
        · exact .inr (.inr h)
        · exact h.1.elim
      · exact h.elim
  lang l r h hl _ := by
    refine ⟨longest_lang (D := both) (D' := tidy) rfl h, fun c hc hd => ?_⟩
    have := langTok_chars hl c hc
    unfold isAlpha at this
    omega

theorem Sub.tidy_w3c : Sub tidy w3c where
  gaps h := h
  comments h := h.elim
  noGraph h := h.elim
  bnodeGraph h := h.elim
  label _ _ h _ _ := ⟨h, trivial⟩
  lang _ _ h _ _ := ⟨longest_lang (D := tidy) (D' := w3c) rfl h, trivial⟩

theorem doc_tidy {q : Bool} {text : PStr} {rs rs' : List RStmt} (h : Doc w3c q text rs) (h' : Doc code q text rs') : rs' = rs ∧ Doc tidy q text rs := by
  obtain ⟨h1, h2⟩ := doc_align h h'
  exact ⟨h1, Sub.both_tidy.doc h2⟩

/-! ### The theorems -/

/-- An N-Triples or N-Quads document is never misread: it is read as what it means, or there is an error. -/
theorem C108_never_misread {σ : Type} (add : σ → Stmt → σ) (next : Nat) (sink : σ) {q : Bool} {text : PStr} {rs : List RStmt} (h : Doc w3c q text rs)
    (hr : (parseString add q next text sink).2.2 = .ok ()) : ReadsAs q text rs := by
  obtain ⟨rs', h'⟩ := (C106_accepts add q next text sink).1 hr
  obtain ⟨rfl, _⟩ := doc_tidy h h'
  exact C106_meaning h'

/-- The documents that are read are exactly those of `C108_tidy_partial`: every other N-Triples or N-Quads document is an error. -/
theorem C108_exact {σ : Type} (add : σ → Stmt → σ) (next : Nat) (sink : σ) {q : Bool} {text : PStr} {rs : List RStmt} (h : Doc w3c q text rs) :
    (parseString add q next text sink).2.2 = .ok () ↔ Doc tidy q text rs := by
  rw [C106_accepts]
  exact ⟨fun ⟨_, h'⟩ => (doc_tidy h h').2, fun h' => ⟨rs, Sub.tidy_code.doc h'⟩⟩

/-- The grammar of the recommendations gives a text that is read at most one meaning. -/
theorem C108_one_meaning {σ : Type} (add : σ → Stmt → σ) (next : Nat) (sink : σ) {q : Bool} {text : PStr} {rs rs' : List RStmt} (h : Doc w3c q text rs)
    (h' : Doc w3c q text rs') (hr : (parseString add q next text sink).2.2 = .ok ()) : rs = rs' := by
  obtain ⟨x, hx⟩ := (C106_accepts add q next text sink).1 hr
  exact (doc_tidy h hx).1.symm.trans (doc_tidy h' hx).1

/-- Which of the texts that are read are N-Triples or N-Quads, and that these are read as what they mean. -/
theorem C107_exact {σ : Type} (add : σ → Stmt → σ) (next : Nat) (sink : σ) {q : Bool} {text : PStr} (hr : (parseString add q next text sink).2.2 = .ok ())
    (rs : List RStmt) : Doc w3c q text rs ↔ Doc tidy q text rs ∧ ReadsAs q text rs := by
  constructor
  · intro h
    exact ⟨(C108_exact add next sink h).1 hr, C108_never_misread add next sink h hr⟩
  · intro h
    exact Sub.tidy_w3c.doc h.1

/-- What a text is read as, if it is N-Triples or N-Quads at all, is what it means. -/
theorem C107_meaning {σ : Type} (add : σ → Stmt → σ) (next : Nat) (sink : σ) {q : Bool} {text : PStr} (hr : (parseString add q next text sink).2.2 = .ok ()) :
    (∃ rs, Doc w3c q text rs) → ∃ rs, Doc w3c q text rs ∧ ReadsAs q text rs :=
  fun ⟨rs, h⟩ => ⟨rs, h, C108_never_misread add next sink h hr⟩

/-- A document of the recommendation that is read; so by `C108_exact` its label and its language tag are those the reader knows. -/
example : (∃ rs, Doc w3c false (py! "_:a <p> \"x\"@en .\n\n") rs) ∧
    (parseString (fun l t => l ++ [t]) false 0 (py! "_:a <p> \"x\"@en .\n\n") []).2.2 = .ok () := by
  refine ⟨⟨_, sample_doc w3c (label_longest ?_ ?_) trivial
    (longest_lang (D := tidy) (D' := w3c) rfl (lang_longest (D' := tidy) (fun _ h => h) sample_lang ⟨_, _, rfl, .inl rfl⟩ fun h => h)) trivial⟩, by decide⟩
  · exact ⟨97, [], rfl, .inl (.inl (.inl (by simp [isAlpha]))), by simp, by simp⟩
  · exact ⟨0, _, rfl, .inr ⟨_, _, rfl, w3c_label_stop (.inl rfl)⟩⟩

/-- One that is not read, so it is not among those of `C108_tidy_partial`. -/
example : ∃ rs, Doc w3c false (py! "#\n") rs ∧ ¬ Doc tidy false (py! "#\n") rs := by
  have h : Doc w3c false (py! "#\n") [] :=
    .rest (.eol (w := py! "#") (e := py! "\n") (w' := []) (.comment (w := []) (t := []) trivial (by simp [Ws]) (by simp)) (.one (.inl rfl)) (.ws (by simp [Ws])))
  refine ⟨_, h, fun ht => ?_⟩
  have := (C108_exact (fun l t => l ++ [t]) 0 [] h).2 ht
  revert this
  decide

end Verif
