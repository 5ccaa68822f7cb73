import Verif.Spec.TurtleTokens
/-
The scanners of the Turtle lexer against the terminals of the recommendation.
-/
namespace Verif.Turtle
open Spec

/-! ### Characters -/

theorem isDigit_iff {c : Nat} : isDigit c = true ↔ isDigitChar c := by simp [isDigit, isDigitChar]
theorem isLetter_iff {c : Nat} : isLetter c = true ↔ isAlpha c := by simp [isLetter, isAlpha]
theorem pnBase_iff {c : Nat} : pnBase c = true ↔ Spec.pnCharsBase c := by
  simp only [pnBase, Spec.pnCharsBase, isAlpha, decide_eq_true_eq, or_assoc]
theorem pnU_iff {c : Nat} : pnU c = true ↔ Spec.pnCharsU c := by simp [pnU, Spec.pnCharsU, pnBase_iff]
theorem pnChar_iff {c : Nat} : pnChar c = true ↔ Spec.pnChars c := by
  simp only [pnChar, Spec.pnChars, pnU_iff, isDigit, isDigitChar, Bool.or_eq_true, beq_iff_eq, decide_eq_true_eq, or_assoc]
theorem isHex_iff {c : Nat} : isHex c = true ↔ isHexChar c := by
  simp only [isHex, hexVal?, isHexChar, isDigitChar]
  split
  · simp; omega
  · split
    · simp; omega
    · split
      · simp; omega
      · simp; omega
theorem isWs_iff {c : Nat} : isWs c = true ↔ isWhite c := by simp [isWs, isWhite, or_assoc]
theorem isAlnum_iff {c : Nat} : isAlnum c = true ↔ isAlpha c ∨ isDigitChar c := by simp [isAlnum, isLetter_iff, isDigit_iff]
theorem iriClass_iff {c : Nat} : iriClass c = true ↔ 0x20 < c ∧ c ∉ py! "<>\"{}|^`\\" := by
  simp [iriClass, and_assoc]

theorem pnChar_46 : pnChar 46 = false := by decide
theorem pnChar_58 : pnChar 58 = false := by decide
theorem pnChar_37 : pnChar 37 = false := by decide
theorem pnChar_92 : pnChar 92 = false := by decide

/-- `Stops` in terms of the model's classes. -/
structure Stop (c : Nat) : Prop where
  pn : pnChar c = false
  colon : c ≠ 58
  percent : c ≠ 37
  back : c ≠ 92

theorem _root_.Verif.Turtle.Spec.Stops.cases {r : PStr} (h : Stops r) : r = [] ∨ (∃ r', r = 46 :: r' ∧ Stops r') ∨ ∃ c r', r = c :: r' ∧ c ≠ 46 ∧ Stop c := by
  cases r with
  | nil => exact .inl rfl
  | cons c r =>
    by_cases hc : c = 46
    · subst hc; exact .inr (.inl ⟨r, rfl, h⟩)
    · have h1 := h c (by simp [List.dropWhile_cons, hc])
      refine .inr (.inr ⟨c, r, rfl, hc, ⟨?_, h1.2.1, h1.2.2.1, h1.2.2.2⟩⟩)
      cases hp : pnChar c with
      | false => rfl
      | true => exact absurd (pnChar_iff.1 hp) h1.1

/-! ### White space -/

theorem skipIgn_ignorable {u : PStr} (h : Ignorable lark u) (s : PStr) : skipIgn false (u ++ s) = skipIgn false s := by
  induction h with
  | nil => rfl
  | white hc _ ih => rw [List.cons_append, skipIgn, if_pos (isWs_iff.2 hc), ih]
  | @comment t e u ht he _ ih =>
    obtain rfl : e = 10 := by simpa [lark] using he
    replace ht : ∀ x ∈ t, x ≠ 10 := by simpa [lark] using ht
    have key : ∀ t : PStr, (∀ c ∈ t, c ≠ 10) → skipIgn true (t ++ 10 :: (u ++ s)) = skipIgn false (u ++ s) := by
      intro t
      induction t with
      | nil => intro _; rfl
      | cons c t ih =>
        intro h
        rw [List.cons_append, skipIgn, if_neg (h c (by simp))]
        exact ih fun x hx => h x (by simp [hx])
    rw [List.cons_append, List.append_assoc, List.cons_append, skipIgn, if_neg (by decide), if_pos rfl, key t ht, ih]

theorem skipIgn_trailing {u : PStr} (h : Trailing lark u) : skipIgn false u = [] := by
  rcases h with h | ⟨v, t, rfl, hv, ht⟩
  · have := skipIgn_ignorable h []
    rwa [List.append_nil] at this
  · replace ht : ∀ x ∈ t, x ≠ 10 := by simpa [lark] using ht
    rw [skipIgn_ignorable hv, skipIgn, if_neg (by decide), if_pos rfl]
    induction t with
    | nil => rfl
    | cons c t ih =>
      rw [skipIgn, if_neg (ht c (by simp))]
      exact ih fun x hx => ht x (by simp [hx])

/-- The text is something ignorable and then what is left. -/
theorem skipIgn_split : ∀ (s : PStr), (∃ u c r, s = u ++ c :: r ∧ Ignorable lark u ∧ skipIgn false s = c :: r) ∨ (Trailing lark s ∧ skipIgn false s = []) := by
  have key : ∀ (n : Nat) (s : PStr), s.length ≤ n →
      ((∃ u c r, s = u ++ c :: r ∧ Ignorable lark u ∧ skipIgn false s = c :: r) ∨ (Trailing lark s ∧ skipIgn false s = [])) ∧
      ((∃ t u c r, s = t ++ 10 :: (u ++ c :: r) ∧ (∀ x ∈ t, x ≠ 10) ∧ Ignorable lark u ∧ skipIgn true s = c :: r) ∨
       ((∃ t u, s = t ++ 10 :: u ∧ (∀ x ∈ t, x ≠ 10) ∧ Trailing lark u ∧ skipIgn true s = []) ∨ ((∀ x ∈ s, x ≠ 10) ∧ skipIgn true s = []))) := by
    intro n
    induction n with
    | zero =>
      intro s hs
      obtain rfl : s = [] := List.length_eq_zero_iff.1 (by omega)
      exact ⟨.inr ⟨.inl .nil, rfl⟩, .inr (.inr ⟨by simp, rfl⟩)⟩
    | succ n ih =>
      intro s hs
      cases s with
      | nil => exact ⟨.inr ⟨.inl .nil, rfl⟩, .inr (.inr ⟨by simp, rfl⟩)⟩
      | cons c s =>
        have ih := ih s (by simpa using hs)
        constructor
        · rw [skipIgn]
          by_cases hw : isWs c = true
          · rw [if_pos hw]
            rcases ih.1 with ⟨u, d, r, rfl, hu, e⟩ | ⟨ht, e⟩
            · exact .inl ⟨c :: u, d, r, rfl, .white (isWs_iff.1 hw) hu, e⟩
            · refine .inr ⟨?_, e⟩
              rcases ht with ht | ⟨v, t, rfl, hv, ht⟩
              · exact .inl (.white (isWs_iff.1 hw) ht)
              · exact .inr ⟨c :: v, t, rfl, .white (isWs_iff.1 hw) hv, ht⟩
          · rw [if_neg hw]
            by_cases hc : c = 35
            · rw [if_pos hc]
              subst hc
              rcases ih.2 with ⟨t, u, d, r, rfl, ht, hu, e⟩ | ⟨t, u, rfl, ht, hu, e⟩ | ⟨ht, e⟩
              · exact .inl ⟨35 :: (t ++ 10 :: u), d, r, by simp, .comment (by simpa [lark] using ht) (by simp [lark]) hu, e⟩
              · refine .inr ⟨?_, e⟩
                rcases hu with hu | ⟨v, w, rfl, hv, hw⟩
                · exact .inl (.comment (by simpa [lark] using ht) (by simp [lark]) hu)
                · exact .inr ⟨35 :: (t ++ 10 :: v), w, by simp, .comment (by simpa [lark] using ht) (by simp [lark]) hv, hw⟩
              · exact .inr ⟨.inr ⟨[], s, rfl, .nil, by simpa [lark] using ht⟩, e⟩
            · rw [if_neg hc]
              exact .inl ⟨[], c, s, rfl, .nil, rfl⟩
        · rw [skipIgn]
          by_cases hc : c = 10
          · rw [if_pos hc]
            subst hc
            rcases ih.1 with ⟨u, d, r, rfl, hu, e⟩ | ⟨ht, e⟩
            · exact .inl ⟨[], u, d, r, rfl, by simp, hu, e⟩
            · exact .inr (.inl ⟨[], s, rfl, by simp, ht, e⟩)
          · rw [if_neg hc]
            rcases ih.2 with ⟨t, u, d, r, rfl, ht, hu, e⟩ | ⟨t, u, rfl, ht, hu, e⟩ | ⟨ht, e⟩
            · exact .inl ⟨c :: t, u, d, r, rfl, by simpa [hc] using ht, hu, e⟩
            · exact .inr (.inl ⟨c :: t, u, rfl, by simpa [hc] using ht, hu, e⟩)
            · exact .inr (.inr ⟨by simpa [hc] using ht, e⟩)
  exact fun s => (key s.length s (Nat.le_refl _)).1

/-! ### Names -/

theorem dotTail_stops {r : PStr} (h : Stops r) : dotTail r = [] := by
  induction r with
  | nil => rfl
  | cons c r ih =>
    rcases Stops.cases h with h | ⟨r', h, h'⟩ | ⟨c', r', h, h1, h2⟩
    · cases h
    · cases h; rw [dotTail, if_pos rfl, ih h']
    · cases h; rw [dotTail, if_neg h1, h2.pn]; rfl

theorem dotTail_colon (r : PStr) : dotTail (58 :: r) = [] := by
  rw [dotTail, if_neg (by decide), pnChar_58]; rfl

theorem _root_.Verif.Turtle.Spec.DotTail.tail {c : Nat} {t : PStr} (h : DotTail (c :: t)) : DotTail t := by
  refine ⟨fun x hx => h.1 x (by simp [hx]), ?_⟩
  cases t with
  | nil => simp
  | cons d t => simpa [List.getLast?_cons_cons] using h.2

theorem dotTail_append {t r : PStr} (h : DotTail t) (hr : dotTail r = []) : dotTail (t ++ r) = t := by
  induction t with
  | nil => exact hr
  | cons c t ih =>
    have ih := ih (DotTail.tail h)
    rw [List.cons_append, dotTail]
    by_cases hc : c = 46
    · rw [if_pos hc, ih]
      cases t with
      | nil => subst hc; exact absurd rfl h.2
      | cons d t => simp [hc]
    · rw [if_neg hc, if_pos (pnChar_iff.2 ((h.1 c (by simp)).resolve_right hc)), ih]

theorem dotTail_sound : ∀ (s : PStr), DotTail (dotTail s) ∧ ∃ r, s = dotTail s ++ r
  | [] => ⟨⟨by simp [dotTail], by simp [dotTail]⟩, [], rfl⟩
  | c :: s => by
    obtain ⟨h1, r, h2⟩ := dotTail_sound s
    rw [dotTail]
    by_cases hc : c = 46
    · rw [if_pos hc]
      cases hd : dotTail s with
      | nil => exact ⟨⟨by simp, by simp⟩, c :: s, rfl⟩
      | cons d t =>
        rw [hd] at h1 h2
        refine ⟨⟨?_, ?_⟩, r, by rw [hc, h2]; rfl⟩
        · intro x hx
          rcases List.mem_cons.1 hx with rfl | hx
          · exact .inr rfl
          · exact h1.1 x hx
        · rw [List.getLast?_cons_cons]; exact h1.2
    · rw [if_neg hc]
      by_cases hp : pnChar c = true
      · rw [if_pos hp]
        refine ⟨⟨?_, ?_⟩, r, by rw [List.cons_append, ← h2]⟩
        · intro x hx
          rcases List.mem_cons.1 hx with rfl | hx
          · exact .inl (pnChar_iff.1 hp)
          · exact h1.1 x hx
        · cases hd : dotTail s with
          | nil => simpa using hc
          | cons d t => rw [List.getLast?_cons_cons, ← hd]; exact h1.2
      · rw [if_neg hp]; exact ⟨⟨by simp, by simp⟩, c :: s, rfl⟩

theorem scanNs_append {p : PStr} (h : PnPrefix p) (r : PStr) : scanNs (p ++ 58 :: r) = some (p, r) := by
  rcases h with rfl | ⟨c, t, rfl, hc, ht⟩
  · rfl
  · have hb := pnBase_iff.2 hc
    have h58 : c ≠ 58 := by rintro rfl; revert hb; decide
    rw [List.cons_append, scanNs, if_neg h58, if_pos hb, dotTail_append ht (dotTail_colon r), List.drop_left]
    rfl

theorem scanNs_sound {s p r : PStr} (h : scanNs s = some (p, r)) : PnPrefix p ∧ s = p ++ 58 :: r := by
  cases s with
  | nil => cases h
  | cons c s =>
    rw [scanNs] at h
    split at h
    · next hc => cases h; exact ⟨.inl rfl, by rw [hc]; rfl⟩
    · split at h
      · next hc hb =>
        obtain ⟨h1, r', h2⟩ := dotTail_sound s
        split at h
        · next r'' e =>
          cases h
          refine ⟨.inr ⟨c, dotTail s, rfl, pnBase_iff.1 hb, h1⟩, ?_⟩
          have e2 := congrArg (List.drop (dotTail s).length) h2
          rw [List.drop_left] at e2
          rw [List.cons_append, ← e, e2, ← h2]
        · cases h
      · cases h

/-- A word that is not a prefixed name. -/
theorem scanNs_word {c : Nat} {t r : PStr} (hc : pnBase c = true) (ht : ∀ x ∈ t, pnChar x = true) (hr : Stops r) : scanNs (c :: (t ++ r)) = none := by
  have h58 : c ≠ 58 := by rintro rfl; revert hc; decide
  have hd : DotTail t := by
    refine ⟨fun x hx => .inl (pnChar_iff.1 (ht x hx)), fun h => ?_⟩
    have := ht 46 (List.mem_of_getLast? h)
    rw [pnChar_46] at this
    cases this
  rw [scanNs, if_neg h58, if_pos hc, dotTail_append hd (dotTail_stops hr), List.drop_left]
  rcases Stops.cases hr with rfl | ⟨r', rfl, h'⟩ | ⟨c', r', rfl, h1, h2⟩
  · rfl
  · rfl
  · split
    · next e => cases e; exact absurd rfl h2.colon
    · rfl

/-! ### Escapes -/

theorem ucharTail_sound {r : PStr} {n : Nat} (h : ucharTail r = n + 1) : ∃ p s, r = p ++ s ∧ p.length = n + 1 ∧ UChar (92 :: p) := by
  simp only [ucharTail] at h
  split at h
  · next t =>
    split at h
    · next hh =>
      refine ⟨117 :: t.take 4, t.drop 4, by simp, by simp [hh.1]; omega, .u4 hh.1 fun c hc => isHex_iff.1 (List.all_eq_true.1 hh.2 c hc)⟩
    · cases h
  · next t =>
    split at h
    · next hh =>
      refine ⟨85 :: t.take 8, t.drop 8, by simp, by simp [hh.1]; omega, .u8 hh.1 fun c hc => isHex_iff.1 (List.all_eq_true.1 hh.2 c hc)⟩
    · cases h
  · cases h

theorem ucharTail_append {p : PStr} (h : UChar (92 :: p)) (s : PStr) : ucharTail (p ++ s) = p.length := by
  generalize hw : 92 :: p = w at h
  cases h with
  | @u4 d hl hd =>
    cases hw
    have : (d ++ s).take 4 = d := by rw [← hl, List.take_left]
    rw [List.cons_append, ucharTail, this, if_pos ⟨hl, List.all_eq_true.2 fun c hc => isHex_iff.2 (hd c hc)⟩]
    simp [hl]
  | @u8 d hl hd =>
    cases hw
    have : (d ++ s).take 8 = d := by rw [← hl, List.take_left]
    rw [List.cons_append, ucharTail, this, if_pos ⟨hl, List.all_eq_true.2 fun c hc => isHex_iff.2 (hd c hc)⟩]
    simp [hl]

theorem escTail_sound {r : PStr} {n : Nat} (h : escTail r = n + 1) : ∃ p s, r = p ++ s ∧ p.length = n + 1 ∧ Escape (92 :: p) := by
  cases r with
  | nil => cases h
  | cons c r =>
    rw [escTail] at h
    split at h
    · next hc => cases h; exact ⟨[c], r, rfl, rfl, .inl ⟨c, hc, rfl⟩⟩
    · obtain ⟨p, s, h1, h2, h3⟩ := ucharTail_sound h
      exact ⟨p, s, h1, h2, .inr h3⟩

theorem escTail_append {p : PStr} (h : Escape (92 :: p)) (s : PStr) : escTail (p ++ s) = p.length := by
  rcases h with ⟨c, hc, e⟩ | h
  · cases e
    rw [List.cons_append, escTail, if_pos hc]; rfl
  · rw [← ucharTail_append h s]
    generalize hw : 92 :: p = w at h
    cases h <;> cases hw <;> rw [List.cons_append, escTail, if_neg (by decide)]

theorem _root_.Verif.Turtle.Spec.UChar.shape {p : PStr} (h : UChar p) : ∃ p', p = 92 :: p' ∧ p' ≠ [] := by
  cases h <;> exact ⟨_, rfl, by simp⟩

theorem _root_.Verif.Turtle.Spec.Escape.shape {p : PStr} (h : Escape p) : ∃ p', p = 92 :: p' ∧ p' ≠ [] := by
  rcases h with ⟨c, _, rfl⟩ | h
  · exact ⟨_, rfl, by simp⟩
  · exact h.shape

/-! ### IRIs -/

theorem scanIri_skip (p s : PStr) : scanIri p.length (p ++ s) = (scanIri 0 s).map fun x => (p ++ x.1, x.2) := by
  induction p with
  | nil => simp
  | cons c p ih => rw [List.length_cons, List.cons_append, scanIri, ih, Option.map_map]; rfl

theorem scanIri_body {b : PStr} (h : IriBody b) (r : PStr) : scanIri 0 (b ++ 62 :: r) = some (b, r) := by
  induction h with
  | nil => rfl
  | @char c s h1 h2 _ ih =>
    have h62 : c ≠ 62 := by rintro rfl; revert h2; decide
    have h92 : c ≠ 92 := by rintro rfl; revert h2; decide
    rw [List.cons_append, scanIri, if_neg h62, if_neg h92, if_pos (iriClass_iff.2 ⟨h1, h2⟩), ih]; rfl
  | @uchar p s hp _ ih =>
    obtain ⟨p', rfl, hp'⟩ := hp.shape
    cases p' with
    | nil => exact absurd rfl hp'
    | cons d p' =>
      have e := ucharTail_append hp (s ++ 62 :: r)
      have e2 := scanIri_skip (d :: p') (s ++ 62 :: r)
      rw [List.append_assoc, List.cons_append, scanIri, if_neg (by decide), if_pos rfl, e]
      rw [ih] at e2
      show ((scanIri (d :: p').length _).map _ : Option _) = _
      rw [e2]; rfl

theorem scanIri_sound : ∀ (n : Nat) (s b r : PStr), s.length ≤ n → scanIri 0 s = some (b, r) → IriBody b ∧ s = b ++ 62 :: r
  | _, [], _, _, _, h => by cases h
  | 0, _ :: _, _, _, hl, _ => by simp at hl
  | n + 1, c :: s, b, r, hl, h => by
    have hl : s.length ≤ n := by simpa using hl
    rw [scanIri] at h
    split at h
    · next hc => cases h; exact ⟨.nil, by rw [hc]; rfl⟩
    · split at h
      · next hc =>
        split at h
        · cases h
        · next m hm =>
          obtain ⟨p, s', rfl, h2, h3⟩ := ucharTail_sound hm
          rw [← h2, scanIri_skip] at h
          cases h4 : scanIri 0 s' with
          | none => rw [h4] at h; cases h
          | some x =>
            rw [h4] at h
            cases h
            obtain ⟨h5, h6⟩ := scanIri_sound n s' x.1 x.2 (by simp at hl; omega) h4
            refine ⟨?_, by simp [hc]; exact h6⟩
            show IriBody (c :: (p ++ x.1))
            rw [hc]
            exact .uchar h3 h5
      · next hc =>
        split at h
        · next hi =>
          cases h4 : scanIri 0 s with
          | none => rw [h4] at h; cases h
          | some x =>
            rw [h4] at h
            cases h
            obtain ⟨h5, h6⟩ := scanIri_sound n s x.1 x.2 hl h4
            have := iriClass_iff.1 hi
            exact ⟨.char this.1 this.2 h5, by simp; exact h6⟩
        · cases h

/-! ### Strings -/

theorem scanStr_skip (q : Nat) (p s : PStr) : scanStr q p.length (p ++ s) = (scanStr q 0 s).map fun x => (p ++ x.1, x.2) := by
  induction p with
  | nil => simp
  | cons c p ih => rw [List.length_cons, List.cons_append, scanStr, ih, Option.map_map]; rfl

theorem scanStr_body {q : Nat} {b : PStr} (hq : q ≠ 92) (h : StrBody q b) (r : PStr) : scanStr q 0 (b ++ q :: r) = some (b, r) := by
  induction h with
  | nil => rw [List.nil_append, scanStr, if_pos rfl]
  | @char c s h1 h2 h3 h4 _ ih =>
    rw [List.cons_append, scanStr, if_neg h1, if_neg h2, if_neg (by simp [isEol, h3, h4]), ih]; rfl
  | @esc p s hp _ ih =>
    obtain ⟨p', rfl, hp'⟩ := hp.shape
    cases p' with
    | nil => exact absurd rfl hp'
    | cons d p' =>
      have e := escTail_append hp (s ++ q :: r)
      have e2 := scanStr_skip q (d :: p') (s ++ q :: r)
      rw [List.append_assoc, List.cons_append, scanStr, if_neg (fun h => hq h.symm), if_pos rfl, e]
      rw [ih] at e2
      show ((scanStr q (d :: p').length _).map _ : Option _) = _
      rw [e2]; rfl

theorem scanStr_sound (q : Nat) : ∀ (n : Nat) (s b r : PStr), s.length ≤ n → scanStr q 0 s = some (b, r) → StrBody q b ∧ s = b ++ q :: r
  | _, [], _, _, _, h => by cases h
  | 0, _ :: _, _, _, hl, _ => by simp at hl
  | n + 1, c :: s, b, r, hl, h => by
    have hl : s.length ≤ n := by simpa using hl
    rw [scanStr] at h
    split at h
    · next hc => cases h; exact ⟨.nil, by rw [hc]; rfl⟩
    · next hcq =>
      split at h
      · next hc =>
        split at h
        · cases h
        · next m hm =>
          obtain ⟨p, s', rfl, h2, h3⟩ := escTail_sound hm
          rw [← h2, scanStr_skip] at h
          cases h4 : scanStr q 0 s' with
          | none => rw [h4] at h; cases h
          | some x =>
            rw [h4] at h
            cases h
            obtain ⟨h5, h6⟩ := scanStr_sound q n s' x.1 x.2 (by simp at hl; omega) h4
            refine ⟨?_, by simp [hc]; exact h6⟩
            show StrBody q (c :: (p ++ x.1))
            rw [hc]
            exact .esc h3 h5
      · next hc =>
        split at h
        · cases h
        · next hi =>
          cases h4 : scanStr q 0 s with
          | none => rw [h4] at h; cases h
          | some x =>
            rw [h4] at h
            cases h
            obtain ⟨h5, h6⟩ := scanStr_sound q n s x.1 x.2 hl h4
            have : c ≠ 10 ∧ c ≠ 13 := by simpa [isEol] using hi
            exact ⟨.char hcq hc this.1 this.2 h5, by simp; exact h6⟩

theorem scanLong_skip (q : Nat) (p s : PStr) : scanLong q p.length (p ++ s) = (scanLong q 0 s).map fun x => (p ++ x.1, x.2) := by
  induction p with
  | nil => simp
  | cons c p ih => rw [List.length_cons, List.cons_append, scanLong, ih, Option.map_map]; rfl

/-- Up to two quotes before something else. -/
theorem scanLong_quotes {q c : Nat} {k : Nat} {s : PStr} (hk : k ≤ 2) (hc : c ≠ q) :
    scanLong q 0 (List.replicate k q ++ c :: s) = (scanLong q 0 (c :: s)).map fun x => (List.replicate k q ++ x.1, x.2) := by
  have h1 : ∀ t x, t ≠ q → [q, q].isPrefixOf (t :: x) = false := by intro t x h; simp [List.isPrefixOf, Ne.symm h]
  have h2 : ∀ t x, t ≠ q → [q, q].isPrefixOf (q :: t :: x) = false := by intro t x h; simp [List.isPrefixOf, Ne.symm h]
  match k, hk with
  | 0, _ => simp
  | 1, _ =>
    show scanLong q 0 (q :: c :: s) = _
    rw [scanLong.eq_3, if_pos rfl, if_neg (by rw [h1 c s hc]; decide)]; rfl
  | 2, _ =>
    show scanLong q 0 (q :: q :: c :: s) = _
    rw [scanLong.eq_3, if_pos rfl, if_neg (by rw [h2 c s hc]; decide), scanLong.eq_3, if_pos rfl, if_neg (by rw [h1 c s hc]; decide), Option.map_map]; rfl

theorem scanLong_body {q : Nat} {b : PStr} (hq : q ≠ 92) (h : LongBody q b) (r : PStr) : scanLong q 0 (b ++ q :: q :: q :: r) = some (b, r) := by
  induction h with
  | nil => rw [List.nil_append, scanLong, if_pos rfl, if_pos (by simp)]; rfl
  | @char k c s hk h1 h2 _ ih =>
    rw [List.append_assoc, List.cons_append, scanLong_quotes hk h1, scanLong.eq_3, if_neg h1, if_neg h2, ih]; rfl
  | @esc k p s hk hp _ ih =>
    obtain ⟨p', rfl, hp'⟩ := hp.shape
    cases p' with
    | nil => exact absurd rfl hp'
    | cons d p' =>
      have e := escTail_append hp (s ++ q :: q :: q :: r)
      have e2 := scanLong_skip q (d :: p') (s ++ q :: q :: q :: r)
      rw [ih] at e2
      rw [List.append_assoc, List.append_assoc, List.cons_append, scanLong_quotes hk hq.symm, scanLong.eq_3, if_neg hq.symm, if_pos rfl, e]
      show (Option.map _ (Option.map _ (scanLong q (d :: p').length _)) : Option _) = _
      rw [e2]; rfl

theorem scanLong_sound (q : Nat) : ∀ (n : Nat) (s b r : PStr), s.length ≤ n → scanLong q 0 s = some (b, r) → LongBody q b ∧ s = b ++ q :: q :: q :: r
  | _, [], _, _, _, h => by cases h
  | 0, _ :: _, _, _, hl, _ => by simp at hl
  | n + 1, c :: s, b, r, hl, h => by
    have hl : s.length ≤ n := by simpa using hl
    rw [scanLong.eq_3] at h
    split at h
    · next hc =>
      subst hc
      split at h
      · next hp =>
        cases h
        obtain ⟨t, rfl⟩ := List.isPrefixOf_iff_prefix.1 hp
        exact ⟨.nil, rfl⟩
      · next hp =>
        cases h4 : scanLong c 0 s with
        | none => rw [h4] at h; cases h
        | some x =>
          rw [h4] at h
          cases h
          obtain ⟨h5, h6⟩ := scanLong_sound c n s x.1 x.2 hl h4
          refine ⟨?_, by simp; exact h6⟩
          have hnot : ∀ t, s ≠ c :: c :: t := by
            rintro t rfl
            exact hp (by simp)
          show LongBody c (c :: x.1)
          generalize x.1 = y at h5 h6
          cases h5 with
          | nil => exact absurd h6 (hnot _)
          | @char k d t hk h1 h2 h3 =>
            match k, hk with
            | 0, _ => exact .char (k := 1) (by omega) h1 h2 h3
            | 1, _ => exact .char (k := 2) (by omega) h1 h2 h3
            | 2, _ => exact absurd h6 (hnot _)
          | @esc k p t hk h1 h3 =>
            match k, hk with
            | 0, _ => exact .esc (k := 1) (by omega) h1 h3
            | 1, _ => exact .esc (k := 2) (by omega) h1 h3
            | 2, _ => exact absurd h6 (hnot _)
    · next hcq =>
      split at h
      · next hc =>
        split at h
        · cases h
        · next m hm =>
          obtain ⟨p, s', rfl, h2, h3⟩ := escTail_sound hm
          rw [← h2, scanLong_skip] at h
          cases h4 : scanLong q 0 s' with
          | none => rw [h4] at h; cases h
          | some x =>
            rw [h4] at h
            cases h
            obtain ⟨h5, h6⟩ := scanLong_sound q n s' x.1 x.2 (by simp at hl; omega) h4
            refine ⟨?_, by simp [hc]; exact h6⟩
            show LongBody q (c :: (p ++ x.1))
            rw [hc]
            exact .esc (k := 0) (by omega) h3 h5
      · next hc =>
        cases h4 : scanLong q 0 s with
        | none => rw [h4] at h; cases h
        | some x =>
          rw [h4] at h
          cases h
          obtain ⟨h5, h6⟩ := scanLong_sound q n s x.1 x.2 hl h4
          exact ⟨.char (k := 0) (by omega) hcq hc h5, by simp; exact h6⟩

theorem scanQuoted_sound {q : Nat} {s b r : PStr} (h : scanQuoted q s = some (b, r)) :
    (StrBody q b ∧ s = b ++ q :: r) ∨ (LongBody q b ∧ s = q :: q :: (b ++ q :: q :: q :: r)) := by
  rw [scanQuoted] at h
  split at h
  · next x hx =>
    cases h
    split at hx
    · next hp =>
      obtain ⟨t, rfl⟩ := List.isPrefixOf_iff_prefix.1 hp
      obtain ⟨h1, h2⟩ := scanLong_sound q _ _ b r (Nat.le_refl _) hx
      refine .inr ⟨h1, ?_⟩
      rw [← h2]; rfl
    · cases hx
  · exact .inl (scanStr_sound q _ _ b r (Nat.le_refl _) h)

theorem scanQuoted_long {q : Nat} {b : PStr} (hq : q ≠ 92) (h : LongBody q b) (r : PStr) : scanQuoted q (q :: q :: (b ++ q :: q :: q :: r)) = some (b, r) := by
  rw [scanQuoted, if_pos (by simp)]
  show (match scanLong q 0 (b ++ q :: q :: q :: r) with | some x => some x | none => _) = _
  rw [scanLong_body hq h]

theorem scanQuoted_short {q : Nat} {b : PStr} (hq : q ≠ 92) (h : StrBody q b) (r : PStr) (hr : r.head? ≠ some q) : scanQuoted q (b ++ q :: r) = some (b, r) := by
  have : [q, q].isPrefixOf (b ++ q :: r) = false := by
    cases h with
    | nil => cases r with
      | nil => simp
      | cons d r => simp at hr; simp [List.isPrefixOf, Ne.symm hr]
    | char h1 _ _ _ _ => simp [List.isPrefixOf, Ne.symm h1]
    | esc hp _ =>
      obtain ⟨p', rfl, _⟩ := hp.shape
      simp [List.isPrefixOf, hq]
  rw [scanQuoted, this]
  exact scanStr_body hq h r

/-! ### Local names -/

theorem plx_append {p : PStr} (h : Plx p) (s : PStr) : plxLen (p ++ s) = p.length := by
  cases h with
  | percent h1 h2 => simp [plxLen, isHex_iff.2 h1, isHex_iff.2 h2]
  | @esc c h1 =>
    have : localEsc.contains c = true := by simpa [localEsc] using h1
    simp only [List.cons_append, List.nil_append, plxLen, this, if_pos]; rfl

theorem plx_sound {s : PStr} {n : Nat} (h : plxLen s = n + 1) : ∃ p r, s = p ++ r ∧ p.length = n + 1 ∧ Plx p := by
  simp only [plxLen] at h
  split at h
  · next a b t =>
    split at h
    · next hh =>
      cases h
      simp only [Bool.and_eq_true] at hh
      exact ⟨[37, a, b], t, rfl, rfl, .percent (isHex_iff.1 hh.1) (isHex_iff.1 hh.2)⟩
    · cases h
  · next c t =>
    split at h
    · next hh =>
      cases h
      exact ⟨[92, c], t, rfl, rfl, .esc (by simpa [localEsc] using hh)⟩
    · cases h
  · cases h

theorem _root_.Verif.Turtle.Spec.Plx.shape {p : PStr} (h : Plx p) : ∃ c p', p = c :: p' ∧ (c = 37 ∨ c = 92) := by
  cases h
  · exact ⟨_, _, rfl, .inl rfl⟩
  · exact ⟨_, _, rfl, .inr rfl⟩

theorem localTail_skip (p s : PStr) : localTail p.length (p ++ s) = p ++ localTail 0 s := by
  induction p with
  | nil => rfl
  | cons c p ih => rw [List.length_cons, List.cons_append, localTail, ih]; rfl

theorem localTail_plx {p : PStr} (h : Plx p) (s : PStr) : localTail 0 (p ++ s) = p ++ localTail 0 s := by
  have e := plx_append h s
  obtain ⟨c, p', rfl, hc⟩ := h.shape
  have h46 : c ≠ 46 := by rintro rfl; revert hc; decide
  have hp : (pnChar c || c == 58) = false := by rcases hc with rfl | rfl <;> decide
  rw [List.cons_append] at e ⊢
  rw [localTail, if_neg h46, hp, e]
  show c :: localTail p'.length _ = _
  rw [localTail_skip]; rfl

theorem localTail_stops {r : PStr} (h : Stops r) : localTail 0 r = [] := by
  induction r with
  | nil => rfl
  | cons c r ih =>
    rcases Stops.cases h with h | ⟨r', h, h'⟩ | ⟨c', r', h, h1, h2⟩
    · cases h
    · cases h; rw [localTail, if_pos rfl, ih h']
    · cases h
      have : plxLen (c :: r) = 0 := by
        simp only [plxLen]
        split
        · next e => cases e; exact absurd rfl h2.percent
        · next e => cases e; exact absurd rfl h2.back
        · rfl
      rw [localTail, if_neg h1, h2.pn, this]
      simp [h2.colon]

theorem LocalItem.ne_nil {p : PStr} (h : LocalItem p) : p ≠ [] := by
  rcases h with ⟨c, rfl, _⟩ | h
  · simp
  · obtain ⟨c, p', rfl, _⟩ := h.shape; simp

theorem localTail_append {w r : PStr} (h : LocalTail w) (hr : Stops r) : localTail 0 (w ++ r) = w := by
  obtain ⟨ps, rfl, h1, h2⟩ := h
  induction ps with
  | nil => exact localTail_stops hr
  | cons p ps ih =>
    have ih := ih (fun x hx => h1 x (by simp [hx])) (by
      cases ps with
      | nil => simp
      | cons d t => simpa [List.getLast?_cons_cons] using h2)
    rw [List.flatten_cons, List.append_assoc]
    rcases h1 p (by simp) with ⟨c, rfl, hc⟩ | hp
    · rw [List.singleton_append, localTail]
      by_cases h46 : c = 46
      · rw [if_pos h46, ih]
        cases ps with
        | nil => subst h46; exact absurd rfl h2
        | cons d t =>
          have := LocalItem.ne_nil (h1 d (by simp))
          cases hd : (d :: t).flatten with
          | nil => simp only [List.flatten_cons, List.append_eq_nil_iff] at hd; exact absurd hd.1 this
          | cons x y => simp [h46]
      · rw [if_neg h46, if_pos (by
          rcases hc with hc | hc | hc
          · simp [pnChar_iff.2 hc]
          · exact absurd hc h46
          · simp [hc]), ih]
        rfl
    · rw [localTail_plx hp, ih]

theorem localTail_sound : ∀ (n : Nat) (s : PStr), s.length ≤ n → LocalTail (localTail 0 s) ∧ ∃ r, s = localTail 0 s ++ r
  | _, [], _ => ⟨⟨[], rfl, by simp, by simp⟩, [], rfl⟩
  | 0, _ :: _, hl => by simp at hl
  | n + 1, c :: s, hl => by
    have hl : s.length ≤ n := by simpa using hl
    have ih := localTail_sound n s hl
    obtain ⟨⟨ps, h1, h2, h3⟩, r, h4⟩ := ih
    rw [localTail]
    by_cases h46 : c = 46
    · rw [if_pos h46]
      cases hd : localTail 0 s with
      | nil => exact ⟨⟨[], rfl, by simp, by simp⟩, c :: s, rfl⟩
      | cons d t =>
        rw [hd] at h1 h4
        refine ⟨⟨[46] :: ps, by simp [← h1], ?_, ?_⟩, r, by rw [h46, h4]; rfl⟩
        · intro x hx
          rcases List.mem_cons.1 hx with rfl | hx
          · exact .inl ⟨46, rfl, .inr (.inl rfl)⟩
          · exact h2 x hx
        · cases ps with
          | nil => cases h1
          | cons a b => rw [List.getLast?_cons_cons]; exact h3
    · rw [if_neg h46]
      by_cases hp : (pnChar c || c == 58) = true
      · rw [if_pos hp]
        refine ⟨⟨[c] :: ps, by simp [← h1], ?_, ?_⟩, r, by rw [List.cons_append, ← h4]⟩
        · intro x hx
          rcases List.mem_cons.1 hx with rfl | hx
          · simp only [Bool.or_eq_true, beq_iff_eq] at hp
            rcases hp with hp | hp
            · exact .inl ⟨c, rfl, .inl (pnChar_iff.1 hp)⟩
            · exact .inl ⟨c, rfl, .inr (.inr hp)⟩
          · exact h2 x hx
        · cases ps with
          | nil => simpa using h46
          | cons a b => rw [List.getLast?_cons_cons]; exact h3
      · rw [if_neg hp]
        split
        · exact ⟨⟨[], rfl, by simp, by simp⟩, c :: s, rfl⟩
        · next m hm =>
          obtain ⟨p, s', h5, h6, h7⟩ := plx_sound hm
          obtain ⟨c', p', rfl, hc⟩ := h7.shape
          cases h5
          have e : m = p'.length := by simpa using h6.symm
          subst e
          show LocalTail (c :: localTail p'.length (p' ++ s')) ∧ ∃ r, c :: (p' ++ s') = c :: localTail p'.length (p' ++ s') ++ r
          rw [localTail_skip]
          obtain ⟨⟨qs, g1, g2, g3⟩, r', g4⟩ := localTail_sound n s' (by simp at hl; omega)
          refine ⟨⟨(c :: p') :: qs, by simp [← g1], ?_, ?_⟩, r', ?_⟩
          · intro x hx
            rcases List.mem_cons.1 hx with rfl | hx
            · exact .inr h7
            · exact g2 x hx
          · cases qs with
            | nil => simp [h46]
            | cons a b => rw [List.getLast?_cons_cons]; exact g3
          · simp; exact g4

theorem scanLocal_append {w r : PStr} (h : PnLocal w) (hr : Stops r) : scanLocal (w ++ r) = w := by
  rcases h with rfl | ⟨hd, t, rfl, hh, ht⟩
  · rcases Stops.cases hr with rfl | ⟨r', rfl, h'⟩ | ⟨c, r', rfl, h1, h2⟩
    · rfl
    · rfl
    · have hpl : plxLen (c :: r') = 0 := by
        simp only [plxLen]
        split
        · next e => cases e; exact absurd rfl h2.percent
        · next e => cases e; exact absurd rfl h2.back
        · rfl
      have hpn := h2.pn
      simp only [pnChar, Bool.or_eq_false_iff] at hpn
      rw [List.nil_append, scanLocal, hpl]
      simp [hpn, h2.colon]
  · rw [List.append_assoc]
    rcases hh with ⟨c, rfl, hc⟩ | hp
    · rw [List.singleton_append, scanLocal, if_pos (by
        rcases hc with hc | hc | hc
        · simp [pnU_iff.2 hc]
        · simp [hc]
        · simp [isDigit_iff.2 hc]), localTail_append ht hr]; rfl
    · have e := plx_append hp (t ++ r)
      obtain ⟨c, p', rfl, hc⟩ := hp.shape
      have hn : (pnU c || c == 58 || isDigit c) = false := by rcases hc with rfl | rfl <;> decide
      rw [List.cons_append] at e ⊢
      rw [scanLocal, hn, e]
      show c :: localTail p'.length _ = _
      rw [localTail_skip, localTail_append ht hr]; rfl

theorem scanLocal_sound (s : PStr) : PnLocal (scanLocal s) ∧ ∃ r, s = scanLocal s ++ r := by
  cases s with
  | nil => exact ⟨.inl rfl, [], rfl⟩
  | cons c s =>
    rw [scanLocal]
    split
    · next hc =>
      obtain ⟨h1, r, h2⟩ := localTail_sound _ s (Nat.le_refl _)
      refine ⟨.inr ⟨[c], localTail 0 s, rfl, .inl ⟨c, rfl, ?_⟩, h1⟩, r, by rw [List.cons_append, ← h2]⟩
      simpa [pnU_iff, isDigit_iff, or_assoc] using hc
    · split
      · exact ⟨.inl rfl, c :: s, rfl⟩
      · next m hm =>
        obtain ⟨p, s', h5, h6, h7⟩ := plx_sound hm
        obtain ⟨c', p', rfl, hc⟩ := h7.shape
        cases h5
        have e : m = p'.length := by simpa using h6.symm
        subst e
        show PnLocal (c :: localTail p'.length (p' ++ s')) ∧ ∃ r, c :: (p' ++ s') = c :: localTail p'.length (p' ++ s') ++ r
        rw [localTail_skip]
        obtain ⟨h1, r, h2⟩ := localTail_sound _ s' (Nat.le_refl _)
        exact ⟨.inr ⟨c :: p', localTail 0 s', rfl, .inr h7, h1⟩, r, by simp; exact h2⟩

theorem scanPname_append {ns loc r : PStr} (h : PnPrefix ns) (h' : PnLocal loc) (hr : Stops r) :
    scanPname (ns ++ 58 :: (loc ++ r)) = some (ns, loc, r) := by
  rw [scanPname, scanNs_append h]
  show some (ns, scanLocal (loc ++ r), _) = _
  rw [scanLocal_append h' hr, List.drop_left]

theorem scanPname_sound {s ns loc r : PStr} (h : scanPname s = some (ns, loc, r)) : PnPrefix ns ∧ PnLocal loc ∧ s = ns ++ 58 :: (loc ++ r) := by
  rw [scanPname] at h
  split at h
  · cases h
  · next ns' r' e =>
    cases h
    obtain ⟨h1, rfl⟩ := scanNs_sound e
    obtain ⟨h2, r'', h3⟩ := scanLocal_sound r'
    refine ⟨h1, h2, ?_⟩
    have e2 := congrArg (List.drop (scanLocal r').length) h3
    rw [List.drop_left] at e2
    rw [e2, ← h3]

/-! ### Language tags -/

theorem langTail_cons (sub : Bool) (c : Nat) (r : PStr) : langTail sub (c :: r) =
    if (if sub then isAlnum c else isLetter c) then c :: langTail sub r
    else
      match c, r with
      | 45, d :: r' => if isAlnum d then 45 :: d :: langTail true r' else []
      | _, _ => [] := by
  rw [langTail.eq_def]
  rfl

theorem langTail_sub {p s r : PStr} (hp : ∀ c ∈ p, isAlpha c ∨ isDigitChar c) (h : langTail true (s ++ r) = s) : langTail true (p ++ (s ++ r)) = p ++ s := by
  induction p with
  | nil => exact h
  | cons c p ih =>
    rw [List.cons_append, langTail_cons, if_pos (by simp [isAlnum_iff.2 (hp c (by simp))]), ih fun x hx => hp x (by simp [hx])]; rfl

theorem alnum_pn {c : Nat} (h : isAlnum c = true) : pnChar c = true := by
  rcases isAlnum_iff.1 h with h | h
  · exact pnChar_iff.2 (.inl (.inl (.inl h)))
  · exact pnChar_iff.2 (.inr (.inr (.inl h)))

theorem langTail_stops {r : PStr} (hr : Stops r) (b : Bool) : langTail b r = [] := by
  rcases Stops.cases hr with rfl | ⟨r', rfl, h'⟩ | ⟨c, r', rfl, h1, h2⟩
  · cases b <;> rfl
  · cases b <;> rfl
  · have ha : isAlnum c = false := by
      cases h : isAlnum c with
      | false => rfl
      | true => have := alnum_pn h; rw [h2.pn] at this; cases this
    have hl : isLetter c = false := by simp only [isAlnum, Bool.or_eq_false_iff] at ha; exact ha.1
    have h45 : c ≠ 45 := by rintro rfl; have := h2.pn; revert this; decide
    have : (if b = true then isAlnum c else isLetter c) = false := by cases b <;> simp [ha, hl]
    rw [langTail_cons, if_neg (by rw [this]; decide)]
    split
    · exact absurd rfl h45
    · rfl

theorem langTail_parts {s r : PStr} (h : LangParts s) (hr : Stops r) (b : Bool) : langTail b (s ++ r) = s := by
  induction h generalizing b with
  | nil => exact langTail_stops hr b
  | @part p s hne hp _ ih =>
    cases p with
    | nil => exact absurd rfl hne
    | cons d p =>
      have hd := isAlnum_iff.2 (hp d (by simp))
      rw [List.cons_append, langTail_cons, if_neg (by cases b <;> decide), List.append_assoc, List.cons_append]
      show (if isAlnum d = true then 45 :: d :: langTail true (p ++ (s ++ r)) else []) = _
      rw [if_pos hd, langTail_sub (fun x hx => hp x (by simp [hx])) (ih true)]; rfl

theorem langTail_letters {p s r : PStr} (hp : ∀ c ∈ p, isAlpha c) (h : LangParts s) (hr : Stops r) : langTail false (p ++ (s ++ r)) = p ++ s := by
  induction p with
  | nil => exact langTail_parts h hr false
  | cons c p ih =>
    rw [List.cons_append, langTail_cons, if_pos (by simp [isLetter_iff.2 (hp c (by simp))]), ih fun x hx => hp x (by simp [hx])]; rfl

theorem langTail_sound : ∀ (n : Nat) (b : Bool) (s : PStr), s.length ≤ n →
    (∃ p t, langTail b s = p ++ t ∧ (∀ c ∈ p, if b then isAlpha c ∨ isDigitChar c else isAlpha c) ∧ LangParts t) ∧ ∃ r, s = langTail b s ++ r
  | _, b, [], _ => by
    have : langTail b [] = [] := by cases b <;> rfl
    rw [this]
    exact ⟨⟨[], [], rfl, by simp, .nil⟩, [], rfl⟩
  | 0, _, _ :: _, hl => by simp at hl
  | n + 1, b, c :: s, hl => by
    have hl : s.length ≤ n := by simpa using hl
    rw [langTail_cons]
    by_cases hc : (if b then isAlnum c else isLetter c) = true
    · rw [if_pos hc]
      obtain ⟨⟨p, t, h1, h2, h3⟩, r, h4⟩ := langTail_sound n b s hl
      refine ⟨⟨c :: p, t, by rw [h1]; rfl, ?_, h3⟩, r, by rw [List.cons_append, ← h4]⟩
      intro x hx
      rcases List.mem_cons.1 hx with rfl | hx
      · cases b
        · simpa using isLetter_iff.1 (by simpa using hc)
        · simpa using isAlnum_iff.1 (by simpa using hc)
      · exact h2 x hx
    · rw [if_neg hc]
      split
      · next d r' hl2 =>
        split
        · next hd =>
          obtain ⟨⟨p, t, h1, h2, h3⟩, r, h4⟩ := langTail_sound n true r' (by simp at hl2; omega)
          refine ⟨⟨[], _, rfl, by simp, ?_⟩, r, ?_⟩
          · rw [h1]
            refine .part (p := d :: p) (by simp) ?_ h3
            intro x hx
            rcases List.mem_cons.1 hx with rfl | hx
            · exact isAlnum_iff.1 hd
            · simpa using h2 x hx
          · simp; exact h4
        · exact ⟨⟨[], [], rfl, by simp, .nil⟩, _, rfl⟩
      · exact ⟨⟨[], [], rfl, by simp, .nil⟩, _, rfl⟩

end Verif.Turtle
