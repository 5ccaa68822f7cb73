import Verif.Model.Escape
import Verif.Spec.NTString
import Verif.Lemmas.Hex
namespace Verif

theorem decodeAux_skip (l rest : PStr) : decodeAux l.length (l ++ rest) = decodeAux 0 rest := by
  induction l with
  | nil => rfl
  | cons a l ih => simpa [decodeAux] using ih

/-- The cases of `nt_escape` for one character. -/
inductive EscCase (c : Nat) : PStr → Prop
  | two (x : Nat) : x ≠ 117 → x ≠ 85 → escapeMap x = c → x ∈ py! "tbnrf\"'\\" → (0x20 ≤ c ∨ c = 9 ∨ c = 10 ∨ c = 13) → EscCase c [92, x]
  | plain : 0x20 ≤ c → c ≤ 0x7E → c ≠ 0x22 → c ≠ 0x5C → EscCase c [c]
  | u4 : 0x7F ≤ c → c ≤ 0xFFFF → EscCase c ([92, 117] ++ fmt04X c)
  | u8 : 0x10000 ≤ c → c < 0x110000 → EscCase c ([92, 85] ++ fmt08X c)
  | drop : c < 0x20 → c ≠ 9 → c ≠ 10 → c ≠ 13 → EscCase c []
  | invalid : 0x110000 ≤ c → EscCase c []

theorem ntEscapeChar_cases (c : Nat) : EscCase c (ntEscapeChar c) := by
  unfold ntEscapeChar
  split
  · next h => subst h; exact .two _ (by decide) (by decide) (by decide) (by decide) (by decide)
  split
  · next h => subst h; exact .two _ (by decide) (by decide) (by decide) (by decide) (by decide)
  split
  · next h => subst h; exact .two _ (by decide) (by decide) (by decide) (by decide) (by decide)
  split
  · next h => subst h; exact .two _ (by decide) (by decide) (by decide) (by decide) (by decide)
  split
  · next h => subst h; exact .two _ (by decide) (by decide) (by decide) (by decide) (by decide)
  split
  · exact .plain (by omega) (by omega) (by omega) (by omega)
  split
  · exact .u4 (by omega) (by omega)
  split
  · exact .u8 (by omega) (by omega)
  · by_cases h : c < 0x20
    · exact .drop h (by omega) (by omega) (by omega)
    · exact .invalid (by omega)

theorem pyChr_ok {n : Nat} (h : n < 0x110000) : pyChr n = .ok n := by simp [pyChr, h]

theorem decodeLiteral_plain {c : Nat} (h : c ≠ 92) (rest : PStr) : decodeLiteral (c :: rest) = (decodeLiteral rest).map (c :: ·) := by
  unfold decodeLiteral
  rw [decodeAux]
  have : escAt (c :: rest) = none := by
    unfold escAt
    split
    · next h' => simp at h'; omega
    · rfl
  rw [this]

theorem decodeLiteral_esc {l rest : PStr} {v : Nat} (hl : l ≠ []) (h : escAt (l ++ rest) = some (.ok v, l.length)) :
    decodeLiteral (l ++ rest) = (decodeLiteral rest).map (v :: ·) := by
  cases l with
  | nil => exact absurd rfl hl
  | cons a l =>
    unfold decodeLiteral
    rw [List.cons_append, decodeAux, ← List.cons_append, h]
    simp only [List.length_cons, Nat.add_sub_cancel]
    rw [decodeAux_skip]

theorem decodeLiteral_escapeChar {c : Nat} (hc : c < 0x110000) (rest : PStr) :
    decodeLiteral (ntEscapeChar c ++ rest) = (decodeLiteral rest).map ([c].filter ntKept ++ ·) := by
  have H := ntEscapeChar_cases c
  generalize ntEscapeChar c = e at *
  cases H with
  | two x h1 h2 h3 _ h4 =>
    have hk : ntKept c = true := by simpa [ntKept] using h4
    rw [decodeLiteral_esc (v := c) (by simp)]
    · simp [hk]
    · simp [escAt, h1, h2, h3]
  | plain h1 h2 h3 h4 =>
    have hk : ntKept c = true := by simp [ntKept]; omega
    rw [List.cons_append, List.nil_append, decodeLiteral_plain h4]; simp [hk]
  | u4 h1 h2 =>
    have hk : ntKept c = true := by simp [ntKept]; omega
    rw [decodeLiteral_esc (v := c) (by simp)]
    · simp [hk]
    · have e : (fmt04X c ++ rest).take 4 = fmt04X c := by simp [fmt04X]
      show escAt (92 :: 117 :: (fmt04X c ++ rest)) = _
      simp only [escAt, e, all_isHex_fmt04X, parseHex_fmt04X (show c < 65536 by omega), pyChr_ok hc]
      simp [fmt04X]
  | u8 h1 h2 =>
    have hk : ntKept c = true := by simp [ntKept]; omega
    rw [decodeLiteral_esc (v := c) (by simp)]
    · simp [hk]
    · have e : (fmt08X c ++ rest).take 8 = fmt08X c := by simp [fmt08X]
      show escAt (92 :: 85 :: (fmt08X c ++ rest)) = _
      simp only [escAt, e, all_isHex_fmt08X, parseHex_fmt08X (show c < 4294967296 by omega), pyChr_ok hc]
      simp [fmt08X]
  | drop h1 h2 h3 h4 =>
    have hk : ntKept c = false := by simp [ntKept]; omega
    simp [hk]
    cases decodeLiteral rest <;> rfl
  | invalid h => omega

theorem decodeLiteral_ntEscape_append (s rest : PStr) (hs : s.Valid) :
    decodeLiteral (ntEscape s ++ rest) = (decodeLiteral rest).map (s.filter ntKept ++ ·) := by
  induction s with
  | nil => simp [ntEscape]; cases decodeLiteral rest <;> rfl
  | cons c cs ih =>
    have e : ntEscape (c :: cs) ++ rest = ntEscapeChar c ++ (ntEscape cs ++ rest) := by simp [ntEscape]
    rw [e, decodeLiteral_escapeChar (hs c (by simp)), ih (fun x hx => hs x (by simp [hx]))]
    rw [show (c :: cs).filter ntKept = [c].filter ntKept ++ cs.filter ntKept by rw [← List.filter_append]; rfl]
    cases decodeLiteral rest <;> simp [Except.map]

theorem ntEscapeChar_ascii (c : Nat) : ∀ x ∈ ntEscapeChar c, 0x20 ≤ x ∧ x ≤ 0x7E := by
  have H := ntEscapeChar_cases c
  generalize ntEscapeChar c = e at *
  have hu : ∀ n : Nat, 0x20 ≤ hexUpper (n % 16) ∧ hexUpper (n % 16) ≤ 0x7E := by
    intro n; have := hexUpper_range (Nat.mod_lt n (show 16 > 0 by omega)); omega
  cases H with
  | two x h1 h2 h3 h4 h5 => revert h4; simp; omega
  | plain h1 h2 h3 h4 => simp; omega
  | u4 h1 h2 => simp [fmt04X, hu]
  | u8 h1 h2 => simp [fmt08X, hu]
  | drop h1 h2 h3 h4 => simp
  | invalid h => simp

theorem ntBody_escapeChar (c : Nat) {s : PStr} (hs : NTBody s) : NTBody (ntEscapeChar c ++ s) := by
  have H := ntEscapeChar_cases c
  generalize ntEscapeChar c = e at *
  cases H with
  | two x h1 h2 h3 h4 h5 => exact .echar h4 hs
  | plain h1 h2 h3 h4 => exact .plain h3 h4 (by omega) (by omega) hs
  | u4 h1 h2 => exact .uchar4 rfl (by simpa using all_isHex_fmt04X c) hs
  | u8 h1 h2 => exact .uchar8 rfl (by simpa using all_isHex_fmt08X c) hs
  | drop h1 h2 h3 h4 => exact hs
  | invalid h => exact hs

theorem splitAtQuote_plain {c : Nat} (h1 : c ≠ 34) (h2 : c ≠ 92) (cs : PStr) :
    splitAtQuote (c :: cs) = (splitAtQuote cs).map fun r => (c :: r.1, r.2) := by
  rw [splitAtQuote] <;> simp_all

theorem splitAtQuote_hex (h : PStr) (hh : ∀ c ∈ h, isHex c = true) (cs : PStr) :
    splitAtQuote (h ++ cs) = (splitAtQuote cs).map fun r => (h ++ r.1, r.2) := by
  induction h with
  | nil => rw [List.nil_append]; cases splitAtQuote cs <;> rfl
  | cons a h ih =>
    have ha := hh a (by simp)
    have h1 : a ≠ 34 := by intro e; subst e; revert ha; decide
    have h2 : a ≠ 92 := by intro e; subst e; revert ha; decide
    rw [List.cons_append, splitAtQuote_plain h1 h2, ih (fun c hc => hh c (by simp [hc]))]
    cases splitAtQuote cs <;> simp

/-- The quote written after a body is the first unescaped one. -/
theorem NTBody.split {b : PStr} (h : NTBody b) (rest : PStr) : splitAtQuote (b ++ 34 :: rest) = some (b, rest) := by
  induction h with
  | nil => rw [List.nil_append, splitAtQuote]
  | plain h1 h2 _ _ _ ih => rw [List.cons_append, splitAtQuote_plain h1 h2, ih]; rfl
  | @echar c s hc _ ih => rw [List.cons_append, List.cons_append, splitAtQuote, ih]; rfl
  | @uchar4 h s _ hh _ ih =>
    rw [List.cons_append, List.cons_append, splitAtQuote, List.append_assoc, splitAtQuote_hex h hh, ih]; rfl
  | @uchar8 h s _ hh _ ih =>
    rw [List.cons_append, List.cons_append, splitAtQuote, List.append_assoc, splitAtQuote_hex h hh, ih]; rfl

theorem ntBody_ntEscape (s : PStr) : NTBody (ntEscape s) := by
  induction s with
  | nil => exact .nil
  | cons c cs ih => show NTBody (ntEscapeChar c ++ ntEscape cs); exact ntBody_escapeChar c ih

theorem ntEscape_filter_eq {s t : PStr} (hs : s.Valid) (ht : t.Valid) :
    ntEscape s = ntEscape t ↔ s.filter ntKept = t.filter ntKept := by
  constructor
  · intro h
    have h1 := decodeLiteral_ntEscape_append s [] hs
    have h2 := decodeLiteral_ntEscape_append t [] ht
    rw [h] at h1
    have := h1.symm.trans h2
    simpa [decodeLiteral, decodeAux, Except.map] using this
  · have : ∀ s : PStr, s.Valid → ntEscape s = ntEscape (s.filter ntKept) := by
      intro s hs
      induction s with
      | nil => rfl
      | cons c cs ih =>
        have ih := ih (fun x hx => hs x (by simp [hx]))
        by_cases hk : ntKept c = true
        · rw [List.filter_cons_of_pos hk]; simp only [ntEscape, List.flatMap_cons] at *; rw [ih]
        · rw [List.filter_cons_of_neg hk, ← ih]
          have H := ntEscapeChar_cases c
          have hk : ¬ (0x20 ≤ c ∨ c = 0x09 ∨ c = 0x0A ∨ c = 0x0D) := by simpa [ntKept] using hk
          have : ntEscapeChar c = [] := by
            generalize ntEscapeChar c = e at *
            cases H with
            | two x h1 h2 h3 h4 h5 => exact absurd h5 hk
            | plain => omega
            | u4 => omega
            | u8 => omega
            | drop => rfl
            | invalid => rfl
          simp [ntEscape, this]
    intro h
    rw [this s hs, this t ht, h]

end Verif
