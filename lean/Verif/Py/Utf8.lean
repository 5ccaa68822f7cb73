import Verif.Py.Basic
/-
UTF-8 as CPython's strict codec does it: `str.encode("utf-8")`, `bytes.decode("utf-8")`.
-/
namespace Verif

/-- `0xD800 <= c <= 0xDFFF` -/
def isSurrogate (c : Nat) : Bool := decide (0xD800 ≤ c ∧ c ≤ 0xDFFF)

/-- The UTF-8 bytes of one code point; `none` for a surrogate (UnicodeEncodeError) and beyond U+10FFFF (not a Python character). -/
def utf8Char (c : Nat) : Option (List Nat) :=
  if c < 0x80 then some [c]
  else if c < 0x800 then some [0xC0 + c / 64, 0x80 + c % 64]
  else if c < 0x10000 then
    if isSurrogate c then none else some [0xE0 + c / 4096, 0x80 + c / 64 % 64, 0x80 + c % 64]
  else if c < 0x110000 then
    some [0xF0 + c / 262144, 0x80 + c / 4096 % 64, 0x80 + c / 64 % 64, 0x80 + c % 64]
  else none

/-- `s.encode("utf-8")` -/
def utf8Encode : PStr → Option (List Nat)
  | [] => some []
  | c :: cs =>
    match utf8Char c, utf8Encode cs with
    | some b, some bs => some (b ++ bs)
    | _, _ => none

/-- A continuation byte. -/
def isCont (b : Nat) : Bool := decide (0x80 ≤ b ∧ b ≤ 0xBF)

/-- The first code point of a byte sequence and the number of bytes it takes; `none` if the sequence does not start with a well-formed
    UTF-8 character (overlong forms, surrogates and values above U+10FFFF are ill-formed). -/
def utf8Step : List Nat → Option (Nat × Nat)
  | [] => none
  | b0 :: rest =>
    if b0 < 0x80 then some (b0, 1)
    else if 0xC2 ≤ b0 ∧ b0 ≤ 0xDF then
      match rest with
      | b1 :: _ => if isCont b1 then some ((b0 - 0xC0) * 64 + (b1 - 0x80), 2) else none
      | _ => none
    else if 0xE0 ≤ b0 ∧ b0 ≤ 0xEF then
      match rest with
      | b1 :: b2 :: _ =>
        let c := (b0 - 0xE0) * 4096 + (b1 - 0x80) * 64 + (b2 - 0x80)
        if isCont b1 && isCont b2 && decide (0x800 ≤ c) && !isSurrogate c then some (c, 3) else none
      | _ => none
    else if 0xF0 ≤ b0 ∧ b0 ≤ 0xF4 then
      match rest with
      | b1 :: b2 :: b3 :: _ =>
        let c := (b0 - 0xF0) * 262144 + (b1 - 0x80) * 4096 + (b2 - 0x80) * 64 + (b3 - 0x80)
        if isCont b1 && isCont b2 && isCont b3 && decide (0x10000 ≤ c) && decide (c < 0x110000) then some (c, 4) else none
      | _ => none
    else none

/-- Worker of `utf8Decode`; the first argument counts bytes of an already decoded character. -/
def utf8DecodeAux : Nat → List Nat → Option PStr
  | _, [] => some []
  | k + 1, _ :: bs => utf8DecodeAux k bs
  | 0, b :: bs =>
    match utf8Step (b :: bs) with
    | none => none
    | some (c, n) => (utf8DecodeAux (n - 1) bs).map (c :: ·)

/-- `bs.decode("utf-8")`; `none` is UnicodeDecodeError. -/
def utf8Decode (bs : List Nat) : Option PStr := utf8DecodeAux 0 bs

theorem utf8DecodeAux_skip (l rest : List Nat) : utf8DecodeAux l.length (l ++ rest) = utf8DecodeAux 0 rest := by
  induction l with
  | nil => rfl
  | cons a l ih => simpa [utf8DecodeAux] using ih

theorem utf8Step_char {c : Nat} {b : List Nat} (h : utf8Char c = some b) (rest : List Nat) :
    utf8Step (b ++ rest) = some (c, b.length) ∧ b ≠ [] := by
  unfold utf8Char at h
  split at h
  · next h1 => cases h; simp [utf8Step, h1]
  · split at h
    · next h1 h2 =>
      cases h
      refine ⟨?_, by simp⟩
      have a : ¬ (0xC0 + c / 64 < 0x80) := by omega
      have a2 : 0xC2 ≤ 0xC0 + c / 64 ∧ 0xC0 + c / 64 ≤ 0xDF := by omega
      have a3 : isCont (0x80 + c % 64) = true := by simp [isCont]; omega
      have a4 : (0xC0 + c / 64 - 0xC0) * 64 + (0x80 + c % 64 - 0x80) = c := by omega
      simp only [List.cons_append, List.nil_append, utf8Step, if_neg a, if_pos a2, a3, a4]
      rfl
    · split at h
      · next h1 h2 h3 =>
        split at h
        · cases h
        · next h4 =>
          cases h
          refine ⟨?_, by simp⟩
          have a : ¬ (0xE0 + c / 4096 < 0x80) := by omega
          have a2 : ¬ (0xC2 ≤ 0xE0 + c / 4096 ∧ 0xE0 + c / 4096 ≤ 0xDF) := by omega
          have a3 : 0xE0 ≤ 0xE0 + c / 4096 ∧ 0xE0 + c / 4096 ≤ 0xEF := by omega
          have a4 : isCont (0x80 + c / 64 % 64) = true := by simp [isCont]; omega
          have a5 : isCont (0x80 + c % 64) = true := by simp [isCont]; omega
          have a6 : (0xE0 + c / 4096 - 0xE0) * 4096 + (0x80 + c / 64 % 64 - 0x80) * 64 + (0x80 + c % 64 - 0x80) = c := by omega
          have a7 : decide (0x800 ≤ c) = true := by simp; omega
          simp only [List.cons_append, List.nil_append, utf8Step, if_neg a, if_neg a2, if_pos a3, a4, a5, a6, a7, h4]
          rfl
      · split at h
        · next h1 h2 h3 h4 =>
          cases h
          refine ⟨?_, by simp⟩
          have a : ¬ (0xF0 + c / 262144 < 0x80) := by omega
          have a2 : ¬ (0xC2 ≤ 0xF0 + c / 262144 ∧ 0xF0 + c / 262144 ≤ 0xDF) := by omega
          have a3 : ¬ (0xE0 ≤ 0xF0 + c / 262144 ∧ 0xF0 + c / 262144 ≤ 0xEF) := by omega
          have a3' : 0xF0 ≤ 0xF0 + c / 262144 ∧ 0xF0 + c / 262144 ≤ 0xF4 := by omega
          have a4 : isCont (0x80 + c / 4096 % 64) = true := by simp [isCont]; omega
          have a5 : isCont (0x80 + c / 64 % 64) = true := by simp [isCont]; omega
          have a5' : isCont (0x80 + c % 64) = true := by simp [isCont]; omega
          have a6 : (0xF0 + c / 262144 - 0xF0) * 262144 + (0x80 + c / 4096 % 64 - 0x80) * 4096 + (0x80 + c / 64 % 64 - 0x80) * 64 + (0x80 + c % 64 - 0x80) = c := by omega
          have a7 : decide (0x10000 ≤ c) = true := by simp; omega
          have a8 : decide (c < 0x110000) = true := by simp; omega
          simp only [List.cons_append, List.nil_append, utf8Step, if_neg a, if_neg a2, if_neg a3, if_pos a3', a4, a5, a5', a6, a7, a8]
          rfl
        · cases h

/-- Decoding starts with the character whose bytes come first. -/
theorem utf8Decode_char_append {c : Nat} {b : List Nat} (h : utf8Char c = some b) (rest : List Nat) :
    utf8Decode (b ++ rest) = (utf8Decode rest).map (c :: ·) := by
  obtain ⟨h1, h2⟩ := utf8Step_char h rest
  cases b with
  | nil => exact absurd rfl h2
  | cons b0 bs =>
    unfold utf8Decode
    rw [List.cons_append, utf8DecodeAux, ← List.cons_append, h1]
    simp only [List.length_cons, Nat.add_sub_cancel]
    rw [utf8DecodeAux_skip]

/-- Decoding inverts encoding, also in front of more bytes. -/
theorem utf8Decode_encode_append {s : PStr} {b : List Nat} (h : utf8Encode s = some b) (rest : List Nat) :
    utf8Decode (b ++ rest) = (utf8Decode rest).map (s ++ ·) := by
  induction s generalizing b with
  | nil => simp only [utf8Encode, Option.some.injEq] at h; subst h; simp
  | cons c cs ih =>
    rw [utf8Encode] at h
    cases hc : utf8Char c with
    | none => rw [hc] at h; cases h
    | some b1 =>
      cases hs : utf8Encode cs with
      | none => rw [hc, hs] at h; cases h
      | some b2 =>
        rw [hc, hs] at h
        simp only [Option.some.injEq] at h
        subst h
        rw [List.append_assoc, utf8Decode_char_append hc, ih hs, Option.map_map]
        rfl

theorem utf8Decode_encode {s : PStr} {b : List Nat} (h : utf8Encode s = some b) : utf8Decode b = some s := by
  have := utf8Decode_encode_append h []
  simpa [utf8Decode, utf8DecodeAux] using this

theorem utf8Char_bytes {c : Nat} {b : List Nat} (h : utf8Char c = some b) : ∀ x ∈ b, x < 256 := by
  unfold utf8Char at h
  split at h
  · cases h; simp; omega
  · split at h
    · cases h; simp; omega
    · split at h
      · split at h
        · cases h
        · cases h; simp; omega
      · split at h
        · cases h; simp; omega
        · cases h

/-- Non-ASCII characters have only non-ASCII bytes. -/
theorem utf8Char_high {c : Nat} {b : List Nat} (h : utf8Char c = some b) (hc : 128 ≤ c) : ∀ x ∈ b, 128 ≤ x := by
  unfold utf8Char at h
  split at h
  · omega
  · split at h
    · cases h; simp; omega
    · split at h
      · split at h
        · cases h
        · cases h; simp; omega
      · split at h
        · cases h; simp; omega
        · cases h

theorem utf8Char_isSome {c : Nat} (h : c < 0x110000) (hs : isSurrogate c = false) : ∃ b, utf8Char c = some b := by
  unfold utf8Char
  by_cases h1 : c < 0x80
  · exact ⟨_, if_pos h1⟩
  · by_cases h2 : c < 0x800
    · exact ⟨_, by rw [if_neg h1, if_pos h2]⟩
    · by_cases h3 : c < 0x10000
      · exact ⟨_, by rw [if_neg h1, if_neg h2, if_pos h3, hs, if_neg (by simp)]⟩
      · exact ⟨_, by rw [if_neg h1, if_neg h2, if_neg h3, if_pos h]⟩

theorem utf8Char_surrogate {c : Nat} (hs : isSurrogate c = true) : utf8Char c = none := by
  have : 0xD800 ≤ c ∧ c ≤ 0xDFFF := by simpa [isSurrogate] using hs
  unfold utf8Char
  rw [if_neg (by omega), if_neg (by omega), if_pos (by omega), if_pos hs]

end Verif
