import Verif.Py.Utf8
/-
Specification-side notions for IRIs and percent-encoding, from RFC 3986/3987 and the N-Triples grammar; independent of the model.
-/
namespace Verif

/-- Characters of a URI (RFC 3986): unreserved, reserved and `%`. -/
def uriChar (c : Nat) : Prop :=
  (65 ≤ c ∧ c ≤ 90) ∨ (97 ≤ c ∧ c ≤ 122) ∨ (48 ≤ c ∧ c ≤ 57) ∨ c ∈ py! "-._~" ∨ c ∈ py! ":/?#[]@" ∨ c ∈ py! "!$&'()*+,;=" ∨ c = 37

/-- Characters an N-Triples IRIREF may contain without escaping: `[^#x00-#x20<>"{}|^`\]`. -/
def iriRefChar (c : Nat) : Prop := 0x20 < c ∧ c ∉ py! "<>\"{}|^`\\"

/-- A Unicode scalar value: a character that UTF-8 can encode. -/
def scalarValue (c : Nat) : Prop := c < 0x110000 ∧ ¬ (0xD800 ≤ c ∧ c ≤ 0xDFFF)

/-- Every percent sign is followed by two hexadecimal digits. -/
inductive PctWF : PStr → Prop
  | nil : PctWF []
  | ch {c s} : c ≠ 37 → PctWF s → PctWF (c :: s)
  | esc {a b s} : isHex a = true → isHex b = true → PctWF s → PctWF (37 :: a :: b :: s)

/-- Plain percent-decoding to bytes (RFC 3986): `%XY` is the byte XY, any other character must be ASCII. -/
def unpctBytes : PStr → Option (List Nat)
  | [] => some []
  | 37 :: a :: b :: s =>
    match hexVal? a, hexVal? b, unpctBytes s with
    | some x, some y, some r => some ((16 * x + y) :: r)
    | _, _, _ => none
  | c :: s => if c = 37 ∨ 128 ≤ c then none else (unpctBytes s).map (c :: ·)

/-- Percent-decoding of a URI to the text it encodes. -/
def unpct (s : PStr) : Option PStr := (unpctBytes s).bind utf8Decode

end Verif
