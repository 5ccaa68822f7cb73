import Verif.Py.Basic
/-
Specification of the text between the quotes of an N-Triples string, from the W3C grammar:

    STRING_LITERAL_QUOTE ::= '"' ([^#x22#x5C#xA#xD] | ECHAR | UCHAR)* '"'
    ECHAR ::= '\' [tbnrf"'\]      UCHAR ::= '\u' HEX HEX HEX HEX | '\U' HEX HEX HEX HEX HEX HEX HEX HEX
-/
namespace Verif

/-- A body of STRING_LITERAL_QUOTE. -/
inductive NTBody : PStr → Prop
  | nil : NTBody []
  | plain {c s} : c ≠ 0x22 → c ≠ 0x5C → c ≠ 0x0A → c ≠ 0x0D → NTBody s → NTBody (c :: s)
  | echar {c s} : c ∈ py! "tbnrf\"'\\" → NTBody s → NTBody (92 :: c :: s)
  | uchar4 {h s} : h.length = 4 → (∀ c ∈ h, isHex c = true) → NTBody s → NTBody (92 :: 117 :: (h ++ s))
  | uchar8 {h s} : h.length = 8 → (∀ c ∈ h, isHex c = true) → NTBody s → NTBody (92 :: 85 :: (h ++ s))

/-- The text before the first quote that no backslash escapes, and the text after that quote. -/
def splitAtQuote : PStr → Option (PStr × PStr)
  | [] => none
  | 34 :: cs => some ([], cs)
  | 92 :: c :: cs => (splitAtQuote cs).map fun r => (92 :: c :: r.1, r.2)
  | c :: cs => (splitAtQuote cs).map fun r => (c :: r.1, r.2)

/-- The characters an N-Triples writer of this library keeps. -/
def ntKept (c : Nat) : Bool := decide (0x20 ≤ c ∨ c = 0x09 ∨ c = 0x0A ∨ c = 0x0D)

end Verif
