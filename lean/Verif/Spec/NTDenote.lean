import Verif.Py.Basic
/-
Specification of the value of a quoted string, from section 2.4/3 of the N-Triples recommendation (the table of escapes is the one of
RDF 1.1 Turtle, section 6.4).
-/
namespace Verif.Spec

/-- The table of string escapes. -/
def stringEscapes : List (Nat × Nat) :=
  [(0x74, 0x09), (0x62, 0x08), (0x6E, 0x0A), (0x72, 0x0D), (0x66, 0x0C), (0x22, 0x22), (0x27, 0x27), (0x5C, 0x5C)]

/-- `[0-9] | [A-F] | [a-f]` with its value. -/
inductive HexDigit : Nat → Nat → Prop
  | dec (i : Nat) : i < 10 → HexDigit (0x30 + i) i
  | upper (i : Nat) : i < 6 → HexDigit (0x41 + i) (10 + i)
  | lower (i : Nat) : i < 6 → HexDigit (0x61 + i) (10 + i)

/-- `HexNumber n h v`: `h` is a sequence of `n` hexadecimal digits, with value `v`. -/
inductive HexNumber : Nat → PStr → Nat → Prop
  | nil : HexNumber 0 [] 0
  | cons {n c d h v} : HexDigit c d → HexNumber n h v → HexNumber (n + 1) (c :: h) (d * 16 ^ n + v)

/-- `Denotes s v`: the characters `s` between the quotes denote the string `v`. -/
inductive Denotes : PStr → PStr → Prop
  | nil : Denotes [] []
  | plain {c s v} : c ≠ 0x5C → Denotes s v → Denotes (c :: s) (c :: v)
  | echar {x c s v} : (x, c) ∈ stringEscapes → Denotes s v → Denotes (0x5C :: x :: s) (c :: v)
  | uchar4 {h c s v} : HexNumber 4 h c → Denotes s v → Denotes (0x5C :: 0x75 :: (h ++ s)) (c :: v)
  | uchar8 {h c s v} : HexNumber 8 h c → c < 0x110000 → Denotes s v → Denotes (0x5C :: 0x55 :: (h ++ s)) (c :: v)

end Verif.Spec
