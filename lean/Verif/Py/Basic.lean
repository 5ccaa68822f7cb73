/-
The fragment of Python the modelled code runs on.

Nothing here models /repo itself; it models the CPython built-ins that /repo calls.
-/
namespace Verif

/-- A Python `str`: a sequence of code points. Lone surrogates (0xD800-0xDFFF) are representable, as in Python.
    Simplification: the type does not enforce `< 0x110000`; theorems that need it assume `PStr.Valid`. -/
abbrev PStr := List Nat

/-- `py! "abc"` is the Python string literal `"abc"` as a list of code points. -/
macro "py!" s:str : term => do
  let elems := s.getString.toList.toArray.map fun c => Lean.Syntax.mkNumLit (toString c.toNat)
  `(([$elems,*] : List Nat))

/-- Every element is a Unicode code point. -/
def PStr.Valid (s : PStr) : Prop := ∀ c ∈ s, c < 0x110000

/-- Python exceptions that the modelled code can raise. -/
inductive Exc
  | keyError | valueError | typeError | attributeError | runtimeError | indexError
  | unicodeEncodeError | unicodeDecodeError | overflowError | stopIteration | notImplementedError
  | unexpectedInput        -- lark: UnexpectedCharacters / UnexpectedToken / UnexpectedEOF
  | visitError             -- lark: VisitError wrapping an exception of a transformer callback
  | sparqlQueryException | unknownSPARQLReturnType
  | plainException         -- `raise Exception(...)`
  | unboundLocalError
  | outOfFuel              -- not a Python exception: a fuel-bounded loop of the model ran out (never, see the theorems)
  deriving DecidableEq, Repr

instance {ε α} [DecidableEq ε] [DecidableEq α] : DecidableEq (Except ε α)
  | .ok a, .ok b => if h : a = b then .isTrue (by rw [h]) else .isFalse (by intro h'; cases h'; exact h rfl)
  | .error a, .error b => if h : a = b then .isTrue (by rw [h]) else .isFalse (by intro h'; cases h'; exact h rfl)
  | .ok _, .error _ => .isFalse (by intro h; cases h)
  | .error _, .ok _ => .isFalse (by intro h; cases h)

/-! ### `str` methods -/

/-- `s.startswith(p)` -/
def pyStartsWith (s p : PStr) : Bool := p.isPrefixOf s

/-- `s.endswith(p)` -/
def pyEndsWith (s p : PStr) : Bool := p.isSuffixOf s

/-- `s.partition(chr(c))` for a one-character separator: (before, separator-or-empty, after). -/
def pyPartition (c : Nat) : PStr → PStr × PStr × PStr
  | [] => ([], [], [])
  | x :: xs =>
    if x = c then ([], [c], xs)
    else
      let r := pyPartition c xs
      (x :: r.1, r.2.1, r.2.2)

/-- Worker of `pyReplace` for a non-empty `old`: `skip` counts characters of an already replaced occurrence. -/
def pyReplaceAux (old new : PStr) : Nat → PStr → PStr
  | _, [] => []
  | skip + 1, _ :: cs => pyReplaceAux old new skip cs
  | 0, c :: cs =>
    if old.isPrefixOf (c :: cs) then new ++ pyReplaceAux old new (old.length - 1) cs
    else c :: pyReplaceAux old new 0 cs

/-- `s.replace(old, new)`: leftmost non-overlapping occurrences; an empty `old` matches before every
    character and at the end. -/
def pyReplace (s old new : PStr) : PStr :=
  if old = [] then new ++ s.flatMap (fun c => c :: new)
  else pyReplaceAux old new 0 s

/-! ### Hexadecimal formatting and parsing -/

/-- One upper-case hexadecimal digit. -/
def hexUpper (d : Nat) : Nat := if d < 10 then 48 + d else 55 + d

/-- One lower-case hexadecimal digit. -/
def hexLower (d : Nat) : Nat := if d < 10 then 48 + d else 87 + d

/-- Value of a hexadecimal digit in either case; `none` for other characters. -/
def hexVal? (c : Nat) : Option Nat :=
  if 48 ≤ c ∧ c ≤ 57 then some (c - 48)
  else if 65 ≤ c ∧ c ≤ 70 then some (c - 55)
  else if 97 ≤ c ∧ c ≤ 102 then some (c - 87)
  else none

/-- `[0-9a-fA-F]` -/
def isHex (c : Nat) : Bool := (hexVal? c).isSome

/-- `"%02X" % n` for `n < 256`. -/
def fmt02X (n : Nat) : PStr := [hexUpper (n / 16 % 16), hexUpper (n % 16)]

/-- `"%04X" % n` for `n < 0x10000`. -/
def fmt04X (n : Nat) : PStr :=
  [hexUpper (n / 4096 % 16), hexUpper (n / 256 % 16), hexUpper (n / 16 % 16), hexUpper (n % 16)]

/-- `"%08X" % n` for `n < 2^32`. -/
def fmt08X (n : Nat) : PStr :=
  [hexUpper (n / 268435456 % 16), hexUpper (n / 16777216 % 16), hexUpper (n / 1048576 % 16),
   hexUpper (n / 65536 % 16), hexUpper (n / 4096 % 16), hexUpper (n / 256 % 16),
   hexUpper (n / 16 % 16), hexUpper (n % 16)]

/-- `int(s, 16)` on a string of hexadecimal digits (other characters count as 0; the callers only pass digits). -/
def parseHex (s : PStr) : Nat := s.foldl (fun acc c => acc * 16 + (hexVal? c).getD 0) 0

/-- `hex(n)[2:]`: lower-case hexadecimal digits without leading zeros, `"0"` for 0. -/
def hexDigits (n : Nat) : PStr :=
  if n < 16 then [hexLower n] else hexDigits (n / 16) ++ [hexLower (n % 16)]

/-- `str(n)` of a natural number. -/
def decDigits (n : Nat) : PStr :=
  if n < 10 then [48 + n] else decDigits (n / 10) ++ [48 + n % 10]

end Verif
