import Verif.Model.Iri
import Verif.Model.Term
/-
`repr()` of terms and statements: src/pymantic/primitives.py:138-139, 184-185, 265-266, 310-311, 346-347, and of the strings in them (CPython `unicode_repr`).
-/
namespace Verif

/-- The last `n` hexadecimal digits of `c`, in lower case. -/
def hexFixed : Nat → Nat → PStr
  | 0, _ => []
  | n + 1, c => hexFixed n (c / 16) ++ [hexLower (c % 16)]

/-- One character in `repr(s)`, CPython `unicode_repr`. Which characters beyond ASCII are printable is the parameter `printable` (`str.isprintable`). -/
def reprChar (printable : Nat → Bool) (q c : Nat) : PStr :=
  if c = q ∨ c = 92 then [92, c]
  else if c = 9 then [92, 116]
  else if c = 10 then [92, 110]
  else if c = 13 then [92, 114]
  else if (32 ≤ c ∧ c < 127) ∨ (127 < c ∧ printable c = true) then [c]
  else if c < 0x100 then [92, 120] ++ hexFixed 2 c
  else if c < 0x10000 then [92, 117] ++ hexFixed 4 c
  else [92, 85] ++ hexFixed 8 c

/-- The quotes `repr(s)` uses: double ones only if there are single ones in `s` and no double ones. -/
def reprQuote (s : PStr) : Nat := if 39 ∈ s ∧ 34 ∉ s then 34 else 39

/-- `repr(s)` of a `str`. -/
def strRepr (printable : Nat → Bool) (s : PStr) : PStr :=
  [reprQuote s] ++ s.flatMap (reprChar printable (reprQuote s)) ++ [reprQuote s]

/-- `repr` of an optional `str`. -/
def optRepr (printable : Nat → Bool) : Option PStr → PStr
  | none => py! "None"
  | some s => strRepr printable s

/-- `NamedNode.__repr__`, primitives.py:310-311 -/
def namedRepr (i : PStr) : Except Exc PStr := (iriToNT i).map fun t => py! "NamedNode(" ++ t ++ py! ")"

/-- `repr(term)`: `Literal.__repr__` (primitives.py:265-266), `NamedNode.__repr__` (310-311), `BlankNode.__repr__` (346-347), `None`.
    IRIs are NamedNodes (not `str` or Prefix). The repr of a generator has an address in it, which is left out. -/
def Term.repr (printable : Nat → Bool) : Term → Except Exc PStr
  | .none => .ok (py! "None")
  | .named i => namedRepr i
  | .bnode _ => .ok (py! "BlankNode()")
  | .lit v l d =>
    match d with
    | Option.none => .ok (py! "Literal(value=" ++ strRepr printable v ++ py! ", language=" ++ optRepr printable l ++ py! ", datatype=None)")
    | some d => (namedRepr d).map fun d => py! "Literal(value=" ++ strRepr printable v ++ py! ", language=" ++ optRepr printable l ++ py! ", datatype=" ++ d ++ py! ")"
  | .gen _ => .ok (py! "<generator object")

/-- `Triple.__repr__`, primitives.py:138-139, and `Quad.__repr__`, 184-185; the fields are formatted from left to right. -/
def Stmt.repr (printable : Nat → Bool) (t : Stmt) : Except Exc PStr := do
  let s ← t.s.repr printable
  let p ← t.p.repr printable
  let o ← t.o.repr printable
  match t.g with
  | none => .ok (py! "Triple(subject=" ++ s ++ py! ", predicate=" ++ p ++ py! ", object=" ++ o ++ py! ")")
  | some g =>
    let g ← g.repr printable
    .ok (py! "Quad(subject=" ++ s ++ py! ", predicate=" ++ p ++ py! ", object=" ++ o ++ py! ", graph=" ++ g ++ py! ")")

#guard strRepr (fun _ => true) (py! "it's") = py! "\"it's\""
#guard strRepr (fun _ => true) (py! "a'\"\n\\é") = py! "'a\\'\"\\n\\\\é'"
#guard strRepr (fun _ => false) [0, 0xE9, 0x2028, 0x1F600, 0x7F] = py! "'\\x00\\xe9\\u2028\\U0001f600\\x7f'"

end Verif
