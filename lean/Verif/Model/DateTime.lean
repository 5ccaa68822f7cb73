import Verif.Py.Basic
/-
`datetime.datetime` values, as far as `Literal` looks at them (primitives.py:242-246: `v.isoformat()`), and what CPython's `isoformat` does with them.
-/
namespace Verif

/-- A `datetime.datetime`. `offset` is what `utcoffset()` gives, in microseconds: None for a naive value. Simplification: a `tzinfo` of the caller whose
    `utcoffset` raises is not modelled; `fold` has no influence on the text. -/
structure DateTime where
  year : Nat
  month : Nat
  day : Nat
  hour : Nat
  minute : Nat
  second : Nat
  micro : Nat
  offset : Option Int
  deriving DecidableEq

/-- `"%0kd" % n`, for numbers of at most `k` digits. -/
def pad : Nat → Nat → PStr
  | 0, _ => []
  | k + 1, n => pad k (n / 10) ++ [48 + n % 10]

/-- The offset at the end of `isoformat()` (`_format_offset` of CPython's datetime module): sign, hours, minutes, and seconds and microseconds if there are any. -/
def isoOffset : Option Int → PStr
  | none => []
  | some off =>
    let a := off.natAbs
    let us := a % 60000000
    (if off < 0 then [45] else [43]) ++ pad 2 (a / 3600000000) ++ [58] ++ pad 2 (a / 60000000 % 60) ++
      if us = 0 then []
      else [58] ++ pad 2 (us / 1000000) ++ if us % 1000000 = 0 then [] else [46] ++ pad 6 (us % 1000000)

/-- `datetime.isoformat()` -/
def DateTime.isoformat (d : DateTime) : PStr :=
  pad 4 d.year ++ [45] ++ pad 2 d.month ++ [45] ++ pad 2 d.day ++ [84] ++ pad 2 d.hour ++ [58] ++ pad 2 d.minute ++ [58] ++ pad 2 d.second ++
    (if d.micro = 0 then [] else [46] ++ pad 6 d.micro) ++ isoOffset d.offset

end Verif
