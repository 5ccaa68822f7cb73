import Verif.Py.Basic
/-
src/pymantic/util.py: one_or_none, grouper.
-/
namespace Verif

/-- `one_or_none(values)`, util.py:23-30 -/
def oneOrNone {α} : List α → Except Exc (Option α)
  | [] => .ok none
  | [x] => .ok (some x)
  | _ => .error .valueError

/-- A Python set built from an iterable: duplicates are dropped, the first occurrence is kept. -/
def pySet {α} [DecidableEq α] : List α → List α
  | [] => []
  | x :: xs => x :: (pySet xs).filter (· ≠ x)

end Verif
