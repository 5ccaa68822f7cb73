import Verif.Py.Basic
/-
src/pymantic/util.py:104-111, grouper, and itertools.zip_longest.
-/
namespace Verif

/-- One round of `zip_longest` over several references to one iterator over `xs`: `active` says which references have not been found
    exhausted yet. Result: the tuple, the new flags and what is left of the iterator. -/
def zipRound {α} (fill : α) : List Bool → List α → List α × List Bool × List α
  | [], xs => ([], [], xs)
  | false :: fs, xs =>
    let r := zipRound fill fs xs
    (fill :: r.1, false :: r.2.1, r.2.2)
  | true :: fs, [] =>
    let r := zipRound fill fs []
    (fill :: r.1, false :: r.2.1, r.2.2)
  | true :: fs, x :: xs =>
    let r := zipRound fill fs xs
    (x :: r.1, true :: r.2.1, r.2.2)

/-- `zip_longest`: the tuples until no reference is active (CPython stops as soon as the last one is found exhausted). Every round that
    yields takes at least one item, so `xs.length` bounds the number of rounds. -/
def zipLongest {α} (fill : α) : Nat → List Bool → List α → List (List α)
  | 0, _, _ => []
  | n + 1, fs, xs =>
    let r := zipRound fill fs xs
    if r.2.1.any id then r.1 :: zipLongest fill n r.2.1 r.2.2 else []

/-- `list(grouper(iterable, n, fillvalue))`, util.py:104-111 -/
def grouper {α} (xs : List α) (n : Nat) (fill : α) : List (List α) := zipLongest fill (xs.length + 1) (List.replicate n true) xs

end Verif
