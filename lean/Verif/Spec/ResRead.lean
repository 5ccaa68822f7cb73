import Verif.Spec.Resource
/-
What reading a key may give, in terms of the set of objects it is about.
-/
namespace Verif.Spec

/-- The outcome of reading one value when the objects in question are those with `P`: None if there is none, the literal or the node (as an
    instance of some class, or TypeError if its classes cannot be combined) if there is one, ValueError if there are several. -/
structure ReadsOne (P : Term → Prop) (res : Except Exc Val) : Prop where
  none : (∀ x, ¬ P x) → res = .ok .none
  lit : ∀ v l d, P (.lit v l d) → (∀ y, P y → y = .lit v l d) → res = .ok (.lit v l d)
  node : ∀ x, IsResource x → P x → (∀ y, P y → y = x) → res = .error .typeError ∨ ∃ k, res = .ok (.res k x)
  many : ∀ x y, P x → P y → x ≠ y → res = .error .valueError

/-- Those of the objects `S` that are of the first kind of which there is one. -/
def FirstOf (S : Term → Prop) : List (Term → Prop) → Term → Prop
  | [], _ => False
  | P :: Ps, x => (S x ∧ P x) ∨ ((¬ ∃ y, S y ∧ P y) ∧ FirstOf S Ps x)

/-- What a scalar predicate prefers in a class with language `l`: literals in that language, then nodes, then typed literals, then plain
    literals. -/
def preference (l : PStr) : List (Term → Prop) := [InLanguage l, IsResource, HasDatatype, Untagged]

end Verif.Spec
