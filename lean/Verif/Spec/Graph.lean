import Verif.Model.Term
import Mathlib.Data.Finset.Card
/-
Specification of a graph: a finite set of triples. It does not mention the Graph model.
-/
namespace Verif.Spec

/-- An RDF triple. -/
structure Tri where
  s : Term
  p : Term
  o : Term
  deriving DecidableEq, Repr

/-- The Python object `Triple(s, p, o)`. -/
def Tri.stmt (t : Tri) : Stmt := mkTriple t.s t.p t.o

/-- Operations of a history. -/
inductive GOp
  | add (t : Tri)
  | addAll (ts : List Tri)
  | remove (t : Tri)

/-- Effect of an operation on the set of triples. -/
def GOp.apply : GOp → Finset Tri → Finset Tri
  | .add t, S => insert t S
  | .addAll ts, S => S ∪ ts.toFinset
  | .remove t, S => S.erase t

/-- The set of triples after a history on a new graph. -/
def runSet (ops : List GOp) : Finset Tri := ops.foldl (fun S op => op.apply S) ∅

/-- A pattern position: `none` is unconstrained. -/
def agrees (pat : Option Term) (t : Term) : Prop := ∀ a, pat = some a → t = a

/-- The triple matches the pattern. -/
def Tri.Matches (s p o : Option Term) (t : Tri) : Prop := agrees s t.s ∧ agrees p t.p ∧ agrees o t.o

/-- The Python argument for a pattern position: `None` if unconstrained. -/
def arg : Option Term → Term
  | none => .none
  | some t => t

/-- A given pattern term is "non-empty": not `None` and not the empty IRI. -/
def NonEmpty (pat : Option Term) : Prop := ∀ a, pat = some a → a ≠ .none ∧ a ≠ .named []

/-- `ord` is a possible iteration order of a hash set. -/
def IsOrder (ord : List Stmt → List Stmt) : Prop := ∀ l, (ord l).Perm l

end Verif.Spec
