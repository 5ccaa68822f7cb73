import Verif.Spec.Graph
/-
Specification of a dataset: a finite set of quads. It does not mention the Dataset model.
-/
namespace Verif.Spec

/-- An RDF quad: a triple in a named graph. -/
structure Qd where
  s : Term
  p : Term
  o : Term
  g : Term
  deriving DecidableEq, Repr

/-- The Python object `Quad(s, p, o, g)`. -/
def Qd.stmt (q : Qd) : Stmt := mkQuad q.s q.p q.o q.g

/-- Operations of a history. `query g` is consuming a `match(..., graph=g)`; `addGraph` is adding a newly built Graph that holds
    the given triples under a name, the name being given either to the Graph or to `add_graph`. -/
inductive DOp
  | add (q : Qd)
  | addAll (qs : List Qd)
  | remove (q : Qd)
  | query (g : Term)
  | addGraph (viaNamed : Bool) (name : PStr) (ts : List Tri)

/-- A graph that is added has a non-empty name. -/
def DOp.WF : DOp → Prop
  | .addGraph _ name _ => name ≠ []
  | _ => True

/-- Effect of an operation on the set of quads. -/
def DOp.apply : DOp → Finset Qd → Finset Qd
  | .add q, S => insert q S
  | .addAll qs, S => S ∪ qs.toFinset
  | .remove q, S => S.erase q
  | .query _, S => S
  | .addGraph _ name ts, S =>
    S.filter (fun q => q.g ≠ .named name) ∪ (ts.map fun t => (⟨t.s, t.p, t.o, .named name⟩ : Qd)).toFinset

/-- The set of quads after a history on a new dataset. -/
def runQuads (ops : List DOp) : Finset Qd := ops.foldl (fun S op => op.apply S) ∅

/-- The quad matches the pattern. -/
def Qd.Matches (s p o g : Option Term) (q : Qd) : Prop :=
  agrees s q.s ∧ agrees p q.p ∧ agrees o q.o ∧ agrees g q.g

/-- Every graph's iteration order is possible. -/
def IsOrders (ord : Nat → List Stmt → List Stmt) : Prop := ∀ i, IsOrder (ord i)

end Verif.Spec
