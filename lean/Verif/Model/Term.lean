import Verif.Py.Dict
/-
RDF terms and statements: src/pymantic/primitives.py (classes Triple, Quad, Literal, NamedNode, BlankNode).
-/
namespace Verif

/-- A Python value that can stand in a triple.
    * `named`: `NamedNode(str)`, primitives.py:301-317 (also `Prefix`, 320-325, and plain `str`: all three are equal and
      hash equal when their text is equal, so the model identifies them);
    * `bnode`: `BlankNode`, primitives.py:331-353; no `__eq__`, so equality is object identity, the `id`;
    * `lit`: `Literal(value, language, datatype)`, primitives.py:225-298, a tuple, so equality is componentwise.
      Simplification: `value` is a `str` (the constructor converts `int`/`datetime`, see `Model/Records`), `datatype` is a NamedNode or None;
    * `none`: Python `None`;
    * `gen`: an exhausted-or-not generator object that a defect of the Turtle transformer puts into triples (equality is identity). -/
inductive Term
  | none
  | named (iri : PStr)
  | bnode (id : Nat)
  | lit (value : PStr) (lang : Option PStr) (dt : Option PStr)
  | gen (id : Nat)
  deriving DecidableEq, Repr

/-- `bool(term)`: `None` and the empty `str` are false; a BlankNode is a plain object, a Literal a non-empty tuple. -/
def Term.truthy : Term → Bool
  | .none => false
  | .named [] => false
  | _ => true

/-- What can be stored in a Graph: `Triple` (primitives.py:116-163, a 3-tuple) is `g = none`;
    `Quad` (primitives.py:166-214, a 4-tuple) is `g = some name`, where `name` may itself be Python `None`.
    Tuples of different lengths are never equal, so equality is structural. -/
structure Stmt where
  s : Term
  p : Term
  o : Term
  g : Option Term := none
  deriving DecidableEq, Repr

/-- `Triple(s, p, o)`, primitives.py:127-128 -/
def mkTriple (s p o : Term) : Stmt := { s, p, o, g := none }

/-- `Quad(s, p, o, g)`, primitives.py:173-174 -/
def mkQuad (s p o g : Term) : Stmt := { s, p, o, g := some g }

/-- `q_as_t(quad)`, primitives.py:217-218 -/
def qAsT (q : Stmt) : Stmt := mkTriple q.s q.p q.o

/-- `t_as_q(graph_name, triple)`, primitives.py:221-222 -/
def tAsQ (name : Term) (t : Stmt) : Stmt := mkQuad t.s t.p t.o name

end Verif
