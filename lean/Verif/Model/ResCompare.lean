import Verif.Model.Resource
/-
Comparison methods of Resource as Python calls them, and `as_`: src/pymantic/rdf.py:119-123, 162-174, 383-384, 547-548.
-/
namespace Verif

/-- `Resource.__eq__(self, other)`, rdf.py:162-167; `none` is NotImplemented. -/
def resEq (a : Res) : EqVal → Option Bool
  | .res b => some (decide (a.s = b.s))
  | .iri s => some (decide (a.s.str = s))
  | .bnode _ => none
  | .lit _ _ _ => none

/-- `Resource.__ne__(self, other)`, rdf.py:169-174 -/
def resNe (a : Res) (b : EqVal) : Option Bool :=
  match resEq a b with
  | none => none
  | some v => some !v

/-- `a != b`: the left operand's `__ne__`, then the right operand's, then `a is not b`. The methods of NamedNode, BlankNode and Literal are those of
    `str`, `object` and `tuple`; they do not know Resources. Where the classes have nothing to say, the operands are different objects here. -/
def pyNe : EqVal → EqVal → Bool
  | .res a, b => (resNe a b).getD true
  | a, .res b => (resNe b a).getD true
  | .iri s, .iri s' => decide (s ≠ s')
  | .bnode i, .bnode j => decide (i ≠ j)
  | .lit v l d, .lit v' l' d' => decide ((v, l, d) ≠ (v', l', d'))
  | _, _ => true

/-- `Resource.__init__(self, graph, subject)`, rdf.py:119-123. -/
def initRes (c : Nat) : Term → Res
  | .named i => ⟨c, .named i⟩
  | .bnode i => ⟨c, .bnode i⟩
  | t => ⟨c, .named t.str⟩

/-- `resource.as_(target_class)`, rdf.py:547-548 -/
def asClass (r : Res) (c : Nat) : Res := initRes c r.s

/-- `repr(resource)`, rdf.py:383-384; `cls` is `repr(type(self))`. -/
def resRepr (cls : PStr) (r : Res) : PStr := py! "<" ++ cls ++ py! ": " ++ r.s.str ++ py! ">"

end Verif
