import Verif.Model.Resource
/-
Specification vocabulary for Resource: kinds of objects, and the term that stands for a Python value. It does not use the selection
functions of the model.
-/
namespace Verif.Spec

/-- A node: an IRI or a blank node. -/
def IsResource (t : Term) : Prop := (∃ i, t = .named i) ∨ ∃ i, t = .bnode i

/-- A literal with neither language nor datatype. -/
def Untagged (t : Term) : Prop := ∃ v, t = .lit v none none

/-- A literal whose language matches `l` (as `lang_match` has it, see C36). -/
def InLanguage (l : PStr) (t : Term) : Prop := ∃ v l' d, t = .lit v (some l') d ∧ langMatch (some l) (some l') = true

/-- A literal with some language. -/
def HasLanguage (t : Term) : Prop := ∃ v l d, t = .lit v (some l) d

/-- A literal with datatype `d`. -/
def OfDatatype (d : PStr) (t : Term) : Prop := ∃ v l, t = .lit v l (some d)

/-- A literal with some datatype. -/
def HasDatatype (t : Term) : Prop := ∃ v l d, t = .lit v l (some d)

/-- A well-formed RDF object: a node, or a literal that does not carry both a language and a datatype. -/
def WellFormed (t : Term) : Prop := IsResource t ∨ ∃ v l d, t = .lit v l d ∧ (l = none ∨ d = none)

/-- The term that stands for a Python value when a plain string is to get the given language and datatype; `none` if there is none. -/
def storedTerm (lang dt : Option PStr) : PyVal → Option Term
  | .iri s => some (.named s)
  | .bnode i => some (.bnode i)
  | .lit v l d => some (.lit v l d)
  | .res _ s => some s
  | .str s => some (.lit s lang dt)
  | .other (.str s) => some (.lit s none none)
  | .other (.int n) => some (.lit (intStr n) none (some (xsd (py! "integer"))))
  | .other (.datetime d) => some (.lit d.isoformat none (some (xsd (py! "dateTime"))))
  | .other .other => none

/-- The values of an assignment. -/
def values : SetVal → List PyVal
  | .one v => [v]
  | .many vs => vs

/-- Which objects a key `(name, filter)` shows, for the filters that do not ask for a class. A language or datatype filter on a predicate
    that is not scalar also shows resources. -/
def Shown (scalar : Bool) : Filt → Term → Prop
  | .none, _ => True
  | .lang l, x => if l = [] then Untagged x else InLanguage l x ∨ (scalar = false ∧ IsResource x)
  | .dt d, x => if d = [] ∨ d = xsd (py! "string") then Untagged x else OfDatatype d x ∨ (scalar = false ∧ IsResource x)
  | .cls _, _ => False

/-- The filter asks for a class. -/
def Filt.isClass : Filt → Bool
  | .cls _ => true
  | _ => false

/-- The node `s` is the head of a well-formed list with the given elements: each cell has exactly one first and exactly one rest. -/
inductive IsRdfList (triples : List Stmt) (first rest nil : Term) : Term → List Term → Prop
  | nil : IsRdfList triples first rest nil nil []
  | cons {s s' e es} : IsResource s → s.truthy = true → s ≠ nil → (∀ x, mkTriple s first x ∈ triples ↔ x = e) →
      (∀ x, mkTriple s rest x ∈ triples ↔ x = s') → IsRdfList triples first rest nil s' es →
      IsRdfList triples first rest nil s (e :: es)

end Verif.Spec
