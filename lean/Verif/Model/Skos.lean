import Verif.Model.Resource
/-
src/pymantic/vocab/skos.py: the module's class statements, run in order.

The attributes `namespaces` and `scaler` (skos.py:8, 10) are not among those that MetaResource reads (`prefixes` and `scalars`, rdf.py:36, 40),
so the class bodies are empty for the model, and the namespace SKOS_NS (skos.py:3) is not used.
-/
namespace Verif

/-- `@register_class(type) class name(base): pass`, skos.py:13-15 and 18-20. -/
def registeredClass (w : World) (name : PStr) (base : Nat) (rdfType : PStr) : World × Except Exc Nat :=
  match newClass w name [base] {} with
  | .error e => (w, .error e)
  | .ok (w, c) =>
    match registerClass w rdfType c with
    | (w, .error e) => (w, .error e)
    | (w, .ok ()) => (w, .ok c)

/-- `import pymantic.vocab.skos` (the first time), skos.py:1-20: the classes Concept and ConceptScheme. -/
def importSkos (w : World) : World × Except Exc (Nat × Nat) :=
  match newClass w (py! "SKOSResource") [0] {} with
  | .error e => (w, .error e)
  | .ok (w, base) =>
    match registeredClass w (py! "Concept") base (py! "skos:Concept") with
    | (w, .error e) => (w, .error e)
    | (w, .ok concept) =>
      match registeredClass w (py! "ConceptScheme") base (py! "skos:ConceptScheme") with
      | (w, .error e) => (w, .error e)
      | (w, .ok scheme) => (w, .ok (concept, scheme))

end Verif
