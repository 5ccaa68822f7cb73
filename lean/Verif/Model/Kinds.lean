import Verif.Model.Resource
/-
The kind of the predicate object of a stored triple: NamedNode or plain `str`. The two are equal and hash equal when their text is equal
(`Term` identifies them), but a plain `str` has no method `toNT`, so a triple that holds one cannot be written.
src/pymantic/rdf.py:154-160, 289-335, src/pymantic/primitives.py:159-160, 687-700, 744-756, src/pymantic/serializers.py:34-37.
-/
namespace Verif

/-- Is what `Resource.resolve(key)` (rdf.py:154-160) returns a NamedNode. `parse_curie` makes one (primitives.py:72-80), `TermMap.resolve`
    does not (primitives.py:698-700): it returns the value that was stored for the term, of which `nodes` tells whether it is a
    NamedNode, or `self.default + term`, a plain `str` whatever the default is. -/
def resolvesToNode (w : World) (nodes : PStr → Bool) (c : Nat) (key : PStr) : Bool :=
  match PrefixMap.resolve (w.cls c).prefixes key with
  | .ok _ => true
  | .error _ => if key.contains 58 then true else (w.gTerms.terms.get? key).isSome && nodes key

/-- `self._triples.add(triple)`, primitives.py:386, on the kinds: an element that is already in the set stays the object it was. -/
def kindAdd (g : Graph) (kind : Stmt → Bool) (t : Stmt) (b : Bool) : Stmt → Bool :=
  if t ∈ g.triples then kind else fun u => if u = t then b else kind u

/-- The additions of `__setitem__`, rdf.py:323-333, on the kinds. -/
def addKinds (s p : Term) (b : Bool) : Graph → (Stmt → Bool) → List Term → Stmt → Bool
  | _, kind, [] => kind
  | g, kind, x :: xs => addKinds s p b (g.add (mkTriple s p x)) (kindAdd g kind (mkTriple s p x) b) xs

/-- `Resource.__setitem__(key, value)`, rdf.py:289-335, on the kinds of the predicates of the stored triples; see `setItem` for the triples
    themselves. -/
def setItemKinds (o : Orders) (w : World) (nodes : PStr → Bool) (g : Graph) (kind : Stmt → Bool) (r : Res) (key : Key) (value : SetVal) :
    Stmt → Bool :=
  match interpretKey w r key with
  | .error _ => kind
  | .ok sel =>
    match literalize o w g sel.lang sel.dt value with
    | (_, .error _) => kind
    | (w1, .ok v) =>
      match (if key.isTuple then objectsForExplicitSet o w1 g r sel v
             else (w1, objectsForImplicitSet o w1 g r sel.pred v)) with
      | (_, .error _) => kind
      | (_, .ok objs) =>
        match removeObjs r.s (predTerm sel.pred) g objs with
        | (_, .error _) => kind
        | (g, .ok ()) =>
          addKinds r.s (predTerm sel.pred) (resolvesToNode w nodes r.c key.text) g kind ((v.vals o).map Val.term)

/-- `Triple.__str__`, primitives.py:159-160: as `tripleStr`, but a predicate that is a plain `str` has no `toNT`. -/
def tripleStrKind (kind : Stmt → Bool) (t : Stmt) : Except Exc PStr := do
  let s ← t.s.toNT
  let p ← if kind t then t.p.toNT else .error .attributeError
  let o ← t.o.toNT
  return s ++ [32] ++ p ++ [32] ++ o ++ py! " .\n"

/-- `serialize_ntriples(graph, f)`, serializers.py:34-37: what has been written and whether it raised. -/
def serializeKind (kind : Stmt → Bool) : List Stmt → PStr × Except Exc Unit
  | [] => ([], .ok ())
  | t :: ts =>
    match tripleStrKind kind t with
    | .error e => ([], .error e)
    | .ok line =>
      let r := serializeKind kind ts
      (line ++ r.1, r.2)

end Verif
