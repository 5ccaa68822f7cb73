import Verif.Model.Term
/-
The tuple subclasses Triple, Quad and Literal as records: src/pymantic/primitives.py:116-298.
-/
namespace Verif

/-- The `_fields` of the three classes: primitives.py:125, 171, 238. -/
def tripleFields : List PStr := [py! "subject", py! "predicate", py! "object"]
def quadFields : List PStr := [py! "subject", py! "predicate", py! "object", py! "graph"]
def literalFields : List PStr := [py! "value", py! "language", py! "datatype"]

/-- `_make(iterable)`, primitives.py:130-136, 176-182, 257-263: a tuple of the items; TypeError unless there are as many as fields. -/
def recMake {α} (fields : List PStr) (xs : List α) : Except Exc (List α) :=
  if xs.length = fields.length then .ok xs else .error .typeError

/-- `_asdict()`, primitives.py:141-143, 187-194, 268-275 -/
def recAsdict {α} (fields : List PStr) (xs : List α) : Dict PStr α := fields.zip xs

/-- `map(kwds.pop, fields, self)`: for each field in turn `kwds.pop(field, own value)`; returns the values and the remaining `kwds`. -/
def popAll {α} : List PStr → List α → Dict PStr α → List α × Dict PStr α
  | f :: fs, x :: xs, kw =>
    let r := popAll fs xs (kw.del f)
    ((kw.get? f).getD x :: r.1, r.2)
  | _, _, kw => ([], kw)

/-- `_replace(**kwds)`, primitives.py:145-150, 196-203, 277-284 -/
def recReplace {α} (fields : List PStr) (self : List α) (kwds : Dict PStr α) : Except Exc (List α) :=
  let r := popAll fields self kwds
  match recMake fields r.1 with
  | .error e => .error e
  | .ok result => if r.2 ≠ [] then .error .valueError else .ok result

/-- The items of a Triple or Quad. -/
def Stmt.items (t : Stmt) : List Term :=
  match t.g with
  | none => [t.s, t.p, t.o]
  | some g => [t.s, t.p, t.o, g]

end Verif
