import Verif.Model.NTriples
import Verif.Model.Turtle
/-
Parsing into a Dataset: src/pymantic/parsers/lark/base.py:14-36 and parsers/lark/turtle.py:285-305 with `graph` a Dataset, so that `graph.addAll` is
primitives.py:550-555.
-/
namespace Verif

/-- `Dataset.add(statement)`, primitives.py:511-513: a Triple has no attribute `graph`, which is read first. -/
def Dataset.addAny (ds : Dataset) (t : Stmt) : Except Exc Dataset :=
  match t.g with
  | none => .error .attributeError
  | some g => .ok (ds.add t.s t.p t.o g)

/-- `Dataset.addAll(statements)`, primitives.py:550-555; what was added before the first Triple stays. -/
def Dataset.addAllAny : Dataset → List Stmt → Dataset × Except Exc Unit
  | ds, [] => (ds, .ok ())
  | ds, t :: ts =>
    match ds.addAny t with
    | .error e => (ds, .error e)
    | .ok ds => ds.addAllAny ts

/-- `ntriples_parser.parse(text, dataset)` and `nquads_parser.parse(text, dataset)`, parsers/lark/base.py:14-36 -/
def parseStringDs (quads : Bool) (next : Nat) (text : PStr) (ds : Dataset) : Dataset × Nat × Except Exc Unit :=
  match pDoc quads text with
  | .error e => (ds, next, .error e)
  | .ok rs =>
    let r := BState.stmts { map := [], next := next } rs
    let a := ds.addAllAny r.2
    (a.1, r.1.next, a.2)

/-- `line_by_line_parser` (parsers/lark/base.py:9-12) drained by `dataset.addAll`. -/
def parseLinesDs (quads : Bool) : BState → List PStr → Dataset → Dataset × BState × Except Exc Unit
  | st, [], ds => (ds, st, .ok ())
  | st, line :: lines, ds =>
    if line = [] then parseLinesDs quads st lines ds
    else
      match pDoc quads line with
      | .error e => (ds, st, .error e)
      | .ok rs =>
        let r := st.stmts rs
        match r.2 with
        | [] => (ds, r.1, .error .runtimeError)
        | t :: _ =>
          match ds.addAny t with
          | .error e => (ds, r.1, .error e)
          | .ok ds => parseLinesDs quads r.1 lines ds

/-- The same with an object that has `readline`. -/
def parseStreamDs (quads : Bool) (next : Nat) (content : PStr) (ds : Dataset) : Dataset × Nat × Except Exc Unit :=
  let r := parseLinesDs quads { map := [], next := next } (splitLines content) ds
  (r.1, r.2.1.next, r.2.2)

/-- `turtle_parser.parse(text, dataset, base)`, turtle.py:285-305, with a `str`. -/
def turtleParseDs (nl : PStr → Bool) (base : PStr) (next : Nat) (text : PStr) (ds : Dataset) : Dataset × Nat × Except Exc Unit :=
  match Turtle.parseText nl base next text with
  | .error e => (ds, next, .error e)
  | .ok (n, ts) =>
    let a := ds.addAllAny ts
    (a.1, n, a.2)

end Verif
