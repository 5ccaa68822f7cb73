import Verif.Model.NTriples
import Verif.Model.Dataset
/-
src/pymantic/parsers/jsonld.py:14-84, PyLDLoader. The JSON-LD processor itself (`pyld.jsonld.to_rdf`) is not modelled: its result is an
argument.
-/
namespace Verif

/-- One of the dicts `triple["subject"]`, `triple["predicate"]`, `triple["object"]` that `to_rdf` returns. `other` is a dict with another
    value under "type". -/
inductive Frag
  | iri (v : PStr)
  | blank (v : PStr)
  | lit (v : PStr) (lang : Option PStr) (dt : PStr)
  | other
  deriving DecidableEq, Repr

/-- A triple of the result of `to_rdf`. -/
structure JTriple where
  s : Frag
  p : Frag
  o : Frag
  deriving DecidableEq, Repr

/-- The result of `to_rdf`: a dict from graph names to lists of triples, in the order of `.items()`. -/
abbrev JDataset := List (PStr × List JTriple)

/-- `process_triple_fragment`, jsonld.py:49-63. The last branch falls off the end of the function: None. -/
def BState.frag (st : BState) : Frag → BState × Term
  | .iri v => (st, .named v)
  | .blank v => let r := st.node v; (r.1, .bnode r.2)
  | .lit v l d => (st, .lit v l (some d))
  | .other => (st, .none)

/-- `graph_iri`, jsonld.py:70-74 -/
def graphIri (name : PStr) : Term := if name = py! "@default" then .none else .named name

/-- The quad of one triple, jsonld.py:76-83. -/
def BState.jquad (st : BState) (g : Term) (t : JTriple) : BState × Stmt :=
  let a := st.frag t.s
  let b := a.1.frag t.p
  let c := b.1.frag t.o
  (c.1, mkQuad a.2 b.2 c.2 g)

variable {σ : Type}

/-- The inner loop, jsonld.py:75-84, with `make_quad` (jsonld.py:37-40). `add` is the sink's `add`. -/
def jTriples (add : σ → Stmt → σ) (g : Term) : BState → σ → List JTriple → BState × σ
  | st, sink, [] => (st, sink)
  | st, sink, t :: ts =>
    let r := st.jquad g t
    jTriples add g r.1 (add sink r.2) ts

/-- `process_jobj`, jsonld.py:65-84 -/
def jGraphs (add : σ → Stmt → σ) : BState → σ → JDataset → BState × σ
  | st, sink, [] => (st, sink)
  | st, sink, (name, ts) :: rest =>
    let r := jTriples add (graphIri name) st sink ts
    jGraphs add r.1 r.2 rest

/-- `_call_state` (parsers/base.py:18, 44-50): the blank nodes and the sink of the call in progress. `none`: the attributes are not set. -/
abbrev CallState (σ : Type) := Option (Dict PStr Nat × σ)

/-- `parse_json(jobj, sink)`, jsonld.py:27-35. `rdf` is what `to_rdf` does. The result: the call state afterwards, the allocator of blank
    nodes, and the sink or the exception. The call state is not cleared if `to_rdf` raises. -/
def parseJson (add : σ → Stmt → σ) (_call : CallState σ) (next : Nat) (rdf : Except Exc JDataset) (sink : σ) :
    CallState σ × Nat × Except Exc σ :=
  match rdf with
  | .error e => (some ([], sink), next, .error e)
  | .ok jd =>
    let r := jGraphs add { map := [], next := next } sink jd
    (none, r.1.next, .ok r.2)

/-- `document.parse(string)` and `document.parse_file(f)`, jsonld.py:19-25: `process_jobj` on whatever the call state is. Without one, the
    first triple raises AttributeError (`_call_state.bnodes` or `_call_state.graph`). Both return None. -/
def documentParse (add : σ → Stmt → σ) (call : CallState σ) (next : Nat) (rdf : Except Exc JDataset) : CallState σ × Nat × Except Exc Unit :=
  match rdf with
  | .error e => (call, next, .error e)
  | .ok jd =>
    match call with
    | none => if jd.all (fun g => g.2.isEmpty) then (none, next, .ok ()) else (none, next, .error .attributeError)
    | some (map, sink) =>
      let r := jGraphs add { map := map, next := next } sink jd
      (some (r.1.map, r.2), r.1.next, .ok ())

end Verif
