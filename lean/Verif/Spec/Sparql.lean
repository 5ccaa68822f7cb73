import Verif.Model.Sparql
/-
What an HTTP request means according to the SPARQL 1.1 Protocol (sections 2.1 and 2.2), and what a changeset graph says.
-/
namespace Verif.Spec

/-- A value as the HTTP client sends it: text (percent-encoded as UTF-8) or bytes (percent-encoded as they are). -/
inductive Wire
  | text (s : PStr)
  | bytes (b : List Nat)
  deriving DecidableEq

/-- The HTTP client repeats a key for each element of a list. -/
def wire : ParamVal → List Wire
  | .str s => [.text s]
  | .bytes b => [.bytes b]
  | .many ss => ss.map .text

/-- The values sent for a key. -/
def field (d : Dict PStr ParamVal) (k : PStr) : List Wire := (d.filter fun e => e.1 = k).flatMap fun e => wire e.2

/-- An operation of the protocol: a query or an update, its text in UTF-8, and the graphs of its dataset. -/
structure ProtoOp where
  isUpdate : Bool
  text : List Nat
  defaultGraphs : List Wire
  namedGraphs : List Wire
  deriving DecidableEq

/-- A media type without its parameters. -/
def mediaType (header : PStr) : PStr := header.takeWhile (· ≠ 59)

/-- The operation a request stands for, if it stands for one: "query via GET" (2.1.1), "query via URL-encoded POST" (2.1.2), "query via POST
    directly" (2.1.3), "update via URL-encoded POST" (2.2.1), "update via POST directly" (2.2.2). -/
def operation (r : Request) : Option ProtoOp :=
  let url := field (r.params.getD [])
  match r.method, r.data with
  | .get, .none =>
    match url (py! "query"), url (py! "update") with
    | [.bytes b], [] => some ⟨false, b, url (py! "default-graph-uri"), url (py! "named-graph-uri")⟩
    | _, _ => none
  | .post, .form d =>
    if r.params.getD [] = [] then
      match field d (py! "query"), field d (py! "update") with
      | [.bytes b], [] => some ⟨false, b, field d (py! "default-graph-uri"), field d (py! "named-graph-uri")⟩
      | [], [.bytes b] => some ⟨true, b, field d (py! "using-graph-uri"), field d (py! "using-named-graph-uri")⟩
      | _, _ => none
    else none
  | .post, .raw b =>
    if url (py! "query") ≠ [] ∨ url (py! "update") ≠ [] then none
    else
      match (r.headers.get? (py! "Content-Type")).map mediaType with
      | some ct =>
        if ct = py! "application/sparql-query" then some ⟨false, b, url (py! "default-graph-uri"), url (py! "named-graph-uri")⟩
        else if ct = py! "application/sparql-update" then some ⟨true, b, url (py! "using-graph-uri"), url (py! "using-named-graph-uri")⟩
        else none
      | none => none
  | _, _ => none

/-- The graphs a caller asks for. -/
def asked : GraphArg → List Wire
  | .none => []
  | .one [] => []
  | .one s => [.text s]
  | .many ss => ss.map .text

/-- The IRIs of the RDF vocabulary and of the changeset vocabulary. -/
def rdfI (l : PStr) : Term := .named (py! "http://www.w3.org/1999/02/22-rdf-syntax-ns#" ++ l)
def csI (l : PStr) : Term := .named (py! "http://purl.org/vocab/changeset/schema#" ++ l)

/-- `node` is the reification of `t` in `g`. -/
def Reifies (g : List RTriple) (node : Term) (t : RTriple) : Prop :=
  (node, rdfI (py! "type"), rdfI (py! "Statement")) ∈ g ∧
  (node, rdfI (py! "subject"), t.1) ∈ g ∧
  (node, rdfI (py! "predicate"), t.2.1) ∈ g ∧
  (node, rdfI (py! "object"), t.2.2) ∈ g

/-- The change set `cs` says that `t` is to be removed (`what` = "removal") or added (`what` = "addition"). -/
def Says (g : List RTriple) (cs : Term) (what : PStr) (t : RTriple) : Prop :=
  ∃ node, (cs, csI what, node) ∈ g ∧ Reifies g node t

end Verif.Spec
