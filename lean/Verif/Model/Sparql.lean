import Verif.Py.Utf8
import Verif.Model.Term
/-
src/pymantic/sparql.py: SPARQLServer.query and update, UpdateableGraphStore, PatchableGraphStore, differences, changeset, reify.

Not modelled: the HTTP client (`requests`) below `Session.request`, which is an oracle here; `json.loads`, an oracle; rdflib, except that its
graphs are sets of triples of terms and that a new BNode differs from all others.
-/
namespace Verif

/-! ### Requests -/

/-- A value in a parameter dictionary: a string, the UTF-8 bytes of the query, or a list of strings. -/
inductive ParamVal
  | str (s : PStr)
  | bytes (b : List Nat)
  | many (ss : List PStr)
  deriving DecidableEq

/-- The `default_graph` and `named_graph` arguments: None, a string or a list of strings. -/
inductive GraphArg
  | none
  | one (s : PStr)
  | many (ss : List PStr)
  deriving DecidableEq

/-- The parameter for a graph argument, if the argument is true (`if self.default_graphs:`, sparql.py:66 and 68). -/
def GraphArg.param : GraphArg → Option ParamVal
  | .none => Option.none
  | .one [] => Option.none
  | .one s => some (.str s)
  | .many [] => Option.none
  | .many ss => some (.many ss)

/-- The `data` argument of `Session.request`. -/
inductive Body
  | none
  | raw (b : List Nat)
  | form (d : Dict PStr ParamVal)
  deriving DecidableEq

inductive HttpMethod | get | post
  deriving DecidableEq

/-- The arguments of `Session.request`, sparql.py:88-95. -/
structure Request where
  method : HttpMethod
  url : PStr
  params : Option (Dict PStr ParamVal)
  headers : Dict PStr PStr
  data : Body
  verify : Option PStr      -- the keyword `verify`, if it is passed
  deriving DecidableEq

/-- A response: status, the content-type header if there is one, and the content. -/
structure Response where
  status : Nat
  contentType : Option PStr
  content : List Nat
  deriving DecidableEq

/-- The attributes of a SPARQLServer, sparql.py:185-193. Simplification: `verify` (a bool or the path of a CA bundle) is a string. -/
structure Server where
  queryUrl : PStr
  postQueries : Bool := false
  postDirectly : Bool := false
  verify : Option PStr := none

/-- _Select or _Update: the methods that differ, sparql.py:46-59, 123-136 and 165-178 (the first are the abstract ones). -/
inductive OpKind | select | update
  deriving DecidableEq

def OpKind.defaultGraphUri : OpKind → PStr
  | .select => py! "default-graph-uri"
  | .update => py! "using-graph-uri"

def OpKind.namedGraphUri : OpKind → PStr
  | .select => py! "named-graph-uri"
  | .update => py! "using-named-graph-uri"

def OpKind.queryOrUpdate : OpKind → PStr
  | .select => py! "query"
  | .update => py! "update"

def OpKind.directContentType : OpKind → PStr
  | .select => py! "application/sparql-query"
  | .update => py! "application/sparql-update"

def OpKind.postQueries (srv : Server) : OpKind → Bool
  | .select => srv.postQueries
  | .update => true

/-- `params[k] = v` if there is a value. -/
def setParam (d : Dict PStr ParamVal) (k : PStr) : Option ParamVal → Dict PStr ParamVal
  | some v => d.set k v
  | none => d

/-- The request that `execute` builds, sparql.py:35-43 and 64-95; UnicodeEncodeError if the text has a lone surrogate. `headers` are those set in
    the constructor. -/
def buildRequest (srv : Server) (k : OpKind) (sparql : PStr) (dg ng : GraphArg) (headers : Dict PStr PStr) : Except Exc Request :=
  match utf8Encode sparql with
  | none => .error .unicodeEncodeError
  | some sparql =>
    let params := setParam (setParam [] k.defaultGraphUri dg.param) k.namedGraphUri ng.param
    if srv.postDirectly then
      .ok { method := .post, url := srv.queryUrl, params := some params,
            headers := headers.set (py! "Content-Type") (k.directContentType ++ py! "; charset=utf-8"),
            data := .raw sparql, verify := srv.verify }
    else if k.postQueries srv then
      .ok { method := .post, url := srv.queryUrl, params := none, headers,
            data := .form (params.set k.queryOrUpdate (.bytes sparql)), verify := srv.verify }
    else
      .ok { method := .get, url := srv.queryUrl, params := some (params.set k.queryOrUpdate (.bytes sparql)), headers,
            data := .none, verify := srv.verify }

/-- The network: what `Session.request` returns or raises, given the requests made so far and this one. -/
abbrev Net := Request → Except Exc Response

/-- What `_SelectOrUpdate.execute` returns: True or the response. -/
inductive ExecRes
  | true
  | response (r : Response)
  deriving DecidableEq

/-- `_SelectOrUpdate.execute`, sparql.py:61-102: the requests made and the result. -/
def execBase (net : Net) (srv : Server) (k : OpKind) (sparql : PStr) (dg ng : GraphArg) (headers : Dict PStr PStr) :
    List Request × Except Exc ExecRes :=
  match buildRequest srv k sparql dg ng headers with
  | .error e => ([], .error e)
  | .ok req => ([req],
    match net req with
    | .error e => .error e
    | .ok resp =>
      if resp.status = 204 then .ok .true
      else if resp.status ≠ 200 then .error .sparqlQueryException
      else .ok (.response resp))

/-- `_Select.__init__`, sparql.py:106-121: the Accept header. -/
def acceptHeader (output : PStr) : Dict PStr PStr :=
  if output = py! "xml" then [(py! "Accept", py! "application/rdf+xml,application/sparql-results+xml")]
  else [(py! "Accept", py! "application/sparql-results+json,text/turtle")]

/-- `_Select.execute`, sparql.py:138-161. `loads` is `json.loads`, with values in `J`; what it raises is its own. The results in RDF/XML,
    Turtle and XML are read with `StringIO(response.content)`: the content is bytes, and StringIO takes only `str`: TypeError. -/
def decodeSelect {J : Type} (loads : PStr → Except Exc J) : ExecRes → Except Exc J
  | .true => .error .attributeError                       -- a bool has no `headers`
  | .response r =>
    match r.contentType with
    | none => .error .keyError
    | some ct =>
      if pyStartsWith ct (py! "application/rdf+xml") then .error .typeError
      else if pyStartsWith ct (py! "text/turtle") then .error .typeError
      else if pyStartsWith ct (py! "application/sparql-results+json") then
        match utf8Decode r.content with
        | none => .error .unicodeDecodeError
        | some s => loads s
      else if pyStartsWith ct (py! "application/sparql-results+xml") then .error .typeError
      else .error .unknownSPARQLReturnType

/-- `server.query(sparql, output, default_graph, named_graph)`, sparql.py:201-213 -/
def query {J : Type} (loads : PStr → Except Exc J) (net : Net) (srv : Server) (sparql : PStr) (output : PStr := py! "json")
    (dg : GraphArg := .none) (ng : GraphArg := .none) : List Request × Except Exc J :=
  match execBase net srv .select sparql dg ng (acceptHeader output) with
  | (reqs, .error e) => (reqs, .error e)
  | (reqs, .ok r) => (reqs, decodeSelect loads r)

/-- `server.update(sparql, default_graph, named_graph)`, sparql.py:215-220 -/
def update (net : Net) (srv : Server) (sparql : PStr) (dg : GraphArg := .none) (ng : GraphArg := .none) :
    List Request × Except Exc ExecRes :=
  execBase net srv .update sparql dg ng []

/-! ### Graph stores -/

/-- `request_url(graph_uri)`, sparql.py:239-243: with `param_style` the module urllib has no attribute `urlencode`; otherwise `urlparse`
    is the function imported on line 12, which has no attribute `urljoin`. -/
def requestUrl (paramStyle : Bool) (_graphUri : PStr) : Except Exc PStr :=
  if paramStyle then .error .attributeError else .error .attributeError

/-- `self.server`, sparql.py:249, 269, 283, 298, 310, 329: a graph store has no such attribute. -/
def selfServer : Except Exc (Option PStr) := .error .attributeError

/-- The operations of UpdateableGraphStore and PatchableGraphStore, sparql.py:227-230 and 245-336. -/
inductive StoreOp
  | get (uri : PStr)
  | delete (uri : PStr)
  | put (uri : PStr) (nt : PStr)
  | post (uri : Option PStr) (nt : PStr)
  | patch (uri : PStr) (xml : PStr)

/-- What an operation does up to and including its request: the arguments are evaluated (first the URL, then the keywords), then the
    request is sent. `send` is the request itself. -/
def storeOp (paramStyle : Bool) (datasetUrl : PStr) (op : StoreOp) (send : PStr → Option PStr → Except Exc Unit) :
    Except Exc Unit :=
  let url : Except Exc PStr := match op with
    | .get u => requestUrl paramStyle u
    | .delete u => requestUrl paramStyle u
    | .put u _ => requestUrl paramStyle u
    | .post (some u) _ => requestUrl paramStyle u
    | .post none _ => .ok datasetUrl
    | .patch u _ => requestUrl paramStyle u
  match url with
  | .error e => .error e
  | .ok url =>
    match selfServer with
    | .error e => .error e
    | .ok v => send url v

/-! ### Changesets -/

/-- An rdflib triple. The terms are those of the model's `Term`; rdflib's terms also compare by kind and text. -/
abbrev RTriple := Term × Term × Term

/-- `differences(a, b, exclude)`, sparql.py:376-382, on the triples of the graphs in iteration order. -/
def differences (a b : List RTriple) (exclude : List PStr := []) : List RTriple × List RTriple :=
  let ex := exclude.map Term.named
  (a.filter fun s => !b.contains s && !ex.contains s.2.1, b.filter fun s => !a.contains s && !ex.contains s.2.1)

def csNs : PStr := py! "http://purl.org/vocab/changeset/schema#"
def rdfNsR : PStr := py! "http://www.w3.org/1999/02/22-rdf-syntax-ns#"

/-- `graph.add(triple)` on an rdflib graph. -/
def radd (g : List RTriple) (t : RTriple) : List RTriple := if t ∈ g then g else g ++ [t]

/-- `reify(graph, statement)`, sparql.py:365-373; `n` is the identity of the new BNode. -/
def reify (g : List RTriple) (n : Nat) (t : RTriple) : List RTriple :=
  let g := radd g (.bnode n, .named (rdfNsR ++ py! "type"), .named (rdfNsR ++ py! "Statement"))
  let g := radd g (.bnode n, .named (rdfNsR ++ py! "subject"), t.1)
  let g := radd g (.bnode n, .named (rdfNsR ++ py! "predicate"), t.2.1)
  radd g (.bnode n, .named (rdfNsR ++ py! "object"), t.2.2)

/-- The loops of `changeset`, sparql.py:356-361; the BNodes are numbered from `n`. -/
def reifyAll (cs : Nat) (what : PStr) : List RTriple → Nat → List RTriple → List RTriple × Nat
  | g, n, [] => (g, n)
  | g, n, t :: ts => reifyAll cs what (radd (reify g n t) (.bnode cs, .named (csNs ++ what), .bnode n)) (n + 1) ts

/-- `changeset(a, b, graph_uri)`, sparql.py:339-362. `date` is the current time as text, `n` the identity of the next BNode. -/
def changeset (a b : List RTriple) (uri date : PStr) (n : Nat) : List RTriple :=
  let d := differences a b
  let g := radd [] (.bnode n, .named (rdfNsR ++ py! "type"), .named (csNs ++ py! "ChangeSet"))
  let g := radd g (.bnode n, .named (csNs ++ py! "createdDate"), .lit date none none)
  let g := radd g (.bnode n, .named (csNs ++ py! "subjectOfChange"), .named uri)
  let r := reifyAll n (py! "removal") g (n + 1) d.1
  (reifyAll n (py! "addition") r.1 r.2 d.2).1

end Verif
