import Verif.Model.NTriples
import Verif.Model.UrlJoin
/-
src/pymantic/parsers/rdfxml.py: RDFXMLParser. The XML parser (`lxml.etree`) is not modelled: its result is an argument. Comments and
processing instructions, which lxml also lists among the children, are nodes without tag and attributes.
-/
namespace Verif

/-- An XML node of lxml: an element with the tag (in Clark notation if it has a namespace), the attributes, the base URI if there is one, and the children; or a
    comment or processing instruction. -/
inductive XElem
  | mk (tag : PStr) (attrib : Dict PStr PStr) (base : Option PStr) (children : List XElem)
  | other (base : Option PStr)

/-- `element.tag` if it is a str; of a comment or processing instruction it is a function. -/
def XElem.tag : XElem → Option PStr
  | .mk t _ _ _ => some t
  | .other _ => none

/-- `element.attrib`; comments and processing instructions have an empty one. -/
def XElem.attrib : XElem → Dict PStr PStr
  | .mk _ a _ _ => a
  | .other _ => []

def XElem.base : XElem → Option PStr
  | .mk _ _ b _ => b
  | .other b => b

def XElem.children : XElem → List XElem
  | .mk _ _ _ c => c
  | .other _ => []

/-- A Python value of the comparison in rdfxml.py:26: an lxml element or a str. -/
inductive XVal
  | elem (e : XElem)
  | str (s : PStr)

/-- `a != b` where `a` is an element: lxml elements define no `__eq__`, so an element differs from every str. (Two elements are compared
    by identity, which the parser does not do.) -/
def XVal.ne : XVal → XVal → Bool
  | .elem _, .str _ => true
  | .str _, .elem _ => true
  | .str a, .str b => decide (a ≠ b)
  | .elem _, .elem _ => false

/-- `clark("rdf", tag)`, rdfxml.py:20-21 -/
def clarkRdf (tag : PStr) : PStr := py! "{" ++ py! "http://www.w3.org/1999/02/22-rdf-syntax-ns#" ++ py! "}" ++ tag

/-- `urljoin(element.base, uri)`: a base that is None counts as empty. -/
def xmlJoin (nl : PStr → Bool) (e : XElem) (uri : PStr) : Except Exc PStr := urljoin nl (e.base.getD []) uri

/-- `_resolve_uri(element, uri)`, rdfxml.py:81-85: `scheme_re` (line 8) matches at the start of any text that begins with a letter. -/
def xmlResolveUri (nl : PStr → Bool) (e : XElem) (uri : PStr) : Except Exc PStr :=
  match uri with
  | c :: cs => if isAsciiAlpha c then .ok (c :: cs) else xmlJoin nl e (c :: cs)
  | [] => xmlJoin nl e []

/-- `_resolve_tag(element)`, rdfxml.py:51-56: for a tag with a namespace, `element[1:]` is the list of the children but the first, which has no
    `partition`. A function cannot be subscripted. -/
def xmlResolveTag (nl : PStr → Bool) (e : XElem) : Except Exc PStr :=
  match e.tag with
  | none => .error .typeError
  | some [] => .error .indexError
  | some (c :: cs) => if c = 123 then .error .attributeError else xmlJoin nl e (c :: cs)

/-- `_determine_subject(element)`, rdfxml.py:58-79. The last branch looks for `rdf:resource` though it has found `rdf:about`. -/
def xmlSubject (nl : PStr → Bool) (st : BState) (e : XElem) : Except Exc (BState × Term) :=
  match e.attrib.get? (clarkRdf (py! "nodeID")), e.attrib.get? (clarkRdf (py! "ID")), e.attrib.get? (clarkRdf (py! "about")) with
  | none, none, none => .ok ({ st with next := st.next + 1 }, .bnode st.next)
  | some l, _, _ => let r := st.node l; .ok (r.1, .bnode r.2)
  | none, some i, _ =>
    match e.base with
    | none => .error .valueError
    | some [] => .error .valueError
    | some b => .ok (st, .named (b ++ py! "#" ++ i))
  | none, none, some _ =>
    match e.attrib.get? (clarkRdf (py! "resource")) with
    | none => .error .keyError
    | some r => (xmlResolveUri nl e r).map fun u => (st, .named u)

variable {σ : Type}

/-- The loop over the property elements, rdfxml.py:38-48; `pred` is the local variable `predicate`, unbound at first and kept by `rdf:li`. The sink and the
    outcome. -/
def xmlProps (nl : PStr → Bool) (add : σ → Stmt → σ) (subj : Term) : Option PStr → σ → List XElem → σ × Except Exc Unit
  | _, sink, [] => (sink, .ok ())
  | pred, sink, e :: es =>
    match (if e.tag = some (clarkRdf (py! "li")) then .ok pred else (xmlResolveTag nl e).map some) with
    | .error x => (sink, .error x)
    | .ok pred =>
      match e.attrib.get? (clarkRdf (py! "resource")) with
      | none => xmlProps nl add subj pred sink es
      | some r =>
        match xmlResolveUri nl e r with
        | .error x => (sink, .error x)
        | .ok o =>
          match pred with
          | none => (sink, .error .unboundLocalError)
          | some p => xmlProps nl add subj pred (add sink (mkTriple subj (.named p) (.named o))) es

/-- `_handle_resource(element, sink)`, rdfxml.py:31-49: the blank nodes, the sink and the subject returned. -/
def xmlResource (nl : PStr → Bool) (add : σ → Stmt → σ) (st : BState) (sink : σ) (e : XElem) : BState × σ × Except Exc Term :=
  match xmlSubject nl st e with
  | .error x => (st, sink, .error x)
  | .ok (st, subj) =>
    let typed : Except Exc σ :=
      if e.tag = some (clarkRdf (py! "Description")) then .ok sink
      else (xmlResolveTag nl e).map fun c => add sink (mkTriple subj (.named (py! "http://www.w3.org/1999/02/22-rdf-syntax-ns#type")) (.named c))
    match typed with
    | .error x => (st, sink, .error x)
    | .ok sink =>
      match xmlProps nl add subj none sink e.children with
      | (sink, .error x) => (st, sink, .error x)
      | (sink, .ok ()) => (st, sink, .ok subj)

/-- The loop of `parse`, rdfxml.py:28-29. -/
def xmlResources (nl : PStr → Bool) (add : σ → Stmt → σ) : BState → σ → List XElem → σ × Except Exc Unit
  | _, sink, [] => (sink, .ok ())
  | st, sink, e :: es =>
    match xmlResource nl add st sink e with
    | (_, sink, .error x) => (sink, .error x)
    | (st, sink, .ok _) => xmlResources nl add st sink es

/-- `RDFXMLParser.parse(f, sink)`, rdfxml.py:23-29, with a sink. `doc` is what `etree.parse(f)` does. The result is the sink afterwards and the outcome
    (the method returns None). -/
def rdfXmlParse (nl : PStr → Bool) (add : σ → Stmt → σ) (next : Nat) (doc : Except Exc XElem) (sink : σ) : σ × Except Exc Unit :=
  match doc with
  | .error e => (sink, .error e)
  | .ok root =>
    if XVal.ne (.elem root) (.str (clarkRdf (py! "RDF"))) then (sink, .error .valueError)
    else xmlResources nl add { map := [], next } sink root.children

end Verif
