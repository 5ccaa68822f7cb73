import Verif.Model.TurtleLex
import Verif.Model.UrlJoin
import Verif.Model.Profile
/-
The Turtle parser: src/pymantic/parsers/lark/turtle.py, src/pymantic/parsers/base.py.

Lark's LALR(1) parser accepts exactly the token sequences of the grammar (turtle.py:35-57) and builds their trees. The model is a recursive-descent
parser; `Props/TurtleGrammar` shows that it accepts a token sequence if and only if it is the sequence of some tree, and then returns that tree.

The transformer runs on the finished tree, bottom-up and from left to right. Its callbacks for IRIs, literals, labelled and anonymous blank nodes and
directives run then (`eval`, below); those for triples, property lists and collections are generator functions, which run when
`graph.addAll` drains them (`gen`, below).
-/
namespace Verif.Turtle

/-! ### Trees -/

/-- `iri | blank_node`, turtle.py:46, 56, 58 -/
inductive NodeTok
  | iri (i : IriTok)
  | label (l : PStr)
  | anon
  deriving DecidableEq, Repr

/-- `verb`, turtle.py:45 -/
inductive VerbTok
  | a
  | iri (i : IriTok)
  deriving DecidableEq, Repr

/-- What an object can be besides a collection and a property list, turtle.py:48-49, 52-58. -/
inductive LeafTok
  | node (n : NodeTok)
  | str (body : PStr)
  | strLang (body lang : PStr)
  | strDt (body : PStr) (dt : IriTok)
  | num (k : NumKind) (text : PStr)
  | bool (text : PStr)
  deriving DecidableEq, Repr

mutual
/-- `object`, turtle.py:48 -/
inductive Obj (V L : Type)
  | leaf (l : L)
  | coll (c : Coll V L)
  | bnpl (p : Pol V L)
/-- `object_list`, turtle.py:44: one object or several. -/
inductive Objs (V L : Type)
  | one (o : Obj V L)
  | cons (o : Obj V L) (os : Objs V L)
/-- The objects of a `collection`, turtle.py:51. -/
inductive Coll (V L : Type)
  | nil
  | cons (o : Obj V L) (c : Coll V L)
/-- `predicate_object_list`, turtle.py:43. `extra` is the number of ";" beyond the one that separates; `trail` the number of ";" at the end. -/
inductive Pol (V L : Type)
  | last (v : V) (os : Objs V L) (trail : Nat)
  | cons (v : V) (os : Objs V L) (extra : Nat) (p : Pol V L)
end

/-- `statement`, turtle.py:36-42; `sparql` tells PREFIX and BASE from @prefix and @base. `N` is the type of subject nodes. -/
inductive TStmt (N V L : Type)
  | pre (sparql : Bool) (ns iri : PStr)
  | base (sparql : Bool) (iri : PStr)
  | node (s : N) (p : Pol V L)
  | coll (c : Coll V L) (p : Pol V L)
  | bnpl (s : Pol V L)
  | bnplPol (s : Pol V L) (p : Pol V L)

/-! ### Parsing tokens -/

abbrev PObj := Obj VerbTok LeafTok
abbrev PObjs := Objs VerbTok LeafTok
abbrev PColl := Coll VerbTok LeafTok
abbrev PPol := Pol VerbTok LeafTok
abbrev PTStmt := TStmt NodeTok VerbTok LeafTok

/-- The longest run of ";" at the start. -/
def countSemi : List Tok → Nat
  | .semi :: r => countSemi r + 1
  | _ => 0

/-- `verb`, turtle.py:45 -/
def pVerb : List Tok → Option (VerbTok × List Tok)
  | .kwA :: r => some (.a, r)
  | .iri i :: r => some (.iri i, r)
  | _ => none

mutual
/-- `object`, turtle.py:48-58. The first argument of each function is fuel; `C93_exact` shows that it suffices. -/
def pObj : Nat → List Tok → Except Exc (PObj × List Tok)
  | 0, _ => .error .outOfFuel
  | n + 1, ts =>
    match ts with
    | .iri i :: r => .ok (.leaf (.node (.iri i)), r)
    | .label l :: r => .ok (.leaf (.node (.label l)), r)
    | .anon :: r => .ok (.leaf (.node .anon), r)
    | .num k t :: r => .ok (.leaf (.num k t), r)
    | .bool t :: r => .ok (.leaf (.bool t), r)
    | .str b :: r =>
      match r with
      | .lang l :: r => .ok (.leaf (.strLang b l), r)
      | .carets :: .iri i :: r => .ok (.leaf (.strDt b i), r)
      | .carets :: _ => .error .unexpectedInput
      | r => .ok (.leaf (.str b), r)
    | .lpar :: r =>
      match pColl n r with
      | .error e => .error e
      | .ok (c, r) => .ok (.coll c, r)
    | .lbr :: r =>
      match pPol n r with
      | .error e => .error e
      | .ok (p, .rbr :: r) => .ok (.bnpl p, r)
      | .ok _ => .error .unexpectedInput
    | _ => .error .unexpectedInput
/-- `object* ")"`, turtle.py:51 -/
def pColl : Nat → List Tok → Except Exc (PColl × List Tok)
  | 0, _ => .error .outOfFuel
  | n + 1, ts =>
    match ts with
    | .rpar :: r => .ok (.nil, r)
    | ts =>
      match pObj n ts with
      | .error e => .error e
      | .ok (o, r) =>
        match pColl n r with
        | .error e => .error e
        | .ok (c, r) => .ok (.cons o c, r)
/-- `object_list`, turtle.py:44 -/
def pObjs : Nat → List Tok → Except Exc (PObjs × List Tok)
  | 0, _ => .error .outOfFuel
  | n + 1, ts =>
    match pObj n ts with
    | .error e => .error e
    | .ok (o, .comma :: r) =>
      match pObjs n r with
      | .error e => .error e
      | .ok (os, r) => .ok (.cons o os, r)
    | .ok (o, r) => .ok (.one o, r)
/-- `predicate_object_list`, turtle.py:43 -/
def pPol : Nat → List Tok → Except Exc (PPol × List Tok)
  | 0, _ => .error .outOfFuel
  | n + 1, ts =>
    match pVerb ts with
    | none => .error .unexpectedInput
    | some (v, r) =>
      match pObjs n r with
      | .error e => .error e
      | .ok (os, r) =>
        match countSemi r with
        | 0 => .ok (.last v os 0, r)
        | k + 1 =>
          match pVerb (r.drop (k + 1)) with
          | none => .ok (.last v os (k + 1), r.drop (k + 1))
          | some _ =>
            match pPol n (r.drop (k + 1)) with
            | .error e => .error e
            | .ok (p, r) => .ok (.cons v os k p, r)
end

/-- `predicate_object_list "."` -/
def pPolDot (n : Nat) (ts : List Tok) : Except Exc (PPol × List Tok) :=
  match pPol n ts with
  | .error e => .error e
  | .ok (p, .dot :: r) => .ok (p, r)
  | .ok _ => .error .unexpectedInput

/-- `iri | blank_node` as a subject, turtle.py:46 -/
def pNode : List Tok → Option (NodeTok × List Tok)
  | .iri i :: r => some (.iri i, r)
  | .label l :: r => some (.label l, r)
  | .anon :: r => some (.anon, r)
  | _ => none

/-- `statement`, turtle.py:36-42, 46 -/
def pStmt (n : Nat) (ts : List Tok) : Except Exc (PTStmt × List Tok) :=
  match ts with
  | .atPrefix :: .ns p :: .iri (.ref i) :: .dot :: r => .ok (.pre false p i, r)
  | .kwPrefix :: .ns p :: .iri (.ref i) :: r => .ok (.pre true p i, r)
  | .atBase :: .iri (.ref i) :: .dot :: r => .ok (.base false i, r)
  | .kwBase :: .iri (.ref i) :: r => .ok (.base true i, r)
  | .lpar :: r =>
    match pColl n r with
    | .error e => .error e
    | .ok (c, r) => (pPolDot n r).map fun x => (.coll c x.1, x.2)
  | .lbr :: r =>
    match pPol n r with
    | .error e => .error e
    | .ok (s, .rbr :: .dot :: r) => .ok (.bnpl s, r)
    | .ok (s, .rbr :: r) => (pPolDot n r).map fun x => (.bnplPol s x.1, x.2)
    | .ok _ => .error .unexpectedInput
  | ts =>
    match pNode ts with
    | some (s, r) => (pPolDot n r).map fun x => (.node s x.1, x.2)
    | none => .error .unexpectedInput

/-- `turtle_doc: statement*`, turtle.py:35; the first argument is the fuel of the whole, the second that of the parts. -/
def pStmts : Nat → Nat → List Tok → Except Exc (List PTStmt)
  | 0, _, _ => .error .outOfFuel
  | n + 1, m, ts =>
    match ts with
    | [] => .ok []
    | t :: ts =>
      match pStmt m (t :: ts) with
      | .error e => .error e
      | .ok (s, r) => (pStmts n m r).map (s :: ·)

/-- The statements of a token sequence. -/
def parseToks (ts : List Tok) : Except Exc (List PTStmt) := pStmts (ts.length + 1) (2 * ts.length + 2) ts

/-- `turtle_lark.parse(text)`, turtle.py:98, 297 -/
def parseTree (s : PStr) : Except Exc (List PTStmt) :=
  match lex s with
  | .error e => .error e
  | .ok ts => parseToks ts

/-! ### The transformer: eager callbacks -/

/-- The state of a TurtleTransformer, turtle.py:141-144, parsers/base.py:44-46: base IRI, prefixes, labelled blank nodes and the allocator. -/
structure TState where
  base : PStr
  prefixes : PrefixMap
  bn : BState
  deriving DecidableEq, Repr

/-- `LEGAL_IRI.match(iri)`, turtle.py:101-107; `$` also matches before a newline at the very end. -/
def legalIri (s : PStr) : Bool := s.all iriClass || (decide (s.getLast? = some 10) && s.dropLast.all iriClass)

/-- `decode_iriref`, turtle.py:146-147, on the text between the angle brackets. -/
def decodeIriref (t : PStr) : Except Exc PStr :=
  match decodeLiteral t with
  | .error e => .error e
  | .ok s => if legalIri s then .ok s else .error .valueError

/-- `smart_urljoin(self.base_iri, self.decode_iriref(iriref))`, turtle.py:154, 177, 193 -/
def resolveRef (nl : PStr → Bool) (base t : PStr) : Except Exc PStr :=
  match decodeIriref t with
  | .error e => .error e
  | .ok s => smartUrljoin nl base s

/-- `prefixed_name` (turtle.py:171-174), then `iri` (149-157) on its result: a name whose text begins with "<" is taken for an IRIREF. -/
def resolvePname (nl : PStr → Bool) (st : TState) (ns loc : PStr) : Except Exc PStr :=
  match st.prefixes.get? ns with
  | none => .error .keyError
  | some iri =>
    match decodeLiteral loc with
    | .error e => .error e
    | .ok l =>
      match iri ++ l with
      | 60 :: r => resolveRef nl st.base r.dropLast
      | s => .ok s

/-- `iri`, turtle.py:149-157 -/
def evalIri (nl : PStr → Bool) (st : TState) : IriTok → Except Exc PStr
  | .ref t => resolveRef nl st.base t
  | .pname ns loc => resolvePname nl st ns loc

/-- `iri` or `blank_node`, turtle.py:149-157, 202-210 -/
def evalNode (nl : PStr → Bool) (st : TState) : NodeTok → Except Exc (TState × Term)
  | .iri i => (evalIri nl st i).map fun s => (st, .named s)
  | .label l => let r := st.bn.node l; .ok ({ st with bn := r.1 }, .bnode r.2)
  | .anon => .ok ({ st with bn := { st.bn with next := st.bn.next + 1 } }, .bnode st.bn.next)

/-- `verb`: the Token `a` is replaced by rdf:type (turtle.py:119-122, later, but with no difference). -/
def evalVerb (nl : PStr → Bool) (st : TState) : VerbTok → Except Exc (TState × Term)
  | .a => .ok (st, .named (Heap.rdfNs ++ py! "type"))
  | .iri i => (evalIri nl st i).map fun s => (st, .named s)

def NumKind.datatype : NumKind → PStr
  | .integer => xsd (py! "integer")
  | .decimal => xsd (py! "decimal")
  | .double => xsd (py! "double")

/-- `string` and `rdf_literal`, `numeric_literal`, `boolean_literal`, turtle.py:235-282. The datatype comes after the string in the document, so its
    error (if both have one) comes second. -/
def evalLeaf (nl : PStr → Bool) (st : TState) : LeafTok → Except Exc (TState × Term)
  | .node n => evalNode nl st n
  | .str b => (decodeLiteral b).map fun v => (st, .lit v none (some (xsd (py! "string"))))
  | .strLang b l => (decodeLiteral b).map fun v => (st, .lit v (some l) none)
  | .strDt b i =>
    match decodeLiteral b with
    | .error e => .error e
    | .ok v => (evalIri nl st i).map fun d => (st, .lit v none (some d))
  | .num k t => .ok (st, .lit t none (some k.datatype))
  | .bool t => .ok (st, .lit t none (some (xsd (py! "boolean"))))

abbrev TObj := Obj Term Term
abbrev TObjs := Objs Term Term
abbrev TColl := Coll Term Term
abbrev TPol := Pol Term Term

mutual
/-- The eager callbacks on an object, in document order. -/
def evalObj (nl : PStr → Bool) : TState → PObj → Except Exc (TState × TObj)
  | st, .leaf l =>
    match evalLeaf nl st l with
    | .error e => .error e
    | .ok (st, t) => .ok (st, .leaf t)
  | st, .coll c =>
    match evalColl nl st c with
    | .error e => .error e
    | .ok (st, c) => .ok (st, .coll c)
  | st, .bnpl p =>
    match evalPol nl st p with
    | .error e => .error e
    | .ok (st, p) => .ok (st, .bnpl p)
def evalObjs (nl : PStr → Bool) : TState → PObjs → Except Exc (TState × TObjs)
  | st, .one o =>
    match evalObj nl st o with
    | .error e => .error e
    | .ok (st, o) => .ok (st, .one o)
  | st, .cons o os =>
    match evalObj nl st o with
    | .error e => .error e
    | .ok (st, o) =>
      match evalObjs nl st os with
      | .error e => .error e
      | .ok (st, os) => .ok (st, .cons o os)
def evalColl (nl : PStr → Bool) : TState → PColl → Except Exc (TState × TColl)
  | st, .nil => .ok (st, .nil)
  | st, .cons o c =>
    match evalObj nl st o with
    | .error e => .error e
    | .ok (st, o) =>
      match evalColl nl st c with
      | .error e => .error e
      | .ok (st, c) => .ok (st, .cons o c)
def evalPol (nl : PStr → Bool) : TState → PPol → Except Exc (TState × TPol)
  | st, .last v os k =>
    match evalVerb nl st v with
    | .error e => .error e
    | .ok (st, v) =>
      match evalObjs nl st os with
      | .error e => .error e
      | .ok (st, os) => .ok (st, .last v os k)
  | st, .cons v os k p =>
    match evalVerb nl st v with
    | .error e => .error e
    | .ok (st, v) =>
      match evalObjs nl st os with
      | .error e => .error e
      | .ok (st, os) =>
        match evalPol nl st p with
        | .error e => .error e
        | .ok (st, p) => .ok (st, .cons v os k p)
end

/-- A statement after the eager callbacks; a directive leaves a Tree that `turtle_doc` skips (turtle.py:278-282). -/
inductive EStmt
  | directive
  | node (s : Term) (p : TPol)
  | coll (c : TColl) (p : TPol)
  | bnpl (s : TPol)
  | bnplPol (s : TPol) (p : TPol)

/-- One statement; `prefix_id` and `base`, turtle.py:176-200 (`sparql_prefix` and `sparql_base` do the same). -/
def evalStmt (nl : PStr → Bool) (st : TState) : PTStmt → Except Exc (TState × EStmt)
  | .pre _ ns i => (resolveRef nl st.base i).map fun iri => ({ st with prefixes := st.prefixes.set ns iri }, .directive)
  | .base _ i => (resolveRef nl st.base i).map fun iri => ({ st with base := iri }, .directive)
  | .node s p =>
    match evalNode nl st s with
    | .error e => .error e
    | .ok (st, s) => (evalPol nl st p).map fun x => (x.1, .node s x.2)
  | .coll c p =>
    match evalColl nl st c with
    | .error e => .error e
    | .ok (st, c) => (evalPol nl st p).map fun x => (x.1, .coll c x.2)
  | .bnpl s => (evalPol nl st s).map fun x => (x.1, .bnpl x.2)
  | .bnplPol s p =>
    match evalPol nl st s with
    | .error e => .error e
    | .ok (st, s) => (evalPol nl st p).map fun x => (x.1, .bnplPol s x.2)

def evalStmts (nl : PStr → Bool) : TState → List PTStmt → Except Exc (TState × List EStmt)
  | st, [] => .ok (st, [])
  | st, s :: ss =>
    match evalStmt nl st s with
    | .error e => .error e
    | .ok (st, s) =>
      match evalStmts nl st ss with
      | .error e => .error e
      | .ok (st, ss) => .ok (st, s :: ss)

/-! ### The transformer: generators -/

def rdfFirst : Term := .named (Heap.rdfNs ++ py! "first")
def rdfRest : Term := .named (Heap.rdfNs ++ py! "rest")
def rdfNil : Term := .named (Heap.rdfNs ++ py! "nil")

/-- `Triple(subject, predicate, object_)` for each child of an `object_list` Tree, turtle.py:125-132: a child that is a generator (a collection or a property
    list) becomes the object itself. The number is the identity of that generator object. -/
def childTerm (n : Nat) : TObj → Nat × Term
  | .leaf t => (n, t)
  | _ => (n + 1, .gen n)

def genMany (s v : Term) : Nat → TObjs → Nat × List Stmt
  | n, .one o => let r := childTerm n o; (r.1, [mkTriple s v r.2])
  | n, .cons o os =>
    let r := childTerm n o
    let rs := genMany s v r.1 os
    (rs.1, mkTriple s v r.2 :: rs.2)

mutual
/-- An object: the triples its generator yields before the node, and the node. `n` is the allocator of object identities. -/
def genObj : Nat → TObj → Nat × List Stmt × Term
  | n, .leaf t => (n, [], t)
  | n, .coll c => genColl n c
  | n, .bnpl p => let r := genPol (.bnode n) (n + 1) p; (r.1, r.2, .bnode n)
/-- `collection`, turtle.py:218-233: from the last value to the first. -/
def genColl : Nat → TColl → Nat × List Stmt × Term
  | n, .nil => (n, [], rdfNil)
  | n, .cons o c =>
    let rest := genColl n c
    let this := rest.1
    let v := genObj (this + 1) o
    (v.1, rest.2.1 ++ v.2.1 ++ [mkTriple (.bnode this) rdfFirst v.2.2, mkTriple (.bnode this) rdfRest rest.2.2], .bnode this)
/-- The loop of `unpack_predicate_object_list`, turtle.py:118-134. -/
def genPol (s : Term) : Nat → TPol → Nat × List Stmt
  | n, .last v os _ => genObjs s v n os
  | n, .cons v os _ p =>
    let a := genObjs s v n os
    let b := genPol s a.1 p
    (b.1, a.2 ++ b.2)
/-- One predicate and its object or objects, turtle.py:124-134. -/
def genObjs (s v : Term) : Nat → TObjs → Nat × List Stmt
  | n, .one o => let r := genObj n o; (r.1, r.2.1 ++ [mkTriple s v r.2.2])
  | n, .cons o os => genMany s v n (.cons o os)
end

/-- `triples`, turtle.py:162-169; a subject that is a generator is drained first (turtle.py:111-117). -/
def genStmt (n : Nat) : EStmt → Nat × List Stmt
  | .directive => (n, [])
  | .node s p => genPol s n p
  | .coll c p =>
    let a := genColl n c
    let b := genPol a.2.2 a.1 p
    (b.1, a.2.1 ++ b.2)
  | .bnpl s => let a := genPol (.bnode n) (n + 1) s; (a.1, a.2)
  | .bnplPol s p =>
    let a := genPol (.bnode n) (n + 1) s
    let b := genPol (.bnode n) a.1 p
    (b.1, a.2 ++ b.2)

/-- `turtle_doc`, turtle.py:277-282 -/
def genStmts : Nat → List EStmt → Nat × List Stmt
  | n, [] => (n, [])
  | n, s :: ss =>
    let a := genStmt n s
    let b := genStmts a.1 ss
    (b.1, a.2 ++ b.2)

/-! ### parse -/

/-- What can be passed to `parse`. -/
inductive Input
  | str (s : PStr)
  | bytes (b : List Nat)
  | stream (content : PStr)   -- an object with `readline` and `read`

/-- The prefixes of the profile of a new TurtleTransformer: turtle.py:144, parsers/base.py:14-18. -/
def initialPrefixes : PrefixMap := [(py! "rdf", Heap.rdfNs), (py! "xsd", Heap.xsdNs)]

/-- The triples of a document, and the allocator. An exception of a callback is wrapped in VisitError by Lark. -/
def parseText (nl : PStr → Bool) (base : PStr) (next : Nat) (text : PStr) : Except Exc (Nat × List Stmt) :=
  match parseTree text with
  | .error e => .error e
  | .ok ss =>
    match evalStmts nl { base, prefixes := initialPrefixes, bn := { map := [], next } } ss with
    | .error _ => .error .visitError
    | .ok (st, es) => .ok (genStmts st.bn.next es)

/-- `parse(string_or_stream, graph, base)`, turtle.py:285-305 (and `parse_string`, 308-309): the graph, the allocator and the outcome. A stream is read (line 287), but
    then line 295 puts the stream itself in place of its text, and Lark raises TypeError. The transformer runs before `addAll`,
    so nothing is added unless the whole text was parsed. -/
def parse {σ : Type} (add : σ → Stmt → σ) (nl : PStr → Bool) (base : PStr) (next : Nat) (sink : σ) : Input → σ × Nat × Except Exc Unit
  | .stream _ => (sink, next, .error .typeError)
  | .str s =>
    match parseText nl base next s with
    | .error e => (sink, next, .error e)
    | .ok (n, ts) => (ts.foldl add sink, n, .ok ())
  | .bytes b =>
    match utf8Decode b with
    | none => (sink, next, .error .unicodeDecodeError)
    | some s =>
      match parseText nl base next s with
      | .error e => (sink, next, .error e)
      | .ok (n, ts) => (ts.foldl add sink, n, .ok ())

#guard (parseText (fun _ => true) [] 0 (py! "@prefix p: <http://a/> . p:b a p:c, p:d ; p:e [ p:f (1) ] .")).map (·.2) =
  .ok [mkTriple (.named (py! "http://a/b")) (.named (Heap.rdfNs ++ py! "type")) (.named (py! "http://a/c")),
    mkTriple (.named (py! "http://a/b")) (.named (Heap.rdfNs ++ py! "type")) (.named (py! "http://a/d")),
    mkTriple (.bnode 1) rdfFirst (.lit (py! "1") none (some (xsd (py! "integer")))), mkTriple (.bnode 1) rdfRest rdfNil,
    mkTriple (.bnode 0) (.named (py! "http://a/f")) (.bnode 1),
    mkTriple (.named (py! "http://a/b")) (.named (py! "http://a/e")) (.bnode 0)]

end Verif.Turtle
