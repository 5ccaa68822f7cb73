import Verif.Model.Iri
import Verif.Model.Dataset
import Verif.Model.Escape
/-
N-Triples and N-Quads: src/pymantic/serializers.py:34-43, Triple.__str__ and Quad.__str__ (primitives.py),
src/pymantic/parsers/lark/ntriples.py, nquads.py and base.py, src/pymantic/parsers/base.py.

The parser in /repo is a Lark LALR(1) parser with Lark's contextual lexer, generated from the grammar of ntriples.py:21-49. The model is a
recursive-descent recogniser for that grammar. The two accept the same texts because in every parser state the acceptable
terminals (and the ignored white space) begin with different characters, and every terminal is matched greedily.
Simplification: when a text contains several errors the model reports the leftmost one; Lark, which reads one token ahead before it runs
a callback, may report the next one. Which of the two is raised is the only difference; that something is raised is the same.
-/
namespace Verif

/-! ### Writing -/

/-- `Triple.__str__`, primitives.py:159-160 -/
def tripleStr (t : Stmt) : Except Exc PStr := do
  let s ← t.s.toNT
  let p ← t.p.toNT
  let o ← t.o.toNT
  return s ++ [32] ++ p ++ [32] ++ o ++ py! " .\n"

/-- `str(term)`: primitives.py:288-289, 313-314, 349-350. Simplification: the text of a generator object (which contains its address)
    is abbreviated. -/
def Term.str : Term → PStr
  | .none => py! "None"
  | .named iri => iri
  | .bnode id => bnodeStr id
  | .lit v _ _ => v
  | .gen _ => py! "<generator object>"

/-- `Quad.__str__`, primitives.py:213-214 -/
def quadStr (t : Stmt) : PStr :=
  t.s.str ++ [32] ++ t.p.str ++ [32] ++ t.o.str ++ [32] ++ (t.g.getD .none).str ++ py! " .\n"

/-- `serialize_ntriples(graph, f)`, serializers.py:34-37, on the triples in the order the graph yields them: what has been
    written to `f` and whether it raised. -/
def serializeNTriples : List Stmt → PStr × Except Exc Unit
  | [] => ([], .ok ())
  | t :: ts =>
    match tripleStr t with
    | .error e => ([], .error e)
    | .ok line =>
      let r := serializeNTriples ts
      (line ++ r.1, r.2)

/-- `serialize_nquads(dataset, f)`, serializers.py:40-43 -/
def serializeNQuads (qs : List Stmt) : PStr := qs.flatMap quadStr

/-! ### The grammar -/

/-- `%ignore /[ \t]/+`, ntriples.py:48 -/
def isWs (c : Nat) : Bool := c == 32 || c == 9

/-- `[\r\n]` of EOL, ntriples.py:37 -/
def isEol (c : Nat) : Bool := c == 10 || c == 13

def skipWs (s : PStr) : PStr := s.dropWhile isWs

/-- UCHAR, ntriples.py:41: the number of characters of the escape after its backslash, 0 if there is none. -/
def ucharTail : PStr → Nat
  | 117 :: h => if (h.take 4).length = 4 ∧ (h.take 4).all isHex then 5 else 0
  | 85 :: h => if (h.take 8).length = 8 ∧ (h.take 8).all isHex then 9 else 0
  | _ => 0

/-- ECHAR | UCHAR, ntriples.py:41-42: likewise. -/
def escTail : PStr → Nat
  | c :: r => if c ∈ py! "tbnrf\"'\\" then 1 else ucharTail (c :: r)
  | [] => 0

/-- ``/[^\x00-\x20<>"{}|^`\\]/``, ntriples.py:38 -/
def iriClass (c : Nat) : Bool :=
  decide (0x20 < c) && !(c == 60) && !(c == 62) && !(c == 34) && !(c == 123) && !(c == 125) && !(c == 124) && !(c == 94) && !(c == 96) && !(c == 92)

/-- The rest of `iriref` after `<`, ntriples.py:38: the concatenated children (each a token) and the text after `>`. As iriref is a rule and not a
    terminal, white space between its tokens is ignored. The first argument counts the characters of a UCHAR token still to be taken. -/
def iriAux : Nat → PStr → Option (PStr × PStr)
  | _, [] => none
  | k + 1, c :: r => (iriAux k r).map fun x => (c :: x.1, x.2)
  | 0, c :: r =>
    if c = 62 then some ([], r)
    else if isWs c then iriAux 0 r
    else if c = 92 then
      match ucharTail r with
      | 0 => none
      | n + 1 => (iriAux (n + 1) r).map fun x => (c :: x.1, x.2)
    else if iriClass c then (iriAux 0 r).map fun x => (c :: x.1, x.2)
    else none

/-- The rest of STRING_LITERAL_QUOTE after the opening quote, ntriples.py:39: the text between the quotes and the text after. -/
def strAux : Nat → PStr → Option (PStr × PStr)
  | _, [] => none
  | k + 1, c :: r => (strAux k r).map fun x => (c :: x.1, x.2)
  | 0, c :: r =>
    if c = 34 then some ([], r)
    else if c = 92 then
      match escTail r with
      | 0 => none
      | n + 1 => (strAux (n + 1) r).map fun x => (c :: x.1, x.2)
    else if isEol c then none
    else (strAux 0 r).map fun x => (c :: x.1, x.2)

/-- PN_CHARS_BASE, ntriples.py:43. The last range is written with five hexadecimal digits after a four-digit escape, so it is read as U+1000, the range from
    "0" to U+EFFF, and "F". -/
def pnCharsBase (c : Nat) : Bool :=
  decide ((65 ≤ c ∧ c ≤ 90) ∨ (97 ≤ c ∧ c ≤ 122) ∨ (0xC0 ≤ c ∧ c ≤ 0xD6) ∨ (0xD8 ≤ c ∧ c ≤ 0xF6) ∨ (0xF8 ≤ c ∧ c ≤ 0x2FF) ∨
    (0x370 ≤ c ∧ c ≤ 0x37D) ∨ (0x37F ≤ c ∧ c ≤ 0x1FFF) ∨ (0x200C ≤ c ∧ c ≤ 0x200D) ∨ (0x2070 ≤ c ∧ c ≤ 0x218F) ∨ (0x2C00 ≤ c ∧ c ≤ 0x2FEF) ∨
    (0x3001 ≤ c ∧ c ≤ 0xD7FF) ∨ (0xF900 ≤ c ∧ c ≤ 0xFDCF) ∨ (0xFDF0 ≤ c ∧ c ≤ 0xFFFD) ∨ c = 0x1000 ∨ (48 ≤ c ∧ c ≤ 0xEFFF) ∨ c = 70)

/-- PN_CHARS_U, ntriples.py:44 -/
def pnCharsU (c : Nat) : Bool := pnCharsBase c || c == 95 || c == 58

/-- PN_CHARS, ntriples.py:45 -/
def pnChars (c : Nat) : Bool :=
  pnCharsU c || decide (c = 45 ∨ (48 ≤ c ∧ c ≤ 57) ∨ c = 0xB7 ∨ (0x300 ≤ c ∧ c ≤ 0x36F) ∨ (0x203F ≤ c ∧ c ≤ 0x2040))

/-- `((PN_CHARS | ".")* PN_CHARS)?` of BLANK_NODE_LABEL, ntriples.py:40: a greedy match, so the longest run of the class that does
    not end in a dot. -/
def labelTail (s : PStr) : PStr :=
  (((s.takeWhile fun c => pnChars c || c == 46).reverse).dropWhile (· == 46)).reverse

/-- BLANK_NODE_LABEL after its `_:`, ntriples.py:40: the whole label (with `_:`) and the text after it. -/
def pLabel : PStr → Option (PStr × PStr)
  | c :: r =>
    if pnCharsU c || decide (48 ≤ c ∧ c ≤ 57) then some (95 :: 58 :: c :: labelTail r, r.drop (labelTail r).length) else none
  | [] => none

/-- `[a-zA-Z]` -/
def isLetter (c : Nat) : Bool := decide ((65 ≤ c ∧ c ≤ 90) ∨ (97 ≤ c ∧ c ≤ 122))

/-- `[a-zA-Z0_9]`, ntriples.py:36 (sic: "0", "_" and "9", not a range) -/
def langSub (c : Nat) : Bool := isLetter c || c == 48 || c == 95 || c == 57

/-- The rest of LANGTAG after its first letter, ntriples.py:36: the longest match; the argument says whether a "-" has been passed. -/
def langTail : Bool → PStr → PStr
  | _, [] => []
  | sub, c :: r =>
    if (if sub then langSub c else isLetter c) then c :: langTail sub r
    else
      match c, r with
      | 45, d :: r' => if langSub d then 45 :: d :: langTail true r' else []
      | _, _ => []

/-- A term as written: blank nodes still labels. -/
inductive RTerm
  | iri (i : PStr)
  | label (l : PStr)
  | lit (v : PStr) (lang dt : Option PStr)
  deriving DecidableEq, Repr

/-- A statement as written; `g = none` in N-Triples. -/
structure RStmt where
  s : RTerm
  p : RTerm
  o : RTerm
  g : Option RTerm := none
  deriving DecidableEq, Repr

/-- `iriref` and its callback, ntriples.py:38, 59-62 -/
def pIriRef (s : PStr) : Except Exc (PStr × PStr) :=
  match skipWs s with
  | 60 :: r =>
    match iriAux 0 r with
    | none => .error .unexpectedInput
    | some x => (decodeLiteral x.1).map fun v => (v, x.2)
  | _ => .error .unexpectedInput

/-- `?subject`, ntriples.py:27-28 -/
def pSubject (s : PStr) : Except Exc (RTerm × PStr) :=
  match skipWs s with
  | 95 :: 58 :: r =>
    match pLabel r with
    | none => .error .unexpectedInput
    | some x => .ok (.label x.1, x.2)
  | _ => (pIriRef s).map fun x => (.iri x.1, x.2)

/-- What follows STRING_LITERAL_QUOTE in `literal` and its callback, ntriples.py:34, 64-77, parsers/base.py:20-27. -/
def pSuffix (v s : PStr) : Except Exc (RTerm × PStr) :=
  match skipWs s with
  | 94 :: 94 :: r => (pIriRef r).map fun x => (.lit v none (some x.1), x.2)
  | 64 :: r =>
    match r with
    | c :: r =>
      if isLetter c then .ok (.lit v (some (c :: langTail false r)) none, r.drop (langTail false r).length)
      else .error .unexpectedInput
    | [] => .error .unexpectedInput
  | _ => .ok (.lit v none none, s)

/-- `?object`, ntriples.py:30-32 -/
def pObject (s : PStr) : Except Exc (RTerm × PStr) :=
  match skipWs s with
  | 34 :: r =>
    match strAux 0 r with
    | none => .error .unexpectedInput
    | some x =>
      match decodeLiteral x.1 with
      | .error e => .error e
      | .ok v => pSuffix v x.2
  | _ => pSubject s

/-- the terminating `"."` -/
def pDot (s : PStr) : Except Exc PStr :=
  match skipWs s with
  | 46 :: r => .ok r
  | _ => .error .unexpectedInput

/-- `?graph` of a quad, ntriples.py:33; absent in a triple. -/
def pGraph (quads : Bool) (s : PStr) : Except Exc (Option RTerm × PStr) :=
  if quads then (pIriRef s).map fun x => (some (.iri x.1), x.2) else .ok (none, s)

/-- `triple` (ntriples.py:22, 79-81) or `quad` (ntriples.py:25, nquads.py:24-26). -/
def pStmt (quads : Bool) (s : PStr) : Except Exc (RStmt × PStr) :=
  match pSubject s with
  | .error e => .error e
  | .ok (sub, r1) =>
    match pIriRef r1 with
    | .error e => .error e
    | .ok (pred, r2) =>
      match pObject r2 with
      | .error e => .error e
      | .ok (obj, r3) =>
        match pGraph quads r3 with
        | .error e => .error e
        | .ok (gr, r4) => (pDot r4).map fun r5 => ({ s := sub, p := .iri pred, o := obj, g := gr }, r5)

/-- `(EOL triple)* EOL?` to the end of the text, ntriples.py:21, 24. The first argument is fuel; `pDoc_fuel` shows the
    text's length is enough. -/
def pTail (quads : Bool) : Nat → PStr → Except Exc (List RStmt)
  | 0, _ => .error .outOfFuel
  | n + 1, s =>
    match skipWs s with
    | [] => .ok []
    | c :: r =>
      if isEol c then
        match skipWs (r.dropWhile isEol) with
        | [] => .ok []
        | t =>
          match pStmt quads t with
          | .error e => .error e
          | .ok (st, r') => (pTail quads n r').map (st :: ·)
      else .error .unexpectedInput

/-- `triples_start` / `quads_start`, ntriples.py:21, 24: the statements `lark.parse(text)` yields, blank nodes as labels. -/
def pDoc (quads : Bool) (s : PStr) : Except Exc (List RStmt) :=
  match skipWs s with
  | [] => .ok []
  | c :: r =>
    if isEol c then pTail quads (s.length + 1) (c :: r)
    else
      match pStmt quads (c :: r) with
      | .error e => .error e
      | .ok (st, r') => (pTail quads (s.length + 1) r').map (st :: ·)

/-! ### Blank nodes and the sink -/

/-- `_call_state.bnodes` (a `defaultdict(createBlankNode)`, parsers/base.py:44-46) together with the allocator of BlankNode objects. Simplification: identities are
    never reused; CPython reuses the address of an object only after it has been freed. -/
structure BState where
  map : Dict PStr Nat
  next : Nat
  deriving DecidableEq, Repr

/-- `make_blank_node(label)`, parsers/base.py:32-36 -/
def BState.node (st : BState) (l : PStr) : BState × Nat :=
  match st.map.get? l with
  | some i => (st, i)
  | none => ({ map := st.map.set l st.next, next := st.next + 1 }, st.next)

/-- The callbacks `blank_node_label`, `iriref`, `literal`, ntriples.py:55-77, with the constructors they call (parsers/base.py:20-36). -/
def BState.term (st : BState) : RTerm → BState × Term
  | .iri i => (st, .named i)
  | .label l => let r := st.node l; (r.1, .bnode r.2)
  | .lit v l d => (st, .lit v l d)

/-- The callback `triple` / `quad`: ntriples.py:79-81, nquads.py:22-26, parsers/base.py:38-42. -/
def BState.stmt (st : BState) (t : RStmt) : BState × Stmt :=
  let a := st.term t.s
  let b := a.1.term t.p
  let c := b.1.term t.o
  match t.g with
  | none => (c.1, mkTriple a.2 b.2 c.2)
  | some g => let d := c.1.term g; (d.1, mkQuad a.2 b.2 c.2 d.2)

/-- `triples_start` and `quads_start`, ntriples.py:83-86, nquads.py:28-31: the children that are statements. The generator is drained by `addAll`. -/
def BState.stmts (st : BState) : List RStmt → BState × List Stmt
  | [] => (st, [])
  | t :: ts =>
    let a := st.stmt t
    let r := a.1.stmts ts
    (r.1, a.2 :: r.2)

variable {σ : Type}

/-- `LarkParser.parse(string, graph)`, parsers/lark/base.py:14-36, with a `str`: the sink afterwards, the allocator and
    the outcome. `next` is the allocator before the call; `add` is the sink's `add` (`addAll` is a loop of it: primitives.py:464-469, 550-555).
    The transformer runs during `lark.parse`, so nothing is added unless the whole text was parsed. -/
def parseString (add : σ → Stmt → σ) (quads : Bool) (next : Nat) (text : PStr) (sink : σ) : σ × Nat × Except Exc Unit :=
  match pDoc quads text with
  | .error e => (sink, next, .error e)
  | .ok rs =>
    let r := BState.stmts { map := [], next := next } rs
    (r.2.foldl add sink, r.1.next, .ok ())

/-- `line_by_line_parser` (parsers/lark/base.py:9-12) drained by `graph.addAll`: per line, `next(self.lark.parse(line))` is the first statement; on a line
    without one the StopIteration becomes a RuntimeError (PEP 479). Lines obtained by iterating a stream are not empty. -/
def parseLines (add : σ → Stmt → σ) (quads : Bool) : BState → List PStr → σ → σ × BState × Except Exc Unit
  | st, [], sink => (sink, st, .ok ())
  | st, line :: lines, sink =>
    if line = [] then parseLines add quads st lines sink
    else
      match pDoc quads line with
      | .error e => (sink, st, .error e)
      | .ok rs =>
        let r := st.stmts rs
        match r.2 with
        | [] => (sink, r.1, .error .runtimeError)
        | t :: _ => parseLines add quads r.1 lines (add sink t)

/-- Iterating a text stream: the lines of its content, each with its "\n" (`io.StringIO`, or a text file after universal-newline translation). -/
def splitLines : PStr → List PStr
  | [] => []
  | c :: r =>
    if c = 10 then [10] :: splitLines r
    else
      match splitLines r with
      | [] => [[c]]
      | l :: ls => (c :: l) :: ls

/-- `LarkParser.parse(stream, graph)`, parsers/lark/base.py:14-36, with an object that has `readline`. -/
def parseStream (add : σ → Stmt → σ) (quads : Bool) (next : Nat) (content : PStr) (sink : σ) : σ × Nat × Except Exc Unit :=
  let r := parseLines add quads { map := [], next := next } (splitLines content) sink
  (r.1, r.2.1.next, r.2.2)

/-- `Dataset.add(quad)` as the sink of `nquads_parser` -/
def Dataset.addStmt (ds : Dataset) (t : Stmt) : Dataset := ds.add t.s t.p t.o (t.g.getD .none)

end Verif
