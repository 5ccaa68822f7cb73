import Verif.Model.NTriples
/-
The terminals of the Turtle grammar, src/pymantic/parsers/lark/turtle.py:35-96, and Lark's contextual lexer.

Lark's lexer tries, in each state of the LALR(1) parser, the terminals acceptable there, as one regular expression whose alternatives are sorted by
decreasing width and length of the pattern; white space and comments (turtle.py:93-95) are skipped. `lexTok` follows that order:
ANON before "[", long strings before short ones, DOUBLE before DECIMAL before INTEGER before ".", PNAME_LN before PNAME_NS before `a`,
`true|false`, BASE and PREFIX. The parser state matters only where `Ctx` distinguishes it: "@prefix", "@base", BASE and PREFIX are acceptable at the start
of a statement only, LANGTAG and "^^" after a string only, PNAME_NS without PNAME_LN after "@prefix" and PREFIX.
Simplification: in some states the model accepts a terminal that Lark's lexer would not; the parser then rejects it, so the
outcome (an UnexpectedInput exception) is the same.
-/
namespace Verif.Turtle

/-- `WS`, turtle.py:81 -/
def isWs (c : Nat) : Bool := c == 0x20 || c == 0x09 || c == 0x0D || c == 0x0A

/-- `%ignore WS` and `%ignore COMMENT`, turtle.py:93-95; the argument says whether a comment has begun. -/
def skipIgn : Bool → PStr → PStr
  | _, [] => []
  | true, c :: r => if c = 10 then skipIgn false r else skipIgn true r
  | false, c :: r => if isWs c then skipIgn false r else if c = 35 then skipIgn true r else c :: r

/-- PN_CHARS_BASE, turtle.py:83 -/
def pnBase (c : Nat) : Bool :=
  decide ((65 ≤ c ∧ c ≤ 90) ∨ (97 ≤ c ∧ c ≤ 122) ∨ (0xC0 ≤ c ∧ c ≤ 0xD6) ∨ (0xD8 ≤ c ∧ c ≤ 0xF6) ∨ (0xF8 ≤ c ∧ c ≤ 0x2FF) ∨
    (0x370 ≤ c ∧ c ≤ 0x37D) ∨ (0x37F ≤ c ∧ c ≤ 0x1FFF) ∨ (0x200C ≤ c ∧ c ≤ 0x200D) ∨ (0x2070 ≤ c ∧ c ≤ 0x218F) ∨ (0x2C00 ≤ c ∧ c ≤ 0x2FEF) ∨
    (0x3001 ≤ c ∧ c ≤ 0xD7FF) ∨ (0xF900 ≤ c ∧ c ≤ 0xFDCF) ∨ (0xFDF0 ≤ c ∧ c ≤ 0xFFFD) ∨ (0x10000 ≤ c ∧ c ≤ 0xEFFFF))

/-- PN_CHARS_U, turtle.py:84 -/
def pnU (c : Nat) : Bool := pnBase c || c == 95

/-- `[0-9]` -/
def isDigit (c : Nat) : Bool := decide (48 ≤ c ∧ c ≤ 57)

/-- PN_CHARS, turtle.py:85 -/
def pnChar (c : Nat) : Bool :=
  pnU c || c == 45 || isDigit c || decide (c = 0xB7 ∨ (0x300 ≤ c ∧ c ≤ 0x36F) ∨ (0x203F ≤ c ∧ c ≤ 0x2040))

/-- `((PN_CHARS | ".")* PN_CHARS)?` of PN_PREFIX and BLANK_NODE_LABEL, turtle.py:64, 86: greedy, so the longest run that does not end in a dot. -/
def dotTail : PStr → PStr
  | [] => []
  | c :: r =>
    if c = 46 then
      match dotTail r with
      | [] => []
      | t => 46 :: t
    else if pnChar c then c :: dotTail r
    else []

/-- PNAME_NS, turtle.py:62, 86: the text before the colon, and the text after it. -/
def scanNs : PStr → Option (PStr × PStr)
  | [] => none
  | c :: r =>
    if c = 58 then some ([], r)
    else if pnBase c then
      match r.drop (dotTail r).length with
      | 58 :: r' => some (c :: dotTail r, r')
      | _ => none
    else none

/-- PN_LOCAL_ESC, turtle.py:91 -/
def localEsc : PStr := py! "_~.-!$&'()*+,;=/?#@%"

/-- The length of a PLX (turtle.py:88-91) at the start of the text, 0 if there is none. -/
def plxLen : PStr → Nat
  | 37 :: a :: b :: _ => if isHex a && isHex b then 3 else 0
  | 92 :: c :: _ => if localEsc.contains c then 2 else 0
  | _ => 0

/-- `((PN_CHARS | "." | ":" | PLX)* (PN_CHARS | ":" | PLX))?` of PN_LOCAL, turtle.py:87: the longest run that does not end in a bare
    dot. The first argument counts the characters of a PLX still to be taken. -/
def localTail : Nat → PStr → PStr
  | _, [] => []
  | k + 1, c :: r => c :: localTail k r
  | 0, c :: r =>
    if c = 46 then
      match localTail 0 r with
      | [] => []
      | t => 46 :: t
    else if pnChar c || c == 58 then c :: localTail 0 r
    else
      match plxLen (c :: r) with
      | 0 => []
      | n + 1 => c :: localTail n r

/-- PN_LOCAL, turtle.py:87; `[]` if there is none. -/
def scanLocal : PStr → PStr
  | [] => []
  | c :: r =>
    if pnU c || c == 58 || isDigit c then c :: localTail 0 r
    else
      match plxLen (c :: r) with
      | 0 => []
      | n + 1 => c :: localTail n r

/-- PNAME_LN or PNAME_NS, turtle.py:62-63: the text before the first colon, the local name, the text after. -/
def scanPname (s : PStr) : Option (PStr × PStr × PStr) :=
  match scanNs s with
  | none => none
  | some (ns, r) => some (ns, scanLocal r, r.drop (scanLocal r).length)

/-- IRIREF after its `<`, turtle.py:61: the text up to `>` and the text after. The first argument counts the characters of a UCHAR still to be taken. -/
def scanIri : Nat → PStr → Option (PStr × PStr)
  | _, [] => none
  | k + 1, c :: r => (scanIri k r).map fun x => (c :: x.1, x.2)
  | 0, c :: r =>
    if c = 62 then some ([], r)
    else if c = 92 then
      match ucharTail r with
      | 0 => none
      | n + 1 => (scanIri (n + 1) r).map fun x => (c :: x.1, x.2)
    else if iriClass c then (scanIri 0 r).map fun x => (c :: x.1, x.2)
    else none

/-- STRING_LITERAL_QUOTE and STRING_LITERAL_SINGLE_QUOTE after the opening quote `q`, turtle.py:71-72. -/
def scanStr (q : Nat) : Nat → PStr → Option (PStr × PStr)
  | _, [] => none
  | k + 1, c :: r => (scanStr q k r).map fun x => (c :: x.1, x.2)
  | 0, c :: r =>
    if c = q then some ([], r)
    else if c = 92 then
      match escTail r with
      | 0 => none
      | n + 1 => (scanStr q (n + 1) r).map fun x => (c :: x.1, x.2)
    else if isEol c then none
    else (scanStr q 0 r).map fun x => (c :: x.1, x.2)

/-- The long strings after their three quotes `q`, turtle.py:73-74: one or two quotes may stand before any other character, so the first three
    quotes in a row end the string. -/
def scanLong (q : Nat) : Nat → PStr → Option (PStr × PStr)
  | _, [] => none
  | k + 1, c :: r => (scanLong q k r).map fun x => (c :: x.1, x.2)
  | 0, c :: r =>
    if c = q then
      if [q, q].isPrefixOf r then some ([], r.drop 2) else (scanLong q 0 r).map fun x => (c :: x.1, x.2)
    else if c = 92 then
      match escTail r with
      | 0 => none
      | n + 1 => (scanLong q (n + 1) r).map fun x => (c :: x.1, x.2)
    else (scanLong q 0 r).map fun x => (c :: x.1, x.2)

/-- A string that begins with the quote `q`; `r` is the text after that first quote. -/
def scanQuoted (q : Nat) (r : PStr) : Option (PStr × PStr) :=
  match (if [q, q].isPrefixOf r then scanLong q 0 (r.drop 2) else none) with
  | some x => some x
  | none => scanStr q 0 r

/-- `[a-zA-Z0-9]` -/
def isAlnum (c : Nat) : Bool := isLetter c || isDigit c

/-- The rest of LANGTAG after its first letter, turtle.py:65: the argument says whether a "-" has been passed. -/
def langTail : Bool → PStr → PStr
  | _, [] => []
  | sub, c :: r =>
    if (if sub then isAlnum c else isLetter c) then c :: langTail sub r
    else
      match c, r with
      | 45, d :: r' => if isAlnum d then 45 :: d :: langTail true r' else []
      | _, _ => []

/-- The three kinds of numbers. -/
inductive NumKind
  | integer | decimal | double
  deriving DecidableEq, Repr

/-- `[+-]?` -/
def signOf : PStr → PStr
  | c :: _ => if c = 43 ∨ c = 45 then [c] else []
  | [] => []

/-- EXPONENT, turtle.py:70; `[]` if there is none. -/
def scanExp : PStr → PStr
  | c :: r =>
    if c = 101 ∨ c = 69 then
      let sg := signOf r
      let ds := (r.drop sg.length).takeWhile isDigit
      if ds = [] then [] else c :: (sg ++ ds)
    else []
  | [] => []

/-- INTEGER, DECIMAL, DOUBLE, turtle.py:66-69: kind and text. -/
def scanNum (s : PStr) : Option (NumKind × PStr) :=
  let sg := signOf s
  let r0 := s.drop sg.length
  let ds := r0.takeWhile isDigit
  let r := r0.drop ds.length
  match r with
  | 46 :: r1 =>
    let fs := r1.takeWhile isDigit
    let ex := scanExp (r1.drop fs.length)
    if ex ≠ [] ∧ (ds ≠ [] ∨ fs ≠ []) then some (.double, sg ++ ds ++ 46 :: fs ++ ex)
    else if fs ≠ [] then some (.decimal, sg ++ ds ++ 46 :: fs)
    else if ds ≠ [] then some (.integer, sg ++ ds)
    else none
  | r =>
    if ds = [] then none
    else
      let ex := scanExp r
      if ex ≠ [] then some (.double, sg ++ ds ++ ex) else some (.integer, sg ++ ds)

/-- ANON after its "[", turtle.py:82: the text after "]". -/
def scanAnon (r : PStr) : Option PStr :=
  match r.dropWhile isWs with
  | 93 :: r' => some r'
  | _ => none

/-- A keyword that matches case-insensitively: each position lists the characters Python's `re` accepts (with U+017F for `s`,
    U+0130 and U+0131 for `i`). The result is the text after it. -/
def scanKw : List (List Nat) → PStr → Option PStr
  | [], s => some s
  | _ :: _, [] => none
  | k :: ks, c :: r => if k.contains c then scanKw ks r else none

/-- `/BASE/i`, turtle.py:40 -/
def kwBaseChars : List (List Nat) := [py! "Bb", py! "Aa", py! "Ssſ", py! "Ee"]

/-- `/PREFIX/i`, turtle.py:41 -/
def kwPrefixChars : List (List Nat) := [py! "Pp", py! "Rr", py! "Ee", py! "Ff", py! "Iiİı", py! "Xx"]

/-- A literal keyword at the start of the text. -/
def scanWord (w s : PStr) : Option PStr := if w.isPrefixOf s then some (s.drop w.length) else none

/-- IRIREF (the text between the angle brackets) or a prefixed name (split at its first colon, as turtle.py:171 does). -/
inductive IriTok
  | ref (text : PStr)
  | pname (ns loc : PStr)
  deriving DecidableEq, Repr

/-- A token; strings without their quotes, language tags without "@", labels with "_:". -/
inductive Tok
  | iri (i : IriTok)
  | label (l : PStr)
  | anon | lpar | rpar | lbr | rbr | dot | comma | semi
  | str (body : PStr)
  | lang (l : PStr)
  | carets
  | num (k : NumKind) (text : PStr)
  | kwA
  | bool (text : PStr)
  | atPrefix | atBase | kwBase | kwPrefix
  | ns (p : PStr)
  deriving DecidableEq, Repr

/-- The parser states as far as they matter for the lexer. -/
inductive Ctx
  | start   -- a statement may begin
  | body    -- inside a statement
  | lit     -- after a string
  | ns      -- after "@prefix"
  | ns2     -- after PREFIX
  | iri2    -- after BASE, or after the namespace of PREFIX
  deriving DecidableEq, Repr

/-- The state after a token. -/
def nextCtx : Ctx → Tok → Ctx
  | .ns, _ => .body
  | .ns2, _ => .iri2
  | .iri2, _ => .start
  | _, .dot => .start
  | _, .atPrefix => .ns
  | _, .kwBase => .iri2
  | _, .kwPrefix => .ns2
  | _, .str _ => .lit
  | _, _ => .body

/-- A token that begins with a letter or ":": a prefixed name, or else a keyword (turtle.py:40, 41, 45, 54). -/
def lexWord (ctx : Ctx) (s : PStr) : Option (Tok × PStr) :=
  match scanPname s with
  | some (ns, loc, r) => some (.iri (.pname ns loc), r)
  | none =>
    if ctx = .start then
      match scanKw kwBaseChars s with
      | some r => some (.kwBase, r)
      | none => (scanKw kwPrefixChars s).map fun r => (.kwPrefix, r)
    else
      match scanWord (py! "true") s with
      | some r => some (.bool (py! "true"), r)
      | none =>
        match scanWord (py! "false") s with
        | some r => some (.bool (py! "false"), r)
        | none => (scanWord (py! "a") s).map fun r => (.kwA, r)

/-- A token that begins with "@". -/
def lexAt (ctx : Ctx) (r : PStr) : Option (Tok × PStr) :=
  match ctx with
  | .start =>
    match scanWord (py! "prefix") r with
    | some r' => some (.atPrefix, r')
    | none => (scanWord (py! "base") r).map fun r' => (.atBase, r')
  | .lit =>
    match r with
    | c :: r' => if isLetter c then some (.lang (c :: langTail false r'), r'.drop (langTail false r').length) else none
    | [] => none
  | _ => none

/-- The token at the start of a text that does not begin with something ignored. -/
def lexTok : Ctx → PStr → Option (Tok × PStr)
  | _, [] => none
  | .ns, s => (scanNs s).map fun x => (.ns x.1, x.2)
  | .ns2, s => (scanNs s).map fun x => (.ns x.1, x.2)
  | .iri2, c :: r => if c = 60 then (scanIri 0 r).map fun x => (.iri (.ref x.1), x.2) else none
  | ctx, c :: r =>
    if c = 60 then (scanIri 0 r).map fun x => (.iri (.ref x.1), x.2)
    else if c = 34 ∨ c = 39 then (scanQuoted c r).map fun x => (.str x.1, x.2)
    else if c = 91 then
      match scanAnon r with
      | some r' => some (.anon, r')
      | none => some (.lbr, r)
    else if c = 93 then some (.rbr, r)
    else if c = 40 then some (.lpar, r)
    else if c = 41 then some (.rpar, r)
    else if c = 44 then some (.comma, r)
    else if c = 59 then some (.semi, r)
    else if c = 64 then lexAt ctx r
    else if c = 94 then
      match ctx, r with
      | .lit, 94 :: r' => some (.carets, r')
      | _, _ => none
    else if c = 95 then
      match r with
      | 58 :: d :: r' =>
        if pnU d || isDigit d then some (.label (95 :: 58 :: d :: dotTail r'), r'.drop (dotTail r').length) else none
      | _ => none
    else if c = 46 ∨ c = 43 ∨ c = 45 ∨ isDigit c = true then
      match scanNum (c :: r) with
      | some (k, t) => some (.num k t, (c :: r).drop t.length)
      | none => if c = 46 then some (.dot, r) else none
    else lexWord ctx (c :: r)

/-- All tokens of a text. The first argument is fuel; `lexAll_fuel` shows that the text's length + 1 is enough. -/
def lexAll : Nat → Ctx → PStr → Except Exc (List Tok)
  | 0, _, _ => .error .outOfFuel
  | n + 1, ctx, s =>
    match skipIgn false s with
    | [] => .ok []
    | c :: r =>
      match lexTok ctx (c :: r) with
      | none => .error .unexpectedInput
      | some (t, r') => (lexAll n (nextCtx ctx t) r').map (t :: ·)

/-- The tokens of a document. -/
def lex (s : PStr) : Except Exc (List Tok) := lexAll (s.length + 1) .start s

#guard lex (py! "@prefix p: <http://a/> . p:b a [ p:c 1.5, \"x\"@en-GB ; ] .# end") =
  .ok [.atPrefix, .ns (py! "p"), .iri (.ref (py! "http://a/")), .dot, .iri (.pname (py! "p") (py! "b")), .kwA, .lbr,
    .iri (.pname (py! "p") (py! "c")), .num .decimal (py! "1.5"), .comma, .str (py! "x"), .lang (py! "en-GB"), .semi, .rbr, .dot]
#guard lex (py! "BASE <x> <a> <b> 'it''s', \"\"\"a\"b\"\"\"^^p: .") =
  .ok [.kwBase, .iri (.ref (py! "x")), .iri (.ref (py! "a")), .iri (.ref (py! "b")), .str (py! "it"), .str (py! "s"), .comma,
    .str (py! "a\"b"), .carets, .iri (.pname (py! "p") []), .dot]
#guard lex (py! "_:a. p:b\\.. ( 1 -1.e3 .5 true[]) .") =
  .ok [.label (py! "_:a"), .dot, .iri (.pname (py! "p") (py! "b\\.")), .dot, .lpar, .num .integer (py! "1"), .num .double (py! "-1.e3"),
    .num .decimal (py! ".5"), .bool (py! "true"), .anon, .rpar, .dot]

end Verif.Turtle
