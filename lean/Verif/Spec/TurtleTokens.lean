import Verif.Model.TurtleLex
/-
The terminals of Turtle, from section 6.5 of the W3C recommendation, and how a document is written with them. `TokText t w`: the characters `w` are a way to
write the token `t`.
-/
namespace Verif.Turtle.Spec

def isDigitChar (c : Nat) : Prop := 0x30 ≤ c ∧ c ≤ 0x39
def isAlpha (c : Nat) : Prop := (0x41 ≤ c ∧ c ≤ 0x5A) ∨ (0x61 ≤ c ∧ c ≤ 0x7A)
def isHexChar (c : Nat) : Prop := isDigitChar c ∨ (0x41 ≤ c ∧ c ≤ 0x46) ∨ (0x61 ≤ c ∧ c ≤ 0x66)
def isWhite (c : Nat) : Prop := c = 0x20 ∨ c = 0x09 ∨ c = 0x0D ∨ c = 0x0A

/-- `PN_CHARS_BASE` -/
def pnCharsBase (c : Nat) : Prop :=
  isAlpha c ∨ (0xC0 ≤ c ∧ c ≤ 0xD6) ∨ (0xD8 ≤ c ∧ c ≤ 0xF6) ∨ (0xF8 ≤ c ∧ c ≤ 0x2FF) ∨ (0x370 ≤ c ∧ c ≤ 0x37D) ∨
  (0x37F ≤ c ∧ c ≤ 0x1FFF) ∨ (0x200C ≤ c ∧ c ≤ 0x200D) ∨ (0x2070 ≤ c ∧ c ≤ 0x218F) ∨ (0x2C00 ≤ c ∧ c ≤ 0x2FEF) ∨
  (0x3001 ≤ c ∧ c ≤ 0xD7FF) ∨ (0xF900 ≤ c ∧ c ≤ 0xFDCF) ∨ (0xFDF0 ≤ c ∧ c ≤ 0xFFFD) ∨ (0x10000 ≤ c ∧ c ≤ 0xEFFFF)
/-- `PN_CHARS_U` -/
def pnCharsU (c : Nat) : Prop := pnCharsBase c ∨ c = 0x5F
/-- `PN_CHARS` -/
def pnChars (c : Nat) : Prop :=
  pnCharsU c ∨ c = 0x2D ∨ isDigitChar c ∨ c = 0xB7 ∨ (0x300 ≤ c ∧ c ≤ 0x36F) ∨ (0x203F ≤ c ∧ c ≤ 0x2040)

/-- `((PN_CHARS | '.')* PN_CHARS)?` -/
def DotTail (w : PStr) : Prop := (∀ c ∈ w, pnChars c ∨ c = 0x2E) ∧ w.getLast? ≠ some 0x2E
/-- `PN_PREFIX?` -/
def PnPrefix (w : PStr) : Prop := w = [] ∨ ∃ c t, w = c :: t ∧ pnCharsBase c ∧ DotTail t

/-- `PLX` -/
inductive Plx : PStr → Prop
  | percent {a b} : isHexChar a → isHexChar b → Plx [0x25, a, b]
  | esc {c} : c ∈ py! "_~.-!$&'()*+,;=/?#@%" → Plx [0x5C, c]

/-- One piece of a local name: `PN_CHARS | '.' | ':' | PLX` -/
def LocalItem (p : PStr) : Prop := (∃ c, p = [c] ∧ (pnChars c ∨ c = 0x2E ∨ c = 0x3A)) ∨ Plx p
/-- `((PN_CHARS | '.' | ':' | PLX)* (PN_CHARS | ':' | PLX))?` -/
def LocalTail (w : PStr) : Prop := ∃ ps : List PStr, w = ps.flatten ∧ (∀ p ∈ ps, LocalItem p) ∧ ps.getLast? ≠ some [0x2E]
/-- `PN_LOCAL?` -/
def PnLocal (w : PStr) : Prop :=
  w = [] ∨ ∃ h t, w = h ++ t ∧ ((∃ c, h = [c] ∧ (pnCharsU c ∨ c = 0x3A ∨ isDigitChar c)) ∨ Plx h) ∧ LocalTail t

/-- `UCHAR` -/
inductive UChar : PStr → Prop
  | u4 {h} : h.length = 4 → (∀ c ∈ h, isHexChar c) → UChar (0x5C :: 0x75 :: h)
  | u8 {h} : h.length = 8 → (∀ c ∈ h, isHexChar c) → UChar (0x5C :: 0x55 :: h)
/-- `ECHAR | UCHAR` -/
def Escape (p : PStr) : Prop := (∃ c, c ∈ py! "tbnrf\"'\\" ∧ p = [0x5C, c]) ∨ UChar p

/-- The inside of `IRIREF`. -/
inductive IriBody : PStr → Prop
  | nil : IriBody []
  | char {c s} : 0x20 < c → c ∉ py! "<>\"{}|^`\\" → IriBody s → IriBody (c :: s)
  | uchar {p s} : UChar p → IriBody s → IriBody (p ++ s)

/-- The inside of a string in single quotes `q`. -/
inductive StrBody (q : Nat) : PStr → Prop
  | nil : StrBody q []
  | char {c s} : c ≠ q → c ≠ 0x5C → c ≠ 0x0A → c ≠ 0x0D → StrBody q s → StrBody q (c :: s)
  | esc {p s} : Escape p → StrBody q s → StrBody q (p ++ s)

/-- The inside of a string in triple quotes `q`: one or two quotes may stand before a character that is not a quote. -/
inductive LongBody (q : Nat) : PStr → Prop
  | nil : LongBody q []
  | char {k c s} : k ≤ 2 → c ≠ q → c ≠ 0x5C → LongBody q s → LongBody q (List.replicate k q ++ c :: s)
  | esc {k p s} : k ≤ 2 → Escape p → LongBody q s → LongBody q (List.replicate k q ++ (p ++ s))

/-- `LANGTAG` without its "@": letters, then parts of letters and digits. -/
inductive LangParts : PStr → Prop
  | nil : LangParts []
  | part {p s} : p ≠ [] → (∀ c ∈ p, isAlpha c ∨ isDigitChar c) → LangParts s → LangParts (0x2D :: (p ++ s))
def LangTag (w : PStr) : Prop := ∃ p s, w = p ++ s ∧ p ≠ [] ∧ (∀ c ∈ p, isAlpha c) ∧ LangParts s

def Sign (s : PStr) : Prop := s = [] ∨ s = [0x2B] ∨ s = [0x2D]
def Digits (s : PStr) : Prop := ∀ c ∈ s, isDigitChar c
def Exponent (s : PStr) : Prop := ∃ e sg ds, s = e :: (sg ++ ds) ∧ (e = 0x65 ∨ e = 0x45) ∧ Sign sg ∧ Digits ds ∧ ds ≠ []

inductive NumText : NumKind → PStr → Prop
  | integer {sg ds} : Sign sg → Digits ds → ds ≠ [] → NumText .integer (sg ++ ds)
  | decimal {sg ds fs} : Sign sg → Digits ds → Digits fs → fs ≠ [] → NumText .decimal (sg ++ ds ++ 0x2E :: fs)
  | doubleDot {sg ds fs ex} : Sign sg → Digits ds → Digits fs → ds ≠ [] ∨ fs ≠ [] → Exponent ex → NumText .double (sg ++ ds ++ 0x2E :: fs ++ ex)
  | double {sg ds ex} : Sign sg → Digits ds → ds ≠ [] → Exponent ex → NumText .double (sg ++ ds ++ ex)

/-- A keyword: for each position, the characters that may stand there. -/
inductive KwText : List (List Nat) → PStr → Prop
  | nil : KwText [] []
  | cons {k ks c w} : c ∈ k → KwText ks w → KwText (k :: ks) (c :: w)

/-- What end a comment, and how the keywords BASE and PREFIX may be written. -/
structure Dialect where
  eol : PStr
  base : List (List Nat)
  pre : List (List Nat)

/-- The recommendation: comments end at a line feed or a carriage return; keywords are in upper or lower case. -/
def w3c : Dialect :=
  { eol := [0x0A, 0x0D]
    base := [py! "Bb", py! "Aa", py! "Ss", py! "Ee"]
    pre := [py! "Pp", py! "Rr", py! "Ee", py! "Ff", py! "Ii", py! "Xx"] }

/-- The parser: comments end at a line feed only; `ſ` counts as `s`, and `İ` and `ı` as `i`. -/
def lark : Dialect :=
  { eol := [0x0A]
    base := [py! "Bb", py! "Aa", py! "Ssſ", py! "Ee"]
    pre := [py! "Pp", py! "Rr", py! "Ee", py! "Ff", py! "Iiİı", py! "Xx"] }

variable (D : Dialect)

inductive TokText : Tok → PStr → Prop
  | ref {b} : IriBody b → TokText (.iri (.ref b)) (0x3C :: (b ++ [0x3E]))
  | pname {ns loc} : PnPrefix ns → PnLocal loc → TokText (.iri (.pname ns loc)) (ns ++ 0x3A :: loc)
  | label {c t} : pnCharsU c ∨ isDigitChar c → DotTail t → TokText (.label (0x5F :: 0x3A :: c :: t)) (0x5F :: 0x3A :: c :: t)
  | anon {u} : (∀ c ∈ u, isWhite c) → TokText .anon (0x5B :: (u ++ [0x5D]))
  | lpar : TokText .lpar [0x28]
  | rpar : TokText .rpar [0x29]
  | lbr : TokText .lbr [0x5B]
  | rbr : TokText .rbr [0x5D]
  | dot : TokText .dot [0x2E]
  | comma : TokText .comma [0x2C]
  | semi : TokText .semi [0x3B]
  | str {q b} : q = 0x22 ∨ q = 0x27 → StrBody q b → TokText (.str b) (q :: (b ++ [q]))
  | long {q b} : q = 0x22 ∨ q = 0x27 → LongBody q b → TokText (.str b) (q :: q :: q :: (b ++ [q, q, q]))
  | lang {l} : LangTag l → TokText (.lang l) (0x40 :: l)
  | carets : TokText .carets [0x5E, 0x5E]
  | num {k t} : NumText k t → TokText (.num k t) t
  | kwA : TokText .kwA [0x61]
  | true : TokText (.bool (py! "true")) (py! "true")
  | false : TokText (.bool (py! "false")) (py! "false")
  | atPrefix : TokText .atPrefix (py! "@prefix")
  | atBase : TokText .atBase (py! "@base")
  | kwBase {w} : KwText D.base w → TokText .kwBase w
  | kwPrefix {w} : KwText D.pre w → TokText .kwPrefix w
  | ns {p} : PnPrefix p → TokText (.ns p) (p ++ [0x3A])

/-- White space and complete comments. -/
inductive Ignorable : PStr → Prop
  | nil : Ignorable []
  | white {c u} : isWhite c → Ignorable u → Ignorable (c :: u)
  | comment {t c u} : (∀ x ∈ t, x ∉ D.eol) → c ∈ D.eol → Ignorable u → Ignorable (0x23 :: (t ++ c :: u))

/-- What may stand at the end of a document: the last comment need not end in a line end. -/
def Trailing (u : PStr) : Prop := Ignorable D u ∨ ∃ v t, u = v ++ 0x23 :: t ∧ Ignorable D v ∧ ∀ x ∈ t, x ∉ D.eol

/-- The characters `s` are the tokens `ts`, one after the other, with white space and comments around them. -/
inductive Written : List Tok → PStr → Prop
  | nil {u} : Trailing D u → Written [] u
  | cons {u t w ts r} : Ignorable D u → TokText D t w → Written ts r → Written (t :: ts) (u ++ (w ++ r))

/-! ### Writing that leaves no doubt where tokens end -/

/-- Nothing at the start of `r` could continue a name or number before it; dots before something else count as full stops. -/
def Stops (r : PStr) : Prop := ∀ c, (r.dropWhile (· == 0x2E)).head? = some c → ¬ pnChars c ∧ c ≠ 0x3A ∧ c ≠ 0x25 ∧ c ≠ 0x5C

/-- The text `r` may follow the token. -/
def MayFollow : Tok → PStr → Prop
  | .iri (.pname _ _), r => Stops r
  | .label _, r => Stops r
  | .lang _, r => Stops r
  | .num _ _, r => Stops r
  | .kwA, r => Stops r
  | .bool _, r => Stops r
  | .kwBase, r => Stops r
  | .kwPrefix, r => Stops r
  | .dot, r => ∀ c, r.head? = some c → ¬ isDigitChar c
  | .str _, r => r.head? ≠ some 0x22 ∧ r.head? ≠ some 0x27
  | .lbr, r => ∀ u r', (∀ c ∈ u, isWhite c) → r ≠ u ++ 0x5D :: r'
  | _, _ => True

/-- The characters `s` are the tokens `ts`, written so that it is clear where each ends. -/
inductive Plainly : List Tok → PStr → Prop
  | nil {u} : Trailing D u → Plainly [] u
  | cons {u t w ts r} : Ignorable D u → TokText D t w → MayFollow t r → Plainly ts r → Plainly (t :: ts) (u ++ (w ++ r))

end Verif.Turtle.Spec
