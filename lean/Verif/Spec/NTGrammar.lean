import Verif.Model.NTriples
import Verif.Spec.NTDenote
import Verif.Spec.NTString
/-
The grammar of N-Triples and N-Quads documents with what they mean, from the W3C recommendations, section 7 and section 4. A relation `X s v r` says: the text
`s` begins with a way to write `v`, and `r` is the text after it. A `Dialect` collects the places where readers may differ.
-/
namespace Verif.NTSpec
open Spec

structure Dialect where
  /-- the character after the `_:` of a blank node label -/
  labelFirst : Nat → Prop
  /-- the other characters of a blank node label, except the dot -/
  labelChar : Nat → Prop
  /-- the characters of a language tag after its first "-" -/
  langChar : Nat → Prop
  /-- which labels, and texts after them, are acceptable -/
  labelOk : PStr → PStr → Prop
  /-- which language tags are acceptable -/
  langOk : PStr → Prop
  /-- white space may stand between the characters of an IRI, and does not belong to it -/
  gaps : Prop
  /-- there are comments -/
  comments : Prop
  /-- a statement of N-Quads need not have a graph label -/
  noGraph : Prop
  /-- the graph label of a statement of N-Quads may be a blank node -/
  bnodeGraph : Prop

def Ws (w : PStr) : Prop := ∀ c ∈ w, c = 0x20 ∨ c = 0x09
def isEolChar (c : Nat) : Prop := c = 0x0A ∨ c = 0x0D
def isDigitChar (c : Nat) : Prop := 0x30 ≤ c ∧ c ≤ 0x39
def isAlpha (c : Nat) : Prop := (0x41 ≤ c ∧ c ≤ 0x5A) ∨ (0x61 ≤ c ∧ c ≤ 0x7A)

/-- `w` is the longest text of the class `T` at the beginning of `w ++ r`. -/
def Longest (T : PStr → Prop) (w r : PStr) : Prop := T w ∧ ∀ w', w' <+: w ++ r → T w' → w'.length ≤ w.length

variable (D : Dialect)

/-- The inside of `IRIREF`, and the IRI it denotes. -/
inductive IriBody : PStr → PStr → Prop
  | nil : IriBody [] []
  | char {c s v} : 0x20 < c → c ∉ py! "<>\"{}|^`\\" → IriBody s v → IriBody (c :: s) (c :: v)
  | uchar4 {h c s v} : HexNumber 4 h c → IriBody s v → IriBody (0x5C :: 0x75 :: (h ++ s)) (c :: v)
  | uchar8 {h c s v} : HexNumber 8 h c → c < 0x110000 → IriBody s v → IriBody (0x5C :: 0x55 :: (h ++ s)) (c :: v)
  | gap {c s v} : D.gaps → c = 0x20 ∨ c = 0x09 → IriBody s v → IriBody (c :: s) v

/-- `BLANK_NODE_LABEL` -/
def LabelTok (w : PStr) : Prop :=
  ∃ c t, w = 0x5F :: 0x3A :: c :: t ∧ D.labelFirst c ∧ (∀ x ∈ t, D.labelChar x ∨ x = 0x2E) ∧ t.getLast? ≠ some 0x2E

/-- `("-" [a-zA-Z0-9]+)*` -/
inductive LangParts : PStr → Prop
  | nil : LangParts []
  | part {p s} : p ≠ [] → (∀ c ∈ p, D.langChar c) → LangParts s → LangParts (0x2D :: (p ++ s))
/-- `LANGTAG` without its "@" -/
def LangTok (w : PStr) : Prop := ∃ p s, w = p ++ s ∧ p ≠ [] ∧ (∀ c ∈ p, isAlpha c) ∧ LangParts D s

/-- `IRIREF` -/
inductive Iri : PStr → PStr → PStr → Prop
  | mk {w b v r} : Ws w → IriBody D b v → Iri (w ++ 0x3C :: (b ++ 0x3E :: r)) v r

/-- `subject`: `IRIREF | BLANK_NODE_LABEL` -/
inductive Node : PStr → RTerm → PStr → Prop
  | iri {s v r} : Iri D s v r → Node s (.iri v) r
  | label {w l r} : Ws w → Longest (LabelTok D) l r → D.labelOk l r → Node (w ++ (l ++ r)) (.label l) r

/-- `object`: `IRIREF | BLANK_NODE_LABEL | literal`, with `literal: STRING_LITERAL_QUOTE ('^^' IRIREF | LANGTAG)?` -/
inductive Object : PStr → RTerm → PStr → Prop
  | node {s t r} : Node D s t r → Object s t r
  | plain {w b v r} : Ws w → NTBody b → Denotes b v → Object (w ++ 0x22 :: (b ++ 0x22 :: r)) (.lit v none none) r
  | typed {w b v w' s d r} : Ws w → NTBody b → Denotes b v → Ws w' → Iri D s d r →
      Object (w ++ 0x22 :: (b ++ 0x22 :: (w' ++ 0x5E :: 0x5E :: s))) (.lit v none (some d)) r
  | lang {w b v w' l r} : Ws w → NTBody b → Denotes b v → Ws w' → Longest (LangTok D) l r → D.langOk l →
      Object (w ++ 0x22 :: (b ++ 0x22 :: (w' ++ 0x40 :: (l ++ r)))) (.lit v (some l) none) r

/-- `'.'` -/
inductive Dot : PStr → PStr → Prop
  | mk {w r} : Ws w → Dot (w ++ 0x2E :: r) r

/-- `triple: subject predicate object '.'`, or (with `q`) `statement: subject predicate object graphLabel? '.'` -/
inductive Statement : Bool → PStr → RStmt → PStr → Prop
  | triple {s a r1 p r2 o r3 r} : Node D s a r1 → Iri D r1 p r2 → Object D r2 o r3 → Dot r3 r →
      Statement false s { s := a, p := .iri p, o := o } r
  | quad {s a r1 p r2 o r3 g r4 r} : Node D s a r1 → Iri D r1 p r2 → Object D r2 o r3 → Iri D r3 g r4 → Dot r4 r →
      Statement true s { s := a, p := .iri p, o := o, g := some (.iri g) } r
  | bnodeGraph {s a r1 p r2 o r3 g r4 r} : D.bnodeGraph → Node D s a r1 → Iri D r1 p r2 → Object D r2 o r3 → Node D r3 (.label g) r4 → Dot r4 r →
      Statement true s { s := a, p := .iri p, o := o, g := some (.label g) } r
  | noGraph {s a r1 p r2 o r3 r} : D.noGraph → Node D s a r1 → Iri D r1 p r2 → Object D r2 o r3 → Dot r3 r →
      Statement true s { s := a, p := .iri p, o := o } r

/-- What may stand at the end of a line. -/
inductive LineEnd : PStr → Prop
  | ws {w} : Ws w → LineEnd w
  | comment {w t} : D.comments → Ws w → (∀ c ∈ t, ¬ isEolChar c) → LineEnd (w ++ 0x23 :: t)

/-- `EOL`, with the lines that hold only a comment -/
inductive Eol : PStr → Prop
  | one {c} : isEolChar c → Eol [c]
  | more {c e} : isEolChar c → Eol e → Eol (c :: e)
  | comment {c t e} : D.comments → isEolChar c → (∀ x ∈ t, ¬ isEolChar x) → Eol e → Eol (c :: 0x23 :: (t ++ e))

/-- `(EOL triple)* EOL?` -/
inductive Rest (q : Bool) : PStr → List RStmt → Prop
  | eof {w} : LineEnd D w → Rest q w []
  | eol {w e w'} : LineEnd D w → Eol D e → LineEnd D w' → Rest q (w ++ (e ++ w')) []
  | next {w e s t r ts} : LineEnd D w → Eol D e → Statement D q s t r → Rest q r ts → Rest q (w ++ (e ++ s)) (t :: ts)

/-- `triple? (EOL triple)* EOL?`, and the statements the document makes. -/
inductive Doc (q : Bool) : PStr → List RStmt → Prop
  | first {s t r ts} : Statement D q s t r → Rest D q r ts → Doc q s (t :: ts)
  | rest {s ts} : Rest D q s ts → Doc q s ts

/-- `PN_CHARS_BASE` -/
def pnCharsBase (c : Nat) : Prop :=
  isAlpha c ∨ (0xC0 ≤ c ∧ c ≤ 0xD6) ∨ (0xD8 ≤ c ∧ c ≤ 0xF6) ∨ (0xF8 ≤ c ∧ c ≤ 0x2FF) ∨ (0x370 ≤ c ∧ c ≤ 0x37D) ∨
  (0x37F ≤ c ∧ c ≤ 0x1FFF) ∨ (0x200C ≤ c ∧ c ≤ 0x200D) ∨ (0x2070 ≤ c ∧ c ≤ 0x218F) ∨ (0x2C00 ≤ c ∧ c ≤ 0x2FEF) ∨
  (0x3001 ≤ c ∧ c ≤ 0xD7FF) ∨ (0xF900 ≤ c ∧ c ≤ 0xFDCF) ∨ (0xFDF0 ≤ c ∧ c ≤ 0xFFFD) ∨ (0x10000 ≤ c ∧ c ≤ 0xEFFFF)
/-- `PN_CHARS_U`, which in N-Triples includes the colon -/
def pnCharsU (c : Nat) : Prop := pnCharsBase c ∨ c = 0x5F ∨ c = 0x3A
/-- `PN_CHARS` -/
def pnChars (c : Nat) : Prop :=
  pnCharsU c ∨ c = 0x2D ∨ isDigitChar c ∨ c = 0xB7 ∨ (0x300 ≤ c ∧ c ≤ 0x36F) ∨ (0x203F ≤ c ∧ c ≤ 0x2040)

/-- The recommendations. -/
def w3c : Dialect :=
  { labelFirst := fun c => pnCharsU c ∨ isDigitChar c
    labelChar := pnChars
    langChar := fun c => isAlpha c ∨ isDigitChar c
    labelOk := fun _ _ => True
    langOk := fun _ => True
    gaps := False
    comments := True
    noGraph := True
    bnodeGraph := True }

/-- The library's reader. Its label characters are those of the recommendations up to U+FFFD and every character from "0" to U+EFFF. -/
def code : Dialect :=
  { labelFirst := fun c => (0x30 ≤ c ∧ c ≤ 0xEFFF) ∨ (pnCharsU c ∧ c < 0x10000)
    labelChar := fun c => (0x30 ≤ c ∧ c ≤ 0xEFFF) ∨ (pnChars c ∧ c < 0x10000)
    langChar := fun c => isAlpha c ∨ c = 0x30 ∨ c = 0x5F ∨ c = 0x39
    labelOk := fun _ _ => True
    langOk := fun _ => True
    gaps := True
    comments := False
    noGraph := False
    bnodeGraph := False }

/-- `code` without the departures that accept more than the recommendations: no white space in IRIs, only labels and language tags of the recommendations. -/
def strict : Dialect :=
  { code with
    gaps := False
    labelOk := fun l _ => LabelTok w3c l
    langOk := fun l => 0x5F ∉ l }

/-- `w3c` without what the library's reader does not read: no comments, a graph label which is an IRI in N-Quads, labels of characters up to U+FFFF which
    are followed by white space or by a dot that ends the line, and no digits from 1 to 8 in language tags. -/
def tidy : Dialect :=
  { w3c with
    comments := False
    noGraph := False
    bnodeGraph := False
    labelOk := fun l r => (∀ c ∈ l, c < 0x10000) ∧
      ∃ k r', r = List.replicate k 0x2E ++ r' ∧ (r' = [] ∨ ∃ c t, r' = c :: t ∧ (c = 0x20 ∨ c = 0x09 ∨ isEolChar c))
    langOk := fun l => ∀ c ∈ l, ¬ (0x31 ≤ c ∧ c ≤ 0x38) }

end Verif.NTSpec
