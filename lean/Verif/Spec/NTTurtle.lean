import Verif.Spec.NTGrammar
import Verif.Spec.NTriples
/-
N-Triples documents as Turtle documents: which documents, and what they mean there.
-/
namespace Verif.NTSpec

/-- N-Triples whose blank node labels are those of Turtle, which has no colon in them; with or without comments. -/
def turtle (comments : Prop) : Dialect :=
  { w3c with
    labelFirst := fun c => pnCharsBase c ∨ c = 0x5F ∨ isDigitChar c
    labelChar := fun c => pnChars c ∧ c ≠ 0x3A
    comments := comments
    noGraph := False
    bnodeGraph := False }

/-- What the library's N-Triples reader reads, if it is also Turtle: no white space in IRIs, labels of Turtle, language tags of letters and digits. -/
def shared : Dialect :=
  { code with
    gaps := False
    labelOk := fun l _ => LabelTok (turtle False) l
    langOk := fun l => 0x5F ∉ l }

end Verif.NTSpec
namespace Verif

/-- The term with its IRI replaced by `ρ` of it. In Turtle (and in RDF 1.1) a string without a language tag or datatype is an xsd:string. -/
def RTerm.inTurtle (ρ : PStr → PStr) : RTerm → RTerm
  | .iri i => .iri (ρ i)
  | .label l => .label l
  | .lit v none none => .lit v none (some (py! "http://www.w3.org/2001/XMLSchema#string"))
  | .lit v l d => .lit v l (d.map ρ)
def RStmt.inTurtle (ρ : PStr → PStr) (t : RStmt) : RStmt := { s := t.s.inTurtle ρ, p := t.p.inTurtle ρ, o := t.o.inTurtle ρ }

/-- The IRI occurs in the term, or in the statement. -/
def RTerm.HasIri (t : RTerm) (i : PStr) : Prop := t = .iri i ∨ ∃ v l, t = .lit v l (some i)
def RStmt.HasIri (t : RStmt) (i : PStr) : Prop := t.s.HasIri i ∨ t.p.HasIri i ∨ t.o.HasIri i

/-- The characters of `IRIREF`. -/
def IriChars (i : PStr) : Prop := ∀ c ∈ i, 0x20 < c ∧ c ∉ py! "<>\"{}|^`\\"

end Verif
