import Verif.Spec.TurtleTokens
/-
What the characters of names in a Turtle document are.
-/
namespace Verif.Turtle

/-- `LocalMeans w l`: the local name written `w` is `l`; a backslash stands before a character that is taken as it is (section 6.4 of the
    recommendation). -/
inductive LocalMeans : PStr → PStr → Prop
  | nil : LocalMeans [] []
  | char {c w l} : c ≠ 0x5C → LocalMeans w l → LocalMeans (c :: w) (c :: l)
  | esc {c w l} : LocalMeans w l → LocalMeans (0x5C :: c :: w) (c :: l)

/-- The IRIs of a term: the IRI of an IRI node, and the datatype of a literal. -/
def TermHasIri (t : Term) (i : PStr) : Prop := t = .named i ∨ ∃ v l, t = .lit v l (some i)

/-- The IRIs of a triple. -/
def StmtHasIri (t : Stmt) (i : PStr) : Prop := TermHasIri t.s i ∨ TermHasIri t.p i ∨ TermHasIri t.o i

/-- A character that may stand between `<` and `>`: `[^#x00-#x20<>"{}|^`\]` -/
def IriChar (c : Nat) : Prop := 0x20 < c ∧ c ∉ py! "<>\"{}|^`\\"

/-- The ways to write the escape of a line feed in an IRI. -/
def lineFeeds : List PStr := [py! "\\u000A", py! "\\u000a", py! "\\U0000000A", py! "\\U0000000a"]

end Verif.Turtle
