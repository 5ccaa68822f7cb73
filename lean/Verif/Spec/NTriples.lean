import Verif.Model.NTriples
/-
What an N-Triples document means, given a node for each blank node label; renaming of blank nodes; language tags.
-/
namespace Verif

/-- The term a written term denotes when label `l` stands for blank node `f l`. -/
def RTerm.subst (f : PStr → Nat) : RTerm → Term
  | .iri i => .named i
  | .label l => .bnode (f l)
  | .lit v l d => .lit v l d

/-- The statement a written statement denotes. -/
def RStmt.subst (f : PStr → Nat) (t : RStmt) : Stmt :=
  { s := t.s.subst f, p := t.p.subst f, o := t.o.subst f, g := t.g.map (·.subst f) }

/-- The label occurs in the statement. -/
def RStmt.HasLabel (t : RStmt) (l : PStr) : Prop := t.s = .label l ∨ t.p = .label l ∨ t.o = .label l ∨ t.g = some (.label l)

/-- Rename blank nodes. -/
def Term.rename (f : Nat → Nat) : Term → Term
  | .bnode i => .bnode (f i)
  | t => t

def Stmt.rename (f : Nat → Nat) (t : Stmt) : Stmt := { s := t.s.rename f, p := t.p.rename f, o := t.o.rename f, g := t.g.map (·.rename f) }

/-- `letters ("-" alphanumerics)*`, the language tags of BCP47 as N-Triples writes them. -/
inductive LangWF : PStr → Prop
  | primary {l} : l ≠ [] → (∀ c ∈ l, isLetter c = true) → LangWF l
  | sub {t l} : LangWF t → l ≠ [] → (∀ c ∈ l, isLetter c = true ∨ (48 ≤ c ∧ c ≤ 57)) → LangWF (t ++ 45 :: l)

/-- A triple that may occur in an RDF graph: subject an IRI or blank node, predicate an IRI, object a term. -/
structure Stmt.IsRdf (t : Stmt) : Prop where
  subj : (∃ n, t.s = .named n) ∨ ∃ i, t.s = .bnode i
  pred : ∃ n, t.p = .named n
  obj : (∃ n, t.o = .named n) ∨ (∃ i, t.o = .bnode i) ∨ ∃ v l d, t.o = .lit v l d
  triple : t.g = none

/-- A term whose strings are sequences of Unicode scalar values, with at most one of language and datatype, the language of the form of BCP47. -/
def Term.WellFormed : Term → Prop
  | .named n => ∀ c ∈ n, c < 0x110000 ∧ ¬ (0xD800 ≤ c ∧ c ≤ 0xDFFF)
  | .lit v l d =>
    (∀ c ∈ v, c < 0x110000 ∧ ¬ (0xD800 ≤ c ∧ c ≤ 0xDFFF)) ∧ (∀ t, l = some t → LangWF t) ∧
    (∀ t, d = some t → t ≠ [] ∧ ∀ c ∈ t, c < 0x110000 ∧ ¬ (0xD800 ≤ c ∧ c ≤ 0xDFFF)) ∧ (l = Option.none ∨ d = Option.none)
  | _ => True

def Stmt.WellFormed (t : Stmt) : Prop := t.s.WellFormed ∧ t.p.WellFormed ∧ t.o.WellFormed

/-- The blank node occurs in the statement. -/
def Stmt.HasBnode (t : Stmt) (i : Nat) : Prop := t.s = .bnode i ∨ t.p = .bnode i ∨ t.o = .bnode i

end Verif
