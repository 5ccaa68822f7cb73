import Verif.Spec.TurtleNames
import Verif.Spec.TurtleSem
import Verif.Spec.NTDenote
import Verif.Spec.Rfc3986
import Mathlib.Data.List.Forall2
/-
The graph of a Turtle document, from the W3C recommendation: names are replaced by what they stand for where they stand (sections 2.4, 6.3, 6.4 and 7.2),
references are resolved as RFC 3986 says (section 6.3), and the triples are those of `Spec/TurtleSem`.

`Reading` says what the texts of the three kinds of terminals with a meaning of their own stand for; `w3cReading` is that of the recommendation. The
relations below it are about any reading.
-/
namespace Verif.Turtle
open Verif.Spec (Ref resolve Denotes)

structure Reading where
  /-- `ref base b iri`: with the base IRI `base`, the IRI reference `<b>` stands for `iri`. -/
  ref : PStr → PStr → PStr → Prop
  /-- `pname base p loc iri`: with a prefix for the namespace `p`, the prefixed name with the local part written `loc` stands for `iri`. -/
  pname : PStr → PStr → PStr → PStr → Prop
  /-- `str b v`: the string written `b` between its quotes is `v`. -/
  str : PStr → PStr → Prop

/-- `Target base ref iri`: section 5.2 of RFC 3986. A reference with a scheme needs no base. -/
inductive Target (base : PStr) : PStr → PStr → Prop
  | absolute {r : Ref} : r.WF → r.scheme.isSome → Target base r.text (resolve r r).text
  | relative {b r : Ref} : b.WF → b.scheme.isSome → b.text = base → r.WF → r.scheme = none → Target base r.text (resolve b r).text

def w3cReading : Reading where
  ref base b iri := ∃ ref, Denotes b ref ∧ (∀ c ∈ ref, IriChar c) ∧ Target base ref iri
  pname _ p loc iri := ∃ l, LocalMeans loc l ∧ iri = p ++ l
  str b v := Denotes b v

/-- The base IRI and the namespaces of the prefixes at a place in a document. -/
structure Scope where
  base : PStr
  pref : PStr → Option PStr

section
variable (R : Reading) (lab : PStr → Option Nat) (S : Scope)

inductive IriSem : IriTok → PStr → Prop
  | ref {b s} : R.ref S.base b s → IriSem (.ref b) s
  | pname {ns loc p s} : S.pref ns = some p → R.pname S.base p loc s → IriSem (.pname ns loc) s

/-- `NodeSem … x t an`: the term of an IRI or a blank node; `an` is the node taken for `[]`. -/
inductive NodeSem : NodeTok → Term → List Nat → Prop
  | iri {i s} : IriSem R S i s → NodeSem (.iri i) (.named s) []
  | label {l k} : lab l = some k → NodeSem (.label l) (.bnode k) []
  | anon (k) : NodeSem .anon (.bnode k) [k]

inductive VerbSem : VerbTok → Term → Prop
  | a : VerbSem .a (.named (py! "http://www.w3.org/1999/02/22-rdf-syntax-ns#type"))
  | iri {i s} : IriSem R S i s → VerbSem (.iri i) (.named s)

inductive LeafSem : LeafTok → Term → List Nat → Prop
  | node {n t a} : NodeSem R lab S n t a → LeafSem (.node n) t a
  | str {b v} : R.str b v → LeafSem (.str b) (.lit v none (some (py! "http://www.w3.org/2001/XMLSchema#string"))) []
  | strLang {b l v} : R.str b v → LeafSem (.strLang b l) (.lit v (some l) none) []
  | strDt {b i v d} : R.str b v → IriSem R S i d → LeafSem (.strDt b i) (.lit v none (some d)) []
  | integer (t) : LeafSem (.num .integer t) (.lit t none (some (py! "http://www.w3.org/2001/XMLSchema#integer"))) []
  | decimal (t) : LeafSem (.num .decimal t) (.lit t none (some (py! "http://www.w3.org/2001/XMLSchema#decimal"))) []
  | double (t) : LeafSem (.num .double t) (.lit t none (some (py! "http://www.w3.org/2001/XMLSchema#double"))) []
  | bool (t) : LeafSem (.bool t) (.lit t none (some (py! "http://www.w3.org/2001/XMLSchema#boolean"))) []

mutual
inductive ObjSem : PObj → TObj → List Nat → Prop
  | leaf {l t a} : LeafSem R lab S l t a → ObjSem (.leaf l) (.leaf t) a
  | coll {c c' a} : CollSem c c' a → ObjSem (.coll c) (.coll c') a
  | bnpl {p p' a} : PolSem p p' a → ObjSem (.bnpl p) (.bnpl p') a
inductive ObjsSem : PObjs → TObjs → List Nat → Prop
  | one {o o' a} : ObjSem o o' a → ObjsSem (.one o) (.one o') a
  | cons {o o' a os os' b} : ObjSem o o' a → ObjsSem os os' b → ObjsSem (.cons o os) (.cons o' os') (a ++ b)
inductive CollSem : PColl → TColl → List Nat → Prop
  | nil : CollSem .nil .nil []
  | cons {o o' a c c' b} : ObjSem o o' a → CollSem c c' b → CollSem (.cons o c) (.cons o' c') (a ++ b)
inductive PolSem : PPol → TPol → List Nat → Prop
  | last {v v' os os' a k} : VerbSem R S v v' → ObjsSem os os' a → PolSem (.last v os k) (.last v' os' k) a
  | cons {v v' os os' a k p p' b} : VerbSem R S v v' → ObjsSem os os' a → PolSem p p' b → PolSem (.cons v os k p) (.cons v' os' k p') (a ++ b)
end

/-- `StmtSem … d e an S'`: the statement `d`, with its names replaced, is `e`; what follows is in the scope `S'`. -/
inductive StmtSem : PTStmt → EStmt → List Nat → Scope → Prop
  | pre {k ns i s} : R.ref S.base i s → StmtSem (.pre k ns i) .directive [] ⟨S.base, fun n => if n = ns then some s else S.pref n⟩
  | base {k i s} : R.ref S.base i s → StmtSem (.base k i) .directive [] ⟨s, S.pref⟩
  | node {s s' a p p' b} : NodeSem R lab S s s' a → PolSem R lab S p p' b → StmtSem (.node s p) (.node s' p') (a ++ b) S
  | coll {c c' a p p' b} : CollSem R lab S c c' a → PolSem R lab S p p' b → StmtSem (.coll c p) (.coll c' p') (a ++ b) S
  | bnpl {s s' a} : PolSem R lab S s s' a → StmtSem (.bnpl s) (.bnpl s') a S
  | bnplPol {s s' a p p' b} : PolSem R lab S s s' a → PolSem R lab S p p' b → StmtSem (.bnplPol s p) (.bnplPol s' p') (a ++ b) S
end

/-- The statements of a document, one after the other. -/
inductive DocSem (R : Reading) (lab : PStr → Option Nat) : Scope → List PTStmt → List EStmt → List Nat → Prop
  | nil {S} : DocSem R lab S [] [] []
  | cons {S d ds e es a b S'} : StmtSem R lab S d e a S' → DocSem R lab S' ds es b → DocSem R lab S (d :: ds) (e :: es) (a ++ b)

/-- `HasTriples R S ds ts`: in the scope `S` the document `ds` has the triples `ts`. The labels stand for different blank nodes, and the nodes taken for `[]`,
    for property lists and for the cells of collections are different from these and from each other. -/
def HasTriples (R : Reading) (S : Scope) (ds : List PTStmt) (ts : List Stmt) : Prop :=
  ∃ lab es an fr, DocSem R lab S ds es an ∧ DocDen es fr ts ∧ (∀ l l' k, lab l = some k → lab l' = some k → l = l') ∧ (an ++ fr).Nodup ∧
    ∀ l k, lab l = some k → k ∉ an ++ fr

/-! ### Isomorphism of graphs -/

def OneToOne (ρ : Nat → Nat → Prop) : Prop :=
  (∀ a b b', ρ a b → ρ a b' → b = b') ∧ ∀ a a' b, ρ a b → ρ a' b → a = a'

/-- The same term, with the blank nodes corresponding by `ρ`. -/
inductive TermCorr (ρ : Nat → Nat → Prop) : Term → Term → Prop
  | named (i) : TermCorr ρ (.named i) (.named i)
  | lit (v l d) : TermCorr ρ (.lit v l d) (.lit v l d)
  | bnode {a b} : ρ a b → TermCorr ρ (.bnode a) (.bnode b)

structure StmtCorr (ρ : Nat → Nat → Prop) (x y : Stmt) : Prop where
  s : TermCorr ρ x.s y.s
  p : TermCorr ρ x.p y.p
  o : TermCorr ρ x.o y.o
  g : x.g = y.g

/-- The triples are the same, in some order, with the blank nodes in one-to-one correspondence. -/
def Isomorphic (ts ts' : List Stmt) : Prop :=
  ∃ ρ, OneToOne ρ ∧ ∃ ts'', ts''.Perm ts' ∧ List.Forall₂ (StmtCorr ρ) ts ts''

end Verif.Turtle
