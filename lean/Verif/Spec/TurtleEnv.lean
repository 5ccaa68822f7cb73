import Verif.Model.Turtle
/-
What the names in a Turtle document mean, depending on where they stand.

`BaseAt`, `PrefixAt`: the base IRI and the namespace of a prefix after the statements `pre`, given by the last directive among them. A directive's own IRI
is resolved against the base before it. `StmtIn E d e an`: in the environment `E`, the statement `d`, with its names replaced by the terms they stand
for, is `e`; `an` are the nodes taken for its anonymous blank nodes `[]`, from left to right.
-/
namespace Verif.Turtle

def TStmt.isBase {N V L : Type} : TStmt N V L → Prop
  | .base _ _ => True
  | _ => False

def TStmt.isPrefix {N V L : Type} (ns : PStr) : TStmt N V L → Prop
  | .pre _ ns' _ => ns' = ns
  | _ => False

/-- The base IRI after `pre`; `b0` is the one given to `parse`. -/
inductive BaseAt (nl : PStr → Bool) (b0 : PStr) : List PTStmt → PStr → Prop
  | initial {pre} : (∀ d ∈ pre, ¬ d.isBase) → BaseAt nl b0 pre b0
  | directive {l k i r b b'} : BaseAt nl b0 l b → resolveRef nl b i = .ok b' → (∀ d ∈ r, ¬ d.isBase) → BaseAt nl b0 (l ++ .base k i :: r) b'

/-- The namespace IRI of the prefix `ns` after `pre`; `p0` are the prefixes known at the start. -/
inductive PrefixAt (nl : PStr → Bool) (b0 : PStr) (p0 : PStr → Option PStr) : List PTStmt → PStr → PStr → Prop
  | initial {pre ns iri} : p0 ns = some iri → (∀ d ∈ pre, ¬ d.isPrefix ns) → PrefixAt nl b0 p0 pre ns iri
  | directive {l k ns i r b iri} : BaseAt nl b0 l b → resolveRef nl b i = .ok iri → (∀ d ∈ r, ¬ d.isPrefix ns) →
      PrefixAt nl b0 p0 (l ++ .pre k ns i :: r) ns iri

structure Env where
  base : PStr
  pref : PStr → PStr → Prop
  label : PStr → Option Nat

/-- The IRI of a prefixed name whose prefix has the namespace `p`. If the result begins with "<", it is taken for an IRI reference. -/
inductive PnameIri (nl : PStr → Bool) (base p loc : PStr) : PStr → Prop
  | join {l} : decodeLiteral loc = .ok l → (p ++ l).head? ≠ some 60 → PnameIri nl base p loc (p ++ l)
  | angle {l r s} : decodeLiteral loc = .ok l → p ++ l = 60 :: r → resolveRef nl base r.dropLast = .ok s → PnameIri nl base p loc s

inductive IriIn (nl : PStr → Bool) (E : Env) : IriTok → PStr → Prop
  | ref {t s} : resolveRef nl E.base t = .ok s → IriIn nl E (.ref t) s
  | pname {ns loc p s} : E.pref ns p → PnameIri nl E.base p loc s → IriIn nl E (.pname ns loc) s

inductive NodeIn (nl : PStr → Bool) (E : Env) : NodeTok → Term → List Nat → Prop
  | iri {i s} : IriIn nl E i s → NodeIn nl E (.iri i) (.named s) []
  | label {l k} : E.label l = some k → NodeIn nl E (.label l) (.bnode k) []
  | anon (k) : NodeIn nl E .anon (.bnode k) [k]

inductive VerbIn (nl : PStr → Bool) (E : Env) : VerbTok → Term → Prop
  | a : VerbIn nl E .a (.named (py! "http://www.w3.org/1999/02/22-rdf-syntax-ns#type"))
  | iri {i s} : IriIn nl E i s → VerbIn nl E (.iri i) (.named s)

inductive LeafIn (nl : PStr → Bool) (E : Env) : LeafTok → Term → List Nat → Prop
  | node {n t a} : NodeIn nl E n t a → LeafIn nl E (.node n) t a
  | str {b v} : decodeLiteral b = .ok v → LeafIn nl E (.str b) (.lit v none (some (py! "http://www.w3.org/2001/XMLSchema#string"))) []
  | strLang {b l v} : decodeLiteral b = .ok v → LeafIn nl E (.strLang b l) (.lit v (some l) none) []
  | strDt {b i v d} : decodeLiteral b = .ok v → IriIn nl E i d → LeafIn nl E (.strDt b i) (.lit v none (some d)) []
  | integer (t) : LeafIn nl E (.num .integer t) (.lit t none (some (py! "http://www.w3.org/2001/XMLSchema#integer"))) []
  | decimal (t) : LeafIn nl E (.num .decimal t) (.lit t none (some (py! "http://www.w3.org/2001/XMLSchema#decimal"))) []
  | double (t) : LeafIn nl E (.num .double t) (.lit t none (some (py! "http://www.w3.org/2001/XMLSchema#double"))) []
  | bool (t) : LeafIn nl E (.bool t) (.lit t none (some (py! "http://www.w3.org/2001/XMLSchema#boolean"))) []

mutual
inductive ObjIn (nl : PStr → Bool) (E : Env) : PObj → TObj → List Nat → Prop
  | leaf {l t a} : LeafIn nl E l t a → ObjIn nl E (.leaf l) (.leaf t) a
  | coll {c c' a} : CollIn nl E c c' a → ObjIn nl E (.coll c) (.coll c') a
  | bnpl {p p' a} : PolIn nl E p p' a → ObjIn nl E (.bnpl p) (.bnpl p') a
inductive ObjsIn (nl : PStr → Bool) (E : Env) : PObjs → TObjs → List Nat → Prop
  | one {o o' a} : ObjIn nl E o o' a → ObjsIn nl E (.one o) (.one o') a
  | cons {o o' a os os' b} : ObjIn nl E o o' a → ObjsIn nl E os os' b → ObjsIn nl E (.cons o os) (.cons o' os') (a ++ b)
inductive CollIn (nl : PStr → Bool) (E : Env) : PColl → TColl → List Nat → Prop
  | nil : CollIn nl E .nil .nil []
  | cons {o o' a c c' b} : ObjIn nl E o o' a → CollIn nl E c c' b → CollIn nl E (.cons o c) (.cons o' c') (a ++ b)
inductive PolIn (nl : PStr → Bool) (E : Env) : PPol → TPol → List Nat → Prop
  | last {v v' os os' a k} : VerbIn nl E v v' → ObjsIn nl E os os' a → PolIn nl E (.last v os k) (.last v' os' k) a
  | cons {v v' os os' a k p p' b} : VerbIn nl E v v' → ObjsIn nl E os os' a → PolIn nl E p p' b →
      PolIn nl E (.cons v os k p) (.cons v' os' k p') (a ++ b)
end

inductive StmtIn (nl : PStr → Bool) (E : Env) : PTStmt → EStmt → List Nat → Prop
  | pre {k ns i s} : resolveRef nl E.base i = .ok s → StmtIn nl E (.pre k ns i) .directive []
  | base {k i s} : resolveRef nl E.base i = .ok s → StmtIn nl E (.base k i) .directive []
  | node {s s' a p p' b} : NodeIn nl E s s' a → PolIn nl E p p' b → StmtIn nl E (.node s p) (.node s' p') (a ++ b)
  | coll {c c' a p p' b} : CollIn nl E c c' a → PolIn nl E p p' b → StmtIn nl E (.coll c p) (.coll c' p') (a ++ b)
  | bnpl {s s' a} : PolIn nl E s s' a → StmtIn nl E (.bnpl s) (.bnpl s') a
  | bnplPol {s s' a p p' b} : PolIn nl E s s' a → PolIn nl E p p' b → StmtIn nl E (.bnplPol s p) (.bnplPol s' p') (a ++ b)

/-- `DocIn … pre ds es an`: the statements `ds`, which follow `pre` in the document. -/
inductive DocIn (nl : PStr → Bool) (b0 : PStr) (p0 : PStr → Option PStr) (label : PStr → Option Nat) :
    List PTStmt → List PTStmt → List EStmt → List Nat → Prop
  | nil {pre} : DocIn nl b0 p0 label pre [] [] []
  | cons {pre d ds e es a b base} : BaseAt nl b0 pre base → StmtIn nl ⟨base, PrefixAt nl b0 p0 pre, label⟩ d e a →
      DocIn nl b0 p0 label (pre ++ [d]) ds es b → DocIn nl b0 p0 label pre (d :: ds) (e :: es) (a ++ b)

end Verif.Turtle
