import Verif.Spec.TurtleSem
/-
A set of triples, seen from the nodes: `ObjReads T o x` says that the node `x` looks, in the triples `T`, as the object `o` was written. A cell of a collection has
exactly one rdf:first and exactly one rdf:rest; a property list has at least the properties written.
-/
namespace Verif.Turtle

mutual
def ObjReads (T : List Stmt) : TObj → Term → Prop
  | .leaf t, x => x = t
  | .coll c, x => CollReads T c x
  | .bnpl p, x => (∃ b, x = .bnode b) ∧ PolReads T x p
def CollReads (T : List Stmt) : TColl → Term → Prop
  | .nil, x => x = .named (py! "http://www.w3.org/1999/02/22-rdf-syntax-ns#nil")
  | .cons o c, x => (∃ b, x = .bnode b) ∧ ∃ v h,
      (∀ y, mkTriple x (.named (py! "http://www.w3.org/1999/02/22-rdf-syntax-ns#first")) y ∈ T ↔ y = v) ∧
      (∀ y, mkTriple x (.named (py! "http://www.w3.org/1999/02/22-rdf-syntax-ns#rest")) y ∈ T ↔ y = h) ∧
      ObjReads T o v ∧ CollReads T c h
def ObjsReads (T : List Stmt) (s v : Term) : TObjs → Prop
  | .one o => ∃ t, mkTriple s v t ∈ T ∧ ObjReads T o t
  | .cons o os => (∃ t, mkTriple s v t ∈ T ∧ ObjReads T o t) ∧ ObjsReads T s v os
def PolReads (T : List Stmt) (s : Term) : TPol → Prop
  | .last v os _ => ObjsReads T s v os
  | .cons v os _ p => ObjsReads T s v os ∧ PolReads T s p
end

/-- A statement; the subject `x` is a term, a collection or a property list. -/
def StmtReads (T : List Stmt) : EStmt → Prop
  | .directive => True
  | .node s p => PolReads T s p
  | .coll c p => ∃ x, CollReads T c x ∧ PolReads T x p
  | .bnpl s => ∃ b, PolReads T (.bnode b) s
  | .bnplPol s p => ∃ b, PolReads T (.bnode b) s ∧ PolReads T (.bnode b) p

/-! ### Blank nodes and predicates that occur in a tree -/

mutual
/-- A term of the tree satisfies `f`. -/
def Obj.Any (f : Term → Prop) : TObj → Prop
  | .leaf t => f t
  | .coll c => c.Any f
  | .bnpl p => p.Any f
def Coll.Any (f : Term → Prop) : TColl → Prop
  | .nil => False
  | .cons o c => o.Any f ∨ c.Any f
def Objs.Any (f : Term → Prop) : TObjs → Prop
  | .one o => o.Any f
  | .cons o os => o.Any f ∨ os.Any f
def Pol.Any (f : Term → Prop) : TPol → Prop
  | .last v os _ => f v ∨ os.Any f
  | .cons v os _ p => f v ∨ os.Any f ∨ p.Any f
end

def EStmt.Any (f : Term → Prop) : EStmt → Prop
  | .directive => False
  | .node s p => f s ∨ p.Any f
  | .coll c p => c.Any f ∨ p.Any f
  | .bnpl s => s.Any f
  | .bnplPol s p => s.Any f ∨ p.Any f

/-- The predicates of a predicate-object list (not those of nested lists). -/
def Pol.verbs : TPol → List Term
  | .last v _ _ => [v]
  | .cons v _ _ p => v :: p.verbs

/-- The subject is not a collection to which further rdf:first or rdf:rest properties are given. -/
def EStmt.subjectOk : EStmt → Prop
  | .coll _ p => ∀ v ∈ p.verbs, v ≠ .named (py! "http://www.w3.org/1999/02/22-rdf-syntax-ns#first") ∧
      v ≠ .named (py! "http://www.w3.org/1999/02/22-rdf-syntax-ns#rest")
  | _ => True

/-- The terms a collection of terms has. -/
def Coll.leaves? : TColl → Option (List Term)
  | .nil => some []
  | .cons (.leaf t) c => c.leaves?.map (t :: ·)
  | .cons _ _ => none

end Verif.Turtle
