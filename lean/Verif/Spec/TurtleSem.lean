import Verif.Model.Turtle
/-
The triples a Turtle document means, from section 7 of the W3C recommendation. The trees have their leaves resolved to RDF terms already.

A property list and each cell of a collection get a blank node of their own; which one is not determined. So the meaning is a relation:
`ObjDen o t fr ts` says that, with the nodes `fr` for the property lists and cells (in document order), the object `o` is the term `t` and
adds the triples `ts`.
-/
namespace Verif.Turtle

mutual
inductive ObjDen : TObj → Term → List Nat → List Stmt → Prop
  | leaf (t) : ObjDen (.leaf t) t [] []
  | coll {c h fr ts} : CollDen c h fr ts → ObjDen (.coll c) h fr ts
  | bnpl {p b fr ts} : PolDen (.bnode b) p fr ts → ObjDen (.bnpl p) (.bnode b) (b :: fr) ts
/-- A collection: `rdf:nil`, or a cell with `rdf:first` and `rdf:rest`. -/
inductive CollDen : TColl → Term → List Nat → List Stmt → Prop
  | nil : CollDen .nil (.named (py! "http://www.w3.org/1999/02/22-rdf-syntax-ns#nil")) [] []
  | cons {o c v h b fr fr' ts ts'} : ObjDen o v fr ts → CollDen c h fr' ts' →
      CollDen (.cons o c) (.bnode b) (b :: (fr ++ fr'))
        (mkTriple (.bnode b) (.named (py! "http://www.w3.org/1999/02/22-rdf-syntax-ns#first")) v ::
         mkTriple (.bnode b) (.named (py! "http://www.w3.org/1999/02/22-rdf-syntax-ns#rest")) h :: (ts ++ ts'))
/-- Subject, predicate and a list of objects: a triple for each object. -/
inductive ObjsDen : Term → Term → TObjs → List Nat → List Stmt → Prop
  | one {s v o t fr ts} : ObjDen o t fr ts → ObjsDen s v (.one o) fr (mkTriple s v t :: ts)
  | cons {s v o os t fr fr' ts ts'} : ObjDen o t fr ts → ObjsDen s v os fr' ts' →
      ObjsDen s v (.cons o os) (fr ++ fr') (mkTriple s v t :: (ts ++ ts'))
/-- A subject and its predicates and objects. -/
inductive PolDen : Term → TPol → List Nat → List Stmt → Prop
  | last {s v os k fr ts} : ObjsDen s v os fr ts → PolDen s (.last v os k) fr ts
  | cons {s v os k p fr fr' ts ts'} : ObjsDen s v os fr ts → PolDen s p fr' ts' → PolDen s (.cons v os k p) (fr ++ fr') (ts ++ ts')
end

/-- A statement. -/
inductive StmtDen : EStmt → List Nat → List Stmt → Prop
  | directive : StmtDen .directive [] []
  | node {s p fr ts} : PolDen s p fr ts → StmtDen (.node s p) fr ts
  | coll {c p h fr fr' ts ts'} : CollDen c h fr ts → PolDen h p fr' ts' → StmtDen (.coll c p) (fr ++ fr') (ts ++ ts')
  | bnpl {s b fr ts} : PolDen (.bnode b) s fr ts → StmtDen (.bnpl s) (b :: fr) ts
  | bnplPol {s p b fr fr' ts ts'} : PolDen (.bnode b) s fr ts → PolDen (.bnode b) p fr' ts' →
      StmtDen (.bnplPol s p) (b :: (fr ++ fr')) (ts ++ ts')

/-- A document. -/
inductive DocDen : List EStmt → List Nat → List Stmt → Prop
  | nil : DocDen [] [] []
  | cons {s ss fr fr' ts ts'} : StmtDen s fr ts → DocDen ss fr' ts' → DocDen (s :: ss) (fr ++ fr') (ts ++ ts')

/-! ### Trees without nesting in object lists -/

def Obj.isLeaf {V L : Type} : Obj V L → Bool
  | .leaf _ => true
  | _ => false

def Objs.allLeaf {V L : Type} : Objs V L → Bool
  | .one o => o.isLeaf
  | .cons o os => o.isLeaf && os.allLeaf

mutual
/-- No collection and no property list is one of several objects after a predicate. -/
def Obj.plain {V L : Type} : Obj V L → Bool
  | .leaf _ => true
  | .coll c => c.plain
  | .bnpl p => p.plain
def Coll.plain {V L : Type} : Coll V L → Bool
  | .nil => true
  | .cons o c => o.plain && c.plain
def Objs.plain {V L : Type} : Objs V L → Bool
  | .one o => o.plain
  | .cons o os => o.isLeaf && os.allLeaf
def Pol.plain {V L : Type} : Pol V L → Bool
  | .last _ os _ => os.plain
  | .cons _ os _ p => os.plain && p.plain
end

def EStmt.plain : EStmt → Bool
  | .directive => true
  | .node _ p => p.plain
  | .coll c p => c.plain && p.plain
  | .bnpl s => s.plain
  | .bnplPol s p => s.plain && p.plain

def TStmt.plain {N V L : Type} : TStmt N V L → Bool
  | .pre _ _ _ => true
  | .base _ _ => true
  | .node _ p => p.plain
  | .coll c p => c.plain && p.plain
  | .bnpl s => s.plain
  | .bnplPol s p => s.plain && p.plain

/-! ### What the parser makes of such nesting -/

/-- Each collection and property list of an object list with several objects is replaced by some generator object. -/
inductive Leafed : TObjs → TObjs → Prop
  | leaf (t) : Leafed (.one (.leaf t)) (.one (.leaf t))
  | gen {o} (k) : o.isLeaf = false → Leafed (.one o) (.one (.leaf (.gen k)))
  | consLeaf (t) {os os'} : Leafed os os' → Leafed (.cons (.leaf t) os) (.cons (.leaf t) os')
  | consGen {o os os'} (k) : o.isLeaf = false → Leafed os os' → Leafed (.cons o os) (.cons (.leaf (.gen k)) os')

mutual
inductive ObjLossy : TObj → TObj → Prop
  | leaf (t) : ObjLossy (.leaf t) (.leaf t)
  | coll {c c'} : CollLossy c c' → ObjLossy (.coll c) (.coll c')
  | bnpl {p p'} : PolLossy p p' → ObjLossy (.bnpl p) (.bnpl p')
inductive CollLossy : TColl → TColl → Prop
  | nil : CollLossy .nil .nil
  | cons {o o' c c'} : ObjLossy o o' → CollLossy c c' → CollLossy (.cons o c) (.cons o' c')
inductive ObjsLossy : TObjs → TObjs → Prop
  | one {o o'} : ObjLossy o o' → ObjsLossy (.one o) (.one o')
  | cons {o os os'} : Leafed (.cons o os) os' → ObjsLossy (.cons o os) os'
inductive PolLossy : TPol → TPol → Prop
  | last {v os os' k} : ObjsLossy os os' → PolLossy (.last v os k) (.last v os' k)
  | cons {v os os' k p p'} : ObjsLossy os os' → PolLossy p p' → PolLossy (.cons v os k p) (.cons v os' k p')
end

inductive StmtLossy : EStmt → EStmt → Prop
  | directive : StmtLossy .directive .directive
  | node {s p p'} : PolLossy p p' → StmtLossy (.node s p) (.node s p')
  | coll {c c' p p'} : CollLossy c c' → PolLossy p p' → StmtLossy (.coll c p) (.coll c' p')
  | bnpl {s s'} : PolLossy s s' → StmtLossy (.bnpl s) (.bnpl s')
  | bnplPol {s s' p p'} : PolLossy s s' → PolLossy p p' → StmtLossy (.bnplPol s p) (.bnplPol s' p')

inductive DocLossy : List EStmt → List EStmt → Prop
  | nil : DocLossy [] []
  | cons {s s' ss ss'} : StmtLossy s s' → DocLossy ss ss' → DocLossy (s :: ss) (s' :: ss')

end Verif.Turtle
