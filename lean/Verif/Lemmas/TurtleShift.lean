import Verif.Lemmas.ParserState
import Verif.Model.Turtle
/-
The Turtle transformer started with another allocator: the same result with all new names shifted.
-/
namespace Verif.Turtle
open Verif.Par (mapVals get?_mapVals set_mapVals)

/-- The term with the identities of its blank node or generator increased by `k`. -/
def shT (k : Nat) : Term → Term
  | .bnode i => .bnode (i + k)
  | .gen i => .gen (i + k)
  | t => t

def shS (k : Nat) (t : Stmt) : Stmt := { s := shT k t.s, p := shT k t.p, o := shT k t.o, g := t.g.map (shT k) }

theorem shS_mk (k : Nat) (s p o : Term) : shS k (mkTriple s p o) = mkTriple (shT k s) (shT k p) (shT k o) := rfl

mutual
def shObj (k : Nat) : TObj → TObj
  | .leaf t => .leaf (shT k t)
  | .coll c => .coll (shColl k c)
  | .bnpl p => .bnpl (shPol k p)
def shObjs (k : Nat) : TObjs → TObjs
  | .one o => .one (shObj k o)
  | .cons o os => .cons (shObj k o) (shObjs k os)
def shColl (k : Nat) : TColl → TColl
  | .nil => .nil
  | .cons o c => .cons (shObj k o) (shColl k c)
def shPol (k : Nat) : TPol → TPol
  | .last v os e => .last (shT k v) (shObjs k os) e
  | .cons v os e p => .cons (shT k v) (shObjs k os) e (shPol k p)
end

def shE (k : Nat) : EStmt → EStmt
  | .directive => .directive
  | .node s p => .node (shT k s) (shPol k p)
  | .coll c p => .coll (shColl k c) (shPol k p)
  | .bnpl s => .bnpl (shPol k s)
  | .bnplPol s p => .bnplPol (shPol k s) (shPol k p)

def shB (k : Nat) (b : BState) : BState := ⟨mapVals (· + k) b.map, b.next + k⟩
def shSt (k : Nat) (st : TState) : TState := { st with bn := shB k st.bn }

/-! ### The eager callbacks -/

theorem evalIri_sh (nl : PStr → Bool) (k : Nat) (st : TState) (i : IriTok) : evalIri nl (shSt k st) i = evalIri nl st i := by
  cases i <;> rfl

theorem node_sh (k : Nat) (b : BState) (l : PStr) : (shB k b).node l = (shB k (b.node l).1, (b.node l).2 + k) := by
  unfold BState.node
  have : (shB k b).map.get? l = (b.map.get? l).map (· + k) := get?_mapVals (· + k) b.map l
  rw [this]
  cases b.map.get? l with
  | some i => rfl
  | none =>
    show (({ map := (mapVals (· + k) b.map).set l (b.next + k), next := b.next + k + 1 } : BState), b.next + k) = _
    rw [set_mapVals (· + k)]
    simp only [shB, Prod.mk.injEq, BState.mk.injEq, true_and, and_true]
    omega

theorem evalNode_sh (nl : PStr → Bool) (k : Nat) (st : TState) (n : NodeTok) :
    evalNode nl (shSt k st) n = (evalNode nl st n).map fun x => (shSt k x.1, shT k x.2) := by
  cases n with
  | iri i => simp only [evalNode, evalIri_sh]; cases evalIri nl st i <;> rfl
  | label l =>
    simp only [evalNode, Except.map, shSt, shT]
    rw [node_sh]
  | anon =>
    simp only [evalNode, Except.map, shSt, shT, shB]
    rw [show st.bn.next + k + 1 = st.bn.next + 1 + k by omega]

theorem evalVerb_sh (nl : PStr → Bool) (k : Nat) (st : TState) (v : VerbTok) :
    evalVerb nl (shSt k st) v = (evalVerb nl st v).map fun x => (shSt k x.1, shT k x.2) := by
  cases v with
  | a => rfl
  | iri i => simp only [evalVerb, evalIri_sh]; cases evalIri nl st i <;> rfl

theorem evalLeaf_sh (nl : PStr → Bool) (k : Nat) (st : TState) (l : LeafTok) :
    evalLeaf nl (shSt k st) l = (evalLeaf nl st l).map fun x => (shSt k x.1, shT k x.2) := by
  cases l with
  | node n => exact evalNode_sh nl k st n
  | str b => simp only [evalLeaf]; cases decodeLiteral b <;> rfl
  | strLang b l => simp only [evalLeaf]; cases decodeLiteral b <;> rfl
  | strDt b i =>
    simp only [evalLeaf, evalIri_sh]
    cases decodeLiteral b with
    | error => rfl
    | ok v => dsimp only; cases evalIri nl st i <;> rfl
  | num => rfl
  | bool => rfl

mutual
theorem evalObj_sh (nl : PStr → Bool) (k : Nat) : ∀ (st : TState) (o : PObj),
    evalObj nl (shSt k st) o = (evalObj nl st o).map fun x => (shSt k x.1, shObj k x.2)
  | st, .leaf l => by
    unfold evalObj
    rw [evalLeaf_sh]
    cases evalLeaf nl st l with
    | error => rfl
    | ok x => simp only [Except.map, shObj]
  | st, .coll c => by
    unfold evalObj
    rw [evalColl_sh nl k st c]
    cases evalColl nl st c with
    | error => rfl
    | ok x => simp only [Except.map, shObj]
  | st, .bnpl p => by
    unfold evalObj
    rw [evalPol_sh nl k st p]
    cases evalPol nl st p with
    | error => rfl
    | ok x => simp only [Except.map, shObj]
theorem evalObjs_sh (nl : PStr → Bool) (k : Nat) : ∀ (st : TState) (o : PObjs),
    evalObjs nl (shSt k st) o = (evalObjs nl st o).map fun x => (shSt k x.1, shObjs k x.2)
  | st, .one o => by
    unfold evalObjs
    rw [evalObj_sh nl k st o]
    cases evalObj nl st o with
    | error => rfl
    | ok x => simp only [Except.map, shObjs]
  | st, .cons o os => by
    unfold evalObjs
    rw [evalObj_sh nl k st o]
    cases evalObj nl st o with
    | error => rfl
    | ok x =>
      simp only [Except.map]
      rw [evalObjs_sh nl k x.1 os]
      cases evalObjs nl x.1 os with
      | error => rfl
      | ok y => simp only [Except.map, shObjs]
theorem evalColl_sh (nl : PStr → Bool) (k : Nat) : ∀ (st : TState) (o : PColl),
    evalColl nl (shSt k st) o = (evalColl nl st o).map fun x => (shSt k x.1, shColl k x.2)
  | st, .nil => by simp only [evalColl, Except.map, shColl]
  | st, .cons o os => by
    unfold evalColl
    rw [evalObj_sh nl k st o]
    cases evalObj nl st o with
    | error => rfl
    | ok x =>
      simp only [Except.map]
      rw [evalColl_sh nl k x.1 os]
      cases evalColl nl x.1 os with
      | error => rfl
      | ok y => simp only [Except.map, shColl]
theorem evalPol_sh (nl : PStr → Bool) (k : Nat) : ∀ (st : TState) (o : PPol),
    evalPol nl (shSt k st) o = (evalPol nl st o).map fun x => (shSt k x.1, shPol k x.2)
  | st, .last v os e => by
    unfold evalPol
    rw [evalVerb_sh]
    cases evalVerb nl st v with
    | error => rfl
    | ok x =>
      simp only [Except.map]
      rw [evalObjs_sh nl k x.1 os]
      cases evalObjs nl x.1 os with
      | error => rfl
      | ok y => simp only [Except.map, shPol]
  | st, .cons v os e p => by
    unfold evalPol
    rw [evalVerb_sh]
    cases evalVerb nl st v with
    | error => rfl
    | ok x =>
      simp only [Except.map]
      rw [evalObjs_sh nl k x.1 os]
      cases evalObjs nl x.1 os with
      | error => rfl
      | ok y =>
        simp only [Except.map]
        rw [evalPol_sh nl k y.1 p]
        cases evalPol nl y.1 p with
        | error => rfl
        | ok z => simp only [Except.map, shPol]
end

theorem evalStmt_sh (nl : PStr → Bool) (k : Nat) (st : TState) (s : PTStmt) :
    evalStmt nl (shSt k st) s = (evalStmt nl st s).map fun x => (shSt k x.1, shE k x.2) := by
  cases s with
  | pre _ ns i => show Except.map _ (resolveRef nl st.base i) = Except.map _ (Except.map _ (resolveRef nl st.base i)); cases resolveRef nl st.base i <;> rfl
  | base _ i => show Except.map _ (resolveRef nl st.base i) = Except.map _ (Except.map _ (resolveRef nl st.base i)); cases resolveRef nl st.base i <;> rfl
  | node s p =>
    simp only [evalStmt]
    rw [evalNode_sh]
    cases evalNode nl st s with
    | error => rfl
    | ok x => simp only [Except.map]; rw [evalPol_sh]; cases evalPol nl x.1 p <;> rfl
  | coll c p =>
    simp only [evalStmt]
    rw [evalColl_sh]
    cases evalColl nl st c with
    | error => rfl
    | ok x => simp only [Except.map]; rw [evalPol_sh]; cases evalPol nl x.1 p <;> rfl
  | bnpl s => simp only [evalStmt]; rw [evalPol_sh]; cases evalPol nl st s <;> rfl
  | bnplPol s p =>
    simp only [evalStmt]
    rw [evalPol_sh]
    cases evalPol nl st s with
    | error => rfl
    | ok x => simp only [Except.map]; rw [evalPol_sh]; cases evalPol nl x.1 p <;> rfl

theorem evalStmts_sh (nl : PStr → Bool) (k : Nat) : ∀ (st : TState) (ss : List PTStmt),
    evalStmts nl (shSt k st) ss = (evalStmts nl st ss).map fun x => (shSt k x.1, x.2.map (shE k))
  | st, [] => rfl
  | st, s :: ss => by
    simp only [evalStmts]
    rw [evalStmt_sh]
    cases evalStmt nl st s with
    | error => rfl
    | ok x =>
      simp only [Except.map]
      rw [evalStmts_sh nl k x.1 ss]
      cases evalStmts nl x.1 ss with
      | error => rfl
      | ok y => simp only [Except.map, List.map_cons]

/-! ### The generators -/

theorem childTerm_sh (k n : Nat) (o : TObj) : childTerm (n + k) (shObj k o) = ((childTerm n o).1 + k, shT k (childTerm n o).2) := by
  cases o with
  | leaf => simp only [shObj, childTerm]
  | coll => simp only [shObj, childTerm, shT, Prod.mk.injEq, and_true]; omega
  | bnpl => simp only [shObj, childTerm, shT, Prod.mk.injEq, and_true]; omega

theorem genMany_sh (k : Nat) (s v : Term) : ∀ (n : Nat) (os : TObjs),
    genMany (shT k s) (shT k v) (n + k) (shObjs k os) = ((genMany s v n os).1 + k, (genMany s v n os).2.map (shS k))
  | n, .one o => by simp only [shObjs, genMany, childTerm_sh, List.map_cons, List.map_nil, shS_mk]
  | n, .cons o os => by simp only [shObjs, genMany, childTerm_sh, genMany_sh k s v _ os, List.map_cons, shS_mk]

theorem shT_bnode (k n : Nat) : Term.bnode (n + k) = shT k (.bnode n) := rfl

mutual
theorem genObj_sh (k : Nat) : ∀ (n : Nat) (o : TObj),
    genObj (n + k) (shObj k o) = ((genObj n o).1 + k, (genObj n o).2.1.map (shS k), shT k (genObj n o).2.2)
  | n, .leaf t => by simp only [shObj, genObj, List.map_nil]
  | n, .coll c => by simp only [shObj, genObj]; exact genColl_sh k n c
  | n, .bnpl p => by
    simp only [shObj, genObj, shT_bnode]
    rw [show n + k + 1 = n + 1 + k by omega, genPol_sh k (.bnode n) (n + 1) p]
theorem genColl_sh (k : Nat) : ∀ (n : Nat) (o : TColl),
    genColl (n + k) (shColl k o) = ((genColl n o).1 + k, (genColl n o).2.1.map (shS k), shT k (genColl n o).2.2)
  | n, .nil => by simp only [shColl, genColl, List.map_nil]; rfl
  | n, .cons o c => by
    simp only [shColl, genColl]
    rw [genColl_sh k n c]
    dsimp only
    rw [show (genColl n c).1 + k + 1 = (genColl n c).1 + 1 + k by omega, genObj_sh k ((genColl n c).1 + 1) o]
    simp only [List.map_append, List.map_cons, List.map_nil, shS_mk]
    rfl
theorem genPol_sh (k : Nat) (s : Term) : ∀ (n : Nat) (p : TPol),
    genPol (shT k s) (n + k) (shPol k p) = ((genPol s n p).1 + k, (genPol s n p).2.map (shS k))
  | n, .last v os e => by simp only [shPol, genPol]; exact genObjs_sh k s v n os
  | n, .cons v os e p => by
    simp only [shPol, genPol]
    rw [genObjs_sh k s v n os]
    dsimp only
    rw [genPol_sh k s _ p]
    simp only [List.map_append]
theorem genObjs_sh (k : Nat) (s v : Term) : ∀ (n : Nat) (os : TObjs),
    genObjs (shT k s) (shT k v) (n + k) (shObjs k os) = ((genObjs s v n os).1 + k, (genObjs s v n os).2.map (shS k))
  | n, .one o => by
    simp only [shObjs, genObjs]
    rw [genObj_sh k n o]
    simp only [List.map_append, List.map_cons, List.map_nil, shS_mk]
  | n, .cons o os => by
    have := genMany_sh k s v n (.cons o os)
    simp only [shObjs, genObjs] at this ⊢
    exact this
end

theorem genStmt_sh (k n : Nat) (e : EStmt) : genStmt (n + k) (shE k e) = ((genStmt n e).1 + k, (genStmt n e).2.map (shS k)) := by
  cases e with
  | directive => rfl
  | node s p => exact genPol_sh k s n p
  | coll c p =>
    simp only [shE, genStmt]
    rw [genColl_sh]
    dsimp only
    rw [genPol_sh]
    simp only [List.map_append]
  | bnpl s =>
    simp only [shE, genStmt, shT_bnode]
    rw [show n + k + 1 = n + 1 + k by omega, genPol_sh]
  | bnplPol s p =>
    simp only [shE, genStmt, shT_bnode]
    rw [show n + k + 1 = n + 1 + k by omega, genPol_sh]
    dsimp only
    rw [genPol_sh]
    simp only [List.map_append]

theorem genStmts_sh (k : Nat) : ∀ (n : Nat) (es : List EStmt),
    genStmts (n + k) (es.map (shE k)) = ((genStmts n es).1 + k, (genStmts n es).2.map (shS k))
  | n, [] => rfl
  | n, e :: es => by
    simp only [List.map_cons, genStmts]
    rw [genStmt_sh]
    dsimp only
    rw [genStmts_sh k _ es]
    simp only [List.map_append]

/-- The whole: reading a text with the allocator at `n + k` instead of `n`. -/
theorem parseText_sh (nl : PStr → Bool) (base : PStr) (n k : Nat) (text : PStr) :
    parseText nl base (n + k) text = (parseText nl base n text).map fun x => (x.1 + k, x.2.map (shS k)) := by
  unfold parseText
  cases parseTree text with
  | error => rfl
  | ok ss =>
    dsimp only
    have := evalStmts_sh nl k { base, prefixes := initialPrefixes, bn := { map := [], next := n } } ss
    rw [show shSt k { base, prefixes := initialPrefixes, bn := { map := [], next := n } } =
      { base, prefixes := initialPrefixes, bn := { map := [], next := n + k } } from rfl] at this
    rw [this]
    cases evalStmts nl { base, prefixes := initialPrefixes, bn := { map := [], next := n } } ss with
    | error => rfl
    | ok x =>
      simp only [Except.map, Except.ok.injEq]
      exact genStmts_sh k x.1.bn.next x.2

/-! ### Names are below the allocator -/

/-- The identity, if the term has one, is less than `n`. -/
def LtT (n : Nat) : Term → Prop
  | .bnode i => i < n
  | .gen i => i < n
  | _ => True

theorem LtT.mono {n m : Nat} {t : Term} (h : LtT n t) (hm : n ≤ m) : LtT m t := by
  cases t with
  | bnode i => exact Nat.lt_of_lt_of_le h hm
  | gen i => exact Nat.lt_of_lt_of_le h hm
  | _ => trivial

def LtS (n : Nat) (t : Stmt) : Prop := LtT n t.s ∧ LtT n t.p ∧ LtT n t.o

theorem LtS.mono {n m : Nat} {t : Stmt} (h : LtS n t) (hm : n ≤ m) : LtS m t := ⟨h.1.mono hm, h.2.1.mono hm, h.2.2.mono hm⟩

mutual
def LtObj (n : Nat) : TObj → Prop
  | .leaf t => LtT n t
  | .coll c => LtColl n c
  | .bnpl p => LtPol n p
def LtObjs (n : Nat) : TObjs → Prop
  | .one o => LtObj n o
  | .cons o os => LtObj n o ∧ LtObjs n os
def LtColl (n : Nat) : TColl → Prop
  | .nil => True
  | .cons o c => LtObj n o ∧ LtColl n c
def LtPol (n : Nat) : TPol → Prop
  | .last v os _ => LtT n v ∧ LtObjs n os
  | .cons v os _ p => LtT n v ∧ LtObjs n os ∧ LtPol n p
end

mutual
theorem LtObj.mono {n m : Nat} (hm : n ≤ m) : ∀ {o : TObj}, LtObj n o → LtObj m o
  | .leaf t, h => by simp only [LtObj] at h ⊢; exact h.mono hm
  | .coll c, h => by simp only [LtObj] at h ⊢; exact LtColl.mono hm h
  | .bnpl p, h => by simp only [LtObj] at h ⊢; exact LtPol.mono hm h
theorem LtObjs.mono {n m : Nat} (hm : n ≤ m) : ∀ {o : TObjs}, LtObjs n o → LtObjs m o
  | .one o, h => by simp only [LtObjs] at h ⊢; exact LtObj.mono hm h
  | .cons o os, h => by simp only [LtObjs] at h ⊢; exact ⟨LtObj.mono hm h.1, LtObjs.mono hm h.2⟩
theorem LtColl.mono {n m : Nat} (hm : n ≤ m) : ∀ {o : TColl}, LtColl n o → LtColl m o
  | .nil, _ => by simp only [LtColl]
  | .cons o os, h => by simp only [LtColl] at h ⊢; exact ⟨LtObj.mono hm h.1, LtColl.mono hm h.2⟩
theorem LtPol.mono {n m : Nat} (hm : n ≤ m) : ∀ {o : TPol}, LtPol n o → LtPol m o
  | .last v os _, h => by simp only [LtPol] at h ⊢; exact ⟨h.1.mono hm, LtObjs.mono hm h.2⟩
  | .cons v os _ p, h => by simp only [LtPol] at h ⊢; exact ⟨h.1.mono hm, LtObjs.mono hm h.2.1, LtPol.mono hm h.2.2⟩
end

def LtE (n : Nat) : EStmt → Prop
  | .directive => True
  | .node s p => LtT n s ∧ LtPol n p
  | .coll c p => LtColl n c ∧ LtPol n p
  | .bnpl s => LtPol n s
  | .bnplPol s p => LtPol n s ∧ LtPol n p

theorem LtE.mono {n m : Nat} (hm : n ≤ m) {e : EStmt} (h : LtE n e) : LtE m e := by
  cases e with
  | directive => trivial
  | node s p => exact ⟨h.1.mono hm, h.2.mono hm⟩
  | coll c p => exact ⟨h.1.mono hm, h.2.mono hm⟩
  | bnpl s => exact LtPol.mono hm h
  | bnplPol s p => exact ⟨h.1.mono hm, h.2.mono hm⟩

/-- Labels stand for names below the allocator. -/
def OkB (b : BState) : Prop := ∀ l i, b.map.get? l = some i → i < b.next

theorem node_lt {b : BState} (h : OkB b) (l : PStr) : OkB (b.node l).1 ∧ b.next ≤ (b.node l).1.next ∧ (b.node l).2 < (b.node l).1.next := by
  unfold BState.node
  cases e : b.map.get? l with
  | some i => exact ⟨h, Nat.le_refl _, h l i e⟩
  | none =>
    refine ⟨fun l' i hi => ?_, Nat.le_succ _, Nat.lt_succ_self _⟩
    dsimp only at hi ⊢
    rw [Dict.get?_set] at hi
    split at hi
    · cases hi; exact Nat.lt_succ_self _
    · exact Nat.lt_succ_of_lt (h l' i hi)

/-- What a callback keeps. -/
def GoodSh (st st' : TState) : Prop := OkB st'.bn ∧ st.bn.next ≤ st'.bn.next

theorem evalNode_lt {nl : PStr → Bool} {st : TState} (h : OkB st.bn) {n : NodeTok} {st' : TState} {t : Term} (e : evalNode nl st n = .ok (st', t)) :
    GoodSh st st' ∧ LtT st'.bn.next t := by
  cases n with
  | iri i =>
    simp only [evalNode] at e
    cases hi : evalIri nl st i with
    | error => rw [hi] at e; cases e
    | ok x => rw [hi] at e; cases e; exact ⟨⟨h, Nat.le_refl _⟩, trivial⟩
  | label l =>
    simp only [evalNode] at e
    cases e
    obtain ⟨a, b, c⟩ := node_lt h l
    exact ⟨⟨a, b⟩, c⟩
  | anon =>
    simp only [evalNode] at e
    cases e
    exact ⟨⟨fun l i hi => Nat.lt_succ_of_lt (h l i hi), Nat.le_succ _⟩, Nat.lt_succ_self _⟩

theorem evalVerb_lt {nl : PStr → Bool} {st : TState} {v : VerbTok} {st' : TState} {t : Term} (e : evalVerb nl st v = .ok (st', t)) :
    st' = st ∧ ∀ n, LtT n t := by
  cases v with
  | a => simp only [evalVerb] at e; cases e; exact ⟨rfl, fun _ => trivial⟩
  | iri i =>
    simp only [evalVerb] at e
    cases hi : evalIri nl st i with
    | error => rw [hi] at e; cases e
    | ok x => rw [hi] at e; cases e; exact ⟨rfl, fun _ => trivial⟩

theorem evalLeaf_lt {nl : PStr → Bool} {st : TState} (h : OkB st.bn) {l : LeafTok} {st' : TState} {t : Term} (e : evalLeaf nl st l = .ok (st', t)) :
    GoodSh st st' ∧ LtT st'.bn.next t := by
  cases l with
  | node n => exact evalNode_lt h e
  | str b =>
    simp only [evalLeaf] at e
    cases hb : decodeLiteral b with
    | error => rw [hb] at e; cases e
    | ok v => rw [hb] at e; cases e; exact ⟨⟨h, Nat.le_refl _⟩, trivial⟩
  | strLang b l =>
    simp only [evalLeaf] at e
    cases hb : decodeLiteral b with
    | error => rw [hb] at e; cases e
    | ok v => rw [hb] at e; cases e; exact ⟨⟨h, Nat.le_refl _⟩, trivial⟩
  | strDt b i =>
    simp only [evalLeaf] at e
    cases hb : decodeLiteral b with
    | error => rw [hb] at e; cases e
    | ok v =>
      rw [hb] at e
      dsimp only at e
      cases hi : evalIri nl st i with
      | error => rw [hi] at e; cases e
      | ok x => rw [hi] at e; cases e; exact ⟨⟨h, Nat.le_refl _⟩, trivial⟩
  | num => simp only [evalLeaf] at e; cases e; exact ⟨⟨h, Nat.le_refl _⟩, trivial⟩
  | bool => simp only [evalLeaf] at e; cases e; exact ⟨⟨h, Nat.le_refl _⟩, trivial⟩

theorem GoodSh.trans {a b c : TState} (h : GoodSh a b) (h' : GoodSh b c) : GoodSh a c := ⟨h'.1, Nat.le_trans h.2 h'.2⟩

mutual
theorem evalObj_lt {nl : PStr → Bool} : ∀ {o : PObj} {st st' : TState} {x : TObj}, OkB st.bn → evalObj nl st o = .ok (st', x) →
    GoodSh st st' ∧ LtObj st'.bn.next x
  | .leaf l, st, st', x, h, e => by
    unfold evalObj at e
    cases hl : evalLeaf nl st l with
    | error => rw [hl] at e; cases e
    | ok y => rw [hl] at e; cases e; have := evalLeaf_lt h hl; simpa only [LtObj] using this
  | .coll c, st, st', x, h, e => by
    unfold evalObj at e
    cases hl : evalColl nl st c with
    | error => rw [hl] at e; cases e
    | ok y => rw [hl] at e; cases e; have := evalColl_lt h hl; simpa only [LtObj] using this
  | .bnpl c, st, st', x, h, e => by
    unfold evalObj at e
    cases hl : evalPol nl st c with
    | error => rw [hl] at e; cases e
    | ok y => rw [hl] at e; cases e; have := evalPol_lt h hl; simpa only [LtObj] using this
theorem evalObjs_lt {nl : PStr → Bool} : ∀ {o : PObjs} {st st' : TState} {x : TObjs}, OkB st.bn → evalObjs nl st o = .ok (st', x) →
    GoodSh st st' ∧ LtObjs st'.bn.next x
  | .one o, st, st', x, h, e => by
    unfold evalObjs at e
    cases hl : evalObj nl st o with
    | error => rw [hl] at e; cases e
    | ok y => rw [hl] at e; cases e; have := evalObj_lt h hl; simpa only [LtObjs] using this
  | .cons o os, st, st', x, h, e => by
    unfold evalObjs at e
    cases hl : evalObj nl st o with
    | error => rw [hl] at e; cases e
    | ok y =>
      obtain ⟨st1, y⟩ := y
      rw [hl] at e
      dsimp only at e
      cases hm : evalObjs nl st1 os with
      | error => rw [hm] at e; cases e
      | ok z =>
        rw [hm] at e; cases e
        have a := evalObj_lt h hl
        have b := evalObjs_lt a.1.1 hm
        simp only [LtObjs]
        exact ⟨a.1.trans b.1, LtObj.mono b.1.2 a.2, b.2⟩
theorem evalColl_lt {nl : PStr → Bool} : ∀ {o : PColl} {st st' : TState} {x : TColl}, OkB st.bn → evalColl nl st o = .ok (st', x) →
    GoodSh st st' ∧ LtColl st'.bn.next x
  | .nil, st, st', x, h, e => by
    unfold evalColl at e; cases e; simp only [LtColl]; exact ⟨⟨h, Nat.le_refl _⟩, trivial⟩
  | .cons o os, st, st', x, h, e => by
    unfold evalColl at e
    cases hl : evalObj nl st o with
    | error => rw [hl] at e; cases e
    | ok y =>
      obtain ⟨st1, y⟩ := y
      rw [hl] at e
      dsimp only at e
      cases hm : evalColl nl st1 os with
      | error => rw [hm] at e; cases e
      | ok z =>
        rw [hm] at e; cases e
        have a := evalObj_lt h hl
        have b := evalColl_lt a.1.1 hm
        simp only [LtColl]
        exact ⟨a.1.trans b.1, LtObj.mono b.1.2 a.2, b.2⟩
theorem evalPol_lt {nl : PStr → Bool} : ∀ {o : PPol} {st st' : TState} {x : TPol}, OkB st.bn → evalPol nl st o = .ok (st', x) →
    GoodSh st st' ∧ LtPol st'.bn.next x
  | .last v os k, st, st', x, h, e => by
    unfold evalPol at e
    cases hv : evalVerb nl st v with
    | error => rw [hv] at e; cases e
    | ok y =>
      obtain ⟨st1, y⟩ := y
      rw [hv] at e
      obtain ⟨rfl, hy⟩ := evalVerb_lt hv
      dsimp only at e
      cases hm : evalObjs nl st1 os with
      | error => rw [hm] at e; cases e
      | ok z =>
        rw [hm] at e; cases e
        have b := evalObjs_lt h hm
        simp only [LtPol]
        exact ⟨b.1, hy _, b.2⟩
  | .cons v os k p, st, st', x, h, e => by
    unfold evalPol at e
    cases hv : evalVerb nl st v with
    | error => rw [hv] at e; cases e
    | ok y =>
      obtain ⟨st1, y⟩ := y
      rw [hv] at e
      obtain ⟨rfl, hy⟩ := evalVerb_lt hv
      dsimp only at e
      cases hm : evalObjs nl st1 os with
      | error => rw [hm] at e; cases e
      | ok z =>
        obtain ⟨st2, z⟩ := z
        rw [hm] at e
        dsimp only at e
        cases hp : evalPol nl st2 p with
        | error => rw [hp] at e; cases e
        | ok q =>
          rw [hp] at e; cases e
          have b := evalObjs_lt h hm
          have c := evalPol_lt b.1.1 hp
          simp only [LtPol]
          exact ⟨b.1.trans c.1, hy _, LtObjs.mono c.1.2 b.2, c.2⟩
end

theorem map_ok_sh {α β : Type} {f : α → β} {x : Except Exc α} {y : β} (h : x.map f = .ok y) : ∃ a, x = .ok a ∧ f a = y := by
  cases x with
  | error => cases h
  | ok a => exact ⟨a, rfl, by cases h; rfl⟩

theorem evalStmt_lt {nl : PStr → Bool} {s : PTStmt} {st st' : TState} {x : EStmt} (h : OkB st.bn) (e : evalStmt nl st s = .ok (st', x)) :
    GoodSh st st' ∧ LtE st'.bn.next x := by
  cases s with
  | pre _ ns i => obtain ⟨a, -, e⟩ := map_ok_sh e; cases e; exact ⟨⟨h, Nat.le_refl _⟩, trivial⟩
  | base _ i => obtain ⟨a, -, e⟩ := map_ok_sh e; cases e; exact ⟨⟨h, Nat.le_refl _⟩, trivial⟩
  | node s p =>
    simp only [evalStmt] at e
    cases hs : evalNode nl st s with
    | error => rw [hs] at e; cases e
    | ok y =>
      obtain ⟨st1, y⟩ := y
      rw [hs] at e
      obtain ⟨⟨st2, z⟩, hz, e⟩ := map_ok_sh e
      cases e
      have a := evalNode_lt h hs
      have b := evalPol_lt a.1.1 hz
      exact ⟨a.1.trans b.1, a.2.mono b.1.2, b.2⟩
  | coll c p =>
    simp only [evalStmt] at e
    cases hs : evalColl nl st c with
    | error => rw [hs] at e; cases e
    | ok y =>
      obtain ⟨st1, y⟩ := y
      rw [hs] at e
      obtain ⟨⟨st2, z⟩, hz, e⟩ := map_ok_sh e
      cases e
      have a := evalColl_lt h hs
      have b := evalPol_lt a.1.1 hz
      exact ⟨a.1.trans b.1, LtColl.mono b.1.2 a.2, b.2⟩
  | bnpl s =>
    simp only [evalStmt] at e
    obtain ⟨⟨st2, z⟩, hz, e⟩ := map_ok_sh e
    cases e
    exact evalPol_lt h hz
  | bnplPol s p =>
    simp only [evalStmt] at e
    cases hs : evalPol nl st s with
    | error => rw [hs] at e; cases e
    | ok y =>
      obtain ⟨st1, y⟩ := y
      rw [hs] at e
      obtain ⟨⟨st2, z⟩, hz, e⟩ := map_ok_sh e
      cases e
      have a := evalPol_lt h hs
      have b := evalPol_lt a.1.1 hz
      exact ⟨a.1.trans b.1, LtPol.mono b.1.2 a.2, b.2⟩

theorem evalStmts_lt {nl : PStr → Bool} : ∀ {ss : List PTStmt} {st st' : TState} {xs : List EStmt}, OkB st.bn → evalStmts nl st ss = .ok (st', xs) →
    GoodSh st st' ∧ ∀ x ∈ xs, LtE st'.bn.next x
  | [], st, st', xs, h, e => by cases e; exact ⟨⟨h, Nat.le_refl _⟩, fun x hx => by cases hx⟩
  | s :: ss, st, st', xs, h, e => by
    simp only [evalStmts] at e
    cases hs : evalStmt nl st s with
    | error => rw [hs] at e; cases e
    | ok y =>
      obtain ⟨st1, y⟩ := y
      rw [hs] at e
      dsimp only at e
      cases hm : evalStmts nl st1 ss with
      | error => rw [hm] at e; cases e
      | ok z =>
        rw [hm] at e; cases e
        have a := evalStmt_lt h hs
        have b := evalStmts_lt a.1.1 hm
        refine ⟨a.1.trans b.1, fun x hx => ?_⟩
        rcases List.mem_cons.1 hx with rfl | hx
        · exact LtE.mono b.1.2 a.2
        · exact b.2 x hx

/-- What a generator keeps: the allocator grows, and the names are below it. -/
def GoodL (n m : Nat) (ts : List Stmt) : Prop := n ≤ m ∧ ∀ t ∈ ts, LtS m t

theorem GoodL.append {n m k : Nat} {a b : List Stmt} (h : GoodL n m a) (h' : GoodL m k b) : GoodL n k (a ++ b) :=
  ⟨Nat.le_trans h.1 h'.1, fun t ht => by
    rcases List.mem_append.1 ht with ht | ht
    · exact (h.2 t ht).mono h'.1
    · exact h'.2 t ht⟩

theorem childTerm_lt {n : Nat} {o : TObj} (h : LtObj n o) : n ≤ (childTerm n o).1 ∧ LtT (childTerm n o).1 (childTerm n o).2 := by
  cases o with
  | leaf t => simp only [LtObj] at h; exact ⟨Nat.le_refl _, h⟩
  | coll c => exact ⟨Nat.le_succ _, Nat.lt_succ_self _⟩
  | bnpl c => exact ⟨Nat.le_succ _, Nat.lt_succ_self _⟩

theorem genMany_lt {s v : Term} : ∀ {os : TObjs} {n : Nat}, LtT n s → LtT n v → LtObjs n os → GoodL n (genMany s v n os).1 (genMany s v n os).2
  | .one o, n, hs, hv, h => by
    simp only [LtObjs] at h
    obtain ⟨a, b⟩ := childTerm_lt h
    simp only [genMany]
    exact ⟨a, fun t ht => by rw [List.mem_singleton] at ht; subst ht; exact ⟨hs.mono a, hv.mono a, b⟩⟩
  | .cons o os, n, hs, hv, h => by
    simp only [LtObjs] at h
    obtain ⟨a, b⟩ := childTerm_lt h.1
    simp only [genMany]
    have ih := genMany_lt (os := os) (hs.mono a) (hv.mono a) (LtObjs.mono a h.2)
    refine ⟨Nat.le_trans a ih.1, fun t ht => ?_⟩
    rcases List.mem_cons.1 ht with rfl | ht
    · exact ⟨hs.mono (Nat.le_trans a ih.1), hv.mono (Nat.le_trans a ih.1), b.mono ih.1⟩
    · exact ih.2 t ht

mutual
theorem genObj_lt : ∀ {o : TObj} {n : Nat}, LtObj n o → GoodL n (genObj n o).1 (genObj n o).2.1 ∧ LtT (genObj n o).1 (genObj n o).2.2
  | .leaf t, n, h => by simp only [LtObj] at h; simp only [genObj]; exact ⟨⟨Nat.le_refl _, fun t ht => by cases ht⟩, h⟩
  | .coll c, n, h => by simp only [LtObj] at h; simp only [genObj]; exact genColl_lt h
  | .bnpl p, n, h => by
    simp only [LtObj] at h; simp only [genObj]
    have := genPol_lt (s := .bnode n) (n := n + 1) (Nat.lt_succ_self n) (LtPol.mono (Nat.le_succ n) h)
    exact ⟨⟨Nat.le_trans (Nat.le_succ n) this.1, this.2⟩, Nat.lt_of_lt_of_le (Nat.lt_succ_self n) this.1⟩
theorem genColl_lt : ∀ {c : TColl} {n : Nat}, LtColl n c → GoodL n (genColl n c).1 (genColl n c).2.1 ∧ LtT (genColl n c).1 (genColl n c).2.2
  | .nil, n, _ => by simp only [genColl]; exact ⟨⟨Nat.le_refl _, fun t ht => by cases ht⟩, trivial⟩
  | .cons o c, n, h => by
    simp only [LtColl] at h
    simp only [genColl]
    obtain ⟨a, a'⟩ := genColl_lt (n := n) h.2
    obtain ⟨b, b'⟩ := genObj_lt (n := (genColl n c).1 + 1) (LtObj.mono (Nat.le_trans a.1 (Nat.le_succ _)) h.1)
    have hlt : (genColl n c).1 < (genObj ((genColl n c).1 + 1) o).1 := Nat.lt_of_lt_of_le (Nat.lt_succ_self _) b.1
    refine ⟨⟨Nat.le_trans a.1 (Nat.le_of_lt hlt), fun t ht => ?_⟩, hlt⟩
    simp only [List.mem_append, List.mem_cons, List.not_mem_nil, or_false] at ht
    rcases ht with (ht | ht) | rfl | rfl
    · exact (a.2 t ht).mono (Nat.le_of_lt hlt)
    · exact b.2 t ht
    · exact ⟨hlt, trivial, b'⟩
    · exact ⟨hlt, trivial, a'.mono (Nat.le_of_lt hlt)⟩
theorem genPol_lt {s : Term} : ∀ {p : TPol} {n : Nat}, LtT n s → LtPol n p → GoodL n (genPol s n p).1 (genPol s n p).2
  | .last v os _, n, hs, h => by simp only [LtPol] at h; simp only [genPol]; exact genObjs_lt hs h.1 h.2
  | .cons v os _ p, n, hs, h => by
    simp only [LtPol] at h
    simp only [genPol]
    have a := genObjs_lt (n := n) hs h.1 h.2.1
    exact a.append (genPol_lt (hs.mono a.1) (LtPol.mono a.1 h.2.2))
theorem genObjs_lt {s v : Term} : ∀ {os : TObjs} {n : Nat}, LtT n s → LtT n v → LtObjs n os → GoodL n (genObjs s v n os).1 (genObjs s v n os).2
  | .one o, n, hs, hv, h => by
    simp only [LtObjs] at h
    simp only [genObjs]
    obtain ⟨a, b⟩ := genObj_lt h
    refine ⟨a.1, fun t ht => ?_⟩
    rcases List.mem_append.1 ht with ht | ht
    · exact a.2 t ht
    · rw [List.mem_singleton] at ht; subst ht; exact ⟨hs.mono a.1, hv.mono a.1, b⟩
  | .cons o os, n, hs, hv, h => by simp only [genObjs]; exact genMany_lt hs hv h
end

theorem genStmt_lt {e : EStmt} {n : Nat} (h : LtE n e) : GoodL n (genStmt n e).1 (genStmt n e).2 := by
  cases e with
  | directive => exact ⟨Nat.le_refl _, fun t ht => by cases ht⟩
  | node s p => exact genPol_lt h.1 h.2
  | coll c p =>
    obtain ⟨a, b⟩ := genColl_lt (n := n) h.1
    exact a.append (genPol_lt b (LtPol.mono a.1 h.2))
  | bnpl s =>
    have := genPol_lt (s := .bnode n) (n := n + 1) (Nat.lt_succ_self n) (LtPol.mono (Nat.le_succ n) h)
    exact ⟨Nat.le_trans (Nat.le_succ n) this.1, this.2⟩
  | bnplPol s p =>
    have a := genPol_lt (s := .bnode n) (n := n + 1) (Nat.lt_succ_self n) (LtPol.mono (Nat.le_succ n) h.1)
    have b := genPol_lt (s := .bnode n) (n := (genPol (.bnode n) (n + 1) s).1) (Nat.lt_of_lt_of_le (Nat.lt_succ_self n) a.1)
      (LtPol.mono (Nat.le_trans (Nat.le_succ n) a.1) h.2)
    have := a.append b
    exact ⟨Nat.le_trans (Nat.le_succ n) this.1, this.2⟩

theorem genStmts_lt : ∀ {es : List EStmt} {n : Nat}, (∀ e ∈ es, LtE n e) → GoodL n (genStmts n es).1 (genStmts n es).2
  | [], n, _ => ⟨Nat.le_refl _, fun t ht => by cases ht⟩
  | e :: es, n, h => by
    have a := genStmt_lt (h e List.mem_cons_self)
    exact a.append (genStmts_lt fun e' he => LtE.mono a.1 (h e' (List.mem_cons_of_mem _ he)))

theorem parseText_lt {nl : PStr → Bool} {base : PStr} {n m : Nat} {text : PStr} {ts : List Stmt} (h : parseText nl base n text = .ok (m, ts)) :
    n ≤ m ∧ ∀ t ∈ ts, LtS m t := by
  unfold parseText at h
  cases hp : parseTree text with
  | error => rw [hp] at h; cases h
  | ok ss =>
    rw [hp] at h
    dsimp only at h
    cases he : evalStmts nl { base, prefixes := initialPrefixes, bn := { map := [], next := n } } ss with
    | error => rw [he] at h; cases h
    | ok x =>
      obtain ⟨st, es⟩ := x
      rw [he] at h
      have a := evalStmts_lt (by intro l i hi; cases hi) he
      have b := genStmts_lt a.2
      simp only [Except.ok.injEq] at h
      rw [h] at b
      exact ⟨Nat.le_trans a.1.2 b.1, b.2⟩

end Verif.Turtle
