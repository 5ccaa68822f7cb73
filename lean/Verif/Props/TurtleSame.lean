import Verif.Props.TurtleDoc

/-!
# C160: the order of the statements, abbreviations and the names of labels do not matter in Turtle

`SameStatements` says that one document is made from another by exchanging neighbouring statements (not directives), by writing `s p o ; q r .`
as `s p o . s q r .` or `s p o , o' .` as `s p o . s p o' .` or the other way round, by leaving out or adding `;` at the end, and by a one to
one change of the labels of blank nodes.
-/

namespace Verif.Turtle
open Spec

/-! ### Specification -/

/-- `@prefix` or `@base`. -/
def TStmt.isDirective {N V L : Type} : TStmt N V L → Bool
  | .pre _ _ _ => true
  | .base _ _ => true
  | _ => false

/-- A subject that can be repeated: every `[]` is another node. -/
def NodeTok.repeatable : NodeTok → Bool
  | .anon => false
  | _ => true

/-- One statement or two written in another way. -/
inductive Rewrites : List PTStmt → List PTStmt → Prop
  | swap {d e} : d.isDirective = false → e.isDirective = false → Rewrites [d, e] [e, d]
  | preds {s v os k p} : s.repeatable = true → Rewrites [.node s (.cons v os k p)] [.node s (.last v os 0), .node s p]
  | objs {s v o os k} : s.repeatable = true → Rewrites [.node s (.last v (.cons o os) k)] [.node s (.last v (.one o) 0), .node s (.last v os 0)]
  | semis {s v os k k'} : Rewrites [.node s (.last v os k)] [.node s (.last v os k')]

section relabel
variable (ρ : PStr → PStr)

def NodeTok.relabel : NodeTok → NodeTok
  | .label l => .label (ρ l)
  | n => n

def LeafTok.relabel : LeafTok → LeafTok
  | .node n => .node (n.relabel ρ)
  | l => l

mutual
def Obj.relabel : PObj → PObj
  | .leaf l => .leaf (l.relabel ρ)
  | .coll c => .coll c.relabel
  | .bnpl p => .bnpl p.relabel
def Objs.relabel : PObjs → PObjs
  | .one o => .one o.relabel
  | .cons o os => .cons o.relabel os.relabel
def Coll.relabel : PColl → PColl
  | .nil => .nil
  | .cons o c => .cons o.relabel c.relabel
def Pol.relabel : PPol → PPol
  | .last v os k => .last v os.relabel k
  | .cons v os k p => .cons v os.relabel k p.relabel
end

/-- The statement with other labels. -/
def TStmt.relabel : PTStmt → PTStmt
  | .pre k n i => .pre k n i
  | .base k i => .base k i
  | .node s p => .node (s.relabel ρ) (Pol.relabel ρ p)
  | .coll c p => .coll (Coll.relabel ρ c) (Pol.relabel ρ p)
  | .bnpl s => .bnpl (Pol.relabel ρ s)
  | .bnplPol s p => .bnplPol (Pol.relabel ρ s) (Pol.relabel ρ p)
end relabel

/-- The second document says the same as the first, in another order, with other abbreviations, and with other labels. -/
inductive SameStatements : List PTStmt → List PTStmt → Prop
  | refl (ds) : SameStatements ds ds
  | step {xs ys} (pre post) : Rewrites xs ys → SameStatements (pre ++ xs ++ post) (pre ++ ys ++ post)
  | labels {ds} (ρ : PStr → PStr) : (∀ l l', .label l ∈ docToks ds → .label l' ∈ docToks ds → ρ l = ρ l' → l = l') →
      SameStatements ds (ds.map (TStmt.relabel ρ))
  | symm {ds ds'} : SameStatements ds ds' → SameStatements ds' ds
  | trans {ds ds' ds''} : SameStatements ds ds' → SameStatements ds' ds'' → SameStatements ds ds''

/-! ### Rewriting -/

/-- What the first has, the second has too. -/
def Carries (xs ys : List PTStmt) : Prop :=
  ∀ (R : Reading) (_ : R.Functional) (lab : PStr → Option Nat) (S : Scope) (es : List EStmt) (an fr : List Nat) (ts : List Stmt), DocSem R lab S xs es an → DocDen es fr ts →
    ∃ es' an' fr' ts', DocSem R lab S ys es' an' ∧ DocDen es' fr' ts' ∧ an'.Perm an ∧ fr'.Perm fr ∧ ts'.Perm ts

theorem StmtSem.scope {R : Reading} {lab : PStr → Option Nat} {S T : Scope} {d : PTStmt} {e : EStmt} {an : List Nat} (h : StmtSem R lab S d e an T)
    (hd : d.isDirective = false) : T = S := by
  cases h with
  | pre => cases hd
  | base => cases hd
  | node => rfl
  | coll => rfl
  | bnpl => rfl
  | bnplPol => rfl

theorem docSem_append {R : Reading} {lab : PStr → Option Nat} {S : Scope} {xs post : List PTStmt} (hx : ∀ d ∈ xs, d.isDirective = false) {es : List EStmt}
    {an : List Nat} : DocSem R lab S (xs ++ post) es an ↔
      ∃ es1 es2 an1 an2, es = es1 ++ es2 ∧ an = an1 ++ an2 ∧ DocSem R lab S xs es1 an1 ∧ DocSem R lab S post es2 an2 := by
  induction xs generalizing es an with
  | nil =>
    constructor
    · intro h; exact ⟨[], es, [], an, rfl, rfl, .nil, h⟩
    · rintro ⟨_, _, _, _, rfl, rfl, h1, h2⟩; cases h1; exact h2
  | cons d xs ih =>
    constructor
    · intro h
      cases h with
      | cons h1 h2 =>
        cases h1.scope (hx d (by simp))
        obtain ⟨es1, es2, an1, an2, rfl, rfl, k1, k2⟩ := (ih fun d hd => hx d (by simp [hd])).1 h2
        exact ⟨_ :: es1, es2, _ ++ an1, an2, rfl, by simp, .cons h1 k1, k2⟩
    · rintro ⟨_, es2, _, an2, rfl, rfl, h1, h2⟩
      cases h1 with
      | cons h1 k1 =>
        cases h1.scope (hx d (by simp))
        rw [List.append_assoc]
        exact .cons h1 ((ih fun d hd => hx d (by simp [hd])).2 ⟨_, _, _, _, rfl, rfl, k1, h2⟩)

theorem docDen_append {es1 es2 : List EStmt} {fr : List Nat} {ts : List Stmt} : DocDen (es1 ++ es2) fr ts ↔
    ∃ fr1 fr2 ts1 ts2, fr = fr1 ++ fr2 ∧ ts = ts1 ++ ts2 ∧ DocDen es1 fr1 ts1 ∧ DocDen es2 fr2 ts2 := by
  induction es1 generalizing fr ts with
  | nil =>
    constructor
    · intro h; exact ⟨[], fr, [], ts, rfl, rfl, .nil, h⟩
    · rintro ⟨_, _, _, _, rfl, rfl, h1, h2⟩; cases h1; exact h2
  | cons e es ih =>
    constructor
    · intro h
      cases h with
      | cons h1 h2 =>
        obtain ⟨f1, f2, t1, t2, rfl, rfl, k1, k2⟩ := ih.1 h2
        exact ⟨_ ++ f1, f2, _ ++ t1, t2, by simp, by simp, .cons h1 k1, k2⟩
    · rintro ⟨_, f2, _, t2, rfl, rfl, h1, h2⟩
      cases h1 with
      | cons h1 k1 =>
        rw [List.append_assoc, List.append_assoc]
        exact .cons h1 (ih.2 ⟨_, _, _, _, rfl, rfl, k1, h2⟩)

theorem Carries.within {xs ys : List PTStmt} (h : Carries xs ys) (hx : ∀ d ∈ xs, d.isDirective = false) (hy : ∀ d ∈ ys, d.isDirective = false)
    (pre post : List PTStmt) : Carries (pre ++ xs ++ post) (pre ++ ys ++ post) := by
  induction pre with
  | nil =>
    intro R hR lab S es an fr ts hs hd
    simp only [List.nil_append] at hs ⊢
    obtain ⟨es1, es2, an1, an2, rfl, rfl, k1, k2⟩ := (docSem_append hx).1 hs
    obtain ⟨f1, f2, t1, t2, rfl, rfl, l1, l2⟩ := docDen_append.1 hd
    obtain ⟨es', an', fr', ts', m1, m2, m3, m4, m5⟩ := h R hR lab S es1 an1 f1 t1 k1 l1
    exact ⟨es' ++ es2, an' ++ an2, fr' ++ f2, ts' ++ t2, (docSem_append hy).2 ⟨_, _, _, _, rfl, rfl, m1, k2⟩,
      docDen_append.2 ⟨_, _, _, _, rfl, rfl, m2, l2⟩, m3.append_right _, m4.append_right _, m5.append_right _⟩
  | cons d pre ih =>
    intro R hR lab S es an fr ts hs hd
    simp only [List.cons_append] at hs ⊢
    cases hs with
    | cons h1 h2 =>
      cases hd with
      | cons g1 g2 =>
        obtain ⟨es', an', fr', ts', m1, m2, m3, m4, m5⟩ := ih R hR lab _ _ _ _ _ h2 g2
        exact ⟨_, _, _, _, .cons h1 m1, .cons g1 m2, m3.append_left _, m4.append_left _, m5.append_left _⟩

theorem rewrites_plainStmt {xs ys : List PTStmt} (h : Rewrites xs ys) : (∀ d ∈ xs, d.isDirective = false) ∧ ∀ d ∈ ys, d.isDirective = false := by
  cases h <;> simp_all [TStmt.isDirective]

theorem NodeSem.repeats {R : Reading} {lab : PStr → Option Nat} {S : Scope} {s : NodeTok} {t : Term} {a : List Nat} (h : NodeSem R lab S s t a)
    (hs : s.repeatable = true) : a = [] := by
  cases h with
  | iri => rfl
  | label => rfl
  | anon => cases hs

theorem NodeSem.same {R : Reading} (hR : R.Functional) {lab : PStr → Option Nat} {S : Scope} {s : NodeTok} {t t' : Term} {a a' : List Nat}
    (h : NodeSem R lab S s t a) (h' : NodeSem R lab S s t' a') (hs : s.repeatable = true) : t = t' := by
  cases h with
  | iri h => cases h' with | iri h' => rw [Turtle.iri_unique hR h h']
  | label h => cases h' with | label h' => rw [h] at h'; cases h'; rfl
  | anon => cases hs

theorem VerbSem.same {R : Reading} (hR : R.Functional) {S : Scope} {v : VerbTok} {t t' : Term} (h : VerbSem R S v t) (h' : VerbSem R S v t') : t = t' := by
  cases h with
  | a => cases h'; rfl
  | iri h => cases h' with | iri h' => rw [Turtle.iri_unique hR h h']

/-- What is written in one way is there in the other. -/
theorem rewrites_carries {xs ys : List PTStmt} (h : Rewrites xs ys) : Carries xs ys := by
  intro R hR lab S es an fr ts hs hd
  cases h with
  | @swap d e h1 h2 =>
    cases hs with
    | cons a1 hs =>
      cases a1.scope h1
      cases hs with
      | cons a2 hs =>
        cases a2.scope h2
        cases hs
        cases hd with
        | cons b1 hd =>
          cases hd with
          | cons b2 hd =>
            cases hd
            refine ⟨_, _, _, _, .cons a2 (.cons a1 .nil), .cons b2 (.cons b1 .nil), ?_, ?_, ?_⟩ <;>
              simp only [List.append_nil] <;> exact List.perm_append_comm
  | preds hr =>
    cases hs with
    | cons a1 hs =>
      cases hs
      cases a1 with
      | node n1 p1 =>
        have := n1.repeats hr; subst this
        cases p1 with
        | cons v1 o1 q1 =>
          cases hd with
          | cons b1 hd =>
            cases hd
            cases b1 with
            | node b1 =>
              cases b1 with
              | cons c1 c2 =>
                exact ⟨_, _, _, _, .cons (.node n1 (.last v1 o1)) (.cons (.node n1 q1) .nil), .cons (.node (.last c1)) (.cons (.node c2) .nil),
                  by simp, by simp, by simp⟩
  | objs hr =>
    cases hs with
    | cons a1 hs =>
      cases hs
      cases a1 with
      | node n1 p1 =>
        have := n1.repeats hr; subst this
        cases p1 with
        | last v1 o1 =>
          cases o1 with
          | cons o1 os1 =>
            cases hd with
            | cons b1 hd =>
              cases hd
              cases b1 with
              | node b1 =>
                cases b1 with
                | last b1 =>
                  cases b1 with
                  | cons c1 c2 =>
                    exact ⟨_, _, _, _, .cons (.node n1 (.last v1 (.one o1))) (.cons (.node n1 (.last v1 os1)) .nil),
                      .cons (.node (.last (.one c1))) (.cons (.node (.last c2)) .nil), by simp, by simp, by simp⟩
  | semis =>
    cases hs with
    | cons a1 hs =>
      cases hs
      cases a1 with
      | node n1 p1 =>
        cases p1 with
        | last v1 o1 =>
          cases hd with
          | cons b1 hd =>
            cases hd
            cases b1 with
            | node b1 =>
              cases b1 with
              | last b1 => exact ⟨_, _, _, _, .cons (.node n1 (.last v1 o1)) .nil, .cons (.node (.last b1)) .nil, .refl _, .refl _, .refl _⟩

/-- The other way round. -/
theorem rewrites_carries_back {xs ys : List PTStmt} (h : Rewrites xs ys) : Carries ys xs := by
  cases h with
  | swap h1 h2 => exact rewrites_carries (.swap h2 h1)
  | semis => exact rewrites_carries .semis
  | preds hr =>
    intro R hR lab S es an fr ts hs hd
    cases hs with
    | cons a1 hs =>
      cases a1.scope rfl
      cases hs with
      | cons a2 hs =>
        cases a2.scope rfl
        cases hs
        cases a1 with
        | node n1 p1 =>
          cases a2 with
          | node n2 p2 =>
            cases n1.same hR n2 hr
            have := n1.repeats hr; subst this
            have := n2.repeats hr; subst this
            cases p1 with
            | last v1 o1 =>
              cases hd with
              | cons b1 hd =>
                cases hd with
                | cons b2 hd =>
                  cases hd
                  cases b1 with
                  | node b1 =>
                    cases b1 with
                    | last c1 =>
                      cases b2 with
                      | node b2 =>
                        exact ⟨_, _, _, _, .cons (.node n1 (.cons v1 o1 p2)) .nil, .cons (.node (.cons c1 b2)) .nil, by simp, by simp, by simp⟩
  | objs hr =>
    intro R hR lab S es an fr ts hs hd
    cases hs with
    | cons a1 hs =>
      cases a1.scope rfl
      cases hs with
      | cons a2 hs =>
        cases a2.scope rfl
        cases hs
        cases a1 with
        | node n1 p1 =>
          cases a2 with
          | node n2 p2 =>
            cases n1.same hR n2 hr
            have := n1.repeats hr; subst this
            have := n2.repeats hr; subst this
            cases p1 with
            | last v1 o1 =>
              cases p2 with
              | last v2 o2 =>
                cases v1.same hR v2
                cases o1 with
                | one o1 =>
                  cases hd with
                  | cons b1 hd =>
                    cases hd with
                    | cons b2 hd =>
                      cases hd
                      cases b1 with
                      | node b1 =>
                        cases b1 with
                        | last c1 =>
                          cases c1 with
                          | one c1 =>
                            cases b2 with
                            | node b2 =>
                              cases b2 with
                              | last c2 =>
                                exact ⟨_, _, _, _, .cons (.node n1 (.last v1 (.cons o1 o2))) .nil, .cons (.node (.last (.cons c1 c2))) .nil,
                                  by simp, by simp, by simp⟩

theorem Carries.hasTriples {xs ys : List PTStmt} (h : Carries xs ys) {R : Reading} (hR : R.Functional) {S : Scope} {ts : List Stmt} (hx : HasTriples R S xs ts) :
    ∃ ts', HasTriples R S ys ts' ∧ ts'.Perm ts := by
  obtain ⟨lab, es, an, fr, h1, h2, h3, h4, h5⟩ := hx
  obtain ⟨es', an', fr', ts', m1, m2, m3, m4, m5⟩ := h R hR lab S es an fr ts h1 h2
  have hp := m3.append m4
  exact ⟨ts', ⟨lab, es', an', fr', m1, m2, h3, hp.nodup_iff.2 h4, fun l k hl hk => h5 l k hl (hp.mem_iff.1 hk)⟩, m5⟩

/-! ### Other labels -/

section labels
variable {R : Reading} {S : Scope} {lab lab' : PStr → Option Nat} {ρ : PStr → PStr}

theorem node_relabel {x : NodeTok} {t : Term} {an : List Nat} (ha : ∀ l, .label l ∈ x.toks → lab l = lab' (ρ l)) :
    NodeSem R lab S x t an ↔ NodeSem R lab' S (x.relabel ρ) t an := by
  cases x with
  | iri i => exact ⟨fun h => by cases h with | iri h => exact .iri h, fun h => by cases h with | iri h => exact .iri h⟩
  | label l =>
    have := ha l (by simp [NodeTok.toks])
    exact ⟨fun h => by cases h with | label h => exact .label (by rw [← this]; exact h),
      fun h => by cases h with | label h => exact .label (by rw [this]; exact h)⟩
  | anon => exact ⟨fun h => by cases h with | anon k => exact .anon k, fun h => by cases h with | anon k => exact .anon k⟩

theorem leaf_relabel {x : LeafTok} {t : Term} {an : List Nat} (ha : ∀ l, .label l ∈ x.toks → lab l = lab' (ρ l)) :
    LeafSem R lab S x t an ↔ LeafSem R lab' S (x.relabel ρ) t an := by
  cases x with
  | node n =>
    exact ⟨fun h => by cases h with | node h => exact .node ((node_relabel ha).1 h), fun h => by cases h with | node h => exact .node ((node_relabel ha).2 h)⟩
  | str b => exact ⟨fun h => by cases h with | str h => exact .str h, fun h => by cases h with | str h => exact .str h⟩
  | strLang b l => exact ⟨fun h => by cases h with | strLang h => exact .strLang h, fun h => by cases h with | strLang h => exact .strLang h⟩
  | strDt b i => exact ⟨fun h => by cases h with | strDt h k => exact .strDt h k, fun h => by cases h with | strDt h k => exact .strDt h k⟩
  | num k v =>
    constructor
    · intro h
      cases h with
      | integer => exact .integer _
      | decimal => exact .decimal _
      | double => exact .double _
    · intro h
      cases k with
      | integer => cases h; exact .integer _
      | decimal => cases h; exact .decimal _
      | double => cases h; exact .double _
  | bool v => exact ⟨fun h => by cases h; exact .bool _, fun h => by cases h; exact .bool _⟩

mutual
theorem obj_relabel : ∀ (x : PObj) {x' : TObj} {an : List Nat}, (∀ l, .label l ∈ Obj.toks x → lab l = lab' (ρ l)) →
    (ObjSem R lab S x x' an ↔ ObjSem R lab' S (Obj.relabel ρ x) x' an)
  | .leaf x, _, _, ha => by
    rw [Obj.relabel]
    have ih := @leaf_relabel R S lab lab' ρ x
    exact ⟨fun h => by cases h with | leaf h => exact .leaf ((ih (by simpa [Obj.toks] using ha)).1 h),
      fun h => by cases h with | leaf h => exact .leaf ((ih (by simpa [Obj.toks] using ha)).2 h)⟩
  | .coll c, _, _, ha => by
    rw [Obj.relabel]
    have hc : ∀ l, .label l ∈ Coll.toks c → lab l = lab' (ρ l) := fun l hl => ha l (by simp [Obj.toks, hl])
    exact ⟨fun h => by cases h with | coll h => exact .coll ((coll_relabel c hc).1 h), fun h => by cases h with | coll h => exact .coll ((coll_relabel c hc).2 h)⟩
  | .bnpl p, _, _, ha => by
    rw [Obj.relabel]
    have hc : ∀ l, .label l ∈ Pol.toks p → lab l = lab' (ρ l) := fun l hl => ha l (by simp [Obj.toks, hl])
    exact ⟨fun h => by cases h with | bnpl h => exact .bnpl ((pol_relabel p hc).1 h), fun h => by cases h with | bnpl h => exact .bnpl ((pol_relabel p hc).2 h)⟩
theorem objs_relabel : ∀ (x : PObjs) {x' : TObjs} {an : List Nat}, (∀ l, .label l ∈ Objs.toks x → lab l = lab' (ρ l)) →
    (ObjsSem R lab S x x' an ↔ ObjsSem R lab' S (Objs.relabel ρ x) x' an)
  | .one o, _, _, ha => by
    rw [Objs.relabel]
    have hc : ∀ l, .label l ∈ Obj.toks o → lab l = lab' (ρ l) := fun l hl => ha l (by simp [Objs.toks, hl])
    exact ⟨fun h => by cases h with | one h => exact .one ((obj_relabel o hc).1 h), fun h => by cases h with | one h => exact .one ((obj_relabel o hc).2 h)⟩
  | .cons o os, _, _, ha => by
    rw [Objs.relabel]
    have hc : ∀ l, .label l ∈ Obj.toks o → lab l = lab' (ρ l) := fun l hl => ha l (by simp [Objs.toks, hl])
    have hd : ∀ l, .label l ∈ Objs.toks os → lab l = lab' (ρ l) := fun l hl => ha l (by simp [Objs.toks, hl])
    exact ⟨fun h => by cases h with | cons h r => exact .cons ((obj_relabel o hc).1 h) ((objs_relabel os hd).1 r),
      fun h => by cases h with | cons h r => exact .cons ((obj_relabel o hc).2 h) ((objs_relabel os hd).2 r)⟩
theorem coll_relabel : ∀ (x : PColl) {x' : TColl} {an : List Nat}, (∀ l, .label l ∈ Coll.toks x → lab l = lab' (ρ l)) →
    (CollSem R lab S x x' an ↔ CollSem R lab' S (Coll.relabel ρ x) x' an)
  | .nil, _, _, _ => by
    rw [Coll.relabel]
    exact ⟨fun h => by cases h; exact .nil, fun h => by cases h; exact .nil⟩
  | .cons o c, _, _, ha => by
    rw [Coll.relabel]
    have hc : ∀ l, .label l ∈ Obj.toks o → lab l = lab' (ρ l) := fun l hl => ha l (by simp [Coll.toks, hl])
    have hd : ∀ l, .label l ∈ Coll.toks c → lab l = lab' (ρ l) := fun l hl => ha l (by simp [Coll.toks, hl])
    exact ⟨fun h => by cases h with | cons h r => exact .cons ((obj_relabel o hc).1 h) ((coll_relabel c hd).1 r),
      fun h => by cases h with | cons h r => exact .cons ((obj_relabel o hc).2 h) ((coll_relabel c hd).2 r)⟩
theorem pol_relabel : ∀ (x : PPol) {x' : TPol} {an : List Nat}, (∀ l, .label l ∈ Pol.toks x → lab l = lab' (ρ l)) →
    (PolSem R lab S x x' an ↔ PolSem R lab' S (Pol.relabel ρ x) x' an)
  | .last v os k, _, _, ha => by
    rw [Pol.relabel]
    have hc : ∀ l, .label l ∈ Objs.toks os → lab l = lab' (ρ l) := fun l hl => ha l (by simp [Pol.toks, hl])
    exact ⟨fun h => by cases h with | last hv h => exact .last hv ((objs_relabel os hc).1 h),
      fun h => by cases h with | last hv h => exact .last hv ((objs_relabel os hc).2 h)⟩
  | .cons v os k p, _, _, ha => by
    rw [Pol.relabel]
    have hc : ∀ l, .label l ∈ Objs.toks os → lab l = lab' (ρ l) := fun l hl => ha l (by simp [Pol.toks, hl])
    have hd : ∀ l, .label l ∈ Pol.toks p → lab l = lab' (ρ l) := fun l hl => ha l (by simp [Pol.toks, hl])
    exact ⟨fun h => by cases h with | cons hv h r => exact .cons hv ((objs_relabel os hc).1 h) ((pol_relabel p hd).1 r),
      fun h => by cases h with | cons hv h r => exact .cons hv ((objs_relabel os hc).2 h) ((pol_relabel p hd).2 r)⟩
end

theorem stmt_relabel {x : PTStmt} {x' : EStmt} {an : List Nat} {T : Scope} (ha : ∀ l, .label l ∈ TStmt.toks x → lab l = lab' (ρ l)) :
    StmtSem R lab S x x' an T ↔ StmtSem R lab' S (TStmt.relabel ρ x) x' an T := by
  cases x with
  | pre k n i => exact ⟨fun h => by cases h with | pre h => exact .pre h, fun h => by cases h with | pre h => exact .pre h⟩
  | base k i => exact ⟨fun h => by cases h with | base h => exact .base h, fun h => by cases h with | base h => exact .base h⟩
  | node s p =>
    have hc : ∀ l, .label l ∈ s.toks → lab l = lab' (ρ l) := fun l hl => ha l (by simp [TStmt.toks, hl])
    have hd : ∀ l, .label l ∈ Pol.toks p → lab l = lab' (ρ l) := fun l hl => ha l (by simp [TStmt.toks, hl])
    exact ⟨fun h => by cases h with | node h r => exact .node ((node_relabel hc).1 h) ((pol_relabel p hd).1 r),
      fun h => by cases h with | node h r => exact .node ((node_relabel hc).2 h) ((pol_relabel p hd).2 r)⟩
  | coll s p =>
    have hc : ∀ l, .label l ∈ Coll.toks s → lab l = lab' (ρ l) := fun l hl => ha l (by simp [TStmt.toks, hl])
    have hd : ∀ l, .label l ∈ Pol.toks p → lab l = lab' (ρ l) := fun l hl => ha l (by simp [TStmt.toks, hl])
    exact ⟨fun h => by cases h with | coll h r => exact .coll ((coll_relabel s hc).1 h) ((pol_relabel p hd).1 r),
      fun h => by cases h with | coll h r => exact .coll ((coll_relabel s hc).2 h) ((pol_relabel p hd).2 r)⟩
  | bnpl p =>
    have hd : ∀ l, .label l ∈ Pol.toks p → lab l = lab' (ρ l) := fun l hl => ha l (by simp [TStmt.toks, hl])
    exact ⟨fun h => by cases h with | bnpl r => exact .bnpl ((pol_relabel p hd).1 r), fun h => by cases h with | bnpl r => exact .bnpl ((pol_relabel p hd).2 r)⟩
  | bnplPol s p =>
    have hc : ∀ l, .label l ∈ Pol.toks s → lab l = lab' (ρ l) := fun l hl => ha l (by simp [TStmt.toks, hl])
    have hd : ∀ l, .label l ∈ Pol.toks p → lab l = lab' (ρ l) := fun l hl => ha l (by simp [TStmt.toks, hl])
    exact ⟨fun h => by cases h with | bnplPol h r => exact .bnplPol ((pol_relabel s hc).1 h) ((pol_relabel p hd).1 r),
      fun h => by cases h with | bnplPol h r => exact .bnplPol ((pol_relabel s hc).2 h) ((pol_relabel p hd).2 r)⟩

theorem doc_relabel : ∀ (ds : List PTStmt) {S : Scope} {es : List EStmt} {an : List Nat}, (∀ l, .label l ∈ docToks ds → lab l = lab' (ρ l)) →
    (DocSem R lab S ds es an ↔ DocSem R lab' S (ds.map (TStmt.relabel ρ)) es an)
  | [], _, _, _, _ => ⟨fun h => by cases h; exact .nil, fun h => by cases h; exact .nil⟩
  | d :: ds, _, _, _, ha => by
    have hc : ∀ l, .label l ∈ TStmt.toks d → lab l = lab' (ρ l) := fun l hl => ha l (by rw [docToks, List.flatMap_cons]; exact List.mem_append_left _ hl)
    have hd : ∀ l, .label l ∈ docToks ds → lab l = lab' (ρ l) := fun l hl => ha l (by rw [docToks, List.flatMap_cons]; exact List.mem_append_right _ hl)
    rw [List.map_cons]
    exact ⟨fun h => by cases h with | cons h r => exact .cons ((stmt_relabel hc).1 h) ((doc_relabel ds hd).1 r),
      fun h => by cases h with | cons h r => exact .cons ((stmt_relabel hc).2 h) ((doc_relabel ds hd).2 r)⟩
end labels

/-- Documents that differ in their labels have the same triples. -/
theorem hasTriples_relabel {R : Reading} {S : Scope} {ds : List PTStmt} {ts : List Stmt} {ρ : PStr → PStr}
    (hρ : ∀ l l', .label l ∈ docToks ds → .label l' ∈ docToks ds → ρ l = ρ l' → l = l') :
    HasTriples R S ds ts ↔ HasTriples R S (ds.map (TStmt.relabel ρ)) ts := by
  classical
  constructor
  · rintro ⟨lab, es, an, fr, h1, h2, h3, h4, h5⟩
    obtain ⟨lab', e1, e2⟩ : ∃ lab' : PStr → Option Nat, (∀ l, .label l ∈ docToks ds → lab l = lab' (ρ l)) ∧
        ∀ l' k, lab' l' = some k → ∃ l, .label l ∈ docToks ds ∧ ρ l = l' ∧ lab l = some k := by
      refine ⟨fun l' => if h : ∃ l, .label l ∈ docToks ds ∧ ρ l = l' then lab h.choose else none, fun l hl => ?_, fun l' k hk => ?_⟩
      · have he : ∃ l0, .label l0 ∈ docToks ds ∧ ρ l0 = ρ l := ⟨l, hl, rfl⟩
        dsimp only
        rw [dif_pos he, hρ _ l he.choose_spec.1 hl he.choose_spec.2]
      · dsimp only at hk
        split at hk
        · next he => exact ⟨_, he.choose_spec.1, he.choose_spec.2, hk⟩
        · cases hk
    refine ⟨lab', es, an, fr, (doc_relabel ds e1).1 h1, h2, fun l l' k a b => ?_, h4, fun l k a => ?_⟩
    · obtain ⟨m, _, rfl, hm⟩ := e2 l k a
      obtain ⟨m', _, rfl, hm'⟩ := e2 l' k b
      rw [h3 m m' k hm hm']
    · obtain ⟨m, _, rfl, hm⟩ := e2 l k a
      exact h5 m k hm
  · rintro ⟨lab', es, an, fr, h1, h2, h3, h4, h5⟩
    have e1 : ∀ l, .label l ∈ docToks ds → (fun l => if .label l ∈ docToks ds then lab' (ρ l) else none) l = lab' (ρ l) := fun l hl => by
      dsimp only; rw [if_pos hl]
    refine ⟨fun l => if .label l ∈ docToks ds then lab' (ρ l) else none, es, an, fr, (doc_relabel ds e1).2 h1, h2, fun l l' k a b => ?_, h4, fun l k a => ?_⟩
    · dsimp only at a b
      split at a
      · next ha =>
        split at b
        · next hb => exact hρ l l' ha hb (h3 _ _ k a b)
        · cases b
      · cases a
    · dsimp only at a
      split at a
      · exact h5 _ k a
      · cases a

/-! ### C160 -/

/-- **By the recommendation** (or any reading that gives each name one meaning): documents that say the same have the same triples. -/
theorem C160_means_same {R : Reading} (hR : R.Functional) {S : Scope} {ds ds' : List PTStmt} (h : SameStatements ds ds') :
    (∀ ts, HasTriples R S ds ts → ∃ ts', HasTriples R S ds' ts' ∧ ts'.Perm ts) ∧
    (∀ ts, HasTriples R S ds' ts → ∃ ts', HasTriples R S ds ts' ∧ ts'.Perm ts) := by
  induction h with
  | refl ds => exact ⟨fun ts h => ⟨ts, h, .refl _⟩, fun ts h => ⟨ts, h, .refl _⟩⟩
  | step pre post h =>
    obtain ⟨a, b⟩ := rewrites_plainStmt h
    exact ⟨fun ts h' => ((rewrites_carries h).within a b pre post).hasTriples hR h', fun ts h' => ((rewrites_carries_back h).within b a pre post).hasTriples hR h'⟩
  | labels ρ hρ => exact ⟨fun ts h => ⟨ts, (hasTriples_relabel hρ).1 h, .refl _⟩, fun ts h => ⟨ts, (hasTriples_relabel hρ).2 h, .refl _⟩⟩
  | symm _ ih => exact ⟨ih.2, ih.1⟩
  | trans _ _ ih ih' =>
    refine ⟨fun ts h => ?_, fun ts h => ?_⟩
    · obtain ⟨t1, h1, p1⟩ := ih.1 ts h
      obtain ⟨t2, h2, p2⟩ := ih'.1 t1 h1
      exact ⟨t2, h2, p2.trans p1⟩
    · obtain ⟨t1, h1, p1⟩ := ih'.2 ts h
      obtain ⟨t2, h2, p2⟩ := ih.2 t1 h1
      exact ⟨t2, h2, p2.trans p1⟩

/-- The property: both are read or both rejected, and what is read is the same up to the choice of blank nodes. -/
def C160_statement : Prop :=
  ∀ (nl : PStr → Bool) (base text text' : PStr) (ds ds' : List PTStmt), parseTree text = .ok ds → parseTree text' = .ok ds' → SameStatements ds ds' →
    ∀ next next',
    (∃ n n' ts ts', parseText nl base next text = .ok (n, ts) ∧ parseText nl base next' text' = .ok (n', ts') ∧ Isomorphic ts ts') ∨
    (∃ e e', parseText nl base next text = .error e ∧ parseText nl base next' text' = .error e')

/-- Refuted: `<a:s> <a:p> () , <a:o> .` is not read as `<a:s> <a:p> () . <a:s> <a:p> <a:o> .` is. -/
theorem C160_refuted : ¬ C160_statement := by
  intro h
  have hs : SameStatements exList _ := .step [] [] (.objs rfl)
  have ha : parseText (fun _ => true) [] 0 (py! "<a:s> <a:p> () , <a:o> .") = .ok (1, [mkTriple (.named (py! "a:s")) (.named (py! "a:p")) (.gen 0),
      mkTriple (.named (py! "a:s")) (.named (py! "a:p")) (.named (py! "a:o"))]) := by decide
  rcases h (fun _ => true) [] (py! "<a:s> <a:p> () , <a:o> .") (py! "<a:s> <a:p> () . <a:s> <a:p> <a:o> .") _ _ rfl rfl hs 0 0 with ⟨n, n', ts, ts', h1, h2, ρ, _, t, _, h3⟩ | ⟨e, e', h1, _⟩
  · rw [ha] at h1
    cases h1
    cases h3 with
    | cons h3 _ => have := h3.o; cases this
  · rw [ha] at h1; cases h1

theorem c160_half {nl : PStr → Bool} {base : PStr} {text text' : PStr} {ds ds' : List PTStmt} (hp : parseTree text = .ok ds) (hp' : parseTree text' = .ok ds')
    (hpl : ∀ d ∈ ds, d.plain = true) (hpl' : ∀ d ∈ ds', d.plain = true) (h : SameStatements ds ds') {next n : Nat} (next' : Nat) {ts : List Stmt}
    (hr : parseText nl base next text = .ok (n, ts)) : ∃ n' ts', parseText nl base next' text' = .ok (n', ts') ∧ Isomorphic ts ts' := by
  obtain ⟨t1, h1, p1⟩ := parse_triples hp hpl hr
  obtain ⟨t2, h2, p2⟩ := (C160_means_same (pyReading_functional nl) h).1 t1 h1
  obtain ⟨lab, es, an, fr, h2', -⟩ := id h2
  obtain ⟨⟨n', ts'⟩, hr'⟩ := parse_accepts (next := next') hp' h2'
  obtain ⟨t3, h3, p3⟩ := parse_triples hp' hpl' hr'
  obtain ⟨ρ, j1, j2⟩ := hasTriples_unique (pyReading_functional nl) h2 h3
  -- ts ~ t1 ~ t2 ≅ t3 ~ ts'
  obtain ⟨t4, j3, j4⟩ := List.perm_comp_forall₂ (p1.trans p2.symm) j2
  exact ⟨n', ts', hr', ρ, j1, t4, j4.trans p3.symm, j3⟩

/-- **What is read**: of two documents that say the same, in another order, with other abbreviations or with other labels, both are read or both rejected, and what
    is read is the same up to the choice of blank nodes. For documents without a collection or property list among several objects (C63 says what happens to the others). -/
theorem C160_partial {nl : PStr → Bool} {base : PStr} {text text' : PStr} {ds ds' : List PTStmt} (hp : parseTree text = .ok ds) (hp' : parseTree text' = .ok ds')
    (hpl : ∀ d ∈ ds, d.plain = true) (hpl' : ∀ d ∈ ds', d.plain = true) (h : SameStatements ds ds') (next next' : Nat) :
    (∃ n n' ts ts', parseText nl base next text = .ok (n, ts) ∧ parseText nl base next' text' = .ok (n', ts') ∧ Isomorphic ts ts') ∨
    (∃ e e', parseText nl base next text = .error e ∧ parseText nl base next' text' = .error e') := by
  cases hr : parseText nl base next text with
  | ok r =>
    obtain ⟨n', ts', h1, h2⟩ := c160_half hp hp' hpl hpl' h next' hr
    exact .inl ⟨r.1, n', r.2, ts', rfl, h1, h2⟩
  | error e =>
    cases hr' : parseText nl base next' text' with
    | error e' => exact .inr ⟨e, e', rfl, rfl⟩
    | ok r' =>
      obtain ⟨n, ts, h1, h2⟩ := c160_half hp' hp hpl' hpl h.symm next hr'
      rw [hr] at h1; cases h1

/-- Statements may be in any order, as long as they stay between the same directives. -/
theorem C160_perm {pre body body' post : List PTStmt} (h : body.Perm body') (hd : ∀ d ∈ body, d.isDirective = false) :
    SameStatements (pre ++ body ++ post) (pre ++ body' ++ post) := by
  induction h generalizing pre with
  | nil => exact .refl _
  | cons d _ ih =>
    have := ih (pre := pre ++ [d]) fun d hd' => hd d (by simp [hd'])
    simpa using this
  | swap d e l =>
    have := SameStatements.step pre (l ++ post) (.swap (hd e (by simp)) (hd d (by simp)))
    simpa using this
  | trans h1 _ ih1 ih2 => exact (ih1 hd).trans (ih2 fun d hd' => hd d (h1.mem_iff.2 hd'))

/-! ### Two documents -/

/-- `<a:s> <a:p> _:x ; <a:q> <a:o> , 1 .` and `<a:s> <a:q> 1 ; . <a:s> <a:q> <a:o> . <a:s> <a:p> _:y .` -/
def orderA : PStr := py! "<a:s> <a:p> _:x ; <a:q> <a:o> , 1 ."
def orderB : PStr := py! "<a:s> <a:q> 1 ; . <a:s> <a:q> <a:o> . <a:s> <a:p> _:y ."

def orderS : NodeTok := .iri (.ref (py! "a:s"))
def orderO (x : LeafTok) : PObjs := .one (.leaf x)

def orderATree : List PTStmt := [.node orderS (.cons (.iri (.ref (py! "a:p"))) (orderO (.node (.label (py! "_:x")))) 0
  (.last (.iri (.ref (py! "a:q"))) (.cons (.leaf (.node (.iri (.ref (py! "a:o"))))) (orderO (.num .integer (py! "1")))) 0))]

def orderBTree : List PTStmt := [.node orderS (.last (.iri (.ref (py! "a:q"))) (orderO (.num .integer (py! "1"))) 1),
  .node orderS (.last (.iri (.ref (py! "a:q"))) (orderO (.node (.iri (.ref (py! "a:o"))))) 0),
  .node orderS (.last (.iri (.ref (py! "a:p"))) (orderO (.node (.label (py! "_:y")))) 0)]

theorem orderA_parsed : parseTree orderA = .ok orderATree := rfl
theorem orderB_parsed : parseTree orderB = .ok orderBTree := rfl

theorem order_same : SameStatements orderATree orderBTree := by
  have h1 : SameStatements orderATree _ := .labels (fun _ => py! "_:y") (fun l l' h h' _ => by
    have : ∀ l, .label l ∈ docToks orderATree → l = py! "_:x" := by
      intro l hl
      simp [docToks, orderATree, orderS, orderO, TStmt.toks, Pol.toks, Objs.toks, Obj.toks, LeafTok.toks, NodeTok.toks, VerbTok.toks] at hl
      exact hl
    rw [this l h, this l' h'])
  refine h1.trans (.trans (.step [] [] (.preds rfl)) (.trans (.step [_] [] (.objs rfl)) ?_))
  refine .trans (C160_perm (pre := []) (post := []) (body' := [_, _, _]) (.trans (.swap _ _ _) (.trans (.cons _ (.swap _ _ _)) (.swap _ _ _))) ?_) (.step [] [_, _] .semis)
  exact List.forall_mem_cons.2 ⟨rfl, List.forall_mem_cons.2 ⟨rfl, List.forall_mem_cons.2 ⟨rfl, fun _ h => by cases h⟩⟩⟩

example : ∃ n n' ts ts', parseText (fun _ => true) [] 0 orderA = .ok (n, ts) ∧ parseText (fun _ => true) [] 5 orderB = .ok (n', ts') ∧ Isomorphic ts ts' := by
  rcases C160_partial (nl := fun _ => true) (base := []) orderA_parsed orderB_parsed (by decide) (by decide) order_same 0 5 with h | ⟨e, e', h, _⟩
  · exact h
  · have : ∃ r, parseText (fun _ => true) [] 0 orderA = .ok r := ⟨_, rfl⟩
    obtain ⟨r, hr⟩ := this
    rw [h] at hr; cases hr

/-- `[]` may not be repeated: `[] <a:p> 1 ; <a:q> 2 .` is about one node. -/
example : ¬ NodeTok.anon.repeatable = true := by decide

end Verif.Turtle
