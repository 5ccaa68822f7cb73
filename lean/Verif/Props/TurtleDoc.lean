import Verif.Lemmas.TurtleDoc
import Verif.Props.TurtleNames
import Verif.Props.TurtleParse
import Verif.Lemmas.UrlBase
/-
C125: the Turtle parser gives the graph of the document.
-/
namespace Verif.Turtle
open Spec
open Verif.Spec (Ref resolve Denotes removeDots)

/-! ### Changing the reading -/

/-- What the tokens `ts` mean in one reading and scope they mean in another. -/
structure Agree (R R' : Reading) (S S' : Scope) (ts : List Tok) : Prop where
  base : S'.base = S.base
  pref : ∀ ns p, S.pref ns = some p → S'.pref ns = some p
  ref : ∀ b s, .iri (.ref b) ∈ ts → R.ref S.base b s → R'.ref S.base b s
  pname : ∀ ns loc p s, .iri (.pname ns loc) ∈ ts → S.pref ns = some p → R.pname S.base p loc s → R'.pname S.base p loc s
  str : ∀ b v, .str b ∈ ts → R.str b v → R'.str b v

section agree
variable {R R' : Reading} {S S' : Scope} {lab : PStr → Option Nat}

theorem Agree.sub {ts ts' : List Tok} (h : Agree R R' S S' ts) (hs : ∀ t ∈ ts', t ∈ ts) : Agree R R' S S' ts' :=
  ⟨h.base, h.pref, fun b s hb => h.ref b s (hs _ hb), fun ns loc p s hb => h.pname ns loc p s (hs _ hb), fun b v hb => h.str b v (hs _ hb)⟩

theorem iri_agree {x : IriTok} {s : PStr} (h : IriSem R S x s) (ha : Agree R R' S S' [.iri x]) : IriSem R' S' x s := by
  cases h with
  | ref h => exact .ref (by rw [ha.base]; exact ha.ref _ _ (by simp) h)
  | pname hp h => exact .pname (ha.pref _ _ hp) (by rw [ha.base]; exact ha.pname _ _ _ _ (by simp) hp h)

theorem node_agree {x : NodeTok} {t : Term} {an : List Nat} (h : NodeSem R lab S x t an) (ha : Agree R R' S S' x.toks) : NodeSem R' lab S' x t an := by
  cases h with
  | iri h => exact .iri (iri_agree h ha)
  | label h => exact .label h
  | anon k => exact .anon k

theorem verb_agree {x : VerbTok} {t : Term} (h : VerbSem R S x t) (ha : Agree R R' S S' x.toks) : VerbSem R' S' x t := by
  cases h with
  | a => exact .a
  | iri h => exact .iri (iri_agree h ha)

theorem leaf_agree {x : LeafTok} {t : Term} {an : List Nat} (h : LeafSem R lab S x t an) (ha : Agree R R' S S' x.toks) : LeafSem R' lab S' x t an := by
  cases h with
  | node h => exact .node (node_agree h ha)
  | str h => exact .str (ha.str _ _ (by simp [LeafTok.toks]) h)
  | strLang h => exact .strLang (ha.str _ _ (by simp [LeafTok.toks]) h)
  | strDt h hi => exact .strDt (ha.str _ _ (by simp [LeafTok.toks]) h) (iri_agree hi (ha.sub (by simp [LeafTok.toks])))
  | integer => exact .integer _
  | decimal => exact .decimal _
  | double => exact .double _
  | bool => exact .bool _

mutual
theorem obj_agree : ∀ (x : PObj) {x' : TObj} {an : List Nat}, ObjSem R lab S x x' an → Agree R R' S S' (Obj.toks x) → ObjSem R' lab S' x x' an
  | .leaf x, _, _, .leaf h, ha => .leaf (leaf_agree h (ha.sub (by simp [Obj.toks])))
  | .coll c, _, _, .coll h, ha => .coll (coll_agree c h (ha.sub (by simp +contextual [Obj.toks])))
  | .bnpl p, _, _, .bnpl h, ha => .bnpl (pol_agree p h (ha.sub (by simp +contextual [Obj.toks])))
theorem objs_agree : ∀ (x : PObjs) {x' : TObjs} {an : List Nat}, ObjsSem R lab S x x' an → Agree R R' S S' (Objs.toks x) → ObjsSem R' lab S' x x' an
  | .one o, _, _, .one h, ha => .one (obj_agree o h (ha.sub (by simp [Objs.toks])))
  | .cons o os, _, _, .cons h r, ha =>
    .cons (obj_agree o h (ha.sub (by simp +contextual [Objs.toks]))) (objs_agree os r (ha.sub (by simp +contextual [Objs.toks])))
theorem coll_agree : ∀ (x : PColl) {x' : TColl} {an : List Nat}, CollSem R lab S x x' an → Agree R R' S S' (Coll.toks x) → CollSem R' lab S' x x' an
  | .nil, _, _, .nil, _ => .nil
  | .cons o c, _, _, .cons h r, ha =>
    .cons (obj_agree o h (ha.sub (by simp +contextual [Coll.toks]))) (coll_agree c r (ha.sub (by simp +contextual [Coll.toks])))
theorem pol_agree : ∀ (x : PPol) {x' : TPol} {an : List Nat}, PolSem R lab S x x' an → Agree R R' S S' (Pol.toks x) → PolSem R' lab S' x x' an
  | .last v os k, _, _, .last hv h, ha =>
    .last (verb_agree hv (ha.sub (by simp +contextual [Pol.toks]))) (objs_agree os h (ha.sub (by simp +contextual [Pol.toks])))
  | .cons v os k p, _, _, .cons hv h r, ha =>
    .cons (verb_agree hv (ha.sub (by simp +contextual [Pol.toks]))) (objs_agree os h (ha.sub (by simp +contextual [Pol.toks])))
      (pol_agree p r (ha.sub (by simp +contextual [Pol.toks])))
end

/-- After a statement the scopes still correspond. -/
theorem stmt_agree {x : PTStmt} {x' : EStmt} {an : List Nat} {T : Scope} (h : StmtSem R lab S x x' an T) (ha : Agree R R' S S' (TStmt.toks x)) :
    ∃ T', StmtSem R' lab S' x x' an T' ∧ T'.base = T.base ∧ ∀ ns p, T.pref ns = some p → T'.pref ns = some p := by
  cases h with
  | @pre k ns i s h =>
    refine ⟨_, .pre (s := s) (by rw [ha.base]; exact ha.ref _ _ (by cases k <;> simp [TStmt.toks]) h), ha.base, ?_⟩
    intro n p hp
    dsimp only at hp ⊢
    split at hp
    · next e => rw [if_pos e]; exact hp
    · next e => rw [if_neg e]; exact ha.pref _ _ hp
  | @base k i s h => exact ⟨_, .base (s := s) (by rw [ha.base]; exact ha.ref _ _ (by cases k <;> simp [TStmt.toks]) h), rfl, ha.pref⟩
  | node h r =>
    exact ⟨S', .node (node_agree h (ha.sub (by simp +contextual [TStmt.toks]))) (pol_agree _ r (ha.sub (by simp +contextual [TStmt.toks]))), ha.base, ha.pref⟩
  | coll h r =>
    exact ⟨S', .coll (coll_agree _ h (ha.sub (by simp +contextual [TStmt.toks]))) (pol_agree _ r (ha.sub (by simp +contextual [TStmt.toks]))), ha.base, ha.pref⟩
  | bnpl r => exact ⟨S', .bnpl (pol_agree _ r (ha.sub (by simp +contextual [TStmt.toks]))), ha.base, ha.pref⟩
  | bnplPol h r =>
    exact ⟨S', .bnplPol (pol_agree _ h (ha.sub (by simp +contextual [TStmt.toks]))) (pol_agree _ r (ha.sub (by simp +contextual [TStmt.toks]))), ha.base, ha.pref⟩

end agree

/-! ### The reading of the parser -/

/-- What the parser takes the texts of the terminals for. -/
def pyReading (nl : PStr → Bool) : Reading where
  ref base b iri := resolveRef nl base b = .ok iri
  pname base p loc iri := PnameIri nl base p loc iri
  str b v := decodeLiteral b = .ok v

theorem pyReading_functional (nl : PStr → Bool) : (pyReading nl).Functional where
  ref h h' := Except.ok.inj (h.symm.trans h')
  str h h' := Except.ok.inj (h.symm.trans h')
  pname := by
    intro base p loc s s' h h'
    cases h with
    | join d e =>
      cases h' with
      | join d' _ => rw [d] at d'; cases d'; rfl
      | angle d' e' _ => rw [d] at d'; cases d'; rw [e'] at e; exact absurd rfl e
    | angle d e r =>
      cases h' with
      | join d' e' => rw [d] at d'; cases d'; rw [e] at e'; exact absurd rfl e'
      | angle d' e' r' =>
        rw [d] at d'; cases d'
        rw [e] at e'; cases e'
        exact Except.ok.inj (r.symm.trans r')

section py
variable {nl : PStr → Bool} {lab : PStr → Option Nat} {P : PStr → PStr → Prop} {S : Scope} (hP : ∀ ns p, P ns p ↔ S.pref ns = some p)
include hP

theorem iri_py {x : IriTok} {s : PStr} : IriIn nl ⟨S.base, P, lab⟩ x s ↔ IriSem (pyReading nl) S x s := by
  constructor
  · rintro (h | ⟨h, h'⟩)
    · exact .ref h
    · exact .pname ((hP _ _).1 h) h'
  · rintro (h | ⟨h, h'⟩)
    · exact .ref h
    · exact .pname ((hP _ _).2 h) h'

theorem node_py {x : NodeTok} {t : Term} {an : List Nat} : NodeIn nl ⟨S.base, P, lab⟩ x t an ↔ NodeSem (pyReading nl) lab S x t an := by
  constructor
  · rintro (h | h | k)
    · exact .iri ((iri_py hP).1 h)
    · exact .label h
    · exact .anon k
  · rintro (h | h | k)
    · exact .iri ((iri_py hP).2 h)
    · exact .label h
    · exact .anon k

theorem verb_py {x : VerbTok} {t : Term} : VerbIn nl ⟨S.base, P, lab⟩ x t ↔ VerbSem (pyReading nl) S x t := by
  constructor
  · rintro (_ | h)
    · exact .a
    · exact .iri ((iri_py hP).1 h)
  · rintro (_ | h)
    · exact .a
    · exact .iri ((iri_py hP).2 h)

theorem leaf_py {x : LeafTok} {t : Term} {an : List Nat} : LeafIn nl ⟨S.base, P, lab⟩ x t an ↔ LeafSem (pyReading nl) lab S x t an := by
  constructor
  · intro h
    cases h with
    | node h => exact .node ((node_py hP).1 h)
    | str h => exact .str h
    | strLang h => exact .strLang h
    | strDt h hi => exact .strDt h ((iri_py hP).1 hi)
    | integer => exact .integer _
    | decimal => exact .decimal _
    | double => exact .double _
    | bool => exact .bool _
  · intro h
    cases h with
    | node h => exact .node ((node_py hP).2 h)
    | str h => exact .str h
    | strLang h => exact .strLang h
    | strDt h hi => exact .strDt h ((iri_py hP).2 hi)
    | integer => exact .integer _
    | decimal => exact .decimal _
    | double => exact .double _
    | bool => exact .bool _

mutual
theorem obj_py : ∀ (x : PObj) {x' : TObj} {an : List Nat}, ObjIn nl ⟨S.base, P, lab⟩ x x' an ↔ ObjSem (pyReading nl) lab S x x' an
  | .leaf x, _, _ => ⟨fun h => by cases h with | leaf h => exact .leaf ((leaf_py hP).1 h), fun h => by cases h with | leaf h => exact .leaf ((leaf_py hP).2 h)⟩
  | .coll x, _, _ => ⟨fun h => by cases h with | coll h => exact .coll ((coll_py x).1 h), fun h => by cases h with | coll h => exact .coll ((coll_py x).2 h)⟩
  | .bnpl x, _, _ => ⟨fun h => by cases h with | bnpl h => exact .bnpl ((pol_py x).1 h), fun h => by cases h with | bnpl h => exact .bnpl ((pol_py x).2 h)⟩
theorem objs_py : ∀ (x : PObjs) {x' : TObjs} {an : List Nat}, ObjsIn nl ⟨S.base, P, lab⟩ x x' an ↔ ObjsSem (pyReading nl) lab S x x' an
  | .one x, _, _ => ⟨fun h => by cases h with | one h => exact .one ((obj_py x).1 h), fun h => by cases h with | one h => exact .one ((obj_py x).2 h)⟩
  | .cons x y, _, _ => ⟨fun h => by cases h with | cons h r => exact .cons ((obj_py x).1 h) ((objs_py y).1 r),
    fun h => by cases h with | cons h r => exact .cons ((obj_py x).2 h) ((objs_py y).2 r)⟩
theorem coll_py : ∀ (x : PColl) {x' : TColl} {an : List Nat}, CollIn nl ⟨S.base, P, lab⟩ x x' an ↔ CollSem (pyReading nl) lab S x x' an
  | .nil, _, _ => ⟨fun h => by cases h; exact .nil, fun h => by cases h; exact .nil⟩
  | .cons x y, _, _ => ⟨fun h => by cases h with | cons h r => exact .cons ((obj_py x).1 h) ((coll_py y).1 r),
    fun h => by cases h with | cons h r => exact .cons ((obj_py x).2 h) ((coll_py y).2 r)⟩
theorem pol_py : ∀ (x : PPol) {x' : TPol} {an : List Nat}, PolIn nl ⟨S.base, P, lab⟩ x x' an ↔ PolSem (pyReading nl) lab S x x' an
  | .last v x k, _, _ => ⟨fun h => by cases h with | last hv h => exact .last ((verb_py hP).1 hv) ((objs_py x).1 h),
    fun h => by cases h with | last hv h => exact .last ((verb_py hP).2 hv) ((objs_py x).2 h)⟩
  | .cons v x k y, _, _ => ⟨fun h => by cases h with | cons hv h r => exact .cons ((verb_py hP).1 hv) ((objs_py x).1 h) ((pol_py y).1 r),
    fun h => by cases h with | cons hv h r => exact .cons ((verb_py hP).2 hv) ((objs_py x).2 h) ((pol_py y).2 r)⟩
end
end py

/-- `DocIn`, in which names are looked up in the statements before, is the same as `DocSem`, in which they are looked up in a scope. -/
theorem doc_py {nl : PStr → Bool} {b0 : PStr} {p0 : PStr → Option PStr} {lab : PStr → Option Nat} : ∀ (ds pre : List PTStmt) {S : Scope} {es : List EStmt}
    {an : List Nat}, BaseAt nl b0 pre S.base → (∀ ns p, PrefixAt nl b0 p0 pre ns p ↔ S.pref ns = some p) →
    (DocIn nl b0 p0 lab pre ds es an ↔ DocSem (pyReading nl) lab S ds es an)
  | [], pre, S, es, an, hb, hp => ⟨fun h => by cases h; exact .nil, fun h => by cases h; exact .nil⟩
  | d :: ds, pre, S, es, an, hb, hp => by
    have same : ¬ d.isBase → (∀ ns, ¬ d.isPrefix ns) → ∀ es an, DocIn nl b0 p0 lab (pre ++ [d]) ds es an ↔ DocSem (pyReading nl) lab S ds es an := by
      intro h1 h2 es an
      refine doc_py ds (pre ++ [d]) (hb.snoc h1) fun ns p => ?_
      rw [← hp]
      exact ⟨fun h => h.of_snoc (h2 ns), fun h => h.snoc (h2 ns)⟩
    have hbase : ∀ {k i s}, d = .base k i → resolveRef nl S.base i = .ok s → ∀ es an, DocIn nl b0 p0 lab (pre ++ [d]) ds es an ↔
        DocSem (pyReading nl) lab ⟨s, S.pref⟩ ds es an := by
      rintro k i s rfl h es an
      refine doc_py ds _ (.directive hb h (by simp)) fun ns p => ?_
      rw [← hp]
      exact ⟨fun h => h.of_snoc (by simp [TStmt.isPrefix]), fun h => h.snoc (by simp [TStmt.isPrefix])⟩
    have hpre : ∀ {k ns i s}, d = .pre k ns i → resolveRef nl S.base i = .ok s → ∀ es an, DocIn nl b0 p0 lab (pre ++ [d]) ds es an ↔
        DocSem (pyReading nl) lab ⟨S.base, fun n => if n = ns then some s else S.pref n⟩ ds es an := by
      rintro k ns i s rfl h es an
      refine doc_py ds _ (hb.snoc (by simp [TStmt.isBase])) fun n p => ?_
      have hdir : PrefixAt nl b0 p0 (pre ++ [.pre k ns i]) ns s := .directive hb h (by simp)
      dsimp only
      by_cases e : n = ns
      · subst e
        rw [if_pos rfl]
        constructor
        · intro h'; rw [C65_prefix_unique hdir h']
        · intro h'; cases h'; exact hdir
      · rw [if_neg e, ← hp]
        have : ¬ (TStmt.pre k ns i : PTStmt).isPrefix n := fun h' => e h'.symm
        exact ⟨fun h => h.of_snoc this, fun h => h.snoc this⟩
    constructor
    · intro h
      cases h with
      | cons hb' hs hr =>
        cases C65_base_unique hb hb'
        cases hs with
        | pre h => exact .cons (.pre h) ((hpre rfl h _ _).1 hr)
        | base h => exact .cons (.base h) ((hbase rfl h _ _).1 hr)
        | node h r => exact .cons (.node ((node_py hp).1 h) ((pol_py hp _).1 r)) ((same (by simp [TStmt.isBase]) (by simp [TStmt.isPrefix]) _ _).1 hr)
        | coll h r => exact .cons (.coll ((coll_py hp _).1 h) ((pol_py hp _).1 r)) ((same (by simp [TStmt.isBase]) (by simp [TStmt.isPrefix]) _ _).1 hr)
        | bnpl r => exact .cons (.bnpl ((pol_py hp _).1 r)) ((same (by simp [TStmt.isBase]) (by simp [TStmt.isPrefix]) _ _).1 hr)
        | bnplPol h r => exact .cons (.bnplPol ((pol_py hp _).1 h) ((pol_py hp _).1 r)) ((same (by simp [TStmt.isBase]) (by simp [TStmt.isPrefix]) _ _).1 hr)
    · intro h
      cases h with
      | cons hs hr =>
        cases hs with
        | pre h => exact .cons hb (.pre h) ((hpre rfl h _ _).2 hr)
        | base h => exact .cons hb (.base h) ((hbase rfl h _ _).2 hr)
        | node h r => exact .cons hb (.node ((node_py hp).2 h) ((pol_py hp _).2 r)) ((same (by simp [TStmt.isBase]) (by simp [TStmt.isPrefix]) _ _).2 hr)
        | coll h r => exact .cons hb (.coll ((coll_py hp _).2 h) ((pol_py hp _).2 r)) ((same (by simp [TStmt.isBase]) (by simp [TStmt.isPrefix]) _ _).2 hr)
        | bnpl r => exact .cons hb (.bnpl ((pol_py hp _).2 r)) ((same (by simp [TStmt.isBase]) (by simp [TStmt.isPrefix]) _ _).2 hr)
        | bnplPol h r => exact .cons hb (.bnplPol ((pol_py hp _).2 h) ((pol_py hp _).2 r)) ((same (by simp [TStmt.isBase]) (by simp [TStmt.isPrefix]) _ _).2 hr)

/-! ### Nesting -/

theorem isLeaf_sem {R : Reading} {lab : PStr → Option Nat} {S : Scope} {x : PObj} {x' : TObj} {an : List Nat} (h : ObjSem R lab S x x' an) :
    x'.isLeaf = x.isLeaf := by
  cases h <;> rfl

theorem allLeaf_sem {R : Reading} {lab : PStr → Option Nat} {S : Scope} : ∀ (x : PObjs) {x' : TObjs} {an : List Nat}, ObjsSem R lab S x x' an →
    x'.allLeaf = x.allLeaf
  | .one o, _, _, .one h => isLeaf_sem h
  | .cons o os, _, _, .cons h r => by rw [Objs.allLeaf, Objs.allLeaf, isLeaf_sem h, allLeaf_sem os r]

mutual
theorem obj_plain {R : Reading} {lab : PStr → Option Nat} {S : Scope} : ∀ (x : PObj) {x' : TObj} {an : List Nat}, ObjSem R lab S x x' an → x'.plain = x.plain
  | .leaf _, _, _, .leaf _ => by rw [Obj.plain, Obj.plain]
  | .coll c, _, _, .coll h => by rw [Obj.plain, Obj.plain, coll_plain c h]
  | .bnpl p, _, _, .bnpl h => by rw [Obj.plain, Obj.plain, pol_plain p h]
theorem objs_plain {R : Reading} {lab : PStr → Option Nat} {S : Scope} : ∀ (x : PObjs) {x' : TObjs} {an : List Nat}, ObjsSem R lab S x x' an → x'.plain = x.plain
  | .one o, _, _, .one h => by rw [Objs.plain, Objs.plain, obj_plain o h]
  | .cons o os, _, _, .cons h r => by rw [Objs.plain, Objs.plain, isLeaf_sem h, allLeaf_sem os r]
theorem coll_plain {R : Reading} {lab : PStr → Option Nat} {S : Scope} : ∀ (x : PColl) {x' : TColl} {an : List Nat}, CollSem R lab S x x' an → x'.plain = x.plain
  | .nil, _, _, .nil => by rw [Coll.plain, Coll.plain]
  | .cons o c, _, _, .cons h r => by rw [Coll.plain, Coll.plain, obj_plain o h, coll_plain c r]
theorem pol_plain {R : Reading} {lab : PStr → Option Nat} {S : Scope} : ∀ (x : PPol) {x' : TPol} {an : List Nat}, PolSem R lab S x x' an → x'.plain = x.plain
  | .last _ os _, _, _, .last _ h => by rw [Pol.plain, Pol.plain, objs_plain os h]
  | .cons _ os _ p, _, _, .cons _ h r => by rw [Pol.plain, Pol.plain, objs_plain os h, pol_plain p r]
end

theorem doc_plain {R : Reading} {lab : PStr → Option Nat} {S : Scope} {ds : List PTStmt} {es : List EStmt} {an : List Nat} (h : DocSem R lab S ds es an)
    (hp : ∀ d ∈ ds, d.plain = true) : ∀ e ∈ es, e.plain = true := by
  induction h with
  | nil => intro e he; cases he
  | cons hs _ ih =>
    intro x hx
    rcases List.mem_cons.1 hx with rfl | hx
    · have := hp _ (List.mem_cons_self ..)
      cases hs with
      | pre => rfl
      | base => rfl
      | node _ h => simpa [EStmt.plain, TStmt.plain, pol_plain _ h] using this
      | coll h r => simpa [EStmt.plain, TStmt.plain, coll_plain _ h, pol_plain _ r] using this
      | bnpl h => simpa [EStmt.plain, TStmt.plain, pol_plain _ h] using this
      | bnplPol h r => simpa [EStmt.plain, TStmt.plain, pol_plain _ h, pol_plain _ r] using this
    · exact ih (fun d hd => hp d (List.mem_cons_of_mem _ hd)) x hx

/-! ### What is parsed -/

/-- A document with any graph, in the reading of the parser, is accepted. -/
theorem parse_accepts {nl : PStr → Bool} {base : PStr} {next : Nat} {text : PStr} {ds : List PTStmt} (hp : parseTree text = .ok ds) {lab : PStr → Option Nat}
    {es : List EStmt} {an : List Nat} (h : DocSem (pyReading nl) lab ⟨base, knownPrefixes⟩ ds es an) : ∃ r, parseText nl base next text = .ok r := by
  have h0 := (doc_py ds [] (S := ⟨base, knownPrefixes⟩) (At.start (nl := nl) base next).base
    (fun ns p => ⟨fun h => by rw [prefixAt_iff] at h; exact h, fun h => by rw [prefixAt_iff]; exact h⟩)).2 h
  obtain ⟨⟨st', es'⟩, he⟩ := (C65_accepts ds base next).2 ⟨lab, es, an, h0⟩
  unfold parseText
  rw [hp]
  simp only [TState.start] at he
  simp only [he]
  exact ⟨_, rfl⟩

/-- The graph of a document, in the reading of the parser, is what is parsed. -/
theorem parse_triples {nl : PStr → Bool} {base : PStr} {next n : Nat} {text : PStr} {ts : List Stmt} {ds : List PTStmt} (hp : parseTree text = .ok ds)
    (hpl : ∀ d ∈ ds, d.plain = true) (h : parseText nl base next text = .ok (n, ts)) :
    ∃ ts', HasTriples (pyReading nl) ⟨base, knownPrefixes⟩ ds ts' ∧ ts.Perm ts' := by
  obtain ⟨toks, ds', label, es, an, h1, h2, h3, h4, h5⟩ := C63_document_partial nl base next h
  have hd : ds' = ds := by
    unfold parseTree at hp
    rw [h1] at hp
    rw [h2] at hp
    exact Except.ok.inj (((C93_exact _ _).2 rfl).symm.trans hp)
  subst hd
  have h0 := (doc_py ds' [] (S := ⟨base, knownPrefixes⟩) (At.start (nl := nl) base next).base
    (fun ns p => ⟨fun h => by rw [prefixAt_iff] at h; exact h, fun h => by rw [prefixAt_iff]; exact h⟩)).1 h3
  obtain ⟨fr, ts', k1, k2, k3, k4, _⟩ := h5 (doc_plain h0 hpl)
  exact ⟨ts', ⟨label, es, an, fr, h0, k1, h4, k3, k4⟩, k2⟩

/-! ### References resolved as the RFC says -/

/-- An absolute IRI that `urljoin` leaves as it is and that has no dot segments. -/
structure GoodAbs (nl : PStr → Bool) (r : Ref) : Prop where
  wf : r.WF
  scheme : ∃ s, r.scheme = some s ∧ (s.map asciiLower ∉ Verif.Spec.hierSchemes ∨
    (s.map asciiLower = s ∧ (∃ a, r.authority = some a ∧ a ≠ []) ∧ r.query ≠ some [] ∧ r.path.getLast? ≠ some 59))
  authority : nl (r.authority.getD []) = true
  dots : removeDots r.path = r.path

/-- A reference of a kind that `urljoin` resolves as the RFC says: absolute, or relative, without or with an authority. -/
def GoodRef (nl : PStr → Bool) (r : Ref) : Prop := GoodAbs nl r ∨ GoodRel r ∨ GoodNet nl r

/-- A reference that may stand after `@base`: against a base that is hierarchical, with an authority and without empty segments, it gives such a base again. -/
def SetsBase (nl : PStr → Bool) (r : Ref) : Prop := (GoodAbs nl r ∧ GoodBase nl r) ∨ GoodRel r ∨ (GoodNet nl r ∧ ¬ [47, 47] <:+: r.path)

theorem GoodRef.wf {nl : PStr → Bool} {r : Ref} (h : GoodRef nl r) : r.WF := by
  rcases h with h | h | h
  exacts [h.wf, h.wf, h.wf]

theorem SetsBase.ref {nl : PStr → Bool} {r : Ref} (h : SetsBase nl r) : GoodRef nl r := by
  rcases h with h | h | h
  exacts [.inl h.1, .inr (.inl h), .inr (.inr h.1)]

/-- The base is not given, or is hierarchical, with an authority, and without a fragment if there may be empty references (`ne` says that there are none). -/
def BaseOk (nl : PStr → Bool) (ne : Bool) (base : PStr) : Prop := base = [] ∨ ∃ b : Ref, GoodBase nl b ∧ (ne = false → b.fragment = none) ∧ b.text = base

theorem GoodAbs.resolve {nl : PStr → Bool} {r : Ref} (h : GoodAbs nl r) : resolve r r = r := by
  obtain ⟨s, hs, _⟩ := h.scheme
  unfold Verif.Spec.resolve
  rw [if_pos (by rw [hs]; rfl), h.dots]

theorem BaseOk.parse {nl : PStr → Bool} (hnl : nl [] = true) {ne : Bool} {base : PStr} (h : BaseOk nl ne base) : ∃ b, urlparse nl base [] = .ok b := by
  rcases h with rfl | ⟨b, hb, _, rfl⟩
  · have := urlparse_text (r := ⟨none, none, [], none, none⟩)
      { scheme := by simp, authority := by simp, path := by simp, pathAuth := by simp, pathNoAuth := by simp, pathNoScheme := by simp, query := by simp,
        visible := by simp [Ref.text] } nl [] hnl
    exact ⟨_, this⟩
  · obtain ⟨a, ha, _, hn⟩ := hb.authority
    exact ⟨_, urlparse_text hb.wf nl [] (by rw [ha]; exact hn)⟩

theorem target_py {nl : PStr → Bool} (hnl : nl [] = true) {ne : Bool} {base u s : PStr} (hb : BaseOk nl ne base) (hu : ∃ r : Ref, u = r.text ∧ GoodRef nl r) (hne : ne = true → u ≠ [])
    (h : Target base u s) : smartUrljoin nl base u = .ok s := by
  obtain ⟨r, rfl, hr⟩ := hu
  generalize he : r.text = u at h
  cases h with
  | @absolute r' hw hs =>
    cases Spec.Ref.text_inj hr.wf hw he
    rcases hr with hr | hr | hr
    · obtain ⟨b, hb⟩ := hb.parse hnl
      obtain ⟨s, hs, hc⟩ := hr.scheme
      rw [hr.resolve]
      exact C91_partial hb hr.wf hs hr.authority hc
    · rw [hr.scheme] at hs; cases hs
    · rw [hr.scheme] at hs; cases hs
  | @relative b' r' hbw hbs hbt hw hs =>
    cases Spec.Ref.text_inj hr.wf hw he
    rcases hb with rfl | ⟨b, hb, hbf, rfl⟩
    · rw [text_eq'] at hbt
      obtain ⟨s, hs⟩ := Option.isSome_iff_exists.1 hbs
      rw [hs] at hbt
      simp [schemeText] at hbt
    · cases Spec.Ref.text_inj hb.wf hbw hbt.symm
      rcases hr with hr | hr | hr
      · obtain ⟨s, hs', _⟩ := hr.scheme; rw [hs] at hs'; cases hs'
      · refine C92_partial hnl hb hr ?_
        cases hn : ne with
        | true => exact .inl (hne hn)
        | false => exact .inr (hbf hn)
      · exact hr.join hb

theorem resolve_fragment (b r : Ref) : (resolve b r).fragment = r.fragment := by
  unfold Verif.Spec.resolve
  split
  · rfl
  · split
    · rfl
    · split
      · rfl
      · split <;> rfl

/-- What stands after `@base` gives a base again. -/
theorem target_base {nl : PStr → Bool} {ne : Bool} {base s : PStr} {r : Ref} (hb : BaseOk nl ne base) (hr : SetsBase nl r) (hf : ne = false → r.fragment = none)
    (h : Target base r.text s) : ∃ b : Ref, GoodBase nl b ∧ (ne = false → b.fragment = none) ∧ b.text = s := by
  generalize he : r.text = u at h
  cases h with
  | @absolute r' hw hs =>
    cases Spec.Ref.text_inj hr.ref.wf hw he
    rcases hr with ⟨hr, hg⟩ | hr | ⟨hr, -⟩
    · exact ⟨r, hg, hf, by rw [hr.resolve]⟩
    · rw [hr.scheme] at hs; cases hs
    · rw [hr.scheme] at hs; cases hs
  | @relative b' r' hbw hbs hbt hw hs =>
    cases Spec.Ref.text_inj hr.ref.wf hw he
    rcases hb with rfl | ⟨b, hb, hbf, rfl⟩
    · rw [text_eq'] at hbt
      obtain ⟨s, hs⟩ := Option.isSome_iff_exists.1 hbs
      rw [hs] at hbt
      simp [schemeText] at hbt
    · cases Spec.Ref.text_inj hb.wf hbw hbt.symm
      refine ⟨_, ?_, fun hn => by rw [resolve_fragment]; exact hf hn, rfl⟩
      rcases hr with ⟨hr, -⟩ | hr | ⟨hr, h2⟩
      · obtain ⟨s, hs', _⟩ := hr.scheme; rw [hs] at hs'; cases hs'
      · exact hb.resolve hr
      · exact hr.base hb h2

theorem resolve_scheme {b r : Ref} (h : r.scheme = none) : (resolve b r).scheme = b.scheme := by
  unfold Verif.Spec.resolve
  rw [if_neg (by rw [h]; simp)]
  split
  · rfl
  · split
    · rfl
    · split <;> rfl

/-- An IRI does not begin with `<`. -/
theorem Target.head {base u s : PStr} (h : Target base u s) : ∃ c t, s = c :: t ∧ c ≠ 60 := by
  have key : ∀ {r r' : Ref}, r.WF → r.scheme.isSome → r'.scheme = r.scheme → ∃ c t, r'.text = c :: t ∧ c ≠ 60 := by
    intro r r' hw hs he
    obtain ⟨s, hs⟩ := Option.isSome_iff_exists.1 hs
    obtain ⟨hne, hc⟩ := scheme_chars hw hs
    cases s with
    | nil => exact absurd rfl hne
    | cons c s =>
      rw [text_eq', he, hs]
      exact ⟨c, _, rfl, (hc c (List.mem_cons_self ..)).2.2.2.2⟩
  cases h with
  | absolute hw hs => exact key hw hs (by unfold Verif.Spec.resolve; rw [if_pos hs])
  | relative hw hs _ _ hr => exact key hw hs (resolve_scheme hr)

/-! ### Documents -/

/-- The references in the document are of the kinds that `urljoin` resolves as the RFC says, and what is set as the base, absolute or relative, is again hierarchical, with an
    authority. Either no reference is empty (`ne`) or no base has a fragment. -/
structure GoodRefs (nl : PStr → Bool) (ne : Bool) (ds : List PTStmt) : Prop where
  refs : ∀ b u, .iri (.ref b) ∈ docToks ds → Denotes b u → ∃ r : Ref, u = r.text ∧ GoodRef nl r
  bases : ∀ k b u, .base k b ∈ ds → Denotes b u → ∃ r : Ref, u = r.text ∧ SetsBase nl r ∧ (ne = false → r.fragment = none)
  empty : ne = true → ∀ b, .iri (.ref b) ∈ docToks ds → b ≠ []

theorem GoodRefs.tail {nl : PStr → Bool} {ne : Bool} {d : PTStmt} {ds : List PTStmt} (h : GoodRefs nl ne (d :: ds)) : GoodRefs nl ne ds where
  refs b u hb := h.refs b u (by rw [docToks, List.flatMap_cons]; exact List.mem_append_right _ hb)
  bases k b u hb := h.bases k b u (List.mem_cons_of_mem _ hb)
  empty hn b hb := h.empty hn b (by rw [docToks, List.flatMap_cons]; exact List.mem_append_right _ hb)

theorem denotes_ne_nil {b u : PStr} (h : Denotes b u) (hb : b ≠ []) : u ≠ [] := by
  cases h with
  | nil => exact absurd rfl hb
  | _ => simp

/-- What is needed of the tokens. -/
structure LexOk (ds : List PTStmt) : Prop where
  ref : ∀ b, .iri (.ref b) ∈ docToks ds → ∀ nl base s, resolveRef nl base b = .ok s ↔
    ∃ u, Denotes b u ∧ ((∀ c ∈ u, IriChar c) ∨ ∃ w, u = w ++ [0x0A] ∧ ∀ c ∈ w, IriChar c) ∧ smartUrljoin nl base u = .ok s
  pname : ∀ ns loc, .iri (.pname ns loc) ∈ docToks ds → PnLocal loc
  str : ∀ b, .str b ∈ docToks ds → ∀ v, decodeLiteral b = .ok v ↔ Denotes b v

theorem LexOk.tail {d : PTStmt} {ds : List PTStmt} (h : LexOk (d :: ds)) : LexOk ds where
  ref b hb := h.ref b (by rw [docToks, List.flatMap_cons]; exact List.mem_append_right _ hb)
  pname ns loc hb := h.pname ns loc (by rw [docToks, List.flatMap_cons]; exact List.mem_append_right _ hb)
  str b hb := h.str b (by rw [docToks, List.flatMap_cons]; exact List.mem_append_right _ hb)

theorem lexOk_parsed {text : PStr} {ds : List PTStmt} (h : parseTree text = .ok ds) : LexOk ds where
  ref b hb nl base s := C121_iri_reference h hb nl base s
  pname ns loc hx := by
    obtain ⟨w, h1, _⟩ := (C95_exact h).tok _ hx
    cases h1; assumption
  str b hb v := C121_string h hb v

/-- In documents with such references the reading of the recommendation is the reading of the parser. -/
theorem doc_w3c {nl : PStr → Bool} (hnl : nl [] = true) {lab : PStr → Option Nat} {ds : List PTStmt} {S S' : Scope} {es : List EStmt} {an : List Nat}
    {ne : Bool} (h : DocSem w3cReading lab S ds es an) (hl : LexOk ds) (hg : GoodRefs nl ne ds) (hb : BaseOk nl ne S.base)
    (hp : ∀ ns p, S.pref ns = some p → ∃ c t, p = c :: t ∧ c ≠ 60) (he : S'.base = S.base) (hpp : ∀ ns p, S.pref ns = some p → S'.pref ns = some p) :
    DocSem (pyReading nl) lab S' ds es an := by
  induction h generalizing S' with
  | nil => exact .nil
  | @cons S d ds e es a b T hs _ ih =>
    have hin : ∀ t ∈ TStmt.toks d, t ∈ docToks (d :: ds) := fun t ht => by rw [docToks, List.flatMap_cons]; exact List.mem_append_left _ ht
    have ha : Agree w3cReading (pyReading nl) S S' (TStmt.toks d) :=
      { base := he
        pref := hpp
        ref := by
          rintro b s hm ⟨u, h1, h2, h3⟩
          exact (hl.ref b (hin _ hm) nl _ s).2 ⟨u, h1, .inl h2, target_py hnl hb (hg.refs b u (hin _ hm) h1) (fun hn => denotes_ne_nil h1 (hg.empty hn b (hin _ hm))) h3⟩
        pname := by
          rintro ns loc p s hm hpn ⟨l, h1, rfl⟩
          obtain ⟨l', h2, h3, _⟩ := pnLocal_ok (hl.pname ns loc (hin _ hm))
          cases h1.unique h2
          obtain ⟨c, t, rfl, hc⟩ := hp ns p hpn
          exact .join h3 (by simpa using hc)
        str := fun b v hm h => (hl.str b (hin _ hm) v).2 h }
    obtain ⟨T', h1, h2, h3⟩ := stmt_agree hs ha
    refine .cons h1 (ih hl.tail hg.tail ?_ ?_ h2 h3)
    · cases hs with
      | pre => exact hb
      | @base k i s h =>
        obtain ⟨u, h1, _, h3⟩ := h
        obtain ⟨r, rfl, g1, g2⟩ := hg.bases k i u (List.mem_cons_self ..) h1
        exact .inr (target_base hb g1 g2 h3)
      | node => exact hb
      | coll => exact hb
      | bnpl => exact hb
      | bnplPol => exact hb
    · cases hs with
      | pre h =>
        obtain ⟨u, _, _, h3⟩ := h
        intro n p hn
        dsimp only at hn
        split at hn
        · cases hn; exact h3.head
        · exact hp n p hn
      | base => exact hp
      | node => exact hp
      | coll => exact hp
      | bnpl => exact hp
      | bnplPol => exact hp

/-- And back: what the parser reads is in the reading of the recommendation, if there is a base. -/
theorem doc_w3c_of_py {nl : PStr → Bool} (hnl : nl [] = true) {lab : PStr → Option Nat} {ds : List PTStmt} {S : Scope} {es : List EStmt} {an : List Nat}
    {ne : Bool} (h : DocSem (pyReading nl) lab S ds es an) (hl : LexOk ds) (hg : GoodRefs nl ne ds) (hb : ∃ b : Ref, GoodBase nl b ∧ (ne = false → b.fragment = none) ∧ b.text = S.base)
    (hp : ∀ ns p, S.pref ns = some p → ∃ c t, p = c :: t ∧ c ≠ 60) : DocSem w3cReading lab S ds es an := by
  have tgt : ∀ {base u s : PStr}, (∃ b : Ref, GoodBase nl b ∧ (ne = false → b.fragment = none) ∧ b.text = base) → (∃ r : Ref, u = r.text ∧ GoodRef nl r) →
      (ne = true → u ≠ []) → smartUrljoin nl base u = .ok s → Target base u s := by
    rintro base u s ⟨b, hb, hbf, rfl⟩ ⟨r, rfl, hr⟩ hne h
    have ht : ∃ s', Target b.text r.text s' := by
      rcases hr with hr | hr | hr
      · obtain ⟨s, hs, _⟩ := hr.scheme
        exact ⟨_, .absolute hr.wf (by rw [hs]; rfl)⟩
      · obtain ⟨s, hs, _⟩ := hb.scheme
        exact ⟨_, .relative hb.wf (by rw [hs]; rfl) rfl hr.wf hr.scheme⟩
      · obtain ⟨s, hs, _⟩ := hb.scheme
        exact ⟨_, .relative hb.wf (by rw [hs]; rfl) rfl hr.wf hr.scheme⟩
    obtain ⟨s', ht⟩ := ht
    rw [target_py hnl (.inr ⟨b, hb, hbf, rfl⟩) ⟨r, rfl, hr⟩ hne ht] at h
    cases h
    exact ht
  induction h with
  | nil => exact .nil
  | @cons S d ds e es a b T hs _ ih =>
    have hin : ∀ t ∈ TStmt.toks d, t ∈ docToks (d :: ds) := fun t ht => by rw [docToks, List.flatMap_cons]; exact List.mem_append_left _ ht
    have href : ∀ b s, .iri (.ref b) ∈ TStmt.toks d → resolveRef nl S.base b = .ok s → w3cReading.ref S.base b s := by
      intro b s hm hr
      obtain ⟨u, h1, h2, h3⟩ := (hl.ref b (hin _ hm) nl _ s).1 hr
      obtain ⟨r, hu, hr⟩ := hg.refs b u (hin _ hm) h1
      refine ⟨u, h1, ?_, tgt hb ⟨r, hu, hr⟩ (fun hn => denotes_ne_nil h1 (hg.empty hn b (hin _ hm))) h3⟩
      rcases h2 with h2 | ⟨w, rfl, _⟩
      · exact h2
      · have := hr.wf.visible 10 (by rw [← hu]; simp)
        omega
    have ha : Agree (pyReading nl) w3cReading S S (TStmt.toks d) :=
      { base := rfl
        pref := fun _ _ h => h
        ref := href
        pname := by
          intro ns loc p s hm hpn h
          obtain ⟨l, h2, h3, _⟩ := pnLocal_ok (hl.pname ns loc (hin _ hm))
          obtain ⟨c, t, rfl, hc⟩ := hp ns p hpn
          cases h with
          | join h _ => rw [h3] at h; cases h; exact ⟨l, h2, rfl⟩
          | angle _ e _ => simp only [List.cons_append, List.cons.injEq] at e; exact absurd e.1 hc
        str := fun b v hm h => (hl.str b (hin _ hm) v).1 h }
    have hbase : ∀ {k i s}, d = .base k i → resolveRef nl S.base i = .ok s → ∃ r : Ref, GoodBase nl r ∧ (ne = false → r.fragment = none) ∧ r.text = s := by
      rintro k i s rfl h
      obtain ⟨u, h1, _, h3⟩ := href i s (by cases k <;> simp [TStmt.toks]) h
      obtain ⟨r, rfl, g1, g2⟩ := hg.bases k i u (List.mem_cons_self ..) h1
      exact target_base (.inr hb) g1 g2 h3
    cases hs with
    | @pre k ns i s h =>
      refine .cons (.pre (href _ _ (by cases k <;> simp [TStmt.toks]) h)) (ih hl.tail hg.tail hb ?_)
      obtain ⟨u, _, _, h3⟩ := href i s (by cases k <;> simp [TStmt.toks]) h
      intro n p hn
      dsimp only at hn
      split at hn
      · cases hn; exact h3.head
      · exact hp n p hn
    | @base k i s h => exact .cons (.base (href _ _ (by cases k <;> simp [TStmt.toks]) h)) (ih hl.tail hg.tail (hbase rfl h) hp)
    | node h r =>
      exact .cons (.node (node_agree h (ha.sub (by simp +contextual [TStmt.toks]))) (pol_agree _ r (ha.sub (by simp +contextual [TStmt.toks])))) (ih hl.tail hg.tail hb hp)
    | coll h r =>
      exact .cons (.coll (coll_agree _ h (ha.sub (by simp +contextual [TStmt.toks]))) (pol_agree _ r (ha.sub (by simp +contextual [TStmt.toks])))) (ih hl.tail hg.tail hb hp)
    | bnpl r => exact .cons (.bnpl (pol_agree _ r (ha.sub (by simp +contextual [TStmt.toks])))) (ih hl.tail hg.tail hb hp)
    | bnplPol h r =>
      exact .cons (.bnplPol (pol_agree _ h (ha.sub (by simp +contextual [TStmt.toks]))) (pol_agree _ r (ha.sub (by simp +contextual [TStmt.toks])))) (ih hl.tail hg.tail hb hp)

/-! ### The theorems -/

theorem w3cReading_functional : w3cReading.Functional where
  str h h' := Except.ok.inj ((C88_denotes h).symm.trans (C88_denotes h'))
  pname := by
    rintro base p loc s s' ⟨l, h, rfl⟩ ⟨l', h', rfl⟩
    rw [h.unique h']
  ref := by
    rintro base b s s' ⟨u, h1, _, h3⟩ ⟨u', h1', _, h3'⟩
    cases Except.ok.inj ((C88_denotes h1).symm.trans (C88_denotes h1'))
    clear h1 h1'
    cases h3 with
    | @absolute r hw hs =>
      generalize he : r.text = u at h3'
      cases h3' with
      | absolute hw' _ => cases Spec.Ref.text_inj hw hw' he; rfl
      | relative _ _ _ hw' hn => cases Spec.Ref.text_inj hw hw' he; rw [hn] at hs; cases hs
    | @relative b r hbw _ hbt hw hn =>
      generalize he : r.text = u at h3'
      cases h3' with
      | absolute hw' hs => cases Spec.Ref.text_inj hw hw' he; rw [hn] at hs; cases hs
      | relative hbw' _ hbt' hw' _ =>
        cases Spec.Ref.text_inj hw hw' he
        cases Spec.Ref.text_inj hbw hbw' (hbt.trans hbt'.symm)
        rfl

/-- What is claimed: the graph parsed from a Turtle document is, up to the choice of blank nodes, the graph that the recommendation says it has. -/
def C125_statement : Prop :=
  ∀ (nl : PStr → Bool), (∀ a, nl a = true) → ∀ (base text : PStr) (next : Nat) (ds : List PTStmt) (ts : List Stmt), Plainly w3c (docToks ds) text →
    HasTriples w3cReading ⟨base, fun _ => none⟩ ds ts → ∃ n ts', parseText nl base next text = .ok (n, ts') ∧ Isomorphic ts ts'

/-- The recommendation gives a document at most one graph. -/
theorem C125_unique {S : Scope} {ds : List PTStmt} {ts ts' : List Stmt} (h : HasTriples w3cReading S ds ts) (h' : HasTriples w3cReading S ds ts') :
    Isomorphic ts ts' := by
  obtain ⟨ρ, h1, h2⟩ := hasTriples_unique w3cReading_functional h h'
  exact ⟨ρ, h1, ts', .refl _, h2⟩

/-- It holds for every document, with any number of statements and any nesting, in any layout, whose references are resolved by `urljoin` as the RFC
    says, which has no collection or property list among several objects, and no carriage return without a line feed. Missing: other documents
    (`C125_refuted`, and C63, C91, C92, C95 and C96 on what happens to them). -/
theorem C125_partial {nl : PStr → Bool} (hnl : nl [] = true) {base text : PStr} (next : Nat) {ds : List PTStmt} {ts : List Stmt}
    (hw : Plainly w3c (docToks ds) text) (hc : CrLf text) (hpl : ∀ d ∈ ds, d.plain = true) {ne : Bool} (hb : BaseOk nl ne base) (hg : GoodRefs nl ne ds)
    (h : HasTriples w3cReading ⟨base, fun _ => none⟩ ds ts) : ∃ n ts', parseText nl base next text = .ok (n, ts') ∧ Isomorphic ts ts' := by
  have hp := C96_partial hw hc
  obtain ⟨lab, es, an, fr, h1, h2, h3⟩ := h
  have h1' := doc_w3c (S' := ⟨base, knownPrefixes⟩) hnl h1 (lexOk_parsed hp) hg hb (by simp) rfl (by simp)
  obtain ⟨⟨n, ts'⟩, hr⟩ := parse_accepts (next := next) hp h1'
  obtain ⟨ts'', k1, k2⟩ := parse_triples hp hpl hr
  obtain ⟨ρ, j1, j2⟩ := hasTriples_unique (pyReading_functional nl) ⟨lab, es, an, fr, h1', h2, h3⟩ k1
  exact ⟨n, ts', hr, ρ, j1, ts'', k2.symm, j2⟩

/-- Conversely, what is parsed from any text is the graph of the document that the text is, under the same conditions, if a base is given. The prefixes
    that the parser knows from the start need not be declared. -/
theorem C125_sound_partial {nl : PStr → Bool} (hnl : nl [] = true) {base text : PStr} {next n : Nat} {ts : List Stmt}
    (h : parseText nl base next text = .ok (n, ts)) (hc : CrLf text) (hf : NoFold text) :
    ∃ ds, Written w3c (docToks ds) text ∧ ((∀ d ∈ ds, d.plain = true) →
      ∀ ne : Bool, (∃ b : Ref, GoodBase nl b ∧ (ne = false → b.fragment = none) ∧ b.text = base) → GoodRefs nl ne ds → ∃ ts', HasTriples w3cReading ⟨base, knownPrefixes⟩ ds ts' ∧ ts.Perm ts') := by
  cases hp : parseTree text with
  | error e => unfold parseText at h; rw [hp] at h; cases h
  | ok ds =>
    refine ⟨ds, C95_partial hp hc hf, fun hpl ne hb hg => ?_⟩
    obtain ⟨ts', ⟨lab, es, an, fr, h1, h2, h3⟩, h4⟩ := parse_triples hp hpl h
    refine ⟨ts', ⟨lab, es, an, fr, doc_w3c_of_py hnl h1 (lexOk_parsed hp) hg hb ?_, h2, h3⟩, h4⟩
    intro ns p hns
    unfold knownPrefixes at hns
    dsimp only at hns
    split at hns
    · cases hns; exact ⟨_, _, rfl, by decide⟩
    · split at hns
      · cases hns; exact ⟨_, _, rfl, by decide⟩
      · cases hns

/-! ### A document for which the claim fails -/

/-- `<a:s> <a:p> () , <a:o> .` -/
def exList : List PTStmt := [.node (.iri (.ref (py! "a:s"))) (.last (.iri (.ref (py! "a:p"))) (.cons (.coll .nil) (.one (.leaf (.node (.iri (.ref (py! "a:o"))))))) 0)]

theorem exRef (base : PStr) (c : Nat) (hc : 96 < c ∧ c < 123) : w3cReading.ref base [97, 58, c] [97, 58, c] := by
  refine ⟨[97, 58, c], .plain (by decide) (.plain (by decide) (.plain (by omega) .nil)), ?_, ?_⟩
  · intro x hx
    unfold IriChar
    simp only [List.mem_cons, List.not_mem_nil, or_false] at hx
    refine ⟨by omega, ?_⟩
    simp
    omega
  · have hw : (⟨some [97], none, [c], none, none⟩ : Ref).WF :=
      { scheme := by rintro _ ⟨⟩; exact ⟨_, _, rfl, by decide, by decide⟩
        authority := by simp
        path := by simp; omega
        pathAuth := by simp
        pathNoAuth := by simp
        pathNoScheme := by simp
        query := by simp
        visible := by simp [Ref.text]; omega }
    have := Target.absolute (base := base) hw rfl
    have hd : removeDots [c] = [c] := by
      have h1 : 46 ≠ c := by omega
      have h2 : 47 ≠ c := by omega
      have h3 : c ≠ 47 := by omega
      have h4 : c ≠ 46 := by omega
      simp [removeDots, Verif.Spec.removeDotsLoop, h1, h2, h4]
    simpa [Verif.Spec.resolve, Ref.text, hd] using this

theorem exList_written : Plainly w3c (docToks exList) (py! "<a:s> <a:p> (), <a:o> .") := by
  have hb : ∀ c, 96 < c ∧ c < 123 → TokText w3c (.iri (.ref [97, 58, c])) (0x3C :: ([97, 58, c] ++ [0x3E])) := fun c hc =>
    .ref (.char (by decide) (by decide) (.char (by decide) (by decide) (.char (by omega) (by simp; omega) .nil)))
  have hw : Ignorable w3c [32] := .white (.inl rfl) .nil
  exact .cons .nil (hb 115 (by decide)) trivial <| .cons hw (hb 112 (by decide)) trivial <| .cons hw .lpar trivial <| .cons .nil .rpar trivial <|
      .cons .nil .comma trivial <| .cons hw (hb 111 (by decide)) trivial <| .cons hw .dot (by intro c h; cases h) (.nil (.inl .nil))

theorem exList_triples : HasTriples w3cReading ⟨[], fun _ => none⟩ exList
      [mkTriple (.named (py! "a:s")) (.named (py! "a:p")) (.named (py! "http://www.w3.org/1999/02/22-rdf-syntax-ns#nil")),
       mkTriple (.named (py! "a:s")) (.named (py! "a:p")) (.named (py! "a:o"))] :=
    ⟨fun _ => none, _, _, _, .cons (.node (.iri (.ref (exRef _ 115 (by decide)))) (.last (.iri (.ref (exRef _ 112 (by decide))))
      (.cons (.coll .nil) (.one (.leaf (.node (.iri (.ref (exRef _ 111 (by decide)))))))))) .nil,
      .cons (.node (.last (.cons (.coll .nil) (.one (.leaf _))))) .nil, by simp, by simp, by simp⟩

theorem exList_read : (parseText (fun _ => true) [] 0 (py! "<a:s> <a:p> (), <a:o> .")).map (·.2) =
    .ok [mkTriple (.named (py! "a:s")) (.named (py! "a:p")) (.gen 0), mkTriple (.named (py! "a:s")) (.named (py! "a:p")) (.named (py! "a:o"))] := rfl

theorem C125_refuted : ¬ C125_statement := by
  intro h
  obtain ⟨n, ts', h3, ρ, _, ts'', h4, h5⟩ := h (fun _ => true) (fun _ => rfl) [] _ 0 exList _ exList_written exList_triples
  have h6 : ts' = [mkTriple (.named (py! "a:s")) (.named (py! "a:p")) (.gen 0), mkTriple (.named (py! "a:s")) (.named (py! "a:p")) (.named (py! "a:o"))] := by
    have h7 := exList_read
    rw [h3] at h7
    exact Except.ok.inj h7
  have h8 : mkTriple (.named (py! "a:s")) (.named (py! "a:p")) (.gen 0) ∈ ts'' := h4.mem_iff.2 (by rw [h6]; simp)
  have h9 : ∀ {a b : List Stmt}, List.Forall₂ (StmtCorr ρ) a b → ∀ y ∈ b, ∃ x, StmtCorr ρ x y := by
    intro a b h
    induction h with
    | nil => intro y hy; cases hy
    | cons h _ ih =>
      intro y hy
      rcases List.mem_cons.1 hy with rfl | hy
      · exact ⟨_, h⟩
      · exact ih y hy
  obtain ⟨x, hx⟩ := h9 h5 _ h8
  have h10 : TermCorr ρ x.o (.gen 0) := hx.o
  generalize x.o = t at h10
  cases h10

/-! ### A document for which it holds -/

/-- `@base <http://e/y/> . @base <../x/#> . @prefix p: <//e/x/n#> . <../a> p:b ([ p:q "\n" ] _:z) .` -/
def exDoc : List PTStmt := [.base false (py! "http://e/y/"), .base false (py! "../x/#"), .pre false (py! "p") (py! "//e/x/n#"),
  .node (.iri (.ref (py! "../a"))) (.last (.iri (.pname (py! "p") (py! "b")))
    (.one (.coll (.cons (.bnpl (.last (.iri (.pname (py! "p") (py! "q"))) (.one (.leaf (.str (py! "\\n")))) 0))
      (.cons (.leaf (.node (.label (py! "_:z")))) .nil)))) 0)]

def exDocBase : Ref := ⟨some (py! "http"), some (py! "e"), py! "/y/", none, none⟩
def exRelBase : Ref := ⟨none, none, py! "../x/", none, some []⟩
def exNs : Ref := ⟨none, some (py! "e"), py! "/x/n", none, some []⟩
def exUp : Ref := ⟨none, none, py! "../a", none, none⟩

theorem exDocBase_wf : exDocBase.WF where
  scheme := by rintro _ ⟨⟩; exact ⟨_, _, rfl, by decide, by decide⟩
  authority := by rintro _ ⟨⟩; decide
  path := by decide
  pathAuth := by decide
  pathNoAuth := by simp [exDocBase]
  pathNoScheme := by simp [exDocBase]
  query := by simp [exDocBase]
  visible := by decide
theorem exDocBase_good : GoodBase (fun _ => true) exDocBase where
  wf := exDocBase_wf
  scheme := ⟨_, rfl, by decide⟩
  authority := ⟨_, rfl, by decide, rfl⟩
  noEmpty := by decide
  noSemi := by decide
  query := by decide
theorem exRelBase_good : GoodRel exRelBase where
  wf := { scheme := by simp [exRelBase], authority := by simp [exRelBase], path := by decide, pathAuth := by simp [exRelBase], pathNoAuth := by intro; decide,
          pathNoScheme := by intros; decide, query := by simp [exRelBase], visible := by decide }
  scheme := rfl
  authority := rfl
  noEmpty := by decide
  noSemi := by decide
  noDotSemi := by decide
  noDotsSemi := by decide
  query := by simp [exRelBase]
theorem exNs_good : GoodNet (fun _ => true) exNs where
  wf := { scheme := by simp [exNs], authority := by rintro _ ⟨⟩; decide, path := by decide, pathAuth := by decide, pathNoAuth := by simp [exNs],
          pathNoScheme := by simp [exNs], query := by simp [exNs], visible := by decide }
  scheme := rfl
  authority := ⟨_, rfl, by decide, rfl⟩
  dots := by decide
  noSemi := by decide
  query := by simp [exNs]
theorem exUp_good : GoodRel exUp where
  wf := { scheme := by simp [exUp], authority := by simp [exUp], path := by decide, pathAuth := by simp [exUp], pathNoAuth := by intro; decide,
          pathNoScheme := by intros; decide, query := by simp [exUp], visible := by decide }
  scheme := rfl
  authority := rfl
  noEmpty := by decide
  noSemi := by decide
  noDotSemi := by decide
  noDotsSemi := by decide
  query := by simp [exUp]

theorem denotes_plain : ∀ {s : PStr}, 92 ∉ s → Denotes s s
  | [], _ => .nil
  | c :: s, h => .plain (by rintro rfl; simp at h) (denotes_plain (by simp_all))

theorem exDoc_triples : HasTriples w3cReading ⟨[], fun _ => none⟩ exDoc
    [mkTriple (.named (py! "http://e/a")) (.named (py! "http://e/x/n#b")) (.bnode 1),
     mkTriple (.bnode 1) (.named (py! "http://www.w3.org/1999/02/22-rdf-syntax-ns#first")) (.bnode 2),
     mkTriple (.bnode 1) (.named (py! "http://www.w3.org/1999/02/22-rdf-syntax-ns#rest")) (.bnode 3),
     mkTriple (.bnode 2) (.named (py! "http://e/x/n#q")) (.lit [10] none (some (py! "http://www.w3.org/2001/XMLSchema#string"))),
     mkTriple (.bnode 3) (.named (py! "http://www.w3.org/1999/02/22-rdf-syntax-ns#first")) (.bnode 0),
     mkTriple (.bnode 3) (.named (py! "http://www.w3.org/1999/02/22-rdf-syntax-ns#rest")) (.named (py! "http://www.w3.org/1999/02/22-rdf-syntax-ns#nil"))] := by
  have r1 : w3cReading.ref [] (py! "http://e/y/") (py! "http://e/y/") :=
    ⟨_, denotes_plain (by decide), by unfold IriChar; decide, .absolute exDocBase_wf rfl⟩
  have r0 : w3cReading.ref (py! "http://e/y/") (py! "../x/#") (py! "http://e/x/#") :=
    ⟨_, denotes_plain (by decide), by unfold IriChar; decide, .relative exDocBase_wf rfl rfl exRelBase_good.wf rfl⟩
  have hw : (resolve exDocBase exRelBase).WF := (exDocBase_good.resolve exRelBase_good).wf
  have r2 : w3cReading.ref (py! "http://e/x/#") (py! "//e/x/n#") (py! "http://e/x/n#") :=
    ⟨_, denotes_plain (by decide), by unfold IriChar; decide, .relative hw rfl rfl exNs_good.wf rfl⟩
  have r3 : w3cReading.ref (py! "http://e/x/#") (py! "../a") (py! "http://e/a") :=
    ⟨_, denotes_plain (by decide), by unfold IriChar; decide, .relative hw rfl rfl exUp_good.wf rfl⟩
  have n1 : ∀ (c : Nat) b, c ≠ 92 → w3cReading.pname b (py! "http://e/x/n#") [c] (py! "http://e/x/n#" ++ [c]) := fun c b hc => ⟨[c], .char hc .nil, rfl⟩
  refine ⟨fun l => if l = py! "_:z" then some 0 else none, _, [], [1, 2, 3], .cons (.base r1) (.cons (.base r0) (.cons (.pre r2) (.cons (.node (.iri (.ref r3))
    (.last (.iri (.pname rfl (n1 98 _ (by decide)))) (.one (.coll (.cons (.bnpl (.last (.iri (.pname rfl (n1 113 _ (by decide)))) (.one (.leaf
      (.str (v := [10]) (.echar (by simp [Verif.Spec.stringEscapes]) .nil)))))) (.cons (.leaf (.node (.label rfl))) .nil)))))) .nil))), ?_, ?_, by decide, ?_⟩
  · exact .cons .directive (.cons .directive (.cons .directive (.cons (.node (.last (.one (.coll (.cons (.bnpl (.last (.one (.leaf _)))) (.cons (.leaf _) .nil)))))) .nil)))
  · intro l l' k h h'
    dsimp only at h h'
    split at h <;> split at h' <;> simp_all
  · intro l k h
    dsimp only at h
    split at h
    · cases h; decide
    · cases h

theorem exDoc_good : GoodRefs (fun _ => true) true exDoc where
  refs := by
    intro b u hb hd
    have hb' : b = py! "http://e/y/" ∨ b = py! "../x/#" ∨ b = py! "//e/x/n#" ∨ b = py! "../a" := by
      simp [exDoc, docToks, TStmt.toks, NodeTok.toks, Pol.toks, VerbTok.toks, Objs.toks, Obj.toks, Coll.toks, LeafTok.toks] at hb
      exact hb
    have hu : 92 ∉ b → u = b := fun h => Except.ok.inj ((C88_denotes hd).symm.trans (C88_denotes (denotes_plain h)))
    rcases hb' with rfl | rfl | rfl | rfl
    · refine ⟨exDocBase, hu (by decide), .inl ⟨exDocBase_wf, ⟨_, rfl, .inr ⟨by decide, ⟨_, rfl, by decide⟩, by decide, by decide⟩⟩, rfl, by decide⟩⟩
    · exact ⟨exRelBase, hu (by decide), .inr (.inl exRelBase_good)⟩
    · exact ⟨exNs, hu (by decide), .inr (.inr exNs_good)⟩
    · exact ⟨exUp, hu (by decide), .inr (.inl exUp_good)⟩
  bases := by
    intro k b u hb hd
    simp [exDoc] at hb
    have hu : 92 ∉ b → u = b := fun h => Except.ok.inj ((C88_denotes hd).symm.trans (C88_denotes (denotes_plain h)))
    rcases hb with ⟨_, rfl⟩ | ⟨_, rfl⟩
    · exact ⟨exDocBase, hu (by decide), .inl ⟨⟨exDocBase_wf, ⟨_, rfl, .inr ⟨by decide, ⟨_, rfl, by decide⟩, by decide, by decide⟩⟩, rfl, by decide⟩, exDocBase_good⟩, fun _ => rfl⟩
    · exact ⟨exRelBase, hu (by decide), .inr (.inl exRelBase_good), by simp⟩
  empty := by
    intro _ b hb
    simp [exDoc, docToks, TStmt.toks, NodeTok.toks, Pol.toks, VerbTok.toks, Objs.toks, Obj.toks, Coll.toks, LeafTok.toks] at hb
    rcases hb with rfl | rfl | rfl | rfl <;> decide

theorem iriBody_of : ∀ {s : PStr}, (∀ c ∈ s, IriChar c) → IriBody s
  | [], _ => .nil
  | c :: s, h => .char (h c (by simp)).1 (h c (by simp)).2 (iriBody_of fun x hx => h x (by simp [hx]))

theorem exDoc_written : Plainly w3c (docToks exDoc) (py! "@base <http://e/y/> . @base <../x/#> . @prefix p: <//e/x/n#> . <../a> p:b ([ p:q \"\\n\" ] _:z) .") := by
  have hw : Ignorable w3c [32] := .white (.inl rfl) .nil
  have st : ∀ {r : PStr}, Stops (32 :: r) := by
    intro r c hc
    simp at hc
    subst hc
    simp [Spec.pnChars, Spec.pnCharsU, Spec.pnCharsBase, isAlpha, isDigitChar]
  have hp : PnPrefix (py! "p") := .inr ⟨112, [], rfl, .inl (by simp [isAlpha]), by simp [DotTail]⟩
  have hl : ∀ c, 96 < c ∧ c < 123 → PnLocal [c] := fun c hc =>
    .inr ⟨[c], [], rfl, .inl ⟨c, rfl, .inl (.inl (.inl (.inr (by omega))))⟩, [], rfl, by simp, by simp⟩
  refine .cons .nil .atBase trivial <| .cons hw (.ref (iriBody_of (by unfold IriChar; decide))) trivial <| .cons hw .dot ?_ <|
    .cons hw .atBase trivial <| .cons hw (.ref (iriBody_of (by unfold IriChar; decide))) trivial <| .cons hw .dot ?_ <| .cons hw .atPrefix trivial <|
    .cons hw (.ns hp) trivial <| .cons hw (.ref (iriBody_of (by unfold IriChar; decide))) trivial <| .cons hw .dot ?_ <|
    .cons hw (.ref (iriBody_of (by unfold IriChar; decide))) trivial <| .cons hw (.pname hp (hl 98 (by decide))) st <| .cons hw .lpar trivial <|
    .cons .nil .lbr ?_ <| .cons hw (.pname hp (hl 113 (by decide))) st <|
    .cons hw (.str (.inl rfl) (.esc (p := py! "\\n") (s := []) (.inl ⟨110, by decide, rfl⟩) .nil)) ⟨by decide, by decide⟩ <|
    .cons hw .rbr trivial <| .cons hw (.label (c := 122) (t := []) (.inl (.inl (.inl (.inr (by decide))))) ⟨by simp, by simp⟩) ?_ <| .cons .nil .rpar trivial <|
    .cons hw .dot ?_ (.nil (.inl .nil))
  · intro c h; simp at h; subst h; simp [isDigitChar]
  · intro c h; simp at h; subst h; simp [isDigitChar]
  · intro c h; simp at h; subst h; simp [isDigitChar]
  · intro u r' hu h
    cases u with
    | nil => simp at h
    | cons c u =>
      cases u with
      | nil => simp at h
      | cons d u =>
        have := hu d (by simp)
        simp only [List.cons_append, List.cons.injEq] at h
        rw [← h.2.1] at this
        simp [isWhite] at this
  · intro c hc
    simp at hc
    subst hc
    simp [Spec.pnChars, Spec.pnCharsU, Spec.pnCharsBase, isAlpha, isDigitChar]
  · intro c h; cases h

theorem crLf_of {s : PStr} (h : 13 ∉ s) : CrLf s := fun a b e => absurd (by rw [e]; simp) h

/-- Non-vacuity of `C125_partial`. -/
example : ∃ n ts', parseText (fun _ => true) [] 0 (py! "@base <http://e/y/> . @base <../x/#> . @prefix p: <//e/x/n#> . <../a> p:b ([ p:q \"\\n\" ] _:z) .") = .ok (n, ts') ∧
    Isomorphic [mkTriple (.named (py! "http://e/a")) (.named (py! "http://e/x/n#b")) (.bnode 1),
     mkTriple (.bnode 1) (.named (py! "http://www.w3.org/1999/02/22-rdf-syntax-ns#first")) (.bnode 2),
     mkTriple (.bnode 1) (.named (py! "http://www.w3.org/1999/02/22-rdf-syntax-ns#rest")) (.bnode 3),
     mkTriple (.bnode 2) (.named (py! "http://e/x/n#q")) (.lit [10] none (some (py! "http://www.w3.org/2001/XMLSchema#string"))),
     mkTriple (.bnode 3) (.named (py! "http://www.w3.org/1999/02/22-rdf-syntax-ns#first")) (.bnode 0),
     mkTriple (.bnode 3) (.named (py! "http://www.w3.org/1999/02/22-rdf-syntax-ns#rest")) (.named (py! "http://www.w3.org/1999/02/22-rdf-syntax-ns#nil"))] ts' :=
  C125_partial rfl 0 exDoc_written (crLf_of (by decide)) (by decide) (.inl rfl) exDoc_good exDoc_triples

/-- Non-vacuity of `C125_sound_partial`. -/
example : (∃ n ts, parseText (fun _ => true) exDocBase.text 0 (py! "<../a> <n#> 'x' .") = .ok (n, ts) ∧ ts =
      [mkTriple (.named (py! "http://e/a")) (.named (py! "http://e/y/n#")) (.lit (py! "x") none (some (py! "http://www.w3.org/2001/XMLSchema#string")))]) ∧
    CrLf (py! "<../a> <n#> 'x' .") ∧ NoFold (py! "<../a> <n#> 'x' .") ∧ GoodBase (fun _ => true) exDocBase :=
  ⟨⟨_, _, rfl, rfl⟩, crLf_of (by decide), by unfold NoFold; decide, exDocBase_good⟩

end Verif.Turtle
