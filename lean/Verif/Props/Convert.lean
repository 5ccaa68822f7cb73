import Verif.Props.TurtleNames
import Verif.Props.NTWrite
import Verif.Props.Settle
/-! C149: converting Turtle to N-Triples. -/
namespace Verif.Turtle
open Spec

/-! ### What can come out of the Turtle parser -/

/-- A literal of a Turtle document. -/
structure LitOk (v : PStr) (l d : Option PStr) : Prop where
  value : v.Valid
  lang : ∀ t, l = some t → LangWF t ∧ d = none
  dt : l = none → ∃ t, d = some t

/-- A term that may be an object. -/
def ObjOk (t : Term) : Prop := (∃ n, t = .named n) ∨ (∃ i, t = .bnode i) ∨ (∃ i, t = .gen i) ∨ ∃ v l d, t = .lit v l d ∧ LitOk v l d

def SubjOk (t : Term) : Prop := (∃ n, t = .named n) ∨ ∃ i, t = .bnode i

/-- A statement that may be read. -/
structure StmtOk (t : Stmt) : Prop where
  subj : SubjOk t.s
  pred : ∃ n, t.p = .named n
  obj : ObjOk t.o
  triple : t.g = none

theorem SubjOk.objOk {t : Term} (h : SubjOk t) : ObjOk t := h.elim .inl fun h => .inr (.inl h)

/-- What the tokens of a document of characters are. -/
structure TokOk (t : Tok) : Prop where
  str : ∀ b, t = .str b → ∀ v, decodeLiteral b = .ok v → v.Valid
  lang : ∀ l, t = .lang l → LangWF l
  num : ∀ k w, t = .num k w → w.Valid
  bool : ∀ w, t = .bool w → w.Valid

theorem langWF_parts {s : PStr} (h : LangParts s) : ∀ t, LangWF t → LangWF (t ++ s) := by
  induction h with
  | nil => intro t ht; simpa using ht
  | @part p s hp hc _ ih =>
    intro t ht
    have := ih (t ++ 0x2D :: p) (.sub ht hp fun c h => by
      rcases hc c h with h | h
      · exact .inl (by simpa [isLetter, isAlpha] using h)
      · exact .inr h)
    simpa using this

theorem langWF_of_tag {l : PStr} (h : LangTag l) : LangWF l := by
  obtain ⟨p, s, rfl, hp, hc, hs⟩ := h
  exact langWF_parts hs p (.primary hp fun c h => by simpa [isLetter, isAlpha] using hc c h)

theorem tokOk_of_text {D : Dialect} {t : Tok} {w : PStr} (h : TokText D t w) (hw : w.Valid) : TokOk t := by
  cases h with
  | str _ hb =>
    refine ⟨fun b e v hv => ?_, nofun, nofun, nofun⟩
    cases e
    exact ((hb.escaped.decode v).1 hv).valid fun c hc => hw c (by simp [hc])
  | long hq hb =>
    refine ⟨fun b e v hv => ?_, nofun, nofun, nofun⟩
    cases e
    exact (((hb.escaped (by rcases hq with rfl | rfl <;> decide)).decode v).1 hv).valid fun c hc => hw c (by simp [hc])
  | lang h => exact ⟨nofun, fun l e => by cases e; exact langWF_of_tag h, nofun, nofun⟩
  | num _ => exact ⟨nofun, nofun, fun k u e => by cases e; exact hw, nofun⟩
  | true => exact ⟨nofun, nofun, nofun, fun u e => by cases e; exact hw⟩
  | false => exact ⟨nofun, nofun, nofun, fun u e => by cases e; exact hw⟩
  | _ => exact ⟨nofun, nofun, nofun, nofun⟩

section
variable {nl : PStr → Bool} {E : Env}

theorem nodeIn_subj {x : NodeTok} {t : Term} {an : List Nat} (h : NodeIn nl E x t an) : SubjOk t := by
  cases h with
  | iri _ => exact .inl ⟨_, rfl⟩
  | label _ => exact .inr ⟨_, rfl⟩
  | anon _ => exact .inr ⟨_, rfl⟩

theorem verbIn_named {x : VerbTok} {t : Term} (h : VerbIn nl E x t) : ∃ n, t = .named n := by
  cases h <;> exact ⟨_, rfl⟩

theorem leafIn_obj {x : LeafTok} {t : Term} {an : List Nat} (h : LeafIn nl E x t an) (hx : ∀ k ∈ x.toks, TokOk k) : ObjOk t := by
  cases h with
  | node h => exact (nodeIn_subj h).objOk
  | str hd => exact .inr (.inr (.inr ⟨_, _, _, rfl, (hx _ (List.mem_cons_self ..)).str _ rfl _ hd, nofun, fun _ => ⟨_, rfl⟩⟩))
  | strLang hd =>
    exact .inr (.inr (.inr ⟨_, _, _, rfl, (hx _ (List.mem_cons_self ..)).str _ rfl _ hd, fun t e => by
      cases e; exact ⟨(hx (.lang _) (by simp [LeafTok.toks])).lang _ rfl, rfl⟩, nofun⟩))
  | strDt hd _ => exact .inr (.inr (.inr ⟨_, _, _, rfl, (hx _ (List.mem_cons_self ..)).str _ rfl _ hd, nofun, fun _ => ⟨_, rfl⟩⟩))
  | integer t => exact .inr (.inr (.inr ⟨_, _, _, rfl, (hx _ (List.mem_cons_self ..)).num _ _ rfl, nofun, fun _ => ⟨_, rfl⟩⟩))
  | decimal t => exact .inr (.inr (.inr ⟨_, _, _, rfl, (hx _ (List.mem_cons_self ..)).num _ _ rfl, nofun, fun _ => ⟨_, rfl⟩⟩))
  | double t => exact .inr (.inr (.inr ⟨_, _, _, rfl, (hx _ (List.mem_cons_self ..)).num _ _ rfl, nofun, fun _ => ⟨_, rfl⟩⟩))
  | bool t => exact .inr (.inr (.inr ⟨_, _, _, rfl, (hx _ (List.mem_cons_self ..)).bool _ rfl, nofun, fun _ => ⟨_, rfl⟩⟩))

theorem childTerm_obj {x : PObj} {x' : TObj} {an : List Nat} (h : ObjIn nl E x x' an) (hx : ∀ k ∈ x.toks, TokOk k) (n : Nat) : ObjOk (childTerm n x').2 := by
  cases h with
  | leaf h => exact leafIn_obj h hx
  | coll _ => exact .inr (.inr (.inl ⟨_, rfl⟩))
  | bnpl _ => exact .inr (.inr (.inl ⟨_, rfl⟩))

theorem genMany_ok {s v : Term} (hs : SubjOk s) (hv : ∃ n, v = .named n) : ∀ {x : PObjs} {x' : TObjs} {an : List Nat}, ObjsIn nl E x x' an → (∀ k ∈ x.toks, TokOk k) →
    ∀ n, ∀ t ∈ (genMany s v n x').2, StmtOk t
  | .one o, _, _, .one h, hx, n, t, ht => by
    rw [genMany, List.mem_singleton] at ht
    subst ht
    exact ⟨hs, hv, childTerm_obj h hx n, rfl⟩
  | .cons o os, _, _, .cons h h', hx, n, t, ht => by
    rw [genMany] at ht
    rcases List.mem_cons.1 ht with rfl | ht
    · exact ⟨hs, hv, childTerm_obj h (fun k hk => hx k (List.mem_append_left _ hk)) n, rfl⟩
    · exact genMany_ok hs hv h' (fun k hk => hx k (List.mem_append_right _ (List.mem_cons_of_mem _ hk))) _ t ht

mutual
theorem genObj_ok : ∀ (x : PObj) {x' : TObj} {an : List Nat}, ObjIn nl E x x' an → (∀ k ∈ x.toks, TokOk k) → ∀ n, (∀ t ∈ (genObj n x').2.1, StmtOk t) ∧ ObjOk (genObj n x').2.2
  | .leaf _, _, _, .leaf h, hx, n => ⟨fun t ht => (by cases ht), leafIn_obj h hx⟩
  | .coll c, _, _, .coll h, hx, n =>
    have := genColl_ok c h (fun k hk => hx k (List.mem_cons_of_mem _ hk)) n
    ⟨this.1, this.2.objOk⟩
  | .bnpl p, _, _, .bnpl h, hx, n =>
    ⟨genPol_ok (.inr ⟨_, rfl⟩) p h (fun k hk => hx k (List.mem_cons_of_mem _ (List.mem_append_left _ hk))) (n + 1), .inr (.inl ⟨_, rfl⟩)⟩
theorem genColl_ok : ∀ (x : PColl) {x' : TColl} {an : List Nat}, CollIn nl E x x' an → (∀ k ∈ x.toks, TokOk k) → ∀ n, (∀ t ∈ (genColl n x').2.1, StmtOk t) ∧ SubjOk (genColl n x').2.2
  | .nil, _, _, .nil, hx, n => ⟨fun t ht => (by cases ht), .inl ⟨_, rfl⟩⟩
  | .cons o c, _, _, .cons (o' := o') (c' := c') h h', hx, n => by
    have i1 := genColl_ok c h' (fun k hk => hx k (List.mem_append_right _ hk)) n
    have i2 := genObj_ok o h (fun k hk => hx k (List.mem_append_left _ hk)) ((genColl n c').1 + 1)
    refine ⟨fun t ht => ?_, .inr ⟨_, rfl⟩⟩
    have ht : t ∈ (genColl n c').2.1 ++ (genObj ((genColl n c').1 + 1) o').2.1 ++
      [mkTriple (.bnode (genColl n c').1) rdfFirst (genObj ((genColl n c').1 + 1) o').2.2, mkTriple (.bnode (genColl n c').1) rdfRest (genColl n c').2.2] := ht
    rcases List.mem_append.1 ht with ht | ht
    · rcases List.mem_append.1 ht with ht | ht
      · exact i1.1 t ht
      · exact i2.1 t ht
    · rcases List.mem_cons.1 ht with rfl | ht
      · exact ⟨.inr ⟨_, rfl⟩, ⟨_, rfl⟩, i2.2, rfl⟩
      · rw [List.mem_singleton] at ht
        subst ht
        exact ⟨.inr ⟨_, rfl⟩, ⟨_, rfl⟩, i1.2.objOk, rfl⟩
theorem genPol_ok {s : Term} (hs : SubjOk s) : ∀ (x : PPol) {x' : TPol} {an : List Nat}, PolIn nl E x x' an → (∀ k ∈ x.toks, TokOk k) → ∀ n, ∀ t ∈ (genPol s n x').2, StmtOk t
  | .last v os k, _, _, .last hv h, hx, n =>
    genObjs_ok hs (verbIn_named hv) os h (fun k hk => hx k (List.mem_append_left _ (List.mem_append_right _ hk))) n
  | .cons v os k p, _, _, .cons (v' := v') (os' := os') (p' := p') hv h h', hx, n => fun t ht => by
    have ht : t ∈ (genObjs s v' n os').2 ++ (genPol s (genObjs s v' n os').1 p').2 := ht
    rcases List.mem_append.1 ht with ht | ht
    · exact genObjs_ok hs (verbIn_named hv) os h (fun k hk => hx k (List.mem_append_left _ (List.mem_append_left _ (List.mem_append_right _ hk)))) n t ht
    · exact genPol_ok hs p h' (fun k hk => hx k (List.mem_append_right _ hk)) _ t ht
theorem genObjs_ok {s v : Term} (hs : SubjOk s) (hv : ∃ n, v = .named n) : ∀ (x : PObjs) {x' : TObjs} {an : List Nat}, ObjsIn nl E x x' an → (∀ k ∈ x.toks, TokOk k) →
    ∀ n, ∀ t ∈ (genObjs s v n x').2, StmtOk t
  | .one o, _, _, .one (o' := o') h, hx, n => fun t ht => by
    have i := genObj_ok o h hx n
    have ht : t ∈ (genObj n o').2.1 ++ [mkTriple s v (genObj n o').2.2] := ht
    rcases List.mem_append.1 ht with ht | ht
    · exact i.1 t ht
    · rw [List.mem_singleton] at ht
      subst ht
      exact ⟨hs, hv, i.2, rfl⟩
  | .cons o os, _, _, .cons h h', hx, n => fun t ht => genMany_ok hs hv (.cons h h') hx n t ht
end

theorem genStmt_ok {x : PTStmt} {e : EStmt} {an : List Nat} (h : StmtIn nl E x e an) (hx : ∀ k ∈ x.toks, TokOk k) (n : Nat) : ∀ t ∈ (genStmt n e).2, StmtOk t := by
  intro t ht
  cases h with
  | pre => cases ht
  | base => cases ht
  | node h h' => exact genPol_ok (nodeIn_subj h) _ h' (fun k hk => hx k (by simp [TStmt.toks, hk])) n t ht
  | @coll c c' a p p' b h h' =>
    have i := genColl_ok _ h (fun k hk => hx k (by simp [TStmt.toks, hk])) n
    have ht : t ∈ (genColl n c').2.1 ++ (genPol (genColl n c').2.2 (genColl n c').1 p').2 := ht
    rcases List.mem_append.1 ht with ht | ht
    · exact i.1 t ht
    · exact genPol_ok i.2 _ h' (fun k hk => hx k (by simp [TStmt.toks, hk])) _ t ht
  | bnpl h => exact genPol_ok (.inr ⟨_, rfl⟩) _ h (fun k hk => hx k (by simp [TStmt.toks, hk])) _ t ht
  | @bnplPol s s' a p p' b h h' =>
    have ht : t ∈ (genPol (.bnode n) (n + 1) s').2 ++ (genPol (.bnode n) (genPol (.bnode n) (n + 1) s').1 p').2 := ht
    rcases List.mem_append.1 ht with ht | ht
    · exact genPol_ok (.inr ⟨_, rfl⟩) _ h (fun k hk => hx k (by simp [TStmt.toks, hk])) _ t ht
    · exact genPol_ok (.inr ⟨_, rfl⟩) _ h' (fun k hk => hx k (by simp [TStmt.toks, hk])) _ t ht

theorem genStmts_ok {b0 : PStr} {p0 : PStr → Option PStr} {label : PStr → Option Nat} {pre ds : List PTStmt} {es : List EStmt} {an : List Nat}
    (h : DocIn nl b0 p0 label pre ds es an) : (∀ k ∈ docToks ds, TokOk k) → ∀ n, ∀ t ∈ (genStmts n es).2, StmtOk t := by
  induction h with
  | nil => intro _ n t ht; cases ht
  | @cons pre d ds e es a b base hb hs hd ih =>
    intro hx n t ht
    have ht : t ∈ (genStmt n e).2 ++ (genStmts (genStmt n e).1 es).2 := ht
    rcases List.mem_append.1 ht with ht | ht
    · exact genStmt_ok hs (fun k hk => hx k (by simp [docToks, hk])) n t ht
    · exact ih (fun k hk => hx k (by simp only [docToks, List.flatMap_cons, List.mem_append]; exact .inr hk)) _ t ht

end

theorem parseText_ok {nl : PStr → Bool} {base text : PStr} {next n : Nat} {ts : List Stmt} (hv : text.Valid) (h : parseText nl base next text = .ok (n, ts)) :
    ∀ t ∈ ts, StmtOk t := by
  unfold parseText at h
  split at h
  · cases h
  next ds e =>
  have hw := C95_exact e
  split at h
  · cases h
  next st es e2 =>
  obtain ⟨label, an, h2, _⟩ := C65_scope ds base next e2
  have h : genStmts st.bn.next es = (n, ts) := Except.ok.inj h
  have := genStmts_ok h2 (fun k hk => by
    obtain ⟨w, h3, u, v, h4⟩ := hw.tok _ hk
    exact tokOk_of_text h3 fun c hc => hv c (by rw [← h4]; simp [hc])) st.bn.next
  rwa [h] at this

/-- Characters of IRIs that are characters, and line feeds. -/
def IriOrLf (c : Nat) : Prop := (IriChar c ∨ c = 0x0A) ∧ c < 0x110000

theorem nameSet_code : NameSet IriOrLf where
  slash := ⟨.inl (by unfold IriChar; decide), by decide⟩
  semi := ⟨.inl (by unfold IriChar; decide), by decide⟩
  ask := ⟨.inl (by unfold IriChar; decide), by decide⟩
  hash := ⟨.inl (by unfold IriChar; decide), by decide⟩
  colon := ⟨.inl (by unfold IriChar; decide), by decide⟩
  lower c h := ⟨h.1.elim (fun h => .inl (asciiLower_iri h)) (fun h => .inr (by subst h; rfl)), by have := h.2; unfold asciiLower; split <;> omega⟩
  iri _ h := ⟨.inl h.1, h.2⟩
  lt := by rintro ⟨h | h, _⟩; exact h.2 (by decide); cases h

theorem parseText_code {nl : PStr → Bool} {base text : PStr} {next n : Nat} {ts : List Stmt} (hb : ∀ c ∈ base, IriChar c ∧ c < 0x110000) (hv : text.Valid)
    (h : parseText nl base next text = .ok (n, ts)) : ∀ t ∈ ts, ∀ i, StmtHasIri t i → ∀ c ∈ i, c < 0x110000 := by
  intro t ht i hi c hc
  refine (parseText_in nameSet_code (fun c hc => ⟨.inl (hb c hc).1, (hb c hc).2⟩) (fun ds e b hr s hs c hc => ?_) h t ht i hi c hc).2
  obtain ⟨h1, h2⟩ := decodeIriref_chars hs
  refine ⟨h2 c hc, ?_⟩
  obtain ⟨w, h3, u, v, h4⟩ := (C95_exact e).tok _ hr
  cases h3 with
  | ref hb => exact ((hb.escaped.decode s).1 h1).valid (fun c hc => hv c (by rw [← h4]; simp [hc])) c hc

end Verif.Turtle

namespace Verif

open NTTurtle (Writable WritableStmt)

/-! ### When what was written is read as N-Triples -/

/-- Specification: no language tag of the term has a digit from 1 to 8. -/
def Term.LangPlain : Term → Prop
  | .lit _ (some l) _ => ∀ c ∈ l, ¬ (49 ≤ c ∧ c ≤ 56)
  | _ => True

theorem writable_ntok {t : Term} (h : Writable t) (hr : (∃ n, t = .named n) ∨ (∃ i, t = .bnode i) ∨ ∃ v l d, t = .lit v l d) (hl : t.LangPlain) : NTOk t := by
  rcases hr with ⟨n, rfl⟩ | ⟨i, rfl⟩ | ⟨v, l, d, rfl⟩
  · exact h
  · trivial
  · refine ⟨h.1, ?_⟩
    rcases l with _ | (_ | ⟨a, b⟩)
    · exact fun x hx => h.2.2 x hx
    · exact fun x hx => h.2.2 x hx
    · rcases h.2.1 _ rfl with e | e
      · cases e
      · exact LangRead.ok ⟨e, hl⟩

/-- A line that is written and cannot be read. -/
theorem line_unread {t : Stmt} (hw : WritableStmt t) {v l : PStr} {dt : Option PStr} (ho : t.o = .lit v (some l) dt) {d : Nat} (hd : d ∈ l) (hdd : 49 ≤ d ∧ d ≤ 56) :
    ∃ w, tripleStr t = .ok (w ++ [10]) ∧ NoEol w ∧ skipWs w ≠ [] ∧ pLine false w = .error .unexpectedInput := by
  obtain ⟨hr, hs, hp, hwo⟩ := hw
  have ks : NTOk t.s := by
    rcases hr.subj with ⟨n, e⟩ | ⟨i, e⟩
    · exact writable_ntok hs (.inl ⟨n, e⟩) (by rw [e]; trivial)
    · exact writable_ntok hs (.inr (.inl ⟨i, e⟩)) (by rw [e]; trivial)
  have kp : NTOk t.p := by
    obtain ⟨n, e⟩ := hr.pred
    exact writable_ntok hp (.inl ⟨n, e⟩) (by rw [e]; trivial)
  obtain ⟨a, ha, ha'⟩ := ks.toNT
  obtain ⟨b, hb, hb'⟩ := kp.toNT
  rw [ho] at hwo
  have hl : LangWF l := by
    rcases hwo.2.1 l rfl with rfl | h
    · cases hd
    · exact h
  obtain ⟨⟨c, r, rfl, hc⟩, hch⟩ := hl.chars
  have hno : t.o.toNT = .ok ([34] ++ ntEscape v ++ [34] ++ [64] ++ (c :: r)) := by rw [ho]; rfl
  have hdr : d ∈ r := by
    rcases List.mem_cons.1 hd with rfl | h
    · simp only [isLetter, decide_eq_true_eq] at hc; omega
    · exact h
  have hne := langTail_digit (b := false) hdr hdd
  obtain ⟨y, hy⟩ := langTail_prefix r false
  cases y with
  | nil => rw [List.append_nil] at hy; exact absurd hy hne
  | cons x y =>
    have hx : x ∈ c :: r := List.mem_cons_of_mem _ (by rw [← hy]; simp)
    have hx' : isWs x = false ∧ x ≠ 46 := by
      rcases hch x hx with h | h | h
      · simp only [isLetter, decide_eq_true_eq] at h
        simp [isWs]; omega
      · simp [isWs]; omega
      · subst h; decide
    have hsuf : pSuffix (v.filter ntKept) (64 :: (c :: (r ++ 32 :: [46]))) = .ok (.lit (v.filter ntKept) (some (c :: langTail false r)) none, x :: (y ++ 32 :: [46])) := by
      simp only [pSuffix, skipWs_ne (show isWs 64 = false by decide), hc, if_true, langTail_stop (show langSub 32 = false by decide) (by decide)]
      rw [drop_local (langTail_prefix r false).length_le]
      congr 2
      have : r.drop (langTail false r).length = x :: y := by
        conv => lhs; arg 2; rw [← hy]
        simp
      rw [this]; rfl
    have hlit : NoEol (c :: r) := by
      intro z hz
      rcases hch z hz with h | h | h
      · simp only [isLetter, decide_eq_true_eq] at h
        simp [isEol]; omega
      · simp [isEol]; omega
      · subst h; decide
    have hesc : NoEol (ntEscape v) := by
      have k : NTOk (.lit v none none) := ⟨hwo.1, fun x hx => by cases hx⟩
      obtain ⟨w, h1, h2⟩ := k.toNT
      cases h1
      intro z hz
      exact h2 z (by simp [hz])
    refine ⟨a ++ 32 :: (b ++ 32 :: (34 :: (ntEscape v ++ 34 :: 64 :: (c :: (r ++ 32 :: [46]))))), ?_, ?_, ?_, ?_⟩
    · simp [tripleStr, ha, hb, hno, bind, Except.bind, pure, Except.pure]
    · simp only [NoEol.append, NoEol.cons] at hlit ⊢
      exact ⟨ha', by decide, hb', by decide, by decide, hesc, by decide, by decide, hlit.1, hlit.2, by decide, by decide, by simp [NoEol]⟩
    · exact skipWs_ne_nil (c := 46) (by simp) (by decide)
    · obtain ⟨n, hn⟩ := hr.pred
      have h2 : pIriRef (32 :: (b ++ 32 :: (34 :: (ntEscape v ++ 34 :: 64 :: (c :: (r ++ 32 :: [46]))))))
          = .ok (n.flatMap quote1, 32 :: (34 :: (ntEscape v ++ 34 :: 64 :: (c :: (r ++ 32 :: [46]))))) := by
        rw [hn] at hb kp
        simp only [Term.toNT, iriToNT_eq n kp] at hb
        cases hb
        have : ([60] ++ List.flatMap quote1 n ++ [62] ++ 32 :: (34 :: (ntEscape v ++ 34 :: 64 :: (c :: (r ++ 32 :: [46])))) : PStr)
          = 60 :: (n.flatMap quote1 ++ 62 :: 32 :: (34 :: (ntEscape v ++ 34 :: 64 :: (c :: (r ++ 32 :: [46]))))) := by simp
        rw [pIriRef_sp, this, pIriRef_keeps _ _ (quoted_keeps n kp)]
      have h3 : pObject (32 :: (34 :: (ntEscape v ++ 34 :: 64 :: (c :: (r ++ 32 :: [46]))))) = .ok (.lit (v.filter ntKept) (some (c :: langTail false r)) none, x :: (y ++ 32 :: [46])) := by
        rw [pObject_sp, pObject_lit v _ hwo.1, hsuf]
      simp only [pLine, pStmt, pSubject_toNT ks hr.subj ha, h2, h3, pGraph, Bool.false_eq_true, if_false, pDot, skipWs_ne hx'.1]
      split
      · next h =>
        split at h
        · next h' => simp only [List.cons.injEq] at h'; exact absurd h'.1 hx'.2
        · cases h; rfl
      · next h =>
        split at h
        · next h' => simp only [List.cons.injEq] at h'; exact absurd h'.1 hx'.2
        · cases h

/-- **Which graphs are read again as N-Triples**: those without digits from 1 to 8 in language tags; of the others nothing is read. -/
theorem C42_graph (ts : List Stmt) (h : ∀ t ∈ ts, WritableStmt t) :
    ∃ text, serializeNTriples ts = (text, .ok ()) ∧ StartsStmt text ∧
      ((∀ t ∈ ts, t.o.LangPlain) → pDoc false text = .ok (ts.map asReadStmt)) ∧
      ((∃ t ∈ ts, ¬ t.o.LangPlain) → pDoc false text = .error .unexpectedInput) := by
  induction ts with
  | nil => exact ⟨[], rfl, starts_nil, fun _ => rfl, fun ⟨t, ht, _⟩ => by cases ht⟩
  | cons t ts ih =>
    obtain ⟨text, h1, h2, h3, h4⟩ := ih fun x hx => h x (by simp [hx])
    have hw := h t (by simp)
    by_cases hl : t.o.LangPlain
    · have hok : t.NTOk := by
        refine ⟨?_, ?_, writable_ntok hw.2.2.2 hw.1.obj hl⟩
        · rcases hw.1.subj with ⟨n, e⟩ | ⟨i, e⟩
          · exact writable_ntok hw.2.1 (.inl ⟨n, e⟩) (by rw [e]; trivial)
          · exact writable_ntok hw.2.1 (.inr (.inl ⟨i, e⟩)) (by rw [e]; trivial)
        · obtain ⟨n, e⟩ := hw.1.pred
          exact writable_ntok hw.2.2.1 (.inl ⟨n, e⟩) (by rw [e]; trivial)
      obtain ⟨w, k1, k2, k3, k4⟩ := line_of_triple hw.1 hok
      have hd := pDoc_line false (es := []) (rest := text) k2 k3 (e := 10) (by decide) (by simp) h2
      rw [List.nil_append, k4] at hd
      refine ⟨w ++ 10 :: text, by simp [serializeNTriples, k1, h1], starts_of_line k2 k3 (by decide), fun ha => ?_, ?_⟩
      · rw [hd, h3 fun x hx => ha x (by simp [hx])]; rfl
      · rintro ⟨x, hx, hn⟩
        rcases List.mem_cons.1 hx with rfl | hx
        · exact absurd hl hn
        · rw [hd, h4 ⟨x, hx, hn⟩]; rfl
    · obtain ⟨v, l, d, e, c, hc, hcc⟩ : ∃ v l d, t.o = .lit v (some l) d ∧ ∃ c ∈ l, 49 ≤ c ∧ c ≤ 56 := by
        cases ho : t.o with
        | lit v l d =>
          rw [ho] at hl
          cases l with
          | none => exact absurd trivial hl
          | some l =>
            refine ⟨v, l, d, rfl, ?_⟩
            apply Classical.byContradiction
            intro hn
            exact hl fun c hc hcc => hn ⟨c, hc, hcc⟩
        | _ => rw [ho] at hl; exact absurd trivial hl
      obtain ⟨w, k1, k2, k3, k4⟩ := line_unread hw e hc hcc
      have hd := pDoc_line false (es := []) (rest := text) k2 k3 (e := 10) (by decide) (by simp) h2
      rw [List.nil_append, k4] at hd
      exact ⟨w ++ 10 :: text, by simp [serializeNTriples, k1, h1], starts_of_line k2 k3 (by decide), fun ha => absurd (ha t (by simp)) hl, fun _ => hd⟩

/-! ### C149: from Turtle to N-Triples -/

open Turtle Spec

/-- What a graph read from Turtle has in it. -/
theorem turtle_triples {nl : PStr → Bool} {base text : PStr} {next n : Nat} {g : Graph} (hb : ∀ c ∈ base, IriChar c ∧ c < 0x110000) (hv : text.Valid)
    (h : Turtle.parse Graph.add nl base next Graph.new (.str text) = (g, n, .ok ())) :
    ∀ t ∈ g.triples, StmtOk t ∧ t.s.Chars ∧ t.p.Chars ∧ t.o.Chars := by
  unfold Turtle.parse at h
  dsimp only at h
  split at h
  · cases h
  next n' ts e =>
  cases h
  intro t ht
  rw [foldl_add_eq, Graph.mem_addAll] at ht
  rcases ht with ht | ht
  · have hi := parseText_code hb hv e t ht
    have key : ∀ {x : Term}, (∀ i, TermHasIri x i → ∀ c ∈ i, c < 0x110000) → x.Chars := by
      intro x hx
      cases x with
      | named i => exact hx i (.inl rfl)
      | lit v l d =>
        cases d with
        | none => trivial
        | some d => exact hx d (.inr ⟨v, l, rfl⟩)
      | _ => trivial
    exact ⟨parseText_ok hv e t ht, key fun i h => hi i (.inl h), key fun i h => hi i (.inr (.inl h)), key fun i h => hi i (.inr (.inr h))⟩
  · cases ht

theorem Turtle.StmtOk.writable {t : Stmt} (h : StmtOk t) (hc : t.s.Chars ∧ t.p.Chars ∧ t.o.Chars) (hw : t.Writable) : WritableStmt t := by
  have named : ∀ {n : PStr}, (Term.named n).Chars → ¬ Unwritable (.named n) → ∀ c ∈ n, scalarValue c :=
    fun h1 h2 c hc => ⟨h1 c hc, fun hs => h2 (.iri hc hs.1 hs.2)⟩
  obtain ⟨c1, c2, c3⟩ := hc
  obtain ⟨w1, w2, w3⟩ := hw
  refine ⟨⟨h.subj, h.pred, ?_, h.triple⟩, ?_, ?_, ?_⟩
  · rcases h.obj with e | e | ⟨i, e⟩ | ⟨v, l, d, e, -⟩
    · exact .inl e
    · exact .inr (.inl e)
    · rw [e] at w3; exact absurd (.gen i) w3
    · exact .inr (.inr ⟨v, l, d, e⟩)
  · rcases h.subj with ⟨n, e⟩ | ⟨i, e⟩
    · rw [e] at c1 w1 ⊢; exact named c1 w1
    · rw [e]; trivial
  · obtain ⟨n, e⟩ := h.pred
    rw [e] at c2 w2 ⊢; exact named c2 w2
  · rcases h.obj with ⟨n, e⟩ | ⟨i, e⟩ | ⟨i, e⟩ | ⟨v, l, d, e, k⟩
    · rw [e] at c3 w3 ⊢; exact named c3 w3
    · rw [e]; trivial
    · rw [e] at w3; exact absurd (.gen i) w3
    · rw [e] at c3 w3 ⊢
      refine ⟨k.value, fun t ht => .inr (k.lang t ht).1, fun x hx c hc => ?_⟩
      subst hx
      refine ⟨c3 c hc, fun hs => w3 (.dt (.inl ?_) hc hs.1 hs.2)⟩
      cases l with
      | none => rfl
      | some t => exact absurd (k.lang t rfl).2 (by simp)

/-- **C149 (full statement)**: whatever was read from Turtle can be written as N-Triples and read again, and is the same graph. -/
def C149_statement : Prop := ∀ (nl : PStr → Bool) (base text : PStr) (next next' n : Nat) (g : Graph) (ord : List Stmt → List Stmt),
  (∀ c ∈ base, IriChar c ∧ c < 0x110000) → text.Valid → IsOrder ord → Turtle.parse Graph.add nl base next Graph.new (.str text) = (g, n, .ok ()) →
  ∃ out g' n' f, serializeNTriples (g.iter ord) = (out, .ok ()) ∧ parseString Graph.add false next' out Graph.new = (g', n', .ok ()) ∧
    (∀ t ∈ g.triples, ∀ t' ∈ g.triples, ∀ i j, t.HasBnode i → t'.HasBnode j → f i = f j → i = j) ∧ ∀ x, x ∈ g'.triples ↔ ∃ t ∈ g.triples, x = t.rename f

section
variable {nl : PStr → Bool} {base text : PStr} {next n : Nat} {g : Graph} {ord : List Stmt → List Stmt}

/-- **When it is written**: if no object is the generator that a list or a node in brackets leaves and no IRI has a surrogate. -/
theorem C149_written (hb : ∀ c ∈ base, IriChar c ∧ c < 0x110000) (hv : text.Valid) (hord : IsOrder ord)
    (h : Turtle.parse Graph.add nl base next Graph.new (.str text) = (g, n, .ok ())) :
    (∃ out, serializeNTriples (g.iter ord) = (out, .ok ())) ↔ ∀ t ∈ g.triples, t.Writable := by
  have hmem : ∀ t, t ∈ g.iter ord ↔ t ∈ g.triples := fun t => (hord g.triples).mem_iff
  have ht := turtle_triples hb hv h
  constructor
  · rintro ⟨out, ho⟩ t hm
    by_contra hn
    exact serialize_unwritable (ht t hm).2 hn ((hmem t).2 hm) out ho
  · intro hw
    obtain ⟨out, h1, _⟩ := C42_graph (g.iter ord) fun t hm => (ht t ((hmem t).1 hm)).1.writable (ht t ((hmem t).1 hm)).2 (hw t ((hmem t).1 hm))
    exact ⟨out, h1⟩

/-- **What was written is a Turtle document**: reading it as Turtle always succeeds, and this is what is read. -/
theorem C149_turtle (hb : ∀ c ∈ base, IriChar c ∧ c < 0x110000) (hv : text.Valid) (hord : IsOrder ord)
    (h : Turtle.parse Graph.add nl base next Graph.new (.str text) = (g, n, .ok ())) {out : PStr} (hw : serializeNTriples (g.iter ord) = (out, .ok ()))
    (nl' : PStr → Bool) (next' : Nat) :
    ∃ g' n' f, Turtle.parse Graph.add nl' [] next' Graph.new (.str out) = (g', n', .ok ()) ∧
      (∀ t ∈ g.triples, ∀ t' ∈ g.triples, ∀ i j, t.HasBnode i → t'.HasBnode j → f i = f j → i = j) ∧
      ∀ x, x ∈ g'.triples ↔ ∃ t ∈ g.triples, x = NTTurtle.typedStmt (t.survive f) := by
  have ht := turtle_triples hb hv h
  have hW := (C149_written hb hv hord h).1 ⟨out, hw⟩
  obtain ⟨out', g', n', f, h1, h2, h3, _, h5⟩ := NTTurtle.C112_exact g ord hord (fun t hm => (ht t hm).1.writable (ht t hm).2 (hW t hm)) nl' next'
  rw [hw] at h1
  cases h1
  exact ⟨g', n', f, h2, h3, h5⟩

/-- **When it is read as N-Triples**: exactly if no language tag has a digit from 1 to 8. -/
theorem C149_reads (hb : ∀ c ∈ base, IriChar c ∧ c < 0x110000) (hv : text.Valid) (hord : IsOrder ord)
    (h : Turtle.parse Graph.add nl base next Graph.new (.str text) = (g, n, .ok ())) {out : PStr} (hw : serializeNTriples (g.iter ord) = (out, .ok ()))
    (next' : Nat) : (∃ g' n', parseString Graph.add false next' out Graph.new = (g', n', .ok ())) ↔ ∀ t ∈ g.triples, t.o.LangPlain := by
  have hmem : ∀ t, t ∈ g.iter ord ↔ t ∈ g.triples := fun t => (hord g.triples).mem_iff
  have ht := turtle_triples hb hv h
  have hW := (C149_written hb hv hord h).1 ⟨out, hw⟩
  obtain ⟨out', h1, _, h3, h4⟩ := C42_graph (g.iter ord) fun t hm => (ht t ((hmem t).1 hm)).1.writable (ht t ((hmem t).1 hm)).2 (hW t ((hmem t).1 hm))
  rw [hw] at h1
  cases h1
  constructor
  · rintro ⟨g', n', hp⟩ t hm
    by_contra hn
    rw [parseString, h4 ⟨t, (hmem t).2 hm, hn⟩] at hp
    cases hp
  · intro hl
    rw [parseString, h3 fun t hm => hl t ((hmem t).1 hm)]
    exact ⟨_, _, rfl⟩

/-- **What is read**, and that further saving and loading changes nothing. -/
theorem C149_exact (hb : ∀ c ∈ base, IriChar c ∧ c < 0x110000) (hv : text.Valid) (hord : IsOrder ord)
    (h : Turtle.parse Graph.add nl base next Graph.new (.str text) = (g, n, .ok ())) (hw : ∀ t ∈ g.triples, t.Writable) (hl : ∀ t ∈ g.triples, t.o.LangPlain)
    (next' : Nat) :
    ∃ out g' n' f, serializeNTriples (g.iter ord) = (out, .ok ()) ∧ parseString Graph.add false next' out Graph.new = (g', n', .ok ()) ∧
      (∀ t ∈ g.triples, ∀ t' ∈ g.triples, ∀ i j, t.HasBnode i → t'.HasBnode j → f i = f j → i = j) ∧
      (∀ x, x ∈ g'.triples ↔ ∃ t ∈ g.triples, x = t.survive f) ∧ Settled g' := by
  have hmem : ∀ t, t ∈ g.iter ord ↔ t ∈ g.triples := fun t => (hord g.triples).mem_iff
  have ht := turtle_triples hb hv h
  have hok : ∀ t ∈ g.iter ord, t.IsRdf ∧ t.NTOk := by
    intro t hm
    have hm := (hmem t).1 hm
    have hW := (ht t hm).1.writable (ht t hm).2 (hw t hm)
    refine ⟨hW.1, ?_, ?_, writable_ntok hW.2.2.2 hW.1.obj (hl t hm)⟩
    · rcases hW.1.subj with ⟨n, e⟩ | ⟨i, e⟩
      · exact writable_ntok hW.2.1 (.inl ⟨n, e⟩) (by rw [e]; trivial)
      · exact writable_ntok hW.2.1 (.inr (.inl ⟨i, e⟩)) (by rw [e]; trivial)
    · obtain ⟨n, e⟩ := hW.1.pred
      exact writable_ntok hW.2.2.1 (.inl ⟨n, e⟩) (by rw [e]; trivial)
  obtain ⟨out, g', n', f, h1, h2, h3, _, h5⟩ := lines_read_ntok (g.iter ord) hok next'
  obtain ⟨out', g1, n1, k1, k2, k3⟩ := settled_of_lines (g.iter ord) hok next'
  rw [h1] at k1
  cases k1
  rw [h2] at k2
  cases k2
  refine ⟨out, g', n', f, h1, h2, fun t hm t' hm' => h3 t ((hmem t).2 hm) t' ((hmem t').2 hm'), fun x => ?_, k3⟩
  rw [h5]
  constructor
  · rintro ⟨t, ht, e⟩; exact ⟨t, (hmem t).1 ht, e⟩
  · rintro ⟨t, ht, e⟩; exact ⟨t, (hmem t).2 ht, e⟩

/-- **C149, proved part**: with ASCII IRIs, no list or node in brackets beside other objects and no digits in language tags, the same graph is read.
    What is missing: documents with other IRIs, with control characters in literals, with digits from 1 to 8 in language tags, or in which a list or a node in brackets is one of several objects. -/
theorem C149_partial (hb : ∀ c ∈ base, IriChar c ∧ c < 0x110000) (hv : text.Valid) (hord : IsOrder ord)
    (h : Turtle.parse Graph.add nl base next Graph.new (.str text) = (g, n, .ok ()))
    (hi : ∀ t ∈ g.triples, ∀ i, StmtHasIri t i → i ≠ [] ∧ ∀ c ∈ i, uriChar c) (hg : ∀ t ∈ g.triples, ∀ k, t.o ≠ .gen k)
    (hl : ∀ t ∈ g.triples, ∀ v l d, t.o = .lit v l d → (∀ c ∈ v, ntKept c = true) ∧ ∀ x, l = some x → ∀ c ∈ x, ¬ (49 ≤ c ∧ c ≤ 56)) (next' : Nat) :
    ∃ out g' n' f, serializeNTriples (g.iter ord) = (out, .ok ()) ∧ parseString Graph.add false next' out Graph.new = (g', n', .ok ()) ∧
      (∀ t ∈ g.triples, ∀ t' ∈ g.triples, ∀ i j, t.HasBnode i → t'.HasBnode j → f i = f j → i = j) ∧ ∀ x, x ∈ g'.triples ↔ ∃ t ∈ g.triples, x = t.rename f := by
  have ht := turtle_triples hb hv h
  have small : ∀ c, uriChar c → ¬ (0xD800 ≤ c ∧ c ≤ 0xDFFF) := by
    intro c hc hd
    have k : ∀ x ∈ py! "-._~" ++ py! ":/?#[]@" ++ py! "!$&'()*+,;=", x < 128 := by decide
    rcases hc with h | h | h | h | h | h | h
    · omega
    · omega
    · omega
    · have := k c (by simp only [List.mem_append]; exact .inl (.inl h)); omega
    · have := k c (by simp only [List.mem_append]; exact .inl (.inr h)); omega
    · have := k c (by simp only [List.mem_append]; exact .inr h); omega
    · omega
  have surv : ∀ t ∈ g.triples, NTTurtle.Survives t.s ∧ NTTurtle.Survives t.p ∧ NTTurtle.Survives t.o := by
    intro t hm
    refine ⟨?_, ?_, ?_⟩
    · rcases (ht t hm).1.subj with ⟨n, e⟩ | ⟨i, e⟩
      · have := (hi t hm n (.inl (.inl e))).2
        rw [e]; exact this
      · rw [e]; trivial
    · obtain ⟨n, e⟩ := (ht t hm).1.pred
      have := (hi t hm n (.inr (.inl (.inl e)))).2
      rw [e]; exact this
    · rcases (ht t hm).1.obj with ⟨n, e⟩ | ⟨i, e⟩ | ⟨i, e⟩ | ⟨v, l, d, e, k⟩
      · have := (hi t hm n (.inr (.inr (.inl e)))).2
        rw [e]; exact this
      · rw [e]; trivial
      · exact absurd e (hg t hm i)
      · have h1 := hl t hm v l d e
        have h2 : ∀ x, d = some x → x ≠ [] ∧ ∀ c ∈ x, uriChar c := fun x hx => hi t hm x (.inr (.inr (.inr ⟨v, l, by rw [e, hx]⟩)))
        rw [e]
        exact ⟨k.value, h1.1, k.lang, h2⟩
  have hw : ∀ t ∈ g.triples, t.Writable := by
    have key : ∀ {x : Term}, (∀ i, TermHasIri x i → ∀ c ∈ i, uriChar c) → (∀ k, x ≠ .gen k) → x ≠ .none → ¬ Unwritable x := by
      intro x h1 h2 h3 hu
      cases hu with
      | none => exact h3 rfl
      | gen k => exact h2 k rfl
      | iri hc h4 h5 => exact small _ (h1 _ (.inl rfl) _ hc) ⟨h4, h5⟩
      | dt _ hc h4 h5 => exact small _ (h1 _ (.inr ⟨_, _, rfl⟩) _ hc) ⟨h4, h5⟩
    intro t hm
    have ho := (ht t hm).1
    refine ⟨key (fun i h => (hi t hm i (.inl h)).2) ?_ ?_, key (fun i h => (hi t hm i (.inr (.inl h))).2) ?_ ?_, key (fun i h => (hi t hm i (.inr (.inr h))).2) (hg t hm) ?_⟩
    · intro k e'; rcases ho.subj with ⟨n, e⟩ | ⟨i, e⟩ <;> rw [e] at e' <;> cases e'
    · intro e'; rcases ho.subj with ⟨n, e⟩ | ⟨i, e⟩ <;> rw [e] at e' <;> cases e'
    · intro k e'; obtain ⟨n, e⟩ := ho.pred; rw [e] at e'; cases e'
    · intro e'; obtain ⟨n, e⟩ := ho.pred; rw [e] at e'; cases e'
    · intro e'; rcases ho.obj with ⟨n, e⟩ | ⟨i, e⟩ | ⟨i, e⟩ | ⟨v, l, d, e, k⟩ <;> rw [e] at e' <;> cases e'
  have hp : ∀ t ∈ g.triples, t.o.LangPlain := by
    intro t hm
    cases e : t.o with
    | lit v l d =>
      cases l with
      | none => trivial
      | some l => exact (hl t hm v _ d e).2 l rfl
    | _ => trivial
  obtain ⟨out, g', n', f, h1, h2, h3, h4, _⟩ := C149_exact hb hv hord h hw hp next'
  have eq : ∀ t ∈ g.triples, t.survive f = t.rename f := by
    intro t hm
    obtain ⟨a, b, c⟩ := surv t hm
    unfold Stmt.survive Stmt.rename
    rw [(a.survive f).1, (b.survive f).1, (c.survive f).1, (ht t hm).1.triple]
    rfl
  refine ⟨out, g', n', f, h1, h2, h3, fun x => ?_⟩
  rw [h4]
  constructor
  · rintro ⟨t, hm, rfl⟩; exact ⟨t, hm, eq t hm⟩
  · rintro ⟨t, hm, rfl⟩; exact ⟨t, hm, (eq t hm).symm⟩
end

/-! ### Documents for which it fails, and one for which it does not -/

/-- A list beside another object. -/
def listDoc : PStr := py! "<s> <p> <o>, (1) ."
def listGraph : Graph := (Turtle.parse Graph.add (fun _ => true) [] 0 Graph.new (.str listDoc)).1
def tagDoc : PStr := py! "<s> <p> \"x\"@de-1996 ."
def tagGraph : Graph := (Turtle.parse Graph.add (fun _ => true) [] 0 Graph.new (.str tagDoc)).1
def accentDoc : PStr := py! "<s> <p> <" ++ [233] ++ py! "> ."
def accentGraph : Graph := (Turtle.parse Graph.add (fun _ => true) [] 0 Graph.new (.str accentDoc)).1

theorem listGraph_read : Turtle.parse Graph.add (fun _ => true) [] 0 Graph.new (.str listDoc) = (listGraph, 1, .ok ()) := rfl
theorem tagGraph_read : Turtle.parse Graph.add (fun _ => true) [] 0 Graph.new (.str tagDoc) = (tagGraph, 0, .ok ()) := rfl
theorem accentGraph_read : Turtle.parse Graph.add (fun _ => true) [] 0 Graph.new (.str accentDoc) = (accentGraph, 0, .ok ()) := rfl

theorem tagGraph_triples : tagGraph.triples = [mkTriple (.named (py! "s")) (.named (py! "p")) (.lit (py! "x") (some (py! "de-1996")) Option.none)] := rfl
theorem accentGraph_triples : accentGraph.triples = [mkTriple (.named (py! "s")) (.named (py! "p")) (.named [233])] := rfl

/-- Writing raises AttributeError for the list. -/
theorem C149_list_unwritable : (serializeNTriples (listGraph.iter id)).2 = .error .attributeError := rfl

theorem C149_refuted : ¬ C149_statement := by
  intro h
  obtain ⟨out, _, _, _, h1, _⟩ := h (fun _ => true) [] listDoc 0 0 1 listGraph id nofun (by unfold PStr.Valid; decide) (fun _ => .refl _) listGraph_read
  have := C149_list_unwritable
  rw [h1] at this
  cases this

/-- A language tag with a digit is written and cannot be read as N-Triples. -/
theorem C149_tag_unread : ∃ out, serializeNTriples (tagGraph.iter id) = (out, .ok ()) ∧ parseString Graph.add false 0 out Graph.new = (Graph.new, 0, .error .unexpectedInput) :=
  ⟨py! "<s> <p> \"x\"@de-1996 .\n", rfl, rfl⟩

/-- An IRI beyond ASCII is another one afterwards. -/
theorem C149_accent_changes : ∃ out g' n', serializeNTriples (accentGraph.iter id) = (out, .ok ()) ∧ parseString Graph.add false 0 out Graph.new = (g', n', .ok ()) ∧
    g'.triples = [mkTriple (.named (py! "s")) (.named (py! "p")) (.named (py! "%C3%A9"))] :=
  ⟨py! "<s> <p> <%C3%A9> .\n", _, _, rfl, rfl, rfl⟩

def goodDoc : PStr := py! "@prefix a: <http://a/> . a:s a:p 1 ; a:p [ a:q \"x\"@en ] ."
def goodGraph : Graph := (Turtle.parse Graph.add (fun _ => true) [] 0 Graph.new (.str goodDoc)).1
theorem goodGraph_read : Turtle.parse Graph.add (fun _ => true) [] 0 Graph.new (.str goodDoc) = (goodGraph, 1, .ok ()) := rfl
theorem goodGraph_triples : goodGraph.triples =
    [mkTriple (.named (py! "http://a/s")) (.named (py! "http://a/p")) (.lit (py! "1") Option.none (some (py! "http://www.w3.org/2001/XMLSchema#integer"))),
     mkTriple (.bnode 0) (.named (py! "http://a/q")) (.lit (py! "x") (some (py! "en")) Option.none),
     mkTriple (.named (py! "http://a/s")) (.named (py! "http://a/p")) (.bnode 0)] := rfl

/-- The hypotheses of `C149_partial` are met by it: a blank node, a language tag, a number, prefixed names. -/
example : ∃ out g' n' f, serializeNTriples (goodGraph.iter id) = (out, .ok ()) ∧ parseString Graph.add false 7 out Graph.new = (g', n', .ok ()) ∧
    (∀ t ∈ goodGraph.triples, ∀ t' ∈ goodGraph.triples, ∀ i j, t.HasBnode i → t'.HasBnode j → f i = f j → i = j) ∧
    ∀ x, x ∈ g'.triples ↔ ∃ t ∈ goodGraph.triples, x = t.rename f := by
  refine C149_partial (base := []) nofun (by unfold PStr.Valid; decide) (fun _ => .refl _) goodGraph_read ?_ ?_ ?_ 7
  · intro t ht i hi
    rw [goodGraph_triples] at ht
    simp only [List.mem_cons, List.not_mem_nil, or_false] at ht
    rcases ht with rfl | rfl | rfl <;> rcases hi with (hi | ⟨_, _, hi⟩) | (hi | ⟨_, _, hi⟩) | hi | ⟨_, _, hi⟩ <;> cases hi <;>
      exact ⟨by decide, by unfold uriChar; decide⟩
  · intro t ht k
    rw [goodGraph_triples] at ht
    simp only [List.mem_cons, List.not_mem_nil, or_false] at ht
    rcases ht with rfl | rfl | rfl <;> simp [mkTriple]
  · intro t ht v l d e
    rw [goodGraph_triples] at ht
    simp only [List.mem_cons, List.not_mem_nil, or_false] at ht
    rcases ht with rfl | rfl | rfl <;> cases e
    · exact ⟨by decide, fun x hx => by cases hx⟩
    · exact ⟨by decide, fun x hx => by cases hx; decide⟩

end Verif
