import Verif.Spec.NTTurtle
import Verif.Props.NTGrammar
import Verif.Props.TurtleLex
import Verif.Props.TurtleTerm
import Verif.Props.UrlJoin
import Verif.Props.Decode
/-
N-Triples documents are sequences of Turtle tokens, and what the Turtle reader makes of them.
-/
namespace Verif.NTTurtle
open NTSpec Turtle Verif.Spec

/-! ### Trees -/

inductive NodeRel : RTerm → NodeTok → Prop
  | iri {b v} : decodeLiteral b = .ok v → NodeRel (.iri v) (.iri (.ref b))
  | label {l} : NodeRel (.label l) (.label l)

inductive ObjRel : RTerm → LeafTok → Prop
  | node {t n} : NodeRel t n → ObjRel t (.node n)
  | plain {b v} : decodeLiteral b = .ok v → ObjRel (.lit v none none) (.str b)
  | typed {b v d w} : decodeLiteral b = .ok v → decodeLiteral d = .ok w → ObjRel (.lit v none (some w)) (.strDt b (.ref d))
  | lang {b v l} : decodeLiteral b = .ok v → ObjRel (.lit v (some l) none) (.strLang b l)

inductive StmtRel : RStmt → PTStmt → Prop
  | mk {a n p b o l} : NodeRel a n → decodeLiteral b = .ok p → ObjRel o l →
      StmtRel { s := a, p := .iri p, o := o } (.node n (.last (.iri (.ref b)) (.one (.leaf l)) 0))

inductive DocRel : List RStmt → List PTStmt → Prop
  | nil : DocRel [] []
  | cons {t d ts ds} : StmtRel t d → DocRel ts ds → DocRel (t :: ts) (d :: ds)

/-! ### Texts -/

theorem Plainly.ign {T : Turtle.Spec.Dialect} {ts : List Tok} {r u : PStr} (hu : Turtle.Spec.Ignorable T u) (h : Turtle.Spec.Plainly T ts r) :
    Turtle.Spec.Plainly T ts (u ++ r) := by
  have app : ∀ {v : PStr}, Turtle.Spec.Ignorable T v → Turtle.Spec.Ignorable T (u ++ v) := by
    intro v hv
    induction hu with
    | nil => exact hv
    | white hc _ ih => exact .white hc ih
    | comment ht hc _ ih => rw [List.cons_append, List.append_assoc]; exact .comment ht hc ih
  cases h with
  | nil h =>
    refine .nil ?_
    rcases h with h | ⟨v, t, rfl, h1, h2⟩
    · exact .inl (app h)
    · exact .inr ⟨u ++ v, t, by simp, app h1, h2⟩
  | cons h1 h2 h3 h4 => rw [← List.append_assoc]; exact .cons (app h1) h2 h3 h4

theorem ign_ws {T : Turtle.Spec.Dialect} {w : PStr} (h : Ws w) : Turtle.Spec.Ignorable T w := by
  induction w with
  | nil => exact .nil
  | cons c w ih => exact .white ((h c (by simp)).elim .inl fun h => .inr (.inl h)) (ih fun x hx => h x (by simp [hx]))

theorem hexDigit_char {c d : Nat} (h : HexDigit c d) : Turtle.Spec.isHexChar c := by
  cases h <;> simp only [Turtle.Spec.isHexChar, Turtle.Spec.isDigitChar] <;> omega

theorem hexNumber_chars {n v : Nat} {h : PStr} (hh : HexNumber n h v) : h.length = n ∧ ∀ c ∈ h, Turtle.Spec.isHexChar c := by
  induction hh with
  | nil => simp
  | cons hd _ ih => exact ⟨by simp [ih.1], by simpa using ⟨hexDigit_char hd, ih.2⟩⟩

theorem iriBody {D : Dialect} (hD : ¬ D.gaps) {b v : PStr} (h : NTSpec.IriBody D b v) : Turtle.Spec.IriBody b ∧ Denotes b v := by
  induction h with
  | nil => exact ⟨.nil, .nil⟩
  | char h1 h2 _ ih => exact ⟨.char h1 h2 ih.1, .plain (by rintro rfl; exact h2 (by decide)) ih.2⟩
  | uchar4 h _ ih =>
    obtain ⟨h1, h2⟩ := hexNumber_chars h
    exact ⟨.uchar (.u4 h1 h2) ih.1, .uchar4 h ih.2⟩
  | uchar8 h hc _ ih =>
    obtain ⟨h1, h2⟩ := hexNumber_chars h
    exact ⟨.uchar (.u8 h1 h2) ih.1, .uchar8 h hc ih.2⟩
  | gap h => exact absurd h hD

theorem decode_of_denotes {b v : PStr} (h : Denotes b v) : decodeLiteral b = .ok v := by
  have := decodeLiteral_denotes_append h []
  rw [List.append_nil] at this
  rw [this]
  show Except.ok (v ++ []) = _
  rw [List.append_nil]

theorem isHex_char {c : Nat} (h : isHex c = true) : Turtle.Spec.isHexChar c := by
  simp only [isHex, hexVal?] at h
  simp only [Turtle.Spec.isHexChar, Turtle.Spec.isDigitChar]
  split at h
  · omega
  · split at h
    · omega
    · split at h
      · omega
      · cases h

theorem strBody {b : PStr} (h : NTBody b) : Turtle.Spec.StrBody 0x22 b := by
  induction h with
  | nil => exact .nil
  | plain h1 h2 h3 h4 _ ih => exact .char h1 h2 h3 h4 ih
  | @echar c s h _ ih => exact .esc (p := [0x5C, c]) (.inl ⟨c, h, rfl⟩) ih
  | uchar4 h1 h2 _ ih => exact .esc (.inr (.u4 h1 fun c hc => isHex_char (h2 c hc))) ih
  | uchar8 h1 h2 _ ih => exact .esc (.inr (.u8 h1 fun c hc => isHex_char (h2 c hc))) ih

theorem langParts {D : Dialect} (hD : ∀ c, D.langChar c → NTSpec.isAlpha c ∨ NTSpec.isDigitChar c) {s : PStr} (h : NTSpec.LangParts D s) : Turtle.Spec.LangParts s := by
  induction h with
  | nil => exact .nil
  | part h1 h2 _ ih => exact .part h1 (fun c hc => hD c (h2 c hc)) ih

theorem langTag {s : PStr} {C : Prop} (h : NTSpec.LangTok (turtle C) s) : Turtle.Spec.LangTag s := by
  obtain ⟨p, s, rfl, h1, h2, h3⟩ := h
  exact ⟨p, s, rfl, h1, h2, langParts (fun _ h => h) h3⟩

variable {T : Turtle.Spec.Dialect} {C : Prop}

/-- After a label or a language tag. -/
theorem stops_of_after {D : Dialect} (hD : ¬ D.bnodeGraph) {r : PStr} (h : After D r) : Turtle.Spec.Stops r := by
  have key : ∀ c, (c = 0x20 ∨ c = 0x09 ∨ c = 0x23 ∨ isEolChar c ∨ c = 0x3C) → ¬ Turtle.Spec.pnChars c ∧ c ≠ 0x3A ∧ c ≠ 0x25 ∧ c ≠ 0x5C := by
    intro c h
    simp only [Turtle.Spec.pnChars, Turtle.Spec.pnCharsU, Turtle.Spec.pnCharsBase, Turtle.Spec.isAlpha, Turtle.Spec.isDigitChar, isEolChar] at h ⊢
    omega
  have one : ∀ c t, (c = 0x20 ∨ c = 0x09 ∨ c = 0x23 ∨ isEolChar c ∨ c = 0x3C) → Turtle.Spec.Stops (c :: t) := by
    intro c t h d hd
    have hc : c ≠ 0x2E := by simp only [isEolChar] at h; omega
    rw [List.dropWhile_cons_of_neg (by simpa using hc)] at hd
    simp only [List.head?_cons, Option.some.injEq] at hd
    exact hd ▸ key c h
  obtain ⟨c, t, rfl, hc⟩ := h
  rcases hc with hc | hc | hc | ⟨rfl, ht⟩ | ⟨h, _⟩
  · exact one c t (by simp [hc])
  · exact one c t (by simp [hc])
  · exact one c t (by simp [hc])
  · intro d hd
    rw [List.dropWhile_cons_of_pos (by simp)] at hd
    rcases ht with rfl | ⟨c, u, rfl, h⟩
    · simp at hd
    · exact one c u (by rcases h with h | h | h | h <;> simp [h]) d hd
  · exact absurd h hD

theorem iri_text {s v r : PStr} (h : NTSpec.Iri (turtle C) s v r) :
    ∃ b, decodeLiteral b = .ok v ∧ ∀ ts, Turtle.Spec.Plainly T ts r → Turtle.Spec.Plainly T (.iri (.ref b) :: ts) s := by
  obtain ⟨hw, hb⟩ := h
  next w b =>
  obtain ⟨h1, h2⟩ := iriBody (fun h => h) hb
  refine ⟨b, decode_of_denotes h2, fun ts hr => ?_⟩
  have := Turtle.Spec.Plainly.cons (D := T) (ign_ws hw) (.ref h1) trivial hr
  simpa using this

theorem node_text {s r : PStr} {a : RTerm} (h : NTSpec.Node (turtle C) s a r) (hr : After (turtle C) r) :
    ∃ n, NodeRel a n ∧ ∀ ts, Turtle.Spec.Plainly T ts r → Turtle.Spec.Plainly T (n.toks ++ ts) s := by
  cases h with
  | iri h =>
    obtain ⟨b, h1, h2⟩ := iri_text h
    exact ⟨.iri (.ref b), .iri h1, h2⟩
  | label hw hl _ =>
    refine ⟨.label _, .label, fun ts hp => ?_⟩
    obtain ⟨c, t, rfl, h1, h2, h3⟩ := hl.1
    refine .cons (ign_ws hw) (.label ?_ ⟨?_, h3⟩) (stops_of_after (fun h => h) hr) hp
    · rcases h1 with h | h | h
      · exact .inl (.inl h)
      · exact .inl (.inr h)
      · exact .inr h
    · intro x hx
      refine (h2 x hx).imp_left ?_
      rintro ⟨(h | h | h) | h, hne⟩
      · exact .inl (.inl h)
      · exact .inl (.inr h)
      · exact absurd h hne
      · exact .inr h

theorem after_str {w : PStr} (hw : Ws w) {c : Nat} (h1 : c ≠ 0x22) (h2 : c ≠ 0x27) (r : PStr) :
    (w ++ c :: r).head? ≠ some 0x22 ∧ (w ++ c :: r).head? ≠ some 0x27 := by
  cases w with
  | nil => simp [h1, h2]
  | cons x w =>
    have := hw x (by simp)
    simp only [List.cons_append, List.head?_cons, ne_eq, Option.some.injEq]
    omega

theorem obj_text {s r r' : PStr} {o : RTerm} (h : NTSpec.Object (turtle C) s o r) (hd : Dot r r') (hr' : AfterStmt r') :
    ∃ l, ObjRel o l ∧ ∀ ts, Turtle.Spec.Plainly T ts r → Turtle.Spec.Plainly T (l.toks ++ ts) s := by
  have hr := dot_after (turtle C) hd hr'
  cases h with
  | node h =>
    obtain ⟨n, h1, h2⟩ := node_text (T := T) h hr
    exact ⟨.node n, .node h1, h2⟩
  | plain hw hb hv =>
    next w b v =>
    refine ⟨.str b, .plain (decode_of_denotes hv), fun ts hp => ?_⟩
    have : r.head? ≠ some 0x22 ∧ r.head? ≠ some 0x27 := by
      obtain ⟨hw'⟩ := hd
      exact after_str hw' (by decide) (by decide) _
    have := Turtle.Spec.Plainly.cons (D := T) (ign_ws hw) (.str (.inl rfl) (strBody hb)) this hp
    simpa [LeafTok.toks] using this
  | typed hw hb hv hw' hi =>
    next w b v w' s d =>
    obtain ⟨e, h1, h2⟩ := iri_text (T := T) hi
    refine ⟨.strDt b (.ref e), .typed (decode_of_denotes hv) h1, fun ts hp => ?_⟩
    have h3 := Turtle.Spec.Plainly.cons (D := T) (ign_ws hw') .carets trivial (h2 ts hp)
    have := Turtle.Spec.Plainly.cons (D := T) (ign_ws hw) (.str (.inl rfl) (strBody hb)) (after_str hw' (by decide) (by decide) _) h3
    simpa [LeafTok.toks] using this
  | @lang w b v w' l _ hw hb hv hw' hl _ =>
    refine ⟨.strLang b l, .lang (decode_of_denotes hv), fun ts hp => ?_⟩
    have h3 := Turtle.Spec.Plainly.cons (D := T) (ign_ws hw') (.lang (langTag hl.1)) (stops_of_after (fun h => h) hr) hp
    have := Turtle.Spec.Plainly.cons (D := T) (ign_ws hw) (.str (.inl rfl) (strBody hb)) (after_str hw' (by decide) (by decide) _) h3
    simpa [LeafTok.toks] using this

theorem stmt_text {s r : PStr} {t : RStmt} (h : NTSpec.Statement (turtle C) false s t r) (hr : AfterStmt r) :
    ∃ d, StmtRel t d ∧ ∀ ts, Turtle.Spec.Plainly T ts r → Turtle.Spec.Plainly T (TStmt.toks d ++ ts) s := by
  cases h with
  | triple h1 h2 h3 h4 =>
    obtain ⟨n, a1, a2⟩ := node_text (T := T) h1 (iri_after h2)
    obtain ⟨b, b1, b2⟩ := iri_text (T := T) h2
    obtain ⟨l, c1, c2⟩ := obj_text (T := T) h3 h4 hr
    refine ⟨_, .mk a1 b1 c1, fun ts hp => ?_⟩
    obtain ⟨hw⟩ := h4
    have hdot : Turtle.Spec.MayFollow .dot r := by
      intro c hc
      rcases hr with rfl | ⟨x, t, rfl, hx⟩
      · cases hc
      · simp only [List.head?_cons, Option.some.injEq] at hc
        subst hc
        simp only [isEolChar] at hx
        simp only [Turtle.Spec.isDigitChar]
        omega
    have := a2 _ (b2 _ (c2 _ (Turtle.Spec.Plainly.cons (D := T) (ign_ws hw) .dot hdot hp)))
    simpa [TStmt.toks, Pol.toks, Objs.toks, Obj.toks, VerbTok.toks] using this

/-! ### Lines -/

theorem comment_eol (h1 : ∀ x ∈ T.eol, isEolChar x) (h2 : ∀ x, isEolChar x → x ∈ T.eol) {D : Dialect} {t e : PStr} (ht : ∀ x ∈ t, ¬ isEolChar x) (he : Eol D e)
    (hi : Turtle.Spec.Ignorable T e) : Turtle.Spec.Ignorable T (0x23 :: (t ++ e)) := by
  obtain ⟨c, e', rfl, hc⟩ : ∃ c e', e = c :: e' ∧ isEolChar c := by
    cases he with
    | one h => exact ⟨_, _, rfl, h⟩
    | more h _ => exact ⟨_, _, rfl, h⟩
    | comment _ h _ _ => exact ⟨_, _, rfl, h⟩
  have : Turtle.Spec.Ignorable T e' := by
    cases hi with
    | white _ h => exact h
    | comment _ _ _ => exact absurd hc (by simp [isEolChar])
  exact .comment (fun x hx hx' => ht x hx (h1 x hx')) (h2 c hc) this

theorem white_eol {c : Nat} (h : isEolChar c) : Turtle.Spec.isWhite c := by
  simp only [isEolChar, Turtle.Spec.isWhite] at h ⊢
  omega

theorem ign_eol {D : Dialect} (h1 : D.comments → ∀ x ∈ T.eol, isEolChar x) (h2 : D.comments → ∀ x, isEolChar x → x ∈ T.eol) {e : PStr} (he : Eol D e) :
    Turtle.Spec.Ignorable T e := by
  induction he with
  | one h => exact .white (white_eol h) .nil
  | more h _ ih => exact .white (white_eol h) ih
  | comment hc h ht he ih => exact .white (white_eol h) (comment_eol (h1 hc) (h2 hc) ht he ih)

theorem ign_append {u v : PStr} (hu : Turtle.Spec.Ignorable T u) (hv : Turtle.Spec.Ignorable T v) : Turtle.Spec.Ignorable T (u ++ v) := by
  induction hu with
  | nil => exact hv
  | white hc _ ih => exact .white hc ih
  | comment ht hc _ ih => rw [List.cons_append, List.append_assoc]; exact .comment ht hc ih

theorem ign_line {D : Dialect} (h1 : D.comments → ∀ x ∈ T.eol, isEolChar x) (h2 : D.comments → ∀ x, isEolChar x → x ∈ T.eol) {w e : PStr} (hw : LineEnd D w)
    (he : Eol D e) : Turtle.Spec.Ignorable T (w ++ e) := by
  cases hw with
  | ws h => exact ign_append (ign_ws h) (ign_eol h1 h2 he)
  | comment hc hw ht =>
    rw [List.append_assoc]
    exact ign_append (ign_ws hw) (comment_eol (h1 hc) (h2 hc) ht he (ign_eol h1 h2 he))

theorem trailing_line {D : Dialect} (h1 : D.comments → ∀ x ∈ T.eol, isEolChar x) {w : PStr} (hw : LineEnd D w) : Turtle.Spec.Trailing T w := by
  cases hw with
  | ws h => exact .inl (ign_ws h)
  | comment hc hw ht => exact .inr ⟨_, _, rfl, ign_ws hw, fun x hx hx' => ht x hx (h1 hc x hx')⟩

theorem rest_text (h1 : C → ∀ x ∈ T.eol, isEolChar x) (h2 : C → ∀ x, isEolChar x → x ∈ T.eol) {s : PStr} {rs : List RStmt} (h : Rest (turtle C) false s rs) :
    ∃ ds, DocRel rs ds ∧ Turtle.Spec.Plainly T (docToks ds) s := by
  induction h with
  | eof h => exact ⟨[], .nil, .nil (trailing_line h1 h)⟩
  | eol hw he hw' =>
    refine ⟨[], .nil, ?_⟩
    rw [← List.append_assoc]
    exact Plainly.ign (ign_line h1 h2 hw he) (.nil (trailing_line h1 hw'))
  | next hw he hs hr ih =>
    obtain ⟨ds, a1, a2⟩ := ih
    obtain ⟨d, b1, b2⟩ := stmt_text (T := T) hs hr.head
    refine ⟨d :: ds, .cons b1 a1, ?_⟩
    rw [← List.append_assoc]
    exact Plainly.ign (ign_line h1 h2 hw he) (b2 _ a2)

theorem doc_text (h1 : C → ∀ x ∈ T.eol, isEolChar x) (h2 : C → ∀ x, isEolChar x → x ∈ T.eol) {s : PStr} {rs : List RStmt} (h : Doc (turtle C) false s rs) :
    ∃ ds, DocRel rs ds ∧ Turtle.Spec.Plainly T (docToks ds) s := by
  cases h with
  | first hs hr =>
    obtain ⟨ds, a1, a2⟩ := rest_text h1 h2 hr
    obtain ⟨d, b1, b2⟩ := stmt_text (T := T) hs hr.head
    exact ⟨d :: ds, .cons b1 a1, b2 _ a2⟩
  | rest h => exact rest_text h1 h2 h

/-- The parser's tree of an N-Triples document. Without comments, any line ends will do. -/
theorem doc_tree {s : PStr} {rs : List RStmt} (h : Doc (turtle C) false s rs) (hc : C → CrLf s) : ∃ ds, DocRel rs ds ∧ parseTree s = .ok ds := by
  by_cases hC : C
  · obtain ⟨ds, a1, a2⟩ := doc_text (T := Turtle.Spec.w3c) (fun _ x hx => by simpa [Turtle.Spec.w3c, isEolChar] using hx)
      (fun _ x hx => by simpa [Turtle.Spec.w3c, isEolChar] using hx) h
    exact ⟨ds, a1, C96_partial a2 (hc hC)⟩
  · obtain ⟨ds, a1, a2⟩ := doc_text (T := Turtle.Spec.lark) (fun h => absurd h hC) (fun h => absurd h hC) h
    exact ⟨ds, a1, C96_exact a2⟩

/-! ### Evaluation -/

theorem iriClass_iff {c : Nat} : iriClass c = true ↔ 0x20 < c ∧ c ∉ py! "<>\"{}|^`\\" := by
  simp [iriClass, and_assoc]

theorem legal_of_chars {i : PStr} (h : IriChars i) : legalIri i = true := by
  simp only [legalIri, Bool.or_eq_true, List.all_eq_true]
  exact .inl fun c hc => iriClass_iff.2 (h c hc)

/-- Every IRI can be resolved. -/
def Resolves (nl : PStr → Bool) (base : PStr) (ρ : PStr → PStr) (i : PStr) : Prop := legalIri i = true ∧ smartUrljoin nl base i = .ok (ρ i)

theorem eval_ref {nl : PStr → Bool} {base : PStr} {ρ : PStr → PStr} {b i : PStr} (hb : decodeLiteral b = .ok i) (h : Resolves nl base ρ i) :
    resolveRef nl base b = .ok (ρ i) := by
  simp [resolveRef, decodeIriref, hb, h.1, h.2]

theorem eval_node {nl : PStr → Bool} {st : TState} {ρ : PStr → PStr} {a : RTerm} {n : NodeTok} (hn : NodeRel a n) (h : ∀ i, a.HasIri i → Resolves nl st.base ρ i) :
    evalNode nl st n = .ok ({ st with bn := (st.bn.term (a.inTurtle ρ)).1 }, (st.bn.term (a.inTurtle ρ)).2) := by
  cases hn with
  | iri hb => simp [evalNode, evalIri, eval_ref hb (h _ (.inl rfl)), RTerm.inTurtle, BState.term, Except.map]
  | label => rfl

theorem eval_leaf {nl : PStr → Bool} {st : TState} {ρ : PStr → PStr} {o : RTerm} {l : LeafTok} (hn : ObjRel o l) (h : ∀ i, o.HasIri i → Resolves nl st.base ρ i) :
    evalLeaf nl st l = .ok ({ st with bn := (st.bn.term (o.inTurtle ρ)).1 }, (st.bn.term (o.inTurtle ρ)).2) := by
  cases hn with
  | node hn => exact eval_node hn h
  | plain hb => simp only [evalLeaf, hb, RTerm.inTurtle, BState.term, Except.map]; rfl
  | typed hb hd => simp [evalLeaf, evalIri, hb, eval_ref hd (h _ (.inr ⟨_, _, rfl⟩)), RTerm.inTurtle, BState.term, Except.map]
  | lang hb => simp [evalLeaf, hb, RTerm.inTurtle, BState.term, Except.map]

theorem eval_stmt {nl : PStr → Bool} {st : TState} {ρ : PStr → PStr} {t : RStmt} {d : PTStmt} (hn : StmtRel t d) (h : ∀ i, t.HasIri i → Resolves nl st.base ρ i) :
    ∃ e, evalStmt nl st d = .ok ({ st with bn := (st.bn.stmt (t.inTurtle ρ)).1 }, e) ∧ ∀ n, genStmt n e = (n, [(st.bn.stmt (t.inTurtle ρ)).2]) := by
  obtain ⟨ha, hb, ho⟩ := hn
  next a n p b o l =>
  have e1 := eval_node (st := st) ha (fun i hi => h i (.inl hi))
  have e2 := eval_ref hb (h _ (.inr (.inl (.inl rfl))))
  have e3 := fun st' (hs : st'.base = st.base) => eval_leaf (st := st') ho (fun i hi => hs ▸ h i (.inr (.inr hi)))
  refine ⟨.node (st.bn.term (a.inTurtle ρ)).2 (.last (.named (ρ p)) (.one (.leaf ((st.bn.term (a.inTurtle ρ)).1.term (o.inTurtle ρ)).2)) 0), ?_, fun n => rfl⟩
  simp only [evalStmt, e1, evalPol, evalVerb, evalIri, e2, Except.map, evalObjs, evalObj]
  rw [e3 { st with bn := (st.bn.term (a.inTurtle ρ)).1 } rfl]
  rfl

theorem eval_stmts {nl : PStr → Bool} {ρ : PStr → PStr} {rs : List RStmt} {ds : List PTStmt} (hn : DocRel rs ds) : ∀ {st : TState},
    (∀ t ∈ rs, ∀ i, t.HasIri i → Resolves nl st.base ρ i) →
    ∃ es, evalStmts nl st ds = .ok ({ st with bn := (st.bn.stmts (rs.map (·.inTurtle ρ))).1 }, es) ∧ ∀ n, genStmts n es = (n, (st.bn.stmts (rs.map (·.inTurtle ρ))).2) := by
  induction hn with
  | nil => exact fun _ => ⟨[], rfl, fun _ => rfl⟩
  | cons hd _ ih =>
    intro st h
    obtain ⟨e, a1, a2⟩ := eval_stmt (st := st) hd (h _ (by simp))
    next t d _ _ _ =>
    obtain ⟨es, b1, b2⟩ := ih (st := { st with bn := (st.bn.stmt (t.inTurtle ρ)).1 }) (fun t ht => h t (by simp [ht]))
    refine ⟨e :: es, ?_, fun n => ?_⟩
    · simp only [evalStmts, a1, b1]; rfl
    · simp only [genStmts, a2, b2]; rfl

/-! ### Errors -/

theorem bad_ref {nl : PStr → Bool} {base b i : PStr} (hb : decodeLiteral b = .ok i) (h : legalIri i = false) : resolveRef nl base b = .error .valueError := by
  simp [resolveRef, decodeIriref, hb, h]

theorem good_or_bad (a : RTerm) : (∀ i, a.HasIri i → legalIri i = true) ∨ ∃ i, a.HasIri i ∧ legalIri i = false := by
  by_cases h : ∃ i, a.HasIri i ∧ legalIri i = false
  · exact .inr h
  · refine .inl fun i hi => ?_
    cases e : legalIri i with
    | true => rfl
    | false => exact absurd ⟨i, hi, e⟩ h

theorem bad_node {nl : PStr → Bool} {st : TState} {a : RTerm} {n : NodeTok} (hn : NodeRel a n) {i : PStr} (hi : a.HasIri i) (h : legalIri i = false) :
    ∃ e, evalNode nl st n = .error e := by
  cases hn with
  | iri hb =>
    rcases hi with hi | ⟨_, _, hi⟩
    · cases hi; exact ⟨_, by simp [evalNode, evalIri, bad_ref hb h, Except.map]; rfl⟩
    · cases hi
  | label =>
    rcases hi with hi | ⟨_, _, hi⟩ <;> cases hi

theorem bad_leaf {nl : PStr → Bool} {st : TState} {o : RTerm} {l : LeafTok} (hn : ObjRel o l) {i : PStr} (hi : o.HasIri i) (h : legalIri i = false) :
    ∃ e, evalLeaf nl st l = .error e := by
  cases hn with
  | node hn => exact bad_node hn hi h
  | plain hb => rcases hi with hi | ⟨_, _, hi⟩ <;> cases hi
  | typed hb hd =>
    rcases hi with hi | ⟨_, _, hi⟩
    · cases hi
    · cases hi; exact ⟨_, by simp [evalLeaf, evalIri, hb, bad_ref hd h, Except.map]; rfl⟩
  | lang hb => rcases hi with hi | ⟨_, _, hi⟩ <;> cases hi

theorem bad_stmt {nl : PStr → Bool} {st : TState} (hs : st.base = []) {t : RStmt} {d : PTStmt} (hn : StmtRel t d) {i : PStr} (hi : t.HasIri i) (h : legalIri i = false) :
    ∃ e, evalStmt nl st d = .error e := by
  obtain ⟨ha, hb, ho⟩ := hn
  next a n p b o l =>
  have res : ∀ i, legalIri i = true → Resolves nl st.base id i := fun i hi => ⟨hi, by rw [hs]; exact C67_no_base nl i⟩
  rcases good_or_bad a with g1 | ⟨j, hj, g1⟩
  · have e1 := eval_node (nl := nl) (st := st) ha fun i hi => res i (g1 i hi)
    cases g2 : legalIri p with
    | true =>
      have e2 := eval_ref hb (res p g2)
      rcases good_or_bad o with g3 | ⟨j, hj, g3⟩
      · exfalso
        rcases hi with hi | hi | hi
        · rw [g1 i hi] at h; cases h
        · rcases hi with hi | ⟨_, _, hi⟩
          · cases hi; rw [g2] at h; cases h
          · cases hi
        · rw [g3 i hi] at h; cases h
      · obtain ⟨e, he⟩ := bad_leaf (nl := nl) (st := { st with bn := (st.bn.term (a.inTurtle id)).1 }) ho hj g3
        refine ⟨e, ?_⟩
        simp only [evalStmt, e1, evalPol, evalVerb, evalIri, e2, Except.map, evalObjs, evalObj]
        rw [he]
    | false =>
      refine ⟨.valueError, ?_⟩
      simp only [evalStmt, e1, evalPol, evalVerb, evalIri, bad_ref hb g2, Except.map]
  · obtain ⟨e, he⟩ := bad_node (nl := nl) (st := st) ha hj g1
    exact ⟨e, by simp only [evalStmt, he]⟩

theorem bad_stmts {nl : PStr → Bool} {rs : List RStmt} {ds : List PTStmt} (hn : DocRel rs ds) {i : PStr} (h : legalIri i = false) : ∀ {st : TState}, st.base = [] →
    (∃ t ∈ rs, t.HasIri i) → ∃ e, evalStmts nl st ds = .error e := by
  induction hn with
  | nil => rintro st _ ⟨t, ht, _⟩; cases ht
  | @cons t' _ _ _ hd _ ih =>
    rintro st hs ⟨t, ht, hi⟩
    rcases List.mem_cons.1 ht with rfl | ht
    · obtain ⟨e, he⟩ := bad_stmt (nl := nl) hs hd hi h
      exact ⟨e, by simp only [evalStmts, he]⟩
    · by_cases hb : ∃ j, t'.HasIri j ∧ legalIri j = false
      · obtain ⟨j, hj, hl⟩ := hb
        obtain ⟨e, he⟩ := bad_stmt (nl := nl) hs hd hj hl
        exact ⟨e, by simp only [evalStmts, he]⟩
      · obtain ⟨e, a1, _⟩ := eval_stmt (nl := nl) (st := st) (ρ := id) hd fun j hj => ⟨by
          cases e : legalIri j with
          | true => rfl
          | false => exact absurd ⟨j, hj, e⟩ hb, by rw [hs]; exact C67_no_base nl j⟩
        obtain ⟨e', he⟩ := ih (st := { st with bn := (st.bn.stmt (t'.inTurtle id)).1 }) hs ⟨t, ht, hi⟩
        exact ⟨e', by simp only [evalStmts, a1]; rw [he]⟩

end Verif.NTTurtle
