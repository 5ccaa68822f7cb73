import Verif.Lemmas.TurtleLexTok
import Verif.Props.TurtleGrammar
/-
C95, C96: the Turtle parser accepts only Turtle, and the layout of a document does not matter.
-/
namespace Verif.Turtle
open Spec

/-! ### The lexer -/

theorem lexAll_sound : ∀ (n : Nat) (ctx : Ctx) (s : PStr) (ts : List Tok), lexAll n ctx s = .ok ts → Written lark ts s
  | 0, _, _, _, h => by cases h
  | n + 1, ctx, s, ts, h => by
    rw [lexAll] at h
    rcases skipIgn_split s with ⟨u, c, r, rfl, hu, e⟩ | ⟨ht, e⟩
    · rw [e] at h
      simp only at h
      split at h
      · cases h
      · next t r' e =>
        cases e2 : lexAll n (nextCtx ctx t) r' with
        | error x => rw [e2] at h; cases h
        | ok ts' =>
          rw [e2] at h
          cases h
          obtain ⟨w, h1, h2⟩ := lexTok_sound e
          rw [h2]
          exact .cons hu h1 (lexAll_sound n _ _ _ e2)
    · rw [e] at h
      cases h
      exact .nil ht

/-- The lexer always has an answer: the fuel is enough. -/
theorem lexAll_fuel : ∀ (n : Nat) (ctx : Ctx) (s : PStr), s.length < n → lexAll n ctx s ≠ .error .outOfFuel
  | 0, _, _, h => by omega
  | n + 1, ctx, s, hl => by
    intro h
    rw [lexAll] at h
    rcases skipIgn_split s with ⟨u, c, r, rfl, hu, e⟩ | ⟨ht, e⟩
    · rw [e] at h
      simp only at h
      split at h
      · cases h
      · next t r' e =>
        obtain ⟨w, h1, h2⟩ := lexTok_sound e
        obtain ⟨d, w', rfl, _⟩ := TokText.head h1
        have hlen : r'.length < n := by
          have := congrArg List.length h2
          simp only [List.length_append, List.length_cons] at this hl
          omega
        have ih := lexAll_fuel n (nextCtx ctx t) r' hlen
        cases e2 : lexAll n (nextCtx ctx t) r' with
        | error x =>
          rw [e2] at h ih
          cases h
          exact ih rfl
        | ok ts' => rw [e2] at h; cases h
    · rw [e] at h
      cases h

/-- All tokens can stand where they stand. -/
def FitsAll : Ctx → List Tok → Prop
  | _, [] => True
  | ctx, t :: ts => CtxFits ctx t ∧ FitsAll (nextCtx ctx t) ts

theorem lexAll_complete : ∀ (n : Nat) (ctx : Ctx) {s : PStr} {ts : List Tok}, s.length < n → FitsAll ctx ts → Plainly lark ts s → lexAll n ctx s = .ok ts
  | 0, _, _, _, h, _, _ => by omega
  | n + 1, ctx, s, ts, hl, hf, h => by
    cases h with
    | nil hu => rw [lexAll, skipIgn_trailing hu]
    | @cons u t w ts r hu ht hm hr =>
      have e := lexTok_complete hf.1 ht hm
      obtain ⟨c, w', rfl, h1, h2⟩ := TokText.head ht
      have e0 : skipIgn false (c :: w' ++ r) = c :: (w' ++ r) := by rw [List.cons_append, skipIgn, h1, if_neg h2]; simp
      rw [List.cons_append] at e e0 ⊢
      rw [lexAll, skipIgn_ignorable hu, e0]
      simp only [e]
      rw [lexAll_complete n (nextCtx ctx t) (by simp only [List.length_append, List.length_cons] at hl; omega) hf.2 hr]; rfl

/-! ### Token sequences of documents -/

def ctxAfter (ctx : Ctx) (ts : List Tok) : Ctx := ts.foldl nextCtx ctx

theorem fitsAll_append : ∀ {ctx : Ctx} {a b : List Tok}, FitsAll ctx a → FitsAll (ctxAfter ctx a) b → FitsAll ctx (a ++ b)
  | _, [], _, _, h => h
  | _, _ :: _, _, h, h' => ⟨h.1, fitsAll_append h.2 h'⟩

/-- Tokens that can stand inside a statement. -/
def Inner (ts : List Tok) : Prop := ∀ ctx, ctx = .body ∨ ctx = .lit → FitsAll ctx ts ∧ (ctxAfter ctx ts = .body ∨ ctxAfter ctx ts = .lit)

theorem Inner.nil : Inner [] := fun _ h => ⟨trivial, h⟩

theorem Inner.append {a b : List Tok} (ha : Inner a) (hb : Inner b) : Inner (a ++ b) := by
  intro ctx h
  obtain ⟨h1, h2⟩ := ha ctx h
  obtain ⟨h3, h4⟩ := hb _ h2
  refine ⟨fitsAll_append h1 h3, ?_⟩
  rw [ctxAfter, List.foldl_append]
  exact h4

/-- Tokens that can come anywhere inside a statement. -/
def Tok.inner : Tok → Prop
  | .lang _ | .carets | .atPrefix | .atBase | .kwBase | .kwPrefix | .ns _ | .dot => False
  | _ => True

theorem Inner.tok {t : Tok} (h : t.inner) : Inner [t] := by
  rintro ctx (rfl | rfl) <;> cases t <;> first | exact h.elim | (refine ⟨⟨by simp [CtxFits], trivial⟩, ?_⟩; first | exact .inl rfl | exact .inr rfl)

theorem Inner.cons {t : Tok} {ts : List Tok} (h : t.inner) (h' : Inner ts) : Inner (t :: ts) := Inner.append (Inner.tok h) h'

theorem VerbTok.inner (v : VerbTok) : Inner v.toks := by cases v <;> exact Inner.tok trivial
theorem NodeTok.inner (v : NodeTok) : Inner v.toks := by cases v <;> exact Inner.tok trivial

theorem LeafTok.inner (l : LeafTok) : Inner l.toks := by
  cases l with
  | node n => exact n.inner
  | str b => exact Inner.tok trivial
  | strLang b l =>
    rintro ctx (rfl | rfl) <;> exact ⟨⟨by simp [CtxFits], by simp [CtxFits, nextCtx], trivial⟩, .inl rfl⟩
  | strDt b i =>
    rintro ctx (rfl | rfl) <;> exact ⟨⟨by simp [CtxFits], by simp [CtxFits, nextCtx], by simp [CtxFits, nextCtx], trivial⟩, .inl rfl⟩
  | num k t => exact Inner.tok trivial
  | bool t => exact Inner.tok trivial

theorem Inner.semis (k : Nat) : Inner (List.replicate k .semi) := by
  induction k with
  | zero => exact .nil
  | succ k ih => exact Inner.cons trivial ih

mutual
theorem Obj.inner : ∀ o : PObj, Inner o.toks
  | .leaf l => l.inner
  | .coll c => Inner.cons trivial c.inner
  | .bnpl p => Inner.cons trivial (Inner.append p.inner (Inner.tok trivial))
theorem Objs.inner : ∀ o : PObjs, Inner o.toks
  | .one o => o.inner
  | .cons o os => Inner.append o.inner (Inner.cons trivial os.inner)
theorem Coll.inner : ∀ c : PColl, Inner c.toks
  | .nil => Inner.tok trivial
  | .cons o c => Inner.append o.inner c.inner
theorem Pol.inner : ∀ p : PPol, Inner p.toks
  | .last v os k => Inner.append (Inner.append v.inner os.inner) (Inner.semis k)
  | .cons v os k p => Inner.append (Inner.append (Inner.append v.inner os.inner) (Inner.semis (k + 1))) p.inner
end

/-- A statement that begins with a token fit for it. -/
theorem fits_stmt {t : Tok} {ts : List Tok} (h1 : CtxFits .start t) (h2 : nextCtx .start t = .body) (h3 : Inner ts) :
    FitsAll .start (t :: ts ++ [.dot]) ∧ ctxAfter .start (t :: ts ++ [.dot]) = .start := by
  obtain ⟨h4, h5⟩ := h3 .body (.inl rfl)
  refine ⟨⟨h1, ?_⟩, ?_⟩
  · rw [h2]
    refine fitsAll_append h4 ⟨?_, trivial⟩
    rcases h5 with h5 | h5 <;> rw [h5] <;> simp [CtxFits]
  · show List.foldl nextCtx (nextCtx .start t) (ts ++ [.dot]) = .start
    rw [h2, List.foldl_append]
    show nextCtx (ctxAfter .body ts) .dot = .start
    rcases h5 with h5 | h5 <;> rw [h5] <;> rfl

theorem TStmt.fits (d : PTStmt) : FitsAll .start d.toks ∧ ctxAfter .start d.toks = .start := by
  cases d with
  | pre k ns i => cases k <;> exact ⟨by simp [TStmt.toks, FitsAll, CtxFits, nextCtx], rfl⟩
  | base k i => cases k <;> exact ⟨by simp [TStmt.toks, FitsAll, CtxFits, nextCtx], rfl⟩
  | node s p =>
    cases s with
    | iri i => exact fits_stmt (by simp [CtxFits]) rfl p.inner
    | label l => exact fits_stmt (by simp [CtxFits]) rfl p.inner
    | anon => exact fits_stmt (by simp [CtxFits]) rfl p.inner
  | coll c p =>
    have := fits_stmt (t := .lpar) (by simp [CtxFits]) rfl (Inner.append c.inner p.inner)
    simpa [TStmt.toks] using this
  | bnpl s =>
    have := fits_stmt (t := .lbr) (by simp [CtxFits]) rfl (Inner.append s.inner (Inner.tok (t := .rbr) trivial))
    simpa [TStmt.toks] using this
  | bnplPol s p =>
    have := fits_stmt (t := .lbr) (by simp [CtxFits]) rfl (Inner.append (Inner.append s.inner (Inner.tok (t := .rbr) trivial)) p.inner)
    simpa [TStmt.toks] using this

theorem fits_doc : ∀ ds : List PTStmt, FitsAll .start (docToks ds)
  | [] => trivial
  | d :: ds => by
    have h := TStmt.fits d
    refine fitsAll_append h.1 ?_
    rw [h.2]
    exact fits_doc ds

/-! ### The recommendation's comments and keywords -/

/-- Every carriage return is followed by a line feed. -/
def CrLf (s : PStr) : Prop := ∀ a b, s = a ++ 13 :: b → b.head? = some 10

/-- The characters that Python's case-insensitive matching takes for `s` and `i`. -/
def NoFold (s : PStr) : Prop := ∀ c ∈ s, c ∉ [0x17F, 0x130, 0x131]

theorem CrLf.suffix {a b : PStr} (h : CrLf (a ++ b)) : CrLf b := by
  rintro x y rfl
  exact h (a ++ x) y (by simp)

theorem CrLf.tail {c : Nat} {b : PStr} (h : CrLf (c :: b)) : CrLf b := CrLf.suffix (a := [c]) h

theorem ign_w3c {u x : PStr} (h : Ignorable lark u) (hc : CrLf (u ++ x)) : Ignorable w3c u := by
  induction h with
  | nil => exact .nil
  | white h _ ih => exact .white h (ih hc.tail)
  | @comment t e u ht he _ ih =>
    obtain rfl : e = 10 := by simpa [lark] using he
    have ht : ∀ x ∈ t, x ≠ 10 := by simpa [lark] using ht
    have hu := ih (by
      rw [List.cons_append, List.append_assoc] at hc
      exact hc.tail.suffix.tail)
    have key : ∀ t1 t2, t = t1 ++ 13 :: t2 → t2 = [] := by
      rintro t1 t2 rfl
      have := hc (35 :: t1) (t2 ++ 10 :: u ++ x) (by simp)
      cases t2 with
      | nil => rfl
      | cons a t2 => cases this; exact absurd rfl (ht 10 (by simp))
    by_cases h13 : 13 ∈ t
    · obtain ⟨t1, t2, rfl⟩ := List.append_of_mem h13
      obtain rfl := key _ _ rfl
      have h1 : 13 ∉ t1 := by
        intro h
        obtain ⟨a, b, rfl⟩ := List.append_of_mem h
        have := key a (b ++ [13]) (by simp)
        simp at this
      have : Ignorable w3c (35 :: (t1 ++ 13 :: (10 :: u))) := by
        refine .comment (fun x hx => ?_) (by simp [w3c]) (.white (by simp [isWhite]) hu)
        have := ht x (by simp [hx])
        have h2 : x ≠ 13 := by rintro rfl; exact h1 hx
        simp [w3c, this, h2]
      simpa using this
    · refine .comment (fun x hx => ?_) (by simp [w3c]) hu
      have := ht x hx
      have h2 : x ≠ 13 := by rintro rfl; exact h13 hx
      simp [w3c, this, h2]

theorem ign_lark {u x : PStr} (h : Ignorable w3c u) (hc : CrLf (u ++ x)) (hx : x.head? ≠ some 10) : Ignorable lark u := by
  induction h with
  | nil => exact .nil
  | white h _ ih => exact .white h (ih hc.tail)
  | @comment t e u ht he _ ih =>
    have hu := ih (by
      rw [List.cons_append, List.append_assoc] at hc
      exact hc.tail.suffix.tail)
    have ht' : ∀ x ∈ t, x ≠ 10 := fun x hx h => ht x hx (by simp [h, w3c])
    have he : e = 10 ∨ e = 13 := by simpa [w3c] using he
    rcases he with rfl | rfl
    · exact .comment (by simpa [lark] using ht') (by simp [lark]) hu
    · have hh := hc (35 :: t) (u ++ x) (by simp)
      cases hu with
      | nil => exact absurd hh hx
      | @white c u h hu =>
        cases hh
        have : Ignorable lark (35 :: ((t ++ [13]) ++ 10 :: u)) := by
          refine .comment (fun x hx => ?_) (by simp [lark]) hu
          rcases List.mem_append.1 hx with hx | hx
          · simp [lark, ht' x hx]
          · rw [List.mem_singleton.1 hx]; simp [lark]
        simpa using this
      | comment => cases hh

theorem trailing_w3c {u : PStr} (h : Trailing lark u) (hc : CrLf u) : Trailing w3c u := by
  rcases h with h | ⟨v, t, rfl, hv, ht⟩
  · exact .inl (ign_w3c (x := []) h (by simpa using hc))
  · refine .inr ⟨v, t, rfl, ign_w3c hv hc, fun x hx => ?_⟩
    have ht : ∀ x ∈ t, x ≠ 10 := by simpa [lark] using ht
    have h2 : x ≠ 13 := by
      rintro rfl
      obtain ⟨a, b, rfl⟩ := List.append_of_mem hx
      have h3 := hc (v ++ 35 :: a) b (by simp)
      cases b with
      | nil => cases h3
      | cons c b => cases h3; exact ht 10 (by simp) rfl
    simp [w3c, ht x hx, h2]

theorem trailing_lark {u : PStr} (h : Trailing w3c u) (hc : CrLf u) : Trailing lark u := by
  rcases h with h | ⟨v, t, rfl, hv, ht⟩
  · exact .inl (ign_lark (x := []) h (by simpa using hc) (by simp))
  · refine .inr ⟨v, t, rfl, ign_lark hv hc (by simp), fun x hx => ?_⟩
    have := ht x hx
    simp only [w3c, List.mem_cons] at this
    simp only [lark, List.mem_cons, List.not_mem_nil, or_false]
    exact fun h => this (.inl h)

theorem KwText.mono {ks : List (List Nat)} {w : PStr} (h : KwText ks w) : ∀ {ks' : List (List Nat)}, ks.length = ks'.length →
    (∀ p ∈ ks.zip ks', ∀ c ∈ p.1, c ∈ w → c ∈ p.2) → KwText ks' w := by
  induction h with
  | nil => intro ks' hl _; cases ks' with | nil => exact .nil | cons _ _ => cases hl
  | @cons k ks c w hc _ ih =>
    intro ks' hl hm
    cases ks' with
    | nil => cases hl
    | cons k' ks' =>
      refine .cons (hm (k, k') (by simp) c hc (by simp)) (ih (by simpa using hl) fun p hp d hd hw => ?_)
      exact hm p (by simp [hp]) d hd (by simp [hw])

theorem tokText_w3c {t : Tok} {w : PStr} (h : TokText lark t w) (hf : NoFold w) : TokText w3c t w := by
  cases h with
  | kwBase h =>
    refine .kwBase (KwText.mono h rfl ?_)
    intro p hp c hc hw
    have h0 := hf c hw
    have : ∀ p ∈ lark.base.zip w3c.base, ∀ c ∈ p.1, c ∉ [0x17F, 0x130, 0x131] → c ∈ p.2 := by decide
    exact this p hp c hc h0
  | kwPrefix h =>
    refine .kwPrefix (KwText.mono h rfl ?_)
    intro p hp c hc hw
    have h0 := hf c hw
    have : ∀ p ∈ lark.pre.zip w3c.pre, ∀ c ∈ p.1, c ∉ [0x17F, 0x130, 0x131] → c ∈ p.2 := by decide
    exact this p hp c hc h0
  | str h1 h2 => exact .str h1 h2
  | long h1 h2 => exact .long h1 h2
  | _ => constructor <;> assumption

theorem tokText_lark {t : Tok} {w : PStr} (h : TokText w3c t w) : TokText lark t w := by
  cases h with
  | kwBase h =>
    refine .kwBase (KwText.mono h rfl ?_)
    intro p hp c hc _
    have : ∀ p ∈ w3c.base.zip lark.base, ∀ c ∈ p.1, c ∈ p.2 := by decide
    exact this p hp c hc
  | kwPrefix h =>
    refine .kwPrefix (KwText.mono h rfl ?_)
    intro p hp c hc _
    have : ∀ p ∈ w3c.pre.zip lark.pre, ∀ c ∈ p.1, c ∈ p.2 := by decide
    exact this p hp c hc
  | str h1 h2 => exact .str h1 h2
  | long h1 h2 => exact .long h1 h2
  | _ => constructor <;> assumption

theorem written_w3c {ts : List Tok} {s : PStr} (h : Written lark ts s) (hc : CrLf s) (hf : NoFold s) : Written w3c ts s := by
  induction h with
  | nil h => exact .nil (trailing_w3c h hc)
  | cons hu ht _ ih =>
    refine .cons (ign_w3c hu hc) (tokText_w3c ht fun c h => hf c (by simp [h])) (ih ?_ fun c h => hf c (by simp [h]))
    exact hc.suffix.suffix

theorem plainly_lark {ts : List Tok} {s : PStr} (h : Plainly w3c ts s) (hc : CrLf s) : Plainly lark ts s := by
  induction h with
  | nil h => exact .nil (trailing_lark h hc)
  | @cons u t w ts r hu ht hm _ ih =>
    have ht := tokText_lark ht
    refine .cons (ign_lark hu hc ?_) ht hm (ih hc.suffix.suffix)
    obtain ⟨c, w', rfl, h1, _⟩ := TokText.head ht
    rintro h
    cases h
    cases h1

/-! ### C95 -/

/-- Every accepted text is a way to write the document that is interpreted. -/
def C95_statement : Prop := ∀ (s : PStr) (ds : List PTStmt), parseTree s = .ok ds → Written w3c (docToks ds) s

/-- Exactly what is accepted: documents in which comments end at line feeds only, and `ſ`, `İ`, `ı` may stand for letters of BASE and PREFIX. -/
theorem C95_exact {s : PStr} {ds : List PTStmt} (h : parseTree s = .ok ds) : Written lark (docToks ds) s := by
  unfold parseTree at h
  split at h
  · cases h
  · next ts e =>
    rw [C93_exact] at h
    subst h
    exact lexAll_sound _ _ _ _ e

theorem not_trailing (r : PStr) : ¬ Trailing w3c (35 :: 13 :: 60 :: r) := by
  have h1 : ∀ {u : PStr}, Ignorable w3c u → u.head? ≠ some 60 := by
    intro u h hu
    cases h with
    | nil => cases hu
    | white h _ => cases hu; simp [isWhite] at h
    | comment => cases hu
  have h2 : ∀ {u x : PStr}, Ignorable w3c u → u ++ x = 35 :: 13 :: 60 :: r → u = [] ∨ u = [35, 13] := by
    intro u x h hu
    cases h with
    | nil => exact .inl rfl
    | white h _ =>
      simp only [List.cons_append, List.cons.injEq] at hu
      rw [hu.1] at h
      simp [isWhite] at h
    | @comment t c u ht _ hu' =>
      right
      simp only [List.cons_append, List.append_assoc, List.cons.injEq, true_and] at hu
      cases t with
      | nil =>
        simp only [List.nil_append, List.cons.injEq] at hu
        obtain ⟨rfl, hu⟩ := hu
        cases u with
        | nil => rfl
        | cons d u => cases hu; exact absurd rfl (h1 hu')
      | cons a t =>
        simp only [List.cons_append, List.cons.injEq] at hu
        exact absurd (by rw [hu.1]; simp [w3c]) (ht a (by simp))
  rintro (h | ⟨v, t, h, hv, ht⟩)
  · rcases h2 (x := []) h (by simp) with e | e <;> cases e
  · rcases h2 hv h.symm with rfl | rfl
    · cases h; exact absurd (by simp [w3c]) (ht 13 (by simp))
    · cases h

theorem C95_refuted : ¬ C95_statement := by
  intro h
  have h1 := h (py! "#\r<s> <p> <o> .") [] rfl
  have key : ∀ {ts : List Tok} {s : PStr}, Written w3c ts s → ts = [] → Trailing w3c s := by
    intro ts s h e
    cases h with
    | nil h => exact h
    | cons => cases e
  exact not_trailing _ (key h1 rfl)

/-- What holds: texts whose lines end in LF or CR LF, without `ſ`, `İ` and `ı`. Missing: comments that end in CR alone, such as `#\r<s> <p> <o> .`, from which no
    statement is read; `BAſE`. -/
theorem C95_partial {s : PStr} {ds : List PTStmt} (h : parseTree s = .ok ds) (hc : CrLf s) (hf : NoFold s) : Written w3c (docToks ds) s :=
  written_w3c (C95_exact h) hc hf

/-- Non-vacuity: a text with CR LF line ends. -/
example : parseTree (py! "<s> # it\r\n<p>'x'@en.") =
      .ok [.node (.iri (.ref (py! "s"))) (.last (.iri (.ref (py! "p"))) (.one (.leaf (.strLang (py! "x") (py! "en")))) 0)] ∧
    CrLf (py! "<s> # it\r\n<p>'x'@en.") ∧ NoFold (py! "<s> # it\r\n<p>'x'@en.") := by
  refine ⟨rfl, ?_, by unfold NoFold; decide⟩
  intro a b h
  have : a.length = 8 := by
    have key : ∀ i < 20, (py! "<s> # it\r\n<p>'x'@en.")[i]? = some 13 → i = 8 := by decide
    have h1 := congrArg (·[a.length]?) h
    simp only [List.getElem?_append_right (Nat.le_refl _), Nat.sub_self, List.getElem?_cons_zero] at h1
    have h2 := congrArg List.length h
    simp only [List.length_append, List.length_cons, List.length_nil] at h2
    exact key _ (by omega) h1
  have h1 := congrArg (List.drop 8) h
  rw [show List.drop 8 (a ++ 13 :: b) = 13 :: b by rw [← this, List.drop_left]] at h1
  exact congrArg (fun l => l.tail.head?) h1.symm

/-! ### C96 -/

/-- A document is read as such, however it is laid out. -/
def C96_statement : Prop := ∀ (s : PStr) (ds : List PTStmt), Plainly w3c (docToks ds) s → parseTree s = .ok ds

/-- Exactly: comments must not contain a carriage return unless they go on to the next line feed. -/
theorem C96_exact {s : PStr} {ds : List PTStmt} (h : Plainly lark (docToks ds) s) : parseTree s = .ok ds := by
  unfold parseTree lex
  rw [lexAll_complete _ .start (Nat.lt_succ_self _) (fits_doc ds) h]
  exact (C93_exact _ _).2 rfl

/-- The document `#\r<s> <p> <o> .` -/
def crDoc : List PTStmt := [.node (.iri (.ref (py! "s"))) (.last (.iri (.ref (py! "p"))) (.one (.leaf (.node (.iri (.ref (py! "o")))))) 0)]

theorem C96_refuted : ¬ C96_statement := by
  intro h
  have h1 : Plainly w3c (docToks crDoc) (py! "#\r<s> <p> <o> .") := by
    have hb : ∀ c, 0x20 < c → c ∉ py! "<>\"{}|^`\\" → TokText w3c (.iri (.ref [c])) (0x3C :: ([c] ++ [0x3E])) := fun c h h' => .ref (.char h h' .nil)
    have hw : Ignorable w3c [32] := .white (.inl rfl) .nil
    have h0 : Ignorable w3c (35 :: ([] ++ 13 :: [])) := .comment (by simp) (by simp [w3c]) .nil
    exact .cons h0 (hb 115 (by decide) (by decide)) trivial <| .cons hw (hb 112 (by decide) (by decide)) trivial <|
      .cons hw (hb 111 (by decide) (by decide)) trivial <| .cons hw .dot (by intro c h; cases h) (.nil (.inl .nil))
  have h2 := h _ _ h1
  have h3 : parseTree (py! "#\r<s> <p> <o> .") = .ok [] := rfl
  rw [h3] at h2
  cases h2

/-- What holds: lines end in LF or CR LF. Missing: comments that end in CR alone. -/
theorem C96_partial {s : PStr} {ds : List PTStmt} (h : Plainly w3c (docToks ds) s) (hc : CrLf s) : parseTree s = .ok ds :=
  C96_exact (plainly_lark h hc)

/-- Non-vacuity: `<s><p>#\r\n_:b.`, with a comment, no white space elsewhere. -/
example : Plainly w3c (docToks [.node (.iri (.ref (py! "s"))) (.last (.iri (.ref (py! "p"))) (.one (.leaf (.node (.label (py! "_:b"))))) 0)]) (py! "<s><p>#\r\n_:b.") := by
  have hb : ∀ c, 0x20 < c → c ∉ py! "<>\"{}|^`\\" → TokText w3c (.iri (.ref [c])) (0x3C :: ([c] ++ [0x3E])) := fun c h h' => .ref (.char h h' .nil)
  have h0 : Ignorable w3c (35 :: ([] ++ 13 :: [10])) := .comment (by simp) (by simp [w3c]) (.white (by simp [isWhite]) .nil)
  exact .cons .nil (hb 115 (by decide) (by decide)) trivial <| .cons .nil (hb 112 (by decide) (by decide)) trivial <|
    .cons h0 (.label (c := 98) (t := []) (.inl (by simp [Spec.pnCharsU, Spec.pnCharsBase, isAlpha])) ⟨by simp, by simp⟩) (by intro c h; cases h) <|
    .cons .nil .dot (by intro c h; cases h) (.nil (.inl .nil))

/-- So two ways to lay out the same tokens are read alike. -/
theorem C96_layout {s s' : PStr} {ds : List PTStmt} (h : Plainly w3c (docToks ds) s) (h' : Plainly w3c (docToks ds) s') (hc : CrLf s) (hc' : CrLf s') :
    ∀ (nl : PStr → Bool) (base : PStr) (next : Nat), parseText nl base next s = parseText nl base next s' := by
  intro nl base next
  rw [parseText, parseText, C96_partial h hc, C96_partial h' hc']

end Verif.Turtle
