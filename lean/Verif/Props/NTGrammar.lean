import Verif.Lemmas.NTGrammar
import Verif.Props.NTParse
/-
C106: the N-Triples and N-Quads parsers accept exactly the sentences of their grammar; C107: only N-Triples is read; C108: all N-Triples is read.
-/
namespace Verif
open Spec NTSpec

/-- Reading the text into any sink adds the statements `rs` in order, with one new blank node for each label, and raises nothing. -/
def ReadsAs (q : Bool) (text : PStr) (rs : List RStmt) : Prop :=
  ∀ (σ : Type) (add : σ → Stmt → σ) (next : Nat) (sink : σ), ∃ f n', next ≤ n' ∧
    parseString add q next text sink = ((rs.map (·.subst f)).foldl add sink, n', .ok ()) ∧
    (∀ r ∈ rs, ∀ r' ∈ rs, ∀ l l', r.HasLabel l → r'.HasLabel l' → f l = f l' → l = l') ∧
    ∀ r ∈ rs, ∀ l, r.HasLabel l → next ≤ f l ∧ f l < n'

theorem ReadsAs.of_doc {q : Bool} {text : PStr} {rs : List RStmt} (h : pDoc q text = .ok rs) : ReadsAs q text rs :=
  fun _ add next sink => C41_labels_scoped add q next text sink rs h

/-! ### C106 -/

/-- A text is read without an error exactly when it is a sentence of the grammar. -/
theorem C106_accepts {σ : Type} (add : σ → Stmt → σ) (q : Bool) (next : Nat) (text : PStr) (sink : σ) :
    (parseString add q next text sink).2.2 = .ok () ↔ ∃ rs, Doc code q text rs := by
  unfold parseString
  cases h : pDoc q text with
  | error e =>
    simp only [reduceCtorEq, false_iff]
    rintro ⟨rs, hr⟩
    rw [pDoc_iff.2 hr] at h; cases h
  | ok rs => simp only [true_iff]; exact ⟨rs, pDoc_iff.1 h⟩

/-- What is added are the statements of the sentence. -/
theorem C106_meaning {q : Bool} {text : PStr} {rs : List RStmt} (h : Doc code q text rs) : ReadsAs q text rs := .of_doc (pDoc_iff.2 h)

/-- The grammar is unambiguous. -/
theorem C106_unambiguous {q : Bool} {text : PStr} {rs rs' : List RStmt} (h : Doc code q text rs) (h' : Doc code q text rs') : rs = rs' := by
  have := pDoc_iff.2 h
  rw [pDoc_iff.2 h'] at this
  exact (Except.ok.inj this).symm

example : Doc code false (py! "_:a <p> \"x\\n\"@en .") [⟨.label (py! "_:a"), .iri (py! "p"), .lit (py! "x\n") (some (py! "en")) none, none⟩] :=
  pDoc_iff.1 (by decide)

/-! ### C107 -/

/-- The property: whatever is read is N-Triples (or N-Quads), and is read as what it means. -/
def C107_statement : Prop :=
  ∀ q text, (parseString (fun l t => l ++ [t]) q 0 text []).2.2 = .ok () → ∃ rs, Doc w3c q text rs ∧ ReadsAs q text rs

theorem longest_of_stop {T : PStr → Prop} {p : Nat → Prop} (hT : ∀ w, T w → ∀ c ∈ w, p c) {w r : PStr} (h : T w) (hr : r = [] ∨ ∃ c t, r = c :: t ∧ ¬ p c) :
    Longest T w r := by
  refine ⟨h, fun w' hp hw' => ?_⟩
  rcases hr with rfl | ⟨c, t, rfl, hc⟩
  · rw [List.append_nil] at hp; exact hp.length_le
  · apply Nat.le_of_not_lt
    intro hlt
    obtain ⟨u, hu⟩ := hp
    have hpre : w <+: w' := List.prefix_of_prefix_length_le (List.prefix_append w (c :: t)) (hu ▸ List.prefix_append ..) (by omega)
    obtain ⟨v, rfl⟩ := hpre
    cases v with
    | nil => simp at hlt
    | cons d v =>
      rw [List.append_assoc, List.append_cancel_left_eq, List.cons_append] at hu
      cases hu
      exact hc (hT _ hw' c (by simp))

/-- A text that begins with a statement begins with `<` or `_` after white space; what remains after the last statement does not. -/
theorem NTSpec.Rest.head {D : Dialect} {q : Bool} {s : PStr} {ts : List RStmt} (h : Rest D q s ts) :
    s = [] ∨ ∃ c t, s = c :: t ∧ (c = 0x20 ∨ c = 0x09 ∨ c = 0x23 ∨ isEolChar c) := by
  have le : ∀ {w}, LineEnd D w → ∀ r, (r = [] ∨ ∃ c t, r = c :: t ∧ (c = 0x20 ∨ c = 0x09 ∨ c = 0x23 ∨ isEolChar c)) →
      w ++ r = [] ∨ ∃ c t, w ++ r = c :: t ∧ (c = 0x20 ∨ c = 0x09 ∨ c = 0x23 ∨ isEolChar c) := by
    intro w hw r hr
    cases hw with
    | ws hw =>
      cases w with
      | nil => exact hr
      | cons c w => exact .inr ⟨c, w ++ r, rfl, (hw c (by simp)).imp_right .inl⟩
    | @comment w t _ hw _ =>
      cases w with
      | nil => exact .inr ⟨_, _, rfl, .inr (.inr (.inl rfl))⟩
      | cons c w => exact .inr ⟨c, _, rfl, (hw c (by simp)).imp_right .inl⟩
  have eo : ∀ {e}, Eol D e → ∀ r, ∃ c t, e ++ r = c :: t ∧ (c = 0x20 ∨ c = 0x09 ∨ c = 0x23 ∨ isEolChar c) := by
    intro e he r
    cases he with
    | one h => exact ⟨_, _, rfl, .inr (.inr (.inr h))⟩
    | more h _ => exact ⟨_, _, rfl, .inr (.inr (.inr h))⟩
    | comment _ h _ _ => exact ⟨_, _, rfl, .inr (.inr (.inr h))⟩
  cases h with
  | eof hw => have := le hw [] (.inl rfl); rwa [List.append_nil] at this
  | eol hw he _ => exact le hw _ (.inr (eo he _))
  | next hw he _ _ => exact le hw _ (.inr (eo he _))

theorem ws_head {w r t : PStr} {c d : Nat} (hw : Ws w) (hd : ¬ (d = 0x20 ∨ d = 0x09)) (e : w ++ c :: r = d :: t) : w = [] ∧ c = d ∧ r = t := by
  cases w with
  | nil => cases e; exact ⟨rfl, rfl, rfl⟩
  | cons x w => cases e; exact absurd (hw d (by simp)) hd

/-- False: the blank node label `_:a;b` is read. -/
theorem C107_refuted : ¬ C107_statement := by
  intro h
  obtain ⟨rs, hd, _⟩ := h false (py! "_:a;b <p> <o> .") (by decide)
  have node : ∀ {s : PStr} {a : RTerm} {r1 p r2 : PStr}, s = py! "_:a;b <p> <o> ." → Node w3c s a r1 → Iri w3c r1 p r2 → False := by
    intro s a r1 p r2 hs hn hi
    cases hn with
    | iri hn =>
      obtain ⟨hw, _⟩ := hn
      have := (ws_head hw (by decide) hs).2.1
      revert this; decide
    | @label w l r hw hl _ =>
      obtain ⟨c, t, rfl, -, ht, -⟩ := hl.1
      rw [List.cons_append] at hs
      have h1 := (ws_head hw (by decide) hs).2.2
      simp only [List.cons_append, List.cons.injEq] at h1
      obtain ⟨-, -, h2⟩ := h1
      have ht0 : t = [] := by
        cases t with
        | nil => rfl
        | cons x t =>
          simp only [List.cons_append, List.cons.injEq] at h2
          have := ht x (by simp)
          rw [h2.1] at this
          simp [w3c, NTSpec.pnChars, NTSpec.pnCharsU, NTSpec.pnCharsBase, isAlpha, NTSpec.isDigitChar] at this
      subst ht0
      rw [List.nil_append] at h2
      obtain ⟨hw', _⟩ := hi
      have := (ws_head hw' (by decide) h2).2.1
      revert this; decide
  cases hd with
  | first hst _ =>
    generalize hs : py! "_:a;b <p> <o> ." = s at hst
    cases hst with
    | triple h1 h2 _ _ => exact node hs.symm h1 h2
  | rest hr =>
    rcases hr.head with h | ⟨c, t, h, hc⟩
    · cases h
    · cases h; revert hc; simp [isEolChar]

/-- The text after a statement: nothing, white space, a comment or the end of the line. -/
def AfterStmt (r : PStr) : Prop := r = [] ∨ ∃ c t, r = c :: t ∧ (c = 0x20 ∨ c = 0x09 ∨ c = 0x23 ∨ isEolChar c)

/-- The text after a term of a statement: white space, an IRI, the dot that ends the statement, or a blank node that names the graph. -/
def After (D : Dialect) (r : PStr) : Prop :=
  ∃ c t, r = c :: t ∧ (c = 0x20 ∨ c = 0x09 ∨ c = 0x3C ∨ (c = 0x2E ∧ AfterStmt t) ∨ (D.bnodeGraph ∧ c = 0x5F))

theorem dot_after (D : Dialect) {s r : PStr} (h : Dot s r) (hr : AfterStmt r) : After D s := by
  obtain ⟨hw⟩ := h
  next w =>
  cases w with
  | nil => exact ⟨_, _, rfl, by simp [hr]⟩
  | cons c w => exact ⟨c, _, rfl, by have := hw c (by simp); rcases this with h | h <;> simp [h]⟩

theorem iri_after {D : Dialect} {s v r : PStr} (h : Iri D s v r) : After D s := by
  obtain ⟨hw, _⟩ := h
  next w b _ =>
  cases w with
  | nil => exact ⟨_, _, rfl, by simp⟩
  | cons c w => exact ⟨c, _, rfl, by have := hw c (by simp); rcases this with h | h <;> simp [h]⟩

theorem label_after {D : Dialect} (hb : D.bnodeGraph) {s g r : PStr} (h : Node D s (.label g) r) : After D s := by
  cases h with
  | @label w l r hw hl _ =>
    obtain ⟨c, t, rfl, _⟩ := hl.1
    cases w with
    | nil => exact ⟨_, _, rfl, by simp [hb]⟩
    | cons c w => exact ⟨c, _, rfl, by have := hw c (by simp); rcases this with h | h <;> simp [h]⟩

theorem label_longest {D : Dialect} {l r : PStr} (h : LabelTok D l)
    (stop : ∃ k r', r = List.replicate k 0x2E ++ r' ∧ (r' = [] ∨ ∃ c t, r' = c :: t ∧ ¬ D.labelChar c ∧ c ≠ 0x2E)) : Longest (LabelTok D) l r := by
  refine ⟨h, fun w' hp hw' => Nat.le_of_not_lt fun hlt => ?_⟩
  obtain ⟨k, r', rfl, hr'⟩ := stop
  obtain ⟨u, hu⟩ := hp
  obtain ⟨v, rfl⟩ : l <+: w' := List.prefix_of_prefix_length_le (List.prefix_append l _) (hu ▸ List.prefix_append ..) (by omega)
  rw [List.append_assoc, List.append_cancel_left_eq] at hu
  have hv : v ≠ [] := by rintro rfl; simp at hlt
  obtain ⟨c, t, rfl, _⟩ := h
  obtain ⟨c', t', e, -, h2, h3⟩ := hw'
  simp only [List.cons_append, List.cons.injEq, true_and] at e
  obtain ⟨rfl, rfl⟩ := e
  have hlast : (t ++ v).getLast? = v.getLast? := by
    cases v with
    | nil => exact absurd rfl hv
    | cons x v => rw [List.getLast?_append]; cases h : (x :: v).getLast? with
      | none => simp at h
      | some y => rfl
  rw [hlast] at h3
  have dots : (∀ x ∈ v, x = 0x2E) → False := by
    intro hd
    cases h : v.getLast? with
    | none => exact hv (List.getLast?_eq_none_iff.1 h)
    | some y =>
      rw [h] at h3
      exact h3 (congrArg some (hd y (List.mem_of_getLast? h)))
  have hv2 : v <+: List.replicate k 0x2E ++ r' := hu ▸ List.prefix_append ..
  rcases List.prefix_or_prefix_of_prefix hv2 (List.prefix_append (List.replicate k 0x2E) r') with hp | ⟨v', rfl⟩
  · exact dots fun x hx => (List.mem_replicate.1 (hp.subset hx)).2
  · rw [List.prefix_append_right_inj] at hv2
    cases v' with
    | nil => exact dots fun x hx => by rw [List.append_nil] at hx; exact (List.mem_replicate.1 hx).2
    | cons x v' =>
      rcases hr' with rfl | ⟨d, y, rfl, h4, h5⟩
      · simp at hv2
      · obtain ⟨rfl, _⟩ := List.cons_prefix_cons.1 hv2
        exact (h2 x (by simp)).elim h4 h5

theorem w3c_label_stop {c : Nat} (h : c = 0x20 ∨ c = 0x09 ∨ c = 0x23 ∨ isEolChar c ∨ c = 0x3C) : ¬ w3c.labelChar c ∧ c ≠ 0x2E := by
  simp only [w3c, NTSpec.pnChars, NTSpec.pnCharsU, NTSpec.pnCharsBase, isAlpha, NTSpec.isDigitChar, isEolChar] at h ⊢
  omega

theorem langParts_map {D D' : Dialect} {s : PStr} (h : LangParts D s) (hc : ∀ c ∈ s, D.langChar c → D'.langChar c) : LangParts D' s := by
  induction h with
  | nil => exact .nil
  | part hne hp _ ih => exact .part hne (fun c h => hc c (by simp [h]) (hp c h)) (ih fun c h => hc c (by simp [h]))

theorem langTok_map {D D' : Dialect} {s : PStr} (h : LangTok D s) (hc : ∀ c ∈ s, D.langChar c → D'.langChar c) : LangTok D' s := by
  obtain ⟨p, t, rfl, h1, h2, h3⟩ := h
  exact ⟨p, t, rfl, h1, h2, langParts_map h3 fun c h => hc c (by simp [h])⟩

theorem lang_longest {D : Dialect} (hD : ∀ c, D.langChar c → isAlpha c ∨ (0x30 ≤ c ∧ c ≤ 0x39)) {l r : PStr} (h : LangTok D l) {D' : Dialect}
    (hr : After D' r) (hb : ¬ D'.bnodeGraph) : Longest (LangTok D) l r := by
  have chars : ∀ w, LangTok D w → ∀ c ∈ w, (isAlpha c ∨ (0x30 ≤ c ∧ c ≤ 0x39)) ∨ c = 0x2D := by
    have parts : ∀ {s}, LangParts D s → ∀ c ∈ s, (isAlpha c ∨ (0x30 ≤ c ∧ c ≤ 0x39)) ∨ c = 0x2D := by
      intro s hs
      induction hs with
      | nil => simp
      | part _ hp _ ih =>
        intro c hc
        simp only [List.mem_cons, List.mem_append] at hc
        rcases hc with rfl | hc | hc
        · exact .inr rfl
        · exact .inl (hD c (hp c hc))
        · exact ih c hc
    rintro w ⟨p, s, rfl, _, hp, hs⟩ c hc
    rcases List.mem_append.1 hc with hc | hc
    · exact .inl (.inl (hp c hc))
    · exact parts hs c hc
  refine longest_of_stop chars h (.inr ?_)
  obtain ⟨c, t, rfl, h⟩ := hr
  refine ⟨c, t, rfl, ?_⟩
  have : ¬ (c = 0x5F ∧ D'.bnodeGraph) := fun h => hb h.2
  simp only [isAlpha]
  rcases h with h | h | h | h | h
  · omega
  · omega
  · omega
  · have := h.1; omega
  · exact absurd h.1 hb

/-- A dialect whose sentences are sentences of another. -/
structure Sub (D D' : Dialect) : Prop where
  gaps : D.gaps → D'.gaps
  comments : D.comments → D'.comments
  noGraph : D.noGraph → D'.noGraph
  bnodeGraph : D.bnodeGraph → D'.bnodeGraph
  label : ∀ l r, Longest (LabelTok D) l r → D.labelOk l r → After D r → Longest (LabelTok D') l r ∧ D'.labelOk l r
  lang : ∀ l r, Longest (LangTok D) l r → D.langOk l → After D r → Longest (LangTok D') l r ∧ D'.langOk l

theorem Sub.body {D D' : Dialect} (S : Sub D D') {b v : PStr} (h : IriBody D b v) : IriBody D' b v := by
  induction h with
  | nil => exact .nil
  | char h1 h2 _ ih => exact .char h1 h2 ih
  | uchar4 h _ ih => exact .uchar4 h ih
  | uchar8 h hc _ ih => exact .uchar8 h hc ih
  | gap h hc _ ih => exact .gap (S.gaps h) hc ih

theorem Sub.iri {D D' : Dialect} (S : Sub D D') {s v r : PStr} (h : Iri D s v r) : Iri D' s v r := by
  obtain ⟨hw, hb⟩ := h
  exact .mk hw (S.body hb)

theorem Sub.node {D D' : Dialect} (S : Sub D D') {s : PStr} {t : RTerm} {r : PStr} (h : Node D s t r) (hr : After D r) : Node D' s t r := by
  cases h with
  | iri h => exact .iri (S.iri h)
  | label hw h1 h2 => exact .label hw (S.label _ _ h1 h2 hr).1 (S.label _ _ h1 h2 hr).2

theorem Sub.object {D D' : Dialect} (S : Sub D D') {s : PStr} {t : RTerm} {r : PStr} (h : Object D s t r) (hr : After D r) : Object D' s t r := by
  cases h with
  | node h => exact .node (S.node h hr)
  | plain h1 h2 h3 => exact .plain h1 h2 h3
  | typed h1 h2 h3 h4 h5 => exact .typed h1 h2 h3 h4 (S.iri h5)
  | lang h1 h2 h3 h4 h5 h6 => exact .lang h1 h2 h3 h4 (S.lang _ _ h5 h6 hr).1 (S.lang _ _ h5 h6 hr).2

theorem Sub.statement {D D' : Dialect} (S : Sub D D') {q : Bool} {s : PStr} {t : RStmt} {r : PStr} (h : Statement D q s t r) (hr : AfterStmt r) :
    Statement D' q s t r := by
  cases h with
  | triple h1 h2 h3 h4 => exact .triple (S.node h1 (iri_after h2)) (S.iri h2) (S.object h3 (dot_after D h4 hr)) h4
  | quad h1 h2 h3 h4 h5 => exact .quad (S.node h1 (iri_after h2)) (S.iri h2) (S.object h3 (iri_after h4)) (S.iri h4) h5
  | bnodeGraph h h1 h2 h3 h4 h5 =>
    exact .bnodeGraph (S.bnodeGraph h) (S.node h1 (iri_after h2)) (S.iri h2) (S.object h3 (label_after h h4)) (S.node h4 (dot_after D h5 hr)) h5
  | noGraph h h1 h2 h3 h4 => exact .noGraph (S.noGraph h) (S.node h1 (iri_after h2)) (S.iri h2) (S.object h3 (dot_after D h4 hr)) h4

theorem Sub.lineEnd {D D' : Dialect} (S : Sub D D') {w : PStr} (h : LineEnd D w) : LineEnd D' w := by
  cases h with
  | ws h => exact .ws h
  | comment h h1 h2 => exact .comment (S.comments h) h1 h2

theorem Sub.eol {D D' : Dialect} (S : Sub D D') {e : PStr} (h : Eol D e) : Eol D' e := by
  induction h with
  | one h => exact .one h
  | more h _ ih => exact .more h ih
  | comment h h1 h2 _ ih => exact .comment (S.comments h) h1 h2 ih

theorem Sub.rest {D D' : Dialect} (S : Sub D D') {q : Bool} {s : PStr} {ts : List RStmt} (h : Rest D q s ts) : Rest D' q s ts := by
  induction h with
  | eof h => exact .eof (S.lineEnd h)
  | eol h1 h2 h3 => exact .eol (S.lineEnd h1) (S.eol h2) (S.lineEnd h3)
  | next h1 h2 h3 h4 ih => exact .next (S.lineEnd h1) (S.eol h2) (S.statement h3 h4.head) ih

theorem Sub.doc {D D' : Dialect} (S : Sub D D') {q : Bool} {s : PStr} {ts : List RStmt} (h : Doc D q s ts) : Doc D' q s ts := by
  cases h with
  | first h1 h2 => exact .first (S.statement h1 h2.head) (S.rest h2)
  | rest h => exact .rest (S.rest h)

theorem longest_congr {T T' : PStr → Prop} (h : ∀ w, T w ↔ T' w) {l r : PStr} (hl : Longest T l r) : Longest T' l r :=
  ⟨(h l).1 hl.1, fun w hw h' => hl.2 w hw ((h w).2 h')⟩

theorem Sub.strict_code : Sub strict code where
  gaps h := h.elim
  comments h := h
  noGraph h := h
  bnodeGraph h := h
  label _ _ h _ _ := ⟨h, trivial⟩
  lang _ _ h _ _ := ⟨longest_congr (T := LangTok strict) (T' := LangTok code) (fun _ => ⟨fun h => langTok_map h fun _ _ h => h, fun h => langTok_map h fun _ _ h => h⟩) h, trivial⟩

theorem Sub.strict_w3c : Sub strict w3c where
  gaps h := h.elim
  comments h := h.elim
  noGraph h := h.elim
  bnodeGraph h := h.elim
  label l r _ hl hr := by
    refine ⟨label_longest hl ?_, trivial⟩
    obtain ⟨c, t, rfl, hc⟩ := hr
    rcases hc with hc | hc | hc | ⟨rfl, ht⟩ | ⟨h, _⟩
    · exact ⟨0, _, rfl, .inr ⟨c, t, rfl, w3c_label_stop (by simp [hc])⟩⟩
    · exact ⟨0, _, rfl, .inr ⟨c, t, rfl, w3c_label_stop (by simp [hc])⟩⟩
    · exact ⟨0, _, rfl, .inr ⟨c, t, rfl, w3c_label_stop (by simp [hc])⟩⟩
    · exact ⟨1, t, rfl, ht.imp_right fun ⟨c, t, e, h⟩ => ⟨c, t, e, w3c_label_stop (by rcases h with h | h | h | h <;> simp [h])⟩⟩
    · exact h.elim
  lang l r h hl hr := by
    refine ⟨lang_longest (fun _ h => h) (langTok_map (D := strict) h.1 fun c hc h => ?_) hr fun h => h.elim, trivial⟩
    rcases h with h | h | h | h
    · exact .inl h
    · exact .inr (by rw [h]; simp [NTSpec.isDigitChar])
    · rw [h] at hc; exact absurd hc hl
    · exact .inr (by rw [h]; simp [NTSpec.isDigitChar])

/-- A sentence without white space inside IRIs, whose blank node labels are those of the recommendations and whose language tags have no "_", is N-Triples
    (or N-Quads), and is read as what it means. -/
theorem C107_strict_partial {q : Bool} {text : PStr} {rs : List RStmt} (h : Doc strict q text rs) : Doc w3c q text rs ∧ ReadsAs q text rs :=
  ⟨Sub.strict_w3c.doc h, C106_meaning (Sub.strict_code.doc h)⟩

/-- The grammar without white space inside IRIs. -/
def noGaps : Dialect := { code with gaps := False }

/-- A term the recommendations can write: the label is one of theirs, the language tag has no "_". -/
def RTerm.Legal : RTerm → Prop
  | .label l => LabelTok w3c l
  | .lit _ (some l) _ => 0x5F ∉ l
  | _ => True

def RStmt.Legal (t : RStmt) : Prop := t.s.Legal ∧ t.o.Legal

theorem restrict_body {b v : PStr} (h : IriBody noGaps b v) : IriBody strict b v := by
  induction h with
  | nil => exact .nil
  | char h1 h2 _ ih => exact .char h1 h2 ih
  | uchar4 h _ ih => exact .uchar4 h ih
  | uchar8 h hc _ ih => exact .uchar8 h hc ih
  | gap h => exact h.elim

theorem restrict_iri {s v r : PStr} (h : Iri noGaps s v r) : Iri strict s v r := by
  obtain ⟨hw, hb⟩ := h
  exact .mk hw (restrict_body hb)

theorem restrict_node {s : PStr} {t : RTerm} {r : PStr} (h : Node noGaps s t r) (ht : t.Legal) : Node strict s t r := by
  cases h with
  | iri h => exact .iri (restrict_iri h)
  | label hw h1 _ => exact .label hw h1 ht

theorem restrict_object {s : PStr} {t : RTerm} {r : PStr} (h : Object noGaps s t r) (ht : t.Legal) : Object strict s t r := by
  cases h with
  | node h => exact .node (restrict_node h ht)
  | plain h1 h2 h3 => exact .plain h1 h2 h3
  | typed h1 h2 h3 h4 h5 => exact .typed h1 h2 h3 h4 (restrict_iri h5)
  | lang h1 h2 h3 h4 h5 _ =>
    exact .lang h1 h2 h3 h4 (longest_congr (T := LangTok noGaps) (T' := LangTok strict) (fun _ => ⟨fun h => langTok_map h fun _ _ h => h, fun h => langTok_map h fun _ _ h => h⟩) h5) ht

theorem restrict_statement {q : Bool} {s : PStr} {t : RStmt} {r : PStr} (h : Statement noGaps q s t r) (ht : t.Legal) : Statement strict q s t r := by
  cases h with
  | triple h1 h2 h3 h4 => exact .triple (restrict_node h1 ht.1) (restrict_iri h2) (restrict_object h3 ht.2) h4
  | quad h1 h2 h3 h4 h5 => exact .quad (restrict_node h1 ht.1) (restrict_iri h2) (restrict_object h3 ht.2) (restrict_iri h4) h5
  | bnodeGraph h => exact h.elim
  | noGraph h => exact h.elim

theorem restrict_lineEnd {w : PStr} (h : LineEnd noGaps w) : LineEnd strict w := by
  cases h with
  | ws h => exact .ws h
  | comment h => exact h.elim

theorem restrict_eol {e : PStr} (h : Eol noGaps e) : Eol strict e := by
  induction h with
  | one h => exact .one h
  | more h _ ih => exact .more h ih
  | comment h => exact h.elim

theorem restrict_rest {q : Bool} {s : PStr} {ts : List RStmt} (h : Rest noGaps q s ts) (ht : ∀ t ∈ ts, t.Legal) : Rest strict q s ts := by
  induction h with
  | eof h => exact .eof (restrict_lineEnd h)
  | eol h1 h2 h3 => exact .eol (restrict_lineEnd h1) (restrict_eol h2) (restrict_lineEnd h3)
  | next h1 h2 h3 _ ih =>
    exact .next (restrict_lineEnd h1) (restrict_eol h2) (restrict_statement h3 (ht _ (by simp))) (ih fun t h => ht t (by simp [h]))

/-- Of the texts that are read, those are N-Triples (or N-Quads) that need no white space inside an IRI and in whose statements the labels and language
    tags are those of the recommendations. -/
theorem C107_legal_partial {q : Bool} {text : PStr} {rs : List RStmt} (h : Doc noGaps q text rs) (ht : ∀ t ∈ rs, t.Legal) :
    Doc w3c q text rs ∧ ReadsAs q text rs := by
  apply C107_strict_partial
  cases h with
  | first h1 h2 => exact .first (restrict_statement h1 (ht _ (by simp))) (restrict_rest h2 fun t h => ht t (by simp [h]))
  | rest h => exact .rest (restrict_rest h ht)

/-! ### C108 -/

/-- The property: every N-Triples (or N-Quads) document is read, as what it means. -/
def C108_statement : Prop := ∀ q text rs, Doc w3c q text rs → ReadsAs q text rs

/-- False: an N-Quads statement without a graph label is not read. -/
theorem C108_refuted : ¬ C108_statement := by
  intro h
  have one : ∀ c : Nat, 0x61 ≤ c → c ≤ 0x7A → IriBody w3c [c] [c] := fun c h1 h2 => .char (by omega) (by simp; omega) .nil
  have hd : Doc w3c true (py! "<a> <p> <o> .") [⟨.iri (py! "a"), .iri (py! "p"), .iri (py! "o"), none⟩] := by
    refine .first (.noGraph trivial (r1 := py! " <p> <o> .") (r2 := py! " <o> .") (r3 := py! " .") (r := []) (.iri ?_) ?_ (.node (.iri ?_)) ?_)
      (.eof (.ws (by simp [Ws])))
    · exact .mk (w := []) (by simp [Ws]) (one 97 (by decide) (by decide))
    · exact .mk (w := [32]) (by simp [Ws]) (one 112 (by decide) (by decide))
    · exact .mk (w := [32]) (by simp [Ws]) (one 111 (by decide) (by decide))
    · exact .mk (w := [32]) (by simp [Ws])
  obtain ⟨f, n', -, he, -⟩ := h true _ _ hd (List Stmt) (fun l t => l ++ [t]) 0 []
  have := congrArg (·.2.2) he
  revert this
  show (parseString (fun l t => l ++ [t]) true 0 (py! "<a> <p> <o> .") []).2.2 = .ok () → False
  decide

theorem langTok_chars {w : PStr} (h : LangTok code w) : ∀ c ∈ w, (isAlpha c ∨ c = 0x30 ∨ c = 0x5F ∨ c = 0x39) ∨ c = 0x2D := by
  have parts : ∀ {s}, LangParts code s → ∀ c ∈ s, (isAlpha c ∨ c = 0x30 ∨ c = 0x5F ∨ c = 0x39) ∨ c = 0x2D := by
    intro s hs
    induction hs with
    | nil => simp
    | part _ hp _ ih =>
      intro c hc
      simp only [List.mem_cons, List.mem_append] at hc
      rcases hc with rfl | hc | hc
      · exact .inr rfl
      · exact .inl (hp c hc)
      · exact ih c hc
  obtain ⟨p, s, rfl, _, hp, hs⟩ := h
  intro c hc
  rcases List.mem_append.1 hc with hc | hc
  · exact .inl (.inl (hp c hc))
  · exact parts hs c hc

theorem code_label_stop {c : Nat} (h : c = 0x20 ∨ c = 0x09 ∨ isEolChar c) : ¬ code.labelChar c ∧ c ≠ 0x2E := by
  simp only [code, NTSpec.pnChars, NTSpec.pnCharsU, NTSpec.pnCharsBase, isAlpha, NTSpec.isDigitChar, isEolChar] at h ⊢
  omega

theorem Sub.tidy_code : Sub tidy code where
  gaps h := h.elim
  comments h := h
  noGraph h := h
  bnodeGraph h := h
  label l r h hl _ := by
    obtain ⟨hc, k, r', rfl, hr'⟩ := hl
    refine ⟨label_longest ?_ ⟨k, r', rfl, hr'.imp_right fun ⟨c, t, e, h⟩ => ⟨c, t, e, code_label_stop h⟩⟩, trivial⟩
    obtain ⟨c, t, rfl, h1, h2, h3⟩ := h.1
    refine ⟨c, t, rfl, ?_, fun x hx => (h2 x hx).imp_left fun h => .inr ⟨h, hc x (by simp [hx])⟩, h3⟩
    rcases h1 with h1 | h1
    · exact .inr ⟨h1, hc c (by simp)⟩
    · exact .inl ⟨h1.1, by have := h1.2; omega⟩
  lang l r h hl hr := by
    have ht : LangTok code l := by
      refine langTok_map (D := tidy) h.1 fun c hc h => ?_
      rcases h with h | h
      · exact .inl h
      · have h1 := hl c hc
        have h2 : 0x30 ≤ c ∧ c ≤ 0x39 := h
        exact .inr (by omega)
    refine ⟨⟨ht, fun w' hp hw' => ?_⟩, trivial⟩
    apply Nat.le_of_not_lt
    intro hlt
    obtain ⟨u, hu⟩ := hp
    obtain ⟨v, rfl⟩ : l <+: w' := List.prefix_of_prefix_length_le (List.prefix_append l r) (hu ▸ List.prefix_append ..) (by omega)
    rw [List.append_assoc, List.append_cancel_left_eq] at hu
    obtain ⟨c, t, rfl, hc⟩ := hr
    cases v with
    | nil => simp at hlt
    | cons d v =>
      rw [List.cons_append, List.cons.injEq] at hu
      have := langTok_chars hw' d (by simp)
      rw [hu.1] at this
      have hb : ¬ (tidy.bnodeGraph ∧ c = 0x5F) := fun h => h.1
      rcases hc with hc | hc | hc | hc | hc
      · rw [hc] at this; revert this; simp [isAlpha]
      · rw [hc] at this; revert this; simp [isAlpha]
      · rw [hc] at this; revert this; simp [isAlpha]
      · rw [hc.1] at this; revert this; simp [isAlpha]
      · exact hb hc

/-- Every N-Triples document is read as what it means which has no comments, whose blank node labels have characters up to U+FFFF and are followed by white
    space or by a dot that ends the line, and whose language tags contain none of the digits from 1 to 8; likewise every N-Quads document whose
    statements have, moreover, an IRI for graph label. -/
theorem C108_tidy_partial {q : Bool} {text : PStr} {rs : List RStmt} (h : Doc tidy q text rs) : ReadsAs q text rs :=
  C106_meaning (Sub.tidy_code.doc h)

theorem stmt_rejected {σ : Type} (add : σ → Stmt → σ) (next : Nat) (sink : σ) {q : Bool} {s r1 : PStr} {a : RTerm} (h1 : Node code s a r1)
    (hp : pStmt q s = .error .unexpectedInput) : parseString add q next s sink = (sink, next, .error .unexpectedInput) := by
  obtain ⟨c, u, hc, heol⟩ : ∃ c u, skipWs s = c :: u ∧ isEol c = false := by
    cases h1 with
    | iri h => obtain ⟨hw, _⟩ := h; exact ⟨_, _, skipWs_stop hw (by decide) _, by decide⟩
    | @label w l r hw hl _ =>
      obtain ⟨c, t, rfl, _⟩ := hl.1
      exact ⟨_, _, by rw [List.cons_append]; exact skipWs_stop hw (by decide) _, by decide⟩
  rw [← pStmt_skipWs, hc] at hp
  have : pDoc q s = .error .unexpectedInput := by
    unfold pDoc
    rw [hc]
    simp only [heol, hp]
    rfl
  unfold parseString
  rw [this]

/-- A statement of N-Quads without a graph label is never read, whatever follows. -/
theorem C108_no_graph_rejected {σ : Type} (add : σ → Stmt → σ) (next : Nat) (sink : σ) {s r1 p r2 r3 r : PStr} {a o : RTerm}
    (h1 : Node code s a r1) (h2 : Iri code r1 p r2) (h3 : Object code r2 o r3) (h4 : Dot r3 r) :
    parseString add true next s sink = (sink, next, .error .unexpectedInput) := by
  have hp : pStmt true s = .error .unexpectedInput := by
    unfold pStmt pGraph
    simp only [pSubject_iff.2 h1, pIriRef_iff.2 h2, pObject_complete h3 h4.noSuffix, if_true]
    obtain ⟨hw⟩ := h4
    unfold pIriRef
    rw [skipWs_stop hw (by decide)]
    rfl
  exact stmt_rejected add next sink h1 hp

/-- Nor is one whose graph label is a blank node. -/
theorem C108_bnode_graph_rejected {σ : Type} (add : σ → Stmt → σ) (next : Nat) (sink : σ) {s r1 p r2 r3 g r : PStr} {a o : RTerm}
    (h1 : Node code s a r1) (h2 : Iri code r1 p r2) (h3 : Object code r2 o r3) (h4 : Node code r3 (.label g) r) :
    parseString add true next s sink = (sink, next, .error .unexpectedInput) := by
  cases h4 with
  | @label w l r hw hl _ =>
    obtain ⟨c, t, rfl, _⟩ := hl.1
    have hw' : skipWs (w ++ (95 :: 58 :: c :: t ++ r)) = 95 :: (58 :: c :: t ++ r) := by rw [List.cons_append]; exact skipWs_stop hw (by decide) _
    have hs : NoSuffix (w ++ (95 :: 58 :: c :: t ++ r)) := by
      intro c' t' e
      rw [hw'] at e
      cases e; decide
    have hp : pStmt true s = .error .unexpectedInput := by
      unfold pStmt pGraph
      simp only [pSubject_iff.2 h1, pIriRef_iff.2 h2, pObject_complete h3 hs, if_true]
      unfold pIriRef
      rw [hw']
      rfl
    exact stmt_rejected add next sink h1 hp

/-- A label of the recommendations that is not read, one character beyond U+FFFF; and one that is read as a longer one, because white space is missing. -/
theorem C108_labels : (parseString (fun l t => l ++ [t]) false 0 (py! "_:" ++ [0x10000] ++ py! " <p> <o> .") []).2.2 = .error .unexpectedInput ∧
    (parseString (fun l t => l ++ [t]) false 0 (py! "_:a<p> <o> .") []).2.2 = .error .unexpectedInput := by decide

/-- A document with a blank node, a language tag and two lines, in any dialect in which its label and its language tag may be written so. -/
theorem sample_doc (D : Dialect) (hl : Longest (LabelTok D) (py! "_:a") (py! " <p> \"x\"@en .\n\n")) (hl' : D.labelOk (py! "_:a") (py! " <p> \"x\"@en .\n\n"))
    (ht : Longest (LangTok D) (py! "en") (py! " .\n\n")) (ht' : D.langOk (py! "en")) :
    Doc D false (py! "_:a <p> \"x\"@en .\n\n") [⟨.label (py! "_:a"), .iri (py! "p"), .lit (py! "x") (some (py! "en")) none, none⟩] := by
  refine .first (.triple (r1 := py! " <p> \"x\"@en .\n\n") (r2 := py! " \"x\"@en .\n\n") (r3 := py! " .\n\n") (r := py! "\n\n") ?_ ?_ ?_ ?_)
    (.eol (w := []) (e := py! "\n\n") (w' := []) (.ws (by simp [Ws])) ?_ (.ws (by simp [Ws])))
  · exact .label (w := []) (by simp [Ws]) hl hl'
  · exact .mk (w := [32]) (b := [112]) (by simp [Ws]) (.char (by decide) (by decide) .nil)
  · exact .lang (w := [32]) (b := [120]) (w' := []) (by simp [Ws]) (.plain (by decide) (by decide) (by decide) (by decide) .nil)
      (.plain (by decide) .nil) (by simp [Ws]) ht ht'
  · exact .mk (w := [32]) (by simp [Ws])
  · exact .more (.inl rfl) (.one (.inl rfl))

theorem sample_lang {D : Dialect} : LangTok D (py! "en") := ⟨py! "en", [], rfl, by simp, by simp [isAlpha], .nil⟩

example : ReadsAs false (py! "_:a <p> \"x\"@en .\n\n") [⟨.label (py! "_:a"), .iri (py! "p"), .lit (py! "x") (some (py! "en")) none, none⟩] := by
  refine C108_tidy_partial (sample_doc tidy (label_longest ?_ ?_) ⟨by decide, 0, _, rfl, .inr ⟨_, _, rfl, .inl rfl⟩⟩
    (lang_longest (D' := tidy) (fun _ h => h) sample_lang ⟨_, _, rfl, .inl rfl⟩ fun h => h) ?_)
  · exact ⟨97, [], rfl, .inl (.inl (.inl (by simp [isAlpha]))), by simp, by simp⟩
  · exact ⟨0, _, rfl, .inr ⟨_, _, rfl, w3c_label_stop (.inl rfl)⟩⟩
  · show ∀ c ∈ py! "en", ¬ (0x31 ≤ c ∧ c ≤ 0x38)
    decide

example : Doc w3c false (py! "_:a <p> \"x\"@en .\n\n") [⟨.label (py! "_:a"), .iri (py! "p"), .lit (py! "x") (some (py! "en")) none, none⟩] := by
  have h : ∀ t : RStmt, t ∈ [(⟨.label (py! "_:a"), .iri (py! "p"), .lit (py! "x") (some (py! "en")) none, none⟩ : RStmt)] → t.Legal := by
    intro t ht
    simp only [List.mem_singleton] at ht
    subst ht
    exact ⟨⟨97, [], rfl, .inl (.inl (.inl (by simp [isAlpha]))), by simp, by simp⟩, by simp [RTerm.Legal]⟩
  refine (C107_legal_partial (sample_doc noGaps (label_longest ?_ ?_) trivial ⟨sample_lang, fun w hp hw => ?_⟩ trivial) h).1
  · exact ⟨97, [], rfl, .inl (by decide), by simp, by simp⟩
  · exact ⟨0, _, rfl, .inr ⟨_, _, rfl, code_label_stop (.inl rfl)⟩⟩
  · exact (lang_iff.1 ⟨101, py! "n .\n\n", rfl, by decide, rfl, rfl⟩).1.2 w hp (langTok_map (D := noGaps) hw fun _ _ h => h)

end Verif
