import Verif.Lemmas.NTTurtle
import Verif.Props.NTParse
/-
C109 (N-Triples documents are read by the Turtle reader) and C110 (the two readers agree on what both read).
-/
namespace Verif.NTTurtle
open NTSpec Turtle Verif.Spec

/-- The Turtle reader takes the text for the statements `rs`, with different new blank nodes for different labels. -/
def TurtleReads (nl : PStr → Bool) (base text : PStr) (rs : List RStmt) : Prop :=
  ∀ (σ : Type) (add : σ → Stmt → σ) (next : Nat) (sink : σ), ∃ f n', next ≤ n' ∧
    Turtle.parse add nl base next sink (.str text) = ((rs.map (·.subst f)).foldl add sink, n', .ok ()) ∧
    (∀ r ∈ rs, ∀ r' ∈ rs, ∀ l l', r.HasLabel l → r'.HasLabel l' → f l = f l' → l = l') ∧
    ∀ r ∈ rs, ∀ l, r.HasLabel l → next ≤ f l ∧ f l < n'

/-! ### C109 -/

/-- Full statement of C109: Turtle reads N-Triples documents as the statements they make. -/
def C109_statement : Prop := ∀ nl text rs, Doc NTSpec.w3c false text rs → (∀ t ∈ rs, ∀ i, t.HasIri i → IriChars i) →
  TurtleReads nl [] text (rs.map (·.inTurtle id))

theorem reads {C : Prop} {nl : PStr → Bool} {base text : PStr} {rs : List RStmt} {ρ : PStr → PStr} (h : Doc (turtle C) false text rs) (hc : C → CrLf text)
    (hi : ∀ t ∈ rs, ∀ i, t.HasIri i → Resolves nl base ρ i) : TurtleReads nl base text (rs.map (·.inTurtle ρ)) := by
  obtain ⟨ds, h1, h2⟩ := doc_tree h hc
  intro σ add next sink
  obtain ⟨es, e1, e2⟩ := eval_stmts (st := { base, prefixes := initialPrefixes, bn := { map := [], next } }) h1 hi
  obtain ⟨s1, s2, s3, s4⟩ := BState.stmts_spec (BState.OK.init next) (rs.map (·.inTurtle ρ))
  have hlook : ∀ r ∈ rs.map (·.inTurtle ρ), ∀ l, r.HasLabel l → (BState.stmts { map := [], next := next } (rs.map (·.inTurtle ρ))).1.map.get? l =
      some ((BState.stmts { map := [], next := next } (rs.map (·.inTurtle ρ))).1.look l) := by
    intro r hr l hl
    obtain ⟨k, hk⟩ := s3 r hr l hl
    simp [BState.look, hk]
  refine ⟨(BState.stmts { map := [], next := next } (rs.map (·.inTurtle ρ))).1.look, _, s2.1, ?_, ?_, fun r hr l hl => s1.range _ _ (hlook r hr l hl)⟩
  · rw [← s4]
    simp only [Turtle.parse, parseText, h2]
    rw [e1]
    simp only [e2]
  · intro r hr r' hr' l l' hl hl' e
    have b := hlook r' hr' l' hl'
    rw [← e] at b
    exact s1.inj _ _ _ (hlook r hr l hl) b

/-- Turtle reads an N-Triples document as the statements it makes, with IRIs resolved against the base. Missing: blank node labels with a colon, and
    comments if there is a carriage return without a line feed after it. -/
theorem C109_partial {C : Prop} {nl : PStr → Bool} {base text : PStr} {rs : List RStmt} {ρ : PStr → PStr} (h : Doc (turtle C) false text rs) (hc : C → CrLf text)
    (hi : ∀ t ∈ rs, ∀ i, t.HasIri i → IriChars i ∧ smartUrljoin nl base i = .ok (ρ i)) : TurtleReads nl base text (rs.map (·.inTurtle ρ)) :=
  reads h hc fun t ht i h => ⟨legal_of_chars (hi t ht i h).1, (hi t ht i h).2⟩

/-- Without a base, IRIs are kept. -/
theorem C109_no_base_partial {C : Prop} (nl : PStr → Bool) {text : PStr} {rs : List RStmt} (h : Doc (turtle C) false text rs) (hc : C → CrLf text)
    (hi : ∀ t ∈ rs, ∀ i, t.HasIri i → IriChars i) : TurtleReads nl [] text (rs.map (·.inTurtle id)) :=
  C109_partial h hc fun t ht i h => ⟨hi t ht i h, C67_no_base nl i⟩

/-- Where an escape in an IRI stands for a character that IRIs cannot have, nothing is read (for a line feed at the end of the IRI see `C109_line_feed`). -/
theorem C109_illegal_iri {C : Prop} (nl : PStr → Bool) {text : PStr} {rs : List RStmt} (h : Doc (turtle C) false text rs) (hc : C → CrLf text)
    {t : RStmt} (ht : t ∈ rs) {i : PStr} (hi : t.HasIri i) (hl : ¬ IriChars i) (hn : i.getLast? ≠ some 0x0A) {σ : Type} (add : σ → Stmt → σ) (next : Nat) (sink : σ) :
    Turtle.parse add nl [] next sink (.str text) = (sink, next, .error .visitError) := by
  obtain ⟨ds, h1, h2⟩ := doc_tree h hc
  have hb : legalIri i = false := by
    cases e : legalIri i with
    | false => rfl
    | true =>
      simp only [legalIri, Bool.or_eq_true, Bool.and_eq_true, decide_eq_true_eq, List.all_eq_true] at e
      rcases e with e | e
      · exact absurd (fun c hc => iriClass_iff.1 (e c hc)) hl
      · exact absurd e.1 hn
  obtain ⟨e, he⟩ := bad_stmts (nl := nl) h1 hb (st := { base := [], prefixes := initialPrefixes, bn := { map := [], next } }) rfl ⟨t, ht, hi⟩
  simp only [Turtle.parse, parseText, h2, he]

/-- One line feed at the end of an IRI is let through. -/
theorem C109_line_feed {C : Prop} (nl : PStr → Bool) {text : PStr} {rs : List RStmt} (h : Doc (turtle C) false text rs) (hc : C → CrLf text)
    (hi : ∀ t ∈ rs, ∀ i, t.HasIri i → IriChars i ∨ ∃ j, i = j ++ [0x0A] ∧ IriChars j) : TurtleReads nl [] text (rs.map (·.inTurtle id)) := by
  refine reads h hc fun t ht i h => ⟨?_, C67_no_base nl i⟩
  rcases hi t ht i h with h' | ⟨j, rfl, h'⟩
  · exact legal_of_chars h'
  · simp only [legalIri, Bool.or_eq_true, Bool.and_eq_true, decide_eq_true_eq, List.all_eq_true]
    exact .inr ⟨by simp, fun c hc => iriClass_iff.2 (h' c (by simpa using hc))⟩

theorem one_char {D : Dialect} (c : Nat) (h1 : 0x61 ≤ c) (h2 : c ≤ 0x7A) : NTSpec.IriBody D [c] [c] := .char (by omega) (by simp; omega) .nil

/-- False: blank node labels of N-Triples may have colons. -/
theorem C109_refuted : ¬ C109_statement := by
  intro h
  have hd : Doc NTSpec.w3c false (py! "_:a:b <p> <o> .") [⟨.label (py! "_:a:b"), .iri (py! "p"), .iri (py! "o"), none⟩] := by
    refine .first (.triple (r1 := py! " <p> <o> .") (r2 := py! " <o> .") (r3 := py! " .") (r := []) ?_ ?_ (.node (.iri ?_)) ?_) (.eof (.ws (by simp [Ws])))
    · refine .label (D := NTSpec.w3c) (w := []) (l := py! "_:a:b") (by simp [Ws]) (label_longest ?_ ?_) trivial
      · exact ⟨97, py! ":b", rfl, .inl (.inl (.inl (by simp [NTSpec.isAlpha]))), by simp [NTSpec.w3c, NTSpec.pnChars, NTSpec.pnCharsU, NTSpec.pnCharsBase, NTSpec.isAlpha], by simp⟩
      · exact ⟨0, _, rfl, .inr ⟨_, _, rfl, w3c_label_stop (.inl rfl)⟩⟩
    · exact .mk (w := [32]) (by simp [Ws]) (one_char 112 (by decide) (by decide))
    · exact .mk (w := [32]) (by simp [Ws]) (one_char 111 (by decide) (by decide))
    · exact .mk (w := [32]) (by simp [Ws])
  obtain ⟨f, n', -, he, -⟩ := h (fun _ => true) _ _ hd (by
    intro t ht i hi
    rw [List.mem_singleton] at ht
    subst ht
    simp only [RStmt.HasIri, RTerm.HasIri, RTerm.iri.injEq] at hi
    rcases hi with (hi | ⟨_, _, hi⟩) | (hi | ⟨_, _, hi⟩) | (hi | ⟨_, _, hi⟩)
    · cases hi
    · cases hi
    · subst hi; unfold IriChars; decide
    · cases hi
    · subst hi; unfold IriChars; decide
    · cases hi) (List Stmt) (fun l t => l ++ [t]) 0 []
  have := congrArg (·.2.2) he
  have e : Turtle.parse (fun l t => l ++ [t]) (fun _ => true) [] 0 ([] : List Stmt) (.str (py! "_:a:b <p> <o> .")) = ([], 0, .error .unexpectedInput) := rfl
  rw [e] at this
  cases this

theorem turtle_label {C : Prop} {c : Nat} (h : c = 0x20 ∨ c = 0x09 ∨ isEolChar c) : ¬ (turtle C).labelChar c ∧ c ≠ 0x2E := by
  simp only [turtle, NTSpec.pnChars, NTSpec.pnCharsU, NTSpec.pnCharsBase, NTSpec.isAlpha, NTSpec.isDigitChar, isEolChar] at h ⊢
  omega

theorem label_a {C : Prop} : LabelTok (turtle C) (py! "_:a") := ⟨97, [], rfl, .inl (.inl (by simp [NTSpec.isAlpha])), by simp, by simp⟩

theorem sample {C : Prop} : Doc (turtle C) false (py! "_:a <p> \"x\"@en .\n\n") [⟨.label (py! "_:a"), .iri (py! "p"), .lit (py! "x") (some (py! "en")) none, none⟩] :=
  sample_doc (turtle C) (label_longest label_a ⟨0, _, rfl, .inr ⟨_, _, rfl, turtle_label (.inl rfl)⟩⟩) trivial
    (lang_longest (D' := turtle C) (fun _ h => h) sample_lang ⟨_, _, rfl, .inl rfl⟩ fun h => h) trivial

theorem sample_iris {t : RStmt} (ht : t ∈ [(⟨.label (py! "_:a"), .iri (py! "p"), .lit (py! "x") (some (py! "en")) none, none⟩ : RStmt)]) {i : PStr} (hi : t.HasIri i) :
    IriChars i := by
  rw [List.mem_singleton] at ht
  subst ht
  simp only [RStmt.HasIri, RTerm.HasIri, RTerm.iri.injEq] at hi
  rcases hi with (hi | ⟨_, _, hi⟩) | (hi | ⟨_, _, hi⟩) | (hi | ⟨_, _, hi⟩)
  · cases hi
  · cases hi
  · subst hi; unfold IriChars; decide
  · cases hi
  · cases hi
  · cases hi

/-- Non-vacuity of C109. -/
example : TurtleReads (fun _ => true) [] (py! "_:a <p> \"x\"@en .\n\n") [⟨.label (py! "_:a"), .iri (py! "p"), .lit (py! "x") (some (py! "en")) none, none⟩] :=
  C109_no_base_partial (C := True) _ sample (fun _ => by
    intro a b h
    have : (13 : Nat) ∈ py! "_:a <p> \"x\"@en .\n\n" := h ▸ (by simp)
    exact absurd this (by decide)) fun _ ht _ hi => sample_iris ht hi

/-! ### C110 -/

/-- Full statement of C110: a text that is read by both readers makes the same statements in both, but that strings are xsd:strings in Turtle. -/
def C110_statement : Prop := ∀ nl text, (parseString (fun l t => l ++ [t]) false 0 text ([] : List Stmt)).2.2 = .ok () →
  (Turtle.parse (fun l t => l ++ [t]) nl [] 0 ([] : List Stmt) (.str text)).2.2 = .ok () → ∃ rs, ReadsAs false text rs ∧ TurtleReads nl [] text (rs.map (·.inTurtle id))

/-- False: one triple in N-Triples, two in Turtle. -/
theorem C110_refuted : ¬ C110_statement := by
  intro h
  obtain ⟨rs, h1, h2⟩ := h (fun _ => true) (py! "<s> <p> _:a;<q>_:b.") (by decide) rfl
  obtain ⟨f, n, -, e, -⟩ := h1 Nat (fun n _ => n + 1) 0 0
  obtain ⟨f', n', -, e', -⟩ := h2 Nat (fun n _ => n + 1) 0 0
  have cnt : ∀ (l : List Stmt) (k : Nat), l.foldl (fun n _ => n + 1) k = k + l.length := by
    intro l
    induction l with
    | nil => simp
    | cons x l ih => intro k; rw [List.foldl_cons, ih, List.length_cons]; omega
  have a1 : (parseString (fun n _ => n + 1) false 0 (py! "<s> <p> _:a;<q>_:b.") 0).1 = 1 := by decide
  have a2 : (Turtle.parse (fun n _ => n + 1) (fun _ => true) [] 0 0 (.str (py! "<s> <p> _:a;<q>_:b."))).1 = 2 := rfl
  rw [e] at a1
  rw [e'] at a2
  simp only [cnt, List.length_map] at a1 a2
  omega

theorem shared_code : Sub shared code where
  gaps h := h.elim
  comments h := h
  noGraph h := h
  bnodeGraph h := h
  label _ _ h _ _ := ⟨h, trivial⟩
  lang _ _ h _ _ := ⟨longest_congr (T := LangTok shared) (T' := LangTok code) (fun _ => ⟨fun h => langTok_map h fun _ _ h => h, fun h => langTok_map h fun _ _ h => h⟩) h, trivial⟩

theorem turtle_label_stop {C : Prop} {c : Nat} (h : c = 0x20 ∨ c = 0x09 ∨ c = 0x23 ∨ isEolChar c ∨ c = 0x3C) : ¬ (turtle C).labelChar c ∧ c ≠ 0x2E := by
  simp only [turtle, NTSpec.pnChars, NTSpec.pnCharsU, NTSpec.pnCharsBase, NTSpec.isAlpha, NTSpec.isDigitChar, isEolChar] at h ⊢
  omega

theorem shared_turtle : Sub shared (turtle False) where
  gaps h := h.elim
  comments h := h
  noGraph h := h
  bnodeGraph h := h
  label l r _ hl hr := by
    refine ⟨label_longest hl ?_, trivial⟩
    obtain ⟨c, t, rfl, hc⟩ := hr
    rcases hc with hc | hc | hc | ⟨rfl, ht⟩ | ⟨h, _⟩
    · exact ⟨0, _, rfl, .inr ⟨c, t, rfl, turtle_label_stop (by simp [hc])⟩⟩
    · exact ⟨0, _, rfl, .inr ⟨c, t, rfl, turtle_label_stop (by simp [hc])⟩⟩
    · exact ⟨0, _, rfl, .inr ⟨c, t, rfl, turtle_label_stop (by simp [hc])⟩⟩
    · exact ⟨1, t, rfl, ht.imp_right fun ⟨c, t, e, h⟩ => ⟨c, t, e, turtle_label_stop (by rcases h with h | h | h | h <;> simp [h])⟩⟩
    · exact h.elim
  lang l r h hl hr := by
    refine ⟨lang_longest (fun _ h => h) (langTok_map (D := shared) h.1 fun c hc h => ?_) hr fun h => h.elim, trivial⟩
    rcases h with h | h | h | h
    · exact .inl h
    · exact .inr (by rw [h]; simp [NTSpec.isDigitChar])
    · rw [h] at hc; exact absurd hc hl
    · exact .inr (by rw [h]; simp [NTSpec.isDigitChar])

/-- Both readers read the texts of the shared grammar, and as the same statements. Missing: white space in IRIs, blank node labels that are not those of Turtle, "_" in
    language tags, escapes for characters that IRIs cannot have: what the N-Triples reader accepts beyond that Turtle rejects, or reads as something else. -/
theorem C110_partial (nl : PStr → Bool) {text : PStr} {rs : List RStmt} (h : Doc shared false text rs) (hi : ∀ t ∈ rs, ∀ i, t.HasIri i → IriChars i) :
    ReadsAs false text rs ∧ TurtleReads nl [] text (rs.map (·.inTurtle id)) :=
  ⟨C106_meaning (shared_code.doc h), C109_no_base_partial nl (shared_turtle.doc h) (fun h => h.elim) hi⟩

/-- Non-vacuity of C110. -/
example : ReadsAs false (py! "_:a <p> \"x\"@en .\n\n") [⟨.label (py! "_:a"), .iri (py! "p"), .lit (py! "x") (some (py! "en")) none, none⟩] ∧
    TurtleReads (fun _ => true) [] (py! "_:a <p> \"x\"@en .\n\n") [⟨.label (py! "_:a"), .iri (py! "p"), .lit (py! "x") (some (py! "en")) none, none⟩] := by
  refine C110_partial _ (sample_doc shared (label_longest ?_ ?_) label_a ⟨sample_lang, fun w hp hw => ?_⟩ (by show 0x5F ∉ py! "en"; decide)) fun _ ht _ hi => sample_iris ht hi
  · exact ⟨97, [], rfl, .inl (by decide), by simp, by simp⟩
  · exact ⟨0, _, rfl, .inr ⟨_, _, rfl, code_label_stop (.inl rfl)⟩⟩
  · exact (lang_iff.1 ⟨101, py! "n .\n\n", rfl, by decide, rfl, rfl⟩).1.2 w hp (langTok_map (D := shared) hw fun _ _ h => h)

end Verif.NTTurtle
