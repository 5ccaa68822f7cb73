import Verif.Lemmas.NTStream
import Verif.Props.NTriples
/-
C39-C44, C80-C82: reading N-Triples and N-Quads. `pDoc` (the grammar) appears where a statement is about the statements written in a text.
-/
namespace Verif
open Spec

variable {σ : Type}

/-! ### C39: a stream and its text -/

/-- The property: parsing a stream has the effect and outcome of parsing its content. -/
def C39_statement : Prop :=
  ∀ (q : Bool) (next : Nat) (content : PStr) (g : Graph), parseStream Graph.add q next content g = parseString Graph.add q next content g

/-- An empty line is read in a string and raises RuntimeError in a stream. -/
theorem C39_blank_line : ¬ C39_statement := by
  intro h
  exact absurd (h false 0 (py! "\n") Graph.new) (by decide)

/-- On a text without blank lines, whose carriage returns all stand before a line feed: if the text is readable the effects agree (sink, blank nodes, outcome), if
    it is not both raise the same exception. Missing from C39: texts with blank lines, for which see `C39_blank_line_raises`, and bare
    carriage returns; and the effect on the sink when the text is not readable, for which see C40. -/
theorem C39_stream_partial (add : σ → Stmt → σ) (q : Bool) (next : Nat) (content : PStr) (h : CleanText content) (sink : σ) :
    (parseStream add q next content sink).2.2 = (parseString add q next content sink).2.2 ∧
    ((parseString add q next content sink).2.2 = .ok () → parseStream add q next content sink = parseString add q next content sink) := by
  obtain ⟨h1, h2⟩ := parseLines_clean add q h { map := [], next := next } sink
  cases hd : pDoc q content with
  | error e => simp only [parseStream, parseString, hd, h2 e hd]; simp
  | ok rs => simp only [parseStream, parseString, hd, h1 rs hd]; simp

example : CleanText (py! "<a> <b> <c> .\r\n<d> <e> \"\" .\n") :=
  .line (l := py! "<a> <b> <c> .") 1 (by decide) (fun h => by have := h 60 (by decide); omega)
    (.line (l := py! "<d> <e> \"\" .") 0 (by decide) (fun h => by have := h 60 (by decide); omega) .nil)

/-- A stream with a line that is empty or of white space only never parses; if nothing was wrong before it, the exception is a RuntimeError. -/
theorem C39_blank_line_raises (add : σ → Stmt → σ) (q : Bool) (next : Nat) (a w rest : PStr) (ha : a = [] ∨ ∃ b, a = b ++ [10])
    (hw : ∀ c ∈ w, c = 32 ∨ c = 9) (sink : σ) : ∃ e, (parseStream add q next (a ++ (w ++ 10 :: rest)) sink).2.2 = .error e := by
  have hm : w ++ [10] ∈ splitLines (a ++ (w ++ 10 :: rest)) := mem_splitLines ha (fun h => by have := hw 10 h; omega)
  obtain ⟨pre, post, firsts, h1, h2, -, -, -, -, h7⟩ :=
    parseLines_spec add q { map := [], next := next } (BState.OK.init next) _ (splitLines_ne (s := a ++ (w ++ 10 :: rest))) sink
  rcases h7 with ⟨-, rfl⟩ | ⟨bad, rest', e, -, he, -⟩
  · exfalso
    rw [List.append_nil] at h1
    rw [h1] at hm
    have hp : pDoc q (w ++ [10]) = .ok [] := by
      have := pDoc_eols q (w := w) (es := []) (rest := []) (e := 10) (blank_iff.2 hw) (by decide) (by simp) starts_nil
      rw [List.append_nil] at this
      rw [this]; rfl
    clear h1
    induction h2 with
    | nil => simp at hm
    | cons h _ ih =>
      rcases List.mem_cons.1 hm with rfl | hm
      · rw [hp] at h; simp at h
      · exact ih hm
  · exact ⟨e, he⟩

example : (parseStream Graph.add false 0 (py! "<a> <b> <c> .\n\n<d> <e> <f> .\n") Graph.new).2.2 = .error .runtimeError := by decide

/-! ### C40: errors and the sink -/

/-- The property: a string that does not parse leaves the sink as it was; a stream that does not parse adds what the lines before some
    line hold, and that line by itself holds no statement. -/
def C40_statement : Prop :=
  ∀ (q : Bool) (next : Nat) (text : PStr) (g : Graph),
    (∀ e, (parseString Graph.add q next text g).2.2 = .error e → (parseString Graph.add q next text g).1 = g) ∧
    (∀ e, (parseStream Graph.add q next text g).2.2 = .error e →
      ∃ pre bad post, splitLines text = pre ++ bad :: post ∧
        (∃ n', parseString Graph.add q next pre.flatten g = ((parseStream Graph.add q next text g).1, n', .ok ())) ∧
        (parseString (fun l t => l ++ [t]) q next bad []).1 = [])

/-- A string that does not parse leaves the sink as it was: every sink, every text. -/
theorem C40_string_atomic (add : σ → Stmt → σ) (q : Bool) (next : Nat) (text : PStr) (sink : σ) (e : Exc)
    (h : (parseString add q next text sink).2.2 = .error e) : (parseString add q next text sink).1 = sink := by
  unfold parseString at *
  cases hd : pDoc q text with
  | error e => rfl
  | ok rs => rw [hd] at h; cases h

/-- Where carriage returns separate statements only the first statement of a line is added. -/
theorem C40_stream_loses : ¬ C40_statement := by
  intro h
  obtain ⟨pre, bad, post, h1, ⟨n', h2⟩, h3⟩ := (h false 0 (py! "<a> <b> <c> .\r<d> <e> <f> .\nx") Graph.new).2 .unexpectedInput (by decide)
  have hs : splitLines (py! "<a> <b> <c> .\r<d> <e> <f> .\nx") = [py! "<a> <b> <c> .\r<d> <e> <f> .\n", py! "x"] := by decide
  rw [hs] at h1
  match pre, h1 with
  | [], h1 =>
    simp only [List.nil_append, List.cons.injEq] at h1
    rw [← h1.1] at h3
    exact absurd h3 (by decide)
  | [a], h1 =>
    simp only [List.cons_append, List.nil_append, List.cons.injEq] at h1
    rw [← h1.1] at h2
    have h4 := congrArg Prod.fst h2
    dsimp only at h4
    exact absurd h4 (by decide)
  | a :: b :: c, h1 => simp at h1

theorem splitLines_prefix {s : PStr} {pre post : List PStr} {bad : PStr} (h : splitLines s = pre ++ bad :: post) :
    ∀ l ∈ pre, ∃ w, 10 ∉ w ∧ l = w ++ [10] := by
  induction s generalizing pre with
  | nil => simp [splitLines] at h
  | cons c s ih =>
    simp only [splitLines] at h
    split at h
    · cases pre with
      | nil => simp
      | cons p pre =>
        simp only [List.cons_append, List.cons.injEq] at h
        intro l hl
        rcases List.mem_cons.1 hl with rfl | hl
        · exact ⟨[], by simp, h.1.symm⟩
        · exact ih h.2 l hl
    · next hc =>
      split at h
      · cases pre with
        | nil => simp
        | cons p pre => simp at h
      · next l0 ls heq =>
        cases pre with
        | nil => simp
        | cons p pre =>
          simp only [List.cons_append, List.cons.injEq] at h
          have := ih (pre := l0 :: pre) (by rw [heq, h.2]; rfl)
          intro l hl
          rcases List.mem_cons.1 hl with rfl | hl
          · obtain ⟨w, hw, rfl⟩ := this l0 (by simp)
            exact ⟨c :: w, by simp [Ne.symm hc, hw], h.1.symm⟩
          · exact this l (by simp [hl])

theorem splitLines_of_lines {ls : List PStr} (h : ∀ l ∈ ls, ∃ w, 10 ∉ w ∧ l = w ++ [10]) : splitLines ls.flatten = ls := by
  induction ls with
  | nil => rfl
  | cons l ls ih =>
    obtain ⟨w, hw, rfl⟩ := h l (by simp)
    rw [List.flatten_cons, List.append_assoc, List.singleton_append, splitLines_line hw, ih (fun x hx => h x (by simp [hx]))]

theorem parseLines_append (add : σ → Stmt → σ) (q : Bool) (st st' : BState) (pre post : List PStr) (sink sink' : σ)
    (h : parseLines add q st pre sink = (sink', st', .ok ())) : parseLines add q st (pre ++ post) sink = parseLines add q st' post sink' := by
  induction pre generalizing st sink with
  | nil => cases h; rfl
  | cons l pre ih =>
    simp only [List.cons_append, parseLines] at h ⊢
    split at h
    · next hl => simp only [hl, if_true]; exact ih _ _ h
    · next hl =>
      simp only [hl, if_false]
      cases hd : pDoc q l with
      | error e => rw [hd] at h; cases h
      | ok rs =>
        rw [hd] at h
        simp only at h ⊢
        cases hs : (st.stmts rs).2 with
        | nil => rw [hs] at h; cases h
        | cons t ts => rw [hs] at h; exact ih _ _ h

theorem flatten_clean (q : Bool) {pre : List PStr} {firsts : List RStmt} (h13 : ∀ l ∈ pre, 13 ∉ l) (hpre : ∀ l ∈ pre, ∃ w, 10 ∉ w ∧ l = w ++ [10])
    (hf : FirstOf q pre firsts) : CleanText pre.flatten ∧ pDoc q pre.flatten = .ok firsts := by
  induction hf with
  | nil => exact ⟨.nil, rfl⟩
  | @cons l r more ls rs hl _ ih =>
    obtain ⟨w, hw, rfl⟩ := hpre l (by simp)
    have hne : ∀ c ∈ w, c ≠ 10 ∧ c ≠ 13 := fun c hc => ⟨fun e => hw (e ▸ hc), fun e => h13 (w ++ [10]) (by simp) (by rw [← e]; simp [hc])⟩
    have hb : ¬ Blank w := by
      intro hb
      have := pDoc_eols q (w := w) (es := []) (rest := []) (e := 10) (blank_iff.2 hb) (by decide) (by simp) starts_nil
      rw [List.append_nil] at this
      rw [this] at hl; cases hl
    obtain ⟨i1, i2⟩ := ih (fun x hx => h13 x (by simp [hx])) (fun x hx => hpre x (by simp [hx]))
    rw [List.flatten_cons, List.append_assoc, List.singleton_append]
    refine ⟨CleanText.line 0 hne hb i1, ?_⟩
    have e1 := pDoc_clean_line q 0 hne hb i1.starts
    have e2 := pDoc_clean_line q 0 hne hb starts_nil
    simp only [List.replicate_zero, List.nil_append] at e1 e2
    rw [e1]
    rw [e2] at hl
    cases hp : pLine q w with
    | error e => rw [hp] at hl; cases hl
    | ok st =>
      rw [hp] at hl
      simp only [i2, Except.map]
      have : pDoc q [] = .ok [] := rfl
      rw [this] at hl
      simp only [Except.map, Except.ok.injEq, List.cons.injEq] at hl
      rw [hl.1]

/-- Every stream, every sink: if it does not parse, the sink has been given the first statement of each line before some line (the nodes of
    labels being the same throughout), and that line is rejected (or holds no statement: RuntimeError). -/
theorem C40_stream_exact (add : σ → Stmt → σ) (q : Bool) (next : Nat) (content : PStr) (sink : σ) (e : Exc)
    (h : (parseStream add q next content sink).2.2 = .error e) :
    ∃ pre bad post firsts f, splitLines content = pre ++ bad :: post ∧ FirstOf q pre firsts ∧
      (parseStream add q next content sink).1 = (firsts.map (·.subst f)).foldl add sink ∧
      (pDoc q bad = .error e ∨ pDoc q bad = .ok [] ∧ e = .runtimeError) := by
  obtain ⟨pre, post, firsts, h1, h2, h3, h4, h5, h6, h7⟩ :=
    parseLines_spec add q { map := [], next := next } (BState.OK.init next) _ (splitLines_ne (s := content)) sink
  rcases h7 with ⟨h7, -⟩ | ⟨bad, rest, e', rfl, he, hbad⟩
  · simp only [parseStream] at h; rw [h7] at h; cases h
  · simp only [parseStream] at h; rw [he] at h; cases h
    exact ⟨pre, bad, rest, firsts, _, h1, h2, h6, hbad⟩

/-- C40 for texts without carriage returns and every sink. Missing: carriage returns between statements (`C40_stream_loses`), where only
    the first statement of each line is added (`C40_stream_exact`). -/
theorem C40_stream_partial (add : σ → Stmt → σ) (q : Bool) (next : Nat) (content : PStr) (h13 : 13 ∉ content) (sink : σ) (e : Exc)
    (h : (parseStream add q next content sink).2.2 = .error e) :
    ∃ pre bad post, splitLines content = pre ++ bad :: post ∧
      (∃ n', parseString add q next pre.flatten sink = ((parseStream add q next content sink).1, n', .ok ())) ∧
      (parseString (fun l t => l ++ [t]) q next bad []).1 = [] := by
  obtain ⟨pre, post, firsts, h1, h2, h3, h4, h5, h6, h7⟩ :=
    parseLines_spec add q { map := [], next := next } (BState.OK.init next) _ (splitLines_ne (s := content)) sink
  rcases h7 with ⟨h7, -⟩ | ⟨bad, rest, e', rfl, he, hbad⟩
  · simp only [parseStream] at h; rw [h7] at h; cases h
  · refine ⟨pre, bad, rest, h1, ?_, ?_⟩
    · have hl := splitLines_prefix h1
      have hsub : ∀ l ∈ pre, 13 ∉ l := by
        intro l hl' hm
        apply h13
        rw [← splitLines_flatten content, h1]
        exact List.mem_flatten.2 ⟨l, by simp [hl'], hm⟩
      obtain ⟨c1, c2⟩ := flatten_clean q hsub hl h2
      have c3 := (parseLines_clean add q c1 { map := [], next := next } sink).1 firsts c2
      rw [splitLines_of_lines hl] at c3
      have c4 := parseLines_append add q _ _ pre (bad :: rest) sink _ c3
      have hsplit : (parseStream add q next content sink).1 = ((BState.stmts { map := [], next := next } firsts).2.foldl add sink) := by
        simp only [parseStream, h1, c4]
        have hne : bad ≠ [] := splitLines_ne (s := content) bad (by rw [h1]; simp)
        simp only [parseLines, hne, if_false]
        rcases hbad with hb | ⟨hb, -⟩
        · simp only [hb]
        · simp only [hb, BState.stmts]
      rw [hsplit]
      exact ⟨(BState.stmts { map := [], next := next } firsts).1.next, by simp only [parseString, c2]⟩
    · rcases hbad with hb | ⟨hb, -⟩
      · simp only [parseString, hb]
      · simp only [parseString, hb, BState.stmts, List.foldl_nil]

example : (parseStream (fun l t => l ++ [t]) false 0 (py! "<a> <b> _:c .\n_:c <b> <c> .\nx\n<a> <b> <c> .\n") []).1
    = [mkTriple (.named (py! "a")) (.named (py! "b")) (.bnode 0), mkTriple (.bnode 0) (.named (py! "b")) (.named (py! "c"))] := by decide

/-! ### C41: blank node labels -/

/-- Parsing a string: the statements written, with one blank node for each label, distinct for distinct labels and created by this parse
    (`next` is the allocator before, so nodes that existed before are below it). -/
theorem C41_labels_scoped (add : σ → Stmt → σ) (q : Bool) (next : Nat) (text : PStr) (sink : σ) (rs : List RStmt) (h : pDoc q text = .ok rs) :
    ∃ f n', next ≤ n' ∧ parseString add q next text sink = ((rs.map (·.subst f)).foldl add sink, n', .ok ()) ∧
      (∀ r ∈ rs, ∀ r' ∈ rs, ∀ l l', r.HasLabel l → r'.HasLabel l' → f l = f l' → l = l') ∧
      ∀ r ∈ rs, ∀ l, r.HasLabel l → next ≤ f l ∧ f l < n' := by
  obtain ⟨s1, s2, s3, s4⟩ := BState.stmts_spec (BState.OK.init next) rs
  have hlook : ∀ r ∈ rs, ∀ l, r.HasLabel l → (BState.stmts { map := [], next := next } rs).1.map.get? l = some ((BState.stmts { map := [], next := next } rs).1.look l) := by
    intro r hr l hl
    obtain ⟨k, hk⟩ := s3 r hr l hl
    simp [BState.look, hk]
  refine ⟨(BState.stmts { map := [], next := next } rs).1.look, (BState.stmts { map := [], next := next } rs).1.next, s2.1, ?_, ?_, ?_⟩
  · simp only [parseString, h, s4]
  · intro r hr r' hr' l l' hl hl' e
    have b := hlook r' hr' l' hl'
    rw [← e] at b
    exact s1.inj _ _ _ (hlook r hr l hl) b
  · exact fun r hr l hl => s1.range _ _ (hlook r hr l hl)

/-- The same for streams, up to the first error if there is one. -/
theorem C41_labels_scoped_stream (add : σ → Stmt → σ) (q : Bool) (next : Nat) (content : PStr) (sink : σ) :
    ∃ pre post firsts f, splitLines content = pre ++ post ∧ FirstOf q pre firsts ∧ ((parseStream add q next content sink).2.2 = .ok () → post = []) ∧
      next ≤ (parseStream add q next content sink).2.1 ∧
      (parseStream add q next content sink).1 = (firsts.map (·.subst f)).foldl add sink ∧
      (∀ r ∈ firsts, ∀ r' ∈ firsts, ∀ l l', r.HasLabel l → r'.HasLabel l' → f l = f l' → l = l') ∧
      ∀ r ∈ firsts, ∀ l, r.HasLabel l → next ≤ f l ∧ f l < (parseStream add q next content sink).2.1 := by
  obtain ⟨pre, post, firsts, h1, h2, h3, h4, h5, h6, h7⟩ :=
    parseLines_spec add q { map := [], next := next } (BState.OK.init next) _ (splitLines_ne (s := content)) sink
  have hlook : ∀ r ∈ firsts, ∀ l, r.HasLabel l → (parseLines add q { map := [], next := next } (splitLines content) sink).2.1.map.get? l
      = some ((parseLines add q { map := [], next := next } (splitLines content) sink).2.1.look l) := by
    intro r hr l hl
    obtain ⟨k, hk⟩ := h5 r hr l hl
    simp [BState.look, hk]
  refine ⟨pre, post, firsts, _, h1, h2, ?_, h4.1, h6, ?_, ?_⟩
  · intro hok
    rcases h7 with ⟨-, h⟩ | ⟨bad, rest, e, -, he, -⟩
    · exact h
    · simp only [parseStream] at hok; rw [he] at hok; cases hok
  · intro r hr r' hr' l l' hl hl' e
    have b := hlook r' hr' l' hl'
    rw [← e] at b
    exact h3.inj _ _ _ (hlook r hr l hl) b
  · exact fun r hr l hl => h3.range _ _ (hlook r hr l hl)

/-- Statements of two parses, one after the other, share no blank node: every sequence of texts, string or stream. -/
theorem C41_parses_disjoint (q : Bool) (next : Nat) (t1 t2 : PStr) (stream1 stream2 : Bool) :
    let collect := fun (l : List Stmt) (t : Stmt) => l ++ [t]
    let p1 := if stream1 then parseStream collect q next t1 [] else parseString collect q next t1 []
    let p2 := if stream2 then parseStream collect q p1.2.1 t2 [] else parseString collect q p1.2.1 t2 []
    ∀ x ∈ p1.1, ∀ y ∈ p2.1, ∀ i, x.HasBnode i → ¬ y.HasBnode i := by
  intro collect p1 p2 x hx y hy i hi hj
  have hfold : ∀ (ts acc : List Stmt), ts.foldl collect acc = acc ++ ts := by
    intro ts
    induction ts with
    | nil => simp
    | cons t ts ih => intro acc; simp only [List.foldl_cons, ih, collect, List.append_assoc, List.singleton_append]
  have hb : ∀ (f : PStr → Nat) (r : RStmt) (i : Nat), (r.subst f).HasBnode i → ∃ l, r.HasLabel l ∧ f l = i := by
    intro f r i h
    have term : ∀ t : RTerm, t.subst f = .bnode i → ∃ l, t = .label l ∧ f l = i := by
      intro t ht
      cases t with
      | label l => simp only [RTerm.subst, Term.bnode.injEq] at ht; exact ⟨l, rfl, ht⟩
      | iri _ => cases ht
      | lit _ _ _ => cases ht
    rcases h with h | h | h
    · obtain ⟨l, h, e⟩ := term _ h; exact ⟨l, Or.inl h, e⟩
    · obtain ⟨l, h, e⟩ := term _ h; exact ⟨l, Or.inr (Or.inl h), e⟩
    · obtain ⟨l, h, e⟩ := term _ h; exact ⟨l, Or.inr (Or.inr (Or.inl h)), e⟩
  have hrange : ∀ (stream : Bool) (n : Nat) (t : PStr),
      let p := if stream then parseStream collect q n t [] else parseString collect q n t []
      n ≤ p.2.1 ∧ ∀ x ∈ p.1, ∀ i, x.HasBnode i → n ≤ i ∧ i < p.2.1 := by
    intro stream n t
    cases stream with
    | true =>
      obtain ⟨pre, post, firsts, f, -, -, -, h4, h5, -, h7⟩ := C41_labels_scoped_stream collect q n t []
      refine ⟨h4, fun x hx i hi => ?_⟩
      simp only [if_true] at hx ⊢
      rw [h5, hfold, List.nil_append] at hx
      obtain ⟨r, hr, rfl⟩ := List.mem_map.1 hx
      obtain ⟨l, hl, rfl⟩ := hb f r i hi
      exact h7 r hr l hl
    | false =>
      cases hd : pDoc q t with
      | error e => simp [parseString, hd]
      | ok rs =>
        obtain ⟨f, n', h1, h2, -, h4⟩ := C41_labels_scoped collect q n t [] rs hd
        simp only [Bool.false_eq_true, if_false, h2]
        refine ⟨h1, fun x hx i hi => ?_⟩
        rw [hfold, List.nil_append] at hx
        obtain ⟨r, hr, rfl⟩ := List.mem_map.1 hx
        obtain ⟨l, hl, rfl⟩ := hb f r i hi
        exact h4 r hr l hl
  have r1 := (hrange stream1 next t1).2 x hx i hi
  have r2 := (hrange stream2 p1.2.1 t2).2 y hy i hj
  exact absurd r2.1 (Nat.not_le_of_lt r1.2)

example : (parseString (fun l t => l ++ [t]) false 5 (py! "_:a <p> _:b .\n_:b <p> _:a .") []).1
    = [mkTriple (.bnode 5) (.named (py! "p")) (.bnode 6), mkTriple (.bnode 6) (.named (py! "p")) (.bnode 5)] := by decide

/-! ### C42: language tags -/

/-- The property: a literal with any well-formed language tag survives writing and reading. -/
def C42_statement : Prop :=
  ∀ (v l : PStr), v.Valid → (∀ c ∈ v, ntKept c = true) → LangWF l →
    let t := mkTriple (.named (py! "s")) (.named (py! "p")) (.lit v (some l) none)
    ∃ text g' n', serializeNTriples [t] = (text, .ok ()) ∧ parseString Graph.add false 0 text Graph.new = (g', n', .ok ()) ∧ g'.triples = [t]

/-- Digits other than 0 and 9 are not read. -/
theorem C42_digit_rejected : ¬ C42_statement := by
  intro h
  obtain ⟨text, g', n', h1, h2, -⟩ := h (py! "v") (py! "es-419") (by simp [PStr.Valid]) (by decide)
    (.sub (t := py! "es") (l := py! "419") (.primary (by simp) (by decide)) (by simp) (by decide))
  have e : serializeNTriples [mkTriple (.named (py! "s")) (.named (py! "p")) (.lit (py! "v") (some (py! "es-419")) none)] = (py! "<s> <p> \"v\"@es-419 .\n", .ok ()) := by decide
  rw [e] at h1
  cases h1
  have h4 := congrArg (fun x => x.2.2) h2
  dsimp only at h4
  exact absurd h4 (by decide)

theorem langTail_digit {b : Bool} {r : PStr} {c : Nat} (hc : c ∈ r) (hd : 49 ≤ c ∧ c ≤ 56) : langTail b r ≠ r := by
  intro h
  have : ∀ b (r : PStr), ∀ c ∈ langTail b r, langSub c = true ∨ c = 45 := by
    intro b r
    fun_induction langTail b r with
    | case1 => simp
    | case2 b c r h ih =>
      intro x hx
      rcases List.mem_cons.1 hx with rfl | hx
      · left
        cases b
        · simp only [Bool.false_eq_true, if_false] at h; simp [langSub, h]
        · simpa using h
      · exact ih x hx
    | case3 b d r _ hd ih =>
      intro x hx
      rcases List.mem_cons.1 hx with rfl | hx
      · exact Or.inr rfl
      · rcases List.mem_cons.1 hx with rfl | hx
        · exact Or.inl (by assumption)
        · exact ih x hx
    | case4 => simp
    | case5 => simp
  rcases this b r c (by rw [h]; exact hc) with h | h
  · simp only [langSub, isLetter, Bool.or_eq_true, decide_eq_true_eq, beq_iff_eq] at h; omega
  · omega

theorem LangWF.chars {l : PStr} (h : LangWF l) : (∃ c r, l = c :: r ∧ isLetter c = true) ∧ ∀ c ∈ l, isLetter c = true ∨ (48 ≤ c ∧ c ≤ 57) ∨ c = 45 := by
  induction h with
  | @primary l h1 h2 =>
    cases l with
    | nil => exact absurd rfl h1
    | cons c r => exact ⟨⟨c, r, rfl, h2 c (by simp)⟩, fun x hx => Or.inl (h2 x hx)⟩
  | @sub t l _ h1 h2 ih =>
    obtain ⟨⟨c, r, rfl, hc⟩, ih⟩ := ih
    refine ⟨⟨c, r ++ 45 :: l, rfl, hc⟩, fun x hx => ?_⟩
    rcases List.mem_append.1 hx with hx | hx
    · exact ih x hx
    · rcases List.mem_cons.1 hx with rfl | hx
      · exact Or.inr (Or.inr rfl)
      · rcases h2 x hx with h | h
        · exact Or.inl h
        · exact Or.inr (Or.inl h)

/-- Every well-formed tag, every value: the written literal is read back (without dropped control characters) exactly if the
    tag has no digit from 1 to 8; otherwise reading raises UnexpectedInput and adds nothing. -/
theorem C42_exact (v l : PStr) (hv : v.Valid) (hl : LangWF l) :
    let t := mkTriple (.named (py! "s")) (.named (py! "p")) (.lit v (some l) none)
    ∃ text, serializeNTriples [t] = (text, .ok ()) ∧
      ((∀ c ∈ l, ¬ (49 ≤ c ∧ c ≤ 56)) → parseString Graph.add false 0 text Graph.new =
        (Graph.new.add (mkTriple (.named (py! "s")) (.named (py! "p")) (.lit (v.filter ntKept) (some l) none)), 0, .ok ())) ∧
      ((∃ c ∈ l, 49 ≤ c ∧ c ≤ 56) → parseString Graph.add false 0 text Graph.new = (Graph.new, 0, .error .unexpectedInput)) := by
  intro t
  obtain ⟨⟨c, r, rfl, hc⟩, hch⟩ := hl.chars
  have hs : t.s.toNT = .ok (py! "<s>") := show (Term.named (py! "s")).toNT = _ by decide
  have hp : t.p.toNT = .ok (py! "<p>") := show (Term.named (py! "p")).toNT = _ by decide
  have ho : t.o.toNT = .ok ([34] ++ ntEscape v ++ [34] ++ [64] ++ (c :: r)) := rfl
  have ht : tripleStr t = .ok (py! "<s>" ++ [32] ++ py! "<p>" ++ [32] ++ ([34] ++ ntEscape v ++ [34] ++ [64] ++ (c :: r)) ++ py! " .\n") := by
    simp only [tripleStr, hs, hp, ho]; rfl
  refine ⟨py! "<s>" ++ [32] ++ py! "<p>" ++ [32] ++ ([34] ++ ntEscape v ++ [34] ++ [64] ++ (c :: r)) ++ py! " .\n", ?_, ?_, ?_⟩
  · simp [serializeNTriples, ht]
  · intro hd
    have hok : t.IsRdf ∧ t.NTOk := by
      refine ⟨⟨Or.inl ⟨_, rfl⟩, ⟨_, rfl⟩, Or.inr (Or.inr ⟨_, _, _, rfl⟩), rfl⟩, ?_, ?_, hv, ?_⟩
      · show ∀ c ∈ py! "s", scalarValue c
        simp [scalarValue]
      · show ∀ c ∈ py! "p", scalarValue c
        simp [scalarValue]
      · exact LangRead.ok ⟨hl, hd⟩
    obtain ⟨-, h2, -⟩ := pDoc_serialize [t] (by simpa using hok)
    simp only [serializeNTriples, ht, List.append_nil] at h2
    simp only [parseString, h2]
    rfl
  · rintro ⟨d, hd, hdd⟩
    have hdr : d ∈ r := by
      rcases List.mem_cons.1 hd with rfl | h
      · simp only [isLetter, decide_eq_true_eq] at hc; omega
      · exact h
    have hne := langTail_digit (b := false) hdr hdd
    obtain ⟨y, hy⟩ := langTail_prefix r false
    cases y with
    | nil => rw [List.append_nil] at hy; exact absurd hy hne
    | cons x y =>
      have hx : x ∈ c :: r := List.mem_cons_of_mem _ (by rw [← hy]; simp)
      have hx' : isWs x = false ∧ x ≠ 46 := by
        rcases hch x hx with h | h | h
        · simp only [isLetter, decide_eq_true_eq] at h
          simp [isWs]; omega
        · simp [isWs]; omega
        · subst h; decide
      have htext : (py! "<s>" ++ [32] ++ py! "<p>" ++ [32] ++ ([34] ++ ntEscape v ++ [34] ++ [64] ++ (c :: r)) ++ py! " .\n" : PStr)
        = 60 :: (py! "s" ++ 62 :: 32 :: 60 :: (py! "p" ++ 62 :: 32 :: 34 :: (ntEscape v ++ 34 :: 64 :: (c :: (r ++ 32 :: py! ".\n"))))) := by
        simp
      have hsuf : pSuffix (v.filter ntKept) (64 :: (c :: (r ++ 32 :: py! ".\n"))) = .ok (.lit (v.filter ntKept) (some (c :: langTail false r)) none, x :: (y ++ 32 :: py! ".\n")) := by
        simp only [pSuffix, skipWs_ne (show isWs 64 = false by decide), hc, if_true, langTail_stop (show langSub 32 = false by decide) (by decide)]
        rw [drop_local (langTail_prefix r false).length_le]
        congr 2
        have : r.drop (langTail false r).length = x :: y := by
          conv => lhs; arg 2; rw [← hy]
          simp
        rw [this]; rfl
      have hk : pStmt false (60 :: (py! "s" ++ 62 :: 32 :: 60 :: (py! "p" ++ 62 :: 32 :: 34 :: (ntEscape v ++ 34 :: 64 :: (c :: (r ++ 32 :: py! ".\n")))))) = .error .unexpectedInput := by
        simp only [pStmt, pSubject_iri (py! "s") _ (by decide), pIriRef_sp, pIriRef_keeps (py! "p") _ (by decide), pObject_sp, pObject_lit v _ hv, hsuf, pGraph, Bool.false_eq_true, if_false,
          pDot, skipWs_ne hx'.1]
        split
        · next h => simp only [List.cons.injEq] at h; exact absurd h.1 hx'.2
        · rfl
      rw [htext]
      simp only [parseString, pDoc, skipWs_ne (show isWs 60 = false by decide), hk]
      rfl

/-- C42 for tags without digits from 1 to 8; missing are the others, which are never read (`C42_exact`). -/
theorem C42_language_partial (v l : PStr) (hv : v.Valid) (hk : ∀ c ∈ v, ntKept c = true) (hl : LangWF l) (hd : ∀ c ∈ l, ¬ (49 ≤ c ∧ c ≤ 56)) :
    let t := mkTriple (.named (py! "s")) (.named (py! "p")) (.lit v (some l) none)
    ∃ text g' n', serializeNTriples [t] = (text, .ok ()) ∧ parseString Graph.add false 0 text Graph.new = (g', n', .ok ()) ∧ g'.triples = [t] := by
  obtain ⟨text, h1, h2, -⟩ := C42_exact v l hv hl
  refine ⟨text, _, _, h1, h2 hd, ?_⟩
  rw [List.filter_eq_self.2 hk]; rfl

example : LangWF (py! "sl-rozaj-biske") ∧ ∀ c ∈ py! "sl-rozaj-biske", ¬ (49 ≤ c ∧ c ≤ 56) :=
  ⟨.sub (t := py! "sl-rozaj") (l := py! "biske") (.sub (t := py! "sl") (l := py! "rozaj") (.primary (by simp) (by decide)) (by simp) (by decide)) (by simp) (by decide), by decide⟩

/-! ### C43: N-Quads round trip -/

/-- The property: writing the quads of a dataset and reading them gives the same quads. -/
def C43_statement : Prop :=
  ∀ qs : List Stmt, (∀ t ∈ qs, ∃ s p o g, t = mkQuad (.named s) (.named p) (.named o) (.named g) ∧ ∀ c ∈ s ++ p ++ o ++ g, uriChar c) →
    ∃ n', parseString (fun l t => l ++ [t]) true 0 (serializeNQuads qs) [] = (qs, n', .ok ())

/-- Terms are written without the angle brackets and quotes of N-Quads. -/
theorem C43_not_readable : ¬ C43_statement := by
  intro h
  obtain ⟨n', h⟩ := h [mkQuad (.named (py! "s")) (.named (py! "p")) (.named (py! "o")) (.named (py! "g"))]
    (by intro t ht; simp at ht; subst ht; exact ⟨_, _, _, _, rfl, by simp [uriChar_iff, quoteKeeps]⟩)
  have h2 := congrArg (fun x => x.2.2) h
  dsimp only at h2
  exact absurd h2 (by decide)

/-- The first character is a letter, as in every absolute IRI. -/
def StartsLetter (n : PStr) : Prop := ∃ c r, n = c :: r ∧ isLetter c = true

theorem letter_facts {c : Nat} (h : isLetter c = true) : isWs c = false ∧ isEol c = false ∧ c ≠ 60 ∧ c ≠ 95 := by
  simp only [isLetter, decide_eq_true_eq] at h
  refine ⟨?_, ?_, by omega, by omega⟩
  · simp [isWs]; omega
  · simp [isEol]; omega

theorem pIriRef_letter {c : Nat} (h : isLetter c = true) (s : PStr) : pIriRef (c :: s) = .error .unexpectedInput := by
  obtain ⟨h1, -, h3, -⟩ := letter_facts h
  unfold pIriRef
  rw [skipWs_ne h1]
  split
  · next h => simp only [List.cons.injEq] at h; exact absurd h.1 h3
  · rfl

/-- What `serialize_nquads` writes is never read: a dataset of at least one quad whose first subject is an absolute IRI or a blank node and whose
    first predicate an absolute IRI, whatever follows, for every sink and order. The parser raises UnexpectedInput and adds nothing. -/
theorem C43_never_read (add : σ → Stmt → σ) (next : Nat) (sink : σ) (s : Term) (p : PStr) (o g : Term) (qs : List Stmt)
    (hs : (∃ i, s = .bnode i) ∨ ∃ n, s = .named n ∧ StartsLetter n) (hp : StartsLetter p) :
    parseString add true next (serializeNQuads (mkQuad s (.named p) o g :: qs)) sink = (sink, next, .error .unexpectedInput) := by
  obtain ⟨c, r, rfl, hc⟩ := hp
  have key : pDoc true (serializeNQuads (mkQuad s (.named (c :: r)) o g :: qs)) = .error .unexpectedInput := by
    rcases hs with ⟨i, rfl⟩ | ⟨n, rfl, d, t, rfl, hd⟩
    · have htext : serializeNQuads (mkQuad (.bnode i) (.named (c :: r)) o g :: qs)
          = bnodeStr i ++ 32 :: c :: (r ++ [32] ++ o.str ++ [32] ++ g.str ++ py! " .\n" ++ serializeNQuads qs) := by
        simp [serializeNQuads, quadStr, mkQuad, Term.str]
      rw [htext]
      have hst : pStmt true (bnodeStr i ++ 32 :: c :: (r ++ [32] ++ o.str ++ [32] ++ g.str ++ py! " .\n" ++ serializeNQuads qs)) = .error .unexpectedInput := by
        simp only [pStmt, pSubject_bnode, pIriRef_sp, pIriRef_letter hc]
      obtain ⟨a, b, h1, -, -⟩ := bnodeStr_letters i
      rw [h1] at hst ⊢
      simp only [List.cons_append] at hst ⊢
      unfold pDoc
      rw [skipWs_ne (by decide)]
      simp only [hst]
      rfl
    · have htext : serializeNQuads (mkQuad (.named (d :: t)) (.named (c :: r)) o g :: qs)
          = d :: (t ++ [32] ++ (c :: r) ++ [32] ++ o.str ++ [32] ++ g.str ++ py! " .\n" ++ serializeNQuads qs) := by
        simp [serializeNQuads, quadStr, mkQuad, Term.str]
      rw [htext]
      obtain ⟨h1, h2, -, h4⟩ := letter_facts hd
      have hst : ∀ w, pStmt true (d :: w) = .error .unexpectedInput := by
        intro w
        have : pSubject (d :: w) = .error .unexpectedInput := by
          unfold pSubject
          rw [skipWs_ne h1]
          split
          · next h => simp only [List.cons.injEq] at h; exact absurd h.1 h4
          · rw [pIriRef_letter hd]; rfl
        simp only [pStmt, this]
      unfold pDoc
      rw [skipWs_ne h1]
      simp only [h2, hst, Bool.false_eq_true, if_false]
  simp only [parseString, key]

example : StartsLetter (py! "http://example.com/") := ⟨_, _, rfl, by decide⟩

/-- An empty dataset is written as the empty text and read back as empty. Missing from C43: everything else (`C43_never_read`). -/
theorem C43_empty_partial (add : σ → Stmt → σ) (next : Nat) (sink : σ) : parseString add true next (serializeNQuads []) sink = (sink, next, .ok ()) := rfl

/-! ### C44: white space in IRIs -/

/-- The property: an IRIREF that contains a space or tab is rejected. -/
def C44_statement : Prop :=
  ∀ (w : PStr) (c : Nat), c ∈ w → c = 32 ∨ c = 9 → (∀ d ∈ w, d ≠ 62) →
    ∃ e, (parseString Graph.add false 0 (py! "<" ++ w ++ py! "> <p> <o> .") Graph.new).2.2 = .error e

/-- It is accepted. -/
theorem C44_accepted : ¬ C44_statement := by
  intro h
  obtain ⟨e, h⟩ := h (py! "a b") 32 (by decide) (by decide) (by decide)
  exact absurd h (by
    have : (parseString Graph.add false 0 (py! "<" ++ py! "a b" ++ py! "> <p> <o> .") Graph.new).2.2 = .ok () := by decide
    rw [this]; simp)

theorem iriAux_ws (w rest : PStr) (h : ∀ c ∈ w, iriClass c = true ∨ isWs c = true) : iriAux 0 (w ++ 62 :: rest) = some (w.filter (fun c => !isWs c), rest) := by
  induction w with
  | nil => simp [iriAux]
  | cons c w ih =>
    have ih := ih (fun x hx => h x (by simp [hx]))
    have h62 : c ≠ 62 := by rintro rfl; have := h 62 (by simp); revert this; decide
    rw [List.cons_append, iriAux]
    by_cases hw : isWs c = true
    · simp only [h62, hw, if_true, if_false, ih]; simp [hw]
    · have hc := (h c (by simp)).resolve_right hw
      have h92 : c ≠ 92 := by rintro rfl; revert hc; decide
      simp only [h62, hw, h92, hc, if_true, if_false, ih]; simp [hw]

/-- Every text of characters of an IRIREF with white space anywhere between them, as the subject: it is read as the IRI without the white space. -/
theorem C44_exact (add : σ → Stmt → σ) (next : Nat) (sink : σ) (w : PStr) (h : ∀ c ∈ w, iriClass c = true ∨ c = 32 ∨ c = 9) :
    parseString add false next (py! "<" ++ w ++ py! "> <p> <o> .") sink =
      (add sink (mkTriple (.named (w.filter (fun c => decide (c ≠ 32 ∧ c ≠ 9)))) (.named (py! "p")) (.named (py! "o"))), next, .ok ()) := by
  have hw : ∀ c ∈ w, iriClass c = true ∨ isWs c = true := fun c hc => (h c hc).imp_right (by simp [isWs])
  have htext : (py! "<" ++ w ++ py! "> <p> <o> ." : PStr) = 60 :: (w ++ 62 :: 32 :: 60 :: (py! "p" ++ 62 :: 32 :: 60 :: (py! "o" ++ 62 :: py! " ."))) := by simp
  have hf : w.filter (fun c => !isWs c) = w.filter (fun c => decide (c ≠ 32 ∧ c ≠ 9)) := by
    congr 1; funext c; simp only [isWs, ne_eq, Bool.decide_and, decide_not, Bool.not_or]
    rfl
  have hd : decodeLiteral (w.filter (fun c => !isWs c)) = .ok (w.filter (fun c => !isWs c)) := by
    have : ∀ c ∈ w.filter (fun c => !isWs c), c ≠ 92 := by
      intro c hc
      rw [List.mem_filter] at hc
      have := (hw c hc.1).resolve_right (by simpa using hc.2)
      rintro rfl
      revert this; decide
    clear hf
    generalize w.filter (fun c => !isWs c) = u at *
    induction u with
    | nil => rfl
    | cons c u ih => rw [decodeLiteral_plain (this c (by simp)), ih (fun x hx => this x (by simp [hx]))]; rfl
  have hsub : ∀ rest, pSubject (60 :: (w ++ 62 :: rest)) = .ok (.iri (w.filter (fun c => !isWs c)), rest) := by
    intro rest
    simp only [pSubject, pIriRef, skipWs_ne (show isWs 60 = false by decide), iriAux_ws w rest hw, hd]
    rfl
  have hobj : pObject (32 :: 60 :: (py! "o" ++ 62 :: py! " .")) = .ok (.iri (py! "o"), py! " .") := by decide
  have hst : pStmt false (60 :: (w ++ 62 :: 32 :: 60 :: (py! "p" ++ 62 :: 32 :: 60 :: (py! "o" ++ 62 :: py! " .")))) =
      .ok ({ s := .iri (w.filter (fun c => !isWs c)), p := .iri (py! "p"), o := .iri (py! "o"), g := none }, []) := by
    simp only [pStmt, hsub, pIriRef_sp, pIriRef_keeps (py! "p") _ (by decide), hobj]
    rfl
  rw [htext, ← hf]
  simp only [parseString, pDoc, skipWs_ne (show isWs 60 = false by decide), hst]
  rfl

/-- White space other than space and tab is rejected within an IRIREF (so C44 holds for it): in every position where the IRIREF starts a statement. Missing from C44: space and tab, which
    are ignored (`C44_exact`). -/
theorem C44_other_white_space_partial (add : σ → Stmt → σ) (q : Bool) (next : Nat) (sink : σ) (a rest : PStr) (c : Nat) (ha : ∀ d ∈ a, iriClass d = true)
    (hc : c = 10 ∨ c = 13 ∨ c = 11 ∨ c = 12) : parseString add q next (60 :: (a ++ c :: rest)) sink = (sink, next, .error .unexpectedInput) := by
  have hi : iriAux 0 (a ++ c :: rest) = none := by
    induction a with
    | nil => rcases hc with rfl | rfl | rfl | rfl <;> simp [iriAux, isWs, iriClass]
    | cons d a ih =>
      have hd := ha d (by simp)
      have h1 : d ≠ 62 := by rintro rfl; revert hd; decide
      have h2 : isWs d = false := by
        simp only [iriClass, Bool.and_eq_true, decide_eq_true_eq] at hd
        simp [isWs]; omega
      have h3 : d ≠ 92 := by rintro rfl; revert hd; decide
      rw [List.cons_append, iriAux]
      simp only [h1, h2, h3, hd, if_true, if_false, Bool.false_eq_true, ih (fun x hx => ha x (by simp [hx]))]
      rfl
  have : pStmt q (60 :: (a ++ c :: rest)) = .error .unexpectedInput := by
    simp only [pStmt, pSubject, pIriRef, skipWs_ne (show isWs 60 = false by decide), hi]; rfl
  simp only [parseString, pDoc, skipWs_ne (show isWs 60 = false by decide), this]
  rfl

example : ∀ d ∈ py! "http://a/é?b", iriClass d = true := by decide

/-! ### C80: errors -/

/-- Every text, every sink: the outcome is success or one of three exceptions, and two of them need a letter U in the text. -/
theorem C80_string_errors (add : σ → Stmt → σ) (q : Bool) (next : Nat) (text : PStr) (sink : σ) (e : Exc)
    (h : (parseString add q next text sink).2.2 = .error e) :
    e = .unexpectedInput ∨ (85 ∈ text ∧ (e = .valueError ∨ e = .overflowError)) := by
  simp only [parseString] at h
  cases hd : pDoc q text with
  | ok rs => rw [hd] at h; cases h
  | error x => rw [hd] at h; cases h; exact pDoc_err hd

/-- The same for streams, where a line without a statement raises RuntimeError. -/
theorem C80_stream_errors (add : σ → Stmt → σ) (q : Bool) (next : Nat) (content : PStr) (sink : σ) (e : Exc)
    (h : (parseStream add q next content sink).2.2 = .error e) :
    e = .unexpectedInput ∨ e = .runtimeError ∨ (85 ∈ content ∧ (e = .valueError ∨ e = .overflowError)) := by
  obtain ⟨pre, bad, post, firsts, f, h1, -, -, h4⟩ := C40_stream_exact add q next content sink e h
  rcases h4 with h4 | ⟨-, h4⟩
  · rcases pDoc_err h4 with h | ⟨h5, h6⟩
    · exact Or.inl h
    · refine Or.inr (Or.inr ⟨?_, h6⟩)
      rw [← splitLines_flatten content, h1]
      exact List.mem_flatten.2 ⟨bad, by simp, h5⟩
  · exact Or.inr (Or.inl h4)

example : (parseString Graph.add false 0 (py! "<\\U00110000> <p> <o> .") Graph.new).2.2 = .error .valueError := by decide
example : (parseString Graph.add false 0 (py! "<\\UFFFFFFFF> <p> <o> .") Graph.new).2.2 = .error .overflowError := by decide

/-! ### C81, C82: lines -/

theorem pDoc_lines (q : Bool) (lines : List PStr) (h : ∀ l ∈ lines, (∀ c ∈ l, c ≠ 10 ∧ c ≠ 13) ∧ ¬ Blank l) (b : PStr) (hb : StartsStmt b) :
    (∀ rs, pDoc q (lines.flatMap (· ++ [10])) = .ok rs → pDoc q (lines.flatMap (· ++ [10]) ++ b) = (pDoc q b).map (rs ++ ·)) ∧
    (∀ e, pDoc q (lines.flatMap (· ++ [10])) = .error e → pDoc q (lines.flatMap (· ++ [10]) ++ b) = .error e) ∧
    StartsStmt (lines.flatMap (· ++ [10]) ++ b) := by
  induction lines with
  | nil =>
    refine ⟨?_, ?_, hb⟩
    · intro rs hrs; cases hrs
      show pDoc q b = _
      cases pDoc q b <;> rfl
    · intro e he; cases he
  | cons l ls ih =>
    obtain ⟨i1, i2, i3⟩ := ih (fun x hx => h x (by simp [hx]))
    have h3 : StartsStmt (ls.flatMap (· ++ [10])) := by
      clear i1 i2 i3 ih
      cases ls with
      | nil => exact starts_nil
      | cons l' ls =>
        have := h l' (by simp)
        rw [List.flatMap_cons, List.append_assoc]
        exact starts_of_line (noEol_iff.1 this.1) (fun e => this.2 (blank_iff.1 e)) (by decide)
    obtain ⟨hl, hne⟩ := h l (by simp)
    have e1 := pDoc_clean_line q 0 hl hne h3
    have e2 := pDoc_clean_line q 0 hl hne i3
    simp only [List.replicate_zero, List.nil_append] at e1 e2
    have ea : (l :: ls).flatMap (· ++ [10]) = l ++ 10 :: ls.flatMap (· ++ [10]) := by simp
    have eb : (l :: ls).flatMap (· ++ [10]) ++ b = l ++ 10 :: (ls.flatMap (· ++ [10]) ++ b) := by simp
    refine ⟨?_, ?_, ?_⟩
    · intro rs hrs
      rw [ea, e1] at hrs
      rw [eb, e2]
      cases hp : pLine q l with
      | error e => rw [hp] at hrs; cases hrs
      | ok st =>
        rw [hp] at hrs
        simp only at hrs ⊢
        cases hr : pDoc q (ls.flatMap (· ++ [10])) with
        | error e => rw [hr] at hrs; cases hrs
        | ok rs' =>
          rw [hr] at hrs; cases hrs
          rw [i1 rs' hr]
          cases pDoc q b <;> rfl
    · intro e he
      rw [ea, e1] at he
      rw [eb, e2]
      cases hp : pLine q l with
      | error x => rw [hp] at he; exact he
      | ok st =>
        rw [hp] at he
        simp only at he ⊢
        rw [i2 e (map_error he)]; rfl
    · rw [eb]
      exact starts_of_line (noEol_iff.1 hl) (fun e => hne (blank_iff.1 e)) (by decide)

/-- **Concatenation.** A first text of complete non-blank lines, followed by any text that does not begin with a blank line: the statements of both, in order;
    an error of the first text is the error of the whole. -/
theorem C82_concatenation (q : Bool) (lines : List PStr) (h : ∀ l ∈ lines, (∀ c ∈ l, c ≠ 10 ∧ c ≠ 13) ∧ ∃ c ∈ l, c ≠ 32 ∧ c ≠ 9) (b : PStr)
    (hb : ∀ w c r, b = w ++ c :: r → (∀ d ∈ w, d = 32 ∨ d = 9) → c ≠ 10 ∧ c ≠ 13) :
    (∀ rs rs', pDoc q (lines.flatMap (· ++ [10])) = .ok rs → pDoc q b = .ok rs' → pDoc q (lines.flatMap (· ++ [10]) ++ b) = .ok (rs ++ rs')) ∧
    (∀ e, pDoc q (lines.flatMap (· ++ [10])) = .error e → pDoc q (lines.flatMap (· ++ [10]) ++ b) = .error e) ∧
    (∀ rs e, pDoc q (lines.flatMap (· ++ [10])) = .ok rs → pDoc q b = .error e → pDoc q (lines.flatMap (· ++ [10]) ++ b) = .error e) := by
  have hs : StartsStmt b := by
    intro c r hc
    have hsplit : b = b.takeWhile isWs ++ c :: r := by rw [← hc]; exact (List.takeWhile_append_dropWhile).symm
    have := hb _ c r hsplit (fun d hd => by
      have : isWs d = true := by
        clear hsplit hc hb
        induction b with
        | nil => simp at hd
        | cons x b ih =>
          rw [List.takeWhile_cons] at hd
          split at hd
          · next hx =>
            rcases List.mem_cons.1 hd with rfl | hd
            · exact hx
            · exact ih hd
          · simp at hd
      simpa [isWs] using this)
    simp [isEol, this.1, this.2]
  obtain ⟨h1, h2, -⟩ := pDoc_lines q lines (fun l hl => ⟨(h l hl).1, fun hbl => by
    obtain ⟨c, hc, hc'⟩ := (h l hl).2
    have := hbl c hc; omega⟩) b hs
  refine ⟨?_, h2, ?_⟩
  · intro rs rs' hr hr'; rw [h1 rs hr, hr']; rfl
  · intro rs e hr he; rw [h1 rs hr, he]; rfl

example : pDoc false ([py! "<a> <b> <c> ."].flatMap (· ++ [10]) ++ py! "_:x <b> <c> .") =
    .ok ([{ s := .iri (py! "a"), p := .iri (py! "b"), o := .iri (py! "c") }] ++ [{ s := .label (py! "_:x"), p := .iri (py! "b"), o := .iri (py! "c") }]) := by decide

/-- The property: a comment line is skipped. -/
def C81_statement : Prop :=
  ∀ comment : PStr, (∀ c ∈ comment, c ≠ 10 ∧ c ≠ 13) →
    (parseString Graph.add false 0 (py! "#" ++ comment ++ py! "\n<a> <b> <c> .\n") Graph.new).2.2 = .ok ()

theorem pStmt_hash (q : Bool) (s : PStr) : pStmt q (35 :: s) = .error .unexpectedInput := by
  simp [pStmt, pSubject, pIriRef, skipWs, isWs, Except.map]

theorem C81_comment_rejected : ¬ C81_statement := by
  intro h
  have := h [] (by simp)
  exact absurd this (by decide)

/-- A comment line after any number of complete readable lines, with or without white space before it, always raises UnexpectedInput, and nothing is added. -/
theorem C81_comments_never_read (add : σ → Stmt → σ) (q : Bool) (next : Nat) (sink : σ) (lines : List PStr)
    (h : ∀ l ∈ lines, (∀ c ∈ l, c ≠ 10 ∧ c ≠ 13) ∧ ∃ c ∈ l, c ≠ 32 ∧ c ≠ 9) (hread : ∃ rs, pDoc q (lines.flatMap (· ++ [10])) = .ok rs)
    (w : PStr) (hw : ∀ c ∈ w, c = 32 ∨ c = 9) (rest : PStr) :
    parseString add q next (lines.flatMap (· ++ [10]) ++ (w ++ 35 :: rest)) sink = (sink, next, .error .unexpectedInput) := by
  have hsk : skipWs (w ++ 35 :: rest) = 35 :: rest := by
    clear hread h
    induction w with
    | nil => rfl
    | cons c w ih =>
      have : isWs c = true := by simpa [isWs] using hw c (by simp)
      simp only [skipWs, List.cons_append, List.dropWhile_cons, this, if_true] at ih ⊢
      exact ih (fun x hx => hw x (by simp [hx]))
  have hs : StartsStmt (w ++ 35 :: rest) := by
    intro c r hc
    rw [hsk] at hc
    cases hc; rfl
  obtain ⟨rs, hrs⟩ := hread
  obtain ⟨h1, -, -⟩ := pDoc_lines q lines (fun l hl => ⟨(h l hl).1, fun hbl => by
    obtain ⟨c, hc, hc'⟩ := (h l hl).2
    have := hbl c hc; omega⟩) _ hs
  have : pDoc q (w ++ 35 :: rest) = .error .unexpectedInput := by
    unfold pDoc
    rw [hsk]
    simp only [pStmt_hash]
    rfl
  simp only [parseString, h1 rs hrs, this, Except.map]

end Verif
