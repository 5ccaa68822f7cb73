import Verif.Model.ParserApi
import Verif.Props.NTGrammar
import Verif.Props.TurtleParse
import Verif.Props.Graph
import Verif.Lemmas.Resource
/-
C116, C117: the parsers on bytes, and without a graph.
-/
namespace Verif
open Spec NTSpec

/-! ### C116 -/

theorem utf8Step_inv {bs : List Nat} {c n : Nat} (h : utf8Step bs = some (c, n)) :
    ∃ l rest, bs = l ++ rest ∧ l.length = n ∧ utf8Char c = some l := by
  unfold utf8Step at h
  split at h
  · cases h
  · next b0 rest =>
    split at h
    · next h0 =>
      simp only [Option.some.injEq, Prod.mk.injEq] at h
      obtain ⟨rfl, rfl⟩ := h
      exact ⟨_, rest, rfl, rfl, by unfold utf8Char; rw [if_pos h0]⟩
    · split at h
      · next h0 h1 =>
        split at h
        · next b1 r =>
          split at h
          · next hc =>
            simp only [isCont, decide_eq_true_eq] at hc
            simp only [Option.some.injEq, Prod.mk.injEq] at h
            obtain ⟨rfl, rfl⟩ := h
            refine ⟨[b0, b1], r, rfl, rfl, ?_⟩
            unfold utf8Char
            rw [if_neg (by omega), if_pos (by omega)]
            simp only [Option.some.injEq, List.cons.injEq, and_true]
            refine ⟨?_, ?_⟩ <;> omega
          · cases h
        · cases h
      · split at h
        · next h0 h1 h2 =>
          split at h
          · next b1 b2 r =>
            dsimp only at h
            split at h
            · next hc =>
              simp only [isCont, Bool.and_eq_true, decide_eq_true_eq, Bool.not_eq_true'] at hc
              obtain ⟨⟨⟨hc1, hc2⟩, hc3⟩, hc4⟩ := hc
              simp only [Option.some.injEq, Prod.mk.injEq] at h
              obtain ⟨rfl, rfl⟩ := h
              refine ⟨[b0, b1, b2], r, rfl, rfl, ?_⟩
              unfold utf8Char
              rw [if_neg (by omega), if_neg (by omega), if_pos (by omega), hc4]
              simp only [Bool.false_eq_true, if_false, Option.some.injEq, List.cons.injEq, and_true]
              refine ⟨?_, ?_, ?_⟩ <;> omega
            · cases h
          · cases h
        · split at h
          · next h0 h1 h2 h3 =>
            split at h
            · next b1 b2 b3 r =>
              dsimp only at h
              split at h
              · next hc =>
                simp only [isCont, Bool.and_eq_true, decide_eq_true_eq] at hc
                obtain ⟨⟨⟨⟨hc1, hc2⟩, hc3⟩, hc4⟩, hc5⟩ := hc
                simp only [Option.some.injEq, Prod.mk.injEq] at h
                obtain ⟨rfl, rfl⟩ := h
                refine ⟨[b0, b1, b2, b3], r, rfl, rfl, ?_⟩
                unfold utf8Char
                rw [if_neg (by omega), if_neg (by omega), if_neg (by omega), if_pos (by omega)]
                simp only [Option.some.injEq, List.cons.injEq, and_true]
                refine ⟨?_, ?_, ?_, ?_⟩ <;> omega
              · cases h
            · cases h
          · cases h

/-- Decoding is strict: only the encoding of a text decodes to it. -/
theorem utf8Encode_decode : ∀ (bs : List Nat) {s : PStr}, utf8Decode bs = some s → utf8Encode s = some bs := by
  intro bs
  induction hn : bs.length using Nat.strongRecOn generalizing bs with
  | ind n ih =>
    intro s h
    cases bs with
    | nil => cases h; rfl
    | cons b bs =>
      unfold utf8Decode utf8DecodeAux at h
      cases hs : utf8Step (b :: bs) with
      | none => rw [hs] at h; cases h
      | some r =>
        obtain ⟨c, k⟩ := r
        rw [hs] at h
        obtain ⟨l, rest, he, hl, hc⟩ := utf8Step_inv hs
        cases l with
        | nil => unfold utf8Char at hc; repeat (first | cases hc | split at hc)
        | cons b' l =>
          obtain ⟨rfl, rfl⟩ := List.cons.inj he
          have : utf8DecodeAux (k - 1) (l.append rest) = utf8Decode rest := by
            rw [← hl]; exact utf8DecodeAux_skip l rest
          dsimp only at h
          rw [this] at h
          cases hr : utf8Decode rest with
          | none => rw [hr] at h; cases h
          | some t =>
            rw [hr] at h; cases h
            have := ih rest.length (by rw [← hn]; simp; omega) rest rfl hr
            unfold utf8Encode
            rw [hc, this]
            rfl

/-- C116. Parsing the bytes of a text with any of the three parsers is parsing the text; bytes that encode no text raise UnicodeDecodeError, and nothing
    happens to the sink. -/
theorem C116_bytes {σ : Type} (add : σ → Stmt → σ) (q : Bool) (nl : PStr → Bool) (base : PStr) (next : Nat) (sink : σ) (b : List Nat) :
    (∀ text, utf8Encode text = some b →
      larkParseString add q next (.bytes b) sink = larkParseString add q next (.str text) sink ∧
      turtleParseString add nl base next (.bytes b) sink = turtleParseString add nl base next (.str text) sink) ∧
    ((∀ text, utf8Encode text ≠ some b) →
      larkParseString add q next (.bytes b) sink = (sink, next, .error .unicodeDecodeError) ∧
      turtleParseString add nl base next (.bytes b) sink = (sink, next, .error .unicodeDecodeError)) := by
  constructor
  · intro text h
    have := utf8Decode_encode h
    simp only [larkParseString, turtleParseString, Turtle.parse, this, and_self]
  · intro h
    have : utf8Decode b = none := by
      cases hd : utf8Decode b with
      | none => rfl
      | some s => exact absurd (utf8Encode_decode b hd) (h s)
    simp only [larkParseString, turtleParseString, Turtle.parse, this, and_self]

/-- Parsing a `str` is `parse`. -/
theorem C116_text {σ : Type} (add : σ → Stmt → σ) (q : Bool) (nl : PStr → Bool) (base : PStr) (next : Nat) (sink : σ) (text : PStr) :
    larkParseString add q next (.str text) sink = parseString add q next text sink ∧
    turtleParseString add nl base next (.str text) sink = Turtle.parse add nl base next sink (.str text) := ⟨rfl, rfl⟩

example : utf8Encode (py! "<s> <p> \"é\" .") = some (py! "<s> <p> \"" ++ [0xC3, 0xA9] ++ py! "\" .") ∧
    (larkParseString (fun l t => l ++ [t]) false 0 (.bytes (py! "<s> <p> \"" ++ [0xC3, 0xA9] ++ py! "\" .")) []).1 =
      [mkTriple (.named (py! "s")) (.named (py! "p")) (.lit (py! "é") none none)] ∧
    -- overlong, surrogate, Latin-1
    utf8Decode [0xC0, 0x80] = none ∧ utf8Decode [0xED, 0xA0, 0x80] = none ∧ utf8Decode (py! "<s> <p> \"" ++ [0xE9] ++ py! "\" .") = none := by
  decide

/-! ### C117 -/

/-- The statements of a text, as a list. -/
def statements (q : Bool) (next : Nat) (text : PStr) : List Stmt := (parseString (fun l t => l ++ [t]) q next text []).1

def turtleStatements (nl : PStr → Bool) (base : PStr) (next : Nat) (text : PStr) : List Stmt :=
  (Turtle.parse (fun l t => l ++ [t]) nl base next [] (.str text)).1

/-- The claim: parsing without a graph gives the statements of the text, and each can be found. -/
def C117_statement : Prop := ∀ q next text g, (larkParseNew q next text).2 = .ok g →
  (∀ x, g.contains x = true ↔ x ∈ statements q next text) ∧
  ∀ t ∈ statements q next text, NonEmpty (some t.s) → NonEmpty (some t.p) → t ∈ g.match id t.s t.p .none

theorem foldl_snoc (l a : List Stmt) : l.foldl (fun l t => l ++ [t]) a = a ++ l := by
  induction l generalizing a with
  | nil => simp
  | cons x l ih => rw [List.foldl_cons, ih]; simp

theorem larkParseNew_eq (q : Bool) (next : Nat) (text : PStr) {g : Graph} (h : (larkParseNew q next text).2 = .ok g) :
    g = (Graph.new .none).addAll (statements q next text) := by
  unfold larkParseNew onNewGraph parseString at h
  unfold statements parseString
  cases hd : pDoc q text with
  | error e => rw [hd] at h; cases h
  | ok rs =>
    rw [hd] at h
    simp only [Except.ok.injEq] at h
    rw [← h]
    dsimp only
    rw [foldl_snoc]; rfl

/-- The document of a reachable graph: statements without graph, added to a new graph. -/
theorem reach_addAll {ts : List Stmt} (h : ∀ t ∈ ts, t.g = none) : ((Graph.new .none).addAll ts).Reach := by
  have : ∀ g : Graph, g.Reach → (g.addAll ts).Reach := by
    induction ts with
    | nil => exact fun g hg => hg
    | cons t ts ih =>
      intro g hg
      have : t = mkTriple t.s t.p t.o := by
        have := h t (by simp)
        cases t; simp only at this; subst this; rfl
      exact ih (fun x hx => h x (by simp [hx])) _ (by rw [this]; exact hg.add _ _ _)
  exact this _ (.new _)

theorem statement_graph {D : Dialect} {s t r} (h : Statement D false s t r) : t.g = none := by
  cases h; rfl

theorem rest_graph {D : Dialect} {s ts} (h : Rest D false s ts) : ∀ t ∈ ts, t.g = none := by
  generalize hq : false = q at h
  induction h with
  | eof _ => simp
  | eol _ _ _ => simp
  | next _ _ hs _ ih =>
    subst hq
    intro t ht
    rcases List.mem_cons.1 ht with rfl | ht
    · exact statement_graph hs
    · exact ih t ht

theorem statements_graph (next : Nat) (text : PStr) : ∀ t ∈ statements false next text, t.g = none := by
  unfold statements parseString
  cases hd : pDoc false text with
  | error e => simp
  | ok rs =>
    dsimp only
    rw [foldl_snoc, List.nil_append, (BState.stmts_spec (BState.OK.init next) rs).2.2.2]
    have hrs : ∀ r ∈ rs, r.g = none := by
      cases pDoc_iff.1 hd with
      | first hs hr =>
        intro r h
        rcases List.mem_cons.1 h with rfl | h
        · exact statement_graph hs
        · exact rest_graph hr r h
      | rest hr => exact rest_graph hr
    intro t ht
    obtain ⟨r, hr, rfl⟩ := List.mem_map.1 ht
    simp [RStmt.subst, hrs r hr]

theorem quads_graph (next : Nat) (text : PStr) : ∀ t ∈ statements true next text, t.g ≠ none := by
  have key : ∀ {s t r}, Statement code true s t r → t.g ≠ none := by
    intro s t r h
    cases h with
    | quad => simp
    | bnodeGraph h => exact h.elim
    | noGraph h => exact h.elim
  have rest : ∀ {s ts}, Rest code true s ts → ∀ t ∈ ts, t.g ≠ none := by
    intro s ts h
    generalize hq : true = q at h
    induction h with
    | eof _ => simp
    | eol _ _ _ => simp
    | next _ _ hs _ ih =>
      subst hq
      intro t ht
      rcases List.mem_cons.1 ht with rfl | ht
      · exact key hs
      · exact ih t ht
  unfold statements parseString
  cases hd : pDoc true text with
  | error e => simp
  | ok rs =>
    dsimp only
    rw [foldl_snoc, List.nil_append, (BState.stmts_spec (BState.OK.init next) rs).2.2.2]
    have hrs : ∀ r ∈ rs, r.g ≠ none := by
      cases pDoc_iff.1 hd with
      | first hs hr =>
        intro r h
        rcases List.mem_cons.1 h with rfl | h
        · exact key hs
        · exact rest hr r h
      | rest hr => exact rest hr
    intro t ht
    obtain ⟨r, hr, rfl⟩ := List.mem_map.1 ht
    simpa [RStmt.subst] using hrs r hr

/-- N-Triples and N-Quads: the graph contains the statements of the text and nothing else. -/
theorem C117_members (q : Bool) (next : Nat) (text : PStr) {g : Graph} (h : (larkParseNew q next text).2 = .ok g) (x : Stmt) :
    g.contains x = true ↔ x ∈ statements q next text := by
  rw [larkParseNew_eq q next text h]
  unfold Graph.contains
  rw [decide_eq_true_eq, Graph.mem_addAll]
  simp [Graph.new]

/-- It raises what `parse` with a graph raises. -/
theorem C117_errors (q : Bool) (next : Nat) (text : PStr) (e : Exc) :
    (larkParseNew q next text).2 = .error e ↔ (parseString Graph.add q next text (Graph.new .none)).2.2 = .error e := by
  unfold larkParseNew onNewGraph
  generalize parseString Graph.add q next text (Graph.new .none) = r
  obtain ⟨g, n, r⟩ := r
  cases r <;> simp

/-- N-Triples: the result is a graph like any other (so C01–C09 apply), which represents the set of statements; match finds them. Missing for the full claim: N-Quads. -/
theorem C117_triples_partial (next : Nat) (text : PStr) {g : Graph} (h : (larkParseNew false next text).2 = .ok g) :
    g.Reach ∧ ∀ ord, IsOrder ord → ∀ t ∈ statements false next text, t ∈ g.match ord t.s t.p .none := by
  have hr : g.Reach := by rw [larkParseNew_eq _ _ _ h]; exact reach_addAll (statements_graph next text)
  refine ⟨hr, fun ord ho t ht => ?_⟩
  rw [Graph.mem_match_ix hr.inv.toIxInv ho _ _ _ (by simp [Term.truthy])]
  have := (C117_members _ _ _ h t).2 ht
  unfold Graph.contains at this
  exact ⟨by simpa using this, fun _ => rfl, fun _ => rfl, fun h => absurd h (by simp [Term.truthy])⟩

/-- Turtle: the same. -/
theorem C117_turtle (nl : PStr → Bool) (base : PStr) (next : Nat) (text : PStr) {g : Graph} (h : (turtleParseNew nl base next text).2 = .ok g) :
    g.Reach ∧ (∀ x, g.contains x = true ↔ x ∈ turtleStatements nl base next text) ∧
    ∀ ord, IsOrder ord → ∀ t ∈ turtleStatements nl base next text, t ∈ g.match ord t.s t.p .none := by
  have key : g = (Graph.new .none).addAll (turtleStatements nl base next text) ∧ ∀ t ∈ turtleStatements nl base next text, t.g = none := by
    unfold turtleParseNew onNewGraph at h
    dsimp only at h
    unfold turtleStatements
    rcases Turtle.C94_all_or_nothing (nl := nl) (base := base) (next := next) (.str text) with ⟨e, he⟩ | ⟨n, ts, _, hg, he⟩
    · rw [he] at h; cases h
    · rw [he] at h ⊢
      simp only [Except.ok.injEq] at h
      rw [foldl_snoc, List.nil_append]
      exact ⟨h.symm, hg⟩
  have hr : g.Reach := by rw [key.1]; exact reach_addAll key.2
  have hm : ∀ x, g.contains x = true ↔ x ∈ turtleStatements nl base next text := by
    intro x
    rw [key.1]
    unfold Graph.contains
    rw [decide_eq_true_eq, Graph.mem_addAll]
    simp [Graph.new]
  refine ⟨hr, hm, fun ord ho t ht => ?_⟩
  rw [Graph.mem_match_ix hr.inv.toIxInv ho _ _ _ (by simp [Term.truthy])]
  have := (hm t).2 ht
  unfold Graph.contains at this
  exact ⟨by simpa using this, fun _ => rfl, fun _ => rfl, fun h => absurd h (by simp [Term.truthy])⟩

def twoQuads : PStr := py! "<s> <p> <o> <g> .\n<s> <p> <o> <h> .\n"

/-- `nquads_parser.parse(text)` makes a Graph, not a Dataset. With the same triple in two graphs, only one of the two quads can be found. -/
theorem C117_refuted : ¬ C117_statement := by
  intro h
  have := (h true 0 twoQuads ((Graph.new .none).addAll (statements true 0 twoQuads)) (by decide)).2
    (mkQuad (.named (py! "s")) (.named (py! "p")) (.named (py! "o")) (.named (py! "g"))) (by decide)
    (by intro a e; cases e; exact ⟨by decide, by decide⟩) (by intro a e; cases e; exact ⟨by decide, by decide⟩)
  revert this; decide

/-- N-Quads: a quad is found by its three terms never, and by two of them if no other quad of the text has the same three. -/
theorem C117_quads (next : Nat) (text : PStr) {g : Graph} (h : (larkParseNew true next text).2 = .ok g) :
    (∀ ord s p o, NonEmpty (some s) → NonEmpty (some p) → NonEmpty (some o) → ∀ q ∈ statements true next text, q ∉ g.match ord s p o) ∧
    ((∀ q ∈ statements true next text, ∀ q' ∈ statements true next text, q.s = q'.s → q.p = q'.p → q.o = q'.o → q = q') →
      ∀ ord, IsOrder ord → ∀ q ∈ statements true next text, q ∈ g.match ord q.s q.p .none) := by
  have e := larkParseNew_eq _ _ _ h
  subst e
  constructor
  · intro ord s p o hs hp ho q hq
    refine C10_bound_match_misses_quads .none (statements true next text) ord (some s) (some p) (some o) (by simp) (by simp) (by simp) hs hp ho q (quads_graph next text q hq)
  · intro hd ord ho q hq
    exact (C10_quads_found_partial .none _ ord ho hd q ((ho _).mem_iff.2 ((by
      have := (C117_members _ _ _ h q).2 hq; unfold Graph.contains at this; exact of_decide_eq_true this)))).1

example : (larkParseNew false 0 (py! "<s> <p> <o> .\n")).2 =
    .ok ((Graph.new .none).add (mkTriple (.named (py! "s")) (.named (py! "p")) (.named (py! "o")))) := by decide

end Verif
