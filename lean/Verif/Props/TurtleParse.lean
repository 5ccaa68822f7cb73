import Verif.Props.TurtleList
import Verif.Props.TurtleGrammar
import Verif.Lemmas.Dataset
/-
C66, C94 and C63 for `turtle_parser.parse` as a whole.
-/
namespace Verif.Turtle
open Spec

variable {σ : Type} (add : σ → Stmt → σ) (nl : PStr → Bool) (base : PStr) (next : Nat) (sink : σ)

/-- A stream gives what its content gives. -/
def C66_statement : Prop := ∀ (σ : Type) (add : σ → Stmt → σ) (nl : PStr → Bool) (base : PStr) (next : Nat) (sink : σ) (c : PStr),
  parse add nl base next sink (.stream c) = parse add nl base next sink (.str c)

/-- A stream always gives TypeError and leaves the graph as it was. -/
theorem C66_exact (c : PStr) : parse add nl base next sink (.stream c) = (sink, next, .error .typeError) := rfl

theorem C66_refuted : ¬ C66_statement := by
  intro h
  have := h (List Stmt) (fun l t => l ++ [t]) (fun _ => true) [] 0 [] (py! "<s> <p> <o> .")
  revert this
  decide

/-- What holds: text and its UTF-8 encoding give the same. Missing: streams. -/
theorem C66_bytes_partial {text : PStr} {b : List Nat} (h : utf8Encode text = some b) :
    parse add nl base next sink (.bytes b) = parse add nl base next sink (.str text) := by
  simp only [parse, utf8Decode_encode h]

example : utf8Encode (py! "<s> <p> \"é\" .") = some (py! "<s> <p> \"" ++ [0xC3, 0xA9] ++ py! "\" .") := by decide

/-- Parsing adds all triples of the document, or, if there is an error, nothing; which triples does not depend on the graph. -/
theorem C94_all_or_nothing (i : Input) :
    (∃ e, ∀ (σ : Type) (add : σ → Stmt → σ) (sink : σ), parse add nl base next sink i = (sink, next, .error e)) ∨
    (∃ (n : Nat) (ts : List Stmt), next ≤ n ∧ (∀ t ∈ ts, t.g = none) ∧ ∀ (σ : Type) (add : σ → Stmt → σ) (sink : σ), parse add nl base next sink i = (ts.foldl add sink, n, .ok ())) := by
  have key : ∀ s n ts, parseText nl base next s = .ok (n, ts) → next ≤ n ∧ ∀ t ∈ ts, t.g = none := by
    intro s n ts h
    unfold parseText at h
    split at h
    · cases h
    · next ds _ =>
      split at h
      · cases h
      · next st' es he =>
        obtain ⟨_, _, _, h3, _⟩ := evalStmts_in ds [] (At.start base next) (BState.OK.init next) he
        have h := Except.ok.inj h
        rw [Prod.ext_iff] at h
        obtain ⟨rfl, rfl⟩ := h
        exact ⟨Nat.le_trans h3.ext.1 (genStmts_le es _), genStmts_tri es _⟩
  cases i with
  | stream c => exact .inl ⟨_, fun _ _ _ => rfl⟩
  | str s =>
    simp only [parse]
    cases hp : parseText nl base next s with
    | error e => exact .inl ⟨e, fun _ _ _ => rfl⟩
    | ok r => exact .inr ⟨r.1, r.2, (key s _ _ hp).1, (key s _ _ hp).2, fun _ _ _ => rfl⟩
  | bytes b =>
    simp only [parse]
    cases utf8Decode b with
    | none => exact .inl ⟨_, fun _ _ _ => rfl⟩
    | some s =>
      simp only
      cases hp : parseText nl base next s with
      | error e => exact .inl ⟨e, fun _ _ _ => rfl⟩
      | ok r => exact .inr ⟨r.1, r.2, (key s _ _ hp).1, (key s _ _ hp).2, fun _ _ _ => rfl⟩

/-- In a Graph: what was there, and the triples of the document. -/
theorem C94_graph (g : Graph) (i : Input) {g' : Graph} {n : Nat} (h : parse Graph.add nl base next g i = (g', n, .ok ())) :
    ∃ ts, (∀ (h : Graph), parse Graph.add nl base next h i = (h.addAll ts, n, .ok ())) ∧ ∀ t, t ∈ g'.triples ↔ t ∈ ts ∨ t ∈ g.triples := by
  rcases C94_all_or_nothing nl base next i with ⟨e, he⟩ | ⟨m, ts, _, _, hs⟩
  · rw [he] at h; cases h
  · rw [hs] at h
    cases h
    exact ⟨ts, fun h => hs _ _ h, fun t => Graph.mem_addAll g ts t⟩

example : (parse Graph.add (fun _ => true) [] 0 (Graph.new .none) (.str (py! "<s> <p> <o> . x"))).2 = (0, .error .unexpectedInput) := by decide

/-- From text to triples: the tokens of the text are those of one document tree; each name means what the directives before it say; the statements give the
    triples of the recommendation; and all blank nodes are new and distinct, except that a label always stands for the same one.
    Missing: object lists with a collection or property list next to other objects (C63_exact). -/
theorem C63_document_partial {text : PStr} {n : Nat} {ts : List Stmt} (h : parseText nl base next text = .ok (n, ts)) :
    ∃ toks ds label es an, lex text = .ok toks ∧ toks = docToks ds ∧ DocIn nl base knownPrefixes label [] ds es an ∧
      (∀ l l' k, label l = some k → label l' = some k → l = l') ∧
      ((∀ s ∈ es, s.plain = true) → ∃ fr ts', DocDen es fr ts' ∧ ts.Perm ts' ∧ (an ++ fr).Nodup ∧ (∀ l k, label l = some k → k ∉ an ++ fr) ∧
        ∀ k, k ∈ an ++ fr ∨ (∃ l, label l = some k) → next ≤ k ∧ k < n) := by
  unfold parseText at h
  split at h
  · cases h
  next ds hds =>
  split at h
  · cases h
  next st' es he =>
  unfold parseTree at hds
  split at hds
  · cases hds
  next toks ht =>
  have h := Except.ok.inj h
  rw [Prod.ext_iff] at h
  obtain ⟨rfl, rfl⟩ := h
  obtain ⟨label, an, h1, h2, h3, h4, h5⟩ := C65_scope ds base next he
  refine ⟨toks, ds, label, es, an, ht, (C93_exact _ _).1 hds, h1, h2, fun hp => ?_⟩
  obtain ⟨fr, ts', k1, k2, k3⟩ := C63_partial es hp st'.bn.next
  have hle : next ≤ st'.bn.next := by
    obtain ⟨_, _, _, h3, _⟩ := evalStmts_in ds [] (At.start base next) (BState.OK.init next) he
    exact h3.ext.1
  have hle2 := genStmts_le es st'.bn.next
  refine ⟨fr, ts', k1, k2, ?_, ?_, ?_⟩
  · rw [List.nodup_append]
    refine ⟨h3, k3.nodup, ?_⟩
    rintro a ha b hb rfl
    have := (h5 a (.inl ha)).2
    have := (k3.range a hb).1
    omega
  · intro l k hl hk
    rcases List.mem_append.1 hk with hk | hk
    · exact h4 l k hl hk
    · have := (h5 k (.inr ⟨l, hl⟩)).2
      have := (k3.range k hk).1
      omega
  · rintro k (hk | hk)
    · rcases List.mem_append.1 hk with hk | hk
      · have := h5 k (.inl hk); omega
      · have := k3.range k hk; omega
    · have := h5 k (.inr hk); omega

end Verif.Turtle
