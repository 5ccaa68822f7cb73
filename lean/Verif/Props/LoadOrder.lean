import Verif.Props.TurtleReload
import Verif.Props.DatasetSink
import Verif.Props.JsonLd
/-
C161: the order in which documents are loaded into one graph or dataset.
-/
namespace Verif
open Spec Graph NTSpec

/-! ### Specification -/

/-- The term with another identity for its blank node, or for the generator object of C85. -/
def Term.reident (ρ : Nat → Nat) : Term → Term
  | .bnode i => .bnode (ρ i)
  | .gen i => .gen (ρ i)
  | t => t

def Stmt.reident (ρ : Nat → Nat) (t : Stmt) : Stmt := ⟨t.s.reident ρ, t.p.reident ρ, t.o.reident ρ, t.g.map (·.reident ρ)⟩

/-- The statement mentions the identity, in one of its four positions. -/
def Stmt.Mentions (t : Stmt) (i : Nat) : Prop := t.HasIdent i ∨ ∃ g, t.g = some g ∧ g.ident = some i

/-- One call that reads a document into a graph: `ntriples_parser.parse_string`, `ntriples_parser.parse` with an open file, and the functions of `turtle_parser`. -/
inductive Loading
  | nt (source : Source)
  | ntFile (content : PStr)
  | turtle (base : PStr) (input : Turtle.Input)

/-- The call. -/
def Loading.load {σ : Type} (add : σ → Stmt → σ) (nl : PStr → Bool) (l : Loading) (next : Nat) (sink : σ) : σ × Nat × Except Exc Unit :=
  match l with
  | .nt source => larkParseString add false next source sink
  | .ntFile content => parseStream add false next content sink
  | .turtle base input => Turtle.parse add nl base next sink input

/-- One call that reads a document into a dataset: `nquads_parser.parse` with a text or an open file, and `jsonld_parser.parse_json`, of which `to_rdf` is given. -/
inductive DsLoading
  | nq (text : PStr)
  | nqFile (content : PStr)
  | json (rdf : Except Exc JDataset)

/-- The call. -/
def DsLoading.load (l : DsLoading) (next : Nat) (ds : Dataset) : Dataset × Nat × Except Exc Unit :=
  match l with
  | .nq text => parseStringDs true next text ds
  | .nqFile content => parseStreamDs true next content ds
  | .json rdf =>
    match parseJson Dataset.addStmt none next rdf ds with
    | (_, n, .ok ds') => (ds', n, .ok ())
    | (_, n, .error e) => (ds, n, .error e)

/-- The calls one after another, whether they raise or not: the graph or dataset, the allocator and how each call ended. -/
def loadSeq {α σ : Type} (load : α → Nat → σ → σ × Nat × Except Exc Unit) : List α → Nat → σ → σ × Nat × List (Except Exc Unit)
  | [], next, sink => (sink, next, [])
  | l :: ls, next, sink =>
    let a := load l next sink
    let r := loadSeq load ls a.2.1 a.1
    (r.1, r.2.1, a.2.2 :: r.2.2)

/-! ### Readings that do not depend on the names already taken -/

theorem mentions_iff {t : Stmt} (hg : t.g = none) {i : Nat} : t.Mentions i ↔ t.HasIdent i := by simp [Stmt.Mentions, hg]

theorem mentions_up {k i : Nat} {t : Stmt} : (t.up k).Mentions i ↔ ∃ j, t.Mentions j ∧ i = j + k := by
  unfold Stmt.Mentions
  rw [Turtle.hasIdent_up]
  have : (∃ g, (t.up k).g = some g ∧ g.ident = some i) ↔ ∃ j, (∃ g, t.g = some g ∧ g.ident = some j) ∧ i = j + k := by
    simp only [Stmt.up, Turtle.shS, Option.map_eq_some_iff]
    constructor
    · rintro ⟨_, ⟨g, hg, rfl⟩, h⟩
      rw [Turtle.ident_sh, Option.map_eq_some_iff] at h
      obtain ⟨j, hj, rfl⟩ := h
      exact ⟨j, ⟨g, hg, hj⟩, rfl⟩
    · rintro ⟨j, ⟨g, hg, hj⟩, rfl⟩
      exact ⟨_, ⟨g, hg, rfl⟩, by rw [Turtle.ident_sh, hj]; rfl⟩
  rw [this]
  constructor
  · rintro (⟨j, h, e⟩ | ⟨j, h, e⟩)
    exacts [⟨j, Or.inl h, e⟩, ⟨j, Or.inr h, e⟩]
  · rintro ⟨j, h | h, e⟩
    exacts [Or.inl ⟨j, h, e⟩, Or.inr ⟨j, h, e⟩]

/-- The reading hands `ts` to any sink, moved up to the free identities, of which it takes `m`, and ends with `r`. -/
structure Uniform (read : (σ : Type) → (σ → Stmt → σ) → Nat → σ → σ × Nat × Except Exc Unit) (m : Nat) (ts : List Stmt) (r : Except Exc Unit) : Prop where
  lt : ∀ t ∈ ts, ∀ i, t.Mentions i → i < m
  eq : ∀ (σ : Type) (add : σ → Stmt → σ) (next : Nat) (sink : σ), read σ add next sink = ((ts.map (·.up next)).foldl add sink, next + m, r)

namespace LoadOrder
open Turtle (shT shS shB node_sh OkB node_lt LtT)

theorem term_sh (k : Nat) (b : BState) (t : RTerm) : (shB k b).term t = (shB k (b.term t).1, shT k (b.term t).2) := by
  cases t with
  | iri _ => rfl
  | lit _ _ _ => rfl
  | label l => simp only [BState.term, node_sh, shT]

theorem stmt_sh (k : Nat) (b : BState) (t : RStmt) : (shB k b).stmt t = (shB k (b.stmt t).1, (b.stmt t).2.up k) := by
  unfold BState.stmt
  simp only [term_sh]
  cases t.g with
  | none => rfl
  | some g => simp only [term_sh]; rfl

theorem stmts_sh (k : Nat) (ts : List RStmt) : ∀ b : BState, (shB k b).stmts ts = (shB k (b.stmts ts).1, (b.stmts ts).2.map (·.up k)) := by
  induction ts with
  | nil => intro b; rfl
  | cons t ts ih => intro b; simp only [BState.stmts, stmt_sh, ih, List.map_cons]

/-- Identities are below the allocator. -/
def Below (n : Nat) (t : Stmt) : Prop := ∀ i, t.Mentions i → i < n

theorem Below.mono {n m : Nat} (h : n ≤ m) {t : Stmt} (ht : Below n t) : Below m t := fun i hi => Nat.lt_of_lt_of_le (ht i hi) h

theorem term_lt {b : BState} (h : OkB b) (t : RTerm) : OkB (b.term t).1 ∧ b.next ≤ (b.term t).1.next ∧ LtT (b.term t).1.next (b.term t).2 := by
  cases t with
  | iri _ => exact ⟨h, Nat.le_refl _, trivial⟩
  | lit _ _ _ => exact ⟨h, Nat.le_refl _, trivial⟩
  | label l => exact node_lt h l

theorem stmt_lt {b : BState} (h : OkB b) (t : RStmt) : OkB (b.stmt t).1 ∧ b.next ≤ (b.stmt t).1.next ∧ Below (b.stmt t).1.next (b.stmt t).2 := by
  unfold BState.stmt
  dsimp only
  obtain ⟨a1, a2, a3⟩ := term_lt h t.s
  obtain ⟨b1, b2, b3⟩ := term_lt a1 t.p
  obtain ⟨c1, c2, c3⟩ := term_lt b1 t.o
  cases t.g with
  | none =>
    refine ⟨c1, by dsimp only; omega, ?_⟩
    rintro i ((hi | hi | hi) | ⟨g, hg, hi⟩)
    · have := a3.ident i hi; dsimp only; omega
    · have := b3.ident i hi; dsimp only; omega
    · exact c3.ident i hi
    · cases hg
  | some g =>
    obtain ⟨d1, d2, d3⟩ := term_lt c1 g
    refine ⟨d1, by dsimp only; omega, ?_⟩
    dsimp only
    rintro i ((hi | hi | hi) | ⟨g, hg, hi⟩)
    · have := a3.ident i hi; omega
    · have := b3.ident i hi; omega
    · have := c3.ident i hi; omega
    · cases hg; exact d3.ident i hi

theorem stmts_lt (ts : List RStmt) : ∀ {b : BState}, OkB b → OkB (b.stmts ts).1 ∧ b.next ≤ (b.stmts ts).1.next ∧ ∀ t ∈ (b.stmts ts).2, Below (b.stmts ts).1.next t := by
  induction ts with
  | nil => intro b h; exact ⟨h, Nat.le_refl _, by simp [BState.stmts]⟩
  | cons t ts ih =>
    intro b h
    obtain ⟨a1, a2, a3⟩ := stmt_lt h t
    obtain ⟨b1, b2, b3⟩ := ih a1
    refine ⟨b1, Nat.le_trans a2 b2, fun x hx => ?_⟩
    rcases List.mem_cons.1 hx with rfl | hx
    · exact a3.mono b2
    · exact b3 x hx

theorem okB_init (n : Nat) : OkB { map := [], next := n } := by intro l i h; cases h

theorem init_sh (n : Nat) : ({ map := [], next := n } : BState) = shB n { map := [], next := 0 } := by
  simp [shB, Par.mapVals]

/-- The statements handed over by `parseLines`. -/
def linesOut (q : Bool) : BState → List PStr → List Stmt × BState × Except Exc Unit
  | st, [] => ([], st, .ok ())
  | st, line :: lines =>
    if line = [] then linesOut q st lines
    else
      match pDoc q line with
      | .error e => ([], st, .error e)
      | .ok rs =>
        match (st.stmts rs).2 with
        | [] => ([], (st.stmts rs).1, .error .runtimeError)
        | t :: _ => let r := linesOut q (st.stmts rs).1 lines; (t :: r.1, r.2)

theorem parseLines_out {σ : Type} (add : σ → Stmt → σ) (q : Bool) (lines : List PStr) : ∀ (st : BState) (sink : σ),
    parseLines add q st lines sink = ((linesOut q st lines).1.foldl add sink, (linesOut q st lines).2.1, (linesOut q st lines).2.2) := by
  induction lines with
  | nil => intro st sink; rfl
  | cons l ls ih =>
    intro st sink
    unfold parseLines linesOut
    by_cases hl : l = []
    · simp only [hl, if_true]; exact ih st sink
    · simp only [hl, if_false]
      cases pDoc q l with
      | error e => rfl
      | ok rs =>
        dsimp only
        cases (st.stmts rs).2 with
        | nil => rfl
        | cons t ts => dsimp only; rw [ih]; rfl

theorem linesOut_sh (q : Bool) (k : Nat) (lines : List PStr) : ∀ st : BState,
    linesOut q (shB k st) lines = ((linesOut q st lines).1.map (·.up k), shB k (linesOut q st lines).2.1, (linesOut q st lines).2.2) := by
  induction lines with
  | nil => intro st; rfl
  | cons l ls ih =>
    intro st
    unfold linesOut
    by_cases hl : l = []
    · simp only [hl, if_true]; exact ih st
    · simp only [hl, if_false]
      cases pDoc q l with
      | error e => rfl
      | ok rs =>
        simp only [stmts_sh]
        cases (st.stmts rs).2 with
        | nil => rfl
        | cons t ts => simp only [List.map_cons, ih]

theorem linesOut_lt (q : Bool) (lines : List PStr) : ∀ {st : BState}, OkB st →
    OkB (linesOut q st lines).2.1 ∧ st.next ≤ (linesOut q st lines).2.1.next ∧ ∀ t ∈ (linesOut q st lines).1, Below (linesOut q st lines).2.1.next t := by
  induction lines with
  | nil => intro st h; exact ⟨h, Nat.le_refl _, by simp [linesOut]⟩
  | cons l ls ih =>
    intro st h
    unfold linesOut
    by_cases hl : l = []
    · simp only [hl, if_true]; exact ih h
    · simp only [hl, if_false]
      cases pDoc q l with
      | error e => exact ⟨h, Nat.le_refl _, by simp⟩
      | ok rs =>
        obtain ⟨a1, a2, a3⟩ := stmts_lt rs h
        dsimp only
        cases hs : (st.stmts rs).2 with
        | nil => exact ⟨a1, a2, by simp⟩
        | cons t ts =>
          dsimp only
          obtain ⟨b1, b2, b3⟩ := ih a1
          refine ⟨b1, Nat.le_trans a2 b2, fun x hx => ?_⟩
          rcases List.mem_cons.1 hx with rfl | hx
          · exact (a3 x (by rw [hs]; simp)).mono b2
          · exact b3 x hx

/-- Reading a text of N-Triples or N-Quads. -/
theorem uniform_text (q : Bool) (text : PStr) : ∃ m ts r, Uniform (fun _ add next sink => parseString add q next text sink) m ts r := by
  cases h : pDoc q text with
  | error e => exact ⟨0, [], .error e, by simp, fun σ add next sink => by simp only [parseString, h]; rfl⟩
  | ok rs =>
    obtain ⟨-, -, h3⟩ := stmts_lt rs (okB_init 0)
    refine ⟨_, _, .ok (), h3, fun σ add next sink => ?_⟩
    simp only [parseString, h]
    rw [init_sh next, stmts_sh]
    simp only [shB, Nat.add_comm]

theorem uniform_stream (q : Bool) (content : PStr) : ∃ m ts r, Uniform (fun _ add next sink => parseStream add q next content sink) m ts r := by
  obtain ⟨-, -, h3⟩ := linesOut_lt q (splitLines content) (okB_init 0)
  refine ⟨_, _, (linesOut q { map := [], next := 0 } (splitLines content)).2.2, h3, fun σ add next sink => ?_⟩
  simp only [parseStream]
  rw [parseLines_out, init_sh next, linesOut_sh]
  simp only [shB, Nat.add_comm]

theorem uniform_source (q : Bool) (s : Source) : ∃ m ts r, Uniform (fun _ add next sink => larkParseString add q next s sink) m ts r := by
  cases s with
  | str s => exact uniform_text q s
  | bytes b =>
    cases h : utf8Decode b with
    | none => exact ⟨0, [], .error .unicodeDecodeError, by simp, fun σ add next sink => by simp only [larkParseString, h]; rfl⟩
    | some s => simp only [larkParseString, h]; exact uniform_text q s

theorem uniform_load (nl : PStr → Bool) (l : Loading) : ∃ m ts r, Uniform (fun _ add next sink => l.load add nl next sink) m ts r := by
  cases l with
  | nt s => exact uniform_source false s
  | ntFile c => exact uniform_stream false c
  | turtle base i =>
    rcases Turtle.C144_uniform nl base i with ⟨e, he⟩ | ⟨m, ts, hts, he⟩
    · exact ⟨0, [], .error e, by simp, fun σ add next sink => he next σ add sink⟩
    · exact ⟨m, ts, .ok (), fun t ht i hi => (hts t ht).2 i ((mentions_iff (hts t ht).1).1 hi), fun σ add next sink => he next σ add sink⟩

/-! ### Permutations -/

theorem reidentT_eq {ρ : Nat → Nat} {t : Term} {k : Nat} (h : ∀ i, t.ident = some i → ρ i = i + k) : t.reident ρ = shT k t := by
  cases t with
  | bnode i => simp only [Term.reident, shT, h i rfl]
  | gen i => simp only [Term.reident, shT, h i rfl]
  | none => rfl
  | named _ => rfl
  | lit _ _ _ => rfl

theorem reident_eq {ρ : Nat → Nat} {t : Stmt} {k : Nat} (h : ∀ i, t.Mentions i → ρ i = i + k) : t.reident ρ = t.up k := by
  obtain ⟨s, p, o, g⟩ := t
  simp only [Stmt.reident, Stmt.up, shS, Stmt.mk.injEq]
  refine ⟨reidentT_eq fun i hi => h i (.inl (.inl hi)), reidentT_eq fun i hi => h i (.inl (.inr (.inl hi))), reidentT_eq fun i hi => h i (.inl (.inr (.inr hi))), ?_⟩
  cases g with
  | none => rfl
  | some g => exact congrArg some (reidentT_eq fun i hi => h i (.inr ⟨g, rfl, hi⟩))

theorem shT_zero (t : Term) : shT 0 t = t := by cases t <;> rfl

theorem up_zero (t : Stmt) : t.up 0 = t := by
  obtain ⟨s, p, o, g⟩ := t
  cases g <;> simp [Stmt.up, shS, shT_zero]

theorem reident_id {ρ : Nat → Nat} {t : Stmt} (h : ∀ i, t.Mentions i → ρ i = i) : t.reident ρ = t := by
  rw [reident_eq (k := 0) h, up_zero]

theorem reidentT_comp (ρ ρ' : Nat → Nat) (t : Term) : (t.reident ρ).reident ρ' = t.reident (ρ' ∘ ρ) := by cases t <;> rfl

theorem reident_comp (ρ ρ' : Nat → Nat) (t : Stmt) : (t.reident ρ).reident ρ' = t.reident (ρ' ∘ ρ) := by
  obtain ⟨s, p, o, g⟩ := t
  cases g <;> simp [Stmt.reident, reidentT_comp]

/-- The move of a list up from one place to another. -/
theorem up_reident {ρ : Nat → Nat} {t : Stmt} {k k' : Nat} (h : ∀ i, t.Mentions i → ρ (i + k) = i + k') : (t.up k).reident ρ = t.up k' := by
  have hT : ∀ x : Term, (∀ i, x.ident = some i → ρ (i + k) = i + k') → (shT k x).reident ρ = shT k' x := by
    intro x hx
    cases x with
    | bnode i => simp only [shT, Term.reident, hx i rfl]
    | gen i => simp only [shT, Term.reident, hx i rfl]
    | none => rfl
    | named _ => rfl
    | lit _ _ _ => rfl
  obtain ⟨s, p, o, g⟩ := t
  simp only [Stmt.reident, Stmt.up, shS, Stmt.mk.injEq]
  refine ⟨hT _ fun i hi => h i (.inl (.inl hi)), hT _ fun i hi => h i (.inl (.inr (.inl hi))), hT _ fun i hi => h i (.inl (.inr (.inr hi))), ?_⟩
  cases g with
  | none => rfl
  | some g => exact congrArg some (hT _ fun i hi => h i (.inr ⟨g, rfl, hi⟩))

/-- What a list of readings hands over, each given by the number of identities it takes and its statements. -/
def contents : Nat → List (Nat × List Stmt) → List Stmt
  | _, [] => []
  | n, d :: ds => d.2.map (·.up n) ++ contents (n + d.1) ds

def total : Nat → List (Nat × List Stmt) → Nat
  | n, [] => n
  | n, d :: ds => total (n + d.1) ds

theorem total_eq (n : Nat) (ds : List (Nat × List Stmt)) : total n ds = n + (ds.map Prod.fst).sum := by
  induction ds generalizing n with
  | nil => rfl
  | cons d ds ih => simp only [total, ih, List.map_cons, List.sum_cons]; omega

theorem contents_ge {ds : List (Nat × List Stmt)} : ∀ {n : Nat}, ∀ t ∈ contents n ds, ∀ i, t.Mentions i → n ≤ i := by
  induction ds with
  | nil => intro n t ht; cases ht
  | cons d ds ih =>
    intro n t ht i hi
    rcases List.mem_append.1 ht with ht | ht
    · obtain ⟨t0, -, rfl⟩ := List.mem_map.1 ht
      obtain ⟨j, -, rfl⟩ := mentions_up.1 hi
      omega
    · have := ih t ht i hi; omega

/-- The two blocks that follow `n` change places. -/
def swapBlocks (n a b i : Nat) : Nat :=
  if i < n then i else if i < n + a then i + b else if i < n + a + b then i - a else i

theorem swapBlocks_inj (n a b : Nat) : Function.Injective (swapBlocks n a b) := by
  intro i j h
  unfold swapBlocks at h
  by_cases a1 : i < n <;> by_cases a2 : i < n + a <;> by_cases a3 : i < n + a + b <;>
    by_cases b1 : j < n <;> by_cases b2 : j < n + a <;> by_cases b3 : j < n + a + b <;>
    simp only [a1, a2, a3, b1, b2, b3, if_true, if_false] at h <;> omega

theorem contents_perm {ds ds' : List (Nat × List Stmt)} (h : ds.Perm ds') : ∀ (n : Nat), (∀ d ∈ ds, ∀ t ∈ d.2, ∀ i, t.Mentions i → i < d.1) →
    ∃ ρ : Nat → Nat, Function.Injective ρ ∧ (∀ i, i < n → ρ i = i) ∧ ∀ x, x ∈ contents n ds' ↔ ∃ t ∈ contents n ds, x = t.reident ρ := by
  induction h with
  | nil => intro n _; exact ⟨id, fun _ _ e => e, fun _ _ => rfl, by simp [contents]⟩
  | @cons d ds ds' _ ih =>
    intro n hlt
    obtain ⟨ρ, h1, h2, h3⟩ := ih (n + d.1) fun d hd => hlt d (by simp [hd])
    refine ⟨ρ, h1, fun i hi => h2 i (by omega), fun x => ?_⟩
    have hsame : ∀ t ∈ d.2, (t.up n).reident ρ = t.up n := by
      intro t ht
      refine up_reident fun i hi => h2 _ ?_
      have := hlt d (by simp) t ht i hi
      omega
    simp only [contents, List.mem_append, h3]
    constructor
    · rintro (hx | ⟨t, ht, e⟩)
      · obtain ⟨t, ht, rfl⟩ := List.mem_map.1 hx
        exact ⟨_, .inl hx, (hsame t ht).symm⟩
      · exact ⟨t, .inr ht, e⟩
    · rintro ⟨t, ht | ht, rfl⟩
      · obtain ⟨t, h, rfl⟩ := List.mem_map.1 ht
        rw [hsame t h]; exact .inl ht
      · exact .inr ⟨t, ht, rfl⟩
  | swap d e ds =>
    intro n hlt
    refine ⟨swapBlocks n e.1 d.1, swapBlocks_inj _ _ _, fun i hi => by simp [swapBlocks, hi], fun x => ?_⟩
    have he : ∀ t ∈ e.2, (t.up n).reident (swapBlocks n e.1 d.1) = t.up (n + d.1) := by
      intro t ht
      refine up_reident fun i hi => ?_
      have := hlt e (by simp) t ht i hi
      rw [swapBlocks, if_neg (by omega), if_pos (by omega)]; omega
    have hd : ∀ t ∈ d.2, (t.up (n + e.1)).reident (swapBlocks n e.1 d.1) = t.up n := by
      intro t ht
      refine up_reident fun i hi => ?_
      have := hlt d (by simp) t ht i hi
      rw [swapBlocks, if_neg (by omega), if_neg (by omega), if_pos (by omega)]; omega
    have hr : ∀ t ∈ contents (n + e.1 + d.1) ds, t.reident (swapBlocks n e.1 d.1) = t := by
      intro t ht
      refine reident_id fun i hi => ?_
      have := contents_ge t ht i hi
      rw [swapBlocks, if_neg (by omega), if_neg (by omega), if_neg (by omega)]
    have hn : n + d.1 + e.1 = n + e.1 + d.1 := by omega
    simp only [contents, List.mem_append, hn]
    constructor
    · rintro (hx | hx | hx)
      · obtain ⟨t, ht, rfl⟩ := List.mem_map.1 hx
        exact ⟨_, .inr (.inl (List.mem_map.2 ⟨t, ht, rfl⟩)), (hd t ht).symm⟩
      · obtain ⟨t, ht, rfl⟩ := List.mem_map.1 hx
        exact ⟨_, .inl (List.mem_map.2 ⟨t, ht, rfl⟩), (he t ht).symm⟩
      · exact ⟨x, .inr (.inr hx), (hr x hx).symm⟩
    · rintro ⟨t, ht | ht | ht, rfl⟩
      · obtain ⟨t, h0, rfl⟩ := List.mem_map.1 ht
        rw [he t h0]; exact .inr (.inl (List.mem_map.2 ⟨t, h0, rfl⟩))
      · obtain ⟨t, h0, rfl⟩ := List.mem_map.1 ht
        rw [hd t h0]; exact .inl (List.mem_map.2 ⟨t, h0, rfl⟩)
      · rw [hr t ht]; exact .inr (.inr ht)
  | @trans a b c hab _ ih1 ih2 =>
    intro n hlt
    obtain ⟨ρ, h1, h2, h3⟩ := ih1 n hlt
    obtain ⟨ρ', k1, k2, k3⟩ := ih2 n fun d hd => hlt d (hab.mem_iff.2 hd)
    refine ⟨ρ' ∘ ρ, k1.comp h1, fun i hi => by simp only [Function.comp, h2 i hi, k2 i hi], fun x => ?_⟩
    rw [k3]
    constructor
    · rintro ⟨t, ht, rfl⟩
      obtain ⟨t0, h0, rfl⟩ := (h3 t).1 ht
      exact ⟨t0, h0, reident_comp _ _ _⟩
    · rintro ⟨t, ht, rfl⟩
      exact ⟨_, (h3 _).2 ⟨t, ht, rfl⟩, (reident_comp _ _ _).symm⟩

/-- Each loading stands for a number of identities and a list of statements. -/
theorem choose_uniform {α : Type} {read : α → (σ : Type) → (σ → Stmt → σ) → Nat → σ → σ × Nat × Except Exc Unit} (h : ∀ l, ∃ m ts r, Uniform (read l) m ts r) :
    ∃ (d : α → Nat × List Stmt) (r : α → Except Exc Unit), ∀ l, Uniform (read l) (d l).1 (d l).2 (r l) :=
  ⟨fun l => ((h l).choose, (h l).choose_spec.choose), fun l => (h l).choose_spec.choose_spec.choose, fun l => (h l).choose_spec.choose_spec.choose_spec⟩

theorem loadSeq_eq {α σ : Type} {add : σ → Stmt → σ} {load : α → Nat → σ → σ × Nat × Except Exc Unit} {d : α → Nat × List Stmt} {r : α → Except Exc Unit}
    (h : ∀ l next sink, load l next sink = (((d l).2.map (·.up next)).foldl add sink, next + (d l).1, r l)) (ls : List α) :
    ∀ (next : Nat) (sink : σ), loadSeq load ls next sink = ((contents next (ls.map d)).foldl add sink, total next (ls.map d), ls.map r) := by
  induction ls with
  | nil => intro next g; rfl
  | cons l ls ih =>
    intro next g
    simp only [loadSeq, h, ih, List.map_cons, contents, total, List.foldl_append]

/-! ### JSON-LD -/

theorem frag_sh (k : Nat) (b : BState) (t : Frag) : (shB k b).frag t = (shB k (b.frag t).1, shT k (b.frag t).2) := by
  cases t with
  | iri _ => rfl
  | lit _ _ _ => rfl
  | other => rfl
  | blank l => simp only [BState.frag, node_sh, shT]

theorem frag_lt {b : BState} (h : OkB b) (t : Frag) : OkB (b.frag t).1 ∧ b.next ≤ (b.frag t).1.next ∧ LtT (b.frag t).1.next (b.frag t).2 := by
  cases t with
  | iri _ => exact ⟨h, Nat.le_refl _, trivial⟩
  | lit _ _ _ => exact ⟨h, Nat.le_refl _, trivial⟩
  | other => exact ⟨h, Nat.le_refl _, trivial⟩
  | blank l => exact node_lt h l

theorem graphIri_ident (name : PStr) : (graphIri name).ident = none := by unfold graphIri; split <;> rfl

theorem jquad_sh (k : Nat) (b : BState) (name : PStr) (t : JTriple) :
    (shB k b).jquad (graphIri name) t = (shB k (b.jquad (graphIri name) t).1, (b.jquad (graphIri name) t).2.up k) := by
  unfold BState.jquad
  simp only [frag_sh]
  simp only [Stmt.up, shS, mkQuad, Option.map_some, Turtle.shT_same (graphIri_ident name)]

theorem jquad_lt {b : BState} (h : OkB b) (name : PStr) (t : JTriple) :
    OkB (b.jquad (graphIri name) t).1 ∧ b.next ≤ (b.jquad (graphIri name) t).1.next ∧ Below (b.jquad (graphIri name) t).1.next (b.jquad (graphIri name) t).2 := by
  unfold BState.jquad
  dsimp only
  obtain ⟨a1, a2, a3⟩ := frag_lt h t.s
  obtain ⟨b1, b2, b3⟩ := frag_lt a1 t.p
  obtain ⟨c1, c2, c3⟩ := frag_lt b1 t.o
  refine ⟨c1, by omega, ?_⟩
  rintro i ((hi | hi | hi) | ⟨g, hg, hi⟩)
  · have := a3.ident i hi; omega
  · have := b3.ident i hi; omega
  · exact c3.ident i hi
  · cases hg; rw [graphIri_ident] at hi; cases hi

/-- The statements handed over by `jTriples`. -/
def jTriplesOut (name : PStr) : BState → List JTriple → List Stmt × BState
  | st, [] => ([], st)
  | st, t :: ts =>
    let r := st.jquad (graphIri name) t
    let k := jTriplesOut name r.1 ts
    (r.2 :: k.1, k.2)

/-- The statements handed over by `jGraphs`. -/
def jGraphsOut : BState → JDataset → List Stmt × BState
  | st, [] => ([], st)
  | st, g :: rest =>
    let r := jTriplesOut g.1 st g.2
    let k := jGraphsOut r.2 rest
    (r.1 ++ k.1, k.2)

theorem jTriples_out {σ : Type} (add : σ → Stmt → σ) (name : PStr) (ts : List JTriple) : ∀ (st : BState) (sink : σ),
    jTriples add (graphIri name) st sink ts = ((jTriplesOut name st ts).2, (jTriplesOut name st ts).1.foldl add sink) := by
  induction ts with
  | nil => intro st sink; rfl
  | cons t ts ih => intro st sink; simp only [jTriples, jTriplesOut, ih, List.foldl_cons]

theorem jGraphs_out {σ : Type} (add : σ → Stmt → σ) (jd : JDataset) : ∀ (st : BState) (sink : σ),
    jGraphs add st sink jd = ((jGraphsOut st jd).2, (jGraphsOut st jd).1.foldl add sink) := by
  induction jd with
  | nil => intro st sink; rfl
  | cons g jd ih => obtain ⟨name, ts⟩ := g; intro st sink; simp only [jGraphs, jGraphsOut, jTriples_out, ih, List.foldl_append]

theorem jTriplesOut_sh (k : Nat) (name : PStr) (ts : List JTriple) : ∀ st : BState,
    jTriplesOut name (shB k st) ts = ((jTriplesOut name st ts).1.map (·.up k), shB k (jTriplesOut name st ts).2) := by
  induction ts with
  | nil => intro st; rfl
  | cons t ts ih => intro st; simp only [jTriplesOut, jquad_sh, ih, List.map_cons]

theorem jGraphsOut_sh (k : Nat) (jd : JDataset) : ∀ st : BState,
    jGraphsOut (shB k st) jd = ((jGraphsOut st jd).1.map (·.up k), shB k (jGraphsOut st jd).2) := by
  induction jd with
  | nil => intro st; rfl
  | cons g jd ih => intro st; simp only [jGraphsOut, jTriplesOut_sh, ih, List.map_append]

theorem jTriplesOut_lt (name : PStr) (ts : List JTriple) : ∀ {st : BState}, OkB st →
    OkB (jTriplesOut name st ts).2 ∧ st.next ≤ (jTriplesOut name st ts).2.next ∧ ∀ t ∈ (jTriplesOut name st ts).1, Below (jTriplesOut name st ts).2.next t := by
  induction ts with
  | nil => intro st h; exact ⟨h, Nat.le_refl _, by simp [jTriplesOut]⟩
  | cons t ts ih =>
    intro st h
    obtain ⟨a1, a2, a3⟩ := jquad_lt h name t
    obtain ⟨b1, b2, b3⟩ := ih a1
    refine ⟨b1, Nat.le_trans a2 b2, fun x hx => ?_⟩
    rcases List.mem_cons.1 hx with rfl | hx
    · exact a3.mono b2
    · exact b3 x hx

theorem jGraphsOut_lt (jd : JDataset) : ∀ {st : BState}, OkB st →
    OkB (jGraphsOut st jd).2 ∧ st.next ≤ (jGraphsOut st jd).2.next ∧ ∀ t ∈ (jGraphsOut st jd).1, Below (jGraphsOut st jd).2.next t := by
  induction jd with
  | nil => intro st h; exact ⟨h, Nat.le_refl _, by simp [jGraphsOut]⟩
  | cons g jd ih =>
    intro st h
    obtain ⟨a1, a2, a3⟩ := jTriplesOut_lt g.1 g.2 h
    obtain ⟨b1, b2, b3⟩ := ih a1
    refine ⟨b1, Nat.le_trans a2 b2, fun x hx => ?_⟩
    rcases List.mem_append.1 hx with hx | hx
    · exact (a3 x hx).mono b2
    · exact b3 x hx

theorem jTriplesOut_qd (name : PStr) (ts : List JTriple) : ∀ (st : BState), ∀ t ∈ (jTriplesOut name st ts).1, t.g ≠ none := by
  induction ts with
  | nil => intro st t ht; cases ht
  | cons t ts ih =>
    intro st x hx
    rcases List.mem_cons.1 hx with rfl | hx
    · simp [BState.jquad, mkQuad]
    · exact ih _ x hx

theorem jGraphsOut_qd (jd : JDataset) : ∀ (st : BState), ∀ t ∈ (jGraphsOut st jd).1, t.g ≠ none := by
  induction jd with
  | nil => intro st t ht; cases ht
  | cons g jd ih =>
    intro st x hx
    rcases List.mem_append.1 hx with hx | hx
    · exact jTriplesOut_qd _ _ _ x hx
    · exact ih _ x hx

/-! ### What is handed to a dataset -/

theorem stmts_qd (rs : List RStmt) (hr : ∀ r ∈ rs, r.g ≠ none) : ∀ b : BState, ∀ t ∈ (b.stmts rs).2, t.g ≠ none := by
  induction rs with
  | nil => intro b t ht; cases ht
  | cons r rs ih =>
    intro b t ht
    rcases List.mem_cons.1 ht with rfl | ht
    · have := hr r (by simp)
      unfold BState.stmt
      dsimp only
      cases hg : r.g with
      | none => exact absurd hg this
      | some g => simp [mkQuad]
    · exact ih (fun r h => hr r (by simp [h])) _ t ht

theorem doc_qd {text : PStr} {rs : List RStmt} (h : pDoc true text = .ok rs) : ∀ r ∈ rs, r.g ≠ none := by
  intro r hr
  obtain ⟨g, e⟩ := quadDoc_graph (pDoc_iff.1 h) r hr
  rw [e]; simp

theorem linesOut_qd (lines : List PStr) : ∀ st : BState, ∀ t ∈ (linesOut true st lines).1, t.g ≠ none := by
  induction lines with
  | nil => intro st t ht; cases ht
  | cons l ls ih =>
    intro st t ht
    unfold linesOut at ht
    by_cases hl : l = []
    · simp only [hl, if_true] at ht; exact ih st t ht
    · simp only [hl, if_false] at ht
      cases hd : pDoc true l with
      | error e => rw [hd] at ht; cases ht
      | ok rs =>
        rw [hd] at ht
        dsimp only at ht
        have hq := stmts_qd rs (doc_qd hd) st
        cases hs : (st.stmts rs).2 with
        | nil => rw [hs] at ht; cases ht
        | cons x xs =>
          rw [hs] at ht hq
          rcases List.mem_cons.1 ht with rfl | ht
          · exact hq t (by simp)
          · exact ih _ t ht

theorem ds_load (l : DsLoading) : ∃ (d : Nat × List Stmt) (r : Except Exc Unit), (∀ t ∈ d.2, (∀ i, t.Mentions i → i < d.1) ∧ t.g ≠ none) ∧
    ∀ next ds, l.load next ds = ((d.2.map (·.up next)).foldl Dataset.addStmt ds, next + d.1, r) := by
  cases l with
  | nq text =>
    simp only [DsLoading.load, parseStringDs_eq]
    cases h : pDoc true text with
    | error e => exact ⟨(0, []), .error e, by simp, fun next sink => by simp only [parseString, h]; rfl⟩
    | ok rs =>
      obtain ⟨-, -, h3⟩ := stmts_lt rs (okB_init 0)
      refine ⟨(_, _), .ok (), fun t ht => ⟨h3 t ht, stmts_qd rs (doc_qd h) _ t ht⟩, fun next sink => ?_⟩
      simp only [parseString, h]
      rw [init_sh next, stmts_sh]
      simp only [shB, Nat.add_comm]
  | nqFile content =>
    simp only [DsLoading.load, C136_stream]
    obtain ⟨-, -, h3⟩ := linesOut_lt true (splitLines content) (okB_init 0)
    refine ⟨(_, _), (linesOut true { map := [], next := 0 } (splitLines content)).2.2, fun t ht => ⟨h3 t ht, linesOut_qd _ _ t ht⟩, fun next sink => ?_⟩
    simp only [parseStream]
    rw [parseLines_out, init_sh next, linesOut_sh]
    simp only [shB, Nat.add_comm]
  | json rdf =>
    cases rdf with
    | error e => exact ⟨(0, []), .error e, by simp, fun next ds => rfl⟩
    | ok jd =>
      obtain ⟨-, -, h3⟩ := jGraphsOut_lt jd (okB_init 0)
      refine ⟨(_, _), .ok (), fun t ht => ⟨h3 t ht, jGraphsOut_qd _ _ t ht⟩, fun next ds => ?_⟩
      simp only [DsLoading.load, parseJson]
      rw [jGraphs_out, init_sh next, jGraphsOut_sh]
      simp only [shB, Nat.add_comm]

theorem contents_qd {ds : List (Nat × List Stmt)} (h : ∀ d ∈ ds, ∀ t ∈ d.2, t.g ≠ none) : ∀ n, ∀ t ∈ contents n ds, ∃ q : Qd, q.stmt = t := by
  induction ds with
  | nil => intro n t ht; cases ht
  | cons d ds ih =>
    intro n t ht
    rcases List.mem_append.1 ht with ht | ht
    · obtain ⟨t0, h0, rfl⟩ := List.mem_map.1 ht
      have := h d (by simp) t0 h0
      obtain ⟨s, p, o, g⟩ := t0
      cases g with
      | none => exact absurd rfl this
      | some g => exact ⟨⟨shT n s, shT n p, shT n o, shT n g⟩, rfl⟩
    · exact ih (fun d hd => h d (by simp [hd])) _ t ht

end LoadOrder

open LoadOrder

/-! ### C161 -/

/-- How a call ends does not depend on what was loaded before it. -/
theorem C161_outcome (nl : PStr → Bool) (ls : List Loading) (next : Nat) (g : Graph) :
    (loadSeq (Loading.load Graph.add nl) ls next g).2.2 = ls.map fun l => (l.load Graph.add nl 0 (Graph.new .none)).2.2 := by
  obtain ⟨d, r, h⟩ := choose_uniform (uniform_load nl)
  rw [loadSeq_eq (add := Graph.add) (d := d) (r := r) fun l next sink => (h l).eq Graph Graph.add next sink]
  exact List.map_congr_left fun l _ => by rw [(h l).eq Graph Graph.add 0 (Graph.new .none)]

/-- Any order gives the same graph up to a one-to-one change of the new blank nodes. -/
theorem C161_any_order (nl : PStr → Bool) {ls ls' : List Loading} (hp : ls.Perm ls') (next : Nat) (g : Graph)
    (hn : ∀ t ∈ g.triples, ∀ i, t.Mentions i → i < next) :
    ∃ ρ : Nat → Nat, Function.Injective ρ ∧ (∀ i, i < next → ρ i = i) ∧
      ∀ x, x ∈ (loadSeq (Loading.load Graph.add nl) ls' next g).1.triples ↔
        ∃ t ∈ (loadSeq (Loading.load Graph.add nl) ls next g).1.triples, x = t.reident ρ := by
  obtain ⟨d, r, h⟩ := choose_uniform (uniform_load nl)
  obtain ⟨ρ, h1, h2, h3⟩ := contents_perm (hp.map d) next (by
    intro x hx
    obtain ⟨l, -, rfl⟩ := List.mem_map.1 hx
    exact (h l).lt)
  refine ⟨ρ, h1, h2, fun x => ?_⟩
  have m : ∀ (k : List Loading) (t : Stmt), t ∈ (loadSeq (Loading.load Graph.add nl) k next g).1.triples ↔ t ∈ contents next (k.map d) ∨ t ∈ g.triples := by
    intro k t
    rw [loadSeq_eq (add := Graph.add) (d := d) (r := r) fun l next sink => (h l).eq Graph Graph.add next sink]
    exact mem_addAll g _ t
  simp only [m, h3]
  have hsame : ∀ t ∈ g.triples, t.reident ρ = t := fun t ht => reident_id fun i hi => h2 i (hn t ht i hi)
  constructor
  · rintro (⟨t, ht, e⟩ | hx)
    · exact ⟨t, .inl ht, e⟩
    · exact ⟨x, .inr hx, (hsame x hx).symm⟩
  · rintro ⟨t, ht | ht, rfl⟩
    · exact .inl ⟨t, ht, rfl⟩
    · rw [hsame t ht]; exact .inr ht

/-- The graph afterwards is the union of what it was and of what each document is when read alone, with the blank nodes of different documents kept apart. -/
theorem C161_union (nl : PStr → Bool) (ls : List Loading) (next : Nat) (g : Graph) :
    ∃ off : Nat → Nat, off 0 = next ∧
      (∀ k (h : k < ls.length), off (k + 1) = off k + (ls[k].load Graph.add nl 0 (Graph.new .none)).2.1) ∧
      (∀ k (h : k < ls.length), ∀ t ∈ (ls[k].load Graph.add nl 0 (Graph.new .none)).1.triples, ∀ i, t.Mentions i → i < (ls[k].load Graph.add nl 0 (Graph.new .none)).2.1) ∧
      ∀ x, x ∈ (loadSeq (Loading.load Graph.add nl) ls next g).1.triples ↔
        x ∈ g.triples ∨ ∃ k, ∃ h : k < ls.length, ∃ t ∈ (ls[k].load Graph.add nl 0 (Graph.new .none)).1.triples, x = t.up (off k) := by
  obtain ⟨d, r, h⟩ := choose_uniform (uniform_load nl)
  have alone : ∀ l : Loading, ∀ t, t ∈ (l.load Graph.add nl 0 (Graph.new .none)).1.triples ↔ t ∈ (d l).2 := by
    intro l t
    rw [(h l).eq Graph Graph.add 0 (Graph.new .none)]
    have hz : (d l).2.map (·.up 0) = (d l).2 := by
      conv_rhs => rw [← List.map_id (d l).2]
      exact List.map_congr_left fun t _ => up_zero t
    rw [hz]
    refine (mem_addAll (Graph.new .none) (d l).2 t).trans ?_
    simp [Graph.new]
  have alone' : ∀ l : Loading, (l.load Graph.add nl 0 (Graph.new .none)).2.1 = (d l).1 := by
    intro l; rw [(h l).eq Graph Graph.add 0 (Graph.new .none)]; exact Nat.zero_add _
  refine ⟨fun k => next + ((ls.map fun l => (d l).1).take k).sum, by simp, fun k hk => ?_, fun k hk t ht i hi => ?_, fun x => ?_⟩
  · dsimp only
    rw [alone', List.take_succ_eq_append_getElem (by simpa using hk), List.sum_append]
    simp [Nat.add_assoc]
  · rw [alone'] ; exact (h _).lt t ((alone _ t).1 ht) i hi
  · rw [loadSeq_eq (add := Graph.add) (d := d) (r := r) fun l next sink => (h l).eq Graph Graph.add next sink]
    have hm : ∀ y, y ∈ ((contents next (ls.map d)).foldl Graph.add g).triples ↔ y ∈ contents next (ls.map d) ∨ y ∈ g.triples := fun y => mem_addAll g _ y
    rw [hm, or_comm]
    refine or_congr_right ?_
    clear hm
    induction ls generalizing next with
    | nil => simp [contents]
    | cons l ls ih =>
      simp only [List.map_cons, contents, List.mem_append, ih (next + (d l).1)]
      constructor
      · rintro (hx | ⟨k, hk, t, ht, rfl⟩)
        · obtain ⟨t, ht, rfl⟩ := List.mem_map.1 hx
          exact ⟨0, by simp, t, (alone l t).2 ht, by simp⟩
        · exact ⟨k + 1, by simpa using hk, t, by simpa using ht, by simp [Nat.add_assoc]⟩
      · rintro ⟨k, hk, t, ht, rfl⟩
        cases k with
        | zero => exact .inl (List.mem_map.2 ⟨t, (alone l t).1 (by simpa using ht), by simp⟩)
        | succ k => exact .inr ⟨k, by simpa using hk, t, by simpa using ht, by simp [Nat.add_assoc]⟩

/-- Datasets: how a call ends does not depend on what was loaded before it. -/
theorem C161_ds_outcome (ls : List DsLoading) (next : Nat) (ds : Dataset) :
    (loadSeq DsLoading.load ls next ds).2.2 = ls.map fun l => (l.load 0 Dataset.new).2.2 := by
  choose d r _ h using ds_load
  rw [loadSeq_eq h]
  exact List.map_congr_left fun l _ => by rw [h]

/-- Datasets: any order gives the same quads up to a one-to-one change of the new blank nodes. -/
theorem C161_ds_any_order {ls ls' : List DsLoading} (hp : ls.Perm ls') (next : Nat) (ord) (ops : List DOp) (hops : ∀ op ∈ ops, op.WF)
    (hn : ∀ q : Qd, (Dataset.run ord ops).containsQuad q.s q.p q.o q.g = true → ∀ i, q.stmt.Mentions i → i < next) :
    ∃ ρ : Nat → Nat, Function.Injective ρ ∧ (∀ i, i < next → ρ i = i) ∧
      ∀ q : Qd, (loadSeq DsLoading.load ls' next (Dataset.run ord ops)).1.containsQuad q.s q.p q.o q.g = true ↔
        ∃ q0 : Qd, (loadSeq DsLoading.load ls next (Dataset.run ord ops)).1.containsQuad q0.s q0.p q0.o q0.g = true ∧ q.stmt = q0.stmt.reident ρ := by
  choose d r hd h using ds_load
  obtain ⟨ρ, h1, h2, h3⟩ := contents_perm (hp.map d) next (by
    intro x hx
    obtain ⟨l, -, rfl⟩ := List.mem_map.1 hx
    exact fun t ht => (hd l t ht).1)
  refine ⟨ρ, h1, h2, fun q => ?_⟩
  have hrep := Dataset.rep_run ord ops hops
  have m : ∀ (k : List DsLoading) (q : Qd), (loadSeq DsLoading.load k next (Dataset.run ord ops)).1.containsQuad q.s q.p q.o q.g = true ↔
      (Dataset.run ord ops).containsQuad q.s q.p q.o q.g = true ∨ q.stmt ∈ contents next (k.map d) := by
    intro k q
    rw [loadSeq_eq h]
    obtain ⟨S', k1, k2⟩ := addStmts_qds _ _ hrep (contents next (k.map d)) (contents_qd (by
      intro x hx
      obtain ⟨l, -, rfl⟩ := List.mem_map.1 hx
      exact fun t ht => (hd l t ht).2) next)
    rw [k1.contains, k2, hrep.contains]
  have hqs := contents_qd (ds := ls.map d) (by
      intro x hx
      obtain ⟨l, -, rfl⟩ := List.mem_map.1 hx
      exact fun t ht => (hd l t ht).2) next
  have hinj : ∀ a b : Qd, a.stmt = b.stmt → a = b := by
    rintro ⟨a, b, c, e⟩ ⟨a', b', c', e'⟩; simp [Qd.stmt, mkQuad]
  have hsame : ∀ q : Qd, (Dataset.run ord ops).containsQuad q.s q.p q.o q.g = true → q.stmt.reident ρ = q.stmt :=
    fun q hq => reident_id fun i hi => h2 i (hn q hq i hi)
  simp only [m, h3]
  constructor
  · rintro (hx | ⟨t, ht, e⟩)
    · exact ⟨q, .inl hx, (hsame q hx).symm⟩
    · obtain ⟨q0, rfl⟩ := hqs t ht
      exact ⟨q0, .inr ht, e⟩
  · rintro ⟨q0, hx | ht, e⟩
    · rw [hsame q0 hx] at e
      rw [hinj _ _ e]; exact .inl hx
    · exact .inr ⟨_, ht, e⟩

/-! ### Examples -/

/-- An N-Triples text, a Turtle document and a file whose second line is wrong. -/
def exLoads : List Loading :=
  [.nt (.str (py! "_:a <p> <o> .")), .turtle [] (.str (py! "[] <p> <o> .")), .ntFile (py! "_:a <q> <o> .\nwrong\n")]

example : (loadSeq (Loading.load Graph.add fun _ => true) exLoads 0 (Graph.new .none)).1.triples =
    [mkTriple (.bnode 0) (.named (py! "p")) (.named (py! "o")), mkTriple (.bnode 1) (.named (py! "p")) (.named (py! "o")),
      mkTriple (.bnode 2) (.named (py! "q")) (.named (py! "o"))] := rfl

example : (loadSeq (Loading.load Graph.add fun _ => true) exLoads.reverse 0 (Graph.new .none)).1.triples =
    [mkTriple (.bnode 0) (.named (py! "q")) (.named (py! "o")), mkTriple (.bnode 1) (.named (py! "p")) (.named (py! "o")),
      mkTriple (.bnode 2) (.named (py! "p")) (.named (py! "o"))] := rfl

example : (loadSeq (Loading.load Graph.add fun _ => true) exLoads 0 (Graph.new .none)).2.2.map Except.isOk = [true, true, false] := rfl

example : exLoads.Perm exLoads.reverse := (List.reverse_perm _).symm

/-- Two documents for a dataset, of which the second is JSON-LD. -/
def exDsLoads : List DsLoading := [.nq (py! "_:a <p> <o> <g> ."), .json (.ok [(py! "@default", [⟨.blank (py! "_:b0"), .iri (py! "p"), .iri (py! "o")⟩])])]

example : (loadSeq DsLoading.load exDsLoads 0 Dataset.new).1.containsQuad (.bnode 1) (.named (py! "p")) (.named (py! "o")) .none = true := by decide
example : (loadSeq DsLoading.load exDsLoads.reverse 0 Dataset.new).1.containsQuad (.bnode 0) (.named (py! "p")) (.named (py! "o")) .none = true := by decide

end Verif
