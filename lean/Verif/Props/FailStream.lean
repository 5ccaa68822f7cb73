import Verif.Model.FailStream
import Verif.Props.LoadOrder
/-
C169: reading a file that breaks off, and reading it again.
-/
namespace Verif
open Spec LoadOrder

/-- The property: if a file that can be read as a whole breaks off after some lines, then reading it again, as a whole, into the same graph gives what reading it once would have given, up to the
    identities of blank nodes. -/
def C169_statement : Prop :=
  ∀ (a b : List PStr) (e : Exc) (next : Nat) (g : Graph), (parseFrom Graph.add false next ⟨a ++ b, .ok ()⟩ g).2.2 = .ok () →
    let broken := parseFrom Graph.add false next ⟨a, .error e⟩ g
    let again := parseFrom Graph.add false broken.2.1 ⟨a ++ b, .ok ()⟩ broken.1
    again.2.2 = .ok () ∧ ∃ ρ, ∀ x, x ∈ again.1.triples ↔ ∃ t ∈ (parseFrom Graph.add false next ⟨a ++ b, .ok ()⟩ g).1.triples, x = t.reident ρ

/-- Refuted: what was read the first time stays, and the blank nodes of the second reading are new ones. -/
theorem C169_refuted : ¬ C169_statement := by
  intro h
  obtain ⟨_, ρ, h⟩ := h [py! "_:a <x:p> <x:o> .\n"] [] .plainException 0 Graph.new (by decide)
  obtain ⟨t, ht, e⟩ := (h (mkTriple (.bnode 0) (.named (py! "x:p")) (.named (py! "x:o")))).1 (by decide)
  obtain ⟨t', ht', e'⟩ := (h (mkTriple (.bnode 1) (.named (py! "x:p")) (.named (py! "x:o")))).1 (by decide)
  have one : (parseFrom Graph.add false 0 ⟨[py! "_:a <x:p> <x:o> .\n"] ++ [], .ok ()⟩ Graph.new).1.triples = [mkTriple (.bnode 0) (.named (py! "x:p")) (.named (py! "x:o"))] := by decide
  rw [one, List.mem_singleton] at ht ht'
  subst ht; subst ht'
  have := e.trans e'.symm
  revert this; decide

/-! ### What a stream that breaks off leaves -/

/-- The outcome of the lines, and then of the stream. -/
def thenFin (r fin : Except Exc Unit) : Except Exc Unit :=
  match r with
  | .ok _ => fin
  | .error e => .error e

theorem thenFin_ok {r : Except Exc Unit} (h : thenFin r (.ok ()) = .ok ()) : r = .ok () := by cases r <;> first | rfl | cases h

theorem parseStreamLines_out {σ : Type} (add : σ → Stmt → σ) (q : Bool) (fin : Except Exc Unit) (lines : List PStr) : ∀ (st : BState) (sink : σ),
    parseStreamLines add q fin st lines sink =
      ((linesOut q st lines).1.foldl add sink, (linesOut q st lines).2.1, thenFin (linesOut q st lines).2.2 fin) := by
  induction lines with
  | nil => intro st sink; rfl
  | cons l ls ih =>
    intro st sink
    unfold parseStreamLines linesOut
    by_cases hl : l = []
    · simp only [hl, if_true]; exact ih st sink
    · simp only [hl, if_false]
      cases pDoc q l with
      | error e => rfl
      | ok rs =>
        dsimp only
        cases hs : (st.stmts rs).2 with
        | nil => rfl
        | cons t ts => dsimp only; rw [ih]; rfl

/-- A stream that ends is read as `parseStream` says. -/
theorem parseFrom_ends {σ : Type} (add : σ → Stmt → σ) (q : Bool) (next : Nat) (content : PStr) (sink : σ) :
    parseFrom add q next ⟨splitLines content, .ok ()⟩ sink = parseStream add q next content sink := by
  unfold parseFrom parseStream
  dsimp only
  rw [parseStreamLines_out, parseLines_out]
  refine Prod.ext rfl (Prod.ext rfl ?_)
  dsimp only
  cases (linesOut q { map := [], next := next } (splitLines content)).2.2 <;> rfl

theorem linesOut_append (q : Bool) (b : List PStr) : ∀ (a : List PStr) (st : BState), (linesOut q st (a ++ b)).2.2 = .ok () →
    (linesOut q st a).2.2 = .ok () ∧ (linesOut q st (a ++ b)).1 = (linesOut q st a).1 ++ (linesOut q (linesOut q st a).2.1 b).1
  | [], st, _ => ⟨rfl, rfl⟩
  | l :: a, st, h => by
    rw [List.cons_append] at h ⊢
    by_cases hl : l = []
    · have step : ∀ x, linesOut q st (l :: x) = linesOut q st x := fun x => by rw [linesOut, if_pos hl]
      simp only [step] at h ⊢
      exact linesOut_append q b a st h
    · cases hp : pDoc q l with
      | error e =>
        have step : ∀ x, linesOut q st (l :: x) = ([], st, .error e) := fun x => by rw [linesOut, if_neg hl, hp]
        rw [step] at h; cases h
      | ok rs =>
        cases hs : (st.stmts rs).2 with
        | nil =>
          have step : ∀ x, linesOut q st (l :: x) = ([], (st.stmts rs).1, .error .runtimeError) := fun x => by rw [linesOut, if_neg hl, hp]; dsimp only; rw [hs]
          rw [step] at h; cases h
        | cons t ts =>
          have step : ∀ x, linesOut q st (l :: x) = (t :: (linesOut q (st.stmts rs).1 x).1, (linesOut q (st.stmts rs).1 x).2) := fun x => by
            rw [linesOut, if_neg hl, hp]; dsimp only; rw [hs]
          simp only [step] at h ⊢
          obtain ⟨h1, h2⟩ := linesOut_append q b a _ h
          exact ⟨h1, by rw [h2]; rfl⟩

/-- **The exception of a file is not swallowed**: whatever was read before, the call raises. -/
theorem C169_reported {σ : Type} (add : σ → Stmt → σ) (q : Bool) (next : Nat) (lines : List PStr) (e : Exc) (sink : σ) : ∃ e', (parseFrom add q next ⟨lines, .error e⟩ sink).2.2 = .error e' := by
  unfold parseFrom
  dsimp only
  rw [parseStreamLines_out]
  dsimp only
  cases (linesOut q { map := [], next := next } lines).2.2 with
  | error e' => exact ⟨e', rfl⟩
  | ok u => exact ⟨e, rfl⟩

/-- **What is read before a file breaks off**: if the file can be read as a whole, then the exception is that of the file, and exactly the first statements have been added, for every sink. -/
theorem C169_first (q : Bool) (next : Nat) (a b : List PStr) (e : Exc) (h : (parseFrom (fun l t => l ++ [t]) q next ⟨a ++ b, .ok ()⟩ []).2.2 = .ok ()) :
    ∃ k, ∀ (σ : Type) (add : σ → Stmt → σ) (sink : σ), (parseFrom add q next ⟨a, .error e⟩ sink).2.2 = .error e ∧
      (parseFrom add q next ⟨a, .error e⟩ sink).1 = ((parseFrom (fun l t => l ++ [t]) q next ⟨a ++ b, .ok ()⟩ []).1.take k).foldl add sink ∧
      (parseFrom add q next ⟨a ++ b, .ok ()⟩ sink).1 = (parseFrom (fun l t => l ++ [t]) q next ⟨a ++ b, .ok ()⟩ []).1.foldl add sink := by
  have keep : ∀ (ts l : List Stmt), ts.foldl (fun l t => l ++ [t]) l = l ++ ts := by
    intro ts
    induction ts with
    | nil => simp
    | cons t ts ih => intro l; simp [ih]
  have h' : (linesOut q { map := [], next := next } (a ++ b)).2.2 = .ok () := by
    unfold parseFrom at h
    dsimp only at h
    rw [parseStreamLines_out] at h
    exact thenFin_ok h
  obtain ⟨h1, h2⟩ := linesOut_append q b a _ h'
  refine ⟨(linesOut q { map := [], next := next } a).1.length, fun σ add sink => ?_⟩
  unfold parseFrom
  dsimp only
  simp only [parseStreamLines_out, h1, keep, List.nil_append]
  exact ⟨rfl, by rw [h2, List.take_left], trivial⟩

/-! ### Reading again -/

theorem up_none {t : Stmt} (h : ∀ i, ¬ t.Mentions i) (k : Nat) : t.up k = t := by
  have := up_reident (ρ := id) (t := t) (k := k) (k' := 0) (fun i hi => (h i hi).elim)
  rw [up_zero] at this
  have e : ∀ x : Term, x.reident id = x := by intro x; cases x <;> rfl
  have e' : ∀ x : Stmt, x.reident id = x := by
    rintro ⟨s, p, o, g⟩
    simp only [Stmt.reident, e]
    congr
    cases g <;> simp [e]
  rwa [e'] at this

/-- **Exactly what reading again gives**: `ts` are the statements of the file with blank nodes 0, 1, ...; the first `k` of them remain from the first reading, and the second one adds all of them
    with other blank nodes (`m` is the number of blank nodes that were new in the first reading). -/
theorem C169_exact (a b : List PStr) (e : Exc) (next : Nat) (g : Graph) (h : (parseFrom Graph.add false next ⟨a ++ b, .ok ()⟩ g).2.2 = .ok ()) :
    ∃ (ts : List Stmt) (k m : Nat), (∀ x, x ∈ (parseFrom Graph.add false next ⟨a ++ b, .ok ()⟩ g).1.triples ↔ x ∈ g.triples ∨ ∃ t ∈ ts, x = t.up next) ∧
      let broken := parseFrom Graph.add false next ⟨a, .error e⟩ g
      broken.2 = (next + m, .error e) ∧
      let again := parseFrom Graph.add false broken.2.1 ⟨a ++ b, .ok ()⟩ broken.1
      again.2.2 = .ok () ∧ ∀ x, x ∈ again.1.triples ↔ x ∈ g.triples ∨ (∃ t ∈ ts.take k, x = t.up next) ∨ ∃ t ∈ ts, x = t.up (next + m) := by
  have fold : ∀ (ts : List Stmt) (n : Nat) (g : Graph) (x : Stmt), x ∈ ((ts.map (·.up n)).foldl Graph.add g).triples ↔ x ∈ g.triples ∨ ∃ t ∈ ts, x = t.up n := by
    intro ts n g x
    have := Graph.mem_addAll g (ts.map (·.up n)) x
    unfold Graph.addAll at this
    rw [this, List.mem_map]
    constructor
    · rintro (⟨t, ht, rfl⟩ | h)
      · exact .inr ⟨t, ht, rfl⟩
      · exact .inl h
    · rintro (h | ⟨t, ht, rfl⟩)
      · exact .inr h
      · exact .inl ⟨t, ht, rfl⟩
  have run : ∀ (n : Nat) (ls : List PStr) (fin : Except Exc Unit) (g : Graph), parseFrom Graph.add false n ⟨ls, fin⟩ g =
      (((linesOut false { map := [], next := 0 } ls).1.map (·.up n)).foldl Graph.add g, n + (linesOut false { map := [], next := 0 } ls).2.1.next,
        thenFin (linesOut false { map := [], next := 0 } ls).2.2 fin) := by
    intro n ls fin g
    unfold parseFrom
    dsimp only
    rw [parseStreamLines_out, init_sh n, linesOut_sh]
    simp only [Turtle.shB, Nat.add_comm]
  have h' : (linesOut false { map := [], next := 0 } (a ++ b)).2.2 = .ok () := by
    rw [run] at h
    exact thenFin_ok h
  obtain ⟨h1, h2⟩ := linesOut_append false b a _ h'
  refine ⟨(linesOut false { map := [], next := 0 } (a ++ b)).1, (linesOut false { map := [], next := 0 } a).1.length, (linesOut false { map := [], next := 0 } a).2.1.next, ?_, ?_⟩
  · intro x; rw [run]; exact fold _ _ _ _
  · dsimp only
    simp only [run, h', h1]
    refine ⟨rfl, rfl, fun x => ?_⟩
    rw [fold, fold, h2, List.take_left, or_assoc]

/-- Proved part of C169: a file without blank nodes can be read again after it broke off, and the graph then has the triples as if it had been read once. The full claim is `C169_statement`. -/
theorem C169_partial (a b : List PStr) (e : Exc) (next : Nat) (g : Graph) (h : (parseFrom Graph.add false next ⟨a ++ b, .ok ()⟩ g).2.2 = .ok ())
    (hg : ∀ x ∈ (parseFrom Graph.add false next ⟨a ++ b, .ok ()⟩ g).1.triples, x ∈ g.triples ∨ ∀ i, ¬ x.Mentions i) (hn : ∀ x ∈ g.triples, ∀ i, x.Mentions i → i < next) :
    let broken := parseFrom Graph.add false next ⟨a, .error e⟩ g
    let again := parseFrom Graph.add false broken.2.1 ⟨a ++ b, .ok ()⟩ broken.1
    again.2.2 = .ok () ∧ ∀ x, x ∈ again.1.triples ↔ x ∈ (parseFrom Graph.add false next ⟨a ++ b, .ok ()⟩ g).1.triples := by
  obtain ⟨ts, k, m, h1, h2, h3, h4⟩ := C169_exact a b e next g h
  refine ⟨h3, fun x => ?_⟩
  have ground : ∀ t ∈ ts, ∀ i, ¬ t.Mentions i := by
    intro t ht i hi
    have hm : (t.up next).Mentions (i + next) := mentions_up.2 ⟨i, hi, rfl⟩
    rcases hg _ ((h1 _).2 (.inr ⟨t, ht, rfl⟩)) with hx | hx
    · have := hn _ hx _ hm; omega
    · exact hx _ hm
  rw [h4, h1]
  constructor
  · rintro (hx | ⟨t, ht, rfl⟩ | ⟨t, ht, rfl⟩)
    · exact .inl hx
    · exact .inr ⟨t, List.mem_of_mem_take ht, rfl⟩
    · exact .inr ⟨t, ht, by rw [up_none (ground t ht), up_none (ground t ht)]⟩
  · rintro (hx | ⟨t, ht, rfl⟩)
    · exact .inl hx
    · exact .inr (.inr ⟨t, ht, by rw [up_none (ground t ht), up_none (ground t ht)]⟩)

/-- Non-vacuity: two lines, of which only the first is read before the file breaks off. -/
example : (parseFrom Graph.add false 0 ⟨[py! "<x:s> <x:p> <x:o> .\n"] ++ [py! "<x:s> <x:p> <x:q> .\n"], .ok ()⟩ Graph.new).2.2 = .ok () ∧
    (parseFrom Graph.add false 0 ⟨[py! "<x:s> <x:p> <x:o> .\n"], .error .plainException⟩ Graph.new).1.triples = [mkTriple (.named (py! "x:s")) (.named (py! "x:p")) (.named (py! "x:o"))] ∧
    (parseFrom Graph.add false 0 ⟨[py! "<x:s> <x:p> <x:o> .\n"] ++ [py! "<x:s> <x:p> <x:q> .\n"], .ok ()⟩ Graph.new).1.triples =
      [mkTriple (.named (py! "x:s")) (.named (py! "x:p")) (.named (py! "x:o")), mkTriple (.named (py! "x:s")) (.named (py! "x:p")) (.named (py! "x:q"))] := by decide

end Verif
