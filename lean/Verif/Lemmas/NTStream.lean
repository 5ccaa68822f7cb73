import Verif.Lemmas.NTRead
/-
Parsing a stream line by line.
-/
namespace Verif

variable {σ : Type}

theorem splitLines_line {l : PStr} (h : 10 ∉ l) (rest : PStr) : splitLines (l ++ 10 :: rest) = (l ++ [10]) :: splitLines rest := by
  induction l with
  | nil => simp [splitLines]
  | cons c l ih =>
    simp only [List.mem_cons, not_or] at h
    simp only [List.cons_append, splitLines, ih h.2, Ne.symm h.1, if_false]

theorem splitLines_last {l : PStr} (h : 10 ∉ l) (hne : l ≠ []) : splitLines l = [l] := by
  induction l with
  | nil => exact absurd rfl hne
  | cons c l ih =>
    simp only [List.mem_cons, not_or] at h
    simp only [splitLines, Ne.symm h.1, if_false]
    cases l with
    | nil => rfl
    | cons d l => rw [ih h.2 (by simp)]

/-- Lines are not empty; only their last character can be a line feed. -/
theorem splitLines_spec (s : PStr) : ∀ l ∈ splitLines s, ∃ w, 10 ∉ w ∧ (l = w ++ [10] ∨ l = w ∧ w ≠ []) := by
  induction s with
  | nil => simp [splitLines]
  | cons c s ih =>
    simp only [splitLines]
    split
    · intro l hl
      rcases List.mem_cons.1 hl with rfl | hl
      · exact ⟨[], by simp, Or.inl rfl⟩
      · exact ih l hl
    · next hc =>
      split
      · intro l hl; simp at hl; subst hl; exact ⟨[c], by simp [Ne.symm hc], Or.inr ⟨rfl, by simp⟩⟩
      · next l0 ls heq =>
        rw [heq] at ih
        intro l hl
        rcases List.mem_cons.1 hl with rfl | hl
        · obtain ⟨w, h1, h2⟩ := ih l0 (by simp)
          refine ⟨c :: w, by simp [Ne.symm hc, h1], ?_⟩
          rcases h2 with rfl | ⟨rfl, _⟩
          · left; rfl
          · right; simp
        · exact ih l (by simp [hl])

theorem splitLines_ne {s : PStr} : ∀ l ∈ splitLines s, l ≠ [] := by
  intro l hl
  obtain ⟨w, -, rfl | ⟨rfl, h⟩⟩ := splitLines_spec s l hl
  · simp
  · exact h

theorem splitLines_flatten (s : PStr) : (splitLines s).flatten = s := by
  induction s with
  | nil => rfl
  | cons c s ih =>
    simp only [splitLines]
    split
    · next h => subst h; simp [ih]
    · split
      · next heq => rw [heq] at ih; simp at ih; simp [ih]
      · next heq => rw [heq] at ih; simp at ih; simp [ih]

theorem first_lf {b : PStr} (h : 10 ∈ b) : ∃ x y, b = x ++ 10 :: y ∧ 10 ∉ x := by
  induction b with
  | nil => simp at h
  | cons c b ih =>
    by_cases hc : c = 10
    · subst hc; exact ⟨[], b, rfl, by simp⟩
    · obtain ⟨x, y, rfl, hx⟩ := ih ((List.mem_cons.1 h).resolve_left (Ne.symm hc))
      exact ⟨c :: x, y, rfl, by simp [Ne.symm hc, hx]⟩

theorem mem_splitLines {a w rest : PStr} (ha : a = [] ∨ ∃ b, a = b ++ [10]) (hw : 10 ∉ w) : w ++ [10] ∈ splitLines (a ++ (w ++ 10 :: rest)) := by
  have base : w ++ [10] ∈ splitLines (w ++ 10 :: rest) := by rw [splitLines_line hw]; simp
  have step : ∀ n (b : PStr), b.length ≤ n → w ++ [10] ∈ splitLines (b ++ 10 :: (w ++ 10 :: rest)) := by
    intro n
    induction n with
    | zero =>
      intro b hb
      have : b = [] := List.length_eq_zero_iff.1 (by omega)
      subst this
      simp only [List.nil_append, splitLines, if_true]
      exact List.mem_cons_of_mem _ base
    | succ n ih =>
      intro b hb
      by_cases h10 : 10 ∈ b
      · obtain ⟨x, y, rfl, hx⟩ := first_lf h10
        rw [List.append_assoc, List.cons_append, splitLines_line hx]
        refine List.mem_cons_of_mem _ (ih y ?_)
        simp only [List.length_append, List.length_cons] at hb; omega
      · rw [splitLines_line h10]
        exact List.mem_cons_of_mem _ base
  rcases ha with rfl | ⟨b, rfl⟩
  · exact base
  · rw [List.append_assoc]; exact step _ b (Nat.le_refl _)

/-- Each line is a document whose first statement is the given one. -/
inductive FirstOf (q : Bool) : List PStr → List RStmt → Prop
  | nil : FirstOf q [] []
  | cons {l r more ls rs} : pDoc q l = .ok (r :: more) → FirstOf q ls rs → FirstOf q (l :: ls) (r :: rs)

/-- Which lines were read and what was added, whatever the outcome. -/
theorem parseLines_spec (add : σ → Stmt → σ) (q : Bool) {n0 : Nat} (st : BState) (hst : BState.OK n0 st) (lines : List PStr) (hne : ∀ l ∈ lines, l ≠ [])
    (sink : σ) :
    ∃ pre post firsts, lines = pre ++ post ∧ FirstOf q pre firsts ∧
      BState.OK n0 (parseLines add q st lines sink).2.1 ∧ st.Ext (parseLines add q st lines sink).2.1 ∧
      (∀ r ∈ firsts, RStmt.InTable (parseLines add q st lines sink).2.1 r) ∧
      (parseLines add q st lines sink).1 = (firsts.map (·.subst (parseLines add q st lines sink).2.1.look)).foldl add sink ∧
      ((parseLines add q st lines sink).2.2 = .ok () ∧ post = [] ∨
        ∃ bad rest e, post = bad :: rest ∧ (parseLines add q st lines sink).2.2 = .error e ∧ (pDoc q bad = .error e ∨ pDoc q bad = .ok [] ∧ e = .runtimeError)) := by
  induction lines generalizing st sink with
  | nil => exact ⟨[], [], [], rfl, .nil, hst, .refl _, by simp, rfl, Or.inl ⟨rfl, rfl⟩⟩
  | cons l ls ih =>
    have hl : l ≠ [] := hne l (by simp)
    simp only [parseLines, hl, if_false]
    cases hp : pDoc q l with
    | error e =>
      exact ⟨[], l :: ls, [], rfl, .nil, hst, .refl _, by simp, rfl, Or.inr ⟨l, ls, e, rfl, rfl, Or.inl hp⟩⟩
    | ok rs =>
      obtain ⟨a1, a2, a3, a4⟩ := BState.stmts_spec hst rs
      cases rs with
      | nil =>
        simp only [BState.stmts]
        exact ⟨[], l :: ls, [], rfl, .nil, hst, .refl _, by simp, rfl, Or.inr ⟨l, ls, _, rfl, rfl, Or.inr ⟨hp, rfl⟩⟩⟩
      | cons r more =>
        obtain ⟨b1, b2, b3, b4⟩ := BState.stmt_spec hst r
        have h1 : (st.stmts (r :: more)).2 = (r.subst (st.stmts (r :: more)).1.look) :: (st.stmts (r :: more)).2.tail := by rw [a4]; rfl
        dsimp only
        rw [h1]
        dsimp only
        obtain ⟨pre, post, firsts, c1, c2, c3, c4, c5, c6, c7⟩ :=
          ih (st.stmts (r :: more)).1 a1 (fun x hx => hne x (by simp [hx])) (add sink (r.subst (st.stmts (r :: more)).1.look))
        refine ⟨l :: pre, post, r :: firsts, by rw [c1]; rfl, .cons hp c2, c3, a2.trans c4, ?_, ?_, c7⟩
        · intro r' hr'
          rcases List.mem_cons.1 hr' with rfl | hr'
          · exact ((a3 r' (by simp)).ext c4).1
          · exact c5 r' hr'
        · rw [c6, List.map_cons, List.foldl_cons, ((a3 r (by simp)).ext c4).2]

/-- White space only. -/
def Blank (l : PStr) : Prop := ∀ c ∈ l, c = 32 ∨ c = 9

theorem blank_iff {l : PStr} : skipWs l = [] ↔ Blank l := by
  constructor
  · intro h c hc
    by_cases hw : isWs c = true
    · simpa [isWs] using hw
    · exact absurd h (skipWs_ne_nil hc (by simpa using hw))
  · intro h
    induction l with
    | nil => rfl
    | cons c l ih =>
      have : isWs c = true := by simpa [isWs] using h c (by simp)
      simp only [skipWs, List.dropWhile_cons, this, if_true] at ih ⊢
      exact ih (fun x hx => h x (by simp [hx]))

/-- A text all of whose lines are non-blank and have carriage returns only at their end. -/
inductive CleanText : PStr → Prop
  | nil : CleanText []
  | last {l} : (∀ c ∈ l, c ≠ 10 ∧ c ≠ 13) → ¬ Blank l → CleanText l
  | line {l rest} (k : Nat) : (∀ c ∈ l, c ≠ 10 ∧ c ≠ 13) → ¬ Blank l → CleanText rest → CleanText (l ++ (List.replicate k 13 ++ 10 :: rest))

theorem noEol_iff {l : PStr} : (∀ c ∈ l, c ≠ 10 ∧ c ≠ 13) ↔ NoEol l := by
  simp [NoEol, isEol]

theorem CleanText.starts {t : PStr} (h : CleanText t) : StartsStmt t := by
  cases h with
  | nil => exact starts_nil
  | last h _ => exact (noEol_iff.1 h).starts
  | @line l rest k h hb _ =>
    cases k with
    | zero => exact starts_of_line (noEol_iff.1 h) (fun e => hb (blank_iff.1 e)) (by decide)
    | succ k => exact starts_of_line (noEol_iff.1 h) (fun e => hb (blank_iff.1 e)) (e := 13) (by decide)

theorem pDoc_clean_line (q : Bool) {l rest : PStr} (k : Nat) (h : ∀ c ∈ l, c ≠ 10 ∧ c ≠ 13) (hb : ¬ Blank l) (hr : StartsStmt rest) :
    pDoc q (l ++ (List.replicate k 13 ++ 10 :: rest)) =
      match pLine q l with
      | .error x => .error x
      | .ok st => (pDoc q rest).map (st :: ·) := by
  have hb' : skipWs l ≠ [] := fun e => hb (blank_iff.1 e)
  cases k with
  | zero => exact pDoc_line q (es := []) (noEol_iff.1 h) hb' (by decide) (by simp) hr
  | succ k =>
    have := pDoc_line q (es := List.replicate k 13 ++ [10]) (e := 13) (rest := rest) (noEol_iff.1 h) hb' (by decide) (by
      intro e he
      rcases List.mem_append.1 he with he | he
      · rw [(List.mem_replicate.1 he).2]; decide
      · simp at he; subst he; decide) hr
    have he : l ++ (List.replicate (k + 1) 13 ++ 10 :: rest) = l ++ 13 :: (List.replicate k 13 ++ [10] ++ rest) := by simp [List.replicate_succ]
    rw [he]
    exact this

theorem splitLines_clean {l rest : PStr} (k : Nat) (h : ∀ c ∈ l, c ≠ 10 ∧ c ≠ 13) :
    splitLines (l ++ (List.replicate k 13 ++ 10 :: rest)) = (l ++ (List.replicate k 13 ++ [10])) :: splitLines rest := by
  have : 10 ∉ l ++ List.replicate k 13 := by
    intro hm
    rcases List.mem_append.1 hm with hm | hm
    · exact (h 10 hm).1 rfl
    · have := (List.mem_replicate.1 hm).2; omega
  have := splitLines_line this rest
  simpa [List.append_assoc] using this

theorem parseLines_clean (add : σ → Stmt → σ) (q : Bool) {t : PStr} (h : CleanText t) (st : BState) (sink : σ) :
    (∀ rs, pDoc q t = .ok rs → parseLines add q st (splitLines t) sink = ((st.stmts rs).2.foldl add sink, (st.stmts rs).1, .ok ())) ∧
    (∀ e, pDoc q t = .error e → (parseLines add q st (splitLines t) sink).2.2 = .error e) := by
  induction h generalizing st sink with
  | nil =>
    constructor
    · intro rs hrs; cases hrs; rfl
    · intro e he; cases he
  | @last l h hb =>
    have hb' : skipWs l ≠ [] := fun e => hb (blank_iff.1 e)
    have hne : l ≠ [] := by rintro rfl; exact hb (by simp [Blank])
    have hp := pDoc_single q (noEol_iff.1 h) hb'
    rw [splitLines_last (fun hm => (h 10 hm).1 rfl) hne]
    simp only [parseLines, hne, if_false]
    rw [hp]
    cases hl : pLine q l with
    | error e =>
      constructor
      · intro rs hrs; cases hrs
      · intro e' he'; cases he'; rfl
    | ok r =>
      constructor
      · intro rs hrs; cases hrs; rfl
      · intro e' he'; cases he'
  | @line l rest k h hb hc ih =>
    rw [pDoc_clean_line q k h hb hc.starts, splitLines_clean k h]
    have hp1 : pDoc q (l ++ (List.replicate k 13 ++ [10])) = (pLine q l).map (fun r => [r]) := by
      rw [pDoc_clean_line q k h hb starts_nil]
      cases pLine q l <;> rfl
    have hne : l ++ (List.replicate k 13 ++ [10]) ≠ [] := by simp
    simp only [parseLines, hne, if_false, hp1]
    cases hl : pLine q l with
    | error e =>
      constructor
      · intro rs hrs; cases hrs
      · intro e' he'; cases he'; rfl
    | ok r =>
      simp only [Except.map, BState.stmts]
      obtain ⟨i1, i2⟩ := ih (st.stmt r).1 (add sink (st.stmt r).2)
      cases hd : pDoc q rest with
      | error e =>
        constructor
        · intro rs hrs; cases hrs
        · intro e' he'; cases he'; exact i2 _ hd
      | ok rs =>
        constructor
        · intro rs' hrs'; cases hrs'; rw [i1 rs hd]; rfl
        · intro e' he'; cases he'

end Verif
