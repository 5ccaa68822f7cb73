import Verif.Props.NTParse
/-
C82: two N-Triples texts one after the other. The first consists of complete non-blank lines, each with any line end (one or more of the characters 10 and 13); the
second is any text. `pDoc` (the grammar) gives the statements written in a text.
-/
namespace Verif
open Spec

/-- Complete non-blank lines: what each says, and the characters that end it. -/
def WholeLines (ls : List (PStr × PStr)) : Prop :=
  ∀ x ∈ ls, ((∀ c ∈ x.1, c ≠ 10 ∧ c ≠ 13) ∧ ∃ c ∈ x.1, c ≠ 32 ∧ c ≠ 9) ∧ x.2 ≠ [] ∧ ∀ c ∈ x.2, c = 10 ∨ c = 13

/-- The text of some lines. -/
def linesText (ls : List (PStr × PStr)) : PStr := ls.flatMap fun x => x.1 ++ x.2

/-- The text begins with a line of white space: at least one space or tab before the first line end, and nothing else. -/
def SpacesFirst (b : PStr) : Prop := ∃ w e r, b = w ++ e :: r ∧ w ≠ [] ∧ (∀ c ∈ w, c = 32 ∨ c = 9) ∧ (e = 10 ∨ e = 13)

/-- The property. -/
def C82_statement : Prop :=
  ∀ (q : Bool) (ls : List (PStr × PStr)) (b : PStr) (rs rs' : List RStmt), WholeLines ls → pDoc q (linesText ls) = .ok rs → pDoc q b = .ok rs' →
    pDoc q (linesText ls ++ b) = .ok (rs ++ rs')

theorem pStmt_eol (q : Bool) {c : Nat} (h : isEol c = true) (s : PStr) : pStmt q (c :: s) = .error .unexpectedInput := by
  rcases isEol_iff.1 h with rfl | rfl <;> simp [pStmt, pSubject, pIriRef, skipWs, isWs, Except.map]

/-- A line end and then a line of white space. -/
theorem pTail_spaces (q : Bool) {n : Nat} {w t : PStr} {e : Nat} (hw : skipWs w = []) (he : isEol e = true) (ht : ¬ StartsStmt (t.dropWhile isEol)) :
    pTail q (n + 1) (w ++ e :: t) = .error .unexpectedInput := by
  have : ∃ c r, skipWs (t.dropWhile isEol) = c :: r ∧ isEol c = true := by
    by_contra hc
    refine ht (fun c r h => ?_)
    cases hi : isEol c with
    | false => rfl
    | true => exact absurd ⟨c, r, h, hi⟩ hc
  obtain ⟨c, r, h, hc⟩ := this
  rw [pTail]
  simp only [skipWs_local he, hw, List.nil_append, he, if_true, h, pStmt_eol q hc]

theorem pDoc_line_spaces (q : Bool) {l t : PStr} {e : Nat} (hl : NoEol l) (hb : skipWs l ≠ []) (he : isEol e = true)
    (ht : ¬ StartsStmt (t.dropWhile isEol)) :
    pDoc q (l ++ e :: t) = match pLine q l with | .error x => .error x | .ok _ => .error .unexpectedInput := by
  conv => lhs; unfold pDoc
  have hs := skipWs_local he l t
  cases hk : skipWs l with
  | nil => exact absurd hk hb
  | cons c r =>
    rw [hs, hk]
    simp only [List.cons_append]
    have hc : isEol c = false := hl.starts c r hk
    have hcr : NoEol (c :: r) := hk ▸ hl.suffix (skipWs_suffix l)
    simp only [hc, Bool.false_eq_true, if_false]
    rw [← List.cons_append, (pStmt_local q).loc e he _ _ hcr]
    have h0 : pStmt q (c :: r) = pStmt q l := by rw [← hk, pStmt_skipWs]
    rw [h0]
    simp only [pLine]
    cases hp : pStmt q l with
    | error x => rfl
    | ok x =>
      obtain ⟨st, r'⟩ := x
      simp only [Except.map]
      have hr' : NoEol r' := hl.suffix ((pStmt_local q).suf _ _ hp)
      by_cases hw : skipWs r' = []
      · rw [pTail_spaces q hw he ht]
        simp [hw]
      · simp only [hw, if_false]
        rw [pTail]
        rw [skipWs_local he]
        cases hk' : skipWs r' with
        | nil => exact absurd hk' hw
        | cons d t => simp only [List.cons_append, hr'.starts d t hk', Bool.false_eq_true, if_false]

theorem takeWhile_all (p : Nat → Bool) (s : PStr) : ∀ c ∈ s.takeWhile p, p c = true := by
  induction s with
  | nil => simp
  | cons x s ih =>
    intro c hc
    rw [List.takeWhile_cons] at hc
    split at hc
    · next hx =>
      rcases List.mem_cons.1 hc with rfl | hc
      · exact hx
      · exact ih c hc
    · simp at hc

theorem dropWhile_idem (p : Nat → Bool) (s : PStr) : (s.dropWhile p).dropWhile p = s.dropWhile p := by
  induction s with
  | nil => rfl
  | cons x s ih =>
    rw [List.dropWhile_cons]
    split
    · exact ih
    · next hx => rw [List.dropWhile_cons, if_neg hx]

theorem spacesFirst_iff {b : PStr} : SpacesFirst b ↔ b.takeWhile isEol = [] ∧ ¬ StartsStmt (b.dropWhile isEol) := by
  constructor
  · rintro ⟨w, e, r, rfl, hw, hws, he⟩
    cases w with
    | nil => exact absurd rfl hw
    | cons a w =>
      have ha : isEol a = false := by rcases hws a (by simp) with rfl | rfl <;> rfl
      have he' : isEol e = true := by rcases he with rfl | rfl <;> rfl
      refine ⟨by simp [ha], fun hs => ?_⟩
      have h1 : List.dropWhile isEol (a :: w ++ e :: r) = a :: w ++ e :: r := by simp [ha]
      rw [h1] at hs
      have := hs e r (by rw [skipWs_local he', blank_iff.2 hws]; rfl)
      rw [he'] at this; cases this
  · rintro ⟨h1, h2⟩
    have hb : b.dropWhile isEol = b := by
      have := List.takeWhile_append_dropWhile (p := isEol) (l := b)
      rw [h1] at this; exact this
    rw [hb] at h2
    have : ∃ c r, skipWs b = c :: r ∧ isEol c = true := by
      by_contra hc
      refine h2 (fun c r h => ?_)
      cases hi : isEol c with
      | false => rfl
      | true => exact absurd ⟨c, r, h, hi⟩ hc
    obtain ⟨c, r, h, hc⟩ := this
    have hsp : b = b.takeWhile isWs ++ c :: r := by
      rw [← h]; exact (List.takeWhile_append_dropWhile).symm
    refine ⟨_, c, r, hsp, fun e => ?_, fun d hd => by simpa [isWs] using takeWhile_all isWs b d hd, isEol_iff.1 hc⟩
    rw [e] at hsp
    rw [hsp] at h1
    simp [hc] at h1

/-- A clean non-blank line, its line end, and any text. -/
theorem pDoc_line_any (q : Bool) {l t : PStr} {e : Nat} (hl : NoEol l) (hb : skipWs l ≠ []) (he : isEol e = true) :
    (SpacesFirst t → pDoc q (l ++ e :: t) = match pLine q l with | .error x => .error x | .ok _ => .error .unexpectedInput) ∧
    (¬ SpacesFirst t → pDoc q (l ++ e :: t) = match pLine q l with | .error x => .error x | .ok st => (pDoc q t).map (st :: ·)) := by
  refine ⟨fun h => pDoc_line_spaces q hl hb he (spacesFirst_iff.1 h).2, fun h => ?_⟩
  have hes := takeWhile_all isEol t
  have ht : t = t.takeWhile isEol ++ t.dropWhile isEol := List.takeWhile_append_dropWhile.symm
  by_cases hs : StartsStmt (t.dropWhile isEol)
  · have h1 := pDoc_line q hl hb he hes hs
    rw [← ht] at h1
    rw [h1]
    cases hk : t.takeWhile isEol with
    | nil => rw [hk] at ht; rw [List.nil_append] at ht; rw [← ht]; cases pLine q l <;> rfl
    | cons a es =>
      rw [hk] at ht hes
      have h2 := pDoc_eols q (w := []) (e := a) (es := es) (rest := t.dropWhile isEol) rfl (hes a (by simp)) (fun x hx => hes x (by simp [hx])) hs
      have h3 : ([] ++ a :: (es ++ t.dropWhile isEol) : PStr) = t := by conv => rhs; rw [ht]
                                                                        rfl
      rw [h3] at h2
      rw [h2]; cases pLine q l <;> rfl
  · rw [pDoc_line_spaces q hl hb he hs]
    have hne : t.takeWhile isEol ≠ [] := fun e => h (spacesFirst_iff.2 ⟨e, hs⟩)
    cases hk : t.takeWhile isEol with
    | nil => exact absurd hk hne
    | cons a es =>
      rw [hk] at ht hes
      have ha : isEol a = true := hes a (by simp)
      have hd : t.dropWhile isEol = (es ++ t.dropWhile isEol).dropWhile isEol := by
        conv => lhs; rw [ht]
        rw [List.cons_append, List.dropWhile_cons, if_pos ha]
      have hp : pDoc q t = .error .unexpectedInput := by
        have h3 : ([] ++ a :: (es ++ t.dropWhile isEol) : PStr) = t := by conv => rhs; rw [ht]
                                                                          rfl
        have h4 := pTail_spaces q (n := t.length) (w := []) (e := a) (t := es ++ t.dropWhile isEol) rfl ha (hd ▸ hs)
        rw [h3] at h4
        unfold pDoc
        have h5 : skipWs t = t := by
          rw [← h3, skipWs_local ha]; rfl
        rw [h5]
        rw [← h3] at h4 ⊢
        simp only [List.nil_append, ha, if_true] at h4 ⊢
        exact h4
      rw [hp]
      cases pLine q l <;> rfl

theorem not_spacesFirst_line {l t : PStr} {e : Nat} (hl : NoEol l) (hb : skipWs l ≠ []) (he : isEol e = true) : ¬ SpacesFirst (l ++ e :: t) := by
  rw [spacesFirst_iff]
  rintro ⟨h1, h2⟩
  have := List.takeWhile_append_dropWhile (p := isEol) (l := l ++ e :: t)
  rw [h1, List.nil_append] at this
  rw [this] at h2
  exact h2 (starts_of_line hl hb he)

theorem not_spacesFirst_eol {a : Nat} {t : PStr} (ha : isEol a = true) : ¬ SpacesFirst (a :: t) := by
  rw [spacesFirst_iff]; rintro ⟨h1, -⟩; simp [ha] at h1

/-- Line ends before a text. -/
theorem pDoc_eols_any (q : Bool) {t : PStr} (h : ¬ SpacesFirst t) (es : PStr) (hes : ∀ c ∈ es, isEol c = true) : pDoc q (es ++ t) = pDoc q t := by
  have key : ∀ (a : Nat) (u : PStr), isEol a = true → ¬ SpacesFirst u → pDoc q (a :: u) = pDoc q u := by
    intro a u ha hu
    have es' := takeWhile_all isEol u
    have hu' : u = u.takeWhile isEol ++ u.dropWhile isEol := List.takeWhile_append_dropWhile.symm
    by_cases hs : StartsStmt (u.dropWhile isEol)
    · have h1 := pDoc_eols q (w := []) rfl ha es' hs
      rw [← hu', List.nil_append] at h1
      rw [h1]
      cases hk : u.takeWhile isEol with
      | nil => rw [hk, List.nil_append] at hu'; rw [← hu']
      | cons x es =>
        rw [hk] at hu' es'
        have h2 := pDoc_eols q (w := []) (e := x) (es := es) rfl (es' x (by simp)) (fun c hc => es' c (by simp [hc])) hs
        rw [List.nil_append, ← List.cons_append, ← hu'] at h2
        exact h2.symm
    · have err : ∀ (x : Nat) (v : PStr), isEol x = true → ¬ StartsStmt (v.dropWhile isEol) → pDoc q (x :: v) = .error .unexpectedInput := by
        intro x v hx hv
        unfold pDoc
        have h5 : skipWs (x :: v) = x :: v := by have := skipWs_local hx [] v; simpa [skipWs] using this
        rw [h5]
        simp only [hx, if_true]
        exact pTail_spaces q (w := []) rfl hx hv
      rw [err a u ha hs]
      have hne : u.takeWhile isEol ≠ [] := fun e => hu (spacesFirst_iff.2 ⟨e, hs⟩)
      cases hk : u.takeWhile isEol with
      | nil => exact absurd hk hne
      | cons x es =>
        rw [hk] at hu' es'
        have hx := es' x (by simp)
        have hd : u.dropWhile isEol = (es ++ u.dropWhile isEol).dropWhile isEol := by
          conv => lhs; rw [hu']
          rw [List.cons_append, List.dropWhile_cons, if_pos hx]
        rw [hu', List.cons_append, err x _ hx (hd ▸ hs)]
  induction es with
  | nil => rfl
  | cons a es ih =>
    have ih := ih (fun c hc => hes c (by simp [hc]))
    rw [List.cons_append, key a _ (hes a (by simp)) ?_, ih]
    cases es with
    | nil => exact h
    | cons b es => exact not_spacesFirst_eol (hes b (by simp))

/-- One line, its line end (any number of characters), and any text. -/
theorem pDoc_line_end (q : Bool) {l es t : PStr} (hl : NoEol l) (hb : skipWs l ≠ []) (hne : es ≠ []) (hes : ∀ c ∈ es, isEol c = true) :
    (SpacesFirst t → pDoc q (l ++ (es ++ t)) = match pLine q l with | .error x => .error x | .ok _ => .error .unexpectedInput) ∧
    (¬ SpacesFirst t → pDoc q (l ++ (es ++ t)) = match pLine q l with | .error x => .error x | .ok st => (pDoc q t).map (st :: ·)) := by
  cases es with
  | nil => exact absurd rfl hne
  | cons a es =>
    have ha := hes a (by simp)
    have hes' : ∀ c ∈ es, isEol c = true := fun c hc => hes c (by simp [hc])
    constructor
    · intro h
      obtain ⟨-, h2⟩ := spacesFirst_iff.1 h
      refine pDoc_line_spaces q hl hb ha (t := es ++ t) ?_
      have hd : (es ++ t).dropWhile isEol = t.dropWhile isEol := by
        clear hes hne
        induction es with
        | nil => rfl
        | cons x es ih => rw [List.cons_append, List.dropWhile_cons, if_pos (hes' x (by simp))]; exact ih (fun c hc => hes' c (by simp [hc]))
      rwa [hd]
    · intro h
      have hns : ¬ SpacesFirst (es ++ t) := by
        cases es with
        | nil => exact h
        | cons b es => exact not_spacesFirst_eol (hes' b (by simp))
      rw [List.cons_append, (pDoc_line_any q hl hb ha).2 hns, pDoc_eols_any q h es hes']

/-- **Exactly what a concatenation reads as.** After lines that can be read, a second text that begins with a line of white space makes the whole unreadable;
    with any other second text the whole reads as the statements of the first followed by what the second reads as - its statements or its error. An error of
    the first text is the error of the whole. -/
theorem C82_exact (q : Bool) (ls : List (PStr × PStr)) (hls : WholeLines ls) (b : PStr) :
    (∀ rs, pDoc q (linesText ls) = .ok rs →
      (¬ SpacesFirst b → pDoc q (linesText ls ++ b) = (pDoc q b).map (rs ++ ·)) ∧
      (SpacesFirst b → ls ≠ [] → pDoc q (linesText ls ++ b) = .error .unexpectedInput)) ∧
    (∀ e, pDoc q (linesText ls) = .error e → pDoc q (linesText ls ++ b) = .error e) := by
  induction ls with
  | nil =>
    refine ⟨fun rs hrs => ⟨fun _ => ?_, fun _ h => absurd rfl h⟩, fun e he => ?_⟩
    · have : pDoc q (linesText []) = .ok [] := rfl
      rw [this] at hrs; cases hrs
      show pDoc q b = _
      cases pDoc q b <;> rfl
    · have : pDoc q (linesText []) = .ok [] := rfl
      rw [this] at he; cases he
  | cons x ls ih =>
    obtain ⟨l, es⟩ := x
    obtain ⟨⟨h1, c, hc, hc'⟩, h3, h4⟩ := hls (l, es) (by simp)
    have hl : NoEol l := noEol_iff.1 h1
    have hb : skipWs l ≠ [] := fun e => by have := blank_iff.1 e c hc; omega
    have he : ∀ c ∈ es, isEol c = true := fun c hc => isEol_iff.2 (h4 c hc)
    obtain ⟨i1, i2⟩ := ih (fun y hy => hls y (by simp [hy]))
    have ea : linesText ((l, es) :: ls) = l ++ (es ++ linesText ls) := by simp [linesText]
    have eb : linesText ((l, es) :: ls) ++ b = l ++ (es ++ (linesText ls ++ b)) := by simp [linesText]
    have nsl : ∀ b : PStr, ls ≠ [] → ¬ SpacesFirst (linesText ls ++ b) := by
      intro b hne
      cases ls with
      | nil => exact absurd rfl hne
      | cons y ls =>
        obtain ⟨l', es'⟩ := y
        obtain ⟨⟨h1', c', hc1, hc2⟩, h3', h4'⟩ := hls (l', es') (by simp)
        cases es' with
        | nil => exact absurd rfl h3'
        | cons a es' =>
          have : linesText ((l', a :: es') :: ls) ++ b = l' ++ a :: (es' ++ (linesText ls ++ b)) := by simp [linesText]
          rw [this]
          exact not_spacesFirst_line (noEol_iff.1 h1') (fun e => by have := blank_iff.1 e c' hc1; omega) (isEol_iff.2 (h4' a (by simp)))
    have nsn : ¬ SpacesFirst [] := by rintro ⟨w, e, r, h, -⟩; simp at h
    have nsa : ¬ SpacesFirst (linesText ls) := by
      cases ls with
      | nil => exact nsn
      | cons y ls => have := nsl [] (by simp); rwa [List.append_nil] at this
    have hA := (pDoc_line_end q (t := linesText ls) hl hb h3 he).2 nsa
    have hB := pDoc_line_end q (t := linesText ls ++ b) hl hb h3 he
    rw [eb, ea, hA]
    refine ⟨fun rs hrs => ?_, fun e hh => ?_⟩
    · cases hp : pLine q l with
      | error e => rw [hp] at hrs; cases hrs
      | ok st =>
        rw [hp] at hrs
        simp only at hrs
        cases hr : pDoc q (linesText ls) with
        | error e => rw [hr] at hrs; cases hrs
        | ok rs' =>
          rw [hr] at hrs; cases hrs
          obtain ⟨j1, j2⟩ := i1 rs' hr
          refine ⟨fun hns => ?_, fun hs _ => ?_⟩
          · have hns' : ¬ SpacesFirst (linesText ls ++ b) := by
              by_cases hne : ls = []
              · subst hne; exact hns
              · exact nsl b hne
            rw [hB.2 hns', hp, j1 hns]
            cases pDoc q b <;> rfl
          · by_cases hne : ls = []
            · subst hne
              rw [hB.1 hs, hp]
            · rw [hB.2 (nsl b hne), hp, j2 hs hne]; rfl
    · cases hp : pLine q l with
      | error x =>
        rw [hp] at hh
        simp only at hh
        by_cases hs : SpacesFirst (linesText ls ++ b)
        · rw [hB.1 hs, hp]; exact hh
        · rw [hB.2 hs, hp]; exact hh
      | ok st =>
        rw [hp] at hh
        simp only at hh
        have hr := map_error hh
        have hne : ls ≠ [] := by
          rintro rfl
          have : pDoc q (linesText []) = .ok [] := rfl
          rw [this] at hr; cases hr
        rw [hB.2 (nsl b hne), hp, i2 e hr]; rfl

/-- The property holds for every second text that does not begin with a line of white space. -/
theorem C82_partial (q : Bool) (ls : List (PStr × PStr)) (b : PStr) (rs rs' : List RStmt) (hls : WholeLines ls) (h1 : pDoc q (linesText ls) = .ok rs)
    (h2 : pDoc q b = .ok rs') (hb : ¬ SpacesFirst b) : pDoc q (linesText ls ++ b) = .ok (rs ++ rs') := by
  rw [((C82_exact q ls hls b).1 rs h1).1 hb, h2]; rfl

/-- A second text that begins with a line of white space may be readable on its own. -/
theorem C82_refuted : ¬ C82_statement := by
  intro h
  have := h false [(py! "<a> <b> <c> .", [10])] (py! " \n<d> <e> <f> .\n") _ _
    (by simp [WholeLines]) (by decide : _ = Except.ok [{ s := .iri (py! "a"), p := .iri (py! "b"), o := .iri (py! "c") }])
    (by decide : _ = Except.ok [{ s := .iri (py! "d"), p := .iri (py! "e"), o := .iri (py! "f") }])
  exact absurd this (by decide)

/-- Two lines with other line ends, and a second text that begins with an empty line. -/
example : WholeLines [(py! "<a> <b> <c> .", [13, 10]), (py! "<a> <b> <d> . ", [10, 10])] ∧
    ¬ SpacesFirst (py! "\n_:x <b> <c> .") ∧
    pDoc false (linesText [(py! "<a> <b> <c> .", [13, 10]), (py! "<a> <b> <d> . ", [10, 10])] ++ py! "\n_:x <b> <c> .") =
      .ok ([{ s := .iri (py! "a"), p := .iri (py! "b"), o := .iri (py! "c") }, { s := .iri (py! "a"), p := .iri (py! "b"), o := .iri (py! "d") }] ++
        [{ s := .label (py! "_:x"), p := .iri (py! "b"), o := .iri (py! "c") }]) := by
  refine ⟨by simp [WholeLines], not_spacesFirst_eol (by decide), by decide⟩

end Verif
