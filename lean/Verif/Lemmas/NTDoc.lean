import Verif.Lemmas.NTriples
import Verif.Props.Escape
/-
Documents of lines, fuel, errors and blank node labels of the N-Triples model.
-/
namespace Verif

theorem skipWs_skipWs (s : PStr) : skipWs (skipWs s) = skipWs s := by
  simp only [skipWs]
  induction s with
  | nil => rfl
  | cons c s ih => simp only [List.dropWhile_cons]; split
                   · exact ih
                   · next h => simp [h]

theorem pStmt_skipWs (q : Bool) (s : PStr) : pStmt q (skipWs s) = pStmt q s := by
  simp only [pStmt, pSubject, pIriRef, skipWs_skipWs]

theorem pStmt_shorter {q : Bool} {s : PStr} {x} (h : pStmt q s = .ok x) : x.2.length < s.length := by
  have h0 := h
  simp only [pStmt] at h
  cases h1 : pSubject s with
  | error _ => rw [h1] at h; simp at h
  | ok x1 =>
    rw [h1] at h; simp only at h
    cases h2 : pIriRef x1.2 with
    | error _ => rw [h2] at h; simp at h
    | ok x2 =>
      rw [h2] at h; simp only at h
      cases h3 : pObject x2.2 with
      | error _ => rw [h3] at h; simp at h
      | ok x3 =>
        rw [h3] at h; simp only at h
        cases h4 : pGraph q x3.2 with
        | error _ => rw [h4] at h; simp at h
        | ok x4 =>
          rw [h4] at h; simp only at h
          cases h5 : pDot x4.2 with
          | error _ => rw [h5] at h; simp [Except.map] at h
          | ok x5 =>
            rw [h5] at h; cases h
            have a := (pDot_suffix h5).2
            have b := ((pGraph_local q).suf _ _ h4).length_le
            have c := (pObject_local.suf _ _ h3).length_le
            have d := (pIriRef_local.suf _ _ h2).length_le
            have e := (pSubject_local.suf _ _ h1).length_le
            simp only; omega

/-- More fuel than characters: the amount does not matter. -/
theorem pTail_fuel (q : Bool) (n m : Nat) (s : PStr) (hn : s.length < n) (hm : s.length < m) : pTail q n s = pTail q m s := by
  induction n generalizing m s with
  | zero => omega
  | succ n ih =>
    cases m with
    | zero => omega
    | succ m =>
      simp only [pTail]
      split
      · rfl
      · next c r hs =>
        split
        · split
          · rfl
          · next t ht =>
            cases hp : pStmt q (skipWs (List.dropWhile isEol r)) with
            | error e => rfl
            | ok x =>
              have h1 := pStmt_shorter hp
              have h2 := (skipWs_suffix (List.dropWhile isEol r)).length_le
              have h3 := (List.dropWhile_suffix (l := r) isEol).length_le
              have h4 := (skipWs_suffix s).length_le
              rw [hs, List.length_cons] at h4
              simp only
              rw [ih m x.2 (by omega) (by omega)]
        · rfl

/-- One line without its end: exactly one statement. -/
def pLine (q : Bool) (l : PStr) : Except Exc RStmt :=
  match pStmt q l with
  | .error e => .error e
  | .ok (st, r) => if skipWs r = [] then .ok st else .error .unexpectedInput

/-- The text begins, after white space, with a statement or not at all. -/
def StartsStmt (s : PStr) : Prop := ∀ c r, skipWs s = c :: r → isEol c = false

theorem NoEol.starts {l : PStr} (h : NoEol l) : StartsStmt l := by
  intro c r hs
  exact (h.suffix (skipWs_suffix l)) c (by rw [hs]; simp)

theorem dropWhile_eols {es rest : PStr} (he : ∀ e ∈ es, isEol e = true) (hr : StartsStmt rest) : (es ++ rest).dropWhile isEol = rest := by
  induction es with
  | nil =>
    cases rest with
    | nil => rfl
    | cons c r =>
      have : isEol c = false := by
        cases hw : isWs c with
        | true => simp only [isWs, Bool.or_eq_true, beq_iff_eq] at hw; rcases hw with rfl | rfl <;> rfl
        | false => exact hr c r (by simp [skipWs, hw])
      simp [this]
  | cons e es ih =>
    simp only [List.cons_append, List.dropWhile_cons, he e (by simp), if_true]
    exact ih (fun x hx => he x (by simp [hx]))

theorem pTail_eol (q : Bool) {n : Nat} {w es rest : PStr} {e : Nat} (hw : skipWs w = []) (he : isEol e = true) (hes : ∀ e ∈ es, isEol e = true)
    (hr : StartsStmt rest) (hn : (w ++ e :: (es ++ rest)).length < n) : pTail q n (w ++ e :: (es ++ rest)) = pDoc q rest := by
  cases n with
  | zero => omega
  | succ n =>
    rw [pTail]
    simp only [skipWs_local he, hw, List.nil_append, he, if_true, dropWhile_eols hes hr, pDoc]
    cases h : skipWs rest with
    | nil => rfl
    | cons c r =>
      simp only [hr c r h]
      simp only [Bool.false_eq_true, if_false]
      cases hp : pStmt q (c :: r) with
      | error _ => rfl
      | ok x =>
        simp only
        have h1 := pStmt_shorter hp
        have h2 := (skipWs_suffix rest).length_le
        rw [h] at h2
        simp only [List.length_append, List.length_cons] at h1 h2 hn
        rw [pTail_fuel q n (rest.length + 1) x.2 (by omega) (by omega)]

/-- A document that begins with a non-blank line is that line's statement followed by the rest of the document. -/
theorem pDoc_line (q : Bool) {l es rest : PStr} {e : Nat} (hl : NoEol l) (hb : skipWs l ≠ []) (he : isEol e = true)
    (hes : ∀ e ∈ es, isEol e = true) (hr : StartsStmt rest) :
    pDoc q (l ++ e :: (es ++ rest)) =
      match pLine q l with
      | .error x => .error x
      | .ok st => (pDoc q rest).map (st :: ·) := by
  conv => lhs; unfold pDoc
  have hs := skipWs_local he l (es ++ rest)
  cases hk : skipWs l with
  | nil => exact absurd hk hb
  | cons c r =>
    rw [hs, hk]
    simp only [List.cons_append]
    have hc : isEol c = false := hl.starts c r hk
    have hcr : NoEol (c :: r) := hk ▸ hl.suffix (skipWs_suffix l)
    simp only [hc, Bool.false_eq_true, if_false]
    rw [← List.cons_append, (pStmt_local q).loc e he _ _ hcr]
    have h0 : pStmt q (c :: r) = pStmt q l := by rw [← hk, pStmt_skipWs]
    rw [h0]
    simp only [pLine]
    cases hp : pStmt q l with
    | error x => rfl
    | ok x =>
      obtain ⟨st, r'⟩ := x
      simp only [Except.map]
      have hr' : NoEol r' := hl.suffix ((pStmt_local q).suf _ _ hp)
      have hlen := pStmt_shorter hp
      by_cases hw : skipWs r' = []
      · have hlt : (r' ++ e :: (es ++ rest)).length < (l ++ e :: (es ++ rest)).length + 1 := by
          simp only [List.length_append, List.length_cons] at hlen ⊢; omega
        rw [pTail_eol q hw he hes hr hlt]
        simp [hw]
      · simp only [hw, if_false]
        rw [pTail]
        rw [skipWs_local he]
        cases hk' : skipWs r' with
        | nil => exact absurd hk' hw
        | cons d t => simp only [List.cons_append, hr'.starts d t hk', Bool.false_eq_true, if_false]

/-- A text without ends of line is one statement or blank. -/
theorem pDoc_single (q : Bool) {l : PStr} (hl : NoEol l) (hb : skipWs l ≠ []) : pDoc q l = (pLine q l).map (fun st => [st]) := by
  unfold pDoc pLine
  cases hk : skipWs l with
  | nil => exact absurd hk hb
  | cons c r =>
    simp only [hl.starts c r hk, Bool.false_eq_true, if_false]
    have h0 : pStmt q (c :: r) = pStmt q l := by rw [← hk, pStmt_skipWs]
    rw [h0]
    cases hp : pStmt q l with
    | error x => rfl
    | ok x =>
      obtain ⟨st, r'⟩ := x
      have hr' : NoEol r' := hl.suffix ((pStmt_local q).suf _ _ hp)
      simp only [pTail]
      cases hk' : skipWs r' with
      | nil => rfl
      | cons d t => simp [hr'.starts d t hk', Except.map]

theorem pDoc_blank (q : Bool) {l : PStr} (hb : skipWs l = []) : pDoc q l = .ok [] := by simp [pDoc, hb]

theorem starts_nil : StartsStmt [] := by intro c r h; simp [skipWs] at h

/-- Leading empty lines are skipped. -/
theorem pDoc_eols (q : Bool) {w es rest : PStr} {e : Nat} (hw : skipWs w = []) (he : isEol e = true) (hes : ∀ e ∈ es, isEol e = true)
    (hr : StartsStmt rest) : pDoc q (w ++ e :: (es ++ rest)) = pDoc q rest := by
  have hs : skipWs (w ++ e :: (es ++ rest)) = e :: (es ++ rest) := by rw [skipWs_local he, hw]; rfl
  conv => lhs; unfold pDoc
  simp only [hs, he, if_true]
  exact pTail_eol q (w := []) rfl he hes hr (by simp only [List.length_append, List.length_cons, List.nil_append]; omega)

/-! ### Errors -/

/-- The exceptions of the recogniser on a text: those of `chr` need a `\\U` escape. -/
def NTErr (s : PStr) (e : Exc) : Prop := e = .unexpectedInput ∨ (85 ∈ s ∧ (e = .valueError ∨ e = .overflowError))

theorem NTErr.mono {s t : PStr} {e : Exc} (h : NTErr s e) (hs : ∀ c ∈ s, c ∈ t) : NTErr t e := h.imp_right fun x => ⟨hs _ x.1, x.2⟩
theorem NTErr.suf {s t : PStr} {e : Exc} (h : NTErr s e) (hs : s <:+ t) : NTErr t e := h.mono fun _ hc => hs.subset hc

theorem pyChr_err {n : Nat} {e : Exc} (h : pyChr n = .error e) : 0x110000 ≤ n ∧ (e = .valueError ∨ e = .overflowError) := by
  unfold pyChr at h
  split at h
  · cases h
  · refine ⟨by omega, ?_⟩
    split at h
    · cases h; exact Or.inl rfl
    · cases h; exact Or.inr rfl

theorem escAt_err {s : PStr} {e : Exc} {n : Nat} (h : escAt s = some (.error e, n)) : NTErr s e := by
  unfold escAt at h
  split at h
  · split at h
    · split at h
      · next rest _ hl =>
        simp only [Option.some.injEq, Prod.mk.injEq] at h
        have h1 := (pyChr_err h.1).1
        have h2 := parseHex_lt (List.take 4 rest)
        rw [hl.1] at h2
        exact absurd h1 (by omega)
      · cases h
    · split at h
      · next hc =>
        split at h
        · simp only [Option.some.injEq, Prod.mk.injEq] at h
          exact Or.inr ⟨by simp [hc], (pyChr_err h.1).2⟩
        · cases h
      · cases h
  · cases h

theorem map_error {α β} {x : Except Exc α} {f : α → β} {e : Exc} (h : x.map f = .error e) : x = .error e := by
  cases x with
  | error _ => cases h; rfl
  | ok _ => cases h

theorem decodeAux_err {k : Nat} {s : PStr} {e : Exc} (h : decodeAux k s = .error e) : NTErr s e := by
  induction s generalizing k with
  | nil => cases k <;> simp [decodeAux] at h
  | cons c s ih =>
    have hsuf : s <:+ c :: s := List.suffix_cons c s
    cases k with
    | succ k => exact (ih (k := k) h).suf hsuf
    | zero =>
      simp only [decodeAux] at h
      split at h
      · exact (ih (map_error h)).suf hsuf
      · next hx => cases h; exact escAt_err hx
      · exact (ih (map_error h)).suf hsuf

theorem decodeLiteral_err {s : PStr} {e : Exc} (h : decodeLiteral s = .error e) : NTErr s e := decodeAux_err h

theorem iriAux_subset {k : Nat} {s : PStr} {x} (h : iriAux k s = some x) : ∀ c ∈ x.1, c ∈ s := by
  induction s generalizing k x with
  | nil => cases k <;> simp [iriAux] at h
  | cons d s ih =>
    have step : ∀ k, (iriAux k s).map (fun x => (d :: x.1, x.2)) = some x → ∀ c ∈ x.1, c ∈ d :: s := by
      intro k hk
      obtain ⟨y, hy, rfl⟩ := Option.map_eq_some_iff.1 hk
      intro c hc
      rcases List.mem_cons.1 hc with rfl | hc
      · simp
      · exact List.mem_cons_of_mem _ (ih hy c hc)
    cases k with
    | succ k => exact step k h
    | zero =>
      simp only [iriAux] at h
      split at h
      · cases h; simp
      split at h
      · intro c hc; exact List.mem_cons_of_mem _ (ih h c hc)
      split at h
      · split at h
        · cases h
        · exact step _ h
      · split at h
        · exact step _ h
        · cases h

theorem strAux_subset {k : Nat} {s : PStr} {x} (h : strAux k s = some x) : ∀ c ∈ x.1, c ∈ s := by
  induction s generalizing k x with
  | nil => cases k <;> simp [strAux] at h
  | cons d s ih =>
    have step : ∀ k, (strAux k s).map (fun x => (d :: x.1, x.2)) = some x → ∀ c ∈ x.1, c ∈ d :: s := by
      intro k hk
      obtain ⟨y, hy, rfl⟩ := Option.map_eq_some_iff.1 hk
      intro c hc
      rcases List.mem_cons.1 hc with rfl | hc
      · simp
      · exact List.mem_cons_of_mem _ (ih hy c hc)
    cases k with
    | succ k => exact step k h
    | zero =>
      simp only [strAux] at h
      split at h
      · cases h; simp
      split at h
      · split at h
        · cases h
        · exact step _ h
      split at h
      · cases h
      · exact step _ h

theorem skipWs_mem {s r : PStr} {c : Nat} (h : skipWs s = c :: r) : r <:+ s := by
  have := skipWs_suffix s
  rw [h] at this
  exact (List.suffix_cons c r).trans this

theorem pIriRef_err {s e} (h : pIriRef s = .error e) : NTErr s e := by
  simp only [pIriRef] at h
  split at h
  · next r hs =>
    split at h
    · cases h; exact Or.inl rfl
    · next x hx =>
      exact (decodeLiteral_err (map_error h)).mono fun c hc => (skipWs_mem hs).subset (iriAux_subset hx c hc)
  · cases h; exact Or.inl rfl

theorem pSubject_err {s e} (h : pSubject s = .error e) : NTErr s e := by
  simp only [pSubject] at h
  split at h
  · split at h
    · cases h; exact Or.inl rfl
    · cases h
  · exact pIriRef_err (map_error h)

theorem pSuffix_err {v s e} (h : pSuffix v s = .error e) : NTErr s e := by
  simp only [pSuffix] at h
  split at h
  · next r hs => exact (pIriRef_err (map_error h)).suf ((List.suffix_cons 94 r).trans (skipWs_mem hs))
  · split at h
    · split at h
      · cases h
      · cases h; exact Or.inl rfl
    · cases h; exact Or.inl rfl
  · cases h

theorem pObject_err {s e} (h : pObject s = .error e) : NTErr s e := by
  simp only [pObject] at h
  split at h
  · next r hs =>
    split at h
    · cases h; exact Or.inl rfl
    · next x hx =>
      split at h
      · next hd =>
        cases h
        exact (decodeLiteral_err hd).mono fun c hc => (skipWs_mem hs).subset (strAux_subset hx c hc)
      · exact (pSuffix_err h).suf ((strAux_suffix _ _ _ hx).trans (skipWs_mem hs))
  · exact pSubject_err h

theorem pStmt_err {q s e} (h : pStmt q s = .error e) : NTErr s e := by
  simp only [pStmt] at h
  split at h
  · next h1 => cases h; exact pSubject_err h1
  next h1 =>
  have s1 := pSubject_local.suf _ _ h1
  split at h
  · next h2 => cases h; exact (pIriRef_err h2).suf s1
  next h2 =>
  have s2 := (pIriRef_local.suf _ _ h2).trans s1
  split at h
  · next h3 => cases h; exact (pObject_err h3).suf s2
  next h3 =>
  have s3 := (pObject_local.suf _ _ h3).trans s2
  split at h
  · next h4 =>
    cases h
    unfold pGraph at h4
    split at h4
    · exact (pIriRef_err (map_error h4)).suf s3
    · cases h4
  · have := map_error h
    simp only [pDot] at this
    split at this
    · cases this
    · cases this; exact Or.inl rfl

theorem pTail_err {q n s e} (hn : s.length < n) (h : pTail q n s = .error e) : NTErr s e := by
  induction n generalizing s with
  | zero => omega
  | succ n ih =>
    simp only [pTail] at h
    split at h
    · cases h
    · next c r hs =>
      split at h
      · split at h
        · cases h
        · have hsuf : skipWs (List.dropWhile isEol r) <:+ s := ((skipWs_suffix _).trans (List.dropWhile_suffix _)).trans (skipWs_mem hs)
          cases hp : pStmt q (skipWs (List.dropWhile isEol r)) with
          | error x => rw [hp] at h; cases h; exact (pStmt_err hp).suf hsuf
          | ok x =>
            rw [hp] at h; simp only at h
            have h1 := pStmt_shorter hp
            have h2 := hsuf.length_le
            exact (ih (by omega) (map_error h)).suf (((pStmt_local q).suf _ _ hp).trans hsuf)
      · cases h; exact Or.inl rfl

/-- The fuel of `pDoc` never runs out, and only three kinds of exception are possible. -/
theorem pDoc_err {q s e} (h : pDoc q s = .error e) : NTErr s e := by
  unfold pDoc at h
  split at h
  · cases h
  · next c r hs =>
    have h5 := skipWs_suffix s
    have h4 := h5.length_le
    rw [hs] at h4 h5
    split at h
    · exact (pTail_err (by omega) h).suf h5
    · cases hp : pStmt q (c :: r) with
      | error x => rw [hp] at h; cases h; exact (pStmt_err hp).suf h5
      | ok x =>
        rw [hp] at h; simp only at h
        have h1 := pStmt_shorter hp
        exact (pTail_err (by omega) (map_error h)).suf (((pStmt_local q).suf _ _ hp).trans h5)

end Verif
