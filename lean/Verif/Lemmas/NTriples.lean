import Verif.Model.NTriples
import Verif.Lemmas.Iri
/-
The N-Triples recogniser is local to a line: no token crosses an end of line. From this the grammar of a document is reduced to its lines.
-/
namespace Verif

/-- No carriage return and no line feed. -/
def NoEol (l : PStr) : Prop := ∀ c ∈ l, isEol c = false

theorem NoEol.cons {c l} : NoEol (c :: l) ↔ isEol c = false ∧ NoEol l := by simp [NoEol]
theorem NoEol.append {a b} : NoEol (a ++ b) ↔ NoEol a ∧ NoEol b := by
  simp only [NoEol, List.mem_append]
  exact ⟨fun h => ⟨fun c hc => h c (Or.inl hc), fun c hc => h c (Or.inr hc)⟩, fun h c hc => hc.elim (h.1 c) (h.2 c)⟩
theorem NoEol.suffix {a b} (h : NoEol b) (hs : a <:+ b) : NoEol a := fun c hc => h c (hs.subset hc)

theorem isEol_iff {e : Nat} : isEol e = true ↔ e = 10 ∨ e = 13 := by simp [isEol]

theorem skipWs_suffix (s : PStr) : skipWs s <:+ s := List.dropWhile_suffix _

theorem skipWs_local {e : Nat} (he : isEol e = true) (l rest : PStr) : skipWs (l ++ e :: rest) = skipWs l ++ e :: rest := by
  induction l with
  | nil => rcases isEol_iff.1 he with rfl | rfl <;> simp [skipWs, isWs]
  | cons c l ih =>
    simp only [skipWs, List.cons_append, List.dropWhile_cons] at ih ⊢
    split
    · exact ih
    · rfl

theorem take_all_local (p : Nat → Bool) {e : Nat} (he : p e = false) (l rest : PStr) (n : Nat) :
    ((l ++ e :: rest).take n).length = n ∧ ((l ++ e :: rest).take n).all p = true ↔ (l.take n).length = n ∧ (l.take n).all p = true := by
  by_cases h : n ≤ l.length
  · rw [List.take_append_of_le_length h]
  · have h1 : ¬ (l.take n).length = n := by simp; omega
    have h2 : ((l ++ e :: rest).take n).all p = false := by
      rw [List.all_eq_false]
      refine ⟨e, ?_, by simp [he]⟩
      rw [List.take_append]
      obtain ⟨k, hk⟩ : ∃ k, n - l.length = k + 1 := ⟨n - l.length - 1, by omega⟩
      rw [hk]; simp
    constructor
    · intro h'; rw [h2] at h'; simp at h'
    · intro h'; exact absurd h'.1 h1

theorem isHex_eol {e : Nat} (he : isEol e = true) : isHex e = false := by rcases isEol_iff.1 he with rfl | rfl <;> decide

theorem ucharTail_local {e : Nat} (he : isEol e = true) (l rest : PStr) : ucharTail (l ++ e :: rest) = ucharTail l := by
  cases l with
  | nil => rcases isEol_iff.1 he with rfl | rfl <;> simp [ucharTail]
  | cons c l =>
    simp only [List.cons_append]
    unfold ucharTail
    split
    · next h => cases h; simp only [take_all_local isHex (isHex_eol he)]
    · next h => cases h; simp only [take_all_local isHex (isHex_eol he)]
    · next h1 h2 => split
                    · next h => cases h; exact absurd rfl (h1 _)
                    · next h => cases h; exact absurd rfl (h2 _)
                    · rfl

theorem ucharTail_le (l : PStr) : ucharTail l ≤ l.length := by
  unfold ucharTail
  split
  · split
    · next h => simp at h ⊢; omega
    · simp
  · split
    · next h => simp at h ⊢; omega
    · simp
  · simp

theorem escTail_local {e : Nat} (he : isEol e = true) (l rest : PStr) : escTail (l ++ e :: rest) = escTail l := by
  cases l with
  | nil => rcases isEol_iff.1 he with rfl | rfl <;> simp [escTail, ucharTail]
  | cons c l => simp only [List.cons_append, escTail]; rw [← List.cons_append, ucharTail_local he]

theorem escTail_le (l : PStr) : escTail l ≤ l.length := by
  cases l with
  | nil => simp [escTail]
  | cons c l => simp only [escTail]; split
                · simp
                · exact ucharTail_le _

theorem iriAux_local {e : Nat} (he : isEol e = true) (rest l : PStr) (k : Nat) (hk : k ≤ l.length) :
    iriAux k (l ++ e :: rest) = (iriAux k l).map fun x => (x.1, x.2 ++ e :: rest) := by
  induction l generalizing k with
  | nil =>
    simp only [List.length_nil, Nat.le_zero] at hk; subst hk
    rcases isEol_iff.1 he with rfl | rfl <;> simp [iriAux, isWs, iriClass]
  | cons c l ih =>
    cases k with
    | succ k =>
      simp only [List.length_cons, Nat.add_le_add_iff_right] at hk
      simp only [List.cons_append, iriAux, ih k hk, Option.map_map]; rfl
    | zero =>
      simp only [List.cons_append, iriAux, ih 0 (by omega), ucharTail_local he]
      split
      · simp
      split
      · rfl
      split
      · have := ucharTail_le l
        cases h : ucharTail l with
        | zero => rfl
        | succ n => simp only []; rw [ih _ (by omega)]; simp only [Option.map_map]; rfl
      split
      · simp only [Option.map_map]; rfl
      · rfl

theorem strAux_local {e : Nat} (he : isEol e = true) (rest l : PStr) (k : Nat) (hk : k ≤ l.length) :
    strAux k (l ++ e :: rest) = (strAux k l).map fun x => (x.1, x.2 ++ e :: rest) := by
  induction l generalizing k with
  | nil =>
    simp only [List.length_nil, Nat.le_zero] at hk; subst hk
    rcases isEol_iff.1 he with rfl | rfl <;> simp [strAux, isEol]
  | cons c l ih =>
    cases k with
    | succ k =>
      simp only [List.length_cons, Nat.add_le_add_iff_right] at hk
      simp only [List.cons_append, strAux, ih k hk, Option.map_map]; rfl
    | zero =>
      simp only [List.cons_append, strAux, ih 0 (by omega), escTail_local he]
      split
      · simp
      split
      · have := escTail_le l
        cases h : escTail l with
        | zero => rfl
        | succ n => simp only []; rw [ih _ (by omega)]; simp only [Option.map_map]; rfl
      split
      · rfl
      · simp only [Option.map_map]; rfl

theorem iriAux_suffix (s : PStr) (k : Nat) (x) (h : iriAux k s = some x) : x.2 <:+ s := by
  induction s generalizing k x with
  | nil => simp [iriAux] at h
  | cons c s ih =>
    have step : ∀ k y, (iriAux k s).map (fun x => (c :: x.1, x.2)) = some y → y.2 <:+ c :: s := by
      intro k y hy
      obtain ⟨z, hz, rfl⟩ := Option.map_eq_some_iff.1 hy
      exact (ih k z hz).trans (List.suffix_cons c s)
    cases k with
    | succ k => exact step k x h
    | zero =>
      simp only [iriAux] at h
      split at h
      · cases h; exact List.suffix_cons c s
      split at h
      · exact (ih 0 x h).trans (List.suffix_cons c s)
      split at h
      · split at h
        · simp at h
        · exact step _ x h
      split at h
      · exact step _ x h
      · simp at h

theorem strAux_suffix (s : PStr) (k : Nat) (x) (h : strAux k s = some x) : x.2 <:+ s := by
  induction s generalizing k x with
  | nil => simp [strAux] at h
  | cons c s ih =>
    have step : ∀ k y, (strAux k s).map (fun x => (c :: x.1, x.2)) = some y → y.2 <:+ c :: s := by
      intro k y hy
      obtain ⟨z, hz, rfl⟩ := Option.map_eq_some_iff.1 hy
      exact (ih k z hz).trans (List.suffix_cons c s)
    cases k with
    | succ k => exact step k x h
    | zero =>
      simp only [strAux] at h
      split at h
      · cases h; exact List.suffix_cons c s
      split at h
      · split at h
        · simp at h
        · exact step _ x h
      split at h
      · simp at h
      · exact step _ x h

/-! ### Labels and language tags -/

theorem labelTail_prefix (s : PStr) : labelTail s <+: s := by
  have h1 : labelTail s <+: s.takeWhile fun c => pnChars c || c == 46 := by
    unfold labelTail
    generalize (s.takeWhile fun c => pnChars c || c == 46) = t
    have := List.dropWhile_suffix (l := t.reverse) (· == 46)
    rw [← List.reverse_prefix] at this
    simpa using this
  exact h1.trans (List.takeWhile_prefix _)

/-- A label ends before any character that is neither a PN_CHARS nor a dot. -/
theorem labelTail_stop {e : Nat} (he : (pnChars e || e == 46) = false) (l rest : PStr) : labelTail (l ++ e :: rest) = labelTail l := by
  unfold labelTail
  congr 3
  induction l with
  | nil => simp [List.takeWhile_cons, he]
  | cons c l ih => simp only [List.cons_append, List.takeWhile_cons, ih]

theorem langTail_prefix (l : PStr) (b : Bool) : langTail b l <+: l := by
  fun_induction langTail b l <;> simp_all [List.prefix_cons_iff]

theorem langTail_take {b : Bool} {c : Nat} (h : (if b = true then langSub c else isLetter c) = true) (r : PStr) :
    langTail b (c :: r) = c :: langTail b r := by
  rw [langTail.eq_def]; simp only [h, if_true]

theorem langTail_sub {b : Bool} {d : Nat} (h : langSub d = true) (r : PStr) : langTail b (45 :: d :: r) = 45 :: d :: langTail true r := by
  rw [langTail.eq_def]
  have : ¬ (if b = true then langSub 45 else isLetter 45) = true := by cases b <;> decide
  simp only [this, h, if_true]; rfl

theorem langTail_end {b : Bool} {c : Nat} {r : PStr} (h : ¬ (if b = true then langSub c else isLetter c) = true)
    (h' : c = 45 → ∀ d r', r = d :: r' → langSub d = false) : langTail b (c :: r) = [] := by
  rw [langTail.eq_def]; simp only [h]
  simp only [Bool.false_eq_true, if_false]
  split
  · next d r' => rw [h' rfl d r' rfl]; rfl
  · rfl

/-- A language tag ends before any character that is neither a letter, "0", "_", "9" nor "-". -/
theorem langTail_stop {e : Nat} (he : langSub e = false) (hd : e ≠ 45) (l rest : PStr) (b : Bool) : langTail b (l ++ e :: rest) = langTail b l := by
  have hl : isLetter e = false := by
    rw [langSub] at he; revert he; cases isLetter e <;> simp
  have hend : ∀ b, langTail b (e :: rest) = [] := fun b => langTail_end (by cases b <;> simp [he, hl]) (fun h => absurd h hd)
  fun_induction langTail b l with
  | case1 => exact hend _
  | case2 b c r h ih => rw [List.cons_append, langTail_take h, ih]
  | case3 b d r h hd' ih => simp only [List.cons_append]; rw [langTail_sub (by assumption), ih]
  | case4 b d r h hd' => simp only [List.cons_append]; exact langTail_end (by assumption) (fun _ d r' e => by cases e; simp_all)
  | case5 b c r h hn =>
    simp only [List.cons_append]
    refine langTail_end h (fun hc d r' e => ?_)
    cases r with
    | nil => simp at e; rw [← e.1]; exact he
    | cons x r => exact (hn x r hc rfl).elim

theorem drop_local {n : Nat} {l : PStr} (h : n ≤ l.length) (t : PStr) : (l ++ t).drop n = l.drop n ++ t := by
  rw [List.drop_append, Nat.sub_eq_zero_of_le h]; rfl

theorem pLabel_stop {e : Nat} (he : (pnChars e || e == 46) = false) (l rest : PStr) :
    pLabel (l ++ e :: rest) = (pLabel l).map fun x => (x.1, x.2 ++ e :: rest) := by
  cases l with
  | nil =>
    have : (pnCharsU e || decide (48 ≤ e ∧ e ≤ 57)) = false := by
      simp only [pnChars, Bool.or_eq_false_iff, decide_eq_false_iff_not] at he ⊢
      exact ⟨he.1.1, fun h => he.1.2 (Or.inr (Or.inl h))⟩
    simp only [List.nil_append, pLabel, this]; rfl
  | cons c l =>
    simp only [List.cons_append, pLabel, labelTail_stop he]
    split
    · simp [drop_local (labelTail_prefix l).length_le]
    · rfl

theorem pLabel_suffix {s : PStr} {x} (h : pLabel s = some x) : x.2 <:+ s := by
  cases s with
  | nil => simp [pLabel] at h
  | cons c s =>
    simp only [pLabel] at h
    split at h
    · cases h; exact (List.drop_suffix _ _).trans (List.suffix_cons _ _)
    · simp at h

theorem eol_stop {e : Nat} (he : isEol e = true) : (pnChars e || e == 46) = false ∧ langSub e = false ∧ e ≠ 45 := by
  rcases isEol_iff.1 he with rfl | rfl <;> decide

/-! ### Rules -/

/-- A parsing function is local: what follows an end of line does not matter, and it returns a suffix of its input. -/
structure Local {α} (p : PStr → Except Exc (α × PStr)) : Prop where
  loc : ∀ e, isEol e = true → ∀ l rest, NoEol l → p (l ++ e :: rest) = (p l).map fun x => (x.1, x.2 ++ e :: rest)
  suf : ∀ s x, p s = .ok x → x.2 <:+ s

theorem pIriRef_local : Local pIriRef where
  loc e he l rest _ := by
    simp only [pIriRef, skipWs_local he]
    cases h : skipWs l with
    | nil => rcases isEol_iff.1 he with rfl | rfl <;> simp [Except.map]
    | cons c r =>
      simp only [List.cons_append]
      by_cases hc : c = 60
      · subst hc
        simp only [iriAux_local he rest r 0 (Nat.zero_le _)]
        cases iriAux 0 r with
        | none => rfl
        | some x => simp only [Option.map_some, Except.map_map']; rfl
      · simp [hc, Except.map]
  suf s x h := by
    simp only [pIriRef] at h
    split at h
    · next r hr =>
      split at h
      · simp at h
      · next y hy =>
        cases hd : decodeLiteral y.1 with
        | error e => rw [hd] at h; simp [Except.map] at h
        | ok v =>
          rw [hd] at h; cases h
          exact ((iriAux_suffix r 0 y hy).trans (List.suffix_cons 60 r)).trans (hr ▸ skipWs_suffix s)
    · simp at h

theorem pSubject_local : Local pSubject where
  loc e he l rest hl := by
    simp only [pSubject, skipWs_local he, pIriRef_local.loc e he l rest hl]
    cases h : skipWs l with
    | nil => rcases isEol_iff.1 he with rfl | rfl <;> simp only [List.nil_append, Except.map_map'] <;> rfl
    | cons c r =>
      by_cases hc : c = 95
      · subst hc
        cases r with
        | nil => rcases isEol_iff.1 he with rfl | rfl <;> simp only [List.cons_append, List.nil_append, Except.map_map'] <;> rfl
        | cons d r =>
          by_cases hd : d = 58
          · subst hd
            simp only [List.cons_append, pLabel_stop (eol_stop he).1]
            cases pLabel r <;> rfl
          · simp only [List.cons_append]
            split
            · next heq => simp at heq; omega
            · split
              · next heq => simp at heq; omega
              · simp only [Except.map_map']; rfl
      · simp only [List.cons_append]
        split
        · next heq => simp at heq; omega
        · split
          · next heq => simp at heq; omega
          · simp only [Except.map_map']; rfl
  suf s x h := by
    simp only [pSubject] at h
    split at h
    · next r hr =>
      split at h
      · simp at h
      · next y hy =>
        cases h
        exact ((pLabel_suffix hy).trans ((List.suffix_cons 58 r).trans (List.suffix_cons 95 _))).trans (hr ▸ skipWs_suffix s)
    · cases hp : pIriRef s with
      | error e => rw [hp] at h; simp [Except.map] at h
      | ok v => rw [hp] at h; cases h; exact pIriRef_local.suf s v hp

theorem pSuffix_other (v s : PStr) (h1 : ∀ r, skipWs s ≠ 94 :: 94 :: r) (h2 : ∀ r, skipWs s ≠ 64 :: r) : pSuffix v s = .ok (.lit v none none, s) := by
  unfold pSuffix
  split
  · next h => exact absurd h (h1 _)
  · next h => exact absurd h (h2 _)
  · rfl

theorem pSuffix_local (v : PStr) : Local (pSuffix v) where
  loc e he l rest hl := by
    have h10 : e ≠ 94 ∧ e ≠ 64 ∧ isLetter e = false := by rcases isEol_iff.1 he with rfl | rfl <;> decide
    have hsk : NoEol (skipWs l) := hl.suffix (skipWs_suffix l)
    have hloc := skipWs_local he l rest
    by_cases h1 : ∃ r, skipWs l = 94 :: 94 :: r
    · obtain ⟨r, hr⟩ := h1
      rw [hr] at hsk
      have hr' : NoEol r := (NoEol.cons.1 (NoEol.cons.1 hsk).2).2
      simp only [pSuffix, hloc, hr, List.cons_append, pIriRef_local.loc e he r rest hr', Except.map_map']; rfl
    by_cases h2 : ∃ r, skipWs l = 64 :: r
    · obtain ⟨r, hr⟩ := h2
      simp only [pSuffix, hloc, hr, List.cons_append]
      cases r with
      | nil => simp [h10.2.2, Except.map]
      | cons d r =>
        simp only [List.cons_append, langTail_stop (eol_stop he).2.1 (eol_stop he).2.2]
        split
        · simp [Except.map, drop_local (langTail_prefix r false).length_le]
        · rfl
    have hn1 : ∀ r, skipWs l ≠ 94 :: 94 :: r := fun r h => h1 ⟨r, h⟩
    have hn2 : ∀ r, skipWs l ≠ 64 :: r := fun r h => h2 ⟨r, h⟩
    rw [pSuffix_other v l hn1 hn2, pSuffix_other v (l ++ e :: rest)]
    · rfl
    · intro r h
      rw [hloc] at h
      rcases hk : skipWs l with _ | ⟨c, _ | ⟨d, t⟩⟩ <;> rw [hk] at h <;> simp at h
      · exact h10.1 h.1
      · exact h10.1 h.2.1
      · obtain ⟨rfl, rfl, -⟩ := h; exact hn1 _ hk
    · intro r h
      rw [hloc] at h
      rcases hk : skipWs l with _ | ⟨c, t⟩ <;> rw [hk] at h <;> simp at h
      · exact h10.2.1 h.1
      · obtain ⟨rfl, -⟩ := h; exact hn2 _ hk
  suf s x h := by
    simp only [pSuffix] at h
    split at h
    · next r hr =>
      cases hp : pIriRef r with
      | error e => rw [hp] at h; simp [Except.map] at h
      | ok y =>
        rw [hp] at h; cases h
        exact ((pIriRef_local.suf r y hp).trans ((List.suffix_cons 94 r).trans (List.suffix_cons 94 _))).trans (hr ▸ skipWs_suffix s)
    · next r hr =>
      split at h
      · next c r =>
        split at h
        · cases h
          exact ((List.drop_suffix _ _).trans ((List.suffix_cons c r).trans (List.suffix_cons 64 _))).trans (hr ▸ skipWs_suffix s)
        · simp at h
      · simp at h
    · cases h; exact List.suffix_refl s

theorem pObject_other (s : PStr) (h : ∀ r, skipWs s ≠ 34 :: r) : pObject s = pSubject s := by
  unfold pObject
  split
  · next h' => exact absurd h' (h _)
  · rfl

theorem pObject_local : Local pObject where
  loc e he l rest hl := by
    have hloc := skipWs_local he l rest
    have hsk : NoEol (skipWs l) := hl.suffix (skipWs_suffix l)
    by_cases h1 : ∃ r, skipWs l = 34 :: r
    · obtain ⟨r, hr⟩ := h1
      rw [hr] at hsk
      simp only [pObject, hloc, hr, List.cons_append, strAux_local he rest r 0 (Nat.zero_le _)]
      cases hs : strAux 0 r with
      | none => rfl
      | some x =>
        simp only [Option.map_some]
        cases decodeLiteral x.1 with
        | error _ => rfl
        | ok v =>
          exact (pSuffix_local v).loc e he x.2 rest (((NoEol.cons.1 hsk).2).suffix (strAux_suffix r 0 x hs))
    · have hn : ∀ r, skipWs l ≠ 34 :: r := fun r h => h1 ⟨r, h⟩
      rw [pObject_other l hn, pObject_other, pSubject_local.loc e he l rest hl]
      intro r h
      rw [hloc] at h
      rcases hk : skipWs l with _ | ⟨c, t⟩ <;> rw [hk] at h <;> simp at h
      · obtain ⟨rfl, -⟩ := h; simp [isEol] at he
      · obtain ⟨rfl, -⟩ := h; exact hn _ hk
  suf s x h := by
    by_cases h1 : ∃ r, skipWs s = 34 :: r
    · obtain ⟨r, hr⟩ := h1
      simp only [pObject, hr] at h
      cases hs : strAux 0 r with
      | none => rw [hs] at h; simp at h
      | some y =>
        rw [hs] at h; simp only at h
        cases hd : decodeLiteral y.1 with
        | error _ => rw [hd] at h; simp at h
        | ok v =>
          rw [hd] at h; simp only at h
          exact (((pSuffix_local v).suf _ _ h).trans ((strAux_suffix r 0 y hs).trans (List.suffix_cons 34 r))).trans (hr ▸ skipWs_suffix s)
    · rw [pObject_other s (fun r h => h1 ⟨r, h⟩)] at h
      exact pSubject_local.suf s x h

theorem pGraph_local (q : Bool) : Local (pGraph q) where
  loc e he l rest hl := by
    unfold pGraph
    split
    · rw [pIriRef_local.loc e he l rest hl]; simp only [Except.map_map']; rfl
    · rfl
  suf s x h := by
    unfold pGraph at h
    split at h
    · cases hp : pIriRef s with
      | error e => rw [hp] at h; simp [Except.map] at h
      | ok y => rw [hp] at h; cases h; exact pIriRef_local.suf s y hp
    · cases h; exact List.suffix_refl s

theorem pDot_local {e : Nat} (he : isEol e = true) (l rest : PStr) : pDot (l ++ e :: rest) = (pDot l).map fun x => x ++ e :: rest := by
  simp only [pDot, skipWs_local he]
  cases h : skipWs l with
  | nil => rcases isEol_iff.1 he with rfl | rfl <;> simp [Except.map]
  | cons c r => by_cases hc : c = 46
                · subst hc; simp [Except.map]
                · simp [hc, Except.map]

theorem pDot_suffix {s x : PStr} (h : pDot s = .ok x) : x <:+ s ∧ x.length < s.length := by
  simp only [pDot] at h
  split at h
  · next r hr =>
    cases h
    have := skipWs_suffix s
    rw [hr] at this
    exact ⟨(List.suffix_cons 46 _).trans this, by have := this.length_le; simp at this; omega⟩
  · simp at h

theorem pStmt_local (q : Bool) : Local (pStmt q) where
  loc e he l rest hl := by
    simp only [pStmt, pSubject_local.loc e he l rest hl]
    cases h1 : pSubject l with
    | error _ => rfl
    | ok x1 =>
      obtain ⟨a, r1⟩ := x1
      have hl1 : NoEol r1 := hl.suffix (pSubject_local.suf _ _ h1)
      simp only [Except.map, pIriRef_local.loc e he r1 rest hl1]
      cases h2 : pIriRef r1 with
      | error _ => rfl
      | ok x2 =>
        obtain ⟨b, r2⟩ := x2
        have hl2 : NoEol r2 := hl1.suffix (pIriRef_local.suf _ _ h2)
        simp only [Except.map, pObject_local.loc e he r2 rest hl2]
        cases h3 : pObject r2 with
        | error _ => rfl
        | ok x3 =>
          obtain ⟨c, r3⟩ := x3
          have hl3 : NoEol r3 := hl2.suffix (pObject_local.suf _ _ h3)
          simp only [Except.map, (pGraph_local q).loc e he r3 rest hl3]
          cases h4 : pGraph q r3 with
          | error _ => rfl
          | ok x4 =>
            obtain ⟨d, r4⟩ := x4
            simp only [Except.map, pDot_local he r4 rest]
            cases pDot r4 <;> rfl
  suf s x h := by
    simp only [pStmt] at h
    cases h1 : pSubject s with
    | error _ => rw [h1] at h; simp at h
    | ok x1 =>
      rw [h1] at h; simp only at h
      cases h2 : pIriRef x1.2 with
      | error _ => rw [h2] at h; simp at h
      | ok x2 =>
        rw [h2] at h; simp only at h
        cases h3 : pObject x2.2 with
        | error _ => rw [h3] at h; simp at h
        | ok x3 =>
          rw [h3] at h; simp only at h
          cases h4 : pGraph q x3.2 with
          | error _ => rw [h4] at h; simp at h
          | ok x4 =>
            rw [h4] at h; simp only at h
            cases h5 : pDot x4.2 with
            | error _ => rw [h5] at h; simp [Except.map] at h
            | ok x5 =>
              rw [h5] at h; cases h
              exact (((((pDot_suffix h5).1.trans ((pGraph_local q).suf _ _ h4)).trans (pObject_local.suf _ _ h3)).trans
                (pIriRef_local.suf _ _ h2)).trans (pSubject_local.suf _ _ h1))

end Verif
