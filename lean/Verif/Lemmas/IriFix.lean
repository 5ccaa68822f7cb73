import Verif.Lemmas.IriQuote
/-
Normalization of arbitrary strings (stray percent signs included): it never makes a string longer, its fixed points, and what it does to a quoted fixed point.
-/
namespace Verif

/-! ### Settled strings -/

/-- At the start of the string there is no escape that normalization would change. -/
def headOk : PStr → Bool
  | 37 :: a :: b :: _ => !pctMatches a b || (reservedInIri.contains (parseHex [a, b]) && decide ([a, b] = fmt02X (parseHex [a, b])))
  | _ => true

/-- Nowhere in the string is there an escape that normalization would change. -/
def settled : PStr → Bool
  | [] => true
  | c :: s => headOk (c :: s) && settled s

theorem headOk_ch {c : Nat} (h : c ≠ 37) (s : PStr) : headOk (c :: s) = true := by
  unfold headOk; split
  · next e => simp at e; omega
  · rfl

theorem settled_ch {c : Nat} (h : c ≠ 37) (s : PStr) : settled (c :: s) = settled s := by
  rw [settled, headOk_ch h, Bool.true_and]

theorem headOk_stray {c : Nat} {s : PStr} (h : pctRun (c :: s) = []) : headOk (c :: s) = true := by
  unfold headOk
  split
  · next a b r e =>
    rw [e, pctRun] at h
    split at h
    · cases h
    · next hm => simp [hm]
  · rfl

/-- The maximal run of matching escapes at the start. -/
theorem split_run : ∀ u : PStr, ∃ es rest, u = escs es ++ rest ∧ (∀ e ∈ es, pctMatches e.1 e.2 = true) ∧ pctRun rest = [] := by
  intro u
  induction hn : u.length using Nat.strongRecOn generalizing u with
  | _ n ih =>
    by_cases h : ∃ a b s, u = 37 :: a :: b :: s ∧ pctMatches a b = true
    · obtain ⟨a, b, s, rfl, hm⟩ := h
      obtain ⟨es, rest, e, h1, h2⟩ := ih s.length (by simp at hn; omega) s rfl
      refine ⟨(a, b) :: es, rest, by rw [e]; rfl, ?_, h2⟩
      intro e' he'
      rcases List.mem_cons.1 he' with rfl | he'
      · exact hm
      · exact h1 e' he'
    · refine ⟨[], u, rfl, by simp, ?_⟩
      unfold pctRun
      split
      · next a b s =>
        split
        · next hm => exact absurd ⟨a, b, s, rfl, hm⟩ h
        · rfl
      · rfl

/-! ### Length of a decoded run -/

theorem utf8Step_cases {b : Nat} {bs : List Nat} {c n : Nat} (h : utf8Step (b :: bs) = some (c, n)) : (c = b ∧ n = 1 ∧ b < 128) ∨ 128 ≤ c := by
  unfold utf8Step at h
  dsimp only at h
  split at h
  · cases h; exact Or.inl ⟨rfl, rfl, by omega⟩
  · right
    split at h
    · next hb =>
      split at h
      · split at h
        · simp only [Option.some.injEq, Prod.mk.injEq] at h; omega
        · cases h
      · cases h
    · split at h
      · split at h
        · split at h
          · next hc => simp only [Option.some.injEq, Prod.mk.injEq] at h; simp at hc; omega
          · cases h
        · cases h
      · split at h
        · split at h
          · split at h
            · next hc => simp only [Option.some.injEq, Prod.mk.injEq] at h; simp at hc; omega
            · cases h
          · cases h
        · cases h

theorem reEnc_length (c : Nat) : (reEnc c).length = if reservedInIri.contains c then 3 else 1 := by
  unfold reEnc; split <;> rfl

theorem decode_length (bs : List Nat) : ∀ (k : Nat) (u : PStr), utf8DecodeAux k bs = some u →
    (u.flatMap reEnc).length ≤ 3 * bs.length ∧ ((u.flatMap reEnc).length = 3 * bs.length → u = bs ∧ ∀ b ∈ bs, reservedInIri.contains b = true) := by
  induction bs with
  | nil => intro k u h; cases k <;> (cases h; simp)
  | cons b bs ih =>
    intro k u h
    cases k with
    | succ k =>
      have := (ih k u h).1
      rw [List.length_cons]
      exact ⟨by omega, fun e => by omega⟩
    | zero =>
      rw [utf8DecodeAux] at h
      cases hs : utf8Step (b :: bs) with
      | none => rw [hs] at h; cases h
      | some x =>
        obtain ⟨c, n⟩ := x
        rw [hs] at h
        obtain ⟨u', hu', rfl⟩ := Option.map_eq_some_iff.1 h
        obtain ⟨h1, h2⟩ := ih _ _ hu'
        rw [List.flatMap_cons, List.length_append, List.length_cons, reEnc_length]
        cases hr : reservedInIri.contains c with
        | false => simp only [Bool.false_eq_true, if_false]; exact ⟨by omega, fun e => by omega⟩
        | true =>
          simp only [if_true]
          refine ⟨by omega, fun e => ?_⟩
          obtain ⟨rfl, h4⟩ := h2 (by omega)
          rcases utf8Step_cases hs with ⟨rfl, -, -⟩ | hc
          · refine ⟨rfl, fun x hx => ?_⟩
            rcases List.mem_cons.1 hx with rfl | hx
            · exact hr
            · exact h4 x hx
          · have := reserved_range hr; omega

theorem decode_visible (bs : List Nat) (hb : ∀ b ∈ bs, 0x20 < b) : ∀ (k : Nat) (u : PStr), utf8DecodeAux k bs = some u → ∀ c ∈ u, 0x20 < c := by
  induction bs with
  | nil => intro k u h; cases k <;> (cases h; simp)
  | cons b bs ih =>
    intro k u h
    have ih := ih fun x hx => hb x (List.mem_cons_of_mem _ hx)
    cases k with
    | succ k => exact ih k u h
    | zero =>
      rw [utf8DecodeAux] at h
      cases hs : utf8Step (b :: bs) with
      | none => rw [hs] at h; cases h
      | some x =>
        obtain ⟨c, n⟩ := x
        rw [hs] at h
        obtain ⟨u', hu', rfl⟩ := Option.map_eq_some_iff.1 h
        intro y hy
        rcases List.mem_cons.1 hy with rfl | hy
        · rcases utf8Step_cases hs with ⟨rfl, -, -⟩ | hc
          · exact hb _ List.mem_cons_self
          · omega
        · exact ih _ _ hu' y hy

/-! ### Escapes up to the case of their digits -/

/-- A hexadecimal digit in upper case. -/
def upHex (c : Nat) : Nat := if 97 ≤ c ∧ c ≤ 102 then c - 32 else c

theorem hexVal_upHex (c : Nat) : hexVal? (upHex c) = hexVal? c := by
  unfold upHex
  split
  · next h =>
    unfold hexVal?
    rw [if_neg (by omega), if_pos (by omega), if_neg (by omega), if_neg (by omega), if_pos h]
    congr 1
  · rfl

theorem pctMatches_upHex (a b : Nat) : pctMatches (upHex a) (upHex b) = pctMatches a b := by
  have d : ∀ c k, k < 65 → (upHex c = k ↔ c = k) := by
    intro c k hk; unfold upHex; split <;> omega
  unfold pctMatches isHex
  simp only [hexVal_upHex, d _ 48 (by omega), d _ 49 (by omega), d _ 50 (by omega)]

theorem pctMatches_congr {a b a' b' : Nat} (ha : upHex a' = upHex a) (hb : upHex b' = upHex b) : pctMatches a' b' = pctMatches a b := by
  rw [← pctMatches_upHex a' b', ha, hb, pctMatches_upHex]

theorem hexUpper_of_val {c v : Nat} (h : hexVal? c = some v) : upHex (hexUpper v) = upHex c := by
  have e : ∀ v, hexUpper v = if v < 10 then 48 + v else 55 + v := fun _ => rfl
  unfold hexVal? at h
  rw [e]
  unfold upHex
  split at h
  · cases h
    rw [if_pos (show c - 48 < 10 by omega), if_neg (by omega), if_neg (by omega)]; omega
  · split at h
    · cases h
      rw [if_neg (show ¬ c - 55 < 10 by omega), if_neg (by omega), if_neg (by omega)]; omega
    · split at h
      · next h3 => cases h; rw [if_neg (show ¬ c - 87 < 10 by omega), if_neg (by omega), if_pos h3]; omega
      · cases h

theorem parseHex_two {a b i j : Nat} (ha : hexVal? a = some i) (hb : hexVal? b = some j) : parseHex [a, b] = 16 * i + j := by
  simp only [parseHex, List.foldl_cons, List.foldl_nil, ha, hb, Option.getD_some]
  omega

theorem pctMatches_vals {a b : Nat} (h : pctMatches a b = true) : ∃ i j, hexVal? a = some i ∧ hexVal? b = some j ∧ i < 16 ∧ j < 16 ∧ 0x20 < 16 * i + j := by
  simp only [pctMatches, isHex, Bool.and_eq_true, Option.isSome_iff_exists, Bool.not_eq_true', decide_eq_false_iff_not] at h
  obtain ⟨⟨⟨⟨i, hi⟩, ⟨j, hj⟩⟩, h1⟩, h2⟩ := h
  refine ⟨i, j, hi, hj, hexVal_lt hi, hexVal_lt hj, ?_⟩
  unfold hexVal? at hi hj
  split at hi
  · cases hi
    split at hj
    · cases hj; omega
    · split at hj
      · cases hj; omega
      · split at hj
        · cases hj; omega
        · cases hj
  · split at hi
    · cases hi; omega
    · split at hi
      · cases hi; omega
      · cases hi

theorem upHex_pctByte {a b : Nat} (h : pctMatches a b = true) : (pctByte (parseHex [a, b])).map upHex = ([37, a, b] : PStr).map upHex := by
  obtain ⟨i, j, hi, hj, h1, h2, -⟩ := pctMatches_vals h
  rw [parseHex_two hi hj]
  have e1 : (16 * i + j) / 16 % 16 = i := by omega
  have e2 : (16 * i + j) % 16 = j := by omega
  simp only [pctByte, fmt02X, e1, e2, List.map_cons, List.map_nil, hexUpper_of_val hi, hexUpper_of_val hj]

theorem settled_pctByte {r : Nat} (hr : reservedInIri.contains r = true) (s : PStr) : settled (pctByte r ++ s) = settled s := by
  have hlt := reserved_range hr
  show settled (37 :: hexUpper (r / 16 % 16) :: hexUpper (r % 16) :: s) = _
  have e : parseHex [hexUpper (r / 16 % 16), hexUpper (r % 16)] = r := parseHex_fmt02X (by omega)
  have hm := pctMatches_byte hlt.1 (show r < 256 by omega)
  rw [settled, headOk, e, hr, settled_ch (isHex_ne_37 (isHex_hexUpper (Nat.mod_lt _ (by omega)))),
    settled_ch (isHex_ne_37 (isHex_hexUpper (Nat.mod_lt _ (by omega))))]
  simp [fmt02X]

/-! ### Normalization and length -/

theorem normalize_length {u w : PStr} (h : normalizeIri u = .ok w) :
    w.length ≤ u.length ∧ (w.length = u.length → settled w = true ∧ w.map upHex = u.map upHex) := by
  induction hn : u.length using Nat.strongRecOn generalizing u w with
  | _ n ih =>
    subst hn
    obtain ⟨es, rest, rfl, he, hrun⟩ := split_run u
    rw [normalize_run es he rest hrun] at h
    cases hv : percentDecode (escBytes es) with
    | error e => rw [hv] at h; cases h
    | ok v =>
      rw [hv] at h
      dsimp only at h
      cases hr : normalizeIri rest with
      | error e => rw [hr] at h; cases h
      | ok w' =>
        rw [hr] at h; cases h
        obtain ⟨x, hx, rfl⟩ := percentDecode_inv hv
        obtain ⟨d1, d2⟩ := decode_length (escBytes es) 0 x hx
        have hlen : (escBytes es).length = es.length := by simp [escBytes]
        rw [hlen] at d1 d2
        have hrest : w'.length ≤ rest.length ∧ (w'.length = rest.length → settled w' = true ∧ w'.map upHex = rest.map upHex) := by
          cases rest with
          | nil => cases hr; simp [settled]
          | cons c s =>
            rw [normalize_cons hrun] at hr
            cases hs : normalizeIri s with
            | error e => rw [hs] at hr; cases hr
            | ok w2 =>
              rw [hs] at hr; cases hr
              obtain ⟨i1, i2⟩ := ih s.length (by simp; omega) hs rfl
              refine ⟨by simpa using i1, fun e => ?_⟩
              obtain ⟨j1, j2⟩ := i2 (by simpa using e)
              refine ⟨?_, by simp only [List.map_cons, j2]⟩
              rw [settled, j1, Bool.and_true]
              refine headOk_stray ?_
              by_cases hc : c = 37
              · subst hc
                unfold pctRun
                split
                · next a b t e =>
                  simp only [List.cons.injEq, true_and] at e
                  subst e
                  split
                  · next hm =>
                    cases s with
                    | nil => simp at j2
                    | cons a' s =>
                      cases s with
                      | nil => simp at j2
                      | cons b' s =>
                        simp only [List.map_cons, List.cons.injEq] at j2
                        rw [pctMatches_congr j2.1 j2.2.1] at hm
                        rw [pctRun, if_pos hm] at hrun; cases hrun
                  · rfl
                · rfl
              · exact pctRun_ch hc _
        rw [List.length_append, List.length_append, escs_length]
        refine ⟨by omega, fun e => ?_⟩
        obtain ⟨rfl, k2⟩ := d2 (by omega)
        obtain ⟨k3, k4⟩ := hrest.2 (by omega)
        rw [List.map_append, List.map_append, k4]
        clear ih hrest hv hx d1 d2 hrun hr e hlen
        induction es with
        | nil => exact ⟨k3, rfl⟩
        | cons e es ih =>
          obtain ⟨i1, i2⟩ := ih (fun x hx => he x (List.mem_cons_of_mem _ hx)) (fun x hx => k2 x (List.mem_cons_of_mem _ hx))
          have hr : reservedInIri.contains (parseHex [e.1, e.2]) = true := k2 _ List.mem_cons_self
          have he1 : reEnc (parseHex [e.1, e.2]) = pctByte (parseHex [e.1, e.2]) := by unfold reEnc; rw [if_pos hr]
          have i2' : ((escBytes es).flatMap reEnc).map upHex = (escs es).map upHex := List.append_cancel_right i2
          have e1 : (escBytes (e :: es)).flatMap reEnc = pctByte (parseHex [e.1, e.2]) ++ (escBytes es).flatMap reEnc := by
            rw [← he1]; rfl
          have e2 : escs (e :: es) = [37, e.1, e.2] ++ escs es := rfl
          dsimp only at i1 ⊢
          rw [e1, e2, List.append_assoc, settled_pctByte hr]
          refine ⟨i1, ?_⟩
          rw [List.map_append, List.map_append, upHex_pctByte (he e List.mem_cons_self), i2']

/-! ### Fixed points and quoting -/

theorem flatMap_quote1_keeps : ∀ {l : PStr}, (∀ c ∈ l, quoteKeeps c = true) → l.flatMap quote1 = l
  | [], _ => rfl
  | c :: l, h => by rw [List.flatMap_cons, quote1_keep (h c (by simp)), flatMap_quote1_keeps fun y hy => h y (by simp [hy])]; rfl

theorem settled_split {n : PStr} (hn : settled n = true) (hv : ∀ c ∈ n, 0x20 < c ∧ scalarValue c) :
    ∃ (ts : List NTok) (rest : PStr), n = ts.flatMap NTok.render ++ rest ∧ (∀ t ∈ ts, t.Esc) ∧ n.flatMap quote1 = ts.flatMap NTok.quoted ++ rest.flatMap quote1 ∧
      settled rest = true ∧ pctRun rest = [] ∧ ∀ c s, rest = c :: s → quoteKeeps c = true := by
  induction hl : n.length using Nat.strongRecOn generalizing n with
  | _ k ih =>
    subst hl
    cases n with
    | nil => exact ⟨[], [], rfl, by simp, rfl, rfl, rfl, by simp⟩
    | cons c s =>
      by_cases hc : c = 37
      · subst hc
        by_cases h : ∃ a b t, s = a :: b :: t ∧ pctMatches a b = true
        · obtain ⟨a, b, t, rfl, hm⟩ := h
          rw [settled, headOk, hm] at hn
          simp only [Bool.not_true, Bool.false_or, Bool.and_eq_true, decide_eq_true_eq] at hn
          obtain ⟨⟨hr, hab⟩, hn⟩ := hn
          obtain ⟨i, j, hi, hj, -⟩ := pctMatches_vals hm
          have h1 : a ≠ 37 := by rintro rfl; cases hi
          have h2 : b ≠ 37 := by rintro rfl; cases hj
          rw [settled_ch h1, settled_ch h2] at hn
          obtain ⟨ts, rest, e1, e2, e3, e4, e5, e6⟩ := ih t.length (by simp; omega) hn (fun x hx => hv x (by simp [hx])) rfl
          have hp : 37 :: a :: b :: t = pctByte (parseHex [a, b]) ++ t := by rw [pctByte, ← hab]; rfl
          refine ⟨.res (parseHex [a, b]) :: ts, rest, ?_, ?_, ?_, e4, e5, e6⟩
          · rw [hp, List.flatMap_cons, List.append_assoc, ← e1]; rfl
          · intro x hx
            rcases List.mem_cons.1 hx with rfl | hx
            · exact hr
            · exact e2 x hx
          · rw [hp, List.flatMap_append, e3, List.flatMap_cons, List.append_assoc]
            congr 1
            show (pctByte (parseHex [a, b])).flatMap quote1 = pctByte (parseHex [a, b])
            exact flatMap_quote1_keeps (pctByte_keeps (parseHex [a, b]))
        · refine ⟨[], 37 :: s, rfl, by simp, rfl, hn, ?_, ?_⟩
          · unfold pctRun
            split
            · next a b t e =>
              simp only [List.cons.injEq, true_and] at e
              split
              · next hm => exact absurd ⟨a, b, t, e, hm⟩ h
              · rfl
            · rfl
          · intro c s' e; cases e; exact quoteKeeps_37
      · rw [settled_ch hc] at hn
        cases hk : quoteKeeps c with
        | true => exact ⟨[], c :: s, rfl, by simp, rfl, by rw [settled_ch hc]; exact hn, pctRun_ch hc s, fun c' s' e => by cases e; exact hk⟩
        | false =>
          obtain ⟨ts, rest, e1, e2, e3, e4, e5, e6⟩ := ih s.length (by simp) hn (fun x hx => hv x (by simp [hx])) rfl
          refine ⟨.ch c :: ts, rest, by rw [List.flatMap_cons, List.append_assoc, ← e1]; rfl, ?_, ?_, e4, e5, e6⟩
          · intro x hx
            rcases List.mem_cons.1 hx with rfl | hx
            · have := hv c (by simp); exact ⟨this.1, this.2, hk⟩
            · exact e2 x hx
          · rw [List.flatMap_cons, e3, List.flatMap_cons, List.append_assoc]; rfl

theorem quote_head {s : PStr} (hs : ∀ c ∈ s, scalarValue c) {a : Nat} {t : PStr} (e : s.flatMap quote1 = a :: t) (ha : a ≠ 37) :
    ∃ s', s = a :: s' ∧ s'.flatMap quote1 = t := by
  cases s with
  | nil => cases e
  | cons c s =>
    rw [List.flatMap_cons] at e
    cases hk : quoteKeeps c with
    | true =>
      rw [quote1_keep hk, List.singleton_append, List.cons.injEq] at e
      exact ⟨s, by rw [e.1], e.2⟩
    | false =>
      obtain ⟨b, hb, hq⟩ := quote1_esc hk (hs c (by simp))
      cases b with
      | nil =>
        have := (utf8Step_char hb []).2
        exact absurd rfl this
      | cons x b =>
        rw [hq, List.flatMap_cons] at e
        simp only [pctByte, List.cons_append, List.cons.injEq] at e
        exact absurd e.1.symm ha

theorem pctRun_quote {rest : PStr} (hs : ∀ c ∈ rest, scalarValue c) (h : pctRun rest = []) (hk : ∀ c s, rest = c :: s → quoteKeeps c = true) :
    pctRun (rest.flatMap quote1) = [] := by
  cases rest with
  | nil => rfl
  | cons c s =>
    rw [List.flatMap_cons, quote1_keep (hk c s rfl), List.singleton_append]
    by_cases hc : c = 37
    · subst hc
      unfold pctRun
      split
      · next a b t e =>
        simp only [List.cons.injEq, true_and] at e
        split
        · next hm =>
          obtain ⟨i, j, hi, hj, -⟩ := pctMatches_vals hm
          obtain ⟨s1, rfl, e1⟩ := quote_head (fun x hx => hs x (by simp [hx])) e (by rintro rfl; cases hi)
          obtain ⟨s2, rfl, e2⟩ := quote_head (fun x hx => hs x (by simp [hx])) e1 (by rintro rfl; cases hj)
          rw [pctRun, if_pos hm] at h; cases h
        · rfl
      · rfl
    · exact pctRun_ch hc _

theorem normalize_quote_settled {n : PStr} (hn : settled n = true) (hv : ∀ c ∈ n, 0x20 < c ∧ scalarValue c) : normalizeIri (n.flatMap quote1) = .ok n := by
  induction hl : n.length using Nat.strongRecOn generalizing n with
  | _ k ih =>
    subst hl
    obtain ⟨ts, rest, e1, e2, e3, e4, e5, e6⟩ := settled_split hn hv
    have hv' : ∀ c ∈ rest, 0x20 < c ∧ scalarValue c := fun c hc => hv c (by rw [e1]; simp [hc])
    have hrun := pctRun_quote (fun c hc => (hv' c hc).2) e5 e6
    rw [e3, normalize_toks ts e2 _ hrun]
    have : normalizeIri (rest.flatMap quote1) = .ok rest := by
      cases rest with
      | nil => rfl
      | cons c s =>
        rw [List.flatMap_cons, quote1_keep (e6 c s rfl), List.singleton_append] at hrun ⊢
        rw [normalize_cons hrun]
        rw [settled, Bool.and_eq_true] at e4
        have hlen : s.length < n.length := by rw [e1]; simp; omega
        rw [ih s.length hlen e4.2 (fun x hx => hv' x (by simp [hx])) rfl]; rfl
    rw [this, e1]; rfl

theorem settled_escs {rest : PStr} : ∀ {es : List (Nat × Nat)}, (∀ e ∈ es, pctMatches e.1 e.2 = true) → settled (escs es ++ rest) = true →
    settled rest = true ∧ (∀ x ∈ es, reservedInIri.contains (parseHex [x.1, x.2]) = true ∧ [x.1, x.2] = fmt02X (parseHex [x.1, x.2]))
  | [], _, hn => ⟨hn, by simp⟩
  | x :: es, he, hn => by
    have hm := he x (by simp)
    obtain ⟨i, j, hi, hj, -⟩ := pctMatches_vals hm
    have h1 : x.1 ≠ 37 := by intro e; rw [e] at hi; cases hi
    have h2 : x.2 ≠ 37 := by intro e; rw [e] at hj; cases hj
    have hn' : settled (37 :: x.1 :: x.2 :: (escs es ++ rest)) = true := hn
    rw [settled, headOk, hm, settled_ch h1, settled_ch h2] at hn'
    simp only [Bool.not_true, Bool.false_or, Bool.and_eq_true, decide_eq_true_eq] at hn'
    obtain ⟨a, b⟩ := settled_escs (fun y hy => he y (by simp [hy])) hn'.2
    refine ⟨a, fun y hy => ?_⟩
    rcases List.mem_cons.1 hy with rfl | hy
    · exact hn'.1
    · exact b y hy

/-- A settled string is a fixed point. -/
theorem normalize_settled {n : PStr} (hn : settled n = true) : normalizeIri n = .ok n := by
  induction hl : n.length using Nat.strongRecOn generalizing n with
  | _ k ih =>
    subst hl
    by_cases h : ∃ c s, n = c :: s ∧ pctRun (c :: s) = []
    · obtain ⟨c, s, rfl, h⟩ := h
      rw [settled, Bool.and_eq_true] at hn
      rw [normalize_cons h, ih s.length (by simp) hn.2 rfl]; rfl
    · obtain ⟨es, rest, e, he, hrun⟩ := split_run n
      have hes := settled_escs he (e ▸ hn)
      have hts : escs es = (es.map fun x => NTok.res (parseHex [x.1, x.2])).flatMap NTok.quoted ∧
          (es.map fun x => NTok.res (parseHex [x.1, x.2])).flatMap NTok.render = escs es := by
        have : ∀ x ∈ es, pctByte (parseHex [x.1, x.2]) = [37, x.1, x.2] := fun x hx => by rw [pctByte, ← (hes.2 x hx).2]
        simp only [List.flatMap_map, escs]
        exact ⟨flatMap_congr' fun x hx => (this x hx).symm, flatMap_congr' fun x hx => this x hx⟩
      have hE : ∀ t ∈ es.map fun x => NTok.res (parseHex [x.1, x.2]), t.Esc := by
        intro t ht
        obtain ⟨x, hx, rfl⟩ := List.mem_map.1 ht
        exact (hes.2 x hx).1
      have hrest : normalizeIri rest = .ok rest := by
        cases es with
        | nil =>
          rw [show n = rest from e] at h
          cases rest with
          | nil => rfl
          | cons c s => exact absurd ⟨c, s, rfl, hrun⟩ h
        | cons x es => exact ih rest.length (by rw [e, List.length_append, escs_length]; simp) hes.1 rfl
      rw [e]
      rw [show normalizeIri (escs es ++ rest) = normalizeIri (_ ++ rest) from congrArg (fun x => normalizeIri (x ++ rest)) hts.1, normalize_toks _ hE _ hrun, hrest, hts.2]; rfl

theorem normalize_fixed_iff (n : PStr) : normalizeIri n = .ok n ↔ settled n = true :=
  ⟨fun h => ((normalize_length h).2 rfl).1, normalize_settled⟩

/-- Normalization brings in no white space or control characters. -/
theorem normalize_visible {q w : PStr} (h : normalizeIri q = .ok w) (hq : ∀ c ∈ q, 0x20 < c) : ∀ c ∈ w, 0x20 < c := by
  induction hn : q.length using Nat.strongRecOn generalizing q w with
  | _ n ih =>
    subst hn
    obtain ⟨es, rest, rfl, he, hrun⟩ := split_run q
    rw [normalize_run es he rest hrun] at h
    cases hv : percentDecode (escBytes es) with
    | error e => rw [hv] at h; cases h
    | ok v =>
      rw [hv] at h
      dsimp only at h
      cases hr : normalizeIri rest with
      | error e => rw [hr] at h; cases h
      | ok w' =>
        rw [hr] at h; cases h
        obtain ⟨x, hx, rfl⟩ := percentDecode_inv hv
        have hb : ∀ b ∈ escBytes es, 0x20 < b := by
          intro b hb
          obtain ⟨y, hy, rfl⟩ := List.mem_map.1 hb
          obtain ⟨i, j, hi, hj, -, -, hlt⟩ := pctMatches_vals (he y hy)
          rw [parseHex_two hi hj]; exact hlt
        intro c hc
        rcases List.mem_append.1 hc with hc | hc
        · obtain ⟨y, hy, hc⟩ := List.mem_flatMap.1 hc
          unfold reEnc at hc
          split at hc
          · exact (quoteKeeps_lt (pctByte_keeps y c hc)).1
          · rw [List.mem_singleton] at hc; subst hc
            exact decode_visible _ hb 0 x hx _ hy
        · cases rest with
          | nil => cases hr; cases hc
          | cons d s =>
            rw [normalize_cons hrun] at hr
            cases hs : normalizeIri s with
            | error e => rw [hs] at hr; cases hr
            | ok w2 =>
              rw [hs] at hr; cases hr
              rcases List.mem_cons.1 hc with rfl | hc
              · exact hq _ (by simp)
              · exact ih s.length (by simp; omega) hs (fun x hx => hq x (by simp [hx])) rfl c hc

end Verif
