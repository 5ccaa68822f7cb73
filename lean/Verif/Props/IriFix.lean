import Verif.Props.Iri
import Verif.Lemmas.IriFix
/-
C24-C26 for all strings, stray percent signs included.
-/
namespace Verif

/-- Every escape of a byte above 0x20 that occurs in the string is that of a reserved character, with digits in upper case. -/
def Canonical (w : PStr) : Prop := ∀ x a b y i j, w = x ++ 37 :: a :: b :: y → hexVal? a = some i → hexVal? b = some j → 0x20 < 16 * i + j →
  16 * i + j ∈ py! "%:/?#[]@!$&'()*+,;=" ∧ a < 97 ∧ b < 97

theorem pctMatches_hex {a b : Nat} : pctMatches a b = true ↔ ∃ i j, hexVal? a = some i ∧ hexVal? b = some j ∧ 0x20 < 16 * i + j := by
  constructor
  · intro h
    obtain ⟨i, j, h1, h2, -, -, h3⟩ := pctMatches_vals h
    exact ⟨i, j, h1, h2, h3⟩
  · rintro ⟨i, j, h1, h2, h3⟩
    simp only [pctMatches, isHex, h1, h2, Option.isSome_some, Bool.and_eq_true, Bool.not_eq_true', decide_eq_false_iff_not, true_and]
    have hj := hexVal_lt h2
    unfold hexVal? at h1
    refine ⟨?_, ?_⟩
    · rintro (rfl | rfl)
      · cases h1; omega
      · cases h1; omega
    · rintro ⟨rfl, rfl⟩
      cases h1
      cases h2
      omega

theorem hexUpper_eq_iff {c v : Nat} (h : hexVal? c = some v) : c = hexUpper v ↔ c < 97 := by
  have e : hexUpper v = if v < 10 then 48 + v else 55 + v := rfl
  rw [e]
  unfold hexVal? at h
  split at h
  · cases h; split <;> omega
  · split at h
    · cases h; split <;> omega
    · split at h
      · cases h; split <;> omega
      · cases h

theorem headOk_iff {a b i j : Nat} (s : PStr) (ha : hexVal? a = some i) (hb : hexVal? b = some j) :
    headOk (37 :: a :: b :: s) = true ↔ (0x20 < 16 * i + j → 16 * i + j ∈ py! "%:/?#[]@!$&'()*+,;=" ∧ a < 97 ∧ b < 97) := by
  have hi := hexVal_lt ha
  have hj := hexVal_lt hb
  have e1 : (16 * i + j) / 16 % 16 = i := by omega
  have e2 : (16 * i + j) % 16 = j := by omega
  have hm : pctMatches a b = true ↔ 0x20 < 16 * i + j := by
    rw [pctMatches_hex]
    constructor
    · rintro ⟨i', j', h1, h2, h3⟩
      rw [ha] at h1; rw [hb] at h2; cases h1; cases h2; exact h3
    · exact fun h => ⟨i, j, ha, hb, h⟩
  have hr : reservedInIri.contains (16 * i + j) = true ↔ 16 * i + j ∈ py! "%:/?#[]@!$&'()*+,;=" := List.contains_iff_mem
  rw [headOk, parseHex_two ha hb, Bool.or_eq_true, Bool.and_eq_true, decide_eq_true_eq, Bool.not_eq_true', hr, fmt02X, e1, e2]
  simp only [List.cons.injEq, and_true, hexUpper_eq_iff ha, hexUpper_eq_iff hb, ← hm]
  cases pctMatches a b <;> simp

theorem settled_iff (w : PStr) : settled w = true ↔ Canonical w := by
  induction w with
  | nil => simp [settled, Canonical]
  | cons c s ih =>
    rw [settled, Bool.and_eq_true, ih]
    constructor
    · rintro ⟨h1, h2⟩ x a b y i j e ha hb hlt
      cases x with
      | nil =>
        simp only [List.nil_append, List.cons.injEq] at e
        obtain ⟨rfl, rfl⟩ := e
        exact (headOk_iff y ha hb).1 h1 hlt
      | cons d x =>
        simp only [List.cons_append, List.cons.injEq] at e
        exact h2 x a b y i j e.2 ha hb hlt
    · intro h
      refine ⟨?_, fun x a b y i j e => h (c :: x) a b y i j (by rw [e]; rfl)⟩
      by_cases hc : ∃ a b t, c :: s = 37 :: a :: b :: t ∧ pctMatches a b = true
      · obtain ⟨a, b, t, e, hm⟩ := hc
        obtain ⟨i, j, h1, h2, h3⟩ := pctMatches_hex.1 hm
        rw [e, headOk_iff t h1 h2]
        exact h [] a b t i j e h1 h2
      · refine headOk_stray ?_
        unfold pctRun
        split
        · next a b t e =>
          split
          · next hm => exact absurd ⟨a, b, t, e, hm⟩ hc
          · rfl
        · rfl

/-! ### C25 -/

/-- Exactly: normalization leaves a string as it is iff the only escapes in it that stand for a byte above 0x20 are those of reserved characters in upper case. -/
theorem C25_fixed_iff (w : PStr) : normalizeIri w = .ok w ↔ Canonical w := (normalize_fixed_iff w).trans (settled_iff w)

/-- Normalization never makes a string longer; if it keeps the length, a second one changes nothing. -/
theorem C25_shorter {u w : PStr} (h : normalizeIri u = .ok w) : w.length ≤ u.length ∧ (w.length = u.length → normalizeIri w = .ok w) :=
  ⟨(normalize_length h).1, fun e => normalize_settled ((normalize_length h).2 e).1⟩

/-- Normalizing `k` times. -/
def normalizeTimes : Nat → PStr → Except Exc PStr
  | 0, u => .ok u
  | k + 1, u =>
    match normalizeIri u with
    | .ok w => normalizeTimes k w
    | .error e => .error e

/-- Repeated normalization comes to rest: after at most as many steps as the string has characters it raises or gives a string that it leaves as it is. -/
theorem C25_settles (u : PStr) : ∃ k ≤ u.length, (∃ e, normalizeTimes k u = .error e) ∨ ∃ w, normalizeTimes k u = .ok w ∧ normalizeIri w = .ok w := by
  induction hn : u.length using Nat.strongRecOn generalizing u with
  | _ n ih =>
    subst hn
    cases u with
    | nil => exact ⟨0, Nat.le_refl _, Or.inr ⟨[], rfl, rfl⟩⟩
    | cons c s =>
      cases h : normalizeIri (c :: s) with
      | error e => exact ⟨1, by simp, Or.inl ⟨e, by simp only [normalizeTimes, h]⟩⟩
      | ok w =>
        obtain ⟨h1, h2⟩ := C25_shorter h
        by_cases he : w.length = (c :: s).length
        · exact ⟨1, by simp, Or.inr ⟨w, by simp only [normalizeTimes, h], h2 he⟩⟩
        · obtain ⟨k, hk, hr⟩ := ih w.length (by omega) w rfl
          refine ⟨k + 1, by omega, ?_⟩
          simp only [normalizeTimes, h]
          exact hr

/-- Two steps are needed for `%%34%31`: `%41`, then `A`. -/
example : normalizeTimes 2 (py! "%%34%31") = .ok (py! "A") ∧ ¬ Canonical (py! "%41") := by
  refine ⟨by decide, fun h => ?_⟩
  have := h [] 52 49 [] 4 1 rfl rfl rfl (by omega)
  revert this; decide

example : Canonical (py! "100%/%2F%20%zz%0a") := (C25_fixed_iff _).1 (by decide)

/-! ### C26 -/

/-- Exactly: for a normalized IRI, quoting is undone by normalizing iff it has no white space and no control characters. -/
theorem C26_exact (n : PStr) (hn : normalizeIri n = .ok n) (hs : ∀ c ∈ n, scalarValue c) :
    ∃ q, quoteNormalizedIri n = .ok q ∧ (normalizeIri q = .ok n ↔ ∀ c ∈ n, 0x20 < c) := by
  refine ⟨_, quote_eq n hs, fun h => normalize_visible h ?_, fun h => ?_⟩
  · intro c hc
    obtain ⟨x, hx, hc⟩ := List.mem_flatMap.1 hc
    exact (quoteKeeps_lt (quote1_keeps x (hs x hx) c hc)).1
  · exact normalize_quote_settled ((normalize_fixed_iff n).1 hn) fun c hc => ⟨h c hc, hs c hc⟩

/-- A normalized IRI with stray percent signs. -/
example : normalizeIri (py! "100%é%2F") = .ok (py! "100%é%2F") ∧ quoteNormalizedIri (py! "100%é%2F") = .ok (py! "100%%C3%A9%2F") ∧
    normalizeIri (py! "100%%C3%A9%2F") = .ok (py! "100%é%2F") := by decide

/-! ### C24 -/

/-- On normalized IRIs without white space and control characters `toNT` is injective. -/
theorem C24_injective_normalized (n n' : PStr) (h : ∀ c ∈ n, 0x20 < c ∧ scalarValue c) (h' : ∀ c ∈ n', 0x20 < c ∧ scalarValue c)
    (hn : normalizeIri n = .ok n) (hn' : normalizeIri n' = .ok n') (e : iriToNT n = iriToNT n') : n = n' := by
  rw [C24_written_alike_iff n n' (fun c hc => (h c hc).2) (fun c hc => (h' c hc).2)] at e
  obtain ⟨q, h1, h2⟩ := C26_exact n hn fun c hc => (h c hc).2
  obtain ⟨q', h1', h2'⟩ := C26_exact n' hn' fun c hc => (h' c hc).2
  rw [h1, h1'] at e
  cases e
  have a := h2.2 fun c hc => (h c hc).1
  rw [h2'.2 fun c hc => (h' c hc).1] at a
  exact (Except.ok.inj a).symm

end Verif
