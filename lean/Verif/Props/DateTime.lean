import Verif.Props.Curie
import Verif.Spec.DateTime

/-! C128: literals made from `datetime` values. -/

namespace Verif
open Spec

theorem pad_length : ∀ (k n : Nat), (pad k n).length = k
  | 0, _ => rfl
  | k + 1, n => by simp [pad, pad_length k]

theorem pad_digits : ∀ (k n : Nat), Digits (pad k n)
  | 0, _ => by intro c hc; cases hc
  | k + 1, n => by
    intro c hc
    rcases List.mem_append.1 hc with h | h
    · exact pad_digits k _ c h
    · have := List.mem_singleton.1 h; omega

theorem numOf_snoc (s : PStr) (c : Nat) : numOf (s ++ [c]) = numOf s * 10 + (c - 48) := by
  simp [numOf, List.foldl_append]

theorem numOf_pad : ∀ (k n : Nat), n < 10 ^ k → numOf (pad k n) = n
  | 0, n, h => by simp at h; subst h; rfl
  | k + 1, n, h => by
    have : n / 10 < 10 ^ k := by rw [Nat.div_lt_iff_lt_mul (by decide)]; rw [Nat.pow_succ] at h; exact h
    rw [pad, numOf_snoc, numOf_pad k _ this]
    omega

theorem pad_inj {k n m : Nat} (hn : n < 10 ^ k) (hm : m < 10 ^ k) (h : pad k n = pad k m) : n = m := by
  rw [← numOf_pad k n hn, h, numOf_pad k m hm]

theorem two_pad {n : Nat} (h : n < 100) : TwoDigits (pad 2 n) n := ⟨pad_length _ _, pad_digits _ _, numOf_pad 2 n h⟩

theorem digits_ne {s : PStr} (h : Digits s) {c : Nat} (hc : c < 48 ∨ 57 < c) : c ∉ s := by
  intro hm; have := h c hm; omega

theorem count_digits {s : PStr} (h : Digits s) {c : Nat} (hc : c < 48 ∨ 57 < c) : s.count c = 0 :=
  List.count_eq_zero.2 (digits_ne h hc)

/-- The parts of the text: the first 19 characters, the fraction and the offset. -/
def stamp (d : DateTime) : PStr :=
  pad 4 d.year ++ [45] ++ pad 2 d.month ++ [45] ++ pad 2 d.day ++ [84] ++ pad 2 d.hour ++ [58] ++ pad 2 d.minute ++ [58] ++ pad 2 d.second

def fraction (us : Nat) : PStr := if us = 0 then [] else [46] ++ pad 6 us

theorem isoformat_eq (d : DateTime) : d.isoformat = stamp d ++ fraction d.micro ++ isoOffset d.offset := rfl

theorem daysIn_le (y m : Nat) : daysIn y m ≤ 31 := by
  unfold daysIn; repeat' split
  all_goals omega

theorem stamp_length (d : DateTime) : (stamp d).length = 19 := by simp [stamp, pad_length]

theorem stamp_inj {a b : DateTime} (ha : ValidDate a) (hb : ValidDate b) (h : stamp a = stamp b) :
    a.year = b.year ∧ a.month = b.month ∧ a.day = b.day ∧ a.hour = b.hour ∧ a.minute = b.minute ∧ a.second = b.second := by
  unfold stamp at h
  have da := Nat.le_trans ha.day.2 (daysIn_le _ _)
  have db := Nat.le_trans hb.day.2 (daysIn_le _ _)
  have := ha.year; have := hb.year; have := ha.month; have := hb.month; have := ha.hour; have := hb.hour
  have := ha.minute; have := hb.minute; have := ha.second; have := hb.second
  obtain ⟨h, e6⟩ := List.append_inj' h (by simp [pad_length])
  obtain ⟨h, -⟩ := List.append_inj' h rfl
  obtain ⟨h, e5⟩ := List.append_inj' h (by simp [pad_length])
  obtain ⟨h, -⟩ := List.append_inj' h rfl
  obtain ⟨h, e4⟩ := List.append_inj' h (by simp [pad_length])
  obtain ⟨h, -⟩ := List.append_inj' h rfl
  obtain ⟨h, e3⟩ := List.append_inj' h (by simp [pad_length])
  obtain ⟨h, -⟩ := List.append_inj' h rfl
  obtain ⟨h, e2⟩ := List.append_inj' h (by simp [pad_length])
  obtain ⟨e1, -⟩ := List.append_inj' h rfl
  exact ⟨pad_inj (by omega) (by omega) e1, pad_inj (by omega) (by omega) e2, pad_inj (by omega) (by omega) e3, pad_inj (by omega) (by omega) e4,
    pad_inj (by omega) (by omega) e5, pad_inj (by omega) (by omega) e6⟩

theorem isoOffset_head (x : Option Int) : (isoOffset x).head? ≠ some 46 := by
  cases x with
  | none => simp [isoOffset]
  | some off => simp only [isoOffset]; split <;> simp

theorem isoOffset_inj {x y : Option Int} (hx : ∀ off, x = some off → -86400000000 < off ∧ off < 86400000000)
    (hy : ∀ off, y = some off → -86400000000 < off ∧ off < 86400000000) (h : isoOffset x = isoOffset y) : x = y := by
  have hd : ∀ off : Int, ∃ c r, isoOffset (some off) = c :: r := by
    intro off; simp only [isoOffset]; split <;> exact ⟨_, _, rfl⟩
  cases x with
  | none =>
    cases y with
    | none => rfl
    | some b => obtain ⟨c, r, e⟩ := hd b; rw [e] at h; cases h
  | some a =>
    cases y with
    | none => obtain ⟨c, r, e⟩ := hd a; rw [e] at h; cases h
    | some b =>
      have ha := hx a rfl
      have hb := hy b rfl
      simp only [isoOffset, List.append_assoc] at h
      obtain ⟨h0, h⟩ := List.append_inj h (by split <;> split <;> rfl)
      obtain ⟨h1, h⟩ := List.append_inj h (by simp [pad_length])
      obtain ⟨-, h⟩ := List.append_inj h rfl
      obtain ⟨h2, h⟩ := List.append_inj h (by simp [pad_length])
      have e1 := pad_inj (k := 2) (by omega) (by omega) h1
      have e2 := pad_inj (k := 2) (by omega) (by omega) h2
      have e0 : (a < 0) ↔ (b < 0) := by
        by_cases h1 : a < 0 <;> by_cases h2 : b < 0 <;> simp [h1, h2] at h0 ⊢
      have e3 : a.natAbs % 60000000 = b.natAbs % 60000000 := by
        by_cases ua : a.natAbs % 60000000 = 0 <;> by_cases ub : b.natAbs % 60000000 = 0
        · rw [ua, ub]
        · rw [if_pos ua, if_neg ub] at h; cases h
        · rw [if_neg ua, if_pos ub] at h; cases h
        · rw [if_neg ua, if_neg ub] at h
          obtain ⟨-, h⟩ := List.append_inj h rfl
          obtain ⟨h3, h⟩ := List.append_inj h (by simp [pad_length])
          have e3 := pad_inj (k := 2) (by omega) (by omega) h3
          have e4 : a.natAbs % 60000000 % 1000000 = b.natAbs % 60000000 % 1000000 := by
            by_cases va : a.natAbs % 60000000 % 1000000 = 0 <;> by_cases vb : b.natAbs % 60000000 % 1000000 = 0
            · rw [va, vb]
            · rw [if_pos va, if_neg vb] at h; cases h
            · rw [if_neg va, if_pos vb] at h; cases h
            · rw [if_neg va, if_neg vb] at h
              obtain ⟨-, h⟩ := List.append_inj h rfl
              exact pad_inj (k := 6) (by omega) (by omega) h
          omega
      congr 1
      omega

/-- C128. Different datetimes give different literals: the text determines every field. -/
theorem C128_injective {a b : DateTime} (ha : ValidDate a) (hb : ValidDate b) (h : mkLiteral (.datetime a) = mkLiteral (.datetime b)) : a = b := by
  have h : a.isoformat = b.isoformat := by
    simp only [mkLiteral, Except.ok.injEq, Term.lit.injEq, and_true] at h; exact h
  rw [isoformat_eq, isoformat_eq, List.append_assoc, List.append_assoc] at h
  obtain ⟨h1, h⟩ := List.append_inj h (by rw [stamp_length, stamp_length])
  obtain ⟨e1, e2, e3, e4, e5, e6⟩ := stamp_inj ha hb h1
  have := ha.micro; have := hb.micro
  have key : a.micro = b.micro ∧ isoOffset a.offset = isoOffset b.offset := by
    unfold fraction at h
    by_cases ua : a.micro = 0 <;> by_cases ub : b.micro = 0
    · rw [if_pos ua, if_pos ub] at h; exact ⟨by rw [ua, ub], h⟩
    · rw [if_pos ua, if_neg ub] at h
      exfalso; apply isoOffset_head a.offset; rw [show isoOffset a.offset = _ from h]; rfl
    · rw [if_neg ua, if_pos ub] at h
      exfalso; apply isoOffset_head b.offset; rw [show isoOffset b.offset = _ from h.symm]; rfl
    · rw [if_neg ua, if_neg ub] at h
      obtain ⟨h2, h⟩ := List.append_inj h (by simp [pad_length])
      obtain ⟨-, h2⟩ := List.append_inj h2 rfl
      exact ⟨pad_inj (k := 6) (by omega) (by omega) h2, h⟩
  have e8 := isoOffset_inj ha.offset hb.offset key.2
  cases a; cases b; simp_all

/-- The claim: the text is a lexical form of xsd:dateTime, with the fields of the value. -/
def C128_statement : Prop :=
  ∀ d : DateTime, ValidDate d → ∃ text, mkLiteral (.datetime d) = .ok (.lit text none (some (py! "http://www.w3.org/2001/XMLSchema#dateTime"))) ∧
    ∃ zone, XsdDateTime text d.year d.month d.day d.hour d.minute d.second (some d.micro) zone ∧
      d.offset = zone.map (· * 60000000)

/-- The offsets that xsd:dateTime knows: whole minutes, up to fourteen hours. -/
def XsdOffset (x : Option Int) : Prop := ∀ off, x = some off → off % 60000000 = 0 ∧ -50400000000 ≤ off ∧ off ≤ 50400000000

theorem zone_ok {x : Option Int} (h : XsdOffset x) : ∃ zone, XsdZone (isoOffset x) zone ∧ x = zone.map (· * 60000000) := by
  cases x with
  | none => exact ⟨none, .none, rfl⟩
  | some off =>
    obtain ⟨h1, h2, h3⟩ := h off rfl
    have hu : off.natAbs % 60000000 = 0 := by omega
    have hm : off.natAbs / 60000000 % 60 < 100 := by omega
    have hh : off.natAbs / 3600000000 < 100 := by omega
    simp only [isoOffset, hu, if_true, List.append_nil]
    have hc : off.natAbs / 3600000000 ≤ 13 ∨ off.natAbs / 3600000000 = 14 ∧ off.natAbs / 60000000 % 60 = 0 := by omega
    by_cases hn : off < 0
    · rw [if_pos hn]
      refine ⟨_, .minus (two_pad hh) (two_pad hm) (by omega) hc, ?_⟩
      simp only [Option.map_some, Option.some.injEq]; omega
    · rw [if_neg hn]
      refine ⟨_, .plus (two_pad hh) (two_pad hm) (by omega) hc, ?_⟩
      simp only [Option.map_some, Option.some.injEq]; omega

/-- It holds for naive values and for offsets of whole minutes up to fourteen hours. -/
theorem C128_legal_partial {d : DateTime} (hd : ValidDate d) (ho : XsdOffset d.offset) :
    ∃ text, mkLiteral (.datetime d) = .ok (.lit text none (some (py! "http://www.w3.org/2001/XMLSchema#dateTime"))) ∧
    ∃ zone, XsdDateTime text d.year d.month d.day d.hour d.minute d.second (some d.micro) zone ∧ d.offset = zone.map (· * 60000000) := by
  obtain ⟨zone, hz, he⟩ := zone_ok ho
  have dd := Nat.le_trans hd.day.2 (daysIn_le _ _)
  have := hd.year; have := hd.month; have := hd.hour; have := hd.minute; have := hd.second; have := hd.micro; have := hd.day
  refine ⟨d.isoformat, rfl, zone, ⟨pad 4 d.year, pad 2 d.month, pad 2 d.day, pad 2 d.hour, pad 2 d.minute, pad 2 d.second, fraction d.micro, isoOffset d.offset,
    rfl, ?_, two_pad (by omega), two_pad (by omega), two_pad (by omega), two_pad (by omega), two_pad (by omega), ?_, hz, by omega, by omega, by omega, ?_, by omega,
    by omega, by omega⟩, he⟩
  · have := XsdYear.pos (s := pad 4 d.year) (by rw [pad_length]; exact Nat.le_refl 4) (pad_digits _ _) (fun h => by rw [pad_length] at h; omega)
    rw [numOf_pad 4 _ (by omega)] at this; exact this
  · unfold fraction
    split
    · next h => rw [h]; exact .none
    · refine .some (fun h => ?_) (pad_digits _ _) ?_
      · have := pad_length 6 d.micro; rw [h] at this; cases this
      · rw [numOf_pad 6 _ (by omega), pad_length]
  · rw [Int.natAbs_natCast]; exact hd.day.2

theorem count_stamp (d : DateTime) : (stamp d).count 58 = 2 := by
  have := fun k n => count_digits (pad_digits k n) (c := 58) (Or.inr (by decide))
  simp [stamp, List.count_append, this]

theorem xsdOffset_of {off : Int} {h m : Nat} (hu : off.natAbs % 60000000 = 0) (h1 : off.natAbs / 3600000000 = h) (h2 : off.natAbs / 60000000 % 60 = m)
    (h3 : h ≤ 13 ∨ h = 14 ∧ m = 0) : off % 60000000 = 0 ∧ -50400000000 ≤ off ∧ off ≤ 50400000000 := by
  subst h1 h2
  omega

/-- Exactly then: with another offset the text is no lexical form of xsd:dateTime at all. -/
theorem C128_legal_exact {d : DateTime} (hd : ValidDate d) :
    (∃ y mo dd h mi s us zone, XsdDateTime d.isoformat y mo dd h mi s us zone) ↔ XsdOffset d.offset := by
  have dig := fun k n => count_digits (pad_digits k n) (c := 58) (Or.inr (by decide))
  constructor
  · rintro ⟨y, mo, dd, h, mi, s, us, zone, Y, M, D, H, N, S, F, Z, he, hY, hM, hD, hH, hN, hS, hF, hZ, -⟩ off hoff
    have ho := hd.offset off hoff
    have b1 : off.natAbs / 3600000000 < 10 ^ 2 := by omega
    have b2 : off.natAbs / 60000000 % 60 < 10 ^ 2 := by omega
    have c2 : ∀ {s n}, TwoDigits s n → s.count 58 = 0 := fun h => count_digits h.2.1 (Or.inr (by decide))
    have cY : Y.count 58 = 0 := by
      cases hY with
      | pos h1 h2 => exact count_digits h2 (Or.inr (by decide))
      | neg h1 h2 => simp [List.count_append, count_digits h2 (c := 58) (Or.inr (by decide))]
    have cF : F.count 58 = 0 := by
      cases hF with
      | none => rfl
      | some h1 h2 => simp [List.count_append, count_digits h2 (c := 58) (Or.inr (by decide))]
      | finer h1 h2 => simp [List.count_append, count_digits h2 (c := 58) (Or.inr (by decide))]
    have cf : (fraction d.micro).count 58 = 0 := by
      unfold fraction; split <;> simp [dig]
    have hcount : 2 + (isoOffset d.offset).count 58 = 2 + Z.count 58 := by
      have e := congrArg (List.count 58) he
      rw [isoformat_eq] at e
      simp only [List.count_append, count_stamp, cf, cY, cF, c2 hM, c2 hD, c2 hH, c2 hN, c2 hS] at e
      simpa using e
    rw [hoff] at hcount
    have hcz : Z.count 58 ≤ 1 ∧ (Z.count 58 = 1 → ∃ sg hh mm h m, Z = [sg] ++ hh ++ [58] ++ mm ∧ TwoDigits hh h ∧ TwoDigits mm m ∧ (h ≤ 13 ∨ h = 14 ∧ m = 0)) := by
      cases hZ with
      | none => simp
      | utc => simp
      | plus h1 h2 h3 h4 =>
        refine ⟨by simp [List.count_append, c2 h1, c2 h2], fun _ => ⟨_, _, _, _, _, rfl, h1, h2, h4⟩⟩
      | minus h1 h2 h3 h4 =>
        refine ⟨by simp [List.count_append, c2 h1, c2 h2], fun _ => ⟨_, _, _, _, _, rfl, h1, h2, h4⟩⟩
    have hsg : ∀ b : Prop, [Decidable b] → (if b then [45] else [43] : PStr).count 58 = 0 := by intro b _; split <;> rfl
    by_cases hu : off.natAbs % 60000000 = 0
    · have e1 : isoOffset (some off) = [if off < 0 then 45 else 43] ++ pad 2 (off.natAbs / 3600000000) ++ [58] ++ pad 2 (off.natAbs / 60000000 % 60) := by
        simp only [isoOffset, hu, if_true, List.append_nil]; split <;> rfl
      have : Z.count 58 = 1 := by
        rw [e1] at hcount
        simp only [List.count_append, dig] at hcount
        have : List.count 58 [if off < 0 then 45 else 43] = 0 := by split <;> rfl
        rw [this] at hcount
        simp at hcount; omega
      obtain ⟨sg, hh, mm, hv, mv, rfl, t1, t2, t3⟩ := hcz.2 this
      rw [isoformat_eq, hoff, e1, ← List.append_assoc, ← List.append_assoc] at he
      have hlast := List.append_inj' (s₁ := stamp d ++ fraction d.micro) (t₁ := [if off < 0 then 45 else 43] ++ pad 2 (off.natAbs / 3600000000) ++ [58] ++ pad 2 (off.natAbs / 60000000 % 60))
        (s₂ := Y ++ [45] ++ M ++ [45] ++ D ++ [84] ++ H ++ [58] ++ N ++ [58] ++ S ++ F) (t₂ := [sg] ++ hh ++ [58] ++ mm) (by simpa [List.append_assoc] using he)
        (by simp [pad_length, t1.1, t2.1])
      obtain ⟨q, q2⟩ := List.append_inj' hlast.2 (by simp [pad_length, t2.1])
      obtain ⟨q, -⟩ := List.append_inj' q rfl
      obtain ⟨-, q1⟩ := List.append_inj' q (by simp [pad_length, t1.1])
      have v1 := t1.2.2; rw [← q1, numOf_pad 2 _ b1] at v1
      have v2 := t2.2.2; rw [← q2, numOf_pad 2 _ b2] at v2
      exact xsdOffset_of hu v1 v2 t3
    · exfalso
      simp only [isoOffset, hu, if_false, List.count_append, dig, hsg] at hcount
      have : ([58] : PStr).count 58 = 1 := rfl
      rw [this] at hcount
      omega
  · intro ho
    obtain ⟨text, h1, zone, h2, _⟩ := C128_legal_partial hd ho
    have : text = d.isoformat := by simp [mkLiteral] at h1; exact h1.1.symm
    subst this
    exact ⟨_, _, _, _, _, _, _, _, h2⟩

/-- The offset of Amsterdam until 1937: 19 minutes and 32 seconds. -/
def exAmsterdam : DateTime := ⟨1937, 1, 1, 12, 0, 0, 0, some 1172000000⟩

theorem C128_refuted : ¬ C128_statement := by
  intro h
  have hv : ValidDate exAmsterdam := ⟨by decide, by decide, by decide, by decide, by decide, by decide, by decide, by
    intro off h; cases h; decide⟩
  obtain ⟨text, h1, zone, h2, _⟩ := h exAmsterdam hv
  have : text = exAmsterdam.isoformat := by simp [mkLiteral] at h1; exact h1.1.symm
  subst this
  exact absurd ((C128_legal_exact hv).1 ⟨_, _, _, _, _, _, _, _, h2⟩ _ rfl).1 (by decide)

example : exAmsterdam.isoformat = py! "1937-01-01T12:00:00+00:19:32" := by decide

theorem dby_step (y : Nat) : daysBeforeYear (y + 1) = daysBeforeYear y + if leap y then 366 else 365 := rfl

theorem dby_mono {a b : Nat} (h : a ≤ b) : daysBeforeYear a ≤ daysBeforeYear b := by
  induction h with
  | refl => exact Nat.le_refl _
  | step _ ih => rw [Nat.succ_eq_add_one, dby_step]; omega

theorem dbm_mono (y : Nat) {a b : Nat} (h : a ≤ b) : daysBeforeMonth y a ≤ daysBeforeMonth y b := by
  induction h with
  | refl => exact Nat.le_refl _
  | step _ ih => simp only [Nat.succ_eq_add_one, daysBeforeMonth]; omega

theorem dbm_13 (y : Nat) : daysBeforeMonth y 13 = if leap y then 366 else 365 := by
  simp only [daysBeforeMonth, daysIn]
  cases leap y <;> rfl

/-- The days of the calendar are different. -/
theorem ordinal_inj {y m d y' m' d' : Nat} (hm : 1 ≤ m ∧ m ≤ 12) (hd : 1 ≤ d ∧ d ≤ daysIn y m) (hm' : 1 ≤ m' ∧ m' ≤ 12) (hd' : 1 ≤ d' ∧ d' ≤ daysIn y' m')
    (h : daysBeforeYear y + daysBeforeMonth y m + d = daysBeforeYear y' + daysBeforeMonth y' m' + d') : y = y' ∧ m = m' ∧ d = d' := by
  have next : ∀ y m d : Nat, 1 ≤ m ∧ m ≤ 12 → d ≤ daysIn y m → daysBeforeMonth y m + d ≤ daysBeforeMonth y (m + 1) := by
    intro y m d h1 h2
    simp only [daysBeforeMonth, show m ≠ 0 by omega, if_false]; omega
  have yr : ∀ y m d : Nat, 1 ≤ m ∧ m ≤ 12 → d ≤ daysIn y m → daysBeforeYear y + daysBeforeMonth y m + d ≤ daysBeforeYear (y + 1) := by
    intro y m d h1 h2
    have := next y m d h1 h2
    have := dbm_mono y (show m + 1 ≤ 13 by omega)
    rw [dbm_13] at this
    rw [dby_step]; omega
  have ey : y = y' := by
    rcases Nat.lt_trichotomy y y' with hl | he | hl
    · have := dby_mono (show y + 1 ≤ y' from hl); have := yr y m d hm hd.2; omega
    · exact he
    · have := dby_mono (show y' + 1 ≤ y from hl); have := yr y' m' d' hm' hd'.2; omega
  subst ey
  have em : m = m' := by
    rcases Nat.lt_trichotomy m m' with hl | he | hl
    · have := dbm_mono y (show m + 1 ≤ m' from hl); have := next y m d hm hd.2; omega
    · exact he
    · have := dbm_mono y (show m' + 1 ≤ m from hl); have := next y m' d' hm' hd'.2; omega
  subst em
  exact ⟨rfl, rfl, by omega⟩

theorem clock_inj {a b : DateTime} (ha : ValidDate a) (hb : ValidDate b) (h : clock a = clock b) (ho : a.offset = b.offset) : a = b := by
  have := ha.hour; have := ha.minute; have := ha.second; have := ha.micro
  have := hb.hour; have := hb.minute; have := hb.second; have := hb.micro
  unfold clock at h
  generalize hA : daysBeforeYear a.year + daysBeforeMonth a.year a.month + a.day = A
  generalize hB : daysBeforeYear b.year + daysBeforeMonth b.year b.month + b.day = B
  have hA' : ((daysBeforeYear a.year : Int) + daysBeforeMonth a.year a.month + a.day) = (A : Int) := by rw [← hA]; push_cast; rfl
  have hB' : ((daysBeforeYear b.year : Int) + daysBeforeMonth b.year b.month + b.day) = (B : Int) := by rw [← hB]; push_cast; rfl
  rw [hA', hB'] at h
  have e0 : A = B := by omega
  obtain ⟨e1, e2, e3⟩ := ordinal_inj ha.month ha.day hb.month hb.day (hA.trans (e0.trans hB.symm))
  have e7 : a.hour = b.hour ∧ a.minute = b.minute ∧ a.second = b.second ∧ a.micro = b.micro := by omega
  cases a; cases b; simp_all

/-- The claim: two literals made from datetimes are equal exactly if the datetimes are. -/
def C128_equal_statement : Prop := ∀ a b : DateTime, ValidDate a → ValidDate b → (SameTime a b ↔ mkLiteral (.datetime a) = mkLiteral (.datetime b))

/-- It holds of values with the same offset, as of naive ones; and always from left to right of the literals. -/
theorem C128_equal_partial {a b : DateTime} (ha : ValidDate a) (hb : ValidDate b) :
    (a.offset = b.offset → (SameTime a b ↔ mkLiteral (.datetime a) = mkLiteral (.datetime b))) ∧
    (mkLiteral (.datetime a) = mkLiteral (.datetime b) → SameTime a b) := by
  have h2 : mkLiteral (.datetime a) = mkLiteral (.datetime b) → SameTime a b := by
    intro h
    have := C128_injective ha hb h
    subst this
    unfold SameTime
    cases h : a.offset <;> simp
  refine ⟨fun ho => ⟨fun h => ?_, h2⟩, h2⟩
  have : clock a = clock b := by
    unfold SameTime at h
    rw [ho] at h
    cases hb : b.offset with
    | none => rw [hb] at h; exact h
    | some x => rw [hb] at h; dsimp only at h; omega
  rw [clock_inj ha hb this ho]

/-- Noon in Greenwich is one o'clock in Paris; the literals differ. -/
theorem C128_equal_refuted : ¬ C128_equal_statement := by
  intro h
  have hv : ∀ d : DateTime, d = ⟨2020, 1, 1, 12, 0, 0, 0, some 0⟩ ∨ d = ⟨2020, 1, 1, 13, 0, 0, 0, some 3600000000⟩ → ValidDate d := by
    rintro d (rfl | rfl) <;>
      exact ⟨by decide, by decide, by decide, by decide, by decide, by decide, by decide, by intro off h; cases h; decide⟩
  have := (h _ _ (hv _ (Or.inl rfl)) (hv _ (Or.inr rfl))).1 (by
    unfold SameTime clock
    dsimp only
    omega)
  simp [mkLiteral] at this
  exact absurd this (by decide)

/-- A leap day, with a fraction of a second and an offset. -/
example : ValidDate ⟨2024, 2, 29, 23, 59, 59, 60, some (-5400000000)⟩ ∧ XsdOffset (some (-5400000000)) ∧
    (⟨2024, 2, 29, 23, 59, 59, 60, some (-5400000000)⟩ : DateTime).isoformat = py! "2024-02-29T23:59:59.000060-01:30" :=
  ⟨⟨by decide, by decide, by decide, by decide, by decide, by decide, by decide, by intro off h; cases h; decide⟩,
    by intro off h; cases h; decide, by decide⟩

end Verif
