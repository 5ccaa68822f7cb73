import Verif.Model.Util
import Verif.Model.Grouper
/-
C77 (one_or_none) and C78 (grouper).
-/
namespace Verif

/-- None for no value, the value for one, ValueError for more. -/
theorem C77_one_or_none {α} (xs : List α) :
    (xs = [] → oneOrNone xs = .ok none) ∧ (∀ x, xs = [x] → oneOrNone xs = .ok (some x)) ∧
    (2 ≤ xs.length → oneOrNone xs = .error .valueError) := by
  refine ⟨?_, ?_, ?_⟩
  · rintro rfl; rfl
  · rintro x rfl; rfl
  · intro h
    match xs, h with
    | _ :: _ :: _, _ => rfl

/-- A round with only inactive references. -/
theorem zipRound_inactive {α} (fill : α) (n : Nat) (xs : List α) :
    zipRound fill (List.replicate n false) xs = (List.replicate n fill, List.replicate n false, xs) := by
  induction n with
  | zero => rfl
  | succ n ih => simp [List.replicate_succ, zipRound, ih]

/-- A round: the first `k` references are active, followed by inactive ones. -/
theorem zipRound_active {α} (fill : α) (k m : Nat) (xs : List α) :
    zipRound fill (List.replicate k true ++ List.replicate m false) xs =
      (xs.take k ++ List.replicate (k - xs.length + m) fill,
       List.replicate (min k xs.length) true ++ List.replicate (k - xs.length + m) false, xs.drop k) := by
  induction k generalizing xs with
  | zero => simp [zipRound_inactive]
  | succ k ih =>
    cases xs with
    | nil =>
      simp only [List.replicate_succ, List.cons_append, zipRound, ih]
      simp only [List.take_nil, List.length_nil, Nat.sub_zero, List.nil_append, List.drop_nil, Nat.min_zero, Nat.zero_min, List.replicate_zero]
      rw [show k + 1 + m = (k + m) + 1 by omega]
      rfl
    | cons x xs =>
      simp only [List.replicate_succ, List.cons_append, zipRound, ih, List.take_succ_cons, List.length_cons, List.drop_succ_cons,
        Nat.succ_min_succ, Nat.add_sub_add_right]

/-- The groups, given enough rounds. -/
theorem zipLongest_spec {α} (fill : α) (k m : Nat) (fuel : Nat) (xs : List α) (hf : xs.length < fuel) (hm : m ≠ 0 → xs = []) (hk : 0 < k + m) :
    (∀ g ∈ zipLongest fill fuel (List.replicate k true ++ List.replicate m false) xs, g.length = k + m) ∧
    ∃ j, j < k + m ∧ (zipLongest fill fuel (List.replicate k true ++ List.replicate m false) xs).flatten = xs ++ List.replicate j fill ∧
      (xs = [] → j = 0) := by
  induction fuel generalizing k m xs with
  | zero => omega
  | succ fuel ih =>
    simp only [zipLongest, zipRound_active]
    cases xs with
    | nil =>
      have hany : ((List.replicate (min k 0) true ++ List.replicate (k - 0 + m) false).any id) = false := by simp
      simp only [List.length_nil, hany]
      exact ⟨by simp, 0, hk, by simp, fun _ => rfl⟩
    | cons x xs =>
      have hm0 : m = 0 := Classical.byContradiction fun h => by cases hm h
      subst hm0
      have hk' : 0 < k := by omega
      have hany : ((List.replicate (min k (x :: xs).length) true ++ List.replicate (k - (x :: xs).length + 0) false).any id) = true := by
        rw [show min k (x :: xs).length = (min k (x :: xs).length - 1) + 1 by simp only [List.length_cons]; omega]
        simp [List.replicate_succ]
      simp only [hany, if_true]
      have hd : ((x :: xs).drop k).length < fuel := by simp only [List.length_drop, List.length_cons] at hf ⊢; omega
      have hsum : min k (x :: xs).length + (k - (x :: xs).length + 0) = k := by omega
      obtain ⟨h1, j, h2, h3, h4⟩ := ih (min k (x :: xs).length) (k - (x :: xs).length + 0) ((x :: xs).drop k) hd
        (fun h => List.drop_eq_nil_of_le (by omega)) (by omega)
      rw [hsum] at h1 h2
      refine ⟨?_, ?_⟩
      · intro g hg
        rcases List.mem_cons.1 hg with rfl | hg
        · simp only [List.length_append, List.length_take, List.length_replicate]; omega
        · exact h1 g hg
      · by_cases hle : k ≤ (x :: xs).length
        · refine ⟨j, by omega, ?_, by simp⟩
          rw [List.flatten_cons, h3]
          rw [show k - (x :: xs).length + 0 = 0 by omega]
          rw [List.replicate_zero, List.append_nil, ← List.append_assoc, List.take_append_drop]
        · have hnil : (x :: xs).drop k = [] := List.drop_eq_nil_of_le (by omega)
          have hj := h4 hnil
          subst hj
          refine ⟨k - (x :: xs).length, by simp only [List.length_cons]; omega, ?_, by simp⟩
          rw [List.flatten_cons, h3, hnil, List.take_of_length_le (by omega)]
          simp

/-- For `n > 0` every group has length `n`, and the groups one after the other are the items followed by fewer than `n` fill values. -/
theorem C78_grouper {α} (xs : List α) (n : Nat) (hn : 0 < n) (fill : α) :
    (∀ g ∈ grouper xs n fill, g.length = n) ∧
    ∃ j, j < n ∧ (grouper xs n fill).flatten = xs ++ List.replicate j fill ∧ (xs = [] → j = 0) := by
  have := zipLongest_spec fill n 0 (xs.length + 1) xs (by omega) (by simp) (by omega)
  simpa [grouper] using this

/-- A sequence whose length is a multiple of `n` is cut into groups without any fill value. -/
theorem C78_exact_multiple {α} (xs : List α) (n : Nat) (hn : 0 < n) (fill : α) (h : n ∣ xs.length) : (grouper xs n fill).flatten = xs := by
  obtain ⟨h1, j, h2, h3, -⟩ := C78_grouper xs n hn fill
  have hl : n ∣ (grouper xs n fill).flatten.length := by
    rw [List.length_flatten]
    have : ∀ l : List (List α), (∀ g ∈ l, g.length = n) → n ∣ (l.map List.length).sum := by
      intro l
      induction l with
      | nil => simp
      | cons a l ih =>
        intro hl
        rw [List.map_cons, List.sum_cons, hl a (by simp)]
        exact Nat.dvd_add (Nat.dvd_refl n) (ih fun g hg => hl g (by simp [hg]))
    exact this _ h1
  rw [h3, List.length_append, List.length_replicate] at hl
  have : n ∣ j := (Nat.dvd_add_right h).1 hl
  have : j = 0 := Nat.eq_zero_of_dvd_of_lt this h2
  subst this
  simpa using h3

/-- Without groups there is nothing. -/
theorem C78_zero {α} (xs : List α) (fill : α) : grouper xs 0 fill = [] := rfl

example : grouper [1, 2, 3, 4, 5, 6, 7] 3 0 = [[1, 2, 3], [4, 5, 6], [7, 0, 0]] := by decide

end Verif
