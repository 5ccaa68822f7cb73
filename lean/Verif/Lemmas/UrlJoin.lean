import Verif.Spec.Rfc3986
import Verif.Model.UrlJoin
/-
Lemmas about urljoin: segments, dot segments, parsing of composed references.
-/
namespace Verif
open Spec

/-! ### Segments -/

/-- "/s1/s2/.../sn" -/
def slashed (segs : List PStr) : PStr := segs.flatMap (47 :: ·)

theorem slashed_nil : slashed [] = [] := rfl
theorem slashed_cons (s : PStr) (ss : List PStr) : slashed (s :: ss) = 47 :: (s ++ slashed ss) := rfl
theorem slashed_append (a b : List PStr) : slashed (a ++ b) = slashed a ++ slashed b := by simp [slashed]

theorem mem_of_dropLast {α : Type} {l : List α} {a : α} (h : a ∈ l.dropLast) : a ∈ l := (List.dropLast_sublist l).mem h

theorem splitSlash_ne_nil (s : PStr) : splitSlash s ≠ [] := by
  cases s with
  | nil => simp [splitSlash]
  | cons c cs =>
    rw [splitSlash]
    split
    · simp
    · split <;> simp

theorem slashed_splitSlash (s : PStr) : slashed (splitSlash s) = 47 :: s := by
  induction s with
  | nil => rfl
  | cons c cs ih =>
    rw [splitSlash]
    split
    · next h => subst h; rw [slashed_cons, ih]; rfl
    · split
      · next h => exact absurd h (splitSlash_ne_nil cs)
      · next w ws h =>
        rw [h, slashed_cons] at ih
        rw [slashed_cons]
        have := (List.cons.inj ih).2
        simp [this]

theorem splitSlash_noSlash (s : PStr) : ∀ w ∈ splitSlash s, 47 ∉ w := by
  induction s with
  | nil => simp [splitSlash]
  | cons c cs ih =>
    rw [splitSlash]
    split
    · intro w hw
      rcases List.mem_cons.1 hw with rfl | hw
      · simp
      · exact ih w hw
    · next hc =>
      split
      · next h => exact absurd h (splitSlash_ne_nil cs)
      · next w ws h =>
        intro x hx
        rw [h] at ih
        rcases List.mem_cons.1 hx with rfl | hx
        · have := ih w (by simp)
          simp only [List.mem_cons, not_or]
          exact ⟨fun e => hc e.symm, this⟩
        · exact ih x (by simp [hx])

theorem splitSlash_noSlash_eq {s : PStr} (h : 47 ∉ s) : splitSlash s = [s] := by
  induction s with
  | nil => rfl
  | cons c cs ih =>
    rw [splitSlash, if_neg (by rintro rfl; simp at h), ih (by simp_all)]

theorem splitSlash_append {s : PStr} (h : 47 ∉ s) (t : PStr) : splitSlash (s ++ 47 :: t) = s :: splitSlash t := by
  induction s with
  | nil => rw [List.nil_append, splitSlash, if_pos rfl]
  | cons c cs ih =>
    rw [List.cons_append, splitSlash, if_neg (by rintro rfl; simp at h), ih (by simp_all)]

theorem splitSlash_slashed {s : PStr} (h : 47 ∉ s) {segs : List PStr} (hs : ∀ w ∈ segs, 47 ∉ w) : splitSlash (s ++ slashed segs) = s :: segs := by
  induction segs generalizing s with
  | nil => rw [slashed_nil, List.append_nil, splitSlash_noSlash_eq h]
  | cons w ws ih =>
    rw [slashed_cons, splitSlash_append h, ih (hs w (by simp)) fun x hx => hs x (by simp [hx])]

theorem joinSlash_cons (s : PStr) (ss : List PStr) : joinSlash (s :: ss) = s ++ slashed ss := by
  induction ss generalizing s with
  | nil => simp [joinSlash, slashed]
  | cons t ts ih => rw [joinSlash, ih, slashed_cons]; simp

/-- The text up to and including the last slash. -/
theorem dir_slashed (segs : List PStr) {s : PStr} (h : 47 ∉ s) :
    (List.dropWhile (· ≠ 47) (slashed segs ++ 47 :: s).reverse).reverse = slashed segs ++ [47] := by
  rw [List.reverse_append, List.reverse_cons, List.append_assoc]
  rw [List.dropWhile_append_of_pos (by
    intro x hx
    simp only [decide_eq_true_eq]
    rintro rfl
    exact h (List.mem_reverse.1 hx))]
  simp [List.dropWhile_cons]

theorem dropLastSegment_slashed {segs : List PStr} (h : ∀ w ∈ segs, 47 ∉ w) : dropLastSegment (slashed segs) = slashed segs.dropLast := by
  rcases List.eq_nil_or_concat segs with rfl | ⟨l, s, rfl⟩
  · rfl
  · rw [List.concat_eq_append] at h ⊢
    have hs : 47 ∉ s := h s (by simp)
    rw [List.dropLast_concat, slashed_append, slashed_cons, slashed_nil, List.append_nil]
    unfold dropLastSegment
    rw [List.reverse_append, List.reverse_cons, List.append_assoc,
      List.dropWhile_append_of_pos (by
        intro x hx
        simp only [decide_eq_true_eq]
        rintro rfl
        exact hs (List.mem_reverse.1 hx))]
    simp [List.dropWhile_cons]

/-! ### Dot segments -/

/-- Removing dot segments, on lists of segments. -/
def dots : List PStr → List PStr → List PStr
  | out, [] => out
  | out, [s] => if s = [46, 46] then out.dropLast ++ [[]] else if s = [46] then out ++ [[]] else out ++ [s]
  | out, s :: ss => if s = [46, 46] then dots out.dropLast ss else if s = [46] then dots out ss else dots (out ++ [s]) ss

theorem dots_cons (out : List PStr) (s t : PStr) (ss : List PStr) :
    dots out (s :: t :: ss) = if s = [46, 46] then dots out.dropLast (t :: ss) else if s = [46] then dots out (t :: ss) else dots (out ++ [s]) (t :: ss) := by
  rw [dots]
  simp

theorem dots_ne_nil (out segs : List PStr) (h : segs ≠ []) : dots out segs ≠ [] := by
  induction segs generalizing out with
  | nil => exact absurd rfl h
  | cons s ss ih =>
    cases ss with
    | nil =>
      rw [dots]
      split
      · simp
      · split <;> simp
    | cons t ts =>
      rw [dots_cons]
      split
      · exact ih _ (by simp)
      · split <;> exact ih _ (by simp)

theorem mem_dots {out segs : List PStr} {w : PStr} (h : w ∈ dots out segs) : w ∈ out ∨ w ∈ segs ∨ w = [] := by
  induction segs generalizing out with
  | nil => rw [dots] at h; exact Or.inl h
  | cons s ss ih =>
    cases ss with
    | nil =>
      rw [dots] at h
      split at h
      · rcases List.mem_append.1 h with h | h
        · exact Or.inl (mem_of_dropLast h)
        · simp at h; simp [h]
      · split at h
        · rcases List.mem_append.1 h with h | h
          · exact Or.inl h
          · simp at h; simp [h]
        · rcases List.mem_append.1 h with h | h
          · exact Or.inl h
          · simp at h; simp [h]
    | cons t ts =>
      rw [dots_cons] at h
      have lift : w ∈ t :: ts → w ∈ s :: t :: ts := fun h => List.mem_cons_of_mem _ h
      split at h
      · rcases ih h with h | h | h
        · exact Or.inl (mem_of_dropLast h)
        · exact Or.inr (Or.inl (lift h))
        · exact Or.inr (Or.inr h)
      · split at h
        · rcases ih h with h | h | h
          · exact Or.inl h
          · exact Or.inr (Or.inl (lift h))
          · exact Or.inr (Or.inr h)
        · rcases ih h with h | h | h
          · rcases List.mem_append.1 h with h | h
            · exact Or.inl h
            · exact Or.inr (Or.inl (by simp at h; simp [h]))
          · exact Or.inr (Or.inl (lift h))
          · exact Or.inr (Or.inr h)

theorem dots_dropLast_ne {out segs : List PStr} (ho : ∀ s ∈ out, s ≠ []) (hs : ∀ s ∈ segs.dropLast, s ≠ []) :
    ∀ s ∈ (dots out segs).dropLast, s ≠ [] := by
  induction segs generalizing out with
  | nil => rw [dots]; exact fun s h => ho s (mem_of_dropLast h)
  | cons s ss ih =>
    cases ss with
    | nil =>
      rw [dots]
      split
      · rw [List.dropLast_concat]; exact fun s h => ho s (mem_of_dropLast h)
      · split <;> (rw [List.dropLast_concat]; exact ho)
    | cons t ts =>
      have hs' : ∀ s ∈ (t :: ts).dropLast, s ≠ [] := fun x hx => hs x (by simp only [List.dropLast_cons_cons, List.mem_cons]; exact Or.inr hx)
      rw [dots_cons]
      split
      · exact ih (fun s h => ho s (mem_of_dropLast h)) hs'
      · split
        · exact ih ho hs'
        · refine ih ?_ hs'
          intro x hx
          rcases List.mem_append.1 hx with h | h
          · exact ho x h
          · simp only [List.mem_singleton] at h
            rw [h]
            exact hs s (by simp [List.dropLast_cons_cons])

/-- `dots` on a list with an ordinary last segment. -/
theorem dots_concat (out init : List PStr) (s : PStr) (h1 : s ≠ [46, 46]) (h2 : s ≠ [46]) :
    ∃ D, (∀ s', s' ≠ [46, 46] → s' ≠ [46] → dots out (init ++ [s']) = D ++ [s']) ∧ dots out (init ++ [s]) = D ++ [s] := by
  suffices ∃ D, ∀ s', s' ≠ [46, 46] → s' ≠ [46] → dots out (init ++ [s']) = D ++ [s'] from
    this.imp fun D h => ⟨h, h s h1 h2⟩
  induction init generalizing out with
  | nil => exact ⟨out, fun s' h1 h2 => by rw [List.nil_append, dots, if_neg h1, if_neg h2]⟩
  | cons t ts ih =>
    have key : ∀ s', dots out (t :: ts ++ [s']) =
        if t = [46, 46] then dots out.dropLast (ts ++ [s']) else if t = [46] then dots out (ts ++ [s']) else dots (out ++ [t]) (ts ++ [s']) := by
      intro s'
      cases ts with
      | nil => exact dots_cons ..
      | cons a b => exact dots_cons ..
    simp only [key]
    by_cases h1 : t = [46, 46]
    · simp only [if_pos h1]; exact ih _
    · by_cases h2 : t = [46]
      · simp only [if_neg h1, if_pos h2]; exact ih _
      · simp only [if_neg h1, if_neg h2]; exact ih _

theorem head_noSlash {s t : PStr} (h : 47 ∉ s) : (s ++ t).takeWhile (· ≠ 47) = s ++ t.takeWhile (· ≠ 47) ∧
    (s ++ t).dropWhile (· ≠ 47) = t.dropWhile (· ≠ 47) := by
  have : ∀ x ∈ s, decide (x ≠ 47) = true := by
    intro x hx
    simp only [decide_eq_true_eq]
    rintro rfl
    exact h hx
  exact ⟨List.takeWhile_append_of_pos this, List.dropWhile_append_of_pos this⟩

/-- The loop of the RFC computes `dots`. -/
theorem removeDotsLoop_slashed (n : Nat) {out segs : List PStr} (ho : ∀ w ∈ out, 47 ∉ w) (hs : ∀ w ∈ segs, 47 ∉ w)
    (hn : (slashed segs).length ≤ n) : removeDotsLoop n (slashed segs) (slashed out) = slashed (dots out segs) := by
  induction segs generalizing n out with
  | nil => rw [dots, slashed_nil]; cases n <;> rfl
  | cons s ss ih =>
    have hns : 47 ∉ s := hs s (by simp)
    have hss : ∀ w ∈ ss, 47 ∉ w := fun w hw => hs w (by simp [hw])
    have hod : ∀ w ∈ out.dropLast, 47 ∉ w := fun w hw => ho w (mem_of_dropLast hw)
    rw [slashed_cons] at hn ⊢
    cases n with
    | zero => simp at hn
    | succ n =>
      have hn' : (slashed ss).length ≤ n := by simp only [List.length_cons, List.length_append] at hn; omega
      have p1 : ¬ [46, 46, 47] <+: 47 :: (s ++ slashed ss) := by rintro ⟨t, ht⟩; simp at ht
      have p2 : ¬ [46, 47] <+: 47 :: (s ++ slashed ss) := by rintro ⟨t, ht⟩; simp at ht
      have p3 : ¬ (47 :: (s ++ slashed ss) = [46] ∨ 47 :: (s ++ slashed ss) = [46, 46]) := by simp
      rw [removeDotsLoop, if_neg p1, if_neg p2]
      cases ss with
      | nil =>
        simp only [slashed_nil, List.append_nil] at hn ⊢
        have q1 : ¬ [47, 46, 47] <+: 47 :: s := by
          rintro ⟨t, ht⟩
          simp only [List.cons_append, List.cons.injEq, true_and] at ht
          exact hns (ht ▸ by simp)
        have q2 : ¬ [47, 46, 46, 47] <+: 47 :: s := by
          rintro ⟨t, ht⟩
          simp only [List.cons_append, List.cons.injEq, true_and] at ht
          exact hns (ht ▸ by simp)
        rw [if_neg q1]
        have hslash : ∀ m o, removeDotsLoop (m + 1) [47] o = o ++ [47] := by
          intro m o
          rw [removeDotsLoop]
          rw [if_neg (by decide), if_neg (by decide), if_neg (by decide), if_neg (by decide), if_neg (by decide), if_neg (by decide), if_neg (by decide)]
          simp only [List.dropWhile_nil, List.takeWhile_nil]
          cases m <;> rfl
        by_cases hd : s = [46]
        · subst hd
          rw [if_pos rfl]
          obtain ⟨m, rfl⟩ : ∃ m, n = m + 1 := ⟨n - 1, by simp at hn; omega⟩
          rw [hslash, dots, if_neg (by decide), if_pos rfl, slashed_append]
          rfl
        · rw [if_neg (by simpa using hd), if_neg q2]
          by_cases hdd : s = [46, 46]
          · subst hdd
            rw [if_pos rfl]
            obtain ⟨m, rfl⟩ : ∃ m, n = m + 1 := ⟨n - 1, by simp at hn; omega⟩
            rw [hslash, dots, if_pos rfl, slashed_append, dropLastSegment_slashed ho]
            rfl
          · rw [if_neg (by simpa using hdd), if_neg (by simp)]
            have := head_noSlash (s := s) (t := []) hns
            simp only [List.append_nil] at this
            rw [this.1, this.2, dots, if_neg hdd, if_neg hd, slashed_append, slashed_cons, slashed_nil]
            simp only [List.takeWhile_nil, List.dropWhile_nil, List.append_nil]
            cases n <;> rfl
      | cons t ts =>
        rw [dots_cons]
        have hlen : (slashed (t :: ts)).length ≤ n := hn'
        by_cases hd : s = [46]
        · subst hd
          rw [if_pos (by exact ⟨t ++ slashed ts, by simp [slashed_cons]⟩), if_neg (by decide), if_pos rfl, ← ih n ho hss hlen]
          rfl
        · have q1 : ¬ [47, 46, 47] <+: 47 :: (s ++ slashed (t :: ts)) := by
            rintro ⟨r, hr⟩
            simp only [List.cons_append, List.nil_append, List.cons.injEq, true_and] at hr
            have := congrArg (List.takeWhile (· ≠ 47)) hr
            rw [(head_noSlash hns).1, slashed_cons] at this
            simp [List.takeWhile_cons] at this
            exact hd this.symm
          rw [if_neg q1, if_neg (by rw [slashed_cons]; simp only [List.cons.injEq, true_and]; intro e; exact absurd (congrArg (47 ∈ ·) e) (by simp))]
          by_cases hdd : s = [46, 46]
          · subst hdd
            rw [if_pos (by exact ⟨t ++ slashed ts, by simp [slashed_cons]⟩), if_pos rfl, dropLastSegment_slashed ho, ← ih n hod hss hlen]
            rfl
          · have q2 : ¬ [47, 46, 46, 47] <+: 47 :: (s ++ slashed (t :: ts)) := by
              rintro ⟨r, hr⟩
              simp only [List.cons_append, List.nil_append, List.cons.injEq, true_and] at hr
              have := congrArg (List.takeWhile (· ≠ 47)) hr
              rw [(head_noSlash hns).1, slashed_cons] at this
              simp [List.takeWhile_cons] at this
              exact hdd this.symm
            rw [if_neg q2, if_neg (by rw [slashed_cons]; simp only [List.cons.injEq, true_and]; intro e; exact absurd (congrArg (47 ∈ ·) e) (by simp)),
              if_neg p3, if_neg hdd, if_neg hd, (head_noSlash hns).1, (head_noSlash hns).2]
            have e1 : (slashed (t :: ts)).takeWhile (· ≠ 47) = [] := by rw [slashed_cons]; simp [List.takeWhile_cons]
            have e2 : (slashed (t :: ts)).dropWhile (· ≠ 47) = slashed (t :: ts) := by rw [slashed_cons]; simp [List.dropWhile_cons]
            rw [e1, e2, List.append_nil]
            have : slashed out ++ 47 :: s = slashed (out ++ [s]) := by rw [slashed_append, slashed_cons, slashed_nil, List.append_nil]
            rw [this]
            exact ih n (by
              intro w hw
              rcases List.mem_append.1 hw with h | h
              · exact ho w h
              · simp only [List.mem_singleton] at h; exact h ▸ hns) hss hlen

theorem removeDots_slashed {segs : List PStr} (hs : ∀ w ∈ segs, 47 ∉ w) : removeDots (slashed segs) = slashed (dots [] segs) :=
  removeDotsLoop_slashed _ (out := []) (by simp) hs (Nat.le_refl _)

/-- The loop of urljoin computes `dots` too; going above the root loses the leading empty segment. -/
theorem resolveLoop_dots {acc out segs : List PStr} (hne : segs ≠ []) (h : acc.reverse = [] :: out ∨ acc.reverse = out) :
    let r := resolveLoop acc segs
    let r := if segs.getLast? = some [46] ∨ segs.getLast? = some [46, 46] then r ++ [[]] else r
    r = [] :: dots out segs ∨ r = dots out segs := by
  induction segs generalizing acc out with
  | nil => exact absurd rfl hne
  | cons s ss ih =>
    have htail : acc.tail.reverse = [] :: out.dropLast ∨ acc.tail.reverse = out.dropLast := by
      have e : acc.tail.reverse = acc.reverse.dropLast := by rw [List.dropLast_reverse]
      rcases h with h | h
      · rw [e, h]
        cases out with
        | nil => right; rfl
        | cons a b => left; rfl
      · rw [e, h]; right; rfl
    have hpush : ∀ s, (s :: acc).reverse = [] :: (out ++ [s]) ∨ (s :: acc).reverse = out ++ [s] := by
      intro s
      rcases h with h | h
      · left; rw [List.reverse_cons, h]; rfl
      · right; rw [List.reverse_cons, h]
    cases ss with
    | nil =>
      dsimp only
      rw [resolveLoop, dots]
      by_cases h1 : s = [46, 46]
      · subst h1
        have e : (if [[46, 46]].getLast? = some [46] ∨ [[46, 46]].getLast? = some [46, 46] then acc.tail.reverse ++ [[]] else acc.tail.reverse)
          = acc.tail.reverse ++ [[]] := if_pos (Or.inr rfl)
        show (if [[46, 46]].getLast? = some [46] ∨ [[46, 46]].getLast? = some [46, 46] then acc.tail.reverse ++ [[]] else acc.tail.reverse) = _ ∨
          (if [[46, 46]].getLast? = some [46] ∨ [[46, 46]].getLast? = some [46, 46] then acc.tail.reverse ++ [[]] else acc.tail.reverse) = _
        rw [e]
        rcases htail with h | h <;> rw [h]
        · left; rfl
        · right; rfl
      · by_cases h2 : s = [46]
        · subst h2
          have e : (if [[46]].getLast? = some [46] ∨ [[46]].getLast? = some [46, 46] then acc.reverse ++ [[]] else acc.reverse)
            = acc.reverse ++ [[]] := if_pos (Or.inl rfl)
          show (if [[46]].getLast? = some [46] ∨ [[46]].getLast? = some [46, 46] then acc.reverse ++ [[]] else acc.reverse) = _ ∨
            (if [[46]].getLast? = some [46] ∨ [[46]].getLast? = some [46, 46] then acc.reverse ++ [[]] else acc.reverse) = _
          rw [e]
          rcases h with h | h <;> rw [h]
          · left; rfl
          · right; rfl
        · rw [if_neg (by simp [h1, h2]), if_neg h1, if_neg h2, if_neg h1, if_neg h2, resolveLoop]
          exact hpush s
    | cons t ts =>
      dsimp only at ih ⊢
      have hl : (s :: t :: ts).getLast? = (t :: ts).getLast? := by rw [List.getLast?_cons_cons]
      rw [hl, resolveLoop, dots_cons]
      by_cases h1 : s = [46, 46]
      · rw [if_pos h1, if_pos h1]; exact ih (by simp) htail
      · by_cases h2 : s = [46]
        · rw [if_neg h1, if_neg h1, if_pos h2, if_pos h2]; exact ih (by simp) h
        · rw [if_neg h1, if_neg h1, if_neg h2, if_neg h2]; exact ih (by simp) (hpush s)

end Verif
