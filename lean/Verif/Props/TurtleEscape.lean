import Verif.Props.TurtleString
/-
C60 II: the text that `turtle_string_escape` writes, for every string.
-/
namespace Verif.Turtle
open Verif.Turtle.Spec

/-- The raw character that an escape letter stands for. -/
def Spec.rawOf (c : Nat) : Nat :=
  if c = 116 then 9 else if c = 98 then 8 else if c = 110 then 10 else if c = 114 then 13 else if c = 102 then 12 else c

/-- Every character after a backslash is replaced by `f` of it; all others stay. -/
def Spec.afterBackslash (f : Nat → Nat) : Bool → PStr → PStr
  | _, [] => []
  | b, c :: cs => (if b then f c else c) :: afterBackslash f (c == 92) cs

/-- One step of the loop. -/
theorem replace_after {a b : Nat} (ha : a ≠ 92) (s : PStr) :
    ∀ p, pyReplaceAux [92, a] [92, b] 0 s = afterBackslash (fun c => if c = a then b else c) false s ∧
      (p = true → ∀ c cs, s = c :: cs → c ≠ a → pyReplaceAux [92, a] [92, b] 0 s = afterBackslash (fun c => if c = a then b else c) true s) := by
  induction s with
  | nil => intro p; exact ⟨rfl, fun _ _ _ h => by cases h⟩
  | cons c cs ih =>
    have main : pyReplaceAux [92, a] [92, b] 0 (c :: cs) = afterBackslash (fun c => if c = a then b else c) false (c :: cs) := by
      rw [pyReplaceAux, afterBackslash]
      by_cases hc : c = 92
      · subst hc
        cases cs with
        | nil => simp [List.isPrefixOf, pyReplaceAux, afterBackslash]
        | cons d ds =>
          by_cases hd : d = a
          · subst hd
            have h2 := (ih true).1
            rw [pyReplaceAux, if_neg (by simp [List.isPrefixOf]; intro h; exact absurd h.symm ha), afterBackslash] at h2
            simp only [Bool.false_eq_true, if_false, List.cons.injEq, true_and] at h2
            simp [List.isPrefixOf, pyReplaceAux, afterBackslash, h2]
          · rw [if_neg (by simp [List.isPrefixOf]; intro h; exact hd h.symm), (ih true).2 rfl d ds rfl hd]
            simp
      · rw [if_neg (by simp [List.isPrefixOf]; intro h; exact absurd h.symm hc), (ih true).1]
        have : (c == 92) = false := by simp [hc]
        rw [this]
        simp
    intro p
    refine ⟨main, fun _ d ds e hd => ?_⟩
    rw [main]
    cases e
    simp [afterBackslash, hd]

theorem afterBackslash_comp {f f' : Nat → Nat} (h : ∀ c, f c = 92 ↔ c = 92) (s : PStr) :
    ∀ b, afterBackslash f' b (afterBackslash f b s) = afterBackslash (fun c => f' (f c)) b s := by
  induction s with
  | nil => intro b; rfl
  | cons c cs ih =>
    intro b
    rw [afterBackslash, afterBackslash, afterBackslash]
    have : ((if b then f c else c) == 92) = (c == 92) := by
      rw [Bool.eq_iff_iff]; cases b <;> simp [h]
    rw [this, ih]
    cases b <;> simp

theorem replace_same (a : Nat) (s : PStr) : pyReplaceAux [92, a] [92, a] 0 s = s := by
  have : ∀ (s : PStr), pyReplaceAux [92, a] [92, a] 0 s = s ∧ pyReplaceAux [92, a] [92, a] 1 s = s.drop 1 := by
    intro s
    induction s with
    | nil => exact ⟨rfl, rfl⟩
    | cons c cs ih =>
      refine ⟨?_, by rw [pyReplaceAux, ih.1]; rfl⟩
      rw [pyReplaceAux]
      split
      · next h =>
        cases cs with
        | nil => simp [List.isPrefixOf] at h
        | cons d ds =>
          simp only [List.isPrefixOf, Bool.and_true, Bool.and_eq_true, beq_iff_eq] at h
          have := ih.2
          rw [← h.1, ← h.2] at *
          simp only [List.drop_succ_cons, List.drop_zero] at this
          simp [this]
      · rw [ih.1]
  exact (this s).1

/-- C60: the text between the quotes is the string with every character after a backslash replaced by the raw character it stands for as an
    escape letter; nothing else is changed, nothing is escaped. -/
theorem C60_output (s : PStr) : turtleStringEscape s = [34] ++ afterBackslash rawOf false s ++ [34] := by
  unfold turtleStringEscape escapeSteps
  simp only [List.foldl_cons, List.foldl_nil, pyReplace, List.cons_ne_nil, if_false, replace_same]
  rw [(replace_after (by decide) _ true).1, (replace_after (by decide) _ true).1, (replace_after (by decide) _ true).1,
    (replace_after (by decide) _ true).1, (replace_after (by decide) _ true).1]
  rw [afterBackslash_comp, afterBackslash_comp, afterBackslash_comp, afterBackslash_comp]
  · congr 3
    funext c
    unfold rawOf
    by_cases h1 : c = 116
    · subst h1; rfl
    by_cases h2 : c = 98
    · subst h2; rfl
    by_cases h3 : c = 110
    · subst h3; rfl
    by_cases h4 : c = 114
    · subst h4; rfl
    by_cases h5 : c = 102
    · subst h5; rfl
    simp only [h1, h2, h3, h4, h5, if_false]
  all_goals (intro c; repeat' split) <;> omega

example : turtleStringEscape (py! "\\\\name \"\\t\"") = py! "\"\\\\\name \"\\\t\"\"" := by decide

end Verif.Turtle
