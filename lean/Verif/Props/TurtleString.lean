import Verif.Model.TurtleSer
import Verif.Props.Decode
import Verif.Props.TurtleLex
/-
C60: what `turtle_string_escape` writes is read back only for strings without quotes, backslashes and line ends.
-/
namespace Verif.Turtle
open Verif.Turtle.Spec

/-! ### The escaping loop -/

theorem pyReplaceAux_length {old new : PStr} (h : old.length = new.length) (h0 : old ≠ []) :
    ∀ (s : PStr) (k : Nat), k ≤ s.length → (pyReplaceAux old new k s).length = s.length - k
  | [], k, hk => by cases k <;> simp_all [pyReplaceAux]
  | c :: cs, k + 1, hk => by
    have hk : k ≤ cs.length := by simpa using hk
    rw [pyReplaceAux, pyReplaceAux_length h h0 cs k hk]; simp
  | c :: cs, 0, _ => by
    rw [pyReplaceAux]
    split
    · next hp =>
      have hl := (List.isPrefixOf_iff_prefix.1 hp).length_le
      have h1 : 1 ≤ old.length := by cases old with | nil => exact absurd rfl h0 | cons _ _ => simp
      have hl' : old.length - 1 ≤ cs.length := by simp at hl; omega
      rw [List.length_append, pyReplaceAux_length h h0 cs _ hl', ← h]
      simp at hl ⊢; omega
    · rw [List.length_cons, pyReplaceAux_length h h0 cs 0 (Nat.zero_le _)]; simp

theorem pyReplaceAux_mem {x a b : Nat} : ∀ {s : PStr}, x ∈ s → x ∈ pyReplaceAux [x, a] [x, b] 0 s
  | c :: cs, h => by
    rw [pyReplaceAux]
    split
    · simp
    · rcases List.mem_cons.1 h with rfl | h
      · exact List.mem_cons_self ..
      · exact List.mem_cons_of_mem _ (pyReplaceAux_mem h)

theorem pyReplaceAux_not_mem {x : Nat} {old new : PStr} : ∀ {s : PStr}, x ∉ s → pyReplaceAux (x :: old) new 0 s = s
  | [], _ => rfl
  | c :: cs, h => by
    have h1 : x ≠ c := by rintro rfl; exact h (List.mem_cons_self ..)
    have h2 : x ∉ cs := fun h' => h (List.mem_cons_of_mem _ h')
    rw [pyReplaceAux, if_neg (by simp [List.isPrefixOf, h1]), pyReplaceAux_not_mem h2]

/-- The text between the quotes. -/
def escaped (s : PStr) : PStr := escapeSteps.foldl (fun s e => pyReplace s e.1 e.2) s

theorem turtleStringEscape_eq (s : PStr) : turtleStringEscape s = 34 :: (escaped s ++ [34]) := rfl

theorem escapeSteps_shape : ∀ e ∈ escapeSteps, ∃ a b, e = ([92, a], [92, b]) := by
  intro e he
  simp only [escapeSteps, List.mem_cons, List.not_mem_nil, or_false] at he
  rcases he with rfl | rfl | rfl | rfl | rfl | rfl | rfl | rfl <;> exact ⟨_, _, rfl⟩

theorem foldl_replace {es : List (PStr × PStr)} (hes : ∀ e ∈ es, ∃ a b, e = ([92, a], [92, b])) (s : PStr) :
    (es.foldl (fun s e => pyReplace s e.1 e.2) s).length = s.length ∧
    (92 ∈ s → 92 ∈ es.foldl (fun s e => pyReplace s e.1 e.2) s) ∧
    (92 ∉ s → es.foldl (fun s e => pyReplace s e.1 e.2) s = s) := by
  induction es generalizing s with
  | nil => exact ⟨rfl, id, fun _ => rfl⟩
  | cons e es ih =>
    obtain ⟨a, b, rfl⟩ := hes e (List.mem_cons_self ..)
    obtain ⟨h1, h2, h3⟩ := ih (fun e he => hes e (List.mem_cons_of_mem _ he)) (pyReplace s [92, a] [92, b])
    have e1 : pyReplace s [92, a] [92, b] = pyReplaceAux [92, a] [92, b] 0 s := by rw [pyReplace, if_neg (by simp)]
    rw [e1] at h1 h2 h3
    rw [List.foldl_cons]
    show (es.foldl _ (pyReplace s [92, a] [92, b])).length = _ ∧ _
    rw [e1]
    refine ⟨?_, fun h => h2 (pyReplaceAux_mem h), fun h => ?_⟩
    · rw [h1, pyReplaceAux_length (old := [92, a]) (new := [92, b]) rfl (by simp) s 0 (Nat.zero_le _)]; rfl
    · show es.foldl _ (pyReplace s [92, a] [92, b]) = s
      rw [e1]
      rw [pyReplaceAux_not_mem h] at h3 ⊢
      exact h3 h

theorem escaped_length (s : PStr) : (escaped s).length = s.length := (foldl_replace escapeSteps_shape s).1
theorem escaped_mem {s : PStr} (h : 92 ∈ s) : 92 ∈ escaped s := (foldl_replace escapeSteps_shape s).2.1 h
theorem escaped_plain {s : PStr} (h : 92 ∉ s) : escaped s = s := (foldl_replace escapeSteps_shape s).2.2 h

/-! ### Decoding does not lengthen -/

theorem decodeAux_length : ∀ (s : PStr) (k : Nat) (v : PStr), decodeAux k s = .ok v → v.length ≤ s.length
  | [], k, v, h => by cases k <;> (simp only [decodeAux, Except.ok.injEq] at h; subst h; simp)
  | c :: cs, k + 1, v, h => by
    rw [decodeAux] at h
    have := decodeAux_length cs k v h
    simp; omega
  | c :: cs, 0, v, h => by
    rw [decodeAux] at h
    have step : ∀ {k x}, (decodeAux k cs).map (x :: ·) = .ok v → v.length ≤ (c :: cs).length := by
      intro k x h
      cases e : decodeAux k cs with
      | error e' => rw [e] at h; cases h
      | ok u => rw [e] at h; cases h; have := decodeAux_length cs k u e; simp; omega
    split at h
    · exact step h
    · cases h
    · exact step h

theorem decodeLiteral_length {s v : PStr} (h : decodeLiteral s = .ok v) : v.length ≤ s.length := decodeAux_length s 0 v h

theorem escAt_escape {p : PStr} (h : Spec.Escape p) (s : PStr) : ∃ r, escAt (p ++ s) = some (r, p.length) := by
  rcases h with ⟨c, hc, rfl⟩ | h
  · have h1 : c ≠ 117 := by rintro rfl; revert hc; decide
    have h2 : c ≠ 85 := by rintro rfl; revert hc; decide
    exact ⟨_, by show escAt (92 :: c :: s) = _; rw [escAt, if_neg h1, if_neg h2]; rfl⟩
  · cases h with
    | @u4 h hl hh =>
      have ht : (h ++ s).take 4 = h := by rw [← hl, List.take_left]
      refine ⟨pyChr (parseHex h), by show escAt (92 :: 117 :: (h ++ s)) = _; rw [escAt, if_pos rfl, ht, if_pos ⟨hl, List.all_eq_true.2 fun c hc => isHex_iff.2 (hh c hc)⟩]; simp [hl]⟩
    | @u8 h hl hh =>
      have ht : (h ++ s).take 8 = h := by rw [← hl, List.take_left]
      refine ⟨pyChr (parseHex h), by show escAt (92 :: 85 :: (h ++ s)) = _; rw [escAt, if_neg (by decide), if_pos rfl, ht, if_pos ⟨hl, List.all_eq_true.2 fun c hc => isHex_iff.2 (hh c hc)⟩]; simp [hl]⟩

theorem escape_length {p : PStr} (h : Spec.Escape p) : 2 ≤ p.length := by
  rcases h with ⟨c, _, rfl⟩ | h
  · exact Nat.le_refl _
  · cases h <;> simp

/-- Decoding the body of a string shortens it if it has a backslash, and leaves it as it is otherwise. -/
theorem strBody_decode {q : Nat} {b v : PStr} (h : StrBody q b) (hv : decodeLiteral b = .ok v) :
    (92 ∉ b ∧ v = b) ∨ v.length < b.length := by
  induction h generalizing v with
  | nil => cases hv; exact .inl ⟨by simp, rfl⟩
  | @char c s _ h92 _ _ _ ih =>
    rw [decodeLiteral_plain h92] at hv
    cases e : decodeLiteral s with
    | error e' => rw [e] at hv; cases hv
    | ok u =>
      rw [e] at hv; cases hv
      rcases ih e with ⟨h1, rfl⟩ | h1
      · exact .inl ⟨by simp [h1, Ne.symm h92], rfl⟩
      · exact .inr (by simpa using h1)
  | @esc p s hp _ _ =>
    refine .inr ?_
    obtain ⟨r, hr⟩ := escAt_escape hp s
    have hl := escape_length hp
    cases r with
    | error e =>
      match p, hl with
      | c :: p, _ =>
        rw [decodeLiteral, List.cons_append, decodeAux] at hv
        rw [List.cons_append] at hr
        rw [hr] at hv; cases hv
    | ok x =>
      rw [decodeLiteral_esc (by rintro rfl; simp at hl) hr] at hv
      cases e : decodeLiteral s with
      | error e' => rw [e] at hv; cases hv
      | ok u =>
        rw [e] at hv; cases hv
        have := decodeLiteral_length e
        simp; omega

/-! ### C60 -/

/-- None of `"`, `\`, line feed and carriage return. -/
def Clean (s : PStr) : Prop := ∀ c ∈ s, c ≠ 0x22 ∧ c ≠ 0x5C ∧ c ≠ 0x0A ∧ c ≠ 0x0D

theorem clean_of_strBody {s : PStr} (h : StrBody 34 s) (h92 : 92 ∉ s) : Clean s := by
  induction h with
  | nil => intro c hc; cases hc
  | @char c s h1 h2 h3 h4 _ ih =>
    intro d hd
    rcases List.mem_cons.1 hd with rfl | hd
    · exact ⟨h1, h2, h3, h4⟩
    · exact ih (fun h => h92 (List.mem_cons_of_mem _ h)) d hd
  | @esc p s hp _ _ =>
    exfalso
    apply h92
    rcases hp with ⟨c, _, rfl⟩ | h
    · simp
    · cases h <;> simp

theorem Clean.strBody {s : PStr} (h : Clean s) : StrBody 34 s := by
  induction s with
  | nil => exact .nil
  | cons c s ih =>
    obtain ⟨h1, h2, h3, h4⟩ := h c (List.mem_cons_self ..)
    exact .char h1 h2 h3 h4 (ih fun c hc => h c (List.mem_cons_of_mem _ hc))

theorem Clean.no_backslash {s : PStr} (h : Clean s) : 92 ∉ s := fun h' => (h 92 h').2.1 rfl

theorem Clean.decode {s : PStr} (h : Clean s) : decodeLiteral s = .ok s := by
  induction s with
  | nil => rfl
  | cons c s ih =>
    rw [decodeLiteral_plain (h c (List.mem_cons_self ..)).2.1, ih fun c hc => h c (List.mem_cons_of_mem _ hc)]; rfl

theorem Clean.escape {s : PStr} (h : Clean s) : turtleStringEscape s = 34 :: (s ++ [34]) := by
  rw [turtleStringEscape_eq, escaped_plain h.no_backslash]

/-- A string token that is what the writer wrote, and decodes to the string, is the string itself, which has nothing to escape. -/
theorem clean_of_token {D : Dialect} {s b : PStr} (ht : TokText D (.str b) (turtleStringEscape s)) (hd : decodeLiteral b = .ok s) : Clean s := by
  rw [turtleStringEscape_eq] at ht
  generalize hw : (34 :: (escaped s ++ [34]) : PStr) = w at ht
  cases ht with
  | @str q b _ hb =>
    obtain ⟨rfl, h2⟩ : 34 = q ∧ escaped s ++ [34] = b ++ [q] := by simpa using hw
    have h2 : escaped s = b := List.append_cancel_right h2
    rcases strBody_decode hb hd with ⟨h92, rfl⟩ | hlt
    · exact clean_of_strBody hb h92
    · rw [← h2, escaped_length] at hlt; exact absurd hlt (Nat.lt_irrefl _)
  | @long q b _ _ =>
    have h1 := congrArg List.length hw
    have h2 := decodeLiteral_length hd
    have h3 := escaped_length s
    simp at h1
    omega

/-- Full statement of C60: the text written for a string is read as one string token, whose value is the string. -/
def C60_statement : Prop := ∀ s : PStr, ∃ b, lexTok .body (turtleStringEscape s) = some (.str b, []) ∧ decodeLiteral b = .ok s

/-- Exactly the strings without quote, backslash, line feed and carriage return are read back. -/
theorem C60_exact (s : PStr) : (∃ b, lexTok .body (turtleStringEscape s) = some (.str b, []) ∧ decodeLiteral b = .ok s) ↔ Clean s := by
  constructor
  · rintro ⟨b, h, hd⟩
    obtain ⟨w, hw, e⟩ := lexTok_sound h
    rw [List.append_nil] at e
    rw [← e] at hw
    exact clean_of_token hw hd
  · intro h
    refine ⟨s, ?_, h.decode⟩
    rw [h.escape]
    show (scanQuoted 34 (s ++ [34])).map _ = _
    rw [scanQuoted_short (by decide) h.strBody [] (by simp)]
    rfl

/-- The same in terms of the recommendation alone: the text is a string token of Turtle that denotes the string only if there is nothing to escape. -/
theorem C60_exact_w3c (s : PStr) : (∃ b, TokText w3c (.str b) (turtleStringEscape s) ∧ Verif.Spec.Denotes b s) ↔ Clean s := by
  constructor
  · rintro ⟨b, h, hd⟩
    exact clean_of_token h (C88_denotes hd)
  · intro h
    refine ⟨s, ?_, ?_⟩
    · rw [h.escape]; exact .str (.inl rfl) h.strBody
    · induction s with
      | nil => exact .nil
      | cons c s ih => exact .plain (h c (List.mem_cons_self ..)).2.1 (ih fun c hc => h c (List.mem_cons_of_mem _ hc))

/-- The string `a"b` is written `"a"b"`. -/
theorem C60_refuted : ¬ C60_statement := by
  intro h
  have := (C60_exact (py! "a\"b")).1 (h _)
  exact (this 34 (by decide)).1 rfl

/-- C60 for strings without quotes, backslashes and line ends. Missing: all others; by `C60_exact` none of them is read back. -/
theorem C60_string_partial {s : PStr} (h : Clean s) :
    ∃ b, lexTok .body (turtleStringEscape s) = some (.str b, []) ∧ decodeLiteral b = .ok s := (C60_exact s).2 h

example : Clean (py! "it's 5\t€") := by unfold Clean; decide
/-- A line end is written as it is: the result is not a string of the grammar. -/
example : lexTok .body (turtleStringEscape (py! "a\nb")) = none := rfl
/-- A backslash before `t` becomes an escaped tab character: not in the grammar either. -/
example : turtleStringEscape (py! "C:\\temp") = py! "\"C:\\\temp\"" := by decide
/-- Two backslashes are read as one. -/
example : lexTok .body (turtleStringEscape (py! "\\\\")) = some (.str (py! "\\\\"), []) ∧ decodeLiteral (py! "\\\\") = .ok (py! "\\") := ⟨rfl, rfl⟩

end Verif.Turtle
