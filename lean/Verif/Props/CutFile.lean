import Verif.Props.NTriples
import Verif.Props.NTParse
/-
What a beginning of an N-Triples or N-Quads text reads as (C166): a download that was interrupted, a disk that ran full.
-/
namespace Verif
open Spec

/-! ### A parser that has read what it asks for gives the same if more text follows -/

theorem skipWs_more {s : PStr} {c : Nat} {r : PStr} (h : skipWs s = c :: r) (z : PStr) : skipWs (s ++ z) = c :: (r ++ z) := by
  induction s with
  | nil => simp [skipWs] at h
  | cons a s ih =>
    simp only [skipWs, List.cons_append, List.dropWhile_cons] at h ih ⊢
    split at h
    · rename_i ha; simp only [ha, if_true]; exact ih h
    · rename_i ha; simp only [ha]; cases h; rfl

theorem dropEol_more {s t : PStr} (h : s.dropWhile isEol = t) (ht : t ≠ []) (z : PStr) : (s ++ z).dropWhile isEol = t ++ z := by
  induction s with
  | nil => exact absurd (by simpa using h.symm) ht
  | cons a s ih =>
    simp only [List.cons_append, List.dropWhile_cons] at h ih ⊢
    split at h
    · rename_i ha; simp only [ha, if_true]; exact ih h
    · rename_i ha; simp only [ha]; rw [← h]; rfl

theorem ucharTail_more {s : PStr} {n : Nat} (h : ucharTail s = n + 1) (z : PStr) : ucharTail (s ++ z) = n + 1 := by
  unfold ucharTail at h ⊢
  split at h
  · rename_i r
    split at h
    · rename_i hh
      have h4 : 4 ≤ r.length := by have := hh.1; simp at this; omega
      simp only [List.cons_append, List.take_append_of_le_length h4, hh, and_self, if_true]
      exact h
    · exact absurd h (by omega)
  · rename_i r
    split at h
    · rename_i hh
      have h8 : 8 ≤ r.length := by have := hh.1; simp at this; omega
      simp only [List.cons_append, List.take_append_of_le_length h8, hh, and_self, if_true]
      exact h
    · exact absurd h (by omega)
  · exact absurd h (by omega)

theorem escTail_more {s : PStr} {n : Nat} (h : escTail s = n + 1) (z : PStr) : escTail (s ++ z) = n + 1 := by
  cases s with
  | nil => simp [escTail] at h
  | cons c r =>
    simp only [escTail, List.cons_append] at h ⊢
    split at h
    · rename_i hc; rw [if_pos hc]; exact h
    · rename_i hc; rw [if_neg hc]; exact ucharTail_more h z

theorem iriAux_more (z : PStr) : ∀ (s : PStr) (k : Nat) {a b : PStr}, iriAux k s = some (a, b) → iriAux k (s ++ z) = some (a, b ++ z)
  | [], k, a, b, h => by cases k <;> simp [iriAux] at h
  | c :: r, k + 1, a, b, h => by
    simp only [iriAux, List.cons_append, Option.map_eq_some_iff] at h ⊢
    obtain ⟨⟨a', b'⟩, h1, h2⟩ := h
    cases h2
    exact ⟨_, iriAux_more z r k h1, rfl⟩
  | c :: r, 0, a, b, h => by
    simp only [iriAux, List.cons_append] at h ⊢
    split at h
    · rename_i hc; rw [if_pos hc]; cases h; rfl
    · rename_i hc; rw [if_neg hc]
      split at h
      · rename_i hw; rw [if_pos hw]; exact iriAux_more z r 0 h
      · rename_i hw; rw [if_neg hw]
        split at h
        · rename_i hb; rw [if_pos hb]
          cases hu : ucharTail r with
          | zero => simp [hu] at h
          | succ n =>
            simp only [hu, Option.map_eq_some_iff] at h
            obtain ⟨⟨a', b'⟩, h1, h2⟩ := h
            cases h2
            simp only [ucharTail_more hu z, iriAux_more z r (n + 1) h1, Option.map_some]
        · rename_i hb; rw [if_neg hb]
          split at h
          · rename_i hi; rw [if_pos hi]
            simp only [Option.map_eq_some_iff] at h
            obtain ⟨⟨a', b'⟩, h1, h2⟩ := h
            cases h2
            simp only [iriAux_more z r 0 h1, Option.map_some]
          · cases h

theorem strAux_more (z : PStr) : ∀ (s : PStr) (k : Nat) {a b : PStr}, strAux k s = some (a, b) → strAux k (s ++ z) = some (a, b ++ z)
  | [], k, a, b, h => by cases k <;> simp [strAux] at h
  | c :: r, k + 1, a, b, h => by
    simp only [strAux, List.cons_append, Option.map_eq_some_iff] at h ⊢
    obtain ⟨⟨a', b'⟩, h1, h2⟩ := h
    cases h2
    exact ⟨_, strAux_more z r k h1, rfl⟩
  | c :: r, 0, a, b, h => by
    simp only [strAux, List.cons_append] at h ⊢
    split at h
    · rename_i hc; rw [if_pos hc]; cases h; rfl
    · rename_i hc; rw [if_neg hc]
      split at h
      · rename_i hb; rw [if_pos hb]
        cases hu : escTail r with
        | zero => simp [hu] at h
        | succ n =>
          simp only [hu, Option.map_eq_some_iff] at h
          obtain ⟨⟨a', b'⟩, h1, h2⟩ := h
          cases h2
          simp only [escTail_more hu z, strAux_more z r (n + 1) h1, Option.map_some]
      · rename_i hb; rw [if_neg hb]
        split at h
        · cases h
        · rename_i hi; rw [if_neg hi]
          simp only [Option.map_eq_some_iff] at h
          obtain ⟨⟨a', b'⟩, h1, h2⟩ := h
          cases h2
          simp only [strAux_more z r 0 h1, Option.map_some]

theorem pIriRef_more {s v r : PStr} (h : pIriRef s = .ok (v, r)) (z : PStr) : pIriRef (s ++ z) = .ok (v, r ++ z) := by
  unfold pIriRef at h ⊢
  split at h
  · rename_i t ht
    rw [skipWs_more ht z]
    cases hi : iriAux 0 t with
    | none => simp [hi] at h
    | some x =>
      obtain ⟨a, b⟩ := x
      rw [hi] at h
      simp only [iriAux_more z t 0 hi]
      dsimp only at h
      cases hd : decodeLiteral a with
      | error e => rw [hd] at h; cases h
      | ok v' => rw [hd] at h; cases h; rfl
  · cases h

/-- The empty text and full stops are no IRI. -/
theorem pIriRef_dots {s : PStr} (h : ∀ c ∈ s, c = 46) : ∃ e, pIriRef s = .error e := by
  cases s with
  | nil => exact ⟨_, rfl⟩
  | cons c r =>
    obtain rfl : c = 46 := h c (by simp)
    exact ⟨_, rfl⟩

/-! ### Labels: the one token that may go on -/

theorem dropDots_nil {s : PStr} : s.dropWhile (· == 46) = [] ↔ ∀ x ∈ s, (x == 46) = true := by
  induction s with
  | nil => simp
  | cons a s ih => rw [List.dropWhile_cons]; split <;> simp_all

theorem takeWhile_more {P : Nat → Bool} (s z : PStr) : (s ++ z).takeWhile P = if s.all P then s ++ z.takeWhile P else s.takeWhile P := by
  induction s with
  | nil => simp
  | cons a s ih =>
    simp only [List.cons_append, List.takeWhile_cons, List.all_cons]
    cases ha : P a <;> simp
    rw [ih]; split <;> simp_all

/-- A label followed by more text is the same, or it was at the end of the text but for full stops, and goes on. -/
theorem pLabel_more {s l r : PStr} (h : pLabel s = some (l, r)) (z : PStr) :
    pLabel (s ++ z) = some (l, r ++ z) ∨ (∀ c ∈ r, c = 46) ∧ ∃ u w, u ≠ [] ∧ pLabel (s ++ z) = some (l ++ r ++ u, w) := by
  cases s with
  | nil => simp [pLabel] at h
  | cons c s =>
    simp only [pLabel, List.cons_append] at h ⊢
    split at h
    swap
    · cases h
    rename_i hc
    rw [if_pos hc]
    cases h
    by_cases hall : s.all (fun c => pnChars c || c == 46) = true
    · have ht : (s ++ z).takeWhile (fun c => pnChars c || c == 46) = s ++ z.takeWhile (fun c => pnChars c || c == 46) := by
        rw [takeWhile_more, if_pos hall]
      have hs : s.takeWhile (fun c => pnChars c || c == 46) = s := by
        have := takeWhile_more (P := fun c => pnChars c || c == 46) s []
        simp only [List.append_nil, List.takeWhile_nil, if_pos hall] at this; exact this
      -- what is cut off at the end are full stops
      have hdots : ∀ x ∈ s.drop (labelTail s).length, x = 46 := by
        have e : s = labelTail s ++ (s.reverse.takeWhile (· == 46)).reverse := by
          unfold labelTail; rw [hs, ← List.reverse_append, List.takeWhile_append_dropWhile, List.reverse_reverse]
        intro x hx
        have : s.drop (labelTail s).length = (s.reverse.takeWhile (· == 46)).reverse := by
          conv_lhs => rw [e]
          have hl : labelTail (labelTail s ++ (s.reverse.takeWhile (· == 46)).reverse) = labelTail s := by rw [← e]
          rw [hl]; simp
        rw [this, List.mem_reverse] at hx
        have := List.all_takeWhile (l := s.reverse) (p := fun c => c == 46)
        rw [List.all_eq_true] at this
        simpa using this x hx
      by_cases hz : ∀ x ∈ z.takeWhile (fun c => pnChars c || c == 46), x = 46
      · left
        have e : labelTail (s ++ z) = labelTail s := by
          unfold labelTail
          rw [ht, hs, List.reverse_append, List.dropWhile_append]
          have : (z.takeWhile (fun c => pnChars c || c == 46)).reverse.dropWhile (· == 46) = [] := by
            rw [dropDots_nil]; intro x hx; simp [hz x (by simpa using hx)]
          simp only [this, List.isEmpty_nil, if_true]
        rw [e, List.drop_append_of_le_length (labelTail_prefix s).length_le]
      · right
        refine ⟨hdots, ?_⟩
        have e : labelTail (s ++ z) = s ++ ((z.takeWhile (fun c => pnChars c || c == 46)).reverse.dropWhile (· == 46)).reverse := by
          unfold labelTail
          rw [ht, List.reverse_append, List.dropWhile_append]
          have hne : (z.takeWhile (fun c => pnChars c || c == 46)).reverse.dropWhile (· == 46) ≠ [] := by
            intro h; apply hz; rw [dropDots_nil] at h
            intro x hx; simpa using h x (by simpa using hx)
          rw [if_neg (by simpa using hne)]
          simp
        refine ⟨((z.takeWhile (fun c => pnChars c || c == 46)).reverse.dropWhile (· == 46)).reverse, (s ++ z).drop (labelTail (s ++ z)).length, ?_, ?_⟩
        · intro h; apply hz
          have h : (z.takeWhile (fun c => pnChars c || c == 46)).reverse.dropWhile (· == 46) = [] := by simpa using h
          rw [dropDots_nil] at h
          intro x hx; simpa using h x (by simpa using hx)
        · refine congrArg some (Prod.ext ?_ rfl)
          have := List.prefix_iff_eq_append.1 (labelTail_prefix s)
          simp only [List.cons_append, this, e]
    · left
      have e : labelTail (s ++ z) = labelTail s := by
        unfold labelTail
        rw [takeWhile_more, if_neg hall]
      rw [e, List.drop_append_of_le_length (labelTail_prefix s).length_le]

/-! ### Terms and statements -/

/-- The text goes on with the end of the statement or with an IRI. -/
def GoesOn (r : PStr) : Prop := ∃ c r0, skipWs r = c :: r0 ∧ (c = 46 ∨ c = 60)

theorem GoesOn.iri {r v x : PStr} (h : pIriRef r = .ok (v, x)) : GoesOn r := by
  unfold pIriRef at h
  split at h
  · rename_i t ht; exact ⟨60, t, ht, Or.inr rfl⟩
  · cases h

theorem GoesOn.dot {r x : PStr} (h : pDot r = .ok x) : GoesOn r := by
  unfold pDot at h
  split at h
  · rename_i t ht; exact ⟨46, t, ht, Or.inl rfl⟩
  · cases h

theorem pDot_more {s r : PStr} (h : pDot s = .ok r) (z : PStr) : pDot (s ++ z) = .ok (r ++ z) := by
  unfold pDot at h ⊢
  split at h
  · rename_i t ht; rw [skipWs_more ht z]; cases h; rfl
  · cases h

theorem langTail_more (z : PStr) : ∀ (b : Bool) (s : PStr), GoesOn (s.drop (langTail b s).length) → langTail b (s ++ z) = langTail b s
  | b, [], h => by obtain ⟨c, r0, h, _⟩ := h; simp [skipWs] at h
  | b, c :: r, h => by
    unfold langTail at h ⊢
    simp only [List.cons_append]
    by_cases hc : (if b = true then langSub c else isLetter c) = true
    · rw [if_pos hc] at h ⊢
      rw [if_pos hc, langTail_more z b r (by simpa using h)]
    · rw [if_neg hc] at h ⊢
      rw [if_neg hc]
      split at h
      · rename_i d r'
        simp only [List.cons_append]
        split at h
        · rename_i hd
          rw [if_pos hd, if_pos hd]
          rw [langTail_more z true r' (by simpa using h)]
        · rename_i hd
          rw [if_neg hd, if_neg hd]
      · rename_i hno
        obtain ⟨x, r0, h1, h2⟩ := h
        have hx : c ≠ 45 := by
          rintro rfl
          simp only [List.length_nil, List.drop_zero, skipWs, List.dropWhile_cons] at h1
          simp [isWs] at h1
          rcases h2 with rfl | rfl <;> simp at h1
        split
        · exact absurd rfl hx
        · rfl
  termination_by _ s => s.length

theorem pSuffix_more {v s : PStr} {t : RTerm} {r : PStr} (h : pSuffix v s = .ok (t, r)) (hr : GoesOn r) (z : PStr) : pSuffix v (s ++ z) = .ok (t, r ++ z) := by
  unfold pSuffix at h ⊢
  split at h
  · rename_i x hx
    rw [skipWs_more hx z]
    cases hi : pIriRef x with
    | error e => rw [hi] at h; cases h
    | ok y =>
      obtain ⟨a, b⟩ := y
      rw [hi] at h; cases h
      simp only [List.cons_append, pIriRef_more hi z]; rfl
  · rename_i x hx
    rw [skipWs_more hx z]
    cases x with
    | nil => cases h
    | cons c x =>
      dsimp only at h
      simp only [List.cons_append]
      split at h
      · rename_i hc
        rw [if_pos hc]
        cases h
        rw [langTail_more z false x hr]
        have hl : (langTail false x).length ≤ x.length := by
          obtain ⟨c', r0, h1, _⟩ := hr
          by_contra hlt
          rw [List.drop_eq_nil_of_le (by omega)] at h1
          simp [skipWs] at h1
        rw [List.drop_append_of_le_length hl]
      · cases h
  · cases h
    obtain ⟨c, r0, h1, h2⟩ := hr
    rw [skipWs_more h1 z]
    rcases h2 with rfl | rfl <;> rfl

theorem pSubject_more {s : PStr} {t : RTerm} {r : PStr} (h : pSubject s = .ok (t, r)) (z : PStr) :
    pSubject (s ++ z) = .ok (t, r ++ z) ∨
    (∀ c ∈ r, c = 46) ∧ ∃ l u w, u ≠ [] ∧ t = .label l ∧ pSubject (s ++ z) = .ok (.label (l ++ r ++ u), w) := by
  unfold pSubject at h
  split at h
  · rename_i x hx
    cases hl : pLabel x with
    | none => rw [hl] at h; cases h
    | some y =>
      obtain ⟨l, b⟩ := y
      rw [hl] at h; cases h
      unfold pSubject
      rw [skipWs_more hx z]
      simp only [List.cons_append]
      rcases pLabel_more hl z with h | ⟨h1, u, w, h2, h3⟩
      · left; rw [h]
      · right; exact ⟨h1, l, u, w, h2, rfl, by rw [h3]⟩
  · rename_i hno
    left
    cases hi : pIriRef s with
    | error e => rw [hi] at h; cases h
    | ok y =>
      obtain ⟨a, b⟩ := y
      rw [hi] at h; cases h
      have hs : ∃ x, skipWs s = 60 :: x := by
        unfold pIriRef at hi
        split at hi
        · rename_i x hx; exact ⟨x, hx⟩
        · cases hi
      obtain ⟨x, hx⟩ := hs
      unfold pSubject
      rw [skipWs_more hx z]
      simp only [pIriRef_more hi z]; rfl

theorem pObject_more {s : PStr} {t : RTerm} {r : PStr} (h : pObject s = .ok (t, r)) (hr : GoesOn r) (z : PStr) :
    pObject (s ++ z) = .ok (t, r ++ z) ∨
    (∀ c ∈ r, c = 46) ∧ ∃ l u w, u ≠ [] ∧ t = .label l ∧ pObject (s ++ z) = .ok (.label (l ++ r ++ u), w) := by
  by_cases hq : ∃ x, skipWs s = 34 :: x
  · obtain ⟨x, hx⟩ := hq
    left
    unfold pObject at h ⊢
    rw [hx] at h
    rw [skipWs_more hx z]
    simp only at h ⊢
    cases hs : strAux 0 x with
    | none => rw [hs] at h; cases h
    | some y =>
      obtain ⟨a, b⟩ := y
      rw [hs] at h
      rw [strAux_more z x 0 hs]
      dsimp only at h ⊢
      cases hd : decodeLiteral a with
      | error e => rw [hd] at h; cases h
      | ok v => rw [hd] at h; exact pSuffix_more h hr z
  · have e : ∀ s', (¬ ∃ x, skipWs s' = 34 :: x) → pObject s' = pSubject s' := by
      intro s' hn
      unfold pObject
      split
      · rename_i x hx; exact absurd ⟨x, hx⟩ hn
      · rfl
    rw [e s hq] at h
    have hne : ∃ c x, skipWs s = c :: x := by
      cases hx : skipWs s with
      | nil =>
        exfalso
        have h' : pSubject s = .error .unexpectedInput := by simp [pSubject, pIriRef, hx, Except.map]
        rw [h'] at h; cases h
      | cons c x => exact ⟨c, x, rfl⟩
    obtain ⟨c, x, hx⟩ := hne
    have hc : c ≠ 34 := fun h => hq ⟨x, h ▸ hx⟩
    have hq' : ¬ ∃ y, skipWs (s ++ z) = 34 :: y := by
      rintro ⟨y, hy⟩
      rw [skipWs_more hx z] at hy
      exact hc (by injection hy)
    rw [e _ hq']
    exact pSubject_more h z

theorem dots_not_goesOn_iri {r v x : PStr} (h : ∀ c ∈ r, c = 46) : pIriRef r ≠ .ok (v, x) := by
  obtain ⟨e, he⟩ := pIriRef_dots h
  rw [he]; intro h; cases h

/-- A statement followed by more text is the same; or, in N-Triples, it ended with the text, in a label and a full stop, and the label goes on with the full stop and more. -/
theorem pStmt_more {q : Bool} {s : PStr} {t : RStmt} {r : PStr} (h : pStmt q s = .ok (t, r)) (z : PStr) :
    pStmt q (s ++ z) = .ok (t, r ++ z) ∨
    q = false ∧ (∀ c ∈ r, c = 46) ∧ ∃ l u, u ≠ [] ∧ t.o = .label l ∧
      ∀ t' r', pStmt q (s ++ z) = .ok (t', r') → t' = { t with o := .label (l ++ 46 :: r ++ u) } := by
  unfold pStmt at h
  cases h1 : pSubject s with
  | error e => rw [h1] at h; cases h
  | ok x1 =>
    obtain ⟨sub, r1⟩ := x1
    rw [h1] at h; dsimp only at h
    cases h2 : pIriRef r1 with
    | error e => rw [h2] at h; cases h
    | ok x2 =>
      obtain ⟨pred, r2⟩ := x2
      rw [h2] at h; dsimp only at h
      cases h3 : pObject r2 with
      | error e => rw [h3] at h; cases h
      | ok x3 =>
        obtain ⟨obj, r3⟩ := x3
        rw [h3] at h; dsimp only at h
        cases h4 : pGraph q r3 with
        | error e => rw [h4] at h; cases h
        | ok x4 =>
          obtain ⟨gr, r4⟩ := x4
          rw [h4] at h; dsimp only at h
          cases h5 : pDot r4 with
          | error e => rw [h5] at h; cases h
          | ok r5 =>
            rw [h5] at h; cases h
            have e1 : pSubject (s ++ z) = .ok (sub, r1 ++ z) := by
              rcases pSubject_more h1 z with h | ⟨hd, _⟩
              · exact h
              · exact absurd h2 (dots_not_goesOn_iri hd)
            have e2 := pIriRef_more h2 z
            have hg3 : GoesOn r3 := by
              cases q with
              | false => simp only [pGraph] at h4; cases h4; exact GoesOn.dot h5
              | true =>
                simp only [pGraph, if_true] at h4
                cases hi : pIriRef r3 with
                | error e => rw [hi] at h4; cases h4
                | ok y => exact GoesOn.iri hi
            rcases pObject_more h3 hg3 z with e3 | ⟨hd, l, u, w, hu, rfl, e3⟩
            · left
              have e4 : pGraph q (r3 ++ z) = .ok (gr, r4 ++ z) := by
                cases q with
                | false => simp only [pGraph] at h4 ⊢; cases h4; rfl
                | true =>
                  simp only [pGraph, if_true] at h4 ⊢
                  cases hi : pIriRef r3 with
                  | error e => rw [hi] at h4; cases h4
                  | ok y =>
                    obtain ⟨a, b⟩ := y
                    rw [hi] at h4; cases h4
                    rw [pIriRef_more hi z]; rfl
              unfold pStmt
              simp only [e1, e2, e3, e4, pDot_more h5 z]; rfl
            · right
              cases q with
              | true =>
                simp only [pGraph, if_true] at h4
                cases hi : pIriRef r3 with
                | error e => rw [hi] at h4; cases h4
                | ok y => exact absurd hi (dots_not_goesOn_iri hd)
              | false =>
                simp only [pGraph] at h4; cases h4
                have hr3 : r3 = 46 :: r := by
                  cases r3 with
                  | nil => simp [pDot, skipWs] at h5
                  | cons c x =>
                    obtain rfl : c = 46 := hd c (by simp)
                    have : pDot (46 :: x) = .ok x := rfl
                    rw [this] at h5; cases h5; rfl
                refine ⟨rfl, fun c hc => hd c (by rw [hr3]; simp [hc]), l, u, hu, rfl, ?_⟩
                intro t' r' h'
                unfold pStmt at h'
                simp only [e1, e2, e3] at h'
                cases hg : pGraph false w with
                | error e => rw [hg] at h'; cases h'
                | ok y =>
                  obtain ⟨gr', r4'⟩ := y
                  rw [hg] at h'
                  simp only [pGraph] at hg; cases hg
                  dsimp only at h'
                  cases hp : pDot w with
                  | error e => rw [hp] at h'; cases h'
                  | ok r5' => rw [hp] at h'; cases h'; rw [hr3]

/-! ### Texts -/

/-- Specification: `rs'` is what the first statements of `rs` are; or, in N-Triples, that of the last the object is a blank node of which only the part of the label before
    a full stop was left. -/
def CutOf (q : Bool) (rs' rs : List RStmt) : Prop :=
  rs' <+: rs ∨ q = false ∧ ∃ pre t post l m, rs = pre ++ t :: post ∧ t.o = .label (l ++ 46 :: m) ∧ m ≠ [] ∧ rs' = pre ++ [{ t with o := .label l }]

theorem CutOf.cons {q : Bool} {rs' rs : List RStmt} (h : CutOf q rs' rs) (t : RStmt) : CutOf q (t :: rs') (t :: rs) := by
  rcases h with h | ⟨hq, pre, t', post, l, m, rfl, h1, h2, rfl⟩
  · exact Or.inl (List.cons_prefix_cons.2 ⟨rfl, h⟩)
  · exact Or.inr ⟨hq, t :: pre, t', post, l, m, rfl, h1, h2, rfl⟩

theorem pTail_dots {q : Bool} {n : Nat} {r : PStr} (h : ∀ c ∈ r, c = 46) {rs : List RStmt} (hr : pTail q n r = .ok rs) : r = [] ∧ rs = [] := by
  cases n with
  | zero => cases hr
  | succ n =>
    cases r with
    | nil => simp [pTail, skipWs] at hr; exact ⟨rfl, hr⟩
    | cons c r =>
      obtain rfl : c = 46 := h c (by simp)
      cases hr

/-- A statement and what follows it, cut. -/
theorem stmt_cut {q : Bool} {s z : PStr} {t t2 : RStmt} {r r2 : PStr} (h : pStmt q s = .ok (t, r)) (h2 : pStmt q (s ++ z) = .ok (t2, r2)) {n m : Nat} {rs' rs : List RStmt}
    (hn : pTail q n r = .ok rs') (hm : pTail q m r2 = .ok rs) (ih : pTail q m (r ++ z) = .ok rs → CutOf q rs' rs) : CutOf q (t :: rs') (t2 :: rs) := by
  rcases pStmt_more h z with e | ⟨hq, hd, l, u, hu, ho, hf⟩
  · rw [e] at h2; cases h2
    exact (ih hm).cons _
  · obtain ⟨rfl, rfl⟩ := pTail_dots hd hn
    have := hf _ _ h2
    subst this
    refine Or.inr ⟨hq, [], _, rs, l, u, rfl, by simp, hu, ?_⟩
    simp [← ho]

theorem pTail_cut {q : Bool} {z : PStr} : ∀ (n : Nat) {p : PStr} {rs' : List RStmt}, pTail q n p = .ok rs' → ∀ {m : Nat} {rs : List RStmt}, pTail q m (p ++ z) = .ok rs → CutOf q rs' rs
  | 0, _, _, h, _, _, _ => by cases h
  | n + 1, p, rs', h, 0, _, h2 => by cases h2
  | n + 1, p, rs', h, m + 1, rs, h2 => by
    unfold pTail at h h2
    cases hp : skipWs p with
    | nil => rw [hp] at h; cases h; exact Or.inl (List.nil_prefix)
    | cons c r =>
      rw [hp] at h
      rw [skipWs_more hp z] at h2
      dsimp only at h h2
      by_cases hc : isEol c = true
      swap
      · rw [if_neg hc] at h; cases h
      rw [if_pos hc] at h h2
      cases ht : skipWs (r.dropWhile isEol) with
      | nil => rw [ht] at h; cases h; exact Or.inl (List.nil_prefix)
      | cons d t =>
        have hne : r.dropWhile isEol ≠ [] := by intro h; rw [h] at ht; simp [skipWs] at ht
        rw [ht] at h
        rw [dropEol_more rfl hne z, skipWs_more ht z] at h2
        dsimp only at h h2
        cases h3 : pStmt q (d :: t) with
        | error e => rw [h3] at h; cases h
        | ok x =>
          obtain ⟨st, r'⟩ := x
          rw [h3] at h; dsimp only at h
          cases h4 : pStmt q (d :: (t ++ z)) with
          | error e => rw [h4] at h2; cases h2
          | ok y =>
            obtain ⟨st2, r2⟩ := y
            rw [h4] at h2; dsimp only at h2
            cases h5 : pTail q n r' with
            | error e => rw [h5] at h; cases h
            | ok a =>
              rw [h5] at h; cases h
              cases h6 : pTail q m r2 with
              | error e => rw [h6] at h2; cases h2
              | ok b =>
                rw [h6] at h2; cases h2
                exact stmt_cut (z := z) h3 h4 h5 h6 (fun e => pTail_cut n h5 e)

/-- **What a beginning of a text reads as**, if both are read: the first statements of the text; or, in N-Triples, these and one whose object is a blank node with the beginning
    of a label up to a full stop. -/
theorem C166_exact {q : Bool} {p z : PStr} {rs' rs : List RStmt} (h : pDoc q (p ++ z) = .ok rs) (h' : pDoc q p = .ok rs') : CutOf q rs' rs := by
  unfold pDoc at h h'
  cases hp : skipWs p with
  | nil => rw [hp] at h'; cases h'; exact Or.inl (List.nil_prefix)
  | cons c r =>
    rw [hp] at h'
    rw [skipWs_more hp z] at h
    dsimp only at h h'
    by_cases hc : isEol c = true
    · rw [if_pos hc] at h h'
      exact pTail_cut _ h' h
    · rw [if_neg hc] at h h'
      cases h3 : pStmt q (c :: r) with
      | error e => rw [h3] at h'; cases h'
      | ok x =>
        obtain ⟨st, r'⟩ := x
        rw [h3] at h'; dsimp only at h'
        cases h4 : pStmt q (c :: (r ++ z)) with
        | error e => rw [h4] at h; cases h
        | ok y =>
          obtain ⟨st2, r2⟩ := y
          rw [h4] at h; dsimp only at h
          cases h5 : pTail q (p.length + 1) r' with
          | error e => rw [h5] at h'; cases h'
          | ok a =>
            rw [h5] at h'; cases h'
            cases h6 : pTail q ((p ++ z).length + 1) r2 with
            | error e => rw [h6] at h; cases h
            | ok b =>
              rw [h6] at h; cases h
              exact stmt_cut (z := z) h3 h4 h5 h6 (fun e => pTail_cut _ h5 e)

/-- The property: whenever a text is read, then a beginning of it raises and adds nothing, or is read as the first statements of the text. -/
def C166_statement : Prop :=
  ∀ (q : Bool) (next : Nat) (text p : PStr) (ts : List Stmt) (n : Nat), parseString (fun l t => l ++ [t]) q next text [] = (ts, n, .ok ()) → p <+: text →
    (∃ e, parseString (fun l t => l ++ [t]) q next p [] = ([], next, .error e)) ∨
    ∃ k n', parseString (fun l t => l ++ [t]) q next p [] = (ts.take k, n', .ok ())

/-- An N-Triples text that ends with the blank node `_:x.y`, cut after `_:x.`: the graph has another blank node in its place. -/
theorem C166_refuted : ¬ C166_statement := by
  intro h
  rcases h false 0 (py! "<s> <p> <o> .\n<s> <q> _:x .\n<s> <r> _:x.y .\n") (py! "<s> <p> <o> .\n<s> <q> _:x .\n<s> <r> _:x.")
    [mkTriple (.named (py! "s")) (.named (py! "p")) (.named (py! "o")), mkTriple (.named (py! "s")) (.named (py! "q")) (.bnode 0),
      mkTriple (.named (py! "s")) (.named (py! "r")) (.bnode 1)] 2 (by decide) (by decide) with ⟨e, he⟩ | ⟨k, n', hk⟩
  · have := congrArg (·.2.2) he
    dsimp only at this
    rw [show (parseString (fun l t => l ++ [t]) false 0 (py! "<s> <p> <o> .\n<s> <q> _:x .\n<s> <r> _:x.") []).2.2 = .ok () from by decide] at this
    cases this
  · have := congrArg (·.1) hk
    dsimp only at this
    rw [show (parseString (fun l t => l ++ [t]) false 0 (py! "<s> <p> <o> .\n<s> <q> _:x .\n<s> <r> _:x.") []).1 =
      [mkTriple (.named (py! "s")) (.named (py! "p")) (.named (py! "o")), mkTriple (.named (py! "s")) (.named (py! "q")) (.bnode 0),
        mkTriple (.named (py! "s")) (.named (py! "r")) (.bnode 0)] from by decide] at this
    match k with
    | 0 | 1 | 2 => simp at this
    | k + 3 =>
      simp only [List.take_succ_cons, List.take_nil, List.cons.injEq, and_true, true_and] at this
      exact absurd this (by decide)

/-- Specification: no blank node that is an object has a label with a full stop in it. -/
def NoDots (rs : List RStmt) : Prop := ∀ t ∈ rs, ∀ l, t.o = .label l → 46 ∉ l

theorem CutOf.first {q : Bool} {rs' rs : List RStmt} (h : CutOf q rs' rs) (hq : q = true ∨ NoDots rs) : rs' <+: rs := by
  rcases h with h | ⟨rfl, pre, t, post, l, m, rfl, h1, h2, rfl⟩
  · exact h
  · rcases hq with h | h
    · cases h
    · exact absurd (by simp) (h t (by simp) _ h1)

theorem BState.stmts_take (rs : List RStmt) : ∀ (k : Nat) (st : BState), (st.stmts (rs.take k)).2 = (st.stmts rs).2.take k := by
  induction rs with
  | nil => intro k st; simp [BState.stmts]
  | cons t rs ih =>
    intro k st
    cases k with
    | zero => simp [BState.stmts]
    | succ k => simp [BState.stmts, ih]

theorem foldl_log (ts : List Stmt) : ∀ a : List Stmt, ts.foldl (fun l t => l ++ [t]) a = a ++ ts := by
  induction ts with
  | nil => simp
  | cons t ts ih => intro a; simp [ih]

/-- Proved part of C166, with a string: all N-Quads texts, and the N-Triples texts in which no object is a blank node with a full stop in its label. For every sink. The full claim is
    `C166_statement`. -/
theorem C166_string_partial {σ : Type} (add : σ → Stmt → σ) (sink : σ) {q : Bool} {next : Nat} {text p : PStr} {ts : List Stmt} {n : Nat}
    (h : parseString (fun l t => l ++ [t]) q next text [] = (ts, n, .ok ())) (hp : p <+: text)
    (hq : q = true ∨ ∀ rs, pDoc q text = .ok rs → NoDots rs) :
    (∃ e, parseString add q next p sink = (sink, next, .error e)) ∨
    ∃ k n', parseString add q next p sink = ((ts.take k).foldl add sink, n', .ok ()) := by
  obtain ⟨z, rfl⟩ := hp
  unfold parseString at h ⊢
  cases hd : pDoc q (p ++ z) with
  | error e => rw [hd] at h; cases h
  | ok rs =>
    rw [hd] at h
    cases hd' : pDoc q p with
    | error e => exact Or.inl ⟨e, rfl⟩
    | ok rs' =>
      right
      have hpre := (C166_exact hd hd').first (hq.imp id fun h => h rs hd)
      have e : ts = (BState.stmts ⟨[], next⟩ rs).2 := by
        have := congrArg (·.1) h
        dsimp only at this
        rw [foldl_log] at this
        simpa using this.symm
      refine ⟨rs'.length, (BState.stmts ⟨[], next⟩ rs').1.next, ?_⟩
      rw [e, ← BState.stmts_take, ← List.prefix_iff_eq_take.1 hpre]

/-- N-Quads: without a condition. -/
theorem C166_nquads {σ : Type} (add : σ → Stmt → σ) (sink : σ) {next : Nat} {text p : PStr} {ts : List Stmt} {n : Nat}
    (h : parseString (fun l t => l ++ [t]) true next text [] = (ts, n, .ok ())) (hp : p <+: text) :
    (∃ e, parseString add true next p sink = (sink, next, .error e)) ∨
    ∃ k n', parseString add true next p sink = ((ts.take k).foldl add sink, n', .ok ()) :=
  C166_string_partial add sink h hp (Or.inl rfl)

/-- The condition can be met, and a text of two triples cut in its second line, at its end, and behind its last full stop. -/
example : (∃ rs, pDoc false (py! "<s> <p> _:x .\n_:x <p> \"a. b\"@en .\n") = .ok rs ∧ rs.length = 2 ∧ ∀ t ∈ rs, t.o ≠ .label (py! "_:x.y")) ∧
    (parseString (fun l t => l ++ [t]) false 0 (py! "<s> <p> _:x .\n_:x <p> \"a.") []).2.2 = .error .unexpectedInput ∧
    (parseString (fun l t => l ++ [t]) false 0 (py! "<s> <p> _:x .\n") []).1.length = 1 ∧
    (parseString (fun l t => l ++ [t]) false 0 (py! "<s> <p> _:x .\n_:x <p> \"a. b\"@en .") []).1.length = 2 :=
  ⟨⟨_, rfl, rfl, by decide⟩, by decide, by decide, by decide⟩

/-! ### Streams -/

/-- The lines of a beginning of a text are the first lines of the text, the last of them perhaps cut. -/
theorem splitLines_cut : ∀ (p : PStr) {s : PStr}, p <+: s →
    splitLines p <+: splitLines s ∨ ∃ pre c l post, splitLines p = pre ++ [c] ∧ splitLines s = pre ++ l :: post ∧ c <+: l
  | [], s, _ => Or.inl (by simp [splitLines])
  | a :: p, [], h => by simp at h
  | a :: p, b :: s, h => by
    obtain ⟨rfl, hps⟩ := List.cons_prefix_cons.1 h
    have ih := splitLines_cut p hps
    by_cases ha : a = 10
    · simp only [splitLines, if_pos ha]
      rcases ih with ih | ⟨pre, c, l, post, h1, h2, h3⟩
      · exact Or.inl (List.cons_prefix_cons.2 ⟨rfl, ih⟩)
      · exact Or.inr ⟨[10] :: pre, c, l, post, by simp [h1], by simp [h2], h3⟩
    · simp only [splitLines, if_neg ha]
      cases hp : splitLines p with
      | nil =>
        right
        cases hs : splitLines s with
        | nil => exact ⟨[], [a], [a], [], rfl, rfl, List.prefix_rfl⟩
        | cons l ls => exact ⟨[], [a], a :: l, ls, rfl, rfl, by simp⟩
      | cons l ls =>
        rw [hp] at ih
        rcases ih with ih | ⟨pre, c, l', post, h1, h2, h3⟩
        · left
          cases hs : splitLines s with
          | nil => rw [hs] at ih; simp at ih
          | cons l' ls' =>
            rw [hs] at ih
            obtain ⟨rfl, ih2⟩ := List.cons_prefix_cons.1 ih
            exact List.cons_prefix_cons.2 ⟨rfl, ih2⟩
        · right
          cases pre with
          | nil =>
            simp only [List.nil_append, List.cons.injEq] at h1
            obtain ⟨rfl, rfl⟩ := h1
            rw [h2]
            exact ⟨[], a :: l, a :: l', post, rfl, rfl, List.cons_prefix_cons.2 ⟨rfl, h3⟩⟩
          | cons x pre =>
            simp only [List.cons_append, List.cons.injEq] at h1
            obtain ⟨rfl, rfl⟩ := h1
            rw [h2]
            exact ⟨(a :: l) :: pre, c, l', post, rfl, rfl, h3⟩

theorem parseLines_grows (q : Bool) : ∀ (st : BState) (ls : List PStr) (acc : List Stmt), acc <+: (parseLines (fun l t => l ++ [t]) q st ls acc).1
  | st, [], acc => List.prefix_rfl
  | st, l :: ls, acc => by
    simp only [parseLines]
    split
    · exact parseLines_grows q st ls acc
    · split
      · exact List.prefix_rfl
      · split
        · exact List.prefix_rfl
        · exact (List.prefix_append _ _).trans (parseLines_grows q _ ls _)

/-- Reading the first lines, and then something else. -/
theorem parseLines_take {σ : Type} (add : σ → Stmt → σ) {q : Bool} : ∀ (pre : List PStr) (tail post : List PStr) (st : BState) (sink : σ) (acc ts : List Stmt) (st' : BState),
    parseLines (fun l t => l ++ [t]) q st (pre ++ post) acc = (acc ++ ts, st', .ok ()) →
    (∀ (st : BState) (sink : σ) (acc ts : List Stmt), parseLines (fun l t => l ++ [t]) q st post acc = (acc ++ ts, st', .ok ()) →
      ∃ k, (parseLines add q st tail sink).1 = (ts.take k).foldl add sink) →
    ∃ k, (parseLines add q st (pre ++ tail) sink).1 = (ts.take k).foldl add sink
  | [], tail, post, st, sink, acc, ts, st', h, ht => ht st sink acc ts h
  | l :: pre, tail, post, st, sink, acc, ts, st', h, ht => by
    simp only [List.cons_append, parseLines] at h ⊢
    by_cases hl : l = []
    · rw [if_pos hl] at h ⊢
      exact parseLines_take add pre tail post st sink acc ts st' h ht
    · rw [if_neg hl] at h ⊢
      cases hd : pDoc q l with
      | error e => rw [hd] at h; simp at h
      | ok rs =>
        rw [hd] at h; dsimp only at h ⊢
        cases hr : (st.stmts rs).2 with
        | nil => rw [hr] at h; simp at h
        | cons t us =>
          rw [hr] at h; dsimp only at h ⊢
          have hpre : ∃ ts', ts = t :: ts' := by
            have : acc ++ [t] <+: acc ++ ts := by
              have hm := parseLines_grows q (st.stmts rs).1 (pre ++ post) (acc ++ [t])
              rw [h] at hm; exact hm
            rw [List.prefix_append_right_inj] at this
            obtain ⟨ts', rfl⟩ := this
            exact ⟨ts', rfl⟩
          obtain ⟨ts', rfl⟩ := hpre
          obtain ⟨k, hk⟩ := parseLines_take add pre tail post (st.stmts rs).1 (add sink t) (acc ++ [t]) ts' st' (by rw [h]; simp) ht
          exact ⟨k + 1, by rw [hk]; rfl⟩

/-- Proved part of C166, with a stream: whatever the outcome, a beginning of a text adds the first statements that the whole text adds, and nothing else. -/
theorem C166_stream_partial {σ : Type} (add : σ → Stmt → σ) (sink : σ) {q : Bool} {next : Nat} {text p : PStr} {ts : List Stmt} {n : Nat}
    (h : parseStream (fun l t => l ++ [t]) q next text [] = (ts, n, .ok ())) (hp : p <+: text)
    (hq : q = true ∨ ∀ l ∈ splitLines text, ∀ rs, pDoc q l = .ok rs → NoDots rs) :
    ∃ k, (parseStream add q next p sink).1 = (ts.take k).foldl add sink := by
  unfold parseStream at h ⊢
  dsimp only at h ⊢
  obtain ⟨st', hst⟩ : ∃ st', parseLines (fun l t => l ++ [t]) q ⟨[], next⟩ (splitLines text) [] = (ts, st', .ok ()) := by
    generalize parseLines (fun l t => l ++ [t]) q ⟨[], next⟩ (splitLines text) [] = x at h
    obtain ⟨a, b, c⟩ := x
    cases h; exact ⟨b, rfl⟩
  rcases splitLines_cut p hp with ⟨post, hpre⟩ | ⟨pre, c, l, post, h1, h2, h3⟩
  · have := parseLines_take add (q := q) (splitLines p) [] post ⟨[], next⟩ sink [] ts st' (by rw [hpre]; exact hst) (fun st sink acc ts _ => ⟨0, rfl⟩)
    simpa using this
  · rw [h1]
    refine parseLines_take add pre [c] (l :: post) ⟨[], next⟩ sink [] ts st' (by rw [← h2]; exact hst) ?_
    intro st sink acc ts h
    simp only [parseLines] at h ⊢
    by_cases hc : c = []
    · rw [if_pos hc]; exact ⟨0, rfl⟩
    rw [if_neg hc]
    have hl : l ≠ [] := by rintro rfl; simp at h3; exact hc h3
    rw [if_neg hl] at h
    cases hd : pDoc q l with
    | error e => rw [hd] at h; simp at h
    | ok rs =>
      rw [hd] at h; dsimp only at h
      cases hr : (st.stmts rs).2 with
      | nil => rw [hr] at h; simp at h
      | cons t us =>
        rw [hr] at h; dsimp only at h
        cases hd' : pDoc q c with
        | error e => exact ⟨0, rfl⟩
        | ok rs' =>
          dsimp only
          obtain ⟨z, rfl⟩ := h3
          have hf := (C166_exact hd hd').first (hq.imp id fun h => h _ (by rw [h2]; simp) rs hd)
          have e : (st.stmts rs').2 = (t :: us).take rs'.length := by
            rw [← hr, ← BState.stmts_take, ← List.prefix_iff_eq_take.1 hf]
          cases hr' : (st.stmts rs').2 with
          | nil => exact ⟨0, rfl⟩
          | cons t' us' =>
            have ht : t' = t := by
              rw [hr'] at e
              cases hk : rs'.length with
              | zero => rw [hk] at e; simp at e
              | succ k => rw [hk] at e; simp at e; exact e.1
            subst ht
            have hg := parseLines_grows q (st.stmts rs).1 post (acc ++ [t'])
            rw [h] at hg
            rw [List.prefix_append_right_inj] at hg
            obtain ⟨ts', rfl⟩ := hg
            exact ⟨1, rfl⟩

/-! ### The library's own files -/

theorem written_noDots {t : Stmt} : NoDots [asReadStmt t] := by
  intro x hx l hl
  simp only [List.mem_singleton] at hx
  subst hx
  simp only [asReadStmt] at hl
  cases ho : t.o with
  | bnode i =>
    rw [ho] at hl; cases hl
    obtain ⟨c, r, h1, h2, h3⟩ := bnodeStr_letters i
    rw [h1]
    have hc : c ≠ 46 := by rintro rfl; revert h2; decide
    have hr : 46 ∉ r := fun h => by have := h3 46 h; revert this; decide
    simp [hr, Ne.symm hc]
  | lit v lg d =>
    rw [ho] at hl
    unfold asRead at hl
    split at hl <;> first | (rename_i he; cases he; done) | (cases hl; done)
  | none => rw [ho] at hl; cases hl
  | named n => rw [ho] at hl; cases hl
  | gen n => rw [ho] at hl; cases hl

/-- A line that the library writes, cut within the line. -/
theorem torn_line {t : Stmt} (ht : t.IsRdf ∧ t.NTOk) {l c : PStr} (hl : tripleStr t = .ok (l ++ [10])) (hc : c <+: l) (hne : c ≠ []) (hcl : c ≠ l) : ∃ e, pDoc false c = .error e := by
  obtain ⟨l', hl1, hl2, hl3, hl4⟩ := line_of_triple ht.1 ht.2
  rw [hl] at hl1
  obtain rfl : l = l' := by simpa using hl1
  -- the line begins with a subject and ends with a full stop
  have hends : (∃ d x, l = d :: x ∧ isWs d = false) ∧ ∃ y, l = y ++ [46] := by
    unfold tripleStr at hl
    cases hs : t.s.toNT with
    | error e => rw [hs] at hl; cases hl
    | ok a =>
      cases hp : t.p.toNT with
      | error e => rw [hs, hp] at hl; cases hl
      | ok b =>
        cases ho : t.o.toNT with
        | error e => rw [hs, hp, ho] at hl; cases hl
        | ok o =>
          rw [hs, hp, ho] at hl
          have hl : a ++ [32] ++ b ++ [32] ++ o ++ [32, 46] ++ [10] = l ++ [10] := by
            have := Except.ok.inj hl
            rw [← this]; simp
          have hl := List.append_cancel_right hl
          refine ⟨?_, a ++ [32] ++ b ++ [32] ++ o ++ [32], by rw [← hl]; simp⟩
          have ha : ∃ d x, a = d :: x ∧ isWs d = false := by
            rcases ht.1.subj with ⟨n, hn⟩ | ⟨i, hi⟩
            · rw [hn] at hs
              simp only [Term.toNT, iriToNT] at hs
              cases hq : quoteNormalizedIri n with
              | error e => rw [hq] at hs; cases hs
              | ok q => rw [hq] at hs; cases hs; exact ⟨60, _, rfl, rfl⟩
            · rw [hi] at hs; cases hs; exact ⟨95, _, rfl, rfl⟩
          obtain ⟨d, x, rfl, hd⟩ := ha
          exact ⟨d, x ++ [32] ++ b ++ [32] ++ o ++ [32, 46], by rw [← hl]; simp, hd⟩
  obtain ⟨⟨d, x, hx, hd⟩, y, hy⟩ := hends
  obtain ⟨z, hz⟩ := hc
  have hzne : z ≠ [] := by rintro rfl; exact hcl (by simpa using hz)
  obtain ⟨c', hc'⟩ : ∃ c', c = d :: c' := by
    cases c with
    | nil => exact absurd rfl hne
    | cons a c' => rw [hx] at hz; simp at hz; exact ⟨c', by rw [hz.1]⟩
  have hz46 : ∃ z', z = z' ++ [46] := by
    obtain ⟨z', a, rfl⟩ : ∃ z' a, z = z' ++ [a] := ⟨z.dropLast, z.getLast hzne, (List.dropLast_append_getLast hzne).symm⟩
    rw [hy, ← List.append_assoc] at hz
    have := List.append_inj_right' hz rfl
    exact ⟨z', by rw [this]⟩
  have hde : isEol d = false := hl2.starts d x (by rw [hx]; simp [skipWs, hd])
  cases hdoc : pDoc false c with
  | error e => exact ⟨e, rfl⟩
  | ok rs =>
    exfalso
    unfold pDoc at hdoc
    have hsk : skipWs c = d :: c' := by rw [hc']; simp [skipWs, hd]
    rw [hsk] at hdoc
    simp only [hde] at hdoc
    cases hst : pStmt false (d :: c') with
    | error e => rw [hst] at hdoc; cases hdoc
    | ok w =>
      obtain ⟨st, r⟩ := w
      unfold pLine at hl4
      rw [← hc'] at hst
      have hlz : l = c ++ z := hz.symm
      cases hfull : pStmt false l with
      | error e => rw [hfull] at hl4; cases hl4
      | ok v =>
        obtain ⟨st2, r2⟩ := v
        rw [hfull] at hl4
        dsimp only at hl4
        split at hl4
        swap
        · cases hl4
        rename_i hr2
        cases hl4
        rw [hlz] at hfull
        rcases pStmt_more hst z with e | ⟨_, _, lb, u, _, _, hf⟩
        · rw [e] at hfull; cases hfull
          obtain ⟨z', rfl⟩ := hz46
          exact skipWs_ne_nil (s := r ++ (z' ++ [46])) (c := 46) (by simp) (by decide) hr2
        · have := hf _ _ hfull
          refine written_noDots (t := t) (asReadStmt t) (by simp) (lb ++ 46 :: r ++ u) (by rw [this]) (by simp)

/-- **A torn file of the library's own is rejected**: lines written by `serialize_ntriples` and a part of a further one, at least a character and not the whole up to the full stop. -/
theorem C166_torn {σ : Type} (add : σ → Stmt → σ) (sink : σ) (next : Nat) {t : Stmt} (ht : t.IsRdf ∧ t.Readable) {l c : PStr} (hl : tripleStr t = .ok (l ++ [10])) (hc : c <+: l) (hne : c ≠ [])
    (hcl : c ≠ l) (ts : List Stmt) (hts : ∀ t ∈ ts, t.IsRdf ∧ t.Readable) :
    ∃ e, parseString add false next ((serializeNTriples ts).1 ++ c) sink = (sink, next, .error e) := by
  replace hts : ∀ t ∈ ts, t.IsRdf ∧ t.NTOk := fun t h => ⟨(hts t h).1, (hts t h).2.ntok (hts t h).1⟩
  have ht : t.IsRdf ∧ t.NTOk := ⟨ht.1, ht.2.ntok ht.1⟩
  have key : (∃ e, pDoc false ((serializeNTriples ts).1 ++ c) = .error e) ∧ StartsStmt ((serializeNTriples ts).1 ++ c) := by
    induction ts with
    | nil =>
      refine ⟨torn_line ht hl hc hne hcl, ?_⟩
      obtain ⟨l', hl1, hl2, _, _⟩ := line_of_triple ht.1 ht.2
      rw [hl] at hl1
      obtain rfl : l = l' := by simpa using hl1
      obtain ⟨z, rfl⟩ := hc
      exact (NoEol.append.1 hl2).1.starts
    | cons a ts ih =>
      obtain ⟨⟨e, h1⟩, h2⟩ := ih (fun x hx => hts x (by simp [hx]))
      obtain ⟨la, hl1, hl2, hl3, hl4⟩ := line_of_triple (hts a (by simp)).1 (hts a (by simp)).2
      simp only [serializeNTriples, hl1, List.append_assoc, List.cons_append, List.nil_append]
      refine ⟨⟨e, ?_⟩, starts_of_line hl2 hl3 (by decide)⟩
      have := pDoc_line false (es := []) (rest := (serializeNTriples ts).1 ++ c) hl2 hl3 (e := 10) (by decide) (by simp) h2
      simp only [List.nil_append] at this
      rw [this, hl4, h1]; rfl
  obtain ⟨⟨e, he⟩, _⟩ := key
  exact ⟨e, by simp [parseString, he]⟩

/-- **A beginning of a file that `serialize_ntriples` wrote**: an error, and nothing is added; or exactly the first of the triples, in the order they were written, up to the names of the blank nodes. -/
theorem C166_written (g : Graph) (ord : List Stmt → List Stmt) (hord : IsOrder ord) (h : ∀ t ∈ g.triples, t.IsRdf ∧ t.Readable) (next : Nat) {p : PStr}
    (hp : p <+: (serializeNTriples (g.iter ord)).1) :
    (∃ e, parseString Graph.add false next p Graph.new = (Graph.new, next, .error e)) ∨
    ∃ k g' next' f, parseString Graph.add false next p Graph.new = (g', next', .ok ()) ∧
      (∀ t ∈ (g.iter ord).take k, ∀ t' ∈ (g.iter ord).take k, ∀ i j, t.HasBnode i → t'.HasBnode j → f i = f j → i = j) ∧
      ∀ x, x ∈ g'.triples ↔ ∃ t ∈ (g.iter ord).take k, x = t.survive f := by
  have hok : ∀ t ∈ g.iter ord, t.IsRdf ∧ t.NTOk := fun t ht => by
    have := h t ((hord g.triples).mem_iff.1 ht)
    exact ⟨this.1, this.2.ntok this.1⟩
  obtain ⟨h1, h2, -⟩ := pDoc_serialize (g.iter ord) hok
  cases hd : pDoc false p with
  | error e => exact Or.inl ⟨e, by simp [parseString, hd]⟩
  | ok rs' =>
    right
    obtain ⟨z, hz⟩ := hp
    rw [← hz] at h2
    have hf := (C166_exact h2 hd).first (Or.inr (by
      intro x hx
      obtain ⟨t, _, rfl⟩ := List.mem_map.1 hx
      exact written_noDots (t := t) _ (by simp)))
    have hok' : ∀ t ∈ (g.iter ord).take rs'.length, t.IsRdf ∧ t.NTOk := fun t ht => hok t (List.mem_of_mem_take ht)
    obtain ⟨text, g', next', f, e1, e2, e3, _, e5⟩ := lines_read_ntok ((g.iter ord).take rs'.length) hok' next
    refine ⟨rs'.length, g', next', f, ?_, e3, e5⟩
    rw [← e2]
    obtain ⟨_, h4, -⟩ := pDoc_serialize _ hok'
    rw [e1] at h4
    have : rs' = ((g.iter ord).take rs'.length).map asReadStmt := by
      rw [List.map_take]; exact List.prefix_iff_eq_take.1 hf
    rw [this] at hd
    simp only [parseString, hd, h4]

end Verif
