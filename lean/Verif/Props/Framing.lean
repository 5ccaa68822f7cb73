import Verif.Props.NTriples

/-! # Exact forms of the theorems on line framing (C38) -/

namespace Verif

/-- The line feeds in the language of a term. -/
def Spec.langFeeds : Term → Nat
  | .lit _ (some l) _ => l.count 10
  | _ => 0

theorem sum_zero_iff : ∀ {l : List Nat}, l.sum = 0 ↔ ∀ x ∈ l, x = 0
  | [] => by simp
  | a :: l => by simp [sum_zero_iff]

theorem NoEol.count {l : PStr} (h : NoEol l) : l.count 10 = 0 :=
  List.count_eq_zero.2 fun hm => by simpa [isEol] using h 10 hm

theorem toNT_count {t : Term} {w : PStr} (h : t.toNT = .ok w) : w.count 10 = Spec.langFeeds t := by
  by_cases hl : ∃ v l ls d, t = .lit v (some (l :: ls)) d
  · obtain ⟨v, l, ls, d, rfl⟩ := hl
    cases h
    have hq : NoEol ([34] ++ ntEscape v ++ [34] ++ [64]) := by
      simp only [NoEol.append]
      exact ⟨⟨⟨by simp [NoEol, isEol], ntEscape_noEol v⟩, by simp [NoEol, isEol]⟩, by simp [NoEol, isEol]⟩
    rw [List.count_append, hq.count, Spec.langFeeds, Nat.zero_add]
  · have hw : NoEol w := toNT_noEol h fun v l d e => by
      cases l with
      | nil => simp [NoEol]
      | cons a b => exact absurd ⟨v, a, b, d, e⟩ hl
    rw [hw.count]
    cases t with
    | lit v l d =>
      rcases l with _ | (_ | ⟨a, b⟩)
      · rfl
      · rfl
      · exact absurd ⟨v, a, b, d, rfl⟩ hl
    | _ => rfl

theorem tripleStr_count {t : Stmt} {line : PStr} (h : tripleStr t = .ok line) :
    line.count 10 = 1 + (Spec.langFeeds t.s + Spec.langFeeds t.p + Spec.langFeeds t.o) := by
  simp only [tripleStr, bind, Except.bind, pure, Except.pure] at h
  cases ha : t.s.toNT with
  | error e => rw [ha] at h; simp at h
  | ok a =>
    rw [ha] at h
    cases hb : t.p.toNT with
    | error e => rw [hb] at h; simp at h
    | ok b =>
      rw [hb] at h
      cases hc : t.o.toNT with
      | error e => rw [hc] at h; simp at h
      | ok c =>
        rw [hc] at h
        simp only [Except.ok.injEq] at h
        rw [← h]
        have e1 : List.count 10 [32] = 0 := by decide
        have e2 : List.count 10 (py! " .\n") = 1 := by decide
        simp only [List.count_append, toNT_count ha, toNT_count hb, toNT_count hc, e1, e2]
        omega

/-- C38, exactly: a written file has one line feed per triple and one more for each in a language. -/
theorem C38_exact (ts : List Stmt) (text : PStr) (h : serializeNTriples ts = (text, .ok ())) :
    text.count 10 = ts.length + (ts.map fun t => Spec.langFeeds t.s + Spec.langFeeds t.p + Spec.langFeeds t.o).sum := by
  induction ts generalizing text with
  | nil => cases h; rfl
  | cons t ts ih =>
    simp only [serializeNTriples] at h
    cases ht : tripleStr t with
    | error e => rw [ht] at h; simp at h
    | ok line =>
      rw [ht] at h
      simp only [Prod.mk.injEq] at h
      rw [← h.1, List.count_append, tripleStr_count ht, ih _ (by rw [← h.2])]
      simp only [List.length_cons, List.map_cons, List.sum_cons]
      omega

/-- The file has as many lines as triples exactly if no language has a line feed. -/
theorem C38_iff (ts : List Stmt) (text : PStr) (h : serializeNTriples ts = (text, .ok ())) :
    text.count 10 = ts.length ↔ ∀ t ∈ ts, ∀ x, x = t.s ∨ x = t.p ∨ x = t.o → ∀ v l d, x = .lit v (some l) d → 10 ∉ l := by
  rw [C38_exact ts text h]
  constructor
  · intro e t ht x hx v l d hl hm
    have h0 : (ts.map fun t => Spec.langFeeds t.s + Spec.langFeeds t.p + Spec.langFeeds t.o).sum = 0 := by omega
    rw [sum_zero_iff] at h0
    have := h0 _ (List.mem_map.2 ⟨t, ht, rfl⟩)
    have hz : Spec.langFeeds x = 0 := by rcases hx with rfl | rfl | rfl <;> omega
    rw [hl] at hz
    exact List.count_eq_zero.1 hz hm
  · intro hh
    have h0 : (ts.map fun t => Spec.langFeeds t.s + Spec.langFeeds t.p + Spec.langFeeds t.o).sum = 0 := by
      rw [sum_zero_iff]
      rintro _ hx
      obtain ⟨t, ht, rfl⟩ := List.mem_map.1 hx
      have key : ∀ x, x = t.s ∨ x = t.p ∨ x = t.o → Spec.langFeeds x = 0 := by
        intro x hx
        cases x with
        | lit v l d =>
          cases l with
          | none => rfl
          | some l => exact List.count_eq_zero.2 (hh t ht _ hx v l d rfl)
        | _ => rfl
      rw [key _ (.inl rfl), key _ (.inr (.inl rfl)), key _ (.inr (.inr rfl))]
    omega

example : serializeNTriples [mkTriple (.named (py! "s")) (.named (py! "p")) (.lit (py! "v\n") (some (py! "e\nn")) none)] =
    (py! "<s> <p> \"v\\n\"@e\nn .\n", .ok ()) := by decide

end Verif
