import Verif.Props.ResFilter
/-
C85 II: a set with a reference in it, assigned through a datatype filter.
-/
namespace Verif
open Spec Graph

/-- The value of the loop for a value that needs no lookup. -/
def plainVal (lang dt : Option PStr) : PyVal → Val
  | .lit v l d => .lit v l d
  | .str s => .lit s lang dt
  | .res c s => .res c s
  | _ => .none

theorem objectifyAll_asIs {o : Orders} {w : World} {g : Graph} {lang dt : Option PStr} : ∀ us : List PyVal,
    (∀ u ∈ us, (∃ c s, u = .res c s) ∨ (∃ v m e, u = .lit v m e) ∨ ∃ s, u = .str s) → objectifyAll o g lang dt w us = (w, .ok (us.map (plainVal lang dt)))
  | [], _ => rfl
  | u :: us, h => by
    have h1 : objectify o w g lang dt u = (w, .ok (plainVal lang dt u)) := by
      rcases h u (List.mem_cons_self ..) with ⟨c, s, rfl⟩ | ⟨v, m, e, rfl⟩ | ⟨s, rfl⟩ <;> rfl
    rw [objectifyAll, h1]
    dsimp only
    rw [objectifyAll_asIs us fun u hu => h u (List.mem_cons_of_mem _ hu)]
    rfl

theorem checkElems_dt {w : World} {d : PStr} (hd : d ≠ []) : ∀ vs : List Val, (∃ c s, Val.res c s ∈ vs) →
    checkElems w none (some d) none vs = .error .attributeError ∨ (∃ v m e, Val.lit v m e ∈ vs ∧ e ≠ some d) ∧ checkElems w none (some d) none vs = .ok false
  | [], h => by obtain ⟨_, _, h⟩ := h; cases h
  | v :: vs, h => by
    have h0 : truthyStr none = false := rfl
    have h1 := truthyStr_of hd
    rw [checkElems]
    cases v with
    | none => exact .inl (by simp [checkElem, h0, h1])
    | res c s => exact .inl (by simp [checkElem, h0, h1])
    | lit a m e =>
      by_cases he : e = some d
      · have hc : checkElem w none (some d) none (.lit a m e) = .ok true := by simp [checkElem, h0, h1, he]
        rw [hc]
        dsimp only
        have : ∃ c s, Val.res c s ∈ vs := by
          obtain ⟨c, s, h⟩ := h
          rcases List.mem_cons.1 h with h | h
          · cases h
          · exact ⟨c, s, h⟩
        rcases checkElems_dt hd vs this with h2 | ⟨⟨x, y, z, h2, h3⟩, h4⟩
        · exact .inl h2
        · exact .inr ⟨⟨x, y, z, List.mem_cons_of_mem _ h2, h3⟩, h4⟩
      · refine .inr ⟨⟨a, m, e, List.mem_cons_self .., he⟩, ?_⟩
        have hc : checkElem w none (some d) none (.lit a m e) = .ok false := by simp [checkElem, h0, h1, he]
        rw [hc]

/-- A set with a reference in it is refused under a datatype filter, and nothing changes: with AttributeError, unless a literal of another datatype is looked at before, which gives ValueError. -/
theorem C85_set_datatype {o : Orders} (ho : o.OK) {w : World} {g : Graph} {r : Res} {k : PStr} {p : Option PStr} (hk : resolveKey w r.c k = .ok p) {d : PStr} (hd : d ≠ [])
    (hx : d ≠ xsd (py! "string")) {us : List PyVal} (hu : ∀ u ∈ us, (∃ c s, u = .res c s) ∨ (∃ v m e, u = .lit v m e) ∨ ∃ s, u = .str s)
    (hr : ∃ c s, .res c s ∈ us ∧ IsResource s) :
    setItem o w g r (.pair k (.dt d)) (.many us) = (w, g, .error .attributeError) ∨
      (∃ v m e, .lit v m e ∈ us ∧ e ≠ some d) ∧ setItem o w g r (.pair k (.dt d)) (.many us) = (w, g, .error .valueError) := by
  have hi : interpretDatatype d = d := by unfold interpretDatatype; rw [if_neg hx]
  have hin : ∃ c s, Val.res c s ∈ o.vals (frozen (us.map (plainVal none (some d)))) := by
    obtain ⟨c, s, h1, h2⟩ := hr
    have := (frozen_terms (us.map (plainVal none (some d))) s).2 (List.mem_map.2 ⟨.res c s, List.mem_map.2 ⟨_, h1, rfl⟩, rfl⟩)
    obtain ⟨v, hv, hs⟩ := List.mem_map.1 this
    cases v with
    | none => rcases h2 with ⟨i, rfl⟩ | ⟨i, rfl⟩ <;> cases hs
    | lit => rcases h2 with ⟨i, rfl⟩ | ⟨i, rfl⟩ <;> cases hs
    | res c' s' => exact ⟨c', s', (ho.vals _).mem_iff.2 hv⟩
  have hset : ∀ x, checkElems w none (some d) none (o.vals (frozen (us.map (plainVal none (some d))))) = x → x ≠ .ok true →
      setItem o w g r (.pair k (.dt d)) (.many us) = (w, g, .error (match x with | .error e => e | .ok _ => .valueError)) := by
    intro x hxe hne
    unfold setItem
    rw [interpretKey_dt hk d]
    simp only [literalize, objectifyAll_asIs us hu, Key.isTuple, if_true, objectsForExplicitSet, checkObjects, hi, hxe]
    cases x with
    | error e => rfl
    | ok b => cases b with
      | false => rfl
      | true => exact absurd rfl hne
  rcases checkElems_dt (w := w) hd _ hin with h | ⟨⟨v, m, e, h1, h2⟩, h⟩
  · exact .inl (hset _ h (by simp))
  · refine .inr ⟨?_, hset _ h (by simp)⟩
    obtain ⟨u, hm, e'⟩ := List.mem_map.1 (frozen_sub _ _ ((ho.vals _).mem_iff.1 h1))
    rcases hu u hm with ⟨c, s, rfl⟩ | ⟨v, m, e, rfl⟩ | ⟨s, rfl⟩
    · cases e'
    · cases e'; exact ⟨_, _, _, hm, h2⟩
    · cases e'; exact absurd rfl h2

/-- Non-trivial: a date and a reference. -/
example : setItem {} World.new sample ⟨0, .named (py! "http://x")⟩ (.pair (py! "rdfs:comment") (.dt (py! "http://d")))
    (.many [.lit (py! "v") none (some (py! "http://d")), .res 0 (.named (py! "x:o"))]) = (World.new, sample, .error .attributeError) := by decide
example := C85_set_datatype (w := World.new) (g := sample) (r := ⟨0, .named (py! "http://x")⟩) .default (p := some (rdfsNs ++ py! "comment")) (k := py! "rdfs:comment") (by decide)
  (d := py! "http://d") (by decide) (by decide) (us := [.lit (py! "v") none (some (py! "http://d")), .res 0 (.named (py! "x:o"))]) (by simp) ⟨0, _, by simp; rfl, .inl ⟨_, rfl⟩⟩

end Verif
