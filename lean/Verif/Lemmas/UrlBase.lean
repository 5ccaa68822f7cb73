import Verif.Props.UrlAbs
/-
Lemmas for C92 and C125: what relative references and references with an authority resolve to is again a base of the kind that `urljoin` treats as the RFC does.
-/
namespace Verif
open Spec

/-- Segments that are not empty, except the last one, give a text without `//`. -/
theorem slashed_no_double {D : List PStr} (hs : ∀ w ∈ D, 47 ∉ w) (hn : ∀ w ∈ D.dropLast, w ≠ []) : ¬ [47, 47] <:+: slashed D := by
  induction D with
  | nil => rintro ⟨a, b, h⟩; simp [slashed_nil] at h
  | cons w ws ih =>
    rw [slashed_cons]
    have ihw := ih (fun x hx => hs x (List.mem_cons_of_mem _ hx)) (by
      intro x hx
      apply hn
      cases ws with
      | nil => simp at hx
      | cons a b => rw [List.dropLast_cons_cons]; exact List.mem_cons_of_mem _ hx)
    have h47 : 47 ∉ w := hs w (List.mem_cons_self ..)
    -- an occurrence lies in the rest or begins at a slash followed by a slash
    have key : ∀ v : PStr, 47 ∉ v → ¬ [47, 47] <:+: v ++ slashed ws := by
      intro v
      induction v with
      | nil => intro _ h; exact ihw h
      | cons c v ihv =>
        intro hv h
        rw [List.cons_append] at h
        rcases List.infix_cons_iff.1 h with h | h
        · obtain ⟨t, ht⟩ := h
          simp only [List.cons_append, List.cons.injEq] at ht
          exact hv (by rw [← ht.1]; exact List.mem_cons_self ..)
        · exact ihv (fun hh => hv (List.mem_cons_of_mem _ hh)) h
    intro h
    rcases List.infix_cons_iff.1 h with h | h
    · obtain ⟨t, ht⟩ := h
      simp only [List.cons_append, List.nil_append, List.cons.injEq, true_and] at ht
      cases w with
      | cons c v =>
        simp only [List.cons_append, List.cons.injEq] at ht
        exact h47 (by rw [← ht.1]; exact List.mem_cons_self ..)
      | nil =>
        cases ws with
        | nil => simp [slashed_nil] at ht
        | cons a b => exact hn [] (by rw [List.dropLast_cons_cons]; exact List.mem_cons_self ..) rfl
    · exact key w h47 h

theorem slashed_last (D : List PStr) (l : PStr) (h : l.getLast? ≠ some 59) : (slashed (D ++ [l])).getLast? ≠ some 59 := by
  rw [slashed_append, slashed_cons, slashed_nil, List.append_nil, List.getLast?_append, List.getLast?_cons]
  cases hl : l.getLast? with
  | none => simp
  | some x => rw [hl] at h; simpa using h

/-- The last segment after removing dots is the last one before or empty. -/
theorem dots_last (out init : List PStr) (l : PStr) : ∃ D, dots out (init ++ [l]) = D ++ [l] ∨ dots out (init ++ [l]) = D ++ [[]] := by
  induction init generalizing out with
  | nil =>
    rw [List.nil_append, dots]
    split
    · exact ⟨_, .inr rfl⟩
    · split
      · exact ⟨_, .inr rfl⟩
      · exact ⟨_, .inl rfl⟩
  | cons t ts ih =>
    have key : dots out (t :: ts ++ [l]) =
        if t = [46, 46] then dots out.dropLast (ts ++ [l]) else if t = [46] then dots out (ts ++ [l]) else dots (out ++ [t]) (ts ++ [l]) := by
      cases ts with
      | nil => exact dots_cons ..
      | cons a b => exact dots_cons ..
    rw [key]
    split
    · exact ih _
    · split
      · exact ih _
      · exact ih _

/-- What a relative reference resolves to, against a base of the kind of C92, is again such a base. -/
theorem GoodBase.resolve {nl : PStr → Bool} {b r : Ref} (hb : GoodBase nl b) (hr : GoodRel r) : GoodBase nl (resolve b r) := by
  obtain ⟨s, hs, hsr⟩ := hb.scheme
  obtain ⟨a, ha, hane, hnla⟩ := hb.authority
  have hbv := hb.wf.visible
  have hrv := hr.wf.visible
  rw [text_eq, hs, ha] at hbv
  rw [text_eq, hr.scheme, hr.authority] at hrv
  simp only [List.mem_append, List.nil_append] at hbv hrv
  have build : ∀ (p : PStr) (q : Option PStr), (p = [] ∨ p.head? = some 47) → (63 ∉ p ∧ 35 ∉ p) → (∀ c ∈ p, 32 < c) → ¬ [47, 47] <:+: p → p.getLast? ≠ some 59 →
      q ≠ some [] → (∀ x, q = some x → 35 ∉ x) → (∀ c ∈ opt 63 q, 32 < c) → GoodBase nl ⟨b.scheme, b.authority, p, q, r.fragment⟩ := by
    intro p q h1 h2 h3 h4 h5 h6 h7 h8
    exact
      { wf :=
          { scheme := hb.wf.scheme
            authority := hb.wf.authority
            path := h2
            pathAuth := fun _ => h1
            pathNoAuth := by rw [ha]; simp
            pathNoScheme := by rw [hs]; simp
            query := h7
            visible := by
              rw [text_eq, hs, ha]
              simp only [List.mem_append]
              rintro c (h | h | h | h | h)
              · exact hbv c (.inl h)
              · exact hbv c (.inr (.inl h))
              · exact h3 c h
              · exact h8 c h
              · exact hrv c (.inr (.inr h)) }
        scheme := ⟨s, hs, hsr⟩
        authority := ⟨a, ha, hane, hnla⟩
        noEmpty := h4
        noSemi := h5
        query := h6 }
  unfold Spec.resolve
  rw [hr.scheme, hr.authority]
  simp only [Option.isSome_none, Bool.false_eq_true, if_false]
  by_cases hp : r.path = []
  · rw [if_pos hp]
    refine build _ _ (hb.wf.pathAuth (by rw [ha]; rfl)) hb.wf.path (fun c hc => hbv c (.inr (.inr (.inl hc)))) hb.noEmpty hb.noSemi ?_ ?_ ?_
    · split
      · exact hr.query
      · exact hb.query
    · split
      · exact hr.wf.query
      · exact hb.wf.query
    · split
      · exact fun c hc => hrv c (.inr (.inl hc))
      · exact fun c hc => hbv c (.inr (.inr (.inr (.inl hc))))
  · rw [if_neg hp]
    obtain ⟨M, a', l, -, -, h47, hM, hpath⟩ := segs_rel (s := s) hb hr hp
    -- the path before dots are removed
    have hchars : ∀ c ∈ slashed (M ++ [l]), c = 47 ∨ c ∈ b.path ∨ c ∈ r.path := by
      intro c hc
      rw [← hpath] at hc
      split at hc
      · exact .inr (.inr hc)
      · unfold mergePaths at hc
        split at hc
        · rcases List.mem_cons.1 hc with h | h
          · exact .inl h
          · exact .inr (.inr h)
        · rcases List.mem_append.1 hc with h | h
          · exact .inr (.inl (List.mem_reverse.1 ((List.dropWhile_sublist _).mem (List.mem_reverse.1 h))))
          · exact .inr (.inr h)
    have hlast : (slashed (M ++ [l])).getLast? = r.path.getLast? := by
      rw [← hpath]
      split
      · rfl
      · unfold mergePaths
        split
        · cases hq : r.path with
          | nil => exact absurd hq hp
          | cons x xs => rw [List.getLast?_cons_cons]
        · rw [List.getLast?_append, List.getLast?_eq_some_getLast hp]; rfl
    have hl59 : l.getLast? ≠ some 59 := by
      intro h
      apply hr.noSemi
      rw [← hlast, slashed_append, slashed_cons, slashed_nil, List.append_nil, List.getLast?_append, List.getLast?_cons, h]; rfl
    have fin : GoodBase nl ⟨b.scheme, b.authority, slashed (dots [] (M ++ [l])), r.query, r.fragment⟩ := by
      have hd47 : ∀ w ∈ dots [] (M ++ [l]), 47 ∉ w := by
        intro w hw
        rcases mem_dots hw with h | h | h
        · cases h
        · exact h47 w h
        · rw [h]; simp
      refine build _ _ (.inr ?_) ⟨?_, ?_⟩ ?_ (slashed_no_double hd47 (dots_dropLast_ne (by simp) (by rw [List.dropLast_concat]; exact hM))) ?_ hr.query hr.wf.query
        (fun c hc => hrv c (.inr (.inl hc)))
      · cases hd : dots [] (M ++ [l]) with
        | nil => exact absurd hd (dots_ne_nil _ _ (by simp))
        | cons x xs => rw [slashed_cons]; rfl
      · exact not_mem_dots (fun h => (hchars _ h).elim (fun h => absurd h (by decide)) fun h => h.elim hb.wf.path.1 hr.wf.path.1) (by decide)
      · exact not_mem_dots (fun h => (hchars _ h).elim (fun h => absurd h (by decide)) fun h => h.elim hb.wf.path.2 hr.wf.path.2) (by decide)
      · intro c hc
        by_cases hc47 : c = 47
        · rw [hc47]; decide
        · have : c ∈ slashed (M ++ [l]) := by
            by_cases hin : c ∈ slashed (M ++ [l])
            · exact hin
            · exact absurd hc (not_mem_dots hin hc47)
          rcases hchars c this with h | h | h
          · exact absurd h hc47
          · exact hbv c (.inr (.inr (.inl h)))
          · exact hrv c (.inl h)
      · obtain ⟨D, h | h⟩ := dots_last [] M l
        · rw [h]; exact slashed_last D l hl59
        · rw [h]; exact slashed_last D [] (by simp)
    by_cases h1 : r.path.take 1 = [47]
    · rw [if_pos h1] at hpath ⊢
      rw [hpath, removeDots_slashed h47]
      exact fin
    · rw [if_neg h1] at hpath ⊢
      rw [hpath, removeDots_slashed h47]
      exact fin

/-- A reference with an authority that `urljoin` resolves as the RFC does. -/
structure GoodNet (nl : PStr → Bool) (r : Ref) : Prop where
  wf : r.WF
  scheme : r.scheme = none
  authority : ∃ a, r.authority = some a ∧ a ≠ [] ∧ nl a = true
  dots : removeDots r.path = r.path
  noSemi : r.path.getLast? ≠ some 59
  query : r.query ≠ some []

theorem GoodNet.join {nl : PStr → Bool} {b r : Ref} (hb : GoodBase nl b) (hr : GoodNet nl r) : smartUrljoin nl b.text r.text = .ok (Spec.resolve b r).text := by
  obtain ⟨s, hs, hsr⟩ := hb.scheme
  obtain ⟨a, ha, -, hnla⟩ := hb.authority
  obtain ⟨ra, hra, hrane, hrnl⟩ := hr.authority
  refine C92_network_partial hb.wf (by rw [ha]; exact hnla) hr.wf hs (usesRelative_lower s hsr).1 hsr hr.scheme hra hrane hrnl hr.dots ?_ hr.query
  rintro ⟨d, l, h, -⟩
  exact hr.noSemi (by rw [h]; simp)

/-- It can be a base too, if it has no empty segments. -/
theorem GoodNet.base {nl : PStr → Bool} {b r : Ref} (hb : GoodBase nl b) (hr : GoodNet nl r) (hn : ¬ [47, 47] <:+: r.path) : GoodBase nl (Spec.resolve b r) := by
  obtain ⟨s, hs, hsr⟩ := hb.scheme
  obtain ⟨ra, hra, hrane, hrnl⟩ := hr.authority
  have hbv := hb.wf.visible
  have hrv := hr.wf.visible
  rw [text_eq, hs] at hbv
  rw [text_eq, hr.scheme, hra] at hrv
  simp only [List.mem_append, List.nil_append] at hbv hrv
  unfold Spec.resolve
  rw [hr.scheme, hra]
  simp only [Option.isSome_none, Bool.false_eq_true, if_false, Option.isSome_some, if_true]
  rw [hr.dots]
  exact
    { wf :=
        { scheme := hb.wf.scheme
          authority := by intro x hx; exact hr.wf.authority x (by rw [hra]; exact hx)
          path := hr.wf.path
          pathAuth := fun _ => hr.wf.pathAuth (by rw [hra]; rfl)
          pathNoAuth := by simp
          pathNoScheme := by rw [hs]; simp
          query := hr.wf.query
          visible := by
            rw [text_eq, hs]
            simp only [List.mem_append]
            rintro c (h | h)
            · exact hbv c (.inl h)
            · exact hrv c h }
      scheme := ⟨s, hs, hsr⟩
      authority := ⟨ra, rfl, hrane, hrnl⟩
      noEmpty := hn
      noSemi := hr.noSemi
      query := hr.query }

end Verif
