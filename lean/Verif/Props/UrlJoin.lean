import Verif.Lemmas.UrlRel
/-
C67, C91, C92: smart_urljoin.
-/
namespace Verif
open Spec

/-! ### C67 -/

/-- `smart_urljoin` raises exactly when `urljoin` does; its result ends in `#` if the reference does; it is `urljoin`'s result, with a `#`
    appended only if the reference ends in `#` and the result does not. -/
theorem C67_fragment (nl : PStr → Bool) (base url : PStr) :
    (∀ e, smartUrljoin nl base url = .error e ↔ urljoin nl base url = .error e) ∧
    ∀ r, smartUrljoin nl base url = .ok r →
      (url.getLast? = some 35 → r.getLast? = some 35) ∧
      (url.getLast? ≠ some 35 → urljoin nl base url = .ok r) ∧
      (urljoin nl base url = .ok r ∨ ∃ j, urljoin nl base url = .ok j ∧ r = j ++ py! "#" ∧ j.getLast? ≠ some 35) := by
  unfold smartUrljoin
  cases urljoin nl base url with
  | error e => simp [Except.map]
  | ok j =>
    simp only [Except.map, Except.ok.injEq, reduceCtorEq, implies_true, true_and, forall_eq']
    by_cases h1 : url.getLast? = some 35 <;> by_cases h2 : j.getLast? = some 35 <;> simp [h1, h2]

/-- Without a base a reference stands for itself. -/
theorem C67_no_base (nl : PStr → Bool) (url : PStr) : smartUrljoin nl [] url = .ok url := by
  unfold smartUrljoin urljoin
  simp only [if_true, Except.map]
  split
  · next h => exact absurd h.1 h.2
  · rfl

example : smartUrljoin (fun _ => true) (py! "http://a/b") (py! "c#") = .ok (py! "http://a/c#") := by decide
example : urljoin (fun _ => true) (py! "http://a/b") (py! "c#") = .ok (py! "http://a/c") := by decide

/-! ### C91: absolute references -/

/-- Full statement: an absolute reference stands for itself, whatever the base. -/
def C91_statement : Prop :=
  ∀ (nl : PStr → Bool) (base : PStr) (r : Ref), r.WF → r.scheme.isSome → (∀ a, nl a = true) → smartUrljoin nl base r.text = .ok r.text

theorem C91_refuted : ¬ C91_statement := by
  intro h
  have := h (fun _ => true) (py! "http://e/") ⟨some (py! "http"), some (py! "e"), py! "/", some [], none⟩
    { scheme := by rintro _ ⟨⟩; exact ⟨_, _, rfl, by decide, by decide⟩
      authority := by rintro _ ⟨⟩; decide
      path := by decide
      pathAuth := by decide
      pathNoAuth := by simp
      pathNoScheme := by simp
      query := by rintro _ ⟨⟩; decide
      visible := by decide } rfl (fun _ => rfl)
  revert this
  decide

/-- It holds for every base that can be parsed, if the scheme is not one of the hierarchical ones of `urllib.parse`, or the reference has
    a lower-case scheme, a non-empty authority, no empty query and no `;` at the end of the path. -/
theorem C91_partial {nl : PStr → Bool} {base : PStr} {b : Url6} (hbase : urlparse nl base [] = .ok b) {r : Ref} (h : r.WF) {s : PStr}
    (hs : r.scheme = some s) (hnl : nl (r.authority.getD []) = true)
    (hc : s.map asciiLower ∉ Spec.hierSchemes ∨
      (s.map asciiLower = s ∧ (∃ a, r.authority = some a ∧ a ≠ []) ∧ r.query ≠ some [] ∧ r.path.getLast? ≠ some 59)) :
    smartUrljoin nl base r.text = .ok r.text := by
  have key : urljoin nl base r.text = .ok r.text ∨
      ∃ X, 35 ∉ X ∧ urljoin nl base r.text = .ok (X ++ optn 35 (r.fragment.getD [])) ∧ r.text = X ++ opt 35 r.fragment := by
    by_cases hb0 : base = []
    · left; unfold urljoin; rw [if_pos hb0]
    have hsne : s ≠ [] := by obtain ⟨c, cs, e, -⟩ := h.scheme s hs; rw [e]; simp
    have hne : r.text ≠ [] := by rw [text_eq, hs]; simp
    have hu := urlparse_text h nl b.scheme hnl
    have hsch : schemeOf r b.scheme = s.map asciiLower := by unfold schemeOf; rw [hs]
    rw [hsch] at hu
    unfold urljoin
    rw [if_neg hb0, if_neg hne, hbase]
    simp only [hu]
    by_cases hcond : s.map asciiLower ≠ b.scheme ∨ (!usesRelative.contains (s.map asciiLower)) = true
    · left; rw [if_pos hcond]
    · rw [if_neg hcond]
      have hmem : s.map asciiLower ∈ Spec.hierSchemes := mem_usesRelative.1 <| by
        simp only [not_or, Bool.not_eq_true, Bool.not_eq_false', List.contains_eq_mem, decide_eq_true_eq] at hcond
        exact hcond.2
      rcases hc with hc | ⟨hlow, ⟨a, ha, hane⟩, hq, hsemi⟩
      · exact absurd hmem hc
      · right
        rw [hlow] at hmem ⊢
        obtain ⟨-, hnet, hs35⟩ := usesRelative_lower s hmem
        rw [if_pos ⟨hnet, by rw [ha]; exact hane⟩]
        have hp := h.pathAuth (by rw [ha]; rfl)
        have hfix : ¬ (r.path ≠ [] ∧ r.path.take 1 ≠ [47]) := by
          rintro ⟨c1, c2⟩
          rcases hp with h | h
          · exact c1 h
          · cases hbp : r.path with
            | nil => exact c1 hbp
            | cons x xs => rw [hbp] at h c2; simp at h c2; exact c2 h
        refine ⟨s ++ (58 :: 47 :: 47 :: (a ++ (r.path ++ opt 63 r.query))), ?_, ?_, ?_⟩
        · have hq35 : 35 ∉ opt 63 r.query := by
            cases hq : r.query with
            | none => simp [opt]
            | some q => simp only [opt, List.mem_cons, not_or]; exact ⟨by decide, h.query q hq⟩
          simp only [List.mem_append, List.mem_cons, not_or]
          exact ⟨hs35, by decide, by decide, by decide, (h.authority a ha).2.2, h.path.2, hq35⟩
        · rw [urlunparse_eq _ (by rw [ha]; exact hane) hsne]
          dsimp only
          rw [parts_join s r.path hsemi, if_neg hfix, ha, opt_eq_optn hq]
          simp
        · rw [text_eq, hs, ha]
          simp
  have hlast : ∀ (X : PStr), 35 ∉ X → X.getLast? ≠ some 35 := fun X h e => h (List.mem_of_getLast? e)
  unfold smartUrljoin
  rcases key with hk | ⟨X, h35, hk, ht⟩
  · rw [hk]
    simp only [Except.map]
    rw [if_neg (fun hh => hh.2 hh.1)]
  · rw [hk, ht]
    simp only [Except.map, Except.ok.injEq]
    cases hf : r.fragment with
    | none => simp [opt, optn]
    | some f =>
      by_cases hfe : f = []
      · subst hfe
        simp [opt, optn, hlast X h35]
      · simp only [Option.getD_some, optn, if_neg hfe, opt]
        rw [if_neg (fun hh => hh.2 hh.1)]

example : smartUrljoin (fun _ => true) (py! "http://a/b") (py! "http://c/d;e?f#") = .ok (py! "http://c/d;e?f#") := by decide
example : smartUrljoin (fun _ => true) (py! "http://a/b") (py! "urn:x:y") = .ok (py! "urn:x:y") := by decide
example : smartUrljoin (fun _ => true) (py! "http://a/b") (py! "HTTP://c/?") = .ok (py! "http://c/") := by decide

/-! ### C92: relative references -/

/-- Full statement: against a base with scheme http and an authority, relative references are resolved as RFC 3986 says. -/
def C92_statement : Prop :=
  ∀ (nl : PStr → Bool) (b r : Ref), b.WF → r.WF → b.scheme = some (py! "http") → (∃ a, b.authority = some a ∧ a ≠ []) →
    r.scheme = none → (∀ a, nl a = true) → smartUrljoin nl b.text r.text = .ok (resolve b r).text

def exHttp (path : PStr) : Ref := ⟨some (py! "http"), some (py! "a"), path, none, none⟩
def exRel (path : PStr) : Ref := ⟨none, none, path, none, none⟩

/-- It is false: empty segments are dropped. -/
theorem C92_refuted : ¬ C92_statement := by
  intro h
  have := h (fun _ => true) (exHttp (py! "/b//c")) (exRel (py! "g"))
    { scheme := by rintro _ ⟨⟩; exact ⟨_, _, rfl, by decide, by decide⟩
      authority := by rintro _ ⟨⟩; decide
      path := by decide
      pathAuth := by decide
      pathNoAuth := by simp [exHttp]
      pathNoScheme := by simp [exHttp]
      query := by simp [exHttp]
      visible := by decide }
    { scheme := by simp [exRel]
      authority := by simp [exRel]
      path := by decide
      pathAuth := by simp [exRel]
      pathNoAuth := by decide
      pathNoScheme := by decide
      query := by simp [exRel]
      visible := by decide } rfl ⟨_, rfl, by decide⟩ rfl (fun _ => rfl)
  revert this
  decide

/-- It holds for every base with a hierarchical scheme and an authority, and every relative reference without authority, if
    - neither path contains `//` or ends in `;`, and the last segment of the reference does not begin with `.;` or `..;`;
    - neither query is empty (present but empty);
    - the reference is not empty, or the base has no fragment. -/
theorem C92_partial {nl : PStr → Bool} (hnl : nl [] = true) {b r : Ref} (hb : GoodBase nl b) (hr : GoodRel r)
    (hne : r.text ≠ [] ∨ b.fragment = none) : smartUrljoin nl b.text r.text = .ok (resolve b r).text := by
  by_cases ht : r.text = []
  · have hbf := hne.resolve_left (fun h => h ht)
    have hr' : r.path = [] ∧ r.query = none ∧ r.fragment = none := by
      rw [text_eq, hr.scheme, hr.authority] at ht
      simp only [List.nil_append, List.append_eq_nil_iff] at ht
      refine ⟨ht.1, ?_, ?_⟩
      · cases hq : r.query with
        | none => rfl
        | some q => rw [hq] at ht; simp [opt] at ht
      · cases hf : r.fragment with
        | none => rfl
        | some q => rw [hf] at ht; simp [opt] at ht
    have hbt : b.text ≠ [] := by
      obtain ⟨s, hs, -⟩ := hb.scheme
      rw [text_eq, hs]; simp
    have hres : resolve b r = b := by
      unfold resolve
      rw [hr.scheme, hr.authority, hr'.1, hr'.2.1, hr'.2.2]
      simp only [Option.isSome_none, Bool.false_eq_true, if_false, if_true]
      obtain ⟨s, a, p, q, f⟩ := b
      dsimp only at hbf ⊢
      rw [hbf]
    unfold smartUrljoin urljoin
    rw [if_neg hbt, if_pos ht, ht, hres]
    simp [Except.map]
  · obtain ⟨X, h35, hk, hres⟩ := urljoin_rel hnl hb hr ht
    unfold smartUrljoin
    rw [hk, hres]
    have hlast : X.getLast? ≠ some 35 := fun e => h35 (List.mem_of_getLast? e)
    simp only [Except.map, Except.ok.injEq]
    have htext : r.text = (r.path ++ opt 63 r.query) ++ opt 35 r.fragment := by
      rw [text_eq, hr.scheme, hr.authority]; simp
    cases hf : r.fragment with
    | none =>
      have : 35 ∉ r.text := by
        rw [htext, hf]
        simp only [opt, List.append_nil, List.mem_append, not_or]
        refine ⟨hr.wf.path.2, ?_⟩
        cases hq : r.query with
        | none => simp [opt]
        | some q => simp only [opt, List.mem_cons, not_or]; exact ⟨by decide, hr.wf.query q hq⟩
      rw [if_neg (fun hh => this (List.mem_of_getLast? hh.1))]
      simp [opt, optn]
    | some f =>
      by_cases hfe : f = []
      · subst hfe
        have : r.text.getLast? = some 35 := by rw [htext, hf]; simp [opt]
        simp [opt, optn, hlast, this]
      · simp only [Option.getD_some, optn, if_neg hfe, opt]
        rw [if_neg]
        rintro ⟨h1, h2⟩
        rw [htext, hf] at h1
        apply h2
        cases f with
        | nil => exact absurd rfl hfe
        | cons c cs =>
          simp only [opt, List.getLast?_append, List.getLast?_cons_cons] at h1 ⊢
          rw [List.getLast?_cons] at h1 ⊢
          simpa using h1

/-- The base of the examples in section 5.4 of the RFC is one of the bases of `C92_partial`, and the references with dots, parameters, queries
    and fragments are among its references. -/
theorem exGoodBase : GoodBase (fun _ => true) ⟨some (py! "http"), some (py! "a"), py! "/b/c/d;p", some (py! "q"), none⟩ where
  wf :=
    { scheme := by rintro _ ⟨⟩; exact ⟨_, _, rfl, by decide, by decide⟩
      authority := by rintro _ ⟨⟩; decide
      path := by decide
      pathAuth := by decide
      pathNoAuth := by simp
      pathNoScheme := by simp
      query := by rintro _ ⟨⟩; decide
      visible := by decide }
  scheme := ⟨_, rfl, by decide⟩
  authority := ⟨_, rfl, by decide, rfl⟩
  noEmpty := by decide
  noSemi := by decide
  query := by decide

theorem exGoodRel : GoodRel ⟨none, none, py! "../.././g;x=1/../y", some (py! "z"), some []⟩ where
  wf :=
    { scheme := by simp
      authority := by simp
      path := by decide
      pathAuth := by simp
      pathNoAuth := by decide
      pathNoScheme := by decide
      query := by rintro _ ⟨⟩; decide
      visible := by decide }
  scheme := rfl
  authority := rfl
  noEmpty := by decide
  noSemi := by decide
  noDotSemi := by decide
  noDotsSemi := by decide
  query := by decide

example : smartUrljoin (fun _ => true) (py! "http://a/b/c/d;p?q") (py! "../.././g;x=1/../y?z#") = .ok (py! "http://a/y?z#") := by decide
example : smartUrljoin (fun _ => true) (py! "http://a/b/c/d;p?q") (py! "../../../g") = .ok (py! "http://a/g") := by decide

end Verif
