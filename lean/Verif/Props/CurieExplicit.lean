import Verif.Props.Curie
/-
Explicit CURIEs and lists of CURIEs: C104.
-/
namespace Verif

/-- The claim: reading the explicit CURIE of an IRI gives the IRI. -/
def C104_statement : Prop := ∀ (m : Dict PStr PStr), Dict.WF m → ∀ iri : PStr, (∃ pn ∈ m, pn.2 <+: iri) →
  parseCurie (toCurie iri m [58] true) m = .ok iri

/-- It is false: a repeated namespace, and an IRI equal to a namespace when there is a default namespace. -/
theorem C104_refuted : ¬ C104_statement ∧
    parseCurie (toCurie (py! "urn:e#urn:e#") [(py! "ex", py! "urn:e#")] [58] true) [(py! "ex", py! "urn:e#")] = .ok (py! "urn:e#ex:") ∧
    parseCurie (toCurie (py! "urn:e#") [(py! "", py! "urn:d#"), (py! "ex", py! "urn:e#")] [58] true)
      [(py! "", py! "urn:d#"), (py! "ex", py! "urn:e#")] = .ok (py! "urn:d#ex") := by
  have h1 : parseCurie (toCurie (py! "urn:e#urn:e#") [(py! "ex", py! "urn:e#")] [58] true) [(py! "ex", py! "urn:e#")]
      = .ok (py! "urn:e#ex:") := by decide
  refine ⟨fun h => ?_, h1, by decide⟩
  have := h [(py! "ex", py! "urn:e#")] (by simp [Dict.WF, Dict.keys]) (py! "urn:e#urn:e#") ⟨_, List.mem_cons_self, by decide⟩
  rw [h1] at this
  revert this; decide

/-- Proved part of C104: with a chosen namespace that is not empty and does not occur again, whose prefix has no colon, and a rest that is
    not empty (or without a default namespace, or with the default namespace itself). In contrast to the plain form (C31) the prefix may be
    named like a URI scheme and may begin with a bracket. The other cases can fail, as shown above. The full claim is `C104_statement`. -/
theorem C104_explicit_partial (m : Dict PStr PStr) (wf : Dict.WF m) (iri p ns rest : PStr) (hc : Chosen iri m (p, ns)) (e : iri = ns ++ rest)
    (hne : ns ≠ []) (hno : ¬ ns <:+: rest) (h58 : 58 ∉ p) (hrest : rest ≠ [] ∨ Dict.get? m [] = none ∨ p = []) :
    toCurie iri m [58] true = [91] ++ p ++ [58] ++ rest ++ [93] ∧ parseCurie (toCurie iri m [58] true) m = .ok iri := by
  have hto : toCurie iri m [58] true = [91] ++ p ++ [58] ++ rest ++ [93] := by
    have hex : ∃ pn ∈ m, pn.2 <+: iri := by
      obtain ⟨a, b, e1, h1, _⟩ := hc
      exact ⟨(p, ns), by rw [e1]; simp, h1⟩
    obtain ⟨pn, h1, h2⟩ := toCurie_chosen hex
    have := chosen_unique hc h1
    subst this
    rw [h2, e, if_pos rfl]
    dsimp only
    rw [pyReplace_prefix hne _ rest hno]
    simp
  refine ⟨hto, ?_⟩
  rw [hto]
  have hb : bracketed ([91] ++ p ++ [58] ++ rest ++ [93]) = true := by
    have : ([91] ++ p ++ [58] ++ rest ++ [93] : PStr).getLast? = some 93 := List.getLast?_concat
    rw [bracketed, this]; simp
  have hs : SplitsAt 58 (curieBody ([91] ++ p ++ [58] ++ rest ++ [93])) p rest := by
    refine ⟨h58, .inl ?_⟩
    rw [curieBody, hb, if_pos rfl]
    have : ([91] ++ p ++ [58] ++ rest ++ [93] : PStr).tail = (p ++ 58 :: rest) ++ [93] := by simp
    rw [this, List.dropLast_concat]
  have hr := (parseCurie_rules _ (by simp) m p rest hs).2 (by rw [hb]; simp)
  have hget := get?_of_chosen wf hc
  rcases hrest with h | h | h
  · rw [(hr.2 (by simp [h])).1 ns hget, e]
  · rw [(hr.2 (by simp [h])).1 ns hget, e]
  · subst h
    by_cases h0 : rest = []
    · rw [hr.1 ns h0 hget, e, h0]
    · rw [(hr.2 (by simp [h0])).1 ns hget, e]

/-- Without brackets and without a registered scheme, an IRI that no namespace matches is not read back: it is a ValueError unless its text up
    to the first colon is a prefix, or there is a default namespace and nothing after that colon. -/
theorem C104_unmatched (m : Dict PStr PStr) (iri p rest : PStr) (hno : ∀ pn ∈ m, ¬ pn.2 <+: iri) (explicit : Bool)
    (e : iri = p ++ 58 :: rest) (h58 : 58 ∉ p) (hb : bracketed iri = false) (hr : rest ≠ []) :
    toCurie iri m [58] explicit = iri ∧
    (p ∈ schemes → parseCurie iri m = .ok iri) ∧ (p ∉ schemes → m.get? p = none → parseCurie iri m = .error .valueError) ∧
    (p ∉ schemes → ∀ ns, m.get? p = some ns → parseCurie iri m = .ok (ns ++ rest)) := by
  have hs : SplitsAt 58 (curieBody iri) p rest := ⟨h58, .inl (by rw [curieBody, hb]; exact e)⟩
  have hrl := parseCurie_rules iri (by rw [e]; simp) m p rest hs
  exact ⟨toCurie_none hno _ _, fun h => hrl.1 ⟨hb, h⟩, fun h hg => ((hrl.2 (by simp [h])).2 (by simp [hr])).2 hg,
    fun h ns hg => ((hrl.2 (by simp [h])).2 (by simp [hr])).1 ns hg⟩

/-- `parse_curies` gives, for each CURIE in turn, what `parse_curie` gives, up to the first that raises. -/
theorem C104_list (m : Dict PStr PStr) (cs is : List PStr) (e : Option Exc) :
    parseCuries m cs = (is, e) ↔
      (∃ pre post, cs = pre ++ post ∧ pre.map (parseCurie · m) = is.map .ok ∧
        match e, post with
        | none, [] => True
        | some x, c :: _ => parseCurie c m = .error x
        | _, _ => False) := by
  induction cs generalizing is e with
  | nil =>
    constructor
    · intro h; cases h; exact ⟨[], [], rfl, rfl, trivial⟩
    · rintro ⟨pre, post, h1, h2, h3⟩
      obtain ⟨rfl, rfl⟩ := List.append_eq_nil_iff.1 h1.symm
      cases e with
      | none => cases is with
        | nil => rfl
        | cons => simp at h2
      | some => exact h3.elim
  | cons c cs ih =>
    unfold parseCuries
    cases hc : parseCurie c m with
    | error x =>
      constructor
      · intro h; cases h; exact ⟨[], c :: cs, rfl, rfl, hc⟩
      · rintro ⟨pre, post, h1, h2, h3⟩
        cases pre with
        | nil =>
          rw [List.nil_append] at h1; subst h1
          cases is with
          | nil => cases e with
            | none => exact h3.elim
            | some y => dsimp only at h3; rw [hc] at h3; cases h3; rfl
          | cons => simp at h2
        | cons d pre =>
          obtain ⟨rfl, rfl⟩ := List.cons.inj h1
          cases is with
          | nil => simp at h2
          | cons i is => rw [List.map_cons, List.map_cons, hc] at h2; cases (List.cons.inj h2).1
    | ok i =>
      dsimp only
      constructor
      · intro h
        cases h
        obtain ⟨pre, post, h1, h2, h3⟩ := (ih (parseCuries m cs).1 (parseCuries m cs).2).1 rfl
        exact ⟨c :: pre, post, by rw [h1]; rfl, by rw [List.map_cons, List.map_cons, hc, h2], h3⟩
      · rintro ⟨pre, post, h1, h2, h3⟩
        cases pre with
        | nil =>
          rw [List.nil_append] at h1; subst h1
          cases e with
          | none => exact h3.elim
          | some y => dsimp only at h3; rw [hc] at h3; cases h3
        | cons d pre =>
          obtain ⟨rfl, rfl⟩ := List.cons.inj h1
          cases is with
          | nil => simp at h2
          | cons j is =>
            rw [List.map_cons, List.map_cons, hc] at h2
            obtain ⟨h4, h5⟩ := List.cons.inj h2
            cases h4
            rw [(ih is e).2 ⟨pre, post, rfl, h5, h3⟩]

/-- C104: a prefix named like a scheme. -/
example : toCurie (py! "urn:d#x") [(py! "data", py! "urn:d#")] [58] true = py! "[data:x]" ∧
    parseCurie (py! "[data:x]") [(py! "data", py! "urn:d#")] = .ok (py! "urn:d#x") := by decide

/-- C104: the second of three CURIEs cannot be read. -/
example : parseCuries [(py! "ex", py! "urn:e#")] [py! "ex:a", py! "no:b", py! "ex:c"] = ([py! "urn:e#a"], some .valueError) := by decide

end Verif
