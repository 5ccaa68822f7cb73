import Verif.Model.Profile
import Verif.Spec.UriSchemes
import Mathlib.Data.List.Forall2
/-
C29-C31, C36, C79: CURIEs, language tags, the Literal constructor.
-/
namespace Verif

/-! ### C29 -/

/-- Specification of `str.partition(chr(c))`: the text before and after the first `c`. -/
def SplitsAt (c : Nat) (s p r : PStr) : Prop := c ∉ p ∧ (s = p ++ c :: r ∨ (s = p ∧ r = []))

theorem pyPartition_spec (c : Nat) (s : PStr) : SplitsAt c s (pyPartition c s).1 (pyPartition c s).2.2 := by
  induction s with
  | nil => exact ⟨by simp [pyPartition], .inr ⟨rfl, rfl⟩⟩
  | cons x xs ih =>
    unfold pyPartition
    by_cases h : x = c
    · rw [if_pos h]; subst h; exact ⟨by simp, .inl rfl⟩
    · rw [if_neg h]
      obtain ⟨h1, h2⟩ := ih
      refine ⟨by simp [Ne.symm h]; exact h1, ?_⟩
      rcases h2 with h2 | ⟨h2, h3⟩
      · exact .inl (by rw [List.cons_append, ← h2])
      · exact .inr ⟨congrArg (x :: ·) h2, h3⟩

theorem splitsAt_unique {c : Nat} {s p r : PStr} (h : SplitsAt c s p r) :
    (pyPartition c s).1 = p ∧ (pyPartition c s).2.2 = r := by
  obtain ⟨h1, h2⟩ := h
  rcases h2 with rfl | ⟨rfl, rfl⟩
  · induction p with
    | nil => simp [pyPartition]
    | cons x xs ih =>
      have hx : x ≠ c := by intro e; subst e; simp at h1
      have := ih (by intro e; exact h1 (by simp [e]))
      simp [pyPartition, hx, this]
  · induction s with
    | nil => simp [pyPartition]
    | cons x xs ih =>
      have hx : x ≠ c := by intro e; subst e; simp at h1
      have := ih (by intro e; exact h1 (by simp [e]))
      simp [pyPartition, hx, this]

/-- The text whose prefix and reference count: without the brackets, if there are any. -/
def curieBody (curie : PStr) : PStr := if bracketed curie then curie.tail.dropLast else curie

/-- The rules in terms of the model's own functions. -/
theorem parseCurie_rules (curie : PStr) (hne : curie ≠ []) (prefixes : Dict PStr PStr) (p r : PStr)
    (hs : SplitsAt 58 (curieBody curie) p r) :
    (bracketed curie = false ∧ p ∈ schemes → parseCurie curie prefixes = .ok curie) ∧
    (¬ (bracketed curie = false ∧ p ∈ schemes) →
      (∀ d, r = [] → prefixes.get? [] = some d → parseCurie curie prefixes = .ok (d ++ p)) ∧
      (¬ (r = [] ∧ (prefixes.get? []).isSome) →
        (∀ ns, prefixes.get? p = some ns → parseCurie curie prefixes = .ok (ns ++ r)) ∧
        (prefixes.get? p = none → parseCurie curie prefixes = .error .valueError))) := by
  obtain ⟨hp, hr⟩ := splitsAt_unique hs
  have hp' : (pyPartition 58 (if bracketed curie = true then curie.tail.dropLast else curie)).1 = p := hp
  have hr' : (pyPartition 58 (if bracketed curie = true then curie.tail.dropLast else curie)).2.2 = r := hr
  simp only [parseCurie, if_neg hne, hp', hr']
  refine ⟨fun h => ?_, fun h => ⟨fun d hd hget => ?_, fun h' => ⟨fun ns hns => ?_, fun hns => ?_⟩⟩⟩
  · rw [if_pos (by simpa [h.1] using h.2)]; simp [h.1]
  · rw [if_neg (by simpa using h)]; subst hd; simp [hget]
  · rw [if_neg (by simpa using h)]
    split
    · next a b => exact absurd ⟨rfl, by simp [b]⟩ h'
    · simp [hns]
  · rw [if_neg (by simpa using h)]
    split
    · next a b => exact absurd ⟨rfl, by simp [b]⟩ h'
    · simp [hns]

theorem bracketed_iff {curie : PStr} : bracketed curie = true ↔ ∃ b, curie = 91 :: (b ++ [93]) := by
  unfold bracketed
  constructor
  · intro h
    rw [Bool.and_eq_true, beq_iff_eq, beq_iff_eq] at h
    obtain ⟨r, rfl⟩ := List.getLast?_eq_some_iff.1 h.2
    cases r with
    | nil => exact absurd h.1 (by decide)
    | cons c r => cases h.1; exact ⟨r, rfl⟩
  · rintro ⟨b, rfl⟩
    rw [Bool.and_eq_true, beq_iff_eq, beq_iff_eq]
    exact ⟨rfl, by rw [← List.cons_append, List.getLast?_concat]⟩

/-- The text whose prefix and reference count, and whether it is in brackets. -/
inductive CurieText (curie : PStr) : Bool → PStr → Prop
  | brackets {body} : curie = 91 :: (body ++ [93]) → CurieText curie true body
  | plain : (¬ ∃ body, curie = 91 :: (body ++ [93])) → CurieText curie false curie

theorem CurieText.body {curie body : PStr} {b : Bool} (h : CurieText curie b body) : bracketed curie = b ∧ curieBody curie = body := by
  cases h with
  | brackets h =>
    have hb : bracketed curie = true := bracketed_iff.2 ⟨_, h⟩
    refine ⟨hb, ?_⟩
    rw [curieBody, if_pos hb, h]
    simp
  | plain h =>
    have hb : bracketed curie = false := by
      cases e : bracketed curie with
      | false => rfl
      | true => exact absurd (bracketed_iff.1 e) h
    exact ⟨hb, by rw [curieBody, if_neg (by simp [hb])]⟩

theorem schemes_iff {p : PStr} : p ∈ schemes ↔ p ∈ Spec.uriSchemes := by
  constructor
  · have : ∀ p ∈ schemes, p ∈ Spec.uriSchemes := by decide
    exact this p
  · have : ∀ p ∈ Spec.uriSchemes, p ∈ schemes := by decide
    exact this p

/-- Full statement: the three documented rules, for every string. `p` and `r` are the text before and after the first colon. -/
def C29_statement : Prop := ∀ (curie : PStr) (prefixes : Dict PStr PStr) (b : Bool) (body p r : PStr), CurieText curie b body → SplitsAt 58 body p r →
  (b = false ∧ p ∈ Spec.uriSchemes → parseCurie curie prefixes = .ok curie) ∧
  (¬ (b = false ∧ p ∈ Spec.uriSchemes) →
    (∀ d, r = [] → prefixes.get? [] = some d → parseCurie curie prefixes = .ok (d ++ p)) ∧
    (¬ (r = [] ∧ (prefixes.get? []).isSome) →
      (∀ ns, prefixes.get? p = some ns → parseCurie curie prefixes = .ok (ns ++ r)) ∧
      (prefixes.get? p = none → parseCurie curie prefixes = .error .valueError)))

/-- It is false only because the empty string raises IndexError. -/
theorem C29_empty_raises_index_error : ¬ C29_statement ∧ ∀ prefixes, parseCurie [] prefixes = .error .indexError := by
  refine ⟨fun h => ?_, fun _ => rfl⟩
  have := ((h [] [] false [] [] [] (.plain (by simp)) ⟨by simp, .inr ⟨rfl, rfl⟩⟩).2 (by decide)).2 (by decide)
  have := this.2 rfl
  revert this; decide

/-- The rules hold for every non-empty string. -/
theorem C29_rules_partial (curie : PStr) (hne : curie ≠ []) (prefixes : Dict PStr PStr) {b : Bool} {body p r : PStr} (hb : CurieText curie b body)
    (hs : SplitsAt 58 body p r) :
    (b = false ∧ p ∈ Spec.uriSchemes → parseCurie curie prefixes = .ok curie) ∧
    (¬ (b = false ∧ p ∈ Spec.uriSchemes) →
      (∀ d, r = [] → prefixes.get? [] = some d → parseCurie curie prefixes = .ok (d ++ p)) ∧
      (¬ (r = [] ∧ (prefixes.get? []).isSome) →
        (∀ ns, prefixes.get? p = some ns → parseCurie curie prefixes = .ok (ns ++ r)) ∧
        (prefixes.get? p = none → parseCurie curie prefixes = .error .valueError))) := by
  obtain ⟨h1, h2⟩ := hb.body
  have := parseCurie_rules curie hne prefixes p r (by rw [h2]; exact hs)
  rw [h1, schemes_iff] at this
  exact this

/-- `parse_curies` yields the results of `parse_curie` in order, up to the first string that raises; that ends it with its exception. -/
theorem C29_parse_curies (namespaces : Dict PStr PStr) (cs xs : List PStr) :
    (parseCuries namespaces cs = (xs, none) ↔ List.Forall₂ (fun c x => parseCurie c namespaces = .ok x) cs xs) ∧
    ∀ e, parseCuries namespaces cs = (xs, some e) ↔
      ∃ a c b, cs = a ++ c :: b ∧ List.Forall₂ (fun c x => parseCurie c namespaces = .ok x) a xs ∧ parseCurie c namespaces = .error e := by
  induction cs generalizing xs with
  | nil =>
    refine ⟨⟨fun h => ?_, fun h => ?_⟩, fun e => ⟨fun h => ?_, fun h => ?_⟩⟩
    · cases h; exact .nil
    · cases h; rfl
    · cases h
    · obtain ⟨a, c, b, h, _⟩ := h
      simp at h
  | cons c cs ih =>
    cases hc : parseCurie c namespaces with
    | error e =>
      have hp : parseCuries namespaces (c :: cs) = ([], some e) := by simp only [parseCuries, hc]
      rw [hp]
      refine ⟨⟨fun h => ?_, fun h => ?_⟩, fun e' => ⟨fun h => ?_, fun h => ?_⟩⟩
      · cases h
      · cases h with | cons h _ => rw [hc] at h; cases h
      · cases h; exact ⟨[], c, cs, rfl, .nil, hc⟩
      · obtain ⟨a, c', b, h, ha, hc'⟩ := h
        cases ha with
        | nil => cases h; rw [hc] at hc'; cases hc'; rfl
        | cons h1 _ => cases h; rw [hc] at h1; cases h1
    | ok x =>
      have hp : parseCuries namespaces (c :: cs) = (x :: (parseCuries namespaces cs).1, (parseCuries namespaces cs).2) := by
        simp only [parseCuries, hc]
      rw [hp]
      refine ⟨⟨fun h => ?_, fun h => ?_⟩, fun e => ⟨fun h => ?_, fun h => ?_⟩⟩
      · obtain ⟨h1, h2⟩ := Prod.mk.inj h
        subst h1
        exact .cons hc ((ih _).1.1 (Prod.ext rfl h2))
      · cases h with
        | cons h1 h2 => rw [hc] at h1; cases h1; rw [(ih _).1.2 h2]
      · obtain ⟨h1, h2⟩ := Prod.mk.inj h
        subst h1
        obtain ⟨a, c', b, rfl, ha, hc'⟩ := ((ih _).2 e).1 (Prod.ext rfl h2)
        exact ⟨c :: a, c', b, rfl, .cons hc ha, hc'⟩
      · obtain ⟨a, c', b, h, ha, hc'⟩ := h
        cases ha with
        | nil => cases h; rw [hc] at hc'; cases hc'
        | cons h1 h2 =>
          cases h
          rw [hc] at h1; cases h1
          rw [((ih _).2 e).2 ⟨_, c', b, rfl, h2, hc'⟩]

example : parseCuries [(py! "a", py! "urn:a#")] [py! "a:b", py! "c:d", py! "a:e"] = ([py! "urn:a#b"], some .valueError) := by decide
example : parseCurie (py! "[http:x]") [(py! "http", py! "urn:h#")] = .ok (py! "urn:h#x") := by decide
example : parseCurie (py! "http:x") [(py! "http", py! "urn:h#")] = .ok (py! "http:x") := by decide
example : parseCurie (py! "ex:") [(py! "", py! "urn:d#"), (py! "ex", py! "urn:e#")] = .ok (py! "urn:d#ex") := by decide

/-! ### C30 -/

theorem mem_insertByLen (x y : PStr × PStr) (l) : y ∈ insertByLen x l ↔ y = x ∨ y ∈ l := by
  induction l with
  | nil => simp [insertByLen]
  | cons a l ih =>
    unfold insertByLen; split
    · simp
    · simp [ih]; constructor
      · rintro (h | h | h) <;> simp [h]
      · rintro (h | h | h) <;> simp [h]

theorem mem_sortByLen (y : PStr × PStr) (l) : y ∈ sortByLen l ↔ y ∈ l := by
  induction l with
  | nil => rfl
  | cons a l ih => show y ∈ insertByLen a (sortByLen l) ↔ _; rw [mem_insertByLen, ih]; simp

/-- The head of the sorted list is the first of the longest. -/
theorem sortByLen_head {l : List (PStr × PStr)} {x rest} (h : sortByLen l = x :: rest) :
    ∃ a b, l = a ++ x :: b ∧ (∀ y ∈ a, y.2.length < x.2.length) ∧ (∀ y ∈ b, y.2.length ≤ x.2.length) := by
  induction l generalizing x rest with
  | nil => cases h
  | cons y l ih =>
    have h : insertByLen y (sortByLen l) = x :: rest := h
    cases hs : sortByLen l with
    | nil =>
      rw [hs] at h; cases h
      have : l = [] := List.eq_nil_iff_forall_not_mem.2 (fun z hz => by have := (mem_sortByLen z l).2 hz; rw [hs] at this; cases this)
      subst this
      exact ⟨[], [], rfl, by simp, by simp⟩
    | cons z zs =>
      obtain ⟨a, b, e, h1, h2⟩ := ih hs
      rw [hs, insertByLen] at h
      split at h
      · next hle =>
        cases h
        refine ⟨[], l, rfl, by simp, ?_⟩
        intro w hw
        rw [e] at hw
        rcases List.mem_append.1 hw with hw | hw
        · have := h1 w hw; omega
        · rcases List.mem_cons.1 hw with rfl | hw
          · exact hle
          · have := h2 w hw; omega
      · next hlt =>
        cases h
        refine ⟨y :: a, b, by rw [e]; rfl, ?_, h2⟩
        intro w hw
        rcases List.mem_cons.1 hw with rfl | hw
        · omega
        · exact h1 w hw

/-- `pn` is the entry `to_curie` must choose: its namespace is a prefix of the uri, it is longest, and first among the longest. -/
def Chosen (uri : PStr) (namespaces : Dict PStr PStr) (pn : PStr × PStr) : Prop :=
  ∃ a b, namespaces = a ++ pn :: b ∧ pn.2 <+: uri ∧ (∀ y ∈ a, y.2 <+: uri → y.2.length < pn.2.length) ∧
    (∀ y ∈ b, y.2 <+: uri → y.2.length ≤ pn.2.length)

theorem startsWith_iff (s p : PStr) : pyStartsWith s p = true ↔ p <+: s := by
  simp [pyStartsWith]

theorem toCurie_none {uri : PStr} {m : Dict PStr PStr} (h : ∀ pn ∈ m, ¬ pn.2 <+: uri) (sep explicit) : toCurie uri m sep explicit = uri := by
  have : (m.filter fun pn => pyStartsWith uri pn.2) = [] := by
    rw [List.filter_eq_nil_iff]; intro pn hpn; rw [startsWith_iff]; exact h pn hpn
  unfold toCurie; rw [this]; rfl

theorem toCurie_chosen {uri : PStr} {m : Dict PStr PStr} (h : ∃ pn ∈ m, pn.2 <+: uri) :
    ∃ pn, Chosen uri m pn ∧ ∀ sep explicit, toCurie uri m sep explicit =
      if explicit then [91] ++ pyReplace uri pn.2 (pn.1 ++ sep) ++ [93] else pyReplace uri pn.2 (pn.1 ++ sep) := by
  cases hs : sortByLen (m.filter fun pn => pyStartsWith uri pn.2) with
  | nil =>
    obtain ⟨pn, hpn, hp⟩ := h
    have : pn ∈ sortByLen (m.filter fun pn => pyStartsWith uri pn.2) := by
      rw [mem_sortByLen, List.mem_filter]; exact ⟨hpn, (startsWith_iff _ _).2 hp⟩
    rw [hs] at this; cases this
  | cons x rest =>
    refine ⟨x, ?_, fun sep explicit => by unfold toCurie; rw [hs]⟩
    obtain ⟨a, b, e, h1, h2⟩ := sortByLen_head hs
    obtain ⟨l1, l2, e1, e2, e3⟩ := List.filter_eq_append_iff.1 e
    obtain ⟨l3, l4, e4, e5, e6, e7⟩ := List.filter_eq_cons_iff.1 e3
    refine ⟨l1 ++ l3, l4, by rw [e1, e4]; simp, (startsWith_iff _ _).1 e6, ?_, ?_⟩
    · intro y hy hyp
      rcases List.mem_append.1 hy with hy | hy
      · refine h1 y ?_
        rw [← e2, List.mem_filter]
        exact ⟨hy, (startsWith_iff _ _).2 hyp⟩
      · exact absurd ((startsWith_iff _ _).2 hyp) (e5 y hy)
    · intro y hy hyp
      refine h2 y ?_
      rw [← e7, List.mem_filter]
      exact ⟨hy, (startsWith_iff _ _).2 hyp⟩

/-- Full statement: the longest matching namespace (first on ties) at the start of the uri is replaced by its prefix and the separator;
    without a matching namespace the uri is returned. -/
def C30_statement : Prop := ∀ (uri : PStr) (m : Dict PStr PStr) (sep : PStr),
  ((∀ pn ∈ m, ¬ pn.2 <+: uri) → toCurie uri m sep = uri) ∧
  (∀ p ns rest, Chosen uri m (p, ns) → uri = ns ++ rest → toCurie uri m sep = p ++ sep ++ rest)

/-- It is false: later occurrences of the namespace are replaced too. -/
theorem C30_replaces_every_occurrence : ¬ C30_statement := by
  intro h
  have := (h (py! "urn:a#urn:a#x") [(py! "e", py! "urn:a#")] [58]).2 (py! "e") (py! "urn:a#") (py! "urn:a#x")
    ⟨[], [], rfl, by decide, by simp, by simp⟩ rfl
  revert this; decide

/-- Exactly: the uri unchanged if no namespace matches, otherwise all occurrences of the chosen namespace replaced; in brackets if
    `explicit`. -/
theorem C30_choice_exact (uri : PStr) (m : Dict PStr PStr) (sep : PStr) (explicit : Bool) :
    ((∀ pn ∈ m, ¬ pn.2 <+: uri) → toCurie uri m sep explicit = uri) ∧
    ((∃ pn ∈ m, pn.2 <+: uri) → ∃ pn, Chosen uri m pn ∧ toCurie uri m sep explicit =
      if explicit then [91] ++ pyReplace uri pn.2 (pn.1 ++ sep) ++ [93] else pyReplace uri pn.2 (pn.1 ++ sep)) :=
  ⟨fun h => toCurie_none h sep explicit, fun h => by obtain ⟨pn, h1, h2⟩ := toCurie_chosen h; exact ⟨pn, h1, h2 sep explicit⟩⟩

theorem chosen_unique {uri : PStr} {m : Dict PStr PStr} {x y : PStr × PStr} (hx : Chosen uri m x) (hy : Chosen uri m y) : x = y := by
  obtain ⟨a, b, e, h1, h2, h3⟩ := hx
  obtain ⟨a', b', e', h1', h2', h3'⟩ := hy
  rw [e] at e'
  rcases List.append_eq_append_iff.1 e' with ⟨c, e1, e2⟩ | ⟨c, e1, e2⟩
  · cases c with
    | nil => exact (List.cons.inj e2).1
    | cons z zs =>
      obtain ⟨ez, e3⟩ := List.cons.inj e2
      have hx' : x ∈ a' := by rw [e1, ← ez]; simp
      have := h2' x hx' h1
      have hy' : y ∈ b := by rw [e3]; simp
      have := h3 y hy' h1'
      omega
  · cases c with
    | nil => exact (List.cons.inj e2).1.symm
    | cons z zs =>
      obtain ⟨ez, e3⟩ := List.cons.inj e2
      have hy' : y ∈ a := by rw [e1, ← ez]; simp
      have := h2 y hy' h1'
      have hx' : x ∈ b' := by rw [e3]; simp
      have := h3' x hx' h1
      omega

theorem pyReplaceAux_skip (old new : PStr) (l rest : PStr) : pyReplaceAux old new l.length (l ++ rest) = pyReplaceAux old new 0 rest := by
  induction l with
  | nil => rfl
  | cons a l ih => simpa [pyReplaceAux] using ih

theorem pyReplaceAux_none {old new : PStr} {s : PStr} (h : ¬ old <:+: s) : pyReplaceAux old new 0 s = s := by
  induction s with
  | nil => rfl
  | cons c cs ih =>
    rw [pyReplaceAux, if_neg (fun hp => h (List.IsPrefix.isInfix (by simpa using hp))),
      ih (fun hi => h (hi.trans (List.suffix_cons c cs).isInfix))]

theorem pyReplace_prefix {old : PStr} (hne : old ≠ []) (new rest : PStr) (h : ¬ old <:+: rest) :
    pyReplace (old ++ rest) old new = new ++ rest := by
  unfold pyReplace
  rw [if_neg hne]
  cases old with
  | nil => exact absurd rfl hne
  | cons c cs =>
    rw [List.cons_append, pyReplaceAux, if_pos (by rw [← List.cons_append]; simp)]
    simp only [List.length_cons, Nat.add_sub_cancel]
    rw [pyReplaceAux_skip, pyReplaceAux_none h]

/-- What holds: if the chosen namespace is not empty and does not occur again, only it is replaced. Missing: repeated or empty namespaces. -/
theorem C30_shrink_partial (uri : PStr) (m : Dict PStr PStr) (sep p ns rest : PStr) (hc : Chosen uri m (p, ns)) (e : uri = ns ++ rest)
    (hne : ns ≠ []) (hno : ¬ ns <:+: rest) : toCurie uri m sep = p ++ sep ++ rest := by
  have hex : ∃ pn ∈ m, pn.2 <+: uri := by
    obtain ⟨a, b, e1, h1, _⟩ := hc
    exact ⟨(p, ns), by rw [e1]; simp, h1⟩
  obtain ⟨pn, h1, h2⟩ := toCurie_chosen hex
  have := chosen_unique hc h1
  subst this
  rw [h2, e]
  exact pyReplace_prefix hne _ rest hno

example : toCurie (py! "urn:a#b#x") [(py! "e", py! "urn:a#"), (py! "f", py! "urn:a#b#"), (py! "g", py! "urn:a#b#")] = py! "f:x" := by decide

/-! ### C31 -/

/-- Full statement: expanding the shortened form of an IRI gives the IRI. -/
def C31_statement : Prop := ∀ (m : PrefixMap) (iri : PStr), iri ≠ [] → m.resolve (m.shrink iri) = .ok iri

/-- It is false, for several reasons: a prefix named like a URI scheme; an IRI equal to a namespace when a default namespace is set; a
    repeated namespace; an IRI that no namespace matches and whose scheme is not registered. -/
theorem C31_roundtrip_fails : ¬ C31_statement ∧
    PrefixMap.resolve [(py! "data", py! "urn:d#")] (PrefixMap.shrink [(py! "data", py! "urn:d#")] (py! "urn:d#x")) = .ok (py! "data:x") ∧
    PrefixMap.resolve [(py! "", py! "urn:d#"), (py! "ex", py! "urn:e#")]
      (PrefixMap.shrink [(py! "", py! "urn:d#"), (py! "ex", py! "urn:e#")] (py! "urn:e#")) = .ok (py! "urn:d#ex") ∧
    PrefixMap.resolve [(py! "ex", py! "urn:e#")] (PrefixMap.shrink [(py! "ex", py! "urn:e#")] (py! "urn:e#urn:e#")) = .ok (py! "urn:e#ex:") ∧
    PrefixMap.resolve [] (PrefixMap.shrink [] (py! "foo:bar")) = .error .valueError := by
  have h1 : PrefixMap.resolve [(py! "data", py! "urn:d#")] (PrefixMap.shrink [(py! "data", py! "urn:d#")] (py! "urn:d#x")) = .ok (py! "data:x") := by
    decide
  refine ⟨fun h => ?_, h1, by decide, by decide, by decide⟩
  have := h [(py! "data", py! "urn:d#")] (py! "urn:d#x") (by decide)
  rw [h1] at this
  revert this; decide

theorem get?_of_chosen {uri : PStr} {m : Dict PStr PStr} (wf : Dict.WF m) {p ns : PStr} (hc : Chosen uri m (p, ns)) : m.get? p = some ns := by
  obtain ⟨a, b, e, _⟩ := hc
  exact (Dict.mem_iff_get? wf).1 (by rw [e]; simp)

/-- What holds: with a chosen namespace that is not empty and does not occur again, whose prefix has no colon, is no URI scheme and does
    not start with a bracket, and a rest that is not empty (or without a default namespace, or with the default namespace itself), the
    round trip succeeds; and without a matching namespace it succeeds for unbracketed IRIs of a registered scheme.
    Missing: the other cases, which fail as shown above. -/
theorem C31_roundtrip_partial (m : PrefixMap) (wf : Dict.WF m) (iri : PStr) :
    (∀ p ns rest, Chosen iri m (p, ns) → iri = ns ++ rest → ns ≠ [] → ¬ ns <:+: rest → 58 ∉ p → p ∉ schemes → p.head? ≠ some 91 →
      (rest ≠ [] ∨ Dict.get? m [] = none ∨ p = []) → m.resolve (m.shrink iri) = .ok iri) ∧
    (∀ p rest, (∀ pn ∈ m, ¬ pn.2 <+: iri) → iri = p ++ 58 :: rest → 58 ∉ p → p ∈ schemes → m.resolve (m.shrink iri) = .ok iri) := by
  constructor
  · intro p ns rest hc e hne hno h58 hsch hbr hrest
    have hsh : m.shrink iri = p ++ [58] ++ rest := C30_shrink_partial iri m [58] p ns rest hc e hne hno
    have hb : bracketed (p ++ [58] ++ rest) = false := by
      cases p with
      | nil => rfl
      | cons c cs =>
        have : c ≠ 91 := by simpa using hbr
        simp [bracketed, this]
    have hs : SplitsAt 58 (curieBody (p ++ [58] ++ rest)) p rest := by
      refine ⟨h58, .inl ?_⟩
      rw [curieBody, hb]; simp
    have hr := (parseCurie_rules (p ++ [58] ++ rest) (by simp) m p rest hs).2 (by simp [hsch])
    unfold PrefixMap.resolve
    rw [hsh]
    have hget := get?_of_chosen wf hc
    rcases hrest with h | h | h
    · rw [(hr.2 (by simp [h])).1 ns hget, e]
    · rw [(hr.2 (by simp [h])).1 ns hget, e]
    · subst h
      by_cases h0 : rest = []
      · rw [hr.1 ns h0 hget, e, h0]
      · rw [(hr.2 (by simp [h0])).1 ns hget, e]
  · intro p rest hno e h58 hsch
    have hsh : m.shrink iri = iri := toCurie_none hno [58] false
    have hb : bracketed iri = false := by
      have : ∀ q ∈ schemes, q.head? ≠ some 91 := by decide
      have := this p hsch
      rw [e]
      cases p with
      | nil => rfl
      | cons c cs =>
        have : c ≠ 91 := by simpa using this
        simp [bracketed, this]
    have hs : SplitsAt 58 (curieBody iri) p rest := ⟨h58, .inl (by rw [curieBody, hb]; exact e)⟩
    unfold PrefixMap.resolve
    rw [hsh]
    exact (parseCurie_rules iri (by rw [e]; simp) m p rest hs).1 ⟨hb, hsch⟩

example : PrefixMap.resolve [(py! "ex", py! "urn:e#")] (PrefixMap.shrink [(py! "ex", py! "urn:e#")] (py! "urn:e#x")) = .ok (py! "urn:e#x") := by decide

/-! ### C36 -/

/-- Reflexive and symmetric; `None` matches only `None`. -/
theorem C36_reflexive_symmetric (a b : Option PStr) :
    langMatch a a = true ∧ langMatch a b = langMatch b a ∧ (langMatch none a = true ↔ a = none) := by
  refine ⟨?_, ?_, ?_⟩
  · cases a <;> simp [langMatch]
  · cases a <;> cases b <;> simp [langMatch]
    rename_i x y
    rw [Bool.eq_iff_iff]
    simp only [Bool.and_eq_true, Bool.or_eq_true, decide_eq_true_eq]
    constructor <;> rintro ⟨h1, (h2 | h2) | h2⟩ <;> simp [h1, h2]
  · cases a <;> simp [langMatch]

/-- On tags `p` and `p-r` (with `p` free of hyphens): a primary tag matches each of its regional forms, two regional forms match iff
    their regions agree, and tags with different primary parts never match. -/
theorem C36_regions (p q r s : PStr) (hp : 45 ∉ p) (hq : 45 ∉ q) (hr : r ≠ []) (hs : s ≠ []) :
    langMatch (some p) (some (p ++ 45 :: r)) = true ∧
    (langMatch (some (p ++ 45 :: r)) (some (p ++ 45 :: s)) = true ↔ r = s) ∧
    (p ≠ q → langMatch (some p) (some q) = false ∧ langMatch (some p) (some (q ++ 45 :: s)) = false ∧
      langMatch (some (p ++ 45 :: r)) (some (q ++ 45 :: s)) = false) := by
  have f : ∀ {x y : PStr}, 45 ∉ x → (pyPartition 45 (x ++ 45 :: y)).1 = x ∧ (pyPartition 45 (x ++ 45 :: y)).2.2 = y :=
    fun hx => splitsAt_unique ⟨hx, .inl rfl⟩
  have g : ∀ {x : PStr}, 45 ∉ x → (pyPartition 45 x).1 = x ∧ (pyPartition 45 x).2.2 = [] :=
    fun hx => splitsAt_unique ⟨hx, .inr ⟨rfl, rfl⟩⟩
  simp [langMatch, (f hp).1, (f hp).2, (g hp).1, (g hp).2, (f hq).1, (f hq).2, (g hq).1, (g hq).2, hr, hs]
  exact fun h => ⟨fun e => absurd e h, fun e => absurd e h⟩

/-- It is not transitive: `en-us` ~ `en` ~ `en-gb`. -/
theorem C36_not_transitive : langMatch (some (py! "en-us")) (some (py! "en")) = true ∧
    langMatch (some (py! "en")) (some (py! "en-gb")) = true ∧ langMatch (some (py! "en-us")) (some (py! "en-gb")) = false := by decide

/-! ### C79 -/

/-- Specification: the value of a sequence of decimal digits. -/
def decValue (s : PStr) : Nat := s.foldl (fun acc c => acc * 10 + (c - 48)) 0

theorem decDigits_spec (n : Nat) : decValue (decDigits n) = n ∧ decDigits n ≠ [] ∧ ∀ c ∈ decDigits n, 48 ≤ c ∧ c ≤ 57 := by
  induction n using Nat.strongRecOn with
  | _ n ih =>
    unfold decDigits
    split
    · refine ⟨by simp [decValue], by simp, ?_⟩
      intro c hc; simp at hc; omega
    · obtain ⟨h1, h2, h3⟩ := ih (n / 10) (by omega)
      refine ⟨?_, by simp, ?_⟩
      · have : decValue (decDigits (n / 10) ++ [48 + n % 10]) = decValue (decDigits (n / 10)) * 10 + n % 10 := by
          simp [decValue]
        rw [this, h1]; omega
      · intro c hc
        rcases List.mem_append.1 hc with hc | hc
        · exact h3 c hc
        · simp at hc; omega

/-- The integer an xsd:integer lexical form denotes. -/
def intValue : PStr → Int
  | 45 :: s => - (decValue s : Int)
  | s => decValue s

theorem intValue_intStr (n : Int) : intValue (intStr n) = n := by
  unfold intStr
  split
  · simp only [intValue, (decDigits_spec n.natAbs).1]; omega
  · next h =>
    have : ∀ s : PStr, (∀ c ∈ s, 48 ≤ c ∧ c ≤ 57) → intValue s = decValue s := by
      intro s hs
      cases s with
      | nil => rfl
      | cons c cs =>
        have := hs c (by simp)
        unfold intValue; split
        · next e => cases e; omega
        · rfl
    rw [this _ (decDigits_spec n.natAbs).2.2, (decDigits_spec n.natAbs).1]; omega

/-- `Literal(n)` of a Python int: an xsd:integer whose lexical form denotes n (so different ints give different literals). An explicit
    datatype wins over the automatic one; strings keep the arguments; other types raise KeyError. -/
theorem C79_int_literal (n : Int) (lang : Option PStr) :
    mkLiteral (.int n) lang = .ok (.lit (intStr n) lang (some (py! "http://www.w3.org/2001/XMLSchema#integer"))) ∧
    intValue (intStr n) = n ∧ (∀ m, intStr m = intStr n → m = n) ∧
    (∀ d, mkLiteral (.int n) lang (some d) = .ok (.lit (intStr n) lang (some d))) ∧
    (∀ s d, mkLiteral (.str s) lang d = .ok (.lit s lang d)) ∧
    (∀ d, mkLiteral (.datetime d) lang = .ok (.lit d.isoformat lang (some (py! "http://www.w3.org/2001/XMLSchema#dateTime")))) ∧
    (∀ d, mkLiteral .other lang d = .error .keyError) := by
  refine ⟨rfl, intValue_intStr n, ?_, fun d => rfl, fun s d => rfl, fun d => rfl, fun d => rfl⟩
  intro m h
  rw [← intValue_intStr m, h, intValue_intStr]

example : intStr (-120) = py! "-120" := by simp [intStr, decDigits]

end Verif
