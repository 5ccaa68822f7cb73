import Verif.Props.Curie
/-
C30, C31 and C104 exactly: every occurrence of the chosen namespace is replaced, and what resolve makes of that.
-/
namespace Verif
open Spec

/-- `t` is `s` with the occurrences of `old`, found from left to right and not overlapping, replaced by `new`. -/
inductive Spec.Replaced (old new : PStr) : PStr → PStr → Prop
  | done : Replaced old new [] []
  | hit {s t : PStr} : Replaced old new s t → Replaced old new (old ++ s) (new ++ t)
  | miss {c : Nat} {s t : PStr} : ¬ old <+: c :: s → Replaced old new s t → Replaced old new (c :: s) (c :: t)

theorem replaced_pyReplaceAux {old new : PStr} (h : old ≠ []) (s : PStr) : Spec.Replaced old new s (pyReplaceAux old new 0 s) := by
  induction hn : s.length using Nat.strongRecOn generalizing s with
  | _ n ih =>
    cases s with
    | nil => exact .done
    | cons c cs =>
      rw [pyReplaceAux]
      split
      · next hp =>
        obtain ⟨r, hr⟩ := List.isPrefixOf_iff_prefix.1 hp
        cases old with
        | nil => exact absurd rfl h
        | cons o os =>
          rw [List.cons_append, List.cons.injEq] at hr
          obtain ⟨rfl, rfl⟩ := hr
          have e : pyReplaceAux (o :: os) new ((o :: os).length - 1) (os ++ r) = pyReplaceAux (o :: os) new 0 r := pyReplaceAux_skip _ _ os r
          rw [e]
          exact .hit (ih r.length (by rw [← hn]; simp; omega) r rfl)
      · next hp => exact .miss (fun hh => hp (List.isPrefixOf_iff_prefix.2 hh)) (ih cs.length (by rw [← hn]; simp) cs rfl)

theorem replaced_pyReplace {old new : PStr} (h : old ≠ []) (s : PStr) : Spec.Replaced old new s (pyReplace s old new) := by
  unfold pyReplace; rw [if_neg h]; exact replaced_pyReplaceAux h s

/-- There is one such text. -/
theorem Spec.Replaced.unique {old new : PStr} (h0 : old ≠ []) {s t t' : PStr} (h : Spec.Replaced old new s t) (h' : Spec.Replaced old new s t') : t = t' := by
  induction h generalizing t' with
  | done =>
    generalize he : ([] : PStr) = s at h'
    cases h' with
    | done => rfl
    | hit => exact absurd (List.append_eq_nil_iff.1 he.symm).1 h0
    | miss => cases he
  | @hit s t h ih =>
    generalize he : old ++ s = s' at h'
    cases h' with
    | done => exact absurd (List.append_eq_nil_iff.1 he).1 h0
    | hit h' => obtain rfl := List.append_cancel_left he; rw [ih h']
    | miss hn _ => exact absurd ⟨s, he⟩ hn
  | @miss c s t hn h ih =>
    generalize he : c :: s = s' at h'
    cases h' with
    | done => cases he
    | hit h' => exact absurd ⟨_, he.symm⟩ hn
    | miss _ h' => cases he; rw [ih h']

theorem Spec.Replaced.count {old new s t : PStr} (h : Spec.Replaced old new s t) :
    ∃ k, t.length + k * old.length = s.length + k * new.length ∧ (k = 0 → t = s ∧ (old ≠ [] → ¬ old <:+: s)) := by
  induction h with
  | done =>
    refine ⟨0, by simp, fun _ => ⟨rfl, fun h hh => h ?_⟩⟩
    simpa using hh
  | hit h ih =>
    obtain ⟨k, hk, -⟩ := ih
    refine ⟨k + 1, ?_, fun h => by simp at h⟩
    rw [List.length_append, List.length_append, Nat.add_mul, Nat.add_mul]
    omega
  | miss hn h ih =>
    obtain ⟨k, hk, hz⟩ := ih
    refine ⟨k, by rw [List.length_cons, List.length_cons]; omega, fun h0 => ?_⟩
    obtain ⟨rfl, hh⟩ := hz h0
    refine ⟨rfl, fun hne hi => ?_⟩
    rcases List.infix_cons_iff.1 hi with hp | hi
    · exact hn hp
    · exact hh hne hi

theorem Spec.Replaced.self_same {old : PStr} {s t : PStr} (h : Spec.Replaced old old s t) : t = s := by
  induction h with
  | done => rfl
  | hit _ ih => rw [ih]
  | miss _ _ ih => rw [ih]

theorem eq_of_mul {a b k : Nat} (hk : k ≠ 0) (h : k * a = k * b) : a = b := Nat.eq_of_mul_eq_mul_left (Nat.pos_of_ne_zero hk) h

/-- A text stays as it is only if nothing is found, or replaced by itself. -/
theorem Spec.Replaced.same_iff {old new s t : PStr} (h0 : old ≠ []) (h : Spec.Replaced old new s t) : t = s ↔ ¬ old <:+: s ∨ old = new := by
  constructor
  · intro e
    by_cases hi : old <:+: s
    · right
      obtain ⟨k, hk, hz⟩ := h.count
      have k0 : k ≠ 0 := fun k0 => (hz k0).2 h0 hi
      have hl : old.length = new.length := eq_of_mul k0 (by rw [e] at hk; omega)
      clear hk hz
      induction h with
      | done => exact absurd (by simpa using hi) h0
      | hit h ih => exact ((List.append_inj e hl.symm).1).symm
      | miss hn h ih =>
        rcases List.infix_cons_iff.1 hi with hp | hi
        · exact absurd hp hn
        · exact ih (List.cons.inj e).2 hi
    · exact .inl hi
  · rintro (hn | rfl)
    · have := h.unique h0 (replaced_pyReplaceAux h0 s)
      rw [this, pyReplaceAux_none hn]
    · exact h.self_same

/-! ### C30 -/

/-- Exactly, with the replacement spelt out (`ns` not empty). -/
theorem C30_exact (uri : PStr) (m : Dict PStr PStr) (sep p ns : PStr) (hc : Chosen uri m (p, ns)) (hne : ns ≠ []) (explicit : Bool) (t : PStr) :
    toCurie uri m sep explicit = t ↔ ∃ u, Spec.Replaced ns (p ++ sep) uri u ∧ t = if explicit then [91] ++ u ++ [93] else u := by
  have h : ∃ pn ∈ m, pn.2 <+: uri := by obtain ⟨a, b, e, h, -⟩ := hc; exact ⟨(p, ns), by rw [e]; simp, h⟩
  obtain ⟨pn, h1, h2⟩ := (C30_choice_exact uri m sep explicit).2 h
  obtain rfl := chosen_unique h1 hc
  rw [h2]
  constructor
  · rintro rfl; exact ⟨_, replaced_pyReplace hne uri, rfl⟩
  · rintro ⟨u, hu, rfl⟩; rw [hu.unique hne (replaced_pyReplace hne uri)]

/-- The statement of C30 holds for a matching namespace exactly if the namespace does not occur again, or is what it is replaced by. -/
theorem C30_iff (uri : PStr) (m : Dict PStr PStr) (sep p ns rest : PStr) (hc : Chosen uri m (p, ns)) (e : uri = ns ++ rest) (hne : ns ≠ []) :
    toCurie uri m sep = p ++ sep ++ rest ↔ ¬ ns <:+: rest ∨ ns = p ++ sep := by
  rw [C30_exact uri m sep p ns hc hne, e]
  have hr := replaced_pyReplace (new := p ++ sep) hne rest
  constructor
  · rintro ⟨u, hu, he⟩
    have := hu.unique hne hr.hit
    simp only [Bool.false_eq_true, if_false] at he
    rw [← he] at this
    exact (hr.same_iff hne).1 (List.append_cancel_left this).symm
  · intro h
    exact ⟨_, hr.hit, by rw [(hr.same_iff hne).2 h]; simp⟩

/-! ### C31 -/

/-- Exactly, for a chosen namespace that is not empty, with a prefix without colon that does not begin with a bracket: what comes back is the short form itself if the prefix is
    the name of a URI scheme; the default namespace and the prefix if there is nothing but the prefix and a default namespace; and the namespace with the rest of the short form otherwise. -/
theorem C31_exact (m : PrefixMap) (wf : Dict.WF m) (iri p ns rest rest' : PStr) (hc : Chosen iri m (p, ns)) (e : iri = ns ++ rest) (hne : ns ≠ [])
    (hr : Spec.Replaced ns (p ++ [58]) rest rest') (h58 : 58 ∉ p) (hbr : p.head? ≠ some 91) :
    (p ∈ schemes → m.resolve (m.shrink iri) = .ok (p ++ [58] ++ rest')) ∧
    (p ∉ schemes → ∀ d, rest' = [] → Dict.get? m [] = some d → m.resolve (m.shrink iri) = .ok (d ++ p)) ∧
    (p ∉ schemes → rest' ≠ [] ∨ Dict.get? m [] = none → m.resolve (m.shrink iri) = .ok (ns ++ rest')) := by
  have hsh : m.shrink iri = p ++ [58] ++ rest' := by
    have := (C30_exact iri m [58] p ns hc hne false (p ++ [58] ++ rest')).2 ⟨_, by rw [e]; exact hr.hit, rfl⟩
    exact this
  have hb : bracketed (p ++ [58] ++ rest') = false := by
    cases p with
    | nil => rfl
    | cons c cs =>
      have : c ≠ 91 := by simpa using hbr
      simp [bracketed, this]
  have hs : SplitsAt 58 (curieBody (p ++ [58] ++ rest')) p rest' := by
    refine ⟨h58, .inl ?_⟩
    rw [curieBody, hb]; simp
  have hrules := parseCurie_rules (p ++ [58] ++ rest') (by simp) m p rest' hs
  unfold PrefixMap.resolve
  rw [hsh]
  refine ⟨fun h => hrules.1 ⟨hb, h⟩, fun h d h0 hd => (hrules.2 (by simp [h])).1 d h0 hd, fun h hor => ?_⟩
  refine ((hrules.2 (by simp [h])).2 ?_).1 ns (get?_of_chosen wf hc)
  rintro ⟨h1, h2⟩
  rcases hor with h | h
  · exact h h1
  · rw [h] at h2; cases h2

theorem Spec.Replaced.nil_iff {old new s t : PStr} (h0 : old ≠ []) (h1 : new ≠ []) (h : Spec.Replaced old new s t) : t = [] ↔ s = [] := by
  cases h with
  | done => simp
  | hit h => simp [h0, h1]
  | miss _ h => simp

/-- The round trip succeeds exactly if one of these holds: the namespace is the prefix with its colon and the prefix a scheme; the prefix is no scheme, the local part is not empty (or there is no
    default namespace) and the namespace does not occur again (or is the prefix with its colon); or the local part is empty and the default namespace with the prefix is the namespace. -/
theorem C31_iff (m : PrefixMap) (wf : Dict.WF m) (iri p ns rest : PStr) (hc : Chosen iri m (p, ns)) (e : iri = ns ++ rest) (hne : ns ≠ []) (h58 : 58 ∉ p) (hbr : p.head? ≠ some 91) :
    m.resolve (m.shrink iri) = .ok iri ↔
      (p ∈ schemes ∧ ns = p ++ [58]) ∨
      (p ∉ schemes ∧ (rest ≠ [] ∨ Dict.get? m [] = none) ∧ (¬ ns <:+: rest ∨ ns = p ++ [58])) ∨
      (p ∉ schemes ∧ rest = [] ∧ ∃ d, Dict.get? m [] = some d ∧ d ++ p = ns) := by
  have hr := replaced_pyReplace (new := p ++ [58]) hne rest
  generalize pyReplace rest ns (p ++ [58]) = rest' at hr
  have hnil := hr.nil_iff hne (by simp)
  obtain ⟨h1, h2, h3⟩ := C31_exact m wf iri p ns rest rest' hc e hne hr h58 hbr
  by_cases hs : p ∈ schemes
  · rw [h1 hs, e]
    simp only [hs, true_and, not_true_eq_false, false_and, or_false, Except.ok.injEq]
    constructor
    · intro he
      obtain ⟨k, hk, -⟩ := hr.count
      have hl : (p ++ [58]).length + rest'.length = ns.length + rest.length := by
        rw [← List.length_append, ← List.length_append]; exact congrArg List.length he
      have : (k + 1) * (p ++ [58]).length = (k + 1) * ns.length := by
        rw [Nat.add_mul, Nat.add_mul]; omega
      exact (List.append_inj he (eq_of_mul (by omega) this)).1.symm
    · intro he
      rw [← he] at hr ⊢
      rw [hr.self_same]
  · simp only [hs, false_and, false_or, not_false_eq_true, true_and]
    by_cases h0 : rest = []
    · cases hd : Dict.get? m [] with
      | none =>
        rw [h3 hs (.inr hd), e]
        subst h0
        rw [hnil.2 rfl]
        simp [hne]
      | some d =>
        rw [h2 hs d (hnil.2 h0) hd, e, h0]
        simp
    · rw [h3 hs (.inl fun h => h0 (hnil.1 h)), e]
      simp only [Except.ok.injEq, h0, false_and, or_false, ne_eq, not_false_eq_true, true_or, true_and]
      rw [← hr.same_iff hne]
      exact ⟨List.append_cancel_left, fun h => by rw [h]⟩

/-- An IRI that no namespace matches is expanded as if it were a short form: unchanged if its scheme is registered, otherwise by a prefix of that name, if there is one. -/
theorem C31_unmatched (m : PrefixMap) (iri p rest : PStr) (hno : ∀ pn ∈ m, ¬ pn.2 <+: iri) (hi : iri = p ++ 58 :: rest) (h58 : 58 ∉ p) (hbr : p.head? ≠ some 91) :
    (p ∈ schemes → m.resolve (m.shrink iri) = .ok iri) ∧
    (p ∉ schemes → ∀ d, rest = [] → Dict.get? m [] = some d → m.resolve (m.shrink iri) = .ok (d ++ p)) ∧
    (p ∉ schemes → rest ≠ [] ∨ Dict.get? m [] = none →
      (∀ ns, Dict.get? m p = some ns → m.resolve (m.shrink iri) = .ok (ns ++ rest)) ∧ (Dict.get? m p = none → m.resolve (m.shrink iri) = .error .valueError)) := by
  have hsh : m.shrink iri = iri := toCurie_none hno [58] false
  have hb : bracketed iri = false := by
    rw [hi]
    cases p with
    | nil => rfl
    | cons c cs =>
      have : c ≠ 91 := by simpa using hbr
      simp [bracketed, this]
  have hs : SplitsAt 58 (curieBody iri) p rest := ⟨h58, .inl (by rw [curieBody, hb]; simp [hi])⟩
  have hrules := parseCurie_rules iri (by rw [hi]; simp) m p rest hs
  unfold PrefixMap.resolve
  rw [hsh]
  refine ⟨fun h => hrules.1 ⟨hb, h⟩, fun h d h0 hd => (hrules.2 (by simp [h])).1 d h0 hd, fun h hor => (hrules.2 (by simp [h])).2 ?_⟩
  rintro ⟨h1, h2⟩
  rcases hor with h | h
  · exact h h1
  · rw [h] at h2; cases h2

/-! ### C104 -/

/-- The explicit form comes back exactly if the local part is not empty (or there is no default namespace) and the namespace does not occur again (or is the prefix with its colon),
    or the local part is empty and the default namespace with the prefix is the namespace. -/
theorem C104_iff (m : Dict PStr PStr) (wf : Dict.WF m) (iri p ns rest : PStr) (hc : Chosen iri m (p, ns)) (e : iri = ns ++ rest) (hne : ns ≠ []) (h58 : 58 ∉ p) :
    parseCurie (toCurie iri m [58] true) m = .ok iri ↔
      ((rest ≠ [] ∨ Dict.get? m [] = none) ∧ (¬ ns <:+: rest ∨ ns = p ++ [58])) ∨ (rest = [] ∧ ∃ d, Dict.get? m [] = some d ∧ d ++ p = ns) := by
  have hr := replaced_pyReplace (new := p ++ [58]) hne rest
  generalize pyReplace rest ns (p ++ [58]) = rest' at hr
  have hnil := hr.nil_iff hne (by simp)
  have hto : toCurie iri m [58] true = [91] ++ (p ++ [58] ++ rest') ++ [93] :=
    (C30_exact iri m [58] p ns hc hne true _).2 ⟨_, by rw [e]; exact hr.hit, rfl⟩
  rw [hto]
  have hb : bracketed ([91] ++ (p ++ [58] ++ rest') ++ [93]) = true := bracketed_iff.2 ⟨p ++ [58] ++ rest', by simp⟩
  have hs : SplitsAt 58 (curieBody ([91] ++ (p ++ [58] ++ rest') ++ [93])) p rest' := by
    refine ⟨h58, .inl ?_⟩
    rw [curieBody, hb, if_pos rfl]
    have : ([91] ++ (p ++ [58] ++ rest') ++ [93] : PStr).tail = (p ++ 58 :: rest') ++ [93] := by simp
    rw [this, List.dropLast_concat]
  have hrl := (parseCurie_rules _ (by simp) m p rest' hs).2 (by rw [hb]; simp)
  have hget := get?_of_chosen wf hc
  by_cases h0 : rest = []
  · have h0' := hnil.2 h0
    cases hd : Dict.get? m [] with
    | none =>
      rw [(hrl.2 (by simp [hd])).1 ns hget, e, h0, h0']
      simp [hne]
    | some d =>
      rw [hrl.1 d h0' hd, e, h0]
      simp
  · have h0' : rest' ≠ [] := fun h => h0 (hnil.1 h)
    rw [(hrl.2 (by simp [h0'])).1 ns hget, e]
    simp only [Except.ok.injEq, h0, false_and, or_false, ne_eq, not_false_eq_true, true_or, true_and]
    rw [← hr.same_iff hne]
    exact ⟨List.append_cancel_left, fun h => by rw [h]⟩

example : PrefixMap.resolve [(py! "ex", py! "urn:e#")] (PrefixMap.shrink [(py! "ex", py! "urn:e#")] (py! "urn:e#urn:e#")) = .ok (py! "urn:e#ex:") ∧
    Chosen (py! "urn:e#urn:e#") [(py! "ex", py! "urn:e#")] (py! "ex", py! "urn:e#") ∧ Spec.Replaced (py! "urn:e#") (py! "ex:") (py! "urn:e#") (py! "ex:") :=
  ⟨by decide, ⟨[], [], rfl, by decide, by simp, by simp⟩, Spec.Replaced.hit (old := py! "urn:e#") .done⟩

end Verif
