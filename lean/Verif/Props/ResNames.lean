import Verif.Props.ResClass
import Verif.Props.Curie

/-!
# C122: what the name of a property stands for

`Resource.resolve` (rdf.py:154-160) gives the IRI of a name such as `rdfs:label`: it is what `resource[name]`, `register_class` and the
scalars of a class go by. The specification here says what a CURIE means under a set of bindings without following the code's order of tests.
-/

namespace Verif

namespace Spec

/-- `curie` stands for `iri` where the prefix `p` is bound to `ns p` and the default prefix is the empty one. -/
inductive CurieMeans (ns : PStr → Option PStr) (curie : PStr) : PStr → Prop
  /-- It is an IRI with a registered scheme. -/
  | iri {p r} : CurieText curie false curie → SplitsAt 58 curie p r → p ∈ uriSchemes → CurieMeans ns curie curie
  /-- A lone word, below the default namespace. -/
  | default {b body p d} : CurieText curie b body → SplitsAt 58 body p [] → ¬ (b = false ∧ p ∈ uriSchemes) → ns [] = some d →
      CurieMeans ns curie (d ++ p)
  /-- A prefix and a reference. -/
  | pre {b body p r n} : CurieText curie b body → SplitsAt 58 body p r → ¬ (b = false ∧ p ∈ uriSchemes) →
      ¬ (r = [] ∧ (ns []).isSome) → ns p = some n → CurieMeans ns curie (n ++ r)

end Spec

open Spec

theorem exists_curieText (curie : PStr) : ∃ b body p r, CurieText curie b body ∧ SplitsAt 58 body p r := by
  have hsp : ∀ body : PStr, ∃ p r, SplitsAt 58 body p r := by
    intro body
    by_cases h : 58 ∈ body
    · obtain ⟨p, r, h, hp⟩ := List.eq_append_cons_of_mem h
      exact ⟨p, r, hp, .inl (by simpa using h)⟩
    · exact ⟨body, [], h, .inr ⟨rfl, rfl⟩⟩
  by_cases h : ∃ body, curie = 91 :: (body ++ [93])
  · obtain ⟨body, hb⟩ := h
    obtain ⟨p, r, hs⟩ := hsp body
    exact ⟨true, body, p, r, .brackets hb, hs⟩
  · obtain ⟨p, r, hs⟩ := hsp curie
    exact ⟨false, curie, p, r, .plain h, hs⟩

/-- `parse_curie` gives the meaning of a non-empty string, and raises ValueError iff it has none. -/
theorem parseCurie_means {curie : PStr} (hne : curie ≠ []) (m : Dict PStr PStr) :
    (∀ x, CurieMeans m.get? curie x → parseCurie curie m = .ok x) ∧
    ((∀ x, ¬ CurieMeans m.get? curie x) → parseCurie curie m = .error .valueError) := by
  refine ⟨fun x h => ?_, fun h => ?_⟩
  · cases h with
    | iri ht hs hp => exact (C29_rules_partial curie hne m ht hs).1 ⟨rfl, hp⟩
    | default ht hs hp hd => exact ((C29_rules_partial curie hne m ht hs).2 hp).1 _ rfl hd
    | pre ht hs hp hd hn => exact (((C29_rules_partial curie hne m ht hs).2 hp).2 hd).1 _ hn
  · obtain ⟨b, body, p, r, ht, hs⟩ := exists_curieText curie
    by_cases hp : b = false ∧ p ∈ uriSchemes
    · obtain ⟨rfl, hp⟩ := hp
      have : body = curie := by cases ht; rfl
      subst this
      exact absurd (.iri ht hs hp) (h _)
    · by_cases hd : r = [] ∧ (m.get? []).isSome
      · obtain ⟨rfl, hd⟩ := hd
        obtain ⟨d, hd⟩ := Option.isSome_iff_exists.1 hd
        exact absurd (.default ht hs hp hd) (h _)
      · cases hn : m.get? p with
        | none => exact (((C29_rules_partial curie hne m ht hs).2 hp).2 hd).2 hn
        | some n => exact absurd (.pre ht hs hp hd hn) (h _)

/-- A string means at most one IRI. -/
theorem C122_unambiguous {ns : PStr → Option PStr} {curie x y : PStr} (hx : CurieMeans ns curie x) (hy : CurieMeans ns curie y) : x = y := by
  have key : ∀ {b b' : Bool} {body body' p p' r r' : PStr}, CurieText curie b body → CurieText curie b' body' → SplitsAt 58 body p r →
      SplitsAt 58 body' p' r' → b = b' ∧ p = p' ∧ r = r' := by
    intro b b' body body' p p' r r' h h' hs hs'
    obtain ⟨h1, h2⟩ := h.body
    obtain ⟨h1', h2'⟩ := h'.body
    have e : body = body' := h2.symm.trans h2'
    subst e
    obtain ⟨a1, a2⟩ := splitsAt_unique hs
    obtain ⟨b1, b2⟩ := splitsAt_unique hs'
    exact ⟨h1.symm.trans h1', a1.symm.trans b1, a2.symm.trans b2⟩
  cases hx with
  | iri ht hs hp =>
    cases hy with
    | iri => rfl
    | default ht' hs' hp' _ => obtain ⟨rfl, rfl, _⟩ := key ht ht' hs hs'; exact absurd ⟨rfl, hp⟩ hp'
    | pre ht' hs' hp' _ _ => obtain ⟨rfl, rfl, _⟩ := key ht ht' hs hs'; exact absurd ⟨rfl, hp⟩ hp'
  | default ht hs hp hd =>
    cases hy with
    | iri ht' hs' hp' => obtain ⟨rfl, rfl, _⟩ := key ht ht' hs hs'; exact absurd ⟨rfl, hp'⟩ hp
    | default ht' hs' hp' hd' => obtain ⟨rfl, rfl, _⟩ := key ht ht' hs hs'; rw [hd] at hd'; cases hd'; rfl
    | pre ht' hs' hp' hd' _ => obtain ⟨rfl, rfl, rfl⟩ := key ht ht' hs hs'; exact absurd ⟨rfl, by rw [hd]; rfl⟩ hd'
  | pre ht hs hp hd hn =>
    cases hy with
    | iri ht' hs' hp' => obtain ⟨rfl, rfl, _⟩ := key ht ht' hs hs'; exact absurd ⟨rfl, hp'⟩ hp
    | default ht' hs' hp' hd' => obtain ⟨rfl, rfl, rfl⟩ := key ht ht' hs hs'; exact absurd ⟨rfl, by rw [hd']; rfl⟩ hd
    | pre ht' hs' hp' hd' hn' => obtain ⟨rfl, rfl, rfl⟩ := key ht ht' hs hs'; rw [hn] at hn'; cases hn'; rfl

/-- C122. A non-empty name stands for what the class's prefixes make of it. If they make nothing of it, a name with a colon stands for what
    the prefixes of the global profile make of it (and it raises ValueError if they make nothing of it either); a name without a colon
    stands for the IRI the global profile has for that term, else for the term below its default vocabulary, if it has one, else for
    None. -/
theorem C122_resolve (w : World) (c : Nat) {key : PStr} (hne : key ≠ []) :
    (∀ x, CurieMeans (w.cls c).prefixes.get? key x → resolveKey w c key = .ok (some x)) ∧
    ((∀ x, ¬ CurieMeans (w.cls c).prefixes.get? key x) →
      (58 ∈ key →
        (∀ x, CurieMeans w.gPrefixes.get? key x → resolveKey w c key = .ok (some x)) ∧
        ((∀ x, ¬ CurieMeans w.gPrefixes.get? key x) → resolveKey w c key = .error .valueError)) ∧
      (58 ∉ key →
        (∀ x, w.gTerms.terms.get? key = some x → resolveKey w c key = .ok (some x)) ∧
        (∀ d, w.gTerms.terms.get? key = none → w.gTerms.default = some d → resolveKey w c key = .ok (some (d ++ key))) ∧
        (w.gTerms.terms.get? key = none → w.gTerms.default = none → resolveKey w c key = .ok none))) := by
  obtain ⟨h1, h2⟩ := parseCurie_means hne (w.cls c).prefixes
  obtain ⟨g1, g2⟩ := parseCurie_means hne w.gPrefixes
  refine ⟨fun x hx => ?_, fun hno => ?_⟩
  · unfold resolveKey PrefixMap.resolve; rw [h1 x hx]
  · unfold resolveKey PrefixMap.resolve
    rw [h2 hno]
    refine ⟨fun hc => ?_, fun hc => ?_⟩
    · have : key.contains 58 = true := by simpa using hc
      simp only [this, if_true]
      exact ⟨fun x hx => by rw [g1 x hx]; rfl, fun h => by rw [g2 h]; rfl⟩
    · have : key.contains 58 = false := by simpa using hc
      simp only [this]
      refine ⟨fun x hx => ?_, fun d hx hd => ?_, fun hx hd => ?_⟩
      · unfold TermMap.resolve; rw [hx]; cases w.gTerms.default <;> rfl
      · unfold TermMap.resolve; rw [hx, hd]; rfl
      · unfold TermMap.resolve; rw [hx, hd]; rfl

/-- The empty name raises IndexError, whatever the class and the profile. -/
theorem C122_empty (w : World) (c : Nat) : resolveKey w c [] = .error .indexError := rfl

theorem curieMeans_name {ns : PStr → Option PStr} {p r n : PStr} (hp : p ∉ uriSchemes) (h58 : 58 ∉ p) (h91 : p.head? ≠ some 91) (hr : r ≠ [])
    (hn : ns p = some n) : CurieMeans ns (p ++ 58 :: r) (n ++ r) := by
  refine .pre (b := false) (.plain ?_) ⟨h58, .inl (by simp)⟩ (fun h => hp h.2) (fun h => hr h.1) hn
  rintro ⟨body, e⟩
  cases p with
  | nil => simp at e
  | cons a p =>
    simp only [List.cons_append, List.cons.injEq] at e
    exact h91 (by rw [e.1]; rfl)

theorem not_curieMeans_name {ns : PStr → Option PStr} {p r : PStr} (hp : p ∉ uriSchemes) (h58 : 58 ∉ p) (h91 : p.head? ≠ some 91) (hr : r ≠ [])
    (hn : ns p = none) : ∀ x, ¬ CurieMeans ns (p ++ 58 :: r) x := by
  have hT : CurieText (p ++ 58 :: r) false (p ++ 58 :: r) := by
    refine .plain ?_
    rintro ⟨body, e⟩
    cases p with
    | nil => simp at e
    | cons a p =>
      simp only [List.cons_append, List.cons.injEq] at e
      exact h91 (by rw [e.1]; rfl)
  have key : ∀ {b' : Bool} {body' p' r' : PStr}, CurieText (p ++ 58 :: r) b' body' → SplitsAt 58 body' p' r' → p = p' ∧ r = r' := by
    intro b' body' p' r' h' hs'
    have e : p ++ 58 :: r = body' := hT.body.2.symm.trans h'.body.2
    subst e
    obtain ⟨a1, a2⟩ := splitsAt_unique (c := 58) (s := p ++ 58 :: r) (p := p) (r := r) ⟨h58, .inl (by simp)⟩
    obtain ⟨b1, b2⟩ := splitsAt_unique hs'
    exact ⟨a1.symm.trans b1, a2.symm.trans b2⟩
  intro x h
  cases h with
  | iri ht hs h => obtain ⟨rfl, _⟩ := key ht hs; exact hp h
  | default ht hs h hd => obtain ⟨_, rfl⟩ := key ht hs; exact hr rfl
  | pre ht hs h hd hn' => obtain ⟨rfl, _⟩ := key ht hs; rw [hn] at hn'; cases hn'

/-- With C57: in a class that was defined, the name `p:r` stands for `r` in the namespace the class body binds to `p`; else in the one of the
    last base that has the prefix; else in that of the global profile; else it raises ValueError. -/
theorem C122_subclass {w w' : World} (wr : w.Reach) {name : PStr} {bases : List Nat} {own : Own} {c : Nat}
    (hb : ∀ b ∈ bases, b < w.classes.length) (hown : Dict.WF own.prefixes) (h : newClass w name bases own = .ok (w', c))
    {p r : PStr} (hp : p ∉ uriSchemes) (h58 : 58 ∉ p) (h91 : p.head? ≠ some 91) (hr : r ≠ []) :
    (∀ n, own.prefixes.get? p = some n → resolveKey w' c (p ++ 58 :: r) = .ok (some (n ++ r))) ∧
    (own.prefixes.get? p = none →
      (∀ l b k n, bases = l ++ b :: k → (∀ b' ∈ k, (w.cls b').prefixes.get? p = none) → (w.cls b).prefixes.get? p = some n →
        resolveKey w' c (p ++ 58 :: r) = .ok (some (n ++ r))) ∧
      ((∀ b ∈ bases, (w.cls b).prefixes.get? p = none) →
        (∀ n, w.gPrefixes.get? p = some n → resolveKey w' c (p ++ 58 :: r) = .ok (some (n ++ r))) ∧
        (w.gPrefixes.get? p = none → resolveKey w' c (p ++ 58 :: r) = .error .valueError))) := by
  have hi := (C57_inherited wr hb hown h).1 p
  have hg : w'.gPrefixes = w.gPrefixes := by
    obtain ⟨rfl, s, m, hs, hm, rfl⟩ := newClass_ok h
    rfl
  have hne : p ++ 58 :: r ≠ [] := by simp
  obtain ⟨r1, r2⟩ := C122_resolve w' c hne
  refine ⟨fun n hn => ?_, fun hn => ⟨fun l b k n hl hk hbn => ?_, fun hno => ?_⟩⟩
  · exact r1 _ (curieMeans_name hp h58 h91 hr (by rw [hi, hn]; rfl))
  · refine r1 _ (curieMeans_name hp h58 h91 hr ?_)
    rw [hi, hn, Option.none_or, hl, List.reverse_append, List.reverse_cons, List.findSome?_append, List.findSome?_append]
    have : k.reverse.findSome? (fun b => (w.cls b).prefixes.get? p) = none := by
      rw [List.findSome?_eq_none_iff]
      exact fun x hx => hk x (by simpa using hx)
    rw [this]
    simp [hbn]
  · have hcn : (w'.cls c).prefixes.get? p = none := by
      rw [hi, hn, Option.none_or, List.findSome?_eq_none_iff]
      exact fun x hx => hno x (by simpa using hx)
    have := (r2 (not_curieMeans_name hp h58 h91 hr hcn)).1 (by simp)
    rw [hg] at this
    exact ⟨fun n hn => this.1 _ (curieMeans_name hp h58 h91 hr hn), fun hn => this.2 (not_curieMeans_name hp h58 h91 hr hn)⟩

/-- After the import, `Resource` and `List` know the prefixes `rdf`, `rdfs` and `xsd` under their usual namespaces, and no other prefix. -/
theorem C122_fresh {c : Nat} (hc : c < 2) {p r : PStr} (hp : p ∉ uriSchemes) (h58 : 58 ∉ p) (h91 : p.head? ≠ some 91) (hr : r ≠ []) :
    (p = py! "rdf" → resolveKey World.new c (p ++ 58 :: r) = .ok (some (py! "http://www.w3.org/1999/02/22-rdf-syntax-ns#" ++ r))) ∧
    (p = py! "rdfs" → resolveKey World.new c (p ++ 58 :: r) = .ok (some (py! "http://www.w3.org/2000/01/rdf-schema#" ++ r))) ∧
    (p = py! "xsd" → resolveKey World.new c (p ++ 58 :: r) = .ok (some (py! "http://www.w3.org/2001/XMLSchema#" ++ r))) ∧
    (p ≠ py! "rdf" → p ≠ py! "rdfs" → p ≠ py! "xsd" → resolveKey World.new c (p ++ 58 :: r) = .error .valueError) := by
  have hcls : (World.new.cls c).prefixes = [(py! "rdf", Heap.rdfNs), (py! "rdfs", rdfsNs)] ∨
      (World.new.cls c).prefixes = [(py! "rdfs", rdfsNs), (py! "rdf", Heap.rdfNs)] := by
    have : c = 0 ∨ c = 1 := by omega
    rcases this with rfl | rfl <;> decide
  have hget : ∀ q, (World.new.cls c).prefixes.get? q =
      if q = py! "rdf" then some Heap.rdfNs else if q = py! "rdfs" then some rdfsNs else none := by
    intro q
    have hd : (py! "rdf") ≠ (py! "rdfs") := by decide
    rcases hcls with e | e <;> rw [e]
    · simp only [Dict.get?, eq_comm (b := q), beq_iff_eq]
    · simp only [Dict.get?, eq_comm (b := q), beq_iff_eq]
      by_cases h : q = py! "rdfs"
      · subst h; simp [hd.symm]
      · simp [h]
  have hne : p ++ 58 :: r ≠ [] := by simp
  obtain ⟨r1, r2⟩ := C122_resolve World.new c hne
  refine ⟨fun h => ?_, fun h => ?_, fun h => ?_, fun n1 n2 n3 => ?_⟩
  · exact r1 _ (curieMeans_name hp h58 h91 hr (by rw [hget, h]; rfl))
  · exact r1 _ (curieMeans_name hp h58 h91 hr (by rw [hget, h]; rfl))
  · exact ((r2 (not_curieMeans_name hp h58 h91 hr (by rw [hget, h]; rfl))).1 (by simp)).1 _
      (curieMeans_name hp h58 h91 hr (by rw [h]; rfl))
  · refine ((r2 (not_curieMeans_name hp h58 h91 hr (by rw [hget, if_neg n1, if_neg n2]))).1 (by simp)).2
      (not_curieMeans_name hp h58 h91 hr ?_)
    simp [World.new, Dict.get?, Ne.symm n1, Ne.symm n3]

/-- A class that rebinds a prefix, in a world whose profile knows another one. -/
example :
    let w : World := { World.new with gPrefixes := [(py! "ex", py! "urn:g#"), (py! "foaf", py! "urn:f#")] }
    ∃ w' c, newClass w (py! "A") [0] { prefixes := [(py! "ex", py! "urn:a#")] } = .ok (w', c) ∧
      resolveKey w' c (py! "ex:x") = .ok (some (py! "urn:a#x")) ∧
      resolveKey w' c (py! "foaf:x") = .ok (some (py! "urn:f#x")) ∧
      resolveKey w' c (py! "rdfs:label") = .ok (some (py! "http://www.w3.org/2000/01/rdf-schema#label")) ∧
      resolveKey w' c (py! "xsd:string") = .error .valueError ∧
      resolveKey w' c (py! "http://x/y") = .ok (some (py! "http://x/y")) ∧
      resolveKey w' c (py! "word") = .ok none := ⟨_, _, rfl, by decide, by decide, by decide, by decide, by decide, by decide⟩

end Verif
