import Verif.Props.Curie
/-
C32-C35: prefix maps, term maps, profiles and environments.
-/
namespace Verif
open Heap

/-! ### C32 -/

theorem get?_addMissing (m other : Dict PStr PStr) (wf : Dict.WF other) (k : PStr) :
    Dict.get? (PrefixMap.addMissing m other) k = (Dict.get? m k).or (Dict.get? other k) := by
  unfold PrefixMap.addMissing
  induction other generalizing m with
  | nil => simp
  | cons a e ih =>
    obtain ⟨a, w⟩ := a
    simp only [Dict.WF, Dict.keys, List.map_cons, List.nodup_cons] at wf
    rw [List.foldl_cons, ih _ wf.2]
    by_cases ha : Dict.has m a = true
    · rw [if_pos ha]
      by_cases hk : a = k
      · subst hk
        unfold Dict.has at ha
        obtain ⟨v, hv⟩ := Option.isSome_iff_exists.1 ha
        simp [hv]
      · simp [Dict.get?, hk]
    · rw [if_neg ha, Dict.get?_set]
      by_cases hk : a = k
      · subst hk
        have : Dict.get? m a = none := by
          cases h : Dict.get? m a with
          | none => rfl
          | some v => exact absurd (by simp [Dict.has, h]) ha
        simp [this, Dict.get?]
      · simp [Dict.get?, hk]

/-- Without override an existing binding wins, with override a binding of the argument wins; all other bindings of either map are kept.
    The same for prefix maps and term maps (whose default is not copied). -/
theorem C32_addAll (m other : PrefixMap) (t other' : TermMap) (wf : Dict.WF other) (wf' : Dict.WF other'.terms) (k : PStr) :
    (m.addAll other false).get? k = ((m.get? k).or (other.get? k)) ∧
    (m.addAll other true).get? k = ((other.get? k).or (m.get? k)) ∧
    (t.addAll other' false).terms.get? k = ((t.terms.get? k).or (other'.terms.get? k)) ∧
    (t.addAll other' true).terms.get? k = ((other'.terms.get? k).or (t.terms.get? k)) ∧
    (∀ b, (t.addAll other' b).default = t.default) :=
  ⟨get?_addMissing m other wf k, Dict.get?_update m other k wf, get?_addMissing _ _ wf' k, Dict.get?_update _ _ k wf', fun _ => rfl⟩

example : PrefixMap.addAll [(py! "a", py! "1")] [(py! "a", py! "2"), (py! "b", py! "3")] false = [(py! "a", py! "1"), (py! "b", py! "3")] := by decide
example : PrefixMap.addAll [(py! "a", py! "1")] [(py! "a", py! "2"), (py! "b", py! "3")] true = [(py! "a", py! "2"), (py! "b", py! "3")] := by decide

/-! ### C33 -/

theorem C33_termmap (m : TermMap) (wf : Dict.WF m.terms) (iri term : PStr) :
    ((∃ t, m.terms.get? t = some iri) → m.resolve (m.shrink iri) = some iri) ∧
    ((¬ ∃ t, m.terms.get? t = some iri) → m.shrink iri = iri) ∧
    (∀ v, m.terms.get? term = some v → m.resolve term = some v) ∧
    (m.terms.get? term = none → m.resolve term = m.default.map (· ++ term)) := by
  refine ⟨?_, ?_, ?_, ?_⟩
  · rintro ⟨t, ht⟩
    unfold TermMap.shrink
    cases hf : m.terms.find? fun kv => decide (kv.2 = iri) with
    | none =>
      have := List.find?_eq_none.1 hf (t, iri) (Dict.mem_of_get? ht)
      simp at this
    | some kv =>
      have hm := List.mem_of_find?_eq_some hf
      have hv : kv.2 = iri := by simpa using List.find?_some hf
      have : m.terms.get? kv.1 = some iri := (Dict.mem_iff_get? wf).1 (by rw [← hv]; exact hm)
      unfold TermMap.resolve
      cases m.default <;> simp [this]
  · intro h
    unfold TermMap.shrink
    cases hf : m.terms.find? fun kv => decide (kv.2 = iri) with
    | none => rfl
    | some kv =>
      have hm := List.mem_of_find?_eq_some hf
      have hv : kv.2 = iri := by simpa using List.find?_some hf
      exact absurd ⟨kv.1, (Dict.mem_iff_get? wf).1 (by rw [← hv]; exact hm)⟩ h
  · intro v hv
    unfold TermMap.resolve
    cases m.default <;> simp [hv]
  · intro hv
    unfold TermMap.resolve
    cases m.default <;> simp [hv]

example : TermMap.resolve ⟨[(py! "m", py! "urn:m")], some (py! "urn:d#")⟩ (py! "x") = some (py! "urn:d#x") := by decide
example : TermMap.shrink ⟨[(py! "m", py! "urn:m"), (py! "n", py! "urn:m")], none⟩ (py! "urn:m") = py! "m" := by decide

/-! ### C34 -/

theorem get?_bindMissing (m : PrefixMap) (k v k' : PStr) :
    Dict.get? (bindMissing m k v) k' = if k = k' then some ((Dict.get? m k).getD v) else Dict.get? m k' := by
  unfold bindMissing
  by_cases h : Dict.has m k = true
  · rw [if_pos h]
    obtain ⟨w, hw⟩ := Option.isSome_iff_exists.1 h
    split
    · next e => subst e; simp [hw]
    · rfl
  · rw [if_neg h, Dict.get?_set]
    split
    · have : Dict.get? m k = none := by
        cases h' : Dict.get? m k with
        | none => rfl
        | some v => exact absurd (by simp [Dict.has, h']) h
      simp [this]
    · rfl

/-- The content of the prefix map a caller passed (nothing for None). -/
def given (h : Heap) : Option Nat → PrefixMap
  | some a => h.pmap a
  | none => []

/-- The content of the term map a caller passed. -/
def givenT (h : Heap) : Option Nat → TermMap
  | some a => h.tmap a
  | none => {}

theorem orNewP_spec (h : Heap) (pa : Option Nat) : (h.orNewP pa).1.pmap (h.orNewP pa).2 = given h pa ∧ (h.orNewP pa).1.tmap = h.tmap := by
  unfold orNewP given
  cases pa with
  | none => simp [newP, setP]
  | some a =>
    simp only
    split
    · next e => simp [newP, setP, e]
    · simp

theorem orNewT_spec (h : Heap) (ta : Option Nat) :
    ((h.orNewT ta).1.tmap (h.orNewT ta).2).terms = (givenT h ta).terms ∧ (h.orNewT ta).1.pmap = h.pmap := by
  unfold orNewT givenT
  cases ta with
  | none => simp [newT, setT]
  | some a =>
    simp only
    split
    · next e => simp [newT, setT, e]
    · simp

/-- A new profile binds `rdf` and `xsd` (to the caller's own namespaces if the passed map has them), keeps every other binding of the
    passed map, keeps the terms, and resolves strings with a colon as CURIEs and others as terms. -/
theorem C34_profile (h : Heap) (pa ta : Option Nat) (k : PStr) :
    let r := h.newProfile pa ta
    let m := r.1.pmap r.2.prefixes
    (m.get? (py! "rdf") = some (((given h pa).get? (py! "rdf")).getD (py! "http://www.w3.org/1999/02/22-rdf-syntax-ns#"))) ∧
    (m.get? (py! "xsd") = some (((given h pa).get? (py! "xsd")).getD (py! "http://www.w3.org/2001/XMLSchema#"))) ∧
    (k ≠ py! "rdf" → k ≠ py! "xsd" → m.get? k = (given h pa).get? k) ∧
    ((r.1.tmap r.2.terms).terms = (givenT h ta).terms) ∧
    (∀ s, 58 ∈ s → r.1.resolve r.2 s = (m.resolve s).map some) ∧
    (∀ s, 58 ∉ s → r.1.resolve r.2 s = .ok ((r.1.tmap r.2.terms).resolve s)) := by
  intro r m
  have h1 := orNewP_spec h pa
  have h2 := orNewT_spec (h.orNewP pa).1 ta
  have hm : m = bindMissing (bindMissing (given h pa) (py! "rdf") rdfNs) (py! "xsd") xsdNs := by
    show ((h.newProfile pa ta).1.pmap (h.newProfile pa ta).2.prefixes) = _
    simp only [newProfile, setP, if_true, h2.2, h1.1]
  have ht : (r.1.tmap r.2.terms).terms = (givenT h ta).terms := by
    show ((h.newProfile pa ta).1.tmap (h.newProfile pa ta).2.terms).terms = _
    simp only [newProfile, setP, h2.1]
    cases ta with
    | none => rfl
    | some a => simp only [givenT, h1.2]
  refine ⟨?_, ?_, ?_, ht, ?_, ?_⟩
  · rw [hm, get?_bindMissing, if_neg (by decide), get?_bindMissing, if_pos rfl]; rfl
  · rw [hm, get?_bindMissing, if_pos rfl, get?_bindMissing, if_neg (by decide)]; rfl
  · intro e1 e2
    rw [hm, get?_bindMissing, if_neg (Ne.symm e2), get?_bindMissing, if_neg (Ne.symm e1)]
  · intro s hs; unfold resolve; rw [if_pos (by simpa using hs)]
  · intro s hs; unfold resolve; rw [if_neg (by simpa using hs)]

/-- So `rdf:type` resolves in a default profile. -/
example : (({} : Heap).newProfile none none).1.resolve (({} : Heap).newProfile none none).2 (py! "rdf:type")
    = .ok (some (py! "http://www.w3.org/1999/02/22-rdf-syntax-ns#type")) := by decide

/-! ### C35 -/

/-- A history of binding operations on any profiles. -/
def runProfiles (h : Heap) (ops : List (Profile × Op)) : Heap := ops.foldl (fun h po => h.exec po.1 po.2) h

theorem exec_pmap_other (h : Heap) (p : Profile) (op : Op) (a : Nat) (ha : p.prefixes ≠ a) : (h.exec p op).pmap a = h.pmap a := by
  cases op <;> simp [exec, setP, setT, Ne.symm ha]

theorem exec_tmap_other (h : Heap) (p : Profile) (op : Op) (a : Nat) (ha : p.terms ≠ a) : (h.exec p op).tmap a = h.tmap a := by
  cases op <;> simp [exec, setP, setT, Ne.symm ha]

theorem run_pmap_other (h : Heap) (ops : List (Profile × Op)) (a : Nat) (ha : ∀ po ∈ ops, po.1.prefixes ≠ a) :
    (runProfiles h ops).pmap a = h.pmap a := by
  induction ops generalizing h with
  | nil => rfl
  | cons po ops ih =>
    show (runProfiles (h.exec po.1 po.2) ops).pmap a = _
    rw [ih _ (fun q hq => ha q (by simp [hq])), exec_pmap_other _ _ _ _ (ha po (by simp))]

theorem run_tmap_other (h : Heap) (ops : List (Profile × Op)) (a : Nat) (ha : ∀ po ∈ ops, po.1.terms ≠ a) :
    (runProfiles h ops).tmap a = h.tmap a := by
  induction ops generalizing h with
  | nil => rfl
  | cons po ops ih =>
    show (runProfiles (h.exec po.1 po.2) ops).tmap a = _
    rw [ih _ (fun q hq => ha q (by simp [hq])), exec_tmap_other _ _ _ _ (ha po (by simp))]

/-- Profiles whose maps exist. -/
def Heap.Live (h : Heap) (p : Profile) : Prop := p.prefixes < h.next ∧ p.terms < h.next

/-- Each map made is a new object: it is none of those there were, and it is there afterwards, so that the next one is another. -/
theorem C35_new_objects (h : Heap) (env : Profile) (empty : Bool) :
    (h.next ≤ (h.createPrefixMap env empty).2 ∧ (h.createPrefixMap env empty).2 < (h.createPrefixMap env empty).1.next) ∧
    (h.next ≤ (h.createTermMap env empty).2 ∧ (h.createTermMap env empty).2 < (h.createTermMap env empty).1.next) ∧
    (h.next ≤ (h.createProfile env true).2.prefixes ∧ h.next ≤ (h.createProfile env true).2.terms ∧
      (h.createProfile env true).1.Live (h.createProfile env true).2) := by
  refine ⟨?_, ?_, ?_⟩
  · cases empty <;> simp [createPrefixMap, newP]
  · cases empty <;> simp [createTermMap, newT]
  · simp [createProfile, newProfile, orNewP, orNewT, newP, newT, setP, setT, Heap.Live]
    omega

/-- With `empty`, the new maps do not have the bindings of the environment: a prefix map and a term map are empty, and a profile has rdf: and xsd: only. -/
theorem C35_empty (h : Heap) (env : Profile) :
    (h.createPrefixMap env true).1.pmap (h.createPrefixMap env true).2 = [] ∧
    (h.createTermMap env true).1.tmap (h.createTermMap env true).2 = {} ∧
    (let c := h.createProfile env true
     c.1.pmap c.2.prefixes = [(py! "rdf", py! "http://www.w3.org/1999/02/22-rdf-syntax-ns#"), (py! "xsd", py! "http://www.w3.org/2001/XMLSchema#")] ∧
     c.1.tmap c.2.terms = {}) := by
  refine ⟨by simp [createPrefixMap, newP, setP], by simp [createTermMap, newT, setT], ?_, ?_⟩
  · simp [createProfile, newProfile, orNewP, orNewT, newP, newT, setP, setT, bindMissing]
    rfl
  · simp [createProfile, newProfile, orNewP, orNewT, newP, newT, setP, setT]

/-- A copy made by `createPrefixMap`/`createTermMap` starts with the environment's bindings; no later operations on profiles that existed
    before change it; and overwriting the copy does not change the maps of any of those profiles. -/
theorem C35_copies_independent (h : Heap) (env : Profile) (ops : List (Profile × Op)) (hops : ∀ po ∈ ops, h.Live po.1) :
    let c := h.createPrefixMap env false
    let d := h.createTermMap env false
    (runProfiles c.1 ops).pmap c.2 = h.pmap env.prefixes ∧ ((runProfiles d.1 ops).tmap d.2).terms = (h.tmap env.terms).terms ∧
    (∀ p m, h.Live p → (c.1.setP c.2 m).pmap p.prefixes = h.pmap p.prefixes ∧ (c.1.setP c.2 m).tmap p.terms = h.tmap p.terms) ∧
    (∀ p m, h.Live p → (d.1.setT d.2 m).pmap p.prefixes = h.pmap p.prefixes ∧ (d.1.setT d.2 m).tmap p.terms = h.tmap p.terms) := by
  intro c d
  refine ⟨?_, ?_, ?_, ?_⟩
  · rw [run_pmap_other]
    · simp [c, createPrefixMap, newP, setP]
    · intro po hpo e
      have := (hops po hpo).1
      simp [c, createPrefixMap, newP] at e; omega
  · rw [run_tmap_other]
    · simp [d, createTermMap, newT, setT]
    · intro po hpo e
      have := (hops po hpo).2
      simp [d, createTermMap, newT] at e; omega
  · intro p m hp
    have := hp.1
    have hne : p.prefixes ≠ h.next := by omega
    simp [c, createPrefixMap, newP, setP, hne]
  · intro p m hp
    have := hp.2
    have hne : p.terms ≠ h.next := by omega
    simp [d, createTermMap, newT, setT, hne]

/-- The default of the environment's terms is not copied. -/
theorem C35_termmap_copy_loses_default (h : Heap) (env : Profile) :
    ((h.createTermMap env false).1.tmap (h.createTermMap env false).2).default = none := by
  simp [createTermMap, newT, setT]

theorem has_addAll {m other : Dict PStr PStr} {k : PStr} {ov : Bool} (hk : Dict.has m k = true) : Dict.has (PrefixMap.addAll m other ov) k = true := by
  have hset : ∀ (m : Dict PStr PStr) a v, Dict.has m k = true → Dict.has (Dict.set m a v) k = true := by
    intro m a v h; unfold Dict.has at *; rw [Dict.get?_set]; split <;> simp [h]
  cases ov with
  | true =>
    show Dict.has (Dict.update m other) k = true
    unfold Dict.update
    induction other generalizing m with
    | nil => exact hk
    | cons a e ih => exact ih (hset _ _ _ hk)
  | false =>
    show Dict.has (PrefixMap.addMissing m other) k = true
    unfold PrefixMap.addMissing
    induction other generalizing m with
    | nil => exact hk
    | cons a e ih =>
      rw [List.foldl_cons]
      split
      · exact ih hk
      · exact ih (hset _ _ _ hk)

theorem exec_has (h : Heap) (p : Profile) (op : Op) (a : Nat) (k : PStr) (hk : Dict.has (h.pmap a) k = true) :
    Dict.has ((h.exec p op).pmap a) k = true := by
  by_cases ha : p.prefixes = a
  · subst ha
    have hset : ∀ (m : Dict PStr PStr) a v, Dict.has m k = true → Dict.has (Dict.set m a v) k = true := by
      intro m a v h; unfold Dict.has at *; rw [Dict.get?_set]; split <;> simp [h]
    cases op with
    | setDefaultVocabulary iri => simpa [exec, setT] using hk
    | setDefaultPrefix iri => simpa [exec, setP, PrefixMap.setDefault] using hset _ _ _ hk
    | setTerm t iri => simpa [exec, setT] using hk
    | setPrefix k' iri => simpa [exec, setP] using hset _ _ _ hk
    | importProfile q ov => simpa [exec, setP, setT] using has_addAll hk
  · rw [exec_pmap_other h p op a ha]; exact hk

theorem run_has (h : Heap) (ops : List (Profile × Op)) (a : Nat) (k : PStr) (hk : Dict.has (h.pmap a) k = true) :
    Dict.has ((runProfiles h ops).pmap a) k = true := by
  induction ops generalizing h with
  | nil => exact hk
  | cons po ops ih => exact ih _ (exec_has h po.1 po.2 a k hk)

/-- An environment built from any maps, after any history of bindings, shares its prefix map with the profiles it creates: after any
    further history on any profiles both resolve every CURIE alike. (Its terms are shared only if there are any.) -/
theorem C35_profile_shared (h : Heap) (pa ta : Option Nat) (ops ops' : List (Profile × Op)) :
    let r := h.newProfile pa ta
    let h1 := runProfiles r.1 ops
    let c := h1.createProfile r.2 false
    c.2.prefixes = r.2.prefixes ∧
    (∀ s, 58 ∈ s → (runProfiles c.1 ops').resolve c.2 s = (runProfiles c.1 ops').resolve r.2 s) ∧
    ((h1.tmap r.2.terms).terms ≠ [] → c.2 = r.2) := by
  intro r h1 c
  have hrdf : Dict.has (r.1.pmap r.2.prefixes) (py! "rdf") = true := by
    have h := (C34_profile h pa ta []).1
    simp only [Dict.has]
    rw [show Dict.get? (r.1.pmap r.2.prefixes) (py! "rdf") = _ from h]
    rfl
  have hne : h1.pmap r.2.prefixes ≠ [] := by
    intro e
    have := run_has r.1 ops r.2.prefixes _ hrdf
    rw [show (runProfiles r.1 ops).pmap r.2.prefixes = [] from e] at this
    cases this
  have hp : c.2.prefixes = r.2.prefixes := by
    show (h1.createProfile r.2 false).2.prefixes = _
    simp [createProfile, newProfile, orNewP, hne]
  refine ⟨hp, ?_, ?_⟩
  · intro s hs
    unfold resolve
    rw [if_pos (by simpa using hs), if_pos (by simpa using hs), hp]
  · intro ht
    show (h1.createProfile r.2 false).2 = _
    simp [createProfile, newProfile, orNewP, hne, orNewT, ht]

/-- With an empty term map the terms are not shared, not even their default. -/
theorem C35_empty_terms_not_shared :
    let r := ({} : Heap).newProfile none none
    let h1 := r.1.exec r.2 (.setDefaultVocabulary (py! "urn:d#"))
    let c := h1.createProfile r.2 false
    c.1.resolve r.2 (py! "x") = .ok (some (py! "urn:d#x")) ∧ c.1.resolve c.2 (py! "x") = .ok none := by decide

end Verif
