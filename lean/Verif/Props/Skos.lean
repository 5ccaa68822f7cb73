import Verif.Model.Skos
import Verif.Props.ResClass
import Verif.Props.Curie
/-
C113: the vocabulary module `pymantic.vocab.skos`.
-/
namespace Verif
open Spec Graph

theorem set_new {d : Dict PStr PStr} {k v : PStr} (h : k ∉ Dict.keys d) : Dict.set d k v = d ++ [(k, v)] := by
  induction d with
  | nil => rfl
  | cons a d ih =>
    obtain ⟨a, x⟩ := a
    simp only [Dict.keys, List.map_cons, List.mem_cons, not_or] at h
    rw [Dict.set, if_neg (Ne.symm h.1), ih h.2]
    rfl

theorem update_new {d e : Dict PStr PStr} (h : (Dict.keys (d ++ e)).Nodup) : Dict.update d e = d ++ e := by
  unfold Dict.update
  induction e generalizing d with
  | nil => simp
  | cons a e ih =>
    obtain ⟨a, x⟩ := a
    have hn : a ∉ Dict.keys d := by
      intro ha
      simp only [Dict.keys, List.map_append, List.map_cons] at h ha
      exact (List.nodup_append.1 h).2.2 a ha a (by simp) rfl
    rw [List.foldl_cons, set_new hn, ih]
    · simp
    · simpa using h

/-- Copying a prefix map. -/
theorem update_nil {e : Dict PStr PStr} (h : Dict.WF e) : Dict.update [] e = e := update_new (d := []) h

/-- Whatever classes are defined and registered, `Resource` keeps its scalars and its ancestors. -/
theorem resource_fixed {w : World} (h : w.Reach) :
    (w.cls 0).scalars = resourceCls.scalars ∧ (w.cls 0).mro = [0] := by
  induction h with
  | new => decide
  | @define w w' name bases own c h hne hb hnew ih =>
    obtain ⟨rfl, s, m, hs, hm, rfl⟩ := newClass_ok hnew
    rw [cls_append (by have := h.wf.two; omega)]; exact ih
  | @register w ty c h hc ih =>
    unfold registerClass
    split
    · exact ih
    · rw [cls_setRdf]
      split
      · exact ih
      · exact ih
  | profile p t h ih => exact ih
  | @auto w types pcs h hne hb ih =>
    rcases autoClass_cases w types pcs with ⟨k, _, he⟩ | ⟨_, e, _, he⟩ | ⟨_, m, hm, he⟩
    · rw [he]; exact ih
    · rw [he]; exact ih
    · rw [he, cls_append (by have := h.wf.two; omega)]; exact ih
  | setPrefix c name iri _ ih => rw [cls_setPrefix]; split <;> exact ih
  | setLang c lang _ ih => rw [cls_setLang]; split <;> exact ih

/-- A class that adds nothing to `Resource`, made when `Resource` has the prefixes `pm`. -/
def plainCls (pm : PrefixMap) (name : PStr) (mro : List Nat) : Cls :=
  { name, prefixes := pm, scalars := resourceCls.scalars, mro }

theorem newClass_plain0 {w : World} (h1 : Dict.WF (w.cls 0).prefixes) (h2 : (w.cls 0).scalars = resourceCls.scalars)
    (h3 : (w.cls 0).mro = [0]) (name : PStr) :
    newClass w name [0] {} = .ok ({ w with classes := w.classes ++ [plainCls (w.cls 0).prefixes name [w.classes.length, 0]] }, w.classes.length) := by
  unfold newClass inheritedPrefixes inheritedScalars mroOf
  simp only [List.foldl_cons, List.foldl_nil, List.map_cons, List.map_nil, update_nil h1, h2, h3]
  rfl

theorem newClass_plain1 {w : World} {b : Nat} {k : PStr} {pm : PrefixMap} (hpm : Dict.WF pm) (hb : b ≠ 0) (h1 : w.cls b = plainCls pm k [b, 0])
    (name : PStr) :
    newClass w name [b] {} =
      .ok ({ w with classes := w.classes ++ [plainCls pm name [w.classes.length, b, 0]] }, w.classes.length) := by
  have hm : mroOf w w.classes.length [b] = some [w.classes.length, b, 0] := by
    unfold mroOf
    rw [List.map_cons, h1]
    simp [plainCls, c3Merge, c3Pick, hb]
  unfold newClass
  rw [hm]
  simp only [inheritedPrefixes, inheritedScalars, List.foldl_cons, List.foldl_nil, h1]
  rw [show (plainCls pm k [b, 0]).prefixes = pm from rfl, update_nil hpm]
  rfl

/-- `skos:x` in a class with the prefixes `pm`: these decide, or else the global profile. -/
theorem resolve_skos {w : World} {c : Nat} {pm : PrefixMap} (h : (w.cls c).prefixes = pm) (x : PStr) (hx : x ≠ []) :
    resolveKey w c (py! "skos:" ++ x) =
      match (pm.get? (py! "skos")).or (w.gPrefixes.get? (py! "skos")) with
      | some ns => .ok (some (ns ++ x))
      | none => .error .valueError := by
  have hs : SplitsAt 58 (py! "skos:" ++ x) (py! "skos") x := ⟨by decide, .inl rfl⟩
  have hb : bracketed (py! "skos:" ++ x) = false := rfl
  have hbody : curieBody (py! "skos:" ++ x) = py! "skos:" ++ x := by unfold curieBody; rw [hb]; rfl
  have hne : py! "skos:" ++ x ≠ [] := by intro h; cases h
  have hsch : ¬ (bracketed (py! "skos:" ++ x) = false ∧ py! "skos" ∈ schemes) := fun h => absurd h.2 (by decide)
  have r1 := ((parseCurie_rules _ hne (w.cls c).prefixes _ _ (by rw [hbody]; exact hs)).2 hsch).2 (fun h => hx h.1)
  have r2 := ((parseCurie_rules _ hne w.gPrefixes _ _ (by rw [hbody]; exact hs)).2 hsch).2 (fun h => hx h.1)
  unfold resolveKey PrefixMap.resolve
  cases hpm : pm.get? (py! "skos") with
  | some ns => rw [r1.1 ns (by rw [h]; exact hpm)]; rfl
  | none =>
  rw [r1.2 (by rw [h]; exact hpm)]
  show (if (py! "skos:" ++ x).contains 58 then _ else _) = _
  rw [if_pos (show (py! "skos:" ++ x).contains 58 = true from rfl)]
  cases hg : w.gPrefixes.get? (py! "skos") with
  | none => rw [r2.2 hg]; rfl
  | some ns => rw [r2.1 ns hg]; rfl

/-- What one `@register_class("skos:x") class name(SKOSResource): pass` does. -/
theorem registeredClass_exact {w : World} {b : Nat} {k : PStr} {pm : PrefixMap} (hpm : Dict.WF pm) (hb : b ≠ 0)
    (h1 : w.cls b = plainCls pm k [b, 0]) (name x : PStr) (hx : x ≠ []) :
    registeredClass w name b (py! "skos:" ++ x) =
      match (pm.get? (py! "skos")).or (w.gPrefixes.get? (py! "skos")) with
      | some ns =>
        ({ w with classes := w.classes ++ [{ plainCls pm name [w.classes.length, b, 0] with rdfClasses := some [.named (ns ++ x)] }]
                  byType := w.byType.set (.named (ns ++ x)) w.classes.length }, .ok w.classes.length)
      | none => ({ w with classes := w.classes ++ [plainCls pm name [w.classes.length, b, 0]] }, .error .valueError) := by
  unfold registeredClass registerClass
  rw [newClass_plain1 hpm hb h1]
  have := resolve_skos (w := { w with classes := w.classes ++ [plainCls pm name [w.classes.length, b, 0]] }) (c := w.classes.length)
    (pm := pm) (by rw [cls_last]; rfl) x hx
  dsimp only at this ⊢
  rw [this]
  cases (pm.get? (py! "skos")).or (w.gPrefixes.get? (py! "skos")) with
  | none => rfl
  | some ns => dsimp only; simp [World.setRdfClasses, modify_last, predTerm]

/-- The claim: the module can be imported, and afterwards nodes of the types skos:Concept and skos:ConceptScheme have classes with a scalar
    skos:prefLabel. -/
def C113_statement : Prop :=
  ∀ w : World, w.Reach → ∃ concept scheme, (importSkos w).2 = .ok (concept, scheme) ∧
    (importSkos w).1.byType.get? (.named ((py! "http://www.w3.org/2004/02/skos/core#") ++ py! "Concept")) = some concept ∧
    (importSkos w).1.byType.get? (.named ((py! "http://www.w3.org/2004/02/skos/core#") ++ py! "ConceptScheme")) = some scheme ∧
    (py! "http://www.w3.org/2004/02/skos/core#") ++ py! "prefLabel" ∈ ((importSkos w).1.cls concept).scalars

/-- What the import does. The prefix skos is looked up in the prefixes of `Resource` and in the global profile only (the class attribute is called
    `namespaces`, not `prefixes`): without it, ValueError, and no type is registered. With it, both classes are registered under that namespace,
    whatever it is; their scalars are those of `Resource` (the attribute is called `scaler`), and so are their prefixes. -/
theorem C113_exact {w : World} (wr : w.Reach) :
    match ((w.cls 0).prefixes.get? (py! "skos")).or (w.gPrefixes.get? (py! "skos")) with
    | none => (importSkos w).2 = .error .valueError ∧ (importSkos w).1.byType = w.byType
    | some ns => ∃ concept scheme, (importSkos w).2 = .ok (concept, scheme) ∧ concept ≠ scheme ∧ (importSkos w).1.Reach ∧
        (∀ t, (importSkos w).1.byType.get? t =
          if t = .named (ns ++ py! "Concept") then some concept
          else if t = .named (ns ++ py! "ConceptScheme") then some scheme else w.byType.get? t) ∧
        (∀ c, c = concept ∨ c = scheme → ((importSkos w).1.cls c).scalars = [rdfsNs ++ py! "label"] ∧
          ((importSkos w).1.cls c).prefixes = (w.cls 0).prefixes) ∧
        (importSkos w).1.rdfClasses concept = [.named (ns ++ py! "Concept")] ∧
        (importSkos w).1.rdfClasses scheme = [.named (ns ++ py! "ConceptScheme")] := by
  obtain ⟨h2, h3⟩ := resource_fixed wr
  have h1 : Dict.WF (w.cls 0).prefixes := prefixes_wf wr 0 (by have := wr.wf.two; omega)
  have h0 : w.classes.length ≠ 0 := by have := wr.wf.two; omega
  have hreach : ∀ {w w' : World} {c d : Nat} {name key : PStr}, w.Reach → d < w.classes.length →
      registeredClass w name d key = (w', .ok c) → w'.Reach := by
    intro w w' c d name key wr hd h
    unfold registeredClass at h
    split at h
    · cases h
    · next w1 k hn =>
      have wr1 : w1.Reach := .define wr (by simp) (by simpa using hd) hn
      have hk : k < w1.classes.length := by
        obtain ⟨rfl, s, m, hs, hm, rfl⟩ := newClass_ok hn
        simp
      have := World.Reach.register (ty := key) wr1 hk
      split at h
      · cases h
      · next w2 hr => cases h; rw [hr] at this; exact this
  have wr1 := World.Reach.define wr (bases := [0]) (by simp) (by have := wr.wf.two; simp; omega) (newClass_plain0 h1 h2 h3 (py! "SKOSResource"))
  have e1 := registeredClass_exact (pm := (w.cls 0).prefixes) (w := { w with classes := w.classes ++ [plainCls (w.cls 0).prefixes (py! "SKOSResource") [w.classes.length, 0]] })
    (b := w.classes.length) (k := py! "SKOSResource") h1 h0 cls_last (py! "Concept") (py! "Concept") (by decide)
  have hI : importSkos w = match registeredClass { w with classes := w.classes ++ [plainCls (w.cls 0).prefixes (py! "SKOSResource") [w.classes.length, 0]] }
        (py! "Concept") w.classes.length (py! "skos:Concept") with
      | (w, .error e) => (w, .error e)
      | (v, .ok concept) =>
        match registeredClass v (py! "ConceptScheme") w.classes.length (py! "skos:ConceptScheme") with
        | (w, .error e) => (w, .error e)
        | (w, .ok scheme) => (w, .ok (concept, scheme)) := by
    unfold importSkos
    rw [newClass_plain0 h1 h2 h3]
    rfl
  cases hg : ((w.cls 0).prefixes.get? (py! "skos")).or (w.gPrefixes.get? (py! "skos")) with
  | none =>
    dsimp only at e1 ⊢
    rw [hg] at e1
    rw [hI]
    have e1' := e1
    change registeredClass _ _ _ (py! "skos:Concept") = _ at e1'
    rw [e1']
    exact ⟨rfl, rfl⟩
  | some ns =>
    dsimp only at e1 ⊢
    rw [hg] at e1
    have e1' := e1
    change registeredClass _ _ _ (py! "skos:Concept") = _ at e1'
    have wr2 := hreach wr1 (by simp) e1'
    rw [e1'] at hI
    dsimp only at hI
    have hlen : (w.classes ++ [plainCls (w.cls 0).prefixes (py! "SKOSResource") [w.classes.length, 0]]).length = w.classes.length + 1 := by simp
    rw [hlen] at hI wr2
    have e2 := registeredClass_exact (pm := (w.cls 0).prefixes) (w := { w with
        classes := (w.classes ++ [plainCls (w.cls 0).prefixes (py! "SKOSResource") [w.classes.length, 0]]) ++
          [{ plainCls (w.cls 0).prefixes (py! "Concept") [w.classes.length + 1, w.classes.length, 0] with rdfClasses := some [.named (ns ++ py! "Concept")] }]
        byType := w.byType.set (.named (ns ++ py! "Concept")) (w.classes.length + 1) })
      (b := w.classes.length) (k := py! "SKOSResource") h1 h0 (by unfold World.cls; simp) (py! "ConceptScheme") (py! "ConceptScheme") (by decide)
    dsimp only at e2
    rw [hg] at e2
    change registeredClass _ _ _ (py! "skos:ConceptScheme") = _ at e2
    have wr3 := hreach wr2 (by simp) e2
    rw [e2] at hI
    dsimp only at hI
    rw [hI]
    have hl2 : ∀ k : Cls, ((w.classes ++ [plainCls (w.cls 0).prefixes (py! "SKOSResource") [w.classes.length, 0]]) ++ [k]).length = w.classes.length + 2 := by simp
    simp only [hl2] at wr3 ⊢
    refine ⟨_, _, rfl, by omega, wr3, fun t => ?_, ?_, ?_, ?_⟩
    · rw [Dict.get?_set, Dict.get?_set]
      by_cases ha : t = .named (ns ++ py! "Concept")
      · subst ha
        rw [if_pos rfl, if_neg, if_pos rfl]
        simp
      · rw [if_neg ha]
        by_cases hb : t = .named (ns ++ py! "ConceptScheme")
        · subst hb; simp
        · rw [if_neg hb, if_neg (Ne.symm hb), if_neg (Ne.symm ha)]
    · rintro c (rfl | rfl)
      · unfold World.cls; simp [plainCls]; decide
      · unfold World.cls; simp [plainCls]; decide
    · unfold World.rdfClasses World.lookup World.cls
      simp [plainCls]
    · unfold World.rdfClasses World.lookup World.cls
      simp [plainCls]

theorem C113_refuted : ¬ C113_statement := by
  intro h
  obtain ⟨_, _, h, _⟩ := h World.new .new
  have := C113_exact (w := World.new) .new
  change (importSkos World.new).2 = _ ∧ _ at this
  rw [this.1] at h; cases h

/-- With the prefix skos given to `Resource` or in the global profile, nodes of type skos:Concept that have no other registered type are classified as Concept. Missing for the
    full claim: the prefix itself, and the scalar. -/
theorem C113_classify_partial {o : Orders} (ho : o.OK) {w : World} (wr : w.Reach) 
    (hp : ((w.cls 0).prefixes.get? (py! "skos")).or (w.gPrefixes.get? (py! "skos")) = some (py! "http://www.w3.org/2004/02/skos/core#"))
    {g : Graph} (hg : g.Reach) {obj ty : Term} (hn : IsResource obj) (h2 : obj.truthy = true)
    (ht : rdfType (importSkos w).1 0 = .ok ty) (h0 : mkTriple obj ty (.named ((py! "http://www.w3.org/2004/02/skos/core#") ++ py! "Concept")) ∈ g.triples)
    (h : ∀ t, mkTriple obj ty t ∈ g.triples → t ≠ .named ((py! "http://www.w3.org/2004/02/skos/core#") ++ py! "Concept") →
      t ≠ .named ((py! "http://www.w3.org/2004/02/skos/core#") ++ py! "ConceptScheme") ∧ w.byType.get? t = none) :
    ∃ concept scheme, (importSkos w).2 = .ok (concept, scheme) ∧
      classify o (importSkos w).1 g 0 obj = ((importSkos w).1, .ok (.res concept obj)) := by
  have hx := C113_exact wr
  rw [hp] at hx
  obtain ⟨c, s, h1, _, wr', hty, _⟩ := hx
  refine ⟨c, s, h1, C53_one ho wr' hg (by have := wr'.wf.two; omega) hn h2 ht h0 (by rw [hty, if_pos rfl]) fun t ht' hne => ?_⟩
  rw [hty, if_neg hne, if_neg (h t ht' hne).1]
  exact (h t ht' hne).2

/-- With the prefix: registered, but prefLabel is not scalar; reading it gives a generator. -/
example :
    let w := { World.new with gPrefixes := (py! "skos", (py! "http://www.w3.org/2004/02/skos/core#")) :: World.new.gPrefixes }
    let g := (Graph.new .none).addAll [mkTriple (.named (py! "http://c")) (.named (Heap.rdfNs ++ py! "type")) (.named ((py! "http://www.w3.org/2004/02/skos/core#") ++ py! "Concept")),
      mkTriple (.named (py! "http://c")) (.named ((py! "http://www.w3.org/2004/02/skos/core#") ++ py! "prefLabel")) (.lit (py! "c") none none)]
    (importSkos w).2 = .ok (3, 4) ∧
    (classify {} (importSkos w).1 g 0 (.named (py! "http://c"))).2 = .ok (.res 3 (.named (py! "http://c"))) ∧
    (getItem {} (importSkos w).1 g ⟨3, .named (py! "http://c")⟩ (.name (py! "skos:prefLabel"))).2 = .ok (.iter [.lit (py! "c") none none]) := by
  decide

example : (importSkos World.new).2 = .error .valueError := by decide

/-- With the prefix given to `Resource` first. -/
example : (importSkos (World.new.setPrefix 0 (py! "skos") (py! "http://www.w3.org/2004/02/skos/core#"))).2 = .ok (3, 4) := by decide

end Verif
