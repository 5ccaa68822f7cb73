import Verif.Props.ResWhole
/-
Properties of Resource classes: classification (C53) and inheritance of prefixes and scalars (C57).
-/
namespace Verif
open Spec Graph

/-! ### C57: inheritance -/

/-- Class prefixes are dictionaries: one value for each prefix. -/
theorem prefixes_wf {w : World} (h : w.Reach) : ∀ c, c < w.classes.length → Dict.WF (w.cls c).prefixes := by
  have inh : ∀ (w : World) (bases : List Nat), Dict.WF (inheritedPrefixes w bases) := by
    intro w bases
    unfold inheritedPrefixes
    have : ∀ m : PrefixMap, Dict.WF m → Dict.WF (bases.foldl (fun m b => Dict.update m (w.cls b).prefixes) m) := by
      induction bases with
      | nil => exact fun m h => h
      | cons b bs ih => exact fun m h => ih _ (h.update _)
    exact this [] List.nodup_nil
  induction h with
  | new =>
    intro c hc
    have : c = 0 ∨ c = 1 := by have : World.new.classes.length = 2 := rfl; omega
    rcases this with rfl | rfl
    · show (Dict.keys (World.new.cls 0).prefixes).Nodup; decide
    · show (Dict.keys (World.new.cls 1).prefixes).Nodup; decide
  | @define w w' name bases own c h hne hb hnew ih =>
    obtain ⟨rfl, s, m, hs, hm, rfl⟩ := newClass_ok hnew
    intro k hk
    simp only [List.length_append, List.length_cons, List.length_nil] at hk
    by_cases hk' : k < w.classes.length
    · rw [cls_append hk']; exact ih k hk'
    · have : k = w.classes.length := by omega
      subst this; rw [cls_last]; exact (inh w bases).update _
  | @register w ty c h hc ih =>
    unfold registerClass
    split
    · exact ih
    · next p hp =>
      intro k hk
      rw [length_setRdf] at hk
      rw [cls_setRdf]
      split
      · exact ih k hk
      · exact ih k hk
  | profile p t h ih => exact ih
  | @auto w types pcs h hne hb ih =>
    rcases autoClass_cases w types pcs with ⟨k, _, he⟩ | ⟨_, e, _, he⟩ | ⟨_, m, hm, he⟩
    · rw [he]; exact ih
    · rw [he]; exact ih
    · rw [he]
      intro k hk
      simp only [List.length_append, List.length_cons, List.length_nil] at hk
      by_cases hk' : k < w.classes.length
      · rw [cls_append hk']; exact ih k hk'
      · have : k = w.classes.length := by omega
        subst this; rw [cls_last]; exact inh w pcs
  | setPrefix c name iri _ ih =>
    intro k hk
    rw [length_setPrefix] at hk
    rw [cls_setPrefix]
    split
    · exact (ih k hk).set _ _
    · exact ih k hk
  | setLang c lang _ ih =>
    intro k hk
    rw [length_setLang] at hk
    rw [cls_setLang]
    split
    · exact ih k hk
    · exact ih k hk

theorem get_inherited {w : World} (h : w.Reach) (bases : List Nat) (hb : ∀ b ∈ bases, b < w.classes.length) (p : PStr) :
    (inheritedPrefixes w bases).get? p = bases.reverse.findSome? fun b => (w.cls b).prefixes.get? p := by
  unfold inheritedPrefixes
  have : ∀ m : PrefixMap, Dict.get? (bases.foldl (fun m b => Dict.update m (w.cls b).prefixes) m) p =
      (bases.reverse.findSome? fun b => (w.cls b).prefixes.get? p).or (Dict.get? m p) := by
    induction bases with
    | nil => intro m; simp
    | cons b bs ih =>
      intro m
      rw [List.foldl_cons, ih (fun b h => hb b (by simp [h])), Dict.get?_update _ _ _ (prefixes_wf h b (hb b (by simp))),
        List.reverse_cons, List.findSome?_append]
      cases (bs.reverse.findSome? fun b => (w.cls b).prefixes.get? p) <;> simp
  rw [this]
  simp

theorem mem_foldl_addIri (xs s : List PStr) (x : PStr) : x ∈ xs.foldl addIri s ↔ x ∈ s ∨ x ∈ xs := by
  induction xs generalizing s with
  | nil => simp
  | cons a xs ih =>
    rw [List.foldl_cons, ih]
    have : x ∈ addIri s a ↔ x ∈ s ∨ x = a := by
      unfold addIri
      split
      · next h => exact ⟨Or.inl, fun h' => h'.elim id fun e => e ▸ h⟩
      · simp
    rw [this, List.mem_cons]
    tauto

theorem mem_inheritedScalars (w : World) (bases : List Nat) (x : PStr) :
    x ∈ inheritedScalars w bases ↔ ∃ b ∈ bases, x ∈ (w.cls b).scalars := by
  unfold inheritedScalars
  have : ∀ s : List PStr, x ∈ bases.foldl (fun s b => (w.cls b).scalars.foldl addIri s) s ↔ x ∈ s ∨ ∃ b ∈ bases, x ∈ (w.cls b).scalars := by
    induction bases with
    | nil => simp
    | cons b bs ih =>
      intro s
      rw [List.foldl_cons, ih, mem_foldl_addIri]
      simp only [List.mem_cons, exists_eq_or_imp]
      tauto
  rw [this]; simp

theorem mem_addScalars {prefixes : PrefixMap} (xs : List PStr) {s r : List PStr} (h : addScalars prefixes s xs = .ok r) (x : PStr) :
    x ∈ r ↔ x ∈ s ∨ ∃ y ∈ xs, parseCurie y prefixes = .ok x := by
  induction xs generalizing s with
  | nil => cases h; simp
  | cons a xs ih =>
    unfold addScalars at h
    cases hp : parseCurie a prefixes with
    | error e => rw [hp] at h; cases h
    | ok iri =>
      rw [hp] at h
      rw [ih h]
      have : x ∈ addIri s iri ↔ x ∈ s ∨ x = iri := by
        have := mem_foldl_addIri [iri] s x
        simpa using this
      rw [this]
      simp only [List.mem_cons, exists_eq_or_imp, hp, Except.ok.injEq]
      constructor
      · rintro ((h | h) | h); exacts [Or.inl h, Or.inr (Or.inl h.symm), Or.inr (Or.inr h)]
      · rintro (h | h | h); exacts [Or.inl (Or.inl h), Or.inl (Or.inr h.symm), Or.inr h]

/-- C57. In a class that was defined, a prefix stands for what the class body says, or else for what the last base that has it says; the
    scalars are those of all bases and those of the class body, resolved with the prefixes of the new class. -/
theorem C57_inherited {w w' : World} (wr : w.Reach) {name : PStr} {bases : List Nat} {own : Own} {c : Nat}
    (hb : ∀ b ∈ bases, b < w.classes.length) (hown : Dict.WF own.prefixes) (h : newClass w name bases own = .ok (w', c)) :
    (∀ p, (w'.cls c).prefixes.get? p =
      (own.prefixes.get? p).or (bases.reverse.findSome? fun b => (w.cls b).prefixes.get? p)) ∧
    (∀ x, x ∈ (w'.cls c).scalars ↔ (∃ b ∈ bases, x ∈ (w.cls b).scalars) ∨
      ∃ y ∈ own.scalars, parseCurie y (w'.cls c).prefixes = .ok x) := by
  obtain ⟨rfl, s, m, hs, hm, rfl⟩ := newClass_ok h
  rw [cls_last]
  refine ⟨fun p => ?_, fun x => ?_⟩
  · dsimp only
    rw [Dict.get?_update _ _ _ hown, get_inherited wr bases hb]
  · dsimp only
    rw [mem_addScalars _ hs, mem_inheritedScalars]

/-- In particular every prefix of a base is a prefix of the new class. -/
theorem C57_sees_all {w w' : World} (wr : w.Reach) {name : PStr} {bases : List Nat} {own : Own} {c : Nat}
    (hb : ∀ b ∈ bases, b < w.classes.length) (hown : Dict.WF own.prefixes) (h : newClass w name bases own = .ok (w', c)) :
    ∀ b ∈ bases, (∀ p, (w.cls b).prefixes.has p = true → (w'.cls c).prefixes.has p = true) ∧
      ∀ x ∈ (w.cls b).scalars, x ∈ (w'.cls c).scalars := by
  intro b hbm
  obtain ⟨h1, h2⟩ := C57_inherited wr hb hown h
  refine ⟨fun p hp => ?_, fun x hx => (h2 x).2 (Or.inl ⟨b, hbm, hx⟩)⟩
  unfold Dict.has at hp ⊢
  rw [h1]
  rw [Option.isSome_or, Bool.or_eq_true]
  right
  rw [List.findSome?_isSome_iff]
  exact ⟨b, by simpa using hbm, hp⟩

/-- The other classes keep their prefixes and scalars. -/
theorem C57_others_kept {w w' : World} {name : PStr} {bases : List Nat} {own : Own} {c : Nat}
    (h : newClass w name bases own = .ok (w', c)) : c = w.classes.length ∧ ∀ b, b < w.classes.length → w'.cls b = w.cls b := by
  obtain ⟨rfl, s, m, hs, hm, rfl⟩ := newClass_ok h
  exact ⟨rfl, fun b hb => cls_append hb⟩

/-- `List` is what its class statement (rdf.py:551-557) makes of `Resource`. -/
example : newClass { World.new with classes := [resourceCls] } (py! "List") [0]
    { prefixes := [(py! "rdf", Heap.rdfNs)], scalars := [py! "rdf:first", py! "rdf:rest"] } =
    .ok ({ World.new with classes := [resourceCls, listCls] }, 1) := by decide

/-! ### C53: classify -/

/-- The claim for nodes: a class is always found, and it inherits from the class registered for each of the node's types. -/
def C53_statement : Prop :=
  ∀ (o : Orders), o.OK → ∀ w : World, w.Reach → ∀ g : Graph, g.Reach → ∀ c, c < w.classes.length → ∀ obj : Term, IsResource obj →
    ∀ ty, rdfType w c = .ok ty →
    ∃ k, (classify o w g c obj).2 = .ok (.res k obj) ∧
      ∀ t d, mkTriple obj ty t ∈ g.triples → w.byType.get? t = some d → (classify o w g c obj).1.isSub k d = true

/-- Literals (and None) are returned unchanged. -/
theorem C53_literal (o : Orders) (w : World) (g : Graph) (c : Nat) (v : PStr) (l d : Option PStr) :
    classify o w g c (.lit v l d) = (w, .ok (.lit v l d)) ∧ classify o w g c .none = (w, .ok .none) := ⟨rfl, rfl⟩

theorem mem_classesOf {o : Orders} (ho : o.OK) {w : World} {g : Graph} (hg : g.Reach) {ty obj : Term} (h1 : ty.truthy = true)
    (h2 : obj.truthy = true) (d : Nat) :
    d ∈ classesOf o w g ty obj ↔ ∃ t, mkTriple obj ty t ∈ g.triples ∧ w.byType.get? t = some d := by
  unfold classesOf
  rw [List.mem_filterMap]
  simp only [(ho.terms _).mem_iff, mem_typesOf ho hg h1 h2]

/-- A node none of whose types is registered becomes a plain Resource. -/
theorem C53_unregistered {o : Orders} (ho : o.OK) {w : World} (wr : w.Reach) {g : Graph} (hg : g.Reach) {c : Nat}
    (hc : c < w.classes.length) {obj : Term} (hn : IsResource obj) (h2 : obj.truthy = true) {ty : Term} (ht : rdfType w c = .ok ty)
    (h : ∀ t, mkTriple obj ty t ∈ g.triples → w.byType.get? t = none) :
    classify o w g c obj = (w, .ok (.res 0 obj)) := by
  obtain ⟨ns, _, ht'⟩ := rdfType_ok wr.wf hc
  have h1 : ty.truthy = true := by rw [ht] at ht'; cases ht'; cases ns <;> rfl
  have hnode : obj.isNode = true := by rcases hn with ⟨i, rfl⟩ | ⟨i, rfl⟩ <;> rfl
  rw [classify_node hnode ht]
  unfold classifyNode
  have : classesOf o w g ty obj = [] := List.eq_nil_iff_forall_not_mem.2 fun d hd => by
    obtain ⟨t, ha, hb⟩ := (mem_classesOf ho hg h1 h2 d).1 hd
    rw [h t ha] at hb; cases hb
  rw [this]

/-- A node with exactly one registered type gets the class registered for it. -/
theorem C53_one {o : Orders} (ho : o.OK) {w : World} (wr : w.Reach) {g : Graph} (hg : g.Reach) {c : Nat}
    (hc : c < w.classes.length) {obj : Term} (hn : IsResource obj) (h2 : obj.truthy = true) {ty : Term} (ht : rdfType w c = .ok ty)
    {t0 : Term} {k : Nat} (h0 : mkTriple obj ty t0 ∈ g.triples) (hk : w.byType.get? t0 = some k)
    (h : ∀ t, mkTriple obj ty t ∈ g.triples → t ≠ t0 → w.byType.get? t = none) :
    classify o w g c obj = (w, .ok (.res k obj)) := by
  obtain ⟨ns, _, ht'⟩ := rdfType_ok wr.wf hc
  have h1 : ty.truthy = true := by rw [ht] at ht'; cases ht'; cases ns <;> rfl
  have hnode : obj.isNode = true := by rcases hn with ⟨i, rfl⟩ | ⟨i, rfl⟩ <;> rfl
  rw [classify_node hnode ht]
  unfold classifyNode
  have hcls : classesOf o w g ty obj = [k] := by
    unfold classesOf
    have hmem : ∀ t, t ∈ o.terms (typesOf o g ty obj) ↔ mkTriple obj ty t ∈ g.triples := fun t => by
      rw [(ho.terms _).mem_iff, mem_typesOf ho hg h1 h2]
    have nd : (o.terms (typesOf o g ty obj)).Nodup := (ho.terms _).nodup_iff.2 (nodup_pySet _)
    generalize o.terms (typesOf o g ty obj) = L at hmem nd
    have ht0 := (hmem t0).2 h0
    obtain ⟨a, b, rfl⟩ := List.append_of_mem ht0
    rw [List.nodup_middle, List.nodup_cons, List.mem_append, not_or] at nd
    have ha : a.filterMap (fun t => w.byType.get? t) = [] := List.filterMap_eq_nil_iff.2 fun t hta =>
      h t ((hmem t).1 (by simp [hta])) (by rintro rfl; exact nd.1.1 hta)
    have hb : b.filterMap (fun t => w.byType.get? t) = [] := List.filterMap_eq_nil_iff.2 fun t htb =>
      h t ((hmem t).1 (by simp [htb])) (by rintro rfl; exact nd.1.2 htb)
    rw [List.filterMap_append, ha, List.filterMap_cons_some hk, hb]; rfl
  rw [hcls]

/-- Each recorded class inherits from the classes that are registered now for the types it was made for. -/
def World.Fresh (w : World) : Prop :=
  ∀ e ∈ w.bySet, ∀ t ∈ e.1, ∀ d, w.byType.get? t = some d → w.isSub e.2 d = true

/-- The ancestors of a class that was made for several types. -/
theorem autoClass_inherits {w : World} {types : List Term} {pcs : List Nat} {k : Nat}
    (hn : w.lookupSet types = none) (h : (autoClass w types pcs).2 = .ok k) : ∀ d ∈ pcs, (autoClass w types pcs).1.isSub k d = true := by
  intro d hd
  rcases autoClass_cases w types pcs with ⟨k', hk, he⟩ | ⟨_, e, _, he⟩ | ⟨_, m, hm, he⟩
  · rw [hk] at hn; cases hn
  · rw [he] at h; cases h
  · rw [he] at h ⊢
    cases h
    unfold World.isSub
    rw [cls_last]
    exact List.contains_iff_mem.2 ((mroOf_mem hm d).2 (Or.inr (Or.inl hd)))

/-- If every recorded class is fresh, the class that `classify` chooses inherits from the class registered for each of the node's
    types. -/
theorem C53_inherits_partial {o : Orders} (ho : o.OK) {w : World} (wr : w.Reach) (hfr : w.Fresh) {g : Graph} (hg : g.Reach) {c : Nat}
    (hc : c < w.classes.length) {obj : Term} (hn : IsResource obj) (h2 : obj.truthy = true) {ty : Term} (ht : rdfType w c = .ok ty) :
    (classify o w g c obj).2 = .error .typeError ∨
    ∃ k, (classify o w g c obj).2 = .ok (.res k obj) ∧
      ∀ t d, mkTriple obj ty t ∈ g.triples → w.byType.get? t = some d → (classify o w g c obj).1.isSub k d = true := by
  obtain ⟨ns, _, ht'⟩ := rdfType_ok wr.wf hc
  have h1 : ty.truthy = true := by rw [ht] at ht'; cases ht'; cases ns <;> rfl
  have hnode : obj.isNode = true := by rcases hn with ⟨i, rfl⟩ | ⟨i, rfl⟩ <;> rfl
  have hsp := classify_spec (o := o) wr g hc obj
  rcases hsp.2.2 with h | ⟨v, hv, _, hv'⟩
  · exact Or.inl h
  · right
    obtain ⟨k, rfl, hk⟩ := hv' hnode
    refine ⟨k, hv, fun t d h3 h4 => ?_⟩
    have hd := (mem_classesOf ho hg h1 h2 d).2 ⟨t, h3, h4⟩
    have htm : t ∈ typesOf o g ty obj := (mem_typesOf ho hg h1 h2 t).2 h3
    rw [classify_node hnode ht] at hv hk ⊢
    revert hv hk
    unfold classifyNode
    split
    · next hq => rw [hq] at hd; cases hd
    · next k' hq =>
      intro hk hv
      rw [hq, List.mem_singleton] at hd
      subst hd
      cases hv
      have hself := (wr.wf.cls _ hk).self
      unfold World.isSub
      rw [List.contains_iff_mem]
      exact List.mem_of_mem_head? hself
    · next hq1 hq2 =>
      cases hl : w.lookupSet (typesOf o g ty obj) with
      | some k' =>
        rw [autoClass_of_cached hl]
        intro hk hv
        cases hv
        unfold World.lookupSet at hl
        cases hf : w.bySet.find? fun e => sameSet e.1 (typesOf o g ty obj) with
        | none => rw [hf] at hl; cases hl
        | some e =>
          rw [hf] at hl; cases hl
          have hf2 := List.find?_some hf
          have hss := (sameSet_iff e.1 (typesOf o g ty obj)).1 hf2
          exact hfr e (List.mem_of_find?_eq_some hf) t ((hss t).2 htm) d h4
      | none =>
        cases hq : autoClass w (typesOf o g ty obj) (classesOf o w g ty obj) with
        | mk w1 rv =>
          cases rv with
          | error e => intro _ hv; cases hv
          | ok k' =>
            intro hk hv
            cases hv
            have := autoClass_inherits hl (k := k) (pcs := classesOf o w g ty obj) (by rw [hq]) d hd
            rw [hq] at this; exact this

/-! Freshness: it holds at the start and is kept by everything except registering a class for a type that is part of a recorded set. -/

theorem C53_fresh_new : World.new.Fresh := by intro e he; cases he

theorem fresh_ext {w w' : World} (wf : w.WF) (h : w.Fresh) (hx : w.Ext w') (hs : w'.bySet = w.bySet) : w'.Fresh := by
  intro e he t ht d hd
  rw [hs] at he
  rw [hx.byType] at hd
  rw [hx.isSub (wf.sets e he)]
  exact h e he t ht d hd

theorem C53_fresh_define {w w' : World} (wr : w.Reach) (h : w.Fresh) {name bases own c} (hn : newClass w name bases own = .ok (w', c)) :
    w'.Fresh := by
  obtain ⟨rfl, s, m, hs, hm, rfl⟩ := newClass_ok hn
  exact fresh_ext wr.wf h ⟨⟨_, rfl⟩, ⟨[], by simp⟩, rfl, rfl, rfl⟩ rfl

theorem isSub_setRdf (w : World) (c k b : Nat) (ts : List Term) : (w.setRdfClasses c ts).isSub k b = w.isSub k b := by
  unfold World.isSub; rw [cls_setRdf]; split <;> rfl

theorem C53_fresh_setPrefix {w : World} (h : w.Fresh) (c : Nat) (p ns : PStr) : (w.setPrefix c p ns).Fresh := by
  intro e he t ht d hd
  have := h e he t ht d hd
  unfold World.isSub at this ⊢
  rw [cls_setPrefix]
  split <;> exact this

theorem C53_fresh_setLang {w : World} (h : w.Fresh) (c : Nat) (l : Option PStr) : (w.setLang c l).Fresh := by
  intro e he t ht d hd
  have := h e he t ht d hd
  unfold World.isSub at this ⊢
  rw [cls_setLang]
  split <;> exact this

theorem C53_fresh_register {w : World} (h : w.Fresh) {name : PStr} {c : Nat}
    (hnew : ∀ p, resolveKey w c name = .ok p → ∀ e ∈ w.bySet, predTerm p ∉ e.1) : (registerClass w name c).1.Fresh := by
  unfold registerClass
  cases hr : resolveKey w c name with
  | error e => exact h
  | ok p =>
    intro e he t ht d hd
    dsimp only at hd he ⊢
    rw [isSub_setRdf]
    have he' : e ∈ w.bySet := he
    have hne : predTerm p ≠ t := by rintro rfl; exact hnew p hr e he' ht
    have hd' : Dict.get? (Dict.set w.byType (predTerm p) c) t = some d := hd
    rw [Dict.get?_set, if_neg hne] at hd'
    exact h e he' t ht d hd'

theorem C53_fresh_classify {o : Orders} (ho : o.OK) {w : World} (wr : w.Reach) (h : w.Fresh) {g : Graph} (hg : g.Reach) {c : Nat}
    (hc : c < w.classes.length) {obj : Term} (hn : IsResource obj) (h2 : obj.truthy = true) : (classify o w g c obj).1.Fresh := by
  obtain ⟨ns, _, ht⟩ := rdfType_ok wr.wf hc
  have h1 : (Term.named (ns ++ py! "type")).truthy = true := by cases ns <;> rfl
  have hnode : obj.isNode = true := by rcases hn with ⟨i, rfl⟩ | ⟨i, rfl⟩ <;> rfl
  rw [classify_node hnode ht]
  unfold classifyNode
  split
  · exact h
  · exact h
  · have hkey : (autoClass w (typesOf o g (.named (ns ++ py! "type")) obj) (classesOf o w g (.named (ns ++ py! "type")) obj)).1.Fresh := by
      rcases autoClass_cases w (typesOf o g (.named (ns ++ py! "type")) obj) (classesOf o w g (.named (ns ++ py! "type")) obj) with
        ⟨k, _, he⟩ | ⟨_, e, _, he⟩ | ⟨hl, m, hm, he⟩
      · rw [he]; exact h
      · rw [he]; exact h
      · have hi := autoClass_inherits hl (pcs := classesOf o w g (.named (ns ++ py! "type")) obj) (k := w.classes.length) (by rw [he])
        have hx := autoClass_ext w (typesOf o g (.named (ns ++ py! "type")) obj) (classesOf o w g (.named (ns ++ py! "type")) obj)
        rw [he] at hi hx ⊢
        intro e hem t ht' d hd
        rcases List.mem_append.1 hem with hem | hem
        · rw [hx.isSub (wr.wf.sets e hem)]
          exact h e hem t ht' d hd
        · rw [List.mem_singleton] at hem
          subst hem
          refine hi d ((mem_classesOf ho hg h1 h2 d).2 ⟨t, ?_, hd⟩)
          exact (mem_typesOf ho hg h1 h2 t).1 ht'
    cases hq : autoClass w (typesOf o g (.named (ns ++ py! "type")) obj) (classesOf o w g (.named (ns ++ py! "type")) obj) with
    | mk w1 rv => rw [hq] at hkey; cases rv <;> exact hkey

/-- The same types always give the same class: classifying the node again later, also through another class with the same `rdf:type`, in
    a graph that gives it the same types, returns a Resource of the same class. -/
theorem C53_same_class {o o' : Orders} (ho : o.OK) (ho' : o'.OK) {w w' : World} (wr : w.Reach) {g g' : Graph} (hg : g.Reach)
    (hg' : g'.Reach) {c c' : Nat} (hc : c < w.classes.length) {obj ty : Term} {v : Val} (h2 : obj.truthy = true)
    (ht : rdfType w c = .ok ty) (ht' : rdfType w' c' = .ok ty)
    (hv : (classify o w g c obj).2 = .ok v) (hw : (classify o w g c obj).1.Ext w')
    (h : ∀ t, mkTriple obj ty t ∈ g.triples ↔ mkTriple obj ty t ∈ g'.triples) :
    classify o' w' g' c' obj = (w', .ok v) := by
  obtain ⟨ns, _, ht''⟩ := rdfType_ok wr.wf hc
  have h1 : ty.truthy = true := by rw [ht] at ht''; cases ht''; cases ns <;> rfl
  exact classify_stable ho ho' hg hg' ht ht' h1 h2 hv hw h

/-! When a class can be found. -/

/-- The C3 merge of distinct direct subclasses of class 0. -/
theorem c3_direct (ks : List Nat) (h0 : 0 ∉ ks) (nd : ks.Nodup) : ∀ (m n : Nat), ks.length + 1 < n → (0 < m ∨ ks ≠ []) →
    c3Merge n (List.replicate m [0] ++ ks.map (fun k => [k, 0]) ++ [ks]) = some (ks ++ [0]) := by
  induction ks with
  | nil =>
    intro m n hn hm
    have hm : 0 < m := hm.resolve_right (by simp)
    obtain ⟨n, rfl⟩ : ∃ n', n = n' + 2 := ⟨n - 2, by simp at hn; omega⟩
    unfold c3Merge
    have hf : (List.replicate m [0] ++ ([] : List Nat).map (fun k => [k, 0]) ++ [[]]).filter (· ≠ []) = List.replicate m [0] := by
      rw [List.filter_append, List.map_nil, List.append_nil, List.filter_eq_self.2]
      · simp
      · intro l hl; rw [List.mem_replicate] at hl; simp [hl.2]
    simp only [hf]
    obtain ⟨m, rfl⟩ : ∃ m', m = m' + 1 := ⟨m - 1, by omega⟩
    rw [List.replicate_succ]
    simp only
    have hp : c3Pick ([0] :: List.replicate m [0]) = some 0 := by
      unfold c3Pick
      simp
    rw [hp]
    simp only
    have hmap : ([0] :: List.replicate m [0]).map (fun l : List Nat => if l.head? = some 0 then l.tail else l) =
        List.replicate (m + 1) ([] : List Nat) := by simp [List.replicate_succ]
    rw [hmap]
    have : c3Merge (n + 1) (List.replicate (m + 1) ([] : List Nat)) = some [] := by
      unfold c3Merge
      have : (List.replicate (m + 1) ([] : List Nat)).filter (· ≠ []) = [] := by
        rw [List.filter_eq_nil_iff]; intro l hl; rw [List.mem_replicate] at hl; simp [hl.2]
      simp only [this]
    rw [this]; rfl
  | cons k ks ih =>
    intro m n hn _
    obtain ⟨n, rfl⟩ : ∃ n', n = n' + 1 := ⟨n - 1, by simp at hn; omega⟩
    simp only [List.mem_cons, not_or] at h0
    obtain ⟨hk, nd'⟩ := List.nodup_cons.1 nd
    unfold c3Merge
    have hf : (List.replicate m [0] ++ (k :: ks).map (fun k => [k, 0]) ++ [k :: ks]).filter (· ≠ []) =
        List.replicate m [0] ++ (k :: ks).map (fun k => [k, 0]) ++ [k :: ks] := by
      rw [List.filter_eq_self]
      intro l hl
      simp only [List.mem_append, List.mem_replicate, List.mem_map, List.mem_singleton] at hl
      rcases hl with (⟨_, rfl⟩ | ⟨_, _, rfl⟩) | rfl <;> simp
    simp only [hf]
    have hne : List.replicate m [0] ++ (k :: ks).map (fun k => [k, 0]) ++ [k :: ks] ≠ [] := by simp
    have hp : c3Pick (List.replicate m [0] ++ (k :: ks).map (fun k => [k, 0]) ++ [k :: ks]) = some k := by
      unfold c3Pick
      rw [List.append_assoc, List.filterMap_append, List.find?_append]
      have h1 : ((List.replicate m [0]).filterMap List.head?).find?
          (fun h => (List.replicate m [0] ++ ((k :: ks).map (fun k => [k, 0]) ++ [k :: ks])).all fun l => !l.tail.contains h) = none := by
        rw [List.find?_eq_none]
        intro x hx
        simp only [List.mem_filterMap, List.mem_replicate] at hx
        obtain ⟨l, ⟨_, rfl⟩, hx⟩ := hx
        cases hx
        simp
      rw [h1]
      rw [List.map_cons, List.cons_append, List.filterMap_cons_some (f := List.head?) (a := [k, 0]) (b := k) rfl, List.find?_cons_of_pos]
      · rfl
      · simp only [List.all_eq_true, List.mem_append, List.mem_replicate, List.mem_cons, List.mem_map]
        have h3 : ¬ k = 0 := fun h => h0.1 h.symm
        rintro l (⟨_, rfl⟩ | rfl | ⟨_, _, rfl⟩ | rfl | h)
        · simp
        · simp [h3]
        · simp [h3]
        · simp [hk]
        · cases h
    cases hls : List.replicate m [0] ++ (k :: ks).map (fun k => [k, 0]) ++ [k :: ks] with
    | nil => exact absurd hls hne
    | cons a as =>
      simp only
      rw [← hls, hp]
      simp only
      have hmap : (List.replicate m [0] ++ (k :: ks).map (fun k => [k, 0]) ++ [k :: ks]).map
          (fun l : List Nat => if l.head? = some k then l.tail else l) =
          List.replicate (m + 1) [0] ++ ks.map (fun k => [k, 0]) ++ [ks] := by
        rw [List.map_append, List.map_append, List.map_replicate, List.map_cons, List.map_cons]
        have h3 : ([0] : List Nat).head? ≠ some k := by simpa using h0.1
        rw [if_neg h3]
        have h4 : (ks.map fun k => [k, 0]).map (fun l : List Nat => if l.head? = some k then l.tail else l) = ks.map fun k => [k, 0] := by
          rw [List.map_map]
          refine List.map_congr_left fun x hx => ?_
          have : x ≠ k := by rintro rfl; exact hk hx
          simp [this]
        rw [h4, List.replicate_succ']
        simp
      rw [hmap, ih h0.2 nd' (m + 1) n (by simp at hn; omega) (Or.inl (by omega))]
      rfl

theorem nodup_filterMap {α β} {f : α → Option β} {l : List α} (nd : l.Nodup)
    (h : ∀ a ∈ l, ∀ b ∈ l, ∀ x, f a = some x → f b = some x → a = b) : (l.filterMap f).Nodup := by
  induction l with
  | nil => exact List.nodup_nil
  | cons a l ih =>
    obtain ⟨ha, nd'⟩ := List.nodup_cons.1 nd
    have hi := ih nd' fun a ha b hb => h a (by simp [ha]) b (by simp [hb])
    cases hf : f a with
    | none => rw [List.filterMap_cons_none hf]; exact hi
    | some y =>
      rw [List.filterMap_cons_some hf, List.nodup_cons]
      refine ⟨fun hy => ?_, hi⟩
      obtain ⟨b, hb, hby⟩ := List.mem_filterMap.1 hy
      exact ha (h a (by simp) b (by simp [hb]) y hf hby ▸ hb)

/-- If the classes registered for the node's types are distinct direct subclasses of Resource, `classify` does not fail. -/
theorem C53_direct_subclasses_ok {o : Orders} (ho : o.OK) {w : World} (wr : w.Reach) {g : Graph} (hg : g.Reach) {c : Nat}
    (hc : c < w.classes.length) {obj : Term} (hn : IsResource obj) (h2 : obj.truthy = true) {ty : Term} (ht : rdfType w c = .ok ty)
    (hd : ∀ t d, mkTriple obj ty t ∈ g.triples → w.byType.get? t = some d → d ≠ 0 ∧ (w.cls d).mro = [d, 0])
    (hinj : ∀ t t' d, mkTriple obj ty t ∈ g.triples → mkTriple obj ty t' ∈ g.triples →
      w.byType.get? t = some d → w.byType.get? t' = some d → t = t') :
    ∃ k, (classify o w g c obj).2 = .ok (.res k obj) := by
  obtain ⟨ns, _, ht'⟩ := rdfType_ok wr.wf hc
  have h1 : ty.truthy = true := by rw [ht] at ht'; cases ht'; cases ns <;> rfl
  have hnode : obj.isNode = true := by rcases hn with ⟨i, rfl⟩ | ⟨i, rfl⟩ <;> rfl
  rw [classify_node hnode ht]
  unfold classifyNode
  split
  · exact ⟨0, rfl⟩
  · next k _ => exact ⟨k, rfl⟩
  · next hq1 hq2 =>
    rcases autoClass_cases w (typesOf o g ty obj) (classesOf o w g ty obj) with ⟨k, _, he⟩ | ⟨_, e, hnc, he⟩ | ⟨_, m, hm, he⟩
    · rw [he]; exact ⟨k, rfl⟩
    · exfalso
      have hmemT := fun t => mem_typesOf ho hg h1 h2 t
      have nd : (o.terms (typesOf o g ty obj)).Nodup := (ho.terms _).nodup_iff.2 (nodup_pySet _)
      have hcd : ∀ d ∈ classesOf o w g ty obj, d ≠ 0 ∧ (w.cls d).mro = [d, 0] := fun d hdm => by
        obtain ⟨t, ha, hb⟩ := (mem_classesOf ho hg h1 h2 d).1 hdm
        exact hd t d ha hb
      have hcn : (classesOf o w g ty obj).Nodup := by
        unfold classesOf
        refine nodup_filterMap nd ?_
        intro a ha b hb x hx1 hx2
        exact hinj a b x ((hmemT a).1 ((ho.terms _).mem_iff.1 ha)) ((hmemT b).1 ((ho.terms _).mem_iff.1 hb)) hx1 hx2
      have hmro : mroOf w w.classes.length (classesOf o w g ty obj) =
          some (w.classes.length :: (classesOf o w g ty obj ++ [0])) := by
        unfold mroOf
        simp only
        have hmap : (classesOf o w g ty obj).map (fun b => (w.cls b).mro) = (classesOf o w g ty obj).map fun k => [k, 0] :=
          List.map_congr_left fun d hdm => (hcd d hdm).2
        rw [hmap]
        have := c3_direct (classesOf o w g ty obj) (fun h => (hcd 0 h).1 rfl) hcn 0
          ((((classesOf o w g ty obj).map (fun k => [k, 0]) ++ [classesOf o w g ty obj]).map List.length).sum + 1) ?_ (Or.inr hq1)
        · rw [List.replicate_zero, List.nil_append] at this
          rw [this]; rfl
        · have : ((((classesOf o w g ty obj).map (fun k => [k, 0]) ++ [classesOf o w g ty obj]).map List.length).sum) =
              2 * (classesOf o w g ty obj).length + (classesOf o w g ty obj).length := by
            simp [List.map_map, Function.comp_def, Nat.mul_comm]
          rw [this]
          have : 0 < (classesOf o w g ty obj).length := List.length_pos_iff.2 hq1
          omega
      unfold newClass at hnc
      simp only [addScalars, hmro] at hnc
      cases hnc
    · rw [he]; exact ⟨_, rfl⟩

/-! Where the claim fails. -/

/-- One class registered for two types. -/
def dupWorld : World := (registerClass (registerClass twoTypes (py! "http://a") 2).1 (py! "http://b") 2).1

theorem dupWorld_reach : dupWorld.Reach := .register (.register twoTypes_reach (by decide)) (by decide)

def bothTypes : Graph :=
  ((Graph.new .none).add (mkTriple (.named (py! "http://x")) (.named (Heap.rdfNs ++ py! "type")) (.named (py! "http://a")))).add
    (mkTriple (.named (py! "http://x")) (.named (Heap.rdfNs ++ py! "type")) (.named (py! "http://b")))

/-- A node with two types for which the same class is registered cannot be classified: TypeError. -/
theorem C53_refuted : ¬ C53_statement := by
  intro h
  obtain ⟨k, hk, _⟩ := h {} .default dupWorld dupWorld_reach bothTypes (((Graph.Reach.new _).add _ _ _).add _ _ _) 0 (by decide)
    (.named (py! "http://x")) (Or.inl ⟨_, rfl⟩) (.named (Heap.rdfNs ++ py! "type")) (by decide)
  have : (classify {} dupWorld bothTypes 0 (.named (py! "http://x"))).2 = .error .typeError := by decide
  rw [this] at hk; cases hk

/-- Classes 2, 3 and 4, direct subclasses of Resource; 2 and 3 registered for `a` and `b`. -/
def threeClasses : World :=
  let w := { World.new with classes := World.new.classes ++ [⟨py! "A", (resourceCls).prefixes, resourceCls.scalars, none, none, [2, 0]⟩,
    ⟨py! "B", (resourceCls).prefixes, resourceCls.scalars, none, none, [3, 0]⟩,
    ⟨py! "C", (resourceCls).prefixes, resourceCls.scalars, none, none, [4, 0]⟩] }
  (registerClass (registerClass w (py! "http://a") 2).1 (py! "http://b") 3).1

theorem threeClasses_reach : threeClasses.Reach := by
  have h1 : newClass World.new (py! "A") [0] {} = .ok ({ World.new with classes := World.new.classes ++
    [⟨py! "A", (resourceCls).prefixes, resourceCls.scalars, none, none, [2, 0]⟩] }, 2) := by decide
  have h2 : newClass { World.new with classes := World.new.classes ++
      [⟨py! "A", (resourceCls).prefixes, resourceCls.scalars, none, none, [2, 0]⟩] } (py! "B") [0] {} =
    .ok ({ World.new with classes := World.new.classes ++ [⟨py! "A", (resourceCls).prefixes, resourceCls.scalars, none, none, [2, 0]⟩,
      ⟨py! "B", (resourceCls).prefixes, resourceCls.scalars, none, none, [3, 0]⟩] }, 3) := by decide
  have h3 : newClass { World.new with classes := World.new.classes ++
      [⟨py! "A", (resourceCls).prefixes, resourceCls.scalars, none, none, [2, 0]⟩,
      ⟨py! "B", (resourceCls).prefixes, resourceCls.scalars, none, none, [3, 0]⟩] } (py! "C") [0] {} =
    .ok ({ World.new with classes := World.new.classes ++ [⟨py! "A", (resourceCls).prefixes, resourceCls.scalars, none, none, [2, 0]⟩,
      ⟨py! "B", (resourceCls).prefixes, resourceCls.scalars, none, none, [3, 0]⟩,
      ⟨py! "C", (resourceCls).prefixes, resourceCls.scalars, none, none, [4, 0]⟩] }, 4) := by decide
  have r1 := World.Reach.define .new (by simp) (by simp; decide) h1
  have r2 := World.Reach.define r1 (by simp) (by simp) h2
  have r3 := World.Reach.define r2 (by simp) (by simp) h3
  exact .register (.register r3 (by decide)) (by decide)

/-- A node with the types `a` and `b` has been classified, and then class 4 is registered for `a`. -/
def staleWorld : World :=
  (registerClass (classify {} threeClasses bothTypes 0 (.named (py! "http://x"))).1 (py! "http://a") 4).1

/-- The recorded class is used although it does not inherit from the class registered now. -/
theorem C53_stale :
    staleWorld.Reach ∧ (classify {} staleWorld bothTypes 0 (.named (py! "http://x"))).2 = .ok (.res 5 (.named (py! "http://x"))) ∧
    staleWorld.byType.get? (.named (py! "http://a")) = some 4 ∧
    (classify {} staleWorld bothTypes 0 (.named (py! "http://x"))).1.isSub 5 4 = false := by
  refine ⟨.register (classify_spec threeClasses_reach _ (by decide) _).1 (by decide), by decide, by decide, by decide⟩

/-- Non-vacuity of the positive theorems: class 5 inherits from both, and is found again. -/
example : (classify {} threeClasses bothTypes 0 (.named (py! "http://x"))).2 = .ok (.res 5 (.named (py! "http://x"))) ∧
    (classify {} threeClasses bothTypes 0 (.named (py! "http://x"))).1.isSub 5 2 = true ∧
    (classify {} threeClasses bothTypes 0 (.named (py! "http://x"))).1.isSub 5 3 = true ∧
    (classify {} threeClasses onlyB 0 (.named (py! "http://x"))).2 = .ok (.res 3 (.named (py! "http://x"))) ∧
    (classify {} threeClasses onlyB 0 (.named (py! "http://y"))).2 = .ok (.res 0 (.named (py! "http://y"))) := by decide

end Verif
