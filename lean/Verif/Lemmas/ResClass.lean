import Verif.Lemmas.Resource
/-
Classes and classification: the C3 merge, well-formed worlds, and what `classify` changes.
-/
namespace Verif
open Spec Graph

/-! ### C3 -/

theorem c3Pick_mem {ls : List (List Nat)} {h : Nat} (hp : c3Pick ls = some h) : ∃ l ∈ ls, l.head? = some h := by
  have := List.mem_of_find?_eq_some hp
  simpa [List.mem_filterMap] using this

theorem c3Merge_mem : ∀ (n : Nat) (ls : List (List Nat)) (r : List Nat), c3Merge n ls = some r →
    ∀ x, x ∈ r ↔ ∃ l ∈ ls, x ∈ l := by
  intro n
  induction n with
  | zero => intro ls r h; simp [c3Merge] at h
  | succ n ih =>
    intro ls r h x
    unfold c3Merge at h
    simp only at h
    split at h
    · next hn =>
      cases h
      constructor
      · intro h'; cases h'
      · rintro ⟨l, hl, hx⟩
        exfalso
        have : l ∈ ls.filter (· ≠ []) := List.mem_filter.2 ⟨hl, by simpa using List.ne_nil_of_mem hx⟩
        rw [hn] at this; cases this
    · split at h
      · cases h
      · next k hk =>
        generalize hls : ls.filter (· ≠ []) = fs at h hk
        cases hm : c3Merge n (fs.map fun l => if l.head? = some k then l.tail else l) with
        | none => rw [hm] at h; cases h
        | some r' =>
          rw [hm] at h; cases h
          have hr := ih _ _ hm x
          obtain ⟨l0, hl0, hh⟩ := c3Pick_mem hk
          have hfs : ∀ l, l ∈ fs ↔ l ∈ ls ∧ l ≠ [] := by intro l; rw [← hls]; simp
          constructor
          · intro hx
            rcases List.mem_cons.1 hx with rfl | hx
            · exact ⟨l0, ((hfs _).1 hl0).1, List.mem_of_mem_head? hh⟩
            · obtain ⟨l, hl, hx⟩ := hr.1 hx
              obtain ⟨l', hl', rfl⟩ := List.mem_map.1 hl
              refine ⟨l', ((hfs _).1 hl').1, ?_⟩
              split at hx
              · exact List.mem_of_mem_tail hx
              · exact hx
          · rintro ⟨l, hl, hx⟩
            have hl' : l ∈ fs := (hfs l).2 ⟨hl, List.ne_nil_of_mem hx⟩
            by_cases hxk : x = k
            · subst hxk; simp
            · refine List.mem_cons_of_mem _ (hr.2 ⟨_, List.mem_map_of_mem hl', ?_⟩)
              split
              · next hk' =>
                cases l with
                | nil => cases hx
                | cons a l =>
                  simp only [List.head?_cons, Option.some.injEq] at hk'
                  rcases List.mem_cons.1 hx with rfl | hx
                  · exact absurd hk' hxk
                  · exact hx
              · exact hx

/-- The ancestors of a new class: itself, and those of its bases. -/
theorem mroOf_mem {w : World} {c : Nat} {bases m : List Nat} (h : mroOf w c bases = some m) (x : Nat) :
    x ∈ m ↔ x = c ∨ x ∈ bases ∨ ∃ b ∈ bases, x ∈ (w.cls b).mro := by
  unfold mroOf at h
  simp only at h
  generalize hls : (bases.map (fun b => (w.cls b).mro) ++ [bases]) = ls at h
  cases hm : c3Merge ((ls.map List.length).sum + 1) ls with
  | none => rw [hm] at h; cases h
  | some r =>
    rw [hm] at h; cases h
    have := c3Merge_mem _ _ _ hm x
    rw [List.mem_cons, this, ← hls]
    simp only [List.mem_append, List.mem_map, List.mem_singleton]
    constructor
    · rintro (h | ⟨l, ⟨b, hb, rfl⟩ | rfl, hx⟩)
      exacts [Or.inl h, Or.inr (Or.inr ⟨b, hb, hx⟩), Or.inr (Or.inl hx)]
    · rintro (h | h | ⟨b, hb, hx⟩)
      exacts [Or.inl h, Or.inr ⟨_, Or.inr rfl, h⟩, Or.inr ⟨_, Or.inl ⟨b, hb, rfl⟩, hx⟩]

/-! ### Worlds -/

/-- The class-level states that can arise: class definitions, registrations, changes to the global profile, the classes that
    `classify` creates, and prefixes and languages given to existing classes. -/
inductive World.Reach : World → Prop
  | new : Reach World.new
  | define {w w' name bases own c} : Reach w → bases ≠ [] → (∀ b ∈ bases, b < w.classes.length) →
      newClass w name bases own = .ok (w', c) → Reach w'
  | register {w ty c} : Reach w → c < w.classes.length → Reach (registerClass w ty c).1
  | profile {w} (p t) : Reach w → Reach { w with gPrefixes := p, gTerms := t }
  | auto {w types pcs} : Reach w → pcs ≠ [] → (∀ b ∈ pcs, b < w.classes.length) → Reach (autoClass w types pcs).1
  | setPrefix {w} (c name iri) : Reach w → Reach (w.setPrefix c name iri)
  | setLang {w} (c lang) : Reach w → Reach (w.setLang c lang)

theorem cls_lt {w : World} {c : Nat} (h : c < w.classes.length) : w.cls c = w.classes[c] := by
  unfold World.cls; rw [List.getElem?_eq_getElem h]; rfl

/-- What every class satisfies. -/
structure ClsOK (n c : Nat) (k : Cls) : Prop where
  self : k.mro.head? = some c
  root : 0 ∈ k.mro
  bound : ∀ x ∈ k.mro, x < n
  rdf : Dict.has k.prefixes (py! "rdf") = true

/-- Invariant of reachable worlds. -/
structure World.WF (w : World) : Prop where
  two : 2 ≤ w.classes.length
  cls : ∀ c, c < w.classes.length → ClsOK w.classes.length c (w.cls c)
  types : ∀ t c, w.byType.get? t = some c → c < w.classes.length
  sets : ∀ e ∈ w.bySet, e.2 < w.classes.length

theorem ClsOK.mono {n m c k} (h : ClsOK n c k) (hm : n ≤ m) : ClsOK m c k :=
  ⟨h.self, h.root, fun x hx => Nat.lt_of_lt_of_le (h.bound x hx) hm, h.rdf⟩

theorem has_update (d e : Dict PStr PStr) (k : PStr) : Dict.has (Dict.update d e) k = true ↔ Dict.has d k = true ∨ Dict.has e k = true := by
  unfold Dict.update
  induction e generalizing d with
  | nil => simp [Dict.has]
  | cons a e ih =>
    obtain ⟨a, v⟩ := a
    rw [List.foldl_cons, ih]
    have h1 : Dict.has (Dict.set d a v) k = true ↔ a = k ∨ Dict.has d k = true := by
      unfold Dict.has; rw [Dict.get?_set]
      by_cases h : a = k <;> simp [h]
    have h2 : Dict.has ((a, v) :: e) k = true ↔ a = k ∨ Dict.has e k = true := by
      unfold Dict.has; rw [Dict.get?]
      by_cases h : a = k <;> simp [h]
    rw [h1, h2]
    constructor
    · rintro ((h | h) | h); exacts [Or.inr (Or.inl h), Or.inl h, Or.inr (Or.inr h)]
    · rintro (h | h | h); exacts [Or.inl (Or.inr h), Or.inl (Or.inl h), Or.inr h]

theorem has_inherited (w : World) (bases : List Nat) (k : PStr) :
    Dict.has (inheritedPrefixes w bases) k = true ↔ ∃ b ∈ bases, Dict.has (w.cls b).prefixes k = true := by
  unfold inheritedPrefixes
  have : ∀ m : PrefixMap, Dict.has (bases.foldl (fun m b => Dict.update m (w.cls b).prefixes) m) k = true ↔
      Dict.has m k = true ∨ ∃ b ∈ bases, Dict.has (w.cls b).prefixes k = true := by
    induction bases with
    | nil => simp
    | cons b bs ih =>
      intro m
      rw [List.foldl_cons, ih, has_update]
      simp only [List.mem_cons, exists_eq_or_imp]
      tauto
  rw [this]
  simp [Dict.has]

/-- What a successful class definition does. -/
theorem newClass_ok {w w' : World} {name bases own c} (h : newClass w name bases own = .ok (w', c)) :
    c = w.classes.length ∧ ∃ scalars mro,
      addScalars (Dict.update (inheritedPrefixes w bases) own.prefixes) (inheritedScalars w bases) own.scalars = .ok scalars ∧
      mroOf w c bases = some mro ∧
      w' = { w with classes := w.classes ++ [⟨name, Dict.update (inheritedPrefixes w bases) own.prefixes,
        scalars, own.lang, own.rdfClasses, mro⟩] } := by
  unfold newClass at h
  simp only at h
  split at h
  · cases h
  · next s hs =>
    split at h
    · cases h
    · next m hm => cases h; exact ⟨rfl, s, m, hs, hm, rfl⟩

theorem cls_append {w : World} {k : Cls} {c : Nat} {b s p t} (h : c < w.classes.length) :
    ({ classes := w.classes ++ [k], byType := b, bySet := s, gPrefixes := p, gTerms := t } : World).cls c = w.cls c := by
  unfold World.cls; dsimp only; rw [List.getElem?_append_left h]

theorem cls_last {w : World} {k : Cls} {b s p t} :
    ({ classes := w.classes ++ [k], byType := b, bySet := s, gPrefixes := p, gTerms := t } : World).cls w.classes.length = k := by
  unfold World.cls; dsimp only; simp

theorem WF_append {w : World} (wf : w.WF) {k : Cls} (hk : ClsOK (w.classes.length + 1) w.classes.length k)
    {b s p t} (hb : ∀ t c, Dict.get? b t = some c → c < w.classes.length + 1) (hs : ∀ e ∈ s, e.2 < w.classes.length + 1) :
    ({ classes := w.classes ++ [k], byType := b, bySet := s, gPrefixes := p, gTerms := t } : World).WF := by
  refine ⟨?_, fun c hc => ?_, ?_, ?_⟩
  · have := wf.two; simp; omega
  · simp only [List.length_append, List.length_cons, List.length_nil] at hc ⊢
    by_cases h : c < w.classes.length
    · rw [cls_append h]; exact (wf.cls c h).mono (by omega)
    · have : c = w.classes.length := by omega
      subst this; rw [cls_last]; exact hk
  · simpa using hb
  · simpa using hs

theorem ClsOK_new {w : World} (wf : w.WF) {bases : List Nat} (hne : bases ≠ []) (hb : ∀ b ∈ bases, b < w.classes.length)
    {mro own name scalars lang rc} (hm : mroOf w w.classes.length bases = some mro) :
    ClsOK (w.classes.length + 1) w.classes.length
      { name, prefixes := Dict.update (inheritedPrefixes w bases) own, scalars, lang, rdfClasses := rc, mro } := by
  obtain ⟨b0, hb0⟩ := List.exists_mem_of_ne_nil _ hne
  refine ⟨?_, ?_, ?_, ?_⟩
  · unfold mroOf at hm
    dsimp only at hm ⊢
    cases h : c3Merge (((bases.map (fun b => (w.cls b).mro) ++ [bases]).map List.length).sum + 1)
        (bases.map (fun b => (w.cls b).mro) ++ [bases]) with
    | none => rw [h] at hm; cases hm
    | some r => rw [h] at hm; cases hm; rfl
  · exact (mroOf_mem hm 0).2 (Or.inr (Or.inr ⟨b0, hb0, (wf.cls b0 (hb b0 hb0)).root⟩))
  · intro x hx
    rcases (mroOf_mem hm x).1 hx with rfl | hx | ⟨b, hb', hx⟩
    · omega
    · have := hb x hx; omega
    · have := (wf.cls b (hb b hb')).bound x hx; omega
  · rw [has_update, has_inherited]
    exact Or.inl ⟨b0, hb0, (wf.cls b0 (hb b0 hb0)).rdf⟩

theorem ClsOK.setRdf {n c k} (h : ClsOK n c k) (ts) : ClsOK n c { k with rdfClasses := some ts } := ⟨h.self, h.root, h.bound, h.rdf⟩

theorem cls_setRdf (w : World) (c k : Nat) (ts : List Term) :
    (w.setRdfClasses c ts).cls k = if k = c ∧ k < w.classes.length then { w.cls k with rdfClasses := some ts } else w.cls k := by
  unfold World.setRdfClasses World.cls
  dsimp only
  rw [List.getElem?_modify]
  by_cases h : c = k
  · subst h
    by_cases hl : c < w.classes.length
    · simp [hl]
    · simp [hl]
  · simp [h, Ne.symm h]

theorem length_setRdf (w : World) (c : Nat) (ts : List Term) : (w.setRdfClasses c ts).classes.length = w.classes.length := by
  simp [World.setRdfClasses]

theorem WF.setRdf {w : World} (wf : w.WF) (c : Nat) (ts : List Term) : (w.setRdfClasses c ts).WF := by
  refine ⟨?_, fun k hk => ?_, ?_, ?_⟩
  · rw [length_setRdf]; exact wf.two
  · rw [length_setRdf] at hk ⊢
    rw [cls_setRdf]
    split
    · exact (wf.cls k hk).setRdf ts
    · exact wf.cls k hk
  · rw [length_setRdf]; exact wf.types
  · rw [length_setRdf]; exact wf.sets

theorem cls_setPrefix (w : World) (c k : Nat) (name iri : PStr) :
    (w.setPrefix c name iri).cls k =
      if k = c ∧ k < w.classes.length then { w.cls k with prefixes := Dict.set (w.cls k).prefixes name iri } else w.cls k := by
  unfold World.setPrefix World.cls
  dsimp only
  rw [List.getElem?_modify]
  by_cases h : c = k
  · subst h
    by_cases hl : c < w.classes.length
    · simp [hl]
    · simp [hl]
  · simp [h, Ne.symm h]

theorem cls_setLang (w : World) (c k : Nat) (lang : Option PStr) :
    (w.setLang c lang).cls k = if k = c ∧ k < w.classes.length then { w.cls k with lang := some lang } else w.cls k := by
  unfold World.setLang World.cls
  dsimp only
  rw [List.getElem?_modify]
  by_cases h : c = k
  · subst h
    by_cases hl : c < w.classes.length
    · simp [hl]
    · simp [hl]
  · simp [h, Ne.symm h]

theorem length_setPrefix (w : World) (c : Nat) (name iri : PStr) : (w.setPrefix c name iri).classes.length = w.classes.length := by
  simp [World.setPrefix]

theorem length_setLang (w : World) (c : Nat) (lang : Option PStr) : (w.setLang c lang).classes.length = w.classes.length := by
  simp [World.setLang]

theorem WF.setPrefix {w : World} (wf : w.WF) (c : Nat) (name iri : PStr) : (w.setPrefix c name iri).WF := by
  refine ⟨?_, fun k hk => ?_, ?_, ?_⟩
  · rw [length_setPrefix]; exact wf.two
  · rw [length_setPrefix] at hk ⊢
    rw [cls_setPrefix]
    split
    · have := wf.cls k hk
      refine ⟨this.self, this.root, this.bound, ?_⟩
      have h2 := this.rdf
      unfold Dict.has at h2 ⊢
      rw [Dict.get?_set]
      split
      · rfl
      · exact h2
    · exact wf.cls k hk
  · rw [length_setPrefix]; exact wf.types
  · rw [length_setPrefix]; exact wf.sets

theorem WF.setLang {w : World} (wf : w.WF) (c : Nat) (lang : Option PStr) : (w.setLang c lang).WF := by
  refine ⟨?_, fun k hk => ?_, ?_, ?_⟩
  · rw [length_setLang]; exact wf.two
  · rw [length_setLang] at hk ⊢
    rw [cls_setLang]
    split
    · exact ⟨(wf.cls k hk).self, (wf.cls k hk).root, (wf.cls k hk).bound, (wf.cls k hk).rdf⟩
    · exact wf.cls k hk
  · rw [length_setLang]; exact wf.types
  · rw [length_setLang]; exact wf.sets

theorem modify_last {α} (l : List α) (x : α) (f : α → α) : (l ++ [x]).modify l.length f = l ++ [f x] := by
  induction l with
  | nil => rfl
  | cons a l ih => simpa using ih

/-- The three outcomes of `autoClass`. -/
theorem autoClass_cases (w : World) (types : List Term) (pcs : List Nat) :
    (∃ k, w.lookupSet types = some k ∧ autoClass w types pcs = (w, .ok k)) ∨
    (w.lookupSet types = none ∧ ∃ e, newClass w (pcs.flatMap fun c => (w.cls c).name) pcs {} = .error e ∧
      autoClass w types pcs = (w, .error e)) ∨
    (w.lookupSet types = none ∧ ∃ mro, mroOf w w.classes.length pcs = some mro ∧
      autoClass w types pcs =
        ({ w with
            classes := w.classes ++ [⟨pcs.flatMap fun c => (w.cls c).name, inheritedPrefixes w pcs,
              inheritedScalars w pcs, none, some types, mro⟩]
            bySet := w.bySet ++ [(types, w.classes.length)] }, .ok w.classes.length)) := by
  unfold autoClass
  cases hl : w.lookupSet types with
  | some k => exact Or.inl ⟨k, rfl, rfl⟩
  | none =>
    right
    cases hn : newClass w (pcs.flatMap fun c => (w.cls c).name) pcs {} with
    | error e => exact Or.inl ⟨rfl, e, rfl, rfl⟩
    | ok r =>
      obtain ⟨w', c⟩ := r
      right
      obtain ⟨rfl, s, m, hs, hm, rfl⟩ := newClass_ok hn
      simp only [addScalars, Except.ok.injEq] at hs
      subst hs
      refine ⟨rfl, m, hm, ?_⟩
      simp [World.setRdfClasses, Dict.update, modify_last]

theorem World.Reach.wf {w : World} (h : w.Reach) : w.WF := by
  induction h with
  | new =>
    refine ⟨by decide, fun c hc => ?_, ?_, ?_⟩
    · have : c = 0 ∨ c = 1 := by have : World.new.classes.length = 2 := rfl; omega
      rcases this with rfl | rfl
      · exact ⟨by decide, by decide, by decide, by decide⟩
      · exact ⟨by decide, by decide, by decide, by decide⟩
    · intro t c h; simp [World.new] at h
    · intro e he; simp [World.new] at he
  | @define w w' name bases own c h hne hb hnew ih =>
    obtain ⟨rfl, s, m, hs, hm, rfl⟩ := newClass_ok hnew
    exact WF_append ih (ClsOK_new ih hne hb hm) (fun t c h => by have := ih.types t c h; omega)
      (fun e he => by have := ih.sets e he; omega)
  | @register w ty c h hc ih =>
    unfold registerClass
    split
    · exact ih
    · next p hp =>
      refine WF.setRdf (w := { w with byType := w.byType.set (predTerm p) c }) ⟨ih.two, ih.cls, fun t d hd => ?_, ih.sets⟩ _ _
      rw [Dict.get?_set] at hd
      split at hd
      · cases hd; exact hc
      · exact ih.types t d hd
  | profile p t h ih => exact ⟨ih.two, ih.cls, ih.types, ih.sets⟩
  | @auto w types pcs h hne hb ih =>
    rcases autoClass_cases w types pcs with ⟨k, _, he⟩ | ⟨_, e, _, he⟩ | ⟨_, m, hm, he⟩
    · rw [he]; exact ih
    · rw [he]; exact ih
    · rw [he]
      refine WF_append ih (ClsOK_new (own := []) ih hne hb hm) (fun t c h => by have := ih.types t c h; omega) (fun e he => ?_)
      rcases List.mem_append.1 he with he | he
      · have := ih.sets e he; omega
      · simp only [List.mem_singleton] at he; subst he; show w.classes.length < _; omega
  | setPrefix c name iri _ ih => exact WF.setPrefix ih c name iri
  | setLang c lang _ ih => exact WF.setLang ih c lang

/-! ### Extension: what `classify` can do to the world -/

/-- Classes have been added and recorded for sets of types; nothing else has changed. -/
structure World.Ext (w w' : World) : Prop where
  classes : ∃ cs, w'.classes = w.classes ++ cs
  sets : ∃ bs, w'.bySet = w.bySet ++ bs
  byType : w'.byType = w.byType
  gp : w'.gPrefixes = w.gPrefixes
  gt : w'.gTerms = w.gTerms

theorem World.Ext.refl (w : World) : w.Ext w := ⟨⟨[], by simp⟩, ⟨[], by simp⟩, rfl, rfl, rfl⟩

theorem World.Ext.trans {a b c : World} (h : a.Ext b) (h' : b.Ext c) : a.Ext c := by
  obtain ⟨⟨c1, h1⟩, ⟨s1, h2⟩, h3, h4, h5⟩ := h
  obtain ⟨⟨c2, k1⟩, ⟨s2, k2⟩, k3, k4, k5⟩ := h'
  exact ⟨⟨c1 ++ c2, by rw [k1, h1, List.append_assoc]⟩, ⟨s1 ++ s2, by rw [k2, h2, List.append_assoc]⟩, k3.trans h3, k4.trans h4,
    k5.trans h5⟩

theorem World.Ext.length {w w' : World} (h : w.Ext w') : w.classes.length ≤ w'.classes.length := by
  obtain ⟨cs, h⟩ := h.classes; rw [h]; simp

theorem World.Ext.cls {w w' : World} (h : w.Ext w') {c : Nat} (hc : c < w.classes.length) : w'.cls c = w.cls c := by
  obtain ⟨cs, h⟩ := h.classes
  unfold World.cls; rw [h, List.getElem?_append_left hc]

theorem World.Ext.resolve {w w' : World} (h : w.Ext w') {c : Nat} (hc : c < w.classes.length) (k : PStr) :
    resolveKey w' c k = resolveKey w c k := by
  unfold resolveKey; rw [h.cls hc, h.gp, h.gt]

theorem World.Ext.rdfType {w w' : World} (h : w.Ext w') {c : Nat} (hc : c < w.classes.length) :
    rdfType w' c = rdfType w c := by unfold Verif.rdfType; rw [h.resolve hc]

theorem World.Ext.isScalar {w w' : World} (h : w.Ext w') {c : Nat} (hc : c < w.classes.length) (p) :
    isScalar w' c p = isScalar w c p := by unfold Verif.isScalar; rw [h.cls hc]

theorem World.Ext.isSub {w w' : World} (h : w.Ext w') {c : Nat} (hc : c < w.classes.length) (b) :
    w'.isSub c b = w.isSub c b := by unfold World.isSub; rw [h.cls hc]

theorem findSome_congr {α β} {l : List α} {f g : α → Option β} (h : ∀ x ∈ l, f x = g x) : l.findSome? f = l.findSome? g := by
  induction l with
  | nil => rfl
  | cons a l ih =>
    simp only [List.findSome?_cons, h a (by simp)]
    rw [ih fun x hx => h x (by simp [hx])]

theorem World.Ext.lookup {w w' : World} (h : w.Ext w') (wf : w.WF) {c : Nat} (hc : c < w.classes.length) {α} (f : Cls → Option α) :
    w'.lookup c f = w.lookup c f := by
  unfold World.lookup
  rw [h.cls hc]
  exact findSome_congr fun k hk => by rw [h.cls ((wf.cls c hc).bound k hk)]

theorem World.Ext.lang {w w' : World} (h : w.Ext w') (wf : w.WF) {c : Nat} (hc : c < w.classes.length) :
    w'.lang c = w.lang c := by unfold World.lang; rw [h.lookup wf hc]

theorem World.Ext.interpret {w w' : World} (h : w.Ext w') (wf : w.WF) {r : Res} (hc : r.c < w.classes.length) (k : Key) :
    interpretKey w' r k = interpretKey w r k := by
  unfold interpretKey
  rw [h.resolve hc]
  cases resolveKey w r.c k.text with
  | error e => rfl
  | ok p => simp only [h.isScalar hc, h.lang wf hc]

theorem autoClass_ext (w : World) (types pcs) : w.Ext (autoClass w types pcs).1 := by
  rcases autoClass_cases w types pcs with ⟨k, _, he⟩ | ⟨_, e, _, he⟩ | ⟨_, m, hm, he⟩
  · rw [he]; exact .refl w
  · rw [he]; exact .refl w
  · rw [he]; exact ⟨⟨_, rfl⟩, ⟨_, rfl⟩, rfl, rfl, rfl⟩

/-- `rdf:type` always resolves, to a non-empty IRI. -/
theorem rdfType_ok {w : World} (wf : w.WF) {c : Nat} (hc : c < w.classes.length) :
    ∃ ns, (w.cls c).prefixes.get? (py! "rdf") = some ns ∧ rdfType w c = .ok (.named (ns ++ py! "type")) := by
  have h := (wf.cls c hc).rdf
  unfold Dict.has at h
  obtain ⟨ns, hns⟩ := Option.isSome_iff_exists.1 h
  refine ⟨ns, hns, ?_⟩
  have : PrefixMap.resolve (w.cls c).prefixes (py! "rdf:type") = .ok (ns ++ py! "type") := by
    unfold PrefixMap.resolve parseCurie
    rw [if_neg (by decide)]
    have h1 : bracketed (py! "rdf:type") = false := by decide
    simp only [h1]
    have h2 : pyPartition 58 (py! "rdf:type") = (py! "rdf", [58], py! "type") := by decide
    have h3 : schemes.contains (py! "rdf") = false := by decide
    simp only [h2, h3, hns, Bool.false_eq_true, if_false, Bool.and_false]
  unfold rdfType resolveKey
  rw [this]
  rfl

/-! ### `classify` -/

theorem classesOf_lt {o : Orders} {w : World} (wf : w.WF) {g : Graph} {ty obj : Term} :
    ∀ b ∈ classesOf o w g ty obj, b < w.classes.length := by
  intro b hb
  obtain ⟨t, _, h⟩ := List.mem_filterMap.1 hb
  exact wf.types t b h

/-- `classify` on a node, with the lookup of `rdf:type` done. -/
theorem classify_node {o : Orders} {w : World} {g : Graph} {c : Nat} {obj ty : Term} (hn : obj.isNode = true)
    (ht : rdfType w c = .ok ty) : classify o w g c obj = classifyNode o w g ty obj := by
  unfold classify
  cases obj with
  | named i => simp only [ht]
  | bnode i => simp only [ht]
  | _ => simp [Term.isNode] at hn

/-- Everything `classify` can do: the world is extended, and a value for the same term is returned, or TypeError (no consistent MRO)
    is raised. -/
theorem classify_spec {o : Orders} {w : World} (wr : w.Reach) (g : Graph) {c : Nat} (hc : c < w.classes.length) (obj : Term) :
    (classify o w g c obj).1.Reach ∧ w.Ext (classify o w g c obj).1 ∧
    ((classify o w g c obj).2 = .error .typeError ∨
     ∃ v, (classify o w g c obj).2 = .ok v ∧ v.term = obj ∧
      (obj.isNode = true → ∃ k, v = .res k obj ∧ k < (classify o w g c obj).1.classes.length)) := by
  have wf := wr.wf
  obtain ⟨ns, _, ht⟩ := rdfType_ok wf hc
  have main : ∀ obj : Term, (classify o w g c obj = classifyNode o w g (.named (ns ++ py! "type")) obj) →
      (classify o w g c obj).1.Reach ∧ w.Ext (classify o w g c obj).1 ∧
      ((classify o w g c obj).2 = .error .typeError ∨
       ∃ v, (classify o w g c obj).2 = .ok v ∧ v.term = obj ∧
        (obj.isNode = true → ∃ k, v = .res k obj ∧ k < (classify o w g c obj).1.classes.length)) := by
    intro obj he
    have hlt := classesOf_lt (o := o) wf (g := g) (ty := .named (ns ++ py! "type")) (obj := obj)
    rw [he]
    clear he
    unfold classifyNode
    split
    · exact ⟨wr, .refl w, Or.inr ⟨_, rfl, rfl, fun _ => ⟨0, rfl, by have := wf.two; show 0 < w.classes.length; omega⟩⟩⟩
    · next k hk => exact ⟨wr, .refl w, Or.inr ⟨_, rfl, rfl, fun _ => ⟨k, rfl, hlt k (by simp [hk])⟩⟩⟩
    · next h1 h2 =>
      have hr := World.Reach.auto (types := typesOf o g (.named (ns ++ py! "type")) obj) wr h1 hlt
      have hx := autoClass_ext w (typesOf o g (.named (ns ++ py! "type")) obj) (classesOf o w g (.named (ns ++ py! "type")) obj)
      rcases autoClass_cases w (typesOf o g (.named (ns ++ py! "type")) obj) (classesOf o w g (.named (ns ++ py! "type")) obj) with
        ⟨k, hk, h⟩ | ⟨_, e, hk, h⟩ | ⟨_, m, hm, h⟩
      · rw [h] at hr hx ⊢
        refine ⟨hr, hx, Or.inr ⟨_, rfl, rfl, fun _ => ⟨k, rfl, ?_⟩⟩⟩
        unfold World.lookupSet at hk
        cases hf : w.bySet.find? fun e => sameSet e.1 (typesOf o g (.named (ns ++ py! "type")) obj) with
        | none => rw [hf] at hk; cases hk
        | some e => rw [hf] at hk; cases hk; exact wf.sets e (List.mem_of_find?_eq_some hf)
      · rw [h] at hr hx ⊢
        refine ⟨hr, hx, Or.inl ?_⟩
        unfold newClass at hk
        simp only [addScalars] at hk
        split at hk
        · cases hk; rfl
        · cases hk
      · rw [h] at hr hx ⊢
        exact ⟨hr, hx, Or.inr ⟨_, rfl, rfl, fun _ => ⟨_, rfl, by simp⟩⟩⟩
  cases obj with
  | none => exact ⟨wr, .refl w, Or.inr ⟨.none, rfl, rfl, by simp [Term.isNode]⟩⟩
  | lit v l d => exact ⟨wr, .refl w, Or.inr ⟨.lit v l d, rfl, rfl, by simp [Term.isNode]⟩⟩
  | named i => exact main _ (classify_node rfl ht)
  | bnode i => exact main _ (classify_node rfl ht)
  | gen i => exact main _ (by unfold classify; simp only [ht])

end Verif
