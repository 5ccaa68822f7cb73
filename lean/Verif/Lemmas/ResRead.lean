import Verif.Lemmas.ResStore
/-
Reading: `collect`, `classifyOne`, and the stability of `classify`.
-/
namespace Verif
open Spec Graph

/-- Listing the generator of `__getitem__`: one value for each term, in order, or TypeError. -/
theorem collect_spec {o : Orders} (g : Graph) {c : Nat} (xs : List Term) {w : World} (wr : w.Reach) (hc : c < w.classes.length) :
    (collect o g c w xs).1.Reach ∧ w.Ext (collect o g c w xs).1 ∧
    ((collect o g c w xs).2 = .error .typeError ∨ ∃ vs, (collect o g c w xs).2 = .ok vs ∧ vs.map Val.term = xs) := by
  induction xs generalizing w with
  | nil => exact ⟨wr, .refl w, Or.inr ⟨[], rfl, rfl⟩⟩
  | cons x xs ih =>
    unfold collect
    have hs := classify_spec (o := o) wr g hc x
    generalize classify o w g c x = q at hs ⊢
    obtain ⟨w1, e | v⟩ := q
    · dsimp only at hs ⊢
      refine ⟨hs.1, hs.2.1, ?_⟩
      rcases hs.2.2 with h | ⟨v, h, _⟩
      · simp only [Except.error.injEq] at h; rw [h]; exact Or.inl rfl
      · cases h
    · have hi := ih hs.1 (Nat.lt_of_lt_of_le hc hs.2.1.length)
      dsimp only at hi hs ⊢
      generalize collect o g c w1 xs = q2 at hi ⊢
      obtain ⟨w2, e | vs⟩ := q2
      · dsimp only at hi ⊢
        refine ⟨hi.1, hs.2.1.trans hi.2.1, ?_⟩
        rcases hi.2.2 with h | ⟨v, h, _⟩
        · simp only [Except.error.injEq] at h; rw [h]; exact Or.inl rfl
        · cases h
      · dsimp only at hi ⊢
        refine ⟨hi.1, hs.2.1.trans hi.2.1, Or.inr ⟨v :: vs, rfl, ?_⟩⟩
        rcases hs.2.2 with h | ⟨v', h, h2, _⟩
        · cases h
        · simp only [Except.ok.injEq] at h; subst h
          rcases hi.2.2 with h | ⟨vs', h, h3⟩
          · cases h
          · simp only [Except.ok.injEq] at h; subst h
            rw [List.map_cons, h2, h3]

theorem classify_lit (o w g c v l d) : classify o w g c (.lit v l d) = (w, .ok (.lit v l d)) := rfl
theorem classify_none (o w g c) : classify o w g c .none = (w, .ok .none) := rfl

theorem val_term_none {v : Val} (h : ∀ k s, v ≠ .res k s) : v.term = .none → v = .none := by
  cases v with
  | none => intro; rfl
  | lit => intro h'; cases h'
  | res k s => exact absurd rfl (h k s)

/-! ### Stability of `classify` -/

theorem mem_pySet {α} [DecidableEq α] (l : List α) (x : α) : x ∈ pySet l ↔ x ∈ l := by
  induction l with
  | nil => rfl
  | cons a l ih =>
    simp only [pySet, List.mem_cons, List.mem_filter, ih, decide_eq_true_eq]
    by_cases h : x = a <;> simp [h]

theorem nodup_pySet {α} [DecidableEq α] (l : List α) : (pySet l).Nodup := by
  induction l with
  | nil => exact List.nodup_nil
  | cons a l ih =>
    simp only [pySet, List.nodup_cons, List.mem_filter, decide_eq_true_eq]
    exact ⟨fun h => h.2 rfl, ih.filter _⟩

/-- The types of a node, as the graph has them. -/
theorem mem_typesOf {o : Orders} (ho : o.OK) {g : Graph} (hg : g.Reach) {ty obj : Term} (h1 : ty.truthy = true) (h2 : obj.truthy = true)
    (t : Term) : t ∈ typesOf o g ty obj ↔ mkTriple obj ty t ∈ g.triples := by
  unfold typesOf
  rw [mem_pySet]
  exact mem_objectsOf ho hg h2 h1 t

theorem sameSet_iff (a b : List Term) : sameSet a b = true ↔ ∀ t, t ∈ a ↔ t ∈ b := by
  unfold sameSet
  simp only [Bool.and_eq_true, List.all_eq_true, List.contains_iff_mem]
  constructor
  · rintro ⟨h1, h2⟩ t; exact ⟨h1 t, h2 t⟩
  · intro h; exact ⟨fun t => (h t).1, fun t => (h t).2⟩

theorem sameSet_congr {a b b' : List Term} (h : ∀ t, t ∈ b ↔ t ∈ b') : sameSet a b = sameSet a b' := by
  rw [Bool.eq_iff_iff, sameSet_iff, sameSet_iff]
  simp only [h]

theorem lookupSet_congr (w : World) {a b : List Term} (h : ∀ t, t ∈ a ↔ t ∈ b) : w.lookupSet a = w.lookupSet b := by
  unfold World.lookupSet
  simp only [fun e : List Term × Nat => sameSet_congr (a := e.1) h]

theorem World.Ext.lookupSet {w w' : World} (h : w.Ext w') {ts : List Term} {k : Nat} (hk : w.lookupSet ts = some k) :
    w'.lookupSet ts = some k := by
  obtain ⟨bs, hb⟩ := h.sets
  unfold World.lookupSet at hk ⊢
  rw [hb, List.find?_append]
  cases hf : w.bySet.find? fun e => sameSet e.1 ts with
  | none => rw [hf] at hk; cases hk
  | some e => rw [hf] at hk; exact hk

/-- After `autoClass` succeeded the class is recorded under the type set. -/
theorem autoClass_cached {w : World} {types : List Term} {pcs : List Nat} {k : Nat} (h : (autoClass w types pcs).2 = .ok k) :
    (autoClass w types pcs).1.lookupSet types = some k := by
  rcases autoClass_cases w types pcs with ⟨k', hk, he⟩ | ⟨_, e, _, he⟩ | ⟨hn, m, hm, he⟩
  · rw [he] at h ⊢; cases h; exact hk
  · rw [he] at h; cases h
  · rw [he] at h ⊢; cases h
    unfold World.lookupSet at hn ⊢
    dsimp only
    rw [List.find?_append]
    cases hf : w.bySet.find? fun e => sameSet e.1 types with
    | some e => rw [hf] at hn; cases hn
    | none =>
      have : sameSet types types = true := (sameSet_iff _ _).2 fun _ => Iff.rfl
      simp [this]

theorem autoClass_of_cached {w : World} {types : List Term} {pcs : List Nat} {k : Nat} (h : w.lookupSet types = some k) :
    autoClass w types pcs = (w, .ok k) := by
  rcases autoClass_cases w types pcs with ⟨k', hk, he⟩ | ⟨hn, _⟩ | ⟨hn, _⟩
  · rw [h] at hk; cases hk; exact he
  · rw [h] at hn; cases hn
  · rw [h] at hn; cases hn

/-- Two graphs that give a node the same types, and two orders, lead to the same registered classes up to order. -/
theorem classesOf_perm {o o' : Orders} (ho : o.OK) (ho' : o'.OK) {w w' : World} (hb : w'.byType = w.byType) {g g' : Graph} {ty obj : Term}
    (h : ∀ t, t ∈ typesOf o g ty obj ↔ t ∈ typesOf o' g' ty obj) :
    (classesOf o w g ty obj).Perm (classesOf o' w' g' ty obj) := by
  unfold classesOf
  rw [hb]
  refine List.Perm.filterMap _ ?_
  refine (ho.terms _).trans (List.Perm.trans ?_ (ho'.terms _).symm)
  exact (List.perm_ext_iff_of_nodup (nodup_pySet _) (nodup_pySet _)).2 h

/-- Classifying a node again, later, in a graph that gives it the same types and with any iteration order, gives the same class. -/
theorem classifyNode_stable {o o' : Orders} (ho : o.OK) (ho' : o'.OK) {w w' : World} {g g' : Graph} {ty obj : Term} {v : Val}
    (hv : (classifyNode o w g ty obj).2 = .ok v) (hw : (classifyNode o w g ty obj).1.Ext w')
    (h : ∀ t, t ∈ typesOf o g ty obj ↔ t ∈ typesOf o' g' ty obj) :
    classifyNode o' w' g' ty obj = (w', .ok v) := by
  unfold classifyNode at hv hw
  revert hv hw
  split
  · next hn =>
    intro hv hw
    have hp := classesOf_perm ho ho' hw.byType h
    rw [hn, List.nil_perm] at hp
    cases hv
    unfold classifyNode; rw [hp]
  · next k hn =>
    intro hv hw
    have hp := classesOf_perm ho ho' hw.byType h
    rw [hn, List.singleton_perm] at hp
    cases hv
    unfold classifyNode; rw [← hp]
  · next hn1 hn2 =>
    generalize hq : autoClass w (typesOf o g ty obj) (classesOf o w g ty obj) = q
    obtain ⟨w1, e | k⟩ := q
    · intro hv; cases hv
    · intro hv hw
      dsimp only at hv hw
      cases hv
      have hb : w1.byType = w.byType := by
        have := (autoClass_ext w (typesOf o g ty obj) (classesOf o w g ty obj)).byType
        rw [hq] at this; exact this
      have hp := classesOf_perm ho ho' (hw.byType.trans hb) h
      have hk : w1.lookupSet (typesOf o g ty obj) = some k := by
        have := autoClass_cached (w := w) (types := typesOf o g ty obj) (pcs := classesOf o w g ty obj) (k := k) (by rw [hq])
        rw [hq] at this; exact this
      have hk' := hw.lookupSet hk
      rw [lookupSet_congr w' h] at hk'
      unfold classifyNode
      split
      · next hn => rw [hn, List.perm_nil] at hp; exact absurd hp hn1
      · next k hn => rw [hn, List.perm_singleton] at hp; exact absurd hp (hn2 k)
      · rw [autoClass_of_cached hk']

/-- The same for `classify`, called on any two classes that have the same meaning of `rdf:type`. -/
theorem classify_stable {o o' : Orders} (ho : o.OK) (ho' : o'.OK) {w w' : World} {g g' : Graph} (hg : g.Reach) (hg' : g'.Reach)
    {c c' : Nat} {obj ty : Term} {v : Val} (ht : rdfType w c = .ok ty) (ht' : rdfType w' c' = .ok ty) (h1 : ty.truthy = true)
    (h2 : obj.truthy = true)
    (hv : (classify o w g c obj).2 = .ok v) (hw : (classify o w g c obj).1.Ext w')
    (h : ∀ t, mkTriple obj ty t ∈ g.triples ↔ mkTriple obj ty t ∈ g'.triples) :
    classify o' w' g' c' obj = (w', .ok v) := by
  have h' : ∀ t, t ∈ typesOf o g ty obj ↔ t ∈ typesOf o' g' ty obj := fun t => by
    rw [mem_typesOf ho hg h1 h2, mem_typesOf ho' hg' h1 h2, h]
  unfold classify at hv hw ⊢
  cases obj with
  | none => cases h2
  | lit v l d => cases hv; rfl
  | named i => simp only [ht, ht'] at hv hw ⊢; exact classifyNode_stable ho ho' hv hw h'
  | bnode i => simp only [ht, ht'] at hv hw ⊢; exact classifyNode_stable ho ho' hv hw h'
  | gen i => simp only [ht, ht'] at hv hw ⊢; exact classifyNode_stable ho ho' hv hw h'

/-! ### Filtering by class -/

theorem isInst_ext {w w' : World} (h : w.Ext w') {k : Nat} {s : Term} (hk : k < w.classes.length) (rc : Nat) :
    (Val.res k s).isInst w' rc = (Val.res k s).isInst w rc := h.isSub hk rc

/-- After a successful filtering, every node of the list has a definite class, which decides whether it was kept. -/
theorem filterByType_stable {o : Orders} (ho : o.OK) {g : Graph} (hg : g.Reach) {c rc : Nat} {ty : Term} (h1 : ty.truthy = true)
    (xs : List Term) : ∀ {w w1 : World} (_ : w.Reach) (_ : c < w.classes.length) (_ : rdfType w c = .ok ty) {res : List Term}
    (_ : xs.Nodup) (_ : filterByType o g c rc w xs = (w1, .ok res)),
    ∀ x ∈ xs, x.isNode = true → x.truthy = true → ∃ v, (v.isInst w1 rc = true ↔ x ∈ res) ∧
      ∀ o' : Orders, o'.OK → ∀ (g' : Graph) (w' : World), g'.Reach → w1.Ext w' →
        (∀ t, mkTriple x ty t ∈ g.triples ↔ mkTriple x ty t ∈ g'.triples) → classify o' w' g' c x = (w', .ok v) := by
  induction xs with
  | nil => intro w w1 _ _ _ res _ _ x hx; cases hx
  | cons y ys ih =>
    intro w w1 wr hc ht res nd hf x hx hxn hxt
    obtain ⟨hy, nd'⟩ := List.nodup_cons.1 nd
    unfold filterByType at hf
    by_cases hyn : y.isNode = true
    · rw [if_pos hyn] at hf
      have hcs := classify_spec (o := o) wr g hc y
      cases hcy : classify o w g c y with
      | mk w0 rv =>
      rw [hcy] at hf hcs
      cases rv with
      | error e => dsimp only at hf; cases hf
      | ok v =>
        dsimp only at hf hcs
        have hc0 := Nat.lt_of_lt_of_le hc hcs.2.1.length
        have ht0 := (hcs.2.1.rdfType hc).trans ht
        have hfs := filterByType_spec (o := o) g rc ys hcs.1 hc0
        cases hfy : filterByType o g c rc w0 ys with
        | mk w2 rr =>
        rw [hfy] at hf hfs
        cases rr with
        | error e => dsimp only at hf; cases hf
        | ok r =>
          dsimp only at hf hfs
          simp only [Prod.mk.injEq, Except.ok.injEq] at hf
          obtain ⟨rfl, rfl⟩ := hf
          have hsub : ∀ z ∈ r, z ∈ ys := by
            rcases hfs.2.2 with h | ⟨r', h, h2, _⟩
            · cases h
            · cases h; exact fun z hz => h2.subset hz
          rcases List.mem_cons.1 hx with rfl | hx'
          · rcases hcs.2.2 with h | ⟨v', h, _, h3⟩
            · cases h
            · cases h
              obtain ⟨k, rfl, hk⟩ := h3 hyn
              refine ⟨.res k x, ?_, fun o' ho' g' w' hg' hw' hty => ?_⟩
              · rw [isInst_ext hfs.2.1 hk]
                cases hI : (Val.res k x).isInst w0 rc
                · simp only [Bool.false_eq_true, if_false, false_iff]
                  exact fun h => hy (hsub x h)
                · simp
              · refine classify_stable ho ho' hg hg' ht ?_ h1 hxt (by rw [hcy]) ?_ hty
                · rw [hw'.rdfType (Nat.lt_of_lt_of_le hc0 hfs.2.1.length), hfs.2.1.rdfType hc0]; exact ht0
                · rw [hcy]; exact hfs.2.1.trans hw'
          · obtain ⟨v', hv', hst⟩ := ih hcs.1 hc0 ht0 nd' hfy x hx' hxn hxt
            refine ⟨v', hv'.trans ?_, hst⟩
            have hxy : x ≠ y := by rintro rfl; exact hy hx'
            cases v.isInst w0 rc <;> simp [hxy]
    · rw [if_neg hyn] at hf
      rcases List.mem_cons.1 hx with rfl | hx
      · exact absurd hxn hyn
      · exact ih wr hc ht nd' hf x hx hxn hxt

theorem filterByType_none {o : Orders} {g : Graph} {c rc : Nat} {w : World} (xs : List Term)
    (h : ∀ x ∈ xs, x.isNode = true → ∃ v, classify o w g c x = (w, .ok v) ∧ v.isInst w rc = false) :
    filterByType o g c rc w xs = (w, .ok []) := by
  induction xs with
  | nil => rfl
  | cons x xs ih =>
    have hi := ih fun y hy => h y (by simp [hy])
    unfold filterByType
    split
    · next hx =>
      obtain ⟨v, h1, h2⟩ := h x (by simp) hx
      simp only [h1, hi, h2]; rfl
    · exact hi

end Verif
