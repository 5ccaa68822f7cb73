import Verif.Props.ResRead
import Verif.Props.TurtleRound
import Verif.Props.NTriples
import Verif.Props.ResList

/-!
# C132: a resource reads the same from a graph that has been saved and loaded

Writing a graph and reading the text gives a graph that is the same up to a choice of blank nodes (C37, C118). Here: the resource API cannot tell
the two apart.
-/

namespace Verif

open Spec Graph

namespace Spec

/-- `g'` is `g` with its blank nodes replaced one-to-one. -/
structure SameUpTo (ρ : Nat → Nat) (g g' : Graph) : Prop where
  inj : ∀ t ∈ g.triples, ∀ t' ∈ g.triples, ∀ i j, t.HasBnode i → t'.HasBnode j → ρ i = ρ j → i = j
  mem : ∀ x, x ∈ g'.triples ↔ ∃ t ∈ g.triples, x = t.rename ρ

end Spec

/-- A term that is no blank node, or one of the graph's. -/
def Graph.Knows (g : Graph) (x : Term) : Prop := ∀ i, x = .bnode i → ∃ t ∈ g.triples, t.HasBnode i

theorem rename_inj {ρ : Nat → Nat} {g g' : Graph} (h : SameUpTo ρ g g') {x y : Term} (hx : g.Knows x) (hy : g.Knows y)
    (e : x.rename ρ = y.rename ρ) : x = y := by
  by_cases hb : ∃ i, x = .bnode i
  · obtain ⟨i, rfl⟩ := hb
    cases y with
    | bnode j =>
      obtain ⟨t, ht, hi⟩ := hx i rfl
      obtain ⟨t', ht', hj⟩ := hy j rfl
      rw [h.inj t ht t' ht' i j hi hj (Term.bnode.inj e)]
    | _ => cases e
  · cases x with
    | bnode i => exact absurd ⟨i, rfl⟩ hb
    | _ => cases y <;> first | exact e | cases e

theorem knows_of_mem {g : Graph} {t : Stmt} (ht : t ∈ g.triples) : g.Knows t.s ∧ g.Knows t.p ∧ g.Knows t.o :=
  ⟨fun i h => ⟨t, ht, .inl h⟩, fun i h => ⟨t, ht, .inr (.inl h)⟩, fun i h => ⟨t, ht, .inr (.inr h)⟩⟩

theorem truthy_rename (ρ : Nat → Nat) (x : Term) : (x.rename ρ).truthy = x.truthy := by
  cases x <;> rfl

/-- The objects of a property, in the two graphs. -/
theorem objectsOf_rename {o o' : Orders} (ho : o.OK) (ho' : o'.OK) {ρ : Nat → Nat} {g g' : Graph} (hg : g.Reach) (hg' : g'.Reach)
    (h : SameUpTo ρ g g') {s p : Term} (hs : s.truthy = true) (hp : p.truthy = true) (ks : g.Knows s) (kp : ∀ i, p ≠ .bnode i) :
    (objectsOf o' g' (s.rename ρ) p).Perm ((objectsOf o g s p).map (Term.rename ρ)) := by
  have hs' : (s.rename ρ).truthy = true := by rw [truthy_rename]; exact hs
  have hp' : p.rename ρ = p := by cases p <;> first | rfl | exact absurd rfl (kp _)
  have kp' : g.Knows p := fun i e => absurd e (kp i)
  refine (List.perm_ext_iff_of_nodup (nodup_objectsOf ho' hg' hs' hp) ?_).2 fun x => ?_
  · refine (List.nodup_map_iff_inj_on (nodup_objectsOf ho hg hs hp)).2 fun x hx y hy e => ?_
    rw [mem_objectsOf ho hg hs hp] at hx hy
    exact rename_inj h (knows_of_mem hx).2.2 (knows_of_mem hy).2.2 e
  · rw [mem_objectsOf ho' hg' hs' hp, h.mem, List.mem_map]
    constructor
    · rintro ⟨t, ht, e⟩
      obtain ⟨a, b, c, d⟩ := t
      simp only [mkTriple, Stmt.rename, Stmt.mk.injEq] at e
      have k := knows_of_mem ht
      have e1 := rename_inj h ks k.1 e.1
      have e2 := rename_inj h kp' k.2.1 (hp'.trans e.2.1)
      have e4 : d = none := by cases d with | none => rfl | some d => simp at e
      subst e1 e2 e4
      exact ⟨c, (mem_objectsOf ho hg hs hp c).2 ht, e.2.2.1.symm⟩
    · rintro ⟨c, hc, rfl⟩
      rw [mem_objectsOf ho hg hs hp] at hc
      exact ⟨_, hc, by simp [mkTriple, Stmt.rename, hp']⟩

theorem isBare_rename (ρ : Nat → Nat) (x : Term) : (x.rename ρ).isBare = x.isBare := by cases x <;> rfl
theorem hasLang_rename (ρ : Nat → Nat) (l : Option PStr) (x : Term) : (x.rename ρ).hasLang l = x.hasLang l := by cases x <;> rfl
theorem hasDt_rename (ρ : Nat → Nat) (d : Option PStr) (x : Term) : (x.rename ρ).hasDt d = x.hasDt d := by cases x <;> rfl
theorem isNode_rename (ρ : Nat → Nat) (x : Term) : (x.rename ρ).isNode = x.isNode := by cases x <;> rfl

theorem filter_perm_map {ρ : Nat → Nat} {xs ys : List Term} (h : xs.Perm (ys.map (Term.rename ρ))) {f : Term → Bool}
    (hf : ∀ x, f (x.rename ρ) = f x) : (xs.filter f).Perm ((ys.filter f).map (Term.rename ρ)) := by
  refine (h.filter f).trans ?_
  rw [List.filter_map]
  have : f ∘ Term.rename ρ = f := funext hf
  rw [this]

/-- What a key without a class filter selects in the one graph corresponds to what it selects in the other. -/
theorem C132_selection {o o' : Orders} (ho : o.OK) (ho' : o'.OK) {w w' : World} (wr : w.Reach) (hext : w.Ext w') {ρ : Nat → Nat} {g g' : Graph} (hg : g.Reach) (hg' : g'.Reach)
    (h : SameUpTo ρ g g') {r : Res} (hc : r.c < w.classes.length) (hs : r.s.truthy = true) (ks : g.Knows r.s)
    {key : Key} (hf : ∀ k c, key ≠ .pair k (.cls c)) {p : PStr}
    (hk : resolveKey w r.c key.text = .ok (some p)) (hp : p ≠ []) :
    ∃ objs objs', objectsForKey o w g r key = (w, .ok (some p, objs)) ∧
      objectsForKey o' w' g' ⟨r.c, r.s.rename ρ⟩ key = (w', .ok (some p, objs')) ∧ objs'.Perm (objs.map (Term.rename ρ)) := by
  have hp' := predTerm_truthy hp
  have hall := objectsOf_rename ho ho' hg hg' h hs hp' ks (by simp [predTerm])
  have hnil : ∀ {xs ys : List Term}, xs.Perm (ys.map (Term.rename ρ)) → (xs = [] ↔ ys = []) := by
    intro xs ys hxy
    constructor
    · rintro rfl; simpa using hxy.nil_eq
    · rintro rfl; simpa using hxy
  have hbare : (bareLiterals o' g' (r.s.rename ρ) (predTerm (some p))).Perm ((bareLiterals o g r.s (predTerm (some p))).map (Term.rename ρ)) :=
    filter_perm_map hall (isBare_rename ρ)
  have hnode : (nodesOf o' g' (r.s.rename ρ) (predTerm (some p))).Perm ((nodesOf o g r.s (predTerm (some p))).map (Term.rename ρ)) :=
    filter_perm_map hall (isNode_rename ρ)
  have hlang : ∀ l, (objectsByLang o' g' (r.s.rename ρ) (predTerm (some p)) l).Perm
      ((objectsByLang o g r.s (predTerm (some p)) l).map (Term.rename ρ)) := by
    intro l; unfold objectsByLang; split
    · exact hbare
    · exact filter_perm_map hall (hasLang_rename ρ l)
  have hdt : ∀ d, (objectsByDatatype o' g' (r.s.rename ρ) (predTerm (some p)) d).Perm
      ((objectsByDatatype o g r.s (predTerm (some p)) d).map (Term.rename ρ)) := by
    intro d; unfold objectsByDatatype; split
    · exact hbare
    · exact filter_perm_map hall (hasDt_rename ρ d)
  have happ : ∀ {a b c d : List Term}, a.Perm (c.map (Term.rename ρ)) → b.Perm (d.map (Term.rename ρ)) → (a ++ b).Perm ((c ++ d).map (Term.rename ρ)) :=
    fun h1 h2 => by rw [List.map_append]; exact h1.append h2
  have hif : ∀ {a b c d : List Term} {P Q : Prop} [Decidable P] [Decidable Q], (P ↔ Q) → a.Perm (c.map (Term.rename ρ)) → b.Perm (d.map (Term.rename ρ)) →
      (if P then a else b).Perm ((if Q then c else d).map (Term.rename ρ)) := by
    intro a b c d P Q _ _ hpq h1 h2
    by_cases hP : P
    · rw [if_pos hP, if_pos (hpq.1 hP)]; exact h1
    · rw [if_neg hP, if_neg fun hq => hP (hpq.2 hq)]; exact h2
  have hlo : ∀ l sc im, (langObjects o' g' (r.s.rename ρ) (predTerm (some p)) l sc im).Perm
      ((langObjects o g r.s (predTerm (some p)) l sc im).map (Term.rename ρ)) := by
    intro l sc im
    unfold langObjects
    dsimp only
    have e1 := hlang l
    have e2 := happ e1 hnode
    have e3 := hif (hnil e2) (happ e2 (hdt none)) e2
    have e4 := hif (hnil e3) (happ e3 hbare) e3
    have e5 := hif (P := (im && sc && decide (objectsByLang o' g' (r.s.rename ρ) (predTerm (some p)) l = [])) = true)
      (Q := (im && sc && decide (objectsByLang o g r.s (predTerm (some p)) l = [])) = true) (by simp [hnil e1]) e4 e1
    exact hif Iff.rfl (happ e5 hnode) e5
  have hdo : ∀ d sc, (dtObjects o' g' (r.s.rename ρ) (predTerm (some p)) d sc).Perm
      ((dtObjects o g r.s (predTerm (some p)) d sc).map (Term.rename ρ)) := by
    intro d sc
    unfold dtObjects
    dsimp only
    exact hif Iff.rfl (happ (hdt d) hnode) (hdt d)
  have hik : interpretKey w' ⟨r.c, r.s.rename ρ⟩ key = interpretKey w r key := hext.interpret wr.wf (r := r) hc key
  have hsc : isScalar w' r.c (some p) = isScalar w r.c (some p) := hext.isScalar hc _
  unfold objectsForKey
  rw [hik]
  cases hi : interpretKey w r key with
  | error e =>
    unfold interpretKey at hi
    rw [hk] at hi
    cases key with
    | name k => cases hi
    | pair k f => cases f <;> cases hi
  | ok sel =>
    have hpred : sel.pred = some p := by
      have := interpretKey_pred hi
      rw [hk] at this
      exact (Except.ok.inj this).symm
    have hcls : sel.cls = none := by
      unfold interpretKey at hi
      rw [hk] at hi
      cases key with
      | name k => cases hi; rfl
      | pair k f =>
        cases f with
        | cls c => exact absurd rfl (hf k c)
        | _ => cases hi; rfl
    unfold objectsForSel
    dsimp only
    rw [hcls, hpred, hsc]
    by_cases h1 : sel.lang = none ∧ sel.dt = none
    · simp only [h1, and_self, if_true]
      exact ⟨_, _, rfl, rfl, hall⟩
    · simp only [and_true, if_neg h1]
      by_cases h2 : truthyStr sel.lang = true
      · simp only [if_pos h2]; exact ⟨_, _, rfl, rfl, hlo ..⟩
      · simp only [if_neg h2]
        by_cases h3 : truthyStr sel.dt = true
        · simp only [if_pos h3]; exact ⟨_, _, rfl, rfl, hdo ..⟩
        · simp only [if_neg h3]; exact ⟨_, _, rfl, rfl, hbare⟩

/-- A value, with its blank nodes replaced. -/
def Val.rename (ρ : Nat → Nat) : Val → Val
  | .res c s => .res c (s.rename ρ)
  | v => v

/-- Registered types are IRIs. -/
theorem World.Reach.byType_iri {w : World} (h : w.Reach) : ∀ t d, w.byType.get? t = some d → ∀ i, t ≠ .bnode i := by
  induction h with
  | new => intro t d hd; simp [World.new, Dict.get?] at hd
  | define _ _ _ hn ih =>
    obtain ⟨-, s, m, -, -, rfl⟩ := newClass_ok hn
    exact ih
  | @register w ty c _ _ ih =>
    unfold registerClass
    cases hr : resolveKey w c ty with
    | error e => exact ih
    | ok p =>
      intro t d hd
      have hd' : Dict.get? (Dict.set w.byType (predTerm p) c) t = some d := hd
      rw [Dict.get?_set] at hd'
      split at hd'
      · next e => subst e; cases p <;> simp [predTerm]
      · exact ih t d hd'
  | profile p t _ ih => exact ih
  | @auto w types pcs _ _ _ ih => rw [(autoClass_ext w types pcs).byType]; exact ih
  | setPrefix _ _ _ _ ih => exact ih
  | setLang _ _ _ ih => exact ih

/-- The types of a node, in the two graphs. -/
theorem mem_typesOf_rename {o o' : Orders} (ho : o.OK) (ho' : o'.OK) {ρ : Nat → Nat} {g g' : Graph} (hg : g.Reach) (hg' : g'.Reach)
    (h : SameUpTo ρ g g') {ty x : Term} (h1 : ty.truthy = true) (hb : ∀ i, ty ≠ .bnode i) (h2 : x.truthy = true) (kx : g.Knows x) (t : Term) :
    t ∈ typesOf o' g' ty (x.rename ρ) ↔ ∃ t0 ∈ typesOf o g ty x, t = t0.rename ρ := by
  unfold typesOf
  rw [mem_pySet]
  have := (objectsOf_rename ho ho' hg hg' h h2 h1 kx hb).mem_iff (a := t)
  unfold objectsOf at this
  rw [this, List.mem_map]
  simp only [mem_pySet]
  constructor
  · rintro ⟨a, ha, rfl⟩; exact ⟨a, ha, rfl⟩
  · rintro ⟨a, ha, rfl⟩; exact ⟨a, ha, rfl⟩

/-- Classifying the corresponding node of the other graph later gives the same class. -/
theorem classify_rename {o o' : Orders} (ho : o.OK) (ho' : o'.OK) {w w' : World} (wr : w.Reach) {ρ : Nat → Nat} {g g' : Graph} (hg : g.Reach)
    (hg' : g'.Reach) (h : SameUpTo ρ g g') {c : Nat} (hc : c < w.classes.length) {x ty : Term} (ht : rdfType w c = .ok ty) (kx : g.Knows x)
    (hiri : ∀ t, mkTriple x ty t ∈ g.triples → ∀ i, t ≠ .bnode i) {v : Val} (h2 : x.truthy = true ∨ x = .none)
    (hv : (classify o w g c x).2 = .ok v) (hw : (classify o w g c x).1.Ext w') : classify o' w' g' c (x.rename ρ) = (w', .ok (v.rename ρ)) := by
  rcases h2 with h2 | rfl
  swap
  · cases hv; rfl
  have hext : w.Ext w' := (classify_spec wr g hc x).2.1.trans hw
  obtain ⟨ns, hns, hty⟩ := rdfType_ok wr.wf hc
  rw [ht] at hty
  have hty := Except.ok.inj hty
  have h1 : ty.truthy = true := by rw [hty]; cases ns <;> rfl
  have hb : ∀ i, ty ≠ .bnode i := by rw [hty]; simp
  have ht' : rdfType w' c = .ok ty := by
    unfold rdfType at ht ⊢
    rw [hext.resolve hc]; exact ht
  have hmem : ∀ t, t ∈ typesOf o g ty x ↔ t ∈ typesOf o' g' ty (x.rename ρ) := by
    intro t
    rw [mem_typesOf_rename ho ho' hg hg' h h1 hb h2 kx]
    have hid : ∀ a ∈ typesOf o g ty x, a.rename ρ = a := by
      intro a ha
      have := hiri a ((mem_typesOf ho hg h1 h2 a).1 ha)
      cases a <;> first | rfl | exact absurd rfl (this _)
    constructor
    · intro ha; exact ⟨t, ha, (hid t ha).symm⟩
    · rintro ⟨a, ha, rfl⟩; rw [hid a ha]; exact ha
  have main : (classifyNode o w g ty x).2 = .ok v → (classifyNode o w g ty x).1.Ext w' →
      classifyNode o' w' g' ty (x.rename ρ) = (w', .ok (v.rename ρ)) := by
    intro hv hw
    unfold classifyNode at hv hw
    have hp : ∀ {wa : World}, wa.byType = w.byType → (classesOf o w g ty x).Perm (classesOf o' wa g' ty (x.rename ρ)) := by
      intro wa hwa
      unfold classesOf
      rw [hwa]
      refine List.Perm.filterMap _ ((ho.terms _).trans (List.Perm.trans ?_ (ho'.terms _).symm))
      exact (List.perm_ext_iff_of_nodup (nodup_pySet _) (nodup_pySet _)).2 hmem
    revert hv hw
    split
    · next hn =>
      intro hv hw
      have hp := hp hw.byType
      rw [hn, List.nil_perm] at hp
      cases hv
      unfold classifyNode; rw [hp]; rfl
    · next k hn =>
      intro hv hw
      have hp := hp hw.byType
      rw [hn, List.singleton_perm] at hp
      cases hv
      unfold classifyNode; rw [← hp]; rfl
    · next hn1 hn2 =>
      generalize hq : autoClass w (typesOf o g ty x) (classesOf o w g ty x) = q
      obtain ⟨w1, e | k⟩ := q
      · intro hv; cases hv
      · intro hv hw
        dsimp only at hv hw
        cases hv
        have hb : w1.byType = w.byType := by
          have := (autoClass_ext w (typesOf o g ty x) (classesOf o w g ty x)).byType
          rw [hq] at this; exact this
        have hp := hp (hw.byType.trans hb)
        have hk : w1.lookupSet (typesOf o g ty x) = some k := by
          have := autoClass_cached (w := w) (types := typesOf o g ty x) (pcs := classesOf o w g ty x) (k := k) (by rw [hq])
          rw [hq] at this; exact this
        have hk' := hw.lookupSet hk
        rw [lookupSet_congr w' hmem] at hk'
        unfold classifyNode
        split
        · next hn => rw [hn, List.perm_nil] at hp; exact absurd hp hn1
        · next k hn => rw [hn, List.perm_singleton] at hp; exact absurd hp (hn2 k)
        · rw [autoClass_of_cached hk']; rfl
  unfold classify at hv hw ⊢
  cases x with
  | none => cases h2
  | lit v l d => cases hv; rfl
  | named i => simp only [ht, ht', Term.rename] at hv hw ⊢; exact main hv hw
  | bnode i => simp only [ht, ht', Term.rename] at hv hw ⊢; exact main hv hw
  | gen i => simp only [ht, ht', Term.rename] at hv hw ⊢; exact main hv hw

/-- Reading a property in the one graph and, at any later time, in the other. -/
theorem C132_read {o o' : Orders} (ho : o.OK) (ho' : o'.OK) {w : World} (wr : w.Reach) {ρ : Nat → Nat} {g g' : Graph} (hg : g.Reach) (hg' : g'.Reach)
    (h : SameUpTo ρ g g') {r : Res} (hc : r.c < w.classes.length) (hs : r.s.truthy = true) (ks : g.Knows r.s)
    {key : Key} (hf : ∀ k c, key ≠ .pair k (.cls c)) {p : PStr} (hk : resolveKey w r.c key.text = .ok (some p)) (hp : p ≠ []) :
    -- `key in resource`
    (∀ w', w.Ext w' → (containsKey o' w' g' ⟨r.c, r.s.rename ρ⟩ key).2 = (containsKey o w g r key).2) ∧
    -- the one value of `resource.get_scalar(key)`
    (∀ v w' ty, rdfType w r.c = .ok ty → (∀ t, mkTriple v.term ty t ∈ g.triples → ∀ i, t ≠ .bnode i) → (v.term.truthy = true ∨ v = .none) →
      (getScalar o w g r key).2 = .ok v → (getScalar o w g r key).1.Ext w' →
      getScalar o' w' g' ⟨r.c, r.s.rename ρ⟩ key = (w', .ok (v.rename ρ))) ∧
    -- several values where one is expected
    (∀ w', w.Ext w' → w'.Reach → ((getScalar o' w' g' ⟨r.c, r.s.rename ρ⟩ key).2 = .error .valueError ↔ (getScalar o w g r key).2 = .error .valueError)) := by
  have hlen : ∀ {xs ys : List Term}, xs.Perm (ys.map (Term.rename ρ)) → xs.length = ys.length := fun hxy => by rw [hxy.length_eq, List.length_map]
  have hve : ∀ {wa : World} (_ : wa.Reach) (_ : r.c < wa.classes.length) (oa : Orders) (ga : Graph) (xs : List Term),
      (classifyOne oa wa ga r.c xs).2 = .error .valueError ↔ 2 ≤ xs.length := by
    intro wa hwa hca oa ga xs
    unfold classifyOne
    have key1 : ∀ x, (classify oa wa ga r.c x).2 ≠ .error .valueError := by
      intro x e
      rcases (classify_spec (o := oa) hwa ga hca x).2.2 with h | ⟨v, hv, -⟩
      · rw [h] at e; cases e
      · rw [hv] at e; cases e
    match xs with
    | [] => exact ⟨fun e => absurd e (key1 _), fun e => by simp at e⟩
    | [x] => exact ⟨fun e => absurd e (key1 _), fun e => by simp at e⟩
    | x :: y :: zs => exact ⟨fun _ => by simp, fun _ => rfl⟩
  refine ⟨fun w' hext => ?_, fun v w' ty ht hiri htv hv hw => ?_, fun w' hext wr' => ?_⟩
  · obtain ⟨objs, objs', e1, e2, hperm⟩ := C132_selection ho ho' wr hext hg hg' h hc hs ks hf hk hp
    unfold containsKey
    rw [e1, e2]
    have := hlen hperm
    have : objs' = [] ↔ objs = [] := by rw [← List.length_eq_zero_iff, ← List.length_eq_zero_iff, this]
    simp [this]
  · obtain ⟨objs, _, e1, -⟩ := C132_selection ho ho' wr (.refl w) hg hg' h hc hs ks hf hk hp
    unfold getScalar at hv hw
    rw [e1] at hv hw
    dsimp only at hv hw
    have hobj : ∀ x ∈ objs, g.Knows x := by
      intro x hx
      have := ((objectsForKey_spec (o := o) wr g hc key).2.2.1 _ _ (by rw [e1])).2.1 x hx
      exact (knows_of_mem ((mem_objectsOf ho hg hs (predTerm_truthy hp) x).1 this)).2.2
    have hext : w.Ext w' := by
      refine World.Ext.trans ?_ hw
      unfold classifyOne
      cases oneOrNone objs with
      | error e => exact .refl w
      | ok x => exact (classify_spec wr g hc _).2.1
    obtain ⟨objs1, objs', e3, e2, hperm⟩ := C132_selection ho ho' wr hext hg hg' h hc hs ks hf hk hp
    have : objs1 = objs := by rw [e1] at e3; cases e3; rfl
    subst this
    unfold getScalar
    rw [e2]
    dsimp only
    unfold classifyOne at hv hw ⊢
    match objs1, hobj, hperm, hv, hw with
    | [], _, hperm, hv, hw =>
      have : objs' = [] := by simpa using hperm
      subst this
      cases hv; rfl
    | [x], hobj, hperm, hv, hw =>
      have : objs' = [x.rename ρ] := by simpa using hperm
      subst this
      have hx : v.term = x := by
        rcases (classify_spec (o := o) wr g hc x).2.2 with h | ⟨v', hv', hx, -⟩
        · have hv : (classify o w g r.c x).2 = .ok v := hv
          rw [h] at hv; cases hv
        · have hv : (classify o w g r.c x).2 = .ok v := hv
          rw [hv'] at hv; cases hv; exact hx
      subst hx
      exact classify_rename ho ho' wr hg hg' h hc ht (hobj _ (by simp)) hiri (htv.imp id fun e => by rw [e]; rfl) hv hw
    | x :: y :: zs, _, _, hv, _ => cases hv
  · obtain ⟨objs, objs', e1, e2, hperm⟩ := C132_selection ho ho' wr hext hg hg' h hc hs ks hf hk hp
    unfold getScalar
    rw [e1, e2]
    dsimp only
    rw [hve wr hc, hve wr' (Nat.lt_of_lt_of_le hc hext.length), hlen hperm]

/-- All statements about a resource: `iter(resource)`. -/
theorem C132_iter {o o' : Orders} (ho : o.OK) (ho' : o'.OK) {ρ : Nat → Nat} {g g' : Graph} (hg : g.Reach) (hg' : g'.Reach)
    (h : SameUpTo ρ g g') {r : Res} (hs : r.s.truthy = true) (ks : g.Knows r.s) :
    (iterPairs o' g' ⟨r.c, r.s.rename ρ⟩).Perm ((iterPairs o g r).map fun x => (x.1.rename ρ, x.2.rename ρ)) := by
  have hs' : (r.s.rename ρ).truthy = true := by rw [truthy_rename]; exact hs
  have hm : (g'.match o'.stmts (r.s.rename ρ) .none .none).Perm ((g.match o.stmts r.s .none .none).map (Stmt.rename ρ)) := by
    have noneTruthy : Term.none.truthy = false := rfl
    have mem : ∀ t, t ∈ g.match o.stmts r.s .none .none ↔ t ∈ g.triples ∧ t.s = r.s := fun t => by
      rw [mem_match hg.inv ho.stmts]; simp only [hs, noneTruthy, true_implies, false_implies, Bool.false_eq_true, and_true]
    have mem' : ∀ t, t ∈ g'.match o'.stmts (r.s.rename ρ) .none .none ↔ t ∈ g'.triples ∧ t.s = r.s.rename ρ := fun t => by
      rw [mem_match hg'.inv ho'.stmts]; simp only [hs', noneTruthy, true_implies, false_implies, Bool.false_eq_true, and_true]
    refine (List.perm_ext_iff_of_nodup (nodup_match hg'.inv.toIxInv ho'.stmts ..) ?_).2 fun x => ?_
    · refine (List.nodup_map_iff_inj_on (nodup_match hg.inv.toIxInv ho.stmts ..)).2 fun x hx y hy e => ?_
      have kx := knows_of_mem ((mem x).1 hx).1
      have ky := knows_of_mem ((mem y).1 hy).1
      have gx : x.g = none := hg.inv.isTri x ((mem x).1 hx).1
      have gy : y.g = none := hg.inv.isTri y ((mem y).1 hy).1
      simp only [Stmt.rename, Stmt.mk.injEq] at e
      rw [eq_mkTriple gx, eq_mkTriple gy, mkTriple_inj]
      exact ⟨rename_inj h kx.1 ky.1 e.1, rename_inj h kx.2.1 ky.2.1 e.2.1, rename_inj h kx.2.2 ky.2.2 e.2.2.1⟩
    · rw [mem', h.mem, List.mem_map]
      constructor
      · rintro ⟨⟨t, ht, rfl⟩, e⟩
        exact ⟨t, (mem t).2 ⟨ht, rename_inj h (knows_of_mem ht).1 ks e⟩, rfl⟩
      · rintro ⟨t, ht, rfl⟩
        obtain ⟨ht, e⟩ := (mem t).1 ht
        exact ⟨⟨t, ht, rfl⟩, by rw [← e]; rfl⟩
  unfold iterPairs
  refine (hm.map _).trans ?_
  rw [List.map_map, List.map_map]
  exact List.Perm.refl _

/-- Adding triples to a reachable graph. -/
theorem Graph.Reach.addAll {g : Graph} (h : g.Reach) {ts : List Stmt} (ht : ∀ t ∈ ts, t.g = none) : (g.addAll ts).Reach := by
  unfold Graph.addAll
  induction ts generalizing g with
  | nil => exact h
  | cons t ts ih =>
    have e := eq_mkTriple (ht t (by simp))
    rw [List.foldl_cons]
    refine ih ?_ fun x hx => ht x (by simp [hx])
    rw [e]; exact h.add _ _ _

/-- Saving as N-Triples and loading. -/
theorem C132_ntriples {g : Graph} (hg : g.Reach) (ord : List Stmt → List Stmt) (hord : IsOrder ord)
    (h : ∀ t ∈ g.triples, t.IsRdf ∧ t.s.Plain ∧ t.p.Plain ∧ t.o.Plain) (next : Nat) :
    ∃ text g' next' ρ, serializeNTriples (g.iter ord) = (text, .ok ()) ∧ parseString Graph.add false next text Graph.new = (g', next', .ok ()) ∧
      g'.Reach ∧ SameUpTo ρ g g' := by
  obtain ⟨text, g', n', ρ, h1, h2, h3, h4⟩ := C37_roundtrip_partial g ord hord h next
  refine ⟨text, g', n', ρ, h1, h2, ?_, h3, h4⟩
  unfold parseString at h2
  cases hd : pDoc false text with
  | error e => rw [hd] at h2; cases h2
  | ok rs =>
    rw [hd] at h2
    simp only [Prod.mk.injEq, and_true] at h2
    have e : (Graph.new).addAll (BState.stmts { map := [], next := next } rs).2 = g' := h2.1
    rw [← e]
    refine Graph.Reach.addAll (.new _) fun t ht => ?_
    obtain ⟨t0, ht0, rfl⟩ := (h4 t).1 (by rw [← e, Graph.mem_addAll]; exact Or.inl ht)
    simp [Stmt.rename, (h t0 ht0).1.triple]

/-- Saving as Turtle and loading. -/
theorem C132_turtle {nl : PStr → Bool} {m : PrefixMap} {base : Option PStr} (hm : Turtle.SafeProfileAt nl m (base.getD [])) {namer : Turtle.Namer} (u : Term)
    (ops : List Verif.Spec.GOp) (hs : ∀ t ∈ Verif.Spec.runSet ops, Turtle.SafeTriAt nl m (base.getD []) namer t)
    (live : ∀ t ∈ everAdded ops, ∃ t' ∈ Verif.Spec.runSet ops, t'.s = t.s) {o : Orders} (ho : Orders.OK o)
    {w : World} (fuel : Nat) (hr : resolveKey w Turtle.listC (py! "rdf:rest") = .ok (some (Heap.rdfNs ++ py! "rest"))) (n : Nat) (u' : Term) :
    ∃ text g' n' ρ, Turtle.serializeTurtle o w fuel (Graph.run u ops) base (some m) namer = .ok text ∧
      Turtle.parse (fun g t => g.add t) nl [] n (Graph.new u') (.str text) = (g', n', .ok ()) ∧ g'.Reach ∧ SameUpTo ρ (Graph.run u ops) g' := by
  obtain ⟨text, h1, h2⟩ := Turtle.C118_round_trip_partial hm u ops hs live ho (w := w) fuel hr
  obtain ⟨g', n', ρ, h3, h4, h5⟩ := h2 n u'
  refine ⟨text, g', n', ρ, h1, h3, ?_, ?_, fun x => ?_⟩
  · rw [Turtle.parse] at h3
    cases hd : Turtle.parseText nl [] n text with
    | error e => rw [hd] at h3; cases h3
    | ok r =>
      rw [hd] at h3
      simp only [Prod.mk.injEq, and_true] at h3
      have e : (Graph.new u').addAll r.2 = g' := h3.1
      rw [← e]
      refine Graph.Reach.addAll (.new _) fun t ht => ?_
      have : g'.contains t = true := by
        rw [Graph.contains, decide_eq_true_eq, ← e, Graph.mem_addAll]; exact Or.inl ht
      obtain ⟨t0, -, rfl⟩ := (h5 t).1 this
      rfl
  · exact h4.inj
  · have := h5 x
    rw [Graph.contains, decide_eq_true_eq] at this
    rw [this]
    constructor
    · rintro ⟨t, ht, rfl⟩; exact ⟨_, ((Graph.rep_run u ops).mem _).2 ⟨t, ht, rfl⟩, rfl⟩
    · rintro ⟨t, ht, rfl⟩
      obtain ⟨t, ht', rfl⟩ := ((Graph.rep_run u ops).mem t).1 ht
      exact ⟨t, ht', rfl⟩

/-- C132 for N-Triples: whatever a resource says of a graph, the corresponding resource says of the graph read from the graph's text. -/
theorem C132_saved_loaded {g : Graph} (hg : g.Reach) (ord : List Stmt → List Stmt) (hord : IsOrder ord)
    (hplain : ∀ t ∈ g.triples, t.IsRdf ∧ t.s.Plain ∧ t.p.Plain ∧ t.o.Plain) (next : Nat) :
    ∃ text g' next' ρ, serializeNTriples (g.iter ord) = (text, .ok ()) ∧ parseString Graph.add false next text Graph.new = (g', next', .ok ()) ∧
      (∀ i j, (∃ t ∈ g.triples, t.HasBnode i) → (∃ t ∈ g.triples, t.HasBnode j) → ρ i = ρ j → i = j) ∧
      ∀ (o o' : Orders), o.OK → o'.OK → ∀ w : World, w.Reach → ∀ r : Res, r.c < w.classes.length → r.s.truthy = true → g.Knows r.s →
        (iterPairs o' g' ⟨r.c, r.s.rename ρ⟩).Perm ((iterPairs o g r).map fun x => (x.1.rename ρ, x.2.rename ρ)) ∧
        ∀ key, (∀ k c, key ≠ .pair k (.cls c)) → ∀ p, resolveKey w r.c key.text = .ok (some p) → p ≠ [] →
          (∀ w', w.Ext w' → (containsKey o' w' g' ⟨r.c, r.s.rename ρ⟩ key).2 = (containsKey o w g r key).2) ∧
          (∀ v w' ty, rdfType w r.c = .ok ty → (∀ t, mkTriple v.term ty t ∈ g.triples → ∀ i, t ≠ .bnode i) → (v.term.truthy = true ∨ v = .none) →
            (getScalar o w g r key).2 = .ok v → (getScalar o w g r key).1.Ext w' →
            getScalar o' w' g' ⟨r.c, r.s.rename ρ⟩ key = (w', .ok (v.rename ρ))) ∧
          ∀ w', w.Ext w' → w'.Reach → ((getScalar o' w' g' ⟨r.c, r.s.rename ρ⟩ key).2 = .error .valueError ↔ (getScalar o w g r key).2 = .error .valueError) := by
  obtain ⟨text, g', n', ρ, h1, h2, hg', h⟩ := C132_ntriples hg ord hord hplain next
  refine ⟨text, g', n', ρ, h1, h2, ?_, fun o o' ho ho' w wr r hc hs ks => ⟨C132_iter ho ho' hg hg' h hs ks, fun key hf p hk hp =>
    C132_read ho ho' wr hg hg' h hc hs ks hf hk hp⟩⟩
  rintro i j ⟨t, ht, hi⟩ ⟨t', ht', hj⟩ e
  exact h.inj t ht t' ht' i j hi hj e

/-! ### Lists -/

theorem objectsForKey_name {o : Orders} {w : World} {g : Graph} {r : Res} {k p : PStr} (hk : resolveKey w r.c k = .ok (some p)) :
    ∃ objs, objectsForKey o w g r (.name k) = (w, .ok (some p, objs)) := by
  have hi : interpretKey w r (.name k) = .ok { pred := some p, lang := if isScalar w r.c (some p) then w.lang r.c else none } := by
    unfold interpretKey
    have : resolveKey w r.c (Key.name k).text = .ok (some p) := hk
    rw [this]
  unfold objectsForKey
  rw [hi]
  generalize (if isScalar w r.c (some p) = true then w.lang r.c else none) = l
  unfold objectsForSel
  dsimp only
  by_cases h1 : l = none
  · simp only [h1, and_self, if_true]; exact ⟨_, rfl⟩
  · simp only [h1, false_and, if_false]
    by_cases h2 : truthyStr l = true
    · simp only [h2, if_true]; exact ⟨_, rfl⟩
    · simp only [h2, if_false, Bool.false_eq_true]; exact ⟨_, rfl⟩

theorem getOne_scalar {o : Orders} {w : World} {g : Graph} {r : Res} {k p : PStr} (hk : resolveKey w r.c k = .ok (some p)) (hsc : isScalar w r.c (some p) = true) :
    getOne o w g r (.name k) = getScalar o w g r (.name k) := by
  obtain ⟨objs, e⟩ := objectsForKey_name (o := o) (g := g) hk
  unfold getOne getItem getScalar
  rw [e]
  simp only [hsc, Bool.not_true, Key.isAll, Bool.false_or, Bool.false_eq_true, if_false]
  rcases classifyOne o w g r.c objs with ⟨w1, e | v⟩ <;> rfl

/-- No object is the empty IRI, and no type is a blank node. -/
structure Graph.Typed (g : Graph) (ty : Term) : Prop where
  objects : ∀ t ∈ g.triples, t.o.truthy = true
  types : ∀ t ∈ g.triples, t.p = ty → ∀ i, t.o ≠ .bnode i

section
variable {o o' : Orders} (ho : o.OK) (ho' : o'.OK) {ρ : Nat → Nat} {g g' : Graph} (hg : g.Reach) (hg' : g'.Reach) (h : SameUpTo ρ g g')
include ho ho' hg hg' h

/-- `current["rdf:first"]` and `current["rdf:rest"]` in the two graphs. -/
theorem getOne_rename {w w' : World} (wr : w.Reach) {r : Res} (hc : r.c < w.classes.length) (hs : r.s.truthy = true) (ks : g.Knows r.s) {k p : PStr}
    (hk : resolveKey w r.c k = .ok (some p)) (hp : p ≠ []) (hsc : isScalar w r.c (some p) = true) {ty : Term} (ht : rdfType w r.c = .ok ty) (hT : g.Typed ty)
    {v : Val} (hv : (getOne o w g r (.name k)).2 = .ok v) (hw : (getOne o w g r (.name k)).1.Ext w') :
    getOne o' w' g' ⟨r.c, r.s.rename ρ⟩ (.name k) = (w', .ok (v.rename ρ)) ∧ (v = .none ∨ mkTriple r.s (.named p) v.term ∈ g.triples) ∧
      w.Ext (getOne o w g r (.name k)).1 ∧ (getOne o w g r (.name k)).1.Reach := by
  rw [getOne_scalar hk hsc] at hv hw ⊢
  obtain ⟨objs, e⟩ := objectsForKey_name (o := o) (g := g) hk
  have hmem := ((objectsForKey_spec (o := o) wr g hc (.name k)).2.2.1 _ _ (by rw [e])).2.1
  have e' : getScalar o w g r (.name k) = classifyOne o w g r.c objs := by unfold getScalar; rw [e]
  have hst : (v = .none ∨ mkTriple r.s (.named p) v.term ∈ g.triples) ∧ w.Ext (getScalar o w g r (.name k)).1 ∧ (getScalar o w g r (.name k)).1.Reach := by
    rw [e'] at hv ⊢
    unfold classifyOne at hv ⊢
    match objs, hmem, hv with
    | [], _, hv => cases hv; exact ⟨Or.inl rfl, .refl w, wr⟩
    | [x], hmem, hv =>
      have hsp := classify_spec (o := o) wr g hc x
      refine ⟨Or.inr ?_, hsp.2.1, hsp.1⟩
      have hv : (classify o w g r.c x).2 = .ok v := hv
      rcases hsp.2.2 with h | ⟨v', hv', hx, -⟩
      · rw [h] at hv; cases hv
      · rw [hv'] at hv; cases hv
        rw [hx]
        exact (mem_objectsOf ho hg hs (predTerm_truthy hp) x).1 (hmem x (by simp))
    | _ :: _ :: _, _, hv => cases hv
  have hext : w.Ext w' := hst.2.1.trans hw
  have hc' : r.c < w'.classes.length := Nat.lt_of_lt_of_le hc hext.length
  have hk' : resolveKey w' r.c k = .ok (some p) := by rw [hext.resolve hc]; exact hk
  have hsc' : isScalar w' r.c (some p) = true := by rw [hext.isScalar hc]; exact hsc
  refine ⟨?_, hst⟩
  rw [getOne_scalar (r := ⟨r.c, r.s.rename ρ⟩) hk' hsc']
  refine (C132_read ho ho' wr hg hg' h hc hs ks (key := .name k) (by simp) hk hp).2.1 v w' ty ht (fun t htt => hT.types _ htt rfl) ?_ hv hw
  rcases hst.1 with h | h
  · exact Or.inr h
  · exact Or.inl (hT.objects _ h)

/-- The iterator over the corresponding list. -/
def LIter.rename (ρ : Nat → Nat) : LIter → LIter
  | .test r => .test ⟨r.c, r.s.rename ρ⟩
  | .yielded r => .yielded ⟨r.c, r.s.rename ρ⟩
  | .done => .done

def LYield.rename (ρ : Nat → Nat) : LYield → LYield
  | .item v => .item (v.rename ρ)
  | y => y

/-- An iterator within the graph: the current node occurs in it, and it has the class of the list unless it is the end. -/
def LIter.In (g : Graph) (c : Nat) (iNil : PStr) : LIter → Prop
  | .test r => r.s.truthy = true ∧ g.Knows r.s ∧ (r.s ≠ .named iNil → r.c = c)
  | .yielded r => r.s.truthy = true ∧ g.Knows r.s ∧ r.c = c
  | .done => True

omit ho ho' hg hg' h in
theorem rename_eq_named {x : Term} {i : PStr} : x.rename ρ = .named i ↔ x = .named i := by
  cases x <;> simp [Term.rename]

theorem listTest_rename {w w1 w' : World} (wr : w.Reach) {c : Nat} (hc : c < w.classes.length) {iF iR iN : PStr} (hL : ListClass w c iF iR iN)
    {ty : Term} (ht : rdfType w c = .ok ty) (hT : g.Typed ty) {r : Res} (hr : LIter.In g c iN (.test r)) {it1 : LIter} {y : LYield}
    (hn : listTest o w g c r = (w1, it1, y)) (hy : ∀ e, y ≠ .raise e) (hw : w1.Ext w') :
    listTest o' w' g' c ⟨r.c, r.s.rename ρ⟩ = (w', it1.rename ρ, y.rename ρ) ∧ w.Ext w1 ∧ w1.Reach ∧ it1.In g c iN := by
  obtain ⟨k, s⟩ := r
  obtain ⟨hs, ks, hk⟩ := hr
  unfold listTest at hn ⊢
  rw [hL.nil] at hn
  simp only [predTerm] at hn
  by_cases e : s = .named iN
  · simp only [e, if_true] at hn
    simp only [Prod.mk.injEq] at hn
    obtain ⟨rfl, rfl, rfl⟩ := hn
    rw [(hL.ext wr.wf hc hw).nil]
    simp only [predTerm, rename_eq_named, e, if_true]
    exact ⟨rfl, .refl w, wr, trivial⟩
  · simp only [e, if_false] at hn
    dsimp only at hs ks hk
    obtain rfl := hk e
    have G := fun v => getOne_rename ho ho' hg hg' h (w := w) (w' := w') wr (r := ⟨k, s⟩) hc hs ks hL.first hL.nfirst hL.sfirst ht hT (v := v)
    rcases hq : getOne o w g ⟨k, s⟩ (.name (py! "rdf:first")) with ⟨w2, ex | v⟩
    · rw [hq] at hn
      simp only [Prod.mk.injEq] at hn
      exact absurd hn.2.2.symm (hy ex)
    · rw [hq] at hn
      simp only [Prod.mk.injEq] at hn
      obtain ⟨rfl, rfl, rfl⟩ := hn
      rw [hq] at G
      have G := G _ rfl hw
      have hext := G.2.2.1.trans hw
      rw [(hL.ext wr.wf hc hext).nil]
      simp only [predTerm, rename_eq_named, e, if_false]
      rw [G.1]
      exact ⟨rfl, G.2.2.1, G.2.2.2, hs, ks, rfl⟩

theorem listNext_rename {w w1 w' : World} (wr : w.Reach) {c : Nat} (hc : c < w.classes.length) {iF iR iN : PStr} (hL : ListClass w c iF iR iN)
    {ty : Term} (ht : rdfType w c = .ok ty) (hT : g.Typed ty) {it it1 : LIter} (hr : it.In g c iN) {y : LYield}
    (hn : listNext o w g c it = (w1, it1, y)) (hy : ∀ e, y ≠ .raise e) (hw : w1.Ext w') :
    listNext o' w' g' c (it.rename ρ) = (w', it1.rename ρ, y.rename ρ) ∧ w.Ext w1 ∧ w1.Reach ∧ it1.In g c iN := by
  cases it with
  | done =>
    unfold listNext at hn
    simp only [Prod.mk.injEq] at hn
    obtain ⟨rfl, rfl, rfl⟩ := hn
    exact ⟨rfl, .refl w, wr, trivial⟩
  | test r => exact listTest_rename ho ho' hg hg' h wr hc hL ht hT hr hn hy hw
  | yielded r =>
    obtain ⟨k, s⟩ := r
    obtain ⟨hs, ks, hk⟩ := hr
    dsimp only at hs ks hk
    subst hk
    unfold listNext at hn
    dsimp only at hn
    have G := fun v => getOne_rename ho ho' hg hg' h (w := w) (w' := w') wr (r := ⟨k, s⟩) hc hs ks hL.rest hL.nrest hL.srest ht hT (v := v)
    have hX := fun v => getOne_rename ho ho' hg hg' h (w := w) (w' := (getOne o w g ⟨k, s⟩ (.name (py! "rdf:rest"))).1) wr (r := ⟨k, s⟩) hc hs ks hL.rest hL.nrest hL.srest ht hT (v := v)
    rcases hq : getOne o w g ⟨k, s⟩ (.name (py! "rdf:rest")) with ⟨w2, ex | v⟩
    · rw [hq] at hn
      simp only [Prod.mk.injEq] at hn
      exact absurd hn.2.2.symm (hy ex)
    · rw [hq] at hn G hX
      have hX := hX _ rfl (.refl _)
      cases v with
      | res k2 s2 =>
        dsimp only at hn hX
        have hL2 := hL.ext wr.wf hc hX.2.2.1
        have hc2 := Nat.lt_of_lt_of_le hc hX.2.2.1.length
        have ht2 : rdfType w2 k = .ok ty := by
          unfold rdfType at ht ⊢; rw [hX.2.2.1.resolve hc]; exact ht
        rw [hL2.nil] at hn
        dsimp only at hn
        have hm := hX.2.1.resolve_left (by simp)
        have T := listTest_rename ho ho' hg hg' h hX.2.2.2 hc2 hL2 ht2 hT (r := if s2 = predTerm (some iN) then ⟨k2, s2⟩ else ⟨k, s2⟩) (by
          split
          · next e => exact ⟨hT.objects _ hm, (knows_of_mem hm).2.2, fun h => absurd e h⟩
          · exact ⟨hT.objects _ hm, (knows_of_mem hm).2.2, fun _ => rfl⟩) hn hy hw
        have G := (G _ rfl (T.2.1.trans hw)).1
        refine ⟨?_, hX.2.2.1.trans T.2.1, T.2.2⟩
        rw [← T.1]
        unfold LIter.rename listNext
        dsimp only
        rw [G]
        dsimp only [Val.rename]
        rw [(hL2.ext hX.2.2.2.wf hc2 (T.2.1.trans hw)).nil]
        simp only [predTerm, rename_eq_named]
        by_cases e : s2 = .named iN <;> simp [e]
      | none =>
        simp only [Prod.mk.injEq] at hn
        exact absurd hn.2.2.symm (hy _)
      | lit a b d =>
        simp only [Prod.mk.injEq] at hn
        exact absurd hn.2.2.symm (hy _)

/-- C132, lists: the elements of a list are the corresponding elements, in the same order. -/
theorem C132_list (n : Nat) {w w' : World} (wr : w.Reach) {c : Nat} (hc : c < w.classes.length) {iF iR iN : PStr} (hL : ListClass w c iF iR iN)
    {ty : Term} (ht : rdfType w c = .ok ty) (hT : g.Typed ty) {it : LIter} (hi : it.In g c iN) {vs : List Val} {r : Option (Except Exc Unit)}
    (hn : (listTake o g c n w it).2 = (vs, r)) (hr : ∀ e, r ≠ some (.error e)) (hw : (listTake o g c n w it).1.Ext w') :
    listTake o' g' c n w' (it.rename ρ) = (w', vs.map (Val.rename ρ), r) ∧ w.Ext (listTake o g c n w it).1 := by
  induction n generalizing w it vs with
  | zero =>
    simp only [listTake, Prod.mk.injEq] at hn
    obtain ⟨rfl, rfl⟩ := hn
    exact ⟨rfl, .refl w⟩
  | succ n ih =>
    rcases hq : listNext o w g c it with ⟨w1, it1, y⟩
    rw [listTake, hq] at hn hw
    rw [listTake, listTake, hq]
    cases y with
    | stop =>
      simp only [Prod.mk.injEq] at hn
      obtain ⟨rfl, rfl⟩ := hn
      have N := listNext_rename ho ho' hg hg' h wr hc hL ht hT hi hq (by simp) hw
      rw [N.1]
      exact ⟨rfl, N.2.1⟩
    | raise e =>
      simp only [Prod.mk.injEq] at hn
      exact absurd hn.2.symm (hr e)
    | item v =>
      dsimp only at hn hw ⊢
      simp only [Prod.mk.injEq] at hn
      obtain ⟨rfl, rfl⟩ := hn
      have N0 := listNext_rename ho ho' hg hg' h (w' := w1) wr hc hL ht hT hi hq (by simp) (.refl _)
      have hc1 := Nat.lt_of_lt_of_le hc N0.2.1.length
      have ht1 : rdfType w1 c = .ok ty := by
        unfold rdfType at ht ⊢; rw [N0.2.1.resolve hc]; exact ht
      have I := ih N0.2.2.1 hc1 (hL.ext wr.wf hc N0.2.1) ht1 N0.2.2.2 rfl hw
      have N := listNext_rename ho ho' hg hg' h wr hc hL ht hT hi hq (by simp) (I.2.trans hw)
      rw [N.1]
      dsimp only [LYield.rename]
      rw [I.1]
      exact ⟨rfl, N.2.1.trans I.2⟩

end

/-! ### Concrete cases -/

/-- A blank node that knows another one, which has a name. -/
def friends (i j : Nat) : Graph :=
  ((Graph.new).add (mkTriple (.bnode i) (.named (py! "http://x/knows")) (.bnode j))).add
    (mkTriple (.bnode j) (.named (py! "http://x/name")) (.lit (py! "Ann") none none))

theorem friends_reach (i j : Nat) : (friends i j).Reach := ((Graph.Reach.new _).add _ _ _).add _ _ _

/-- The same with other blank nodes. -/
theorem friends_same : SameUpTo (· + 5) (friends 1 2) (friends 6 7) := by
  refine ⟨fun _ _ _ _ i j _ _ e => by simpa using e, fun x => ?_⟩
  have e1 : (friends 1 2).triples = [mkTriple (.bnode 1) (.named (py! "http://x/knows")) (.bnode 2),
    mkTriple (.bnode 2) (.named (py! "http://x/name")) (.lit (py! "Ann") none none)] := by decide
  have e2 : (friends 6 7).triples = [mkTriple (.bnode 6) (.named (py! "http://x/knows")) (.bnode 7),
    mkTriple (.bnode 7) (.named (py! "http://x/name")) (.lit (py! "Ann") none none)] := by decide
  rw [e1, e2]
  simp [Stmt.rename, Term.rename, mkTriple]

/-- A class world in which `x` is a prefix. -/
def xWorld : World := { World.new with gPrefixes := Dict.set World.new.gPrefixes (py! "x") (py! "http://x/") }

/-- The hypotheses are met: a friend is read as the corresponding friend. -/
example : getScalar {} xWorld (friends 6 7) ⟨0, .bnode 6⟩ (.name (py! "x:knows")) = (xWorld, .ok (.res 0 (.bnode 7))) := by
  have hr : xWorld.Reach := .profile _ _ .new
  refine (C132_read Orders.OK.default Orders.OK.default hr (friends_reach 1 2) (friends_reach 6 7) friends_same (r := ⟨0, .bnode 1⟩) (by decide) rfl
    (fun i e => ⟨mkTriple (.bnode 1) (.named (py! "http://x/knows")) (.bnode 2), by decide, Or.inl e⟩) (key := .name (py! "x:knows")) (by simp) (p := py! "http://x/knows") (by decide) (by decide)).2.1
    (.res 0 (.bnode 2)) xWorld _ (rdfType_ok hr.wf (by decide)).choose_spec.2 ?_ (Or.inl rfl) (by decide) ?_
  · intro t ht
    simp only [friends, Graph.mem_add, Graph.new, List.not_mem_nil, or_false, mkTriple_inj, Val.term] at ht
    intro i
    rcases ht with ⟨-, -, rfl⟩ | ⟨h, -⟩
    · simp
    · cases h
  · have : (getScalar {} xWorld (friends 1 2) ⟨0, .bnode 1⟩ (.name (py! "x:knows"))).1 = xWorld := by decide
    rw [this]; exact .refl _

/-- A list of a blank node and a literal. -/
def pair (i j k : Nat) : Graph :=
  ((((Graph.new).add (mkTriple (.bnode i) (.named (Heap.rdfNs ++ py! "first")) (.bnode k))).add
    (mkTriple (.bnode i) (.named (Heap.rdfNs ++ py! "rest")) (.bnode j))).add
    (mkTriple (.bnode j) (.named (Heap.rdfNs ++ py! "first")) (.lit (py! "a") none none))).add
    (mkTriple (.bnode j) (.named (Heap.rdfNs ++ py! "rest")) (.named (Heap.rdfNs ++ py! "nil")))

theorem pair_reach (i j k : Nat) : (pair i j k).Reach := ((((Graph.Reach.new _).add _ _ _).add _ _ _).add _ _ _).add _ _ _

theorem pair_same : SameUpTo (· + 5) (pair 1 2 3) (pair 6 7 8) := by
  refine ⟨fun _ _ _ _ i j _ _ e => by simpa using e, fun x => ?_⟩
  simp only [pair, Graph.mem_add, Graph.new, List.not_mem_nil, or_false]
  constructor
  · rintro (rfl | rfl | rfl | rfl)
    · exact ⟨_, Or.inl rfl, rfl⟩
    · exact ⟨_, Or.inr (Or.inl rfl), rfl⟩
    · exact ⟨_, Or.inr (Or.inr (Or.inl rfl)), rfl⟩
    · exact ⟨_, Or.inr (Or.inr (Or.inr rfl)), rfl⟩
  · rintro ⟨t, (rfl | rfl | rfl | rfl), rfl⟩ <;> simp [Stmt.rename, Term.rename, mkTriple]

/-- The hypotheses are met: the elements of the list are the corresponding ones. -/
example : (listTake {} (pair 6 7 8) 1 3 World.new (.test ⟨1, .bnode 6⟩)).2 = ([.res 0 (.bnode 8), .lit (py! "a") none none], some (.ok ())) := by
  have hw : (listTake {} (pair 1 2 3) 1 3 World.new (.test ⟨1, .bnode 1⟩)).1 = World.new := by decide
  have := (C132_list Orders.OK.default Orders.OK.default (pair_reach 1 2 3) (pair_reach 6 7 8) pair_same 3 .new (c := 1) (w' := World.new) (by decide)
    (iF := Heap.rdfNs ++ py! "first") (iR := Heap.rdfNs ++ py! "rest") (iN := Heap.rdfNs ++ py! "nil")
    ⟨by decide, by decide, by decide, by decide, by decide, by decide, by decide, by decide⟩ (ty := .named (Heap.rdfNs ++ py! "type")) (by decide)
    ⟨by decide, fun t ht hp => absurd hp ((by decide : ∀ t ∈ (pair 1 2 3).triples, t.p ≠ .named (Heap.rdfNs ++ py! "type")) t ht)⟩ (it := .test ⟨1, .bnode 1⟩) ⟨rfl, fun i e => ⟨_, (by decide : mkTriple (.bnode 1) (.named (Heap.rdfNs ++ py! "first")) (.bnode 3) ∈ (pair 1 2 3).triples), Or.inl e⟩, fun _ => rfl⟩
    (vs := [.res 0 (.bnode 3), .lit (py! "a") none none]) (r := some (.ok ())) (by decide) (by simp) (by rw [hw]; exact .refl _)).1
  exact congrArg Prod.snd this

end Verif
