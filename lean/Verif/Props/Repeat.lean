import Verif.Props.Independent
import Verif.Props.ResRead
/-
Repeating an assignment (C134), and what is left after a deletion (C135).
-/
namespace Verif
open Spec Graph

/-! ### C134 -/

/-- The value is not a literal that has both a language and a datatype. -/
def Spec.OneTag (u : PyVal) : Prop := ∀ v l d c, u ≠ .lit v (some l) (some d) ∧ u ≠ .res c (.lit v (some l) (some d))

def TagClean (t : Term) : Prop := ∀ v l d, t ≠ .lit v (some l) (some d)

theorem storedTerm_clean {lang dt : Option PStr} (h : lang = none ∨ dt = none) {u : PyVal} (hu : OneTag u) {t : Term}
    (ht : storedTerm lang dt u = some t) : TagClean t := by
  intro v l d e
  subst e
  cases u with
  | iri s => cases ht
  | bnode i => cases ht
  | lit v' l' d' => cases ht; exact (hu v l d 0).1 rfl
  | res c s => cases ht; exact (hu v l d c).2 rfl
  | str s =>
    simp only [storedTerm, Option.some.injEq, Term.lit.injEq] at ht
    rcases h with rfl | rfl
    · cases ht.2.1
    · cases ht.2.2
  | other a => cases a <;> simp [storedTerm] at ht

/-- An assignment without a class filter: whether it fails the checks does not depend on the graph, and what it removes is chosen by tests
    that are independent of the graph and exclude each other. -/
theorem removalList_filters (o : Orders) (w : World) (r : Res) (key : Key) (sel : Sel) (hc : sel.cls = none) (x : LVal) :
    (∃ e, ∀ g, removalList o w g r key sel x = (w, .error e)) ∨
    ∃ Fs : List (Term → Bool), (Fs.Pairwise fun F G => ∀ t, TagClean t → F t = true → G t = true → False) ∧
      ∀ g, removalList o w g r key sel x = (w, .ok (Fs.flatMap fun F => (objectsOf o g r.s (predTerm sel.pred)).filter F)) := by
  have lang_dt : ∀ (l : Option PStr), truthyStr l = true → ∀ d t, TagClean t → Term.hasLang l t = true → Term.hasDt d t = true → False := by
    intro l hl d t ht h1 h2
    cases t with
    | lit v l' d' =>
      cases l with
      | none => cases hl
      | some l =>
        cases l' with
        | none => simp [Term.hasLang, langMatch] at h1
        | some l' =>
          cases d' with
          | none => cases d <;> simp [Term.hasDt] at h2
          | some d' => exact ht v l' d' rfl
    | _ => simp [Term.hasLang] at h1
  have lang_node : ∀ l t, Term.hasLang l t = true → Term.isNode t = true → False := by
    intro l t h1 h2; cases t <;> simp [Term.hasLang, Term.isNode] at h1 h2
  have dt_node : ∀ d t, Term.hasDt d t = true → Term.isNode t = true → False := by
    intro l t h1 h2; cases t <;> simp [Term.hasDt, Term.isNode] at h1 h2
  have lang_bare : ∀ l, truthyStr l = true → ∀ t, Term.hasLang l t = true → Term.isBare t = true → False := by
    intro l hl t h1 h2
    cases t with
    | lit v l' d' =>
      cases l with
      | none => cases hl
      | some l =>
        cases l' with
        | none => simp [Term.hasLang, langMatch] at h1
        | some l' => simp [Term.isBare] at h2
    | _ => simp [Term.hasLang] at h1
  have dt_bare : ∀ t, Term.hasDt none t = true → Term.isBare t = true → False := by
    intro t h1 h2
    cases t with
    | lit v l' d' =>
      cases d' with
      | none => simp [Term.hasDt] at h1
      | some d' => simp [Term.isBare] at h2
    | _ => simp [Term.hasDt] at h1
  have node_bare : ∀ t, Term.isNode t = true → Term.isBare t = true → False := by
    intro t h1 h2; cases t <;> simp [Term.isBare, Term.isNode] at h1 h2
  have all : ∀ (g : Graph) (p : Term), objectsOf o g r.s p = [fun _ : Term => true].flatMap fun F => (objectsOf o g r.s p).filter F := by
    intro g p; simp
  have byLang : ∀ (g : Graph) (p : Term) l, truthyStr l = true → objectsByLang o g r.s p l = (objectsOf o g r.s p).filter (Term.hasLang l) := by
    intro g p l hl
    unfold objectsByLang
    rw [if_neg]; rintro rfl; cases hl
  have byDt : ∀ (g : Graph) (p : Term) d, truthyStr d = true → objectsByDatatype o g r.s p d = (objectsOf o g r.s p).filter (Term.hasDt d) := by
    intro g p l hl
    unfold objectsByDatatype
    rw [if_neg]; rintro rfl; cases hl
  have byDt0 : ∀ (g : Graph) (p : Term), objectsByDatatype o g r.s p none = (objectsOf o g r.s p).filter (Term.hasDt none) := by
    intro g p; unfold objectsByDatatype; rw [if_neg (by simp)]
  unfold removalList
  by_cases ht : key.isTuple = true
  · simp only [ht, if_true]
    unfold objectsForExplicitSet
    rw [hc]
    dsimp only
    rcases checkObjects o w sel.lang sel.dt none x with e | b
    · exact Or.inl ⟨e, fun g => rfl⟩
    · cases b with
      | false => exact Or.inl ⟨_, fun g => rfl⟩
      | true =>
        dsimp only
        by_cases h1 : (truthyStr sel.lang && isScalar w r.c sel.pred) = true
        · simp only [h1, if_true]
          have hl := (Bool.and_eq_true_iff.1 h1).1
          refine Or.inr ⟨[Term.hasLang sel.lang, Term.hasDt none, Term.isNode], ?_, fun g => ?_⟩
          · simp only [List.pairwise_cons, List.mem_cons, List.not_mem_nil, or_false, forall_eq_or_imp, forall_eq, List.Pairwise.nil, and_true,
              false_imp_iff, implies_true]
            exact ⟨⟨lang_dt _ hl _, fun t _ => lang_node _ t⟩, fun t _ => dt_node _ t⟩
          · rw [byLang _ _ _ hl, byDt0]; simp [nodesOf]
        · simp only [h1, if_false, Bool.false_eq_true]
          by_cases h2 : truthyStr sel.lang = true
          · simp only [h2, if_true]
            refine Or.inr ⟨[Term.hasLang sel.lang, Term.isNode], ?_, fun g => ?_⟩
            · simp only [List.pairwise_cons, List.mem_cons, List.not_mem_nil, or_false, forall_eq, List.Pairwise.nil, and_true,
                false_imp_iff, implies_true]
              exact fun t _ => lang_node _ t
            · rw [byLang _ _ _ h2]; simp [nodesOf]
          · simp only [h2, if_false, Bool.false_eq_true]
            by_cases h3 : isScalar w r.c sel.pred = true
            · simp only [h3, if_true]
              exact Or.inr ⟨[fun _ => true], by simp, fun g => by rw [← all]⟩
            · simp only [h3, if_false, Bool.false_eq_true]
              by_cases h4 : truthyStr sel.dt = true
              · simp only [h4, if_true]
                refine Or.inr ⟨[Term.hasDt sel.dt, Term.isNode], ?_, fun g => ?_⟩
                · simp only [List.pairwise_cons, List.mem_cons, List.not_mem_nil, or_false, forall_eq, List.Pairwise.nil, and_true,
                    false_imp_iff, implies_true]
                  exact fun t _ => dt_node _ t
                · rw [byDt _ _ _ h4]; simp [nodesOf]
              · simp only [h4, if_false, Bool.false_eq_true]
                exact Or.inl ⟨_, fun g => rfl⟩
  · simp only [ht, if_false, Bool.false_eq_true]
    unfold objectsForImplicitSet
    dsimp only
    split
    · exact Or.inl ⟨_, fun g => rfl⟩
    · next l ls _ _ =>
      refine Or.inr ⟨[Term.hasLang (some (l :: ls)), Term.hasDt none, Term.isNode, Term.isBare], ?_, fun g => ?_⟩
      · simp only [List.pairwise_cons, List.mem_cons, List.not_mem_nil, or_false, forall_eq_or_imp, forall_eq, List.Pairwise.nil, and_true,
          false_imp_iff, implies_true]
        exact ⟨⟨lang_dt _ rfl _, fun t _ => lang_node _ t, fun t _ => lang_bare _ rfl t⟩, ⟨fun t _ => dt_node _ t, fun t _ => dt_bare t⟩,
          fun t _ => node_bare t⟩
      · rw [byLang _ _ _ rfl, byDt0]; simp [nodesOf, bareLiterals]
    · exact Or.inr ⟨[fun _ => true], by simp, fun g => by rw [← all]⟩

theorem interpretKey_tags {w : World} {r : Res} {key : Key} {sel : Sel} (h : interpretKey w r key = .ok sel) : sel.lang = none ∨ sel.dt = none := by
  unfold interpretKey at h
  split at h
  · cases h
  · split at h <;> (rw [← Except.ok.inj h]; simp)

theorem interpretKey_cls {w : World} {r : Res} {key : Key} {sel : Sel} (h : interpretKey w r key = .ok sel) (hf : ∀ k c, key ≠ .pair k (.cls c)) :
    sel.cls = none := by
  unfold interpretKey at h
  split at h
  · cases h
  · split at h <;> first | exact absurd rfl (hf _ _) | (rw [← Except.ok.inj h])

/-- Assigning the same again: if `r[key] = value` succeeded, doing it again succeeds and leaves the same triples. -/
theorem C134_repeat {o : Orders} (ho : o.OK) {w : World} (wr : w.Reach) {g : Graph} (hg : g.Reach) {r : Res} {key : Key} {value : SetVal} {p : PStr}
    (ha : (Edit.set r key value).At w p) (ht : ∀ u ∈ values value, OneTag u) (h : (setItem o w g r key value).2.2 = .ok ()) :
    setItem o w (setItem o w g r key value).2.1 r key value = (w, (setItem o w (setItem o w g r key value).2.1 r key value).2.1, .ok ()) ∧
    ∀ t, t ∈ (setItem o w (setItem o w g r key value).2.1 r key value).2.1.triples ↔ t ∈ (setItem o w g r key value).2.1.triples := by
  have hs : r.s.truthy = true := ha.subject
  have hfr := Edit.run_frame ho hg wr ha
  simp only [Edit.run] at hfr
  obtain ⟨hR, hF⟩ := hfr
  have hfr2 := Edit.run_frame ho hR wr ha
  simp only [Edit.run] at hfr2
  obtain ⟨hR2, hF2⟩ := hfr2
  have hw2 := (Edit.run_same ho hR hR hs ha.ne (fun _ => Iff.rfl) wr rfl ha).1
  simp only [Edit.run] at hw2
  -- the first assignment
  cases hk : interpretKey w r key with
  | error x => unfold setItem at h; rw [hk] at h; cases h
  | ok sel =>
    have hcls := interpretKey_cls hk ha.filter
    have htag := interpretKey_tags hk
    have hpred : sel.pred = some p := by
      have h1 := interpretKey_pred hk
      have h2 : resolveKey w r.c key.text = .ok (some p) := ha.name
      rw [h1] at h2; exact Except.ok.inj h2
    have hp' : (predTerm sel.pred).truthy = true := by rw [hpred]; exact predTerm_truthy ha.ne
    obtain ⟨l1, l2⟩ := literalize_plain (o := o) wr g (setItem o w g r key value).2.1 sel.lang sel.dt value ha.values
    cases hv : (literalize o w g sel.lang sel.dt value).2 with
    | error x =>
      have hl : literalize o w g sel.lang sel.dt value = (w, .error x) := Prod.ext l2 hv
      unfold setItem at h; rw [hk] at h; simp only [hl] at h; cases h
    | ok v =>
      have hl : literalize o w g sel.lang sel.dt value = (w, .ok v) := Prod.ext l2 hv
      rcases removalList_filters o w r key sel hcls v with ⟨x, hx⟩ | ⟨Fs, hd, hx⟩
      · have := hx g
        unfold removalList at this
        unfold setItem at h; rw [hk] at h; simp only [hl, this] at h; cases h
      · have nd1 : (Fs.flatMap fun F => (objectsOf o g r.s (predTerm sel.pred)).filter F).Nodup := by
          have := hx g
          unfold removalList at this
          unfold setItem at h; rw [hk] at h; simp only [hl, this] at h
          have hi := removeObjs_iff hg r.s (predTerm sel.pred) (Fs.flatMap fun F => (objectsOf o g r.s (predTerm sel.pred)).filter F)
          rcases hm : removeObjs r.s (predTerm sel.pred) g (Fs.flatMap fun F => (objectsOf o g r.s (predTerm sel.pred)).filter F) with ⟨g1, a | a⟩
          · rw [hm] at h; cases h
          · rw [hm] at hi; exact (hi.1.1 rfl).1
        have sub : ∀ (g : Graph), ∀ x ∈ Fs.flatMap (fun F => (objectsOf o g r.s (predTerm sel.pred)).filter F), x ∈ objectsOf o g r.s (predTerm sel.pred) := by
          intro g x hx
          obtain ⟨F, _, hF⟩ := List.mem_flatMap.1 hx
          exact (List.mem_filter.1 hF).1
        have first := setItem_ok ho wr hg hs hk hp' hv (by rw [hl]; exact congrArg Prod.snd (hx g)) nd1 (sub g)
        -- after it, what the tests choose is among the values
        have hl2 : literalize o w (setItem o w g r key value).2.1 sel.lang sel.dt value = (w, .ok v) := by rw [← l1]; exact hl
        generalize hg' : (setItem o w g r key value).2.1 = g' at *
        have chosen : ∀ x ∈ objectsOf o g' r.s (predTerm sel.pred), ∀ F ∈ Fs, F x = true → ∃ u ∈ values value, storedTerm sel.lang sel.dt u = some x := by
          intro x hxo F hF hFx
          rcases (first.2.2 x).1 ((mem_objectsOf ho hR hs hp' x).1 hxo) with hu | ⟨h1, h2⟩
          · exact hu
          · exact absurd (List.mem_flatMap.2 ⟨F, hF, List.mem_filter.2 ⟨(mem_objectsOf ho hg hs hp' x).2 h1, hFx⟩⟩) h2
        have nd2 : (Fs.flatMap fun F => (objectsOf o g' r.s (predTerm sel.pred)).filter F).Nodup := by
          rw [List.nodup_flatMap]
          refine ⟨fun F _ => (nodup_objectsOf ho hR hs hp').filter _, ?_⟩
          refine List.Pairwise.imp_of_mem ?_ hd
          intro F G hF hG hFG
          rw [Function.onFun, List.disjoint_left]
          intro x h1 h2
          have h1' := List.mem_filter.1 h1
          obtain ⟨u, hu, hst⟩ := chosen x h1'.1 F hF h1'.2
          exact hFG x (storedTerm_clean htag (ht u hu) hst) h1'.2 (List.mem_filter.1 h2).2
        have second := setItem_ok ho wr hR hs hk hp' (v := v) (by rw [hl2]) (by rw [hl2]; exact congrArg Prod.snd (hx g')) nd2 (sub g')
        refine ⟨Prod.ext hw2 (Prod.ext rfl second.1), fun t => ?_⟩
        by_cases htt : t.s = r.s ∧ t.p = .named p
        · have hmk : t.g = none → t = mkTriple r.s (predTerm sel.pred) t.o := by
            rw [hpred]
            obtain ⟨a, b, c, d⟩ := t
            obtain ⟨rfl, rfl⟩ := htt
            rintro rfl; rfl
          have key : t = mkTriple r.s (predTerm sel.pred) t.o →
              (t ∈ (setItem o w g' r key value).2.1.triples ↔ t ∈ g'.triples) := by
            intro e
            rw [e, second.2.2]
            constructor
            · rintro (hu | hu)
              · exact (first.2.2 _).2 (Or.inl hu)
              · exact hu.1
            · intro hm
              by_cases hin : t.o ∈ Fs.flatMap fun F => (objectsOf o g' r.s (predTerm sel.pred)).filter F
              · obtain ⟨F, hF, hm⟩ := List.mem_flatMap.1 hin
                have hm' := List.mem_filter.1 hm
                exact Or.inl (chosen _ hm'.1 F hF hm'.2)
              · exact Or.inr ⟨hm, hin⟩
          by_cases hgn : t.g = none
          · exact key (hmk hgn)
          · exact iff_of_false (fun hm => hgn (hR2.inv.isTri _ hm)) (fun hm => hgn (hR.inv.isTri _ hm))
        · refine hF2 t ?_
          by_cases h1 : t.s = r.s
          · exact Or.inr fun h2 => htt ⟨h1, h2⟩
          · exact Or.inl h1

/-- A literal with both a language and a datatype is chosen twice for removal, so assigning it again raises KeyError: the condition on the
    literals is needed. -/
theorem C134_two_tags :
    let v : SetVal := .one (.lit (py! "a") (some (py! "en")) (some (py! "http://t")))
    (setItem {} World.new (Graph.new .none) ⟨0, .named (py! "http://x")⟩ (.name (py! "rdfs:label")) v).2.2 = .ok () ∧
    (setItem {} World.new (setItem {} World.new (Graph.new .none) ⟨0, .named (py! "http://x")⟩ (.name (py! "rdfs:label")) v).2.1
      ⟨0, .named (py! "http://x")⟩ (.name (py! "rdfs:label")) v).2.2 = .error .keyError := by decide

example : (Edit.set ⟨0, .named (py! "http://x")⟩ (.name (py! "rdfs:label")) (.one (.str (py! "uno")))).At World.new (rdfsNs ++ py! "label") ∧
    (∀ u ∈ values (.one (.str (py! "uno"))), OneTag u) ∧
    (setItem {} World.new sample ⟨0, .named (py! "http://x")⟩ (.name (py! "rdfs:label")) (.one (.str (py! "uno")))).2.2 = .ok () := by
  refine ⟨⟨by decide, by decide, by decide, by decide, fun k c => (by intro h; cases h), fun _ _ => Or.inl rfl⟩, ?_, by decide⟩
  intro u hu v l d c
  simp only [values, List.mem_singleton] at hu
  subst hu
  exact ⟨fun h => (by cases h), fun h => (by cases h)⟩

/-! ### C135 -/

/-- The property: after `del r[key]` the key is not in the resource. -/
def C135_statement : Prop :=
  ∀ (o : Orders), o.OK → ∀ (w : World), w.Reach → ∀ (g : Graph), g.Reach → ∀ (r : Res) (key : Key) (p : PStr), (Edit.del r key).At w p →
    (containsKey o (delItem o w g r key).1 (delItem o w g r key).2.1 r key).2 = .ok false

/-- A label in English and a plain one. -/
def twoLabels : Graph :=
  ((Graph.new .none).add (mkTriple (.named (py! "http://x")) (.named (rdfsNs ++ py! "label")) (.lit (py! "a") (some (py! "en")) none))).add
    (mkTriple (.named (py! "http://x")) (.named (rdfsNs ++ py! "label")) (.lit (py! "b") none none))

/-- False: deleting `rdfs:label` deletes the English label, and then the plain one is shown. -/
theorem C135_refuted : ¬ C135_statement := by
  intro h
  have := h {} .default World.new .new twoLabels (((Graph.Reach.new _).add _ _ _).add _ _ _) ⟨0, .named (py! "http://x")⟩ (.name (py! "rdfs:label"))
    (rdfsNs ++ py! "label") ⟨by decide, by decide, by decide, by decide, fun k c => (by intro h; cases h), fun _ h => (by cases h)⟩
  exact absurd this (by decide)

/-- A key whose selection does not fall back: it has a filter, or the predicate is not scalar, or the class has no language. -/
theorem selection_test (w : World) (r : Res) {key : Key} {sel : Sel} (hk : interpretKey w r key = .ok sel)
    (hf : ∀ k c, key ≠ .pair k (.cls c)) (hc : key.isTuple = true ∨ isScalar w r.c sel.pred = false ∨ truthyStr (w.lang r.c) = false) :
    ∃ F : Term → Prop, ∀ (o : Orders) (g : Graph), ∃ objs, objectsForSel o w g r sel (!key.isTuple) = (w, .ok objs) ∧
      ∀ x, x ∈ objs ↔ x ∈ objectsOf o g r.s (predTerm sel.pred) ∧ F x := by
  have hcls := interpretKey_cls hk hf
  have hlang : truthyStr sel.lang = true → (!key.isTuple && isScalar w r.c sel.pred) = false := by
    intro hl
    rcases hc with h | h | h
    · simp [h]
    · simp [h]
    · cases key with
      | pair k f => simp [Key.isTuple]
      | name k =>
        unfold interpretKey at hk
        split at hk
        · cases hk
        · have := Except.ok.inj hk
          rw [← this] at hl ⊢
          dsimp only at hl ⊢
          split at hl
          · rw [h] at hl; cases hl
          · next hn => simp [hn]
  unfold objectsForSel
  rw [hcls]
  dsimp only
  by_cases h1 : sel.lang = none ∧ sel.dt = none ∧ (none : Option Nat) = none
  · simp only [h1, and_self, if_true]
    exact ⟨fun _ => True, fun o g => ⟨_, rfl, fun x => by simp⟩⟩
  · have h1' : ¬(sel.lang = none ∧ sel.dt = none) := fun h => h1 ⟨h.1, h.2, rfl⟩
    simp only [and_true, h1', if_false]
    by_cases h2 : truthyStr sel.lang = true
    · simp only [h2, if_true]
      refine ⟨fun x => Term.hasLang sel.lang x = true ∨ (isScalar w r.c sel.pred = false ∧ x.isNode = true), fun o g => ⟨_, rfl, fun x => ?_⟩⟩
      unfold langObjects
      dsimp only
      rw [hlang h2]
      simp only [Bool.false_and, Bool.false_eq_true, if_false]
      have hb : objectsByLang o g r.s (predTerm sel.pred) sel.lang = (objectsOf o g r.s (predTerm sel.pred)).filter (Term.hasLang sel.lang) := by
        unfold objectsByLang; rw [if_neg]; intro e; rw [e] at h2; cases h2
      rw [hb]
      cases hsc : isScalar w r.c sel.pred with
      | true => simp
      | false => simp [nodesOf, ← and_or_left]
    · simp only [h2, if_false, Bool.false_eq_true]
      by_cases h3 : truthyStr sel.dt = true
      · simp only [h3, if_true]
        refine ⟨fun x => Term.hasDt sel.dt x = true ∨ (isScalar w r.c sel.pred = false ∧ x.isNode = true), fun o g => ⟨_, rfl, fun x => ?_⟩⟩
        unfold dtObjects
        dsimp only
        have hb : objectsByDatatype o g r.s (predTerm sel.pred) sel.dt = (objectsOf o g r.s (predTerm sel.pred)).filter (Term.hasDt sel.dt) := by
          unfold objectsByDatatype; rw [if_neg]; intro e; rw [e] at h3; cases h3
        rw [hb]
        cases hsc : isScalar w r.c sel.pred with
        | true => simp
        | false => simp [nodesOf, ← and_or_left]
      · simp only [h3, if_false, Bool.false_eq_true]
        exact ⟨fun x => x.isBare = true, fun o g => ⟨_, rfl, fun x => by simp [bareLiterals]⟩⟩

/-- C135 for keys with a language, datatype or empty filter, for predicates that are not scalar, and for classes without a language. Missing: the plain
    names of scalar predicates in a class with a language, see `C135_exact`. -/
theorem C135_partial {o o' : Orders} (ho : o.OK) (ho' : o'.OK) {w : World} (wr : w.Reach) {g : Graph} (hg : g.Reach) {r : Res} {key : Key} {p : PStr}
    (ha : (Edit.del r key).At w p) (hc : key.isTuple = true ∨ isScalar w r.c (some p) = false ∨ truthyStr (w.lang r.c) = false) :
    (delItem o w g r key).2.2 = .ok () ∧ (containsKey o' (delItem o w g r key).1 (delItem o w g r key).2.1 r key).2 = .ok false := by
  have hs : r.s.truthy = true := ha.subject
  cases hk : interpretKey w r key with
  | error x =>
    exfalso
    have h1 : resolveKey w r.c key.text = .ok (some p) := ha.name
    unfold interpretKey at hk
    rw [h1] at hk
    dsimp only at hk
    split at hk <;> cases hk
  | ok sel =>
    have hpred : sel.pred = some p := by
      have h1 := interpretKey_pred hk
      have h2 : resolveKey w r.c key.text = .ok (some p) := ha.name
      rw [h1] at h2; exact Except.ok.inj h2
    have hp' : (predTerm sel.pred).truthy = true := by rw [hpred]; exact predTerm_truthy ha.ne
    obtain ⟨F, hF⟩ := selection_test w r hk ha.filter (by rw [hpred]; exact hc)
    obtain ⟨objs, e1, m1⟩ := hF o g
    have hok : objectsForKey o w g r key = (w, .ok (some p, objs)) := by unfold objectsForKey; simp only [hk, e1, hpred]
    have hdel := C48_del_exact (r := r) ho wr hg ha.cls hs key hok ha.ne
    obtain ⟨d1, d2, d3, d4⟩ := hdel
    refine ⟨d2, ?_⟩
    rw [d1]
    obtain ⟨objs', e2, m2⟩ := hF o' (delItem o w g r key).2.1
    unfold containsKey objectsForKey
    simp only [hk, e2]
    congr 1
    rw [decide_eq_false_iff_not, not_not, List.eq_nil_iff_forall_not_mem]
    intro x hx
    obtain ⟨h1, h2⟩ := (m2 x).1 hx
    have h3 := (d4 _).1 ((mem_objectsOf ho' d3 hs hp' x).1 h1)
    rw [hpred] at h3
    exact h3.2 x ((m1 x).2 ⟨(mem_objectsOf ho hg hs hp' x).2 (by rw [hpred]; exact h3.1), h2⟩) rfl

theorem firstOf_some {S : Term → Prop} : ∀ (l : List (Term → Prop)), (∃ x, FirstOf S l x) ↔ ∃ P ∈ l, ∃ x, S x ∧ P x
  | [] => by simp [FirstOf]
  | P :: l => by
    have ih := firstOf_some (S := S) l
    constructor
    · rintro ⟨x, hx⟩
      rw [FirstOf] at hx
      rcases hx with hx | ⟨_, hx⟩
      · exact ⟨P, by simp, x, hx⟩
      · obtain ⟨Q, hQ, y, hy⟩ := ih.1 ⟨x, hx⟩
        exact ⟨Q, by simp [hQ], y, hy⟩
    · rintro ⟨Q, hQ, y, hy⟩
      by_cases hP : ∃ z, S z ∧ P z
      · obtain ⟨z, hz⟩ := hP; exact ⟨z, by rw [FirstOf]; exact Or.inl hz⟩
      · rcases List.mem_cons.1 hQ with rfl | hQ
        · exact absurd ⟨y, hy⟩ hP
        · obtain ⟨z, hz⟩ := ih.2 ⟨Q, hQ, y, hy⟩
          exact ⟨z, by rw [FirstOf]; exact Or.inr ⟨hP, hz⟩⟩

/-- The plain name of a scalar predicate in a class with a language: after the deletion the key is in the resource iff some value was not shown but is of one of the
    kinds that such a key may show (in the language, a node, with a datatype, plain). So deleting until the key is gone takes up to four deletions. -/
theorem C135_exact {o o' : Orders} (ho : o.OK) (ho' : o'.OK) {w : World} (wr : w.Reach) {g : Graph} (hg : g.Reach) {r : Res}
    (hc : r.c < w.classes.length) (hs : r.s.truthy = true) {k p : PStr} (hk : resolveKey w r.c k = .ok (some p)) (hp : p ≠ [])
    (hn : isScalar w r.c (some p) = true) {l : PStr} (hl : w.lang r.c = some l) (hne : l ≠ []) :
    (delItem o w g r (.name k)).2.2 = .ok () ∧
    ∃ b, (containsKey o' (delItem o w g r (.name k)).1 (delItem o w g r (.name k)).2.1 r (.name k)).2 = .ok b ∧
      (b = true ↔ ∃ P ∈ preference l, ∃ x, mkTriple r.s (.named p) x ∈ g.triples ∧ P x ∧
        ¬ FirstOf (fun x => mkTriple r.s (.named p) x ∈ g.triples) (preference l) x) := by
  obtain ⟨objs, h1, h2, h3⟩ := scalar_selection (w := w) ho hg hs hk hp hn hl hne
  obtain ⟨d1, d2, d3, d4⟩ := C48_del_exact ho wr hg hc hs (.name k) h1 hp
  obtain ⟨objs', h1', h2', h3'⟩ := scalar_selection (w := w) ho' d3 hs hk hp hn hl hne
  refine ⟨d2, decide (objs' ≠ []), by rw [d1]; unfold containsKey; rw [h1'], ?_⟩
  rw [decide_eq_true_iff]
  have e1 : objs' ≠ [] ↔ ∃ x, x ∈ objs' := ⟨List.exists_mem_of_ne_nil _, fun ⟨x, hx⟩ e => by rw [e] at hx; cases hx⟩
  rw [e1]
  simp only [h3']
  rw [firstOf_some]
  refine exists_congr fun P => and_congr_right fun _ => exists_congr fun x => ?_
  rw [d4]
  constructor
  · rintro ⟨⟨a, b⟩, c⟩
    exact ⟨a, c, fun hx => b x ((h3 x).2 hx) rfl⟩
  · rintro ⟨a, c, b⟩
    refine ⟨⟨a, fun y hy e => ?_⟩, c⟩
    rw [mkTriple_inj] at e
    rw [e.2.2] at b
    exact b ((h3 y).1 hy)

/-- Deleting `rdfs:label` twice. -/
example : (delItem {} World.new twoLabels ⟨0, .named (py! "http://x")⟩ (.name (py! "rdfs:label"))).2.1.triples.length = 1 ∧
    (delItem {} World.new (delItem {} World.new twoLabels ⟨0, .named (py! "http://x")⟩ (.name (py! "rdfs:label"))).2.1
      ⟨0, .named (py! "http://x")⟩ (.name (py! "rdfs:label"))).2.1.triples.length = 0 := by decide

end Verif
