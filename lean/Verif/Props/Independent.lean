import Verif.Props.ResFilter
import Verif.Props.ResItem
import Verif.Props.ResClass
/-
Edits of different properties are independent: C133.
-/
namespace Verif
open Spec Graph

/-- An assignment `r[key] = value` or a deletion `del r[key]`. -/
inductive Spec.Edit
  | set (r : Res) (key : Key) (value : SetVal)
  | del (r : Res) (key : Key)

def Spec.Edit.res : Edit → Res
  | .set r _ _ => r
  | .del r _ => r

def Spec.Edit.key : Edit → Key
  | .set _ k _ => k
  | .del _ k => k

/-- The values an edit stores. -/
def Spec.Edit.stores : Edit → List PyVal
  | .set _ _ v => values v
  | .del _ _ => []

/-- One edit. -/
def Spec.Edit.run (o : Orders) (w : World) (g : Graph) : Edit → World × Graph × Except Exc Unit
  | .set r k v => setItem o w g r k v
  | .del r k => delItem o w g r k

/-- Several edits one after the other, up to the first exception. -/
def Spec.runEdits (o : Orders) : World → Graph → List Edit → World × Graph × Except Exc Unit
  | w, g, [] => (w, g, .ok ())
  | w, g, e :: es =>
    match e.run o w g with
    | (w, g, .error x) => (w, g, .error x)
    | (w, g, .ok ()) => runEdits o w g es

/-- A value that is stored without looking at the graph: no NamedNode or BlankNode, unless no class has been registered. -/
def Spec.PlainValue (w : World) (u : PyVal) : Prop :=
  w.byType = [] ∨ ((∀ s, u ≠ .iri s) ∧ ∀ i, u ≠ .bnode i)

/-- The subject and the predicate an edit is about. -/
def Spec.Edit.target (w : World) (e : Edit) : Option (Term × PStr) :=
  match resolveKey w e.res.c e.key.text with
  | .ok (some p) => some (e.res.s, p)
  | _ => none

/-- The edit concerns the property `p` of its resource, through a key without a class filter. -/
structure Spec.Edit.At (w : World) (e : Edit) (p : PStr) : Prop where
  cls : e.res.c < w.classes.length
  subject : e.res.s.truthy = true
  name : resolveKey w e.res.c e.key.text = .ok (some p)
  ne : p ≠ []
  filter : ∀ k c, e.key ≠ .pair k (.cls c)
  values : ∀ u ∈ e.stores, PlainValue w u

/-! ### What an edit depends on -/

theorem objectify_plain {o : Orders} {w : World} (wr : w.Reach) {u : PyVal} (hu : PlainValue w u) (g g' : Graph) (lang dt : Option PStr) :
    objectify o w g lang dt u = objectify o w g' lang dt u ∧ (objectify o w g lang dt u).1 = w := by
  have key : w.byType = [] → ∀ (g : Graph) (x : Term), x.isNode = true → classify o w g 0 x = (w, .ok (.res 0 x)) := by
    intro hb g x hx
    obtain ⟨ns, _, ht⟩ := rdfType_ok wr.wf (c := 0) (Nat.lt_of_lt_of_le (by decide) wr.wf.two)
    have hcl : ∀ ty obj, classesOf o w g ty obj = [] := fun ty obj => by
      unfold classesOf; rw [hb]; simp
    unfold classify
    cases x with
    | named => simp only [ht, classifyNode, hcl]
    | bnode => simp only [ht, classifyNode, hcl]
    | _ => cases hx
  cases u with
  | iri s =>
    rcases hu with hb | hu
    · simp only [objectify]; rw [key hb g _ rfl, key hb g' _ rfl]; exact ⟨rfl, rfl⟩
    · exact absurd rfl (hu.1 s)
  | bnode i =>
    rcases hu with hb | hu
    · simp only [objectify]; rw [key hb g _ rfl, key hb g' _ rfl]; exact ⟨rfl, rfl⟩
    · exact absurd rfl (hu.2 i)
  | lit v l d => exact ⟨rfl, rfl⟩
  | res c s => exact ⟨rfl, rfl⟩
  | str s => exact ⟨rfl, rfl⟩
  | other a =>
    refine ⟨rfl, ?_⟩
    simp only [objectify]
    split <;> rfl

theorem objectifyAll_plain {o : Orders} {w : World} (wr : w.Reach) (g g' : Graph) (lang dt : Option PStr) :
    ∀ us : List PyVal, (∀ u ∈ us, PlainValue w u) →
      objectifyAll o g lang dt w us = objectifyAll o g' lang dt w us ∧ (objectifyAll o g lang dt w us).1 = w
  | [], _ => ⟨rfl, rfl⟩
  | u :: us, h => by
    obtain ⟨h1, h2⟩ := objectify_plain (o := o) wr (h u (by simp)) g g' lang dt
    obtain ⟨h3, h4⟩ := objectifyAll_plain wr g g' lang dt us fun x hx => h x (by simp [hx])
    unfold objectifyAll
    rw [← h1]
    rcases hq : objectify o w g lang dt u with ⟨w1, e | x⟩
    · rw [hq] at h2; exact ⟨rfl, h2⟩
    · rw [hq] at h2
      dsimp only at h2 ⊢
      subst h2
      rw [← h3]
      rcases hr : objectifyAll o g lang dt w1 us with ⟨w2, e | xs⟩ <;> rw [hr] at h4 <;> exact ⟨rfl, h4⟩

theorem literalize_plain {o : Orders} {w : World} (wr : w.Reach) (g g' : Graph) (lang dt : Option PStr) (v : SetVal) (h : ∀ u ∈ values v, PlainValue w u) :
    literalize o w g lang dt v = literalize o w g' lang dt v ∧ (literalize o w g lang dt v).1 = w := by
  cases v with
  | one u =>
    obtain ⟨h1, h2⟩ := objectify_plain (o := o) wr (h u (by simp [values])) g g' lang dt
    simp only [literalize]
    rw [← h1]
    rcases hq : objectify o w g lang dt u with ⟨w1, e | x⟩ <;> rw [hq] at h2 <;> exact ⟨rfl, h2⟩
  | many us =>
    obtain ⟨h1, h2⟩ := objectifyAll_plain (o := o) wr g g' lang dt us h
    simp only [literalize]
    rw [← h1]
    rcases hq : objectifyAll o g lang dt w us with ⟨w1, e | x⟩ <;> rw [hq] at h2 <;> exact ⟨rfl, h2⟩

/-- The two graphs have the same values of a property. -/
def Spec.SameValues (g g' : Graph) (s p : Term) : Prop := ∀ x, mkTriple s p x ∈ g.triples ↔ mkTriple s p x ∈ g'.triples

section
variable {o : Orders} (ho : o.OK) {g g' : Graph} (hg : g.Reach) (hg' : g'.Reach) {s p : Term} (hs : s.truthy = true) (hp : p.truthy = true) (h : SameValues g g' s p)
include ho hg hg' hs hp h

theorem objectsOf_same : (objectsOf o g s p).Perm (objectsOf o g' s p) :=
  (List.perm_ext_iff_of_nodup (nodup_objectsOf ho hg hs hp) (nodup_objectsOf ho hg' hs hp)).2 fun x => by
    rw [mem_objectsOf ho hg hs hp, mem_objectsOf ho hg' hs hp]; exact h x

theorem bareLiterals_same : (bareLiterals o g s p).Perm (bareLiterals o g' s p) := (objectsOf_same ho hg hg' hs hp h).filter _

theorem nodesOf_same : (nodesOf o g s p).Perm (nodesOf o g' s p) := (objectsOf_same ho hg hg' hs hp h).filter _

theorem objectsByLang_same (l : Option PStr) : (objectsByLang o g s p l).Perm (objectsByLang o g' s p l) := by
  unfold objectsByLang
  split
  · exact bareLiterals_same ho hg hg' hs hp h
  · exact (objectsOf_same ho hg hg' hs hp h).filter _

theorem objectsByDatatype_same (d : Option PStr) : (objectsByDatatype o g s p d).Perm (objectsByDatatype o g' s p d) := by
  unfold objectsByDatatype
  split
  · exact bareLiterals_same ho hg hg' hs hp h
  · exact (objectsOf_same ho hg hg' hs hp h).filter _

theorem langObjects_same (l : Option PStr) (sc im : Bool) : (langObjects o g s p l sc im).Perm (langObjects o g' s p l sc im) := by
  have hn := nodesOf_same ho hg hg' hs hp h
  have hb := bareLiterals_same ho hg hg' hs hp h
  have hd := objectsByDatatype_same ho hg hg' hs hp h none
  have hl := objectsByLang_same ho hg hg' hs hp h l
  have nil : ∀ {xs ys : List Term}, xs.Perm ys → (xs = [] ↔ ys = []) := fun hxy =>
    ⟨fun e => by subst e; simpa using hxy.nil_eq.symm, fun e => by subst e; simpa using hxy⟩
  have app : ∀ {xs ys xs' ys' : List Term}, xs.Perm ys → xs'.Perm ys' →
      (if xs = [] then xs ++ xs' else xs).Perm (if ys = [] then ys ++ ys' else ys) := by
    intro xs ys xs' ys' h1 h2
    by_cases e : xs = []
    · rw [if_pos e, if_pos ((nil h1).1 e)]; exact h1.append h2
    · rw [if_neg e, if_neg (fun e' => e ((nil h1).2 e'))]; exact h1
  unfold langObjects
  dsimp only
  have h3 := app (app (hl.append hn) hd) hb
  have h4 : (if (im && sc && decide (objectsByLang o g s p l = [])) = true then
        if (if objectsByLang o g s p l ++ nodesOf o g s p = [] then objectsByLang o g s p l ++ nodesOf o g s p ++ objectsByDatatype o g s p none
          else objectsByLang o g s p l ++ nodesOf o g s p) = [] then
          (if objectsByLang o g s p l ++ nodesOf o g s p = [] then objectsByLang o g s p l ++ nodesOf o g s p ++ objectsByDatatype o g s p none
          else objectsByLang o g s p l ++ nodesOf o g s p) ++ bareLiterals o g s p
        else (if objectsByLang o g s p l ++ nodesOf o g s p = [] then objectsByLang o g s p l ++ nodesOf o g s p ++ objectsByDatatype o g s p none
          else objectsByLang o g s p l ++ nodesOf o g s p)
      else objectsByLang o g s p l).Perm
      (if (im && sc && decide (objectsByLang o g' s p l = [])) = true then
        if (if objectsByLang o g' s p l ++ nodesOf o g' s p = [] then objectsByLang o g' s p l ++ nodesOf o g' s p ++ objectsByDatatype o g' s p none
          else objectsByLang o g' s p l ++ nodesOf o g' s p) = [] then
          (if objectsByLang o g' s p l ++ nodesOf o g' s p = [] then objectsByLang o g' s p l ++ nodesOf o g' s p ++ objectsByDatatype o g' s p none
          else objectsByLang o g' s p l ++ nodesOf o g' s p) ++ bareLiterals o g' s p
        else (if objectsByLang o g' s p l ++ nodesOf o g' s p = [] then objectsByLang o g' s p l ++ nodesOf o g' s p ++ objectsByDatatype o g' s p none
          else objectsByLang o g' s p l ++ nodesOf o g' s p)
      else objectsByLang o g' s p l) := by
    have hdec : decide (objectsByLang o g s p l = []) = decide (objectsByLang o g' s p l = []) := by
      rw [decide_eq_decide]; exact nil hl
    rw [hdec]
    by_cases hc : (im && sc && decide (objectsByLang o g' s p l = [])) = true
    · rw [if_pos hc, if_pos hc]; exact h3
    · rw [if_neg hc, if_neg hc]; exact hl
  by_cases hsc : (!sc) = true
  · rw [if_pos hsc, if_pos hsc]; exact h4.append hn
  · rw [if_neg hsc, if_neg hsc]; exact h4

end


theorem removeObjs_iff {g : Graph} (hg : g.Reach) (s p : Term) (xs : List Term) :
    ((removeObjs s p g xs).2 = .ok () ↔ xs.Nodup ∧ ∀ x ∈ xs, mkTriple s p x ∈ g.triples) ∧
    ((removeObjs s p g xs).2 = .ok () ∨ (removeObjs s p g xs).2 = .error .keyError) := by
  refine ⟨⟨fun h => ?_, fun h => (removeObjs_ok hg s p xs h.1 h.2).1⟩, ?_⟩
  · induction xs generalizing g with
    | nil => simp
    | cons x xs ih =>
      unfold removeObjs at h
      by_cases hx : mkTriple s p x ∈ g.triples
      · have hr := hg.remove s p x
        have hm := fun t => mem_remove hg.inv.toIxInv (mkTriple s p x) t
        rw [remove_of_mem hg.inv.toIxInv hx] at h hr hm
        dsimp only at h hr hm
        obtain ⟨h1, h2⟩ := ih hr h
        refine ⟨List.nodup_cons.2 ⟨fun hxx => ?_, h1⟩, fun y hy => ?_⟩
        · exact ((hm _).1 (h2 x hxx)).1 rfl
        · rcases List.mem_cons.1 hy with rfl | hy
          · exact hx
          · exact ((hm _).1 (h2 y hy)).2
      · rw [remove_of_not_mem hx] at h; cases h
  · induction xs generalizing g with
    | nil => exact Or.inl rfl
    | cons x xs ih =>
      unfold removeObjs
      by_cases hx : mkTriple s p x ∈ g.triples
      · have hr := hg.remove s p x
        rw [remove_of_mem hg.inv.toIxInv hx] at hr ⊢
        exact ih hr
      · rw [remove_of_not_mem hx]; exact Or.inr rfl

/-- Removing the same values, in whatever order, ends in the same way and leaves the same values. -/
theorem removeObjs_same {g g' : Graph} (hg : g.Reach) (hg' : g'.Reach) {s p : Term} (h : SameValues g g' s p) {xs ys : List Term} (hxy : xs.Perm ys) :
    (removeObjs s p g xs).2 = (removeObjs s p g' ys).2 ∧
    ((removeObjs s p g xs).2 = .ok () → SameValues (removeObjs s p g xs).1 (removeObjs s p g' ys).1 s p) := by
  have h1 := removeObjs_iff hg s p xs
  have h2 := removeObjs_iff hg' s p ys
  have hiff : (removeObjs s p g xs).2 = .ok () ↔ (removeObjs s p g' ys).2 = .ok () := by
    rw [h1.1, h2.1, hxy.nodup_iff]
    refine and_congr_right fun _ => ⟨fun hx y hy => (h y).1 (hx y (hxy.mem_iff.2 hy)), fun hx y hy => (h y).2 (hx y (hxy.mem_iff.1 hy))⟩
  refine ⟨?_, fun hok => ?_⟩
  · rcases h1.2 with e | e
    · rw [e, hiff.1 e]
    · rcases h2.2 with e' | e'
      · rw [hiff.2 e'] at e; cases e
      · rw [e, e']
  · have a := h1.1.1 hok
    have b := h2.1.1 (hiff.1 hok)
    intro x
    rw [(removeObjs_ok hg s p xs a.1 a.2).2, (removeObjs_ok hg' s p ys b.1 b.2).2, h x]
    exact and_congr_right fun _ => ⟨fun hx y hy => hx y (hxy.mem_iff.2 hy), fun hx y hy => hx y (hxy.mem_iff.1 hy)⟩

/-- The same result up to the order of the list. -/
def SameList : World × Except Exc (List Term) → World × Except Exc (List Term) → World → Prop
  | (w1, .ok xs), (w2, .ok ys), w => w1 = w ∧ w2 = w ∧ xs.Perm ys
  | (w1, .error e), (w2, .error e'), w => w1 = w ∧ w2 = w ∧ e = e'
  | _, _, _ => False

section
variable {o : Orders} (ho : o.OK) {g g' : Graph} (hg : g.Reach) (hg' : g'.Reach) {r : Res} {p : PStr} (hs : r.s.truthy = true) (hp : p ≠ []) (h : SameValues g g' r.s (.named p))
include ho hg hg' hs hp h

theorem removalList_same (w : World) (key : Key) {sel : Sel} (hsel : sel.pred = some p) (hc : sel.cls = none) (v : LVal) :
    SameList (removalList o w g r key sel v) (removalList o w g' r key sel v) w := by
  have hp' : (predTerm (some p)).truthy = true := predTerm_truthy hp
  have h' : SameValues g g' r.s (predTerm (some p)) := h
  have hO := objectsOf_same ho hg hg' hs hp' h'
  have hL := fun l => objectsByLang_same ho hg hg' hs hp' h' l
  have hD := fun d => objectsByDatatype_same ho hg hg' hs hp' h' d
  have hN := nodesOf_same ho hg hg' hs hp' h'
  have hB := bareLiterals_same ho hg hg' hs hp' h'
  unfold removalList
  split
  · unfold objectsForExplicitSet
    rw [hsel, hc]
    dsimp only
    rcases checkObjects o w sel.lang sel.dt none v with e | b
    · exact ⟨rfl, rfl, rfl⟩
    · cases b with
      | false => exact ⟨rfl, rfl, rfl⟩
      | true =>
        dsimp only
        split
        · exact ⟨rfl, rfl, ((hL _).append (hD _)).append hN⟩
        · split
          · exact ⟨rfl, rfl, (hL _).append hN⟩
          · split
            · exact ⟨rfl, rfl, hO⟩
            · split
              · exact ⟨rfl, rfl, (hD _).append hN⟩
              · exact ⟨rfl, rfl, rfl⟩
  · unfold objectsForImplicitSet
    rw [hsel]
    dsimp only
    split
    · exact ⟨rfl, rfl, rfl⟩
    · exact ⟨rfl, rfl, (((hL _).append (hD _)).append hN).append hB⟩
    · exact ⟨rfl, rfl, hO⟩

theorem objectsForSel_same (w : World) {sel : Sel} (hsel : sel.pred = some p) (hc : sel.cls = none) (im : Bool) :
    SameList (objectsForSel o w g r sel im) (objectsForSel o w g' r sel im) w := by
  have hp' : (predTerm (some p)).truthy = true := predTerm_truthy hp
  have h' : SameValues g g' r.s (predTerm (some p)) := h
  unfold objectsForSel
  rw [hsel, hc]
  dsimp only
  split
  · exact ⟨rfl, rfl, objectsOf_same ho hg hg' hs hp' h'⟩
  · split
    · exact ⟨rfl, rfl, langObjects_same ho hg hg' hs hp' h' ..⟩
    · split
      · refine ⟨rfl, rfl, ?_⟩
        unfold dtObjects
        dsimp only
        split
        · exact (objectsByDatatype_same ho hg hg' hs hp' h' _).append (nodesOf_same ho hg hg' hs hp' h')
        · exact objectsByDatatype_same ho hg hg' hs hp' h' _
      · exact ⟨rfl, rfl, bareLiterals_same ho hg hg' hs hp' h'⟩

/-- What an edit does to its property depends on the values of that property only. -/
theorem Edit.run_same {w : World} (wr : w.Reach) {e : Edit} (hr : e.res = r) (ha : e.At w p) :
    (e.run o w g).1 = w ∧ (e.run o w g').1 = w ∧ (e.run o w g).2.2 = (e.run o w g').2.2 ∧
    ((e.run o w g).2.2 = .ok () → SameValues (e.run o w g).2.1 (e.run o w g').2.1 r.s (.named p)) := by
  have hcls : ∀ sel, interpretKey w r e.key = .ok sel → sel.cls = none ∧ sel.pred = some p := by
    intro sel hk
    have h1 := interpretKey_pred hk
    have h2 := ha.name
    rw [hr, h1] at h2
    refine ⟨?_, (Except.ok.inj h2)⟩
    have hf := ha.filter
    unfold interpretKey at hk
    rw [h1] at hk
    revert hk hf
    cases e.key with
    | name k => intro hk _; rw [← Except.ok.inj hk]
    | pair k q =>
      cases q with
      | cls c => intro _ hf; exact absurd rfl (hf k c)
      | _ => intro hk _; rw [← Except.ok.inj hk]
  cases e with
  | set r' key v =>
    obtain rfl : r' = r := hr
    simp only [Edit.run]
    simp only [Edit.key] at hcls
    unfold setItem
    cases hk : interpretKey w r' key with
    | error x => exact ⟨rfl, rfl, rfl, fun h => by cases h⟩
    | ok sel =>
      obtain ⟨hc, hsel⟩ := hcls sel hk
      dsimp only
      obtain ⟨l1, l2⟩ := literalize_plain (o := o) wr g g' sel.lang sel.dt v ha.values
      rw [← l1]
      rcases hl : literalize o w g sel.lang sel.dt v with ⟨w1, x | x⟩
      · rw [hl] at l2; exact ⟨l2, l2, rfl, fun h => by cases h⟩
      · rw [hl] at l2
        dsimp only at l2 ⊢
        subst l2
        have hrl := removalList_same ho hg hg' hs hp h w1 key hsel hc x
        have e1 : ∀ g, (if key.isTuple = true then objectsForExplicitSet o w1 g r' sel x else (w1, objectsForImplicitSet o w1 g r' sel.pred x))
            = removalList o w1 g r' key sel x := fun _ => rfl
        rw [e1, e1]
        rcases hq : removalList o w1 g r' key sel x with ⟨w2, y | y⟩ <;>
          rcases hq' : removalList o w1 g' r' key sel x with ⟨w3, z | z⟩ <;> rw [hq, hq'] at hrl
        · obtain ⟨rfl, rfl, rfl⟩ := hrl
          exact ⟨rfl, rfl, rfl, fun h => by cases h⟩
        · exact hrl.elim
        · exact hrl.elim
        · obtain ⟨rfl, rfl, hyz⟩ := hrl
          dsimp only
          rw [hsel]
          have hrm := removeObjs_same hg hg' h hyz
          change (removeObjs r'.s (predTerm (some p)) g y).2 = (removeObjs r'.s (predTerm (some p)) g' z).2 ∧ _ at hrm
          rcases hm : removeObjs r'.s (predTerm (some p)) g y with ⟨g1, a | a⟩ <;>
            rcases hm' : removeObjs r'.s (predTerm (some p)) g' z with ⟨g2, b | b⟩ <;> rw [hm, hm'] at hrm
          · obtain ⟨hab, _⟩ := hrm
            cases hab
            exact ⟨rfl, rfl, rfl, fun h => by cases h⟩
          · cases hrm.1
          · cases hrm.1
          · dsimp only
            refine ⟨rfl, rfl, rfl, fun _ t => ?_⟩
            have ha : ∀ gg : Graph, (x.vals o).foldl (fun g x => g.add (mkTriple r'.s (predTerm (some p)) x.term)) gg
                = ((x.vals o).map Val.term).foldl (fun g x => g.add (mkTriple r'.s (predTerm (some p)) x)) gg := fun gg => by
              rw [List.foldl_map]
            rw [ha, ha, mem_adds, mem_adds]
            have h2 : SameValues (removeObjs r'.s (.named p) g y).1 (removeObjs r'.s (.named p) g' z).1 r'.s (.named p) :=
              (removeObjs_same hg hg' h hyz).2 (congrArg Prod.snd hm)
            have h3 := h2 t
            rw [show removeObjs r'.s (.named p) g y = (g1, .ok a) from hm, show removeObjs r'.s (.named p) g' z = (g2, .ok b) from hm'] at h3
            exact or_congr_right h3
  | del r' key =>
    obtain rfl : r' = r := hr
    simp only [Edit.run]
    simp only [Edit.key] at hcls
    unfold delItem objectsForKey
    cases hk : interpretKey w r' key with
    | error x => exact ⟨rfl, rfl, rfl, fun h => by cases h⟩
    | ok sel =>
      obtain ⟨hc, hsel⟩ := hcls sel hk
      dsimp only
      have hrl := objectsForSel_same ho hg hg' hs hp h w hsel hc (!key.isTuple)
      rcases hq : objectsForSel o w g r' sel (!key.isTuple) with ⟨w2, y | y⟩ <;>
        rcases hq' : objectsForSel o w g' r' sel (!key.isTuple) with ⟨w3, z | z⟩ <;> rw [hq, hq'] at hrl
      · obtain ⟨rfl, rfl, rfl⟩ := hrl
        exact ⟨rfl, rfl, rfl, fun h => by cases h⟩
      · exact hrl.elim
      · exact hrl.elim
      · obtain ⟨rfl, rfl, hyz⟩ := hrl
        dsimp only
        rw [hsel]
        exact ⟨rfl, rfl, removeObjs_same hg hg' h hyz⟩

end

/-- An edit leaves a graph, and all triples of other subjects and predicates. -/
theorem Edit.run_frame {o : Orders} (ho : o.OK) {g : Graph} (hg : g.Reach) {w : World} (wr : w.Reach) {e : Edit} {p : PStr} (ha : e.At w p) :
    (e.run o w g).2.1.Reach ∧ ∀ t : Stmt, (t.s ≠ e.res.s ∨ t.p ≠ .named p) → (t ∈ (e.run o w g).2.1.triples ↔ t ∈ g.triples) := by
  cases e with
  | set r key v => exact ⟨(C46_set_reach ho wr hg ha.cls key v).2.1, fun t ht => (C46_set_frame ho wr hg ha.cls key v).2 _ ha.name t ht⟩
  | del r key =>
    simp only [Edit.run]
    rcases hq : objectsForKey o w g r key with ⟨w1, x | ⟨pr, objs⟩⟩
    · unfold delItem; rw [hq]; exact ⟨hg, fun _ _ => Iff.rfl⟩
    · have hpr : pr = some p := by
        unfold objectsForKey at hq
        cases hk : interpretKey w r key with
        | error x => rw [hk] at hq; cases hq
        | ok sel =>
          rw [hk] at hq
          have h1 := interpretKey_pred hk
          have h2 : resolveKey w r.c key.text = .ok (some p) := ha.name
          rw [h2] at h1
          cases h1' : sel.pred with
          | none => rw [h1'] at h1; cases h1
          | some p' =>
            rw [h1'] at h1; cases h1
            dsimp only at hq
            split at hq
            · cases hq
            · cases hq; exact h1'
      subst hpr
      have := C48_del_exact (r := r) ho wr hg ha.cls ha.subject key hq ha.ne
      refine ⟨this.2.2.1, fun t ht => ?_⟩
      rw [this.2.2.2 t]
      refine and_iff_left fun x _ => ?_
      rintro rfl
      rcases ht with ht | ht <;> exact ht rfl

theorem Edit.target_of_at {w : World} {e : Edit} {p : PStr} (ha : e.At w p) : e.target w = some (e.res.s, p) := by
  unfold Edit.target; rw [ha.name]

/-- Edits of different properties: together they succeed iff each of them alone would, and then every property that an edit is about has
    the values that edit alone would have given it, while nothing else in the graph has changed. -/
theorem C133_independent {o : Orders} (ho : o.OK) {w : World} (wr : w.Reach) {g : Graph} (hg : g.Reach) (es : List Edit)
    (ha : ∀ e ∈ es, ∃ p, e.At w p) (hd : es.Pairwise fun a b => a.target w ≠ b.target w) :
    ((runEdits o w g es).2.2 = .ok () ↔ ∀ e ∈ es, (e.run o w g).2.2 = .ok ()) ∧
    (runEdits o w g es).1 = w ∧ (runEdits o w g es).2.1.Reach ∧
    ((runEdits o w g es).2.2 = .ok () → ∀ t : Stmt,
      (∀ e ∈ es, ∀ p, e.target w = some (t.s, p) → t.p = .named p →
        (t ∈ (runEdits o w g es).2.1.triples ↔ t ∈ (e.run o w g).2.1.triples)) ∧
      ((∀ e ∈ es, ∀ p, e.target w = some (t.s, p) → t.p ≠ .named p) → (t ∈ (runEdits o w g es).2.1.triples ↔ t ∈ g.triples))) := by
  induction es generalizing g with
  | nil => exact ⟨⟨fun _ e he => (by cases he), fun _ => rfl⟩, rfl, hg, fun _ t => ⟨fun e he => (by cases he), fun _ => Iff.rfl⟩⟩
  | cons e es ih =>
    obtain ⟨p, hp⟩ := ha e (by simp)
    obtain ⟨fr, ff⟩ := Edit.run_frame ho hg wr hp
    obtain ⟨hw, -⟩ := Edit.run_same ho hg hg hp.subject hp.ne (fun _ => Iff.rfl) wr rfl hp
    rw [List.pairwise_cons] at hd
    have htgt := Edit.target_of_at hp
    -- the others, after the first edit, do what they would have done before it
    have other : ∀ e' ∈ es, ∃ q, e'.At w q ∧ (e'.res.s ≠ e.res.s ∨ q ≠ p) ∧ (e'.run o w (e.run o w g).2.1).2.2 = (e'.run o w g).2.2 ∧
        ((e'.run o w g).2.2 = .ok () → SameValues (e'.run o w (e.run o w g).2.1).2.1 (e'.run o w g).2.1 e'.res.s (.named q)) := by
      intro e' he'
      obtain ⟨q, hq⟩ := ha e' (by simp [he'])
      have hne := hd.1 e' he'
      rw [htgt, Edit.target_of_at hq] at hne
      have hne' : e'.res.s ≠ e.res.s ∨ q ≠ p := by
        by_cases h1 : e'.res.s = e.res.s
        · right; rintro rfl; exact hne (by rw [h1])
        · exact Or.inl h1
      have hsv : SameValues (e.run o w g).2.1 g e'.res.s (.named q) := fun x => ff _ (hne'.imp id fun h h' => h (by cases h'; rfl))
      obtain ⟨_, _, h3, h4⟩ := Edit.run_same ho fr hg hq.subject hq.ne hsv wr rfl hq
      exact ⟨q, hq, hne', h3, fun h => h4 (h3.trans h)⟩
    unfold runEdits
    rcases hq : e.run o w g with ⟨w1, g1, x | x⟩
    · rw [hq] at hw fr
      dsimp only at hw fr ⊢
      refine ⟨⟨fun h => (by cases h), fun h => ?_⟩, hw, fr, fun h => (by cases h)⟩
      have := h e (by simp)
      rw [hq] at this; cases this
    · rw [hq] at hw fr ff other
      dsimp only at hw fr ff other ⊢
      subst hw
      obtain ⟨i1, i2, i3, i4⟩ := ih fr (fun e' he' => ha e' (by simp [he'])) hd.2
      refine ⟨?_, i2, i3, fun hok t => ⟨fun e' he' q hq1 hq2 => ?_, fun hno => ?_⟩⟩
      · rw [i1]
        constructor
        · intro h e' he'
          rcases List.mem_cons.1 he' with rfl | he'
          · rw [hq]
          · obtain ⟨_, _, _, h3, _⟩ := other e' he'
            rw [← h3]; exact h e' he'
        · intro h e' he'
          obtain ⟨_, _, _, h3, _⟩ := other e' he'
          rw [h3]; exact h e' (by simp [he'])
      · have hall := i1.1 hok
        rcases List.mem_cons.1 he' with rfl | he'
        · rw [hq]
          rw [htgt, Option.some.injEq, Prod.mk.injEq] at hq1
          obtain ⟨hts, rfl⟩ := hq1
          refine ((i4 hok t).2 fun e'' he'' q' hq' hq'' => ?_)
          rw [hq2] at hq''
          cases hq''
          exact hd.1 e'' he'' (by rw [htgt, hq', hts])
        · obtain ⟨q', h0, _, h3, h4⟩ := other e' he'
          rw [((i4 hok t).1 e' he' q hq1 hq2)]
          have ht := Edit.target_of_at h0
          rw [hq1, Option.some.injEq, Prod.mk.injEq] at ht
          obtain ⟨hts, rfl⟩ := ht
          have hmk : t.g = none → t = mkTriple t.s t.p t.o := by
            obtain ⟨a, b, c, d⟩ := t
            rintro rfl; rfl
          by_cases hg2 : t = mkTriple t.s t.p t.o
          · have := h4 (h3.symm.trans (hall e' he')) t.o
            rw [hg2, hq2, hts]; exact this
          · have n1 : t ∉ (e'.run o w1 g1).2.1.triples := fun hm => hg2 (hmk ((Edit.run_frame ho fr wr h0).1.inv.isTri _ hm))
            have n2 : t ∉ (e'.run o w1 g).2.1.triples := fun hm => hg2 (hmk ((Edit.run_frame ho hg wr h0).1.inv.isTri _ hm))
            exact iff_of_false n1 n2
      · rw [(i4 hok t).2 fun e' he' => hno e' (by simp [he'])]
        refine ff t ?_
        by_cases h1 : t.s = e.res.s
        · right; exact hno e (by simp) p (by rw [h1]; exact htgt)
        · exact Or.inl h1

/-- Edits of different properties can be made in any order. -/
theorem C133_any_order {o : Orders} (ho : o.OK) {w : World} (wr : w.Reach) {g : Graph} (hg : g.Reach) {es es' : List Edit} (hp : es.Perm es')
    (ha : ∀ e ∈ es, ∃ p, e.At w p) (hd : es.Pairwise fun a b => a.target w ≠ b.target w) :
    ((runEdits o w g es).2.2 = .ok () ↔ (runEdits o w g es').2.2 = .ok ()) ∧
    ((runEdits o w g es).2.2 = .ok () → ∀ t, t ∈ (runEdits o w g es).2.1.triples ↔ t ∈ (runEdits o w g es').2.1.triples) := by
  have ha' : ∀ e ∈ es', ∃ p, e.At w p := fun e he => ha e (hp.mem_iff.2 he)
  have hd' : es'.Pairwise fun a b => a.target w ≠ b.target w := (hp.pairwise_iff fun h h' => h h'.symm).1 hd
  obtain ⟨a1, _, _, a4⟩ := C133_independent ho wr hg es ha hd
  obtain ⟨b1, _, _, b4⟩ := C133_independent ho wr hg es' ha' hd'
  have hiff : (runEdits o w g es).2.2 = .ok () ↔ (runEdits o w g es').2.2 = .ok () := by
    rw [a1, b1]
    exact ⟨fun h e he => h e (hp.mem_iff.2 he), fun h e he => h e (hp.mem_iff.1 he)⟩
  refine ⟨hiff, fun hok t => ?_⟩
  have A := a4 hok t
  have B := b4 (hiff.1 hok) t
  by_cases hx : ∃ e ∈ es, ∃ p, e.target w = some (t.s, p) ∧ t.p = .named p
  · obtain ⟨e, he, p, h1, h2⟩ := hx
    rw [A.1 e he p h1 h2, B.1 e (hp.mem_iff.1 he) p h1 h2]
  · have hx' : ∀ e ∈ es, ∀ p, e.target w = some (t.s, p) → t.p ≠ .named p := fun e he p h1 h2 => hx ⟨e, he, p, h1, h2⟩
    rw [A.2 hx', B.2 fun e he => hx' e (hp.mem_iff.2 he)]

/-- The condition on the values is needed once classes are registered: alone, `y["rdfs:seeAlso"] = NamedNode("http://x")` succeeds; after
    `x["rdf:type"] = {a, b}` it raises TypeError, and in the other order both succeed. -/
theorem C133_needs_plain :
    ∃ (w : World) (a b : Edit), w.Reach ∧ a.target w ≠ b.target w ∧ a.target w ≠ none ∧ b.target w ≠ none ∧
    (a.run {} w (Graph.new .none)).2.2 = .ok () ∧ (b.run {} w (Graph.new .none)).2.2 = .ok () ∧
    (runEdits {} w (Graph.new .none) [b, a]).2.2 = .ok () ∧ (runEdits {} w (Graph.new .none) [a, b]).2.2 = .error .typeError :=
  ⟨dupWorld, .set ⟨0, .named (py! "http://x")⟩ (.name (py! "rdf:type")) (.many [.iri (py! "http://a"), .iri (py! "http://b")]),
    .set ⟨0, .named (py! "http://y")⟩ (.name (py! "rdfs:seeAlso")) (.one (.iri (py! "http://x"))), dupWorld_reach, by decide, by decide, by decide,
    by decide, by decide, by decide, by decide⟩

/-- Three edits of three properties of two resources. -/
def threeEdits : List Edit :=
  [.set ⟨0, .named (py! "http://x")⟩ (.name (py! "rdfs:label")) (.one (.str (py! "uno"))),
   .set ⟨0, .named (py! "http://y")⟩ (.name (py! "rdfs:label")) (.one (.str (py! "due"))),
   .del ⟨0, .named (py! "http://x")⟩ (.name (py! "rdfs:comment"))]

example : (∀ e ∈ threeEdits, ∃ p, e.At World.new p) ∧ (threeEdits.Pairwise fun a b => a.target World.new ≠ b.target World.new) ∧
    (∀ e ∈ threeEdits, (e.run {} World.new sample).2.2 = .ok ()) ∧ sample.Reach := by
  refine ⟨?_, by decide, by decide, ?_⟩
  · intro e he
    simp only [threeEdits, List.mem_cons, List.not_mem_nil, or_false] at he
    rcases he with rfl | rfl | rfl
    · exact ⟨rdfsNs ++ py! "label", by decide, by decide, by decide, by decide, fun k c => (by intro h; cases h), fun _ _ => Or.inl rfl⟩
    · exact ⟨rdfsNs ++ py! "label", by decide, by decide, by decide, by decide, fun k c => (by intro h; cases h), fun _ _ => Or.inl rfl⟩
    · exact ⟨rdfsNs ++ py! "comment", by decide, by decide, by decide, by decide, fun k c => (by intro h; cases h), fun _ _ => Or.inl rfl⟩
  · exact sample_reach

end Verif
