import Verif.Lemmas.GraphRun
import Verif.Model.Resource
/-
Facts about the Resource model used by Props/Resource.
-/
namespace Verif
open Spec Graph

/-- A graph that some history of operations on a new graph produces. -/
def Graph.Reach (g : Graph) : Prop := ∃ u ops, g = Graph.run u ops

theorem run_snoc (u : Term) (ops : List GOp) (op : GOp) : Graph.run u (ops ++ [op]) = ((Graph.run u ops).exec op).1 := by
  simp [Graph.run]

namespace Graph.Reach

theorem rep {g : Graph} (h : g.Reach) : ∃ S, Rep g S := by
  obtain ⟨u, ops, rfl⟩ := h; exact ⟨_, rep_run u ops⟩

theorem inv {g : Graph} (h : g.Reach) : Inv g := by
  obtain ⟨S, hS⟩ := h.rep; exact hS.inv

theorem new (u : Term) : (Graph.new u).Reach := ⟨u, [], rfl⟩

theorem add {g : Graph} (h : g.Reach) (s p o : Term) : (g.add (mkTriple s p o)).Reach := by
  obtain ⟨u, ops, rfl⟩ := h
  exact ⟨u, ops ++ [.add ⟨s, p, o⟩], by rw [run_snoc]; rfl⟩

theorem remove {g : Graph} (h : g.Reach) (s p o : Term) : (g.remove (mkTriple s p o)).1.Reach := by
  obtain ⟨u, ops, rfl⟩ := h
  exact ⟨u, ops ++ [.remove ⟨s, p, o⟩], by rw [run_snoc]; rfl⟩

theorem adds {g : Graph} (h : g.Reach) (s p : Term) (ts : List Term) :
    (ts.foldl (fun g x => g.add (mkTriple s p x)) g).Reach := by
  induction ts generalizing g with
  | nil => exact h
  | cons t ts ih => exact ih (h.add s p t)

end Graph.Reach

theorem mem_adds (g : Graph) (s p : Term) (ts : List Term) (x : Stmt) :
    x ∈ (ts.foldl (fun g x => g.add (mkTriple s p x)) g).triples ↔ (∃ t ∈ ts, x = mkTriple s p t) ∨ x ∈ g.triples := by
  induction ts generalizing g with
  | nil => simp
  | cons t ts ih =>
    rw [List.foldl_cons, ih, mem_add]
    simp only [List.mem_cons, exists_eq_or_imp]
    constructor
    · rintro (h | h | h)
      exacts [Or.inl (Or.inr h), Or.inl (Or.inl h), Or.inr h]
    · rintro ((h | h) | h)
      exacts [Or.inr (Or.inl h), Or.inl h, Or.inr (Or.inr h)]

/-! ### Removal loops -/

/-- Whatever the outcome, only listed triples are removed and nothing is added. -/
theorem removeObjs_frame {g : Graph} (h : g.Reach) (s p : Term) (xs : List Term) :
    (removeObjs s p g xs).1.Reach ∧
    (∀ t, t ∈ (removeObjs s p g xs).1.triples → t ∈ g.triples) ∧
    ∀ t, t ∈ g.triples → (∀ x ∈ xs, t ≠ mkTriple s p x) → t ∈ (removeObjs s p g xs).1.triples := by
  induction xs generalizing g with
  | nil => exact ⟨h, fun _ h => h, fun _ h _ => h⟩
  | cons x xs ih =>
    have hm := fun t => mem_remove h.inv.toIxInv (mkTriple s p x) t
    have hr := h.remove s p x
    unfold removeObjs
    generalize g.remove (mkTriple s p x) = q at hm hr
    obtain ⟨g', e | _⟩ := q
    · exact ⟨hr, fun t ht => ((hm t).1 ht).2, fun t ht hx => (hm t).2 ⟨hx x (by simp), ht⟩⟩
    · have ih' := ih hr
      refine ⟨ih'.1, fun t ht => ((hm t).1 (ih'.2.1 t ht)).2, fun t ht hx => ?_⟩
      exact ih'.2.2 t ((hm t).2 ⟨hx x (by simp), ht⟩) fun y hy => hx y (by simp [hy])

/-- If the listed triples are present and distinct, they are removed, exactly. -/
theorem removeObjs_ok {g : Graph} (h : g.Reach) (s p : Term) (xs : List Term) (nd : xs.Nodup)
    (hx : ∀ x ∈ xs, mkTriple s p x ∈ g.triples) :
    (removeObjs s p g xs).2 = .ok () ∧
    ∀ t, t ∈ (removeObjs s p g xs).1.triples ↔ t ∈ g.triples ∧ ∀ x ∈ xs, t ≠ mkTriple s p x := by
  induction xs generalizing g with
  | nil => exact ⟨rfl, fun t => by simp [removeObjs]⟩
  | cons x xs ih =>
    have hm := fun t => mem_remove h.inv.toIxInv (mkTriple s p x) t
    have hr := h.remove s p x
    have he := remove_of_mem h.inv.toIxInv (hx x (by simp))
    unfold removeObjs
    rw [he] at hm hr ⊢
    rw [List.nodup_cons] at nd
    have ih' := ih hr nd.2 (fun y hy => (hm _).2 ⟨fun e => nd.1 ((mkTriple_inj.1 e).2.2 ▸ hy), hx y (by simp [hy])⟩)
    refine ⟨ih'.1, fun t => ?_⟩
    rw [ih'.2 t, hm t]
    simp only [List.mem_cons, forall_eq_or_imp]
    constructor
    · rintro ⟨⟨h1, h2⟩, h3⟩; exact ⟨h2, h1, h3⟩
    · rintro ⟨h2, h1, h3⟩; exact ⟨⟨h1, h2⟩, h3⟩

/-- If a listed triple is absent, or listed twice, KeyError. -/
theorem removeObjs_error {g : Graph} (h : g.Reach) (s p : Term) (xs : List Term)
    (hx : ¬ (xs.Nodup ∧ ∀ x ∈ xs, mkTriple s p x ∈ g.triples)) : (removeObjs s p g xs).2 = .error .keyError := by
  induction xs generalizing g with
  | nil => simp at hx
  | cons x xs ih =>
    have hm := fun t => mem_remove h.inv.toIxInv (mkTriple s p x) t
    have hr := h.remove s p x
    unfold removeObjs
    by_cases hmem : mkTriple s p x ∈ g.triples
    · rw [remove_of_mem h.inv.toIxInv hmem] at hm hr ⊢
      refine ih hr fun ⟨nd, hall⟩ => hx ⟨?_, ?_⟩
      · rw [List.nodup_cons]
        refine ⟨fun hx' => ?_, nd⟩
        exact ((hm _).1 (hall x hx')).1 rfl
      · intro y hy
        rcases List.mem_cons.1 hy with rfl | hy
        · exact hmem
        · exact ((hm _).1 (hall y hy)).2
    · rw [remove_of_not_mem hmem]

/-! ### Selections -/

/-- The iteration orders are permutations. -/
structure Orders.OK (o : Orders) : Prop where
  stmts : IsOrder o.stmts
  terms : ∀ l, (o.terms l).Perm l
  vals : ∀ l, (o.vals l).Perm l

theorem Orders.OK.default : Orders.OK {} := ⟨fun _ => .refl _, fun _ => .refl _, fun _ => .refl _⟩

theorem mem_objectsOf {o : Orders} (ho : o.OK) {g : Graph} (h : g.Reach) {s p : Term} (hs : s.truthy = true)
    (hp : p.truthy = true) (x : Term) : x ∈ objectsOf o g s p ↔ mkTriple s p x ∈ g.triples := by
  unfold objectsOf
  rw [List.mem_map]
  constructor
  · rintro ⟨t, ht, rfl⟩
    rw [mem_match h.inv ho.stmts] at ht
    obtain ⟨h1, h2, h3, _⟩ := ht
    rw [← h2 hs, ← h3 hp, ← eq_mkTriple (h.inv.isTri t h1)]; exact h1
  · intro hx
    exact ⟨_, (mem_match h.inv ho.stmts _ _ _ _).2 ⟨hx, fun _ => rfl, fun _ => rfl, fun e => by simp [Term.truthy] at e⟩, rfl⟩

theorem nodup_objectsOf {o : Orders} (ho : o.OK) {g : Graph} (h : g.Reach) {s p : Term} (hs : s.truthy = true)
    (hp : p.truthy = true) : (objectsOf o g s p).Nodup := by
  unfold objectsOf
  rw [List.nodup_map_iff_inj_on (nodup_match h.inv.toIxInv ho.stmts _ _ _)]
  intro a ha b hb e
  rw [mem_match h.inv ho.stmts] at ha hb
  obtain ⟨a1, a2, a3, _⟩ := ha
  obtain ⟨b1, b2, b3, _⟩ := hb
  rw [eq_mkTriple (h.inv.isTri a a1), eq_mkTriple (h.inv.isTri b b1), a2 hs, a3 hp, b2 hs, b3 hp, e]

end Verif
