import Verif.Lemmas.GraphIter
/-
Histories of operations on the Graph model, and the refinement relation to the set specification.
-/
namespace Verif
open Spec

/-- One operation of a history, executed by the model. -/
def Graph.exec (g : Graph) : GOp → Graph × Except Exc Unit
  | .add t => (g.add t.stmt, .ok ())
  | .addAll ts => (g.addAll (ts.map Tri.stmt), .ok ())
  | .remove t => g.remove t.stmt

/-- The graph after a history on `Graph(u)`. -/
def Graph.run (u : Term) (ops : List GOp) : Graph := ops.foldl (fun g op => (g.exec op).1) (Graph.new u)

namespace Graph

/-- The graph represents the set. -/
structure Rep (g : Graph) (S : Finset Tri) : Prop where
  inv : Inv g
  mem : ∀ x, x ∈ g.triples ↔ ∃ t ∈ S, x = t.stmt

theorem stmt_inj {t t' : Tri} : t.stmt = t'.stmt ↔ t = t' := by
  cases t; cases t'; simp [Tri.stmt, mkTriple]

theorem Rep.mem_stmt {g S} (h : Rep g S) (t : Tri) : t.stmt ∈ g.triples ↔ t ∈ S := by
  rw [h.mem]
  constructor
  · rintro ⟨t', h1, h2⟩; rw [stmt_inj] at h2; exact h2 ▸ h1
  · intro h1; exact ⟨t, h1, rfl⟩

theorem Rep.new (u : Term) : Rep (Graph.new u) ∅ := ⟨Inv.new u, by simp [Graph.new]⟩

theorem Rep.exec {g S} (h : Rep g S) (op : GOp) : Rep (g.exec op).1 (op.apply S) := by
  cases op with
  | add t =>
    refine ⟨h.inv.add rfl, fun x => ?_⟩
    show x ∈ (g.add _).triples ↔ _
    rw [mem_add, h.mem]
    simp only [GOp.apply, Finset.mem_insert]
    constructor
    · rintro (rfl | ⟨t', h1, rfl⟩)
      exacts [⟨t, Or.inl rfl, rfl⟩, ⟨t', Or.inr h1, rfl⟩]
    · rintro ⟨t', rfl | h1, rfl⟩
      exacts [Or.inl rfl, Or.inr ⟨t', h1, rfl⟩]
  | addAll ts =>
    refine ⟨h.inv.addAll (by simp [Tri.stmt, mkTriple]), fun x => ?_⟩
    show x ∈ (g.addAll _).triples ↔ _
    rw [mem_addAll, h.mem]
    simp only [GOp.apply, Finset.mem_union, List.mem_toFinset, List.mem_map]
    constructor
    · rintro (⟨t, h1, rfl⟩ | ⟨t', h1, rfl⟩)
      exacts [⟨t, Or.inr h1, rfl⟩, ⟨t', Or.inl h1, rfl⟩]
    · rintro ⟨t', h1 | h1, rfl⟩
      exacts [Or.inr ⟨t', h1, rfl⟩, Or.inl ⟨t', h1, rfl⟩]
  | remove t =>
    refine ⟨h.inv.remove _, fun x => ?_⟩
    show x ∈ (g.remove _).1.triples ↔ _
    rw [mem_remove h.inv.toIxInv, h.mem]
    simp only [GOp.apply, Finset.mem_erase]
    constructor
    · rintro ⟨h1, t', h2, rfl⟩
      exact ⟨t', ⟨fun e => h1 (e ▸ rfl), h2⟩, rfl⟩
    · rintro ⟨t', ⟨h1, h2⟩, rfl⟩
      exact ⟨fun e => h1 (stmt_inj.1 e), t', h2, rfl⟩

theorem rep_run (u : Term) (ops : List GOp) : Rep (Graph.run u ops) (runSet ops) := by
  unfold Graph.run runSet
  have : ∀ (ops : List GOp) g S, Rep g S → Rep (ops.foldl (fun g op => (g.exec op).1) g) (ops.foldl (fun S op => op.apply S) S) := by
    intro ops
    induction ops with
    | nil => intro g S h; exact h
    | cons op ops ih => intro g S h; exact ih _ _ (h.exec op)
  exact this ops _ _ (Rep.new u)

theorem Rep.triples_perm {g S} (h : Rep g S) : g.triples.Perm (S.toList.map Tri.stmt) := by
  rw [List.perm_ext_iff_of_nodup h.inv.nodup]
  · intro x; rw [h.mem]; simp [eq_comm]
  · exact (Finset.nodup_toList S).map (fun a b e => stmt_inj.1 e)

theorem Rep.length {g S} (h : Rep g S) : g.triples.length = S.card := by
  rw [h.triples_perm.length_eq]; simp

theorem truthy_iff (t : Term) : t.truthy = true ↔ t ≠ .none ∧ t ≠ .named [] := by
  cases t with
  | named i => cases i <;> simp [Term.truthy]
  | _ => simp [Term.truthy]

theorem agrees_iff {pat : Option Term} (h : NonEmpty pat) (t : Term) :
    agrees pat t ↔ ((arg pat).truthy = true → t = arg pat) := by
  cases pat with
  | none => simp [agrees, arg, Term.truthy]
  | some a =>
    have := (truthy_iff a).2 (h a rfl)
    simp [agrees, arg, this]

/-- `match` on a graph that represents `S`. -/
theorem Rep.mem_match {g S} (h : Rep g S) {ord} (hord : IsOrder ord) {s p o : Option Term}
    (hs : NonEmpty s) (hp : NonEmpty p) (ho : NonEmpty o) (x : Stmt) :
    x ∈ g.match ord (arg s) (arg p) (arg o) ↔ ∃ t ∈ S, x = t.stmt ∧ t.Matches s p o := by
  rw [Graph.mem_match h.inv hord, h.mem]
  constructor
  · rintro ⟨⟨t, ht, rfl⟩, h1, h2, h3⟩
    exact ⟨t, ht, rfl, (agrees_iff hs _).2 h1, (agrees_iff hp _).2 h2, (agrees_iff ho _).2 h3⟩
  · rintro ⟨t, ht, rfl, h1, h2, h3⟩
    exact ⟨⟨t, ht, rfl⟩, (agrees_iff hs _).1 h1, (agrees_iff hp _).1 h2, (agrees_iff ho _).1 h3⟩

end Graph
end Verif
