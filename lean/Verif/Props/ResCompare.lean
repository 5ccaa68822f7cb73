import Verif.Model.ResCompare
import Verif.Props.ResWhole
/-
C114, C115: `!=` and `as_`.
-/
namespace Verif
open Spec Graph

/-- C114. For all values, `a != b` is true exactly if `a == b` is false. -/
theorem C114_ne (a b : EqVal) : pyNe a b = !pyEq a b := by
  cases a <;> cases b <;> simp [pyNe, pyEq, resNe, resEq, Bool.not_and, Bool.decide_and]

/-- Hence `!=` is symmetric and no value differs from itself. -/
theorem C114_laws (a b : EqVal) : pyNe a b = pyNe b a ∧ pyNe a a = false := by
  rw [C114_ne, C114_ne, C114_ne, C54_symm a b, C54_refl]; exact ⟨rfl, rfl⟩

example : pyNe (.res ⟨0, .named (py! "http://a")⟩) (.iri (py! "http://a")) = false ∧
    pyNe (.iri (py! "http://a")) (.res ⟨1, .named (py! "http://b")⟩) = true ∧
    pyNe (.res ⟨0, .bnode 1⟩) (.bnode 1) = true := by decide

/-- C115. Constructing a Resource and viewing it as another class keep the subject: the view is equal to the resource and hashes alike, views of views are views,
    and viewing a resource as its own class changes nothing. -/
theorem C115_as {s : Term} (hs : IsResource s) (c d e : Nat) (hash₁ hash₂ hash₃) :
    (initRes c s).s = s ∧ (asClass (initRes c s) d).c = d ∧
    pyEq (.res (asClass (initRes c s) d)) (.res (initRes c s)) = true ∧
    pyHash hash₁ hash₂ hash₃ (.res (asClass (initRes c s) d)) = pyHash hash₁ hash₂ hash₃ (.res (initRes c s)) ∧
    asClass (asClass (initRes c s) d) e = asClass (initRes c s) e ∧ asClass (initRes c s) c = initRes c s := by
  rcases hs with ⟨i, rfl⟩ | ⟨i, rfl⟩
  · exact ⟨rfl, rfl, by simp [asClass, initRes, pyEq], rfl, rfl, rfl⟩
  · exact ⟨rfl, rfl, by simp [asClass, initRes, pyEq], rfl, rfl, rfl⟩

/-- What is read through a view is what a resource of the target class with the same subject shows, whatever the class of the original. -/
theorem C115_view (o : Orders) (w : World) (g : Graph) (s : Term) (c c' d : Nat) (key : Key) :
    getItem o w g (asClass (initRes c s) d) key = getItem o w g (asClass (initRes c' s) d) key := by
  cases s <;> rfl

/-- A string (or anything else that is no node) names the node with that IRI. -/
theorem C115_string (c : Nat) (t : Term) (h : ¬ IsResource t) : (initRes c t).s = .named t.str := by
  cases t with
  | named i => exact absurd (.inl ⟨i, rfl⟩) h
  | bnode i => exact absurd (.inr ⟨i, rfl⟩) h
  | _ => rfl

/-- `repr` of two resources of one class is equal exactly if the texts of their subjects are: so different IRIs show differently. -/
theorem C115_repr (cls : PStr) (c d : Nat) (s t : Term) :
    (resRepr cls ⟨c, s⟩ = resRepr cls ⟨d, t⟩ ↔ s.str = t.str) ∧
    ∀ i j, resRepr cls (initRes c (.named i)) = resRepr cls (initRes d (.named j)) ↔ i = j := by
  have h : ∀ x y : Res, resRepr cls x = resRepr cls y ↔ x.s.str = y.s.str := by
    intro x y
    simp [resRepr]
  refine ⟨h _ _, fun i j => ?_⟩
  rw [h]; simp [initRes, Term.str]

/-- With the class: as the text of a class has no colon, two resources show alike exactly if their classes and subjects do. -/
theorem C115_repr_class (cls cls' : PStr) (h : 58 ∉ cls) (h' : 58 ∉ cls') (x y : Res) :
    resRepr cls x = resRepr cls' y ↔ cls = cls' ∧ x.s.str = y.s.str := by
  have key : ∀ (a b u v : PStr), 58 ∉ a → 58 ∉ b → (a ++ 58 :: u = b ++ 58 :: v ↔ a = b ∧ u = v) := by
    intro a
    induction a with
    | nil =>
      intro b u v _ hb
      cases b with
      | nil => simp
      | cons c b => simp only [List.nil_append, List.cons_append, List.cons.injEq]; constructor
                    · rintro ⟨rfl, -⟩; simp at hb
                    · rintro ⟨e, -⟩; cases e
    | cons c a ih =>
      intro b u v ha hb
      cases b with
      | nil => simp only [List.nil_append, List.cons_append, List.cons.injEq]; constructor
               · rintro ⟨rfl, -⟩; simp at ha
               · rintro ⟨e, -⟩; cases e
      | cons d b =>
        simp only [List.mem_cons, not_or] at ha hb
        simp only [List.cons_append, List.cons.injEq, ih b u v ha.2 hb.2, and_assoc]
  have e : ∀ c (r : Res), resRepr c r = 60 :: (c ++ 58 :: (32 :: (r.s.str ++ [62]))) := by
    intro c r; simp [resRepr]
  rw [e, e, List.cons.injEq, key _ _ _ _ h h']
  simp

example : resRepr (py! "<class 'A'>") ⟨0, .named (py! "http://a")⟩ = py! "<<class 'A'>: http://a>" := by decide

/-- A list cell viewed as a list: iteration needs the view, since the plain class has no scalar rdf:first. -/
example : asClass ⟨0, .bnode 3⟩ 1 = ⟨1, .bnode 3⟩ ∧ pyEq (.res (asClass ⟨0, .bnode 3⟩ 1)) (.res ⟨0, .bnode 3⟩) = true := by decide

end Verif
