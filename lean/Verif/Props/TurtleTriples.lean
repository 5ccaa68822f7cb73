import Verif.Spec.TurtleSem
/-
C63: the triples of a Turtle document.
-/
namespace Verif.Turtle

/-- The nodes `fr` are distinct and were allocated between `n` and `m`. -/
structure Fresh (n m : Nat) (fr : List Nat) : Prop where
  le : n ≤ m
  nodup : fr.Nodup
  range : ∀ b ∈ fr, n ≤ b ∧ b < m

theorem Fresh.nil {n m : Nat} (h : n ≤ m) : Fresh n m [] := ⟨h, List.nodup_nil, by simp⟩

theorem Fresh.append {n m k : Nat} {a b : List Nat} (h : Fresh n m a) (h' : Fresh m k b) : Fresh n k (a ++ b) := by
  refine ⟨Nat.le_trans h.le h'.le, List.nodup_append.2 ⟨h.nodup, h'.nodup, ?_⟩, ?_⟩
  · intro x hx y hy e
    have := h.range x hx; have := h'.range y hy; omega
  · intro x hx
    rcases List.mem_append.1 hx with hx | hx
    · have := h.range x hx; have := h'.le; omega
    · have := h'.range x hx; have := h.le; omega

theorem Fresh.swap {n m : Nat} {a b : List Nat} (h : Fresh n m (a ++ b)) : Fresh n m (b ++ a) :=
  ⟨h.le, (List.perm_append_comm.nodup_iff).1 h.nodup, fun x hx => h.range x (by simp at hx ⊢; exact hx.symm)⟩

theorem Fresh.perm {n m : Nat} {a b : List Nat} (h : Fresh n m a) (p : a.Perm b) : Fresh n m b :=
  ⟨h.le, p.nodup_iff.1 h.nodup, fun x hx => h.range x (p.mem_iff.2 hx)⟩

theorem Fresh.one (n : Nat) : Fresh n (n + 1) [n] := ⟨by omega, by simp, by simp⟩

theorem genMany_den (s v : Term) : ∀ (os : TObjs) (n : Nat), ∃ os' , Leafed os os' ∧ ObjsDen s v os' [] (genMany s v n os).2 ∧ n ≤ (genMany s v n os).1
  | .one (.leaf t), n => ⟨_, .leaf t, .one (.leaf t), Nat.le_refl _⟩
  | .one (.coll c), n => ⟨_, .gen n rfl, .one (.leaf _), by simp [genMany, childTerm]⟩
  | .one (.bnpl c), n => ⟨_, .gen n rfl, .one (.leaf _), by simp [genMany, childTerm]⟩
  | .cons (.leaf t) os, n => by
    obtain ⟨os', h1, h2, h3⟩ := genMany_den s v os n
    exact ⟨_, .consLeaf t h1, .cons (fr := []) (ts := []) (.leaf t) h2, h3⟩
  | .cons (.coll t) os, n => by
    obtain ⟨os', h1, h2, h3⟩ := genMany_den s v os (n + 1)
    exact ⟨_, .consGen n rfl h1, .cons (fr := []) (ts := []) (.leaf _) h2, by simp only [genMany, childTerm]; omega⟩
  | .cons (.bnpl t) os, n => by
    obtain ⟨os', h1, h2, h3⟩ := genMany_den s v os (n + 1)
    exact ⟨_, .consGen n rfl h1, .cons (fr := []) (ts := []) (.leaf _) h2, by simp only [genMany, childTerm]; omega⟩

theorem perm_move {α : Type} (a b : α) (x y : List α) : (x ++ y ++ [a, b]).Perm (a :: b :: (y ++ x)) := by
  have h1 : (x ++ y ++ [a, b]).Perm ([a, b] ++ (x ++ y)) := List.perm_append_comm
  have h2 : (x ++ y).Perm (y ++ x) := List.perm_append_comm
  exact h1.trans ((h2.cons b).cons a)

mutual
theorem genObj_den : ∀ (o : TObj) (n : Nat), ∃ o' fr ts, ObjLossy o o' ∧ ObjDen o' (genObj n o).2.2 fr ts ∧
    (genObj n o).2.1.Perm ts ∧ Fresh n (genObj n o).1 fr
  | .leaf t, n => ⟨_, _, _, .leaf t, .leaf t, .refl _, .nil (Nat.le_refl _)⟩
  | .coll c, n => by
    obtain ⟨c', fr, ts, h1, h2, h3, h4⟩ := genColl_den c n
    exact ⟨_, _, _, .coll h1, .coll h2, h3, h4⟩
  | .bnpl p, n => by
    obtain ⟨p', fr, ts, h1, h2, h3, h4⟩ := genPol_den (.bnode n) p (n + 1)
    exact ⟨_, _, _, .bnpl h1, .bnpl h2, h3, (Fresh.one n).append h4⟩
theorem genColl_den : ∀ (c : TColl) (n : Nat), ∃ c' fr ts, CollLossy c c' ∧ CollDen c' (genColl n c).2.2 fr ts ∧
    (genColl n c).2.1.Perm ts ∧ Fresh n (genColl n c).1 fr
  | .nil, n => ⟨_, _, _, .nil, .nil, .refl _, .nil (Nat.le_refl _)⟩
  | .cons o c, n => by
    obtain ⟨c', fr, ts, h1, h2, h3, h4⟩ := genColl_den c n
    obtain ⟨o', fr', ts', g1, g2, g3, g4⟩ := genObj_den o ((genColl n c).1 + 1)
    refine ⟨_, _, _, .cons g1 h1, .cons (b := (genColl n c).1) g2 h2, ?_, ?_⟩
    · exact ((h3.append g3).append_right _).trans (perm_move _ _ _ _)
    · have := h4.append ((Fresh.one _).append g4)
      refine this.perm ?_
      exact (List.perm_append_comm (l₁ := fr)).trans (List.Perm.refl _)
theorem genPol_den (s : Term) : ∀ (p : TPol) (n : Nat), ∃ p' fr ts, PolLossy p p' ∧ PolDen s p' fr ts ∧
    (genPol s n p).2.Perm ts ∧ Fresh n (genPol s n p).1 fr
  | .last v os k, n => by
    obtain ⟨os', fr, ts, h1, h2, h3, h4⟩ := genObjs_den s v os n
    exact ⟨_, _, _, .last h1, .last h2, h3, h4⟩
  | .cons v os k p, n => by
    obtain ⟨os', fr, ts, h1, h2, h3, h4⟩ := genObjs_den s v os n
    obtain ⟨p', fr', ts', g1, g2, g3, g4⟩ := genPol_den s p (genObjs s v n os).1
    exact ⟨_, _, _, .cons h1 g1, .cons h2 g2, h3.append g3, h4.append g4⟩
theorem genObjs_den (s v : Term) : ∀ (os : TObjs) (n : Nat), ∃ os' fr ts, ObjsLossy os os' ∧ ObjsDen s v os' fr ts ∧
    (genObjs s v n os).2.Perm ts ∧ Fresh n (genObjs s v n os).1 fr
  | .one o, n => by
    obtain ⟨o', fr, ts, h1, h2, h3, h4⟩ := genObj_den o n
    refine ⟨_, _, _, .one h1, .one h2, ?_, h4⟩
    exact (List.perm_append_comm.trans (h3.cons _))
  | .cons o os, n => by
    obtain ⟨os', h1, h2, h3⟩ := genMany_den s v (.cons o os) n
    exact ⟨_, _, _, .cons h1, h2, .refl _, .nil h3⟩
end

theorem genStmt_den (s : EStmt) (n : Nat) : ∃ s' fr ts, StmtLossy s s' ∧ StmtDen s' fr ts ∧ (genStmt n s).2.Perm ts ∧ Fresh n (genStmt n s).1 fr := by
  cases s with
  | directive => exact ⟨_, _, _, .directive, .directive, .refl _, .nil (Nat.le_refl _)⟩
  | node s p =>
    obtain ⟨p', fr, ts, h1, h2, h3, h4⟩ := genPol_den s p n
    exact ⟨_, _, _, .node h1, .node h2, h3, h4⟩
  | coll c p =>
    obtain ⟨c', fr, ts, h1, h2, h3, h4⟩ := genColl_den c n
    obtain ⟨p', fr', ts', g1, g2, g3, g4⟩ := genPol_den (genColl n c).2.2 p (genColl n c).1
    exact ⟨_, _, _, .coll h1 g1, .coll h2 g2, h3.append g3, h4.append g4⟩
  | bnpl s =>
    obtain ⟨p', fr, ts, h1, h2, h3, h4⟩ := genPol_den (.bnode n) s (n + 1)
    exact ⟨_, _, _, .bnpl h1, .bnpl h2, h3, (Fresh.one n).append h4⟩
  | bnplPol s p =>
    obtain ⟨s', fr, ts, h1, h2, h3, h4⟩ := genPol_den (.bnode n) s (n + 1)
    obtain ⟨p', fr', ts', g1, g2, g3, g4⟩ := genPol_den (.bnode n) p (genPol (.bnode n) (n + 1) s).1
    exact ⟨_, _, _, .bnplPol h1 g1, .bnplPol h2 g2, h3.append g3, (Fresh.one n).append (h4.append g4)⟩

/-- Exactly: the triples of every document are those of the Turtle semantics, except that a collection or property list among several objects of a predicate is
    replaced by a generator object, and its own triples are missing. -/
theorem C63_exact (es : List EStmt) (n : Nat) : ∃ es' fr ts, DocLossy es es' ∧ DocDen es' fr ts ∧
    (genStmts n es).2.Perm ts ∧ Fresh n (genStmts n es).1 fr := by
  induction es generalizing n with
  | nil => exact ⟨_, _, _, .nil, .nil, .refl _, .nil (Nat.le_refl _)⟩
  | cons s es ih =>
    obtain ⟨s', fr, ts, h1, h2, h3, h4⟩ := genStmt_den s n
    obtain ⟨es', fr', ts', g1, g2, g3, g4⟩ := ih (genStmt n s).1
    exact ⟨_, _, _, .cons h1 g1, .cons h2 g2, h3.append g3, h4.append g4⟩

/-! ### Plain documents -/

theorem leafed_plain {os os' : TObjs} (h : Leafed os os') (hp : os.allLeaf = true) : os' = os := by
  induction h with
  | leaf t => rfl
  | gen k ho => rw [Objs.allLeaf, ho] at hp; cases hp
  | consLeaf t _ ih => rw [ih (by simpa [Objs.allLeaf, Obj.isLeaf] using hp)]
  | consGen k ho _ _ => rw [Objs.allLeaf, ho] at hp; cases hp

mutual
theorem objLossy_plain : ∀ (o o' : TObj), ObjLossy o o' → o.plain = true → o' = o
  | .leaf _, _, .leaf _, _ => rfl
  | .coll c, _, .coll h, hp => by rw [collLossy_plain c _ h hp]
  | .bnpl c, _, .bnpl h, hp => by rw [polLossy_plain c _ h hp]
theorem collLossy_plain : ∀ (o o' : TColl), CollLossy o o' → o.plain = true → o' = o
  | .nil, _, .nil, _ => rfl
  | .cons o c, _, .cons h h', hp => by
    have hp : (o.plain && c.plain) = true := hp
    rw [Bool.and_eq_true] at hp
    rw [objLossy_plain o _ h hp.1, collLossy_plain c _ h' hp.2]
theorem objsLossy_plain : ∀ (o o' : TObjs), ObjsLossy o o' → o.plain = true → o' = o
  | .one o, _, .one h, hp => by rw [objLossy_plain o _ h hp]
  | .cons o os, _, .cons h, hp => leafed_plain h hp
theorem polLossy_plain : ∀ (o o' : TPol), PolLossy o o' → o.plain = true → o' = o
  | .last v os k, _, .last h, hp => by rw [objsLossy_plain os _ h hp]
  | .cons v os k p, _, .cons h h', hp => by
    have hp : (os.plain && p.plain) = true := hp
    rw [Bool.and_eq_true] at hp
    rw [objsLossy_plain os _ h hp.1, polLossy_plain p _ h' hp.2]
end

theorem stmtLossy_plain {s s' : EStmt} (h : StmtLossy s s') (hp : s.plain = true) : s' = s := by
  cases h with
  | directive => rfl
  | node h => rw [polLossy_plain _ _ h hp]
  | coll h h' =>
    rw [EStmt.plain, Bool.and_eq_true] at hp
    rw [collLossy_plain _ _ h hp.1, polLossy_plain _ _ h' hp.2]
  | bnpl h => rw [polLossy_plain _ _ h hp]
  | bnplPol h h' =>
    rw [EStmt.plain, Bool.and_eq_true] at hp
    rw [polLossy_plain _ _ h hp.1, polLossy_plain _ _ h' hp.2]

theorem docLossy_plain {es es' : List EStmt} (h : DocLossy es es') (hp : ∀ s ∈ es, s.plain = true) : es' = es := by
  induction h with
  | nil => rfl
  | cons h _ ih => rw [stmtLossy_plain h (hp _ (by simp)), ih (fun s hs => hp s (by simp [hs]))]

/-- What C63 claims, of every document: the triples are those of the Turtle semantics, each property list and collection cell being a
    blank node of its own. -/
def C63_statement : Prop :=
  ∀ (es : List EStmt) (n : Nat), ∃ fr ts, DocDen es fr ts ∧ (genStmts n es).2.Perm ts ∧ Fresh n (genStmts n es).1 fr

/-- The claim holds of the documents without collections and property lists in object lists with several objects.
    Missing: those documents (`C63_refuted`, `C63_exact`). -/
theorem C63_partial (es : List EStmt) (hp : ∀ s ∈ es, s.plain = true) (n : Nat) :
    ∃ fr ts, DocDen es fr ts ∧ (genStmts n es).2.Perm ts ∧ Fresh n (genStmts n es).1 fr := by
  obtain ⟨es', fr, ts, h1, h2⟩ := C63_exact es n
  rw [docLossy_plain h1 hp] at h2
  exact ⟨fr, ts, h2⟩

/-- `<s> <p> (<o>) .` -/
def exColl : List EStmt := [.node (.named (py! "s")) (.last (.named (py! "p")) (.one (.coll (.cons (.leaf (.named (py! "o"))) .nil))) 0)]

example : (∀ s ∈ exColl, s.plain = true) ∧ DocDen exColl [7]
    [mkTriple (.named (py! "s")) (.named (py! "p")) (.bnode 7), mkTriple (.bnode 7) rdfFirst (.named (py! "o")), mkTriple (.bnode 7) rdfRest rdfNil] :=
  ⟨by decide, .cons (.node (.last (.one (.coll (.cons (.leaf _) .nil))))) .nil⟩

/-- `<s> <p> (), <o> .` gives a triple whose object is a generator. -/
theorem C63_generator : (parseText (fun _ => true) [] 0 (py! "<s> <p> (), <o> .")).map (·.2) =
    .ok [mkTriple (.named (py! "s")) (.named (py! "p")) (.gen 0), mkTriple (.named (py! "s")) (.named (py! "p")) (.named (py! "o"))] := by
  decide

theorem C63_refuted : ¬ C63_statement := by
  intro h
  obtain ⟨fr, ts, h1, h2, _⟩ := h [.node (.named (py! "s")) (.last (.named (py! "p")) (.cons (.coll .nil) (.one (.leaf (.named (py! "o"))))) 0)] 0
  have h3 : mkTriple (.named (py! "s")) (.named (py! "p")) (.gen 0) ∈ ts := h2.mem_iff.1 (by decide)
  cases h1 with
  | cons h1 h1' =>
    cases h1'
    cases h1 with
    | node h1 =>
      cases h1 with
      | last h1 =>
        cases h1 with
        | cons a b =>
          cases a with
          | coll a =>
            cases a
            cases b with
            | one b =>
              cases b
              revert h3; decide

end Verif.Turtle
