import Verif.Lemmas.GraphRun
/-
Lemmas on a suspended `match` generator over a graph that is edited elsewhere.
-/
namespace Verif
open Spec

theorem Dict.set_self {κ ν} [DecidableEq κ] {d : Dict κ ν} {k : κ} {v : ν} (h : d.get? k = some v) : d.set k v = d := by
  induction d with
  | nil => cases h
  | cons e d ih =>
    obtain ⟨k', v'⟩ := e
    unfold Dict.get? at h
    unfold Dict.set
    by_cases hk : k' = k
    · simp only [hk, if_true] at h ⊢; cases h; rfl
    · simp only [hk, if_false] at h ⊢; rw [ih h]

namespace Graph

theorem put_of_find {ix : Idx} {a b c : Term} {t : Stmt} (h : ix.find a b c = some t) : ix.put a b c t = ix := by
  unfold Idx.put
  unfold Idx.find at h
  rw [Dict.set_self h]
  unfold Idx.l2 at h ⊢
  cases h1 : Dict.get? (ix.l1 a) b with
  | none => rw [h1] at h; cases h
  | some d =>
    show Dict.set ix a (Dict.set (ix.l1 a) b d) = ix
    rw [Dict.set_self h1]
    unfold Idx.l1 at h1 ⊢
    cases h2 : Dict.get? ix a with
    | none => rw [h2] at h1; cases h1
    | some e => show Dict.set ix a e = ix; exact Dict.set_self h2

/-- Adding a stored triple again changes nothing. -/
theorem add_of_mem {g : Graph} (inv : IxInv g) {t : Stmt} (h : t ∈ g.triples) : g.add t = g := by
  unfold add
  rw [put_of_find ((inv.spo _ _ _ _).2 ⟨h, rfl, rfl, rfl⟩), put_of_find ((inv.pos _ _ _ _).2 ⟨h, rfl, rfl, rfl⟩),
    put_of_find ((inv.osp _ _ _ _).2 ⟨h, rfl, rfl, rfl⟩), setAdd, if_pos h]

/-- Which loop `match` runs for a pattern. -/
inductive Plan
  | one (t : Stmt)
  | two (w : Ix) (k1 k2 : Term)
  | three (w : Ix) (k1 : Term)
  | all

def plan (s p o : Term) : Plan :=
  if s.truthy then
    if p.truthy then if o.truthy then .one (mkTriple s p o) else .two .spo s p
    else if o.truthy then .two .osp o s else .three .spo s
  else if p.truthy then if o.truthy then .two .pos p o else .three .pos p
  else if o.truthy then .three .osp o else .all

/-- The two graphs agree on what that loop reads. -/
def SameView (g g' : Graph) : Plan → Prop
  | .one t => g.contains t = g'.contains t
  | .two w k1 k2 => (g.ix w).l2 k1 k2 = (g'.ix w).l2 k1 k2
  | .three w k1 => (g.ix w).l1 k1 = (g'.ix w).l1 k1
  | .all => g.triples = g'.triples

/-- The generator is one of the loop's states. -/
def Of (s p o : Term) : MIter → Prop
  | .start a b c => a = s ∧ b = p ∧ c = o
  | .bound => True
  | .done => True
  | .inner w k1 k2 _ _ none => plan s p o = .two w k1 k2
  | .inner w k1 _ _ _ (some _) => plan s p o = .three w k1
  | .setIter _ _ => plan s p o = .all

theorem next_start (ord) (g : Graph) (s p o : Term) : next ord g (.start s p o) =
    match plan s p o with
    | .one t => if g.contains t then (.bound, .item t) else (.done, .stop)
    | .two w k1 k2 => startInner g w k1 k2
    | .three w k1 => startOuter g w k1
    | .all => resumeSet g g.triples.length (ord g.triples) := by
  have inner : ∀ w k1 k2, (if Dict.has (g.ix w) k1 && Dict.has ((g.ix w).l1 k1) k2 then startInner g w k1 k2 else (.done, .stop)) =
      startInner g w k1 k2 := by
    intro w k1 k2
    by_cases h : (Dict.has (g.ix w) k1 && Dict.has ((g.ix w).l1 k1) k2) = true
    · rw [if_pos h]
    · rw [if_neg h]
      have := Idx.l2_eq_nil_of_not_has (ix := g.ix w) (a := k1) (b := k2) (by simpa using h)
      simp [startInner, resumeInner, this, Dict.values]
  have outer : ∀ w k1, (if Dict.has (g.ix w) k1 then startOuter g w k1 else (.done, .stop)) = startOuter g w k1 := by
    intro w k1
    by_cases h : Dict.has (g.ix w) k1 = true
    · rw [if_pos h]
    · rw [if_neg h]
      have := Idx.l1_eq_nil_of_not_has (ix := g.ix w) (a := k1) h
      simp [startOuter, resumeOuter, this, Dict.keys]
  by_cases hs : s.truthy <;> by_cases hp : p.truthy <;> by_cases ho : o.truthy <;>
    simp only [next, plan, hs, hp, ho, if_true, if_false, Bool.false_eq_true]
  · exact inner .spo s p
  · exact inner .osp o s
  · exact outer .spo s
  · exact inner .pos p o
  · exact outer .pos p
  · exact outer .osp o

theorem resumeOuter_congr {g g' : Graph} {w k1 n} (h : (g.ix w).l1 k1 = (g'.ix w).l1 k1) (ks : List Term) :
    resumeOuter g w k1 n ks = resumeOuter g' w k1 n ks := by
  induction ks with
  | nil => simp only [resumeOuter, h]
  | cons k ks ih => simp only [resumeOuter, h, Idx.l2, ih]

theorem resumeOuter_of {g : Graph} {w k1 n s p o} (h : plan s p o = .three w k1) (ks : List Term) :
    Of s p o (resumeOuter g w k1 n ks).1 := by
  induction ks with
  | nil => rw [resumeOuter]; split <;> trivial
  | cons k ks ih =>
    rw [resumeOuter]
    split
    · trivial
    · split
      · exact ih
      · exact h

/-- What the generator does next depends only on what its loop reads. -/
theorem next_congr (ord) {g g' : Graph} {s p o : Term} (h : SameView g g' (plan s p o)) {it : MIter} (hi : Of s p o it) :
    next ord g it = next ord g' it := by
  cases it with
  | start a b c =>
    obtain ⟨rfl, rfl, rfl⟩ := hi
    rw [next_start, next_start]
    generalize plan a b c = q at h
    cases q with
    | one t => simp only [SameView] at h; simp only [h]
    | two w k1 k2 => simp only [SameView] at h; simp only [startInner, resumeInner, h]
    | three w k1 => simp only [SameView] at h; simp only [startOuter, h]; exact resumeOuter_congr h _
    | all => simp only [SameView] at h; simp only [resumeSet, h]
  | bound => rfl
  | done => rfl
  | setIter n rest =>
    rw [show plan s p o = .all from hi] at h
    simp only [SameView] at h; simp only [next, resumeSet, h]
  | inner w k1 k2 n rest outer =>
    cases outer with
    | none =>
      rw [show plan s p o = .two w k1 k2 from hi] at h
      simp only [SameView] at h; simp only [next, resumeInner, h]
    | some q =>
      rw [show plan s p o = .three w k1 from hi] at h
      simp only [SameView] at h
      simp only [next, resumeInner, Idx.l2, h]
      rw [resumeOuter_congr h]
      cases rest <;> rfl

theorem next_of (ord) (g : Graph) {s p o : Term} {it : MIter} (hi : Of s p o it) : Of s p o (next ord g it).1 := by
  have inner : ∀ w k1 k2 n rest, plan s p o = .two w k1 k2 → Of s p o (resumeInner g w k1 k2 n rest none).1 := by
    intro w k1 k2 n rest h
    unfold resumeInner
    split
    · trivial
    · split
      · exact h
      · trivial
  have set : ∀ n rest, plan s p o = .all → Of s p o (resumeSet g n rest).1 := by
    intro n rest h
    unfold resumeSet
    split
    · trivial
    · split
      · exact h
      · trivial
  cases it with
  | start a b c =>
    obtain ⟨rfl, rfl, rfl⟩ := hi
    rw [next_start]
    generalize hq : plan a b c = q
    cases q with
    | one t => dsimp only; split <;> trivial
    | two w k1 k2 => exact inner _ _ _ _ _ hq
    | three w k1 => exact resumeOuter_of hq _
    | all => exact set _ _ hq
  | bound => trivial
  | done => trivial
  | setIter n rest => exact set _ _ hi
  | inner w k1 k2 n rest outer =>
    cases outer with
    | none => exact inner _ _ _ _ _ hi
    | some q =>
      show Of s p o (resumeInner g w k1 k2 n rest (some q)).1
      unfold resumeInner
      split
      · trivial
      · split
        · exact hi
        · exact resumeOuter_of hi _

theorem SameView.refl (g : Graph) (q : Plan) : SameView g g q := by cases q <;> rfl

theorem SameView.trans {g1 g2 g3 : Graph} {q : Plan} (h : SameView g1 g2 q) (h' : SameView g2 g3 q) : SameView g1 g3 q := by
  cases q <;> exact Eq.trans h h'

/-- The triple does not match the pattern. -/
def Off (s p o : Term) (t : Stmt) : Prop :=
  ¬ ((s.truthy = true → t.s = s) ∧ (p.truthy = true → t.p = p) ∧ (o.truthy = true → t.o = o))

theorem l1_put_ne {ix : Idx} {a b c a' : Term} {t : Stmt} (h : a ≠ a') : (ix.put a b c t).l1 a' = ix.l1 a' := by
  unfold Idx.put; rw [Idx.l1_set, if_neg h]

theorem l1_del3_ne {ix : Idx} {a b c a' : Term} (h : a ≠ a') : (ix.del3 a b c).l1 a' = ix.l1 a' := by
  unfold Idx.del3; rw [Idx.l1_set, if_neg h]

theorem sameView_add {g : Graph} {s p o : Term} {t : Stmt} (h : Off s p o t) : SameView g (g.add t) (plan s p o) := by
  unfold Off at h
  by_cases hs : s.truthy <;> by_cases hp : p.truthy <;> by_cases ho : o.truthy <;>
    simp only [plan, SameView, hs, hp, ho, if_true, if_false, Bool.false_eq_true, true_implies, false_implies, and_true, true_and,
      not_true_eq_false] at h ⊢
  · unfold contains
    rw [Bool.eq_iff_iff]
    simp only [decide_eq_true_eq, add, mem_setAdd]
    constructor
    · exact Or.inr
    · rintro (h1 | h1)
      · exact absurd ⟨by rw [← h1]; rfl, by rw [← h1]; rfl, by rw [← h1]; rfl⟩ h
      · exact h1
  · show g.spo.l2 s p = (g.spo.put _ _ _ _).l2 s p; rw [Idx.l2_put, if_neg h]
  · show g.osp.l2 o s = (g.osp.put _ _ _ _).l2 o s; rw [Idx.l2_put, if_neg (fun e => h ⟨e.2, e.1⟩)]
  · exact (l1_put_ne h).symm
  · show g.pos.l2 p o = (g.pos.put _ _ _ _).l2 p o; rw [Idx.l2_put, if_neg h]
  · exact (l1_put_ne h).symm
  · exact (l1_put_ne h).symm

theorem sameView_removed {g : Graph} {s p o : Term} {t : Stmt} (nd : g.triples.Nodup) (h : Off s p o t) :
    SameView g (g.removed t) (plan s p o) := by
  unfold Off at h
  by_cases hs : s.truthy <;> by_cases hp : p.truthy <;> by_cases ho : o.truthy <;>
    simp only [plan, SameView, hs, hp, ho, if_true, if_false, Bool.false_eq_true, true_implies, false_implies, and_true, true_and,
      not_true_eq_false] at h ⊢
  · unfold contains
    rw [Bool.eq_iff_iff]
    simp only [decide_eq_true_eq, mem_removed nd]
    constructor
    · intro h1
      refine ⟨fun e => h ⟨by rw [← e]; rfl, by rw [← e]; rfl, by rw [← e]; rfl⟩, h1⟩
    · exact And.right
  · show g.spo.l2 s p = (g.spo.del3 _ _ _).l2 s p; rw [Idx.l2_del3, if_neg h]
  · show g.osp.l2 o s = (g.osp.del3 _ _ _).l2 o s; rw [Idx.l2_del3, if_neg (fun e => h ⟨e.2, e.1⟩)]
  · exact (l1_del3_ne h).symm
  · show g.pos.l2 p o = (g.pos.del3 _ _ _).l2 p o; rw [Idx.l2_del3, if_neg h]
  · exact (l1_del3_ne h).symm
  · exact (l1_del3_ne h).symm

end Graph
end Verif
