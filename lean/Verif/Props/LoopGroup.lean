import Verif.Props.LoopEdit
/-
C09 for every pattern and every point of suspension: which changes of the graph make the next `next` raise RuntimeError.
-/
namespace Verif
open Spec Graph

/-- The triples that `match(s, p, o)` goes through in one go together with `t`: those with `t`'s subject and predicate, with its predicate
    and object, with its object and subject, or all of them, depending on what is given. -/
def Spec.Tri.Together (s p o : Option Term) (t x : Tri) : Prop :=
  match s, p, o with
  | some _, some _, some _ => x = t
  | some _, _, none => x.s = t.s ∧ x.p = t.p
  | none, some _, _ => x.p = t.p ∧ x.o = t.o
  | _, none, some _ => x.o = t.o ∧ x.s = t.s
  | none, none, none => True

instance (s p o : Option Term) (t : Tri) : DecidablePred (t.Together s p o) := fun x => by
  unfold Spec.Tri.Together; split <;> infer_instance

/-- A generator of `match(s, p, o)` at any point: `next` was called any number of times, and between the calls the graph may have
    been changed in any way (its set iterates in any order each time). -/
inductive Suspended (s p o : Term) : MIter → Prop
  | start : Suspended s p o (.start s p o)
  | next {it} : Suspended s p o it → ∀ ord, IsOrder ord → ∀ u ops, Suspended s p o (next ord (Graph.run u ops) it).1

namespace LoopGroup

/-- The two outer keys of a statement in an index. -/
def keys : Ix → Stmt → Term × Term
  | .spo, t => (t.s, t.p)
  | .pos, t => (t.p, t.o)
  | .osp, t => (t.o, t.s)

/-- The statements still to come in the dict being visited belong there. -/
def Here : MIter → Prop
  | .inner w k1 k2 _ rest _ => ∀ x ∈ rest, keys w x = (k1, k2)
  | _ => True

theorem mem_l2 {g : Graph} (inv : IxInv g) (w : Ix) (k1 k2 : Term) (x : Stmt) :
    x ∈ ((g.ix w).l2 k1 k2).values ↔ x ∈ g.triples ∧ keys w x = (k1, k2) := by
  cases w with
  | spo =>
    rw [show g.ix .spo = g.spo from rfl, Idx.mem_l2_values inv.wspo]
    simp only [inv.spo, keys, Prod.mk.injEq]
    exact ⟨fun ⟨c, h1, h2, h3, _⟩ => ⟨h1, h2, h3⟩, fun ⟨h1, h2, h3⟩ => ⟨_, h1, h2, h3, rfl⟩⟩
  | pos =>
    rw [show g.ix .pos = g.pos from rfl, Idx.mem_l2_values inv.wpos]
    simp only [inv.pos, keys, Prod.mk.injEq]
    exact ⟨fun ⟨c, h1, _, h2, h3⟩ => ⟨h1, h2, h3⟩, fun ⟨h1, h2, h3⟩ => ⟨_, h1, rfl, h2, h3⟩⟩
  | osp =>
    rw [show g.ix .osp = g.osp from rfl, Idx.mem_l2_values inv.wosp]
    simp only [inv.osp, keys, Prod.mk.injEq]
    exact ⟨fun ⟨c, h1, h2, _, h3⟩ => ⟨h1, h3, h2⟩, fun ⟨h1, h2, h3⟩ => ⟨_, h1, h3, rfl, h2⟩⟩

theorem nodup_l2 {g : Graph} (inv : IxInv g) (w : Ix) (k1 k2 : Term) : ((g.ix w).l2 k1 k2).values.Nodup := by
  cases w with
  | spo => exact Idx.nodup_values_of_key (inv.wspo.2.2 k1 k2) (·.o) fun c t h => ((inv.spo _ _ _ _).1 h).2.2.2
  | pos => exact Idx.nodup_values_of_key (inv.wpos.2.2 k1 k2) (·.s) fun c t h => ((inv.pos _ _ _ _).1 h).2.1
  | osp => exact Idx.nodup_values_of_key (inv.wosp.2.2 k1 k2) (·.p) fun c t h => ((inv.osp _ _ _ _).1 h).2.2.1

theorem length_l2 {g : Graph} {S} (h : Rep g S) (w : Ix) (k1 k2 : Term) :
    ((g.ix w).l2 k1 k2).length = (S.filter fun t => keys w t.stmt = (k1, k2)).card := by
  have hp : ((g.ix w).l2 k1 k2).values.Perm ((S.filter fun t => keys w t.stmt = (k1, k2)).toList.map Tri.stmt) := by
    rw [List.perm_ext_iff_of_nodup (nodup_l2 h.inv.toIxInv w k1 k2)
      ((Finset.nodup_toList _).map fun a b e => stmt_inj.1 e)]
    intro x
    rw [mem_l2 h.inv.toIxInv, h.mem]
    simp only [List.mem_map, Finset.mem_toList, Finset.mem_filter]
    constructor
    · rintro ⟨⟨t, ht, rfl⟩, hk⟩; exact ⟨t, ⟨ht, hk⟩, rfl⟩
    · rintro ⟨t, ⟨ht, hk⟩, rfl⟩; exact ⟨⟨t, ht, rfl⟩, hk⟩
  have := hp.length_eq
  simpa [Dict.values] using this

theorem outer_here {g : Graph} (inv : IxInv g) (w k1 n ks) : Here (resumeOuter g w k1 n ks).1 := by
  induction ks with
  | nil => unfold resumeOuter; split <;> trivial
  | cons k ks ih =>
    unfold resumeOuter
    split
    · trivial
    · split
      · exact ih
      · next t rest e =>
        intro x hx
        exact ((mem_l2 inv w k1 k x).1 (by rw [e]; exact List.mem_cons_of_mem _ hx)).2

theorem inner_here {g : Graph} (inv : IxInv g) {w k1 k2 n rest outer} (h : ∀ x ∈ rest, keys w x = (k1, k2)) :
    Here (resumeInner g w k1 k2 n rest outer).1 := by
  unfold resumeInner
  split
  · trivial
  · split
    · next t rest => exact fun x hx => h x (List.mem_cons_of_mem _ hx)
    · split
      · trivial
      · exact outer_here inv _ _ _ _

theorem set_here (g : Graph) (n rest) : Here (resumeSet g n rest).1 := by
  unfold resumeSet; split
  · trivial
  · split <;> trivial

theorem next_here {ord} {g : Graph} (inv : IxInv g) {it : MIter} (h : Here it) : Here (next ord g it).1 := by
  cases it with
  | start s p o =>
    rw [next_start]
    split
    · split <;> trivial
    · exact inner_here inv fun x hx => ((mem_l2 inv _ _ _ x).1 hx).2
    · exact outer_here inv _ _ _ _
    · exact set_here _ _ _
  | bound => trivial
  | done => trivial
  | setIter n rest => exact set_here _ _ _
  | inner w k1 k2 n rest outer => exact inner_here inv h

theorem Suspended.facts {s p o it} (h : Suspended s p o it) : Of s p o it ∧ Here it := by
  induction h with
  | start => exact ⟨⟨rfl, rfl, rfl⟩, trivial⟩
  | next _ ord _ u ops ih => exact ⟨next_of ord _ ih.1, next_here (rep_run u ops).inv.toIxInv ih.2⟩

/-- What a generator has just yielded, and the size of what it is going through. -/
def Just (g : Graph) (t : Stmt) : MIter → Prop
  | .inner w k1 k2 n _ _ => keys w t = (k1, k2) ∧ n = ((g.ix w).l2 k1 k2).length
  | .setIter n _ => n = g.triples.length
  | _ => False

theorem outer_just {g : Graph} (inv : IxInv g) {w k1 n ks it' t} (e : resumeOuter g w k1 n ks = (it', .item t)) : Just g t it' := by
  induction ks with
  | nil => unfold resumeOuter at e; split at e <;> cases e
  | cons k ks ih =>
    unfold resumeOuter at e
    split at e
    · cases e
    · split at e
      · exact ih e
      · next rest ev =>
        cases e
        exact ⟨((mem_l2 inv w k1 k _).1 (by rw [ev]; simp)).2, rfl⟩

theorem inner_just {g : Graph} (inv : IxInv g) {w k1 k2 n rest outer it' t} (h : ∀ x ∈ rest, keys w x = (k1, k2))
    (e : resumeInner g w k1 k2 n rest outer = (it', .item t)) : Just g t it' := by
  unfold resumeInner at e
  split at e
  · cases e
  · next hn =>
    split at e
    · cases e; exact ⟨h _ (by simp), (not_not.1 hn).symm⟩
    · split at e
      · cases e
      · exact outer_just inv e

theorem set_just {g : Graph} {n rest it' t} (e : resumeSet g n rest = (it', .item t)) : Just g t it' := by
  unfold resumeSet at e
  split at e
  · cases e
  · next hn =>
    split at e
    · cases e; exact (not_not.1 hn).symm
    · cases e

theorem next_just {ord} {g : Graph} (inv : IxInv g) {it it' t} (h : Here it) (e : next ord g it = (it', .item t)) :
    Just g t it' ∨ ∃ s p o x, it = .start s p o ∧ plan s p o = .one x := by
  cases it with
  | start s p o =>
    rw [next_start] at e
    split at e
    · next x hx => exact .inr ⟨_, _, _, _, rfl, hx⟩
    · exact .inl (inner_just inv (fun x hx => ((mem_l2 inv _ _ _ x).1 hx).2) e)
    · exact .inl (outer_just inv e)
    · exact .inl (set_just e)
  | bound => cases e
  | done => cases e
  | setIter n rest => exact .inl (set_just e)
  | inner w k1 k2 n rest outer => exact .inl (inner_just inv h e)

theorem plan_eq {s p o : Option Term} (hs : NonEmpty s) (hp : NonEmpty p) (ho : NonEmpty o) :
    plan (arg s) (arg p) (arg o) = match s, p, o with
      | some s, some p, some o => Plan.one (mkTriple s p o)
      | some s, some p, none => .two .spo s p
      | some s, none, some o => .two .osp o s
      | some s, none, none => .three .spo s
      | none, some p, some o => .two .pos p o
      | none, some p, none => .three .pos p
      | none, none, some o => .three .osp o
      | none, none, none => .all := by
  have ht : ∀ {x : Option Term} (_ : NonEmpty x), (arg x).truthy = x.isSome := by
    intro x hx
    cases x with
    | none => rfl
    | some a => exact (truthy_iff a).2 (hx a rfl)
  unfold plan
  rw [ht hs, ht hp, ht ho]
  cases s <;> cases p <;> cases o <;> rfl

end LoopGroup

/-- For every pattern that leaves a position open, at every point of suspension: the generator has just yielded `t`; if by the next call
    the number of triples it goes through together with `t` is another one, that call raises RuntimeError. (`S` and `S'` are the
    graph's triples at the two calls.) -/
theorem C09_together_raises (s p o : Option Term) (hs : NonEmpty s) (hp : NonEmpty p) (ho : NonEmpty o)
    (hopen : s = none ∨ p = none ∨ o = none) {it it' : MIter} (hi : Suspended (arg s) (arg p) (arg o) it)
    (u : Term) (ops : List GOp) (ord) (t : Tri) (e : next ord (Graph.run u ops) it = (it', .item t.stmt))
    (u' : Term) (ops' : List GOp) (ord')
    (hne : ((runSet ops').filter (t.Together s p o)).card ≠ ((runSet ops).filter (t.Together s p o)).card) :
    next ord' (Graph.run u' ops') it' = (.done, .raise .runtimeError) := by
  obtain ⟨hof, hh⟩ := LoopGroup.Suspended.facts hi
  have hr := rep_run u ops
  have hr' := rep_run u' ops'
  have hof' := next_of ord (Graph.run u ops) hof
  rw [e] at hof'
  have hplan := LoopGroup.plan_eq hs hp ho
  rcases LoopGroup.next_just hr.inv.toIxInv hh e with hj | ⟨a, b, c, x, rfl, hx⟩
  case inr =>
    obtain ⟨rfl, rfl, rfl⟩ := hof
    rw [hplan] at hx
    cases s <;> cases p <;> cases o <;> simp at hx hopen
  cases it' with
  | start a b c => exact hj.elim
  | done => exact hj.elim
  | bound => exact hj.elim
  | setIter n rest =>
    have hpl := hplan.symm.trans hof'
    have : s = none ∧ p = none ∧ o = none := by
      cases s <;> cases p <;> cases o <;> simp at hpl ⊢
    obtain ⟨rfl, rfl, rfl⟩ := this
    have hn : n = (Graph.run u ops).triples.length := hj
    refine (C09_size_change_raises ord' (Graph.run u' ops')).2 n rest ?_
    show (Graph.run u' ops').triples.length ≠ n
    rw [hn, hr.length, hr'.length]
    have hall : ∀ S : Finset Tri, S.filter (t.Together none none none) = S := fun S => Finset.filter_true_of_mem fun _ _ => trivial
    rwa [hall, hall] at hne
  | inner w k1 k2 n rest outer =>
    obtain ⟨hk, rfl⟩ := hj
    refine (C09_size_change_raises ord' (Graph.run u' ops')).1 w k1 k2 _ rest outer ?_
    rw [LoopGroup.length_l2 hr, LoopGroup.length_l2 hr']
    have hg : ∀ x : Tri, t.Together s p o x ↔ LoopGroup.keys w x.stmt = (k1, k2) := by
      intro x
      rw [← hk]
      cases outer with
      | none =>
        have hpl := hplan.symm.trans (show plan _ _ _ = .two w k1 k2 from hof')
        cases s <;> cases p <;> cases o <;> simp at hpl <;> obtain ⟨rfl, rfl, rfl⟩ := hpl <;>
          simp [Spec.Tri.Together, LoopGroup.keys, Tri.stmt, mkTriple]
      | some q =>
        have hpl := hplan.symm.trans (show plan _ _ _ = .three w k1 from hof')
        cases s <;> cases p <;> cases o <;> simp at hpl <;> obtain ⟨rfl, rfl⟩ := hpl <;>
          simp [Spec.Tri.Together, LoopGroup.keys, Tri.stmt, mkTriple]
    simp only [hg] at hne
    exact hne

/-- With all three positions given nothing is being iterated: after its one triple the generator is over, whatever was done to the graph. -/
theorem C09_bound_ends (s p o : Option Term) (hs : NonEmpty s) (hp : NonEmpty p) (ho : NonEmpty o) (hall : s ≠ none ∧ p ≠ none ∧ o ≠ none)
    (g : Graph) (ord) {it' t} (e : next ord g (.start (arg s) (arg p) (arg o)) = (it', .item t)) (g' : Graph) (ord') :
    next ord' g' it' = (.done, .stop) := by
  rw [next_start, LoopGroup.plan_eq hs hp ho] at e
  cases s <;> cases p <;> cases o <;> simp at hall
  dsimp only at e
  split at e <;> cases e
  rfl

/-- With one position given the loop is over a dict of dicts. At the end of an inner dict, if the number of inner dicts is another one than
    when the loop began, the next call raises RuntimeError too. -/
theorem C09_outer_raises (ord) (g' : Graph) (w : Ix) (k1 k2 : Term) (n osize : Nat) (ks : List Term)
    (h : ((g'.ix w).l1 k1).length ≠ osize) :
    next ord g' (.inner w k1 k2 n [] (some (osize, ks))) = (.done, .raise .runtimeError) := by
  simp only [next, resumeInner]
  split
  · rfl
  · cases ks <;> unfold resumeOuter <;> rw [if_pos h]

/-! Non-vacuity: at the second of three triples of a subject, a further triple of the first predicate. -/

example : Suspended leA .none .none (next id (Graph.run .none leOps) (.start leA .none .none)).1 := .next .start _ (fun _ => .refl _) _ _

example : (next id (Graph.run .none leOps) (next id (Graph.run .none leOps) (.start leA .none .none)).1).2 = .item (mkTriple leA leP (leX 3)) := by
  decide

example : ((runSet (leOps ++ [.add ⟨leA, leP, leX 4⟩])).filter (Tri.Together (some leA) none none ⟨leA, leP, leX 3⟩)).card ≠
    ((runSet leOps).filter (Tri.Together (some leA) none none ⟨leA, leP, leX 3⟩)).card := by decide

/-- A new predicate of the subject is noticed at the end of the current one. -/
example : (forLoop id (fun i => if i = 0 then [.add ⟨leA, leA, leX 4⟩] else []) 5 0 (Graph.run .none leOps) (.start leA .none .none)).2 =
    ([mkTriple leA leP (leX 1), mkTriple leA leP (leX 3)], some (.error .runtimeError)) := by decide

end Verif
