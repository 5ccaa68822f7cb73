import Verif.Lemmas.LoopEdit
import Verif.Props.Graph
/-
C138: editing a graph while looping over `match`.
-/
namespace Verif
open Spec Graph

/-- Some edits, one after the other; an exception of an edit (removing an absent triple) is caught. -/
def Graph.execs (g : Graph) (es : List GOp) : Graph := es.foldl (fun g op => (g.exec op).1) g

/-- `for t in it: body`, where the body yields its item to the caller and, the `i`-th time it is run, performs the edits `body i`.
    The result: the graph afterwards, the items, and the outcome of the loop (`none`: still running after `fuel` calls of `next`). -/
def forLoop (ord : List Stmt → List Stmt) (body : Nat → List GOp) :
    Nat → Nat → Graph → MIter → Graph × List Stmt × Option (Except Exc Unit)
  | 0, _, g, _ => (g, [], none)
  | fuel + 1, i, g, it =>
    match next ord g it with
    | (_, .stop) => (g, [], some (.ok ()))
    | (_, .raise e) => (g, [], some (.error e))
    | (it', .item t) =>
      let r := forLoop ord body fuel (i + 1) (g.execs (body i)) it'
      (r.1, t :: r.2.1, r.2.2)

/-- The edit does not touch the triples of `S` that match the pattern: it adds only triples that do not match or are already in
    `S`, and removes only triples that do not match or are not in `S`. -/
def Elsewhere (s p o : Option Term) (S : Finset Tri) : GOp → Prop
  | .add t => t.Matches s p o → t ∈ S
  | .addAll ts => ∀ t ∈ ts, t.Matches s p o → t ∈ S
  | .remove t => t.Matches s p o → t ∉ S

namespace LoopEdit

variable {s p o : Option Term}

/-- The invariant of the loop. -/
structure Same (s p o : Option Term) (S : Finset Tri) (g g' : Graph) : Prop where
  view : SameView g g' (plan (arg s) (arg p) (arg o))
  inv : IxInv g'
  tri : Inv g'
  keep : ∀ t : Tri, t.Matches s p o → (t.stmt ∈ g'.triples ↔ t ∈ S)

theorem off_of_not (hs : NonEmpty s) (hp : NonEmpty p) (ho : NonEmpty o) {t : Tri} (h : ¬ t.Matches s p o) :
    Off (arg s) (arg p) (arg o) t.stmt := by
  intro h'
  exact h ⟨(agrees_iff hs _).2 h'.1, (agrees_iff hp _).2 h'.2.1, (agrees_iff ho _).2 h'.2.2⟩

theorem Same.add (hs : NonEmpty s) (hp : NonEmpty p) (ho : NonEmpty o) {S g g'} (h : Same s p o S g g') {t : Tri}
    (ht : t.Matches s p o → t ∈ S) : Same s p o S g (g'.add t.stmt) := by
  by_cases hm : t.Matches s p o
  · rw [add_of_mem h.inv ((h.keep t hm).2 (ht hm))]; exact h
  · have hi := h.tri.add (t := t.stmt) rfl
    refine ⟨h.view.trans (sameView_add (off_of_not hs hp ho hm)), hi.toIxInv, hi, fun x hx => ?_⟩
    rw [mem_add, stmt_inj]
    constructor
    · rintro (rfl | h1)
      · exact absurd hx hm
      · exact (h.keep x hx).1 h1
    · exact fun h1 => Or.inr ((h.keep x hx).2 h1)

theorem Same.exec (hs : NonEmpty s) (hp : NonEmpty p) (ho : NonEmpty o) {S g g'} (h : Same s p o S g g') {op : GOp}
    (he : Elsewhere s p o S op) : Same s p o S g (g'.exec op).1 := by
  cases op with
  | add t => exact h.add hs hp ho he
  | addAll ts =>
    show Same s p o S g ((ts.map Tri.stmt).foldl Graph.add g')
    have he : ∀ t ∈ ts, t.Matches s p o → t ∈ S := he
    clear * - h he hs hp ho
    induction ts generalizing g' with
    | nil => exact h
    | cons t ts ih => exact ih (h.add hs hp ho (he t (by simp))) fun x hx => he x (by simp [hx])
  | remove t =>
    show Same s p o S g (g'.remove t.stmt).1
    by_cases hin : t.stmt ∈ g'.triples
    · have hm : ¬ t.Matches s p o := fun hm => he hm ((h.keep t hm).1 hin)
      have hi := h.tri.remove t.stmt
      have hk := fun x => mem_remove h.inv t.stmt x
      rw [remove_of_mem h.inv hin] at hi hk ⊢
      refine ⟨h.view.trans (sameView_removed h.inv.nodup (off_of_not hs hp ho hm)), hi.toIxInv, hi, fun x hx => ?_⟩
      rw [mem_removed h.inv.nodup, Ne, stmt_inj, h.keep x hx]
      exact and_iff_right (fun e => hm (e ▸ hx))
    · rw [remove_of_not_mem hin]; exact h

theorem Same.execs (hs : NonEmpty s) (hp : NonEmpty p) (ho : NonEmpty o) {S g g'} (h : Same s p o S g g') {es : List GOp}
    (he : ∀ op ∈ es, Elsewhere s p o S op) : Same s p o S g (g'.execs es) := by
  unfold Graph.execs
  induction es generalizing g' with
  | nil => exact h
  | cons e es ih => exact ih (h.exec hs hp ho (he e (by simp))) fun x hx => he x (by simp [hx])

theorem loop_drains (hs : NonEmpty s) (hp : NonEmpty p) (ho : NonEmpty o) {ord} {S} {g : Graph} (body : Nat → List GOp)
    (hb : ∀ i, ∀ op ∈ body i, Elsewhere s p o S op) {it l} (hd : Drains ord g it l) :
    ∀ {fuel i} {g' : Graph}, Of (arg s) (arg p) (arg o) it → Same s p o S g g' → l.length < fuel →
    forLoop ord body fuel i g' it =
      (g'.execs ((List.range l.length).flatMap fun j => body (i + j)), l, some (.ok ())) := by
  induction hd with
  | @stop it it' e =>
    intro fuel i g' hi h hl
    obtain ⟨fuel, rfl⟩ : ∃ n, fuel = n + 1 := ⟨fuel - 1, by simp at hl; omega⟩
    rw [forLoop, ← next_congr ord h.view hi, e]; rfl
  | @item it it' t l e d ih =>
    intro fuel i g' hi h hl
    obtain ⟨fuel, rfl⟩ : ∃ n, fuel = n + 1 := ⟨fuel - 1, by simp at hl; omega⟩
    have hi' := next_of ord g hi
    rw [e] at hi'
    rw [forLoop, ← next_congr ord h.view hi, e]
    dsimp only
    rw [ih hi' (h.execs hs hp ho (hb i)) (by simpa using hl)]
    simp only [List.length_cons, List.range_succ_eq_map, List.flatMap_cons, List.flatMap_map, Nat.add_zero]
    refine Prod.ext ?_ rfl
    simp only [Graph.execs, List.foldl_append]
    congr 1
    refine congrArg (List.flatMap · _) (funext fun j => ?_)
    congr 1; omega

end LoopEdit

/-- A loop over `match` whose body edits the graph only elsewhere — adding and removing triples that do not match the pattern, or
    re-adding matching triples that are there — is not disturbed: it visits exactly the matches at the start, in the same order,
    raises nothing, and all the edits are made. -/
theorem C138_undisturbed (u : Term) (ops : List GOp) (ord) (s p o : Option Term)
    (hs : NonEmpty s) (hp : NonEmpty p) (ho : NonEmpty o) (body : Nat → List GOp)
    (hb : ∀ i, ∀ op ∈ body i, Elsewhere s p o (runSet ops) op) (fuel : Nat)
    (hf : ((Graph.run u ops).match ord (arg s) (arg p) (arg o)).length < fuel) :
    forLoop ord body fuel 0 (Graph.run u ops) (.start (arg s) (arg p) (arg o)) =
      (Graph.run u (ops ++ (List.range ((Graph.run u ops).match ord (arg s) (arg p) (arg o)).length).flatMap body),
       (Graph.run u ops).match ord (arg s) (arg p) (arg o), some (.ok ())) := by
  have hr := rep_run u ops
  rw [LoopEdit.loop_drains hs hp ho body hb (drains_match ord _ _ _ _) ⟨rfl, rfl, rfl⟩
    ⟨.refl _ _, hr.inv.toIxInv, hr.inv, fun t _ => hr.mem_stmt t⟩ hf]
  refine Prod.ext ?_ rfl
  simp only [Nat.zero_add, Graph.run, Graph.execs, List.foldl_append]

/-- The visited triples, as a set. -/
theorem C138_visits (u : Term) (ops : List GOp) (ord) (hord : IsOrder ord) (s p o : Option Term)
    (hs : NonEmpty s) (hp : NonEmpty p) (ho : NonEmpty o) (body : Nat → List GOp)
    (hb : ∀ i, ∀ op ∈ body i, Elsewhere s p o (runSet ops) op) :
    ∃ g' l, forLoop ord body ((runSet ops).card + 1) 0 (Graph.run u ops) (.start (arg s) (arg p) (arg o)) =
        (g', l, some (.ok ())) ∧ l.Nodup ∧ (∀ t : Tri, t.stmt ∈ l ↔ t ∈ runSet ops ∧ t.Matches s p o) ∧
      (∀ t : Tri, t.Matches s p o → (t.stmt ∈ g'.triples ↔ t ∈ runSet ops)) := by
  have hr := rep_run u ops
  have hlen : ((Graph.run u ops).match ord (arg s) (arg p) (arg o)).length ≤ (runSet ops).card := by
    rw [← hr.length]
    refine (List.subperm_of_subset (nodup_match hr.inv.toIxInv hord _ _ _) fun x hx => ?_).length_le
    exact ((mem_match hr.inv hord _ _ _ x).1 hx).1
  refine ⟨_, _, C138_undisturbed u ops ord s p o hs hp ho body hb _ (by omega), nodup_match hr.inv.toIxInv hord _ _ _,
    fun t => ?_, fun t ht => ?_⟩
  · rw [hr.mem_match hord hs hp ho]
    constructor
    · rintro ⟨x, h1, h2, h3⟩; rw [stmt_inj] at h2; subst h2; exact ⟨h1, h3⟩
    · rintro ⟨h1, h2⟩; exact ⟨t, h1, rfl, h2⟩
  · have : LoopEdit.Same s p o (runSet ops) (Graph.run u ops) ((Graph.run u ops).execs
        ((List.range ((Graph.run u ops).match ord (arg s) (arg p) (arg o)).length).flatMap body)) :=
      LoopEdit.Same.execs hs hp ho ⟨.refl _ _, hr.inv.toIxInv, hr.inv, fun t _ => hr.mem_stmt t⟩ (by
        intro op hop
        obtain ⟨i, _, hi⟩ := List.mem_flatMap.1 hop
        exact hb i op hi)
    rw [← this.keep t ht]
    simp only [Graph.run, Graph.execs, List.foldl_append]

/-! Non-vacuity: a loop over one subject whose body copies each item to another subject and removes it from there again. -/

def leA : Term := .named (py! "a:a")
def leB : Term := .named (py! "a:b")
def leP : Term := .named (py! "a:p")
def leQ : Term := .named (py! "a:q")
def leX (n : Nat) : Term := .lit [n] .none .none

def leOps : List GOp := [.add ⟨leA, leP, leX 1⟩, .add ⟨leA, leQ, leX 2⟩, .add ⟨leA, leP, leX 3⟩]

def leBody (i : Nat) : List GOp := [.add ⟨leB, leP, leX i⟩, .add ⟨leA, leP, leX 1⟩, .remove ⟨leB, leQ, leX 5⟩]

example : (forLoop id leBody 4 0 (Graph.run .none leOps) (.start leA .none .none)).2 =
    ([mkTriple leA leP (leX 1), mkTriple leA leP (leX 3), mkTriple leA leQ (leX 2)], some (.ok ())) := by decide

example : (forLoop id leBody 4 0 (Graph.run .none leOps) (.start leA .none .none)).1.len = 6 := by decide

example : ∀ i, ∀ op ∈ leBody i, Elsewhere (some leA) none none (runSet leOps) op := by
  intro i op h
  simp only [leBody, List.mem_cons, List.not_mem_nil, or_false] at h
  rcases h with rfl | rfl | rfl
  · intro h; exact absurd (h.1 leA rfl) (by decide : leB ≠ leA)
  · intro _; decide
  · intro h; exact absurd (h.1 leA rfl) (by decide : leB ≠ leA)

/-! ### C139 -/

/-- Fail-fast: a loop over `match` that ends without an exception has visited exactly the matches at its start, whatever single edit
    each run of the body made. -/
def C139_statement : Prop := ∀ (u : Term) (ops : List GOp) (ord), IsOrder ord → ∀ (s p o : Option Term),
  NonEmpty s → NonEmpty p → NonEmpty o → ∀ (body : Nat → List GOp), (∀ i, (body i).length ≤ 1) →
  ∀ fuel g' l, forLoop ord body fuel 0 (Graph.run u ops) (.start (arg s) (arg p) (arg o)) = (g', l, some (.ok ())) →
    l = (Graph.run u ops).match ord (arg s) (arg p) (arg o)

/-- Refuted: while looping over the triples of one subject, a value added under a predicate that is still to come is visited, silently. -/
theorem C139_refuted : ¬ C139_statement := by
  intro h
  have := h .none leOps id (fun l => .refl l) (some leA) none none (by intro a e; cases e; decide) (by intro a e; cases e)
    (by intro a e; cases e) (fun i => if i = 0 then [.add ⟨leA, leQ, leX 9⟩] else []) (by intro i; split <;> simp) 5
    _ [mkTriple leA leP (leX 1), mkTriple leA leP (leX 3), mkTriple leA leQ (leX 2), mkTriple leA leQ (leX 9)] (Prod.ext rfl (by decide))
  revert this
  decide

/-- And a value removed under a predicate still to come is silently not visited. -/
theorem C139_skips :
    (forLoop id (fun i => if i = 0 then [.remove ⟨leA, leQ, leX 2⟩] else []) 5 0 (Graph.run .none leOps) (.start leA .none .none)).2 =
      ([mkTriple leA leP (leX 1), mkTriple leA leP (leX 3)], some (.ok ())) := by decide

namespace LoopEdit

/-- A generator suspended in a loop over one dict (or over the set of triples), whose recorded size is `n`. -/
def Sized (n : Nat) (s p o : Term) : MIter → Prop
  | .inner w k1 k2 m _ none => m = n ∧ plan s p o = .two w k1 k2
  | .setIter m _ => m = n ∧ plan s p o = .all
  | _ => False

/-- The pattern gives two positions, or none. -/
def OneLevel (s p o : Term) : Prop := (∃ w k1 k2, plan s p o = .two w k1 k2) ∨ plan s p o = .all

theorem match_length {ord} (hord : IsOrder ord) (g : Graph) {s p o : Term} :
    (∀ w k1 k2, plan s p o = .two w k1 k2 → (g.match ord s p o).length = ((g.ix w).l2 k1 k2).length) ∧
    (plan s p o = .all → (g.match ord s p o).length = g.triples.length) := by
  have inner : ∀ w k1 k2, (if Dict.has (g.ix w) k1 && Dict.has ((g.ix w).l1 k1) k2 then ((g.ix w).l2 k1 k2).values else []) =
      ((g.ix w).l2 k1 k2).values := by
    intro w k1 k2
    by_cases h : (Dict.has (g.ix w) k1 && Dict.has ((g.ix w).l1 k1) k2) = true
    · rw [if_pos h]
    · rw [if_neg h, Idx.l2_eq_nil_of_not_has (ix := g.ix w) (a := k1) (b := k2) (by simpa using h)]; rfl
  have len : ∀ d : Dict Term Stmt, d.values.length = d.length := fun d => by simp [Dict.values]
  constructor
  · intro w k1 k2 h
    by_cases hs : s.truthy <;> by_cases hp : p.truthy <;> by_cases ho : o.truthy <;>
      simp only [plan, Graph.match, hs, hp, ho, if_true, if_false, Bool.false_eq_true, Plan.two.injEq, reduceCtorEq] at h ⊢ <;>
      obtain ⟨rfl, rfl, rfl⟩ := h
    · exact (congrArg List.length (inner .spo s p)).trans (len _)
    · exact (congrArg List.length (inner .osp o s)).trans (len _)
    · exact (congrArg List.length (inner .pos p o)).trans (len _)
  · intro h
    by_cases hs : s.truthy <;> by_cases hp : p.truthy <;> by_cases ho : o.truthy <;>
      simp only [plan, Graph.match, hs, hp, ho, if_true, if_false, Bool.false_eq_true, reduceCtorEq] at h ⊢
    exact (hord _).length_eq

theorem next_sized {ord} {g : Graph} {s p o : Term} {n it it' t} (h : Sized n s p o it) (e : next ord g it = (it', .item t)) :
    Sized n s p o it' := by
  cases it with
  | start => exact h.elim
  | bound => exact h.elim
  | done => exact h.elim
  | setIter m rest =>
    change resumeSet g m rest = _ at e
    unfold resumeSet at e
    split at e
    · cases e
    · cases rest <;> cases e; exact h
  | inner w k1 k2 m rest outer =>
    cases outer with
    | some q => exact h.elim
    | none =>
      change resumeInner g w k1 k2 m rest none = _ at e
      unfold resumeInner at e
      split at e
      · cases e
      · cases rest <;> cases e; exact h

theorem next_start_sized {ord} (hord : IsOrder ord) {g : Graph} {s p o : Term} (hl : OneLevel s p o) {it' t}
    (e : next ord g (.start s p o) = (it', .item t)) : Sized (g.match ord s p o).length s p o it' := by
  have hm := match_length hord g (s := s) (p := p) (o := o)
  rw [next_start] at e
  rcases hl with ⟨w, k1, k2, h⟩ | h
  · rw [h] at e
    have hi : Sized (g.match ord s p o).length s p o
        (.inner w k1 k2 ((g.ix w).l2 k1 k2).length ((g.ix w).l2 k1 k2).values none) := ⟨(hm.1 _ _ _ h).symm, h⟩
    exact next_sized (ord := ord) (g := g) hi e
  · rw [h] at e
    have hi : Sized (g.match ord s p o).length s p o (.setIter g.triples.length (ord g.triples)) := ⟨(hm.2 h).symm, h⟩
    exact next_sized (ord := ord) (g := g) hi e

theorem next_sized_raise {ord} (hord : IsOrder ord) {g : Graph} {s p o : Term} {n it} (h : Sized n s p o it)
    (hne : (g.match ord s p o).length ≠ n) : next ord g it = (.done, .raise .runtimeError) := by
  have hm := match_length hord g (s := s) (p := p) (o := o)
  cases it with
  | start => exact h.elim
  | bound => exact h.elim
  | done => exact h.elim
  | setIter m rest =>
    obtain ⟨rfl, h⟩ := h
    rw [hm.2 h] at hne
    show resumeSet g _ rest = _
    unfold resumeSet; rw [if_pos hne]
  | inner w k1 k2 m rest outer =>
    cases outer with
    | some q => exact h.elim
    | none =>
      obtain ⟨rfl, h⟩ := h
      rw [hm.1 _ _ _ h] at hne
      show resumeInner g w k1 k2 _ rest none = _
      unfold resumeInner; rw [if_pos hne]

variable {s p o : Option Term}

theorem loop_fail (hs : NonEmpty s) (hp : NonEmpty p) (ho : NonEmpty o) {ord} (hord : IsOrder ord) {S} {g : Graph}
    (body : Nat → List GOp) {n it l} (hd : Drains ord g it l) :
    ∀ {k fuel i} {g' : Graph}, (∀ j < k, ∀ op ∈ body (i + j), Elsewhere s p o S op) →
    Of (arg s) (arg p) (arg o) it → (∀ it' t, next ord g it = (it', .item t) → Sized n (arg s) (arg p) (arg o) it') →
    Same s p o S g g' → k < l.length → k + 1 < fuel →
    ((g'.execs ((List.range (k + 1)).flatMap fun j => body (i + j))).match ord (arg s) (arg p) (arg o)).length ≠ n →
    forLoop ord body fuel i g' it =
      (g'.execs ((List.range (k + 1)).flatMap fun j => body (i + j)), l.take (k + 1), some (.error .runtimeError)) := by
  induction hd with
  | stop e => intro k fuel i g' _ _ _ _ hk; simp at hk
  | @item it it' t l e d ih =>
    intro k fuel i g' hb hi hz h hk hf hne
    obtain ⟨fuel, rfl⟩ : ∃ n, fuel = n + 1 := ⟨fuel - 1, by omega⟩
    have hi' := next_of ord g hi
    rw [e] at hi'
    have hz' := hz _ _ e
    rw [forLoop, ← next_congr ord h.view hi, e]
    dsimp only
    cases k with
    | zero =>
      obtain ⟨fuel, rfl⟩ : ∃ n, fuel = n + 1 := ⟨fuel - 1, by omega⟩
      simp only [Nat.zero_add, List.range_one, List.flatMap_cons, List.flatMap_nil, Nat.add_zero, List.append_nil] at hne ⊢
      rw [forLoop, next_sized_raise hord hz' hne]
      rfl
    | succ k =>
      have hex : ∀ j, g'.execs ((List.range (j + 1)).flatMap fun j => body (i + j)) =
          (g'.execs (body i)).execs ((List.range j).flatMap fun j => body (i + 1 + j)) := by
        intro j
        simp only [List.range_succ_eq_map, List.flatMap_cons, List.flatMap_map, Nat.add_zero, Graph.execs, List.foldl_append]
        congr 1
        refine congrArg (List.flatMap · _) (funext fun j => ?_)
        congr 1; omega
      rw [hex] at hne ⊢
      rw [ih (k := k) (fun j hj => by
          have := hb (j + 1) (by omega)
          rwa [show i + (j + 1) = i + 1 + j by omega] at this) hi' (fun _ _ e' => next_sized hz' e')
        (h.execs hs hp ho (by simpa using hb 0 (by omega))) (by simpa using hk) (by omega) hne]
      rfl

end LoopEdit

/-- The number of given positions is two or none. -/
def TwoOrNone (s p o : Option Term) : Prop :=
  (s.isSome.toNat + p.isSome.toNat + o.isSome.toNat = 2) ∨ (s.isSome.toNat + p.isSome.toNat + o.isSome.toNat = 0)

/-- What holds, for a pattern that gives two positions or none (a loop over one dict): the loop is fail-fast. If the edits of the
    first runs of the body are elsewhere and the `k`-th run leaves a different number of matching triples, the loop visits the first `k + 1`
    matches and then raises RuntimeError. (For one given position the loop is two-level and silently sees some edits: `C139_refuted`.) -/
theorem C139_partial (u : Term) (ops : List GOp) (ord) (hord : IsOrder ord) (s p o : Option Term)
    (hs : NonEmpty s) (hp : NonEmpty p) (ho : NonEmpty o) (h2 : TwoOrNone s p o) (body : Nat → List GOp) (k : Nat)
    (hb : ∀ j < k, ∀ op ∈ body j, Elsewhere s p o (runSet ops) op)
    (hk : k < ((Graph.run u ops).match ord (arg s) (arg p) (arg o)).length)
    (hne : ((Graph.run u (ops ++ (List.range (k + 1)).flatMap body)).match ord (arg s) (arg p) (arg o)).length ≠
      ((Graph.run u ops).match ord (arg s) (arg p) (arg o)).length) (fuel : Nat) (hf : k + 1 < fuel) :
    forLoop ord body fuel 0 (Graph.run u ops) (.start (arg s) (arg p) (arg o)) =
      (Graph.run u (ops ++ (List.range (k + 1)).flatMap body),
       ((Graph.run u ops).match ord (arg s) (arg p) (arg o)).take (k + 1), some (.error .runtimeError)) := by
  have hr := rep_run u ops
  have hl : LoopEdit.OneLevel (arg s) (arg p) (arg o) := by
    have ht : ∀ {x : Option Term} (_ : NonEmpty x), (arg x).truthy = x.isSome := by
      intro x hx
      cases x with
      | none => rfl
      | some a => exact (truthy_iff a).2 (hx a rfl)
    unfold LoopEdit.OneLevel plan
    rw [ht hs, ht hp, ht ho]
    unfold TwoOrNone at h2
    cases s <;> cases p <;> cases o <;> simp at h2 ⊢
  have hex : Graph.run u (ops ++ (List.range (k + 1)).flatMap body) =
      (Graph.run u ops).execs ((List.range (k + 1)).flatMap fun j => body (0 + j)) := by
    simp only [Nat.zero_add, Graph.run, Graph.execs, List.foldl_append]
  rw [hex] at hne ⊢
  exact LoopEdit.loop_fail hs hp ho hord body (drains_match ord _ _ _ _) (by simpa using hb) ⟨rfl, rfl, rfl⟩
    (fun _ _ e => LoopEdit.next_start_sized hord hl e) ⟨.refl _ _, hr.inv.toIxInv, hr.inv, fun t _ => hr.mem_stmt t⟩ hk hf hne

example : forLoop id (fun _ => [.remove ⟨leA, leP, leX 1⟩]) 5 0 (Graph.run .none leOps) (.start leA leP .none) =
    (Graph.run .none (leOps ++ [.remove ⟨leA, leP, leX 1⟩]), [mkTriple leA leP (leX 1)], some (.error .runtimeError)) := by decide

end Verif
