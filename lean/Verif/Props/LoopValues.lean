import Verif.Props.LoopEdit
import Verif.Props.ResRead
/-
C138 for resources, and C140: editing a graph while looping over a resource or over the values of a key.
-/
namespace Verif
open Spec Graph

/-- `for p, o in r: body` (rdf.py:358-360), where the body makes edits: the graph afterwards, the pairs visited, the outcome. -/
def forPairs (o : Orders) (body : Nat → List GOp) (fuel : Nat) (g : Graph) (r : Res) :
    Graph × List (Term × Term) × Option (Except Exc Unit) :=
  let z := forLoop o.stmts body fuel 0 g (.start r.s .none .none)
  (z.1, z.2.1.map (fun t => (t.p, t.o)), z.2.2)

/-- The edit is of triples with other subjects. -/
def OtherSubject (s : Term) : GOp → Prop
  | .add t => t.s ≠ s
  | .addAll ts => ∀ t ∈ ts, t.s ≠ s
  | .remove t => t.s ≠ s

/-- Looping over a resource while editing other resources only: the loop visits exactly its pairs, each once, and raises nothing. -/
theorem C138_resource (u : Term) (ops : List GOp) {o : Orders} (ho : o.OK) (r : Res) (hs : r.s.truthy = true) (body : Nat → List GOp)
    (hb : ∀ i, ∀ op ∈ body i, OtherSubject r.s op) (fuel : Nat) (hf : (runSet ops).card < fuel) :
    ∃ g', forPairs o body fuel (Graph.run u ops) r = (g', iterPairs o (Graph.run u ops) r, some (.ok ())) ∧
      g' = Graph.run u (ops ++ (List.range (iterPairs o (Graph.run u ops) r).length).flatMap body) := by
  have hr := rep_run u ops
  have hlen : ((Graph.run u ops).match o.stmts r.s .none .none).length < fuel := by
    refine Nat.lt_of_le_of_lt ?_ hf
    rw [← hr.length]
    refine (List.subperm_of_subset (nodup_match hr.inv.toIxInv ho.stmts _ _ _) fun x hx => ?_).length_le
    exact ((mem_match hr.inv ho.stmts _ _ _ x).1 hx).1
  have h := C138_undisturbed u ops o.stmts (some r.s) none none (by intro a e; cases e; exact (truthy_iff _).1 hs)
    (by intro a e; cases e) (by intro a e; cases e) body (by
      intro i op hop
      have := hb i op hop
      cases op with
      | add t => exact fun h => absurd (h.1 _ rfl) this
      | addAll ts => exact fun t ht h => absurd (h.1 _ rfl) (this t ht)
      | remove t => exact fun h => absurd (h.1 _ rfl) this) fuel hlen
  simp only [arg] at h
  refine ⟨_, ?_, rfl⟩
  unfold forPairs
  simp only [h, iterPairs, List.length_map]

/-! ### C140 -/

/-- `for x in r[key]: body` for a generator over `objs` (rdf.py:269-276): the objects were selected when `r[key]` was evaluated; each is classified
    when the generator is advanced, in the graph as it is by then. -/
def forValues (o : Orders) (c : Nat) (body : Nat → List GOp) :
    Nat → World → Graph → List Term → World × Graph × List Val × Except Exc Unit
  | _, w, g, [] => (w, g, [], .ok ())
  | i, w, g, x :: xs =>
    match classify o w g c x with
    | (w, .error e) => (w, g, [], .error e)
    | (w, .ok v) =>
      let z := forValues o c body (i + 1) w (g.execs (body i)) xs
      (z.1, z.2.1, v :: z.2.2.1, z.2.2.2)

theorem forValues_spec {o : Orders} {c : Nat} (body : Nat → List GOp) (objs : List Term) : ∀ {w : World}, w.Reach → c < w.classes.length →
    ∀ (i : Nat) (g : Graph),
    let z := forValues o c body i w g objs
    z.2.1 = g.execs ((List.range z.2.2.1.length).flatMap fun j => body (i + j)) ∧
    ((z.2.2.2 = .ok () ∧ z.2.2.1.map Val.term = objs) ∨
     (z.2.2.2 = .error .typeError ∧ ∃ x rest, objs = z.2.2.1.map Val.term ++ x :: rest ∧ ∀ v l d, x ≠ .lit v l d)) := by
  induction objs with
  | nil => intro w _ _ i g; exact ⟨rfl, Or.inl ⟨rfl, rfl⟩⟩
  | cons x xs ih =>
    intro w wr hc i g
    obtain ⟨h1, h2, h3⟩ := classify_spec (o := o) wr g hc x
    have hlit : ∀ e, (classify o w g c x).2 = .error e → ∀ v l d, x ≠ .lit v l d := by
      rintro e h v l d rfl; cases h
    intro z
    revert z
    rw [forValues]
    cases hcl : classify o w g c x with
    | mk w1 res =>
      rw [hcl] at h1 h2 h3 hlit
      cases res with
      | error e =>
        dsimp only at h3 hlit ⊢
        refine ⟨rfl, Or.inr ⟨?_, x, xs, rfl, ?_⟩⟩
        · rcases h3 with h3 | ⟨v, h3, _⟩
          · cases h3; rfl
          · cases h3
        · exact hlit e rfl
      | ok v =>
        dsimp only at h1 h2 h3 ⊢
        have hv : v.term = x := by
          rcases h3 with h3 | ⟨v', h3, h4, _⟩
          · cases h3
          · cases h3; exact h4
        obtain ⟨k1, k2⟩ := ih h1 (by obtain ⟨cs, e⟩ := h2.classes; rw [e, List.length_append]; omega) (i + 1) (g.execs (body i))
        refine ⟨?_, ?_⟩
        · rw [k1]
          simp only [List.length_cons, List.range_succ_eq_map, List.flatMap_cons, List.flatMap_map, Nat.add_zero, Graph.execs,
            List.foldl_append]
          congr 1
          refine congrArg (List.flatMap · _) (funext fun j => ?_)
          congr 1; omega
        · rcases k2 with ⟨k2, k3⟩ | ⟨k2, y, rest, k3, k4⟩
          · exact Or.inl ⟨k2, by simp only [List.map_cons, k3, hv]⟩
          · exact Or.inr ⟨k2, y, rest, by simp only [List.map_cons, List.cons_append, ← k3, hv], k4⟩

/-- Looping over `r[name, None]` while the body edits the graph in any way, even removing the values visited: the loop visits exactly the
    values present when `r[name, None]` was evaluated, each once. The only exception is the TypeError of the classification of a
    node, and even then what was visited before is a part of those values. -/
theorem C140_snapshot {o : Orders} (ho : o.OK) {w : World} (wr : w.Reach) {g : Graph} (hg : g.Reach) {r : Res}
    (hc : r.c < w.classes.length) (hs : r.s.truthy = true) {k p : PStr} (hk : resolveKey w r.c k = .ok (some p)) (hp : p ≠ []) :
    ∃ objs, getItem o w g r (.pair k .none) = (w, .ok (.iter objs)) ∧ objs.Nodup ∧
      (∀ x, x ∈ objs ↔ mkTriple r.s (.named p) x ∈ g.triples) ∧
      ∀ (o' : Orders) (g1 : Graph) (body : Nat → List GOp),
        let z := forValues o' r.c body 0 w g1 objs
        (z.2.2.2 = .ok () ∧ z.2.2.1.map Val.term = objs ∧ z.2.1 = g1.execs ((List.range objs.length).flatMap body)) ∨
        (z.2.2.2 = .error .typeError ∧ ∃ x rest, objs = z.2.2.1.map Val.term ++ x :: rest ∧ ∀ v l d, x ≠ .lit v l d) := by
  obtain ⟨objs, h1, h2, h3⟩ := (C101_filter ho wr hg hc hs hk hp .none rfl).1 (Or.inl rfl)
  refine ⟨objs, h1, h2, fun x => (h3 x).trans ?_, fun o' g1 body => ?_⟩
  · simp [Shown]
  · obtain ⟨k1, k2⟩ := forValues_spec (o := o') body objs wr hc 0 g1
    rcases k2 with ⟨k2, k3⟩ | k2
    · refine Or.inl ⟨k2, k3, ?_⟩
      have hl := congrArg List.length k3
      rw [List.length_map] at hl
      rw [k1, hl]
      simp only [Nat.zero_add]
    · exact Or.inr k2

/-- The same in the other direction: values added during the loop are not visited; the loop ends. With literal values nothing is raised. -/
theorem C140_literals {o : Orders} {w : World} (wr : w.Reach) {c : Nat} (hc : c < w.classes.length) (g : Graph) (body : Nat → List GOp)
    {objs : List Term} (hl : ∀ x ∈ objs, ∃ v l d, x = .lit v l d) :
    (forValues o c body 0 w g objs).2.2.2 = .ok () ∧ (forValues o c body 0 w g objs).2.2.1.map Val.term = objs := by
  obtain ⟨_, h | ⟨_, x, rest, h2, h3⟩⟩ := forValues_spec (o := o) body objs wr hc 0 g
  · exact h
  · obtain ⟨v, l, d, e⟩ := hl x (by rw [h2]; simp)
    exact absurd e (h3 v l d)

/-- The body that removes the triple of the value just visited. -/
def removing (s p : Term) (objs : List Term) (i : Nat) : List GOp :=
  match objs[i]? with
  | some x => [.remove ⟨s, p, x⟩]
  | none => []

/-- The idiom `for x in r[name, None]: r.graph.remove(Triple(r.subject, p, x))` empties the key and touches nothing else. (Over
    `graph.match` the same loop raises RuntimeError: C09, C139.) -/
theorem C140_empties {o : Orders} (ho : o.OK) {w : World} (wr : w.Reach) (u : Term) (ops : List GOp) {r : Res}
    (hc : r.c < w.classes.length) (hs : r.s.truthy = true) {k p : PStr} (hk : resolveKey w r.c k = .ok (some p)) (hp : p ≠ []) :
    ∃ objs, getItem o w (Graph.run u ops) r (.pair k .none) = (w, .ok (.iter objs)) ∧
      ∀ o' : Orders, let z := forValues o' r.c (removing r.s (.named p) objs) 0 w (Graph.run u ops) objs
        z.2.2.2 = .ok () → ∀ t : Tri, t.stmt ∈ z.2.1.triples ↔ t ∈ runSet ops ∧ ¬ (t.s = r.s ∧ t.p = .named p) := by
  have hr := rep_run u ops
  have hg : (Graph.run u ops).Reach := ⟨u, ops, rfl⟩
  obtain ⟨objs, h1, h2, h3, h4⟩ := C140_snapshot ho wr hg hc hs hk hp
  refine ⟨objs, h1, fun o' => ?_⟩
  intro z hz t
  rcases h4 o' (Graph.run u ops) (removing r.s (.named p) objs) with ⟨_, _, h5⟩ | ⟨h5, _⟩
  swap
  · rw [show z.2.2.2 = _ from h5] at hz; cases hz
  rw [show z.2.1 = _ from h5]
  have hfl : ∀ objs : List Term, (List.range objs.length).flatMap (removing r.s (.named p) objs) =
      objs.map fun x => GOp.remove ⟨r.s, .named p, x⟩ := by
    intro objs
    induction objs with
    | nil => rfl
    | cons x xs ih =>
      rw [List.length_cons, List.range_succ_eq_map, List.flatMap_cons, List.flatMap_map, List.map_cons, ← ih]
      rfl
  have hx : (Graph.run u ops).execs ((List.range objs.length).flatMap (removing r.s (.named p) objs)) =
      Graph.run u (ops ++ objs.map fun x => GOp.remove ⟨r.s, .named p, x⟩) := by
    rw [hfl]; simp only [Graph.run, Graph.execs, List.foldl_append]
  rw [hx, (rep_run _ _).mem_stmt]
  have he : ∀ (objs : List Term) (S : Finset Tri), t ∈ (objs.map fun x => GOp.remove ⟨r.s, .named p, x⟩).foldl (fun S op => op.apply S) S ↔
      t ∈ S ∧ ∀ x ∈ objs, t ≠ ⟨r.s, .named p, x⟩ := by
    intro objs
    induction objs with
    | nil => intro S; simp
    | cons x xs ih =>
      intro S
      rw [List.map_cons, List.foldl_cons, ih, GOp.apply, Finset.mem_erase]
      simp only [List.mem_cons, forall_eq_or_imp]
      constructor
      · rintro ⟨⟨a, b⟩, c⟩; exact ⟨b, a, c⟩
      · rintro ⟨b, a, c⟩; exact ⟨⟨a, b⟩, c⟩
  unfold runSet
  rw [List.foldl_append, he]
  refine and_congr_right fun ht => ?_
  constructor
  · rintro h ⟨e1, e2⟩
    obtain ⟨a, b, c⟩ := t
    dsimp only at e1 e2; subst e1; subst e2
    exact h c ((h3 c).2 ((hr.mem_stmt ⟨_, _, c⟩).2 ht)) rfl
  · rintro h x _ rfl
    exact h ⟨rfl, rfl⟩

/-! ### The hypotheses can be met -/

def lvOps : List GOp :=
  [.add ⟨.named (py! "http://x"), .named (rdfsNs ++ py! "label"), .lit (py! "one") (some (py! "en")) none⟩,
   .add ⟨.named (py! "http://x"), .named (rdfsNs ++ py! "label"), .lit (py! "un") (some (py! "fr")) none⟩,
   .add ⟨.named (py! "http://y"), .named (rdfsNs ++ py! "label"), .lit (py! "two") (some (py! "en")) none⟩]

def lvObjs : List Term := [.lit (py! "one") (some (py! "en")) none, .lit (py! "un") (some (py! "fr")) none]

/-- C140: the values of a key, removed one by one while looping over them. -/
example :
    (getItem {} World.new (Graph.run .none lvOps) ⟨0, .named (py! "http://x")⟩ (.pair (py! "rdfs:label") .none)).2 = .ok (.iter lvObjs) ∧
    (forValues {} 0 (removing (.named (py! "http://x")) (.named (rdfsNs ++ py! "label")) lvObjs) 0 World.new (Graph.run .none lvOps) lvObjs).2.2 =
      ([.lit (py! "one") (some (py! "en")) none, .lit (py! "un") (some (py! "fr")) none], .ok ()) ∧
    (forValues {} 0 (removing (.named (py! "http://x")) (.named (rdfsNs ++ py! "label")) lvObjs) 0 World.new (Graph.run .none lvOps) lvObjs).2.1.triples =
      [mkTriple (.named (py! "http://y")) (.named (rdfsNs ++ py! "label")) (.lit (py! "two") (some (py! "en")) none)] := by decide

/-- C138: the pairs of a resource, while the label of another one is changed. -/
example : (forPairs {} (fun i => [.remove ⟨.named (py! "http://y"), .named (rdfsNs ++ py! "label"), .lit (py! "two") (some (py! "en")) none⟩,
      .add ⟨.named (py! "http://y"), .named (rdfsNs ++ py! "label"), .lit [i] none none⟩]) 4 (Graph.run .none lvOps) ⟨0, .named (py! "http://x")⟩).2 =
    ([(.named (rdfsNs ++ py! "label"), .lit (py! "one") (some (py! "en")) none), (.named (rdfsNs ++ py! "label"), .lit (py! "un") (some (py! "fr")) none)],
      some (.ok ())) := by decide

end Verif
