import Verif.Props.ResRead
import Verif.Props.ResClass

/-! C126: iterating a resource; and C101, which names of a class read one value. -/

namespace Verif
open Spec Graph

theorem nodup_iterPairs {o : Orders} (ho : o.OK) {g : Graph} (hg : g.Reach) {r : Res} (hs : r.s.truthy = true) :
    (iterPairs o g r).Nodup := by
  unfold iterPairs
  rw [List.nodup_map_iff_inj_on (nodup_match hg.inv.toIxInv ho.stmts _ _ _)]
  intro a ha b hb hab
  rw [mem_match hg.inv ho.stmts] at ha hb
  rw [eq_mkTriple (hg.inv.isTri a ha.1), eq_mkTriple (hg.inv.isTri b hb.1), ha.2.1 hs, hb.2.1 hs]
  simp only [Prod.mk.injEq] at hab
  rw [hab.1, hab.2]

/-- C126. Iterating a resource lists, each once, the predicate and the object of every triple with the resource as its subject. -/
theorem C126_iter {o : Orders} (ho : o.OK) {g : Graph} (hg : g.Reach) {r : Res} (hs : r.s.truthy = true) :
    (iterPairs o g r).Nodup ∧ ∀ p x, (p, x) ∈ iterPairs o g r ↔ mkTriple r.s p x ∈ g.triples := by
  refine ⟨nodup_iterPairs ho hg hs, fun p x => ?_⟩
  unfold iterPairs
  rw [List.mem_map]
  constructor
  · rintro ⟨t, ht, he⟩
    rw [mem_match hg.inv ho.stmts] at ht
    simp only [Prod.mk.injEq] at he
    obtain ⟨rfl, rfl⟩ := he
    have := eq_mkTriple (hg.inv.isTri t ht.1)
    rw [ht.2.1 hs] at this
    rw [← this]; exact ht.1
  · intro h
    exact ⟨_, (mem_match hg.inv ho.stmts _ _ _ _).2 ⟨h, fun _ => rfl, fun h => absurd h (by simp [Term.truthy]),
      fun h => absurd h (by simp [Term.truthy])⟩, rfl⟩

/-- What the pairs say about a name is what `r[name, None]` gives: `x` is one of its objects exactly when iterating lists it under the predicate of that name. -/
theorem C126_reads {o o' : Orders} (ho : o.OK) (ho' : o'.OK) {w : World} {g : Graph} (hg : g.Reach) {r : Res}
    (hs : r.s.truthy = true) {name p : PStr} (hk : resolveKey w r.c name = .ok (some p)) (hp : p ≠ []) :
    ∃ objs, getItem o' w g r (.pair name .none) = (w, .ok (.iter objs)) ∧ ∀ x, x ∈ objs ↔ (.named p, x) ∈ iterPairs o g r := by
  obtain ⟨objs, h1, h2, h3⟩ := C83_filter_selection (w := w) ho' hg hs hk hp .none rfl
  refine ⟨objs, getItem_iter h1 (Or.inr rfl), fun x => ?_⟩
  rw [h3, (C126_iter ho hg hs).2]
  exact and_iff_left trivial

/-- `(name, None) in r` says whether iterating lists any pair with the predicate of that name. -/
theorem C126_contains {o o' : Orders} (ho : o.OK) (ho' : o'.OK) {w : World} {g : Graph} (hg : g.Reach) {r : Res}
    (hs : r.s.truthy = true) {name p : PStr} (hk : resolveKey w r.c name = .ok (some p)) (hp : p ≠ []) :
    ∃ b, containsKey o' w g r (.pair name .none) = (w, .ok b) ∧ (b = true ↔ ∃ x, (.named p, x) ∈ iterPairs o g r) := by
  obtain ⟨objs, h1, h2, h3⟩ := C83_filter_selection (w := w) ho' hg hs hk hp .none rfl
  refine ⟨decide (objs ≠ []), by unfold containsKey; rw [h1], ?_⟩
  rw [decide_eq_true_iff, List.ne_nil_iff_exists_cons]
  simp only [(C126_iter ho hg hs).2]
  constructor
  · rintro ⟨x, xs, rfl⟩
    exact ⟨x, ((h3 x).1 (List.mem_cons_self ..)).1⟩
  · rintro ⟨x, hx⟩
    cases hobj : objs with
    | nil =>
      have : x ∈ objs := (h3 x).2 ⟨hx, trivial⟩
      rw [hobj] at this; cases this
    | cons y ys => exact ⟨y, ys, rfl⟩

/-- The class of the resource has no influence on what iterating lists. -/
theorem C126_views {o : Orders} (g : Graph) (s : Term) (c d : Nat) : iterPairs o g ⟨c, s⟩ = iterPairs o g ⟨d, s⟩ := rfl

/-- Exactly what happens for the resource with the empty IRI: `graph.match` takes the subject as absent and the pairs are those of every triple of the graph. -/
theorem C126_empty_subject {o : Orders} (ho : o.OK) {g : Graph} (hg : g.Reach) {r : Res} (hs : r.s.truthy = false) :
    (∀ p x, (p, x) ∈ iterPairs o g r ↔ ∃ s, mkTriple s p x ∈ g.triples) ∧ (iterPairs o g r).length = g.triples.length := by
  have hm : ∀ t, t ∈ g.match o.stmts r.s .none .none ↔ t ∈ g.triples := by
    intro t
    rw [mem_match hg.inv ho.stmts]
    constructor
    · exact fun h => h.1
    · exact fun h => ⟨h, fun h1 => absurd h1 (by rw [hs]; exact Bool.false_ne_true), fun h1 => absurd h1 (by simp [Term.truthy]), fun h1 => absurd h1 (by simp [Term.truthy])⟩
  refine ⟨fun p x => ?_, ?_⟩
  · unfold iterPairs
    rw [List.mem_map]
    constructor
    · rintro ⟨t, ht, he⟩
      simp only [Prod.mk.injEq] at he
      obtain ⟨rfl, rfl⟩ := he
      rw [hm] at ht
      exact ⟨t.s, by rw [← eq_mkTriple (hg.inv.isTri t ht)]; exact ht⟩
    · rintro ⟨s, h⟩
      exact ⟨_, (hm _).2 h, rfl⟩
  · unfold iterPairs
    rw [List.length_map]
    exact ((List.perm_ext_iff_of_nodup (nodup_match hg.inv.toIxInv ho.stmts _ _ _) hg.inv.nodup).2 hm).length_eq

/-- C101. Of a class that a class statement made, `r[name]` is one value exactly if the predicate of the name is among the scalars of a base class, or among those that the
    statement declares, resolved with the prefixes of the new class; else it is an iterator over all. -/
theorem C101_declared {o : Orders} {w w' : World} (wr : w.Reach) (wr' : w'.Reach) {cname : PStr} {bases : List Nat} {own : Own} {c : Nat}
    (hb : ∀ b ∈ bases, b < w.classes.length) (hown : Dict.WF own.prefixes) (h : newClass w cname bases own = .ok (w', c))
    {g : Graph} {s : Term} {name : PStr} {p : PStr} {objs : List Term}
    (hr : (objectsForKey o w' g ⟨c, s⟩ (.name name)).2 = .ok (some p, objs)) :
    (∃ xs, (getItem o w' g ⟨c, s⟩ (.name name)).2 = .ok (.iter xs)) ↔
      ¬ ((∃ b ∈ bases, p ∈ (w.cls b).scalars) ∨ ∃ y ∈ own.scalars, parseCurie y (w'.cls c).prefixes = .ok p) := by
  have hlt : c < w'.classes.length := by
    obtain ⟨rfl, a, b, _, _, rfl⟩ := newClass_ok h
    simp
  rw [C101_shape wr' (r := ⟨c, s⟩) hlt _ hr, ← (C57_inherited wr hb hown h).2 p]
  simp [isScalar]

/-- Examples: the pairs of one subject; the empty IRI lists the pairs of all. -/
example :
    iterPairs {} sample ⟨0, .named (py! "http://x")⟩ =
      [(.named (rdfsNs ++ py! "comment"), .lit (py! "old") none none),
       (.named (rdfsNs ++ py! "label"), .lit (py! "one") (some (py! "en")) none),
       (.named (rdfsNs ++ py! "label"), .lit (py! "un") (some (py! "fr")) none)] ∧
    iterPairs {} sample ⟨0, .named (py! "http://z")⟩ = [] ∧
    (iterPairs {} sample ⟨0, .named []⟩).length = 4 := by decide

end Verif
