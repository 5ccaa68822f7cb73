import Verif.Props.ResItem
/-
C145: assignment to a key that is not scalar depends on the set of values only.
-/
namespace Verif
open Spec Graph

/-- Exactly: after the assignment the graph has what it had under other subjects or predicates, and the given values. -/
theorem C145_exact {o : Orders} (ho : o.OK) {w : World} (wr : w.Reach) {g : Graph} (hg : g.Reach) {r : Res}
    (hc : r.c < w.classes.length) (hs : r.s.truthy = true) {k p : PStr} (hk : resolveKey w r.c k = .ok (some p)) (hp : p ≠ [])
    (hn : isScalar w r.c (some p) = false) (value : SetVal) {w' : World} {g' : Graph}
    (hset : setItem o w g r (.name k) value = (w', g', .ok ())) (t : Stmt) :
    t ∈ g'.triples ↔ (t ∈ g.triples ∧ (t.s ≠ r.s ∨ t.p ≠ .named p)) ∨ ∃ u ∈ values value, ∃ x, storedTerm none none u = some x ∧ t = mkTriple r.s (.named p) x := by
  have hfr := setItem_frame ho wr hg hc (.name k) value
  rw [hset] at hfr
  obtain ⟨-, hext, hg', -, hF⟩ := hfr
  dsimp only at hext hg' hF
  obtain ⟨objs, a1, -, a3, -⟩ := C45_nonscalar ho ho wr hg hc hs hk hp hn value hset
  rw [getItem_nonscalar ((hext.resolve hc k).trans hk) ((hext.isScalar hc (some p)).trans hn)] at a1
  have hobjs : objs = objectsOf o g' r.s (.named p) := by
    simp only [Prod.mk.injEq, Except.ok.injEq, GetRes.iter.injEq, true_and] at a1
    exact a1.symm
  have hp' : (Term.named p).truthy = true := predTerm_truthy hp
  have hmem : ∀ x, mkTriple r.s (.named p) x ∈ g'.triples ↔ ∃ u ∈ values value, storedTerm none none u = some x := by
    intro x; rw [← a3 x, hobjs, mem_objectsOf ho hg' hs hp']
  by_cases h : t.s ≠ r.s ∨ t.p ≠ .named p
  · rw [hF (some p) hk t h]
    constructor
    · exact fun h' => Or.inl ⟨h', h⟩
    · rintro (h' | ⟨u, -, x, -, rfl⟩)
      · exact h'.1
      · rcases h with h | h <;> exact absurd rfl h
  · have h' : t.s = r.s ∧ t.p = .named p := by
      refine ⟨Decidable.byContradiction fun e => h (Or.inl e), Decidable.byContradiction fun e => h (Or.inr e)⟩
    have ht : t ∈ g'.triples → t = mkTriple r.s (.named p) t.o := by
      intro ht
      have := hg'.inv.isTri t ht
      obtain ⟨s, p', ob, gr⟩ := t
      simp only at this h'
      rw [this, h'.1, h'.2]; rfl
    constructor
    · intro hm
      have e := ht hm
      rw [e, hmem] at hm
      obtain ⟨u, hu, hx⟩ := hm
      exact Or.inr ⟨u, hu, _, hx, e⟩
    · rintro (h1 | ⟨u, hu, x, hx, rfl⟩)
      · exact absurd h1.2 h
      · exact (hmem x).2 ⟨u, hu, hx⟩

/-- Two assignments with the same set of values, in any order and with any repetitions, from graphs that differ at most in what is replaced, give the same statements. -/
theorem C145_set {o1 o2 : Orders} (ho1 : o1.OK) (ho2 : o2.OK) {w1 w2 : World} (wr1 : w1.Reach) (wr2 : w2.Reach) {g1 g2 : Graph} (hg1 : g1.Reach) (hg2 : g2.Reach)
    {r1 r2 : Res} (hc1 : r1.c < w1.classes.length) (hc2 : r2.c < w2.classes.length) {s : Term} (hs : s.truthy = true) (e1 : r1.s = s) (e2 : r2.s = s)
    {k1 k2 p : PStr} (hk1 : resolveKey w1 r1.c k1 = .ok (some p)) (hk2 : resolveKey w2 r2.c k2 = .ok (some p)) (hp : p ≠ [])
    (hn1 : isScalar w1 r1.c (some p) = false) (hn2 : isScalar w2 r2.c (some p) = false) {v1 v2 : SetVal} {w1' w2' : World} {g1' g2' : Graph}
    (hset1 : setItem o1 w1 g1 r1 (.name k1) v1 = (w1', g1', .ok ())) (hset2 : setItem o2 w2 g2 r2 (.name k2) v2 = (w2', g2', .ok ()))
    (hg : ∀ t : Stmt, (t.s ≠ s ∨ t.p ≠ .named p) → (t ∈ g1.triples ↔ t ∈ g2.triples))
    (hv : ∀ x, (∃ u ∈ values v1, storedTerm none none u = some x) ↔ ∃ u ∈ values v2, storedTerm none none u = some x) :
    ∀ t, t ∈ g1'.triples ↔ t ∈ g2'.triples := by
  intro t
  subst e1
  rw [C145_exact ho1 wr1 hg1 hc1 hs hk1 hp hn1 v1 hset1, C145_exact ho2 wr2 hg2 hc2 (by rw [e2]; exact hs) hk2 hp hn2 v2 hset2, e2]
  have hb : ∀ v : SetVal, (∃ u ∈ values v, ∃ x, storedTerm none none u = some x ∧ t = mkTriple r1.s (.named p) x) ↔
      ∃ x, (∃ u ∈ values v, storedTerm none none u = some x) ∧ t = mkTriple r1.s (.named p) x := by
    intro v
    constructor
    · rintro ⟨u, hu, x, hx, e⟩; exact ⟨x, ⟨u, hu, hx⟩, e⟩
    · rintro ⟨x, ⟨u, hu, hx⟩, e⟩; exact ⟨u, hu, x, hx, e⟩
  rw [hb, hb]
  simp only [hv]
  refine or_congr_left (and_congr_left fun h => ?_)
  exact hg t h

/-- The last assignment decides: whatever was assigned before is gone without a trace. -/
theorem C145_overwrite {o o' : Orders} (ho : o.OK) (ho' : o'.OK) {w : World} (wr : w.Reach) {g : Graph} (hg : g.Reach) {r : Res}
    (hc : r.c < w.classes.length) (hs : r.s.truthy = true) {k p : PStr} (hk : resolveKey w r.c k = .ok (some p)) (hp : p ≠ [])
    (hn : isScalar w r.c (some p) = false) {v1 v2 : SetVal} {w1 w2 w2' : World} {g1 g2 g2' : Graph}
    (h1 : setItem o w g r (.name k) v1 = (w1, g1, .ok ())) (h2 : setItem o' w1 g1 r (.name k) v2 = (w2, g2, .ok ()))
    (h2' : setItem o' w g r (.name k) v2 = (w2', g2', .ok ())) : ∀ t, t ∈ g2.triples ↔ t ∈ g2'.triples := by
  have hfr := setItem_frame ho wr hg hc (.name k) v1
  rw [h1] at hfr
  obtain ⟨wr1, hext, hg1, -, hF⟩ := hfr
  dsimp only at wr1 hext hg1 hF
  refine C145_set ho' ho' wr1 wr hg1 hg (Nat.lt_of_lt_of_le hc hext.length) hc hs rfl rfl ((hext.resolve hc k).trans hk) hk hp
    ((hext.isScalar hc (some p)).trans hn) hn h2 h2' (fun t ht => hF (some p) hk t ht) fun x => Iff.rfl

/-- For a scalar key the last assignment does not decide: a value in another language stays. -/
theorem C145_scalar_refuted :
    let r : Res := ⟨0, .named (py! "http://x")⟩
    let a : SetVal := .one (.lit (py! "a") (some (py! "en")) none)
    let b : SetVal := .one (.lit (py! "b") (some (py! "fr")) none)
    let s1 := setItem {} World.new (Graph.new .none) r (.name (py! "rdfs:label")) a
    let s2 := setItem {} s1.1 s1.2.1 r (.name (py! "rdfs:label")) b
    let s2' := setItem {} World.new (Graph.new .none) r (.name (py! "rdfs:label")) b
    s1.2.2 = .ok () ∧ s2.2.2 = .ok () ∧ s2'.2.2 = .ok () ∧ s2.2.1.triples.length = 2 ∧ s2'.2.1.triples.length = 1 := by decide

/-- A key that is not scalar, two assignments, the second with a repetition. -/
example :
    let r : Res := ⟨0, .named (py! "http://x")⟩
    let s1 := setItem {} World.new (Graph.new .none) r (.name (py! "rdf:value")) (.many [.str (py! "a"), .iri (py! "http://y")])
    let s2 := setItem {} s1.1 s1.2.1 r (.name (py! "rdf:value")) (.many [.str (py! "b"), .str (py! "c"), .str (py! "b")])
    let s2' := setItem {} World.new (Graph.new .none) r (.name (py! "rdf:value")) (.many [.str (py! "c"), .str (py! "b")])
    resolveKey World.new 0 (py! "rdf:value") = .ok (some (py! "http://www.w3.org/1999/02/22-rdf-syntax-ns#value")) ∧
    isScalar World.new 0 (some (py! "http://www.w3.org/1999/02/22-rdf-syntax-ns#value")) = false ∧
    s1.2.2 = .ok () ∧ s2.2.2 = .ok () ∧ s2'.2.2 = .ok () ∧ s2.2.1.triples.length = 2 ∧ s2'.2.1.triples.length = 2 := by decide

end Verif
