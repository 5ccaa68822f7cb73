import Verif.Props.SaveLoad
/-
C143: values set through a resource, then saved and loaded.
-/
namespace Verif
open Spec Graph

/-- The core, for any graph that is the same up to blank nodes as the one assigned to (C132: what saving and loading gives). -/
theorem C143_values {o o' : Orders} (ho : o.OK) (ho' : o'.OK) {w : World} (wr : w.Reach) {g : Graph} (hg : g.Reach) {r : Res}
    (hc : r.c < w.classes.length) (hs : r.s.truthy = true) {k p : PStr} (hk : resolveKey w r.c k = .ok (some p)) (hp : p ≠ [])
    (hn : isScalar w r.c (some p) = false) (value : SetVal) {w1 : World} {g1 : Graph}
    (hset : setItem o w g r (.name k) value = (w1, g1, .ok ())) {ρ : Nat → Nat} {g2 : Graph} (hg2 : g2.Reach) (h : SameUpTo ρ g1 g2)
    (ks : g1.Knows r.s) :
    ∃ objs, getItem o' w1 g2 ⟨r.c, r.s.rename ρ⟩ (.name k) = (w1, .ok (.iter objs)) ∧ objs.Nodup ∧
      ∀ x, x ∈ objs ↔ ∃ u ∈ values value, ∃ y, storedTerm none none u = some y ∧ x = y.rename ρ := by
  have hfr := setItem_frame ho wr hg hc (.name k) value
  rw [hset] at hfr
  obtain ⟨wr1, hext, hg1, -, -⟩ := hfr
  dsimp only at wr1 hext hg1
  have hc1 := Nat.lt_of_lt_of_le hc hext.length
  have hk1 := (hext.resolve hc k).trans hk
  have hn1 := (hext.isScalar hc (some p)).trans hn
  obtain ⟨objs, a1, a2, a3, -⟩ := C45_nonscalar ho ho' wr hg hc hs hk hp hn value hset
  rw [getItem_nonscalar hk1 hn1] at a1
  have hobjs : objs = objectsOf o' g1 r.s (.named p) := by
    simp only [Prod.mk.injEq, Except.ok.injEq, GetRes.iter.injEq, true_and] at a1
    exact a1.symm
  have hp' := predTerm_truthy hp
  have hperm := objectsOf_rename ho' ho' hg1 hg2 h hs hp' ks (by intro i e; cases e)
  have hs2 : (r.s.rename ρ).truthy = true := by rw [truthy_rename]; exact hs
  refine ⟨_, getItem_nonscalar (r := ⟨r.c, r.s.rename ρ⟩) hk1 hn1, nodup_objectsOf ho' hg2 hs2 hp', fun x => ?_⟩
  rw [hperm.mem_iff, List.mem_map]
  constructor
  · rintro ⟨y, hy, rfl⟩
    obtain ⟨u, hu, e⟩ := (a3 y).1 (by rw [hobjs]; exact hy)
    exact ⟨u, hu, y, e, rfl⟩
  · rintro ⟨u, hu, y, e, rfl⟩
    exact ⟨y, by have := (a3 y).2 ⟨u, hu, e⟩; rw [hobjs] at this; exact this, rfl⟩

/-- Set, save as N-Triples, load, read: the values are the given ones, each once (blank nodes under their new names). The graph and the
    new values must be of the kind that survives writing (C37). -/
theorem C143_ntriples {o : Orders} (ho : o.OK) {w : World} (wr : w.Reach) {g : Graph} (hg : g.Reach) {r : Res}
    (hc : r.c < w.classes.length) {i : PStr} (hi : r.s = .named i) (hne : i ≠ []) {k p : PStr} (hk : resolveKey w r.c k = .ok (some p)) (hp : p ≠ [])
    (hn : isScalar w r.c (some p) = false) (value : SetVal) {w1 : World} {g1 : Graph}
    (hset : setItem o w g r (.name k) value = (w1, g1, .ok ()))
    (plain : ∀ t ∈ g.triples, t.IsRdf ∧ t.s.Plain ∧ t.p.Plain ∧ t.o.Plain) (ps : (Term.named i).Plain) (pp : (Term.named p).Plain)
    (pv : ∀ u ∈ values value, ∀ x, storedTerm none none u = some x → x.Plain ∧ ((∃ n, x = .named n) ∨ (∃ i, x = .bnode i) ∨ ∃ v l d, x = .lit v l d))
    (ord : List Stmt → List Stmt) (hord : IsOrder ord) (next : Nat) :
    ∃ text g2 next' ρ, serializeNTriples (g1.iter ord) = (text, .ok ()) ∧ parseString Graph.add false next text Graph.new = (g2, next', .ok ()) ∧
      (∀ o' : Orders, o'.OK → ∃ objs, getItem o' w1 g2 r (.name k) = (w1, .ok (.iter objs)) ∧ objs.Nodup ∧
        ∀ x, x ∈ objs ↔ ∃ u ∈ values value, ∃ y, storedTerm none none u = some y ∧ x = y.rename ρ) ∧
      ∀ u ∈ values value, ∀ u' ∈ values value, ∀ y y', storedTerm none none u = some y → storedTerm none none u' = some y' → y.rename ρ = y'.rename ρ → y = y' := by
  have hs : r.s.truthy = true := by rw [hi]; cases i with | nil => exact absurd rfl hne | cons => rfl
  have hfr := setItem_frame ho wr hg hc (.name k) value
  rw [hset] at hfr
  obtain ⟨wr1, hext, hg1, -, hframe⟩ := hfr
  dsimp only at wr1 hext hg1 hframe
  have hfr' := hframe (some p) hk
  obtain ⟨objs, a1, a2, a3, -⟩ := C45_nonscalar ho ho wr hg hc hs hk hp hn value hset
  rw [getItem_nonscalar ((hext.resolve hc k).trans hk) ((hext.isScalar hc (some p)).trans hn)] at a1
  have hobjs : objs = objectsOf o g1 r.s (.named p) := by
    simp only [Prod.mk.injEq, Except.ok.injEq, GetRes.iter.injEq, true_and] at a1
    exact a1.symm
  have hp' := predTerm_truthy hp
  have hall : ∀ t ∈ g1.triples, t.IsRdf ∧ t.s.Plain ∧ t.p.Plain ∧ t.o.Plain := by
    intro t ht
    by_cases hd : t.s ≠ r.s ∨ t.p ≠ predTerm (some p)
    · exact plain t ((hfr' t hd).1 ht)
    · have e1 : t.s = r.s := by by_contra h; exact hd (Or.inl h)
      have e2 : t.p = .named p := by by_contra h; exact hd (Or.inr h)
      have e3 : t.g = none := hg1.inv.isTri t ht
      have ht' : mkTriple r.s (.named p) t.o ∈ g1.triples := by
        have : t = mkTriple r.s (.named p) t.o := by
          cases t; simp only at e1 e2 e3; subst e1 e2 e3; rfl
        rw [← this]; exact ht
      obtain ⟨u, hu, e⟩ := (a3 t.o).1 (by rw [hobjs]; exact (mem_objectsOf ho hg1 hs hp' t.o).2 ht')
      obtain ⟨q1, q2⟩ := pv u hu _ e
      refine ⟨⟨Or.inl ⟨i, e1.trans hi⟩, ⟨p, e2⟩, q2, e3⟩, ?_, ?_, q1⟩
      · rw [e1, hi]; exact ps
      · rw [e2]; exact pp
  obtain ⟨text, g2, n', ρ, b1, b2, b3, b4⟩ := C132_ntriples hg1 ord hord hall next
  have ks : g1.Knows r.s := by intro j e; rw [hi] at e; cases e
  have hr : (⟨r.c, r.s.rename ρ⟩ : Res) = r := by
    obtain ⟨c, s⟩ := r; simp only at hi; subst hi; rfl
  refine ⟨text, g2, n', ρ, b1, b2, fun o' ho' => ?_, ?_⟩
  · have := C143_values ho ho' wr hg hc hs hk hp hn value hset b3 b4 ks
    rwa [hr] at this
  · intro u hu u' hu' y y' e e' heq
    have mem : ∀ y, (∃ u ∈ values value, storedTerm none none u = some y) → g1.Knows y := by
      intro y hy
      have := (a3 y).2 hy
      rw [hobjs] at this
      exact (knows_of_mem ((mem_objectsOf ho hg1 hs hp' y).1 this)).2.2
    exact rename_inj b4 (mem y ⟨u, hu, e⟩) (mem y' ⟨u', hu', e'⟩) heq

/-- A literal set on a scalar property reads back after saving and loading. -/
theorem C143_scalar {o o' : Orders} (ho : o.OK) (ho' : o'.OK) {w : World} (wr : w.Reach) {g : Graph} (hg : g.Reach) {r : Res}
    (hc : r.c < w.classes.length) (hs : r.s.truthy = true) {k p : PStr} (hk : resolveKey w r.c k = .ok (some p)) (hp : p ≠ [])
    (hn : isScalar w r.c (some p) = true) (hlang : w.lang r.c ≠ some []) (u : PyVal) {v : PStr} {d : Option PStr}
    (ht : storedTerm (w.lang r.c) none u = some (.lit v none d)) {w1 : World} {g1 : Graph}
    (hset : setItem o w g r (.name k) (.one u) = (w1, g1, .ok ())) {ρ : Nat → Nat} {g2 : Graph} (hg2 : g2.Reach) (h : SameUpTo ρ g1 g2)
    (ks : g1.Knows r.s) :
    (getItem o' w1 g2 ⟨r.c, r.s.rename ρ⟩ (.name k)).2 = .ok (.one (.lit v none d)) := by
  have hfr := setItem_frame ho wr hg hc (.name k) (.one u)
  rw [hset] at hfr
  obtain ⟨wr1, hext, hg1, -, -⟩ := hfr
  dsimp only at wr1 hext hg1
  have hc1 := Nat.lt_of_lt_of_le hc hext.length
  have hk1 := (hext.resolve hc k).trans hk
  have hn1 := (hext.isScalar hc (some p)).trans hn
  obtain ⟨objs, objs', s1, s2, s3⟩ := C132_selection ho' ho' wr1 (.refl w1) hg1 hg2 h hc1 hs ks (key := .name k) (by intro _ _ e; cases e) hk1 hp
  have hread := (C45_scalar ho ho' wr hg hc hs hk hp hn hlang u _ ht (Or.inr ⟨v, d, rfl⟩)).2 w1 g1 hset
  have hlit : ∃ x, (getItem o' w1 g1 r (.name k)).2 = .ok (.one x) ∧ x.term = .lit v none d := by
    rcases hread with ⟨_, hx⟩ | hx
    · rcases hx with ⟨_, e⟩ | ⟨_, e⟩ <;> cases e
    · exact hx
  have hone : ∀ {g' : Graph} {r' : Res} {xs : List Term}, r'.c = r.c → objectsForKey o' w1 g' r' (.name k) = (w1, .ok (some p, xs)) →
      (getItem o' w1 g' r' (.name k)).2 = (classifyOne o' w1 g' r'.c xs).2.map .one := by
    intro g' r' xs e hx
    rw [getItem_scalar hx (by rw [e]; exact hn1) rfl]
    unfold getScalar
    rw [hx]
  rw [hone rfl s1] at hlit
  rw [hone (r' := ⟨r.c, r.s.rename ρ⟩) rfl s2]
  obtain ⟨x, hx, hxt⟩ := hlit
  have hobjs : objs = [.lit v none d] := by
    match objs, hx with
    | [], hx => simp [classifyOne, oneOrNone, optTerm, classify, Except.map] at hx; subst hx; cases hxt
    | [a], hx =>
      have hsp := classify_spec (o := o') wr1 g1 hc1 a
      have e : classifyOne o' w1 g1 r.c [a] = classify o' w1 g1 r.c a := rfl
      rw [e] at hx
      rcases hsp.2.2 with h1 | ⟨v', h1, h2, _⟩
      · rw [h1] at hx; cases hx
      · rw [h1] at hx
        simp only [Except.map, Except.ok.injEq, GetRes.one.injEq] at hx
        subst hx
        rw [← h2, hxt]
    | a :: b :: l, hx => simp [classifyOne, oneOrNone, Except.map] at hx
  subst hobjs
  have hobjs' : objs' = [.lit v none d] := by
    have := s3
    simp only [List.map_cons, List.map_nil] at this
    exact List.perm_singleton.1 this
  subst hobjs'
  rfl

theorem plain_named {n : PStr} (h : ∀ c ∈ n, quoteKeeps c = true) : (Term.named n).Plain := fun c hc => (uriChar_iff c).2 (h c hc)

theorem plain_string {v : PStr} (h : ∀ c ∈ v, c < 1114112 ∧ ntKept c = true) : (Term.lit v none none).Plain :=
  ⟨fun c hc => (h c hc).1, fun c hc => (h c hc).2, (by intro _ e; cases e), (by intro _ e; cases e)⟩

/-- A graph with an old value and a triple of another subject. -/
def noted : Graph :=
  ((Graph.new .none).add (mkTriple (.named (py! "http://x")) (.named (rdfsNs ++ py! "comment")) (.lit (py! "old") none none))).add
    (mkTriple (.named (py! "http://y")) (.named (rdfsNs ++ py! "label")) (.lit (py! "why") none none))

theorem noted_reach : noted.Reach := ((Graph.Reach.new _).add _ _ _).add _ _ _

/-- Two values set on a graph with other triples, written, read and selected again. -/
example : ∃ text g2 next' ρ,
    serializeNTriples ((setItem {} World.new noted ⟨0, .named (py! "http://x")⟩ (.name (py! "rdfs:comment"))
      (.many [.str (py! "a"), .iri (py! "http://y"), .str (py! "a")])).2.1.iter id) = (text, .ok ()) ∧
    parseString Graph.add false 0 text Graph.new = (g2, next', .ok ()) ∧
    (∀ o' : Orders, o'.OK → ∃ objs, getItem o' World.new g2 ⟨0, .named (py! "http://x")⟩ (.name (py! "rdfs:comment")) = (World.new, .ok (.iter objs)) ∧ objs.Nodup ∧
      ∀ x, x ∈ objs ↔ ∃ u ∈ values (.many [.str (py! "a"), .iri (py! "http://y"), .str (py! "a")]), ∃ y, storedTerm none none u = some y ∧ x = y.rename ρ) := by
  obtain ⟨text, g2, n', ρ, a, b, c, -⟩ := C143_ntriples Orders.OK.default .new noted_reach (r := ⟨0, .named (py! "http://x")⟩) (by decide) rfl (by decide)
    (k := py! "rdfs:comment") (p := rdfsNs ++ py! "comment") (by decide) (by decide) (by decide) (.many [.str (py! "a"), .iri (py! "http://y"), .str (py! "a")])
    (w1 := World.new) (g1 := (setItem {} World.new noted ⟨0, .named (py! "http://x")⟩ (.name (py! "rdfs:comment"))
      (.many [.str (py! "a"), .iri (py! "http://y"), .str (py! "a")])).2.1) (by decide)
    (by
      intro t ht
      simp only [noted, Graph.mem_add, Graph.new, List.not_mem_nil, or_false] at ht
      rcases ht with rfl | rfl <;>
        exact ⟨⟨Or.inl ⟨_, rfl⟩, ⟨_, rfl⟩, Or.inr (Or.inr ⟨_, _, _, rfl⟩), rfl⟩, plain_named (by decide), plain_named (by decide), plain_string (by decide)⟩)
    (plain_named (by decide)) (plain_named (by decide))
    (by
      intro u hu x hx
      simp only [values, List.mem_cons, List.not_mem_nil, or_false] at hu
      rcases hu with rfl | rfl | rfl <;> cases hx
      · exact ⟨plain_string (by decide), Or.inr (Or.inr ⟨_, _, _, rfl⟩)⟩
      · exact ⟨plain_named (by decide), Or.inl ⟨_, rfl⟩⟩
      · exact ⟨plain_string (by decide), Or.inr (Or.inr ⟨_, _, _, rfl⟩)⟩)
    id (fun l => List.Perm.refl l) 0
  exact ⟨text, g2, n', ρ, a, b, c⟩

/-- A literal with a datatype set on the scalar label. -/
example : (getItem {} World.new (setItem {} World.new sample ⟨0, .named (py! "http://x")⟩ (.name (py! "rdfs:label"))
    (.one (.lit (py! "5") none (some (py! "http://d"))))).2.1 ⟨0, .named (py! "http://x")⟩ (.name (py! "rdfs:label"))).2 =
    .ok (.one (.lit (py! "5") none (some (py! "http://d")))) := by decide

end Verif
