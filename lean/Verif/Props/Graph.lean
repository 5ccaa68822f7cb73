import Verif.Lemmas.GraphRun
/-
C01-C10: Graph.
-/
namespace Verif
open Spec Graph

/-! Concrete data for the examples. -/
def exA : Term := .named (py! "http://a")
def exB : Term := .named (py! "http://b")
def exC : Term := .lit (py! "c") none none
def exT1 : Tri := ⟨exA, exB, exC⟩
def exT2 : Tri := ⟨exA, exB, exB⟩
def exT3 : Tri := ⟨exB, exB, exC⟩

theorem isOrder_id : IsOrder id := fun _ => .refl _
theorem isOrder_reverse : IsOrder List.reverse := fun l => List.reverse_perm l

/-! ### C01 -/

/-- After any history, membership, len, iteration and toArray agree with the set. -/
theorem C01_graph_refines_set (u : Term) (ops : List GOp) (ord) (hord : IsOrder ord) :
    let g := Graph.run u ops
    let S := runSet ops
    (∀ x : Stmt, g.contains x = true ↔ ∃ t ∈ S, x = t.stmt) ∧
    g.len = S.card ∧
    (g.iter ord).Nodup ∧ (∀ x, x ∈ g.iter ord ↔ ∃ t ∈ S, x = t.stmt) ∧
    g.toArray.Perm (g.iter ord) := by
  have h := rep_run u ops
  refine ⟨fun x => ?_, h.length, ?_, fun x => ?_, (hord _).symm⟩
  · rw [contains, decide_eq_true_eq]; exact h.mem x
  · exact (hord _).nodup_iff.2 h.inv.nodup
  · exact (hord _).mem_iff.trans (h.mem x)

/-- `remove` raises KeyError exactly if the triple is absent, and then changes nothing; the other operations never raise. -/
theorem C01_remove_outcome (u : Term) (ops : List GOp) (t : Tri) :
    let g := Graph.run u ops
    (t ∈ runSet ops → (g.exec (.remove t)).2 = .ok ()) ∧
    (t ∉ runSet ops → g.exec (.remove t) = (g, .error .keyError)) ∧
    (g.exec (.add t)).2 = .ok () ∧ ∀ ts, (g.exec (.addAll ts)).2 = .ok () := by
  have h := rep_run u ops
  refine ⟨fun ht => ?_, fun ht => ?_, rfl, fun _ => rfl⟩
  · show (Graph.remove _ _).2 = _
    rw [remove_of_mem h.inv.toIxInv ((h.mem_stmt t).2 ht)]
  · exact remove_of_not_mem (fun h' => ht ((h.mem_stmt t).1 h'))

example : exT1 ∈ runSet [.add exT1, .addAll [exT2, exT3], .remove exT2, .add exT1] ∧
    exT2 ∉ runSet [.add exT1, .addAll [exT2, exT3], .remove exT2, .add exT1] := by decide
example : (Graph.run .none [.add exT1, .addAll [exT2, exT3], .remove exT2, .add exT1]).len = 2 := by decide

/-! ### C02 -/

/-- `match` yields exactly the matching triples, each once, for every combination of given and omitted terms. -/
theorem C02_match_exact (u : Term) (ops : List GOp) (ord) (hord : IsOrder ord) (s p o : Option Term)
    (hs : NonEmpty s) (hp : NonEmpty p) (ho : NonEmpty o) :
    let ms := (Graph.run u ops).match ord (arg s) (arg p) (arg o)
    ms.Nodup ∧ ∀ x, x ∈ ms ↔ ∃ t ∈ runSet ops, x = t.stmt ∧ t.Matches s p o := by
  have h := rep_run u ops
  exact ⟨nodup_match h.inv.toIxInv hord _ _ _, h.mem_match hord hs hp ho⟩

example : NonEmpty (some exA) ∧ NonEmpty none ∧
    (Graph.run .none [.add exT1, .add exT2, .add exT3]).match id (arg (some exA)) (arg none) (arg none)
      = [exT1.stmt, exT2.stmt] := by
  refine ⟨?_, ?_, by decide⟩
  · intro a h; cases h; exact ⟨by decide, by decide⟩
  · intro a h; cases h

/-! ### C03 -/

/-- The property at hand: a triple yielded for a given subject has that subject. -/
def C03_statement : Prop := ∀ (u : Term) (ops : List GOp) (ord), IsOrder ord → ∀ (s : Term), s ≠ .none →
  ∀ x ∈ (Graph.run u ops).match ord s .none .none, x.s = s

/-- It is false: the empty IRI acts as a wildcard. -/
theorem C03_empty_iri_is_wildcard : ¬ C03_statement := by
  intro h
  have := h .none [.add exT1] id isOrder_id (.named []) (by decide) exT1.stmt (by decide)
  revert this; decide

/-- Exactly: in each position the empty IRI behaves as `None`. -/
theorem C03_empty_iri_eq_none (ord) (g : Graph) (s p o : Term) :
    g.match ord (.named []) p o = g.match ord .none p o ∧
    g.match ord s (.named []) o = g.match ord s .none o ∧
    g.match ord s p (.named []) = g.match ord s p .none := by
  refine ⟨rfl, ?_, ?_⟩ <;> simp [Graph.match, Term.truthy]

/-- What holds: every other given term constrains the match. Missing: the empty IRI. -/
theorem C03_given_term_constrains_partial (u : Term) (ops : List GOp) (ord) (hord : IsOrder ord) (s p o : Term) :
    ∀ x ∈ (Graph.run u ops).match ord s p o,
      (s ≠ .none → s ≠ .named [] → x.s = s) ∧ (p ≠ .none → p ≠ .named [] → x.p = p) ∧
      (o ≠ .none → o ≠ .named [] → x.o = o) := by
  intro x hx
  have h := (Graph.mem_match (rep_run u ops).inv hord s p o x).1 hx
  exact ⟨fun a b => h.2.1 ((truthy_iff s).2 ⟨a, b⟩), fun a b => h.2.2.1 ((truthy_iff p).2 ⟨a, b⟩),
    fun a b => h.2.2.2 ((truthy_iff o).2 ⟨a, b⟩)⟩

example : exT1.stmt ∈ (Graph.run .none [.add exT1, .add exT3]).match id exA .none .none := by decide

/-! ### C04 -/

/-- Every triple a history ever added. -/
def everAdded (ops : List GOp) : List Tri := ops.flatMap fun
  | .add t => [t]
  | .addAll ts => ts
  | .remove _ => []

def C04_statement : Prop := ∀ (u : Term) (ops : List GOp) (x : Term),
  x ∈ (Graph.run u ops).subjects → ∃ t ∈ runSet ops, t.s = x

/-- It is false: a removed triple's subject is still listed. -/
theorem C04_stale_subject : ¬ C04_statement := by
  intro h
  have := h .none [.add exT1, .remove exT1] exA (by decide)
  revert this; decide

/-- Keys of the three indexes relative to a list of ever added statements. -/
structure KeysOf (g : Graph) (E : List Tri) : Prop where
  s : ∀ x, x ∈ g.subjects ↔ ∃ t ∈ E, t.s = x
  p : ∀ x, x ∈ g.predicates ↔ ∃ t ∈ E, t.p = x
  o : ∀ x, x ∈ g.objects ↔ ∃ t ∈ E, t.o = x

theorem KeysOf.add {g E} (h : KeysOf g E) (t : Tri) : KeysOf (g.add t.stmt) (E ++ [t]) := by
  constructor <;> intro x
  · show x ∈ Dict.keys (Idx.put _ _ _ _ _) ↔ _
    rw [Idx.mem_keys_put]
    have := h.s x
    unfold subjects at this
    rw [this]
    simp only [List.mem_append, List.mem_singleton]
    constructor
    · rintro (rfl | ⟨t', h1, rfl⟩)
      exacts [⟨t, Or.inr rfl, rfl⟩, ⟨t', Or.inl h1, rfl⟩]
    · rintro ⟨t', h1 | rfl, rfl⟩
      exacts [Or.inr ⟨t', h1, rfl⟩, Or.inl rfl]
  · show x ∈ Dict.keys (Idx.put _ _ _ _ _) ↔ _
    rw [Idx.mem_keys_put]
    have := h.p x
    unfold predicates at this
    rw [this]
    simp only [List.mem_append, List.mem_singleton]
    constructor
    · rintro (rfl | ⟨t', h1, rfl⟩)
      exacts [⟨t, Or.inr rfl, rfl⟩, ⟨t', Or.inl h1, rfl⟩]
    · rintro ⟨t', h1 | rfl, rfl⟩
      exacts [Or.inr ⟨t', h1, rfl⟩, Or.inl rfl]
  · show x ∈ Dict.keys (Idx.put _ _ _ _ _) ↔ _
    rw [Idx.mem_keys_put]
    have := h.o x
    unfold objects at this
    rw [this]
    simp only [List.mem_append, List.mem_singleton]
    constructor
    · rintro (rfl | ⟨t', h1, rfl⟩)
      exacts [⟨t, Or.inr rfl, rfl⟩, ⟨t', Or.inl h1, rfl⟩]
    · rintro ⟨t', h1 | rfl, rfl⟩
      exacts [Or.inr ⟨t', h1, rfl⟩, Or.inl rfl]

theorem KeysOf.addAll {g E} (h : KeysOf g E) (ts : List Tri) : KeysOf (g.addAll (ts.map Tri.stmt)) (E ++ ts) := by
  induction ts generalizing g E with
  | nil => simpa [Graph.addAll] using h
  | cons t ts ih =>
    have := ih (h.add t)
    simpa [Graph.addAll] using this

theorem KeysOf.remove {g E} (inv : Graph.Inv g) (h : KeysOf g E) (t : Stmt) : KeysOf (g.remove t).1 E := by
  by_cases hm : t ∈ g.triples
  · rw [remove_of_mem inv.toIxInv hm]
    have k1 : t.s ∈ g.subjects := Idx.mem_keys_of_find ((inv.spo _ _ _ t).2 ⟨hm, rfl, rfl, rfl⟩)
    have k2 : t.p ∈ g.predicates := Idx.mem_keys_of_find ((inv.pos _ _ _ t).2 ⟨hm, rfl, rfl, rfl⟩)
    have k3 : t.o ∈ g.objects := Idx.mem_keys_of_find ((inv.osp _ _ _ t).2 ⟨hm, rfl, rfl, rfl⟩)
    constructor <;> intro x
    · show x ∈ Dict.keys (Idx.del3 _ _ _ _) ↔ _
      rw [Idx.mem_keys_del3, ← h.s x]
      exact ⟨fun e => e.elim (fun e => e ▸ k1) id, Or.inr⟩
    · show x ∈ Dict.keys (Idx.del3 _ _ _ _) ↔ _
      rw [Idx.mem_keys_del3, ← h.p x]
      exact ⟨fun e => e.elim (fun e => e ▸ k2) id, Or.inr⟩
    · show x ∈ Dict.keys (Idx.del3 _ _ _ _) ↔ _
      rw [Idx.mem_keys_del3, ← h.o x]
      exact ⟨fun e => e.elim (fun e => e ▸ k3) id, Or.inr⟩
  · rw [remove_of_not_mem hm]; exact h

theorem keysOf_run (u : Term) (ops : List GOp) : KeysOf (Graph.run u ops) (everAdded ops) := by
  have : ∀ (ops : List GOp) g S E, Rep g S → KeysOf g E →
      KeysOf (ops.foldl (fun g op => (g.exec op).1) g) (E ++ everAdded ops) := by
    intro ops
    induction ops with
    | nil => intro g S E _ h; simpa [everAdded] using h
    | cons op ops ih =>
      intro g S E hr h
      rw [List.foldl_cons]
      cases op with
      | add t => simpa [everAdded] using ih _ _ _ (hr.exec (.add t)) (h.add t)
      | addAll ts => simpa [everAdded] using ih _ _ _ (hr.exec (.addAll ts)) (h.addAll ts)
      | remove t => simpa [everAdded] using ih _ _ _ (hr.exec (.remove t)) (h.remove hr.inv t.stmt)
  have := this ops _ _ [] (Rep.new u) (by constructor <;> simp [Graph.new, subjects, predicates, objects, Dict.keys])
  simpa [Graph.run] using this

/-- Exactly: the three listings show, once each, the terms of every triple that was ever added. -/
theorem C04_lists_ever_added (u : Term) (ops : List GOp) :
    let g := Graph.run u ops
    (g.subjects.Nodup ∧ ∀ x, x ∈ g.subjects ↔ ∃ t ∈ everAdded ops, t.s = x) ∧
    (g.predicates.Nodup ∧ ∀ x, x ∈ g.predicates ↔ ∃ t ∈ everAdded ops, t.p = x) ∧
    (g.objects.Nodup ∧ ∀ x, x ∈ g.objects ↔ ∃ t ∈ everAdded ops, t.o = x) := by
  have h := (rep_run u ops).inv
  have k := keysOf_run u ops
  exact ⟨⟨h.wspo.1, k.s⟩, ⟨h.wpos.1, k.p⟩, ⟨h.wosp.1, k.o⟩⟩

/-- `op` is not a removal. -/
def GOp.isAdd : GOp → Prop
  | .remove _ => False
  | _ => True

theorem runSet_add_only (ops : List GOp) (h : ∀ op ∈ ops, GOp.isAdd op) (t : Tri) :
    t ∈ runSet ops ↔ t ∈ everAdded ops := by
  have : ∀ (ops : List GOp), (∀ op ∈ ops, GOp.isAdd op) → ∀ S : Finset Tri,
      t ∈ ops.foldl (fun S op => op.apply S) S ↔ t ∈ S ∨ t ∈ everAdded ops := by
    intro ops
    induction ops with
    | nil => intro _ S; simp [everAdded]
    | cons op ops ih =>
      intro h S
      rw [List.foldl_cons, ih (fun o ho => h o (by simp [ho]))]
      have := h op (by simp)
      cases op with
      | add t' =>
        simp only [everAdded, GOp.apply, Finset.mem_insert, List.flatMap_cons, List.mem_append, List.mem_singleton]
        tauto
      | addAll ts =>
        simp only [everAdded, GOp.apply, Finset.mem_union, List.mem_toFinset, List.flatMap_cons, List.mem_append]
        tauto
      | remove t' => exact absurd this id
  have := this ops h ∅
  simpa [runSet] using this

/-- What holds: every term in use is listed, once; for histories without removal nothing else is.
    Missing: histories with removals list stale terms. -/
theorem C04_terms_in_use_partial (u : Term) (ops : List GOp) :
    let g := Graph.run u ops
    (g.subjects.Nodup ∧ ∀ t ∈ runSet ops, t.s ∈ g.subjects) ∧
    (g.predicates.Nodup ∧ ∀ t ∈ runSet ops, t.p ∈ g.predicates) ∧
    (g.objects.Nodup ∧ ∀ t ∈ runSet ops, t.o ∈ g.objects) ∧
    ((∀ op ∈ ops, GOp.isAdd op) → ∀ x,
      (x ∈ g.subjects ↔ ∃ t ∈ runSet ops, t.s = x) ∧
      (x ∈ g.predicates ↔ ∃ t ∈ runSet ops, t.p = x) ∧
      (x ∈ g.objects ↔ ∃ t ∈ runSet ops, t.o = x)) := by
  have h := rep_run u ops
  have k := keysOf_run u ops
  refine ⟨⟨h.inv.wspo.1, fun t ht => ?_⟩, ⟨h.inv.wpos.1, fun t ht => ?_⟩, ⟨h.inv.wosp.1, fun t ht => ?_⟩, fun ha x => ?_⟩
  · exact Idx.mem_keys_of_find ((h.inv.spo _ _ _ t.stmt).2 ⟨(h.mem_stmt t).2 ht, rfl, rfl, rfl⟩)
  · exact Idx.mem_keys_of_find ((h.inv.pos _ _ _ t.stmt).2 ⟨(h.mem_stmt t).2 ht, rfl, rfl, rfl⟩)
  · exact Idx.mem_keys_of_find ((h.inv.osp _ _ _ t.stmt).2 ⟨(h.mem_stmt t).2 ht, rfl, rfl, rfl⟩)
  · simp only [runSet_add_only ops ha]
    exact ⟨k.s x, k.p x, k.o x⟩

example : (∀ op ∈ [GOp.add exT1, .addAll [exT2, exT3]], GOp.isAdd op) ∧
    (Graph.run .none [.add exT1, .addAll [exT2, exT3]]).subjects = [exA, exB] := by
  refine ⟨?_, by decide⟩
  intro op h
  simp only [List.mem_cons, List.not_mem_nil, or_false] at h
  rcases h with rfl | rfl <;> trivial

/-! ### C05 -/

def C05_statement : Prop := ∀ (u : Term) (ops : List GOp) (ord), IsOrder ord → ∀ (s p o : Option Term),
  NonEmpty s → NonEmpty p → NonEmpty o →
  let r := (Graph.run u ops).removeMatches ord (arg s) (arg p) (arg o)
  r.2 = .ok () ∧ ∀ x, r.1.contains x = true ↔ ∃ t ∈ runSet ops, x = t.stmt ∧ ¬ t.Matches s p o

/-- It is false: with one matching triple and an open pattern, the call raises RuntimeError. -/
theorem C05_removeMatches_raises : ¬ C05_statement := by
  intro h
  have := (h .none [.add exT1, .add exT2] id isOrder_id (some exA) none none
    (by intro a e; cases e; exact ⟨by decide, by decide⟩) (by intro a e; cases e) (by intro a e; cases e)).1
  revert this; decide

/-- Exactly, for a pattern with an open position: nothing happens if nothing matches; otherwise one matching triple
    is removed and RuntimeError is raised. -/
theorem C05_removeMatches_exact (u : Term) (ops : List GOp) (ord) (hord : IsOrder ord) (s p o : Option Term)
    (hs : NonEmpty s) (hp : NonEmpty p) (ho : NonEmpty o) (hopen : s = none ∨ p = none ∨ o = none) :
    let g := Graph.run u ops
    let r := g.removeMatches ord (arg s) (arg p) (arg o)
    ((¬ ∃ t ∈ runSet ops, t.Matches s p o) → r = (g, .ok ())) ∧
    ((∃ t ∈ runSet ops, t.Matches s p o) →
      ∃ t ∈ runSet ops, t.Matches s p o ∧ r = ((g.exec (.remove t)).1, .error .runtimeError)) := by
  intro g r
  have h : Rep g (runSet ops) := rep_run u ops
  have hb : ¬ ((arg s).truthy = true ∧ (arg p).truthy = true ∧ (arg o).truthy = true) := by
    rintro ⟨h1, h2, h3⟩
    rcases hopen with rfl | rfl | rfl
    · exact absurd h1 (by decide)
    · exact absurd h2 (by decide)
    · exact absurd h3 (by decide)
  have hd := drains_match ord g (arg s) (arg p) (arg o)
  have hmem := fun x => h.mem_match hord hs hp ho x
  have hr : r = removeLoop ord (g.triples.length + 2) g (.start (arg s) (arg p) (arg o)) := rfl
  cases hl : g.match ord (arg s) (arg p) (arg o) with
  | nil =>
    rw [hl] at hd
    refine ⟨fun _ => ?_, ?_⟩
    · cases hd with
      | stop e => rw [hr, removeLoop, e]
    · rintro ⟨t, h1, h2⟩
      have := (hmem t.stmt).2 ⟨t, h1, rfl, h2⟩
      rw [hl] at this; cases this
  | cons x l =>
    rw [hl] at hd
    obtain ⟨t, ht, rfl, hm⟩ := (hmem x).1 (by rw [hl]; simp)
    refine ⟨fun hn => absurd ⟨t, ht, hm⟩ hn, fun _ => ⟨t, ht, hm, ?_⟩⟩
    cases hd with
    | item e _ =>
      have hat := next_start_at hord hb e
      have hx := (h.mem_stmt t).2 ht
      have hrem := remove_of_mem h.inv.toIxInv hx
      rw [hr, removeLoop, e]
      simp only [hrem]
      rw [removeLoop, next_removed h.inv.toIxInv hat]
      show _ = ((g.remove t.stmt).1, _)
      rw [hrem]

/-- What holds: the property for fully given patterns, and for patterns that match nothing.
    Missing: an open pattern that matches something (see `C05_removeMatches_exact`). -/
theorem C05_removeMatches_partial (u : Term) (ops : List GOp) (ord) (hord : IsOrder ord) (s p o : Option Term)
    (hs : NonEmpty s) (hp : NonEmpty p) (ho : NonEmpty o)
    (hc : (s ≠ none ∧ p ≠ none ∧ o ≠ none) ∨ ¬ ∃ t ∈ runSet ops, t.Matches s p o) :
    let r := (Graph.run u ops).removeMatches ord (arg s) (arg p) (arg o)
    r.2 = .ok () ∧ ∀ x, r.1.contains x = true ↔ ∃ t ∈ runSet ops, x = t.stmt ∧ ¬ t.Matches s p o := by
  intro r
  have h := rep_run u ops
  by_cases hb : s ≠ none ∧ p ≠ none ∧ o ≠ none
  · clear hc
    obtain ⟨s, rfl⟩ := Option.ne_none_iff_exists'.1 hb.1
    obtain ⟨p, rfl⟩ := Option.ne_none_iff_exists'.1 hb.2.1
    obtain ⟨o, rfl⟩ := Option.ne_none_iff_exists'.1 hb.2.2
    have hs' := (truthy_iff s).2 (hs s rfl)
    have hp' := (truthy_iff p).2 (hp p rfl)
    have ho' := (truthy_iff o).2 (ho o rfl)
    have hmatch : ∀ t : Tri, t.Matches (some s) (some p) (some o) ↔ t = ⟨s, p, o⟩ := by
      intro t; cases t; simp [Tri.Matches, agrees]
    have hr : r = removeLoop ord ((Graph.run u ops).triples.length + 2) (Graph.run u ops) (.start s p o) := rfl
    have hst : mkTriple s p o = (Tri.mk s p o).stmt := rfl
    rw [removeLoop] at hr
    simp only [next, hs', hp', ho', if_true, contains, hst, decide_eq_true_eq] at hr
    by_cases hm : (Tri.mk s p o) ∈ runSet ops
    · have hm' := (h.mem_stmt _).2 hm
      rw [if_pos hm'] at hr
      simp only [remove_of_mem h.inv.toIxInv hm'] at hr
      rw [removeLoop] at hr
      simp only [next] at hr
      rw [hr]
      refine ⟨rfl, fun x => ?_⟩
      rw [contains, decide_eq_true_eq, mem_removed h.inv.nodup, h.mem]
      constructor
      · rintro ⟨h1, t, h2, rfl⟩
        exact ⟨t, h2, rfl, fun h3 => h1 (by rw [(hmatch t).1 h3])⟩
      · rintro ⟨t, h2, rfl, h3⟩
        exact ⟨fun e => h3 ((hmatch t).2 (stmt_inj.1 e)), t, h2, rfl⟩
    · have hm' := fun e => hm ((h.mem_stmt _).1 e)
      rw [if_neg hm'] at hr
      simp only at hr
      rw [hr]
      refine ⟨rfl, fun x => ?_⟩
      rw [contains, decide_eq_true_eq, h.mem]
      constructor
      · rintro ⟨t, h2, rfl⟩
        exact ⟨t, h2, rfl, fun h3 => hm ((hmatch t).1 h3 ▸ h2)⟩
      · rintro ⟨t, h2, rfl, h3⟩
        exact ⟨t, h2, rfl⟩
  · have hn := hc.resolve_left hb
    have hopen : s = none ∨ p = none ∨ o = none := by
      by_contra hcon
      exact hb ⟨fun e => hcon (Or.inl e), fun e => hcon (Or.inr (Or.inl e)), fun e => hcon (Or.inr (Or.inr e))⟩
    have := (C05_removeMatches_exact u ops ord hord s p o hs hp ho hopen).1 hn
    show r.2 = _ ∧ _
    rw [show r = (Graph.run u ops, .ok ()) from this]
    refine ⟨rfl, fun x => ?_⟩
    rw [contains, decide_eq_true_eq, h.mem]
    constructor
    · rintro ⟨t, h2, rfl⟩
      exact ⟨t, h2, rfl, fun h3 => hn ⟨t, h2, h3⟩⟩
    · rintro ⟨t, h2, rfl, h3⟩
      exact ⟨t, h2, rfl⟩

example : ((Graph.run .none [.add exT1, .add exT2, .add exT3]).removeMatches id exA .none .none) =
    ((Graph.run .none [.add exT1, .add exT2, .add exT3, .remove exT1]), .error .runtimeError) := by decide
example : ((Graph.run .none [.add exT1, .add exT2, .add exT3]).removeMatches id exA exB exC).2 = .ok () := by decide

/-! ### C06 -/

/-- `addAll` adds exactly the given triples. -/
theorem C06_addAll_union (u : Term) (ops : List GOp) (ts : List Tri) (x : Stmt) :
    ((Graph.run u ops).addAll (ts.map Tri.stmt)).contains x = true ↔
      (∃ t ∈ runSet ops, x = t.stmt) ∨ ∃ t ∈ ts, x = t.stmt := by
  rw [contains, decide_eq_true_eq, mem_addAll, (rep_run u ops).mem]
  simp only [List.mem_map, eq_comm (b := x)]
  exact or_comm

/-- `merge` returns a graph with the union; queries on it agree with the union set. (The arguments are values of the model, so
    they are unchanged by construction: primitives.py:471-479 only reads them.) -/
theorem C06_merge_union (u u' : Term) (ops ops' : List GOp) (ord) (hord : IsOrder ord) :
    let m := (Graph.run u ops).merge ord (Graph.run u' ops')
    let S := runSet ops ∪ runSet ops'
    (∀ x, m.contains x = true ↔ ∃ t ∈ S, x = t.stmt) ∧ m.len = S.card ∧
    ∀ s p o : Option Term, NonEmpty s → NonEmpty p → NonEmpty o →
      (m.match ord (arg s) (arg p) (arg o)).Nodup ∧
      ∀ x, x ∈ m.match ord (arg s) (arg p) (arg o) ↔ ∃ t ∈ S, x = t.stmt ∧ t.Matches s p o := by
  intro m S
  have h := rep_run u ops
  have h' := rep_run u' ops'
  have hm : Rep m S := by
    have i1 : Inv ((iter ord (Graph.run u' ops')).foldl Graph.add Graph.new) :=
      (Inv.new .none).addAll (fun t ht => h'.inv.isTri t ((hord _).mem_iff.1 ht))
    refine ⟨i1.addAll (fun t ht => h.inv.isTri t ((hord _).mem_iff.1 ht)), fun x => ?_⟩
    show x ∈ (Graph.addAll (Graph.addAll Graph.new _) _).triples ↔ _
    rw [mem_addAll, mem_addAll]
    unfold iter
    rw [(hord _).mem_iff, (hord _).mem_iff, h.mem, h'.mem]
    simp only [S, Finset.mem_union, Graph.new, List.not_mem_nil, or_false]
    constructor
    · rintro (⟨t, h1, rfl⟩ | ⟨t, h1, rfl⟩)
      exacts [⟨t, Or.inl h1, rfl⟩, ⟨t, Or.inr h1, rfl⟩]
    · rintro ⟨t, h1 | h1, rfl⟩
      exacts [Or.inl ⟨t, h1, rfl⟩, Or.inr ⟨t, h1, rfl⟩]
  refine ⟨fun x => ?_, hm.length, fun s p o hs hp ho => ?_⟩
  · rw [contains, decide_eq_true_eq]; exact hm.mem x
  · exact ⟨nodup_match hm.inv.toIxInv hord _ _ _, hm.mem_match hord hs hp ho⟩

example : ((Graph.run .none [.add exT1, .add exT2]).merge List.reverse (Graph.run exA [.add exT2, .add exT3])).len = 3 := by
  decide

/-! ### C07 -/

/-- Two histories with the same resulting set are indistinguishable by membership, len and match, whatever the
    iteration orders. -/
theorem C07_order_unobservable (u u' : Term) (ops ops' : List GOp) (heq : runSet ops = runSet ops')
    (ord ord') (hord : IsOrder ord) (hord' : IsOrder ord') :
    let g := Graph.run u ops
    let g' := Graph.run u' ops'
    (∀ x, g.contains x = g'.contains x) ∧ g.len = g'.len ∧ (g.iter ord).Perm (g'.iter ord') ∧
    ∀ s p o : Term, (g.match ord s p o).Perm (g'.match ord' s p o) := by
  intro g g'
  have h : Rep g (runSet ops) := rep_run u ops
  have h' : Rep g' (runSet ops) := heq ▸ rep_run u' ops'
  have hm : ∀ x, x ∈ g.triples ↔ x ∈ g'.triples := fun x => (h.mem x).trans (h'.mem x).symm
  refine ⟨fun x => ?_, h.length.trans h'.length.symm, ?_, fun s p o => ?_⟩
  · simp only [contains, hm]
  · exact (hord _).trans (((List.perm_ext_iff_of_nodup h.inv.nodup h'.inv.nodup).2 hm).trans (hord' _).symm)
  · rw [List.perm_ext_iff_of_nodup (nodup_match h.inv.toIxInv hord _ _ _) (nodup_match h'.inv.toIxInv hord' _ _ _)]
    intro x
    rw [mem_match h.inv hord, mem_match h'.inv hord', hm]

/-- In particular adding the same triples in any order and any number of times. -/
theorem C07_adds_same_elements (ts us : List Tri) (h : ∀ t, t ∈ ts ↔ t ∈ us) :
    runSet (ts.map GOp.add) = runSet (us.map GOp.add) := by
  ext t
  have e : ∀ l : List Tri, t ∈ runSet (l.map GOp.add) ↔ t ∈ l := by
    intro l
    rw [runSet_add_only]
    · simp [everAdded, List.flatMap_map]
    · intro op ho; obtain ⟨_, _, rfl⟩ := List.mem_map.1 ho; trivial
  rw [e, e, h]

example : ∀ t, t ∈ [exT1, exT2, exT1] ↔ t ∈ [exT2, exT2, exT1] := by
  intro t; simp only [List.mem_cons, List.not_mem_nil, or_false]; tauto

/-! ### C08 -/

/-- The property for `Graph.add` of a value without statement attributes, as `Resource.copy` passes it. -/
def C08_statement : Prop := ∀ (u : Term) (ops : List GOp) (s p o : Term),
  let g := Graph.run u ops
  ∀ e, (g.addTuple s p o).2 = .error e → ∀ x, (g.addTuple s p o).1.contains x = g.contains x

/-- It is false: the raising call has already put the tuple into the set. -/
theorem C08_addTuple_not_atomic : ¬ C08_statement := by
  intro h
  have := h .none [] exA exB exC .attributeError (by decide) (mkTriple exA exB exC)
  revert this; decide

/-- Afterwards iteration shows the statement but match on its subject does not. -/
theorem C08_addTuple_inconsistent (u : Term) (ops : List GOp) (ord) (hord : IsOrder ord) (t : Tri) (ht : t ∉ runSet ops)
    (hs : NonEmpty (some t.s)) :
    let g' := ((Graph.run u ops).addTuple t.s t.p t.o).1
    t.stmt ∈ g'.iter ord ∧ t.stmt ∉ g'.match ord t.s .none .none := by
  have h := rep_run u ops
  refine ⟨(hord _).mem_iff.2 ((mem_setAdd _ _ _).2 (Or.inl rfl)), ?_⟩
  have e : ((Graph.run u ops).addTuple t.s t.p t.o).1.match ord t.s .none .none
      = (Graph.run u ops).match ord t.s .none .none := by
    have := (truthy_iff t.s).2 (hs _ rfl)
    simp only [Graph.match, this, if_true, addTuple]
    rfl
  rw [e, mem_match h.inv hord]
  rintro ⟨h1, _⟩
  exact ht ((h.mem_stmt t).1 h1)

/-- What holds: `remove` of a triple, present or not, and `add`/`addAll` of triples are atomic: if they raise, the graph
    is the same. Missing: `add` of a plain tuple. -/
theorem C08_atomic_partial (u : Term) (ops : List GOp) (op : GOp) (e : Exc)
    (h : ((Graph.run u ops).exec op).2 = .error e) : ((Graph.run u ops).exec op).1 = Graph.run u ops := by
  cases op with
  | add t => cases h
  | addAll ts => cases h
  | remove t =>
    have hr := C01_remove_outcome u ops t
    by_cases ht : t ∈ runSet ops
    · rw [hr.1 ht] at h; cases h
    · rw [hr.2.1 ht]

example : ((Graph.run .none [.add exT1]).exec (.remove exT2)).2 = .error .keyError := by decide

/-! ### C09 -/

/-- Consuming a `match` generator over an unchanged graph yields exactly the matches of the graph as it is when consumption
    starts (`g` is any graph, unrelated to the one at the call of `match`: the suspended start state does not mention it). -/
theorem C09_lazy_listing (ord) (g : Graph) (s p o : Term) (l : List Stmt) :
    Drains ord g (.start s p o) l ↔ l = g.match ord s p o :=
  ⟨fun h => h.unique (drains_match ord g s p o), fun h => h ▸ drains_match ord g s p o⟩

/-- Between two `next` calls a change of the size of what is being iterated makes the second raise RuntimeError. -/
theorem C09_size_change_raises (ord) (g' : Graph) :
    (∀ w k1 k2 n rest outer, ((g'.ix w).l2 k1 k2).length ≠ n →
      next ord g' (.inner w k1 k2 n rest outer) = (.done, .raise .runtimeError)) ∧
    (∀ n rest, g'.len ≠ n → next ord g' (.setIter n rest) = (.done, .raise .runtimeError)) := by
  constructor
  · intro w k1 k2 n rest outer h
    simp only [next, resumeInner]; rw [if_pos h]
  · intro n rest h
    simp only [next, resumeSet]; exact if_pos h

/-- A generator that came to its end, or raised, is over: whatever happens to the graph afterwards, it gives nothing more. -/
theorem C09_finished (ord) (g : Graph) (it : MIter) (h : ∀ t, (next ord g it).2 ≠ .item t) (ord') (g' : Graph) : next ord' g' (next ord g it).1 = (.done, .stop) := by
  have outer : ∀ w k1 n ks, (∀ t, (resumeOuter g w k1 n ks).2 ≠ .item t) → (resumeOuter g w k1 n ks).1 = .done := by
    intro w k1 n ks h
    induction ks with
    | nil => unfold resumeOuter; split <;> rfl
    | cons k ks ih =>
      unfold resumeOuter at h ⊢
      split
      · rfl
      · next hn =>
        rw [if_neg hn] at h
        split
        · next hv => rw [hv] at h; exact ih h
        · next hv => rw [hv] at h; exact absurd rfl (h _)
  have inner : ∀ w k1 k2 n rest out, (∀ t, (resumeInner g w k1 k2 n rest out).2 ≠ .item t) → (resumeInner g w k1 k2 n rest out).1 = .done := by
    intro w k1 k2 n rest out h
    unfold resumeInner at h ⊢
    split
    · rfl
    · next hn =>
      rw [if_neg hn] at h
      cases rest with
      | cons t rest => exact absurd rfl (h t)
      | nil =>
        cases out with
        | none => rfl
        | some x => exact outer _ _ _ _ h
  have set : ∀ n rest, (∀ t, (resumeSet g n rest).2 ≠ .item t) → (resumeSet g n rest).1 = .done := by
    intro n rest h
    unfold resumeSet at h ⊢
    split
    · rfl
    · next hn =>
      rw [if_neg hn] at h
      cases rest with
      | cons t rest => exact absurd rfl (h t)
      | nil => rfl
  have cond : ∀ (b : Bool) (x : MIter × Yield) , ((∀ t, x.2 ≠ .item t) → x.1 = .done) →
      (∀ t, (if b = true then x else (.done, .stop)).2 ≠ .item t) → (if b = true then x else (.done, .stop)).1 = .done := by
    intro b x hx h
    cases b with
    | true => exact hx h
    | false => rfl
  have done : (next ord g it).1 = .done := by
    cases it with
    | done => rfl
    | bound => rfl
    | inner w k1 k2 n rest out => exact inner _ _ _ _ _ _ h
    | setIter n rest => exact set _ _ h
    | start s p o =>
      revert h
      unfold next startInner startOuter
      by_cases hs : s.truthy = true <;> by_cases hp : p.truthy = true <;> by_cases ho : o.truthy = true <;> simp only [hs, hp, ho, ↓reduceIte] <;> intro h <;>
        first
        | exact set _ _ h
        | exact cond _ _ (fun h => inner _ _ _ _ _ _ h) h
        | exact cond _ _ (fun h => outer _ _ _ _ h) h
        | exact cond _ _ (fun h => absurd rfl (h _)) h
  rw [done]
  rfl

/-- Observable form: after the first triple of an open pattern has been yielded, removing it makes the next `next` raise;
    a fully given pattern instead just ends. -/
theorem C09_remove_yielded (u : Term) (ops : List GOp) (ord) (hord : IsOrder ord) (s p o : Term) (it : MIter) (t : Stmt)
    (h : next ord (Graph.run u ops) (.start s p o) = (it, .item t)) :
    let g' := ((Graph.run u ops).remove t).1
    next ord g' it =
      if s.truthy && p.truthy && o.truthy then (.done, .stop) else (.done, .raise .runtimeError) := by
  intro g'
  have hr := rep_run u ops
  have ht : t ∈ (Graph.run u ops).triples := by
    have hd := drains_match ord (Graph.run u ops) s p o
    generalize hl : Graph.match ord (Graph.run u ops) s p o = l at hd
    cases hd with
    | stop e => rw [h] at e; cases e
    | item e _ =>
      rw [h] at e; cases e
      exact ((mem_match hr.inv hord s p o t).1 (by rw [hl]; simp)).1
  by_cases hb : s.truthy = true ∧ p.truthy = true ∧ o.truthy = true
  · obtain ⟨h1, h2, h3⟩ := hb
    simp only [h1, h2, h3, Bool.and_self, if_true]
    simp only [next, h1, h2, h3, if_true] at h
    split at h <;> cases h
    rfl
  · have e : (s.truthy && p.truthy && o.truthy) = false := by
      cases h1 : s.truthy <;> cases h2 : p.truthy <;> cases h3 : o.truthy <;> simp_all
    rw [e]
    show next ord ((Graph.run u ops).remove t).1 it = _
    rw [remove_of_mem hr.inv.toIxInv ht]
    exact next_removed hr.inv.toIxInv (next_start_at hord hb h)

/-- Adding a new triple while an all-open `match` or iteration is suspended makes the next `next` raise. -/
theorem C09_add_while_iterating_all (u : Term) (ops : List GOp) (ord) (t : Tri) (ht : t ∉ runSet ops) (rest : List Stmt) :
    next ord ((Graph.run u ops).add t.stmt) (.setIter (Graph.run u ops).len rest) = (.done, .raise .runtimeError) := by
  have h := rep_run u ops
  apply (C09_size_change_raises ord _).2
  show (setAdd _ _).length ≠ _
  rw [setAdd, if_neg (fun e => ht ((h.mem_stmt t).1 e))]
  simp [len]

example : (next id (Graph.run .none [.add exT1, .add exT2]) (.start exA .none .none)).2 = .item exT1.stmt := by decide

/-! ### C10 -/

/-- A history of `add` of statements of any kind. -/
def addStmts (u : Term) (qs : List Stmt) : Graph := (Graph.new u).addAll qs

def C10_statement : Prop := ∀ (u : Term) (qs : List Stmt) (ord), IsOrder ord →
  let g := addStmts u qs
  ∀ q ∈ g.iter ord, (NonEmpty (some q.s) → NonEmpty (some q.p) → q ∈ g.match ord q.s q.p .none) ∧ (g.remove q).2 = .ok ()

def exQ1 : Stmt := mkQuad exA exB exC exA
def exQ2 : Stmt := mkQuad exA exB exC exB

/-- It is false: two quads with the same triple in different graphs. -/
theorem C10_quads_lost : ¬ C10_statement := by
  intro h
  have := (h .none [exQ1, exQ2] id isOrder_id exQ1 (by decide)).1
    (by intro a e; cases e; exact ⟨by decide, by decide⟩) (by intro a e; cases e; exact ⟨by decide, by decide⟩)
  revert this; decide

/-- Removing both quads in turn: the second removal raises KeyError although the quad was present. -/
theorem C10_second_removal_fails :
    let g := addStmts .none [exQ1, exQ2]
    g.contains exQ1 = true ∧ (g.remove exQ2).2 = .ok () ∧ ((g.remove exQ2).1.contains exQ1 = true) ∧
    ((g.remove exQ2).1.remove exQ1).2 = .error .keyError := by decide

theorem ixInv_addStmts (u : Term) (qs : List Stmt)
    (hd : ∀ q ∈ qs, ∀ q' ∈ qs, q.s = q'.s → q.p = q'.p → q.o = q'.o → q = q') :
    IxInv (addStmts u qs) ∧ ∀ x, x ∈ (addStmts u qs).triples ↔ x ∈ qs := by
  have hm : ∀ x, x ∈ (addStmts u qs).triples ↔ x ∈ qs := by
    intro x; unfold addStmts; rw [mem_addAll]; simp [Graph.new]
  refine ⟨?_, hm⟩
  have : ∀ (l : List Stmt) (g : Graph), IxInv g → (∀ x ∈ g.triples, x ∈ qs) → (∀ x ∈ l, x ∈ qs) → IxInv (g.addAll l) := by
    intro l
    induction l with
    | nil => intro g i _ _; exact i
    | cons q l ih =>
      intro g i h1 h2
      refine ih _ (i.add ?_) ?_ (fun x hx => h2 x (by simp [hx]))
      · intro x hx e1 e2 e3; exact hd x (h1 x hx) q (h2 q (by simp)) e1 e2 e3
      · intro x hx; rcases (mem_add _ _ _).1 hx with rfl | h3
        · exact h2 _ (by simp)
        · exact h1 x h3
  exact this qs _ (IxInv.new u) (by simp [Graph.new]) (fun _ h => h)

/-- What holds: if no two of the added statements agree in all three terms, every statement is found again and can be
    removed. Missing: the same triple in two graphs. -/
theorem C10_quads_found_partial (u : Term) (qs : List Stmt) (ord) (hord : IsOrder ord)
    (hd : ∀ q ∈ qs, ∀ q' ∈ qs, q.s = q'.s → q.p = q'.p → q.o = q'.o → q = q') :
    let g := addStmts u qs
    ∀ q ∈ g.iter ord, q ∈ g.match ord q.s q.p .none ∧ q ∈ g.match ord q.s .none q.o ∧ q ∈ g.match ord .none q.p q.o ∧
      (g.remove q).2 = .ok () := by
  intro g q hq
  have ⟨i, hm⟩ := ixInv_addStmts u qs hd
  have hq : q ∈ g.triples := (hord _).mem_iff.1 hq
  refine ⟨?_, ?_, ?_, ?_⟩
  · rw [mem_match_ix i hord _ _ _ (by simp [Term.truthy])]
    exact ⟨hq, fun _ => rfl, fun _ => rfl, fun h => absurd h (by decide)⟩
  · rw [mem_match_ix i hord _ _ _ (by simp [Term.truthy])]
    exact ⟨hq, fun _ => rfl, fun h => absurd h (by decide), fun _ => rfl⟩
  · rw [mem_match_ix i hord _ _ _ (by simp [Term.truthy])]
    exact ⟨hq, fun h => absurd h (by decide), fun _ => rfl, fun _ => rfl⟩
  · rw [remove_of_mem i hq]

/-- A fully given pattern never finds a quad: it looks up a Triple. -/
theorem C10_bound_match_misses_quads (u : Term) (qs : List Stmt) (ord) (s p o : Option Term)
    (hs : s ≠ none) (hp : p ≠ none) (ho : o ≠ none) (hs' : NonEmpty s) (hp' : NonEmpty p) (ho' : NonEmpty o)
    (q : Stmt) (hq : q.g ≠ none) : q ∉ (addStmts u qs).match ord (arg s) (arg p) (arg o) := by
  obtain ⟨s, rfl⟩ := Option.ne_none_iff_exists'.1 hs
  obtain ⟨p, rfl⟩ := Option.ne_none_iff_exists'.1 hp
  obtain ⟨o, rfl⟩ := Option.ne_none_iff_exists'.1 ho
  have h1 := (truthy_iff s).2 (hs' s rfl)
  have h2 := (truthy_iff p).2 (hp' p rfl)
  have h3 := (truthy_iff o).2 (ho' o rfl)
  show q ∉ (addStmts u qs).match ord s p o
  simp only [Graph.match, h1, h2, h3, if_true]
  by_cases hc : (addStmts u qs).contains (mkTriple s p o) = true
  · rw [if_pos hc, List.mem_singleton]; rintro rfl; exact hq rfl
  · rw [if_neg hc]; simp

example : ∀ q ∈ [exQ1, mkQuad exA exB exA exB], ∀ q' ∈ [exQ1, mkQuad exA exB exA exB],
    q.s = q'.s → q.p = q'.p → q.o = q'.o → q = q' := by decide

end Verif
