import Verif.Lemmas.DatasetIter
import Verif.Props.Graph
/-
C11-C16: Dataset.
-/
namespace Verif
open Spec Dataset

def exN1 : Term := .named (py! "http://g1")
def exN2 : Term := .named (py! "http://g2")
def exD1 : Qd := ⟨exA, exB, exC, exN1⟩
def exD2 : Qd := ⟨exA, exB, exC, exN2⟩
def exD3 : Qd := ⟨exA, exB, exB, exN2⟩
def ord0 : Nat → List Stmt → List Stmt := fun _ => id
theorem isOrders_ord0 : IsOrders ord0 := fun _ _ => .refl _
theorem nonEmpty_none : NonEmpty none := by intro a h; cases h
theorem nonEmpty_some {t : Term} (h : t.truthy = true) : NonEmpty (some t) := by
  intro a e; cases e; exact (Graph.truthy_iff t).1 h

/-- A history with removal, reading of an unknown graph, and an added graph. -/
def exOps : List DOp :=
  [.add exD1, .addAll [exD2, exD3], .remove exD2, .query exB, .addGraph true (py! "http://g3") [⟨exA, exB, exC⟩]]
theorem exOps_wf : ∀ op ∈ exOps, op.WF := by
  intro op h
  simp only [exOps, List.mem_cons, List.not_mem_nil, or_false] at h
  rcases h with rfl | rfl | rfl | rfl | rfl <;> simp [DOp.WF]

/-! ### C11 -/

/-- After any history, membership, len and iteration agree with the set of quads. -/
theorem C11_dataset_refines_set (ord) (hord : IsOrders ord) (ops : List DOp) (hops : ∀ op ∈ ops, op.WF) :
    let ds := Dataset.run ord ops
    let S := runQuads ops
    (∀ q : Qd, ds.containsQuad q.s q.p q.o q.g = true ↔ q ∈ S) ∧
    ds.len = S.card ∧
    (ds.iter ord).Nodup ∧ (∀ x, x ∈ ds.iter ord ↔ ∃ q ∈ S, x = q.stmt) := by
  have h := rep_run ord ops hops
  exact ⟨h.contains, h.len, h.nodup_iter hord, h.mem_iter hord⟩

/-- `remove` raises KeyError exactly if the quad is absent, and then the set of quads is as before. -/
theorem C11_remove_outcome (ord) (ops : List DOp) (hops : ∀ op ∈ ops, op.WF) (q : Qd) :
    let r := (Dataset.run ord ops).exec ord (.remove q)
    (q ∈ runQuads ops → r.2 = .ok ()) ∧
    (q ∉ runQuads ops → r.2 = .error .keyError ∧
      ∀ q' : Qd, r.1.containsQuad q'.s q'.p q'.o q'.g = (Dataset.run ord ops).containsQuad q'.s q'.p q'.o q'.g) := by
  have h := rep_run ord ops hops
  have hr := h.remove q
  refine ⟨hr.2.1, fun hq => ⟨hr.2.2 hq, fun q' => ?_⟩⟩
  have h' := hr.1
  rw [Finset.erase_eq_of_notMem hq] at h'
  rw [Bool.eq_iff_iff]
  exact (h'.contains q').trans (h.contains q').symm

/-- A bare triple is a member iff some graph of the dataset holds it. -/
theorem C11_contains_triple (ord) (ops : List DOp) (hops : ∀ op ∈ ops, op.WF) (s p o : Term) :
    (Dataset.run ord ops).containsTriple (mkTriple s p o) = true ↔ ∃ g, (⟨s, p, o, g⟩ : Qd) ∈ runQuads ops := by
  have h := rep_run ord ops hops
  unfold containsTriple graphs
  rw [List.any_eq_true]
  constructor
  · rintro ⟨i, hi, hc⟩
    obtain ⟨n, hn⟩ := (Dict.mem_values h.wf i).1 hi
    exact ⟨n, (h.mem_at hn s p o).2 (by simpa [Graph.contains] using hc)⟩
  · rintro ⟨g, hg⟩
    obtain ⟨i, hi, hm⟩ := (h.mem _).1 hg
    exact ⟨i, (Dict.mem_values h.wf i).2 ⟨g, hi⟩, by simpa [Graph.contains] using hm⟩

example : (runQuads exOps).card = 3 ∧ exD3 ∈ runQuads exOps ∧ exD2 ∉ runQuads exOps := by decide
example : (Dataset.run ord0 exOps).len = 3 := by decide

/-! ### C12 -/

/-- `match` yields exactly the matching quads, once each. -/
theorem C12_match_exact (ord) (hord : IsOrders ord) (ops : List DOp) (hops : ∀ op ∈ ops, op.WF) (s p o g : Option Term)
    (hs : NonEmpty s) (hp : NonEmpty p) (ho : NonEmpty o) (hg : NonEmpty g) :
    let ms := ((Dataset.run ord ops).match ord (arg s) (arg p) (arg o) (arg g)).2
    ms.Nodup ∧ ∀ x, x ∈ ms ↔ ∃ q ∈ runQuads ops, x = q.stmt ∧ q.Matches s p o g := by
  have h := rep_run ord ops hops
  exact ⟨h.nodup_match hord _ _ _ _, h.mem_match hord hs hp ho hg⟩

example : ((Dataset.run ord0 exOps).match ord0 exA .none .none exN2).2 = [exD3.stmt] := by decide
example : ((Dataset.run ord0 exOps).match ord0 exA .none exC .none).2.length = 2 := by decide

/-! ### C13 -/

def C13_statement : Prop := ∀ (ord) (ops : List DOp), (∀ op ∈ ops, op.WF) → ∀ s p o g,
  ((Dataset.run ord ops).match ord s p o g).1.graphs.length = (Dataset.run ord ops).graphs.length

/-- It is false: matching in an unknown graph creates it. -/
theorem C13_match_creates_graph : ¬ C13_statement := by
  intro h
  have := h ord0 [] (by simp) .none .none .none exN1
  revert this; decide

/-- Exactly: `match` adds the named graph, empty, iff the name is given and unknown; no other name is affected. -/
theorem C13_graphs_after_match (ord) (ds : Dataset) (s p o g n : Term) :
    (ds.match ord s p o g).1.names.has n = (ds.names.has n || (g.truthy && decide (n = g))) := by
  unfold Dataset.match
  by_cases hg : g.truthy = true
  · rw [if_pos hg]
    show (ds.touch g).1.names.has n = _
    unfold touch
    cases hn : ds.names.get? g with
    | some i =>
      by_cases e : n = g
      · subst e; simp [Dict.has, hn]
      · simp [e]
    | none =>
      show (ds.names.set g ds.next).has n = _
      unfold Dict.has
      rw [Dict.get?_set]
      by_cases e : g = n
      · subst e; simp [hg]
      · simp [e, Ne.symm e]
  · rw [if_neg hg]; simp [hg]

/-- What holds: no reading operation changes the set of quads (nor what membership, len, iteration and match show).
    Missing: the collection of graphs. -/
theorem C13_reading_keeps_quads_partial (ord) (hord : IsOrders ord) (ops : List DOp) (hops : ∀ op ∈ ops, op.WF) (s p o g : Term) :
    let ds := Dataset.run ord ops
    let ds' := (ds.match ord s p o g).1
    (∀ q : Qd, ds'.containsQuad q.s q.p q.o q.g = ds.containsQuad q.s q.p q.o q.g) ∧ ds'.len = ds.len ∧
    (ds'.iter ord).Perm (ds.iter ord) := by
  intro ds ds'
  have h : Rep ds (runQuads ops) := rep_run ord ops hops
  have h' : Rep ds' (runQuads ops) := h.matchState ord s p o g
  refine ⟨fun q => ?_, h'.len.trans h.len.symm, ?_⟩
  · rw [Bool.eq_iff_iff]; exact (h'.contains q).trans (h.contains q).symm
  · rw [List.perm_ext_iff_of_nodup (h'.nodup_iter hord) (h.nodup_iter hord)]
    intro x; rw [h'.mem_iter hord, h.mem_iter hord]

example : ((Dataset.run ord0 exOps).match ord0 .none .none .none exA).1.graphs.length = 5 ∧
    (Dataset.run ord0 exOps).graphs.length = 4 := by decide

/-! ### C14 -/

def C14_statement : Prop := ∀ (ord), IsOrders ord → ∀ (ops : List DOp), (∀ op ∈ ops, op.WF) → ∀ (s p o g : Option Term),
  NonEmpty s → NonEmpty p → NonEmpty o → NonEmpty g →
  let r := (Dataset.run ord ops).removeMatches ord (arg s) (arg p) (arg o) (arg g)
  r.2 = .ok () ∧ ∀ q : Qd, r.1.containsQuad q.s q.p q.o q.g = true ↔ q ∈ runQuads ops ∧ ¬ q.Matches s p o g

/-- It is false: an open pattern with a match raises RuntimeError. -/
theorem C14_removeMatches_raises : ¬ C14_statement := by
  intro h
  have := (h ord0 isOrders_ord0 [.add exD1] (by simp [DOp.WF]) (some exA) none none none
    (nonEmpty_some (by decide)) nonEmpty_none nonEmpty_none nonEmpty_none).1
  revert this; decide

/-- Exactly, if subject, predicate or object is open: nothing is removed if nothing matches; otherwise exactly one matching quad is
    removed and RuntimeError is raised. -/
theorem C14_removeMatches_exact (ord) (hord : IsOrders ord) (ops : List DOp) (hops : ∀ op ∈ ops, op.WF) (s p o g : Option Term)
    (hs : NonEmpty s) (hp : NonEmpty p) (ho : NonEmpty o) (hg : NonEmpty g) (hopen : s = none ∨ p = none ∨ o = none) :
    let r := (Dataset.run ord ops).removeMatches ord (arg s) (arg p) (arg o) (arg g)
    ((¬ ∃ q ∈ runQuads ops, q.Matches s p o g) → r.2 = .ok () ∧
      ∀ q : Qd, r.1.containsQuad q.s q.p q.o q.g = true ↔ q ∈ runQuads ops) ∧
    ((∃ q ∈ runQuads ops, q.Matches s p o g) → r.2 = .error .runtimeError ∧ ∃ q0 ∈ runQuads ops, q0.Matches s p o g ∧
      ∀ q : Qd, r.1.containsQuad q.s q.p q.o q.g = true ↔ q ∈ runQuads ops ∧ q ≠ q0) := by
  have h := rep_run ord ops hops
  have hb : ¬ ((arg s).truthy = true ∧ (arg p).truthy = true ∧ (arg o).truthy = true) := by
    rintro ⟨h1, h2, h3⟩
    rcases hopen with rfl | rfl | rfl
    · exact absurd h1 (by decide)
    · exact absurd h2 (by decide)
    · exact absurd h3 (by decide)
  have hr := removeMatches_open hord h hs hp ho hg hb
  refine ⟨fun hn => ?_, fun hm => ?_⟩
  · obtain ⟨h1, h2⟩ := hr.1 hn
    exact ⟨h2, h1.contains⟩
  · obtain ⟨q0, hq0, hm0, h1, h2⟩ := hr.2 hm
    refine ⟨h2, q0, hq0, hm0, fun q => ?_⟩
    rw [h1.contains, Finset.mem_erase, and_comm]

/-- What holds: the property when subject, predicate and object are all given (with or without a graph), and when nothing
    matches. Missing: an open pattern that matches something. -/
theorem C14_removeMatches_partial (ord) (hord : IsOrders ord) (ops : List DOp) (hops : ∀ op ∈ ops, op.WF) (s p o g : Option Term)
    (hs : NonEmpty s) (hp : NonEmpty p) (ho : NonEmpty o) (hg : NonEmpty g)
    (hc : (s ≠ none ∧ p ≠ none ∧ o ≠ none) ∨ ¬ ∃ q ∈ runQuads ops, q.Matches s p o g) :
    let r := (Dataset.run ord ops).removeMatches ord (arg s) (arg p) (arg o) (arg g)
    r.2 = .ok () ∧ ∀ q : Qd, r.1.containsQuad q.s q.p q.o q.g = true ↔ q ∈ runQuads ops ∧ ¬ q.Matches s p o g := by
  by_cases hb : s ≠ none ∧ p ≠ none ∧ o ≠ none
  · obtain ⟨s, rfl⟩ := Option.ne_none_iff_exists'.1 hb.1
    obtain ⟨p, rfl⟩ := Option.ne_none_iff_exists'.1 hb.2.1
    obtain ⟨o, rfl⟩ := Option.ne_none_iff_exists'.1 hb.2.2
    obtain ⟨h1, S', h2, h3⟩ := removeMatches_bound (ord := ord) (rep_run ord ops hops) s p o g
      ((Graph.truthy_iff s).2 (hs s rfl)) ((Graph.truthy_iff p).2 (hp p rfl)) ((Graph.truthy_iff o).2 (ho o rfl)) hg
    refine ⟨h1, fun q => ?_⟩
    rw [← h3]; exact h2.contains q
  · have hn := hc.resolve_left hb
    have hopen : s = none ∨ p = none ∨ o = none := by
      by_contra hcon
      exact hb ⟨fun e => hcon (Or.inl e), fun e => hcon (Or.inr (Or.inl e)), fun e => hcon (Or.inr (Or.inr e))⟩
    have := (C14_removeMatches_exact ord hord ops hops s p o g hs hp ho hg hopen).1 hn
    refine ⟨this.1, fun q => (this.2 q).trans ⟨fun h => ⟨h, fun h2 => hn ⟨q, h, h2⟩⟩, fun h => h.1⟩⟩

example : ((Dataset.run ord0 exOps).removeMatches ord0 exA exB exC .none).2 = .ok () ∧
    ((Dataset.run ord0 exOps).removeMatches ord0 exA exB exC .none).1.len = 1 := by decide
example : ((Dataset.run ord0 exOps).removeMatches ord0 exA .none .none exN2).2 = .error .runtimeError := by decide

/-! ### C15 -/

/-- A graph built by `Graph()` is refused; a graph can be removed by name. -/
def C15_statement : Prop :=
  (∀ (ds : Dataset) (i : Nat), ds.heap i = Graph.new .none → (ds.addGraph i .none).2 = .error .valueError) ∧
  (∀ (ord) (ops : List DOp), (∀ op ∈ ops, op.WF) → ∀ q ∈ runQuads ops,
    ((Dataset.run ord ops).removeGraph q.g).containsQuad q.s q.p q.o q.g = false)

/-- Both halves are false: an unnamed graph is stored under the IRI `None`, and remove_graph does nothing. -/
theorem C15_unnamed_accepted : (Dataset.new.addGraph 0 .none).2 = .ok () ∧
    (Dataset.new.addGraph 0 .none).1.names.has (.named (py! "None")) = true := by decide

theorem C15_remove_graph_noop (ds : Dataset) (x : Term) : ds.removeGraph x = ds := rfl

theorem C15_violated : ¬ C15_statement ∧
    ¬ (∀ (ds : Dataset) (i : Nat), ds.heap i = Graph.new .none → (ds.addGraph i .none).2 = .error .valueError) ∧
    ¬ (∀ (ord) (ops : List DOp), (∀ op ∈ ops, op.WF) → ∀ q ∈ runQuads ops,
      ((Dataset.run ord ops).removeGraph q.g).containsQuad q.s q.p q.o q.g = false) := by
  have a : ¬ (∀ (ds : Dataset) (i : Nat), ds.heap i = Graph.new .none → (ds.addGraph i .none).2 = .error .valueError) := by
    intro h
    have := h Dataset.new 0 rfl
    revert this; decide
  refine ⟨fun h => a h.1, a, fun h => ?_⟩
  have := h ord0 [.add exD1] (by simp [DOp.WF]) exD1 (by decide)
  revert this; decide

/-- Exactly: `add_graph` raises ValueError iff no (true) name is passed and the graph's own name is the empty IRI (or None);
    then nothing changes. Otherwise the graph is stored under the passed name if true, else under its own. -/
theorem C15_add_graph_exact_partial (ds : Dataset) (i : Nat) (named : Term) :
    let name := if named.truthy then named else (ds.heap i).uri
    (name.truthy = false → ds.addGraph i named = (ds, .error .valueError)) ∧
    (name.truthy = true → (ds.addGraph i named).2 = .ok () ∧ (ds.addGraph i named).1.names.get? name = some i ∧
      (∀ n, n ≠ name → (ds.addGraph i named).1.names.get? n = ds.names.get? n) ∧
      ((ds.addGraph i named).1.heap i).uri = name ∧ ((ds.addGraph i named).1.heap i).triples = (ds.heap i).triples) := by
  intro name
  constructor
  · intro h
    have h : (if named.truthy then named else (ds.heap i).uri).truthy = false := h
    simp only [addGraph]; rw [if_neg (by rw [h]; simp)]
  · intro h
    have h : (if named.truthy then named else (ds.heap i).uri).truthy = true := h
    have e : ds.addGraph i named = ({ ds.upd i { ds.heap i with uri := name } with names := ds.names.set name i }, .ok ()) := by
      simp only [addGraph]; rw [if_pos h]; rfl
    rw [e]
    refine ⟨rfl, ?_, fun n hn => ?_, ?_, ?_⟩
    · show (ds.names.set name i).get? name = _
      rw [Dict.get?_set, if_pos rfl]
    · show (ds.names.set name i).get? n = _
      rw [Dict.get?_set, if_neg (Ne.symm hn)]
    · simp [upd]
    · simp [upd]

example : (Dataset.new.addGraph 0 exN1).2 = .ok () ∧ ((Dataset.new.alloc (Graph.new (.named []))).1.addGraph 0 .none).2 = .error .valueError := by
  decide

/-! ### C16 -/

/-- Histories that may add the same Graph object under several names: the object at address `i`. -/
def runNames (ds : Dataset) (adds : List (Nat × Term)) : Dataset := adds.foldl (fun ds a => (ds.addGraph a.1 a.2).1) ds

def C16_statement : Prop := ∀ (ord), IsOrders ord → ∀ (g : Graph), Graph.Inv g → ∀ (names : List Term),
  let ds := runNames (Dataset.new.alloc g).1 (names.map fun n => (0, n))
  (ds.iter ord).Perm (ds.match ord .none .none .none .none).2

/-- It is false: a graph added under two names is reported by iteration under the second name only (twice). -/
theorem C16_alias_misreported : ¬ C16_statement := by
  intro h
  have h := h ord0 isOrders_ord0 (Graph.run .none [.add exT1]) (Graph.rep_run _ _).inv [exN1, exN2]
  have : tAsQ exN1 exT1.stmt ∈ (runNames (Dataset.new.alloc (Graph.run .none [.add exT1])).1 ([exN1, exN2].map fun n => (0, n))).iter ord0 := by
    rw [h.mem_iff]; decide
  revert this; decide

/-- What holds: without sharing of one Graph object between names (every history of add, addAll, remove, match and add_graph of new
    graphs), iteration and match agree. Missing: shared graphs. -/
theorem C16_iter_eq_match_partial (ord) (hord : IsOrders ord) (ops : List DOp) (hops : ∀ op ∈ ops, op.WF) :
    ((Dataset.run ord ops).iter ord).Perm ((Dataset.run ord ops).match ord .none .none .none .none).2 := by
  have h := rep_run ord ops hops
  rw [List.perm_ext_iff_of_nodup (h.nodup_iter hord) (h.nodup_match hord _ _ _ _)]
  intro x
  rw [h.mem_iter hord, show (Term.none) = arg none from rfl,
    h.mem_match hord nonEmpty_none nonEmpty_none nonEmpty_none nonEmpty_none]
  have : ∀ t, agrees none t := by intro t a e; cases e
  simp [Qd.Matches, this]

example : ((Dataset.run ord0 exOps).iter ord0).length = 3 := by decide

end Verif
