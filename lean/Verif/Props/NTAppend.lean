import Verif.Props.NTriples
/-!
# N-Triples texts of several graphs in one file (C177)

`serialize_ntriples` (serializers.py:34-37) writes blank nodes under names of their own, not numbered for each text as `serialize_turtle` does (C176). The name is made of
id() of the blank node (primitives.py:342-350), so the numbers of the model stand for blank nodes that exist at the same time: a graph that is dropped after it was written may leave
the names of its blank nodes to those of the next.
-/
namespace Verif
open Spec

theorem serializeNTriples_append : ∀ (ts ts' : List Stmt) {a b : PStr}, serializeNTriples ts = (a, .ok ()) → serializeNTriples ts' = (b, .ok ()) → serializeNTriples (ts ++ ts') = (a ++ b, .ok ())
  | [], ts', a, b, ha, hb => by cases ha; exact hb
  | t :: ts, ts', a, b, ha, hb => by
    unfold serializeNTriples at ha
    cases ht : tripleStr t with
    | error e => rw [ht] at ha; cases ha
    | ok line =>
      rw [ht] at ha
      cases hr : serializeNTriples ts with
      | mk c r =>
        rw [hr] at ha
        cases ha
        have ih := serializeNTriples_append ts ts' hr hb
        rw [List.cons_append, serializeNTriples, ht]
        simp only [ih, List.append_assoc]

/-- The file to which each of the graphs, visited in its order, is written in turn. -/
def fileOf : List (Graph × (List Stmt → List Stmt)) → PStr
  | [] => []
  | g :: gs => (serializeNTriples (g.1.iter g.2)).1 ++ fileOf gs

theorem fileOf_all : ∀ (gs : List (Graph × (List Stmt → List Stmt))), (∀ g ∈ gs, (serializeNTriples (g.1.iter g.2)).2 = .ok ()) →
    serializeNTriples (gs.flatMap fun g => g.1.iter g.2) = (fileOf gs, .ok ())
  | [], _ => rfl
  | g :: gs, h => by
    rw [List.flatMap_cons, fileOf]
    exact serializeNTriples_append _ _ (Prod.ext rfl (h g (.head _))) (fileOf_all gs fun x hx => h x (.tail _ hx))

/-- C177 with the forms in which terms survive (C37): any number of graphs of readable triples, written to one file one after the other. Nothing raises, and the file is read as exactly what
    survives of the triples of all of them, with one renaming of blank nodes for all, which is one to one: a blank node of two graphs is read as one, and different ones as different ones. -/
theorem C177_exact (gs : List (Graph × (List Stmt → List Stmt))) (hord : ∀ g ∈ gs, IsOrder g.2) (h : ∀ g ∈ gs, ∀ t ∈ g.1.triples, t.IsRdf ∧ t.Readable) (next : Nat) :
    (∀ g ∈ gs, (serializeNTriples (g.1.iter g.2)).2 = .ok ()) ∧
    ∃ g' next' f, parseString Graph.add false next (fileOf gs) Graph.new = (g', next', .ok ()) ∧
      (∀ g1 ∈ gs, ∀ g2 ∈ gs, ∀ t ∈ g1.1.triples, ∀ t' ∈ g2.1.triples, ∀ i j, t.HasBnode i → t'.HasBnode j → f i = f j → i = j) ∧
      (∀ g ∈ gs, ∀ t ∈ g.1.triples, ∀ i, t.HasBnode i → next ≤ f i ∧ f i < next') ∧
      ∀ x, x ∈ g'.triples ↔ ∃ g ∈ gs, ∃ t ∈ g.1.triples, x = t.survive f := by
  have hmem : ∀ g ∈ gs, ∀ t, t ∈ g.1.iter g.2 ↔ t ∈ g.1.triples := fun g hg t => (hord g hg g.1.triples).mem_iff
  have hw : ∀ g ∈ gs, (serializeNTriples (g.1.iter g.2)).2 = .ok () := fun g hg => by
    obtain ⟨text, _, _, _, e, -⟩ := C37_roundtrip_exact g.1 g.2 (hord g hg) (h g hg) 0
    rw [e]
  have all : ∀ g ∈ gs, ∀ t ∈ g.1.triples, t ∈ gs.flatMap fun g => g.1.iter g.2 := fun g hg t ht => List.mem_flatMap.2 ⟨g, hg, (hmem g hg t).2 ht⟩
  obtain ⟨text, g', next', f, h1, h2, h3, h4, h5⟩ := lines_read (gs.flatMap fun g => g.1.iter g.2) (fun t ht => by
    obtain ⟨g, hg, ht⟩ := List.mem_flatMap.1 ht
    exact h g hg t ((hmem g hg t).1 ht)) next
  rw [fileOf_all gs hw] at h1
  cases h1
  refine ⟨hw, g', next', f, h2, fun g1 hg1 g2 hg2 t ht t' ht' => h3 t (all g1 hg1 t ht) t' (all g2 hg2 t' ht'), fun g hg t ht => h4 t (all g hg t ht), fun x => ?_⟩
  rw [h5]
  constructor
  · rintro ⟨t, ht, e⟩
    obtain ⟨g, hg, ht⟩ := List.mem_flatMap.1 ht
    exact ⟨g, hg, t, (hmem g hg t).1 ht, e⟩
  · rintro ⟨g, hg, t, ht, e⟩
    exact ⟨t, all g hg t ht, e⟩

/-- C177: of graphs of terms that N-Triples carries unchanged (`C37_roundtrip_partial`) the file is read as the union. -/
theorem C177_union (gs : List (Graph × (List Stmt → List Stmt))) (hord : ∀ g ∈ gs, IsOrder g.2) (h : ∀ g ∈ gs, ∀ t ∈ g.1.triples, t.IsRdf ∧ t.s.Plain ∧ t.p.Plain ∧ t.o.Plain) (next : Nat) :
    (∀ g ∈ gs, (serializeNTriples (g.1.iter g.2)).2 = .ok ()) ∧
    ∃ g' next' f, parseString Graph.add false next (fileOf gs) Graph.new = (g', next', .ok ()) ∧
      (∀ g1 ∈ gs, ∀ g2 ∈ gs, ∀ t ∈ g1.1.triples, ∀ t' ∈ g2.1.triples, ∀ i j, t.HasBnode i → t'.HasBnode j → f i = f j → i = j) ∧
      ∀ x, x ∈ g'.triples ↔ ∃ g ∈ gs, ∃ t ∈ g.1.triples, x = t.rename f := by
  obtain ⟨hw, g', n', f, h2, h3, -, h5⟩ := C177_exact gs hord
    (fun g hg t ht => ⟨(h g hg t ht).1, ((h g hg t ht).2.1.survive id).2, ((h g hg t ht).2.2.1.survive id).2, ((h g hg t ht).2.2.2.survive id).2⟩) next
  refine ⟨hw, g', n', f, h2, h3, fun x => ?_⟩
  have key : ∀ g ∈ gs, ∀ t ∈ g.1.triples, t.survive f = t.rename f := by
    intro g hg t ht
    obtain ⟨hr, a, b, c⟩ := h g hg t ht
    have e := hr.triple
    simp only [Stmt.survive, mkTriple, Stmt.rename, (a.survive f).1, (b.survive f).1, (c.survive f).1, e, Option.map_none]
  rw [h5]
  exact ⟨fun ⟨g, hg, t, ht, e⟩ => ⟨g, hg, t, ht, e.trans (key g hg t ht)⟩, fun ⟨g, hg, t, ht, e⟩ => ⟨g, hg, t, ht, e.trans (key g hg t ht).symm⟩⟩

theorem plain_uri {i : PStr} (h : ∀ c ∈ i, quoteKeeps c = true) : (Term.named i).Plain := fun c hc => (uriChar_iff c).2 (h c hc)

/-- Three graphs, the first and the last with the same blank node. -/
def threeGraphs : List (Graph × (List Stmt → List Stmt)) :=
  [(Graph.new.add (mkTriple (.bnode 7) (.named (py! "p")) (.named (py! "a"))), id), (Graph.new.add (mkTriple (.bnode 8) (.named (py! "p")) (.named (py! "b"))), List.reverse),
   (Graph.new.add (mkTriple (.bnode 9) (.named (py! "p")) (.bnode 7)), id)]

example := C177_union threeGraphs
  (by
    intro g hg
    simp only [threeGraphs, List.mem_cons, List.not_mem_nil, or_false] at hg
    rcases hg with rfl | rfl | rfl
    · exact fun l => List.Perm.refl l
    · exact fun l => List.reverse_perm l
    · exact fun l => List.Perm.refl l)
  (by
    intro g hg t ht
    simp only [threeGraphs, List.mem_cons, List.not_mem_nil, or_false] at hg
    rcases hg with rfl | rfl | rfl <;> obtain rfl := (by simpa [Graph.add, Graph.setAdd, Graph.new] using ht)
    · exact ⟨⟨.inr ⟨_, rfl⟩, ⟨_, rfl⟩, .inl ⟨_, rfl⟩, rfl⟩, trivial, plain_uri (by decide), plain_uri (by decide)⟩
    · exact ⟨⟨.inr ⟨_, rfl⟩, ⟨_, rfl⟩, .inl ⟨_, rfl⟩, rfl⟩, trivial, plain_uri (by decide), plain_uri (by decide)⟩
    · exact ⟨⟨.inr ⟨_, rfl⟩, ⟨_, rfl⟩, .inr (.inl ⟨_, rfl⟩), rfl⟩, trivial, plain_uri (by decide), trivial⟩) 0

end Verif
