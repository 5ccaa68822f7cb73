import Verif.Model.Environment
import Verif.Props.Graph
import Verif.Props.Dataset
import Verif.Lemmas.ResRead
/-
The constructors of RDFEnvironment: C105.
-/
namespace Verif.Env
open Spec

/-- `createGraph(ts)` is a graph of exactly the given triples: as many as there are different ones, and `toArray` gives their set. -/
theorem C105_graph (ts : List Tri) :
    (∀ x, (createGraph (ts.map Tri.stmt)).contains x = true ↔ x ∈ ts.map Tri.stmt) ∧
    (createGraph (ts.map Tri.stmt)).len = ts.toFinset.card ∧
    (createGraph (ts.map Tri.stmt)).toArray.Nodup ∧
    (∀ x, x ∈ (createGraph (ts.map Tri.stmt)).toArray ↔ x ∈ ts.map Tri.stmt) := by
  have h : createGraph (ts.map Tri.stmt) = Graph.run .none [.addAll ts] := rfl
  have hr : runSet [.addAll ts] = ts.toFinset := by simp [runSet, GOp.apply]
  obtain ⟨h1, h2, h3, h4, h5⟩ := C01_graph_refines_set .none [.addAll ts] id (fun _ => .refl _)
  rw [← h] at h1 h2 h3 h4 h5
  rw [hr] at h1 h2 h4
  have e : ∀ x : Stmt, (∃ t ∈ ts.toFinset, x = t.stmt) ↔ x ∈ ts.map Tri.stmt := by
    intro x; simp only [List.mem_toFinset, List.mem_map, eq_comm (a := x)]
  refine ⟨fun x => (h1 x).trans (e x), h2, h5.nodup_iff.2 h3, fun x => ?_⟩
  rw [h5.mem_iff, h4, e]

/-- The counterpart: `createGraph(g.toArray())` has exactly the triples of `g`, whatever was done to `g` before. -/
theorem C105_graph_back (u : Term) (ops : List GOp) (x : Stmt) :
    (createGraph (Graph.run u ops).toArray).contains x = (Graph.run u ops).contains x := by
  rw [Bool.eq_iff_iff]
  unfold createGraph Graph.contains
  rw [decide_eq_true_eq, decide_eq_true_eq, Graph.mem_addAll]
  show _ ∨ x ∈ ([] : List Stmt) ↔ _
  simp [Graph.toArray]

/-- `createDataset(qs)` is a dataset of exactly the given quads, and its `toArray` is their set; so the same holds for the dataset created from
    such an array. -/
theorem C105_dataset (ord) (hord : IsOrders ord) (qs : List Qd) :
    let ds := createDataset (qs.map fun q => (q.s, q.p, q.o, q.g))
    (∀ q : Qd, ds.containsQuad q.s q.p q.o q.g = true ↔ q ∈ qs) ∧ ds.len = qs.toFinset.card ∧
    (datasetArray ord ds).Nodup ∧ (∀ x, x ∈ datasetArray ord ds ↔ x ∈ qs.map Qd.stmt) := by
  have h : createDataset (qs.map fun q => (q.s, q.p, q.o, q.g)) = Dataset.run ord [.addAll qs] := rfl
  have hr : runQuads [.addAll qs] = qs.toFinset := by simp [runQuads, DOp.apply]
  obtain ⟨h1, h2, h3, h4⟩ := C11_dataset_refines_set ord hord [.addAll qs] (by
    intro op ho; rw [List.mem_singleton] at ho; subst ho; trivial)
  rw [← h] at h1 h2 h3 h4
  rw [hr] at h1 h2 h4
  refine ⟨fun q => by rw [h1]; simp, h2, nodup_pySet _, fun x => ?_⟩
  rw [datasetArray, mem_pySet, h4]
  simp only [List.mem_toFinset, List.mem_map, eq_comm (a := x)]

/-- New blank nodes are different from each other, and the other constructors keep what they are given. -/
theorem C105_nodes (next : Nat) (s p o g : Term) (v : PStr) (lang dt : Option PStr) :
    (createBlankNode next).2 ≠ (createBlankNode (createBlankNode next).1).2 ∧
    createNamedNode v = .named v ∧ createLiteral (.str v) lang dt = .ok (.lit v lang dt) ∧
    createTriple s p o = mkTriple s p o ∧ createQuad s p o g = mkQuad s p o g ∧ createAction = .error .notImplementedError ∧
    en (.str v) = .ok (.lit v (some (py! "en")) none) ∧ de (.str v) = .ok (.lit v (some (py! "de")) none) := by
  refine ⟨?_, rfl, rfl, rfl, rfl, rfl, rfl, rfl⟩
  simp [createBlankNode]

/-- C105: a repeated triple counts once. -/
example : (createGraph [mkTriple (.named (py! "http://a")) (.named (py! "http://b")) (.bnode 0),
    mkTriple (.named (py! "http://a")) (.named (py! "http://b")) (.bnode 0)]).len = 1 := by decide

end Verif.Env
