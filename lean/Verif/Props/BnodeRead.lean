import Verif.Props.NTriples
import Verif.Props.NTParse
import Verif.Props.Iri
/-
C28: the string form of a blank node is a label for the N-Triples parser.
-/
namespace Verif
open Spec

/-- A line with the string forms of two blank nodes as subject and object. -/
def bnodeLine (i j : Nat) : PStr := bnodeStr i ++ py! " <p> " ++ bnodeStr j ++ py! " .\n"

theorem bnodeLine_doc (i j : Nat) : pDoc false (bnodeLine i j) = .ok [⟨.label (bnodeStr i), .iri (py! "p"), .label (bnodeStr j), none⟩] := by
  have h : ∀ t ∈ [mkTriple (.bnode i) (.named (py! "p")) (.bnode j)], t.IsRdf ∧ t.NTOk := by
    intro t ht
    rw [List.mem_singleton] at ht
    subst ht
    refine ⟨⟨.inr ⟨i, rfl⟩, ⟨_, rfl⟩, .inr (.inl ⟨j, rfl⟩), rfl⟩, trivial, ?_, trivial⟩
    show ∀ c ∈ py! "p", scalarValue c
    intro c hc
    rw [List.mem_singleton.1 hc]
    simp [scalarValue]
  have h2 := (pDoc_serialize _ h).2.1
  have e : (serializeNTriples [mkTriple (.bnode i) (.named (py! "p")) (.bnode j)]).1 = bnodeLine i j := by
    have hp : iriToNT (py! "p") = .ok (py! "<p>") := by decide
    simp only [serializeNTriples, tripleStr, mkTriple, Term.toNT, hp, bind, Except.bind, pure, Except.pure]
    simp [bnodeLine]
  rw [e] at h2
  exact h2

/-- Read back, the line is one triple; its subject and object are the same blank node exactly if the string forms were those of the same blank node. -/
theorem C28_read (i j next : Nat) :
    ∃ a b n', parseString Graph.add false next (bnodeLine i j) (Graph.new .none) =
      ((Graph.new .none).add (mkTriple (.bnode a) (.named (py! "p")) (.bnode b)), n', .ok ()) ∧ (a = b ↔ i = j) := by
  have hd := bnodeLine_doc i j
  obtain ⟨f, n', -, h2, h3, -⟩ := C41_labels_scoped Graph.add false next (bnodeLine i j) (Graph.new .none) _ hd
  refine ⟨f (bnodeStr i), f (bnodeStr j), n', h2, fun e => ?_, fun e => by rw [e]⟩
  exact C28_labels_distinct i j (h3 _ (List.mem_singleton.2 rfl) _ (List.mem_singleton.2 rfl) _ _ (.inl rfl) (.inr (.inr (.inl rfl))) e)

example : bnodeLine 0x7f3a 1 = py! "_:HwDr <p> _:B .\n" := by simp [bnodeLine, bnodeStr, bnodeValue, hexDigits, hexLower]

end Verif
