import Verif.Model.JsonLd
import Verif.Spec.Dataset
/-
Specification of what reading a JSON-LD document means, given the RDF dataset the JSON-LD processor produces: IRIs are named nodes, blank
node identifiers are nodes chosen by `f`, one for each identifier.
-/
namespace Verif.Spec

/-- The term a fragment stands for. -/
inductive Image (f : PStr → Nat) : Frag → Term → Prop
  | iri (v) : Image f (.iri v) (.named v)
  | blank (v) : Image f (.blank v) (.bnode (f v))
  | lit (v l d) : Image f (.lit v l d) (.lit v l (some d))

/-- The term of a graph name, where names are IRIs only. -/
inductive GraphName : PStr → Term → Prop
  | default : GraphName (py! "@default") .none
  | iri (v) : v ≠ py! "@default" → GraphName v (.named v)

/-- The term of a graph name, where names are IRIs or blank node identifiers (RDF 1.1 Datasets, section 4). -/
inductive GraphNameB (f : PStr → Nat) : PStr → Term → Prop
  | default : GraphNameB f (py! "@default") .none
  | iri (v) : v ≠ py! "@default" → ¬ py! "_:" <+: v → GraphNameB f v (.named v)
  | blank (v) : py! "_:" <+: v → GraphNameB f v (.bnode (f v))

/-- `q` is the image of one of the statements. -/
def Stated (G : PStr → Term → Prop) (f : PStr → Nat) (jd : JDataset) (q : Qd) : Prop :=
  ∃ g ∈ jd, ∃ t ∈ g.2, Image f t.s q.s ∧ Image f t.p q.p ∧ Image f t.o q.o ∧ G g.1 q.g

/-- The blank node identifiers of the statements. -/
def BlankIn (jd : JDataset) (l : PStr) : Prop := ∃ g ∈ jd, ∃ t ∈ g.2, t.s = .blank l ∨ t.p = .blank l ∨ t.o = .blank l

/-- All fragments have one of the documented types. -/
def WellTyped (jd : JDataset) : Prop := ∀ g ∈ jd, ∀ t ∈ g.2, t.s ≠ .other ∧ t.p ≠ .other ∧ t.o ≠ .other

end Verif.Spec
