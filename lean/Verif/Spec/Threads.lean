import Verif.Spec.Dataset
/-
Specification of several threads that add to and remove from one graph or one dataset: the calls one after the other, in some order that keeps the order within each thread.
It does not mention the model of the threads.
-/
namespace Verif.Spec

/-- A call. -/
inductive Act
  | add (t : Tri)
  | remove (t : Tri)
  deriving DecidableEq

/-- The triple a call is about. -/
def Act.tri : Act → Tri
  | .add t => t
  | .remove t => t

/-- The effect of a call on the set of triples. -/
def Act.apply (S : Finset Tri) : Act → Finset Tri
  | .add t => insert t S
  | .remove t => S.erase t

/-- Whether the call succeeds: the other outcome is KeyError. -/
def Act.succeeds (S : Finset Tri) : Act → Prop
  | .add _ => True
  | .remove t => t ∈ S

instance (S : Finset Tri) (a : Act) : Decidable (a.succeeds S) := by cases a <;> unfold Act.succeeds <;> infer_instance

/-- The set after calls one after the other. -/
def runActs (S : Finset Tri) (l : List Act) : Finset Tri := l.foldl Act.apply S

/-- How the calls of thread `i` end, when the calls of all threads are made in the order `l`. -/
def results (i : Nat) : Finset Tri → List (Nat × Act) → List Bool
  | _, [] => []
  | S, (j, a) :: l => (if j = i then [decide (a.succeeds S)] else []) ++ results i (a.apply S) l

/-- `l` has the calls of all threads, those of each in their order. -/
def Interleaves {α : Type} (l : List (Nat × α)) (prog : Nat → List α) : Prop := ∀ i, (l.filter (fun x => x.1 = i)).map Prod.snd = prog i

/-! ### Datasets -/

/-- A call on a dataset. -/
inductive QAct
  | add (q : Qd)
  | remove (q : Qd)
  deriving DecidableEq

/-- The quad a call is about. -/
def QAct.quad : QAct → Qd
  | .add q => q
  | .remove q => q

/-- The effect of a call on the set of quads. -/
def QAct.apply (S : Finset Qd) : QAct → Finset Qd
  | .add q => insert q S
  | .remove q => S.erase q

/-- Whether the call succeeds: the other outcome is KeyError. -/
def QAct.succeeds (S : Finset Qd) : QAct → Prop
  | .add _ => True
  | .remove q => q ∈ S

instance (S : Finset Qd) (a : QAct) : Decidable (a.succeeds S) := by cases a <;> unfold QAct.succeeds <;> infer_instance

/-- The set after calls one after the other. -/
def runQActs (S : Finset Qd) (l : List QAct) : Finset Qd := l.foldl QAct.apply S

/-- How the calls of thread `i` end, when the calls of all threads are made in the order `l`. -/
def qresults (i : Nat) : Finset Qd → List (Nat × QAct) → List Bool
  | _, [] => []
  | S, (j, a) :: l => (if j = i then [decide (a.succeeds S)] else []) ++ qresults i (a.apply S) l

end Verif.Spec
