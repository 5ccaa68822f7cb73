import Verif.Model.GraphReader
/-
Any number of threads that read a Graph (src/pymantic/primitives.py:401-455) beside threads that add to it and remove from it.
-/
namespace Verif

/-- A Graph, the threads that change it, and threads that read it, each in one `list(graph.match(...))`. (A thread that reads several times is as good as several threads that read
    once, for the model lets each begin when it likes.) -/
structure RsSys where
  g : GSys
  rds : Nat → Reader

/-- Who makes a step. -/
inductive RsStep
  | write (i : Nat)
  | read (j c : Nat)
  deriving DecidableEq, Repr

/-- A step of a thread; the loops of all readers are told what has become of the dicts. -/
def RsSys.step (ord : List Stmt → List Stmt) (s : RsSys) : RsStep → RsSys
  | .write i => let g := s.g.step i; { g, rds := fun k => { s.rds k with pc := (s.rds k).pc.touch s.g.sh g.sh } }
  | .read j c =>
    let r := (s.rds j).step ord s.g.sh c
    { g := { s.g with sh := r.1 }, rds := fun k => let rd := if k = j then r.2 else s.rds k; { rd with pc := rd.pc.touch s.g.sh r.1 } }

def RsSys.run (ord : List Stmt → List Stmt) (s : RsSys) (sched : List RsStep) : RsSys := sched.foldl (RsSys.step ord) s

/-- The steps of the threads that change the graph. -/
def RsStep.writes (sched : List RsStep) : List Nat := sched.filterMap fun
  | .write i => some i
  | .read _ _ => none

/-- The steps without those of the readers other than `j`. -/
def RsStep.only (j : Nat) (sched : List RsStep) : List RStep := sched.filterMap fun
  | .write i => some (.write i)
  | .read k c => if k = j then some (.read c) else none

end Verif
