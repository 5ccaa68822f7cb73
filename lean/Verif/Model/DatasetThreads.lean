import Verif.Model.GraphThreads
import Verif.Model.Dataset
/-
Threads that add to and remove from one Dataset: src/pymantic/primitives.py:507-516.

Steps are as in GraphThreads. `_graphs` is a `defaultdict(Graph)`; `Graph.__init__` is written in Python, so between the moment a name is missed and the moment
the new Graph is stored under it other threads run, and the store overwrites what they may have stored there.
-/
namespace Verif

/-- What a thread calls: `Dataset.add` or `Dataset.remove` with the quad of the name and the triple. -/
inductive DThOp
  | add (n : Term) (t : Stmt)
  | remove (n : Term) (t : Stmt)
  deriving DecidableEq, Repr

/-- `quad.graph` -/
def DThOp.name : DThOp → Term
  | .add n _ => n
  | .remove n _ => n

/-- The call on the Graph, lines 513 and 516. -/
def DThOp.op : DThOp → ThOp
  | .add _ t => .add t
  | .remove _ t => .remove t

/-- Where a thread is in `add` or `remove`. `add` looks up the graph twice (lines 512, 513). -/
inductive DPc
  | idle                                          -- not in a call
  | look (op : DThOp) (again : Bool)               -- about to evaluate `self._graphs[quad.graph]`
  | made (op : DThOp) (again : Bool) (i : Nat)     -- `Graph()` has returned the object `i`
  | got (op : DThOp) (i : Nat)                     -- about to set `_uri` of the object, line 512
  | inside (op : DThOp) (i : Nat)                  -- in `add` or `remove` of the object
  deriving DecidableEq, Repr

/-- A thread: where it is, the calls to come, and how those so far ended. A thread goes on after a KeyError. -/
structure DThread where
  pc : DPc := .idle
  todo : List DThOp := []
  outs : List (Except Exc Unit) := []

/-- A Dataset and the threads that use it. `graphs i` is the Graph object `i` together with where the threads are in its methods. -/
structure DSys where
  names : Dict Term Nat
  graphs : Nat → GSys
  next : Nat
  threads : Nat → DThread

/-- A thread calls a method of a Graph. -/
def GSys.push (s : GSys) (j : Nat) (op : ThOp) : GSys :=
  { s with threads := fun k => if k = j then { s.threads k with todo := (s.threads k).todo ++ [op] } else s.threads k }

/-- `graph._uri = u` -/
def GSys.setUri (s : GSys) (u : Term) : GSys := { s with sh := { s.sh with uri := u } }

/-- `Graph()`, with no thread in its methods. -/
def GSys.new : GSys := GSys.start (SharedGraph.new .none) (fun _ => [])

/-- `Dataset()`, primitives.py:508-509, and threads about to run. -/
def DSys.new (ops : Nat → List DThOp) : DSys := { names := [], graphs := fun _ => GSys.new, next := 0, threads := fun j => { todo := ops j } }

def DSys.setThread (s : DSys) (j : Nat) (th : DThread) : DSys := { s with threads := fun k => if k = j then th else s.threads k }
def DSys.setGraph (s : DSys) (i : Nat) (g : GSys) : DSys := { s with graphs := fun k => if k = i then g else s.graphs k }

/-- The thread has the Graph object `i`: the first time in `add` it will set the name, otherwise it calls the method. -/
def DSys.enter (s : DSys) (j : Nat) (op : DThOp) (again : Bool) (i : Nat) : DSys :=
  let th := s.threads j
  match op, again with
  | .add n t, false => s.setThread j { th with pc := .got (.add n t) i }
  | op, _ => (s.setGraph i ((s.graphs i).push j op.op)).setThread j { th with pc := .inside op i }

/-- One step of thread `j`. -/
def DSys.step (s : DSys) (j : Nat) : DSys :=
  let th := s.threads j
  match th.pc with
  | .idle =>
    match th.todo with
    | [] => s
    | op :: todo => s.setThread j { th with pc := .look op false, todo }
  | .look op again =>
    match s.names.get? op.name with
    | some i => s.enter j op again i
    | none => { (s.setGraph s.next GSys.new) with next := s.next + 1 }.setThread j { th with pc := .made op again s.next }
  | .made op again i => { s with names := s.names.set op.name i }.enter j op again i
  | .got op i => (s.setGraph i ((s.graphs i).setUri op.name)).setThread j { th with pc := .look op true }
  | .inside op i =>
    let g := (s.graphs i).step j
    let s := s.setGraph i g
    if (g.threads j).pc = .idle ∧ (g.threads j).todo = [] then
      s.setThread j { th with pc := .idle, outs := th.outs ++ [(g.threads j).outs.getLast?.getD (.ok ())] }
    else s

def DSys.run (s : DSys) (sched : List Nat) : DSys := sched.foldl DSys.step s

/-- The same dataset with other threads. -/
def DSys.restart (s : DSys) (ops : Nat → List DThOp) : DSys :=
  { s with graphs := fun i => GSys.start (s.graphs i).sh (fun _ => []), threads := fun j => { todo := ops j } }

/-- All threads are finished. -/
def DSys.Finished (s : DSys) : Prop := ∀ j, (s.threads j).pc = .idle ∧ (s.threads j).todo = []

/-- The dataset as a value. -/
def DSys.dataset (s : DSys) : Dataset := { names := s.names, heap := fun i => (s.graphs i).sh.graph, next := s.next }

end Verif
