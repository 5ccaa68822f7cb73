import Verif.Model.Graph
/-
Threads that add to and remove from one Graph: src/pymantic/primitives.py:356-399.

A step of a thread is what CPython does without giving another thread a turn: one lookup in a dict, one store or deletion in a dict, one operation on a set.
The terms of the model are `str`, `tuple` and `object` for the dicts, whose `__hash__` and `__eq__` are not written in Python. The function `Index` (line 356)
is, so between the moment a `defaultdict` misses a key and the moment it stores the dict that `Index` made, other threads run; the store overwrites what they
may have stored there (`defdict_missing` in Modules/_collectionsmodule.c of CPython 3.11).
-/
namespace Verif

/-- The identity of a dict: one of the three that `Graph.__init__` makes (primitives.py:369-371), or one made by `Index` for a key of another; the number tells
    apart those made for the same key of the same dict. -/
inductive DRef
  | root (w : Graph.Ix)
  | made (parent : DRef) (key : Term) (serial : Nat)
  deriving DecidableEq, Repr

/-- A value in a dict: another dict, or a statement. -/
inductive DVal
  | dict (r : DRef)
  | stmt (t : Stmt)
  deriving DecidableEq, Repr

/-- A Graph with its dicts as objects, primitives.py:364-372. -/
structure SharedGraph where
  uri : Term
  triples : List Stmt
  heap : DRef → Dict Term DVal
  next : Nat

/-- `Graph(u)` -/
def SharedGraph.new (u : Term := .none) : SharedGraph := { uri := (Graph.new u).uri, triples := [], heap := fun _ => [], next := 0 }

/-- The keys under which an index has a statement, primitives.py:387-389. -/
def Graph.Ix.keys (t : Stmt) : Graph.Ix → Term × Term × Term
  | .spo => (t.s, t.p, t.o)
  | .pos => (t.p, t.o, t.s)
  | .osp => (t.o, t.s, t.p)

/-- The index of the next line. -/
def Graph.Ix.after : Graph.Ix → Option Graph.Ix
  | .spo => some .pos
  | .pos => some .osp
  | .osp => none

/-- What a thread calls. -/
inductive ThOp
  | add (t : Stmt)
  | remove (t : Stmt)
  deriving DecidableEq, Repr

def ThOp.stmt : ThOp → Stmt
  | .add t => t
  | .remove t => t

/-- Where a thread is in `add` or `remove`, primitives.py:383-399. -/
inductive Pc
  | idle                                                        -- not in a call
  | look1 (op : ThOp) (w : Graph.Ix)                             -- about to evaluate `index[k1]`
  | store1 (op : ThOp) (w : Graph.Ix) (r : DRef)                 -- `Index` has returned the dict `r` for `k1`
  | look2 (op : ThOp) (w : Graph.Ix) (cur : DRef)                -- about to evaluate `cur[k2]`
  | store2 (op : ThOp) (w : Graph.Ix) (cur r : DRef)             -- `Index` has returned the dict `r` for `k2`
  | last (op : ThOp) (w : Graph.Ix) (cur : DRef)                 -- about to do `cur[k3] = triple` or `del cur[k3]`
  deriving DecidableEq, Repr

/-- A thread: where it is, the calls to come, and how those so far ended. A thread goes on after a KeyError. -/
structure GThread where
  pc : Pc := .idle
  todo : List ThOp := []
  outs : List (Except Exc Unit) := []

/-- `heap[r] = d` -/
def SharedGraph.put (sh : SharedGraph) (r : DRef) (d : Dict Term DVal) : SharedGraph :=
  { sh with heap := fun x => if x = r then d else sh.heap x }

/-- The dict `Index()` makes for the key `k` of `parent`. -/
def SharedGraph.newDict (sh : SharedGraph) (parent : DRef) (k : Term) : SharedGraph × DRef :=
  let r := DRef.made parent k sh.next
  ({ (sh.put r []) with next := sh.next + 1 }, r)

/-- The call is over. -/
def GThread.finish (th : GThread) (out : Except Exc Unit) : GThread := { th with pc := .idle, outs := th.outs ++ [out] }

/-- The line for the index `w` is done. -/
def GThread.advance (th : GThread) (op : ThOp) (w : Graph.Ix) : GThread :=
  match w.after with
  | some w => { th with pc := .look1 op w }
  | none => th.finish (.ok ())

/-- One step of a thread. -/
def SharedGraph.step (sh : SharedGraph) (th : GThread) : SharedGraph × GThread :=
  match th.pc with
  | .idle =>
    match th.todo with
    | [] => (sh, th)
    | .add t :: todo => ({ sh with triples := Graph.setAdd sh.triples t }, { th with pc := .look1 (.add t) .spo, todo })
    | .remove t :: todo =>
      if t ∈ sh.triples then ({ sh with triples := sh.triples.erase t }, { th with pc := .look1 (.remove t) .spo, todo })
      else (sh, { th with todo }.finish (.error .keyError))
  | .look1 op w =>
    match (sh.heap (.root w)).get? (w.keys op.stmt).1 with
    | some (.dict r) => (sh, { th with pc := .look2 op w r })
    | some (.stmt _) => (sh, th.finish (.error .typeError))      -- does not happen
    | none => let m := sh.newDict (.root w) (w.keys op.stmt).1; (m.1, { th with pc := .store1 op w m.2 })
  | .store1 op w r =>
    (sh.put (.root w) ((sh.heap (.root w)).set (w.keys op.stmt).1 (.dict r)), { th with pc := .look2 op w r })
  | .look2 op w cur =>
    match (sh.heap cur).get? (w.keys op.stmt).2.1 with
    | some (.dict r) => (sh, { th with pc := .last op w r })
    | some (.stmt _) => (sh, th.finish (.error .typeError))      -- does not happen
    | none => let m := sh.newDict cur (w.keys op.stmt).2.1; (m.1, { th with pc := .store2 op w cur m.2 })
  | .store2 op w cur r =>
    (sh.put cur ((sh.heap cur).set (w.keys op.stmt).2.1 (.dict r)), { th with pc := .last op w r })
  | .last (.add t) w cur =>
    (sh.put cur ((sh.heap cur).set (w.keys t).2.2 (.stmt t)), th.advance (.add t) w)
  | .last (.remove t) w cur =>
    if (sh.heap cur).has (w.keys t).2.2 then (sh.put cur ((sh.heap cur).del (w.keys t).2.2), th.advance (.remove t) w)
    else (sh, th.finish (.error .keyError))

/-- A Graph and the threads that use it. -/
structure GSys where
  sh : SharedGraph
  threads : Nat → GThread

/-- Thread `i` makes a step. -/
def GSys.step (s : GSys) (i : Nat) : GSys :=
  let r := s.sh.step (s.threads i)
  { sh := r.1, threads := fun j => if j = i then r.2 else s.threads j }

/-- The threads make steps in the order of the schedule. -/
def GSys.run (s : GSys) (sched : List Nat) : GSys := sched.foldl GSys.step s

/-- Threads about to run. -/
def GSys.start (sh : SharedGraph) (ops : Nat → List ThOp) : GSys := { sh, threads := fun i => { todo := ops i } }

/-- All threads are finished. -/
def GSys.Finished (s : GSys) : Prop := ∀ i, (s.threads i).pc = .idle ∧ (s.threads i).todo = []

/-! ### What the graph shows -/

def DVal.ref? : DVal → Option DRef
  | .dict r => some r
  | .stmt _ => none

def DVal.stmt? : DVal → Option Stmt
  | .stmt t => some t
  | .dict _ => none

/-- The entries of a dict with the values `f` accepts. -/
def Dict.collect {α : Type} (f : DVal → Option α) (d : Dict Term DVal) : Dict Term α := d.filterMap fun kv => (f kv.2).map fun v => (kv.1, v)

/-- The dict of statements at the bottom. -/
def SharedGraph.leaf (sh : SharedGraph) (r : DRef) : Dict Term Stmt := Dict.collect DVal.stmt? (sh.heap r)

/-- The dict of dicts of statements. -/
def SharedGraph.mid (sh : SharedGraph) (r : DRef) : Dict Term (Dict Term Stmt) := Dict.collect (fun v => v.ref?.map sh.leaf) (sh.heap r)

/-- The graph as a value: the dicts that can be reached from the three indexes. -/
def SharedGraph.graph (sh : SharedGraph) : Graph :=
  let top (w : Graph.Ix) : Idx := Dict.collect (fun v => v.ref?.map sh.mid) (sh.heap (.root w))
  { uri := sh.uri, triples := sh.triples, spo := top .spo, pos := top .pos, osp := top .osp }

end Verif
