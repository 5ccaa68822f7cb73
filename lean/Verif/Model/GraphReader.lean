import Verif.Model.GraphThreads
/-
A thread that goes through `match` while other threads add to and remove from the Graph: src/pymantic/primitives.py:401-455.

Steps are as in GraphThreads. A `for` over a dict or a set raises RuntimeError when it finds that the size has changed since it began (dictiter_iternextkey and
dictiter_iternextvalue in Objects/dictobject.c, setiter_iternext in Objects/setobject.c of CPython 3.11). If entries have come and gone but the size is the same, it
goes on in the table as it is now: what it meets then depends on how the table was laid out and is a parameter here, the number that comes with a step.
-/
namespace Verif

/-- Which lines of `match` run, by the arguments that are true (lines 419-455). -/
inductive Plan
  | bound (t : Stmt)                         -- lines 421-423
  | two (w : Graph.Ix) (a b : Term)          -- lines 424-427, 430-433, 441-444
  | one (w : Graph.Ix) (a : Term)            -- lines 434-438, 445-449, 450-453
  | all                                      -- lines 454-455
  deriving DecidableEq, Repr

/-- primitives.py:419-455 -/
def Plan.of (s p o : Term) : Plan :=
  if s.truthy then
    if p.truthy then
      if o.truthy then .bound (mkTriple s p o) else .two .spo s p
    else
      if o.truthy then .two .osp o s else .one .spo s
  else if p.truthy then
    if o.truthy then .two .pos p o else .one .pos p
  else
    if o.truthy then .one .osp o else .all

/-- An iterator over a dict: the size it has noted, the keys it has before it, and whether keys have come or gone since it was made. -/
structure DIter where
  r : DRef
  size : Nat
  rest : List Term
  dirty : Bool := false
  deriving DecidableEq, Repr

/-- Where the reading thread is. `a` and `b` are the first and second key of the plan; the outer loop, if there is one, is in `out`. -/
inductive RPc
  | start                                                  -- about to enter `match`
  | test1                                                  -- `a in index`
  | test2                                                  -- `index[a]`, in order to test for `b`
  | test2in (r1 : DRef)                                     -- `b in index[a]`
  | outer0                                                 -- `index[a]`, in order to loop over it
  | outer1 (r1 : DRef)                                      -- `iter(index[a])`
  | outer (it : DIter)                                      -- next key of the outer loop
  | get1 (b : Term) (out : Option DIter)                    -- `index[a]`, in order to get `index[a][b]`
  | get2 (b : Term) (r1 : DRef) (out : Option DIter)        -- `index[a][b]`
  | made2 (b : Term) (r1 r2 : DRef) (out : Option DIter)    -- `b` was missing and `Index` has returned the dict `r2` for it
  | inner0 (r2 : DRef) (out : Option DIter)                 -- `iter(index[a][b].values())`
  | inner (it : DIter) (out : Option DIter)                 -- next value of the inner loop
  | set (size : Nat) (rest : List Stmt) (dirty : Bool)      -- next element of the loop over `_triples`
  | after                                                  -- after the only triple, line 423
  | done
  deriving DecidableEq, Repr

/-- A thread in `list(graph.match(...))`: what it has got so far, and how the call ended. -/
structure Reader where
  plan : Plan
  pc : RPc := .start
  got : List Stmt := []
  out : Option (Except Exc Unit) := none

def Reader.finish (rd : Reader) (out : Except Exc Unit) : Reader := { rd with pc := .done, out := some out }

/-- What the next step of a `for` over a dict gives: an exception, or the end, or a key. `c` says what it meets if keys have come and gone. -/
def DIter.next (it : DIter) (sh : SharedGraph) (c : Nat) : Except Exc (Option (Term × DIter)) :=
  let d := sh.heap it.r
  if d.length ≠ it.size then .error .runtimeError
  else if it.dirty then .ok ((d.keys[c]?).map fun k => (k, it))
  else match it.rest with
    | [] => .ok none
    | k :: rest => .ok (some (k, { it with rest }))

/-- `iter(d)` for the dict `r` -/
def SharedGraph.iterDict (sh : SharedGraph) (r : DRef) : DIter := { r, size := (sh.heap r).length, rest := (sh.heap r).keys }

/-- The inner loop is over: to the outer loop, or to the end. -/
def Reader.leave (rd : Reader) : Option DIter → Reader
  | some it => { rd with pc := .outer it }
  | none => rd.finish (.ok ())

/-- In an index; `b` is given if there is no outer loop. -/
def Reader.stepIn (sh : SharedGraph) (c : Nat) (rd : Reader) (w : Graph.Ix) (a : Term) (b : Option Term) : SharedGraph × Reader :=
  match rd.pc with
  | .start => (sh, { rd with pc := .test1 })
  | .test1 => (sh, if (sh.heap (.root w)).has a then { rd with pc := if b.isSome then .test2 else .outer0 } else rd.finish (.ok ()))
  | .test2 => match (sh.heap (.root w)).get? a with
    | some (.dict r1) => (sh, { rd with pc := .test2in r1 })
    | _ => (sh, rd.finish (.error .keyError))                              -- does not happen
  | .test2in r1 => match b with
    | some b => (sh, if (sh.heap r1).has b then { rd with pc := .get1 b none } else rd.finish (.ok ()))
    | none => (sh, rd)
  | .outer0 => match (sh.heap (.root w)).get? a with
    | some (.dict r1) => (sh, { rd with pc := .outer1 r1 })
    | _ => (sh, rd.finish (.error .keyError))                              -- does not happen
  | .outer1 r1 => (sh, { rd with pc := .outer (sh.iterDict r1) })
  | .outer it => match it.next sh c with
    | .error e => (sh, rd.finish (.error e))
    | .ok none => (sh, rd.finish (.ok ()))
    | .ok (some (b, it)) => (sh, { rd with pc := .get1 b (some it) })
  | .get1 b out => match (sh.heap (.root w)).get? a with
    | some (.dict r1) => (sh, { rd with pc := .get2 b r1 out })
    | _ => (sh, rd.finish (.error .keyError))                              -- does not happen
  | .get2 b r1 out => match (sh.heap r1).get? b with
    | some (.dict r2) => (sh, { rd with pc := .inner0 r2 out })
    | some (.stmt _) => (sh, rd.finish (.error .typeError))                -- does not happen
    | none => let m := sh.newDict r1 b; (m.1, { rd with pc := .made2 b r1 m.2 out })
  | .made2 b r1 r2 out => (sh.put r1 ((sh.heap r1).set b (.dict r2)), { rd with pc := .inner0 r2 out })
  | .inner0 r2 out => (sh, { rd with pc := .inner (sh.iterDict r2) out })
  | .inner it out => match it.next sh c with
    | .error e => (sh, rd.finish (.error e))
    | .ok none => (sh, rd.leave out)
    | .ok (some (k, it)) => match (sh.heap it.r).get? k with
      | some (.stmt t) => (sh, { rd with pc := .inner it out, got := rd.got ++ [t] })
      | _ => (sh, rd.finish (.error .keyError))                            -- does not happen
  | .set .. | .after | .done => (sh, rd)

/-- In the loop over `_triples`, lines 454-455. -/
def Reader.stepAll (ord : List Stmt → List Stmt) (sh : SharedGraph) (c : Nat) (rd : Reader) : Reader :=
  match rd.pc with
  | .start => { rd with pc := .set sh.triples.length (ord sh.triples) false }
  | .set size rest dirty =>
    if sh.triples.length ≠ size then rd.finish (.error .runtimeError)
    else if dirty then
      match sh.triples[c]? with
      | some t => { rd with got := rd.got ++ [t] }
      | none => rd.finish (.ok ())
    else match rest with
      | [] => rd.finish (.ok ())
      | t :: rest => { rd with pc := .set size rest false, got := rd.got ++ [t] }
  | _ => rd

/-- With all three given, lines 421-423. -/
def Reader.stepBound (sh : SharedGraph) (t : Stmt) (rd : Reader) : Reader :=
  match rd.pc with
  | .start => if t ∈ sh.triples then { rd with pc := .after, got := rd.got ++ [t] } else rd.finish (.ok ())
  | .after => rd.finish (.ok ())
  | _ => rd

/-- One step of the reading thread. `ord` is the order in which a set is iterated. -/
def Reader.step (ord : List Stmt → List Stmt) (sh : SharedGraph) (c : Nat) (rd : Reader) : SharedGraph × Reader :=
  match rd.plan with
  | .bound t => (sh, rd.stepBound sh t)
  | .two w a b => rd.stepIn sh c w a (some b)
  | .one w a => rd.stepIn sh c w a none
  | .all => (sh, rd.stepAll ord sh c)

/-- Something has happened to the dicts: the iterator is dirty if keys have come or gone in its own. -/
def DIter.touch (sh sh' : SharedGraph) (it : DIter) : DIter := { it with dirty := it.dirty || (sh'.heap it.r).keys ≠ (sh.heap it.r).keys }

def RPc.touch (sh sh' : SharedGraph) : RPc → RPc
  | .outer it => .outer (it.touch sh sh')
  | .get1 b out => .get1 b (out.map (DIter.touch sh sh'))
  | .get2 b r1 out => .get2 b r1 (out.map (DIter.touch sh sh'))
  | .made2 b r1 r2 out => .made2 b r1 r2 (out.map (DIter.touch sh sh'))
  | .inner0 r2 out => .inner0 r2 (out.map (DIter.touch sh sh'))
  | .inner it out => .inner (it.touch sh sh') (out.map (DIter.touch sh sh'))
  | .set size rest dirty => .set size rest (dirty || sh'.triples ≠ sh.triples)
  | pc => pc

/-- A Graph, the threads that change it, and a thread that reads it. Simplification: one reading thread. -/
structure RSys where
  g : GSys
  rd : Reader

/-- Who makes a step. -/
inductive RStep
  | write (i : Nat)
  | read (c : Nat)
  deriving DecidableEq, Repr

def RSys.step (ord : List Stmt → List Stmt) (s : RSys) : RStep → RSys
  | .write i => let g := s.g.step i; { g, rd := { s.rd with pc := s.rd.pc.touch s.g.sh g.sh } }
  | .read c => let r := s.rd.step ord s.g.sh c; { g := { s.g with sh := r.1 }, rd := { r.2 with pc := r.2.pc.touch s.g.sh r.1 } }

def RSys.run (ord : List Stmt → List Stmt) (s : RSys) (sched : List RStep) : RSys := sched.foldl (RSys.step ord) s

end Verif
