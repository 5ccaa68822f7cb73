import Verif.Model.NTriples

/-!
# The state of the shared N-Triples and N-Quads parsers

`ntriples_parser` and `nquads_parser` are module-level objects: all threads parse with the same transformer. What a call keeps between its steps is in
`self._call_state`, a `threading.local()` (parsers/base.py:18, 44-50). Here a call of `LarkParser.parse` (parsers/lark/base.py:14-36) is cut
into the steps that touch that state or make an object, and the steps of several threads, or of a call within a call, may be interleaved at will.

Simplifications: each step is atomic (the steps of one thread touch nothing that other threads write, apart from the allocator of objects, which CPython
guards); the graph of the call (`_call_state.graph`), which nothing reads, comes and goes with the table of labels; the lark object itself is taken to be safe to
share.
-/

namespace Verif.Par

/-- A step of a call of `parse`. -/
inductive Instr
  /-- `tf._prepare_parse(graph)`, parsers/base.py:44-46 -/
  | prepare
  /-- `make_blank_node(label)`, parsers/base.py:32-36, in the callback `blank_node_label`; the node is pushed on lark's stack of values. -/
  | label (l : PStr)
  /-- The callback `triple` or `quad`, on the values on the stack. -/
  | emit (r : RStmt)
  /-- The sink takes what the generator gives: all statements (of a string), or the first one (of a line of a stream). -/
  | hand (all : Bool)
  /-- `tf._cleanup_parse()`, parsers/base.py:48-50; the call ends, so lark's stack and the generator are gone. -/
  | cleanup
  deriving DecidableEq, Repr

/-- What a thread has to do still, the blank nodes on lark's stack, the statements made, those handed to the sink, and the exception that ended it. -/
structure Thread where
  code : List Instr
  regs : List Nat := []
  buf : List Stmt := []
  out : List Stmt := []
  exc : Option Exc := none
  deriving DecidableEq, Repr

/-- The allocator of BlankNode objects, the attribute `bnodes` of `_call_state` (none: no such attribute) and the threads. -/
structure Sys where
  next : Nat
  attrs : Nat → Option (Dict PStr Nat)
  threads : Nat → Thread

/-- `threading.local()`, parsers/base.py:18: every thread has its own attributes. -/
def localKey (t : Nat) : Nat := t

/-- The argument of the callback `triple`: nodes come off the stack. -/
def takeTerm : List Nat → RTerm → List Nat × Term
  | ns, .iri i => (ns, .named i)
  | ns, .lit v l d => (ns, .lit v l d)
  | n :: ns, .label _ => (ns, .bnode n)
  | [], .label _ => ([], .none)

/-- The callback `triple` / `quad`: ntriples.py:79-81, nquads.py:22-26. -/
def takeStmt (ns : List Nat) (r : RStmt) : List Nat × Stmt :=
  let a := takeTerm ns r.s
  let b := takeTerm a.1 r.p
  let c := takeTerm b.1 r.o
  match r.g with
  | none => (c.1, mkTriple a.2 b.2 c.2)
  | some g => let d := takeTerm c.1 g; (d.1, mkQuad a.2 b.2 c.2 d.2)

/-- Replace the value at one point. -/
def put {α : Type} (f : Nat → α) (k : Nat) (v : α) : Nat → α := fun x => if x = k then v else f x

/-- One step of thread `t`: the allocator, the attribute and the thread. Reading or deleting a missing attribute raises AttributeError. -/
def Thread.step (next : Nat) (attr : Option (Dict PStr Nat)) (th : Thread) : Nat × Option (Dict PStr Nat) × Thread :=
  match th.exc, th.code with
  | none, i :: code =>
    match i, attr with
    | .prepare, _ => (next, some [], { th with code })
    | .label _, none => (next, none, { th with exc := some .attributeError })
    | .label l, some m =>
      let r := BState.node ⟨m, next⟩ l
      (r.1.next, some r.1.map, { th with code, regs := th.regs ++ [r.2] })
    | .emit r, _ => let x := takeStmt th.regs r; (next, attr, { th with code, regs := x.1, buf := th.buf ++ [x.2] })
    | .hand all, _ => (next, attr, { th with code, buf := [], out := th.out ++ (if all then th.buf else th.buf.take 1) })
    | .cleanup, none => (next, none, { th with exc := some .attributeError })
    | .cleanup, some _ => (next, none, { th with code, regs := [], buf := [] })
  | _, _ => (next, attr, th)

/-- Thread `t` makes a step. -/
def Sys.step (s : Sys) (t : Nat) : Sys :=
  let r := (s.threads t).step s.next (s.attrs (localKey t))
  { next := r.1, attrs := put s.attrs (localKey t) r.2.1, threads := put s.threads t r.2.2 }

/-- The threads make steps in the order of the schedule. -/
def Sys.run (s : Sys) (sched : List Nat) : Sys := sched.foldl Sys.step s

/-- Threads about to run, with the state of the parser as after the import. -/
def Sys.start (next : Nat) (code : Nat → List Instr) : Sys := { next, attrs := fun _ => none, threads := fun t => { code := code t } }

/-! ### Calls of `parse` -/

def termCode : RTerm → List Instr
  | .label l => [.label l]
  | _ => []

/-- The callbacks during one statement, in the order of its parts. -/
def stmtCode (r : RStmt) : List Instr :=
  termCode r.s ++ termCode r.p ++ termCode r.o ++ (match r.g with | none => [] | some g => termCode g) ++ [.emit r]

/-- A call of `parse` on a string or a stream, ntriples or nquads. `before` stands for the labels looked up in the part of the text before an error. -/
inductive Call
  | string (quads : Bool) (text : PStr) (before : List PStr)
  | stream (quads : Bool) (content : PStr) (before : List PStr)

/-- `line_by_line_parser`, parsers/lark/base.py:9-12 -/
def linesCode (quads : Bool) (before : List PStr) : List PStr → List Instr
  | [] => []
  | line :: lines =>
    if line = [] then linesCode quads before lines
    else
      match pDoc quads line with
      | .error _ => before.map .label
      | .ok [] => []
      | .ok rs => rs.flatMap stmtCode ++ .hand false :: linesCode quads before lines

/-- The steps of a call; whether it raises or not, it cleans up. -/
def Call.code : Call → List Instr
  | .string q text before =>
    .prepare :: ((match pDoc q text with | .error _ => before.map .label | .ok rs => rs.flatMap stmtCode ++ [.hand true]) ++ [.cleanup])
  | .stream q content before => .prepare :: (linesCode q before (splitLines content) ++ [.cleanup])

end Verif.Par
