import Verif.Spec.Dataset
import Mathlib.Logic.Function.Basic
/-
Specification of a dataset whose Graph objects the program also holds: which object stands under which name, what each object holds
and how it calls itself. It does not mention the Dataset model.
-/
namespace Verif.Spec

/-- What can be seen of a dataset and of the Graph objects of the program. Objects are numbered in the order in which they come
    into being. -/
structure Shared where
  name : Term → Option Nat
  held : Nat → Finset Tri
  uri : Nat → Term
  next : Nat

/-- Operations of a history: `newGraph u` is `Graph(u)`; `gAdd i t` and `gRemove i t` are `add` and `remove` of the object `i` itself;
    `add`, `remove` and `query` are the dataset's operations; `addGraph i n` is `add_graph(object i, named=n)`. -/
inductive SOp
  | newGraph (u : Option PStr)
  | gAdd (i : Nat) (t : Tri)
  | gRemove (i : Nat) (t : Tri)
  | add (q : Qd)
  | remove (q : Qd)
  | query (g : Term)
  | addGraph (i : Nat) (named : Term)

namespace Shared

/-- Nothing exists. -/
def start : Shared := { name := fun _ => none, held := fun _ => ∅, uri := fun _ => .named (py! "None"), next := 0 }

/-- A new, empty Graph object. -/
def create (S : Shared) (u : Term) : Shared :=
  { S with held := Function.update S.held S.next ∅, uri := Function.update S.uri S.next u, next := S.next + 1 }

/-- The object stands under the name from now on. -/
def put (S : Shared) (n : Term) (i : Nat) : Shared := { S with name := Function.update S.name n (some i) }

/-- Asking for a name that is not there puts a new, empty object there; it calls itself `None`. -/
def ask (S : Shared) (n : Term) : Shared :=
  if S.name n = none then (S.create (.named (py! "None"))).put n S.next else S

/-- The object under the name, after `ask`. -/
def at! (S : Shared) (n : Term) : Nat := (S.name n).getD 0

def hold (S : Shared) (i : Nat) (ts : Finset Tri) : Shared := { S with held := Function.update S.held i ts }
def call (S : Shared) (i : Nat) (u : Term) : Shared := { S with uri := Function.update S.uri i u }

/-- The name under which `add_graph` puts object `i`. -/
def nameFor (S : Shared) (i : Nat) (named : Term) : Term := if named = .none ∨ named = .named [] then S.uri i else named

/-- Effect of an operation. An object that does not exist cannot be used. -/
def step (S : Shared) : SOp → Shared
  | .newGraph none => S.create (.named (py! "None"))
  | .newGraph (some u) => S.create (.named u)
  | .gAdd i t => if i < S.next then S.hold i (insert t (S.held i)) else S
  | .gRemove i t => if i < S.next then S.hold i ((S.held i).erase t) else S
  | .add q =>
    let S := S.ask q.g
    let i := S.at! q.g
    (S.call i q.g).hold i (insert ⟨q.s, q.p, q.o⟩ (S.held i))
  | .remove q =>
    let S := S.ask q.g
    let i := S.at! q.g
    S.hold i ((S.held i).erase ⟨q.s, q.p, q.o⟩)
  | .query g => if g = .none ∨ g = .named [] then S else S.ask g
  | .addGraph i named =>
    if i < S.next then
      let n := S.nameFor i named
      if n = .none ∨ n = .named [] then S else (S.call i n).put n i
    else S

/-- The situation after a history. -/
def after (ops : List SOp) : Shared := ops.foldl step start

end Shared
end Verif.Spec
