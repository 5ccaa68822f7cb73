import Verif.Model.Term
/-
src/pymantic/primitives.py:356-504, class Graph.
-/
namespace Verif

/-- `Index()`, primitives.py:356-357: a `defaultdict` of `defaultdict`s. The code always uses it three levels deep,
    with the statement as the innermost value. -/
abbrev Idx := Dict Term (Dict Term (Dict Term Stmt))

namespace Idx
/-- `ix[a]` (empty if absent; the defaultdict would create it, see `rm` for where that matters). -/
def l1 (ix : Idx) (a : Term) : Dict Term (Dict Term Stmt) := (ix.get? a).getD []
/-- `ix[a][b]` -/
def l2 (ix : Idx) (a b : Term) : Dict Term Stmt := ((ix.l1 a).get? b).getD []
/-- `ix[a][b][c]` without default creation. -/
def find (ix : Idx) (a b c : Term) : Option Stmt := (ix.l2 a b).get? c
/-- `ix[a][b][c] = t` -/
def put (ix : Idx) (a b c : Term) (t : Stmt) : Idx := ix.set a ((ix.l1 a).set b ((ix.l2 a b).set c t))
/-- `del ix[a][b][c]`: the two outer levels are created by the defaultdicts if missing; the result flag is false if
    the innermost key is missing (KeyError). Empty inner dicts are left behind. -/
def rm (ix : Idx) (a b c : Term) : Idx × Bool :=
  if (ix.l2 a b).has c then (ix.set a ((ix.l1 a).set b ((ix.l2 a b).del c)), true)
  else (ix.set a ((ix.l1 a).set b (ix.l2 a b)), false)
end Idx

/-- The state of a `Graph`, primitives.py:364-372. `_triples` is a Python set: a duplicate-free list whose order is not
    meaningful. `_actions` (372, 379-381) is not modelled: nothing reads it. -/
structure Graph where
  uri : Term
  triples : List Stmt
  spo : Idx
  pos : Idx
  osp : Idx
  deriving DecidableEq, Repr

namespace Graph

/-- `Graph(graph_uri)`, primitives.py:364-371. `NamedNode(None)` is `str(None)`, i.e. `"None"`. -/
def new (uri : Term := .none) : Graph :=
  { uri := match uri with
      | .named i => .named i
      | .none => .named (py! "None")
      | t => t      -- `NamedNode(other)` would take `str(other)`; no caller in /repo does this
    triples := [], spo := [], pos := [], osp := [] }

/-- `set.add` -/
def setAdd (l : List Stmt) (t : Stmt) : List Stmt := if t ∈ l then l else l ++ [t]

/-- `Graph.add(triple)`, primitives.py:383-390 -/
def add (g : Graph) (t : Stmt) : Graph :=
  { g with
    triples := setAdd g.triples t
    spo := g.spo.put t.s t.p t.o t
    pos := g.pos.put t.p t.o t.s t
    osp := g.osp.put t.o t.s t.p t }

/-- `Graph.add((s, p, o))` with a plain tuple, as `Resource.copy` (rdf.py:544) calls it. Line 386 stores the tuple in
    `_triples`; line 387 reads `.subject`, which a tuple lacks. Simplification: the stored plain tuple, which is equal to and hashes like
    `Triple(s, p, o)`, is represented by that triple. -/
def addTuple (g : Graph) (s p o : Term) : Graph × Except Exc Unit :=
  ({ g with triples := setAdd g.triples (mkTriple s p o) }, .error .attributeError)

/-- `Graph.remove(triple)`, primitives.py:392-399. `set.remove` raises KeyError before anything is changed; each `del` can
    raise KeyError with the earlier changes already made. -/
def remove (g : Graph) (t : Stmt) : Graph × Except Exc Unit :=
  if t ∈ g.triples then
    let g := { g with triples := g.triples.erase t }
    let (spo, ok) := g.spo.rm t.s t.p t.o
    let g := { g with spo }
    if !ok then (g, .error .keyError) else
    let (pos, ok) := g.pos.rm t.p t.o t.s
    let g := { g with pos }
    if !ok then (g, .error .keyError) else
    let (osp, ok) := g.osp.rm t.o t.s t.p
    let g := { g with osp }
    if !ok then (g, .error .keyError) else (g, .ok ())
  else (g, .error .keyError)

/-- `Graph.addAll(graph_or_triples)`, primitives.py:464-469 -/
def addAll (g : Graph) (ts : List Stmt) : Graph := ts.foldl add g

/-- `item in graph`, primitives.py:481-482 -/
def contains (g : Graph) (t : Stmt) : Bool := decide (t ∈ g.triples)

/-- `len(graph)`, primitives.py:484-485 -/
def len (g : Graph) : Nat := g.triples.length

/-- `iter(graph)`, primitives.py:487-488. `ord` is the hash set's iteration order, an arbitrary permutation. -/
def iter (ord : List Stmt → List Stmt) (g : Graph) : List Stmt := ord g.triples

/-- `Graph.match(s, p, o)`, primitives.py:401-455, listed at once (see `MIter` for the generator itself). Line by line:
    the tests are on the *truth value* of the arguments. -/
def «match» (ord : List Stmt → List Stmt) (g : Graph) (s p o : Term) : List Stmt :=
  if s.truthy then
    if p.truthy then
      if o.truthy then
        if g.contains (mkTriple s p o) then [mkTriple s p o] else []
      else
        if g.spo.has s && (g.spo.l1 s).has p then (g.spo.l2 s p).values else []
    else
      if o.truthy then
        if g.osp.has o && (g.osp.l1 o).has s then (g.osp.l2 o s).values else []
      else
        if g.spo.has s then (g.spo.l1 s).keys.flatMap fun p => (g.spo.l2 s p).values else []
  else if p.truthy then
    if o.truthy then
      if g.pos.has p && (g.pos.l1 p).has o then (g.pos.l2 p o).values else []
    else
      if g.pos.has p then (g.pos.l1 p).keys.flatMap fun o => (g.pos.l2 p o).values else []
  else if o.truthy then
    if g.osp.has o then (g.osp.l1 o).keys.flatMap fun s => (g.osp.l2 o s).values else []
  else
    ord g.triples

/-- Which index a suspended `match` iterates. -/
inductive Ix | spo | pos | osp
  deriving DecidableEq, Repr

def ix (g : Graph) : Ix → Idx
  | .spo => g.spo
  | .pos => g.pos
  | .osp => g.osp

/-- A suspended `match` generator, primitives.py:401-455.
    * `start`: the body has not begun to run (a generator function runs nothing until the first `next`);
    * `bound`: suspended at the `yield` of line 423;
    * `inner`: suspended in `for triple in ix[k1][k2].values()`; `size` is the dict's size recorded by the iterator, `rest` the values
      still to come, `outer` (size, remaining keys) of the enclosing `for k2 in ix[k1]` loop, if any;
    * `setIter`: suspended in `for triple in self._triples`;
    * `done`: finished or failed.
    Simplification: CPython iterates the live table, the model the entries as they were when the loop over the dict began. The two agree
    as long as the dict's size is unchanged because nothing was changed; if the size differs CPython raises RuntimeError, as the model does.
    (An equal number of insertions and deletions between two `next` calls is outside the model.) -/
inductive MIter
  | start (s p o : Term)
  | bound
  | inner (which : Ix) (k1 k2 : Term) (size : Nat) (rest : List Stmt) (outer : Option (Nat × List Term))
  | setIter (size : Nat) (rest : List Stmt)
  | done
  deriving DecidableEq, Repr

/-- Outcome of `next(it)`. -/
inductive Yield
  | item (t : Stmt)
  | stop
  | raise (e : Exc)
  deriving DecidableEq, Repr

/-- Resume the outer loop `for k2 in ix[k1]:` of a two-level iteration (lines 435-437, 445-447, 450-452). -/
def resumeOuter (g : Graph) (which : Ix) (k1 : Term) (osize : Nat) : List Term → MIter × Yield
  | [] => if ((g.ix which).l1 k1).length ≠ osize then (.done, .raise .runtimeError) else (.done, .stop)
  | k :: ks =>
    if ((g.ix which).l1 k1).length ≠ osize then (.done, .raise .runtimeError)
    else
      match ((g.ix which).l2 k1 k).values with
      | [] => resumeOuter g which k1 osize ks
      | t :: rest => (.inner which k1 k ((g.ix which).l2 k1 k).length rest (some (osize, ks)), .item t)

/-- Resume the inner loop `for triple in ix[k1][k2].values():`. -/
def resumeInner (g : Graph) (which : Ix) (k1 k2 : Term) (size : Nat) (rest : List Stmt)
    (outer : Option (Nat × List Term)) : MIter × Yield :=
  if ((g.ix which).l2 k1 k2).length ≠ size then (.done, .raise .runtimeError)
  else
    match rest with
    | t :: rest => (.inner which k1 k2 size rest outer, .item t)
    | [] =>
      match outer with
      | none => (.done, .stop)
      | some (osize, ks) => resumeOuter g which k1 osize ks

/-- Start `for triple in ix[k1][k2].values()` with no outer loop. -/
def startInner (g : Graph) (which : Ix) (k1 k2 : Term) : MIter × Yield :=
  resumeInner g which k1 k2 ((g.ix which).l2 k1 k2).length ((g.ix which).l2 k1 k2).values none

/-- Start the two-level loop over `ix[k1]`. -/
def startOuter (g : Graph) (which : Ix) (k1 : Term) : MIter × Yield :=
  resumeOuter g which k1 ((g.ix which).l1 k1).length ((g.ix which).l1 k1).keys

/-- `for triple in self._triples`. -/
def resumeSet (g : Graph) (size : Nat) (rest : List Stmt) : MIter × Yield :=
  if g.triples.length ≠ size then (.done, .raise .runtimeError)
  else
    match rest with
    | t :: rest => (.setIter size rest, .item t)
    | [] => (.done, .stop)

/-- `next(it)` for a `match` generator `it`, primitives.py:419-455. -/
def next (ord : List Stmt → List Stmt) (g : Graph) : MIter → MIter × Yield
  | .start s p o =>
    if s.truthy then
      if p.truthy then
        if o.truthy then
          if g.contains (mkTriple s p o) then (.bound, .item (mkTriple s p o)) else (.done, .stop)
        else
          if g.spo.has s && (g.spo.l1 s).has p then startInner g .spo s p else (.done, .stop)
      else
        if o.truthy then
          if g.osp.has o && (g.osp.l1 o).has s then startInner g .osp o s else (.done, .stop)
        else
          if g.spo.has s then startOuter g .spo s else (.done, .stop)
    else if p.truthy then
      if o.truthy then
        if g.pos.has p && (g.pos.l1 p).has o then startInner g .pos p o else (.done, .stop)
      else
        if g.pos.has p then startOuter g .pos p else (.done, .stop)
    else if o.truthy then
      if g.osp.has o then startOuter g .osp o else (.done, .stop)
    else
      resumeSet g g.triples.length (ord g.triples)
  | .bound => (.done, .stop)
  | .inner which k1 k2 size rest outer => resumeInner g which k1 k2 size rest outer
  | .setIter size rest => resumeSet g size rest
  | .done => (.done, .stop)

/-- The loop `for triple in it: self.remove(triple)`, primitives.py:460-461. `fuel` bounds the number of iterations; `removeMatches`
    supplies more than can happen (see `C05_removeMatches_exact`). -/
def removeLoop (ord : List Stmt → List Stmt) : Nat → Graph → MIter → Graph × Except Exc Unit
  | 0, g, _ => (g, .error .outOfFuel)
  | fuel + 1, g, it =>
    match next ord g it with
    | (_, .stop) => (g, .ok ())
    | (_, .raise e) => (g, .error e)
    | (it', .item t) =>
      match g.remove t with
      | (g', .ok ()) => removeLoop ord fuel g' it'
      | (g', .error e) => (g', .error e)

/-- `Graph.removeMatches(s, p, o)`, primitives.py:457-462 -/
def removeMatches (ord : List Stmt → List Stmt) (g : Graph) (s p o : Term) : Graph × Except Exc Unit :=
  removeLoop ord (g.triples.length + 2) g (.start s p o)

/-- `Graph.merge(graph)`, primitives.py:471-479: first the argument's triples, then those of `self`. -/
def merge (ord : List Stmt → List Stmt) (g h : Graph) : Graph :=
  (iter ord g).foldl add ((iter ord h).foldl add (Graph.new))

/-- `toArray()`, primitives.py:490-492 -/
def toArray (g : Graph) : List Stmt := g.triples

/-- `subjects()`, primitives.py:494-496 -/
def subjects (g : Graph) : List Term := g.spo.keys
/-- `predicates()`, primitives.py:498-500 -/
def predicates (g : Graph) : List Term := g.pos.keys
/-- `objects()`, primitives.py:502-504 -/
def objects (g : Graph) : List Term := g.osp.keys

end Graph
end Verif
