import Verif.Model.Graph
/-
src/pymantic/primitives.py:507-576, class Dataset.
-/
namespace Verif

/-- The state of a `Dataset` together with the Graph objects it refers to. `names` is `_graphs` (primitives.py:508-509), a
    `defaultdict(Graph)` from names to Graph objects; objects are addresses into `heap`, so that two names can share a graph.
    `next` is the first unused address. -/
structure Dataset where
  names : Dict Term Nat
  heap : Nat → Graph
  next : Nat

namespace Dataset

/-- `Dataset()`, primitives.py:508-509 -/
def new : Dataset := { names := [], heap := fun _ => Graph.new, next := 0 }

/-- Mutate one Graph object. -/
def upd (ds : Dataset) (i : Nat) (g : Graph) : Dataset := { ds with heap := fun j => if j = i then g else ds.heap j }

/-- Create a Graph object. -/
def alloc (ds : Dataset) (g : Graph) : Dataset × Nat := ({ (ds.upd ds.next g) with next := ds.next + 1 }, ds.next)

/-- `self._graphs[name]` on a `defaultdict(Graph)`: creates and stores `Graph()` if the name is missing. -/
def touch (ds : Dataset) (name : Term) : Dataset × Nat :=
  match ds.names.get? name with
  | some i => (ds, i)
  | none =>
    let (ds, i) := ds.alloc Graph.new
    ({ ds with names := ds.names.set name i }, i)

/-- `Dataset.add(quad)`, primitives.py:511-513. The argument is given by its four fields. -/
def add (ds : Dataset) (s p o g : Term) : Dataset :=
  let (ds, i) := ds.touch g
  let ds := ds.upd i { ds.heap i with uri := g }
  ds.upd i ((ds.heap i).add (mkTriple s p o))

/-- `Dataset.remove(quad)`, primitives.py:515-516 -/
def remove (ds : Dataset) (s p o g : Term) : Dataset × Except Exc Unit :=
  let (ds, i) := ds.touch g
  let (g', r) := (ds.heap i).remove (mkTriple s p o)
  (ds.upd i g', r)

/-- `Dataset.add_graph(graph, named)`, primitives.py:518-524; `named or graph.uri` is on truth values. -/
def addGraph (ds : Dataset) (i : Nat) (named : Term) : Dataset × Except Exc Unit :=
  let name := if named.truthy then named else (ds.heap i).uri
  if name.truthy then
    let ds := ds.upd i { ds.heap i with uri := name }
    ({ ds with names := ds.names.set name i }, .ok ())
  else (ds, .error .valueError)

/-- `Dataset.remove_graph`, primitives.py:526-527: `pass`. -/
def removeGraph (ds : Dataset) (_graphOrUri : Term) : Dataset := ds

/-- `Dataset.graphs`, primitives.py:529-531 (addresses). -/
def graphs (ds : Dataset) : List Nat := ds.names.values

/-- `Dataset.addAll(quads)`, primitives.py:550-555 -/
def addAll (ds : Dataset) (qs : List (Term × Term × Term × Term)) : Dataset :=
  qs.foldl (fun ds q => ds.add q.1 q.2.1 q.2.2.1 q.2.2.2) ds

/-- `len(dataset)`, primitives.py:557-558 -/
def len (ds : Dataset) : Nat := (ds.graphs.map fun i => (ds.heap i).len).sum

/-- `quad in dataset`, primitives.py:560-564; the method returns `None` for an unknown graph, which `in` turns into False. -/
def containsQuad (ds : Dataset) (s p o g : Term) : Bool :=
  match ds.names.get? g with
  | some i => (ds.heap i).contains (mkTriple s p o)
  | none => false

/-- `triple in dataset`, primitives.py:565-568 -/
def containsTriple (ds : Dataset) (t : Stmt) : Bool := ds.graphs.any fun i => (ds.heap i).contains t

/-- `iter(dataset)`, primitives.py:570-573; `ord i` is the set iteration order of graph `i`. -/
def iter (ord : Nat → List Stmt → List Stmt) (ds : Dataset) : List Stmt :=
  ds.graphs.flatMap fun i => ((ds.heap i).iter (ord i)).map (tAsQ (ds.heap i).uri)

/-- `Dataset.match(s, p, o, g)`, primitives.py:533-541, consumed at once. With a (true) graph name the graph is looked up in the
    defaultdict, so the dataset may change. -/
def «match» (ord : Nat → List Stmt → List Stmt) (ds : Dataset) (s p o g : Term) : Dataset × List Stmt :=
  if g.truthy then
    let (ds, i) := ds.touch g
    (ds, ((ds.heap i).match (ord i) s p o).map (tAsQ g))
  else
    (ds, ds.names.flatMap fun ni => ((ds.heap ni.2).match (ord ni.2) s p o).map (tAsQ ni.1))

/-- A suspended `Dataset.match` generator.
    * `named`: inside the loop of lines 536-537, holding the graph's generator;
    * `all`: inside the loops of lines 539-541: the size of `_graphs` recorded by the outer iterator, the current entry, the graph's
      generator, and the entries still to come. -/
inductive DIter
  | start (s p o g : Term)
  | named (name : Term) (i : Nat) (it : Graph.MIter)
  | all (s p o : Term) (size : Nat) (name : Term) (i : Nat) (it : Graph.MIter) (rest : List (Term × Nat))
  | done

/-- Resume the outer loop of lines 539-541. -/
def advance (ord : Nat → List Stmt → List Stmt) (ds : Dataset) (s p o : Term) (size : Nat) :
    List (Term × Nat) → DIter × Graph.Yield
  | [] => if ds.names.length ≠ size then (.done, .raise .runtimeError) else (.done, .stop)
  | (n, i) :: rest =>
    if ds.names.length ≠ size then (.done, .raise .runtimeError)
    else
      match (ds.heap i).next (ord i) (.start s p o) with
      | (it, .item t) => (.all s p o size n i it rest, .item (tAsQ n t))
      | (_, .stop) => advance ord ds s p o size rest
      | (_, .raise e) => (.done, .raise e)

/-- Resume the loop of lines 536-537. -/
def resumeNamed (ord : Nat → List Stmt → List Stmt) (ds : Dataset) (name : Term) (i : Nat) (it : Graph.MIter) :
    DIter × Graph.Yield :=
  match (ds.heap i).next (ord i) it with
  | (it, .item t) => (.named name i it, .item (tAsQ name t))
  | (_, .stop) => (.done, .stop)
  | (_, .raise e) => (.done, .raise e)

/-- `next(it)` for a `Dataset.match` generator, primitives.py:533-541. -/
def nextQ (ord : Nat → List Stmt → List Stmt) (ds : Dataset) : DIter → Dataset × DIter × Graph.Yield
  | .start s p o g =>
    if g.truthy then
      let (ds, i) := ds.touch g
      (ds, resumeNamed ord ds g i (.start s p o))
    else (ds, advance ord ds s p o ds.names.length ds.names)
  | .named name i it => (ds, resumeNamed ord ds name i it)
  | .all s p o size n i it rest =>
    match (ds.heap i).next (ord i) it with
    | (it, .item t) => (ds, .all s p o size n i it rest, .item (tAsQ n t))
    | (_, .stop) => (ds, advance ord ds s p o size rest)
    | (_, .raise e) => (ds, .done, .raise e)
  | .done => (ds, .done, .stop)

/-- The loop of lines 546-547. -/
def removeLoop (ord : Nat → List Stmt → List Stmt) : Nat → Dataset → DIter → Dataset × Except Exc Unit
  | 0, ds, _ => (ds, .error .outOfFuel)
  | fuel + 1, ds, it =>
    match nextQ ord ds it with
    | (ds, _, .stop) => (ds, .ok ())
    | (ds, _, .raise e) => (ds, .error e)
    | (ds, it, .item q) =>
      match ds.remove q.s q.p q.o (q.g.getD .none) with
      | (ds, .ok ()) => removeLoop ord fuel ds it
      | (ds, .error e) => (ds, .error e)

/-- `Dataset.removeMatches(s, p, o, g)`, primitives.py:543-548 -/
def removeMatches (ord : Nat → List Stmt → List Stmt) (ds : Dataset) (s p o g : Term) : Dataset × Except Exc Unit :=
  removeLoop ord (ds.len + ds.names.length + 2) ds (.start s p o g)

end Dataset
end Verif
