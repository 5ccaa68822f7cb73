import Verif.Model.Graph
import Verif.Model.Dataset
import Verif.Model.Curie
import Verif.Model.Util
/-
The constructors of RDFEnvironment: src/pymantic/primitives.py:779-812, 834-840, Dataset.toArray (primitives.py:575-576) and the literals of util.py:9-20.
createProfile, createTermMap and createPrefixMap are in Model/Profile.lean.
-/
namespace Verif.Env

/-- `createBlankNode()`, primitives.py:783-785: a new object; the argument is the next free identity. -/
def createBlankNode (next : Nat) : Nat × Term := (next + 1, .bnode next)

/-- `createNamedNode(value)`, primitives.py:787-789, on a string. -/
def createNamedNode (value : PStr) : Term := .named value

/-- `createLiteral(value, language, datatype)`, primitives.py:791-795 -/
def createLiteral (value : LitArg) (language datatype : Option PStr := none) : Except Exc Term := mkLiteral value language datatype

/-- `createTriple(subject, predicate, object)`, primitives.py:797-800 -/
def createTriple (s p o : Term) : Stmt := mkTriple s p o

/-- `createQuad(subject, predicate, object, graph)`, primitives.py:834-835 -/
def createQuad (s p o g : Term) : Stmt := mkQuad s p o g

/-- `createGraph(triples)`, primitives.py:802-809 -/
def createGraph (triples : List Stmt := []) : Graph := (Graph.new).addAll triples

/-- `createAction(test, action)`, primitives.py:811-812 -/
def createAction : Except Exc Unit := .error .notImplementedError

/-- `createDataset(quads)`, primitives.py:837-840 -/
def createDataset (quads : List (Term × Term × Term × Term) := []) : Dataset := Dataset.new.addAll quads

/-- `Dataset.toArray()`, primitives.py:575-576: the set of what iterating yields. -/
def datasetArray (ord : Nat → List Stmt → List Stmt) (ds : Dataset) : List Stmt := pySet (ds.iter ord)

/-- `en(value)`, util.py:9-13 -/
def en (value : LitArg) : Except Exc Term := mkLiteral value (some (py! "en")) none

/-- `de(value)`, util.py:16-20 -/
def de (value : LitArg) : Except Exc Term := mkLiteral value (some (py! "de")) none

end Verif.Env
