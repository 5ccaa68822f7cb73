import Verif.Model.NTriples
import Verif.Model.Turtle
/-
How the parsers are called: `ntriples_parser`, `nquads_parser` (src/pymantic/parsers/lark/base.py:6-7 and 38-45, ntriples.py:88-97, nquads.py:34-42) and the functions of
`turtle_parser` (turtle.py:285-309), with text or bytes, with and without a graph.
-/
namespace Verif

/-- What `parse_string` is given: a `str` or `bytes`. -/
inductive Source
  | str (s : PStr)
  | bytes (b : List Nat)

variable {σ : Type}

/-- `LarkParser.parse_string(string_or_bytes, graph)`, parsers/lark/base.py:38-45 -/
def larkParseString (add : σ → Stmt → σ) (quads : Bool) (next : Nat) (source : Source) (sink : σ) : σ × Nat × Except Exc Unit :=
  match source with
  | .bytes b =>
    match utf8Decode b with
    | none => (sink, next, .error .unicodeDecodeError)
    | some s => parseString add quads next s sink
  | .str s => parseString add quads next s sink

/-- `turtle_parser.parse_string(string_or_bytes, graph, base)`, turtle.py:308-309 -/
def turtleParseString (add : σ → Stmt → σ) (nl : PStr → Bool) (base : PStr) (next : Nat) (source : Source) (sink : σ) : σ × Nat × Except Exc Unit :=
  match source with
  | .bytes b => Turtle.parse add nl base next sink (.bytes b)
  | .str s => Turtle.parse add nl base next sink (.str s)

/-- A call without a graph: `_make_graph()` (parsers/base.py:52-53, `RDFEnvironment.createGraph`, primitives.py:802-809) makes one, for N-Quads too; it is the result. -/
def onNewGraph (run : Graph → Graph × Nat × Except Exc Unit) : Nat × Except Exc Graph :=
  match run (Graph.new .none) with
  | (_, n, .error e) => (n, .error e)
  | (g, n, .ok ()) => (n, .ok g)

/-- `ntriples_parser.parse(text)` and `nquads_parser.parse(text)` -/
def larkParseNew (quads : Bool) (next : Nat) (text : PStr) : Nat × Except Exc Graph :=
  onNewGraph (parseString Graph.add quads next text)

/-- `turtle_parser.parse(text, base=base)` -/
def turtleParseNew (nl : PStr → Bool) (base : PStr) (next : Nat) (text : PStr) : Nat × Except Exc Graph :=
  onNewGraph fun g => Turtle.parse Graph.add nl base next g (.str text)

end Verif
