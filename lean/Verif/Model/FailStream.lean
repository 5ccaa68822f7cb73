import Verif.Model.NTriples
/-
Reading from an open file that fails: src/pymantic/parsers/lark/base.py:9-36 with a stream whose iterator yields some lines and then ends or raises.
-/
namespace Verif
variable {σ : Type}

/-- An object with `readline`, as iteration sees it: the lines it yields, and then the end (`.ok ()`) or an exception.
    Simplification: `Exc` has no OSError; the exception is any of `Exc` (the parser catches none). -/
structure Stream where
  lines : List PStr
  fin : Except Exc Unit := .ok ()

/-- `line_by_line_parser(stream)` drained by `graph.addAll`, parsers/lark/base.py:9-12, 32; see `parseLines` for a stream that ends. An exception of the stream leaves the
    generator and `addAll` as it is. -/
def parseStreamLines (add : σ → Stmt → σ) (quads : Bool) (fin : Except Exc Unit) : BState → List PStr → σ → σ × BState × Except Exc Unit
  | st, [], sink => (sink, st, fin)
  | st, line :: lines, sink =>
    if line = [] then parseStreamLines add quads fin st lines sink
    else
      match pDoc quads line with
      | .error e => (sink, st, .error e)
      | .ok rs =>
        let r := st.stmts rs
        match r.2 with
        | [] => (sink, r.1, .error .runtimeError)
        | t :: _ => parseStreamLines add quads fin r.1 lines (add sink t)

/-- `LarkParser.parse(stream, graph)`, parsers/lark/base.py:14-36: the sink afterwards, the allocator and the outcome. -/
def parseFrom (add : σ → Stmt → σ) (quads : Bool) (next : Nat) (s : Stream) (sink : σ) : σ × Nat × Except Exc Unit :=
  let r := parseStreamLines add quads s.fin { map := [], next := next } s.lines sink
  (r.1, r.2.1.next, r.2.2)

end Verif
