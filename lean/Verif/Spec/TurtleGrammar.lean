import Verif.Model.Turtle
/-
The Turtle grammar as a function from trees to token sequences: one production per clause, from the W3C recommendation (section 6.5,
productions [1]-[15], [128s], [133s]).

    turtleDoc ::= statement*                         statement ::= directive | triples '.'
    predicateObjectList ::= verb objectList (';' (verb objectList)?)*
    objectList ::= object (',' object)*              blankNodePropertyList ::= '[' predicateObjectList ']'
    collection ::= '(' object* ')'                   RDFLiteral ::= String (LANGTAG | '^^' iri)?
-/
namespace Verif.Turtle

def NodeTok.toks : NodeTok → List Tok
  | .iri i => [.iri i]
  | .label l => [.label l]
  | .anon => [.anon]

def VerbTok.toks : VerbTok → List Tok
  | .a => [.kwA]
  | .iri i => [.iri i]

def LeafTok.toks : LeafTok → List Tok
  | .node n => n.toks
  | .str b => [.str b]
  | .strLang b l => [.str b, .lang l]
  | .strDt b i => [.str b, .carets, .iri i]
  | .num k t => [.num k t]
  | .bool t => [.bool t]

mutual
def Obj.toks : PObj → List Tok
  | .leaf l => l.toks
  | .coll c => .lpar :: c.toks
  | .bnpl p => .lbr :: (p.toks ++ [.rbr])
/-- An object list. -/
def Objs.toks : PObjs → List Tok
  | .one o => o.toks
  | .cons o os => o.toks ++ .comma :: os.toks
/-- The objects of a collection and its closing parenthesis. -/
def Coll.toks : PColl → List Tok
  | .nil => [.rpar]
  | .cons o c => o.toks ++ c.toks
def Pol.toks : PPol → List Tok
  | .last v os k => v.toks ++ os.toks ++ List.replicate k .semi
  | .cons v os k p => v.toks ++ os.toks ++ List.replicate (k + 1) .semi ++ p.toks
end

def TStmt.toks : PTStmt → List Tok
  | .pre false ns i => [.atPrefix, .ns ns, .iri (.ref i), .dot]
  | .pre true ns i => [.kwPrefix, .ns ns, .iri (.ref i)]
  | .base false i => [.atBase, .iri (.ref i), .dot]
  | .base true i => [.kwBase, .iri (.ref i)]
  | .node s p => s.toks ++ p.toks ++ [.dot]
  | .coll c p => .lpar :: c.toks ++ p.toks ++ [.dot]
  | .bnpl s => .lbr :: s.toks ++ [.rbr, .dot]
  | .bnplPol s p => .lbr :: s.toks ++ [.rbr] ++ p.toks ++ [.dot]

/-- `turtleDoc` -/
def docToks (d : List PTStmt) : List Tok := d.flatMap TStmt.toks

end Verif.Turtle
