import Verif.Model.Resource
/-
The Turtle writer: src/pymantic/serializers.py:46-169.

What is written is returned on success only; Model/TurtleOut.lean says what reached the file before an exception. `escape_prefix_local`
(serializers.py:53-57) is a pure function whose result `turtle_repr` throws away (line 82), so it has no effect and no counterpart here.
-/
namespace Verif.Turtle

/-- The two-character texts that `turtle_string_escape` looks for, with what it puts in their place: `ECHAR_MAP` (util.py:114-126) maps a
    raw character to its escape, and the loop of serializers.py:64-65 calls `string.replace(escape, "\\" + raw)`. -/
def escapeSteps : List (PStr × PStr) :=
  [([92, 116], [92, 9]), ([92, 98], [92, 8]), ([92, 110], [92, 10]), ([92, 114], [92, 13]), ([92, 102], [92, 12]),
   ([92, 34], [92, 34]), ([92, 39], [92, 39]), ([92, 92], [92, 92])]

/-- `turtle_string_escape(string)`, serializers.py:60-66 -/
def turtleStringEscape (s : PStr) : PStr :=
  [34] ++ escapeSteps.foldl (fun s e => pyReplace s e.1 e.2) s ++ [34]

/-- The name of a NamedNode, `turtle_repr` on serializers.py:71-82. The caller's `base` is None or a string; both None and the empty
    string are false. -/
def iriRepr (prefixes : PrefixMap) (base : Option PStr) (iri : PStr) : PStr :=
  let name := prefixes.shrink iri
  let name :=
    match base with
    | none => name
    | some b =>
      if b ≠ [] ∧ pyStartsWith name b = true then
        if pyEndsWith b [35] then [60] ++ pyReplace name b [35] ++ [62] else [60] ++ pyReplace name b [] ++ [62]
      else name
  if name = iri then [60] ++ name ++ [62] else name

/-- `profile.resolve("xsd:" + name)`: the text has a colon, so the prefixes decide (primitives.py:737-743, 616-620). -/
def xsdOf (prefixes : PrefixMap) (name : PStr) : Except Exc PStr := prefixes.resolve (py! "xsd:" ++ name)

/-- The name of a Literal, `turtle_repr` on serializers.py:89-110. -/
def litRepr (prefixes : PrefixMap) (value : PStr) (lang dt : Option PStr) : Except Exc PStr := do
  if dt = some (← xsdOf prefixes (py! "string")) then return turtleStringEscape value
  match dt with
  | none =>
    match lang with
    | some l => if l ≠ [] then return turtleStringEscape value ++ [64] ++ l else return turtleStringEscape value
    | none => return turtleStringEscape value
  | some d =>
    if d = (← xsdOf prefixes (py! "integer")) then return value
    if d = (← xsdOf prefixes (py! "decimal")) then return value
    if d = (← xsdOf prefixes (py! "double")) then return value
    if d = (← xsdOf prefixes (py! "boolean")) then return value
    return turtleStringEscape value ++ [94] ++ iriRepr prefixes none d

/-- The object `bnode_name_generator()` returned: `turtle_repr` calls its method `next` (serializers.py:87). A Python 3 generator such as
    the default one (serializers.py:46-50) has no such method; an object of the caller may, and gives its `i`-th name. -/
abbrev Namer := Option (Nat → PStr)

/-- `default_bnode_name_generator`, serializers.py:46-50, a generator function. -/
def defaultNamer : Namer := none

/-- `name_map` and the number of names taken so far. -/
structure Names where
  map : Dict Nat PStr := []
  taken : Nat := 0
  deriving DecidableEq

/-- What every call of `name_maker` shares (serializers.py:137-138). -/
structure SerCtx where
  prefixes : PrefixMap
  base : Option PStr
  namer : Namer

/-- `name_maker(n)`, that is `turtle_repr(n, profile, name_map, bnode_name_maker, base)`, serializers.py:69-110, 137-138. None and other
    objects have no `interfaceName`. -/
def name (cx : SerCtx) (nm : Names) : Term → Except Exc (Names × PStr)
  | .named i => .ok (nm, iriRepr cx.prefixes cx.base i)
  | .bnode b =>
    match nm.map.get? b with
    | some t => .ok (nm, t)
    | none =>
      match cx.namer with
      | none => .error .attributeError
      | some f => .ok (⟨nm.map.set b (f nm.taken), nm.taken + 1⟩, f nm.taken)
  | .lit v l d => (litRepr cx.prefixes v l d).map fun t => (nm, t)
  | _ => .error .attributeError

/-- The names of a list of nodes, in that order. -/
def names (cx : SerCtx) (nm : Names) : List Term → Except Exc (Names × List (PStr × Term))
  | [] => .ok (nm, [])
  | t :: ts =>
    match name cx nm t with
    | .error e => .error e
    | .ok (nm, x) =>
      match names cx nm ts with
      | .error e => .error e
      | .ok (nm, xs) => .ok (nm, (x, t) :: xs)

/-- `a <= b` on Python strings: by code points. -/
def strLe : PStr → PStr → Bool
  | [], _ => true
  | _ :: _, [] => false
  | a :: as, b :: bs => if a < b then true else if b < a then false else strLe as bs

/-- `a <= b` on pairs of a name and a node; equal names are decided by the nodes, which are strings when both are NamedNodes. -/
def pairLe (a b : PStr × Term) : Bool :=
  if a.1 = b.1 then
    match a.2, b.2 with
    | .named i, .named j => strLe i j
    | _, _ => true
  else strLe a.1 b.1

/-- Insertion into a sorted list. -/
def insertPair (x : PStr × Term) : List (PStr × Term) → List (PStr × Term)
  | [] => [x]
  | y :: ys => if pairLe x y then x :: y :: ys else y :: insertPair x ys

/-- Is it a NamedNode? -/
def _root_.Verif.Term.isNamed : Term → Bool
  | .named _ => true
  | _ => false

/-- Two pairs with the same name that Python cannot compare: nodes of which one is not a NamedNode. (Two such pairs end up next to each
    other or next to another pair with that name, so any comparison sort compares a pair of this kind, and fails.)
    Simplification: Python compares two Literals of the same name as tuples, and that succeeds if their languages are both None or equal and their
    datatypes are both strings; here they are incomparable too. Literals are names only of subjects and predicates, so it needs a triple that is not RDF. -/
def incomparable : List (PStr × Term) → Bool
  | [] => false
  | x :: xs => xs.any (fun y => x.1 == y.1 && !(x.2.isNamed && y.2.isNamed)) || incomparable xs

/-- `turtle_sorted_names(nodes, name_maker)`, serializers.py:113-115 -/
def sortedNames (cx : SerCtx) (nm : Names) (nodes : List Term) : Except Exc (Names × List (PStr × Term)) :=
  match names cx nm nodes with
  | .error e => .error e
  | .ok (nm, xs) => if incomparable xs then .error .typeError else .ok (nm, xs.foldr insertPair [])

/-- `" " * n` -/
def spaces (n : Nat) : PStr := List.replicate n 32

/-- What the loops thread: the class-level state of `Resource` (iterating a List classifies nodes) and the names. -/
structure SerSt where
  w : World
  nm : Names

/-- `name_maker(o)` on an item of a List, serializers.py:161-164: a Literal, or a Resource or None, which have no `interfaceName`. -/
def itemName (cx : SerCtx) (nm : Names) : Val → Except Exc (Names × PStr)
  | .lit v l d => name cx nm (.lit v l d)
  | _ => .error .attributeError

/-- The items of a List, serializers.py:161-164, given what the iterator yields and how it ends. -/
def items (cx : SerCtx) (first : Bool) : Names → List Val → Option (Except Exc Unit) → Except Exc (Names × PStr)
  | nm, [], some (.ok ()) => .ok (nm, [])
  | _, [], some (.error e) => .error e
  | _, [], none => .error .outOfFuel
  | nm, v :: vs, fin =>
    match itemName cx nm v with
    | .error e => .error e
    | .ok (nm, t) =>
      match items cx false nm vs fin with
      | .error e => .error e
      | .ok (nm, rest) => .ok (nm, (if first then [] else [32]) ++ t ++ rest)

/-- The subject of `List(graph, obj)`, rdf.py:119-123. -/
def asSubject : Term → Term
  | .bnode i => .bnode i
  | t => toNamed t

/-- One object of a triple, serializers.py:159-167. `c` is the class List. `fuel` bounds the number of items asked of a List: the loop over
    a cyclic List never ends, which the model shows as `outOfFuel` for every `fuel`. -/
def objText (o : Orders) (c fuel : Nat) (g : Graph) (cx : SerCtx) (st : SerSt) (obj : Term) : Except Exc (SerSt × PStr) :=
  match isList o st.w g c obj with
  | .error e => .error e
  | .ok true =>
    let r := listTake o g c fuel st.w (.test ⟨c, asSubject obj⟩)
    match items cx true st.nm r.2.1 r.2.2 with
    | .error e => .error e
    | .ok (nm, t) => .ok (⟨r.1, nm⟩, [40] ++ t ++ [41])
  | .ok false =>
    match name cx st.nm obj with
    | .error e => .error e
    | .ok (nm, t) => .ok (⟨st.w, nm⟩, t)

/-- The objects of one subject and predicate, serializers.py:154-167. -/
def objsText (o : Orders) (c fuel : Nat) (g : Graph) (cx : SerCtx) (indent : Nat) (first : Bool) :
    SerSt → List Stmt → Except Exc (SerSt × PStr)
  | st, [] => .ok (st, [])
  | st, t :: ts =>
    match objText o c fuel g cx st t.o with
    | .error e => .error e
    | .ok (st, x) =>
      match objsText o c fuel g cx indent false st ts with
      | .error e => .error e
      | .ok (st, rest) => .ok (st, (if first then [] else [44, 10] ++ spaces indent) ++ x ++ rest)

/-- The predicates of one subject, serializers.py:149-168. -/
def predsText (o : Orders) (c fuel : Nat) (g : Graph) (cx : SerCtx) (s : Term) (indent : Nat) (first : Bool) :
    SerSt → List (PStr × Term) → Except Exc (SerSt × PStr)
  | st, [] => .ok (st, [])
  | st, (pname, p) :: ps =>
    match objsText o c fuel g cx (indent + pname.length + 1) true st (g.match o.stmts s p .none) with
    | .error e => .error e
    | .ok (st, objs) =>
      match predsText o c fuel g cx s indent false st ps with
      | .error e => .error e
      | .ok (st, rest) =>
        .ok (st, (if first then [] else spaces indent) ++ pname ++ [32] ++ objs ++ [32, 59, 10] ++ rest)

/-- One subject, serializers.py:144-169. -/
def subjText (o : Orders) (c fuel : Nat) (g : Graph) (cx : SerCtx) (st : SerSt) (sname : PStr) (s : Term) :
    Except Exc (SerSt × PStr) :=
  let indent := sname.length + 1
  match sortedNames cx st.nm (o.terms (pySet ((g.match o.stmts s .none .none).map (·.p)))) with
  | .error e => .error e
  | .ok (nm, ps) =>
    match predsText o c fuel g cx s indent true ⟨st.w, nm⟩ ps with
    | .error e => .error e
    | .ok (st, t) => .ok (st, sname ++ [32] ++ t ++ spaces indent ++ [46, 10, 10])

/-- The loop over the subjects, serializers.py:144-169. -/
def subjsText (o : Orders) (c fuel : Nat) (g : Graph) (cx : SerCtx) : SerSt → List (PStr × Term) → Except Exc (SerSt × PStr)
  | st, [] => .ok (st, [])
  | st, (sname, s) :: ss =>
    match subjText o c fuel g cx st sname s with
    | .error e => .error e
    | .ok (st, t) =>
      match subjsText o c fuel g cx st ss with
      | .error e => .error e
      | .ok (st, rest) => .ok (st, t ++ rest)

/-- `[subj for subj in graph.subjects() if not List.is_list(subj, graph)]`, serializers.py:142 -/
def plainSubjects (o : Orders) (w : World) (c : Nat) (g : Graph) : List Term → Except Exc (List Term)
  | [] => .ok []
  | s :: ss =>
    match isList o w g c s with
    | .error e => .error e
    | .ok b =>
      match plainSubjects o w c g ss with
      | .error e => .error e
      | .ok rest => .ok (if b then rest else s :: rest)

/-- The directives, serializers.py:125-133. -/
def header (base : Option PStr) (prefixes : PrefixMap) : PStr :=
  (match base with
   | none => []
   | some b => py! "@base <" ++ b ++ py! "> .\n") ++
  prefixes.flatMap fun e => if e.1 ≠ py! "rdf" then py! "@prefix " ++ e.1 ++ py! ": <" ++ e.2 ++ py! "> .\n" else []

/-- `Profile().prefixes`, primitives.py:723-729 -/
def defaultPrefixes : PrefixMap := [(py! "rdf", Heap.rdfNs), (py! "xsd", Heap.xsdNs)]

/-- The class `List` in a `World`. -/
def listC : Nat := 1

/-- `serialize_turtle(graph, f, base, profile, bnode_name_generator)`, serializers.py:118-169: what is written to `f`. `none` for the
    prefixes is `profile=None`. -/
def serializeTurtle (o : Orders) (w : World) (fuel : Nat) (g : Graph) (base : Option PStr := none) (profile : Option PrefixMap := none)
    (namer : Namer := defaultNamer) : Except Exc PStr :=
  let prefixes := profile.getD defaultPrefixes
  let cx : SerCtx := ⟨prefixes, base, namer⟩
  match plainSubjects o w listC g g.subjects with
  | .error e => .error e
  | .ok subjects =>
    match sortedNames cx {} subjects with
    | .error e => .error e
    | .ok (nm, ss) =>
      match subjsText o listC fuel g cx ⟨w, nm⟩ ss with
      | .error e => .error e
      | .ok (_, t) => .ok (header base prefixes ++ t)

end Verif.Turtle
