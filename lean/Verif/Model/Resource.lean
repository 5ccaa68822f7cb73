import Verif.Model.Graph
import Verif.Model.Profile
import Verif.Model.NTriples
import Verif.Model.Util
/-
src/pymantic/rdf.py: MetaResource, register_class, Resource, List, literalize, objectify_value, check_objects.

A Resource class is a number, an index into the list of existing classes. Class 0 is `Resource`, class 1 is `List`.
Not modelled: logging, classes that do not derive from Resource.
-/
namespace Verif

/-! ### Classes -/

/-- A Resource class. `prefixes` and `scalars` are always own attributes (rdf.py:39, 43); `lang` and `rdf_classes` are own attributes
    only if given, otherwise they are looked up along the MRO. `mro` begins with the class itself (`object` is left out). -/
structure Cls where
  name : PStr
  prefixes : PrefixMap
  scalars : List PStr
  lang : Option (Option PStr) := none
  rdfClasses : Option (List Term) := none
  mro : List Nat
  deriving DecidableEq

/-- The class-level state: the classes, `MetaResource._classes` (rdf.py:26; its keys are RDF types, here `byType`, or frozensets of
    RDF types, here `bySet`), and `Resource.global_profile` (rdf.py:117). -/
structure World where
  classes : List Cls
  byType : Dict Term Nat := []
  bySet : List (List Term × Nat) := []
  gPrefixes : PrefixMap
  gTerms : TermMap := {}
  deriving DecidableEq

/-- rdf.py:108 -/
def rdfsNs : PStr := py! "http://www.w3.org/2000/01/rdf-schema#"

/-- `class Resource`, rdf.py:67-117, after the metaclass has run. -/
def resourceCls : Cls :=
  { name := py! "Resource"
    prefixes := [(py! "rdf", Heap.rdfNs), (py! "rdfs", rdfsNs)]
    scalars := [rdfsNs ++ py! "label"]
    lang := some (some (py! "en"))
    rdfClasses := some []
    mro := [0] }

/-- `class List(Resource)`, rdf.py:551-557, after the metaclass has run (see the example in Props/Resource). -/
def listCls : Cls :=
  { name := py! "List"
    prefixes := [(py! "rdf", Heap.rdfNs), (py! "rdfs", rdfsNs)]
    scalars := [rdfsNs ++ py! "label", Heap.rdfNs ++ py! "first", Heap.rdfNs ++ py! "rest"]
    mro := [1, 0] }

/-- The state after `import pymantic.rdf`. -/
def World.new : World :=
  { classes := [resourceCls, listCls]
    gPrefixes := [(py! "rdf", Heap.rdfNs), (py! "xsd", Heap.xsdNs)] }

namespace World

def cls (w : World) (c : Nat) : Cls := (w.classes[c]?).getD resourceCls

/-- Attribute lookup along the MRO. -/
def lookup {α} (w : World) (c : Nat) (f : Cls → Option α) : Option α := (w.cls c).mro.findSome? fun k => f (w.cls k)

/-- `cls.lang` -/
def lang (w : World) (c : Nat) : Option PStr := (w.lookup c Cls.lang).getD none

/-- `cls.rdf_classes` -/
def rdfClasses (w : World) (c : Nat) : List Term := (w.lookup c Cls.rdfClasses).getD []

/-- `isinstance(x, base)` / `issubclass` for classes. -/
def isSub (w : World) (c base : Nat) : Bool := (w.cls c).mro.contains base

end World

/-! ### C3 linearisation (CPython `mro_implementation`, used by `type.__new__`) -/

/-- The first head that is in no tail. -/
def c3Pick (ls : List (List Nat)) : Option Nat :=
  (ls.filterMap List.head?).find? fun h => ls.all fun l => !l.tail.contains h

/-- Merge the lists; `none` if there is no consistent order. -/
def c3Merge : Nat → List (List Nat) → Option (List Nat)
  | 0, _ => none
  | fuel + 1, ls =>
    let ls := ls.filter (· ≠ [])
    match ls with
    | [] => some []
    | ls =>
      match c3Pick ls with
      | none => none
      | some h => (c3Merge fuel (ls.map fun l => if l.head? = some h then l.tail else l)).map (h :: ·)

/-- The MRO of a new class `c` with the given bases: the merge of the bases' MROs and the list of bases. Each round removes at least one
    element, so the fuel suffices. -/
def mroOf (w : World) (c : Nat) (bases : List Nat) : Option (List Nat) :=
  let ls := bases.map (fun b => (w.cls b).mro) ++ [bases]
  (c3Merge ((ls.map List.length).sum + 1) ls).map (c :: ·)

/-! ### MetaResource -/

/-- The attributes given in a class body. -/
structure Own where
  prefixes : Dict PStr PStr := []
  scalars : List PStr := []
  lang : Option (Option PStr) := none
  rdfClasses : Option (List Term) := none

/-- `set.update` / `set.add` on a set of IRIs. -/
def addIri (s : List PStr) (x : PStr) : List PStr := if x ∈ s then s else s ++ [x]

/-- rdf.py:29, 31-33 -/
def inheritedPrefixes (w : World) (bases : List Nat) : PrefixMap :=
  bases.foldl (fun m b => Dict.update m (w.cls b).prefixes) []

/-- rdf.py:30-31, 34-35 -/
def inheritedScalars (w : World) (bases : List Nat) : List PStr :=
  bases.foldl (fun s b => (w.cls b).scalars.foldl addIri s) []

/-- rdf.py:41-42 -/
def addScalars (prefixes : PrefixMap) : List PStr → List PStr → Except Exc (List PStr)
  | s, [] => .ok s
  | s, x :: xs =>
    match parseCurie x prefixes with
    | .error e => .error e
    | .ok iri => addScalars prefixes (addIri s iri) xs

/-- `MetaResource.__new__`, rdf.py:28-46: the new world and the number of the new class. -/
def newClass (w : World) (name : PStr) (bases : List Nat) (own : Own) : Except Exc (World × Nat) :=
  let prefixes := Dict.update (inheritedPrefixes w bases) own.prefixes
  match addScalars prefixes (inheritedScalars w bases) own.scalars with
  | .error e => .error e
  | .ok scalars =>
    match mroOf w w.classes.length bases with
    | none => .error .typeError
    | some mro =>
      .ok ({ w with classes := w.classes ++ [{ name, prefixes, scalars, lang := own.lang, rdfClasses := own.rdfClasses, mro }] },
           w.classes.length)

/-- `Resource.resolve(key)`, rdf.py:154-160; `.ok none` is Python None. -/
def resolveKey (w : World) (c : Nat) (key : PStr) : Except Exc (Option PStr) :=
  match PrefixMap.resolve (w.cls c).prefixes key with
  | .ok iri => .ok (some iri)
  | .error .valueError =>
    if key.contains 58 then (w.gPrefixes.resolve key).map some else .ok (w.gTerms.resolve key)
  | .error e => .error e

/-- A resolved name as a pattern argument. -/
def predTerm : Option PStr → Term
  | none => .none
  | some iri => .named iri

/-- Overwrite `rdf_classes` of a class. -/
def World.setRdfClasses (w : World) (c : Nat) (ts : List Term) : World :=
  { w with classes := w.classes.modify c fun k => { k with rdfClasses := some ts } }

/-- `C.prefixes[name] = Prefix(iri)` after the class has been created, as in README.rst:16: the PrefixMap made at rdf.py:29, 39 belongs to this
    class alone. -/
def World.setPrefix (w : World) (c : Nat) (name iri : PStr) : World :=
  { w with classes := w.classes.modify c fun k => { k with prefixes := Dict.set k.prefixes name iri } }

/-- `C.lang = lang` after the class has been created: a class attribute (rdf.py:113 for `Resource`), looked up along the MRO. -/
def World.setLang (w : World) (c : Nat) (lang : Option PStr) : World :=
  { w with classes := w.classes.modify c fun k => { k with lang := some lang } }

/-- `register_class(rdf_type)(python_class)`, rdf.py:49-57 -/
def registerClass (w : World) (rdfType : PStr) (c : Nat) : World × Except Exc Unit :=
  match resolveKey w c rdfType with
  | .error e => (w, .error e)
  | .ok ty => (({ w with byType := w.byType.set (predTerm ty) c }).setRdfClasses c [predTerm ty], .ok ())

/-! ### Values -/

/-- What reading a Resource can give: None, a Literal, or a Resource. -/
inductive Val
  | none
  | lit (value : PStr) (lang : Option PStr) (dt : Option PStr)
  | res (c : Nat) (subject : Term)
  deriving DecidableEq

/-- A Resource object: its class and its subject. The graph is passed along. -/
structure Res where
  c : Nat
  s : Term
  deriving DecidableEq

/-- The iteration orders of the hash sets involved. -/
structure Orders where
  stmts : List Stmt → List Stmt := id
  terms : List Term → List Term := id
  vals : List Val → List Val := id

/-- `cls.resolve("rdf:type")` as a pattern argument. -/
def rdfType (w : World) (c : Nat) : Except Exc Term := (resolveKey w c (py! "rdf:type")).map predTerm

/-- Equality of frozensets. -/
def sameSet (a b : List Term) : Bool := a.all (b.contains ·) && b.all (a.contains ·)

def World.lookupSet (w : World) (ts : List Term) : Option Nat := (w.bySet.find? fun e => sameSet e.1 ts).map (·.2)

/-- The types of a node, rdf.py:406-408. -/
def typesOf (o : Orders) (g : Graph) (ty obj : Term) : List Term := pySet ((g.match o.stmts obj ty .none).map (·.o))

/-- rdf.py:419-428: create and record the class for a set of types. -/
def autoClass (w : World) (types : List Term) (pcs : List Nat) : World × Except Exc Nat :=
  match w.lookupSet types with
  | some k => (w, .ok k)
  | none =>
    match newClass w (pcs.flatMap fun c => (w.cls c).name) pcs {} with
    | .error e => (w, .error e)
    | .ok (w', k) => ({ w' with bySet := w'.bySet ++ [(types, k)] }.setRdfClasses k types, .ok k)

/-- `python_classes`, rdf.py:409-413: the registered classes of a node's types, in the order in which the types are met. -/
def classesOf (o : Orders) (w : World) (g : Graph) (ty obj : Term) : List Nat :=
  (o.terms (typesOf o g ty obj)).filterMap fun t => w.byType.get? t

/-- rdf.py:406-428; `ty` is `cls.resolve("rdf:type")`. -/
def classifyNode (o : Orders) (w : World) (g : Graph) (ty obj : Term) : World × Except Exc Val :=
  match classesOf o w g ty obj with
  | [] => (w, .ok (.res 0 obj))
  | [k] => (w, .ok (.res k obj))
  | pcs =>
    match autoClass w (typesOf o g ty obj) pcs with
    | (w, .error e) => (w, .error e)
    | (w, .ok k) => (w, .ok (.res k obj))

/-- `Resource.classify(graph, obj)` called on class `c`, rdf.py:392-428. (Lines 402-405 have no effect.)
    Simplification: an object that is neither None, a Literal, an IRI nor a blank node is treated like a node. -/
def classify (o : Orders) (w : World) (g : Graph) (c : Nat) (obj : Term) : World × Except Exc Val :=
  match obj with
  | .none => (w, .ok .none)
  | .lit v l d => (w, .ok (.lit v l d))
  | obj =>
    match rdfType w c with
    | .error e => (w, .error e)
    | .ok ty => classifyNode o w g ty obj

/-- `isinstance(value, resource_class)` -/
def Val.isInst (w : World) (rc : Nat) : Val → Bool
  | .res c _ => w.isSub c rc
  | _ => false

/-! ### Selecting objects -/

/-- `self.objects(predicate)`, rdf.py:239-241 -/
def objectsOf (o : Orders) (g : Graph) (s p : Term) : List Term := (g.match o.stmts s p .none).map (·.o)

/-- The test of rdf.py:184-187. -/
def Term.isBare : Term → Bool
  | .lit _ Option.none Option.none => true
  | _ => false

/-- `self.bare_literals(predicate)`, rdf.py:179-188 -/
def bareLiterals (o : Orders) (g : Graph) (s p : Term) : List Term := (objectsOf o g s p).filter Term.isBare

/-- The tests of rdf.py:197 and 205. -/
def Term.hasLang (lang : Option PStr) : Term → Bool
  | .lit _ l _ =>
    match lang with
    | some t => langMatch (some t) l
    | Option.none => l.isSome
  | _ => false

/-- `self.objects_by_lang(predicate, lang)`, rdf.py:190-206 -/
def objectsByLang (o : Orders) (g : Graph) (s p : Term) (lang : Option PStr) : List Term :=
  if lang = some [] then bareLiterals o g s p else (objectsOf o g s p).filter (Term.hasLang lang)

/-- The tests of rdf.py:215 and 223. -/
def Term.hasDt (dt : Option PStr) : Term → Bool
  | .lit _ _ d =>
    match dt with
    | some t => decide (d = some t)
    | Option.none => d.isSome
  | _ => false

/-- `self.objects_by_datatype(predicate, datatype)`, rdf.py:208-224 -/
def objectsByDatatype (o : Orders) (g : Graph) (s p : Term) (dt : Option PStr) : List Term :=
  if dt = some [] then bareLiterals o g s p else (objectsOf o g s p).filter (Term.hasDt dt)

/-- The test of rdf.py:232. -/
def Term.isNode : Term → Bool
  | .named _ => true
  | .bnode _ => true
  | _ => false

/-- The loop of `objects_by_type` with a class, rdf.py:229-237. -/
def filterByType (o : Orders) (g : Graph) (c rc : Nat) : World → List Term → World × Except Exc (List Term)
  | w, [] => (w, .ok [])
  | w, x :: xs =>
    if x.isNode then
      match classify o w g c x with
      | (w, .error e) => (w, .error e)
      | (w, .ok v) =>
        let keep := v.isInst w rc
        match filterByType o g c rc w xs with
        | (w, .error e) => (w, .error e)
        | (w, .ok r) => (w, .ok (if keep then x :: r else r))
    else filterByType o g c rc w xs

/-- `self.objects_by_type(predicate)` without a class, rdf.py:226-237 -/
def nodesOf (o : Orders) (g : Graph) (s p : Term) : List Term := (objectsOf o g s p).filter Term.isNode

/-- `self.objects_by_type(predicate, resource_class)`, rdf.py:226-237 -/
def objectsByType (o : Orders) (w : World) (g : Graph) (r : Res) (p : Term) : Option Nat → World × Except Exc (List Term)
  | none => (w, .ok (nodesOf o g r.s p))
  | some rc => filterByType o g r.c rc w (objectsOf o g r.s p)

/-! ### Keys -/

/-- The second component of a key `(name, filter)`. `is_language` (primitives.py:31-35) is true of everything that is not a NamedNode,
    so a plain string is a language and a NamedNode is a datatype. -/
inductive Filt
  | none
  | cls (c : Nat)
  | lang (l : PStr)
  | dt (iri : PStr)
  deriving DecidableEq

/-- A key: a name, or a tuple of a name and a filter. A longer tuple is read as the pair of its first two items (rdf.py:436-445); tuples of fewer than
    two items are not modelled. -/
inductive Key
  | name (k : PStr)
  | pair (k : PStr) (f : Filt)
  deriving DecidableEq

def Key.text : Key → PStr
  | .name k => k
  | .pair k _ => k

def Key.isTuple : Key → Bool
  | .name _ => false
  | .pair _ _ => true

/-- `_interpret_datatype`, rdf.py:452-459 -/
def interpretDatatype (d : PStr) : PStr := if d = xsd (py! "string") then [] else d

/-- What `_interpret_key` returns. -/
structure Sel where
  pred : Option PStr
  lang : Option PStr := none
  dt : Option PStr := none
  cls : Option Nat := none
  deriving DecidableEq

/-- `predicate in self.scalars` -/
def isScalar (w : World) (c : Nat) (pred : Option PStr) : Bool :=
  match pred with
  | some p => (w.cls c).scalars.contains p
  | none => false

/-- `_interpret_key(key)`, rdf.py:430-450 -/
def interpretKey (w : World) (r : Res) (key : Key) : Except Exc Sel :=
  match resolveKey w r.c key.text with
  | .error e => .error e
  | .ok pred =>
    match key with
    | .pair _ .none => .ok { pred }
    | .pair _ (.cls c) => .ok { pred, cls := some c }
    | .pair _ (.lang l) => .ok { pred, lang := some l }
    | .pair _ (.dt d) => .ok { pred, dt := some (interpretDatatype d) }
    | .name _ => .ok { pred, lang := if isScalar w r.c pred then w.lang r.c else none }

/-- Truth value of an optional string. -/
def truthyStr : Option PStr → Bool
  | some (_ :: _) => true
  | _ => false

/-- The language case of `_objects_for_key`, rdf.py:470-478. `implicit` is `not isinstance(key, tuple)`. -/
def langObjects (o : Orders) (g : Graph) (s p : Term) (lang : Option PStr) (scalar implicit : Bool) : List Term :=
  let objs := objectsByLang o g s p lang
  let objs :=
    if implicit && scalar && decide (objs = []) then
      let objs := objs ++ nodesOf o g s p
      let objs := if objs = [] then objs ++ objectsByDatatype o g s p none else objs
      if objs = [] then objs ++ bareLiterals o g s p else objs
    else objs
  if !scalar then objs ++ nodesOf o g s p else objs

/-- The datatype case of `_objects_for_key`, rdf.py:480-482. -/
def dtObjects (o : Orders) (g : Graph) (s p : Term) (dt : Option PStr) (scalar : Bool) : List Term :=
  let objs := objectsByDatatype o g s p dt
  if !scalar then objs ++ nodesOf o g s p else objs

/-- `_objects_for_key(key)` after the key has been interpreted, rdf.py:467-489. Line 488 cannot be reached: one of the three is not
    None. -/
def objectsForSel (o : Orders) (w : World) (g : Graph) (r : Res) (sel : Sel) (implicit : Bool) :
    World × Except Exc (List Term) :=
  let p := predTerm sel.pred
  let scalar := isScalar w r.c sel.pred
  if sel.lang = none ∧ sel.dt = none ∧ sel.cls = none then (w, .ok (objectsOf o g r.s p))
  else if truthyStr sel.lang then (w, .ok (langObjects o g r.s p sel.lang scalar implicit))
  else if truthyStr sel.dt then (w, .ok (dtObjects o g r.s p sel.dt scalar))
  else
    match sel.cls with
    | some rc => objectsByType o w g r p (some rc)
    | none => (w, .ok (bareLiterals o g r.s p))

/-- `_objects_for_key(key)`, rdf.py:461-489 -/
def objectsForKey (o : Orders) (w : World) (g : Graph) (r : Res) (key : Key) :
    World × Except Exc (Option PStr × List Term) :=
  match interpretKey w r key with
  | .error e => (w, .error e)
  | .ok sel =>
    match objectsForSel o w g r sel (!key.isTuple) with
    | (w, .error e) => (w, .error e)
    | (w, .ok objs) => (w, .ok (sel.pred, objs))

/-! ### Reading -/

/-- What `r[key]` evaluates to: a generator over the objects selected at the time of the call (each is classified when the generator is
    advanced), or one value. -/
inductive GetRes
  | iter (objs : List Term)
  | one (v : Val)
  deriving DecidableEq

/-- `util.one_or_none(objects)` as a term. -/
def optTerm : Option Term → Term
  | none => .none
  | some t => t

/-- `self.classify(self.graph, util.one_or_none(objects))` -/
def classifyOne (o : Orders) (w : World) (g : Graph) (c : Nat) (objs : List Term) : World × Except Exc Val :=
  match oneOrNone objs with
  | .error e => (w, .error e)
  | .ok x => classify o w g c (optTerm x)

/-- `isinstance(key, tuple) and key[1] is None` -/
def Key.isAll : Key → Bool
  | .pair _ .none => true
  | _ => false

/-- `Resource.__getitem__(key)`, rdf.py:254-278 -/
def getItem (o : Orders) (w : World) (g : Graph) (r : Res) (key : Key) : World × Except Exc GetRes :=
  match objectsForKey o w g r key with
  | (w, .error e) => (w, .error e)
  | (w, .ok (pred, objs)) =>
    if !isScalar w r.c pred || key.isAll then (w, .ok (.iter objs))
    else
      match classifyOne o w g r.c objs with
      | (w, .error e) => (w, .error e)
      | (w, .ok v) => (w, .ok (.one v))

/-- `list(generator)` for the generator of `__getitem__`, rdf.py:272-276 -/
def collect (o : Orders) (g : Graph) (c : Nat) : World → List Term → World × Except Exc (List Val)
  | w, [] => (w, .ok [])
  | w, x :: xs =>
    match classify o w g c x with
    | (w, .error e) => (w, .error e)
    | (w, .ok v) =>
      match collect o g c w xs with
      | (w, .error e) => (w, .error e)
      | (w, .ok vs) => (w, .ok (v :: vs))

/-- `Resource.get_scalar(key)`, rdf.py:280-285 -/
def getScalar (o : Orders) (w : World) (g : Graph) (r : Res) (key : Key) : World × Except Exc Val :=
  match objectsForKey o w g r key with
  | (w, .error e) => (w, .error e)
  | (w, .ok (_, objs)) => classifyOne o w g r.c objs

/-- `key in resource`, rdf.py:350-356 -/
def containsKey (o : Orders) (w : World) (g : Graph) (r : Res) (key : Key) : World × Except Exc Bool :=
  match objectsForKey o w g r key with
  | (w, .error e) => (w, .error e)
  | (w, .ok (_, objs)) => (w, .ok (decide (objs ≠ [])))

/-- `iter(resource)`, rdf.py:358-360 -/
def iterPairs (o : Orders) (g : Graph) (r : Res) : List (Term × Term) :=
  (g.match o.stmts r.s .none .none).map fun t => (t.p, t.o)

/-- `resource.object_of()`, rdf.py:243-248, listed at once. -/
def objectOfAll (o : Orders) (g : Graph) (c : Nat) : World → List Stmt → World × Except Exc (List (Val × Term))
  | w, [] => (w, .ok [])
  | w, t :: ts =>
    match classify o w g c t.s with
    | (w, .error e) => (w, .error e)
    | (w, .ok v) =>
      match objectOfAll o g c w ts with
      | (w, .error e) => (w, .error e)
      | (w, .ok vs) => (w, .ok ((v, t.p) :: vs))

/-- `resource.object_of(predicate)`, rdf.py:243-252. With a predicate the code yields the values alone, without the predicate that is beside them here. -/
def objectOf (o : Orders) (w : World) (g : Graph) (r : Res) : Option PStr → World × Except Exc (List (Val × Term))
  | none => objectOfAll o g r.c w (g.match o.stmts .none .none r.s)
  | some name =>
    match resolveKey w r.c name with
    | .error e => (w, .error e)
    | .ok p => objectOfAll o g r.c w (g.match o.stmts .none (predTerm p) r.s)

/-- `str(resource)`, rdf.py:386-390 -/
def resStr (o : Orders) (w : World) (g : Graph) (r : Res) : World × Except Exc PStr :=
  match getItem o w g r (.name (py! "rdfs:label")) with
  | (w, .error e) => (w, .error e)
  | (w, .ok (.one .none)) => (w, .ok r.s.str)
  | (w, .ok _) =>
    match getItem o w g r (.name (py! "rdfs:label")) with
    | (w, .error e) => (w, .error e)
    | (w, .ok (.one (.lit v _ _))) => (w, .ok v)
    | (w, .ok _) => (w, .error .attributeError)

/-! ### Writing -/

/-- `for obj in objects: self.graph.remove(Triple(self.subject, predicate, obj))`, rdf.py:321-322 and 345-346 -/
def removeObjs (s p : Term) : Graph → List Term → Graph × Except Exc Unit
  | g, [] => (g, .ok ())
  | g, x :: xs =>
    match g.remove (mkTriple s p x) with
    | (g, .error e) => (g, .error e)
    | (g, .ok ()) => removeObjs s p g xs

/-- `Resource.__delitem__(key)`, rdf.py:339-346 -/
def delItem (o : Orders) (w : World) (g : Graph) (r : Res) (key : Key) : World × Graph × Except Exc Unit :=
  match objectsForKey o w g r key with
  | (w, .error e) => (w, g, .error e)
  | (w, .ok (pred, objs)) => (w, removeObjs r.s (predTerm pred) g objs)

/-- A Python value given to `r[key] = value`. -/
inductive PyVal
  | iri (s : PStr)                 -- a NamedNode
  | bnode (id : Nat)
  | lit (value : PStr) (lang : Option PStr) (dt : Option PStr)
  | res (c : Nat) (subject : Term) -- a Resource, of this or of another graph
  | str (s : PStr)                 -- a `str` that is not a NamedNode
  | other (a : LitArg)             -- anything else
  
/-- The value as a whole: one value, or a set, frozenset, list or tuple of values. -/
inductive SetVal
  | one (v : PyVal)
  | many (vs : List PyVal)

/-- `objectify_value(graph, value, lang, datatype)`, rdf.py:588-597 -/
def objectify (o : Orders) (w : World) (g : Graph) (lang dt : Option PStr) : PyVal → World × Except Exc Val
  | .iri s => classify o w g 0 (.named s)
  | .bnode i => classify o w g 0 (.bnode i)
  | .lit v l d => (w, .ok (.lit v l d))
  | .res c s => (w, .ok (.res c s))
  | .str s => (w, .ok (.lit s lang dt))
  | .other a =>
    match mkLiteral a with
    | .error e => (w, .error e)
    | .ok (.lit v l d) => (w, .ok (.lit v l d))
    | .ok _ => (w, .error .typeError)    -- does not happen

/-- `==` between the values a frozenset of `literalize` can hold: Resources compare by subject (rdf.py:162-164), Literals as tuples. -/
def Val.same : Val → Val → Bool
  | .res _ s, .res _ s' => decide (s = s')
  | a, b => decide (a = b)

/-- `frozenset(...)`: of equal values the first is kept. -/
def frozen : List Val → List Val
  | [] => []
  | v :: vs => v :: (frozen vs).filter fun u => !v.same u

/-- What `literalize` returns. -/
inductive LVal
  | one (v : Val)
  | many (vs : List Val)
  deriving DecidableEq

def objectifyAll (o : Orders) (g : Graph) (lang dt : Option PStr) : World → List PyVal → World × Except Exc (List Val)
  | w, [] => (w, .ok [])
  | w, v :: vs =>
    match objectify o w g lang dt v with
    | (w, .error e) => (w, .error e)
    | (w, .ok x) =>
      match objectifyAll o g lang dt w vs with
      | (w, .error e) => (w, .error e)
      | (w, .ok xs) => (w, .ok (x :: xs))

/-- `literalize(graph, value, lang, datatype)`, rdf.py:574-585 -/
def literalize (o : Orders) (w : World) (g : Graph) (lang dt : Option PStr) : SetVal → World × Except Exc LVal
  | .one v =>
    match objectify o w g lang dt v with
    | (w, .error e) => (w, .error e)
    | (w, .ok x) => (w, .ok (.one x))
  | .many vs =>
    match objectifyAll o g lang dt w vs with
    | (w, .error e) => (w, .error e)
    | (w, .ok xs) => (w, .ok (.many (frozen xs)))

/-- One element of the loop of `check_objects`, rdf.py:606-615: is the element acceptable. -/
def checkElem (w : World) (lang dt : Option PStr) (rc : Option Nat) (v : Val) : Except Exc Bool :=
  let badLang : Bool := truthyStr lang && match v with
    | .lit _ l _ => !langMatch l lang
    | _ => true
  if badLang then .ok false
  else
    match (if truthyStr dt then match v with
        | .lit _ _ d => .ok (decide (d ≠ dt))
        | _ => .error .attributeError
      else .ok false : Except Exc Bool) with
    | .error e => .error e
    | .ok true => .ok false
    | .ok false => .ok (match rc with
      | some rc => v.isInst w rc
      | none => true)

def checkElems (w : World) (lang dt : Option PStr) (rc : Option Nat) : List Val → Except Exc Bool
  | [] => .ok true
  | v :: vs =>
    match checkElem w lang dt rc v with
    | .error e => .error e
    | .ok false => .ok false
    | .ok true => checkElems w lang dt rc vs

/-- `check_objects(graph, value, lang, datatype, rdf_class)`, rdf.py:600-622 (the truth value of the result). -/
def checkObjects (o : Orders) (w : World) (lang dt : Option PStr) (rc : Option Nat) : LVal → Except Exc Bool
  | .many vs => checkElems w lang dt rc (o.vals vs)
  | .one v =>
    match (if truthyStr lang then match v with
        | .lit _ l _ => .ok (langMatch l lang)
        | _ => .error .attributeError
      else .ok false : Except Exc Bool) with
    | .error e => .error e
    | .ok true => .ok true
    | .ok false =>
      match (if truthyStr dt then match v with
          | .lit _ _ d => .ok (decide (d = dt))
          | _ => .error .attributeError
        else .ok false : Except Exc Bool) with
      | .error e => .error e
      | .ok true => .ok true
      | .ok false => .ok (match rc with
        | some rc => v.isInst w rc
        | none => false)

/-- `_objects_for_implicit_set(predicate, value)`, rdf.py:491-509 -/
def objectsForImplicitSet (o : Orders) (w : World) (g : Graph) (r : Res) (pred : Option PStr) (v : LVal) :
    Except Exc (List Term) :=
  let p := predTerm pred
  match isScalar w r.c pred, v with
  | true, .many _ => .error .valueError
  | true, .one (.lit _ (some (l :: ls)) _) =>
    .ok (objectsByLang o g r.s p (some (l :: ls)) ++ objectsByDatatype o g r.s p none ++ nodesOf o g r.s p
      ++ bareLiterals o g r.s p)
  | _, _ => .ok (objectsOf o g r.s p)

/-- `_objects_for_explicit_set(...)`, rdf.py:511-533. The last case falls off the end of the function and returns None, which the caller
    then iterates: TypeError. -/
def objectsForExplicitSet (o : Orders) (w : World) (g : Graph) (r : Res) (sel : Sel) (v : LVal) :
    World × Except Exc (List Term) :=
  let p := predTerm sel.pred
  let scalar := isScalar w r.c sel.pred
  match checkObjects o w sel.lang sel.dt sel.cls v with
  | .error e => (w, .error e)
  | .ok false => (w, .error .valueError)
  | .ok true =>
    if truthyStr sel.lang && scalar then
      (w, .ok (objectsByLang o g r.s p sel.lang ++ objectsByDatatype o g r.s p none ++ nodesOf o g r.s p))
    else if truthyStr sel.lang then (w, .ok (objectsByLang o g r.s p sel.lang ++ nodesOf o g r.s p))
    else if scalar then (w, .ok (objectsOf o g r.s p))
    else if truthyStr sel.dt then (w, .ok (objectsByDatatype o g r.s p sel.dt ++ nodesOf o g r.s p))
    else
      match sel.cls with
      | some rc => objectsByType o w g r p (some rc)
      | none => (w, .error .typeError)

/-- The term that is stored for a value, rdf.py:323-333. -/
def Val.term : Val → Term
  | .none => .none
  | .lit v l d => .lit v l d
  | .res _ s => s

/-- The values that are stored, in storing order. -/
def LVal.vals (o : Orders) : LVal → List Val
  | .one v => [v]
  | .many vs => o.vals vs

/-- `Resource.__setitem__(key, value)`, rdf.py:289-335 -/
def setItem (o : Orders) (w : World) (g : Graph) (r : Res) (key : Key) (value : SetVal) :
    World × Graph × Except Exc Unit :=
  match interpretKey w r key with
  | .error e => (w, g, .error e)
  | .ok sel =>
    match literalize o w g sel.lang sel.dt value with
    | (w, .error e) => (w, g, .error e)
    | (w, .ok v) =>
      match (if key.isTuple then objectsForExplicitSet o w g r sel v
             else (w, objectsForImplicitSet o w g r sel.pred v)) with
      | (w, .error e) => (w, g, .error e)
      | (w, .ok objs) =>
        match removeObjs r.s (predTerm sel.pred) g objs with
        | (g, .error e) => (w, g, .error e)
        | (g, .ok ()) =>
          (w, (v.vals o).foldl (fun g x => g.add (mkTriple r.s (predTerm sel.pred) x.term)) g, .ok ())

/-! ### Whole resources -/

/-- `NamedNode(subject)` unless it is a NamedNode already, rdf.py:132-133. -/
def toNamed : Term → Term
  | .named i => .named i
  | t => .named t.str

/-- `cls.new(graph, subject)`, rdf.py:125-136. `fresh` is the identity of the BlankNode created on line 131. -/
def newRes (o : Orders) (w : World) (g : Graph) (c : Nat) (subject : Option Term) (fresh : Nat) :
    Graph × Except Exc Res :=
  let s := toNamed (subject.getD (.bnode fresh))
  let rec loop (g : Graph) : List Term → Graph × Except Exc Unit
    | [] => (g, .ok ())
    | t :: ts =>
      match rdfType w c with
      | .error e => (g, .error e)
      | .ok ty => loop (g.add (mkTriple s ty t)) ts
  match loop g (o.terms (w.rdfClasses c)) with
  | (g, .error e) => (g, .error e)
  | (g, .ok ()) => (g, .ok ⟨c, s⟩)

/-- `for triple in list(...): self.graph.remove(triple)`, rdf.py:140-141 -/
def removeStmts : Graph → List Stmt → Graph × Except Exc Unit
  | g, [] => (g, .ok ())
  | g, t :: ts =>
    match g.remove t with
    | (g, .error e) => (g, .error e)
    | (g, .ok ()) => removeStmts g ts

/-- `resource.erase()`, rdf.py:138-141 -/
def erase (o : Orders) (g : Graph) (r : Res) : Graph × Except Exc Unit :=
  removeStmts g (g.match o.stmts r.s .none .none)

/-- `resource.is_a()`, rdf.py:143-152 -/
def isA (o : Orders) (w : World) (g : Graph) (r : Res) : Except Exc Bool :=
  let rec loop : List Term → Except Exc Bool
    | [] => .ok true
    | t :: ts =>
      match rdfType w r.c with
      | .error e => .error e
      | .ok ty => if g.match o.stmts r.s ty t = [] then .ok false else loop ts
  loop (o.terms (w.rdfClasses r.c))

/-- The loop of `in_graph`, rdf.py:365-380. -/
def inGraphLoop (o : Orders) (g : Graph) (ty : Term) : List Term → List Term → List Term
  | subjects, [] => subjects
  | subjects, t :: ts =>
    let found := (g.match o.stmts .none ty t).map (·.s)
    inGraphLoop o g ty (if subjects = [] then pySet found else subjects.filter fun s => found.contains s) ts

/-- `cls.in_graph(graph)`, rdf.py:362-381; the subjects of the resulting set of Resources. -/
def inGraph (o : Orders) (w : World) (g : Graph) (c : Nat) : Except Exc (List Term) :=
  match o.terms (w.rdfClasses c) with
  | [] => .ok []
  | ts =>
    match rdfType w c with
    | .error e => .error e
    | .ok ty => .ok (inGraphLoop o g ty [] ts)

/-- `resource.copy(target)`, rdf.py:535-545. The first `graph.add` is given a plain tuple and raises. -/
def copyRes (o : Orders) (w : World) (g : Graph) (r : Res) (target : Term) : World × Graph × Except Exc Val :=
  match g.match o.stmts r.s .none .none with
  | t :: _ =>
    match g.addTuple target t.p t.o with
    | (g, .error e) => (w, g, .error e)
    | (g, .ok ()) => (w, g, .error .attributeError)   -- does not happen
  | [] =>
    match classify o w g r.c target with
    | (w, v) => (w, g, v)

/-! ### Equality and hashing -/

/-- Values that can be compared with a Resource. `iri` is a NamedNode or a `str`. -/
inductive EqVal
  | res (r : Res)
  | iri (s : PStr)
  | bnode (id : Nat)
  | lit (value : PStr) (lang : Option PStr) (dt : Option PStr)
  deriving DecidableEq

/-- `a == b`, rdf.py:162-167; where neither side implements the comparison, object identity. Two Resource objects are given by class
    and subject, not by identity; that does not matter because Resource implements the comparison. -/
def pyEq : EqVal → EqVal → Bool
  | .res a, .res b => decide (a.s = b.s)
  | .res a, .iri s => decide (a.s.str = s)
  | .iri s, .res a => decide (a.s.str = s)
  | .iri s, .iri s' => decide (s = s')
  | .bnode i, .bnode j => decide (i = j)
  | .lit v l d, .lit v' l' d' => decide (v = v' ∧ l = l' ∧ d = d')
  | _, _ => false

/-- `hash(x)`, given the hash functions for strings, objects and tuples; rdf.py:176-177 for Resources. -/
def pyHash (hs : PStr → Int) (hi : Nat → Int) (ht : PStr → Option PStr → Option PStr → Int) : EqVal → Int
  | .iri s => hs s
  | .bnode i => hi i
  | .lit v l d => ht v l d
  | .res ⟨_, .named s⟩ => hs s
  | .res ⟨_, .bnode i⟩ => hi i
  | .res ⟨_, .lit v l d⟩ => ht v l d
  | .res ⟨_, _⟩ => 0

/-! ### List -/

/-- State of the generator `List.__iter__`, rdf.py:559-566: about to test `current`, suspended at the `yield`, or finished. -/
inductive LIter
  | test (current : Res)
  | yielded (current : Res)
  | done
  deriving DecidableEq

/-- Outcome of `next`. -/
inductive LYield
  | item (v : Val)
  | stop
  | raise (e : Exc)
  deriving DecidableEq

/-- `current["rdf:first"]`: the value, if the key is a scalar (it is, in List and its subclasses). A non-scalar key gives a generator,
    which the model does not carry as a list element. -/
def getOne (o : Orders) (w : World) (g : Graph) (r : Res) (key : Key) : World × Except Exc Val :=
  match getItem o w g r key with
  | (w, .error e) => (w, .error e)
  | (w, .ok (.one v)) => (w, .ok v)
  | (w, .ok (.iter _)) => (w, .error .attributeError)

/-- The top of the loop, rdf.py:562-563: stop at rdf:nil, else yield the first element. `c` is the class of `self`. -/
def listTest (o : Orders) (w : World) (g : Graph) (c : Nat) (current : Res) : World × LIter × LYield :=
  match resolveKey w c (py! "rdf:nil") with
  | .error e => (w, .done, .raise e)
  | .ok nil =>
    if current.s = predTerm nil then (w, .done, .stop)
    else
      match getOne o w g current (.name (py! "rdf:first")) with
      | (w, .error e) => (w, .done, .raise e)
      | (w, .ok v) => (w, .yielded current, .item v)

/-- `next(it)`; after the yield, rdf.py:564-566: step to the rest. -/
def listNext (o : Orders) (w : World) (g : Graph) (c : Nat) : LIter → World × LIter × LYield
  | .done => (w, .done, .stop)
  | .test current => listTest o w g c current
  | .yielded current =>
    match getOne o w g current (.name (py! "rdf:rest")) with
    | (w, .error e) => (w, .done, .raise e)
    | (w, .ok (.res k s)) =>
      match resolveKey w c (py! "rdf:nil") with
      | .error e => (w, .done, .raise e)
      | .ok nil => listTest o w g c (if s = predTerm nil then ⟨k, s⟩ else ⟨c, s⟩)
    | (w, .ok _) => (w, .done, .raise .attributeError)   -- None and Literals have no `subject`

/-- The first `n` calls of `next`, up to the end: the items, and the outcome if the end was reached. -/
def listTake (o : Orders) (g : Graph) (c : Nat) : Nat → World → LIter → World × List Val × Option (Except Exc Unit)
  | 0, w, _ => (w, [], none)
  | n + 1, w, it =>
    match listNext o w g c it with
    | (w, _, .stop) => (w, [], some (.ok ()))
    | (w, _, .raise e) => (w, [], some (.error e))
    | (w, it, .item v) =>
      let r := listTake o g c n w it
      (r.1, v :: r.2.1, r.2.2)

/-- `List.is_list(node, graph)` on class `c`, rdf.py:568-571 -/
def isList (o : Orders) (w : World) (g : Graph) (c : Nat) (node : Term) : Except Exc Bool :=
  match resolveKey w c (py! "rdf:rest") with
  | .error e => .error e
  | .ok p => .ok (decide (g.match o.stmts node (predTerm p) .none ≠ []))

end Verif
