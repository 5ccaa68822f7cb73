import Verif.Model.Curie
/-
PrefixMap, TermMap, Profile and RDFEnvironment: src/pymantic/primitives.py:582-840.

Maps are mutable objects that profiles share, so they live on a heap and a Profile holds their addresses.
-/
namespace Verif

/-- A PrefixMap is an OrderedDict, primitives.py:582-641. -/
abbrev PrefixMap := Dict PStr PStr

namespace PrefixMap

/-- `PrefixMap.resolve`, primitives.py:616-620 -/
def resolve (m : PrefixMap) (curie : PStr) : Except Exc PStr := parseCurie curie m

/-- `PrefixMap.shrink`, primitives.py:622-627 -/
def shrink (m : PrefixMap) (iri : PStr) : PStr := toCurie iri m

/-- The loop of `addAll` without override, primitives.py:633-635 (and 682-684 in TermMap). -/
def addMissing (m : PrefixMap) (other : Dict PStr PStr) : PrefixMap :=
  other.foldl (fun acc kv => if Dict.has acc kv.1 then acc else Dict.set acc kv.1 kv.2) m

/-- `PrefixMap.addAll(other, override)`, primitives.py:629-636 -/
def addAll (m : PrefixMap) (other : Dict PStr PStr) (override : Bool) : PrefixMap :=
  if override then Dict.update m other else addMissing m other

/-- `PrefixMap.setDefault(iri)`, primitives.py:638-641 -/
def setDefault (m : PrefixMap) (iri : PStr) : PrefixMap := Dict.set m [] iri

end PrefixMap

/-- A TermMap is a dict with an optional attribute `default`, primitives.py:644-716. -/
structure TermMap where
  terms : Dict PStr PStr := []
  default : Option PStr := none
  deriving DecidableEq

namespace TermMap

/-- `TermMap.addAll(other, override)`, primitives.py:678-685; only the entries are copied, not the default. -/
def addAll (m : TermMap) (other : TermMap) (override : Bool) : TermMap :=
  { m with terms := PrefixMap.addAll m.terms other.terms override }

/-- `TermMap.resolve(term)`, primitives.py:687-700; `none` is Python None. -/
def resolve (m : TermMap) (term : PStr) : Option PStr :=
  match m.default with
  | some d => some ((m.terms.get? term).getD (d ++ term))
  | none => m.terms.get? term

/-- `TermMap.setDefault(iri)`, primitives.py:702-706 -/
def setDefault (m : TermMap) (iri : PStr) : TermMap := { m with default := some iri }

/-- `TermMap.shrink(iri)`, primitives.py:708-716 -/
def shrink (m : TermMap) (iri : PStr) : PStr :=
  match m.terms.find? fun kv => decide (kv.2 = iri) with
  | some kv => kv.1
  | none => iri

end TermMap

/-- The maps that exist, by object identity. `next` is above every address in use. -/
structure Heap where
  pmap : Nat → PrefixMap := fun _ => []
  tmap : Nat → TermMap := fun _ => {}
  next : Nat := 0

/-- A Profile (or RDFEnvironment) object: references to its two maps. -/
structure Profile where
  prefixes : Nat
  terms : Nat
  deriving DecidableEq

namespace Heap

def setP (h : Heap) (a : Nat) (m : PrefixMap) : Heap := { h with pmap := fun b => if b = a then m else h.pmap b }
def setT (h : Heap) (a : Nat) (m : TermMap) : Heap := { h with tmap := fun b => if b = a then m else h.tmap b }

/-- Allocate a PrefixMap with the given content. -/
def newP (h : Heap) (m : PrefixMap) : Heap × Nat := ({ h.setP h.next m with next := h.next + 1 }, h.next)

/-- Allocate a TermMap with the given content. -/
def newT (h : Heap) (m : TermMap) : Heap × Nat := ({ h.setT h.next m with next := h.next + 1 }, h.next)

/-- `prefixes or PrefixMap()`: the given map unless it is None or empty. -/
def orNewP (h : Heap) : Option Nat → Heap × Nat
  | some a => if h.pmap a = [] then h.newP [] else (h, a)
  | none => h.newP []

/-- `terms or TermMap()`: the given map unless it is None or has no entries (its default does not count). -/
def orNewT (h : Heap) : Option Nat → Heap × Nat
  | some a => if (h.tmap a).terms = [] then h.newT {} else (h, a)
  | none => h.newT {}

/-- The two bindings every Profile has, primitives.py:726-729. -/
def rdfNs : PStr := py! "http://www.w3.org/1999/02/22-rdf-syntax-ns#"
def xsdNs : PStr := py! "http://www.w3.org/2001/XMLSchema#"

def bindMissing (m : PrefixMap) (k v : PStr) : PrefixMap := if Dict.has m k then m else Dict.set m k v

/-- `Profile(prefixes, terms)`, primitives.py:723-729 -/
def newProfile (h : Heap) (prefixes terms : Option Nat) : Heap × Profile :=
  let r1 := h.orNewP prefixes
  let r2 := r1.1.orNewT terms
  let h := r2.1
  let a := r1.2
  let h := h.setP a (bindMissing (h.pmap a) (py! "rdf") rdfNs)
  let h := h.setP a (bindMissing (h.pmap a) (py! "xsd") xsdNs)
  (h, ⟨a, r2.2⟩)

/-- `Profile.resolve(toresolve)`, primitives.py:731-743; `.ok none` is Python None. -/
def resolve (h : Heap) (p : Profile) (s : PStr) : Except Exc (Option PStr) :=
  if s.contains 58 then ((h.pmap p.prefixes).resolve s).map some else .ok ((h.tmap p.terms).resolve s)

/-- The binding operations of Profile, primitives.py:745-776. -/
inductive Op
  | setDefaultVocabulary (iri : PStr)
  | setDefaultPrefix (iri : PStr)
  | setTerm (term iri : PStr)
  | setPrefix (pre iri : PStr)
  | importProfile (other : Profile) (override : Bool)

/-- One operation on a profile. -/
def exec (h : Heap) (p : Profile) : Op → Heap
  | .setDefaultVocabulary iri => h.setT p.terms ((h.tmap p.terms).setDefault iri)
  | .setDefaultPrefix iri => h.setP p.prefixes ((h.pmap p.prefixes).setDefault iri)
  | .setTerm t iri => h.setT p.terms { h.tmap p.terms with terms := Dict.set (h.tmap p.terms).terms t iri }
  | .setPrefix k iri => h.setP p.prefixes (Dict.set (h.pmap p.prefixes) k iri)
  | .importProfile q ov =>
    let h := h.setP p.prefixes ((h.pmap p.prefixes).addAll (h.pmap q.prefixes) ov)
    h.setT p.terms ((h.tmap p.terms).addAll (h.tmap q.terms) ov)

/-- `RDFEnvironment.createProfile(empty)`, primitives.py:814-818 -/
def createProfile (h : Heap) (env : Profile) (empty : Bool) : Heap × Profile :=
  if empty then h.newProfile none none else h.newProfile (some env.prefixes) (some env.terms)

/-- `RDFEnvironment.createTermMap(empty)`, primitives.py:820-824; `TermMap(terms)` copies the entries only. -/
def createTermMap (h : Heap) (env : Profile) (empty : Bool) : Heap × Nat :=
  if empty then h.newT {} else h.newT { terms := (h.tmap env.terms).terms }

/-- `RDFEnvironment.createPrefixMap(empty)`, primitives.py:826-830 -/
def createPrefixMap (h : Heap) (env : Profile) (empty : Bool) : Heap × Nat :=
  if empty then h.newP [] else h.newP (h.pmap env.prefixes)

end Heap

end Verif
