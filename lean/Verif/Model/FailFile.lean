import Verif.Model.TurtleOut
/-
The writers with a file whose `write` may fail: src/pymantic/serializers.py:34-43, 117-169. The other models of the writers take `f.write` to succeed.
A file is any type of states with a function `write`; nothing is assumed about it here.
Simplification: `Exc` has no OSError; what `write` raises is any exception of `Exc`, none of which the writers treat in a special way (they catch nothing).
-/
namespace Verif

/-- The object `f` given to a writer: what `f.write(text)` does to it, and what can be found in it afterwards. -/
structure File (σ : Type) where
  write : σ → PStr → σ × Except Exc Unit
  content : σ → PStr

/-- Code that uses a file: the state of the file afterwards, and the result or the exception. -/
abbrev Uses (σ α : Type) := σ → σ × Except Exc α

namespace Uses
variable {σ α β : Type}

/-- One statement after another: what follows an exception is not executed. -/
def andThen (x : Uses σ α) (k : α → Uses σ β) : Uses σ β := fun s =>
  match x s with
  | (s, .error e) => (s, .error e)
  | (s, .ok a) => k a s

/-- A computation that does not touch the file. -/
def quiet (r : Except Exc α) : Uses σ α := fun s => (s, r)

end Uses

variable {σ : Type}

/-- `f.write(text)` -/
def File.put (f : File σ) (text : PStr) : Uses σ Unit := fun s => f.write s text

/-- `if b: f.write(text)` -/
def File.putIf (f : File σ) (b : Bool) (text : PStr) : Uses σ Unit := if b then f.put text else .quiet (.ok ())

/-- `serialize_ntriples(graph, f)`, serializers.py:34-37, on the triples in the order the graph yields them. -/
def File.ntriples (f : File σ) : List Stmt → Uses σ Unit
  | [] => .quiet (.ok ())
  | t :: ts => (Uses.quiet (tripleStr t)).andThen fun line => (f.put line).andThen fun _ => f.ntriples ts

/-- `serialize_nquads(dataset, f)`, serializers.py:40-43 -/
def File.nquads (f : File σ) : List Stmt → Uses σ Unit
  | [] => .quiet (.ok ())
  | q :: qs => (f.put (quadStr q)).andThen fun _ => f.nquads qs

namespace Turtle

/-- The prefixes, serializers.py:130-132. -/
def filePrefixes (f : File σ) : PrefixMap → Uses σ Unit
  | [] => .quiet (.ok ())
  | e :: es => (f.putIf (decide (e.1 ≠ py! "rdf")) (py! "@prefix " ++ e.1 ++ py! ": <" ++ e.2 ++ py! "> .\n")).andThen fun _ => filePrefixes f es

/-- The directives, serializers.py:124-132. -/
def fileHeader (f : File σ) (base : Option PStr) (prefixes : PrefixMap) : Uses σ Unit :=
  (match base with
   | none => Uses.quiet (.ok ())
   | some b => f.put (py! "@base <" ++ b ++ py! "> .\n")).andThen fun _ => filePrefixes f prefixes

/-- The loop over the items of a List, serializers.py:161-164, given what the iterator yields and how it ends. -/
def fileItems (f : File σ) (cx : SerCtx) : Bool → Names → List Val → Option (Except Exc Unit) → Uses σ Names
  | _, nm, [], some (.ok ()) => .quiet (.ok nm)
  | _, _, [], some (.error e) => .quiet (.error e)
  | _, _, [], none => .quiet (.error .outOfFuel)
  | first, nm, v :: vs, fin =>
    (f.putIf (!first) [32]).andThen fun _ => (Uses.quiet (itemName cx nm v)).andThen fun x => (f.put x.2).andThen fun _ => fileItems f cx false x.1 vs fin

/-- One object of a triple, serializers.py:159-167. -/
def fileObj (f : File σ) (o : Orders) (c fuel : Nat) (g : Graph) (cx : SerCtx) (st : SerSt) (obj : Term) : Uses σ SerSt :=
  (Uses.quiet (isList o st.w g c obj)).andThen fun b =>
    if b then
      let r := listTake o g c fuel st.w (.test ⟨c, asSubject obj⟩)
      (f.put [40]).andThen fun _ => (fileItems f cx true st.nm r.2.1 r.2.2).andThen fun nm => (f.put [41]).andThen fun _ => .quiet (.ok ⟨r.1, nm⟩)
    else (Uses.quiet (name cx st.nm obj)).andThen fun x => (f.put x.2).andThen fun _ => .quiet (.ok ⟨st.w, x.1⟩)

/-- The objects of one subject and predicate, serializers.py:154-167. -/
def fileObjs (f : File σ) (o : Orders) (c fuel : Nat) (g : Graph) (cx : SerCtx) (indent : Nat) : Bool → SerSt → List Stmt → Uses σ SerSt
  | _, st, [] => .quiet (.ok st)
  | first, st, t :: ts =>
    (f.putIf (!first) ([44, 10] ++ spaces indent)).andThen fun _ =>
      (fileObj f o c fuel g cx st t.o).andThen fun st => fileObjs f o c fuel g cx indent false st ts

/-- The predicates of one subject, serializers.py:149-168. -/
def filePreds (f : File σ) (o : Orders) (c fuel : Nat) (g : Graph) (cx : SerCtx) (s : Term) (indent : Nat) : Bool → SerSt → List (PStr × Term) → Uses σ SerSt
  | _, st, [] => .quiet (.ok st)
  | first, st, (pname, p) :: ps =>
    (f.putIf (!first) (spaces indent)).andThen fun _ => (f.put (pname ++ [32])).andThen fun _ =>
      (fileObjs f o c fuel g cx (indent + pname.length + 1) true st (g.match o.stmts s p .none)).andThen fun st =>
        (f.put [32, 59, 10]).andThen fun _ => filePreds f o c fuel g cx s indent false st ps

/-- One subject, serializers.py:144-169. -/
def fileSubj (f : File σ) (o : Orders) (c fuel : Nat) (g : Graph) (cx : SerCtx) (st : SerSt) (sname : PStr) (s : Term) : Uses σ SerSt :=
  (f.put (sname ++ [32])).andThen fun _ =>
    (Uses.quiet (sortedNames cx st.nm (o.terms (pySet ((g.match o.stmts s .none .none).map (·.p)))))).andThen fun x =>
      (filePreds f o c fuel g cx s (sname.length + 1) true ⟨st.w, x.1⟩ x.2).andThen fun st =>
        (f.put (spaces (sname.length + 1) ++ [46, 10, 10])).andThen fun _ => .quiet (.ok st)

/-- The loop over the subjects, serializers.py:144-169. -/
def fileSubjs (f : File σ) (o : Orders) (c fuel : Nat) (g : Graph) (cx : SerCtx) : SerSt → List (PStr × Term) → Uses σ SerSt
  | st, [] => .quiet (.ok st)
  | st, (sname, s) :: ss => (fileSubj f o c fuel g cx st sname s).andThen fun st => fileSubjs f o c fuel g cx st ss

/-- `serialize_turtle(graph, f, base, profile, bnode_name_generator)`, serializers.py:117-169. -/
def fileTurtle (f : File σ) (o : Orders) (w : World) (fuel : Nat) (g : Graph) (base : Option PStr := none) (profile : Option PrefixMap := none)
    (namer : Namer := defaultNamer) : Uses σ Unit :=
  let prefixes := profile.getD defaultPrefixes
  let cx : SerCtx := ⟨prefixes, base, namer⟩
  (fileHeader f base prefixes).andThen fun _ => (Uses.quiet (plainSubjects o w listC g g.subjects)).andThen fun subjects =>
    (Uses.quiet (sortedNames cx {} subjects)).andThen fun x => (fileSubjs f o listC fuel g cx ⟨w, x.1⟩ x.2).andThen fun _ => .quiet (.ok ())

end Turtle
end Verif
