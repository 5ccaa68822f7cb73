import Verif.Model.TurtleSer
/-
The Turtle writer with its writes: src/pymantic/serializers.py:118-169. `serializeTurtle` (Model/TurtleSer.lean) is what is written if
nothing is raised; here every `f.write` is a step, so that what has reached `f` when something is raised is known as well.
Simplification: `f.write` itself does not fail, and nothing is lost in a buffer.
-/
namespace Verif.Turtle

/-- What was written, and the result or the exception. -/
abbrev Out (α : Type) := PStr × Except Exc α

/-- One statement after another: what follows an exception is not executed. -/
def Out.andThen {α β : Type} (x : Out α) (k : α → Out β) : Out β :=
  match x.2 with
  | .error e => (x.1, .error e)
  | .ok a => (x.1 ++ (k a).1, (k a).2)

/-- `f.write(s)` -/
def put (s : PStr) : Out Unit := (s, .ok ())

/-- A computation that writes nothing. -/
def quiet {α : Type} (r : Except Exc α) : Out α := ([], r)

/-- `f.write(name_maker(o))` for an item of a List. -/
def putItem (cx : SerCtx) (nm : Names) (v : Val) : Out Names :=
  (quiet (itemName cx nm v)).andThen fun x => (put x.2).andThen fun _ => quiet (.ok x.1)

/-- The loop over the items of a List, serializers.py:161-164. -/
def putItems (cx : SerCtx) : Bool → Names → List Val → Option (Except Exc Unit) → Out Names
  | _, nm, [], some (.ok ()) => quiet (.ok nm)
  | _, _, [], some (.error e) => quiet (.error e)
  | _, _, [], none => quiet (.error .outOfFuel)
  | first, nm, v :: vs, fin =>
    (put (if first then [] else [32])).andThen fun _ => (putItem cx nm v).andThen fun nm => putItems cx false nm vs fin

/-- One object of a triple, serializers.py:159-167. -/
def putObj (o : Orders) (c fuel : Nat) (g : Graph) (cx : SerCtx) (st : SerSt) (obj : Term) : Out SerSt :=
  (quiet (isList o st.w g c obj)).andThen fun b =>
    if b then
      let r := listTake o g c fuel st.w (.test ⟨c, asSubject obj⟩)
      (put [40]).andThen fun _ => (putItems cx true st.nm r.2.1 r.2.2).andThen fun nm => (put [41]).andThen fun _ => quiet (.ok ⟨r.1, nm⟩)
    else (quiet (name cx st.nm obj)).andThen fun x => (put x.2).andThen fun _ => quiet (.ok ⟨st.w, x.1⟩)

/-- The objects of one subject and predicate, serializers.py:154-167. -/
def putObjs (o : Orders) (c fuel : Nat) (g : Graph) (cx : SerCtx) (indent : Nat) : Bool → SerSt → List Stmt → Out SerSt
  | _, st, [] => quiet (.ok st)
  | first, st, t :: ts =>
    (put (if first then [] else [44, 10] ++ spaces indent)).andThen fun _ =>
      (putObj o c fuel g cx st t.o).andThen fun st => putObjs o c fuel g cx indent false st ts

/-- The predicates of one subject, serializers.py:149-168. -/
def putPreds (o : Orders) (c fuel : Nat) (g : Graph) (cx : SerCtx) (s : Term) (indent : Nat) : Bool → SerSt → List (PStr × Term) → Out SerSt
  | _, st, [] => quiet (.ok st)
  | first, st, (pname, p) :: ps =>
    (put (if first then [] else spaces indent)).andThen fun _ => (put (pname ++ [32])).andThen fun _ =>
      (putObjs o c fuel g cx (indent + pname.length + 1) true st (g.match o.stmts s p .none)).andThen fun st =>
        (put [32, 59, 10]).andThen fun _ => putPreds o c fuel g cx s indent false st ps

/-- One subject, serializers.py:144-169. -/
def putSubj (o : Orders) (c fuel : Nat) (g : Graph) (cx : SerCtx) (st : SerSt) (sname : PStr) (s : Term) : Out SerSt :=
  (put (sname ++ [32])).andThen fun _ =>
    (quiet (sortedNames cx st.nm (o.terms (pySet ((g.match o.stmts s .none .none).map (·.p)))))).andThen fun x =>
      (putPreds o c fuel g cx s (sname.length + 1) true ⟨st.w, x.1⟩ x.2).andThen fun st =>
        (put (spaces (sname.length + 1) ++ [46, 10, 10])).andThen fun _ => quiet (.ok st)

/-- The loop over the subjects, serializers.py:144-169. -/
def putSubjs (o : Orders) (c fuel : Nat) (g : Graph) (cx : SerCtx) : SerSt → List (PStr × Term) → Out SerSt
  | st, [] => quiet (.ok st)
  | st, (sname, s) :: ss => (putSubj o c fuel g cx st sname s).andThen fun st => putSubjs o c fuel g cx st ss

/-- `serialize_turtle(graph, f, base, profile, bnode_name_generator)`, serializers.py:118-169: what is in `f` afterwards, and whether it raised. -/
def writeTurtle (o : Orders) (w : World) (fuel : Nat) (g : Graph) (base : Option PStr := none) (profile : Option PrefixMap := none)
    (namer : Namer := defaultNamer) : Out Unit :=
  let prefixes := profile.getD defaultPrefixes
  let cx : SerCtx := ⟨prefixes, base, namer⟩
  (put (header base prefixes)).andThen fun _ => (quiet (plainSubjects o w listC g g.subjects)).andThen fun subjects =>
    (quiet (sortedNames cx {} subjects)).andThen fun x => (putSubjs o listC fuel g cx ⟨w, x.1⟩ x.2).andThen fun _ => quiet (.ok ())

#guard writeTurtle {} World.new 9 (Graph.new.add (mkTriple (.named (py! "x:s")) (.named (py! "x:p")) (.bnode 1))) =
  (py! "@prefix xsd: <http://www.w3.org/2001/XMLSchema#> .\n<x:s> <x:p> ", .error .attributeError)

end Verif.Turtle
