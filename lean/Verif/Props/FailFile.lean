import Verif.Model.FailFile
import Verif.Props.CutFile
import Verif.Props.CutTurtle
/-
C168: a write that fails is reported, and leaves a beginning of what was to be written.
-/
namespace Verif
open Spec

namespace Spec

/-- A file as one expects it: `write` appends a part of the text from its beginning, and if it raises nothing, all of it. -/
def Honest {σ : Type} (f : File σ) : Prop :=
  ∀ s t, ∃ p, p <+: t ∧ f.content (f.write s t).1 = f.content s ++ p ∧ ((f.write s t).2 = .ok () → p = t)

/-- An exception that `write` raises for some text, the file being in some state. -/
def Raises {σ : Type} (f : File σ) (e : Exc) : Prop := ∃ s t, (f.write s t).2 = .error e

/-- What may become of a file into which `text` is to be written, and then `r` is the outcome: all of it is there and the outcome is `r`; or a beginning of it is, and an exception of `write`
    reached the caller. -/
def FileWrote {σ : Type} (f : File σ) (s : σ) (text : PStr) (r : Except Exc Unit) (s' : σ) (r' : Except Exc Unit) : Prop :=
  (f.content s' = f.content s ++ text ∧ r' = r) ∨ ∃ p e, p <+: text ∧ f.content s' = f.content s ++ p ∧ r' = .error e ∧ Raises f e

end Spec

variable {σ α β : Type} {f : File σ}

/-- Code that uses a file, beside the same code with a file that never fails. -/
def Tracks (f : File σ) (x : Uses σ α) (y : PStr × Except Exc α) : Prop :=
  ∀ s, (f.content (x s).1 = f.content s ++ y.1 ∧ (x s).2 = y.2) ∨ ∃ p e, p <+: y.1 ∧ f.content (x s).1 = f.content s ++ p ∧ (x s).2 = .error e ∧ Raises f e

theorem Tracks.quiet (r : Except Exc α) : Tracks f (Uses.quiet r) ([], r) := fun s => .inl ⟨by simp [Uses.quiet], rfl⟩

theorem Tracks.put (hf : Honest f) (t : PStr) : Tracks f (f.put t) (t, .ok ()) := by
  intro s
  obtain ⟨p, hp, hc, ho⟩ := hf s t
  cases h : (f.write s t).2 with
  | ok u => left; exact ⟨by show f.content (f.write s t).1 = _; rw [hc, ho h], h⟩
  | error e => right; exact ⟨p, e, hp, hc, h, s, t, h⟩

theorem Tracks.putIf (hf : Honest f) (b : Bool) (t : PStr) : Tracks f (f.putIf b t) (if b then t else [], .ok ()) := by
  cases b
  · exact Tracks.quiet _
  · exact Tracks.put hf t

/-- What has been written by two pieces of code, one after the other. -/
def thenOut (y : PStr × Except Exc α) (l : α → PStr × Except Exc β) : PStr × Except Exc β :=
  match y.2 with
  | .error e => (y.1, .error e)
  | .ok a => (y.1 ++ (l a).1, (l a).2)

theorem Tracks.andThen {x : Uses σ α} {y : PStr × Except Exc α} {k : α → Uses σ β} {l : α → PStr × Except Exc β} (h : Tracks f x y) (hk : ∀ a, Tracks f (k a) (l a)) :
    Tracks f (x.andThen k) (thenOut y l) := by
  intro s
  unfold Uses.andThen thenOut
  obtain ⟨t, r⟩ := y
  have h := h s
  generalize x s = z at h
  obtain ⟨s1, r1⟩ := z
  dsimp only at h ⊢
  rcases h with ⟨hc, rfl⟩ | ⟨p, e, hp, hc, rfl, hr⟩
  · cases r1 with
    | error e => exact .inl ⟨hc, rfl⟩
    | ok a =>
      dsimp only
      rcases hk a s1 with ⟨hc', hr'⟩ | ⟨p, e, hp, hc', he, hr'⟩
      · exact .inl ⟨by rw [hc', hc, List.append_assoc], hr'⟩
      · exact .inr ⟨t ++ p, e, (List.prefix_append_right_inj t).2 hp, by rw [hc', hc, List.append_assoc], he, hr'⟩
  · cases r with
    | error e' => exact .inr ⟨p, e, hp, hc, rfl, hr⟩
    | ok a => exact .inr ⟨p, e, hp.trans (List.prefix_append _ _), hc, rfl, hr⟩

theorem follows_ntriples (hf : Honest f) : ∀ ts : List Stmt, Tracks f (f.ntriples ts) (serializeNTriples ts)
  | [] => .quiet _
  | t :: ts => by
    have := Tracks.andThen (Tracks.quiet (f := f) (tripleStr t)) fun line => (Tracks.put hf line).andThen fun _ => follows_ntriples hf ts
    have e : thenOut (([] : PStr), tripleStr t) (fun line => thenOut (line, .ok ()) fun _ => serializeNTriples ts) = serializeNTriples (t :: ts) := by
      rw [serializeNTriples]
      cases tripleStr t <;> rfl
    rw [e] at this
    exact this

theorem follows_nquads (hf : Honest f) : ∀ qs : List Stmt, Tracks f (f.nquads qs) (serializeNQuads qs, .ok ())
  | [] => .quiet _
  | q :: qs => by
    have := (Tracks.put hf (quadStr q)).andThen fun _ => follows_nquads hf qs
    exact this

namespace Turtle

theorem out_then {α β : Type} (x : Out α) (k : α → Out β) : x.andThen k = thenOut x k := rfl

theorem follows_prefixes (hf : Honest f) : ∀ m : PrefixMap, Tracks f (filePrefixes f m) (header none m, .ok ())
  | [] => .quiet _
  | e :: m => by
    have := (Tracks.putIf hf (decide (e.1 ≠ py! "rdf")) (py! "@prefix " ++ e.1 ++ py! ": <" ++ e.2 ++ py! "> .\n")).andThen fun _ => follows_prefixes hf m
    have e : thenOut ((if decide (e.1 ≠ py! "rdf") = true then py! "@prefix " ++ e.1 ++ py! ": <" ++ e.2 ++ py! "> .\n" else [], .ok ()) : PStr × Except Exc Unit)
        (fun _ => (header none m, (.ok () : Except Exc Unit))) = (header none (e :: m), .ok ()) := by
      simp [thenOut, header, List.flatMap_cons]
    rw [e] at this
    exact this

theorem follows_header (hf : Honest f) (base : Option PStr) (m : PrefixMap) : Tracks f (fileHeader f base m) (put (header base m)) := by
  cases base with
  | none => exact (Tracks.quiet (f := f) (.ok ())).andThen fun _ => follows_prefixes hf m
  | some b => exact (Tracks.put hf (py! "@base <" ++ b ++ py! "> .\n")).andThen fun _ => follows_prefixes hf m

theorem thenOut_assoc {α β γ : Type} (y : PStr × Except Exc α) (l : α → PStr × Except Exc β) (m : β → PStr × Except Exc γ) :
    thenOut (thenOut y l) m = thenOut y fun a => thenOut (l a) m := by
  obtain ⟨t, r⟩ := y
  cases r with
  | error e => rfl
  | ok a =>
    simp only [thenOut]
    cases (l a).2 <;> simp

theorem follows_items (hf : Honest f) (cx : SerCtx) : ∀ (vs : List Val) (first : Bool) (nm : Names) (fin : Option (Except Exc Unit)),
    Tracks f (fileItems f cx first nm vs fin) (putItems cx first nm vs fin)
  | [], _, _, some (.ok ()) => .quiet _
  | [], _, _, some (.error _) => .quiet _
  | [], _, _, none => .quiet _
  | v :: vs, first, nm, fin => by
    have h := (Tracks.putIf hf (!first) [32]).andThen fun _ => (Tracks.quiet (f := f) (itemName cx nm v)).andThen fun x => (Tracks.put hf x.2).andThen fun _ =>
      follows_items hf cx vs false x.1 fin
    have e : thenOut ((if (!first) = true then [32] else [], .ok ()) : PStr × Except Exc Unit) (fun _ => thenOut (([] : PStr), itemName cx nm v) fun x =>
        thenOut (x.2, (.ok () : Except Exc Unit)) fun _ => putItems cx false x.1 vs fin) = putItems cx first nm (v :: vs) fin := by
      have ep : putItems cx first nm (v :: vs) fin = (put (if first then [] else [32])).andThen fun _ => (putItem cx nm v).andThen fun nm => putItems cx false nm vs fin := by rw [putItems]
      rw [ep]; unfold putItem
      simp only [out_then, thenOut_assoc]
      cases first <;> cases itemName cx nm v <;> simp [thenOut, put, quiet]
    rw [e] at h
    exact h

theorem follows_obj (hf : Honest f) (o : Orders) (c fuel : Nat) (g : Graph) (cx : SerCtx) (st : SerSt) (obj : Term) :
    Tracks f (fileObj f o c fuel g cx st obj) (putObj o c fuel g cx st obj) := by
  refine (Tracks.quiet (f := f) (isList o st.w g c obj)).andThen fun b => ?_
  cases b
  · exact (Tracks.quiet (f := f) _).andThen fun x => (Tracks.put hf x.2).andThen fun _ => .quiet _
  · exact (Tracks.put hf [40]).andThen fun _ => (follows_items hf cx _ true _ _).andThen fun nm => (Tracks.put hf [41]).andThen fun _ => .quiet _

theorem putIf_not (first : Bool) (t : PStr) : (if (!first) = true then t else []) = (if first = true then [] else t) := by cases first <;> rfl

theorem follows_objs (hf : Honest f) (o : Orders) (c fuel : Nat) (g : Graph) (cx : SerCtx) (indent : Nat) : ∀ (ts : List Stmt) (first : Bool) (st : SerSt),
    Tracks f (fileObjs f o c fuel g cx indent first st ts) (putObjs o c fuel g cx indent first st ts)
  | [], _, _ => .quiet _
  | t :: ts, first, st => by
    have h := (Tracks.putIf hf (!first) ([44, 10] ++ spaces indent)).andThen fun _ =>
      (follows_obj hf o c fuel g cx st t.o).andThen fun st => follows_objs hf o c fuel g cx indent ts false st
    rw [putIf_not] at h
    exact h

theorem follows_preds (hf : Honest f) (o : Orders) (c fuel : Nat) (g : Graph) (cx : SerCtx) (s : Term) (indent : Nat) : ∀ (ps : List (PStr × Term)) (first : Bool) (st : SerSt),
    Tracks f (filePreds f o c fuel g cx s indent first st ps) (putPreds o c fuel g cx s indent first st ps)
  | [], _, _ => .quiet _
  | (pname, p) :: ps, first, st => by
    have h := (Tracks.putIf hf (!first) (spaces indent)).andThen fun _ => (Tracks.put hf (pname ++ [32])).andThen fun _ =>
      (follows_objs hf o c fuel g cx (indent + pname.length + 1) (g.match o.stmts s p .none) true st).andThen fun st =>
        (Tracks.put hf [32, 59, 10]).andThen fun _ => follows_preds hf o c fuel g cx s indent ps false st
    rw [putIf_not] at h
    exact h

theorem follows_subj (hf : Honest f) (o : Orders) (c fuel : Nat) (g : Graph) (cx : SerCtx) (st : SerSt) (sname : PStr) (s : Term) :
    Tracks f (fileSubj f o c fuel g cx st sname s) (putSubj o c fuel g cx st sname s) :=
  (Tracks.put hf _).andThen fun _ => (Tracks.quiet _).andThen fun _ => (follows_preds hf o c fuel g cx s _ _ true _).andThen fun _ => (Tracks.put hf _).andThen fun _ => .quiet _

theorem follows_subjs (hf : Honest f) (o : Orders) (c fuel : Nat) (g : Graph) (cx : SerCtx) : ∀ (ss : List (PStr × Term)) (st : SerSt),
    Tracks f (fileSubjs f o c fuel g cx st ss) (putSubjs o c fuel g cx st ss)
  | [], _ => .quiet _
  | (sname, s) :: ss, st => (follows_subj hf o c fuel g cx st sname s).andThen fun st => follows_subjs hf o c fuel g cx ss st

theorem follows_turtle (hf : Honest f) (o : Orders) (w : World) (fuel : Nat) (g : Graph) (base : Option PStr) (profile : Option PrefixMap) (namer : Namer) :
    Tracks f (fileTurtle f o w fuel g base profile namer) (writeTurtle o w fuel g base profile namer) :=
  (follows_header hf base _).andThen fun _ => (Tracks.quiet _).andThen fun _ => (Tracks.quiet _).andThen fun _ => (follows_subjs hf o listC fuel g _ _ _).andThen fun _ => .quiet _

end Turtle

/-! ### C168 -/

/-- **`serialize_ntriples`**: all of the text is in the file and the outcome is that of the writer; or an exception of `write` reached the caller, and a beginning of the text is in the file. -/
theorem C168_ntriples (hf : Honest f) (ts : List Stmt) (s : σ) : FileWrote f s (serializeNTriples ts).1 (serializeNTriples ts).2 (f.ntriples ts s).1 (f.ntriples ts s).2 :=
  follows_ntriples hf ts s

/-- **`serialize_nquads`**. -/
theorem C168_nquads (hf : Honest f) (qs : List Stmt) (s : σ) : FileWrote f s (serializeNQuads qs) (.ok ()) (f.nquads qs s).1 (f.nquads qs s).2 :=
  follows_nquads hf qs s

/-- **`serialize_turtle`**, with any base, profile and names. -/
theorem C168_turtle (hf : Honest f) (o : Orders) (w : World) (fuel : Nat) (g : Graph) (base : Option PStr) (profile : Option PrefixMap) (namer : Turtle.Namer) (s : σ) :
    FileWrote f s (Turtle.writeTurtle o w fuel g base profile namer).1 (Turtle.writeTurtle o w fuel g base profile namer).2
      (Turtle.fileTurtle f o w fuel g base profile namer s).1 (Turtle.fileTurtle f o w fuel g base profile namer s).2 :=
  Turtle.follows_turtle hf o w fuel g base profile namer s

/-- **No loss without an exception**: if a writer returns, everything is in the file, behind what was there. -/
theorem C168_complete {s s' : σ} {text : PStr} {r : Except Exc Unit} (h : FileWrote f s text r s' (.ok ())) : f.content s' = f.content s ++ text ∧ r = .ok () := by
  rcases h with ⟨h1, h2⟩ | ⟨_, _, _, _, h, _⟩
  · exact ⟨h1, h2.symm⟩
  · cases h

/-- **What a failed `serialize_ntriples` leaves in a new file**, when it is read: an error, and nothing is added; or exactly the first of the triples, up to the names of blank nodes. -/
theorem C168_read (hf : Honest f) (g : Graph) (ord : List Stmt → List Stmt) (hord : IsOrder ord) (h : ∀ t ∈ g.triples, t.IsRdf ∧ t.Readable) (next : Nat) {s : σ} (hs : f.content s = []) :
    (∃ e, parseString Graph.add false next (f.content (f.ntriples (g.iter ord) s).1) Graph.new = (Graph.new, next, .error e)) ∨
    ∃ k g' next' n, parseString Graph.add false next (f.content (f.ntriples (g.iter ord) s).1) Graph.new = (g', next', .ok ()) ∧
      (∀ t ∈ (g.iter ord).take k, ∀ t' ∈ (g.iter ord).take k, ∀ i j, t.HasBnode i → t'.HasBnode j → n i = n j → i = j) ∧
      ∀ x, x ∈ g'.triples ↔ ∃ t ∈ (g.iter ord).take k, x = t.survive n := by
  apply C166_written g ord hord h next
  rcases C168_ntriples hf (g.iter ord) s with ⟨hc, _⟩ | ⟨p, e, hp, hc, _⟩
  · rw [hc, hs]; exact List.prefix_rfl
  · rw [hc, hs]; exact hp

/-! ### A disk that runs full -/

/-- A file on a disk with room for so many characters in all: what fits is stored, and if not all fits, `write` raises. -/
def disk (n : Nat) : File PStr where
  write s t := (s ++ t.take (n - s.length), if s.length + t.length ≤ n then .ok () else .error .plainException)
  content := id

theorem disk_honest (n : Nat) : Honest (disk n) := fun s t =>
  ⟨t.take (n - s.length), List.take_prefix _ _, rfl, fun h => by
    have : s.length + t.length ≤ n := by
      by_cases hl : s.length + t.length ≤ n
      · exact hl
      · simp [disk, hl] at h
    exact List.take_of_length_le (by omega)⟩

/-- Non-vacuity: a disk with room for one of two triples and a part of the other; and one with room for both. -/
example : (disk 30).ntriples [mkTriple (.named (py! "x:s")) (.named (py! "x:p")) (.named (py! "x:o")), mkTriple (.named (py! "x:s")) (.named (py! "x:p")) (.named (py! "x:q"))] [] =
      (py! "<x:s> <x:p> <x:o> .\n<x:s> <x:p", .error .plainException) ∧
    (disk 40).ntriples [mkTriple (.named (py! "x:s")) (.named (py! "x:p")) (.named (py! "x:o")), mkTriple (.named (py! "x:s")) (.named (py! "x:p")) (.named (py! "x:q"))] [] =
      (py! "<x:s> <x:p> <x:o> .\n<x:s> <x:p> <x:q> .\n", .ok ()) := by decide

set_option maxRecDepth 8000 in
/-- **Turtle is different**: what a failed `serialize_turtle` leaves can be read as something else. The price 1.5 on a disk that is full after "1.", and the price that is read. -/
theorem C168_turtle_read : ∃ n s e, Turtle.fileTurtle (disk n) {} World.new 0 Turtle.priceGraph none none Turtle.defaultNamer [] = (s, .error e) ∧
    Turtle.parse Graph.add (fun _ => true) [] 0 Graph.new (.str s) =
      (Graph.new.add (mkTriple (.named (py! "x:s")) (.named (py! "x:p")) (.lit (py! "1") none (some (Heap.xsdNs ++ py! "integer")))), 0, .ok ()) :=
  ⟨65, py! "@prefix xsd: <http://www.w3.org/2001/XMLSchema#> .\n<x:s> <x:p> 1.", .plainException, rfl, rfl⟩

end Verif
