import Verif.Props.TurtleRound
import Verif.Props.NTriples
/-
C154: texts in a graph that become statements when the graph is written and read. C155: saving as Turtle a second time.
-/
namespace Verif.Turtle
open Verif.Turtle.Spec

/-! ### C154 -/

/-- Full statement of C154: whatever the texts of its IRIs and literals, a graph that is written, as Turtle or N-Triples, and read has no triples that it did not have. (The subjects, predicates and
    datatypes may be changed, as C37 and C62 say; it is enough that there is a triple in the graph for each that is read, and not more are read than the graph has.) -/
def C154_statement : Prop := ∀ (u : Term) (ops : List Verif.Spec.GOp), (∀ t ∈ everAdded ops, Ground t) →
  (∀ (o : Orders) (fuel : Nat) (text : PStr), Orders.OK o → serializeTurtle o World.new fuel (Graph.run u ops) = .ok text →
    ∀ nl n n' ts, parseText nl [] n text = .ok (n', ts) → ts.length ≤ (Verif.Spec.runSet ops).card) ∧
  ∀ (ord : List Stmt → List Stmt) (text : PStr), Verif.Spec.IsOrder ord → serializeNTriples ((Graph.run u ops).iter ord) = (text, .ok ()) →
    ∀ n g' n', parseString Graph.add false n text Graph.new = (g', n', .ok ()) → g'.triples.length ≤ (Verif.Spec.runSet ops).card

/-- A string with a quote. -/
def injString : List Verif.Spec.GOp := [.add ⟨.named (py! "x:s"), .named (py! "x:p"), .lit (py! "v\" . <x:a> <x:b> \"c") none none⟩]

theorem injString_text : serializeTurtle {} World.new 0 (Graph.run .none injString) =
    .ok (py! "@prefix xsd: <http://www.w3.org/2001/XMLSchema#> .\n<x:s> <x:p> \"v\" . <x:a> <x:b> \"c\" ;\n      .\n\n") := rfl

/-- A string that holds a quote, a full stop and a statement is read as two statements. -/
theorem C154_string : parseText (fun _ => true) [] 0 (py! "@prefix xsd: <http://www.w3.org/2001/XMLSchema#> .\n<x:s> <x:p> \"v\" . <x:a> <x:b> \"c\" ;\n      .\n\n") =
    .ok (0, [mkTriple (.named (py! "x:s")) (.named (py! "x:p")) (.lit (py! "v") none (some (py! "http://www.w3.org/2001/XMLSchema#string"))),
      mkTriple (.named (py! "x:a")) (.named (py! "x:b")) (.lit (py! "c") none (some (py! "http://www.w3.org/2001/XMLSchema#string")))]) := rfl

/-- So is a number with such a text, -/
theorem C154_number :
    serializeTurtle {} World.new 0 (Graph.run .none [.add ⟨.named (py! "x:s"), .named (py! "x:p"), .lit (py! "1 . <x:a> <x:b> 2") none (some (py! "http://www.w3.org/2001/XMLSchema#integer"))⟩]) =
      .ok (py! "@prefix xsd: <http://www.w3.org/2001/XMLSchema#> .\n<x:s> <x:p> 1 . <x:a> <x:b> 2 ;\n      .\n\n") ∧
    parseText (fun _ => true) [] 0 (py! "@prefix xsd: <http://www.w3.org/2001/XMLSchema#> .\n<x:s> <x:p> 1 . <x:a> <x:b> 2 ;\n      .\n\n") =
      .ok (0, [mkTriple (.named (py! "x:s")) (.named (py! "x:p")) (.lit (py! "1") none (some (py! "http://www.w3.org/2001/XMLSchema#integer"))),
        mkTriple (.named (py! "x:a")) (.named (py! "x:b")) (.lit (py! "2") none (some (py! "http://www.w3.org/2001/XMLSchema#integer")))]) := ⟨rfl, rfl⟩

/-- an IRI with an angle bracket, -/
theorem C154_iri :
    serializeTurtle {} World.new 0 (Graph.run .none [.add ⟨.named (py! "x:s"), .named (py! "x:p"), .named (py! "x:o> . <x:a> <x:b> <x:c")⟩]) =
      .ok (py! "@prefix xsd: <http://www.w3.org/2001/XMLSchema#> .\n<x:s> <x:p> <x:o> . <x:a> <x:b> <x:c> ;\n      .\n\n") ∧
    parseText (fun _ => true) [] 0 (py! "@prefix xsd: <http://www.w3.org/2001/XMLSchema#> .\n<x:s> <x:p> <x:o> . <x:a> <x:b> <x:c> ;\n      .\n\n") =
      .ok (0, [mkTriple (.named (py! "x:s")) (.named (py! "x:p")) (.named (py! "x:o")), mkTriple (.named (py! "x:a")) (.named (py! "x:b")) (.named (py! "x:c"))]) := ⟨rfl, rfl⟩

/-- and a language tag, in N-Triples as well. -/
theorem C154_tag :
    serializeNTriples ((Graph.run .none [.add ⟨.named (py! "x:s"), .named (py! "x:p"), .lit (py! "v") (some (py! "en .\n<x:a> <x:b> <x:c>")) none⟩]).iter id) =
      (py! "<x:s> <x:p> \"v\"@en .\n<x:a> <x:b> <x:c> .\n", .ok ()) ∧
    ∃ g, parseString Graph.add false 0 (py! "<x:s> <x:p> \"v\"@en .\n<x:a> <x:b> <x:c> .\n") Graph.new = (g, 0, .ok ()) ∧
      g.triples = [mkTriple (.named (py! "x:s")) (.named (py! "x:p")) (.lit (py! "v") (some (py! "en")) none), mkTriple (.named (py! "x:a")) (.named (py! "x:b")) (.named (py! "x:c"))] :=
  ⟨rfl, _, rfl, rfl⟩

theorem C154_refuted : ¬ C154_statement := by
  intro h
  have h1 := (h .none injString (by
    intro t ht
    simp [everAdded, injString] at ht
    subst ht
    exact ⟨⟨_, rfl⟩, ⟨_, rfl⟩, .inr ⟨_, _, _, rfl⟩⟩)).1 {} 0 _ Orders.OK.default injString_text (fun _ => true) 0 _ _ C154_string
  have h2 : (Verif.Spec.runSet injString).card = 1 := by decide
  rw [h2] at h1
  simp at h1

/-- **C154 for Turtle**, for texts that Turtle can hold without escapes: exactly the triples of the graph are read, plain literals as `xsd:string`. Missing: strings with quotes, backslashes or line
    ends, numbers with other texts, IRIs with characters that are not allowed, language tags that are none; `C154_string`, `C154_number`, `C154_iri`. -/
theorem C154_turtle_partial {nl : PStr → Bool} {m : PrefixMap} {base : Option PStr} (hm : SafeProfileAt nl m (base.getD [])) {namer : Namer} (u : Term) (ops : List Verif.Spec.GOp)
    (hs : ∀ t ∈ Verif.Spec.runSet ops, Ground t ∧ TextTriAt nl m (base.getD []) namer t) (live : ∀ t ∈ everAdded ops, ∃ t' ∈ Verif.Spec.runSet ops, t'.s = t.s) {o : Orders} (ho : Orders.OK o)
    {w : World} (fuel : Nat) (hr : resolveKey w listC (py! "rdf:rest") = .ok (some (Heap.rdfNs ++ py! "rest"))) :
    ∃ text, serializeTurtle o w fuel (Graph.run u ops) base (some m) namer = .ok text ∧
      ∀ n u', ∃ g n', parse (fun g t => g.add t) nl [] n (Graph.new u') (.str text) = (g, n', .ok ()) ∧
        ∀ x, g.contains x = true ↔ ∃ t ∈ Verif.Spec.runSet ops, x = readStmt t.stmt := by
  obtain ⟨text, h1, h2⟩ := C118_plain_partial hm u ops (fun t ht => (hs t ht).2) live ho (w := w) fuel hr
  refine ⟨text, h1, fun n u' => ?_⟩
  obtain ⟨g, n', ρ, h3, _, h5⟩ := h2 n u'
  refine ⟨g, n', h3, fun x => (h5 x).trans ?_⟩
  have key : ∀ t ∈ Verif.Spec.runSet ops, (readStmt t.stmt).rename ρ = readStmt t.stmt := by
    intro t ht
    obtain ⟨⟨⟨i, a⟩, ⟨j, b⟩, c⟩, _⟩ := hs t ht
    obtain ⟨s, p, o⟩ := t
    simp only at a b c
    subst a b
    have : (asRead o).rename ρ = asRead o := by
      rcases c with ⟨k, rfl⟩ | ⟨v, l, d, rfl⟩
      · rfl
      · exact asRead_lit_rename.symm
    show Stmt.mk _ _ ((asRead o).rename ρ) _ = _
    rw [this]; rfl
  exact ⟨fun ⟨t, ht, e⟩ => ⟨t, ht, by rw [e, key t ht]⟩, fun ⟨t, ht, e⟩ => ⟨t, ht, by rw [e, key t ht]⟩⟩

theorem exIri_x (c : Nat) (hc : 97 ≤ c ∧ c ≤ 122) (hl : LegalIri [120, 58, c]) : SafeIriAt (fun _ => true) defaultPrefixes exBase.text [120, 58, c] :=
  safe_short_at (by simp) hl (by simp) (fun _ => joins_alone exBase_good (alone_x c hc)) (fun rest e => by
    have := congrArg List.head? e
    rw [exBase_text] at this
    cases this)

/-- A plain literal with a full stop, an IRI and a number sign in it. -/
def exPlain : List Verif.Spec.GOp := [.add ⟨.named (py! "x:s"), .named (py! "x:p"), .lit (py! "v . <x:a> <x:b> # c") none none⟩]

theorem exPlain_text : ∀ t ∈ Verif.Spec.runSet exPlain, Ground t ∧ TextTriAt (fun _ => true) defaultPrefixes ((some exBase.text).getD []) none t := by
  intro t ht
  have : Verif.Spec.runSet exPlain = {⟨.named (py! "x:s"), .named (py! "x:p"), .lit (py! "v . <x:a> <x:b> # c") none none⟩} := by decide
  rw [this, Finset.mem_singleton] at ht
  subst ht
  exact ⟨⟨⟨_, rfl⟩, ⟨_, rfl⟩, .inr ⟨_, _, _, rfl⟩⟩, .inl ⟨_, rfl, exIri_x 115 (by decide) (by unfold LegalIri; decide)⟩,
    ⟨_, rfl, exIri_x 112 (by decide) (by unfold LegalIri; decide), by decide⟩, .lit (.plain (by unfold Clean; decide) (.inl rfl))⟩

example := C154_turtle_partial (base := some exBase.text) exProfile .none exPlain exPlain_text (by decide) Orders.OK.default 0 resolveKey_rest

/-- **C154 for N-Triples**: whatever the texts of literals and IRIs, each triple that is read comes from one of the graph (`survive`: the changes of C37), if the language tags are such. Missing: other
    language tags, `C154_tag`. -/
theorem C154_ntriples_partial (g : Graph) (ord : List Stmt → List Stmt) (hord : Verif.Spec.IsOrder ord) (h : ∀ t ∈ g.triples, t.IsRdf ∧ t.Readable) (next : Nat) :
    ∃ text g' n f, serializeNTriples (g.iter ord) = (text, .ok ()) ∧ parseString Graph.add false next text Graph.new = (g', n, .ok ()) ∧
      ∀ x, x ∈ g'.triples ↔ ∃ t ∈ g.triples, x = t.survive f := by
  obtain ⟨text, g', n, f, h1, h2, _, _, h5⟩ := C37_roundtrip_exact g ord hord h next
  exact ⟨text, g', n, f, h1, h2, h5⟩

/-- The string that is read as two statements in Turtle is read as one string in N-Triples. -/
example := C154_ntriples_partial (Graph.run .none injString) id (fun _ => List.Perm.refl _) (by
  intro t ht
  have : t = mkTriple (.named (py! "x:s")) (.named (py! "x:p")) (.lit (py! "v\" . <x:a> <x:b> \"c") none none) := by
    have e : (Graph.run .none injString).triples = [mkTriple (.named (py! "x:s")) (.named (py! "x:p")) (.lit (py! "v\" . <x:a> <x:b> \"c") none none)] := rfl
    rw [e] at ht
    exact List.mem_singleton.1 ht
  subst this
  exact ⟨⟨.inl ⟨_, rfl⟩, ⟨_, rfl⟩, .inr (.inr ⟨_, _, _, rfl⟩), rfl⟩, by show ∀ c ∈ _, _; unfold scalarValue; decide, by show ∀ c ∈ _, _; unfold scalarValue; decide, by unfold PStr.Valid; decide, by simp, by simp⟩) 0

/-! ### C155 -/

/-- Full statement of C155: if a graph is written as Turtle and the text is read, then what was read, written and read again, is the same but for blank nodes. -/
def C155_statement : Prop := ∀ (nl : PStr → Bool) (u : Term) (ops : List Verif.Spec.GOp) (o : Orders) (fuel : Nat) (f : Nat → PStr) (text : PStr) (g1 : Graph) (n n1 : Nat),
  Orders.OK o → SafeNamer f → (∀ t ∈ everAdded ops, WellFormed t) → serializeTurtle o World.new fuel (Graph.run u ops) none none (some f) = .ok text →
  parse (fun g t => g.add t) nl [] n Graph.new (.str text) = (g1, n1, .ok ()) →
  ∃ text1, serializeTurtle o World.new fuel g1 none none (some f) = .ok text1 ∧ ∃ g2 n2 ρ, parse (fun g t => g.add t) nl [] n1 Graph.new (.str text1) = (g2, n2, .ok ()) ∧
    Renames ρ g1.triples n1 n2 ∧ ∀ x, x ∈ g2.triples ↔ ∃ t ∈ g1.triples, x = t.rename ρ

/-- Four backslashes. -/
def fourOps : List Verif.Spec.GOp := [.add ⟨.named (py! "x:s"), .named (py! "x:p"), .lit (List.replicate 4 92) none none⟩]

def twoGraph : Graph := Graph.new.add (mkTriple (.named (py! "x:s")) (.named (py! "x:p")) (.lit (List.replicate 2 92) none (some (py! "http://www.w3.org/2001/XMLSchema#string"))))

/-- Each save and load halves the backslashes: four become two, -/
theorem C155_halved : serializeTurtle {} World.new 0 (Graph.run .none fourOps) none none (some exNamer) =
      .ok (py! "@prefix xsd: <http://www.w3.org/2001/XMLSchema#> .\n<x:s> <x:p> \"\\\\\\\\\" ;\n      .\n\n") ∧
    parse (fun g t => g.add t) (fun _ => true) [] 0 Graph.new (.str (py! "@prefix xsd: <http://www.w3.org/2001/XMLSchema#> .\n<x:s> <x:p> \"\\\\\\\\\" ;\n      .\n\n")) = (twoGraph, 0, .ok ()) := ⟨rfl, rfl⟩

/-- and two become one. -/
theorem C155_again : serializeTurtle {} World.new 0 twoGraph none none (some exNamer) = .ok (py! "@prefix xsd: <http://www.w3.org/2001/XMLSchema#> .\n<x:s> <x:p> \"\\\\\" ;\n      .\n\n") ∧
    ∃ g2, parse (fun g t => g.add t) (fun _ => true) [] 0 Graph.new (.str (py! "@prefix xsd: <http://www.w3.org/2001/XMLSchema#> .\n<x:s> <x:p> \"\\\\\" ;\n      .\n\n")) = (g2, 0, .ok ()) ∧
      g2.triples = [mkTriple (.named (py! "x:s")) (.named (py! "x:p")) (.lit [92] none (some (py! "http://www.w3.org/2001/XMLSchema#string")))] := ⟨rfl, _, rfl, rfl⟩

theorem C155_refuted : ¬ C155_statement := by
  intro h
  obtain ⟨text1, h1, g2, n2, ρ, h2, _, h4⟩ := h (fun _ => true) .none fourOps {} 0 exNamer _ twoGraph 0 0 Orders.OK.default exNamer_safe (by
    intro t ht
    simp [everAdded, fourOps] at ht
    subst ht
    exact ⟨.inl ⟨_, rfl⟩, ⟨_, rfl⟩, .inr (.inr ⟨_, _, _, rfl⟩)⟩) C155_halved.1 C155_halved.2
  obtain ⟨e1, g2', e2, e3⟩ := C155_again
  rw [e1] at h1
  cases h1
  rw [e2] at h2
  cases h2
  have := (h4 (mkTriple (.named (py! "x:s")) (.named (py! "x:p")) (.lit [92] none (some (py! "http://www.w3.org/2001/XMLSchema#string"))))).1 (by rw [e3]; exact List.mem_singleton_self _)
  obtain ⟨t, ht, e⟩ := this
  have ht : t = mkTriple (.named (py! "x:s")) (.named (py! "x:p")) (.lit (List.replicate 2 92) none (some (py! "http://www.w3.org/2001/XMLSchema#string"))) := by
    simpa [twoGraph, Graph.add, Graph.setAdd, Graph.new] using ht
  subst ht
  simp [mkTriple, Stmt.rename, Term.rename] at e

theorem asRead_safe {nl : PStr → Bool} {m : PrefixMap} {b : PStr} {namer : Namer} {x : Term} (h : TextNodeAt nl m b namer x) : SafeNodeAt nl m b namer (asRead x) := by
  cases h with
  | iri h => exact .iri h
  | bnode h h' => exact .bnode h h'
  | lit h =>
    cases h with
    | safe h => rw [h.asRead]; exact .lit h
    | plain h hl => rcases hl with rfl | rfl <;> exact .lit (.string h)

theorem SafeNodeAt.rename {nl : PStr → Bool} {m : PrefixMap} {b : PStr} {namer : Namer} {x : Term} (h : SafeNodeAt nl m b namer x) (ρ : Nat → Nat) : SafeNodeAt nl m b namer (x.rename ρ) := by
  cases h with
  | iri h => exact .iri h
  | lit h => exact .lit h
  | bnode h h' => exact .bnode h h'

/-- **C155** for texts that Turtle can hold without escapes: after one save and load, the second one changes nothing but blank nodes, which stay distinct. -/
theorem C155_partial {nl : PStr → Bool} {m : PrefixMap} {base : Option PStr} (hm : SafeProfileAt nl m (base.getD [])) {namer : Namer} (u : Term) (ops : List Verif.Spec.GOp)
    (hs : ∀ t ∈ Verif.Spec.runSet ops, TextTriAt nl m (base.getD []) namer t) (live : ∀ t ∈ everAdded ops, ∃ t' ∈ Verif.Spec.runSet ops, t'.s = t.s) {o : Orders} (ho : Orders.OK o)
    {w : World} (fuel : Nat) (hr : resolveKey w listC (py! "rdf:rest") = .ok (some (Heap.rdfNs ++ py! "rest"))) :
    ∃ text, serializeTurtle o w fuel (Graph.run u ops) base (some m) namer = .ok text ∧
      ∀ n u', ∃ g1 n1, parse (fun g t => g.add t) nl [] n (Graph.new u') (.str text) = (g1, n1, .ok ()) ∧
        ∀ (o' : Orders), Orders.OK o' → ∃ text1, serializeTurtle o' w fuel g1 base (some m) namer = .ok text1 ∧
          ∀ k u'', ∃ g2 n2 ρ, parse (fun g t => g.add t) nl [] k (Graph.new u'') (.str text1) = (g2, n2, .ok ()) ∧ Renames ρ g1.triples k n2 ∧
            ∀ x, g2.contains x = true ↔ ∃ t ∈ g1.triples, x = t.rename ρ := by
  have rep := Graph.rep_run u ops
  obtain ⟨text, h1, h2⟩ := written_is_read hm (safeGraphAt_run u ops hs live) ho (w := w) fuel hr
  refine ⟨text, h1, fun n u' => ?_⟩
  obtain ⟨n1, ts, ρ, h3, h4, h5⟩ := h2 n
  have hform : ∀ x ∈ ts, ∃ t ∈ Verif.Spec.runSet ops, x = (readStmt t.stmt).rename ρ := by
    intro x hx
    obtain ⟨t, ht, rfl⟩ := List.mem_map.1 (h4.mem_iff.1 hx)
    obtain ⟨t, ht', rfl⟩ := (rep.mem t).1 ht
    exact ⟨t, ht', rfl⟩
  let tris : List Verif.Spec.Tri := ts.map fun x => ⟨x.s, x.p, x.o⟩
  have hts : ts = tris.map Verif.Spec.Tri.stmt := by
    rw [List.map_map]
    refine (List.map_id ts).symm.trans (List.map_congr_left fun x hx => ?_)
    obtain ⟨t, _, rfl⟩ := hform x hx
    rfl
  have hrun : (Graph.new u').addAll ts = Graph.run u' [.addAll tris] := by rw [hts]; rfl
  have hset : ∀ t, t ∈ Verif.Spec.runSet [.addAll tris] ↔ t.stmt ∈ ts := by
    intro t
    have : Verif.Spec.runSet [.addAll tris] = tris.toFinset := by simp [Verif.Spec.runSet, Verif.Spec.GOp.apply]
    rw [this, List.mem_toFinset]
    constructor
    · intro h; rw [hts]; exact List.mem_map.2 ⟨t, h, rfl⟩
    · intro h; exact List.mem_map.2 ⟨_, h, rfl⟩
  refine ⟨(Graph.new u').addAll ts, n1, by simp only [parse, h3]; rfl, fun o' ho' => ?_⟩
  have hsafe : ∀ t ∈ Verif.Spec.runSet [.addAll tris], SafeTriAt nl m (base.getD []) namer t := by
    intro t ht
    obtain ⟨t0, h0, e⟩ := hform _ ((hset t).1 ht)
    obtain ⟨a, ⟨i, b1, b2⟩, c⟩ := hs t0 h0
    obtain ⟨s0, p0, o0⟩ := t0
    obtain ⟨s, p, o⟩ := t
    simp only [Verif.Spec.Tri.stmt, mkTriple, readStmt, Stmt.rename, Stmt.mk.injEq] at e
    obtain ⟨rfl, rfl, rfl, _⟩ := e
    dsimp only at a b1 c
    subst b1
    refine ⟨?_, ⟨i, rfl, b2⟩, (asRead_safe c).rename ρ⟩
    rcases a with ⟨j, rfl, hj⟩ | ⟨⟨k, rfl⟩, hf⟩
    · exact .inl ⟨j, rfl, hj⟩
    · exact .inr ⟨⟨_, rfl⟩, hf⟩
  obtain ⟨text1, k1, k2⟩ := C118_round_trip_partial hm u' [.addAll tris] hsafe (fun t ht => ⟨t, (hset t).2 (by
    have : t ∈ tris := by simpa [everAdded] using ht
    rw [hts]; exact List.mem_map.2 ⟨t, this, rfl⟩), rfl⟩) ho' (w := w) fuel hr
  rw [hrun]
  refine ⟨text1, k1, fun k u'' => ?_⟩
  obtain ⟨g2, n2, ρ2, l1, l2, l3⟩ := k2 k u''
  refine ⟨g2, n2, ρ2, l1, l2, fun x => (l3 x).trans ?_⟩
  have rep' := Graph.rep_run u' [.addAll tris]
  constructor
  · rintro ⟨t, ht, e⟩; exact ⟨t.stmt, (rep'.mem _).2 ⟨t, ht, rfl⟩, e⟩
  · rintro ⟨t, ht, e⟩
    obtain ⟨t, ht', rfl⟩ := (rep'.mem t).1 ht
    exact ⟨t, ht', e⟩

example := C155_partial (base := some exBase.text) exProfile .none exPlain (fun t ht => (exPlain_text t ht).2) (by decide) Orders.OK.default 0 resolveKey_rest

end Verif.Turtle
