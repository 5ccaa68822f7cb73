import Verif.Props.TurtleTyped
import Verif.Props.NTGrammar
import Verif.Props.ParserApi
/-! C158: converting N-Triples to Turtle. -/
namespace Verif
open NTSpec Turtle Turtle.Spec

/-! ### The graph of a document as a history -/

/-- A statement of N-Triples with blank nodes in the place of labels, as a triple. -/
def RStmt.tri (f : PStr → Nat) (r : RStmt) : Verif.Spec.Tri := ⟨r.s.subst f, r.p.subst f, r.o.subst f⟩

theorem doc_graph_none {text : PStr} {rs : List RStmt} (h : Doc code false text rs) : ∀ r ∈ rs, r.g = none := by
  cases h with
  | first hs hr =>
    intro x hx
    rcases List.mem_cons.1 hx with rfl | hx
    · exact statement_graph hs
    · exact rest_graph hr x hx
  | rest hr => exact rest_graph hr

theorem tri_stmt {f : PStr → Nat} {rs : List RStmt} (h : ∀ r ∈ rs, r.g = none) : (rs.map (RStmt.tri f)).map Verif.Spec.Tri.stmt = rs.map (RStmt.subst f) := by
  rw [List.map_map]
  refine List.map_congr_left fun r hr => ?_
  simp [RStmt.tri, Verif.Spec.Tri.stmt, mkTriple, RStmt.subst, h r hr]

/-- What is read into a new graph is what `addAll` of the triples of the document makes. -/
theorem read_is_run (next : Nat) {text : PStr} {rs : List RStmt} (h : Doc code false text rs) (u : Term) :
    ∃ f n, parseString Graph.add false next text (Graph.new u) = (Graph.run u [.addAll (rs.map (RStmt.tri f))], n, .ok ()) ∧
      ∀ r ∈ rs, ∀ r' ∈ rs, ∀ l l', r.HasLabel l → r'.HasLabel l' → f l = f l' → l = l' := by
  obtain ⟨f, n, _, h2, h3, _⟩ := ReadsAs.of_doc (pDoc_iff.2 h) Graph Graph.add next (Graph.new u)
  refine ⟨f, n, ?_, h3⟩
  rw [h2]
  refine Prod.ext ?_ rfl
  show _ = (Graph.new u).addAll _
  rw [tri_stmt (doc_graph_none h), foldl_add_eq]

/-! ### C158 -/

/-- Specification: an IRI that can be written as Turtle, or a label. -/
def RTerm.NodeAt (nl : PStr → Bool) (m : PrefixMap) (b : PStr) : RTerm → Prop
  | .iri i => SafeIriAt nl m b i
  | .label _ => True
  | .lit _ _ _ => False

/-- Specification: a statement of the document whose IRIs can be written as Turtle and whose literal is a string without special characters, a number or a boolean, or
    (`other`) a string of another datatype. Not the rest of a list. -/
structure RStmt.Convertible (nl : PStr → Bool) (m : PrefixMap) (b : PStr) (other : Prop) (r : RStmt) : Prop where
  subj : r.s.NodeAt nl m b
  pred : ∃ i, r.p = .iri i ∧ SafeIriAt nl m b i ∧ i ≠ Heap.rdfNs ++ py! "rest"
  obj : r.o.NodeAt nl m b ∨ ∃ v l d, r.o = .lit v l d ∧ (TextLit v l d ∨ other ∧ OtherType (.lit v l d))

theorem RStmt.Convertible.text {nl : PStr → Bool} {m : PrefixMap} {b : PStr} {r : RStmt} (h : r.Convertible nl m b False) {f : PStr → Nat} {name : Nat → PStr} (hn : SafeNamer name) :
    TextTriAt nl m b (some name) (r.tri f) := by
  refine ⟨?_, ?_, ?_⟩
  · have := h.subj
    show SafeSubjAt nl m b (some name) (r.s.subst f)
    cases e : r.s with
    | iri i => rw [e] at this; exact .inl ⟨i, rfl, this⟩
    | label l => exact .inr ⟨⟨_, rfl⟩, name, rfl, hn⟩
    | lit v l d => rw [e] at this; exact this.elim
  · obtain ⟨i, e, h1, h2⟩ := h.pred
    exact ⟨i, by simp [RStmt.tri, e, RTerm.subst], h1, h2⟩
  · show TextNodeAt nl m b (some name) (r.o.subst f)
    rcases h.obj with this | ⟨v, l, d, e, h1 | ⟨h1, _⟩⟩
    · cases e : r.o with
      | iri i => rw [e] at this; exact .iri this
      | label l => exact .bnode rfl hn
      | lit v l d => rw [e] at this; exact this.elim
    · rw [e]; exact .lit h1
    · exact h1.elim

theorem RStmt.Convertible.typed {nl : PStr → Bool} {m : PrefixMap} {b : PStr} {r : RStmt} {other : Prop} (h : r.Convertible nl m b other) {f : PStr → Nat} :
    TypedTri nl m b (r.tri f) := by
  refine ⟨?_, ?_, ?_⟩
  · have := h.subj
    show (∃ i, r.s.subst f = .named i ∧ _) ∨ ∃ k, r.s.subst f = .bnode k
    cases e : r.s with
    | iri i => rw [e] at this; exact .inl ⟨i, rfl, this⟩
    | label l => exact .inr ⟨_, rfl⟩
    | lit v l d => rw [e] at this; exact this.elim
  · obtain ⟨i, e, h1, h2⟩ := h.pred
    exact ⟨i, by simp [RStmt.tri, e, RTerm.subst], h1, h2⟩
  · show Nameable nl m b (r.o.subst f) ∨ OtherType (r.o.subst f)
    rcases h.obj with this | ⟨v, l, d, e, h1 | ⟨_, h1⟩⟩
    · cases e : r.o with
      | iri i => rw [e] at this; exact .inl (.iri this)
      | label l => exact .inl .bnode
      | lit v l d => rw [e] at this; exact this.elim
    · rw [e]; exact .inl (.lit h1)
    · rw [e]; exact .inr h1

theorem addAll_live (ts : List Verif.Spec.Tri) : ∀ t ∈ everAdded [.addAll ts], ∃ t' ∈ Verif.Spec.runSet [.addAll ts], t'.s = t.s := by
  intro t ht
  simp [everAdded] at ht
  exact ⟨t, by simp [Verif.Spec.runSet, Verif.Spec.GOp.apply, ht], rfl⟩

/-- Specification: what is read from the text is the graph, with new blank nodes for its blank nodes and the datatype `xsd:string` for its plain literals. -/
def TurtleOf (nl : PStr → Bool) (g : Graph) (text : PStr) : Prop := ∀ (n : Nat) (u : Term), ∃ g' n' ρ,
  parse (fun g t => g.add t) nl [] n (Graph.new u) (.str text) = (g', n', .ok ()) ∧ Renames ρ g.triples n n' ∧ ∀ x, x ∈ g'.triples ↔ ∃ t ∈ g.triples, x = (readStmt t).rename ρ

/-- Full statement of C158: whatever was read from N-Triples can be written as Turtle, with the caller's names for blank nodes, and is then read as the same graph. -/
def C158_statement : Prop := ∀ (nl : PStr → Bool) (next n : Nat) (text : PStr) (g : Graph) (o : Orders) (fuel : Nat) (name : Nat → PStr), text.Valid → Orders.OK o → SafeNamer name →
  parseString Graph.add false next text Graph.new = (g, n, .ok ()) → ∃ out, serializeTurtle o World.new fuel g none none (some name) = .ok out ∧ TurtleOf nl g out

/-- **C158, proved part**: a document of convertible statements is written as Turtle and comes back, whatever the profile, the base, the names and the orders.
    Missing: lists, literals of other datatypes (never, `C158_exact`), special characters in literals, and IRIs for which the profile or the base stand in the way. -/
theorem C158_partial {nl : PStr → Bool} {m : PrefixMap} {base : Option PStr} (hm : SafeProfileAt nl m (base.getD [])) {name : Nat → PStr} (hn : SafeNamer name) (next : Nat)
    {text : PStr} {rs : List RStmt} (h : Doc code false text rs) (hc : ∀ r ∈ rs, r.Convertible nl m (base.getD []) False) {o : Orders} (ho : Orders.OK o) {w : World} (fuel : Nat)
    (hr : resolveKey w listC (py! "rdf:rest") = .ok (some (Heap.rdfNs ++ py! "rest"))) :
    ∃ g n out, parseString Graph.add false next text Graph.new = (g, n, .ok ()) ∧ serializeTurtle o w fuel g base (some m) (some name) = .ok out ∧ TurtleOf nl g out := by
  obtain ⟨f, n, h1, _⟩ := read_is_run next h .none
  have hs : ∀ t ∈ everAdded [.addAll (rs.map (RStmt.tri f))], TextTriAt nl m (base.getD []) (some name) t := by
    intro t ht
    simp [everAdded] at ht
    obtain ⟨r, hr, rfl⟩ := ht
    exact (hc r hr).text hn
  obtain ⟨out, h2, h3⟩ := C118_plain_partial hm .none [.addAll (rs.map (RStmt.tri f))] (fun t ht => hs t (runSet_everAdded t ht)) (addAll_live _) ho (w := w) fuel hr
  refine ⟨_, n, out, h1, h2, fun k u => ?_⟩
  obtain ⟨g', n', ρ, h4, h5, h6⟩ := h3 k u
  refine ⟨g', n', ρ, h4, h5, fun x => ?_⟩
  have := h6 x
  rw [Graph.contains, decide_eq_true_eq] at this
  rw [this]
  constructor
  · rintro ⟨t, ht, rfl⟩; exact ⟨t.stmt, ((Graph.rep_run _ _).mem _).2 ⟨t, ht, rfl⟩, rfl⟩
  · rintro ⟨t, ht, rfl⟩
    obtain ⟨t', ht', rfl⟩ := ((Graph.rep_run _ _).mem _).1 ht
    exact ⟨t', ht', rfl⟩

/-- **When the result is read**: if there may also be literals of other datatypes, what is written is read exactly if there are none. -/
theorem C158_exact {nl : PStr → Bool} {m : PrefixMap} {base : Option PStr} (hm : SafeProfileAt nl m (base.getD [])) {name : Nat → PStr} (hn : SafeNamer name) (next : Nat)
    {text : PStr} {rs : List RStmt} (h : Doc code false text rs) (hc : ∀ r ∈ rs, r.Convertible nl m (base.getD []) True) {o : Orders} (ho : Orders.OK o) {w : World} (fuel : Nat)
    (hr : resolveKey w listC (py! "rdf:rest") = .ok (some (Heap.rdfNs ++ py! "rest"))) {g : Graph} {n : Nat} {out : PStr}
    (hg : parseString Graph.add false next text Graph.new = (g, n, .ok ())) (hw : serializeTurtle o w fuel g base (some m) (some name) = .ok out) (k : Nat) :
    (∃ n' ts, parseText nl [] k out = .ok (n', ts)) ↔ ∀ r ∈ rs, ∀ v l d, r.o = .lit v l d → ¬ OtherType (.lit v l d) := by
  obtain ⟨f, n', h1, _⟩ := read_is_run next h .none
  have e : g = Graph.run .none [.addAll (rs.map (RStmt.tri f))] := by
    have := h1.symm.trans hg
    exact (Prod.mk.inj this).1.symm
  subst e
  have hs : ∀ t ∈ everAdded [.addAll (rs.map (RStmt.tri f))], TypedTri nl m (base.getD []) t := by
    intro t ht
    simp [everAdded] at ht
    obtain ⟨r, hr, rfl⟩ := ht
    exact (hc r hr).typed
  rw [C156_exact hm hn .none hs (addAll_live _) ho hr hw k]
  have hmem : ∀ t, t ∈ Verif.Spec.runSet [.addAll (rs.map (RStmt.tri f))] ↔ ∃ r ∈ rs, r.tri f = t := by
    intro t; simp [Verif.Spec.runSet, Verif.Spec.GOp.apply]
  constructor
  · intro hno r hr v l d e ht
    exact hno (r.tri f) ((hmem _).2 ⟨r, hr, rfl⟩) (by show OtherType (r.o.subst f); rw [e]; exact ht)
  · intro hno t ht hto
    obtain ⟨r, hr, rfl⟩ := (hmem t).1 ht
    change OtherType (r.o.subst f) at hto
    cases e : r.o with
    | iri i => rw [e] at hto; cases hto
    | label l => rw [e] at hto; cases hto
    | lit v l d => rw [e] at hto; exact hno r hr v l d e hto

/-- The document `<x:s> <x:p> "2013-04-05"^^<http://www.w3.org/2001/XMLSchema#date> .` -/
def dateDoc : PStr := py! "<x:s> <x:p> \"2013-04-05\"^^<http://www.w3.org/2001/XMLSchema#date> .\n"

/-- It does not hold: a document with a date is read, and the Turtle that is written for it is not. -/
theorem C158_refuted : ¬ C158_statement := by
  intro h
  obtain ⟨out, h1, h2⟩ := h (fun _ => true) 0 0 dateDoc (Graph.run .none [.add ⟨.named (py! "x:s"), .named (py! "x:p"), .lit (py! "2013-04-05") none (some (xsd (py! "date")))⟩]) {} 0
    exNamer (by unfold PStr.Valid; decide) Orders.OK.default exNamer_safe (by decide)
  have e : out = py! "@prefix xsd: <http://www.w3.org/2001/XMLSchema#> .\n<x:s> <x:p> \"2013-04-05\"^xsd:date ;\n      .\n\n" := by
    have h3 : serializeTurtle {} World.new 0 (Graph.run .none [.add ⟨.named (py! "x:s"), .named (py! "x:p"), .lit (py! "2013-04-05") none (some (xsd (py! "date")))⟩]) none none (some exNamer) =
      .ok (py! "@prefix xsd: <http://www.w3.org/2001/XMLSchema#> .\n<x:s> <x:p> \"2013-04-05\"^xsd:date ;\n      .\n\n") := rfl
    rw [h1] at h3
    exact Except.ok.inj h3
  obtain ⟨g', n', ρ, h4, _⟩ := h2 0 .none
  rw [parse, e, C156_date.2] at h4
  cases (Prod.mk.inj (Prod.mk.inj h4).2).2

/-! A document that meets the hypotheses: a blank node with an integer, a reference to it and, in the second, a date. -/

def plainRs : List RStmt :=
  [⟨.label (py! "_:a"), .iri (py! "x:p"), .lit (py! "12") none (some (py! "http://www.w3.org/2001/XMLSchema#integer")), none⟩,
   ⟨.iri (py! "http://e/a#b"), .iri (py! "x:p"), .label (py! "_:a"), none⟩]

def plainDoc : PStr := py! "_:a <x:p> \"12\"^^<http://www.w3.org/2001/XMLSchema#integer> .\n<http://e/a#b> <x:p> _:a .\n"

theorem plainDoc_doc : Doc code false plainDoc plainRs := pDoc_iff.1 (by decide)

theorem safeAt_xp : SafeIriAt (fun _ => true) defaultPrefixes exBase.text (py! "x:p") := safe_short_at (by decide) (by unfold LegalIri; decide) (by decide)
  (fun _ => joins_alone exBase_good (alone_x 112 (by decide))) (fun rest e => by
    have := congrArg List.head? e
    rw [exBase_text] at this
    cases this)

theorem safeAt_ab : SafeIriAt (fun _ => true) defaultPrefixes exBase.text (py! "http://e/a#b") := safe_short_at (by decide) (by unfold LegalIri; decide) (by decide)
  (fun h => absurd (by decide) h) (fun rest e => by
    have : rest.length = 1 := by have := congrArg List.length e; rw [exBase_text] at this; simp at this; omega
    intro hi
    have := hi.length_le
    rw [exBase_text] at this
    simp at this
    omega)

theorem plainRs_convertible (other : Prop) : ∀ r ∈ plainRs, r.Convertible (fun _ => true) defaultPrefixes exBase.text other := by
  intro r hr
  simp [plainRs] at hr
  rcases hr with rfl | rfl
  · exact ⟨trivial, ⟨_, rfl, safeAt_xp, by decide⟩,
      .inr ⟨_, _, _, rfl, .inl (.safe (.integer (.integer (sg := []) (ds := py! "12") (.inl rfl) (by unfold Digits; simp [Turtle.Spec.isDigitChar]) (by decide))))⟩⟩
  · exact ⟨safeAt_ab, ⟨_, rfl, safeAt_xp, by decide⟩, .inl trivial⟩

example := C158_partial (base := some exBase.text) exProfile exNamer_safe 5 plainDoc_doc (plainRs_convertible False) Orders.OK.default (w := World.new) 0 resolveKey_rest

example := C158_exact (base := some exBase.text) exProfile exNamer_safe 5 plainDoc_doc (plainRs_convertible True) Orders.OK.default (w := World.new) 0 resolveKey_rest
  (g := (parseString Graph.add false 5 plainDoc Graph.new).1) (n := 6)
  (out := py! "@base <http://e/a#> .\n@prefix xsd: <http://www.w3.org/2001/XMLSchema#> .\n<#b> <x:p> _:b0 ;\n     .\n\n_:b0 <x:p> 12 ;\n     .\n\n") rfl rfl 3

end Verif
