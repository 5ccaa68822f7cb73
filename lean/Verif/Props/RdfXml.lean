import Verif.Model.RdfXml
import Mathlib.Data.List.Forall2
/-
C76: the RDF/XML parser. C119: the elements of an RDF/XML document.
-/
namespace Verif

variable {σ : Type}

/-- Full statement: a document with root `rdf:RDF` and nothing in it can be parsed. -/
def C76_statement : Prop :=
  ∀ (σ : Type) (nl : PStr → Bool) (add : σ → Stmt → σ) (next : Nat) (root : XElem) (sink : σ),
    root.tag = some (py! "{http://www.w3.org/1999/02/22-rdf-syntax-ns#}RDF") → root.children = [] → (rdfXmlParse nl add next (.ok root) sink).2 = .ok ()

theorem C76_refuted : ¬ C76_statement := by
  intro h
  have := h Unit (fun _ => true) (fun s _ => s) 0 (.mk (py! "{http://www.w3.org/1999/02/22-rdf-syntax-ns#}RDF") [] none []) () rfl rfl
  cases this

/-- Exactly: every well-formed XML document is rejected with ValueError, whatever its root, and nothing is added; errors of the XML parser
    are passed on. -/
theorem C76_always_valueError (nl : PStr → Bool) (add : σ → Stmt → σ) (next : Nat) (sink : σ) :
    (∀ root, rdfXmlParse nl add next (.ok root) sink = (sink, .error .valueError)) ∧
    ∀ e, rdfXmlParse nl add next (.error e) sink = (sink, .error e) := ⟨fun _ => rfl, fun _ => rfl⟩

/-! ### C119 -/

namespace Spec

/-- The namespace of RDF. -/
def rdfX : PStr := py! "http://www.w3.org/1999/02/22-rdf-syntax-ns#"

/-- An absolute IRI for our purposes: `http://` and some more. -/
def absoluteIri (u : PStr) : Prop := py! "http://" <+: u

/-- A property element `<ns:local rdf:resource="v"/>`. -/
def propElem (ns loc v : PStr) : XElem := .mk (123 :: ns ++ 125 :: loc) [(py! "{" ++ rdfX ++ py! "}resource", v)] none []

/-- `<rdf:Description rdf:about="u">` with the given children. -/
def aboutElem (u : PStr) (cs : List XElem) : XElem := .mk (py! "{" ++ rdfX ++ py! "}Description") [(py! "{" ++ rdfX ++ py! "}about", u)] none cs

end Spec

/-- Full statement: a description of a resource by one property element gives the triple, as the RDF/XML specification says. -/
def C119_statement : Prop :=
  ∀ (nl : PStr → Bool) (st : BState) (u ns loc v : PStr), Spec.absoluteIri u → Spec.absoluteIri ns → Spec.absoluteIri v → loc ≠ [] →
    (xmlResource nl (fun (l : List Stmt) t => l ++ [t]) st [] (Spec.aboutElem u [Spec.propElem ns loc v])).2.1 =
      [mkTriple (.named u) (.named (ns ++ loc)) (.named v)]

theorem C119_refuted : ¬ C119_statement := by
  intro h
  have := h (fun _ => true) { map := [], next := 0 } (py! "http://a") (py! "http://b/") (py! "c") (py! "http://d") ⟨_, rfl⟩ ⟨_, rfl⟩ ⟨_, rfl⟩
    (by decide)
  revert this; decide

/-- Whoever writes `rdf:about` (and not also `rdf:nodeID`, `rdf:ID` or `rdf:resource`) gets KeyError, and nothing is added. -/
theorem C119_about (nl : PStr → Bool) (add : σ → Stmt → σ) (st : BState) (sink : σ) (e : XElem) {u : PStr}
    (h1 : e.attrib.get? (py! "{" ++ Spec.rdfX ++ py! "}about") = some u)
    (h2 : e.attrib.get? (py! "{" ++ Spec.rdfX ++ py! "}nodeID") = none) (h3 : e.attrib.get? (py! "{" ++ Spec.rdfX ++ py! "}ID") = none)
    (h4 : e.attrib.get? (py! "{" ++ Spec.rdfX ++ py! "}resource") = none) :
    xmlResource nl add st sink e = (st, sink, .error .keyError) := by
  have : xmlSubject nl st e = .error .keyError := by
    have h1' : e.attrib.get? (clarkRdf (py! "about")) = some u := h1
    have h2' : e.attrib.get? (clarkRdf (py! "nodeID")) = none := h2
    have h3' : e.attrib.get? (clarkRdf (py! "ID")) = none := h3
    have h4' : e.attrib.get? (clarkRdf (py! "resource")) = none := h4
    unfold xmlSubject
    rw [h1', h2', h3', h4']
  unfold xmlResource
  rw [this]

/-- A tag in a namespace cannot be resolved. -/
theorem xmlResolveTag_ns (nl : PStr → Bool) {e : XElem} {r : PStr} (h : e.tag = some (123 :: r)) : xmlResolveTag nl e = .error .attributeError := by
  unfold xmlResolveTag; rw [h]; rfl

/-- A typed node (an element in a namespace other than `rdf:Description`) never adds anything. -/
theorem C119_typed (nl : PStr → Bool) (add : σ → Stmt → σ) (st : BState) (sink : σ) (e : XElem) {r : PStr} (h : e.tag = some (123 :: r))
    (hd : e.tag ≠ some (py! "{" ++ Spec.rdfX ++ py! "}Description")) :
    ∃ st' x, xmlResource nl add st sink e = (st', sink, .error x) := by
  unfold xmlResource
  cases hs : xmlSubject nl st e with
  | error x => exact ⟨_, _, rfl⟩
  | ok p =>
    obtain ⟨st', subj⟩ := p
    have hd' : e.tag ≠ some (clarkRdf (py! "Description")) := hd
    simp only [if_neg hd', xmlResolveTag_ns nl h, Except.map]
    exact ⟨_, _, rfl⟩

/-- What a list of property elements adds: nothing from the first one in a namespace (other than `rdf:li`) on, and it raises there at the latest. -/
theorem C119_property (nl : PStr → Bool) (add : σ → Stmt → σ) (subj : Term) (e : XElem) {r : PStr} (h : e.tag = some (123 :: r))
    (hl : e.tag ≠ some (py! "{" ++ Spec.rdfX ++ py! "}li")) (later : List XElem) : ∀ (before : List XElem) (pred : Option PStr) (sink : σ),
    ∃ x, xmlProps nl add subj pred sink (before ++ e :: later) = ((xmlProps nl add subj pred sink before).1, .error x)
  | [], pred, sink => by
    have hl' : e.tag ≠ some (clarkRdf (py! "li")) := hl
    refine ⟨.attributeError, ?_⟩
    show xmlProps nl add subj pred sink (e :: later) = _
    simp only [xmlProps, if_neg hl', xmlResolveTag_ns nl h, Except.map]
  | b :: bs, pred, sink => by
    show ∃ x, xmlProps nl add subj pred sink (b :: (bs ++ e :: later)) = _
    simp only [xmlProps]
    split
    · exact ⟨_, rfl⟩
    · split
      · exact C119_property nl add subj e h hl later bs _ sink
      · split
        · exact ⟨_, rfl⟩
        · split
          · exact ⟨_, rfl⟩
          · exact C119_property nl add subj e h hl later bs _ _

/-- A comment (or processing instruction) among the descriptions raises TypeError, and nothing is added. -/
theorem C119_comment (nl : PStr → Bool) (add : σ → Stmt → σ) (st : BState) (sink : σ) (e : XElem) (h : e.tag = none) :
    ∃ st', xmlResource nl add st sink e = (st', sink, .error .typeError) := by
  cases e with
  | mk t a b c => cases h
  | other b => exact ⟨_, rfl⟩

/-- A comment (or processing instruction) among the property elements raises: what follows it is lost. -/
theorem C119_comment_inside (nl : PStr → Bool) (add : σ → Stmt → σ) (subj : Term) (e : XElem) (h : e.tag = none) (later : List XElem) :
    ∀ (before : List XElem) (pred : Option PStr) (sink : σ),
    ∃ x, xmlProps nl add subj pred sink (before ++ e :: later) = ((xmlProps nl add subj pred sink before).1, .error x) ∧
      ((xmlProps nl add subj pred sink before).2 = .ok () → x = .typeError)
  | [], pred, sink => by
    cases e with
    | mk t a b c => cases h
    | other b => exact ⟨_, rfl, fun _ => rfl⟩
  | b :: bs, pred, sink => by
    show ∃ x, xmlProps nl add subj pred sink (b :: (bs ++ e :: later)) = _ ∧ _
    simp only [xmlProps]
    split
    · exact ⟨_, rfl, fun h => by cases h⟩
    · split
      · exact C119_comment_inside nl add subj e h later bs _ sink
      · split
        · exact ⟨_, rfl, fun h => by cases h⟩
        · split
          · exact ⟨_, rfl, fun h => by cases h⟩
          · exact C119_comment_inside nl add subj e h later bs _ _

/-- The triples of property elements `ps` with their resolved predicates and objects. -/
def Spec.propTriples (subj : Term) (ps : List (PStr × PStr)) : List Stmt := ps.map fun x => mkTriple subj (.named x.1) (.named x.2)

/-- Partial: elements without namespaces. If the tags (which do not begin with "{") and the `rdf:resource` attributes resolve to `ps`, exactly these triples are
    added, in order. -/
theorem C119_plain_partial (nl : PStr → Bool) (add : σ → Stmt → σ) (subj : Term) : ∀ (es : List XElem) (ps : List (PStr × PStr)) (pred : Option PStr) (sink : σ),
    List.Forall₂ (fun e x => (∃ c cs, e.tag = some (c :: cs) ∧ c ≠ 123 ∧ urljoin nl (e.base.getD []) (c :: cs) = .ok x.1) ∧
      ∃ v, e.attrib.get? (py! "{" ++ Spec.rdfX ++ py! "}resource") = some v ∧
        (v.head?.any isAsciiAlpha = true → x.2 = v) ∧ (v.head?.any isAsciiAlpha = false → urljoin nl (e.base.getD []) v = .ok x.2)) es ps →
    xmlProps nl add subj pred sink es = ((Spec.propTriples subj ps).foldl add sink, .ok ())
  | _, _, pred, sink, .nil => rfl
  | e :: es, x :: ps, pred, sink, .cons ⟨⟨c, cs, ht, hc, hj⟩, v, hv, hr⟩ hs => by
    have h1 : e.tag ≠ some (clarkRdf (py! "li")) := by
      rw [ht]; intro h
      exact hc (List.cons.inj (Option.some.inj h : c :: cs = 123 :: _)).1
    have h2 : xmlResolveTag nl e = .ok x.1 := by
      unfold xmlResolveTag; rw [ht]
      show (if c = 123 then _ else xmlJoin nl e (c :: cs)) = _
      rw [if_neg hc]; exact hj
    have h3 : xmlResolveUri nl e v = .ok x.2 := by
      cases v with
      | nil => exact hr.2 rfl
      | cons d ds =>
        show (if isAsciiAlpha d = true then _ else _) = _
        by_cases hd : isAsciiAlpha d = true
        · rw [if_pos hd, hr.1 hd]
        · rw [if_neg hd]; exact hr.2 (by simpa using hd)
    have hv' : e.attrib.get? (clarkRdf (py! "resource")) = some v := hv
    simp only [xmlProps, if_neg h1, h2, Except.map, hv', h3]
    exact C119_plain_partial nl add subj es ps (some x.1) _ hs

/-- The subject of an element, in order of precedence: `rdf:nodeID` (the same blank node for the same text), `rdf:ID` joined to the base, and without any
    attribute a new blank node. An `rdf:ID` without a base is refused. -/
theorem C119_subject_partial (nl : PStr → Bool) (st : BState) (e : XElem) :
    (∀ l, e.attrib.get? (py! "{" ++ Spec.rdfX ++ py! "}nodeID") = some l → xmlSubject nl st e = .ok ((st.node l).1, .bnode (st.node l).2)) ∧
    (∀ i b, e.attrib.get? (py! "{" ++ Spec.rdfX ++ py! "}nodeID") = none → e.attrib.get? (py! "{" ++ Spec.rdfX ++ py! "}ID") = some i → e.base = some b → b ≠ [] →
      xmlSubject nl st e = .ok (st, .named (b ++ 35 :: i))) ∧
    (∀ i, e.attrib.get? (py! "{" ++ Spec.rdfX ++ py! "}nodeID") = none → e.attrib.get? (py! "{" ++ Spec.rdfX ++ py! "}ID") = some i → e.base = none ∨ e.base = some [] →
      xmlSubject nl st e = .error .valueError) ∧
    (e.attrib = [] → xmlSubject nl st e = .ok ({ st with next := st.next + 1 }, .bnode st.next)) := by
  refine ⟨fun l h => ?_, fun i b h1 h2 h3 h4 => ?_, fun i h1 h2 h3 => ?_, fun h => ?_⟩
  · have h' : e.attrib.get? (clarkRdf (py! "nodeID")) = some l := h
    unfold xmlSubject
    split
    · rename_i h1 _ _; rw [h'] at h1; cases h1
    · rename_i h1; rw [h'] at h1; cases h1; rfl
    · rename_i h1 _; rw [h'] at h1; cases h1
    · rename_i h1 _ _; rw [h'] at h1; cases h1
  · have h1' : e.attrib.get? (clarkRdf (py! "nodeID")) = none := h1
    have h2' : e.attrib.get? (clarkRdf (py! "ID")) = some i := h2
    unfold xmlSubject
    rw [h1', h2', h3]
    cases b with
    | nil => exact absurd rfl h4
    | cons c cs => simp
  · have h1' : e.attrib.get? (clarkRdf (py! "nodeID")) = none := h1
    have h2' : e.attrib.get? (clarkRdf (py! "ID")) = some i := h2
    unfold xmlSubject
    rcases h3 with h3 | h3 <;> rw [h1', h2', h3]
  · unfold xmlSubject; rw [h]; rfl

/-- An element whose name has no namespace: the triple of the type (the name resolved against the base) and the triples of the property elements, in order. -/
theorem C119_described_partial (nl : PStr → Bool) (add : σ → Stmt → σ) (st st' : BState) (sink : σ) (e : XElem) {subj : Term} (hsub : xmlSubject nl st e = .ok (st', subj))
    {c : Nat} {cs ty : PStr} (ht : e.tag = some (c :: cs)) (hc : c ≠ 123) (hj : urljoin nl (e.base.getD []) (c :: cs) = .ok ty) {ps : List (PStr × PStr)}
    (hps : List.Forall₂ (fun e x => (∃ c cs, e.tag = some (c :: cs) ∧ c ≠ 123 ∧ urljoin nl (e.base.getD []) (c :: cs) = .ok x.1) ∧
      ∃ v, e.attrib.get? (py! "{" ++ Spec.rdfX ++ py! "}resource") = some v ∧
        (v.head?.any isAsciiAlpha = true → x.2 = v) ∧ (v.head?.any isAsciiAlpha = false → urljoin nl (e.base.getD []) v = .ok x.2)) e.children ps) :
    xmlResource nl add st sink e =
      (st', (mkTriple subj (.named (Spec.rdfX ++ py! "type")) (.named ty) :: Spec.propTriples subj ps).foldl add sink, .ok subj) := by
  have hd : e.tag ≠ some (clarkRdf (py! "Description")) := by
    rw [ht]; intro h
    exact hc (List.cons.inj (Option.some.inj h : c :: cs = 123 :: _)).1
  have hr : xmlResolveTag nl e = .ok ty := by
    unfold xmlResolveTag; rw [ht]; simp only [if_neg hc]; exact hj
  unfold xmlResource
  simp only [hsub, if_neg hd, hr, Except.map, C119_plain_partial nl add subj _ ps none _ hps, List.foldl_cons]
  rfl

/-- An element without a namespace and attributes, written out: its type and its property elements, each of which names its value with `rdf:resource`; all names are resolved
    against the base, and so are values that do not begin with a letter. -/
theorem C119_element_partial (nl : PStr → Bool) (add : σ → Stmt → σ) (st : BState) (sink : σ) {c : Nat} {cs ty : PStr} (hc : c ≠ 123) {b : Option PStr}
    (hj : urljoin nl (b.getD []) (c :: cs) = .ok ty) {props ps : List (PStr × PStr)}
    (hps : List.Forall₂ (fun x y => (∃ d ds, x.1 = d :: ds ∧ d ≠ 123) ∧ urljoin nl (b.getD []) x.1 = .ok y.1 ∧
      (x.2.head?.any isAsciiAlpha = true → y.2 = x.2) ∧ (x.2.head?.any isAsciiAlpha = false → urljoin nl (b.getD []) x.2 = .ok y.2)) props ps) :
    xmlResource nl add st sink (.mk (c :: cs) [] b (props.map fun x => .mk x.1 [(py! "{" ++ Spec.rdfX ++ py! "}resource", x.2)] b [])) =
      ({ st with next := st.next + 1 },
        (mkTriple (.bnode st.next) (.named (Spec.rdfX ++ py! "type")) (.named ty) :: Spec.propTriples (.bnode st.next) ps).foldl add sink, .ok (.bnode st.next)) := by
  refine C119_described_partial nl add st _ sink (.mk (c :: cs) [] b (props.map fun x => .mk x.1 [(py! "{" ++ Spec.rdfX ++ py! "}resource", x.2)] b [])) rfl rfl hc hj ?_
  show List.Forall₂ _ (props.map _) ps
  rw [List.forall₂_map_left_iff]
  refine hps.imp ?_
  rintro ⟨x, v⟩ ⟨p, q⟩ ⟨⟨d, ds, h1, h2⟩, h3, h4, h5⟩
  dsimp only at h1 h3 h4 h5 ⊢
  subst h1
  exact ⟨⟨d, ds, rfl, h2, h3⟩, v, rfl, h4, h5⟩

/-- Non-trivial: two property elements without a namespace below an element without one. -/
example : (xmlResource (fun _ => true) (fun (l : List Stmt) t => l ++ [t]) { map := [], next := 5 } []
    (.mk (py! "Book") [] (some (py! "http://a/b")) [.mk (py! "author") [(clarkRdf (py! "resource"), py! "http://x")] (some (py! "http://a/b")) [],
      .mk (py! "next") [(clarkRdf (py! "resource"), py! "#c")] (some (py! "http://a/b")) []])).2 =
    ([mkTriple (.bnode 5) (.named (py! "http://www.w3.org/1999/02/22-rdf-syntax-ns#type")) (.named (py! "http://a/Book")),
      mkTriple (.bnode 5) (.named (py! "http://a/author")) (.named (py! "http://x")),
      mkTriple (.bnode 5) (.named (py! "http://a/next")) (.named (py! "http://a/b#c"))], .ok (.bnode 5)) := by rfl

end Verif
