import Verif.Spec.JsonLd
import Verif.Lemmas.NTRead
import Verif.Props.Dataset
/-
C74, C75, C89, C90: the JSON-LD loader.
-/
namespace Verif
open Spec Dataset

/-- The image of a fragment. -/
def Frag.subst (f : PStr → Nat) : Frag → Term
  | .iri v => .named v
  | .blank v => .bnode (f v)
  | .lit v l d => .lit v l (some d)
  | .other => .none

def JTriple.subst (f : PStr → Nat) (g : Term) (t : JTriple) : Stmt := mkQuad (t.s.subst f) (t.p.subst f) (t.o.subst f) g

def JTriple.HasBlank (t : JTriple) (l : PStr) : Prop := t.s = .blank l ∨ t.p = .blank l ∨ t.o = .blank l

def Frag.InTable (st : BState) (t : Frag) : Prop := ∀ l, t = .blank l → st.Has l

theorem Frag.InTable.ext {st st' : BState} {t : Frag} (h : t.InTable st) (he : st.Ext st') : t.InTable st' ∧ t.subst st'.look = t.subst st.look := by
  refine ⟨fun l hl => he.has (h l hl), ?_⟩
  cases t with
  | blank l => simp only [Frag.subst, he.look (h l rfl)]
  | iri _ => rfl
  | lit _ _ _ => rfl
  | other => rfl

theorem BState.frag_spec {n0 st} (h : BState.OK n0 st) (t : Frag) :
    BState.OK n0 (st.frag t).1 ∧ st.Ext (st.frag t).1 ∧ t.InTable (st.frag t).1 ∧ (st.frag t).2 = t.subst (st.frag t).1.look := by
  cases t with
  | iri i => exact ⟨h, .refl _, by simp [Frag.InTable], rfl⟩
  | lit v l d => exact ⟨h, .refl _, by simp [Frag.InTable], rfl⟩
  | other => exact ⟨h, .refl _, by simp [Frag.InTable], rfl⟩
  | blank l =>
    obtain ⟨a, b, c⟩ := BState.node_spec h l
    refine ⟨a, b, ?_, ?_⟩
    · intro l' e; cases e; exact ⟨_, c⟩
    · simp [BState.frag, Frag.subst, BState.look, c]

theorem JTriple.ext_subst {st st' : BState} {t : JTriple} (h : ∀ l, t.HasBlank l → st.Has l) (he : st.Ext st') (g : Term) :
    t.subst st'.look g = t.subst st.look g := by
  unfold JTriple.subst
  have hs : t.s.InTable st := fun l e => h l (Or.inl e)
  have hp : t.p.InTable st := fun l e => h l (Or.inr (Or.inl e))
  have ho : t.o.InTable st := fun l e => h l (Or.inr (Or.inr e))
  rw [(hs.ext he).2, (hp.ext he).2, (ho.ext he).2]

theorem BState.jquad_spec {n0 st} (h : BState.OK n0 st) (g : Term) (t : JTriple) :
    BState.OK n0 (st.jquad g t).1 ∧ st.Ext (st.jquad g t).1 ∧ (∀ l, t.HasBlank l → (st.jquad g t).1.Has l) ∧
      (st.jquad g t).2 = t.subst (st.jquad g t).1.look g := by
  obtain ⟨a1, a2, a3, a4⟩ := BState.frag_spec h t.s
  obtain ⟨b1, b2, b3, b4⟩ := BState.frag_spec a1 t.p
  obtain ⟨c1, c2, c3, c4⟩ := BState.frag_spec b1 t.o
  refine ⟨c1, (a2.trans b2).trans c2, ?_, ?_⟩
  · rintro l (e | e | e)
    · exact (b2.trans c2).has (a3 l e)
    · exact c2.has (b3 l e)
    · exact c3 l e
  · show mkQuad _ _ _ g = _
    unfold JTriple.subst
    rw [a4, b4, c4, ← (a3.ext (b2.trans c2)).2, ← (b3.ext c2).2]
    rfl

variable {σ : Type}

theorem jTriples_spec (add : σ → Stmt → σ) (g : Term) {n0 st} (h : BState.OK n0 st) (sink : σ) (ts : List JTriple) :
    let r := jTriples add g st sink ts
    BState.OK n0 r.1 ∧ st.Ext r.1 ∧ (∀ t ∈ ts, ∀ l, t.HasBlank l → r.1.Has l) ∧ r.2 = (ts.map (·.subst r.1.look g)).foldl add sink := by
  induction ts generalizing st sink with
  | nil => exact ⟨h, .refl _, by simp, rfl⟩
  | cons t ts ih =>
    obtain ⟨a1, a2, a3, a4⟩ := BState.jquad_spec h g t
    obtain ⟨b1, b2, b3, b4⟩ := ih a1 (add sink (st.jquad g t).2)
    refine ⟨b1, a2.trans b2, ?_, ?_⟩
    · intro t' ht'
      rcases List.mem_cons.1 ht' with rfl | h'
      · exact fun l hl => b2.has (a3 l hl)
      · exact b3 t' h'
    · show (jTriples add g (st.jquad g t).1 (add sink (st.jquad g t).2) ts).2 = _
      rw [b4, List.map_cons, List.foldl_cons]
      congr 2
      rw [a4]
      exact (JTriple.ext_subst a3 b2 g).symm

/-- All statements with their images. -/
def jStmts (f : PStr → Nat) (jd : JDataset) : List Stmt := jd.flatMap fun g => g.2.map (·.subst f (graphIri g.1))

theorem jGraphs_spec (add : σ → Stmt → σ) {n0 st} (h : BState.OK n0 st) (sink : σ) (jd : JDataset) :
    let r := jGraphs add st sink jd
    BState.OK n0 r.1 ∧ st.Ext r.1 ∧ (∀ l, BlankIn jd l → r.1.Has l) ∧ r.2 = (jStmts r.1.look jd).foldl add sink := by
  induction jd generalizing st sink with
  | nil => exact ⟨h, .refl _, by simp [BlankIn], rfl⟩
  | cons g jd ih =>
    obtain ⟨name, ts⟩ := g
    obtain ⟨a1, a2, a3, a4⟩ := jTriples_spec add (graphIri name) h sink ts
    obtain ⟨b1, b2, b3, b4⟩ := ih a1 (jTriples add (graphIri name) st sink ts).2
    refine ⟨b1, a2.trans b2, ?_, ?_⟩
    · rintro l ⟨g', hg', t, ht, hl⟩
      rcases List.mem_cons.1 hg' with rfl | h'
      · exact b2.has (a3 t ht l hl)
      · exact b3 l ⟨g', h', t, ht, hl⟩
    · show (jGraphs add _ _ jd).2 = _
      rw [b4]
      show _ = (jStmts (jGraphs add (jTriples add (graphIri name) st sink ts).1 (jTriples add (graphIri name) st sink ts).2 jd).1.look
        ((name, ts) :: jd)).foldl add sink
      generalize (jGraphs add (jTriples add (graphIri name) st sink ts).1 (jTriples add (graphIri name) st sink ts).2 jd).1 = fin at b2
      unfold jStmts
      rw [List.flatMap_cons, List.foldl_append]
      congr 1
      rw [a4]
      congr 1
      apply List.map_congr_left
      intro t ht
      exact (JTriple.ext_subst (a3 t ht) b2 _).symm

theorem Frag.image_iff {f : PStr → Nat} {t : Frag} (h : t ≠ .other) (x : Term) : Image f t x ↔ x = t.subst f := by
  constructor
  · intro h; cases h <;> rfl
  · rintro rfl
    cases t with
    | iri v => exact .iri v
    | blank v => exact .blank v
    | lit v l d => exact .lit v l d
    | other => exact absurd rfl h

theorem graphName_iff (name : PStr) (x : Term) : GraphName name x ↔ x = graphIri name := by
  unfold graphIri
  constructor
  · intro h
    cases h with
    | default => rfl
    | iri _ h => rw [if_neg h]
  · rintro rfl
    split
    · next h => subst h; exact .default
    · next h => exact .iri _ h

theorem addStmts_qds (ds : Dataset) (S : Finset Qd) (h : Rep ds S) (qs : List Stmt) (hq : ∀ q ∈ qs, ∃ x : Qd, x.stmt = q) :
    ∃ S', Rep (qs.foldl Dataset.addStmt ds) S' ∧ ∀ x : Qd, x ∈ S' ↔ x ∈ S ∨ x.stmt ∈ qs := by
  induction qs generalizing ds S with
  | nil => exact ⟨S, h, by simp⟩
  | cons q qs ih =>
    obtain ⟨x, rfl⟩ := hq q (by simp)
    obtain ⟨S', h1, h2⟩ := ih _ _ (h.add x) fun q hq' => hq q (by simp [hq'])
    refine ⟨S', h1, fun y => ?_⟩
    rw [h2, Finset.mem_insert, List.mem_cons]
    have : y.stmt = x.stmt ↔ y = x := by
      constructor
      · obtain ⟨a, b, c, d⟩ := x
        obtain ⟨a', b', c', d'⟩ := y
        simp [Qd.stmt, mkQuad]
      · rintro rfl; rfl
    rw [this]
    tauto

theorem mem_jStmts {f : PStr → Nat} {jd : JDataset} (hw : WellTyped jd) (q : Qd) : q.stmt ∈ jStmts f jd ↔ Stated GraphName f jd q := by
  unfold jStmts Stated
  simp only [List.mem_flatMap, List.mem_map]
  constructor
  · rintro ⟨g, hg, t, ht, e⟩
    obtain ⟨w1, w2, w3⟩ := hw g hg t ht
    refine ⟨g, hg, t, ht, ?_⟩
    obtain ⟨a, b, c, d⟩ := q
    simp only [JTriple.subst, mkQuad, Qd.stmt, Stmt.mk.injEq, Option.some.injEq] at e
    obtain ⟨rfl, rfl, rfl, rfl⟩ := e
    exact ⟨(Frag.image_iff w1 _).2 rfl, (Frag.image_iff w2 _).2 rfl, (Frag.image_iff w3 _).2 rfl, (graphName_iff _ _).2 rfl⟩
  · rintro ⟨g, hg, t, ht, h1, h2, h3, h4⟩
    obtain ⟨w1, w2, w3⟩ := hw g hg t ht
    refine ⟨g, hg, t, ht, ?_⟩
    obtain ⟨a, b, c, d⟩ := q
    rw [Frag.image_iff w1] at h1
    rw [Frag.image_iff w2] at h2
    rw [Frag.image_iff w3] at h3
    rw [graphName_iff] at h4
    dsimp only at h1 h2 h3 h4
    subst h1 h2 h3 h4
    rfl

/-- Reading a document into any dataset adds exactly the images of the statements of the processor's result. Blank node identifiers are
    mapped to nodes that did not exist before, one node per identifier for the whole document, different nodes for different identifiers. -/
theorem C74_quads (ord) (ops : List DOp) (hops : ∀ op ∈ ops, op.WF) (call : CallState Dataset) (next : Nat) (jd : JDataset)
    (hw : WellTyped jd) :
    ∃ ds' n' f, parseJson Dataset.addStmt call next (.ok jd) (Dataset.run ord ops) = (none, n', .ok ds') ∧
      (∀ q : Qd, ds'.containsQuad q.s q.p q.o q.g = true ↔
        (Dataset.run ord ops).containsQuad q.s q.p q.o q.g = true ∨ Stated GraphName f jd q) ∧
      (∀ l l', BlankIn jd l → BlankIn jd l' → f l = f l' → l = l') ∧
      (next ≤ n' ∧ ∀ l, BlankIn jd l → next ≤ f l ∧ f l < n') := by
  have h := rep_run ord ops hops
  obtain ⟨a1, a2, a3, a4⟩ := jGraphs_spec Dataset.addStmt (BState.OK.init next) (Dataset.run ord ops) jd
  refine ⟨_, _, (jGraphs Dataset.addStmt { map := [], next := next } (Dataset.run ord ops) jd).1.look, rfl, fun q => ?_, ?_, a2.1, ?_⟩
  · rw [a4]
    have hq : ∀ q ∈ jStmts (jGraphs Dataset.addStmt { map := [], next := next } (Dataset.run ord ops) jd).1.look jd, ∃ x : Qd, x.stmt = q := by
      intro q hq
      simp only [jStmts, List.mem_flatMap, List.mem_map] at hq
      obtain ⟨g, -, t, -, rfl⟩ := hq
      exact ⟨⟨_, _, _, _⟩, rfl⟩
    obtain ⟨S', h1, h2⟩ := addStmts_qds _ _ h _ hq
    rw [h1.contains, h2, h.contains, mem_jStmts hw]
  · intro l l' hl hl' e
    obtain ⟨i, hi⟩ := a3 l hl
    obtain ⟨j, hj⟩ := a3 l' hl'
    simp only [BState.look, hi, hj, Option.getD_some] at e
    subst e
    exact a1.inj _ _ _ hi hj
  · intro l hl
    obtain ⟨i, hi⟩ := a3 l hl
    simp only [BState.look, hi, Option.getD_some]
    exact a1.range _ _ hi

/-- For any kind of sink: the statements are added in document order. -/
theorem C74_order (add : σ → Stmt → σ) (call : CallState σ) (next : Nat) (jd : JDataset) (sink : σ) :
    ∃ n' f, parseJson add call next (.ok jd) sink = (none, n', .ok ((jStmts f jd).foldl add sink)) := by
  obtain ⟨-, -, -, a4⟩ := jGraphs_spec add (BState.OK.init next) sink jd
  refine ⟨(jGraphs add { map := [], next := next } sink jd).1.next, (jGraphs add { map := [], next := next } sink jd).1.look, ?_⟩
  rw [← a4]
  rfl

def exJd : JDataset :=
  [(py! "@default", [⟨.blank (py! "_:b0"), .iri (py! "http://p"), .lit (py! "x") (some (py! "en")) (py! "http://www.w3.org/1999/02/22-rdf-syntax-ns#langString")⟩]),
   (py! "http://g", [⟨.blank (py! "_:b0"), .iri (py! "http://p"), .blank (py! "_:b1")⟩])]

example : WellTyped exJd := by unfold WellTyped exJd; decide
example : (parseJson (fun l t => l ++ [t]) none 7 (.ok exJd) []).2.2 =
    .ok [mkQuad (.bnode 7) (.named (py! "http://p")) (.lit (py! "x") (some (py! "en")) (some (py! "http://www.w3.org/1999/02/22-rdf-syntax-ns#langString"))) .none,
      mkQuad (.bnode 7) (.named (py! "http://p")) (.bnode 8) (.named (py! "http://g"))] := by decide

/-! ### C75: graphs named by blank nodes -/

/-- Full statement: as in C74, where a graph name that is a blank node identifier stands for the same node as in the statements. -/
def C75_statement : Prop :=
  ∀ (next : Nat) (jd : JDataset), WellTyped jd → (∀ g ∈ jd, py! "_:" <+: g.1 → g.2 ≠ [] → BlankIn jd g.1) →
    ∃ ds' n' f, parseJson Dataset.addStmt none next (.ok jd) Dataset.new = (none, n', .ok ds') ∧
      ∀ q : Qd, ds'.containsQuad q.s q.p q.o q.g = true ↔ Stated (GraphNameB f) f jd q

def exBlankGraph : JDataset := [(py! "_:b0", [⟨.blank (py! "_:b0"), .iri (py! "p"), .iri (py! "o")⟩])]

/-- It is false: the graph becomes a NamedNode spelled like the identifier. -/
theorem C75_refuted : ¬ C75_statement := by
  intro h
  obtain ⟨ds', n', f, h1, h2⟩ := h 0 exBlankGraph (by unfold WellTyped exBlankGraph; decide) (by
    intro g hg _ _
    simp only [exBlankGraph, List.mem_singleton] at hg
    subst hg
    exact ⟨_, List.mem_singleton.2 rfl, _, List.mem_singleton.2 rfl, Or.inl rfl⟩)
  obtain ⟨e, n1, g, k1, k2, -⟩ := C74_quads (fun _ l => l) [] (by simp) none 0 exBlankGraph (by unfold WellTyped exBlankGraph; decide)
  have : Dataset.run (fun _ l => l) [] = Dataset.new := rfl
  rw [this, h1] at k1
  simp only [Prod.mk.injEq, Except.ok.injEq, true_and] at k1
  obtain ⟨-, rfl⟩ := k1
  have := (k2 ⟨.bnode (g (py! "_:b0")), .named (py! "p"), .named (py! "o"), .named (py! "_:b0")⟩).2 (Or.inr
    ⟨_, List.mem_singleton.2 rfl, _, List.mem_singleton.2 rfl, .blank _, .iri _, .iri _, .iri _ (by decide)⟩)
  obtain ⟨g', hg', t, ht, -, -, -, h4⟩ := (h2 _).1 this
  simp only [exBlankGraph, List.mem_singleton] at hg'
  subst hg'
  generalize hx : Term.named (py! "_:b0") = x at h4
  cases h4 with
  | iri _ _ h => exact h (by decide)
  | blank => cases hx

/-- It holds for documents without such graph names. -/
theorem C75_partial (ord) (ops : List DOp) (hops : ∀ op ∈ ops, op.WF) (call : CallState Dataset) (next : Nat) (jd : JDataset)
    (hw : WellTyped jd) (hn : ∀ g ∈ jd, ¬ py! "_:" <+: g.1) :
    ∃ ds' n' f, parseJson Dataset.addStmt call next (.ok jd) (Dataset.run ord ops) = (none, n', .ok ds') ∧
      ∀ q : Qd, ds'.containsQuad q.s q.p q.o q.g = true ↔
        (Dataset.run ord ops).containsQuad q.s q.p q.o q.g = true ∨ Stated (GraphNameB f) f jd q := by
  obtain ⟨ds', n', f, h1, h2, -⟩ := C74_quads ord ops hops call next jd hw
  refine ⟨ds', n', f, h1, fun q => ?_⟩
  rw [h2]
  have : Stated GraphName f jd q ↔ Stated (GraphNameB f) f jd q := by
    unfold Stated
    constructor
    · rintro ⟨g, hg, t, ht, a, b, c, d⟩
      refine ⟨g, hg, t, ht, a, b, c, ?_⟩
      have hng := hn g hg
      generalize g.1 = n at d hng
      generalize q.g = x at d
      cases d with
      | default => exact .default
      | iri _ h => exact .iri _ h hng
    · rintro ⟨g, hg, t, ht, a, b, c, d⟩
      refine ⟨g, hg, t, ht, a, b, c, ?_⟩
      have hng := hn g hg
      generalize g.1 = n at d hng
      generalize q.g = x at d
      cases d with
      | default => exact .default
      | iri _ h _ => exact .iri _ h
      | blank _ h => exact absurd h hng
  rw [this]

/-- Exactly: every quad read from a graph with any other name than `@default` is in the graph with that NamedNode, blank or not. -/
theorem C75_exact (next : Nat) (name : PStr) (hn : name ≠ py! "@default") (ts : List JTriple) (add : σ → Stmt → σ) (sink : σ) :
    ∃ n' f, parseJson add none next (.ok [(name, ts)]) sink = (none, n', .ok ((ts.map fun t =>
      mkQuad (t.s.subst f) (t.p.subst f) (t.o.subst f) (.named name)).foldl add sink)) := by
  obtain ⟨n', f, h⟩ := C74_order add none next [(name, ts)] sink
  refine ⟨n', f, ?_⟩
  rw [h, jStmts, List.flatMap_cons, List.flatMap_nil, List.append_nil]
  unfold graphIri
  simp only [if_neg hn]
  rfl

/-! ### C89: literals of different parsers -/

/-- What a JSON-LD processor returns for a plain string and for a string with language tag `l`. -/
def jString (v : PStr) : Option PStr → Frag
  | none => .lit v none (py! "http://www.w3.org/2001/XMLSchema#string")
  | some l => .lit v (some l) (py! "http://www.w3.org/1999/02/22-rdf-syntax-ns#langString")

/-- Full statement: a string without datatype reads as the same literal from N-Triples and from JSON-LD. -/
def C89_statement : Prop :=
  ∀ (text v : PStr) (l : Option PStr) (rs : List RStmt) (st : BState), pDoc false text = .ok rs → (∃ r ∈ rs, r.o = .lit v l none) →
    (st.frag (jString v l)).2 = .lit v l none

theorem C89_refuted : ¬ C89_statement := by
  intro h
  have := h (py! "<a> <b> \"x\"@en .") (py! "x") (some (py! "en")) _ { map := [], next := 0 } rfl ⟨_, List.mem_singleton.2 rfl, rfl⟩
  cases this

/-- Exactly: they are never the same, with or without a language tag. -/
theorem C89_never_equal (st : BState) (v v' : PStr) (l l' : Option PStr) : (st.frag (jString v l)).2 ≠ .lit v' l' none := by
  cases l <;> simp [jString, BState.frag]

/-! ### C90: document.parse -/

/-- Full statement: `document.parse` reads every document the JSON-LD processor accepts, once the previous calls are over. -/
def C90_statement : Prop :=
  ∀ (next : Nat) (jd : JDataset), WellTyped jd →
    (documentParse (fun (l : List Stmt) t => l ++ [t]) none next (.ok jd)).2.2 = .ok ()

theorem C90_refuted : ¬ C90_statement := by
  intro h
  have := h 0 exJd (by unfold WellTyped exJd; decide)
  revert this
  decide

/-- Exactly: after a `parse_json` that returned, `document.parse` raises AttributeError for every document with a statement. -/
theorem C90_exact (add : σ → Stmt → σ) (call : CallState σ) (next next' : Nat) (jd jd' : JDataset) (sink : σ) :
    let call' := (parseJson add call next (.ok jd) sink).1
    documentParse add call' next' (.ok jd') =
      (none, next', if ∃ g ∈ jd', g.2 ≠ [] then .error .attributeError else .ok ()) := by
  dsimp only [parseJson, documentParse]
  by_cases h : ∃ g ∈ jd', g.2 ≠ []
  · rw [if_pos h, if_neg]
    obtain ⟨g, hg, hne⟩ := h
    rw [List.all_eq_true]
    intro hall
    exact hne (List.isEmpty_iff.1 (hall g hg))
  · rw [if_neg h, if_pos]
    rw [List.all_eq_true]
    intro g hg
    rw [List.isEmpty_iff]
    by_contra hne
    exact h ⟨g, hg, hne⟩

/-- After a `parse_json` that failed, the statements of the next `document.parse` go to the sink of the failed call. -/
theorem C90_after_failure (add : σ → Stmt → σ) (call : CallState σ) (next next' : Nat) (e : Exc) (jd : JDataset) (sink : σ) :
    let call' := (parseJson add call next (.error e) sink).1
    ∃ f m n', documentParse add call' next' (.ok jd) = (some (m, (jStmts f jd).foldl add sink), n', .ok ()) := by
  obtain ⟨-, -, -, a4⟩ := jGraphs_spec add (BState.OK.init next') sink jd
  refine ⟨(jGraphs add { map := [], next := next' } sink jd).1.look, (jGraphs add { map := [], next := next' } sink jd).1.map,
    (jGraphs add { map := [], next := next' } sink jd).1.next, ?_⟩
  rw [← a4]
  rfl

end Verif
