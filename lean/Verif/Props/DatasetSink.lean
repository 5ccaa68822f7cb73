import Verif.Model.DatasetSink
import Verif.Props.ParserApi
import Verif.Props.Dataset
import Verif.Props.Streams
/-
C136: an N-Quads document read into a Dataset; C137: N-Triples and Turtle documents read into a Dataset.
-/
namespace Verif
open Spec NTSpec

/-! ### C136 -/

/-- A statement of an N-Quads document has a graph label, an IRI. -/
theorem quadDoc_graph {text : PStr} {rs : List RStmt} (h : Doc code true text rs) : ∀ r ∈ rs, ∃ g, r.g = some (.iri g) := by
  have key : ∀ {s t r}, Statement code true s t r → ∃ g, t.g = some (.iri g) := by
    intro s t r h
    cases h with
    | quad => exact ⟨_, rfl⟩
    | bnodeGraph h => exact h.elim
    | noGraph h => exact h.elim
  have rest : ∀ {s ts}, Rest code true s ts → ∀ t ∈ ts, ∃ g, t.g = some (.iri g) := by
    intro s ts h
    generalize hq : true = q at h
    induction h with
    | eof _ => simp
    | eol _ _ _ => simp
    | next _ _ hs _ ih =>
      subst hq
      intro t ht
      rcases List.mem_cons.1 ht with rfl | ht
      · exact key hs
      · exact ih t ht
  cases h with
  | first hs hr =>
    intro r h
    rcases List.mem_cons.1 h with rfl | h
    · exact key hs
    · exact rest hr r h
  | rest hr => exact rest hr

/-- The quads of the statements, the blank nodes being given by `f`. -/
def quadsOf (f : PStr → Nat) (rs : List RStmt) : List Qd :=
  rs.map fun r => ⟨r.s.subst f, r.p.subst f, r.o.subst f, (r.g.map (·.subst f)).getD .none⟩

theorem addAllAny_quads (ds : Dataset) (f : PStr → Nat) (rs : List RStmt) (hg : ∀ r ∈ rs, ∃ g, r.g = some (.iri g)) :
    ds.addAllAny (rs.map (·.subst f)) = (ds.addAll ((quadsOf f rs).map fun q => (q.s, q.p, q.o, q.g)), .ok ()) := by
  induction rs generalizing ds with
  | nil => rfl
  | cons r rs ih =>
    obtain ⟨g, e⟩ := hg r (by simp)
    have := ih (ds.add (r.s.subst f) (r.p.subst f) (r.o.subst f) (.named g)) fun r hr => hg r (by simp [hr])
    simp only [List.map_cons, Dataset.addAllAny, Dataset.addAny, RStmt.subst, e, Option.map_some, RTerm.subst] at this ⊢
    rw [this]
    simp only [quadsOf, List.map_cons, e, Option.map_some, RTerm.subst, Option.getD_some, Dataset.addAll, List.foldl_cons]

/-- A sentence of the parser's N-Quads grammar (C106) read into any dataset: the dataset is then as after adding the quads that the statements denote, so that
    C11 and C12 say what it contains and what match finds. Each label gives one new blank node. -/
theorem C136_string (ord) (ops : List DOp) (next : Nat) {text : PStr} {rs : List RStmt} (h : Doc code true text rs) :
    ∃ f n' qs, parseStringDs true next text (Dataset.run ord ops) = (Dataset.run ord (ops ++ [.addAll qs]), n', .ok ()) ∧
      (∀ q : Qd, q ∈ qs ↔ ∃ r ∈ rs, r.subst f = q.stmt) ∧
      (∀ r ∈ rs, ∀ r' ∈ rs, ∀ l l', r.HasLabel l → r'.HasLabel l' → f l = f l' → l = l') ∧
      next ≤ n' ∧ ∀ r ∈ rs, ∀ l, r.HasLabel l → next ≤ f l ∧ f l < n' := by
  have hd := pDoc_iff.2 h
  have hg := quadDoc_graph h
  obtain ⟨s1, s2, s3, s4⟩ := BState.stmts_spec (BState.OK.init next) rs
  have hlook : ∀ r ∈ rs, ∀ l, r.HasLabel l → (BState.stmts { map := [], next := next } rs).1.map.get? l = some ((BState.stmts { map := [], next := next } rs).1.look l) := by
    intro r hr l hl
    obtain ⟨k, hk⟩ := s3 r hr l hl
    simp [BState.look, hk]
  refine ⟨(BState.stmts { map := [], next := next } rs).1.look, (BState.stmts { map := [], next := next } rs).1.next,
    quadsOf (BState.stmts { map := [], next := next } rs).1.look rs, ?_, fun q => ?_, ?_, s2.1, ?_⟩
  · simp only [parseStringDs, hd]
    generalize (BState.stmts { map := [], next := next } rs).1.look = f at s4
    rw [s4, addAllAny_quads _ _ _ hg]
    simp only [Dataset.run, List.foldl_append, List.foldl_cons, List.foldl_nil, Dataset.exec]
  · unfold quadsOf
    rw [List.mem_map]
    obtain ⟨a, b, c, d⟩ := q
    constructor
    · rintro ⟨r, hr, e⟩
      obtain ⟨g, eg⟩ := hg r hr
      refine ⟨r, hr, ?_⟩
      simp only [eg, Qd.mk.injEq, Option.map_some, Option.getD_some] at e
      obtain ⟨rfl, rfl, rfl, rfl⟩ := e
      simp [RStmt.subst, Qd.stmt, mkQuad, eg]
    · rintro ⟨r, hr, e⟩
      refine ⟨r, hr, ?_⟩
      simp only [RStmt.subst, Qd.stmt, mkQuad, Stmt.mk.injEq] at e
      obtain ⟨rfl, rfl, rfl, e⟩ := e
      simp [e]
  · intro r hr r' hr' l l' hl hl' e
    have b := hlook r' hr' l' hl'
    rw [← e] at b
    exact s1.inj _ _ _ (hlook r hr l hl) b
  · intro r hr l hl
    exact s1.range _ _ (hlook r hr l hl)

/-- In terms of the dataset's methods: a quad is in it afterwards iff it was before or is stated; match with any pattern finds the quads, old and stated, that
    match it; each of the stated quads is counted once. -/
theorem C136_members (ord) (hord : IsOrders ord) (ops : List DOp) (hops : ∀ op ∈ ops, op.WF) (next : Nat) {text : PStr} {rs : List RStmt}
    (h : Doc code true text rs) :
    ∃ f ds' n', parseStringDs true next text (Dataset.run ord ops) = (ds', n', .ok ()) ∧
      (∀ q : Qd, ds'.containsQuad q.s q.p q.o q.g = true ↔
        (Dataset.run ord ops).containsQuad q.s q.p q.o q.g = true ∨ ∃ r ∈ rs, r.subst f = q.stmt) ∧
      (∀ s p o g, NonEmpty s → NonEmpty p → NonEmpty o → NonEmpty g → ∀ x,
        x ∈ (ds'.match ord (arg s) (arg p) (arg o) (arg g)).2 ↔
          ∃ q : Qd, x = q.stmt ∧ q.Matches s p o g ∧ (q ∈ runQuads ops ∨ ∃ r ∈ rs, r.subst f = q.stmt)) ∧
      ∃ S : Finset Qd, (∀ q, q ∈ S ↔ q ∈ runQuads ops ∨ ∃ r ∈ rs, r.subst f = q.stmt) ∧ ds'.len = S.card := by
  obtain ⟨f, n', qs, h1, h2, -⟩ := C136_string ord ops next h
  have hops' : ∀ op ∈ ops ++ [DOp.addAll qs], op.WF := by
    intro op ho
    rcases List.mem_append.1 ho with ho | ho
    · exact hops op ho
    · rw [List.mem_singleton.1 ho]; trivial
  have hq : ∀ q, q ∈ runQuads (ops ++ [DOp.addAll qs]) ↔ q ∈ runQuads ops ∨ ∃ r ∈ rs, r.subst f = q.stmt := by
    intro q
    unfold runQuads
    rw [List.foldl_append]
    simp only [List.foldl_cons, List.foldl_nil, DOp.apply, Finset.mem_union, List.mem_toFinset, h2]
  have c := C11_dataset_refines_set ord hord ops hops
  have c' := C11_dataset_refines_set ord hord _ hops'
  refine ⟨f, _, n', h1, fun q => ?_, fun s p o g hs hp ho hg x => ?_, _, hq, c'.2.1⟩
  · rw [c'.1, hq, c.1]
  · rw [(C12_match_exact ord hord _ hops' s p o g hs hp ho hg).2]
    constructor
    · rintro ⟨q, k1, k2, k3⟩; exact ⟨q, k2, k3, (hq q).1 k1⟩
    · rintro ⟨q, k2, k3, k1⟩; exact ⟨q, (hq q).2 k1, k2, k3⟩

/-- Any other text raises and leaves the dataset as it was. -/
theorem C136_rejected (next : Nat) (text : PStr) (ds : Dataset) (h : ¬ ∃ rs, Doc code true text rs) :
    ∃ e, parseStringDs true next text ds = (ds, next, .error e) := by
  unfold parseStringDs
  cases hd : pDoc true text with
  | error e => exact ⟨e, rfl⟩
  | ok rs => exact absurd ⟨rs, pDoc_iff.1 hd⟩ h

theorem parseLinesDs_eq (lines : List PStr) (st : BState) (ds : Dataset) :
    parseLinesDs true st lines ds = parseLines Dataset.addStmt true st lines ds := by
  induction lines generalizing st ds with
  | nil => rfl
  | cons l ls ih =>
    unfold parseLinesDs parseLines
    by_cases hl : l = []
    · simp only [hl, if_true]; exact ih st ds
    · simp only [hl, if_false]
      cases hd : pDoc true l with
      | error e => rfl
      | ok rs =>
        have hg := quadDoc_graph (pDoc_iff.1 hd)
        dsimp only
        cases rs with
        | nil => rfl
        | cons r rs =>
          obtain ⟨g, e⟩ := hg r (by simp)
          have e1 : ∃ a b c d, (st.stmts (r :: rs)).2 = mkQuad a b c d :: (BState.stmts (st.stmt r).1 rs).2 := by
            simp only [BState.stmts, BState.stmt, e]
            exact ⟨_, _, _, _, rfl⟩
          obtain ⟨a, b, c, d, e1⟩ := e1
          rw [e1]
          simp only [Dataset.addAny, mkQuad]
          exact ih _ _

/-- Streams: what C39, C40 and C41 say of every sink holds for a dataset. In particular a stream of lines with one statement each is read as its text. -/
theorem C136_stream (next : Nat) (content : PStr) (ds : Dataset) :
    parseStreamDs true next content ds = parseStream Dataset.addStmt true next content ds := by
  unfold parseStreamDs parseStream
  rw [parseLinesDs_eq]

theorem parseStringDs_eq (next : Nat) (text : PStr) (ds : Dataset) :
    parseStringDs true next text ds = parseString Dataset.addStmt true next text ds := by
  unfold parseStringDs parseString
  cases hd : pDoc true text with
  | error e => rfl
  | ok rs =>
    have hg := quadDoc_graph (pDoc_iff.1 hd)
    dsimp only
    rw [(BState.stmts_spec (BState.OK.init next) rs).2.2.2, addAllAny_quads _ _ _ hg]
    generalize (BState.stmts { map := [], next := next } rs).1.look = f
    simp only [quadsOf, Dataset.addAll, List.foldl_map, Dataset.addStmt, RStmt.subst]

theorem C136_stream_lines (next : Nat) {content : PStr} {rs : List RStmt} (h : Doc code true content rs)
    (h1 : ∀ l ∈ splitLines content, ∃ r, Doc code true l [r]) (ds : Dataset) :
    parseStreamDs true next content ds = parseStringDs true next content ds := by
  obtain ⟨rss, k1, k2, -, k4, -⟩ := C39_exact true next (pDoc_iff.2 h)
  rw [C136_stream, parseStringDs_eq]
  refine k4 ?_ _ _
  clear k2 k4
  generalize splitLines content = ls at k1 h1
  induction k1 with
  | nil => simp
  | @cons l x ls xs hlx _ ih =>
    intro y hy
    rcases List.mem_cons.1 hy with rfl | hy
    · obtain ⟨r, hr⟩ := h1 l (by simp)
      rw [pDoc_iff.2 hr] at hlx
      rw [← Except.ok.inj hlx]; rfl
    · exact ih (fun l hl => h1 l (by simp [hl])) y hy

/-- The two quads of C117, whose triple is in two graphs, are both there. -/
example : (parseStringDs true 0 twoQuads Dataset.new).1.len = 2 := by decide

example : ∃ rs, Doc code true twoQuads rs ∧ rs.length = 2 := ⟨_, pDoc_iff.1 (by rfl), by rfl⟩

/-! ### C137 -/

/-- The property: an N-Triples document read into a dataset adds its statements to the default graph (here None, as for the JSON-LD parser). -/
def C137_statement : Prop :=
  ∀ (next : Nat) (text : PStr) (rs : List RStmt), Doc code false text rs →
    ∃ f ds' n', parseStringDs false next text Dataset.new = (ds', n', .ok ()) ∧
      ∀ q : Qd, ds'.containsQuad q.s q.p q.o q.g = true ↔ q.g = .none ∧ ∃ r ∈ rs, r.subst f = mkTriple q.s q.p q.o

/-- N-Triples: a document with a statement raises AttributeError, and nothing is added. -/
theorem C137_exact (next : Nat) {text : PStr} {rs : List RStmt} (h : Doc code false text rs) (ds : Dataset) :
    (rs = [] → parseStringDs false next text ds = (ds, next, .ok ())) ∧
    (rs ≠ [] → ∃ n', parseStringDs false next text ds = (ds, n', .error .attributeError)) := by
  have hd := pDoc_iff.2 h
  refine ⟨?_, fun hne => ?_⟩
  · rintro rfl
    simp only [parseStringDs, hd]
    rfl
  · have hs := statements_graph next text
    unfold statements parseString at hs
    rw [hd] at hs
    dsimp only at hs
    rw [foldl_snoc, List.nil_append] at hs
    refine ⟨(BState.stmts { map := [], next := next } rs).1.next, ?_⟩
    simp only [parseStringDs, hd]
    cases rs with
    | nil => exact absurd rfl hne
    | cons r rs =>
      simp only [BState.stmts] at hs ⊢
      have := hs _ (List.mem_cons_self ..)
      simp only [Dataset.addAllAny, Dataset.addAny, this]

/-- The same from a stream: the first line that is read ends the call. -/
theorem C137_stream (next : Nat) {line rest : PStr} {r : RStmt} {rs : List RStmt} (hl : 10 ∉ line) (h : Doc code false (line ++ [10]) (r :: rs)) (ds : Dataset) :
    ∃ n', parseStreamDs false next (line ++ 10 :: rest) ds = (ds, n', .error .attributeError) := by
  have hd := pDoc_iff.2 h
  have hg : ∀ t ∈ r :: rs, t.g = none := by
    cases h with
    | first hs hr =>
      intro x hx
      rcases List.mem_cons.1 hx with rfl | hx
      · exact statement_graph hs
      · exact rest_graph hr x hx
    | rest hr => exact rest_graph hr
  have hr := hg r (by simp)
  refine ⟨(BState.stmts { map := [], next := next } (r :: rs)).1.next, ?_⟩
  unfold parseStreamDs
  rw [splitLines_line hl]
  unfold parseLinesDs
  rw [if_neg (by simp)]
  simp only [hd, BState.stmts, BState.stmt, hr, Dataset.addAny, mkTriple]

/-- Turtle: likewise. -/
theorem C137_turtle (nl : PStr → Bool) (base : PStr) (next : Nat) {text : PStr} {n : Nat} {ts : List Stmt} (h : Turtle.parseText nl base next text = .ok (n, ts))
    (ds : Dataset) : turtleParseDs nl base next text ds = (ds, n, if ts = [] then .ok () else .error .attributeError) := by
  have hg : ∀ t ∈ ts, t.g = none := by
    rcases Turtle.C94_all_or_nothing (nl := nl) (base := base) (next := next) (.str text) with ⟨e, he⟩ | ⟨n', ts', _, hg, he⟩
    · have := he _ (fun l t => l ++ [t]) []
      simp only [Turtle.parse, h, Prod.mk.injEq, reduceCtorEq, and_false] at this
    · have := he _ (fun l t => l ++ [t]) []
      simp only [Turtle.parse, h, foldl_snoc, List.nil_append, Prod.mk.injEq] at this
      rw [this.1]; exact hg
  unfold turtleParseDs
  rw [h]
  dsimp only
  cases ts with
  | nil => rfl
  | cons t ts =>
    have := hg t (by simp)
    simp [Dataset.addAllAny, Dataset.addAny, this]

theorem C137_refuted : ¬ C137_statement := by
  intro h
  have hd : Doc code false (py! "<s> <p> <o> .") [⟨.iri (py! "s"), .iri (py! "p"), .iri (py! "o"), none⟩] := pDoc_iff.1 (by decide)
  obtain ⟨f, ds', n', h1, -⟩ := h 0 _ _ hd
  obtain ⟨n, h2⟩ := (C137_exact 0 hd Dataset.new).2 (by simp)
  rw [h1] at h2
  simp at h2

end Verif
