import Verif.Props.WriteFail
import Verif.Props.NTGrammar
import Verif.Lemmas.IriFix
/-! C147, C148: what was read can be written; saving and loading again changes nothing more. -/
namespace Verif
open Spec NTSpec

/-! ### What can come out of the N-Triples parser -/

/-- The characters are characters, the language tag is one the parser reads. -/
def RTerm.FromText : RTerm → Prop
  | .iri i => i.Valid
  | .label _ => True
  | .lit v l d => v.Valid ∧ (∀ t, l = some t → LangOK t ∧ d = none) ∧ ∀ t, d = some t → t.Valid

theorem _root_.Verif.Spec.HexNumber.lt {n : Nat} {h : PStr} {v : Nat} (H : HexNumber n h v) : v < 16 ^ n := by
  induction H with
  | nil => simp
  | @cons n c d h v hd _ ih =>
    have : d < 16 := by cases hd <;> omega
    rw [Nat.pow_succ]
    calc d * 16 ^ n + v < d * 16 ^ n + 16 ^ n := by omega
      _ = (d + 1) * 16 ^ n := by rw [Nat.add_mul, Nat.one_mul]
      _ ≤ 16 * 16 ^ n := Nat.mul_le_mul_right _ this
      _ = 16 ^ n * 16 := Nat.mul_comm ..

theorem _root_.Verif.Spec.Denotes.valid {s v : PStr} (h : Denotes s v) (hs : s.Valid) : v.Valid := by
  induction h with
  | nil => intro c hc; cases hc
  | plain _ _ ih =>
    intro x hx
    rcases List.mem_cons.1 hx with rfl | hx
    · exact hs _ (by simp)
    · exact ih (fun y hy => hs y (by simp [hy])) x hx
  | @echar a c s v he _ ih =>
    intro x hx
    rcases List.mem_cons.1 hx with rfl | hx
    · clear ih hx; revert he; simp [stringEscapes]; omega
    · exact ih (fun y hy => hs y (by simp [hy])) x hx
  | uchar4 hh _ ih =>
    intro x hx
    rcases List.mem_cons.1 hx with rfl | hx
    · have := hh.lt; omega
    · exact ih (fun y hy => hs y (by simp [hy])) x hx
  | uchar8 _ hc _ ih =>
    intro x hx
    rcases List.mem_cons.1 hx with rfl | hx
    · exact hc
    · exact ih (fun y hy => hs y (by simp [hy])) x hx

theorem _root_.Verif.NTSpec.IriBody.valid {D : Dialect} {s v : PStr} (h : IriBody D s v) (hs : s.Valid) : v.Valid := by
  induction h with
  | nil => intro c hc; cases hc
  | char _ _ _ ih =>
    intro x hx
    rcases List.mem_cons.1 hx with rfl | hx
    · exact hs _ (by simp)
    · exact ih (fun y hy => hs y (by simp [hy])) x hx
  | uchar4 hh _ ih =>
    intro x hx
    rcases List.mem_cons.1 hx with rfl | hx
    · have := hh.lt; omega
    · exact ih (fun y hy => hs y (by simp [hy])) x hx
  | uchar8 _ hc _ ih =>
    intro x hx
    rcases List.mem_cons.1 hx with rfl | hx
    · exact hc
    · exact ih (fun y hy => hs y (by simp [hy])) x hx
  | gap _ _ _ ih => exact ih (fun y hy => hs y (by simp [hy]))

theorem iri_fromText {D : Dialect} {s v r : PStr} (h : Iri D s v r) (hs : s.Valid) : v.Valid ∧ r.Valid := by
  cases h with
  | mk _ hb => exact ⟨hb.valid fun c hc => hs c (by simp [hc]), fun c hc => hs c (by simp [hc])⟩

theorem node_fromText {D : Dialect} {s r : PStr} {t : RTerm} (h : Node D s t r) (hs : s.Valid) : t.FromText ∧ r.Valid := by
  cases h with
  | iri h => exact iri_fromText h hs
  | label _ _ _ => exact ⟨trivial, fun c hc => hs c (by simp [hc])⟩

theorem langOK_of_tok {l : PStr} (h : LangTok code l) : LangOK l := by
  cases l with
  | nil => obtain ⟨p, s, e, hne, _⟩ := h; cases p with | nil => exact absurd rfl hne | cons _ _ => cases e
  | cons c t =>
    obtain ⟨hc, ht⟩ := langTok_iff.1 h
    refine ⟨c, t, rfl, hc, ?_⟩
    obtain ⟨u, hu⟩ := langTail_prefix t false
    have h1 := langTail_longest _ false t t (Nat.le_refl _) ht (List.prefix_refl _)
    have h2 := congrArg List.length hu
    rw [List.length_append] at h2
    have : u = [] := List.length_eq_zero_iff.1 (by omega)
    rw [this, List.append_nil] at hu
    exact hu

theorem object_fromText {s r : PStr} {t : RTerm} (h : Object code s t r) (hs : s.Valid) : t.FromText ∧ r.Valid := by
  cases h with
  | node h => exact node_fromText h hs
  | plain _ _ hd => exact ⟨⟨hd.valid fun c hc => hs c (by simp [hc]), by simp, by simp⟩, fun c hc => hs c (by simp [hc])⟩
  | typed _ _ hd _ hi =>
    obtain ⟨h1, h2⟩ := iri_fromText hi fun c hc => hs c (by simp [hc])
    exact ⟨⟨hd.valid fun c hc => hs c (by simp [hc]), by simp, fun x hx => by cases hx; exact h1⟩, h2⟩
  | lang _ _ hd _ hl _ =>
    exact ⟨⟨hd.valid fun c hc => hs c (by simp [hc]), fun x hx => by cases hx; exact ⟨langOK_of_tok hl.1, rfl⟩, by simp⟩, fun c hc => hs c (by simp [hc])⟩

/-- The shape of a statement of N-Triples. -/
structure RStmt.FromText (t : RStmt) : Prop where
  subj : (∃ i, t.s = .iri i) ∨ ∃ l, t.s = .label l
  pred : ∃ i, t.p = .iri i
  triple : t.g = none
  s : t.s.FromText
  p : t.p.FromText
  o : t.o.FromText

theorem statement_fromText {s r : PStr} {t : RStmt} (h : Statement code false s t r) (hs : s.Valid) : t.FromText ∧ r.Valid := by
  cases h with
  | triple ha hp ho hd =>
    obtain ⟨h1, v1⟩ := node_fromText ha hs
    obtain ⟨h2, v2⟩ := iri_fromText hp v1
    obtain ⟨h3, v3⟩ := object_fromText ho v2
    refine ⟨⟨?_, ⟨_, rfl⟩, rfl, h1, h2, h3⟩, ?_⟩
    · cases ha with
      | iri _ => exact .inl ⟨_, rfl⟩
      | label _ _ _ => exact .inr ⟨_, rfl⟩
    · cases hd with
      | mk _ => exact fun c hc => v3 c (by simp [hc])

theorem rest_fromText {s : PStr} {rs : List RStmt} (h : Rest code false s rs) (hs : s.Valid) : ∀ t ∈ rs, t.FromText := by
  induction h with
  | eof _ => intro t ht; cases ht
  | eol _ _ _ => intro t ht; cases ht
  | next _ _ hst _ ih =>
    obtain ⟨h1, h2⟩ := statement_fromText hst fun c hc => hs c (by simp [hc])
    intro t ht
    rcases List.mem_cons.1 ht with rfl | ht
    · exact h1
    · exact ih h2 t ht

theorem doc_fromText {s : PStr} {rs : List RStmt} (h : Doc code false s rs) (hs : s.Valid) : ∀ t ∈ rs, t.FromText := by
  cases h with
  | first hst hr =>
    obtain ⟨h1, h2⟩ := statement_fromText hst hs
    intro t ht
    rcases List.mem_cons.1 ht with rfl | ht
    · exact h1
    · exact rest_fromText hr h2 t ht
  | rest h => exact rest_fromText h hs

/-- What the parser adds to a new graph. -/
theorem read_fromText {next n : Nat} {text : PStr} {g : Graph} (hv : text.Valid) (h : parseString Graph.add false next text Graph.new = (g, n, .ok ())) :
    ∀ t ∈ g.triples, ∃ r f, r.FromText ∧ t = RStmt.subst f r := by
  cases hd : pDoc false text with
  | error e => simp [parseString, hd] at h
  | ok rs =>
    obtain ⟨f, n', _, h2, _, _⟩ := ReadsAs.of_doc hd Graph Graph.add next Graph.new
    rw [h2] at h
    cases h
    intro t ht
    rw [foldl_add_eq, Graph.mem_addAll] at ht
    rcases ht with ht | ht
    · obtain ⟨r, hr, rfl⟩ := List.mem_map.1 ht
      exact ⟨r, f, doc_fromText (pDoc_iff.1 hd) hv r hr, rfl⟩
    · cases ht

/-! ### C147: what was read can be written -/

theorem RTerm.FromText.chars {r : RTerm} (h : r.FromText) (f : PStr → Nat) : (r.subst f).Chars := by
  cases r with
  | iri i => exact h
  | label l => trivial
  | lit v l d =>
    cases d with
    | none => trivial
    | some x => exact h.2.2 x rfl

/-- Specification: no term of the triple has a surrogate in an IRI. (The terms of a triple that was read are IRIs, blank nodes and literals.) -/
def Stmt.Writable (t : Stmt) : Prop := ¬ Unwritable t.s ∧ ¬ Unwritable t.p ∧ ¬ Unwritable t.o

theorem RTerm.FromText.ntok {r : RTerm} (h : r.FromText) (f : PStr → Nat) (hw : ¬ Unwritable (r.subst f)) : NTOk (r.subst f) := by
  cases r with
  | iri i => exact fun c hc => ⟨h c hc, fun hs => hw (.iri hc hs.1 hs.2)⟩
  | label l => trivial
  | lit v l d =>
    refine ⟨h.1, ?_⟩
    cases l with
    | none => intro x hx c hc; exact ⟨h.2.2 x hx c hc, fun hs => hw (by rw [RTerm.subst, hx]; exact .dt (.inl rfl) hc hs.1 hs.2)⟩
    | some t =>
      cases t with
      | nil => intro x hx c hc; exact ⟨h.2.2 x hx c hc, fun hs => hw (by rw [RTerm.subst, hx]; exact .dt (.inr rfl) hc hs.1 hs.2)⟩
      | cons a b => exact (h.2.1 _ rfl).1

/-- Every triple that was read is an RDF triple, and one that can be written can be read again. -/
theorem read_ntok {next n : Nat} {text : PStr} {g : Graph} (hv : text.Valid) (h : parseString Graph.add false next text Graph.new = (g, n, .ok ())) :
    ∀ t ∈ g.triples, t.IsRdf ∧ t.s.Chars ∧ t.p.Chars ∧ t.o.Chars ∧ (t.Writable → t.NTOk) := by
  intro t ht
  obtain ⟨r, f, hr, rfl⟩ := read_fromText hv h t ht
  refine ⟨⟨?_, ?_, ?_, ?_⟩, hr.s.chars f, hr.p.chars f, hr.o.chars f, fun hw => ⟨hr.s.ntok f hw.1, hr.p.ntok f hw.2.1, hr.o.ntok f hw.2.2⟩⟩
  · rcases hr.subj with ⟨i, e⟩ | ⟨l, e⟩
    · exact .inl ⟨i, by simp [RStmt.subst, RTerm.subst, e]⟩
    · exact .inr ⟨f l, by simp [RStmt.subst, RTerm.subst, e]⟩
  · obtain ⟨i, e⟩ := hr.pred
    exact ⟨i, by simp [RStmt.subst, RTerm.subst, e]⟩
  · cases e : r.o with
    | iri i => exact .inl ⟨i, by simp [RStmt.subst, RTerm.subst, e]⟩
    | label l => exact .inr (.inl ⟨f l, by simp [RStmt.subst, RTerm.subst, e]⟩)
    | lit v l d => exact .inr (.inr ⟨v, l, d, by simp [RStmt.subst, RTerm.subst, e]⟩)
  · simp [RStmt.subst, hr.triple]

/-- A graph with a triple that cannot be written cannot be written. -/
theorem serialize_unwritable {t : Stmt} (hc : t.s.Chars ∧ t.p.Chars ∧ t.o.Chars) (hn : ¬ t.Writable) {ts : List Stmt} (hm : t ∈ ts) (out : PStr) :
    serializeNTriples ts ≠ (out, .ok ()) := by
  obtain ⟨e, he⟩ := (C129_raises hc.1 hc.2.1 hc.2.2).2 (by
    unfold Stmt.Writable at hn
    by_cases u1 : Unwritable t.s
    · exact .inl u1
    · by_cases u2 : Unwritable t.p
      · exact .inr (.inl u2)
      · by_cases u3 : Unwritable t.o
        · exact .inr (.inr u3)
        · exact absurd ⟨u1, u2, u3⟩ hn)
  induction ts generalizing out with
  | nil => cases hm
  | cons u ts ih =>
    intro ho
    rw [serializeNTriples] at ho
    rcases List.mem_cons.1 hm with rfl | hm
    · rw [he] at ho; cases ho
    · cases hu : tripleStr u with
      | error e' => rw [hu] at ho; cases ho
      | ok line =>
        rw [hu] at ho
        exact ih hm _ (Prod.ext rfl (Prod.mk.inj ho).2)

/-- The property: whatever was read from N-Triples can be written as N-Triples. -/
def C147_statement : Prop := ∀ (next n : Nat) (text : PStr) (g : Graph) (ord : List Stmt → List Stmt), text.Valid → IsOrder ord →
  parseString Graph.add false next text Graph.new = (g, n, .ok ()) → ∃ out, serializeNTriples (g.iter ord) = (out, .ok ())

/-- **When it can**: exactly if no IRI that was read has a surrogate. -/
theorem C147_exact {next n : Nat} {text : PStr} {g : Graph} {ord : List Stmt → List Stmt} (hv : text.Valid) (hord : IsOrder ord)
    (h : parseString Graph.add false next text Graph.new = (g, n, .ok ())) :
    (∃ out, serializeNTriples (g.iter ord) = (out, .ok ())) ↔ ∀ t ∈ g.triples, t.Writable := by
  have hmem : ∀ t, t ∈ g.iter ord ↔ t ∈ g.triples := fun t => (hord g.triples).mem_iff
  have hr := read_ntok hv h
  constructor
  · rintro ⟨out, ho⟩ t ht
    by_contra hn
    obtain ⟨_, c1, c2, c3, _⟩ := hr t ht
    exact serialize_unwritable ⟨c1, c2, c3⟩ hn ((hmem t).2 ht) out ho
  · intro hw
    obtain ⟨out, _, _, _, h1, _⟩ := lines_read_ntok (g.iter ord) (fun t ht => ⟨(hr t ((hmem t).1 ht)).1, (hr t ((hmem t).1 ht)).2.2.2.2 (hw t ((hmem t).1 ht))⟩) 0
    exact ⟨out, h1⟩

/-- `<\uD800> <p> <o> .` -/
def surrogateDoc : PStr := [60, 92] ++ py! "uD800> <p> <o> .\n"

def surrogateGraph : Graph := (parseString Graph.add false 0 surrogateDoc Graph.new).1

theorem surrogateGraph_read : parseString Graph.add false 0 surrogateDoc Graph.new = (surrogateGraph, 0, .ok ()) := by decide

/-- It does not hold: the escape for a surrogate is read in an IRI, and an IRI with a surrogate cannot be written. -/
theorem C147_refuted : ¬ C147_statement := by
  intro h
  obtain ⟨out, ho⟩ := h 0 0 surrogateDoc surrogateGraph id (by unfold PStr.Valid; decide) (fun _ => .refl _) surrogateGraph_read
  have : (serializeNTriples (surrogateGraph.iter id)).2 = .error .unicodeEncodeError := by decide
  rw [ho] at this
  cases this

/-- What holds: a document without surrogates in its IRIs can be written after it was read.
    Missing for the full claim: IRIs with the escape of a surrogate. -/
theorem C147_partial {next n : Nat} {text : PStr} {g : Graph} {ord : List Stmt → List Stmt} (hv : text.Valid) (hord : IsOrder ord)
    (h : parseString Graph.add false next text Graph.new = (g, n, .ok ())) (hw : ∀ t ∈ g.triples, t.Writable) :
    ∃ out, serializeNTriples (g.iter ord) = (out, .ok ()) := (C147_exact hv hord h).2 hw

/-! ### C148: saving and loading a second time changes nothing -/

theorem survive_ntok {t : Term} (h : NTOk t) (f : Nat → Nat) : NTOk (t.survive f) := by
  have keep : ∀ c, quoteKeeps c = true → scalarValue c := by
    intro c hc
    have := quoteKeeps_lt hc
    exact ⟨by omega, by omega⟩
  have vf : ∀ {v : PStr}, v.Valid → PStr.Valid (v.filter ntKept) := fun hv c hc => hv c (List.mem_filter.1 hc).1
  cases t with
  | none => exact h
  | gen k => exact h
  | bnode i => trivial
  | named n => exact fun c hc => keep c (quoted_keeps n h c hc)
  | lit v l d =>
    rcases l with _ | (_ | ⟨a, b⟩)
    · rcases d with _ | (_ | ⟨x, y⟩)
      · exact ⟨vf h.1, fun x hx => by cases hx⟩
      · exact ⟨vf h.1, fun x hx => by cases hx⟩
      · exact ⟨vf h.1, fun z hz c hc => by cases hz; exact keep c (quoted_keeps _ (h.2 _ rfl) c hc)⟩
    · rcases d with _ | (_ | ⟨x, y⟩)
      · exact ⟨vf h.1, fun x hx => by cases hx⟩
      · exact ⟨vf h.1, fun x hx => by cases hx⟩
      · exact ⟨vf h.1, fun z hz c hc => by cases hz; exact keep c (quoted_keeps _ (h.2 _ rfl) c hc)⟩
    · exact ⟨vf h.1, h.2⟩

theorem quote1_ne_nil {c : Nat} (hs : scalarValue c) : quote1 c ≠ [] := by
  cases hk : quoteKeeps c with
  | true => rw [quote1_keep hk]; simp
  | false =>
    obtain ⟨b, hb, e⟩ := quote1_esc hk hs
    rw [e]
    cases b with
    | nil => unfold utf8Char at hb; split at hb <;> (try split at hb) <;> (try split at hb) <;> (try split at hb) <;> simp at hb
    | cons x b => simp [pctByte]

theorem survive_twice {t : Term} (h : NTOk t) (f f' : Nat → Nat) : (t.survive f).survive f' = (t.survive f).rename f' := by
  have ff : ∀ v : PStr, (v.filter ntKept).filter ntKept = v.filter ntKept := fun v => by rw [List.filter_filter]; congr 1; funext c; simp
  have typed : ∀ (v d : PStr), (∀ c ∈ d, scalarValue c) → d ≠ [] →
      (Term.lit (v.filter ntKept) Option.none (some (d.flatMap quote1))).survive f' = .lit (v.filter ntKept) Option.none (some (d.flatMap quote1)) := by
    intro v d hd _
    have e := flatMap_quote1_keeps (quoted_keeps d hd)
    cases hq : d.flatMap quote1 with
    | nil =>
      exfalso
      cases d with
      | nil => contradiction
      | cons c d =>
        rw [List.flatMap_cons, List.append_eq_nil_iff] at hq
        exact absurd hq.1 (quote1_ne_nil (hd c (by simp)))
    | cons a b =>
      rw [hq] at e
      simp only [Term.survive, ff, e]
  cases t with
  | none => rfl
  | gen k => rfl
  | bnode i => rfl
  | named n => simp only [Term.survive, Term.rename, flatMap_quote1_keeps (quoted_keeps n h)]
  | lit v l d =>
    rcases l with _ | (_ | ⟨a, b⟩)
    · rcases d with _ | (_ | ⟨x, y⟩)
      · simp [Term.survive, Term.rename, ff]
      · simp [Term.survive, Term.rename, ff]
      · exact typed v _ (h.2 _ rfl) (by simp)
    · rcases d with _ | (_ | ⟨x, y⟩)
      · simp [Term.survive, Term.rename, ff]
      · simp [Term.survive, Term.rename, ff]
      · exact typed v _ (h.2 _ rfl) (by simp)
    · simp [Term.survive, Term.rename, ff]

/-- Specification: written in the order `ord` and read again, the graph is itself but for the names of its blank nodes, which stay distinct. -/
def Settled (g : Graph) : Prop := ∀ (ord : List Stmt → List Stmt) (next : Nat), IsOrder ord →
  ∃ text g' n f, serializeNTriples (g.iter ord) = (text, .ok ()) ∧ parseString Graph.add false next text Graph.new = (g', n, .ok ()) ∧
    (∀ t ∈ g.triples, ∀ t' ∈ g.triples, ∀ i j, t.HasBnode i → t'.HasBnode j → f i = f j → i = j) ∧ ∀ x, x ∈ g'.triples ↔ ∃ t ∈ g.triples, x = t.rename f

theorem survive_rdf {t : Stmt} (h : t.IsRdf) (f : Nat → Nat) : (t.survive f).IsRdf := by
  refine ⟨?_, ?_, ?_, rfl⟩
  · rcases h.subj with ⟨n, e⟩ | ⟨i, e⟩ <;> simp [Stmt.survive, mkTriple, Term.survive, e]
  · obtain ⟨n, e⟩ := h.pred
    simp [Stmt.survive, mkTriple, Term.survive, e]
  · rcases h.obj with ⟨n, e⟩ | ⟨i, e⟩ | ⟨v, l, d, e⟩
    · simp [Stmt.survive, mkTriple, Term.survive, e]
    · simp [Stmt.survive, mkTriple, Term.survive, e]
    · refine .inr (.inr ?_)
      rcases l with _ | (_ | ⟨a, b⟩) <;> rcases d with _ | (_ | ⟨x, y⟩) <;> simp [Stmt.survive, mkTriple, Term.survive, e]

/-- Whatever triples were written, what was read is settled. -/
theorem settled_of_lines (ts : List Stmt) (hok : ∀ t ∈ ts, t.IsRdf ∧ t.NTOk) (next : Nat) :
    ∃ text g n, serializeNTriples ts = (text, .ok ()) ∧ parseString Graph.add false next text Graph.new = (g, n, .ok ()) ∧ Settled g := by
  obtain ⟨text, g, n, f, h1, h2, _, _, h5⟩ := lines_read_ntok ts hok next
  refine ⟨text, g, n, h1, h2, fun ord next' hord => ?_⟩
  have hmem : ∀ t, t ∈ g.iter ord ↔ t ∈ g.triples := fun t => (hord g.triples).mem_iff
  have hg : ∀ t ∈ g.triples, t.IsRdf ∧ t.NTOk ∧ ∀ f', t.survive f' = t.rename f' := by
    intro t ht
    obtain ⟨u, hu, rfl⟩ := (h5 t).1 ht
    obtain ⟨r, o⟩ := hok u hu
    refine ⟨survive_rdf r f, ⟨survive_ntok o.1 f, survive_ntok o.2.1 f, survive_ntok o.2.2 f⟩, fun f' => ?_⟩
    show mkTriple ((u.s.survive f).survive f') ((u.p.survive f).survive f') ((u.o.survive f).survive f') = _
    rw [survive_twice o.1, survive_twice o.2.1, survive_twice o.2.2]
    rfl
  obtain ⟨text', g', n', f', k1, k2, k3, _, k5⟩ := lines_read_ntok (g.iter ord) (fun t ht => ⟨(hg t ((hmem t).1 ht)).1, (hg t ((hmem t).1 ht)).2.1⟩) next'
  refine ⟨text', g', n', f', k1, k2, fun t ht t' ht' => k3 t ((hmem t).2 ht) t' ((hmem t').2 ht'), fun x => ?_⟩
  rw [k5]
  constructor
  · rintro ⟨t, ht, rfl⟩; exact ⟨t, (hmem t).1 ht, (hg t ((hmem t).1 ht)).2.2 f'⟩
  · rintro ⟨t, ht, rfl⟩; exact ⟨t, (hmem t).2 ht, ((hg t ht).2.2 f').symm⟩

/-- **A graph**: after one save and load, every further save and load changes nothing but the names of blank nodes. -/
theorem C148_graph (g : Graph) (ord : List Stmt → List Stmt) (hord : IsOrder ord) (h : ∀ t ∈ g.triples, t.IsRdf ∧ t.Readable) (next : Nat) :
    ∃ text g1 n, serializeNTriples (g.iter ord) = (text, .ok ()) ∧ parseString Graph.add false next text Graph.new = (g1, n, .ok ()) ∧ Settled g1 := by
  have hmem : ∀ t, t ∈ g.iter ord ↔ t ∈ g.triples := fun t => (hord g.triples).mem_iff
  exact settled_of_lines _ (fun t ht => ⟨(h t ((hmem t).1 ht)).1, (h t ((hmem t).1 ht)).2.ntok (h t ((hmem t).1 ht)).1⟩) next

/-- **A document**: whatever was read, if it can be written at all, is settled after one save and load. -/
theorem C148_document {next n : Nat} {text out : PStr} {g : Graph} {ord : List Stmt → List Stmt} (hv : text.Valid) (hord : IsOrder ord)
    (h : parseString Graph.add false next text Graph.new = (g, n, .ok ())) (hw : serializeNTriples (g.iter ord) = (out, .ok ())) (next' : Nat) :
    ∃ g1 n', parseString Graph.add false next' out Graph.new = (g1, n', .ok ()) ∧ Settled g1 := by
  have hmem : ∀ t, t ∈ g.iter ord ↔ t ∈ g.triples := fun t => (hord g.triples).mem_iff
  have hr := read_ntok hv h
  have hW := (C147_exact hv hord h).1 ⟨out, hw⟩
  obtain ⟨text', g1, n1, h1, h2, h3⟩ := settled_of_lines (g.iter ord)
    (fun t ht => ⟨(hr t ((hmem t).1 ht)).1, (hr t ((hmem t).1 ht)).2.2.2.2 (hW t ((hmem t).1 ht))⟩) next'
  rw [hw] at h1
  cases h1
  exact ⟨g1, n1, h2, h3⟩

/-- `_:a <é> "x"^^<> .` is read with the IRI `é` and an empty datatype, neither of which is written as it is. -/
def changingDoc : PStr := py! "_:a <" ++ [233] ++ py! "> \"x\"^^<> .\n"

def changingGraph : Graph := (parseString Graph.add false 0 changingDoc Graph.new).1

theorem changingGraph_read : parseString Graph.add false 0 changingDoc Graph.new = (changingGraph, 1, .ok ()) := by decide

theorem changingGraph_triples : changingGraph.triples = [mkTriple (.bnode 0) (.named [233]) (.lit (py! "x") Option.none (some []))] := by decide

theorem changingGraph_writable : ∀ t ∈ changingGraph.triples, t.Writable := by
  rw [changingGraph_triples]
  intro t ht
  rcases List.mem_singleton.1 ht with rfl
  refine ⟨fun h => (by cases h), fun h => ?_, fun h => ?_⟩
  · cases h with
    | iri h1 h2 _ => rcases List.mem_singleton.1 h1 with rfl; omega
  · cases h with
    | dt _ h _ _ => cases h

/-- **The first time does change things**: a document is read, written and read again, and the result is another graph whatever the blank nodes are called. -/
theorem C148_first_changes : ¬ Settled changingGraph := by
  intro h
  obtain ⟨text, g', n, f, h1, h2, _, h4⟩ := h id 5 (fun _ => .refl _)
  obtain ⟨text', g'', n', f', k1, k2, _, _, k5⟩ := lines_read_ntok (changingGraph.iter id) (fun t ht =>
    ⟨(read_ntok (by unfold PStr.Valid; decide) changingGraph_read t ht).1,
     (read_ntok (by unfold PStr.Valid; decide) changingGraph_read t ht).2.2.2.2 (changingGraph_writable t ht)⟩) 5
  rw [k1] at h1
  cases h1
  rw [k2] at h2
  cases h2
  have hm := (h4 _).2 ⟨_, by rw [changingGraph_triples]; exact List.mem_singleton.2 rfl, rfl⟩
  obtain ⟨t, ht, e⟩ := (k5 _).1 hm
  rw [show changingGraph.iter id = changingGraph.triples from rfl, changingGraph_triples] at ht
  rcases List.mem_singleton.1 ht with rfl
  have := congrArg Stmt.p e
  revert this
  simp only [Stmt.rename, Stmt.survive, mkTriple, Term.rename, Term.survive, Term.named.injEq]
  decide

/-- The theorems apply to it: it can be written, and the second time nothing changes. -/
example : ∃ out, serializeNTriples (changingGraph.iter id) = (out, .ok ()) ∧
    ∃ g1 n', parseString Graph.add false 7 out Graph.new = (g1, n', .ok ()) ∧ Settled g1 := by
  obtain ⟨out, ho⟩ := C147_partial (by unfold PStr.Valid; decide) (ord := id) (fun _ => .refl _) changingGraph_read changingGraph_writable
  exact ⟨out, ho, C148_document (by unfold PStr.Valid; decide) (fun _ => .refl _) changingGraph_read ho 7⟩

end Verif
