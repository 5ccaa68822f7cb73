import Verif.Lemmas.NTRead
import Verif.Lemmas.GraphRun
/-
C37-C44: N-Triples and N-Quads. Beyond the specification modules the statements mention only the entry points of the model: `serializeNTriples`,
`serializeNQuads`, `parseString`, `parseStream`.
-/
namespace Verif
open Spec

/-! ### C37: round trip -/

/-- What is left of a term after it has been written and read: characters of IRIs outside the URI characters are percent-encoded (`quote1`),
    control characters of literals dropped (`ntKept`), a datatype beside a language dropped, an empty language or datatype dropped. -/
def Term.survive (f : Nat → Nat) : Term → Term
  | .named n => .named (n.flatMap quote1)
  | .bnode i => .bnode (f i)
  | .lit v (some (c :: r)) _ => .lit (v.filter ntKept) (some (c :: r)) Option.none
  | .lit v _ (some (c :: r)) => .lit (v.filter ntKept) Option.none (some ((c :: r).flatMap quote1))
  | .lit v _ _ => .lit (v.filter ntKept) Option.none Option.none
  | t => t

def Stmt.survive (f : Nat → Nat) (t : Stmt) : Stmt := mkTriple (t.s.survive f) (t.p.survive f) (t.o.survive f)

/-- A language tag whose subtags contain no digit from 1 to 8 (which LANGTAG of the grammar leaves out). -/
def LangRead (l : PStr) : Prop := LangWF l ∧ ∀ c ∈ l, ¬ (49 ≤ c ∧ c ≤ 56)

/-- Terms the writer accepts and the parser reads. -/
def Term.Readable : Term → Prop
  | .named n => ∀ c ∈ n, scalarValue c
  | .lit v l d => v.Valid ∧ (∀ t, l = some t → t = [] ∨ LangRead t) ∧ ∀ t, d = some t → ∀ c ∈ t, scalarValue c
  | _ => True

def Stmt.Readable (t : Stmt) : Prop := t.s.Readable ∧ t.p.Readable ∧ t.o.Readable

theorem langTail_all {b : Bool} {l : PStr} (hb : b = true) (h : ∀ c ∈ l, langSub c = true) : langTail b l = l := by
  subst hb
  induction l with
  | nil => rfl
  | cons c l ih => rw [langTail_take (by simpa using h c (by simp)), ih (fun x hx => h x (by simp [hx]))]

theorem langTail_append {b : Bool} {t l : PStr} (ht : langTail b t = t) (hl : l ≠ []) (h : ∀ c ∈ l, langSub c = true) :
    langTail b (t ++ 45 :: l) = t ++ 45 :: l := by
  fun_induction langTail b t with
  | case1 b =>
    cases l with
    | nil => exact absurd rfl hl
    | cons d l => simp only [List.nil_append]; rw [langTail_sub (h d (by simp)), langTail_all rfl (fun x hx => h x (by simp [hx]))]
  | case2 b c r hc ih => simp only [List.cons.injEq, true_and] at ht; rw [List.cons_append, langTail_take hc, ih ht]
  | case3 b d r _ _ ih =>
    simp only [List.cons.injEq, true_and] at ht
    simp only [List.cons_append]
    rw [langTail_sub (by assumption), ih ht]
  | case4 => simp at ht
  | case5 => simp at ht

theorem langTail_letters {l : PStr} (h : ∀ c ∈ l, isLetter c = true) : langTail false l = l := by
  induction l with
  | nil => rfl
  | cons c l ih => rw [langTail_take (by simpa using h c (by simp)), ih (fun x hx => h x (by simp [hx]))]

theorem LangRead.ok {l : PStr} (h : LangRead l) : LangOK l := by
  obtain ⟨hw, hd⟩ := h
  induction hw with
  | @primary l h1 h2 =>
    cases l with
    | nil => exact absurd rfl h1
    | cons c r => exact ⟨c, r, rfl, h2 c (by simp), langTail_letters (fun x hx => h2 x (by simp [hx]))⟩
  | @sub t l _ h1 h2 ih =>
    obtain ⟨c, r, rfl, h3, h4⟩ := ih (fun x hx => hd x (by simp [hx]))
    refine ⟨c, r ++ 45 :: l, rfl, h3, langTail_append h4 h1 (fun x hx => ?_)⟩
    have := h2 x hx
    have := hd x (by simp [hx])
    simp only [langSub, Bool.or_eq_true, beq_iff_eq]
    rcases h2 x hx with h | h
    · simp [h]
    · omega

theorem Stmt.Readable.ntok {t : Stmt} (hr : t.IsRdf) (h : t.Readable) : t.NTOk := by
  have key : ∀ x : Term, x.Readable → ((∃ n, x = .named n) ∨ (∃ i, x = .bnode i) ∨ ∃ v l d, x = .lit v l d) → Verif.NTOk x := by
    rintro x hx (⟨n, rfl⟩ | ⟨i, rfl⟩ | ⟨v, l, d, rfl⟩)
    · exact hx
    · trivial
    · refine ⟨hx.1, ?_⟩
      split
      · next c r => exact ((hx.2.1 _ rfl).resolve_left (by simp)).ok
      · exact hx.2.2
  obtain ⟨n, hn⟩ := hr.pred
  refine ⟨key _ h.1 ?_, key _ h.2.1 (Or.inl ⟨n, hn⟩), key _ h.2.2 hr.obj⟩
  rcases hr.subj with h | h
  · exact Or.inl h
  · exact Or.inr (Or.inl h)

theorem asRead_subst (f : PStr → Nat) (t : Term) (h : NTOk t) : (asRead t).subst f = t.survive (fun i => f (bnodeStr i)) := by
  cases t with
  | none => exact h.elim
  | gen _ => exact h.elim
  | named n => rfl
  | bnode i => rfl
  | lit v l d => rcases l with _ | (_ | ⟨c, r⟩) <;> rcases d with _ | (_ | ⟨a, b⟩) <;> rfl

theorem asReadStmt_subst (f : PStr → Nat) (t : Stmt) (h : t.NTOk) : (asReadStmt t).subst f = t.survive (fun i => f (bnodeStr i)) := by
  simp only [RStmt.subst, asReadStmt, Stmt.survive, mkTriple, asRead_subst f _ h.1, asRead_subst f _ h.2.1, asRead_subst f _ h.2.2]
  rfl

theorem asReadStmt_label {t : Stmt} {i : Nat} (h : t.HasBnode i) : (asReadStmt t).HasLabel (bnodeStr i) := by
  rcases h with h | h | h
  · left; simp [asReadStmt, h, asRead]
  · right; left; simp [asReadStmt, h, asRead]
  · right; right; left; simp [asReadStmt, h, asRead]

theorem foldl_add_eq (g : Graph) (ts : List Stmt) : ts.foldl Graph.add g = g.addAll ts := rfl

/-- Any list of triples, written and read. -/
theorem lines_read_ntok (ts : List Stmt) (hok : ∀ t ∈ ts, t.IsRdf ∧ t.NTOk) (next : Nat) :
    ∃ text g' next' f, serializeNTriples ts = (text, .ok ()) ∧
      parseString Graph.add false next text (Graph.new) = (g', next', .ok ()) ∧
      (∀ t ∈ ts, ∀ t' ∈ ts, ∀ i j, t.HasBnode i → t'.HasBnode j → f i = f j → i = j) ∧
      (∀ t ∈ ts, ∀ i, t.HasBnode i → next ≤ f i ∧ f i < next') ∧
      ∀ x, x ∈ g'.triples ↔ ∃ t ∈ ts, x = t.survive f := by
  obtain ⟨h1, h2, -⟩ := pDoc_serialize ts hok
  obtain ⟨s1, s2, s3, s4⟩ := BState.stmts_spec (BState.OK.init next) (ts.map asReadStmt)
  generalize hst : BState.stmts { map := [], next := next } (ts.map asReadStmt) = st at *
  have hlook : ∀ t ∈ ts, ∀ i, t.HasBnode i → st.1.map.get? (bnodeStr i) = some (st.1.look (bnodeStr i)) := by
    intro t ht i hi
    obtain ⟨k, hk⟩ := s3 (asReadStmt t) (List.mem_map.2 ⟨t, ht, rfl⟩) _ (asReadStmt_label hi)
    simp [BState.look, hk]
  refine ⟨(serializeNTriples ts).1, (Graph.new).addAll st.2, st.1.next, fun i => st.1.look (bnodeStr i), ?_, ?_, ?_, ?_, ?_⟩
  · rw [← h1]
  · simp only [parseString, h2, hst]; rfl
  · intro t ht t' ht' i j hi hj e
    have a := hlook t ht i hi
    have b := hlook t' ht' j hj
    simp only at e
    rw [← e] at b
    exact C28_labels_distinct _ _ (s1.inj _ _ _ a b)
  · intro t ht i hi
    exact s1.range _ _ (hlook t ht i hi)
  · intro x
    rw [Graph.mem_addAll, s4]
    simp only [Graph.new, List.not_mem_nil, List.mem_map, or_false, false_or]
    constructor
    · rintro ⟨r, ⟨t, ht, rfl⟩, rfl⟩
      exact ⟨t, ht, asReadStmt_subst _ t (hok t ht).2⟩
    · rintro ⟨t, ht, rfl⟩
      exact ⟨_, ⟨t, ht, rfl⟩, asReadStmt_subst _ t (hok t ht).2⟩

/-- The same for readable terms. -/
theorem lines_read (ts : List Stmt) (h : ∀ t ∈ ts, t.IsRdf ∧ t.Readable) (next : Nat) :
    ∃ text g' next' f, serializeNTriples ts = (text, .ok ()) ∧
      parseString Graph.add false next text (Graph.new) = (g', next', .ok ()) ∧
      (∀ t ∈ ts, ∀ t' ∈ ts, ∀ i j, t.HasBnode i → t'.HasBnode j → f i = f j → i = j) ∧
      (∀ t ∈ ts, ∀ i, t.HasBnode i → next ≤ f i ∧ f i < next') ∧
      ∀ x, x ∈ g'.triples ↔ ∃ t ∈ ts, x = t.survive f :=
  lines_read_ntok ts (fun t ht => ⟨(h t ht).1, (h t ht).2.ntok (h t ht).1⟩) next

/-- **Exact round trip.** Every RDF graph of readable terms is written without error, parsed back without error, and the new graph consists
    of exactly the surviving forms of the triples, with blank nodes renamed one-to-one to nodes created by the parse. -/
theorem C37_roundtrip_exact (g : Graph) (ord : List Stmt → List Stmt) (hord : IsOrder ord) (h : ∀ t ∈ g.triples, t.IsRdf ∧ t.Readable) (next : Nat) :
    ∃ text g' next' f, serializeNTriples (g.iter ord) = (text, .ok ()) ∧
      parseString Graph.add false next text (Graph.new) = (g', next', .ok ()) ∧
      (∀ t ∈ g.triples, ∀ t' ∈ g.triples, ∀ i j, t.HasBnode i → t'.HasBnode j → f i = f j → i = j) ∧
      (∀ t ∈ g.triples, ∀ i, t.HasBnode i → next ≤ f i ∧ f i < next') ∧
      ∀ x, x ∈ g'.triples ↔ ∃ t ∈ g.triples, x = t.survive f := by
  have hmem : ∀ t, t ∈ g.iter ord ↔ t ∈ g.triples := fun t => (hord g.triples).mem_iff
  obtain ⟨text, g', next', f, h1, h2, h3, h4, h5⟩ := lines_read (g.iter ord) (fun t ht => h t ((hmem t).1 ht)) next
  refine ⟨text, g', next', f, h1, h2, fun t ht t' ht' => h3 t ((hmem t).2 ht) t' ((hmem t').2 ht'), fun t ht => h4 t ((hmem t).2 ht), fun x => ?_⟩
  rw [h5]
  exact ⟨fun ⟨t, ht, e⟩ => ⟨t, (hmem t).1 ht, e⟩, fun ⟨t, ht, e⟩ => ⟨t, (hmem t).2 ht, e⟩⟩

/-- The property: for every graph of well-formed RDF triples the parsed graph is the original up to a renaming of blank nodes. -/
def C37_statement : Prop :=
  ∀ (g : Graph) (ord : List Stmt → List Stmt), IsOrder ord → (∀ t ∈ g.triples, t.IsRdf ∧ t.WellFormed) → ∀ next,
    ∃ text g' next' f, serializeNTriples (g.iter ord) = (text, .ok ()) ∧
      parseString Graph.add false next text (Graph.new) = (g', next', .ok ()) ∧
      (∀ t ∈ g.triples, ∀ t' ∈ g.triples, ∀ i j, t.HasBnode i → t'.HasBnode j → f i = f j → i = j) ∧
      ∀ x, x ∈ g'.triples ↔ ∃ t ∈ g.triples, x = t.rename f

/-- An IRI with a non-ASCII character comes back percent-encoded. -/
theorem C37_iri_changed : ¬ C37_statement := by
  intro h
  let t := mkTriple (.named (py! "é")) (.named (py! "p")) (.named (py! "o"))
  obtain ⟨text, g', n', f, h1, h2, -, h4⟩ := h (Graph.new.add t) id (fun l => List.Perm.refl l)
    (by
      intro x hx
      have : x = t := by simpa [Graph.add, Graph.setAdd, Graph.new] using hx
      subst this
      refine ⟨⟨Or.inl ⟨_, rfl⟩, ⟨_, rfl⟩, Or.inl ⟨_, rfl⟩, rfl⟩, ?_, ?_, ?_⟩ <;> simp [t, mkTriple, Term.WellFormed]) 0
  have e1 : serializeNTriples ((Graph.new.add t).iter id) = (py! "<%C3%A9> <p> <o> .\n", .ok ()) := by decide
  rw [e1] at h1
  cases h1
  have e2 : parseString Graph.add false 0 (py! "<%C3%A9> <p> <o> .\n") Graph.new
      = (Graph.new.add (mkTriple (.named (py! "%C3%A9")) (.named (py! "p")) (.named (py! "o"))), 0, .ok ()) := by decide
  rw [e2] at h2
  cases h2
  obtain ⟨t', ht', hx⟩ := (h4 (mkTriple (.named (py! "%C3%A9")) (.named (py! "p")) (.named (py! "o")))).1 (by decide)
  have : t' = t := by simpa [Graph.add, Graph.setAdd, Graph.new] using ht'
  subst this
  exact absurd hx (by simp [t, mkTriple, Stmt.rename, Term.rename])

/-- Terms that survive unchanged: IRIs of URI characters, literals without dropped control characters and with at most one of language
    (no digit from 1 to 8) and datatype. -/
def Term.Plain : Term → Prop
  | .named n => ∀ c ∈ n, uriChar c
  | .lit v l d => v.Valid ∧ (∀ c ∈ v, ntKept c = true) ∧ (∀ t, l = some t → LangRead t ∧ d = Option.none) ∧ ∀ t, d = some t → t ≠ [] ∧ ∀ c ∈ t, uriChar c
  | _ => True

theorem uriChar_scalar {c : Nat} (h : uriChar c) : scalarValue c := by
  have := quoteKeeps_lt ((uriChar_iff c).1 h)
  constructor
  · omega
  · omega

theorem LangRead.ne_nil {l : PStr} (h : LangRead l) : ∃ c r, l = c :: r := by
  obtain ⟨c, r, h, -⟩ := h.ok; exact ⟨c, r, h⟩

theorem Term.Plain.survive {t : Term} (h : t.Plain) (f : Nat → Nat) : t.survive f = t.rename f ∧ t.Readable := by
  have hq : ∀ n : PStr, (∀ c ∈ n, uriChar c) → n.flatMap quote1 = n := fun n hn => flatMap_quote1_keep n (fun c hc => (uriChar_iff c).1 (hn c hc))
  cases t with
  | none => exact ⟨rfl, trivial⟩
  | gen _ => exact ⟨rfl, trivial⟩
  | bnode _ => exact ⟨rfl, trivial⟩
  | named n => exact ⟨by simp only [Term.survive, Term.rename, hq n h], fun c hc => uriChar_scalar (h c hc)⟩
  | lit v l d =>
    obtain ⟨h1, h2, h3, h4⟩ := h
    have hv : v.filter ntKept = v := List.filter_eq_self.2 h2
    refine ⟨?_, h1, fun t ht => Or.inr (h3 t ht).1, fun t ht c hc => uriChar_scalar ((h4 t ht).2 c hc)⟩
    cases l with
    | none =>
      cases d with
      | none => simp only [Term.survive, Term.rename, hv]
      | some d =>
        cases d with
        | nil => exact absurd rfl (h4 [] rfl).1
        | cons a b => simp only [Term.survive, Term.rename, hv, hq _ (h4 _ rfl).2]
    | some l =>
      obtain ⟨c, r, rfl⟩ := (h3 l rfl).1.ne_nil
      have := (h3 _ rfl).2
      subst this
      simp only [Term.survive, Term.rename, hv]

/-- **Round trip for plain graphs.** Missing from C37: IRIs with other than URI characters (they come back percent-encoded), literals with C0 control
    characters (dropped) and language tags with digits from 1 to 8 (rejected), see `C37_roundtrip_exact` and C42. -/
theorem C37_roundtrip_partial (g : Graph) (ord : List Stmt → List Stmt) (hord : IsOrder ord)
    (h : ∀ t ∈ g.triples, t.IsRdf ∧ t.s.Plain ∧ t.p.Plain ∧ t.o.Plain) (next : Nat) :
    ∃ text g' next' f, serializeNTriples (g.iter ord) = (text, .ok ()) ∧
      parseString Graph.add false next text (Graph.new) = (g', next', .ok ()) ∧
      (∀ t ∈ g.triples, ∀ t' ∈ g.triples, ∀ i j, t.HasBnode i → t'.HasBnode j → f i = f j → i = j) ∧
      ∀ x, x ∈ g'.triples ↔ ∃ t ∈ g.triples, x = t.rename f := by
  obtain ⟨text, g', n', f, h1, h2, h3, -, h5⟩ := C37_roundtrip_exact g ord hord
    (fun t ht => ⟨(h t ht).1, ((h t ht).2.1.survive id).2, ((h t ht).2.2.1.survive id).2, ((h t ht).2.2.2.survive id).2⟩) next
  refine ⟨text, g', n', f, h1, h2, h3, fun x => ?_⟩
  have key : ∀ t ∈ g.triples, t.survive f = t.rename f := by
    intro t ht
    obtain ⟨hr, a, b, c⟩ := h t ht
    have hg := hr.triple
    simp only [Stmt.survive, mkTriple, Stmt.rename, (a.survive f).1, (b.survive f).1, (c.survive f).1, hg, Option.map_none]
  rw [h5]
  exact ⟨fun ⟨t, ht, e⟩ => ⟨t, ht, e.trans (key t ht)⟩, fun ⟨t, ht, e⟩ => ⟨t, ht, e.trans (key t ht).symm⟩⟩

example : (mkTriple (.bnode 7) (.named (py! "http://p?x#y")) (.lit (py! "line\n\"é😀\\") (some (py! "en-GB-oed")) none)).IsRdf ∧
    (Term.lit (py! "line\n\"é😀\\") (some (py! "en-GB-oed")) none).Plain := by
  refine ⟨⟨Or.inr ⟨_, rfl⟩, ⟨_, rfl⟩, Or.inr (Or.inr ⟨_, _, _, rfl⟩), rfl⟩, ?_, ?_, ?_, ?_⟩
  · simp [PStr.Valid]
  · decide
  · intro t ht
    cases ht
    refine ⟨⟨LangWF.sub (t := py! "en-GB") (l := py! "oed") (LangWF.sub (t := py! "en") (l := py! "GB") (LangWF.primary (by simp) (by decide)) (by simp) ?_) (by simp) ?_, by decide⟩, rfl⟩ <;>
    decide
  · intro t ht; cases ht

/-! ### C38: one line per triple -/

/-- The property: what is written is one line per triple, and no line contains a line feed. -/
def C38_statement : Prop :=
  ∀ (ts : List Stmt) (text : PStr), serializeNTriples ts = (text, .ok ()) →
    ∃ lines : List PStr, lines.length = ts.length ∧ text = lines.flatMap (· ++ [10]) ∧ ∀ l ∈ lines, 10 ∉ l

/-- A language is written as it is, even if it contains a line feed. -/
theorem C38_language_breaks_framing : ¬ C38_statement := by
  intro h
  obtain ⟨lines, h1, h2, h3⟩ := h [mkTriple (.named (py! "s")) (.named (py! "p")) (.lit (py! "v") (some (py! "e\nn")) none)]
    (py! "<s> <p> \"v\"@e\nn .\n") (by decide)
  match lines, h1 with
  | [l], _ =>
    simp only [List.flatMap_cons, List.flatMap_nil, List.append_nil] at h2
    have hl : l = py! "<s> <p> \"v\"@e\nn ." := by
      have : l ++ [10] = py! "<s> <p> \"v\"@e\nn ." ++ [10] := h2.symm
      exact List.append_cancel_right this
    exact h3 l (by simp) (by rw [hl]; decide)

/-- For every sequence of triples whose languages contain no end of line: one line per triple, without line feeds or carriage returns inside. Missing
    from C38: languages with line feeds. -/
theorem C38_framing_partial (ts : List Stmt) (text : PStr) (h : serializeNTriples ts = (text, .ok ()))
    (hl : ∀ t ∈ ts, ∀ x, x = t.s ∨ x = t.p ∨ x = t.o → ∀ v l d, x = .lit v (some l) d → ∀ c ∈ l, c ≠ 10 ∧ c ≠ 13) :
    ∃ lines : List PStr, lines.length = ts.length ∧ text = lines.flatMap (· ++ [10]) ∧ ∀ l ∈ lines, 10 ∉ l ∧ 13 ∉ l := by
  induction ts generalizing text with
  | nil => cases h; exact ⟨[], rfl, rfl, by simp⟩
  | cons t ts ih =>
    simp only [serializeNTriples] at h
    cases ht : tripleStr t with
    | error e => rw [ht] at h; simp at h
    | ok line =>
      rw [ht] at h
      simp only [Prod.mk.injEq] at h
      obtain ⟨ls, h1, h2, h3⟩ := ih (serializeNTriples ts).1 (by rw [← h.2]) (fun x hx => hl x (by simp [hx]))
      have hno : ∀ x, x = t.s ∨ x = t.p ∨ x = t.o → ∀ w, x.toNT = .ok w → NoEol w := by
        intro x hx w hw
        refine toNT_noEol hw (fun v l d e c hc => ?_)
        have := hl t (by simp) x hx v l d e c hc
        simp [isEol, this.1, this.2]
      simp only [tripleStr, bind, Except.bind, pure, Except.pure] at ht
      cases ha : t.s.toNT with
      | error e => rw [ha] at ht; simp at ht
      | ok a =>
        rw [ha] at ht
        cases hb : t.p.toNT with
        | error e => rw [hb] at ht; simp at ht
        | ok b =>
          rw [hb] at ht
          cases hc : t.o.toNT with
          | error e => rw [hc] at ht; simp at ht
          | ok c =>
            rw [hc] at ht
            simp only [Except.ok.injEq] at ht
            refine ⟨(a ++ [32] ++ b ++ [32] ++ c ++ [32, 46]) :: ls, by simp [h1], ?_, ?_⟩
            · rw [← h.1, ← ht, h2]; simp
            · intro l hl'
              rcases List.mem_cons.1 hl' with rfl | hl'
              · have : NoEol (a ++ [32] ++ b ++ [32] ++ c ++ [32, 46]) := by
                  simp only [NoEol.append]
                  exact ⟨⟨⟨⟨⟨hno _ (by simp) a ha, by simp [NoEol, isEol]⟩, hno _ (by simp) b hb⟩, by simp [NoEol, isEol]⟩, hno _ (by simp) c hc⟩, by simp [NoEol, isEol]⟩
                exact ⟨fun h => by simpa [isEol] using this 10 h, fun h => by simpa [isEol] using this 13 h⟩
              · exact h3 l hl'

/-- Concatenating two written files is the file of the concatenated sequence of triples; for every sequence. -/
theorem C38_concatenation (ts us : List Stmt) (a b : PStr) (ha : serializeNTriples ts = (a, .ok ())) (hb : serializeNTriples us = (b, .ok ())) :
    serializeNTriples (ts ++ us) = (a ++ b, .ok ()) := by
  induction ts generalizing a with
  | nil => cases ha; simpa using hb
  | cons t ts ih =>
    simp only [serializeNTriples, List.cons_append] at ha ⊢
    cases ht : tripleStr t with
    | error e => rw [ht] at ha; simp at ha
    | ok line =>
      rw [ht] at ha
      simp only [Prod.mk.injEq] at ha
      have := ih (serializeNTriples ts).1 (by rw [← ha.2])
      simp only [this, ← ha.1, List.append_assoc]

example : serializeNTriples [mkTriple (.named (py! "s")) (.named (py! "p")) (.lit (py! "a\nb") (some (py! "en")) none)]
    = (py! "<s> <p> \"a\\nb\"@en .\n", .ok ()) := by decide

end Verif
