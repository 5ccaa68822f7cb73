import Verif.Props.NQuadsWrite
/-! C43: nor does any dataset with blank nodes come back from `serialize_nquads`, under any names of the blank nodes. -/
namespace Verif
open Spec NTSpec

/-! ### The characters "<" and "\" that a statement needs -/

/-- The number of characters "<" and "\". -/
def marks (s : PStr) : Nat := s.countP fun c => c == 60 || c == 92

theorem marks_append (s t : PStr) : marks (s ++ t) = marks s + marks t := List.countP_append ..

theorem marks_cons (c : Nat) (s : PStr) : marks (c :: s) = marks s + if c = 60 ∨ c = 92 then 1 else 0 := by
  simp [marks, List.countP_cons]

theorem marks_cons_le (c : Nat) (s : PStr) : marks (c :: s) ≤ marks s + 1 := by
  rw [marks_cons]; split <;> omega

/-- The marks that a term needs in a text it is read from: those in it, and the bracket of an IRI. -/
def Term.marks : Term → Nat
  | .named n => Verif.marks n + 1
  | .lit v _ _ => Verif.marks v
  | _ => 0

def Stmt.marks (t : Stmt) : Nat := t.s.marks + t.p.marks + t.o.marks + (t.g.getD .none).marks

theorem _root_.Verif.Spec.Denotes.marks {s v : PStr} (h : Denotes s v) : Verif.marks v ≤ Verif.marks s := by
  induction h with
  | nil => exact Nat.le_refl _
  | plain _ _ ih => simp only [marks_cons]; omega
  | @echar x c s v _ _ ih =>
    have := marks_cons_le c v
    simp only [marks_cons 0x5C, marks_cons x]
    simp; omega
  | @uchar4 h c s v _ _ ih =>
    have := marks_cons_le c v
    simp only [marks_cons 0x5C, marks_cons 0x75, marks_append]
    simp; omega
  | @uchar8 h c s v _ _ _ ih =>
    have := marks_cons_le c v
    simp only [marks_cons 0x5C, marks_cons 0x55, marks_append]
    simp; omega

theorem _root_.Verif.NTSpec.IriBody.marks {D : Dialect} {s v : PStr} (h : IriBody D s v) : Verif.marks v ≤ Verif.marks s := by
  induction h with
  | nil => exact Nat.le_refl _
  | char _ _ _ ih => simp only [marks_cons]; omega
  | @uchar4 h c s v _ _ ih =>
    have := marks_cons_le c v
    simp only [marks_cons 0x5C, marks_cons 0x75, marks_append]
    simp; omega
  | @uchar8 h c s v _ _ _ ih =>
    have := marks_cons_le c v
    simp only [marks_cons 0x5C, marks_cons 0x55, marks_append]
    simp; omega
  | gap _ _ _ ih => simp only [marks_cons]; omega

theorem iri_marks {D : Dialect} {s v r : PStr} (h : Iri D s v r) : marks v + 1 + marks r ≤ marks s := by
  cases h with
  | mk _ hb => have := hb.marks; simp [marks_append, marks_cons]; omega

theorem node_marks {D : Dialect} {s r : PStr} {t : RTerm} (f : PStr → Nat) (h : Node D s t r) : (t.subst f).marks + marks r ≤ marks s := by
  cases h with
  | iri h => exact iri_marks h
  | label _ _ _ => simp [RTerm.subst, Term.marks, marks_append]; omega

theorem object_marks {D : Dialect} {s r : PStr} {t : RTerm} (f : PStr → Nat) (h : Object D s t r) : (t.subst f).marks + marks r ≤ marks s := by
  cases h with
  | node h => exact node_marks f h
  | plain _ _ hd => have := hd.marks; simp [RTerm.subst, Term.marks, marks_append, marks_cons]; omega
  | typed _ _ hd _ hi => have := hd.marks; have := iri_marks hi; simp [RTerm.subst, Term.marks, marks_append, marks_cons]; omega
  | lang _ _ hd _ _ _ => have := hd.marks; simp [RTerm.subst, Term.marks, marks_append, marks_cons]; omega

theorem dot_marks {s r : PStr} (h : Dot s r) : marks r ≤ marks s := by
  cases h with
  | mk _ => simp [marks_append, marks_cons]

theorem statement_marks {D : Dialect} {q : Bool} {s r : PStr} {t : RStmt} (f : PStr → Nat) (h : Statement D q s t r) : (t.subst f).marks + marks r ≤ marks s := by
  cases h with
  | triple ha hp ho hd =>
    have := node_marks f ha; have := iri_marks hp; have := object_marks f ho; have := dot_marks hd
    simp [RStmt.subst, Stmt.marks, RTerm.subst, Term.marks] at *; omega
  | quad ha hp ho hg hd =>
    have := node_marks f ha; have := iri_marks hp; have := object_marks f ho; have := iri_marks hg; have := dot_marks hd
    simp [RStmt.subst, Stmt.marks, RTerm.subst, Term.marks] at *; omega
  | bnodeGraph _ ha hp ho hg hd =>
    have := node_marks f ha; have := iri_marks hp; have := object_marks f ho; have := node_marks f hg; have := dot_marks hd
    simp [RStmt.subst, Stmt.marks, RTerm.subst, Term.marks] at *; omega
  | noGraph _ ha hp ho hd =>
    have := node_marks f ha; have := iri_marks hp; have := object_marks f ho; have := dot_marks hd
    simp [RStmt.subst, Stmt.marks, RTerm.subst, Term.marks] at *; omega

theorem rest_marks {D : Dialect} {q : Bool} {s : PStr} {rs : List RStmt} (f : PStr → Nat) (h : Rest D q s rs) :
    ((rs.map (RStmt.subst f)).map Stmt.marks).sum ≤ marks s := by
  induction h with
  | eof _ => simp
  | eol _ _ _ => simp
  | next _ _ hst _ ih => have := statement_marks f hst; simp [marks_append] at *; omega

/-- A document has at least the marks that its statements need. -/
theorem doc_marks {D : Dialect} {q : Bool} {s : PStr} {rs : List RStmt} (f : PStr → Nat) (h : Doc D q s rs) :
    ((rs.map (RStmt.subst f)).map Stmt.marks).sum ≤ marks s := by
  cases h with
  | first hst hr => have := statement_marks f hst; have := rest_marks f hr; simp at *; omega
  | rest hr => exact rest_marks f hr

/-! ### What is written -/

/-- Specification: a quad of RDF. The predicate is an IRI (any string), the other terms are IRIs, blank nodes and literals. -/
def Stmt.IsQuad (t : Stmt) : Prop :=
  ∃ s p o g, t = mkQuad s (.named p) o g ∧ ∀ x ∈ [s, o, g], (∃ n, x = .named n) ∨ (∃ i, x = .bnode i) ∨ ∃ v l d, x = .lit v l d

theorem bnodeStr_marks (i : Nat) : marks (bnodeStr i) = 0 := by
  obtain ⟨l, h, _, hl⟩ := C28_labels_legal i
  rw [h, marks_append, show marks (py! "_:") = 0 from rfl, Nat.zero_add]
  refine List.countP_eq_zero.2 fun c hc => ?_
  have := hl c hc
  simp
  omega

theorem str_marks {x : Term} (h : (∃ n, x = .named n) ∨ (∃ i, x = .bnode i) ∨ ∃ v l d, x = .lit v l d) : marks x.str ≤ x.marks := by
  rcases h with ⟨n, rfl⟩ | ⟨i, rfl⟩ | ⟨v, l, d, rfl⟩
  · simp [Term.str, Term.marks]
  · simp [Term.str, bnodeStr_marks]
  · simp [Term.str, Term.marks]

theorem quadStr_marks {t : Stmt} (h : t.IsQuad) : marks (quadStr t) < t.marks := by
  obtain ⟨s, p, o, g, rfl, hx⟩ := h
  have h1 := str_marks (hx s (by simp))
  have h2 := str_marks (hx o (by simp))
  have h3 := str_marks (hx g (by simp))
  have h4 : marks (py! " .\n") = 0 := rfl
  have h5 : marks [32] = 0 := rfl
  have h6 : marks (Term.named p).str < (Term.named p).marks := Nat.lt_succ_self _
  simp only [quadStr, mkQuad, marks_append, h4, h5, Stmt.marks, Option.getD_some]
  omega

theorem serializeNQuads_marks {qs : List Stmt} (h : ∀ t ∈ qs, t.IsQuad) (hne : qs ≠ []) : marks (serializeNQuads qs) < (qs.map Stmt.marks).sum := by
  induction qs with
  | nil => exact absurd rfl hne
  | cons t ts ih =>
    have h1 := quadStr_marks (h t (by simp))
    cases ts with
    | nil => simpa [serializeNQuads] using h1
    | cons u us =>
      have := ih (fun x hx => h x (List.mem_cons_of_mem _ hx)) (by simp)
      simp [serializeNQuads, marks_append] at *
      omega

theorem Term.marks_rename (ρ : Nat → Nat) (x : Term) : (x.rename ρ).marks = x.marks := by cases x <;> rfl

theorem Stmt.marks_rename (ρ : Nat → Nat) (t : Stmt) : (t.rename ρ).marks = t.marks := by
  have : ((t.rename ρ).g.getD .none).marks = (t.g.getD .none).marks := by
    cases h : t.g <;> simp [Stmt.rename, h, Term.marks_rename]
  simp only [Stmt.marks, this]
  simp [Stmt.rename, Term.marks_rename]

/-- **Never**: no dataset that is not empty, whatever its IRIs and literals are, whatever the order of iteration, comes back under any names of its blank
    nodes. If what was written is read at all, and `ρ` gives names to the blank nodes without making two quads the same, then at least one
    of the quads, with these names, is not among those that are read. -/
theorem C43_never_isomorphic {qs : List Stmt} (hne : qs ≠ []) (hnd : qs.Nodup) (h : ∀ t ∈ qs, t.IsQuad) (next : Nat) {ts : List Stmt} {n : Nat}
    (hr : parseString (fun l t => l ++ [t]) true next (serializeNQuads qs) [] = (ts, n, .ok ())) {ρ : Nat → Nat}
    (hρ : ∀ q ∈ qs, ∀ q' ∈ qs, q.rename ρ = q'.rename ρ → q = q') : ∃ q ∈ qs, q.rename ρ ∉ ts := by
  by_contra hc
  have hall : ∀ q ∈ qs.map (Stmt.rename ρ), q ∈ ts := fun q hq => by
    obtain ⟨q', hq', rfl⟩ := List.mem_map.1 hq
    by_contra hn
    exact hc ⟨q', hq', hn⟩
  cases hd : pDoc true (serializeNQuads qs) with
  | error e => simp [parseString, hd] at hr
  | ok rs =>
    obtain ⟨f, n', _, h2, _, _⟩ := ReadsAs.of_doc hd (List Stmt) (fun l t => l ++ [t]) next []
    rw [h2] at hr
    have e : ts = rs.map (RStmt.subst f) := by
      have := (Prod.mk.inj hr).1
      rw [foldl_snoc, List.nil_append] at this
      exact this.symm
    subst e
    have hn : (qs.map (Stmt.rename ρ)).Nodup := by
      refine List.pairwise_map.2 (hnd.imp_of_mem fun ha hb hab heq => hab (hρ _ ha _ hb heq))
    have a := doc_marks f (pDoc_iff.1 hd)
    have b := serializeNQuads_marks h hne
    have c := sum_le_of_subset Stmt.marks hn hall
    have d : ((qs.map (Stmt.rename ρ)).map Stmt.marks) = qs.map Stmt.marks := by simp [Stmt.marks_rename]
    rw [d] at c
    omega

/-- A quad with a blank node that makes a text that is read. -/
def oddBlank : Stmt := mkQuad (.bnode 5) (.named (py! "<p>")) (.bnode 6) (.named (py! "<g>"))

example : oddBlank.IsQuad ∧ (parseString (fun l t => l ++ [t]) true 0 (serializeNQuads [oddBlank]) []).2.2 = .ok () := by
  refine ⟨⟨_, _, _, _, rfl, by simp⟩, ?_⟩
  have h : serializeNQuads [oddBlank] = py! "_:F <p> _:G <g> .\n" := by
    simp [serializeNQuads, quadStr, oddBlank, mkQuad, Term.str, bnodeStr, bnodeValue, hexDigits, hexLower]
  rw [h]
  decide

end Verif
