import Verif.Props.NTGrammar
import Verif.Props.DatasetSink
/-! C43: no dataset of IRIs and literals comes back from `serialize_nquads`, whatever its IRIs and literals are. -/
namespace Verif
open Spec NTSpec

/-! ### How much text a statement needs -/

/-- The text that an IRI or literal needs at least: its characters, and the brackets or quotes. -/
def Term.need : Term → Nat
  | .named n => n.length + 2
  | .lit v _ _ => v.length + 2
  | _ => 0

/-- The four terms and the dot. -/
def Stmt.need (t : Stmt) : Nat := t.s.need + t.p.need + t.o.need + (t.g.getD .none).need + 1

theorem _root_.Verif.Spec.Denotes.length {s v : PStr} (h : Denotes s v) : v.length ≤ s.length := by
  induction h with
  | nil => exact Nat.le_refl _
  | plain _ _ ih => simpa using ih
  | echar _ _ ih => simp; omega
  | uchar4 _ _ ih => simp; omega
  | uchar8 _ _ _ ih => simp; omega

theorem _root_.Verif.NTSpec.IriBody.length {D : Dialect} {s v : PStr} (h : IriBody D s v) : v.length ≤ s.length := by
  induction h with
  | nil => exact Nat.le_refl _
  | char _ _ _ ih => simpa using ih
  | uchar4 _ _ ih => simp; omega
  | uchar8 _ _ _ ih => simp; omega
  | gap _ _ _ ih => simp; omega

theorem iri_need {D : Dialect} {s v r : PStr} (h : Iri D s v r) : v.length + 2 + r.length ≤ s.length := by
  cases h with
  | mk _ hb => have := hb.length; simp; omega

theorem node_need {D : Dialect} {s r : PStr} {t : RTerm} (f : PStr → Nat) (h : Node D s t r) : (t.subst f).need + r.length ≤ s.length := by
  cases h with
  | iri h => exact iri_need h
  | label _ _ _ => simp [RTerm.subst, Term.need]; omega

theorem object_need {D : Dialect} {s r : PStr} {t : RTerm} (f : PStr → Nat) (h : Object D s t r) : (t.subst f).need + r.length ≤ s.length := by
  cases h with
  | node h => exact node_need f h
  | plain _ _ hd => have := hd.length; simp [RTerm.subst, Term.need]; omega
  | typed _ _ hd _ hi => have := hd.length; have := iri_need hi; simp [RTerm.subst, Term.need]; omega
  | lang _ _ hd _ _ _ => have := hd.length; simp [RTerm.subst, Term.need]; omega

theorem dot_need {s r : PStr} (h : Dot s r) : 1 + r.length ≤ s.length := by
  cases h with
  | mk _ => simp; omega

theorem statement_need {D : Dialect} {q : Bool} {s r : PStr} {t : RStmt} (f : PStr → Nat) (h : Statement D q s t r) : (t.subst f).need + r.length ≤ s.length := by
  cases h with
  | triple ha hp ho hd =>
    have := node_need f ha; have := iri_need hp; have := object_need f ho; have := dot_need hd
    simp [RStmt.subst, Stmt.need, RTerm.subst, Term.need] at *; omega
  | quad ha hp ho hg hd =>
    have := node_need f ha; have := iri_need hp; have := object_need f ho; have := iri_need hg; have := dot_need hd
    simp [RStmt.subst, Stmt.need, RTerm.subst, Term.need] at *; omega
  | bnodeGraph _ ha hp ho hg hd =>
    have := node_need f ha; have := iri_need hp; have := object_need f ho; have := node_need f hg; have := dot_need hd
    simp [RStmt.subst, Stmt.need, RTerm.subst, Term.need] at *; omega
  | noGraph _ ha hp ho hd =>
    have := node_need f ha; have := iri_need hp; have := object_need f ho; have := dot_need hd
    simp [RStmt.subst, Stmt.need, RTerm.subst, Term.need] at *; omega

theorem rest_need {D : Dialect} {q : Bool} {s : PStr} {rs : List RStmt} (f : PStr → Nat) (h : Rest D q s rs) :
    ((rs.map (RStmt.subst f)).map Stmt.need).sum ≤ s.length := by
  induction h with
  | eof _ => simp
  | eol _ _ _ => simp
  | next _ _ hst _ ih => have := statement_need f hst; simp at *; omega

/-- A document is at least as long as its statements need. -/
theorem doc_need {D : Dialect} {q : Bool} {s : PStr} {rs : List RStmt} (f : PStr → Nat) (h : Doc D q s rs) :
    ((rs.map (RStmt.subst f)).map Stmt.need).sum ≤ s.length := by
  cases h with
  | first hst hr => have := statement_need f hst; have := rest_need f hr; simp at *; omega
  | rest hr => exact rest_need f hr

/-! ### What is written -/

/-- Specification: a quad of IRIs, with an IRI or a literal as the object. The IRIs may be any strings. -/
def Stmt.NoBlank (t : Stmt) : Prop :=
  ∃ s p o g, t = mkQuad (.named s) (.named p) o (.named g) ∧ ((∃ n, o = .named n) ∨ ∃ v l d, o = .lit v l d)

theorem quadStr_need {t : Stmt} (h : t.NoBlank) : (quadStr t).length < t.need := by
  obtain ⟨s, p, o, g, rfl, ⟨n, rfl⟩ | ⟨v, l, d, rfl⟩⟩ := h <;> simp [quadStr, mkQuad, Stmt.need, Term.need, Term.str] <;> omega

theorem serializeNQuads_need {qs : List Stmt} (h : ∀ t ∈ qs, t.NoBlank) (hne : qs ≠ []) : (serializeNQuads qs).length < (qs.map Stmt.need).sum := by
  induction qs with
  | nil => exact absurd rfl hne
  | cons t ts ih =>
    have h1 := quadStr_need (h t (by simp))
    cases ts with
    | nil => simpa [serializeNQuads] using h1
    | cons u us =>
      have := ih (fun x hx => h x (List.mem_cons_of_mem _ hx)) (by simp)
      simp [serializeNQuads] at *
      omega

theorem sum_le_of_subset {α : Type} (f : α → Nat) {xs : List α} (hx : xs.Nodup) : ∀ {ys : List α}, (∀ x ∈ xs, x ∈ ys) → (xs.map f).sum ≤ (ys.map f).sum := by
  induction xs with
  | nil => intro ys _; simp
  | cons a xs ih =>
    intro ys h
    obtain ⟨u, v, rfl⟩ := List.append_of_mem (h a (by simp))
    have := ih (List.nodup_cons.1 hx).2 (ys := u ++ v) (fun x hm => by
      have := h x (by simp [hm])
      simp only [List.mem_append, List.mem_cons] at this ⊢
      rcases this with h | rfl | h
      · exact .inl h
      · exact absurd hm (List.nodup_cons.1 hx).1
      · exact .inr h)
    simp at *
    omega

/-- **Never**: no dataset of IRIs and literals, whatever they are and whatever the order of iteration, comes back. If what was written is read at all,
    then at least one of the quads is not among those that are read. For blank nodes, whose text may be longer than their labels need be, see `C43_never_isomorphic`. -/
theorem C43_never_same {qs : List Stmt} (hne : qs ≠ []) (hnd : qs.Nodup) (h : ∀ t ∈ qs, t.NoBlank) (next : Nat) {ts : List Stmt} {n : Nat}
    (hr : parseString (fun l t => l ++ [t]) true next (serializeNQuads qs) [] = (ts, n, .ok ())) : ∃ q ∈ qs, q ∉ ts := by
  by_contra hc
  have hall : ∀ q ∈ qs, q ∈ ts := fun q hq => by
    by_contra hn
    exact hc ⟨q, hq, hn⟩
  cases hd : pDoc true (serializeNQuads qs) with
  | error e => simp [parseString, hd] at hr
  | ok rs =>
    obtain ⟨f, n', _, h2, _, _⟩ := ReadsAs.of_doc hd (List Stmt) (fun l t => l ++ [t]) next []
    rw [h2] at hr
    have e : ts = rs.map (RStmt.subst f) := by
      have := (Prod.mk.inj hr).1
      rw [foldl_snoc, List.nil_append] at this
      exact this.symm
    subst e
    have a := doc_need f (pDoc_iff.1 hd)
    have b := serializeNQuads_need h hne
    have c := sum_le_of_subset Stmt.need hnd hall
    omega

/-- Terms that look like N-Quads make a text that is read, as another quad. -/
def oddQuad : Stmt := mkQuad (.named (py! "<s>")) (.named (py! "<p>")) (.lit (py! "\"o\"") none none) (.named (py! "<g>"))

example : oddQuad.NoBlank ∧ (parseString (fun l t => l ++ [t]) true 0 (serializeNQuads [oddQuad]) []).2.2 = .ok () :=
  ⟨⟨_, _, _, _, rfl, .inr ⟨_, _, _, rfl⟩⟩, by decide⟩

end Verif
