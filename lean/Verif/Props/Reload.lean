import Verif.Props.ParserApi
import Verif.Lemmas.LoopEdit
/-
C142: reading the same N-Triples document twice into the same graph.
-/
namespace Verif
open Spec Graph NTSpec

/-- The property: reading a document again into the graph that has it changes nothing. -/
def C142_statement : Prop := ∀ (u : Term) (ops : List GOp) (next : Nat) (text : PStr),
  (∀ t ∈ (Graph.run u ops).triples, ∀ i, t.HasBnode i → i < next) →
  let p1 := parseString Graph.add false next text (Graph.run u ops)
  let p2 := parseString Graph.add false p1.2.1 text p1.1
  p1.2.2 = .ok () → p2.2.2 = .ok () ∧ ∀ t, t ∈ p2.1.triples ↔ t ∈ p1.1.triples

/-- Refuted: blank nodes are new each time. -/
theorem C142_refuted : ¬ C142_statement := by
  intro h
  have := (h .none [] 0 (py! "_:a <p> <o> .") (by simp [Graph.run, Graph.new]) (by decide)).2
    (mkTriple (.bnode 1) (.named (py! "p")) (.named (py! "o")))
  revert this; decide

/-- The written statement has a blank node. -/
def RTerm.isLabel : RTerm → Bool
  | .label _ => true
  | _ => false

def RStmt.labelled (r : RStmt) : Bool := r.s.isLabel || r.p.isLabel || r.o.isLabel

theorem labelled_iff {r : RStmt} (hg : r.g = none) : r.labelled = true ↔ ∃ l, r.HasLabel l := by
  have term : ∀ t : RTerm, t.isLabel = true ↔ ∃ l, t = .label l := by
    intro t; cases t <;> simp [RTerm.isLabel]
  unfold RStmt.labelled RStmt.HasLabel
  simp only [Bool.or_eq_true, term, hg, reduceCtorEq, or_false]
  constructor
  · rintro ((⟨l, h⟩ | ⟨l, h⟩) | ⟨l, h⟩)
    exacts [⟨l, Or.inl h⟩, ⟨l, Or.inr (Or.inl h)⟩, ⟨l, Or.inr (Or.inr h)⟩]
  · rintro ⟨l, h | h | h⟩
    exacts [Or.inl (Or.inl ⟨l, h⟩), Or.inl (Or.inr ⟨l, h⟩), Or.inr ⟨l, h⟩]

theorem subst_unlabelled {r : RStmt} (hg : r.g = none) (h : r.labelled = false) (f f' : PStr → Nat) : r.subst f = r.subst f' := by
  have term : ∀ t : RTerm, t.isLabel = false → t.subst f = t.subst f' := by
    intro t; cases t <;> simp [RTerm.isLabel, RTerm.subst]
  unfold RStmt.labelled at h
  simp only [Bool.or_eq_false_iff] at h
  unfold RStmt.subst
  rw [term _ h.1.1, term _ h.1.2, term _ h.2, hg]; rfl

theorem subst_hasBnode {r : RStmt} {l : PStr} (hg : r.g = none) (h : r.HasLabel l) (f : PStr → Nat) : (r.subst f).HasBnode (f l) := by
  unfold RStmt.HasLabel at h
  unfold Stmt.HasBnode RStmt.subst
  rcases h with h | h | h | h
  · exact Or.inl (by simp [h, RTerm.subst])
  · exact Or.inr (Or.inl (by simp [h, RTerm.subst]))
  · exact Or.inr (Or.inr (by simp [h, RTerm.subst]))
  · rw [hg] at h; cases h

theorem hasBnode_subst {r : RStmt} {i : Nat} {f : PStr → Nat} (h : (r.subst f).HasBnode i) : ∃ l, r.HasLabel l ∧ f l = i := by
  have term : ∀ t : RTerm, t.subst f = .bnode i → ∃ l, t = .label l ∧ f l = i := by
    intro t ht
    cases t with
    | label l => simp only [RTerm.subst, Term.bnode.injEq] at ht; exact ⟨l, rfl, ht⟩
    | iri _ => cases ht
    | lit _ _ _ => cases ht
  rcases h with h | h | h
  · obtain ⟨l, h, e⟩ := term _ h; exact ⟨l, Or.inl h, e⟩
  · obtain ⟨l, h, e⟩ := term _ h; exact ⟨l, Or.inr (Or.inl h), e⟩
  · obtain ⟨l, h, e⟩ := term _ h; exact ⟨l, Or.inr (Or.inr (Or.inl h)), e⟩

theorem subst_inj {rs : List RStmt} {f : PStr → Nat} (hg : ∀ r ∈ rs, r.g = none)
    (hf : ∀ r ∈ rs, ∀ r' ∈ rs, ∀ l l', r.HasLabel l → r'.HasLabel l' → f l = f l' → l = l') {r r' : RStmt} (hr : r ∈ rs) (hr' : r' ∈ rs)
    (e : r.subst f = r'.subst f) : r = r' := by
  have term : ∀ (t t' : RTerm), (∀ l l', t = .label l → t' = .label l' → f l = f l' → l = l') → t.subst f = t'.subst f → t = t' := by
    intro t t' h e
    cases t <;> cases t' <;> simp only [RTerm.subst, Term.bnode.injEq, Term.named.injEq, Term.lit.injEq, reduceCtorEq] at e ⊢
    · rw [e]
    · rw [h _ _ rfl rfl e]
    · rw [e.1, e.2.1, e.2.2]
  have hh := hf r hr r' hr'
  obtain ⟨s, p, o, g⟩ := r
  obtain ⟨s', p', o', g'⟩ := r'
  simp only [RStmt.subst, Stmt.mk.injEq] at e
  have g1 : g = none := hg _ hr
  have g2 : g' = none := hg _ hr'
  rw [term s s' (fun l l' a b => hh l l' (Or.inl a) (Or.inl b)) e.1,
    term p p' (fun l l' a b => hh l l' (Or.inr (Or.inl a)) (Or.inr (Or.inl b))) e.2.1,
    term o o' (fun l l' a b => hh l l' (Or.inr (Or.inr (Or.inl a))) (Or.inr (Or.inr (Or.inl b)))) e.2.2.1, g1, g2]

theorem doc_graph {text : PStr} {rs : List RStmt} (h : Doc code false text rs) : ∀ r ∈ rs, r.g = none := by
  cases h with
  | first hs hr =>
    intro r h
    rcases List.mem_cons.1 h with rfl | h
    · exact statement_graph hs
    · exact rest_graph hr r h
  | rest hr => exact rest_graph hr

theorem foldl_add_inv {g : Graph} (hg : Inv g) : ∀ {ts : List Stmt}, (∀ t ∈ ts, t.g = none) → Inv (ts.foldl Graph.add g) :=
  fun {_} h => hg.addAll h

/-- Exactly: the second reading adds a copy, with new blank nodes, of the statements that have a blank node, and nothing else. -/
theorem C142_exact {g : Graph} (hg : Inv g) (next : Nat) (hn : ∀ t ∈ g.triples, ∀ i, t.HasBnode i → i < next) {text : PStr} {rs : List RStmt}
    (hd : Doc code false text rs) :
    let p1 := parseString Graph.add false next text g
    let p2 := parseString Graph.add false p1.2.1 text p1.1
    p1.2.2 = .ok () ∧ p2.2.2 = .ok () ∧
    ∃ f, (∀ r ∈ rs, ∀ r' ∈ rs, ∀ l l', r.HasLabel l → r'.HasLabel l' → f l = f l' → l = l') ∧
      (∀ r ∈ rs, ∀ l, r.HasLabel l → p1.2.1 ≤ f l ∧ ∀ t ∈ p1.1.triples, ¬ t.HasBnode (f l)) ∧
      (∀ t, t ∈ p2.1.triples ↔ t ∈ p1.1.triples ∨ ∃ r ∈ rs, r.labelled = true ∧ t = r.subst f) ∧
      p2.1.len = p1.1.len + (rs.filter RStmt.labelled).dedup.length := by
  have hdoc := pDoc_iff.2 hd
  have hgr := doc_graph hd
  intro p1 p2
  obtain ⟨f1, n1, a1, a2, a3, a4⟩ := C41_labels_scoped Graph.add false next text g rs hdoc
  obtain ⟨f2, n2, b1, b2, b3, b4⟩ := C41_labels_scoped Graph.add false n1 text ((rs.map (·.subst f1)).foldl Graph.add g) rs hdoc
  have e1 : p1 = ((rs.map (·.subst f1)).foldl Graph.add g, n1, .ok ()) := a2
  have e2 : p2 = ((rs.map (·.subst f2)).foldl Graph.add p1.1, n2, .ok ()) := by
    show parseString Graph.add false p1.2.1 text p1.1 = _
    rw [e1]; exact b2
  have m1 : ∀ t, t ∈ p1.1.triples ↔ (∃ r ∈ rs, t = r.subst f1) ∨ t ∈ g.triples := by
    intro t
    rw [e1]
    show t ∈ (Graph.addAll g _).triples ↔ _
    rw [mem_addAll]; simp [eq_comm]
  have m2 : ∀ t, t ∈ p2.1.triples ↔ (∃ r ∈ rs, t = r.subst f2) ∨ t ∈ p1.1.triples := by
    intro t
    rw [e2]
    show t ∈ (Graph.addAll p1.1 _).triples ↔ _
    rw [mem_addAll]; simp [eq_comm]
  have hlt : ∀ t ∈ p1.1.triples, ∀ i, t.HasBnode i → i < n1 := by
    intro t ht i hi
    rcases (m1 t).1 ht with ⟨r, hr, rfl⟩ | ht
    · obtain ⟨l, hl, rfl⟩ := hasBnode_subst hi
      exact (a4 r hr l hl).2
    · exact Nat.lt_of_lt_of_le (hn t ht i hi) a1
  have hgn : ∀ (f : PStr → Nat), ∀ t ∈ rs.map (·.subst f), t.g = none := by
    intro f t ht
    obtain ⟨r, hr, rfl⟩ := List.mem_map.1 ht
    simp [RStmt.subst, hgr r hr]
  have i1 : Inv p1.1 := by rw [e1]; exact foldl_add_inv hg (hgn f1)
  have i2 : Inv p2.1 := by rw [e2]; exact foldl_add_inv i1 (hgn f2)
  have hnew : ∀ r ∈ rs, r.labelled = true → r.subst f2 ∉ p1.1.triples := by
    intro r hr hl hm
    obtain ⟨l, hl⟩ := (labelled_iff (hgr r hr)).1 hl
    have := hlt _ hm _ (subst_hasBnode (hgr r hr) hl f2)
    have := (b4 r hr l hl).1
    omega
  have hmem : ∀ t, t ∈ p2.1.triples ↔ t ∈ p1.1.triples ∨ ∃ r ∈ rs, r.labelled = true ∧ t = r.subst f2 := by
    intro t
    rw [m2 t]
    constructor
    · rintro (⟨r, hr, rfl⟩ | h)
      · cases hl : r.labelled with
        | true => exact Or.inr ⟨r, hr, hl, rfl⟩
        | false => exact Or.inl ((m1 _).2 (Or.inl ⟨r, hr, subst_unlabelled (hgr r hr) hl f2 f1⟩))
      · exact Or.inl h
    · rintro (h | ⟨r, hr, _, rfl⟩)
      · exact Or.inr h
      · exact Or.inl ⟨r, hr, rfl⟩
  refine ⟨by rw [e1], by rw [e2], f2, b3, fun r hr l hl => ⟨by rw [e1]; exact (b4 r hr l hl).1, fun t ht hb => ?_⟩, hmem, ?_⟩
  · have := hlt t ht _ hb
    have := (b4 r hr l hl).1
    omega
  · have hp : p2.1.triples.Perm (p1.1.triples ++ (rs.filter RStmt.labelled).dedup.map (·.subst f2)) := by
      rw [List.perm_ext_iff_of_nodup i2.nodup]
      · intro t
        rw [hmem t, List.mem_append, List.mem_map]
        simp only [List.mem_dedup, List.mem_filter, and_assoc, eq_comm]
      · refine List.nodup_append.2 ⟨i1.nodup, ?_, ?_⟩
        · rw [List.nodup_map_iff_inj_on (List.nodup_dedup _)]
          intro x hx y hy e
          rw [List.mem_dedup, List.mem_filter] at hx hy
          exact subst_inj hgr b3 hx.1 hy.1 e
        · rintro t ht t' ht' rfl
          obtain ⟨r, hr, rfl⟩ := List.mem_map.1 ht'
          rw [List.mem_dedup, List.mem_filter] at hr
          exact hnew r hr.1 hr.2 ht
    have := hp.length_eq
    rw [List.length_append, List.length_map] at this
    exact this

/-- A document without blank nodes can be read again without effect. -/
theorem C142_ground {g : Graph} (hg : Inv g) (next : Nat) {text : PStr} {rs : List RStmt} (hd : Doc code false text rs)
    (hl : ∀ r ∈ rs, ∀ l, ¬ r.HasLabel l) (next' : Nat) :
    let p1 := parseString Graph.add false next text g
    let p2 := parseString Graph.add false next' text p1.1
    p2.1 = p1.1 ∧ p2.2.2 = .ok () := by
  have hdoc := pDoc_iff.2 hd
  have hgr := doc_graph hd
  intro p1 p2
  obtain ⟨f1, n1, a1, a2, a3, a4⟩ := C41_labels_scoped Graph.add false next text g rs hdoc
  obtain ⟨f2, n2, b1, b2, b3, b4⟩ := C41_labels_scoped Graph.add false next' text p1.1 rs hdoc
  have e1 : p1 = ((rs.map (·.subst f1)).foldl Graph.add g, n1, .ok ()) := a2
  have e2 : p2 = ((rs.map (·.subst f2)).foldl Graph.add p1.1, n2, .ok ()) := b2
  have hs : rs.map (·.subst f2) = rs.map (·.subst f1) := by
    refine List.map_congr_left fun r hr => subst_unlabelled (hgr r hr) ?_ _ _
    cases h : r.labelled with
    | false => rfl
    | true => obtain ⟨l, h⟩ := (labelled_iff (hgr r hr)).1 h; exact absurd h (hl r hr l)
  have i1 : Inv p1.1 := by
    rw [e1]
    refine foldl_add_inv hg fun t ht => ?_
    obtain ⟨r, hr, rfl⟩ := List.mem_map.1 ht
    simp [RStmt.subst, hgr r hr]
  have hm : ∀ t ∈ rs.map (·.subst f1), t ∈ p1.1.triples := by
    intro t ht
    rw [e1]
    exact (mem_addAll g _ t).2 (Or.inl ht)
  rw [e2, hs]
  refine ⟨?_, rfl⟩
  generalize rs.map (·.subst f1) = ts at hm
  clear * - hm i1
  show ts.foldl Graph.add p1.1 = p1.1
  induction ts with
  | nil => rfl
  | cons t ts ih =>
    rw [List.foldl_cons, add_of_mem i1.toIxInv (hm t (by simp))]
    exact ih fun x hx => hm x (by simp [hx])

/-- Two statements, one with a blank node: three triples after the second reading. -/
example :
    let p1 := parseString Graph.add false 0 (py! "_:a <p> <o> .\n<s> <p> <o> .") (Graph.run .none [])
    let p2 := parseString Graph.add false p1.2.1 (py! "_:a <p> <o> .\n<s> <p> <o> .") p1.1
    p1.1.len = 2 ∧ p2.1.len = 3 ∧ p2.2.2 = .ok () := by decide

end Verif
