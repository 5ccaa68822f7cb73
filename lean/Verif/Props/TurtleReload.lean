import Verif.Props.Reload
import Verif.Props.TurtleParse
import Verif.Lemmas.TurtleShift
/-
C144: reading the same Turtle document twice into the same graph; the reading does not depend on which names are already taken.
-/
namespace Verif
open Spec Graph

/-- The identity of a term: that of a blank node, or of the generator object the parser sometimes stores (C85). -/
def Term.ident : Term → Option Nat
  | .bnode i => some i
  | .gen i => some i
  | _ => Option.none

/-- The statement mentions the identity. -/
def Stmt.HasIdent (t : Stmt) (i : Nat) : Prop := t.s.ident = some i ∨ t.p.ident = some i ∨ t.o.ident = some i

/-- The statement mentions some identity. -/
def Stmt.anon (t : Stmt) : Bool := t.s.ident.isSome || t.p.ident.isSome || t.o.ident.isSome

/-- The statement with every identity increased by `k`. -/
def Stmt.up (k : Nat) (t : Stmt) : Stmt := Turtle.shS k t

namespace Turtle

theorem ident_sh (k : Nat) (t : Term) : (shT k t).ident = t.ident.map (· + k) := by cases t <;> rfl

theorem anon_iff {t : Stmt} : t.anon = true ↔ ∃ i, t.HasIdent i := by
  unfold Stmt.anon Stmt.HasIdent
  simp only [Bool.or_eq_true, Option.isSome_iff_exists]
  constructor
  · rintro ((⟨l, h⟩ | ⟨l, h⟩) | ⟨l, h⟩)
    exacts [⟨l, Or.inl h⟩, ⟨l, Or.inr (Or.inl h)⟩, ⟨l, Or.inr (Or.inr h)⟩]
  · rintro ⟨l, h | h | h⟩
    exacts [Or.inl (Or.inl ⟨l, h⟩), Or.inl (Or.inr ⟨l, h⟩), Or.inr ⟨l, h⟩]

theorem hasIdent_up {k i : Nat} {t : Stmt} : (t.up k).HasIdent i ↔ ∃ j, t.HasIdent j ∧ i = j + k := by
  unfold Stmt.HasIdent Stmt.up shS
  simp only [ident_sh, Option.map_eq_some_iff]
  constructor
  · rintro (⟨j, h, rfl⟩ | ⟨j, h, rfl⟩ | ⟨j, h, rfl⟩)
    exacts [⟨j, Or.inl h, rfl⟩, ⟨j, Or.inr (Or.inl h), rfl⟩, ⟨j, Or.inr (Or.inr h), rfl⟩]
  · rintro ⟨j, h | h | h, rfl⟩
    exacts [Or.inl ⟨j, h, rfl⟩, Or.inr (Or.inl ⟨j, h, rfl⟩), Or.inr (Or.inr ⟨j, h, rfl⟩)]

theorem anon_up (k : Nat) (t : Stmt) : (t.up k).anon = t.anon := by
  unfold Stmt.anon Stmt.up shS
  simp only [ident_sh, Option.isSome_map]

theorem shT_same {k : Nat} {t : Term} (h : t.ident = none) : shT k t = t := by cases t <;> first | rfl | cases h

theorem up_ground {k : Nat} {t : Stmt} (hg : t.g = none) (h : t.anon = false) : t.up k = t := by
  unfold Stmt.anon at h
  simp only [Bool.or_eq_false_iff, Option.isSome_eq_false_iff, Option.isNone_iff_eq_none] at h
  obtain ⟨s, p, o, g⟩ := t
  simp only at hg h
  subst hg
  simp only [Stmt.up, shS, shT_same h.1.1, shT_same h.1.2, shT_same h.2, Option.map_none]

theorem shT_inj {k : Nat} {t t' : Term} (h : shT k t = shT k t') : t = t' := by
  cases t <;> cases t' <;> simp only [shT, Term.bnode.injEq, Term.gen.injEq, reduceCtorEq, Nat.add_right_cancel_iff] at h ⊢ <;> exact h

theorem up_inj {k : Nat} {t t' : Stmt} (hg : t.g = none) (hg' : t'.g = none) (h : t.up k = t'.up k) : t = t' := by
  obtain ⟨s, p, o, g⟩ := t
  obtain ⟨s', p', o', g'⟩ := t'
  simp only at hg hg'
  subst hg hg'
  simp only [Stmt.up, shS, Stmt.mk.injEq] at h
  rw [shT_inj h.1, shT_inj h.2.1, shT_inj h.2.2.1]

theorem shT_shT (k l : Nat) (t : Term) : shT k (shT l t) = shT (l + k) t := by
  cases t <;> simp only [shT, Nat.add_assoc]

theorem up_up (k l : Nat) {t : Stmt} (hg : t.g = none) : (t.up l).up k = t.up (l + k) := by
  obtain ⟨s, p, o, g⟩ := t
  simp only at hg
  subst hg
  simp only [Stmt.up, shS, shT_shT, Option.map_none]

theorem LtT.ident {n : Nat} {t : Term} (h : LtT n t) : ∀ i, t.ident = some i → i < n := by
  intro i hi
  cases t <;> simp only [Term.ident, Option.some.injEq, reduceCtorEq] at hi
  all_goals subst hi; exact h

/-- The reading does not depend on which identities are taken: the outcome is the same, and there is one list of statements, with identities below some number,
    which is added, moved up to where the free identities begin. -/
theorem C144_uniform (nl : PStr → Bool) (base : PStr) (i : Input) :
    (∃ e, ∀ (next : Nat) (σ : Type) (add : σ → Stmt → σ) (sink : σ), parse add nl base next sink i = (sink, next, .error e)) ∨
    (∃ (m : Nat) (ts : List Stmt), (∀ t ∈ ts, t.g = none ∧ ∀ j, t.HasIdent j → j < m) ∧
      ∀ (next : Nat) (σ : Type) (add : σ → Stmt → σ) (sink : σ), parse add nl base next sink i = ((ts.map (·.up next)).foldl add sink, next + m, .ok ())) := by
  have key : ∀ s, (∃ e, ∀ n, parseText nl base n s = .error e) ∨ ∃ (m : Nat) (ts : List Stmt), (∀ t ∈ ts, t.g = none ∧ ∀ j, t.HasIdent j → j < m) ∧
      ∀ n, parseText nl base n s = .ok (n + m, ts.map (·.up n)) := by
    intro s
    have hsh : ∀ n, parseText nl base n s = (parseText nl base 0 s).map fun x => (x.1 + n, x.2.map (shS n)) := by
      intro n
      have := parseText_sh nl base 0 n s
      rwa [Nat.zero_add] at this
    cases h : parseText nl base 0 s with
    | error e => exact Or.inl ⟨e, fun n => by rw [hsh n, h]; rfl⟩
    | ok x =>
      obtain ⟨m, ts⟩ := x
      have hlt := (parseText_lt h).2
      have hgr : ∀ t ∈ ts, t.g = none := by
        rcases C94_all_or_nothing (nl := nl) (base := base) (next := 0) (.str s) with ⟨e, he⟩ | ⟨n', ts', _, hg, he⟩
        · have := he _ (fun l t => l ++ [t]) []
          simp only [parse, h, Prod.mk.injEq, reduceCtorEq, and_false] at this
        · have := he _ (fun l t => l ++ [t]) []
          simp only [parse, h, foldl_snoc, List.nil_append, Prod.mk.injEq] at this
          rw [this.1]; exact hg
      refine Or.inr ⟨m, ts, fun t ht => ⟨hgr t ht, fun j hj => ?_⟩, fun n => by rw [hsh n, h, Nat.add_comm n m]; rfl⟩
      have := hlt t ht
      rcases hj with hj | hj | hj
      exacts [this.1.ident j hj, this.2.1.ident j hj, this.2.2.ident j hj]
  cases i with
  | stream s => exact Or.inl ⟨_, fun _ _ _ _ => rfl⟩
  | str s =>
    rcases key s with ⟨e, he⟩ | ⟨m, ts, h, he⟩
    · exact Or.inl ⟨e, fun n _ _ _ => by simp only [parse, he n]⟩
    · exact Or.inr ⟨m, ts, h, fun n _ _ _ => by simp only [parse, he n]⟩
  | bytes b =>
    cases hb : utf8Decode b with
    | none => exact Or.inl ⟨.unicodeDecodeError, fun n _ _ _ => by simp only [parse, hb]⟩
    | some s =>
      rcases key s with ⟨e, he⟩ | ⟨m, ts, h, he⟩
      · exact Or.inl ⟨e, fun n _ _ _ => by simp only [parse, hb, he n]⟩
      · exact Or.inr ⟨m, ts, h, fun n _ _ _ => by simp only [parse, hb, he n]⟩

/-- The property: reading a document again into the graph that has it changes nothing. -/
def C144_statement : Prop := ∀ (nl : PStr → Bool) (u : Term) (ops : List GOp) (base : PStr) (next : Nat) (text : PStr),
  (∀ t ∈ (Graph.run u ops).triples, ∀ i, t.HasIdent i → i < next) →
  let p1 := parse Graph.add nl base next (Graph.run u ops) (.str text)
  let p2 := parse Graph.add nl base p1.2.1 p1.1 (.str text)
  p1.2.2 = .ok () → p2.2.2 = .ok () ∧ ∀ t, t ∈ p2.1.triples ↔ t ∈ p1.1.triples

/-- Refuted: every `[]` is new each time. -/
theorem C144_refuted : ¬ C144_statement := by
  intro h
  have := ((h (fun _ => true) .none [] [] 0 (py! "[] <p> <o> .") (by simp [Graph.run, Graph.new]) rfl).2
    (mkTriple (.bnode 1) (.named (py! "p")) (.named (py! "o")))).1
  have e1 : (parse Graph.add (fun _ => true) [] (parse Graph.add (fun _ => true) [] 0 (Graph.run .none []) (.str (py! "[] <p> <o> ."))).2.1
      (parse Graph.add (fun _ => true) [] 0 (Graph.run .none []) (.str (py! "[] <p> <o> ."))).1 (.str (py! "[] <p> <o> ."))).1.triples =
      [mkTriple (.bnode 0) (.named (py! "p")) (.named (py! "o")), mkTriple (.bnode 1) (.named (py! "p")) (.named (py! "o"))] := rfl
  have e2 : (parse Graph.add (fun _ => true) [] 0 (Graph.run .none []) (.str (py! "[] <p> <o> ."))).1.triples =
      [mkTriple (.bnode 0) (.named (py! "p")) (.named (py! "o"))] := rfl
  rw [e1, e2] at this
  have := this (by simp)
  simp [mkTriple] at this

/-- Exactly: the document stands for a list of statements; the first reading adds them; the second adds a copy, with new identities, of those that have an identity,
    and nothing else. -/
theorem C144_exact {g : Graph} (hg : Inv g) {nl : PStr → Bool} {base : PStr} {next : Nat} (hn : ∀ t ∈ g.triples, ∀ i, t.HasIdent i → i < next) {i : Input}
    (h1 : (parse Graph.add nl base next g i).2.2 = .ok ()) :
    let p1 := parse Graph.add nl base next g i
    let p2 := parse Graph.add nl base p1.2.1 p1.1 i
    p2.2.2 = .ok () ∧ ∃ ts : List Stmt,
      (∀ t, t ∈ p1.1.triples ↔ t ∈ ts ∨ t ∈ g.triples) ∧
      (∀ t ∈ ts, ∀ j, t.HasIdent j → next ≤ j ∧ j < p1.2.1) ∧
      (∀ t, t ∈ p2.1.triples ↔ t ∈ p1.1.triples ∨ ∃ t0 ∈ ts, t0.anon = true ∧ t = t0.up (p1.2.1 - next)) ∧
      (∀ t0 ∈ ts, t0.anon = true → t0.up (p1.2.1 - next) ∉ p1.1.triples) ∧
      p2.1.len = p1.1.len + (ts.filter Stmt.anon).dedup.length := by
  intro p1 p2
  rcases C144_uniform nl base i with ⟨e, he⟩ | ⟨m, ts, hts, he⟩
  · rw [he next] at h1; cases h1
  have e1 : p1 = ((ts.map (·.up next)).foldl Graph.add g, next + m, .ok ()) := he next _ _ _
  have e2 : p2 = ((ts.map (·.up (next + m))).foldl Graph.add p1.1, next + m + m, .ok ()) := by
    show parse Graph.add nl base p1.2.1 p1.1 i = _
    rw [he, e1]
  have hm : p1.2.1 - next = m := by rw [e1]; exact Nat.add_sub_cancel_left _ _
  rw [hm]
  have hupg : ∀ n, ∀ t ∈ ts.map (·.up n), t.g = none := by
    intro n t ht
    obtain ⟨t0, h0, rfl⟩ := List.mem_map.1 ht
    simp [Stmt.up, shS, (hts t0 h0).1]
  have hmap : ts.map (·.up (next + m)) = (ts.map (·.up next)).map (·.up m) := by
    rw [List.map_map]
    exact List.map_congr_left fun t ht => (up_up m next (hts t ht).1).symm
  rw [hmap] at e2
  have hrange : ∀ t ∈ ts.map (·.up next), ∀ j, t.HasIdent j → next ≤ j ∧ j < next + m := by
    intro t ht j hj
    obtain ⟨t0, h0, rfl⟩ := List.mem_map.1 ht
    obtain ⟨j0, hj0, rfl⟩ := hasIdent_up.1 hj
    have := (hts t0 h0).2 j0 hj0
    omega
  have hg0 := hupg next
  generalize ts.map (·.up next) = us at *
  have m1 : ∀ t, t ∈ p1.1.triples ↔ t ∈ us ∨ t ∈ g.triples := by
    intro t; rw [e1]; exact mem_addAll g us t
  have m2 : ∀ t, t ∈ p2.1.triples ↔ t ∈ us.map (·.up m) ∨ t ∈ p1.1.triples := by
    intro t; rw [e2]; exact mem_addAll p1.1 _ t
  have hlt : ∀ t ∈ p1.1.triples, ∀ j, t.HasIdent j → j < next + m := by
    intro t ht j hj
    rcases (m1 t).1 ht with h | h
    · exact (hrange t h j hj).2
    · exact Nat.lt_of_lt_of_le (hn t h j hj) (Nat.le_add_right _ _)
  have hnew : ∀ t0 ∈ us, t0.anon = true → t0.up m ∉ p1.1.triples := by
    intro t0 h0 ha hmem
    obtain ⟨j, hj⟩ := anon_iff.1 ha
    have := hlt _ hmem _ (hasIdent_up.2 ⟨j, hj, rfl⟩)
    have := (hrange t0 h0 j hj).1
    omega
  have hmem : ∀ t, t ∈ p2.1.triples ↔ t ∈ p1.1.triples ∨ ∃ t0 ∈ us, t0.anon = true ∧ t = t0.up m := by
    intro t
    rw [m2 t, List.mem_map]
    constructor
    · rintro (⟨t0, h0, rfl⟩ | h)
      · cases ha : t0.anon with
        | true => exact Or.inr ⟨t0, h0, ha, rfl⟩
        | false => rw [up_ground (hg0 t0 h0) ha]; exact Or.inl ((m1 _).2 (Or.inl h0))
      · exact Or.inl h
    · rintro (h | ⟨t0, h0, _, rfl⟩)
      · exact Or.inr h
      · exact Or.inl ⟨t0, h0, rfl⟩
  have hum : ∀ t ∈ us.map (·.up m), t.g = none := by
    intro t ht
    obtain ⟨t0, h0, rfl⟩ := List.mem_map.1 ht
    simp [Stmt.up, shS, hg0 t0 h0]
  have i1 : Inv p1.1 := by rw [e1]; exact foldl_add_inv hg hg0
  have i2 : Inv p2.1 := by rw [e2]; exact foldl_add_inv i1 hum
  refine ⟨by rw [e2], us, m1, by rw [e1]; exact hrange, hmem, hnew, ?_⟩
  have hp : p2.1.triples.Perm (p1.1.triples ++ (us.filter Stmt.anon).dedup.map (·.up m)) := by
    rw [List.perm_ext_iff_of_nodup i2.nodup]
    · intro t
      rw [hmem t, List.mem_append, List.mem_map]
      simp only [List.mem_dedup, List.mem_filter, and_assoc, eq_comm]
    · refine List.nodup_append.2 ⟨i1.nodup, ?_, ?_⟩
      · rw [List.nodup_map_iff_inj_on (List.nodup_dedup _)]
        intro x hx y hy e
        rw [List.mem_dedup, List.mem_filter] at hx hy
        exact up_inj (hg0 x hx.1) (hg0 y hy.1) e
      · rintro t ht t' ht' rfl
        obtain ⟨r, hr, rfl⟩ := List.mem_map.1 ht'
        rw [List.mem_dedup, List.mem_filter] at hr
        exact hnew r hr.1 hr.2 ht
  have := hp.length_eq
  rw [List.length_append, List.length_map] at this
  exact this

/-- A document whose statements have no identities can be read again without effect. -/
theorem C144_ground {g : Graph} (hg : Inv g) {nl : PStr → Bool} {base : PStr} {next : Nat} {i : Input}
    (h1 : (parse Graph.add nl base next g i).2.2 = .ok ())
    (hl : ∀ t ∈ (parse (fun l t => l ++ [t]) nl base next ([] : List Stmt) i).1, t.anon = false) (next' : Nat) :
    ∃ m, parse Graph.add nl base next' (parse Graph.add nl base next g i).1 i = ((parse Graph.add nl base next g i).1, next' + m, .ok ()) := by
  rcases C144_uniform nl base i with ⟨e, he⟩ | ⟨m, ts, hts, he⟩
  · rw [he next] at h1; cases h1
  refine ⟨m, ?_⟩
  rw [he next, foldl_snoc, List.nil_append] at hl
  have hs : ∀ n, ts.map (·.up n) = ts := by
    intro n
    conv_rhs => rw [← List.map_id ts]
    refine List.map_congr_left fun t ht => up_ground (hts t ht).1 ?_
    have := hl (t.up next) (List.mem_map.2 ⟨t, ht, rfl⟩)
    rwa [anon_up] at this
  rw [he next', he next, hs, hs]
  refine Prod.ext ?_ rfl
  have i1 : Inv (ts.foldl Graph.add g) := foldl_add_inv hg fun t ht => (hts t ht).1
  have hm : ∀ t ∈ ts, t ∈ (ts.foldl Graph.add g).triples := fun t ht => (mem_addAll g ts t).2 (Or.inl ht)
  show ts.foldl Graph.add (ts.foldl Graph.add g) = _
  generalize ts.foldl Graph.add g = p at i1 hm
  clear * - hm i1
  induction ts with
  | nil => rfl
  | cons t ts ih =>
    rw [List.foldl_cons, add_of_mem i1.toIxInv (hm t (by simp))]
    exact ih fun x hx => hm x (by simp [hx])

/-- A collection and a ground statement: the second reading adds the three statements of the collection again. -/
example :
    let p1 := parse Graph.add (fun _ => true) [] 0 (Graph.run .none []) (.str (py! "<s> <p> (<o>) . <a> <b> <c> ."))
    let p2 := parse Graph.add (fun _ => true) [] p1.2.1 p1.1 (.str (py! "<s> <p> (<o>) . <a> <b> <c> ."))
    p1.1.len = 4 ∧ p2.1.len = 7 ∧ p2.2.2 = .ok () := ⟨rfl, rfl, rfl⟩

/-- A document with a prefix and no blank node meets the hypotheses of `C144_ground`. -/
example : (parse (fun l t => l ++ [t]) (fun _ => true) [] 5 ([] : List Stmt) (.str (py! "@prefix a: <http://x/> . a:s a a:o, a:q ."))).1 =
    [mkTriple (.named (py! "http://x/s")) (.named (py! "http://www.w3.org/1999/02/22-rdf-syntax-ns#type")) (.named (py! "http://x/o")),
     mkTriple (.named (py! "http://x/s")) (.named (py! "http://www.w3.org/1999/02/22-rdf-syntax-ns#type")) (.named (py! "http://x/q"))] := rfl

end Turtle
end Verif
