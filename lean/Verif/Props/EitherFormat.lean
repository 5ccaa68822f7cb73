import Verif.Props.SaveLoad
import Verif.Props.SameFile
/-! C175: a graph saved as N-Triples and as Turtle. -/
namespace Verif
open Spec Turtle Turtle.Spec

/-- A literal without language and datatype. -/
def Spec.PlainLit (x : Term) : Prop := ∃ v, x = .lit v none none

/-- Two copies of the same statements with other blank nodes are the same up to blank nodes. -/
theorem sameUpTo_copies {ts : List Stmt} {f f' : Nat → Nat} {r r' : Graph} (hi : ∀ t ∈ ts, ∀ t' ∈ ts, ∀ i j, t.HasBnode i → t'.HasBnode j → f i = f j → i = j)
    (hi' : ∀ t ∈ ts, ∀ t' ∈ ts, ∀ i j, t.HasBnode i → t'.HasBnode j → f' i = f' j → i = j) (hg : ∀ t ∈ ts, t.g = none)
    (hr : ∀ x, x ∈ r.triples ↔ ∃ t ∈ ts, x = t.rename f) (hr' : ∀ x, x ∈ r'.triples ↔ ∃ t ∈ ts, x = t.rename f') : ∃ ρ, SameUpTo ρ r r' := by
  classical
  have hchoose : ∀ k, ∃ i, ∀ t ∈ ts, ∀ j, t.HasBnode j → f j = k → j = i := by
    intro k
    by_cases h : ∃ t ∈ ts, ∃ j, t.HasBnode j ∧ f j = k
    · obtain ⟨t, ht, j, hj, e⟩ := h
      exact ⟨j, fun t' ht' j' hj' e' => hi t' ht' t ht j' j hj' hj (e'.trans e.symm)⟩
    · exact ⟨0, fun t ht j hj e => absurd ⟨t, ht, j, hj, e⟩ h⟩
  choose back hback using hchoose
  have hb : ∀ t ∈ ts, ∀ j, t.HasBnode j → back (f j) = j := fun t ht j hj => (hback (f j) t ht j hj rfl).symm
  have term : ∀ (x : Term), (∀ j, x = .bnode j → back (f j) = j) → (x.rename f).rename (fun k => f' (back k)) = x.rename f' := by
    intro x h
    cases x with
    | bnode j => simp only [Term.rename, h j rfl]
    | _ => rfl
  have stmt : ∀ t ∈ ts, (t.rename f).rename (fun k => f' (back k)) = t.rename f' := by
    intro t ht
    simp only [Stmt.rename, hg t ht, Option.map_none, term _ fun j h => hb t ht j (.inl h), term _ fun j h => hb t ht j (.inr (.inl h)), term _ fun j h => hb t ht j (.inr (.inr h))]
  have has : ∀ (t : Stmt) (k : Nat), (t.rename f).HasBnode k → ∃ j, t.HasBnode j ∧ f j = k := by
    have tm : ∀ (x : Term) (k : Nat), x.rename f = .bnode k → ∃ j, x = .bnode j ∧ f j = k := by
      intro x k h
      cases x with
      | bnode j => exact ⟨j, rfl, Term.bnode.inj h⟩
      | _ => cases h
    rintro t k (h | h | h)
    · obtain ⟨j, h1, h2⟩ := tm _ _ h; exact ⟨j, .inl h1, h2⟩
    · obtain ⟨j, h1, h2⟩ := tm _ _ h; exact ⟨j, .inr (.inl h1), h2⟩
    · obtain ⟨j, h1, h2⟩ := tm _ _ h; exact ⟨j, .inr (.inr h1), h2⟩
  refine ⟨fun k => f' (back k), ?_, fun x => ?_⟩
  · intro t ht t' ht' a b ha hb' e
    obtain ⟨x, hx, rfl⟩ := (hr t).1 ht
    obtain ⟨y, hy, rfl⟩ := (hr t').1 ht'
    obtain ⟨i, i1, rfl⟩ := has x a ha
    obtain ⟨j, j1, rfl⟩ := has y b hb'
    rw [hb x hx i i1, hb y hy j j1] at e
    rw [hi' x hx y hy i j i1 j1 e]
  · rw [hr']
    constructor
    · rintro ⟨t, ht, rfl⟩
      exact ⟨t.rename f, (hr _).2 ⟨t, ht, rfl⟩, (stmt t ht).symm⟩
    · rintro ⟨y, hy, rfl⟩
      obtain ⟨t, ht, rfl⟩ := (hr y).1 hy
      exact ⟨t, ht, stmt t ht⟩

theorem asRead_typed (x : Term) : ¬ PlainLit (Turtle.asRead x) := by
  rintro ⟨v, h⟩
  cases x with
  | lit v l d =>
    cases l with
    | none => cases d <;> cases h
    | some l => cases l <;> cases d <;> cases h
  | _ => cases h

/-- The condition on triples: both formats can carry them. -/
def Spec.BothTriAt (nl : PStr → Bool) (m : PrefixMap) (b : PStr) (namer : Namer) (t : Verif.Spec.Tri) : Prop := TextTriAt nl m b namer t ∧ t.s.Plain ∧ t.p.Plain ∧ t.o.Plain

/-- **C175, exactly**: a graph of terms that both formats can carry is written in both, both texts are read into new graphs, and these are the same up to blank nodes if and only if the graph has no
    plain literal. -/
theorem C175_exact {nl : PStr → Bool} {m : PrefixMap} {base : Option PStr} (hm : SafeProfileAt nl m (base.getD [])) {namer : Namer} (u : Term) (ops : List Verif.Spec.GOp)
    (hs : ∀ t ∈ Verif.Spec.runSet ops, BothTriAt nl m (base.getD []) namer t) (live : ∀ t ∈ everAdded ops, ∃ t' ∈ Verif.Spec.runSet ops, t'.s = t.s) {ord : List Stmt → List Stmt}
    (hord : IsOrder ord) {o : Orders} (ho : Orders.OK o) {w : World} (fuel : Nat) (hr : resolveKey w listC (py! "rdf:rest") = .ok (some (Heap.rdfNs ++ py! "rest"))) (n n' : Nat) (u' : Term) :
    ∃ nt ttl r r' k k', serializeNTriples ((Graph.run u ops).iter ord) = (nt, .ok ()) ∧ serializeTurtle o w fuel (Graph.run u ops) base (some m) namer = .ok ttl ∧
      parseString Graph.add false n nt Graph.new = (r, k, .ok ()) ∧ Turtle.parse (fun g t => g.add t) nl [] n' (Graph.new u') (.str ttl) = (r', k', .ok ()) ∧
      ((∃ ρ, SameUpTo ρ r r') ↔ ∀ t ∈ Verif.Spec.runSet ops, ¬ PlainLit t.o) := by
  have rep := Graph.rep_run u ops
  have rdf : ∀ t ∈ Verif.Spec.runSet ops, t.stmt.IsRdf := by
    intro t ht
    obtain ⟨⟨c1, ⟨i, c2, -⟩, c3⟩, -⟩ := hs t ht
    refine ⟨?_, ⟨i, c2⟩, ?_, rfl⟩
    · rcases c1 with ⟨i, hi, -⟩ | ⟨⟨k, hk⟩, -⟩
      · exact .inl ⟨i, hi⟩
      · exact .inr ⟨k, hk⟩
    · show (∃ n, t.o = .named n) ∨ (∃ i, t.o = .bnode i) ∨ ∃ v l d, t.o = .lit v l d
      generalize t.o = x at c3
      cases c3 with
      | iri h => exact .inl ⟨_, rfl⟩
      | lit h => exact .inr (.inr ⟨_, _, _, rfl⟩)
      | bnode h _ => exact .inr (.inl ⟨_, rfl⟩)
  obtain ⟨nt, r, k, f, a1, a2, a3, a4⟩ := C37_roundtrip_partial (Graph.run u ops) ord hord (fun x hx => by
    obtain ⟨t, ht, rfl⟩ := (rep.mem x).1 hx
    exact ⟨rdf t ht, (hs t ht).2⟩) n
  obtain ⟨ttl, b1, b2⟩ := C118_plain_partial hm u ops (fun t ht => (hs t ht).1) live ho (w := w) fuel hr
  obtain ⟨r', k', ρ, b3, b4, b5⟩ := b2 n' u'
  have b6 : ∀ x, x ∈ r'.triples ↔ ∃ t ∈ Verif.Spec.runSet ops, x = (readStmt t.stmt).rename ρ := fun x => by rw [← b5, Graph.contains, decide_eq_true_eq]
  refine ⟨nt, ttl, r, r', k, k', a1, b1, a2, b3, ⟨?_, fun hp => ?_⟩⟩
  · rintro ⟨σ, hσ⟩ t ht ⟨v, hv⟩
    have h1 : t.stmt.rename f ∈ r.triples := (a4 _).2 ⟨_, (rep.mem _).2 ⟨t, ht, rfl⟩, rfl⟩
    obtain ⟨t', ht', e⟩ := (b6 _).1 ((hσ.mem _).2 ⟨_, h1, rfl⟩)
    have e2 := congrArg Stmt.o e
    simp only [Stmt.rename, readStmt] at e2
    have e3 : t.stmt.o = .lit v none none := hv
    rw [e3] at e2
    refine asRead_typed t'.stmt.o ⟨v, ?_⟩
    cases hx : Turtle.asRead t'.stmt.o with
    | bnode _ => rw [hx] at e2; cases e2
    | _ => rw [hx] at e2; exact e2.symm
  · have key : ∀ t ∈ Verif.Spec.runSet ops, readStmt t.stmt = t.stmt := by
      intro t ht
      have : Turtle.asRead t.o = t.o := by
        have h1 := hp t ht
        have h2 := (hs t ht).2.2.2
        cases hx : t.o with
        | lit v l d =>
          rw [hx] at h1 h2
          cases l with
          | none => cases d with
            | none => exact absurd ⟨v, rfl⟩ h1
            | some d => rfl
          | some l => cases l with
            | nil => obtain ⟨c, r, h⟩ := (h2.2.2.1 [] rfl).1.ne_nil; cases h
            | cons c l => cases d <;> rfl
        | _ => rfl
      simp [readStmt, Verif.Spec.Tri.stmt, mkTriple, this]
    refine sameUpTo_copies a3 b4.inj (fun x hx => by obtain ⟨t, -, rfl⟩ := (rep.mem x).1 hx; rfl) a4 fun x => ?_
    rw [b6]
    constructor
    · rintro ⟨t, ht, rfl⟩
      exact ⟨t.stmt, (rep.mem _).2 ⟨t, ht, rfl⟩, by rw [key t ht]⟩
    · rintro ⟨y, hy, rfl⟩
      obtain ⟨t, ht, rfl⟩ := (rep.mem y).1 hy
      exact ⟨t, ht, by rw [key t ht]⟩

/-- C175 for graphs without plain literals. Missing: those (`C175_exact`: they never are the same), lists, and terms that one of the formats changes. -/
theorem C175_partial {nl : PStr → Bool} {m : PrefixMap} {base : Option PStr} (hm : SafeProfileAt nl m (base.getD [])) {namer : Namer} (u : Term) (ops : List Verif.Spec.GOp)
    (hs : ∀ t ∈ Verif.Spec.runSet ops, BothTriAt nl m (base.getD []) namer t ∧ ¬ PlainLit t.o) (live : ∀ t ∈ everAdded ops, ∃ t' ∈ Verif.Spec.runSet ops, t'.s = t.s)
    {ord : List Stmt → List Stmt} (hord : IsOrder ord) {o : Orders} (ho : Orders.OK o) {w : World} (fuel : Nat)
    (hr : resolveKey w listC (py! "rdf:rest") = .ok (some (Heap.rdfNs ++ py! "rest"))) (n n' : Nat) (u' : Term) :
    ∃ nt ttl r r' k k' ρ, serializeNTriples ((Graph.run u ops).iter ord) = (nt, .ok ()) ∧ serializeTurtle o w fuel (Graph.run u ops) base (some m) namer = .ok ttl ∧
      parseString Graph.add false n nt Graph.new = (r, k, .ok ()) ∧ Turtle.parse (fun g t => g.add t) nl [] n' (Graph.new u') (.str ttl) = (r', k', .ok ()) ∧ SameUpTo ρ r r' := by
  obtain ⟨nt, ttl, r, r', k, k', h1, h2, h3, h4, h5⟩ := C175_exact hm u ops (fun t ht => (hs t ht).1) live hord ho (w := w) fuel hr n n' u'
  obtain ⟨ρ, hρ⟩ := h5.2 fun t ht => (hs t ht).2
  exact ⟨nt, ttl, r, r', k, k', ρ, h1, h2, h3, h4, hρ⟩

/-- Full statement of C175: if a graph of well-formed triples is written in both formats and both texts are read, the graphs are the same up to blank nodes. -/
def C175_statement : Prop := ∀ (nl : PStr → Bool) (u : Term) (ops : List Verif.Spec.GOp) (ord : List Stmt → List Stmt) (o : Orders) (fuel : Nat) (base : Option PStr) (m : Option PrefixMap)
  (namer : Namer) (nt ttl : PStr) (n n' k k' : Nat) (r r' : Graph), (∀ t ∈ everAdded ops, t.stmt.IsRdf ∧ t.stmt.WellFormed) → IsOrder ord → Orders.OK o →
  serializeNTriples ((Graph.run u ops).iter ord) = (nt, .ok ()) → serializeTurtle o World.new fuel (Graph.run u ops) base m namer = .ok ttl →
  parseString Graph.add false n nt Graph.new = (r, k, .ok ()) → Turtle.parse (fun g t => g.add t) nl [] n' Graph.new (.str ttl) = (r', k', .ok ()) → ∃ ρ, SameUpTo ρ r r'

/-- A plain literal. -/
def eitherOps : List Verif.Spec.GOp := [.add ⟨.named (py! "x:s"), .named (py! "x:p"), .lit (py! "a") none none⟩]

theorem C175_refuted : ¬ C175_statement := by
  intro h
  obtain ⟨ρ, hρ⟩ := h (fun _ => true) .none eitherOps id {} 0 none none none (py! "<x:s> <x:p> \"a\" .\n")
    (py! "@prefix xsd: <http://www.w3.org/2001/XMLSchema#> .\n<x:s> <x:p> \"a\" ;\n      .\n\n") 0 0 0 0
    (Graph.new.add (mkTriple (.named (py! "x:s")) (.named (py! "x:p")) (.lit (py! "a") none none)))
    (Graph.new.add (mkTriple (.named (py! "x:s")) (.named (py! "x:p")) (.lit (py! "a") none (some (py! "http://www.w3.org/2001/XMLSchema#string")))))
    (by
      intro t ht
      simp only [eitherOps, everAdded, List.flatMap_cons, List.flatMap_nil, List.append_nil, List.mem_cons, List.not_mem_nil, or_false] at ht
      subst ht
      exact ⟨⟨.inl ⟨_, rfl⟩, ⟨_, rfl⟩, .inr (.inr ⟨_, _, _, rfl⟩), rfl⟩, by simp [Verif.Spec.Tri.stmt, mkTriple, Stmt.WellFormed, Term.WellFormed]⟩)
    (fun _ => List.Perm.refl _) Orders.OK.default (by decide) rfl (by decide) rfl
  obtain ⟨t, ht, e⟩ := (hρ.mem (mkTriple (.named (py! "x:s")) (.named (py! "x:p")) (.lit (py! "a") none (some (py! "http://www.w3.org/2001/XMLSchema#string"))))).1 (by decide)
  have ht : t = mkTriple (.named (py! "x:s")) (.named (py! "x:p")) (.lit (py! "a") none none) := by simpa [Graph.add, Graph.setAdd, Graph.new] using ht
  subst ht
  exact absurd e (by simp [mkTriple, Stmt.rename, Term.rename])

/-- Two blank nodes in a cycle with an IRI, in both formats. -/
example := C175_partial (nl := fun _ => true) (base := some exBase.text) (namer := some exNamer) exProfile .none (samePair 7 3)
  (fun t ht => by
    have hm := runSet_everAdded t ht
    refine ⟨⟨(samePair_safe t hm).text, ?_⟩, ?_⟩ <;>
    · simp only [samePair, everAdded, List.flatMap_cons, List.flatMap_nil, List.append_nil, List.cons_append, List.nil_append, List.mem_cons, List.not_mem_nil, or_false] at hm
      rcases hm with rfl | rfl | rfl <;> simp [Term.Plain, PlainLit, uriChar_iff] <;> decide)
  (by decide) (ord := id) (fun _ => List.Perm.refl _) Orders.OK.default 0 resolveKey_rest 0 0 .none

end Verif
