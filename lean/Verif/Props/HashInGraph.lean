import Verif.Props.HashOrder

/-!
# C157: `cls.in_graph(graph)` and the hash seed

`in_graph` (`rdf.py:363-381`) goes through `cls.rdf_classes`, a frozenset, and starts again with the instances of the next
class whenever nothing is left.  So which class is tried last matters.
-/

namespace Verif

/-- `x` moved to the end of the list. -/
def toEnd (x : Term) (l : List Term) : List Term := l.filter (· != x) ++ l.filter (· == x)

theorem toEnd_perm (x : Term) (l : List Term) : (toEnd x l).Perm l := by
  unfold toEnd
  refine List.perm_append_comm.trans ?_
  exact List.filter_append_perm (· == x) l

/-- A run in which the elements of sets of terms are visited in the order `f`. -/
def termOrder (f : List Term → List Term) : Orders := { terms := f }

theorem termOrder_ok {f : List Term → List Term} (h : ∀ l, (f l).Perm l) : (termOrder f).OK :=
  ⟨fun _ => .refl _, h, fun _ => .refl _⟩

theorem inGraphLoop_append (o : Orders) (g : Graph) (ty : Term) (a b : List Term) (S : List Term) :
    inGraphLoop o g ty S (a ++ b) = inGraphLoop o g ty (inGraphLoop o g ty S a) b := by
  induction a generalizing S with
  | nil => rfl
  | cons t a ih => rw [List.cons_append, inGraphLoop, inGraphLoop]; exact ih _

/-- After a class without instances nothing is left. -/
theorem inGraphLoop_none {o : Orders} (ho : o.OK) {g : Graph} (hg : g.Reach) {ty t : Term} (h1 : ty.truthy = true)
    (h2 : t.truthy = true) (hn : ∀ s, mkTriple s ty t ∉ g.triples) (n : Nat) (S : List Term) :
    inGraphLoop o g ty S (List.replicate (n + 1) t) = [] := by
  have hf : (g.match o.stmts .none ty t).map (·.s) = [] :=
    List.eq_nil_iff_forall_not_mem.2 fun s hs => hn s ((mem_found ho hg h1 h2 s).1 hs)
  induction n generalizing S with
  | zero =>
    rw [List.replicate_succ, List.replicate_zero, inGraphLoop, hf, inGraphLoop]
    split
    · rfl
    · exact List.eq_nil_iff_forall_not_mem.2 fun s hs => by simp at hs
  | succ n ih => rw [List.replicate_succ, inGraphLoop]; exact ih _

/-- Started again with nothing, a class gives its own instances. -/
theorem inGraphLoop_again {o : Orders} (ho : o.OK) {g : Graph} (hg : g.Reach) {ty t : Term} (h1 : ty.truthy = true)
    (h2 : t.truthy = true) (n : Nat) (s : Term) :
    s ∈ inGraphLoop o g ty [] (List.replicate (n + 1) t) ↔ mkTriple s ty t ∈ g.triples := by
  have key : ∀ (n : Nat) (S : List Term), (∀ s, s ∈ S ↔ mkTriple s ty t ∈ g.triples) →
      (s ∈ inGraphLoop o g ty S (List.replicate n t) ↔ mkTriple s ty t ∈ g.triples) := by
    intro n
    induction n with
    | zero => intro S h; rw [List.replicate_zero, inGraphLoop]; exact h s
    | succ n ih =>
      intro S h
      rw [List.replicate_succ, inGraphLoop]
      refine ih _ fun s => ?_
      split
      · rw [mem_pySet, mem_found ho hg h1 h2]
      · rw [List.mem_filter, List.contains_iff_mem, mem_found ho hg h1 h2, h s, and_self]
  rw [List.replicate_succ, inGraphLoop, if_pos rfl]
  exact key n _ fun s => by rw [mem_pySet, mem_found ho hg h1 h2]

theorem filter_eq_replicate {x : Term} {l : List Term} (h : x ∈ l) : ∃ n, l.filter (· == x) = List.replicate (n + 1) x := by
  have h1 : x ∈ l.filter (· == x) := List.mem_filter.2 ⟨h, by simp⟩
  have h2 : l.filter (· == x) = List.replicate (l.filter (· == x)).length x :=
    List.eq_replicate_iff.2 ⟨rfl, fun b hb => by simpa using (List.mem_filter.1 hb).2⟩
  cases hn : (l.filter (· == x)).length with
  | zero => rw [List.length_eq_zero_iff] at hn; rw [hn] at h1; cases h1
  | succ n => exact ⟨n, by rw [h2, hn]⟩

/-- **`in_graph` depends on the hash seed**: when one RDF class of a class has no instances in the graph and another has some,
    there is a run in which `cls.in_graph(graph)` is empty, and one in which it gives all instances of the other RDF class. -/
theorem C157_in_graph {w : World} (wr : w.Reach) {g : Graph} (hg : g.Reach) {c : Nat} (hc : c < w.classes.length)
    {ty a b : Term} (hty : rdfType w c = .ok ty) (ha : a ∈ w.rdfClasses c) (hb : b ∈ w.rdfClasses c)
    (hta : a.truthy = true) (htb : b.truthy = true) (hna : ∀ s, mkTriple s ty a ∉ g.triples)
    (hsb : ∃ s, mkTriple s ty b ∈ g.triples) :
    (∃ o : Orders, o.OK ∧ inGraph o w g c = .ok []) ∧
    ∃ o : Orders, o.OK ∧ ∃ S, inGraph o w g c = .ok S ∧ S ≠ [] ∧ ∀ s, s ∈ S ↔ mkTriple s ty b ∈ g.triples := by
  obtain ⟨ns, _, ht⟩ := rdfType_ok wr.wf hc
  have h1 : ty.truthy = true := by rw [ht] at hty; cases hty; cases ns <;> rfl
  have hab : a ≠ b := fun e => by subst e; obtain ⟨s, hs⟩ := hsb; exact hna s hs
  have run : ∀ o : Orders, ∀ l, o.terms (w.rdfClasses c) = l → l ≠ [] → inGraph o w g c = .ok (inGraphLoop o g ty [] l) := by
    intro o l e hl
    unfold inGraph
    rw [e]
    cases l with
    | nil => exact absurd rfl hl
    | cons t ts => simp only [hty]
  obtain ⟨n, en⟩ := filter_eq_replicate ha
  constructor
  · have ok : (termOrder (toEnd a)).OK := termOrder_ok (toEnd_perm a)
    refine ⟨_, ok, ?_⟩
    rw [run _ _ rfl (fun e => by
      have := (toEnd_perm a (w.rdfClasses c)).mem_iff.2 ha
      change toEnd a (w.rdfClasses c) = [] at e
      rw [e] at this; cases this)]
    show Except.ok (inGraphLoop _ g ty [] (toEnd a (w.rdfClasses c))) = _
    rw [toEnd, en, inGraphLoop_append, inGraphLoop_none ok hg h1 hta hna]
  · have pm : ∀ l, (toEnd b (toEnd a l)).Perm l := fun l => (toEnd_perm b _).trans (toEnd_perm a l)
    have ok : (termOrder (fun l => toEnd b (toEnd a l))).OK := termOrder_ok pm
    have hb' : b ∈ toEnd a (w.rdfClasses c) := (toEnd_perm a _).mem_iff.2 hb
    obtain ⟨m, em⟩ := filter_eq_replicate hb'
    have e1 : (toEnd a (w.rdfClasses c)).filter (· != b) =
        ((w.rdfClasses c).filter (· != a)).filter (· != b) ++ List.replicate (n + 1) a := by
      rw [toEnd, List.filter_append, en]
      congr 1
      rw [List.filter_eq_self]
      intro x hx
      rw [List.eq_of_mem_replicate hx]
      simpa using hab
    have hm : ∀ s, s ∈ inGraphLoop (termOrder (fun l => toEnd b (toEnd a l))) g ty [] (toEnd b (toEnd a (w.rdfClasses c))) ↔
        mkTriple s ty b ∈ g.triples := by
      intro s
      rw [toEnd, em, e1, inGraphLoop_append, inGraphLoop_append, inGraphLoop_none ok hg h1 hta hna]
      exact inGraphLoop_again ok hg h1 htb m s
    refine ⟨_, ok, _, run _ _ rfl (fun e => ?_), fun e => ?_, hm⟩
    · have := (pm (w.rdfClasses c)).mem_iff.2 hb
      change toEnd b (toEnd a (w.rdfClasses c)) = [] at e
      rw [e] at this; cases this
    · obtain ⟨s, hs⟩ := hsb
      have := (hm s).2 hs
      change inGraphLoop _ g ty [] (toEnd b (toEnd a (w.rdfClasses c))) = [] at e
      rw [e] at this; cases this

/-- Two runs agree when the class has one RDF class, or some resource has all of them. -/
theorem C157_in_graph_same {o o' : Orders} (ho : o.OK) (ho' : o'.OK) {w : World} (wr : w.Reach) {g : Graph} (hg : g.Reach) {c : Nat}
    (hc : c < w.classes.length) (hne : w.rdfClasses c ≠ []) (htr : ∀ t ∈ w.rdfClasses c, t.truthy = true)
    (hcase : (∃ t, w.rdfClasses c = [t]) ∨
      ∃ s ty, rdfType w c = .ok ty ∧ ∀ t ∈ w.rdfClasses c, mkTriple s ty t ∈ g.triples) :
    ∃ S S', inGraph o w g c = .ok S ∧ inGraph o' w g c = .ok S' ∧ ∀ s, s ∈ S ↔ s ∈ S' := by
  obtain ⟨ty, e, S, h, k⟩ := C52_in_graph_partial ho wr hg hc hne htr hcase
  obtain ⟨ty', e', S', h', k'⟩ := C52_in_graph_partial ho' wr hg hc hne htr hcase
  rw [e] at e'; cases e'
  exact ⟨S, S', h, h', fun s => (k s).trans (k' s).symm⟩

/-- With two RDF classes: `in_graph` gives the same in all runs exactly when both have instances in the graph or
    neither has. -/
theorem C157_in_graph_two {w : World} (wr : w.Reach) {g : Graph} (hg : g.Reach) {c : Nat} (hc : c < w.classes.length)
    {ty a b : Term} (hty : rdfType w c = .ok ty) (hcl : w.rdfClasses c = [a, b]) (hta : a.truthy = true) (htb : b.truthy = true) :
    (∀ o o' : Orders, o.OK → o'.OK → ∃ S S', inGraph o w g c = .ok S ∧ inGraph o' w g c = .ok S' ∧ ∀ s, s ∈ S ↔ s ∈ S') ↔
      ((∃ s, mkTriple s ty a ∈ g.triples) ↔ ∃ s, mkTriple s ty b ∈ g.triples) := by
  have ha : a ∈ w.rdfClasses c := by simp [hcl]
  have hb : b ∈ w.rdfClasses c := by simp [hcl]
  have diff : ∀ x y, x ∈ w.rdfClasses c → y ∈ w.rdfClasses c → x.truthy = true → y.truthy = true →
      (∃ s, mkTriple s ty y ∈ g.triples) → ¬ (∃ s, mkTriple s ty x ∈ g.triples) →
      ¬ (∀ o o' : Orders, o.OK → o'.OK → ∃ S S', inGraph o w g c = .ok S ∧ inGraph o' w g c = .ok S' ∧ ∀ s, s ∈ S ↔ s ∈ S') := by
    intro x y hx hy htx hty' hs hn h
    obtain ⟨⟨o, ok, e⟩, o', ok', S, e', hne, _⟩ := C157_in_graph wr hg hc hty hx hy htx hty' (fun s hs => hn ⟨s, hs⟩) hs
    obtain ⟨S1, S2, k1, k2, k⟩ := h o o' ok ok'
    rw [e] at k1; cases k1
    rw [e'] at k2; cases k2
    cases S with
    | nil => exact hne rfl
    | cons s S => exact absurd ((k s).2 (by simp)) (by simp)
  constructor
  · intro h
    constructor
    · intro hs; by_cases hn : ∃ s, mkTriple s ty b ∈ g.triples
      · exact hn
      · exact absurd h (diff b a hb ha htb hta hs hn)
    · intro hs; by_cases hn : ∃ s, mkTriple s ty a ∈ g.triples
      · exact hn
      · exact absurd h (diff a b ha hb hta htb hs hn)
  · intro hiff o o' ho ho'
    obtain ⟨ns, _, ht⟩ := rdfType_ok wr.wf hc
    have h1 : ty.truthy = true := by rw [ht] at hty; cases hty; cases ns <;> rfl
    -- whatever the order, exactly the resources with both types
    have key : ∀ o : Orders, o.OK → ∃ S, inGraph o w g c = .ok S ∧
        ∀ s, s ∈ S ↔ mkTriple s ty a ∈ g.triples ∧ mkTriple s ty b ∈ g.triples := by
      intro o ho
      have step : ∀ x y : Term, x.truthy = true → y.truthy = true →
          ((∃ s, mkTriple s ty x ∈ g.triples) ↔ ∃ s, mkTriple s ty y ∈ g.triples) →
          ∀ s, s ∈ inGraphLoop o g ty [] [x, y] ↔ mkTriple s ty x ∈ g.triples ∧ mkTriple s ty y ∈ g.triples := by
        intro x y hx hy hxy s
        rw [inGraphLoop, if_pos rfl, inGraphLoop, inGraphLoop]
        split
        · rename_i h0
          have hn : ¬ ∃ s, mkTriple s ty x ∈ g.triples := by
            rintro ⟨s, hs⟩
            have := (mem_pySet _ s).2 ((mem_found ho hg h1 hx s).2 hs)
            rw [h0] at this; cases this
          rw [mem_pySet, mem_found ho hg h1 hy]
          exact ⟨fun h => absurd (hxy.2 ⟨s, h⟩) hn, fun h => h.2⟩
        · rw [List.mem_filter, List.contains_iff_mem, mem_pySet, mem_found ho hg h1 hx, mem_found ho hg h1 hy]
      have hp := ho.terms (w.rdfClasses c)
      rw [hcl] at hp
      have hcases : o.terms [a, b] = [a, b] ∨ o.terms [a, b] = [b, a] := by
        have hl := hp.length_eq
        match hh : o.terms [a, b], hl with
        | [x, y], _ =>
          rw [hh] at hp
          have hx : x ∈ [a, b] := hp.mem_iff.1 (by simp)
          simp only [List.mem_cons, List.not_mem_nil, or_false] at hx
          rcases hx with rfl | rfl
          · have := List.perm_singleton.1 ((List.perm_cons _).1 hp); cases this; exact .inl rfl
          · have := List.perm_singleton.1 ((List.perm_cons _).1 (hp.trans (List.Perm.swap _ _ _))); cases this; exact .inr rfl
      rcases hcases with e | e
      · refine ⟨inGraphLoop o g ty [] [a, b], ?_, step a b hta htb hiff⟩
        unfold inGraph; rw [hcl, e]; simp only [hty]
      · refine ⟨inGraphLoop o g ty [] [b, a], ?_, fun s => (step b a htb hta hiff.symm s).trans and_comm⟩
        unfold inGraph; rw [hcl, e]; simp only [hty]
    obtain ⟨S, e, k⟩ := key o ho
    obtain ⟨S', e', k'⟩ := key o' ho'
    exact ⟨S, S', e, e', fun s => (k s).trans (k' s).symm⟩

/-- For the class with the RDF classes `a` and `b` and the graph with one resource of type `b`: the two runs. -/
example : inGraph {} twoTypes onlyB 2 = .ok [.named (py! "http://x")] ∧ inGraph backwards twoTypes onlyB 2 = .ok [] := by decide

/-- The hypotheses of `C157_in_graph` and `C157_in_graph_two` hold for that class. -/
example : rdfType twoTypes 2 = .ok (.named (Heap.rdfNs ++ py! "type")) ∧
    twoTypes.rdfClasses 2 = [.named (py! "http://a"), .named (py! "http://b")] ∧
    (∃ s, mkTriple s (.named (Heap.rdfNs ++ py! "type")) (.named (py! "http://b")) ∈ onlyB.triples) :=
  ⟨by decide, by decide, .named (py! "http://x"), by decide⟩

end Verif
