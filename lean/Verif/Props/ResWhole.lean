import Verif.Props.ResItem
/-
Operations on whole resources: C50-C52, C54, C55.
-/
namespace Verif
open Spec Graph

/-! ### C50: erase -/

theorem removeStmts_ok {g : Graph} (h : g.Reach) (ts : List Stmt) (nd : ts.Nodup) (hx : ∀ t ∈ ts, t ∈ g.triples) :
    (removeStmts g ts).2 = .ok () ∧ ∀ t, t ∈ (removeStmts g ts).1.triples ↔ t ∈ g.triples ∧ t ∉ ts := by
  induction ts generalizing g with
  | nil => exact ⟨rfl, fun t => by simp [removeStmts]⟩
  | cons x xs ih =>
    have hxm := hx x (by simp)
    have hxe := eq_mkTriple (h.inv.isTri x hxm)
    have hm := fun t => mem_remove h.inv.toIxInv x t
    have hr := h.remove x.s x.p x.o
    rw [← hxe] at hr
    have hok : (g.remove x).2 = .ok () := by rw [remove_of_mem h.inv.toIxInv hxm]
    unfold removeStmts
    cases hrm : g.remove x with
    | mk g1 rv =>
    rw [hrm] at hm hr hok
    dsimp only at hm hr hok ⊢
    subst hok
    have hi := ih hr (List.nodup_cons.1 nd).2 fun t ht => by
      rw [hm]; exact ⟨by rintro rfl; exact (List.nodup_cons.1 nd).1 ht, hx t (by simp [ht])⟩
    refine ⟨hi.1, fun t => ?_⟩
    dsimp only
    rw [hi.2, hm, List.mem_cons, not_or]
    tauto

/-- The claim, for every subject. -/
def C50_statement : Prop :=
  ∀ (o : Orders), o.OK → ∀ g : Graph, g.Reach → ∀ r : Res,
    (erase o g r).2 = .ok () ∧ ∀ t, t ∈ (erase o g r).1.triples ↔ t ∈ g.triples ∧ t.s ≠ r.s

/-- Exactly: nothing is raised, and if the subject is a blank node or a non-empty IRI then its triples, and no others, are removed. For
    the empty IRI (and None) everything is removed. -/
theorem C50_erase_exact {o : Orders} (ho : o.OK) {g : Graph} (hg : g.Reach) (r : Res) :
    (erase o g r).2 = .ok () ∧
    (r.s.truthy = true → ∀ t, t ∈ (erase o g r).1.triples ↔ t ∈ g.triples ∧ t.s ≠ r.s) ∧
    (r.s.truthy = false → ∀ t, t ∉ (erase o g r).1.triples) := by
  have hm := fun t => mem_match hg.inv ho.stmts r.s .none .none t
  have hr := removeStmts_ok hg (g.match o.stmts r.s .none .none) (nodup_match hg.inv.toIxInv ho.stmts _ _ _) fun t ht => ((hm t).1 ht).1
  have hf : Term.none.truthy = false := rfl
  simp only [hf, Bool.false_eq_true, false_implies, and_true] at hm
  unfold erase
  refine ⟨hr.1, fun hs t => ?_, fun hs t => ?_⟩
  · rw [hr.2, hm]
    simp only [hs, true_implies]
    tauto
  · rw [hr.2, hm]
    simp only [hs, Bool.false_eq_true, false_implies, and_true]
    tauto

/-- The claim holds for every resource whose subject is not the empty IRI. -/
theorem C50_erase_partial {o : Orders} (ho : o.OK) {g : Graph} (hg : g.Reach) (r : Res) (hs : r.s.truthy = true) :
    (erase o g r).2 = .ok () ∧ ∀ t, t ∈ (erase o g r).1.triples ↔ t ∈ g.triples ∧ t.s ≠ r.s :=
  ⟨(C50_erase_exact ho hg r).1, (C50_erase_exact ho hg r).2.1 hs⟩

/-- It fails for the empty IRI: `Resource(graph, NamedNode("")).erase()` empties the graph. -/
theorem C50_refuted : ¬ C50_statement := by
  intro h
  have hg : ((Graph.new .none).add (mkTriple (.named (py! "a")) (.named (py! "p")) (.named (py! "o")))).Reach := (Graph.Reach.new _).add _ _ _
  have h1 := (h {} .default _ hg ⟨0, .named []⟩).2 (mkTriple (.named (py! "a")) (.named (py! "p")) (.named (py! "o")))
  exact (C50_erase_exact Orders.OK.default hg ⟨0, .named []⟩).2.2 rfl _ (h1.2 ⟨by decide, by decide⟩)

/-! ### C51: new -/

theorem newLoop_ok {w : World} {c : Nat} {s ty : Term} (ht : rdfType w c = .ok ty) (ts : List Term) (g : Graph) :
    newRes.loop w c s g ts = (ts.foldl (fun g x => g.add (mkTriple s ty x)) g, .ok ()) := by
  induction ts generalizing g with
  | nil => rfl
  | cons t ts ih => unfold newRes.loop; simp only [ht]; exact ih _

theorem isALoop_true {o : Orders} {w : World} {g : Graph} {r : Res} {ty : Term} (ht : rdfType w r.c = .ok ty) (ts : List Term) :
    isA.loop o w g r ts = .ok (ts.all fun t => decide (g.match o.stmts r.s ty t ≠ [])) := by
  induction ts with
  | nil => rfl
  | cons t ts ih =>
    unfold isA.loop
    simp only [ht]
    split
    · next h => simp [h]
    · next h => rw [ih]; simp [h]

/-- The claim: after `C.new(graph, subject)` the resource `C(graph, subject)` is an instance, and only type triples of `subject` were added;
    without a subject the new resource is a blank node. -/
def C51_statement : Prop :=
  ∀ (o : Orders), o.OK → ∀ w : World, w.Reach → ∀ g : Graph, g.Reach → ∀ c, c < w.classes.length → ∀ fresh : Nat,
    (∀ s, IsResource s → ∃ r, (newRes o w g c (some s) fresh).2 = .ok r ∧
      isA o w (newRes o w g c (some s) fresh).1 ⟨c, s⟩ = .ok true ∧
      ∀ t ∈ (newRes o w g c (some s) fresh).1.triples, t ∈ g.triples ∨ t.s = s) ∧
    ∃ r, (newRes o w g c none fresh).2 = .ok r ∧ ∃ i, r.s = .bnode i

/-- Exactly what `new` does: the subject becomes an IRI (of the same text); one triple is added for each RDF class of `c`; the resource
    that is returned is an instance. -/
theorem C51_new_exact {o : Orders} (ho : o.OK) {w : World} (wr : w.Reach) {g : Graph} (hg : g.Reach) {c : Nat} (hc : c < w.classes.length)
    (subject : Option Term) (fresh : Nat) :
    let s := toNamed (subject.getD (.bnode fresh))
    (newRes o w g c subject fresh).2 = .ok ⟨c, s⟩ ∧
    (newRes o w g c subject fresh).1.Reach ∧
    (∃ ty, rdfType w c = .ok ty ∧ ∀ t, t ∈ (newRes o w g c subject fresh).1.triples ↔
      t ∈ g.triples ∨ ∃ k ∈ w.rdfClasses c, t = mkTriple s ty k) ∧
    isA o w (newRes o w g c subject fresh).1 ⟨c, s⟩ = .ok true := by
  intro s
  obtain ⟨ns, _, ht⟩ := rdfType_ok wr.wf hc
  have hnew : newRes o w g c subject fresh =
      ((o.terms (w.rdfClasses c)).foldl (fun g x => g.add (mkTriple s (.named (ns ++ py! "type")) x)) g, .ok ⟨c, s⟩) := by
    unfold newRes
    dsimp only
    rw [newLoop_ok ht]
  have hgr : ((o.terms (w.rdfClasses c)).foldl (fun g x => g.add (mkTriple s (.named (ns ++ py! "type")) x)) g).Reach := hg.adds _ _ _
  rw [hnew]
  refine ⟨rfl, hgr, ⟨_, ht, fun t => ?_⟩, ?_⟩
  · dsimp only
    rw [mem_adds, or_comm]
    simp only [(ho.terms (w.rdfClasses c)).mem_iff]
  · unfold isA
    rw [isALoop_true ht]
    simp only [Except.ok.injEq, List.all_eq_true, decide_eq_true_eq]
    intro t htm he
    have : mkTriple s (.named (ns ++ py! "type")) t ∈
        ((o.terms (w.rdfClasses c)).foldl (fun g x => g.add (mkTriple s (.named (ns ++ py! "type")) x)) g).match o.stmts s
          (.named (ns ++ py! "type")) t := by
      rw [mem_match hgr.inv ho.stmts, mem_adds]
      exact ⟨Or.inl ⟨t, htm, rfl⟩, fun _ => rfl, fun _ => rfl, fun _ => rfl⟩
    rw [he] at this; cases this

/-- The claim for subjects that are IRIs. -/
theorem C51_new_partial {o : Orders} (ho : o.OK) {w : World} (wr : w.Reach) {g : Graph} (hg : g.Reach) {c : Nat} (hc : c < w.classes.length)
    (i : PStr) (fresh : Nat) :
    (newRes o w g c (some (.named i)) fresh).2 = .ok ⟨c, .named i⟩ ∧
    isA o w (newRes o w g c (some (.named i)) fresh).1 ⟨c, .named i⟩ = .ok true ∧
    ∀ t ∈ (newRes o w g c (some (.named i)) fresh).1.triples, t ∈ g.triples ∨ t.s = .named i := by
  obtain ⟨h1, _, ⟨ty, _, h3⟩, h4⟩ := C51_new_exact ho wr hg hc (some (.named i)) fresh
  refine ⟨h1, h4, fun t ht => ?_⟩
  rcases (h3 t).1 ht with h | ⟨k, _, rfl⟩
  · exact Or.inl h
  · exact Or.inr rfl

/-- Without a subject, or with a blank node, the new resource is not a blank node but an IRI `_:...`. -/
theorem C51_refuted : ¬ C51_statement := by
  intro h
  obtain ⟨r, h1, i, h2⟩ := (h {} .default World.new .new (Graph.new .none) (.new _) 0 (by decide) 0).2
  have := (C51_new_exact Orders.OK.default .new (Graph.Reach.new .none) (c := 0) (by decide) none 0).1
  rw [h1] at this
  cases this
  simp [toNamed] at h2

/-- In particular with a blank node as the subject, `C(graph, node)` is not an instance afterwards (when `C` has an RDF class and the node
    did not have all its types before). -/
theorem C51_blank_not_instance {o : Orders} (ho : o.OK) {w : World} (wr : w.Reach) {g : Graph} (hg : g.Reach) {c : Nat}
    (hc : c < w.classes.length) (i fresh : Nat) {k : Term} (hk : k ∈ w.rdfClasses c) (hkt : k.truthy = true)
    (hn : ∀ p, mkTriple (.bnode i) p k ∉ g.triples) :
    isA o w (newRes o w g c (some (.bnode i)) fresh).1 ⟨c, .bnode i⟩ = .ok false := by
  obtain ⟨_, hgr, ⟨ty, ht, h3⟩, _⟩ := C51_new_exact ho wr hg hc (some (.bnode i)) fresh
  unfold isA
  rw [isALoop_true ht]
  simp only [Except.ok.injEq, List.all_eq_false, decide_eq_true_eq, ne_eq, not_not]
  refine ⟨k, (ho.terms _).mem_iff.2 hk, List.eq_nil_iff_forall_not_mem.2 fun t htm => ?_⟩
  rw [mem_match hgr.inv ho.stmts] at htm
  obtain ⟨h1, h2, _, h4⟩ := htm
  have hs := h2 rfl
  have ho' := h4 hkt
  rcases (h3 t).1 h1 with h | ⟨k', _, rfl⟩
  · have e := eq_mkTriple (hg.inv.isTri t h)
    rw [hs, ho'] at e
    exact hn t.p (e ▸ h)
  · simp [mkTriple, toNamed] at hs

/-! ### C52: in_graph -/

/-- The subjects with class `t`. -/
theorem mem_found {o : Orders} (ho : o.OK) {g : Graph} (hg : g.Reach) {ty t : Term} (h1 : ty.truthy = true) (h2 : t.truthy = true)
    (s : Term) : s ∈ (g.match o.stmts .none ty t).map (·.s) ↔ mkTriple s ty t ∈ g.triples := by
  rw [List.mem_map]
  constructor
  · rintro ⟨x, hx, rfl⟩
    rw [mem_match hg.inv ho.stmts] at hx
    rw [← hx.2.2.1 h1, ← hx.2.2.2 h2, ← eq_mkTriple (hg.inv.isTri x hx.1)]; exact hx.1
  · intro h
    exact ⟨_, (mem_match hg.inv ho.stmts _ _ _ _).2 ⟨h, fun h => absurd h (by simp [Term.truthy]), fun _ => rfl, fun _ => rfl⟩, rfl⟩

theorem inGraphLoop_all {o : Orders} (ho : o.OK) {g : Graph} (hg : g.Reach) {ty : Term} (h1 : ty.truthy = true) (s0 : Term)
    (ts : List Term) (ht : ∀ t ∈ ts, t.truthy = true) (h0 : ∀ t ∈ ts, mkTriple s0 ty t ∈ g.triples)
    (S : List Term) (hS : s0 ∈ S) (s : Term) :
    s ∈ inGraphLoop o g ty S ts ↔ s ∈ S ∧ ∀ t ∈ ts, mkTriple s ty t ∈ g.triples := by
  induction ts generalizing S with
  | nil => simp [inGraphLoop]
  | cons t ts ih =>
    unfold inGraphLoop
    simp only
    have hne : S ≠ [] := List.ne_nil_of_mem hS
    rw [if_neg hne, ih (fun t h => ht t (by simp [h])) (fun t h => h0 t (by simp [h])), List.mem_filter, List.contains_iff_mem,
      mem_found ho hg h1 (ht t (by simp))]
    · simp only [List.mem_cons, forall_eq_or_imp]; tauto
    · rw [List.mem_filter, List.contains_iff_mem, mem_found ho hg h1 (ht t (by simp))]
      exact ⟨hS, h0 t (by simp)⟩

/-- Every subject that is returned has at least the last of the classes, in the order in which they are tried. -/
theorem inGraphLoop_last {o : Orders} (ho : o.OK) {g : Graph} (hg : g.Reach) {ty : Term} (h1 : ty.truthy = true)
    (ts : List Term) (t : Term) (ht : t.truthy = true) (S : List Term) (s : Term) (hs : s ∈ inGraphLoop o g ty S (ts ++ [t])) :
    mkTriple s ty t ∈ g.triples := by
  induction ts generalizing S with
  | nil =>
    simp only [List.nil_append, inGraphLoop] at hs
    split at hs
    · rw [mem_pySet, mem_found ho hg h1 ht] at hs; exact hs
    · rw [List.mem_filter, List.contains_iff_mem, mem_found ho hg h1 ht] at hs; exact hs.2
  | cons a ts ih =>
    rw [List.cons_append] at hs
    unfold inGraphLoop at hs
    exact ih _ hs

/-- The claim. (For a class without RDF classes the method returns nothing.) -/
def C52_statement : Prop :=
  ∀ (o : Orders), o.OK → ∀ w : World, w.Reach → ∀ g : Graph, g.Reach → ∀ c, c < w.classes.length → w.rdfClasses c ≠ [] →
    (∀ t ∈ w.rdfClasses c, t.truthy = true) →
    ∃ ty, rdfType w c = .ok ty ∧ ∃ S, inGraph o w g c = .ok S ∧
      ∀ s, s ∈ S ↔ ∀ t ∈ w.rdfClasses c, mkTriple s ty t ∈ g.triples

/-- The claim holds if the class has one RDF class, or if the graph has at least one instance. -/
theorem C52_in_graph_partial {o : Orders} (ho : o.OK) {w : World} (wr : w.Reach) {g : Graph} (hg : g.Reach) {c : Nat}
    (hc : c < w.classes.length) (hne : w.rdfClasses c ≠ []) (htr : ∀ t ∈ w.rdfClasses c, t.truthy = true)
    (hcase : (∃ t, w.rdfClasses c = [t]) ∨
      ∃ s ty, rdfType w c = .ok ty ∧ ∀ t ∈ w.rdfClasses c, mkTriple s ty t ∈ g.triples) :
    ∃ ty, rdfType w c = .ok ty ∧ ∃ S, inGraph o w g c = .ok S ∧
      ∀ s, s ∈ S ↔ ∀ t ∈ w.rdfClasses c, mkTriple s ty t ∈ g.triples := by
  obtain ⟨ns, _, ht⟩ := rdfType_ok wr.wf hc
  have h1 : (Term.named (ns ++ py! "type")).truthy = true := by cases ns <;> rfl
  refine ⟨_, ht, ?_⟩
  have hperm := ho.terms (w.rdfClasses c)
  unfold inGraph
  cases hts : o.terms (w.rdfClasses c) with
  | nil => rw [hts, List.nil_perm] at hperm; exact absurd hperm hne
  | cons t ts =>
    rw [hts] at hperm
    simp only [ht]
    refine ⟨_, rfl, fun s => ?_⟩
    unfold inGraphLoop
    simp only [if_true]
    have hmem : ∀ x, x ∈ w.rdfClasses c ↔ x = t ∨ x ∈ ts := fun x => by rw [← hperm.mem_iff, List.mem_cons]
    have htr' := htr t ((hmem t).2 (Or.inl rfl))
    rcases hcase with ⟨t', h'⟩ | ⟨s0, ty, hty, h0⟩
    · rw [h'] at hperm
      have := List.perm_singleton.1 hperm
      cases this
      rw [inGraphLoop, mem_pySet, mem_found ho hg h1 htr', h']
      simp
    · rw [ht] at hty; cases hty
      rw [inGraphLoop_all ho hg h1 s0 ts (fun x hx => htr x ((hmem x).2 (Or.inr hx))) (fun x hx => h0 x ((hmem x).2 (Or.inr hx))) _
        (by rw [mem_pySet, mem_found ho hg h1 htr']; exact h0 t ((hmem t).2 (Or.inl rfl))) s, mem_pySet, mem_found ho hg h1 htr']
      constructor
      · rintro ⟨h2, h3⟩ x hx
        rcases (hmem x).1 hx with rfl | hx
        · exact h2
        · exact h3 x hx
      · intro h; exact ⟨h t ((hmem t).2 (Or.inl rfl)), fun x hx => h x ((hmem x).2 (Or.inr hx))⟩

/-- A class with the two RDF classes `a` and `b`. -/
def twoTypes : World :=
  match newClass World.new (py! "Both") [0] { rdfClasses := some [.named (py! "http://a"), .named (py! "http://b")] } with
  | .ok (w, _) => w
  | .error _ => World.new

theorem twoTypes_reach : twoTypes.Reach := by
  have h : newClass World.new (py! "Both") [0] { rdfClasses := some [.named (py! "http://a"), .named (py! "http://b")] } =
      .ok (twoTypes, 2) := by rfl
  exact .define .new (by simp) (by simp; decide) h

/-- A graph with one resource, of type `b` only. -/
def onlyB : Graph := (Graph.new .none).add (mkTriple (.named (py! "http://x")) (.named (Heap.rdfNs ++ py! "type")) (.named (py! "http://b")))

/-- It fails when the instances of the first classes tried are none: then the search starts again with the next class. -/
theorem C52_refuted : ¬ C52_statement := by
  intro h
  obtain ⟨ty, hty, S, hS, hm⟩ := h {} .default twoTypes twoTypes_reach onlyB ((Graph.Reach.new _).add _ _ _) 2 (by decide) (by decide) (by decide)
  have h1 : inGraph {} twoTypes onlyB 2 = .ok [.named (py! "http://x")] := by decide
  have h2 : rdfType twoTypes 2 = .ok (.named (Heap.rdfNs ++ py! "type")) := by decide
  rw [h1] at hS; cases hS
  rw [h2] at hty; cases hty
  have := (hm (.named (py! "http://x"))).1 (by simp) (.named (py! "http://a")) (by decide)
  revert this; decide

/-- What always holds: a subject that is returned has one of the RDF classes. -/
theorem C52_in_graph_sound {o : Orders} (ho : o.OK) {w : World} (wr : w.Reach) {g : Graph} (hg : g.Reach) {c : Nat}
    (hc : c < w.classes.length) (htr : ∀ t ∈ w.rdfClasses c, t.truthy = true) {S : List Term}
    (h : inGraph o w g c = .ok S) :
    ∃ ty, rdfType w c = .ok ty ∧ ∀ s ∈ S, ∃ t ∈ w.rdfClasses c, mkTriple s ty t ∈ g.triples := by
  obtain ⟨ns, _, ht⟩ := rdfType_ok wr.wf hc
  have h1 : (Term.named (ns ++ py! "type")).truthy = true := by cases ns <;> rfl
  refine ⟨_, ht, ?_⟩
  have hperm := ho.terms (w.rdfClasses c)
  unfold inGraph at h
  cases hts : o.terms (w.rdfClasses c) with
  | nil => rw [hts] at h; cases h; simp
  | cons t ts =>
    rw [hts] at hperm h
    simp only [ht, Except.ok.injEq] at h
    subst h
    intro s hs
    obtain ⟨pre, l, e⟩ : ∃ pre l, t :: ts = pre ++ [l] := ⟨_, _, (List.dropLast_concat_getLast (by simp)).symm⟩
    have hl : l ∈ w.rdfClasses c := by rw [← hperm.mem_iff, e]; simp
    rw [e] at hs
    exact ⟨l, hl, inGraphLoop_last ho hg h1 pre l (htr l hl) [] s hs⟩

/-- Specification: a resource has every type of the list. -/
def HasAll (I : Term → Term → Prop) (ts : List Term) (s : Term) : Prop := ∀ t ∈ ts, I s t

/-- Specification: of the types in the order in which they are tried, the ones that count. As soon as no resource has all types tried so far, these are forgotten
    and the search starts again with the types that are left. -/
inductive Counting (I : Term → Term → Prop) : List Term → List Term → Prop
  | all {ts} : (∀ p r, p ++ r = ts → p ≠ [] → r ≠ [] → ∃ s, HasAll I p s) → Counting I ts ts
  | again {p r ts} : p ≠ [] → r ≠ [] → (∀ s, ¬ HasAll I p s) → (∀ p' r', p' ++ r' = p → p' ≠ [] → r' ≠ [] → ∃ s, HasAll I p' s) → Counting I r ts →
      Counting I (p ++ r) ts

/-- There is exactly one such list. -/
theorem Counting.unique {I : Term → Term → Prop} {l a b : List Term} (ha : Counting I l a) (hb : Counting I l b) : a = b := by
  induction ha generalizing b with
  | @all ts h =>
    cases hb with
    | all _ => rfl
    | @again p r _ hp hr hn _ _ => obtain ⟨s, hs⟩ := h p r rfl hp hr; exact absurd hs (hn s)
  | @again p r ts hp hr hn hpre _ ih =>
    generalize e : p ++ r = l at hb
    cases hb with
    | all h => obtain ⟨s, hs⟩ := h p r e hp hr; exact absurd hs (hn s)
    | @again p' r' _ hp' hr' hn' hpre' hc' =>
      have : p = p' := by
        rcases List.append_eq_append_iff.1 e with ⟨x, h1, h2⟩ | ⟨x, h1, h2⟩
        · cases x with
          | nil => simpa using h1.symm
          | cons y ys => obtain ⟨s, hs⟩ := hpre' p (y :: ys) h1.symm hp (by simp); exact absurd hs (hn s)
        · cases x with
          | nil => simpa using h1
          | cons y ys => obtain ⟨s, hs⟩ := hpre p' (y :: ys) h1.symm hp' (by simp); exact absurd hs (hn' s)
      subst this
      rw [List.append_cancel_left e] at ih
      exact ih hc'

theorem inGraphLoop_counting {o : Orders} (ho : o.OK) {g : Graph} (hg : g.Reach) {ty : Term} (h1 : ty.truthy = true) (ts : List Term) (ht : ∀ t ∈ ts, t.truthy = true) :
    ∀ (p S : List Term), (∀ s, s ∈ S ↔ p ≠ [] ∧ HasAll (fun s t => mkTriple s ty t ∈ g.triples) p s) →
      (∀ q r, q ++ r = p → q ≠ [] → ∃ s, HasAll (fun s t => mkTriple s ty t ∈ g.triples) q s) → p ++ ts ≠ [] →
      ∃ u, Counting (fun s t => mkTriple s ty t ∈ g.triples) (p ++ ts) u ∧ ∀ s, s ∈ inGraphLoop o g ty S ts ↔ HasAll (fun s t => mkTriple s ty t ∈ g.triples) u s := by
  induction ts with
  | nil =>
    intro p S hS hp hne
    rw [List.append_nil] at hne ⊢
    exact ⟨p, .all fun q r e hq _ => hp q r e hq, fun s => by rw [inGraphLoop, hS]; exact ⟨fun h => h.2, fun h => ⟨hne, h⟩⟩⟩
  | cons t ts ih =>
    intro p S hS hp hne
    unfold inGraphLoop
    dsimp only
    have hfound := mem_found ho hg h1 (ht t (by simp))
    have hS' : ∀ s, s ∈ (if S = [] then pySet ((g.match o.stmts .none ty t).map (·.s)) else S.filter fun s => ((g.match o.stmts .none ty t).map (·.s)).contains s) ↔
        HasAll (fun s t => mkTriple s ty t ∈ g.triples) (p ++ [t]) s := by
      intro s
      split
      · next hnil =>
        have hpn : p = [] := by
          apply Classical.byContradiction
          intro hpn
          obtain ⟨x, hx⟩ := hp p [] (by simp) hpn
          have := (hS x).2 ⟨hpn, hx⟩
          rw [hnil] at this; cases this
        subst hpn
        rw [mem_pySet, hfound]
        simp [HasAll]
      · next hnil =>
        rw [List.mem_filter, List.contains_iff_mem, hfound, hS]
        obtain ⟨x, hx⟩ := List.exists_mem_of_ne_nil _ hnil
        have hpn := ((hS x).1 hx).1
        simp only [HasAll, List.mem_append, List.mem_singleton]
        constructor
        · rintro ⟨⟨_, h2⟩, h3⟩ y (hy | rfl)
          · exact h2 y hy
          · exact h3
        · intro h; exact ⟨⟨hpn, fun y hy => h y (.inl hy)⟩, h t (.inr rfl)⟩
    generalize (if S = [] then pySet ((g.match o.stmts .none ty t).map (·.s)) else S.filter fun s => ((g.match o.stmts .none ty t).map (·.s)).contains s) = S' at hS'
    by_cases hex : ∃ s, HasAll (fun s t => mkTriple s ty t ∈ g.triples) (p ++ [t]) s
    · obtain ⟨u, k1, k2⟩ := ih (fun t h => ht t (by simp [h])) (p ++ [t]) S' (fun s => by rw [hS']; simp) (by
        intro q r e hq
        rcases List.eq_nil_or_concat r with rfl | ⟨r', x, rfl⟩
        · rw [List.append_nil] at e; rw [e]; exact hex
        · rw [List.concat_eq_append, ← List.append_assoc] at e
          exact hp q r' (List.append_inj_left' e rfl) hq) (by simp)
      rw [List.append_assoc, List.singleton_append] at k1
      exact ⟨u, k1, k2⟩
    · have hnil : S' = [] := List.eq_nil_iff_forall_not_mem.2 fun s hs => hex ⟨s, (hS' s).1 hs⟩
      have hpre : ∀ q r, q ++ r = p ++ [t] → q ≠ [] → r ≠ [] → ∃ s, HasAll (fun s t => mkTriple s ty t ∈ g.triples) q s := by
        intro q r e hq hr
        rcases List.eq_nil_or_concat r with rfl | ⟨r', x, rfl⟩
        · exact absurd rfl hr
        · rw [List.concat_eq_append, ← List.append_assoc] at e
          exact hp q r' (List.append_inj_left' e rfl) hq
      subst hnil
      cases ts with
      | nil =>
        refine ⟨p ++ [t], .all hpre, fun s => ?_⟩
        rw [inGraphLoop]
        exact ⟨fun h => (by cases h), fun h => absurd ⟨s, h⟩ hex⟩
      | cons t' ts =>
        obtain ⟨u, k1, k2⟩ := ih (fun t h => ht t (by simp [h])) [] [] (fun s => by simp) (fun q r e hq => by
          have := (List.append_eq_nil_iff.1 e).1; exact absurd this hq) (by simp)
        refine ⟨u, ?_, k2⟩
        have := Counting.again (p := p ++ [t]) (by simp) (by simp) (fun s h => hex ⟨s, h⟩) hpre k1
        simpa using this

/-- **Exactly what `in_graph` returns**: the resources with all the types that count. -/
theorem C52_exact {o : Orders} (ho : o.OK) {w : World} (wr : w.Reach) {g : Graph} (hg : g.Reach) {c : Nat}
    (hc : c < w.classes.length) (hne : w.rdfClasses c ≠ []) (htr : ∀ t ∈ w.rdfClasses c, t.truthy = true) :
    ∃ ty S u, rdfType w c = .ok ty ∧ inGraph o w g c = .ok S ∧ Counting (fun s t => mkTriple s ty t ∈ g.triples) (o.terms (w.rdfClasses c)) u ∧
      ∀ s, s ∈ S ↔ ∀ t ∈ u, mkTriple s ty t ∈ g.triples := by
  obtain ⟨ns, _, ht⟩ := rdfType_ok wr.wf hc
  have h1 : (Term.named (ns ++ py! "type")).truthy = true := by cases ns <;> rfl
  have hperm := ho.terms (w.rdfClasses c)
  unfold inGraph
  cases hts : o.terms (w.rdfClasses c) with
  | nil => rw [hts, List.nil_perm] at hperm; exact absurd hperm hne
  | cons t ts =>
    rw [hts] at hperm
    obtain ⟨u, k1, k2⟩ := inGraphLoop_counting ho hg h1 (t :: ts) (fun x hx => htr x (hperm.mem_iff.1 hx)) [] [] (fun s => by simp) (fun q r e hq =>
      absurd (List.append_eq_nil_iff.1 e).1 hq) (by simp)
    simp only [ht]
    exact ⟨_, _, u, rfl, rfl, k1, k2⟩

/-- It starts again in the example above: only the second type counts. -/
example : Counting (fun s t => mkTriple s (.named (Heap.rdfNs ++ py! "type")) t ∈ onlyB.triples) [.named (py! "http://a"), .named (py! "http://b")] [.named (py! "http://b")] := by
  refine .again (p := [.named (py! "http://a")]) (by simp) (by simp) (fun s h => ?_) (fun p' r' e h1 h2 => ?_) (.all fun p r e h1 h2 => ?_)
  · have := h _ (List.mem_singleton.2 rfl)
    rw [show onlyB.triples = [mkTriple (.named (py! "http://x")) (.named (Heap.rdfNs ++ py! "type")) (.named (py! "http://b"))] by decide, List.mem_singleton] at this
    injection this with _ _ h3
    injection h3 with h4
    revert h4; decide
  · rcases p' with _ | ⟨a, _ | ⟨b, p'⟩⟩ <;> simp_all
  · rcases p with _ | ⟨a, _ | ⟨b, p⟩⟩ <;> simp_all

/-! ### C54: equality and hash -/

/-- Symmetry holds for all values. -/
theorem C54_symm (a b : EqVal) : pyEq a b = pyEq b a := by
  cases a <;> cases b <;> simp only [pyEq, eq_comm]

/-- Reflexivity holds for all values. -/
theorem C54_refl (a : EqVal) : pyEq a a = true := by
  cases a <;> simp [pyEq]

def C54_statement : Prop :=
  (∀ a b c : EqVal, pyEq a b = true → pyEq b c = true → pyEq a c = true) ∧
  ∀ hs hi ht (a b : EqVal), pyEq a b = true → pyHash hs hi ht a = pyHash hs hi ht b

/-- A Resource for a blank node equals the string form of the node, but then neither transitivity nor agreement of the hashes holds. -/
theorem C54_refuted : ¬ C54_statement := by
  rintro ⟨htrans, _⟩
  have := htrans (.res ⟨0, .bnode 0⟩) (.iri (Term.bnode 0).str) (.res ⟨0, .named (Term.bnode 0).str⟩) (by simp [pyEq])
    (by simp [pyEq, Term.str])
  simp [pyEq] at this

theorem C54_hash_refuted :
    ¬ ∀ hs hi ht (a b : EqVal), pyEq a b = true → pyHash hs hi ht a = pyHash hs hi ht b := by
  intro h
  have := h (fun _ => 0) (fun _ => 1) (fun _ _ _ => 0) (.res ⟨0, .bnode 0⟩) (.iri (Term.bnode 0).str) (by simp [pyEq])
  simp [pyHash] at this

/-- Values whose string form decides them: IRIs, and resources whose subject is an IRI. -/
def EqVal.isIri : EqVal → Prop
  | .iri _ => True
  | .res r => ∃ i, r.s = .named i
  | _ => False

/-- Among resources with IRI subjects, IRIs and strings, equality is an equivalence and agrees with the hash. Missing for the full claim:
    resources whose subject is a blank node. -/
theorem C54_partial :
    (∀ a b c : EqVal, a.isIri → b.isIri → c.isIri → pyEq a b = true → pyEq b c = true → pyEq a c = true) ∧
    ∀ hs hi ht (a b : EqVal), a.isIri → b.isIri → pyEq a b = true → pyHash hs hi ht a = pyHash hs hi ht b := by
  constructor
  · intro a b c ha hb hc
    cases a <;> cases b <;> cases c <;> simp only [EqVal.isIri] at ha hb hc <;>
      first
      | contradiction
      | skip
    all_goals
      first
      | obtain ⟨i, ha⟩ := ha
      | skip
      first
      | obtain ⟨j, hb⟩ := hb
      | skip
      first
      | obtain ⟨k, hc⟩ := hc
      | skip
      simp_all [pyEq, Term.str]
  · intro hs hi ht a b ha hb
    cases a with
    | res r =>
      obtain ⟨c, s⟩ := r
      obtain ⟨i, rfl⟩ := ha
      cases b with
      | res r => obtain ⟨c', s'⟩ := r; obtain ⟨j, rfl⟩ := hb; simp [pyEq, pyHash]; rintro rfl; rfl
      | iri s => intro h; have := of_decide_eq_true h; simp only [Term.str] at this; subst this; rfl
      | _ => exact hb.elim
    | iri s =>
      cases b with
      | res r => obtain ⟨c', s'⟩ := r; obtain ⟨j, rfl⟩ := hb; intro h; have := of_decide_eq_true h; simp only [Term.str] at this; subst this; rfl
      | iri s => simp [pyEq, pyHash]; rintro rfl; rfl
      | _ => exact hb.elim
    | _ => exact ha.elim

/-- Among resources alone (blank nodes included) equality is an equivalence and agrees with the hash. -/
theorem C54_resources (hs hi ht) (a b c : Res) :
    (pyEq (.res a) (.res b) = true → pyEq (.res b) (.res c) = true → pyEq (.res a) (.res c) = true) ∧
    (pyEq (.res a) (.res b) = true → pyHash hs hi ht (.res a) = pyHash hs hi ht (.res b)) := by
  simp only [pyEq, decide_eq_true_eq]
  refine ⟨fun h h' => h.trans h', fun h => ?_⟩
  obtain ⟨ca, sa⟩ := a
  obtain ⟨cb, sb⟩ := b
  dsimp only at h
  subst h
  cases sa <;> rfl

/-! ### C55: copy -/

def C55_statement : Prop :=
  ∀ (o : Orders), o.OK → ∀ w : World, w.Reach → ∀ g : Graph, g.Reach → ∀ r : Res, r.c < w.classes.length → ∀ target : Term, IsResource target →
    ∀ t, t ∈ (copyRes o w g r target).2.1.triples ↔ t ∈ g.triples ∨ ∃ p x, mkTriple r.s p x ∈ g.triples ∧ t = mkTriple target p x

/-- Exactly: if the resource has a triple, `copy` raises AttributeError. The one tuple it has put into the graph's set by then is not in
    the indexes. If it has none, nothing is added and the target is returned. -/
theorem C55_copy_exact {o : Orders} (ho : o.OK) {w : World} {g : Graph} (hg : g.Reach) {r : Res}
    (hs : r.s.truthy = true) (target : Term) :
    ((∃ p x, mkTriple r.s p x ∈ g.triples) → (copyRes o w g r target).2.2 = .error .attributeError ∧
      ∃ p x, mkTriple r.s p x ∈ g.triples ∧ (copyRes o w g r target).2.1 = (g.addTuple target p x).1) ∧
    ((¬ ∃ p x, mkTriple r.s p x ∈ g.triples) → (copyRes o w g r target).2.1 = g ∧
      (copyRes o w g r target).2.2 = (classify o w g r.c target).2) := by
  have hm := fun t => mem_match hg.inv ho.stmts r.s .none .none t
  simp only [hs, true_implies, show Term.none.truthy = false from rfl, Bool.false_eq_true, false_implies, and_true] at hm
  unfold copyRes
  cases hq : g.match o.stmts r.s .none .none with
  | nil =>
    rw [hq] at hm
    refine ⟨fun ⟨p, x, h⟩ => absurd ((hm _).2 ⟨h, rfl⟩) (by simp), fun _ => ⟨rfl, rfl⟩⟩
  | cons t ts =>
    rw [hq] at hm
    have ht := (hm t).1 (by simp)
    have he := eq_mkTriple (hg.inv.isTri t ht.1)
    have hmem : mkTriple r.s t.p t.o ∈ g.triples := by rw [← ht.2, ← he]; exact ht.1
    refine ⟨fun _ => ?_, fun h => absurd ⟨t.p, t.o, hmem⟩ h⟩
    have hadd : (g.addTuple target t.p t.o).2 = .error .attributeError := by rfl
    cases hq2 : g.addTuple target t.p t.o with
    | mk g1 rv =>
      rw [hq2] at hadd
      dsimp only at hadd ⊢
      subst hadd
      exact ⟨rfl, t.p, t.o, hmem, by rw [hq2]⟩

theorem C55_refuted : ¬ C55_statement := by
  intro h
  have hg : ((Graph.new .none).add (mkTriple (.named (py! "a")) (.named (py! "p")) (.named (py! "o"))) |>.add
    (mkTriple (.named (py! "a")) (.named (py! "p")) (.named (py! "o2")))).Reach := ((Graph.Reach.new _).add _ _ _).add _ _ _
  have h1 := (h {} .default World.new .new _ hg ⟨0, .named (py! "a")⟩ (by decide) (.named (py! "b")) (Or.inl ⟨_, rfl⟩)
    (mkTriple (.named (py! "b")) (.named (py! "p")) (.named (py! "o2")))).2 (Or.inr ⟨.named (py! "p"), .named (py! "o2"), by decide, rfl⟩)
  revert h1; decide

end Verif
