import Verif.Props.ResSelect
import Verif.Spec.ResRead
/-
What `r[key]` is (C101), `object_of` (C102) and `str(r)` (C103).
-/
namespace Verif
open Spec Graph

/-! ### C101: the shape of a reading -/

/-- `r[key]` gives a generator exactly for a predicate that is not scalar and for a key `(name, None)`. -/
theorem C101_shape {o : Orders} {w : World} (wr : w.Reach) {g : Graph} {r : Res} (hc : r.c < w.classes.length) (key : Key)
    {q : Option PStr} {objs : List Term} (h : (objectsForKey o w g r key).2 = .ok (q, objs)) :
    (∃ xs, (getItem o w g r key).2 = .ok (.iter xs)) ↔ isScalar w r.c q = false ∨ ∃ k, key = .pair k .none := by
  have hspec := objectsForKey_spec (o := o) wr g hc key
  unfold getItem
  generalize objectsForKey o w g r key = z at h hspec
  obtain ⟨w1, rr⟩ := z
  dsimp only at h; subst h
  dsimp only at hspec ⊢
  rw [hspec.2.1.isScalar hc q]
  have hall : key.isAll = true ↔ ∃ k, key = .pair k .none := by
    cases key with
    | name k => simp [Key.isAll]
    | pair k f => cases f <;> simp [Key.isAll]
  rw [← hall]
  cases isScalar w r.c q with
  | false => simp
  | true =>
    cases key.isAll with
    | true => simp
    | false =>
      simp only [Bool.not_true, Bool.or_false, Bool.false_eq_true, if_false, or_false, reduceCtorEq, iff_false]
      rintro ⟨xs, hx⟩
      generalize classifyOne o w1 g r.c objs = z at hx
      obtain ⟨w2, e | v⟩ := z <;> simp at hx

/-- Reading one of a selection. -/
theorem classifyOne_reads {o : Orders} {w : World} (wr : w.Reach) {g : Graph} {c : Nat} (hc : c < w.classes.length) {objs : List Term}
    (nd : objs.Nodup) {P : Term → Prop} (hm : ∀ x, x ∈ objs ↔ P x) : ReadsOne P (classifyOne o w g c objs).2 := by
  have one : ∀ x, P x → (∀ y, P y → y = x) → objs = [x] := by
    intro x hx hu
    match objs, nd, hm with
    | [], _, hm => exact absurd ((hm x).2 hx) (by simp)
    | [a], _, hm => rw [hu a ((hm a).1 (by simp))]
    | a :: b :: l, nd, hm =>
      exact absurd ((hu a ((hm a).1 (by simp))).trans (hu b ((hm b).1 (by simp))).symm) (by
        rw [List.nodup_cons] at nd; rintro rfl; exact nd.1 (by simp))
  refine ⟨fun h => ?_, fun v l d hp hu => ?_, fun x hx hp hu => ?_, fun x y hx hy hne => ?_⟩
  · have : objs = [] := List.eq_nil_iff_forall_not_mem.2 fun x hx => h x ((hm x).1 hx)
    subst this; rfl
  · rw [one _ hp hu]; rfl
  · rw [one _ hp hu]
    have hs := classify_spec (o := o) wr g hc x
    show (classify o w g c x).2 = _ ∨ ∃ k, (classify o w g c x).2 = _
    rcases hs.2.2 with h | ⟨v, h, _, h3⟩
    · exact Or.inl h
    · obtain ⟨k, rfl, _⟩ := h3 ((isNode_iff x).2 hx)
      exact Or.inr ⟨k, h⟩
  · match objs, hm with
    | [], hm => exact absurd ((hm x).2 hx) (by simp)
    | [a], hm =>
      exact absurd ((List.mem_singleton.1 ((hm x).2 hx)).trans (List.mem_singleton.1 ((hm y).2 hy)).symm) hne
    | a :: b :: l, _ => rfl

/-- For a scalar predicate and a key other than `(name, None)`, `r[key]` is what `r.get_scalar(key)` is. -/
theorem getItem_scalar {o : Orders} {w w1 : World} {g : Graph} {r : Res} {key : Key} {q : Option PStr} {objs : List Term}
    (h : objectsForKey o w g r key = (w1, .ok (q, objs))) (hn : isScalar w1 r.c q = true) (hk : key.isAll = false) :
    (getItem o w g r key).2 = (getScalar o w g r key).2.map .one := by
  unfold getItem getScalar
  rw [h]; dsimp only
  rw [hn, hk]
  generalize classifyOne o w1 g r.c objs = z
  obtain ⟨w2, e | v⟩ := z <;> rfl

theorem getItem_iter {o : Orders} {w w1 : World} {g : Graph} {r : Res} {key : Key} {q : Option PStr} {objs : List Term}
    (h : objectsForKey o w g r key = (w1, .ok (q, objs))) (hn : isScalar w1 r.c q = false ∨ key.isAll = true) :
    getItem o w g r key = (w1, .ok (.iter objs)) := by
  unfold getItem
  rw [h]; dsimp only
  rcases hn with h | h <;> simp [h]

/-- `r[name, filter]`: `(name, None)` gives all objects, even of a scalar; any other filter gives all the objects it shows if the predicate is not
    scalar, and one value if it is. `get_scalar` always gives one value. -/
theorem C101_filter {o : Orders} (ho : o.OK) {w : World} (wr : w.Reach) {g : Graph} (hg : g.Reach) {r : Res}
    (hc : r.c < w.classes.length) (hs : r.s.truthy = true) {k p : PStr} (hk : resolveKey w r.c k = .ok (some p)) (hp : p ≠ []) (f : Filt)
    (hf : Filt.isClass f = false) :
    (f = .none ∨ isScalar w r.c (some p) = false →
      ∃ objs, getItem o w g r (.pair k f) = (w, .ok (.iter objs)) ∧ objs.Nodup ∧
        ∀ x, x ∈ objs ↔ mkTriple r.s (.named p) x ∈ g.triples ∧ Shown (isScalar w r.c (some p)) f x) ∧
    (f ≠ .none → isScalar w r.c (some p) = true →
      (getItem o w g r (.pair k f)).2 = (getScalar o w g r (.pair k f)).2.map .one) ∧
    ReadsOne (fun x => mkTriple r.s (.named p) x ∈ g.triples ∧ Shown (isScalar w r.c (some p)) f x) (getScalar o w g r (.pair k f)).2 := by
  obtain ⟨objs, h1, h2, h3⟩ := C83_filter_selection (w := w) ho hg hs hk hp f hf
  refine ⟨fun h => ⟨objs, getItem_iter h1 ?_, h2, h3⟩, fun hne hn => getItem_scalar h1 hn ?_, ?_⟩
  · rcases h with rfl | h
    · exact Or.inr rfl
    · exact Or.inl h
  · cases f <;> first | rfl | exact absurd rfl hne
  · unfold getScalar; rw [h1]; exact classifyOne_reads wr hc h2 h3

theorem firstOf_of_split {S : Term → Prop} {objs : List Term} {P : Term → Prop} {post : List (Term → Prop)} (hne : objs ≠ [])
    (hm : ∀ x, x ∈ objs ↔ S x ∧ P x) : ∀ (pre : List (Term → Prop)), (∀ Q ∈ pre, ¬ ∃ x, S x ∧ Q x) →
      ∀ x, x ∈ objs ↔ FirstOf S (pre ++ P :: post) x
  | [], _, x => by
    rw [hm x, List.nil_append, FirstOf]
    refine ⟨Or.inl, ?_⟩
    rintro (h | ⟨h, _⟩)
    · exact h
    · obtain ⟨y, hy⟩ := List.exists_mem_of_ne_nil _ hne
      exact absurd ⟨y, (hm y).1 hy⟩ h
  | Q :: pre, hp, x => by
    rw [firstOf_of_split hne hm pre (fun R hR => hp R (List.mem_cons_of_mem _ hR)) x, List.cons_append, FirstOf]
    have hQ := hp Q List.mem_cons_self
    exact ⟨fun h => Or.inr ⟨hQ, h⟩, fun h => h.elim (fun h => absurd ⟨x, h⟩ hQ) (·.2)⟩

theorem firstOf_none {S : Term → Prop} : ∀ (l : List (Term → Prop)), (∀ Q ∈ l, ¬ ∃ x, S x ∧ Q x) → ∀ x, ¬ FirstOf S l x
  | [], _, _ => by rw [FirstOf]; exact id
  | P :: l, h, x => by
    rw [FirstOf]
    rintro (hx | ⟨_, hx⟩)
    · exact h P List.mem_cons_self ⟨x, hx⟩
    · exact firstOf_none l (fun Q hQ => h Q (List.mem_cons_of_mem _ hQ)) x hx

theorem scalar_selection {o : Orders} (ho : o.OK) {w : World} {g : Graph} (hg : g.Reach) {r : Res}
    (hs : r.s.truthy = true) {k p : PStr} (hk : resolveKey w r.c k = .ok (some p)) (hp : p ≠ [])
    (hn : isScalar w r.c (some p) = true) {l : PStr} (hl : w.lang r.c = some l) (hne : l ≠ []) :
    ∃ objs, objectsForKey o w g r (.name k) = (w, .ok (some p, objs)) ∧ objs.Nodup ∧
      ∀ x, x ∈ objs ↔ FirstOf (fun x => mkTriple r.s (.named p) x ∈ g.triples) (preference l) x := by
  obtain ⟨objs, h1, h2, h3⟩ := C83_scalar_selection (w := w) ho hg hs hk hp hn hl hne
  refine ⟨objs, h1, h2, fun x => ?_⟩
  have he : preference l = scalarKinds l := rfl
  rcases h3 with ⟨pre, P, post, hsp, hpre, hob, hm⟩ | ⟨rfl, h⟩
  · rw [he, hsp]; exact firstOf_of_split hob hm pre hpre x
  · rw [he]; exact ⟨fun h => absurd h (by simp), fun hx => absurd hx (firstOf_none _ h x)⟩

/-- `r[name]`: all objects if the predicate is not scalar; one value, of the preferred kind, if it is and the class has a language. -/
theorem C101_name {o : Orders} (ho : o.OK) {w : World} (wr : w.Reach) {g : Graph} (hg : g.Reach) {r : Res}
    (hc : r.c < w.classes.length) (hs : r.s.truthy = true) {k p : PStr} (hk : resolveKey w r.c k = .ok (some p)) (hp : p ≠ []) :
    (isScalar w r.c (some p) = false →
      (∃ objs, getItem o w g r (.name k) = (w, .ok (.iter objs)) ∧ objs.Nodup ∧
        ∀ x, x ∈ objs ↔ mkTriple r.s (.named p) x ∈ g.triples) ∧
      ReadsOne (fun x => mkTriple r.s (.named p) x ∈ g.triples) (getScalar o w g r (.name k)).2) ∧
    (isScalar w r.c (some p) = true → ∀ l, w.lang r.c = some l → l ≠ [] →
      (getItem o w g r (.name k)).2 = (getScalar o w g r (.name k)).2.map .one ∧
      ReadsOne (FirstOf (fun x => mkTriple r.s (.named p) x ∈ g.triples) (preference l)) (getScalar o w g r (.name k)).2) := by
  refine ⟨fun hn => ?_, fun hn l hl hne => ?_⟩
  · obtain ⟨objs, h1, h2, h3⟩ := C83_name_selection (w := w) ho hg hs hk hp hn
    refine ⟨⟨objs, getItem_iter h1 (Or.inl hn), h2, h3⟩, ?_⟩
    unfold getScalar; rw [h1]; exact classifyOne_reads wr hc h2 h3
  · obtain ⟨objs, h1, h2, h3⟩ := scalar_selection (w := w) ho hg hs hk hp hn hl hne
    refine ⟨getItem_scalar h1 hn rfl, ?_⟩
    unfold getScalar; rw [h1]; exact classifyOne_reads wr hc h2 h3

/-- `r[name]` of a scalar predicate in a class without a language: one value, of all objects if the language is None, of the plain literals if it is the empty
    string. -/
theorem C101_name_no_language {o : Orders} (ho : o.OK) {w : World} (wr : w.Reach) {g : Graph} (hg : g.Reach) {r : Res}
    (hc : r.c < w.classes.length) (hs : r.s.truthy = true) {k p : PStr} (hk : resolveKey w r.c k = .ok (some p)) (hp : p ≠ [])
    (hn : isScalar w r.c (some p) = true) :
    (w.lang r.c = none → (getItem o w g r (.name k)).2 = (getScalar o w g r (.name k)).2.map .one ∧
      ReadsOne (fun x => mkTriple r.s (.named p) x ∈ g.triples) (getScalar o w g r (.name k)).2) ∧
    (w.lang r.c = some [] → (getItem o w g r (.name k)).2 = (getScalar o w g r (.name k)).2.map .one ∧
      ReadsOne (fun x => mkTriple r.s (.named p) x ∈ g.triples ∧ Untagged x) (getScalar o w g r (.name k)).2) := by
  obtain ⟨a1, a2⟩ := C83_scalar_no_language (o := o) (w := w) (g := g) ho hg hs hk hp hn
  refine ⟨fun hl => ?_, fun hl => ?_⟩
  · obtain ⟨objs, h1, h2, h3⟩ := a1 hl
    refine ⟨getItem_scalar h1 hn rfl, ?_⟩
    unfold getScalar; rw [h1]; exact classifyOne_reads wr hc h2 h3
  · obtain ⟨objs, h1, h2, h3⟩ := a2 hl
    refine ⟨getItem_scalar h1 hn rfl, ?_⟩
    unfold getScalar; rw [h1]; exact classifyOne_reads wr hc h2 h3

/-! ### C102: object_of -/

theorem objectOfAll_spec {o : Orders} (g : Graph) {c : Nat} (ts : List Stmt) {w : World} (wr : w.Reach) (hc : c < w.classes.length) :
    (objectOfAll o g c w ts).2 = .error .typeError ∨
    ∃ vs, (objectOfAll o g c w ts).2 = .ok vs ∧ vs.map (fun x => (x.1.term, x.2)) = ts.map fun t => (t.s, t.p) := by
  induction ts generalizing w with
  | nil => exact Or.inr ⟨[], rfl, rfl⟩
  | cons t ts ih =>
    unfold objectOfAll
    have hs := classify_spec (o := o) wr g hc t.s
    generalize classify o w g c t.s = q at hs ⊢
    obtain ⟨w1, e | v⟩ := q
    · dsimp only at hs ⊢
      rcases hs.2.2 with h | ⟨v, h, _⟩
      · cases h; exact Or.inl rfl
      · cases h
    · have hi := ih hs.1 (Nat.lt_of_lt_of_le hc hs.2.1.length)
      dsimp only at hi hs ⊢
      generalize objectOfAll o g c w1 ts = q2 at hi ⊢
      obtain ⟨w2, e | vs⟩ := q2
      · dsimp only at hi ⊢
        rcases hi with h | ⟨v, h, _⟩
        · exact Or.inl h
        · cases h
      · refine Or.inr ⟨(v, t.p) :: vs, rfl, ?_⟩
        rcases hs.2.2 with h | ⟨v', h, h2, _⟩
        · cases h
        · simp only [Except.ok.injEq] at h; subst h
          rcases hi with h | ⟨vs', h, h3⟩
          · cases h
          · simp only [Except.ok.injEq] at h; subst h
            rw [List.map_cons, h2, h3, List.map_cons]

theorem nodup_pairs {g : Graph} (hg : g.Reach) {ord} (hord : Spec.IsOrder ord) {s : Term} (hs : s.truthy = true) (p : Term) :
    ((g.match ord .none p s).map fun t => (t.s, t.p)).Nodup := by
  rw [List.nodup_map_iff_inj_on (nodup_match hg.inv.toIxInv hord _ _ _)]
  intro a ha b hb hab
  rw [mem_match hg.inv hord] at ha hb
  rw [eq_mkTriple (hg.inv.isTri a ha.1), eq_mkTriple (hg.inv.isTri b hb.1), ha.2.2.2 hs, hb.2.2.2 hs]
  simp only [Prod.mk.injEq] at hab
  rw [hab.1, hab.2]

/-- `r.object_of()` lists, each once, the subject and the predicate of every triple with `r` as its object; `r.object_of(name)` those with the named predicate. (Or
    TypeError, if the classes registered for the types of a subject cannot be combined.) -/
theorem C102_object_of {o : Orders} (ho : o.OK) {w : World} (wr : w.Reach) {g : Graph} (hg : g.Reach) {r : Res}
    (hc : r.c < w.classes.length) (hs : r.s.truthy = true) :
    ((objectOf o w g r none).2 = .error .typeError ∨
      ∃ vs, (objectOf o w g r none).2 = .ok vs ∧ (vs.map fun x => (x.1.term, x.2)).Nodup ∧
        ∀ s p, (s, p) ∈ vs.map (fun x => (x.1.term, x.2)) ↔ mkTriple s p r.s ∈ g.triples) ∧
    ∀ name p, resolveKey w r.c name = .ok (some p) → p ≠ [] →
      ((objectOf o w g r (some name)).2 = .error .typeError ∨
        ∃ vs, (objectOf o w g r (some name)).2 = .ok vs ∧ (vs.map fun x => x.1.term).Nodup ∧
          ∀ s, s ∈ vs.map (fun x => x.1.term) ↔ mkTriple s (.named p) r.s ∈ g.triples) := by
  have mem : ∀ (q s p : Term), (s, p) ∈ (g.match o.stmts .none q r.s).map (fun t => (t.s, t.p)) ↔
      mkTriple s p r.s ∈ g.triples ∧ (q.truthy → p = q) := by
    intro q s p
    rw [List.mem_map]
    constructor
    · rintro ⟨t, ht, he⟩
      rw [mem_match hg.inv ho.stmts] at ht
      simp only [Prod.mk.injEq] at he
      obtain ⟨rfl, rfl⟩ := he
      refine ⟨?_, ht.2.2.1⟩
      have := eq_mkTriple (hg.inv.isTri t ht.1)
      rw [ht.2.2.2 hs] at this
      rw [← this]; exact ht.1
    · rintro ⟨h1, h2⟩
      exact ⟨_, (mem_match hg.inv ho.stmts _ _ _ _).2 ⟨h1, fun h => absurd h (by simp [Term.truthy]), h2, fun _ => rfl⟩, rfl⟩
  refine ⟨?_, fun name p hk hp => ?_⟩
  · unfold objectOf
    rcases objectOfAll_spec (o := o) g (g.match o.stmts .none .none r.s) wr hc with h | ⟨vs, h, he⟩
    · exact Or.inl h
    · refine Or.inr ⟨vs, h, by rw [he]; exact nodup_pairs hg ho.stmts hs _, fun s p => ?_⟩
      rw [he, mem]; simp [Term.truthy]
  · unfold objectOf
    dsimp only
    rw [hk]
    dsimp only
    rcases objectOfAll_spec (o := o) g (g.match o.stmts .none (predTerm (some p)) r.s) wr hc with h | ⟨vs, h, he⟩
    · exact Or.inl h
    · have hp' : (predTerm (some p)).truthy = true := predTerm_truthy hp
      have h1 : vs.map (fun x => x.1.term) = (vs.map fun x => (x.1.term, x.2)).map Prod.fst := by rw [List.map_map]; rfl
      have hall : ∀ x ∈ (g.match o.stmts .none (predTerm (some p)) r.s).map (fun t => (t.s, t.p)), x.2 = .named p := by
        intro x hx
        exact ((mem _ x.1 x.2).1 hx).2 hp'
      refine Or.inr ⟨vs, h, ?_, fun s => ?_⟩
      · rw [h1, he, List.nodup_map_iff_inj_on (nodup_pairs hg ho.stmts hs _)]
        intro a ha b hb hab
        exact Prod.ext hab ((hall a ha).trans (hall b hb).symm)
      · rw [h1, he, List.mem_map]
        constructor
        · rintro ⟨x, hx, rfl⟩
          have := (mem _ x.1 x.2).1 hx
          rw [hall x hx] at this; exact this.1
        · intro hx
          exact ⟨(s, .named p), (mem _ _ _).2 ⟨hx, fun _ => rfl⟩, rfl⟩

/-- Reading the other way round: a resource `y` is among the subjects of `r.object_of(name)` exactly when `r` is among the objects that
    `y[name, None]` gives. -/
theorem C102_inverse {o o' : Orders} (ho : o.OK) (ho' : o'.OK) {w : World} (wr : w.Reach) {g : Graph} (hg : g.Reach) {r y : Res}
    (hc : r.c < w.classes.length) (hs : r.s.truthy = true) (hy : y.s.truthy = true) {name p : PStr}
    (hk : resolveKey w r.c name = .ok (some p)) (hk' : resolveKey w y.c name = .ok (some p)) (hp : p ≠ [])
    {w1 : World} {vs : List (Val × Term)} (h : objectOf o w g r (some name) = (w1, .ok vs)) :
    ∃ objs, getItem o' w g y (.pair name .none) = (w, .ok (.iter objs)) ∧ (y.s ∈ vs.map (fun x => x.1.term) ↔ r.s ∈ objs) := by
  obtain ⟨objs, h1, h2, h3⟩ := C83_filter_selection (w := w) ho' hg hy hk' hp .none rfl
  refine ⟨objs, getItem_iter h1 (Or.inr rfl), ?_⟩
  rcases (C102_object_of ho wr hg hc hs).2 name p hk hp with hx | ⟨vs', hx, _, hm⟩
  · rw [h] at hx; cases hx
  · rw [h] at hx
    simp only [Except.ok.injEq] at hx; subst hx
    rw [hm, h3]
    simp [Shown]

/-! ### C103: str(r) -/

/-- The claim: `str(r)` always gives a text. -/
def C103_statement : Prop :=
  ∀ (o : Orders), o.OK → ∀ (w : World), w.Reach → ∀ (g : Graph), g.Reach → ∀ (r : Res), r.c < w.classes.length → r.s.truthy = true →
    ∃ t, (resStr o w g r).2 = .ok t

theorem resStr_eq {o : Orders} {w : World} {g : Graph} {r : Res} {x : Except Exc Val}
    (h : (getItem o w g r (.name (py! "rdfs:label"))).2 = x.map .one) :
    (∀ e, x = .error e → (resStr o w g r).2 = .error e) ∧ (x = .ok .none → (resStr o w g r).2 = .ok r.s.str) := by
  unfold resStr
  generalize getItem o w g r (.name (py! "rdfs:label")) = z at h ⊢
  obtain ⟨w1, rr⟩ := z
  dsimp only at h; subst h
  refine ⟨fun e he => ?_, fun he => ?_⟩
  · subst he; rfl
  · subst he; rfl

/-- `str(r)` with `L` the labels that the scalar `rdfs:label` shows, which are the same whatever classes are combined meanwhile. -/
theorem resStr_shown {o : Orders} {w : World} (wr : w.Reach) {g : Graph} {r : Res} (hc : r.c < w.classes.length) {p : PStr} (hn : isScalar w r.c (some p) = true)
    {L : Term → Prop} (sel : ∀ w', w'.Reach → w.Ext w' → ∃ objs, objectsForKey o w' g r (.name (py! "rdfs:label")) = (w', .ok (some p, objs)) ∧ objs.Nodup ∧ ∀ x, x ∈ objs ↔ L x) :
    ((∀ x, ¬ L x) → (resStr o w g r).2 = .ok r.s.str) ∧
    (∀ v lg dt, L (.lit v lg dt) → (∀ y, L y → y = .lit v lg dt) → (resStr o w g r).2 = .ok v) ∧
    (∀ x, IsResource x → L x → (∀ y, L y → y = x) →
      (resStr o w g r).2 = .error .attributeError ∨ (resStr o w g r).2 = .error .typeError) ∧
    (∀ x y, L x → L y → x ≠ y → (resStr o w g r).2 = .error .valueError) := by
  have key : ∀ w', w'.Reach → w.Ext w' → (getItem o w' g r (.name (py! "rdfs:label"))).2 = (getScalar o w' g r (.name (py! "rdfs:label"))).2.map .one ∧
      ReadsOne L (getScalar o w' g r (.name (py! "rdfs:label"))).2 := by
    intro w' wr' he
    obtain ⟨objs, a1, a2, a3⟩ := sel w' wr' he
    refine ⟨getItem_scalar a1 (by rw [he.isScalar hc]; exact hn) rfl, ?_⟩
    unfold getScalar; rw [a1]; exact classifyOne_reads wr' (Nat.lt_of_lt_of_le hc he.length) a2 a3
  obtain ⟨h1, h2⟩ := key w wr (.refl w)
  obtain ⟨e1, e2⟩ := resStr_eq h1
  obtain ⟨objs, a1, a2, a3⟩ := sel w wr (.refl w)
  have single : ∀ x, L x → (∀ y, L y → y = x) → objs = [x] := by
    intro x hx hu
    match objs, a2, a3 with
    | [], _, a3 => exact absurd ((a3 _).2 hx) (by simp)
    | [a], _, a3 => rw [hu a ((a3 a).1 (by simp))]
    | a :: b :: t, a2, a3 =>
      exact absurd ((hu a ((a3 a).1 (by simp))).trans (hu b ((a3 b).1 (by simp))).symm) (by
        rw [List.nodup_cons] at a2; rintro rfl; exact a2.1 (by simp))
  refine ⟨fun h => e2 (h2.none h), fun v lg dt hx hu => ?_, fun x hr hx hu => ?_, fun x y hx hy hxy => e1 _ (h2.many x y hx hy hxy)⟩
  · have hgi : getItem o w g r (.name (py! "rdfs:label")) = (w, .ok (.one (.lit v lg dt))) := by
      unfold getItem
      rw [a1, single _ hx hu]; dsimp only
      rw [hn]; rfl
    unfold resStr
    rw [hgi]; dsimp only; rw [hgi]
  · have h3 := h2.node x hr hx hu
    rcases h3 with h3 | ⟨k, h3⟩
    · exact Or.inr (e1 _ h3)
    · unfold resStr
      rw [h3] at h1
      cases hz : getItem o w g r (.name (py! "rdfs:label")) with
      | mk w1 rr =>
      rw [hz] at h1; dsimp only at h1; subst h1
      dsimp only [Except.map]
      have hx1 : w1.Reach ∧ w.Ext w1 := by
        have hcs := classify_spec (o := o) wr g hc x
        unfold getItem at hz
        rw [a1, single _ hx hu] at hz; dsimp only at hz
        rw [hn] at hz
        have : classifyOne o w g r.c [x] = classify o w g r.c x := rfl
        rw [this] at hz
        simp only [Key.isAll, Bool.not_true, Bool.or_self, Bool.false_eq_true, if_false] at hz
        generalize classify o w g r.c x = z at hz hcs
        obtain ⟨w2, e | v⟩ := z
        · cases hz
        · dsimp only at hz; cases hz; exact ⟨hcs.1, hcs.2.1⟩
      obtain ⟨h4, h5⟩ := key w1 hx1.1 hx1.2
      rcases h5.node x hr hx hu with h6 | ⟨k', h6⟩
      · rw [h6] at h4
        generalize getItem o w1 g r (.name (py! "rdfs:label")) = z at h4 ⊢
        obtain ⟨w2, rr⟩ := z
        dsimp only at h4; subst h4
        exact Or.inr rfl
      · rw [h6] at h4
        generalize getItem o w1 g r (.name (py! "rdfs:label")) = z at h4 ⊢
        obtain ⟨w2, rr⟩ := z
        dsimp only at h4; subst h4
        exact Or.inl rfl

/-- What `str(r)` is, where the class of `r` has a language `l` and its `rdfs:label` is a scalar with IRI `p`. Of the labels of the preferred kind (in language
    `l`, else nodes, else typed, else plain): the subject if there is none, the text of the label if there is one literal, AttributeError
    or TypeError if it is one node, ValueError if there are several. -/
theorem C103_exact {o : Orders} (ho : o.OK) {w : World} (wr : w.Reach) {g : Graph} (hg : g.Reach) {r : Res}
    (hc : r.c < w.classes.length) (hs : r.s.truthy = true) {p : PStr} (hk : resolveKey w r.c (py! "rdfs:label") = .ok (some p)) (hp : p ≠ [])
    (hn : isScalar w r.c (some p) = true) {l : PStr} (hl : w.lang r.c = some l) (hne : l ≠ []) :
    let L := FirstOf (fun x => mkTriple r.s (.named p) x ∈ g.triples) (preference l)
    ((∀ x, ¬ L x) → (resStr o w g r).2 = .ok r.s.str) ∧
    (∀ v lg dt, L (.lit v lg dt) → (∀ y, L y → y = .lit v lg dt) → (resStr o w g r).2 = .ok v) ∧
    (∀ x, IsResource x → L x → (∀ y, L y → y = x) →
      (resStr o w g r).2 = .error .attributeError ∨ (resStr o w g r).2 = .error .typeError) ∧
    (∀ x y, L x → L y → x ≠ y → (resStr o w g r).2 = .error .valueError) := by
  exact resStr_shown wr hc hn fun w' _ he => scalar_selection (w := w') (o := o) ho hg hs (by rw [he.resolve hc]; exact hk) hp (by rw [he.isScalar hc]; exact hn)
    (by rw [he.lang wr.wf hc]; exact hl) hne

/-- The same in a class without a language: of all labels if the language is None, of the plain ones if it is the empty string. -/
theorem C103_no_language {o : Orders} (ho : o.OK) {w : World} (wr : w.Reach) {g : Graph} (hg : g.Reach) {r : Res}
    (hc : r.c < w.classes.length) (hs : r.s.truthy = true) {p : PStr} (hk : resolveKey w r.c (py! "rdfs:label") = .ok (some p)) (hp : p ≠ [])
    (hn : isScalar w r.c (some p) = true) {L : Term → Prop}
    (hl : (w.lang r.c = none ∧ L = fun x => mkTriple r.s (.named p) x ∈ g.triples) ∨
      (w.lang r.c = some [] ∧ L = fun x => mkTriple r.s (.named p) x ∈ g.triples ∧ Untagged x)) :
    ((∀ x, ¬ L x) → (resStr o w g r).2 = .ok r.s.str) ∧
    (∀ v lg dt, L (.lit v lg dt) → (∀ y, L y → y = .lit v lg dt) → (resStr o w g r).2 = .ok v) ∧
    (∀ x, IsResource x → L x → (∀ y, L y → y = x) →
      (resStr o w g r).2 = .error .attributeError ∨ (resStr o w g r).2 = .error .typeError) ∧
    (∀ x y, L x → L y → x ≠ y → (resStr o w g r).2 = .error .valueError) := by
  refine resStr_shown wr hc hn fun w' _ he => ?_
  obtain ⟨a1, a2⟩ := C83_scalar_no_language (o := o) (w := w') (g := g) ho hg hs (by rw [he.resolve hc]; exact hk) hp (by rw [he.isScalar hc]; exact hn)
  rcases hl with ⟨hl, rfl⟩ | ⟨hl, rfl⟩
  · exact a1 (by rw [he.lang wr.wf hc]; exact hl)
  · exact a2 (by rw [he.lang wr.wf hc]; exact hl)

/-- Where `rdfs:label` is not a scalar of the class (say, because its prefix `rdfs` is another namespace), `str(r)` raises AttributeError always, with and without labels. -/
theorem C103_not_scalar {o : Orders} (ho : o.OK) {w : World} {g : Graph} (hg : g.Reach) {r : Res} (hs : r.s.truthy = true) {p : PStr}
    (hk : resolveKey w r.c (py! "rdfs:label") = .ok (some p)) (hp : p ≠ []) (hn : isScalar w r.c (some p) = false) :
    (resStr o w g r).2 = .error .attributeError := by
  obtain ⟨objs, h1, _, _⟩ := C83_name_selection (w := w) ho hg hs hk hp hn
  have h := getItem_iter h1 (Or.inl hn)
  unfold resStr
  rw [h]; dsimp only; rw [h]

/-- Proved part of C103: `str(r)` gives a text whenever no label is a node and there are no two labels of one kind. The full claim is `C103_statement`. -/
theorem C103_text_partial {o : Orders} (ho : o.OK) {w : World} (wr : w.Reach) {g : Graph} (hg : g.Reach) {r : Res}
    (hc : r.c < w.classes.length) (hs : r.s.truthy = true) {p : PStr} (hk : resolveKey w r.c (py! "rdfs:label") = .ok (some p)) (hp : p ≠ [])
    (hn : isScalar w r.c (some p) = true) {l : PStr} (hl : w.lang r.c = some l) (hne : l ≠ [])
    (hlit : ∀ x, mkTriple r.s (.named p) x ∈ g.triples → ∃ v lg dt, x = .lit v lg dt)
    (huniq : ∀ P ∈ preference l, ∀ x y, mkTriple r.s (.named p) x ∈ g.triples → P x → mkTriple r.s (.named p) y ∈ g.triples → P y → x = y) :
    ∃ t, (resStr o w g r).2 = .ok t := by
  obtain ⟨h1, h2, _, _⟩ := C103_exact (o := o) ho wr hg hc hs hk hp hn hl hne
  have sub : ∀ (ks : List (Term → Prop)) x, FirstOf (fun x => mkTriple r.s (.named p) x ∈ g.triples) ks x → mkTriple r.s (.named p) x ∈ g.triples := by
    intro ks x
    induction ks with
    | nil => rw [FirstOf]; exact False.elim
    | cons P ks ih => rw [FirstOf]; rintro (h | h); exacts [h.1, ih h.2]
  have uni : ∀ (ks : List (Term → Prop)), (∀ P ∈ ks, P ∈ preference l) → ∀ x y,
      FirstOf (fun x => mkTriple r.s (.named p) x ∈ g.triples) ks x → FirstOf (fun x => mkTriple r.s (.named p) x ∈ g.triples) ks y → x = y := by
    intro ks
    induction ks with
    | nil => intro _ x y hx; exact absurd hx (by rw [FirstOf]; exact id)
    | cons P ks ih =>
      intro hP x y hx hy
      rw [FirstOf] at hx hy
      rcases hx with hx | hx <;> rcases hy with hy | hy
      · exact huniq P (hP P List.mem_cons_self) x y hx.1 hx.2 hy.1 hy.2
      · exact absurd ⟨x, hx⟩ hy.1
      · exact absurd ⟨y, hy⟩ hx.1
      · exact ih (fun Q hQ => hP Q (List.mem_cons_of_mem _ hQ)) x y hx.2 hy.2
  by_cases he : ∃ x, FirstOf (fun x => mkTriple r.s (.named p) x ∈ g.triples) (preference l) x
  · obtain ⟨x, hx⟩ := he
    obtain ⟨v, lg, dt, rfl⟩ := hlit x (sub _ x hx)
    exact ⟨v, h2 v lg dt hx fun y hy => uni _ (fun _ h => h) y _ hy hx⟩
  · exact ⟨_, h1 fun x hx => he ⟨x, hx⟩⟩

/-- The resource `http://x` in a graph with one triple. -/
def labelled (label : Term) : Graph := (Graph.new .none).add (mkTriple (.named (py! "http://x")) (.named (rdfsNs ++ py! "label")) label)

/-- Two English labels, and a label that is a node. -/
theorem C103_refuted : ¬ C103_statement := by
  intro h
  obtain ⟨t, ht⟩ := h {} .default World.new .new (labelled (.named (py! "http://y"))) ((Graph.Reach.new _).add _ _ _)
    ⟨0, .named (py! "http://x")⟩ (by decide) rfl
  rw [show (resStr {} World.new (labelled (.named (py! "http://y"))) ⟨0, .named (py! "http://x")⟩).2 = .error .attributeError by decide] at ht
  cases ht

theorem C103_two_labels :
    (resStr {} World.new ((labelled (.lit (py! "a") (some (py! "en")) none)).add
      (mkTriple (.named (py! "http://x")) (.named (rdfsNs ++ py! "label")) (.lit (py! "b") (some (py! "en")) none)))
      ⟨0, .named (py! "http://x")⟩).2 = .error .valueError := by decide

/-! ### The hypotheses can be met -/

/-- C101, C103: the class Resource resolves `rdfs:label`, which is a scalar, and has a language. -/
example : resolveKey World.new 0 (py! "rdfs:label") = .ok (some (rdfsNs ++ py! "label")) ∧
    isScalar World.new 0 (some (rdfsNs ++ py! "label")) = true ∧ World.new.lang 0 = some (py! "en") ∧
    isScalar World.new 0 (some (rdfsNs ++ py! "comment")) = false := by decide

/-- C101: the same key with and without None. -/
example :
    (getItem {} World.new sample ⟨0, .named (py! "http://x")⟩ (.pair (py! "rdfs:label") .none)).2 =
      .ok (.iter [.lit (py! "one") (some (py! "en")) none, .lit (py! "un") (some (py! "fr")) none]) ∧
    (getItem {} World.new sample ⟨0, .named (py! "http://x")⟩ (.name (py! "rdfs:label"))).2 =
      .ok (.one (.lit (py! "one") (some (py! "en")) none)) := by decide

/-- C102: `http://y` is referred to by `http://x`. -/
example :
    (objectOf {} World.new ((labelled (.named (py! "http://y")))) ⟨0, .named (py! "http://y")⟩ (some (py! "rdfs:label"))).2 =
      .ok [(.res 0 (.named (py! "http://x")), .named (rdfsNs ++ py! "label"))] := by decide

/-- C103: a label in English, one in French only. -/
example :
    (resStr {} World.new sample ⟨0, .named (py! "http://x")⟩).2 = .ok (py! "one") ∧
    (resStr {} World.new (labelled (.lit (py! "un") (some (py! "fr")) none)) ⟨0, .named (py! "http://x")⟩).2 = .ok (py! "http://x") := by decide

end Verif
