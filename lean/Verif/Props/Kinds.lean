import Verif.Model.Kinds
import Verif.Props.ResFilter

/-!
# C131: what has been assigned through a resource can be written

A name without a colon is looked up among the terms of `Resource.global_profile` (primitives.py:687-700), which gives back a plain `str`
where everything else gives a NamedNode. The triple that `resource[name] = value` then stores cannot be told from one with a NamedNode by
reading it, but the serializers fail on it.
-/

namespace Verif

open Spec Graph

namespace Spec

/-- Writing the triples `ts` as N-Triples does not come upon an object that has no text, in whatever order they are written. (It may still fail for other reasons:
    an IRI with a lone surrogate has no UTF-8 form.) -/
def HasText (kind : Stmt → Bool) (ts : List Stmt) : Prop := ∀ l, l.Perm ts → (serializeKind kind l).2 ≠ .error .attributeError

/-- A value that can be passed: the subject of a Resource is an IRI or a blank node. -/
def Passable : PyVal → Prop
  | .res _ s => IsResource s
  | _ => True

end Spec

theorem encodeNonAscii_noAttr (s : PStr) : encodeNonAscii s ≠ .error .attributeError := by
  induction s with
  | nil => simp [encodeNonAscii]
  | cons c cs ih =>
    unfold encodeNonAscii
    split
    · unfold percentEncode
      cases utf8Char c with
      | none => simp
      | some bs =>
        dsimp only
        cases h : encodeNonAscii cs with
        | ok v => simp [Except.map]
        | error e => simp only [Except.map]; intro h'; cases h'; exact ih h
    · cases h : encodeNonAscii cs with
      | ok v => simp [Except.map]
      | error e => simp only [Except.map]; intro h'; cases h'; exact ih h

theorem iriToNT_noAttr (s : PStr) : iriToNT s ≠ .error .attributeError := by
  unfold iriToNT quoteNormalizedIri
  cases h : encodeNonAscii s with
  | ok v => simp [Except.map]
  | error e => simp only [Except.map]; intro h'; cases h'; exact encodeNonAscii_noAttr s h

theorem resource_noAttr {t : Term} (h : IsResource t) : t.toNT ≠ .error .attributeError := by
  obtain ⟨i, rfl⟩ | ⟨i, rfl⟩ := h
  · exact iriToNT_noAttr i
  · simp [Term.toNT]

theorem literal_noAttr (v : PStr) (l d : Option PStr) : (Term.lit v l d).toNT ≠ .error .attributeError := by
  unfold Term.toNT literalToNT
  dsimp only
  split
  · simp
  · split
    · cases h : iriToNT _ with
      | ok v => simp [Except.map]
      | error e => simp only [Except.map]; intro h'; cases h'; exact iriToNT_noAttr _ h
    · simp

theorem serializeKind_noAttr {kind : Stmt → Bool} {ts : List Stmt} (h : ∀ t ∈ ts, tripleStrKind kind t ≠ .error .attributeError) :
    (serializeKind kind ts).2 ≠ .error .attributeError := by
  induction ts with
  | nil => simp [serializeKind]
  | cons t ts ih =>
    unfold serializeKind
    cases ht : tripleStrKind kind t with
    | error e => intro h'; cases h'; exact h t (by simp) ht
    | ok line => exact ih fun u hu => h u (by simp [hu])

theorem hasText_iff {kind : Stmt → Bool} {ts : List Stmt} : HasText kind ts ↔ ∀ t ∈ ts, tripleStrKind kind t ≠ .error .attributeError := by
  constructor
  · intro h t ht he
    obtain ⟨a, b, rfl⟩ := List.append_of_mem ht
    refine h (t :: (a ++ b)) List.perm_middle.symm ?_
    unfold serializeKind
    rw [he]
  · exact fun h l hl => serializeKind_noAttr fun t ht => h t (hl.mem_iff.1 ht)

theorem serializeKind_ok {kind : Stmt → Bool} {ts : List Stmt} (h : (serializeKind kind ts).2 = .ok ()) : ∀ t ∈ ts, kind t = true := by
  induction ts with
  | nil => simp
  | cons t ts ih =>
    unfold serializeKind at h
    cases ht : tripleStrKind kind t with
    | error e => rw [ht] at h; cases h
    | ok line =>
      rw [ht] at h
      intro u hu
      rcases List.mem_cons.1 hu with rfl | hu
      · cases hk : kind u with
        | true => rfl
        | false =>
          unfold tripleStrKind at ht
          rw [hk] at ht
          cases hs : u.s.toNT with
          | error e => rw [hs] at ht; cases ht
          | ok x => rw [hs] at ht; cases ht
      · exact ih h u hu

theorem addKinds_spec (s p : Term) (b : Bool) (g : Graph) (kind : Stmt → Bool) (xs : List Term) (t : Stmt) :
    addKinds s p b g kind xs t = if t ∉ g.triples ∧ ∃ x ∈ xs, t = mkTriple s p x then b else kind t := by
  induction xs generalizing g kind with
  | nil => simp [addKinds]
  | cons x xs ih =>
    unfold addKinds
    rw [ih]
    by_cases hx : t = mkTriple s p x
    · subst hx
      rw [if_neg fun h => h.1 ((mem_add ..).2 (.inl rfl))]
      unfold kindAdd
      by_cases hg : mkTriple s p x ∈ g.triples
      · rw [if_pos hg, if_neg fun h => h.1 hg]
      · simp [hg]
    · have h1 : kindAdd g kind (mkTriple s p x) b t = kind t := by
        unfold kindAdd
        split
        · rfl
        · simp [hx]
      rw [h1]
      congr 1
      simp [mem_add, hx]

/-- What a successful assignment does to the graph and to the kinds. -/
theorem setItemKinds_ok {o : Orders} {w w' : World} (nodes : PStr → Bool) {g g' : Graph} (kind : Stmt → Bool) {r : Res} {key : Key}
    {value : SetVal} (h : setItem o w g r key value = (w', g', .ok ())) :
    ∃ sel v objs, interpretKey w r key = .ok sel ∧ (literalize o w g sel.lang sel.dt value).2 = .ok v ∧
      (removalList o (literalize o w g sel.lang sel.dt value).1 g r key sel v).2 = .ok objs ∧
      (removeObjs r.s (predTerm sel.pred) g objs).2 = .ok () ∧
      g' = ((v.vals o).map Val.term).foldl (fun g x => g.add (mkTriple r.s (predTerm sel.pred) x))
        (removeObjs r.s (predTerm sel.pred) g objs).1 ∧
      setItemKinds o w nodes g kind r key value = addKinds r.s (predTerm sel.pred) (resolvesToNode w nodes r.c key.text)
        (removeObjs r.s (predTerm sel.pred) g objs).1 kind ((v.vals o).map Val.term) := by
  have hso := setItem_outcome o w g r key value
  rw [h] at hso
  generalize hq : (w', g', (Except.ok () : Except Exc Unit)) = q at hso
  cases hso with
  | key => cases hq
  | value => cases hq
  | check => cases hq
  | remove => cases hq
  | @ok sel v objs h1 h2 h3 h4 =>
    cases hq
    refine ⟨sel, v, objs, h1, h2, h3, h4, rfl, ?_⟩
    unfold setItemKinds
    rw [h1]
    dsimp only
    generalize literalize o w g sel.lang sel.dt value = q1 at h2 h3
    obtain ⟨w1, r1⟩ := q1
    dsimp only at h2 h3
    subst h2
    dsimp only
    unfold removalList at h3
    generalize (if key.isTuple = true then objectsForExplicitSet o w1 g r sel v
             else (w1, objectsForImplicitSet o w1 g r sel.pred v)) = q2 at h3
    obtain ⟨w2, r2⟩ := q2
    dsimp only at h3
    subst h3
    dsimp only
    generalize removeObjs r.s (predTerm sel.pred) g objs = q3 at h4
    obtain ⟨g3, r3⟩ := q3
    dsimp only at h4
    subst h4
    rfl

theorem mem_foldl_addObj (s p : Term) (xs : List Term) (g : Graph) (t : Stmt) :
    t ∈ (xs.foldl (fun g x => g.add (mkTriple s p x)) g).triples ↔ t ∈ g.triples ∨ ∃ x ∈ xs, t = mkTriple s p x := by
  induction xs generalizing g with
  | nil => simp
  | cons x xs ih => rw [List.foldl_cons, ih]; simp only [mem_add, List.mem_cons]; aesop

/-- C131 as a user would have it: if the triples of a graph have a text, they still do after `r[key] = value`. -/
def C131_statement : Prop :=
  ∀ {o : Orders}, o.OK → ∀ {w : World}, w.Reach → ∀ (nodes : PStr → Bool) {g : Graph}, g.Reach → ∀ (kind : Stmt → Bool) {r : Res},
    r.c < w.classes.length → IsResource r.s → ∀ {key : Key} {value : SetVal}, (∀ u ∈ values value, Passable u) →
    HasText kind g.triples → ∀ {p : PStr}, resolveKey w r.c key.text = .ok (some p) → ∀ {w' : World} {g' : Graph},
    setItem o w g r key value = (w', g', .ok ()) →
    HasText (setItemKinds o w nodes g kind r key value) g'.triples

/-- A global profile with one term, as `Resource.global_profile.setTerm("name", "http://x/name")` makes it. -/
def termWorld : World := { World.new with gTerms := { terms := [(py! "name", py! "http://x/name")] } }

/-- The code does not do that: a property named by a term of the global profile is stored as a plain string. -/
theorem C131_refuted : ¬ C131_statement := by
  intro h
  have hset : setItem {} termWorld Graph.new ⟨0, .named (py! "http://x")⟩ (.name (py! "name")) (.one (.str (py! "Al"))) =
      (termWorld, Graph.new.add (mkTriple (.named (py! "http://x")) (.named (py! "http://x/name")) (.lit (py! "Al") none none)), .ok ()) := by
    decide
  have := h Orders.OK.default (.profile _ _ .new) (fun _ => false) (.new _) (fun _ => true) (by decide) (.inl ⟨_, rfl⟩)
    (by simp [values, Passable]) (hasText_iff.2 (by simp [Graph.new])) (p := py! "http://x/name") (by decide) hset
  exact this _ (.refl _) (by decide)

/-- Whatever the key, if its name resolves to a NamedNode the triples still have a text. -/
theorem C131_node {o : Orders} (ho : o.OK) {w : World} (wr : w.Reach) (nodes : PStr → Bool) {g : Graph} (hg : g.Reach) (kind : Stmt → Bool)
    {r : Res} (hs : IsResource r.s) {key : Key} {value : SetVal} (hv : ∀ u ∈ values value, Passable u) (ht : HasText kind g.triples)
    {p : PStr} (hk : resolveKey w r.c key.text = .ok (some p)) (hnode : resolvesToNode w nodes r.c key.text = true) {w' : World} {g' : Graph}
    (hset : setItem o w g r key value = (w', g', .ok ())) : HasText (setItemKinds o w nodes g kind r key value) g'.triples := by
  rw [hasText_iff] at ht ⊢
  obtain ⟨sel, v, objs, h1, h2, h3, h4, rfl, h6⟩ := setItemKinds_ok nodes kind hset
  have hsel : sel.pred = some p := by
    have := interpretKey_pred h1
    rw [hk] at this
    exact (Except.ok.inj this).symm
  have hfr := removeObjs_frame hg r.s (predTerm sel.pred) objs
  intro t htm
  rw [h6, hnode]
  unfold tripleStrKind
  rw [addKinds_spec]
  rw [mem_foldl_addObj] at htm
  by_cases hin : t ∈ (removeObjs r.s (predTerm sel.pred) g objs).1.triples
  · rw [if_neg fun h => h.1 hin]
    exact ht t (hfr.2.1 t hin)
  · obtain ⟨x, hx, rfl⟩ := htm.resolve_left hin
    rw [if_pos ⟨hin, x, hx, rfl⟩]
    obtain ⟨u, hu, hux⟩ := (((literalize_spec ho wr g sel.lang sel.dt value).2.2.1 v h2).2.1 x).1 hx
    have hxo : x.toNT ≠ .error .attributeError := by
      have := hv u hu
      cases u with
      | iri i => cases hux; exact iriToNT_noAttr i
      | bnode i => cases hux; simp [Term.toNT]
      | lit a b c => cases hux; exact literal_noAttr _ _ _
      | res c s => cases hux; exact resource_noAttr this
      | str a => cases hux; exact literal_noAttr _ _ _
      | other a =>
        cases a with
        | str a => cases hux; exact literal_noAttr _ _ _
        | int a => cases hux; exact literal_noAttr _ _ _
        | datetime a => cases hux; exact literal_noAttr _ _ _
        | other => cases hux
    have hso := resource_noAttr hs
    have hpo : (predTerm sel.pred).toNT ≠ .error .attributeError := by rw [hsel]; exact iriToNT_noAttr p
    simp only [mkTriple, if_true]
    cases ha : r.s.toNT with
    | error e => intro h; cases h; exact hso ha
    | ok a =>
      cases hb : (predTerm sel.pred).toNT with
      | error e => intro h; cases h; exact hpo hb
      | ok b =>
        cases hc : x.toNT with
        | error e => intro h; cases h; exact hxo hc
        | ok c => intro h; cases h

/-- Which names resolve to NamedNodes: those with a colon, those the prefixes of the class make something of, and the terms of the global
    profile that were stored as NamedNodes; a term below the default vocabulary does not. -/
theorem C131_which (w : World) (nodes : PStr → Bool) (c : Nat) (k : PStr) :
    resolvesToNode w nodes c k = true ↔
      58 ∈ k ∨ (∃ x, PrefixMap.resolve (w.cls c).prefixes k = .ok x) ∨ ((∃ x, w.gTerms.terms.get? k = some x) ∧ nodes k = true) := by
  unfold resolvesToNode
  cases h : PrefixMap.resolve (w.cls c).prefixes k with
  | ok x => simp
  | error e =>
    by_cases hk : 58 ∈ k
    · simp [hk]
    · simp [hk, Option.isSome_iff_exists]

/-- Partial C131: names with a colon. Missing: names that are terms of the global profile, for which it is false (`C131_exact`). -/
theorem C131_colon_partial {o : Orders} (ho : o.OK) {w : World} (wr : w.Reach) (nodes : PStr → Bool) {g : Graph} (hg : g.Reach)
    (kind : Stmt → Bool) {r : Res} (hs : IsResource r.s) {key : Key} {value : SetVal} (hv : ∀ u ∈ values value, Passable u)
    (ht : HasText kind g.triples) (hcol : 58 ∈ key.text) {w' : World} {g' : Graph}
    (hset : setItem o w g r key value = (w', g', .ok ())) : HasText (setItemKinds o w nodes g kind r key value) g'.triples := by
  have hnode := (C131_which w nodes r.c key.text).2 (.inl hcol)
  obtain ⟨sel, v, objs, h1, -⟩ := setItemKinds_ok nodes kind hset
  have hk := interpretKey_pred h1
  cases hp : sel.pred with
  | some p => rw [hp] at hk; exact C131_node ho wr nodes hg kind hs hv ht hk hnode hset
  | none =>
    rw [hp] at hk
    unfold resolveKey at hk
    split at hk
    · cases hk
    · rw [if_pos (by simpa using hcol)] at hk
      cases hq : w.gPrefixes.resolve key.text <;> rw [hq] at hk <;> cases hk
    · cases hk

/-- What happens, exactly, where the name is not that of a scalar property and something is assigned: if the name resolves to a NamedNode
    the triples still have a text, else every attempt to write the graph fails, whatever the values and the other triples are. -/
theorem C131_exact {o : Orders} (ho : o.OK) {w : World} (wr : w.Reach) (nodes : PStr → Bool) {g : Graph} (hg : g.Reach) (kind : Stmt → Bool)
    {r : Res} (hs : IsResource r.s) (hst : r.s.truthy = true) (hc : r.c < w.classes.length) {k p : PStr}
    (hk : resolveKey w r.c k = .ok (some p)) (hp : p ≠ [])
    (hn : isScalar w r.c (some p) = false) {value : SetVal} (hv : ∀ u ∈ values value, Passable u) (hne : values value ≠ [])
    (ht : HasText kind g.triples) {w' : World} {g' : Graph} (hset : setItem o w g r (.name k) value = (w', g', .ok ())) :
    (resolvesToNode w nodes r.c k = true → HasText (setItemKinds o w nodes g kind r (.name k) value) g'.triples) ∧
    (resolvesToNode w nodes r.c k = false → ∀ l, l.Perm g'.triples →
      (serializeKind (setItemKinds o w nodes g kind r (.name k) value) l).2 ≠ .ok ()) := by
  refine ⟨fun h => C131_node (key := .name k) ho wr nodes hg kind hs hv ht hk h hset, fun hf l hl hok => ?_⟩
  obtain ⟨sel, v, objs, h1, h2, h3, h4, rfl, h6⟩ := setItemKinds_ok nodes kind hset
  rw [interpretKey_nonscalar hk hn] at h1
  cases h1
  have hp' := predTerm_truthy hp
  have hlit := literalize_spec ho wr g none none value
  have hobjs : objs = objectsOf o g r.s (predTerm (some p)) := by
    unfold removalList at h3
    rw [if_neg (by simp [Key.isTuple])] at h3
    unfold objectsForImplicitSet at h3
    simp only [hlit.2.1.isScalar hc, hn] at h3
    cases h3; rfl
  subst hobjs
  obtain ⟨u, hu⟩ := List.exists_mem_of_ne_nil _ hne
  obtain ⟨hsome, hmem, -⟩ := hlit.2.2.1 v h2
  obtain ⟨x, hx⟩ := Option.isSome_iff_exists.1 (hsome u hu)
  have hxv := (hmem x).2 ⟨u, hu, hx⟩
  have hgone : mkTriple r.s (predTerm (some p)) x ∉ (removeObjs r.s (predTerm (some p)) g (objectsOf o g r.s (predTerm (some p)))).1.triples := by
    intro hin
    have := (removeObjs_ok hg r.s (predTerm (some p)) _ (nodup_objectsOf ho hg hst hp')
      (fun y hy => (mem_objectsOf ho hg hst hp' y).1 hy)).2 (mkTriple r.s (predTerm (some p)) x)
    obtain ⟨h7, h8⟩ := this.1 hin
    exact h8 x ((mem_objectsOf ho hg hst hp' x).2 h7) rfl
  have hkind := serializeKind_ok hok (mkTriple r.s (predTerm (some p)) x)
    (hl.mem_iff.2 ((mem_foldl_addObj ..).2 (.inr ⟨x, hxv, rfl⟩)))
  rw [h6, addKinds_spec, if_pos ⟨hgone, x, hxv, rfl⟩] at hkind
  exact absurd (hf.symm.trans hkind) (by simp)

/-- Where all predicates are NamedNodes, writing is what `serialize_ntriples` does. -/
theorem serializeKind_all (ts : List Stmt) : serializeKind (fun _ => true) ts = serializeNTriples ts := by
  induction ts with
  | nil => rfl
  | cons t ts ih => unfold serializeKind serializeNTriples; rw [ih]; rfl

/-- The hypotheses of `C131_exact` are met with both outcomes: a term that is stored as a NamedNode, and the same term stored as a string. -/
example : resolveKey termWorld 0 (py! "name") = .ok (some (py! "http://x/name")) ∧
    isScalar termWorld 0 (some (py! "http://x/name")) = false ∧
    resolvesToNode termWorld (fun _ => true) 0 (py! "name") = true ∧ resolvesToNode termWorld (fun _ => false) 0 (py! "name") = false ∧
    (setItem {} termWorld Graph.new ⟨0, .named (py! "http://x")⟩ (.name (py! "name")) (.one (.str (py! "Al")))).2.2 = .ok () := by decide

/-- A default vocabulary gives plain strings too; a CURIE gives a NamedNode. -/
example : resolvesToNode { World.new with gTerms := { default := some (py! "http://x/") } } (fun _ => true) 0 (py! "name") = false ∧
    resolvesToNode World.new (fun _ => false) 0 (py! "rdfs:label") = true := by decide

end Verif
