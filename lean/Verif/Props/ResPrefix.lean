import Verif.Props.BuiltIn
import Verif.Props.Skos
import Verif.Props.SaveLoad
import Verif.Props.TurtleDoc
/-
C151: prefixes given to a class after its creation. C152: the language of a class set later. C153: the steps of the README's Quick Start.
-/
namespace Verif
open Spec

/-! ### C151 -/

/-- The claim: after `C.prefixes[p] = Prefix(ns)`, `C` and those of its subclasses that have no prefix `p` take `p:r` for `ns` followed by `r`. -/
def C151_statement : Prop :=
  ∀ w : World, w.Reach → ∀ c < w.classes.length, ∀ p ns : PStr, 58 ∉ p → p.head? ≠ some 91 → p ∉ Spec.uriSchemes →
    ∀ d < w.classes.length, d = c ∨ (w.isSub d c = true ∧ (w.cls d).prefixes.get? p = none) →
      ∀ r ≠ [], resolveKey (w.setPrefix c p ns) d (p ++ 58 :: r) = .ok (some (ns ++ r))

/-- It reaches no other class, subclasses included: all their names mean what they meant. -/
theorem C151_others (w : World) {c d : Nat} (h : d ≠ c) (p ns key : PStr) : resolveKey (w.setPrefix c p ns) d key = resolveKey w d key := by
  unfold resolveKey
  rw [cls_setPrefix, if_neg (fun h' => h h'.1)]
  rfl

/-- The class itself: `p:r` is `ns` followed by `r`. -/
theorem C151_class (w : World) {c : Nat} (hc : c < w.classes.length) {p r : PStr} (ns : PStr) (hp : 58 ∉ p) (hbr : p.head? ≠ some 91)
    (hs : p ∉ Spec.uriSchemes) (hr : r ≠ []) : resolveKey (w.setPrefix c p ns) c (p ++ 58 :: r) = .ok (some (ns ++ r)) := by
  refine resolve_prefix hp hbr hs hr ?_
  rw [cls_setPrefix, if_pos ⟨rfl, hc⟩]
  show Dict.get? (Dict.set _ p ns) p = _
  rw [Dict.get?_set, if_pos rfl]

theorem parseCurie_congr {key q r : PStr} {b : Bool} {body : PStr} (hb : CurieText key b body) (hs : SplitsAt 58 body q r) {d d' : Dict PStr PStr}
    (h0 : Dict.get? d [] = Dict.get? d' []) (h1 : Dict.get? d q = Dict.get? d' q) : parseCurie key d = parseCurie key d' := by
  by_cases hne : key = []
  · subst hne; rfl
  have r1 := C29_rules_partial key hne d hb hs
  have r2 := C29_rules_partial key hne d' hb hs
  by_cases hsch : b = false ∧ q ∈ Spec.uriSchemes
  · rw [r1.1 hsch, r2.1 hsch]
  have r1 := r1.2 hsch
  have r2 := r2.2 hsch
  by_cases hd : r = [] ∧ (Dict.get? d []).isSome
  · obtain ⟨n, hn⟩ := Option.isSome_iff_exists.1 hd.2
    rw [r1.1 n hd.1 hn, r2.1 n hd.1 (h0 ▸ hn)]
  · have r1 := r1.2 hd
    have r2 := r2.2 (h0 ▸ hd)
    cases hq : Dict.get? d q with
    | none => rw [r1.2 hq, r2.2 (h1 ▸ hq)]
    | some n => rw [r1.1 n hq, r2.1 n (h1 ▸ hq)]

/-- Its names with other prefixes mean what they meant. -/
theorem C151_other_names (w : World) (c : Nat) {p q r key body : PStr} {b : Bool} (ns : PStr) (hp : p ≠ []) (hq : q ≠ p) (hb : CurieText key b body)
    (hs : SplitsAt 58 body q r) : resolveKey (w.setPrefix c p ns) c key = resolveKey w c key := by
  have hg : ∀ x, x ≠ p → Dict.get? ((w.setPrefix c p ns).cls c).prefixes x = Dict.get? (w.cls c).prefixes x := by
    intro x hx
    rw [cls_setPrefix]
    split
    · show Dict.get? (Dict.set _ p ns) x = _
      rw [Dict.get?_set, if_neg (Ne.symm hx)]
    · rfl
  unfold resolveKey PrefixMap.resolve
  rw [parseCurie_congr hb hs (hg [] (Ne.symm hp)) (hg q hq)]
  rfl

/-- **C151, proved part**: the class itself, and the classes defined from it afterwards that do not say otherwise. Missing: the subclasses that exist
    already. -/
theorem C151_partial {w : World} (wr : w.Reach) {c : Nat} (hc : c < w.classes.length) {p : PStr} (ns : PStr) (hp : 58 ∉ p) (hbr : p.head? ≠ some 91)
    (hs : p ∉ Spec.uriSchemes) :
    (w.setPrefix c p ns).Reach ∧
    (∀ r, r ≠ [] → resolveKey (w.setPrefix c p ns) c (p ++ 58 :: r) = .ok (some (ns ++ r))) ∧
    ∀ (name : PStr) (before after : List Nat) (own : Own) (w' : World) (k : Nat), (∀ b ∈ before ++ c :: after, b < w.classes.length) →
      Dict.WF own.prefixes → own.prefixes.get? p = none → c ∉ after → (∀ b ∈ after, (w.cls b).prefixes.get? p = none) →
      newClass (w.setPrefix c p ns) name (before ++ c :: after) own = .ok (w', k) →
      ∀ r, r ≠ [] → resolveKey w' k (p ++ 58 :: r) = .ok (some (ns ++ r)) := by
  have wr' := World.Reach.setPrefix c p ns wr
  refine ⟨wr', fun r hr => C151_class w hc ns hp hbr hs hr, fun name before after own w' k hb hown hno hnot hno' h r hr => ?_⟩
  refine C57_names wr' (fun b h => by rw [length_setPrefix]; exact hb b h) hown h hp hbr hs hr ?_
  have h1 : (after.reverse.findSome? fun b => Dict.get? ((w.setPrefix c p ns).cls b).prefixes p) = none := by
    rw [List.findSome?_eq_none_iff]
    intro b hb'
    have hb' := List.mem_reverse.1 hb'
    rw [cls_setPrefix, if_neg]
    · exact hno' b hb'
    · rintro ⟨rfl, -⟩; exact hnot hb'
  have h2 : Dict.get? ((w.setPrefix c p ns).cls c).prefixes p = some ns := by
    rw [cls_setPrefix, if_pos ⟨rfl, hc⟩]
    show Dict.get? (Dict.set _ p ns) p = _
    rw [Dict.get?_set, if_pos rfl]
  rw [hno, List.reverse_append, List.reverse_cons, List.findSome?_append, List.findSome?_append, h1]
  simp [h2]

/-- `List` exists when the Quick Start adds its prefix to `Resource`, and does not get it. -/
theorem C151_refuted : ¬ C151_statement := by
  intro h
  have := h World.new .new 0 (by decide) (py! "foaf") (py! "http://xmlns.com/foaf/0.1/") (by decide) (by decide) (by decide) 1 (by decide)
    (.inr ⟨by decide, by decide⟩) (py! "name") (by decide)
  revert this
  decide

/-- The Quick Start's prefix, the class itself and a class defined later. -/
example :
    let w := World.new.setPrefix 0 (py! "foaf") (py! "http://xmlns.com/foaf/0.1/")
    resolveKey w 0 (py! "foaf:name") = .ok (some (py! "http://xmlns.com/foaf/0.1/name")) ∧
    resolveKey w 1 (py! "foaf:name") = .error .valueError ∧
    ∃ w', newClass w (py! "Person") [0] {} = .ok (w', 2) ∧ resolveKey w' 2 (py! "foaf:name") = .ok (some (py! "http://xmlns.com/foaf/0.1/name")) :=
  ⟨by decide, by decide, _, rfl, by decide⟩

/-! ### C152 -/

theorem findSome_setLang (w : World) (c : Nat) (l : Option PStr) (ks : List Nat) (hk : ∀ k ∈ ks, k < w.classes.length) :
    (ks.findSome? fun k => ((w.setLang c l).cls k).lang) =
      if c ∈ ks ∧ ∀ k ∈ ks.takeWhile (· ≠ c), (w.cls k).lang = none then some l else ks.findSome? fun k => (w.cls k).lang := by
  induction ks with
  | nil => simp
  | cons k ks ih =>
    have ih := ih fun k h => hk k (List.mem_cons_of_mem _ h)
    rw [List.findSome?_cons, List.findSome?_cons, cls_setLang]
    by_cases hkc : k = c
    · subst hkc
      rw [if_pos ⟨rfl, hk k List.mem_cons_self⟩]
      simp
    · rw [if_neg (fun h => hkc h.1)]
      cases hl : (w.cls k).lang with
      | some x =>
        rw [if_neg]
        rintro ⟨-, h⟩
        have := h k (by rw [List.takeWhile_cons_of_pos (by simpa using hkc)]; exact List.mem_cons_self)
        rw [hl] at this; cases this
      | none =>
        dsimp only
        rw [ih]
        have e : (c ∈ k :: ks ∧ ∀ x ∈ (k :: ks).takeWhile (· ≠ c), (w.cls x).lang = none) ↔
            (c ∈ ks ∧ ∀ x ∈ ks.takeWhile (· ≠ c), (w.cls x).lang = none) := by
          rw [List.takeWhile_cons_of_pos (by simpa using hkc)]
          constructor
          · rintro ⟨h1, h2⟩
            exact ⟨(List.mem_cons.1 h1).resolve_left (Ne.symm hkc), fun x hx => h2 x (List.mem_cons_of_mem _ hx)⟩
          · rintro ⟨h1, h2⟩
            refine ⟨List.mem_cons_of_mem _ h1, fun x hx => ?_⟩
            rcases List.mem_cons.1 hx with rfl | hx
            · exact hl
            · exact h2 x hx
        by_cases hc : c ∈ ks ∧ ∀ x ∈ ks.takeWhile (· ≠ c), (w.cls x).lang = none
        · rw [if_pos hc, if_pos (e.2 hc)]
        · rw [if_neg hc, if_neg (fun h => hc (e.1 h))]

/-- **C152**: after `C.lang = l` the language of a class is `l` if it is `C`, or derives from it and neither the class nor an ancestor that comes before `C` has
    a language of its own; the language of every other class is what it was. -/
theorem C152_exact {w : World} (wr : w.Reach) (c : Nat) (l : Option PStr) {d : Nat} (hd : d < w.classes.length) :
    (w.setLang c l).Reach ∧ (w.setLang c l).lang d =
      if w.isSub d c = true ∧ ∀ k ∈ (w.cls d).mro.takeWhile (· ≠ c), (w.cls k).lang = none then l else w.lang d := by
  refine ⟨.setLang c l wr, ?_⟩
  unfold World.lang World.lookup
  have hm : ((w.setLang c l).cls d).mro = (w.cls d).mro := by rw [cls_setLang]; split <;> rfl
  rw [hm, findSome_setLang w c l _ (wr.wf.cls d hd).bound]
  unfold World.isSub
  simp only [List.contains_iff_mem]
  split <;> rfl

/-- In particular the class itself. -/
theorem C152_class {w : World} (wr : w.Reach) {c : Nat} (l : Option PStr) (hc : c < w.classes.length) : (w.setLang c l).lang c = l := by
  rw [(C152_exact wr c l hc).2, if_pos]
  obtain ⟨m, hm⟩ : ∃ m, (w.cls c).mro = c :: m := by
    have := (wr.wf.cls c hc).self
    cases h : (w.cls c).mro with
    | nil => rw [h] at this; cases this
    | cons a m => rw [h] at this; cases this; exact ⟨m, rfl⟩
  unfold World.isSub
  rw [hm]
  simp

/-- What is read: a scalar predicate now prefers that language. -/
theorem C152_read {o : Orders} (ho : o.OK) {w : World} (wr : w.Reach) {g : Graph} (hg : g.Reach) {r : Res} (hc : r.c < w.classes.length) (c : Nat)
    {l : PStr} (hl : l ≠ []) (hs : r.s.truthy = true) {k p : PStr} (hk : resolveKey w r.c k = .ok (some p)) (hp : p ≠ [])
    (hsc : isScalar w r.c (some p) = true) (hsub : w.isSub r.c c = true) (hown : ∀ k ∈ (w.cls r.c).mro.takeWhile (· ≠ c), (w.cls k).lang = none) :
    ReadsOne (FirstOf (fun x => mkTriple r.s (.named p) x ∈ g.triples) (preference l)) (getScalar o (w.setLang c (some l)) g r (.name k)).2 := by
  obtain ⟨wr', h1⟩ := C152_exact wr c (some l) hc
  rw [if_pos ⟨hsub, hown⟩] at h1
  have hk' : resolveKey (w.setLang c (some l)) r.c k = .ok (some p) := by
    have e : ((w.setLang c (some l)).cls r.c).prefixes = (w.cls r.c).prefixes := by rw [cls_setLang]; split <;> rfl
    rw [← hk]
    unfold resolveKey
    rw [e]
    rfl
  have hsc' : isScalar (w.setLang c (some l)) r.c (some p) = true := by
    have e : ((w.setLang c (some l)).cls r.c).scalars = (w.cls r.c).scalars := by rw [cls_setLang]; split <;> rfl
    rw [← hsc]
    unfold isScalar
    rw [e]
  exact ((C101_name ho wr' hg (by rw [length_setLang]; exact hc) hs hk' hp).2 hsc' l h1 hl).2

/-- German labels, read through a class without a language of its own that existed before. -/
example :
    let w := World.new.setLang 0 (some (py! "de"))
    let g := (Graph.new .none).addAll [mkTriple (.named (py! "http://x")) (.named (rdfsNs ++ py! "label")) (.lit (py! "house") (some (py! "en")) none),
      mkTriple (.named (py! "http://x")) (.named (rdfsNs ++ py! "label")) (.lit (py! "Haus") (some (py! "de")) none)]
    (getScalar {} w g ⟨1, .named (py! "http://x")⟩ (.name (py! "rdfs:label"))).2 = .ok (.lit (py! "Haus") (some (py! "de")) none) ∧
    (getScalar {} World.new g ⟨1, .named (py! "http://x")⟩ (.name (py! "rdfs:label"))).2 = .ok (.lit (py! "house") (some (py! "en")) none) := by
  decide

/-! ### C153: the Quick Start -/

theorem readme_names {w : World} (wr : w.Reach) {p ns n : PStr} (hp : 58 ∉ p) (hbr : p.head? ≠ some 91) (hs : p ∉ Spec.uriSchemes) (hn : n ≠ [])
    (hl : ns ++ n ≠ rdfsNs ++ py! "label") :
    resolveKey (w.setPrefix 0 p ns) 0 (p ++ 58 :: n) = .ok (some (ns ++ n)) ∧ isScalar (w.setPrefix 0 p ns) 0 (some (ns ++ n)) = false := by
  refine ⟨C151_class w (by have := wr.wf.two; omega) ns hp hbr hs hn, ?_⟩
  show ((w.setPrefix 0 p ns).cls 0).scalars.contains (ns ++ n) = false
  rw [(resource_fixed (.setPrefix 0 p ns wr)).1]
  simp [resourceCls, hl]

/-- With any graph: after `Resource.prefixes[p] = Prefix(ns)`, `get_scalar("p:n")` of a Resource reads the value of `ns n`, `resource["p:k"]` yields the values of
    `ns k`, and if these are nodes without registered types, they are plain Resources, of which the same holds. -/
theorem C153_graph {o : Orders} (ho : o.OK) {w : World} (wr : w.Reach) {g : Graph} (hg : g.Reach) {p ns n k : PStr} (hp : 58 ∉ p) (hbr : p.head? ≠ some 91)
    (hs : p ∉ Spec.uriSchemes) (hn : n ≠ []) (hk : k ≠ []) (hnl : ns ++ n ≠ rdfsNs ++ py! "label") (hkl : ns ++ k ≠ rdfsNs ++ py! "label") {ty : Term}
    (hty : rdfType (w.setPrefix 0 p ns) 0 = .ok ty) (hreg : ∀ x t, mkTriple x ty t ∈ g.triples → w.byType.get? t = none) {s : Term} (hst : s.truthy = true) :
    ReadsOne (fun x => mkTriple s (.named (ns ++ n)) x ∈ g.triples) (getScalar o (w.setPrefix 0 p ns) g ⟨0, s⟩ (.name (p ++ 58 :: n))).2 ∧
    ∃ objs, getItem o (w.setPrefix 0 p ns) g ⟨0, s⟩ (.name (p ++ 58 :: k)) = (w.setPrefix 0 p ns, .ok (.iter objs)) ∧ objs.Nodup ∧
      (∀ x, x ∈ objs ↔ mkTriple s (.named (ns ++ k)) x ∈ g.triples) ∧
      ((∀ x ∈ objs, IsResource x ∧ x.truthy = true) →
        collect o g 0 (w.setPrefix 0 p ns) objs = (w.setPrefix 0 p ns, .ok (objs.map (.res 0))) ∧
        ∀ x ∈ objs, ReadsOne (fun y => mkTriple x (.named (ns ++ n)) y ∈ g.triples)
          (getScalar o (w.setPrefix 0 p ns) g ⟨0, x⟩ (.name (p ++ 58 :: n))).2) := by
  have wr' := World.Reach.setPrefix 0 p ns wr
  have h0 : 0 < (w.setPrefix 0 p ns).classes.length := by have := wr'.wf.two; omega
  obtain ⟨n1, n2⟩ := readme_names wr (ns := ns) hp hbr hs hn hnl
  obtain ⟨k1, k2⟩ := readme_names wr (ns := ns) hp hbr hs hk hkl
  have ne : ∀ {a : PStr}, a ≠ [] → ns ++ a ≠ [] := fun h e => h (List.append_eq_nil_iff.1 e).2
  have name : ∀ {x : Term}, x.truthy = true → ReadsOne (fun y => mkTriple x (.named (ns ++ n)) y ∈ g.triples)
      (getScalar o (w.setPrefix 0 p ns) g ⟨0, x⟩ (.name (p ++ 58 :: n))).2 := fun hx =>
    ((C101_name ho wr' hg (r := ⟨0, _⟩) h0 hx n1 (ne hn)).1 n2).2
  refine ⟨name hst, ?_⟩
  obtain ⟨objs, h1, h2, h3⟩ := ((C101_name ho wr' hg (r := ⟨0, s⟩) h0 hst k1 (ne hk)).1 k2).1
  refine ⟨objs, h1, h2, h3, fun hall => ⟨?_, fun x hx => name (hall x hx).2⟩⟩
  clear h1 h2 h3
  induction objs with
  | nil => rfl
  | cons x xs ih =>
    have hx := hall x List.mem_cons_self
    unfold collect
    rw [C53_unregistered ho wr' hg h0 hx.1 hx.2 hty fun t ht => hreg x t ht]
    dsimp only
    rw [ih fun y hy => hall y (List.mem_cons_of_mem _ hy)]
    rfl

open Turtle Turtle.Spec in
/-- The triples of a graph read from a document, by those that the recommendation gives it. -/
theorem mem_isomorphic {ts ts' : List Stmt} {ρ : Nat → Nat → Prop} (hρ : OneToOne ρ) {ts'' : List Stmt} (hperm : ts''.Perm ts')
    (hcorr : List.Forall₂ (StmtCorr ρ) ts ts'') (hg : ∀ t ∈ ts, t.g = none) {s s' : Term} (hs : TermCorr ρ s s') (i : PStr) (x' : Term) :
    mkTriple s' (.named i) x' ∈ ts' ↔ ∃ x, TermCorr ρ x x' ∧ mkTriple s (.named i) x ∈ ts := by
  rw [← hperm.mem_iff]
  clear hperm
  induction hcorr with
  | nil => simp
  | @cons a b l l' hab _ ih =>
    have ih := ih fun t ht => hg t (List.mem_cons_of_mem _ ht)
    rw [List.mem_cons, ih]
    constructor
    · rintro (e | ⟨x, h1, h2⟩)
      · subst e
        obtain ⟨as, ap, ao, ag⟩ := a
        have h1 : TermCorr ρ as s' := hab.s
        have h2 : TermCorr ρ ap (.named i) := hab.p
        have h3 : TermCorr ρ ao x' := hab.o
        have h4 : ag = none := hab.g
        have e1 : as = s := by
          cases hs with
          | named j => cases h1; rfl
          | lit v l d => cases h1; rfl
          | bnode h => cases h1 with | bnode h' => rw [hρ.2 _ _ _ h h']
        cases h2
        subst e1 h4
        exact ⟨ao, h3, List.mem_cons_self⟩
      · exact ⟨x, h1, List.mem_cons_of_mem _ h2⟩
    · rintro ⟨x, h1, h2⟩
      rcases List.mem_cons.1 h2 with e | h2
      · subst e
        left
        obtain ⟨bs, bp, bo, bg⟩ := b
        have k1 : TermCorr ρ s bs := hab.s
        have k2 : TermCorr ρ (.named i) bp := hab.p
        have k3 : TermCorr ρ x bo := hab.o
        have k4 : none = bg := hab.g
        have fn : ∀ {t a b : Term}, TermCorr ρ t a → TermCorr ρ t b → a = b := by
          intro t a b h h'
          cases h with
          | named j => cases h'; rfl
          | lit v l d => cases h'; rfl
          | bnode h => cases h' with | bnode h' => rw [hρ.1 _ _ _ h h']
        cases k2
        rw [fn hs k1, fn h1 k3, ← k4]
        rfl
      · exact .inr ⟨x, h1, h2⟩

open Turtle Turtle.Spec in
/-- What the Quick Start expects of a document with the triples `ts`: it is read, and, after `Resource.prefixes[p] = Prefix(ns)`, for every node of the document
    `Resource(graph, node).get_scalar("p:n")` reads the document's value of `ns n` for the node, and `Resource(graph, node)["p:k"]` yields its values of `ns k`.
    Blank nodes correspond by `ρ`. (`Resource(graph, s)` with an IRI as a str or a NamedNode has the subject `.named s`, rdf.py:119-123.) -/
def QuickStart (nl : PStr → Bool) (base text : PStr) (next : Nat) (ts : List Stmt) (o : Orders) (w : World) (p ns n k : PStr) : Prop :=
  ∃ (g : Graph) (next' : Nat) (ρ : Nat → Nat → Prop), Turtle.parse Graph.add nl base next Graph.new (.str text) = (g, next', .ok ()) ∧ OneToOne ρ ∧
    ∀ s s', TermCorr ρ s s' → s'.truthy = true →
      ReadsOne (fun x' => ∃ x, TermCorr ρ x x' ∧ mkTriple s (.named (ns ++ n)) x ∈ ts)
        (getScalar o (w.setPrefix 0 p ns) g ⟨0, s'⟩ (.name (p ++ 58 :: n))).2 ∧
      ∃ objs, getItem o (w.setPrefix 0 p ns) g ⟨0, s'⟩ (.name (p ++ 58 :: k)) = (w.setPrefix 0 p ns, .ok (.iter objs)) ∧ objs.Nodup ∧
        ∀ x', x' ∈ objs ↔ ∃ x, TermCorr ρ x x' ∧ mkTriple s (.named (ns ++ k)) x ∈ ts

/-- The names that can be used: the prefix has no colon and no leading bracket and is not that of a URI scheme, and rdfs:label is not meant. -/
structure ReadmeNames (p ns n k : PStr) : Prop where
  colon : 58 ∉ p
  bracket : p.head? ≠ some 91
  scheme : p ∉ Spec.uriSchemes
  name : n ≠ []
  key : k ≠ []
  nl : ns ++ n ≠ rdfsNs ++ py! "label"
  kl : ns ++ k ≠ rdfsNs ++ py! "label"

open Turtle Turtle.Spec in
/-- The claim: this is so for every Turtle document. -/
def C153_statement : Prop :=
  ∀ (nl : PStr → Bool), (∀ a, nl a = true) → ∀ (base text : PStr) (next : Nat) (ds : List PTStmt) (ts : List Stmt), Plainly w3c (docToks ds) text →
    HasTriples w3cReading ⟨base, fun _ => none⟩ ds ts → ∀ (o : Orders), o.OK → ∀ w : World, w.Reach → ∀ p ns n k, ReadmeNames p ns n k →
    QuickStart nl base text next ts o w p ns n k

open Turtle Turtle.Spec in
/-- **C153, proved part**: so it is for the documents of `C125_partial`. Missing: the documents that are not read as the recommendation says. -/
theorem C153_partial {nl : PStr → Bool} (hnl : nl [] = true) {base text : PStr} (next : Nat) {ds : List PTStmt} {ts : List Stmt}
    (hw : Plainly w3c (docToks ds) text) (hc : CrLf text) (hpl : ∀ d ∈ ds, d.plain = true) {ne : Bool} (hb : BaseOk nl ne base) (hgr : GoodRefs nl ne ds)
    (h : HasTriples w3cReading ⟨base, fun _ => none⟩ ds ts) {o : Orders} (ho : o.OK) {w : World} (wr : w.Reach) {p ns n k : PStr}
    (hn : ReadmeNames p ns n k) : QuickStart nl base text next ts o w p ns n k := by
  obtain ⟨next', ts', hp, ρ, hρ, ts'', hperm, hcorr⟩ := C125_partial hnl next hw hc hpl hb hgr h
  have hparse : ∀ (σ : Type) (add : σ → Stmt → σ) (sink : σ), Turtle.parse add nl base next sink (.str text) = (ts'.foldl add sink, next', .ok ()) := by
    intro σ add sink
    simp only [Turtle.parse, hp]
  have hnone : ∀ t ∈ ts', t.g = none := by
    rcases C94_all_or_nothing (nl := nl) (base := base) (next := next) (.str text) with ⟨e, he⟩ | ⟨m, us, -, hu, he⟩
    · have := congrArg (·.2.2) (he _ (fun (l : List Stmt) t => l ++ [t]) [])
      rw [hparse] at this
      cases this
    · have h1 := he _ (fun (l : List Stmt) t => l ++ [t]) []
      rw [hparse] at h1
      have fold : ∀ (xs acc : List Stmt), xs.foldl (fun l t => l ++ [t]) acc = acc ++ xs := by
        intro xs
        induction xs with
        | nil => simp
        | cons x xs ih => intro acc; rw [List.foldl_cons, ih]; simp
      rw [fold, fold] at h1
      simp only [List.nil_append, Prod.mk.injEq] at h1
      rw [h1.1]
      exact hu
  have hnone0 : ∀ t ∈ ts, t.g = none := by
    intro t ht
    have : ∀ {a b : List Stmt}, List.Forall₂ (StmtCorr ρ) a b → (∀ y ∈ b, y.g = none) → ∀ x ∈ a, x.g = none := by
      intro a b h
      induction h with
      | nil => intro _ x hx; cases hx
      | cons h _ ih =>
        intro hb x hx
        rcases List.mem_cons.1 hx with rfl | hx
        · rw [h.g]; exact hb _ List.mem_cons_self
        · exact ih (fun y hy => hb y (List.mem_cons_of_mem _ hy)) x hx
    exact this hcorr (fun y hy => hnone y (hperm.mem_iff.1 hy)) t ht
  have hg : (Graph.addAll Graph.new ts').Reach := Graph.Reach.addAll (.new _) hnone
  have hmem : ∀ x, x ∈ (Graph.addAll Graph.new ts').triples ↔ x ∈ ts' := by
    intro x
    rw [Graph.mem_addAll]
    simp [Graph.new]
  have wr' := World.Reach.setPrefix 0 p ns wr
  have h0 : 0 < (w.setPrefix 0 p ns).classes.length := by have := wr'.wf.two; omega
  obtain ⟨n1, n2⟩ := readme_names wr (ns := ns) hn.colon hn.bracket hn.scheme hn.name hn.nl
  obtain ⟨k1, k2⟩ := readme_names wr (ns := ns) hn.colon hn.bracket hn.scheme hn.key hn.kl
  have hne : ∀ {a : PStr}, a ≠ [] → ns ++ a ≠ [] := fun h e => h (List.append_eq_nil_iff.1 e).2
  refine ⟨Graph.addAll Graph.new ts', next', ρ, hparse _ _ _, hρ, fun s s' hs hst => ⟨?_, ?_⟩⟩
  · have := ((C101_name ho wr' hg (r := ⟨0, s'⟩) h0 hst n1 (hne hn.name)).1 n2).2
    have e : (fun x => mkTriple s' (.named (ns ++ n)) x ∈ (Graph.addAll Graph.new ts').triples) =
        fun x' => ∃ x, TermCorr ρ x x' ∧ mkTriple s (.named (ns ++ n)) x ∈ ts := by
      funext x'
      rw [hmem, mem_isomorphic hρ hperm hcorr hnone0 hs]
    rw [e] at this
    exact this
  · obtain ⟨objs, h1, h2, h3⟩ := ((C101_name ho wr' hg (r := ⟨0, s'⟩) h0 hst k1 (hne hn.key)).1 k2).1
    exact ⟨objs, h1, h2, fun x' => by rw [h3, hmem, mem_isomorphic hρ hperm hcorr hnone0 hs]⟩

open Turtle Turtle.Spec in
/-- The document `<a:s> <a:p> (), <a:o> .`: of the two values only `<a:o>` is found. -/
theorem C153_refuted : ¬ C153_statement := by
  intro h
  obtain ⟨g, n', ρ, h1, hρ, h2⟩ := h (fun _ => true) (fun _ => rfl) [] _ 0 exList _ exList_written exList_triples {} ⟨fun _ => .refl _, fun _ => .refl _, fun _ => .refl _⟩
    World.new .new (py! "x") (py! "a:") (py! "p") (py! "p") ⟨by decide, by decide, by decide, by decide, by decide, by decide, by decide⟩
  obtain ⟨-, objs, h3, -, h4⟩ := h2 _ _ (.named (py! "a:s")) rfl
  have hg : g = Graph.addAll Graph.new [mkTriple (.named (py! "a:s")) (.named (py! "a:p")) (.gen 0),
      mkTriple (.named (py! "a:s")) (.named (py! "a:p")) (.named (py! "a:o"))] := by
    have h5 := exList_read
    rw [Turtle.parse] at h1
    generalize parseText (fun _ => true) [] 0 (py! "<a:s> <a:p> (), <a:o> .") = z at h1 h5
    cases z with
    | error e => cases h5
    | ok r =>
      have h5 := Except.ok.inj h5
      dsimp only at h1 h5
      rw [h5] at h1
      exact (congrArg (·.1) h1).symm
  have h6 : (getItem {} (World.new.setPrefix 0 (py! "x") (py! "a:")) g ⟨0, .named (py! "a:s")⟩ (.name (py! "x:p"))).2 = .ok (.iter [.gen 0, .named (py! "a:o")]) := by
    rw [hg]; decide
  have h7 := congrArg (·.2) h3
  rw [show py! "x" ++ 58 :: py! "p" = py! "x:p" from rfl] at h7
  rw [h6] at h7
  cases h7
  obtain ⟨x, h8, -⟩ := (h4 (.gen 0)).1 (by simp)
  cases h8

open Turtle Turtle.Spec in
/-- The hypotheses of `C153_partial` can be met, with a document that has a base, a prefix and a list. -/
example : QuickStart (fun _ => true) [] (py! "@base <http://e/y/> . @base <../x/#> . @prefix p: <//e/x/n#> . <../a> p:b ([ p:q \"\\n\" ] _:z) .") 0
    [mkTriple (.named (py! "http://e/a")) (.named (py! "http://e/x/n#b")) (.bnode 1),
     mkTriple (.bnode 1) (.named (py! "http://www.w3.org/1999/02/22-rdf-syntax-ns#first")) (.bnode 2),
     mkTriple (.bnode 1) (.named (py! "http://www.w3.org/1999/02/22-rdf-syntax-ns#rest")) (.bnode 3),
     mkTriple (.bnode 2) (.named (py! "http://e/x/n#q")) (.lit [10] none (some (py! "http://www.w3.org/2001/XMLSchema#string"))),
     mkTriple (.bnode 3) (.named (py! "http://www.w3.org/1999/02/22-rdf-syntax-ns#first")) (.bnode 0),
     mkTriple (.bnode 3) (.named (py! "http://www.w3.org/1999/02/22-rdf-syntax-ns#rest")) (.named (py! "http://www.w3.org/1999/02/22-rdf-syntax-ns#nil"))]
    {} World.new (py! "ex") (py! "http://e/x/n#") (py! "q") (py! "b") :=
  C153_partial rfl 0 exDoc_written (crLf_of (by decide)) (by decide) (.inl rfl) exDoc_good exDoc_triples ⟨fun _ => .refl _, fun _ => .refl _, fun _ => .refl _⟩ .new
    ⟨by decide, by decide, by decide, by decide, by decide, by decide, by decide⟩

set_option maxRecDepth 4000 in
/-- The Quick Start itself, with part of its document. -/
example :
    let g := (Turtle.parse Graph.add (fun _ => true) [] 0 Graph.new (.str (py! "@prefix foaf: <http://xmlns.com/foaf/0.1/> .\n@prefix :     <http://example.org/stuff/> .\n:M foaf:name \"M\" .\n:Bond a foaf:Person ;\n  foaf:name \"James Bond\" ;\n  foaf:knows :M ."))).1
    let w := World.new.setPrefix 0 (py! "foaf") (py! "http://xmlns.com/foaf/0.1/")
    let bond : Res := ⟨0, .named (py! "http://example.org/stuff/Bond")⟩
    (getScalar {} w g bond (.name (py! "foaf:name"))).2 = .ok (.lit (py! "James Bond") none (some (Heap.xsdNs ++ py! "string"))) ∧
    (getItem {} w g bond (.name (py! "foaf:knows"))).2 = .ok (.iter [.named (py! "http://example.org/stuff/M")]) ∧
    (collect {} g 0 w [.named (py! "http://example.org/stuff/M")]).2 = .ok [.res 0 (.named (py! "http://example.org/stuff/M"))] ∧
    (getScalar {} w g ⟨0, .named (py! "http://example.org/stuff/M")⟩ (.name (py! "foaf:name"))).2 = .ok (.lit (py! "M") none (some (Heap.xsdNs ++ py! "string"))) :=
  ⟨rfl, rfl, rfl, rfl⟩

end Verif
