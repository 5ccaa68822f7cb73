import Verif.Props.ResRead
import Verif.Props.ResList
import Verif.Props.ResClass
import Verif.Props.Curie
/-
C57, C58, C101, C103 for the classes that the library itself defines and for the names and lists a program sees, with the IRIs written out.
-/
namespace Verif
open Spec

/-- What matters of a class: the prefixes it was made with, its scalars, its language and its bases. -/
def Cls.Keeps (a b : Cls) : Prop :=
  (∀ p ∈ b.prefixes.map (·.1), a.prefixes.get? p = b.prefixes.get? p) ∧ a.scalars = b.scalars ∧ a.lang = b.lang ∧ a.mro = b.mro

/-- Resource and List are as the library defines them, up to further prefixes. -/
def World.BuiltIn (w : World) : Prop := (w.cls 0).Keeps resourceCls ∧ (w.cls 1).Keeps listCls

/-- The programs that leave the prefixes rdf and rdfs and the language of the library's own classes alone. -/
inductive World.Usual : World → Prop
  | new : Usual World.new
  | define {w w' name bases own c} : Usual w → bases ≠ [] → (∀ b ∈ bases, b < w.classes.length) →
      newClass w name bases own = .ok (w', c) → Usual w'
  | register {w ty c} : Usual w → c < w.classes.length → Usual (registerClass w ty c).1
  | profile {w} (p t) : Usual w → Usual { w with gPrefixes := p, gTerms := t }
  | auto {w types pcs} : Usual w → pcs ≠ [] → (∀ b ∈ pcs, b < w.classes.length) → Usual (autoClass w types pcs).1
  | setPrefix {w} (c name iri) : Usual w → (c < 2 → name ≠ py! "rdf" ∧ name ≠ py! "rdfs") → Usual (w.setPrefix c name iri)
  | setLang {w} (c lang) : Usual w → 2 ≤ c → Usual (w.setLang c lang)

theorem World.Usual.reach {w : World} (h : w.Usual) : w.Reach := by
  induction h with
  | new => exact .new
  | define _ h1 h2 h3 ih => exact .define ih h1 h2 h3
  | register _ h ih => exact .register ih h
  | profile p t _ ih => exact .profile p t ih
  | auto _ h1 h2 ih => exact .auto ih h1 h2
  | setPrefix c n i _ _ ih => exact .setPrefix c n i ih
  | setLang c l _ _ ih => exact .setLang c l ih

theorem keeps_of {a b d : Cls} (h : b.Keeps d) (h1 : a.prefixes = b.prefixes) (h2 : a.scalars = b.scalars) (h3 : a.lang = b.lang)
    (h4 : a.mro = b.mro) : a.Keeps d := by
  unfold Cls.Keeps; rw [h1, h2, h3, h4]; exact h

/-- In such programs Resource and List keep their prefixes, scalars, language and bases. -/
theorem builtin_kept {w : World} (wr : w.Usual) : w.BuiltIn := by
  induction wr with
  | new => exact ⟨⟨fun _ _ => rfl, rfl, rfl, rfl⟩, ⟨fun _ _ => rfl, rfl, rfl, rfl⟩⟩
  | define wr _ _ h ih =>
    have := wr.reach.wf.two
    obtain ⟨-, hk⟩ := C57_others_kept h
    unfold World.BuiltIn
    rw [hk 0 (by omega), hk 1 (by omega)]; exact ih
  | @register w ty c wr _ ih =>
    unfold registerClass
    split
    · exact ih
    · unfold World.BuiltIn
      rw [cls_setRdf, cls_setRdf]
      constructor
      · split
        · exact keeps_of ih.1 rfl rfl rfl rfl
        · exact ih.1
      · split
        · exact keeps_of ih.2 rfl rfl rfl rfl
        · exact ih.2
  | profile _ _ _ ih => exact ih
  | @auto w types pcs wr _ _ ih =>
    have := wr.reach.wf.two
    unfold World.BuiltIn
    rw [(autoClass_ext w types pcs).cls (by omega : 0 < _), (autoClass_ext w types pcs).cls (by omega : 1 < _)]; exact ih
  | @setPrefix w c name iri _ hn ih =>
    have put : ∀ k < 2, ∀ d : Cls, d.prefixes.map (·.1) = [py! "rdf", py! "rdfs"] → (w.cls k).Keeps d →
        ((w.setPrefix c name iri).cls k).Keeps d := by
      intro k hk d hd h
      rw [cls_setPrefix]
      split
      · next e =>
        obtain ⟨rfl, -⟩ := e
        refine ⟨fun p hp => ?_, h.2.1, h.2.2.1, h.2.2.2⟩
        show Dict.get? (Dict.set (w.cls k).prefixes name iri) p = _
        rw [Dict.get?_set, if_neg]
        · exact h.1 p hp
        · rintro rfl
          rw [hd] at hp
          simp only [List.mem_cons, List.not_mem_nil, or_false] at hp
          rcases hp with hp | hp
          · exact (hn hk).1 hp
          · exact (hn hk).2 hp
      · exact h
    exact ⟨put 0 (by decide) _ rfl ih.1, put 1 (by decide) _ rfl ih.2⟩
  | @setLang w c lang _ hc ih =>
    unfold World.BuiltIn
    rw [cls_setLang, cls_setLang, if_neg (by omega), if_neg (by omega)]
    exact ih

theorem resolve_of_class {w : World} {c : Nat} {k x : PStr} {d : Dict PStr PStr} (hd : (w.cls c).prefixes = d) (h : parseCurie k d = .ok x) :
    resolveKey w c k = .ok (some x) := by
  unfold resolveKey PrefixMap.resolve; rw [hd, h]

/-- `p:r` in a class that binds `p` to `ns`. -/
theorem resolve_prefix {w : World} {c : Nat} {p r ns : PStr} (hp : 58 ∉ p) (hbr : p.head? ≠ some 91) (hs : p ∉ Spec.uriSchemes) (hr : r ≠ [])
    (hns : (w.cls c).prefixes.get? p = some ns) : resolveKey w c (p ++ 58 :: r) = .ok (some (ns ++ r)) := by
  refine resolve_of_class rfl ?_
  have hpl : CurieText (p ++ 58 :: r) false (p ++ 58 :: r) := by
    refine .plain ?_
    rintro ⟨body, e⟩
    cases p with
    | nil => cases e
    | cons a p => simp only [List.cons_append, List.cons.injEq] at e; exact hbr (by rw [e.1]; rfl)
  exact ((C29_rules_partial (p ++ 58 :: r) (by simp) _ hpl ⟨hp, .inl rfl⟩).2 (fun h => hs h.2)).2 (fun h => hr h.1) |>.1 ns hns

/-- C103 for the class Resource in every program that leaves its prefixes rdf and rdfs and its language alone: the labels are the `http://www.w3.org/2000/01/rdf-schema#label`s, preferably English. -/
theorem C103_resource {o : Orders} (ho : o.OK) {w : World} (wr : w.Reach) (hbi : w.BuiltIn) {g : Graph} (hg : g.Reach) {s : Term} (hs : s.truthy = true) :
    let L := FirstOf (fun x => mkTriple s (.named (py! "http://www.w3.org/2000/01/rdf-schema#label")) x ∈ g.triples) (preference (py! "en"))
    ((∀ x, ¬ L x) → (resStr o w g ⟨0, s⟩).2 = .ok s.str) ∧
    (∀ v lg dt, L (.lit v lg dt) → (∀ y, L y → y = .lit v lg dt) → (resStr o w g ⟨0, s⟩).2 = .ok v) ∧
    (∀ x, IsResource x → L x → (∀ y, L y → y = x) →
      (resStr o w g ⟨0, s⟩).2 = .error .attributeError ∨ (resStr o w g ⟨0, s⟩).2 = .error .typeError) ∧
    (∀ x y, L x → L y → x ≠ y → (resStr o w g ⟨0, s⟩).2 = .error .valueError) := by
  obtain ⟨⟨h1, h2, h3, h4⟩, -⟩ := hbi
  have hc : 0 < w.classes.length := by have := wr.wf.two; omega
  refine C103_exact ho wr hg (r := ⟨0, s⟩) hc hs
    (resolve_prefix (p := py! "rdfs") (r := py! "label") (by decide) (by decide) (by decide) (by decide) (h1 _ (by decide))) (by decide) ?_ ?_ (by decide)
  · show (w.cls 0).scalars.contains _ = true
    rw [h2]; decide
  · unfold World.lang World.lookup
    rw [h4]
    simp only [resourceCls, List.findSome?_cons, h3]
    rfl

/-- C58 for the class List in every such program: it reads lists made with the RDF vocabulary. -/
theorem C58_list_class {w : World} (hbi : w.BuiltIn) :
    ListClass w 1 (py! "http://www.w3.org/1999/02/22-rdf-syntax-ns#first") (py! "http://www.w3.org/1999/02/22-rdf-syntax-ns#rest")
      (py! "http://www.w3.org/1999/02/22-rdf-syntax-ns#nil") := by
  obtain ⟨⟨-, -, h3', -⟩, h1, h2, h3, h4⟩ := hbi
  have hres : ∀ r : PStr, r ≠ [] → resolveKey w 1 (py! "rdf" ++ 58 :: r) = .ok (some (Heap.rdfNs ++ r)) := fun r hr =>
    resolve_prefix (p := py! "rdf") (by decide) (by decide) (by decide) hr (h1 _ (by decide))
  refine ⟨hres (py! "first") (by decide), hres (py! "rest") (by decide), hres (py! "nil") (by decide), ?_, ?_, by decide, by decide, ?_⟩
  · show (w.cls 1).scalars.contains _ = true
    rw [h2]; decide
  · show (w.cls 1).scalars.contains _ = true
    rw [h2]; decide
  · unfold World.lang World.lookup
    rw [h4]
    simp only [listCls, List.findSome?_cons, h3, h3', resourceCls]
    decide

/-- C57 as a program sees it: in a new class the name `p:r` stands for `ns ++ r`, where `ns` is the class's own namespace for `p`, or else
    that of the last base that has one. -/
theorem C57_names {w w' : World} (wr : w.Reach) {name : PStr} {bases : List Nat} {own : Own} {c : Nat}
    (hb : ∀ b ∈ bases, b < w.classes.length) (hown : Dict.WF own.prefixes) (h : newClass w name bases own = .ok (w', c))
    {p r ns : PStr} (hp : 58 ∉ p) (hbr : p.head? ≠ some 91) (hs : p ∉ Spec.uriSchemes) (hr : r ≠ [])
    (hns : (own.prefixes.get? p).or (bases.reverse.findSome? fun b => (w.cls b).prefixes.get? p) = some ns) :
    resolveKey w' c (p ++ 58 :: r) = .ok (some (ns ++ r)) := by
  have hget := ((C57_inherited wr hb hown h).1 p).trans hns
  exact resolve_prefix hp hbr hs hr hget

/-- C101: listing the generator gives every object, in its order, or the TypeError of a node that cannot be classified. -/
theorem C101_listed {o : Orders} {w : World} (wr : w.Reach) (g : Graph) {c : Nat} (hc : c < w.classes.length) (objs : List Term) :
    (∃ vs, (collect o g c w objs).2 = .ok vs ∧ vs.map Val.term = objs) ∨
    ((collect o g c w objs).2 = .error .typeError ∧ ∃ x ∈ objs, ∃ w1, w1.Reach ∧ w.Ext w1 ∧ (classify o w1 g c x).2 = .error .typeError) := by
  induction objs generalizing w with
  | nil => exact Or.inl ⟨[], rfl, rfl⟩
  | cons x xs ih =>
    obtain ⟨wr1, hext, hcl⟩ := classify_spec (o := o) wr g hc x
    unfold collect
    generalize hz : classify o w g c x = z at wr1 hext hcl
    obtain ⟨w1, res⟩ := z
    dsimp only at wr1 hext hcl ⊢
    rcases hcl with rfl | ⟨v, rfl, hv, _⟩
    · exact Or.inr ⟨rfl, x, List.mem_cons_self, w, wr, .refl w, by rw [hz]⟩
    · dsimp only
      have := ih wr1 (Nat.lt_of_lt_of_le hc hext.length)
      generalize collect o g c w1 xs = y at this
      obtain ⟨w2, res⟩ := y
      dsimp only at this ⊢
      rcases this with ⟨vs, rfl, e⟩ | ⟨rfl, x', hx', w3, a, b, d⟩
      · exact Or.inl ⟨v :: vs, rfl, by rw [List.map_cons, hv, e]⟩
      · exact Or.inr ⟨rfl, x', List.mem_cons_of_mem _ hx', w3, a, hext.trans b, d⟩

/-- The hypotheses of `C57_names` can be met: `ex:a` in a class whose base declares `ex`. -/
example : ∃ w1 w2, newClass World.new (py! "A") [0] { prefixes := [(py! "ex", py! "http://e/")] } = .ok (w1, 2) ∧
    newClass w1 (py! "B") [2] {} = .ok (w2, 3) ∧ resolveKey w2 3 (py! "ex:a") = .ok (some (py! "http://e/a")) :=
  ⟨_, _, rfl, rfl, by decide⟩

end Verif
