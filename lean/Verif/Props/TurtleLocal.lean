import Verif.Props.TurtleLayout
/-
C172: a change to the triples of one subject shows in the Turtle text only in the block of that subject.
-/
namespace Verif.Turtle
open Verif.Turtle.Spec

/-- The operation concerns triples of this subject only. -/
def Spec.About (s : Term) : Verif.Spec.GOp → Prop
  | .add t => t.s = s
  | .addAll ts => ∀ t ∈ ts, t.s = s
  | .remove t => t.s = s

/-- Two graphs that index the same for every subject but one. -/
def SameOthers (s0 : Term) (g g' : Graph) : Prop := ∀ s, s ≠ s0 → Dict.get? g.spo s = Dict.get? g'.spo s

theorem SameOthers.add {s0 : Term} {g g' : Graph} (h : SameOthers s0 g g') {t : Stmt} (ht : t.s = s0) : SameOthers s0 g (g'.add t) := by
  intro s hs
  rw [h s hs]
  show _ = Dict.get? (g'.spo.put t.s t.p t.o t) s
  unfold Idx.put
  rw [Dict.get?_set, if_neg fun e => hs (e.symm.trans ht)]

theorem SameOthers.rm {s0 : Term} {ix : Idx} {a b c s : Term} (ha : a = s0) (hs : s ≠ s0) : Dict.get? (ix.rm a b c).1 s = Dict.get? ix s := by
  unfold Idx.rm
  split <;> exact (Dict.get?_set ..).trans (if_neg fun e => hs (e.symm.trans ha))

theorem SameOthers.remove {s0 : Term} {g g' : Graph} (h : SameOthers s0 g g') {t : Stmt} (ht : t.s = s0) : SameOthers s0 g (g'.remove t).1 := by
  intro s hs
  rw [h s hs]
  unfold Graph.remove
  split
  · dsimp only
    split
    · exact (SameOthers.rm ht hs).symm
    · split
      · exact (SameOthers.rm ht hs).symm
      · split <;> exact (SameOthers.rm ht hs).symm
  · rfl

theorem SameOthers.run {s0 : Term} {g : Graph} : ∀ (more : List Verif.Spec.GOp) (g' : Graph), SameOthers s0 g g' → (∀ op ∈ more, About s0 op) →
    SameOthers s0 g (more.foldl (fun g op => (g.exec op).1) g')
  | [], _, h, _ => h
  | op :: more, g', h, hm => by
    refine SameOthers.run more _ ?_ fun op ho => hm op (List.mem_cons_of_mem _ ho)
    have h0 := hm op (List.mem_cons_self ..)
    cases op with
    | add t => exact h.add h0
    | remove t => exact h.remove h0
    | addAll ts =>
      show SameOthers s0 g ((ts.map Verif.Spec.Tri.stmt).foldl Graph.add g')
      clear hm
      have h0 : ∀ t ∈ ts, t.s = s0 := h0
      clear * - h h0
      induction ts generalizing g' with
      | nil => exact h
      | cons t ts ih => exact ih _ (h.add (h0 t (List.mem_cons_self ..))) fun t ht => h0 t (List.mem_cons_of_mem _ ht)

section
variable {s0 : Term} {g g' : Graph}

theorem SameOthers.l1 (h : SameOthers s0 g g') {s : Term} (hs : s ≠ s0) : g.spo.l1 s = g'.spo.l1 s := by
  unfold Idx.l1; rw [h s hs]

theorem SameOthers.has (h : SameOthers s0 g g') {s : Term} (hs : s ≠ s0) : g.spo.has s = g'.spo.has s := by
  rw [Bool.eq_iff_iff, Dict.has_iff, Dict.has_iff, Dict.mem_keys_iff, Dict.mem_keys_iff, h s hs]

theorem SameOthers.match (h : SameOthers s0 g g') {s : Term} (hs : s ≠ s0) (ht : s.truthy = true) (p : Term) (ord ord' : List Stmt → List Stmt) :
    g.match ord s p .none = g'.match ord' s p .none := by
  unfold Graph.match
  have hn : (Term.none).truthy = false := rfl
  simp only [ht, hn, if_true, Idx.l2, h.l1 hs, h.has hs, Bool.false_eq_true, if_false]

theorem SameOthers.subjects (h : SameOthers s0 g g') {s : Term} (hs : s ≠ s0) : s ∈ g.subjects ↔ s ∈ g'.subjects := by
  unfold Graph.subjects
  rw [Dict.mem_keys_iff, Dict.mem_keys_iff, h s hs]

theorem SameOthers.blockOf (h : SameOthers s0 g g') {o o' : Orders} (ho : Orders.OK o) (ho' : Orders.OK o') {cx : SerCtx} {e : PStr × Term} (hs : e.2 ≠ s0) (ht : e.2.truthy = true)
    (hp : ∀ t ∈ g.match o.stmts e.2 .none .none, ∃ i, t.p = .named i) : blockOf o g cx e = blockOf o' g' cx e := by
  have e1 : predPairs o g cx e.2 = predPairs o' g' cx e.2 := by
    unfold predPairs
    rw [← h.match hs ht .none o.stmts o'.stmts, sortedNames_perm (cx := cx) {} ((ho.terms _).trans (ho'.terms _).symm) (fun p hq => by
      obtain ⟨t, h4, rfl⟩ := List.mem_map.1 ((mem_pySet _ _).1 ((ho.terms _).mem_iff.1 hq))
      exact hp t h4)]
  have e2 : entryOf o g cx e.2 = entryOf o' g' cx e.2 := by
    funext q
    unfold entryOf
    rw [h.match hs ht q.2 o.stmts o'.stmts]
  unfold Turtle.blockOf
  rw [e1, e2]
end

theorem sortedNames_sorted {cx : SerCtx} {nm : Names} {ts : List Term} (hn : ∀ t ∈ ts, ∃ i, t = .named i) {ss : List (PStr × Term)} (h : sortedNames cx nm ts = .ok (nm, ss)) :
    ss.Pairwise (fun a b => pairLe a b = true) ∧ (ss.map (·.2)).Perm ts ∧ ∀ x ∈ ss, ∃ i, x = (iriRepr cx.prefixes cx.base i, .named i) := by
  obtain ⟨m, base, namer⟩ := cx
  obtain ⟨xs, a1, a2, a3⟩ := names_named (m := m) (base := base) (namer := namer) nm ts hn
  unfold sortedNames at h
  rw [a1] at h
  dsimp only at h
  split at h
  · cases h
  · cases h
    exact ⟨sort_sorted fun x hx => by obtain ⟨i, rfl⟩ := a3 x hx; exact ⟨i, rfl⟩, a2 ▸ (sort_perm xs).map _, fun x hx => a3 x ((sort_perm xs).mem_iff.1 hx)⟩

theorem sortedNames_filter {cx : SerCtx} {nm : Names} {ts us : List Term} (hn : ∀ t ∈ ts, ∃ i, t = .named i) (hn' : ∀ t ∈ us, ∃ i, t = .named i) (nd : ts.Nodup) (nd' : us.Nodup)
    {s0 : Term} (hm : ∀ x, x ≠ s0 → (x ∈ ts ↔ x ∈ us)) {ss ss' : List (PStr × Term)} (h : sortedNames cx nm ts = .ok (nm, ss)) (h' : sortedNames cx nm us = .ok (nm, ss')) :
    ss.filter (fun e => e.2 ≠ s0) = ss'.filter fun e => e.2 ≠ s0 := by
  obtain ⟨a1, a2, a3⟩ := sortedNames_sorted hn h
  obtain ⟨b1, b2, b3⟩ := sortedNames_sorted hn' h'
  have named : ∀ {l : List (PStr × Term)}, (∀ x ∈ l, ∃ i, x = (iriRepr cx.prefixes cx.base i, .named i)) → ∀ x ∈ l, NamedPair x := by
    intro l hl x hx
    obtain ⟨i, rfl⟩ := hl x hx
    exact ⟨i, rfl⟩
  have nodup : ∀ {l : List (PStr × Term)} {ts : List Term}, (l.map (·.2)).Perm ts → ts.Nodup → l.Nodup := fun hp hd => List.Nodup.of_map _ (hp.nodup_iff.2 hd)
  refine List.Perm.eq_of_pairwise (le := fun a b => pairLe a b = true)
    (fun a b ha hb => pairLe_antisymm (named a3 a (List.mem_filter.1 ha).1) (named b3 b (List.mem_filter.1 hb).1)) (a1.filter _) (b1.filter _) ?_
  rw [List.perm_ext_iff_of_nodup ((nodup a2 nd).filter _) ((nodup b2 nd').filter _)]
  have key : ∀ {l l' : List (PStr × Term)} {ts us : List Term}, (l.map (·.2)).Perm ts → (l'.map (·.2)).Perm us →
      (∀ x ∈ l, ∃ i, x = (iriRepr cx.prefixes cx.base i, .named i)) → (∀ x ∈ l', ∃ i, x = (iriRepr cx.prefixes cx.base i, .named i)) →
      (∀ x, x ≠ s0 → x ∈ ts → x ∈ us) → ∀ e, e ∈ l.filter (fun e => e.2 ≠ s0) → e ∈ l'.filter fun e => e.2 ≠ s0 := by
    intro l l' ts us p1 p2 q1 q2 hx e he
    obtain ⟨h1, h2⟩ := List.mem_filter.1 he
    have h3 : e.2 ≠ s0 := by simpa using h2
    obtain ⟨e', h4, h5⟩ := List.mem_map.1 (p2.mem_iff.2 (hx e.2 h3 (p1.mem_iff.1 (List.mem_map.2 ⟨e, h1, rfl⟩))))
    obtain ⟨i, rfl⟩ := q1 e h1
    obtain ⟨j, rfl⟩ := q2 e' h4
    cases h5
    exact List.mem_filter.2 ⟨h4, h2⟩
  exact fun e => ⟨key a2 b2 a3 b3 (fun x hx => (hm x hx).1) e, key b2 a2 b3 a3 (fun x hx => (hm x hx).2) e⟩

/-- A triple of this subject was added at some time (`graph.subjects()` gives these, C04). -/
def Spec.Added (ops : List Verif.Spec.GOp) (s : Term) : Prop := ∃ t ∈ everAdded ops, t.s = s

/-- No list, no blank node, no empty IRI. -/
def Spec.Simple (t : Verif.Spec.Tri) : Prop :=
  Ground t ∧ t.s ≠ .named [] ∧ t.p ≠ .named [] ∧ t.p ≠ .named (Heap.rdfNs ++ py! "rest")

theorem Spec.Simple.truthy {t : Verif.Spec.Tri} (h : Simple t) : t.s.truthy = true ∧ t.p.truthy = true := by
  obtain ⟨⟨⟨i, hi⟩, ⟨j, hj⟩, -⟩, h1, h2, -⟩ := h
  rw [hi] at h1 ⊢
  rw [hj] at h2 ⊢
  constructor
  · cases i with
    | nil => exact absurd rfl h1
    | cons => rfl
  · cases j with
    | nil => exact absurd rfl h2
    | cons => rfl

theorem plainGraph_run (u : Term) {ops : List Verif.Spec.GOp} (hg : ∀ t ∈ everAdded ops, Simple t) {o : Orders} (ho : Orders.OK o) {w : World}
    (hr : resolveKey w listC (py! "rdf:rest") = .ok (some (Heap.rdfNs ++ py! "rest"))) : PlainGraph o w listC (Graph.run u ops) := by
  have rep := Graph.rep_run u ops
  have hm : ∀ s p, ∀ t ∈ (Graph.run u ops).match o.stmts s p .none, ∃ x : Verif.Spec.Tri, Simple x ∧ t = x.stmt := fun s p t ht => by
    obtain ⟨x, hx, rfl⟩ := (rep.mem t).1 ((Graph.mem_match rep.inv ho.stmts _ _ _ t).1 ht).1
    exact ⟨x, hg x (runSet_everAdded x hx), rfl⟩
  refine ⟨isList_false (fun x hx => ?_) rep.inv ho.stmts hr, fun s p t ht b => ?_, fun s t ht => ?_⟩
  · obtain ⟨t, ht, rfl⟩ := (rep.mem x).1 hx
    exact (hg t (runSet_everAdded t ht)).2.2.2
  · obtain ⟨x, hx, rfl⟩ := hm s p t ht
    rcases hx.1.2.2 with ⟨i, h⟩ | ⟨v, l, d, h⟩
    · exact fun e => by have := h.symm.trans e; cases this
    · exact fun e => by have := h.symm.trans e; cases this
  · obtain ⟨x, hx, rfl⟩ := hm s .none t ht
    exact hx.1.2.1

theorem layout_blocks {ops : List Verif.Spec.GOp} (hg : ∀ t ∈ everAdded ops, Simple t) {m : PrefixMap} {base : Option PStr} {bs : List Block}
    (h : Layout (Verif.Spec.runSet ops) (fun s => (∃ t ∈ everAdded ops, t.s = s) ∧ ¬ ∃ t ∈ Verif.Spec.runSet ops, t.s = s ∧ t.p = .named (Heap.rdfNs ++ py! "rest")) m base bs) :
    Layout (Verif.Spec.runSet ops) (Added ops) m base bs :=
  { h with all := fun s => (h.all s).trans ⟨fun h => h.1, fun h1 => ⟨h1, fun ⟨t, h2, _, h3⟩ => (hg t (runSet_everAdded t h2)).2.2.2 h3⟩⟩ }

theorem everAdded_append (a b : List Verif.Spec.GOp) : everAdded (a ++ b) = everAdded a ++ everAdded b := List.flatMap_append

/-- C172. The graph is written, then some triples of one subject are added and removed, and it is written again: the blocks of the other subjects are the same and in the
    same order. The two runs may iterate sets in different orders. -/
theorem C172_local (u : Term) (ops more : List Verif.Spec.GOp) {s0 : Term} (hm : ∀ op ∈ more, About s0 op) (hg : ∀ t ∈ everAdded (ops ++ more), Simple t)
    {o o' : Orders} (ho : Orders.OK o) (ho' : Orders.OK o') {w w' : World} (hr : resolveKey w listC (py! "rdf:rest") = .ok (some (Heap.rdfNs ++ py! "rest")))
    (hr' : resolveKey w' listC (py! "rdf:rest") = .ok (some (Heap.rdfNs ++ py! "rest"))) {fuel fuel' : Nat} {base : Option PStr} {m : Option PrefixMap} {namer : Namer} {text text' : PStr}
    (h : serializeTurtle o w fuel (Graph.run u ops) base m namer = .ok text)
    (h' : serializeTurtle o' w' fuel' (Graph.run u (ops ++ more)) base m namer = .ok text') :
    ∃ bs bs' : List Block,
      text = header base (m.getD defaultPrefixes) ++ bs.flatMap Block.text ∧ Layout (Verif.Spec.runSet ops) (Added ops) (m.getD defaultPrefixes) base bs ∧
      text' = header base (m.getD defaultPrefixes) ++ bs'.flatMap Block.text ∧ Layout (Verif.Spec.runSet (ops ++ more)) (Added (ops ++ more)) (m.getD defaultPrefixes) base bs' ∧
      bs.filter (fun b => b.node ≠ s0) = bs'.filter fun b => b.node ≠ s0 := by
  have hg0 : ∀ t ∈ everAdded ops, Simple t := fun t ht => hg t (by rw [everAdded_append]; exact List.mem_append_left _ ht)
  have same : SameOthers s0 (Graph.run u ops) (Graph.run u (ops ++ more)) := by
    unfold Graph.run
    rw [List.foldl_append]
    exact SameOthers.run more _ (fun _ _ => rfl) hm
  have pg := plainGraph_run u hg0 ho hr
  have pg' := plainGraph_run u hg ho' hr'
  obtain ⟨bs, a1, a2, a3⟩ := layout_full u ops (fun t ht => (hg0 t ht).truthy) ho hr h
  obtain ⟨bs', b1, b2, b3⟩ := layout_full u (ops ++ more) (fun t ht => (hg t ht).truthy) ho' hr' h'
  obtain ⟨ss, c1, rfl⟩ := a3 pg fun t ht => (hg0 t ht).1.1
  obtain ⟨ss', d1, rfl⟩ := b3 pg' fun t ht => (hg t ht).1.1
  refine ⟨_, _, a1, layout_blocks hg0 a2, b1, layout_blocks hg b2, ?_⟩
  obtain ⟨⟨nd, k⟩, -, -⟩ := C04_lists_ever_added u ops
  obtain ⟨⟨nd', k'⟩, -, -⟩ := C04_lists_ever_added u (ops ++ more)
  have n1 : ∀ s ∈ (Graph.run u ops).subjects, ∃ i, s = .named i := fun s hs => by
    obtain ⟨t, ht, rfl⟩ := (k s).1 hs; exact (hg0 t ht).1.1
  have n2 : ∀ s ∈ (Graph.run u (ops ++ more)).subjects, ∃ i, s = .named i := fun s hs => by
    obtain ⟨t, ht, rfl⟩ := (k' s).1 hs; exact (hg t ht).1.1
  have hf := sortedNames_filter n1 n2 nd nd' (s0 := s0) (fun x hx => same.subjects hx) c1 d1
  rw [List.filter_map, List.filter_map]
  have e1 : ∀ (o : Orders) (g : Graph) (cx : SerCtx), ((fun b : Block => decide (b.node ≠ s0)) ∘ blockOf o g cx) = fun e => decide (e.2 ≠ s0) := fun _ _ _ => rfl
  rw [e1, e1, ← hf]
  refine List.map_congr_left fun e he => ?_
  obtain ⟨h1, h2⟩ := List.mem_filter.1 he
  refine same.blockOf ho ho' (by simpa using h2) ?_ (pg.pred e.2)
  obtain ⟨t, ht, h3⟩ := (k e.2).1 ((sortedNames_sorted n1 c1).2.1.mem_iff.1 (List.mem_map.2 ⟨e, h1, rfl⟩))
  exact h3 ▸ (hg0 t ht).truthy.1

def localOps : List Verif.Spec.GOp :=
  [.add ⟨.named (py! "x:t"), .named (py! "x:p"), .lit (py! "b") none none⟩, .add ⟨.named (py! "x:s"), .named (py! "x:p"), .named (py! "x:o")⟩]

def localMore : List Verif.Spec.GOp :=
  [.remove ⟨.named (py! "x:s"), .named (py! "x:p"), .named (py! "x:o")⟩, .addAll [⟨.named (py! "x:s"), .named (py! "x:q"), .named (py! "x:t")⟩]]

set_option maxRecDepth 20000 in
theorem local_text : serializeTurtle {} World.new 0 (Graph.run .none localOps) none (some [(py! "xsd", Heap.xsdNs)]) none =
    .ok (py! "@prefix xsd: <http://www.w3.org/2001/XMLSchema#> .\n<x:s> <x:p> <x:o> ;\n      .\n\n<x:t> <x:p> \"b\" ;\n      .\n\n") := by decide

set_option maxRecDepth 20000 in
theorem local_text_more : serializeTurtle {} World.new 0 (Graph.run .none (localOps ++ localMore)) none (some [(py! "xsd", Heap.xsdNs)]) none =
    .ok (py! "@prefix xsd: <http://www.w3.org/2001/XMLSchema#> .\n<x:s> <x:q> <x:t> ;\n      .\n\n<x:t> <x:p> \"b\" ;\n      .\n\n") := by decide

example : ∃ bs bs' : List Block, bs.filter (fun b => b.node ≠ .named (py! "x:s")) = bs'.filter fun b => b.node ≠ .named (py! "x:s") := by
  obtain ⟨bs, bs', -, -, -, -, h⟩ := C172_local .none localOps localMore (s0 := .named (py! "x:s")) (by simp [localMore, About])
    (by simp [localOps, localMore, everAdded, Simple, Ground, Heap.rdfNs]) Orders.OK.default Orders.OK.default resolveKey_rest resolveKey_rest local_text local_text_more
  exact ⟨bs, bs', h⟩

def blankOps : List Verif.Spec.GOp := [.add ⟨.named (py! "x:t"), .named (py! "x:p"), .bnode 7⟩]

def blankNamer : Namer := some fun n => py! "_:b" ++ List.replicate n 98

set_option maxRecDepth 20000 in
/-- Without the condition on blank nodes it fails: a blank node of another subject changes the label in the block of `x:t`. -/
theorem C172_blank :
    serializeTurtle {} World.new 0 (Graph.run .none blankOps) none (some []) blankNamer = .ok (py! "<x:t> <x:p> _:b ;\n      .\n\n") ∧
    serializeTurtle {} World.new 0 (Graph.run .none (blankOps ++ [.add ⟨.named (py! "x:s"), .named (py! "x:p"), .bnode 8⟩])) none (some []) blankNamer =
      .ok (py! "<x:s> <x:p> _:b ;\n      .\n\n<x:t> <x:p> _:bb ;\n      .\n\n") := by decide

end Verif.Turtle
