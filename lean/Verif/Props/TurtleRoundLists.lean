import Verif.Lemmas.TurtleWriteList
/-
C118 with lists: a graph with lists of literals, written and read, is the same graph up to the choice of blank nodes.
-/
namespace Verif.Turtle
open Verif.Turtle.Spec

/-- The node that the parser has for a blank node of the writer: made for a cell, or found by its name. -/
def readAs' (nm : Names) (bs : BState) (cells : List Nat) (k : Nat) : Nat := if k ∈ cells then bs.next + cells.idxOf k else readAs nm bs k

theorem alloc_idx {ρ : Nat → Nat} : ∀ {cells : List Nat} {n : Nat}, cells.Nodup → (∀ k ∈ cells, ρ k = n + cells.idxOf k) → Alloc ρ n cells
  | [], _, _, _ => trivial
  | c :: cells, n, nd, h => by
    obtain ⟨h1, h2⟩ := List.nodup_cons.1 nd
    refine ⟨by rw [h c (List.mem_cons_self ..)]; simp, alloc_idx h2 fun k hk => ?_⟩
    have hne : c ≠ k := by rintro rfl; exact h1 hk
    rw [h k (List.mem_cons_of_mem _ hk), List.idxOf_cons_ne _ hne]
    omega

theorem Alloc.congr {ρ ρ' : Nat → Nat} : ∀ {cells : List Nat} {n : Nat}, (∀ k ∈ cells, ρ k = ρ' k) → Alloc ρ n cells → Alloc ρ' n cells
  | [], _, _, _ => trivial
  | c :: cells, n, h, ha => ⟨(h c (List.mem_cons_self ..)).symm.trans ha.1, ha.2.congr fun k hk => h k (List.mem_cons_of_mem _ hk)⟩

theorem readAs'_compat {nm : Names} {bs : BState} {cells : List Nat} (hd : NDom (· ∉ cells) nm) : Compat (readAs' nm bs cells) nm bs := by
  intro k t i h1 h2
  rw [readAs', if_neg (hd k t h1)]
  exact compat_readAs nm bs k t i h1 h2

theorem renames_readAs' {namer : Namer} {nm : Names} (hn : NInv namer nm) {n : Nat} {bs : BState} (hb : BState.OK n bs) {cells : List Nat} (nd : cells.Nodup) (hd : NDom (· ∉ cells) nm)
    {ts us : List Stmt} (h : ∀ ρ, Compat ρ nm bs → Alloc ρ bs.next cells → us = ts.map (·.rename ρ)) : Renames (readAs' nm bs cells) ts n (bs.next + cells.length) := by
  have h0 : ∀ k ∈ cells, readAs' nm bs cells k = bs.next + cells.idxOf k := fun k hk => if_pos hk
  have hnext : n ≤ bs.next := hb.le
  have has : ∀ t ∈ ts, ∀ k, HasBnode t k → k ∉ cells → ∃ l i, nm.map.get? k = some l ∧ bs.map.get? l = some i := by
    intro t ht k hkt hk
    cases hg : (nm.map.get? k).bind bs.map.get? with
    | some i =>
      cases hl : nm.map.get? k with
      | none => rw [hl] at hg; cases hg
      | some l => rw [hl] at hg; exact ⟨l, i, rfl, hg⟩
    | none =>
      exfalso
      have hc : ∀ j, Compat (fun x => if x = k then j else readAs' nm bs cells x) nm bs ∧ Alloc (fun x => if x = k then j else readAs' nm bs cells x) bs.next cells := by
        intro j
        refine ⟨fun x l i h1 h2 => ?_, alloc_idx nd fun x hx => ?_⟩
        · dsimp only
          split
          · next e => subst e; rw [h1] at hg; rw [show (some l).bind bs.map.get? = bs.map.get? l from rfl, h2] at hg; cases hg
          · exact readAs'_compat hd x l i h1 h2
        · rw [if_neg (by rintro rfl; exact hk hx), h0 x hx]
      have e := (h _ (hc 0).1 (hc 0).2).symm.trans (h _ (hc 1).1 (hc 1).2)
      have := hkt.rename_eq (List.map_inj_left.1 e t ht)
      simp at this
  have named : ∀ t ∈ ts, ∀ k, HasBnode t k → k ∉ cells → ∃ l i, nm.map.get? k = some l ∧ bs.map.get? l = some i ∧ readAs' nm bs cells k = i ∧ n ≤ i ∧ i < bs.next := by
    intro t ht k hkt hk
    obtain ⟨l, i, h1, h2⟩ := has t ht k hkt hk
    refine ⟨l, i, h1, h2, ?_, hb.range l i h2⟩
    rw [readAs', if_neg hk]
    simp [readAs, h1, h2]
  refine ⟨fun t ht t' ht' k k' hkt hkt' e => ?_, fun t ht k hkt => ?_⟩
  · by_cases hk : k ∈ cells <;> by_cases hk' : k' ∈ cells
    · rw [h0 k hk, h0 k' hk'] at e
      exact (List.idxOf_inj hk).1 (by omega)
    · obtain ⟨l, i, _, _, h3, _, h5⟩ := named t' ht' k' hkt' hk'
      rw [h0 k hk, h3] at e
      omega
    · obtain ⟨l, i, _, _, h3, _, h5⟩ := named t ht k hkt hk
      rw [h0 k' hk', h3] at e
      omega
    · obtain ⟨l, i, h1, h2, h3, _⟩ := named t ht k hkt hk
      obtain ⟨l', i', h1', h2', h3', _⟩ := named t' ht' k' hkt' hk'
      rw [h3, h3'] at e
      subst e
      have := hb.inj l l' i h2 h2'
      subst this
      exact hn.inj _ _ _ h1 h1'
  · by_cases hk : k ∈ cells
    · rw [h0 k hk]
      have := List.idxOf_lt_length_iff.2 hk
      omega
    · obtain ⟨l, i, _, _, h3, h4, h5⟩ := named t ht k hkt hk
      rw [h3]
      omega

theorem plainSubjects_filter {o : Orders} {w : World} {g : Graph} {c : Nat} {f : Term → Bool} : ∀ ss : List Term, (∀ s ∈ ss, isList o w g c s = .ok (f s)) →
    plainSubjects o w c g ss = .ok (ss.filter fun s => !f s)
  | [], _ => rfl
  | s :: ss, h => by
    rw [plainSubjects, h s (List.mem_cons_self ..)]
    dsimp only
    rw [plainSubjects_filter ss fun s hs => h s (List.mem_cons_of_mem _ hs)]
    cases hf : f s <;> simp [hf]

/-- The writer succeeds on a graph with lists of literals, and the parser reads its text as the graph, up to the choice of blank nodes. -/
theorem written_is_read_list {nl : PStr → Bool} {m : PrefixMap} {base : Option PStr} (hm : SafeProfileAt nl m (base.getD [])) {namer : Namer} {o : Orders} (ho : Orders.OK o) {w : World} {g : Graph}
    (hg : g.Reach) (hL : UsualList w listC) {lists : List (List (Nat × Term))} (hT : WithLists nl m (base.getD []) namer (w.lang listC) (· ∈ g.triples) lists) {fuel : Nat}
    (hfuel : ∀ cs ∈ lists, cs.length < fuel) (live : ∀ s ∈ g.subjects, ∃ t ∈ g.triples, t.s = s) :
    ∃ text, serializeTurtle o w fuel g base (some m) namer = .ok text ∧
      ∀ n, ∃ n' ts ρ, parseText nl [] n text = .ok (n', ts) ∧ (∀ x, x ∈ ts ↔ ∃ t ∈ g.triples, x = (readStmt t).rename ρ) ∧ Renames ρ g.triples n n' := by
  classical
  have hlist : ∀ s ∈ g.subjects, isList o w g listC s = .ok (decide (IsCell lists s)) := fun s hs => by
    by_cases hc : IsCell lists s
    · rw [isList_cell ho hg hL hT hc, decide_eq_true hc]
    · obtain ⟨t, ht, rfl⟩ := live s hs
      rw [isList_plain ho hg hL hT (hT.subj t ht hc).truthy hc, decide_eq_false hc]
  have hps := plainSubjects_filter (f := fun s => decide (IsCell lists s)) g.subjects hlist
  have mem_f : ∀ s, s ∈ g.subjects.filter (fun s => !decide (IsCell lists s)) ↔ s ∈ g.subjects ∧ ¬ IsCell lists s := fun s => by simp
  obtain ⟨nm, ss, h1, hn, _, h2, h3⟩ := sortedNames_at (base := base) hm.toSafeProfile (NInv.empty namer) (ts := g.subjects.filter fun s => !decide (IsCell lists s)) (hg.inv.wspo.1.filter _) (fun s hs => by
    obtain ⟨hs, hc⟩ := (mem_f s).1 hs
    obtain ⟨t, ht, rfl⟩ := live s hs
    exact hT.subj t ht hc)
  have hd : NDom (fun k => ¬ IsCell lists (.bnode k)) nm := sortedNames_dom h1 (fun _ _ h => by cases h) fun b hb => ((mem_f _).1 hb).2
  have mem_ss : ∀ x, x ∈ ss.map (·.2) ↔ x ∈ g.subjects ∧ ¬ IsCell lists x := fun x => h2.mem_iff.trans (mem_f x)
  obtain ⟨nm', X, ds, ts, a1, hn', _, hd', a2, a3, a5, a6⟩ := subjs_frag_list hm.toSafeProfile ho hg hL hT hfuel live ss nm hn hd
    (fun e he => ⟨((mem_ss e.2).1 (List.mem_map.2 ⟨e, he, rfl⟩)).1, ((mem_ss e.2).1 (List.mem_map.2 ⟨e, he, rfl⟩)).2, h3 e he⟩)
    (h2.nodup_iff.2 (hg.inv.wspo.1.filter _))
  have a6' : ∀ t, t ∈ ts ↔ t ∈ g.triples ∧ ¬ IsCell lists t.s := fun t => by
    rw [a6, mem_ss]
    exact ⟨fun h => ⟨h.1, h.2.2⟩, fun h => ⟨h.1, Idx.mem_keys_of_find ((hg.inv.spo _ _ _ t).2 ⟨h.1, rfl, rfl, rfl⟩), h.2⟩⟩
  have hmem : ∀ t, t ∈ ts.flatMap (withList lists) ↔ t ∈ g.triples := by
    intro t
    rw [List.mem_flatMap]
    constructor
    · rintro ⟨t', ht', ht⟩
      rw [withList, List.mem_append, List.mem_singleton] at ht
      rcases ht with ht | rfl
      · rw [listFor] at ht
        cases hl : listAt lists t'.o with
        | none => rw [hl] at ht; cases ht
        | some cs => rw [hl] at ht; exact hT.cells cs (List.mem_of_find?_eq_some hl) t ht
      · exact ((a6' t).1 ht').1
    · intro ht
      by_cases hc : IsCell lists t.s
      · obtain ⟨cs, hcs, htc⟩ := hT.only t ht hc
        obtain ⟨t', ht', hc', e⟩ := hT.used cs hcs
        refine ⟨t', (a6' t').2 ⟨ht', hc'⟩, List.mem_append_left _ ?_⟩
        rw [listFor, e, hT.at_ hcs]
        exact htc
      · exact ⟨t, (a6' t).2 ⟨ht, hc⟩, by simp [withList]⟩
  let cells := ts.flatMap (cellsFor lists)
  have hcell : ∀ t ∈ ts, ∀ k ∈ cellsFor lists t, ∃ cs ∈ lists, t.o = headOf cs ∧ k ∈ cs.map (·.1) := by
    intro t _ k hk
    rw [cellsFor] at hk
    cases hl : listAt lists t.o with
    | none => rw [hl] at hk; cases hk
    | some cs =>
      rw [hl] at hk
      have h := List.find?_some hl
      exact ⟨cs, List.mem_of_find?_eq_some hl, (of_decide_eq_true h).symm, by simpa [madeCells] using hk⟩
  have nd : cells.Nodup := by
    refine List.nodup_flatMap.2 ⟨fun t ht => ?_, ?_⟩
    · rw [cellsFor]
      cases hl : listAt lists t.o with
      | none => exact .nil
      | some cs =>
        show (madeCells cs).Nodup
        rw [madeCells, List.nodup_reverse]
        exact (List.nodup_flatMap.1 hT.nodup).1 cs (List.mem_of_find?_eq_some hl)
    · refine List.Pairwise.imp_of_mem (fun {a b} ha hb hab k hk hk' => ?_) (List.nodup_iff_pairwise_ne.1 a5)
      obtain ⟨cs, hcs, e, hx⟩ := hcell a ha k hk
      obtain ⟨cs', hcs', e', hx'⟩ := hcell b hb k hk'
      have := hT.one hcs hcs' hx hx'
      subst this
      obtain ⟨p1, p2⟩ := (a6' a).1 ha
      obtain ⟨q1, q2⟩ := (a6' b).1 hb
      exact hab (hT.once a b p1 q1 p2 q2 (e ▸ headOf_cell hcs (hT.ne cs hcs)) (.inl (e'.trans e.symm))).symm
  have hdc : NDom (· ∉ cells) nm' := by
    intro k t hk hc
    obtain ⟨t', ht', hc⟩ := List.mem_flatMap.1 hc
    obtain ⟨cs, hcs, _, hx⟩ := hcell t' ht' k hc
    obtain ⟨e, he, rfl⟩ := List.mem_map.1 hx
    exact hd' _ t hk ⟨cs, hcs, e, he, rfl⟩
  refine ⟨header base m ++ X, ?_, fun n => ?_⟩
  · simp only [serializeTurtle, Option.getD_some, hps, h1, a1]
  · obtain ⟨bs, es, k1, k2, k3, k4⟩ := a3 n _ (agreesAt_declared hm.toSafeProfile (base.getD []) { map := [], next := n }) (BState.OK.init n)
    have hp : Plainly lark (docToks (docDecls base m ++ ds)) (header base m ++ X) := by
      have := header_frag_at .plainly hm.names hm.baseLegal a2
      simpa [docToks] using this
    obtain ⟨k, hk⟩ := eval_docDecls hm k1
    have hgk : ∀ ρ, Compat ρ nm' bs → Alloc ρ bs.next cells → ∀ k, genStmts bs.next (List.replicate k .directive ++ es) =
        (bs.next + cells.length, (ts.flatMap (withList lists)).map fun t => (readStmt t).rename ρ) := by
      intro ρ hρ ha k
      induction k with
      | zero => exact k4 ρ hρ bs.next ha
      | succ k ih => rw [List.replicate_succ, List.cons_append, genStmts]; simp [genStmt, ih]
    have hren := renames_readAs' hn' k2 nd hdc (ts := (ts.flatMap (withList lists)).map readStmt) (us := (genStmts bs.next (List.replicate k .directive ++ es)).2)
      fun ρ hρ ha => by rw [hgk ρ hρ ha, List.map_map]; rfl
    have halloc : Alloc (readAs' nm' bs cells) bs.next cells := alloc_idx nd fun k hk => if_pos hk
    refine ⟨bs.next + cells.length, (ts.flatMap (withList lists)).map (fun t => (readStmt t).rename (readAs' nm' bs cells)), readAs' nm' bs cells, ?_, fun x => ?_, ?_⟩
    · rw [parseText, C96_exact hp]
      show (match evalStmts nl { base := [], prefixes := initialPrefixes, bn := { map := [], next := n } } (docDecls base m ++ ds) with | .error _ => _ | .ok (st, es) => _) = _
      rw [hk]
      show Except.ok (genStmts bs.next _) = _
      rw [hgk _ (readAs'_compat hdc) halloc]
    · rw [List.mem_map]
      exact ⟨fun ⟨t, ht, e⟩ => ⟨t, (hmem t).1 ht, e.symm⟩, fun ⟨t, ht, e⟩ => ⟨t, (hmem t).2 ht, e.symm⟩⟩
    · have hmr : ∀ t ∈ g.triples, readStmt t ∈ (ts.flatMap (withList lists)).map readStmt := fun t ht => List.mem_map.2 ⟨t, (hmem t).2 ht, rfl⟩
      exact ⟨fun t ht t' ht' k k' hk hk' => hren.inj _ (hmr t ht) _ (hmr t' ht') k k' (hasBnode_readStmt hk) (hasBnode_readStmt hk'),
        fun t ht k hk => hren.fresh _ (hmr t ht) k (hasBnode_readStmt hk)⟩

/-- C118 with lists of literals: for any history whose statements survive, lists included, and in which every subject still has a triple; plain literals come back as `xsd:string` (`readStmt`). `fuel` bounds the number of items the model asks of a
    list. Missing: lists with other items than literals (`C61_list_of_iris`), lists that are used twice or not at all or not as the only object (`C118_shared_list`, `C118_lost_list`,
    `C118_two_objects`), and everything else that is not safe. -/
theorem C118_lists_partial {nl : PStr → Bool} {m : PrefixMap} {base : Option PStr} (hm : SafeProfileAt nl m (base.getD [])) {namer : Namer} (u : Term) (ops : List Verif.Spec.GOp) {o : Orders}
    (ho : Orders.OK o) {w : World} (hL : UsualList w listC) {lists : List (List (Nat × Term))}
    (hT : WithLists nl m (base.getD []) namer (w.lang listC) (fun x => ∃ t ∈ Verif.Spec.runSet ops, x = t.stmt) lists)
    (live : ∀ t ∈ everAdded ops, ∃ t' ∈ Verif.Spec.runSet ops, t'.s = t.s) {fuel : Nat} (hfuel : ∀ cs ∈ lists, cs.length < fuel) :
    ∃ text, serializeTurtle o w fuel (Graph.run u ops) base (some m) namer = .ok text ∧
      ∀ n u', ∃ g n' ρ, parse (fun g t => g.add t) nl [] n (Graph.new u') (.str text) = (g, n', .ok ()) ∧ Renames ρ (Graph.run u ops).triples n n' ∧
        ∀ x, g.contains x = true ↔ ∃ t ∈ Verif.Spec.runSet ops, x = (readStmt t.stmt).rename ρ := by
  have rep := Graph.rep_run u ops
  have hT' : WithLists nl m (base.getD []) namer (w.lang listC) (· ∈ (Graph.run u ops).triples) lists := by
    have : (fun x => ∃ t ∈ Verif.Spec.runSet ops, x = t.stmt) = (· ∈ (Graph.run u ops).triples) := funext fun x => propext (rep.mem x).symm
    exact this ▸ hT
  obtain ⟨text, h1, h2⟩ := written_is_read_list hm ho ⟨u, ops, rfl⟩ hL hT' hfuel (fun s hs => by
    obtain ⟨t, ht, rfl⟩ := ((C04_lists_ever_added u ops).1.2 s).1 hs
    obtain ⟨t', ht', e⟩ := live t ht
    exact ⟨t'.stmt, (rep.mem _).2 ⟨t', ht', rfl⟩, e⟩)
  refine ⟨text, h1, fun n u' => ?_⟩
  obtain ⟨n', ts, ρ, h3, h4, h5⟩ := h2 n
  refine ⟨(Graph.new u').addAll ts, n', ρ, ?_, h5, fun x => ?_⟩
  · simp only [parse, h3]; rfl
  · rw [Graph.contains, decide_eq_true_eq, Graph.mem_addAll, h4]
    constructor
    · rintro (⟨t, ht, rfl⟩ | h)
      · obtain ⟨t, ht', rfl⟩ := (rep.mem t).1 ht
        exact ⟨t, ht', rfl⟩
      · simp [Graph.new] at h
    · rintro ⟨t, ht, rfl⟩
      exact .inl ⟨_, (rep.mem _).2 ⟨t, ht, rfl⟩, rfl⟩

theorem usualList_new : UsualList World.new listC := { listClass_new with type := rfl }

/-! What happens to other lists. -/

def exOne : Term := .lit (py! "1") none (some (py! "http://www.w3.org/2001/XMLSchema#integer"))
def exA : Term := .lit (py! "a") (some (py! "en")) none

/-- The list `(1)`, whose cell is the blank node 0. -/
def exList1 : List Verif.Spec.GOp := [.add ⟨.bnode 0, rdfFirst, exOne⟩, .add ⟨.bnode 0, rdfRest, rdfNil⟩]

/-- A list that two triples share becomes two lists: four triples become six. -/
theorem C118_shared_list : (Graph.run .none ([.add ⟨.named (py! "x:s"), .named (py! "x:p"), .bnode 0⟩, .add ⟨.named (py! "x:t"), .named (py! "x:p"), .bnode 0⟩] ++ exList1)).triples.length = 4 ∧
    serializeTurtle {} World.new 2 (Graph.run .none ([.add ⟨.named (py! "x:s"), .named (py! "x:p"), .bnode 0⟩, .add ⟨.named (py! "x:t"), .named (py! "x:p"), .bnode 0⟩] ++ exList1)) none none
        (some exNamer) =
      .ok (py! "@prefix xsd: <http://www.w3.org/2001/XMLSchema#> .\n<x:s> <x:p> (1) ;\n      .\n\n<x:t> <x:p> (1) ;\n      .\n\n") ∧
    parseText (fun _ => true) [] 0 (py! "@prefix xsd: <http://www.w3.org/2001/XMLSchema#> .\n<x:s> <x:p> (1) ;\n      .\n\n<x:t> <x:p> (1) ;\n      .\n\n") =
      .ok (2, [mkTriple (.bnode 0) rdfFirst exOne, mkTriple (.bnode 0) rdfRest rdfNil, mkTriple (.named (py! "x:s")) (.named (py! "x:p")) (.bnode 0),
        mkTriple (.bnode 1) rdfFirst exOne, mkTriple (.bnode 1) rdfRest rdfNil, mkTriple (.named (py! "x:t")) (.named (py! "x:p")) (.bnode 1)]) := ⟨rfl, rfl, rfl⟩

/-- A list that is no object is not written. -/
theorem C118_lost_list : serializeTurtle {} World.new 2 (Graph.run .none exList1) none none (some exNamer) = .ok (py! "@prefix xsd: <http://www.w3.org/2001/XMLSchema#> .\n") := rfl

/-- What else is said of a cell is not written. -/
theorem C118_lost_property : serializeTurtle {} World.new 2 (Graph.run .none ([.add ⟨.named (py! "x:s"), .named (py! "x:p"), .bnode 0⟩,
      .add ⟨.bnode 0, .named (py! "x:p"), .named (py! "x:o")⟩] ++ exList1)) none none (some exNamer) =
    .ok (py! "@prefix xsd: <http://www.w3.org/2001/XMLSchema#> .\n<x:s> <x:p> (1) ;\n      .\n\n") := rfl

/-- A list beside another object is written, but the reader makes a triple of it whose object is no term. -/
theorem C118_two_objects : serializeTurtle {} World.new 2 (Graph.run .none ([.add ⟨.named (py! "x:s"), .named (py! "x:p"), .bnode 0⟩,
      .add ⟨.named (py! "x:s"), .named (py! "x:p"), exOne⟩] ++ exList1)) none none (some exNamer) =
      .ok (py! "@prefix xsd: <http://www.w3.org/2001/XMLSchema#> .\n<x:s> <x:p> (1),\n            1 ;\n      .\n\n") ∧
    ∃ k, parseText (fun _ => true) [] 0 (py! "@prefix xsd: <http://www.w3.org/2001/XMLSchema#> .\n<x:s> <x:p> (1),\n            1 ;\n      .\n\n") =
      .ok (k, [mkTriple (.named (py! "x:s")) (.named (py! "x:p")) (.gen 0), mkTriple (.named (py! "x:s")) (.named (py! "x:p")) exOne]) := ⟨rfl, _, rfl⟩

/-- A list with an item in another language than the one of the class `List` stops the writer. -/
theorem C118_other_language : ∃ e, serializeTurtle {} World.new 2 (Graph.run .none [.add ⟨.named (py! "x:s"), .named (py! "x:p"), .bnode 0⟩,
      .add ⟨.bnode 0, rdfFirst, .lit (py! "a") (some (py! "fr")) none⟩, .add ⟨.bnode 0, rdfRest, rdfNil⟩]) none none (some exNamer) = .error e := ⟨_, rfl⟩

/-! A graph that meets the hypotheses: a list of an integer and a string, and a blank node that is no list. -/

def exLists : List Verif.Spec.GOp :=
  [.add ⟨.bnode 7, .named (py! "x:p"), .bnode 3⟩, .add ⟨.bnode 3, rdfFirst, exOne⟩, .add ⟨.bnode 3, rdfRest, .bnode 9⟩, .add ⟨.bnode 9, rdfFirst, exA⟩, .add ⟨.bnode 9, rdfRest, rdfNil⟩]

example : serializeTurtle {} World.new 3 (Graph.run .none exLists) (some exBase.text) (some defaultPrefixes) (some exNamer) =
    .ok (py! "@base <http://e/a#> .\n@prefix xsd: <http://www.w3.org/2001/XMLSchema#> .\n_:b0 <x:p> (1 \"a\"@en) ;\n     .\n\n") := rfl

example := C118_lists_partial (base := some exBase.text) (namer := some exNamer) exProfile .none exLists Orders.OK.default usualList_new (lists := [[(3, exOne), (9, exA)]])
  (by
    have key : ∀ x, (∃ t ∈ Verif.Spec.runSet exLists, x = t.stmt) ↔ x = mkTriple (.bnode 7) (.named (py! "x:p")) (.bnode 3) ∨ x ∈ cellStmts [(3, exOne), (9, exA)] := by
      have : Verif.Spec.runSet exLists = {⟨.bnode 7, .named (py! "x:p"), .bnode 3⟩, ⟨.bnode 3, rdfFirst, exOne⟩, ⟨.bnode 3, rdfRest, .bnode 9⟩, ⟨.bnode 9, rdfFirst, exA⟩,
        ⟨.bnode 9, rdfRest, rdfNil⟩} := by decide
      intro x
      rw [this]
      simp [cellStmts, headOf, Verif.Spec.Tri.stmt]
      tauto
    have hp : SafeIriAt (fun _ => true) defaultPrefixes exBase.text (py! "x:p") := safe_short_at (by decide) (by unfold LegalIri; decide) (by decide)
      (fun _ => joins_alone exBase_good (alone_x 112 (by decide))) (fun rest e => by
        have := congrArg List.head? e
        rw [exBase_text] at this
        cases this)
    have cell : ∀ x, IsCell [[(3, exOne), (9, exA)]] x ↔ x = .bnode 3 ∨ x = .bnode 9 := fun x => by simp [IsCell]; aesop
    have cellS : ∀ t ∈ cellStmts [(3, exOne), (9, exA)], IsCell [[(3, exOne), (9, exA)]] t.s := by
      intro t ht
      rw [cell]
      simp [cellStmts] at ht
      rcases ht with rfl | rfl | rfl | rfl <;> simp [mkTriple]
    have other : ∀ x, (∃ t ∈ Verif.Spec.runSet exLists, x = t.stmt) → ¬ IsCell [[(3, exOne), (9, exA)]] x.s → x = mkTriple (.bnode 7) (.named (py! "x:p")) (.bnode 3) := fun x hx hc => by
      rcases (key x).1 hx with h | h
      · exact h
      · exact absurd (cellS x h) hc
    have h7 : ¬ IsCell [[(3, exOne), (9, exA)]] (.bnode 7) := by rw [cell]; simp
    exact
      { ne := by simp
        nodup := by simp
        items := by
          intro cs hcs e he
          rw [List.mem_singleton] at hcs
          subst hcs
          simp only [List.mem_cons, List.not_mem_nil, or_false] at he
          rcases he with rfl | rfl
          · exact ⟨⟨_, _, _, rfl, .safe (.integer (.integer (sg := []) (.inl rfl) (by unfold Digits isDigitChar; decide) (by decide)))⟩, fun l hl => .inr (.inr (.inl ⟨_, _, _, rfl⟩))⟩
          · refine ⟨⟨_, _, _, rfl, .safe (.lang (by unfold Clean; decide) ⟨py! "en", [], rfl, by decide, by unfold isAlpha; decide, .nil⟩)⟩, fun l hl => .inr (.inl ⟨_, _, _, rfl, ?_⟩)⟩
            have : l = py! "en" := Option.some.inj (hl.symm.trans (by decide))
            subst this
            decide
        cells := fun cs hcs t ht => by
          rw [List.mem_singleton] at hcs
          subst hcs
          exact (key t).2 (.inr ht)
        only := fun t ht hc => by
          rcases (key t).1 ht with rfl | h
          · exact absurd hc h7
          · exact ⟨_, List.mem_singleton_self _, h⟩
        subj := fun t ht hc => by rw [other t ht hc]; exact .inr ⟨⟨7, rfl⟩, _, rfl, exNamer_safe⟩
        pred := fun t ht hc => by rw [other t ht hc]; exact ⟨_, rfl, hp, by decide⟩
        obj := fun t ht hc => by rw [other t ht hc]; exact .inr ⟨_, List.mem_singleton_self _, rfl⟩
        once := fun t t' ht ht' hc hc' _ _ => by rw [other t ht hc, other t' ht' hc']
        used := fun cs hcs => by
          rw [List.mem_singleton] at hcs
          subst hcs
          exact ⟨_, (key _).2 (.inl rfl), h7, rfl⟩
        nil := fun t ht e => by
          rcases (key t).1 ht with rfl | h
          · cases e
          · obtain h' := (cell _).1 (cellS t h)
            rw [e] at h'
            rcases h' with h' | h' <;> cases h' })
  (by decide) (fuel := 3) (by simp)

end Verif.Turtle
