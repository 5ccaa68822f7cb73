import Verif.Props.TurtleLocal
import Verif.Props.ConvertBack
/-
C173: a Turtle text of this library that is read and written again is the same text.
-/
namespace Verif.Turtle
open Verif.Turtle.Spec

/-! ### The objects of a graph that was read, in the order of reading -/

theorem set_absent {κ ν : Type} [DecidableEq κ] : ∀ (d : Dict κ ν) (k : κ) (v : ν), k ∉ Dict.keys d → Dict.set d k v = d ++ [(k, v)]
  | [], _, _, _ => rfl
  | (a, b) :: d, k, v, h => by
    have h1 : a ≠ k := fun e => h (by simp [Dict.keys, e])
    have h2 : k ∉ Dict.keys d := fun e => h (by simp [Dict.keys] at e ⊢; exact .inr e)
    show (if _ then _ else _) = _
    rw [if_neg h1, set_absent d k v h2]
    rfl

/-- The innermost dicts hold the triples of the list, in its order. -/
def HoldsInOrder (ix : Idx) (acc : List Stmt) : Prop :=
  ∀ s p, ix.l2 s p = (acc.filter fun t => t.s = s ∧ t.p = p).map fun t => (t.o, t)

theorem HoldsInOrder.put {ix : Idx} {acc : List Stmt} (h : HoldsInOrder ix acc) {t : Stmt} (hn : ∀ x ∈ acc, x.s = t.s → x.p = t.p → x.o ≠ t.o) :
    HoldsInOrder (ix.put t.s t.p t.o t) (acc ++ [t]) := by
  intro s p
  have e1 : (ix.put t.s t.p t.o t).l2 s p = if t.s = s ∧ t.p = p then (ix.l2 s p).set t.o t else ix.l2 s p := by
    unfold Idx.put Idx.l2
    rw [Idx.l1_set]
    by_cases h1 : t.s = s
    · subst h1
      rw [if_pos rfl, Dict.get?_set]
      by_cases h2 : t.p = p
      · subst h2; simp
      · simp [h2]
    · simp [h1]
  rw [e1, List.filter_append, List.map_append, ← h s p]
  by_cases h2 : t.s = s ∧ t.p = p
  · obtain ⟨rfl, rfl⟩ := h2
    rw [if_pos ⟨rfl, rfl⟩, set_absent]
    · simp
    · rw [h]
      simp only [Dict.keys, List.map_map, List.mem_map, List.mem_filter, Function.comp, decide_eq_true_eq, not_exists, not_and]
      rintro x ⟨hx, a, b⟩ e
      exact hn x hx a b e
  · rw [if_neg h2]
    simp [h2]

theorem HoldsInOrder.addAll : ∀ (ts acc : List Stmt) (g : Graph), HoldsInOrder g.spo acc → (acc ++ ts).Nodup → (∀ t ∈ acc ++ ts, t.g = none) →
    HoldsInOrder (ts.foldl Graph.add g).spo (acc ++ ts)
  | [], acc, g, h, _, _ => by simpa using h
  | t :: ts, acc, g, h, nd, hi => by
    have e : acc ++ t :: ts = (acc ++ [t]) ++ ts := by simp
    rw [e] at nd hi ⊢
    refine HoldsInOrder.addAll ts (acc ++ [t]) (g.add t) ?_ nd hi
    refine h.put fun x hx h1 h2 h3 => ?_
    have nd' := (List.nodup_append.1 nd).1
    have : x = t := by
      have a := hi x (by simp [hx])
      have b := hi t (by simp)
      clear nd nd' hi h hx e
      obtain ⟨x1, x2, x3, x4⟩ := x
      obtain ⟨t1, t2, t3, t4⟩ := t
      dsimp only at h1 h2 h3 a b
      rw [h1, h2, h3, a, b]
    subst this
    exact (List.nodup_append.1 nd').2.2 x hx x (by simp) rfl

theorem match_values {ord : List Stmt → List Stmt} (g : Graph) {s p : Term} (hs : s.truthy = true) (hp : p.truthy = true) : g.match ord s p .none = (g.spo.l2 s p).values := by
  unfold Graph.match
  have hn : (Term.none).truthy = false := rfl
  simp only [hs, hp, hn, if_true, Bool.false_eq_true, if_false]
  split
  · rfl
  · next h =>
    have : g.spo.l2 s p = [] := by
      unfold Idx.l2
      cases e : Dict.get? (g.spo.l1 s) p with
      | none => rfl
      | some d =>
        exfalso
        apply h
        rw [Bool.and_eq_true, Dict.has_iff, Dict.has_iff, Dict.mem_keys_iff, Dict.mem_keys_iff, e]
        refine ⟨?_, rfl⟩
        unfold Idx.l1 at e
        cases e2 : Dict.get? g.spo s with
        | none => rw [e2] at e; cases e
        | some _ => rfl
    rw [this]; rfl

/-- `match` on what was read gives the triples in the order in which they were read. -/
theorem match_read {ord : List Stmt → List Stmt} {u : Term} {ts : List Stmt} (nd : ts.Nodup) (hi : ∀ t ∈ ts, t.g = none) {s p : Term} (hs : s.truthy = true) (hp : p.truthy = true) :
    ((Graph.new u).addAll ts).match ord s p .none = ts.filter fun t => t.s = s ∧ t.p = p := by
  rw [match_values _ hs hp]
  have := HoldsInOrder.addAll ts [] (Graph.new u) (fun s p => rfl) (by simpa using nd) (by simpa using hi)
  rw [List.nil_append] at this
  have h := this s p
  unfold Graph.addAll
  rw [h]
  unfold Dict.values
  rw [List.map_map]
  exact List.map_id _

/-! ### C173 -/

theorem simple_of_safe {nl : PStr → Bool} {m : PrefixMap} {b : PStr} {namer : Namer} {t : Verif.Spec.Tri} (hg : Ground t) (h : SafeTriAt nl m b namer t) : Simple t := by
  obtain ⟨h1, ⟨j, hj, hj2, hj3⟩, -⟩ := h
  refine ⟨hg, fun e => ?_, fun e => ?_, fun e => ?_⟩
  · rcases h1 with ⟨i, hi, hi2⟩ | ⟨⟨k, hk⟩, -⟩
    · rw [e] at hi; cases hi; exact hi2.ne rfl
    · rw [e] at hk; cases hk
  · rw [e] at hj; cases hj; exact hj2.ne rfl
  · rw [e] at hj; cases hj; exact hj3 rfl

theorem rename_ground {nl : PStr → Bool} {m : PrefixMap} {b : PStr} {namer : Namer} {t : Verif.Spec.Tri} (hg : Ground t) (h : SafeTriAt nl m b namer t) (ρ : Nat → Nat) :
    (readStmt t.stmt).rename ρ = t.stmt := by
  have e : readStmt t.stmt = t.stmt := by
    have := h.2.2.asRead
    simp [readStmt, Verif.Spec.Tri.stmt, mkTriple, this]
  rw [e]
  obtain ⟨s, p, x⟩ := t
  obtain ⟨⟨i, hi⟩, ⟨j, hj⟩, hx⟩ := hg
  dsimp only at hi hj hx
  subst hi hj
  rcases hx with ⟨k, rfl⟩ | ⟨v, l, d, rfl⟩ <;> rfl

/-- C173. A graph of IRIs and literals that can be written is written, the text is read into a new graph, and that is written again: the same text, whatever the orders of sets in the two
    runs. -/
theorem C173_stable {nl : PStr → Bool} {m : PrefixMap} {base : Option PStr} (hm : SafeProfileAt nl m (base.getD [])) {namer : Namer} (u : Term) (ops : List Verif.Spec.GOp)
    (hs : ∀ t ∈ everAdded ops, Ground t ∧ SafeTriAt nl m (base.getD []) namer t) (live : ∀ t ∈ everAdded ops, ∃ t' ∈ Verif.Spec.runSet ops, t'.s = t.s)
    {o o' : Orders} (ho : Orders.OK o) (ho' : Orders.OK o') {w w' : World} (fuel fuel' : Nat) (hr : resolveKey w listC (py! "rdf:rest") = .ok (some (Heap.rdfNs ++ py! "rest")))
    (hr' : resolveKey w' listC (py! "rdf:rest") = .ok (some (Heap.rdfNs ++ py! "rest"))) :
    ∃ text, serializeTurtle o w fuel (Graph.run u ops) base (some m) namer = .ok text ∧
      ∀ n u', ∃ g n', parse (fun g t => g.add t) nl [] n (Graph.new u') (.str text) = (g, n', .ok ()) ∧ serializeTurtle o' w' fuel' g base (some m) namer = .ok text := by
  have rep := Graph.rep_run u ops
  obtain ⟨text, h1, h2⟩ := written_is_read_order hm (safeGraphAt_run u ops (fun t ht => (hs t (runSet_everAdded t ht)).2.text) live) ho (w := w) fuel hr
  refine ⟨text, h1, fun n u' => ?_⟩
  obtain ⟨n', ts, ρ, h3, -, -, us, p, e, f⟩ := h2 n
  have hus : ∀ x ∈ us, ∃ t ∈ Verif.Spec.runSet ops, x = t.stmt := fun x hx => (rep.mem x).1 (p.mem_iff.1 hx)
  have ets : ts = us := by
    rw [e]
    refine (List.map_congr_left fun x hx => ?_).trans (List.map_id us)
    obtain ⟨t, ht, rfl⟩ := hus x hx
    obtain ⟨a, b⟩ := hs t (runSet_everAdded t ht)
    exact rename_ground a b ρ
  subst ets
  clear e
  have nd : ts.Nodup := p.nodup_iff.2 rep.inv.nodup
  have hi : ∀ t ∈ ts, t.g = none := fun x hx => by obtain ⟨t, -, rfl⟩ := hus x hx; rfl
  let tris : List Verif.Spec.Tri := ts.map fun t => ⟨t.s, t.p, t.o⟩
  have htris : tris.map Verif.Spec.Tri.stmt = ts := by
    rw [List.map_map]
    refine (List.map_congr_left fun x hx => ?_).trans (List.map_id ts)
    obtain ⟨t, -, rfl⟩ := hus x hx
    rfl
  have hrun : Graph.run u' [.addAll tris] = (Graph.new u').addAll ts := by rw [← htris]; rfl
  have rep' := Graph.rep_run u' [.addAll tris]
  have hmem : ∀ x, x ∈ (Graph.run u' [.addAll tris]).triples ↔ x ∈ (Graph.run u ops).triples := fun x => by
    rw [hrun, Graph.mem_addAll, p.mem_iff]
    exact ⟨fun h => h.resolve_right (by simp [Graph.new]), .inl⟩
  have hset : ∀ t, t ∈ Verif.Spec.runSet [.addAll tris] ↔ t ∈ Verif.Spec.runSet ops := fun t => by rw [← rep'.mem_stmt, ← rep.mem_stmt, hmem]
  have hever : ∀ t, t ∈ everAdded [.addAll tris] → t ∈ Verif.Spec.runSet ops := by
    intro t ht
    have ht : t ∈ tris := by simpa [everAdded] using ht
    rw [← rep.mem_stmt, ← p.mem_iff, ← htris]
    exact List.mem_map.2 ⟨t, ht, rfl⟩
  have hs' : ∀ t ∈ everAdded [.addAll tris], Ground t ∧ SafeTriAt nl m (base.getD []) namer t := fun t ht => hs t (runSet_everAdded t (hever t ht))
  have live' : ∀ t ∈ everAdded [.addAll tris], ∃ t' ∈ Verif.Spec.runSet [.addAll tris], t'.s = t.s := fun t ht => ⟨t, (hset t).2 (hever t ht), rfl⟩
  obtain ⟨text', k1, -⟩ := written_is_read hm (safeGraphAt_run u' [.addAll tris] (fun t ht => (hs' t (runSet_everAdded t ht)).2.text) live') ho' (w := w') fuel' hr'
  refine ⟨(Graph.new u').addAll ts, n', by simp only [parse, h3]; rfl, ?_⟩
  rw [← hrun, k1]
  have sm : ∀ t ∈ everAdded ops, Simple t := fun t ht => simple_of_safe (hs t ht).1 (hs t ht).2
  have sm' : ∀ t ∈ everAdded [.addAll tris], Simple t := fun t ht => simple_of_safe (hs' t ht).1 (hs' t ht).2
  have pg := plainGraph_run u sm ho hr
  obtain ⟨bs, a1, -, a3⟩ := layout_full u ops (fun t ht => (sm t ht).truthy) ho hr h1
  obtain ⟨bs', b1, -, b3⟩ := layout_full u' [.addAll tris] (fun t ht => (sm' t ht).truthy) ho' hr' k1
  obtain ⟨ss, c1, rfl⟩ := a3 pg fun t ht => (sm t ht).1.1
  obtain ⟨ss', d1, rfl⟩ := b3 (plainGraph_run u' sm' ho' hr') fun t ht => (sm' t ht).1.1
  obtain ⟨⟨ns, ks⟩, -, -⟩ := C04_lists_ever_added u ops
  obtain ⟨⟨ns', ks'⟩, -, -⟩ := C04_lists_ever_added u' [.addAll tris]
  have named : ∀ s ∈ (Graph.run u ops).subjects, ∃ i, s = .named i := fun s h => by
    obtain ⟨t, ht, rfl⟩ := (ks s).1 h; exact (sm t ht).1.1
  have subj : (Graph.run u ops).subjects.Perm (Graph.run u' [.addAll tris]).subjects := by
    refine (List.perm_ext_iff_of_nodup ns ns').2 fun s => ?_
    rw [ks, ks']
    constructor
    · rintro ⟨t, ht, rfl⟩
      obtain ⟨t', ht', e⟩ := live t ht
      exact ⟨t', runSet_everAdded t' ((hset t').2 ht'), e⟩
    · rintro ⟨t, ht, rfl⟩
      exact ⟨t, runSet_everAdded t (hever t ht), rfl⟩
  have ess : ss' = ss := by
    rw [← sortedNames_perm {} subj named, c1] at d1
    exact (Prod.mk.inj (Except.ok.inj d1)).2.symm
  subst ess
  rw [a1, b1]
  refine congrArg (fun l => Except.ok (_ ++ List.flatMap Block.text l)) (List.map_congr_left fun e he => ?_)
  obtain ⟨t1, ht1, hs1⟩ := (ks e.2).1 ((sortedNames_sorted named c1).2.1.mem_iff.1 (List.mem_map.2 ⟨e, he, rfl⟩))
  have htr : e.2.truthy = true := hs1 ▸ (sm t1 ht1).truthy.1
  have mm : ∀ q x, x ∈ (Graph.run u' [.addAll tris]).match o'.stmts e.2 q .none ↔ x ∈ (Graph.run u ops).match o.stmts e.2 q .none := fun q x => by
    rw [Graph.mem_match rep'.inv ho'.stmts, Graph.mem_match rep.inv ho.stmts, hmem]
  let preds := o.terms (pySet (((Graph.run u ops).match o.stmts e.2 .none .none).map (·.p)))
  let preds' := o'.terms (pySet (((Graph.run u' [.addAll tris]).match o'.stmts e.2 .none .none).map (·.p)))
  have mp : ∀ q, q ∈ preds ↔ ∃ x ∈ (Graph.run u ops).match o.stmts e.2 .none .none, x.p = q := fun q => by
    rw [(ho.terms _).mem_iff, mem_pySet, List.mem_map]
  have pn : ∀ q ∈ preds, ∃ i, q = .named i := fun q hq => by
    obtain ⟨x, hx, rfl⟩ := (mp q).1 hq; exact pg.pred e.2 x hx
  have pp : preds.Perm preds' := by
    refine (List.perm_ext_iff_of_nodup ((ho.terms _).nodup_iff.2 (nodup_pySet _)) ((ho'.terms _).nodup_iff.2 (nodup_pySet _))).2 fun q => ?_
    rw [mp, (ho'.terms _).mem_iff, mem_pySet, List.mem_map]
    exact ⟨fun ⟨x, hx, h⟩ => ⟨x, (mm _ x).2 hx, h⟩, fun ⟨x, hx, h⟩ => ⟨x, (mm _ x).1 hx, h⟩⟩
  obtain ⟨ps, q1, -, -⟩ := sortedNames_named (m := m) (base := base) (namer := namer) {} pn
  have q2 := sortedNames_sorted pn q1
  have e1 : predPairs o (Graph.run u ops) ⟨m, base, namer⟩ e.2 = ps := by
    unfold predPairs
    rw [show sortedNames ⟨m, base, namer⟩ {} (o.terms (pySet (((Graph.run u ops).match o.stmts e.2 .none .none).map (·.p)))) = .ok ({}, ps) from q1]
  have e2 : predPairs o' (Graph.run u' [.addAll tris]) ⟨m, base, namer⟩ e.2 = ps := by
    unfold predPairs
    rw [show sortedNames ⟨m, base, namer⟩ {} (o'.terms (pySet (((Graph.run u' [.addAll tris]).match o'.stmts e.2 .none .none).map (·.p)))) = .ok ({}, ps) from
      (sortedNames_perm {} pp pn).symm.trans q1]
  unfold blockOf
  rw [show (some m).getD defaultPrefixes = m from rfl, e1, e2]
  refine congrArg (Block.mk e.2 e.1) (List.map_congr_left fun q hq => ?_)
  obtain ⟨x, hx, hxp⟩ := (mp q.2).1 (q2.2.1.mem_iff.1 (List.mem_map.2 ⟨q, hq, rfl⟩))
  obtain ⟨x1, x2, -⟩ := (Graph.mem_match rep.inv ho.stmts _ _ _ x).1 hx
  obtain ⟨t, ht, rfl⟩ := (rep.mem x).1 x1
  have hpt : q.2.truthy = true := hxp ▸ (sm t (runSet_everAdded t ht)).truthy.2
  have hst : t.stmt.s = e.2 := x2 htr
  have hf := f t.stmt (p.mem_iff.2 x1)
  rw [hst, hxp] at hf
  unfold entryOf
  rw [hrun, match_read nd hi htr hpt, hf]

/-- C98 exactly, for graphs of IRIs and literals that can be written: the texts are the same iff the triples are, and `match` gives the objects of each subject and predicate in the same
    order. -/
theorem C98_exact {nl : PStr → Bool} {m : PrefixMap} {base : Option PStr} (hm : SafeProfileAt nl m (base.getD [])) {namer : Namer} (u u' : Term) (ops ops' : List Verif.Spec.GOp)
    (hs : ∀ t ∈ everAdded ops ++ everAdded ops', Ground t ∧ SafeTriAt nl m (base.getD []) namer t)
    (live : ∀ t ∈ everAdded ops, ∃ t' ∈ Verif.Spec.runSet ops, t'.s = t.s) (live' : ∀ t ∈ everAdded ops', ∃ t' ∈ Verif.Spec.runSet ops', t'.s = t.s)
    {o o' : Orders} (ho : Orders.OK o) (ho' : Orders.OK o') {w : World} (fuel fuel' : Nat) (hr : resolveKey w listC (py! "rdf:rest") = .ok (some (Heap.rdfNs ++ py! "rest"))) :
    serializeTurtle o w fuel (Graph.run u ops) base (some m) namer = serializeTurtle o' w fuel' (Graph.run u' ops') base (some m) namer ↔
      Verif.Spec.runSet ops = Verif.Spec.runSet ops' ∧
        ∀ s p, s.truthy = true → p.truthy = true → (Graph.run u ops).match o.stmts s p .none = (Graph.run u' ops').match o'.stmts s p .none := by
  have rep := Graph.rep_run u ops
  have rep' := Graph.rep_run u' ops'
  have h1 : ∀ t ∈ Verif.Spec.runSet ops, Ground t ∧ SafeTriAt nl m (base.getD []) namer t := fun t ht => hs t (List.mem_append_left _ (runSet_everAdded t ht))
  have h2 : ∀ t ∈ Verif.Spec.runSet ops', Ground t ∧ SafeTriAt nl m (base.getD []) namer t := fun t ht => hs t (List.mem_append_right _ (runSet_everAdded t ht))
  constructor
  · intro e
    obtain ⟨text, a1, a2⟩ := written_is_read_order hm (safeGraphAt_run u ops (fun t ht => (h1 t ht).2.text) live) ho (w := w) fuel hr
    obtain ⟨text', b1, b2⟩ := written_is_read_order hm (safeGraphAt_run u' ops' (fun t ht => (h2 t ht).2.text) live') ho' (w := w) fuel' hr
    have et : text = text' := by rw [a1, b1] at e; exact Except.ok.inj e
    subst et
    obtain ⟨n1, ts, ρ, a3, -, -, us, p, rfl, f⟩ := a2 0
    obtain ⟨n2, ts', ρ', b3, -, -, us', p', rfl, f'⟩ := b2 0
    have l : us.map (fun t => (readStmt t).rename ρ) = us := (List.map_congr_left fun x hx => by
      obtain ⟨t, ht, rfl⟩ := (rep.mem x).1 (p.mem_iff.1 hx)
      exact rename_ground (h1 t ht).1 (h1 t ht).2 ρ).trans (List.map_id us)
    have l' : us'.map (fun t => (readStmt t).rename ρ') = us' := (List.map_congr_left fun x hx => by
      obtain ⟨t, ht, rfl⟩ := (rep'.mem x).1 (p'.mem_iff.1 hx)
      exact rename_ground (h2 t ht).1 (h2 t ht).2 ρ').trans (List.map_id us')
    rw [l] at a3
    rw [l', a3] at b3
    have eu : us = us' := (Prod.mk.inj (Except.ok.inj b3)).2
    subst eu
    have hmem : ∀ x, x ∈ (Graph.run u ops).triples ↔ x ∈ (Graph.run u' ops').triples := fun x => by rw [← p.mem_iff, p'.mem_iff]
    refine ⟨?_, fun s q hs hq => ?_⟩
    · ext t
      rw [← rep.mem_stmt, ← rep'.mem_stmt, hmem]
    · have mm : ∀ x, x ∈ (Graph.run u' ops').match o'.stmts s q .none ↔ x ∈ (Graph.run u ops).match o.stmts s q .none := fun x => by
        rw [Graph.mem_match rep'.inv ho'.stmts, Graph.mem_match rep.inv ho.stmts, hmem]
      cases hl : (Graph.run u ops).match o.stmts s q .none with
      | nil =>
        rw [hl] at mm
        exact (List.eq_nil_iff_forall_not_mem.2 fun x hx => by simpa using (mm x).1 hx).symm
      | cons x xs =>
        obtain ⟨c1, c2, c3, -⟩ := (Graph.mem_match rep.inv ho.stmts s q .none x).1 (by rw [hl]; exact List.mem_cons_self ..)
        have g := f x (p.mem_iff.2 c1)
        have g' := f' x (p.mem_iff.2 c1)
        rw [c2 hs, c3 hq] at g g'
        rw [← hl, ← g, ← g']
  · rintro ⟨heq, hord⟩
    have sm : ∀ t ∈ Verif.Spec.runSet ops, Simple t := fun t ht => simple_of_safe (h1 t ht).1 (h1 t ht).2
    refine C98_orders_partial u u' ops ops' heq live live' (fun t ht => ?_) (fun t ht => (sm t ht).2.2.2) ho ho' hord hr fuel fuel' base (some m) namer
    obtain ⟨⟨⟨i, hi⟩, ⟨j, hj⟩, -⟩, k1, k2, -⟩ := sm t ht
    exact ⟨⟨i, fun e => k1 (by rw [hi, e]), hi⟩, j, fun e => k2 (by rw [hj, e]), hj⟩

/-- Two objects, not in alphabetical order, and a triple that was removed. -/
def stableOps : List Verif.Spec.GOp :=
  [.add ⟨.named (py! "http://e/a#b"), .named (py! "x:p"), .named (py! "x:p")⟩, .add ⟨.named (py! "http://e/a#b"), .named (py! "x:p"), .named (py! "http://e/a#b")⟩,
   .add ⟨.named (py! "x:p"), .named (py! "x:p"), .named (py! "x:p")⟩, .add ⟨.named (py! "x:p"), .named (py! "x:p"), .named (py! "http://e/a#b")⟩,
   .remove ⟨.named (py! "x:p"), .named (py! "x:p"), .named (py! "x:p")⟩]

example : serializeTurtle {} World.new 0 (Graph.run .none stableOps) (some exBase.text) (some defaultPrefixes) none =
    .ok (py! "@base <http://e/a#> .\n@prefix xsd: <http://www.w3.org/2001/XMLSchema#> .\n<#b> <x:p> <x:p>,\n           <#b> ;\n     .\n\n<x:p> <x:p> <#b> ;\n      .\n\n") := rfl

example := C173_stable (base := some exBase.text) (namer := none) exProfile .none stableOps
  (by
    intro t ht
    simp only [stableOps, everAdded, List.flatMap_cons, List.flatMap_nil, List.append_nil, List.nil_append, List.singleton_append, List.mem_cons, List.not_mem_nil, or_false] at ht
    rcases ht with rfl | rfl | rfl | rfl
    · exact ⟨⟨⟨_, rfl⟩, ⟨_, rfl⟩, .inl ⟨_, rfl⟩⟩, .inl ⟨_, rfl, safeAt_ab⟩, ⟨_, rfl, safeAt_xp, by decide⟩, .iri safeAt_xp⟩
    · exact ⟨⟨⟨_, rfl⟩, ⟨_, rfl⟩, .inl ⟨_, rfl⟩⟩, .inl ⟨_, rfl, safeAt_ab⟩, ⟨_, rfl, safeAt_xp, by decide⟩, .iri safeAt_ab⟩
    · exact ⟨⟨⟨_, rfl⟩, ⟨_, rfl⟩, .inl ⟨_, rfl⟩⟩, .inl ⟨_, rfl, safeAt_xp⟩, ⟨_, rfl, safeAt_xp, by decide⟩, .iri safeAt_xp⟩
    · exact ⟨⟨⟨_, rfl⟩, ⟨_, rfl⟩, .inl ⟨_, rfl⟩⟩, .inl ⟨_, rfl, safeAt_xp⟩, ⟨_, rfl, safeAt_xp, by decide⟩, .iri safeAt_ab⟩)
  (by decide) Orders.OK.default Orders.OK.default 0 0 resolveKey_rest resolveKey_rest

/-- The triples of `stableOps`, added in another order. -/
def stableOther : List Verif.Spec.GOp :=
  [.add ⟨.named (py! "x:p"), .named (py! "x:p"), .named (py! "http://e/a#b")⟩, .add ⟨.named (py! "http://e/a#b"), .named (py! "x:p"), .named (py! "http://e/a#b")⟩,
   .add ⟨.named (py! "http://e/a#b"), .named (py! "x:p"), .named (py! "x:p")⟩]

/-- Two graphs with the same triples whose texts differ, by `C98_exact`. -/
example : Verif.Spec.runSet stableOps = Verif.Spec.runSet stableOther ∧
    serializeTurtle {} World.new 0 (Graph.run .none stableOps) (some exBase.text) (some defaultPrefixes) none ≠
      serializeTurtle {} World.new 0 (Graph.run .none stableOther) (some exBase.text) (some defaultPrefixes) none :=
  ⟨by decide, fun h => by
    have := ((C98_exact (base := some exBase.text) (namer := none) exProfile .none .none stableOps stableOther
      (by
        intro t ht
        simp only [stableOps, stableOther, everAdded, List.flatMap_cons, List.flatMap_nil, List.append_nil, List.nil_append, List.cons_append, List.mem_cons, List.not_mem_nil,
          or_false] at ht
        rcases ht with rfl | rfl | rfl | rfl | rfl | rfl | rfl
        · exact ⟨⟨⟨_, rfl⟩, ⟨_, rfl⟩, .inl ⟨_, rfl⟩⟩, .inl ⟨_, rfl, safeAt_ab⟩, ⟨_, rfl, safeAt_xp, by decide⟩, .iri safeAt_xp⟩
        · exact ⟨⟨⟨_, rfl⟩, ⟨_, rfl⟩, .inl ⟨_, rfl⟩⟩, .inl ⟨_, rfl, safeAt_ab⟩, ⟨_, rfl, safeAt_xp, by decide⟩, .iri safeAt_ab⟩
        · exact ⟨⟨⟨_, rfl⟩, ⟨_, rfl⟩, .inl ⟨_, rfl⟩⟩, .inl ⟨_, rfl, safeAt_xp⟩, ⟨_, rfl, safeAt_xp, by decide⟩, .iri safeAt_xp⟩
        · exact ⟨⟨⟨_, rfl⟩, ⟨_, rfl⟩, .inl ⟨_, rfl⟩⟩, .inl ⟨_, rfl, safeAt_xp⟩, ⟨_, rfl, safeAt_xp, by decide⟩, .iri safeAt_ab⟩
        · exact ⟨⟨⟨_, rfl⟩, ⟨_, rfl⟩, .inl ⟨_, rfl⟩⟩, .inl ⟨_, rfl, safeAt_xp⟩, ⟨_, rfl, safeAt_xp, by decide⟩, .iri safeAt_ab⟩
        · exact ⟨⟨⟨_, rfl⟩, ⟨_, rfl⟩, .inl ⟨_, rfl⟩⟩, .inl ⟨_, rfl, safeAt_ab⟩, ⟨_, rfl, safeAt_xp, by decide⟩, .iri safeAt_ab⟩
        · exact ⟨⟨⟨_, rfl⟩, ⟨_, rfl⟩, .inl ⟨_, rfl⟩⟩, .inl ⟨_, rfl, safeAt_ab⟩, ⟨_, rfl, safeAt_xp, by decide⟩, .iri safeAt_xp⟩)
      (by decide) (by decide) Orders.OK.default Orders.OK.default 0 0 resolveKey_rest).1 h).2 (.named (py! "http://e/a#b")) (.named (py! "x:p")) rfl rfl
    exact absurd this (by decide)⟩

/-- A plain literal beside the same one with the datatype `xsd:string`. -/
def plainTwice : List Verif.Spec.GOp :=
  [.add ⟨.named (py! "x:s"), .named (py! "x:p"), .lit (py! "a") none none⟩,
   .add ⟨.named (py! "x:s"), .named (py! "x:p"), .lit (py! "a") none (some (py! "http://www.w3.org/2001/XMLSchema#string"))⟩]

/-- Without the condition on plain literals it fails: the two literals are written alike and read as one. -/
theorem C173_plain :
    serializeTurtle {} World.new 0 (Graph.run .none plainTwice) =
      .ok (py! "@prefix xsd: <http://www.w3.org/2001/XMLSchema#> .\n<x:s> <x:p> \"a\",\n            \"a\" ;\n      .\n\n") ∧
    serializeTurtle {} World.new 0 (parse (fun g t => g.add t) (fun _ => true) [] 0 (Graph.new .none)
        (.str (py! "@prefix xsd: <http://www.w3.org/2001/XMLSchema#> .\n<x:s> <x:p> \"a\",\n            \"a\" ;\n      .\n\n"))).1 =
      .ok (py! "@prefix xsd: <http://www.w3.org/2001/XMLSchema#> .\n<x:s> <x:p> \"a\" ;\n      .\n\n") := ⟨rfl, rfl⟩

end Verif.Turtle
