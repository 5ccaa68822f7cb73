import Verif.Model.GraphThreads
import Verif.Lemmas.GraphRun
/-
Threads on one Graph: the shape of the heap, and the effect of a step on the graph as a value.
-/
namespace Verif

namespace Dict

variable {α : Type}

theorem collect_nil (f : DVal → Option α) : collect f [] = [] := rfl

theorem collect_cons (f : DVal → Option α) (k : Term) (v : DVal) (d : Dict Term DVal) :
    collect f ((k, v) :: d) = match f v with | some x => (k, x) :: collect f d | none => collect f d := by
  unfold collect
  rw [List.filterMap_cons]
  cases f v <;> rfl

theorem collect_congr {f f' : DVal → Option α} {d : Dict Term DVal} (h : ∀ kv ∈ d, f' kv.2 = f kv.2) : collect f' d = collect f d := by
  induction d with
  | nil => rfl
  | cons a d ih =>
    obtain ⟨k, v⟩ := a
    rw [collect_cons, collect_cons, ih (fun kv hk => h kv (List.mem_cons_of_mem _ hk)), h (k, v) List.mem_cons_self]

theorem keys_collect (f : DVal → Option α) (d : Dict Term DVal) : (keys (collect f d)).Sublist (keys d) := by
  induction d with
  | nil => exact List.Sublist.refl _
  | cons a d ih =>
    obtain ⟨k, v⟩ := a
    rw [collect_cons]
    cases f v with
    | none => exact List.Sublist.cons _ ih
    | some x => exact List.Sublist.cons_cons _ ih

theorem WF.collect {f : DVal → Option α} {d : Dict Term DVal} (wf : WF d) : WF (collect f d) := List.Nodup.sublist (keys_collect f d) wf

theorem get?_collect {f : DVal → Option α} {d : Dict Term DVal} (wf : WF d) (k : Term) : (collect f d).get? k = (d.get? k).bind f := by
  induction d with
  | nil => rfl
  | cons a d ih =>
    obtain ⟨k', v⟩ := a
    have wf' : WF d := (List.nodup_cons.1 wf).2
    have hk : k' ∉ keys d := (List.nodup_cons.1 wf).1
    rw [collect_cons]
    simp only [get?]
    by_cases h : k' = k
    · subst h
      rw [if_pos rfl]
      cases hv : f v with
      | some x => simp [get?, hv]
      | none =>
        show (Dict.collect f d).get? k' = f v
        rw [ih wf', (get?_eq_none_iff d k').2 hk, hv]; rfl
    · rw [if_neg h]
      cases hv : f v with
      | some x => simp only [get?, if_neg h]; exact ih wf'
      | none => exact ih wf'

theorem collect_set {f : DVal → Option α} {d : Dict Term DVal} {k : Term} {v : DVal} {x : α} (acc : ∀ kv ∈ d, (f kv.2).isSome) (hv : f v = some x) :
    collect f (d.set k v) = (collect f d).set k x := by
  induction d with
  | nil => simp [set, collect_cons, hv, collect_nil]
  | cons a d ih =>
    obtain ⟨k', v'⟩ := a
    have h0 := acc (k', v') List.mem_cons_self
    obtain ⟨y, hy⟩ := Option.isSome_iff_exists.1 h0
    simp only [set]
    split
    · next h => subst h; simp only [collect_cons, hv]; rw [show f v' = some y from hy]; simp [set]
    · next h =>
      simp only [collect_cons]
      rw [show f v' = some y from hy]
      simp only [set, if_neg h]
      rw [ih (fun kv hk => acc kv (List.mem_cons_of_mem _ hk))]

theorem collect_del {f : DVal → Option α} {d : Dict Term DVal} {k : Term} (acc : ∀ kv ∈ d, (f kv.2).isSome) :
    collect f (d.del k) = (collect f d).del k := by
  induction d with
  | nil => rfl
  | cons a d ih =>
    obtain ⟨k', v'⟩ := a
    obtain ⟨y, hy⟩ := Option.isSome_iff_exists.1 (acc (k', v') List.mem_cons_self)
    simp only [del]
    split
    · next h => subst h; simp only [collect_cons]; rw [show f v' = some y from hy]; simp [del]
    · next h =>
      simp only [collect_cons]
      rw [show f v' = some y from hy]
      simp only [del, if_neg h]
      rw [ih (fun kv hk => acc kv (List.mem_cons_of_mem _ hk))]

/-- Another value under one key. -/
theorem collect_change {f f' : DVal → Option α} {d : Dict Term DVal} {k : Term} {v : DVal} {x : α} (wf : WF d) (hk : d.get? k = some v)
    (h0 : (f v).isSome) (h' : f' v = some x) (h : ∀ k' v', d.get? k' = some v' → k' ≠ k → f' v' = f v') : collect f' d = (collect f d).set k x := by
  induction d with
  | nil => simp at hk
  | cons a d ih =>
    obtain ⟨k', v'⟩ := a
    have wf' : WF d := (List.nodup_cons.1 wf).2
    have hk' : k' ∉ keys d := (List.nodup_cons.1 wf).1
    have rest : ∀ kv ∈ d, kv.1 ≠ k → f' kv.2 = f kv.2 := by
      intro kv hkv hne
      refine h kv.1 kv.2 ?_ hne
      rw [get?, if_neg (fun e : k' = kv.1 => hk' (e ▸ List.mem_map_of_mem hkv))]
      exact (mem_iff_get? wf').1 hkv
    simp only [get?] at hk
    rw [collect_cons, collect_cons]
    by_cases e : k' = k
    · subst e
      rw [if_pos rfl] at hk; cases hk
      obtain ⟨y, hy⟩ := Option.isSome_iff_exists.1 h0
      rw [h', hy]
      simp only [set, if_true]
      rw [collect_congr (f := f) (f' := f')]
      intro kv hkv
      exact rest kv hkv (fun e => hk' (e ▸ List.mem_map_of_mem hkv))
    · rw [if_neg e] at hk
      have : f' v' = f v' := h k' v' (by simp [get?]) e
      have ih' := ih wf' hk (fun k2 v2 h2 hne => h k2 v2 (by
        rw [get?, if_neg]; · exact h2
        · rintro rfl; exact hk' ((mem_keys_iff d _).2 (by rw [h2]; rfl))) hne)
      rw [this]
      cases f v' with
      | none => exact ih'
      | some y => simp only [set, if_neg e, ih']

end Dict

/-! ### The shape of the heap -/

/-- What may stand in a dict: in the dicts of the first two levels, dicts made for that key of that dict; at the bottom, statements under their keys. -/
def Placed (n : Nat) : DRef → Term → DVal → Prop
  | .root w, k, .dict r => ∃ m < n, r = .made (.root w) k m
  | .made (.root w) a m, k, .dict r => ∃ m' < n, r = .made (.made (.root w) a m) k m'
  | .made (.made (.root w) a _) b _, k, .stmt t => w.keys t = (a, b, k)
  | _, _, _ => False

theorem Placed.mono {n n' : Nat} (h : n ≤ n') {r k v} (hp : Placed n r k v) : Placed n' r k v := by
  rcases r with w | ⟨w | ⟨w | ⟨p, c, m3⟩, a, m2⟩, b, m⟩ <;> rcases v with r | t <;> first | exact hp.elim | exact hp | skip
  · obtain ⟨m, hm, e⟩ := hp; exact ⟨m, by omega, e⟩
  · obtain ⟨m, hm, e⟩ := hp; exact ⟨m, by omega, e⟩

structure Shape (sh : SharedGraph) : Prop where
  wf : ∀ r, Dict.WF (sh.heap r)
  placed : ∀ r k v, (sh.heap r).get? k = some v → Placed sh.next r k v

theorem Shape.new (u : Term) : Shape (SharedGraph.new u) :=
  ⟨fun r => by simp [SharedGraph.new, Dict.WF, Dict.keys], fun r k v h => by simp [SharedGraph.new] at h⟩

theorem SharedGraph.heap_put (sh : SharedGraph) (r : DRef) (d : Dict Term DVal) (x : DRef) : (sh.put r d).heap x = if x = r then d else sh.heap x := rfl

theorem Shape.put {sh : SharedGraph} (h : Shape sh) {r : DRef} {d : Dict Term DVal} (wf : Dict.WF d) (pl : ∀ k v, d.get? k = some v → Placed sh.next r k v) :
    Shape (sh.put r d) := by
  refine ⟨fun x => ?_, fun x k v hk => ?_⟩
  · rw [SharedGraph.heap_put]; split
    · exact wf
    · exact h.wf x
  · rw [SharedGraph.heap_put] at hk
    split at hk
    · next e => subst e; exact pl k v hk
    · exact h.placed x k v hk

theorem Shape.next {sh : SharedGraph} (h : Shape sh) {n : Nat} (hn : sh.next ≤ n) : Shape { sh with next := n } :=
  ⟨h.wf, fun r k v hk => (h.placed r k v hk).mono hn⟩

theorem Shape.newDict {sh : SharedGraph} (h : Shape sh) (p : DRef) (k : Term) : Shape (sh.newDict p k).1 :=
  (h.put (r := DRef.made p k sh.next) (d := []) (by simp [Dict.WF, Dict.keys]) (fun k v hk => by simp at hk)).next (Nat.le_succ _)

/-- Setting a value that may stand there. -/
theorem Shape.set {sh : SharedGraph} (h : Shape sh) {r : DRef} {k : Term} {v : DVal} (pl : Placed sh.next r k v) : Shape (sh.put r ((sh.heap r).set k v)) := by
  refine h.put ((h.wf r).set _ _) (fun k' v' hk => ?_)
  rw [Dict.get?_set] at hk
  split at hk
  · next e => cases hk; exact e ▸ pl
  · exact h.placed r k' v' hk

theorem Shape.del {sh : SharedGraph} (h : Shape sh) (r : DRef) (k : Term) : Shape (sh.put r ((sh.heap r).del k)) := by
  refine h.put ((h.wf r).del _) (fun k' v' hk => ?_)
  rw [Dict.get?_del (h.wf r)] at hk
  split at hk
  · cases hk
  · exact h.placed r k' v' hk

/-! ### The graph as a value -/

namespace SharedGraph

/-- One index of the graph. -/
def top (sh : SharedGraph) (w : Graph.Ix) : Idx := Dict.collect (fun v => v.ref?.map sh.mid) (sh.heap (.root w))

theorem graph_ix (sh : SharedGraph) (w : Graph.Ix) : sh.graph.ix w = sh.top w := by cases w <;> rfl

/-- `Graph` with one index replaced. -/
def _root_.Verif.Graph.setIx (g : Graph) (w : Graph.Ix) (i : Idx) : Graph :=
  match w with
  | .spo => { g with spo := i }
  | .pos => { g with pos := i }
  | .osp => { g with osp := i }

theorem graph_eq {sh sh' : SharedGraph} (w : Graph.Ix) (hu : sh'.uri = sh.uri) (ht : sh'.triples = sh.triples) (h : ∀ w', w' ≠ w → sh'.top w' = sh.top w') :
    sh'.graph = sh.graph.setIx w (sh'.top w) := by
  have h1 : ∀ sh : SharedGraph, sh.graph = { uri := sh.uri, triples := sh.triples, spo := sh.top .spo, pos := sh.top .pos, osp := sh.top .osp } := fun _ => rfl
  rw [h1, h1, hu, ht]
  cases w
  · rw [h .pos (by decide), h .osp (by decide)]; rfl
  · rw [h .spo (by decide), h .osp (by decide)]; rfl
  · rw [h .pos (by decide), h .spo (by decide)]; rfl

variable {sh : SharedGraph}

theorem acc_top (h : Shape sh) (w : Graph.Ix) (f : DRef → α) : ∀ kv ∈ sh.heap (.root w), ((fun v : DVal => v.ref?.map f) kv.2).isSome := by
  rintro ⟨k, v⟩ hk
  have := h.placed _ _ _ ((Dict.mem_iff_get? (h.wf _)).1 hk)
  cases v with
  | dict r => rfl
  | stmt t => exact this.elim

theorem acc_mid (h : Shape sh) (w : Graph.Ix) (a : Term) (m : Nat) (f : DRef → α) :
    ∀ kv ∈ sh.heap (.made (.root w) a m), ((fun v : DVal => v.ref?.map f) kv.2).isSome := by
  rintro ⟨k, v⟩ hk
  have := h.placed _ _ _ ((Dict.mem_iff_get? (h.wf _)).1 hk)
  cases v with
  | dict r => rfl
  | stmt t => exact this.elim

theorem acc_leaf (h : Shape sh) (w : Graph.Ix) (a b : Term) (m m' : Nat) :
    ∀ kv ∈ sh.heap (.made (.made (.root w) a m) b m'), (DVal.stmt? kv.2).isSome := by
  rintro ⟨k, v⟩ hk
  have := h.placed _ _ _ ((Dict.mem_iff_get? (h.wf _)).1 hk)
  cases v with
  | dict r => exact this.elim
  | stmt t => rfl

/-- A dict in an index. -/
theorem top_get (h : Shape sh) {w : Graph.Ix} {a : Term} {r : DRef} (hr : (sh.heap (.root w)).get? a = some (.dict r)) : (sh.top w).get? a = some (sh.mid r) := by
  unfold top; rw [Dict.get?_collect (h.wf _), hr]; rfl

theorem top_get_none (h : Shape sh) {w : Graph.Ix} {a : Term} (hr : (sh.heap (.root w)).get? a = none) : (sh.top w).get? a = none := by
  unfold top; rw [Dict.get?_collect (h.wf _), hr]; rfl

theorem mid_get (h : Shape sh) {r r' : DRef} {b : Term} (hr : (sh.heap r).get? b = some (.dict r')) : (sh.mid r).get? b = some (sh.leaf r') := by
  unfold mid; rw [Dict.get?_collect (h.wf _), hr]; rfl

theorem mid_get_none (h : Shape sh) {r : DRef} {b : Term} (hr : (sh.heap r).get? b = none) : (sh.mid r).get? b = none := by
  unfold mid; rw [Dict.get?_collect (h.wf _), hr]; rfl

theorem top_wf (h : Shape sh) (w : Graph.Ix) : (sh.top w).WF := by
  have h1 : ∀ a, (sh.top w).l1 a = [] ∨ ∃ r, (sh.top w).l1 a = sh.mid r := by
    intro a
    unfold Idx.l1 top
    rw [Dict.get?_collect (h.wf _)]
    cases (sh.heap (.root w)).get? a with
    | none => exact Or.inl rfl
    | some v => cases v with
      | dict r => exact Or.inr ⟨r, rfl⟩
      | stmt t => exact Or.inl rfl
  refine ⟨(h.wf _).collect, fun a => ?_, fun a b => ?_⟩
  · rcases h1 a with e | ⟨r, e⟩
    · rw [e]; simp [Dict.WF, Dict.keys]
    · rw [e]; exact (h.wf _).collect
  · unfold Idx.l2
    rcases h1 a with e | ⟨r, e⟩
    · rw [e]; simp [Dict.WF, Dict.keys]
    · rw [e]
      unfold mid
      rw [Dict.get?_collect (h.wf _)]
      cases (sh.heap r).get? b with
      | none => simp [Dict.WF, Dict.keys]
      | some v => cases v with
        | dict r => exact (h.wf _).collect
        | stmt t => simp [Dict.WF, Dict.keys, DVal.ref?]

/-- What an index finds are statements under their own keys. -/
theorem top_find (h : Shape sh) {w : Graph.Ix} {a b c : Term} {t : Stmt} (hf : (sh.top w).find a b c = some t) : w.keys t = (a, b, c) := by
  unfold Idx.find Idx.l2 Idx.l1 at hf
  cases h1 : (sh.heap (.root w)).get? a with
  | none => rw [top_get_none h h1] at hf; simp at hf
  | some v =>
    have p1 := h.placed _ _ _ h1
    cases v with
    | stmt t => exact p1.elim
    | dict r =>
      obtain ⟨m, -, rfl⟩ := p1
      rw [top_get h h1] at hf
      simp only [Option.getD_some] at hf
      cases h2 : (sh.heap (.made (.root w) a m)).get? b with
      | none => rw [mid_get_none h h2] at hf; simp at hf
      | some v =>
        have p2 := h.placed _ _ _ h2
        cases v with
        | stmt t => exact p2.elim
        | dict r =>
          obtain ⟨m', -, rfl⟩ := p2
          rw [mid_get h h2] at hf
          simp only [Option.getD_some, leaf] at hf
          rw [Dict.get?_collect (h.wf _)] at hf
          cases h3 : (sh.heap (.made (.made (.root w) a m) b m')).get? c with
          | none => rw [h3] at hf; simp at hf
          | some v =>
            have p3 := h.placed _ _ _ h3
            cases v with
            | dict r => exact p3.elim
            | stmt t' => rw [h3] at hf; simp [DVal.stmt?] at hf; exact hf ▸ p3

/-! ### Effects of the steps on the value -/

theorem leaf_put_ne {r x : DRef} (d) (hx : x ≠ r) : (sh.put r d).leaf x = sh.leaf x := by
  unfold leaf; rw [heap_put, if_neg hx]

theorem mid_put_ne (h : Shape sh) {r x : DRef} (d) (hx : x ≠ r) (hr : ∀ k, (sh.heap x).get? k ≠ some (.dict r)) : (sh.put r d).mid x = sh.mid x := by
  unfold mid
  rw [heap_put, if_neg hx]
  refine Dict.collect_congr ?_
  rintro ⟨k, v⟩ hk
  cases v with
  | stmt t => rfl
  | dict r' =>
    have : r' ≠ r := fun e => hr k (e ▸ (Dict.mem_iff_get? (h.wf _)).1 hk)
    show some _ = some _
    rw [leaf_put_ne d this]

/-- Changing a dict that no index reaches does not change the graph. -/
theorem top_put_ne (h : Shape sh) {r : DRef} (d) {w : Graph.Ix} (h0 : r ≠ .root w)
    (h1 : ∀ k, (sh.heap (.root w)).get? k ≠ some (.dict r)) (h2 : ∀ k r1, (sh.heap (.root w)).get? k = some (.dict r1) → ∀ k', (sh.heap r1).get? k' ≠ some (.dict r)) :
    (sh.put r d).top w = sh.top w := by
  unfold top
  rw [heap_put, if_neg (Ne.symm h0)]
  refine Dict.collect_congr ?_
  rintro ⟨k, v⟩ hk
  cases v with
  | stmt t => rfl
  | dict r' =>
    have hk' := (Dict.mem_iff_get? (h.wf _)).1 hk
    have : r' ≠ r := fun e => h1 k (e ▸ hk')
    show some _ = some _
    rw [mid_put_ne h d this (h2 k r' hk')]

/-- A dict in the first level. -/
theorem top_put_mid (h : Shape sh) {w : Graph.Ix} {a : Term} {m : Nat} (hr : (sh.heap (.root w)).get? a = some (.dict (.made (.root w) a m))) (d) :
    (sh.put (.made (.root w) a m) d).top w = (sh.top w).set a ((sh.put (.made (.root w) a m) d).mid (.made (.root w) a m)) := by
  unfold top
  rw [heap_put, if_neg (by simp)]
  refine Dict.collect_change (h.wf _) hr rfl rfl ?_
  intro k v hk hne
  cases v with
  | stmt t => rfl
  | dict r' =>
    obtain ⟨m', -, rfl⟩ := h.placed _ _ _ hk
    show some _ = some _
    rw [mid_put_ne h d (by simp [hne])]
    intro k' e
    obtain ⟨m'', -, e'⟩ := h.placed _ _ _ e
    cases e'

theorem top_put_leaf (h : Shape sh) {w : Graph.Ix} {a b : Term} {m m' : Nat} (hr : (sh.heap (.root w)).get? a = some (.dict (.made (.root w) a m)))
    (hr' : (sh.heap (.made (.root w) a m)).get? b = some (.dict (.made (.made (.root w) a m) b m'))) (d) :
    (sh.put (.made (.made (.root w) a m) b m') d).top w = (sh.top w).set a (((sh.top w).l1 a).set b (Dict.collect DVal.stmt? d)) := by
  have hl : (sh.top w).l1 a = sh.mid (.made (.root w) a m) := by unfold Idx.l1; rw [top_get h hr]; rfl
  rw [hl]
  have hm : (sh.put (.made (.made (.root w) a m) b m') d).mid (.made (.root w) a m) = (sh.mid (.made (.root w) a m)).set b (Dict.collect DVal.stmt? d) := by
    unfold mid
    rw [heap_put, if_neg (by simp)]
    refine Dict.collect_change (h.wf _) hr' rfl ?_ ?_
    · show some _ = some _
      unfold leaf; rw [heap_put, if_pos rfl]
    · intro k v hk hne
      cases v with
      | stmt t => rfl
      | dict r' =>
        obtain ⟨n, -, rfl⟩ := h.placed _ _ _ hk
        show some _ = some _
        rw [leaf_put_ne d (by simp [hne])]
  unfold top
  rw [heap_put, if_neg (by simp)]
  refine Dict.collect_change (h.wf _) hr rfl (by show some _ = some _; rw [hm]) ?_
  intro k v hk hne
  cases v with
  | stmt t => rfl
  | dict r' =>
    obtain ⟨n, -, rfl⟩ := h.placed _ _ _ hk
    show some _ = some _
    rw [mid_put_ne h d (by simp)]
    intro k' e
    obtain ⟨n', -, e'⟩ := h.placed _ _ _ e
    cases e'
    exact hne rfl

/-- A dict made just now is in no index. -/
theorem top_newDict (h : Shape sh) (p : DRef) (k : Term) (w : Graph.Ix) : (sh.newDict p k).1.top w = sh.top w := by
  have fresh : ∀ q k1 m, m < sh.next → DRef.made p k sh.next ≠ .made q k1 m := by
    intro q k1 m hm e; cases e; omega
  show (sh.put (.made p k sh.next) []).top w = sh.top w
  refine top_put_ne h _ (by simp) (fun k1 e => ?_) (fun k1 r1 h1 k2 e => ?_)
  · obtain ⟨m, hm, e'⟩ := h.placed _ _ _ e
    exact fresh _ _ _ hm e'
  · obtain ⟨m, hm, rfl⟩ := h.placed _ _ _ h1
    obtain ⟨m', hm', e'⟩ := h.placed _ _ _ e
    exact fresh _ _ _ hm' e'

theorem graph_newDict (h : Shape sh) (p : DRef) (k : Term) : (sh.newDict p k).1.graph = sh.graph := by
  have := graph_eq (sh := sh) (sh' := (sh.newDict p k).1) .spo rfl rfl (fun w _ => top_newDict h p k w)
  rw [this, top_newDict h]
  rfl

/-- A root is no value. -/
theorem ref_ne_root (h : Shape sh) {w : Graph.Ix} {r : DRef} {k : Term} : (sh.heap r).get? k ≠ some (.dict (.root w)) := by
  intro e
  have := h.placed _ _ _ e
  rcases r with w' | ⟨w' | ⟨w' | ⟨p, c, m3⟩, a, m2⟩, b, m⟩ <;> simp [Placed] at this

theorem top_store1 (h : Shape sh) {w : Graph.Ix} {a : Term} {m : Nat} (he : sh.heap (.made (.root w) a m) = []) :
    (sh.put (.root w) ((sh.heap (.root w)).set a (.dict (.made (.root w) a m)))).top w = (sh.top w).set a [] := by
  unfold top
  rw [heap_put, if_pos rfl, Dict.collect_congr (f := fun v => v.ref?.map sh.mid),
    Dict.collect_set (x := []) (acc_top h w _) (by show some _ = some _; simp [mid, he, Dict.collect_nil])]
  rintro ⟨k, v⟩ hk
  cases v with
  | stmt t => rfl
  | dict r =>
    have hr : r ≠ .root w := by
      rintro rfl
      rw [Dict.mem_iff_get? ((h.wf _).set _ _), Dict.get?_set] at hk
      split at hk
      · cases hk
      · exact ref_ne_root h hk
    show some _ = some _
    rw [mid_put_ne h _ hr (fun k => ref_ne_root h)]

theorem mid_store2 (h : Shape sh) {w : Graph.Ix} {a b : Term} {m m' : Nat} (he : sh.heap (.made (.made (.root w) a m) b m') = []) :
    (sh.put (.made (.root w) a m) ((sh.heap (.made (.root w) a m)).set b (.dict (.made (.made (.root w) a m) b m')))).mid (.made (.root w) a m) =
      (sh.mid (.made (.root w) a m)).set b [] := by
  unfold mid
  rw [heap_put, if_pos rfl, Dict.collect_congr (f := fun v => v.ref?.map sh.leaf),
    Dict.collect_set (x := []) (acc_mid h w a m _) (by show some _ = some _; simp [leaf, he, Dict.collect_nil])]
  rintro ⟨k, v⟩ hk
  cases v with
  | stmt t => rfl
  | dict r =>
    have hr : r ≠ .made (.root w) a m := by
      rintro rfl
      rw [Dict.mem_iff_get? ((h.wf _).set _ _), Dict.get?_set] at hk
      split at hk
      · cases hk
      · obtain ⟨n, -, e⟩ := h.placed _ _ _ hk; cases e
    show some _ = some _
    rw [leaf_put_ne _ hr]

theorem top_store2 (h : Shape sh) {w : Graph.Ix} {a b : Term} {m m' : Nat} (hr : (sh.heap (.root w)).get? a = some (.dict (.made (.root w) a m)))
    (he : sh.heap (.made (.made (.root w) a m) b m') = []) :
    (sh.put (.made (.root w) a m) ((sh.heap (.made (.root w) a m)).set b (.dict (.made (.made (.root w) a m) b m')))).top w =
      (sh.top w).set a (((sh.top w).l1 a).set b []) := by
  rw [top_put_mid h hr, mid_store2 h he]
  unfold Idx.l1; rw [top_get h hr]; rfl

/-- Changes in the dicts of one index do not change the others. -/
theorem top_put_other (h : Shape sh) {w w' : Graph.Ix} (hw : w' ≠ w) {r : DRef} (hr : r = .root w ∨ (∃ a m, r = .made (.root w) a m) ∨ ∃ a m b m', r = .made (.made (.root w) a m) b m')
    (d) : (sh.put r d).top w' = sh.top w' := by
  refine top_put_ne h d ?_ (fun k e => ?_) (fun k r1 h1 k' e => ?_)
  · rcases hr with rfl | ⟨a, m, rfl⟩ | ⟨a, m, b, m', rfl⟩ <;> simp [hw.symm]
  · obtain ⟨n, -, e'⟩ := h.placed _ _ _ e
    rcases hr with rfl | ⟨a, m, rfl⟩ | ⟨a, m, b, m', rfl⟩ <;> cases e'
    exact hw rfl
  · obtain ⟨n, -, rfl⟩ := h.placed _ _ _ h1
    obtain ⟨n', -, e'⟩ := h.placed _ _ _ e
    rcases hr with rfl | ⟨a, m, rfl⟩ | ⟨a, m, b, m', rfl⟩ <;> cases e'
    exact hw rfl

end SharedGraph

/-! ### Steps keep the shape -/

/-- The dicts a thread holds are made for the keys of its statement. -/
def PcShape (n : Nat) : Pc → Prop
  | .idle => True
  | .look1 _ _ => True
  | .store1 op w r => ∃ m < n, r = .made (.root w) (w.keys op.stmt).1 m
  | .look2 op w cur => ∃ m < n, cur = .made (.root w) (w.keys op.stmt).1 m
  | .store2 op w cur r => (∃ m < n, cur = .made (.root w) (w.keys op.stmt).1 m) ∧ ∃ m < n, r = .made cur (w.keys op.stmt).2.1 m
  | .last op w cur => ∃ m < n, ∃ m' < n, cur = .made (.made (.root w) (w.keys op.stmt).1 m) (w.keys op.stmt).2.1 m'

theorem PcShape.mono {n n' : Nat} (hn : n ≤ n') {pc : Pc} (h : PcShape n pc) : PcShape n' pc := by
  cases pc with
  | idle => trivial
  | look1 op w => trivial
  | store1 op w r => obtain ⟨m, hm, e⟩ := h; exact ⟨m, by omega, e⟩
  | look2 op w r => obtain ⟨m, hm, e⟩ := h; exact ⟨m, by omega, e⟩
  | store2 op w cur r => obtain ⟨⟨m, hm, e⟩, m', hm', e'⟩ := h; exact ⟨⟨m, by omega, e⟩, m', by omega, e'⟩
  | last op w cur => obtain ⟨m, hm, m', hm', e⟩ := h; exact ⟨m, by omega, m', by omega, e⟩

theorem PcShape.advance (n : Nat) (th : GThread) (op : ThOp) (w : Graph.Ix) : PcShape n (th.advance op w).pc := by
  cases w <;> trivial

theorem SharedGraph.next_step (sh : SharedGraph) (th : GThread) : sh.next ≤ (sh.step th).1.next := by
  unfold SharedGraph.step
  split
  · split
    · exact le_refl _
    · exact le_refl _
    · split <;> exact le_refl _
  · split
    · exact le_refl _
    · exact le_refl _
    · exact Nat.le_succ _
  · exact le_refl _
  · split
    · exact le_refl _
    · exact le_refl _
    · exact Nat.le_succ _
  · exact le_refl _
  · exact le_refl _
  · split <;> exact le_refl _

theorem Shape.step {sh : SharedGraph} (h : Shape sh) {th : GThread} (hp : PcShape sh.next th.pc) :
    Shape (sh.step th).1 ∧ PcShape (sh.step th).1.next (sh.step th).2.pc := by
  obtain ⟨pc, todo, outs⟩ := th
  cases pc with
  | idle =>
    cases todo with
    | nil => exact ⟨h, trivial⟩
    | cons op todo =>
      cases op with
      | add t => exact ⟨⟨h.wf, h.placed⟩, trivial⟩
      | remove t =>
        simp only [SharedGraph.step]
        split
        · exact ⟨⟨h.wf, h.placed⟩, trivial⟩
        · exact ⟨h, trivial⟩
  | look1 op w =>
    simp only [SharedGraph.step]
    split
    · next r hr => obtain ⟨m, hm, e⟩ := h.placed _ _ _ hr; exact ⟨h, m, hm, e⟩
    · exact ⟨h, trivial⟩
    · exact ⟨h.newDict _ _, sh.next, Nat.lt_succ_self _, rfl⟩
  | store1 op w r =>
    obtain ⟨m, hm, rfl⟩ := hp
    exact ⟨h.set ⟨m, hm, rfl⟩, m, hm, rfl⟩
  | look2 op w cur =>
    obtain ⟨m, hm, rfl⟩ := hp
    simp only [SharedGraph.step]
    split
    · next r hr => obtain ⟨m', hm', e⟩ := h.placed _ _ _ hr; exact ⟨h, m, hm, m', hm', e⟩
    · exact ⟨h, trivial⟩
    · exact ⟨h.newDict _ _, ⟨m, Nat.lt_succ_of_lt hm, rfl⟩, sh.next, Nat.lt_succ_self _, rfl⟩
  | store2 op w cur r =>
    obtain ⟨⟨m, hm, rfl⟩, m', hm', rfl⟩ := hp
    exact ⟨h.set ⟨m', hm', rfl⟩, m, hm, m', hm', rfl⟩
  | last op w cur =>
    obtain ⟨m, hm, m', hm', rfl⟩ := hp
    cases op with
    | add t => exact ⟨h.set rfl, PcShape.advance _ _ _ _⟩
    | remove t =>
      simp only [SharedGraph.step]
      split
      · exact ⟨h.del _ _, PcShape.advance _ _ _ _⟩
      · exact ⟨h, trivial⟩

/-- The shape of a graph and its threads. -/
structure GSys.Shaped (s : GSys) : Prop where
  heap : Shape s.sh
  pcs : ∀ i, PcShape s.sh.next (s.threads i).pc

theorem GSys.Shaped.step {s : GSys} (h : s.Shaped) (i : Nat) : (s.step i).Shaped := by
  have h' := h.heap.step (h.pcs i)
  refine ⟨h'.1, fun j => ?_⟩
  simp only [GSys.step]
  split
  · exact h'.2
  · exact (h.pcs j).mono (SharedGraph.next_step _ _)

theorem GSys.Shaped.run {s : GSys} (h : s.Shaped) (sched : List Nat) : (s.run sched).Shaped := by
  induction sched generalizing s with
  | nil => exact h
  | cons i sched ih => exact ih (h.step i)

theorem GSys.Shaped.start {sh : SharedGraph} (h : Shape sh) (ops : Nat → List ThOp) : (GSys.start sh ops).Shaped := ⟨h, fun _ => trivial⟩

end Verif
