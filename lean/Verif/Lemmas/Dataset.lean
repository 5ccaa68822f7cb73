import Verif.Model.Dataset
import Verif.Spec.Dataset
import Verif.Lemmas.GraphRun
/-
Refinement of the Dataset model to finite sets of quads.
-/
namespace Verif
open Spec

/-- One operation of a history, executed by the model. -/
def Dataset.exec (ord : Nat → List Stmt → List Stmt) (ds : Dataset) : DOp → Dataset × Except Exc Unit
  | .add q => (ds.add q.s q.p q.o q.g, .ok ())
  | .addAll qs => (ds.addAll (qs.map fun q => (q.s, q.p, q.o, q.g)), .ok ())
  | .remove q => ds.remove q.s q.p q.o q.g
  | .query g => ((ds.match ord .none .none .none g).1, .ok ())
  | .addGraph viaNamed name ts =>
    let (ds, i) := ds.alloc ((Graph.new (if viaNamed then .none else .named name)).addAll (ts.map Tri.stmt))
    ds.addGraph i (if viaNamed then .named name else .none)

/-- The dataset after a history. -/
def Dataset.run (ord : Nat → List Stmt → List Stmt) (ops : List DOp) : Dataset :=
  ops.foldl (fun ds op => (ds.exec ord op).1) Dataset.new

namespace Dataset

/-- The dataset represents the set of quads. -/
structure Rep (ds : Dataset) (S : Finset Qd) : Prop where
  wf : ds.names.WF
  lt : ∀ {n i}, ds.names.get? n = some i → i < ds.next
  inj : ∀ {n n' i}, ds.names.get? n = some i → ds.names.get? n' = some i → n = n'
  inv : ∀ {n i}, ds.names.get? n = some i → Graph.Inv (ds.heap i)
  uri : ∀ {n i}, ds.names.get? n = some i → (ds.heap i).triples ≠ [] → (ds.heap i).uri = n
  mem : ∀ q : Qd, q ∈ S ↔ ∃ i, ds.names.get? q.g = some i ∧ mkTriple q.s q.p q.o ∈ (ds.heap i).triples

theorem Rep.new : Rep Dataset.new ∅ := by
  constructor <;> simp [Dataset.new, Dict.WF, Dict.keys]

theorem Rep.mem_at {ds S} (h : Rep ds S) {n i} (hn : ds.names.get? n = some i) (s p o : Term) :
    (⟨s, p, o, n⟩ : Qd) ∈ S ↔ mkTriple s p o ∈ (ds.heap i).triples := by
  rw [h.mem]
  constructor
  · rintro ⟨j, h1, h2⟩; rw [hn] at h1; cases h1; exact h2
  · intro h2; exact ⟨i, hn, h2⟩

theorem upd_heap_same (ds : Dataset) (i : Nat) (g : Graph) : (ds.upd i g).heap i = g := by simp [upd]
theorem upd_heap_ne (ds : Dataset) {i j : Nat} (g : Graph) (h : j ≠ i) : (ds.upd i g).heap j = ds.heap j := by
  simp [upd, h]

/-- Replacing the graph stored under a name. -/
theorem Rep.upd {ds S} (h : Rep ds S) {n i} (hn : ds.names.get? n = some i) {g : Graph} {S' : Finset Qd}
    (hi : Graph.Inv g) (hu : g.triples ≠ [] → g.uri = n)
    (hS : ∀ q : Qd, q ∈ S' ↔ if q.g = n then mkTriple q.s q.p q.o ∈ g.triples else q ∈ S) :
    Rep (ds.upd i g) S' := by
  have hne : ∀ {n' j}, ds.names.get? n' = some j → n' ≠ n → j ≠ i := by
    intro n' j h1 h2 e; subst e; exact h2 (h.inj h1 hn)
  have heq : ∀ {n' j}, ds.names.get? n' = some j → n' = n → j = i := by
    intro n' j h1 h2; subst h2; rw [hn] at h1; exact (Option.some.inj h1).symm
  refine ⟨h.wf, fun {n' j} hj => h.lt hj, fun {a b j} h1 h2 => h.inj h1 h2, fun {n' j} hj => ?_, fun {n' j} hj hne' => ?_, fun q => ?_⟩
  · by_cases e : n' = n
    · cases heq hj e; rw [upd_heap_same]; exact hi
    · rw [upd_heap_ne _ _ (hne hj e)]; exact h.inv hj
  · by_cases e : n' = n
    · cases heq hj e; rw [upd_heap_same] at hne' ⊢; rw [e]; exact hu hne'
    · rw [upd_heap_ne _ _ (hne hj e)] at hne' ⊢; exact h.uri hj hne'
  · rw [hS]
    show _ ↔ ∃ j, ds.names.get? q.g = some j ∧ _
    by_cases e : q.g = n
    · rw [if_pos e]
      constructor
      · intro hm; exact ⟨i, e ▸ hn, by rw [upd_heap_same]; exact hm⟩
      · rintro ⟨j, hj, hm⟩; cases heq hj e; rwa [upd_heap_same] at hm
    · rw [if_neg e, h.mem]
      constructor
      · rintro ⟨j, hj, hm⟩; exact ⟨j, hj, by rw [upd_heap_ne _ _ (hne hj e)]; exact hm⟩
      · rintro ⟨j, hj, hm⟩; rw [upd_heap_ne _ _ (hne hj e)] at hm; exact ⟨j, hj, hm⟩

/-- Storing a new graph object under a name. -/
theorem Rep.alloc {ds S} (h : Rep ds S) (n : Term) {g : Graph} {S' : Finset Qd}
    (hi : Graph.Inv g) (hu : g.triples ≠ [] → g.uri = n)
    (hS : ∀ q : Qd, q ∈ S' ↔ if q.g = n then mkTriple q.s q.p q.o ∈ g.triples else q ∈ S) (heap : Nat → Graph)
    (hheap : ∀ j, heap j = if j = ds.next then g else ds.heap j) :
    Rep { names := ds.names.set n ds.next, heap := heap, next := ds.next + 1 } S' := by
  have hget : ∀ {n' j}, (ds.names.set n ds.next).get? n' = some j →
      (n' = n ∧ j = ds.next) ∨ (n' ≠ n ∧ ds.names.get? n' = some j ∧ j ≠ ds.next) := by
    intro n' j hj
    rw [Dict.get?_set] at hj
    by_cases e : n = n'
    · rw [if_pos e] at hj; exact Or.inl ⟨e.symm, (Option.some.inj hj).symm⟩
    · rw [if_neg e] at hj; exact Or.inr ⟨Ne.symm e, hj, Nat.ne_of_lt (h.lt hj)⟩
  have h1 : heap ds.next = g := by rw [hheap, if_pos rfl]
  have h2 : ∀ {j}, j ≠ ds.next → heap j = ds.heap j := by intro j hj; rw [hheap, if_neg hj]
  refine ⟨h.wf.set _ _, fun {n' j} hj => ?_, fun {a b j} ha hb => ?_, fun {n' j} hj => ?_, fun {n' j} hj hne => ?_, fun q => ?_⟩
  · show j < ds.next + 1
    rcases hget hj with ⟨_, rfl⟩ | ⟨_, hj, _⟩
    · omega
    · have := h.lt hj; omega
  · rcases hget ha with ⟨rfl, rfl⟩ | ⟨_, ha, hna⟩ <;> rcases hget hb with ⟨rfl, e⟩ | ⟨_, hb, hnb⟩
    · rfl
    · exact absurd rfl hnb
    · exact absurd e hna
    · exact h.inj ha hb
  · show Graph.Inv (heap j)
    rcases hget hj with ⟨_, rfl⟩ | ⟨_, hj, hnj⟩
    · rw [h1]; exact hi
    · rw [h2 hnj]; exact h.inv hj
  · change (heap j).triples ≠ [] at hne
    show (heap j).uri = n'
    rcases hget hj with ⟨rfl, rfl⟩ | ⟨_, hj, hnj⟩
    · rw [h1] at hne ⊢; exact hu hne
    · rw [h2 hnj] at hne ⊢; exact h.uri hj hne
  · rw [hS]
    show _ ↔ ∃ j, (ds.names.set n ds.next).get? q.g = some j ∧ mkTriple q.s q.p q.o ∈ (heap j).triples
    by_cases e : q.g = n
    · rw [if_pos e]
      constructor
      · intro hm; exact ⟨ds.next, by rw [Dict.get?_set, if_pos e.symm], by rw [h1]; exact hm⟩
      · rintro ⟨j, hj, hm⟩
        rcases hget hj with ⟨_, rfl⟩ | ⟨hn, _⟩
        · rwa [h1] at hm
        · exact absurd e hn
    · rw [if_neg e, h.mem]
      constructor
      · rintro ⟨j, hj, hm⟩
        refine ⟨j, by rw [Dict.get?_set, if_neg (Ne.symm e)]; exact hj, ?_⟩
        rw [h2 (Nat.ne_of_lt (h.lt hj))]; exact hm
      · rintro ⟨j, hj, hm⟩
        rcases hget hj with ⟨hn, _⟩ | ⟨_, hj, hnj⟩
        · exact absurd hn e
        · rw [h2 hnj] at hm; exact ⟨j, hj, hm⟩

theorem touch_of_some {ds : Dataset} {n i} (h : ds.names.get? n = some i) : ds.touch n = (ds, i) := by
  unfold touch; rw [h]

theorem Rep.touch {ds S} (h : Rep ds S) (n : Term) :
    Rep (ds.touch n).1 S ∧ (ds.touch n).1.names.get? n = some (ds.touch n).2 := by
  cases hn : ds.names.get? n with
  | some i => rw [touch_of_some hn]; exact ⟨h, hn⟩
  | none =>
    have e : ds.touch n = (Dataset.mk (ds.names.set n ds.next) (fun j => if j = ds.next then Graph.new else ds.heap j)
        (ds.next + 1), ds.next) := by unfold Dataset.touch; rw [hn]; rfl
    rw [e]
    refine ⟨h.alloc n (Graph.Inv.new .none) (fun hne => absurd rfl hne) (fun q => ?_) _ (fun _ => rfl), ?_⟩
    · split
      · next e =>
        rw [h.mem, e, hn]
        simp [Graph.new]
      · rfl
    · show (ds.names.set n ds.next).get? n = _
      rw [Dict.get?_set, if_pos rfl]

theorem inv_setUri {g : Graph} (h : Graph.Inv g) (u : Term) : Graph.Inv { g with uri := u } :=
  ⟨⟨h.nodup, h.wspo, h.wpos, h.wosp, h.spo, h.pos, h.osp⟩, h.isTri⟩

theorem upd_upd (ds : Dataset) (i : Nat) (g g' : Graph) : (ds.upd i g).upd i g' = ds.upd i g' := by
  simp only [upd]
  congr 1
  funext j
  by_cases h : j = i <;> simp [h]

theorem Rep.add {ds S} (h : Rep ds S) (q : Qd) : Rep (ds.add q.s q.p q.o q.g) (insert q S) := by
  obtain ⟨h1, hn⟩ := h.touch q.g
  unfold Dataset.add
  revert h1 hn
  generalize Dataset.touch ds q.g = r
  obtain ⟨ds, i⟩ := r
  intro h1 hn
  show Rep ((ds.upd i _).upd i ((Dataset.heap (ds.upd i _) i).add _)) _
  rw [upd_heap_same, upd_upd]
  refine h1.upd hn ((inv_setUri (h1.inv hn) _).add rfl) (fun _ => rfl) (fun q' => ?_)
  rw [Finset.mem_insert, Graph.mem_add]
  show _ ↔ if q'.g = q.g then (_ ∨ mkTriple q'.s q'.p q'.o ∈ (ds.heap i).triples) else _
  split
  · next e =>
    rw [← h1.mem_at hn, Graph.mkTriple_inj]
    cases q'; cases q; simp only [Qd.mk.injEq] at *; subst e; tauto
  · next e =>
    constructor
    · rintro (rfl | h')
      · exact absurd rfl e
      · exact h'
    · exact Or.inr

theorem Rep.remove {ds S} (h : Rep ds S) (q : Qd) :
    Rep (ds.remove q.s q.p q.o q.g).1 (S.erase q) ∧
    (q ∈ S → (ds.remove q.s q.p q.o q.g).2 = .ok ()) ∧
    (q ∉ S → (ds.remove q.s q.p q.o q.g).2 = .error .keyError) := by
  obtain ⟨h1, hn⟩ := h.touch q.g
  unfold Dataset.remove
  revert h1 hn
  generalize Dataset.touch ds q.g = r
  obtain ⟨ds, i⟩ := r
  intro h1 hn
  have hq : q ∈ S ↔ mkTriple q.s q.p q.o ∈ (ds.heap i).triples := h1.mem_at hn q.s q.p q.o
  have hi := h1.inv hn
  refine ⟨h1.upd hn (g := ((ds.heap i).remove (mkTriple q.s q.p q.o)).1) (hi.remove _) (fun hne => ?_) (fun q' => ?_), fun hm => ?_, fun hm => ?_⟩
  · have hne' : (ds.heap i).triples ≠ [] := by
      intro e; apply hne
      rw [List.eq_nil_iff_forall_not_mem]
      intro x hx
      have := ((Graph.mem_remove hi.toIxInv _ x).1 hx).2
      rw [e] at this; cases this
    have hu : ((ds.heap i).remove (mkTriple q.s q.p q.o)).1.uri = (ds.heap i).uri := by
      by_cases hm : mkTriple q.s q.p q.o ∈ (ds.heap i).triples
      · rw [Graph.remove_of_mem hi.toIxInv hm]; rfl
      · rw [Graph.remove_of_not_mem hm]
    rw [hu]; exact h1.uri hn hne'
  · rw [Finset.mem_erase, Graph.mem_remove hi.toIxInv]
    split
    · next e =>
      rw [← h1.mem_at hn]
      have := @Graph.mkTriple_inj q'.s q'.p q'.o q.s q.p q.o
      cases q'; cases q; simp only [ne_eq, Qd.mk.injEq] at *; subst e; tauto
    · next e =>
      exact ⟨fun h' => h'.2, fun h' => ⟨fun e' => e (e' ▸ rfl), h'⟩⟩
  · show ((ds.heap i).remove _).2 = _
    rw [Graph.remove_of_mem hi.toIxInv (hq.1 hm)]
  · show ((ds.heap i).remove _).2 = _
    rw [Graph.remove_of_not_mem (fun e => hm (hq.2 e))]

theorem Rep.addAll {ds S} (h : Rep ds S) (qs : List Qd) :
    Rep (ds.addAll (qs.map fun q => (q.s, q.p, q.o, q.g))) (S ∪ qs.toFinset) := by
  induction qs generalizing ds S with
  | nil => simpa [Dataset.addAll] using h
  | cons q qs ih =>
    have := ih (h.add q)
    have e : insert q S ∪ qs.toFinset = S ∪ (q :: qs).toFinset := by
      ext x; simp only [Finset.mem_union, Finset.mem_insert, List.mem_toFinset, List.mem_cons]; tauto
    rw [e] at this
    simpa [Dataset.addAll] using this

theorem Rep.matchState {ds S} (h : Rep ds S) (ord) (s p o g : Term) : Rep (ds.match ord s p o g).1 S := by
  unfold Dataset.match
  split
  · exact (h.touch g).1
  · exact h

theorem addAll_uri (g : Graph) (ts : List Stmt) : (g.addAll ts).uri = g.uri := by
  unfold Graph.addAll
  induction ts generalizing g with
  | nil => rfl
  | cons t ts ih => rw [List.foldl_cons, ih]; rfl

theorem exec_addGraph (ord) (ds : Dataset) (v : Bool) (name : PStr) (hname : name ≠ []) (ts : List Tri) :
    ds.exec ord (.addGraph v name ts) =
      ({ names := ds.names.set (.named name) ds.next
         heap := fun j => if j = ds.next then { ((Graph.new (if v then .none else .named name)).addAll (ts.map Tri.stmt)) with uri := .named name } else ds.heap j
         next := ds.next + 1 }, .ok ()) := by
  have ht : (Term.named name).truthy = true := by rw [Graph.truthy_iff]; simp [hname]
  cases v with
  | true =>
    simp only [exec, alloc, addGraph, upd, ht, if_true]
    congr 2
    funext j
    by_cases h : j = ds.next <;> simp [h]
  | false =>
    have ht0 : Term.none.truthy = false := rfl
    simp only [exec, alloc, addGraph, upd, if_true, Bool.false_eq_true, if_false, addAll_uri, Graph.new, ht0, ht]
    congr 2
    funext j
    by_cases h : j = ds.next <;> simp [h]

theorem Rep.exec {ds S} (h : Rep ds S) (ord) (op : DOp) (hop : op.WF) : Rep (ds.exec ord op).1 (op.apply S) := by
  cases op with
  | add q => exact h.add q
  | addAll qs => exact h.addAll qs
  | remove q => exact (h.remove q).1
  | query g => exact h.matchState ord _ _ _ _
  | addGraph v name ts =>
    rw [exec_addGraph ord ds v name hop ts]
    refine h.alloc _ (inv_setUri ((Graph.Inv.new _).addAll (by simp [Tri.stmt, mkTriple])) _) (fun _ => rfl) (fun q => ?_) _ (fun _ => rfl)
    show q ∈ DOp.apply _ S ↔ if q.g = .named name then mkTriple q.s q.p q.o ∈ (Graph.addAll _ _).triples else _
    rw [Graph.mem_addAll]
    simp only [DOp.apply, Finset.mem_union, Finset.mem_filter, List.mem_toFinset, List.mem_map, Graph.new, List.not_mem_nil, or_false]
    split
    · next e =>
      constructor
      · rintro (⟨_, h2⟩ | ⟨t, h1, rfl⟩)
        · exact absurd e h2
        · exact ⟨t, h1, rfl⟩
      · rintro ⟨t, h1, h2⟩
        right
        refine ⟨t, h1, ?_⟩
        have := Graph.mkTriple_inj.1 h2
        cases q; simp_all
    · next e =>
      constructor
      · rintro (⟨h2, _⟩ | ⟨t, h1, rfl⟩)
        · exact h2
        · exact absurd rfl e
      · intro h2; exact Or.inl ⟨h2, e⟩

theorem rep_run (ord) (ops : List DOp) (hops : ∀ op ∈ ops, op.WF) : Rep (Dataset.run ord ops) (runQuads ops) := by
  have : ∀ (ops : List DOp) ds S, (∀ op ∈ ops, op.WF) → Rep ds S →
      Rep (ops.foldl (fun ds op => (ds.exec ord op).1) ds) (ops.foldl (fun S op => op.apply S) S) := by
    intro ops
    induction ops with
    | nil => intro ds S _ h; exact h
    | cons op ops ih =>
      intro ds S ho h
      exact ih _ _ (fun o h' => ho o (by simp [h'])) (h.exec ord op (ho op (by simp)))
  exact this ops _ _ hops Rep.new

/-! ### Reading -/

theorem tAsQ_stmt (n : Term) (t : Stmt) : tAsQ n t = (Qd.mk t.s t.p t.o n).stmt := rfl

theorem qstmt_inj {q q' : Qd} : q.stmt = q'.stmt ↔ q = q' := by
  cases q; cases q'; simp [Qd.stmt, mkQuad]

/-- All quads that `f` selects per graph, each under its name. -/
def collect (ds : Dataset) (f : Nat → List Stmt) : List Stmt := ds.names.flatMap fun ni => (f ni.2).map (tAsQ ni.1)

theorem mem_collect {ds S} (h : Rep ds S) {f : Nat → List Stmt} {P : Term → Term → Term → Prop}
    (hf : ∀ n i, ds.names.get? n = some i → ∀ x, x ∈ f i ↔ x ∈ (ds.heap i).triples ∧ P x.s x.p x.o) (x : Stmt) :
    x ∈ ds.collect f ↔ ∃ q ∈ S, x = q.stmt ∧ P q.s q.p q.o := by
  unfold collect
  simp only [List.mem_flatMap, List.mem_map]
  constructor
  · rintro ⟨⟨n, i⟩, hm, t, ht, rfl⟩
    have hn := (Dict.mem_iff_get? h.wf).1 hm
    obtain ⟨h1, h2⟩ := (hf n i hn t).1 ht
    refine ⟨⟨t.s, t.p, t.o, n⟩, ?_, rfl, h2⟩
    rw [h.mem_at hn, ← Graph.eq_mkTriple ((h.inv hn).isTri t h1)]; exact h1
  · rintro ⟨q, hq, rfl, hP⟩
    obtain ⟨i, hn, hm⟩ := (h.mem q).1 hq
    exact ⟨(q.g, i), (Dict.mem_iff_get? h.wf).2 hn, mkTriple q.s q.p q.o, (hf _ _ hn _).2 ⟨hm, hP⟩, rfl⟩

theorem nodup_collect {ds S} (h : Rep ds S) {f : Nat → List Stmt}
    (hf : ∀ n i, ds.names.get? n = some i → (f i).Nodup ∧ ∀ x ∈ f i, x.g = none) : (ds.collect f).Nodup := by
  unfold collect
  rw [List.nodup_flatMap]
  constructor
  · rintro ⟨n, i⟩ hm
    have := hf n i ((Dict.mem_iff_get? h.wf).1 hm)
    refine List.Nodup.map_on ?_ this.1
    intro x hx y hy e
    rw [Graph.eq_mkTriple (this.2 x hx), Graph.eq_mkTriple (this.2 y hy)]
    simp only [tAsQ, mkQuad, Stmt.mk.injEq] at e
    rw [e.1, e.2.1, e.2.2.1]
  · have hk : ds.names.Pairwise (fun a b => a.1 ≠ b.1) := by
      have := h.wf
      unfold Dict.WF Dict.keys List.Nodup at this
      rwa [List.pairwise_map] at this
    refine hk.imp ?_
    rintro ⟨n, i⟩ ⟨n', i'⟩ hne x hx hx'
    simp only [List.mem_map] at hx hx'
    obtain ⟨t, _, rfl⟩ := hx
    obtain ⟨t', _, e⟩ := hx'
    simp only [tAsQ, mkQuad, Stmt.mk.injEq, Option.some.injEq] at e
    exact hne e.2.2.2.symm

theorem iter_eq_collect {ds S} (h : Rep ds S) (ord) (hord : IsOrders ord) :
    ds.iter ord = ds.collect (fun i => ord i (ds.heap i).triples) := by
  unfold iter collect graphs Dict.values
  rw [List.flatMap_map]
  apply List.flatMap_congr
  rintro ⟨n, i⟩ hm
  have hn := (Dict.mem_iff_get? h.wf).1 hm
  by_cases he : (ds.heap i).triples = []
  · have : ord i (ds.heap i).triples = [] := by
      rw [he]; have := hord i []; simpa using this
    simp [Graph.iter, this]
  · simp only [Graph.iter, h.uri hn he]

theorem Rep.mem_iter {ds S} (h : Rep ds S) {ord} (hord : IsOrders ord) (x : Stmt) :
    x ∈ ds.iter ord ↔ ∃ q ∈ S, x = q.stmt := by
  rw [iter_eq_collect h ord hord, mem_collect h (P := fun _ _ _ => True)]
  · simp
  · intro n i _ x; simp [(hord i _).mem_iff]

theorem Rep.nodup_iter {ds S} (h : Rep ds S) {ord} (hord : IsOrders ord) : (ds.iter ord).Nodup := by
  rw [iter_eq_collect h ord hord]
  refine nodup_collect h (fun n i hn => ⟨(hord i _).nodup_iff.2 (h.inv hn).nodup, fun x hx => (h.inv hn).isTri x ((hord i _).mem_iff.1 hx)⟩)

theorem length_eq_card {l : List Stmt} {S : Finset Qd} (hn : l.Nodup) (hm : ∀ x, x ∈ l ↔ ∃ q ∈ S, x = q.stmt) :
    l.length = S.card := by
  have : l.Perm (S.toList.map Qd.stmt) := by
    rw [List.perm_ext_iff_of_nodup hn]
    · intro x; rw [hm]; simp [eq_comm]
    · exact (Finset.nodup_toList S).map (fun a b e => qstmt_inj.1 e)
  rw [this.length_eq]; simp

theorem Rep.len {ds S} (h : Rep ds S) : ds.len = S.card := by
  have hord : IsOrders (fun _ => id) := fun _ _ => .refl _
  rw [← length_eq_card (h.nodup_iter hord) (h.mem_iter hord)]
  simp [Dataset.len, iter, List.length_flatMap, Graph.len, Graph.iter]

theorem Rep.contains {ds S} (h : Rep ds S) (q : Qd) : ds.containsQuad q.s q.p q.o q.g = true ↔ q ∈ S := by
  rw [h.mem]
  unfold containsQuad
  cases hn : ds.names.get? q.g with
  | none => simp
  | some i => simp [Graph.contains]

theorem Rep.mem_match {ds S} (h : Rep ds S) {ord} (hord : IsOrders ord) {s p o g : Option Term}
    (hs : NonEmpty s) (hp : NonEmpty p) (ho : NonEmpty o) (hg : NonEmpty g) (x : Stmt) :
    x ∈ (ds.match ord (arg s) (arg p) (arg o) (arg g)).2 ↔ ∃ q ∈ S, x = q.stmt ∧ q.Matches s p o g := by
  have key : ∀ {ds n i}, Rep ds S → ds.names.get? n = some i → ∀ x,
      x ∈ (ds.heap i).match (ord i) (arg s) (arg p) (arg o) ↔
        x ∈ (ds.heap i).triples ∧ (agrees s x.s ∧ agrees p x.p ∧ agrees o x.o) := by
    intro ds n i h hn x
    rw [Graph.mem_match (h.inv hn) (hord i), Graph.agrees_iff hs, Graph.agrees_iff hp, Graph.agrees_iff ho]
  unfold Dataset.match
  cases g with
  | none =>
    have : (arg none).truthy = false := rfl
    rw [this, if_neg (by simp)]
    show x ∈ ds.collect (fun i => (ds.heap i).match (ord i) (arg s) (arg p) (arg o)) ↔ _
    rw [mem_collect h (P := fun a b c => agrees s a ∧ agrees p b ∧ agrees o c)]
    · simp only [Qd.Matches]
      have : ∀ t, agrees none t := by intro t a e; cases e
      simp [this]
    · intro n i hn; exact key h hn
  | some g =>
    have : (arg (some g)).truthy = true := (Graph.truthy_iff g).2 (hg g rfl)
    rw [if_pos this]
    obtain ⟨h1, hn⟩ := h.touch g
    show x ∈ List.map (tAsQ g) (Graph.match (ord (ds.touch g).2) ((ds.touch g).1.heap (ds.touch g).2) _ _ _) ↔ _
    rw [List.mem_map]
    simp only [key h1 hn]
    constructor
    · rintro ⟨t, ⟨h2, h3⟩, rfl⟩
      refine ⟨⟨t.s, t.p, t.o, g⟩, ?_, rfl, h3.1, h3.2.1, h3.2.2, ?_⟩
      · rw [h1.mem_at hn, ← Graph.eq_mkTriple ((h1.inv hn).isTri t h2)]; exact h2
      · intro a e; cases e; rfl
    · rintro ⟨q, hq, rfl, h2, h3, h4, h5⟩
      have e : q.g = g := h5 g rfl
      refine ⟨mkTriple q.s q.p q.o, ⟨?_, h2, h3, h4⟩, ?_⟩
      · rw [← h1.mem_at hn, ← e]; exact hq
      · rw [tAsQ_stmt, ← e]; rfl

theorem Rep.nodup_match {ds S} (h : Rep ds S) {ord} (hord : IsOrders ord) (s p o g : Term) :
    (ds.match ord s p o g).2.Nodup := by
  have key : ∀ {ds n i}, Rep ds S → ds.names.get? n = some i →
      ((ds.heap i).match (ord i) s p o).Nodup ∧ ∀ x ∈ (ds.heap i).match (ord i) s p o, x.g = none := by
    intro ds n i h hn
    refine ⟨Graph.nodup_match (h.inv hn).toIxInv (hord i) _ _ _, fun x hx => ?_⟩
    exact (h.inv hn).isTri x ((Graph.mem_match (h.inv hn) (hord i) _ _ _ x).1 hx).1
  unfold Dataset.match
  split
  · obtain ⟨h1, hn⟩ := h.touch g
    show (List.map (tAsQ g) (Graph.match (ord (ds.touch g).2) ((ds.touch g).1.heap (ds.touch g).2) _ _ _)).Nodup
    refine List.Nodup.map_on ?_ (key h1 hn).1
    intro x hx y hy e
    rw [Graph.eq_mkTriple ((key h1 hn).2 x hx), Graph.eq_mkTriple ((key h1 hn).2 y hy)]
    simp only [tAsQ, mkQuad, Stmt.mk.injEq] at e
    rw [e.1, e.2.1, e.2.2.1]
  · exact nodup_collect h (fun n i hn => key h hn)

end Dataset
end Verif
