import Verif.Lemmas.Dataset
/-
Lemmas on `Dataset.removeMatches`.
-/
namespace Verif.Dataset
open Spec

theorem next_start_stop {ord} (hord : IsOrder ord) {g : Graph} (inv : Graph.Inv g) {s p o : Option Term}
    (hs : NonEmpty s) (hp : NonEmpty p) (ho : NonEmpty o) :
    (∃ it, Graph.next ord g (.start (arg s) (arg p) (arg o)) = (it, .stop) ∧
      ¬ ∃ t ∈ g.triples, agrees s t.s ∧ agrees p t.p ∧ agrees o t.o) ∨
    (∃ it t, Graph.next ord g (.start (arg s) (arg p) (arg o)) = (it, .item t) ∧
      t ∈ g.triples ∧ agrees s t.s ∧ agrees p t.p ∧ agrees o t.o) := by
  have hd := Graph.drains_match ord g (arg s) (arg p) (arg o)
  have hm := Graph.mem_match inv hord (arg s) (arg p) (arg o)
  simp only [← Graph.agrees_iff hs, ← Graph.agrees_iff hp, ← Graph.agrees_iff ho] at hm
  generalize Graph.match ord g (arg s) (arg p) (arg o) = l at hd hm
  cases hd with
  | stop e =>
    refine Or.inl ⟨_, e, ?_⟩
    rintro ⟨t, h1, h2⟩
    exact absurd ((hm t).2 ⟨h1, h2⟩) (by simp)
  | item e _ => exact Or.inr ⟨_, _, e, (hm _).1 (by simp)⟩

/-- The outer loop either finds nothing and stops, or suspends on the first graph with a match. -/
theorem advance_spec {ord} (hord : IsOrders ord) {ds S} (h : Rep ds S) {s p o : Option Term}
    (hs : NonEmpty s) (hp : NonEmpty p) (ho : NonEmpty o) (rest : List (Term × Nat))
    (hr : ∀ ni ∈ rest, ds.names.get? ni.1 = some ni.2) :
    (advance ord ds (arg s) (arg p) (arg o) ds.names.length rest = (.done, .stop) ∧
      ∀ ni ∈ rest, ¬ ∃ t ∈ (ds.heap ni.2).triples, agrees s t.s ∧ agrees p t.p ∧ agrees o t.o) ∨
    (∃ n i it t rest', (n, i) ∈ rest ∧
      advance ord ds (arg s) (arg p) (arg o) ds.names.length rest =
        (.all (arg s) (arg p) (arg o) ds.names.length n i it rest', .item (tAsQ n t)) ∧
      Graph.next (ord i) (ds.heap i) (.start (arg s) (arg p) (arg o)) = (it, .item t) ∧
      t ∈ (ds.heap i).triples ∧ agrees s t.s ∧ agrees p t.p ∧ agrees o t.o) := by
  induction rest with
  | nil => left; exact ⟨by simp [advance], by simp⟩
  | cons ni rest ih =>
    obtain ⟨n, i⟩ := ni
    rw [advance]
    simp only [ne_eq, not_true_eq_false, if_false]
    rcases next_start_stop (hord i) (h.inv (hr (n, i) (by simp))) hs hp ho with ⟨it, e, hn⟩ | ⟨it, t, e, ht⟩
    · rw [e]
      rcases ih (fun ni hni => hr ni (by simp [hni])) with ⟨h1, h2⟩ | ⟨n', i', it', t', rest', h1, h2⟩
      · left
        refine ⟨h1, fun ni hni => ?_⟩
        rcases List.mem_cons.1 hni with rfl | hni
        · exact hn
        · exact h2 ni hni
      · right
        exact ⟨n', i', it', t', rest', by simp [h1], h2⟩
    · right
      rw [e]
      exact ⟨n, i, it, t, rest, by simp, rfl, e, ht⟩

/-- State after removing a statement that is present. -/
theorem remove_present {ds S} (h : Rep ds S) {n i} (hn : ds.names.get? n = some i) {t : Stmt}
    (ht : t ∈ (ds.heap i).triples) :
    ds.remove t.s t.p t.o n = (ds.upd i ((ds.heap i).removed t), .ok ()) := by
  have e := Graph.eq_mkTriple ((h.inv hn).isTri t ht)
  unfold Dataset.remove
  rw [touch_of_some hn]
  simp only [← e, Graph.remove_of_mem (h.inv hn).toIxInv ht]

/-- Removal of one quad. -/
theorem rep_remove_present {ds S} (h : Rep ds S) {n i} (hn : ds.names.get? n = some i) {t : Stmt}
    (ht : t ∈ (ds.heap i).triples) :
    Rep (ds.upd i ((ds.heap i).removed t)) (S.erase ⟨t.s, t.p, t.o, n⟩) := by
  have := (h.remove ⟨t.s, t.p, t.o, n⟩).1
  rw [show ds.remove (Qd.mk t.s t.p t.o n).s (Qd.mk t.s t.p t.o n).p (Qd.mk t.s t.p t.o n).o (Qd.mk t.s t.p t.o n).g
    = ds.remove t.s t.p t.o n from rfl, remove_present h hn ht] at this
  exact this

/-- The exact behaviour of `removeMatches` for a pattern whose triple part has an open position. -/
theorem removeMatches_open {ord} (hord : IsOrders ord) {ds S} (h : Rep ds S) {s p o g : Option Term}
    (hs : NonEmpty s) (hp : NonEmpty p) (ho : NonEmpty o) (hg : NonEmpty g)
    (hb : ¬ ((arg s).truthy = true ∧ (arg p).truthy = true ∧ (arg o).truthy = true)) :
    ((¬ ∃ q ∈ S, q.Matches s p o g) → Rep (ds.removeMatches ord (arg s) (arg p) (arg o) (arg g)).1 S ∧
      (ds.removeMatches ord (arg s) (arg p) (arg o) (arg g)).2 = .ok ()) ∧
    ((∃ q ∈ S, q.Matches s p o g) → ∃ q ∈ S, q.Matches s p o g ∧
      Rep (ds.removeMatches ord (arg s) (arg p) (arg o) (arg g)).1 (S.erase q) ∧
      (ds.removeMatches ord (arg s) (arg p) (arg o) (arg g)).2 = .error .runtimeError) := by
  have hany : ∀ t, agrees none t := by intro t a e; cases e
  unfold Dataset.removeMatches
  cases g with
  | none =>
    have hr : ∀ ni ∈ ds.names, ds.names.get? ni.1 = some ni.2 := fun ni hni => (Dict.mem_iff_get? h.wf).1 hni
    have hstart : nextQ ord ds (.start (arg s) (arg p) (arg o) (arg none)) =
        (ds, advance ord ds (arg s) (arg p) (arg o) ds.names.length ds.names) := rfl
    rw [removeLoop, hstart]
    rcases advance_spec hord h hs hp ho ds.names hr with ⟨h1, h2⟩ | ⟨n, i, it, t, rest', h1, h2, h3, h4, h5⟩
    · rw [h1]
      refine ⟨fun _ => ⟨h, rfl⟩, ?_⟩
      rintro ⟨q, hq, hm⟩
      obtain ⟨i, hi, ht⟩ := (h.mem q).1 hq
      exact absurd ⟨mkTriple q.s q.p q.o, ht, hm.1, hm.2.1, hm.2.2.1⟩ (h2 (q.g, i) ((Dict.mem_iff_get? h.wf).2 hi))
    · have hn := hr _ h1
      have hq : (⟨t.s, t.p, t.o, n⟩ : Qd) ∈ S := by
        rw [h.mem_at hn, ← Graph.eq_mkTriple ((h.inv hn).isTri t h4)]; exact h4
      have hm : (⟨t.s, t.p, t.o, n⟩ : Qd).Matches s p o none := ⟨h5.1, h5.2.1, h5.2.2, hany _⟩
      refine ⟨fun hno => absurd ⟨_, hq, hm⟩ hno, fun _ => ⟨_, hq, hm, ?_⟩⟩
      rw [h2]
      have hrem : ds.remove (tAsQ n t).s (tAsQ n t).p (tAsQ n t).o ((tAsQ n t).g.getD .none) =
        (ds.upd i ((ds.heap i).removed t), .ok ()) := remove_present h hn h4
      simp only [hrem]
      have hraise : nextQ ord (ds.upd i ((ds.heap i).removed t))
          (.all (arg s) (arg p) (arg o) ds.names.length n i it rest') =
          (ds.upd i ((ds.heap i).removed t), .done, .raise .runtimeError) := by
        simp only [nextQ, upd_heap_same]
        rw [Graph.next_removed (h.inv hn).toIxInv (Graph.next_start_at (hord i) hb h3)]
      rw [removeLoop, hraise]
      exact ⟨rep_remove_present h hn h4, rfl⟩
  | some g =>
    have hgt : (arg (some g)).truthy = true := (Graph.truthy_iff g).2 (hg g rfl)
    obtain ⟨h', hn⟩ := h.touch g
    have hstart : nextQ ord ds (.start (arg s) (arg p) (arg o) (arg (some g))) =
        ((ds.touch g).1, resumeNamed ord (ds.touch g).1 g (ds.touch g).2 (.start (arg s) (arg p) (arg o))) := by
      simp only [nextQ, hgt, if_true]; rfl
    rw [removeLoop, hstart]
    revert h' hn
    generalize Dataset.touch ds g = r
    obtain ⟨ds', i⟩ := r
    intro h' hn
    simp only [resumeNamed]
    rcases next_start_stop (hord i) (h'.inv hn) hs hp ho with ⟨it, e, hno⟩ | ⟨it, t, e, ht, h5⟩
    · rw [e]
      refine ⟨fun _ => ⟨h', rfl⟩, ?_⟩
      rintro ⟨q, hq, hm⟩
      have eg : q.g = g := hm.2.2.2 g rfl
      obtain ⟨j, hj, ht⟩ := (h'.mem q).1 hq
      rw [eg] at hj
      rw [show ds'.names.get? g = some i from hn] at hj
      cases hj
      exact absurd ⟨mkTriple q.s q.p q.o, ht, hm.1, hm.2.1, hm.2.2.1⟩ hno
    · have hq : (⟨t.s, t.p, t.o, g⟩ : Qd) ∈ S := by
        rw [h'.mem_at hn, ← Graph.eq_mkTriple ((h'.inv hn).isTri t ht)]; exact ht
      have hm : (⟨t.s, t.p, t.o, g⟩ : Qd).Matches s p o (some g) :=
        ⟨h5.1, h5.2.1, h5.2.2, by intro a e; cases e; rfl⟩
      refine ⟨fun hno => absurd ⟨_, hq, hm⟩ hno, fun _ => ⟨_, hq, hm, ?_⟩⟩
      rw [e]
      have hrem : ds'.remove (tAsQ g t).s (tAsQ g t).p (tAsQ g t).o ((tAsQ g t).g.getD .none) =
        (ds'.upd i ((ds'.heap i).removed t), .ok ()) := remove_present h' hn ht
      simp only [hrem]
      have hraise : nextQ ord (ds'.upd i ((ds'.heap i).removed t)) (.named g i it) =
          (ds'.upd i ((ds'.heap i).removed t), .done, .raise .runtimeError) := by
        simp only [nextQ, resumeNamed, upd_heap_same]
        rw [Graph.next_removed (h'.inv hn).toIxInv (Graph.next_start_at (hord i) hb e)]
      rw [removeLoop, hraise]
      exact ⟨rep_remove_present h' hn ht, rfl⟩

/-- The fully given triple pattern, over the remaining graphs `rest`. -/
theorem removeLoop_bound {ord} (s p o : Term) (hs : s.truthy = true) (hp : p.truthy = true) (ho : o.truthy = true)
    (rest : List (Term × Nat)) : ∀ (fuel : Nat) (ds : Dataset) (S : Finset Qd) (it : DIter), Rep ds S →
    (∀ ni ∈ rest, ds.names.get? ni.1 = some ni.2) → (rest.map Prod.fst).Nodup →
    nextQ ord ds it = (ds, advance ord ds s p o ds.names.length rest) → rest.length < fuel →
    (removeLoop ord fuel ds it).2 = .ok () ∧
      Rep (removeLoop ord fuel ds it).1 (S.filter fun q => ¬ (q.s = s ∧ q.p = p ∧ q.o = o ∧ q.g ∈ rest.map Prod.fst)) := by
  induction rest with
  | nil =>
    intro fuel ds S it h hr hnd hnext hf
    obtain ⟨fuel, rfl⟩ := Nat.exists_eq_add_of_lt hf
    rw [show ([] : List (Term × Nat)).length + fuel + 1 = fuel + 1 by simp, removeLoop, hnext]
    simp [advance, h]
  | cons ni rest ih =>
    obtain ⟨n, i⟩ := ni
    intro fuel ds S it h hr hnd hnext hf
    have hn := hr (n, i) (by simp)
    simp only [List.map_cons, List.nodup_cons] at hnd
    simp only [List.length_cons] at hf
    rw [advance] at hnext
    simp only [ne_eq, not_true_eq_false, if_false] at hnext
    by_cases hc : mkTriple s p o ∈ (ds.heap i).triples
    · have e : (ds.heap i).next (ord i) (.start s p o) = (.bound, .item (mkTriple s p o)) := by
        simp [Graph.next, hs, hp, ho, Graph.contains, hc]
      rw [e] at hnext
      obtain ⟨fuel, rfl⟩ : ∃ k, fuel = k + 1 := ⟨fuel - 1, by omega⟩
      rw [removeLoop, hnext]
      have hrem : ds.remove (tAsQ n (mkTriple s p o)).s (tAsQ n (mkTriple s p o)).p (tAsQ n (mkTriple s p o)).o
        ((tAsQ n (mkTriple s p o)).g.getD .none) =
        (ds.upd i ((ds.heap i).removed (mkTriple s p o)), .ok ()) := remove_present h hn hc
      simp only [hrem]
      have hrep := rep_remove_present h hn hc
      have := ih fuel _ _ (.all s p o ds.names.length n i .bound rest) hrep
        (fun ni hni => hr ni (by simp [hni])) hnd.2 (by simp only [nextQ, Graph.next]; rfl) (by omega)
      refine ⟨this.1, ?_⟩
      convert this.2 using 1
      ext q
      simp only [Finset.mem_filter, Finset.mem_erase, List.map_cons, List.mem_cons]
      constructor
      · rintro ⟨h1, h2⟩
        refine ⟨⟨?_, h1⟩, fun h3 => h2 ⟨h3.1, h3.2.1, h3.2.2.1, Or.inr h3.2.2.2⟩⟩
        rintro rfl; exact h2 ⟨rfl, rfl, rfl, Or.inl rfl⟩
      · rintro ⟨⟨h1, h2⟩, h3⟩
        refine ⟨h2, ?_⟩
        rintro ⟨rfl, rfl, rfl, h4 | h4⟩
        · apply h1; cases q; simp_all [mkTriple]
        · exact h3 ⟨rfl, rfl, rfl, h4⟩
    · have e : (ds.heap i).next (ord i) (.start s p o) = (.done, .stop) := by
        simp [Graph.next, hs, hp, ho, Graph.contains, hc]
      rw [e] at hnext
      have := ih fuel ds S it h (fun ni hni => hr ni (by simp [hni])) hnd.2 hnext (by omega)
      refine ⟨this.1, ?_⟩
      convert this.2 using 1
      ext q
      simp only [Finset.mem_filter, List.map_cons, List.mem_cons]
      constructor
      · rintro ⟨h1, h2⟩
        exact ⟨h1, fun h3 => h2 ⟨h3.1, h3.2.1, h3.2.2.1, Or.inr h3.2.2.2⟩⟩
      · rintro ⟨h1, h2⟩
        refine ⟨h1, ?_⟩
        rintro ⟨rfl, rfl, rfl, h4 | h4⟩
        · apply hc
          rw [← h.mem_at hn]
          rw [← h4]; exact h1
        · exact h2 ⟨rfl, rfl, rfl, h4⟩

/-- `removeMatches` works for a fully given triple pattern, with or without a graph name. -/
theorem removeMatches_bound {ord} {ds S} (h : Rep ds S) (s p o : Term) (g : Option Term)
    (hs : s.truthy = true) (hp : p.truthy = true) (ho : o.truthy = true) (hg : NonEmpty g) :
    (ds.removeMatches ord s p o (arg g)).2 = .ok () ∧
    ∃ S' : Finset Qd, Rep (ds.removeMatches ord s p o (arg g)).1 S' ∧
      ∀ q, q ∈ S' ↔ q ∈ S ∧ ¬ q.Matches (some s) (some p) (some o) g := by
  have hM : ∀ q : Qd, q.Matches (some s) (some p) (some o) g ↔ q.s = s ∧ q.p = p ∧ q.o = o ∧ agrees g q.g := by
    intro q; simp [Qd.Matches, agrees]
  cases g with
  | none =>
    have hr : ∀ ni ∈ ds.names, ds.names.get? ni.1 = some ni.2 := fun ni hni => (Dict.mem_iff_get? h.wf).1 hni
    have := removeLoop_bound (ord := ord) s p o hs hp ho ds.names (ds.len + ds.names.length + 2) ds S (.start s p o (arg none)) h hr h.wf rfl (by omega)
    refine ⟨this.1, _, this.2, fun q => ?_⟩
    rw [Finset.mem_filter, hM]
    constructor
    · rintro ⟨h1, h2⟩
      refine ⟨h1, fun h3 => h2 ⟨h3.1, h3.2.1, h3.2.2.1, ?_⟩⟩
      obtain ⟨i, hi, _⟩ := (h.mem q).1 h1
      exact (Dict.mem_keys_iff _ _).2 (by rw [hi]; rfl)
    · rintro ⟨h1, h2⟩
      exact ⟨h1, fun h3 => h2 ⟨h3.1, h3.2.1, h3.2.2.1, by intro a e; cases e⟩⟩
  | some g =>
    have hgt : (arg (some g)).truthy = true := (Graph.truthy_iff g).2 (hg g rfl)
    obtain ⟨h', hn⟩ := h.touch g
    have hstart : nextQ ord ds (.start s p o (arg (some g))) =
        ((ds.touch g).1, resumeNamed ord (ds.touch g).1 g (ds.touch g).2 (.start s p o)) := by
      simp only [nextQ, hgt, if_true]; rfl
    unfold Dataset.removeMatches
    rw [removeLoop, hstart]
    revert h' hn
    generalize Dataset.touch ds g = r
    obtain ⟨ds', i⟩ := r
    intro h' hn
    simp only [resumeNamed]
    have hag : ∀ x, agrees (some g) x ↔ x = g := by intro x; simp [agrees]
    by_cases hc : mkTriple s p o ∈ (ds'.heap i).triples
    · have e : (ds'.heap i).next (ord i) (.start s p o) = (.bound, .item (mkTriple s p o)) := by
        simp [Graph.next, hs, hp, ho, Graph.contains, hc]
      rw [e]
      have hrem : ds'.remove (tAsQ g (mkTriple s p o)).s (tAsQ g (mkTriple s p o)).p (tAsQ g (mkTriple s p o)).o
        ((tAsQ g (mkTriple s p o)).g.getD .none) =
        (ds'.upd i ((ds'.heap i).removed (mkTriple s p o)), .ok ()) := remove_present h' hn hc
      simp only [hrem]
      rw [removeLoop]
      simp only [nextQ, resumeNamed, Graph.next]
      refine ⟨trivial, _, rep_remove_present h' hn hc, fun q => ?_⟩
      rw [Finset.mem_erase, hM, hag]
      constructor
      · rintro ⟨h1, h2⟩
        refine ⟨h2, ?_⟩
        rintro ⟨rfl, rfl, rfl, rfl⟩; exact h1 rfl
      · rintro ⟨h1, h2⟩
        refine ⟨?_, h1⟩
        rintro rfl; exact h2 ⟨rfl, rfl, rfl, rfl⟩
    · have e : (ds'.heap i).next (ord i) (.start s p o) = (.done, .stop) := by
        simp [Graph.next, hs, hp, ho, Graph.contains, hc]
      rw [e]
      refine ⟨rfl, S, h', fun q => ?_⟩
      rw [hM, hag]
      constructor
      · intro h1
        refine ⟨h1, ?_⟩
        rintro ⟨rfl, rfl, rfl, rfl⟩
        exact hc ((h'.mem_at hn _ _ _).1 h1)
      · exact fun h1 => h1.1

end Verif.Dataset
