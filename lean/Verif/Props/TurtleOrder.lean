import Verif.Props.TurtleSer
/-
C98: the Turtle text as a function of the set of triples.
-/
namespace Verif.Turtle
open Verif.Turtle.Spec

/-! ### The sort is a sort -/

theorem strLe_refl : ∀ a, strLe a a = true
  | [] => rfl
  | a :: as => by rw [strLe]; simp [strLe_refl as]

theorem strLe_total : ∀ a b, strLe a b = false → strLe b a = true
  | [], _, h => by cases h
  | _ :: _, [], _ => rfl
  | a :: as, b :: bs, h => by
    rw [strLe] at h ⊢
    split at h
    · cases h
    · split at h
      · next h1 => rw [if_pos h1]
      · next h1 h2 => rw [if_neg h2, if_neg h1]; exact strLe_total as bs h

theorem strLe_antisymm : ∀ a b, strLe a b = true → strLe b a = true → a = b
  | [], [], _, _ => rfl
  | [], _ :: _, _, h => by cases h
  | _ :: _, [], h, _ => by cases h
  | a :: as, b :: bs, h1, h2 => by
    rw [strLe] at h1 h2
    by_cases hab : a < b
    · rw [if_neg (by omega), if_pos hab] at h2; cases h2
    · by_cases hba : b < a
      · rw [if_neg hab, if_pos hba] at h1; cases h1
      · rw [if_neg hab, if_neg hba] at h1
        rw [if_neg hba, if_neg hab] at h2
        rw [strLe_antisymm as bs h1 h2, show a = b by omega]

theorem strLe_trans : ∀ a b c, strLe a b = true → strLe b c = true → strLe a c = true
  | [], _, _, _, _ => rfl
  | _ :: _, [], _, h, _ => by cases h
  | _ :: _, _ :: _, [], _, h => by cases h
  | a :: as, b :: bs, c :: cs, h1, h2 => by
    rw [strLe] at h1 h2 ⊢
    by_cases hab : a < b
    · by_cases hbc : b < c
      · rw [if_pos (by omega)]
      · by_cases hcb : c < b
        · rw [if_neg hbc, if_pos hcb] at h2; cases h2
        · rw [if_pos (by omega)]
    · by_cases hba : b < a
      · rw [if_neg hab, if_pos hba] at h1; cases h1
      · rw [if_neg hab, if_neg hba] at h1
        by_cases hbc : b < c
        · rw [if_pos (by omega)]
        · by_cases hcb : c < b
          · rw [if_neg hbc, if_pos hcb] at h2; cases h2
          · rw [if_neg hbc, if_neg hcb] at h2
            rw [if_neg (by omega), if_neg (by omega)]
            exact strLe_trans as bs cs h1 h2

def NamedPair (x : PStr × Term) : Prop := ∃ i, x.2 = .named i

theorem pairLe_total {a b : PStr × Term} (h : pairLe a b = false) : pairLe b a = true := by
  obtain ⟨x, s⟩ := a
  obtain ⟨y, t⟩ := b
  by_cases e : x = y
  · subst e
    cases s <;> cases t <;> simp_all [pairLe]
    exact strLe_total _ _ h
  · simp only [pairLe, e, if_false] at h
    simp only [pairLe, Ne.symm e, if_false]
    exact strLe_total _ _ h

theorem pairLe_antisymm {a b : PStr × Term} (ha : NamedPair a) (hb : NamedPair b) (h1 : pairLe a b = true) (h2 : pairLe b a = true) : a = b := by
  obtain ⟨x, s⟩ := a
  obtain ⟨y, t⟩ := b
  obtain ⟨i, rfl⟩ := ha
  obtain ⟨j, rfl⟩ := hb
  by_cases e : x = y
  · subst e
    simp [pairLe] at h1 h2
    rw [strLe_antisymm _ _ h1 h2]
  · simp only [pairLe, e, Ne.symm e, if_false] at h1 h2
    exact absurd (strLe_antisymm _ _ h1 h2) e

theorem pairLe_trans {a b c : PStr × Term} (ha : NamedPair a) (hb : NamedPair b) (hc : NamedPair c) (h1 : pairLe a b = true) (h2 : pairLe b c = true) : pairLe a c = true := by
  obtain ⟨x, s⟩ := a
  obtain ⟨y, t⟩ := b
  obtain ⟨z, r⟩ := c
  obtain ⟨i, rfl⟩ := ha
  obtain ⟨j, rfl⟩ := hb
  obtain ⟨k, rfl⟩ := hc
  by_cases e1 : x = y
  · subst e1
    by_cases e2 : x = z
    · subst e2
      simp [pairLe] at h1 h2 ⊢
      exact strLe_trans _ _ _ h1 h2
    · simpa only [pairLe, e2, if_false] using h2
  · by_cases e2 : y = z
    · subst e2
      simpa only [pairLe, e1, if_false] using h1
    · simp only [pairLe, e1, e2, if_false] at h1 h2
      by_cases e3 : x = z
      · subst e3
        exact absurd (strLe_antisymm _ _ h1 h2) e1
      · simp only [pairLe, e3, if_false]
        exact strLe_trans _ _ _ h1 h2

theorem insertPair_sorted {x : PStr × Term} (hx : NamedPair x) : ∀ {l : List (PStr × Term)}, (∀ y ∈ l, NamedPair y) → l.Pairwise (fun a b => pairLe a b = true) →
    (insertPair x l).Pairwise fun a b => pairLe a b = true
  | [], _, _ => by simp [insertPair]
  | y :: ys, hl, h => by
    obtain ⟨h1, h2⟩ := List.pairwise_cons.1 h
    rw [insertPair]
    split
    · next hxy =>
      refine List.pairwise_cons.2 ⟨fun z hz => ?_, h⟩
      rcases List.mem_cons.1 hz with rfl | hz'
      · exact hxy
      · exact pairLe_trans hx (hl y (List.mem_cons_self ..)) (hl z hz) hxy (h1 z hz')
    · next hxy =>
      refine List.pairwise_cons.2 ⟨fun z hz => ?_, insertPair_sorted hx (fun y hy => hl y (List.mem_cons_of_mem _ hy)) h2⟩
      rcases List.mem_cons.1 ((insertPair_perm x ys).mem_iff.1 hz) with rfl | hz
      · exact pairLe_total (by simpa using hxy)
      · exact h1 z hz

theorem sort_sorted : ∀ {l : List (PStr × Term)}, (∀ y ∈ l, NamedPair y) → (l.foldr insertPair []).Pairwise fun a b => pairLe a b = true
  | [], _ => List.Pairwise.nil
  | x :: l, h => insertPair_sorted (h x (List.mem_cons_self ..)) (fun y hy => h y (List.mem_cons_of_mem _ ((sort_perm l).mem_iff.1 hy)))
      (sort_sorted fun y hy => h y (List.mem_cons_of_mem _ hy))

/-- Names of IRIs come out in an order that does not depend on the order in which they went in. -/
theorem sortedNames_perm {cx : SerCtx} (nm : Names) {ts us : List Term} (h : ts.Perm us) (hn : ∀ t ∈ ts, ∃ i, t = .named i) : sortedNames cx nm ts = sortedNames cx nm us := by
  obtain ⟨m, base, namer⟩ := cx
  have hn' : ∀ t ∈ us, ∃ i, t = .named i := fun t ht => hn t (h.mem_iff.2 ht)
  obtain ⟨xs, a1, a2, a3⟩ := names_named (m := m) (base := base) (namer := namer) nm ts hn
  obtain ⟨ys, b1, b2, b3⟩ := names_named (m := m) (base := base) (namer := namer) nm us hn'
  have name_eq : ∀ l : List (PStr × Term), (∀ x ∈ l, ∃ i, x = (iriRepr m base i, .named i)) →
      l = (l.map (·.2)).map fun t => ((match t with | .named i => iriRepr m base i | _ => []), t) := by
    intro l hl
    induction l with
    | nil => rfl
    | cons x l ih =>
      obtain ⟨i, rfl⟩ := hl x (List.mem_cons_self ..)
      simp only [List.map_cons]
      rw [← ih fun x hx => hl x (List.mem_cons_of_mem _ hx)]
  have hp : xs.Perm ys := by
    rw [name_eq xs a3, name_eq ys b3, a2, b2]
    exact h.map _
  have nx : ∀ x ∈ xs, NamedPair x := fun x hx => by obtain ⟨i, rfl⟩ := a3 x hx; exact ⟨i, rfl⟩
  have ny : ∀ x ∈ ys, NamedPair x := fun x hx => by obtain ⟨i, rfl⟩ := b3 x hx; exact ⟨i, rfl⟩
  have hs : xs.foldr insertPair [] = ys.foldr insertPair [] :=
    List.Perm.eq_of_pairwise (le := fun a b => pairLe a b = true)
      (fun a b ha hb => pairLe_antisymm (nx a ((sort_perm xs).mem_iff.1 ha)) (ny b ((sort_perm ys).mem_iff.1 hb)))
      (sort_sorted nx) (sort_sorted ny) (((sort_perm xs).trans hp).trans (sort_perm ys).symm)
  have ix : incomparable xs = false := incomparable_named xs fun x hx => by obtain ⟨i, rfl⟩ := a3 x hx; rfl
  have iy : incomparable ys = false := incomparable_named ys fun x hx => by obtain ⟨i, rfl⟩ := b3 x hx; rfl
  simp only [sortedNames, a1, b1, ix, iy, hs]

/-! ### The loops -/

section
variable {o o' : Orders} {c fuel fuel' : Nat} {g g' : Graph} {w : World} (hl : ∀ x, isList o w g c x = .ok false) (hl' : ∀ x, isList o' w g' c x = .ok false)
include hl hl'

theorem objsText_congr {cx : SerCtx} : ∀ (ts : List Stmt) (indent : Nat) (first : Bool) (nm : Names),
    objsText o c fuel g cx indent first ⟨w, nm⟩ ts = objsText o' c fuel' g' cx indent first ⟨w, nm⟩ ts ∧
    ∀ st x, objsText o c fuel g cx indent first ⟨w, nm⟩ ts = .ok (st, x) → st.w = w
  | [], _, _, _ => ⟨rfl, fun st x h => by cases h; rfl⟩
  | t :: ts, indent, first, nm => by
    simp only [objsText, objText, hl, hl']
    cases hn : name cx nm t.o with
    | error e => exact ⟨rfl, fun st x h => by cases h⟩
    | ok r =>
      obtain ⟨h1, h2⟩ := objsText_congr (cx := cx) ts indent false r.1
      simp only []
      rw [← h1]
      refine ⟨rfl, fun st x h => ?_⟩
      cases ho : objsText o c fuel g cx indent false ⟨w, r.1⟩ ts with
      | error e => rw [ho] at h; cases h
      | ok q => rw [ho] at h; cases h; exact h2 _ _ ho

theorem predsText_congr {cx : SerCtx} {s : Term} : ∀ (ps : List (PStr × Term)) (_ : ∀ e ∈ ps, g.match o.stmts s e.2 .none = g'.match o'.stmts s e.2 .none) (indent : Nat) (first : Bool) (nm : Names),
    predsText o c fuel g cx s indent first ⟨w, nm⟩ ps = predsText o' c fuel' g' cx s indent first ⟨w, nm⟩ ps ∧
    ∀ st x, predsText o c fuel g cx s indent first ⟨w, nm⟩ ps = .ok (st, x) → st.w = w
  | [], _, _, _, _ => ⟨rfl, fun st x h => by cases h; rfl⟩
  | e :: ps, hm, indent, first, nm => by
    obtain ⟨h1, h2⟩ := objsText_congr (fuel := fuel) (fuel' := fuel') hl hl' (cx := cx) (g.match o.stmts s e.2 .none) (indent + e.1.length + 1) true nm
    rw [predsText, predsText, ← hm e (List.mem_cons_self ..), ← h1]
    cases ho : objsText o c fuel g cx (indent + e.1.length + 1) true ⟨w, nm⟩ (g.match o.stmts s e.2 .none) with
    | error x => exact ⟨rfl, fun st x h => by cases h⟩
    | ok r =>
      obtain ⟨⟨w', nm'⟩, X⟩ := r
      have hw : w = w' := (h2 _ _ ho).symm
      subst hw
      obtain ⟨i1, i2⟩ := predsText_congr (cx := cx) (s := s) ps (fun e he => hm e (List.mem_cons_of_mem _ he)) indent false nm'
      simp only []
      rw [← i1]
      refine ⟨rfl, fun st x h => ?_⟩
      cases hq : predsText o c fuel g cx s indent false ⟨w, nm'⟩ ps with
      | error e => rw [hq] at h; cases h
      | ok q => rw [hq] at h; cases h; exact i2 _ _ hq

theorem subjsText_congr {cx : SerCtx}
    (hp : ∀ s, (o.terms (pySet ((g.match o.stmts s .none .none).map (·.p)))).Perm (o'.terms (pySet ((g'.match o'.stmts s .none .none).map (·.p)))))
    (hn : ∀ s, ∀ p ∈ o.terms (pySet ((g.match o.stmts s .none .none).map (·.p))), ∃ i, p = .named i)
    (hm : ∀ s p, s.truthy = true → p ∈ o.terms (pySet ((g.match o.stmts s .none .none).map (·.p))) → g.match o.stmts s p .none = g'.match o'.stmts s p .none) :
    ∀ (ss : List (PStr × Term)) (_ : ∀ e ∈ ss, e.2.truthy = true) (nm : Names), subjsText o c fuel g cx ⟨w, nm⟩ ss = subjsText o' c fuel' g' cx ⟨w, nm⟩ ss
  | [], _, _ => rfl
  | e :: ss, ht, nm => by
    rw [subjsText, subjsText, subjText, subjText]
    simp only []
    rw [← sortedNames_perm nm (hp e.2) (hn e.2)]
    obtain ⟨ps, h1, h2, _⟩ := sortedNames_named (m := cx.prefixes) (base := cx.base) (namer := cx.namer) nm (hn e.2)
    have h1' : sortedNames cx nm (o.terms (pySet ((g.match o.stmts e.2 .none .none).map (·.p)))) = .ok (nm, ps) := h1
    rw [h1']
    obtain ⟨i1, i2⟩ := predsText_congr (fuel := fuel) (fuel' := fuel') hl hl' (cx := cx) (s := e.2) ps
      (fun x hx => hm e.2 x.2 (ht e (List.mem_cons_self ..)) (h2.mem_iff.1 (List.mem_map.2 ⟨x, hx, rfl⟩))) (e.1.length + 1) true nm
    simp only []
    rw [← i1]
    cases hq : predsText o c fuel g cx e.2 (e.1.length + 1) true ⟨w, nm⟩ ps with
    | error e => rfl
    | ok r =>
      obtain ⟨⟨w', nm'⟩, X⟩ := r
      have hw : w = w' := (i2 _ _ hq).symm
      subst hw
      simp only []
      rw [subjsText_congr hp hn hm ss (fun e he => ht e (List.mem_cons_of_mem _ he)) nm']
end

/-! ### C98 -/

/-- Full statement of C98: graphs with the same triples have the same text, whatever their histories and the order in which sets are iterated. -/
def C98_statement : Prop := ∀ (u u' : Term) (ops ops' : List Verif.Spec.GOp) (o o' : Orders) (fuel : Nat) (base : Option PStr) (m : Option PrefixMap) (namer : Namer),
  Orders.OK o → Orders.OK o' → Verif.Spec.runSet ops = Verif.Spec.runSet ops' →
  serializeTurtle o World.new fuel (Graph.run u ops) base m namer = serializeTurtle o' World.new fuel (Graph.run u' ops') base m namer

/-- C98 for graphs without lists whose subjects are IRIs, all of them in use, if `match` gives the objects of each subject and predicate in the same order (that of adding, whatever the
    order of sets). The objects may be blank nodes. Missing: graphs whose objects were added in another order, which are written in another order (`C98_object_order`). -/
theorem C98_orders_partial (u u' : Term) (ops ops' : List Verif.Spec.GOp) (heq : Verif.Spec.runSet ops = Verif.Spec.runSet ops')
    (live : ∀ t ∈ everAdded ops, ∃ t' ∈ Verif.Spec.runSet ops, t'.s = t.s) (live' : ∀ t ∈ everAdded ops', ∃ t' ∈ Verif.Spec.runSet ops', t'.s = t.s)
    (hS : ∀ t ∈ Verif.Spec.runSet ops, (∃ i, i ≠ [] ∧ t.s = .named i) ∧ ∃ i, i ≠ [] ∧ t.p = .named i)
    (hn : NoLists (Verif.Spec.runSet ops)) {o o' : Orders} (ho : Orders.OK o) (ho' : Orders.OK o')
    (hord : ∀ s p, s.truthy = true → p.truthy = true → (Graph.run u ops).match o.stmts s p .none = (Graph.run u' ops').match o'.stmts s p .none)
    {w : World}
    (hr : resolveKey w listC (py! "rdf:rest") = .ok (some (Heap.rdfNs ++ py! "rest"))) (fuel fuel' : Nat) (base : Option PStr) (m : Option PrefixMap) (namer : Namer) :
    serializeTurtle o w fuel (Graph.run u ops) base m namer = serializeTurtle o' w fuel' (Graph.run u' ops') base m namer := by
  have rep := Graph.rep_run u ops
  have rep' := Graph.rep_run u' ops'
  rw [← heq] at rep' live'
  have truthy_named : ∀ {x : Term}, (∃ i, i ≠ [] ∧ x = .named i) → x.truthy = true := by
    rintro x ⟨i, hi, rfl⟩
    cases i with
    | nil => exact absurd rfl hi
    | cons => rfl
  have hl : ∀ x, isList o w (Graph.run u ops) listC x = .ok false := isList_false (fun x hx => by
    obtain ⟨t, ht, rfl⟩ := (rep.mem x).1 hx; exact hn t ht) rep.inv ho.stmts hr
  have hl' : ∀ x, isList o' w (Graph.run u' ops') listC x = .ok false := isList_false (fun x hx => by
    obtain ⟨t, ht, rfl⟩ := (rep'.mem x).1 hx; exact hn t ht) rep'.inv ho'.stmts hr
  have memEq : ∀ x, x ∈ (Graph.run u ops).triples ↔ x ∈ (Graph.run u' ops').triples := fun x => by rw [rep.mem, rep'.mem]
  have matchEq : ∀ s p q x, x ∈ (Graph.run u ops).match o.stmts s p q ↔ x ∈ (Graph.run u' ops').match o'.stmts s p q := fun s p q x => by
    rw [Graph.mem_match rep.inv ho.stmts, Graph.mem_match rep'.inv ho'.stmts, memEq]
  have subj : ∀ x ∈ (Graph.run u ops).subjects, ∃ t ∈ Verif.Spec.runSet ops, t.s = x := fun x hx => by
    obtain ⟨t, ht, rfl⟩ := ((C04_lists_ever_added u ops).1.2 x).1 hx; exact live t ht
  have subjPerm : (Graph.run u ops).subjects.Perm (Graph.run u' ops').subjects := by
    refine (List.perm_ext_iff_of_nodup (C04_lists_ever_added u ops).1.1 (C04_lists_ever_added u' ops').1.1).2 fun x => ?_
    constructor
    · intro hx
      obtain ⟨t, ht, rfl⟩ := subj x hx
      exact ((C04_lists_ever_added u' ops').1.2 _).2 ⟨t, runSet_everAdded t (heq ▸ ht), rfl⟩
    · intro hx
      obtain ⟨t, ht, rfl⟩ := ((C04_lists_ever_added u' ops').1.2 x).1 hx
      obtain ⟨t', ht', e⟩ := live' t ht
      exact ((C04_lists_ever_added u ops).1.2 _).2 ⟨t', runSet_everAdded t' ht', e⟩
  have subjNamed : ∀ s ∈ (Graph.run u ops).subjects, ∃ i, s = .named i := fun s hs => by
    obtain ⟨t, ht, rfl⟩ := subj s hs
    obtain ⟨⟨i, _, hi⟩, _⟩ := hS t ht
    exact ⟨i, hi⟩
  obtain ⟨ss, h1, h2, _⟩ := sortedNames_named (m := m.getD defaultPrefixes) (base := base) (namer := namer) {} subjNamed
  have hpred : ∀ s p, p ∈ o.terms (pySet (((Graph.run u ops).match o.stmts s .none .none).map (·.p))) → ∃ t ∈ Verif.Spec.runSet ops, t.p = p := fun s p hp => by
    rw [(ho.terms _).mem_iff, mem_pySet, List.mem_map] at hp
    obtain ⟨x, hx, rfl⟩ := hp
    obtain ⟨t, ht, rfl⟩ := (rep.mem x).1 ((Graph.mem_match rep.inv ho.stmts _ _ _ x).1 hx).1
    exact ⟨t, ht, rfl⟩
  have hc := subjsText_congr (fuel := fuel) (fuel' := fuel') hl hl' (cx := ⟨m.getD defaultPrefixes, base, namer⟩)
    (fun s => by
      refine (List.perm_ext_iff_of_nodup ((ho.terms _).nodup_iff.2 (nodup_pySet _)) ((ho'.terms _).nodup_iff.2 (nodup_pySet _))).2 fun p => ?_
      rw [(ho.terms _).mem_iff, (ho'.terms _).mem_iff, mem_pySet, mem_pySet, List.mem_map, List.mem_map]
      constructor
      · rintro ⟨x, hx, rfl⟩; exact ⟨x, (matchEq _ _ _ x).1 hx, rfl⟩
      · rintro ⟨x, hx, rfl⟩; exact ⟨x, (matchEq _ _ _ x).2 hx, rfl⟩)
    (fun s p hp => by
      obtain ⟨t, ht, rfl⟩ := hpred s p hp
      obtain ⟨_, i, _, hi⟩ := hS t ht
      exact ⟨i, hi⟩)
    (fun s p hs hp => by
      obtain ⟨t, ht, rfl⟩ := hpred s p hp
      exact hord s t.p hs (truthy_named (hS t ht).2))
    ss (fun e he => by
      obtain ⟨t, ht, hte⟩ := subj e.2 (h2.mem_iff.1 (List.mem_map.2 ⟨e, he, rfl⟩))
      rw [← hte]; exact truthy_named (hS t ht).1) {}
  simp only [serializeTurtle, plainSubjects_all _ fun x _ => hl x, plainSubjects_all _ fun x _ => hl' x]
  rw [← sortedNames_perm {} subjPerm subjNamed]
  simp only [h1, hc]

/-- C98 for graphs without lists whose subjects are IRIs, all of them in use, with one object for each subject and predicate. The objects may be blank nodes. Missing: several objects for a
    subject and predicate, which are written in the order in which they were added (`C98_object_order`). -/
theorem C98_same_text_partial (u u' : Term) (ops ops' : List Verif.Spec.GOp) (heq : Verif.Spec.runSet ops = Verif.Spec.runSet ops')
    (live : ∀ t ∈ everAdded ops, ∃ t' ∈ Verif.Spec.runSet ops, t'.s = t.s) (live' : ∀ t ∈ everAdded ops', ∃ t' ∈ Verif.Spec.runSet ops', t'.s = t.s)
    (hS : ∀ t ∈ Verif.Spec.runSet ops, (∃ i, i ≠ [] ∧ t.s = .named i) ∧ ∃ i, i ≠ [] ∧ t.p = .named i)
    (hf : ∀ t ∈ Verif.Spec.runSet ops, ∀ t' ∈ Verif.Spec.runSet ops, t.s = t'.s → t.p = t'.p → t.o = t'.o)
    (hn : NoLists (Verif.Spec.runSet ops)) {o o' : Orders} (ho : Orders.OK o) (ho' : Orders.OK o') {w : World}
    (hr : resolveKey w listC (py! "rdf:rest") = .ok (some (Heap.rdfNs ++ py! "rest"))) (fuel fuel' : Nat) (base : Option PStr) (m : Option PrefixMap) (namer : Namer) :
    serializeTurtle o w fuel (Graph.run u ops) base m namer = serializeTurtle o' w fuel' (Graph.run u' ops') base m namer := by
  have rep := Graph.rep_run u ops
  have rep' := Graph.rep_run u' ops'
  rw [← heq] at rep'
  have matchEq : ∀ s p q x, x ∈ (Graph.run u ops).match o.stmts s p q ↔ x ∈ (Graph.run u' ops').match o'.stmts s p q := fun s p q x => by
    rw [Graph.mem_match rep.inv ho.stmts, Graph.mem_match rep'.inv ho'.stmts, rep.mem, rep'.mem]
  refine C98_orders_partial u u' ops ops' heq live live' hS hn ho ho' (fun s p hs hpt => ?_) hr fuel fuel' base m namer
  have nd := Graph.nodup_match rep.inv.toIxInv ho.stmts s p .none
  have nd' := Graph.nodup_match rep'.inv.toIxInv ho'.stmts s p .none
  have hperm := (List.perm_ext_iff_of_nodup nd nd').2 (matchEq s p .none)
  have one : ∀ x ∈ (Graph.run u ops).match o.stmts s p .none, ∀ y ∈ (Graph.run u ops).match o.stmts s p .none, x = y := by
    intro x hx' y hy'
    obtain ⟨a1, a2, a3, _⟩ := (Graph.mem_match rep.inv ho.stmts _ _ _ x).1 hx'
    obtain ⟨b1, b2, b3, _⟩ := (Graph.mem_match rep.inv ho.stmts _ _ _ y).1 hy'
    obtain ⟨x, hx, rfl⟩ := (rep.mem x).1 a1
    obtain ⟨y, hy, rfl⟩ := (rep.mem y).1 b1
    have e1 : x.s = y.s := (a2 hs).trans (b2 hs).symm
    have e2 : x.p = y.p := (a3 hpt).trans (b3 hpt).symm
    have e3 := hf x hx y hy e1 e2
    cases x; cases y; simp_all
  exact List.Perm.eq_of_pairwise (le := fun _ _ => True) (fun a b ha hb _ _ => one a ha b (hperm.mem_iff.2 hb))
    (List.pairwise_of_forall (fun _ _ => trivial)) (List.pairwise_of_forall (fun _ _ => trivial)) hperm

/-- Objects are written in the order in which they were added. -/
theorem C98_object_order :
    serializeTurtle {} World.new 0 (Graph.run .none [.add ⟨.named (py! "x:s"), .named (py! "x:p"), .named (py! "x:a")⟩, .add ⟨.named (py! "x:s"), .named (py! "x:p"), .named (py! "x:b")⟩]) =
      .ok (header none defaultPrefixes ++ py! "<x:s> <x:p> <x:a>,\n            <x:b> ;\n      .\n\n") ∧
    serializeTurtle {} World.new 0 (Graph.run .none [.add ⟨.named (py! "x:s"), .named (py! "x:p"), .named (py! "x:b")⟩, .add ⟨.named (py! "x:s"), .named (py! "x:p"), .named (py! "x:a")⟩]) =
      .ok (header none defaultPrefixes ++ py! "<x:s> <x:p> <x:b>,\n            <x:a> ;\n      .\n\n") := ⟨rfl, rfl⟩

theorem C98_refuted : ¬ C98_statement := by
  intro h
  have h := h .none .none [.add ⟨.named (py! "x:s"), .named (py! "x:p"), .named (py! "x:a")⟩, .add ⟨.named (py! "x:s"), .named (py! "x:p"), .named (py! "x:b")⟩]
    [.add ⟨.named (py! "x:s"), .named (py! "x:p"), .named (py! "x:b")⟩, .add ⟨.named (py! "x:s"), .named (py! "x:p"), .named (py! "x:a")⟩]
    {} {} 0 none none none Orders.OK.default Orders.OK.default (by decide)
  have h1 := C98_object_order.1.symm.trans (h.trans C98_object_order.2)
  revert h1
  decide

/-- Two histories of the same graph. -/
example := C98_same_text_partial .none (.named (py! "x:g")) exOps
  [.addAll [⟨.named (py! "x:s"), .named (Heap.rdfNs ++ py! "type"), .named (py! "http://example.com/a?b=c#d.")⟩,
    ⟨.named (py! "x:s"), .named (py! "x:p"), .lit (py! "a b") none (some (xsd (py! "string")))⟩]]
  (by decide) (by decide) (by decide)
  (by
    intro t ht
    have : Verif.Spec.runSet exOps = {⟨.named (py! "x:s"), .named (py! "x:p"), .lit (py! "a b") none (some (xsd (py! "string")))⟩,
      ⟨.named (py! "x:s"), .named (Heap.rdfNs ++ py! "type"), .named (py! "http://example.com/a?b=c#d.")⟩} := by decide
    rw [this] at ht
    simp only [Finset.mem_insert, Finset.mem_singleton] at ht
    rcases ht with rfl | rfl
    · exact ⟨⟨_, by decide, rfl⟩, ⟨_, by decide, rfl⟩⟩
    · exact ⟨⟨_, by decide, rfl⟩, ⟨_, by decide, rfl⟩⟩)
  (by decide) (by unfold NoLists; decide) Orders.OK.default Orders.OK.default resolveKey_rest 0 1 none none none

/-- Two objects of one subject and predicate. -/
example := C98_orders_partial .none (.named (py! "x:g"))
  [.add ⟨.named (py! "x:s"), .named (py! "x:p"), .named (py! "x:b")⟩, .add ⟨.named (py! "x:s"), .named (py! "x:p"), .bnode 3⟩]
  [.addAll [⟨.named (py! "x:s"), .named (py! "x:p"), .named (py! "x:b")⟩, ⟨.named (py! "x:s"), .named (py! "x:p"), .bnode 3⟩]]
  (by decide) (by decide) (by decide)
  (by
    intro t ht
    have : t = ⟨.named (py! "x:s"), .named (py! "x:p"), .named (py! "x:b")⟩ ∨ t = ⟨.named (py! "x:s"), .named (py! "x:p"), .bnode 3⟩ := by
      simpa [or_comm, Verif.Spec.runSet, Verif.Spec.GOp.apply] using ht
    rcases this with rfl | rfl <;> exact ⟨⟨_, by decide, rfl⟩, ⟨_, by decide, rfl⟩⟩)
  (by unfold NoLists; decide) Orders.OK.default Orders.OK.default (fun s p hs hp => by unfold Graph.match; simp only [hs, hp]; rfl) resolveKey_rest 0 1 none none (some fun n => [95, 58, 97 + n])

end Verif.Turtle
