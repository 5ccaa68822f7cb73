import Verif.Props.WriteFail
/-! C127, once more: a Turtle writer that does not come to an end writes without end. -/
namespace Verif.Turtle
open Verif.Spec Graph

/-- If the fuel ran out, then at least `n` characters were written. -/
def Grows {α : Type} (n : Nat) (x : Out α) : Prop := x.2 = .error .outOfFuel → n ≤ x.1.length

theorem Grows.andThen {α β : Type} {n : Nat} {x : Out α} {k : α → Out β} (h : Grows n x) (hk : ∀ a, x.2 = .ok a → Grows n (k a)) : Grows n (x.andThen k) := by
  obtain ⟨t, r⟩ := x
  cases r with
  | error e => rw [andThen_error]; exact fun h' => h (by cases h'; rfl)
  | ok a =>
    intro h'
    have := hk a rfl h'
    show n ≤ (t ++ (k a).1).length
    rw [List.length_append]
    omega

theorem Grows.put {n : Nat} (s : PStr) : Grows n (put s) := fun h => by cases h

theorem Grows.quiet {α : Type} {n : Nat} {r : Except Exc α} (h : r ≠ .error .outOfFuel) : Grows n (quiet r) := fun h' => absurd h' h

theorem itemName_fueled (cx : SerCtx) (nm : Names) (v : Val) : itemName cx nm v ≠ .error .outOfFuel := by
  cases v with
  | lit x y z => exact name_fueled cx nm (.lit x y z)
  | none => simp [itemName]
  | res => simp [itemName]

/-- Each item is a character at least: the space before it. -/
theorem putItems_grows (cx : SerCtx) {fin : Option (Except Exc Unit)} (he : fin ≠ some (.error .outOfFuel)) :
    ∀ (vs : List Val) (b : Bool) (nm : Names), (putItems cx b nm vs fin).2 = .error .outOfFuel → fin = none ∧ vs.length ≤ (putItems cx b nm vs fin).1.length + (if b then 1 else 0)
  | [], b, nm, h => by
    match fin, he with
    | none, _ => exact ⟨rfl, Nat.zero_le _⟩
    | some (.ok ()), _ => cases h
    | some (.error e), he => exact absurd (by unfold putItems quiet at h; cases h; rfl) he
  | v :: vs, b, nm, h => by
    unfold putItems putItem put quiet at h ⊢
    simp only [andThen_ok] at h ⊢
    cases hi : itemName cx nm v with
    | error e => rw [hi] at h; exact absurd (by cases h; exact hi) (itemName_fueled cx nm v)
    | ok x =>
      rw [hi] at h
      simp only [andThen_ok] at h ⊢
      obtain ⟨h1, h2⟩ := putItems_grows cx he vs false x.1 h
      refine ⟨h1, ?_⟩
      simp only [Bool.false_eq_true, if_false, Nat.add_zero] at h2
      cases b <;> simp <;> omega

/-- If the list does not come to an end, each unit of fuel is an item. -/
theorem listTake_full {o : Orders} {g : Graph} {c : Nat} : ∀ (n : Nat) (w : World) (it : LIter), (listTake o g c n w it).2.2 = none → (listTake o g c n w it).2.1.length = n
  | 0, w, it, _ => rfl
  | n + 1, w, it, h => by
    unfold listTake at h ⊢
    generalize listNext o w g c it = z at h
    obtain ⟨w1, it1, y⟩ := z
    cases y with
    | stop => cases h
    | raise e => cases h
    | item v => exact congrArg (· + 1) (listTake_full n w1 it1 h)

/-- What the writer needs of a graph: subjects are IRIs or blank nodes, and no object is None or the empty IRI. -/
structure Usual (g : Graph) : Prop where
  reach : g.Reach
  subj : ∀ t ∈ g.triples, IsResource t.s
  obj : ∀ t ∈ g.triples, t.o ≠ .none ∧ t.o ≠ .named []

/-- The classes while writing. -/
structure WOK (w0 : World) (st : SerSt) : Prop where
  reach : st.w.Reach
  ext : w0.Ext st.w

section
variable {o : Orders} (ho : o.OK) {g : Graph} (hg : Usual g) {cx : SerCtx} {w0 : World} {c fuel : Nat} (hc : c < w0.classes.length) {iFirst iRest iNil : PStr}
  (hL : ListNames w0 c iFirst iRest iNil)
include ho hg hc hL

theorem putObj_grows {st : SerSt} (hst : WOK w0 st) {t : Stmt} (ht : t ∈ g.triples) :
    Grows fuel (putObj o c fuel g cx st t.o) ∧ ∀ st', (putObj o c fuel g cx st t.o).2 = .ok st' → WOK w0 st' := by
  have hc1 := Nat.lt_of_lt_of_le hc hst.ext.length
  have hL1 := hL.ext hc hst.ext
  obtain ⟨n1, n2⟩ := hg.obj t ht
  generalize t.o = obj at n1 n2
  have htr : obj.truthy = true := by
    cases obj with
    | none => exact absurd rfl n1
    | named i =>
      cases i with
      | nil => exact absurd rfl n2
      | cons => rfl
    | bnode => rfl
    | lit => rfl
    | gen => rfl
  obtain ⟨b, hb, hbi⟩ := C58_is_list ho hg.reach hL1.rest hL1.nrest htr
  unfold putObj put quiet
  rw [hb]
  simp only [andThen_ok, List.nil_append]
  cases b with
  | false =>
    simp only [Bool.false_eq_true, if_false]
    have := name_fueled cx st.nm obj
    cases h : name cx st.nm obj with
    | error e => rw [h] at this; simp only [andThen_error]; exact ⟨fun h' => absurd (by cases h'; rfl) this, fun _ h => by cases h⟩
    | ok r => exact ⟨fun h' => (by cases h'), fun _ h => by cases h; exact ⟨hst.reach, hst.ext⟩⟩
  | true =>
    obtain ⟨x, hx⟩ := hbi.1 rfl
    have hs : asSubject obj = obj := by
      rcases hg.subj _ hx with ⟨i, hi⟩ | ⟨i, hi⟩
      · rw [show obj = .named i from hi]; rfl
      · rw [show obj = .bnode i from hi]; rfl
    simp only [if_true, hs]
    have e2 := test_world (o := o) ho hg.reach (fun s => ⟨fun hm => (hg.obj _ hm).2 rfl, fun hm => (hg.obj _ hm).1 rfl⟩ : NoEmptyRest g.triples (.named iRest)) fuel hst.reach hc1 hL1 htr
    have e3 := listTake_full (o := o) (g := g) (c := c) fuel st.w (.test ⟨c, obj⟩)
    have e4 := putItems_grows cx e2.2.2 (listTake o g c fuel st.w (.test ⟨c, obj⟩)).2.1 true st.nm
    generalize putItems cx true st.nm (listTake o g c fuel st.w (.test ⟨c, obj⟩)).2.1 (listTake o g c fuel st.w (.test ⟨c, obj⟩)).2.2 = z at e4
    obtain ⟨X, r⟩ := z
    cases r with
    | error e =>
      simp only [andThen_error]
      refine ⟨fun h => ?_, fun _ h => by cases h⟩
      obtain ⟨k1, k2⟩ := e4 (by cases h; rfl)
      rw [e3 k1] at k2
      simpa [Nat.add_comm] using k2
    | ok nm => exact ⟨fun h => (by cases h), fun _ h => by cases h; exact ⟨e2.1, hst.ext.trans e2.2.1⟩⟩

theorem putObjs_grows (indent : Nat) : ∀ (ts : List Stmt) (first : Bool) (st : SerSt), WOK w0 st → (∀ t ∈ ts, t ∈ g.triples) →
    Grows fuel (putObjs o c fuel g cx indent first st ts) ∧ ∀ st', (putObjs o c fuel g cx indent first st ts).2 = .ok st' → WOK w0 st'
  | [], first, st, hst, _ => ⟨fun h => (by cases h), fun _ h => by cases h; exact hst⟩
  | t :: ts, first, st, hst, hts => by
    obtain ⟨h1, h2⟩ := putObj_grows ho hg hc hL (cx := cx) (fuel := fuel) hst (hts t (List.mem_cons_self ..))
    unfold putObjs
    refine ⟨(Grows.put _).andThen fun _ _ => h1.andThen fun st1 h => (putObjs_grows indent ts false st1 (h2 st1 h) fun t ht => hts t (List.mem_cons_of_mem _ ht)).1, fun st' h => ?_⟩
    unfold put at h
    simp only [andThen_ok] at h
    generalize putObj o c fuel g cx st t.o = z at h h2
    obtain ⟨X, r⟩ := z
    cases r with
    | error e => cases h
    | ok st1 => exact (putObjs_grows indent ts false st1 (h2 st1 rfl) fun t ht => hts t (List.mem_cons_of_mem _ ht)).2 st' h

theorem putPreds_grows (s : Term) (indent : Nat) : ∀ (ps : List (PStr × Term)) (first : Bool) (st : SerSt), WOK w0 st →
    Grows fuel (putPreds o c fuel g cx s indent first st ps) ∧ ∀ st', (putPreds o c fuel g cx s indent first st ps).2 = .ok st' → WOK w0 st'
  | [], first, st, hst => ⟨fun h => (by cases h), fun _ h => by cases h; exact hst⟩
  | (pname, p) :: ps, first, st, hst => by
    obtain ⟨h1, h2⟩ := putObjs_grows ho hg hc hL (cx := cx) (fuel := fuel) (indent + pname.length + 1) (g.match o.stmts s p .none) true st hst
      fun t ht => ((Graph.mem_match hg.reach.inv ho.stmts _ _ _ _).1 ht).1
    unfold putPreds
    refine ⟨(Grows.put _).andThen fun _ _ => (Grows.put _).andThen fun _ _ => h1.andThen fun st1 h => (Grows.put _).andThen fun _ _ =>
      (putPreds_grows s indent ps false st1 (h2 st1 h)).1, fun st' h => ?_⟩
    unfold put at h
    simp only [andThen_ok] at h
    generalize putObjs o c fuel g cx (indent + pname.length + 1) true st (g.match o.stmts s p .none) = z at h h2
    obtain ⟨X, r⟩ := z
    cases r with
    | error e => cases h
    | ok st1 => exact (putPreds_grows s indent ps false st1 (h2 st1 rfl)).2 st' h

theorem putSubj_grows (sname : PStr) (s : Term) {st : SerSt} (hst : WOK w0 st) :
    Grows fuel (putSubj o c fuel g cx st sname s) ∧ ∀ st', (putSubj o c fuel g cx st sname s).2 = .ok st' → WOK w0 st' := by
  have hn := sortedNames_fueled cx st.nm (o.terms (pySet ((g.match o.stmts s .none .none).map (·.p))))
  have h1 := fun x : Names × List (PStr × Term) => putPreds_grows ho hg hc hL (cx := cx) (fuel := fuel) s (sname.length + 1) x.2 true ⟨st.w, x.1⟩ ⟨hst.reach, hst.ext⟩
  unfold putSubj
  refine ⟨(Grows.put _).andThen fun _ _ => (Grows.quiet hn).andThen fun x _ => (h1 x).1.andThen fun _ _ => (Grows.put _).andThen fun _ _ => Grows.quiet (by simp), fun st' h => ?_⟩
  unfold put quiet at h
  simp only [andThen_ok] at h
  generalize sortedNames cx st.nm (o.terms (pySet ((g.match o.stmts s .none .none).map (·.p)))) = y at h
  cases y with
  | error e => cases h
  | ok x =>
    have h2 := (h1 x).2
    simp only [andThen_ok] at h
    generalize putPreds o c fuel g cx s (sname.length + 1) true ⟨st.w, x.1⟩ x.2 = z at h h2
    obtain ⟨X, r⟩ := z
    cases r with
    | error e => cases h
    | ok st1 => cases h; exact h2 _ rfl

theorem putSubjs_grows : ∀ (ss : List (PStr × Term)) (st : SerSt), WOK w0 st → Grows fuel (putSubjs o c fuel g cx st ss)
  | [], st, _ => fun h => by cases h
  | (sname, s) :: ss, st, hst => by
    obtain ⟨h1, h2⟩ := putSubj_grows ho hg hc hL (cx := cx) (fuel := fuel) sname s hst
    unfold putSubjs
    exact h1.andThen fun st1 h => putSubjs_grows ss st1 (h2 st1 h)

end

/-- **A writer that does not come to an end writes without end**: what it has written after `fuel` items of a list is at least `fuel` characters long. -/
theorem C127_turtle_grows {o : Orders} (ho : o.OK) {g : Graph} (hg : Usual g) {w : World} (hw : w.Reach) (hc : listC < w.classes.length) {iFirst iRest iNil : PStr}
    (hL : ListNames w listC iFirst iRest iNil) (fuel : Nat) (base : Option PStr) (profile : Option PrefixMap) (namer : Namer)
    (h : (writeTurtle o w fuel g base profile namer).2 = .error .outOfFuel) : fuel ≤ (writeTurtle o w fuel g base profile namer).1.length := by
  revert h
  change Grows fuel _
  obtain ⟨ss, hss⟩ := plainSubjects_ok (o := o) (g := g) hL.rest g.subjects
  unfold writeTurtle
  rw [hss]
  exact (Grows.put _).andThen fun _ _ => (Grows.quiet (by simp)).andThen fun _ _ => (Grows.quiet (sortedNames_fueled _ _ _)).andThen fun x _ =>
    (putSubjs_grows ho hg hc hL _ _ ⟨hw, .refl w⟩).andThen fun _ _ => Grows.quiet (by simp)

/-- The list of one item whose rest is itself: for every `n`, at least `n` characters are written. -/
theorem C127_loop_fills (n : Nat) : n ≤ (writeTurtle {} World.new n loop).1.length := by
  have hs : ∀ t ∈ loop.triples, t.s = .bnode 1 ∨ t.s = .named (py! "http://x") := by decide
  refine C127_turtle_grows Orders.OK.default ⟨(((Graph.Reach.new _).add _ _ _).add _ _ _).add _ _ _, fun t ht => ?_, by decide⟩ .new (by decide) listClass_new.names n none none _
    (((writeTurtle_agrees ..).2 _).1 (C127_turtle_loops n))
  rcases hs t ht with h | h
  · exact .inr ⟨_, h⟩
  · exact .inl ⟨_, h⟩

end Verif.Turtle
