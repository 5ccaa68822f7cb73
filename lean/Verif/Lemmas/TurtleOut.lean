import Verif.Model.TurtleOut
/-! The writer with its writes and the writer without. -/
namespace Verif.Turtle

@[simp] theorem andThen_error {α β : Type} (s : PStr) (e : Exc) (k : α → Out β) : Out.andThen (s, .error e) k = (s, .error e) := rfl
@[simp] theorem andThen_ok {α β : Type} (s : PStr) (a : α) (k : α → Out β) : Out.andThen (s, .ok a) k = (s ++ (k a).1, (k a).2) := rfl

/-- They raise the same, or neither raises and what is written is the text. -/
def SameAs {α : Type} (x : Out α) : Except Exc (α × PStr) → Prop
  | .error e => x.2 = .error e
  | .ok (a, t) => x = (t, .ok a)

theorem putItems_agrees (cx : SerCtx) (fin : Option (Except Exc Unit)) : ∀ (vs : List Val) (first : Bool) (nm : Names),
    SameAs (putItems cx first nm vs fin) (items cx first nm vs fin)
  | [], first, nm => by
    match fin with
    | none => rfl
    | some (.ok ()) => rfl
    | some (.error e) => rfl
  | v :: vs, first, nm => by
    unfold putItems items putItem quiet put
    cases itemName cx nm v with
    | error e => rfl
    | ok x =>
      obtain ⟨nm1, t⟩ := x
      have ih := putItems_agrees cx fin vs false nm1
      simp only [andThen_ok, List.nil_append, List.append_nil]
      cases h : items cx false nm1 vs fin with
      | error e => rw [h] at ih; exact ih
      | ok y => rw [h] at ih; simp only [SameAs] at ih ⊢; rw [ih]; simp

theorem putObj_agrees (o : Orders) (c fuel : Nat) (g : Graph) (cx : SerCtx) (st : SerSt) (obj : Term) :
    SameAs (putObj o c fuel g cx st obj) (objText o c fuel g cx st obj) := by
  unfold putObj objText quiet put
  cases isList o st.w g c obj with
  | error e => rfl
  | ok b =>
    cases b with
    | true =>
      simp only [andThen_ok, if_true, List.nil_append]
      have h := putItems_agrees cx (listTake o g c fuel st.w (.test ⟨c, asSubject obj⟩)).2.2 (listTake o g c fuel st.w (.test ⟨c, asSubject obj⟩)).2.1 true st.nm
      cases hi : items cx true st.nm (listTake o g c fuel st.w (.test ⟨c, asSubject obj⟩)).2.1 (listTake o g c fuel st.w (.test ⟨c, asSubject obj⟩)).2.2 with
      | error e =>
        rw [hi] at h
        simp only [SameAs] at h ⊢
        unfold Out.andThen
        rw [h]
      | ok y => rw [hi] at h; simp only [SameAs] at h ⊢; rw [h]; simp
    | false =>
      simp only [andThen_ok, Bool.false_eq_true, if_false, List.nil_append]
      cases name cx st.nm obj with
      | error e => rfl
      | ok y => simp [SameAs]

theorem putObjs_agrees (o : Orders) (c fuel : Nat) (g : Graph) (cx : SerCtx) (indent : Nat) : ∀ (ts : List Stmt) (first : Bool) (st : SerSt),
    SameAs (putObjs o c fuel g cx indent first st ts) (objsText o c fuel g cx indent first st ts)
  | [], first, st => rfl
  | t :: ts, first, st => by
    have h1 := putObj_agrees o c fuel g cx st t.o
    unfold putObjs objsText put
    cases h : objText o c fuel g cx st t.o with
    | error e =>
      rw [h] at h1
      simp only [SameAs] at h1 ⊢
      simp only [andThen_ok]
      unfold Out.andThen
      rw [h1]
    | ok x =>
      obtain ⟨st1, x⟩ := x
      rw [h] at h1
      have ih := putObjs_agrees o c fuel g cx indent ts false st1
      simp only [SameAs] at h1
      simp only [h1, andThen_ok]
      cases h2 : objsText o c fuel g cx indent false st1 ts with
      | error e => rw [h2] at ih; exact ih
      | ok y => rw [h2] at ih; simp only [SameAs] at ih ⊢; rw [ih]; simp

theorem putPreds_agrees (o : Orders) (c fuel : Nat) (g : Graph) (cx : SerCtx) (s : Term) (indent : Nat) : ∀ (ps : List (PStr × Term)) (first : Bool) (st : SerSt),
    SameAs (putPreds o c fuel g cx s indent first st ps) (predsText o c fuel g cx s indent first st ps)
  | [], first, st => rfl
  | (pname, p) :: ps, first, st => by
    have h1 := putObjs_agrees o c fuel g cx (indent + pname.length + 1) (g.match o.stmts s p .none) true st
    unfold putPreds predsText put
    cases h : objsText o c fuel g cx (indent + pname.length + 1) true st (g.match o.stmts s p .none) with
    | error e =>
      rw [h] at h1
      simp only [SameAs] at h1 ⊢
      simp only [andThen_ok]
      unfold Out.andThen
      rw [h1]
    | ok x =>
      obtain ⟨st1, x⟩ := x
      rw [h] at h1
      have ih := putPreds_agrees o c fuel g cx s indent ps false st1
      simp only [SameAs] at h1
      simp only [h1, andThen_ok]
      cases h2 : predsText o c fuel g cx s indent false st1 ps with
      | error e => rw [h2] at ih; exact ih
      | ok y => rw [h2] at ih; simp only [SameAs] at ih ⊢; rw [ih]; simp

theorem putSubj_agrees (o : Orders) (c fuel : Nat) (g : Graph) (cx : SerCtx) (st : SerSt) (sname : PStr) (s : Term) :
    SameAs (putSubj o c fuel g cx st sname s) (subjText o c fuel g cx st sname s) := by
  unfold putSubj subjText put quiet
  simp only [andThen_ok]
  cases sortedNames cx st.nm (o.terms (pySet ((g.match o.stmts s .none .none).map (·.p)))) with
  | error e => rfl
  | ok x =>
    obtain ⟨nm, ps⟩ := x
    have h1 := putPreds_agrees o c fuel g cx s (sname.length + 1) ps true ⟨st.w, nm⟩
    simp only [andThen_ok]
    cases h : predsText o c fuel g cx s (sname.length + 1) true ⟨st.w, nm⟩ ps with
    | error e =>
      rw [h] at h1
      simp only [SameAs] at h1 ⊢
      unfold Out.andThen
      rw [h1]
    | ok x => rw [h] at h1; simp only [SameAs] at h1 ⊢; rw [h1]; simp

theorem putSubjs_agrees (o : Orders) (c fuel : Nat) (g : Graph) (cx : SerCtx) : ∀ (ss : List (PStr × Term)) (st : SerSt),
    SameAs (putSubjs o c fuel g cx st ss) (subjsText o c fuel g cx st ss)
  | [], st => rfl
  | (sname, s) :: ss, st => by
    have h1 := putSubj_agrees o c fuel g cx st sname s
    unfold putSubjs subjsText
    cases h : subjText o c fuel g cx st sname s with
    | error e =>
      rw [h] at h1
      simp only [SameAs] at h1 ⊢
      unfold Out.andThen
      rw [h1]
    | ok x =>
      obtain ⟨st1, x⟩ := x
      rw [h] at h1
      have ih := putSubjs_agrees o c fuel g cx ss st1
      simp only [SameAs] at h1
      simp only [h1, andThen_ok]
      cases h2 : subjsText o c fuel g cx st1 ss with
      | error e => rw [h2] at ih; exact ih
      | ok y => rw [h2] at ih; simp only [SameAs] at ih ⊢; rw [ih]

/-- The writer with its writes raises what the writer without raises; if nothing is raised the text is in the file. -/
theorem writeTurtle_agrees (o : Orders) (w : World) (fuel : Nat) (g : Graph) (base : Option PStr) (profile : Option PrefixMap) (namer : Namer) :
    (∀ t, serializeTurtle o w fuel g base profile namer = .ok t ↔ writeTurtle o w fuel g base profile namer = (t, .ok ())) ∧
    ∀ e, serializeTurtle o w fuel g base profile namer = .error e ↔ (writeTurtle o w fuel g base profile namer).2 = .error e := by
  have key : SameAs (writeTurtle o w fuel g base profile namer) ((serializeTurtle o w fuel g base profile namer).map fun t => ((), t)) := by
    unfold writeTurtle serializeTurtle put quiet
    simp only [andThen_ok]
    cases plainSubjects o w listC g g.subjects with
    | error e => rfl
    | ok subjects =>
      simp only [andThen_ok]
      cases sortedNames ⟨profile.getD defaultPrefixes, base, namer⟩ {} subjects with
      | error e => rfl
      | ok x =>
        obtain ⟨nm, ss⟩ := x
        have h1 := putSubjs_agrees o listC fuel g ⟨profile.getD defaultPrefixes, base, namer⟩ ss ⟨w, nm⟩
        simp only [andThen_ok]
        cases h : subjsText o listC fuel g ⟨profile.getD defaultPrefixes, base, namer⟩ ⟨w, nm⟩ ss with
        | error e =>
          rw [h] at h1
          simp only [SameAs, Except.map] at h1 ⊢
          unfold Out.andThen
          rw [h1]
        | ok x => rw [h] at h1; simp only [SameAs, Except.map] at h1 ⊢; rw [h1]; simp
  cases h : serializeTurtle o w fuel g base profile namer with
  | error e =>
    rw [h] at key
    simp only [SameAs, Except.map] at key
    refine ⟨fun t => ⟨fun h => (by cases h), fun h => ?_⟩, fun e' => ?_⟩
    · rw [h] at key; cases key
    · simp [key]
  | ok t =>
    rw [h] at key
    simp only [SameAs, Except.map] at key
    refine ⟨fun t' => ?_, fun e' => ⟨fun h => (by cases h), fun h => ?_⟩⟩
    · rw [key]; simp
    · rw [key] at h; cases h

end Verif.Turtle
