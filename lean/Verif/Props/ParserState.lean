import Verif.Lemmas.ParserState
import Verif.Props.NTParse

/-!
# C123, C124: one parser for many threads, and a parse within a parse
-/

namespace Verif.Par

/-! ### A thread by itself -/

/-- State of a single thread: allocator, attribute, thread. -/
abbrev One := Nat × Option (Dict PStr Nat) × Thread

def One.step (x : One) : One := x.2.2.step x.1 x.2.1

/-- `y` is reached from `x`. -/
def To (x y : One) : Prop := ∃ k, One.step^[k] x = y

theorem To.refl (x : One) : To x x := ⟨0, rfl⟩
theorem To.trans {x y z : One} (h : To x y) (h' : To y z) : To x z := by
  obtain ⟨a, rfl⟩ := h
  obtain ⟨b, rfl⟩ := h'
  exact ⟨b + a, by rw [Function.iterate_add_apply]⟩
theorem To.one {x y : One} (h : One.step x = y) : To x y := ⟨1, h⟩

theorem alone_eq (n0 : Nat) (code : List Instr) (k : Nat) : alone n0 code k = One.step^[k] (n0, none, { code }) := by
  induction k with
  | zero => rfl
  | succ k ih => rw [Function.iterate_succ_apply', ← ih]; rfl

/-- A state that no step changes. -/
def One.Stable (x : One) : Prop := x.step = x

theorem One.Stable.iterate {x : One} (h : x.Stable) (k : Nat) : One.step^[k] x = x := by
  induction k with
  | zero => rfl
  | succ k ih => rw [Function.iterate_succ_apply, h, ih]

theorem stable_of_exc {x : One} (h : x.2.2.exc ≠ none) : x.Stable := by
  obtain ⟨n, a, th⟩ := x
  unfold One.Stable One.step Thread.step
  cases he : th.exc with
  | none => exact absurd he h
  | some e => rfl

theorem stable_of_done {x : One} (h : x.2.2.code = []) : x.Stable := by
  obtain ⟨n, a, th⟩ := x
  simp only at h
  unfold One.Stable One.step Thread.step
  rw [h]
  cases th.exc <;> rfl

/-- Two stable states reached from the same state are equal. -/
theorem stable_unique {x : One} {a b : Nat} (ha : (One.step^[a] x).Stable) (hb : (One.step^[b] x).Stable) : One.step^[a] x = One.step^[b] x := by
  rcases Nat.le_total a b with h | h
  · obtain ⟨c, rfl⟩ := Nat.exists_eq_add_of_le h
    rw [Nat.add_comm, Function.iterate_add_apply, ha.iterate]
  · obtain ⟨c, rfl⟩ := Nat.exists_eq_add_of_le h
    rw [Nat.add_comm, Function.iterate_add_apply, hb.iterate]

/-! ### What a call does by itself -/

/-- The statements a call hands to the sink when nothing else runs: those of `parseString` and `parseStream`, with the allocator at `n`. -/
def Call.result : Call → Nat → List Stmt
  | .string q text _, n => (parseString (fun l t => l ++ [t]) q n text []).1
  | .stream q content _, n => (parseStream (fun l t => l ++ [t]) q n content []).1

theorem to_term (m : Dict PStr Nat) (n : Nat) (t : RTerm) (rest : List Instr) (regs : List Nat) (buf out : List Stmt) :
    ∃ new, To (n, some m, { code := termCode t ++ rest, regs, buf, out })
        ((BState.term ⟨m, n⟩ t).1.next, some (BState.term ⟨m, n⟩ t).1.map, { code := rest, regs := regs ++ new, buf, out }) ∧
      ∀ more, takeTerm (new ++ more) t = (more, (BState.term ⟨m, n⟩ t).2) := by
  cases t with
  | iri i => exact ⟨[], by simpa [termCode, BState.term] using To.refl _, fun _ => rfl⟩
  | lit v l d => exact ⟨[], by simpa [termCode, BState.term] using To.refl _, fun _ => rfl⟩
  | label l => exact ⟨[(BState.node ⟨m, n⟩ l).2], To.one rfl, fun _ => rfl⟩

theorem to_stmt (m : Dict PStr Nat) (n : Nat) (r : RStmt) (rest : List Instr) (buf out : List Stmt) :
    To (n, some m, { code := stmtCode r ++ rest, buf, out })
      ((BState.stmt ⟨m, n⟩ r).1.next, some (BState.stmt ⟨m, n⟩ r).1.map, { code := rest, buf := buf ++ [(BState.stmt ⟨m, n⟩ r).2], out }) := by
  unfold stmtCode
  simp only [List.append_assoc]
  obtain ⟨na, a1, a2⟩ := to_term m n r.s (termCode r.p ++ (termCode r.o ++ ((match r.g with | none => [] | some g => termCode g) ++ ([.emit r] ++ rest)))) [] buf out
  refine a1.trans ?_
  generalize ha : BState.term ⟨m, n⟩ r.s = sa at a1 a2
  obtain ⟨nb, b1, b2⟩ := to_term sa.1.map sa.1.next r.p (termCode r.o ++ ((match r.g with | none => [] | some g => termCode g) ++ ([.emit r] ++ rest))) ([] ++ na) buf out
  refine b1.trans ?_
  generalize hb : BState.term ⟨sa.1.map, sa.1.next⟩ r.p = sb at b1 b2
  obtain ⟨nc, c1, c2⟩ := to_term sb.1.map sb.1.next r.o ((match r.g with | none => [] | some g => termCode g) ++ ([.emit r] ++ rest)) ([] ++ na ++ nb) buf out
  refine c1.trans ?_
  generalize hc : BState.term ⟨sb.1.map, sb.1.next⟩ r.o = sc at c1 c2
  cases hg : r.g with
  | none =>
    have e1 : BState.stmt ⟨m, n⟩ r = (sc.1, mkTriple sa.2 sb.2 sc.2) := by
      unfold BState.stmt; simp only [ha, hg]; simp only [hb, hc]
    rw [e1]
    refine To.one ?_
    have e2 : takeStmt ([] ++ na ++ nb ++ nc) r = ([], mkTriple sa.2 sb.2 sc.2) := by
      unfold takeStmt
      simp only [List.nil_append, List.append_assoc, a2, b2, hg]
      have := c2 []
      rw [List.append_nil] at this
      simp only [this]
    show (sc.1.next, some sc.1.map, Thread.mk rest (takeStmt ([] ++ na ++ nb ++ nc) r).1 (buf ++ [(takeStmt ([] ++ na ++ nb ++ nc) r).2]) out none) = _
    rw [e2]
  | some g =>
    obtain ⟨nd, d1, d2⟩ := to_term sc.1.map sc.1.next g ([.emit r] ++ rest) ([] ++ na ++ nb ++ nc) buf out
    refine d1.trans ?_
    generalize hd : BState.term ⟨sc.1.map, sc.1.next⟩ g = sd at d1 d2
    have e1 : BState.stmt ⟨m, n⟩ r = (sd.1, mkQuad sa.2 sb.2 sc.2 sd.2) := by
      unfold BState.stmt; simp only [ha, hg]; simp only [hb, hc]; simp only [hd]
    rw [e1]
    refine To.one ?_
    have e2 : takeStmt ([] ++ na ++ nb ++ nc ++ nd) r = ([], mkQuad sa.2 sb.2 sc.2 sd.2) := by
      unfold takeStmt
      simp only [List.nil_append, List.append_assoc, a2, b2, c2, hg]
      have := d2 []
      rw [List.append_nil] at this
      simp only [this]
    show (sd.1.next, some sd.1.map, Thread.mk rest (takeStmt ([] ++ na ++ nb ++ nc ++ nd) r).1 (buf ++ [(takeStmt ([] ++ na ++ nb ++ nc ++ nd) r).2]) out none) = _
    rw [e2]

theorem to_stmts (rs : List RStmt) (m : Dict PStr Nat) (n : Nat) (rest : List Instr) (buf out : List Stmt) :
    To (n, some m, { code := rs.flatMap stmtCode ++ rest, buf, out })
      ((BState.stmts ⟨m, n⟩ rs).1.next, some (BState.stmts ⟨m, n⟩ rs).1.map, { code := rest, buf := buf ++ (BState.stmts ⟨m, n⟩ rs).2, out }) := by
  induction rs generalizing m n buf with
  | nil => simpa [BState.stmts] using To.refl _
  | cons r rs ih =>
    rw [List.flatMap_cons, List.append_assoc]
    refine (to_stmt m n r _ buf out).trans ?_
    have := ih (BState.stmt ⟨m, n⟩ r).1.map (BState.stmt ⟨m, n⟩ r).1.next (buf ++ [(BState.stmt ⟨m, n⟩ r).2])
    simpa [BState.stmts] using this

theorem to_labels (ls : List PStr) (m : Dict PStr Nat) (n : Nat) (rest : List Instr) (regs : List Nat) (buf out : List Stmt) :
    ∃ m' n' regs', n ≤ n' ∧ To (n, some m, { code := ls.map .label ++ rest, regs, buf, out }) (n', some m', { code := rest, regs := regs', buf, out }) := by
  induction ls generalizing m n regs with
  | nil => exact ⟨m, n, regs, Nat.le_refl _, To.refl _⟩
  | cons l ls ih =>
    obtain ⟨m', n', regs', h1, h2⟩ := ih (BState.node ⟨m, n⟩ l).1.map (BState.node ⟨m, n⟩ l).1.next (regs ++ [(BState.node ⟨m, n⟩ l).2])
    refine ⟨m', n', regs', Nat.le_trans ?_ h1, (To.one rfl).trans h2⟩
    unfold BState.node
    split
    · exact Nat.le_refl _
    · exact Nat.le_succ _

theorem foldl_collect (ts acc : List Stmt) : ts.foldl (fun l t => l ++ [t]) acc = acc ++ ts := by
  induction ts generalizing acc with
  | nil => simp
  | cons t ts ih => rw [List.foldl_cons, ih]; simp

theorem to_lines (q : Bool) (before : List PStr) (lines : List PStr) (m : Dict PStr Nat) (n : Nat) (rest : List Instr) (out : List Stmt) :
    ∃ m' n' regs' buf', (parseLines (fun l t => l ++ [t]) q ⟨m, n⟩ lines out).2.1.next ≤ n' ∧
      To (n, some m, { code := linesCode q before lines ++ rest, out })
        (n', some m', { code := rest, regs := regs', buf := buf', out := (parseLines (fun l t => l ++ [t]) q ⟨m, n⟩ lines out).1 }) := by
  induction lines generalizing m n out with
  | nil => exact ⟨m, n, [], [], Nat.le_refl _, To.refl _⟩
  | cons line lines ih =>
    by_cases hl : line = []
    · simp only [linesCode, if_pos hl, parseLines]
      exact ih m n out
    · simp only [linesCode, if_neg hl, parseLines]
      cases hd : pDoc q line with
      | error e =>
        obtain ⟨m', n', regs', h1, h2⟩ := to_labels before m n rest [] [] out
        exact ⟨m', n', regs', [], h1, h2⟩
      | ok rs =>
        cases rs with
        | nil => exact ⟨m, n, [], [], Nat.le_refl _, To.refl _⟩
        | cons r rs =>
          have hs := to_stmts (r :: rs) m n (.hand false :: (linesCode q before lines ++ rest)) [] out
          simp only [List.append_assoc, List.cons_append]
          generalize hst : BState.stmts ⟨m, n⟩ (r :: rs) = st at hs
          obtain ⟨x, xs, hx⟩ : ∃ x xs, st.2 = x :: xs := by
            rw [← hst]; exact ⟨_, _, rfl⟩
          simp only [hx]
          obtain ⟨m', n', regs', buf', h1, h2⟩ := ih st.1.map st.1.next (out ++ [x])
          refine ⟨m', n', regs', buf', h1, hs.trans ((To.one ?_).trans h2)⟩
          rw [hx]
          rfl

/-- A call by itself, whatever state the attribute was left in. -/
theorem to_call (c : Call) (n : Nat) (attr : Option (Dict PStr Nat)) (rest : List Instr) (out : List Stmt) :
    ∃ n', n ≤ n' ∧ (∀ t ∈ c.result n, ∀ i, UsesS t i → n ≤ i ∧ i < n') ∧
      To (n, attr, { code := c.code ++ rest, out }) (n', none, { code := rest, out := out ++ c.result n }) := by
  have huse : ∀ (f : PStr → Nat) (r : RStmt) (i : Nat), UsesS (r.subst f) i → ∃ l, r.HasLabel l ∧ f l = i := by
    intro f r i h
    have ht : ∀ t : RTerm, t.subst f = .bnode i → ∃ l, t = .label l ∧ f l = i := by
      intro t ht
      cases t with
      | iri i => cases ht
      | lit v l d => cases ht
      | label l => cases ht; exact ⟨l, rfl, rfl⟩
    rcases h with h | h | h | h
    · obtain ⟨l, h, e⟩ := ht _ h; exact ⟨l, .inl h, e⟩
    · obtain ⟨l, h, e⟩ := ht _ h; exact ⟨l, .inr (.inl h), e⟩
    · obtain ⟨l, h, e⟩ := ht _ h; exact ⟨l, .inr (.inr (.inl h)), e⟩
    · simp only [RStmt.subst] at h
      cases hg : r.g with
      | none => rw [hg] at h; cases h
      | some g =>
        rw [hg] at h
        obtain ⟨l, h, e⟩ := ht g (by simpa using h)
        exact ⟨l, .inr (.inr (.inr (by rw [hg, h]))), e⟩
  cases c with
  | string q text before =>
    simp only [Call.code, List.cons_append, List.append_assoc]
    cases hd : pDoc q text with
    | error e =>
      obtain ⟨m', n', regs', h1, h2⟩ := to_labels before [] n ([.cleanup] ++ rest) [] [] out
      have hr : (Call.string q text before).result n = [] := by simp only [Call.result, parseString, hd]
      refine ⟨n', h1, by rw [hr]; simp, (To.one rfl).trans (h2.trans (To.one ?_))⟩
      rw [hr, List.append_nil]
      rfl
    | ok rs =>
      have hs := to_stmts rs [] n ([.hand true] ++ ([.cleanup] ++ rest)) [] out
      have hr : (Call.string q text before).result n = (BState.stmts ⟨[], n⟩ rs).2 := by
        simp only [Call.result, parseString, hd, foldl_collect, List.nil_append]
      obtain ⟨f, n', h1, h2, h3, h4⟩ := C41_labels_scoped (fun l t => l ++ [t]) q n text [] rs hd
      have hn' : n' = (BState.stmts ⟨[], n⟩ rs).1.next := by
        have : (parseString (fun l t => l ++ [t]) q n text []).2.1 = n' := by rw [h2]
        rw [← this]; simp only [parseString, hd]
      have hr2 : (Call.string q text before).result n = rs.map (·.subst f) := by
        simp only [Call.result, h2, foldl_collect, List.nil_append]
      refine ⟨(BState.stmts ⟨[], n⟩ rs).1.next, by omega, ?_, ?_⟩
      · rw [hr2]
        intro t ht i hi
        obtain ⟨r, hr, rfl⟩ := List.mem_map.1 ht
        obtain ⟨l, hl, rfl⟩ := huse f r i hi
        rw [← hn']
        exact h4 r hr l hl
      · refine (To.one rfl).trans ?_
        simp only [List.append_assoc]
        refine hs.trans ((To.one rfl).trans (To.one ?_))
        rw [hr]
        rfl
  | stream q content before =>
    simp only [Call.code, List.cons_append, List.append_assoc]
    obtain ⟨m', n', regs', buf', h1, h2⟩ := to_lines q before (splitLines content) [] n ([.cleanup] ++ rest) out
    have hout : ∀ (ls : List PStr) (st : BState) (o o' : List Stmt), (parseLines (fun l t => l ++ [t]) q st ls (o ++ o')).1 =
        o ++ (parseLines (fun l t => l ++ [t]) q st ls o').1 ∧ (parseLines (fun l t => l ++ [t]) q st ls (o ++ o')).2.1 =
          (parseLines (fun l t => l ++ [t]) q st ls o').2.1 := by
      intro ls
      induction ls with
      | nil => intro st o o'; exact ⟨rfl, rfl⟩
      | cons line ls ih =>
        intro st o o'
        by_cases hl : line = []
        · simp only [parseLines, if_pos hl]; exact ih st o o'
        · simp only [parseLines, if_neg hl]
          cases pDoc q line with
          | error e => exact ⟨rfl, rfl⟩
          | ok rs =>
            dsimp only
            cases (st.stmts rs).2 with
            | nil => exact ⟨rfl, rfl⟩
            | cons t ts => dsimp only; rw [List.append_assoc]; exact ih _ _ _
    have hr : (parseLines (fun l t => l ++ [t]) q ⟨[], n⟩ (splitLines content) out).1 = out ++ (Call.stream q content before).result n := by
      have := (hout (splitLines content) ⟨[], n⟩ out []).1
      rw [List.append_nil] at this
      rw [this]; rfl
    have hn : (parseLines (fun l t => l ++ [t]) q ⟨[], n⟩ (splitLines content) out).2.1.next = (parseStream (fun l t => l ++ [t]) q n content []).2.1 := by
      have := (hout (splitLines content) ⟨[], n⟩ out []).2
      rw [List.append_nil] at this
      rw [this]; rfl
    obtain ⟨pre, post, firsts, f, k1, k2, k3, k4, k5, k6, k7⟩ := C41_labels_scoped_stream (fun l t => l ++ [t]) q n content []
    refine ⟨n', by omega, ?_, (To.one rfl).trans (h2.trans (To.one ?_))⟩
    · intro t ht i hi
      simp only [Call.result, k5, foldl_collect, List.nil_append] at ht
      obtain ⟨r, hr', rfl⟩ := List.mem_map.1 ht
      obtain ⟨l, hl, rfl⟩ := huse f r i hi
      have := k7 r hr' l hl
      omega
    · rw [hr]
      rfl

/-- A thread that makes one call after the other, by itself. -/
theorem to_calls (cs : List Call) (n : Nat) (attr : Option (Dict PStr Nat)) (out : List Stmt) :
    ∃ n' ns, n ≤ n' ∧ ns.length = cs.length ∧ (∀ k ∈ ns, n ≤ k ∧ k ≤ n') ∧
      (∃ attr', To (n, attr, { code := cs.flatMap Call.code, out }) (n', attr', { code := [], out := out ++ (List.zipWith Call.result cs ns).flatten })) ∧
      (List.zipWith Call.result cs ns).Pairwise (fun x y => ∀ t ∈ x, ∀ u ∈ y, ∀ i, UsesS t i → ¬ UsesS u i) ∧
      ∀ x ∈ List.zipWith Call.result cs ns, ∀ t ∈ x, ∀ i, UsesS t i → n ≤ i ∧ i < n' := by
  induction cs generalizing n attr out with
  | nil => exact ⟨n, [], Nat.le_refl _, rfl, by simp, ⟨attr, by simpa using To.refl _⟩, by simp, by simp⟩
  | cons c cs ih =>
    obtain ⟨n1, h1, h2, h3⟩ := to_call c n attr (cs.flatMap Call.code) out
    obtain ⟨n', ns, i1, i2, i3, ⟨attr', i4⟩, i5, i6⟩ := ih n1 none (out ++ c.result n)
    refine ⟨n', n :: ns, Nat.le_trans h1 i1, by simp [i2], ?_, ⟨attr', ?_⟩, ?_, ?_⟩
    · intro k hk
      rcases List.mem_cons.1 hk with rfl | hk
      · exact ⟨Nat.le_refl _, Nat.le_trans h1 i1⟩
      · have := i3 k hk; omega
    · rw [List.flatMap_cons]
      refine h3.trans ?_
      simpa using i4
    · rw [List.zipWith_cons_cons, List.pairwise_cons]
      refine ⟨fun y hy t ht u hu i hi hj => ?_, i5⟩
      have a := h2 t ht i hi
      have b := i6 y hy u hu i hj
      omega
    · intro x hx t ht i hi
      rw [List.zipWith_cons_cons] at hx
      rcases List.mem_cons.1 hx with rfl | hx
      · have := h2 t ht i hi; omega
      · have := i6 x hx t ht i hi; omega

/-! ### C123 -/

theorem uses_rename {t : Stmt} {ρ : Nat → Nat} {i : Nat} (h : UsesS (t.rename ρ) i) : ∃ j, UsesS t j ∧ ρ j = i := by
  have ht : ∀ x : Term, x.rename ρ = .bnode i → ∃ j, x = .bnode j ∧ ρ j = i := by
    intro x hx
    cases x <;> simp only [Term.rename] at hx <;> cases hx
    exact ⟨_, rfl, rfl⟩
  rcases h with h | h | h | h
  · obtain ⟨j, a, b⟩ := ht _ h; exact ⟨j, .inl a, b⟩
  · obtain ⟨j, a, b⟩ := ht _ h; exact ⟨j, .inr (.inl a), b⟩
  · obtain ⟨j, a, b⟩ := ht _ h; exact ⟨j, .inr (.inr (.inl a)), b⟩
  · simp only [Stmt.rename] at h
    cases hg : t.g with
    | none => rw [hg] at h; cases h
    | some g =>
      rw [hg] at h
      obtain ⟨j, a, b⟩ := ht g (by simpa using h)
      exact ⟨j, .inr (.inr (.inr (by rw [hg, a]))), b⟩

/-- C123. For every schedule, and whatever the threads do: each thread is in the state in which it would be had it made the same number of steps with the
    parser to itself (the same exception, the same statements handed over), but for the identities of the blank nodes; and no blank node is in two threads. -/
theorem C123_interleaving (n0 : Nat) (code : Nat → List Instr) (sched : List Nat) :
    let s := (Sys.start n0 code).run sched
    let own := fun t => (Sys.start n0 code).run (List.replicate (sched.count t) t)
    ∃ ρ : Nat → Nat → Nat,
      (∀ t, (s.threads t).exc = ((own t).threads t).exc ∧ (s.threads t).code = ((own t).threads t).code ∧
        (s.threads t).out = ((own t).threads t).out.map (·.rename (ρ t))) ∧
      (∀ t, ∀ x ∈ ((own t).threads t).out, ∀ i, UsesS x i → ∀ u, ∀ y ∈ ((own u).threads u).out, ∀ j, UsesS y j →
        ρ t i = ρ u j → t = u ∧ i = j) := by
  intro s own
  obtain ⟨ρ, h⟩ := run_rel n0 code sched
  have ho : ∀ t, (own t).threads t = (alone n0 (code t) (sched.count t)).2.2 := fun t => (run_replicate n0 code t (sched.count t)).2.2
  refine ⟨ρ, fun t => ?_, fun t x hx i hi u y hy j hj he => ?_⟩
  · rw [show s.threads t = _ from h.thread t, ho t]
    exact ⟨rfl, rfl, rfl⟩
  · rw [ho] at hx hy
    have a := (h.inn t).out x hx i hi
    have b := (h.inn u).out y hy j hj
    exact h.inj t u i j a.1 a.2 b.1 b.2 he

/-- A step that raises nothing takes one instruction. -/
theorem alone_code (n0 : Nat) (code : List Instr) (k : Nat) (h : (alone n0 code k).2.2.exc = none) : (alone n0 code k).2.2.code = code.drop k := by
  induction k with
  | zero => rfl
  | succ k ih =>
    have hk : (alone n0 code k).2.2.exc = none := by
      cases he : (alone n0 code k).2.2.exc with
      | none => rfl
      | some e =>
        have : (One.step (alone n0 code k)) = alone n0 code k := stable_of_exc (by rw [he]; simp)
        have h' : alone n0 code (k + 1) = alone n0 code k := this
        rw [h', he] at h
        cases h
    have ihk := ih hk
    have hs : alone n0 code (k + 1) = (alone n0 code k).2.2.step (alone n0 code k).1 (alone n0 code k).2.1 := rfl
    rw [hs] at h ⊢
    generalize alone n0 code k = x at *
    obtain ⟨n, a, th⟩ := x
    simp only at *
    rw [← List.tail_drop, ← ihk]
    clear ih ihk hs
    unfold Thread.step at h ⊢
    rw [hk] at h ⊢
    cases hc : th.code with
    | nil => simp [hc]
    | cons i code' =>
      rw [hc] at h
      cases i <;> cases a <;> simp_all

/-- C123 for threads that call `parse`, any number of times, on strings and streams, in any interleaving: no call is disturbed (the parser's own state never
    raises), a thread that gets enough steps comes to the end of its calls, and then each of its calls has handed over what it hands over alone, but for the
    identities of the blank nodes. No blank node is in the results of two calls, of the same thread or of different threads. -/
theorem C123_threads (n0 : Nat) (calls : Nat → List Call) (sched : List Nat) :
    let s := (Sys.start n0 fun t => (calls t).flatMap Call.code).run sched
    (∀ t, (s.threads t).exc = none) ∧
    (∀ t, (s.threads t).code = [] ↔ ((calls t).flatMap Call.code).length ≤ sched.count t) ∧
    ∃ results : Nat → List (List Stmt),
      (∀ t, (s.threads t).code = [] → (s.threads t).out = (results t).flatten ∧
        List.Forall₂ (fun c res => ∃ n ρ, res = (c.result n).map (·.rename ρ) ∧
          ∀ x ∈ c.result n, ∀ y ∈ c.result n, ∀ i j, UsesS x i → UsesS y j → ρ i = ρ j → i = j) (calls t) (results t)) ∧
      (∀ t, (s.threads t).code = [] → (results t).Pairwise fun a b => ∀ x ∈ a, ∀ y ∈ b, ∀ i, UsesS x i → ¬ UsesS y i) ∧
      (∀ t u, t ≠ u → (s.threads t).code = [] → (s.threads u).code = [] →
        ∀ x ∈ (s.threads t).out, ∀ y ∈ (s.threads u).out, ∀ i, UsesS x i → ¬ UsesS y i) := by
  intro s
  obtain ⟨ρ, h⟩ := run_rel n0 (fun t => (calls t).flatMap Call.code) sched
  have hth : ∀ t, s.threads t = (alone n0 ((calls t).flatMap Call.code) (sched.count t)).2.2.ren (ρ t) := h.thread
  choose n' ns h1 h2 h3 h4 h5 h6 using fun t => to_calls (calls t) n0 none []
  choose attr' h4 using h4
  have hfin : ∀ t, ∃ k, alone n0 ((calls t).flatMap Call.code) k = (n' t, attr' t, { code := [], out := (List.zipWith Call.result (calls t) (ns t)).flatten }) := by
    intro t
    obtain ⟨k, hk⟩ := h4 t
    exact ⟨k, by rw [alone_eq, hk]; simp⟩
  have hexc : ∀ t k, (alone n0 ((calls t).flatMap Call.code) k).2.2.exc = none := by
    intro t k
    cases he : (alone n0 ((calls t).flatMap Call.code) k).2.2.exc with
    | none => rfl
    | some e =>
      obtain ⟨k', hk'⟩ := hfin t
      have s1 : (One.step^[k] (n0, none, { code := (calls t).flatMap Call.code })).Stable := by
        rw [← alone_eq]; exact stable_of_exc (by rw [he]; simp)
      have s2 : (One.step^[k'] (n0, none, { code := (calls t).flatMap Call.code })).Stable := by
        rw [← alone_eq, hk']; exact stable_of_done rfl
      have := stable_unique s1 s2
      rw [← alone_eq, ← alone_eq, hk'] at this
      rw [this] at he
      cases he
  have hdone : ∀ t, (s.threads t).code = [] → alone n0 ((calls t).flatMap Call.code) (sched.count t) =
      (n' t, attr' t, { code := [], out := (List.zipWith Call.result (calls t) (ns t)).flatten }) := by
    intro t ht
    obtain ⟨k', hk'⟩ := hfin t
    rw [hth t] at ht
    have s1 : (One.step^[sched.count t] (n0, none, { code := (calls t).flatMap Call.code })).Stable := by
      rw [← alone_eq]; exact stable_of_done ht
    have s2 : (One.step^[k'] (n0, none, { code := (calls t).flatMap Call.code })).Stable := by
      rw [← alone_eq, hk']; exact stable_of_done rfl
    have := stable_unique s1 s2
    rw [← alone_eq, ← alone_eq, hk'] at this
    exact this
  have hin : ∀ t, (s.threads t).code = [] → ∀ i, n0 ≤ i → i < n' t → i < (alone n0 ((calls t).flatMap Call.code) (sched.count t)).1 := by
    intro t ht i _ hi
    rw [hdone t ht]; exact hi
  refine ⟨fun t => by rw [hth t]; exact hexc t _, fun t => ?_, fun t => (List.zipWith Call.result (calls t) (ns t)).map (·.map (·.rename (ρ t))),
    fun t ht => ⟨?_, ?_⟩, fun t ht => ?_, fun t u htu ht hu x hx y hy i hi hj => ?_⟩
  · rw [hth t]
    show (alone n0 ((calls t).flatMap Call.code) (sched.count t)).2.2.code = [] ↔ _
    rw [alone_code _ _ _ (hexc t _), List.drop_eq_nil_iff]
  · rw [hth t, hdone t ht]
    simp only [Thread.ren, List.map_flatten]
  · have hinj : ∀ res ∈ List.zipWith Call.result (calls t) (ns t), ∀ x ∈ res, ∀ y ∈ res, ∀ i j, UsesS x i → UsesS y j → ρ t i = ρ t j → i = j := by
      intro res hres x hx y hy i j hi hj he
      have a := h6 t res hres x hx i hi
      have b := h6 t res hres y hy j hj
      exact (h.inj t t i j a.1 (hin t ht i a.1 a.2) b.1 (hin t ht j b.1 b.2) he).2
    have hlen := h2 t
    dsimp only
    generalize calls t = cs at *
    generalize ns t = ks at *
    clear h1 h3 h4 h5 h6 hdone hin hfin hexc hth
    induction cs generalizing ks with
    | nil => exact .nil
    | cons c cs ih =>
      cases ks with
      | nil => simp at hlen
      | cons k ks =>
        simp only [List.zipWith_cons_cons, List.map_cons]
        refine .cons ⟨k, ρ t, rfl, hinj _ (by simp)⟩ (ih ks (fun res hres => hinj res (by simp [hres])) (by simpa using hlen))
  · rw [List.pairwise_map]
    refine List.Pairwise.imp_of_mem ?_ (h5 t)
    intro a b ha hb hab x hx y hy i hi hj
    obtain ⟨x', hx', rfl⟩ := List.mem_map.1 hx
    obtain ⟨y', hy', rfl⟩ := List.mem_map.1 hy
    obtain ⟨i', hi', ei⟩ := uses_rename hi
    obtain ⟨j', hj', ej⟩ := uses_rename hj
    have p := h6 t a ha x' hx' i' hi'
    have q := h6 t b hb y' hy' j' hj'
    have := (h.inj t t i' j' p.1 (hin t ht i' p.1 p.2) q.1 (hin t ht j' q.1 q.2) (by rw [ei, ej])).2
    subst this
    exact hab x' hx' y' hy' i' hi' hj'
  · rw [hth] at hx hy
    obtain ⟨x', hx', rfl⟩ := List.mem_map.1 hx
    obtain ⟨y', hy', rfl⟩ := List.mem_map.1 hy
    obtain ⟨i', hi', ei⟩ := uses_rename hi
    obtain ⟨j', hj', ej⟩ := uses_rename hj
    have p := (h.inn t).out x' hx' i' hi'
    have q := (h.inn u).out y' hy' j' hj'
    exact htu (h.inj t u i' j' p.1 p.2 q.1 q.2 (by rw [ei, ej])).1

/-- Two threads that read a document with the label `a`, step by step in turn: each gets its own node. -/
example :
    let doc := py! "_:a <urn:p> _:a .\n_:b <urn:p> _:a ."
    let s := (Sys.start 0 fun _ => (Call.string false doc []).code).run [0, 1, 0, 1, 1, 0, 1, 1, 0, 0, 0, 1, 0, 1, 0, 1, 0, 1]
    (s.threads 0).out = [mkTriple (.bnode 0) (.named (py! "urn:p")) (.bnode 0), mkTriple (.bnode 3) (.named (py! "urn:p")) (.bnode 0)] ∧
    (s.threads 1).out = [mkTriple (.bnode 1) (.named (py! "urn:p")) (.bnode 1), mkTriple (.bnode 2) (.named (py! "urn:p")) (.bnode 1)] := by
  decide

/-! ### C124 -/

/-- The steps of a call between its preparation and its cleanup. -/
def Plain (code : List Instr) : Prop := ∀ i ∈ code, i ≠ .prepare ∧ i ≠ .cleanup

/-- A call within a call: the sink, or the stream that gives the lines, parses with the same parser after the outer call has done `a`; `b` is left to do. -/
def nested (a : List Instr) (inner : Call) (b : List Instr) : List Instr := .prepare :: (a ++ (inner.code ++ (b ++ [.cleanup])))

/-- The full statement: a parse within a parse raises nothing that the two would not raise one after the other. -/
def C124_statement : Prop :=
  ∀ (n : Nat) (a b : List Instr) (inner : Call), Plain a → Plain b →
    ∀ k, (((Sys.start n fun _ => nested a inner b).run (List.replicate k 0)).threads 0).exc = none

theorem plain_stmtCode (r : RStmt) : Plain (stmtCode r) := by
  have ht : ∀ t : RTerm, Plain (termCode t) := by
    intro t i hi
    cases t <;> simp [termCode] at hi
    subst hi; simp
  intro i hi
  unfold stmtCode at hi
  simp only [List.mem_append, List.mem_singleton] at hi
  rcases hi with (((h | h) | h) | h) | h
  · exact ht _ i h
  · exact ht _ i h
  · exact ht _ i h
  · cases hg : r.g with
    | none => rw [hg] at h; cases h
    | some g => rw [hg] at h; exact ht g i h
  · subst h; simp

theorem plain_linesCode (q : Bool) (before : List PStr) (lines : List PStr) : Plain (linesCode q before lines) := by
  induction lines with
  | nil => intro i hi; cases hi
  | cons line lines ih =>
    intro i hi
    simp only [linesCode] at hi
    split at hi
    · exact ih i hi
    · split at hi
      · obtain ⟨l, _, rfl⟩ := List.mem_map.1 hi; simp
      · cases hi
      · rcases List.mem_append.1 hi with hi | hi
        · obtain ⟨r, _, hr⟩ := List.mem_flatMap.1 hi
          exact plain_stmtCode r i hr
        · rcases List.mem_cons.1 hi with rfl | hi
          · simp
          · exact ih i hi

theorem call_shape (c : Call) : ∃ body, Plain body ∧ c.code = .prepare :: (body ++ [.cleanup]) := by
  cases c with
  | string q text before =>
    refine ⟨_, ?_, rfl⟩
    intro i hi
    split at hi
    · obtain ⟨l, _, rfl⟩ := List.mem_map.1 hi; simp
    · rcases List.mem_append.1 hi with hi | hi
      · obtain ⟨r, _, hr⟩ := List.mem_flatMap.1 hi
        exact plain_stmtCode r i hr
      · rw [List.mem_singleton] at hi; subst hi; simp
  | stream q content before => exact ⟨_, plain_linesCode q before _, rfl⟩

/-- Within a call nothing raises. -/
theorem to_plain {a : List Instr} (ha : Plain a) (rest : List Instr) (n : Nat) (m : Dict PStr Nat) (regs : List Nat) (buf out : List Stmt) :
    ∃ n' m' regs' buf' out', To (n, some m, { code := a ++ rest, regs, buf, out }) (n', some m', { code := rest, regs := regs', buf := buf', out := out' }) := by
  induction a generalizing n m regs buf out with
  | nil => exact ⟨n, m, regs, buf, out, To.refl _⟩
  | cons i a ih =>
    have ha' : Plain a := fun j hj => ha j (List.mem_cons_of_mem _ hj)
    cases i with
    | prepare => exact absurd rfl (ha _ List.mem_cons_self).1
    | cleanup => exact absurd rfl (ha _ List.mem_cons_self).2
    | label l =>
      obtain ⟨n', m', r', b', o', h⟩ := ih ha' (BState.node ⟨m, n⟩ l).1.next (BState.node ⟨m, n⟩ l).1.map (regs ++ [(BState.node ⟨m, n⟩ l).2]) buf out
      exact ⟨n', m', r', b', o', (To.one rfl).trans h⟩
    | emit r =>
      obtain ⟨n', m', r', b', o', h⟩ := ih ha' n m (takeStmt regs r).1 (buf ++ [(takeStmt regs r).2]) out
      exact ⟨n', m', r', b', o', (To.one rfl).trans h⟩
    | hand all =>
      obtain ⟨n', m', r', b', o', h⟩ := ih ha' n m regs [] (out ++ (if all then buf else buf.take 1))
      exact ⟨n', m', r', b', o', (To.one rfl).trans h⟩

/-- Once the attribute is gone, what is left of a call ends in AttributeError, at the next label or else when it cleans up. -/
theorem to_error {b : List Instr} (hb : Plain b) (rest : List Instr) (n : Nat) (regs : List Nat) (buf out : List Stmt) :
    ∃ x : One, To (n, none, { code := b ++ .cleanup :: rest, regs, buf, out }) x ∧ x.2.2.exc = some .attributeError := by
  induction b generalizing regs buf out with
  | nil => exact ⟨_, To.one rfl, rfl⟩
  | cons i b ih =>
    have hb' : Plain b := fun j hj => hb j (List.mem_cons_of_mem _ hj)
    cases i with
    | prepare => exact absurd rfl (hb _ List.mem_cons_self).1
    | cleanup => exact absurd rfl (hb _ List.mem_cons_self).2
    | label l => exact ⟨_, To.one rfl, rfl⟩
    | emit r =>
      obtain ⟨x, h, e⟩ := ih hb' (takeStmt regs r).1 (buf ++ [(takeStmt regs r).2]) out
      exact ⟨x, (To.one rfl).trans h, e⟩
    | hand all =>
      obtain ⟨x, h, e⟩ := ih hb' regs [] (out ++ (if all then buf else buf.take 1))
      exact ⟨x, (To.one rfl).trans h, e⟩

theorem exc_of_to {n : Nat} {code : List Instr} {x : One} (h : To (n, none, { code }) x) (hx : x.2.2.exc = some .attributeError) :
    ∃ k0, ∀ k, k0 ≤ k → (((Sys.start n fun _ => code).run (List.replicate k 0)).threads 0).exc = some .attributeError := by
  obtain ⟨k0, rfl⟩ := h
  refine ⟨k0, fun k hk => ?_⟩
  rw [(run_replicate n (fun _ => code) 0 k).2.2, alone_eq]
  obtain ⟨c, rfl⟩ := Nat.exists_eq_add_of_le hk
  rw [Nat.add_comm, Function.iterate_add_apply, (stable_of_exc (by rw [hx]; simp)).iterate, hx]

/-- C124 is false of the code, and this is what happens instead: whatever the two calls read, the outer call always ends in AttributeError, for the inner call has
    deleted the table of labels of both. -/
theorem C124_exact (n : Nat) {a b : List Instr} (inner : Call) (ha : Plain a) (hb : Plain b) :
    ∃ k0, ∀ k, k0 ≤ k → (((Sys.start n fun _ => nested a inner b).run (List.replicate k 0)).threads 0).exc = some .attributeError := by
  obtain ⟨body, hp, hc⟩ := call_shape inner
  obtain ⟨n1, m1, r1, b1, o1, h1⟩ := to_plain ha (inner.code ++ (b ++ [.cleanup])) n [] [] [] []
  obtain ⟨n2, m2, r2, b2, o2, h2⟩ := to_plain hp (.cleanup :: (b ++ [.cleanup])) n1 [] r1 b1 o1
  obtain ⟨x, h3, e⟩ := to_error hb [] n2 [] [] o2
  refine exc_of_to (x := x) ((To.one rfl).trans (h1.trans ?_)) e
  rw [hc]
  simp only [List.cons_append, List.append_assoc, List.nil_append]
  exact (To.one rfl).trans (h2.trans ((To.one rfl).trans h3))

theorem C124_refuted : ¬ C124_statement := by
  intro h
  obtain ⟨k0, hk⟩ := C124_exact 0 (a := []) (b := []) (.string false [] []) (by intro i hi; cases hi) (by intro i hi; cases hi)
  have := hk k0 (Nat.le_refl _)
  rw [h 0 [] [] _ (by intro i hi; cases hi) (by intro i hi; cases hi)] at this
  cases this

/-- A sink that, given the statements of a string, reads another document: both have been handed over in full when the outer call raises. -/
theorem C124_string_partial (n : Nat) (q : Bool) {text : PStr} {rs : List RStmt} (h : pDoc q text = .ok rs) (inner : Call) :
    ∃ k0 n', ∀ k, k0 ≤ k →
      let t := ((Sys.start n fun _ => nested (rs.flatMap stmtCode ++ [.hand true]) inner []).run (List.replicate k 0)).threads 0
      t.exc = some .attributeError ∧ t.out = (Call.string q text []).result n ++ inner.result n' := by
  have hs := to_stmts rs [] n ([.hand true] ++ (inner.code ++ ([] ++ [.cleanup]))) [] []
  have hr : (Call.string q text []).result n = (BState.stmts ⟨[], n⟩ rs).2 := by
    simp only [Call.result, parseString, h, foldl_collect, List.nil_append]
  obtain ⟨n', _, _, hi⟩ := to_call inner (BState.stmts ⟨[], n⟩ rs).1.next (some (BState.stmts ⟨[], n⟩ rs).1.map) [.cleanup] (BState.stmts ⟨[], n⟩ rs).2
  have hto : To (n, none, { code := nested (rs.flatMap stmtCode ++ [.hand true]) inner [] })
      (n', none, { code := [.cleanup], out := (BState.stmts ⟨[], n⟩ rs).2 ++ inner.result (BState.stmts ⟨[], n⟩ rs).1.next, exc := some .attributeError }) := by
    unfold nested
    refine (To.one rfl).trans ?_
    rw [List.append_assoc]
    refine hs.trans ((To.one rfl).trans (hi.trans (To.one rfl)))
  obtain ⟨k0, hk0⟩ := hto
  refine ⟨k0, (BState.stmts ⟨[], n⟩ rs).1.next, fun k hk => ?_⟩
  dsimp only
  rw [(run_replicate n (fun _ => nested (rs.flatMap stmtCode ++ [Instr.hand true]) inner []) 0 k).2.2, alone_eq]
  obtain ⟨c, rfl⟩ := Nat.exists_eq_add_of_le hk
  rw [Nat.add_comm, Function.iterate_add_apply, hk0, (stable_of_exc (by simp)).iterate, hr]
  exact ⟨rfl, rfl⟩

/-- A document read while another one is handed over. -/
example :
    let doc := py! "_:a <urn:p> _:a ."
    let t := ((Sys.start 0 fun _ => nested ([Instr.label (py! "a"), .label (py! "a"), .emit ⟨.label (py! "a"), .iri (py! "urn:p"), .label (py! "a"), none⟩, .hand true])
      (.string false doc []) []).run (List.replicate 20 0)).threads 0
    t.exc = some .attributeError ∧ t.out = [mkTriple (.bnode 0) (.named (py! "urn:p")) (.bnode 0), mkTriple (.bnode 1) (.named (py! "urn:p")) (.bnode 1)] := by
  decide

end Verif.Par
