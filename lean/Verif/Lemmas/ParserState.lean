import Verif.Model.ParserState
import Verif.Spec.NTriples
import Mathlib.Data.List.Induction

/-!
Interleaved runs of the shared parser against runs of one thread alone: the threads' components are related by renamings of blank nodes that grow with the
run.
-/

namespace Verif.Par

/-! ### Renaming -/

def mapVals (ρ : Nat → Nat) (m : Dict PStr Nat) : Dict PStr Nat := m.map fun e => (e.1, ρ e.2)

theorem get?_mapVals (ρ : Nat → Nat) (m : Dict PStr Nat) (l : PStr) : (mapVals ρ m).get? l = (m.get? l).map ρ := by
  induction m with
  | nil => rfl
  | cons e m ih =>
    obtain ⟨k, v⟩ := e
    simp only [mapVals, List.map_cons, Dict.get?] at ih ⊢
    split
    · rfl
    · exact ih

theorem set_mapVals (ρ : Nat → Nat) (m : Dict PStr Nat) (l : PStr) (v : Nat) : (mapVals ρ m).set l (ρ v) = mapVals ρ (m.set l v) := by
  induction m with
  | nil => rfl
  | cons e m ih =>
    obtain ⟨k, x⟩ := e
    simp only [mapVals, List.map_cons, Dict.set] at ih ⊢
    split
    · rfl
    · rw [ih]; rfl

theorem mem_set {m : Dict PStr Nat} {l : PStr} {v : Nat} {e : PStr × Nat} (h : e ∈ m.set l v) : e ∈ m ∨ e.2 = v := by
  induction m with
  | nil => simp only [Dict.set, List.mem_singleton] at h; exact .inr (by rw [h])
  | cons x m ih =>
    obtain ⟨k, y⟩ := x
    simp only [Dict.set] at h
    split at h
    · rcases List.mem_cons.1 h with h | h
      · exact .inr (by rw [h])
      · exact .inl (List.mem_cons_of_mem _ h)
    · rcases List.mem_cons.1 h with h | h
      · exact .inl (by rw [h]; exact List.mem_cons_self)
      · rcases ih h with h | h
        · exact .inl (List.mem_cons_of_mem _ h)
        · exact .inr h

/-- The blank node occurs in the term. -/
def Uses (t : Term) (i : Nat) : Prop := t = .bnode i

/-- The blank node occurs in the statement, also as its graph. -/
def UsesS (t : Stmt) (i : Nat) : Prop := t.s = .bnode i ∨ t.p = .bnode i ∨ t.o = .bnode i ∨ t.g = some (.bnode i)

theorem rename_congr {ρ ρ' : Nat → Nat} {t : Term} (h : ∀ i, t = .bnode i → ρ i = ρ' i) : t.rename ρ = t.rename ρ' := by
  cases t <;> simp only [Term.rename]
  rw [h _ rfl]

theorem renameS_congr {ρ ρ' : Nat → Nat} {t : Stmt} (h : ∀ i, UsesS t i → ρ i = ρ' i) : t.rename ρ = t.rename ρ' := by
  unfold Stmt.rename
  rw [rename_congr fun i hi => h i (.inl hi), rename_congr fun i hi => h i (.inr (.inl hi)),
    rename_congr fun i hi => h i (.inr (.inr (.inl hi)))]
  cases hg : t.g with
  | none => rfl
  | some g => simp only [Option.map_some]; rw [rename_congr fun i hi => h i (.inr (.inr (.inr (by rw [hg, hi]))))]

def Thread.ren (ρ : Nat → Nat) (th : Thread) : Thread :=
  { th with regs := th.regs.map ρ, buf := th.buf.map (·.rename ρ), out := th.out.map (·.rename ρ) }

/-- All blank nodes in the thread and its table were created since `n0`. -/
structure In (n0 n : Nat) (attr : Option (Dict PStr Nat)) (th : Thread) : Prop where
  le : n0 ≤ n
  attr : ∀ m, attr = some m → ∀ e ∈ m, n0 ≤ e.2 ∧ e.2 < n
  regs : ∀ i ∈ th.regs, n0 ≤ i ∧ i < n
  buf : ∀ t ∈ th.buf, ∀ i, UsesS t i → n0 ≤ i ∧ i < n
  out : ∀ t ∈ th.out, ∀ i, UsesS t i → n0 ≤ i ∧ i < n

theorem In.mono {n0 n n' : Nat} {attr} {th : Thread} (h : In n0 n attr th) (hn : n ≤ n') : In n0 n' attr th :=
  ⟨Nat.le_trans h.le hn, fun m hm e he => ⟨(h.attr m hm e he).1, Nat.lt_of_lt_of_le (h.attr m hm e he).2 hn⟩,
   fun i hi => ⟨(h.regs i hi).1, Nat.lt_of_lt_of_le (h.regs i hi).2 hn⟩,
   fun t ht i hi => ⟨(h.buf t ht i hi).1, Nat.lt_of_lt_of_le (h.buf t ht i hi).2 hn⟩,
   fun t ht i hi => ⟨(h.out t ht i hi).1, Nat.lt_of_lt_of_le (h.out t ht i hi).2 hn⟩⟩

theorem mapVals_congr {ρ ρ' : Nat → Nat} {m : Dict PStr Nat} (h : ∀ e ∈ m, ρ e.2 = ρ' e.2) : mapVals ρ m = mapVals ρ' m := by
  unfold mapVals
  exact List.map_congr_left fun e he => by rw [h e he]

theorem ren_congr {n0 n : Nat} {attr} {th : Thread} (h : In n0 n attr th) {ρ ρ' : Nat → Nat} (hr : ∀ i, n0 ≤ i → i < n → ρ i = ρ' i) :
    th.ren ρ = th.ren ρ' ∧ attr.map (mapVals ρ) = attr.map (mapVals ρ') := by
  have a : th.regs.map ρ = th.regs.map ρ' := List.map_congr_left fun i hi => hr i (h.regs i hi).1 (h.regs i hi).2
  have b : th.buf.map (·.rename ρ) = th.buf.map (·.rename ρ') :=
    List.map_congr_left fun t ht => renameS_congr fun i hi => hr i (h.buf t ht i hi).1 (h.buf t ht i hi).2
  have c : th.out.map (·.rename ρ) = th.out.map (·.rename ρ') :=
    List.map_congr_left fun t ht => renameS_congr fun i hi => hr i (h.out t ht i hi).1 (h.out t ht i hi).2
  refine ⟨by simp only [Thread.ren, a, b, c], ?_⟩
  cases attr with
  | none => rfl
  | some m =>
    simp only [Option.map_some]
    rw [mapVals_congr fun e he => hr _ (h.attr m rfl e he).1 (h.attr m rfl e he).2]

/-! ### The callbacks -/

theorem takeTerm_ren (ρ : Nat → Nat) (ns : List Nat) (r : RTerm) :
    takeTerm (ns.map ρ) r = ((takeTerm ns r).1.map ρ, (takeTerm ns r).2.rename ρ) := by
  cases r with
  | iri i => rfl
  | lit v l d => rfl
  | label l => cases ns <;> rfl

theorem takeTerm_uses {ns : List Nat} {r : RTerm} :
    (∀ i ∈ (takeTerm ns r).1, i ∈ ns) ∧ ∀ i, (takeTerm ns r).2 = .bnode i → i ∈ ns := by
  cases r with
  | iri i => exact ⟨fun _ h => h, fun _ h => by cases h⟩
  | lit v l d => exact ⟨fun _ h => h, fun _ h => by cases h⟩
  | label l =>
    cases ns with
    | nil => exact ⟨fun _ h => h, fun _ h => by cases h⟩
    | cons n ns => exact ⟨fun _ h => List.mem_cons_of_mem _ h, fun i h => by cases h; exact List.mem_cons_self⟩

theorem takeStmt_ren (ρ : Nat → Nat) (ns : List Nat) (r : RStmt) :
    takeStmt (ns.map ρ) r = ((takeStmt ns r).1.map ρ, (takeStmt ns r).2.rename ρ) := by
  unfold takeStmt
  simp only [takeTerm_ren]
  cases r.g with
  | none => rfl
  | some g => rfl

theorem takeStmt_uses {ns : List Nat} {r : RStmt} :
    (∀ i ∈ (takeStmt ns r).1, i ∈ ns) ∧ ∀ i, UsesS (takeStmt ns r).2 i → i ∈ ns := by
  unfold takeStmt
  obtain ⟨a1, a2⟩ := takeTerm_uses (ns := ns) (r := r.s)
  obtain ⟨b1, b2⟩ := takeTerm_uses (ns := (takeTerm ns r.s).1) (r := r.p)
  obtain ⟨c1, c2⟩ := takeTerm_uses (ns := (takeTerm (takeTerm ns r.s).1 r.p).1) (r := r.o)
  cases hg : r.g with
  | none =>
    refine ⟨fun i hi => a1 i (b1 i (c1 i hi)), fun i hi => ?_⟩
    rcases hi with h | h | h | h
    · exact a2 i h
    · exact a1 i (b2 i h)
    · exact a1 i (b1 i (c2 i h))
    · cases h
  | some g =>
    obtain ⟨d1, d2⟩ := takeTerm_uses (ns := (takeTerm (takeTerm (takeTerm ns r.s).1 r.p).1 r.o).1) (r := g)
    refine ⟨fun i hi => a1 i (b1 i (c1 i (d1 i hi))), fun i hi => ?_⟩
    rcases hi with h | h | h | h
    · exact a2 i h
    · exact a1 i (b2 i h)
    · exact a1 i (b1 i (c2 i h))
    · exact a1 i (b1 i (c1 i (d2 i (by simpa [mkQuad] using h))))

/-- A step of a thread, and the same step of the thread under a renaming, with another allocator. -/
theorem step_ren {n0 n n' : Nat} {attr : Option (Dict PStr Nat)} {th : Thread} (h : In n0 n attr th) (ρ : Nat → Nat) :
    let ρ' := fun i => if i = n then n' else ρ i
    let x := th.step n attr
    let y := (th.ren ρ).step n' (attr.map (mapVals ρ))
    y.2.1 = x.2.1.map (mapVals ρ') ∧ y.2.2 = x.2.2.ren ρ' ∧ In n0 x.1 x.2.1 x.2.2 ∧
      ((x.1 = n ∧ y.1 = n') ∨ (x.1 = n + 1 ∧ y.1 = n' + 1)) := by
  intro ρ' x y
  have hag : ∀ i, n0 ≤ i → i < n → ρ i = ρ' i := fun i _ hi => by simp only [ρ']; rw [if_neg (by omega)]
  obtain ⟨hc1, hc2⟩ := ren_congr h hag
  have stay : x = (n, attr, th) → y = (n', attr.map (mapVals ρ), th.ren ρ) → y.2.1 = x.2.1.map (mapVals ρ') ∧ y.2.2 = x.2.2.ren ρ' ∧
      In n0 x.1 x.2.1 x.2.2 ∧ ((x.1 = n ∧ y.1 = n') ∨ (x.1 = n + 1 ∧ y.1 = n' + 1)) := by
    intro hx hy
    rw [hx, hy]
    exact ⟨hc2, hc1, h, .inl ⟨rfl, rfl⟩⟩
  have raise : x = (n, attr, { th with exc := some .attributeError }) → y = (n', attr.map (mapVals ρ), { th.ren ρ with exc := some .attributeError }) →
      y.2.1 = x.2.1.map (mapVals ρ') ∧ y.2.2 = x.2.2.ren ρ' ∧
      In n0 x.1 x.2.1 x.2.2 ∧ ((x.1 = n ∧ y.1 = n') ∨ (x.1 = n + 1 ∧ y.1 = n' + 1)) := by
    intro hx hy
    rw [hx, hy, hc1]
    exact ⟨hc2, rfl, ⟨h.le, h.attr, h.regs, h.buf, h.out⟩, .inl ⟨rfl, rfl⟩⟩
  have hexc : (th.ren ρ).exc = th.exc := rfl
  have hcode : (th.ren ρ).code = th.code := rfl
  cases he : th.exc with
  | some e => exact stay (by simp only [x, Thread.step, he]) (by simp only [y, Thread.step, hexc, he])
  | none =>
    cases hcd : th.code with
    | nil => exact stay (by simp only [x, Thread.step, he, hcd]) (by simp only [y, Thread.step, hexc, hcode, he, hcd])
    | cons i code =>
      cases i with
      | prepare =>
        have hx : x = (n, some [], { th with code }) := by simp only [x, Thread.step, he, hcd]
        have hy : y = (n', some [], { th.ren ρ with code }) := by simp only [y, Thread.step, hexc, hcode, he, hcd]
        rw [hx, hy, hc1]
        exact ⟨rfl, rfl, ⟨h.le, fun m hm => by cases hm; simp, h.regs, h.buf, h.out⟩, .inl ⟨rfl, rfl⟩⟩
      | cleanup =>
        cases ha : attr with
        | none =>
          subst ha
          exact raise (by simp only [x, Thread.step, he, hcd]) (by simp only [y, Thread.step, hexc, hcode, he, hcd, Option.map_none])
        | some m =>
          have hx : x = (n, none, { th with code, regs := [], buf := [] }) := by simp only [x, Thread.step, he, hcd, ha]
          have hy : y = (n', none, { th.ren ρ with code, regs := [], buf := [] }) := by simp only [y, Thread.step, hexc, hcode, he, hcd, ha, Option.map_some]
          rw [hx, hy, hc1]
          exact ⟨rfl, rfl, ⟨h.le, (fun _ hm => by cases hm), (fun _ hm => by cases hm), (fun _ hm => by cases hm), h.out⟩, .inl ⟨rfl, rfl⟩⟩
      | emit r =>
        have hx : x = (n, attr, { th with code, regs := (takeStmt th.regs r).1, buf := th.buf ++ [(takeStmt th.regs r).2] }) := by
          simp only [x, Thread.step, he, hcd]
        have hy : y = (n', attr.map (mapVals ρ), { th.ren ρ' with code, regs := (takeStmt (th.regs.map ρ') r).1, buf := th.buf.map (·.rename ρ') ++ [(takeStmt (th.regs.map ρ') r).2] }) := by
          simp only [y, hc1]
          simp only [Thread.step, show (th.ren ρ').exc = th.exc from rfl, show (th.ren ρ').code = th.code from rfl, he, hcd, Thread.ren]
        rw [hx, hy]
        obtain ⟨u1, u2⟩ := takeStmt_uses (ns := th.regs) (r := r)
        refine ⟨hc2, ?_, ⟨h.le, h.attr, fun i hi => h.regs i (u1 i hi), fun t ht i hi => ?_, h.out⟩, .inl ⟨rfl, rfl⟩⟩
        · simp only [takeStmt_ren, Thread.ren, List.map_append, List.map_cons, List.map_nil]
        · rcases List.mem_append.1 ht with ht | ht
          · exact h.buf t ht i hi
          · rw [List.mem_singleton] at ht; subst ht; exact h.regs i (u2 i hi)
      | hand all =>
        have hx : x = (n, attr, { th with code, buf := [], out := th.out ++ (if all then th.buf else th.buf.take 1) }) := by
          simp only [x, Thread.step, he, hcd]
        have hy : y = (n', attr.map (mapVals ρ), { th.ren ρ' with code, buf := [], out := th.out.map (·.rename ρ') ++ (if all then th.buf.map (·.rename ρ') else (th.buf.map (·.rename ρ')).take 1) }) := by
          simp only [y, hc1]
          simp only [Thread.step, show (th.ren ρ').exc = th.exc from rfl, show (th.ren ρ').code = th.code from rfl, he, hcd, Thread.ren]
        rw [hx, hy]
        refine ⟨hc2, ?_, ⟨h.le, h.attr, h.regs, (fun t ht => by cases ht), fun t ht i hi => ?_⟩, .inl ⟨rfl, rfl⟩⟩
        · simp only [Thread.ren, List.map_append, List.map_nil]
          congr 2
          cases all
          · simp [List.map_take]
          · simp
        · rcases List.mem_append.1 ht with ht | ht
          · exact h.out t ht i hi
          · refine h.buf t ?_ i hi
            cases all
            · exact List.mem_of_mem_take (by simpa using ht)
            · simpa using ht
      | label l =>
        cases ha : attr with
        | none =>
          subst ha
          exact raise (by simp only [x, Thread.step, he, hcd]) (by simp only [y, Thread.step, hexc, hcode, he, hcd, Option.map_none])
        | some m =>
          have hx : x = ((BState.node ⟨m, n⟩ l).1.next, some (BState.node ⟨m, n⟩ l).1.map, { th with code, regs := th.regs ++ [(BState.node ⟨m, n⟩ l).2] }) := by
            simp only [x, Thread.step, he, hcd, ha]
          have hm : mapVals ρ m = mapVals ρ' m := by
            have := hc2
            rw [ha] at this
            simpa using this
          have hy : y = ((BState.node ⟨mapVals ρ' m, n'⟩ l).1.next, some (BState.node ⟨mapVals ρ' m, n'⟩ l).1.map,
              { th.ren ρ' with code, regs := th.regs.map ρ' ++ [(BState.node ⟨mapVals ρ' m, n'⟩ l).2] }) := by
            simp only [y, hc1, ha, Option.map_some, hm]
            simp only [Thread.step, show (th.ren ρ').exc = th.exc from rfl, show (th.ren ρ').code = th.code from rfl, he, hcd, Thread.ren]
          rw [hx, hy]
          cases hg : m.get? l with
          | some i =>
            have n1 : BState.node ⟨m, n⟩ l = (⟨m, n⟩, i) := by simp only [BState.node, hg]
            have n2 : BState.node ⟨mapVals ρ' m, n'⟩ l = (⟨mapVals ρ' m, n'⟩, ρ' i) := by
              simp only [BState.node, get?_mapVals, hg, Option.map_some]
            rw [n1, n2]
            have hi := h.attr m ha _ (Dict.mem_of_get? hg)
            refine ⟨rfl, ?_, ⟨h.le, ?_, fun j hj => ?_, h.buf, h.out⟩, .inl ⟨rfl, rfl⟩⟩
            · simp only [Thread.ren, List.map_append, List.map_cons, List.map_nil]
            · intro m' hm'; cases hm'; exact h.attr m ha
            · rcases List.mem_append.1 hj with hj | hj
              · exact h.regs j hj
              · rw [List.mem_singleton] at hj; subst hj; exact hi
          | none =>
            have hn : ρ' n = n' := by simp [ρ']
            have n1 : BState.node ⟨m, n⟩ l = (⟨m.set l n, n + 1⟩, n) := by simp only [BState.node, hg]
            have n2 : BState.node ⟨mapVals ρ' m, n'⟩ l = (⟨mapVals ρ' (m.set l n), n' + 1⟩, ρ' n) := by
              simp only [BState.node, get?_mapVals, hg, Option.map_none]
              rw [← set_mapVals, hn]
            rw [n1, n2]
            have h' := h.mono (Nat.le_succ n)
            refine ⟨rfl, ?_, ⟨h'.le, ?_, fun j hj => ?_, h'.buf, h'.out⟩, .inr ⟨rfl, rfl⟩⟩
            · simp only [Thread.ren, List.map_append, List.map_cons, List.map_nil]
            · intro m' hm'
              simp only [Option.some.injEq] at hm'
              subst hm'
              intro e hme
              rcases mem_set hme with hme | hme
              · exact h'.attr m ha e hme
              · rw [hme]; exact ⟨h.le, Nat.lt_succ_self n⟩
            · rcases List.mem_append.1 hj with hj | hj
              · exact h'.regs j hj
              · rw [List.mem_singleton] at hj; subst hj; exact ⟨h.le, Nat.lt_succ_self _⟩

/-! ### Systems -/

/-- One thread by itself, `k` steps. -/
def alone (n0 : Nat) (code : List Instr) : Nat → Nat × Option (Dict PStr Nat) × Thread
  | 0 => (n0, none, { code })
  | k + 1 => (alone n0 code k).2.2.step (alone n0 code k).1 (alone n0 code k).2.1

theorem step_threads (s : Sys) (t u : Nat) (h : u ≠ t) : (s.step t).threads u = s.threads u ∧ (s.step t).attrs u = s.attrs u := by
  simp only [Sys.step, put, localKey, if_neg h, and_self]

theorem step_self (s : Sys) (t : Nat) : (s.step t).threads t = ((s.threads t).step s.next (s.attrs t)).2.2 ∧
    (s.step t).attrs t = ((s.threads t).step s.next (s.attrs t)).2.1 ∧ (s.step t).next = ((s.threads t).step s.next (s.attrs t)).1 := by
  simp only [Sys.step, put, localKey, if_true, and_self]

/-- The component of thread `t` after a run by itself. -/
theorem run_replicate (n0 : Nat) (code : Nat → List Instr) (t k : Nat) :
    let s := (Sys.start n0 code).run (List.replicate k t)
    s.next = (alone n0 (code t) k).1 ∧ s.attrs t = (alone n0 (code t) k).2.1 ∧ s.threads t = (alone n0 (code t) k).2.2 := by
  induction k with
  | zero => exact ⟨rfl, rfl, rfl⟩
  | succ k ih =>
    obtain ⟨i1, i2, i3⟩ := ih
    have hr : (Sys.start n0 code).run (List.replicate (k + 1) t) = ((Sys.start n0 code).run (List.replicate k t)).step t := by
      rw [List.replicate_succ']
      simp only [Sys.run, List.foldl_append, List.foldl_cons, List.foldl_nil]
    rw [hr]
    obtain ⟨s1, s2, s3⟩ := step_self ((Sys.start n0 code).run (List.replicate k t)) t
    simp only [s1, s2, s3, i1, i2, i3, alone, and_self]

/-- Every thread of the system is the thread by itself under a renaming; the renamings have no value in common. -/
structure Rel (n0 : Nat) (solo : Nat → Nat × Option (Dict PStr Nat) × Thread) (ρ : Nat → Nat → Nat) (s : Sys) : Prop where
  inn : ∀ t, In n0 (solo t).1 (solo t).2.1 (solo t).2.2
  attr : ∀ t, s.attrs t = (solo t).2.1.map (mapVals (ρ t))
  thread : ∀ t, s.threads t = (solo t).2.2.ren (ρ t)
  fresh : ∀ t i, n0 ≤ i → i < (solo t).1 → n0 ≤ ρ t i ∧ ρ t i < s.next
  inj : ∀ t u i j, n0 ≤ i → i < (solo t).1 → n0 ≤ j → j < (solo u).1 → ρ t i = ρ u j → t = u ∧ i = j
  le : n0 ≤ s.next

theorem run_rel (n0 : Nat) (code : Nat → List Instr) (sched : List Nat) :
    ∃ ρ, Rel n0 (fun t => alone n0 (code t) (sched.count t)) ρ ((Sys.start n0 code).run sched) := by
  induction sched using List.reverseRecOn with
  | nil =>
    refine ⟨fun _ i => i, ⟨fun t => ⟨Nat.le_refl _, (fun _ h => by cases h), (fun _ h => by cases h), (fun _ h => by cases h), (fun _ h => by cases h)⟩,
      fun t => rfl, fun t => rfl, fun t i h1 h2 => ?_, fun t u i j h1 h2 => ?_, Nat.le_refl _⟩⟩
    · simp only [List.count_nil, alone] at h2; omega
    · simp only [List.count_nil, alone] at h2; omega
  | append_singleton sched t ih =>
    obtain ⟨ρ, h⟩ := ih
    generalize hs : (Sys.start n0 code).run sched = s at h
    have hr : (Sys.start n0 code).run (sched ++ [t]) = s.step t := by
      rw [← hs]; simp only [Sys.run, List.foldl_append, List.foldl_cons, List.foldl_nil]
    rw [hr]
    have hct : (sched ++ [t]).count t = sched.count t + 1 := by simp
    have hcu : ∀ u, u ≠ t → (sched ++ [t]).count u = sched.count u := fun u hu => by
      rw [List.count_append, List.count_singleton]; simp [hu.symm]
    obtain ⟨a, b, c, d⟩ := step_ren (n' := s.next) (h.inn t) (ρ t)
    obtain ⟨s1, s2, s3⟩ := step_self s t
    rw [h.thread t, h.attr t] at s1 s2 s3
    rw [a] at s2
    rw [b] at s1
    have hsolo : ∀ u, u ≠ t → alone n0 (code u) ((sched ++ [t]).count u) = alone n0 (code u) (sched.count u) := fun u hu => by rw [hcu u hu]
    have hsolot : alone n0 (code t) ((sched ++ [t]).count t) =
        (alone n0 (code t) (sched.count t)).2.2.step (alone n0 (code t) (sched.count t)).1 (alone n0 (code t) (sched.count t)).2.1 := by rw [hct]; rfl
    have hnext : s.next ≤ (s.step t).next := by rw [s3]; rcases d with d | d <;> omega
    -- what the new renaming of `t` gives
    have hval : ∀ i, n0 ≤ i → i < (alone n0 (code t) ((sched ++ [t]).count t)).1 →
        (i < (alone n0 (code t) (sched.count t)).1 ∧ (if i = (alone n0 (code t) (sched.count t)).1 then s.next else ρ t i) = ρ t i) ∨
        (i = (alone n0 (code t) (sched.count t)).1 ∧ (if i = (alone n0 (code t) (sched.count t)).1 then s.next else ρ t i) = s.next ∧
          (s.step t).next = s.next + 1) := by
      intro i h1 h2
      rw [hsolot] at h2
      rcases d with d | d
      · left
        rw [d.1] at h2
        exact ⟨h2, if_neg (by omega)⟩
      · rw [d.1] at h2
        by_cases hi : i = (alone n0 (code t) (sched.count t)).1
        · right
          exact ⟨hi, if_pos hi, by rw [s3, d.2]⟩
        · left
          exact ⟨by omega, if_neg hi⟩
    refine ⟨put ρ t (fun i => if i = (alone n0 (code t) (sched.count t)).1 then s.next else ρ t i), ⟨fun u => ?_, fun u => ?_, fun u => ?_, fun u i h1 h2 => ?_,
      fun u v i j h1 h2 h3 h4 he => ?_, Nat.le_trans h.le hnext⟩⟩
    · by_cases hu : u = t
      · subst hu; simp only [hsolot]; exact c
      · simp only [hsolo u hu]; exact h.inn u
    · by_cases hu : u = t
      · subst hu; simp only [hsolot, put, if_true]; exact s2
      · simp only [hsolo u hu, put, if_neg hu]; rw [(step_threads s t u hu).2]; exact h.attr u
    · by_cases hu : u = t
      · subst hu; simp only [hsolot, put, if_true]; exact s1
      · simp only [hsolo u hu, put, if_neg hu]; rw [(step_threads s t u hu).1]; exact h.thread u
    · by_cases hu : u = t
      · subst hu
        simp only [put, if_true]
        rcases hval i h1 h2 with ⟨x, y⟩ | ⟨x, y, z⟩
        · rw [y]; have := h.fresh u i h1 x; omega
        · rw [y, z]; have := h.le; omega
      · simp only [put, if_neg hu]
        simp only [hsolo u hu] at h2
        have := h.fresh u i h1 h2
        omega
    · by_cases hu : u = t <;> by_cases hv : v = t
      · subst hu; subst hv
        simp only [put, if_true] at he
        refine ⟨rfl, ?_⟩
        rcases hval i h1 h2 with ⟨x, y⟩ | ⟨x, y, z⟩ <;> rcases hval j h3 h4 with ⟨x', y'⟩ | ⟨x', y', z'⟩
        · rw [y, y'] at he; exact (h.inj _ _ i j h1 x h3 x' he).2
        · rw [y, y'] at he; have := h.fresh _ i h1 x; omega
        · rw [y, y'] at he; have := h.fresh _ j h3 x'; omega
        · rw [x, x']
      · subst hu
        simp only [put, if_true, if_neg hv] at he
        simp only [hsolo v hv] at h4
        rcases hval i h1 h2 with ⟨x, y⟩ | ⟨x, y, z⟩
        · rw [y] at he; exact h.inj _ _ i j h1 x h3 h4 he
        · rw [y] at he; have := h.fresh v j h3 h4; omega
      · subst hv
        simp only [put, if_true, if_neg hu] at he
        simp only [hsolo u hu] at h2
        rcases hval j h3 h4 with ⟨x, y⟩ | ⟨x, y, z⟩
        · rw [y] at he; exact h.inj _ _ i j h1 h2 h3 x he
        · rw [y] at he; have := h.fresh u i h1 h2; omega
      · simp only [put, if_neg hu, if_neg hv] at he
        simp only [hsolo u hu] at h2
        simp only [hsolo v hv] at h4
        exact h.inj u v i j h1 h2 h3 h4 he

end Verif.Par
