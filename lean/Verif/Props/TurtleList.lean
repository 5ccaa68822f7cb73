import Verif.Spec.TurtleReads
import Verif.Props.TurtleTriples
import Verif.Props.TurtleEnv
import Verif.Props.ResList
/-
C64: Turtle collections read back as lists.
-/
namespace Verif.Turtle
open Spec

/-- The subject is a blank node from `n` to `m`. -/
def InRange (n m : Nat) (t : Stmt) : Prop := ∃ b, t.s = .bnode b ∧ n ≤ b ∧ b < m

theorem InRange.mono {n m n' m' : Nat} {t : Stmt} (h : InRange n m t) (h1 : n' ≤ n) (h2 : m ≤ m') : InRange n' m' t := by
  obtain ⟨b, e, h3, h4⟩ := h; exact ⟨b, e, by omega, by omega⟩

theorem genObj_le (o : TObj) (n : Nat) : n ≤ (genObj n o).1 := by obtain ⟨_, _, _, _, _, _, h⟩ := genObj_den o n; exact h.le
theorem genColl_le (o : TColl) (n : Nat) : n ≤ (genColl n o).1 := by obtain ⟨_, _, _, _, _, _, h⟩ := genColl_den o n; exact h.le
theorem genPol_le (s : Term) (o : TPol) (n : Nat) : n ≤ (genPol s n o).1 := by obtain ⟨_, _, _, _, _, _, h⟩ := genPol_den s o n; exact h.le
theorem genObjs_le (s v : Term) (o : TObjs) (n : Nat) : n ≤ (genObjs s v n o).1 := by obtain ⟨_, _, _, _, _, _, h⟩ := genObjs_den s v o n; exact h.le
theorem genStmt_le (s : EStmt) (n : Nat) : n ≤ (genStmt n s).1 := by obtain ⟨_, _, _, _, _, _, h⟩ := genStmt_den s n; exact h.le

theorem genMany_subj (s v : Term) : ∀ (os : TObjs) (n : Nat), ∀ t ∈ (genMany s v n os).2, t.s = s
  | .one o, n, t, h => by rw [genMany, List.mem_singleton] at h; rw [h]; rfl
  | .cons o os, n, t, h => by
    rw [genMany] at h
    rcases List.mem_cons.1 h with h | h
    · rw [h]; rfl
    · exact genMany_subj s v os _ t h

mutual
theorem genObj_subj : ∀ (o : TObj) (n : Nat), ∀ t ∈ (genObj n o).2.1, InRange n (genObj n o).1 t
  | .leaf _, n, t, h => by cases h
  | .coll c, n, t, h => genColl_subj c n t h
  | .bnpl p, n, t, h => by
    have h : t ∈ (genPol (.bnode n) (n + 1) p).2 := h
    show InRange n (genPol (.bnode n) (n + 1) p).1 t
    have hle := genPol_le (.bnode n) p (n + 1)
    rcases genPol_subj (.bnode n) p (n + 1) t h with h | h
    · exact ⟨n, h, Nat.le_refl _, by omega⟩
    · exact h.mono (by omega) (Nat.le_refl _)
theorem genColl_subj : ∀ (c : TColl) (n : Nat), ∀ t ∈ (genColl n c).2.1, InRange n (genColl n c).1 t
  | .nil, n, t, h => by cases h
  | .cons o c, n, t, h => by
    have h : t ∈ (genColl n c).2.1 ++ (genObj ((genColl n c).1 + 1) o).2.1 ++ [_, _] := h
    show InRange n (genObj ((genColl n c).1 + 1) o).1 t
    have h1 := genColl_le c n
    have h2 := genObj_le o ((genColl n c).1 + 1)
    rcases List.mem_append.1 h with h | h
    · rcases List.mem_append.1 h with h | h
      · exact (genColl_subj c n t h).mono (Nat.le_refl _) (by omega)
      · exact (genObj_subj o _ t h).mono (by omega) (Nat.le_refl _)
    · have : t.s = .bnode (genColl n c).1 := by
        rcases List.mem_cons.1 h with h | h
        · rw [h]; rfl
        · rw [List.mem_singleton] at h; rw [h]; rfl
      exact ⟨_, this, h1, by omega⟩
theorem genPol_subj (s : Term) : ∀ (p : TPol) (n : Nat), ∀ t ∈ (genPol s n p).2, t.s = s ∨ InRange n (genPol s n p).1 t
  | .last v os k, n, t, h => genObjs_subj s v os n t h
  | .cons v os k p, n, t, h => by
    have h : t ∈ (genObjs s v n os).2 ++ (genPol s (genObjs s v n os).1 p).2 := h
    show t.s = s ∨ InRange n (genPol s (genObjs s v n os).1 p).1 t
    have h1 := genObjs_le s v os n
    have h2 := genPol_le s p (genObjs s v n os).1
    rcases List.mem_append.1 h with h | h
    · exact (genObjs_subj s v os n t h).imp_right (·.mono (Nat.le_refl _) h2)
    · exact (genPol_subj s p _ t h).imp_right (·.mono h1 (Nat.le_refl _))
theorem genObjs_subj (s v : Term) : ∀ (os : TObjs) (n : Nat), ∀ t ∈ (genObjs s v n os).2, t.s = s ∨ InRange n (genObjs s v n os).1 t
  | .one o, n, t, h => by
    have h : t ∈ (genObj n o).2.1 ++ [_] := h
    rcases List.mem_append.1 h with h | h
    · exact .inr (genObj_subj o n t h)
    · rw [List.mem_singleton] at h; rw [h]; exact .inl rfl
  | .cons o os, n, t, h => .inl (genMany_subj s v _ n t h)
end

/-- The rdf:first and rdf:rest triples about the nodes from `n` to `m` are those of `ts`. -/
def Own (T : List Stmt) (n m : Nat) (ts : List Stmt) : Prop :=
  ∀ t, InRange n m t → t.p = rdfFirst ∨ t.p = rdfRest → (t ∈ T ↔ t ∈ ts)

theorem Own.sub {T ts ts' : List Stmt} {n m n' m' : Nat} (h : Own T n m ts) (h1 : n ≤ n') (h2 : m' ≤ m)
    (h3 : ∀ t ∈ ts', t ∈ ts) (h4 : ∀ t ∈ ts, InRange n' m' t → t.p = rdfFirst ∨ t.p = rdfRest → t ∈ ts') : Own T n' m' ts' :=
  fun t ht hp => (h t (ht.mono h1 h2) hp).trans ⟨fun x => h4 t x ht hp, h3 t⟩

theorem InRange.disj {n m n' m' : Nat} {t : Stmt} (h : InRange n m t) (h' : InRange n' m' t) (hd : m ≤ n' ∨ m' ≤ n) : False := by
  obtain ⟨b, e, h1, h2⟩ := h
  obtain ⟨b', e', h1', h2'⟩ := h'
  rw [e] at e'
  cases e'
  omega

theorem InRange.ne {n m b : Nat} {t : Stmt} (h : InRange n m t) (e : t.s = .bnode b) (hd : b < n ∨ m ≤ b) : False := by
  obtain ⟨b', e', h1', h2'⟩ := h
  rw [e] at e'
  cases e'
  omega

theorem genMany_reads (T : List Stmt) (s v : Term) : ∀ (os : TObjs) (n : Nat), os.allLeaf = true → (∀ t ∈ (genMany s v n os).2, t ∈ T) → ObjsReads T s v os
  | .one (.leaf t), n, _, h => ⟨t, h _ (by simp [genMany, childTerm]), rfl⟩
  | .one (.coll _), n, hp, h => by cases hp
  | .one (.bnpl _), n, hp, h => by cases hp
  | .cons (.leaf t) os, n, hp, h =>
    ⟨⟨t, h _ (by simp [genMany, childTerm]), rfl⟩, genMany_reads T s v os n hp fun t ht => h t (by simp only [genMany, childTerm]; simp [ht])⟩
  | .cons (.coll _) os, n, hp, h => by cases hp
  | .cons (.bnpl _) os, n, hp, h => by cases hp

theorem mkTriple_inj' {a b c a' b' c' : Term} : mkTriple a b c = mkTriple a' b' c' ↔ a = a' ∧ b = b' ∧ c = c' := by
  simp [mkTriple]

mutual
theorem genObj_reads (T : List Stmt) : ∀ (o : TObj) (n : Nat), o.plain = true → (∀ t ∈ (genObj n o).2.1, t ∈ T) →
    Own T n (genObj n o).1 (genObj n o).2.1 → ObjReads T o (genObj n o).2.2
  | .leaf _, n, _, _, _ => rfl
  | .coll c, n, hp, h, ho => genColl_reads T c n hp h ho
  | .bnpl p, n, hp, h, ho => by
    refine ⟨⟨n, rfl⟩, ?_⟩
    show PolReads T (.bnode n) p
    refine genPol_reads T (.bnode n) p (n + 1) hp h (ho.sub (by omega) (Nat.le_refl _) (fun _ x => x) fun _ x _ _ => x) ?_
    intro t e hr
    exact hr.ne e (.inl (by omega))
theorem genColl_reads (T : List Stmt) : ∀ (c : TColl) (n : Nat), c.plain = true → (∀ t ∈ (genColl n c).2.1, t ∈ T) →
    Own T n (genColl n c).1 (genColl n c).2.1 → CollReads T c (genColl n c).2.2
  | .nil, n, _, _, _ => rfl
  | .cons o c, n, hp, h, ho => by
    have hp : (o.plain && c.plain) = true := hp
    rw [Bool.and_eq_true] at hp
    have l1 := genColl_le c n
    have l2 := genObj_le o ((genColl n c).1 + 1)
    have e : (genColl n (.cons o c)).2.1 = (genColl n c).2.1 ++ (genObj ((genColl n c).1 + 1) o).2.1 ++
      [mkTriple (.bnode (genColl n c).1) rdfFirst (genObj ((genColl n c).1 + 1) o).2.2, mkTriple (.bnode (genColl n c).1) rdfRest (genColl n c).2.2] := rfl
    have e1 : (genColl n (.cons o c)).1 = (genObj ((genColl n c).1 + 1) o).1 := rfl
    rw [e] at h
    rw [e, e1] at ho
    have s1 := genColl_subj c n
    have s2 := genObj_subj o ((genColl n c).1 + 1)
    have hfr : rdfFirst ≠ rdfRest := by decide
    have key : ∀ q y, q = rdfFirst ∨ q = rdfRest → (mkTriple (.bnode (genColl n c).1) q y ∈ T ↔
        (q = rdfFirst ∧ y = (genObj ((genColl n c).1 + 1) o).2.2) ∨ (q = rdfRest ∧ y = (genColl n c).2.2)) := by
      intro q y hq
      rw [ho _ ⟨_, rfl, l1, by omega⟩ hq]
      simp only [List.mem_append, List.mem_cons, List.not_mem_nil, or_false, mkTriple_inj']
      constructor
      · rintro ((h | h) | h | h)
        · exact ((s1 _ h).ne rfl (.inr (Nat.le_refl _))).elim
        · exact ((s2 _ h).ne rfl (.inl (by omega))).elim
        · exact .inl h.2
        · exact .inr h.2
      · rintro (h | h)
        · exact .inr (.inl ⟨trivial, h⟩)
        · exact .inr (.inr ⟨trivial, h⟩)
    refine ⟨⟨_, rfl⟩, (genObj ((genColl n c).1 + 1) o).2.2, (genColl n c).2.2, fun y => (key rdfFirst y (.inl rfl)).trans ?_,
      fun y => (key rdfRest y (.inr rfl)).trans ?_, ?_, ?_⟩
    · exact ⟨fun h => h.elim (·.2) fun h => (hfr h.1).elim, fun h => .inl ⟨rfl, h⟩⟩
    · exact ⟨fun h => h.elim (fun h => (hfr h.1.symm).elim) (·.2), fun h => .inr ⟨rfl, h⟩⟩
    · refine genObj_reads T o _ hp.1 (fun t ht => h t (by simp [ht])) (ho.sub (by omega) (Nat.le_refl _) (fun t ht => by simp [ht]) ?_)
      intro t ht hr _
      simp only [List.mem_append, List.mem_cons, List.not_mem_nil, or_false] at ht
      rcases ht with (ht | ht) | ht | ht
      · exact ((s1 _ ht).disj hr (.inl (by omega))).elim
      · exact ht
      · exact (hr.ne (by rw [ht]; rfl) (.inl (by omega))).elim
      · exact (hr.ne (by rw [ht]; rfl) (.inl (by omega))).elim
    · refine genColl_reads T c _ hp.2 (fun t ht => h t (by simp [ht])) (ho.sub (Nat.le_refl _) (by omega) (fun t ht => by simp [ht]) ?_)
      intro t ht hr _
      simp only [List.mem_append, List.mem_cons, List.not_mem_nil, or_false] at ht
      rcases ht with (ht | ht) | ht | ht
      · exact ht
      · exact ((s2 _ ht).disj hr (.inr (by omega))).elim
      · exact (hr.ne (by rw [ht]; rfl) (.inr (Nat.le_refl _))).elim
      · exact (hr.ne (by rw [ht]; rfl) (.inr (Nat.le_refl _))).elim
theorem genPol_reads (T : List Stmt) (s : Term) : ∀ (p : TPol) (n : Nat), p.plain = true → (∀ t ∈ (genPol s n p).2, t ∈ T) →
    Own T n (genPol s n p).1 (genPol s n p).2 → (∀ t : Stmt, t.s = s → ¬ InRange n (genPol s n p).1 t) → PolReads T s p
  | .last v os k, n, hp, h, ho, hs => genObjs_reads T s v os n hp h ho hs
  | .cons v os k p, n, hp, h, ho, hs => by
    have hp : (os.plain && p.plain) = true := hp
    rw [Bool.and_eq_true] at hp
    have e : (genPol s n (.cons v os k p)).2 = (genObjs s v n os).2 ++ (genPol s (genObjs s v n os).1 p).2 := rfl
    have e1 : (genPol s n (.cons v os k p)).1 = (genPol s (genObjs s v n os).1 p).1 := rfl
    rw [e] at h
    rw [e, e1] at ho
    rw [e1] at hs
    have l1 := genObjs_le s v os n
    have l2 := genPol_le s p (genObjs s v n os).1
    refine ⟨genObjs_reads T s v os n hp.1 (fun t ht => h t (by simp [ht])) (ho.sub (Nat.le_refl _) l2 (fun t ht => by simp [ht]) ?_)
      (fun t e hr => hs t e (hr.mono (Nat.le_refl _) l2)),
      genPol_reads T s p _ hp.2 (fun t ht => h t (by simp [ht])) (ho.sub l1 (Nat.le_refl _) (fun t ht => by simp [ht]) ?_)
      (fun t e hr => hs t e (hr.mono l1 (Nat.le_refl _)))⟩
    · intro t ht hr _
      rcases List.mem_append.1 ht with ht | ht
      · exact ht
      · rcases genPol_subj s p _ t ht with h | h
        · exact (hs t h (hr.mono (Nat.le_refl _) l2)).elim
        · exact (h.disj hr (.inr (Nat.le_refl _))).elim
    · intro t ht hr _
      rcases List.mem_append.1 ht with ht | ht
      · rcases genObjs_subj s v os n t ht with h | h
        · exact (hs t h (hr.mono l1 (Nat.le_refl _))).elim
        · exact (h.disj hr (.inl (Nat.le_refl _))).elim
      · exact ht
theorem genObjs_reads (T : List Stmt) (s v : Term) : ∀ (os : TObjs) (n : Nat), os.plain = true → (∀ t ∈ (genObjs s v n os).2, t ∈ T) →
    Own T n (genObjs s v n os).1 (genObjs s v n os).2 → (∀ t : Stmt, t.s = s → ¬ InRange n (genObjs s v n os).1 t) → ObjsReads T s v os
  | .one o, n, hp, h, ho, hs => by
    have e : (genObjs s v n (.one o)).2 = (genObj n o).2.1 ++ [mkTriple s v (genObj n o).2.2] := rfl
    have e1 : (genObjs s v n (.one o)).1 = (genObj n o).1 := rfl
    rw [e] at h
    rw [e, e1] at ho
    rw [e1] at hs
    refine ⟨_, h (mkTriple s v (genObj n o).2.2) (by simp), genObj_reads T o n hp (fun t ht => h t (by simp [ht]))
      (ho.sub (Nat.le_refl _) (Nat.le_refl _) (fun t ht => by simp [ht]) ?_)⟩
    intro t ht hr _
    rcases List.mem_append.1 ht with ht | ht
    · exact ht
    · rw [List.mem_singleton] at ht
      exact (hs t (by rw [ht]; rfl) hr).elim
  | .cons o os, n, hp, h, _, _ => genMany_reads T s v (.cons o os) n hp h
end

/-- The bnodes of a statement's terms are below `n`. -/
def EStmt.Below (n : Nat) (s : EStmt) : Prop := ¬ s.Any fun t => ∃ b, t = .bnode b ∧ n ≤ b

theorem genMany_pred (s v : Term) : ∀ (os : TObjs) (n : Nat), ∀ t ∈ (genMany s v n os).2, t.p = v
  | .one o, n, t, h => by rw [genMany, List.mem_singleton] at h; rw [h]; rfl
  | .cons o os, n, t, h => by
    rw [genMany] at h
    rcases List.mem_cons.1 h with h | h
    · rw [h]; rfl
    · exact genMany_pred s v os _ t h

theorem genObjs_pred (s v : Term) (os : TObjs) (n : Nat) (hs : ∀ t : Stmt, t.s = s → ¬ InRange n (genObjs s v n os).1 t)
    (t : Stmt) (ht : t ∈ (genObjs s v n os).2) (e : t.s = s) : t.p = v := by
  cases os with
  | one o =>
    have ht : t ∈ (genObj n o).2.1 ++ [mkTriple s v (genObj n o).2.2] := ht
    rcases List.mem_append.1 ht with ht | ht
    · exact (hs t e (genObj_subj o n t ht)).elim
    · rw [List.mem_singleton] at ht; rw [ht]; rfl
  | cons o os => exact genMany_pred s v _ n t ht

theorem genPol_pred (s : Term) : ∀ (p : TPol) (n : Nat), (∀ t : Stmt, t.s = s → ¬ InRange n (genPol s n p).1 t) →
    ∀ t ∈ (genPol s n p).2, t.s = s → t.p ∈ p.verbs
  | .last v os k, n, hs, t, ht, e => by
    simp [Pol.verbs, genObjs_pred s v os n hs t ht e]
  | .cons v os k p, n, hs, t, ht, e => by
    have e1 : (genPol s n (.cons v os k p)).1 = (genPol s (genObjs s v n os).1 p).1 := rfl
    rw [e1] at hs
    have l1 := genObjs_le s v os n
    have l2 := genPol_le s p (genObjs s v n os).1
    have ht : t ∈ (genObjs s v n os).2 ++ (genPol s (genObjs s v n os).1 p).2 := ht
    rcases List.mem_append.1 ht with ht | ht
    · simp [Pol.verbs, genObjs_pred s v os n (fun t e hr => hs t e (hr.mono (Nat.le_refl _) l2)) t ht e]
    · have := genPol_pred s p _ (fun t e hr => hs t e (hr.mono l1 (Nat.le_refl _))) t ht e
      simp [Pol.verbs, this]

theorem genColl_head (c : TColl) (n : Nat) :
    (genColl n c).2.2 = rdfNil ∨ ∃ b, (genColl n c).2.2 = .bnode b ∧ n ≤ b ∧ b < (genColl n c).1 := by
  cases c with
  | nil => exact .inl rfl
  | cons o c =>
    have l1 := genColl_le c n
    have l2 := genObj_le o ((genColl n c).1 + 1)
    exact .inr ⟨(genColl n c).1, rfl, l1, by show (genColl n c).1 < (genObj ((genColl n c).1 + 1) o).1; omega⟩

theorem genStmt_subj (s : EStmt) (n0 n : Nat) (hn : n0 ≤ n) (hb : s.Below n0) (t : Stmt) (ht : t ∈ (genStmt n s).2) :
    (∀ m k, n0 ≤ m → ¬ InRange m k t) ∨ InRange n (genStmt n s).1 t := by
  cases s with
  | directive => cases ht
  | node s p =>
    refine (genPol_subj s p n t ht).imp_left fun e m k hm hr => ?_
    obtain ⟨b, eb, h1, _⟩ := hr
    exact hb (.inl ⟨b, e.symm.trans eb, by omega⟩)
  | coll c p =>
    have ht : t ∈ (genColl n c).2.1 ++ (genPol (genColl n c).2.2 (genColl n c).1 p).2 := ht
    show _ ∨ InRange n (genPol (genColl n c).2.2 (genColl n c).1 p).1 t
    have l1 := genColl_le c n
    have l2 := genPol_le (genColl n c).2.2 p (genColl n c).1
    rcases List.mem_append.1 ht with ht | ht
    · exact .inr ((genColl_subj c n t ht).mono (Nat.le_refl _) l2)
    · rcases genPol_subj _ p _ t ht with h | h
      · rcases genColl_head c n with e | ⟨b, e, h1, h2⟩
        · left
          rintro m k _ ⟨b, eb, _⟩
          rw [h, e] at eb
          cases eb
        · exact .inr ⟨b, h.trans e, h1, by omega⟩
      · exact .inr (h.mono l1 (Nat.le_refl _))
  | bnpl s =>
    right
    have ht : t ∈ (genPol (.bnode n) (n + 1) s).2 := ht
    have l := genPol_le (.bnode n) s (n + 1)
    rcases genPol_subj _ s (n + 1) t ht with h | h
    · exact ⟨n, h, Nat.le_refl _, by show n < (genPol (.bnode n) (n + 1) s).1; omega⟩
    · exact h.mono (by omega) (Nat.le_refl _)
  | bnplPol s p =>
    right
    have ht : t ∈ (genPol (.bnode n) (n + 1) s).2 ++ (genPol (.bnode n) (genPol (.bnode n) (n + 1) s).1 p).2 := ht
    have l := genPol_le (.bnode n) s (n + 1)
    have l2 := genPol_le (.bnode n) p (genPol (.bnode n) (n + 1) s).1
    show InRange n (genPol (.bnode n) (genPol (.bnode n) (n + 1) s).1 p).1 t
    have : t.s = .bnode n → InRange n (genPol (.bnode n) (genPol (.bnode n) (n + 1) s).1 p).1 t := fun h => ⟨n, h, Nat.le_refl _, by omega⟩
    rcases List.mem_append.1 ht with ht | ht
    · exact (genPol_subj _ s (n + 1) t ht).elim this (·.mono (by omega) l2)
    · exact (genPol_subj _ p _ t ht).elim this (·.mono (by omega) (Nat.le_refl _))

theorem genStmt_reads (T : List Stmt) (s : EStmt) (n0 n : Nat) (hn : n0 ≤ n) (hb : s.Below n0) (hp : s.plain = true) (hs : s.subjectOk)
    (h : ∀ t ∈ (genStmt n s).2, t ∈ T) (ho : Own T n (genStmt n s).1 (genStmt n s).2) : StmtReads T s := by
  cases s with
  | directive => trivial
  | node s p =>
    refine genPol_reads T s p n hp h ho ?_
    rintro t e ⟨b, eb, h1, _⟩
    exact hb (.inl ⟨b, e.symm.trans eb, by omega⟩)
  | coll c p =>
    have hp : (c.plain && p.plain) = true := hp
    rw [Bool.and_eq_true] at hp
    have l1 := genColl_le c n
    have l2 := genPol_le (genColl n c).2.2 p (genColl n c).1
    have h : ∀ t ∈ (genColl n c).2.1 ++ (genPol (genColl n c).2.2 (genColl n c).1 p).2, t ∈ T := h
    have ho : Own T n (genPol (genColl n c).2.2 (genColl n c).1 p).1 ((genColl n c).2.1 ++ (genPol (genColl n c).2.2 (genColl n c).1 p).2) := ho
    have hout : ∀ t : Stmt, t.s = (genColl n c).2.2 → ¬ InRange (genColl n c).1 (genPol (genColl n c).2.2 (genColl n c).1 p).1 t := by
      intro t e hr
      rcases genColl_head c n with e' | ⟨b, e', h1, h2⟩
      · obtain ⟨b, eb, _⟩ := hr
        rw [e, e'] at eb
        cases eb
      · exact hr.ne (e.trans e') (.inl h2)
    refine ⟨(genColl n c).2.2, genColl_reads T c n hp.1 (fun t ht => h t (by simp [ht])) (ho.sub (Nat.le_refl _) l2 (fun t ht => by simp [ht]) ?_),
      genPol_reads T _ p _ hp.2 (fun t ht => h t (by simp [ht])) (ho.sub l1 (Nat.le_refl _) (fun t ht => by simp [ht]) ?_) hout⟩
    · intro t ht hr hfr
      rcases List.mem_append.1 ht with ht | ht
      · exact ht
      · exfalso
        rcases genPol_subj _ p _ t ht with e | e
        · have hv := hs _ (genPol_pred _ p _ hout t ht e)
          exact hfr.elim hv.1 hv.2
        · exact e.disj hr (.inr (Nat.le_refl _))
    · intro t ht hr _
      rcases List.mem_append.1 ht with ht | ht
      · exact ((genColl_subj c n t ht).disj hr (.inl (Nat.le_refl _))).elim
      · exact ht
  | bnpl s =>
    refine ⟨n, genPol_reads T (.bnode n) s (n + 1) hp h (ho.sub (by omega) (Nat.le_refl _) (fun _ x => x) fun _ x _ _ => x) ?_⟩
    intro t e hr
    exact hr.ne e (.inl (by omega))
  | bnplPol s p =>
    have hp : (s.plain && p.plain) = true := hp
    rw [Bool.and_eq_true] at hp
    have l1 := genPol_le (.bnode n) s (n + 1)
    have l2 := genPol_le (.bnode n) p (genPol (.bnode n) (n + 1) s).1
    have h : ∀ t ∈ (genPol (.bnode n) (n + 1) s).2 ++ (genPol (.bnode n) (genPol (.bnode n) (n + 1) s).1 p).2, t ∈ T := h
    have ho : Own T n (genPol (.bnode n) (genPol (.bnode n) (n + 1) s).1 p).1
      ((genPol (.bnode n) (n + 1) s).2 ++ (genPol (.bnode n) (genPol (.bnode n) (n + 1) s).1 p).2) := ho
    refine ⟨n, genPol_reads T (.bnode n) s (n + 1) hp.1 (fun t ht => h t (by simp [ht])) (ho.sub (by omega) l2 (fun t ht => by simp [ht]) ?_)
        (fun t e hr => hr.ne e (.inl (by omega))),
      genPol_reads T (.bnode n) p _ hp.2 (fun t ht => h t (by simp [ht])) (ho.sub (by omega) (Nat.le_refl _) (fun t ht => by simp [ht]) ?_)
        (fun t e hr => hr.ne e (.inl (by omega)))⟩
    · intro t ht hr _
      rcases List.mem_append.1 ht with ht | ht
      · exact ht
      · rcases genPol_subj _ p _ t ht with e | e
        · exact (hr.ne e (.inl (by omega))).elim
        · exact (e.disj hr (.inr (Nat.le_refl _))).elim
    · intro t ht hr _
      rcases List.mem_append.1 ht with ht | ht
      · rcases genPol_subj _ s _ t ht with e | e
        · exact (hr.ne e (.inl (by omega))).elim
        · exact (e.disj hr (.inl (Nat.le_refl _))).elim
      · exact ht

theorem genStmts_le : ∀ (es : List EStmt) (n : Nat), n ≤ (genStmts n es).1
  | [], n => Nat.le_refl _
  | s :: es, n => Nat.le_trans (genStmt_le s n) (genStmts_le es _)

theorem genStmts_subj (n0 : Nat) : ∀ (es : List EStmt) (n : Nat), n0 ≤ n → (∀ s ∈ es, s.Below n0) → ∀ t ∈ (genStmts n es).2,
    (∀ m k, n0 ≤ m → ¬ InRange m k t) ∨ InRange n (genStmts n es).1 t
  | [], n, _, _, t, ht => by cases ht
  | s :: es, n, hn, hb, t, ht => by
    have ht : t ∈ (genStmt n s).2 ++ (genStmts (genStmt n s).1 es).2 := ht
    have l1 := genStmt_le s n
    have l2 := genStmts_le es (genStmt n s).1
    show _ ∨ InRange n (genStmts (genStmt n s).1 es).1 t
    rcases List.mem_append.1 ht with ht | ht
    · exact (genStmt_subj s n0 n hn (hb s (by simp)) t ht).imp_right (·.mono (Nat.le_refl _) l2)
    · exact (genStmts_subj n0 es _ (by omega) (fun x hx => hb x (by simp [hx])) t ht).imp_right (·.mono l1 (Nat.le_refl _))

theorem genStmts_reads (T : List Stmt) (n0 : Nat) : ∀ (es : List EStmt) (n : Nat), n0 ≤ n → (∀ s ∈ es, s.Below n0) →
    (∀ s ∈ es, s.plain = true) → (∀ s ∈ es, s.subjectOk) → (∀ t ∈ (genStmts n es).2, t ∈ T) →
    Own T n (genStmts n es).1 (genStmts n es).2 → ∀ s ∈ es, StmtReads T s
  | [], n, _, _, _, _, _, _, s, hs => by cases hs
  | s :: es, n, hn, hb, hp, hk, h, ho, x, hx => by
    have l1 := genStmt_le s n
    have l2 := genStmts_le es (genStmt n s).1
    have h : ∀ t ∈ (genStmt n s).2 ++ (genStmts (genStmt n s).1 es).2, t ∈ T := h
    have ho : Own T n (genStmts (genStmt n s).1 es).1 ((genStmt n s).2 ++ (genStmts (genStmt n s).1 es).2) := ho
    rcases List.mem_cons.1 hx with rfl | hx
    · refine genStmt_reads T x n0 n hn (hb x (by simp)) (hp x (by simp)) (hk x (by simp)) (fun t ht => h t (by simp [ht]))
        (ho.sub (Nat.le_refl _) l2 (fun t ht => by simp [ht]) ?_)
      intro t ht hr _
      rcases List.mem_append.1 ht with ht | ht
      · exact ht
      · rcases genStmts_subj n0 es _ (by omega) (fun x hx => hb x (by simp [hx])) t ht with e | e
        · exact (e _ _ hn hr).elim
        · exact (e.disj hr (.inr (Nat.le_refl _))).elim
    · refine genStmts_reads T n0 es _ (by omega) (fun x hx => hb x (by simp [hx])) (fun x hx => hp x (by simp [hx]))
        (fun x hx => hk x (by simp [hx])) (fun t ht => h t (by simp [ht])) (ho.sub l1 (Nat.le_refl _) (fun t ht => by simp [ht]) ?_) x hx
      intro t ht hr _
      rcases List.mem_append.1 ht with ht | ht
      · rcases genStmt_subj s n0 n hn (hb s (by simp)) t ht with e | e
        · exact (e _ _ (by omega) hr).elim
        · exact (e.disj hr (.inl (Nat.le_refl _))).elim
      · exact ht

/-! ### The nodes of an evaluated document -/

/-- The term is a blank node not below `m`. -/
def High (m : Nat) (t : Term) : Prop := ∃ b, t = .bnode b ∧ m ≤ b

section
variable {nl : PStr → Bool} {E : Env} {m : Nat} (hl : ∀ l k, E.label l = some k → k < m)
include hl

theorem nodeIn_low {x : NodeTok} {t : Term} {an : List Nat} (h : NodeIn nl E x t an) (ha : ∀ a ∈ an, a < m) : ¬ High m t := by
  rintro ⟨b, rfl, hb⟩
  cases h with
  | label h => exact absurd (hl _ _ h) (by omega)
  | anon => exact absurd (ha b (by simp)) (by omega)

omit hl in
theorem verbIn_low {x : VerbTok} {t : Term} (h : VerbIn nl E x t) : ¬ High m t := by
  rintro ⟨b, rfl, hb⟩
  cases h

theorem leafIn_low {x : LeafTok} {t : Term} {an : List Nat} (h : LeafIn nl E x t an) (ha : ∀ a ∈ an, a < m) : ¬ High m t := by
  cases h with
  | node h => exact nodeIn_low hl h ha
  | _ => rintro ⟨b, e, hb⟩; cases e

mutual
theorem objIn_low : ∀ (x : PObj) {x' : TObj} {an : List Nat}, ObjIn nl E x x' an → (∀ a ∈ an, a < m) → ¬ x'.Any (High m)
  | .leaf _, _, _, .leaf h, ha => leafIn_low hl h ha
  | .coll c, _, _, .coll h, ha => collIn_low c h ha
  | .bnpl p, _, _, .bnpl h, ha => polIn_low p h ha
theorem objsIn_low : ∀ (x : PObjs) {x' : TObjs} {an : List Nat}, ObjsIn nl E x x' an → (∀ a ∈ an, a < m) → ¬ x'.Any (High m)
  | .one o, _, _, .one h, ha => objIn_low o h ha
  | .cons o os, _, _, .cons h h', ha => fun hx =>
    hx.elim (objIn_low o h fun a x => ha a (by simp [x])) (objsIn_low os h' fun a x => ha a (by simp [x]))
theorem collIn_low : ∀ (x : PColl) {x' : TColl} {an : List Nat}, CollIn nl E x x' an → (∀ a ∈ an, a < m) → ¬ x'.Any (High m)
  | .nil, _, _, .nil, ha => fun hx => hx
  | .cons o os, _, _, .cons h h', ha => fun hx =>
    hx.elim (objIn_low o h fun a x => ha a (by simp [x])) (collIn_low os h' fun a x => ha a (by simp [x]))
theorem polIn_low : ∀ (x : PPol) {x' : TPol} {an : List Nat}, PolIn nl E x x' an → (∀ a ∈ an, a < m) → ¬ x'.Any (High m)
  | .last v os k, _, _, .last hv h, ha => fun hx => hx.elim (verbIn_low hv) (objsIn_low os h ha)
  | .cons v os k p, _, _, .cons hv h h', ha => fun hx => hx.elim (verbIn_low hv) fun hx =>
    hx.elim (objsIn_low os h fun a x => ha a (by simp [x])) (polIn_low p h' fun a x => ha a (by simp [x]))
end

theorem stmtIn_below {x : PTStmt} {e : EStmt} {an : List Nat} (h : StmtIn nl E x e an) (ha : ∀ a ∈ an, a < m) : e.Below m := by
  cases h with
  | pre => exact fun hx => hx
  | base => exact fun hx => hx
  | node h h' => exact fun hx => hx.elim (nodeIn_low hl h fun a x => ha a (by simp [x])) (polIn_low hl _ h' fun a x => ha a (by simp [x]))
  | coll h h' => exact fun hx => hx.elim (collIn_low hl _ h fun a x => ha a (by simp [x])) (polIn_low hl _ h' fun a x => ha a (by simp [x]))
  | bnpl h => exact polIn_low hl _ h ha
  | bnplPol h h' => exact fun hx => hx.elim (polIn_low hl _ h fun a x => ha a (by simp [x])) (polIn_low hl _ h' fun a x => ha a (by simp [x]))

end

theorem docIn_below {nl : PStr → Bool} {b0 : PStr} {p0 : PStr → Option PStr} {label : PStr → Option Nat} {m : Nat}
    (hl : ∀ l k, label l = some k → k < m) {pre ds : List PTStmt} {es : List EStmt} {an : List Nat}
    (h : DocIn nl b0 p0 label pre ds es an) : (∀ a ∈ an, a < m) → ∀ e ∈ es, e.Below m := by
  induction h with
  | nil => simp
  | cons hb hs hd ih =>
    intro ha e he
    rcases List.mem_cons.1 he with rfl | he
    · exact stmtIn_below (E := ⟨_, _, label⟩) hl hs fun a x => ha a (by simp [x])
    · exact ih (fun a x => ha a (by simp [x])) e he

/-! ### Every generated statement is a triple -/

theorem genMany_tri (s v : Term) : ∀ (os : TObjs) (n : Nat), ∀ t ∈ (genMany s v n os).2, t.g = none
  | .one o, n, t, h => by rw [genMany, List.mem_singleton] at h; rw [h]; rfl
  | .cons o os, n, t, h => by
    rw [genMany] at h
    rcases List.mem_cons.1 h with h | h
    · rw [h]; rfl
    · exact genMany_tri s v os _ t h

mutual
theorem genObj_tri : ∀ (o : TObj) (n : Nat), ∀ t ∈ (genObj n o).2.1, t.g = none
  | .leaf _, n, t, h => by cases h
  | .coll c, n, t, h => genColl_tri c n t h
  | .bnpl p, n, t, h => genPol_tri (.bnode n) p (n + 1) t h
theorem genColl_tri : ∀ (c : TColl) (n : Nat), ∀ t ∈ (genColl n c).2.1, t.g = none
  | .nil, n, t, h => by cases h
  | .cons o c, n, t, h => by
    have h : t ∈ (genColl n c).2.1 ++ (genObj ((genColl n c).1 + 1) o).2.1 ++ [_, _] := h
    rcases List.mem_append.1 h with h | h
    · rcases List.mem_append.1 h with h | h
      · exact genColl_tri c n t h
      · exact genObj_tri o _ t h
    · rcases List.mem_cons.1 h with h | h
      · rw [h]; rfl
      · rw [List.mem_singleton] at h; rw [h]; rfl
theorem genPol_tri (s : Term) : ∀ (p : TPol) (n : Nat), ∀ t ∈ (genPol s n p).2, t.g = none
  | .last v os k, n, t, h => genObjs_tri s v os n t h
  | .cons v os k p, n, t, h => by
    have h : t ∈ (genObjs s v n os).2 ++ (genPol s (genObjs s v n os).1 p).2 := h
    exact (List.mem_append.1 h).elim (genObjs_tri s v os n t) (genPol_tri s p _ t)
theorem genObjs_tri (s v : Term) : ∀ (os : TObjs) (n : Nat), ∀ t ∈ (genObjs s v n os).2, t.g = none
  | .one o, n, t, h => by
    have h : t ∈ (genObj n o).2.1 ++ [_] := h
    rcases List.mem_append.1 h with h | h
    · exact genObj_tri o n t h
    · rw [List.mem_singleton] at h; rw [h]; rfl
  | .cons o os, n, t, h => genMany_tri s v _ n t h
end

theorem genStmts_tri : ∀ (es : List EStmt) (n : Nat), ∀ t ∈ (genStmts n es).2, t.g = none
  | [], n, t, h => by cases h
  | s :: es, n, t, h => by
    have h : t ∈ (genStmt n s).2 ++ (genStmts (genStmt n s).1 es).2 := h
    rcases List.mem_append.1 h with h | h
    · cases s with
      | directive => cases h
      | node s p => exact genPol_tri _ _ _ t h
      | coll c p =>
        have h : t ∈ (genColl n c).2.1 ++ (genPol (genColl n c).2.2 (genColl n c).1 p).2 := h
        exact (List.mem_append.1 h).elim (genColl_tri _ _ t) (genPol_tri _ _ _ t)
      | bnpl p => exact genPol_tri _ _ _ t h
      | bnplPol s p =>
        have h : t ∈ (genPol (.bnode n) (n + 1) s).2 ++ (genPol (.bnode n) (genPol (.bnode n) (n + 1) s).1 p).2 := h
        exact (List.mem_append.1 h).elim (genPol_tri _ _ _ t) (genPol_tri _ _ _ t)
    · exact genStmts_tri es _ t h

theorem _root_.Verif.Graph.Reach.addAll {g : Graph} (h : g.Reach) : ∀ {ts : List Stmt}, (∀ t ∈ ts, t.g = none) → (g.addAll ts).Reach := by
  intro ts hts
  unfold Graph.addAll
  induction ts generalizing g with
  | nil => exact h
  | cons t ts ih =>
    refine ih (g := g.add t) ?_ fun x hx => hts x (by simp [hx])
    have : t = mkTriple t.s t.p t.o := by
      have := hts t (by simp)
      cases t; simp only at this; subst this; rfl
    rw [this]
    exact h.add _ _ _

/-! ### C64 -/

/-- The elements of a collection, as the graph has them. -/
inductive Elems (T : List Stmt) : TColl → List Term → Prop
  | nil : Elems T .nil []
  | cons {o c v vs} : ObjReads T o v → Elems T c vs → Elems T (.cons o c) (v :: vs)

/-- Every statement of a document reads back from the graph: collections are chains of cells with one rdf:first and one rdf:rest each, to any depth; the
    graph may have held other triples before. Missing: object lists that contain collections next to other objects (C63), and subjects that
    are collections with further rdf:first or rdf:rest properties. -/
theorem C64_partial {nl : PStr → Bool} {ds : List PTStmt} {base : PStr} {next : Nat} {st' : TState} {es : List EStmt}
    (h : evalStmts nl (TState.start base next) ds = .ok (st', es)) (hp : ∀ s ∈ es, s.plain = true) (hs : ∀ s ∈ es, s.subjectOk)
    {g : Graph} (hg : ∀ t ∈ g.triples, ∀ b, t.s = .bnode b → b < next) :
    ∀ s ∈ es, StmtReads (g.addAll (genStmts st'.bn.next es).2).triples s := by
  obtain ⟨label, an, hd, _, _, _, hr⟩ := C65_scope ds base next h
  have hle : next ≤ st'.bn.next := by
    obtain ⟨_, _, _, h3, _⟩ := evalStmts_in ds [] (At.start base next) (BState.OK.init next) h
    exact h3.ext.1
  refine genStmts_reads _ st'.bn.next es st'.bn.next (Nat.le_refl _)
    (docIn_below (fun l k hl => (hr k (.inr ⟨l, hl⟩)).2) hd fun a ha => (hr a (.inl ha)).2) hp hs
    (fun t ht => (Graph.mem_addAll _ _ _).2 (.inl ht)) ?_
  intro t ht _
  rw [Graph.mem_addAll]
  refine ⟨fun x => x.resolve_right fun x => ?_, .inl⟩
  obtain ⟨b, e, h1, _⟩ := ht
  have := hg t x b e
  omega

/-- A collection as it reads back is an RDF list of its elements, in order. -/
theorem C64_is_list {T : List Stmt} : ∀ (c : TColl) {x : Term}, CollReads T c x →
    ∃ vs, Elems T c vs ∧ IsRdfList T (.named (Heap.rdfNs ++ py! "first")) (.named (Heap.rdfNs ++ py! "rest")) (.named (Heap.rdfNs ++ py! "nil")) x vs
  | .nil, x, h => ⟨[], .nil, by obtain rfl : x = _ := h; exact .nil⟩
  | .cons o c, x, h => by
    obtain ⟨⟨b, rfl⟩, v, hd, h1, h2, h3, h4⟩ := h
    obtain ⟨vs, hv, hl⟩ := C64_is_list c h4
    exact ⟨v :: vs, .cons h3 hv, .cons (.inr ⟨b, rfl⟩) rfl (fun e => by cases e) h1 h2 hl⟩

theorem Elems.leaves {T : List Stmt} : ∀ {c : TColl} {vs : List Term}, Elems T c vs → ∀ {us}, c.leaves? = some us → vs = us
  | _, _, .nil, us, h => by cases h; rfl
  | .cons (.leaf t) c, _, .cons ho h, us, hu => by
    rw [Coll.leaves?] at hu
    cases hc : c.leaves? with
    | none => rw [hc] at hu; cases hu
    | some ws => rw [hc] at hu; cases hu; rw [h.leaves hc, show _ = t from ho]
  | .cons (.coll _) c, _, .cons ho h, us, hu => by cases hu
  | .cons (.bnpl _) c, _, .cons ho h, us, hu => by cases hu

/-- Iteration with List over a collection, once parsed, yields its elements (unless a class is registered for a type, see C58). -/
theorem C64_iterate {o : Orders} (ho : o.OK) {w : World} (wr : w.Reach) {g : Graph} (hg : g.Reach) {k : Nat} (hk : k < w.classes.length)
    (hL : ListClass w k (Heap.rdfNs ++ py! "first") (Heap.rdfNs ++ py! "rest") (Heap.rdfNs ++ py! "nil")) (hb : w.byType = [])
    {c : TColl} {head : Term} (h : CollReads g.triples c head) (hr : ∀ vs, Elems g.triples c vs → ∀ e ∈ vs, Readable (w.lang k) e) :
    ∃ es vs, Elems g.triples c es ∧ (listTake o g k (es.length + 1) w (.test ⟨k, head⟩)).2 = (vs, some (.ok ())) ∧ vs.map Val.term = es := by
  obtain ⟨es, h1, h2⟩ := C64_is_list c h
  obtain ⟨vs, h3, h4⟩ := C58_list_no_classes ho wr hg hk hL hb h2 (hr es h1)
  exact ⟨es, vs, h1, h3, h4⟩

/-- The full claim, for the simplest documents: `<s> <p> ( … ) .` with terms in the collection. -/
def C64_statement : Prop := ∀ (s v : Term) (c : TColl) (us : List Term) (n : Nat) (g : Graph), c.leaves? = some us → (∀ t ∈ us, ¬ High n t) → g.Reach →
  (∀ t ∈ g.triples, ∀ b, t.s = .bnode b → b < n) →
  ∃ head vs, mkTriple s v head ∈ (g.addAll (genStmts n [.node s (.last v (.one (.coll c)) 0)]).2).triples ∧
    (listTake {} (g.addAll (genStmts n [.node s (.last v (.one (.coll c)) 0)]).2) 1 (us.length + 1) World.new (.test ⟨1, head⟩)).2 = (vs, some (.ok ())) ∧
    vs.map Val.term = us

/-- `<s> <p> ("x"@fr) .` reads back as a list of None, because the class List has the language "en" (see C58). -/
theorem C64_refuted : ¬ C64_statement := by
  intro h
  obtain ⟨head, vs, h1, h2, h3⟩ := h (.named (py! "s")) (.named (py! "p")) (.cons (.leaf (.lit (py! "x") (some (py! "fr")) none)) .nil)
    [.lit (py! "x") (some (py! "fr")) none] 0 (Graph.new .none) rfl (by intro t ht; rw [List.mem_singleton] at ht; subst ht; rintro ⟨b, e, _⟩; cases e) (.new _) (by simp [Graph.new])
  have hh : head = .bnode 0 := by
    revert h1
    rw [Graph.mem_addAll]
    intro h1
    have h1 : mkTriple (.named (py! "s")) (.named (py! "p")) head ∈ [mkTriple (.bnode 0) rdfFirst (.lit (py! "x") (some (py! "fr")) none),
      mkTriple (.bnode 0) rdfRest rdfNil, mkTriple (.named (py! "s")) (.named (py! "p")) (.bnode 0)] := by
      rcases h1 with h1 | h1
      · exact h1
      · cases h1
    simpa [mkTriple] using h1
  subst hh
  have h4 : (listTake {} ((Graph.new .none).addAll (genStmts 0 [.node (.named (py! "s")) (.last (.named (py! "p"))
      (.one (.coll (.cons (.leaf (.lit (py! "x") (some (py! "fr")) none)) .nil))) 0)]).2) 1 2 World.new (.test ⟨1, .bnode 0⟩)).2 = ([.none], some (.ok ())) := by
    decide
  rw [List.length_singleton, h4] at h2
  cases h2
  cases h3

/-- Non-vacuity: `_:s <p> (_:s (<o>)) .`, parsed into a graph that holds a triple already. -/
example : ∃ st' es, evalStmts (fun _ => true) (TState.start [] 5) [.node (.label (py! "_:s")) (.last (.iri (.ref (py! "p")))
      (.one (.coll (.cons (.leaf (.node (.label (py! "_:s")))) (.cons (.coll (.cons (.leaf (.node (.iri (.ref (py! "o"))))) .nil)) .nil)))) 0)] = .ok (st', es) ∧
    (∀ s ∈ es, s.plain = true) ∧ (∀ s ∈ es, s.subjectOk) ∧
    ∃ x, CollReads (((Graph.new .none).add (mkTriple (.bnode 4) rdfFirst rdfNil)).addAll (genStmts st'.bn.next es).2).triples
      (.cons (.leaf (.bnode 5)) (.cons (.coll (.cons (.leaf (.named (py! "o"))) .nil)) .nil)) x := by
  refine ⟨_, _, rfl, by decide, ?_, ?_⟩
  · intro s hs
    rw [List.mem_singleton] at hs
    subst hs
    trivial
  · obtain ⟨t, _, h⟩ := C64_partial (nl := fun _ => true) (ds := [.node (.label (py! "_:s")) (.last (.iri (.ref (py! "p")))
      (.one (.coll (.cons (.leaf (.node (.label (py! "_:s")))) (.cons (.coll (.cons (.leaf (.node (.iri (.ref (py! "o"))))) .nil)) .nil)))) 0)])
      (base := []) (next := 5) (g := (Graph.new .none).add (mkTriple (.bnode 4) rdfFirst rdfNil)) rfl (by decide)
      (by intro s hs; rw [List.mem_singleton] at hs; subst hs; trivial)
      (by
        intro t ht b e
        rw [Graph.mem_add] at ht
        rcases ht with ht | ht
        · subst ht; cases e; decide
        · cases ht) _ (List.mem_singleton.2 rfl)
    exact ⟨t, h⟩

end Verif.Turtle
