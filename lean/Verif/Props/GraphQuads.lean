import Verif.Props.Graph
/-
C10 for all histories: a Graph that holds statements of any kind (quads included), with additions and removals.
-/
namespace Verif
open Spec Graph

/-- What can be told from outside: the statements of the graph, and for each three terms the statement that lookups by terms find. -/
structure QSpec where
  set : List Stmt
  look : Term → Term → Term → Option Stmt

/-- One more statement. -/
def QSpec.add (q : Stmt) (m : QSpec) : QSpec :=
  ⟨if q ∈ m.set then m.set else m.set ++ [q], fun a b c => if q.s = a ∧ q.p = b ∧ q.o = c then some q else m.look a b c⟩

/-- One statement less: lookups forget everything under its three terms. If they found nothing there, KeyError, but the statement is gone. -/
def QSpec.remove (q : Stmt) (m : QSpec) : QSpec × Except Exc Unit :=
  if q ∈ m.set then
    (⟨m.set.erase q, fun a b c => if q.s = a ∧ q.p = b ∧ q.o = c then none else m.look a b c⟩,
      if (m.look q.s q.p q.o).isSome then .ok () else .error .keyError)
  else (m, .error .keyError)

/-- Operations with statements of any kind. -/
inductive QOp
  | add (q : Stmt)
  | rem (q : Stmt)

/-- The graph after a history; a failed removal is caught. -/
def Graph.runQ (u : Term) (ops : List QOp) : Graph :=
  ops.foldl (fun g op => match op with | .add q => g.add q | .rem q => (g.remove q).1) (Graph.new u)

/-- The same history on the specification. -/
def QSpec.run (ops : List QOp) : QSpec :=
  ops.foldl (fun m op => match op with | .add q => m.add q | .rem q => (m.remove q).1) ⟨[], fun _ _ _ => none⟩

/-- The graph's indexes are what the specification says. -/
structure QRep (g : Graph) (m : QSpec) : Prop where
  set : g.triples = m.set
  nodup : m.set.Nodup
  wspo : g.spo.WF
  wpos : g.pos.WF
  wosp : g.osp.WF
  spo : ∀ a b c, g.spo.find a b c = m.look a b c
  pos : ∀ a b c, g.pos.find b c a = m.look a b c
  osp : ∀ a b c, g.osp.find c a b = m.look a b c
  sound : ∀ a b c t, m.look a b c = some t → t ∈ m.set ∧ t.s = a ∧ t.p = b ∧ t.o = c

theorem QRep.new (u : Term) : QRep (Graph.new u) ⟨[], fun _ _ _ => none⟩ := by
  refine ⟨rfl, List.nodup_nil, Idx.WF.nil, Idx.WF.nil, Idx.WF.nil, fun _ _ _ => rfl, fun _ _ _ => rfl, fun _ _ _ => rfl, ?_⟩
  intro a b c t h; cases h

theorem QRep.add {g : Graph} {m : QSpec} (h : QRep g m) (q : Stmt) : QRep (g.add q) (m.add q) := by
  refine ⟨?_, ?_, h.wspo.put _ _ _ _, h.wpos.put _ _ _ _, h.wosp.put _ _ _ _, ?_, ?_, ?_, ?_⟩
  · show setAdd g.triples q = _; rw [h.set]; rfl
  · exact nodup_setAdd h.nodup q
  · intro a b c
    show (Idx.put g.spo q.s q.p q.o q).find a b c = _
    rw [Idx.find_put, h.spo]; rfl
  · intro a b c
    show (Idx.put g.pos q.p q.o q.s q).find b c a = if q.s = a ∧ q.p = b ∧ q.o = c then some q else m.look a b c
    rw [Idx.find_put, h.pos]
    have e : (q.p = b ∧ q.o = c ∧ q.s = a) ↔ (q.s = a ∧ q.p = b ∧ q.o = c) :=
      ⟨fun h => ⟨h.2.2, h.1, h.2.1⟩, fun h => ⟨h.2.1, h.2.2, h.1⟩⟩
    simp only [e]
  · intro a b c
    show (Idx.put g.osp q.o q.s q.p q).find c a b = if q.s = a ∧ q.p = b ∧ q.o = c then some q else m.look a b c
    rw [Idx.find_put, h.osp]
    have e : (q.o = c ∧ q.s = a ∧ q.p = b) ↔ (q.s = a ∧ q.p = b ∧ q.o = c) :=
      ⟨fun h => ⟨h.2.1, h.2.2, h.1⟩, fun h => ⟨h.2.2, h.1, h.2.1⟩⟩
    simp only [e]
  · intro a b c t ht
    have mem : ∀ x, x ∈ (m.add q).set ↔ x = q ∨ x ∈ m.set := fun x => mem_setAdd m.set q x
    have ht : (if q.s = a ∧ q.p = b ∧ q.o = c then some q else m.look a b c) = some t := ht
    rw [mem]
    split at ht
    · next he => cases ht; exact ⟨Or.inl rfl, he⟩
    · obtain ⟨h1, h2⟩ := h.sound a b c t ht; exact ⟨Or.inr h1, h2⟩

theorem Dict.del_absent {κ ν : Type} [DecidableEq κ] {k : κ} : ∀ {d : Dict κ ν}, d.get? k = none → d.del k = d
  | [], _ => rfl
  | (k', v) :: d, h => by
    unfold Dict.get? at h
    unfold Dict.del
    split at h
    · cases h
    · next hne => rw [if_neg hne, Dict.del_absent h]

theorem rm_of_not_find {ix : Idx} {a b c : Term} (wf : ix.WF) (h : ix.find a b c = none) :
    (ix.rm a b c).2 = false ∧ (ix.rm a b c).1.WF ∧ ∀ a' b' c', (ix.rm a b c).1.find a' b' c' = ix.find a' b' c' := by
  have hh : ¬ Dict.has (ix.l2 a b) c = true := by unfold Dict.has; unfold Idx.find at h; rw [h]; simp
  have hd : (ix.l2 a b).del c = ix.l2 a b := by
    unfold Idx.find at h
    exact Dict.del_absent h
  have e : ix.rm a b c = (ix.del3 a b c, false) := by
    unfold Idx.rm; rw [if_neg hh]; unfold Idx.del3; rw [hd]
  rw [e]
  refine ⟨rfl, wf.del3 a b c, fun a' b' c' => ?_⟩
  rw [Idx.find_del3 wf]
  split
  · next he => obtain ⟨rfl, rfl, rfl⟩ := he; exact h.symm
  · rfl

theorem QRep.remove {g : Graph} {m : QSpec} (h : QRep g m) (q : Stmt) : QRep (g.remove q).1 (m.remove q).1 ∧ (g.remove q).2 = (m.remove q).2 := by
  by_cases hq : q ∈ m.set
  · have hq' : q ∈ g.triples := by rw [h.set]; exact hq
    unfold QSpec.remove
    rw [if_pos hq]
    have hset : g.triples.erase q = m.set.erase q := by rw [h.set]
    have mem : ∀ x, x ∈ m.set.erase q ↔ x ≠ q ∧ x ∈ m.set := fun x => h.nodup.mem_erase_iff
    have sound : ∀ a b c t, (if q.s = a ∧ q.p = b ∧ q.o = c then none else m.look a b c) = some t → t ∈ m.set.erase q ∧ t.s = a ∧ t.p = b ∧ t.o = c := by
      intro a b c t ht
      split at ht
      · cases ht
      · next hn =>
        obtain ⟨h1, h2⟩ := h.sound a b c t ht
        exact ⟨(mem t).2 ⟨fun e => hn (e ▸ h2), h1⟩, h2⟩
    cases hl : m.look q.s q.p q.o with
    | some t =>
      have e : g.remove q = (g.removed q, .ok ()) := by
        unfold Graph.remove
        rw [if_pos hq']
        simp only [Idx.rm_of_find ((h.spo _ _ _).trans hl), Idx.rm_of_find ((h.pos _ _ _).trans hl), Idx.rm_of_find ((h.osp _ _ _).trans hl), Bool.not_true]
        rfl
      rw [e]
      refine ⟨⟨hset, h.nodup.erase _, h.wspo.del3 _ _ _, h.wpos.del3 _ _ _, h.wosp.del3 _ _ _, ?_, ?_, ?_, sound⟩, rfl⟩
      · intro a b c
        show (Idx.del3 g.spo q.s q.p q.o).find a b c = _
        rw [Idx.find_del3 h.wspo, h.spo]
      · intro a b c
        show (Idx.del3 g.pos q.p q.o q.s).find b c a = _
        rw [Idx.find_del3 h.wpos, h.pos]
        have e : (q.p = b ∧ q.o = c ∧ q.s = a) ↔ (q.s = a ∧ q.p = b ∧ q.o = c) :=
          ⟨fun h => ⟨h.2.2, h.1, h.2.1⟩, fun h => ⟨h.2.1, h.2.2, h.1⟩⟩
        simp only [e]
      · intro a b c
        show (Idx.del3 g.osp q.o q.s q.p).find c a b = _
        rw [Idx.find_del3 h.wosp, h.osp]
        have e : (q.o = c ∧ q.s = a ∧ q.p = b) ↔ (q.s = a ∧ q.p = b ∧ q.o = c) :=
          ⟨fun h => ⟨h.2.1, h.2.2, h.1⟩, fun h => ⟨h.2.2, h.1, h.2.1⟩⟩
        simp only [e]
    | none =>
      obtain ⟨r1, r2, r3⟩ := rm_of_not_find h.wspo ((h.spo _ _ _).trans hl)
      have e : g.remove q = ({ g with triples := g.triples.erase q, spo := (g.spo.rm q.s q.p q.o).1 }, .error .keyError) := by
        unfold Graph.remove
        rw [if_pos hq']
        simp only [r1, Bool.not_false]
        rfl
      have hlook : ∀ a b c, m.look a b c = if q.s = a ∧ q.p = b ∧ q.o = c then none else m.look a b c := by
        intro a b c
        split
        · next he => obtain ⟨rfl, rfl, rfl⟩ := he; exact hl
        · rfl
      rw [e]
      exact ⟨⟨hset, h.nodup.erase _, r2, h.wpos, h.wosp, fun a b c => ((r3 a b c).trans (h.spo a b c)).trans (hlook a b c),
        fun a b c => (h.pos a b c).trans (hlook a b c), fun a b c => (h.osp a b c).trans (hlook a b c), sound⟩, rfl⟩
  · have hq' : q ∉ g.triples := by rw [h.set]; exact hq
    unfold QSpec.remove
    rw [if_neg hq, remove_of_not_mem hq']
    exact ⟨h, rfl⟩

theorem QRep.run (u : Term) (ops : List QOp) : QRep (Graph.runQ u ops) (QSpec.run ops) := by
  unfold Graph.runQ QSpec.run
  have : ∀ (g : Graph) (m : QSpec), QRep g m → QRep (ops.foldl (fun g op => match op with | .add q => g.add q | .rem q => (g.remove q).1) g)
      (ops.foldl (fun m op => match op with | .add q => m.add q | .rem q => (m.remove q).1) m) := by
    induction ops with
    | nil => exact fun g m h => h
    | cons op ops ih =>
      intro g m h
      rw [List.foldl_cons, List.foldl_cons]
      cases op with
      | add q => exact ih _ _ (h.add q)
      | rem q => exact ih _ _ (h.remove q).1
  exact this _ _ (QRep.new u)

/-- Lookups by terms, for a pattern with one or two non-empty terms. -/
theorem QRep.mem_match {g : Graph} {m : QSpec} (h : QRep g m) {ord} (hord : IsOrder ord) (s p o : Term)
    (h3 : ¬ (s.truthy = true ∧ p.truthy = true ∧ o.truthy = true)) (h0 : s.truthy = true ∨ p.truthy = true ∨ o.truthy = true) (t : Stmt) :
    t ∈ g.match ord s p o ↔ m.look t.s t.p t.o = some t ∧ (s.truthy → t.s = s) ∧ (p.truthy → t.p = p) ∧ (o.truthy → t.o = o) := by
  let g' : Graph := { g with triples := m.set.filter fun t => decide (m.look t.s t.p t.o = some t) }
  have hmem : ∀ t, t ∈ g'.triples ↔ m.look t.s t.p t.o = some t := by
    intro t
    show t ∈ m.set.filter _ ↔ _
    rw [List.mem_filter, decide_eq_true_eq]
    exact ⟨fun h => h.2, fun hl => ⟨(h.sound _ _ _ _ hl).1, hl⟩⟩
  have key : ∀ a b c t, m.look a b c = some t ↔ t ∈ g'.triples ∧ t.s = a ∧ t.p = b ∧ t.o = c := by
    intro a b c t
    rw [hmem]
    constructor
    · intro hl
      obtain ⟨-, rfl, rfl, rfl⟩ := h.sound a b c t hl
      exact ⟨hl, rfl, rfl, rfl⟩
    · rintro ⟨hl, rfl, rfl, rfl⟩; exact hl
  have inv : IxInv g' := ⟨h.nodup.filter _, h.wspo, h.wpos, h.wosp,
    fun a b c t => by rw [← key]; exact Iff.of_eq (congrArg (· = some t) (h.spo a b c)),
    fun a b c t => by rw [← key]; exact Iff.of_eq (congrArg (· = some t) (h.pos a b c)),
    fun a b c t => by rw [← key]; exact Iff.of_eq (congrArg (· = some t) (h.osp a b c))⟩
  have e : g.match ord s p o = g'.match ord s p o := by
    unfold Graph.match
    by_cases hs : s.truthy <;> by_cases hp : p.truthy <;> by_cases ho : o.truthy <;>
      simp only [hs, hp, ho, if_true, if_false, Bool.false_eq_true]
    · exact absurd ⟨hs, hp, ho⟩ h3
    all_goals first | rfl | (exfalso; simp_all)
  rw [e, mem_match_ix inv hord s p o h3, hmem]

/-! ### The claims -/

/-- Exactly, for every history: iterating and `in` show the statements added and not removed since (a removal that raises KeyError half way still takes the statement out, see `QSpec.remove`); a pattern with
    one or two terms finds those of them that were the last to be added under their three terms, with no removal under these terms since. -/
theorem C10_exact (u : Term) (ops : List QOp) {ord} (hord : IsOrder ord) (q : Stmt) :
    let g := Graph.runQ u ops
    let m := QSpec.run ops
    (g.contains q = true ↔ q ∈ m.set) ∧ (q ∈ g.iter ord ↔ q ∈ m.set) ∧
    (∀ s p o : Term, ¬ (s.truthy = true ∧ p.truthy = true ∧ o.truthy = true) → (s.truthy = true ∨ p.truthy = true ∨ o.truthy = true) →
      (q ∈ g.match ord s p o ↔ m.look q.s q.p q.o = some q ∧ (s.truthy → q.s = s) ∧ (p.truthy → q.p = p) ∧ (o.truthy → q.o = o))) ∧
    (g.remove q).2 = (m.remove q).2 := by
  have h := QRep.run u ops
  refine ⟨by unfold Graph.contains; rw [decide_eq_true_eq, h.set], ?_, fun s p o h3 h0 => h.mem_match hord s p o h3 h0 q, (h.remove q).2⟩
  unfold Graph.iter
  rw [(hord _).mem_iff, h.set]

/-- A lookup finds only statements the graph has. -/
theorem C10_found_is_there (u : Term) (ops : List QOp) (q : Stmt) (h : (QSpec.run ops).look q.s q.p q.o = some q) : (Graph.runQ u ops).contains q = true := by
  have hr := QRep.run u ops
  unfold Graph.contains
  rw [decide_eq_true_eq, hr.set]
  exact (hr.sound _ _ _ _ h).1

/-- The statement in the graph that was added last under its terms is found and can be removed, whatever came before. -/
theorem C10_last_added (u : Term) (ops : List QOp) {ord} (hord : IsOrder ord) (q : Stmt) :
    let g := Graph.runQ u (ops ++ [.add q])
    (q.s.truthy = true → q ∈ g.match ord q.s .none .none) ∧ (q.p.truthy = true → q ∈ g.match ord .none q.p .none) ∧
    (q.o.truthy = true → q ∈ g.match ord .none .none q.o) ∧ (g.remove q).2 = .ok () := by
  have hr := QRep.run u (ops ++ [.add q])
  have hl : (QSpec.run (ops ++ [.add q])).look q.s q.p q.o = some q := by
    unfold QSpec.run
    rw [List.foldl_append]
    show (if q.s = q.s ∧ q.p = q.p ∧ q.o = q.o then some q else _) = _
    rw [if_pos ⟨rfl, rfl, rfl⟩]
  refine ⟨fun h => (hr.mem_match hord _ _ _ (by simp [Term.truthy]) (Or.inl h) q).2 ⟨hl, fun _ => rfl, fun h => absurd h (by decide), fun h => absurd h (by decide)⟩,
    fun h => (hr.mem_match hord _ _ _ (by simp [Term.truthy]) (Or.inr (Or.inl h)) q).2 ⟨hl, fun h => absurd h (by decide), fun _ => rfl, fun h => absurd h (by decide)⟩,
    fun h => (hr.mem_match hord _ _ _ (by simp [Term.truthy]) (Or.inr (Or.inr h)) q).2 ⟨hl, fun h => absurd h (by decide), fun h => absurd h (by decide), fun _ => rfl⟩, ?_⟩
  rw [(hr.remove q).2]
  unfold QSpec.remove
  rw [if_pos (hr.sound _ _ _ _ hl).1, hl]; rfl

/-- The two quads of `C10_quads_lost`: only the second is found; removing the first makes both unfindable. -/
example : (QSpec.run [.add exQ1, .add exQ2]).look exA exB exC = some exQ2 ∧ (QSpec.run [.add exQ1, .add exQ2, .rem exQ1]).look exA exB exC = none ∧
    (QSpec.run [.add exQ1, .add exQ2, .rem exQ1]).set = [exQ2] ∧ ((QSpec.run [.add exQ1, .add exQ2, .rem exQ1]).remove exQ2).2 = .error .keyError := by decide

end Verif
