import Verif.Model.Graph
import Verif.Spec.Graph
/-
Index invariant of Graph and its preservation.
-/
namespace Verif

namespace Idx

/-- No duplicate keys on any level. -/
def WF (ix : Idx) : Prop :=
  Dict.WF ix ∧ (∀ a, Dict.WF (ix.l1 a)) ∧ (∀ a b, Dict.WF (ix.l2 a b))

theorem l1_set (ix : Idx) (a a' : Term) (d) : l1 (Dict.set ix a d) a' = if a = a' then d else l1 ix a' := by
  unfold l1; rw [Dict.get?_set]; split <;> rfl

theorem l2_put (ix : Idx) (a b c : Term) (t : Stmt) (a' b' : Term) :
    l2 (ix.put a b c t) a' b' = if a = a' ∧ b = b' then (ix.l2 a b).set c t else ix.l2 a' b' := by
  unfold put l2
  rw [l1_set]
  by_cases h : a = a'
  · subst h
    rw [if_pos rfl, Dict.get?_set]
    by_cases h2 : b = b'
    · subst h2; simp
    · simp [h2]
  · simp [h]

theorem find_put (ix : Idx) (a b c : Term) (t : Stmt) (a' b' c' : Term) :
    find (ix.put a b c t) a' b' c' = if a = a' ∧ b = b' ∧ c = c' then some t else find ix a' b' c' := by
  unfold find
  rw [l2_put]
  by_cases h : a = a' ∧ b = b'
  · obtain ⟨rfl, rfl⟩ := h
    simp [Dict.get?_set]
  · rw [if_neg h, if_neg (fun h2 => h ⟨h2.1, h2.2.1⟩)]

theorem WF.put {ix : Idx} (wf : WF ix) (a b c : Term) (t : Stmt) : WF (ix.put a b c t) := by
  obtain ⟨w0, w1, w2⟩ := wf
  refine ⟨w0.set _ _, fun a' => ?_, fun a' b' => ?_⟩
  · unfold Idx.put; rw [l1_set]; split
    · exact (w1 _).set _ _
    · exact w1 _
  · rw [l2_put]; split
    · exact (w2 _ _).set _ _
    · exact w2 _ _

theorem WF.nil : WF [] := by
  refine ⟨by simp [Dict.WF, Dict.keys], fun a => ?_, fun a b => ?_⟩ <;> simp [Dict.WF, Dict.keys, l1, l2]

/-- State after a successful `del ix[a][b][c]`. -/
def del3 (ix : Idx) (a b c : Term) : Idx := ix.set a ((ix.l1 a).set b ((ix.l2 a b).del c))

theorem rm_of_find {ix : Idx} {a b c : Term} {t} (h : ix.find a b c = some t) :
    ix.rm a b c = (ix.del3 a b c, true) := by
  have : Dict.has (ix.l2 a b) c = true := by unfold Dict.has; unfold find at h; rw [h]; rfl
  unfold rm; rw [if_pos this]; rfl

theorem l2_del3 (ix : Idx) (a b c : Term) (a' b' : Term) :
    l2 (ix.del3 a b c) a' b' = if a = a' ∧ b = b' then (ix.l2 a b).del c else ix.l2 a' b' := by
  unfold del3 l2
  rw [l1_set]
  by_cases h : a = a'
  · subst h
    rw [if_pos rfl, Dict.get?_set]
    by_cases h2 : b = b'
    · subst h2; simp
    · simp [h2]
  · simp [h]

theorem find_del3 {ix : Idx} (wf : WF ix) (a b c : Term) (a' b' c' : Term) :
    find (ix.del3 a b c) a' b' c' = if a = a' ∧ b = b' ∧ c = c' then none else find ix a' b' c' := by
  unfold find
  rw [l2_del3]
  by_cases h : a = a' ∧ b = b'
  · obtain ⟨rfl, rfl⟩ := h
    simp [Dict.get?_del (wf.2.2 a b)]
  · rw [if_neg h, if_neg (fun h2 => h ⟨h2.1, h2.2.1⟩)]

theorem WF.del3 {ix : Idx} (wf : WF ix) (a b c : Term) : WF (ix.del3 a b c) := by
  obtain ⟨w0, w1, w2⟩ := wf
  refine ⟨w0.set _ _, fun a' => ?_, fun a' b' => ?_⟩
  · unfold Idx.del3; rw [l1_set]; split
    · exact (w1 _).set _ _
    · exact w1 _
  · rw [l2_del3]; split
    · exact (w2 _ _).del _
    · exact w2 _ _

theorem l2_eq_nil_of_not_has {ix : Idx} {a b : Term} (h : ¬ (Dict.has ix a = true ∧ Dict.has (ix.l1 a) b = true)) :
    ix.l2 a b = [] := by
  unfold l2
  by_cases h1 : Dict.has ix a = true
  · have h2 : ¬ Dict.has (ix.l1 a) b = true := fun h2 => h ⟨h1, h2⟩
    unfold Dict.has at h2
    cases hg : Dict.get? (ix.l1 a) b <;> simp_all
  · unfold Dict.has at h1
    have : Dict.get? ix a = none := by cases hg : Dict.get? ix a <;> simp_all
    simp [l1, this]

theorem l1_eq_nil_of_not_has {ix : Idx} {a : Term} (h : ¬ (Dict.has ix a = true)) : ix.l1 a = [] := by
  unfold Dict.has at h
  have : Dict.get? ix a = none := by cases hg : Dict.get? ix a <;> simp_all
  simp [l1, this]

theorem mem_l2_values {ix : Idx} (wf : WF ix) (a b : Term) (t : Stmt) :
    t ∈ (ix.l2 a b).values ↔ ∃ c, ix.find a b c = some t := Dict.mem_values (wf.2.2 a b) t

theorem mem_l1_keys_of_find {ix : Idx} {a b c : Term} {t} (h : ix.find a b c = some t) : b ∈ (ix.l1 a).keys := by
  rw [Dict.mem_keys_iff]
  unfold find l2 at h
  cases hg : Dict.get? (ix.l1 a) b
  · simp [hg] at h
  · rfl

theorem mem_keys_of_find {ix : Idx} {a b c : Term} {t} (h : ix.find a b c = some t) : a ∈ Dict.keys ix := by
  rw [Dict.mem_keys_iff]
  unfold find l2 l1 at h
  cases hg : Dict.get? ix a
  · simp [hg] at h
  · rfl

theorem mem_keys_set {β} (d : Dict Term β) (a x : Term) (v : β) : x ∈ Dict.keys (d.set a v) ↔ x = a ∨ x ∈ d.keys := by
  rw [Dict.mem_keys_iff, Dict.get?_set, Dict.mem_keys_iff]
  by_cases h : a = x
  · subst h; simp
  · simp [h, Ne.symm h]

theorem mem_keys_put (ix : Idx) (a b c : Term) (t : Stmt) (x : Term) :
    x ∈ Dict.keys (ix.put a b c t) ↔ x = a ∨ x ∈ Dict.keys ix := mem_keys_set _ _ _ _

theorem mem_keys_del3 (ix : Idx) (a b c : Term) (x : Term) :
    x ∈ Dict.keys (ix.del3 a b c) ↔ x = a ∨ x ∈ Dict.keys ix := mem_keys_set _ _ _ _

theorem mem_l1_flat {ix : Idx} (wf : WF ix) (a : Term) (t : Stmt) :
    t ∈ (ix.l1 a).keys.flatMap (fun b => (ix.l2 a b).values) ↔ ∃ b c, ix.find a b c = some t := by
  rw [List.mem_flatMap]
  constructor
  · rintro ⟨b, _, h⟩; exact ⟨b, (mem_l2_values wf a b t).1 h⟩
  · rintro ⟨b, c, h⟩; exact ⟨b, mem_l1_keys_of_find h, (mem_l2_values wf a b t).2 ⟨c, h⟩⟩

theorem nodup_values_of_key {d : Dict Term Stmt} (wf : Dict.WF d) (f : Stmt → Term)
    (h : ∀ c t, d.get? c = some t → f t = c) : d.values.Nodup := by
  have : d.values.map f = d.keys := by
    simp only [Dict.values, Dict.keys, List.map_map]
    apply List.map_congr_left
    rintro ⟨c, t⟩ hm
    exact h c t ((Dict.mem_iff_get? wf).1 hm)
  exact List.Nodup.of_map f (by rw [this]; exact wf)

theorem nodup_flat {ix : Idx} (wf : WF ix) (a : Term) (f g : Stmt → Term)
    (h : ∀ b c t, ix.find a b c = some t → f t = b ∧ g t = c) :
    ((ix.l1 a).keys.flatMap (fun b => (ix.l2 a b).values)).Nodup := by
  rw [List.nodup_flatMap]
  refine ⟨fun b _ => nodup_values_of_key (wf.2.2 a b) g (fun c t hc => (h b c t hc).2), ?_⟩
  have hk : (ix.l1 a).keys.Nodup := wf.2.1 a
  refine hk.imp (fun {b b'} hne => ?_)
  intro t ht ht'
  obtain ⟨c, hc⟩ := (mem_l2_values wf a b t).1 ht
  obtain ⟨c', hc'⟩ := (mem_l2_values wf a b' t).1 ht'
  exact hne ((h _ _ _ hc).1.symm.trans (h _ _ _ hc').1)

end Idx

namespace Graph

/-- Index invariant: each index finds exactly the stored statements by their three terms. -/
structure IxInv (g : Graph) : Prop where
  nodup : g.triples.Nodup
  wspo : g.spo.WF
  wpos : g.pos.WF
  wosp : g.osp.WF
  spo : ∀ a b c t, g.spo.find a b c = some t ↔ t ∈ g.triples ∧ t.s = a ∧ t.p = b ∧ t.o = c
  pos : ∀ a b c t, g.pos.find b c a = some t ↔ t ∈ g.triples ∧ t.s = a ∧ t.p = b ∧ t.o = c
  osp : ∀ a b c t, g.osp.find c a b = some t ↔ t ∈ g.triples ∧ t.s = a ∧ t.p = b ∧ t.o = c

/-- The invariant of graphs that hold triples only. -/
structure Inv (g : Graph) : Prop extends IxInv g where
  isTri : ∀ t ∈ g.triples, t.g = none

/-- Adding `t` does not make two stored statements agree in all three terms. -/
def Fresh (g : Graph) (t : Stmt) : Prop := ∀ x ∈ g.triples, x.s = t.s → x.p = t.p → x.o = t.o → x = t

theorem IxInv.new (u : Term) : IxInv (Graph.new u) := by
  constructor <;> simp [Graph.new, Idx.WF.nil, Idx.find, Idx.l2, Idx.l1]

theorem Inv.new (u : Term) : Inv (Graph.new u) := ⟨IxInv.new u, by simp [Graph.new]⟩

theorem mem_setAdd (l : List Stmt) (t x : Stmt) : x ∈ setAdd l t ↔ x = t ∨ x ∈ l := by
  unfold setAdd
  split
  · next h => constructor
              · exact Or.inr
              · rintro (rfl | h'); exacts [h, h']
  · simp [or_comm]

theorem nodup_setAdd {l : List Stmt} (h : l.Nodup) (t : Stmt) : (setAdd l t).Nodup := by
  unfold setAdd
  split
  · exact h
  · next h' => rw [List.nodup_append]; exact ⟨h, by simp, by intro a ha b hb; simp at hb; subst hb; exact fun e => h' (e ▸ ha)⟩

theorem eq_mkTriple {t : Stmt} (h : t.g = none) : t = mkTriple t.s t.p t.o := by
  cases t; simp_all [mkTriple]

theorem mkTriple_inj {a b c a' b' c' : Term} : mkTriple a b c = mkTriple a' b' c' ↔ a = a' ∧ b = b' ∧ c = c' := by
  simp [mkTriple]

theorem mem_add (g : Graph) (t x : Stmt) : x ∈ (g.add t).triples ↔ x = t ∨ x ∈ g.triples := mem_setAdd _ _ _

theorem IxInv.add {g : Graph} (inv : IxInv g) {t : Stmt} (ht : Fresh g t) : IxInv (g.add t) := by
  have aux : ∀ (a b c : Term) (x : Stmt),
      (if t.s = a ∧ t.p = b ∧ t.o = c then x = t else x ∈ g.triples ∧ x.s = a ∧ x.p = b ∧ x.o = c) ↔
      (x = t ∨ x ∈ g.triples) ∧ x.s = a ∧ x.p = b ∧ x.o = c := by
    intro a b c x
    split
    · next h =>
      obtain ⟨rfl, rfl, rfl⟩ := h
      constructor
      · rintro rfl; exact ⟨Or.inl rfl, rfl, rfl, rfl⟩
      · rintro ⟨rfl | h, h1, h2, h3⟩; exacts [rfl, ht x h h1 h2 h3]
    · next h =>
      constructor
      · rintro ⟨h1, h2⟩; exact ⟨Or.inr h1, h2⟩
      · rintro ⟨rfl | h1, h2⟩; exacts [absurd h2 h, ⟨h1, h2⟩]
  refine ⟨nodup_setAdd inv.nodup _, inv.wspo.put _ _ _ _, inv.wpos.put _ _ _ _, inv.wosp.put _ _ _ _, ?_, ?_, ?_⟩
  · intro a b c x
    show (Idx.put g.spo t.s t.p t.o _).find a b c = _ ↔ _
    rw [Idx.find_put, mem_add, ← aux]
    split
    · simp [eq_comm]
    · exact inv.spo _ _ _ _
  · intro a b c x
    show (Idx.put g.pos t.p t.o t.s _).find b c a = _ ↔ _
    rw [Idx.find_put, mem_add, ← aux]
    have e : (t.p = b ∧ t.o = c ∧ t.s = a) ↔ (t.s = a ∧ t.p = b ∧ t.o = c) :=
      ⟨fun h => ⟨h.2.2, h.1, h.2.1⟩, fun h => ⟨h.2.1, h.2.2, h.1⟩⟩
    simp only [e]
    split
    · simp [eq_comm]
    · exact inv.pos _ _ _ _
  · intro a b c x
    show (Idx.put g.osp t.o t.s t.p _).find c a b = _ ↔ _
    rw [Idx.find_put, mem_add, ← aux]
    have e : (t.o = c ∧ t.s = a ∧ t.p = b) ↔ (t.s = a ∧ t.p = b ∧ t.o = c) :=
      ⟨fun h => ⟨h.2.1, h.2.2, h.1⟩, fun h => ⟨h.2.2, h.1, h.2.1⟩⟩
    simp only [e]
    split
    · simp [eq_comm]
    · exact inv.osp _ _ _ _

theorem Inv.fresh {g : Graph} (inv : Inv g) {t : Stmt} (ht : t.g = none) : Fresh g t := by
  intro x hx h1 h2 h3
  rw [eq_mkTriple (inv.isTri x hx), eq_mkTriple ht, h1, h2, h3]

theorem Inv.add {g : Graph} (inv : Inv g) {t : Stmt} (ht : t.g = none) : Inv (g.add t) := by
  refine ⟨inv.toIxInv.add (inv.fresh ht), fun x hx => ?_⟩
  rcases (mem_add _ _ _).1 hx with rfl | h
  · exact ht
  · exact inv.isTri x h

/-- The graph after a successful removal. -/
def removed (g : Graph) (t : Stmt) : Graph :=
  { g with
    triples := g.triples.erase t
    spo := g.spo.del3 t.s t.p t.o
    pos := g.pos.del3 t.p t.o t.s
    osp := g.osp.del3 t.o t.s t.p }

theorem remove_of_not_mem {g : Graph} {t : Stmt} (h : t ∉ g.triples) : g.remove t = (g, .error .keyError) := by
  unfold remove; rw [if_neg h]

theorem remove_of_mem {g : Graph} (inv : IxInv g) {t : Stmt} (h : t ∈ g.triples) :
    g.remove t = (g.removed t, .ok ()) := by
  have hs : g.spo.find t.s t.p t.o = some t := (inv.spo _ _ _ _).2 ⟨h, rfl, rfl, rfl⟩
  have hp : g.pos.find t.p t.o t.s = some t := (inv.pos _ _ _ _).2 ⟨h, rfl, rfl, rfl⟩
  have ho : g.osp.find t.o t.s t.p = some t := (inv.osp _ _ _ _).2 ⟨h, rfl, rfl, rfl⟩
  unfold remove
  rw [if_pos h]
  simp only [Idx.rm_of_find hs, Idx.rm_of_find hp, Idx.rm_of_find ho, Bool.not_true]
  rfl

theorem IxInv.key_inj {g : Graph} (inv : IxInv g) {t x : Stmt} (h : t ∈ g.triples) (hx : x ∈ g.triples)
    (h1 : x.s = t.s) (h2 : x.p = t.p) (h3 : x.o = t.o) : x = t := by
  have a := (inv.spo t.s t.p t.o x).2 ⟨hx, h1, h2, h3⟩
  have b := (inv.spo t.s t.p t.o t).2 ⟨h, rfl, rfl, rfl⟩
  rw [a] at b; exact Option.some.inj b

theorem mem_removed {g : Graph} (nd : g.triples.Nodup) (t x : Stmt) :
    x ∈ (g.removed t).triples ↔ x ≠ t ∧ x ∈ g.triples := nd.mem_erase_iff

theorem IxInv.removed {g : Graph} (inv : IxInv g) {t : Stmt} (ht : t ∈ g.triples) : IxInv (g.removed t) := by
  have aux : ∀ (a b c : Term) (x : Stmt),
      (if t.s = a ∧ t.p = b ∧ t.o = c then False else x ∈ g.triples ∧ x.s = a ∧ x.p = b ∧ x.o = c) ↔
      (x ≠ t ∧ x ∈ g.triples) ∧ x.s = a ∧ x.p = b ∧ x.o = c := by
    intro a b c x
    split
    · next h =>
      obtain ⟨rfl, rfl, rfl⟩ := h
      simp only [false_iff]
      rintro ⟨⟨hne, h⟩, h1, h2, h3⟩; exact hne (inv.key_inj ht h h1 h2 h3)
    · next h =>
      constructor
      · rintro ⟨h1, h2⟩; exact ⟨⟨fun e => h (e ▸ h2), h1⟩, h2⟩
      · rintro ⟨⟨_, h1⟩, h2⟩; exact ⟨h1, h2⟩
  refine ⟨inv.nodup.erase _, inv.wspo.del3 _ _ _, inv.wpos.del3 _ _ _, inv.wosp.del3 _ _ _, ?_, ?_, ?_⟩
  · intro a b c x
    show (Idx.del3 g.spo t.s t.p t.o).find a b c = _ ↔ _
    rw [Idx.find_del3 inv.wspo, mem_removed inv.nodup, ← aux]
    split
    · simp
    · exact inv.spo _ _ _ _
  · intro a b c x
    show (Idx.del3 g.pos t.p t.o t.s).find b c a = _ ↔ _
    rw [Idx.find_del3 inv.wpos, mem_removed inv.nodup, ← aux]
    have e : (t.p = b ∧ t.o = c ∧ t.s = a) ↔ (t.s = a ∧ t.p = b ∧ t.o = c) :=
      ⟨fun h => ⟨h.2.2, h.1, h.2.1⟩, fun h => ⟨h.2.1, h.2.2, h.1⟩⟩
    simp only [e]
    split
    · simp
    · exact inv.pos _ _ _ _
  · intro a b c x
    show (Idx.del3 g.osp t.o t.s t.p).find c a b = _ ↔ _
    rw [Idx.find_del3 inv.wosp, mem_removed inv.nodup, ← aux]
    have e : (t.o = c ∧ t.s = a ∧ t.p = b) ↔ (t.s = a ∧ t.p = b ∧ t.o = c) :=
      ⟨fun h => ⟨h.2.1, h.2.2, h.1⟩, fun h => ⟨h.2.2, h.1, h.2.1⟩⟩
    simp only [e]
    split
    · simp
    · exact inv.osp _ _ _ _

theorem IxInv.remove {g : Graph} (inv : IxInv g) (t : Stmt) : IxInv (g.remove t).1 := by
  by_cases h : t ∈ g.triples
  · rw [remove_of_mem inv h]; exact inv.removed h
  · rw [remove_of_not_mem h]; exact inv

theorem mem_remove {g : Graph} (inv : IxInv g) (t x : Stmt) :
    x ∈ (g.remove t).1.triples ↔ x ≠ t ∧ x ∈ g.triples := by
  by_cases h : t ∈ g.triples
  · rw [remove_of_mem inv h]; exact inv.nodup.mem_erase_iff
  · rw [remove_of_not_mem h]
    exact ⟨fun hx => ⟨fun e => h (e ▸ hx), hx⟩, fun hx => hx.2⟩

theorem Inv.remove {g : Graph} (inv : Inv g) (t : Stmt) : Inv (g.remove t).1 :=
  ⟨inv.toIxInv.remove t, fun x hx => inv.isTri x ((mem_remove inv.toIxInv t x).1 hx).2⟩

theorem Inv.addAll {g : Graph} (inv : Inv g) {ts : List Stmt} (h : ∀ t ∈ ts, t.g = none) : Inv (g.addAll ts) := by
  unfold Graph.addAll
  induction ts generalizing g with
  | nil => exact inv
  | cons t ts ih => exact ih (inv.add (h t (by simp))) (fun x hx => h x (by simp [hx]))

theorem mem_addAll (g : Graph) (ts : List Stmt) (x : Stmt) :
    x ∈ (g.addAll ts).triples ↔ x ∈ ts ∨ x ∈ g.triples := by
  unfold addAll
  induction ts generalizing g with
  | nil => simp
  | cons t ts ih =>
    rw [List.foldl_cons, ih, mem_add, List.mem_cons]
    constructor
    · rintro (h | h | h)
      exacts [Or.inl (Or.inr h), Or.inl (Or.inl h), Or.inr h]
    · rintro ((h | h) | h)
      exacts [Or.inr (Or.inl h), Or.inl h, Or.inr (Or.inr h)]

/-- Membership in the result of `match`, for arguments of any truth value, unless all three are given. -/
theorem mem_match_ix {g : Graph} (inv : IxInv g) {ord} (hord : Spec.IsOrder ord) (s p o : Term)
    (hb : ¬ (s.truthy = true ∧ p.truthy = true ∧ o.truthy = true)) (t : Stmt) :
    t ∈ g.match ord s p o ↔
      t ∈ g.triples ∧ (s.truthy → t.s = s) ∧ (p.truthy → t.p = p) ∧ (o.truthy → t.o = o) := by
  unfold Graph.match
  by_cases hs : s.truthy <;> by_cases hp : p.truthy <;> by_cases ho : o.truthy <;>
    simp only [hs, hp, ho, if_true, if_false, Bool.false_eq_true, true_implies, false_implies, and_true, true_and]
  · exact absurd ⟨hs, hp, ho⟩ hb
  · -- s p ?
    have : (if (Dict.has g.spo s && (g.spo.l1 s).has p) = true then (g.spo.l2 s p).values else [])
        = (g.spo.l2 s p).values := by
      split
      · rfl
      · next h => rw [Idx.l2_eq_nil_of_not_has (by simpa using h)]; rfl
    rw [this, Idx.mem_l2_values inv.wspo]
    simp only [inv.spo]
    constructor
    · rintro ⟨c, h, h1, h2, h3⟩; exact ⟨h, h1, h2⟩
    · rintro ⟨h, h1, h2⟩; exact ⟨_, h, h1, h2, rfl⟩
  · -- s ? o
    have : (if (Dict.has g.osp o && (g.osp.l1 o).has s) = true then (g.osp.l2 o s).values else [])
        = (g.osp.l2 o s).values := by
      split
      · rfl
      · next h => rw [Idx.l2_eq_nil_of_not_has (by simpa using h)]; rfl
    rw [this, Idx.mem_l2_values inv.wosp]
    simp only [inv.osp]
    constructor
    · rintro ⟨c, h, h1, h2, h3⟩; exact ⟨h, h1, h3⟩
    · rintro ⟨h, h1, h2⟩; exact ⟨_, h, h1, rfl, h2⟩
  · -- s ? ?
    have : (if Dict.has g.spo s = true then (g.spo.l1 s).keys.flatMap (fun p => (g.spo.l2 s p).values) else [])
        = (g.spo.l1 s).keys.flatMap (fun p => (g.spo.l2 s p).values) := by
      split
      · rfl
      · next h => rw [Idx.l1_eq_nil_of_not_has h]; rfl
    rw [this, Idx.mem_l1_flat inv.wspo]
    simp only [inv.spo]
    constructor
    · rintro ⟨b, c, h, h1, h2, h3⟩; exact ⟨h, h1⟩
    · rintro ⟨h, h1⟩; exact ⟨_, _, h, h1, rfl, rfl⟩
  · -- ? p o
    have : (if (Dict.has g.pos p && (g.pos.l1 p).has o) = true then (g.pos.l2 p o).values else [])
        = (g.pos.l2 p o).values := by
      split
      · rfl
      · next h => rw [Idx.l2_eq_nil_of_not_has (by simpa using h)]; rfl
    rw [this, Idx.mem_l2_values inv.wpos]
    simp only [inv.pos]
    constructor
    · rintro ⟨c, h, h1, h2, h3⟩; exact ⟨h, h2, h3⟩
    · rintro ⟨h, h1, h2⟩; exact ⟨_, h, rfl, h1, h2⟩
  · -- ? p ?
    have : (if Dict.has g.pos p = true then (g.pos.l1 p).keys.flatMap (fun o => (g.pos.l2 p o).values) else [])
        = (g.pos.l1 p).keys.flatMap (fun o => (g.pos.l2 p o).values) := by
      split
      · rfl
      · next h => rw [Idx.l1_eq_nil_of_not_has h]; rfl
    rw [this, Idx.mem_l1_flat inv.wpos]
    simp only [inv.pos]
    constructor
    · rintro ⟨b, c, h, h1, h2, h3⟩; exact ⟨h, h2⟩
    · rintro ⟨h, h1⟩; exact ⟨_, _, h, rfl, h1, rfl⟩
  · -- ? ? o
    have : (if Dict.has g.osp o = true then (g.osp.l1 o).keys.flatMap (fun s => (g.osp.l2 o s).values) else [])
        = (g.osp.l1 o).keys.flatMap (fun s => (g.osp.l2 o s).values) := by
      split
      · rfl
      · next h => rw [Idx.l1_eq_nil_of_not_has h]; rfl
    rw [this, Idx.mem_l1_flat inv.wosp]
    simp only [inv.osp]
    constructor
    · rintro ⟨b, c, h, h1, h2, h3⟩; exact ⟨h, h3⟩
    · rintro ⟨h, h1⟩; exact ⟨_, _, h, rfl, rfl, h1⟩
  · -- ? ? ?
    exact (hord g.triples).mem_iff

/-- Membership in the result of `match` in terms of the triples, for arguments of any truth value. -/
theorem mem_match {g : Graph} (inv : Inv g) {ord} (hord : Spec.IsOrder ord) (s p o : Term) (t : Stmt) :
    t ∈ g.match ord s p o ↔
      t ∈ g.triples ∧ (s.truthy → t.s = s) ∧ (p.truthy → t.p = p) ∧ (o.truthy → t.o = o) := by
  by_cases hb : s.truthy = true ∧ p.truthy = true ∧ o.truthy = true
  · obtain ⟨hs, hp, ho⟩ := hb
    unfold Graph.match contains
    simp only [hs, hp, ho, if_true, true_implies, decide_eq_true_eq]
    split
    · next h =>
      rw [List.mem_singleton]
      constructor
      · rintro rfl; exact ⟨h, rfl, rfl, rfl⟩
      · rintro ⟨h', rfl, rfl, rfl⟩; exact eq_mkTriple (inv.isTri t h')
    · next h =>
      simp only [List.not_mem_nil, false_iff]
      rintro ⟨h', rfl, rfl, rfl⟩; exact h (eq_mkTriple (inv.isTri t h') ▸ h')
  · exact mem_match_ix inv.toIxInv hord s p o hb t

/-- `match` yields no triple twice. -/
theorem nodup_match {g : Graph} (inv : IxInv g) {ord} (hord : Spec.IsOrder ord) (s p o : Term) :
    (g.match ord s p o).Nodup := by
  have fs := fun a b c t h => ((inv.spo a b c t).1 h).2
  have fp := fun a b c t h => ((inv.pos a b c t).1 h).2
  have fo := fun a b c t h => ((inv.osp a b c t).1 h).2
  unfold Graph.match
  split
  · split
    · split
      · split <;> simp
      · split
        · exact Idx.nodup_values_of_key (inv.wspo.2.2 _ _) Stmt.o (fun c t h => (fs _ _ c t h).2.2)
        · simp
    · split
      · split
        · exact Idx.nodup_values_of_key (inv.wosp.2.2 _ _) Stmt.p (fun c t h => (fo _ c _ t h).2.1)
        · simp
      · split
        · exact Idx.nodup_flat inv.wspo s Stmt.p Stmt.o (fun b c t h => (fs _ b c t h).2)
        · simp
  · split
    · split
      · split
        · exact Idx.nodup_values_of_key (inv.wpos.2.2 _ _) Stmt.s (fun c t h => (fp c _ _ t h).1)
        · simp
      · split
        · exact Idx.nodup_flat inv.wpos p Stmt.o Stmt.s
            (fun b c t h => ⟨(fp c _ b t h).2.2, (fp c _ b t h).1⟩)
        · simp
    · split
      · split
        · exact Idx.nodup_flat inv.wosp o Stmt.s Stmt.p
            (fun b c t h => ⟨(fo b c _ t h).1, (fo b c _ t h).2.1⟩)
        · simp
      · exact (hord _).nodup_iff.2 inv.nodup

end Graph
end Verif
