import Verif.Props.ResClass
/-
C141: what a subclass inherits (`lang`, `rdf_classes`), through the method resolution order.
-/
namespace Verif
open Spec Graph

/-! ### The C3 merge -/

/-- Every merged list appears in the result in its own order. -/
theorem c3Merge_sublist : ∀ (n : Nat) (ls : List (List Nat)) (r : List Nat), c3Merge n ls = some r → ∀ l ∈ ls, l.Sublist r := by
  intro n
  induction n with
  | zero => intro ls r h; simp [c3Merge] at h
  | succ n ih =>
    intro ls r h l hl
    by_cases hne : l = []
    · subst hne; exact List.nil_sublist _
    unfold c3Merge at h
    simp only at h
    have hl' : l ∈ ls.filter (· ≠ []) := List.mem_filter.2 ⟨hl, by simpa using hne⟩
    split at h
    · next hn => rw [hn] at hl'; cases hl'
    · split at h
      · cases h
      · next k hk =>
        generalize ls.filter (· ≠ []) = fs at h hl'
        cases hm : c3Merge n (fs.map fun l => if l.head? = some k then l.tail else l) with
        | none => rw [hm] at h; cases h
        | some r' =>
          rw [hm] at h; cases h
          have := ih _ _ hm _ (List.mem_map_of_mem hl')
          by_cases hh : l.head? = some k
          · rw [if_pos hh] at this
            cases l with
            | nil => cases hh
            | cons a l =>
              simp only [List.head?_cons, Option.some.injEq] at hh
              subst hh
              exact this.cons_cons _
          · rw [if_neg hh] at this
            exact this.cons _

/-- The result has no duplicates. -/
theorem c3Merge_nodup : ∀ (n : Nat) (ls : List (List Nat)) (r : List Nat), c3Merge n ls = some r → r.Nodup := by
  intro n
  induction n with
  | zero => intro ls r h; simp [c3Merge] at h
  | succ n ih =>
    intro ls r h
    unfold c3Merge at h
    simp only at h
    split at h
    · cases h; exact List.nodup_nil
    · split at h
      · cases h
      · next k hk =>
        generalize ls.filter (· ≠ []) = fs at h hk
        cases hm : c3Merge n (fs.map fun l => if l.head? = some k then l.tail else l) with
        | none => rw [hm] at h; cases h
        | some r' =>
          rw [hm] at h; cases h
          refine List.nodup_cons.2 ⟨fun hx => ?_, ih _ _ hm⟩
          obtain ⟨l, hl, hx⟩ := (c3Merge_mem _ _ _ hm k).1 hx
          obtain ⟨l', hl', rfl⟩ := List.mem_map.1 hl
          have ht := List.find?_some hk
          simp only [List.all_eq_true, Bool.not_eq_true', List.contains_eq_mem, decide_eq_false_iff_not] at ht
          have ht := ht l' hl'
          split at hx
          · exact ht hx
          · next hh =>
            cases l' with
            | nil => cases hx
            | cons a l =>
              rcases List.mem_cons.1 hx with rfl | hx
              · exact hh rfl
              · exact ht hx

/-- The ancestors of a class with these bases, apart from itself. -/
theorem mroOf_spec {w : World} {c : Nat} {bases m : List Nat} (h : mroOf w c bases = some m) :
    ∃ r, m = c :: r ∧ r.Nodup ∧ bases.Sublist r ∧ (∀ b ∈ bases, (w.cls b).mro.Sublist r) ∧
      ∀ x, x ∈ r ↔ x ∈ bases ∨ ∃ b ∈ bases, x ∈ (w.cls b).mro := by
  unfold mroOf at h
  simp only at h
  generalize hls : (bases.map (fun b => (w.cls b).mro) ++ [bases]) = ls at h
  cases hm : c3Merge ((ls.map List.length).sum + 1) ls with
  | none => rw [hm] at h; cases h
  | some r =>
    rw [hm] at h; cases h
    have hs := c3Merge_sublist _ _ _ hm
    refine ⟨r, rfl, c3Merge_nodup _ _ _ hm, hs _ (by rw [← hls]; simp), fun b hb => hs _ (by rw [← hls]; simp; exact Or.inl ⟨b, hb, rfl⟩), fun x => ?_⟩
    rw [c3Merge_mem _ _ _ hm x, ← hls]
    simp only [List.mem_append, List.mem_map, List.mem_singleton]
    constructor
    · rintro ⟨l, ⟨b, hb, rfl⟩ | rfl, hx⟩
      exacts [Or.inr ⟨b, hb, hx⟩, Or.inl hx]
    · rintro (h | ⟨b, hb, hx⟩)
      exacts [⟨_, Or.inr rfl, h⟩, ⟨_, Or.inl ⟨b, hb, rfl⟩, hx⟩]

/-! ### C141 -/

/-- Method resolution order: a new class comes first; then every class its bases know, none twice, the bases in the order given, and each base's own order kept. -/
theorem C141_order {w w' : World} {name : PStr} {bases : List Nat} {own : Own} {c : Nat} (wr : w.Reach)
    (hb : ∀ b ∈ bases, b < w.classes.length) (h : newClass w name bases own = .ok (w', c)) :
    ∃ r, (w'.cls c).mro = c :: r ∧ (c :: r).Nodup ∧ bases.Sublist r ∧ (∀ b ∈ bases, (w.cls b).mro.Sublist r) ∧
      ∀ x ∈ r, ∃ b ∈ bases, x ∈ (w.cls b).mro := by
  obtain ⟨rfl, s, m, hs, hm, rfl⟩ := newClass_ok h
  rw [cls_last]
  obtain ⟨r, rfl, h1, h2, h3, h4⟩ := mroOf_spec hm
  have h5 : ∀ x ∈ r, ∃ b ∈ bases, x ∈ (w.cls b).mro := by
    intro x hx
    rcases (h4 x).1 hx with hx | hx
    · exact ⟨x, hx, List.mem_of_mem_head? (wr.wf.cls x (hb x hx)).self⟩
    · exact hx
  refine ⟨r, rfl, List.nodup_cons.2 ⟨fun hx => ?_, h1⟩, h2, h3, h5⟩
  obtain ⟨b, hbm, hx⟩ := h5 _ hx
  have := (wr.wf.cls b (hb b hbm)).bound _ hx
  omega

theorem before_of_sublist {p q l1 l2 : List Nat} {a x : Nat} (h : (p ++ a :: q).Sublist (l1 ++ a :: l2)) (nd : (l1 ++ a :: l2).Nodup)
    (hx : x ∈ p) : x ∈ l1 := by
  have nd' := h.nodup nd
  have hxa : x ≠ a := by
    rintro rfl
    exact (List.nodup_append.1 nd').2.2 x hx x (by simp) rfl
  have h1 : [x, a].Sublist (l1 ++ a :: l2) := by
    refine List.Sublist.trans ?_ h
    exact List.Sublist.append (List.singleton_sublist.2 hx) (List.singleton_sublist.2 (by simp)) (l₁ := [x]) (r₁ := [a])
  obtain ⟨u, v, e, hu, hv⟩ := List.sublist_append_iff.1 h1
  match u, e, hu with
  | [], e, _ =>
    simp only [List.nil_append] at e; subst e
    cases hv with
    | cons _ hv =>
      have : a ∈ l2 := hv.subset (by simp)
      have := (List.nodup_append.1 nd).2.1
      exact absurd ‹a ∈ l2› (List.nodup_cons.1 this).1
    | cons_cons _ hv => exact absurd rfl hxa
  | y :: u, e, hu =>
    simp only [List.cons_append, List.cons.injEq] at e
    exact e.1 ▸ hu.subset (by simp)

/-- The value that a new class inherits is one that a base has. -/
theorem lookup_inherited {α} {w w' : World} {name : PStr} {bases : List Nat} {own : Own} {c : Nat} (wr : w.Reach) (hne : bases ≠ [])
    (hb : ∀ b ∈ bases, b < w.classes.length) (h : newClass w name bases own = .ok (w', c)) (f : Cls → Option α) :
    (∀ v, f (w'.cls c) = some v → w'.lookup c f = some v) ∧
    (f (w'.cls c) = none → ∃ b ∈ bases, w'.lookup c f = w.lookup b f) := by
  obtain ⟨r, h1, h2, h3, h4, h5⟩ := C141_order wr hb h
  obtain ⟨hc, hk⟩ := C57_others_kept h
  have hr : r.findSome? (fun k => f (w'.cls k)) = r.findSome? (fun k => f (w.cls k)) := by
    refine findSome_congr fun x hx => ?_
    obtain ⟨b, hbm, hx⟩ := h5 x hx
    rw [hk x ((wr.wf.cls b (hb b hbm)).bound x hx)]
  unfold World.lookup
  rw [h1, List.findSome?_cons]
  refine ⟨fun v hv => by rw [hv], fun hn => ?_⟩
  rw [hn]
  dsimp only
  rw [hr]
  cases hf : r.findSome? (fun k => f (w.cls k)) with
  | none =>
    obtain ⟨b, hbm⟩ := List.exists_mem_of_ne_nil _ hne
    refine ⟨b, hbm, ?_⟩
    symm
    rw [List.findSome?_eq_none_iff] at hf ⊢
    exact fun x hx => hf x ((h4 b hbm).subset hx)
  | some v =>
    obtain ⟨l1, a, l2, rfl, hv, hl1⟩ := List.findSome?_eq_some_iff.1 hf
    obtain ⟨b, hbm, ha⟩ := h5 a (by simp)
    refine ⟨b, hbm, ?_⟩
    obtain ⟨p, q, hpq⟩ := List.append_of_mem ha
    have hs := h4 b hbm
    rw [hpq] at hs ⊢
    symm
    refine List.findSome?_eq_some_iff.2 ⟨p, a, q, rfl, hv, fun x hx => hl1 x (before_of_sublist hs (List.nodup_cons.1 h2).2 hx)⟩

theorem own_attrs {w w' : World} {name : PStr} {bases : List Nat} {own : Own} {c : Nat} (h : newClass w name bases own = .ok (w', c)) :
    (w'.cls c).lang = own.lang ∧ (w'.cls c).rdfClasses = own.rdfClasses := by
  obtain ⟨rfl, s, m, hs, hm, rfl⟩ := newClass_ok h
  rw [cls_last]; exact ⟨rfl, rfl⟩

/-- What the class statement gives is what the class has. -/
theorem C141_own {w w' : World} {name : PStr} {bases : List Nat} {own : Own} {c : Nat} (wr : w.Reach) (hne : bases ≠ [])
    (hb : ∀ b ∈ bases, b < w.classes.length) (h : newClass w name bases own = .ok (w', c)) :
    (∀ l, own.lang = some l → w'.lang c = l) ∧ (∀ ts, own.rdfClasses = some ts → w'.rdfClasses c = ts) := by
  obtain ⟨e1, e2⟩ := own_attrs h
  refine ⟨fun l hl => ?_, fun ts ht => ?_⟩
  · unfold World.lang; rw [(lookup_inherited wr hne hb h Cls.lang).1 l (e1.trans hl)]; rfl
  · unfold World.rdfClasses; rw [(lookup_inherited wr hne hb h Cls.rdfClasses).1 ts (e2.trans ht)]; rfl

/-- What it does not give is inherited: the value is the one of a base. -/
theorem C141_inherited {w w' : World} {name : PStr} {bases : List Nat} {own : Own} {c : Nat} (wr : w.Reach) (hne : bases ≠ [])
    (hb : ∀ b ∈ bases, b < w.classes.length) (h : newClass w name bases own = .ok (w', c)) :
    (own.lang = none → ∃ b ∈ bases, w'.lang c = w.lang b) ∧ (own.rdfClasses = none → ∃ b ∈ bases, w'.rdfClasses c = w.rdfClasses b) := by
  obtain ⟨e1, e2⟩ := own_attrs h
  refine ⟨fun hl => ?_, fun ht => ?_⟩
  · obtain ⟨b, hb, e⟩ := (lookup_inherited wr hne hb h Cls.lang).2 (e1.trans hl)
    exact ⟨b, hb, by unfold World.lang; rw [e]⟩
  · obtain ⟨b, hb, e⟩ := (lookup_inherited wr hne hb h Cls.rdfClasses).2 (e2.trans ht)
    exact ⟨b, hb, by unfold World.rdfClasses; rw [e]⟩

/-- Which base: the value is that of the first class in the resolution order that gives one itself. -/
theorem C141_first_giver {w : World} {c d : Nat} {pre post : List Nat} (hm : (w.cls c).mro = pre ++ d :: post) :
    (∀ v, (∀ x ∈ pre, (w.cls x).lang = none) → (w.cls d).lang = some v → w.lang c = v) ∧
    (∀ v, (∀ x ∈ pre, (w.cls x).rdfClasses = none) → (w.cls d).rdfClasses = some v → w.rdfClasses c = v) := by
  constructor
  · intro v h1 h2
    have : w.lookup c Cls.lang = some v := List.findSome?_eq_some_iff.2 ⟨pre, d, post, hm, h2, h1⟩
    unfold World.lang; rw [this]; rfl
  · intro v h1 h2
    have : w.lookup c Cls.rdfClasses = some v := List.findSome?_eq_some_iff.2 ⟨pre, d, post, hm, h2, h1⟩
    unfold World.rdfClasses; rw [this]; rfl

/-- With one base: the class, then the base's order; language and classes are the given ones or the base's. -/
theorem C141_single {w w' : World} {name : PStr} {b : Nat} {own : Own} {c : Nat} (wr : w.Reach)
    (hb : b < w.classes.length) (h : newClass w name [b] own = .ok (w', c)) :
    (w'.cls c).mro = c :: (w.cls b).mro ∧ w'.lang c = own.lang.getD (w.lang b) ∧ w'.rdfClasses c = own.rdfClasses.getD (w.rdfClasses b) := by
  have hb' : ∀ x ∈ [b], x < w.classes.length := by simpa using hb
  have ho := C141_own wr (by simp) hb' h
  have hi := C141_inherited wr (by simp) hb' h
  refine ⟨?_, ?_, ?_⟩
  · obtain ⟨r, h1, h2, h3, h4, h5⟩ := C141_order wr hb' h
    rw [h1]
    have hs := h4 b (by simp)
    have hsub : r ⊆ (w.cls b).mro := fun x hx => by
      obtain ⟨b', hb', hx⟩ := h5 x hx
      rw [List.mem_singleton] at hb'; subst hb'; exact hx
    rw [hs.eq_of_length_le (List.subperm_of_subset (List.nodup_cons.1 h2).2 hsub).length_le]
  · cases hl : own.lang with
    | some l => exact ho.1 l hl
    | none =>
      obtain ⟨x, hx, e⟩ := hi.1 hl
      rw [List.mem_singleton] at hx; subst hx; exact e
  · cases hl : own.rdfClasses with
    | some l => exact ho.2 l hl
    | none =>
      obtain ⟨x, hx, e⟩ := hi.2 hl
      rw [List.mem_singleton] at hx; subst hx; exact e

/-- The base that decides is not always the first one: it is the first class in the resolution order that gives a value. With two bases
    of which only the second gives its own language, that one is used. -/
def C141_first_statement : Prop :=
  ∀ (w w' : World) (name : PStr) (b1 b2 c : Nat), w.Reach → b1 < w.classes.length → b2 < w.classes.length →
    newClass w name [b1, b2] {} = .ok (w', c) → w'.lang c = w.lang b1

def mroW1 : World := match newClass World.new (py! "A") [0] {} with
  | .ok (w, _) => w
  | .error _ => World.new

def mroW2 : World := match newClass mroW1 (py! "B") [0] { lang := some (some (py! "fr")) } with
  | .ok (w, _) => w
  | .error _ => World.new

def mroW3 : World := match newClass mroW2 (py! "C") [2, 3] {} with
  | .ok (w, _) => w
  | .error _ => World.new

theorem mroW1_def : newClass World.new (py! "A") [0] {} = .ok (mroW1, 2) := by decide
theorem mroW2_def : newClass mroW1 (py! "B") [0] { lang := some (some (py! "fr")) } = .ok (mroW2, 3) := by decide
theorem mroW3_def : newClass mroW2 (py! "C") [2, 3] {} = .ok (mroW3, 4) := by decide

theorem mroW2_reach : mroW2.Reach :=
  .define (.define .new (by simp) (by decide) mroW1_def) (by simp) (by decide) mroW2_def

/-- A class without a language of its own, before one that has: the second decides. -/
theorem C141_first_refuted : ¬ C141_first_statement := by
  intro h
  have := h mroW2 mroW3 (py! "C") 2 3 4 mroW2_reach (by decide) (by decide) mroW3_def
  revert this; decide

/-- The hypotheses can be met: `class C(A, B)` with `B` French. -/
example : (mroW3.cls 4).mro = [4, 2, 3, 0] ∧ mroW3.lang 4 = some (py! "fr") ∧ mroW3.lang 2 = some (py! "en") ∧ mroW3.rdfClasses 4 = [] := by decide

/-- Inconsistent orders are refused: `class D(Resource, A)`. -/
example : newClass mroW2 (py! "D") [0, 2] {} = .error .typeError := by decide

end Verif
