import Verif.Props.ResMroExact
/-
C141 III: the method resolution order is C3's, tie-break included: the order the lists are in decides among the classes that may come next.
-/
namespace Verif

/-- C3's merge of orders, as Python's documentation describes it: the next class is the first class of the first list whose first class is in no list behind another; it is
    removed everywhere. -/
inductive Spec.C3 : List (List Nat) → List Nat → Prop
  | done {ls} : (∀ l ∈ ls, l = []) → Spec.C3 ls []
  | next {pre post : List (List Nat)} {k : Nat} {t r : List Nat} :
      (∀ l ∈ pre ++ (k :: t) :: post, k ∉ l.tail) →
      (∀ l ∈ pre, ∀ h ∈ l.head?, ∃ l' ∈ pre ++ (k :: t) :: post, h ∈ l'.tail) →
      Spec.C3 ((pre ++ (k :: t) :: post).map fun l => l.filter fun x => x ≠ k) r → Spec.C3 (pre ++ (k :: t) :: post) (k :: r)

/-- There is at most one such order. -/
theorem Spec.C3.unique {ls : List (List Nat)} {r r' : List Nat} (h : Spec.C3 ls r) (h' : Spec.C3 ls r') : r = r' := by
  induction h generalizing r' with
  | done h =>
    cases h' with
    | done => rfl
    | next => exact absurd (h _ (List.mem_append_right _ (List.mem_cons_self ..))) (by simp)
  | @next pre post k t r h1 h2 _ ih =>
    generalize hls : pre ++ (k :: t) :: post = ls at h'
    cases h' with
    | done h => subst hls; exact absurd (h _ (List.mem_append_right _ (List.mem_cons_self ..))) (by simp)
    | @next pre' post' k' t' r' h1' h2' h3' =>
      have hk : k = k' := by
        rcases List.append_eq_append_iff.1 hls with ⟨d, e1, e2⟩ | ⟨d, e1, e2⟩
        · cases d with
          | nil => exact (List.cons.inj (List.cons.inj e2).1).1
          | cons x d =>
            have hx := (List.cons.inj e2).1
            subst hx
            obtain ⟨l', hl', hm⟩ := h2' (k :: t) (by rw [e1]; simp) k rfl
            rw [← hls] at hl'
            exact absurd hm (h1 l' hl')
        · cases d with
          | nil => exact (List.cons.inj (List.cons.inj e2).1).1.symm
          | cons x d =>
            have hx := (List.cons.inj e2).1
            subst hx
            obtain ⟨l', hl', hm⟩ := h2 (k' :: t') (by rw [e1]; simp) k' rfl
            rw [hls] at hl'
            exact absurd hm (h1' l' hl')
      subst hk
      rw [← hls] at h3'
      rw [ih h3']

theorem find?_split {α} {p : α → Bool} : ∀ {l : List α} {x : α}, l.find? p = some x → ∃ a b, l = a ++ x :: b ∧ p x = true ∧ ∀ y ∈ a, p y = false
  | y :: l, x, h => by
    rw [List.find?_cons] at h
    split at h
    · cases h; exact ⟨[], l, rfl, ‹_›, by simp⟩
    · obtain ⟨a, b, rfl, h1, h2⟩ := find?_split h
      exact ⟨y :: a, b, rfl, h1, List.forall_mem_cons.2 ⟨by simpa using ‹_›, h2⟩⟩

theorem filterMap_split {α β} {f : α → Option β} : ∀ {l : List α} {a : List β} {x : β} {b : List β}, l.filterMap f = a ++ x :: b →
    ∃ p y q, l = p ++ y :: q ∧ f y = some x ∧ p.filterMap f = a
  | [], a, x, b, h => by simp at h
  | z :: l, a, x, b, h => by
    cases hz : f z with
    | none =>
      rw [List.filterMap_cons_none hz] at h
      obtain ⟨p, y, q, rfl, h1, h2⟩ := filterMap_split h
      exact ⟨z :: p, y, q, rfl, h1, by rw [List.filterMap_cons_none hz, h2]⟩
    | some v =>
      rw [List.filterMap_cons_some hz] at h
      cases a with
      | nil => exact ⟨[], z, l, rfl, by rw [hz, (List.cons.inj h).1], rfl⟩
      | cons w a =>
        obtain ⟨p, y, q, rfl, h1, h2⟩ := filterMap_split (List.cons.inj h).2
        exact ⟨z :: p, y, q, rfl, h1, by rw [List.filterMap_cons_some hz, h2, (List.cons.inj h).1]⟩

theorem pop_eq_filter {k : Nat} {l : List Nat} (h : k ∉ l.tail) : (if l.head? = some k then l.tail else l) = l.filter fun x => x ≠ k := by
  have key : ∀ t : List Nat, k ∉ t → t.filter (fun x => x ≠ k) = t := fun t ht => List.filter_eq_self.2 fun x hx => by
    simp only [ne_eq, decide_eq_true_eq]; rintro rfl; exact ht hx
  cases l with
  | nil => rfl
  | cons a t =>
    have h : k ∉ t := h
    by_cases ha : a = k
    · subst ha
      rw [if_pos (show (a :: t).head? = some a from rfl), List.filter_cons_of_neg (by simp), key t h]
      rfl
    · rw [if_neg (by simpa using ha), List.filter_cons, if_pos (by simp [ha]), key t h]

theorem filter_map_pop (k : Nat) : ∀ ls : List (List Nat), (ls.map fun l => l.filter fun x => x ≠ k).filter (· ≠ []) =
    ((ls.filter (· ≠ [])).map fun l => l.filter fun x => x ≠ k).filter (· ≠ [])
  | [] => rfl
  | [] :: ls => filter_map_pop k ls
  | (x :: l) :: ls => by
    rw [List.filter_cons_of_pos (a := x :: l) (by simp), List.map_cons, List.map_cons]
    generalize (x :: l).filter (fun x => x ≠ k) = y
    rw [List.filter_cons, List.filter_cons, filter_map_pop k ls]

/-- Empty lists do not matter. -/
theorem Spec.C3.of_same {ls ls' : List (List Nat)} {r : List Nat} (h : Spec.C3 ls' r) (hf : ls.filter (· ≠ []) = ls'.filter (· ≠ [])) : Spec.C3 ls r := by
  have hmem' : ∀ {ls ls' : List (List Nat)}, ls.filter (· ≠ []) = ls'.filter (· ≠ []) → ∀ l ∈ ls, l = [] ∨ l ∈ ls' := fun hf l hl => by
    by_cases hl0 : l = []
    · exact .inl hl0
    · have : l ∈ List.filter (· ≠ []) _ := List.mem_filter.2 ⟨hl, by simpa using hl0⟩
      rw [hf] at this
      exact .inr (List.mem_filter.1 this).1
  induction h generalizing ls with
  | done h =>
    refine .done fun l hl => ?_
    rcases hmem' hf l hl with h0 | h0
    · exact h0
    · exact h l h0
  | @next pre post k t r h1 h2 h3 ih =>
    have hpop := ih (ls := ls.map fun l => l.filter fun x => x ≠ k) (by rw [filter_map_pop, hf, ← filter_map_pop])
    have hm := hmem' hf
    have hm' := hmem' hf.symm
    rw [List.filter_append, List.filter_cons, if_pos (by simp)] at hf
    obtain ⟨p, q', e, hp, hq⟩ := List.filter_eq_append_iff.1 hf
    obtain ⟨p', q, e', hp', _, hq'⟩ := List.filter_eq_cons_iff.1 hq
    subst e' e
    have e : p ++ (p' ++ (k :: t) :: q) = (p ++ p') ++ (k :: t) :: q := by simp
    rw [e] at hm hm' hpop ⊢
    refine .next (fun l hl => ?_) (fun l hl h hh => ?_) hpop
    · rcases hm l hl with rfl | hl
      · simp
      · exact h1 l hl
    · rcases List.mem_append.1 hl with hl | hl
      · have hne : l ≠ [] := by rintro rfl; cases hh
        have : l ∈ pre.filter (· ≠ []) := by rw [← hp]; exact List.mem_filter.2 ⟨hl, by simpa using hne⟩
        obtain ⟨l', hl', hm1⟩ := h2 l (List.mem_filter.1 this).1 h hh
        rcases hm' l' hl' with rfl | hl'
        · cases hm1
        · exact ⟨l', hl', hm1⟩
      · have := hp' l hl
        simp at this
        subst this
        cases hh

theorem Spec.C3.of_filter {ls : List (List Nat)} {r : List Nat} (h : Spec.C3 (ls.filter (· ≠ [])) r) : Spec.C3 ls r :=
  h.of_same (by rw [List.filter_filter]; congr 1; funext l; simp)

theorem c3Merge_c3 : ∀ (n : Nat) (ls : List (List Nat)) (r : List Nat), c3Merge n ls = some r → Spec.C3 ls r := by
  intro n
  induction n with
  | zero => intro ls r h; cases h
  | succ n ih =>
    intro ls r h
    refine .of_filter ?_
    unfold c3Merge at h
    dsimp only at h
    generalize ls.filter (· ≠ []) = fs at h
    cases fs with
    | nil => cases h; exact .done (by simp)
    | cons f fs =>
      dsimp only at h
      cases hk : c3Pick (f :: fs) with
      | none => rw [hk] at h; cases h
      | some k =>
        rw [hk] at h
        dsimp only at h
        cases hm : c3Merge n ((f :: fs).map fun l => if l.head? = some k then l.tail else l) with
        | none => rw [hm] at h; cases h
        | some r' =>
          rw [hm] at h
          cases h
          obtain ⟨a, b, e, h1, h2⟩ := find?_split hk
          obtain ⟨p, y, q, e', hy, hp⟩ := filterMap_split e
          obtain ⟨t, rfl⟩ : ∃ t, y = k :: t := by
            cases y with
            | nil => cases hy
            | cons x t => cases hy; exact ⟨t, rfl⟩
          simp only [List.all_eq_true, Bool.not_eq_true', List.contains_eq_mem, decide_eq_false_iff_not] at h1
          have hmap : ((f :: fs).map fun l => if l.head? = some k then l.tail else l) = (f :: fs).map fun l => l.filter fun x => x ≠ k :=
            List.map_congr_left fun l hl => pop_eq_filter (h1 l hl)
          have := ih _ _ hm
          rw [hmap] at this
          rw [e'] at this h1 h2 ⊢
          refine .next h1 (fun l hl h hh => ?_) this
          have := h2 h (by rw [← hp]; exact List.mem_filterMap.2 ⟨l, hl, hh⟩)
          refine Classical.byContradiction fun hno => ?_
          rw [Bool.eq_false_iff] at this
          refine this (List.all_eq_true.2 fun l' hl' => ?_)
          simp only [Bool.not_eq_true', List.contains_eq_mem, decide_eq_false_iff_not]
          exact fun hm => hno ⟨l', hl', hm⟩

/-- **C141: the method resolution order** of a new class is the class and then the C3 merge of the orders of its bases and of the list of its bases; `C3.unique`: this
    determines it. -/
theorem C141_c3 {w w' : World} {name : PStr} {bases : List Nat} {own : Own} {c : Nat} (h : newClass w name bases own = .ok (w', c)) :
    ∃ r, (w'.cls c).mro = c :: r ∧ Spec.C3 (bases.map (fun b => (w.cls b).mro) ++ [bases]) r := by
  obtain ⟨rfl, s, m, hs, hm, rfl⟩ := newClass_ok h
  rw [cls_last]
  unfold mroOf at hm
  dsimp only at hm
  cases hc : c3Merge ((bases.map (fun b => (w.cls b).mro) ++ [bases]).map List.length |>.sum |> (· + 1)) (bases.map (fun b => (w.cls b).mro) ++ [bases]) with
  | none => rw [hc] at hm; cases hm
  | some r => rw [hc] at hm; cases hm; exact ⟨r, rfl, c3Merge_c3 _ _ _ hc⟩

/-! The tie-break matters: `class E(A)`, `class F(B)`, `class G(E, F)` has the order G, E, A, F, B, Resource, and not G, E, F, A, B, Resource, though that keeps all orders too. -/

def c3W1 : World := match newClass mroW2 (py! "E") [2] {} with
  | .ok (w, _) => w
  | .error _ => World.new

def c3W2 : World := match newClass c3W1 (py! "F") [3] {} with
  | .ok (w, _) => w
  | .error _ => World.new

def c3W3 : World := match newClass c3W2 (py! "G") [4, 5] {} with
  | .ok (w, _) => w
  | .error _ => World.new

theorem c3W3_def : newClass c3W2 (py! "G") [4, 5] {} = .ok (c3W3, 6) := by decide

example : (c3W3.cls 6).mro = [6, 4, 2, 5, 3, 0] := by decide
example : Combines c3W2 [4, 5] [4, 5, 2, 3, 0] := by unfold Combines; decide
example := C141_c3 c3W3_def

end Verif
