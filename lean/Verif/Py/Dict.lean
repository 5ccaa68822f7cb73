import Verif.Py.Basic
/-
Python `dict` (insertion ordered) as an association list.

Simplification: the absence of duplicate keys is not part of the type; it is the invariant `Dict.WF`,
which every operation below preserves.
-/
namespace Verif

variable {κ ν : Type} [DecidableEq κ]

abbrev Dict (κ ν : Type) := List (κ × ν)

namespace Dict

/-- `d.get(k)` -/
def get? : Dict κ ν → κ → Option ν
  | [], _ => none
  | (k', v) :: d, k => if k' = k then some v else get? d k

/-- `k in d` -/
def has (d : Dict κ ν) (k : κ) : Bool := (get? d k).isSome

/-- `d[k] = v`: an existing key keeps its position, a new one goes to the end. -/
def set : Dict κ ν → κ → ν → Dict κ ν
  | [], k, v => [(k, v)]
  | (k', v') :: d, k, v => if k' = k then (k', v) :: d else (k', v') :: set d k v

/-- `del d[k]` (no effect on an absent key; callers check). -/
def del : Dict κ ν → κ → Dict κ ν
  | [], _ => []
  | (k', v') :: d, k => if k' = k then d else (k', v') :: del d k

/-- `d.keys()` -/
def keys (d : Dict κ ν) : List κ := d.map Prod.fst

/-- `d.values()` -/
def values (d : Dict κ ν) : List ν := d.map Prod.snd

/-- `d.update(e)` -/
def update (d e : Dict κ ν) : Dict κ ν := e.foldl (fun acc kv => acc.set kv.1 kv.2) d

/-- No key occurs twice. -/
def WF (d : Dict κ ν) : Prop := (keys d).Nodup

@[simp] theorem get?_nil (k : κ) : get? ([] : Dict κ ν) k = none := rfl

theorem get?_set (d : Dict κ ν) (k k' : κ) (v : ν) :
    get? (set d k v) k' = if k = k' then some v else get? d k' := by
  induction d with
  | nil => simp [set, get?]
  | cons a d ih =>
    obtain ⟨a, w⟩ := a
    simp only [set]
    split
    · next h => subst h; simp only [get?]; split <;> rfl
    · next h =>
      simp only [get?, ih]
      split
      · next h2 => subst h2; rw [if_neg (Ne.symm h)]
      · rfl

theorem mem_keys_iff (d : Dict κ ν) (k : κ) : k ∈ keys d ↔ (get? d k).isSome := by
  induction d with
  | nil => simp [keys, get?]
  | cons a d ih =>
    obtain ⟨a, w⟩ := a
    simp only [keys, List.map_cons, List.mem_cons, get?] at ih ⊢
    split
    · next h => simp [h]
    · next h => rw [ih]; constructor
                · rintro (h' | h'); exact absurd h'.symm h; exact h'
                · exact Or.inr

theorem get?_eq_none_iff (d : Dict κ ν) (k : κ) : get? d k = none ↔ k ∉ keys d := by
  rw [mem_keys_iff]; cases get? d k <;> simp

theorem mem_of_get? {d : Dict κ ν} {k : κ} {v : ν} (h : get? d k = some v) : (k, v) ∈ d := by
  induction d with
  | nil => simp at h
  | cons a d ih =>
    obtain ⟨a, w⟩ := a
    simp only [get?] at h
    split at h
    · next hk => subst hk; simp only [Option.some.injEq] at h; subst h; simp
    · exact List.mem_cons_of_mem _ (ih h)

theorem mem_iff_get? {d : Dict κ ν} (wf : WF d) {k : κ} {v : ν} : (k, v) ∈ d ↔ get? d k = some v := by
  refine ⟨fun h => ?_, mem_of_get?⟩
  induction d with
  | nil => simp at h
  | cons a d ih =>
    obtain ⟨a, w⟩ := a
    simp only [WF, keys, List.map_cons, List.nodup_cons] at wf
    rcases List.mem_cons.1 h with h | h
    · cases h; simp [get?]
    · simp only [get?]
      split
      · next hk =>
        subst hk
        exact absurd (List.mem_map.2 ⟨_, h, rfl⟩) wf.1
      · exact ih wf.2 h

theorem keys_set (d : Dict κ ν) (k : κ) (v : ν) :
    keys (set d k v) = if k ∈ keys d then keys d else keys d ++ [k] := by
  induction d with
  | nil => simp [set, keys]
  | cons a d ih =>
    obtain ⟨a, w⟩ := a
    simp only [set]
    split
    · next h => subst h; simp [keys]
    · next h =>
      simp only [keys, List.map_cons, List.mem_cons] at ih ⊢
      rw [ih]
      have hne : ¬ k = a := fun e => h e.symm
      by_cases hk : k ∈ List.map Prod.fst d <;> simp [hk, hne]

theorem WF.set {d : Dict κ ν} (wf : WF d) (k : κ) (v : ν) : WF (d.set k v) := by
  unfold WF at *
  rw [keys_set]
  split
  · exact wf
  · next h => rw [List.nodup_append]; exact ⟨wf, by simp, by intro a ha b hb; simp at hb; subst hb; exact fun e => h (e ▸ ha)⟩

theorem keys_del_sub (d : Dict κ ν) (k : κ) : (keys (del d k)).Sublist (keys d) := by
  induction d with
  | nil => simp [del, keys]
  | cons a d ih =>
    obtain ⟨a, w⟩ := a
    simp only [del]
    split
    · simp [keys]
    · simp only [keys, List.map_cons] at ih ⊢; exact ih.cons_cons _

theorem WF.del {d : Dict κ ν} (wf : WF d) (k : κ) : WF (d.del k) := wf.sublist (keys_del_sub d k)

theorem get?_del {d : Dict κ ν} (wf : WF d) (k k' : κ) :
    get? (del d k) k' = if k = k' then none else get? d k' := by
  induction d with
  | nil => simp [del]
  | cons a d ih =>
    obtain ⟨a, w⟩ := a
    simp only [WF, keys, List.map_cons, List.nodup_cons] at wf
    simp only [del]
    split
    · next h =>
      subst h
      split
      · next h2 => subst h2; rw [get?_eq_none_iff]; exact wf.1
      · next h2 => simp [get?, h2]
    · next h =>
      simp only [get?, ih wf.2]
      by_cases h2 : a = k'
      · subst h2; simp [Ne.symm h]
      · simp [h2]

theorem length_set (d : Dict κ ν) (k : κ) (v : ν) :
    (set d k v).length = if k ∈ keys d then d.length else d.length + 1 := by
  have h := congrArg List.length (keys_set d k v)
  simp only [keys, List.length_map] at h
  rw [h]
  by_cases hk : k ∈ List.map Prod.fst d <;> simp [keys, hk]

theorem length_del {d : Dict κ ν} {k : κ} (h : k ∈ keys d) : (del d k).length + 1 = d.length := by
  induction d with
  | nil => simp [keys] at h
  | cons a d ih =>
    obtain ⟨a, w⟩ := a
    simp only [del]
    split
    · simp
    · next hk =>
      simp only [keys, List.map_cons, List.mem_cons] at h
      rcases h with h | h
      · exact absurd h.symm hk
      · simp [ih h]

theorem mem_values {d : Dict κ ν} (wf : WF d) (v : ν) : v ∈ values d ↔ ∃ k, get? d k = some v := by
  simp only [values, List.mem_map, Prod.exists]
  constructor
  · rintro ⟨k, v', h, rfl⟩; exact ⟨k, (mem_iff_get? wf).1 h⟩
  · rintro ⟨k, h⟩; exact ⟨k, v, mem_of_get? h, rfl⟩

theorem has_iff (d : Dict κ ν) (k : κ) : has d k = true ↔ k ∈ keys d := by
  rw [mem_keys_iff]; rfl

theorem get?_update (d e : Dict κ ν) (k : κ) (wf : WF e) :
    get? (update d e) k = (get? e k).or (get? d k) := by
  unfold update
  induction e generalizing d with
  | nil => simp
  | cons a e ih =>
    obtain ⟨a, w⟩ := a
    simp only [WF, keys, List.map_cons, List.nodup_cons] at wf
    simp only [List.foldl_cons, ih _ wf.2, get?_set, get?]
    split
    · next h => subst h; rw [(get?_eq_none_iff e a).2 wf.1]; simp
    · rfl

theorem WF.update {d : Dict κ ν} (wf : WF d) (e : Dict κ ν) : WF (d.update e) := by
  unfold Dict.update
  induction e generalizing d with
  | nil => simpa
  | cons a e ih => exact ih (wf.set _ _)

end Dict
end Verif
