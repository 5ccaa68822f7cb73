import Verif.Lemmas.UrlJoin
/-
Parsing of composed references by urlparse, and urljoin on them.
-/
namespace Verif
open Spec

theorem splitFirst_append {c : Nat} {a : PStr} (h : c ∉ a) (b : PStr) : splitFirst c (a ++ c :: b) = some (a, b) := by
  induction a with
  | nil => simp [splitFirst]
  | cons x xs ih =>
    rw [List.cons_append, splitFirst, if_neg (by rintro rfl; simp at h), ih (by simp_all)]
    rfl

theorem splitFirst_none {c : Nat} {a : PStr} (h : c ∉ a) : splitFirst c a = none := by
  induction a with
  | nil => rfl
  | cons x xs ih => rw [splitFirst, if_neg (by rintro rfl; simp at h), ih (by simp_all)]; rfl

theorem splitFirst_some {c : Nat} {s a b : PStr} (h : splitFirst c s = some (a, b)) : s = a ++ c :: b ∧ c ∉ a := by
  induction s generalizing a b with
  | nil => cases h
  | cons x xs ih =>
    rw [splitFirst] at h
    split at h
    · next hx => cases h; subst hx; simp
    · next hx =>
      cases hr : splitFirst c xs with
      | none => rw [hr] at h; cases h
      | some r =>
        obtain ⟨a', b'⟩ := r
        rw [hr] at h
        cases h
        obtain ⟨h1, h2⟩ := ih hr
        refine ⟨by rw [h1]; rfl, ?_⟩
        simp only [List.mem_cons, not_or]
        exact ⟨fun e => hx e.symm, h2⟩

/-- `[prefix char][text]` of an optional component. -/
def opt (c : Nat) : Option PStr → PStr
  | none => []
  | some s => c :: s

theorem text_eq (r : Ref) : r.text = (match r.scheme with | some s => s ++ py! ":" | none => []) ++
    ((match r.authority with | some a => py! "//" ++ a | none => []) ++ (r.path ++ (opt 63 r.query ++ opt 35 r.fragment))) := by
  unfold Ref.text
  cases r.query <;> cases r.fragment <;> rfl

theorem cutAt_opt {c : Nat} {x : PStr} (h : c ∉ x) (o : Option PStr) : cutAt c (x ++ opt c o) = (x, o.getD []) := by
  cases o with
  | none => simp only [opt, List.append_nil, cutAt, splitFirst_none h, Option.getD_none]
  | some y => simp only [opt, cutAt, splitFirst_append h, Option.getD_some]

/-- Text that ends the authority: empty or beginning with `/`, `?` or `#`. -/
def Delim (s : PStr) : Prop := s = [] ∨ s.head? = some 47 ∨ s.head? = some 63 ∨ s.head? = some 35

theorem splitNetloc_some {a rest : PStr} (ha : 47 ∉ a ∧ 63 ∉ a ∧ 35 ∉ a) (hr : Delim rest) :
    splitNetloc (47 :: 47 :: (a ++ rest)) = (a, rest) := by
  have hpos : ∀ x ∈ a, (!(x == 47 || x == 63 || x == 35)) = true := by
    intro x hx
    have h1 : x ≠ 47 := by rintro rfl; exact ha.1 hx
    have h2 : x ≠ 63 := by rintro rfl; exact ha.2.1 hx
    have h3 : x ≠ 35 := by rintro rfl; exact ha.2.2 hx
    simp [h1, h2, h3]
  rw [splitNetloc, List.takeWhile_append_of_pos hpos, List.dropWhile_append_of_pos hpos]
  have : rest.takeWhile (fun c => !(c == 47 || c == 63 || c == 35)) = [] ∧ rest.dropWhile (fun c => !(c == 47 || c == 63 || c == 35)) = rest := by
    cases rest with
    | nil => exact ⟨rfl, rfl⟩
    | cons x xs =>
      rcases hr with h | h | h | h
      · cases h
      all_goals
        simp only [List.head?_cons, Option.some.injEq] at h
        subst h
        exact ⟨rfl, rfl⟩
  rw [this.1, this.2, List.append_nil]

theorem splitNetloc_none {s : PStr} (h : ¬ [47, 47] <+: s) : splitNetloc s = ([], s) := by
  unfold splitNetloc
  split
  · next r => exact absurd ⟨r, rfl⟩ h
  · rfl

theorem opts_delim (q f : Option PStr) : Delim (opt 63 q ++ opt 35 f) := by
  cases q <;> cases f <;> simp [opt, Delim]

theorem path_opts_delim {p : PStr} (h : p = [] ∨ p.head? = some 47) (q f : Option PStr) : Delim (p ++ (opt 63 q ++ opt 35 f)) := by
  cases p with
  | nil => exact opts_delim q f
  | cons c cs =>
    rcases h with h | h
    · cases h
    · exact Or.inr (Or.inl (by simpa using h))

theorem not_prefix_opts {p : PStr} (h : ¬ [47, 47] <+: p) (q f : Option PStr) : ¬ [47, 47] <+: p ++ (opt 63 q ++ opt 35 f) := by
  rintro ⟨t, ht⟩
  match p, h, ht with
  | [], _, ht => cases q <;> cases f <;> simp [opt] at ht
  | [c], _, ht => cases q <;> cases f <;> simp [opt] at ht
  | c :: d :: p, h, ht =>
    simp only [List.cons_append, List.cons.injEq] at ht
    exact h ⟨p, by rw [← ht.1, ← ht.2.1]; rfl⟩

theorem splitScheme_some {s : PStr} (hs : ∃ c cs, s = c :: cs ∧ (65 ≤ c ∧ c ≤ 90 ∨ 97 ≤ c ∧ c ≤ 122) ∧
    ∀ x ∈ cs, 65 ≤ x ∧ x ≤ 90 ∨ 97 ≤ x ∧ x ≤ 122 ∨ 48 ≤ x ∧ x ≤ 57 ∨ x = 43 ∨ x = 45 ∨ x = 46) (dflt rest : PStr) :
    splitScheme dflt (s ++ 58 :: rest) = (s.map asciiLower, rest) := by
  obtain ⟨c, cs, rfl, hc, hcs⟩ := hs
  have hno : 58 ∉ c :: cs := by
    intro h
    rcases List.mem_cons.1 h with h | h
    · omega
    · have := hcs 58 h; omega
  unfold splitScheme
  rw [splitFirst_append hno]
  have ha : isAsciiAlpha c = true := by
    unfold isAsciiAlpha
    simp only [Bool.or_eq_true, Bool.and_eq_true, decide_eq_true_eq]
    exact hc
  have hall : (c :: cs).all isSchemeChar = true := by
    rw [List.all_eq_true]
    intro x hx
    unfold isSchemeChar
    rcases List.mem_cons.1 hx with rfl | hx
    · simp [ha]
    · have := hcs x hx
      simp only [isAsciiAlpha, Bool.or_eq_true, Bool.and_eq_true, decide_eq_true_eq, beq_iff_eq]
      omega
  simp only [ha, hall, Bool.and_self, if_true]

theorem splitScheme_none {s dflt : PStr} (h : ∀ a b, s = a ++ 58 :: b → 58 ∉ a → 47 ∈ a ∨ 63 ∈ a ∨ 35 ∈ a ∨ a = []) : splitScheme dflt s = (dflt, s) := by
  unfold splitScheme
  cases hf : splitFirst 58 s with
  | none => rfl
  | some r =>
    obtain ⟨a, b⟩ := r
    obtain ⟨h1, h2⟩ := splitFirst_some hf
    cases a with
    | nil => rfl
    | cons c cs =>
      have : ¬ (isAsciiAlpha c && (c :: cs).all isSchemeChar) = true := by
        intro hh
        rw [Bool.and_eq_true, List.all_eq_true] at hh
        have bad : ∀ x, x ∈ c :: cs → isSchemeChar x = true := hh.2
        rcases h _ _ h1 h2 with h | h | h | h
        · exact absurd (bad _ h) (by decide)
        · exact absurd (bad _ h) (by decide)
        · exact absurd (bad _ h) (by decide)
        · cases h
      simp only [if_neg this]

/-- The parts of a path that urlparse returns. -/
def parts (scheme path : PStr) : PStr × PStr := if usesParams.contains scheme then splitParams path else (path, [])

/-- The scheme that urlparse returns. -/
def schemeOf (r : Ref) (dflt : PStr) : PStr := match r.scheme with | some s => s.map asciiLower | none => dflt

theorem clean_id {s : PStr} (h : ∀ c ∈ s, 32 < c) : ((s.dropWhile (· ≤ 32)).filter fun c => !(c == 9 || c == 13 || c == 10)) = s := by
  have h1 : s.dropWhile (· ≤ 32) = s := by
    cases s with
    | nil => rfl
    | cons c cs =>
      have := h c (by simp)
      rw [List.dropWhile_cons_of_neg]
      simp; omega
  rw [h1, List.filter_eq_self]
  intro c hc
  have := h c hc
  have a1 : c ≠ 9 := by omega
  have a2 : c ≠ 13 := by omega
  have a3 : c ≠ 10 := by omega
  simp [a1, a2, a3]

/-- What urlparse makes of a reference. -/
theorem urlparse_text {r : Ref} (h : r.WF) (nl : PStr → Bool) (dflt : PStr) (hn : nl (r.authority.getD []) = true) :
    urlparse nl r.text dflt = .ok ⟨schemeOf r dflt, r.authority.getD [], (parts (schemeOf r dflt) r.path).1,
      (parts (schemeOf r dflt) r.path).2, r.query.getD [], r.fragment.getD []⟩ := by
  have hq : 35 ∉ r.path ++ opt 63 r.query := by
    rw [List.mem_append, not_or]
    refine ⟨h.path.2, ?_⟩
    cases hq : r.query with
    | none => simp [opt]
    | some q => simp only [opt, List.mem_cons, not_or]; exact ⟨by decide, h.query q hq⟩
  have tail : cutAt 35 (r.path ++ (opt 63 r.query ++ opt 35 r.fragment)) = (r.path ++ opt 63 r.query, r.fragment.getD []) := by
    rw [← List.append_assoc, cutAt_opt hq]
  have net : splitNetloc ((match r.authority with | some a => py! "//" ++ a | none => []) ++ (r.path ++ (opt 63 r.query ++ opt 35 r.fragment))) =
      (r.authority.getD [], r.path ++ (opt 63 r.query ++ opt 35 r.fragment)) := by
    cases ha : r.authority with
    | none => exact splitNetloc_none (not_prefix_opts (h.pathNoAuth ha) _ _)
    | some a => exact splitNetloc_some (h.authority a ha) (path_opts_delim (h.pathAuth (by rw [ha]; rfl)) _ _)
  have sch : splitScheme dflt r.text = (schemeOf r dflt,
      (match r.authority with | some a => py! "//" ++ a | none => []) ++ (r.path ++ (opt 63 r.query ++ opt 35 r.fragment))) := by
    rw [text_eq]
    unfold schemeOf
    cases hs : r.scheme with
    | some s =>
      simp only [List.append_assoc]
      exact splitScheme_some (h.scheme s hs) _ _
    | none =>
      simp only [List.nil_append]
      apply splitScheme_none
      intro a b hab hna
      cases ha : r.authority with
      | some au =>
        rw [ha] at hab
        cases a with
        | nil => simp
        | cons x xs => simp only [List.cons_append, List.cons.injEq] at hab; simp [← hab.1]
      | none =>
        rw [ha] at hab
        simp only [List.nil_append] at hab
        have h0 := h.pathNoScheme hs ha
        -- the prefix before the colon reaches beyond the first segment
        rcases Nat.lt_or_ge a.length r.path.length with hl | hl
        · have : a ++ [58] <+: r.path := by
            apply List.prefix_of_prefix_length_le (l₃ := r.path ++ (opt 63 r.query ++ opt 35 r.fragment))
            · exact ⟨b, by rw [hab]; simp⟩
            · exact List.prefix_append _ _
            · simp; omega
          obtain ⟨t, ht⟩ := this
          left
          apply Decidable.byContradiction; intro hn
          apply h0
          rw [← ht, List.append_assoc, (head_noSlash hn).1]
          simp
        · have : r.path <+: a := by
            apply List.prefix_of_prefix_length_le (l₃ := r.path ++ (opt 63 r.query ++ opt 35 r.fragment))
            · exact List.prefix_append _ _
            · exact ⟨58 :: b, hab.symm⟩
            · exact hl
          obtain ⟨t, rfl⟩ := this
          rw [List.append_assoc, List.append_cancel_left_eq] at hab
          cases t with
          | nil =>
            exfalso
            revert hab
            cases r.query <;> cases r.fragment <;> simp [opt]
          | cons x xs =>
            revert hab
            cases r.query <;> cases r.fragment <;> simp [opt] <;> intro hx _ <;> subst hx <;> simp
  unfold urlparse
  rw [clean_id h.visible]
  simp only [sch, net, hn, if_true, tail, cutAt_opt h.path.1]
  rfl

/-! ### Parameters -/

theorem joinSlash_concat (init : List PStr) (l : PStr) : joinSlash (init ++ [l]) = (init.flatMap fun w => w ++ [47]) ++ l := by
  induction init with
  | nil => simp [joinSlash]
  | cons s ss ih =>
    rw [List.cons_append, joinSlash_cons, List.flatMap_cons, List.append_assoc, ← ih]
    cases hx : ss ++ [l] with
    | nil => simp at hx
    | cons a b => rw [joinSlash_cons, slashed_cons]; simp

theorem joinSlash_splitSlash (s : PStr) : joinSlash (splitSlash s) = s := by
  cases h : splitSlash s with
  | nil => exact absurd h (splitSlash_ne_nil s)
  | cons a b =>
    rw [joinSlash_cons]
    have := slashed_splitSlash s
    rw [h, slashed_cons] at this
    exact (List.cons.inj this).2

theorem splitSlash_joinSlash {s : PStr} {ss : List PStr} (h : ∀ w ∈ s :: ss, 47 ∉ w) : splitSlash (joinSlash (s :: ss)) = s :: ss := by
  rw [joinSlash_cons]
  exact splitSlash_slashed (h s (by simp)) fun w hw => h w (by simp [hw])

theorem splitParams_concat (init : List PStr) {l : PStr} (hl : 47 ∉ l) :
    splitParams (joinSlash (init ++ [l])) =
      match splitFirst 59 l with
      | none => (joinSlash (init ++ [l]), [])
      | some (a, b) => (joinSlash (init ++ [a]), b) := by
  unfold splitParams
  have hlast : ((joinSlash (init ++ [l])).reverse.takeWhile (· ≠ 47)).reverse = l := by
    have hpos : ∀ x ∈ l.reverse, decide (x ≠ 47) = true := by
      intro x hx
      simp only [decide_eq_true_eq]
      rintro rfl
      exact hl (List.mem_reverse.1 hx)
    rw [joinSlash_concat, List.reverse_append, List.takeWhile_append_of_pos hpos]
    rcases List.eq_nil_or_concat init with rfl | ⟨i, w, rfl⟩
    · simp
    · rw [List.concat_eq_append, List.flatMap_append, List.flatMap_cons, List.flatMap_nil, List.append_nil, List.reverse_append, List.reverse_append]
      simp
  simp only [hlast]
  have hdir : (joinSlash (init ++ [l])).take ((joinSlash (init ++ [l])).length - l.length) = init.flatMap fun w => w ++ [47] := by
    rw [joinSlash_concat, List.length_append, Nat.add_sub_cancel]
    exact List.take_left ..
  rw [hdir]
  cases splitFirst 59 l with
  | none => rfl
  | some r => simp only [joinSlash_concat]

/-- A path as its segments, and the same with the parameters split off. -/
theorem parts_segs (scheme path : PStr) (hend : path.getLast? ≠ some 59) :
    ∃ init l a b, splitSlash path = init ++ [l] ∧ splitSlash (parts scheme path).1 = init ++ [a] ∧ (parts scheme path).2 = b ∧
      (parts scheme path).1 = joinSlash (init ++ [a]) ∧
      ((b = [] ∧ l = a) ∨ (b ≠ [] ∧ l = a ++ 59 :: b)) := by
  have hs := splitSlash_ne_nil path
  have hns := splitSlash_noSlash path
  have hj := joinSlash_splitSlash path
  rcases List.eq_nil_or_concat (splitSlash path) with h | ⟨init, l, h⟩
  · exact absurd h hs
  rw [List.concat_eq_append] at h
  rw [h] at hns hj
  have hl : 47 ∉ l := hns l (by simp)
  have hsplit : ∀ a, 47 ∉ a → splitSlash (joinSlash (init ++ [a])) = init ++ [a] := by
    intro a ha
    have : ∀ w ∈ init ++ [a], 47 ∉ w := by
      intro w hw
      rcases List.mem_append.1 hw with h | h
      · exact hns w (by simp [h])
      · simp only [List.mem_singleton] at h; exact h ▸ ha
    cases hx : init ++ [a] with
    | nil => simp at hx
    | cons s ss => rw [hx] at this; exact splitSlash_joinSlash this
  unfold parts
  split
  · have := splitParams_concat init hl
    rw [hj] at this
    rw [this]
    cases hf : splitFirst 59 l with
    | none => exact ⟨init, l, l, [], h, h, rfl, hj.symm, Or.inl ⟨rfl, rfl⟩⟩
    | some r =>
      obtain ⟨a, b⟩ := r
      obtain ⟨e, -⟩ := splitFirst_some hf
      refine ⟨init, l, a, b, h, hsplit a (by rw [e] at hl; simp at hl; exact hl.1), rfl, rfl, Or.inr ⟨?_, e⟩⟩
      rintro rfl
      apply hend
      rw [← hj, joinSlash_concat, e]
      simp
  · exact ⟨init, l, l, [], h, h, rfl, hj.symm, Or.inl ⟨rfl, rfl⟩⟩

theorem parts_join (scheme path : PStr) (hend : path.getLast? ≠ some 59) :
    (if (parts scheme path).2 = [] then (parts scheme path).1 else (parts scheme path).1 ++ 59 :: (parts scheme path).2) = path := by
  obtain ⟨init, l, a, b, h1, -, h3, h4, h5⟩ := parts_segs scheme path hend
  have hj := joinSlash_splitSlash path
  rw [h1] at hj
  rw [h3, h4]
  rcases h5 with ⟨hb, rfl⟩ | ⟨hb, rfl⟩
  · rw [if_pos hb, hj]
  · rw [if_neg hb, ← hj, joinSlash_concat, joinSlash_concat, List.append_assoc]

/-! ### The resolved path -/

/-- What `resolvePath` and the recomposition make of the segments. -/
theorem finish {init : List PStr} {a params l : PStr}
    (hl : (params = [] ∧ l = a) ∨ (params ≠ [] ∧ l = a ++ 59 :: params ∧ a ≠ [46] ∧ a ≠ [46, 46]))
    (hns : ∀ w ∈ init ++ [l], 47 ∉ w) (hne : ∀ w ∈ init, w ≠ []) :
    let segs := [] :: (init ++ [a])
    let r := resolveLoop [] segs
    let r := if segs.getLast? = some [46] ∨ segs.getLast? = some [46, 46] then r ++ [[]] else r
    let p := if joinSlash r = [] then [47] else joinSlash r
    let url := if params = [] then p else p ++ 59 :: params
    (if url ≠ [] ∧ url.take 1 ≠ [47] then 47 :: url else url) = slashed (dots [] (init ++ [l])) ∧ url ≠ [] := by
  intro segs r r' p url
  have hr : r' = [] :: dots [] (init ++ [a]) ∨ r' = dots [] (init ++ [a]) := by
    have e1 : r = resolveLoop [[]] (init ++ [a]) := by
      show resolveLoop [] ([] :: (init ++ [a])) = _
      rw [resolveLoop, if_neg (by simp), if_neg (by simp)]
    have e2 : segs.getLast? = (init ++ [a]).getLast? := by
      show ([] :: (init ++ [a])).getLast? = _
      cases hx : init ++ [a] with
      | nil => simp at hx
      | cons x xs => rw [List.getLast?_cons_cons]
    have := resolveLoop_dots (acc := [[]]) (out := []) (segs := init ++ [a]) (by simp) (Or.inl rfl)
    dsimp only at this
    rw [← e1, ← e2] at this
    exact this
  have hnsa : ∀ w ∈ init ++ [a], 47 ∉ w := by
    intro w hw
    rcases List.mem_append.1 hw with h | h
    · exact hns w (by simp [h])
    · simp only [List.mem_singleton] at h
      subst h
      have := hns l (by simp)
      rcases hl with ⟨-, rfl⟩ | ⟨-, rfl, -⟩
      · exact this
      · simp at this; exact this.1
  -- the target text
  have htarget : slashed (dots [] (init ++ [l])) = if params = [] then slashed (dots [] (init ++ [a])) else slashed (dots [] (init ++ [a])) ++ 59 :: params := by
    rcases hl with ⟨h1, rfl⟩ | ⟨h1, rfl, h2, h3⟩
    · rw [if_pos h1]
    · rw [if_neg h1]
      obtain ⟨D, hD, -⟩ := dots_concat [] init a h3 h2
      rw [hD a h3 h2, hD (a ++ 59 :: params) (by
        intro e
        have : 59 ∈ [46, 46] := e ▸ by simp
        simp at this) (by
        intro e
        have : 59 ∈ [46] := e ▸ by simp
        simp at this)]
      simp [slashed_append, slashed_cons, slashed_nil]
  have hdn : dots [] (init ++ [a]) ≠ [] := dots_ne_nil _ _ (by simp)
  have hdne := dots_dropLast_ne (out := []) (segs := init ++ [a]) (by simp) (by rwa [List.dropLast_concat])
  have hdns : ∀ w ∈ dots [] (init ++ [a]), 47 ∉ w := by
    intro w hw
    rcases mem_dots hw with h | h | h
    · cases h
    · exact hnsa w h
    · subst h; simp
  rw [htarget]
  clear htarget
  have hp : p = slashed (dots [] (init ++ [a])) ∨ (p ≠ [] ∧ p.take 1 ≠ [47] ∧ 47 :: p = slashed (dots [] (init ++ [a]))) := by
    show (if joinSlash r' = [] then [47] else joinSlash r') = _ ∨ _
    cases hd : dots [] (init ++ [a]) with
    | nil => exact absurd hd hdn
    | cons s ss =>
      rw [hd] at hr hdne hdns
      rcases hr with hr | hr
      · left
        rw [hr, joinSlash_cons, List.nil_append, if_neg (by rw [slashed_cons]; simp)]
      · have hpe : p = if joinSlash (s :: ss) = [] then [47] else joinSlash (s :: ss) := by show (if joinSlash r' = [] then [47] else joinSlash r') = _; rw [hr]
        rw [hr]
        by_cases hs : s = []
        · subst hs
          cases ss with
          | nil => left; rfl
          | cons t ts => exact absurd rfl (hdne [] (by simp [List.dropLast_cons_cons]))
        · right
          have hj : joinSlash (s :: ss) = s ++ slashed ss := joinSlash_cons s ss
          have hjn : joinSlash (s :: ss) ≠ [] := by rw [hj]; simp [hs]
          rw [if_neg hjn] at hpe
          rw [hpe, hj]
          refine ⟨by simp [hs], ?_, rfl⟩
          cases s with
          | nil => exact absurd rfl hs
          | cons c cs =>
            have := hdns (c :: cs) (by simp)
            simp only [List.mem_cons, not_or] at this
            simp only [List.cons_append, List.take_succ_cons, List.take_zero, ne_eq, List.cons.injEq, and_true]
            exact fun e => this.1 e.symm
  obtain ⟨s, ss, hd⟩ : ∃ s ss, dots [] (init ++ [a]) = s :: ss := by
    cases hd : dots [] (init ++ [a]) with
    | nil => exact absurd hd hdn
    | cons s ss => exact ⟨s, ss, rfl⟩
  rw [hd, slashed_cons] at hp ⊢
  show (if (if params = [] then p else p ++ 59 :: params) ≠ [] ∧ (if params = [] then p else p ++ 59 :: params).take 1 ≠ [47] then
    47 :: (if params = [] then p else p ++ 59 :: params) else (if params = [] then p else p ++ 59 :: params)) = _ ∧
    (if params = [] then p else p ++ 59 :: params) ≠ []
  rcases hp with hp | ⟨h1, h2, h3⟩
  · rw [hp]
    by_cases hpar : params = []
    · simp [hpar]
    · simp [hpar]
  · by_cases hpar : params = []
    · rw [if_pos hpar, if_pos ⟨h1, h2⟩, h3, if_pos hpar]
      exact ⟨rfl, h1⟩
    · rw [if_neg hpar, if_neg hpar]
      have h2' : (p ++ 59 :: params).take 1 ≠ [47] := by
        cases hpp : p with
        | nil => exact absurd hpp h1
        | cons c cs =>
          rw [hpp] at h2
          simpa using h2
      rw [if_pos ⟨by simp, h2'⟩, ← h3]
      exact ⟨rfl, by simp⟩

end Verif
