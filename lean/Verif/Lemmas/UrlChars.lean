import Verif.Lemmas.UrlParse
/-
The characters of a joined reference come from the base, from the reference, or are separators.
-/
namespace Verif

/-- A set of characters that contains the separators and is closed under lower-casing. -/
structure CharSet (Q : Nat → Prop) : Prop where
  slash : Q 47
  semi : Q 59
  ask : Q 63
  hash : Q 35
  colon : Q 58
  lower : ∀ c, Q c → Q (asciiLower c)

def AllIn (Q : Nat → Prop) (s : PStr) : Prop := ∀ c ∈ s, Q c

variable {Q : Nat → Prop}

theorem AllIn.nil : AllIn Q [] := fun _ h => by cases h
theorem AllIn.cons {c : Nat} {s : PStr} (hc : Q c) (h : AllIn Q s) : AllIn Q (c :: s) := by
  intro x hx
  rcases List.mem_cons.1 hx with rfl | hx
  · exact hc
  · exact h x hx
theorem AllIn.append {a b : PStr} (ha : AllIn Q a) (hb : AllIn Q b) : AllIn Q (a ++ b) := by
  intro x hx
  rcases List.mem_append.1 hx with hx | hx
  · exact ha x hx
  · exact hb x hx
theorem AllIn.left {a b : PStr} (h : AllIn Q (a ++ b)) : AllIn Q a := fun x hx => h x (List.mem_append_left _ hx)
theorem AllIn.right {a b : PStr} (h : AllIn Q (a ++ b)) : AllIn Q b := fun x hx => h x (List.mem_append_right _ hx)
theorem AllIn.sub {a b : PStr} (h : AllIn Q a) (hs : b.Sublist a) : AllIn Q b := fun x hx => h x (hs.mem hx)

theorem splitScheme_in (hQ : CharSet Q) {d u : PStr} (hd : AllIn Q d) (hu : AllIn Q u) : AllIn Q (splitScheme d u).1 ∧ AllIn Q (splitScheme d u).2 := by
  unfold splitScheme
  split
  · next c cs rest e =>
    obtain ⟨h, _⟩ := splitFirst_some e
    split
    · rw [h] at hu
      refine ⟨?_, (hu.right).sub (List.sublist_cons_self _ _)⟩
      intro x hx
      obtain ⟨y, hy, rfl⟩ := List.mem_map.1 hx
      exact hQ.lower y (hu.left y hy)
    · exact ⟨hd, hu⟩
  · exact ⟨hd, hu⟩

theorem splitNetloc_in {u : PStr} (hu : AllIn Q u) : AllIn Q (splitNetloc u).1 ∧ AllIn Q (splitNetloc u).2 := by
  unfold splitNetloc
  split
  · next r =>
    have hr : AllIn Q r := hu.sub (.cons _ (.cons _ (.refl _)))
    exact ⟨hr.sub (List.takeWhile_sublist _), hr.sub (List.dropWhile_sublist _)⟩
  · exact ⟨.nil, hu⟩

theorem cutAt_in {c : Nat} {u : PStr} (hu : AllIn Q u) : AllIn Q (cutAt c u).1 ∧ AllIn Q (cutAt c u).2 := by
  unfold cutAt
  cases e : splitFirst c u with
  | none => exact ⟨hu, .nil⟩
  | some r =>
    obtain ⟨a, b⟩ := r
    obtain ⟨h, _⟩ := splitFirst_some e
    rw [h] at hu
    exact ⟨hu.left, hu.right.sub (List.sublist_cons_self _ _)⟩

theorem splitParams_in {u : PStr} (hu : AllIn Q u) : AllIn Q (splitParams u).1 ∧ AllIn Q (splitParams u).2 := by
  unfold splitParams
  simp only
  split
  · exact ⟨hu, .nil⟩
  · next a b e =>
    obtain ⟨h, _⟩ := splitFirst_some e
    have hl : AllIn Q ((u.reverse.takeWhile (· ≠ 47)).reverse) := by
      intro x hx
      exact hu x (List.mem_reverse.1 ((List.takeWhile_sublist _).mem (List.mem_reverse.1 hx)))
    rw [h] at hl
    exact ⟨(hu.sub (List.take_sublist _ _)).append hl.left, hl.right.sub (List.sublist_cons_self _ _)⟩

structure Url6.In (Q : Nat → Prop) (u : Url6) : Prop where
  scheme : AllIn Q u.scheme
  netloc : AllIn Q u.netloc
  path : AllIn Q u.path
  params : AllIn Q u.params
  query : AllIn Q u.query
  fragment : AllIn Q u.fragment

theorem urlparse_in (hQ : CharSet Q) {nl : PStr → Bool} {u d : PStr} {r : Url6} (hd : AllIn Q d) (hu : AllIn Q u) (h : urlparse nl u d = .ok r) : r.In Q := by
  unfold urlparse at h
  simp only at h
  have h0 : AllIn Q ((u.dropWhile (· ≤ 32)).filter fun c => !(c == 9 || c == 13 || c == 10)) :=
    (hu.sub (List.dropWhile_sublist _)).sub List.filter_sublist
  revert h h0
  generalize (u.dropWhile (· ≤ 32)).filter (fun c => !(c == 9 || c == 13 || c == 10)) = v
  intro h h0
  have h1 := splitScheme_in hQ hd h0
  have h2 := splitNetloc_in h1.2
  have h3 := cutAt_in (c := 35) h2.2
  have h4 := cutAt_in (c := 63) h3.1
  have h5 := splitParams_in h4.1
  split at h
  · cases h
    refine ⟨h1.1, h2.1, ?_, ?_, h4.2, h3.2⟩
    · simp only; split
      · exact h5.1
      · exact h4.1
    · simp only; split
      · exact h5.2
      · exact .nil
  · cases h

theorem urlunparse_in (hQ : CharSet Q) {u : Url6} (h : u.In Q) : AllIn Q (urlunparse u) := by
  unfold urlunparse
  simp only
  have h1 : AllIn Q (if u.params = [] then u.path else u.path ++ 59 :: u.params) := by
    split
    · exact h.path
    · exact h.path.append (.cons hQ.semi h.params)
  revert h1
  generalize (if u.params = [] then u.path else u.path ++ 59 :: u.params) = v
  intro h1
  have h2 : AllIn Q (if u.netloc ≠ [] ∨ (u.scheme ≠ [] ∧ usesNetloc.contains u.scheme) ∨ v.take 2 = [47, 47] then
      47 :: 47 :: (u.netloc ++ (if v ≠ [] ∧ v.take 1 ≠ [47] then 47 :: v else v)) else v) := by
    split
    · refine .cons hQ.slash (.cons hQ.slash (h.netloc.append ?_))
      split
      · exact .cons hQ.slash h1
      · exact h1
    · exact h1
  revert h2
  generalize (if u.netloc ≠ [] ∨ (u.scheme ≠ [] ∧ usesNetloc.contains u.scheme) ∨ v.take 2 = [47, 47] then
      47 :: 47 :: (u.netloc ++ (if v ≠ [] ∧ v.take 1 ≠ [47] then 47 :: v else v)) else v) = w
  intro h2
  have h3 : AllIn Q (if u.scheme = [] then w else u.scheme ++ 58 :: w) := by
    split
    · exact h2
    · exact h.scheme.append (.cons hQ.colon h2)
  revert h3
  generalize (if u.scheme = [] then w else u.scheme ++ 58 :: w) = x
  intro h3
  have h4 : AllIn Q (if u.query = [] then x else x ++ 63 :: u.query) := by
    split
    · exact h3
    · exact h3.append (.cons hQ.ask h.query)
  split
  · exact h4
  · exact h4.append (.cons hQ.hash h.fragment)

theorem splitSlash_in : ∀ {s : PStr}, AllIn Q s → ∀ w ∈ splitSlash s, AllIn Q w
  | [], _, w, hw => by
    rw [splitSlash, List.mem_singleton] at hw
    subst hw; exact .nil
  | c :: cs, h, w, hw => by
    have hc : Q c := h c (List.mem_cons_self ..)
    have hcs : AllIn Q cs := h.sub (List.sublist_cons_self _ _)
    rw [splitSlash] at hw
    split at hw
    · rcases List.mem_cons.1 hw with rfl | hw
      · exact .nil
      · exact splitSlash_in hcs w hw
    · split at hw
      · rw [List.mem_singleton] at hw
        subst hw; exact .cons hc .nil
      · next x ws e =>
        rcases List.mem_cons.1 hw with rfl | hw
        · exact .cons hc (splitSlash_in hcs x (by rw [e]; exact List.mem_cons_self ..))
        · exact splitSlash_in hcs w (by rw [e]; exact List.mem_cons_of_mem _ hw)

theorem joinSlash_in (h47 : Q 47) : ∀ {ps : List PStr}, (∀ p ∈ ps, AllIn Q p) → AllIn Q (joinSlash ps)
  | [], _ => .nil
  | [p], h => h p (List.mem_cons_self ..)
  | p :: q :: ps, h =>
    (h p (List.mem_cons_self ..)).append (.cons h47 (joinSlash_in h47 fun x hx => h x (List.mem_cons_of_mem _ hx)))

theorem joinSegments_in {b p : PStr} (hb : AllIn Q b) (hp : AllIn Q p) : ∀ w ∈ joinSegments b p, AllIn Q w := by
  unfold joinSegments
  split
  · exact splitSlash_in hp
  · simp only
    have hbase : ∀ w ∈ (if (splitSlash b).getLast? = some [] then splitSlash b else (splitSlash b).dropLast) ++ splitSlash p, AllIn Q w := by
      intro w hw
      rcases List.mem_append.1 hw with hw | hw
      · split at hw
        · exact splitSlash_in hb w hw
        · exact splitSlash_in hb w (mem_of_dropLast hw)
      · exact splitSlash_in hp w hw
    revert hbase
    generalize (if (splitSlash b).getLast? = some [] then splitSlash b else (splitSlash b).dropLast) ++ splitSlash p = segs
    intro hs w hw
    split at hw
    · cases hw
    · exact hs w hw
    · next s rest _ =>
      rcases List.mem_cons.1 hw with rfl | hw
      · exact hs _ (List.mem_cons_self ..)
      · refine hs w (List.mem_cons_of_mem _ ?_)
        rcases List.mem_append.1 hw with hw | hw
        · exact mem_of_dropLast (List.mem_filter.1 hw).1
        · rw [Option.mem_toList] at hw
          exact List.mem_of_getLast? hw

theorem mem_resolveLoop : ∀ {acc ss : List PStr} {w : PStr}, w ∈ resolveLoop acc ss → w ∈ acc ∨ w ∈ ss
  | acc, [], w, h => .inl (List.mem_reverse.1 h)
  | acc, s :: ss, w, h => by
    rw [resolveLoop] at h
    split at h
    · rcases mem_resolveLoop h with h | h
      · exact .inl (List.mem_of_mem_tail h)
      · exact .inr (List.mem_cons_of_mem _ h)
    · split at h
      · rcases mem_resolveLoop h with h | h
        · exact .inl h
        · exact .inr (List.mem_cons_of_mem _ h)
      · rcases mem_resolveLoop h with h | h
        · rcases List.mem_cons.1 h with rfl | h
          · exact .inr (List.mem_cons_self ..)
          · exact .inl h
        · exact .inr (List.mem_cons_of_mem _ h)

theorem resolvePath_in (h47 : Q 47) {b p : PStr} (hb : AllIn Q b) (hp : AllIn Q p) : AllIn Q (resolvePath b p) := by
  unfold resolvePath
  simp only
  have hr : ∀ w ∈ (if (joinSegments b p).getLast? = some [46] ∨ (joinSegments b p).getLast? = some [46, 46] then
      resolveLoop [] (joinSegments b p) ++ [[]] else resolveLoop [] (joinSegments b p)), AllIn Q w := by
    have h0 : ∀ w ∈ resolveLoop [] (joinSegments b p), AllIn Q w := fun w hw =>
      (mem_resolveLoop hw).elim (fun h => by cases h) (joinSegments_in hb hp w)
    intro w hw
    split at hw
    · rcases List.mem_append.1 hw with hw | hw
      · exact h0 w hw
      · rw [List.mem_singleton] at hw; subst hw; exact .nil
    · exact h0 w hw
  revert hr
  generalize (if (joinSegments b p).getLast? = some [46] ∨ (joinSegments b p).getLast? = some [46, 46] then
      resolveLoop [] (joinSegments b p) ++ [[]] else resolveLoop [] (joinSegments b p)) = r
  intro hr
  split
  · exact .cons h47 .nil
  · exact joinSlash_in h47 hr

theorem urljoin_in (hQ : CharSet Q) {nl : PStr → Bool} {b u r : PStr} (hb : AllIn Q b) (hu : AllIn Q u) (h : urljoin nl b u = .ok r) : AllIn Q r := by
  unfold urljoin at h
  split at h
  · cases h; exact hu
  split at h
  · cases h; exact hb
  split at h
  · cases h
  next bb e1 =>
  split at h
  · cases h
  next uu e2 =>
  have h1 := urlparse_in hQ .nil hb e1
  have h2 := urlparse_in hQ h1.scheme hu e2
  split at h
  · cases h; exact hu
  split at h
  · cases h; exact urlunparse_in hQ h2
  have hn : AllIn Q (if usesNetloc.contains uu.scheme then bb.netloc else uu.netloc) := by
    split
    · exact h1.netloc
    · exact h2.netloc
  simp only at h
  split at h
  · cases h
    refine urlunparse_in hQ ⟨h2.scheme, hn, h1.path, h1.params, ?_, h2.fragment⟩
    simp only; split
    · exact h1.query
    · exact h2.query
  · cases h
    exact urlunparse_in hQ ⟨h2.scheme, hn, resolvePath_in hQ.slash h1.path h2.path, h2.params, h2.query, h2.fragment⟩

theorem smartUrljoin_in (hQ : CharSet Q) {nl : PStr → Bool} {b u r : PStr} (hb : AllIn Q b) (hu : AllIn Q u) (h : smartUrljoin nl b u = .ok r) :
    AllIn Q r := by
  unfold smartUrljoin at h
  cases e : urljoin nl b u with
  | error x => rw [e] at h; cases h
  | ok j =>
    rw [e] at h
    have hj := urljoin_in hQ hb hu e
    cases h
    simp only
    split
    · exact hj.append (.cons hQ.hash .nil)
    · exact hj

end Verif
