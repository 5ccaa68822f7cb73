import Verif.Lemmas.UrlParse
/-
urljoin on relative references.
-/
namespace Verif
open Spec

/-- `[char][text]`, nothing for an empty text. -/
def optn (c : Nat) (s : PStr) : PStr := if s = [] then [] else c :: s

theorem opt_eq_optn {c : Nat} {o : Option PStr} (h : o ≠ some []) : opt c o = optn c (o.getD []) := by
  cases o with
  | none => rfl
  | some s =>
    have : s ≠ [] := fun e => h (by rw [e])
    simp [opt, optn, this]

theorem urlunparse_eq (u : Url6) (h1 : u.netloc ≠ []) (h2 : u.scheme ≠ []) :
    urlunparse u = u.scheme ++ (58 :: 47 :: 47 :: (u.netloc ++
      ((let url := if u.params = [] then u.path else u.path ++ 59 :: u.params
        if url ≠ [] ∧ url.take 1 ≠ [47] then 47 :: url else url) ++ (optn 63 u.query ++ optn 35 u.fragment)))) := by
  unfold urlunparse optn
  simp only [h1, h2, ne_eq, not_false_eq_true, true_or, if_true, if_false]
  by_cases hq : u.query = [] <;> by_cases hf : u.fragment = [] <;> simp [hq, hf]

theorem lastSeg_concat (init : List PStr) {l : PStr} (hl : 47 ∉ l) : ((joinSlash (init ++ [l])).reverse.takeWhile (· ≠ 47)).reverse = l := by
  have hpos : ∀ x ∈ l.reverse, decide (x ≠ 47) = true := by
    intro x hx
    simp only [decide_eq_true_eq]
    rintro rfl
    exact hl (List.mem_reverse.1 hx)
  rw [joinSlash_concat, List.reverse_append, List.takeWhile_append_of_pos hpos]
  rcases List.eq_nil_or_concat init with rfl | ⟨i, w, rfl⟩
  · simp
  · rw [List.concat_eq_append, List.flatMap_append, List.flatMap_cons, List.flatMap_nil, List.append_nil, List.reverse_append, List.reverse_append]
    simp

/-- Segments of a text without `//` are not empty, except the last one. -/
theorem inner_ne_nil {segs : List PStr} (h : ¬ [47, 47] <:+: slashed segs) : ∀ s ∈ segs.dropLast, s ≠ [] := by
  rintro s hs rfl
  apply h
  obtain ⟨p, q, hpq⟩ := List.append_of_mem hs
  rcases List.eq_nil_or_concat segs with rfl | ⟨i, l, rfl⟩
  · simp at hs
  · rw [List.concat_eq_append] at hpq ⊢
    rw [List.dropLast_concat] at hpq
    rw [hpq, List.append_assoc, slashed_append, List.cons_append, slashed_cons]
    cases hq : q ++ [l] with
    | nil => simp at hq
    | cons a b =>
      rw [slashed_cons]
      exact ⟨slashed p, a ++ slashed b, by simp⟩

theorem filter_ne_nil {l : List PStr} (h : ∀ s ∈ l, s ≠ []) : l.filter (· ≠ []) = l := by
  rw [List.filter_eq_self]
  intro s hs
  simpa using h s hs

theorem mem_slashed {x : Nat} {segs : List PStr} : x ∈ slashed segs ↔ ∃ s ∈ segs, x = 47 ∨ x ∈ s := by
  simp [slashed]

theorem not_mem_dots {x : Nat} {segs : List PStr} (h : x ∉ slashed segs) (h47 : x ≠ 47) : x ∉ slashed (dots [] segs) := by
  rw [mem_slashed] at h ⊢
  rintro ⟨s, hs, e | hx⟩
  · exact h47 e
  · rcases mem_dots hs with h' | h' | rfl
    · cases h'
    · exact h ⟨s, h', Or.inr hx⟩
    · cases hx

/-- The schemes whose references urljoin resolves: the hierarchical ones of Python's urllib.parse, written out here once more. -/
def Spec.hierSchemes : List PStr :=
  [[], py! "ftp", py! "http", py! "gopher", py! "nntp", py! "imap", py! "wais", py! "file", py! "https", py! "shttp", py! "mms",
   py! "prospero", py! "rtsp", py! "rtsps", py! "rtspu", py! "sftp", py! "svn", py! "svn+ssh", py! "ws", py! "wss"]

/-- A base that urljoin treats as hierarchical. -/
structure GoodBase (nl : PStr → Bool) (b : Ref) : Prop where
  wf : b.WF
  scheme : ∃ s, b.scheme = some s ∧ s ∈ Spec.hierSchemes
  authority : ∃ a, b.authority = some a ∧ a ≠ [] ∧ nl a = true
  noEmpty : ¬ [47, 47] <:+: b.path
  noSemi : b.path.getLast? ≠ some 59
  query : b.query ≠ some []

/-- A relative reference that urljoin treats as the RFC does. -/
structure GoodRel (r : Ref) : Prop where
  wf : r.WF
  scheme : r.scheme = none
  authority : r.authority = none
  noEmpty : ¬ [47, 47] <:+: r.path
  noSemi : r.path.getLast? ≠ some 59
  noDotSemi : ¬ py! ".;" <+: (r.path.reverse.takeWhile (· ≠ 47)).reverse
  noDotsSemi : ¬ py! "..;" <+: (r.path.reverse.takeWhile (· ≠ 47)).reverse
  query : r.query ≠ some []

theorem mem_usesRelative {s : PStr} : s ∈ usesRelative ↔ s ∈ Spec.hierSchemes := Iff.rfl

theorem usesRelative_lower : ∀ s ∈ Spec.hierSchemes, s.map asciiLower = s ∧ usesNetloc.contains s = true ∧ 35 ∉ s := by decide

/-- The segments urljoin works on, and the path the RFC works on. -/
theorem segs_rel {s : PStr} {b r : Ref} {nl} (hb : GoodBase nl b) (hr : GoodRel r) (hp : r.path ≠ []) :
    ∃ M a l, joinSegments (parts s b.path).1 (parts s r.path).1 = [] :: (M ++ [a]) ∧
      (((parts s r.path).2 = [] ∧ l = a) ∨ ((parts s r.path).2 ≠ [] ∧ l = a ++ 59 :: (parts s r.path).2 ∧ a ≠ [46] ∧ a ≠ [46, 46])) ∧
      (∀ w ∈ M ++ [l], 47 ∉ w) ∧ (∀ w ∈ M, w ≠ []) ∧
      (if r.path.take 1 = [47] then r.path else mergePaths b r.path) = slashed (M ++ [l]) := by
  obtain ⟨init, l, a, params, h1, h2, h3, h4, h5⟩ := parts_segs s r.path hr.noSemi
  have hns := splitSlash_noSlash r.path
  have hj := joinSlash_splitSlash r.path
  rw [h1] at hns hj
  have hl47 : 47 ∉ l := hns l (by simp)
  have hlast : (r.path.reverse.takeWhile (· ≠ 47)).reverse = l := by rw [← hj]; exact lastSeg_concat init hl47
  have h5' : ((parts s r.path).2 = [] ∧ l = a) ∨ ((parts s r.path).2 ≠ [] ∧ l = a ++ 59 :: (parts s r.path).2 ∧ a ≠ [46] ∧ a ≠ [46, 46]) := by
    rw [h3]
    rcases h5 with h | ⟨hb', rfl⟩
    · exact Or.inl h
    · refine Or.inr ⟨hb', rfl, ?_, ?_⟩
      · rintro rfl; exact hr.noDotSemi (by rw [hlast]; exact ⟨params, rfl⟩)
      · rintro rfl; exact hr.noDotsSemi (by rw [hlast]; exact ⟨params, rfl⟩)
  have ha47 : 47 ∉ a := by
    rcases h5 with ⟨-, rfl⟩ | ⟨-, rfl⟩
    · exact hl47
    · simp at hl47; exact hl47.1
  by_cases hs47 : r.path.take 1 = [47]
  · -- absolute path
    obtain ⟨init', rfl⟩ : ∃ init', init = [] :: init' := by
      cases init with
      | nil =>
        exfalso
        rw [← hj] at hs47
        simp only [List.nil_append, joinSlash] at hs47
        cases l with
        | nil => simp at hs47
        | cons c cs => simp only [List.take_succ_cons, List.take_zero, List.cons.injEq, and_true] at hs47; subst hs47; simp at hl47
      | cons w ws =>
        rw [List.cons_append, joinSlash_cons] at hj
        rw [← hj] at hs47
        cases w with
        | nil => exact ⟨ws, rfl⟩
        | cons c cs =>
          exfalso
          simp only [List.cons_append, List.take_succ_cons, List.take_zero, List.cons.injEq, and_true] at hs47
          have := hns (c :: cs) (by simp)
          subst hs47
          simp at this
    refine ⟨init', a, l, ?_, h5', fun w hw => hns w (by simp only [List.cons_append, List.mem_cons]; exact Or.inr hw), ?_, ?_⟩
    · unfold joinSegments
      rw [h4, List.cons_append, joinSlash_cons, List.nil_append]
      have : ∃ t, slashed (init' ++ [a]) = 47 :: t := by
        cases hx : init' ++ [a] with
        | nil => simp at hx
        | cons x xs => exact ⟨_, slashed_cons x xs⟩
      obtain ⟨t, ht⟩ := this
      rw [if_pos (by rw [ht]; rfl)]
      rw [h4, List.cons_append, joinSlash_cons, List.nil_append] at h2
      exact h2
    · have := inner_ne_nil (segs := init' ++ [l]) (by
        have e : slashed (init' ++ [l]) = r.path := by rw [← hj, List.cons_append, joinSlash_cons]; rfl
        rw [e]; exact hr.noEmpty)
      rwa [List.dropLast_concat] at this
    · rw [if_pos hs47, ← hj, List.cons_append, joinSlash_cons]
      rfl
  · -- relative path
    have hr47 : 47 :: r.path = slashed (init ++ [l]) := by rw [← h1, slashed_splitSlash]
    have hinit : ∀ w ∈ init, w ≠ [] := by
      have := inner_ne_nil (segs := init ++ [l]) (by
        rw [← hr47]
        rintro ⟨p, q, e⟩
        cases p with
        | nil =>
          simp only [List.nil_append, List.cons_append, List.cons.injEq, true_and] at e
          rw [← e] at hs47
          simp at hs47
        | cons c cs =>
          simp only [List.cons_append, List.cons.injEq] at e
          exact hr.noEmpty ⟨cs, q, by simpa using e.2⟩)
      rwa [List.dropLast_concat] at this
    have hu47 : ¬ ((parts s r.path).1.take 1 = [47]) := by
      rw [h4]
      cases init with
      | nil =>
        simp only [List.nil_append, joinSlash]
        cases a with
        | nil => simp
        | cons c cs =>
          simp only [List.take_succ_cons, List.take_zero, List.cons.injEq, and_true]
          rintro rfl
          simp at ha47
      | cons w ws =>
        rw [List.cons_append, joinSlash_cons]
        have hw := hinit w (by simp)
        cases w with
        | nil => exact absurd rfl hw
        | cons c cs =>
          simp only [List.cons_append, List.take_succ_cons, List.take_zero, List.cons.injEq, and_true]
          rintro rfl
          have := hns (47 :: cs) (by simp)
          simp at this
    obtain ⟨au, hau, -, -⟩ := hb.authority
    obtain ⟨bi, bl, ba, bp, k1, k2, k3, k4, k5⟩ := parts_segs s b.path hb.noSemi
    have kj := joinSlash_splitSlash b.path
    have kns := splitSlash_noSlash b.path
    rw [k1] at kj kns
    unfold joinSegments
    rw [if_neg hu47, if_neg hs47, k2, h2]
    dsimp only
    rcases hb.wf.pathAuth (by rw [hau]; rfl) with hbp | hbp
    · -- empty base path
      have : bi = [] ∧ ba = [] := by
        rw [hbp] at k1
        have e : [[]] = bi ++ [bl] := k1
        cases bi with
        | nil =>
          simp only [List.nil_append, List.cons.injEq, and_true] at e
          subst e
          rcases k5 with ⟨-, h⟩ | ⟨-, h⟩
          · exact ⟨rfl, h.symm⟩
          · simp at h
        | cons x xs => simp at e
      obtain ⟨rfl, rfl⟩ := this
      refine ⟨init, a, l, ?_, h5', hns, hinit, ?_⟩
      · simp only [List.nil_append, List.getLast?_singleton, if_true]
        show (match [] :: (init ++ [a]) with | [] => [] | [s] => [s] | s :: rest => s :: (rest.dropLast.filter (· ≠ []) ++ rest.getLast?.toList)) = _
        cases hx : init ++ [a] with
        | nil => simp at hx
        | cons x xs =>
          simp only
          rw [← hx, List.dropLast_concat, filter_ne_nil hinit]
          simp
      · unfold mergePaths
        rw [if_pos ⟨by rw [hau]; rfl, hbp⟩, hr47]
    · -- base path that begins with a slash
      obtain ⟨bi', rfl⟩ : ∃ bi', bi = [] :: bi' := by
        cases bi with
        | nil =>
          exfalso
          rw [← kj] at hbp
          simp only [List.nil_append, joinSlash] at hbp
          have := kns bl (by simp)
          cases bl with
          | nil => simp at hbp
          | cons c cs => simp only [List.head?_cons, Option.some.injEq] at hbp; subst hbp; simp at this
        | cons w ws =>
          rw [List.cons_append, joinSlash_cons] at kj
          rw [← kj] at hbp
          cases w with
          | nil => exact ⟨ws, rfl⟩
          | cons c cs =>
            exfalso
            simp only [List.cons_append, List.head?_cons, Option.some.injEq] at hbp
            have := kns (c :: cs) (by simp)
            subst hbp
            simp at this
      have hb47 : b.path = slashed (bi' ++ [bl]) := by rw [← kj, List.cons_append, joinSlash_cons]; rfl
      have hbi : ∀ w ∈ bi', w ≠ [] := by
        have := inner_ne_nil (segs := bi' ++ [bl]) (by rw [← hb47]; exact hb.noEmpty)
        rwa [List.dropLast_concat] at this
      have hbl47 : 47 ∉ bl := kns bl (by simp)
      have hmem : ∀ w ∈ bi' ++ init, w ≠ [] := fun w hw => (List.mem_append.1 hw).elim (hbi w) (hinit w)
      refine ⟨bi' ++ init, a, l, ?_, h5', ?_, hmem, ?_⟩
      · have hgl : ([] :: bi' ++ [ba]).getLast? = some ba := by rw [List.cons_append, ← List.cons_append, List.getLast?_concat]
        by_cases hba : ba = []
        · subst hba
          rw [if_pos hgl]
          have e : ([] : PStr) :: bi' ++ [[]] ++ (init ++ [a]) = [] :: ((bi' ++ [[]] ++ init) ++ [a]) := by simp
          rw [e]
          cases hx : (bi' ++ [[]] ++ init) ++ [a] with
          | nil => simp at hx
          | cons x xs =>
            simp only
            rw [← hx, List.dropLast_concat, List.filter_append, List.filter_append, filter_ne_nil hbi, filter_ne_nil hinit,
              List.getLast?_concat]
            simp
        · rw [if_neg (by rw [hgl]; simpa using hba), List.dropLast_concat]
          have e : ([] : PStr) :: bi' ++ (init ++ [a]) = [] :: ((bi' ++ init) ++ [a]) := by simp
          rw [e]
          cases hx : (bi' ++ init) ++ [a] with
          | nil => simp at hx
          | cons x xs =>
            simp only
            rw [← hx, List.dropLast_concat, filter_ne_nil hmem]
            simp
      · intro w hw
        simp only [List.mem_append, List.mem_singleton] at hw
        rcases hw with (hw | hw) | hw
        · exact kns w (by simp [hw])
        · exact hns w (by simp [hw])
        · exact hw ▸ hl47
      · unfold mergePaths
        have hne : b.path ≠ [] := by intro e; rw [e] at hbp; simp at hbp
        rw [if_neg (fun h => hne h.2), hb47, slashed_append, slashed_cons, slashed_nil, List.append_nil, dir_slashed bi' hbl47]
        rw [List.append_assoc bi', slashed_append, ← hr47]
        simp

/-- `urljoin` on a relative reference. -/
theorem urljoin_rel {nl : PStr → Bool} (hnl : nl [] = true) {b r : Ref} (hb : GoodBase nl b) (hr : GoodRel r) (hne : r.text ≠ []) :
    ∃ X, 35 ∉ X ∧ urljoin nl b.text r.text = .ok (X ++ optn 35 (r.fragment.getD [])) ∧ (resolve b r).text = X ++ opt 35 r.fragment := by
  obtain ⟨s, hs, hsr⟩ := hb.scheme
  obtain ⟨a, ha, hane, hnla⟩ := hb.authority
  obtain ⟨hlow, hnet, hs35⟩ := usesRelative_lower s hsr
  have hsne : s ≠ [] := by obtain ⟨c, cs, e, -⟩ := hb.wf.scheme s hs; rw [e]; simp
  have hbtext : b.text ≠ [] := by rw [text_eq, hs]; simp
  have hub := urlparse_text hb.wf nl [] (by rw [ha]; exact hnla)
  have hsb : schemeOf b [] = s := by unfold schemeOf; rw [hs]; exact hlow
  rw [hsb, ha] at hub
  have hur := urlparse_text hr.wf nl s (by rw [hr.authority]; exact hnl)
  have hsr' : schemeOf r s = s := by unfold schemeOf; rw [hr.scheme]
  rw [hsr', hr.authority] at hur
  have hrel : usesRelative.contains s = true := List.contains_iff_mem.2 (mem_usesRelative.2 hsr)
  have hb35 : 35 ∉ opt 63 b.query := by
    cases hq : b.query with
    | none => simp [opt]
    | some q => simp only [opt, List.mem_cons, not_or]; exact ⟨by decide, hb.wf.query q hq⟩
  have hr35 : 35 ∉ opt 63 r.query := by
    cases hq : r.query with
    | none => simp [opt]
    | some q => simp only [opt, List.mem_cons, not_or]; exact ⟨by decide, hr.wf.query q hq⟩
  have ha35 := (hb.wf.authority a ha).2.2
  unfold urljoin
  rw [if_neg hbtext, if_neg hne, hub]
  simp only [hur, Option.getD_some, Option.getD_none, ne_eq, not_true_eq_false, hrel, Bool.not_true, Bool.false_eq_true, or_self, if_false, hnet,
    and_false, if_true]
  have hpj := parts_join s r.path hr.noSemi
  by_cases hp : r.path = []
  · -- empty path
    have hparts : parts s r.path = ([], []) := by
      rw [hp]; unfold parts; split <;> rfl
    rw [hparts]
    simp only [and_self, if_true]
    refine ⟨s ++ (58 :: 47 :: 47 :: (a ++ (b.path ++ opt 63 (if r.query.isSome then r.query else b.query)))), ?_, ?_, ?_⟩
    · have hq35 : 35 ∉ opt 63 (if r.query.isSome then r.query else b.query) := by split <;> assumption
      simp only [List.mem_append, List.mem_cons, not_or]
      exact ⟨hs35, by decide, by decide, by decide, ha35, hb.wf.path.2, hq35⟩
    · rw [urlunparse_eq _ hane hsne]
      dsimp only
      rw [parts_join s b.path hb.noSemi]
      have hcond : ¬ (b.path ≠ [] ∧ b.path.take 1 ≠ [47]) := by
        rintro ⟨c1, c2⟩
        rcases hb.wf.pathAuth (by rw [ha]; rfl) with h | h
        · exact c1 h
        · cases hbp : b.path with
          | nil => exact c1 hbp
          | cons x xs => rw [hbp] at h c2; simp at h c2; exact c2 h
      rw [if_neg hcond]
      have hq : optn 63 (if r.query.getD [] = [] then b.query.getD [] else r.query.getD []) = opt 63 (if r.query.isSome then r.query else b.query) := by
        cases hrq : r.query with
        | none => simp only [Option.getD_none, if_true, Option.isSome_none, Bool.false_eq_true, if_false]; exact (opt_eq_optn hb.query).symm
        | some q =>
          have hqne : q ≠ [] := fun e => hr.query (by rw [hrq, e])
          simp only [Option.getD_some, if_neg hqne, Option.isSome_some, if_true, opt, optn]
      rw [hq]
      simp
    · unfold resolve
      rw [hr.scheme, hr.authority, hp]
      simp only [Option.isSome_none, Bool.false_eq_true, if_false, if_true]
      rw [text_eq]
      simp only [hs, ha]
      simp
  · -- non-empty path
    have hcond : ¬ ((parts s r.path).1 = [] ∧ (parts s r.path).2 = []) := by
      rintro ⟨c1, c2⟩
      rw [c1, c2, if_pos rfl] at hpj
      exact hp hpj.symm
    rw [if_neg hcond]
    obtain ⟨M, sa, l, h1, h2, h3, h4, h5⟩ := segs_rel (s := s) hb hr hp
    have hfin := finish h2 h3 h4
    have hM35 : 35 ∉ slashed (M ++ [l]) := by
      rw [← h5]
      split
      · exact hr.wf.path.2
      · unfold mergePaths
        split
        · simp only [List.mem_cons, not_or]; exact ⟨by decide, hr.wf.path.2⟩
        · rw [List.mem_append, not_or]
          refine ⟨fun h => hb.wf.path.2 ?_, hr.wf.path.2⟩
          have := (List.dropWhile_sublist _).mem (List.mem_reverse.1 h)
          exact List.mem_reverse.1 this
    refine ⟨s ++ (58 :: 47 :: 47 :: (a ++ (slashed (dots [] (M ++ [l])) ++ opt 63 r.query))), ?_, ?_, ?_⟩
    · simp only [List.mem_append, List.mem_cons, not_or]
      exact ⟨hs35, by decide, by decide, by decide, ha35, not_mem_dots hM35 (by decide), hr35⟩
    · rw [urlunparse_eq _ hane hsne]
      unfold resolvePath
      dsimp only
      rw [h1]
      dsimp only at hfin
      rw [hfin.1, opt_eq_optn hr.query]
      simp
    · unfold resolve
      rw [hr.scheme, hr.authority]
      simp only [Option.isSome_none, Bool.false_eq_true, if_false, if_neg hp]
      rw [← removeDots_slashed h3, ← h5]
      by_cases h47 : r.path.take 1 = [47]
      · rw [if_pos h47, if_pos h47, text_eq]
        simp only [hs, ha]
        simp
      · rw [if_neg h47, if_neg h47, text_eq]
        simp only [hs, ha]
        simp

end Verif
