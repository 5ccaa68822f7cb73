import Verif.Props.UrlJoin
/-
C91 exactly: what smart_urljoin makes of an absolute reference with an authority.
-/
namespace Verif
open Spec

/-- The schemes whose last path segment may have parameters, by RFC 1738 as `urllib.parse` has it. -/
def Spec.paramSchemes : List PStr :=
  [py! "ftp", py! "hdl", py! "prospero", py! "http", py! "imap", py! "https", py! "shttp", py! "rtsp", py! "rtsps", py! "rtspu", py! "sip",
   py! "sips", py! "mms", py! "sftp", py! "tel"]

/-- The last segment has one semicolon, at its end. -/
def Spec.BareSemi (path : PStr) : Prop := ∃ d l, path = d ++ l ++ [59] ∧ (d = [] ∨ d.getLast? = some 47) ∧ 47 ∉ l ∧ 59 ∉ l

theorem lastSeg_unique {d l : PStr} (hd : d = [] ∨ d.getLast? = some 47) (hl : 47 ∉ l) : ((d ++ l).reverse.takeWhile (· ≠ 47)).reverse = l := by
  have hpos : ∀ x ∈ l.reverse, decide (x ≠ 47) = true := by
    intro x hx
    simp only [decide_eq_true_eq]
    rintro rfl
    exact hl (List.mem_reverse.1 hx)
  rw [List.reverse_append, List.takeWhile_append_of_pos hpos]
  have : d.reverse.takeWhile (· ≠ 47) = [] := by
    rcases hd with rfl | hd
    · rfl
    · obtain ⟨e, rfl⟩ := List.getLast?_eq_some_iff.1 hd
      simp
  rw [this, List.append_nil, List.reverse_reverse]

theorem lastSeg_split (path : PStr) : ∃ d l, path = d ++ l ∧ (d = [] ∨ d.getLast? = some 47) ∧ 47 ∉ l := by
  induction path with
  | nil => exact ⟨[], [], rfl, .inl rfl, by simp⟩
  | cons c cs ih =>
    obtain ⟨d, l, rfl, hd, hl⟩ := ih
    rcases hd with rfl | hd
    · by_cases hc : c = 47
      · exact ⟨[c], l, rfl, .inr (by rw [hc]; rfl), hl⟩
      · exact ⟨[], c :: l, rfl, .inl rfl, by rw [List.mem_cons, not_or]; exact ⟨fun e => hc e.symm, hl⟩⟩
    · refine ⟨c :: d, l, rfl, .inr ?_, hl⟩
      cases d with
      | nil => simp at hd
      | cons x xs => rw [List.getLast?_cons_cons]; exact hd

/-- What is written back of a path. -/
theorem parts_written (scheme : PStr) (hs : scheme ≠ []) (path : PStr) :
    ∃ p, (if (parts scheme path).2 = [] then (parts scheme path).1 else (parts scheme path).1 ++ 59 :: (parts scheme path).2) = p ∧
      ((scheme ∈ Spec.paramSchemes ∧ Spec.BareSemi path ∧ path = p ++ [59]) ∨ (¬ (scheme ∈ Spec.paramSchemes ∧ Spec.BareSemi path) ∧ path = p)) := by
  have hm : usesParams.contains scheme = true ↔ scheme ∈ Spec.paramSchemes := by
    rw [List.contains_eq_mem, decide_eq_true_eq]
    show scheme ∈ [] :: Spec.paramSchemes ↔ _
    rw [List.mem_cons]
    exact ⟨fun h => h.resolve_left hs, .inr⟩
  refine ⟨_, rfl, ?_⟩
  by_cases h : usesParams.contains scheme = true
  · have e : parts scheme path = splitParams path := by unfold parts; rw [if_pos h]
    rw [e]
    have hsc := hm.1 h
    obtain ⟨d, l, rfl, hd, hl⟩ := lastSeg_split path
    unfold splitParams
    simp only [lastSeg_unique hd hl]
    have hdir : (d ++ l).take ((d ++ l).length - l.length) = d := by simp
    rw [hdir]
    cases hf : splitFirst 59 l with
    | none =>
      right
      refine ⟨?_, by simp⟩
      rintro ⟨-, d', l', e', hd', hl', hl''⟩
      have h1 := lastSeg_unique hd hl
      rw [e', List.append_assoc, lastSeg_unique hd' (by rw [List.mem_append, not_or]; exact ⟨hl', by decide⟩)] at h1
      rw [← h1, splitFirst_append hl''] at hf
      cases hf
    | some ab =>
      obtain ⟨a, b⟩ := ab
      obtain ⟨rfl, ha⟩ := splitFirst_some hf
      dsimp only
      by_cases hb : b = []
      · subst hb
        left
        refine ⟨hsc, ⟨d, a, by simp, hd, fun h => hl (List.mem_append_left _ h), ha⟩, by simp⟩
      · right
        rw [if_neg hb]
        refine ⟨?_, by simp⟩
        rintro ⟨-, d', l', e', hd', hl', hl''⟩
        have h1 := lastSeg_unique hd hl
        rw [e', List.append_assoc, lastSeg_unique hd' (by rw [List.mem_append, not_or]; exact ⟨hl', by decide⟩)] at h1
        rw [← h1, splitFirst_append hl''] at hf
        simp only [Option.some.injEq, Prod.mk.injEq] at hf
        exact hb hf.2.symm
  · have e : parts scheme path = (path, []) := by unfold parts; rw [if_neg h]
    rw [e]
    exact .inr ⟨fun h' => h (hm.2 h'.1), by simp⟩

/-- The reference as it is written back. -/
def Spec.rewritten (r : Ref) (s p : PStr) : Ref :=
  { r with scheme := some (s.map asciiLower), path := p, query := if r.query = some [] then none else r.query }

/-- Exactly: an absolute reference with an authority is returned as it is if its scheme is another one than the base's or not hierarchical. Otherwise the scheme comes back in lower
    case, an empty query is dropped, and so is a semicolon that ends the last segment and is the only one in it (for the schemes with parameters). -/
theorem C91_exact {nl : PStr → Bool} {b r : Ref} (hb : b.WF) (hbn : nl (b.authority.getD []) = true) (hb0 : b.text ≠ []) (h : r.WF) {s a : PStr}
    (hs : r.scheme = some s) (ha : r.authority = some a) (hane : a ≠ []) (hnl : nl a = true) :
    (((b.scheme.getD []).map asciiLower ≠ s.map asciiLower ∨ s.map asciiLower ∉ Spec.hierSchemes) ∧ smartUrljoin nl b.text r.text = .ok r.text) ∨
    ((b.scheme.getD []).map asciiLower = s.map asciiLower ∧ s.map asciiLower ∈ Spec.hierSchemes ∧
      ∃ p, ((s.map asciiLower ∈ Spec.paramSchemes ∧ Spec.BareSemi r.path ∧ r.path = p ++ [59]) ∨ (¬ (s.map asciiLower ∈ Spec.paramSchemes ∧ Spec.BareSemi r.path) ∧ r.path = p)) ∧
        smartUrljoin nl b.text r.text = .ok (Spec.rewritten r s p).text) := by
  have hsne : s ≠ [] := by obtain ⟨c, cs, e, -⟩ := h.scheme s hs; rw [e]; simp
  have hsne' : s.map asciiLower ≠ [] := by simpa using hsne
  have hne : r.text ≠ [] := by rw [text_eq, hs]; simp
  have hbu := urlparse_text hb nl [] hbn
  have hbs : schemeOf b [] = (b.scheme.getD []).map asciiLower := by unfold schemeOf; cases b.scheme <;> rfl
  have hu := urlparse_text h nl (schemeOf b []) (by rw [ha]; exact hnl)
  have hsch : schemeOf r (schemeOf b []) = s.map asciiLower := by unfold schemeOf; rw [hs]
  rw [hsch] at hu
  have hjoin : urljoin nl b.text r.text = if s.map asciiLower ≠ schemeOf b [] ∨ (!usesRelative.contains (s.map asciiLower)) = true then .ok r.text
      else if usesNetloc.contains (s.map asciiLower) ∧ r.authority.getD [] ≠ [] then .ok (urlunparse ⟨s.map asciiLower, r.authority.getD [], (parts (s.map asciiLower) r.path).1,
        (parts (s.map asciiLower) r.path).2, r.query.getD [], r.fragment.getD []⟩) else urljoin nl b.text r.text := by
    conv => lhs; unfold urljoin
    rw [if_neg hb0, if_neg hne, hbu]
    simp only [hu]
    split
    · rfl
    · split
      · rfl
      · next h1 h2 =>
        unfold urljoin
        rw [if_neg hb0, if_neg hne, hbu]
        simp only [hu]
        rw [if_neg h1, if_neg h2]
  by_cases hcond : s.map asciiLower ≠ schemeOf b [] ∨ (!usesRelative.contains (s.map asciiLower)) = true
  · left
    constructor
    · rcases hcond with h | h
      · left; rw [hbs] at h; exact fun e => h e.symm
      · right
        simp only [Bool.not_eq_true', List.contains_eq_mem, decide_eq_false_iff_not] at h
        exact fun h' => h (mem_usesRelative.2 h')
    · unfold smartUrljoin
      rw [hjoin, if_pos hcond]
      simp only [Except.map]
      rw [if_neg (fun hh => hh.2 hh.1)]
  · right
    rw [if_neg hcond] at hjoin
    simp only [not_or, ne_eq, Classical.not_not, Bool.not_eq_true, Bool.not_eq_false', List.contains_eq_mem, decide_eq_true_eq] at hcond
    have hmem := mem_usesRelative.1 hcond.2
    refine ⟨by rw [← hbs]; exact hcond.1.symm, hmem, ?_⟩
    obtain ⟨-, hnet, hs35⟩ := usesRelative_lower _ hmem
    rw [if_pos ⟨hnet, by rw [ha]; exact hane⟩, urlunparse_eq _ (by rw [ha]; exact hane) hsne'] at hjoin
    dsimp only at hjoin
    obtain ⟨p, e, hp⟩ := parts_written (s.map asciiLower) hsne' r.path
    rw [e] at hjoin
    refine ⟨p, hp, ?_⟩
    have hpath := h.pathAuth (by rw [ha]; rfl)
    have hfix : ¬ (p ≠ [] ∧ p.take 1 ≠ [47]) := by
      rintro ⟨c1, c2⟩
      cases hq : p with
      | nil => exact c1 hq
      | cons x xs =>
        have : r.path.head? = some x := by rcases hp with ⟨-, -, hp⟩ | ⟨-, hp⟩ <;> rw [hp, hq] <;> rfl
        rcases hpath with hp0 | hp0
        · rw [hp0] at this; cases this
        · rw [hp0] at this
          simp only [Option.some.injEq] at this
          rw [hq] at c2; exact c2 (by rw [← this]; rfl)
    have h35p : 35 ∉ p := fun hin => h.path.2 (by rcases hp with ⟨-, -, hp⟩ | ⟨-, hp⟩ <;> rw [hp] <;> simp [hin])
    rw [if_neg hfix, ha] at hjoin
    have hq : optn 63 (r.query.getD []) = opt 63 (if r.query = some [] then none else r.query) := by
      by_cases hq : r.query = some []
      · rw [if_pos hq, hq]; rfl
      · rw [if_neg hq, opt_eq_optn hq]
    have hq35 : 35 ∉ opt 63 (if r.query = some [] then none else r.query) := by
      split
      · simp [opt]
      · cases hq : r.query with
        | none => simp [opt]
        | some q => simp only [opt, List.mem_cons, not_or]; exact ⟨by decide, h.query q hq⟩
    rw [hq] at hjoin
    have ht : (Spec.rewritten r s p).text = s.map asciiLower ++ (58 :: 47 :: 47 :: (a ++ (p ++ (opt 63 (if r.query = some [] then none else r.query) ++ opt 35 r.fragment)))) := by
      rw [text_eq]
      simp [Spec.rewritten, ha]
    generalize hX : opt 63 (if r.query = some [] then none else r.query) = Q at *
    have hlast : ∀ (X : PStr), 35 ∉ X → X.getLast? ≠ some 35 := fun X h e => h (List.mem_of_getLast? e)
    have h35 : 35 ∉ s.map asciiLower ++ (58 :: 47 :: 47 :: (a ++ (p ++ Q))) := by
      simp only [List.mem_append, List.mem_cons, not_or]
      exact ⟨hs35, by decide, by decide, by decide, (h.authority a ha).2.2, h35p, hq35⟩
    have hs35' : 35 ∉ s := by
      obtain ⟨c, cs, e, h1, h2⟩ := h.scheme s hs
      intro hin
      apply hs35
      rw [List.mem_map]
      exact ⟨35, hin, rfl⟩
    have hrq : 35 ∉ opt 63 r.query := by
      cases hq : r.query with
      | none => simp [opt]
      | some q => simp only [opt, List.mem_cons, not_or]; exact ⟨by decide, h.query q hq⟩
    have hrt : r.text = (s ++ (58 :: 47 :: 47 :: (a ++ (r.path ++ opt 63 r.query)))) ++ opt 35 r.fragment := by
      rw [text_eq, hs, ha]; simp
    have h35r : 35 ∉ s ++ (58 :: 47 :: 47 :: (a ++ (r.path ++ opt 63 r.query))) := by
      simp only [List.mem_append, List.mem_cons, not_or]
      exact ⟨hs35', by decide, by decide, by decide, (h.authority a ha).2.2, h.path.2, hrq⟩
    have hj : urljoin nl b.text r.text = .ok ((s.map asciiLower ++ (58 :: 47 :: 47 :: (a ++ (p ++ Q)))) ++ optn 35 (r.fragment.getD [])) := by
      rw [hjoin]; simp
    have ht' : (Spec.rewritten r s p).text = (s.map asciiLower ++ (58 :: 47 :: 47 :: (a ++ (p ++ Q)))) ++ opt 35 r.fragment := by
      rw [ht]; simp
    unfold smartUrljoin
    rw [hj, ht', hrt]
    generalize s.map asciiLower ++ (58 :: 47 :: 47 :: (a ++ (p ++ Q))) = X at *
    generalize s ++ (58 :: 47 :: 47 :: (a ++ (r.path ++ opt 63 r.query))) = Y at *
    simp only [Except.map, Except.ok.injEq]
    cases hf : r.fragment with
    | none =>
      simp only [Option.getD_none, optn, opt, if_true, List.append_nil]
      rw [if_neg (fun hh => hlast Y h35r hh.1)]
    | some f =>
      by_cases hfe : f = []
      · subst hfe
        simp [opt, optn, hlast X h35]
      · simp only [Option.getD_some, optn, if_neg hfe, opt]
        have e : ∀ Z : PStr, (Z ++ 35 :: f).getLast? = f.getLast? := by
          intro Z
          cases f with
          | nil => exact absurd rfl hfe
          | cons x xs => rw [List.getLast?_append, List.getLast?_cons_cons, List.getLast?_eq_some_getLast (List.cons_ne_nil x xs)]; rfl
        rw [if_neg (fun hh => hh.2 (by rw [e]; rw [e] at hh; exact hh.1))]

/-- So it is returned as it is exactly if one of these holds. -/
theorem C91_iff {nl : PStr → Bool} {b r : Ref} (hb : b.WF) (hbn : nl (b.authority.getD []) = true) (hb0 : b.text ≠ []) (h : r.WF) {s a : PStr}
    (hs : r.scheme = some s) (ha : r.authority = some a) (hane : a ≠ []) (hnl : nl a = true) :
    smartUrljoin nl b.text r.text = .ok r.text ↔
      ((b.scheme.getD []).map asciiLower ≠ s.map asciiLower ∨ s.map asciiLower ∉ Spec.hierSchemes) ∨
      (s.map asciiLower = s ∧ r.query ≠ some [] ∧ ¬ (s ∈ Spec.paramSchemes ∧ Spec.BareSemi r.path)) := by
  rcases C91_exact hb hbn hb0 h hs ha hane hnl with ⟨h1, h2⟩ | ⟨h1, h2, p, h3, h4⟩
  · exact ⟨fun _ => .inl h1, fun _ => h2⟩
  · rw [h4]
    simp only [Except.ok.injEq]
    have hl : (s.map asciiLower).length = s.length := List.length_map _
    have e1 : (Spec.rewritten r s p).text = s.map asciiLower ++ (58 :: 47 :: 47 :: (a ++ (p ++ (opt 63 (if r.query = some [] then none else r.query) ++ opt 35 r.fragment)))) := by
      rw [text_eq]; simp [Spec.rewritten, ha]
    have e2 : r.text = s ++ (58 :: 47 :: 47 :: (a ++ (r.path ++ (opt 63 r.query ++ opt 35 r.fragment)))) := by
      rw [text_eq, hs, ha]; simp
    rw [e1, e2]
    constructor
    · intro e
      right
      obtain ⟨hlow, hrest⟩ := List.append_inj e hl
      have hlen := congrArg List.length hrest
      simp only [List.length_cons, List.length_append] at hlen
      have hp : p.length ≤ r.path.length := by rcases h3 with ⟨-, -, h3⟩ | ⟨-, h3⟩ <;> rw [h3] <;> simp
      have hq : (opt 63 (if r.query = some [] then none else r.query)).length ≤ (opt 63 r.query).length := by
        split
        · simp [opt]
        · exact Nat.le_refl _
      refine ⟨hlow, fun hq0 => ?_, fun hb => ?_⟩
      · have : (opt 63 (if r.query = some [] then none else r.query)).length < (opt 63 r.query).length := by rw [if_pos hq0, hq0]; simp [opt]
        omega
      · rcases h3 with ⟨-, -, h3⟩ | ⟨h3, -⟩
        · have : r.path.length = p.length + 1 := by rw [h3]; simp
          omega
        · exact h3 ⟨by rw [hlow]; exact hb.1, hb.2⟩
    · rintro (h' | ⟨hlow, hq, hb⟩)
      · rcases h' with h' | h'
        · exact absurd h1 h'
        · exact absurd h2 h'
      · rcases h3 with ⟨h3, h3', -⟩ | ⟨-, h3⟩
        · exact absurd ⟨by rw [← hlow]; exact h3, h3'⟩ hb
        · rw [if_neg hq, hlow, h3]

/-- A reference with the scheme of the base and no authority (or an empty one) never denotes itself if the base has an authority: it is taken as relative. -/
theorem C91_no_authority {nl : PStr → Bool} {b r : Ref} (hb : b.WF) {ba : PStr} (hba : b.authority = some ba) (hbane : ba ≠ []) (hbn : nl ba = true) (h : r.WF) {s : PStr}
    (hs : r.scheme = some s) (ha : r.authority.getD [] = []) (hnl : nl [] = true) (hsame : (b.scheme.getD []).map asciiLower = s.map asciiLower)
    (hmem : s.map asciiLower ∈ Spec.hierSchemes) : ∃ t, smartUrljoin nl b.text r.text = .ok t ∧ t ≠ r.text ∧ ∃ x, t = s.map asciiLower ++ (py! "://" ++ (ba ++ x)) := by
  have hsne : s ≠ [] := by obtain ⟨c, cs, e, -⟩ := h.scheme s hs; rw [e]; simp
  have hsne' : s.map asciiLower ≠ [] := by simpa using hsne
  have hne : r.text ≠ [] := by rw [text_eq, hs]; simp
  have hb0 : b.text ≠ [] := by rw [text_eq, hba]; simp
  have hbu := urlparse_text hb nl [] (by rw [hba]; exact hbn)
  have hbs : schemeOf b [] = (b.scheme.getD []).map asciiLower := by unfold schemeOf; cases b.scheme <;> rfl
  have hu := urlparse_text h nl (schemeOf b []) (by rw [ha]; exact hnl)
  have hsch : schemeOf r (schemeOf b []) = s.map asciiLower := by unfold schemeOf; rw [hs]
  rw [hsch] at hu
  obtain ⟨-, hnet, hs35⟩ := usesRelative_lower _ hmem
  have hcond : ¬ (s.map asciiLower ≠ schemeOf b [] ∨ (!usesRelative.contains (s.map asciiLower)) = true) := by
    rw [hbs, hsame]
    simp only [ne_eq, not_true_eq_false, false_or, Bool.not_eq_true, Bool.not_eq_false', List.contains_eq_mem, decide_eq_true_eq]
    exact mem_usesRelative.2 hmem
  have hjoin : ∃ x, urljoin nl b.text r.text = .ok (s.map asciiLower ++ (py! "://" ++ (ba ++ x))) := by
    unfold urljoin
    rw [if_neg hb0, if_neg hne, hbu]
    simp only [hu]
    rw [if_neg hcond, if_neg (fun hh => hh.2 ha)]
    simp only [hnet, if_true, hba, Option.getD_some]
    split
    · rw [urlunparse_eq _ hbane hsne']; exact ⟨_, rfl⟩
    · rw [urlunparse_eq _ hbane hsne']; exact ⟨_, rfl⟩
  obtain ⟨x, hx⟩ := hjoin
  have hdiff : ∀ y, s.map asciiLower ++ (py! "://" ++ (ba ++ y)) ≠ r.text := by
    intro y e
    rw [text_eq, hs] at e
    simp only [List.append_assoc] at e
    have := (List.append_inj e (List.length_map _)).2
    simp only [List.cons_append, List.nil_append, List.cons.injEq, true_and] at this
    cases hba' : ba with
    | nil => exact hbane hba'
    | cons c cs =>
      have hc : c ≠ 47 ∧ c ≠ 63 ∧ c ≠ 35 := by
        have := hb.authority ba hba
        rw [hba'] at this
        simp only [List.mem_cons, not_or] at this
        exact ⟨fun e => this.1.1 e.symm, fun e => this.2.1.1 e.symm, fun e => this.2.2.1 e.symm⟩
      rw [hba'] at this
      cases hra : r.authority with
      | some a =>
        rw [hra] at ha this
        have ha : a = [] := ha
        subst ha
        have hpath := h.pathAuth (by rw [hra]; rfl)
        simp only [List.cons_append, List.nil_append, List.cons.injEq, true_and] at this
        have h0 := congrArg List.head? this
        cases hp : r.path with
        | nil =>
          rw [hp] at h0
          cases hq : r.query <;> cases hf : r.fragment <;> rw [hq, hf] at h0 <;> simp [opt] at h0 <;> omega
        | cons z zs =>
          rw [hp] at h0 hpath
          simp at h0 hpath
          omega
      | none =>
        rw [hra] at this
        simp only [List.nil_append] at this
        have hpath := h.pathNoAuth hra
        have h0 := congrArg (fun l => l.take 2) this
        cases hp : r.path with
        | nil =>
          rw [hp] at h0
          cases hq : r.query <;> cases hf : r.fragment <;> rw [hq, hf] at h0 <;> simp [opt] at h0
        | cons z zs =>
          rw [hp] at h0 hpath
          cases zs with
          | nil => cases hq : r.query <;> cases hf : r.fragment <;> rw [hq, hf] at h0 <;> simp [opt] at h0
          | cons z' zs' => simp at h0 hpath; omega
  unfold smartUrljoin
  rw [hx]
  simp only [Except.map, Except.ok.injEq, exists_eq_left']
  split
  · have e : s.map asciiLower ++ (py! "://" ++ (ba ++ x)) ++ [35] = s.map asciiLower ++ (py! "://" ++ (ba ++ (x ++ [35]))) := by simp
    rw [e]
    exact ⟨hdiff _, _, rfl⟩
  · exact ⟨hdiff _, _, rfl⟩

/-- Two semicolons stay, one at the end goes; the scheme `file` has no parameters. -/
example : smartUrljoin (fun _ => true) (py! "http://a/b") (py! "http://c/d;e;?f") = .ok (py! "http://c/d;e;?f") ∧
    smartUrljoin (fun _ => true) (py! "http://a/b") (py! "HTTP://c/d;?") = .ok (py! "http://c/d") ∧
    smartUrljoin (fun _ => true) (py! "file://a/b") (py! "file://c/d;") = .ok (py! "file://c/d;") ∧
    smartUrljoin (fun _ => true) (py! "https://a/b") (py! "HTTP://c/d;?") = .ok (py! "HTTP://c/d;?") ∧
    smartUrljoin (fun _ => true) (py! "http://a/b/c") (py! "http:d") = .ok (py! "http://a/b/d") := by decide

/-! ### C92: references with an authority -/

/-- **A reference without scheme but with an authority** (`//host/path`): it gets the scheme of the base, in lower case, if that is a hierarchical one, and else is returned as it is.
    Nothing is done about `.` and `..` in its path. An empty query is dropped, and so is a semicolon that ends the last segment and is the only one in it. -/
theorem C92_network_exact {nl : PStr → Bool} {b r : Ref} (hb : b.WF) (hbn : nl (b.authority.getD []) = true) (h : r.WF) {s a : PStr} (hbs : b.scheme = some s)
    (hs : r.scheme = none) (ha : r.authority = some a) (hane : a ≠ []) (hnl : nl a = true) :
    (s.map asciiLower ∉ Spec.hierSchemes ∧ smartUrljoin nl b.text r.text = .ok r.text) ∨
    (s.map asciiLower ∈ Spec.hierSchemes ∧
      ∃ p, ((s.map asciiLower ∈ Spec.paramSchemes ∧ Spec.BareSemi r.path ∧ r.path = p ++ [59]) ∨ (¬ (s.map asciiLower ∈ Spec.paramSchemes ∧ Spec.BareSemi r.path) ∧ r.path = p)) ∧
        smartUrljoin nl b.text r.text = .ok (Spec.rewritten r s p).text) := by
  have hsne : s ≠ [] := by obtain ⟨c, cs, e, -⟩ := hb.scheme s hbs; rw [e]; simp
  have hsne' : s.map asciiLower ≠ [] := by simpa using hsne
  have hb0 : b.text ≠ [] := by rw [text_eq, hbs]; simp
  have hne : r.text ≠ [] := by rw [text_eq, hs, ha]; simp
  have hbu := urlparse_text hb nl [] hbn
  have hbs' : schemeOf b [] = s.map asciiLower := by unfold schemeOf; rw [hbs]
  rw [hbs'] at hbu
  have hu := urlparse_text h nl (s.map asciiLower) (by rw [ha]; exact hnl)
  have hsch : schemeOf r (s.map asciiLower) = s.map asciiLower := by unfold schemeOf; rw [hs]
  rw [hsch] at hu
  have hjoin : urljoin nl b.text r.text = if (!usesRelative.contains (s.map asciiLower)) = true then .ok r.text
      else if usesNetloc.contains (s.map asciiLower) ∧ r.authority.getD [] ≠ [] then .ok (urlunparse ⟨s.map asciiLower, r.authority.getD [], (parts (s.map asciiLower) r.path).1,
        (parts (s.map asciiLower) r.path).2, r.query.getD [], r.fragment.getD []⟩) else urljoin nl b.text r.text := by
    conv => lhs; unfold urljoin
    rw [if_neg hb0, if_neg hne, hbu]
    simp only [hu]
    split
    · next h1 => rw [if_pos (h1.resolve_left fun h => h rfl)]
    · next h1 =>
      rw [if_neg (fun h2 => h1 (.inr h2))]
      split
      · rfl
      · next h2 =>
        unfold urljoin
        rw [if_neg hb0, if_neg hne, hbu]
        simp only [hu]
        rw [if_neg h1, if_neg h2]
  by_cases hcond : (!usesRelative.contains (s.map asciiLower)) = true
  · left
    constructor
    · have h := hcond
      simp only [Bool.not_eq_true', List.contains_eq_mem, decide_eq_false_iff_not] at h
      exact fun h' => h (mem_usesRelative.2 h')
    · unfold smartUrljoin
      rw [hjoin, if_pos hcond]
      simp only [Except.map]
      rw [if_neg (fun hh => hh.2 hh.1)]
  · right
    rw [if_neg hcond] at hjoin
    simp only [Bool.not_eq_true, Bool.not_eq_false', List.contains_eq_mem, decide_eq_true_eq] at hcond
    have hmem := mem_usesRelative.1 hcond
    refine ⟨hmem, ?_⟩
    obtain ⟨-, hnet, hs35⟩ := usesRelative_lower _ hmem
    rw [if_pos ⟨hnet, by rw [ha]; exact hane⟩, urlunparse_eq _ (by rw [ha]; exact hane) hsne'] at hjoin
    dsimp only at hjoin
    obtain ⟨p, e, hp⟩ := parts_written (s.map asciiLower) hsne' r.path
    rw [e] at hjoin
    refine ⟨p, hp, ?_⟩
    have hpath := h.pathAuth (by rw [ha]; rfl)
    have hfix : ¬ (p ≠ [] ∧ p.take 1 ≠ [47]) := by
      rintro ⟨c1, c2⟩
      cases hq : p with
      | nil => exact c1 hq
      | cons x xs =>
        have : r.path.head? = some x := by rcases hp with ⟨-, -, hp⟩ | ⟨-, hp⟩ <;> rw [hp, hq] <;> rfl
        rcases hpath with hp0 | hp0
        · rw [hp0] at this; cases this
        · rw [hp0] at this
          simp only [Option.some.injEq] at this
          rw [hq] at c2; exact c2 (by rw [← this]; rfl)
    have h35p : 35 ∉ p := fun hin => h.path.2 (by rcases hp with ⟨-, -, hp⟩ | ⟨-, hp⟩ <;> rw [hp] <;> simp [hin])
    rw [if_neg hfix, ha] at hjoin
    have hq : optn 63 (r.query.getD []) = opt 63 (if r.query = some [] then none else r.query) := by
      by_cases hq : r.query = some []
      · rw [if_pos hq, hq]; rfl
      · rw [if_neg hq, opt_eq_optn hq]
    have hq35 : 35 ∉ opt 63 (if r.query = some [] then none else r.query) := by
      split
      · simp [opt]
      · cases hq : r.query with
        | none => simp [opt]
        | some q => simp only [opt, List.mem_cons, not_or]; exact ⟨by decide, h.query q hq⟩
    rw [hq] at hjoin
    have ht : (Spec.rewritten r s p).text = s.map asciiLower ++ (58 :: 47 :: 47 :: (a ++ (p ++ (opt 63 (if r.query = some [] then none else r.query) ++ opt 35 r.fragment)))) := by
      rw [text_eq]
      simp [Spec.rewritten, ha]
    generalize hX : opt 63 (if r.query = some [] then none else r.query) = Q at *
    have hlast : ∀ (X : PStr), 35 ∉ X → X.getLast? ≠ some 35 := fun X h e => h (List.mem_of_getLast? e)
    have h35 : 35 ∉ s.map asciiLower ++ (58 :: 47 :: 47 :: (a ++ (p ++ Q))) := by
      simp only [List.mem_append, List.mem_cons, not_or]
      exact ⟨hs35, by decide, by decide, by decide, (h.authority a ha).2.2, h35p, hq35⟩
    have hrq : 35 ∉ opt 63 r.query := by
      cases hq : r.query with
      | none => simp [opt]
      | some q => simp only [opt, List.mem_cons, not_or]; exact ⟨by decide, h.query q hq⟩
    have hrt : r.text = (47 :: 47 :: (a ++ (r.path ++ opt 63 r.query))) ++ opt 35 r.fragment := by
      rw [text_eq, hs, ha]; simp
    have h35r : 35 ∉ (47 :: 47 :: (a ++ (r.path ++ opt 63 r.query))) := by
      simp only [List.mem_append, List.mem_cons, not_or]
      exact ⟨by decide, by decide, (h.authority a ha).2.2, h.path.2, hrq⟩
    have hj : urljoin nl b.text r.text = .ok ((s.map asciiLower ++ (58 :: 47 :: 47 :: (a ++ (p ++ Q)))) ++ optn 35 (r.fragment.getD [])) := by
      rw [hjoin]; simp
    have ht' : (Spec.rewritten r s p).text = (s.map asciiLower ++ (58 :: 47 :: 47 :: (a ++ (p ++ Q)))) ++ opt 35 r.fragment := by
      rw [ht]; simp
    unfold smartUrljoin
    rw [hj, ht', hrt]
    generalize s.map asciiLower ++ (58 :: 47 :: 47 :: (a ++ (p ++ Q))) = X at *
    generalize (47 :: 47 :: (a ++ (r.path ++ opt 63 r.query)) : PStr) = Y at *
    simp only [Except.map, Except.ok.injEq]
    cases hf : r.fragment with
    | none =>
      simp only [Option.getD_none, optn, opt, if_true, List.append_nil]
      rw [if_neg (fun hh => hlast Y h35r hh.1)]
    | some f =>
      by_cases hfe : f = []
      · subst hfe
        simp [opt, optn, hlast X h35]
      · simp only [Option.getD_some, optn, if_neg hfe, opt]
        have e : ∀ Z : PStr, (Z ++ 35 :: f).getLast? = f.getLast? := by
          intro Z
          cases f with
          | nil => exact absurd rfl hfe
          | cons x xs => rw [List.getLast?_append, List.getLast?_cons_cons, List.getLast?_eq_some_getLast (List.cons_ne_nil x xs)]; rfl
        rw [if_neg (fun hh => hh.2 (by rw [e]; rw [e] at hh; exact hh.1))]

/-- So it is as RFC 3986 says if the path has no `.` or `..` to remove and nothing is dropped. -/
theorem C92_network_partial {nl : PStr → Bool} {b r : Ref} (hb : b.WF) (hbn : nl (b.authority.getD []) = true) (h : r.WF) {s a : PStr} (hbs : b.scheme = some s)
    (hlow : s.map asciiLower = s) (hier : s ∈ Spec.hierSchemes) (hs : r.scheme = none) (ha : r.authority = some a) (hane : a ≠ []) (hnl : nl a = true)
    (hdots : removeDots r.path = r.path) (hsemi : ¬ Spec.BareSemi r.path) (hq : r.query ≠ some []) : smartUrljoin nl b.text r.text = .ok (resolve b r).text := by
  rcases C92_network_exact hb hbn h hbs hs ha hane hnl with ⟨h1, -⟩ | ⟨-, p, hp, h2⟩
  · rw [hlow] at h1; exact absurd hier h1
  · rw [h2]
    have hpp : r.path = p := by
      rcases hp with ⟨-, h3, -⟩ | ⟨-, h3⟩
      · exact absurd h3 hsemi
      · exact h3
    congr 2
    unfold resolve Spec.rewritten
    rw [hs, ha]
    simp only [Option.isSome_none, Bool.false_eq_true, if_false, Option.isSome_some, if_true]
    rw [if_neg hq, hbs, hlow, hdots, ← hpp]

/-- Dots are not removed: another way in which C92 fails. -/
theorem C92_network_dots : smartUrljoin (fun _ => true) (py! "http://a/b") (py! "//c/../d") = .ok (py! "http://c/../d") ∧
    (resolve (exHttp (py! "/b")) ⟨none, some (py! "c"), py! "/../d", none, none⟩).text = py! "http://c/d" := by decide

example : smartUrljoin (fun _ => true) (py! "http://a/b") (py! "//c/d;e?f#") = .ok (py! "http://c/d;e?f#") := by decide

/-- **The empty reference** gives the base as it was written, whatever it is: the fragment stays (RFC 3986 drops it) and nothing is checked. -/
theorem C92_empty (nl : PStr → Bool) (b : PStr) : smartUrljoin nl b [] = .ok b := by
  unfold smartUrljoin urljoin
  by_cases h : b = []
  · rw [if_pos h, h]; rfl
  · rw [if_neg h, if_pos rfl]
    simp [Except.map]

/-- **The empty base** gives the reference as it was written. -/
theorem C92_empty_base (nl : PStr → Bool) (r : PStr) : smartUrljoin nl [] r = .ok r := by
  unfold smartUrljoin urljoin
  rw [if_pos rfl]
  simp only [Except.map]
  rw [if_neg (fun hh => hh.2 hh.1)]

end Verif
