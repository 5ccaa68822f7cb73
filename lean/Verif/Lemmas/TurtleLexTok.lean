import Verif.Lemmas.TurtleLex
/-
Numbers, keywords and whole tokens of the Turtle lexer against the terminals of the recommendation.
-/
namespace Verif.Turtle
open Spec

/-! ### Numbers -/

/-- The text does not begin with a digit. -/
def NoDigit (r : PStr) : Prop := ∀ c, r.head? = some c → isDigit c = false

theorem takeWhile_split (p : Nat → Bool) (s : PStr) : s = s.takeWhile p ++ s.drop (s.takeWhile p).length := by
  induction s with
  | nil => rfl
  | cons c s ih =>
    by_cases h : p c = true
    · simp only [List.takeWhile_cons, h, if_pos, List.length_cons, List.drop_succ_cons, List.cons_append]; rw [← ih]
    · simp [h]

theorem takeWhile_noDigit (s : PStr) : NoDigit (s.drop (s.takeWhile isDigit).length) := by
  induction s with
  | nil => intro c h; cases h
  | cons c s ih =>
    by_cases h : isDigit c = true
    · simpa only [List.takeWhile_cons, h, if_pos, List.length_cons, List.drop_succ_cons] using ih
    · intro d hd
      simp [h] at hd
      subst hd
      simpa using h

theorem takeWhile_digits {ds r : PStr} (h : Digits ds) (hr : NoDigit r) : (ds ++ r).takeWhile isDigit = ds := by
  induction ds with
  | nil =>
    cases r with
    | nil => rfl
    | cons c r => simp [hr c rfl]
  | cons c ds ih =>
    rw [List.cons_append, List.takeWhile_cons, if_pos (isDigit_iff.2 (h c (by simp))), ih fun x hx => h x (by simp [hx])]

theorem digits_takeWhile (s : PStr) : Digits (s.takeWhile isDigit) := by
  induction s with
  | nil => intro c h; cases h
  | cons c s ih =>
    by_cases h : isDigit c = true
    · simp only [List.takeWhile_cons, h, if_pos]
      intro d hd
      rcases List.mem_cons.1 hd with rfl | hd
      · exact isDigit_iff.1 h
      · exact ih d hd
    · simp only [List.takeWhile_cons, h]
      intro d hd; cases hd

/-- The text does not begin with a sign. -/
def NoSign (r : PStr) : Prop := ∀ c, r.head? = some c → c ≠ 43 ∧ c ≠ 45

theorem signOf_append {sg r : PStr} (h : Sign sg) (hr : NoSign r) : signOf (sg ++ r) = sg := by
  rcases h with rfl | rfl | rfl
  · cases r with
    | nil => rfl
    | cons c r => have := hr c rfl; simp [signOf, this.1, this.2]
  · rfl
  · rfl

theorem signOf_sound (s : PStr) : Sign (signOf s) ∧ s = signOf s ++ s.drop (signOf s).length := by
  cases s with
  | nil => exact ⟨.inl rfl, rfl⟩
  | cons c s =>
    rw [signOf]
    split
    · next h =>
      refine ⟨.inr ?_, rfl⟩
      rcases h with rfl | rfl
      · exact .inl rfl
      · exact .inr rfl
    · exact ⟨.inl rfl, rfl⟩

theorem noSign_digits {ds r : PStr} (h : Digits ds) (hne : ds ≠ []) : NoSign (ds ++ r) := by
  cases ds with
  | nil => exact absurd rfl hne
  | cons c ds =>
    intro d hd
    cases hd
    have := h c (by simp)
    simp only [isDigitChar] at this
    omega

theorem scanExp_append {ex r : PStr} (h : Exponent ex) (hr : NoDigit r) : scanExp (ex ++ r) = ex := by
  obtain ⟨e, sg, ds, rfl, he, hs, hd, hne⟩ := h
  have h1 : signOf (sg ++ (ds ++ r)) = sg := signOf_append hs (noSign_digits hd hne)
  rw [List.cons_append, List.append_assoc, scanExp, if_pos he]
  simp only [h1, List.drop_left, takeWhile_digits hd hr]
  rw [if_neg hne]

theorem scanExp_sound {s : PStr} (h : scanExp s ≠ []) : Exponent (scanExp s) ∧ ∃ r, s = scanExp s ++ r := by
  cases s with
  | nil => exact absurd rfl h
  | cons c s =>
    rw [scanExp] at h ⊢
    split at h
    · next he =>
      rw [if_pos he]
      simp only at h ⊢
      split at h
      · exact absurd rfl h
      · next hd =>
        rw [if_neg hd]
        have h1 := signOf_sound s
        have h2 := takeWhile_split isDigit (s.drop (signOf s).length)
        refine ⟨⟨c, _, _, rfl, he, h1.1, digits_takeWhile _, hd⟩,
          (s.drop (signOf s).length).drop ((s.drop (signOf s).length).takeWhile isDigit).length, ?_⟩
        · rw [List.cons_append, List.append_assoc, ← h2, ← h1.2]
    · exact absurd rfl h

theorem scanExp_none {r : PStr} (h : ∀ c, r.head? = some c → pnChar c = false) : scanExp r = [] := by
  cases r with
  | nil => rfl
  | cons c r =>
    have := h c rfl
    rw [scanExp, if_neg]
    rintro (rfl | rfl) <;> revert this <;> decide

/-- What `scanNum` does after sign and digits. -/
def numTail (sg ds : PStr) : PStr → Option (NumKind × PStr)
  | 46 :: r1 =>
    let fs := r1.takeWhile isDigit
    let ex := scanExp (r1.drop fs.length)
    if ex ≠ [] ∧ (ds ≠ [] ∨ fs ≠ []) then some (.double, sg ++ ds ++ 46 :: fs ++ ex)
    else if fs ≠ [] then some (.decimal, sg ++ ds ++ 46 :: fs)
    else if ds ≠ [] then some (.integer, sg ++ ds)
    else none
  | r =>
    if ds = [] then none
    else
      let ex := scanExp r
      if ex ≠ [] then some (.double, sg ++ ds ++ ex) else some (.integer, sg ++ ds)

theorem scanNum_eq (s : PStr) : scanNum s =
    numTail (signOf s) ((s.drop (signOf s).length).takeWhile isDigit)
      ((s.drop (signOf s).length).drop ((s.drop (signOf s).length).takeWhile isDigit).length) := rfl

theorem scanNum_parts {sg ds r : PStr} (hs : Sign sg) (hd : Digits ds) (hr : NoDigit r) (hn : NoSign (ds ++ r)) : scanNum (sg ++ (ds ++ r)) = numTail sg ds r := by
  rw [scanNum_eq, signOf_append hs hn, List.drop_left, takeWhile_digits hd hr, List.drop_left]

theorem Stops.noDigit {r : PStr} (h : Stops r) : NoDigit r := by
  rcases Stops.cases h with rfl | ⟨r', rfl, _⟩ | ⟨c, r', rfl, h1, h2⟩
  · intro c h; cases h
  · intro c h; cases h; rfl
  · intro d hd
    cases hd
    have := h2.pn
    simp only [pnChar, Bool.or_eq_false_iff] at this
    exact this.1.2

theorem Stops.noPn {r : PStr} (h : Stops r) : ∀ c, r.head? = some c → pnChar c = false := by
  rcases Stops.cases h with rfl | ⟨r', rfl, _⟩ | ⟨c, r', rfl, h1, h2⟩
  · intro c h; cases h
  · intro c h; cases h; rfl
  · intro d hd
    cases hd
    exact h2.pn

theorem noDigit_dot (r : PStr) : NoDigit (46 :: r) := by intro c h; cases h; rfl

theorem noDigit_exp {ex r : PStr} (h : Exponent ex) : NoDigit (ex ++ r) := by
  obtain ⟨e, sg, ds, rfl, he, _⟩ := h
  intro c hc
  cases hc
  rcases he with rfl | rfl <;> rfl

theorem exp_ne {ex : PStr} (h : Exponent ex) : ex ≠ [] := by
  obtain ⟨e, sg, ds, rfl, _⟩ := h; simp

theorem numTail_dot {sg ds fs r : PStr} (hf : Digits fs) (hr : NoDigit r) : numTail sg ds (46 :: (fs ++ r)) =
    if scanExp r ≠ [] ∧ (ds ≠ [] ∨ fs ≠ []) then some (.double, sg ++ ds ++ 46 :: fs ++ scanExp r)
    else if fs ≠ [] then some (.decimal, sg ++ ds ++ 46 :: fs)
    else if ds ≠ [] then some (.integer, sg ++ ds)
    else none := by
  rw [numTail]
  simp only [takeWhile_digits hf hr, List.drop_left]

theorem numTail_other {sg ds r : PStr} (h : r.head? ≠ some 46) : numTail sg ds r =
    if ds = [] then none else if scanExp r ≠ [] then some (.double, sg ++ ds ++ scanExp r) else some (.integer, sg ++ ds) := by
  rw [numTail]
  rintro r' rfl
  exact h rfl

theorem scanNum_append {k : NumKind} {t r : PStr} (h : NumText k t) (hr : Stops r) : scanNum (t ++ r) = some (k, t) := by
  cases h with
  | @integer sg ds hs hd hne =>
    rw [List.append_assoc, scanNum_parts hs hd (Stops.noDigit hr) (noSign_digits hd hne)]
    rcases Stops.cases hr with rfl | ⟨r', rfl, hr'⟩ | ⟨c, r', rfl, h1, h2⟩
    · rw [numTail_other (by simp), if_neg hne, if_neg (by simp [scanExp])]
    · have e := @numTail_dot sg ds [] r' (by intro c h; cases h) (Stops.noDigit hr')
      rw [List.nil_append] at e
      rw [e, scanExp_none (Stops.noPn hr'), if_neg (by simp), if_neg (by simp), if_pos hne]
    · rw [numTail_other (by simpa using h1), if_neg hne, scanExp_none (by intro d hd; cases hd; exact h2.pn), if_neg (by simp)]
  | @decimal sg ds fs hs hd hf hne =>
    have hn : NoSign (ds ++ 46 :: (fs ++ r)) := by
      cases ds with
      | nil => intro c h; cases h; decide
      | cons c ds => exact noSign_digits hd (by simp)
    rw [show sg ++ ds ++ 46 :: fs ++ r = sg ++ (ds ++ 46 :: (fs ++ r)) by simp, scanNum_parts hs hd (noDigit_dot _) hn,
      numTail_dot hf (Stops.noDigit hr), scanExp_none (Stops.noPn hr), if_neg (by simp), if_pos hne]
  | @doubleDot sg ds fs ex hs hd hf hne hx =>
    have hn : NoSign (ds ++ 46 :: (fs ++ (ex ++ r))) := by
      cases ds with
      | nil => intro c h; cases h; decide
      | cons c ds => exact noSign_digits hd (by simp)
    rw [show sg ++ ds ++ 46 :: fs ++ ex ++ r = sg ++ (ds ++ 46 :: (fs ++ (ex ++ r))) by simp, scanNum_parts hs hd (noDigit_dot _) hn,
      numTail_dot hf (noDigit_exp hx), scanExp_append hx (Stops.noDigit hr), if_pos ⟨exp_ne hx, hne⟩]
  | @double sg ds ex hs hd hne hx =>
    have h46 : (ex ++ r).head? ≠ some 46 := by
      obtain ⟨e, sg, ds, rfl, he, _⟩ := hx
      intro h
      cases h
      revert he
      decide
    rw [show sg ++ ds ++ ex ++ r = sg ++ (ds ++ (ex ++ r)) by simp, scanNum_parts hs hd (noDigit_exp hx) (noSign_digits hd hne),
      numTail_other h46, if_neg hne, scanExp_append hx (Stops.noDigit hr), if_pos (exp_ne hx)]

theorem scanNum_sound {s : PStr} {k : NumKind} {t : PStr} (h : scanNum s = some (k, t)) : NumText k t ∧ ∃ r, s = t ++ r := by
  rw [scanNum_eq] at h
  obtain ⟨hs, e1⟩ := signOf_sound s
  have hd := digits_takeWhile (s.drop (signOf s).length)
  have e2 := takeWhile_split isDigit (s.drop (signOf s).length)
  generalize signOf s = sg at *
  generalize hr0 : s.drop sg.length = r0 at *
  generalize r0.takeWhile isDigit = ds at *
  generalize r0.drop ds.length = r at *
  subst e2
  subst e1
  simp only [numTail] at h
  split at h
  · next r1 =>
    have hf := digits_takeWhile r1
    have e3 := takeWhile_split isDigit r1
    generalize r1.takeWhile isDigit = fs at *
    generalize r1.drop fs.length = r2 at *
    subst e3
    split at h
    · next hx =>
      cases h
      obtain ⟨h1, r', h2⟩ := scanExp_sound hx.1
      refine ⟨.doubleDot hs hd hf hx.2 h1, r', ?_⟩
      simp only [List.append_assoc, List.cons_append]
      rw [← h2]
    · split at h
      · next hx =>
        cases h
        exact ⟨.decimal hs hd hf hx, r2, by simp⟩
      · split at h
        · next hx =>
          cases h
          exact ⟨.integer hs hd hx, 46 :: (fs ++ r2), by simp⟩
        · cases h
  · split at h
    · cases h
    · next hne =>
      split at h
      · next hx =>
        cases h
        obtain ⟨h1, r', h2⟩ := scanExp_sound hx
        refine ⟨.double hs hd hne h1, r', ?_⟩
        simp only [List.append_assoc]
        rw [← h2]
      · cases h
        exact ⟨.integer hs hd hne, r, by simp⟩

/-! ### Keywords -/

theorem scanKw_append {ks : List (List Nat)} {w : PStr} (h : KwText ks w) (r : PStr) : scanKw ks (w ++ r) = some r := by
  induction h with
  | nil => rfl
  | @cons k ks c w hc _ ih => rw [List.cons_append, scanKw, if_pos (by simpa using hc), ih]

theorem scanKw_sound : ∀ {ks : List (List Nat)} {s r : PStr}, scanKw ks s = some r → ∃ w, KwText ks w ∧ s = w ++ r
  | [], s, r, h => by cases h; exact ⟨[], .nil, rfl⟩
  | _ :: _, [], _, h => by cases h
  | k :: ks, c :: s, r, h => by
    rw [scanKw] at h
    split at h
    · next hc =>
      obtain ⟨w, h1, rfl⟩ := scanKw_sound h
      exact ⟨c :: w, .cons (by simpa using hc) h1, rfl⟩
    · cases h

theorem scanWord_append (w r : PStr) : scanWord w (w ++ r) = some r := by
  rw [scanWord, if_pos (by simp), List.drop_left]

theorem scanWord_sound {w s r : PStr} (h : scanWord w s = some r) : s = w ++ r := by
  rw [scanWord] at h
  split at h
  · next hp =>
    obtain ⟨t, rfl⟩ := List.isPrefixOf_iff_prefix.1 hp
    rw [List.drop_left] at h
    cases h; rfl
  · cases h

theorem scanAnon_append {u : PStr} (h : ∀ c ∈ u, isWhite c) (r : PStr) : scanAnon (u ++ 93 :: r) = some r := by
  have : (u ++ 93 :: r).dropWhile isWs = 93 :: r := by
    induction u with
    | nil => rfl
    | cons c u ih =>
      rw [List.cons_append, List.dropWhile_cons, if_pos (isWs_iff.2 (h c (by simp)))]
      exact ih fun x hx => h x (by simp [hx])
  rw [scanAnon, this]
  rfl

theorem scanAnon_sound {s r : PStr} (h : scanAnon s = some r) : ∃ u, (∀ c ∈ u, isWhite c) ∧ s = u ++ 93 :: r := by
  simp only [scanAnon] at h
  split at h
  · next r' e =>
    cases h
    induction s with
    | nil => cases e
    | cons c s ih =>
      rw [List.dropWhile_cons] at e
      split at e
      · next hc =>
        obtain ⟨u, h1, rfl⟩ := ih e
        refine ⟨c :: u, ?_, rfl⟩
        intro x hx
        rcases List.mem_cons.1 hx with rfl | hx
        · exact isWs_iff.1 hc
        · exact h1 x hx
      · rw [e]; exact ⟨[], by simp, rfl⟩
  · cases h

/-! ### Tokens -/

theorem TokText.head {t : Tok} {w : PStr} (h : TokText lark t w) : ∃ c w', w = c :: w' ∧ isWs c = false ∧ c ≠ 35 := by
  have hb : ∀ c, Spec.pnCharsBase c → isWs c = false ∧ c ≠ 35 := by
    intro c hc
    have hc := pnBase_iff.2 hc
    constructor
    · cases h : isWs c with
      | false => rfl
      | true =>
        simp only [isWs, Bool.or_eq_true, beq_iff_eq] at h
        rcases h with ((rfl | rfl) | rfl) | rfl <;> revert hc <;> decide
    · rintro rfl; revert hc; decide
  have hd : ∀ c, isDigitChar c → isWs c = false ∧ c ≠ 35 := by
    intro c hc
    simp only [isDigitChar] at hc
    simp [isWs]; omega
  have hkw : ∀ {ks : List (List Nat)} {w}, (∀ k ∈ ks, ∀ c ∈ k, isWs c = false ∧ c ≠ 35) → ks ≠ [] → KwText ks w → ∃ c w', w = c :: w' ∧ isWs c = false ∧ c ≠ 35 := by
    intro ks w h1 h2 h3
    cases h3 with
    | nil => exact absurd rfl h2
    | cons hc _ => exact ⟨_, _, rfl, h1 _ (by simp) _ hc⟩
  have hds : ∀ {ds r : PStr}, Digits ds → ds ≠ [] → ∃ c w', ds ++ r = c :: w' ∧ isWs c = false ∧ c ≠ 35 := by
    intro ds r h1 h2
    cases ds with
    | nil => exact absurd rfl h2
    | cons c ds => exact ⟨c, ds ++ r, rfl, hd c (h1 c (by simp))⟩
  have hdd : ∀ {ds r : PStr}, Digits ds → ∃ c w', ds ++ 46 :: r = c :: w' ∧ isWs c = false ∧ c ≠ 35 := by
    intro ds r h1
    cases ds with
    | nil => exact ⟨46, r, rfl, by decide, by decide⟩
    | cons c ds => exact ⟨c, ds ++ 46 :: r, rfl, hd c (h1 c (by simp))⟩
  cases h with
  | ref _ => exact ⟨_, _, rfl, by decide, by decide⟩
  | pname h _ =>
    rcases h with rfl | ⟨c, t, rfl, hc, _⟩
    · exact ⟨_, _, rfl, by decide, by decide⟩
    · exact ⟨_, _, rfl, hb c hc⟩
  | label _ _ => exact ⟨_, _, rfl, by decide, by decide⟩
  | anon _ => exact ⟨_, _, rfl, by decide, by decide⟩
  | str hq _ => rcases hq with rfl | rfl <;> exact ⟨_, _, rfl, by decide, by decide⟩
  | long hq _ => rcases hq with rfl | rfl <;> exact ⟨_, _, rfl, by decide, by decide⟩
  | lang _ => exact ⟨_, _, rfl, by decide, by decide⟩
  | num h =>
    cases h with
    | integer hs h1 h2 =>
      rcases hs with rfl | rfl | rfl
      · have := hds (r := []) h1 h2
        rwa [List.append_nil] at this
      · exact ⟨_, _, rfl, by decide, by decide⟩
      · exact ⟨_, _, rfl, by decide, by decide⟩
    | decimal hs h1 h2 h3 =>
      rcases hs with rfl | rfl | rfl
      · exact hdd h1
      · exact ⟨_, _, rfl, by decide, by decide⟩
      · exact ⟨_, _, rfl, by decide, by decide⟩
    | doubleDot hs h1 h2 h3 =>
      rcases hs with rfl | rfl | rfl
      · rw [List.nil_append, List.append_assoc]; exact hdd h1
      · exact ⟨_, _, rfl, by decide, by decide⟩
      · exact ⟨_, _, rfl, by decide, by decide⟩
    | double hs h1 h2 h3 =>
      rcases hs with rfl | rfl | rfl
      · exact hds h1 h2
      · exact ⟨_, _, rfl, by decide, by decide⟩
      · exact ⟨_, _, rfl, by decide, by decide⟩
  | kwBase h => exact hkw (by decide) (by decide) h
  | kwPrefix h => exact hkw (by decide) (by decide) h
  | ns h =>
    rcases h with rfl | ⟨c, t, rfl, hc, _⟩
    · exact ⟨_, _, rfl, by decide, by decide⟩
    · exact ⟨_, _, rfl, hb c hc⟩
  | _ => exact ⟨_, _, rfl, by decide, by decide⟩

/-- `lexTok` in the three contexts where most tokens may come. -/
def lexMain (ctx : Ctx) (c : Nat) (r : PStr) : Option (Tok × PStr) :=
    if c = 60 then (scanIri 0 r).map fun x => (.iri (.ref x.1), x.2)
    else if c = 34 ∨ c = 39 then (scanQuoted c r).map fun x => (.str x.1, x.2)
    else if c = 91 then
      match scanAnon r with
      | some r' => some (.anon, r')
      | none => some (.lbr, r)
    else if c = 93 then some (.rbr, r)
    else if c = 40 then some (.lpar, r)
    else if c = 41 then some (.rpar, r)
    else if c = 44 then some (.comma, r)
    else if c = 59 then some (.semi, r)
    else if c = 64 then lexAt ctx r
    else if c = 94 then
      match ctx, r with
      | .lit, 94 :: r' => some (.carets, r')
      | _, _ => none
    else if c = 95 then
      match r with
      | 58 :: d :: r' =>
        if pnU d || isDigit d then some (.label (95 :: 58 :: d :: dotTail r'), r'.drop (dotTail r').length) else none
      | _ => none
    else if c = 46 ∨ c = 43 ∨ c = 45 ∨ isDigit c = true then
      match scanNum (c :: r) with
      | some (k, t) => some (.num k t, (c :: r).drop t.length)
      | none => if c = 46 then some (.dot, r) else none
    else lexWord ctx (c :: r)

def Ctx.main (ctx : Ctx) : Prop := ctx = .start ∨ ctx = .body ∨ ctx = .lit

theorem lexTok_main {ctx : Ctx} (h : ctx.main) (c : Nat) (r : PStr) : lexTok ctx (c :: r) = lexMain ctx c r := by
  rcases h with rfl | rfl | rfl <;> rfl

theorem dotTail_drop (s : PStr) : s = dotTail s ++ s.drop (dotTail s).length := by
  obtain ⟨_, r, h⟩ := dotTail_sound s
  have e := congrArg (List.drop (dotTail s).length) h
  rw [List.drop_left] at e
  rw [e, ← h]

theorem lexWord_sound {ctx : Ctx} {s r : PStr} {t : Tok} (h : lexWord ctx s = some (t, r)) : ∃ w, TokText lark t w ∧ s = w ++ r := by
  rw [lexWord] at h
  split at h
  · next ns loc r' e =>
    cases h
    obtain ⟨h1, h2, rfl⟩ := scanPname_sound e
    exact ⟨_, .pname h1 h2, by simp⟩
  · split at h
    · split at h
      · next r' e =>
        cases h
        obtain ⟨w, h1, rfl⟩ := scanKw_sound e
        exact ⟨w, .kwBase h1, rfl⟩
      · cases e : scanKw kwPrefixChars s with
        | none => rw [e] at h; cases h
        | some r' =>
          rw [e] at h
          cases h
          obtain ⟨w, h1, rfl⟩ := scanKw_sound e
          exact ⟨w, .kwPrefix h1, rfl⟩
    · split at h
      · next r' e => cases h; exact ⟨_, .true, scanWord_sound e⟩
      · split at h
        · next r' e => cases h; exact ⟨_, .false, scanWord_sound e⟩
        · cases e : scanWord (py! "a") s with
          | none => rw [e] at h; cases h
          | some r' =>
            rw [e] at h
            cases h
            exact ⟨_, .kwA, scanWord_sound e⟩

theorem lexAt_sound {ctx : Ctx} {s r : PStr} {t : Tok} (h : lexAt ctx s = some (t, r)) : ∃ w, TokText lark t (64 :: w) ∧ s = w ++ r := by
  simp only [lexAt] at h
  split at h
  · split at h
    · next r' e => cases h; exact ⟨_, .atPrefix, scanWord_sound e⟩
    · cases e : scanWord (py! "base") s with
      | none => rw [e] at h; cases h
      | some r' =>
        rw [e] at h
        cases h
        exact ⟨_, .atBase, scanWord_sound e⟩
  · split at h
    · next c r' =>
      split at h
      · next hc =>
        cases h
        obtain ⟨⟨p, u, h1, h2, h3⟩, r, h4⟩ := langTail_sound _ false r' (Nat.le_refl _)
        have e := congrArg (List.drop (langTail false r').length) h4
        rw [List.drop_left] at e
        refine ⟨c :: langTail false r', .lang ⟨c :: p, u, by rw [h1]; rfl, by simp, ?_, h3⟩, by rw [e, List.cons_append, ← h4]⟩
        intro x hx
        rcases List.mem_cons.1 hx with rfl | hx
        · exact isLetter_iff.1 hc
        · simpa using h2 x hx
      · cases h
    · cases h
  · cases h

theorem lexMain_sound {ctx : Ctx} {c : Nat} {s r : PStr} {t : Tok} (h : lexMain ctx c s = some (t, r)) : ∃ w, TokText lark t w ∧ c :: s = w ++ r := by
  unfold lexMain at h
  by_cases hc : c = 60
  · rw [if_pos hc] at h
    subst hc
    cases e : scanIri 0 s with
    | none => rw [e] at h; cases h
    | some x =>
      rw [e] at h
      cases h
      obtain ⟨h1, rfl⟩ := scanIri_sound _ s x.1 x.2 (Nat.le_refl _) e
      exact ⟨_, .ref h1, by simp⟩
  rw [if_neg hc] at h
  by_cases hc : c = 34 ∨ c = 39
  · rw [if_pos hc] at h
    cases e : scanQuoted c s with
    | none => rw [e] at h; cases h
    | some x =>
      rw [e] at h
      cases h
      rcases scanQuoted_sound e with ⟨h1, rfl⟩ | ⟨h1, rfl⟩
      · exact ⟨_, .str hc h1, by simp⟩
      · exact ⟨_, .long hc h1, by simp⟩
  rw [if_neg hc] at h
  by_cases hc : c = 91
  · rw [if_pos hc] at h
    subst hc
    split at h
    · next r' e =>
      cases h
      obtain ⟨u, h1, rfl⟩ := scanAnon_sound e
      exact ⟨_, .anon h1, by simp⟩
    · cases h; exact ⟨_, .lbr, rfl⟩
  rw [if_neg hc] at h
  by_cases hc : c = 93
  · rw [if_pos hc] at h; subst hc; cases h; exact ⟨_, .rbr, rfl⟩
  rw [if_neg hc] at h
  by_cases hc : c = 40
  · rw [if_pos hc] at h; subst hc; cases h; exact ⟨_, .lpar, rfl⟩
  rw [if_neg hc] at h
  by_cases hc : c = 41
  · rw [if_pos hc] at h; subst hc; cases h; exact ⟨_, .rpar, rfl⟩
  rw [if_neg hc] at h
  by_cases hc : c = 44
  · rw [if_pos hc] at h; subst hc; cases h; exact ⟨_, .comma, rfl⟩
  rw [if_neg hc] at h
  by_cases hc : c = 59
  · rw [if_pos hc] at h; subst hc; cases h; exact ⟨_, .semi, rfl⟩
  rw [if_neg hc] at h
  by_cases hc : c = 64
  · rw [if_pos hc] at h
    subst hc
    obtain ⟨w, h1, rfl⟩ := lexAt_sound h
    exact ⟨_, h1, rfl⟩
  rw [if_neg hc] at h
  by_cases hc : c = 94
  · rw [if_pos hc] at h
    subst hc
    split at h
    · cases h; exact ⟨_, .carets, rfl⟩
    · cases h
  rw [if_neg hc] at h
  by_cases hc : c = 95
  · rw [if_pos hc] at h
    subst hc
    split at h
    · next d r' =>
      split at h
      · next hd =>
        cases h
        refine ⟨_, .label ?_ (dotTail_sound r').1, by simp only [List.cons_append]; rw [← dotTail_drop]⟩
        simpa [pnU_iff, isDigit_iff] using hd
      · cases h
    · cases h
  rw [if_neg hc] at h
  by_cases hc : c = 46 ∨ c = 43 ∨ c = 45 ∨ isDigit c = true
  · rw [if_pos hc] at h
    split at h
    · next k t e =>
      cases h
      obtain ⟨h1, r', h2⟩ := scanNum_sound e
      refine ⟨t, .num h1, ?_⟩
      rw [h2, List.drop_left]
    · split at h
      · next hc => subst hc; cases h; exact ⟨_, .dot, rfl⟩
      · cases h
  · rw [if_neg hc] at h
    exact lexWord_sound h

/-- A token of the lexer is written as the recommendation says. -/
theorem lexTok_sound {ctx : Ctx} {s r : PStr} {t : Tok} (h : lexTok ctx s = some (t, r)) : ∃ w, TokText lark t w ∧ s = w ++ r := by
  cases s with
  | nil => cases h
  | cons c s =>
    have hns : ∀ {t : Tok}, (scanNs (c :: s)).map (fun x => (Tok.ns x.1, x.2)) = some (t, r) → ∃ w, TokText lark t w ∧ c :: s = w ++ r := by
      intro t h
      cases e : scanNs (c :: s) with
      | none => rw [e] at h; cases h
      | some x =>
        rw [e] at h
        cases h
        obtain ⟨h1, h2⟩ := scanNs_sound e
        exact ⟨_, .ns h1, by rw [h2]; simp⟩
    cases ctx with
    | start => exact lexMain_sound h
    | body => exact lexMain_sound h
    | lit => exact lexMain_sound h
    | ns => exact hns h
    | ns2 => exact hns h
    | iri2 =>
      rw [lexTok] at h
      split at h
      · next hc =>
        subst hc
        cases e : scanIri 0 s with
        | none => rw [e] at h; cases h
        | some x =>
          rw [e] at h
          cases h
          obtain ⟨h1, rfl⟩ := scanIri_sound _ s x.1 x.2 (Nat.le_refl _) e
          exact ⟨_, .ref h1, by simp⟩
      · cases h

/-! ### Plain writing is read as intended -/

/-- A token that can stand there in some document. -/
def CtxFits : Ctx → Tok → Prop
  | .start, t => t ≠ .kwA ∧ (∀ b, t ≠ .bool b) ∧ (∀ l, t ≠ .lang l) ∧ t ≠ .carets ∧ ∀ p, t ≠ .ns p
  | .body, t => (∀ l, t ≠ .lang l) ∧ t ≠ .carets ∧ t ≠ .atPrefix ∧ t ≠ .atBase ∧ t ≠ .kwBase ∧ t ≠ .kwPrefix ∧ ∀ p, t ≠ .ns p
  | .lit, t => t ≠ .atPrefix ∧ t ≠ .atBase ∧ t ≠ .kwBase ∧ t ≠ .kwPrefix ∧ ∀ p, t ≠ .ns p
  | .ns, t => ∃ p, t = .ns p
  | .ns2, t => ∃ p, t = .ns p
  | .iri2, t => ∃ b, t = .iri (.ref b)

/-- The characters that `lexMain` looks for before words and numbers. -/
def specials : List Nat := [60, 34, 39, 91, 93, 40, 41, 44, 59, 64, 94, 95]

theorem lexMain_num {ctx : Ctx} {c : Nat} {r : PStr} (h : c = 46 ∨ c = 43 ∨ c = 45 ∨ isDigit c = true) : lexMain ctx c r =
    match scanNum (c :: r) with
    | some (k, t) => some (.num k t, (c :: r).drop t.length)
    | none => if c = 46 then some (.dot, r) else none := by
  have hn : ∀ x ∈ specials, c ≠ x := by
    rintro x hx rfl
    rcases h with rfl | rfl | rfl | h
    · revert hx; decide
    · revert hx; decide
    · revert hx; decide
    · simp only [isDigit, decide_eq_true_eq] at h
      simp only [specials, List.mem_cons, List.not_mem_nil, or_false] at hx
      omega
  unfold lexMain
  simp only [specials, List.forall_mem_cons] at hn
  obtain ⟨h1, h2, h3, h4, h5, h6, h7, h8, h9, h10, h11, h12, _⟩ := hn
  rw [if_neg h1, if_neg (by simp [h2, h3]), if_neg h4, if_neg h5, if_neg h6, if_neg h7, if_neg h8, if_neg h9, if_neg h10, if_neg h11, if_neg h12, if_pos h]

theorem lexMain_word {ctx : Ctx} {c : Nat} {r : PStr} (h : c = 58 ∨ pnBase c = true) : lexMain ctx c r = lexWord ctx (c :: r) := by
  have hn : ∀ x ∈ specials ++ [46, 43, 45, 48, 49, 50, 51, 52, 53, 54, 55, 56, 57], c ≠ x := by
    rintro x hx rfl
    rcases h with rfl | h
    · revert hx; decide
    · have : ∀ x ∈ specials ++ [46, 43, 45, 48, 49, 50, 51, 52, 53, 54, 55, 56, 57], pnBase x = false := by decide
      rw [this c hx] at h; cases h
  unfold lexMain
  simp only [specials, List.cons_append, List.nil_append, List.forall_mem_cons] at hn
  obtain ⟨h1, h2, h3, h4, h5, h6, h7, h8, h9, h10, h11, h12, h13, h14, h15, g0, g1, g2, g3, g4, g5, g6, g7, g8, g9, _⟩ := hn
  rw [if_neg h1, if_neg (by simp [h2, h3]), if_neg h4, if_neg h5, if_neg h6, if_neg h7, if_neg h8, if_neg h9, if_neg h10, if_neg h11, if_neg h12,
    if_neg (by simp only [isDigit, decide_eq_true_eq]; omega)]

theorem lexWord_none {ctx : Ctx} {c : Nat} {t r : PStr} (hc : pnBase c = true) (ht : ∀ x ∈ t, pnChar x = true) (hr : Stops r) :
    scanPname (c :: (t ++ r)) = none := by
  rw [scanPname, scanNs_word hc ht hr]

theorem scanWord_none {a c : Nat} {w s : PStr} (h : a ≠ c) : scanWord (a :: w) (c :: s) = none := by
  rw [scanWord, if_neg (by simp [List.isPrefixOf, h])]

theorem kw_shape {ks : List (List Nat)} {w : PStr} (hk : ∀ k ∈ ks, ∀ c ∈ k, pnBase c = true) (hne : ks ≠ []) (h : KwText ks w) :
    ∃ k c t, k ∈ ks.head? ∧ c ∈ k ∧ w = c :: t ∧ pnBase c = true ∧ ∀ x ∈ t, pnChar x = true := by
  cases h with
  | nil => exact absurd rfl hne
  | @cons k ks c w hc h =>
    refine ⟨k, c, w, rfl, hc, rfl, hk k (by simp) c hc, ?_⟩
    have hk' : ∀ k ∈ ks, ∀ c ∈ k, pnBase c = true := fun k hk'' => hk k (by simp [hk''])
    clear hc hk hne
    induction h with
    | nil => intro x hx; cases hx
    | @cons k ks c w hc _ ih =>
      intro x hx
      rcases List.mem_cons.1 hx with rfl | hx
      · have := hk' k (by simp) x hc
        simp [pnChar, pnU, this]
      · exact ih (fun k hk'' => hk' k (by simp [hk''])) x hx

theorem num_head {k : NumKind} {t : PStr} (h : NumText k t) : ∃ c t', t = c :: t' ∧ (c = 46 ∨ c = 43 ∨ c = 45 ∨ isDigit c = true) := by
  have hds : ∀ {ds r : PStr}, Digits ds → ds ≠ [] → ∃ c t', ds ++ r = c :: t' ∧ (c = 46 ∨ c = 43 ∨ c = 45 ∨ isDigit c = true) := by
    intro ds r h1 h2
    cases ds with
    | nil => exact absurd rfl h2
    | cons c ds => exact ⟨c, ds ++ r, rfl, .inr (.inr (.inr (isDigit_iff.2 (h1 c (by simp)))))⟩
  have hdd : ∀ {ds r : PStr}, Digits ds → ∃ c t', ds ++ 46 :: r = c :: t' ∧ (c = 46 ∨ c = 43 ∨ c = 45 ∨ isDigit c = true) := by
    intro ds r h1
    cases ds with
    | nil => exact ⟨46, r, rfl, .inl rfl⟩
    | cons c ds => exact ⟨c, ds ++ 46 :: r, rfl, .inr (.inr (.inr (isDigit_iff.2 (h1 c (by simp)))))⟩
  have hsg : ∀ {sg r : PStr}, Sign sg → (∃ c t', r = c :: t' ∧ (c = 46 ∨ c = 43 ∨ c = 45 ∨ isDigit c = true)) →
      ∃ c t', sg ++ r = c :: t' ∧ (c = 46 ∨ c = 43 ∨ c = 45 ∨ isDigit c = true) := by
    intro sg r h1 h2
    rcases h1 with rfl | rfl | rfl
    · exact h2
    · exact ⟨43, r, rfl, .inr (.inl rfl)⟩
    · exact ⟨45, r, rfl, .inr (.inr (.inl rfl))⟩
  cases h with
  | integer hs h1 h2 =>
    have := hds (r := []) h1 h2
    rw [List.append_nil] at this
    exact hsg hs this
  | decimal hs h1 _ _ => rw [List.append_assoc]; exact hsg hs (hdd h1)
  | doubleDot hs h1 _ _ _ => rw [List.append_assoc, List.append_assoc]; exact hsg hs (hdd h1)
  | double hs h1 h2 _ => rw [List.append_assoc]; exact hsg hs (hds h1 h2)

theorem lexMain_complete {ctx : Ctx} {t : Tok} {c : Nat} {w r : PStr} (hctx : ctx.main) (hf : CtxFits ctx t) (h : TokText lark t (c :: w)) (hr : MayFollow t r) :
    lexMain ctx c (w ++ r) = some (t, r) := by
  generalize hw : c :: w = w' at h
  cases h with
  | @ref b hb =>
    cases hw
    unfold lexMain
    rw [if_pos rfl, List.append_assoc, List.singleton_append, scanIri_body hb]; rfl
  | @pname ns loc h1 h2 =>
    have hc : c = 58 ∨ pnBase c = true := by
      rcases h1 with rfl | ⟨d, t, rfl, hd, _⟩
      · cases hw; exact .inl rfl
      · cases hw; exact .inr (pnBase_iff.2 hd)
    rw [lexMain_word hc, lexWord, ← List.cons_append, hw, List.append_assoc, List.cons_append, scanPname_append h1 h2 hr]
  | @label d t hd ht =>
    cases hw
    have hd : (pnU d || isDigit d) = true := by simpa [pnU_iff, isDigit_iff] using hd
    show (if (pnU d || isDigit d) = true then some (Tok.label (95 :: 58 :: d :: dotTail (t ++ r)), (t ++ r).drop (dotTail (t ++ r)).length) else none) = _
    rw [if_pos hd, dotTail_append ht (dotTail_stops hr), List.drop_left]
  | @anon u hu =>
    cases hw
    show (match scanAnon (u ++ [93] ++ r) with | some r' => some (Tok.anon, r') | none => _) = _
    rw [List.append_assoc, List.singleton_append, scanAnon_append hu]
  | lpar => cases hw; rfl
  | rpar => cases hw; rfl
  | lbr =>
    cases hw
    have : scanAnon r = none := by
      cases e : scanAnon r with
      | none => rfl
      | some r' =>
        obtain ⟨u, h1, h2⟩ := scanAnon_sound e
        exact absurd h2 (hr u r' h1)
    show (match scanAnon r with | some r' => some (Tok.anon, r') | none => some (Tok.lbr, r)) = _
    rw [this]
  | rbr => cases hw; rfl
  | comma => cases hw; rfl
  | semi => cases hw; rfl
  | dot =>
    cases hw
    have hd : NoDigit r := by
      intro d hd
      cases h : isDigit d with
      | false => rfl
      | true => exact absurd (isDigit_iff.1 h) (hr d hd)
    have hn : scanNum (46 :: r) = none := by
      have := @scanNum_parts [] [] (46 :: r) (.inl rfl) (by intro c h; cases h) (noDigit_dot r) (by intro c h; cases h; decide)
      rw [List.nil_append, List.nil_append] at this
      have h2 := @numTail_dot [] [] [] r (by intro c h; cases h) hd
      rw [List.nil_append] at h2
      rw [this, h2]
      simp
    rw [List.nil_append, lexMain_num (.inl rfl), hn]; rfl
  | @str q b hq hb =>
    cases hw
    have h1 : scanQuoted c (b ++ [c] ++ r) = some (b, r) := by
      rw [List.append_assoc, List.singleton_append]
      rcases hq with rfl | rfl
      · exact scanQuoted_short (by decide) hb r hr.1
      · exact scanQuoted_short (by decide) hb r hr.2
    unfold lexMain
    rw [if_neg (by rcases hq with rfl | rfl <;> decide), if_pos hq, h1]; rfl
  | @long q b hq hb =>
    cases hw
    have h1 : scanQuoted c (c :: c :: (b ++ [c, c, c]) ++ r) = some (b, r) := by
      rw [show c :: c :: (b ++ [c, c, c]) ++ r = c :: c :: (b ++ c :: c :: c :: r) by simp]
      exact scanQuoted_long (by rcases hq with rfl | rfl <;> decide) hb r
    unfold lexMain
    rw [if_neg (by rcases hq with rfl | rfl <;> decide), if_pos hq, h1]; rfl
  | @lang l hl =>
    cases hw
    obtain ⟨p, s, rfl, hne, hp, hs⟩ := hl
    have : ctx = .lit := by
      rcases hctx with rfl | rfl | rfl
      · exact absurd rfl (hf.2.2.1 _)
      · exact absurd rfl (hf.1 _)
      · rfl
    subst this
    cases p with
    | nil => exact absurd rfl hne
    | cons d p =>
      show (if isLetter d = true then some (Tok.lang (d :: langTail false (p ++ s ++ r)), (p ++ s ++ r).drop (langTail false (p ++ s ++ r)).length) else none) = _
      have e := langTail_letters (p := p) (fun x hx => hp x (by simp [hx])) hs hr
      rw [← List.append_assoc] at e
      rw [if_pos (isLetter_iff.2 (hp d (by simp))), e, List.drop_left]; rfl
  | carets =>
    cases hw
    have : ctx = .lit := by
      rcases hctx with rfl | rfl | rfl
      · exact absurd rfl hf.2.2.2.1
      · exact absurd rfl hf.2.1
      · rfl
    subst this
    rfl
  | @num k t hk =>
    subst hw
    obtain ⟨d, t', e, hd⟩ := num_head hk
    cases e
    rw [lexMain_num hd, ← List.cons_append, scanNum_append hk hr]
    show some (Tok.num k (c :: w), (c :: w ++ r).drop (c :: w).length) = _
    rw [List.drop_left]
  | kwA =>
    cases hw
    have hctx : ctx ≠ .start := by rintro rfl; exact hf.1 rfl
    rw [lexMain_word (.inr (by decide)), lexWord, lexWord_none (ctx := ctx) (by decide) (by intro x hx; cases hx) hr, if_neg hctx,
      show py! "true" = 116 :: py! "rue" from rfl, show py! "false" = 102 :: py! "alse" from rfl,
      scanWord_none (by decide), scanWord_none (by decide)]
    have := scanWord_append (py! "a") r
    show (scanWord (py! "a") (py! "a" ++ r)).map _ = _
    rw [this]; rfl
  | true =>
    cases hw
    have hctx : ctx ≠ .start := by rintro rfl; exact hf.2.1 _ rfl
    rw [lexMain_word (.inr (by decide)), lexWord, lexWord_none (ctx := ctx) (by decide) (by decide) hr, if_neg hctx]
    have : scanWord (py! "true") (116 :: (py! "rue" ++ r)) = some r := scanWord_append (py! "true") r
    rw [this]
  | false =>
    cases hw
    have hctx : ctx ≠ .start := by rintro rfl; exact hf.2.1 _ rfl
    rw [lexMain_word (.inr (by decide)), lexWord, lexWord_none (ctx := ctx) (by decide) (by decide) hr, if_neg hctx,
      show py! "true" = 116 :: py! "rue" from rfl, scanWord_none (by decide)]
    have : scanWord (py! "false") (102 :: (py! "alse" ++ r)) = some r := scanWord_append (py! "false") r
    rw [this]
  | atPrefix =>
    cases hw
    have : ctx = .start := by
      rcases hctx with rfl | rfl | rfl
      · rfl
      · exact absurd rfl hf.2.2.1
      · exact absurd rfl hf.1
    subst this
    show lexAt .start (py! "prefix" ++ r) = _
    rw [lexAt, scanWord_append]
  | atBase =>
    cases hw
    have : ctx = .start := by
      rcases hctx with rfl | rfl | rfl
      · rfl
      · exact absurd rfl hf.2.2.2.1
      · exact absurd rfl hf.2.1
    subst this
    have h1 : scanWord (py! "prefix") (py! "base" ++ r) = none := scanWord_none (by decide)
    show lexAt .start (py! "base" ++ r) = _
    rw [lexAt, h1, scanWord_append]; rfl
  | kwBase hk =>
    have hctx : ctx = .start := by
      rcases hctx with rfl | rfl | rfl
      · rfl
      · exact absurd rfl hf.2.2.2.2.1
      · exact absurd rfl hf.2.2.1
    subst hctx
    obtain ⟨_, d, t, _, _, e, h1, h2⟩ := kw_shape (by decide) (by decide) hk
    rw [e] at hw
    cases hw
    rw [lexMain_word (.inr h1), lexWord, lexWord_none (ctx := .start) h1 h2 hr, if_pos rfl, ← List.cons_append, ← e,
      show kwBaseChars = lark.base from rfl, scanKw_append hk]
  | kwPrefix hk =>
    have hctx : ctx = .start := by
      rcases hctx with rfl | rfl | rfl
      · rfl
      · exact absurd rfl hf.2.2.2.2.2.1
      · exact absurd rfl hf.2.2.2.1
    subst hctx
    obtain ⟨k, d, t, hk1, hk2, e, h1, h2⟩ := kw_shape (by decide) (by decide) hk
    rw [e] at hw
    cases hw
    have hb : scanKw kwBaseChars (c :: (w ++ r)) = none := by
      cases hk1
      have : ∀ c ∈ py! "Pp", (py! "Bb").contains c = false := by decide
      rw [kwBaseChars, scanKw, this c hk2]; rfl
    rw [lexMain_word (.inr h1), lexWord, lexWord_none (ctx := .start) h1 h2 hr, if_pos rfl, hb, ← List.cons_append, ← e,
      show kwPrefixChars = lark.pre from rfl, scanKw_append hk]; rfl
  | ns h =>
    rcases hctx with rfl | rfl | rfl
    · exact absurd rfl (hf.2.2.2.2 _)
    · exact absurd rfl (hf.2.2.2.2.2.2 _)
    · exact absurd rfl (hf.2.2.2.2 _)

/-- A token written plainly is read as intended. -/
theorem lexTok_complete {ctx : Ctx} {t : Tok} {w r : PStr} (hf : CtxFits ctx t) (h : TokText lark t w) (hr : MayFollow t r) : lexTok ctx (w ++ r) = some (t, r) := by
  obtain ⟨c, w', rfl, _⟩ := TokText.head h
  have hns : ∀ p, t = .ns p → (scanNs (c :: w' ++ r)).map (fun x => (Tok.ns x.1, x.2)) = some (t, r) := by
    rintro p rfl
    generalize c :: w' = w at h
    cases h with
    | ns hp => rw [List.append_assoc, List.singleton_append, scanNs_append hp]; rfl
  cases ctx with
  | start => exact lexMain_complete (.inl rfl) hf h hr
  | body => exact lexMain_complete (.inr (.inl rfl)) hf h hr
  | lit => exact lexMain_complete (.inr (.inr rfl)) hf h hr
  | ns => obtain ⟨p, hp⟩ := hf; exact hns p hp
  | ns2 => obtain ⟨p, hp⟩ := hf; exact hns p hp
  | iri2 =>
    obtain ⟨b, rfl⟩ := hf
    cases h with
    | ref hb =>
      rw [List.cons_append, lexTok, if_pos rfl, List.append_assoc, List.singleton_append, scanIri_body hb]; rfl

end Verif.Turtle
