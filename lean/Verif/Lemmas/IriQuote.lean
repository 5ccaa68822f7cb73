import Verif.Lemmas.Iri
namespace Verif

/-! ### quote_normalized_iri, character by character -/

/-- What one character becomes in `quote_normalized_iri`. -/
def quote1 (c : Nat) : PStr := if c > 127 then ((utf8Char c).getD []).flatMap pctByte else quoteChar c

theorem quoteKeeps_hex {d : Nat} (hd : d < 16) : quoteKeeps (hexUpper d) = true := by
  have := hexUpper_range hd
  unfold quoteKeeps
  rw [Bool.or_eq_true, Bool.or_eq_true]
  exact .inl (.inl (by simp; omega))

theorem quoteKeeps_isHex {c : Nat} (h : isHex c = true) : quoteKeeps c = true := by
  unfold isHex hexVal? at h
  unfold quoteKeeps
  rw [Bool.or_eq_true, Bool.or_eq_true]
  refine .inl (.inl ?_)
  simp only [decide_eq_true_eq]
  split at h
  · omega
  · split at h
    · omega
    · split at h
      · omega
      · cases h

theorem quoteKeeps_37 : quoteKeeps 37 = true := by decide

theorem flatMap_quoteChar_keep (l : PStr) (h : ∀ c ∈ l, quoteKeeps c = true) : l.flatMap quoteChar = l := by
  induction l with
  | nil => rfl
  | cons c cs ih => rw [List.flatMap_cons, ih (fun x hx => h x (by simp [hx])), quoteChar, if_pos (h c (by simp))]; rfl

theorem pctByte_keeps (b : Nat) : ∀ c ∈ pctByte b, quoteKeeps c = true := by
  intro c hc
  simp only [pctByte, fmt02X, List.mem_cons, List.not_mem_nil, or_false] at hc
  rcases hc with rfl | rfl | rfl
  · exact quoteKeeps_37
  · exact quoteKeeps_hex (Nat.mod_lt _ (by omega))
  · exact quoteKeeps_hex (Nat.mod_lt _ (by omega))

theorem utf8Char_scalar {c : Nat} (h : scalarValue c) : ∃ b, utf8Char c = some b :=
  utf8Char_isSome h.1 (by simpa [isSurrogate] using h.2)

theorem quote_eq (s : PStr) (h : ∀ c ∈ s, scalarValue c) : quoteNormalizedIri s = .ok (s.flatMap quote1) := by
  unfold quoteNormalizedIri
  induction s with
  | nil => rfl
  | cons c cs ih =>
    have ih := ih (fun x hx => h x (by simp [hx]))
    rw [encodeNonAscii, List.flatMap_cons, quote1]
    cases he : encodeNonAscii cs with
    | error e => rw [he] at ih; cases ih
    | ok v =>
      rw [he] at ih
      have ih : v.flatMap quoteChar = cs.flatMap quote1 := Except.ok.inj ih
      by_cases hc : c > 127
      · obtain ⟨b, hb⟩ := utf8Char_scalar (h c (by simp))
        rw [if_pos hc, if_pos hc, percentEncode, hb]
        simp only [Except.map, Option.getD_some, List.flatMap_append, ih]
        rw [flatMap_quoteChar_keep (b.flatMap pctByte)]
        intro x hx
        obtain ⟨y, _, hy⟩ := List.mem_flatMap.1 hx
        exact pctByte_keeps y x hy
      · rw [if_neg hc, if_neg hc]
        simp only [Except.map, List.flatMap_cons, ih]

theorem quote_surrogate (s : PStr) (h : ∃ c ∈ s, 0xD800 ≤ c ∧ c ≤ 0xDFFF) : quoteNormalizedIri s = .error .unicodeEncodeError := by
  unfold quoteNormalizedIri
  have : encodeNonAscii s = .error .unicodeEncodeError := by
    induction s with
    | nil => simp at h
    | cons c cs ih =>
      rw [encodeNonAscii]
      by_cases hs : 0xD800 ≤ c ∧ c ≤ 0xDFFF
      · rw [if_pos (by omega), percentEncode, utf8Char_surrogate (by simpa [isSurrogate] using hs)]
      · have : ∃ x ∈ cs, 0xD800 ≤ x ∧ x ≤ 0xDFFF := by
          obtain ⟨x, hx, hx'⟩ := h
          rcases List.mem_cons.1 hx with rfl | hx
          · exact absurd hx' hs
          · exact ⟨x, hx, hx'⟩
        rw [ih this]
        unfold percentEncode
        split
        · cases utf8Char c <;> rfl
        · rfl
  rw [this]; rfl

theorem quoteKeeps_lt {c : Nat} (h : quoteKeeps c = true) : 0x20 < c ∧ c < 127 := by
  simp only [quoteKeeps, reservedInIri, Bool.or_eq_true, decide_eq_true_eq, List.contains_iff_mem, List.mem_cons, List.not_mem_nil, or_false] at h
  omega

theorem quoteKeeps_reserved {r : Nat} (h : reservedInIri.contains r = true) : quoteKeeps r = true := by
  unfold quoteKeeps; rw [h]; simp

theorem reserved_range {r : Nat} (h : reservedInIri.contains r = true) : 0x20 < r ∧ r < 128 := by
  have := quoteKeeps_lt (quoteKeeps_reserved h); omega

theorem quote1_keep {c : Nat} (h : quoteKeeps c = true) : quote1 c = [c] := by
  have := quoteKeeps_lt h
  rw [quote1, if_neg (by omega), quoteChar, if_pos h]

/-- The bytes an escaped character is written with. -/
theorem quote1_esc {c : Nat} (h : quoteKeeps c = false) (hs : scalarValue c) :
    ∃ b, utf8Char c = some b ∧ quote1 c = b.flatMap pctByte := by
  obtain ⟨b, hb⟩ := utf8Char_scalar hs
  refine ⟨b, hb, ?_⟩
  unfold quote1
  by_cases hc : c > 127
  · rw [if_pos hc, hb]; rfl
  · rw [if_neg hc, quoteChar, h]
    have : b = [c] := by
      unfold utf8Char at hb; rw [if_pos (by omega)] at hb; exact (Option.some.inj hb).symm
    subst this; simp

theorem quote1_keeps (c : Nat) (hs : scalarValue c) : ∀ x ∈ quote1 c, quoteKeeps x = true := by
  cases hk : quoteKeeps c with
  | true => rw [quote1_keep hk]; simpa using hk
  | false =>
    obtain ⟨b, _, e⟩ := quote1_esc hk hs
    rw [e]
    intro x hx
    obtain ⟨y, _, hy⟩ := List.mem_flatMap.1 hx
    exact pctByte_keeps y x hy

/-! ### Normalizing a run of escaped bytes -/

theorem bytes_escs (bs : List Nat) : bs.flatMap pctByte = escs (bs.map fun b => (hexUpper (b / 16 % 16), hexUpper (b % 16))) := by
  simp only [escs, List.flatMap_map]
  rfl

theorem hexUpper_inj {a b : Nat} (ha : a < 16) (hb : b < 16) (h : hexUpper a = hexUpper b) : a = b := by
  have h1 := hexVal_hexUpper ha
  rw [h, hexVal_hexUpper hb] at h1
  exact (Option.some.inj h1).symm

theorem pctMatches_byte {b : Nat} (h1 : 0x20 < b) (h2 : b < 256) : pctMatches (hexUpper (b / 16 % 16)) (hexUpper (b % 16)) = true := by
  have h48 : hexUpper (b / 16 % 16) ≠ 48 := fun e => by
    have := hexUpper_inj (Nat.mod_lt _ (by omega)) (show 0 < 16 by omega) (e.trans (by decide : 48 = hexUpper 0)); omega
  have h49 : hexUpper (b / 16 % 16) ≠ 49 := fun e => by
    have := hexUpper_inj (Nat.mod_lt _ (by omega)) (show 1 < 16 by omega) (e.trans (by decide : 49 = hexUpper 1)); omega
  have h50 : ¬ (hexUpper (b / 16 % 16) = 50 ∧ hexUpper (b % 16) = 48) := fun ⟨e, e'⟩ => by
    have := hexUpper_inj (Nat.mod_lt _ (by omega)) (show 2 < 16 by omega) (e.trans (by decide : 50 = hexUpper 2))
    have := hexUpper_inj (Nat.mod_lt _ (by omega)) (show 0 < 16 by omega) (e'.trans (by decide : 48 = hexUpper 0)); omega
  simp [pctMatches, isHex_hexUpper (Nat.mod_lt _ (show 16 > 0 by omega)), h48, h49]
  omega

theorem escBytes_bytes (bs : List Nat) (h : ∀ b ∈ bs, b < 256) :
    escBytes (bs.map fun b => (hexUpper (b / 16 % 16), hexUpper (b % 16))) = bs := by
  induction bs with
  | nil => rfl
  | cons b bs ih =>
    simp only [escBytes, List.map_cons] at *
    rw [ih (fun x hx => h x (by simp [hx]))]
    congr 1
    exact parseHex_fmt02X (h b (by simp))

theorem normalize_bytes {bs : List Nat} {u : PStr} (hb : ∀ b ∈ bs, 0x20 < b ∧ b < 256) (hu : utf8Decode bs = some u) (rest : PStr)
    (hr : pctRun rest = []) : normalizeIri (bs.flatMap pctByte ++ rest) = (normalizeIri rest).map (u.flatMap reEnc ++ ·) := by
  rw [bytes_escs, normalize_run _ _ rest hr, escBytes_bytes bs (fun b h => (hb b h).2), percentDecode_eq hu]
  intro e he
  obtain ⟨b, hb', rfl⟩ := List.mem_map.1 he
  exact pctMatches_byte (hb b hb').1 (hb b hb').2

/-! ### Tokens that are written as escapes -/

/-- The token is written with escapes only: a reserved character escaped, or a character that quoting escapes. -/
def NTok.Esc : NTok → Prop
  | .ch c => 0x20 < c ∧ scalarValue c ∧ quoteKeeps c = false
  | .keep _ _ => False
  | .res r => reservedInIri.contains r = true

/-- The character a token stands for. -/
def NTok.val : NTok → Nat
  | .ch c => c
  | .keep _ _ => 0
  | .res r => r

/-- What quoting makes of a token. -/
def NTok.quoted : NTok → PStr
  | .ch c => quote1 c
  | t => t.render

theorem NTok.Esc.bytes {t : NTok} (h : t.Esc) : ∃ b, utf8Char t.val = some b ∧ t.quoted = b.flatMap pctByte ∧ (∀ x ∈ b, 0x20 < x ∧ x < 256) ∧
    reEnc t.val = t.render := by
  cases t with
  | ch c =>
    obtain ⟨h1, h2, h3⟩ := h
    obtain ⟨b, hb, hq⟩ := quote1_esc h3 h2
    refine ⟨b, hb, hq, ?_, ?_⟩
    · intro x hx
      refine ⟨?_, utf8Char_bytes hb x hx⟩
      by_cases hc : 128 ≤ c
      · have := utf8Char_high hb hc x hx; omega
      · have : b = [c] := by
          unfold utf8Char at hb; rw [if_pos (by omega)] at hb; exact (Option.some.inj hb).symm
        subst this
        simp at hx; omega
    · have : reservedInIri.contains c = false := by
        cases hr : reservedInIri.contains c with
        | false => rfl
        | true => rw [quoteKeeps_reserved hr] at h3; cases h3
      simp only [NTok.val, NTok.render, reEnc, this]; rfl
  | keep a b => exact h.elim
  | res r =>
    have hr := reserved_range h
    refine ⟨[r], ?_, by simp [NTok.quoted, NTok.render], by simp; omega, ?_⟩
    · simp only [NTok.val]; unfold utf8Char; rw [if_pos (by omega)]
    · unfold NTok.Esc at h; simp only [NTok.val, NTok.render, reEnc, h]; rfl

theorem normalize_toks (ts : List NTok) (h : ∀ t ∈ ts, t.Esc) (rest : PStr) (hr : pctRun rest = []) :
    normalizeIri (ts.flatMap NTok.quoted ++ rest) = (normalizeIri rest).map (ts.flatMap NTok.render ++ ·) := by
  have : ∃ bs, ts.flatMap NTok.quoted = bs.flatMap pctByte ∧ (∀ b ∈ bs, 0x20 < b ∧ b < 256) ∧ utf8Decode bs = some (ts.map NTok.val) ∧
      (ts.map NTok.val).flatMap reEnc = ts.flatMap NTok.render := by
    clear hr
    induction ts with
    | nil => exact ⟨[], rfl, by simp, rfl, rfl⟩
    | cons t ts ih =>
      obtain ⟨bs, h1, h2, h3, h4⟩ := ih (fun x hx => h x (by simp [hx]))
      obtain ⟨b, g1, g2, g3, g4⟩ := (h t (by simp)).bytes
      refine ⟨b ++ bs, ?_, ?_, ?_, ?_⟩
      · simp [h1, g2]
      · intro x hx; exact (List.mem_append.1 hx).elim (g3 x) (h2 x)
      · rw [utf8Decode_char_append g1, h3]; rfl
      · simp only [List.map_cons, List.flatMap_cons, g4, h4]
  obtain ⟨bs, h1, h2, h3, h4⟩ := this
  rw [h1, normalize_bytes h2 h3 rest hr, h4]

/-! ### Fixed points -/

theorem isRes_split (ts : List NTok) (h : ∀ t ∈ ts, t.OK) : ∃ rs rest, ts = rs ++ rest ∧ (∀ t ∈ rs, t.Esc ∧ t.quoted = t.render) ∧
    (∀ t ∈ rest, t.OK) ∧ pctRun (rest.flatMap NTok.render) = [] := by
  induction ts with
  | nil => exact ⟨[], [], rfl, by simp, by simp, rfl⟩
  | cons t ts ih =>
    cases t with
    | ch c => exact ⟨[], _, rfl, by simp, h, pctRun_ch (h (.ch c) (by simp)) _⟩
    | keep a b => exact ⟨[], _, rfl, by simp, h, pctRun_keep (h (.keep a b) (by simp)).2.2 _⟩
    | res r =>
      obtain ⟨rs, rest, e, h1, h2, h3⟩ := ih (fun x hx => h x (by simp [hx]))
      refine ⟨.res r :: rs, rest, by rw [e]; rfl, ?_, h2, h3⟩
      intro t ht
      rcases List.mem_cons.1 ht with rfl | ht
      · exact ⟨h (.res r) (by simp), rfl⟩
      · exact h1 t ht

theorem flatMap_congr' {α β} {l : List α} {f g : α → List β} (h : ∀ x ∈ l, f x = g x) : l.flatMap f = l.flatMap g := by
  induction l with
  | nil => rfl
  | cons a l ih => rw [List.flatMap_cons, List.flatMap_cons, h a (by simp), ih (fun x hx => h x (by simp [hx]))]

theorem normalize_fixed_toks (ts : List NTok) (h : ∀ t ∈ ts, t.OK) : normalizeIri (ts.flatMap NTok.render) = .ok (ts.flatMap NTok.render) := by
  induction hn : ts.length using Nat.strongRecOn generalizing ts with
  | _ n ih =>
    obtain ⟨rs, rest, rfl, h1, h2, h3⟩ := isRes_split ts h
    rw [List.flatMap_append, flatMap_congr' (fun x hx => ((h1 x hx).2).symm), normalize_toks rs (fun t ht => (h1 t ht).1) _ h3]
    rw [flatMap_congr' (fun x hx => ((h1 x hx).2))]
    have : normalizeIri (rest.flatMap NTok.render) = .ok (rest.flatMap NTok.render) := by
      cases rest with
      | nil => rfl
      | cons t ts' =>
        have ih := ih ts'.length (by simp at hn; omega) ts' (fun x hx => h2 x (by simp [hx])) rfl
        rw [List.flatMap_cons]
        have ht := h2 t (by simp)
        cases t with
        | ch c => rw [NTok.render, List.cons_append, List.nil_append, normalize_ch ht, ih]; rfl
        | keep a b =>
          rw [NTok.render, List.cons_append, List.cons_append, List.cons_append, List.nil_append, normalize_keep ht.1 ht.2.1 ht.2.2, ih]; rfl
        | res r =>
          exfalso
          have hr := reserved_range ht
          have : pctRun ((NTok.res r :: ts').flatMap NTok.render) ≠ [] := by
            show pctRun (37 :: hexUpper (r / 16 % 16) :: hexUpper (r % 16) :: _) ≠ []
            rw [pctRun, if_pos (pctMatches_byte (by omega) (by omega))]
            simp
          exact this h3
    rw [this]; rfl

/-- Normal forms are fixed points of normalization. -/
theorem normalize_fixed {w : PStr} (h : NF w) : normalizeIri w = .ok w := by
  obtain ⟨ts, h, rfl⟩ := h
  exact normalize_fixed_toks ts h

/-! ### Normalizing after quoting -/

/-- Tokens whose characters are visible and encodable. -/
def NTok.Visible : NTok → Prop
  | .ch c => 0x20 < c ∧ scalarValue c
  | _ => True

theorem esc_split (ts : List NTok) (h : ∀ t ∈ ts, t.OK ∧ t.Visible) : ∃ es rest, ts = es ++ rest ∧ (∀ t ∈ es, t.Esc) ∧
    (∀ t ∈ rest, t.OK ∧ t.Visible) ∧ pctRun (rest.flatMap NTok.quoted) = [] := by
  induction ts with
  | nil => exact ⟨[], [], rfl, by simp, by simp, rfl⟩
  | cons t ts ih =>
    obtain ⟨es, rest, e, h1, h2, h3⟩ := ih (fun x hx => h x (by simp [hx]))
    have push : t.Esc → ∃ es rest, t :: ts = es ++ rest ∧ (∀ t ∈ es, t.Esc) ∧
        (∀ t ∈ rest, t.OK ∧ t.Visible) ∧ pctRun (rest.flatMap NTok.quoted) = [] := by
      intro ht
      refine ⟨t :: es, rest, by rw [e]; rfl, ?_, h2, h3⟩
      intro x hx
      rcases List.mem_cons.1 hx with rfl | hx
      · exact ht
      · exact h1 x hx
    have ht := h t (by simp)
    cases t with
    | ch c =>
      cases hk : quoteKeeps c with
      | true =>
        refine ⟨[], _, rfl, by simp, h, ?_⟩
        rw [List.flatMap_cons, NTok.quoted, quote1_keep hk]
        exact pctRun_ch ht.1 _
      | false => exact push ⟨ht.2.1, ht.2.2, hk⟩
    | keep a b => exact ⟨[], _, rfl, by simp, h, pctRun_keep ht.1.2.2 _⟩
    | res r => exact push ht.1

theorem normalize_quoted_toks (ts : List NTok) (h : ∀ t ∈ ts, t.OK ∧ t.Visible) :
    normalizeIri (ts.flatMap NTok.quoted) = .ok (ts.flatMap NTok.render) := by
  induction hn : ts.length using Nat.strongRecOn generalizing ts with
  | _ n ih =>
    obtain ⟨es, rest, rfl, h1, h2, h3⟩ := esc_split ts h
    rw [List.flatMap_append, normalize_toks es h1 _ h3]
    have : normalizeIri (rest.flatMap NTok.quoted) = .ok (rest.flatMap NTok.render) := by
      cases rest with
      | nil => rfl
      | cons t ts' =>
        have ih := ih ts'.length (by simp at hn; omega) ts' (fun x hx => h2 x (by simp [hx])) rfl
        have ht := h2 t (by simp)
        cases t with
        | ch c =>
          cases hk : quoteKeeps c with
          | true =>
            rw [List.flatMap_cons, NTok.quoted, quote1_keep hk, List.cons_append, List.nil_append, normalize_ch ht.1, ih]; rfl
          | false =>
            exfalso
            obtain ⟨b, g1, g2, g3, g4⟩ := (show NTok.Esc (.ch c) from ⟨ht.2.1, ht.2.2, hk⟩).bytes
            cases b with
            | nil => exact (utf8Step_char g1 []).2 rfl
            | cons b0 b =>
              rw [List.flatMap_cons, g2] at h3
              have h3 : pctRun (37 :: hexUpper (b0 / 16 % 16) :: hexUpper (b0 % 16) :: (b.flatMap pctByte ++ ts'.flatMap NTok.quoted)) = [] := h3
              have := g3 b0 (by simp)
              rw [pctRun, if_pos (pctMatches_byte this.1 this.2)] at h3
              cases h3
        | keep a b =>
          show normalizeIri (37 :: a :: b :: ts'.flatMap NTok.quoted) = _
          rw [normalize_keep ht.1.1 ht.1.2.1 ht.1.2.2, ih]; rfl
        | res r =>
          exfalso
          have hr := reserved_range ht.1
          have h3 : pctRun (37 :: hexUpper (r / 16 % 16) :: hexUpper (r % 16) :: ts'.flatMap NTok.quoted) = [] := h3
          rw [pctRun, if_pos (pctMatches_byte (by omega) (by omega))] at h3
          cases h3
    rw [this, List.flatMap_append]; rfl

theorem tok_quoted {t : NTok} (h : t.OK) : t.render.flatMap quote1 = t.quoted := by
  cases t with
  | ch c => simp [NTok.render, NTok.quoted]
  | keep a b =>
    simp [NTok.render, NTok.quoted, quote1_keep quoteKeeps_37, quote1_keep (quoteKeeps_isHex h.1), quote1_keep (quoteKeeps_isHex h.2.1)]
  | res r =>
    simp [NTok.render, NTok.quoted, pctByte, fmt02X, quote1_keep quoteKeeps_37, quote1_keep (quoteKeeps_hex (Nat.mod_lt _ (show 16 > 0 by omega)))]

/-- Quoting a visible normal form and normalizing again gives it back. -/
theorem normalize_quote {w : PStr} (h : NF w) (hv : ∀ c ∈ w, 0x20 < c ∧ scalarValue c) :
    ∃ q, quoteNormalizedIri w = .ok q ∧ normalizeIri q = .ok w := by
  refine ⟨_, quote_eq w (fun c hc => (hv c hc).2), ?_⟩
  obtain ⟨ts, h, rfl⟩ := h
  have e : (ts.flatMap NTok.render).flatMap quote1 = ts.flatMap NTok.quoted := by
    rw [List.flatMap_assoc]
    exact flatMap_congr' (fun t ht => tok_quoted (h t ht))
  rw [e]
  refine normalize_quoted_toks ts (fun t ht => ⟨h t ht, ?_⟩)
  cases t with
  | ch c => exact hv c (List.mem_flatMap.2 ⟨_, ht, by simp [NTok.render]⟩)
  | keep => trivial
  | res => trivial

end Verif
