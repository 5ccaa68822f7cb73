import Verif.Props.Escape
/-
C22-C28: IRIs and blank node labels. Also the part of C20 that holds.
-/
namespace Verif

theorem uriChar_iff (c : Nat) : uriChar c ↔ quoteKeeps c = true := by
  simp only [uriChar, quoteKeeps, reservedInIri, Bool.or_eq_true, decide_eq_true_eq, List.contains_iff_mem, List.mem_cons, List.not_mem_nil, or_false]
  omega

theorem flatMap_quote1_keep (l : PStr) (h : ∀ c ∈ l, quoteKeeps c = true) : l.flatMap quote1 = l := by
  induction l with
  | nil => rfl
  | cons c cs ih => rw [List.flatMap_cons, ih (fun x hx => h x (by simp [hx])), quote1_keep (h c (by simp))]; rfl

/-! ### C22 -/

/-- For encodable text: the result consists of URI characters only, quoting it again changes nothing, and text that consists of URI
    characters is left as it is. -/
theorem C22_quote_ascii_idempotent (s : PStr) (hs : ∀ c ∈ s, scalarValue c) :
    ∃ q, quoteNormalizedIri s = .ok q ∧ (∀ c ∈ q, uriChar c ∧ c < 128) ∧ quoteNormalizedIri q = .ok q ∧
      ((∀ c ∈ s, uriChar c) ↔ q = s) := by
  have hq : ∀ c ∈ s.flatMap quote1, quoteKeeps c = true := by
    intro c hc
    obtain ⟨x, hx, hx'⟩ := List.mem_flatMap.1 hc
    exact quote1_keeps x (hs x hx) c hx'
  refine ⟨_, quote_eq s hs, ?_, ?_, ?_⟩
  · intro c hc
    have := quoteKeeps_lt (hq c hc)
    exact ⟨(uriChar_iff c).2 (hq c hc), by omega⟩
  · rw [quote_eq, flatMap_quote1_keep _ hq]
    intro c hc
    have := quoteKeeps_lt (hq c hc)
    exact ⟨by omega, by omega⟩
  · constructor
    · intro h; exact flatMap_quote1_keep s (fun c hc => (uriChar_iff c).1 (h c hc))
    · intro h c hc
      rw [← h] at hc
      exact (uriChar_iff c).2 (hq c hc)

/-- With a lone surrogate it raises. -/
theorem C22_surrogate_raises (s : PStr) (hs : ∃ c ∈ s, 0xD800 ≤ c ∧ c ≤ 0xDFFF) :
    quoteNormalizedIri s = .error .unicodeEncodeError := quote_surrogate s hs

example : quoteNormalizedIri (py! "http://a/b c<d>é%41") = .ok (py! "http://a/b%20c%3Cd%3E%C3%A9%41") := by decide

/-! ### C23 -/

theorem ntEscape_keeps (l : PStr) (h : ∀ c ∈ l, quoteKeeps c = true) : ntEscape l = l := by
  induction l with
  | nil => rfl
  | cons c cs ih =>
    have hc := h c (by simp)
    have := quoteKeeps_lt hc
    have e : ntEscapeChar c = [c] := by
      have h34 : c ≠ 34 := by intro e; subst e; revert hc; decide
      have h92 : c ≠ 92 := by intro e; subst e; revert hc; decide
      unfold ntEscapeChar
      rw [if_neg (by omega), if_neg (by omega), if_neg (by omega), if_neg h34, if_neg h92, if_pos (by omega)]
    show ntEscapeChar c ++ ntEscape cs = _
    rw [e, ih (fun x hx => h x (by simp [hx]))]; rfl

theorem keeps_iriRefChar {c : Nat} (h : quoteKeeps c = true) : iriRefChar c := by
  have := quoteKeeps_lt h
  refine ⟨this.1, ?_⟩
  intro hm
  simp only [List.mem_cons, List.not_mem_nil, or_false] at hm
  rcases hm with rfl | rfl | rfl | rfl | rfl | rfl | rfl | rfl | rfl <;> revert h <;> decide

theorem iriToNT_eq (s : PStr) (hs : ∀ c ∈ s, scalarValue c) : iriToNT s = .ok ([60] ++ s.flatMap quote1 ++ [62]) := by
  have hq : ∀ c ∈ s.flatMap quote1, quoteKeeps c = true := by
    intro c hc
    obtain ⟨x, hx, hx'⟩ := List.mem_flatMap.1 hc
    exact quote1_keeps x (hs x hx) c hx'
  rw [iriToNT, quote_eq s hs, Except.map, ntEscape_keeps _ hq]

/-- `toNT` of an encodable IRI is `<q>` with `q` the percent-encoded IRI; `q` has only characters an IRIREF may contain and no escapes to
    undo; `q` is the IRI itself iff that consists of URI characters. -/
theorem C23_toNT_legal (s : PStr) (hs : ∀ c ∈ s, scalarValue c) :
    ∃ q, quoteNormalizedIri s = .ok q ∧ iriToNT s = .ok ([60] ++ q ++ [62]) ∧ (∀ c ∈ q, iriRefChar c ∧ c < 127) ∧
      decodeLiteral q = .ok q ∧ (q = s ↔ ∀ c ∈ s, uriChar c) := by
  have hq : ∀ c ∈ s.flatMap quote1, quoteKeeps c = true := by
    intro c hc
    obtain ⟨x, hx, hx'⟩ := List.mem_flatMap.1 hc
    exact quote1_keeps x (hs x hx) c hx'
  refine ⟨_, quote_eq s hs, iriToNT_eq s hs, fun c hc => ⟨keeps_iriRefChar (hq c hc), (quoteKeeps_lt (hq c hc)).2⟩, ?_, ?_⟩
  · refine (C21_transparent _ [] ?_).1
    intro h92
    have := hq 92 h92
    revert this; decide
  · obtain ⟨q, h1, _, _, h2⟩ := C22_quote_ascii_idempotent s hs
    rw [quote_eq s hs] at h1
    rw [Except.ok.inj h1]
    exact h2.symm

example : iriToNT (py! "http://é/ ") = .ok (py! "<http://%C3%A9/%20>") := by decide

/-! ### Percent-decoding what was written -/

theorem unpctBytes_esc {a b x y : Nat} (ha : hexVal? a = some x) (hb : hexVal? b = some y) (s : PStr) :
    unpctBytes (37 :: a :: b :: s) = (unpctBytes s).map ((16 * x + y) :: ·) := by
  rw [unpctBytes, ha, hb]; cases unpctBytes s <;> rfl

theorem unpctBytes_ch {c : Nat} (h1 : c ≠ 37) (h2 : c < 128) (s : PStr) : unpctBytes (c :: s) = (unpctBytes s).map (c :: ·) := by
  rw [unpctBytes]
  · rw [if_neg (by omega)]
  · intro a b s' h; exact absurd h h1

theorem unpctBytes_bytes (bs : List Nat) (h : ∀ b ∈ bs, b < 256) (s : PStr) :
    unpctBytes (bs.flatMap pctByte ++ s) = (unpctBytes s).map (bs ++ ·) := by
  induction bs with
  | nil => simp
  | cons b bs ih =>
    show unpctBytes (37 :: hexUpper (b / 16 % 16) :: hexUpper (b % 16) :: (bs.flatMap pctByte ++ s)) = _
    rw [unpctBytes_esc (hexVal_hexUpper (Nat.mod_lt _ (by omega))) (hexVal_hexUpper (Nat.mod_lt _ (by omega))),
      ih (fun x hx => h x (by simp [hx])), Option.map_map]
    have : 16 * (b / 16 % 16) + b % 16 = b := by have := h b (by simp); omega
    rw [this]; rfl

theorem unpctBytes_quote (s : PStr) (hs : ∀ c ∈ s, scalarValue c) (h37 : 37 ∉ s) : unpctBytes (s.flatMap quote1) = utf8Encode s := by
  induction s with
  | nil => rfl
  | cons c cs ih =>
    have ih := ih (fun x hx => hs x (by simp [hx])) (by simp_all)
    obtain ⟨b, hb⟩ := utf8Char_scalar (hs c (by simp))
    rw [List.flatMap_cons, utf8Encode, hb, ← ih]
    cases hk : quoteKeeps c with
    | true =>
      have hlt := quoteKeeps_lt hk
      have : b = [c] := by unfold utf8Char at hb; rw [if_pos (by omega)] at hb; exact (Option.some.inj hb).symm
      subst this
      rw [quote1_keep hk, List.cons_append, List.nil_append, unpctBytes_ch (by intro e; subst e; simp at h37) (by omega)]
      cases unpctBytes (cs.flatMap quote1) <;> rfl
    | false =>
      obtain ⟨b', hb', e⟩ := quote1_esc hk (hs c (by simp))
      rw [hb] at hb'; cases hb'
      rw [e, unpctBytes_bytes b (utf8Char_bytes hb)]
      cases unpctBytes (cs.flatMap quote1) <;> rfl

theorem utf8Encode_isSome (s : PStr) (hs : ∀ c ∈ s, scalarValue c) : ∃ b, utf8Encode s = some b := by
  induction s with
  | nil => exact ⟨[], rfl⟩
  | cons c cs ih =>
    obtain ⟨b, hb⟩ := ih (fun x hx => hs x (by simp [hx]))
    obtain ⟨b', hb'⟩ := utf8Char_scalar (hs c (by simp))
    exact ⟨b' ++ b, by rw [utf8Encode, hb, hb']⟩

theorem unpct_quote (s : PStr) (hs : ∀ c ∈ s, scalarValue c) (h37 : 37 ∉ s) : unpct (s.flatMap quote1) = some s := by
  obtain ⟨b, hb⟩ := utf8Encode_isSome s hs
  rw [unpct, unpctBytes_quote s hs h37, hb]
  exact utf8Decode_encode hb

/-- The written form of an IRI without percent signs percent-decodes (RFC 3986, UTF-8) to the IRI. -/
theorem C23_percent_decodes (s : PStr) (hs : ∀ c ∈ s, scalarValue c) (h37 : 37 ∉ s) :
    ∃ q, iriToNT s = .ok ([60] ++ q ++ [62]) ∧ unpct q = some s := ⟨_, iriToNT_eq s hs, unpct_quote s hs h37⟩

/-! ### C24 -/

/-- Full statement: `toNT` is injective on IRIs. -/
def C24_statement : Prop := ∀ n n' r, iriToNT n = .ok r → iriToNT n' = .ok r → n = n'

/-- It is false: `é` and `%C3%A9` are written alike. -/
theorem C24_not_injective : ¬ C24_statement := by
  intro h
  have := h (py! "é") (py! "%C3%A9") _ (by decide) rfl
  revert this; decide

/-- Exactly: two IRIs are written alike iff their percent-encoded forms agree. -/
theorem C24_written_alike_iff (n n' : PStr) (h : ∀ c ∈ n, scalarValue c) (h' : ∀ c ∈ n', scalarValue c) :
    iriToNT n = iriToNT n' ↔ quoteNormalizedIri n = quoteNormalizedIri n' := by
  rw [iriToNT_eq n h, iriToNT_eq n' h', quote_eq n h, quote_eq n' h']
  simp

/-- Injective on IRIs without percent signs. Missing: IRIs with them (but see the next theorem). -/
theorem C24_injective_no_percent_partial (n n' : PStr) (h : ∀ c ∈ n, scalarValue c) (h' : ∀ c ∈ n', scalarValue c) (h37 : 37 ∉ n)
    (h37' : 37 ∉ n') (e : iriToNT n = iriToNT n') : n = n' := by
  rw [C24_written_alike_iff n n' h h', quote_eq n h, quote_eq n' h'] at e
  have e := Except.ok.inj e
  have := unpct_quote n h h37
  rw [e, unpct_quote n' h' h37'] at this
  exact (Option.some.inj this).symm

/-- Injective on normalized IRIs (fixed points of `normalize_iri` whose percent signs all start an escape) without white space and
    control characters. -/
theorem C24_injective_normalized_partial (n n' : PStr) (h : ∀ c ∈ n, 0x20 < c ∧ scalarValue c) (h' : ∀ c ∈ n', 0x20 < c ∧ scalarValue c)
    (hw : PctWF n) (hw' : PctWF n') (hn : normalizeIri n = .ok n) (hn' : normalizeIri n' = .ok n')
    (e : iriToNT n = iriToNT n') : n = n' := by
  rw [C24_written_alike_iff n n' (fun c hc => (h c hc).2) (fun c hc => (h' c hc).2)] at e
  obtain ⟨q, h1, h2⟩ := normalize_quote (normalize_NF hw hn) h
  obtain ⟨q', h1', h2'⟩ := normalize_quote (normalize_NF hw' hn') h'
  rw [h1, h1'] at e
  cases Except.ok.inj e
  rw [h2] at h2'
  exact Except.ok.inj h2'

example : ∃ n n' : PStr, n ≠ n' ∧ PctWF n ∧ normalizeIri n = .ok n ∧ PctWF n' ∧ normalizeIri n' = .ok n' ∧ 37 ∈ n :=
  ⟨py! "a%2F", py! "a/", by decide, .ch (by decide) (.esc (by decide) (by decide) .nil), by decide,
    .ch (by decide) (.ch (by decide) .nil), by decide, by decide⟩

/-! ### C20, the part that holds -/

/-- Literals whose value has no dropped control character, that do not carry both language and datatype (nor empty ones), and whose
    datatypes are percent-free, are written differently unless equal. Missing: literals outside this class. -/
theorem C20_injective_partial (v v' : PStr) (l d l' d' : Option PStr) (r : PStr) (hv : v.Valid) (hv' : v'.Valid)
    (hk : ∀ c ∈ v, ntKept c = true) (hk' : ∀ c ∈ v', ntKept c = true)
    (hl : l ≠ some [] ∧ d ≠ some [] ∧ (l = none ∨ d = none)) (hl' : l' ≠ some [] ∧ d' ≠ some [] ∧ (l' = none ∨ d' = none))
    (hd : ∀ x, d = some x → 37 ∉ x ∧ ∀ c ∈ x, scalarValue c) (hd' : ∀ x, d' = some x → 37 ∉ x ∧ ∀ c ∈ x, scalarValue c)
    (h : literalToNT v l d = .ok r) (h' : literalToNT v' l' d' = .ok r) : (v, l, d) = (v', l', d') := by
  obtain ⟨e, x, hx, hx'⟩ := (C20_written_alike_iff v v' l d l' d' r r hv hv' h h').1 rfl
  rw [List.filter_eq_self.2 hk, List.filter_eq_self.2 hk'] at e
  subst e
  cases hx with
  | @lang l d hne =>
    cases hx' with
    | lang hne' =>
      have a : d = none := by simpa using hl.2.2
      have b : d' = none := by simpa using hl'.2.2
      rw [a, b]
  | @typed l d nt a b c =>
    cases hx' with
    | @typed l' d' nt a' b' c' =>
      have ha : l = none := a.resolve_right hl.1
      have ha' : l' = none := a'.resolve_right hl'.1
      have := C24_injective_no_percent_partial d d' (hd d rfl).2 (hd' d' rfl).2 (hd d rfl).1 (hd' d' rfl).1 (c.trans c'.symm)
      rw [ha, ha', this]
  | bare a b =>
    cases hx' with
    | bare a' b' =>
      rw [a.resolve_right hl.1, a'.resolve_right hl'.1, b.resolve_right hl.2.1, b'.resolve_right hl'.2.1]

example : literalToNT (py! "1") none (some (py! "http://www.w3.org/2001/XMLSchema#integer"))
    = .ok (py! "\"1\"^^<http://www.w3.org/2001/XMLSchema#integer>") := by decide

/-! ### C25 -/

/-- Full statement: normalizing twice is normalizing once. -/
def C25_statement : Prop := ∀ u w, normalizeIri u = .ok w → normalizeIri w = .ok w

/-- It is false: `%%34%31` becomes `%41`, which becomes `A`. -/
theorem C25_not_idempotent : ¬ C25_statement := by
  intro h
  have := h (py! "%%34%31") (py! "%41") (by decide)
  revert this; decide

/-- It holds if every percent sign starts an escape. Missing: other strings. -/
theorem C25_idempotent_partial (u w : PStr) (hu : PctWF u) (h : normalizeIri u = .ok w) : normalizeIri w = .ok w :=
  normalize_fixed (normalize_NF hu h)

example : normalizeIri (py! "http://a/%c3%a9%2f%41%20%0a") = .ok (py! "http://a/é%2FA%20%0a") := by decide

/-- Normalization leaves a string without percent signs as it is. -/
theorem C25_total_without_percent (u : PStr) (h : 37 ∉ u) : normalizeIri u = .ok u := by
  refine normalize_fixed ⟨u.map .ch, ?_, by simp [List.flatMap_map, NTok.render]⟩
  intro t ht
  obtain ⟨c, hc, rfl⟩ := List.mem_map.1 ht
  intro e; subst e; exact h hc

/-! ### C26 -/

/-- Full statement: quoting a normalized IRI can be undone by normalizing. -/
def C26_statement : Prop := ∀ n q, normalizeIri n = .ok n → quoteNormalizedIri n = .ok q → normalizeIri q = .ok n

/-- It is false: a space is quoted as `%20`, which normalization keeps. -/
theorem C26_space_lost : ¬ C26_statement := by
  intro h
  have := h (py! "a b") (py! "a%20b") (by decide) (by decide)
  revert this; decide

/-- It holds for normalized IRIs without white space and control characters whose percent signs all start an escape.
    Missing: other normalized IRIs. -/
theorem C26_quote_normalize_partial (n : PStr) (hw : PctWF n) (hn : normalizeIri n = .ok n) (hv : ∀ c ∈ n, 0x20 < c ∧ scalarValue c) :
    ∃ q, quoteNormalizedIri n = .ok q ∧ normalizeIri q = .ok n :=
  normalize_quote (normalize_NF hw hn) hv

example : quoteNormalizedIri (py! "http://é/%2F{x}") = .ok (py! "http://%C3%A9/%2F%7Bx%7D") ∧
    normalizeIri (py! "http://%C3%A9/%2F%7Bx%7D") = .ok (py! "http://é/%2F{x}") := by decide

/-! ### C27 -/

/-- The bytes are those of the UTF-8 encoder of Lean's core library. -/
theorem C27_utf8_is_core (c : Char) : utf8Char c.toNat = some ((String.utf8EncodeChar c).map UInt8.toNat) := by
  have hv : c.toNat.isValidChar := c.valid
  have hv : c.toNat < 0xD800 ∨ (0xDFFF < c.toNat ∧ c.toNat < 0x110000) := hv
  unfold utf8Char String.utf8EncodeChar
  simp only [show c.val.toNat = c.toNat from rfl]
  generalize c.toNat = v at *
  have hs : isSurrogate v = false := by simp [isSurrogate]; omega
  by_cases h1 : v < 0x80
  · rw [if_pos h1, if_pos (show v ≤ 0x7f by omega)]; simp; omega
  · rw [if_neg h1, if_neg (show ¬ v ≤ 0x7f by omega)]
    by_cases h2 : v < 0x800
    · rw [if_pos h2, if_pos (show v ≤ 0x7ff by omega)]; simp; omega
    · rw [if_neg h2, if_neg (show ¬ v ≤ 0x7ff by omega)]
      by_cases h3 : v < 0x10000
      · rw [if_pos h3, if_pos (show v ≤ 0xffff by omega), hs]; simp; omega
      · rw [if_neg h3, if_neg (show ¬ v ≤ 0xffff by omega), if_pos (show v < 0x110000 by omega)]; simp; omega

/-- `percent_encode(c)` is the UTF-8 bytes of `c`, each as `%XY` in upper case, and percent-decodes to `c`; `percent_decode` gives `c` back
    unless `c` is reserved, in which case it gives the escape. -/
theorem C27_percent_encode (c : Nat) (hc : scalarValue c) :
    ∃ bs, utf8Char c = some bs ∧ percentEncode c = .ok (bs.flatMap fun b => 37 :: fmt02X b) ∧ unpct (bs.flatMap fun b => 37 :: fmt02X b) = some [c] ∧
      (c ∉ reservedInIri → percentDecode bs = .ok [c]) ∧ (c ∈ reservedInIri → percentDecode bs = .ok (37 :: fmt02X c)) := by
  obtain ⟨bs, hb⟩ := utf8Char_scalar hc
  have hd : utf8Decode bs = some [c] := utf8Decode_encode (s := [c]) (by simp [utf8Encode, hb])
  refine ⟨bs, hb, by rw [percentEncode, hb]; rfl, ?_, ?_, ?_⟩
  · have := unpctBytes_bytes bs (utf8Char_bytes hb) []
    simp only [List.append_nil, unpctBytes, Option.map_some] at this
    show (unpctBytes (bs.flatMap pctByte)).bind utf8Decode = _
    rw [this]
    exact hd
  · intro h; rw [percentDecode_eq hd]; simp [reEnc, h]
  · intro h; rw [percentDecode_eq hd]; simp [reEnc, h, pctByte]

/-- A surrogate has no UTF-8 bytes: UnicodeEncodeError. -/
theorem C27_surrogate (c : Nat) (hc : 0xD800 ≤ c ∧ c ≤ 0xDFFF) : percentEncode c = .error .unicodeEncodeError := by
  rw [percentEncode, utf8Char_surrogate (by simpa [isSurrogate] using hc)]

example : percentEncode 0x1F600 = .ok (py! "%F0%9F%98%80") := by decide

/-! ### C28 -/

theorem hexDigits_spec (n : Nat) : parseHex (hexDigits n) = n ∧ hexDigits n ≠ [] ∧ ∀ c ∈ hexDigits n, (48 ≤ c ∧ c ≤ 57) ∨ (97 ≤ c ∧ c ≤ 102) := by
  induction n using Nat.strongRecOn with
  | _ n ih =>
    have hl : ∀ d, d < 16 → (48 ≤ hexLower d ∧ hexLower d ≤ 57) ∨ (97 ≤ hexLower d ∧ hexLower d ≤ 102) := by
      intro d hd; unfold hexLower; split <;> omega
    unfold hexDigits
    split
    · next h =>
      refine ⟨?_, by simp, by simpa using hl n h⟩
      simp [parseHex, hexVal_hexLower h]
    · next h =>
      obtain ⟨h1, h2, h3⟩ := ih (n / 16) (by omega)
      refine ⟨?_, by simp, ?_⟩
      · have : parseHex (hexDigits (n / 16) ++ [hexLower (n % 16)]) = parseHex (hexDigits (n / 16)) * 16 + n % 16 := by
          simp [parseHex, hexVal_hexLower (Nat.mod_lt n (show 16 > 0 by omega))]
        rw [this, h1]; omega
      · intro c hc
        rcases List.mem_append.1 hc with hc | hc
        · exact h3 c hc
        · simp at hc; subst hc; exact hl _ (Nat.mod_lt _ (by omega))

/-- Different blank nodes have different string forms. -/
theorem C28_labels_distinct (i j : Nat) (h : bnodeStr i = bnodeStr j) : i = j := by
  have h : (hexDigits i).map (· + 17) = (hexDigits j).map (· + 17) := by simpa [bnodeStr, bnodeValue] using h
  have hinj : Function.Injective (fun x : Nat => x + 17) := fun a b h => by simp at h; exact h
  have h := (List.map_inj_right (fun a b h => by simp at h; exact h)).1 h
  have := (hexDigits_spec i).1
  rw [h, (hexDigits_spec j).1] at this
  exact this.symm

/-- Every string form is `_:` and a non-empty sequence of ASCII letters, hence a BLANK_NODE_LABEL of the N-Triples grammar. -/
theorem C28_labels_legal (i : Nat) : ∃ l, bnodeStr i = py! "_:" ++ l ∧ l ≠ [] ∧
    ∀ c ∈ l, (65 ≤ c ∧ c ≤ 90) ∨ (97 ≤ c ∧ c ≤ 122) := by
  refine ⟨bnodeValue i, rfl, ?_, ?_⟩
  · simp [bnodeValue, (hexDigits_spec i).2.1]
  · intro c hc
    obtain ⟨x, hx, rfl⟩ := List.mem_map.1 hc
    have := (hexDigits_spec i).2.2 x hx
    omega

example : bnodeStr 0x7f3a = py! "_:HwDr" := by simp [bnodeStr, bnodeValue, hexDigits, hexLower]

end Verif
