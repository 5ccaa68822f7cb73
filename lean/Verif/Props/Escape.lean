import Verif.Lemmas.IriQuote
/-
C18-C21: escaping of N-Triples strings.
-/
namespace Verif

/-! ### C18 -/

/-- The escaped text is printable ASCII, is a body of the grammar's STRING_LITERAL_QUOTE, and the quote written after it is the first
    one that is not escaped. -/
theorem C18_escape_safe (s rest : PStr) :
    (∀ c ∈ ntEscape s, 0x20 ≤ c ∧ c ≤ 0x7E) ∧ NTBody (ntEscape s) ∧
    splitAtQuote (ntEscape s ++ 34 :: rest) = some (ntEscape s, rest) := by
  refine ⟨fun c hc => ?_, ntBody_ntEscape s, (ntBody_ntEscape s).split rest⟩
  obtain ⟨x, _, hx⟩ := List.mem_flatMap.1 hc
  exact ntEscapeChar_ascii x c hx

example : ntEscape (py! "a\"\\\nb" ++ [0xE9, 0xD800, 0x1F600]) = py! "a\\\"\\\\\\nb\\u00E9\\uD800\\U0001F600" := by decide

/-! ### C19 -/

/-- Full statement: `decode_literal(nt_escape(s)) == s` for every string. -/
def C19_statement : Prop := ∀ s : PStr, s.Valid → decodeLiteral (ntEscape s) = .ok s

/-- It is false: control characters are dropped when writing. -/
theorem C19_controls_dropped : ¬ C19_statement := by
  intro h
  have := h [0] (by intro c hc; simp at hc; omega)
  revert this; decide

/-- Exactly: the characters U+0000-U+001F other than tab, line feed and carriage return are lost, everything else is kept. -/
theorem C19_decode_escape_exact (s : PStr) (hs : s.Valid) :
    decodeLiteral (ntEscape s) = .ok (s.filter fun c => decide (0x20 ≤ c ∨ c = 0x09 ∨ c = 0x0A ∨ c = 0x0D)) := by
  have := decodeLiteral_ntEscape_append s [] hs
  rw [List.append_nil, show decodeLiteral [] = .ok [] from rfl] at this
  rw [this]
  simp only [Except.map, List.append_nil]
  rfl

/-- The round trip holds for a string iff it contains none of those control characters. Missing: strings with them. -/
theorem C19_roundtrip_partial (s : PStr) (hs : s.Valid) :
    decodeLiteral (ntEscape s) = .ok s ↔ ∀ c ∈ s, 0x20 ≤ c ∨ c = 0x09 ∨ c = 0x0A ∨ c = 0x0D := by
  rw [C19_decode_escape_exact s hs, Except.ok.injEq, List.filter_eq_self]
  simp

example : decodeLiteral (ntEscape (py! "tab\t quote\" back\\slash \\u0041" ++ [0x7F, 0xFFFF, 0x10FFFF]))
    = .ok (py! "tab\t quote\" back\\slash \\u0041" ++ [0x7F, 0xFFFF, 0x10FFFF]) := by decide

/-! ### C20 -/

/-- Full statement: literals with the same N-Triples form are equal. -/
def C20_statement : Prop := ∀ v l d v' l' d' r, literalToNT v l d = .ok r → literalToNT v' l' d' = .ok r → (v, l, d) = (v', l', d')

/-- It is false: the datatype of a language-tagged literal is not written. -/
theorem C20_not_injective : ¬ C20_statement := by
  intro h
  have := h (py! "a") (some (py! "en")) none (py! "a") (some (py! "en")) (some (py! "x")) _ (by decide) rfl
  revert this; decide

/-- The part of a literal that follows the quoted text: the language tag if there is a non-empty one, else the written datatype if
    there is a non-empty one. -/
inductive LitSuffix
  | bare
  | lang (l : PStr)
  | typed (nt : PStr)
  deriving DecidableEq

/-- `HasSuffix l d x`: a literal with language `l` and datatype `d` ends in `x`. -/
inductive HasSuffix : Option PStr → Option PStr → LitSuffix → Prop
  | lang {l d} : l ≠ [] → HasSuffix (some l) d (.lang l)
  | typed {l d nt} : (l = none ∨ l = some []) → d ≠ [] → iriToNT d = .ok nt → HasSuffix l (some d) (.typed nt)
  | bare {l d} : (l = none ∨ l = some []) → (d = none ∨ d = some []) → HasSuffix l d .bare

def LitSuffix.text : LitSuffix → PStr
  | .bare => []
  | .lang l => 64 :: l
  | .typed nt => 94 :: 94 :: nt

theorem LitSuffix.text_inj {x y : LitSuffix} (h : x.text = y.text) : x = y := by
  cases x <;> cases y <;> simp_all [LitSuffix.text]

theorem literalToNT_suffix (v : PStr) (l d : Option PStr) (r : PStr) :
    literalToNT v l d = .ok r ↔ ∃ x, HasSuffix l d x ∧ r = [34] ++ ntEscape v ++ [34] ++ x.text := by
  constructor
  · intro h
    match l, d, h with
    | some (a :: as), d, h =>
      exact ⟨.lang (a :: as), .lang (by simp), by simp only [literalToNT] at h; cases h; simp [LitSuffix.text]⟩
    | none, some (b :: bs), h =>
      simp only [literalToNT] at h
      cases e : iriToNT (b :: bs) with
      | error x => rw [e] at h; cases h
      | ok nt => rw [e] at h; cases h; exact ⟨.typed nt, .typed (by simp) (by simp) e, by simp [LitSuffix.text]⟩
    | some [], some (b :: bs), h =>
      simp only [literalToNT] at h
      cases e : iriToNT (b :: bs) with
      | error x => rw [e] at h; cases h
      | ok nt => rw [e] at h; cases h; exact ⟨.typed nt, .typed (by simp) (by simp) e, by simp [LitSuffix.text]⟩
    | none, none, h => cases h; exact ⟨.bare, .bare (by simp) (by simp), by simp [LitSuffix.text]⟩
    | none, some [], h => cases h; exact ⟨.bare, .bare (by simp) (by simp), by simp [LitSuffix.text]⟩
    | some [], none, h => cases h; exact ⟨.bare, .bare (by simp) (by simp), by simp [LitSuffix.text]⟩
    | some [], some [], h => cases h; exact ⟨.bare, .bare (by simp) (by simp), by simp [LitSuffix.text]⟩
  · rintro ⟨x, hx, rfl⟩
    cases hx with
    | @lang l d hl =>
      cases l with
      | nil => exact absurd rfl hl
      | cons a as => simp [literalToNT, LitSuffix.text]
    | @typed l d nt hl hd e =>
      cases d with
      | nil => exact absurd rfl hd
      | cons b bs => rcases hl with rfl | rfl <;> simp [literalToNT, LitSuffix.text, e, Except.map]
    | bare hl hd => rcases hl with rfl | rfl <;> rcases hd with rfl | rfl <;> simp [literalToNT, LitSuffix.text]

/-- Exactly when two literals are written alike: their values agree up to dropped control characters, and what follows agrees. -/
theorem C20_written_alike_iff (v v' : PStr) (l d l' d' : Option PStr) (r r' : PStr) (hv : v.Valid) (hv' : v'.Valid)
    (h : literalToNT v l d = .ok r) (h' : literalToNT v' l' d' = .ok r') :
    r = r' ↔ v.filter ntKept = v'.filter ntKept ∧ ∃ x, HasSuffix l d x ∧ HasSuffix l' d' x := by
  obtain ⟨x, hx, rfl⟩ := (literalToNT_suffix _ _ _ _).1 h
  obtain ⟨y, hy, rfl⟩ := (literalToNT_suffix _ _ _ _).1 h'
  have huniq : ∀ {l d x y}, HasSuffix l d x → HasSuffix l d y → x = y := by
    intro l d x y hx hy
    have e1 := (literalToNT_suffix [] l d _).2 ⟨x, hx, rfl⟩
    have e2 := (literalToNT_suffix [] l d _).2 ⟨y, hy, rfl⟩
    rw [e1] at e2
    have := Except.ok.inj e2
    simp only [List.append_cancel_left_eq] at this
    exact LitSuffix.text_inj this
  constructor
  · intro e
    have e : ntEscape v ++ 34 :: x.text = ntEscape v' ++ 34 :: y.text := by simpa using e
    have s1 := (ntBody_ntEscape v).split x.text
    rw [e, (ntBody_ntEscape v').split y.text] at s1
    have s1 := Option.some.inj s1
    have h1 : ntEscape v' = ntEscape v := congrArg Prod.fst s1
    have h2 : y.text = x.text := congrArg Prod.snd s1
    have h2 := LitSuffix.text_inj h2
    subst h2
    exact ⟨(ntEscape_filter_eq hv hv').1 h1.symm, _, hx, hy⟩
  · rintro ⟨e, z, hz, hz'⟩
    rw [(ntEscape_filter_eq hv hv').2 e, huniq hx hz, huniq hy hz']

/-! ### C21 -/

/-- `decode_literal` leaves backslash-free text alone, also in front of other text. -/
theorem C21_transparent (p s : PStr) (hp : 92 ∉ p) :
    decodeLiteral p = .ok p ∧ decodeLiteral (p ++ s) = (decodeLiteral s).map (p ++ ·) := by
  have : ∀ s, decodeLiteral (p ++ s) = (decodeLiteral s).map (p ++ ·) := by
    intro s
    induction p with
    | nil => simp; cases decodeLiteral s <;> rfl
    | cons c p ih =>
      rw [List.cons_append, decodeLiteral_plain (by intro e; subst e; simp at hp), ih (by simp_all), Except.map_map']
      rfl
  refine ⟨?_, this s⟩
  have := this []
  simpa [decodeLiteral, decodeAux, Except.map] using this

theorem decodeAux_error {k : Nat} {s : PStr} {e : Exc} (h : decodeAux k s = .error e) :
    ∃ pre hex rest, s = pre ++ 92 :: 85 :: (hex ++ rest) ∧ hex.length = 8 ∧ (∀ c ∈ hex, isHex c = true) ∧ 0x110000 ≤ parseHex hex := by
  induction s generalizing k with
  | nil => cases k <;> cases h
  | cons c cs ih =>
    cases k with
    | succ k =>
      obtain ⟨pre, hex, rest, e, h'⟩ := ih (k := k) (by simpa [decodeAux] using h)
      exact ⟨c :: pre, hex, rest, by rw [e]; rfl, h'⟩
    | zero =>
      have hrec : ∀ k (f : PStr → PStr), (decodeAux k cs).map f = .error e →
          ∃ pre hex rest, c :: cs = pre ++ 92 :: 85 :: (hex ++ rest) ∧ hex.length = 8 ∧ (∀ c ∈ hex, isHex c = true) ∧ 0x110000 ≤ parseHex hex := by
        intro k f hk
        cases hd : decodeAux k cs with
        | ok v => rw [hd] at hk; cases hk
        | error e' =>
          rw [hd] at hk; cases hk
          obtain ⟨pre, hex, rest, e, h'⟩ := ih hd
          exact ⟨c :: pre, hex, rest, by rw [e]; rfl, h'⟩
      rw [decodeAux] at h
      split at h
      · exact hrec _ _ h
      · next e' n hesc =>
        unfold escAt at hesc
        split at hesc
        · next c2 rest heq =>
          have hchr : ∀ n, ∀ e, pyChr n = .error e → 0x110000 ≤ n := by
            intro n e hn; unfold pyChr at hn; split at hn
            · cases hn
            · omega
          split at hesc
          · split at hesc
            · next hh =>
              have hesc := Option.some.inj hesc
              have h1 := congrArg Prod.fst hesc
              have h2 := hchr _ _ h1
              have h3 := parseHex_lt (rest.take 4)
              rw [hh.1] at h3
              omega
            · cases hesc
          · split at hesc
            · split at hesc
              · next hne heq85 hh =>
                have hesc := Option.some.inj hesc
                have h1 := congrArg Prod.fst hesc
                have h2 := hchr _ _ h1
                refine ⟨[], rest.take 8, rest.drop 8, ?_, hh.1, by simpa using hh.2, h2⟩
                rw [heq, heq85]
                simp
              · cases hesc
            · cases hesc
        · cases hesc
      · exact hrec _ _ h

/-- `decode_literal` raises only if the text contains a `\U` escape above U+10FFFF. -/
theorem C21_raises_only (s : PStr) (e : Exc) (h : decodeLiteral s = .error e) :
    ∃ pre hex rest, s = pre ++ 92 :: 85 :: (hex ++ rest) ∧ hex.length = 8 ∧ (∀ c ∈ hex, isHex c = true) ∧ 0x110000 ≤ parseHex hex :=
  decodeAux_error h

example : decodeLiteral (py! "\\U00110000") = .error .valueError := by decide
example : decodeLiteral (py! "a\\tb\\u0041\\q\\u00") = .ok (py! "a\tbAq\\u00") := by decide

end Verif
