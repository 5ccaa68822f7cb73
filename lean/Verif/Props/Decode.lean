import Verif.Props.Escape
import Verif.Spec.NTDenote
/-
C88: decode_literal gives the string the recommendations say the text denotes.
-/
namespace Verif
open Spec

theorem _root_.Verif.Spec.HexDigit.val {c d : Nat} (h : HexDigit c d) : hexVal? c = some d := by
  cases h with
  | dec i hi => unfold hexVal?; rw [if_pos (by omega)]; congr 1; omega
  | upper i hi => unfold hexVal?; rw [if_neg (by omega), if_pos (by omega)]; congr 1; omega
  | lower i hi => unfold hexVal?; rw [if_neg (by omega), if_neg (by omega), if_pos (by omega)]; congr 1; omega

theorem _root_.Verif.Spec.HexNumber.val {n : Nat} {h : PStr} {v : Nat} (H : HexNumber n h v) :
    h.length = n ∧ h.all isHex = true ∧ ∀ a, h.foldl (fun acc c => acc * 16 + (hexVal? c).getD 0) a = a * 16 ^ n + v := by
  induction H with
  | nil => simp
  | @cons n c d h v hc _ ih =>
    obtain ⟨h1, h2, h3⟩ := ih
    refine ⟨by simp [h1], by simp [isHex, hc.val, h2], fun a => ?_⟩
    rw [List.foldl_cons, h3, hc.val, Option.getD_some, Nat.pow_succ, Nat.add_mul, Nat.mul_assoc, Nat.mul_comm 16, Nat.add_assoc]

/-- Denoting text is decoded in front of any other text. -/
theorem decodeLiteral_denotes_append {s v : PStr} (h : Denotes s v) (r : PStr) : decodeLiteral (s ++ r) = (decodeLiteral r).map (v ++ ·) := by
  have key : ∀ {l rest t w : PStr} {c : Nat}, l ≠ [] → escAt (l ++ (rest ++ r)) = some (.ok c, l.length) →
      decodeLiteral (rest ++ r) = (decodeLiteral r).map (w ++ ·) → t = l ++ rest →
      decodeLiteral (t ++ r) = (decodeLiteral r).map ((c :: w) ++ ·) := by
    intro l rest t w c h1 h2 h3 h4
    rw [h4, List.append_assoc, decodeLiteral_esc h1 h2, h3, Except.map_map']
    rfl
  induction h with
  | nil => show decodeLiteral r = _; cases decodeLiteral r <;> rfl
  | plain hc _ ih => rw [List.cons_append, decodeLiteral_plain hc, ih, Except.map_map']; rfl
  | @echar x c s v hx _ ih =>
    refine key (l := [92, x]) (by simp) ?_ ih rfl
    simp only [stringEscapes, List.mem_cons, Prod.mk.injEq, List.not_mem_nil, or_false] at hx
    rcases hx with ⟨rfl, rfl⟩ | ⟨rfl, rfl⟩ | ⟨rfl, rfl⟩ | ⟨rfl, rfl⟩ | ⟨rfl, rfl⟩ | ⟨rfl, rfl⟩ | ⟨rfl, rfl⟩ | ⟨rfl, rfl⟩ <;> rfl
  | @uchar4 h c s v hh _ ih =>
    obtain ⟨h1, h2, h3⟩ := HexNumber.val hh
    have hp : parseHex h = c := by have := h3 0; rwa [Nat.zero_mul, Nat.zero_add] at this
    have hc : c < 0x110000 := by
      have := parseHex_lt h
      rw [h1, hp] at this
      omega
    refine key (l := 92 :: 117 :: h) (by simp) ?_ ih rfl
    have ht : (h ++ (s ++ r)).take 4 = h := by rw [List.take_append_of_le_length (by omega), List.take_of_length_le (by omega)]
    simp only [List.cons_append, escAt, ht, h1, h2, hp, pyChr, if_pos hc, List.length_cons]
    rfl
  | @uchar8 h c s v hh hc _ ih =>
    obtain ⟨h1, h2, h3⟩ := HexNumber.val hh
    have hp : parseHex h = c := by have := h3 0; rwa [Nat.zero_mul, Nat.zero_add] at this
    refine key (l := 92 :: 85 :: h) (by simp) ?_ ih rfl
    have ht : (h ++ (s ++ r)).take 8 = h := by rw [List.take_append_of_le_length (by omega), List.take_of_length_le (by omega)]
    simp only [List.cons_append, escAt, ht, h1, h2, hp, pyChr, if_pos hc, List.length_cons]
    rfl

/-- `decode_literal` gives the string the text denotes. -/
theorem C88_denotes {s v : PStr} (h : Denotes s v) : decodeLiteral s = .ok v := by
  have := decodeLiteral_denotes_append h []
  rw [List.append_nil, show decodeLiteral [] = .ok [] from rfl] at this
  rw [this]
  show Except.ok (v ++ []) = _
  rw [List.append_nil]

/-- It raises when it meets a `\U` escape that is no code point. -/
theorem C88_too_large {s v h : PStr} {c : Nat} (hs : Denotes s v) (hh : HexNumber 8 h c) (hc : 0x110000 ≤ c) (r : PStr) :
    ∃ e, decodeLiteral (s ++ 0x5C :: 0x55 :: (h ++ r)) = .error e ∧ (e = .valueError ∨ e = .overflowError) := by
  obtain ⟨h1, h2, h3⟩ := HexNumber.val hh
  have hp : parseHex h = c := by have := h3 0; rwa [Nat.zero_mul, Nat.zero_add] at this
  have ht : (h ++ r).take 8 = h := by rw [List.take_append_of_le_length (by omega), List.take_of_length_le (by omega)]
  have hch : ∃ e, pyChr c = .error e ∧ (e = .valueError ∨ e = .overflowError) := by
    unfold pyChr
    rw [if_neg (by omega)]
    split
    · exact ⟨_, rfl, Or.inl rfl⟩
    · exact ⟨_, rfl, Or.inr rfl⟩
  obtain ⟨e, he, hk⟩ := hch
  refine ⟨e, ?_, hk⟩
  rw [decodeLiteral_denotes_append hs]
  have : decodeLiteral (0x5C :: 0x55 :: (h ++ r)) = .error e := by
    unfold decodeLiteral
    rw [decodeAux]
    have : escAt (92 :: 85 :: (h ++ r)) = some (.error e, 10) := by
      simp only [escAt, ht, h1, h2, hp, he]
      rfl
    rw [this]
  rw [this]
  rfl

/-- The converse of `C21_raises_only`: the first such escape raises. -/
theorem C21_raises {p h : PStr} {c : Nat} (hp : 92 ∉ p) (hh : HexNumber 8 h c) (hc : 0x110000 ≤ c) (r : PStr) :
    ∃ e, decodeLiteral (p ++ 0x5C :: 0x55 :: (h ++ r)) = .error e := by
  have : Denotes p p := by
    induction p with
    | nil => exact .nil
    | cons x p ih => exact .plain (by rintro rfl; exact hp (List.mem_cons_self ..)) (ih fun h => hp (List.mem_cons_of_mem _ h))
  obtain ⟨e, h, _⟩ := C88_too_large this hh hc r
  exact ⟨e, h⟩

/-- Every sequence of hexadecimal digits has a value. -/
theorem _root_.Verif.Spec.HexNumber.exists {h : PStr} (H : ∀ c ∈ h, isHex c = true) : ∃ v, HexNumber h.length h v := by
  induction h with
  | nil => exact ⟨0, .nil⟩
  | cons c h ih =>
    obtain ⟨v, hv⟩ := ih fun x hx => H x (by simp [hx])
    have hc := H c (by simp)
    have : ∃ d, HexDigit c d := by
      unfold isHex hexVal? at hc
      split at hc
      · exact ⟨c - 48, by have := HexDigit.dec (c - 48) (by omega); rwa [show 0x30 + (c - 48) = c by omega] at this⟩
      · split at hc
        · exact ⟨10 + (c - 65), by have := HexDigit.upper (c - 65) (by omega); rwa [show 0x41 + (c - 65) = c by omega] at this⟩
        · split at hc
          · exact ⟨10 + (c - 97), by have := HexDigit.lower (c - 97) (by omega); rwa [show 0x61 + (c - 97) = c by omega] at this⟩
          · cases hc
    obtain ⟨d, hd⟩ := this
    exact ⟨_, .cons hd hv⟩

/-- Every text the grammar allows between the quotes, without the letter U, denotes a string: `decode_literal` succeeds on it, with
    that string. -/
theorem C88_total {s : PStr} (h : NTBody s) (hU : 0x55 ∉ s) : ∃ v, Denotes s v ∧ decodeLiteral s = .ok v := by
  suffices ∃ v, Denotes s v from this.imp fun v hv => ⟨hv, C88_denotes hv⟩
  induction h with
  | nil => exact ⟨[], .nil⟩
  | plain _ h2 _ _ _ ih =>
    obtain ⟨v, hv⟩ := ih (by simp_all)
    exact ⟨_, .plain h2 hv⟩
  | @echar c s hc _ ih =>
    obtain ⟨v, hv⟩ := ih (by simp_all)
    have : ∃ d, (c, d) ∈ stringEscapes := by
      have : ∀ c ∈ py! "tbnrf\"'\\", ∃ d, (c, d) ∈ stringEscapes := by
        intro c hc
        simp only [List.mem_cons, List.not_mem_nil, or_false] at hc
        rcases hc with rfl | rfl | rfl | rfl | rfl | rfl | rfl | rfl <;> simp [stringEscapes]
      exact this c hc
    obtain ⟨d, hd⟩ := this
    exact ⟨_, .echar hd hv⟩
  | uchar4 h1 h2 _ ih =>
    obtain ⟨v, hv⟩ := ih (by simp_all)
    obtain ⟨c, hc⟩ := HexNumber.exists h2
    rw [h1] at hc
    exact ⟨_, .uchar4 hc hv⟩
  | uchar8 => simp at hU

/-- **All texts between quotes.** A text the grammar allows denotes a string, and `decode_literal` gives that string; or it contains a `\U` escape that is no code point,
    the text before the first of which denotes a string, and `decode_literal` raises. -/
theorem C88_every {s : PStr} (h : NTBody s) :
    (∃ v, Denotes s v ∧ decodeLiteral s = .ok v) ∨
    (∃ a v x c r, s = a ++ 0x5C :: 0x55 :: (x ++ r) ∧ Denotes a v ∧ HexNumber 8 x c ∧ 0x110000 ≤ c ∧
      ∃ e, decodeLiteral s = .error e ∧ (e = .valueError ∨ e = .overflowError)) := by
  suffices (∃ v, Denotes s v) ∨ (∃ a v x c r, s = a ++ 0x5C :: 0x55 :: (x ++ r) ∧ Denotes a v ∧ HexNumber 8 x c ∧ 0x110000 ≤ c) by
    rcases this with ⟨v, hv⟩ | ⟨a, v, x, c, r, rfl, h1, h2, h3⟩
    · exact Or.inl ⟨v, hv, C88_denotes hv⟩
    · exact Or.inr ⟨a, v, x, c, r, rfl, h1, h2, h3, C88_too_large h1 h2 h3 r⟩
  induction h with
  | nil => exact Or.inl ⟨[], .nil⟩
  | @plain c s _ h2 _ _ _ ih =>
    rcases ih with ⟨v, hv⟩ | ⟨a, v, x, d, r, rfl, h3, h4, h5⟩
    · exact Or.inl ⟨_, .plain h2 hv⟩
    · exact Or.inr ⟨c :: a, c :: v, x, d, r, rfl, .plain h2 h3, h4, h5⟩
  | @echar c s hc _ ih =>
    have : ∃ d, (c, d) ∈ stringEscapes := by
      have : ∀ c ∈ py! "tbnrf\"'\\", ∃ d, (c, d) ∈ stringEscapes := by
        intro c hc
        simp only [List.mem_cons, List.not_mem_nil, or_false] at hc
        rcases hc with rfl | rfl | rfl | rfl | rfl | rfl | rfl | rfl <;> simp [stringEscapes]
      exact this c hc
    obtain ⟨d, hd⟩ := this
    rcases ih with ⟨v, hv⟩ | ⟨a, v, x, e, r, rfl, h3, h4, h5⟩
    · exact Or.inl ⟨_, .echar hd hv⟩
    · exact Or.inr ⟨0x5C :: c :: a, d :: v, x, e, r, rfl, .echar hd h3, h4, h5⟩
  | @uchar4 x s h1 h2 _ ih =>
    obtain ⟨c, hc⟩ := HexNumber.exists h2
    rw [h1] at hc
    rcases ih with ⟨v, hv⟩ | ⟨a, v, y, e, r, rfl, h3, h4, h5⟩
    · exact Or.inl ⟨_, .uchar4 hc hv⟩
    · exact Or.inr ⟨0x5C :: 0x75 :: (x ++ a), c :: v, y, e, r, by simp, .uchar4 hc h3, h4, h5⟩
  | @uchar8 x s h1 h2 _ ih =>
    obtain ⟨c, hc⟩ := HexNumber.exists h2
    rw [h1] at hc
    by_cases hlt : c < 0x110000
    · rcases ih with ⟨v, hv⟩ | ⟨a, v, y, e, r, rfl, h3, h4, h5⟩
      · exact Or.inl ⟨_, .uchar8 hc hlt hv⟩
      · exact Or.inr ⟨0x5C :: 0x55 :: (x ++ a), c :: v, y, e, r, by simp, .uchar8 hc hlt h3, h4, h5⟩
    · exact Or.inr ⟨[], [], x, c, s, rfl, .nil, hc, by omega⟩

/-- A text denotes at most one string. -/
theorem C88_unique {s v v' : PStr} (h : Denotes s v) (h' : Denotes s v') : v = v' := by
  have := C88_denotes h
  rw [C88_denotes h'] at this
  exact (Except.ok.inj this).symm

example : Denotes (py! "a\\b\\f\\u0041") (py! "a" ++ [8, 12] ++ py! "A") :=
  .plain (by decide) (.echar (by decide) (.echar (by decide) (.uchar4 (h := py! "0041") (s := [])
    (.cons (.dec 0 (by decide)) (.cons (.dec 0 (by decide)) (.cons (.dec 4 (by decide)) (.cons (.dec 1 (by decide)) .nil)))) .nil)))
example : decodeLiteral (py! "\\b\\f\\U0001F600") = .ok [8, 12, 0x1F600] := by decide

end Verif
