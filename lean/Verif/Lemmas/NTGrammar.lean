import Verif.Lemmas.NTDoc
import Verif.Lemmas.NTRead
import Verif.Props.Decode
import Verif.Spec.NTGrammar
/-
The N-Triples model reads exactly the sentences of the grammar of Spec/NTGrammar.lean in the dialect `code`: terminals.
-/
namespace Verif.NTSpec
open Spec Verif

theorem isWs_iff {c : Nat} : isWs c = true ↔ c = 0x20 ∨ c = 0x09 := by simp [isWs]
theorem isEol_iff {c : Nat} : isEol c = true ↔ isEolChar c := by simp [isEol, isEolChar]
theorem isLetter_iff {c : Nat} : isLetter c = true ↔ isAlpha c := by simp [isLetter, isAlpha]
theorem langSub_iff {c : Nat} : langSub c = true ↔ code.langChar c := by simp [langSub, code, isLetter_iff, or_assoc]
theorem iriClass_iff {c : Nat} : iriClass c = true ↔ 0x20 < c ∧ c ∉ py! "<>\"{}|^`\\" := by
  simp [iriClass]
  constructor
  · intro h; obtain ⟨⟨⟨⟨⟨⟨⟨⟨⟨_, _⟩, _⟩, _⟩, _⟩, _⟩, _⟩, _⟩, _⟩, _⟩ := h; refine ⟨by omega, ?_⟩; omega
  · intro h; omega

theorem labelChar_iff {c : Nat} : Verif.pnChars c = true ↔ code.labelChar c := by
  simp only [Verif.pnChars, Verif.pnCharsU, Verif.pnCharsBase, code, pnChars, pnCharsU, pnCharsBase, isAlpha, isDigitChar, Bool.or_eq_true,
    decide_eq_true_eq, beq_iff_eq]
  omega

theorem labelFirst_iff {c : Nat} : (Verif.pnCharsU c || decide (48 ≤ c ∧ c ≤ 57)) = true ↔ code.labelFirst c := by
  simp only [Verif.pnCharsU, Verif.pnCharsBase, code, pnCharsU, pnCharsBase, isAlpha, isDigitChar, Bool.or_eq_true,
    decide_eq_true_eq, beq_iff_eq]
  omega

/-! ### White space -/

theorem skipWs_append {w : PStr} (h : Ws w) (s : PStr) : skipWs (w ++ s) = skipWs s := by
  induction w with
  | nil => rfl
  | cons c w ih =>
    have hc : isWs c = true := isWs_iff.2 (h c (by simp))
    have := ih fun x hx => h x (by simp [hx])
    simp only [skipWs] at this ⊢
    rw [List.cons_append, List.dropWhile_cons, if_pos hc, this]

theorem skipWs_stop {w : PStr} (h : Ws w) {c : Nat} (hc : isWs c = false) (s : PStr) : skipWs (w ++ c :: s) = c :: s := by
  rw [skipWs_append h, skipWs, List.dropWhile_cons, if_neg (by simp [hc])]

theorem skipWs_split (s : PStr) : ∃ w, Ws w ∧ s = w ++ skipWs s ∧ ∀ c r, skipWs s = c :: r → isWs c = false := by
  refine ⟨s.takeWhile isWs, ?_, (List.takeWhile_append_dropWhile ..).symm, ?_⟩
  · intro c hc
    induction s with
    | nil => simp at hc
    | cons x s ih =>
      rw [List.takeWhile_cons] at hc
      split at hc
      · next hx =>
        rcases List.mem_cons.1 hc with rfl | hc
        · exact isWs_iff.1 hx
        · exact ih hc
      · simp at hc
  · intro c r h
    have := List.head?_dropWhile_not isWs s
    rw [skipWs] at h
    rw [h] at this
    simpa using this

/-! ### Decoding -/

theorem hexes {h : PStr} {n : Nat} (hl : h.length = n) (hh : ∀ c ∈ h, isHex c = true) : ∃ c, HexNumber n h c := by
  obtain ⟨v, hv⟩ := HexNumber.exists hh
  exact ⟨v, hl ▸ hv⟩

theorem hexes_iff {h : PStr} {n : Nat} : (∃ c, HexNumber n h c) ↔ h.length = n ∧ ∀ c ∈ h, isHex c = true :=
  ⟨fun ⟨_, hc⟩ => ⟨(HexNumber.val hc).1, List.all_eq_true.1 (HexNumber.val hc).2.1⟩, fun h => hexes h.1 h.2⟩

theorem map_ok {α β} {x : Except Exc α} {f : α → β} {y} (h : x.map f = .ok y) : ∃ a, x = .ok a ∧ f a = y := by
  cases x with
  | error e => cases h
  | ok a => cases h; exact ⟨a, rfl, rfl⟩

theorem denotes_of_decode {b v : PStr} (h : NTBody b) (hd : decodeLiteral b = .ok v) : Denotes b v := by
  have step : ∀ {p s v : PStr} {c : Nat}, Denotes p [c] → (∀ v, decodeLiteral s = .ok v → Denotes s v) → decodeLiteral (p ++ s) = .ok v →
      ∃ v', v = c :: v' ∧ Denotes s v' := by
    intro p s v c hp ih hd
    rw [decodeLiteral_denotes_append hp] at hd
    obtain ⟨a, h1, h2⟩ := map_ok hd
    exact ⟨a, h2.symm, ih a h1⟩
  induction h generalizing v with
  | nil => cases hd; exact .nil
  | @plain c s h1 h2 h3 h4 _ ih =>
    obtain ⟨v', rfl, h⟩ := step (p := [c]) (.plain h2 .nil) (fun v => ih) hd
    exact .plain h2 h
  | @echar c s hc _ ih =>
    have : ∃ d, (c, d) ∈ stringEscapes := by
      have : ∀ c ∈ py! "tbnrf\"'\\", ∃ d, (c, d) ∈ stringEscapes := by
        intro c hc
        simp only [List.mem_cons, List.not_mem_nil, or_false] at hc
        rcases hc with rfl | rfl | rfl | rfl | rfl | rfl | rfl | rfl <;> simp [stringEscapes]
      exact this c hc
    obtain ⟨d, hd'⟩ := this
    obtain ⟨v', rfl, h⟩ := step (p := [92, c]) (.echar hd' .nil) (fun v => ih) hd
    exact .echar hd' h
  | @uchar4 h s h1 h2 _ ih =>
    obtain ⟨c, hc⟩ := hexes h1 h2
    obtain ⟨v', rfl, h⟩ := step (p := 92 :: 117 :: h) (by have := Denotes.uchar4 hc .nil; rwa [List.append_nil] at this) (fun v => ih) hd
    exact .uchar4 hc h
  | @uchar8 h s h1 h2 _ ih =>
    obtain ⟨c, hc⟩ := hexes h1 h2
    by_cases hlt : c < 0x110000
    · obtain ⟨v', rfl, h⟩ := step (p := 92 :: 85 :: h) (by have := Denotes.uchar8 hc hlt .nil; rwa [List.append_nil] at this) (fun v => ih) hd
      exact .uchar8 hc hlt h
    · obtain ⟨e, he, _⟩ := C88_too_large .nil hc (by omega) s
      rw [List.nil_append] at he
      rw [he] at hd; cases hd

/-! ### Escapes -/

theorem ucharTail_shape {r : PStr} {n : Nat} (h : ucharTail r = n + 1) :
    ∃ u h' s, r = u :: (h' ++ s) ∧ n + 1 = h'.length + 1 ∧ (∀ c ∈ h', isHex c = true) ∧ (u = 117 ∧ h'.length = 4 ∨ u = 85 ∧ h'.length = 8) := by
  simp only [ucharTail] at h
  split at h
  · next t =>
    split at h
    · next hh => exact ⟨117, t.take 4, t.drop 4, by simp, by omega, List.all_eq_true.1 hh.2, .inl ⟨rfl, hh.1⟩⟩
    · cases h
  · next t =>
    split at h
    · next hh => exact ⟨85, t.take 8, t.drop 8, by simp, by omega, List.all_eq_true.1 hh.2, .inr ⟨rfl, hh.1⟩⟩
    · cases h
  · cases h

theorem ucharTail_four {h : PStr} (hl : h.length = 4) (hh : ∀ c ∈ h, isHex c = true) (s : PStr) : ucharTail (117 :: (h ++ s)) = 5 := by
  have : (h ++ s).take 4 = h := by rw [← hl, List.take_left]
  rw [ucharTail, this, if_pos ⟨hl, List.all_eq_true.2 hh⟩]

theorem ucharTail_eight {h : PStr} (hl : h.length = 8) (hh : ∀ c ∈ h, isHex c = true) (s : PStr) : ucharTail (85 :: (h ++ s)) = 9 := by
  have : (h ++ s).take 8 = h := by rw [← hl, List.take_left]
  rw [ucharTail, this, if_pos ⟨hl, List.all_eq_true.2 hh⟩]

/-! ### Strings -/

theorem strAux_sound : ∀ (n : Nat) (s b r : PStr), s.length ≤ n → strAux 0 s = some (b, r) → NTBody b ∧ s = b ++ 34 :: r
  | _, [], _, _, _, h => by cases h
  | 0, _ :: _, _, _, hl, _ => by simp at hl
  | n + 1, c :: s, b, r, hl, h => by
    have hl : s.length ≤ n := by simpa using hl
    rw [strAux] at h
    split at h
    · next hc => cases h; exact ⟨.nil, by rw [hc]; rfl⟩
    · next hcq =>
      split at h
      · next hc =>
        split at h
        · cases h
        · next m hm =>
          have key : ∀ (p s' : PStr), s = p ++ s' → m + 1 = p.length → (∀ b, NTBody b → NTBody (92 :: (p ++ b))) → NTBody b ∧ c :: s = b ++ 34 :: r := by
            intro p s' hs hm' hb
            rw [hm', hs, strAux_take] at h
            cases h4 : strAux 0 s' with
            | none => rw [h4] at h; cases h
            | some x =>
              rw [h4] at h
              cases h
              obtain ⟨h5, h6⟩ := strAux_sound n s' x.1 x.2 (by rw [hs] at hl; simp at hl; omega) h4
              refine ⟨?_, by rw [hs]; simp; exact h6⟩
              show NTBody (c :: (p ++ x.1))
              rw [hc]
              exact hb _ h5
          cases s with
          | nil => cases hm
          | cons d s =>
            rw [escTail] at hm
            split at hm
            · next hd => cases hm; exact key [d] s rfl rfl fun b hb => .echar hd hb
            · obtain ⟨u, h', s', e, hn, hh, hu⟩ := ucharTail_shape hm
              refine key (u :: h') s' e hn fun b hb => ?_
              rcases hu with ⟨rfl, hl'⟩ | ⟨rfl, hl'⟩
              · exact .uchar4 hl' hh hb
              · exact .uchar8 hl' hh hb
      · next hc =>
        split at h
        · cases h
        · next hi =>
          cases h4 : strAux 0 s with
          | none => rw [h4] at h; cases h
          | some x =>
            rw [h4] at h
            cases h
            obtain ⟨h5, h6⟩ := strAux_sound n s x.1 x.2 hl h4
            have : c ≠ 10 ∧ c ≠ 13 := by simpa [isEol] using hi
            exact ⟨.plain hcq hc this.1 this.2 h5, by simp; exact h6⟩

/-! ### IRIs -/

/-- The inside of `IRIREF` as the reader takes it, and its characters without the ignored white space. -/
inductive RawIri : PStr → PStr → Prop
  | nil : RawIri [] []
  | char {c s v} : iriClass c = true → RawIri s v → RawIri (c :: s) (c :: v)
  | esc {p s v} : (∃ u h, p = u :: h ∧ (∀ c ∈ h, isHex c = true) ∧ (u = 117 ∧ h.length = 4 ∨ u = 85 ∧ h.length = 8)) → RawIri s v →
      RawIri (92 :: (p ++ s)) (92 :: (p ++ v))
  | gap {c s v} : isWs c = true → RawIri s v → RawIri (c :: s) v

theorem iriAux_take (p s : PStr) : iriAux p.length (p ++ s) = (iriAux 0 s).map fun x => (p ++ x.1, x.2) := by
  induction p with
  | nil => simp
  | cons c p ih => rw [List.length_cons, List.cons_append, iriAux, ih, Option.map_map]; rfl

theorem iriAux_raw {b v : PStr} (h : RawIri b v) (r : PStr) : iriAux 0 (b ++ 62 :: r) = some (v, r) := by
  induction h with
  | nil => rfl
  | @char c s v hc _ ih =>
    have h62 : c ≠ 62 := by rintro rfl; revert hc; decide
    have h92 : c ≠ 92 := by rintro rfl; revert hc; decide
    have hw : isWs c ≠ true := by
      intro h; rcases isWs_iff.1 h with rfl | rfl <;> revert hc <;> decide
    rw [List.cons_append, iriAux, if_neg h62, if_neg hw, if_neg h92, if_pos hc, ih]; rfl
  | @esc p s v hp _ ih =>
    obtain ⟨u, h, rfl, hh, hu⟩ := hp
    have e : ucharTail (u :: h ++ (s ++ 62 :: r)) = h.length + 1 := by
      rcases hu with ⟨rfl, hl⟩ | ⟨rfl, hl⟩
      · rw [List.cons_append, ucharTail_four hl hh, hl]
      · rw [List.cons_append, ucharTail_eight hl hh, hl]
    have e2 := iriAux_take (u :: h) (s ++ 62 :: r)
    rw [ih] at e2
    rw [List.cons_append, List.append_assoc, iriAux, if_neg (by decide), if_neg (by decide), if_pos rfl, e]
    show ((iriAux (u :: h).length _).map _ : Option _) = _
    rw [e2]; rfl
  | @gap c s v hc _ ih =>
    have h62 : c ≠ 62 := by rintro rfl; revert hc; decide
    rw [List.cons_append, iriAux, if_neg h62, if_pos hc, ih]

theorem iriAux_sound : ∀ (n : Nat) (s v r : PStr), s.length ≤ n → iriAux 0 s = some (v, r) → ∃ b, RawIri b v ∧ s = b ++ 62 :: r
  | _, [], _, _, _, h => by cases h
  | 0, _ :: _, _, _, hl, _ => by simp at hl
  | n + 1, c :: s, v, r, hl, h => by
    have hl : s.length ≤ n := by simpa using hl
    rw [iriAux] at h
    split at h
    · next hc => cases h; exact ⟨[], .nil, by rw [hc]; rfl⟩
    · split at h
      · next hw =>
        obtain ⟨b, h1, h2⟩ := iriAux_sound n s v r hl h
        exact ⟨c :: b, .gap hw h1, by rw [h2]; rfl⟩
      · split at h
        · next hc =>
          split at h
          · cases h
          · next m hm =>
            obtain ⟨u, h', s', rfl, hn, hh, hu⟩ := ucharTail_shape hm
            have e2 := iriAux_take (u :: h') s'
            rw [List.length_cons, ← hn] at e2
            rw [show u :: (h' ++ s') = (u :: h') ++ s' from rfl, e2] at h
            cases h4 : iriAux 0 s' with
            | none => rw [h4] at h; cases h
            | some x =>
              rw [h4] at h
              cases h
              obtain ⟨b, h5, h6⟩ := iriAux_sound n s' x.1 x.2 (by simp at hl; omega) h4
              refine ⟨92 :: ((u :: h') ++ b), ?_, by rw [hc, h6]; simp⟩
              show RawIri _ (c :: ((u :: h') ++ x.1))
              rw [hc]
              exact .esc ⟨u, h', rfl, hh, hu⟩ h5
        · split at h
          · next hi =>
            cases h4 : iriAux 0 s with
            | none => rw [h4] at h; cases h
            | some x =>
              rw [h4] at h
              cases h
              obtain ⟨b, h5, h6⟩ := iriAux_sound n s x.1 x.2 hl h4
              exact ⟨c :: b, .char hi h5, by rw [h6]; rfl⟩
          · cases h

theorem RawIri.ntbody {b v : PStr} (h : RawIri b v) : NTBody v := by
  induction h with
  | nil => exact .nil
  | @char c s v hc _ ih =>
    have := iriClass_iff.1 hc
    have h2 := this.2
    simp only [List.mem_cons, List.not_mem_nil, or_false, not_or] at h2
    exact .plain (by omega) (by omega) (by omega) (by omega) ih
  | @esc p s v hp _ ih =>
    obtain ⟨u, h, rfl, hh, ⟨rfl, hl⟩ | ⟨rfl, hl⟩⟩ := hp
    · exact .uchar4 hl hh ih
    · exact .uchar8 hl hh ih
  | gap _ _ ih => exact ih

theorem RawIri.body {b v w : PStr} (h : RawIri b v) (hd : Denotes v w) : IriBody code b w := by
  induction h generalizing w with
  | nil => cases hd; exact .nil
  | @char c s v hc _ ih =>
    have h92 : c ≠ 92 := by rintro rfl; revert hc; decide
    generalize e : c :: v = x at hd
    cases hd with
    | nil => cases e
    | plain hn hd => cases e; exact .char (iriClass_iff.1 hc).1 (iriClass_iff.1 hc).2 (ih hd)
    | echar _ _ => cases e; exact absurd rfl h92
    | uchar4 _ _ => cases e; exact absurd rfl h92
    | uchar8 _ _ _ => cases e; exact absurd rfl h92
  | @esc p s v hp hr ih =>
    obtain ⟨u, h, rfl, hh, hu⟩ := hp
    rcases hu with ⟨rfl, hl⟩ | ⟨rfl, hl⟩
    · generalize e : 92 :: (117 :: h ++ v) = x at hd
      cases hd with
      | nil => cases e
      | plain hn hd => cases e; exact absurd rfl hn
      | echar hx _ => cases e; exact absurd hx (by simp [stringEscapes])
      | uchar4 hx hd =>
        simp only [List.cons_append, List.cons.injEq, true_and] at e
        obtain ⟨rfl, rfl⟩ := List.append_inj e (by rw [hl, (HexNumber.val hx).1])
        exact .uchar4 hx (ih hd)
      | uchar8 _ _ _ => simp at e
    · generalize e : 92 :: (85 :: h ++ v) = x at hd
      cases hd with
      | nil => cases e
      | plain hn hd => cases e; exact absurd rfl hn
      | echar hx _ => cases e; exact absurd hx (by simp [stringEscapes])
      | uchar4 _ _ => simp at e
      | uchar8 hx hc hd =>
        simp only [List.cons_append, List.cons.injEq, true_and] at e
        obtain ⟨rfl, rfl⟩ := List.append_inj e (by rw [hl, (HexNumber.val hx).1])
        exact .uchar8 hx hc (ih hd)
  | gap hc _ ih => exact .gap trivial (isWs_iff.1 hc) (ih hd)

theorem _root_.Verif.NTSpec.IriBody.raw {b w : PStr} (h : IriBody code b w) : ∃ v, RawIri b v ∧ Denotes v w := by
  induction h with
  | nil => exact ⟨[], .nil, .nil⟩
  | @char c s v h1 h2 _ ih =>
    obtain ⟨x, hx, hd⟩ := ih
    exact ⟨c :: x, .char (iriClass_iff.2 ⟨h1, h2⟩) hx, .plain (by rintro rfl; revert h2; decide) hd⟩
  | @uchar4 h c s v hh _ ih =>
    obtain ⟨x, hx, hd⟩ := ih
    have := HexNumber.val hh
    exact ⟨92 :: (117 :: h ++ x), .esc ⟨117, h, rfl, List.all_eq_true.1 this.2.1, .inl ⟨rfl, this.1⟩⟩ hx, .uchar4 hh hd⟩
  | @uchar8 h c s v hh hc _ ih =>
    obtain ⟨x, hx, hd⟩ := ih
    have := HexNumber.val hh
    exact ⟨92 :: (85 :: h ++ x), .esc ⟨85, h, rfl, List.all_eq_true.1 this.2.1, .inr ⟨rfl, this.1⟩⟩ hx, .uchar8 hh hc hd⟩
  | gap _ hc _ ih =>
    obtain ⟨x, hx, hd⟩ := ih
    exact ⟨x, .gap (isWs_iff.2 hc) hx, hd⟩

theorem pIriRef_iff {s v r : PStr} : pIriRef s = .ok (v, r) ↔ Iri code s v r := by
  constructor
  · intro h
    obtain ⟨w, hw, hs, _⟩ := skipWs_split s
    unfold pIriRef at h
    split at h
    · next t ht =>
      split at h
      · cases h
      · next x hx =>
        obtain ⟨y, h1, h2⟩ := map_ok h
        cases h2
        obtain ⟨b, hb, rfl⟩ := iriAux_sound _ t x.1 x.2 (Nat.le_refl _) hx
        rw [ht] at hs
        rw [hs]
        exact .mk hw (hb.body (denotes_of_decode hb.ntbody h1))
    · cases h
  · rintro ⟨hw, hb⟩
    obtain ⟨x, hx, hd⟩ := hb.raw
    unfold pIriRef
    rw [skipWs_stop hw (by decide)]
    simp only [iriAux_raw hx, C88_denotes hd]
    rfl

/-! ### Blank node labels -/

theorem Longest.unique {T : PStr → Prop} {w w' r r' : PStr} (h : Longest T w r) (h' : Longest T w' r') (e : w ++ r = w' ++ r') : w = w' ∧ r = r' := by
  have h1 := h.2 w' (by rw [e]; exact List.prefix_append ..) h'.1
  have h2 := h'.2 w (by rw [← e]; exact List.prefix_append ..) h.1
  exact List.append_inj e (by omega)

def LabelTail (t : PStr) : Prop := (∀ x ∈ t, code.labelChar x ∨ x = 0x2E) ∧ t.getLast? ≠ some 0x2E

theorem labelTail_ok (s : PStr) : LabelTail (labelTail s) := by
  constructor
  · intro x hx
    have : x ∈ s.takeWhile fun c => Verif.pnChars c || c == 46 := by
      have h1 : labelTail s <+: s.takeWhile fun c => Verif.pnChars c || c == 46 := by
        unfold labelTail
        generalize (s.takeWhile fun c => Verif.pnChars c || c == 46) = t
        have := List.dropWhile_suffix (l := t.reverse) (· == 46)
        rw [← List.reverse_prefix] at this
        simpa using this
      exact h1.subset hx
    have := List.all_eq_true.1 (List.all_takeWhile (p := fun c => Verif.pnChars c || c == 46) (l := s)) x this
    simp only [Bool.or_eq_true, beq_iff_eq] at this
    exact this.imp_left labelChar_iff.1
  · unfold labelTail
    rw [List.getLast?_reverse]
    generalize (List.takeWhile (fun c => Verif.pnChars c || c == 46) s).reverse = t
    intro h
    have := List.head?_dropWhile_not (· == 46) t
    rw [h] at this
    simp at this

theorem labelTail_longest {t s : PStr} (h : LabelTail t) (hp : t <+: s) : t.length ≤ (labelTail s).length := by
  obtain ⟨u, rfl⟩ := hp
  have h1 : (t ++ u).takeWhile (fun c => Verif.pnChars c || c == 46) = t ++ u.takeWhile (fun c => Verif.pnChars c || c == 46) := by
    rw [List.takeWhile_append_of_pos]
    intro x hx
    rcases h.1 x hx with h | h
    · simp [labelChar_iff.2 h]
    · simp [h]
  unfold labelTail
  rw [h1, List.reverse_append, List.length_reverse]
  generalize (List.takeWhile (fun c => Verif.pnChars c || c == 46) u).reverse = v
  induction v with
  | nil =>
    rw [List.nil_append]
    cases hr : t.reverse with
    | nil => have := congrArg List.length hr; simp at this; simp [this]
    | cons x y =>
      have : x ≠ 46 := by
        intro hx
        apply h.2
        rw [← List.head?_reverse, hr, hx]; rfl
      rw [List.dropWhile_cons, if_neg (by simpa using this), ← hr, List.length_reverse]
      exact Nat.le_refl _
  | cons x v ih =>
    rw [List.cons_append, List.dropWhile_cons]
    split
    · exact ih
    · simp; omega

theorem labelTail_split (t : PStr) : labelTail t ++ t.drop (labelTail t).length = t := by
  obtain ⟨u, hu⟩ := labelTail_prefix t
  generalize labelTail t = l at hu
  subst hu
  rw [List.drop_left]

theorem pLabel_iff {s l r : PStr} : pLabel s = some (l, r) ↔ Longest (LabelTok code) l r ∧ 95 :: 58 :: s = l ++ r := by
  have tok : ∀ {c : Nat} {t : PStr}, LabelTok code (95 :: 58 :: c :: t) ↔ code.labelFirst c ∧ LabelTail t := by
    intro c t
    constructor
    · rintro ⟨c', t', e, h⟩; cases e; exact ⟨h.1, h.2.1, h.2.2⟩
    · intro h; exact ⟨c, t, rfl, h.1, h.2.1, h.2.2⟩
  have long : ∀ {c : Nat} {t : PStr}, code.labelFirst c → Longest (LabelTok code) (95 :: 58 :: c :: labelTail t) (t.drop (labelTail t).length) := by
    intro c t hc
    refine ⟨tok.2 ⟨hc, labelTail_ok t⟩, ?_⟩
    have e := labelTail_split t
    intro w' hp ⟨c', t', ew, hf, hT⟩
    subst ew
    simp only [List.cons_append, e, List.cons_prefix_cons, true_and] at hp
    have := labelTail_longest (t := t') hT hp.2
    simp; omega
  constructor
  · intro h
    cases s with
    | nil => cases h
    | cons c s =>
      rw [pLabel] at h
      split at h
      · next hc =>
        cases h
        refine ⟨long (labelFirst_iff.1 hc), ?_⟩
        rw [List.cons_append, List.cons_append, List.cons_append, labelTail_split]
      · cases h
  · rintro ⟨h, e⟩
    obtain ⟨c, t, rfl, hf, hT⟩ := h.1
    simp only [List.cons_append, List.cons.injEq, true_and] at e
    subst e
    have hL := long (t := t ++ r) hf
    have := h.unique hL (by
      simp only [List.cons_append, labelTail_split])
    rw [pLabel, if_pos (labelFirst_iff.2 hf), this.1.symm]
    congr 2
    exact this.2.symm

/-! ### Language tags -/

def LangTail (b : Bool) (w : PStr) : Prop := ∃ p s, w = p ++ s ∧ (∀ c ∈ p, (if b then langSub c else isLetter c) = true) ∧ LangParts code s

theorem langTail_ok : ∀ (n : Nat) (b : Bool) (s : PStr), s.length ≤ n → LangTail b (langTail b s)
  | _, b, [], _ => by
    have : langTail b [] = [] := by cases b <;> rfl
    rw [this]; exact ⟨[], [], rfl, by simp, .nil⟩
  | 0, _, _ :: _, hl => by simp at hl
  | n + 1, b, c :: s, hl => by
    have hl : s.length ≤ n := by simpa using hl
    by_cases hc : (if b = true then langSub c else isLetter c) = true
    · rw [langTail_take hc]
      obtain ⟨p, t, h1, h2, h3⟩ := langTail_ok n b s hl
      exact ⟨c :: p, t, by rw [h1]; rfl, fun x hx => (List.mem_cons.1 hx).elim (fun e => e ▸ hc) (h2 x), h3⟩
    · by_cases hd : ∃ d r', c = 45 ∧ s = d :: r' ∧ langSub d = true
      · obtain ⟨d, r', rfl, rfl, hd⟩ := hd
        rw [langTail_sub hd]
        obtain ⟨p, t, h1, h2, h3⟩ := langTail_ok n true r' (by simp at hl; omega)
        refine ⟨[], _, rfl, by simp, ?_⟩
        rw [h1]
        refine .part (p := d :: p) (by simp) ?_ h3
        intro x hx
        rcases List.mem_cons.1 hx with rfl | hx
        · exact langSub_iff.1 hd
        · exact langSub_iff.1 (by simpa using h2 x hx)
      · rw [langTail_end hc fun e d r' es => by
          cases h : langSub d with
          | false => rfl
          | true => exact absurd ⟨d, r', e, es, h⟩ hd]
        exact ⟨[], [], rfl, by simp, .nil⟩

theorem langTail_longest : ∀ (n : Nat) (b : Bool) (w s : PStr), w.length ≤ n → LangTail b w → w <+: s → w.length ≤ (langTail b s).length
  | _, _, [], _, _, _, _ => by simp
  | 0, _, _ :: _, _, hl, _, _ => by simp at hl
  | n + 1, b, c :: w, s, hl, ⟨p, t, e, hp, ht⟩, hpre => by
    have hl : w.length ≤ n := by simpa using hl
    obtain ⟨u, rfl⟩ := hpre
    cases p with
    | cons x p =>
      obtain ⟨rfl, rfl⟩ := List.cons.inj e
      show (c :: (p ++ t)).length ≤ (langTail b (c :: (p ++ t) ++ u)).length
      rw [List.cons_append, langTail_take (hp c (by simp))]
      have := langTail_longest n b (p ++ t) (p ++ t ++ u) hl ⟨p, t, rfl, fun x hx => hp x (by simp [hx]), ht⟩ (List.prefix_append ..)
      simp only [List.length_cons]; omega
    | nil =>
      rw [List.nil_append] at e
      subst e
      generalize hx : c :: w = x at ht
      cases ht with
      | nil => cases hx
      | @part p s' hne hpc ht =>
        cases hx
        cases p with
        | nil => exact absurd rfl hne
        | cons d p =>
          simp only [List.cons_append, List.append_assoc]
          rw [langTail_sub (langSub_iff.2 (hpc d (by simp)))]
          have := langTail_longest n true (p ++ s') (p ++ (s' ++ u)) (by simp at hl ⊢; omega)
            ⟨p, s', rfl, fun x hx => by simpa using langSub_iff.2 (hpc x (by simp [hx])), ht⟩ (by rw [← List.append_assoc]; exact List.prefix_append ..)
          simp only [List.length_cons]; omega

theorem langTok_iff {c : Nat} {t : PStr} : LangTok code (c :: t) ↔ isLetter c = true ∧ LangTail false t := by
  constructor
  · rintro ⟨p, s, e, hne, hp, hs⟩
    cases p with
    | nil => exact absurd rfl hne
    | cons x p => cases e; exact ⟨isLetter_iff.2 (hp c (by simp)), p, s, rfl, fun x hx => by simpa using isLetter_iff.2 (hp x (by simp [hx])), hs⟩
  · rintro ⟨hc, p, s, rfl, hp, hs⟩
    refine ⟨c :: p, s, rfl, by simp, ?_, hs⟩
    intro x hx
    rcases List.mem_cons.1 hx with rfl | hx
    · exact isLetter_iff.1 hc
    · exact isLetter_iff.1 (by simpa using hp x hx)

theorem langTail_split (t : PStr) : langTail false t ++ t.drop (langTail false t).length = t := by
  obtain ⟨u, hu⟩ := langTail_prefix t false
  generalize langTail false t = l at hu
  subst hu
  rw [List.drop_left]

theorem lang_long {c : Nat} (hc : isLetter c = true) (t : PStr) : Longest (LangTok code) (c :: langTail false t) (t.drop (langTail false t).length) := by
  refine ⟨langTok_iff.2 ⟨hc, langTail_ok _ false t (Nat.le_refl _)⟩, ?_⟩
  intro w' hp hw
  rw [List.cons_append, langTail_split] at hp
  cases w' with
  | nil => simp
  | cons d w =>
    have h1 := List.cons_prefix_cons.1 hp
    have := langTail_longest _ false w t (Nat.le_refl _) (langTok_iff.1 hw).2 h1.2
    simp only [List.length_cons]; omega

theorem lang_iff {s l r : PStr} : (∃ c t, s = c :: t ∧ isLetter c = true ∧ l = c :: langTail false t ∧ r = t.drop (langTail false t).length) ↔
    Longest (LangTok code) l r ∧ s = l ++ r := by
  constructor
  · rintro ⟨c, t, rfl, hc, rfl, rfl⟩
    exact ⟨lang_long hc t, by rw [List.cons_append, langTail_split]⟩
  · rintro ⟨h, rfl⟩
    cases l with
    | nil => obtain ⟨p, s, e, hne, _⟩ := h.1; cases p with | nil => exact absurd rfl hne | cons _ _ => cases e
    | cons c l =>
      have hc := (langTok_iff.1 h.1).1
      have := h.unique (lang_long hc (l ++ r)) (by rw [List.cons_append, List.cons_append, langTail_split])
      exact ⟨c, l ++ r, rfl, hc, this.1, this.2⟩

/-! ### Terms -/

theorem pSubject_iff {s : PStr} {t : RTerm} {r : PStr} : pSubject s = .ok (t, r) ↔ Node code s t r := by
  constructor
  · intro h
    obtain ⟨w, hw, hs, _⟩ := skipWs_split s
    unfold pSubject at h
    split at h
    · next u hu =>
      split at h
      · cases h
      · next x hx =>
        cases h
        obtain ⟨h1, h2⟩ := pLabel_iff.1 hx
        rw [hs, hu, h2]
        exact .label hw h1 trivial
    · obtain ⟨x, h1, h2⟩ := map_ok h
      cases h2
      exact .iri (pIriRef_iff.1 h1)
  · intro h
    cases h with
    | iri h =>
      have := pIriRef_iff.2 h
      unfold pSubject
      split
      · next u hu =>
        unfold pIriRef at this
        rw [hu] at this
        cases this
      · rw [this]; rfl
    | @label w l r hw hl _ =>
      obtain ⟨c, t, rfl, h'⟩ := hl.1
      have : pLabel (c :: t ++ r) = _ := pLabel_iff.2 ⟨hl, rfl⟩
      unfold pSubject
      rw [List.cons_append, skipWs_stop hw (by decide), List.cons_append]
      simp only
      rw [this]

/-- What follows a literal is neither `^^` nor a language tag. -/
def NoSuffix (r : PStr) : Prop := ∀ c t, skipWs r = c :: t → c ≠ 94 ∧ c ≠ 64

theorem pObject_sound {s : PStr} {t : RTerm} {r : PStr} (h : pObject s = .ok (t, r)) : Object code s t r := by
  obtain ⟨w, hw, hs, _⟩ := skipWs_split s
  unfold pObject at h
  split at h
  · next u hu =>
    split at h
    · cases h
    · next x hx =>
      split at h
      · cases h
      · next v hv =>
        obtain ⟨hb, hu2⟩ := strAux_sound _ u x.1 x.2 (Nat.le_refl _) hx
        have hd := denotes_of_decode hb hv
        obtain ⟨w', hw', hs', _⟩ := skipWs_split x.2
        unfold pSuffix at h
        rw [hs, hu, hu2]
        split at h
        · next y hy =>
          obtain ⟨z, h1, h2⟩ := map_ok h
          cases h2
          rw [hs', hy]
          exact .typed hw hb hd hw' (pIriRef_iff.1 h1)
        · next y hy =>
          split at h
          · next c y' =>
            split at h
            · next hc =>
              cases h
              rw [hs', hy]
              have := lang_iff.1 ⟨c, y', rfl, hc, rfl, rfl⟩
              have e : (64 :: c :: y' : PStr) = 64 :: (c :: langTail false y' ++ List.drop (langTail false y').length y') := by rw [← this.2]
              rw [e]
              exact .lang hw hb hd hw' this.1 trivial
            · cases h
          · cases h
        · cases h
          exact .plain hw hb hd
  · exact .node (pSubject_iff.1 h)

theorem pObject_complete {s : PStr} {t : RTerm} {r : PStr} (h : Object code s t r) (hr : NoSuffix r) : pObject s = .ok (t, r) := by
  have str : ∀ {w b v u : PStr}, Ws w → NTBody b → Denotes b v → pObject (w ++ 0x22 :: (b ++ 0x22 :: u)) = pSuffix v u := by
    intro w b v u hw hb hd
    unfold pObject
    rw [skipWs_stop hw (by decide)]
    simp only [strAux_body hb, C88_denotes hd]
  cases h with
  | node h =>
    have := pSubject_iff.2 h
    unfold pObject
    split
    · next u hu =>
      unfold pSubject pIriRef at this
      rw [hu] at this
      cases this
    · exact this
  | plain hw hb hd =>
    rw [str hw hb hd]
    unfold pSuffix
    split
    · next u hu => exact absurd rfl (hr _ _ hu).1
    · next u hu => exact absurd rfl (hr _ _ hu).2
    · rfl
  | typed hw hb hd hw' hi =>
    rw [str hw hb hd]
    unfold pSuffix
    rw [skipWs_stop hw' (by decide)]
    simp only [pIriRef_iff.2 hi]
    rfl
  | @lang w b v w' l r hw hb hd hw' hl _ =>
    obtain ⟨c, t, e, hc, rfl, rfl⟩ := lang_iff.2 ⟨hl, rfl⟩
    rw [str hw hb hd, e]
    unfold pSuffix
    rw [skipWs_stop hw' (by decide)]
    simp only [hc, if_true]

theorem pDot_iff {s r : PStr} : pDot s = .ok r ↔ Dot s r := by
  constructor
  · intro h
    obtain ⟨w, hw, hs, _⟩ := skipWs_split s
    unfold pDot at h
    split at h
    · next u hu => cases h; rw [hs, hu]; exact .mk hw
    · cases h
  · rintro ⟨hw⟩
    unfold pDot
    rw [skipWs_stop hw (by decide)]
    rfl

theorem Dot.noSuffix {s r : PStr} (h : Dot s r) : NoSuffix s := by
  obtain ⟨hw⟩ := h
  intro c t e
  rw [skipWs_stop hw (by decide)] at e
  cases e; decide

theorem Iri.noSuffix {s v r : PStr} (h : Iri code s v r) : NoSuffix s := by
  obtain ⟨hw, _⟩ := h
  intro c t e
  rw [skipWs_stop hw (by decide)] at e
  cases e; decide

theorem pStmt_iff {q : Bool} {s : PStr} {t : RStmt} {r : PStr} : pStmt q s = .ok (t, r) ↔ Statement code q s t r := by
  constructor
  · intro h
    unfold pStmt at h
    split at h
    · cases h
    · next sub r1 h1 =>
      split at h
      · cases h
      · next pred r2 h2 =>
        split at h
        · cases h
        · next obj r3 h3 =>
          split at h
          · cases h
          · next gr r4 h4 =>
            obtain ⟨x, h5, h6⟩ := map_ok h
            cases h6
            unfold pGraph at h4
            split at h4
            · next hq =>
              obtain ⟨y, h7, h8⟩ := map_ok h4
              cases h8
              subst hq
              exact .quad (pSubject_iff.1 h1) (pIriRef_iff.1 h2) (pObject_sound h3) (pIriRef_iff.1 h7) (pDot_iff.1 h5)
            · next hq =>
              cases h4
              rw [Bool.not_eq_true] at hq
              subst hq
              exact .triple (pSubject_iff.1 h1) (pIriRef_iff.1 h2) (pObject_sound h3) (pDot_iff.1 h5)
  · intro h
    cases h with
    | triple h1 h2 h3 h4 =>
      unfold pStmt pGraph
      simp only [pSubject_iff.2 h1, pIriRef_iff.2 h2, pObject_complete h3 h4.noSuffix, Bool.false_eq_true, if_false, pDot_iff.2 h4]
      rfl
    | quad h1 h2 h3 h4 h5 =>
      unfold pStmt pGraph
      simp only [pSubject_iff.2 h1, pIriRef_iff.2 h2, pObject_complete h3 h4.noSuffix, pIriRef_iff.2 h4, if_true, Except.map, pDot_iff.2 h5]
    | bnodeGraph h => exact h.elim
    | noGraph h => exact h.elim

/-! ### Documents -/

theorem lineEnd_iff {w : PStr} : LineEnd code w ↔ Ws w := by
  constructor
  · rintro (h | h)
    · exact h
    · exact h.elim
  · exact .ws

theorem eol_iff {e : PStr} : Eol code e ↔ e ≠ [] ∧ ∀ c ∈ e, isEol c = true := by
  constructor
  · intro h
    induction h with
    | one h => exact ⟨by simp, by simpa using isEol_iff.2 h⟩
    | more h _ ih => exact ⟨by simp, fun c hc => (List.mem_cons.1 hc).elim (fun e => e ▸ isEol_iff.2 h) (ih.2 c)⟩
    | comment h => exact h.elim
  · rintro ⟨hne, h⟩
    induction e with
    | nil => exact absurd rfl hne
    | cons c e ih =>
      cases e with
      | nil => exact .one (isEol_iff.1 (h c (by simp)))
      | cons d e => exact .more (isEol_iff.1 (h c (by simp))) (ih (by simp) fun x hx => h x (by simp [hx]))

theorem ws_nil_iff {w : PStr} : skipWs w = [] ↔ Ws w := by
  constructor
  · intro h
    obtain ⟨u, hu, e, _⟩ := skipWs_split w
    rw [h, List.append_nil] at e
    exact e ▸ hu
  · intro h
    have := skipWs_append h []
    rwa [List.append_nil] at this

theorem Statement.head {q : Bool} {s : PStr} {t : RStmt} {r : PStr} (h : Statement code q s t r) : ∃ c u, skipWs s = c :: u ∧ isEol c = false := by
  have key : ∀ {s a r1}, Node code s a r1 → ∃ c u, skipWs s = c :: u ∧ isEol c = false := by
    intro s a r1 h
    cases h with
    | iri h => obtain ⟨hw, _⟩ := h; exact ⟨_, _, skipWs_stop hw (by decide) _, by decide⟩
    | @label w l r hw hl _ =>
      obtain ⟨c, t, rfl, _⟩ := hl.1
      exact ⟨_, _, by rw [List.cons_append]; exact skipWs_stop hw (by decide) _, by decide⟩
  cases h with
  | triple h => exact key h
  | quad h => exact key h
  | bnodeGraph _ h => exact key h
  | noGraph _ h => exact key h

theorem pTail_sound {q : Bool} : ∀ {n : Nat} {s : PStr} {rs : List RStmt}, pTail q n s = .ok rs → Rest code q s rs
  | 0, _, _, h => by cases h
  | n + 1, s, rs, h => by
    obtain ⟨w, hw, hs, _⟩ := skipWs_split s
    rw [pTail] at h
    split at h
    · next hn => cases h; exact .eof (lineEnd_iff.2 (ws_nil_iff.1 hn))
    · next c r hc =>
      split at h
      · next he =>
        have hE : Eol code (c :: r.takeWhile isEol) :=
          eol_iff.2 ⟨by simp, fun x hx => (List.mem_cons.1 hx).elim (fun e => e ▸ he) fun hx => List.all_eq_true.1 List.all_takeWhile x hx⟩
        have hsplit : s = w ++ (c :: r.takeWhile isEol ++ r.dropWhile isEol) := by
          rw [List.cons_append, List.takeWhile_append_dropWhile, ← hc]; exact hs
        rw [hsplit]
        split at h
        · next hn => cases h; exact .eol (lineEnd_iff.2 hw) hE (lineEnd_iff.2 (ws_nil_iff.1 hn))
        · next t ht =>
          split at h
          · cases h
          · next st r' hst =>
            rw [pStmt_skipWs] at hst
            obtain ⟨ts, h1, h2⟩ := map_ok h
            cases h2
            exact .next (lineEnd_iff.2 hw) hE (pStmt_iff.1 hst) (pTail_sound h1)
      · cases h

theorem pTail_complete {q : Bool} {s : PStr} {rs : List RStmt} (h : Rest code q s rs) : ∀ {n : Nat}, s.length < n → pTail q n s = .ok rs := by
  have start : ∀ {w e s : PStr} {n : Nat}, Ws w → Eol code e → (∀ c u, skipWs s = c :: u → isEol c = false) →
      pTail q (n + 1) (w ++ (e ++ s)) = match skipWs s with
        | [] => .ok []
        | t =>
          match pStmt q t with
          | .error e => .error e
          | .ok (st, r') => (pTail q n r').map (st :: ·) := by
    intro w e s n hw he hs
    obtain ⟨hne, hall⟩ := eol_iff.1 he
    cases e with
    | nil => exact absurd rfl hne
    | cons c e =>
      have hcw : isWs c = false := by
        have := hall c (by simp)
        cases h : isWs c with
        | false => rfl
        | true => rcases isWs_iff.1 h with rfl | rfl <;> cases this
      rw [pTail, List.cons_append, skipWs_stop hw hcw]
      simp only [hall c (by simp), if_true]
      rw [dropWhile_eols (fun x hx => hall x (by simp [hx])) hs]
      rfl
  induction h with
  | eof hw =>
    intro n hn
    cases n with
    | zero => omega
    | succ n => rw [pTail, ws_nil_iff.2 (lineEnd_iff.1 hw)]
  | eol hw he hw' =>
    intro n hn
    cases n with
    | zero => omega
    | succ n =>
      have := ws_nil_iff.2 (lineEnd_iff.1 hw')
      rw [start (lineEnd_iff.1 hw) he (by rw [this]; intro c u h; cases h), this]
  | @next w e s t r ts hw he hst _ ih =>
    intro n hn
    cases n with
    | zero => omega
    | succ n =>
      obtain ⟨c, u, hc, heol⟩ := hst.head
      rw [start (lineEnd_iff.1 hw) he (by rw [hc]; intro c' u' h; cases h; exact heol)]
      have h1 := pStmt_iff.2 hst
      have hlen := pStmt_shorter h1
      have hne := (eol_iff.1 he).1
      rw [← pStmt_skipWs, hc] at h1
      simp only [hc, h1]
      rw [ih (by simp at hn hlen; omega)]; rfl

theorem pDoc_iff {q : Bool} {s : PStr} {rs : List RStmt} : pDoc q s = .ok rs ↔ Doc code q s rs := by
  constructor
  · intro h
    unfold pDoc at h
    split at h
    · next hn => cases h; exact .rest (.eof (lineEnd_iff.2 (ws_nil_iff.1 hn)))
    · next c r hc =>
      split at h
      · next he =>
        have h0 := pTail_sound h
        obtain ⟨w, hw, hs, _⟩ := skipWs_split s
        rw [hc] at hs
        rw [hs]
        rw [hs] at h
        refine .rest (pTail_sound (n := (w ++ c :: r).length + 1) (q := q) ?_)
        rw [pTail] at h ⊢
        have hcw : isWs c = false := by
          cases h : isWs c with
          | false => rfl
          | true => rcases isWs_iff.1 h with rfl | rfl <;> cases he
        rw [skipWs_stop hw hcw]
        have := skipWs_stop (w := []) (by simp [Ws]) hcw r
        rw [List.nil_append] at this
        rw [this] at h
        exact h
      · split at h
        · cases h
        · next st r' hst =>
          obtain ⟨ts, h1, h2⟩ := map_ok h
          cases h2
          rw [← hc, pStmt_skipWs] at hst
          exact .first (pStmt_iff.1 hst) (pTail_sound h1)
  · intro h
    cases h with
    | first hst hr =>
      obtain ⟨c, u, hc, heol⟩ := hst.head
      have h1 := pStmt_iff.2 hst
      have hlen := pStmt_shorter h1
      rw [← pStmt_skipWs, hc] at h1
      unfold pDoc
      rw [hc]
      simp only [heol, h1, pTail_complete hr (n := s.length + 1) (by simp at hlen; omega)]
      rfl
    | rest hr =>
      have h1 := pTail_complete hr (n := s.length + 1) (by omega)
      unfold pDoc
      rw [pTail] at h1
      cases hc : skipWs s with
      | nil => rw [hc] at h1; exact h1
      | cons c r =>
        rw [hc] at h1
        simp only at h1 ⊢
        by_cases he : isEol c = true
        · rw [if_pos he] at h1 ⊢
          rw [pTail]
          have hcw : isWs c = false := by
            cases h : isWs c with
            | false => rfl
            | true => rcases isWs_iff.1 h with rfl | rfl <;> cases he
          have := skipWs_stop (w := []) (by simp [Ws]) hcw r
          rw [List.nil_append] at this
          rw [this]
          simp only [he, if_true]
          exact h1
        · rw [if_neg he] at h1; cases h1

end Verif.NTSpec
