import Verif.Model.Iri
import Verif.Spec.Iri
import Verif.Lemmas.Escape
namespace Verif

/-! ### `str.replace` with one character -/

theorem pyReplace_single (s : PStr) (c : Nat) (new : PStr) :
    pyReplace s [c] new = s.flatMap fun x => if x = c then new else [x] := by
  unfold pyReplace
  rw [if_neg (by simp)]
  induction s with
  | nil => rfl
  | cons x xs ih =>
    rw [pyReplaceAux]
    by_cases h : x = c
    · subst h
      have : ([x] : PStr).isPrefixOf (x :: xs) = true := by simp
      rw [if_pos this, List.flatMap_cons, if_pos rfl, ← ih]; rfl
    · have : ¬ ([c] : PStr).isPrefixOf (x :: xs) = true := by simp; omega
      rw [if_neg this, List.flatMap_cons, if_neg h, ← ih]; rfl

/-! ### Re-encoding of reserved characters -/

/-- What one character becomes in `percent_decode`. -/
def reEnc (c : Nat) : PStr := if reservedInIri.contains c then pctByte c else [c]

theorem foldl_replace (rs : List Nat) (hn : rs.Nodup) (s : PStr)
    (hhex : ∀ r ∈ rs, ∀ d, d < 16 → hexUpper d ≠ r) (h37 : 37 ∉ rs) :
    rs.foldl (fun u res => pyReplace u [res] (pctByte res)) s = s.flatMap fun x => if rs.contains x then pctByte x else [x] := by
  induction rs generalizing s with
  | nil => simp
  | cons r rs ih =>
    rw [List.foldl_cons, ih (List.nodup_cons.1 hn).2 _ (fun r' hr' => hhex r' (by simp [hr'])) (by simp_all),
      pyReplace_single, List.flatMap_assoc]
    congr 1
    funext x
    by_cases hx : x = r
    · subst hx
      have hno : ∀ y ∈ pctByte x, rs.contains y = false := by
        intro y hy
        simp only [pctByte, fmt02X, List.mem_cons, List.not_mem_nil, or_false] at hy
        rw [Bool.eq_false_iff]
        intro hc
        have hc : y ∈ rs := by simpa using hc
        rcases hy with rfl | rfl | rfl
        · simp_all
        · exact hhex _ (List.mem_cons_of_mem _ hc) _ (Nat.mod_lt _ (by omega)) rfl
        · exact hhex _ (List.mem_cons_of_mem _ hc) _ (Nat.mod_lt _ (by omega)) rfl
      rw [if_pos rfl, if_pos (by simp)]
      have : ∀ l : PStr, (∀ y ∈ l, rs.contains y = false) → (l.flatMap fun x => if rs.contains x = true then pctByte x else [x]) = l := by
        intro l hl
        induction l with
        | nil => rfl
        | cons a l ih => rw [List.flatMap_cons, hl a (by simp), ih (fun y hy => hl y (by simp [hy]))]; rfl
      exact this _ hno
    · rw [if_neg hx]
      simp [hx]

theorem hexUpper_ne_reserved {d r : Nat} (hd : d < 16) (hr : r ∈ reservedInIri) : hexUpper d ≠ r := by
  have := hexUpper_range hd
  intro e
  subst e
  simp [reservedInIri] at hr
  omega

theorem reserved_foldl (s : PStr) :
    reservedInIri.foldl (fun u res => pyReplace u [res] (pctByte res)) s = s.flatMap reEnc := by
  have h0 : reservedInIri = 37 :: reservedInIri.tail := rfl
  rw [h0, List.foldl_cons, foldl_replace reservedInIri.tail (by decide) _
    (fun r hr d hd => hexUpper_ne_reserved hd (List.mem_of_mem_tail hr)) (by decide), pyReplace_single, List.flatMap_assoc]
  congr 1
  funext x
  unfold reEnc
  by_cases hx : x = 37
  · subst hx; decide
  · rw [if_neg hx]
    have : reservedInIri.contains x = reservedInIri.tail.contains x := by
      rw [h0]; simp [hx]
    rw [this]
    simp

theorem percentDecode_eq {bs : List Nat} {u : PStr} (h : utf8Decode bs = some u) : percentDecode bs = .ok (u.flatMap reEnc) := by
  simp only [percentDecode, h, reserved_foldl]

theorem percentDecode_inv {bs : List Nat} {v : PStr} (h : percentDecode bs = .ok v) : ∃ u, utf8Decode bs = some u ∧ v = u.flatMap reEnc := by
  cases hu : utf8Decode bs with
  | none => simp only [percentDecode, hu] at h; cases h
  | some u => rw [percentDecode_eq hu] at h; exact ⟨u, rfl, (Except.ok.inj h).symm⟩

/-! ### The scanner -/

/-- The text of a run of escapes given by its pairs of digits. -/
def escs (es : List (Nat × Nat)) : PStr := es.flatMap fun e => [37, e.1, e.2]

def escBytes (es : List (Nat × Nat)) : List Nat := es.map fun e => parseHex [e.1, e.2]

theorem escs_length (es : List (Nat × Nat)) : (escs es).length = 3 * es.length := by
  induction es with
  | nil => rfl
  | cons e es ih => simp only [escs, List.flatMap_cons, List.length_append] at *; simp [ih]; omega

theorem pctRun_escs (es : List (Nat × Nat)) (he : ∀ e ∈ es, pctMatches e.1 e.2 = true) (rest : PStr) (hr : pctRun rest = []) :
    pctRun (escs es ++ rest) = escBytes es := by
  induction es with
  | nil => simpa [escs, escBytes] using hr
  | cons e es ih =>
    show pctRun (37 :: e.1 :: e.2 :: (escs es ++ rest)) = _
    rw [pctRun, if_pos (he e (by simp)), ih (fun e' h => he e' (by simp [h]))]
    rfl

theorem normalizeAux_skip (l rest : PStr) : normalizeAux l.length (l ++ rest) = normalizeAux 0 rest := by
  induction l with
  | nil => rfl
  | cons a l ih => simpa [normalizeAux] using ih

theorem normalize_cons {c : Nat} {s : PStr} (h : pctRun (c :: s) = []) : normalizeIri (c :: s) = (normalizeIri s).map (c :: ·) := by
  unfold normalizeIri; rw [normalizeAux, h]

theorem pctRun_ch {c : Nat} (h : c ≠ 37) (s : PStr) : pctRun (c :: s) = [] := by
  unfold pctRun; split
  · next e => simp at e; omega
  · rfl

theorem normalize_ch {c : Nat} (h : c ≠ 37) (s : PStr) : normalizeIri (c :: s) = (normalizeIri s).map (c :: ·) :=
  normalize_cons (pctRun_ch h s)

theorem pctRun_keep {a b : Nat} (h : pctMatches a b = false) (s : PStr) : pctRun (37 :: a :: b :: s) = [] := by
  rw [pctRun, h]; rfl

theorem isHex_ne_37 {a : Nat} (h : isHex a = true) : a ≠ 37 := by intro e; subst e; revert h; decide

theorem Except.map_map' {α β γ} (x : Except Exc α) (f : α → β) (g : β → γ) : (x.map f).map g = x.map (g ∘ f) := by
  cases x <;> rfl

theorem normalize_keep {a b : Nat} (ha : isHex a = true) (hb : isHex b = true) (h : pctMatches a b = false) (s : PStr) :
    normalizeIri (37 :: a :: b :: s) = (normalizeIri s).map ([37, a, b] ++ ·) := by
  rw [normalize_cons (pctRun_keep h s), normalize_ch (isHex_ne_37 ha), normalize_ch (isHex_ne_37 hb), Except.map_map', Except.map_map']
  rfl

theorem normalize_run (es : List (Nat × Nat)) (he : ∀ e ∈ es, pctMatches e.1 e.2 = true) (rest : PStr) (hr : pctRun rest = []) :
    normalizeIri (escs es ++ rest) =
      match percentDecode (escBytes es) with
      | .error e => .error e
      | .ok u => (normalizeIri rest).map (u ++ ·) := by
  cases es with
  | nil =>
    have : percentDecode (escBytes []) = .ok [] := by decide
    rw [this]
    simp [escs]; cases normalizeIri rest <;> rfl
  | cons e es =>
    have h := pctRun_escs (e :: es) he rest hr
    have h3 : escs (e :: es) ++ rest = 37 :: ((e.1 :: e.2 :: escs es) ++ rest) := rfl
    rw [h3] at h ⊢
    unfold normalizeIri
    rw [normalizeAux, h]
    simp only [escBytes, List.map_cons]
    have hl : 3 * (parseHex [e.1, e.2] :: List.map (fun e => parseHex [e.1, e.2]) es).length - 1 = (e.1 :: e.2 :: escs es).length := by
      simp [escs_length]; omega
    rw [hl, normalizeAux_skip]
    cases percentDecode (parseHex [e.1, e.2] :: List.map (fun e => parseHex [e.1, e.2]) es) <;> rfl

/-- The maximal run of matching escapes at the start of a well-formed string. -/
theorem PctWF.split {u : PStr} (h : PctWF u) : ∃ es rest, u = escs es ++ rest ∧ (∀ e ∈ es, pctMatches e.1 e.2 = true) ∧ PctWF rest ∧
    pctRun rest = [] := by
  induction h with
  | nil => exact ⟨[], [], rfl, by simp, .nil, rfl⟩
  | @ch c s hc hs ih => exact ⟨[], c :: s, rfl, by simp, .ch hc hs, pctRun_ch hc s⟩
  | @esc a b s ha hb hs ih =>
    cases hm : pctMatches a b with
    | true =>
      obtain ⟨es, rest, e, h1, h2, h3⟩ := ih
      refine ⟨(a, b) :: es, rest, by rw [e]; rfl, ?_, h2, h3⟩
      intro e' he'
      rcases List.mem_cons.1 he' with rfl | he'
      · exact hm
      · exact h1 e' he'
    | false => exact ⟨[], _, rfl, by simp, .esc ha hb hs, pctRun_keep hm s⟩

/-! ### Normal forms -/

/-- Tokens of a normalized IRI: a character, an escape that normalization does not touch, or an escaped reserved character. -/
inductive NTok
  | ch (c : Nat)
  | keep (a b : Nat)
  | res (r : Nat)

def NTok.OK : NTok → Prop
  | .ch c => c ≠ 37
  | .keep a b => isHex a = true ∧ isHex b = true ∧ pctMatches a b = false
  | .res r => reservedInIri.contains r = true

def NTok.render : NTok → PStr
  | .ch c => [c]
  | .keep a b => [37, a, b]
  | .res r => pctByte r

/-- A normalized IRI. -/
def NF (w : PStr) : Prop := ∃ ts : List NTok, (∀ t ∈ ts, t.OK) ∧ w = ts.flatMap NTok.render

theorem NF.append {u v : PStr} (hu : NF u) (hv : NF v) : NF (u ++ v) := by
  obtain ⟨a, ha, rfl⟩ := hu
  obtain ⟨b, hb, rfl⟩ := hv
  exact ⟨a ++ b, fun t ht => (List.mem_append.1 ht).elim (ha t) (hb t), by simp⟩

theorem NF.nil : NF [] := ⟨[], by simp, rfl⟩
theorem NF.tok {t : NTok} (h : t.OK) : NF t.render := ⟨[t], by simpa using h, by simp⟩

theorem NF.reEnc (u : PStr) : NF (u.flatMap reEnc) := by
  induction u with
  | nil => exact NF.nil
  | cons c cs ih =>
    rw [List.flatMap_cons]
    refine NF.append ?_ ih
    unfold Verif.reEnc
    by_cases h : reservedInIri.contains c = true
    · rw [if_pos h]; exact NF.tok (t := .res c) h
    · rw [if_neg h]; exact NF.tok (t := .ch c) (by intro e; subst e; exact h (by decide))

/-- Normalization of a well-formed string, when it succeeds, gives a normal form. -/
theorem normalize_NF {u w : PStr} (h : PctWF u) (hw : normalizeIri u = .ok w) : NF w := by
  induction hn : u.length using Nat.strongRecOn generalizing u w with
  | _ n ih =>
    obtain ⟨es, rest, rfl, he, hr, hrun⟩ := h.split
    rw [normalize_run es he rest hrun] at hw
    split at hw
    · cases hw
    · next v hv =>
      have hdec : NF v := by
        obtain ⟨u, _, rfl⟩ := percentDecode_inv hv
        exact NF.reEnc _
      have hrest : ∀ w', normalizeIri rest = .ok w' → NF w' := by
        intro w' hw'
        have hlen : rest.length ≤ n := by rw [← hn, List.length_append]; omega
        cases hr with
        | nil => cases hw'; exact NF.nil
        | @ch c s hc hs =>
          rw [normalize_ch hc] at hw'
          cases h' : normalizeIri s with
          | error e => rw [h'] at hw'; cases hw'
          | ok v' =>
            rw [h'] at hw'; cases hw'
            have := ih s.length (by simp at hlen; omega) hs h' rfl
            exact NF.append (u := [c]) (NF.tok (t := .ch c) hc) this
        | @esc a b s ha hb hs =>
          cases hm : pctMatches a b with
          | true => rw [pctRun, if_pos hm] at hrun; cases hrun
          | false =>
            rw [normalize_keep ha hb hm] at hw'
            cases h' : normalizeIri s with
            | error e => rw [h'] at hw'; cases hw'
            | ok v' =>
              rw [h'] at hw'; cases hw'
              have := ih s.length (by simp at hlen; omega) hs h' rfl
              exact NF.append (u := [37, a, b]) (NF.tok (t := .keep a b) ⟨ha, hb, hm⟩) this
      cases h' : normalizeIri rest with
      | error e => rw [h'] at hw; cases hw
      | ok v' => rw [h'] at hw; cases hw; exact NF.append hdec (hrest _ h')

end Verif
