import Verif.Props.Iri
import Verif.Props.Profile
import Verif.Spec.Normalize
/-
C99: the operations of a Profile. C100: what normalize_iri does.
-/
namespace Verif
open Heap Spec

/-! ### C99 -/

/-- What can be seen of a profile. -/
def viewOf (h : Heap) (p : Profile) : View := ⟨(h.pmap p.prefixes).get?, (h.tmap p.terms).terms.get?, (h.tmap p.terms).default⟩

/-- The operations, as they should be. `importProfile` does not import the default vocabulary. -/
def specOp (v : View) (look : Profile → View) : Op → View
  | .setDefaultVocabulary iri => { v with vocab := some iri }
  | .setDefaultPrefix iri => { v with pre := bind1 v.pre [] iri }
  | .setTerm t iri => { v with term := bind1 v.term t iri }
  | .setPrefix k iri => { v with pre := bind1 v.pre k iri }
  | .importProfile q false => { v with pre := preferring v.pre (look q).pre, term := preferring v.term (look q).term }
  | .importProfile q true => { v with pre := preferring (look q).pre v.pre, term := preferring (look q).term v.term }

/-- Every map is a dict: one value per key. -/
def Heap.WF (h : Heap) : Prop := ∀ a, Dict.WF (h.pmap a) ∧ Dict.WF (h.tmap a).terms

theorem get?_set_fun (d : Dict PStr PStr) (k v : PStr) : (Dict.set d k v).get? = bind1 d.get? k v := by
  funext x
  rw [Dict.get?_set, bind1]
  by_cases h : k = x
  · rw [if_pos h, if_pos h.symm]
  · rw [if_neg h, if_neg fun e => h e.symm]

theorem WF.addMissing' {m : Dict PStr PStr} (h : Dict.WF m) (other : Dict PStr PStr) : Dict.WF (PrefixMap.addMissing m other) := by
  unfold PrefixMap.addMissing
  induction other generalizing m with
  | nil => exact h
  | cons a e ih =>
    rw [List.foldl_cons]
    split
    · exact ih h
    · exact ih (h.set _ _)

theorem WF.addAll' {m : Dict PStr PStr} (h : Dict.WF m) (other : Dict PStr PStr) (ov : Bool) : Dict.WF (PrefixMap.addAll m other ov) := by
  cases ov
  · exact WF.addMissing' h other
  · exact h.update other

theorem Heap.WF.exec {h : Heap} (wf : h.WF) (p : Profile) (op : Op) : (h.exec p op).WF := by
  have setP : ∀ {h : Heap}, h.WF → ∀ a m, Dict.WF m → (h.setP a m).WF := by
    intro h wf a m hm b
    refine ⟨?_, (wf b).2⟩
    show Dict.WF (if b = a then m else h.pmap b)
    split
    · exact hm
    · exact (wf b).1
  have setT : ∀ {h : Heap}, h.WF → ∀ a (m : TermMap), Dict.WF m.terms → (h.setT a m).WF := by
    intro h wf a m hm b
    refine ⟨(wf b).1, ?_⟩
    show Dict.WF (if b = a then m else h.tmap b).terms
    split
    · exact hm
    · exact (wf b).2
  cases op with
  | setDefaultVocabulary iri => exact setT wf _ _ (wf p.terms).2
  | setDefaultPrefix iri => exact setP wf _ _ ((wf p.prefixes).1.set _ _)
  | setTerm t iri => exact setT wf _ _ ((wf p.terms).2.set _ _)
  | setPrefix k iri => exact setP wf _ _ ((wf p.prefixes).1.set _ _)
  | importProfile q ov => exact setT (setP wf _ _ (WF.addAll' (wf p.prefixes).1 _ _)) _ _ (WF.addAll' (wf p.terms).2 _ _)

/-- Each operation changes the profile as it should. -/
theorem C99_operations {h : Heap} (wf : h.WF) (p : Profile) (op : Op) : viewOf (h.exec p op) p = specOp (viewOf h p) (viewOf h) op := by
  cases op with
  | setDefaultVocabulary iri => simp [viewOf, exec, setT, specOp, TermMap.setDefault]
  | setDefaultPrefix iri => simp [viewOf, exec, setP, specOp, PrefixMap.setDefault, get?_set_fun]
  | setTerm t iri => simp [viewOf, exec, setT, specOp, get?_set_fun]
  | setPrefix k iri => simp [viewOf, exec, setP, specOp, get?_set_fun]
  | importProfile q ov =>
    have h32 := fun k => C32_addAll (h.pmap p.prefixes) (h.pmap q.prefixes) (h.tmap p.terms) (h.tmap q.terms) (wf q.prefixes).1 (wf q.terms).2 k
    cases ov with
    | false =>
      simp only [viewOf, exec, setP, setT, if_true, specOp]
      rw [View.mk.injEq]
      exact ⟨funext fun k => (h32 k).1, funext fun k => (h32 k).2.2.1, rfl⟩
    | true =>
      simp only [viewOf, exec, setP, setT, if_true, specOp]
      rw [View.mk.injEq]
      exact ⟨funext fun k => (h32 k).2.1, funext fun k => (h32 k).2.2.2.1, rfl⟩

/-- An operation on one profile shows in another exactly as far as they share maps. -/
theorem C99_others (h : Heap) (p p' : Profile) (op : Op) :
    (viewOf (h.exec p op) p').pre = (if p'.prefixes = p.prefixes then (viewOf (h.exec p op) p).pre else (viewOf h p').pre) ∧
    (viewOf (h.exec p op) p').term = (if p'.terms = p.terms then (viewOf (h.exec p op) p).term else (viewOf h p').term) ∧
    (viewOf (h.exec p op) p').vocab = (if p'.terms = p.terms then (viewOf (h.exec p op) p).vocab else (viewOf h p').vocab) := by
  have h1 : ∀ a, a ≠ p.prefixes → (h.exec p op).pmap a = h.pmap a := fun a ha => exec_pmap_other h p op a (Ne.symm ha)
  have h2 : ∀ a, a ≠ p.terms → (h.exec p op).tmap a = h.tmap a := fun a ha => exec_tmap_other h p op a (Ne.symm ha)
  refine ⟨?_, ?_, ?_⟩
  · split
    · next e => simp only [viewOf, e]
    · next e => simp only [viewOf, h1 _ e]
  · split
    · next e => simp only [viewOf, e]
    · next e => simp only [viewOf, h2 _ e]
  · split
    · next e => simp only [viewOf, e]
    · next e => simp only [viewOf, h2 _ e]

/-- What `resolve` answers can be read off the view, after any history. -/
theorem C99_resolve (h : Heap) (p : Profile) (term : PStr) (ht : 58 ∉ term) :
    h.resolve p term = .ok (((viewOf h p).term term).or ((viewOf h p).vocab.map (· ++ term))) := by
  unfold Heap.resolve
  rw [if_neg (by simpa using ht)]
  simp only [TermMap.resolve, viewOf]
  cases (h.tmap p.terms).default with
  | none => simp
  | some d => cases Dict.get? (h.tmap p.terms).terms term <;> rfl

/-- Well-formedness is kept by histories, so `C99_operations` applies at every step. -/
theorem C99_histories (ops : List (Profile × Op)) : ∀ {h : Heap}, h.WF → (runProfiles h ops).WF := by
  induction ops with
  | nil => intro h wf; exact wf
  | cons po ops ih => intro h wf; exact ih (wf.exec po.1 po.2)

example : ({} : Heap).WF := fun _ => ⟨by simp [Dict.WF, Dict.keys], by simp [Dict.WF, Dict.keys]⟩

/-! ### C100 -/

theorem hexVal_digit {a x : Nat} (h : hexVal? a = some x) : x < 16 ∧ (a = 48 ↔ x = 0) ∧ (a = 49 ↔ x = 1) ∧ (a = 50 ↔ x = 2) := by
  unfold hexVal? at h
  split at h
  · cases h; omega
  · split at h
    · cases h; omega
    · split at h
      · cases h; omega
      · cases h

theorem pctMatches_iff (a b : Nat) : pctMatches a b = true ↔ ∃ x y, hexVal? a = some x ∧ hexVal? b = some y ∧ 0x20 < 16 * x + y := by
  unfold pctMatches isHex
  constructor
  · intro h
    simp only [Bool.and_eq_true, Option.isSome_iff_exists, Bool.not_eq_true', decide_eq_false_iff_not] at h
    obtain ⟨⟨⟨⟨x, hx⟩, y, hy⟩, h1⟩, h2⟩ := h
    have h3 := hexVal_digit hx
    have h4 := hexVal_digit hy
    exact ⟨x, y, hx, hy, by omega⟩
  · rintro ⟨x, y, hx, hy, h⟩
    have h3 := hexVal_digit hx
    have h4 := hexVal_digit hy
    simp only [hx, hy, Option.isSome_some, Bool.true_and, Bool.and_eq_true, Bool.not_eq_true', decide_eq_false_iff_not]
    omega

theorem parseHex_pair {a b x y : Nat} (ha : hexVal? a = some x) (hb : hexVal? b = some y) : parseHex [a, b] = 16 * x + y := by
  simp [parseHex, ha, hb]; omega

theorem escapes_one {e : PStr} {b : Nat} (h : Escapes e [b]) : ∃ a c x y, e = [37, a, c] ∧ hexVal? a = some x ∧ hexVal? c = some y ∧ b = 16 * x + y := by
  cases h with
  | cons h1 h2 h3 => cases h3; exact ⟨_, _, _, _, rfl, h1, h2, rfl⟩

theorem pctRun_nil_iff (s : PStr) : pctRun s = [] ↔ ¬ StartsEscaped s := by
  constructor
  · rintro h ⟨e, r, b, rfl, he, hb⟩
    obtain ⟨a, c, x, y, rfl, ha, hc, rfl⟩ := escapes_one he
    rw [List.cons_append, List.cons_append, List.cons_append, List.nil_append, pctRun, if_pos ((pctMatches_iff a c).2 ⟨x, y, ha, hc, hb⟩)] at h
    cases h
  · intro h
    unfold pctRun
    split
    · next a c rest =>
      rw [if_neg]
      intro hm
      obtain ⟨x, y, ha, hc, hb⟩ := (pctMatches_iff a c).1 hm
      exact h ⟨[37, a, c], rest, 16 * x + y, rfl, .cons ha hc .nil, hb⟩
    · rfl

theorem split_run (u : PStr) : ∃ es rest, u = escs es ++ rest ∧ (∀ e ∈ es, pctMatches e.1 e.2 = true) ∧ pctRun rest = [] := by
  induction hn : u.length using Nat.strongRecOn generalizing u with
  | _ n ih =>
    by_cases h : pctRun u = []
    · exact ⟨[], u, rfl, by simp, h⟩
    · have : ∃ a b r, u = 37 :: a :: b :: r ∧ pctMatches a b = true := by
        unfold pctRun at h
        split at h
        · next a b r =>
          split at h
          · next hm => exact ⟨a, b, r, rfl, hm⟩
          · exact absurd rfl h
        · exact absurd rfl h
      obtain ⟨a, b, r, rfl, hm⟩ := this
      obtain ⟨es, rest, e, h1, h2⟩ := ih r.length (by rw [← hn]; simp; omega) r rfl
      refine ⟨(a, b) :: es, rest, by rw [e]; rfl, ?_, h2⟩
      intro e' he'
      rcases List.mem_cons.1 he' with rfl | he'
      · exact hm
      · exact h1 e' he'

theorem escapes_escs : ∀ {es : List (Nat × Nat)}, (∀ e ∈ es, pctMatches e.1 e.2 = true) → Escapes (escs es) (escBytes es) ∧ ∀ b ∈ escBytes es, 0x20 < b
  | [], _ => ⟨.nil, by simp [escBytes]⟩
  | e :: es, h => by
    obtain ⟨h1, h2⟩ := escapes_escs fun e he => h e (List.mem_cons_of_mem _ he)
    obtain ⟨x, y, hx, hy, hb⟩ := (pctMatches_iff _ _).1 (h e (List.mem_cons_self ..))
    refine ⟨?_, ?_⟩
    · show Escapes (37 :: e.1 :: e.2 :: escs es) (parseHex [e.1, e.2] :: escBytes es)
      rw [parseHex_pair hx hy]
      exact .cons hx hy h1
    · intro b hb'
      rcases List.mem_cons.1 (show b ∈ parseHex [e.1, e.2] :: escBytes es from hb') with rfl | hb'
      · rw [parseHex_pair hx hy]; exact hb
      · exact h2 b hb'

theorem escs_of_escapes {s : PStr} {bs : List Nat} (h : Escapes s bs) (hb : ∀ b ∈ bs, 0x20 < b) :
    ∃ es, s = escs es ∧ bs = escBytes es ∧ ∀ e ∈ es, pctMatches e.1 e.2 = true := by
  induction h with
  | nil => exact ⟨[], rfl, rfl, by simp⟩
  | @cons a c x y s bs ha hc _ ih =>
    obtain ⟨es, rfl, rfl, h3⟩ := ih fun b hb' => hb b (List.mem_cons_of_mem _ hb')
    refine ⟨(a, c) :: es, rfl, ?_, ?_⟩
    · show _ = parseHex [a, c] :: escBytes es
      rw [parseHex_pair ha hc]
    · intro e he
      rcases List.mem_cons.1 he with rfl | he
      · exact (pctMatches_iff _ _).2 ⟨x, y, ha, hc, hb _ (List.mem_cons_self ..)⟩
      · exact h3 e he

theorem reEnc_eq : reEnc = keepReserved := by
  funext c
  unfold reEnc keepReserved
  have : reservedInIri.contains c = true ↔ reservedChar c := by
    simp only [reservedInIri, reservedChar, List.contains_iff_mem, List.mem_cons, List.not_mem_nil, or_false]
    omega
  by_cases h : reservedChar c
  · rw [if_pos h, if_pos (this.2 h)]; rfl
  · rw [if_neg h, if_neg fun h' => h (this.1 h')]

/-- C100: `normalize_iri` returns `w` exactly if the specification says so, for every string (stray percent signs included). -/
theorem C100_exact (u w : PStr) : normalizeIri u = .ok w ↔ NormalizesTo u w := by
  constructor
  · intro h
    induction hn : u.length using Nat.strongRecOn generalizing u w with
    | _ n ih =>
      obtain ⟨es, rest, rfl, he, hrun⟩ := split_run u
      cases es with
      | nil =>
        cases rest with
        | nil => cases h; exact .nil
        | cons c r =>
          change normalizeIri (c :: r) = _ at h
          rw [normalize_cons hrun] at h
          cases hr : normalizeIri r with
          | error e => rw [hr] at h; cases h
          | ok v =>
            rw [hr] at h; cases h
            exact .char ((pctRun_nil_iff _).1 hrun) (ih r.length (by rw [← hn]; simp [escs]) _ _ hr rfl)
      | cons e es =>
        rw [normalize_run _ he rest hrun] at h
        split at h
        · cases h
        · next v hv =>
          obtain ⟨x, hx, rfl⟩ := percentDecode_inv hv
          cases hr : normalizeIri rest with
          | error e => rw [hr] at h; cases h
          | ok w' =>
            rw [hr] at h; cases h
            obtain ⟨h1, h2⟩ := escapes_escs he
            rw [reEnc_eq]
            exact .run (by simp [escBytes]) h1 h2 ((pctRun_nil_iff _).1 hrun) hx
              (ih rest.length (by rw [← hn, List.length_append, escs_length]; simp) _ _ hr rfl)
  · intro h
    induction h with
    | nil => rfl
    | @run s bs v r w hne hs hb hr hd _ ih =>
      obtain ⟨es, rfl, rfl, he⟩ := escs_of_escapes hs hb
      rw [normalize_run es he r ((pctRun_nil_iff _).2 hr), percentDecode_eq hd, ih, reEnc_eq]
      rfl
    | @char c r w hr _ ih =>
      rw [normalize_cons ((pctRun_nil_iff _).2 hr), ih]; rfl

/-- The only failure: an escaped run that is not UTF-8. -/
theorem C100_failure (u : PStr) (e : Exc) (h : normalizeIri u = .error e) :
    e = .unicodeDecodeError ∧ ∃ a s bs r, u = a ++ s ++ r ∧ Escapes s bs ∧ (∀ b ∈ bs, 0x20 < b) ∧ ¬ StartsEscaped r ∧ utf8Decode bs = none := by
  induction hn : u.length using Nat.strongRecOn generalizing u with
  | _ n ih =>
    obtain ⟨es, rest, rfl, he, hrun⟩ := split_run u
    cases es with
    | nil =>
      cases rest with
      | nil => cases h
      | cons c r =>
        change normalizeIri (c :: r) = _ at h
        rw [normalize_cons hrun] at h
        cases hr : normalizeIri r with
        | ok v => rw [hr] at h; cases h
        | error e' =>
          rw [hr] at h; cases h
          obtain ⟨h0, a, s, bs, r', rfl, h1⟩ := ih r.length (by rw [← hn]; simp [escs]) r hr rfl
          exact ⟨h0, c :: a, s, bs, r', rfl, h1⟩
    | cons e0 es =>
      rw [normalize_run _ he rest hrun] at h
      obtain ⟨h1, h2⟩ := escapes_escs he
      split at h
      · next e' hv =>
        cases h
        cases hd : utf8Decode (escBytes (e0 :: es)) with
        | none =>
          rw [percentDecode, hd] at hv
          cases hv
          exact ⟨rfl, [], _, _, rest, rfl, h1, h2, (pctRun_nil_iff _).1 hrun, hd⟩
        | some v => rw [percentDecode_eq hd] at hv; cases hv
      · cases hr : normalizeIri rest with
        | ok v => rw [hr] at h; cases h
        | error e' =>
          rw [hr] at h; cases h
          obtain ⟨h0, a, s, bs, r', rfl, h3⟩ := ih rest.length (by rw [← hn, List.length_append, escs_length]; simp) rest hr rfl
          exact ⟨h0, escs (e0 :: es) ++ a, s, bs, r', by simp, h3⟩

example : NormalizesTo (py! "http://a/%c3%a9%2f%41%20%0a%%zz") (py! "http://a/é%2FA%20%0a%%zz") := (C100_exact _ _).1 (by decide)
example : normalizeIri (py! "%c3x") = .error .unicodeDecodeError := by decide

end Verif
