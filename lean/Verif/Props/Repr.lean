import Verif.Model.Repr
import Verif.Props.WriteFail
/-! C150: what `repr` shows of terms and statements. -/
namespace Verif

/-! ### Strings -/

theorem hexLower_inj {a b : Nat} (ha : a < 16) (hb : b < 16) (h : hexLower a = hexLower b) : a = b := by
  unfold hexLower at h
  split at h <;> split at h <;> omega

theorem hexFixed_length (n c : Nat) : (hexFixed n c).length = n := by
  induction n generalizing c with
  | zero => rfl
  | succ n ih => simp [hexFixed, ih]

theorem hexFixed_cancel {n a b : Nat} (ha : a < 16 ^ n) (hb : b < 16 ^ n) {x y : PStr} (h : hexFixed n a ++ x = hexFixed n b ++ y) : a = b ∧ x = y := by
  have hl := List.append_inj h (by rw [hexFixed_length, hexFixed_length])
  refine ⟨?_, hl.2⟩
  have e := hl.1
  clear h hl
  induction n generalizing a b with
  | zero => simp at ha hb; omega
  | succ n ih =>
    rw [hexFixed, hexFixed] at e
    have k := List.append_inj e (by rw [hexFixed_length, hexFixed_length])
    have k1 := ih (by rw [Nat.pow_succ] at ha; omega) (by rw [Nat.pow_succ] at hb; omega) k.1
    have k2 := hexLower_inj (Nat.mod_lt _ (by omega)) (Nat.mod_lt _ (by omega)) (List.cons.inj k.2).1
    omega

/-- The escapes: the letter after the backslash and the number of digits after it. -/
def ReprEsc (q c tag n : Nat) : Prop :=
  (tag = c ∧ (c = q ∨ c = 92) ∧ n = 0) ∨ (tag = 116 ∧ c = 9 ∧ n = 0) ∨ (tag = 110 ∧ c = 10 ∧ n = 0) ∨ (tag = 114 ∧ c = 13 ∧ n = 0) ∨
  (tag = 120 ∧ n = 2 ∧ c < 16 ^ 2) ∨ (tag = 117 ∧ n = 4 ∧ c < 16 ^ 4) ∨ (tag = 85 ∧ n = 8 ∧ c < 16 ^ 8)

theorem reprChar_shape (pr : Nat → Bool) (q : Nat) {c : Nat} (hc : c < 0x110000) :
    (c ≠ 92 ∧ c ≠ q ∧ reprChar pr q c = [c]) ∨ ∃ tag n, ReprEsc q c tag n ∧ reprChar pr q c = 92 :: tag :: hexFixed n c := by
  unfold reprChar ReprEsc
  by_cases h1 : c = q ∨ c = 92
  · rw [if_pos h1]; exact .inr ⟨c, 0, .inl ⟨rfl, h1, rfl⟩, rfl⟩
  rw [if_neg h1]
  by_cases h2 : c = 9
  · rw [if_pos h2]; exact .inr ⟨116, 0, .inr (.inl ⟨rfl, h2, rfl⟩), rfl⟩
  rw [if_neg h2]
  by_cases h3 : c = 10
  · rw [if_pos h3]; exact .inr ⟨110, 0, .inr (.inr (.inl ⟨rfl, h3, rfl⟩)), rfl⟩
  rw [if_neg h3]
  by_cases h4 : c = 13
  · rw [if_pos h4]; exact .inr ⟨114, 0, .inr (.inr (.inr (.inl ⟨rfl, h4, rfl⟩))), rfl⟩
  rw [if_neg h4]
  split
  · exact .inl ⟨fun e => h1 (.inr e), fun e => h1 (.inl e), rfl⟩
  split
  · next h => exact .inr ⟨120, 2, .inr (.inr (.inr (.inr (.inl ⟨rfl, rfl, h⟩)))), rfl⟩
  split
  · next h => exact .inr ⟨117, 4, .inr (.inr (.inr (.inr (.inr (.inl ⟨rfl, rfl, h⟩))))), rfl⟩
  · exact .inr ⟨85, 8, .inr (.inr (.inr (.inr (.inr (.inr ⟨rfl, rfl, by omega⟩))))), rfl⟩

/-- Different characters are shown differently, and where a character ends is seen. -/
theorem reprChar_cancel {pr : Nat → Bool} {q c d : Nat} (hq : q = 39 ∨ q = 34) (hc : c < 0x110000) (hd : d < 0x110000) {x y : PStr}
    (h : reprChar pr q c ++ x = reprChar pr q d ++ y) : c = d ∧ x = y := by
  have key : c = d := by
    rcases reprChar_shape pr q hc with ⟨c1, c2, c3⟩ | ⟨t, n, c1, c2⟩ <;> rcases reprChar_shape pr q hd with ⟨d1, d2, d3⟩ | ⟨t', n', d1, d2⟩
    · rw [c3, d3] at h; exact (List.cons.inj h).1
    · rw [c3, d2] at h; exact absurd (List.cons.inj h).1 c1
    · rw [c2, d3] at h; exact absurd (List.cons.inj h).1.symm d1
    · rw [c2, d2] at h
      have h1 := (List.cons.inj (List.cons.inj h).2)
      have : c = d ∨ (n = n' ∧ c < 16 ^ n ∧ d < 16 ^ n) := by
        have e := h1.1
        unfold ReprEsc at c1 d1
        rcases c1 with c1 | c1 | c1 | c1 | c1 | c1 | c1 <;> rcases d1 with d1 | d1 | d1 | d1 | d1 | d1 | d1 <;>
          first
          | (left; omega)
          | (right; obtain ⟨-, rfl, c3⟩ := c1; obtain ⟨-, rfl, d3⟩ := d1; exact ⟨rfl, c3, d3⟩)
      rcases this with e | ⟨rfl, k1, k2⟩
      · exact e
      · exact (hexFixed_cancel k1 k2 h1.2).1
  subst key
  exact ⟨rfl, List.append_cancel_left h⟩

theorem reprChar_head {pr : Nat → Bool} {q c : Nat} (hq : q = 39 ∨ q = 34) (hc : c < 0x110000) : ∃ a r, reprChar pr q c = a :: r ∧ a ≠ q := by
  rcases reprChar_shape pr q hc with ⟨_, h2, h3⟩ | ⟨t, n, _, h2⟩
  · exact ⟨c, [], h3, h2⟩
  · exact ⟨92, _, h2, by omega⟩

theorem body_cancel {pr : Nat → Bool} {q : Nat} (hq : q = 39 ∨ q = 34) {s t : PStr} (hs : s.Valid) (ht : t.Valid) {x y : PStr}
    (h : s.flatMap (reprChar pr q) ++ q :: x = t.flatMap (reprChar pr q) ++ q :: y) : s = t ∧ x = y := by
  induction s generalizing t with
  | nil =>
    cases t with
    | nil => exact ⟨rfl, (List.cons.inj h).2⟩
    | cons d t =>
      obtain ⟨a, r, e, hn⟩ := reprChar_head (pr := pr) hq (ht d (by simp))
      rw [List.flatMap_cons, e] at h
      exact absurd (List.cons.inj h).1.symm hn
  | cons c s ih =>
    cases t with
    | nil =>
      obtain ⟨a, r, e, hn⟩ := reprChar_head (pr := pr) hq (hs c (by simp))
      rw [List.flatMap_cons, e] at h
      exact absurd (List.cons.inj h).1 hn
    | cons d t =>
      rw [List.flatMap_cons, List.flatMap_cons, List.append_assoc, List.append_assoc] at h
      obtain ⟨rfl, h'⟩ := reprChar_cancel hq (hs c (by simp)) (ht d (by simp)) h
      obtain ⟨rfl, h2⟩ := ih (fun x hx => hs x (by simp [hx])) (fun x hx => ht x (by simp [hx])) h'
      exact ⟨rfl, h2⟩

/-- **Strings**: `repr` shows different strings differently, and where a string ends is seen. -/
theorem C150_string {pr : Nat → Bool} {s t : PStr} (hs : s.Valid) (ht : t.Valid) {x y : PStr} (h : strRepr pr s ++ x = strRepr pr t ++ y) : s = t ∧ x = y := by
  have hq : ∀ u : PStr, reprQuote u = 39 ∨ reprQuote u = 34 := by intro u; unfold reprQuote; split <;> simp
  unfold strRepr at h
  simp only [List.cons_append, List.nil_append, List.append_assoc, List.cons.injEq] at h
  rw [← h.1] at h
  exact body_cancel (hq s) hs ht h.2

/-! ### Terms -/

/-- The strings in a term are strings. -/
def Term.ValidStr : Term → Prop
  | .named i => PStr.Valid i
  | .lit v l d => PStr.Valid v ∧ (∀ x, l = some x → PStr.Valid x) ∧ ∀ x, d = some x → PStr.Valid x
  | .gen _ => False
  | _ => True

/-- Specification: when two terms are shown alike. Blank nodes always are, IRIs if they are written alike in N-Triples (C24), literals if they differ in the datatype
    at most, and that is shown alike. -/
inductive Alike : Term → Term → Prop
  | none : Alike .none .none
  | bnode (i j) : Alike (.bnode i) (.bnode j)
  | named {i j} : iriToNT i = iriToNT j → Alike (.named i) (.named j)
  | plain (v l) : Alike (.lit v l Option.none) (.lit v l Option.none)
  | typed (v l) {d d'} : iriToNT d = iriToNT d' → Alike (.lit v l (some d)) (.lit v l (some d'))

theorem cancel_at {c : Nat} {u v x y : PStr} (hu : c ∉ u) (hv : c ∉ v) (h : u ++ c :: x = v ++ c :: y) : u = v ∧ x = y := by
  induction u generalizing v with
  | nil =>
    cases v with
    | nil => exact ⟨rfl, (List.cons.inj h).2⟩
    | cons a v => exact absurd ((List.cons.inj h).1 ▸ List.mem_cons_self) hv
  | cons a u ih =>
    cases v with
    | nil => exact absurd ((List.cons.inj h).1.symm ▸ List.mem_cons_self) hu
    | cons b v =>
      obtain ⟨rfl, h'⟩ := List.cons.inj h
      obtain ⟨rfl, h2⟩ := ih (fun k => hu (by simp [k])) (fun k => hv (by simp [k])) h'
      exact ⟨rfl, h2⟩

theorem scalar_of_written {i t : PStr} (hv : i.Valid) (h : iriToNT i = .ok t) : ∀ c ∈ i, scalarValue c := by
  intro c hc
  refine ⟨hv c hc, fun hs => ?_⟩
  obtain ⟨e, he⟩ := (iriToNT_raises hv).2 ⟨c, hc, hs.1, hs.2⟩
  rw [h] at he
  cases he

theorem namedRepr_cancel {i j a b : PStr} (hi : i.Valid) (hj : j.Valid) (ha : namedRepr i = .ok a) (hb : namedRepr j = .ok b) {x y : PStr} (h : a ++ x = b ++ y) :
    iriToNT i = iriToNT j ∧ x = y := by
  unfold namedRepr at ha hb
  cases h1 : iriToNT i with
  | error e => rw [h1] at ha; cases ha
  | ok u =>
    cases h2 : iriToNT j with
    | error e => rw [h2] at hb; cases hb
    | ok v =>
      rw [h1] at ha
      rw [h2] at hb
      cases ha
      cases hb
      have si := scalar_of_written hi h1
      have sj := scalar_of_written hj h2
      rw [iriToNT_eq i si] at h1
      rw [iriToNT_eq j sj] at h2
      cases h1
      cases h2
      have no : ∀ s : PStr, (∀ c ∈ s, scalarValue c) → 62 ∉ s.flatMap quote1 := by
        intro s hs hm
        have := quoted_keeps s hs 62 hm
        revert this; decide
      simp only [List.cons_append, List.nil_append, List.append_assoc, List.cons.injEq, true_and] at h
      obtain ⟨h3, h4⟩ := cancel_at (no i si) (no j sj) h
      rw [h3]
      exact ⟨rfl, (List.cons.inj h4).2⟩

theorem optRepr_cancel {pr : Nat → Bool} {l m : Option PStr} (hl : ∀ x, l = some x → PStr.Valid x) (hm : ∀ x, m = some x → PStr.Valid x) {x y : PStr}
    (h : optRepr pr l ++ x = optRepr pr m ++ y) : l = m ∧ x = y := by
  have hq : ∀ u : PStr, reprQuote u = 39 ∨ reprQuote u = 34 := by intro u; unfold reprQuote; split <;> simp
  cases l with
  | none =>
    cases m with
    | none => exact ⟨rfl, List.append_cancel_left h⟩
    | some m =>
      have := (List.cons.inj h).1
      rcases hq m with e | e <;> rw [e] at this <;> cases this
  | some l =>
    cases m with
    | none =>
      have := (List.cons.inj h).1
      rcases hq l with e | e <;> rw [e] at this <;> cases this
    | some m =>
      obtain ⟨h1, h2⟩ := C150_string (hl l rfl) (hm m rfl) h
      exact ⟨by rw [h1], h2⟩

theorem namedRepr_head {i a : PStr} (h : namedRepr i = .ok a) : ∃ r, a = 78 :: 97 :: r := by
  unfold namedRepr at h
  cases h1 : iriToNT i with
  | error e => rw [h1] at h; cases h
  | ok u => rw [h1] at h; cases h; exact ⟨_, rfl⟩

theorem litRepr {pr : Nat → Bool} {v : PStr} {l d : Option PStr} {a : PStr} (h : (Term.lit v l d).repr pr = .ok a) :
    ∃ r, a = py! "Literal(value=" ++ (strRepr pr v ++ (py! ", language=" ++ (optRepr pr l ++ (py! ", datatype=" ++ (r ++ [41]))))) ∧
      ((d = none ∧ r = py! "None") ∨ ∃ x, d = some x ∧ namedRepr x = .ok r) := by
  cases d with
  | none => cases h; exact ⟨py! "None", by simp, .inl ⟨rfl, rfl⟩⟩
  | some d =>
    unfold Term.repr at h
    dsimp only at h
    cases hd : namedRepr d with
    | error e => rw [hd] at h; cases h
    | ok r => rw [hd] at h; cases h; exact ⟨r, by simp, .inr ⟨d, rfl, hd⟩⟩

/-- Where a term ends is seen, and what is shown equal is alike. -/
theorem repr_cancel {pr : Nat → Bool} {t u : Term} (ht : t.ValidStr) (hu : u.ValidStr) {a b : PStr} (ha : t.repr pr = .ok a) (hb : u.repr pr = .ok b) {x y : PStr}
    (h : a ++ x = b ++ y) : Alike t u ∧ x = y := by
  have first : ∀ {t : Term} {a : PStr}, t.ValidStr → t.repr pr = .ok a →
      (t = .none ∧ a = py! "None") ∨ (∃ i r, t = .named i ∧ a = 78 :: 97 :: r) ∨ (∃ i, t = .bnode i ∧ a = py! "BlankNode()") ∨ ∃ v l d r, t = .lit v l d ∧ a = 76 :: r := by
    intro t a ht ha
    cases t with
    | none => cases ha; exact .inl ⟨rfl, rfl⟩
    | named i => obtain ⟨r, e⟩ := namedRepr_head ha; exact .inr (.inl ⟨i, r, rfl, e⟩)
    | bnode i => cases ha; exact .inr (.inr (.inl ⟨i, rfl, rfl⟩))
    | lit v l d => obtain ⟨r, e, _⟩ := litRepr ha; exact .inr (.inr (.inr ⟨v, l, d, _, rfl, e⟩))
    | gen k => exact ht.elim
  rcases first ht ha with ⟨rfl, e1⟩ | ⟨i, r, rfl, e1⟩ | ⟨i, rfl, e1⟩ | ⟨v, l, d, r, rfl, e1⟩ <;>
    rcases first hu hb with ⟨rfl, e2⟩ | ⟨j, r', rfl, e2⟩ | ⟨j, rfl, e2⟩ | ⟨v', l', d', r', rfl, e2⟩
  · rw [e1, e2] at h; exact ⟨.none, List.append_cancel_left h⟩
  · rw [e1, e2] at h; simp at h
  · rw [e1, e2] at h; simp at h
  · rw [e1, e2] at h; simp at h
  · rw [e1, e2] at h; simp at h
  · obtain ⟨h1, h2⟩ := namedRepr_cancel ht hu ha hb h
    exact ⟨.named h1, h2⟩
  · rw [e1, e2] at h; simp at h
  · rw [e1, e2] at h; simp at h
  · rw [e1, e2] at h; simp at h
  · rw [e1, e2] at h; simp at h
  · rw [e1, e2] at h; exact ⟨.bnode i j, List.append_cancel_left h⟩
  · rw [e1, e2] at h; simp at h
  · rw [e1, e2] at h; simp at h
  · rw [e1, e2] at h; simp at h
  · rw [e1, e2] at h; simp at h
  · obtain ⟨r1, k1, k2⟩ := litRepr ha
    obtain ⟨r2, m1, m2⟩ := litRepr hb
    rw [k1, m1] at h
    simp only [List.append_assoc] at h
    obtain ⟨rfl, h1⟩ := C150_string ht.1 hu.1 (List.append_cancel_left h)
    clear h k1 m1
    obtain ⟨rfl, h2⟩ := optRepr_cancel ht.2.1 hu.2.1 (List.append_cancel_left h1)
    have h := List.append_cancel_left h2
    clear h1 h2
    rcases k2 with ⟨rfl, rfl⟩ | ⟨w, rfl, kw⟩ <;> rcases m2 with ⟨rfl, rfl⟩ | ⟨w', rfl, mw⟩
    · exact ⟨.plain v l, (List.cons.inj (List.append_cancel_left h)).2⟩
    · obtain ⟨z, rfl⟩ := namedRepr_head mw; simp at h
    · obtain ⟨z, rfl⟩ := namedRepr_head kw; simp at h
    · obtain ⟨h1, h2⟩ := namedRepr_cancel (ht.2.2 w rfl) (hu.2.2 w' rfl) kw mw h
      exact ⟨.typed v l h1, (List.cons.inj h2).2⟩

theorem Alike.repr {t u : Term} (h : Alike t u) (pr : Nat → Bool) : t.repr pr = u.repr pr := by
  cases h with
  | none => rfl
  | bnode => rfl
  | named h => show namedRepr _ = namedRepr _; unfold namedRepr; rw [h]
  | plain => rfl
  | typed v l h => unfold Term.repr; simp only [namedRepr, h]

/-- When the `repr` of a term raises: an IRI or a datatype has a surrogate (the datatype also if there is a language). -/
theorem C150_raises (pr : Nat → Bool) {t : Term} (ht : t.ValidStr) :
    (∃ e, t.repr pr = .error e) ↔ ∃ i, (t = .named i ∨ ∃ v l, t = .lit v l (some i)) ∧ ∃ c ∈ i, 0xD800 ≤ c ∧ c ≤ 0xDFFF := by
  have nm : ∀ {i : PStr}, PStr.Valid i → ((∃ e, namedRepr i = .error e) ↔ ∃ c ∈ i, 0xD800 ≤ c ∧ c ≤ 0xDFFF) := by
    intro i hi
    rw [← iriToNT_raises hi]
    unfold namedRepr
    cases iriToNT i <;> simp [Except.map]
  cases t with
  | none => simp [Term.repr]
  | bnode i => simp [Term.repr]
  | gen k => exact ht.elim
  | named i =>
    refine (nm ht).trans ⟨fun h => ⟨i, .inl rfl, h⟩, ?_⟩
    rintro ⟨j, h | ⟨_, _, h⟩, h'⟩ <;> cases h
    exact h'
  | lit v l d =>
    cases d with
    | none => simp [Term.repr]
    | some d =>
      have : (∃ e, (Term.lit v l (some d)).repr pr = .error e) ↔ ∃ e, namedRepr d = .error e := by
        unfold Term.repr
        dsimp only
        cases namedRepr d <;> simp [Except.map]
      rw [this]
      refine (nm (ht.2.2 d rfl)).trans ⟨fun h => ⟨d, .inr ⟨v, l, rfl⟩, h⟩, ?_⟩
      rintro ⟨j, h | ⟨_, _, h⟩, h'⟩ <;> cases h
      exact h'

/-! ### Statements -/

def Stmt.ValidStr (t : Stmt) : Prop := t.s.ValidStr ∧ t.p.ValidStr ∧ t.o.ValidStr ∧ ∀ g, t.g = some g → g.ValidStr

/-- **C150 (full statement)**: `repr` shows every statement, and different ones differently. -/
def C150_statement : Prop := ∀ (pr : Nat → Bool) (t u : Stmt), t.ValidStr → u.ValidStr → (∃ r, t.repr pr = .ok r) ∧ (t.repr pr = u.repr pr → t = u)

/-- What the `repr` of a statement consists of. -/
theorem stmtRepr {pr : Nat → Bool} {t : Stmt} {r : PStr} (h : t.repr pr = .ok r) :
    ∃ s p o, t.s.repr pr = .ok s ∧ t.p.repr pr = .ok p ∧ t.o.repr pr = .ok o ∧
      ((t.g = none ∧ r = py! "Triple(subject=" ++ (s ++ (py! ", predicate=" ++ (p ++ (py! ", object=" ++ (o ++ [41])))))) ∨
       ∃ g g', t.g = some g ∧ g.repr pr = .ok g' ∧
        r = py! "Quad(subject=" ++ (s ++ (py! ", predicate=" ++ (p ++ (py! ", object=" ++ (o ++ (py! ", graph=" ++ (g' ++ [41])))))))) := by
  unfold Stmt.repr at h
  cases hs : t.s.repr pr with
  | error e => rw [hs] at h; cases h
  | ok s =>
    cases hp : t.p.repr pr with
    | error e => rw [hs, hp] at h; cases h
    | ok p =>
      cases ho : t.o.repr pr with
      | error e => rw [hs, hp, ho] at h; cases h
      | ok o =>
        rw [hs, hp, ho] at h
        refine ⟨s, p, o, rfl, rfl, rfl, ?_⟩
        cases hg : t.g with
        | none =>
          simp only [hg, bind, Except.bind] at h
          cases h
          exact .inl ⟨rfl, by simp⟩
        | some g =>
          simp only [hg, bind, Except.bind] at h
          cases hg' : g.repr pr with
          | error e => rw [hg'] at h; cases h
          | ok g' => rw [hg'] at h; cases h; exact .inr ⟨g, g', rfl, hg', by simp⟩

/-- Specification: two statements are shown alike. -/
def StmtAlike (t u : Stmt) : Prop := Alike t.s u.s ∧ Alike t.p u.p ∧ Alike t.o u.o ∧
  ((t.g = none ∧ u.g = none) ∨ ∃ g g', t.g = some g ∧ u.g = some g' ∧ Alike g g')

/-- **Exactly when two statements are shown alike**: if both are triples or both quads and their terms are alike. -/
theorem C150_exact {pr : Nat → Bool} {t u : Stmt} (ht : t.ValidStr) (hu : u.ValidStr) {r : PStr} (hr : t.repr pr = .ok r) : u.repr pr = .ok r ↔ StmtAlike t u := by
  constructor
  · intro hr'
    obtain ⟨s, p, o, hs, hp, ho, h⟩ := stmtRepr hr
    obtain ⟨s', p', o', hs', hp', ho', h'⟩ := stmtRepr hr'
    have three : ∀ {x y : PStr}, s ++ (py! ", predicate=" ++ (p ++ (py! ", object=" ++ (o ++ x)))) = s' ++ (py! ", predicate=" ++ (p' ++ (py! ", object=" ++ (o' ++ y)))) →
        Alike t.s u.s ∧ Alike t.p u.p ∧ Alike t.o u.o ∧ x = y := by
      intro x y e
      obtain ⟨a1, e⟩ := repr_cancel ht.1 hu.1 hs hs' e
      obtain ⟨a2, e⟩ := repr_cancel ht.2.1 hu.2.1 hp hp' (List.append_cancel_left e)
      obtain ⟨a3, e⟩ := repr_cancel ht.2.2.1 hu.2.2.1 ho ho' (List.append_cancel_left e)
      exact ⟨a1, a2, a3, e⟩
    rcases h with ⟨g1, e⟩ | ⟨g1, r1, k1, k2, e⟩ <;> rcases h' with ⟨g2, e'⟩ | ⟨g2, r2, m1, m2, e'⟩
    · rw [e] at e'
      obtain ⟨a1, a2, a3, _⟩ := three (List.append_cancel_left e')
      exact ⟨a1, a2, a3, .inl ⟨g1, g2⟩⟩
    · rw [e] at e'; simp at e'
    · rw [e] at e'; simp at e'
    · rw [e] at e'
      obtain ⟨a1, a2, a3, e'⟩ := three (List.append_cancel_left e')
      obtain ⟨a4, _⟩ := repr_cancel (ht.2.2.2 g1 k1) (hu.2.2.2 g2 m1) k2 m2 (List.append_cancel_left e')
      exact ⟨a1, a2, a3, .inr ⟨g1, g2, k1, m1, a4⟩⟩
  · rintro ⟨a1, a2, a3, h⟩
    rw [← hr]
    unfold Stmt.repr
    rw [a1.repr pr, a2.repr pr, a3.repr pr]
    rcases h with ⟨h1, h2⟩ | ⟨g, g', h1, h2, a4⟩
    · rw [h1, h2]
    · rw [h1, h2]; simp only [a4.repr pr]

/-- Two blank nodes are shown alike. -/
theorem C150_refuted : ¬ C150_statement := by
  intro h
  have := (h (fun _ => true) (mkTriple (.bnode 0) (.named []) .none) (mkTriple (.bnode 1) (.named []) .none) ⟨trivial, by simp [mkTriple, Term.ValidStr, PStr.Valid], trivial, by simp [mkTriple]⟩
    ⟨trivial, by simp [mkTriple, Term.ValidStr, PStr.Valid], trivial, by simp [mkTriple]⟩).2 rfl
  simp [mkTriple] at this

/-- Specification: the IRIs are sequences of Unicode scalar values without percent signs, and there are no blank nodes. -/
def Term.Clear : Term → Prop
  | .none => True
  | .named i => ∀ c ∈ i, scalarValue c ∧ c ≠ 37
  | .lit v l d => PStr.Valid v ∧ (∀ x, l = some x → PStr.Valid x) ∧ ∀ x, d = some x → ∀ c ∈ x, scalarValue c ∧ c ≠ 37
  | _ => False

theorem Term.Clear.valid {t : Term} (h : t.Clear) : t.ValidStr := by
  cases t with
  | none => trivial
  | named i => exact fun c hc => (h c hc).1.1
  | lit v l d => exact ⟨h.1, h.2.1, fun x hx c hc => (h.2.2 x hx c hc).1.1⟩
  | bnode i => exact trivial
  | gen k => exact h

theorem Alike.eq {t u : Term} (h : Alike t u) (ht : t.Clear) (hu : u.Clear) : t = u := by
  have key : ∀ {i j : PStr}, (∀ c ∈ i, scalarValue c ∧ c ≠ 37) → (∀ c ∈ j, scalarValue c ∧ c ≠ 37) → iriToNT i = iriToNT j → i = j := fun h1 h2 e =>
    C24_injective_no_percent_partial _ _ (fun c hc => (h1 c hc).1) (fun c hc => (h2 c hc).1) (fun h => (h1 37 h).2 rfl) (fun h => (h2 37 h).2 rfl) e
  cases h with
  | none => rfl
  | bnode => exact ht.elim
  | named h => rw [key ht hu h]
  | plain => rfl
  | typed v l h => rw [key (ht.2.2 _ rfl) (hu.2.2 _ rfl) h]

theorem Term.Clear.shown {t : Term} (h : t.Clear) (pr : Nat → Bool) : ∃ r, t.repr pr = .ok r := by
  cases e : t.repr pr with
  | ok r => exact ⟨r, rfl⟩
  | error x =>
    obtain ⟨i, hi, c, hc, h1, h2⟩ := (C150_raises pr h.valid).1 ⟨x, e⟩
    rcases hi with rfl | ⟨v, l, rfl⟩
    · exact absurd ⟨h1, h2⟩ (h c hc).1.2
    · exact absurd ⟨h1, h2⟩ (h.2.2 i rfl c hc).1.2

/-- **C150, proved part**: statements without blank nodes whose IRIs have no surrogates and percent signs. What is missing: those others, which are shown alike
    exactly as `C150_exact` says, or not at all (`C150_raises`). -/
theorem C150_partial (pr : Nat → Bool) {t u : Stmt} (ht : t.s.Clear ∧ t.p.Clear ∧ t.o.Clear ∧ ∀ g, t.g = some g → g.Clear)
    (hu : u.s.Clear ∧ u.p.Clear ∧ u.o.Clear ∧ ∀ g, u.g = some g → g.Clear) : (∃ r, t.repr pr = .ok r) ∧ (t.repr pr = u.repr pr → t = u) := by
  have ok : ∃ r, t.repr pr = .ok r := by
    obtain ⟨s, hs⟩ := ht.1.shown pr
    obtain ⟨p, hp⟩ := ht.2.1.shown pr
    obtain ⟨o, ho⟩ := ht.2.2.1.shown pr
    unfold Stmt.repr
    rw [hs, hp, ho]
    cases hg : t.g with
    | none => exact ⟨_, rfl⟩
    | some g =>
      obtain ⟨g', hg'⟩ := (ht.2.2.2 g hg).shown pr
      simp only [bind, Except.bind, hg']
      exact ⟨_, rfl⟩
  refine ⟨ok, fun e => ?_⟩
  obtain ⟨r, hr⟩ := ok
  obtain ⟨a1, a2, a3, h⟩ := (C150_exact ⟨ht.1.valid, ht.2.1.valid, ht.2.2.1.valid, fun g hg => (ht.2.2.2 g hg).valid⟩
    ⟨hu.1.valid, hu.2.1.valid, hu.2.2.1.valid, fun g hg => (hu.2.2.2 g hg).valid⟩ hr).1 (e ▸ hr)
  have e1 := a1.eq ht.1 hu.1
  have e2 := a2.eq ht.2.1 hu.2.1
  have e3 := a3.eq ht.2.2.1 hu.2.2.1
  obtain ⟨s, p, o, g⟩ := t
  obtain ⟨s', p', o', g'⟩ := u
  dsimp only at e1 e2 e3 h
  subst e1 e2 e3
  rcases h with ⟨rfl, rfl⟩ | ⟨x, x', rfl, rfl, a4⟩
  · rfl
  · rw [a4.eq (ht.2.2.2 x rfl) (hu.2.2.2 x' rfl)]

/-- A statement of the proved part, as it is shown. -/
example : (mkTriple (.named (py! "http://a/b")) (.named (py! "p")) (.lit (py! "it's") (some (py! "en")) Option.none)).repr (fun _ => true) =
    .ok (py! "Triple(subject=NamedNode(<http://a/b>), predicate=NamedNode(<p>), object=Literal(value=\"it's\", language='en', datatype=None))") := by decide
example : (Term.named (py! "http://a/b")).Clear ∧ (Term.lit (py! "it's") (some (py! "en")) Option.none).Clear := by
  refine ⟨?_, ?_, ?_, ?_⟩
  · unfold Term.Clear scalarValue; decide
  · unfold PStr.Valid; decide
  · intro x hx; cases hx; unfold PStr.Valid; decide
  · intro x hx; cases hx
/-- A language does not keep the datatype from being shown, though it does in N-Triples. -/
example : (Term.lit (py! "x") (some (py! "en")) (some [0xD800])).repr (fun _ => true) = .error .unicodeEncodeError := by decide

end Verif
