import Verif.Lemmas.NTDoc
import Verif.Props.Iri
import Verif.Spec.NTriples
/-
The recogniser on text that the writer produced, and blank node labels.
-/
namespace Verif

/-! ### Blank nodes -/

/-- The map is a one-to-one table of labels to blank nodes created since `n0`. -/
structure BState.OK (n0 : Nat) (st : BState) : Prop where
  wf : st.map.WF
  le : n0 ≤ st.next
  range : ∀ l i, st.map.get? l = some i → n0 ≤ i ∧ i < st.next
  inj : ∀ l l' i, st.map.get? l = some i → st.map.get? l' = some i → l = l'

def BState.Ext (st st' : BState) : Prop := st.next ≤ st'.next ∧ ∀ l i, st.map.get? l = some i → st'.map.get? l = some i

theorem BState.Ext.refl (st : BState) : st.Ext st := ⟨Nat.le_refl _, fun _ _ h => h⟩
theorem BState.Ext.trans {a b c : BState} (h : a.Ext b) (h' : b.Ext c) : a.Ext c := ⟨Nat.le_trans h.1 h'.1, fun l i x => h'.2 l i (h.2 l i x)⟩

/-- The node of a label in the table. -/
def BState.look (st : BState) (l : PStr) : Nat := (st.map.get? l).getD 0

theorem BState.OK.init (n : Nat) : BState.OK n { map := [], next := n } :=
  ⟨by simp [Dict.WF, Dict.keys], Nat.le_refl _, by simp, by simp⟩

theorem BState.node_spec {n0 st} (h : BState.OK n0 st) (l : PStr) :
    BState.OK n0 (st.node l).1 ∧ st.Ext (st.node l).1 ∧ (st.node l).1.map.get? l = some (st.node l).2 := by
  unfold BState.node
  cases hg : st.map.get? l with
  | some i => exact ⟨h, .refl _, hg⟩
  | none =>
    refine ⟨⟨h.wf.set _ _, Nat.le_succ_of_le h.le, ?_, ?_⟩, ⟨Nat.le_succ _, ?_⟩, ?_⟩
    · intro l' i hi
      simp only [Dict.get?_set] at hi
      split at hi
      · cases hi; exact ⟨h.le, Nat.lt_succ_self _⟩
      · exact ⟨(h.range l' i hi).1, Nat.lt_succ_of_lt (h.range l' i hi).2⟩
    · intro l1 l2 i h1 h2
      simp only [Dict.get?_set] at h1 h2
      split at h1 <;> split at h2
      · next e1 e2 => rw [← e1, ← e2]
      · cases h1; exact absurd (h.range _ _ h2).2 (Nat.lt_irrefl _)
      · cases h2; exact absurd (h.range _ _ h1).2 (Nat.lt_irrefl _)
      · exact h.inj _ _ _ h1 h2
    · intro l' i hi
      simp only [Dict.get?_set]
      split
      · next e => subst e; rw [hg] at hi; cases hi
      · exact hi
    · simp [Dict.get?_set]

/-- The label is in the table. -/
def BState.Has (st : BState) (l : PStr) : Prop := ∃ i, st.map.get? l = some i

theorem BState.Ext.has {st st' : BState} (h : st.Ext st') {l} (hl : st.Has l) : st'.Has l := by
  obtain ⟨i, hi⟩ := hl; exact ⟨i, h.2 l i hi⟩

theorem BState.Ext.look {st st' : BState} (h : st.Ext st') {l} (hl : st.Has l) : st'.look l = st.look l := by
  obtain ⟨i, hi⟩ := hl; simp [BState.look, hi, h.2 l i hi]

def RTerm.InTable (st : BState) (t : RTerm) : Prop := ∀ l, t = .label l → st.Has l

theorem RTerm.InTable.ext {st st' : BState} {t : RTerm} (h : t.InTable st) (he : st.Ext st') : t.InTable st' ∧ t.subst st'.look = t.subst st.look := by
  refine ⟨fun l hl => he.has (h l hl), ?_⟩
  cases t with
  | label l => simp only [RTerm.subst, he.look (h l rfl)]
  | iri _ => rfl
  | lit _ _ _ => rfl

theorem BState.term_spec {n0 st} (h : BState.OK n0 st) (t : RTerm) :
    BState.OK n0 (st.term t).1 ∧ st.Ext (st.term t).1 ∧ t.InTable (st.term t).1 ∧ (st.term t).2 = t.subst (st.term t).1.look := by
  cases t with
  | iri i => exact ⟨h, .refl _, by simp [RTerm.InTable], rfl⟩
  | lit v l d => exact ⟨h, .refl _, by simp [RTerm.InTable], rfl⟩
  | label l =>
    obtain ⟨a, b, c⟩ := BState.node_spec h l
    refine ⟨a, b, ?_, ?_⟩
    · intro l' e; cases e; exact ⟨_, c⟩
    · simp [BState.term, RTerm.subst, BState.look, c]

def RStmt.InTable (st : BState) (t : RStmt) : Prop := ∀ l, t.HasLabel l → st.Has l

theorem RStmt.InTable.ext {st st' : BState} {t : RStmt} (h : t.InTable st) (he : st.Ext st') : t.InTable st' ∧ t.subst st'.look = t.subst st.look := by
  refine ⟨fun l hl => he.has (h l hl), ?_⟩
  have hs : t.s.InTable st := fun l e => h l (Or.inl e)
  have hp : t.p.InTable st := fun l e => h l (Or.inr (Or.inl e))
  have ho : t.o.InTable st := fun l e => h l (Or.inr (Or.inr (Or.inl e)))
  simp only [RStmt.subst, (hs.ext he).2, (hp.ext he).2, (ho.ext he).2]
  cases hg : t.g with
  | none => rfl
  | some g =>
    have hgt : g.InTable st := fun l e => h l (Or.inr (Or.inr (Or.inr (by rw [hg, e]))))
    simp only [Option.map_some, (hgt.ext he).2]

theorem BState.stmt_spec {n0 st} (h : BState.OK n0 st) (t : RStmt) :
    BState.OK n0 (st.stmt t).1 ∧ st.Ext (st.stmt t).1 ∧ t.InTable (st.stmt t).1 ∧ (st.stmt t).2 = t.subst (st.stmt t).1.look := by
  obtain ⟨a1, a2, a3, a4⟩ := BState.term_spec h t.s
  obtain ⟨b1, b2, b3, b4⟩ := BState.term_spec a1 t.p
  obtain ⟨c1, c2, c3, c4⟩ := BState.term_spec b1 t.o
  unfold BState.stmt
  cases hg : t.g with
  | none =>
    refine ⟨c1, (a2.trans b2).trans c2, ?_, ?_⟩
    · rintro l (e | e | e | e)
      · exact c2.has (b2.has (a3 l e))
      · exact c2.has (b3 l e)
      · exact c3 l e
      · rw [hg] at e; cases e
    · simp only [RStmt.subst, mkTriple, hg, Option.map_none, a4, b4, c4]
      rw [((a3.ext b2).1.ext c2).2, (a3.ext b2).2, (b3.ext c2).2]
  | some g =>
    obtain ⟨d1, d2, d3, d4⟩ := BState.term_spec c1 g
    refine ⟨d1, ((a2.trans b2).trans c2).trans d2, ?_, ?_⟩
    · rintro l (e | e | e | e)
      · exact d2.has (c2.has (b2.has (a3 l e)))
      · exact d2.has (c2.has (b3 l e))
      · exact d2.has (c3 l e)
      · rw [hg] at e; cases e; exact d3 l rfl
    · simp only [RStmt.subst, mkQuad, hg, Option.map_some, a4, b4, c4, d4]
      rw [(((a3.ext b2).1.ext c2).1.ext d2).2, ((a3.ext b2).1.ext c2).2, (a3.ext b2).2, ((b3.ext c2).1.ext d2).2, (b3.ext c2).2, (c3.ext d2).2]

theorem BState.stmts_spec {n0 st} (h : BState.OK n0 st) (ts : List RStmt) :
    BState.OK n0 (st.stmts ts).1 ∧ st.Ext (st.stmts ts).1 ∧ (∀ t ∈ ts, t.InTable (st.stmts ts).1) ∧
      (st.stmts ts).2 = ts.map (·.subst (st.stmts ts).1.look) := by
  induction ts generalizing st with
  | nil => exact ⟨h, .refl _, by simp, rfl⟩
  | cons t ts ih =>
    obtain ⟨a1, a2, a3, a4⟩ := BState.stmt_spec h t
    obtain ⟨b1, b2, b3, b4⟩ := ih a1
    refine ⟨b1, a2.trans b2, ?_, ?_⟩
    · intro t' ht'
      rcases List.mem_cons.1 ht' with rfl | h'
      · exact (a3.ext b2).1
      · exact b3 t' h'
    · simp only [BState.stmts, List.map_cons, a4]
      rw [← (a3.ext b2).2]
      congr 1

/-! ### Text the writer produced -/

theorem iriAux_keeps (w rest : PStr) (h : ∀ c ∈ w, quoteKeeps c = true) : iriAux 0 (w ++ 62 :: rest) = some (w, rest) := by
  induction w with
  | nil => simp [iriAux]
  | cons c w ih =>
    have hc := keeps_iriRefChar (h c (by simp))
    have hcls : iriClass c = true := by
      obtain ⟨h1, h2⟩ := hc
      simp only [iriClass]
      simp only [List.mem_cons, List.not_mem_nil, or_false, not_or] at h2
      simp; omega
    have h62 : c ≠ 62 := by rintro rfl; simp [iriClass] at hcls
    have h92 : c ≠ 92 := by rintro rfl; simp [iriClass] at hcls
    have hws : isWs c = false := by simp [isWs]; have := hc.1; omega
    simp only [List.cons_append, iriAux, h62, if_false, hws, Bool.false_eq_true, h92, hcls, if_true]
    rw [ih (fun x hx => h x (by simp [hx]))]; rfl

theorem keeps_ne_92 {c : Nat} (h : quoteKeeps c = true) : c ≠ 92 := by rintro rfl; revert h; decide

theorem decodeLiteral_keeps (w : PStr) (h : ∀ c ∈ w, quoteKeeps c = true) : decodeLiteral w = .ok w := by
  induction w with
  | nil => rfl
  | cons c w ih =>
    rw [decodeLiteral_plain (keeps_ne_92 (h c (by simp))), ih (fun x hx => h x (by simp [hx]))]; rfl

theorem skipWs_ne {c : Nat} (h : isWs c = false) (s : PStr) : skipWs (c :: s) = c :: s := by simp [skipWs, h]

theorem skipWs_sp (s : PStr) : skipWs (32 :: s) = skipWs s := by simp [skipWs, isWs]

theorem pIriRef_keeps (w rest : PStr) (h : ∀ c ∈ w, quoteKeeps c = true) : pIriRef (60 :: (w ++ 62 :: rest)) = .ok (w, rest) := by
  simp only [pIriRef, skipWs_ne (show isWs 60 = false by decide), iriAux_keeps w rest h, decodeLiteral_keeps w h]; rfl

theorem quoted_keeps (s : PStr) (hs : ∀ c ∈ s, scalarValue c) : ∀ c ∈ s.flatMap quote1, quoteKeeps c = true := by
  intro c hc
  obtain ⟨x, hx, hcx⟩ := List.mem_flatMap.1 hc
  exact quote1_keeps x (hs x hx) c hcx

theorem strAux_take (l s : PStr) : strAux l.length (l ++ s) = (strAux 0 s).map fun x => (l ++ x.1, x.2) := by
  induction l with
  | nil => simp
  | cons c l ih => simp only [List.length_cons, List.cons_append, strAux, ih, Option.map_map]; rfl

theorem strAux_body {b : PStr} (h : NTBody b) (rest : PStr) : strAux 0 (b ++ 34 :: rest) = some (b, rest) := by
  induction h with
  | nil => simp [strAux]
  | @plain c s h1 h2 h3 h4 _ ih =>
    have : isEol c = false := by simp [isEol, h3, h4]
    simp only [List.cons_append, strAux, h1, if_false, h2, this, Bool.false_eq_true, ih]; rfl
  | @echar c s h1 _ ih =>
    have he : escTail (c :: (s ++ 34 :: rest)) = 1 := by simp only [escTail, h1, if_true]
    simp only [List.cons_append, strAux]
    rw [he]
    simp [strAux, ih]
  | @uchar4 h s h1 h2 _ ih =>
    have ht : (h ++ s ++ 34 :: rest).take 4 = h := by rw [List.append_assoc, List.take_append_of_le_length (by omega), List.take_of_length_le (by omega)]
    have he : escTail (117 :: (h ++ s ++ 34 :: rest)) = 5 := by
      rw [escTail]
      have : ¬ (117 ∈ py! "tbnrf\"'\\") := by decide
      simp only [this, if_false, ucharTail, ht, h1, true_and]
      rw [if_pos (List.all_eq_true.2 h2)]
    have := strAux_take h (s ++ 34 :: rest)
    simp only [h1, ih, Option.map_some] at this
    simp only [List.cons_append, strAux]
    rw [he]
    simp only [List.append_assoc] at this ⊢
    simp [strAux, this]
  | @uchar8 h s h1 h2 _ ih =>
    have ht : (h ++ s ++ 34 :: rest).take 8 = h := by rw [List.append_assoc, List.take_append_of_le_length (by omega), List.take_of_length_le (by omega)]
    have he : escTail (85 :: (h ++ s ++ 34 :: rest)) = 9 := by
      rw [escTail]
      have : ¬ (85 ∈ py! "tbnrf\"'\\") := by decide
      simp only [this, if_false, ucharTail, ht, h1, true_and]
      rw [if_pos (List.all_eq_true.2 h2)]
    have := strAux_take h (s ++ 34 :: rest)
    simp only [h1, ih, Option.map_some] at this
    simp only [List.cons_append, strAux]
    rw [he]
    simp only [List.append_assoc] at this ⊢
    simp [strAux, this]

/-- A language tag that the parser's LANGTAG matches to the end. -/
def LangOK (l : PStr) : Prop := ∃ c r, l = c :: r ∧ isLetter c = true ∧ langTail false r = r

/-- A term that the writer writes and the parser reads. -/
def NTOk : Term → Prop
  | .none => False
  | .gen _ => False
  | .named n => ∀ c ∈ n, scalarValue c
  | .bnode _ => True
  | .lit v l d => v.Valid ∧
    match l with
    | some (c :: r) => LangOK (c :: r)
    | _ => ∀ x, d = some x → ∀ c ∈ x, scalarValue c

/-- What the parser reads where the writer wrote the term. -/
def asRead : Term → RTerm
  | .named n => .iri (n.flatMap quote1)
  | .bnode i => .label (bnodeStr i)
  | .lit v (some (c :: r)) _ => .lit (v.filter ntKept) (some (c :: r)) none
  | .lit v _ (some (c :: r)) => .lit (v.filter ntKept) none (some ((c :: r).flatMap quote1))
  | .lit v _ _ => .lit (v.filter ntKept) none none
  | _ => .iri []

theorem pSuffix_sp (v rest : PStr) : pSuffix v (32 :: 46 :: rest) = .ok (.lit v none none, 32 :: 46 :: rest) := by
  simp [pSuffix, skipWs, isWs]

theorem labelTail_letters (r : PStr) (h : ∀ c ∈ r, isLetter c = true) : labelTail r = r := by
  have hp : ∀ c ∈ r, (pnChars c || c == 46) = true := by
    intro c hc
    have := h c hc
    simp only [isLetter, decide_eq_true_eq] at this
    simp only [pnChars, pnCharsU, pnCharsBase, Bool.or_eq_true, decide_eq_true_eq]
    left; left; left; left; omega
  have h1 : r.takeWhile (fun c => pnChars c || c == 46) = r := by
    clear h
    induction r with
    | nil => rfl
    | cons c r ih => rw [List.takeWhile_cons, hp c (by simp)]; simp [ih (fun x hx => hp x (by simp [hx]))]
  rw [labelTail, h1]
  have h2 : r.reverse.dropWhile (· == 46) = r.reverse := by
    cases hr : r.reverse with
    | nil => rfl
    | cons c t =>
      have hm : c ∈ r := by rw [← List.mem_reverse, hr]; simp
      have : c ≠ 46 := by rintro rfl; have := h 46 hm; revert this; decide
      simp [List.dropWhile_cons, this]
  rw [h2, List.reverse_reverse]

theorem bnodeStr_letters (i : Nat) : ∃ c r, bnodeStr i = 95 :: 58 :: c :: r ∧ isLetter c = true ∧ ∀ x ∈ r, isLetter x = true := by
  obtain ⟨l, h1, h2, h3⟩ := C28_labels_legal i
  cases l with
  | nil => exact absurd rfl h2
  | cons c r =>
    have hl : ∀ x ∈ c :: r, isLetter x = true := fun x hx => by
      have := h3 x hx
      simp only [isLetter, decide_eq_true_eq]; omega
    exact ⟨c, r, by rw [h1]; rfl, hl c (by simp), fun x hx => hl x (by simp [hx])⟩

theorem pSubject_bnode (i : Nat) (rest : PStr) : pSubject (bnodeStr i ++ 32 :: rest) = .ok (.label (bnodeStr i), 32 :: rest) := by
  obtain ⟨c, r, h1, h2, h3⟩ := bnodeStr_letters i
  have hstop : (pnChars 32 || 32 == 46) = false := by decide
  have hc : (pnCharsU c || decide (48 ≤ c ∧ c ≤ 57)) = true := by
    simp only [isLetter, decide_eq_true_eq] at h2
    simp only [pnCharsU, pnCharsBase, Bool.or_eq_true, decide_eq_true_eq]
    left; left; left; omega
  have hp : pLabel (c :: r) = some (95 :: 58 :: c :: r, []) := by
    simp only [pLabel, hc, if_true, labelTail_letters r h3, List.drop_length]
  simp only [pSubject, h1, List.cons_append, skipWs_ne (show isWs 95 = false by decide)]
  rw [← List.cons_append, pLabel_stop hstop, hp]
  rfl

theorem pSubject_iri (w rest : PStr) (h : ∀ c ∈ w, quoteKeeps c = true) : pSubject (60 :: (w ++ 62 :: rest)) = .ok (.iri w, rest) := by
  simp only [pSubject, skipWs_ne (show isWs 60 = false by decide), pIriRef_keeps w rest h]; rfl

theorem pSubject_sp (s : PStr) : pSubject (32 :: s) = pSubject s := by simp only [pSubject, pIriRef, skipWs_sp]
theorem pIriRef_sp (s : PStr) : pIriRef (32 :: s) = pIriRef s := by simp only [pIriRef, skipWs_sp]
theorem pObject_sp (s : PStr) : pObject (32 :: s) = pObject s := by simp only [pObject, pSubject, pIriRef, skipWs_sp]

theorem pObject_lit (v rest : PStr) (hv : v.Valid) : pObject (34 :: (ntEscape v ++ 34 :: rest)) = pSuffix (v.filter ntKept) rest := by
  simp only [pObject, skipWs_ne (show isWs 34 = false by decide), strAux_body (ntBody_ntEscape v) rest, C19_decode_escape_exact v hv]
  rfl

theorem pSuffix_lang {l : PStr} (h : LangOK l) (v rest : PStr) : pSuffix v (64 :: (l ++ 32 :: rest)) = .ok (.lit v (some l) none, 32 :: rest) := by
  obtain ⟨c, r, rfl, hc, hr⟩ := h
  simp only [pSuffix, skipWs_ne (show isWs 64 = false by decide), List.cons_append, hc, if_true,
    langTail_stop (show langSub 32 = false by decide) (by decide), hr]
  rw [drop_local (Nat.le_refl _), List.drop_length]; rfl

/-- Reading a written object. -/
theorem pObject_toNT {t : Term} {w : PStr} (ht : NTOk t) (hw : t.toNT = .ok w) (rest : PStr) :
    pObject (w ++ 32 :: 46 :: rest) = .ok (asRead t, 32 :: 46 :: rest) := by
  cases t with
  | none => exact ht.elim
  | gen _ => exact ht.elim
  | named n =>
    simp only [Term.toNT, iriToNT_eq n ht] at hw
    cases hw
    have : ([60] ++ List.flatMap quote1 n ++ [62] ++ 32 :: 46 :: rest : PStr) = 60 :: (n.flatMap quote1 ++ 62 :: 32 :: 46 :: rest) := by simp
    rw [this, pObject_other _ (by intro r h; rw [skipWs_ne (by decide)] at h; simp at h), pSubject_iri _ _ (quoted_keeps n ht)]
    rfl
  | bnode i =>
    simp only [Term.toNT] at hw
    cases hw
    rw [pObject_other, pSubject_bnode]
    · rfl
    · obtain ⟨c, r, h1, -, -⟩ := bnodeStr_letters i
      intro r' h; rw [h1] at h; simp only [List.cons_append] at h; rw [skipWs_ne (by decide)] at h; simp at h
  | lit v l d =>
    obtain ⟨hv, hrest⟩ := ht
    simp only [Term.toNT, literalToNT] at hw
    have hdt : (∀ x, d = some x → ∀ c ∈ x, scalarValue c) → (∀ c r, l ≠ some (c :: r)) →
        (match d with
          | some (d :: ds) => (iriToNT (d :: ds)).map fun n => [34] ++ ntEscape v ++ [34] ++ [94, 94] ++ n
          | _ => .ok ([34] ++ ntEscape v ++ [34])) = .ok w →
        pObject (w ++ 32 :: 46 :: rest) = .ok (asRead (.lit v l d), 32 :: 46 :: rest) := by
      intro hd hl hw
      have hread : asRead (.lit v l d) = match d with
          | some (c :: r) => .lit (v.filter ntKept) none (some ((c :: r).flatMap quote1))
          | _ => .lit (v.filter ntKept) none none := by
        rcases l with _ | (_ | ⟨c, r⟩)
        · rcases d with _ | (_ | ⟨a, b⟩) <;> rfl
        · rcases d with _ | (_ | ⟨a, b⟩) <;> rfl
        · exact absurd rfl (hl c r)
      rw [hread]
      rcases d with _ | (_ | ⟨a, b⟩)
      · cases hw
        have : ([34] ++ ntEscape v ++ [34] ++ 32 :: 46 :: rest : PStr) = 34 :: (ntEscape v ++ 34 :: 32 :: 46 :: rest) := by simp
        rw [this, pObject_lit v _ hv, pSuffix_sp]
      · cases hw
        have : ([34] ++ ntEscape v ++ [34] ++ 32 :: 46 :: rest : PStr) = 34 :: (ntEscape v ++ 34 :: 32 :: 46 :: rest) := by simp
        rw [this, pObject_lit v _ hv, pSuffix_sp]
      · have hs := hd _ rfl
        simp only [iriToNT_eq _ hs, Except.map] at hw
        cases hw
        have : ([34] ++ ntEscape v ++ [34] ++ [94, 94] ++ ([60] ++ List.flatMap quote1 (a :: b) ++ [62]) ++ 32 :: 46 :: rest : PStr)
          = 34 :: (ntEscape v ++ 34 :: 94 :: 94 :: 60 :: ((a :: b).flatMap quote1 ++ 62 :: 32 :: 46 :: rest)) := by simp
        rw [this, pObject_lit v _ hv]
        simp only [pSuffix, skipWs_ne (show isWs 94 = false by decide), pIriRef_keeps _ _ (quoted_keeps _ hs)]
        rfl
    rcases l with _ | (_ | ⟨c, r⟩)
    · exact hdt hrest (by simp) hw
    · exact hdt hrest (by simp) hw
    · cases hw
      have : ([34] ++ ntEscape v ++ [34] ++ [64] ++ (c :: r) ++ 32 :: 46 :: rest : PStr) = 34 :: (ntEscape v ++ 34 :: 64 :: ((c :: r) ++ 32 :: 46 :: rest)) := by simp
      rw [this, pObject_lit v _ hv, pSuffix_lang hrest]
      rfl

theorem ntEscape_noEol (s : PStr) : NoEol (ntEscape s) := by
  intro c hc
  obtain ⟨x, -, hcx⟩ := List.mem_flatMap.1 hc
  have := ntEscapeChar_ascii x c hcx
  simp [isEol]; omega

theorem iriToNT_noEol {n w : PStr} (h : iriToNT n = .ok w) : NoEol w := by
  unfold iriToNT at h
  cases hq : quoteNormalizedIri n with
  | error e => rw [hq] at h; cases h
  | ok q =>
    rw [hq] at h; cases h
    simp only [NoEol.append]
    exact ⟨⟨by simp [NoEol, isEol], ntEscape_noEol q⟩, by simp [NoEol, isEol]⟩

/-- The written form of a term has no end of line unless its language has. -/
theorem toNT_noEol {t : Term} {w : PStr} (h : t.toNT = .ok w) (hl : ∀ v l d, t = .lit v (some l) d → NoEol l) : NoEol w := by
  cases t with
  | none => cases h
  | gen _ => cases h
  | named n => exact iriToNT_noEol h
  | bnode i =>
    cases h
    obtain ⟨c, r, h1, h2, h3⟩ := bnodeStr_letters i
    rw [h1]
    have : ∀ x, isLetter x = true → isEol x = false := by intro x hx; simp [isLetter] at hx; simp [isEol]; omega
    simp only [NoEol.cons]
    exact ⟨by decide, by decide, this c h2, fun x hx => this x (h3 x hx)⟩
  | lit v l d =>
    have hq : NoEol ([34] ++ ntEscape v ++ [34]) := by
      simp only [NoEol.append]
      exact ⟨⟨by simp [NoEol, isEol], ntEscape_noEol v⟩, by simp [NoEol, isEol]⟩
    simp only [Term.toNT, literalToNT] at h
    have hd : ∀ d : Option PStr, (match d with
          | some (d :: ds) => (iriToNT (d :: ds)).map fun n => [34] ++ ntEscape v ++ [34] ++ [94, 94] ++ n
          | _ => .ok ([34] ++ ntEscape v ++ [34])) = Except.ok (ε := Exc) w → NoEol w := by
      intro d h
      rcases d with _ | (_ | ⟨a, b⟩)
      · cases h; exact hq
      · cases h; exact hq
      · simp only at h
        cases hi : iriToNT (a :: b) with
        | error e => rw [hi] at h; cases h
        | ok n =>
          rw [hi] at h; cases h
          rw [NoEol.append, NoEol.append]
          exact ⟨⟨hq, by simp [NoEol, isEol]⟩, iriToNT_noEol hi⟩
    rcases l with _ | (_ | ⟨c, r⟩)
    · exact hd d h
    · exact hd d h
    · cases h
      rw [NoEol.append, NoEol.append]
      exact ⟨⟨hq, by simp [NoEol, isEol]⟩, hl v (c :: r) d rfl⟩

theorem langTail_chars (b : Bool) (s : PStr) : ∀ c ∈ langTail b s, langSub c = true ∨ c = 45 := by
  fun_induction langTail b s with
  | case1 => simp
  | case2 b c r h ih =>
    intro x hx
    rcases List.mem_cons.1 hx with rfl | hx
    · cases b
      · left; simp at h; simp [langSub, h]
      · left; simpa using h
    · exact ih x hx
  | case3 => rename_i ih; intro x hx; simp only [List.mem_cons] at hx; rcases hx with rfl | rfl | hx
             · exact Or.inr rfl
             · left; assumption
             · exact ih x hx
  | case4 => simp
  | case5 => simp

theorem LangOK.noEol {l : PStr} (h : LangOK l) : NoEol l := by
  obtain ⟨c, r, rfl, hc, hr⟩ := h
  rw [NoEol.cons]
  have hl : ∀ x, isLetter x = true → isEol x = false := by intro x hx; simp [isLetter] at hx; simp [isEol]; omega
  refine ⟨hl c hc, ?_⟩
  intro x hx
  rw [← hr] at hx
  rcases langTail_chars _ _ x hx with h | rfl
  · simp only [langSub, Bool.or_eq_true, beq_iff_eq] at h
    rcases h with ((h | rfl) | rfl) | rfl
    · exact hl x h
    all_goals rfl
  · rfl

theorem NTOk.toNT {t : Term} (h : NTOk t) : ∃ w, t.toNT = .ok w ∧ NoEol w := by
  have hw : ∃ w, t.toNT = .ok w := by
    cases t with
    | none => exact h.elim
    | gen _ => exact h.elim
    | named n => exact ⟨_, iriToNT_eq n h⟩
    | bnode i => exact ⟨_, rfl⟩
    | lit v l d =>
      obtain ⟨hv, hr⟩ := h
      simp only [Term.toNT, literalToNT]
      rcases l with _ | (_ | ⟨c, r⟩)
      · rcases d with _ | (_ | ⟨a, b⟩)
        · exact ⟨_, rfl⟩
        · exact ⟨_, rfl⟩
        · simp only [iriToNT_eq _ (hr _ rfl)]; exact ⟨_, rfl⟩
      · rcases d with _ | (_ | ⟨a, b⟩)
        · exact ⟨_, rfl⟩
        · exact ⟨_, rfl⟩
        · simp only [iriToNT_eq _ (hr _ rfl)]; exact ⟨_, rfl⟩
      · exact ⟨_, rfl⟩
  obtain ⟨w, hw⟩ := hw
  refine ⟨w, hw, toNT_noEol hw ?_⟩
  rintro v l d rfl
  obtain ⟨-, hr⟩ := h
  cases l with
  | nil => intro c hc; simp at hc
  | cons c r => exact LangOK.noEol hr

theorem skipWs_ne_nil {s : PStr} {c : Nat} (hc : c ∈ s) (hw : isWs c = false) : skipWs s ≠ [] := by
  induction s with
  | nil => simp at hc
  | cons a s ih =>
    simp only [skipWs, List.dropWhile_cons] at ih ⊢
    split
    · next h =>
      rcases List.mem_cons.1 hc with rfl | hc
      · rw [hw] at h; cases h
      · exact ih hc
    · simp

def asReadStmt (t : Stmt) : RStmt := { s := asRead t.s, p := asRead t.p, o := asRead t.o, g := none }

/-- A triple that can be written and read. -/
def Stmt.NTOk (t : Stmt) : Prop := Verif.NTOk t.s ∧ Verif.NTOk t.p ∧ Verif.NTOk t.o

theorem pSubject_toNT {t : Term} {w : PStr} (ht : NTOk t) (hs : (∃ n, t = .named n) ∨ ∃ i, t = .bnode i) (hw : t.toNT = .ok w) (rest : PStr) :
    pSubject (w ++ 32 :: rest) = .ok (asRead t, 32 :: rest) := by
  rcases hs with ⟨n, rfl⟩ | ⟨i, rfl⟩
  · simp only [Term.toNT, iriToNT_eq n ht] at hw
    cases hw
    have : ([60] ++ List.flatMap quote1 n ++ [62] ++ 32 :: rest : PStr) = 60 :: (n.flatMap quote1 ++ 62 :: 32 :: rest) := by simp
    rw [this, pSubject_iri _ _ (quoted_keeps n ht)]; rfl
  · cases hw; exact pSubject_bnode i rest

/-- The written line of a triple and what the parser makes of it. -/
theorem line_of_triple {t : Stmt} (hr : t.IsRdf) (ho : t.NTOk) :
    ∃ l, tripleStr t = .ok (l ++ [10]) ∧ NoEol l ∧ skipWs l ≠ [] ∧ pLine false l = .ok (asReadStmt t) := by
  obtain ⟨hs, hp, ho⟩ := ho
  obtain ⟨a, ha, ha'⟩ := hs.toNT
  obtain ⟨b, hb, hb'⟩ := hp.toNT
  obtain ⟨c, hc, hc'⟩ := ho.toNT
  refine ⟨a ++ 32 :: (b ++ 32 :: (c ++ [32, 46])), ?_, ?_, ?_, ?_⟩
  · simp [tripleStr, ha, hb, hc, bind, Except.bind, pure, Except.pure]
  · simp only [NoEol.append, NoEol.cons]
    exact ⟨ha', by decide, hb', by decide, hc', by decide, by decide, by simp [NoEol]⟩
  · exact skipWs_ne_nil (c := 46) (by simp) (by decide)
  · obtain ⟨n, hn⟩ := hr.pred
    have h2 : pIriRef (32 :: (b ++ 32 :: (c ++ [32, 46]))) = .ok (n.flatMap quote1, 32 :: (c ++ [32, 46])) := by
      rw [hn] at hb hp
      simp only [Term.toNT, iriToNT_eq n hp] at hb
      cases hb
      have : ([60] ++ List.flatMap quote1 n ++ [62] ++ 32 :: (c ++ [32, 46]) : PStr) = 60 :: (n.flatMap quote1 ++ 62 :: 32 :: (c ++ [32, 46])) := by simp
      rw [pIriRef_sp, this, pIriRef_keeps _ _ (quoted_keeps n hp)]
    have h3 : pObject (32 :: (c ++ [32, 46])) = .ok (asRead t.o, [32, 46]) := by
      rw [pObject_sp]; exact pObject_toNT ho hc []
    simp only [pLine, pStmt, pSubject_toNT hs hr.subj ha, h2, h3, pGraph]
    simp [pDot, skipWs, isWs, Except.map, asReadStmt, hn, asRead]

theorem starts_of_line {l rest : PStr} {e : Nat} (hl : NoEol l) (hb : skipWs l ≠ []) (he : isEol e = true) : StartsStmt (l ++ e :: rest) := by
  intro c r h
  rw [skipWs_local he] at h
  cases hk : skipWs l with
  | nil => exact absurd hk hb
  | cons d t => rw [hk] at h; cases h; exact hl.starts _ _ hk

/-- Parsing what `serialize_ntriples` wrote. -/
theorem pDoc_serialize (ts : List Stmt) (h : ∀ t ∈ ts, t.IsRdf ∧ t.NTOk) :
    (serializeNTriples ts).2 = .ok () ∧ pDoc false (serializeNTriples ts).1 = .ok (ts.map asReadStmt) ∧ StartsStmt (serializeNTriples ts).1 := by
  induction ts with
  | nil => exact ⟨rfl, rfl, starts_nil⟩
  | cons t ts ih =>
    obtain ⟨h1, h2, h3⟩ := ih (fun x hx => h x (by simp [hx]))
    obtain ⟨l, hl1, hl2, hl3, hl4⟩ := line_of_triple (h t (by simp)).1 (h t (by simp)).2
    simp only [serializeNTriples, hl1, List.append_assoc, List.cons_append, List.nil_append]
    refine ⟨h1, ?_, starts_of_line hl2 hl3 (by decide)⟩
    have := pDoc_line false (es := []) (rest := (serializeNTriples ts).1) hl2 hl3 (e := 10) (by decide) (by simp) h3
    simp only [List.nil_append] at this
    rw [this, hl4, h2]; rfl

end Verif
