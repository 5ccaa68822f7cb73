import Verif.Spec.TurtleGrammar
/-
C93: the Turtle parser accepts exactly the token sequences of the grammar, and reads each in one way.
-/
namespace Verif.Turtle

theorem countSemi_drop (r : List Tok) : r = List.replicate (countSemi r) .semi ++ r.drop (countSemi r) ∧ ∀ x, (r.drop (countSemi r)).head? = some x → x ≠ .semi := by
  induction r with
  | nil => exact ⟨rfl, by simp [countSemi]⟩
  | cons t r ih =>
    by_cases h : t = .semi
    · subst h
      refine ⟨?_, ?_⟩
      · conv => lhs; rw [ih.1]
        rfl
      · exact ih.2
    · have : countSemi (t :: r) = 0 := by cases t <;> first | rfl | exact absurd rfl h
      rw [this]
      exact ⟨rfl, by simpa using h⟩

theorem countSemi_replicate (k : Nat) (r : List Tok) (h : r.head? ≠ some .semi) : countSemi (List.replicate k .semi ++ r) = k := by
  induction k with
  | zero =>
    cases r with
    | nil => rfl
    | cons t r => cases t <;> first | rfl | exact absurd rfl h
  | succ k ih => simpa [List.replicate_succ, countSemi] using ih

theorem pVerb_some {ts r : List Tok} {v : VerbTok} : pVerb ts = some (v, r) ↔ ts = v.toks ++ r := by
  constructor
  · intro h
    unfold pVerb at h
    split at h <;> simp_all [VerbTok.toks] <;> (obtain ⟨rfl, rfl⟩ := h; rfl)
  · rintro rfl
    cases v <;> rfl

theorem pVerb_none {ts : List Tok} (h : pVerb ts = none) (v : VerbTok) (r : List Tok) : ts ≠ v.toks ++ r := by
  intro e
  rw [pVerb_some.2 e] at h
  cases h

/-! ### Soundness -/

theorem sound : ∀ n,
    (∀ ts o r, pObj n ts = .ok (o, r) → ts = o.toks ++ r) ∧
    (∀ ts c r, pColl n ts = .ok (c, r) → ts = c.toks ++ r) ∧
    (∀ ts os r, pObjs n ts = .ok (os, r) → ts = os.toks ++ r) ∧
    (∀ ts p r, pPol n ts = .ok (p, r) → ts = p.toks ++ r) := by
  intro n
  induction n with
  | zero =>
    refine ⟨?_, ?_, ?_, ?_⟩ <;> intro ts x r h
    · rw [pObj] at h; cases h
    · rw [pColl] at h; cases h
    · rw [pObjs] at h; cases h
    · rw [pPol] at h; cases h
  | succ n ih =>
    obtain ⟨ihO, ihC, ihS, ihP⟩ := ih
    refine ⟨?_, ?_, ?_, ?_⟩
    · intro ts o r h
      unfold pObj at h
      split at h
      · cases h; rfl
      · cases h; rfl
      · cases h; rfl
      · cases h; rfl
      · cases h; rfl
      · split at h
        · cases h; rfl
        · cases h; rfl
        · cases h
        · cases h; rfl
      · split at h
        · cases h
        · rename_i heq; cases h; rw [ihC _ _ _ heq]; rfl
      · split at h
        · cases h
        · rename_i heq; cases h; rw [ihP _ _ _ heq]; simp [Obj.toks]
        · cases h
      · cases h
    · intro ts c r h
      unfold pColl at h
      split at h
      · cases h; rfl
      · split at h
        · cases h
        · rename_i ho
          split at h
          · cases h
          · rename_i hc
            cases h
            rw [ihO _ _ _ ho, ihC _ _ _ hc]
            simp [Coll.toks]
    · intro ts os r h
      unfold pObjs at h
      split at h
      · cases h
      · rename_i ho
        split at h
        · cases h
        · rename_i hc
          cases h
          rw [ihO _ _ _ ho, ihS _ _ _ hc]
          simp [Objs.toks]
      · rename_i ho
        cases h
        rw [ihO _ _ _ ho]
        simp [Objs.toks]
    · intro ts p r h
      unfold pPol at h
      split at h
      · cases h
      · rename_i hv
        rw [pVerb_some.1 hv]
        split at h
        · cases h
        · rename_i os r1 hs
          rw [ihS _ _ _ hs]
          split at h
          · cases h; simp [Pol.toks]
          · rename_i k hk
            have e := (countSemi_drop r1).1
            rw [hk] at e
            split at h
            · cases h
              conv => lhs; rw [e]
              simp [Pol.toks]
            · split at h
              · cases h
              · rename_i hp
                cases h
                conv => lhs; rw [e, ihP _ _ _ hp]
                simp [Pol.toks]

theorem pNode_some {ts r : List Tok} {v : NodeTok} : pNode ts = some (v, r) ↔ ts = v.toks ++ r := by
  constructor
  · intro h
    unfold pNode at h
    split at h <;> simp_all [NodeTok.toks] <;> (obtain ⟨rfl, rfl⟩ := h; rfl)
  · rintro rfl
    cases v <;> rfl

theorem pPolDot_sound {n : Nat} {ts r : List Tok} {p : PPol} (h : pPolDot n ts = .ok (p, r)) : ts = p.toks ++ .dot :: r := by
  unfold pPolDot at h
  split at h
  · cases h
  · rename_i hp; cases h; exact (sound n).2.2.2 _ _ _ hp
  · cases h

theorem map_ok {α β ε : Type} {x : Except ε α} {f : α → β} {y : β} (h : x.map f = .ok y) : ∃ a, x = .ok a ∧ f a = y := by
  cases x with
  | error e => cases h
  | ok a => cases h; exact ⟨a, rfl, rfl⟩

theorem pStmt_sound {n : Nat} {ts r : List Tok} {s : PTStmt} (h : pStmt n ts = .ok (s, r)) : ts = s.toks ++ r := by
  unfold pStmt at h
  split at h
  · cases h; rfl
  · cases h; rfl
  · cases h; rfl
  · cases h; rfl
  · split at h
    · cases h
    · rename_i hc
      obtain ⟨⟨p, r'⟩, h1, h2⟩ := map_ok h
      cases h2
      rw [(sound n).2.1 _ _ _ hc, pPolDot_sound h1]
      simp [TStmt.toks]
  · split at h
    · cases h
    · rename_i hc
      cases h
      rw [(sound n).2.2.2 _ _ _ hc]
      simp [TStmt.toks]
    · rename_i hc
      obtain ⟨⟨p, r'⟩, h1, h2⟩ := map_ok h
      cases h2
      rw [(sound n).2.2.2 _ _ _ hc, pPolDot_sound h1]
      simp [TStmt.toks]
    · cases h
  · split at h
    · rename_i hn
      obtain ⟨⟨p, r'⟩, h1, h2⟩ := map_ok h
      cases h2
      rw [pNode_some.1 hn, pPolDot_sound h1]
      simp [TStmt.toks]
    · cases h

theorem pStmts_sound {n m : Nat} {ts : List Tok} {d : List PTStmt} (h : pStmts n m ts = .ok d) : ts = docToks d := by
  induction n generalizing ts d with
  | zero => rw [pStmts] at h; cases h
  | succ n ih =>
    unfold pStmts at h
    split at h
    · cases h; rfl
    · split at h
      · cases h
      · rename_i hs
        obtain ⟨d', h1, h2⟩ := map_ok h
        cases h2
        rw [pStmt_sound hs, ih h1]
        rfl

/-! ### Completeness -/

mutual
/-- The fuel an object needs. -/
def Obj.fuel : PObj → Nat
  | .leaf _ => 1
  | .coll c => 1 + c.fuel
  | .bnpl p => 1 + p.fuel
def Objs.fuel : PObjs → Nat
  | .one o => 1 + o.fuel
  | .cons o os => 1 + max o.fuel os.fuel
def Coll.fuel : PColl → Nat
  | .nil => 1
  | .cons o c => 1 + max o.fuel c.fuel
def Pol.fuel : PPol → Nat
  | .last _ os _ => 1 + os.fuel
  | .cons _ os _ p => 1 + max os.fuel p.fuel
end

theorem VerbTok.len (v : VerbTok) : v.toks.length = 1 := by cases v <;> rfl
theorem NodeTok.len (v : NodeTok) : v.toks.length = 1 := by cases v <;> rfl
theorem LeafTok.len (v : LeafTok) : 1 ≤ v.toks.length := by
  cases v <;> simp [LeafTok.toks]
  rw [NodeTok.len]; exact Nat.le_refl 1

mutual
theorem Obj.fuel_le : ∀ o : PObj, o.fuel + 1 ≤ 2 * o.toks.length
  | .leaf l => by have := l.len; simp only [Obj.fuel, Obj.toks]; omega
  | .coll c => by have := c.fuel_le; simp only [Obj.fuel, Obj.toks, List.length_cons]; omega
  | .bnpl p => by have := p.fuel_le; simp only [Obj.fuel, Obj.toks, List.length_cons, List.length_append, List.length_nil]; omega
theorem Objs.fuel_le : ∀ o : PObjs, o.fuel ≤ 2 * o.toks.length
  | .one o => by have := o.fuel_le; simp only [Objs.fuel, Objs.toks]; omega
  | .cons o os => by
    have := o.fuel_le; have := os.fuel_le
    simp only [Objs.fuel, Objs.toks, List.length_cons, List.length_append]; omega
theorem Coll.fuel_le : ∀ o : PColl, o.fuel + 1 ≤ 2 * o.toks.length
  | .nil => by decide
  | .cons o c => by
    have := o.fuel_le; have := c.fuel_le
    simp only [Coll.fuel, Coll.toks, List.length_append]; omega
theorem Pol.fuel_le : ∀ o : PPol, o.fuel + 1 ≤ 2 * o.toks.length
  | .last v os k => by
    have := os.fuel_le; have := v.len
    simp only [Pol.fuel, Pol.toks, List.length_append, List.length_replicate]; omega
  | .cons v os k p => by
    have := os.fuel_le; have := p.fuel_le; have := v.len
    simp only [Pol.fuel, Pol.toks, List.length_append, List.length_replicate]; omega
end

/-- The tokens that may follow an object, as far as the parser looks: no language tag and no "^^". -/
def NoSuffix (r : List Tok) : Prop := (∀ l r', r ≠ .lang l :: r') ∧ ∀ r', r ≠ .carets :: r'

/-- The tokens that may follow an object list. -/
def NoComma (r : List Tok) : Prop := NoSuffix r ∧ ∀ r', r ≠ .comma :: r'

/-- The tokens that may follow a predicate-object list. -/
def NoMore (r : List Tok) : Prop := NoComma r ∧ (∀ r', r ≠ .semi :: r') ∧ ∀ v r', r ≠ VerbTok.toks v ++ r'

theorem NoSuffix.mk {t : Tok} {r : List Tok} (h1 : ∀ l, t ≠ .lang l) (h2 : t ≠ .carets) : NoSuffix (t :: r) :=
  ⟨fun l _ e => h1 l (List.cons.inj e).1, fun _ e => h2 (List.cons.inj e).1⟩

theorem LeafTok.noSuffix (l : LeafTok) (r : List Tok) : NoSuffix (l.toks ++ r) := by
  cases l with
  | node n => cases n <;> exact .mk (by simp) (by simp)
  | _ => exact .mk (by simp) (by simp)

theorem Obj.noSuffix (o : PObj) (r : List Tok) : NoSuffix (o.toks ++ r) := by
  cases o with
  | leaf l => exact l.noSuffix r
  | coll c => exact .mk (by simp) (by simp)
  | bnpl c => exact .mk (by simp) (by simp)

theorem Coll.noSuffix (o : PColl) (r : List Tok) : NoSuffix (o.toks ++ r) := by
  cases o with
  | nil => exact .mk (by simp) (by simp)
  | cons o c =>
    have := o.noSuffix (c.toks ++ r)
    simpa only [Coll.toks, List.append_assoc] using this

theorem Pol.head (p : PPol) (r : List Tok) : ∃ v r', p.toks ++ r = VerbTok.toks v ++ r' := by
  cases p with
  | last v os k => exact ⟨v, os.toks ++ List.replicate k .semi ++ r, by simp [Pol.toks]⟩
  | cons v os k p => exact ⟨v, os.toks ++ List.replicate (k + 1) .semi ++ p.toks ++ r, by simp [Pol.toks]⟩

theorem Obj.not_rpar (o : PObj) (r r' : List Tok) : o.toks ++ r ≠ .rpar :: r' := by
  cases o with
  | leaf l =>
    cases l with
    | node n => cases n <;> simp [Obj.toks, LeafTok.toks, NodeTok.toks]
    | _ => simp [Obj.toks, LeafTok.toks]
  | coll c => simp [Obj.toks]
  | bnpl c => simp [Obj.toks]

theorem semi_follow (k : Nat) (r : List Tok) (h : NoComma r) : NoComma (List.replicate k .semi ++ r) := by
  cases k with
  | zero => exact h
  | succ k =>
    rw [List.replicate_succ, List.cons_append]
    exact ⟨.mk (by simp) (by simp), by simp⟩

theorem NoMore.head {r : List Tok} (h : NoMore r) : r.head? ≠ some .semi := by
  cases r with
  | nil => simp
  | cons t r => intro e; cases e; exact h.2.1 r rfl

theorem NoMore.verb {r : List Tok} (h : NoMore r) : pVerb r = none := by
  cases e : pVerb r with
  | none => rfl
  | some x => obtain ⟨v, r'⟩ := x; exact absurd (pVerb_some.1 e) (h.2.2 v r')

theorem noMore_of {t : Tok} {r : List Tok} (h : t = .rbr ∨ t = .dot) : NoMore (t :: r) := by
  rcases h with rfl | rfl <;>
  · refine ⟨⟨.mk (by simp) (by simp), by simp⟩, by simp, ?_⟩
    intro v r'; cases v <;> simp [VerbTok.toks]

theorem pol_verb (p : PPol) (r : List Tok) : ∃ x, pVerb (p.toks ++ r) = some x := by
  obtain ⟨v, r', e⟩ := p.head r
  exact ⟨(v, r'), pVerb_some.2 e⟩

theorem pol_head_noComma (p : PPol) (r : List Tok) : NoComma (p.toks ++ r) := by
  obtain ⟨v, r', e⟩ := p.head r
  rw [e]
  cases v
  · exact ⟨.mk (by simp) (by simp), by simp [VerbTok.toks]⟩
  · exact ⟨.mk (by simp) (by simp), by simp [VerbTok.toks]⟩

theorem pol_not_semi (p : PPol) (r : List Tok) : (p.toks ++ r).head? ≠ some .semi := by
  obtain ⟨v, r', e⟩ := p.head r
  rw [e]
  cases v <;> simp [VerbTok.toks]

mutual
theorem Obj.complete : ∀ (o : PObj) (n : Nat) (r : List Tok), o.fuel ≤ n → NoSuffix r → pObj n (o.toks ++ r) = .ok (o, r)
  | o, 0, r, h, _ => by cases o <;> simp [Obj.fuel] at h
  | .leaf l, n + 1, r, h, hr => by
    unfold pObj; rw [Obj.toks]
    cases l with
    | node m => cases m <;> rfl
    | str b =>
      show (match r with
        | .lang l :: r => _
        | .carets :: .iri i :: r => _
        | .carets :: _ => _
        | r => _) = _
      split
      · exact absurd rfl (hr.1 _ _)
      · exact absurd rfl (hr.2 _)
      · exact absurd rfl (hr.2 _)
      · rfl
    | _ => rfl
  | .coll c, n + 1, r, h, hr => by
    unfold pObj; rw [Obj.toks]
    have hc := Coll.complete c n r (by simp only [Obj.fuel] at h; omega)
    show (match pColl n (c.toks ++ r) with
      | .error e => _
      | .ok (c, r) => _) = _
    rw [hc]
  | .bnpl p, n + 1, r, h, hr => by
    unfold pObj; rw [Obj.toks]
    have hc := Pol.complete p n (.rbr :: r) (by simp only [Obj.fuel] at h; omega) (noMore_of (.inl rfl))
    have e : (Tok.lbr :: (p.toks ++ [Tok.rbr])) ++ r = Tok.lbr :: (p.toks ++ .rbr :: r) := by simp
    rw [e]
    show (match pPol n (p.toks ++ .rbr :: r) with
      | .error e => _
      | .ok (p, .rbr :: r) => _
      | .ok _ => _) = _
    rw [hc]
theorem Coll.complete : ∀ (c : PColl) (n : Nat) (r : List Tok), c.fuel ≤ n → pColl n (c.toks ++ r) = .ok (c, r)
  | c, 0, r, h => by cases c <;> simp [Coll.fuel] at h
  | .nil, n + 1, r, h => by unfold pColl; rfl
  | .cons o c, n + 1, r, h => by
    have ho := Obj.complete o n (c.toks ++ r) (by simp only [Coll.fuel] at h; omega) (c.noSuffix r)
    have hc := Coll.complete c n r (by simp only [Coll.fuel] at h; omega)
    unfold pColl; rw [Coll.toks, List.append_assoc]
    split
    · rename_i e; exact absurd e (o.not_rpar _ _)
    · rw [ho]; simp only [hc]
theorem Objs.complete : ∀ (os : PObjs) (n : Nat) (r : List Tok), os.fuel ≤ n → NoComma r → pObjs n (os.toks ++ r) = .ok (os, r)
  | os, 0, r, h, _ => by cases os <;> simp [Objs.fuel] at h
  | .one o, n + 1, r, h, hr => by
    have ho := Obj.complete o n r (by simp only [Objs.fuel] at h; omega) hr.1
    unfold pObjs; rw [Objs.toks, ho]
    split
    · rename_i e; cases e
    · rename_i e; cases e; exact absurd rfl (hr.2 _)
    · rename_i e; cases e; rfl
  | .cons o os, n + 1, r, h, hr => by
    have ho := Obj.complete o n (.comma :: (os.toks ++ r)) (by simp only [Objs.fuel] at h; omega) (.mk (by simp) (by simp))
    have hs := Objs.complete os n r (by simp only [Objs.fuel] at h; omega) hr
    unfold pObjs; rw [Objs.toks, List.append_assoc, List.cons_append, ho]
    simp only [hs]
theorem Pol.complete : ∀ (p : PPol) (n : Nat) (r : List Tok), p.fuel ≤ n → NoMore r → pPol n (p.toks ++ r) = .ok (p, r)
  | p, 0, r, h, _ => by cases p <;> simp [Pol.fuel] at h
  | .last v os k, n + 1, r, h, hr => by
    have hs := Objs.complete os n (List.replicate k .semi ++ r) (by simp only [Pol.fuel] at h; omega) (semi_follow k r hr.1)
    unfold pPol; rw [Pol.toks, List.append_assoc, List.append_assoc, pVerb_some.2 rfl]
    simp only [hs, countSemi_replicate k r hr.head]
    cases k with
    | zero => rfl
    | succ k =>
      have : (List.replicate (k + 1) Tok.semi ++ r).drop (k + 1) = r := by simp
      simp only [this, hr.verb]
  | .cons v os k p, n + 1, r, h, hr => by
    have hs := Objs.complete os n (List.replicate (k + 1) .semi ++ (p.toks ++ r)) (by simp only [Pol.fuel] at h; omega)
      (semi_follow _ _ (pol_head_noComma p r))
    have hp := Pol.complete p n r (by simp only [Pol.fuel] at h; omega) hr
    obtain ⟨x, hx⟩ := pol_verb p r
    have e : v.toks ++ os.toks ++ List.replicate (k + 1) Tok.semi ++ p.toks ++ r =
        v.toks ++ (os.toks ++ (List.replicate (k + 1) Tok.semi ++ (p.toks ++ r))) := by simp
    unfold pPol; rw [Pol.toks, e, pVerb_some.2 rfl]
    simp only [hs, countSemi_replicate (k + 1) _ (pol_not_semi p r)]
    have : (List.replicate (k + 1) Tok.semi ++ (p.toks ++ r)).drop (k + 1) = p.toks ++ r := by simp
    simp only [this, hx, hp]
end

theorem pPolDot_complete {n : Nat} {p : PPol} (h : p.fuel ≤ n) (r : List Tok) : pPolDot n (p.toks ++ .dot :: r) = .ok (p, r) := by
  unfold pPolDot
  rw [p.complete n _ h (noMore_of (.inr rfl))]

theorem pStmt_complete (s : PTStmt) (n : Nat) (h : 2 * s.toks.length ≤ n) (r : List Tok) : pStmt n (s.toks ++ r) = .ok (s, r) := by
  cases s with
  | pre b ns i => cases b <;> rfl
  | base b i => cases b <;> rfl
  | node s p =>
    have hp : p.fuel ≤ n := by
      have := p.fuel_le
      simp only [TStmt.toks, List.length_append] at h; omega
    have e : TStmt.toks (.node s p) ++ r = s.toks ++ (p.toks ++ .dot :: r) := by simp [TStmt.toks]
    rw [e]
    cases s <;>
    · show (pPolDot n (p.toks ++ .dot :: r)).map _ = _
      rw [pPolDot_complete hp]; rfl
  | coll c p =>
    have hp : p.fuel ≤ n ∧ c.fuel ≤ n := by
      have := p.fuel_le; have := c.fuel_le
      simp only [TStmt.toks, List.length_append, List.length_cons, List.cons_append] at h; omega
    have e : TStmt.toks (.coll c p) ++ r = .lpar :: (c.toks ++ (p.toks ++ .dot :: r)) := by simp [TStmt.toks]
    rw [e]
    show (match pColl n (c.toks ++ (p.toks ++ .dot :: r)) with
      | .error e => _
      | .ok (c, r) => _) = _
    rw [c.complete n _ hp.2]
    simp only [pPolDot_complete hp.1]
    rfl
  | bnpl s =>
    have hp : s.fuel ≤ n := by
      have := s.fuel_le
      simp only [TStmt.toks, List.length_append, List.length_cons, List.cons_append] at h; omega
    have e : TStmt.toks (.bnpl s) ++ r = .lbr :: (s.toks ++ .rbr :: .dot :: r) := by simp [TStmt.toks]
    rw [e]
    show (match pPol n (s.toks ++ .rbr :: .dot :: r) with
      | .error e => _
      | .ok (s, .rbr :: .dot :: r) => _
      | .ok (s, .rbr :: r) => _
      | .ok _ => _) = _
    rw [s.complete n _ hp (noMore_of (.inl rfl))]
  | bnplPol s p =>
    have hp : s.fuel ≤ n ∧ p.fuel ≤ n := by
      have := s.fuel_le; have := p.fuel_le
      simp only [TStmt.toks, List.length_append, List.length_cons, List.cons_append] at h; omega
    have e : TStmt.toks (.bnplPol s p) ++ r = .lbr :: (s.toks ++ .rbr :: (p.toks ++ .dot :: r)) := by simp [TStmt.toks]
    rw [e]
    obtain ⟨v, r', hv⟩ := p.head (.dot :: r)
    have hd : ∀ x, p.toks ++ .dot :: r ≠ .dot :: x := by
      rw [hv]; intro x; cases v <;> simp [VerbTok.toks]
    show (match pPol n (s.toks ++ .rbr :: (p.toks ++ .dot :: r)) with
      | .error e => _
      | .ok (s, .rbr :: .dot :: r) => _
      | .ok (s, .rbr :: r) => _
      | .ok _ => _) = _
    rw [s.complete n _ hp.1 (noMore_of (.inl rfl))]
    split
    · rename_i e; cases e
    · rename_i e
      simp only [Except.ok.injEq, Prod.mk.injEq, List.cons.injEq, true_and] at e
      exact absurd e.2 (hd _)
    · rename_i e
      simp only [Except.ok.injEq, Prod.mk.injEq, List.cons.injEq, true_and] at e
      obtain ⟨rfl, rfl⟩ := e
      rw [pPolDot_complete hp.2]; rfl
    · rename_i h1 h2 e
      cases e
      exact absurd rfl (h2 _ _)

theorem TStmt.toks_ne (s : PTStmt) : s.toks ≠ [] := by
  cases s with
  | pre b _ _ => cases b <;> simp [TStmt.toks]
  | base b _ => cases b <;> simp [TStmt.toks]
  | _ => simp [TStmt.toks]

theorem pStmts_complete (d : List PTStmt) (n m : Nat) (hn : (docToks d).length < n) (hm : 2 * (docToks d).length ≤ m) :
    pStmts n m (docToks d) = .ok d := by
  induction d generalizing n with
  | nil => cases n with
    | zero => omega
    | succ n => rfl
  | cons s d ih =>
    cases n with
    | zero => omega
    | succ n =>
      have e : docToks (s :: d) = s.toks ++ docToks d := rfl
      rw [e, List.length_append] at hn hm
      have hs := s.toks_ne
      have hl : 1 ≤ s.toks.length := List.length_pos_iff.2 hs
      have h1 := pStmt_complete s m (by omega) (docToks d)
      have h2 := ih n (by omega) (by omega)
      rw [e]
      cases hh : s.toks ++ docToks d with
      | nil => simp [hs] at hh
      | cons t ts =>
        rw [hh] at h1
        unfold pStmts
        simp only [h1, h2]
        rfl

/-! ### C93 -/

/-- The parser accepts a sequence of tokens if and only if it is the sequence of some document of the grammar, and then returns that document. -/
theorem C93_exact (ts : List Tok) (d : List PTStmt) : parseToks ts = .ok d ↔ ts = docToks d := by
  constructor
  · exact pStmts_sound
  · rintro rfl
    exact pStmts_complete d _ _ (by omega) (by omega)

/-- The grammar is unambiguous. -/
theorem C93_unambiguous (d e : List PTStmt) (h : docToks d = docToks e) : d = e := by
  have h1 := (C93_exact _ d).2 rfl
  rw [h, (C93_exact _ e).2 rfl] at h1
  exact (Except.ok.inj h1).symm

example : parseToks [.iri (.ref (py! "s")), .kwA, .lpar, .num .integer (py! "1"), .lbr, .iri (.ref (py! "p")), .str (py! "x"), .rbr, .rpar, .semi, .dot] =
    .ok [.node (.iri (.ref (py! "s"))) (.last .a (.one (.coll (.cons (.leaf (.num .integer (py! "1")))
      (.cons (.bnpl (.last (.iri (.ref (py! "p"))) (.one (.leaf (.str (py! "x")))) 0)) .nil)))) 1)] :=
  (C93_exact _ _).2 rfl

end Verif.Turtle
