import Verif.Spec.TurtleEnv
import Verif.Lemmas.NTRead
/-
C65: directives affect only later statements. Also: what becomes of blank node labels.
-/
namespace Verif.Turtle

/-! ### Blank nodes -/

/-- `st'` comes after `st`, and the anonymous nodes `an` were created in between. -/
structure Step (st st' : BState) (an : List Nat) : Prop where
  ext : st.Ext st'
  new : ∀ l i, st'.map.get? l = some i → st.map.get? l = some i ∨ st.next ≤ i
  nodup : an.Nodup
  range : ∀ a ∈ an, st.next ≤ a ∧ a < st'.next
  anon : ∀ a ∈ an, ∀ l, st'.map.get? l ≠ some a

theorem Step.refl (st : BState) : Step st st [] := ⟨.refl _, fun _ _ h => .inl h, List.nodup_nil, by simp, by simp⟩

theorem Step.trans {a b c : BState} {x y : List Nat} (h : Step a b x) (h' : Step b c y) : Step a c (x ++ y) where
  ext := h.ext.trans h'.ext
  new l i hi := by
    rcases h'.new l i hi with h1 | h1
    · exact h.new l i h1
    · exact .inr (Nat.le_trans h.ext.1 h1)
  nodup := by
    rw [List.nodup_append]
    refine ⟨h.nodup, h'.nodup, ?_⟩
    rintro p hp q hq rfl
    have := (h.range p hp).2; have := (h'.range p hq).1; omega
  range p hp := by
    have h1 := h.ext.1; have h2 := h'.ext.1
    rcases List.mem_append.1 hp with hp | hp
    · have := h.range p hp; omega
    · have := h'.range p hp; omega
  anon p hp l hl := by
    rcases List.mem_append.1 hp with hp | hp
    · rcases h'.new l p hl with h1 | h1
      · exact h.anon p hp l h1
      · have := (h.range p hp).2; omega
    · exact h'.anon p hp l hl

theorem node_step {n0 : Nat} {st : BState} (h : BState.OK n0 st) (l : PStr) : Step st (st.node l).1 [] := by
  obtain ⟨_, h2, h3⟩ := BState.node_spec h l
  refine ⟨h2, ?_, List.nodup_nil, by simp, by simp⟩
  intro l' i hi
  unfold BState.node at hi
  cases hg : st.map.get? l with
  | some k => rw [hg] at hi; exact .inl hi
  | none =>
    rw [hg] at hi
    simp only [Dict.get?_set] at hi
    split at hi
    · cases hi; exact .inr (Nat.le_refl _)
    · exact .inl hi

theorem anon_step {n0 : Nat} {st : BState} (h : BState.OK n0 st) :
    BState.OK n0 { st with next := st.next + 1 } ∧ Step st { st with next := st.next + 1 } [st.next] := by
  refine ⟨⟨h.wf, Nat.le_succ_of_le h.le, fun l i hi => ⟨(h.range l i hi).1, Nat.lt_succ_of_lt (h.range l i hi).2⟩, h.inj⟩,
    ⟨⟨Nat.le_succ _, fun _ _ h => h⟩, fun _ _ h => .inl h, by simp, by simp, ?_⟩⟩
  intro a ha l hl
  rw [List.mem_singleton] at ha
  subst ha
  exact absurd (h.range l _ hl).2 (Nat.lt_irrefl _)

/-! ### One statement -/

/-- What the evaluation of a part of a statement does: it succeeded with `x'`, changed blank nodes only, and `x'` is what the part stands for, under every
    later table of labels. -/
structure Good (nl : PStr → Bool) (n0 : Nat) (st st' : TState) (an : List Nat) (R : Env → Prop) : Prop where
  ok : BState.OK n0 st'.bn
  base : st'.base = st.base
  prefixes : st'.prefixes = st.prefixes
  step : Step st.bn st'.bn an
  rel : ∀ fin : BState, st'.bn.Ext fin → ∀ pref : PStr → PStr → Prop, (∀ ns p, st.prefixes.get? ns = some p → pref ns p) →
    R ⟨st.base, pref, fin.map.get?⟩

variable {nl : PStr → Bool} {n0 : Nat}

theorem Good.pure {st : TState} (h : BState.OK n0 st.bn) {R : Env → Prop}
    (hr : ∀ fin : BState, st.bn.Ext fin → ∀ pref : PStr → PStr → Prop, (∀ ns p, st.prefixes.get? ns = some p → pref ns p) →
      R ⟨st.base, pref, fin.map.get?⟩) :
    Good nl n0 st st [] R :=
  ⟨h, rfl, rfl, .refl _, hr⟩

theorem Good.mono {st st' : TState} {an : List Nat} {R R' : Env → Prop} (h : Good nl n0 st st' an R) (hr : ∀ E, R E → R' E) : Good nl n0 st st' an R' :=
  ⟨h.ok, h.base, h.prefixes, h.step, fun fin hf pref hp => hr _ (h.rel fin hf pref hp)⟩

theorem Good.seq {st st' st'' : TState} {a b : List Nat} {R R' : Env → Prop} (h : Good nl n0 st st' a R) (h' : Good nl n0 st' st'' b R') :
    Good nl n0 st st'' (a ++ b) (fun E => R E ∧ R' E) where
  ok := h'.ok
  base := h'.base.trans h.base
  prefixes := h'.prefixes.trans h.prefixes
  step := h.step.trans h'.step
  rel fin hf pref hp := by
    refine ⟨h.rel fin (h'.step.ext.trans hf) pref hp, ?_⟩
    have := h'.rel fin hf pref (by rw [h.prefixes]; exact hp)
    rwa [h.base] at this

theorem evalIri_in {st : TState} {i : IriTok} {s : PStr} (h : evalIri nl st i = .ok s) (lab : PStr → Option Nat) (pref : PStr → PStr → Prop)
    (hp : ∀ ns p, st.prefixes.get? ns = some p → pref ns p) : IriIn nl ⟨st.base, pref, lab⟩ i s := by
  cases i with
  | ref t => exact .ref h
  | pname ns loc =>
    have h : resolvePname nl st ns loc = .ok s := h
    unfold resolvePname at h
    cases hg : st.prefixes.get? ns with
    | none => rw [hg] at h; cases h
    | some p =>
      rw [hg] at h
      simp only at h
      cases hd : decodeLiteral loc with
      | error e => rw [hd] at h; cases h
      | ok l =>
        rw [hd] at h
        simp only at h
        refine .pname (hp ns p hg) ?_
        split at h
        · next r e => exact .angle hd e h
        · next hne =>
          cases h
          refine .join hd ?_
          intro e
          cases hpl : p ++ l with
          | nil => rw [hpl] at e; cases e
          | cons c r => rw [hpl] at e; cases e; exact hne r hpl

theorem evalNode_in {st st' : TState} {x : NodeTok} {t : Term} (ho : BState.OK n0 st.bn) (h : evalNode nl st x = .ok (st', t)) :
    ∃ an, Good nl n0 st st' an fun E => NodeIn nl E x t an := by
  cases x with
  | iri i =>
    simp only [evalNode] at h
    cases hi : evalIri nl st i with
    | error e => rw [hi] at h; cases h
    | ok s =>
      rw [hi] at h; cases h
      exact ⟨[], .pure ho fun fin _ pref hp => .iri (evalIri_in hi _ pref hp)⟩
  | label l =>
    cases h
    obtain ⟨h1, h2, h3⟩ := BState.node_spec ho l
    exact ⟨[], h1, rfl, rfl, node_step ho l, fun fin hf pref hp => .label (hf.2 _ _ h3)⟩
  | anon =>
    cases h
    exact ⟨[st.bn.next], (anon_step ho).1, rfl, rfl, (anon_step ho).2, fun fin hf pref hp => .anon _⟩

theorem evalVerb_in {st st' : TState} {x : VerbTok} {t : Term} (ho : BState.OK n0 st.bn) (h : evalVerb nl st x = .ok (st', t)) :
    Good nl n0 st st' [] fun E => VerbIn nl E x t := by
  cases x with
  | a => cases h; exact .pure ho fun fin _ pref hp => .a
  | iri i =>
    simp only [evalVerb] at h
    cases hi : evalIri nl st i with
    | error e => rw [hi] at h; cases h
    | ok s => rw [hi] at h; cases h; exact .pure ho fun fin _ pref hp => .iri (evalIri_in hi _ pref hp)

theorem evalLeaf_in {st st' : TState} {x : LeafTok} {t : Term} (ho : BState.OK n0 st.bn) (h : evalLeaf nl st x = .ok (st', t)) :
    ∃ an, Good nl n0 st st' an fun E => LeafIn nl E x t an := by
  cases x with
  | node n =>
    obtain ⟨an, hg⟩ := evalNode_in ho h
    exact ⟨an, hg.mono fun E h => .node h⟩
  | str b =>
    simp only [evalLeaf] at h
    cases hd : decodeLiteral b with
    | error e => rw [hd] at h; cases h
    | ok v => rw [hd] at h; cases h; exact ⟨[], .pure ho fun fin _ pref hp => .str hd⟩
  | strLang b l =>
    simp only [evalLeaf] at h
    cases hd : decodeLiteral b with
    | error e => rw [hd] at h; cases h
    | ok v => rw [hd] at h; cases h; exact ⟨[], .pure ho fun fin _ pref hp => .strLang hd⟩
  | strDt b i =>
    simp only [evalLeaf] at h
    cases hd : decodeLiteral b with
    | error e => rw [hd] at h; cases h
    | ok v =>
      rw [hd] at h
      simp only at h
      cases hi : evalIri nl st i with
      | error e => rw [hi] at h; cases h
      | ok d => rw [hi] at h; cases h; exact ⟨[], .pure ho fun fin _ pref hp => .strDt hd (evalIri_in hi _ pref hp)⟩
  | num k t' =>
    cases h
    cases k
    · exact ⟨[], .pure ho fun fin _ pref hp => .integer _⟩
    · exact ⟨[], .pure ho fun fin _ pref hp => .decimal _⟩
    · exact ⟨[], .pure ho fun fin _ pref hp => .double _⟩
  | bool t' => cases h; exact ⟨[], .pure ho fun fin _ pref hp => .bool _⟩

mutual
theorem evalObj_in : ∀ (x : PObj) {st st' : TState} {x' : TObj}, BState.OK n0 st.bn → evalObj nl st x = .ok (st', x') →
    ∃ an, Good nl n0 st st' an fun E => ObjIn nl E x x' an
  | .leaf l, st, st', x', ho, h => by
    unfold evalObj at h
    split at h
    · cases h
    · next s t e => cases h; obtain ⟨an, g⟩ := evalLeaf_in ho e; exact ⟨an, g.mono fun E h => .leaf h⟩
  | .coll c, st, st', x', ho, h => by
    unfold evalObj at h
    split at h
    · cases h
    · next s t e => cases h; obtain ⟨an, g⟩ := evalColl_in c ho e; exact ⟨an, g.mono fun E h => .coll h⟩
  | .bnpl p, st, st', x', ho, h => by
    unfold evalObj at h
    split at h
    · cases h
    · next s t e => cases h; obtain ⟨an, g⟩ := evalPol_in p ho e; exact ⟨an, g.mono fun E h => .bnpl h⟩
theorem evalObjs_in : ∀ (x : PObjs) {st st' : TState} {x' : TObjs}, BState.OK n0 st.bn → evalObjs nl st x = .ok (st', x') →
    ∃ an, Good nl n0 st st' an fun E => ObjsIn nl E x x' an
  | .one o, st, st', x', ho, h => by
    unfold evalObjs at h
    split at h
    · cases h
    · next s t e => cases h; obtain ⟨an, g⟩ := evalObj_in o ho e; exact ⟨an, g.mono fun E h => .one h⟩
  | .cons o os, st, st', x', ho, h => by
    unfold evalObjs at h
    split at h
    · cases h
    · next s t e =>
      obtain ⟨a, g⟩ := evalObj_in o ho e
      split at h
      · cases h
      · next s2 t2 e2 =>
        cases h
        obtain ⟨b, g2⟩ := evalObjs_in os g.ok e2
        exact ⟨a ++ b, (g.seq g2).mono fun E h => .cons h.1 h.2⟩
theorem evalColl_in : ∀ (x : PColl) {st st' : TState} {x' : TColl}, BState.OK n0 st.bn → evalColl nl st x = .ok (st', x') →
    ∃ an, Good nl n0 st st' an fun E => CollIn nl E x x' an
  | .nil, st, st', x', ho, h => by cases h; exact ⟨[], .pure ho fun _ _ _ _ => .nil⟩
  | .cons o os, st, st', x', ho, h => by
    unfold evalColl at h
    split at h
    · cases h
    · next s t e =>
      obtain ⟨a, g⟩ := evalObj_in o ho e
      split at h
      · cases h
      · next s2 t2 e2 =>
        cases h
        obtain ⟨b, g2⟩ := evalColl_in os g.ok e2
        exact ⟨a ++ b, (g.seq g2).mono fun E h => .cons h.1 h.2⟩
theorem evalPol_in : ∀ (x : PPol) {st st' : TState} {x' : TPol}, BState.OK n0 st.bn → evalPol nl st x = .ok (st', x') →
    ∃ an, Good nl n0 st st' an fun E => PolIn nl E x x' an
  | .last v os k, st, st', x', ho, h => by
    unfold evalPol at h
    split at h
    · cases h
    · next s t e =>
      have g := evalVerb_in ho e
      split at h
      · cases h
      · next s2 t2 e2 =>
        cases h
        obtain ⟨b, g2⟩ := evalObjs_in os g.ok e2
        exact ⟨b, (g.seq g2).mono fun E h => .last h.1 h.2⟩
  | .cons v os k p, st, st', x', ho, h => by
    unfold evalPol at h
    split at h
    · cases h
    · next s t e =>
      have g := evalVerb_in ho e
      split at h
      · cases h
      · next s2 t2 e2 =>
        obtain ⟨b, g2⟩ := evalObjs_in os g.ok e2
        split at h
        · cases h
        · next s3 t3 e3 =>
          cases h
          obtain ⟨c, g3⟩ := evalPol_in p g2.ok e3
          exact ⟨b ++ c, (g.seq (g2.seq g3)).mono fun E h => .cons h.1 h.2.1 h.2.2⟩
end

/-- A statement that is not a directive. -/
theorem evalStmt_in {st st' : TState} {d : PTStmt} {e : EStmt} (ho : BState.OK n0 st.bn) (hb : ¬ d.isBase) (hp : ∀ ns, ¬ d.isPrefix ns)
    (h : evalStmt nl st d = .ok (st', e)) : ∃ an, Good nl n0 st st' an fun E => StmtIn nl E d e an := by
  cases d with
  | pre k ns i => exact absurd rfl (hp ns)
  | base k i => exact absurd trivial hb
  | node x p =>
    simp only [evalStmt] at h
    split at h
    · cases h
    · next s t e1 =>
      obtain ⟨a, g⟩ := evalNode_in ho e1
      cases e2 : evalPol nl s p with
      | error e => rw [e2] at h; cases h
      | ok q =>
        rw [e2] at h; cases h
        obtain ⟨b, g2⟩ := evalPol_in p g.ok e2
        exact ⟨a ++ b, (g.seq g2).mono fun E h => .node h.1 h.2⟩
  | coll c p =>
    simp only [evalStmt] at h
    split at h
    · cases h
    · next s t e1 =>
      obtain ⟨a, g⟩ := evalColl_in c ho e1
      cases e2 : evalPol nl s p with
      | error e => rw [e2] at h; cases h
      | ok q =>
        rw [e2] at h; cases h
        obtain ⟨b, g2⟩ := evalPol_in p g.ok e2
        exact ⟨a ++ b, (g.seq g2).mono fun E h => .coll h.1 h.2⟩
  | bnpl p =>
    simp only [evalStmt] at h
    cases e2 : evalPol nl st p with
    | error e => rw [e2] at h; cases h
    | ok q =>
      rw [e2] at h; cases h
      obtain ⟨b, g2⟩ := evalPol_in p ho e2
      exact ⟨b, g2.mono fun E h => .bnpl h⟩
  | bnplPol c p =>
    simp only [evalStmt] at h
    split at h
    · cases h
    · next s t e1 =>
      obtain ⟨a, g⟩ := evalPol_in c ho e1
      cases e2 : evalPol nl s p with
      | error e => rw [e2] at h; cases h
      | ok q =>
        rw [e2] at h; cases h
        obtain ⟨b, g2⟩ := evalPol_in p g.ok e2
        exact ⟨a ++ b, (g.seq g2).mono fun E h => .bnplPol h.1 h.2⟩

/-! ### The document -/

theorem BaseAt.snoc {b0 b : PStr} {pre : List PTStmt} {d : PTStmt} (h : BaseAt nl b0 pre b) (hd : ¬ d.isBase) : BaseAt nl b0 (pre ++ [d]) b := by
  cases h with
  | initial h => exact .initial (by simpa [or_imp, forall_and] using ⟨h, hd⟩)
  | directive h1 h2 h3 =>
    rw [List.append_assoc, List.cons_append]
    exact .directive h1 h2 (by simpa [or_imp, forall_and] using ⟨h3, hd⟩)

theorem PrefixAt.snoc {b0 ns iri : PStr} {p0 : PStr → Option PStr} {pre : List PTStmt} {d : PTStmt} (h : PrefixAt nl b0 p0 pre ns iri)
    (hd : ¬ d.isPrefix ns) : PrefixAt nl b0 p0 (pre ++ [d]) ns iri := by
  cases h with
  | initial h0 h => exact .initial h0 (by simpa [or_imp, forall_and] using ⟨h, hd⟩)
  | directive h1 h2 h3 =>
    rw [List.append_assoc, List.cons_append]
    exact .directive h1 h2 (by simpa [or_imp, forall_and] using ⟨h3, hd⟩)

/-- The base after the statements, last first. -/
def baseR (nl : PStr → Bool) (b0 : PStr) : List PTStmt → Option PStr
  | [] => some b0
  | .base _ i :: rest => (baseR nl b0 rest).bind fun b => (resolveRef nl b i).toOption
  | _ :: rest => baseR nl b0 rest

/-- The namespace of `ns` after the statements, last first. -/
def prefR (nl : PStr → Bool) (b0 : PStr) (p0 : PStr → Option PStr) (ns : PStr) : List PTStmt → Option PStr
  | [] => p0 ns
  | .pre _ ns' i :: rest => if ns' = ns then (baseR nl b0 rest).bind fun b => (resolveRef nl b i).toOption else prefR nl b0 p0 ns rest
  | _ :: rest => prefR nl b0 p0 ns rest

theorem baseR_skip {b0 : PStr} {r l : List PTStmt} (h : ∀ d ∈ r, ¬ d.isBase) : baseR nl b0 (r ++ l) = baseR nl b0 l := by
  induction r with
  | nil => rfl
  | cons d r ih =>
    have ih := ih fun x hx => h x (by simp [hx])
    have hd := h d (by simp)
    cases d <;> first | exact absurd trivial hd | exact ih

theorem prefR_skip {b0 ns : PStr} {p0 : PStr → Option PStr} {r l : List PTStmt} (h : ∀ d ∈ r, ¬ d.isPrefix ns) :
    prefR nl b0 p0 ns (r ++ l) = prefR nl b0 p0 ns l := by
  induction r with
  | nil => rfl
  | cons d r ih =>
    have ih := ih fun x hx => h x (by simp [hx])
    have hd := h d (by simp)
    cases d with
    | pre k ns' i => rw [List.cons_append, prefR, if_neg (show ¬ ns' = ns from hd), ih]
    | _ => exact ih

theorem toOption_some {α : Type} {e : Except Exc α} {x : α} : e.toOption = some x ↔ e = .ok x := by
  cases e <;> simp [Except.toOption]

theorem baseAt_iff {b0 b : PStr} {pre : List PTStmt} : BaseAt nl b0 pre b ↔ baseR nl b0 pre.reverse = some b := by
  constructor
  · intro h
    induction h with
    | initial h => rw [← List.append_nil (List.reverse _), baseR_skip (by simpa using h)]; rfl
    | directive h1 h2 h3 ih =>
      rw [List.reverse_append, List.reverse_cons, List.append_assoc, baseR_skip (by simpa using h3), List.singleton_append, baseR, ih]
      exact toOption_some.2 h2
  · suffices ∀ (l : List PTStmt) b, baseR nl b0 l = some b → BaseAt nl b0 l.reverse b by
      intro h; simpa using this _ _ h
    intro l
    induction l with
    | nil => intro b h; cases h; exact .initial (by simp)
    | cons d l ih =>
      intro b h
      rw [List.reverse_cons]
      by_cases hd : d.isBase
      · cases d with
        | base k i =>
          rw [baseR] at h
          obtain ⟨b', h1, h2⟩ := Option.bind_eq_some_iff.1 h
          exact .directive (ih _ h1) (toOption_some.1 h2) (by simp)
        | _ => exact hd.elim
      · refine (ih b ?_).snoc hd
        rw [← h]
        exact (baseR_skip (r := [d]) (by simpa using hd)).symm

theorem prefixAt_iff {b0 ns p : PStr} {p0 : PStr → Option PStr} {pre : List PTStmt} :
    PrefixAt nl b0 p0 pre ns p ↔ prefR nl b0 p0 ns pre.reverse = some p := by
  constructor
  · intro h
    cases h with
    | initial h0 h => rw [← List.append_nil (List.reverse _), prefR_skip (by simpa using h)]; exact h0
    | directive h1 h2 h3 =>
      rw [List.reverse_append, List.reverse_cons, List.append_assoc, prefR_skip (by simpa using h3), List.singleton_append, prefR, if_pos rfl,
        baseAt_iff.1 h1]
      exact toOption_some.2 h2
  · suffices ∀ (l : List PTStmt), prefR nl b0 p0 ns l = some p → PrefixAt nl b0 p0 l.reverse ns p by
      intro h; simpa using this _ h
    intro l
    induction l with
    | nil => intro h; exact .initial h (by simp)
    | cons d l ih =>
      intro h
      rw [List.reverse_cons]
      by_cases hd : d.isPrefix ns
      · cases d with
        | pre k ns' i =>
          obtain rfl : ns' = ns := hd
          rw [prefR, if_pos rfl] at h
          obtain ⟨b', h1, h2⟩ := Option.bind_eq_some_iff.1 h
          exact .directive (baseAt_iff.2 (by simpa using h1)) (toOption_some.1 h2) (by simp)
        | _ => exact hd.elim
      · refine (ih ?_).snoc hd
        rw [← h]
        exact (prefR_skip (r := [d]) (by simpa using hd)).symm

/-- The base is determined by the statements before. -/
theorem C65_base_unique {b0 b b' : PStr} {pre : List PTStmt} (h : BaseAt nl b0 pre b) (h' : BaseAt nl b0 pre b') : b = b' := by
  rw [baseAt_iff] at h h'; rw [h] at h'; exact Option.some.inj h'

theorem C65_prefix_unique {b0 ns p p' : PStr} {p0 : PStr → Option PStr} {pre : List PTStmt} (h : PrefixAt nl b0 p0 pre ns p)
    (h' : PrefixAt nl b0 p0 pre ns p') : p = p' := by
  rw [prefixAt_iff] at h h'; rw [h] at h'; exact Option.some.inj h'

theorem PrefixAt.of_snoc {b0 ns iri : PStr} {p0 : PStr → Option PStr} {pre : List PTStmt} {d : PTStmt} (h : PrefixAt nl b0 p0 (pre ++ [d]) ns iri)
    (hd : ¬ d.isPrefix ns) : PrefixAt nl b0 p0 pre ns iri := by
  rw [prefixAt_iff] at h ⊢
  rw [List.reverse_append, prefR_skip (by simpa using hd)] at h
  exact h

/-- The state after the statements `pre`. -/
structure At (nl : PStr → Bool) (b0 : PStr) (p0 : PStr → Option PStr) (pre : List PTStmt) (st : TState) : Prop where
  base : BaseAt nl b0 pre st.base
  prefixes : ∀ ns p, st.prefixes.get? ns = some p ↔ PrefixAt nl b0 p0 pre ns p

theorem At.snoc {b0 : PStr} {p0 : PStr → Option PStr} {pre : List PTStmt} {d : PTStmt} {st st' : TState} (h : At nl b0 p0 pre st)
    (hb : ¬ d.isBase) (hp : ∀ ns, ¬ d.isPrefix ns) (e1 : st'.base = st.base) (e2 : st'.prefixes = st.prefixes) : At nl b0 p0 (pre ++ [d]) st' where
  base := e1 ▸ h.base.snoc hb
  prefixes ns p := by
    rw [e2, h.prefixes]
    exact ⟨fun x => x.snoc (hp ns), fun x => x.of_snoc (hp ns)⟩

theorem At.base_dir {b0 : PStr} {p0 : PStr → Option PStr} {pre : List PTStmt} {st : TState} {k : Bool} {i iri : PStr} (h : At nl b0 p0 pre st)
    (hr : resolveRef nl st.base i = .ok iri) : At nl b0 p0 (pre ++ [.base k i]) { st with base := iri } where
  base := .directive h.base hr (by simp)
  prefixes ns p := (h.prefixes ns p).trans ⟨fun x => x.snoc (fun h => h), fun x => x.of_snoc (fun h => h)⟩

theorem At.prefix_dir {b0 : PStr} {p0 : PStr → Option PStr} {pre : List PTStmt} {st : TState} {k : Bool} {ns i iri : PStr} (h : At nl b0 p0 pre st)
    (hr : resolveRef nl st.base i = .ok iri) : At nl b0 p0 (pre ++ [.pre k ns i]) { st with prefixes := st.prefixes.set ns iri } where
  base := h.base.snoc (fun h => h)
  prefixes ns' p := by
    simp only [Dict.get?_set]
    split
    · next e =>
      subst e
      have hd : PrefixAt nl b0 p0 (pre ++ [.pre k ns i]) ns iri := .directive h.base hr (by simp)
      exact ⟨fun e => by cases e; exact hd, fun x => by rw [C65_prefix_unique x hd]⟩
    · next e => exact (h.prefixes ns' p).trans ⟨fun x => x.snoc e, fun x => x.of_snoc e⟩

theorem evalStmts_in {b0 : PStr} {p0 : PStr → Option PStr} : ∀ (ds pre : List PTStmt) {st st' : TState} {es : List EStmt}, At nl b0 p0 pre st →
    BState.OK n0 st.bn → evalStmts nl st ds = .ok (st', es) →
    BState.OK n0 st'.bn ∧ At nl b0 p0 (pre ++ ds) st' ∧
      ∃ an, Step st.bn st'.bn an ∧ ∀ fin : BState, st'.bn.Ext fin → DocIn nl b0 p0 fin.map.get? pre ds es an
  | [], pre, st, st', es, ha, ho, h => by
    cases h
    exact ⟨ho, by simpa using ha, [], .refl _, fun _ _ => .nil⟩
  | d :: ds, pre, st, st', es, ha, ho, h => by
    unfold evalStmts at h
    split at h
    · cases h
    next s1 e1 h1 =>
    split at h
    · cases h
    next s2 es2 h2 =>
    cases h
    have key : BState.OK n0 s1.bn ∧ At nl b0 p0 (pre ++ [d]) s1 ∧
        ∃ a, Step st.bn s1.bn a ∧ ∀ fin : BState, s1.bn.Ext fin → StmtIn nl ⟨st.base, PrefixAt nl b0 p0 pre, fin.map.get?⟩ d e1 a := by
      by_cases hb : d.isBase
      · cases d with
        | base k i =>
          simp only [evalStmt] at h1
          cases hr : resolveRef nl st.base i with
          | error e => rw [hr] at h1; cases h1
          | ok iri =>
            rw [hr] at h1; cases h1
            exact ⟨ho, ha.base_dir hr, [], .refl _, fun _ _ => .base hr⟩
        | _ => exact hb.elim
      · by_cases hp : ∃ ns, d.isPrefix ns
        · obtain ⟨ns, hp⟩ := hp
          cases d with
          | pre k ns' i =>
            simp only [evalStmt] at h1
            cases hr : resolveRef nl st.base i with
            | error e => rw [hr] at h1; cases h1
            | ok iri =>
              rw [hr] at h1; cases h1
              exact ⟨ho, ha.prefix_dir hr, [], .refl _, fun _ _ => .pre hr⟩
          | _ => exact hp.elim
        · obtain ⟨a, g⟩ := evalStmt_in ho hb (fun ns h => hp ⟨ns, h⟩) h1
          exact ⟨g.ok, ha.snoc hb (fun ns h => hp ⟨ns, h⟩) g.base g.prefixes, a, g.step,
            fun fin hf => g.rel fin hf _ fun ns p => (ha.prefixes ns p).1⟩
    obtain ⟨k1, k2, a, k3, k4⟩ := key
    obtain ⟨r1, r2, b, r3, r4⟩ := evalStmts_in ds _ k2 k1 h2
    refine ⟨r1, by simpa using r2, a ++ b, k3.trans r3, fun fin hf => ?_⟩
    exact .cons ha.base (k4 fin (r3.ext.trans hf)) (r4 fin hf)

/-! ### Every document with a meaning is accepted -/

/-- The state is one in which names mean what they mean in `E`. -/
structure Fits (st : TState) (E : Env) : Prop where
  base : st.base = E.base
  pref : ∀ ns p, E.pref ns p → st.prefixes.get? ns = some p

theorem Good.fits {st st' : TState} {an : List Nat} {R : Env → Prop} {E : Env} (g : Good nl n0 st st' an R) (h : Fits st E) : Fits st' E :=
  ⟨g.base.trans h.base, fun ns p x => by rw [g.prefixes]; exact h.pref ns p x⟩

theorem evalIri_ok {E : Env} {i : IriTok} {s : PStr} (h : IriIn nl E i s) {st : TState} (hf : Fits st E) : evalIri nl st i = .ok s := by
  cases h with
  | ref h => show resolveRef nl st.base _ = _; rw [hf.base]; exact h
  | @pname ns loc p _ hp h =>
    show resolvePname nl st ns loc = _
    unfold resolvePname
    rw [hf.pref ns p hp]
    cases h with
    | @join l hd hne =>
      simp only [hd]
      split
      · next r e => rw [e] at hne; exact absurd rfl hne
      · rfl
    | @angle l r s hd e h =>
      simp only [hd, e]
      rw [hf.base]; exact h

theorem evalNode_ok {E : Env} {x : NodeTok} {t : Term} {an : List Nat} (h : NodeIn nl E x t an) {st : TState} (hf : Fits st E) :
    ∃ r, evalNode nl st x = .ok r := by
  cases h with
  | iri h => simp only [evalNode, evalIri_ok h hf]; exact ⟨_, rfl⟩
  | label h => exact ⟨_, rfl⟩
  | anon => exact ⟨_, rfl⟩

theorem evalVerb_ok {E : Env} {x : VerbTok} {t : Term} (h : VerbIn nl E x t) {st : TState} (hf : Fits st E) : ∃ r, evalVerb nl st x = .ok r := by
  cases h with
  | a => exact ⟨_, rfl⟩
  | iri h => simp only [evalVerb, evalIri_ok h hf]; exact ⟨_, rfl⟩

theorem evalLeaf_ok {E : Env} {x : LeafTok} {t : Term} {an : List Nat} (h : LeafIn nl E x t an) {st : TState} (hf : Fits st E) :
    ∃ r, evalLeaf nl st x = .ok r := by
  cases h with
  | node h => exact evalNode_ok h hf
  | str h => simp only [evalLeaf, h]; exact ⟨_, rfl⟩
  | strLang h => simp only [evalLeaf, h]; exact ⟨_, rfl⟩
  | strDt h h' => simp only [evalLeaf, h, evalIri_ok h' hf]; exact ⟨_, rfl⟩
  | _ => exact ⟨_, rfl⟩

mutual
theorem evalObj_ok : ∀ (x : PObj) {E : Env} {x' : TObj} {an : List Nat}, ObjIn nl E x x' an → ∀ {st : TState}, BState.OK n0 st.bn → Fits st E →
    ∃ r, evalObj nl st x = .ok r
  | .leaf l, E, x', an, h, st, ho, hf => by
    cases h with | leaf h => obtain ⟨⟨s, t⟩, e⟩ := evalLeaf_ok h hf; unfold evalObj; rw [e]; exact ⟨_, rfl⟩
  | .coll l, E, x', an, h, st, ho, hf => by
    cases h with | coll h => obtain ⟨⟨s, t⟩, e⟩ := evalColl_ok l h ho hf; unfold evalObj; rw [e]; exact ⟨_, rfl⟩
  | .bnpl l, E, x', an, h, st, ho, hf => by
    cases h with | bnpl h => obtain ⟨⟨s, t⟩, e⟩ := evalPol_ok l h ho hf; unfold evalObj; rw [e]; exact ⟨_, rfl⟩
theorem evalObjs_ok : ∀ (x : PObjs) {E : Env} {x' : TObjs} {an : List Nat}, ObjsIn nl E x x' an → ∀ {st : TState}, BState.OK n0 st.bn → Fits st E →
    ∃ r, evalObjs nl st x = .ok r
  | .one l, E, x', an, h, st, ho, hf => by
    cases h with | one h => obtain ⟨⟨s, t⟩, e⟩ := evalObj_ok l h ho hf; unfold evalObjs; rw [e]; exact ⟨_, rfl⟩
  | .cons o os, E, x', an, h, st, ho, hf => by
    cases h with
    | cons h h2 =>
      obtain ⟨⟨s, t⟩, e⟩ := evalObj_ok o h ho hf
      obtain ⟨_, g⟩ := evalObj_in o ho e
      obtain ⟨⟨s2, t2⟩, e2⟩ := evalObjs_ok os h2 g.ok (g.fits hf)
      unfold evalObjs; simp only [e, e2]; exact ⟨_, rfl⟩
theorem evalColl_ok : ∀ (x : PColl) {E : Env} {x' : TColl} {an : List Nat}, CollIn nl E x x' an → ∀ {st : TState}, BState.OK n0 st.bn → Fits st E →
    ∃ r, evalColl nl st x = .ok r
  | .nil, E, x', an, h, st, ho, hf => ⟨_, rfl⟩
  | .cons o os, E, x', an, h, st, ho, hf => by
    cases h with
    | cons h h2 =>
      obtain ⟨⟨s, t⟩, e⟩ := evalObj_ok o h ho hf
      obtain ⟨_, g⟩ := evalObj_in o ho e
      obtain ⟨⟨s2, t2⟩, e2⟩ := evalColl_ok os h2 g.ok (g.fits hf)
      unfold evalColl; simp only [e, e2]; exact ⟨_, rfl⟩
theorem evalPol_ok : ∀ (x : PPol) {E : Env} {x' : TPol} {an : List Nat}, PolIn nl E x x' an → ∀ {st : TState}, BState.OK n0 st.bn → Fits st E →
    ∃ r, evalPol nl st x = .ok r
  | .last v os k, E, x', an, h, st, ho, hf => by
    cases h with
    | last h h2 =>
      obtain ⟨⟨s, t⟩, e⟩ := evalVerb_ok h hf
      have g := evalVerb_in ho e
      obtain ⟨⟨s2, t2⟩, e2⟩ := evalObjs_ok os h2 g.ok (g.fits hf)
      unfold evalPol; simp only [e, e2]; exact ⟨_, rfl⟩
  | .cons v os k p, E, x', an, h, st, ho, hf => by
    cases h with
    | cons h h2 h3 =>
      obtain ⟨⟨s, t⟩, e⟩ := evalVerb_ok h hf
      have g := evalVerb_in ho e
      obtain ⟨⟨s2, t2⟩, e2⟩ := evalObjs_ok os h2 g.ok (g.fits hf)
      obtain ⟨_, g2⟩ := evalObjs_in os g.ok e2
      obtain ⟨⟨s3, t3⟩, e3⟩ := evalPol_ok p h3 g2.ok (g2.fits (g.fits hf))
      unfold evalPol; simp only [e, e2, e3]; exact ⟨_, rfl⟩
end

theorem evalStmt_ok {E : Env} {x : PTStmt} {x' : EStmt} {an : List Nat} (h : StmtIn nl E x x' an) {st : TState} (ho : BState.OK n0 st.bn)
    (hf : Fits st E) : ∃ r, evalStmt nl st x = .ok r := by
  cases h with
  | pre h => simp only [evalStmt, hf.base, h]; exact ⟨_, rfl⟩
  | base h => simp only [evalStmt, hf.base, h]; exact ⟨_, rfl⟩
  | node h h2 =>
    obtain ⟨⟨s, t⟩, e⟩ := evalNode_ok h hf
    obtain ⟨_, g⟩ := evalNode_in ho e
    obtain ⟨⟨s2, t2⟩, e2⟩ := evalPol_ok _ h2 g.ok (g.fits hf)
    simp only [evalStmt, e, e2]; exact ⟨_, rfl⟩
  | coll h h2 =>
    obtain ⟨⟨s, t⟩, e⟩ := evalColl_ok _ h ho hf
    obtain ⟨_, g⟩ := evalColl_in _ ho e
    obtain ⟨⟨s2, t2⟩, e2⟩ := evalPol_ok _ h2 g.ok (g.fits hf)
    simp only [evalStmt, e, e2]; exact ⟨_, rfl⟩
  | bnpl h =>
    obtain ⟨⟨s, t⟩, e⟩ := evalPol_ok _ h ho hf
    simp only [evalStmt, e]; exact ⟨_, rfl⟩
  | bnplPol h h2 =>
    obtain ⟨⟨s, t⟩, e⟩ := evalPol_ok _ h ho hf
    obtain ⟨_, g⟩ := evalPol_in _ ho e
    obtain ⟨⟨s2, t2⟩, e2⟩ := evalPol_ok _ h2 g.ok (g.fits hf)
    simp only [evalStmt, e, e2]; exact ⟨_, rfl⟩

theorem evalStmts_ok {b0 : PStr} {p0 : PStr → Option PStr} {label : PStr → Option Nat} : ∀ (ds pre : List PTStmt) {es : List EStmt} {an : List Nat},
    DocIn nl b0 p0 label pre ds es an → ∀ {st : TState}, At nl b0 p0 pre st → BState.OK n0 st.bn → ∃ r, evalStmts nl st ds = .ok r
  | [], pre, es, an, h, st, ha, ho => ⟨_, rfl⟩
  | d :: ds, pre, es, an, h, st, ha, ho => by
    cases h with
    | cons hb hs hd =>
      have eb := C65_base_unique hb ha.base
      have hf : Fits st ⟨_, PrefixAt nl b0 p0 pre, label⟩ := ⟨eb.symm, fun ns p x => (ha.prefixes ns p).2 x⟩
      obtain ⟨⟨s1, e1⟩, h1⟩ := evalStmt_ok hs ho hf
      have h1' : evalStmts nl st [d] = .ok (s1, [e1]) := by simp only [evalStmts, h1]
      obtain ⟨k1, k2, _⟩ := evalStmts_in [d] pre ha ho h1'
      obtain ⟨⟨s2, es2⟩, h2⟩ := evalStmts_ok ds _ hd k2 k1
      unfold evalStmts
      simp only [h1, h2]
      exact ⟨_, rfl⟩

/-! ### The theorems -/

/-- The state at the beginning of `parse`. -/
def TState.start (base : PStr) (next : Nat) : TState := { base, prefixes := initialPrefixes, bn := { map := [], next } }

/-- The prefixes that need no directive. -/
def knownPrefixes : PStr → Option PStr := fun ns =>
  if ns = py! "rdf" then some (py! "http://www.w3.org/1999/02/22-rdf-syntax-ns#")
  else if ns = py! "xsd" then some (py! "http://www.w3.org/2001/XMLSchema#") else none

theorem At.start (base : PStr) (next : Nat) : At nl base knownPrefixes [] (TState.start base next) where
  base := .initial (by simp)
  prefixes ns p := by
    rw [prefixAt_iff]
    show Dict.get? initialPrefixes ns = some p ↔ knownPrefixes ns = some p
    unfold initialPrefixes knownPrefixes
    simp only [Dict.get?, eq_comm (a := ns)]
    rfl

/-- Every name of a document means what the directives before it, and only they, say. Labels are one-to-one with their nodes, and each `[]` is a new node. -/
theorem C65_scope (ds : List PTStmt) (base : PStr) (next : Nat) {st' : TState} {es : List EStmt}
    (h : evalStmts nl (TState.start base next) ds = .ok (st', es)) :
    ∃ label an, DocIn nl base knownPrefixes label [] ds es an ∧
      (∀ l l' k, label l = some k → label l' = some k → l = l') ∧ an.Nodup ∧ (∀ l k, label l = some k → k ∉ an) ∧
      (∀ k, k ∈ an ∨ (∃ l, label l = some k) → next ≤ k ∧ k < st'.bn.next) := by
  obtain ⟨h1, _, an, h3, h4⟩ := evalStmts_in ds [] (At.start base next) (BState.OK.init next) h
  refine ⟨st'.bn.map.get?, an, h4 _ (.refl _), h1.inj, h3.nodup, fun l k hl hk => h3.anon k hk l hl, ?_⟩
  rintro k (hk | ⟨l, hl⟩)
  · exact h3.range k hk
  · exact h1.range l k hl

/-- A document is accepted if and only if each of its names has a meaning where it stands. -/
theorem C65_accepts (ds : List PTStmt) (base : PStr) (next : Nat) :
    (∃ r, evalStmts nl (TState.start base next) ds = .ok r) ↔ ∃ label es an, DocIn nl base knownPrefixes label [] ds es an := by
  constructor
  · rintro ⟨⟨st', es⟩, h⟩
    obtain ⟨label, an, h, _⟩ := C65_scope ds base next h
    exact ⟨label, es, an, h⟩
  · rintro ⟨label, es, an, h⟩
    exact evalStmts_ok ds [] h (At.start base next) (BState.OK.init next)

/-- Non-vacuity: `@prefix p: <x#> . <> a p:o . @base <b> . @prefix p: <> . <> a p:o .` -/
example : (evalStmts (fun _ => true) (TState.start [] 0)
    [.pre false (py! "p") (py! "x#"), .node (.iri (.ref [])) (.last .a (.one (.leaf (.node (.iri (.pname (py! "p") (py! "o")))))) 0),
     .base false (py! "b"), .pre true (py! "p") [],
     .node (.iri (.ref [])) (.last .a (.one (.leaf (.node (.iri (.pname (py! "p") (py! "o")))))) 0)]).map (fun r => (genStmts 0 r.2).2.map fun t => (t.s, t.o)) =
    .ok [(.named [], .named (py! "x#o")), (.named (py! "b"), .named (py! "bo"))] := by decide

end Verif.Turtle
