import Verif.Spec.TurtleNames
import Verif.Lemmas.UrlChars
import Verif.Lemmas.Escape
import Verif.Lemmas.Hex
import Verif.Props.TurtleLex
import Verif.Props.TurtleEnv
import Verif.Spec.TurtleReads
import Verif.Lemmas.NTGrammar
import Mathlib.Data.List.Induction
/-
C120: the characters of the IRIs in a parsed Turtle document. C121: what prefixed names stand for.
-/
namespace Verif.Turtle
open Spec

/-! ### The tokens of a document -/

theorem Spec.Written.tok {D : Dialect} {ts : List Tok} {s : PStr} (h : Written D ts s) : ∀ t ∈ ts, ∃ w, TokText D t w ∧ w <:+: s := by
  induction h with
  | nil => intro t ht; cases ht
  | @cons u t w ts r hu ht hr ih =>
    intro x hx
    rcases List.mem_cons.1 hx with rfl | hx
    · exact ⟨w, ht, u, r, by simp⟩
    · obtain ⟨w', h1, h2⟩ := ih x hx
      exact ⟨w', h1, h2.trans ⟨u ++ w, [], by simp⟩⟩

/-! ### Local names -/

/-- A character of IRIs that is a character. -/
def IriCode (c : Nat) : Prop := IriChar c ∧ c < 0x110000

theorem pnChars_legal {c : Nat} (h : Spec.pnChars c) : IriCode c := by
  simp only [Spec.pnChars, Spec.pnCharsU, Spec.pnCharsBase, isAlpha, isDigitChar] at h
  refine ⟨⟨by omega, ?_⟩, by omega⟩
  simp
  omega

theorem decode_local {c : Nat} (h : c ∈ py! "_~.-!$&'()*+,;=/?#@%") (rest : PStr) :
    decodeLiteral (0x5C :: c :: rest) = (decodeLiteral rest).map (c :: ·) := by
  have hc : c ≠ 117 ∧ c ≠ 85 ∧ escapeMap c = c := by
    have : ∀ c ∈ py! "_~.-!$&'()*+,;=/?#@%", c ≠ 117 ∧ c ≠ 85 ∧ escapeMap c = c := by decide
    exact this c h
  have := decodeLiteral_esc (l := [0x5C, c]) (rest := rest) (v := c) (by simp) (by simp [escAt, hc])
  simpa using this

/-- What is needed of the text of a local name. -/
def LocalOk (w : PStr) : Prop := ∃ l, LocalMeans w l ∧ decodeLiteral w = .ok l ∧ AllIn IriCode l

theorem LocalOk.char {c : Nat} (h : IriCode c) {w : PStr} (hw : LocalOk w) : LocalOk (c :: w) := by
  obtain ⟨l, h1, h2, h3⟩ := hw
  have hc : c ≠ 92 := by rintro rfl; exact h.1.2 (by decide)
  exact ⟨c :: l, .char hc h1, by rw [decodeLiteral_plain hc, h2]; rfl, .cons h h3⟩

theorem plx_ok {p w : PStr} (h : Plx p) (hw : LocalOk w) : LocalOk (p ++ w) := by
  cases h with
  | @percent a b ha hb =>
    have hx : ∀ {c}, isHexChar c → IriCode c := by
      intro c h
      simp only [isHexChar, isDigitChar] at h
      refine ⟨⟨by omega, ?_⟩, by omega⟩
      simp
      omega
    exact .char (by unfold IriCode IriChar; decide) (.char (hx ha) (.char (hx hb) hw))
  | @esc c hc =>
    obtain ⟨l, h1, h2, h3⟩ := hw
    have hi : IriCode c := by
      have : ∀ c ∈ py! "_~.-!$&'()*+,;=/?#@%", IriCode c := by unfold IriCode IriChar; decide
      exact this c hc
    exact ⟨c :: l, .esc h1, by show decodeLiteral (0x5C :: c :: w) = _; rw [decode_local hc, h2]; rfl, .cons hi h3⟩

theorem localItems_ok : ∀ (ps : List PStr), (∀ p ∈ ps, LocalItem p) → LocalOk ps.flatten
  | [], _ => ⟨[], .nil, rfl, .nil⟩
  | p :: ps, h => by
    have ih := localItems_ok ps fun q hq => h q (List.mem_cons_of_mem _ hq)
    rw [List.flatten_cons]
    rcases h p (List.mem_cons_self ..) with ⟨c, rfl, hc⟩ | hp
    · refine .char ?_ ih
      rcases hc with hc | rfl | rfl
      · exact pnChars_legal hc
      · unfold IriCode IriChar; decide
      · unfold IriCode IriChar; decide
    · exact plx_ok hp ih

theorem pnLocal_ok {w : PStr} (h : PnLocal w) : LocalOk w := by
  rcases h with rfl | ⟨p, t, rfl, hp, ps, rfl, hps, _⟩
  · exact ⟨[], .nil, rfl, .nil⟩
  · have ih := localItems_ok ps hps
    rcases hp with ⟨c, rfl, hc⟩ | hp
    · refine .char ?_ ih
      rcases hc with hc | rfl | hc
      · exact pnChars_legal (.inl hc)
      · unfold IriCode IriChar; decide
      · exact pnChars_legal (.inr (.inr (.inl hc)))
    · exact plx_ok hp ih

theorem LocalMeans.unique {w l l' : PStr} (h : LocalMeans w l) (h' : LocalMeans w l') : l = l' := by
  induction h generalizing l' with
  | nil => cases h'; rfl
  | char hc _ ih =>
    cases h' with
    | char _ h' => rw [ih h']
    | esc => exact absurd rfl hc
  | esc _ ih =>
    cases h' with
    | char hc _ => exact absurd rfl hc
    | esc h' => rw [ih h']

/-! ### IRIs -/

section
variable {Q : Nat → Prop} {nl : PStr → Bool}

/-- What is needed of the characters allowed. -/
structure NameSet (Q : Nat → Prop) : Prop extends CharSet Q where
  iri : ∀ c, IriCode c → Q c
  lt : ¬ Q 60

/-- The tokens are as the parser finds them, and IRI references have only characters allowed. -/
def ToksIn (Q : Nat → Prop) (ts : List Tok) : Prop :=
  (∀ b, .iri (.ref b) ∈ ts → ∀ s, decodeIriref b = .ok s → AllIn Q s) ∧ ∀ ns loc, .iri (.pname ns loc) ∈ ts → PnLocal loc

theorem ToksIn.sub {ts ts' : List Tok} (h : ToksIn Q ts) (hs : ∀ t ∈ ts', t ∈ ts) : ToksIn Q ts' :=
  ⟨fun b hb => h.1 b (hs _ hb), fun ns loc hb => h.2 ns loc (hs _ hb)⟩

theorem resolveRef_in (hQ : CharSet Q) {b t s : PStr} (hb : AllIn Q b) (ht : ∀ s, decodeIriref t = .ok s → AllIn Q s)
    (h : resolveRef nl b t = .ok s) : AllIn Q s := by
  unfold resolveRef at h
  split at h
  · cases h
  · next u e => exact smartUrljoin_in hQ hb (ht u e) h

variable (hQ : NameSet Q)
include hQ

theorem pname_in {base p loc : PStr} (hp : AllIn Q p) (hl : PnLocal loc) :
    ∃ l, LocalMeans loc l ∧ AllIn Q (p ++ l) ∧ ∀ s, PnameIri nl base p loc s ↔ s = p ++ l := by
  obtain ⟨l, h1, h2, h3⟩ := pnLocal_ok hl
  have h4 : AllIn Q (p ++ l) := hp.append fun c hc => hQ.iri c (h3 c hc)
  have h5 : (p ++ l).head? ≠ some 60 := by
    intro h
    exact hQ.lt (h4 60 (List.mem_of_mem_head? h))
  refine ⟨l, h1, h4, fun s => ⟨fun h => ?_, ?_⟩⟩
  · cases h with
    | join hd _ => rw [h2] at hd; cases hd; rfl
    | angle hd e _ => rw [h2] at hd; cases hd; rw [e] at h5; exact absurd rfl h5
  · rintro rfl
    exact .join h2 h5

/-- An environment in which the base and all namespaces have only characters allowed. -/
structure EnvIn (Q : Nat → Prop) (E : Env) : Prop where
  base : AllIn Q E.base
  pref : ∀ ns p, E.pref ns p → AllIn Q p

variable {E : Env} (hE : EnvIn Q E)
include hE

theorem iriIn_in {i : IriTok} {s : PStr} (h : IriIn nl E i s) (ht : ToksIn Q [.iri i]) : AllIn Q s := by
  cases h with
  | ref h => exact resolveRef_in hQ.toCharSet hE.base (ht.1 _ (by simp)) h
  | pname h1 h2 =>
    obtain ⟨l, _, h4, h5⟩ := pname_in (nl := nl) (base := E.base) hQ (hE.pref _ _ h1) (ht.2 _ _ (List.mem_singleton_self _))
    rw [(h5 _).1 h2]; exact h4

/-- A term one of whose IRIs has a character not allowed. -/
def BadTerm (Q : Nat → Prop) (t : Term) : Prop := ∃ i, TermHasIri t i ∧ ¬ AllIn Q i

omit hE hQ in
theorem not_bad_named {s : PStr} (h : AllIn Q s) : ¬ BadTerm Q (.named s) := by
  rintro ⟨i, hi | ⟨_, _, hi⟩, hn⟩
  · cases hi; exact hn h
  · cases hi
omit hE hQ in
theorem not_bad_bnode {b : Nat} : ¬ BadTerm Q (.bnode b) := by
  rintro ⟨i, hi | ⟨_, _, hi⟩, hn⟩ <;> cases hi
omit hE hQ in
theorem not_bad_gen {b : Nat} : ¬ BadTerm Q (.gen b) := by
  rintro ⟨i, hi | ⟨_, _, hi⟩, hn⟩ <;> cases hi
omit hE hQ in
theorem not_bad_lit {v : PStr} {l : Option PStr} {s : PStr} (h : AllIn Q s) : ¬ BadTerm Q (.lit v l (some s)) := by
  rintro ⟨i, hi | ⟨_, _, hi⟩, hn⟩
  · cases hi
  · cases hi; exact hn h
omit hE hQ in
theorem not_bad_lang {v : PStr} {l : Option PStr} : ¬ BadTerm Q (.lit v l none) := by
  rintro ⟨i, hi | ⟨_, _, hi⟩, hn⟩ <;> cases hi

omit hE in
theorem const_in (s : PStr) (h : ∀ c ∈ s, IriCode c) : AllIn Q s := fun c hc => hQ.iri c (h c hc)

theorem nodeIn_ok {x : NodeTok} {t : Term} {an : List Nat} (h : NodeIn nl E x t an) (ht : ToksIn Q x.toks) : ¬ BadTerm Q t := by
  cases h with
  | iri h => exact not_bad_named (iriIn_in hQ hE h ht)
  | label => exact not_bad_bnode
  | anon => exact not_bad_bnode

theorem verbIn_ok {x : VerbTok} {t : Term} (h : VerbIn nl E x t) (ht : ToksIn Q x.toks) : ¬ BadTerm Q t := by
  cases h with
  | a => exact not_bad_named (const_in hQ _ (by unfold IriCode IriChar; decide))
  | iri h => exact not_bad_named (iriIn_in hQ hE h ht)

theorem leafIn_ok {x : LeafTok} {t : Term} {an : List Nat} (h : LeafIn nl E x t an) (ht : ToksIn Q x.toks) : ¬ BadTerm Q t := by
  cases h with
  | node h => exact nodeIn_ok hQ hE h ht
  | strLang => exact not_bad_lang
  | strDt _ h => exact not_bad_lit (iriIn_in hQ hE h (ht.sub (by simp [LeafTok.toks])))
  | _ => exact not_bad_lit (const_in hQ _ (by unfold IriCode IriChar; decide))

mutual
theorem objIn_ok : ∀ (x : PObj) {x' : TObj} {an : List Nat}, ObjIn nl E x x' an → ToksIn Q x.toks → ¬ x'.Any (BadTerm Q)
  | .leaf _, _, _, .leaf h, ha => leafIn_ok hQ hE h ha
  | .coll c, _, _, .coll h, ha => collIn_ok c h (ha.sub fun t ht => List.mem_cons_of_mem _ ht)
  | .bnpl p, _, _, .bnpl h, ha => polIn_ok p h (ha.sub fun t ht => List.mem_cons_of_mem _ (List.mem_append_left _ ht))
theorem objsIn_ok : ∀ (x : PObjs) {x' : TObjs} {an : List Nat}, ObjsIn nl E x x' an → ToksIn Q x.toks → ¬ x'.Any (BadTerm Q)
  | .one o, _, _, .one h, ha => objIn_ok o h ha
  | .cons o os, _, _, .cons h h', ha => fun hx =>
    hx.elim (objIn_ok o h (ha.sub fun t ht => List.mem_append_left _ ht))
      (objsIn_ok os h' (ha.sub fun t ht => List.mem_append_right _ (List.mem_cons_of_mem _ ht)))
theorem collIn_ok : ∀ (x : PColl) {x' : TColl} {an : List Nat}, CollIn nl E x x' an → ToksIn Q x.toks → ¬ x'.Any (BadTerm Q)
  | .nil, _, _, .nil, ha => fun hx => hx
  | .cons o os, _, _, .cons h h', ha => fun hx =>
    hx.elim (objIn_ok o h (ha.sub fun t ht => List.mem_append_left _ ht))
      (collIn_ok os h' (ha.sub fun t ht => List.mem_append_right _ ht))
theorem polIn_ok : ∀ (x : PPol) {x' : TPol} {an : List Nat}, PolIn nl E x x' an → ToksIn Q x.toks → ¬ x'.Any (BadTerm Q)
  | .last v os k, _, _, .last hv h, ha => fun hx => hx.elim
      (verbIn_ok hQ hE hv (ha.sub fun t ht => List.mem_append_left _ (List.mem_append_left _ ht)))
      (objsIn_ok os h (ha.sub fun t ht => List.mem_append_left _ (List.mem_append_right _ ht)))
  | .cons v os k p, _, _, .cons hv h h', ha => fun hx => hx.elim
      (verbIn_ok hQ hE hv (ha.sub fun t ht => List.mem_append_left _ (List.mem_append_left _ (List.mem_append_left _ ht)))) fun hx => hx.elim
      (objsIn_ok os h (ha.sub fun t ht => List.mem_append_left _ (List.mem_append_left _ (List.mem_append_right _ ht))))
      (polIn_ok p h' (ha.sub fun t ht => List.mem_append_right _ ht))
end

theorem stmtIn_ok {x : PTStmt} {e : EStmt} {an : List Nat} (h : StmtIn nl E x e an) (ht : ToksIn Q x.toks) : ¬ e.Any (BadTerm Q) := by
  cases h with
  | pre => exact fun hx => hx
  | base => exact fun hx => hx
  | node h h' => exact fun hx => hx.elim (nodeIn_ok hQ hE h (ht.sub (by simp +contextual [TStmt.toks]))) (polIn_ok hQ hE _ h' (ht.sub (by simp +contextual [TStmt.toks])))
  | coll h h' => exact fun hx => hx.elim (collIn_ok hQ hE _ h (ht.sub (by simp +contextual [TStmt.toks]))) (polIn_ok hQ hE _ h' (ht.sub (by simp +contextual [TStmt.toks])))
  | bnpl h => exact polIn_ok hQ hE _ h (ht.sub (by simp +contextual [TStmt.toks]))
  | bnplPol h h' => exact fun hx => hx.elim (polIn_ok hQ hE _ h (ht.sub (by simp +contextual [TStmt.toks]))) (polIn_ok hQ hE _ h' (ht.sub (by simp +contextual [TStmt.toks])))

omit hE

theorem baseAt_in {b0 b : PStr} (hb0 : AllIn Q b0) {pre : List PTStmt} (h : BaseAt nl b0 pre b) (ht : ToksIn Q (docToks pre)) : AllIn Q b := by
  induction h with
  | initial => exact hb0
  | @directive l k i r b b' _ h _ ih =>
    refine resolveRef_in hQ.toCharSet (ih (ht.sub (by simp +contextual [docToks]))) (ht.1 i ?_) h
    cases k <;> simp [docToks, TStmt.toks]

theorem prefixAt_in {b0 ns p : PStr} {p0 : PStr → Option PStr} (hb0 : AllIn Q b0) (hp0 : ∀ ns p, p0 ns = some p → AllIn Q p) {pre : List PTStmt}
    (h : PrefixAt nl b0 p0 pre ns p) (ht : ToksIn Q (docToks pre)) : AllIn Q p := by
  cases h with
  | initial h _ => exact hp0 _ _ h
  | @directive l k _ i r b iri hb h _ =>
    refine resolveRef_in hQ.toCharSet (baseAt_in hQ hb0 hb (ht.sub (by simp +contextual [docToks]))) (ht.1 i ?_) h
    cases k <;> simp [docToks, TStmt.toks]

theorem docIn_ok {b0 : PStr} {p0 : PStr → Option PStr} {label : PStr → Option Nat} (hb0 : AllIn Q b0) (hp0 : ∀ ns p, p0 ns = some p → AllIn Q p)
    {pre ds : List PTStmt} {es : List EStmt} {an : List Nat} (h : DocIn nl b0 p0 label pre ds es an) :
    ToksIn Q (docToks (pre ++ ds)) → ∀ e ∈ es, ¬ e.Any (BadTerm Q) := by
  induction h with
  | nil => intro _ e he; cases he
  | @cons pre d ds e es a b base hb hs hd ih =>
    intro ht x hx
    rcases List.mem_cons.1 hx with rfl | hx
    · exact stmtIn_ok (E := ⟨base, PrefixAt nl b0 p0 pre, label⟩) hQ
        ⟨baseAt_in hQ hb0 hb (ht.sub (by simp +contextual [docToks])),
          fun ns p h => prefixAt_in hQ hb0 hp0 h (ht.sub (by simp +contextual [docToks]))⟩ hs (ht.sub (by simp +contextual [docToks]))
    · exact ih (by simpa using ht) x hx

end

/-! ### Triples -/

/-- One of the terms of a triple satisfies `f`. -/
def StmtAny (f : Term → Prop) (t : Stmt) : Prop := f t.s ∨ f t.p ∨ f t.o

section
variable {f : Term → Prop} (hb : ∀ b, ¬ f (.bnode b)) (hg : ∀ b, ¬ f (.gen b)) (h1 : ¬ f rdfFirst) (h2 : ¬ f rdfRest) (h3 : ¬ f rdfNil)
include hb hg h1 h2 h3

omit hb h1 h2 h3 in
theorem childTerm_any {o : TObj} {n : Nat} (h : f (childTerm n o).2) : o.Any f := by
  cases o with
  | leaf t => exact h
  | coll c => exact absurd h (hg n)
  | bnpl p => exact absurd h (hg n)

omit hb h1 h2 h3 in
theorem genMany_any {s v : Term} : ∀ (os : TObjs) (n : Nat), ∀ t ∈ (genMany s v n os).2, StmtAny f t → f s ∨ f v ∨ os.Any f
  | .one o, n, t, h, ha => by
    rw [genMany, List.mem_singleton] at h
    subst h
    rcases ha with ha | ha | ha
    · exact .inl ha
    · exact .inr (.inl ha)
    · exact .inr (.inr (childTerm_any hg ha))
  | .cons o os, n, t, h, ha => by
    rw [genMany] at h
    rcases List.mem_cons.1 h with rfl | h
    · rcases ha with ha | ha | ha
      · exact .inl ha
      · exact .inr (.inl ha)
      · exact .inr (.inr (.inl (childTerm_any hg ha)))
    · rcases genMany_any os _ t h ha with h | h | h
      · exact .inl h
      · exact .inr (.inl h)
      · exact .inr (.inr (.inr h))

mutual
theorem genObj_any : ∀ (o : TObj) (n : Nat), (∀ t ∈ (genObj n o).2.1, StmtAny f t → o.Any f) ∧ (f (genObj n o).2.2 → o.Any f)
  | .leaf _, n => ⟨fun t h => (by cases h), id⟩
  | .coll c, n => genColl_any c n
  | .bnpl p, n => ⟨fun t h ha => (genPol_any (.bnode n) p (n + 1) t h ha).elim (fun h => absurd h (hb n)) id, fun h => absurd h (hb n)⟩
theorem genColl_any : ∀ (c : TColl) (n : Nat), (∀ t ∈ (genColl n c).2.1, StmtAny f t → c.Any f) ∧ (f (genColl n c).2.2 → c.Any f)
  | .nil, n => ⟨fun t h => (by cases h), fun h => absurd h h3⟩
  | .cons o c, n => by
    refine ⟨fun t h ha => ?_, fun h => absurd h (hb _)⟩
    have h : t ∈ (genColl n c).2.1 ++ (genObj ((genColl n c).1 + 1) o).2.1 ++
      [mkTriple (.bnode (genColl n c).1) rdfFirst (genObj ((genColl n c).1 + 1) o).2.2, mkTriple (.bnode (genColl n c).1) rdfRest (genColl n c).2.2] := h
    rcases List.mem_append.1 h with h | h
    · rcases List.mem_append.1 h with h | h
      · exact .inr ((genColl_any c n).1 t h ha)
      · exact .inl ((genObj_any o _).1 t h ha)
    · rcases List.mem_cons.1 h with rfl | h
      · rcases ha with ha | ha | ha
        · exact absurd ha (hb _)
        · exact absurd ha h1
        · exact .inl ((genObj_any o _).2 ha)
      · rw [List.mem_singleton] at h
        subst h
        rcases ha with ha | ha | ha
        · exact absurd ha (hb _)
        · exact absurd ha h2
        · exact .inr ((genColl_any c n).2 ha)
theorem genPol_any (s : Term) : ∀ (p : TPol) (n : Nat), ∀ t ∈ (genPol s n p).2, StmtAny f t → f s ∨ p.Any f
  | .last v os k, n, t, h, ha => genObjs_any s v os n t h ha
  | .cons v os k p, n, t, h, ha => by
    have h : t ∈ (genObjs s v n os).2 ++ (genPol s (genObjs s v n os).1 p).2 := h
    rcases List.mem_append.1 h with h | h
    · rcases genObjs_any s v os n t h ha with h | h | h
      · exact .inl h
      · exact .inr (.inl h)
      · exact .inr (.inr (.inl h))
    · rcases genPol_any s p _ t h ha with h | h
      · exact .inl h
      · exact .inr (.inr (.inr h))
theorem genObjs_any (s v : Term) : ∀ (os : TObjs) (n : Nat), ∀ t ∈ (genObjs s v n os).2, StmtAny f t → f s ∨ f v ∨ os.Any f
  | .one o, n, t, h, ha => by
    have h : t ∈ (genObj n o).2.1 ++ [mkTriple s v (genObj n o).2.2] := h
    rcases List.mem_append.1 h with h | h
    · exact .inr (.inr ((genObj_any o n).1 t h ha))
    · rw [List.mem_singleton] at h
      subst h
      rcases ha with ha | ha | ha
      · exact .inl ha
      · exact .inr (.inl ha)
      · exact .inr (.inr ((genObj_any o n).2 ha))
  | .cons o os, n, t, h, ha => genMany_any hg _ n t h ha
end

theorem genStmt_any (e : EStmt) (n : Nat) : ∀ t ∈ (genStmt n e).2, StmtAny f t → e.Any f := by
  intro t h ha
  cases e with
  | directive => cases h
  | node s p => exact genPol_any hb hg h1 h2 h3 _ _ _ t h ha
  | coll c p =>
    have h : t ∈ (genColl n c).2.1 ++ (genPol (genColl n c).2.2 (genColl n c).1 p).2 := h
    rcases List.mem_append.1 h with h | h
    · exact .inl ((genColl_any hb hg h1 h2 h3 c n).1 t h ha)
    · rcases genPol_any hb hg h1 h2 h3 _ _ _ t h ha with h | h
      · exact .inl ((genColl_any hb hg h1 h2 h3 c n).2 h)
      · exact .inr h
  | bnpl p => exact (genPol_any hb hg h1 h2 h3 _ _ _ t h ha).elim (fun h => absurd h (hb _)) id
  | bnplPol s p =>
    have h : t ∈ (genPol (.bnode n) (n + 1) s).2 ++ (genPol (.bnode n) (genPol (.bnode n) (n + 1) s).1 p).2 := h
    rcases List.mem_append.1 h with h | h
    · exact (genPol_any hb hg h1 h2 h3 _ _ _ t h ha).elim (fun h => absurd h (hb _)) .inl
    · exact (genPol_any hb hg h1 h2 h3 _ _ _ t h ha).elim (fun h => absurd h (hb _)) .inr

theorem genStmts_any : ∀ (es : List EStmt) (n : Nat), ∀ t ∈ (genStmts n es).2, StmtAny f t → ∃ e ∈ es, e.Any f
  | [], n, t, h, _ => by cases h
  | s :: es, n, t, h, ha => by
    have h : t ∈ (genStmt n s).2 ++ (genStmts (genStmt n s).1 es).2 := h
    rcases List.mem_append.1 h with h | h
    · exact ⟨s, List.mem_cons_self .., genStmt_any hb hg h1 h2 h3 s n t h ha⟩
    · obtain ⟨e, h4, h5⟩ := genStmts_any es _ t h ha
      exact ⟨e, List.mem_cons_of_mem _ h4, h5⟩

end

/-! ### Documents -/

section
variable {Q : Nat → Prop} {nl : PStr → Bool}

theorem known_in (hQ : NameSet Q) : ∀ ns p, knownPrefixes ns = some p → AllIn Q p := by
  intro ns p h
  unfold knownPrefixes at h
  split at h
  · cases h; exact const_in hQ _ (by unfold IriCode IriChar; decide)
  · split at h
    · cases h; exact const_in hQ _ (by unfold IriCode IriChar; decide)
    · cases h

theorem parseText_in (hQ : NameSet Q) {base text : PStr} {next n : Nat} {ts : List Stmt} (hb : AllIn Q base)
    (hr : ∀ ds, parseTree text = .ok ds → ∀ b, .iri (.ref b) ∈ docToks ds → ∀ s, decodeIriref b = .ok s → AllIn Q s)
    (h : parseText nl base next text = .ok (n, ts)) : ∀ t ∈ ts, ∀ i, StmtHasIri t i → AllIn Q i := by
  unfold parseText at h
  split at h
  · cases h
  next ds e =>
  have hw := C95_exact e
  have ht : ToksIn Q (docToks ds) := ⟨hr ds e, fun ns loc hx => by
    obtain ⟨w, h1, _⟩ := hw.tok _ hx
    cases h1; assumption⟩
  split at h
  · cases h
  next st es e2 =>
  obtain ⟨label, an, h2, _⟩ := C65_scope ds base next e2
  have h3 := docIn_ok hQ hb (known_in hQ) h2 ht
  have h : genStmts st.bn.next es = (n, ts) := Except.ok.inj h
  intro t hx i hi
  apply Classical.byContradiction
  intro hn
  have hx : t ∈ (genStmts st.bn.next es).2 := by rw [h]; exact hx
  have ha : StmtAny (BadTerm Q) t := by
    rcases hi with hi | hi | hi
    · exact .inl ⟨i, hi, hn⟩
    · exact .inr (.inl ⟨i, hi, hn⟩)
    · exact .inr (.inr ⟨i, hi, hn⟩)
  obtain ⟨e, he, ha⟩ := genStmts_any (fun _ => not_bad_bnode) (fun _ => not_bad_gen)
    (not_bad_named (const_in hQ _ (by unfold IriCode IriChar; decide))) (not_bad_named (const_in hQ _ (by unfold IriCode IriChar; decide)))
    (not_bad_named (const_in hQ _ (by unfold IriCode IriChar; decide))) es _ t hx ha
  exact h3 e he ha

end

theorem asciiLower_iri {c : Nat} (h : IriChar c) : IriChar (asciiLower c) := by
  unfold asciiLower
  split
  · refine ⟨by omega, ?_⟩
    simp
    omega
  · exact h

theorem nameSet_iri : NameSet IriChar where
  slash := by unfold IriChar; decide
  semi := by unfold IriChar; decide
  ask := by unfold IriChar; decide
  hash := by unfold IriChar; decide
  colon := by unfold IriChar; decide
  lower _ := asciiLower_iri
  iri _ h := h.1
  lt := by unfold IriChar; decide

theorem nameSet_lf : NameSet fun c => IriChar c ∨ c = 0x0A where
  slash := .inl (by unfold IriChar; decide)
  semi := .inl (by unfold IriChar; decide)
  ask := .inl (by unfold IriChar; decide)
  hash := .inl (by unfold IriChar; decide)
  colon := .inl (by unfold IriChar; decide)
  lower c h := h.elim (fun h => .inl (asciiLower_iri h)) (fun h => .inr (by subst h; rfl))
  iri _ h := .inl h.1
  lt := by rintro (h | h); exact h.2 (by decide); cases h

theorem decodeIriref_chars {b s : PStr} (h : decodeIriref b = .ok s) : decodeLiteral b = .ok s ∧ ∀ c ∈ s, IriChar c ∨ c = 0x0A := by
  unfold decodeIriref at h
  split at h
  · cases h
  next u e =>
  split at h
  next hl =>
    cases h
    refine ⟨e, fun c hc => ?_⟩
    simp only [legalIri, Bool.or_eq_true, Bool.and_eq_true, decide_eq_true_eq, List.all_eq_true] at hl
    rcases hl with hl | ⟨hl, hl'⟩
    · exact .inl (iriClass_iff.1 (hl c hc))
    · obtain ⟨r, rfl⟩ : ∃ r, s = r ++ [10] := by
        obtain ⟨hne, hl⟩ := List.getLast?_eq_some_iff.1 hl |>.elim fun r hr => (⟨by simp [hr], r, hr⟩ : s ≠ [] ∧ ∃ r, s = r ++ [10])
        exact hl
      rcases List.mem_append.1 hc with hc | hc
      · exact .inl (iriClass_iff.1 (hl' c (by simpa using hc)))
      · exact .inr (by simpa using hc)
  · cases h

theorem foldl_snoc {α : Type} (ts acc : List α) : ts.foldl (fun l t => l ++ [t]) acc = acc ++ ts := by
  induction ts generalizing acc with
  | nil => simp
  | cons t ts ih => rw [List.foldl_cons, ih]; simp

/-- The triples that `parse` hands to the graph, in order. -/
def parsed (nl : PStr → Bool) (base : PStr) (inp : Input) : List Stmt := (parse (fun l t => l ++ [t]) nl base 0 [] inp).1

/-- The text of the input, if it has one. -/
def Input.HasText : Input → PStr → Prop
  | .str s, t => s = t
  | .bytes b, t => utf8Decode b = some t
  | .stream _, _ => False

theorem parsed_text {nl : PStr → Bool} {base : PStr} {inp : Input} {t : Stmt} (h : t ∈ parsed nl base inp) :
    ∃ text n ts, inp.HasText text ∧ parseText nl base 0 text = .ok (n, ts) ∧ t ∈ ts := by
  unfold parsed parse at h
  split at h
  · cases h
  · next s =>
    split at h
    · cases h
    · next n ts e => exact ⟨s, n, ts, rfl, e, by rwa [foldl_snoc, List.nil_append] at h⟩
  · next b =>
    split at h
    · cases h
    · next s e0 =>
      split at h
      · cases h
      · next n ts e => exact ⟨s, n, ts, e0, e, by rwa [foldl_snoc, List.nil_append] at h⟩

/-! ### C120 -/

/-- The IRIs read from a Turtle document have only characters that IRIs may have, if the base has. -/
def C120_statement : Prop := ∀ (nl : PStr → Bool) (base : PStr) (inp : Input), (∀ c ∈ base, IriChar c) →
  ∀ t ∈ parsed nl base inp, ∀ i, StmtHasIri t i → ∀ c ∈ i, IriChar c

/-- They have only these characters and line feeds. -/
theorem C120_exact (nl : PStr → Bool) (base : PStr) (inp : Input) (hb : ∀ c ∈ base, IriChar c) :
    ∀ t ∈ parsed nl base inp, ∀ i, StmtHasIri t i → ∀ c ∈ i, IriChar c ∨ c = 0x0A := by
  intro t ht
  obtain ⟨text, n, ts, _, h1, h2⟩ := parsed_text ht
  exact parseText_in nameSet_lf (fun c hc => .inl (hb c hc)) (fun _ _ b _ s hs => (decodeIriref_chars hs).2) h1 t h2

theorem hexVal_zero {c : Nat} (h : isHexChar c) (e : (hexVal? c).getD 0 = 0) : c = 48 := by
  unfold hexVal? at e
  simp only [isHexChar, isDigitChar] at h
  split at e
  · simp at e; omega
  · split at e
    · simp at e; omega
    · split at e
      · simp at e; omega
      · omega

theorem hexVal_ten {c : Nat} (h : isHexChar c) (e : (hexVal? c).getD 0 = 10) : c = 65 ∨ c = 97 := by
  unfold hexVal? at e
  simp only [isHexChar, isDigitChar] at h
  split at e
  · simp at e; omega
  · split at e
    · simp at e; omega
    · split at e
      · simp at e; omega
      · omega

theorem hex_lt {c : Nat} : (hexVal? c).getD 0 < 16 := by
  cases e : hexVal? c with
  | none => simp
  | some v => exact hexVal_lt e

theorem parseHex_ten : ∀ {h : PStr}, (∀ c ∈ h, isHexChar c) → parseHex h = 10 → ∃ k, h = List.replicate k 48 ++ [65] ∨ h = List.replicate k 48 ++ [97] := by
  have zero : ∀ h : PStr, (∀ c ∈ h, isHexChar c) → parseHex h = 0 → h = List.replicate h.length 48 := by
    intro h
    induction h using List.reverseRecOn with
    | nil => intros; rfl
    | append_singleton h c ih =>
      intro hc e
      simp only [parseHex, List.foldl_append, List.foldl_cons, List.foldl_nil] at e
      have h1 := ih (fun c hx => hc c (by simp [hx])) (by unfold parseHex; omega)
      have h2 := hexVal_zero (hc c (by simp)) (by omega)
      rw [h1, h2]
      simp [List.replicate_succ']
  intro h
  induction h using List.reverseRecOn with
  | nil => intro _ e; exact absurd e (by decide)
  | append_singleton h c _ =>
    intro hc e
    simp only [parseHex, List.foldl_append, List.foldl_cons, List.foldl_nil] at e
    have := @hex_lt c
    have h1 := zero h (fun c hx => hc c (by simp [hx])) (by unfold parseHex; omega)
    refine ⟨h.length, ?_⟩
    rw [← h1]
    rcases hexVal_ten (hc c (by simp)) (by omega) with rfl | rfl
    · exact .inl rfl
    · exact .inr rfl

theorem iriBody_lf {b : PStr} (h : IriBody b) : ∀ s, decodeLiteral b = .ok s → 0x0A ∈ s → ∃ e ∈ lineFeeds, e <:+: b := by
  induction h with
  | nil => intro s h1 h2; cases h1; cases h2
  | @char c b h1 h2 _ ih =>
    intro s h3 h4
    rw [decodeLiteral_plain (by rintro rfl; exact h2 (by decide))] at h3
    obtain ⟨s', e, rfl⟩ := map_ok h3
    rcases List.mem_cons.1 h4 with rfl | h4
    · omega
    · obtain ⟨e, he, hi⟩ := ih s' e h4
      exact ⟨e, he, hi.trans ⟨[c], [], by simp⟩⟩
  | @uchar p b hp _ ih =>
    intro s h3 h4
    obtain ⟨v, h5, h6, h7⟩ : ∃ v, escAt (p ++ b) = some (pyChr v, p.length) ∧ p ≠ [] ∧ (v = 10 → p ∈ lineFeeds) := by
      cases hp with
      | @u4 h hl hh =>
        refine ⟨parseHex h, ?_, by simp, fun hv => ?_⟩
        · have e : (h ++ b).take 4 = h := by rw [← hl]; simp
          have : h.all isHex = true := List.all_eq_true.2 fun c hc => isHex_iff.2 (hh c hc)
          show escAt (92 :: 117 :: (h ++ b)) = _
          simp [escAt, e, hl, this]
        · obtain ⟨k, e⟩ := parseHex_ten hh hv
          have hk : k = 3 := by rcases e with e | e <;> rw [e] at hl <;> simpa using hl
          subst hk
          rcases e with rfl | rfl <;> decide
      | @u8 h hl hh =>
        refine ⟨parseHex h, ?_, by simp, fun hv => ?_⟩
        · have e : (h ++ b).take 8 = h := by rw [← hl]; simp
          have : h.all isHex = true := List.all_eq_true.2 fun c hc => isHex_iff.2 (hh c hc)
          show escAt (92 :: 85 :: (h ++ b)) = _
          simp [escAt, e, hl, this]
        · obtain ⟨k, e⟩ := parseHex_ten hh hv
          have hk : k = 7 := by rcases e with e | e <;> rw [e] at hl <;> simpa using hl
          subst hk
          rcases e with rfl | rfl <;> decide
    by_cases hv : v < 0x110000
    · have hc : pyChr v = .ok v := by unfold pyChr; rw [if_pos hv]
      rw [hc] at h5
      rw [decodeLiteral_esc h6 h5] at h3
      obtain ⟨s', e, rfl⟩ := map_ok h3
      rcases List.mem_cons.1 h4 with h4 | h4
      · exact ⟨p, h7 h4.symm, [], b, by simp⟩
      · obtain ⟨e, he, hi⟩ := ih s' e h4
        exact ⟨e, he, hi.trans ⟨p, [], by simp⟩⟩
    · obtain ⟨e, hc⟩ : ∃ e, pyChr v = .error e := by unfold pyChr; rw [if_neg hv]; split <;> exact ⟨_, rfl⟩
      rw [hc] at h5
      cases p with
      | nil => exact absurd rfl h6
      | cons a p =>
        unfold decodeLiteral at h3
        rw [List.cons_append] at h5 h3
        simp only [decodeAux, h5] at h3
        cases h3

/-- If the document does not escape a line feed, they have only the characters of IRIs. Missing for the full claim: documents that do. -/
theorem C120_partial (nl : PStr → Bool) (base : PStr) (inp : Input) (hb : ∀ c ∈ base, IriChar c)
    (hn : ∀ text, inp.HasText text → ∀ e ∈ lineFeeds, ¬ e <:+: text) :
    ∀ t ∈ parsed nl base inp, ∀ i, StmtHasIri t i → ∀ c ∈ i, IriChar c := by
  intro t ht
  obtain ⟨text, n, ts, h0, h1, h2⟩ := parsed_text ht
  refine parseText_in nameSet_iri hb (fun ds e b hr s hs c hc => ?_) h1 t h2
  obtain ⟨hd, h⟩ := decodeIriref_chars hs
  rcases h c hc with h | rfl
  · exact h
  · obtain ⟨w, h3, h4⟩ := (C95_exact e).tok _ hr
    cases h3 with
    | ref hb =>
      obtain ⟨e, he, hi⟩ := iriBody_lf hb s hd hc
      exact absurd (hi.trans (.trans ⟨[0x3C], [0x3E], by simp⟩ h4)) (hn text h0 e he)

/-- A line feed at the end of an IRI is let through. -/
theorem C120_line_feed : parsed (fun _ => true) [] (.str (py! "<a\\u000A> <p> <o> .")) =
    [mkTriple (.named (py! "a\n")) (.named (py! "p")) (.named (py! "o"))] := rfl

theorem C120_refuted : ¬ C120_statement := by
  intro h
  have := h (fun _ => true) [] (.str (py! "<a\\u000A> <p> <o> .")) (by simp)
    (mkTriple (.named (py! "a\n")) (.named (py! "p")) (.named (py! "o"))) (by rw [C120_line_feed]; simp) (py! "a\n") (.inl (.inl rfl)) 10 (by simp)
  exact absurd this.1 (by decide)

/-- Non-vacuity: prefixed names, a base, and a datatype. -/
example : parsed (fun _ => true) (py! "http://a/") (.str (py! "@prefix p: <b#> . p:c\\~d a <e> ; <f> 'x'^^p:t .")) =
    [mkTriple (.named (py! "http://a/b#c~d")) (.named (py! "http://www.w3.org/1999/02/22-rdf-syntax-ns#type")) (.named (py! "http://a/e")),
     mkTriple (.named (py! "http://a/b#c~d")) (.named (py! "http://a/f")) (.lit (py! "x") none (some (py! "http://a/b#t")))] := rfl

/-! ### C121 -/

/-- A prefixed name of a document stands for the namespace that its prefix has there, followed by the local name without its backslashes. -/
theorem C121_prefixed_name {nl : PStr → Bool} {base text : PStr} (hb : ∀ c ∈ base, IriChar c) {pre post : List PTStmt} {d : PTStmt}
    (h : parseTree text = .ok (pre ++ d :: post)) {ns loc p b s : PStr} (ht : .iri (.pname ns loc) ∈ d.toks) (hp : PrefixAt nl base knownPrefixes pre ns p) :
    ∃ l, LocalMeans loc l ∧ (∀ l', LocalMeans loc l' → l' = l) ∧ (PnameIri nl b p loc s ↔ s = p ++ l) := by
  have hw := C95_exact h
  have hloc : ∀ ns loc, .iri (.pname ns loc) ∈ docToks (pre ++ d :: post) → PnLocal loc := fun ns loc hx => by
    obtain ⟨w, h1, _⟩ := hw.tok _ hx
    cases h1; assumption
  have hT : ToksIn (fun c => IriChar c ∨ c = 0x0A) (docToks (pre ++ d :: post)) := ⟨fun b _ s hs => (decodeIriref_chars hs).2, hloc⟩
  have hpre : AllIn (fun c => IriChar c ∨ c = 0x0A) p := prefixAt_in nameSet_lf (fun c hc => .inl (hb c hc)) (known_in nameSet_lf) hp
    (hT.sub (by simp +contextual [docToks]))
  obtain ⟨l, h1, _, h2⟩ := pname_in (nl := nl) (base := b) nameSet_lf hpre (hloc ns loc (by simp [docToks, ht]))
  exact ⟨l, h1, fun l' h' => h'.unique h1, h2 s⟩

/-- Text that is made of characters and of escapes. -/
inductive Escaped : PStr → Prop
  | nil : Escaped []
  | char {c s} : c ≠ 0x5C → Escaped s → Escaped (c :: s)
  | esc {p s} : Spec.Escape p → Escaped s → Escaped (p ++ s)

theorem Spec.IriBody.escaped {b : PStr} (h : IriBody b) : Escaped b := by
  induction h with
  | nil => exact .nil
  | char _ h _ ih => exact .char (by rintro rfl; exact h (by decide)) ih
  | uchar h _ ih => exact .esc (.inr h) ih

theorem Spec.StrBody.escaped {q : Nat} {b : PStr} (h : StrBody q b) : Escaped b := by
  induction h with
  | nil => exact .nil
  | char _ h _ _ _ ih => exact .char h ih
  | esc h _ ih => exact .esc h ih

theorem Spec.LongBody.escaped {q : Nat} (hq : q ≠ 0x5C) {b : PStr} (h : LongBody q b) : Escaped b := by
  have rep : ∀ (k : Nat) {s : PStr}, Escaped s → Escaped (List.replicate k q ++ s) := by
    intro k s hs
    induction k with
    | zero => exact hs
    | succ k ih => rw [List.replicate_succ, List.cons_append]; exact .char hq ih
  induction h with
  | nil => exact .nil
  | char _ _ h _ ih => exact rep _ (.char h ih)
  | esc _ h _ ih => exact rep _ (.esc h ih)

open Verif.Spec (Denotes) in
theorem Escaped.decode {b : PStr} (h : Escaped b) : ∀ v, decodeLiteral b = .ok v ↔ Denotes b v := by
  intro v
  refine ⟨?_, C88_denotes⟩
  have step : ∀ {p s v : PStr} {c : Nat}, Denotes p [c] → (∀ v, decodeLiteral s = .ok v → Denotes s v) → decodeLiteral (p ++ s) = .ok v →
      ∃ v', v = c :: v' ∧ Denotes s v' := by
    intro p s v c hp ih hd
    rw [decodeLiteral_denotes_append hp] at hd
    obtain ⟨a, h1, h2⟩ := map_ok hd
    exact ⟨a, h2.symm, ih a h1⟩
  induction h generalizing v with
  | nil => intro hd; cases hd; exact .nil
  | @char c s hc _ ih =>
    intro hd
    obtain ⟨v', rfl, h⟩ := step (p := [c]) (.plain hc .nil) ih hd
    exact .plain hc h
  | @esc p s hp _ ih =>
    intro hd
    rcases hp with ⟨c, hc, rfl⟩ | hp
    · obtain ⟨d, hd'⟩ : ∃ d, (c, d) ∈ Verif.Spec.stringEscapes := by
        simp only [List.mem_cons, List.not_mem_nil, or_false] at hc
        rcases hc with rfl | rfl | rfl | rfl | rfl | rfl | rfl | rfl <;> simp [Verif.Spec.stringEscapes]
      obtain ⟨v', rfl, h⟩ := step (p := [92, c]) (.echar hd' .nil) ih hd
      exact .echar hd' h
    · cases hp with
      | @u4 h hl hh =>
        obtain ⟨c, hc⟩ := NTSpec.hexes hl fun c hc => isHex_iff.2 (hh c hc)
        obtain ⟨v', rfl, h⟩ := step (p := 92 :: 117 :: h) (by have := Denotes.uchar4 hc .nil; rwa [List.append_nil] at this) ih hd
        exact .uchar4 hc h
      | @u8 h hl hh =>
        obtain ⟨c, hc⟩ := NTSpec.hexes hl fun c hc => isHex_iff.2 (hh c hc)
        by_cases hlt : c < 0x110000
        · obtain ⟨v', rfl, h⟩ := step (p := 92 :: 85 :: h) (by have := Denotes.uchar8 hc hlt .nil; rwa [List.append_nil] at this) ih hd
          exact .uchar8 hc hlt h
        · obtain ⟨e, he, _⟩ := C88_too_large .nil hc (by omega) s
          rw [List.nil_append] at he
          rw [show 92 :: 85 :: h ++ s = 92 :: 85 :: (h ++ s) from rfl, he] at hd
          cases hd

/-- The strings of a document, in any of the four kinds of quotes, stand for the characters that their escapes denote. -/
theorem C121_string {text : PStr} {ds : List PTStmt} (h : parseTree text = .ok ds) {b : PStr} (ht : .str b ∈ docToks ds) (v : PStr) :
    decodeLiteral b = .ok v ↔ Verif.Spec.Denotes b v := by
  obtain ⟨w, h1, _⟩ := (C95_exact h).tok _ ht
  cases h1 with
  | str _ hb => exact hb.escaped.decode v
  | long hq hb => exact (hb.escaped (by rcases hq with rfl | rfl <;> decide)).decode v

/-- An IRI reference stands for the characters that its escapes denote, resolved against the base; it is rejected if they are not characters of IRIs
    (with a line feed at the end allowed, see C120). -/
theorem C121_iri_reference {text : PStr} {ds : List PTStmt} (h : parseTree text = .ok ds) {b : PStr} (ht : .iri (.ref b) ∈ docToks ds)
    (nl : PStr → Bool) (base s : PStr) :
    resolveRef nl base b = .ok s ↔ ∃ u, Verif.Spec.Denotes b u ∧ ((∀ c ∈ u, IriChar c) ∨ ∃ w, u = w ++ [0x0A] ∧ ∀ c ∈ w, IriChar c) ∧
      smartUrljoin nl base u = .ok s := by
  obtain ⟨w, h1, _⟩ := (C95_exact h).tok _ ht
  cases h1 with
  | ref hb =>
    have hl : ∀ u, legalIri u = true ↔ (∀ c ∈ u, IriChar c) ∨ ∃ w, u = w ++ [0x0A] ∧ ∀ c ∈ w, IriChar c := by
      intro u
      simp only [legalIri, Bool.or_eq_true, Bool.and_eq_true, decide_eq_true_eq, List.all_eq_true]
      refine or_congr ⟨fun h c hc => iriClass_iff.1 (h c hc), fun h c hc => iriClass_iff.2 (h c hc)⟩ ⟨?_, ?_⟩
      · rintro ⟨hl, h⟩
        obtain ⟨r, rfl⟩ := List.getLast?_eq_some_iff.1 hl
        exact ⟨r, rfl, fun c hc => iriClass_iff.1 (h c (by simpa using hc))⟩
      · rintro ⟨w, rfl, h⟩
        exact ⟨by simp, fun c hc => iriClass_iff.2 (h c (by simpa using hc))⟩
    unfold resolveRef decodeIriref
    constructor
    · intro h
      cases e : decodeLiteral b with
      | error x => rw [e] at h; cases h
      | ok u =>
        rw [e] at h
        by_cases hu : legalIri u = true
        · simp only [hu, if_true] at h
          exact ⟨u, (hb.escaped.decode u).1 e, (hl u).1 hu, h⟩
        · simp only [hu] at h
          cases h
    · rintro ⟨u, h1, h2, h3⟩
      rw [(hb.escaped.decode u).2 h1]
      simp only [(hl u).2 h2, if_true]
      exact h3

/-- Non-vacuity: a document with all three. -/
example : parsed (fun _ => true) [] (.str (py! "@prefix p: <http://\\u0061/> . p:a\\%b.c <q> '''x\\n\"y''' .")) =
    [mkTriple (.named (py! "http://a/a%b.c")) (.named (py! "q")) (.lit (py! "x\n\"y") none (some (py! "http://www.w3.org/2001/XMLSchema#string")))] := rfl

end Verif.Turtle
