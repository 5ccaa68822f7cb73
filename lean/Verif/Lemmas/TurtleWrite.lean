import Verif.Props.TurtleSer
import Verif.Props.UrlJoin
import Verif.Lemmas.NTRead
/-
The text the Turtle writer makes, with a base and with names for blank nodes, and how the parser reads it.
-/
namespace Verif.Turtle
open Verif.Turtle.Spec

/-! ### What can be written with a base: a specification -/

/-- The reference, resolved against the base as `smart_urljoin` does (C67, C91, C92), is the IRI. -/
def Joins (nl : PStr → Bool) (b ref iri : PStr) : Prop := smartUrljoin nl b ref = .ok iri

/-- An IRI that survives being written with the base `b` (`[]`: without a base). -/
structure SafeIriAt (nl : PStr → Bool) (m : PrefixMap) (b iri : PStr) : Prop where
  ne : iri ≠ []
  legal : LegalIri iri
  /-- if a namespace of the profile applies, what is left is a local name without escapes in which it does not occur again, and the name
      does not begin with the base -/
  local_ : ∀ p ns rest, Chosen iri m (p, ns) → iri = ns ++ rest →
    ns ≠ [] ∧ ¬ ns <:+: rest ∧ PnLocal rest ∧ 0x5C ∉ rest ∧ (b ≠ [] → ¬ b <+: p ++ 58 :: rest)
  /-- outside the base, the IRI stands for itself -/
  abs : ¬ b <+: iri → Joins nl b iri iri
  /-- inside the base, the base does not occur again, and what is left stands for the IRI -/
  rel : b ≠ [] → (∀ e ∈ m, ¬ e.2 <+: iri) → ∀ rest, iri = b ++ rest →
    ¬ b <:+: rest ∧ Joins nl b (if b.getLast? = some 35 then 35 :: rest else rest) iri

/-- A profile and a base whose declarations are Turtle and stand for themselves. -/
structure SafeProfileAt (nl : PStr → Bool) (m : PrefixMap) (b : PStr) : Prop extends SafeProfile m where
  baseLegal : LegalIri b
  joins : ∀ e ∈ m, e.1 ≠ py! "rdf" → Joins nl b e.2 e.2

/-- A generator of names for blank nodes: different labels, as Turtle writes them. -/
structure SafeNamer (f : Nat → PStr) : Prop where
  label : ∀ i, ∃ c t, f i = 0x5F :: 0x3A :: c :: t ∧ (Spec.pnCharsU c ∨ isDigitChar c) ∧ DotTail t
  inj : ∀ i j, f i = f j → i = j

/-- A node that survives. -/
inductive SafeNodeAt (nl : PStr → Bool) (m : PrefixMap) (b : PStr) (namer : Namer) : Term → Prop
  | iri {i} : SafeIriAt nl m b i → SafeNodeAt nl m b namer (.named i)
  | lit {v l d} : SafeLit v l d → SafeNodeAt nl m b namer (.lit v l d)
  | bnode {k f} : namer = some f → SafeNamer f → SafeNodeAt nl m b namer (.bnode k)

/-- Literals that are written as Turtle: those that come back unchanged, and plain ones. -/
inductive TextLit : PStr → Option PStr → Option PStr → Prop
  | safe {v l d} : SafeLit v l d → TextLit v l d
  | plain {v l} : Clean v → l = none ∨ l = some [] → TextLit v l none

/-- A node that is written as Turtle: one that survives, or a plain literal. -/
inductive TextNodeAt (nl : PStr → Bool) (m : PrefixMap) (b : PStr) (namer : Namer) : Term → Prop
  | iri {i} : SafeIriAt nl m b i → TextNodeAt nl m b namer (.named i)
  | lit {v l d} : TextLit v l d → TextNodeAt nl m b namer (.lit v l d)
  | bnode {k f} : namer = some f → SafeNamer f → TextNodeAt nl m b namer (.bnode k)

/-- What a node comes back as: plain literals have the datatype `xsd:string` in Turtle, everything else stays. -/
def asRead : Term → Term
  | .lit v none none => .lit v none (some (py! "http://www.w3.org/2001/XMLSchema#string"))
  | .lit v (some []) none => .lit v none (some (py! "http://www.w3.org/2001/XMLSchema#string"))
  | x => x

/-- A triple as it comes back. -/
def readStmt (t : Stmt) : Stmt := { t with o := asRead t.o }

theorem SafeNodeAt.text {nl : PStr → Bool} {m : PrefixMap} {b : PStr} {namer : Namer} {x : Term} (h : SafeNodeAt nl m b namer x) : TextNodeAt nl m b namer x := by
  cases h with
  | iri h => exact .iri h
  | lit h => exact .lit (.safe h)
  | bnode h h' => exact .bnode h h'

theorem SafeLit.asRead {v : PStr} {l d : Option PStr} (h : SafeLit v l d) : asRead (.lit v l d) = .lit v l d := by
  cases h with
  | @lang l _ hl =>
    cases l with
    | nil =>
      obtain ⟨p, s, e, hp, _⟩ := hl
      cases p with
      | nil => exact absurd rfl hp
      | cons => cases e
    | cons => rfl
  | _ => rfl

theorem SafeNodeAt.asRead {nl : PStr → Bool} {m : PrefixMap} {b : PStr} {namer : Namer} {x : Term} (h : SafeNodeAt nl m b namer x) : asRead x = x := by
  cases h with
  | lit h => exact h.asRead
  | _ => rfl

theorem textLit_frag {m : PrefixMap} (hm : SafeProfile m) {v : PStr} {l d : Option PStr} (h : TextLit v l d) :
    ∃ w t, litRepr m v l d = .ok w ∧ Frag (LeafTok.toks t) w ∧ ∀ nl st, evalLeaf nl st t = .ok (st, asRead (.lit v l d)) := by
  cases h with
  | safe h =>
    rw [h.asRead]
    exact lit_frag hm h
  | plain h hl =>
    have x1 : xsdOf m (py! "string") = .ok (xsd (py! "string")) := xsdOf_safe hm (by decide) (by decide)
    obtain ⟨w, t, h1, h2, h3⟩ := lit_frag hm (.string h)
    have bind : ∀ {α β} (a : α) (f : α → Except Exc β), (Except.ok a >>= f) = f a := fun _ _ => rfl
    rw [litRepr, x1, bind, if_pos (by decide)] at h1
    cases h1
    refine ⟨_, t, ?_, h2, fun nl st => ?_⟩
    · unfold litRepr
      rw [x1, bind, if_neg (by simp)]
      rcases hl with rfl | rfl <;> rfl
    · rw [h3]
      rcases hl with rfl | rfl <;> rfl

/-! ### IRIs -/

/-- The parser's state knows the declarations and the base. -/
structure AgreesAt (b : PStr) (m : PrefixMap) (st : TState) : Prop where
  base : st.base = b
  get : ∀ e ∈ m, st.prefixes.get? e.1 = some e.2

theorem LegalIri.resolveAt {s : PStr} (h : LegalIri s) {nl : PStr → Bool} {b iri : PStr} (hj : Joins nl b s iri) : resolveRef nl b s = .ok iri := by
  have h1 : legalIri s = true := by
    rw [legalIri, Bool.or_eq_true]
    exact .inl (List.all_eq_true.2 fun c hc => iriClass_iff.2 (h c hc))
  have h2 : decodeIriref s = .ok s := by rw [decodeIriref, decodeLiteral_no_backslash h.no_backslash]; show (if _ then _ else _) = _; rw [if_pos h1]
  rw [resolveRef, h2]
  exact hj

theorem ref_frag {m : PrefixMap} {nl : PStr → Bool} {b ref iri : PStr} (hl : LegalIri ref) (hj : Joins nl b ref iri) :
    ∃ i : IriTok, Frag [.iri i] ([60] ++ ref ++ [62]) ∧ ∀ st, AgreesAt b m st → evalIri nl st i = .ok iri := by
  refine ⟨.ref ref, Frag.one (.ref hl.body) fun _ _ => trivial, fun st hst => ?_⟩
  rw [evalIri, hst.base]; exact hl.resolveAt hj

theorem pyEndsWith_one (b : PStr) (c : Nat) : pyEndsWith b [c] = true ↔ b.getLast? = some c := by
  rw [pyEndsWith, List.isSuffixOf_iff_suffix, List.getLast?_eq_some_iff]
  exact ⟨fun ⟨r, h⟩ => ⟨r, h.symm⟩, fun ⟨r, h⟩ => ⟨r, h.symm⟩⟩

theorem iriRepr_outside {m : PrefixMap} {base : Option PStr} {iri : PStr} (h : ∀ b, base = some b → b ≠ [] → ¬ b <+: PrefixMap.shrink m iri) :
    iriRepr m base iri = if PrefixMap.shrink m iri = iri then [60] ++ PrefixMap.shrink m iri ++ [62] else PrefixMap.shrink m iri := by
  unfold iriRepr
  cases base with
  | none => rfl
  | some b =>
    dsimp only
    have hc : ¬ (b ≠ [] ∧ pyStartsWith (PrefixMap.shrink m iri) b = true) := fun hp => h b rfl hp.1 (by simpa [pyStartsWith] using hp.2)
    simp only [if_neg hc]

theorem iriRepr_inside {m : PrefixMap} {b iri rest : PStr} (h : PrefixMap.shrink m iri = b ++ rest) (hb : b ≠ []) (hno : ¬ b <:+: rest)
    (hne : [60] ++ (if b.getLast? = some 35 then 35 :: rest else rest) ++ [62] ≠ iri) :
    iriRepr m (some b) iri = [60] ++ (if b.getLast? = some 35 then 35 :: rest else rest) ++ [62] := by
  unfold iriRepr
  dsimp only
  have hc : b ≠ [] ∧ pyStartsWith (b ++ rest) b = true := ⟨hb, by simp [pyStartsWith]⟩
  simp only [h, if_pos hc, pyReplace_prefix hb _ _ hno]
  by_cases he : b.getLast? = some 35
  · have he' := (pyEndsWith_one b 35).2 he
    simp only [if_pos he] at hne ⊢
    simp only [if_pos he']
    exact if_neg hne
  · have he' : ¬ pyEndsWith b [35] = true := fun h => he ((pyEndsWith_one b 35).1 h)
    simp only [if_neg he] at hne ⊢
    simp only [if_neg he']
    exact if_neg hne

theorem iri_frag_at {nl : PStr → Bool} {m : PrefixMap} {base : Option PStr} (hm : SafeProfile m) {iri : PStr} (h : SafeIriAt nl m (base.getD []) iri) :
    ∃ i : IriTok, Frag [.iri i] (iriRepr m base iri) ∧ (∃ c r, iriRepr m base iri = c :: r ∧ c ≠ 0x5F) ∧
      ∀ st, AgreesAt (base.getD []) m st → evalIri nl st i = .ok iri := by
  have hlt : iri.head? ≠ some 60 := by
    cases iri with
    | nil => simp
    | cons c r => simp; rintro rfl; exact (h.legal 60 (List.mem_cons_self ..)).2 (by decide)
  have hlt2 : ∀ r : PStr, [60] ++ r ++ [62] ≠ iri := by rintro r rfl; simp at hlt
  have fin : ∀ {w : PStr}, (∃ i : IriTok, Frag [.iri i] w ∧ ∀ st, AgreesAt (base.getD []) m st → evalIri nl st i = .ok iri) → (∃ c r, w = c :: r ∧ c ≠ 0x5F) →
      ∃ i : IriTok, Frag [.iri i] w ∧ (∃ c r, w = c :: r ∧ c ≠ 0x5F) ∧ ∀ st, AgreesAt (base.getD []) m st → evalIri nl st i = .ok iri :=
    fun ⟨i, a, b⟩ c => ⟨i, a, c, b⟩
  by_cases hex : ∃ pn ∈ m, pn.2 <+: iri
  · obtain ⟨⟨p, ns⟩, hc, _⟩ := toCurie_chosen hex
    obtain ⟨a, b, e1, ⟨rest, e2⟩, _⟩ := id hc
    obtain ⟨hne, hno, hl, hb, hnb⟩ := h.local_ p ns rest hc e2.symm
    have hs : PrefixMap.shrink m iri = p ++ 58 :: rest := by
      have := C30_shrink_partial iri m [58] p ns rest hc e2.symm hne hno
      simpa [PrefixMap.shrink] using this
    rw [iriRepr_outside (fun b hb h0 => by rw [hs]; subst hb; exact hnb h0), hs]
    have hpn : (p, ns) ∈ m := by rw [e1]; simp
    have hpp := (hm.names _ hpn).1
    split
    · next e =>
      rw [e]
      refine fin (ref_frag h.legal ?_) ⟨60, iri ++ [62], rfl, by decide⟩
      by_cases hb0 : base.getD [] = []
      · rw [hb0]; exact C67_no_base nl iri
      · exact h.abs (by rw [← e]; exact hnb hb0)
    · refine fin ⟨.pname p rest, Frag.one (.pname hpp hl) fun r hr => hr.stops, fun st hst => ?_⟩ ?_
      · rw [evalIri, resolvePname, hst.get _ hpn, decodeLiteral_no_backslash hb]
        show (match ns ++ rest with | 60 :: r => _ | s => _) = _
        have e2 : ns ++ rest = iri := e2
        rw [e2]
        split
        · next e3 => simp at hlt
        · rfl
      · rcases hpp with rfl | ⟨c, t, rfl, hcb, _⟩
        · exact ⟨58, rest, rfl, by decide⟩
        · refine ⟨c, _, rfl, ?_⟩
          rintro rfl
          exact absurd hcb (by simp [Spec.pnCharsBase, isAlpha])
  · have hs : PrefixMap.shrink m iri = iri := toCurie_none (fun pn hpn hp => hex ⟨pn, hpn, hp⟩) [58] false
    have hno : ∀ e ∈ m, ¬ e.2 <+: iri := fun e he hp => hex ⟨e, he, hp⟩
    cases base with
    | none =>
      rw [iriRepr_outside (fun b hb => by cases hb), hs, if_pos rfl]
      exact fin (ref_frag h.legal (C67_no_base nl iri)) ⟨60, _, rfl, by decide⟩
    | some b =>
      by_cases hb : b ≠ [] ∧ b <+: iri
      · obtain ⟨rest, hrest⟩ := hb.2
        obtain ⟨hinf, hj⟩ := h.rel hb.1 hno rest hrest.symm
        have hlr : LegalIri rest := fun c hc => h.legal c (by rw [← hrest]; exact List.mem_append_right _ hc)
        rw [iriRepr_inside (hs.trans hrest.symm) hb.1 hinf (hlt2 _)]
        refine fin (ref_frag ?_ hj) ⟨60, _, rfl, by decide⟩
        split
        · intro c hc
          rcases List.mem_cons.1 hc with rfl | hc
          · decide
          · exact hlr c hc
        · exact hlr
      · rw [iriRepr_outside (fun b' hb' h0 => by rw [hs]; cases hb'; exact fun hp => hb ⟨h0, hp⟩), hs, if_pos rfl]
        refine fin (ref_frag h.legal ?_) ⟨60, _, rfl, by decide⟩
        by_cases hb0 : b = []
        · subst hb0; exact C67_no_base nl iri
        · exact h.abs fun hp => hb ⟨hb0, hp⟩

/-! ### Names of blank nodes -/

/-- The names given so far: names of the generator, different for different nodes. -/
structure NInv (namer : Namer) (nm : Names) : Prop where
  from_ : ∀ b t, nm.map.get? b = some t → ∃ f k, namer = some f ∧ SafeNamer f ∧ k < nm.taken ∧ t = f k
  inj : ∀ b b' t, nm.map.get? b = some t → nm.map.get? b' = some t → b = b'

def NExt (nm nm' : Names) : Prop := ∀ b t, nm.map.get? b = some t → nm'.map.get? b = some t

theorem NExt.refl (nm : Names) : NExt nm nm := fun _ _ h => h
theorem NExt.trans {a b c : Names} (h : NExt a b) (h' : NExt b c) : NExt a c := fun x t e => h' x t (h x t e)

theorem NInv.empty (namer : Namer) : NInv namer {} := ⟨fun _ _ h => (by cases h), fun _ _ _ h => (by cases h)⟩

/-- `ρ` sends a blank node to the node that the parser has for its name. -/
def Compat (ρ : Nat → Nat) (nm : Names) (bs : BState) : Prop := ∀ b t i, nm.map.get? b = some t → bs.map.get? t = some i → ρ b = i

theorem Compat.mono {ρ : Nat → Nat} {nm nm' : Names} {bs bs' : BState} (h : Compat ρ nm' bs') (hn : NExt nm nm') (hb : bs.Ext bs') : Compat ρ nm bs :=
  fun b t i h1 h2 => h b t i (hn b t h1) (hb.2 t i h2)

section
variable {nl : PStr → Bool} {m : PrefixMap} {base : Option PStr} {namer : Namer}

/-- How a term of the graph is read. -/
def LeafReads (nl : PStr → Bool) (m : PrefixMap) (b : PStr) (n0 : Nat) (nm : Names) (t : LeafTok) (x : Term) : Prop :=
  ∀ st, AgreesAt b m st → BState.OK n0 st.bn → ∃ bs y, evalLeaf nl st t = .ok ({ st with bn := bs }, y) ∧ BState.OK n0 bs ∧ st.bn.Ext bs ∧
    ∀ ρ, Compat ρ nm bs → y = x.rename ρ

theorem AgreesAt.bn {b : PStr} {st : TState} (h : AgreesAt b m st) (bs : BState) : AgreesAt b m { st with bn := bs } := ⟨h.base, h.get⟩

theorem NInv.label {nm : Names} (h : NInv namer nm) {b : Nat} {w : PStr} (hb : nm.map.get? b = some w) :
    Frag [.label w] w ∧ (∃ r, w = 0x5F :: r) ∧ ∀ n0 st, BState.OK n0 st.bn → ∃ bs i, evalNode nl st (.label w) = .ok ({ st with bn := bs }, .bnode i) ∧ BState.OK n0 bs ∧
      st.bn.Ext bs ∧ bs.map.get? w = some i ∧ ∀ ρ, Compat ρ nm bs → i = ρ b := by
  obtain ⟨f, k, _, hf, _, rfl⟩ := h.from_ b w hb
  obtain ⟨c, t, e, hc, ht⟩ := hf.label k
  refine ⟨?_, ⟨_, e⟩, fun n0 st hst => ?_⟩
  · rw [e]; exact Frag.one (.label hc ht) fun r hr => hr.stops
  · obtain ⟨h1, h2, h3⟩ := BState.node_spec hst (f k)
    exact ⟨_, _, rfl, h1, h2, h3, fun ρ hρ => (hρ b (f k) _ hb h3).symm⟩

theorem asRead_lit_rename {v : PStr} {l d : Option PStr} {ρ : Nat → Nat} : asRead (.lit v l d) = (asRead (.lit v l d)).rename ρ := by
  unfold asRead
  split <;> rfl

theorem node_frag_at (hm : SafeProfile m) {x : Term} (h : TextNodeAt nl m (base.getD []) namer x) {nm : Names} (hn : NInv namer nm) :
    ∃ nm' w t, name ⟨m, base, namer⟩ nm x = .ok (nm', w) ∧ NInv namer nm' ∧ NExt nm nm' ∧ (∀ b, x = .bnode b → nm'.map.get? b = some w) ∧
      Frag (LeafTok.toks t) w ∧ ∀ n0, LeafReads nl m (base.getD []) n0 nm' t (asRead x) := by
  cases h with
  | @iri i h =>
    obtain ⟨i, h1, _, h2⟩ := iri_frag_at hm h
    refine ⟨nm, _, .node (.iri i), rfl, hn, .refl _, by simp, h1, fun n0 st hst ho => ⟨st.bn, .named _, ?_, ho, .refl _, fun _ _ => rfl⟩⟩
    rw [evalLeaf, evalNode, h2 st hst]; rfl
  | lit h =>
    obtain ⟨w, t, h1, h2, h3⟩ := textLit_frag hm h
    refine ⟨nm, w, t, ?_, hn, .refl _, by simp, h2, fun n0 st hst ho => ⟨st.bn, _, h3 nl st, ho, .refl _, fun _ _ => asRead_lit_rename⟩⟩
    rw [name, h1]; rfl
  | @bnode k f hf hs =>
    have key : ∃ nm' w, name ⟨m, base, namer⟩ nm (.bnode k) = .ok (nm', w) ∧ NInv namer nm' ∧ NExt nm nm' ∧ nm'.map.get? k = some w := by
      cases hg : nm.map.get? k with
      | some t => exact ⟨nm, t, by rw [name, hg], hn, .refl _, hg⟩
      | none =>
        refine ⟨⟨nm.map.set k (f nm.taken), nm.taken + 1⟩, f nm.taken, by rw [name, hg, hf], ⟨fun b t hb => ?_, fun b b' t hb hb' => ?_⟩, fun b t hb => ?_, ?_⟩
        · rw [Dict.get?_set] at hb
          split at hb
          · cases hb; exact ⟨f, nm.taken, hf, hs, Nat.lt_succ_self _, rfl⟩
          · obtain ⟨f, j, a, b, c, d⟩ := hn.from_ b t hb
            exact ⟨f, j, a, b, Nat.lt_succ_of_lt c, d⟩
        · rw [Dict.get?_set] at hb hb'
          split at hb
          · next e1 =>
            split at hb'
            · next e2 => rw [← e1, ← e2]
            · cases hb
              obtain ⟨f', j, a, _, c, d⟩ := hn.from_ b' _ hb'
              rw [hf] at a; cases a
              have := hs.inj _ _ d
              omega
          · split at hb'
            · cases hb'
              obtain ⟨f', j, a, _, c, d⟩ := hn.from_ b _ hb
              rw [hf] at a; cases a
              have := hs.inj _ _ d
              omega
            · exact hn.inj b b' t hb hb'
        · show Dict.get? _ _ = _
          rw [Dict.get?_set, if_neg]
          · exact hb
          · rintro rfl; rw [hg] at hb; cases hb
        · show Dict.get? _ _ = _
          rw [Dict.get?_set, if_pos rfl]
    obtain ⟨nm', w, h1, h2, h3, h4⟩ := key
    obtain ⟨f1, _, f2⟩ := h2.label (nl := nl) h4
    refine ⟨nm', w, .node (.label w), h1, h2, h3, fun b hb => by cases hb; exact h4, f1, fun n0 st hst ho => ?_⟩
    obtain ⟨bs, i, e1, e2, e3, _, e4⟩ := f2 n0 st ho
    exact ⟨bs, .bnode i, by rw [evalLeaf, e1], e2, e3, fun ρ hρ => by rw [e4 ρ hρ]; rfl⟩

/-! ### Objects, predicates -/

theorem objs_frag_at (hm : SafeProfile m) {o : Orders} {c fuel : Nat} {g : Graph} {w : World} (indent : Nat) :
    ∀ (ts : List Stmt) (first : Bool) (nm : Names), NInv namer nm → ts ≠ [] → (∀ t ∈ ts, TextNodeAt nl m (base.getD []) namer t.o ∧ isList o w g c t.o = .ok false) →
      ∃ nm' X os, objsText o c fuel g ⟨m, base, namer⟩ indent first ⟨w, nm⟩ ts = .ok (⟨w, nm'⟩, (if first then [] else [44, 10] ++ spaces indent) ++ X) ∧
        NInv namer nm' ∧ NExt nm nm' ∧ (∀ t ∈ ts, ∀ b, t.o = .bnode b → ∃ l, nm'.map.get? b = some l) ∧ Frag (Objs.toks os) X ∧
        ∀ n0 st, AgreesAt (base.getD []) m st → BState.OK n0 st.bn → ∃ bs eos, evalObjs nl st os = .ok ({ st with bn := bs }, eos) ∧ BState.OK n0 bs ∧ st.bn.Ext bs ∧
          ∀ ρ, Compat ρ nm' bs → (∀ s v n, genMany s v n eos = (n, ts.map fun t => mkTriple s v ((asRead t.o).rename ρ))) ∧
            ∀ s v n, genObjs s v n eos = (n, ts.map fun t => mkTriple s v ((asRead t.o).rename ρ)) := by
  intro ts
  induction ts with
  | nil => intro _ _ _ h; exact absurd rfl h
  | cons t ts ih =>
    intro first nm hn _ hts
    obtain ⟨hsafe, hl⟩ := hts t (List.mem_cons_self ..)
    obtain ⟨nm1, x, lf, h1, hn1, he1, hb1, h2, h3⟩ := node_frag_at hm hsafe hn
    have hobj : objText o c fuel g ⟨m, base, namer⟩ ⟨w, nm⟩ t.o = .ok (⟨w, nm1⟩, x) := by simp only [objText, hl, h1]
    cases ts with
    | nil =>
      refine ⟨nm1, x, .one (.leaf lf), ?_, hn1, he1, ?_, h2, fun n0 st hst ho => ?_⟩
      · simp [objsText, hobj]
      · intro t' ht' b hb
        rw [List.mem_singleton] at ht'
        subst ht'
        exact ⟨x, hb1 b hb⟩
      · obtain ⟨bs, y, e1, e2, e3, e4⟩ := h3 n0 st hst ho
        refine ⟨bs, .one (.leaf y), by simp only [evalObjs, evalObj, e1], e2, e3, fun ρ hρ => ?_⟩
        have := e4 ρ hρ
        subst this
        exact ⟨fun s v n => rfl, fun s v n => by simp [genObjs, genObj]⟩
    | cons t' ts' =>
      obtain ⟨nm2, X, os, i1, hn2, he2, hb2, i2, i3⟩ := ih false nm1 hn1 (by simp) fun t ht => hts t (List.mem_cons_of_mem _ ht)
      refine ⟨nm2, x ++ ([44, 10] ++ spaces indent) ++ X, .cons (.leaf lf) os, ?_, hn2, he1.trans he2, ?_, ?_, fun n0 st hst ho => ?_⟩
      · rw [objsText, hobj]
        show (match objsText o c fuel g ⟨m, base, namer⟩ indent false ⟨w, nm1⟩ (t' :: ts') with | .error e => _ | .ok (st, rest) => _) = _
        rw [i1]
        simp
      · intro t2 ht2 b hb
        rcases List.mem_cons.1 ht2 with rfl | ht2
        · exact ⟨x, he2 _ _ (hb1 b hb)⟩
        · exact hb2 t2 ht2 b hb
      · intro P hP r tks hr hp
        have e : (x ++ ([44, 10] ++ spaces indent) ++ X ++ r : PStr) = x ++ ([44] ++ (10 :: (spaces indent ++ (X ++ r)))) := by simp
        rw [e, Objs.toks, List.append_assoc, List.cons_append]
        exact h2 P hP _ _ (.inr ⟨44, _, rfl, .inr (.inl rfl)⟩) (hP.tok .comma trivial (hP.white (by simp [isWhite]) (hP.spaces (i2 P hP _ _ hr hp) _)))
      · obtain ⟨bs, y, e1, e2, e3, e4⟩ := h3 n0 st hst ho
        obtain ⟨bs', eos, d1, d2, d3, d4⟩ := i3 n0 { st with bn := bs } (hst.bn bs) e2
        refine ⟨bs', .cons (.leaf y) eos, by simp only [evalObjs, evalObj, e1, d1], d2, e3.trans d3, fun ρ hρ => ?_⟩
        have := e4 ρ (hρ.mono he2 d3)
        subst this
        obtain ⟨d5, _⟩ := d4 ρ hρ
        exact ⟨fun s v n => by simp [genMany, childTerm, d5], fun s v n => by simp [genObjs, genMany, childTerm, d5]⟩

theorem preds_frag_at (hm : SafeProfile m) {o : Orders} {c fuel : Nat} {g : Graph} {w : World} (s : Term) (indent : Nat) :
    ∀ (ps : List (PStr × Term)) (first : Bool) (nm : Names), NInv namer nm → ps ≠ [] →
      (∀ e ∈ ps, ∃ i, e = (iriRepr m base i, .named i) ∧ SafeIriAt nl m (base.getD []) i ∧ g.match o.stmts s e.2 .none ≠ [] ∧
        ∀ t ∈ g.match o.stmts s e.2 .none, TextNodeAt nl m (base.getD []) namer t.o ∧ isList o w g c t.o = .ok false) →
      ∃ nm' X pol, predsText o c fuel g ⟨m, base, namer⟩ s indent first ⟨w, nm⟩ ps = .ok (⟨w, nm'⟩, (if first then [] else spaces indent) ++ X) ∧
        NInv namer nm' ∧ NExt nm nm' ∧ (∀ e ∈ ps, ∀ t ∈ g.match o.stmts s e.2 .none, ∀ b, t.o = .bnode b → ∃ l, nm'.map.get? b = some l) ∧
        (∀ r tks, Plainly lark tks r → Plainly lark (Pol.toks pol ++ tks) (X ++ r)) ∧
        ∀ n0 st, AgreesAt (base.getD []) m st → BState.OK n0 st.bn → ∃ bs epol, evalPol nl st pol = .ok ({ st with bn := bs }, epol) ∧ BState.OK n0 bs ∧ st.bn.Ext bs ∧
          ∀ ρ, Compat ρ nm' bs → ∀ s' n, genPol s' n epol = (n, ps.flatMap fun e => (g.match o.stmts s e.2 .none).map fun t => mkTriple s' e.2 ((asRead t.o).rename ρ)) := by
  intro ps
  induction ps with
  | nil => intro _ _ _ h; exact absurd rfl h
  | cons e ps ih =>
    intro first nm hn _ hps
    obtain ⟨i, rfl, hi, hne, hts⟩ := hps e (List.mem_cons_self ..)
    obtain ⟨it, f1, _, f2⟩ := iri_frag_at hm hi
    obtain ⟨nm1, X, os, g1, hn1, he1, hb1, g2, g3⟩ := objs_frag_at hm (o := o) (c := c) (fuel := fuel) (g := g) (namer := namer) (base := base) (w := w) (indent + (iriRepr m base i).length + 1)
      (g.match o.stmts s (.named i) .none) true nm hn hne hts
    have hw : ∀ tks r, Plainly lark tks r → Plainly lark (.iri it :: (os.toks ++ .semi :: tks)) (iriRepr m base i ++ (32 :: (X ++ (32 :: ([59] ++ (10 :: r)))))) := fun tks r h =>
      f1.plainly _ _ (.inr ⟨32, _, rfl, .inl rfl⟩) (Plainly.white (.inl rfl) (g2.plainly _ _ (.inr ⟨32, _, rfl, .inl rfl⟩) (Plainly.white (.inl rfl)
        (Plainly.tok .semi trivial (Plainly.white (by simp [isWhite]) h)))))
    cases ps with
    | nil =>
      refine ⟨nm1, iriRepr m base i ++ [32] ++ X ++ [32, 59, 10], .last (.iri it) os 1, ?_, hn1, he1, ?_, fun r tks h => ?_, fun n0 st hst ho => ?_⟩
      · rw [predsText, g1]
        simp [predsText]
      · intro e' he' t ht b hb
        rw [List.mem_singleton] at he'
        subst he'
        exact hb1 t ht b hb
      · have := hw tks r h
        simpa [Pol.toks, VerbTok.toks] using this
      · obtain ⟨bs, eos, d1, d2, d3, d4⟩ := g3 n0 st hst ho
        refine ⟨bs, .last (.named i) eos 1, ?_, d2, d3, fun ρ hρ s' n => ?_⟩
        · simp only [evalPol, evalVerb, f2 st hst, Except.map, d1]
        · simp [genPol, (d4 ρ hρ).2]
    | cons e' ps' =>
      obtain ⟨nm2, Y, pol, i1, hn2, he2, hb2, i2, i3⟩ := ih false nm1 hn1 (by simp) fun e he => hps e (List.mem_cons_of_mem _ he)
      refine ⟨nm2, iriRepr m base i ++ [32] ++ X ++ [32, 59, 10] ++ (spaces indent ++ Y), .cons (.iri it) os 0 pol, ?_, hn2, he1.trans he2, ?_, fun r tks h => ?_, fun n0 st hst ho => ?_⟩
      · rw [predsText, g1]
        show (match predsText o c fuel g ⟨m, base, namer⟩ s indent false ⟨w, nm1⟩ (e' :: ps') with | .error e => _ | .ok (st, rest) => _) = _
        rw [i1]
        simp
      · intro e2 he2' t ht b hb
        rcases List.mem_cons.1 he2' with rfl | he2'
        · obtain ⟨l, hl⟩ := hb1 t ht b hb
          exact ⟨l, he2 _ _ hl⟩
        · exact hb2 e2 he2' t ht b hb
      · have := hw (pol.toks ++ tks) (spaces indent ++ (Y ++ r)) (Plainly.spaces (i2 r tks h) _)
        simpa [Pol.toks, VerbTok.toks] using this
      · obtain ⟨bs, eos, d1, d2, d3, d4⟩ := g3 n0 st hst ho
        obtain ⟨bs', epol, k1, k2, k3, k4⟩ := i3 n0 { st with bn := bs } (hst.bn bs) d2
        refine ⟨bs', .cons (.named i) eos 0 epol, ?_, k2, d3.trans k3, fun ρ hρ s' n => ?_⟩
        · simp only [evalPol, evalVerb, f2 st hst, Except.map, d1, k1]
        · simp [genPol, (d4 ρ (hρ.mono he2 k3)).2, k4 ρ hρ]

/-! ### Subjects -/

/-- A node with its name. -/
def Named (nl : PStr → Bool) (m : PrefixMap) (base : Option PStr) (nm : Names) (x : PStr × Term) : Prop :=
  (∃ i, x = (iriRepr m base i, .named i) ∧ SafeIriAt nl m (base.getD []) i) ∨ ∃ b, x.2 = .bnode b ∧ nm.map.get? b = some x.1

theorem Named.mono {nm nm' : Names} (h : NExt nm nm') {x : PStr × Term} (hx : Named nl m base nm x) : Named nl m base nm' x := by
  rcases hx with hx | ⟨b, h1, h2⟩
  · exact .inl hx
  · exact .inr ⟨b, h1, h _ _ h2⟩

/-- A subject that survives. -/
def SafeSubjAt (nl : PStr → Bool) (m : PrefixMap) (b : PStr) (namer : Namer) (x : Term) : Prop :=
  (∃ i, x = .named i ∧ SafeIriAt nl m b i) ∨ (∃ k, x = .bnode k) ∧ ∃ f, namer = some f ∧ SafeNamer f

theorem SafeSubjAt.node {b : PStr} {x : Term} (h : SafeSubjAt nl m b namer x) : TextNodeAt nl m b namer x := by
  rcases h with ⟨i, rfl, h⟩ | ⟨⟨k, rfl⟩, f, hf, hs⟩
  · exact .iri h
  · exact .bnode hf hs

theorem SafeSubjAt.truthy {b : PStr} {x : Term} (h : SafeSubjAt nl m b namer x) : x.truthy = true := by
  rcases h with ⟨i, rfl, h⟩ | ⟨⟨k, rfl⟩, _⟩
  · cases i with
    | nil => exact absurd rfl h.ne
    | cons => rfl
  · rfl

theorem names_at (hm : SafeProfile m) : ∀ (ts : List Term) (nm : Names), NInv namer nm → (∀ t ∈ ts, SafeSubjAt nl m (base.getD []) namer t) →
    ∃ nm' xs, names ⟨m, base, namer⟩ nm ts = .ok (nm', xs) ∧ NInv namer nm' ∧ NExt nm nm' ∧ xs.map (·.2) = ts ∧ ∀ x ∈ xs, Named nl m base nm' x
  | [], nm, hn, _ => ⟨nm, [], rfl, hn, .refl _, rfl, by simp⟩
  | t :: ts, nm, hn, h => by
    have ht := h t (List.mem_cons_self ..)
    obtain ⟨nm1, w, lf, h1, hn1, he1, hb1, _, _⟩ := node_frag_at hm ht.node hn
    obtain ⟨nm2, xs, i1, hn2, he2, i2, i3⟩ := names_at hm ts nm1 hn1 fun t ht => h t (List.mem_cons_of_mem _ ht)
    refine ⟨nm2, (w, t) :: xs, ?_, hn2, he1.trans he2, by simp [i2], ?_⟩
    · rw [names, h1]
      show (match names ⟨m, base, namer⟩ nm1 ts with | .error e => _ | .ok (nm, xs) => _) = _
      rw [i1]
    · intro x hx
      rcases List.mem_cons.1 hx with rfl | hx
      · rcases ht with ⟨i, rfl, hi⟩ | ⟨⟨k, rfl⟩, _⟩
        · have : Except.ok (nm, iriRepr m base i) = Except.ok (nm1, w) := h1
          cases this
          exact .inl ⟨i, rfl, hi⟩
        · exact .inr ⟨k, rfl, he2 _ _ (hb1 k rfl)⟩
      · exact i3 x hx

theorem incomparable_at (hm : SafeProfile m) {nm : Names} (hn : NInv namer nm) : ∀ xs : List (PStr × Term), (xs.map (·.2)).Nodup → (∀ x ∈ xs, Named nl m base nm x) → incomparable xs = false
  | [], _, _ => rfl
  | x :: xs, nd, h => by
    rw [incomparable, incomparable_at hm hn xs (List.nodup_cons.1 nd).2 fun y hy => h y (List.mem_cons_of_mem _ hy), Bool.or_false, List.any_eq_false]
    intro y hy hxy
    rw [Bool.and_eq_true, beq_iff_eq] at hxy
    obtain ⟨he, hnn⟩ := hxy
    have hne : x.2 ≠ y.2 := fun e => (List.nodup_cons.1 nd).1 (List.mem_map.2 ⟨y, hy, e.symm⟩)
    rcases h x (List.mem_cons_self ..) with ⟨i, rfl, hi⟩ | ⟨b, hb1, hb2⟩ <;> rcases h y (List.mem_cons_of_mem _ hy) with ⟨j, rfl, hj⟩ | ⟨b', hb1', hb2'⟩
    · simp [Term.isNamed] at hnn
    · obtain ⟨_, _, ⟨c, r, e1, hc⟩, _⟩ := iri_frag_at hm hi
      obtain ⟨_, ⟨r', e2⟩, _⟩ := hn.label (nl := nl) hb2'
      have he : iriRepr m base i = y.1 := he
      rw [e1, e2] at he
      cases he
      exact hc rfl
    · obtain ⟨_, _, ⟨c, r, e1, hc⟩, _⟩ := iri_frag_at hm hj
      obtain ⟨_, ⟨r', e2⟩, _⟩ := hn.label (nl := nl) hb2
      have he : x.1 = iriRepr m base j := he
      rw [e1, e2] at he
      cases he
      exact hc rfl
    · rw [he] at hb2
      have := hn.inj _ _ _ hb2 hb2'
      subst this
      exact hne (hb1.trans hb1'.symm)

theorem sortedNames_at (hm : SafeProfile m) {nm : Names} (hn : NInv namer nm) {ts : List Term} (nd : ts.Nodup) (h : ∀ t ∈ ts, SafeSubjAt nl m (base.getD []) namer t) :
    ∃ nm' xs, sortedNames ⟨m, base, namer⟩ nm ts = .ok (nm', xs) ∧ NInv namer nm' ∧ NExt nm nm' ∧ (xs.map (·.2)).Perm ts ∧ ∀ x ∈ xs, Named nl m base nm' x := by
  obtain ⟨nm', xs, h1, h2, h3, h4, h5⟩ := names_at (base := base) hm ts nm hn h
  refine ⟨nm', xs.foldr insertPair [], ?_, h2, h3, h4 ▸ (sort_perm xs).map _, fun x hx => h5 x ((sort_perm xs).mem_iff.1 hx)⟩
  rw [sortedNames, h1]
  show (if _ then _ else _) = _
  rw [if_neg]
  rw [incomparable_at hm h2 xs (by rw [h4]; exact nd) h5]
  simp

/-- What is asked of a graph. -/
structure SafeGraphAt (nl : PStr → Bool) (m : PrefixMap) (b : PStr) (namer : Namer) (g : Graph) : Prop where
  inv : Graph.Inv g
  subj : ∀ t ∈ g.triples, SafeSubjAt nl m b namer t.s
  pred : ∀ t ∈ g.triples, ∃ i, t.p = .named i ∧ SafeIriAt nl m b i ∧ i ≠ Heap.rdfNs ++ py! "rest"
  obj : ∀ t ∈ g.triples, TextNodeAt nl m b namer t.o
  live : ∀ s ∈ g.subjects, ∃ t ∈ g.triples, t.s = s

theorem named_frag (hm : SafeProfile m) {nm : Names} (hn : NInv namer nm) {e : PStr × Term} (he : Named nl m base nm e) :
    ∃ it, Frag (NodeTok.toks it) e.1 ∧ ∀ n0 st, AgreesAt (base.getD []) m st → BState.OK n0 st.bn → ∃ bs y, evalNode nl st it = .ok ({ st with bn := bs }, y) ∧
      BState.OK n0 bs ∧ st.bn.Ext bs ∧ ∀ ρ, Compat ρ nm bs → y = e.2.rename ρ := by
  rcases he with ⟨i, rfl, hi⟩ | ⟨b, hb1, hb2⟩
  · obtain ⟨i, h1, _, h2⟩ := iri_frag_at hm hi
    refine ⟨.iri i, h1, fun n0 st hst ho => ⟨st.bn, .named _, ?_, ho, .refl _, fun _ _ => rfl⟩⟩
    rw [evalNode, h2 st hst]; rfl
  · obtain ⟨f1, _, f2⟩ := hn.label (nl := nl) hb2
    refine ⟨.label e.1, f1, fun n0 st hst ho => ?_⟩
    obtain ⟨bs, i, e1, e2, e3, _, e4⟩ := f2 n0 st ho
    exact ⟨bs, .bnode i, e1, e2, e3, fun ρ hρ => by rw [e4 ρ hρ, hb1]; rfl⟩

omit nl m base namer in
theorem flatMap_one {α β κ : Type} {key : β → κ} {F : β → List α} {R : List α} {e0 : β} : ∀ {l : List β}, (l.map key).Nodup → e0 ∈ l → F e0 = R →
    (∀ e ∈ l, key e ≠ key e0 → F e = []) → l.flatMap F = R
  | [], _, h, _, _ => by cases h
  | e :: l, nd, h, h0, hz => by
    obtain ⟨n1, n2⟩ := List.nodup_cons.1 nd
    rw [List.flatMap_cons]
    rcases List.mem_cons.1 h with rfl | h
    · have : l.flatMap F = [] := List.flatMap_eq_nil_iff.2 fun x hx =>
        hz x (List.mem_cons_of_mem _ hx) fun e' => n1 (List.mem_map.2 ⟨x, hx, e'⟩)
      rw [this, h0, List.append_nil]
    · rw [hz e (List.mem_cons_self ..) fun e' => n1 (e' ▸ List.mem_map.2 ⟨e0, h, rfl⟩), List.nil_append]
      exact flatMap_one n2 h h0 fun x hx => hz x (List.mem_cons_of_mem _ hx)

theorem subj_frag_at (hm : SafeProfile m) {g : Graph} (hg : SafeGraphAt nl m (base.getD []) namer g) {o : Orders} (ho : Orders.OK o) {c fuel : Nat} {w : World} {nm : Names} (hn : NInv namer nm)
    (hr : resolveKey w c (py! "rdf:rest") = .ok (some (Heap.rdfNs ++ py! "rest"))) {e : PStr × Term} (hi : e.2 ∈ g.subjects) (hN : Named nl m base nm e) :
    ∃ nm' X d, ∃ ts : List Stmt, subjText o c fuel g ⟨m, base, namer⟩ ⟨w, nm⟩ e.1 e.2 = .ok (⟨w, nm'⟩, X) ∧ NInv namer nm' ∧ NExt nm nm' ∧
      (∀ t ∈ ts, ∀ b, t.o = .bnode b → ∃ l, nm'.map.get? b = some l) ∧
      (∀ r tks, Plainly lark tks r → Plainly lark (TStmt.toks d ++ tks) (X ++ r)) ∧
      (∀ n0 st, AgreesAt (base.getD []) m st → BState.OK n0 st.bn → ∃ bs es, evalStmt nl st d = .ok ({ st with bn := bs }, es) ∧ BState.OK n0 bs ∧ st.bn.Ext bs ∧
        ∀ ρ, Compat ρ nm' bs → ∀ n, genStmt n es = (n, ts.map (fun t => (readStmt t).rename ρ))) ∧
      ts.Nodup ∧ (∀ t, t ∈ ts ↔ t ∈ g.triples ∧ t.s = e.2) ∧
      ∀ t0 ∈ ts, (ts.filter fun t => t.s = t0.s ∧ t.p = t0.p) = g.match o.stmts t0.s t0.p .none := by
  obtain ⟨w0, s⟩ := e
  dsimp only at hi ⊢
  obtain ⟨t0, ht0, hs0⟩ := hg.live _ hi
  have hsi : SafeSubjAt nl m (base.getD []) namer s := hs0 ▸ hg.subj t0 ht0
  have htr := hsi.truthy
  have hno : ∀ t ∈ g.triples, t.p ≠ .named (Heap.rdfNs ++ py! "rest") := fun t ht h => by
    obtain ⟨j, h1, _, h2⟩ := hg.pred t ht
    rw [h] at h1; cases h1; exact h2 rfl
  let preds := o.terms (pySet ((g.match o.stmts s .none .none).map (·.p)))
  have mem_preds : ∀ p, p ∈ preds ↔ ∃ t ∈ g.triples, t.s = s ∧ t.p = p := by
    intro p
    rw [(ho.terms _).mem_iff, mem_pySet, List.mem_map]
    constructor
    · rintro ⟨t, ht, rfl⟩
      obtain ⟨h1, h2, _⟩ := (Graph.mem_match hg.inv ho.stmts _ _ _ t).1 ht
      exact ⟨t, h1, h2 htr, rfl⟩
    · rintro ⟨t, h1, h2, rfl⟩
      exact ⟨t, (Graph.mem_match hg.inv ho.stmts _ _ _ t).2 ⟨h1, fun _ => h2, (by intro h; cases h), (by intro h; cases h)⟩, rfl⟩
  obtain ⟨ps, h1, h2, h3⟩ := sortedNames_named (m := m) (base := base) (namer := namer) nm (ts := preds) (fun p hp => by
    obtain ⟨t, ht, _, rfl⟩ := (mem_preds p).1 hp
    obtain ⟨j, hj, _⟩ := hg.pred t ht
    exact ⟨j, hj⟩)
  have mem_ps : ∀ e ∈ ps, ∃ t ∈ g.triples, t.s = s ∧ t.p = e.2 := fun e he => (mem_preds e.2).1 (h2.mem_iff.1 (List.mem_map.2 ⟨e, he, rfl⟩))
  have mem_m : ∀ e ∈ ps, ∀ t, t ∈ g.match o.stmts s e.2 .none ↔ t ∈ g.triples ∧ t.s = s ∧ t.p = e.2 := by
    intro e he t
    obtain ⟨t1, ht1, _, hp1⟩ := mem_ps e he
    obtain ⟨j, hj, hj2, _⟩ := hg.pred t1 ht1
    have hpt : e.2.truthy = true := by rw [← hp1, hj]; exact SafeSubjAt.truthy (namer := namer) (.inl ⟨j, rfl, hj2⟩)
    rw [Graph.mem_match hg.inv ho.stmts]
    constructor
    · rintro ⟨a, b, c, _⟩; exact ⟨a, b htr, c hpt⟩
    · rintro ⟨a, b, c⟩; exact ⟨a, fun _ => b, fun _ => c, by intro h; cases h⟩
  have hne : ps ≠ [] := by
    rintro rfl
    have := h2.mem_iff.2 ((mem_preds t0.p).2 ⟨t0, ht0, hs0, rfl⟩)
    simp at this
  obtain ⟨nm', X, pol, p1, hn', he', hb', p2, p3⟩ := preds_frag_at hm (o := o) (c := c) (fuel := fuel) (g := g) (namer := namer) (base := base) (nl := nl) (w := w) s (w0.length + 1) ps true nm hn hne (by
    intro e he
    obtain ⟨t1, ht1, hs1, hp1⟩ := mem_ps e he
    obtain ⟨j, rfl⟩ := h3 e he
    obtain ⟨j', hj, hj2, _⟩ := hg.pred t1 ht1
    rw [hp1] at hj; cases hj
    refine ⟨_, rfl, hj2, fun h => ?_, fun t ht => ⟨hg.obj t ((mem_m _ he t).1 ht).1, isList_false hno hg.inv ho.stmts hr _⟩⟩
    have := (mem_m _ he t1).2 ⟨ht1, hs1, hp1⟩
    rw [h] at this; cases this)
  obtain ⟨it, f1, f2⟩ := named_frag hm hn hN
  have named : ∀ e ∈ ps, ∀ ρ : Nat → Nat, e.2.rename ρ = e.2 := fun e he ρ => by obtain ⟨j, rfl⟩ := h3 e he; rfl
  have hmap : ∀ e ∈ ps, ∀ ρ : Nat → Nat, (g.match o.stmts s e.2 .none).map (fun t => mkTriple (s.rename ρ) e.2 ((asRead t.o).rename ρ)) = (g.match o.stmts s e.2 .none).map (fun t => (readStmt t).rename ρ) := by
    intro e he ρ
    apply List.map_congr_left
    intro t ht
    obtain ⟨a, b, c⟩ := (mem_m e he t).1 ht
    have h := hg.inv.isTri t a
    have hp := named e he ρ
    cases t
    simp only at b c h
    subst b c h
    simp [mkTriple, Stmt.rename, readStmt, hp]
  refine ⟨nm', w0 ++ [32] ++ X ++ spaces (w0.length + 1) ++ [46, 10, 10], .node it pol, ps.flatMap fun e => g.match o.stmts s e.2 .none, ?_, hn', he', ?_, fun r tks h => ?_, fun n0 st hst hok => ?_, ?_, fun t => ?_, fun t0 ht0 => ?_⟩
  · show (match sortedNames ⟨m, base, namer⟩ nm preds with | .error e => _ | .ok (nm, ps) => _) = _
    rw [h1]
    show (match predsText o c fuel g ⟨m, base, namer⟩ s (w0.length + 1) true ⟨w, nm⟩ ps with | .error e => _ | .ok (st, t) => _) = _
    rw [p1]
    simp
  · intro t ht b hb
    obtain ⟨e, he, ht⟩ := List.mem_flatMap.1 ht
    exact hb' e he t ht b hb
  · have e : (w0 ++ [32] ++ X ++ spaces (w0.length + 1) ++ [46, 10, 10] ++ r : PStr) =
        w0 ++ (32 :: (X ++ (spaces (w0.length + 1) ++ ([46] ++ (10 :: (10 :: r)))))) := by simp
    have e2 : (TStmt.toks (.node it pol) ++ tks : List Tok) = it.toks ++ (pol.toks ++ (.dot :: tks)) := by simp [TStmt.toks]
    rw [e, e2]
    refine f1.plainly _ _ (.inr ⟨32, _, rfl, .inl rfl⟩) (Plainly.white (.inl rfl) (p2 _ _ (Plainly.spaces (Plainly.tok .dot ?_ (Plainly.white (by simp [isWhite]) (Plainly.white (by simp [isWhite]) h))) _)))
    intro c hc
    cases hc
    simp [isDigitChar]
  · obtain ⟨bs, y, a1, a2, a3, a4⟩ := f2 n0 st hst hok
    obtain ⟨bs', epol, b1, b2, b3, b4⟩ := p3 n0 { st with bn := bs } (hst.bn bs) a2
    refine ⟨bs', .node y epol, by simp only [evalStmt, a1, b1, Except.map], b2, a3.trans b3, fun ρ hρ n => ?_⟩
    have := a4 ρ (hρ.mono he' b3)
    subst this
    rw [genStmt, b4 ρ hρ, List.map_flatMap]
    congr 1
    simp only [List.flatMap_def]
    congr 1
    exact List.map_congr_left fun e he => hmap e he ρ
  · rw [List.nodup_iff_pairwise_ne, List.pairwise_flatMap]
    refine ⟨fun e he => List.nodup_iff_pairwise_ne.1 (Graph.nodup_match hg.inv.toIxInv ho.stmts _ _ _), ?_⟩
    have nd : (ps.map (·.2)).Nodup := h2.nodup_iff.2 ((ho.terms _).nodup_iff.2 (nodup_pySet _))
    have := (List.pairwise_map.1 (List.nodup_iff_pairwise_ne.1 nd))
    refine List.Pairwise.imp_of_mem (fun {a b} ha hb hab x hx y hy => ?_) this
    have h1 := ((mem_m a ha x).1 hx).2.2
    have h2 := ((mem_m b hb y).1 hy).2.2
    rintro rfl
    exact hab (h1.symm.trans h2)
  · rw [List.mem_flatMap]
    constructor
    · rintro ⟨e, he, ht⟩
      obtain ⟨a, b, _⟩ := (mem_m e he t).1 ht
      exact ⟨a, b⟩
    · rintro ⟨a, b⟩
      obtain ⟨e, he, hep⟩ := List.mem_map.1 (h2.mem_iff.2 ((mem_preds t.p).2 ⟨t, a, b, rfl⟩))
      exact ⟨e, he, (mem_m e he t).2 ⟨a, b, hep.symm⟩⟩
  · obtain ⟨e0, he0, ht0⟩ := List.mem_flatMap.1 ht0
    obtain ⟨_, b0, c0⟩ := (mem_m e0 he0 t0).1 ht0
    rw [b0, c0, List.filter_flatMap]
    refine flatMap_one (key := fun e : PStr × Term => e.2) (h2.nodup_iff.2 ((ho.terms _).nodup_iff.2 (nodup_pySet _))) he0 ?_ fun e he hne => ?_
    · refine List.filter_eq_self.2 fun t ht => ?_
      obtain ⟨_, b, c⟩ := (mem_m e0 he0 t).1 ht
      simp [b, c]
    · refine List.filter_eq_nil_iff.2 fun t ht => ?_
      obtain ⟨_, b, c⟩ := (mem_m e he t).1 ht
      simp [b, c, hne]

theorem subjs_frag_at (hm : SafeProfile m) {g : Graph} (hg : SafeGraphAt nl m (base.getD []) namer g) {o : Orders} (ho : Orders.OK o) {c fuel : Nat} {w : World}
    (hr : resolveKey w c (py! "rdf:rest") = .ok (some (Heap.rdfNs ++ py! "rest"))) :
    ∀ (ss : List (PStr × Term)) (nm : Names), NInv namer nm → (∀ e ∈ ss, e.2 ∈ g.subjects ∧ Named nl m base nm e) → (ss.map (·.2)).Nodup →
      ∃ nm' X ds, ∃ ts : List Stmt, subjsText o c fuel g ⟨m, base, namer⟩ ⟨w, nm⟩ ss = .ok (⟨w, nm'⟩, X) ∧ NInv namer nm' ∧ NExt nm nm' ∧
        (∀ t ∈ ts, ∀ b, t.o = .bnode b → ∃ l, nm'.map.get? b = some l) ∧ (∀ r tks, Plainly lark tks r → Plainly lark (docToks ds ++ tks) (X ++ r)) ∧
        (∀ n0 st, AgreesAt (base.getD []) m st → BState.OK n0 st.bn → ∃ bs es, evalStmts nl st ds = .ok ({ st with bn := bs }, es) ∧ BState.OK n0 bs ∧ st.bn.Ext bs ∧
          ∀ ρ, Compat ρ nm' bs → ∀ n, genStmts n es = (n, ts.map (fun t => (readStmt t).rename ρ))) ∧
        ts.Nodup ∧ (∀ t, t ∈ ts ↔ t ∈ g.triples ∧ t.s ∈ ss.map (·.2)) ∧
        ∀ t0 ∈ ts, (ts.filter fun t => t.s = t0.s ∧ t.p = t0.p) = g.match o.stmts t0.s t0.p .none
  | [], nm, hn, _, _ => ⟨nm, [], [], [], rfl, hn, .refl _, by simp, fun _ _ h => h, fun n0 st _ hok => ⟨st.bn, [], rfl, hok, .refl _, fun _ _ _ => rfl⟩, .nil, by simp, by simp⟩
  | e :: ss, nm, hn, h, nd => by
    obtain ⟨hs, hN⟩ := h e (List.mem_cons_self ..)
    obtain ⟨nm1, X, d, ts, a1, hn1, he1, hb1, a2, a3, a5, a6, a7⟩ := subj_frag_at hm hg ho (c := c) (fuel := fuel) (w := w) hn hr hs hN
    obtain ⟨nm2, Y, ds, us, b1, hn2, he2, hb2, b2, b3, b5, b6, b7⟩ := subjs_frag_at hm hg ho (c := c) (fuel := fuel) hr ss nm1 hn1
      (fun e he => ⟨(h e (List.mem_cons_of_mem _ he)).1, (h e (List.mem_cons_of_mem _ he)).2.mono he1⟩) (List.nodup_cons.1 nd).2
    refine ⟨nm2, X ++ Y, d :: ds, ts ++ us, ?_, hn2, he1.trans he2, ?_, fun r tks h => by
      have := a2 _ _ (b2 r tks h)
      simpa [docToks] using this, fun n0 st hst hok => ?_, ?_, fun t => ?_, fun t0 ht0 => ?_⟩
    · simp only [subjsText, a1, b1]
    · intro t ht b hb
      rcases List.mem_append.1 ht with ht | ht
      · obtain ⟨l, hl⟩ := hb1 t ht b hb
        exact ⟨l, he2 _ _ hl⟩
      · exact hb2 t ht b hb
    · obtain ⟨bs, es, k1, k2, k3, k4⟩ := a3 n0 st hst hok
      obtain ⟨bs', ess, l1, l2, l3, l4⟩ := b3 n0 { st with bn := bs } (hst.bn bs) k2
      refine ⟨bs', es :: ess, by simp only [evalStmts, k1, l1], l2, k3.trans l3, fun ρ hρ n => ?_⟩
      simp [genStmts, k4 ρ (hρ.mono he2 l3), l4 ρ hρ]
    · rw [List.nodup_append]
      refine ⟨a5, b5, fun x hx y hy hxy => ?_⟩
      subst hxy
      have h1 := ((a6 x).1 hx).2
      have h2 := ((b6 x).1 hy).2
      rw [h1] at h2
      exact (List.nodup_cons.1 nd).1 h2
    · rw [List.mem_append, a6, b6, List.map_cons, List.mem_cons]
      constructor
      · rintro (⟨a, b⟩ | ⟨a, b⟩)
        · exact ⟨a, .inl b⟩
        · exact ⟨a, .inr b⟩
      · rintro ⟨a, b | b⟩
        · exact .inl ⟨a, b⟩
        · exact .inr ⟨a, b⟩
    · have hne : ∀ x ∈ ts, ∀ y ∈ us, x.s ≠ y.s := fun x hx y hy e' => by
        have h2 := ((b6 y).1 hy).2
        rw [← e', ((a6 x).1 hx).2] at h2
        exact (List.nodup_cons.1 nd).1 h2
      rw [List.filter_append]
      rcases List.mem_append.1 ht0 with h0 | h0
      · rw [a7 t0 h0, List.filter_eq_nil_iff.2 fun y hy => by simp [(hne t0 h0 y hy).symm], List.append_nil]
      · rw [b7 t0 h0, List.filter_eq_nil_iff.2 fun x hx => by simp [hne x hx t0 h0], List.nil_append]

end

end Verif.Turtle
