import Verif.Props.TurtleString
import Verif.Props.Curie
/-
C62: what the Turtle writer writes for a node, read by the Turtle parser after the declarations the writer writes.
-/
namespace Verif.Turtle
open Verif.Turtle.Spec

/-! ### Text that is clear about where tokens end -/

theorem Plainly.white {D : Dialect} {ts : List Tok} {r : PStr} {c : Nat} (hc : isWhite c) (h : Plainly D ts r) : Plainly D ts (c :: r) := by
  cases h with
  | nil h =>
    refine .nil ?_
    rcases h with h | ⟨v, t, rfl, h1, h2⟩
    · exact .inl (.white hc h)
    · exact .inr ⟨c :: v, t, rfl, .white hc h1, h2⟩
  | @cons u t w ts r h1 h2 h3 h4 => exact .cons (u := c :: u) (.white hc h1) h2 h3 h4

theorem Plainly.spaces {D : Dialect} {ts : List Tok} {r : PStr} (h : Plainly D ts r) : ∀ n, Plainly D ts (spaces n ++ r)
  | 0 => h
  | n + 1 => Plainly.white (.inl rfl) (Plainly.spaces h n)

theorem Plainly.tok {D : Dialect} {t : Tok} {w : PStr} {ts : List Tok} {r : PStr} (h : TokText D t w) (hf : MayFollow t r) (hr : Plainly D ts r) :
    Plainly D (t :: ts) (w ++ r) := .cons (u := []) .nil h hf hr

/-- The text ends, or goes on with a space, a comma or the end of a list. -/
def Follows (r : PStr) : Prop := r = [] ∨ ∃ c r', r = c :: r' ∧ (c = 0x20 ∨ c = 0x2C ∨ c = 0x29)

theorem Follows.stops {r : PStr} (h : Follows r) : Stops r := by
  rcases h with rfl | ⟨c, r', rfl, hc⟩
  · intro d hd; cases hd
  intro d hd
  have : (c == 0x2E) = false := by rcases hc with rfl | rfl | rfl <;> rfl
  rw [List.dropWhile_cons, this] at hd
  simp at hd
  subst hd
  rcases hc with rfl | rfl | rfl <;> simp [Spec.pnChars, Spec.pnCharsU, Spec.pnCharsBase, isAlpha, isDigitChar]

/-- A way of reading texts as tokens that may skip white space and take tokens that end clearly. `Plainly lark` is one. -/
structure Reads (P : List Tok → PStr → Prop) : Prop where
  white {ts r c} : isWhite c → P ts r → P ts (c :: r)
  tok {t w ts r} : TokText lark t w → MayFollow t r → P ts r → P (t :: ts) (w ++ r)

theorem Reads.spaces {P : List Tok → PStr → Prop} (hP : Reads P) {ts : List Tok} {r : PStr} (h : P ts r) : ∀ n, P ts (spaces n ++ r)
  | 0 => h
  | n + 1 => hP.white (.inl rfl) (hP.spaces h n)

theorem Reads.plainly : Reads (Plainly lark) := ⟨Plainly.white, Plainly.tok⟩

/-- `w` writes the tokens `ts`, whatever they are followed by. -/
def Frag (ts : List Tok) (w : PStr) : Prop := ∀ P, Reads P → ∀ r tks, Follows r → P tks r → P (ts ++ tks) (w ++ r)

theorem Frag.one {t : Tok} {w : PStr} (h : TokText lark t w) (hf : ∀ r, Follows r → MayFollow t r) : Frag [t] w :=
  fun _ hP _ _ hr hp => hP.tok h (hf _ hr) hp

theorem Frag.plainly {ts : List Tok} {w : PStr} (h : Frag ts w) (r : PStr) (tks : List Tok) (hr : Follows r) (hp : Plainly lark tks r) : Plainly lark (ts ++ tks) (w ++ r) :=
  h _ .plainly r tks hr hp

/-! ### Safe nodes: a specification of what the writer can write -/

/-- Only characters that may stand in `<...>` as they are. -/
def LegalIri (s : PStr) : Prop := ∀ c ∈ s, 0x20 < c ∧ c ∉ py! "<>\"{}|^`\\"

/-- An IRI that survives: its characters are legal, and if a namespace of the profile applies, what is left is a local name without
    escapes, in which the namespace does not occur again. -/
structure SafeIri (m : PrefixMap) (iri : PStr) : Prop where
  ne : iri ≠ []
  legal : LegalIri iri
  local_ : ∀ p ns rest, Chosen iri m (p, ns) → iri = ns ++ rest → ns ≠ [] ∧ ¬ ns <:+: rest ∧ PnLocal rest ∧ 0x5C ∉ rest

/-- A profile whose declarations are Turtle, with the usual meaning of rdf: and xsd:. -/
structure SafeProfile (m : PrefixMap) : Prop where
  wf : Dict.WF m
  names : ∀ e ∈ m, PnPrefix e.1 ∧ LegalIri e.2
  rdf : ∀ ns, (py! "rdf", ns) ∈ m → ns = py! "http://www.w3.org/1999/02/22-rdf-syntax-ns#"
  xsd : (py! "xsd", py! "http://www.w3.org/2001/XMLSchema#") ∈ m

/-- A literal that survives. -/
inductive SafeLit : PStr → Option PStr → Option PStr → Prop
  | string {v} : Clean v → SafeLit v none (some (py! "http://www.w3.org/2001/XMLSchema#string"))
  | lang {v l} : Clean v → LangTag l → SafeLit v (some l) none
  | integer {v} : NumText .integer v → SafeLit v none (some (py! "http://www.w3.org/2001/XMLSchema#integer"))
  | decimal {v} : NumText .decimal v → SafeLit v none (some (py! "http://www.w3.org/2001/XMLSchema#decimal"))
  | double {v} : NumText .double v → SafeLit v none (some (py! "http://www.w3.org/2001/XMLSchema#double"))
  | boolean {v} : v = py! "true" ∨ v = py! "false" → SafeLit v none (some (py! "http://www.w3.org/2001/XMLSchema#boolean"))

/-- A node that survives. -/
inductive SafeNode (m : PrefixMap) : Term → Prop
  | iri {i} : SafeIri m i → SafeNode m (.named i)
  | lit {v l d} : SafeLit v l d → SafeNode m (.lit v l d)

/-! ### IRIs -/

/-- The parser's state knows the declarations, and there is no base. -/
structure Agrees (m : PrefixMap) (st : TState) : Prop where
  base : st.base = []
  get : ∀ e ∈ m, st.prefixes.get? e.1 = some e.2

theorem LegalIri.body {s : PStr} (h : LegalIri s) : IriBody s := by
  induction s with
  | nil => exact .nil
  | cons c s ih => exact .char (h c (List.mem_cons_self ..)).1 (h c (List.mem_cons_self ..)).2 (ih fun c hc => h c (List.mem_cons_of_mem _ hc))

theorem LegalIri.no_backslash {s : PStr} (h : LegalIri s) : 92 ∉ s := fun h' => (h 92 h').2 (by decide)

theorem decodeLiteral_no_backslash {s : PStr} (h : 92 ∉ s) : decodeLiteral s = .ok s := by
  induction s with
  | nil => rfl
  | cons c s ih =>
    rw [decodeLiteral_plain (by rintro rfl; exact h (List.mem_cons_self ..)), ih fun h' => h (List.mem_cons_of_mem _ h')]; rfl

theorem LegalIri.resolve {s : PStr} (h : LegalIri s) (nl : PStr → Bool) : resolveRef nl [] s = .ok s := by
  have h1 : legalIri s = true := by
    rw [legalIri, Bool.or_eq_true]
    exact .inl (List.all_eq_true.2 fun c hc => iriClass_iff.2 (h c hc))
  have h2 : decodeIriref s = .ok s := by rw [decodeIriref, decodeLiteral_no_backslash h.no_backslash]; show (if _ then _ else _) = _; rw [if_pos h1]
  rw [resolveRef, h2]
  show smartUrljoin nl [] s = _
  rw [smartUrljoin, urljoin, if_pos rfl]
  show Except.ok (if s.getLast? = some 35 ∧ s.getLast? ≠ some 35 then _ else _) = _
  rw [if_neg (fun h => h.2 h.1)]

theorem iri_frag {m : PrefixMap} (hm : SafeProfile m) {iri : PStr} (h : SafeIri m iri) :
    ∃ i : IriTok, Frag [.iri i] (iriRepr m none iri) ∧ ∀ nl st, Agrees m st → evalIri nl st i = .ok iri := by
  have ref : ∃ i : IriTok, Frag [.iri i] ([60] ++ iri ++ [62]) ∧ ∀ nl st, Agrees m st → evalIri nl st i = .ok iri := by
    refine ⟨.ref iri, Frag.one (.ref h.legal.body) fun _ _ => trivial, fun nl st hst => ?_⟩
    rw [evalIri, hst.base]; exact h.legal.resolve nl
  rw [iriRepr]
  by_cases hex : ∃ pn ∈ m, pn.2 <+: iri
  · obtain ⟨⟨p, ns⟩, hc, _⟩ := toCurie_chosen hex
    obtain ⟨a, b, e1, ⟨rest, e2⟩, _⟩ := id hc
    obtain ⟨hne, hno, hl, hb⟩ := h.local_ p ns rest hc e2.symm
    have hs : PrefixMap.shrink m iri = p ++ [58] ++ rest := C30_shrink_partial iri m [58] p ns rest hc e2.symm hne hno
    show ∃ i : IriTok, Frag [.iri i] (if PrefixMap.shrink m iri = iri then _ else _) ∧ _
    rw [hs]
    split
    · next e => rw [e]; exact ref
    · have hpn : (p, ns) ∈ m := by rw [e1]; simp
      refine ⟨.pname p rest, ?_, fun nl st hst => ?_⟩
      · have : p ++ [58] ++ rest = p ++ 58 :: rest := by simp
        rw [this]
        exact Frag.one (.pname (hm.names _ hpn).1 hl) fun r hr => hr.stops
      · rw [evalIri, resolvePname, hst.get _ hpn, decodeLiteral_no_backslash hb]
        show (match ns ++ rest with | 60 :: r => _ | s => _) = _
        have e2 : ns ++ rest = iri := e2
        rw [e2]
        cases iri with
        | nil => rfl
        | cons c r =>
          have hc : c ≠ 60 := by rintro rfl; exact (h.legal 60 (List.mem_cons_self ..)).2 (by decide)
          split
          · next e3 => cases e3; exact absurd rfl hc
          · rfl
  · have hs : PrefixMap.shrink m iri = iri := toCurie_none (fun pn hpn hp => hex ⟨pn, hpn, hp⟩) [58] false
    show ∃ i : IriTok, Frag [.iri i] (if PrefixMap.shrink m iri = iri then _ else _) ∧ _
    rw [hs, if_pos rfl]
    exact ref

/-! ### Literals -/

theorem get?_of_mem {m : PrefixMap} (wf : Dict.WF m) {p ns : PStr} (h : (p, ns) ∈ m) : m.get? p = some ns := (Dict.mem_iff_get? wf).1 h

theorem xsdOf_safe {m : PrefixMap} (hm : SafeProfile m) {n : PStr} (hn : n ≠ []) (h93 : n.getLast? ≠ some 93) : xsdOf m n = .ok (xsd n) := by
  have hb : bracketed (py! "xsd:" ++ n) = false := by simp [bracketed]
  have hp : pyPartition 58 (py! "xsd:" ++ n) = (py! "xsd", [58], n) := by simp [pyPartition]
  rw [xsdOf, PrefixMap.resolve, parseCurie, if_neg (by simp)]
  simp only [hb]
  show (if _ then _ else match (pyPartition 58 (py! "xsd:" ++ n)).2.2, m.get? [] with | [], some d => _ | reference, _ => _) = _
  cases n with
  | nil => exact absurd rfl hn
  | cons c n =>
    simp only [List.cons_append, List.nil_append] at hp
    have hs : py! "xsd" ∉ schemes := by decide
    simp [hp, hs, get?_of_mem hm.wf hm.xsd, xsd]

theorem lit_frag {m : PrefixMap} (hm : SafeProfile m) {v : PStr} {l d : Option PStr} (h : SafeLit v l d) :
    ∃ w t, litRepr m v l d = .ok w ∧ Frag (LeafTok.toks t) w ∧ ∀ nl st, evalLeaf nl st t = .ok (st, .lit v l d) := by
  have x1 : xsdOf m (py! "string") = .ok (xsd (py! "string")) := xsdOf_safe hm (by decide) (by decide)
  have x2 : xsdOf m (py! "integer") = .ok (xsd (py! "integer")) := xsdOf_safe hm (by decide) (by decide)
  have x3 : xsdOf m (py! "decimal") = .ok (xsd (py! "decimal")) := xsdOf_safe hm (by decide) (by decide)
  have x4 : xsdOf m (py! "double") = .ok (xsd (py! "double")) := xsdOf_safe hm (by decide) (by decide)
  have x5 : xsdOf m (py! "boolean") = .ok (xsd (py! "boolean")) := xsdOf_safe hm (by decide) (by decide)
  have bind : ∀ {α β} (a : α) (f : α → Except Exc β), (Except.ok a >>= f) = f a := fun _ _ => rfl
  cases h with
  | string h =>
    refine ⟨turtleStringEscape v, .str v, ?_, ?_, fun nl st => ?_⟩
    · rw [litRepr, x1, bind, if_pos (by decide)]; rfl
    · rw [h.escape]
      refine Frag.one (.str (.inl rfl) h.strBody) fun r hr => ?_
      rcases hr with rfl | ⟨c, r', rfl, rfl | rfl | rfl⟩ <;> simp [MayFollow]
    · rw [evalLeaf, h.decode]; rfl
  | @lang l h hl =>
    refine ⟨turtleStringEscape v ++ [64] ++ l, .strLang v l, ?_, ?_, fun nl st => ?_⟩
    · have : l ≠ [] := by
        obtain ⟨p, s, rfl, hp, _⟩ := hl
        cases p with
        | nil => exact absurd rfl hp
        | cons => simp
      rw [litRepr, x1, bind, if_neg (by simp)]
      show (if l ≠ [] then _ else _) = _
      rw [if_pos this]; rfl
    · intro P hP r tks hr hp
      rw [h.escape]
      have : (34 :: (v ++ [34]) ++ [64] ++ l ++ r : PStr) = (34 :: (v ++ [34])) ++ ((64 :: l) ++ r) := by simp
      rw [this]
      exact hP.tok (.str (.inl rfl) h.strBody) (by simp [MayFollow]) (hP.tok (.lang hl) hr.stops hp)
    · rw [evalLeaf, h.decode]; rfl
  | integer h =>
    refine ⟨v, .num .integer v, ?_, Frag.one (.num h) fun r hr => hr.stops, fun nl st => rfl⟩
    rw [litRepr, x1, bind, if_neg (by decide), x2]
    show (Except.ok _ >>= _) = _
    rw [bind, if_pos (by decide)]; rfl
  | decimal h =>
    refine ⟨v, .num .decimal v, ?_, Frag.one (.num h) fun r hr => hr.stops, fun nl st => rfl⟩
    rw [litRepr, x1, bind, if_neg (by decide), x2]
    show (Except.ok _ >>= _) = _
    rw [bind, if_neg (by decide), x3]
    show (Except.ok _ >>= _) = _
    rw [bind, if_pos (by decide)]; rfl
  | double h =>
    refine ⟨v, .num .double v, ?_, Frag.one (.num h) fun r hr => hr.stops, fun nl st => rfl⟩
    rw [litRepr, x1, bind, if_neg (by decide), x2]
    show (Except.ok _ >>= _) = _
    rw [bind, if_neg (by decide), x3]
    show (Except.ok _ >>= _) = _
    rw [bind, if_neg (by decide), x4]
    show (Except.ok _ >>= _) = _
    rw [bind, if_pos (by decide)]; rfl
  | boolean h =>
    refine ⟨v, .bool v, ?_, ?_, fun nl st => rfl⟩
    · rw [litRepr, x1, bind, if_neg (by decide), x2]
      show (Except.ok _ >>= _) = _
      rw [bind, if_neg (by decide), x3]
      show (Except.ok _ >>= _) = _
      rw [bind, if_neg (by decide), x4]
      show (Except.ok _ >>= _) = _
      rw [bind, if_neg (by decide), x5]
      show (Except.ok _ >>= _) = _
      rw [bind, if_pos (by decide)]; rfl
    · rcases h with rfl | rfl
      · exact Frag.one .true fun r hr => hr.stops
      · exact Frag.one .false fun r hr => hr.stops

theorem node_frag {m : PrefixMap} (hm : SafeProfile m) {x : Term} (h : SafeNode m x) :
    ∃ w t, (∀ namer nm, name ⟨m, none, namer⟩ nm x = .ok (nm, w)) ∧ Frag (LeafTok.toks t) w ∧
      ∀ nl st, Agrees m st → evalLeaf nl st t = .ok (st, x) := by
  cases h with
  | iri h =>
    obtain ⟨i, h1, h2⟩ := iri_frag hm h
    refine ⟨_, .node (.iri i), fun _ _ => rfl, h1, fun nl st hst => ?_⟩
    rw [evalLeaf, evalNode, h2 nl st hst]; rfl
  | lit h =>
    obtain ⟨w, t, h1, h2, h3⟩ := lit_frag hm h
    refine ⟨w, t, fun _ _ => ?_, h2, fun nl st _ => h3 nl st⟩
    rw [name, h1]; rfl

/-! ### Declarations -/

/-- The statements of the declarations. -/
def declStmts (m : PrefixMap) : List PTStmt := m.flatMap fun e => if e.1 ≠ py! "rdf" then [.pre false e.1 e.2] else []

theorem decl_frag {P : List Tok → PStr → Prop} (hP : Reads P) {p ns : PStr} (hp : PnPrefix p) (hn : LegalIri ns) {tks : List Tok} {r : PStr} (h : P tks r) :
    P ([.atPrefix, .ns p, .iri (.ref ns), .dot] ++ tks) (py! "@prefix " ++ p ++ py! ": <" ++ ns ++ py! "> .\n" ++ r) := by
  have e : (py! "@prefix " ++ p ++ py! ": <" ++ ns ++ py! "> .\n" ++ r : PStr) =
      py! "@prefix" ++ (32 :: ((p ++ [58]) ++ (32 :: ((60 :: (ns ++ [62])) ++ (32 :: ([46] ++ (10 :: r))))))) := by simp
  rw [e]
  refine hP.tok .atPrefix trivial (hP.white (.inl rfl) (hP.tok (.ns hp) trivial (hP.white (.inl rfl)
    (hP.tok (.ref hn.body) trivial (hP.white (.inl rfl) (hP.tok .dot ?_ (hP.white (by simp [isWhite]) h)))))))
  intro c hc
  cases hc
  simp [isDigitChar]

theorem header_frag {P : List Tok → PStr → Prop} (hP : Reads P) {m : PrefixMap} (h : ∀ e ∈ m, PnPrefix e.1 ∧ LegalIri e.2) {tks : List Tok} {r : PStr} (hr : P tks r) :
    P (docToks (declStmts m) ++ tks) (header none m ++ r) := by
  show P _ ((m.flatMap _) ++ r)
  induction m with
  | nil => exact hr
  | cons e m ih =>
    have ih := ih fun e he => h e (List.mem_cons_of_mem _ he)
    rw [declStmts, List.flatMap_cons, List.flatMap_cons]
    by_cases he : e.1 ≠ py! "rdf"
    · rw [if_pos he, if_pos he, docToks, List.flatMap_append]
      rw [List.append_assoc, List.append_assoc]
      obtain ⟨h1, h2⟩ := h e (List.mem_cons_self ..)
      exact decl_frag hP h1 h2 ih
    · rw [if_neg he, if_neg he]; exact ih

/-- The prefixes after the declarations. -/
def declared (m d : PrefixMap) : PrefixMap := m.foldl (fun d e => if e.1 ≠ py! "rdf" then d.set e.1 e.2 else d) d

theorem eval_header {m : PrefixMap} (h : ∀ e ∈ m, PnPrefix e.1 ∧ LegalIri e.2) (nl : PStr → Bool) {ds : List PTStmt} :
    ∀ {st st' : TState} {es : List EStmt}, st.base = [] → evalStmts nl { st with prefixes := declared m st.prefixes } ds = .ok (st', es) →
      ∃ k, evalStmts nl st (declStmts m ++ ds) = .ok (st', List.replicate k .directive ++ es) := by
  induction m with
  | nil => intro st st' es _ h; exact ⟨0, h⟩
  | cons e m ih =>
    intro st st' es hb hev
    have ih := @ih fun e he => h e (List.mem_cons_of_mem _ he)
    rw [declStmts, List.flatMap_cons]
    rw [declared, List.foldl_cons] at hev
    by_cases he : e.1 ≠ py! "rdf"
    · rw [if_pos he] at hev ⊢
      obtain ⟨k, hk⟩ := ih (st := { st with prefixes := st.prefixes.set e.1 e.2 }) hb hev
      refine ⟨k + 1, ?_⟩
      show (match evalStmt nl st (.pre false e.1 e.2) with | .error e => _ | .ok (st, s) => _) = _
      have hr : resolveRef nl st.base e.2 = .ok e.2 := by rw [hb]; exact (h e (List.mem_cons_self ..)).2.resolve nl
      rw [evalStmt, hr]
      show (match evalStmts nl { st with prefixes := st.prefixes.set e.1 e.2 } (declStmts m ++ ds) with | .error e => _ | .ok (st, ss) => _) = _
      rw [hk]; rfl
    · rw [if_neg he] at hev ⊢
      exact ih hb hev

theorem declared_get {m : PrefixMap} : ∀ (d : PrefixMap), Dict.WF m → ∀ p,
    Dict.get? (declared m d) p = if p = py! "rdf" then d.get? p else ((Dict.get? m p).orElse fun _ => d.get? p) := by
  induction m with
  | nil => intro d _ p; simp [declared]
  | cons e m ih =>
    intro d wf p
    obtain ⟨q, ns⟩ := e
    have wf' : Dict.WF m := (List.nodup_cons.1 wf).2
    have hq : Dict.get? m q = none := by
      cases hg : Dict.get? m q with
      | none => rfl
      | some v => exact absurd (List.mem_map.2 ⟨(q, v), Dict.mem_of_get? hg, rfl⟩) (List.nodup_cons.1 wf).1
    rw [declared, List.foldl_cons]
    show Dict.get? (declared m _) p = _
    rw [ih _ wf']
    show _ = if _ then _ else ((if q = p then some ns else Dict.get? m p).orElse _)
    by_cases hp : p = py! "rdf"
    · rw [if_pos hp, if_pos hp]
      split
      · next h => rw [Dict.get?_set, if_neg (by rintro rfl; exact h hp)]
      · rfl
    · rw [if_neg hp, if_neg hp]
      by_cases hqp : q = p
      · subst hqp
        rw [if_pos rfl, hq, if_pos hp, Dict.get?_set, if_pos rfl]; rfl
      · rw [if_neg hqp]
        cases Dict.get? m p with
        | some v => rfl
        | none =>
          show Dict.get? (if _ then _ else _) p = d.get? p
          split
          · rw [Dict.get?_set, if_neg hqp]
          · rfl

theorem agrees_declared {m : PrefixMap} (hm : SafeProfile m) (bn : BState) : Agrees m { base := [], prefixes := declared m initialPrefixes, bn } := by
  refine ⟨rfl, fun e he => ?_⟩
  obtain ⟨p, ns⟩ := e
  show Dict.get? (declared m initialPrefixes) p = some ns
  rw [declared_get _ hm.wf]
  split
  · next h => rw [h] at he ⊢; rw [hm.rdf ns he]; rfl
  · rw [get?_of_mem hm.wf he]; rfl

/-! ### C62 -/

/-- A document that says something about a node: the declarations, and a statement with the node's text as its object. -/
def docAbout (base : Option PStr) (m : PrefixMap) (w : PStr) : PStr := header base m ++ py! "<x:s> <x:p> " ++ w ++ py! " ."

/-- Full statement of C62: the text of a node, as the object of a statement after the written declarations, is read as that node.
    (Blank nodes: some blank node.) -/
def C62_statement : Prop := ∀ (nl : PStr → Bool) (n : Nat) (m : PrefixMap) (base : Option PStr) (namer : Namer) (nm nm' : Names) (x : Term) (w : PStr),
  (∀ b, x ≠ .bnode b) → name ⟨m, base, namer⟩ nm x = .ok (nm', w) →
  parseText nl [] n (docAbout base m w) = .ok (n, [mkTriple (.named (py! "x:s")) (.named (py! "x:p")) x])

theorem evalLeaf_iri {nl : PStr → Bool} {st : TState} {i : IriTok} {s : PStr} (h : evalIri nl st i = .ok s) : evalNode nl st (.iri i) = .ok (st, .named s) := by
  rw [evalNode, h]; rfl

/-- C62 for safe nodes, in safe profiles, without a base. -/
theorem C62_denotes_partial {m : PrefixMap} (hm : SafeProfile m) {x : Term} (hx : SafeNode m x) (nl : PStr → Bool) (n : Nat) (namer : Namer) (nm : Names) :
    ∃ w, name ⟨m, none, namer⟩ nm x = .ok (nm, w) ∧
      parseText nl [] n (docAbout none m w) = .ok (n, [mkTriple (.named (py! "x:s")) (.named (py! "x:p")) x]) := by
  obtain ⟨w, t, h1, h2, h3⟩ := node_frag hm hx
  refine ⟨w, h1 namer nm, ?_⟩
  have l1 : LegalIri (py! "x:s") := by unfold LegalIri; decide
  have l2 : LegalIri (py! "x:p") := by unfold LegalIri; decide
  let d : PTStmt := .node (.iri (.ref (py! "x:s"))) (.last (.iri (.ref (py! "x:p"))) (.one (.leaf t)) 0)
  have hp : Plainly lark (docToks (declStmts m ++ [d])) (docAbout none m w) := by
    rw [docToks, List.flatMap_append, docAbout, List.append_assoc, List.append_assoc]
    refine header_frag .plainly hm.names ?_
    have e1 : ([d].flatMap TStmt.toks) = .iri (.ref (py! "x:s")) :: .iri (.ref (py! "x:p")) :: (t.toks ++ [.dot]) := by
      simp [d, TStmt.toks, Pol.toks, Objs.toks, Obj.toks, NodeTok.toks, VerbTok.toks]
    have e2 : (py! "<x:s> <x:p> " ++ (w ++ py! " .") : PStr) = (60 :: (py! "x:s" ++ [62])) ++ (32 :: ((60 :: (py! "x:p" ++ [62])) ++ (32 :: (w ++ (32 :: [46]))))) := by simp
    rw [e1, e2]
    refine Plainly.tok (.ref l1.body) trivial (Plainly.white (.inl rfl) (Plainly.tok (.ref l2.body) trivial (Plainly.white (.inl rfl) (h2.plainly _ _ (.inr ⟨32, [46], rfl, .inl rfl⟩) (Plainly.white (.inl rfl) ?_)))))
    exact Plainly.tok (r := []) .dot (by intro c h; cases h) (.nil (.inl .nil))
  rw [parseText, C96_exact hp]
  have hA := agrees_declared hm { map := [], next := n }
  have hev : evalStmts nl { base := [], prefixes := declared m initialPrefixes, bn := { map := [], next := n } } [d] =
      .ok ({ base := [], prefixes := declared m initialPrefixes, bn := { map := [], next := n } },
        [.node (.named (py! "x:s")) (.last (.named (py! "x:p")) (.one (.leaf x)) 0)]) := by
    have i1 : evalIri nl { base := [], prefixes := declared m initialPrefixes, bn := { map := [], next := n } } (.ref (py! "x:s")) = .ok (py! "x:s") := l1.resolve nl
    have i2 : evalIri nl { base := [], prefixes := declared m initialPrefixes, bn := { map := [], next := n } } (.ref (py! "x:p")) = .ok (py! "x:p") := l2.resolve nl
    simp only [evalStmts, d, evalStmt, evalNode, i1, evalPol, evalVerb, i2, evalObjs, evalObj, h3 nl _ hA, Except.map]
  obtain ⟨k, hk⟩ := eval_header (st := { base := [], prefixes := initialPrefixes, bn := { map := [], next := n } }) hm.names nl rfl hev
  show (match evalStmts nl { base := [], prefixes := initialPrefixes, bn := { map := [], next := n } } (declStmts m ++ [d]) with | .error _ => _ | .ok (st, es) => _) = _
  rw [hk]
  show Except.ok (genStmts n _) = _
  have hg : ∀ k, genStmts n (List.replicate k .directive ++ [.node (.named (py! "x:s")) (.last (.named (py! "x:p")) (.one (.leaf x)) 0)]) =
      (n, [mkTriple (.named (py! "x:s")) (.named (py! "x:p")) x]) := by
    intro k
    induction k with
    | zero => rfl
    | succ k ih => rw [List.replicate_succ, List.cons_append, genStmts]; simp [genStmt, ih]
  rw [hg]

/-- Outcome of writing a node and reading the document about it. -/
def readBack (m : PrefixMap) (base : Option PStr) (x : Term) : Except Exc (List Stmt) :=
  match name ⟨m, base, none⟩ {} x with
  | .error e => .error e
  | .ok (_, w) => (parseText (fun _ => true) [] 0 (docAbout base m w)).map (·.2)

/-- A literal without datatype and language comes back as an xsd:string. -/
theorem C62_plain_literal : readBack defaultPrefixes none (.lit (py! "v") none none) =
    .ok [mkTriple (.named (py! "x:s")) (.named (py! "x:p")) (.lit (py! "v") none (some (xsd (py! "string"))))] := rfl

/-- A literal of any other datatype is written with a single `^`, which no parser reads. -/
theorem C62_typed_literal : (name ⟨defaultPrefixes, none, none⟩ {} (.lit (py! "v") none (some (py! "x:t")))).map (·.2) = .ok (py! "\"v\"^<x:t>") ∧
    readBack defaultPrefixes none (.lit (py! "v") none (some (py! "x:t"))) = .error .unexpectedInput := ⟨rfl, rfl⟩

/-- A local name with a slash is not escaped. -/
theorem C62_slash : (name ⟨[(py! "p", py! "x:a#")] ++ defaultPrefixes, none, none⟩ {} (.named (py! "x:a#b/c"))).map (·.2) = .ok (py! "p:b/c") ∧
    readBack ([(py! "p", py! "x:a#")] ++ defaultPrefixes) none (.named (py! "x:a#b/c")) = .error .unexpectedInput := ⟨rfl, rfl⟩

/-- A local name that ends in a dot: the text `p:b.` is the name `p:b` and the end of the statement. -/
theorem C62_dot : (name ⟨[(py! "p", py! "x:a#")] ++ defaultPrefixes, none, none⟩ {} (.named (py! "x:a#b."))).map (·.2) = .ok (py! "p:b.") ∧
    readBack ([(py! "p", py! "x:a#")] ++ defaultPrefixes) none (.named (py! "x:a#b.")) = .error .unexpectedInput := ⟨rfl, rfl⟩

theorem C62_refuted : ¬ C62_statement := by
  intro h
  have h := h (fun _ => true) 0 defaultPrefixes none none {} {} (.lit (py! "v") none none) _ (fun b => by simp) rfl
  have h2 : parseText (fun _ => true) [] 0 (docAbout none defaultPrefixes (turtleStringEscape (py! "v"))) =
    .ok (0, [mkTriple (.named (py! "x:s")) (.named (py! "x:p")) (.lit (py! "v") none (some (xsd (py! "string"))))]) := rfl
  have h3 := h.symm.trans h2
  injection h3 with h3
  injection h3 with _ h3
  injection h3 with h3
  injection h3 with _ _ h3
  injection h3 with _ _ h3
  cases h3

/-! The hypotheses of `C62_denotes_partial` hold of the default profile, and of names with and without a prefix. -/

theorem pnChars_alpha {c : Nat} (h : isAlpha c) : Spec.pnChars c := .inl (.inl (.inl h))

theorem pnPrefix_alpha {w : PStr} (h : ∀ c ∈ w, isAlpha c) : PnPrefix w := by
  cases w with
  | nil => exact .inl rfl
  | cons c t =>
    refine .inr ⟨c, t, rfl, .inl (h c (List.mem_cons_self ..)), fun d hd => .inl (pnChars_alpha (h d (List.mem_cons_of_mem _ hd))), fun hd => ?_⟩
    have := h 0x2E (List.mem_cons_of_mem _ (List.mem_of_getLast? hd))
    revert this; unfold isAlpha; decide

theorem pnLocal_alpha {w : PStr} (h : ∀ c ∈ w, isAlpha c) : PnLocal w := by
  cases w with
  | nil => exact .inl rfl
  | cons c t =>
    have ht : ∀ d ∈ t, isAlpha d := fun d hd => h d (List.mem_cons_of_mem _ hd)
    refine .inr ⟨[c], t, rfl, .inl ⟨c, rfl, .inl (.inl (.inl (h c (List.mem_cons_self ..))))⟩, t.map ([·]), by simp [← List.flatMap_def], ?_, fun hd => ?_⟩
    · intro p hp
      obtain ⟨d, hd, rfl⟩ := List.mem_map.1 hp
      exact .inl ⟨d, rfl, .inl (pnChars_alpha (ht d hd))⟩
    · obtain ⟨d, hd, e⟩ := List.mem_map.1 (List.mem_of_getLast? hd)
      cases e
      have := ht _ hd
      revert this; unfold isAlpha; decide

instance (c : Nat) : Decidable (isAlpha c) := by unfold isAlpha; infer_instance
instance (s : PStr) : Decidable (LegalIri s) := by unfold LegalIri; infer_instance

theorem safe_default : SafeProfile defaultPrefixes := by
  refine ⟨by unfold Dict.WF; decide, ?_, ?_, by decide⟩
  · intro e he
    simp only [defaultPrefixes, List.mem_cons, List.not_mem_nil, or_false] at he
    rcases he with rfl | rfl
    · exact ⟨pnPrefix_alpha (by decide), by decide⟩
    · exact ⟨pnPrefix_alpha (by decide), by decide⟩
  · intro ns h
    simp [defaultPrefixes] at h
    exact h

/-- A name under rdf:, which is written with the prefix. -/
theorem safe_rdf_type : SafeIri defaultPrefixes (py! "http://www.w3.org/1999/02/22-rdf-syntax-ns#type") := by
  refine ⟨by decide, by decide, fun p ns rest hc e => ?_⟩
  obtain ⟨a, b, e1, h1, _⟩ := hc
  have hm : (p, ns) ∈ defaultPrefixes := by rw [e1]; simp
  simp only [defaultPrefixes, List.mem_cons, List.not_mem_nil, or_false, Prod.mk.injEq] at hm
  rcases hm with ⟨rfl, rfl⟩ | ⟨rfl, rfl⟩
  · have : rest = py! "type" := List.append_cancel_left (as := Heap.rdfNs) (e.symm.trans rfl)
    subst this
    exact ⟨by decide, by decide, pnLocal_alpha (by decide), by decide⟩
  · exact absurd h1 (by decide)

/-- A name without a prefix. -/
theorem safe_plain : SafeIri defaultPrefixes (py! "http://example.com/a?b=c#d.") := by
  refine ⟨by decide, by decide, fun p ns rest hc e => ?_⟩
  obtain ⟨a, b, e1, h1, _⟩ := hc
  have hm : (p, ns) ∈ defaultPrefixes := by rw [e1]; simp
  simp only [defaultPrefixes, List.mem_cons, List.not_mem_nil, or_false, Prod.mk.injEq] at hm
  rcases hm with ⟨rfl, rfl⟩ | ⟨rfl, rfl⟩ <;> exact absurd h1 (by decide)

example : (name ⟨defaultPrefixes, none, none⟩ {} (.named (py! "http://www.w3.org/1999/02/22-rdf-syntax-ns#type"))).map (·.2) = .ok (py! "rdf:type") := rfl
example : (name ⟨defaultPrefixes, none, none⟩ {} (.named (py! "http://example.com/a?b=c#d."))).map (·.2) = .ok (py! "<http://example.com/a?b=c#d.>") := rfl
example (nl : PStr → Bool) := C62_denotes_partial safe_default (.iri safe_rdf_type) nl 0 none {}
example (nl : PStr → Bool) := C62_denotes_partial safe_default (.iri safe_plain) nl 0 none {}
example (nl : PStr → Bool) := C62_denotes_partial safe_default (.lit (.integer (v := [] ++ py! "42") (.integer (.inl rfl) (by unfold Digits isDigitChar; decide) (by decide)))) nl 0 none {}

end Verif.Turtle
