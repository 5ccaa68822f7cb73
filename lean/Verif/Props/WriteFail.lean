import Verif.Lemmas.TurtleOut
import Verif.Props.TurtleRound
import Verif.Props.ListEnds
import Verif.Props.NTriples
/-! C129, C130: what is in the file when a serializer raises. -/
namespace Verif

/-! ### C129: N-Triples -/

/-- Specification: the terms N-Triples text cannot be made of. `None` and generators are no terms; an IRI cannot be percent-encoded if it has a surrogate. -/
inductive Unwritable : Term → Prop
  | none : Unwritable .none
  | gen (k) : Unwritable (.gen k)
  | iri {i c} : c ∈ i → 0xD800 ≤ c → c ≤ 0xDFFF → Unwritable (.named i)
  | dt {v l d c} : l = none ∨ l = some [] → c ∈ d → 0xD800 ≤ c → c ≤ 0xDFFF → Unwritable (.lit v l (some d))

/-- The characters of IRIs are characters. -/
def Term.Chars : Term → Prop
  | .named i => ∀ c ∈ i, c < 0x110000
  | .lit _ _ (some d) => ∀ c ∈ d, c < 0x110000
  | _ => True

theorem iriToNT_raises {i : PStr} (h : ∀ c ∈ i, c < 0x110000) : (∃ e, iriToNT i = .error e) ↔ ∃ c ∈ i, 0xD800 ≤ c ∧ c ≤ 0xDFFF := by
  constructor
  · rintro ⟨e, he⟩
    by_contra hn
    rw [iriToNT_eq i fun c hc => ⟨h c hc, fun h => hn ⟨c, hc, h⟩⟩] at he
    cases he
  · intro hs
    exact ⟨_, by rw [iriToNT, C22_surrogate_raises i hs]; rfl⟩

theorem toNT_raises {t : Term} (h : t.Chars) : (∃ e, t.toNT = .error e) ↔ Unwritable t := by
  cases t with
  | none => exact ⟨fun _ => .none, fun _ => ⟨_, rfl⟩⟩
  | gen k => exact ⟨fun _ => .gen k, fun _ => ⟨_, rfl⟩⟩
  | bnode k => exact ⟨fun ⟨_, h⟩ => (by cases h), fun h => by cases h⟩
  | named i =>
    refine (iriToNT_raises h).trans ⟨fun ⟨c, h1, h2, h3⟩ => .iri h1 h2 h3, fun h => ?_⟩
    cases h with
    | iri h1 h2 h3 => exact ⟨_, h1, h2, h3⟩
  | lit v l d =>
    have key : l = none ∨ l = some [] → ((∃ e, (Term.lit v l d).toNT = .error e) ↔ Unwritable (.lit v l d)) := by
      intro hl
      rcases d with _ | (_ | ⟨a, b⟩)
      · constructor
        · rintro ⟨e, he⟩; rcases hl with rfl | rfl <;> cases he
        · intro h; cases h
      · constructor
        · rintro ⟨e, he⟩; rcases hl with rfl | rfl <;> cases he
        · intro h
          cases h with
          | dt _ h => cases h
      · have e1 : (Term.lit v l (some (a :: b))).toNT = (iriToNT (a :: b)).map fun n => [34] ++ ntEscape v ++ [34] ++ [94, 94] ++ n := by
          rcases hl with rfl | rfl <;> rfl
        rw [e1]
        have e2 : (∃ e, (iriToNT (a :: b)).map (fun n => [34] ++ ntEscape v ++ [34] ++ [94, 94] ++ n) = .error e) ↔ ∃ e, iriToNT (a :: b) = .error e := by
          cases iriToNT (a :: b) <;> simp [Except.map]
        rw [e2, iriToNT_raises h]
        refine ⟨fun ⟨c, h1, h2, h3⟩ => .dt hl h1 h2 h3, fun h => ?_⟩
        cases h with
        | dt _ h1 h2 h3 => exact ⟨_, h1, h2, h3⟩
    rcases l with _ | (_ | ⟨a, b⟩)
    · exact key (.inl rfl)
    · exact key (.inr rfl)
    · constructor
      · rintro ⟨e, he⟩; cases he
      · intro h
        cases h with
        | dt hl _ _ _ => rcases hl with h | h <;> cases h

/-- **When a line cannot be written**: exactly if one of its terms cannot. -/
theorem C129_raises {t : Stmt} (hs : t.s.Chars) (hp : t.p.Chars) (ho : t.o.Chars) :
    (∃ e, tripleStr t = .error e) ↔ Unwritable t.s ∨ Unwritable t.p ∨ Unwritable t.o := by
  rw [← toNT_raises hs, ← toNT_raises hp, ← toNT_raises ho]
  unfold tripleStr
  cases t.s.toNT <;> cases t.p.toNT <;> cases t.o.toNT <;> simp [bind, Except.bind, pure, Except.pure]

/-- **What is in the file when `serialize_ntriples` raises**: exactly the lines of the triples before the one that cannot be written. -/
theorem C129_exact (ts : List Stmt) (text : PStr) (e : Exc) :
    serializeNTriples ts = (text, .error e) ↔ ∃ pre t post, ts = pre ++ t :: post ∧ serializeNTriples pre = (text, .ok ()) ∧ tripleStr t = .error e := by
  induction ts generalizing text with
  | nil =>
    constructor
    · intro h; cases h
    · rintro ⟨pre, t, post, h, _⟩; cases pre <;> cases h
  | cons u ts ih =>
    rw [serializeNTriples]
    cases hu : tripleStr u with
    | error e' =>
      constructor
      · intro h
        cases h
        exact ⟨[], u, ts, rfl, rfl, hu⟩
      · rintro ⟨pre, t, post, h1, h2, h3⟩
        cases pre with
        | nil =>
          cases h1
          cases h2
          rw [hu] at h3
          cases h3
          rfl
        | cons v pre =>
          cases h1
          rw [serializeNTriples, hu] at h2
          cases h2
    | ok line =>
      dsimp only
      constructor
      · intro h
        obtain ⟨h1, h2⟩ := Prod.mk.inj h
        obtain ⟨pre, t, post, k1, k2, k3⟩ := (ih (serializeNTriples ts).1).1 (Prod.ext rfl h2)
        refine ⟨u :: pre, t, post, by rw [k1]; rfl, ?_, k3⟩
        rw [serializeNTriples, hu]
        dsimp only
        rw [k2, ← h1]
      · rintro ⟨pre, t, post, h1, h2, h3⟩
        cases pre with
        | nil =>
          cases h1
          rw [hu] at h3
          cases h3
        | cons v pre =>
          cases h1
          rw [serializeNTriples, hu] at h2
          obtain ⟨k1, k2⟩ := Prod.mk.inj h2
          have := (ih (serializeNTriples pre).1).2 ⟨pre, t, post, rfl, Prod.ext rfl k2, h3⟩
          rw [this, ← k1]

/-- **A failed N-Triples write is the beginning of a good one.** If `serialize_ntriples` raises, then at one triple, which cannot be written; the file has the lines of
    the triples iterated before it, and if these are readable then reading the file succeeds and gives exactly these triples (in the form that survives, C37). -/
theorem C129_partial_file (g : Graph) (ord : List Stmt → List Stmt) {text : PStr} {e : Exc} (h : serializeNTriples (g.iter ord) = (text, .error e)) :
    ∃ pre t post, g.iter ord = pre ++ t :: post ∧ tripleStr t = .error e ∧ serializeNTriples pre = (text, .ok ()) ∧
      ((∀ t ∈ pre, t.IsRdf ∧ t.Readable) → ∀ next, ∃ g' next' f, parseString Graph.add false next text Graph.new = (g', next', .ok ()) ∧
        (∀ t ∈ pre, ∀ t' ∈ pre, ∀ i j, t.HasBnode i → t'.HasBnode j → f i = f j → i = j) ∧ ∀ x, x ∈ g'.triples ↔ ∃ t ∈ pre, x = t.survive f) := by
  obtain ⟨pre, t, post, h1, h2, h3⟩ := (C129_exact _ _ _).1 h
  refine ⟨pre, t, post, h1, h3, h2, fun hpre next => ?_⟩
  obtain ⟨text', g', next', f, k1, k2, k3, _, k5⟩ := lines_read pre hpre next
  rw [h2] at k1
  cases k1
  exact ⟨g', next', f, k2, k3, k5⟩

example : serializeNTriples [mkTriple (.named (py! "x:s")) (.named (py! "x:p")) (.lit (py! "v") none none), mkTriple (.named (py! "x:s")) (.named (py! "x:p")) .none,
    mkTriple (.named (py! "x:t")) (.named (py! "x:p")) (.named (py! "x:o"))] = (py! "<x:s> <x:p> \"v\" .\n", .error .attributeError) := by decide

end Verif

namespace Verif
open Spec Graph

/-- Like `getOne_link`, for literals. -/
theorem getOne_lit {o : Orders} (ho : o.OK) {w : World} (wr : w.Reach) {g : Graph} (hg : g.Reach) {r : Res} (hc : r.c < w.classes.length)
    (hs : r.s.truthy = true) {k p : PStr} (hk : resolveKey w r.c k = .ok (some p)) (hp : p ≠ []) {v : PStr} {l d : Option PStr}
    (hv : (getOne o w g r (.name k)).2 = .ok (.lit v l d)) : mkTriple r.s (.named p) (.lit v l d) ∈ g.triples := by
  have hspec := objectsForKey_spec (o := o) wr g hc (.name k)
  unfold getOne getItem at hv
  generalize objectsForKey o w g r (.name k) = z at hspec hv
  obtain ⟨w1, rr⟩ := z
  cases rr with
  | error e => simp at hv
  | ok q =>
    obtain ⟨pr, objs⟩ := q
    dsimp only at hspec hv
    obtain ⟨h1, h2, h3⟩ := hspec.2.2.1 pr objs rfl
    rw [show Key.text (.name k) = k from rfl, hk] at h1
    cases h1
    cases hsc : isScalar w1 r.c (some p) with
    | false => rw [hsc] at hv; simp at hv
    | true =>
      rw [hsc] at hv
      simp only [Bool.not_true, Key.isAll, Bool.or_false, Bool.false_eq_true, if_false] at hv
      unfold classifyOne at hv
      cases ho1 : oneOrNone objs with
      | error e => rw [ho1] at hv; simp at hv
      | ok x =>
        rw [ho1] at hv
        dsimp only at hv
        have hc1 := Nat.lt_of_lt_of_le hc hspec.2.1.length
        have c1 := classify_spec (o := o) hspec.1 g hc1 (optTerm x)
        cases hcl : classify o w1 g r.c (optTerm x) with
        | mk w2 rv =>
        rw [hcl] at c1 hv
        dsimp only at c1
        cases rv with
        | error e => simp at hv
        | ok v =>
          dsimp only at hv
          cases hv
          rcases c1.2.2 with h | ⟨v', h, ht, _⟩
          · cases h
          · cases h
            cases x with
            | none => cases ht
            | some t =>
              have hm : t ∈ objs := by
                match objs, ho1 with
                | [y], ho1 => cases ho1; exact List.mem_singleton.2 rfl
              have := (mem_objectsOf ho hg hs (predTerm_truthy hp) t).1 (h2 t hm)
              have e : Term.lit _ l d = t := ht
              rw [e]; exact this

/-- The literals that a list yields are objects of the graph. -/
theorem listTest_lit {o : Orders} (ho : o.OK) {w : World} (wr : w.Reach) {g : Graph} (hg : g.Reach) {c : Nat} (hc : c < w.classes.length)
    {iFirst iRest iNil : PStr} (hL : ListNames w c iFirst iRest iNil) {s : Term} (hs : s.truthy = true) {v : PStr} {l d : Option PStr}
    (h : (listTest o w g c ⟨c, s⟩).2.2 = .item (.lit v l d)) : ∃ t ∈ g.triples, t.o = .lit v l d := by
  unfold listTest at h
  rw [hL.nil] at h
  dsimp only at h
  split at h
  · cases h
  · have := @getOne_lit o ho w wr g hg ⟨c, s⟩ hc hs _ _ hL.first hL.nfirst v l d
    generalize getOne o w g ⟨c, s⟩ (.name (py! "rdf:first")) = z at h this
    obtain ⟨w2, rr⟩ := z
    cases rr with
    | error e => cases h
    | ok x => cases h; exact ⟨_, this rfl, rfl⟩

theorem yielded_lit {o : Orders} (ho : o.OK) {g : Graph} (hg : g.Reach) {c : Nat} {iFirst iRest iNil : PStr}
    (he : NoEmptyRest g.triples (.named iRest)) :
    ∀ (n : Nat) {w : World} (_ : w.Reach) (_ : c < w.classes.length) (_ : ListNames w c iFirst iRest iNil) {s : Term}, s.truthy = true →
      ∀ v l d, Val.lit v l d ∈ (listTake o g c n w (.yielded ⟨c, s⟩)).2.1 → ∃ t ∈ g.triples, t.o = .lit v l d
  | 0, w, wr, hc, hL, s, hs, v, l, d, h => by cases h
  | n + 1, w, wr, hc, hL, s, hs, v, l, d, h => by
    have st := listNext_yielded (o := o) ho wr hg hc hL.rest hL.nrest hL.nil hs ⟨_, hL.first, hL.nfirst⟩ (he s)
    have lt : ∀ v l d, (listNext o w g c (.yielded ⟨c, s⟩)).2.2 = .item (.lit v l d) → ∃ t ∈ g.triples, t.o = .lit v l d := by
      intro v l d h
      have l1 := getOne_link (o := o) ho wr hg (r := ⟨c, s⟩) hc hs hL.rest hL.nrest
      unfold listNext at h
      dsimp only at h
      generalize getOne o w g ⟨c, s⟩ (.name (py! "rdf:rest")) = z at l1 h
      obtain ⟨w1, rr⟩ := z
      dsimp only at l1
      cases rr with
      | error e => cases h
      | ok x =>
        cases x with
        | none => cases h
        | lit => cases h
        | res k s' =>
          have hlink := l1.2.2 k s' rfl
          have hL1 := hL.ext hc l1.2.1
          dsimp only at h
          rw [hL1.nil] at h
          dsimp only at h
          by_cases hnil : s' = predTerm (some iNil)
          · rw [if_pos hnil] at h
            unfold listTest at h
            rw [hL1.nil] at h
            simp [hnil] at h
          · rw [if_neg hnil] at h
            have hs' : s'.truthy = true := by
              cases s' with
              | none => exact absurd hlink (he s).2
              | named i =>
                cases i with
                | nil => exact absurd hlink (he s).1
                | cons => rfl
              | bnode => rfl
              | lit => rfl
              | gen => rfl
            exact listTest_lit ho l1.1 hg (Nat.lt_of_lt_of_le hc l1.2.1.length) hL1 hs' h
    unfold listTake at h
    generalize listNext o w g c (.yielded ⟨c, s⟩) = z at st lt h
    obtain ⟨w1, it, y⟩ := z
    dsimp only at st lt
    obtain ⟨r1, x1, ⟨e, rfl⟩ | ⟨rfl, hl⟩ | ⟨s', v', h', hl, hn, ht⟩⟩ := st
    · cases h
    · cases h
    · cases h'
      dsimp only at h
      rcases List.mem_cons.1 h with rfl | h
      · exact lt v l d rfl
      · exact yielded_lit ho hg he n r1 (Nat.lt_of_lt_of_le hc x1.length) (hL.ext hc x1) ht v l d h

theorem test_lit {o : Orders} (ho : o.OK) {g : Graph} (hg : g.Reach) {c : Nat} {iFirst iRest iNil : PStr}
    (he : NoEmptyRest g.triples (.named iRest)) (n : Nat) {w : World} (wr : w.Reach) (hc : c < w.classes.length) (hL : ListNames w c iFirst iRest iNil)
    {s : Term} (hs : s.truthy = true) (v : PStr) (l d : Option PStr) (h : Val.lit v l d ∈ (listTake o g c n w (.test ⟨c, s⟩)).2.1) :
    ∃ t ∈ g.triples, t.o = .lit v l d := by
  cases n with
  | zero => cases h
  | succ n =>
    have lt := @listTest_lit o ho w wr g hg c hc _ _ _ hL s hs
    unfold listTake listNext at h
    dsimp only at h
    unfold listTest at h lt
    simp only [hL.nil, predTerm] at h lt
    by_cases hn : s = .named iNil
    · simp [hn] at h
    · simp only [hn, if_false] at h lt
      have l1 := getOne_link (o := o) ho wr hg (r := ⟨c, s⟩) hc hs hL.first hL.nfirst
      generalize getOne o w g ⟨c, s⟩ (.name (py! "rdf:first")) = z at l1 h lt
      obtain ⟨w1, rr⟩ := z
      dsimp only at l1 lt
      cases rr with
      | error e => cases h
      | ok x =>
        dsimp only at h
        rcases List.mem_cons.1 h with rfl | h
        · exact lt rfl
        · exact yielded_lit ho hg he n l1.1 (Nat.lt_of_lt_of_le hc l1.2.1.length) (hL.ext hc l1.2.1) hs v l d h

namespace Turtle
open Verif.Turtle.Spec

/-! ### Pieces of statements -/

/-- A token inside a statement. -/
def Tok.mid : Tok → Prop
  | .dot | .kwBase | .kwPrefix | .ns _ | .atPrefix | .atBase => False
  | _ => True

/-- Tokens inside a statement. -/
def Mids (ts : List Tok) : Prop := Inner ts ∧ ∀ t ∈ ts, t.mid

theorem Mids.nil : Mids [] := ⟨.nil, by simp⟩

theorem Mids.append {a b : List Tok} (ha : Mids a) (hb : Mids b) : Mids (a ++ b) :=
  ⟨ha.1.append hb.1, fun t ht => (List.mem_append.1 ht).elim (ha.2 t) (hb.2 t)⟩

theorem Mids.tok {t : Tok} (h : t.inner) : Mids [t] :=
  ⟨Inner.tok h, fun x hx => by rw [List.mem_singleton.1 hx]; cases t <;> first | exact h.elim | trivial⟩

theorem Mids.leaf (l : LeafTok) : Mids l.toks := by
  refine ⟨l.inner, ?_⟩
  cases l with
  | node n => cases n <;> simp [LeafTok.toks, NodeTok.toks, Tok.mid]
  | _ => simp [LeafTok.toks, Tok.mid]

/-- The text is tokens inside a statement, if it is followed by a space or the like. -/
def Word (X : PStr) : Prop := ∃ ts, Mids ts ∧ Frag ts X

/-- The text is tokens inside a statement, whatever it is followed by. -/
def Shut (X : PStr) : Prop := ∃ ts, Mids ts ∧ ∀ P, Reads P → ∀ tks r, P tks r → P (ts ++ tks) (X ++ r)

/-- The text is empty or begins in such a way that a word ends before it. -/
def Parts (X : PStr) : Prop := X = [] ∨ ∃ c r, X = c :: r ∧ (c = 32 ∨ c = 44 ∨ c = 41)

theorem Shut.nil : Shut [] := ⟨[], .nil, fun _ _ _ _ h => h⟩

theorem Shut.word {X : PStr} (h : Shut X) : Word X := by
  obtain ⟨ts, h1, h2⟩ := h
  exact ⟨ts, h1, fun P hP r tks _ hp => h2 P hP tks r hp⟩

theorem Shut.append {X Y : PStr} (h : Shut X) (h' : Shut Y) : Shut (X ++ Y) := by
  obtain ⟨ts, h1, h2⟩ := h
  obtain ⟨ts', h1', h2'⟩ := h'
  refine ⟨ts ++ ts', h1.append h1', fun P hP tks r hp => ?_⟩
  rw [List.append_assoc, List.append_assoc]
  exact h2 P hP _ _ (h2' P hP _ _ hp)

theorem Shut.then {X Y : PStr} (h : Shut X) (h' : Word Y) : Word (X ++ Y) := by
  obtain ⟨ts, h1, h2⟩ := h
  obtain ⟨ts', h1', h2'⟩ := h'
  refine ⟨ts ++ ts', h1.append h1', fun P hP r tks hr hp => ?_⟩
  rw [List.append_assoc, List.append_assoc]
  exact h2 P hP _ _ (h2' P hP _ _ hr hp)

theorem Parts.follows {X r : PStr} (h : Parts X) (hr : Follows r) : Follows (X ++ r) := by
  rcases h with rfl | ⟨c, r', rfl, hc⟩
  · exact hr
  · exact .inr ⟨c, r' ++ r, rfl, hc⟩

theorem Word.then {X Y : PStr} (h : Word X) (h' : Word Y) (hY : Parts Y) : Word (X ++ Y) := by
  obtain ⟨ts, h1, h2⟩ := h
  obtain ⟨ts', h1', h2'⟩ := h'
  refine ⟨ts ++ ts', h1.append h1', fun P hP r tks hr hp => ?_⟩
  rw [List.append_assoc, List.append_assoc]
  exact h2 P hP _ _ (hY.follows hr) (h2' P hP _ _ hr hp)

theorem Word.shut {X Y : PStr} (h : Word X) (h' : Shut Y) (hY : Parts Y) (hne : Y ≠ []) : Shut (X ++ Y) := by
  obtain ⟨ts, h1, h2⟩ := h
  obtain ⟨ts', h1', h2'⟩ := h'
  refine ⟨ts ++ ts', h1.append h1', fun P hP tks r hp => ?_⟩
  rw [List.append_assoc, List.append_assoc]
  refine h2 P hP _ _ ?_ (h2' P hP _ _ hp)
  rcases hY with rfl | ⟨c, r', rfl, hc⟩
  · exact absurd rfl hne
  · exact .inr ⟨c, r' ++ r, rfl, hc⟩

theorem Shut.white {c : Nat} (h : isWhite c) : Shut [c] := ⟨[], .nil, fun _ hP _ _ hp => hP.white h hp⟩

theorem Shut.spaces (n : Nat) : Shut (spaces n) := ⟨[], .nil, fun _ hP _ _ hp => hP.spaces hp n⟩

theorem Shut.tok {t : Tok} {w : PStr} (h : TokText lark t w) (hi : t.inner) (hf : ∀ r, MayFollow t r) : Shut w :=
  ⟨[t], .tok hi, fun _ hP _ _ hp => hP.tok h (hf _) hp⟩

theorem shut_lpar : Shut [40] := Shut.tok .lpar trivial fun _ => trivial
theorem shut_rpar : Shut [41] := Shut.tok .rpar trivial fun _ => trivial
theorem shut_comma (n : Nat) : Shut ([44, 10] ++ spaces n) :=
  Shut.append (X := [44, 10]) (Shut.append (X := [44]) (Y := [10]) (Shut.tok .comma trivial fun _ => trivial) (Shut.white (by simp [isWhite]))) (.spaces n)
theorem shut_semi : Shut [32, 59, 10] :=
  Shut.append (X := [32]) (Y := [59, 10]) (.white (.inl rfl)) (Shut.append (X := [59]) (Y := [10]) (Shut.tok .semi trivial fun _ => trivial) (Shut.white (by simp [isWhite])))

/-! ### The writer's pieces -/

section
variable {nl : PStr → Bool} {m : PrefixMap} {base : Option PStr} {namer : Namer}

/-- A term whose name, if it gets one, is Turtle. -/
inductive Nameable (nl : PStr → Bool) (m : PrefixMap) (b : PStr) : Term → Prop
  | iri {i} : SafeIriAt nl m b i → Nameable nl m b (.named i)
  | lit {v l d} : TextLit v l d → Nameable nl m b (.lit v l d)
  | bnode {k} : Nameable nl m b (.bnode k)

theorem name_bnode_none {nm : Names} {m : PrefixMap} {base : Option PStr} (hn : NInv none nm) (k : Nat) : name ⟨m, base, none⟩ nm (.bnode k) = .error .attributeError := by
  cases hg : nm.map.get? k with
  | some t => obtain ⟨f, _, h, _⟩ := hn.from_ k t hg; cases h
  | none => simp [name, hg]

theorem name_word (hm : SafeProfile m) (hsn : ∀ f, namer = some f → SafeNamer f) {x : Term} (h : Nameable nl m (base.getD []) x) {nm nm' : Names} (hn : NInv namer nm) {w : PStr}
    (hw : name ⟨m, base, namer⟩ nm x = .ok (nm', w)) :
    NInv namer nm' ∧ ∃ t : LeafTok, Frag t.toks w ∧ ((∀ v l d, x ≠ .lit v l d) → ∃ n : NodeTok, t = .node n) := by
  cases h with
  | lit h =>
    obtain ⟨w1, t, h1, h2, _⟩ := textLit_frag hm h
    rw [show name ⟨m, base, namer⟩ nm (.lit _ _ _) = (litRepr m _ _ _).map (fun t => (nm, t)) from rfl, h1] at hw
    cases hw
    exact ⟨hn, t, h2, fun hno => absurd rfl (hno _ _ _)⟩
  | iri hi =>
    obtain ⟨i, f1, _⟩ := iri_frag_at (base := base) hm hi
    cases hw
    exact ⟨hn, .node (.iri i), f1, fun _ => ⟨_, rfl⟩⟩
  | @bnode k =>
    cases hN : namer with
    | none => subst hN; rw [name_bnode_none hn] at hw; cases hw
    | some f =>
      obtain ⟨nm1, w1, t, h1, h2, _, h4, h5, _⟩ := node_frag_at (nl := nl) (base := base) hm (.bnode hN (hsn f hN) : TextNodeAt nl m (base.getD []) namer (.bnode k)) hn
      rw [h1] at hw
      cases hw
      rw [hN] at h2
      exact ⟨h2, .node (.label w), (h2.label (nl := nl) (h4 _ rfl)).1, fun _ => ⟨_, rfl⟩⟩

theorem putItems_word (hm : SafeProfile m) (fin : Option (Except Exc Unit)) : ∀ (vs : List Val) (first : Bool) (nm : Names), NInv namer nm →
    (∀ v l d, Val.lit v l d ∈ vs → TextLit v l d) →
    Word (putItems ⟨m, base, namer⟩ first nm vs fin).1 ∧ (first = false → Parts (putItems ⟨m, base, namer⟩ first nm vs fin).1) ∧
      ∀ nm', (putItems ⟨m, base, namer⟩ first nm vs fin).2 = .ok nm' → NInv namer nm'
  | [], first, nm, hn, _ => by
    match fin with
    | none => exact ⟨Shut.nil.word, fun _ => .inl rfl, fun _ h => by cases h⟩
    | some (.ok ()) => exact ⟨Shut.nil.word, fun _ => .inl rfl, fun _ h => by cases h; exact hn⟩
    | some (.error e) => exact ⟨Shut.nil.word, fun _ => .inl rfl, fun _ h => by cases h⟩
  | v :: vs, first, nm, hn, hs => by
    have hpre : Shut (if first = true then [] else [32] : PStr) := by
      split
      · exact Shut.nil
      · exact .white (.inl rfl)
    have hparts : first = false → ∀ Y : PStr, Parts ((if first = true then [] else [32]) ++ Y) := by
      rintro rfl Y; exact .inr ⟨32, Y, rfl, .inl rfl⟩
    unfold putItems putItem put quiet
    simp only [andThen_ok]
    cases hi : itemName ⟨m, base, namer⟩ nm v with
    | error e =>
      simp only [andThen_error, List.append_nil]
      exact ⟨hpre.word, fun h => by simpa using hparts h [], fun _ h => by cases h⟩
    | ok x =>
      obtain ⟨nm1, t⟩ := x
      have h1 : nm1 = nm ∧ Word t := by
        cases v with
        | none => cases hi
        | res => cases hi
        | lit v l d =>
          obtain ⟨w, lf, e1, e2, _⟩ := textLit_frag hm (hs v l d (by simp))
          have : (litRepr m v l d).map (fun t => (nm, t)) = .ok (nm1, t) := hi
          rw [e1] at this
          cases this
          exact ⟨rfl, _, .leaf lf, e2⟩
      obtain ⟨rfl, hw⟩ := h1
      obtain ⟨i1, i2, i3⟩ := putItems_word hm fin vs false nm1 hn fun v l d h => hs v l d (List.mem_cons_of_mem _ h)
      simp only [andThen_ok, List.nil_append, List.append_nil]
      exact ⟨hpre.then (hw.then i1 (i2 rfl)), fun h => hparts h _, i3⟩

/-- What is asked of a graph: each of its terms can be written, or cannot be named. -/
structure NameableGraph (nl : PStr → Bool) (m : PrefixMap) (b : PStr) (g : Graph) : Prop where
  subj : ∀ s ∈ g.subjects, (∃ i, s = .named i ∧ SafeIriAt nl m b i) ∨ ∃ k, s = .bnode k
  pred : ∀ t ∈ g.triples, ∃ i, t.p = .named i ∧ SafeIriAt nl m b i
  obj : ∀ t ∈ g.triples, Nameable nl m b t.o

/-- The writer's state. -/
structure StOK (namer : Namer) (w0 : World) (c : Nat) (st : SerSt) : Prop where
  names : NInv namer st.nm
  reach : st.w.Reach
  ext : w0.Ext st.w

variable {o : Orders} (ho : o.OK) {g : Graph} (hg : g.Reach) (hG : NameableGraph nl m (base.getD []) g) {w0 : World} {c fuel : Nat} (hc : c < w0.classes.length)
  {iFirst iRest iNil : PStr} (hL : ListNames w0 c iFirst iRest iNil) (hm : SafeProfile m) (hsn : ∀ f, namer = some f → SafeNamer f)
include ho hg hG hc hL hm hsn

theorem putObj_word {st : SerSt} (hst : StOK namer w0 c st) {t : Stmt} (ht : t ∈ g.triples) :
    Word (putObj o c fuel g ⟨m, base, namer⟩ st t.o).1 ∧ ∀ st', (putObj o c fuel g ⟨m, base, namer⟩ st t.o).2 = .ok st' → StOK namer w0 c st' := by
  have hc1 := Nat.lt_of_lt_of_le hc hst.ext.length
  have hL1 := hL.ext hc hst.ext
  unfold putObj put quiet
  cases hi : isList o st.w g c t.o with
  | error e => exact ⟨Shut.nil.word, fun _ h => by cases h⟩
  | ok b =>
    cases b with
    | false =>
      simp only [andThen_ok, Bool.false_eq_true, if_false, List.nil_append]
      cases hn : name ⟨m, base, namer⟩ st.nm t.o with
      | error e => exact ⟨Shut.nil.word, fun _ h => by cases h⟩
      | ok x =>
        obtain ⟨nm', w⟩ := x
        obtain ⟨h1, lf, h2, _⟩ := name_word hm hsn (hG.obj t ht) hst.names hn
        simp only [andThen_ok, List.nil_append, List.append_nil]
        exact ⟨⟨_, .leaf lf, h2⟩, fun _ h => by cases h; exact ⟨h1, hst.reach, hst.ext⟩⟩
    | true =>
      have hsub : ∀ t ∈ g.triples, t.s ∈ g.subjects := fun t ht => Idx.mem_keys_of_find ((hg.inv.spo _ _ _ t).2 ⟨ht, rfl, rfl, rfl⟩)
      have hs : (asSubject t.o).truthy = true ∧ NoEmptyRest g.triples (.named iRest) := by
        refine ⟨?_, fun s => ⟨fun h => ?_, fun h => ?_⟩⟩
        · have hob := hG.obj t ht
          generalize t.o = x at hob hi
          cases hob with
          | @iri i h =>
            cases i with
            | nil => exact absurd rfl h.ne
            | cons => rfl
          | bnode => rfl
          | @lit v l d h =>
            exfalso
            unfold isList at hi
            rw [hL1.rest] at hi
            simp only [Except.ok.injEq, decide_eq_true_eq] at hi
            obtain ⟨u, hu⟩ := List.exists_mem_of_ne_nil _ hi
            obtain ⟨a, b, _⟩ := (Graph.mem_match hg.inv ho.stmts _ _ _ _).1 hu
            rcases hG.subj _ (hsub u a) with ⟨i, h, _⟩ | ⟨k, h⟩ <;> rw [b rfl] at h <;> cases h
        · have := hG.obj _ h
          cases this with
          | iri h => exact h.ne rfl
        · have := hG.obj _ h
          cases this
      simp only [andThen_ok, if_true, List.nil_append]
      have h1 := test_world (o := o) ho hg hs.2 fuel hst.reach hc1 hL1 hs.1
      obtain ⟨i1, i2, i3⟩ := putItems_word (base := base) hm (listTake o g c fuel st.w (.test ⟨c, asSubject t.o⟩)).2.2 (listTake o g c fuel st.w (.test ⟨c, asSubject t.o⟩)).2.1 true st.nm hst.names
        (fun v l d h => by
          obtain ⟨u, hu, e⟩ := test_lit ho hg hs.2 fuel hst.reach hc1 hL1 hs.1 v l d h
          have := hG.obj u hu
          rw [e] at this
          cases this
          assumption)
      generalize putItems ⟨m, base, namer⟩ true st.nm (listTake o g c fuel st.w (.test ⟨c, asSubject t.o⟩)).2.1 (listTake o g c fuel st.w (.test ⟨c, asSubject t.o⟩)).2.2 = z at i1 i2 i3
      obtain ⟨X, r⟩ := z
      cases r with
      | error e => exact ⟨shut_lpar.then i1, fun _ h => by cases h⟩
      | ok nm =>
        simp only [andThen_ok, List.append_nil]
        exact ⟨shut_lpar.then (i1.then shut_rpar.word (.inr ⟨41, [], rfl, .inr (.inr rfl)⟩)), fun _ h => by cases h; exact ⟨i3 nm rfl, h1.1, hst.ext.trans h1.2.1⟩⟩

theorem putObjs_word (indent : Nat) : ∀ (ts : List Stmt) (first : Bool) (st : SerSt), StOK namer w0 c st → (∀ t ∈ ts, t ∈ g.triples) →
    Word (putObjs o c fuel g ⟨m, base, namer⟩ indent first st ts).1 ∧ (first = false → Parts (putObjs o c fuel g ⟨m, base, namer⟩ indent first st ts).1) ∧
      ∀ st', (putObjs o c fuel g ⟨m, base, namer⟩ indent first st ts).2 = .ok st' → StOK namer w0 c st'
  | [], first, st, hst, _ => ⟨Shut.nil.word, fun _ => .inl rfl, fun _ h => by cases h; exact hst⟩
  | t :: ts, first, st, hst, hts => by
    have hpre : Shut (if first = true then [] else [44, 10] ++ spaces indent : PStr) := by
      split
      · exact Shut.nil
      · exact shut_comma indent
    have hparts : first = false → ∀ Y : PStr, Parts ((if first = true then [] else [44, 10] ++ spaces indent) ++ Y) := by
      rintro rfl Y; exact .inr ⟨44, 10 :: (spaces indent ++ Y), rfl, .inr (.inl rfl)⟩
    obtain ⟨h1, h2⟩ := putObj_word ho hg hG hc hL hm hsn (fuel := fuel) hst (hts t (List.mem_cons_self ..))
    unfold putObjs put
    simp only [andThen_ok]
    generalize putObj o c fuel g ⟨m, base, namer⟩ st t.o = z at h1 h2
    obtain ⟨X, r⟩ := z
    cases r with
    | error e => exact ⟨hpre.then h1, fun h => hparts h _, fun _ h => by cases h⟩
    | ok st1 =>
      obtain ⟨i1, i2, i3⟩ := putObjs_word indent ts false st1 (h2 st1 rfl) fun t ht => hts t (List.mem_cons_of_mem _ ht)
      exact ⟨hpre.then (h1.then i1 (i2 rfl)), fun h => hparts h _, i3⟩

theorem putPreds_word (s : Term) (indent : Nat) : ∀ (ps : List (PStr × Term)) (first : Bool) (st : SerSt), StOK namer w0 c st → (∀ e ∈ ps, Word e.1) →
    Word (putPreds o c fuel g ⟨m, base, namer⟩ s indent first st ps).1 ∧
      ∀ st', (putPreds o c fuel g ⟨m, base, namer⟩ s indent first st ps).2 = .ok st' → StOK namer w0 c st' ∧ Shut (putPreds o c fuel g ⟨m, base, namer⟩ s indent first st ps).1
  | [], first, st, hst, _ => ⟨Shut.nil.word, fun _ h => by cases h; exact ⟨hst, Shut.nil⟩⟩
  | (pname, p) :: ps, first, st, hst, hps => by
    have hpre : Shut (if first = true then [] else spaces indent : PStr) := by
      split
      · exact Shut.nil
      · exact .spaces indent
    have hp : Shut (pname ++ [32]) := (hps _ (List.mem_cons_self ..) : Word pname).shut (.white (.inl rfl)) (.inr ⟨32, [], rfl, .inl rfl⟩) (by simp)
    obtain ⟨h1, _, h2⟩ := putObjs_word ho hg hG hc hL hm hsn (fuel := fuel) (indent + pname.length + 1) (g.match o.stmts s p .none) true st hst
      fun t ht => ((Graph.mem_match hg.inv ho.stmts _ _ _ _).1 ht).1
    unfold putPreds put
    simp only [andThen_ok]
    generalize putObjs o c fuel g ⟨m, base, namer⟩ (indent + pname.length + 1) true st (g.match o.stmts s p .none) = z at h1 h2
    obtain ⟨X, r⟩ := z
    cases r with
    | error e => exact ⟨hpre.then (hp.then h1), fun _ h => by cases h⟩
    | ok st1 =>
      obtain ⟨i1, i2⟩ := putPreds_word s indent ps false st1 (h2 st1 rfl) fun e he => hps e (List.mem_cons_of_mem _ he)
      have hX : Shut (X ++ [32, 59, 10]) := h1.shut shut_semi (.inr ⟨32, _, rfl, .inl rfl⟩) (by simp)
      simp only [andThen_ok]
      rw [← List.append_assoc X]
      exact ⟨hpre.then (hp.then (hX.then i1)), fun st' h => ⟨(i2 st' h).1, hpre.append (hp.append (hX.append (i2 st' h).2))⟩⟩
omit ho hg hG hc hL
theorem names_word : ∀ (ts : List Term) (nm nm' : Names) (xs : List (PStr × Term)), NInv namer nm → (∀ t ∈ ts, Nameable nl m (base.getD []) t ∧ ∀ v l d, t ≠ .lit v l d) →
    names ⟨m, base, namer⟩ nm ts = .ok (nm', xs) → NInv namer nm' ∧ ∀ e ∈ xs, e.2 ∈ ts ∧ ∃ n : NodeTok, Frag n.toks e.1
  | [], nm, nm', xs, hn, _, h => by cases h; exact ⟨hn, by simp⟩
  | t :: ts, nm, nm', xs, hn, hts, h => by
    rw [names] at h
    cases h1 : name ⟨m, base, namer⟩ nm t with
    | error e => rw [h1] at h; cases h
    | ok r =>
      obtain ⟨nm1, x⟩ := r
      rw [h1] at h
      dsimp only at h
      obtain ⟨ht, hno⟩ := hts t (List.mem_cons_self ..)
      obtain ⟨hn1, lf, hf, hnode⟩ := name_word hm hsn ht hn h1
      obtain ⟨n, rfl⟩ := hnode hno
      cases h2 : names ⟨m, base, namer⟩ nm1 ts with
      | error e => rw [h2] at h; cases h
      | ok r =>
        obtain ⟨nm2, ys⟩ := r
        rw [h2] at h
        cases h
        obtain ⟨i1, i2⟩ := names_word ts nm1 _ ys hn1 (fun t ht => hts t (List.mem_cons_of_mem _ ht)) h2
        refine ⟨i1, fun e he => ?_⟩
        rcases List.mem_cons.1 he with rfl | he
        · exact ⟨List.mem_cons_self .., n, hf⟩
        · exact ⟨List.mem_cons_of_mem _ (i2 e he).1, (i2 e he).2⟩

theorem sortedNames_word {ts : List Term} {nm nm' : Names} {xs : List (PStr × Term)} (hn : NInv namer nm) (hts : ∀ t ∈ ts, Nameable nl m (base.getD []) t ∧ ∀ v l d, t ≠ .lit v l d)
    (h : sortedNames ⟨m, base, namer⟩ nm ts = .ok (nm', xs)) : NInv namer nm' ∧ ∀ e ∈ xs, e.2 ∈ ts ∧ ∃ n : NodeTok, Frag n.toks e.1 := by
  rw [sortedNames] at h
  cases h1 : names ⟨m, base, namer⟩ nm ts with
  | error e => rw [h1] at h; cases h
  | ok r =>
    obtain ⟨nm1, ys⟩ := r
    rw [h1] at h
    dsimp only at h
    split at h
    · cases h
    · cases h
      obtain ⟨i1, i2⟩ := names_word hm hsn ts nm _ ys hn hts h1
      exact ⟨i1, fun e he => i2 e ((sort_perm ys).mem_iff.1 he)⟩
include ho hg hG hc hL

/-- The tokens of complete statements. -/
def Whole (ts : List Tok) : Prop := FitsAll .start ts ∧ ctxAfter .start ts = .start ∧ (ts = [] ∨ ts.getLast? = some .dot)

omit ho hg hG hc hL hm hsn in
theorem Whole.append {a b : List Tok} (ha : Whole a) (hb : Whole b) : Whole (a ++ b) := by
  obtain ⟨a1, a2, a3⟩ := ha
  obtain ⟨b1, b2, b3⟩ := hb
  refine ⟨fitsAll_append a1 (by rw [a2]; exact b1), by rw [ctxAfter, List.foldl_append]; show ctxAfter (ctxAfter .start a) b = _; rw [a2, b2], ?_⟩
  rcases b3 with rfl | b3
  · simpa using a3
  · right; rw [List.getLast?_append, b3]; rfl

/-- Tokens with which a statement begins. -/
def Begun (ts : List Tok) : Prop := ∃ (n : NodeTok) (r : List Tok), ts = n.toks ++ r ∧ Mids r

theorem putSubj_word {st : SerSt} (hst : StOK namer w0 c st) {sname : PStr} {s : Term} (hs : ∃ n : NodeTok, Frag n.toks sname) :
    (∀ e, (putSubj o c fuel g ⟨m, base, namer⟩ st sname s).2 = .error e → ∃ ts, Begun ts ∧ Frag ts (putSubj o c fuel g ⟨m, base, namer⟩ st sname s).1) ∧
    ∀ st', (putSubj o c fuel g ⟨m, base, namer⟩ st sname s).2 = .ok st' → StOK namer w0 c st' ∧
      ∃ ts, Begun ts ∧ ∀ P, Reads P → ∀ tks r, P tks r → P (ts ++ .dot :: tks) ((putSubj o c fuel g ⟨m, base, namer⟩ st sname s).1 ++ r) := by
  obtain ⟨n, hn⟩ := hs
  have hsn1 : ∀ P, Reads P → ∀ tks r, P tks r → P (n.toks ++ tks) ((sname ++ [32]) ++ r) := fun P hP tks r hp => by
    rw [List.append_assoc]
    exact hn P hP _ _ (.inr ⟨32, r, rfl, .inl rfl⟩) (hP.white (.inl rfl) hp)
  unfold putSubj put quiet
  simp only [andThen_ok]
  cases h1 : sortedNames ⟨m, base, namer⟩ st.nm (o.terms (pySet ((g.match o.stmts s .none .none).map (·.p)))) with
  | error e =>
    refine ⟨fun _ _ => ⟨n.toks ++ [], ⟨n, [], rfl, .nil⟩, fun P hP r tks _ hp => ?_⟩, fun _ h => by cases h⟩
    simp only [andThen_error, List.append_nil]
    exact hsn1 P hP _ _ hp
  | ok x =>
    obtain ⟨nm, ps⟩ := x
    obtain ⟨hn1, hps⟩ := sortedNames_word (nl := nl) hm hsn hst.names (fun t ht => by
      have ht : t ∈ pySet ((g.match o.stmts s .none .none).map (·.p)) := (ho.terms _).mem_iff.1 ht
      obtain ⟨u, hu, rfl⟩ := List.mem_map.1 ((mem_pySet _ _).1 ht)
      obtain ⟨i, e, hi⟩ := hG.pred u ((Graph.mem_match hg.inv ho.stmts _ _ _ _).1 hu).1
      rw [e]
      exact ⟨.iri hi, by simp⟩) h1
    simp only [andThen_ok, List.nil_append]
    obtain ⟨p1, p2⟩ := putPreds_word ho hg hG hc hL hm hsn (fuel := fuel) s (sname.length + 1) ps true ⟨st.w, nm⟩ ⟨hn1, hst.reach, hst.ext⟩ (fun e he => by
      obtain ⟨_, k, hk⟩ := hps e he
      exact ⟨_, .leaf (.node k), hk⟩)
    generalize putPreds o c fuel g ⟨m, base, namer⟩ s (sname.length + 1) true ⟨st.w, nm⟩ ps = z at p1 p2
    obtain ⟨X, r⟩ := z
    cases r with
    | error e =>
      refine ⟨fun _ _ => ?_, fun _ h => by cases h⟩
      obtain ⟨ts, t1, t2⟩ := p1
      refine ⟨n.toks ++ ts, ⟨n, ts, rfl, t1⟩, fun P hP r tks hr hp => ?_⟩
      simp only [andThen_error]
      rw [List.append_assoc, List.append_assoc (sname ++ [32])]
      exact hsn1 P hP _ _ (t2 P hP _ _ hr hp)
    | ok st1 =>
      refine ⟨fun _ h => (by cases h), fun st' h => ?_⟩
      obtain ⟨q1, ts, t1, t2⟩ := p2 st1 rfl
      simp only [andThen_ok, List.append_nil] at h ⊢
      cases h
      refine ⟨q1, n.toks ++ ts, ⟨n, ts, rfl, t1⟩, fun P hP tks r hp => ?_⟩
      have e : (sname ++ [32] ++ (X ++ (spaces (sname.length + 1) ++ [46, 10, 10])) ++ r : PStr) = (sname ++ [32]) ++ (X ++ (spaces (sname.length + 1) ++ ([46] ++ (10 :: 10 :: r)))) := by simp
      rw [e, List.append_assoc]
      refine hsn1 P hP _ _ (t2 P hP _ _ (hP.spaces (hP.tok .dot ?_ (hP.white (by simp [isWhite]) (hP.white (by simp [isWhite]) hp))) _))
      intro c hc
      cases hc
      simp [isDigitChar]

omit ho hg hG hc hL hm hsn in
theorem Begun.fits {ts : List Tok} (h : Begun ts) : FitsAll .start ts ∧ (ctxAfter .start ts = .body ∨ ctxAfter .start ts = .lit) ∧ ts ≠ [] ∧ ∀ t ∈ ts, t.mid := by
  obtain ⟨n, r, rfl, h1, h2⟩ := h
  obtain ⟨a, b⟩ := h1 .body (.inl rfl)
  cases n <;> exact ⟨⟨by simp [CtxFits], a⟩, b, by simp [NodeTok.toks], fun t ht => (List.mem_cons.1 ht).elim (fun e => by rw [e]; trivial) (h2 t)⟩

omit ho hg hG hc hL hm hsn in
theorem Begun.whole {ts : List Tok} (h : Begun ts) : Whole (ts ++ [.dot]) := by
  obtain ⟨a, b, _, _⟩ := h.fits
  refine ⟨fitsAll_append a ⟨?_, trivial⟩, ?_, .inr (by simp)⟩
  · rcases b with b | b <;> rw [b] <;> simp [CtxFits]
  · rw [ctxAfter, List.foldl_append]
    show nextCtx (ctxAfter .start ts) .dot = .start
    rcases b with b | b <;> rw [b] <;> rfl

theorem putSubjs_word : ∀ (ss : List (PStr × Term)) (st : SerSt), StOK namer w0 c st → (∀ e ∈ ss, ∃ n : NodeTok, Frag n.toks e.1) →
    (∀ e, (putSubjs o c fuel g ⟨m, base, namer⟩ st ss).2 = .error e → ∃ a b, Whole a ∧ Begun b ∧ Plainly lark (a ++ b) (putSubjs o c fuel g ⟨m, base, namer⟩ st ss).1)
  | [], st, hst, _, e, h => by cases h
  | (sname, s) :: ss, st, hst, hss, e, h => by
    obtain ⟨h1, h2⟩ := putSubj_word ho hg hG hc hL hm hsn (fuel := fuel) hst (s := s) (hss _ (List.mem_cons_self ..))
    unfold putSubjs at h ⊢
    generalize putSubj o c fuel g ⟨m, base, namer⟩ st sname s = z at h h1 h2
    obtain ⟨X, r⟩ := z
    cases r with
    | error e =>
      obtain ⟨ts, t1, t2⟩ := h1 e rfl
      refine ⟨[], ts, ⟨trivial, rfl, .inl rfl⟩, t1, ?_⟩
      have := t2.plainly [] [] (.inl rfl) (.nil (.inl .nil))
      simpa using this
    | ok st1 =>
      obtain ⟨q, ts, t1, t2⟩ := h2 st1 rfl
      obtain ⟨a, b, i1, i2, i3⟩ := putSubjs_word ss st1 q (fun e he => hss e (List.mem_cons_of_mem _ he)) e h
      refine ⟨(ts ++ [.dot]) ++ a, b, t1.whole.append i1, i2, ?_⟩
      have := t2 _ .plainly _ _ i3
      simpa using this

end

/-- Complete statements followed by the beginning of one are not a document. -/
theorem torn_rejected {a b : List Tok} (ha : Whole a) (hb : Begun b) {text : PStr} (hp : Plainly lark (a ++ b) text) : ∃ e, parseTree text = .error e := by
  obtain ⟨f1, _, hne, hmid⟩ := hb.fits
  have hl : lex text = .ok (a ++ b) := lexAll_complete _ _ (Nat.lt_succ_self _) (fitsAll_append ha.1 (by rw [ha.2.1]; exact f1)) hp
  unfold parseTree
  rw [hl]
  dsimp only
  cases h : parseToks (a ++ b) with
  | error e => exact ⟨e, rfl⟩
  | ok d =>
    exfalso
    have e := (C93_exact _ _).1 h
    have hlast : ∃ t, (a ++ b).getLast? = some t ∧ t.mid := by
      obtain ⟨t, ht⟩ : ∃ t, b.getLast? = some t := by
        cases hb' : b.getLast? with
        | none => exact absurd (List.getLast?_eq_none_iff.1 hb') hne
        | some t => exact ⟨t, rfl⟩
      exact ⟨t, by rw [List.getLast?_append, ht]; rfl, hmid t (List.mem_of_getLast? ht)⟩
    obtain ⟨t, h1, h2⟩ := hlast
    rcases List.eq_nil_or_concat d with rfl | ⟨d', x, rfl⟩
    · rw [e] at h1; cases h1
    · have hd : docToks (d'.concat x) = docToks d' ++ x.toks := by simp [docToks]
      rw [e, hd] at h1
      have hdot : ∀ l : List Tok, x.toks = l ++ [.dot] → False := fun l hl => by
        rw [hl, ← List.append_assoc, List.getLast?_concat] at h1
        cases h1
        exact h2
      have hiri : ∀ (l : List Tok) (y z : Tok), x.toks = l ++ [y, z] → ¬ y.mid → y ≠ .dot → False := fun l y z hl hy hyd => by
        have e2 : (a ++ b).dropLast.getLast? = some y := by
          rw [e, hd, hl, ← List.append_assoc]
          simp [List.dropLast_append_of_ne_nil, List.getLast?_append]
        rw [List.dropLast_append_of_ne_nil hne] at e2
        rcases List.eq_nil_or_concat b.dropLast with hb' | ⟨b', u, hb'⟩
        · rw [hb', List.append_nil] at e2
          rcases ha.2.2 with ha' | ha'
          · rw [ha'] at e2; cases e2
          · rw [ha'] at e2; cases e2; exact hyd rfl
        · rw [hb', List.concat_eq_append, ← List.append_assoc, List.getLast?_concat] at e2
          cases e2
          exact hy (hmid _ (List.mem_of_mem_dropLast (by rw [hb']; simp)))
      cases x with
      | pre q ns i =>
        cases q
        · exact hdot [.atPrefix, .ns ns, .iri (.ref i)] rfl
        · exact hiri [.kwPrefix] (.ns ns) (.iri (.ref i)) rfl (by simp [Tok.mid]) (by simp)
      | base q i =>
        cases q
        · exact hdot [.atBase, .iri (.ref i)] rfl
        · exact hiri [] .kwBase (.iri (.ref i)) rfl (by simp [Tok.mid]) (by simp)
      | node s p => exact hdot _ rfl
      | coll c p => exact hdot _ rfl
      | bnpl s => exact hdot (.lbr :: s.toks ++ [.rbr]) (by simp [TStmt.toks])
      | bnplPol s p => exact hdot _ rfl

theorem whole_decls (base : Option PStr) (m : PrefixMap) : Whole (docToks (docDecls base m)) := by
  have h1 : ∀ ds : List PTStmt, (∀ x ∈ ds, (∃ ns i, x = .pre false ns i) ∨ ∃ i, x = .base false i) → Whole (docToks ds) := by
    intro ds
    induction ds with
    | nil => exact fun _ => ⟨trivial, rfl, .inl rfl⟩
    | cons x ds ih =>
      intro h
      have e : docToks (x :: ds) = x.toks ++ docToks ds := rfl
      rw [e]
      refine Whole.append ?_ (ih fun x hx => h x (List.mem_cons_of_mem _ hx))
      rcases h x (List.mem_cons_self ..) with ⟨ns, i, rfl⟩ | ⟨i, rfl⟩
      · exact ⟨⟨by simp [CtxFits], by simp [CtxFits, nextCtx], by simp [CtxFits, nextCtx], by simp [CtxFits, nextCtx], trivial⟩, rfl, .inr rfl⟩
      · exact ⟨⟨by simp [CtxFits], by simp [CtxFits, nextCtx], by simp [CtxFits, nextCtx], trivial⟩, rfl, .inr rfl⟩
  refine h1 _ fun x hx => ?_
  rcases List.mem_append.1 hx with hx | hx
  · cases base with
    | none => cases hx
    | some b => rcases List.mem_singleton.1 hx with rfl; exact .inr ⟨b, rfl⟩
  · obtain ⟨e, _, he⟩ := List.mem_flatMap.1 hx
    split at he
    · rcases List.mem_singleton.1 he with rfl; exact .inl ⟨_, _, rfl⟩
    · cases he

theorem putSubjs_split {o : Orders} {c fuel : Nat} {g : Graph} {cx : SerCtx} : ∀ (ss : List (PStr × Term)) (st : SerSt) {text : PStr} {e : Exc},
    putSubjs o c fuel g cx st ss = (text, .error e) → ∃ done sname s rest a st' b, ss = done ++ (sname, s) :: rest ∧ text = a ++ b ∧
      putSubjs o c fuel g cx st done = (a, .ok st') ∧ putSubj o c fuel g cx st' sname s = (b, .error e)
  | [], st, text, e, h => by cases h
  | (sname, s) :: ss, st, text, e, h => by
    unfold putSubjs at h
    cases hz : putSubj o c fuel g cx st sname s with
    | mk X r =>
      rw [hz] at h
      cases r with
      | error e' =>
        cases h
        exact ⟨[], sname, s, ss, [], st, X, rfl, rfl, rfl, hz⟩
      | ok st1 =>
        simp only [andThen_ok] at h
        obtain ⟨h1, h2⟩ := Prod.mk.inj h
        obtain ⟨done, sn, s', rest, a, st', b, k1, k2, k3, k4⟩ := putSubjs_split ss st1 (Prod.ext rfl h2 : putSubjs o c fuel g cx st1 ss = (_, .error e))
        refine ⟨(sname, s) :: done, sn, s', rest, X ++ a, st', b, by rw [k1]; rfl, (h1.symm.trans (congrArg (X ++ ·) k2)).trans (List.append_assoc ..).symm, ?_, k4⟩
        unfold putSubjs
        rw [hz]
        simp only [andThen_ok]
        rw [k3]

theorem plainSubjects_sub {o : Orders} {w : World} {c : Nat} {g : Graph} : ∀ (ss : List Term) {r : List Term}, plainSubjects o w c g ss = .ok r → ∀ t ∈ r, t ∈ ss
  | [], r, h, t, ht => by cases h; exact ht
  | s :: ss, r, h, t, ht => by
    unfold plainSubjects at h
    split at h
    · cases h
    · split at h
      · cases h
      · rename_i rest hr
        cases h
        split at ht
        · exact List.mem_cons_of_mem _ (plainSubjects_sub ss hr t ht)
        · rcases List.mem_cons.1 ht with rfl | ht
          · exact List.mem_cons_self ..
          · exact List.mem_cons_of_mem _ (plainSubjects_sub ss hr t ht)

theorem plainSubjects_keeps {o : Orders} {w : World} {c : Nat} {g : Graph} : ∀ (ss : List Term) {r : List Term}, plainSubjects o w c g ss = .ok r →
    ∀ t ∈ ss, isList o w g c t = .ok false → t ∈ r
  | s :: ss, r, h, t, ht, hl => by
    unfold plainSubjects at h
    split at h
    · cases h
    · split at h
      · cases h
      · rename_i b hb _ rest hr
        cases h
        rcases List.mem_cons.1 ht with rfl | ht
        · rw [hb] at hl
          cases hl
          exact List.mem_cons_self ..
        · have := plainSubjects_keeps ss hr t ht hl
          split
          · exact this
          · exact List.mem_cons_of_mem _ this

theorem names_blank (cx : SerCtx) (hcx : cx.namer = none) : ∀ (ts : List Term) (nm : Names), NInv none nm → ∀ k, .bnode k ∈ ts → ∃ e, names cx nm ts = .error e
  | t :: ts, nm, hn, k, hk => by
    unfold names
    cases h1 : name cx nm t with
    | error e => exact ⟨e, rfl⟩
    | ok x =>
      obtain ⟨nm', y⟩ := x
      obtain ⟨m, base, namer⟩ := cx
      subst hcx
      have hb : ∀ k, t ≠ .bnode k := by
        rintro k rfl
        rw [name_bnode_none hn] at h1
        cases h1
      have hnm : nm' = nm := by
        cases t with
        | bnode k => exact absurd rfl (hb k)
        | named i => cases h1; rfl
        | none => cases h1
        | gen i => cases h1
        | lit v l d =>
          have : (litRepr m v l d).map (fun t => (nm, t)) = .ok (nm', y) := h1
          cases hl : litRepr m v l d with
          | error e => rw [hl] at this; cases this
          | ok z => rw [hl] at this; cases this; rfl
      subst hnm
      dsimp only
      obtain ⟨e, he⟩ := names_blank ⟨m, base, none⟩ rfl ts nm' hn k ((List.mem_cons.1 hk).resolve_left fun h => hb k h.symm)
      exact ⟨e, by rw [he]⟩

theorem sortedNames_blank (cx : SerCtx) (hcx : cx.namer = none) {ts : List Term} (nm : Names) (hn : NInv none nm) {k : Nat} (hk : .bnode k ∈ ts) :
    ∃ e, sortedNames cx nm ts = .error e := by
  obtain ⟨e, he⟩ := names_blank cx hcx ts nm hn k hk
  exact ⟨e, by rw [sortedNames, he]⟩

/-! ### C130: Turtle -/

/-- The property: if `serialize_turtle` raises, then what it has left in the file is not a Turtle document. -/
def C130_statement : Prop :=
  ∀ (nl : PStr → Bool) (o : Orders) (w : World) (fuel : Nat) (g : Graph) (base : Option PStr) (profile : Option PrefixMap) (namer : Namer) (text : PStr) (e : Exc),
    o.OK → w.Reach → g.Reach → writeTurtle o w fuel g base profile namer = (text, .error e) → ∀ n, ∃ e', parseText nl [] n text = .error e'

/-- A graph with a blank node as a subject: the file then has the directives, which are a document, of no triples. -/
theorem C130_refuted : ¬ C130_statement := by
  intro h
  obtain ⟨e', he⟩ := h (fun _ => false) {} World.new 9 (Graph.new.add (mkTriple (.bnode 1) (.named (py! "x:p")) (.named (py! "x:o")))) none none none
    (py! "@prefix xsd: <http://www.w3.org/2001/XMLSchema#> .\n") .attributeError
    Orders.OK.default .new ((Graph.Reach.new _).add _ _ _) rfl 0
  have e : parseText (fun _ => false) [] 0 (py! "@prefix xsd: <http://www.w3.org/2001/XMLSchema#> .\n") = .ok (0, []) := rfl
  rw [e] at he
  cases he

/-- **What is in the file when `serialize_turtle` raises**, for every graph: the directives; or these, the complete blocks of the first subjects in the order of the
    names, and the beginning of the block of the next subject. -/
theorem C130_exact {o : Orders} {w : World} {fuel : Nat} {g : Graph} {base : Option PStr} {profile : Option PrefixMap} {namer : Namer} {text : PStr} {e : Exc}
    (h : writeTurtle o w fuel g base profile namer = (text, .error e)) :
    text = header base (profile.getD defaultPrefixes) ∨
    ∃ subjects nm done sname s rest a st' b, plainSubjects o w listC g g.subjects = .ok subjects ∧
      sortedNames ⟨profile.getD defaultPrefixes, base, namer⟩ {} subjects = .ok (nm, done ++ (sname, s) :: rest) ∧
      putSubjs o listC fuel g ⟨profile.getD defaultPrefixes, base, namer⟩ ⟨w, nm⟩ done = (a, .ok st') ∧
      text = header base (profile.getD defaultPrefixes) ++ (a ++ (sname ++ (32 :: b))) := by
  unfold writeTurtle put quiet at h
  simp only [andThen_ok] at h
  cases h1 : plainSubjects o w listC g g.subjects with
  | error e1 =>
    rw [h1] at h
    simp only [andThen_error, List.append_nil] at h
    exact .inl (Prod.mk.inj h).1.symm
  | ok subjects =>
    rw [h1] at h
    simp only [andThen_ok] at h
    cases h2 : sortedNames ⟨profile.getD defaultPrefixes, base, namer⟩ {} subjects with
    | error e1 =>
      rw [h2] at h
      simp only [andThen_error, List.append_nil] at h
      exact .inl (Prod.mk.inj h).1.symm
    | ok x =>
      obtain ⟨nm, ss⟩ := x
      rw [h2] at h
      simp only [andThen_ok, List.nil_append] at h
      right
      cases h3 : putSubjs o listC fuel g ⟨profile.getD defaultPrefixes, base, namer⟩ ⟨w, nm⟩ ss with
      | mk X r =>
        rw [h3] at h
        cases r with
        | ok st => cases (Prod.mk.inj h).2
        | error e1 =>
          simp only [andThen_error] at h
          obtain ⟨done, sname, s, rest, a, st', b, k1, k2, k3, k4⟩ := putSubjs_split ss _ h3
          subst k1
          obtain ⟨b', hb'⟩ : ∃ b', b = sname ++ (32 :: b') := by
            unfold putSubj put at k4
            simp only [andThen_ok] at k4
            exact ⟨_, by rw [← (Prod.mk.inj k4).1, List.append_assoc]; rfl⟩
          exact ⟨subjects, nm, done, sname, s, rest, a, st', b', rfl, h2, k3, by rw [← (Prod.mk.inj h).1, k2, hb']⟩

/-- The directives are a document of no triples. -/
theorem header_read {nl : PStr → Bool} {m : PrefixMap} {base : Option PStr} (hm : SafeProfileAt nl m (base.getD [])) (n : Nat) :
    parseText nl [] n (header base m) = .ok (n, []) := by
  have hp : Plainly lark (docToks (docDecls base m)) (header base m) := by
    have := header_frag_at .plainly hm.names hm.baseLegal (tks := []) (r := []) (.nil (.inl .nil))
    simpa using this
  obtain ⟨k, hk⟩ := eval_docDecls (ds := []) (es := []) (bn := { map := [], next := n }) hm rfl
  rw [List.append_nil, List.append_nil] at hk
  rw [parseText, C96_exact hp]
  dsimp only
  rw [hk]
  dsimp only
  have : ∀ k, genStmts n (List.replicate k .directive) = (n, []) := by
    intro k
    induction k with
    | zero => rfl
    | succ k ih => rw [List.replicate_succ, genStmts]; simp [genStmt, ih]
  rw [this]

/-- **A failed write is never read as a part of the graph.** With a profile of legal names and a graph whose terms can be written or cannot be named, a file that
    `serialize_turtle` has left when it raised — or was stopped in a list that does not end — is either just the directives, or is no document, with whatever base it is read. -/
theorem C130_torn_partial {nl : PStr → Bool} {m : PrefixMap} {base : Option PStr} {namer : Namer} {o : Orders} (ho : o.OK) {g : Graph} (hg : g.Reach)
    (hG : NameableGraph nl m (base.getD []) g) {w : World} (hw : w.Reach) {iFirst iRest iNil : PStr} (hc : listC < w.classes.length) (hL : ListNames w listC iFirst iRest iNil)
    (hm : SafeProfileAt nl m (base.getD [])) (hsn : ∀ f, namer = some f → SafeNamer f) {fuel : Nat} {text : PStr} {e : Exc}
    (h : writeTurtle o w fuel g base (some m) namer = (text, .error e)) :
    (text = header base m ∧ ∀ n, parseText nl [] n text = .ok (n, [])) ∨ ∃ e', ∀ b n, parseText nl b n text = .error e' := by
  unfold writeTurtle put quiet at h
  simp only [andThen_ok, Option.getD_some] at h
  cases h1 : plainSubjects o w listC g g.subjects with
  | error e1 =>
    rw [h1] at h
    simp only [andThen_error, List.append_nil] at h
    have := (Prod.mk.inj h).1.symm
    subst this
    exact .inl ⟨rfl, header_read hm⟩
  | ok subjects =>
    rw [h1] at h
    simp only [andThen_ok] at h
    cases h2 : sortedNames ⟨m, base, namer⟩ {} subjects with
    | error e1 =>
      rw [h2] at h
      simp only [andThen_error, List.append_nil] at h
      have := (Prod.mk.inj h).1.symm
      subst this
      exact .inl ⟨rfl, header_read hm⟩
    | ok x =>
      obtain ⟨nm, ss⟩ := x
      rw [h2] at h
      simp only [andThen_ok, List.nil_append] at h
      obtain ⟨hn, hss⟩ := sortedNames_word (nl := nl) hm.toSafeProfile hsn (NInv.empty namer) (fun t ht => by
        rcases hG.subj t (plainSubjects_sub _ h1 t ht) with ⟨i, rfl, hi⟩ | ⟨k, rfl⟩
        · exact ⟨.iri hi, by simp⟩
        · exact ⟨.bnode, by simp⟩) h2
      have key := putSubjs_word ho hg hG hc hL hm.toSafeProfile hsn (fuel := fuel) ss ⟨w, nm⟩ ⟨hn, hw, World.Ext.refl w⟩ (fun e he => (hss e he).2)
      generalize putSubjs o listC fuel g ⟨m, base, namer⟩ ⟨w, nm⟩ ss = z at h key
      obtain ⟨X, r⟩ := z
      cases r with
      | ok st => cases (Prod.mk.inj h).2
      | error e1 =>
        simp only [andThen_error] at h
        obtain ⟨a, b, ha, hb, hp⟩ := key e1 rfl
        have hp' := header_frag_at .plainly hm.names hm.baseLegal hp
        rw [← List.append_assoc] at hp'
        obtain ⟨e', he'⟩ := torn_rejected ((whole_decls base m).append ha) hb hp'
        rw [(Prod.mk.inj h).1] at he'
        exact .inr ⟨e', fun b n => by rw [parseText, he']⟩

/-- **Blank nodes by default.** With the default generator of names, any graph with a blank node that is a subject and is no list leaves the directives and no triple. -/
theorem C130_default {o : Orders} {w : World} {fuel : Nat} {g : Graph} {base : Option PStr} {profile : Option PrefixMap} {k : Nat} (hk : .bnode k ∈ g.subjects)
    (hl : isList o w g listC (.bnode k) = .ok false) : ∃ e, writeTurtle o w fuel g base profile = (header base (profile.getD defaultPrefixes), .error e) := by
  unfold writeTurtle put quiet
  simp only [andThen_ok]
  cases h1 : plainSubjects o w listC g g.subjects with
  | error e1 => exact ⟨e1, by simp⟩
  | ok subjects =>
    obtain ⟨e1, he⟩ := sortedNames_blank ⟨profile.getD defaultPrefixes, base, defaultNamer⟩ rfl {} (NInv.empty none) (plainSubjects_keeps _ h1 _ hk hl)
    exact ⟨e1, by simp [he]⟩

/-! A graph that meets the hypotheses of `C130_torn_partial`: the second subject has a blank node as an object. -/

def exTorn : Graph := (Graph.new.add (mkTriple (.named (py! "x:s")) (.named (py! "x:p")) (.lit (py! "v") none none))).add (mkTriple (.named (py! "x:t")) (.named (py! "x:p")) (.bnode 1))

set_option maxRecDepth 8000 in
theorem exTorn_text : writeTurtle {} World.new 0 exTorn (some exBase.text) (some defaultPrefixes) =
    (py! "@base <http://e/a#> .\n@prefix xsd: <http://www.w3.org/2001/XMLSchema#> .\n<x:s> <x:p> \"v\" ;\n      .\n\n<x:t> <x:p> ", .error .attributeError) := rfl

example := C130_torn_partial (nl := fun _ => true) (base := some exBase.text) Orders.OK.default (g := exTorn) (((Graph.Reach.new _).add _ _ _).add _ _ _)
  (by
    have safe : ∀ c, 97 ≤ c ∧ c ≤ 122 → SafeIriAt (fun _ => true) defaultPrefixes exBase.text [120, 58, c] := fun c hc =>
      safe_short_at (by simp) (by unfold LegalIri; simp; omega) (by simp) (fun _ => joins_alone exBase_good (alone_x c hc)) (fun rest e => by
        have := congrArg List.head? e
        rw [exBase_text] at this
        cases this)
    refine ⟨fun s hs => ?_, fun t ht => ?_, fun t ht => ?_⟩
    · have : s = .named (py! "x:s") ∨ s = .named (py! "x:t") := by simpa [show exTorn.subjects = [.named (py! "x:s"), .named (py! "x:t")] by decide] using hs
      rcases this with rfl | rfl
      · exact .inl ⟨_, rfl, safe _ (by decide)⟩
      · exact .inl ⟨_, rfl, safe _ (by decide)⟩
    · refine ⟨py! "x:p", ?_, safe _ (by decide)⟩
      revert t
      decide
    · have : t.o = .lit (py! "v") none none ∨ t.o = .bnode 1 := by revert t; decide
      rcases this with h | h <;> rw [h]
      · exact .lit (.plain (by unfold Clean; decide) (.inl rfl))
      · exact .bnode)
  .new (by decide) listClass_new.names exProfile (fun f h => by cases h) exTorn_text

end Turtle
end Verif
