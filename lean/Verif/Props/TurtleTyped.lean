import Verif.Props.WriteFail
import Verif.Props.TurtleRound
/-
C156: is what the Turtle writer writes read by the Turtle parser? Literals with a datatype that Turtle has no short form for are written with one caret instead of two, and no part of such a
text is read.
-/
namespace Verif.Turtle
open Verif.Turtle.Spec

/-! ### Texts on which the lexer stops -/

/-- The lexer stops with an error somewhere in the text, once it has read the tokens. -/
def Jams (ts : List Tok) (s : PStr) : Prop := ∀ ctx, FitsAll ctx ts → ctxAfter ctx ts = .lit → ∀ n, ∃ e, lexAll n ctx s = .error e

theorem Jams.reads : Reads Jams where
  white {ts r c} hc h ctx h1 h2 n := by
    obtain ⟨e, he⟩ := h ctx h1 h2 n
    refine ⟨e, ?_⟩
    cases n with
    | zero => exact he
    | succ n =>
      rw [lexAll] at he ⊢
      rwa [show skipIgn false (c :: r) = skipIgn false r from skipIgn_ignorable (u := [c]) (.white hc .nil) r]
  tok {t w ts r} ht hm h ctx h1 h2 n := by
    cases n with
    | zero => exact ⟨_, rfl⟩
    | succ n =>
      have e := lexTok_complete h1.1 ht hm
      obtain ⟨c, w', rfl, h3, h4⟩ := TokText.head ht
      have e0 : skipIgn false (c :: w' ++ r) = c :: (w' ++ r) := by rw [List.cons_append, skipIgn, h3, if_neg h4]; simp
      obtain ⟨e1, he⟩ := h (nextCtx ctx t) h1.2 h2 n
      rw [List.cons_append] at e e0 ⊢
      rw [lexAll, e0]
      simp only [e, he]
      exact ⟨e1, rfl⟩

theorem jams_caret {c : Nat} (hc : c ≠ 94) (r : PStr) : Jams [] (94 :: c :: r) := by
  intro ctx _ h n
  have h : ctx = .lit := h
  subst h
  cases n with
  | zero => exact ⟨_, rfl⟩
  | succ n =>
    have e0 : skipIgn false (94 :: c :: r) = 94 :: c :: r := rfl
    have e : lexTok .lit (94 :: c :: r) = none := by
      simp [lexTok]
      split
      · next h => exact absurd (List.cons.inj h).1 hc
      · rfl
    exact ⟨.unexpectedInput, by rw [lexAll, e0]; simp only [e]⟩

/-- Inside a statement, the text stops the lexer after a string. -/
def Jam (X : PStr) : Prop := ∃ ts v, Mids ts ∧ ∀ r, Jams (ts ++ [.str v]) (X ++ r)

theorem Jam.append {X : PStr} (h : Jam X) (Y : PStr) : Jam (X ++ Y) := by
  obtain ⟨ts, v, h1, h2⟩ := h
  exact ⟨ts, v, h1, fun r => by rw [List.append_assoc]; exact h2 _⟩

theorem Shut.jam {X Y : PStr} (h : Shut X) (h' : Jam Y) : Jam (X ++ Y) := by
  obtain ⟨ts, h1, h2⟩ := h
  obtain ⟨ts', v, h1', h2'⟩ := h'
  refine ⟨ts ++ ts', v, h1.append h1', fun r => ?_⟩
  rw [List.append_assoc, List.append_assoc]
  exact h2 _ Jams.reads _ _ (h2' r)

theorem Word.jam {X Y : PStr} (h : Word X) (h' : Jam Y) (hY : ∃ c r, Y = c :: r ∧ (c = 32 ∨ c = 44 ∨ c = 41)) : Jam (X ++ Y) := by
  obtain ⟨ts, h1, h2⟩ := h
  obtain ⟨ts', v, h1', h2'⟩ := h'
  refine ⟨ts ++ ts', v, h1.append h1', fun r => ?_⟩
  rw [List.append_assoc, List.append_assoc]
  refine h2 _ Jams.reads _ _ ?_ (h2' r)
  obtain ⟨c, r', rfl, hc⟩ := hY
  exact .inr ⟨c, r' ++ r, rfl, hc⟩

/-- From the start of a statement, the text stops the lexer. -/
def Stuck (X : PStr) : Prop := ∃ ts, FitsAll .start ts ∧ ctxAfter .start ts = .lit ∧ ∀ r, Jams ts (X ++ r)

/-- Complete statements. -/
def Blocks (X : PStr) : Prop := ∃ ts, Whole ts ∧ ∀ P, Reads P → ∀ tks r, P tks r → P (ts ++ tks) (X ++ r)

theorem Stuck.append {X : PStr} (h : Stuck X) (Y : PStr) : Stuck (X ++ Y) := by
  obtain ⟨ts, h1, h2, h3⟩ := h
  exact ⟨ts, h1, h2, fun r => by rw [List.append_assoc]; exact h3 _⟩

theorem Blocks.stuck {X Y : PStr} (h : Blocks X) (h' : Stuck Y) : Stuck (X ++ Y) := by
  obtain ⟨ts, ⟨h1, h2, _⟩, h3⟩ := h
  obtain ⟨ts', h1', h2', h3'⟩ := h'
  refine ⟨ts ++ ts', fitsAll_append h1 (by rwa [h2]), ?_, fun r => ?_⟩
  · rw [ctxAfter, List.foldl_append]
    show ctxAfter (ctxAfter .start ts) ts' = _
    rw [h2, h2']
  · rw [List.append_assoc]
    exact h3 _ Jams.reads _ _ (h3' r)

theorem Blocks.append {X Y : PStr} (h : Blocks X) (h' : Blocks Y) : Blocks (X ++ Y) := by
  obtain ⟨ts, h1, h3⟩ := h
  obtain ⟨ts', h1', h3'⟩ := h'
  refine ⟨ts ++ ts', h1.append h1', fun P hP tks r hp => ?_⟩
  rw [List.append_assoc, List.append_assoc]
  exact h3 P hP _ _ (h3' P hP _ _ hp)

theorem Stuck.rejected {X : PStr} (h : Stuck X) : ∃ e, parseTree X = .error e := by
  obtain ⟨ts, h1, h2, h3⟩ := h
  obtain ⟨e, he⟩ := h3 [] .start h1 h2 (X.length + 1)
  rw [List.append_nil] at he
  exact ⟨e, by rw [parseTree, lex, he]⟩

/-! ### Literals of other datatypes -/

/-- A string without special characters, of a datatype for which Turtle has no short form. -/
inductive OtherType : Term → Prop
  | mk {v l d} : Clean v → d ∉ [xsd (py! "string"), xsd (py! "integer"), xsd (py! "decimal"), xsd (py! "double"), xsd (py! "boolean")] → OtherType (.lit v l (some d))

theorem pnPrefix_head {p : PStr} (h : PnPrefix p) : ∀ c ∈ p.head?, c ≠ 94 := by
  rcases h with rfl | ⟨c, t, rfl, hc, _⟩
  · simp
  · rintro d hd rfl
    cases hd
    simp [Spec.pnCharsBase, isAlpha] at hc

theorem iriRepr_head {m : PrefixMap} (hm : SafeProfile m) (d : PStr) : ∃ c r, iriRepr m none d = c :: r ∧ c ≠ 94 := by
  unfold iriRepr
  dsimp only
  by_cases h : m.shrink d = d
  · rw [if_pos h]; exact ⟨60, _, rfl, by decide⟩
  · rw [if_neg h]
    have hex : ∃ pn ∈ m, pn.2 <+: d := by
      refine Classical.byContradiction fun hno => h ?_
      exact (C30_choice_exact d m [58] false).1 fun pn hpn hp => hno ⟨pn, hpn, hp⟩
    obtain ⟨pn, h1, h2⟩ := (C30_choice_exact d m [58] false).2 hex
    have hmem : pn ∈ m := by obtain ⟨a, b, e, _⟩ := h1; rw [e]; simp
    have hpre : pn.2 <+: d := by obtain ⟨a, b, e, h, _⟩ := h1; exact h
    have : ∃ r, m.shrink d = (pn.1 ++ [58]) ++ r := by
      have e : m.shrink d = pyReplace d pn.2 (pn.1 ++ [58]) := h2
      rw [e, pyReplace]
      by_cases hn : pn.2 = []
      · rw [if_pos hn]; exact ⟨_, rfl⟩
      · rw [if_neg hn]
        cases d with
        | nil => exact absurd (List.prefix_nil.1 hpre) hn
        | cons c d =>
          rw [pyReplaceAux, if_pos (List.isPrefixOf_iff_prefix.2 hpre)]
          exact ⟨_, rfl⟩
    obtain ⟨r, e⟩ := this
    rw [e]
    have hh := pnPrefix_head (hm.names pn hmem).1
    cases hp : pn.1 with
    | nil => exact ⟨58, r, by simp, by decide⟩
    | cons c p => exact ⟨c, p ++ [58] ++ r, by simp, hh c (by rw [hp]; rfl)⟩

theorem otherType_jam {m : PrefixMap} (hm : SafeProfile m) {x : Term} (h : OtherType x) (base : Option PStr) (namer : Namer) (nm : Names) :
    ∃ w, name ⟨m, base, namer⟩ nm x = .ok (nm, w) ∧ Jam w := by
  have x1 : xsdOf m (py! "string") = .ok (xsd (py! "string")) := xsdOf_safe hm (by decide) (by decide)
  have x2 : xsdOf m (py! "integer") = .ok (xsd (py! "integer")) := xsdOf_safe hm (by decide) (by decide)
  have x3 : xsdOf m (py! "decimal") = .ok (xsd (py! "decimal")) := xsdOf_safe hm (by decide) (by decide)
  have x4 : xsdOf m (py! "double") = .ok (xsd (py! "double")) := xsdOf_safe hm (by decide) (by decide)
  have x5 : xsdOf m (py! "boolean") = .ok (xsd (py! "boolean")) := xsdOf_safe hm (by decide) (by decide)
  have bind : ∀ {α β} (a : α) (f : α → Except Exc β), (Except.ok a >>= f) = f a := fun _ _ => rfl
  cases h with
  | @mk v l d hv hd =>
    simp only [List.mem_cons, List.not_mem_nil, or_false, not_or] at hd
    obtain ⟨d1, d2, d3, d4, d5⟩ := hd
    have e : litRepr m v l (some d) = .ok (turtleStringEscape v ++ [94] ++ iriRepr m none d) := by
      rw [litRepr, x1, bind, if_neg (by simpa using d1)]
      rw [x2]
      show (Except.ok _ >>= _) = _
      rw [bind, if_neg d2, x3]
      show (Except.ok _ >>= _) = _
      rw [bind, if_neg d3, x4]
      show (Except.ok _ >>= _) = _
      rw [bind, if_neg d4, x5]
      show (Except.ok _ >>= _) = _
      rw [bind, if_neg d5]
      rfl
    refine ⟨_, by rw [name, e]; rfl, [], v, .nil, fun r => ?_⟩
    obtain ⟨c, r', e', hc⟩ := iriRepr_head hm d
    rw [e', hv.escape]
    have : (34 :: (v ++ [34]) ++ [94] ++ c :: r' ++ r : PStr) = (34 :: (v ++ [34])) ++ (94 :: c :: (r' ++ r)) := by simp
    rw [this]
    exact Jams.reads.tok (.str (.inl rfl) hv.strBody) (by simp [MayFollow]) (jams_caret hc _)

/-! ### The writer's pieces -/

/-- A graph of IRIs that can be written, blank nodes, and literals that can be written or are of other datatypes, without lists. -/
structure TypedGraph (nl : PStr → Bool) (m : PrefixMap) (b : PStr) (g : Graph) : Prop where
  inv : Graph.Inv g
  subj : ∀ s ∈ g.subjects, (∃ i, s = .named i ∧ SafeIriAt nl m b i) ∨ ∃ k, s = .bnode k
  pred : ∀ t ∈ g.triples, ∃ i, t.p = .named i ∧ SafeIriAt nl m b i ∧ i ≠ Heap.rdfNs ++ py! "rest"
  obj : ∀ t ∈ g.triples, Nameable nl m b t.o ∨ OtherType t.o

theorem names_snd {cx : SerCtx} : ∀ {ts : List Term} {nm nm' : Names} {xs : List (PStr × Term)}, names cx nm ts = .ok (nm', xs) → xs.map (·.2) = ts
  | [], nm, nm', xs, h => by cases h; rfl
  | t :: ts, nm, nm', xs, h => by
    rw [names] at h
    cases h1 : name cx nm t with
    | error e => rw [h1] at h; cases h
    | ok r =>
      obtain ⟨nm1, x⟩ := r
      rw [h1] at h
      dsimp only at h
      cases h2 : names cx nm1 ts with
      | error e => rw [h2] at h; cases h
      | ok r =>
        obtain ⟨nm2, ys⟩ := r
        rw [h2] at h
        cases h
        rw [List.map_cons, names_snd h2]

theorem sortedNames_snd {cx : SerCtx} {ts : List Term} {nm nm' : Names} {xs : List (PStr × Term)} (h : sortedNames cx nm ts = .ok (nm', xs)) {t : Term} (ht : t ∈ ts) :
    ∃ x, (x, t) ∈ xs := by
  rw [sortedNames] at h
  cases h1 : names cx nm ts with
  | error e => rw [h1] at h; cases h
  | ok r =>
    obtain ⟨nm1, ys⟩ := r
    rw [h1] at h
    dsimp only at h
    split at h
    · cases h
    · cases h
      rw [← names_snd h1] at ht
      obtain ⟨⟨x, t'⟩, he, rfl⟩ := List.mem_map.1 ht
      exact ⟨x, (sort_perm ys).mem_iff.2 he⟩

section
variable {nl : PStr → Bool} {m : PrefixMap} {base : Option PStr} {namer : Namer} {o : Orders} {g : Graph} {w : World} {c fuel : Nat}
  (hm : SafeProfile m) (hsn : ∀ f, namer = some f → SafeNamer f) (hl : ∀ x, isList o w g c x = .ok false)
include hm hsn hl

theorem objsText_jam (indent : Nat) : ∀ (ts : List Stmt) (first : Bool) {nm : Names} {st' : SerSt} {X : PStr}, NInv namer nm →
    (∀ t ∈ ts, Nameable nl m (base.getD []) t.o ∨ OtherType t.o) → objsText o c fuel g ⟨m, base, namer⟩ indent first ⟨w, nm⟩ ts = .ok (st', X) →
    st'.w = w ∧ NInv namer st'.nm ∧ (first = false → X = [] ∧ ts = [] ∨ ∃ r, X = 44 :: r) ∧ (Word X ∧ (∀ t ∈ ts, ¬ OtherType t.o) ∨ Jam X ∧ ts ≠ [])
  | [], first, nm, st', X, hn, _, h => by
    cases h
    exact ⟨rfl, hn, fun _ => .inl ⟨rfl, rfl⟩, .inl ⟨Shut.nil.word, by simp⟩⟩
  | t :: ts, first, nm, st', X, hn, hts, h => by
    rw [objsText, objText, hl] at h
    dsimp only at h
    cases h1 : name ⟨m, base, namer⟩ nm t.o with
    | error e => rw [h1] at h; cases h
    | ok r =>
      obtain ⟨nm1, x⟩ := r
      rw [h1] at h
      dsimp only at h
      cases h2 : objsText o c fuel g ⟨m, base, namer⟩ indent false ⟨w, nm1⟩ ts with
      | error e => rw [h2] at h; cases h
      | ok r =>
        obtain ⟨st2, Y⟩ := r
        rw [h2] at h
        cases h
        have hx : NInv namer nm1 ∧ (Word x ∧ ¬ OtherType t.o ∨ Jam x) := by
          by_cases ho : OtherType t.o
          · obtain ⟨x', e, hj⟩ := otherType_jam hm ho base namer nm
            rw [h1] at e
            cases e
            exact ⟨hn, .inr hj⟩
          · obtain ⟨a, lf, hf, _⟩ := name_word hm hsn ((hts t (List.mem_cons_self ..)).resolve_right ho) hn h1
            exact ⟨a, .inl ⟨⟨_, .leaf lf, hf⟩, ho⟩⟩
        obtain ⟨a1, a2, a3, a4⟩ := objsText_jam indent ts false hx.1 (fun t ht => hts t (List.mem_cons_of_mem _ ht)) h2
        have hsh : Shut (if first then [] else [44, 10] ++ spaces indent) := by
          cases first with
          | true => exact .nil
          | false => exact shut_comma indent
        refine ⟨a1, a2, fun hf => .inr (by subst hf; exact ⟨_, rfl⟩), ?_⟩
        rcases hx.2 with ⟨hw, hno⟩ | hj
        · rcases a4 with ⟨b1, b2⟩ | ⟨b, hne⟩
          · refine .inl ⟨?_, by simpa using ⟨hno, b2⟩⟩
            rw [List.append_assoc]
            refine hsh.then (hw.then b1 ?_)
            rcases a3 rfl with ⟨rfl, _⟩ | ⟨r, rfl⟩
            · exact .inl rfl
            · exact .inr ⟨44, r, rfl, .inr (.inl rfl)⟩
          · refine .inr ⟨?_, by simp⟩
            rw [List.append_assoc]
            refine hsh.jam (hw.jam b ?_)
            rcases a3 rfl with ⟨_, e⟩ | ⟨r, rfl⟩
            · exact absurd e hne
            · exact ⟨44, r, rfl, .inr (.inl rfl)⟩
        · exact .inr ⟨(hsh.jam hj).append Y, by simp⟩

theorem predsText_jam (ho : Orders.OK o) (hG : TypedGraph nl m (base.getD []) g) (s : Term) (indent : Nat) : ∀ (ps : List (PStr × Term)) (first : Bool) {nm : Names} {st' : SerSt} {X : PStr},
    NInv namer nm → (∀ e ∈ ps, Word e.1) → predsText o c fuel g ⟨m, base, namer⟩ s indent first ⟨w, nm⟩ ps = .ok (st', X) →
    st'.w = w ∧ NInv namer st'.nm ∧ (Shut X ∧ (∀ e ∈ ps, ∀ t ∈ g.match o.stmts s e.2 .none, ¬ OtherType t.o) ∨ Jam X)
  | [], first, nm, st', X, hn, _, h => by
    cases h
    exact ⟨rfl, hn, .inl ⟨.nil, by simp⟩⟩
  | (pname, p) :: ps, first, nm, st', X, hn, hps, h => by
    rw [predsText] at h
    cases h1 : objsText o c fuel g ⟨m, base, namer⟩ (indent + pname.length + 1) true ⟨w, nm⟩ (g.match o.stmts s p .none) with
    | error e => rw [h1] at h; cases h
    | ok r =>
      obtain ⟨⟨w1, nm1⟩, x⟩ := r
      rw [h1] at h
      dsimp only at h
      obtain ⟨a1, a2, _, a4⟩ := objsText_jam hm hsn hl (nl := nl) _ _ _ hn (fun t ht => hG.obj t ((Graph.mem_match hG.inv ho.stmts _ _ _ _).1 ht).1) h1
      dsimp only at a1 a2
      subst w1
      cases h2 : predsText o c fuel g ⟨m, base, namer⟩ s indent false ⟨w, nm1⟩ ps with
      | error e => rw [h2] at h; cases h
      | ok r =>
        obtain ⟨st2, Y⟩ := r
        rw [h2] at h
        cases h
        obtain ⟨b1, b2, b3⟩ := predsText_jam ho hG s indent ps false a2 (fun e he => hps e (List.mem_cons_of_mem _ he)) h2
        have hsh : Shut (if first then [] else spaces indent) := by
          cases first with
          | true => exact .nil
          | false => exact .spaces indent
        have hpre : Shut ((if first then [] else spaces indent) ++ pname ++ [32]) := by
          rw [List.append_assoc]
          exact hsh.append (Word.shut (hps _ (List.mem_cons_self ..)) (.white (.inl rfl)) (.inr ⟨32, [], rfl, .inl rfl⟩) (by simp))
        refine ⟨b1, b2, ?_⟩
        rcases a4 with ⟨c1, c2⟩ | ⟨hj, _⟩
        · have h3 := hpre.append (c1.shut shut_semi (.inr ⟨32, _, rfl, .inl rfl⟩) (by simp))
          rcases b3 with ⟨d1, d2⟩ | hj
          · refine .inl ⟨?_, List.forall_mem_cons.2 ⟨c2, d2⟩⟩
            have := h3.append d1
            simpa using this
          · refine .inr ?_
            have := h3.jam hj
            simpa using this
        · refine .inr ?_
          have := (hpre.jam hj).append ([32, 59, 10] ++ Y)
          simpa using this

theorem subjText_jam (ho : Orders.OK o) (hG : TypedGraph nl m (base.getD []) g) {sname : PStr} {s : Term} (hs : ∃ n : NodeTok, Frag n.toks sname) {nm : Names} {st' : SerSt} {X : PStr}
    (hn : NInv namer nm) (h : subjText o c fuel g ⟨m, base, namer⟩ ⟨w, nm⟩ sname s = .ok (st', X)) :
    st'.w = w ∧ NInv namer st'.nm ∧ (Blocks X ∧ (∀ t ∈ g.triples, t.s = s → ¬ OtherType t.o) ∨ Stuck X) := by
  obtain ⟨n, hf⟩ := hs
  have hsn1 : ∀ P, Reads P → ∀ tks r, P tks r → P (n.toks ++ tks) ((sname ++ [32]) ++ r) := fun P hP tks r hp => by
    rw [List.append_assoc]
    exact hf P hP _ _ (.inr ⟨32, r, rfl, .inl rfl⟩) (hP.white (.inl rfl) hp)
  rw [subjText] at h
  dsimp only at h
  cases h1 : sortedNames ⟨m, base, namer⟩ nm (o.terms (pySet ((g.match o.stmts s .none .none).map (·.p)))) with
  | error e => rw [h1] at h; cases h
  | ok r =>
    obtain ⟨nm1, ps⟩ := r
    rw [h1] at h
    dsimp only at h
    obtain ⟨hn1, hps⟩ := sortedNames_word (nl := nl) hm hsn hn (fun t ht => by
      have ht : t ∈ pySet ((g.match o.stmts s .none .none).map (·.p)) := (ho.terms _).mem_iff.1 ht
      obtain ⟨u, hu, rfl⟩ := List.mem_map.1 ((mem_pySet _ _).1 ht)
      obtain ⟨i, e, hi, _⟩ := hG.pred u ((Graph.mem_match hG.inv ho.stmts _ _ _ _).1 hu).1
      rw [e]
      exact ⟨.iri hi, by simp⟩) h1
    cases h2 : predsText o c fuel g ⟨m, base, namer⟩ s (sname.length + 1) true ⟨w, nm1⟩ ps with
    | error e => rw [h2] at h; cases h
    | ok r =>
      obtain ⟨st2, Y⟩ := r
      rw [h2] at h
      cases h
      obtain ⟨a1, a2, a3⟩ := predsText_jam hm hsn hl ho hG s _ ps true hn1 (fun e he => by
        obtain ⟨_, k, hk⟩ := hps e he
        exact ⟨_, .leaf (.node k), hk⟩) h2
      refine ⟨a1, a2, ?_⟩
      rcases a3 with ⟨b1, b2⟩ | hj
      · refine .inl ⟨?_, fun t ht hts => ?_⟩
        · obtain ⟨ts, t1, t2⟩ := b1
          refine ⟨n.toks ++ ts ++ [.dot], Begun.whole ⟨n, ts, rfl, t1⟩, fun P hP tks r hp => ?_⟩
          have e : (sname ++ [32] ++ Y ++ spaces (sname.length + 1) ++ [46, 10, 10] ++ r : PStr) = (sname ++ [32]) ++ (Y ++ (spaces (sname.length + 1) ++ ([46] ++ (10 :: 10 :: r)))) := by simp
          rw [e, List.append_assoc, List.append_assoc]
          refine hsn1 P hP _ _ (t2 P hP _ _ (hP.spaces (hP.tok .dot ?_ (hP.white (by simp [isWhite]) (hP.white (by simp [isWhite]) hp))) _))
          intro c hc
          cases hc
          simp [isDigitChar]
        · have hmem : t ∈ g.match o.stmts s .none .none := (Graph.mem_match hG.inv ho.stmts _ _ _ _).2 ⟨ht, fun _ => hts, fun h => by simp [Term.truthy] at h, fun h => by simp [Term.truthy] at h⟩
          obtain ⟨x, hx⟩ := sortedNames_snd h1 (t := t.p) ((ho.terms _).mem_iff.2 ((mem_pySet _ _).2 (List.mem_map.2 ⟨t, hmem, rfl⟩)))
          exact b2 _ hx t ((Graph.mem_match hG.inv ho.stmts _ _ _ _).2 ⟨ht, fun _ => hts, fun _ => rfl, fun h => by simp [Term.truthy] at h⟩)
      · refine .inr ?_
        obtain ⟨ts, v, t1, t2⟩ := hj
        obtain ⟨f1, f2, _, _⟩ := Begun.fits (ts := n.toks ++ ts) ⟨n, ts, rfl, t1⟩
        refine ⟨n.toks ++ ts ++ [.str v], fitsAll_append f1 ⟨by rcases f2 with e | e <;> rw [e] <;> simp [CtxFits], trivial⟩, ?_, fun r => ?_⟩
        · rw [ctxAfter, List.foldl_append]
          show nextCtx (ctxAfter .start (n.toks ++ ts)) (.str v) = .lit
          rcases f2 with e | e <;> rw [e] <;> rfl
        · have e : (sname ++ [32] ++ Y ++ spaces (sname.length + 1) ++ [46, 10, 10] ++ r : PStr) = (sname ++ [32]) ++ (Y ++ (spaces (sname.length + 1) ++ ([46, 10, 10] ++ r))) := by simp
          rw [e, List.append_assoc]
          exact hsn1 _ Jams.reads _ _ (t2 _)

theorem subjsText_jam (ho : Orders.OK o) (hG : TypedGraph nl m (base.getD []) g) : ∀ (ss : List (PStr × Term)) {nm : Names} {st' : SerSt} {X : PStr}, NInv namer nm →
    (∀ e ∈ ss, ∃ n : NodeTok, Frag n.toks e.1) → subjsText o c fuel g ⟨m, base, namer⟩ ⟨w, nm⟩ ss = .ok (st', X) →
    (∀ e ∈ ss, ∀ t ∈ g.triples, t.s = e.2 → ¬ OtherType t.o) ∨ Stuck X
  | [], nm, st', X, hn, _, h => .inl (by simp)
  | (sname, s) :: ss, nm, st', X, hn, hss, h => by
    rw [subjsText] at h
    cases h1 : subjText o c fuel g ⟨m, base, namer⟩ ⟨w, nm⟩ sname s with
    | error e => rw [h1] at h; cases h
    | ok r =>
      obtain ⟨⟨w1, nm1⟩, x⟩ := r
      rw [h1] at h
      dsimp only at h
      obtain ⟨a1, a2, a3⟩ := subjText_jam hm hsn hl ho hG (hss _ (List.mem_cons_self ..)) hn h1
      dsimp only at a1 a2
      subst w1
      cases h2 : subjsText o c fuel g ⟨m, base, namer⟩ ⟨w, nm1⟩ ss with
      | error e => rw [h2] at h; cases h
      | ok r =>
        obtain ⟨st2, Y⟩ := r
        rw [h2] at h
        cases h
        rcases a3 with ⟨b1, b2⟩ | hj
        · rcases subjsText_jam ho hG ss a2 (fun e he => hss e (List.mem_cons_of_mem _ he)) h2 with d | d
          · refine .inl fun e he => ?_
            rcases List.mem_cons.1 he with rfl | he
            · exact b2
            · exact d e he
          · exact .inr (b1.stuck d)
        · exact .inr (hj.append _)

end

theorem blocks_header {m : PrefixMap} {base : Option PStr} (h : ∀ e ∈ m, PnPrefix e.1 ∧ LegalIri e.2) (hb : LegalIri (base.getD [])) : Blocks (header base m) :=
  ⟨_, whole_decls base m, fun _ hP _ _ hp => header_frag_at hP h hb hp⟩

theorem written_stuck {nl : PStr → Bool} {m : PrefixMap} {base : Option PStr} (hm : SafeProfile m) (hb : LegalIri (base.getD [])) {namer : Namer} (hsn : ∀ f, namer = some f → SafeNamer f)
    {g : Graph} (hG : TypedGraph nl m (base.getD []) g) {o : Orders} (ho : Orders.OK o) {w : World} {fuel : Nat}
    (hr : resolveKey w listC (py! "rdf:rest") = .ok (some (Heap.rdfNs ++ py! "rest"))) {text : PStr} (h : serializeTurtle o w fuel g base (some m) namer = .ok text)
    {t : Stmt} (ht : t ∈ g.triples) (hto : OtherType t.o) : Stuck text := by
  have hno : ∀ t ∈ g.triples, t.p ≠ .named (Heap.rdfNs ++ py! "rest") := fun t ht h => by
    obtain ⟨j, h1, _, h2⟩ := hG.pred t ht
    rw [h] at h1; cases h1; exact h2 rfl
  have hl := isList_false hno hG.inv ho.stmts hr
  simp only [serializeTurtle, Option.getD_some, plainSubjects_all g.subjects fun x _ => hl x] at h
  cases h1 : sortedNames ⟨m, base, namer⟩ {} g.subjects with
  | error e => rw [h1] at h; cases h
  | ok r =>
    obtain ⟨nm, ss⟩ := r
    rw [h1] at h
    dsimp only at h
    obtain ⟨hn, hss⟩ := sortedNames_word (nl := nl) hm hsn (NInv.empty namer) (fun s hs => by
      rcases hG.subj s hs with ⟨i, rfl, hi⟩ | ⟨k, rfl⟩
      · exact ⟨.iri hi, by simp⟩
      · exact ⟨.bnode, by simp⟩) h1
    cases h2 : subjsText o listC fuel g ⟨m, base, namer⟩ ⟨w, nm⟩ ss with
    | error e => rw [h2] at h; cases h
    | ok r =>
      obtain ⟨st, X⟩ := r
      rw [h2] at h
      cases h
      refine (blocks_header hm.names hb).stuck ((subjsText_jam hm hsn hl ho hG ss hn (fun e he => (hss e he).2) h2).resolve_left fun hall => ?_)
      obtain ⟨x, hx⟩ := sortedNames_snd h1 (t := t.s) (Idx.mem_keys_of_find ((hG.inv.spo _ _ _ t).2 ⟨ht, rfl, rfl, rfl⟩))
      exact hall _ hx t ht rfl hto

/-! ### C156 -/

/-- Full statement of C156: whatever is written, of a graph of well-formed triples and by the defaults, is read without an error. -/
def C156_statement : Prop := ∀ (nl : PStr → Bool) (u : Term) (ops : List Verif.Spec.GOp) (o : Orders) (fuel : Nat) (text : PStr), Orders.OK o → (∀ t ∈ everAdded ops, WellFormed t) →
  serializeTurtle o World.new fuel (Graph.run u ops) = .ok text → ∀ n, ∃ n' ts, parseText nl [] n text = .ok (n', ts)

/-- A date, as it is written. -/
theorem C156_date : serializeTurtle {} World.new 0 (Graph.run .none [.add ⟨.named (py! "x:s"), .named (py! "x:p"), .lit (py! "2013-04-05") none (some (xsd (py! "date")))⟩]) =
    .ok (py! "@prefix xsd: <http://www.w3.org/2001/XMLSchema#> .\n<x:s> <x:p> \"2013-04-05\"^xsd:date ;\n      .\n\n") ∧
  parseText (fun _ => true) [] 0 (py! "@prefix xsd: <http://www.w3.org/2001/XMLSchema#> .\n<x:s> <x:p> \"2013-04-05\"^xsd:date ;\n      .\n\n") = .error .unexpectedInput := ⟨rfl, rfl⟩

theorem C156_refuted : ¬ C156_statement := by
  intro h
  obtain ⟨n', ts, e⟩ := h (fun _ => true) .none _ {} 0 _ Orders.OK.default (by
    intro t ht
    simp [everAdded] at ht
    subst ht
    exact ⟨.inl ⟨_, rfl⟩, ⟨_, rfl⟩, .inr (.inr ⟨_, _, _, rfl⟩)⟩) C156_date.1 0
  rw [C156_date.2] at e
  cases e

/-- A triple of terms that can be written, or whose object is a literal of another datatype. -/
def TypedTri (nl : PStr → Bool) (m : PrefixMap) (b : PStr) (t : Verif.Spec.Tri) : Prop :=
  ((∃ i, t.s = .named i ∧ SafeIriAt nl m b i) ∨ ∃ k, t.s = .bnode k) ∧ (∃ i, t.p = .named i ∧ SafeIriAt nl m b i ∧ i ≠ Heap.rdfNs ++ py! "rest") ∧
    (Nameable nl m b t.o ∨ OtherType t.o)

theorem typedGraph_run {nl : PStr → Bool} {m : PrefixMap} {b : PStr} (u : Term) {ops : List Verif.Spec.GOp} (hs : ∀ t ∈ everAdded ops, TypedTri nl m b t) : TypedGraph nl m b (Graph.run u ops) := by
  have rep := Graph.rep_run u ops
  have key : ∀ x ∈ (Graph.run u ops).triples, ∃ t, TypedTri nl m b t ∧ x = t.stmt := fun x hx => by
    obtain ⟨t, ht, rfl⟩ := (rep.mem x).1 hx
    exact ⟨t, hs t (runSet_everAdded t ht), rfl⟩
  refine ⟨rep.inv, fun x hx => ?_, fun x hx => ?_, fun x hx => ?_⟩
  · obtain ⟨t, ht, rfl⟩ := ((C04_lists_ever_added u ops).1.2 x).1 hx
    exact (hs t ht).1
  · obtain ⟨t, ht, rfl⟩ := key x hx; exact ht.2.1
  · obtain ⟨t, ht, rfl⟩ := key x hx; exact ht.2.2

/-- One literal of another datatype makes the whole document unreadable: whatever else the graph has, and whatever history, base, prefixes, names and orders, what is written is
    rejected, and nothing is added to the graph it is read into. -/
theorem C156_unreadable {nl : PStr → Bool} {m : PrefixMap} {base : Option PStr} (hm : SafeProfile m) (hb : LegalIri (base.getD [])) {namer : Namer} (hsn : ∀ f, namer = some f → SafeNamer f)
    (u : Term) {ops : List Verif.Spec.GOp} (hs : ∀ t ∈ everAdded ops, TypedTri nl m (base.getD []) t) {o : Orders} (ho : Orders.OK o) {w : World} {fuel : Nat}
    (hr : resolveKey w listC (py! "rdf:rest") = .ok (some (Heap.rdfNs ++ py! "rest"))) {text : PStr}
    (h : serializeTurtle o w fuel (Graph.run u ops) base (some m) namer = .ok text) (hto : ∃ t ∈ Verif.Spec.runSet ops, OtherType t.o) :
    ∃ e, ∀ (nl' : PStr → Bool) (b' : PStr) (n : Nat) (g : Graph), parse (fun g t => g.add t) nl' b' n g (.str text) = (g, n, .error e) := by
  obtain ⟨t, ht, hto⟩ := hto
  obtain ⟨e, he⟩ := (written_stuck hm hb hsn (typedGraph_run u hs) ho hr h (t := t.stmt) (((Graph.rep_run u ops).mem _).2 ⟨t, ht, rfl⟩) hto).rejected
  exact ⟨e, fun nl' b' n g => by rw [parse, parseText, he]⟩

/-- What is written is read exactly if the graph has no literal of another datatype: for graphs of IRIs that can be written, blank nodes, strings, numbers, booleans and literals of
    other datatypes. -/
theorem C156_exact {nl : PStr → Bool} {m : PrefixMap} {base : Option PStr} (hm : SafeProfileAt nl m (base.getD [])) {f : Nat → PStr} (hf : SafeNamer f)
    (u : Term) {ops : List Verif.Spec.GOp} (hs : ∀ t ∈ everAdded ops, TypedTri nl m (base.getD []) t) (live : ∀ t ∈ everAdded ops, ∃ t' ∈ Verif.Spec.runSet ops, t'.s = t.s)
    {o : Orders} (ho : Orders.OK o) {w : World} {fuel : Nat} (hr : resolveKey w listC (py! "rdf:rest") = .ok (some (Heap.rdfNs ++ py! "rest"))) {text : PStr}
    (h : serializeTurtle o w fuel (Graph.run u ops) base (some m) (some f) = .ok text) (n : Nat) :
    (∃ n' ts, parseText nl [] n text = .ok (n', ts)) ↔ ∀ t ∈ Verif.Spec.runSet ops, ¬ OtherType t.o := by
  constructor
  · rintro ⟨n', ts, e⟩ t ht hto
    obtain ⟨e1, h1⟩ := C156_unreadable hm.toSafeProfile hm.baseLegal (fun f' e => by cases e; exact hf) u hs ho hr h ⟨t, ht, hto⟩
    have := h1 nl [] n (Graph.new .none)
    rw [parse, e] at this
    cases (Prod.mk.inj (Prod.mk.inj this).2).2
  · intro hno
    have hg : SafeGraphAt nl m (base.getD []) (some f) (Graph.run u ops) := safeGraphAt_run u ops (fun t ht => by
      obtain ⟨h1, h2, h3⟩ := hs t (runSet_everAdded t ht)
      refine ⟨?_, h2, ?_⟩
      · rcases h1 with h1 | h1
        · exact .inl h1
        · exact .inr ⟨h1, f, rfl, hf⟩
      · have key : ∀ x, Nameable nl m (base.getD []) x → TextNodeAt nl m (base.getD []) (some f) x := fun x hx => by
          cases hx with
          | iri h => exact .iri h
          | lit h => exact .lit h
          | bnode => exact .bnode rfl hf
        exact key _ (h3.resolve_right (hno t ht))) live
    obtain ⟨text', h1, h2⟩ := written_is_read hm hg ho (w := w) fuel hr
    rw [h] at h1
    cases h1
    obtain ⟨n', ts, _, h3, _⟩ := h2 n
    exact ⟨n', ts, h3⟩

/-! A graph that meets the hypotheses: an integer, a blank node, and a date. -/

def exDate : List Verif.Spec.GOp :=
  [.add ⟨.bnode 7, .named (py! "x:p"), .lit (py! "12") none (some (xsd (py! "integer")))⟩, .add ⟨.named (py! "http://e/a#b"), .named (py! "x:p"), .bnode 7⟩,
   .add ⟨.named (py! "http://e/a#b"), .named (py! "x:p"), .lit (py! "2013-04-05") none (some (xsd (py! "date")))⟩]

theorem exDate_typed : ∀ t ∈ everAdded exDate, TypedTri (fun _ => true) defaultPrefixes exBase.text t := by
  intro t ht
  simp [exDate, everAdded] at ht
  have hp : SafeIriAt (fun _ => true) defaultPrefixes exBase.text (py! "x:p") := safe_short_at (by decide) (by unfold LegalIri; decide) (by decide)
    (fun _ => joins_alone exBase_good (alone_x 112 (by decide))) (fun rest e => by
      have := congrArg List.head? e
      rw [exBase_text] at this
      cases this)
  have hb : SafeIriAt (fun _ => true) defaultPrefixes exBase.text (py! "http://e/a#b") := safe_short_at (by decide) (by unfold LegalIri; decide) (by decide)
    (fun h => absurd (by decide) h) (fun rest e => by
      have : rest.length = 1 := by have := congrArg List.length e; rw [exBase_text] at this; simp at this; omega
      intro hi
      have := hi.length_le
      rw [exBase_text] at this
      simp at this
      omega)
  rcases ht with rfl | rfl | rfl
  · refine ⟨.inr ⟨_, rfl⟩, ⟨_, rfl, hp, by decide⟩, .inl (.lit (.safe (.integer ?_)))⟩
    exact .integer (sg := []) (ds := py! "12") (.inl rfl) (by unfold Digits; simp [isDigitChar]) (by decide)
  · exact ⟨.inl ⟨_, rfl, hb⟩, ⟨_, rfl, hp, by decide⟩, .inl .bnode⟩
  · exact ⟨.inl ⟨_, rfl, hb⟩, ⟨_, rfl, hp, by decide⟩, .inr (.mk (by unfold Clean; decide) (by decide))⟩

example := C156_exact (base := some exBase.text) exProfile exNamer_safe .none exDate_typed (by decide) Orders.OK.default (w := World.new) (fuel := 0) resolveKey_rest
  (text := py! "@base <http://e/a#> .\n@prefix xsd: <http://www.w3.org/2001/XMLSchema#> .\n<#b> <x:p> _:b0,\n           \"2013-04-05\"^xsd:date ;\n     .\n\n_:b0 <x:p> 12 ;\n     .\n\n") rfl 0

end Verif.Turtle
