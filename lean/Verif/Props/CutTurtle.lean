import Verif.Props.TurtleLex
import Verif.Props.TurtleList
import Verif.Model.TurtleOut
/-
What a beginning of a Turtle text reads as (C167).
-/
namespace Verif.Turtle
open Spec

/-- The property: a beginning of a Turtle text that is read (and has no blank nodes, whose identities could differ) raises and adds nothing, or is read as the first triples. -/
def C167_statement : Prop :=
  ∀ (nl : PStr → Bool) (base : PStr) (next : Nat) (text p : PStr) (ts : List Stmt), parse (fun l t => l ++ [t]) nl base next [] (.str text) = (ts, next, .ok ()) → p <+: text →
    (∃ e, parse (fun l t => l ++ [t]) nl base next [] (.str p) = ([], next, .error e)) ∨
    ∃ k n', parse (fun l t => l ++ [t]) nl base next [] (.str p) = (ts.take k, n', .ok ())

/-- The price 1.5, cut behind the point, is read as 1. -/
theorem C167_refuted : ¬ C167_statement := by
  intro h
  have h0 : parse (fun l t => l ++ [t]) (fun _ => true) [] 0 [] (.str (py! "<x:s> <x:p> 1.5 .")) =
      ([mkTriple (.named (py! "x:s")) (.named (py! "x:p")) (.lit (py! "1.5") none (some (Heap.xsdNs ++ py! "decimal")))], 0, .ok ()) := rfl
  have h1 : parse (fun l t => l ++ [t]) (fun _ => true) [] 0 [] (.str (py! "<x:s> <x:p> 1.")) =
      ([mkTriple (.named (py! "x:s")) (.named (py! "x:p")) (.lit (py! "1") none (some (Heap.xsdNs ++ py! "integer")))], 0, .ok ()) := rfl
  rcases h (fun _ => true) [] 0 _ (py! "<x:s> <x:p> 1.") _ h0 (by decide) with ⟨e, he⟩ | ⟨k, n', hk⟩
  · rw [h1] at he; cases he
  · rw [h1] at hk
    have := congrArg (·.1) hk
    dsimp only at this
    match k with
    | 0 => simp at this
    | k + 1 => revert this; simp; decide

/-- A graph with a price, and the file that `serialize_turtle` makes of it. -/
def priceGraph : Graph := Graph.new.add (mkTriple (.named (py! "x:s")) (.named (py! "x:p")) (.lit (py! "1.5") none (some (Heap.xsdNs ++ py! "decimal"))))

set_option maxRecDepth 8000 in
/-- **Also in the library's own files**: numbers are written without quotes, so what `serialize_turtle` wrote of a graph with the price 1.5, cut, is read as a graph with the price 1. -/
theorem C167_own_file : ∃ p text, p <+: text ∧ writeTurtle {} World.new 0 priceGraph = (text, .ok ()) ∧
    parse Graph.add (fun _ => true) [] 0 Graph.new (.str p) =
      (Graph.new.add (mkTriple (.named (py! "x:s")) (.named (py! "x:p")) (.lit (py! "1") none (some (Heap.xsdNs ++ py! "integer")))), 0, .ok ()) :=
  ⟨py! "@prefix xsd: <http://www.w3.org/2001/XMLSchema#> .\n<x:s> <x:p> 1.",
    py! "@prefix xsd: <http://www.w3.org/2001/XMLSchema#> .\n<x:s> <x:p> 1.5 ;\n      .\n\n", by decide, rfl, rfl⟩

/-- A text in a long string, cut within the string: the object was one string, and is now a list of two. -/
theorem C167_long_string :
    (parseTree (py! "<x:s> <x:p> (\"\"\"a\" ) . b\"\"\") .")) =
      .ok [.node (.iri (.ref (py! "x:s"))) (.last (.iri (.ref (py! "x:p"))) (.one (.coll (.cons (.leaf (.str (py! "a\" ) . b"))) .nil))) 0)] ∧
    (parseTree (py! "<x:s> <x:p> (\"\"\"a\" ) .")) =
      .ok [.node (.iri (.ref (py! "x:s"))) (.last (.iri (.ref (py! "x:p"))) (.one (.coll (.cons (.leaf (.str [])) (.cons (.leaf (.str (py! "a"))) .nil)))) 0)] :=
  ⟨rfl, rfl⟩

/-! ### Tokens -/

/-- **Documents one of which begins like the other**: if the tokens of one are the first tokens of the other, then its statements are the first statements of the other. -/
theorem docToks_first : ∀ (d' d : List PTStmt) {vs : List Tok}, docToks d = docToks d' ++ vs → d' <+: d
  | [], d, _, _ => List.nil_prefix
  | s' :: d', [], vs, h => by
    have : s'.toks = [] := by
      have h : [] = s'.toks ++ docToks d' ++ vs := h
      simp at h; exact h.1
    exact absurd this s'.toks_ne
  | s' :: d', s :: d, vs, h => by
    have h : s.toks ++ docToks d = s'.toks ++ (docToks d' ++ vs) := by rw [← List.append_assoc]; exact h
    have h1 := pStmt_complete s (2 * s.toks.length + 2 * s'.toks.length) (by omega) (docToks d)
    have h2 := pStmt_complete s' (2 * s.toks.length + 2 * s'.toks.length) (by omega) (docToks d' ++ vs)
    rw [h, h2] at h1
    injection h1 with h1
    injection h1 with e1 e2
    subst e1
    exact List.cons_prefix_cons.2 ⟨rfl, docToks_first d' d e2.symm⟩

/-- Proved part of C167: if the tokens of what is left are the first tokens of the text - the cut was not in a token - then it raises or is read as the first statements. The full claim is
    `C167_statement`. -/
theorem C167_tokens_partial {text p : PStr} {d : List PTStmt} {ts vs : List Tok} (h : parseTree text = .ok d) (hp : lex p = .ok ts) (ht : lex text = .ok (ts ++ vs)) :
    (∃ e, parseTree p = .error e) ∨ ∃ k, parseTree p = .ok (d.take k) := by
  cases hd : parseTree p with
  | error e => exact Or.inl ⟨e, rfl⟩
  | ok d' =>
    right
    unfold parseTree at h hd
    rw [hp] at hd; rw [ht] at h
    have e1 := (C93_exact _ _).1 hd
    have e2 := (C93_exact _ _).1 h
    have := docToks_first d' d (vs := vs) (by rw [← e2, e1])
    exact ⟨d'.length, by rw [← List.prefix_iff_eq_take.1 this]⟩

/-! ### Cuts before white space -/

theorem Stops.more {r z : PStr} (h : Stops r) (hz : ∃ c z', z = c :: z' ∧ isWhite c) : Stops (r ++ z) := by
  obtain ⟨c, z', rfl, hc⟩ := hz
  intro d hd
  induction r with
  | nil =>
    rw [List.nil_append, List.dropWhile_cons] at hd
    have : (c == 0x2E) = false := by rcases hc with rfl | rfl | rfl | rfl <;> rfl
    simp only [this, Bool.false_eq_true, if_false, List.head?_cons, Option.some.injEq] at hd
    subst hd
    rcases hc with rfl | rfl | rfl | rfl <;> simp [Spec.pnChars, Spec.pnCharsU, Spec.pnCharsBase, Spec.isDigitChar, Spec.isAlpha]
  | cons a r ih =>
    by_cases ha : (a == 0x2E) = true
    · have h' : Stops r := by
        intro x hx; apply h x
        rw [List.dropWhile_cons, if_pos ha]; exact hx
      rw [List.cons_append, List.dropWhile_cons, if_pos ha] at hd
      exact ih h' hd
    · rw [List.cons_append, List.dropWhile_cons, if_neg ha] at hd
      apply h d
      rw [List.dropWhile_cons, if_neg ha]
      simpa using hd

/-- What is plainly tokens ends neither in the middle of brackets nor of a name, if white space follows. -/
theorem MayFollow.more {t : Tok} {r z : PStr} (h : MayFollow t r) (hz : ∃ c z', z = c :: z' ∧ isWhite c) (hl : t = .lbr → ∃ c ∈ r, ¬ isWhite c) : MayFollow t (r ++ z) := by
  have hh : ∀ {P : Nat → Prop}, (∀ c, r.head? = some c → P c) → (∀ c, isWhite c → P c) → ∀ c, (r ++ z).head? = some c → P c := by
    intro P h1 h2 c hc
    cases r with
    | nil =>
      obtain ⟨x, z', rfl, hx⟩ := hz
      simp at hc; subst hc; exact h2 _ hx
    | cons a r => simp at hc; exact h1 c (by simp [hc])
  cases t with
  | iri i => cases i with
    | ref b => trivial
    | pname ns loc => exact Stops.more h hz
  | label l => exact Stops.more h hz
  | lang l => exact Stops.more h hz
  | num k t => exact Stops.more h hz
  | kwA => exact Stops.more h hz
  | bool t => exact Stops.more h hz
  | kwBase => exact Stops.more h hz
  | kwPrefix => exact Stops.more h hz
  | dot => exact hh h (by intro c hc; rcases hc with rfl | rfl | rfl | rfl <;> simp [Spec.isDigitChar])
  | str b =>
    have := hh (P := fun c => c ≠ 0x22 ∧ c ≠ 0x27) (fun c hc => ⟨fun e => h.1 (by rw [hc, e]), fun e => h.2 (by rw [hc, e])⟩)
      (by intro c hc; rcases hc with rfl | rfl | rfl | rfl <;> decide)
    exact ⟨fun e => (this _ e).1 rfl, fun e => (this _ e).2 rfl⟩
  | lbr =>
    obtain ⟨x, hx, hw⟩ := hl rfl
    intro u r' hu e
    rcases List.append_eq_append_iff.1 e with ⟨a, rfl, h2⟩ | ⟨a, rfl, h2⟩
    · exact hw (hu x (by simp [hx]))
    · cases a with
      | nil => simp at hx; exact hw (hu x hx)
      | cons b a =>
        simp only [List.cons_append, List.cons.injEq] at h2
        obtain ⟨rfl, -⟩ := h2
        exact h u a hu rfl
  | _ => trivial

theorem lexAll_more {z : PStr} (hz : ∃ c z', z = c :: z' ∧ isWhite c) : ∀ (n : Nat) (ctx : Ctx) {s : PStr} {ts us : List Tok}, FitsAll ctx ts → Plainly lark ts s → ts.getLast? ≠ some .lbr →
    lexAll n ctx (s ++ z) = .ok us → ∃ vs, us = ts ++ vs
  | 0, _, _, _, _, _, _, _, h => by cases h
  | n + 1, ctx, s, ts, us, hf, h, hl, hu => by
    cases h with
    | nil _ => exact ⟨us, rfl⟩
    | @cons u t w ts r hig ht hm hr =>
      have hlb : t = .lbr → ∃ c ∈ r, ¬ isWhite c := by
        rintro rfl
        cases hr with
        | nil _ => simp at hl
        | @cons u' t' w' ts' r' _ ht' _ _ =>
          obtain ⟨c, x, rfl, h1, _⟩ := TokText.head ht'
          refine ⟨c, by simp, ?_⟩
          intro hc
          rcases hc with rfl | rfl | rfl | rfl <;> simp [isWs] at h1
      have e := lexTok_complete hf.1 ht (MayFollow.more hm hz hlb)
      obtain ⟨c, w', rfl, h1, h2⟩ := TokText.head ht
      have e0 : skipIgn false (c :: w' ++ (r ++ z)) = c :: (w' ++ (r ++ z)) := by rw [List.cons_append, skipIgn, h1, if_neg h2]; simp
      have ea : u ++ (c :: w' ++ r) ++ z = u ++ (c :: w' ++ (r ++ z)) := by simp
      rw [List.cons_append] at e e0
      rw [ea, List.cons_append, lexAll, skipIgn_ignorable hig, e0] at hu
      simp only [e] at hu
      cases h3 : lexAll n (nextCtx ctx t) (r ++ z) with
      | error x => rw [h3] at hu; cases hu
      | ok us' =>
        rw [h3] at hu; cases hu
        have hl' : ts.getLast? ≠ some .lbr := by
          intro h4; apply hl
          cases ts with
          | nil => simp at h4
          | cons a ts => rw [List.getLast?_cons_cons]; exact h4
        obtain ⟨vs, rfl⟩ := lexAll_more hz n (nextCtx ctx t) hf.2 hr hl' h3
        exact ⟨vs, rfl⟩

theorem docToks_last (d : List PTStmt) : (docToks d).getLast? ≠ some .lbr := by
  intro h
  rw [List.getLast?_eq_some_iff] at h
  obtain ⟨ys, h⟩ := h
  rcases List.eq_nil_or_concat d with rfl | ⟨d, s, rfl⟩
  · simp [docToks] at h
  · simp only [List.concat_eq_append] at *
    have e : docToks (d ++ [s]) = docToks d ++ s.toks := by simp [docToks]
    have hs : ∃ y t, s.toks = y ++ [t] ∧ t ≠ .lbr := by
      cases s with
      | pre b ns i => 
        cases b
        · exact ⟨[_, _, _], _, rfl, by simp⟩
        · exact ⟨[_, _], _, rfl, by simp⟩
      | base b i => 
        cases b
        · exact ⟨[_, _], _, rfl, by simp⟩
        · exact ⟨[_], _, rfl, by simp⟩
      | node s p => exact ⟨_, _, rfl, by simp⟩
      | coll c p => exact ⟨_, _, rfl, by simp⟩
      | bnpl s => exact ⟨.lbr :: s.toks ++ [.rbr], .dot, by simp [TStmt.toks], by simp⟩
      | bnplPol s p => exact ⟨_, _, rfl, by simp⟩
    obtain ⟨y, t, hy, ht⟩ := hs
    rw [e, hy, ← List.append_assoc] at h
    have := List.append_inj_right' h rfl
    simp at this
    exact ht this

/-- Proved part of C167, for texts: if the cut is before white space, and what is left is plainly a document (it is clear where each token ends), then the statements of this document are the
    first statements of the text. -/
theorem C167_white_partial {p z : PStr} {d d' : List PTStmt} (h : parseTree (p ++ z) = .ok d) (hz : ∃ c z', z = c :: z' ∧ isWhite c) (hp : Plainly lark (docToks d') p) :
    parseTree p = .ok d' ∧ d' <+: d := by
  refine ⟨C96_exact hp, ?_⟩
  unfold parseTree lex at h
  cases hl : lexAll ((p ++ z).length + 1) .start (p ++ z) with
  | error e => rw [hl] at h; cases h
  | ok us =>
    rw [hl] at h
    obtain ⟨vs, rfl⟩ := lexAll_more hz _ .start (fits_doc d') hp (docToks_last d') hl
    have e2 := (C93_exact _ _).1 h
    exact docToks_first d' d e2.symm

/-- Non-vacuity: `<s><p><o>.` before a line that is cut away. -/
example : Plainly lark (docToks [.node (.iri (.ref (py! "s"))) (.last (.iri (.ref (py! "p"))) (.one (.leaf (.node (.iri (.ref (py! "o")))))) 0)]) (py! "<s><p><o>.") ∧
    ∃ d, parseTree (py! "<s><p><o>." ++ py! "\n<s> <p> 1.5 .") = .ok d ∧ d.length = 2 := by
  have hb : ∀ c, 0x20 < c → c ∉ py! "<>\"{}|^`\\" → TokText lark (.iri (.ref [c])) (0x3C :: ([c] ++ [0x3E])) := fun c h h' => .ref (.char h h' .nil)
  exact ⟨.cons (u := []) .nil (hb 115 (by decide) (by decide)) trivial <| .cons (u := []) .nil (hb 112 (by decide) (by decide)) trivial <|
    .cons (u := []) .nil (hb 111 (by decide) (by decide)) trivial <| .cons (u := []) (r := []) .nil .dot (by intro c h; cases h) <| .nil (.inl .nil), _, rfl, rfl⟩

/-! ### The triples -/

theorem evalStmts_app {nl : PStr → Bool} : ∀ (a b : List PTStmt) {st st' : TState} {es : List EStmt}, evalStmts nl st (a ++ b) = .ok (st', es) →
    ∃ st1 e1 e2, evalStmts nl st a = .ok (st1, e1) ∧ evalStmts nl st1 b = .ok (st', e2) ∧ es = e1 ++ e2
  | [], b, st, st', es, h => ⟨st, [], es, rfl, h, rfl⟩
  | x :: a, b, st, st', es, h => by
    rw [List.cons_append, evalStmts] at h
    cases hx : evalStmt nl st x with
    | error e => rw [hx] at h; cases h
    | ok r =>
      obtain ⟨s1, y⟩ := r
      rw [hx] at h; dsimp only at h
      cases hr : evalStmts nl s1 (a ++ b) with
      | error e => rw [hr] at h; cases h
      | ok r =>
        obtain ⟨s2, ys⟩ := r
        rw [hr] at h; cases h
        obtain ⟨st1, e1, e2, h1, h2, rfl⟩ := evalStmts_app a b hr
        exact ⟨st1, y :: e1, e2, by rw [evalStmts, hx]; dsimp only; rw [h1], h2, rfl⟩

theorem genStmts_app : ∀ (a b : List EStmt) (n : Nat), genStmts n (a ++ b) = ((genStmts (genStmts n a).1 b).1, (genStmts n a).2 ++ (genStmts (genStmts n a).1 b).2)
  | [], b, n => rfl
  | x :: a, b, n => by simp [genStmts, genStmts_app a b]

/-- The first statements of a text give its first triples, if the text has no blank nodes. -/
theorem parseText_first {nl : PStr → Bool} {base text p : PStr} {next : Nat} {d d' : List PTStmt} {ts : List Stmt} (h : parseText nl base next text = .ok (next, ts))
    (hd : parseTree text = .ok d) (hd' : parseTree p = .ok d') (hp : d' <+: d) : ∃ k, parseText nl base next p = .ok (next, ts.take k) := by
  obtain ⟨x, rfl⟩ := hp
  unfold parseText at h ⊢
  rw [hd] at h; rw [hd']; dsimp only at h ⊢
  cases he : evalStmts nl { base, prefixes := initialPrefixes, bn := { map := [], next } } (d' ++ x) with
  | error e => rw [he] at h; cases h
  | ok r =>
    obtain ⟨st', es⟩ := r
    rw [he] at h; dsimp only at h
    obtain ⟨st1, e1, e2, h1, h2, rfl⟩ := evalStmts_app d' x he
    obtain ⟨o1, a1, _, s1, _⟩ := evalStmts_in d' [] (At.start base next) (BState.OK.init next) h1
    obtain ⟨_, _, _, s2, _⟩ := evalStmts_in x _ a1 o1 h2
    have l1 : next ≤ st1.bn.next := s1.ext.1
    have l2 : st1.bn.next ≤ st'.bn.next := s2.ext.1
    have l3 := genStmts_le e1 st'.bn.next
    have l4 := genStmts_le e2 (genStmts st'.bn.next e1).1
    rw [genStmts_app] at h
    injection h with h
    injection h with k1 k2
    have q1 : st1.bn.next = next := by omega
    have q2 : st'.bn.next = next := by omega
    have q3 : (genStmts next e1).1 = next := by rw [q2] at l3 l4 k1; omega
    rw [q2] at k2
    refine ⟨(genStmts next e1).2.length, ?_⟩
    rw [h1]; dsimp only
    rw [q1, ← k2, List.take_left]
    exact congrArg _ (Prod.ext q3 rfl)

theorem foldl_keep {α : Type} : ∀ (ts l : List α), ts.foldl (fun l t => l ++ [t]) l = l ++ ts
  | [], l => by simp
  | t :: ts, l => by simp [foldl_keep ts]

/-- Proved part of C167, for the triples: `C167_statement` holds if the cut is not in a token, that is, if the tokens of what is left are the first tokens of the text. -/
theorem C167_triples_partial {nl : PStr → Bool} {base text p : PStr} {next : Nat} {ts : List Stmt} {us vs : List Tok}
    (h : parse (fun l t => l ++ [t]) nl base next [] (.str text) = (ts, next, .ok ())) (hp : lex p = .ok us) (ht : lex text = .ok (us ++ vs)) :
    (∃ e, parse (fun l t => l ++ [t]) nl base next [] (.str p) = ([], next, .error e)) ∨
    ∃ k, parse (fun l t => l ++ [t]) nl base next [] (.str p) = (ts.take k, next, .ok ()) := by
  have hx : parseText nl base next text = .ok (next, ts) := by
    unfold parse at h; dsimp only at h
    cases hq : parseText nl base next text with
    | error e => rw [hq] at h; cases h
    | ok r => obtain ⟨n, us⟩ := r; rw [hq] at h; dsimp only at h; rw [foldl_keep] at h; cases h; rfl
  cases hd : parseTree text with
  | error e => unfold parseText at hx; rw [hd] at hx; cases hx
  | ok d =>
    rcases C167_tokens_partial hd hp ht with ⟨e, he⟩ | ⟨k, hk⟩
    · left; exact ⟨e, by simp [parse, parseText, he]⟩
    · right
      obtain ⟨j, hj⟩ := parseText_first hx hd hk (List.take_prefix k d)
      exact ⟨j, by simp only [parse, hj, foldl_keep, List.nil_append]⟩

/-- Non-vacuity: two statements, cut behind the first; and within the second, but not in a token. -/
example : (∃ us vs, lex (py! "<x:s> <x:p> 1.5 .") = .ok us ∧ lex (py! "<x:s> <x:p> 1.5 . <x:s> <x:p> 2 .") = .ok (us ++ vs) ∧ vs.length = 4) ∧
    ∃ us vs, lex (py! "<x:s> <x:p> 1.5 . <x:s>") = .ok us ∧ lex (py! "<x:s> <x:p> 1.5 . <x:s> <x:p> 2 .") = .ok (us ++ vs) ∧ vs.length = 3 :=
  ⟨⟨[_, _, _, _], [_, _, _, _], rfl, rfl, rfl⟩, ⟨[_, _, _, _, _], [_, _, _], rfl, rfl, rfl⟩⟩

end Verif.Turtle
