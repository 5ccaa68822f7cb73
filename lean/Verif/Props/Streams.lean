import Verif.Props.NTParse
/-
C39 for every readable text: what a stream of it gives.
-/
namespace Verif
open Spec

theorem first_eol (u : PStr) : NoEol u ∨ ∃ l e v, u = l ++ e :: v ∧ NoEol l ∧ isEol e = true := by
  induction u with
  | nil => exact Or.inl (fun c hc => by cases hc)
  | cons c u ih =>
    cases hc : isEol c with
    | true => exact Or.inr ⟨[], c, u, rfl, fun c hc => (by cases hc), hc⟩
    | false =>
      rcases ih with h | ⟨l, e, v, rfl, h1, h2⟩
      · exact Or.inl fun d hd => by rcases List.mem_cons.1 hd with rfl | hd; exacts [hc, h d hd]
      · exact Or.inr ⟨c :: l, e, v, rfl, fun d hd => by rcases List.mem_cons.1 hd with rfl | hd; exacts [hc, h1 d hd], h2⟩

/-- A statement ends before the next end of line, so before any of them. -/
theorem pStmt_stop {q : Bool} {u : PStr} {st : RStmt} {r' : PStr} (rest : PStr) (h : pStmt q (u ++ 10 :: rest) = .ok (st, r')) :
    ∃ v, r' = v ++ 10 :: rest ∧ ∀ rest', pStmt q (u ++ 10 :: rest') = .ok (st, v ++ 10 :: rest') := by
  rcases first_eol u with hu | ⟨l, e, v, rfl, hl, he⟩
  · rw [(pStmt_local q).loc 10 rfl _ _ hu] at h
    cases hp : pStmt q u with
    | error x => rw [hp] at h; cases h
    | ok x =>
      rw [hp] at h
      cases h
      exact ⟨x.2, rfl, fun rest' => by rw [(pStmt_local q).loc 10 rfl _ _ hu, hp]; rfl⟩
  · rw [List.append_assoc, List.cons_append, (pStmt_local q).loc e he _ _ hl] at h
    cases hp : pStmt q l with
    | error x => rw [hp] at h; cases h
    | ok x =>
      rw [hp] at h
      cases h
      refine ⟨x.2 ++ e :: v, by simp, fun rest' => ?_⟩
      rw [List.append_assoc, List.cons_append, (pStmt_local q).loc e he _ _ hl, hp]
      simp [Except.map]

/-- After an end of line the rest of a document is a document. -/
theorem afterEol_doc {q : Bool} {n : Nat} {rest : PStr} {rs : List RStmt} (hn : rest.length < n)
    (h : (match skipWs (rest.dropWhile isEol) with
        | [] => .ok []
        | t =>
          match pStmt q t with
          | .error e => .error e
          | .ok (st, r') => (pTail q n r').map (st :: ·) : Except Exc (List RStmt)) = .ok rs) : pDoc q rest = .ok rs := by
  unfold pDoc
  cases rest with
  | nil => exact h
  | cons c r =>
    cases hc : isEol c with
    | true =>
      have hs : skipWs (c :: r) = c :: r := by
        rcases isEol_iff.1 hc with rfl | rfl <;> simp [skipWs, isWs]
      rw [hs]
      simp only [hc, if_true]
      rw [pTail, hs]
      simp only [hc, if_true]
      rw [List.dropWhile_cons, if_pos hc] at h
      revert h
      cases ht : skipWs (r.dropWhile isEol) with
      | nil => exact id
      | cons d t =>
        dsimp only
        cases hp : pStmt q (d :: t) with
        | error x => exact id
        | ok x =>
          obtain ⟨st, r'⟩ := x
          dsimp only
          intro h
          have h1 := pStmt_shorter hp
          have h2 := (skipWs_suffix (List.dropWhile isEol r)).length_le
          have h3 := (List.dropWhile_suffix (l := r) isEol).length_le
          rw [ht] at h2
          simp only [List.length_cons] at h1 h2 hn
          rw [pTail_fuel q _ n r' (by simp only [List.length_cons]; omega) (by omega)]
          exact h
    | false =>
      rw [List.dropWhile_cons, hc] at h
      simp only [Bool.false_eq_true, if_false] at h
      revert h
      have h4 := (skipWs_suffix (c :: r)).length_le
      cases hk : skipWs (c :: r) with
      | nil => exact id
      | cons d t =>
        dsimp only
        rw [hk] at h4
        cases hp : pStmt q (d :: t) with
        | error x => intro h; cases h
        | ok x =>
          obtain ⟨st, r'⟩ := x
          have hd : isEol d = false := by
            cases hd : isEol d with
            | false => rfl
            | true =>
              have h0 := (pStmt_local q).loc d hd [] t (fun c hc => by cases hc)
              rw [List.nil_append, hp] at h0
              have hnil : ∀ x, pStmt q [] ≠ .ok x := by
                intro x hx
                have := pStmt_shorter hx
                simp at this
              cases h5 : pStmt q [] with
              | error y => rw [h5] at h0; cases h0
              | ok y => exact absurd h5 (hnil y)
          simp only [hd, Bool.false_eq_true, if_false]
          intro h
          have h1 := pStmt_shorter hp
          simp only [List.length_cons] at h1 h4 hn
          rw [pTail_fuel q _ n r' (by simp only [List.length_cons]; omega) (by omega)]
          exact h

theorem dropWhile_split (u rest : PStr) :
    ((∀ c ∈ u, isEol c = true) ∧ (u ++ 10 :: rest).dropWhile isEol = rest.dropWhile isEol) ∨
    ∃ v, v ≠ [] ∧ v <:+ u ∧ ∀ rest', (u ++ 10 :: rest').dropWhile isEol = v ++ 10 :: rest' := by
  induction u with
  | nil => left; exact ⟨fun c hc => (by cases hc), by simp [isEol]⟩
  | cons c u ih =>
    cases hc : isEol c with
    | true =>
      simp only [List.cons_append, List.dropWhile_cons, hc, if_true]
      rcases ih with ⟨h1, h2⟩ | ⟨v, h1, h2, h3⟩
      · left; exact ⟨fun d hd => by rcases List.mem_cons.1 hd with rfl | hd; exacts [hc, h1 d hd], h2⟩
      · right; exact ⟨v, h1, h2.trans (List.suffix_cons c u), h3⟩
    | false =>
      right
      exact ⟨c :: u, by simp, List.suffix_refl _, fun rest' => by simp [List.dropWhile_cons, hc]⟩

/-- The statements after the first one up to a line feed, and the document after it. -/
theorem pTail_split {q : Bool} (n : Nat) : ∀ {u rest : PStr} {rs : List RStmt}, (u ++ 10 :: rest).length < n → pTail q n (u ++ 10 :: rest) = .ok rs →
    ∃ a b, pTail q n (u ++ [10]) = .ok a ∧ pDoc q rest = .ok b ∧ rs = a ++ b := by
  induction n with
  | zero => intro u rest rs hn; omega
  | succ n ih =>
    intro u rest rs hn h
    rw [pTail, skipWs_local (e := 10) rfl] at h
    rw [pTail, skipWs_local (e := 10) rfl]
    have hsuf := (skipWs_suffix u).length_le
    simp only [List.length_append, List.length_cons] at hn
    cases hk : skipWs u with
    | nil =>
      rw [hk] at h
      simp only [List.nil_append, show isEol 10 = true from rfl, if_true] at h ⊢
      refine ⟨[], rs, ?_, afterEol_doc (n := n) (by omega) h, rfl⟩
      simp [skipWs]
    | cons c u' =>
      rw [hk] at h hsuf
      simp only [List.length_cons] at hsuf
      simp only [List.cons_append] at h ⊢
      cases hc : isEol c with
      | false => rw [hc] at h; simp at h
      | true =>
        rw [hc] at h
        simp only [if_true] at h ⊢
        rcases dropWhile_split u' rest with ⟨h1, h2⟩ | ⟨v, h1, h2, h3⟩
        · rw [h2] at h
          refine ⟨[], rs, ?_, afterEol_doc (n := n) (by omega) h, rfl⟩
          have : (u' ++ [10]).dropWhile isEol = [] := by
            have := dropWhile_eols (es := u' ++ [10]) (rest := []) (fun d hd => by
              rcases List.mem_append.1 hd with hd | hd
              · exact h1 d hd
              · rw [List.mem_singleton.1 hd]; rfl) starts_nil
            rwa [List.append_nil] at this
          rw [this]; simp [skipWs]
        · rw [h3, skipWs_local (e := 10) rfl] at h
          rw [h3, skipWs_local (e := 10) rfl]
          have hv := h2.length_le
          have hv2 := (skipWs_suffix v).length_le
          obtain ⟨d, t, hdt⟩ : ∃ (d : Nat) (t : PStr → PStr), ∀ r, skipWs v ++ 10 :: r = d :: t r := by
            cases skipWs v with
            | nil => exact ⟨10, id, fun r => rfl⟩
            | cons d t => exact ⟨d, fun r => t ++ 10 :: r, fun r => rfl⟩
          rw [hdt] at h
          rw [hdt]
          dsimp only at h ⊢
          rw [← hdt] at h
          rw [← hdt]
          cases hp : pStmt q (skipWs v ++ 10 :: rest) with
          | error x => rw [hp] at h; cases h
          | ok x =>
            obtain ⟨st, r'⟩ := x
            rw [hp] at h
            dsimp only at h
            obtain ⟨z, rfl, hz⟩ := pStmt_stop rest hp
            have hl := pStmt_shorter hp
            rw [hz]
            dsimp only
            simp only [List.length_append, List.length_cons] at hl
            cases ht : pTail q n (z ++ 10 :: rest) with
            | error x => rw [ht] at h; cases h
            | ok ts =>
              rw [ht] at h
              cases h
              obtain ⟨a, b, e1, e2, rfl⟩ := ih (by simp only [List.length_append, List.length_cons]; omega) ht
              exact ⟨st :: a, b, by rw [e1]; rfl, e2, rfl⟩

/-- A document up to a line feed, and the document after it. -/
theorem pDoc_split {q : Bool} {u rest : PStr} {rs : List RStmt} (h : pDoc q (u ++ 10 :: rest) = .ok rs) :
    ∃ a b, pDoc q (u ++ [10]) = .ok a ∧ pDoc q rest = .ok b ∧ rs = a ++ b := by
  unfold pDoc at h
  rw [skipWs_local (e := 10) rfl] at h
  have hsuf := (skipWs_suffix u).length_le
  have hd : pDoc q (u ++ [10]) = match skipWs u ++ [10] with
      | [] => .ok []
      | c :: r =>
        if isEol c then pTail q ((u ++ [10]).length + 1) (c :: r)
        else
          match pStmt q (c :: r) with
          | .error e => .error e
          | .ok (st, r') => (pTail q ((u ++ [10]).length + 1) r').map (st :: ·) := by
    rw [← skipWs_local (e := 10) rfl]; rfl
  rw [hd]
  cases hk : skipWs u with
  | nil =>
    rw [hk] at h
    simp only [List.nil_append, show isEol 10 = true from rfl, if_true] at h ⊢
    obtain ⟨a, b, e1, e2, e3⟩ := pTail_split (u := []) _ (by simp only [List.nil_append, List.length_append, List.length_cons]; omega) h
    exact ⟨a, b, by rw [← e1]; exact pTail_fuel _ _ _ _ (by simp) (by simp only [List.length_append, List.length_cons, List.length_nil]; omega), e2, e3⟩
  | cons c r =>
    rw [hk] at h hsuf
    simp only [List.length_cons] at hsuf
    simp only [List.cons_append] at h ⊢
    cases hc : isEol c with
    | true =>
      rw [hc] at h
      simp only [if_true] at h ⊢
      obtain ⟨a, b, e1, e2, e3⟩ := pTail_split (u := c :: r) _ (by simp only [List.length_append, List.length_cons]; omega) h
      refine ⟨a, b, ?_, e2, e3⟩
      rw [← e1]
      exact pTail_fuel _ _ _ _ (by simp only [List.length_append, List.length_cons, List.length_nil]; omega)
        (by simp only [List.length_append, List.length_cons, List.length_nil]; omega)
    | false =>
      rw [hc] at h
      simp only [Bool.false_eq_true, if_false] at h ⊢
      rw [← List.cons_append] at h ⊢
      cases hp : pStmt q ((c :: r) ++ 10 :: rest) with
      | error x => rw [hp] at h; cases h
      | ok x =>
        obtain ⟨st, r'⟩ := x
        rw [hp] at h
        dsimp only at h
        obtain ⟨z, rfl, hz⟩ := pStmt_stop rest hp
        have hl := pStmt_shorter hp
        rw [hz]
        dsimp only
        simp only [List.length_append, List.length_cons] at hl
        cases ht : pTail q ((u ++ 10 :: rest).length + 1) (z ++ 10 :: rest) with
        | error x => rw [ht] at h; cases h
        | ok ts =>
          rw [ht] at h
          cases h
          obtain ⟨a, b, e1, e2, rfl⟩ := pTail_split _ (by simp only [List.length_append, List.length_cons]; omega) ht
          refine ⟨st :: a, b, ?_, e2, rfl⟩
          rw [pTail_fuel q _ ((u ++ 10 :: rest).length + 1) (z ++ [10]) (by simp only [List.length_append, List.length_cons, List.length_nil]; omega)
            (by simp only [List.length_append, List.length_cons, List.length_nil]; omega), e1]
          rfl

/-- A readable text: each line of it is readable, and together they hold its statements. -/
theorem pDoc_stream {q : Bool} (n : Nat) : ∀ {content : PStr} {rs : List RStmt}, content.length ≤ n → pDoc q content = .ok rs →
    ∃ rss, List.Forall₂ (fun l x => pDoc q l = .ok x) (splitLines content) rss ∧ rss.flatten = rs := by
  induction n with
  | zero =>
    intro content rs hn h
    obtain rfl : content = [] := List.length_eq_zero_iff.1 (by omega)
    cases h
    exact ⟨[], .nil, rfl⟩
  | succ n ih =>
    intro content rs hn h
    by_cases h10 : 10 ∈ content
    · obtain ⟨x, y, rfl, hx⟩ := first_lf h10
      obtain ⟨a, b, h1, h2, rfl⟩ := pDoc_split h
      obtain ⟨rss, h3, rfl⟩ := ih (by simp only [List.length_append, List.length_cons] at hn; omega) h2
      rw [splitLines_line hx]
      exact ⟨a :: rss, .cons h1 h3, rfl⟩
    · by_cases hne : content = []
      · subst hne; cases h; exact ⟨[], .nil, rfl⟩
      · rw [splitLines_last h10 hne]
        exact ⟨[rs], .cons h .nil, by simp⟩

variable {σ : Type}

theorem parseLines_outcome (add : σ → Stmt → σ) (q : Bool) {lines : List PStr} {rss : List (List RStmt)} (hl : ∀ l ∈ lines, l ≠ [])
    (h : List.Forall₂ (fun l x => pDoc q l = .ok x) lines rss) (st : BState) (sink : σ) :
    (parseLines add q st lines sink).2.2 = if ∀ x ∈ rss, x ≠ [] then .ok () else .error .runtimeError := by
  induction h generalizing st sink with
  | nil => simp [parseLines]
  | @cons l x ls xs h1 _ ih =>
    have := hl l (by simp)
    simp only [parseLines, this, if_false, h1]
    cases x with
    | nil => simp [BState.stmts]
    | cons r more =>
      simp only [BState.stmts]
      rw [ih fun l hl' => hl l (by simp [hl'])]
      simp

theorem parseLines_count (q : Bool) {lines : List PStr} {rss : List (List RStmt)} (hl : ∀ l ∈ lines, l ≠ [])
    (h : List.Forall₂ (fun l x => pDoc q l = .ok x) lines rss) (hne : ∀ x ∈ rss, x ≠ []) (st : BState) (acc : List Stmt) :
    (parseLines (fun l t => l ++ [t]) q st lines acc).1.length = acc.length + rss.length := by
  induction h generalizing st acc with
  | nil => simp [parseLines]
  | @cons l x ls xs h1 _ ih =>
    have := hl l (by simp)
    simp only [parseLines, this, if_false, h1]
    cases x with
    | nil => exact absurd rfl (hne [] (by simp))
    | cons r more =>
      simp only [BState.stmts]
      rw [ih (fun l hl' => hl l (by simp [hl'])) (fun x hx => hne x (by simp [hx]))]
      simp only [List.length_append, List.length_cons, List.length_nil]; omega

theorem stmts_length (st : BState) (rs : List RStmt) : (st.stmts rs).2.length = rs.length := by
  induction rs generalizing st with
  | nil => rfl
  | cons r rs ih => simp only [BState.stmts, List.length_cons, ih]

theorem parseLines_single (add : σ → Stmt → σ) (q : Bool) {lines : List PStr} {rss : List (List RStmt)} (hl : ∀ l ∈ lines, l ≠ [])
    (h : List.Forall₂ (fun l x => pDoc q l = .ok x) lines rss) (h1 : ∀ x ∈ rss, x.length = 1) (st : BState) (sink : σ) :
    parseLines add q st lines sink = ((st.stmts rss.flatten).2.foldl add sink, (st.stmts rss.flatten).1, .ok ()) := by
  induction h generalizing st sink with
  | nil => rfl
  | @cons l x ls xs h2 _ ih =>
    have := hl l (by simp)
    obtain ⟨r, rfl⟩ : ∃ r, x = [r] := List.length_eq_one_iff.1 (h1 x (by simp))
    simp only [parseLines, this, if_false, h2, BState.stmts]
    rw [ih (fun l hl' => hl l (by simp [hl'])) (fun x hx => h1 x (by simp [hx]))]
    simp only [List.flatten_cons, List.singleton_append, BState.stmts, List.foldl_cons]

theorem length_flatten_ge : ∀ {rss : List (List RStmt)}, (∀ x ∈ rss, x ≠ []) → rss.flatten.length = rss.length → ∀ x ∈ rss, x.length = 1
  | rss, hne, h => by
    have key : ∀ (rss : List (List RStmt)), (∀ x ∈ rss, x ≠ []) → rss.length ≤ rss.flatten.length := by
      intro rss
      induction rss with
      | nil => simp
      | cons x xs ih =>
        intro hne
        have h1 := ih fun y hy => hne y (by simp [hy])
        have h2 := List.length_pos_iff.2 (hne x (by simp))
        simp only [List.flatten_cons, List.length_append, List.length_cons]; omega
    induction rss with
    | nil => simp
    | cons x xs ih =>
      have h1 := key xs fun y hy => hne y (by simp [hy])
      have h2 := List.length_pos_iff.2 (hne x (by simp))
      simp only [List.flatten_cons, List.length_append, List.length_cons] at h
      intro y hy
      rcases List.mem_cons.1 hy with rfl | hy
      · omega
      · exact ih (fun y hy => hne y (by simp [hy])) (by omega) y hy

/-- Every text that is readable as a string: its lines (as a stream gives them) are readable and hold its statements. Reading it as a stream
    succeeds iff every line holds a statement, and raises RuntimeError otherwise. It has the effect of reading the string iff every line holds
    exactly one statement. -/
theorem C39_exact (q : Bool) (next : Nat) {content : PStr} {rs : List RStmt} (h : pDoc q content = .ok rs) :
    ∃ rss, List.Forall₂ (fun l x => pDoc q l = .ok x) (splitLines content) rss ∧ rss.flatten = rs ∧
      (∀ {σ : Type} (add : σ → Stmt → σ) (sink : σ),
        (parseStream add q next content sink).2.2 = if ∀ x ∈ rss, x ≠ [] then .ok () else .error .runtimeError) ∧
      ((∀ x ∈ rss, x.length = 1) → ∀ {σ : Type} (add : σ → Stmt → σ) (sink : σ), parseStream add q next content sink = parseString add q next content sink) ∧
      (parseStream (fun l t => l ++ [t]) q next content [] = parseString (fun l t => l ++ [t]) q next content [] → ∀ x ∈ rss, x.length = 1) := by
  obtain ⟨rss, h1, h2⟩ := pDoc_stream _ (Nat.le_refl _) h
  have hl : ∀ l ∈ splitLines content, l ≠ [] := splitLines_ne
  refine ⟨rss, h1, h2, fun add sink => parseLines_outcome add q hl h1 _ sink, fun hx _ add sink => ?_, fun he => ?_⟩
  · simp only [parseStream, parseString, h, parseLines_single add q hl h1 hx, h2]
  · have ho := parseLines_outcome (fun l t => l ++ [t]) q hl h1 { map := [], next := next } []
    have hne : ∀ x ∈ rss, x ≠ [] := by
      by_contra hc
      rw [if_neg hc] at ho
      have := congrArg (fun z => z.2.2) he
      simp only [parseStream, parseString, h, ho] at this
      cases this
    have hc := parseLines_count q hl h1 hne { map := [], next := next } []
    have := congrArg (fun z => z.1.length) he
    simp only [parseStream, parseString, h, hc] at this
    have hf : ∀ (ts acc : List Stmt), (ts.foldl (fun l t => l ++ [t]) acc).length = acc.length + ts.length := by
      intro ts
      induction ts with
      | nil => simp
      | cons t ts ih => intro acc; simp only [List.foldl_cons, ih, List.length_append, List.length_cons, List.length_nil]; omega
    rw [hf, stmts_length, ← h2] at this
    simp only [List.length_nil, Nat.zero_add] at this
    exact length_flatten_ge hne this.symm

/-- Two statements on one line, and a line for each of them. -/
example : (∃ rs, pDoc false (py! "<a> <b> <c> .\r<d> <e> <f> .\n") = .ok rs ∧ rs.length = 2) ∧
    splitLines (py! "<a> <b> <c> .\r<d> <e> <f> .\n") = [py! "<a> <b> <c> .\r<d> <e> <f> .\n"] ∧
    (parseStream (fun l t => l ++ [t]) false 0 (py! "<a> <b> <c> .\r<d> <e> <f> .\n") []).1.length = 1 :=
  ⟨⟨_, by rfl, by decide⟩, by decide, by decide⟩

end Verif
