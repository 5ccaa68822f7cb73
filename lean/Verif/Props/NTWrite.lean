import Verif.Props.NTTurtle
import Verif.Props.NTriples
import Verif.Props.Escape
/-
C111 (what is written as N-Triples is an N-Triples document that states the triples) and C112 (it can be read as Turtle).
-/
namespace Verif.NTTurtle
open NTSpec Turtle Verif.Spec

/-- Terms whose strings are sequences of Unicode scalar values (those of literals: code points), with a language tag of the form of BCP47 if any. -/
def Writable : Term → Prop
  | .named n => ∀ c ∈ n, scalarValue c
  | .lit v l d => v.Valid ∧ (∀ t, l = some t → t = [] ∨ LangWF t) ∧ ∀ t, d = some t → ∀ c ∈ t, scalarValue c
  | _ => True

def WritableStmt (t : Stmt) : Prop := t.IsRdf ∧ Writable t.s ∧ Writable t.p ∧ Writable t.o

theorem letter_alpha {c : Nat} : isLetter c = true ↔ NTSpec.isAlpha c := by simp [isLetter, NTSpec.isAlpha]

theorem langParts_append {D : Dialect} {s l : PStr} (h : NTSpec.LangParts D s) (hl : l ≠ []) (hc : ∀ c ∈ l, D.langChar c) : NTSpec.LangParts D (s ++ 0x2D :: l) := by
  induction h with
  | nil => simpa using NTSpec.LangParts.part hl hc .nil
  | part h1 h2 _ ih => rw [List.cons_append, List.append_assoc]; exact .part h1 h2 ih

theorem langTok_of_wf {C : Prop} {l : PStr} (h : LangWF l) : LangTok (turtle C) l := by
  induction h with
  | @primary l h1 h2 => exact ⟨l, [], by simp, h1, fun c hc => letter_alpha.1 (h2 c hc), .nil⟩
  | @sub t l _ h1 h2 ih =>
    obtain ⟨p, s, rfl, a1, a2, a3⟩ := ih
    refine ⟨p, s ++ 0x2D :: l, by simp, a1, a2, langParts_append a3 h1 fun c hc => ?_⟩
    rcases h2 c hc with h | h
    · exact .inl (letter_alpha.1 h)
    · exact .inr h

theorem keeps_iriBody {D : Dialect} {w : PStr} (h : ∀ c ∈ w, quoteKeeps c = true) : NTSpec.IriBody D w w := by
  induction w with
  | nil => exact .nil
  | cons c w ih =>
    have hc := h c (by simp)
    have : 0x20 < c ∧ c ∉ py! "<>\"{}|^`\\" := by
      simp only [quoteKeeps, reservedInIri, Bool.or_eq_true, decide_eq_true_eq, List.contains_eq_mem, List.mem_cons, List.not_mem_nil, or_false] at hc
      simp only [List.mem_cons, List.not_mem_nil, or_false, not_or]
      omega
    exact .char this.1 this.2 (ih fun x hx => h x (by simp [hx]))

theorem written_iri {D : Dialect} {n : PStr} (hn : ∀ c ∈ n, scalarValue c) (w r : PStr) (hw : Ws w) :
    NTSpec.Iri D (w ++ (([60] ++ n.flatMap quote1 ++ [62]) ++ r)) (n.flatMap quote1) r := by
  have := NTSpec.Iri.mk (D := D) (r := r) hw (keeps_iriBody (quoted_keeps n hn))
  simpa using this

theorem written_node {C : Prop} {t : Term} {x : PStr} (ht : Writable t) (hs : (∃ n, t = .named n) ∨ ∃ i, t = .bnode i) (hx : t.toNT = .ok x) {w : PStr} (hw : Ws w) (r : PStr) :
    NTSpec.Node (turtle C) (w ++ (x ++ 32 :: r)) (asRead t) (32 :: r) := by
  rcases hs with ⟨n, rfl⟩ | ⟨i, rfl⟩
  · simp only [Term.toNT, iriToNT_eq n ht] at hx
    cases hx
    exact .iri (written_iri ht w _ hw)
  · cases hx
    obtain ⟨c, l, h1, h2, h3⟩ := bnodeStr_letters i
    refine .label hw (label_longest ⟨c, l, h1, .inl (.inl (letter_alpha.1 h2)), fun y hy => .inl ⟨.inl (.inl (.inl (letter_alpha.1 (h3 y hy)))), ?_⟩, ?_⟩
      ⟨0, _, rfl, .inr ⟨_, _, rfl, turtle_label (.inl rfl)⟩⟩) trivial
    · have := h3 y hy; simp only [isLetter, decide_eq_true_eq] at this; omega
    · intro hl
      have := h3 _ (List.mem_of_getLast? hl)
      simp [isLetter] at this

theorem written_object {C : Prop} {t : Term} {x : PStr} (ht : Writable t) (hs : (∃ n, t = .named n) ∨ (∃ i, t = .bnode i) ∨ ∃ v l d, t = .lit v l d) (hx : t.toNT = .ok x) {w : PStr} (hw : Ws w)
    (r : PStr) : NTSpec.Object (turtle C) (w ++ (x ++ 32 :: r)) (asRead t) (32 :: r) := by
  have hs' : ((∃ n, t = .named n) ∨ ∃ i, t = .bnode i) ∨ ∃ v l d, t = .lit v l d := or_assoc.2 hs
  rcases hs' with hs | ⟨v, l, d, rfl⟩
  · exact .node (written_node ht hs hx hw r)
  · obtain ⟨hv, hl, hd⟩ := ht
    have body := ntBody_ntEscape v
    have den : Denotes (ntEscape v) (v.filter ntKept) := denotes_of_decode body (C19_decode_escape_exact v hv)
    have plain : ∀ r, NTSpec.Object (turtle C) (w ++ (([34] ++ ntEscape v ++ [34]) ++ r)) (.lit (v.filter ntKept) none none) r := by
      intro r
      have := NTSpec.Object.plain (D := turtle C) (r := r) hw body den
      simpa using this
    have nolang : (∀ c r, l ≠ some (c :: r)) → NTSpec.Object (turtle C) (w ++ (x ++ 32 :: r)) (asRead (.lit v l d)) (32 :: r) := by
      intro hne
      rcases d with _ | (_ | ⟨a, b⟩)
      · rcases l with _ | (_ | ⟨c, l⟩)
        · cases hx; exact plain _
        · cases hx; exact plain _
        · exact absurd rfl (hne c l)
      · rcases l with _ | (_ | ⟨c, l⟩)
        · cases hx; exact plain _
        · cases hx; exact plain _
        · exact absurd rfl (hne c l)
      · have hx' : x = [34] ++ ntEscape v ++ [34] ++ [94, 94] ++ ([60] ++ (a :: b).flatMap quote1 ++ [62]) := by
          have e := iriToNT_eq (a :: b) (hd _ rfl)
          rcases l with _ | (_ | ⟨c, l⟩)
          · simp only [Term.toNT, literalToNT, e, Except.map, Except.ok.injEq] at hx; exact hx.symm
          · simp only [Term.toNT, literalToNT, e, Except.map, Except.ok.injEq] at hx; exact hx.symm
          · exact absurd rfl (hne c l)
        have hr : asRead (.lit v l (some (a :: b))) = .lit (v.filter ntKept) none (some ((a :: b).flatMap quote1)) := by
          rcases l with _ | (_ | ⟨c, l⟩)
          · rfl
          · rfl
          · exact absurd rfl (hne c l)
        rw [hr, hx']
        have hi : NTSpec.Iri (turtle C) ([] ++ (([60] ++ (a :: b).flatMap quote1 ++ [62]) ++ 32 :: r)) ((a :: b).flatMap quote1) (32 :: r) := written_iri (hd _ rfl) [] _ (by simp [Ws])
        have := NTSpec.Object.typed (w' := []) hw body den (by simp [Ws]) hi
        simpa using this
    rcases l with _ | (_ | ⟨c, l⟩)
    · exact nolang (by simp)
    · exact nolang (by simp)
    · have hx' : x = [34] ++ ntEscape v ++ [34] ++ [64] ++ (c :: l) := by
        simp only [Term.toNT, literalToNT, Except.ok.injEq] at hx; exact hx.symm
      have hlw := (hl _ rfl).resolve_left (by simp)
      rw [hx']
      have := NTSpec.Object.lang (D := turtle C) (w' := []) (l := c :: l) (r := 32 :: r) hw body den (by simp [Ws])
        (lang_longest (D' := turtle C) (fun _ h => h) (langTok_of_wf hlw) ⟨_, _, rfl, .inl rfl⟩ fun h => h) trivial
      simpa [asRead] using this

theorem written_ok {t : Term} (ht : Writable t) (hs : (∃ n, t = .named n) ∨ (∃ i, t = .bnode i) ∨ ∃ v l d, t = .lit v l d) : ∃ x, t.toNT = .ok x := by
  rcases hs with ⟨n, rfl⟩ | ⟨i, rfl⟩ | ⟨v, l, d, rfl⟩
  · exact ⟨_, iriToNT_eq n ht⟩
  · exact ⟨_, rfl⟩
  · obtain ⟨_, _, hd⟩ := ht
    rcases l with _ | (_ | ⟨c, l⟩)
    · rcases d with _ | (_ | ⟨a, b⟩)
      · exact ⟨_, rfl⟩
      · exact ⟨_, rfl⟩
      · simp only [Term.toNT, literalToNT, iriToNT_eq (a :: b) (hd _ rfl)]; exact ⟨_, rfl⟩
    · rcases d with _ | (_ | ⟨a, b⟩)
      · exact ⟨_, rfl⟩
      · exact ⟨_, rfl⟩
      · simp only [Term.toNT, literalToNT, iriToNT_eq (a :: b) (hd _ rfl)]; exact ⟨_, rfl⟩
    · exact ⟨_, rfl⟩

theorem written_line {C : Prop} {t : Stmt} (h : WritableStmt t) :
    ∃ l, tripleStr t = .ok (l ++ [10]) ∧ ∀ r, NTSpec.Statement (turtle C) false (l ++ r) (asReadStmt t) r := by
  obtain ⟨hr, h1, h2, h3⟩ := h
  have hs : (∃ n, t.s = .named n) ∨ (∃ i, t.s = .bnode i) ∨ ∃ v l d, t.s = .lit v l d := hr.subj.elim .inl fun h => .inr (.inl h)
  obtain ⟨n, hn⟩ := hr.pred
  obtain ⟨a, ha⟩ := written_ok h1 hs
  obtain ⟨b, hb⟩ := written_ok h2 (.inl ⟨n, hn⟩)
  obtain ⟨c, hc⟩ := written_ok h3 hr.obj
  refine ⟨a ++ 32 :: (b ++ 32 :: (c ++ [32, 46])), ?_, fun r => ?_⟩
  · simp [tripleStr, ha, hb, hc, bind, Except.bind, pure, Except.pure]
  · have e1 := written_node (C := C) h1 hr.subj ha (w := []) (by simp [Ws]) (b ++ 32 :: (c ++ 32 :: 46 :: r))
    have e3 := written_object (C := C) h3 hr.obj hc (w := [32]) (by simp [Ws]) (46 :: r)
    rw [hn] at hb h2
    simp only [Term.toNT, iriToNT_eq n h2] at hb
    cases hb
    have e2 : NTSpec.Iri (turtle C) _ _ _ := written_iri h2 [32] (32 :: (c ++ 32 :: 46 :: r)) (by simp [Ws])
    have e4 : Dot (32 :: 46 :: r) r := .mk (w := [32]) (by simp [Ws])
    have hp : asReadStmt t = { s := asRead t.s, p := .iri (n.flatMap quote1), o := asRead t.o } := by rw [asReadStmt, hn]; rfl
    rw [hp]
    have := NTSpec.Statement.triple e1 (p := n.flatMap quote1) (r2 := 32 :: (c ++ 32 :: 46 :: r)) (by simpa using e2) (by simpa using e3) e4
    simpa using this

theorem written_rest {C : Prop} (ts : List Stmt) (h : ∀ t ∈ ts, WritableStmt t) :
    (serializeNTriples ts).2 = .ok () ∧ Rest (turtle C) false (10 :: (serializeNTriples ts).1) (ts.map asReadStmt) := by
  induction ts with
  | nil => exact ⟨rfl, .eol (w := []) (e := [10]) (w' := []) (.ws (by simp [Ws])) (.one (.inl rfl)) (.ws (by simp [Ws]))⟩
  | cons t ts ih =>
    obtain ⟨h1, h2⟩ := ih fun x hx => h x (by simp [hx])
    obtain ⟨l, a1, a2⟩ := written_line (C := C) (h t (by simp))
    simp only [serializeNTriples, a1]
    refine ⟨h1, ?_⟩
    have := Rest.next (w := []) (e := [10]) (.ws (by simp [Ws])) (.one (.inl rfl)) (a2 _) h2
    simpa using this

theorem written_doc {C : Prop} (ts : List Stmt) (h : ∀ t ∈ ts, WritableStmt t) :
    (serializeNTriples ts).2 = .ok () ∧ Doc (turtle C) false (serializeNTriples ts).1 (ts.map asReadStmt) := by
  cases ts with
  | nil => exact ⟨rfl, .rest (.eof (.ws (by simp [serializeNTriples, Ws])))⟩
  | cons t ts =>
    obtain ⟨h1, h2⟩ := written_rest (C := C) ts fun x hx => h x (by simp [hx])
    obtain ⟨l, a1, a2⟩ := written_line (C := C) (h t (by simp))
    simp only [serializeNTriples, a1]
    refine ⟨h1, ?_⟩
    have := Doc.first (a2 _) h2
    simpa using this

/-! ### C111 -/

theorem turtle_w3c : Sub (turtle False) NTSpec.w3c where
  gaps h := h
  comments h := h.elim
  noGraph h := h.elim
  bnodeGraph h := h.elim
  label l r h hl hr := by
    refine ⟨label_longest ?_ ?_, trivial⟩
    · obtain ⟨c, t, rfl, h1, h2, h3⟩ := h.1
      refine ⟨c, t, rfl, ?_, fun x hx => (h2 x hx).imp_left (·.1), h3⟩
      rcases h1 with h | h | h
      · exact .inl (.inl h)
      · exact .inl (.inr (.inl h))
      · exact .inr h
    · obtain ⟨c, t, rfl, hc⟩ := hr
      rcases hc with hc | hc | hc | ⟨rfl, ht⟩ | ⟨h, _⟩
      · exact ⟨0, _, rfl, .inr ⟨c, t, rfl, w3c_label_stop (by simp [hc])⟩⟩
      · exact ⟨0, _, rfl, .inr ⟨c, t, rfl, w3c_label_stop (by simp [hc])⟩⟩
      · exact ⟨0, _, rfl, .inr ⟨c, t, rfl, w3c_label_stop (by simp [hc])⟩⟩
      · exact ⟨1, t, rfl, ht.imp_right fun ⟨c, t, e, h⟩ => ⟨c, t, e, w3c_label_stop (by rcases h with h | h | h | h <;> simp [h])⟩⟩
      · exact h.elim
  lang l r h hl hr :=
    ⟨longest_congr (T := LangTok (turtle False)) (T' := LangTok NTSpec.w3c) (fun _ => ⟨fun h => langTok_map h fun _ _ h => h, fun h => langTok_map h fun _ _ h => h⟩) h, trivial⟩

theorem Writable.ntok {t : Term} (h : Writable t) (hs : (∃ n, t = .named n) ∨ (∃ i, t = .bnode i) ∨ ∃ v l d, t = .lit v l d) (f : PStr → Nat) :
    (asRead t).subst f = t.survive (fun i => f (bnodeStr i)) := by
  rcases hs with ⟨n, rfl⟩ | ⟨i, rfl⟩ | ⟨v, l, d, rfl⟩
  · rfl
  · rfl
  · rcases l with _ | (_ | ⟨c, r⟩) <;> rcases d with _ | (_ | ⟨a, b⟩) <;> rfl

theorem asRead_stmt {t : Stmt} (h : WritableStmt t) (f : PStr → Nat) : (asReadStmt t).subst f = t.survive (fun i => f (bnodeStr i)) := by
  obtain ⟨hr, h1, h2, h3⟩ := h
  simp only [RStmt.subst, asReadStmt, Stmt.survive, mkTriple, Writable.ntok h1 (hr.subj.elim .inl fun h => .inr (.inl h)) f, Writable.ntok h2 (.inl hr.pred) f,
    Writable.ntok h3 hr.obj f]
  rfl

/-- What is written is an N-Triples document of the W3C recommendation. It makes one statement for each triple, in the order in which the graph yields them: the triple, with the losses of
    C37, and with a label for each blank node, different for different blank nodes. -/
theorem C111_conforms (g : Graph) (ord : List Stmt → List Stmt) (hord : IsOrder ord) (h : ∀ t ∈ g.triples, WritableStmt t) :
    ∃ text rs, ∃ label : Nat → PStr, serializeNTriples (g.iter ord) = (text, .ok ()) ∧ Doc NTSpec.w3c false text rs ∧ (∀ i j, label i = label j → i = j) ∧
      ∀ f : PStr → Nat, rs.map (·.subst f) = (g.iter ord).map (·.survive fun i => f (label i)) := by
  have hw : ∀ t ∈ g.iter ord, WritableStmt t := fun t ht => h t ((hord g.triples).mem_iff.1 ht)
  obtain ⟨h1, h2⟩ := written_doc (C := False) (g.iter ord) hw
  refine ⟨_, _, bnodeStr, by rw [← h1], turtle_w3c.doc h2, C28_labels_distinct, fun f => ?_⟩
  rw [List.map_map]
  exact List.map_congr_left fun t ht => asRead_stmt (hw t ht) f

/-- The graph with a blank node, a string with a line break and a language tag with digits. -/
example : WritableStmt (mkTriple (.bnode 7) (.named (py! "http://p?x#é")) (.lit (py! "line\n\"é😀\\") (some (py! "de-1996")) none)) := by
  refine ⟨⟨Or.inr ⟨_, rfl⟩, ⟨_, rfl⟩, Or.inr (Or.inr ⟨_, _, _, rfl⟩), rfl⟩, trivial, ?_, ?_, ?_, ?_⟩
  · show ∀ c ∈ py! "http://p?x#é", scalarValue c
    simp [scalarValue]
  · simp [PStr.Valid]
  · intro t ht
    cases ht
    exact .inr (LangWF.sub (t := py! "de") (l := py! "1996") (LangWF.primary (by simp) (by decide)) (by simp) (by decide))
  · intro t ht; cases ht

/-! ### C112 -/

/-- A string without a language tag or datatype is an xsd:string. -/
def typedTerm : Term → Term
  | .lit v none none => .lit v none (some (py! "http://www.w3.org/2001/XMLSchema#string"))
  | t => t
def typedStmt (t : Stmt) : Stmt := mkTriple (typedTerm t.s) (typedTerm t.p) (typedTerm t.o)

/-- Full statement of C112: a graph written as N-Triples and read as Turtle is the graph that was written, up to the names of blank nodes and the datatype of plain strings. -/
def C112_statement : Prop :=
  ∀ (g : Graph) (ord : List Stmt → List Stmt), IsOrder ord → (∀ t ∈ g.triples, t.IsRdf ∧ t.WellFormed) → ∀ nl next,
    ∃ text g' next' f, serializeNTriples (g.iter ord) = (text, .ok ()) ∧
      Turtle.parse Graph.add nl [] next Graph.new (.str text) = (g', next', .ok ()) ∧
      (∀ t ∈ g.triples, ∀ t' ∈ g.triples, ∀ i j, t.HasBnode i → t'.HasBnode j → f i = f j → i = j) ∧
      ∀ x, x ∈ g'.triples ↔ ∃ t ∈ g.triples, x = typedStmt (t.rename f)

theorem inTurtle_subst (f : PStr → Nat) (t : RTerm) : (t.inTurtle id).subst f = typedTerm (t.subst f) := by
  cases t with
  | iri i => rfl
  | label l => rfl
  | lit v l d => rcases l with _ | l <;> rcases d with _ | d <;> rfl

/-- Exactly what is read. -/
theorem C112_exact (g : Graph) (ord : List Stmt → List Stmt) (hord : IsOrder ord) (h : ∀ t ∈ g.triples, WritableStmt t) (nl : PStr → Bool) (next : Nat) :
    ∃ text g' next' f, serializeNTriples (g.iter ord) = (text, .ok ()) ∧
      Turtle.parse Graph.add nl [] next Graph.new (.str text) = (g', next', .ok ()) ∧
      (∀ t ∈ g.triples, ∀ t' ∈ g.triples, ∀ i j, t.HasBnode i → t'.HasBnode j → f i = f j → i = j) ∧
      (∀ t ∈ g.triples, ∀ i, t.HasBnode i → next ≤ f i ∧ f i < next') ∧
      ∀ x, x ∈ g'.triples ↔ ∃ t ∈ g.triples, x = typedStmt (t.survive f) := by
  have hm : ∀ t, t ∈ g.iter ord ↔ t ∈ g.triples := fun t => (hord g.triples).mem_iff
  have hw : ∀ t ∈ g.iter ord, WritableStmt t := fun t ht => h t ((hm t).1 ht)
  obtain ⟨h1, h2⟩ := written_doc (C := False) (g.iter ord) hw
  have keeps : ∀ (n : PStr), (∀ c ∈ n, scalarValue c) → IriChars (n.flatMap quote1) := by
    intro n hn
    have := keeps_iriBody (D := NTSpec.w3c) (quoted_keeps n hn)
    have key : ∀ {b v : PStr}, NTSpec.IriBody NTSpec.w3c b v → b = v → (∀ c ∈ b, c ≠ 0x5C) → IriChars v := by
      intro b v hb
      induction hb with
      | nil => intro _ _ c hc; cases hc
      | char a1 a2 _ ih =>
        intro e hne c hc
        rcases List.mem_cons.1 hc with rfl | hc
        · exact ⟨a1, a2⟩
        · exact ih (List.cons.inj e).2 (fun x hx => hne x (by simp [hx])) c hc
      | uchar4 _ _ _ => intro _ hne; exact absurd rfl (hne 0x5C (by simp))
      | uchar8 _ _ _ _ => intro _ hne; exact absurd rfl (hne 0x5C (by simp))
      | gap h => exact h.elim
    refine key this rfl fun c hc hc' => ?_
    have := quoted_keeps n hn c hc
    rw [hc'] at this
    exact absurd this (by decide)
  have term : ∀ {x : Term}, Writable x → ∀ {i}, (asRead x).HasIri i → (∃ n, x = .named n) ∨ (∃ i, x = .bnode i) ∨ (∃ v l d, x = .lit v l d) → IriChars i := by
    intro x hx i hi hs
    rcases hs with ⟨n, rfl⟩ | ⟨j, rfl⟩ | ⟨v, l, d, rfl⟩
    · rcases hi with hi | ⟨_, _, hi⟩
      · cases hi; exact keeps n hx
      · cases hi
    · rcases hi with hi | ⟨_, _, hi⟩ <;> cases hi
    · obtain ⟨_, _, hd⟩ := hx
      rcases l with _ | (_ | ⟨c, r⟩) <;> rcases d with _ | (_ | ⟨a, b⟩) <;> rcases hi with hi | ⟨_, _, hi⟩ <;> cases hi
      · exact keeps (a :: b) (hd _ rfl)
      · exact keeps (a :: b) (hd _ rfl)
  have hr : TurtleReads nl [] _ _ := C109_no_base_partial nl h2 (fun h => h.elim) (by
    intro r hr i hi
    obtain ⟨t, ht, rfl⟩ := List.mem_map.1 hr
    obtain ⟨a, b1, b2, b3⟩ := hw t ht
    rcases hi with hi | hi | hi
    · exact term b1 hi (a.subj.elim .inl fun h => .inr (.inl h))
    · exact term b2 hi (.inl a.pred)
    · exact term b3 hi a.obj)
  obtain ⟨f, n', hn, e, inj, rng⟩ := hr Graph Graph.add next Graph.new
  have lab : ∀ t ∈ g.triples, ∀ i, t.HasBnode i → ∃ r ∈ ((g.iter ord).map asReadStmt).map (·.inTurtle id), r.HasLabel (bnodeStr i) := by
    intro t ht i hi
    refine ⟨_, List.mem_map.2 ⟨_, List.mem_map.2 ⟨t, (hm t).2 ht, rfl⟩, rfl⟩, ?_⟩
    rcases hi with hi | hi | hi
    · left; simp [RStmt.inTurtle, asReadStmt, hi, asRead, RTerm.inTurtle]
    · right; left; simp [RStmt.inTurtle, asReadStmt, hi, asRead, RTerm.inTurtle]
    · right; right; left; simp [RStmt.inTurtle, asReadStmt, hi, asRead, RTerm.inTurtle]
  refine ⟨_, _, n', fun i => f (bnodeStr i), by rw [← h1], e, ?_, ?_, fun x => ?_⟩
  · intro t ht t' ht' i j hi hj he
    obtain ⟨r, a1, a2⟩ := lab t ht i hi
    obtain ⟨r', b1, b2⟩ := lab t' ht' j hj
    exact C28_labels_distinct i j (inj r a1 r' b1 _ _ a2 b2 he)
  · intro t ht i hi
    obtain ⟨r, a1, a2⟩ := lab t ht i hi
    exact rng r a1 _ a2
  · have key : ∀ t ∈ g.iter ord, ((asReadStmt t).inTurtle id).subst f = typedStmt (t.survive fun i => f (bnodeStr i)) := by
      intro t ht
      rw [← asRead_stmt (hw t ht) f]
      simp only [RStmt.inTurtle, RStmt.subst, typedStmt, mkTriple, inTurtle_subst]
      rfl
    show x ∈ (Graph.new.addAll _).triples ↔ _
    rw [Graph.mem_addAll, List.map_map, List.map_map, List.mem_map]
    constructor
    · rintro (⟨t, ht, rfl⟩ | hx)
      · exact ⟨t, (hm t).1 ht, key t ht⟩
      · cases hx
    · rintro ⟨t, ht, rfl⟩
      exact .inl ⟨t, (hm t).2 ht, key t ((hm t).2 ht)⟩

/-- False: an IRI with a non-ASCII character comes back percent-encoded. -/
theorem C112_refuted : ¬ C112_statement := by
  intro h
  let t := mkTriple (.named (py! "é")) (.named (py! "p")) (.named (py! "o"))
  obtain ⟨text, g', n', f, h1, h2, -, h4⟩ := h (Graph.new.add t) id (fun l => List.Perm.refl l)
    (by
      intro x hx
      have : x = t := by simpa [Graph.add, Graph.setAdd, Graph.new] using hx
      subst this
      refine ⟨⟨Or.inl ⟨_, rfl⟩, ⟨_, rfl⟩, Or.inl ⟨_, rfl⟩, rfl⟩, ?_, ?_, ?_⟩ <;> simp [t, mkTriple, Term.WellFormed]) (fun _ => true) 0
  have e1 : serializeNTriples ((Graph.new.add t).iter id) = (py! "<%C3%A9> <p> <o> .\n", .ok ()) := by decide
  rw [e1] at h1
  cases h1
  have e2 : Turtle.parse Graph.add (fun _ => true) [] 0 Graph.new (.str (py! "<%C3%A9> <p> <o> .\n"))
      = (Graph.new.add (mkTriple (.named (py! "%C3%A9")) (.named (py! "p")) (.named (py! "o"))), 0, .ok ()) := rfl
  rw [e2] at h2
  cases h2
  obtain ⟨t', ht', hx⟩ := (h4 (mkTriple (.named (py! "%C3%A9")) (.named (py! "p")) (.named (py! "o")))).1 (by decide)
  have : t' = t := by simpa [Graph.add, Graph.setAdd, Graph.new] using ht'
  subst this
  exact absurd hx (by simp [t, mkTriple, Stmt.rename, Term.rename, typedStmt, typedTerm])

/-- Terms that survive: IRIs of URI characters, literals without dropped control characters and with at most one of language and datatype. -/
def Survives : Term → Prop
  | .named n => ∀ c ∈ n, uriChar c
  | .lit v l d => v.Valid ∧ (∀ c ∈ v, ntKept c = true) ∧ (∀ t, l = some t → LangWF t ∧ d = none) ∧ ∀ t, d = some t → t ≠ [] ∧ ∀ c ∈ t, uriChar c
  | _ => True

theorem langWF_ne {l : PStr} (h : LangWF l) : ∃ c r, l = c :: r := by
  cases l with
  | cons c r => exact ⟨c, r, rfl⟩
  | nil =>
    exfalso
    generalize e : ([] : PStr) = x at h
    cases h with
    | primary h _ => exact h e.symm
    | sub _ _ _ => simp at e

theorem Survives.survive {t : Term} (h : Survives t) (f : Nat → Nat) : t.survive f = t.rename f ∧ Writable t := by
  have hq : ∀ n : PStr, (∀ c ∈ n, uriChar c) → n.flatMap quote1 = n := fun n hn => flatMap_quote1_keep n (fun c hc => (uriChar_iff c).1 (hn c hc))
  cases t with
  | none => exact ⟨rfl, trivial⟩
  | gen _ => exact ⟨rfl, trivial⟩
  | bnode _ => exact ⟨rfl, trivial⟩
  | named n => exact ⟨by simp only [Term.survive, Term.rename, hq n h], fun c hc => uriChar_scalar (h c hc)⟩
  | lit v l d =>
    obtain ⟨h1, h2, h3, h4⟩ := h
    have hv : v.filter ntKept = v := List.filter_eq_self.2 h2
    refine ⟨?_, h1, fun t ht => Or.inr (h3 t ht).1, fun t ht c hc => uriChar_scalar ((h4 t ht).2 c hc)⟩
    cases l with
    | none =>
      cases d with
      | none => simp only [Term.survive, Term.rename, hv]
      | some d =>
        cases d with
        | nil => exact absurd rfl (h4 [] rfl).1
        | cons a b => simp only [Term.survive, Term.rename, hv, hq _ (h4 _ rfl).2]
    | some l =>
      obtain ⟨c, r, rfl⟩ := langWF_ne (h3 l rfl).1
      have := (h3 _ rfl).2
      subst this
      simp only [Term.survive, Term.rename, hv]

/-- Missing from C112: IRIs with other than URI characters (they come back percent-encoded) and literals with C0 control characters (dropped). Language tags with digits, which the N-Triples
    reader rejects (C42), are read. -/
theorem C112_partial (g : Graph) (ord : List Stmt → List Stmt) (hord : IsOrder ord) (h : ∀ t ∈ g.triples, t.IsRdf ∧ Survives t.s ∧ Survives t.p ∧ Survives t.o) (nl : PStr → Bool)
    (next : Nat) :
    ∃ text g' next' f, serializeNTriples (g.iter ord) = (text, .ok ()) ∧
      Turtle.parse Graph.add nl [] next Graph.new (.str text) = (g', next', .ok ()) ∧
      (∀ t ∈ g.triples, ∀ t' ∈ g.triples, ∀ i j, t.HasBnode i → t'.HasBnode j → f i = f j → i = j) ∧
      ∀ x, x ∈ g'.triples ↔ ∃ t ∈ g.triples, x = typedStmt (t.rename f) := by
  obtain ⟨text, g', n', f, h1, h2, h3, -, h5⟩ := C112_exact g ord hord
    (fun t ht => ⟨(h t ht).1, ((h t ht).2.1.survive id).2, ((h t ht).2.2.1.survive id).2, ((h t ht).2.2.2.survive id).2⟩) nl next
  refine ⟨text, g', n', f, h1, h2, h3, fun x => ?_⟩
  have key : ∀ t ∈ g.triples, t.survive f = t.rename f := by
    intro t ht
    obtain ⟨hr, a, b, c⟩ := h t ht
    have hg := hr.triple
    simp only [Stmt.survive, mkTriple, Stmt.rename, (a.survive f).1, (b.survive f).1, (c.survive f).1, hg, Option.map_none]
  rw [h5]
  exact ⟨fun ⟨t, ht, e⟩ => ⟨t, ht, e.trans (by rw [key t ht])⟩, fun ⟨t, ht, e⟩ => ⟨t, ht, e.trans (by rw [key t ht])⟩⟩

example : Survives (.lit (py! "line\n\"é😀\\") (some (py! "de-1996")) none) := by
  refine ⟨?_, ?_, ?_, ?_⟩
  · simp [PStr.Valid]
  · decide
  · intro t ht
    cases ht
    exact ⟨LangWF.sub (t := py! "de") (l := py! "1996") (LangWF.primary (by simp) (by decide)) (by simp) (by decide), rfl⟩
  · intro t ht; cases ht

end Verif.NTTurtle
