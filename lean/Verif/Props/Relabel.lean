import Verif.Props.Reload
import Verif.Props.NTParse

/-!
# C159: of an N-Triples or N-Quads document only the set of its statements matters

Neither the order of the lines, nor a line that is repeated, nor the names chosen for the blank nodes can be seen in what is read;
and whatever else is different in two documents can be seen.
-/

namespace Verif
open Spec Graph NTSpec

/-! ### Specification -/

/-- The written term with other labels. -/
def RTerm.relabel (ρ : PStr → PStr) : RTerm → RTerm
  | .label l => .label (ρ l)
  | t => t

/-- The written statement with other labels. -/
def RStmt.relabel (ρ : PStr → PStr) (r : RStmt) : RStmt :=
  { s := r.s.relabel ρ, p := r.p.relabel ρ, o := r.o.relabel ρ, g := r.g.map (·.relabel ρ) }

/-- The two lists have the same statements, up to order, repetition and a one to one change of the labels. -/
def SameWritten (rs rs' : List RStmt) : Prop :=
  ∃ ρ : PStr → PStr, (∀ r ∈ rs, ∀ r' ∈ rs, ∀ l l', r.HasLabel l → r'.HasLabel l' → ρ l = ρ l' → l = l') ∧
    ∀ r', r' ∈ rs' ↔ ∃ r ∈ rs, r' = r.relabel ρ

/-- The blank node occurs in the statement. -/
def Stmt.Blank (t : Stmt) (i : Nat) : Prop := t.s = .bnode i ∨ t.p = .bnode i ∨ t.o = .bnode i ∨ t.g = some (.bnode i)

/-- Two sets of statements are the same up to a one to one change of blank nodes. -/
def SameUpToBlank (ts ts' : List Stmt) : Prop :=
  ∃ f : Nat → Nat, (∀ t ∈ ts, ∀ t' ∈ ts, ∀ i j, t.Blank i → t'.Blank j → f i = f j → i = j) ∧
    ∀ x, x ∈ ts' ↔ ∃ t ∈ ts, x = t.rename f

/-! ### Substitution -/

theorem RTerm.subst_relabel (t : RTerm) (ρ : PStr → PStr) (f' : PStr → Nat) (f : PStr → Nat) (h : Nat → Nat)
    (hl : ∀ l, t = .label l → h (f l) = f' (ρ l)) : (t.relabel ρ).subst f' = (t.subst f).rename h := by
  cases t with
  | label l => simp [RTerm.relabel, RTerm.subst, Term.rename, hl l rfl]
  | iri _ => rfl
  | lit _ _ _ => rfl

theorem RStmt.subst_relabel (r : RStmt) (ρ : PStr → PStr) (f' f : PStr → Nat) (h : Nat → Nat)
    (hl : ∀ l, r.HasLabel l → h (f l) = f' (ρ l)) : (r.relabel ρ).subst f' = (r.subst f).rename h := by
  obtain ⟨s, p, o, g⟩ := r
  simp only [RStmt.relabel, RStmt.subst, Stmt.rename, Stmt.mk.injEq, Option.map_map]
  refine ⟨RTerm.subst_relabel _ _ _ _ _ fun l e => hl l (.inl e), RTerm.subst_relabel _ _ _ _ _ fun l e => hl l (.inr (.inl e)),
    RTerm.subst_relabel _ _ _ _ _ fun l e => hl l (.inr (.inr (.inl e))), ?_⟩
  cases g with
  | none => rfl
  | some t =>
    simp only [Option.map_some, Function.comp]
    exact congrArg some (RTerm.subst_relabel _ _ _ _ _ fun l e => hl l (.inr (.inr (.inr (by rw [e])))))

theorem RStmt.hasLabel_relabel {r : RStmt} {ρ : PStr → PStr} {l : PStr} : (r.relabel ρ).HasLabel l ↔ ∃ l0, r.HasLabel l0 ∧ l = ρ l0 := by
  have term : ∀ t : RTerm, t.relabel ρ = .label l ↔ ∃ l0, t = .label l0 ∧ l = ρ l0 := by
    intro t; cases t <;> simp [RTerm.relabel, eq_comm]
  obtain ⟨s, p, o, g⟩ := r
  simp only [RStmt.HasLabel, RStmt.relabel, term, Option.map_eq_some_iff]
  constructor
  · rintro (⟨l0, a, b⟩ | ⟨l0, a, b⟩ | ⟨l0, a, b⟩ | ⟨t, a, l0, b, c⟩)
    · exact ⟨l0, .inl a, b⟩
    · exact ⟨l0, .inr (.inl a), b⟩
    · exact ⟨l0, .inr (.inr (.inl a)), b⟩
    · exact ⟨l0, .inr (.inr (.inr (by rw [a, b]))), c⟩
  · rintro ⟨l0, a | a | a | a, b⟩
    · exact .inl ⟨l0, a, b⟩
    · exact .inr (.inl ⟨l0, a, b⟩)
    · exact .inr (.inr (.inl ⟨l0, a, b⟩))
    · exact .inr (.inr (.inr ⟨_, a, l0, rfl, b⟩))

theorem RStmt.blank_subst {r : RStmt} {f : PStr → Nat} {i : Nat} : (r.subst f).Blank i ↔ ∃ l, r.HasLabel l ∧ f l = i := by
  have term : ∀ t : RTerm, t.subst f = .bnode i ↔ ∃ l, t = .label l ∧ f l = i := by
    intro t; cases t <;> simp [RTerm.subst]
  obtain ⟨s, p, o, g⟩ := r
  simp only [Stmt.Blank, RStmt.HasLabel, RStmt.subst, term, Option.map_eq_some_iff]
  constructor
  · rintro (⟨l0, a, b⟩ | ⟨l0, a, b⟩ | ⟨l0, a, b⟩ | ⟨t, a, l0, b, c⟩)
    · exact ⟨l0, .inl a, b⟩
    · exact ⟨l0, .inr (.inl a), b⟩
    · exact ⟨l0, .inr (.inr (.inl a)), b⟩
    · exact ⟨l0, .inr (.inr (.inr (by rw [a, b]))), c⟩
  · rintro ⟨l0, a | a | a | a, b⟩
    · exact .inl ⟨l0, a, b⟩
    · exact .inr (.inl ⟨l0, a, b⟩)
    · exact .inr (.inr (.inl ⟨l0, a, b⟩))
    · exact .inr (.inr (.inr ⟨_, a, l0, rfl, b⟩))

theorem Stmt.blank_rename {t : Stmt} {h : Nat → Nat} {i : Nat} (hb : t.Blank i) : (t.rename h).Blank (h i) := by
  obtain ⟨s, p, o, g⟩ := t
  simp only [Stmt.Blank, Stmt.rename] at hb ⊢
  rcases hb with rfl | rfl | rfl | rfl
  · exact .inl rfl
  · exact .inr (.inl rfl)
  · exact .inr (.inr (.inl rfl))
  · exact .inr (.inr (.inr rfl))

theorem RStmt.subst_eq {r r' : RStmt} {f : PStr → Nat} (hf : ∀ l l', r.HasLabel l → r'.HasLabel l' → f l = f l' → l = l')
    (e : r.subst f = r'.subst f) : r = r' := by
  have term : ∀ (t t' : RTerm), (∀ l l', t = .label l → t' = .label l' → f l = f l' → l = l') → t.subst f = t'.subst f → t = t' := by
    intro t t' h e
    cases t <;> cases t' <;> simp only [RTerm.subst, Term.bnode.injEq, Term.named.injEq, Term.lit.injEq, reduceCtorEq] at e ⊢
    · rw [e]
    · rw [h _ _ rfl rfl e]
    · rw [e.1, e.2.1, e.2.2]
  obtain ⟨s, p, o, g⟩ := r
  obtain ⟨s', p', o', g'⟩ := r'
  simp only [RStmt.subst, Stmt.mk.injEq] at e
  have hg : g = g' := by
    have e4 := e.2.2.2
    cases g with
    | none => cases g' with
      | none => rfl
      | some _ => cases e4
    | some t => cases g' with
      | none => cases e4
      | some t' =>
        simp only [Option.map_some, Option.some.injEq] at e4
        rw [term t t' (fun l l' a b => hf l l' (.inr (.inr (.inr (by rw [a])))) (.inr (.inr (.inr (by rw [b]))))) e4]
  rw [term s s' (fun l l' a b => hf l l' (.inl a) (.inl b)) e.1,
    term p p' (fun l l' a b => hf l l' (.inr (.inl a)) (.inr (.inl b))) e.2.1,
    term o o' (fun l l' a b => hf l l' (.inr (.inr (.inl a))) (.inr (.inr (.inl b)))) e.2.2.1, hg]

/-- The heart: with one to one choices of blank nodes for the labels, the statements denoted are the same up to blank nodes exactly
    when the written statements are the same up to labels. -/
theorem sameWritten_iff {rs rs' : List RStmt} {f f' : PStr → Nat}
    (hf : ∀ r ∈ rs, ∀ r' ∈ rs, ∀ l l', r.HasLabel l → r'.HasLabel l' → f l = f l' → l = l')
    (hf' : ∀ r ∈ rs', ∀ r' ∈ rs', ∀ l l', r.HasLabel l → r'.HasLabel l' → f' l = f' l' → l = l') :
    SameUpToBlank (rs.map (·.subst f)) (rs'.map (·.subst f')) ↔ SameWritten rs rs' := by
  constructor
  · rintro ⟨h, hinj, hmem⟩
    -- every label of the first document has its label in the second
    have lab : ∀ r ∈ rs, ∀ l, r.HasLabel l → ∃ l', (∃ r' ∈ rs', r'.HasLabel l') ∧ f' l' = h (f l) := by
      intro r hr l hl
      obtain ⟨r', hr', e⟩ := List.mem_map.1 ((hmem _).2 ⟨_, List.mem_map.2 ⟨r, hr, rfl⟩, rfl⟩)
      have hb : ((r.subst f).rename h).Blank (h (f l)) := Stmt.blank_rename (RStmt.blank_subst.2 ⟨l, hl, rfl⟩)
      rw [← e] at hb
      obtain ⟨l', h1, h2⟩ := RStmt.blank_subst.1 hb
      exact ⟨l', ⟨r', hr', h1⟩, h2⟩
    obtain ⟨ρ, hρ0⟩ : ∃ ρ : PStr → PStr, ∀ l, (∃ l', (∃ r' ∈ rs', r'.HasLabel l') ∧ f' l' = h (f l)) → (∃ r' ∈ rs', r'.HasLabel (ρ l)) ∧ f' (ρ l) = h (f l) :=
      ⟨fun l => Classical.epsilon fun l' => (∃ r' ∈ rs', r'.HasLabel l') ∧ f' l' = h (f l), fun l h => Classical.epsilon_spec h⟩
    have hρ : ∀ r ∈ rs, ∀ l, r.HasLabel l → (∃ r' ∈ rs', r'.HasLabel (ρ l)) ∧ f' (ρ l) = h (f l) := fun r hr l hl => hρ0 l (lab r hr l hl)
    have same : ∀ r ∈ rs, (r.relabel ρ).subst f' = (r.subst f).rename h := fun r hr =>
      r.subst_relabel ρ f' f h fun l hl => ((hρ r hr l hl).2).symm
    have eqs : ∀ r ∈ rs, ∀ r' ∈ rs', r'.subst f' = (r.subst f).rename h → r' = r.relabel ρ := by
      intro r hr r' hr' e
      rw [← same r hr] at e
      refine RStmt.subst_eq (fun l l' h1 h2 e => ?_) e
      obtain ⟨l0, h0, rfl⟩ := RStmt.hasLabel_relabel.1 h2
      obtain ⟨r2, hr2, h2'⟩ := (hρ r hr l0 h0).1
      exact hf' r' hr' r2 hr2 _ _ h1 h2' e
    refine ⟨ρ, fun r hr r' hr' l l' hl hl' e => ?_, fun r' => ⟨fun hr' => ?_, ?_⟩⟩
    · refine hf r hr r' hr' l l' hl hl' ?_
      refine hinj _ (List.mem_map.2 ⟨r, hr, rfl⟩) _ (List.mem_map.2 ⟨r', hr', rfl⟩) _ _ (RStmt.blank_subst.2 ⟨l, hl, rfl⟩) (RStmt.blank_subst.2 ⟨l', hl', rfl⟩) ?_
      rw [← (hρ r hr l hl).2, ← (hρ r' hr' l' hl').2, e]
    · obtain ⟨t, ht, e⟩ := (hmem _).1 (List.mem_map.2 ⟨r', hr', rfl⟩)
      obtain ⟨r, hr, rfl⟩ := List.mem_map.1 ht
      exact ⟨r, hr, eqs r hr r' hr' e⟩
    · rintro ⟨r, hr, rfl⟩
      obtain ⟨r', hr', e⟩ := List.mem_map.1 ((hmem _).2 ⟨_, List.mem_map.2 ⟨r, hr, rfl⟩, rfl⟩)
      rw [← eqs r hr r' hr' e]; exact hr'
  · rintro ⟨ρ, hinj, hmem⟩
    obtain ⟨h, hh0⟩ : ∃ h : Nat → Nat, ∀ i, (∃ k, ∃ l, (∃ r ∈ rs, r.HasLabel l) ∧ f l = i ∧ k = f' (ρ l)) → ∃ l, (∃ r ∈ rs, r.HasLabel l) ∧ f l = i ∧ h i = f' (ρ l) :=
      ⟨fun i => Classical.epsilon fun k => ∃ l, (∃ r ∈ rs, r.HasLabel l) ∧ f l = i ∧ k = f' (ρ l), fun i h => Classical.epsilon_spec h⟩
    have hh : ∀ r ∈ rs, ∀ l, r.HasLabel l → h (f l) = f' (ρ l) := by
      intro r hr l hl
      obtain ⟨l0, ⟨r0, hr0, h0⟩, e, e'⟩ := hh0 (f l) ⟨_, l, ⟨r, hr, hl⟩, rfl, rfl⟩
      rw [e', hf r0 hr0 r hr _ _ h0 hl e]
    have same : ∀ r ∈ rs, (r.relabel ρ).subst f' = (r.subst f).rename h := fun r hr => r.subst_relabel ρ f' f h fun l hl => hh r hr l hl
    refine ⟨h, ?_, fun x => ?_⟩
    · intro t ht t' ht' i j hi hj e
      obtain ⟨r, hr, rfl⟩ := List.mem_map.1 ht
      obtain ⟨r', hr', rfl⟩ := List.mem_map.1 ht'
      obtain ⟨l, hl, rfl⟩ := RStmt.blank_subst.1 hi
      obtain ⟨l', hl', rfl⟩ := RStmt.blank_subst.1 hj
      rw [hh r hr l hl, hh r' hr' l' hl'] at e
      have := hf' _ ((hmem _).2 ⟨r, hr, rfl⟩) _ ((hmem _).2 ⟨r', hr', rfl⟩) _ _
        (RStmt.hasLabel_relabel.2 ⟨l, hl, rfl⟩) (RStmt.hasLabel_relabel.2 ⟨l', hl', rfl⟩) e
      rw [hinj r hr r' hr' l l' hl hl' this]
    · constructor
      · intro hx
        obtain ⟨r', hr', rfl⟩ := List.mem_map.1 hx
        obtain ⟨r, hr, rfl⟩ := (hmem r').1 hr'
        exact ⟨_, List.mem_map.2 ⟨r, hr, rfl⟩, same r hr⟩
      · rintro ⟨t, ht, rfl⟩
        obtain ⟨r, hr, rfl⟩ := List.mem_map.1 ht
        exact List.mem_map.2 ⟨_, (hmem _).2 ⟨r, hr, rfl⟩, same r hr⟩

/-! ### C159 -/

theorem sameUpToBlank_congr {a b a' b' : List Stmt} (h : ∀ x, x ∈ a ↔ x ∈ a') (h' : ∀ x, x ∈ b ↔ x ∈ b') :
    SameUpToBlank a b ↔ SameUpToBlank a' b' := by
  unfold SameUpToBlank
  simp only [h, h']

theorem foldl_collect (ts acc : List Stmt) : ts.foldl (fun l t => l ++ [t]) acc = acc ++ ts := by
  induction ts generalizing acc with
  | nil => simp
  | cons t ts ih => rw [List.foldl_cons, ih, List.append_assoc, List.singleton_append]

/-- **What is read is the same, up to the blank nodes, exactly when the documents have the same statements**, up to their order,
    repetition, and the labels of the blank nodes: for N-Triples and for N-Quads, whatever was parsed before. -/
theorem C159_exact {q : Bool} {text text' : PStr} {rs rs' : List RStmt} (h : Doc code q text rs) (h' : Doc code q text' rs') (next next' : Nat) :
    SameUpToBlank (parseString (fun l t => l ++ [t]) q next text []).1 (parseString (fun l t => l ++ [t]) q next' text' []).1 ↔ SameWritten rs rs' := by
  obtain ⟨f, n, _, e, hf, _⟩ := C41_labels_scoped (fun l t => l ++ [t]) q next text [] rs (pDoc_iff.2 h)
  obtain ⟨f', n', _, e', hf', _⟩ := C41_labels_scoped (fun l t => l ++ [t]) q next' text' [] rs' (pDoc_iff.2 h')
  rw [e, e']
  show SameUpToBlank (List.foldl _ _ _) (List.foldl _ _ _) ↔ _
  rw [foldl_collect, foldl_collect, List.nil_append, List.nil_append]
  exact sameWritten_iff hf hf'

/-- The same for graphs that N-Triples documents are read into. -/
theorem C159_graph {text text' : PStr} {rs rs' : List RStmt} (h : Doc code false text rs) (h' : Doc code false text' rs') (next next' : Nat) (u u' : Term) :
    SameUpToBlank (parseString Graph.add false next text (Graph.new u)).1.triples (parseString Graph.add false next' text' (Graph.new u')).1.triples ↔
      SameWritten rs rs' := by
  obtain ⟨f, n, _, e, hf, _⟩ := C41_labels_scoped Graph.add false next text (Graph.new u) rs (pDoc_iff.2 h)
  obtain ⟨f', n', _, e', hf', _⟩ := C41_labels_scoped Graph.add false next' text' (Graph.new u') rs' (pDoc_iff.2 h')
  rw [e, e']
  rw [← sameWritten_iff hf hf']
  refine sameUpToBlank_congr (fun x => ?_) (fun x => ?_)
  · show x ∈ (Graph.addAll _ _).triples ↔ _
    rw [mem_addAll]; simp [Graph.new, Graph.triples]
  · show x ∈ (Graph.addAll _ _).triples ↔ _
    rw [mem_addAll]; simp [Graph.new, Graph.triples]

theorem SameWritten.of_mem {rs rs' : List RStmt} (h : ∀ r, r ∈ rs ↔ r ∈ rs') : SameWritten rs rs' := by
  have term : ∀ t : RTerm, t.relabel id = t := by intro t; cases t <;> rfl
  have id' : ∀ r : RStmt, r.relabel id = r := by
    intro r
    obtain ⟨s, p, o, g⟩ := r
    rw [RStmt.relabel, RStmt.mk.injEq]
    refine ⟨term s, term p, term o, ?_⟩
    cases g with
    | none => rfl
    | some t => exact congrArg some (term t)
  exact ⟨id, fun _ _ _ _ l l' _ _ e => e, fun r' => by simp only [id', exists_eq_right', ← h]⟩

/-- A line with a statement: no line break within, and not blank. -/
def IsLine (l : PStr) : Prop := (∀ c ∈ l, c ≠ 10 ∧ c ≠ 13) ∧ ∃ c ∈ l, c ≠ 32 ∧ c ≠ 9

/-- The statements of a document of lines are those of its lines. -/
theorem pDoc_each (q : Bool) (lines : List PStr) (h : ∀ l ∈ lines, IsLine l) :
    (∃ rs, pDoc q (lines.flatMap (· ++ [10])) = .ok rs ∧ ∀ r, r ∈ rs ↔ ∃ l ∈ lines, ∃ rl, pDoc q (l ++ [10]) = .ok rl ∧ r ∈ rl) ∧
        (∀ l ∈ lines, ∃ rl, pDoc q (l ++ [10]) = .ok rl) ∨
      (∃ e, pDoc q (lines.flatMap (· ++ [10])) = .error e) ∧ ∃ l ∈ lines, ∃ e, pDoc q (l ++ [10]) = .error e := by
  induction lines with
  | nil => exact .inl ⟨⟨[], rfl, by simp⟩, by simp⟩
  | cons l ls ih =>
    have hl := h l (by simp)
    have hls : ∀ l ∈ ls, IsLine l := fun l hl => h l (by simp [hl])
    have hb : ∀ w c r, ls.flatMap (· ++ [10]) = w ++ c :: r → (∀ d ∈ w, d = 32 ∨ d = 9) → c ≠ 10 ∧ c ≠ 13 := by
      intro w c r e hw
      cases ls with
      | nil => simp at e
      | cons l2 ls =>
        obtain ⟨hne, c0, hc0, h0⟩ := hls l2 (by simp)
        rw [List.flatMap_cons, List.append_assoc] at e
        rcases List.append_eq_append_iff.1 e with ⟨a, ea, _⟩ | ⟨a, ea, eb⟩
        · -- the blank part would cover the whole line
          have := hw c0 (by rw [ea]; simp [hc0])
          rcases this with rfl | rfl
          · exact absurd rfl h0.1
          · exact absurd rfl h0.2
        · cases a with
          | nil =>
            rw [List.append_nil] at ea
            subst ea
            have := hw c0 hc0
            rcases this with rfl | rfl
            · exact absurd rfl h0.1
            · exact absurd rfl h0.2
          | cons d a =>
            simp only [List.cons_append, List.cons.injEq] at eb
            rw [eb.1]
            exact hne d (by rw [ea]; simp)
    obtain ⟨c1, c2, c3⟩ := C82_concatenation q [l] (fun x hx => by rw [List.mem_singleton.1 hx]; exact hl) (ls.flatMap (· ++ [10])) hb
    simp only [List.flatMap_cons, List.flatMap_nil, List.append_nil] at c1 c2 c3
    rw [List.flatMap_cons]
    cases h1 : pDoc q (l ++ [10]) with
    | error e => exact .inr ⟨⟨e, c2 e h1⟩, l, by simp, e, h1⟩
    | ok rl =>
      rcases ih hls with ⟨⟨rs, k1, k2⟩, k3⟩ | ⟨⟨e, k1⟩, l', hl', k2⟩
      · refine .inl ⟨⟨rl ++ rs, c1 _ _ h1 k1, fun r => ?_⟩, ?_⟩
        · rw [List.mem_append, k2]
          constructor
          · rintro (hr | ⟨l', hl', rl', e, hr⟩)
            · exact ⟨l, by simp, rl, h1, hr⟩
            · exact ⟨l', by simp [hl'], rl', e, hr⟩
          · rintro ⟨l', hl', rl', e, hr⟩
            rcases List.mem_cons.1 hl' with rfl | hl'
            · rw [h1] at e; cases e; exact .inl hr
            · exact .inr ⟨l', hl', rl', e, hr⟩
        · intro l' hl'
          rcases List.mem_cons.1 hl' with rfl | hl'
          · exact ⟨rl, h1⟩
          · exact k3 l' hl'
      · exact .inr ⟨⟨e, c3 _ _ h1 k1⟩, l', by simp [hl'], k2⟩

/-- **The order of the lines does not matter**, nor does repeating some: two documents with the same lines are both read or both rejected,
    and what is read is the same up to the blank nodes. -/
theorem C159_lines (q : Bool) (lines lines' : List PStr) (h : ∀ l ∈ lines, IsLine l) (hsame : ∀ l, l ∈ lines ↔ l ∈ lines') (next next' : Nat) :
    let p := parseString (fun l t => l ++ [t]) q next (lines.flatMap (· ++ [10])) []
    let p' := parseString (fun l t => l ++ [t]) q next' (lines'.flatMap (· ++ [10])) []
    (p.2.2 = .ok () ↔ p'.2.2 = .ok ()) ∧ SameUpToBlank p.1 p'.1 := by
  intro p p'
  have h' : ∀ l ∈ lines', IsLine l := fun l hl => h l ((hsame l).2 hl)
  have acc : ∀ (next : Nat) (text : PStr) rs, pDoc q text = .ok rs → (parseString (fun l t => l ++ [t]) q next text ([] : List Stmt)).2.2 = .ok () := by
    intro next text rs e; simp only [parseString, e]
  have rej : ∀ (next : Nat) (text : PStr) e, pDoc q text = .error e → (parseString (fun l t => l ++ [t]) q next text ([] : List Stmt)).1 = [] ∧
      (parseString (fun l t => l ++ [t]) q next text ([] : List Stmt)).2.2 ≠ .ok () := by
    intro next text e he; simp [parseString, he]
  rcases pDoc_each q lines h with ⟨⟨rs, k1, k2⟩, k3⟩ | ⟨⟨e, k1⟩, l, hl, el, k2⟩
  · rcases pDoc_each q lines' h' with ⟨⟨rs', m1, m2⟩, _⟩ | ⟨_, l, hl, e, m2⟩
    · refine ⟨⟨fun _ => acc _ _ _ m1, fun _ => acc _ _ _ k1⟩, ?_⟩
      refine (C159_exact (pDoc_iff.1 k1) (pDoc_iff.1 m1) next next').2 (.of_mem fun r => ?_)
      rw [k2, m2]; simp only [hsame]
    · obtain ⟨rl, e'⟩ := k3 l ((hsame l).2 hl)
      rw [e'] at m2; cases m2
  · rcases pDoc_each q lines' h' with ⟨_, m3⟩ | ⟨⟨e', m1⟩, _⟩
    · obtain ⟨rl, e'⟩ := m3 l ((hsame l).1 hl)
      rw [e'] at k2; cases k2
    · obtain ⟨a1, a2⟩ := rej next _ _ k1
      obtain ⟨b1, b2⟩ := rej next' _ _ m1
      refine ⟨⟨fun h => absurd h a2, fun h => absurd h b2⟩, ?_⟩
      show SameUpToBlank (parseString _ _ _ _ _).1 (parseString _ _ _ _ _).1
      rw [a1, b1]
      exact ⟨id, by simp, by simp⟩

theorem lines_clean {lines : List PStr} (h : ∀ l ∈ lines, IsLine l) : CleanText (lines.flatMap (· ++ [10])) := by
  induction lines with
  | nil => exact .nil
  | cons l ls ih =>
    obtain ⟨h1, c, hc, h2⟩ := h l (by simp)
    have := CleanText.line 0 h1 (fun hb => by rcases hb c hc with rfl | rfl; exacts [h2.1 rfl, h2.2 rfl]) (ih fun l hl => h l (by simp [hl]))
    simpa using this

/-- The same for files: both are read or both rejected; when they are read, what is read is the same up to the blank nodes. -/
theorem C159_stream (q : Bool) (lines lines' : List PStr) (h : ∀ l ∈ lines, IsLine l) (hsame : ∀ l, l ∈ lines ↔ l ∈ lines') (next next' : Nat) :
    let p := parseStream (fun l t => l ++ [t]) q next (lines.flatMap (· ++ [10])) []
    let p' := parseStream (fun l t => l ++ [t]) q next' (lines'.flatMap (· ++ [10])) []
    (p.2.2 = .ok () ↔ p'.2.2 = .ok ()) ∧ (p.2.2 = .ok () → SameUpToBlank p.1 p'.1) := by
  intro p p'
  have h' : ∀ l ∈ lines', IsLine l := fun l hl => h l ((hsame l).2 hl)
  obtain ⟨a, a'⟩ := C39_stream_partial (fun l t => l ++ [t]) q next _ (lines_clean h) ([] : List Stmt)
  obtain ⟨b, b'⟩ := C39_stream_partial (fun l t => l ++ [t]) q next' _ (lines_clean h') ([] : List Stmt)
  obtain ⟨c, c'⟩ := C159_lines q lines lines' h hsame next next'
  have hp : p.2.2 = .ok () ↔ p'.2.2 = .ok () := by
    show (parseStream _ _ _ _ _).2.2 = _ ↔ (parseStream _ _ _ _ _).2.2 = _
    rw [a, b]; exact c
  refine ⟨hp, fun ok => ?_⟩
  have ok' := hp.1 ok
  have e : p = parseString (fun l t => l ++ [t]) q next (lines.flatMap (· ++ [10])) [] := a' (by rw [← a]; exact ok)
  have e' : p' = parseString (fun l t => l ++ [t]) q next' (lines'.flatMap (· ++ [10])) [] := b' (by rw [← b]; exact ok')
  rw [e, e']
  exact c'

/-- Two documents of the same statements, in another order, one repeated, and with other labels. -/
def relabelA : PStr := py! "_:a <p> _:b .\n_:b <p> \"x\" .\n"
def relabelB : PStr := py! "_:b <p> \"x\" .\n_:c <p> _:b .\n_:b <p> \"x\" .\n"

theorem relabelA_doc : Doc code false relabelA [⟨.label (py! "_:a"), .iri (py! "p"), .label (py! "_:b"), none⟩, ⟨.label (py! "_:b"), .iri (py! "p"), .lit (py! "x") none none, none⟩] :=
  pDoc_iff.1 (by decide)

theorem relabelB_doc : Doc code false relabelB [⟨.label (py! "_:b"), .iri (py! "p"), .lit (py! "x") none none, none⟩,
    ⟨.label (py! "_:c"), .iri (py! "p"), .label (py! "_:b"), none⟩, ⟨.label (py! "_:b"), .iri (py! "p"), .lit (py! "x") none none, none⟩] :=
  pDoc_iff.1 (by decide)

example : SameUpToBlank (parseString Graph.add false 0 relabelA Graph.new).1.triples (parseString Graph.add false 7 relabelB Graph.new).1.triples := by
  refine (C159_graph relabelA_doc relabelB_doc 0 7 .none .none).2 ⟨fun l => if l = py! "_:a" then py! "_:c" else l, ?_, ?_⟩
  · intro r hr r' hr' l l' hl hl'
    have : ∀ r ∈ [(⟨.label (py! "_:a"), .iri (py! "p"), .label (py! "_:b"), none⟩ : RStmt), ⟨.label (py! "_:b"), .iri (py! "p"), .lit (py! "x") none none, none⟩],
        ∀ l, r.HasLabel l → l = py! "_:a" ∨ l = py! "_:b" := by
      intro r hr l hl
      simp only [List.mem_cons, List.not_mem_nil, or_false] at hr
      rcases hr with rfl | rfl <;> simp [RStmt.HasLabel] at hl
      · rcases hl with rfl | rfl <;> simp
      · simp [hl]
    rcases this r hr l hl with rfl | rfl <;> rcases this r' hr' l' hl' with rfl | rfl <;> decide
  · intro r'
    simp only [List.mem_cons, List.not_mem_nil, or_false, exists_eq_or_imp, exists_eq_left]
    constructor
    · rintro (rfl | rfl | rfl)
      · exact .inr (by decide)
      · exact .inl (by decide)
      · exact .inr (by decide)
    · rintro (h | h)
      · exact .inr (.inl (h.trans (by decide)))
      · exact .inl (h.trans (by decide))

/-- One label instead of two is another graph. -/
example : ¬ SameWritten [(⟨.label (py! "_:a"), .iri (py! "p"), .label (py! "_:b"), none⟩ : RStmt)] [⟨.label (py! "_:a"), .iri (py! "p"), .label (py! "_:a"), none⟩] := by
  rintro ⟨ρ, h1, h2⟩
  obtain ⟨r, hr, e⟩ := (h2 _).1 (List.mem_singleton.2 rfl)
  rw [List.mem_singleton] at hr
  subst hr
  simp only [RStmt.relabel, RTerm.relabel, RStmt.mk.injEq, RTerm.label.injEq, true_and] at e
  have := h1 _ (List.mem_singleton.2 rfl) _ (List.mem_singleton.2 rfl) (py! "_:a") (py! "_:b") (.inl rfl) (.inr (.inr (.inl rfl))) (by rw [← e.1, ← e.2.1])
  revert this; decide

end Verif
