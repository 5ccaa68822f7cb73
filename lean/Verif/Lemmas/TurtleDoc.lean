import Verif.Spec.TurtleDoc
import Verif.Lemmas.UrlParse
import Verif.Props.TurtleEnv
/-
Lemmas about the meaning of Turtle documents: references have one reading, documents have one graph, and readings can be exchanged.
-/
namespace Verif
open Spec

/-! ### The components of a reference are determined by its text -/

theorem opt_inj {c : Nat} {x y : PStr} (hx : c ∉ x) (hy : c ∉ y) {o p : Option PStr} (h : x ++ opt c o = y ++ opt c p) : x = y ∧ o = p := by
  have h1 : splitFirst c (x ++ opt c o) = splitFirst c (y ++ opt c p) := by rw [h]
  cases o with
  | none =>
    cases p with
    | none => simpa [opt] using h
    | some p => rw [opt, opt, List.append_nil, splitFirst_none hx, splitFirst_append hy] at h1; cases h1
  | some o =>
    cases p with
    | none => rw [opt, opt, List.append_nil, splitFirst_none hy, splitFirst_append hx] at h1; cases h1
    | some p => rw [opt, opt, splitFirst_append hx, splitFirst_append hy] at h1; cases h1; exact ⟨rfl, rfl⟩

/-- Scheme and colon. -/
def schemeText : Option PStr → PStr
  | some s => s ++ [58]
  | none => []
def authText : Option PStr → PStr
  | some a => 47 :: 47 :: a
  | none => []

theorem text_eq' (r : Ref) : r.text = schemeText r.scheme ++ (authText r.authority ++ (r.path ++ (opt 63 r.query ++ opt 35 r.fragment))) := by
  rw [text_eq]
  cases r.scheme <;> cases r.authority <;> rfl

theorem scheme_chars {r : Ref} (h : r.WF) {s : PStr} (hs : r.scheme = some s) : s ≠ [] ∧ ∀ c ∈ s, c ≠ 58 ∧ c ≠ 47 ∧ c ≠ 63 ∧ c ≠ 35 ∧ c ≠ 60 := by
  obtain ⟨c, cs, rfl, h1, h2⟩ := h.scheme s hs
  refine ⟨by simp, ?_⟩
  intro x hx
  rcases List.mem_cons.1 hx with rfl | hx
  · omega
  · have := h2 x hx; omega

theorem auth_path_inj {a b : Option PStr} {p q : PStr} (ha : ∀ x, a = some x → 47 ∉ x) (hb : ∀ x, b = some x → 47 ∉ x)
    (hp : a.isSome → p = [] ∨ p.head? = some 47) (hq : b.isSome → q = [] ∨ q.head? = some 47) (hp' : a = none → ¬ py! "//" <+: p)
    (hq' : b = none → ¬ py! "//" <+: q) (h : authText a ++ p = authText b ++ q) : a = b ∧ p = q := by
  have key : ∀ {x y p q : PStr}, 47 ∉ x → 47 ∉ y → (p = [] ∨ p.head? = some 47) → (q = [] ∨ q.head? = some 47) → x ++ p = y ++ q → x = y ∧ p = q := by
    intro x
    induction x with
    | nil =>
      intro y p q _ hy hp hq h
      cases y with
      | nil => exact ⟨rfl, h⟩
      | cons c y =>
        rw [List.nil_append, List.cons_append] at h
        subst h
        rcases hp with hp | hp
        · cases hp
        · simp only [List.head?_cons, Option.some.injEq] at hp; subst hp; simp at hy
    | cons c x ih =>
      intro y p q hx hy hp hq h
      cases y with
      | nil =>
        rw [List.nil_append, List.cons_append] at h
        subst h
        rcases hq with hq | hq
        · cases hq
        · simp only [List.head?_cons, Option.some.injEq] at hq; subst hq; simp at hx
      | cons d y =>
        simp only [List.cons_append, List.cons.injEq] at h
        obtain ⟨rfl, h⟩ := h
        obtain ⟨rfl, h'⟩ := ih (by simp_all) (by simp_all) hp hq h
        exact ⟨rfl, h'⟩
  cases a with
  | none =>
    cases b with
    | none => exact ⟨rfl, by simpa [authText] using h⟩
    | some b => exact absurd ⟨b ++ q, by simpa [authText] using h.symm⟩ (hp' rfl)
  | some a =>
    cases b with
    | none => exact absurd ⟨a ++ p, by simpa [authText] using h⟩ (hq' rfl)
    | some b =>
      simp only [authText, List.cons_append, List.cons.injEq, true_and] at h
      obtain ⟨rfl, h'⟩ := key (ha _ rfl) (hb _ rfl) (hp rfl) (hq rfl) h
      exact ⟨rfl, h'⟩

/-- The text before a first colon that has no `/` before it. -/
theorem scheme_inj {a b : Option PStr} {x y : PStr} (ha : ∀ s, a = some s → ∀ c ∈ s, c ≠ 58 ∧ c ≠ 47) (hb : ∀ s, b = some s → ∀ c ∈ s, c ≠ 58 ∧ c ≠ 47)
    (hx : a = none → 58 ∉ x.takeWhile (· ≠ 47)) (hy : b = none → 58 ∉ y.takeWhile (· ≠ 47)) (h : schemeText a ++ x = schemeText b ++ y) : a = b ∧ x = y := by
  have no : ∀ {s x y : PStr}, (∀ c ∈ s, c ≠ 58 ∧ c ≠ 47) → s ++ [58] ++ y = x → 58 ∉ x.takeWhile (· ≠ 47) → False := by
    rintro s x y hs rfl hn
    apply hn
    rw [List.append_assoc, List.takeWhile_append_of_pos (by intro c hc; simp [(hs c hc).2])]
    simp
  cases a with
  | none =>
    cases b with
    | none => exact ⟨rfl, by simpa [schemeText] using h⟩
    | some b => exact (no (hb b rfl) (by simpa [schemeText] using h.symm) (hx rfl)).elim
  | some a =>
    cases b with
    | none => exact (no (ha a rfl) (by simpa [schemeText] using h) (hy rfl)).elim
    | some b =>
      simp only [schemeText, List.append_assoc, List.singleton_append] at h
      have h1 : ∀ {s : PStr}, (∀ c ∈ s, c ≠ 58 ∧ c ≠ 47) → 58 ∉ s := fun hs hm => (hs 58 hm).1 rfl
      have h2 : splitFirst 58 (a ++ 58 :: x) = splitFirst 58 (b ++ 58 :: y) := by rw [h]
      rw [splitFirst_append (h1 (ha a rfl)), splitFirst_append (h1 (hb b rfl))] at h2
      cases h2
      exact ⟨rfl, rfl⟩

theorem Spec.Ref.text_inj {r r' : Ref} (h : r.WF) (h' : r'.WF) (e : r.text = r'.text) : r = r' := by
  have hs : ∀ {r : Ref} (_ : r.WF) c, (c = 63 ∨ c = 35) → c ∉ schemeText r.scheme ++ (authText r.authority ++ r.path) := by
    intro r h c hc hm
    rcases List.mem_append.1 hm with hm | hm
    · cases hs : r.scheme with
      | none => rw [hs] at hm; cases hm
      | some s =>
        rw [hs, schemeText] at hm
        rcases List.mem_append.1 hm with hm | hm
        · have := (scheme_chars h hs).2 c hm; omega
        · simp at hm; omega
    · rcases List.mem_append.1 hm with hm | hm
      · cases ha : r.authority with
        | none => rw [ha] at hm; cases hm
        | some a =>
          obtain ⟨h1, h2, h3⟩ := h.authority a ha
          rw [ha, authText] at hm
          simp only [List.mem_cons] at hm
          rcases hm with hm | hm | hm
          · omega
          · omega
          · rcases hc with rfl | rfl
            · exact h2 hm
            · exact h3 hm
      · rcases hc with rfl | rfl
        · exact h.path.1 hm
        · exact h.path.2 hm
  have hq : ∀ {r : Ref} (_ : r.WF), 35 ∉ schemeText r.scheme ++ (authText r.authority ++ r.path) ++ opt 63 r.query := by
    intro r h hm
    rcases List.mem_append.1 hm with hm | hm
    · exact hs h 35 (.inr rfl) hm
    · cases hq : r.query with
      | none => rw [hq] at hm; cases hm
      | some q =>
        rw [hq, opt] at hm
        rcases List.mem_cons.1 hm with hm | hm
        · cases hm
        · exact h.query q hq hm
  rw [text_eq', text_eq'] at e
  obtain ⟨e1, e2⟩ := opt_inj (hq h) (hq h') (by simpa using e)
  obtain ⟨e3, e4⟩ := opt_inj (hs h 63 (.inl rfl)) (hs h' 63 (.inl rfl)) e1
  have hc : ∀ {r : Ref} (_ : r.WF), r.scheme = none → 58 ∉ (authText r.authority ++ r.path).takeWhile (· ≠ 47) := by
    intro r h hn
    cases ha : r.authority with
    | none => simpa [authText] using h.pathNoScheme hn ha
    | some a => simp [authText]
  have hch : ∀ {r : Ref} (_ : r.WF) s, r.scheme = some s → ∀ c ∈ s, c ≠ 58 ∧ c ≠ 47 := fun h s hs c hc => by
    have := (scheme_chars h hs).2 c hc; omega
  obtain ⟨e5, e6⟩ := scheme_inj (hch h) (hch h') (hc h) (hc h') e3
  obtain ⟨e7, e8⟩ := auth_path_inj (fun x hx => (h.authority x hx).1) (fun x hx => (h'.authority x hx).1) h.pathAuth h'.pathAuth h.pathNoAuth h'.pathNoAuth e6
  cases r; cases r'
  simp_all

namespace Turtle

/-! ### A document has one graph -/

/-- Each text has at most one meaning. -/
structure Reading.Functional (R : Reading) : Prop where
  ref : ∀ {base b s s'}, R.ref base b s → R.ref base b s' → s = s'
  pname : ∀ {base p loc s s'}, R.pname base p loc s → R.pname base p loc s' → s = s'
  str : ∀ {b v v'}, R.str b v → R.str b v' → v = v'

section unique
variable {R : Reading} (hR : R.Functional) {l₁ l₂ : PStr → Option Nat} {S : Scope}

/-- The correspondence of blank nodes respects labels. -/
def LabC (l₁ l₂ : PStr → Option Nat) (ρ : Nat → Nat → Prop) : Prop := ∀ l a b, l₁ l = some a → l₂ l = some b → ρ a b

theorem forall₂_split {α : Type} {ρ : α → α → Prop} {a a' b b' : List α} (hl : a.length = a'.length) (h : List.Forall₂ ρ (a ++ b) (a' ++ b')) :
    List.Forall₂ ρ a a' ∧ List.Forall₂ ρ b b' := by
  induction a generalizing a' with
  | nil =>
    cases a' with
    | nil => exact ⟨.nil, h⟩
    | cons => cases hl
  | cons x a ih =>
    cases a' with
    | nil => cases hl
    | cons y a' =>
      cases h with
      | cons h1 h2 =>
        obtain ⟨h3, h4⟩ := ih (by simpa using hl) h2
        exact ⟨.cons h1 h3, h4⟩

include hR

theorem iri_unique {x : IriTok} {s₁ s₂ : PStr} (h₁ : IriSem R S x s₁) (h₂ : IriSem R S x s₂) : s₁ = s₂ := by
  cases h₁ with
  | ref h₁ => cases h₂ with | ref h₂ => exact hR.ref h₁ h₂
  | pname p₁ h₁ => cases h₂ with | pname p₂ h₂ => rw [p₁] at p₂; cases p₂; exact hR.pname h₁ h₂

theorem node_unique {x : NodeTok} {t₁ t₂ : Term} {an₁ an₂ : List Nat} (h₁ : NodeSem R l₁ S x t₁ an₁) (h₂ : NodeSem R l₂ S x t₂ an₂) :
    an₁.length = an₂.length ∧ ∀ ρ, LabC l₁ l₂ ρ → List.Forall₂ ρ an₁ an₂ → TermCorr ρ t₁ t₂ := by
  cases h₁ with
  | iri h₁ => cases h₂ with | iri h₂ => cases iri_unique hR h₁ h₂; exact ⟨rfl, fun _ _ _ => .named _⟩
  | label h₁ => cases h₂ with | label h₂ => exact ⟨rfl, fun ρ hl _ => .bnode (hl _ _ _ h₁ h₂)⟩
  | anon k => cases h₂ with | anon k' => exact ⟨rfl, fun ρ _ h => by cases h with | cons h _ => exact .bnode h⟩

theorem verb_unique {x : VerbTok} {t₁ t₂ : Term} (h₁ : VerbSem R S x t₁) (h₂ : VerbSem R S x t₂) : ∀ ρ, TermCorr ρ t₁ t₂ := by
  cases h₁ with
  | a => cases h₂; exact fun _ => .named _
  | iri h₁ => cases h₂ with | iri h₂ => cases iri_unique hR h₁ h₂; exact fun _ => .named _

theorem leaf_unique {x : LeafTok} {t₁ t₂ : Term} {an₁ an₂ : List Nat} (h₁ : LeafSem R l₁ S x t₁ an₁) (h₂ : LeafSem R l₂ S x t₂ an₂) :
    an₁.length = an₂.length ∧ ∀ ρ, LabC l₁ l₂ ρ → List.Forall₂ ρ an₁ an₂ → TermCorr ρ t₁ t₂ := by
  cases h₁ with
  | node h₁ => cases h₂ with | node h₂ => exact node_unique hR h₁ h₂
  | str h₁ => cases h₂ with | str h₂ => cases hR.str h₁ h₂; exact ⟨rfl, fun _ _ _ => .lit ..⟩
  | strLang h₁ => cases h₂ with | strLang h₂ => cases hR.str h₁ h₂; exact ⟨rfl, fun _ _ _ => .lit ..⟩
  | strDt h₁ i₁ => cases h₂ with | strDt h₂ i₂ => cases hR.str h₁ h₂; cases iri_unique hR i₁ i₂; exact ⟨rfl, fun _ _ _ => .lit ..⟩
  | integer => cases h₂; exact ⟨rfl, fun _ _ _ => .lit ..⟩
  | decimal => cases h₂; exact ⟨rfl, fun _ _ _ => .lit ..⟩
  | double => cases h₂; exact ⟨rfl, fun _ _ _ => .lit ..⟩
  | bool => cases h₂; exact ⟨rfl, fun _ _ _ => .lit ..⟩

mutual
theorem obj_unique : ∀ (x : PObj) {x₁ x₂ : TObj} {an₁ an₂ : List Nat} {t₁ t₂ : Term} {fr₁ fr₂ : List Nat} {ts₁ ts₂ : List Stmt},
    ObjSem R l₁ S x x₁ an₁ → ObjSem R l₂ S x x₂ an₂ → ObjDen x₁ t₁ fr₁ ts₁ → ObjDen x₂ t₂ fr₂ ts₂ →
    an₁.length = an₂.length ∧ fr₁.length = fr₂.length ∧ ∀ ρ, LabC l₁ l₂ ρ → List.Forall₂ ρ an₁ an₂ → List.Forall₂ ρ fr₁ fr₂ →
      TermCorr ρ t₁ t₂ ∧ List.Forall₂ (StmtCorr ρ) ts₁ ts₂
  | .leaf x, _, _, _, _, _, _, _, _, _, _, .leaf s₁, .leaf s₂, .leaf _, .leaf _ => by
    obtain ⟨h1, h2⟩ := leaf_unique hR s₁ s₂
    exact ⟨h1, rfl, fun ρ hl ha _ => ⟨h2 ρ hl ha, .nil⟩⟩
  | .coll c, _, _, _, _, _, _, _, _, _, _, .coll s₁, .coll s₂, .coll d₁, .coll d₂ => coll_unique c s₁ s₂ d₁ d₂
  | .bnpl p, _, _, _, _, _, _, _, _, _, _, .bnpl s₁, .bnpl s₂, .bnpl d₁, .bnpl d₂ => by
    obtain ⟨h1, h2, h3⟩ := pol_unique p s₁ s₂ d₁ d₂
    refine ⟨h1, by simpa using h2, fun ρ hl ha hf => ?_⟩
    cases hf with
    | cons hb hf => exact ⟨.bnode hb, h3 ρ (.bnode hb) hl ha hf⟩
theorem coll_unique : ∀ (x : PColl) {x₁ x₂ : TColl} {an₁ an₂ : List Nat} {t₁ t₂ : Term} {fr₁ fr₂ : List Nat} {ts₁ ts₂ : List Stmt},
    CollSem R l₁ S x x₁ an₁ → CollSem R l₂ S x x₂ an₂ → CollDen x₁ t₁ fr₁ ts₁ → CollDen x₂ t₂ fr₂ ts₂ →
    an₁.length = an₂.length ∧ fr₁.length = fr₂.length ∧ ∀ ρ, LabC l₁ l₂ ρ → List.Forall₂ ρ an₁ an₂ → List.Forall₂ ρ fr₁ fr₂ →
      TermCorr ρ t₁ t₂ ∧ List.Forall₂ (StmtCorr ρ) ts₁ ts₂
  | .nil, _, _, _, _, _, _, _, _, _, _, .nil, .nil, .nil, .nil => ⟨rfl, rfl, fun _ _ _ _ => ⟨.named _, .nil⟩⟩
  | .cons o c, _, _, _, _, _, _, _, _, _, _, .cons s₁ r₁, .cons s₂ r₂, .cons d₁ e₁, .cons d₂ e₂ => by
    obtain ⟨h1, h2, h3⟩ := obj_unique o s₁ s₂ d₁ d₂
    obtain ⟨g1, g2, g3⟩ := coll_unique c r₁ r₂ e₁ e₂
    refine ⟨by simp [h1, g1], by simp [h2, g2], fun ρ hl ha hf => ?_⟩
    cases hf with
    | cons hb hf =>
      obtain ⟨ha1, ha2⟩ := forall₂_split h1 ha
      obtain ⟨hf1, hf2⟩ := forall₂_split h2 hf
      obtain ⟨k1, k2⟩ := h3 ρ hl ha1 hf1
      obtain ⟨k3, k4⟩ := g3 ρ hl ha2 hf2
      exact ⟨.bnode hb, .cons ⟨.bnode hb, .named _, k1, rfl⟩ (.cons ⟨.bnode hb, .named _, k3, rfl⟩ (List.rel_append k2 k4))⟩
theorem objs_unique : ∀ (x : PObjs) {x₁ x₂ : TObjs} {an₁ an₂ : List Nat} {s₁ s₂ v₁ v₂ : Term} {fr₁ fr₂ : List Nat} {ts₁ ts₂ : List Stmt},
    ObjsSem R l₁ S x x₁ an₁ → ObjsSem R l₂ S x x₂ an₂ → ObjsDen s₁ v₁ x₁ fr₁ ts₁ → ObjsDen s₂ v₂ x₂ fr₂ ts₂ →
    an₁.length = an₂.length ∧ fr₁.length = fr₂.length ∧ ∀ ρ, TermCorr ρ s₁ s₂ → TermCorr ρ v₁ v₂ → LabC l₁ l₂ ρ → List.Forall₂ ρ an₁ an₂ →
      List.Forall₂ ρ fr₁ fr₂ → List.Forall₂ (StmtCorr ρ) ts₁ ts₂
  | .one o, _, _, _, _, _, _, _, _, _, _, _, _, .one s₁, .one s₂, .one d₁, .one d₂ => by
    obtain ⟨h1, h2, h3⟩ := obj_unique o s₁ s₂ d₁ d₂
    refine ⟨h1, h2, fun ρ hs hv hl ha hf => ?_⟩
    obtain ⟨k1, k2⟩ := h3 ρ hl ha hf
    exact .cons ⟨hs, hv, k1, rfl⟩ k2
  | .cons o os, _, _, _, _, _, _, _, _, _, _, _, _, .cons s₁ r₁, .cons s₂ r₂, .cons d₁ e₁, .cons d₂ e₂ => by
    obtain ⟨h1, h2, h3⟩ := obj_unique o s₁ s₂ d₁ d₂
    obtain ⟨g1, g2, g3⟩ := objs_unique os r₁ r₂ e₁ e₂
    refine ⟨by simp [h1, g1], by simp [h2, g2], fun ρ hs hv hl ha hf => ?_⟩
    obtain ⟨ha1, ha2⟩ := forall₂_split h1 ha
    obtain ⟨hf1, hf2⟩ := forall₂_split h2 hf
    obtain ⟨k1, k2⟩ := h3 ρ hl ha1 hf1
    exact .cons ⟨hs, hv, k1, rfl⟩ (List.rel_append k2 (g3 ρ hs hv hl ha2 hf2))
theorem pol_unique : ∀ (x : PPol) {x₁ x₂ : TPol} {an₁ an₂ : List Nat} {s₁ s₂ : Term} {fr₁ fr₂ : List Nat} {ts₁ ts₂ : List Stmt},
    PolSem R l₁ S x x₁ an₁ → PolSem R l₂ S x x₂ an₂ → PolDen s₁ x₁ fr₁ ts₁ → PolDen s₂ x₂ fr₂ ts₂ →
    an₁.length = an₂.length ∧ fr₁.length = fr₂.length ∧ ∀ ρ, TermCorr ρ s₁ s₂ → LabC l₁ l₂ ρ → List.Forall₂ ρ an₁ an₂ →
      List.Forall₂ ρ fr₁ fr₂ → List.Forall₂ (StmtCorr ρ) ts₁ ts₂
  | .last v os k, _, _, _, _, _, _, _, _, _, _, .last v₁ s₁, .last v₂ s₂, .last d₁, .last d₂ => by
    obtain ⟨h1, h2, h3⟩ := objs_unique os s₁ s₂ d₁ d₂
    exact ⟨h1, h2, fun ρ hs => h3 ρ hs (verb_unique hR v₁ v₂ ρ)⟩
  | .cons v os k p, _, _, _, _, _, _, _, _, _, _, .cons v₁ s₁ r₁, .cons v₂ s₂ r₂, .cons d₁ e₁, .cons d₂ e₂ => by
    obtain ⟨h1, h2, h3⟩ := objs_unique os s₁ s₂ d₁ d₂
    obtain ⟨g1, g2, g3⟩ := pol_unique p r₁ r₂ e₁ e₂
    refine ⟨by simp [h1, g1], by simp [h2, g2], fun ρ hs hl ha hf => ?_⟩
    obtain ⟨ha1, ha2⟩ := forall₂_split h1 ha
    obtain ⟨hf1, hf2⟩ := forall₂_split h2 hf
    exact List.rel_append (h3 ρ hs (verb_unique hR v₁ v₂ ρ) hl ha1 hf1) (g3 ρ hs hl ha2 hf2)
end

theorem stmt_unique {x : PTStmt} {x₁ x₂ : EStmt} {an₁ an₂ : List Nat} {S₁ S₂ : Scope} {fr₁ fr₂ : List Nat} {ts₁ ts₂ : List Stmt}
    (h₁ : StmtSem R l₁ S x x₁ an₁ S₁) (h₂ : StmtSem R l₂ S x x₂ an₂ S₂) (k₁ : StmtDen x₁ fr₁ ts₁) (k₂ : StmtDen x₂ fr₂ ts₂) :
    S₁ = S₂ ∧ an₁.length = an₂.length ∧ fr₁.length = fr₂.length ∧ ∀ ρ, LabC l₁ l₂ ρ → List.Forall₂ ρ an₁ an₂ → List.Forall₂ ρ fr₁ fr₂ →
      List.Forall₂ (StmtCorr ρ) ts₁ ts₂ := by
  cases h₁ with
  | pre h₁ =>
    cases h₂ with | pre h₂ =>
    cases hR.ref h₁ h₂
    cases k₁; cases k₂
    exact ⟨rfl, rfl, rfl, fun _ _ _ _ => .nil⟩
  | base h₁ =>
    cases h₂ with | base h₂ =>
    cases hR.ref h₁ h₂
    cases k₁; cases k₂
    exact ⟨rfl, rfl, rfl, fun _ _ _ _ => .nil⟩
  | node n₁ p₁ =>
    cases h₂ with | node n₂ p₂ =>
    cases k₁ with | node k₁ =>
    cases k₂ with | node k₂ =>
    obtain ⟨h1, h3⟩ := node_unique hR n₁ n₂
    obtain ⟨g1, g2, g3⟩ := pol_unique hR _ p₁ p₂ k₁ k₂
    refine ⟨rfl, by simp [h1, g1], g2, fun ρ hl ha hf => ?_⟩
    obtain ⟨ha1, ha2⟩ := forall₂_split h1 ha
    exact g3 ρ (h3 ρ hl ha1) hl ha2 hf
  | coll n₁ p₁ =>
    cases h₂ with | coll n₂ p₂ =>
    cases k₁ with | coll j₁ k₁ =>
    cases k₂ with | coll j₂ k₂ =>
    obtain ⟨h1, h2, h3⟩ := coll_unique hR _ n₁ n₂ j₁ j₂
    obtain ⟨g1, g2, g3⟩ := pol_unique hR _ p₁ p₂ k₁ k₂
    refine ⟨rfl, by simp [h1, g1], by simp [h2, g2], fun ρ hl ha hf => ?_⟩
    obtain ⟨ha1, ha2⟩ := forall₂_split h1 ha
    obtain ⟨hf1, hf2⟩ := forall₂_split h2 hf
    obtain ⟨m1, m2⟩ := h3 ρ hl ha1 hf1
    exact List.rel_append m2 (g3 ρ m1 hl ha2 hf2)
  | bnpl p₁ =>
    cases h₂ with | bnpl p₂ =>
    cases k₁ with | bnpl k₁ =>
    cases k₂ with | bnpl k₂ =>
    obtain ⟨g1, g2, g3⟩ := pol_unique hR _ p₁ p₂ k₁ k₂
    refine ⟨rfl, g1, by simpa using g2, fun ρ hl ha hf => ?_⟩
    cases hf with
    | cons hb hf => exact g3 ρ (.bnode hb) hl ha hf
  | bnplPol n₁ p₁ =>
    cases h₂ with | bnplPol n₂ p₂ =>
    cases k₁ with | bnplPol j₁ k₁ =>
    cases k₂ with | bnplPol j₂ k₂ =>
    obtain ⟨h1, h2, h3⟩ := pol_unique hR _ n₁ n₂ j₁ j₂
    obtain ⟨g1, g2, g3⟩ := pol_unique hR _ p₁ p₂ k₁ k₂
    refine ⟨rfl, by simp [h1, g1], by simp [h2, g2], fun ρ hl ha hf => ?_⟩
    cases hf with
    | cons hb hf =>
      obtain ⟨ha1, ha2⟩ := forall₂_split h1 ha
      obtain ⟨hf1, hf2⟩ := forall₂_split h2 hf
      exact List.rel_append (h3 ρ (.bnode hb) hl ha1 hf1) (g3 ρ (.bnode hb) hl ha2 hf2)

theorem doc_unique {ds : List PTStmt} {es₁ es₂ : List EStmt} {an₁ an₂ fr₁ fr₂ : List Nat} {ts₁ ts₂ : List Stmt} (h₁ : DocSem R l₁ S ds es₁ an₁)
    (h₂ : DocSem R l₂ S ds es₂ an₂) (k₁ : DocDen es₁ fr₁ ts₁) (k₂ : DocDen es₂ fr₂ ts₂) :
    an₁.length = an₂.length ∧ fr₁.length = fr₂.length ∧ ∀ ρ, LabC l₁ l₂ ρ → List.Forall₂ ρ an₁ an₂ → List.Forall₂ ρ fr₁ fr₂ →
      List.Forall₂ (StmtCorr ρ) ts₁ ts₂ := by
  induction ds generalizing S es₁ es₂ an₁ an₂ fr₁ fr₂ ts₁ ts₂ with
  | nil =>
    cases h₁; cases h₂; cases k₁; cases k₂
    exact ⟨rfl, rfl, fun _ _ _ _ => .nil⟩
  | cons d ds ih =>
    cases h₁ with | cons h₁ r₁ =>
    cases h₂ with | cons h₂ r₂ =>
    cases k₁ with | cons k₁ j₁ =>
    cases k₂ with | cons k₂ j₂ =>
    obtain ⟨rfl, h1, h2, h3⟩ := stmt_unique hR h₁ h₂ k₁ k₂
    obtain ⟨g1, g2, g3⟩ := ih r₁ r₂ j₁ j₂
    refine ⟨by simp [h1, g1], by simp [h2, g2], fun ρ hl ha hf => ?_⟩
    obtain ⟨ha1, ha2⟩ := forall₂_split h1 ha
    obtain ⟨hf1, hf2⟩ := forall₂_split h2 hf
    exact List.rel_append (h3 ρ hl ha1 hf1) (g3 ρ hl ha2 hf2)

end unique

theorem zip_fst {α : Type} {a b : α} : ∀ {x y : List α}, (a, b) ∈ x.zip y → a ∈ x ∧ b ∈ y
  | [], _, h => by simp at h
  | _ :: _, [], h => by simp at h
  | x :: xs, y :: ys, h => by
    rw [List.zip_cons_cons] at h
    rcases List.mem_cons.1 h with h | h
    · cases h; exact ⟨List.mem_cons_self .., List.mem_cons_self ..⟩
    · obtain ⟨h1, h2⟩ := zip_fst h
      exact ⟨List.mem_cons_of_mem _ h1, List.mem_cons_of_mem _ h2⟩

theorem zip_right {α : Type} {a b b' : α} : ∀ {x y : List α}, x.Nodup → (a, b) ∈ x.zip y → (a, b') ∈ x.zip y → b = b'
  | [], _, _, h, _ => by simp at h
  | _ :: _, [], _, h, _ => by simp at h
  | x :: xs, y :: ys, hn, h, h' => by
    rw [List.zip_cons_cons] at h h'
    obtain ⟨hn1, hn2⟩ := List.nodup_cons.1 hn
    rcases List.mem_cons.1 h with e | e <;> rcases List.mem_cons.1 h' with e' | e'
    · cases e; cases e'; rfl
    · cases e; exact absurd (zip_fst e').1 hn1
    · cases e'; exact absurd (zip_fst e).1 hn1
    · exact zip_right hn2 e e'

theorem zip_left {α : Type} {a a' b : α} : ∀ {x y : List α}, y.Nodup → (a, b) ∈ x.zip y → (a', b) ∈ x.zip y → a = a'
  | [], _, _, h, _ => by simp at h
  | _ :: _, [], _, h, _ => by simp at h
  | x :: xs, y :: ys, hn, h, h' => by
    rw [List.zip_cons_cons] at h h'
    obtain ⟨hn1, hn2⟩ := List.nodup_cons.1 hn
    rcases List.mem_cons.1 h with e | e <;> rcases List.mem_cons.1 h' with e' | e'
    · cases e; cases e'; rfl
    · cases e; exact absurd (zip_fst e').2 hn1
    · cases e'; exact absurd (zip_fst e).2 hn1
    · exact zip_left hn2 e e'

theorem forall₂_zip {α : Type} {ρ : α → α → Prop} : ∀ {x y : List α}, x.length = y.length → (∀ a b, (a, b) ∈ x.zip y → ρ a b) → List.Forall₂ ρ x y
  | [], [], _, _ => .nil
  | [], _ :: _, h, _ => by cases h
  | _ :: _, [], h, _ => by cases h
  | x :: xs, y :: ys, h, hr => .cons (hr _ _ (by simp)) (forall₂_zip (by simpa using h) fun a b hab => hr a b (by simp [hab]))

/-- Two graphs of a document are isomorphic. -/
theorem hasTriples_unique {R : Reading} (hR : R.Functional) {S : Scope} {ds : List PTStmt} {ts₁ ts₂ : List Stmt} (h₁ : HasTriples R S ds ts₁)
    (h₂ : HasTriples R S ds ts₂) : ∃ ρ, OneToOne ρ ∧ List.Forall₂ (StmtCorr ρ) ts₁ ts₂ := by
  obtain ⟨l₁, es₁, an₁, fr₁, s₁, d₁, i₁, n₁, x₁⟩ := h₁
  obtain ⟨l₂, es₂, an₂, fr₂, s₂, d₂, i₂, n₂, x₂⟩ := h₂
  obtain ⟨h1, h2, h3⟩ := doc_unique hR s₁ s₂ d₁ d₂
  refine ⟨fun a b => (∃ l, l₁ l = some a ∧ l₂ l = some b) ∨ (a, b) ∈ (an₁ ++ fr₁).zip (an₂ ++ fr₂), ⟨?_, ?_⟩, h3 _ ?_ ?_ ?_⟩
  · rintro a b b' (⟨l, e1, e2⟩ | h) (⟨l', e3, e4⟩ | h')
    · cases i₁ l l' a e1 e3
      rw [e2] at e4; cases e4; rfl
    · exact absurd (zip_fst h').1 (x₁ l a e1)
    · exact absurd (zip_fst h).1 (x₁ l' a e3)
    · exact zip_right n₁ h h'
  · rintro a a' b (⟨l, e1, e2⟩ | h) (⟨l', e3, e4⟩ | h')
    · cases i₂ l l' b e2 e4
      rw [e1] at e3; cases e3; rfl
    · exact absurd (zip_fst h').2 (x₂ l b e2)
    · exact absurd (zip_fst h).2 (x₂ l' b e4)
    · exact zip_left n₂ h h'
  · exact fun l a b ha hb => .inl ⟨l, ha, hb⟩
  · exact forall₂_zip h1 fun a b h => .inr (by rw [List.zip_append h1]; exact List.mem_append_left _ h)
  · exact forall₂_zip h2 fun a b h => .inr (by rw [List.zip_append h1]; exact List.mem_append_right _ h)

end Turtle
end Verif
