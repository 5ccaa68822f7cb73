import Verif.Props.TurtleOrder
/-
C171: how the text of serialize_turtle is laid out: one block for each subject, in it one entry for each predicate, in it the objects, with the
subjects and the predicates sorted by what is written for them. For every graph, with lists and blank nodes, for which there is a text.
-/
namespace Verif.Turtle
open Verif.Turtle.Spec

namespace Spec
/-- A predicate of a block: the node, what is written for it, and what is written for each of its objects. -/
structure Entry where
  node : Term
  name : PStr
  objs : List PStr
  deriving DecidableEq

/-- The block of a subject. -/
structure Block where
  node : Term
  name : PStr
  entries : List Entry
  deriving DecidableEq

/-- The predicate, a space, the objects under each other with commas after all but the last, and ` ;`. -/
def Entry.text (indent : Nat) (e : Entry) : PStr :=
  e.name ++ [32] ++ ([44, 10] ++ List.replicate (indent + e.name.length + 1) 32).intercalate e.objs ++ [32, 59, 10]

/-- The subject, a space, the predicates under each other, and the full stop under them, with an empty line after it. -/
def Block.text (b : Block) : PStr :=
  b.name ++ [32] ++ (List.replicate (b.name.length + 1) 32).intercalate (b.entries.map (Entry.text (b.name.length + 1))) ++
    List.replicate (b.name.length + 1) 32 ++ [46, 10, 10]

/-- What is written for an IRI and for a literal; what is written for a blank node is up to the generator of names. -/
def NamedAs (m : PrefixMap) (base : Option PStr) (x : Term) (t : PStr) : Prop :=
  (∀ i, x = .named i → t = iriRepr m base i) ∧ ∀ v l d, x = .lit v l d → litRepr m v l d = .ok t

/-- An object is written as a node, or as a list in parentheses. -/
def ObjectAs (m : PrefixMap) (base : Option PStr) (x : Term) (t : PStr) : Prop :=
  NamedAs m base x t ∨ ∃ body, t = [40] ++ body ++ [41]
end Spec

/-! ### Names and sorting -/

theorem strLe_iff_le : ∀ a b : PStr, strLe a b = true ↔ a ≤ b
  | [], b => by simp [strLe, List.nil_le]
  | a :: as, [] => by simp [strLe]
  | a :: as, b :: bs => by
    rw [strLe, List.cons_le_cons_iff, ← strLe_iff_le as bs]
    by_cases h1 : a < b
    · simp [h1]
    · by_cases h2 : b < a
      · have : a ≠ b := by omega
        simp [h1, h2, this]
      · have : a = b := by omega
        simp [this]

theorem pairLe_name {a b : PStr × Term} (h : pairLe a b = true) : strLe a.1 b.1 = true := by
  unfold pairLe at h
  split at h
  · next e => rw [e]; exact strLe_refl _
  · exact h

theorem insertPair_names {x : PStr × Term} : ∀ {l : List (PStr × Term)}, l.Pairwise (fun a b => strLe a.1 b.1 = true) →
    (insertPair x l).Pairwise fun a b => strLe a.1 b.1 = true
  | [], _ => by simp [insertPair]
  | y :: ys, h => by
    obtain ⟨h1, h2⟩ := List.pairwise_cons.1 h
    rw [insertPair]
    split
    · next hxy =>
      refine List.pairwise_cons.2 ⟨fun z hz => ?_, h⟩
      rcases List.mem_cons.1 hz with rfl | hz'
      · exact pairLe_name hxy
      · exact strLe_trans _ _ _ (pairLe_name hxy) (h1 z hz')
    · next hxy =>
      refine List.pairwise_cons.2 ⟨fun z hz => ?_, insertPair_names h2⟩
      rcases List.mem_cons.1 ((insertPair_perm x ys).mem_iff.1 hz) with rfl | hz
      · exact pairLe_name (pairLe_total (by simpa using hxy))
      · exact h1 z hz

theorem sort_names : ∀ l : List (PStr × Term), (l.foldr insertPair []).Pairwise fun a b => strLe a.1 b.1 = true
  | [] => List.Pairwise.nil
  | _ :: l => insertPair_names (sort_names l)

theorem name_as {cx : SerCtx} {nm nm' : Names} {x : Term} {t : PStr} (h : name cx nm x = .ok (nm', t)) : NamedAs cx.prefixes cx.base x t := by
  constructor
  · rintro i rfl
    simp only [name] at h
    cases h; rfl
  · rintro v l d rfl
    simp only [name] at h
    cases hl : litRepr cx.prefixes v l d with
    | error e => rw [hl] at h; cases h
    | ok y => rw [hl] at h; cases h; rfl

theorem names_as {cx : SerCtx} : ∀ (ts : List Term) (nm : Names) {nm' : Names} {xs : List (PStr × Term)}, names cx nm ts = .ok (nm', xs) →
    xs.map (·.2) = ts ∧ ∀ x ∈ xs, NamedAs cx.prefixes cx.base x.2 x.1
  | [], _, _, _, h => by cases h; exact ⟨rfl, by simp⟩
  | t :: ts, nm, nm', xs, h => by
    rw [names] at h
    cases hn : name cx nm t with
    | error e => rw [hn] at h; cases h
    | ok r =>
      obtain ⟨nm1, x⟩ := r
      rw [hn] at h
      dsimp only at h
      cases hr : names cx nm1 ts with
      | error e => rw [hr] at h; cases h
      | ok q =>
        obtain ⟨nm2, ys⟩ := q
        rw [hr] at h
        cases h
        obtain ⟨i1, i2⟩ := names_as ts nm1 hr
        refine ⟨by simp [i1], fun y hy => ?_⟩
        rcases List.mem_cons.1 hy with rfl | hy
        · exact name_as hn
        · exact i2 y hy

theorem sortedNames_as {cx : SerCtx} {ts : List Term} {nm nm' : Names} {xs : List (PStr × Term)} (h : sortedNames cx nm ts = .ok (nm', xs)) :
    (xs.map (·.2)).Perm ts ∧ (xs.map (·.1)).Pairwise (· ≤ ·) ∧ ∀ x ∈ xs, NamedAs cx.prefixes cx.base x.2 x.1 := by
  unfold sortedNames at h
  cases hn : names cx nm ts with
  | error e => rw [hn] at h; cases h
  | ok r =>
    obtain ⟨nm1, ys⟩ := r
    rw [hn] at h
    dsimp only at h
    split at h
    · cases h
    · cases h
      obtain ⟨i1, i2⟩ := names_as ts nm hn
      have p := sort_perm ys
      refine ⟨i1 ▸ p.map _, ?_, fun x hx => i2 x (p.mem_iff.1 hx)⟩
      rw [List.pairwise_map]
      exact (sort_names ys).imp fun hab => (strLe_iff_le _ _).1 hab

/-! ### The loops -/

theorem intercalate_cons {sep : PStr} (x : PStr) (xs : List PStr) : sep.intercalate (x :: xs) = x ++ xs.flatMap (sep ++ ·) := by
  induction xs generalizing x with
  | nil => simp [List.intercalate]
  | cons y ys ih =>
    have : sep.intercalate (x :: y :: ys) = x ++ (sep ++ sep.intercalate (y :: ys)) := by simp [List.intercalate, List.intersperse]
    rw [this, ih]
    simp

theorem intercalate_first {sep : PStr} (xs : List PStr) (first : Bool) :
    (if first then sep.intercalate xs else xs.flatMap (sep ++ ·)) =
    match xs with
    | [] => []
    | x :: xs => (if first then [] else sep) ++ x ++ xs.flatMap (sep ++ ·) := by
  cases xs with
  | nil => cases first <;> simp [List.intercalate]
  | cons x xs => cases first <;> simp [intercalate_cons]

/-- What is written for a node that is not a blank node: no state of names matters. -/
def nameOf (cx : SerCtx) (x : Term) : PStr :=
  match name cx {} x with
  | .ok r => r.2
  | .error _ => []

theorem name_ground {cx : SerCtx} {nm nm' : Names} {x : Term} {t : PStr} (hx : ∀ b, x ≠ .bnode b) (h : name cx nm x = .ok (nm', t)) : nm' = nm ∧ t = nameOf cx x := by
  cases x with
  | bnode b => exact absurd rfl (hx b)
  | named i => cases h; exact ⟨rfl, rfl⟩
  | lit v l d =>
    simp only [name] at h
    unfold nameOf
    simp only [name]
    cases hl : litRepr cx.prefixes v l d with
    | error e => rw [hl] at h; cases h
    | ok y => rw [hl] at h; cases h; exact ⟨rfl, rfl⟩
  | _ => cases h

/-- The graph has no lists and no blank nodes, and its predicates are IRIs. -/
structure PlainGraph (o : Orders) (w : World) (c : Nat) (g : Graph) : Prop where
  isList : ∀ x, isList o w g c x = .ok false
  obj : ∀ s p, ∀ t ∈ g.match o.stmts s p .none, ∀ b, t.o ≠ .bnode b
  pred : ∀ s, ∀ t ∈ g.match o.stmts s .none .none, ∃ i, t.p = .named i

/-- The predicates of a subject in the order in which they are written. -/
def predPairs (o : Orders) (g : Graph) (cx : SerCtx) (s : Term) : List (PStr × Term) :=
  match sortedNames cx {} (o.terms (pySet ((g.match o.stmts s .none .none).map (·.p)))) with
  | .ok r => r.2
  | .error _ => []

/-- The entry of a predicate of a graph without lists and blank nodes. -/
def entryOf (o : Orders) (g : Graph) (cx : SerCtx) (s : Term) (q : PStr × Term) : Entry :=
  ⟨q.2, q.1, (g.match o.stmts s q.2 .none).map fun t => nameOf cx t.o⟩

/-- The block of a subject of a graph without lists and blank nodes. -/
def blockOf (o : Orders) (g : Graph) (cx : SerCtx) (e : PStr × Term) : Block :=
  ⟨e.2, e.1, (predPairs o g cx e.2).map (entryOf o g cx e.2)⟩

section
variable {o : Orders} {c fuel : Nat} {g : Graph} {cx : SerCtx}

theorem objText_plain {w : World} {nm : Names} {st' : SerSt} {x : Term} {t : PStr} (hl : ∀ x, isList o w g c x = .ok false) (hx : ∀ b, x ≠ .bnode b)
    (h : objText o c fuel g cx ⟨w, nm⟩ x = .ok (st', t)) : st' = ⟨w, nm⟩ ∧ t = nameOf cx x := by
  unfold objText at h
  rw [hl] at h
  dsimp only at h
  cases hn : name cx nm x with
  | error e => rw [hn] at h; cases h
  | ok r =>
    obtain ⟨nm1, y⟩ := r
    rw [hn] at h
    cases h
    obtain ⟨rfl, rfl⟩ := name_ground hx hn
    exact ⟨rfl, rfl⟩

theorem objText_as {st st' : SerSt} {x : Term} {t : PStr} (h : objText o c fuel g cx st x = .ok (st', t)) : ObjectAs cx.prefixes cx.base x t := by
  unfold objText at h
  cases hi : isList o st.w g c x with
  | error e => rw [hi] at h; cases h
  | ok b =>
    rw [hi] at h
    cases b with
    | true =>
      dsimp only at h
      split at h
      · cases h
      · cases h; exact .inr ⟨_, rfl⟩
    | false =>
      dsimp only at h
      cases hn : name cx st.nm x with
      | error e => rw [hn] at h; cases h
      | ok r => rw [hn] at h; cases h; exact .inl (name_as hn)

theorem objsText_layout {indent : Nat} : ∀ (ts : List Stmt) (first : Bool) (st : SerSt) {st' : SerSt} {X : PStr},
    objsText o c fuel g cx indent first st ts = .ok (st', X) →
    ∃ xs : List PStr, X = (if first then ([44, 10] ++ spaces indent).intercalate xs else xs.flatMap (([44, 10] ++ spaces indent) ++ ·)) ∧
      List.Forall₂ (fun t x => ObjectAs cx.prefixes cx.base t.o x) ts xs ∧
      ((∀ x, isList o st.w g c x = .ok false) → (∀ t ∈ ts, ∀ b, t.o ≠ .bnode b) → st' = st ∧ xs = ts.map fun t => nameOf cx t.o)
  | [], first, _, _, _, h => by cases h; exact ⟨[], by cases first <;> rfl, .nil, fun _ _ => ⟨rfl, rfl⟩⟩
  | t :: ts, first, st, st', X, h => by
    rw [objsText] at h
    cases h1 : objText o c fuel g cx st t.o with
    | error e => rw [h1] at h; cases h
    | ok r =>
      obtain ⟨st1, x⟩ := r
      rw [h1] at h
      dsimp only at h
      cases h2 : objsText o c fuel g cx indent false st1 ts with
      | error e => rw [h2] at h; cases h
      | ok q =>
        obtain ⟨st2, Y⟩ := q
        rw [h2] at h
        cases h
        obtain ⟨xs, i1, i2, i3⟩ := objsText_layout ts false st1 h2
        refine ⟨x :: xs, ?_, .cons (objText_as h1) i2, fun hl hb => ?_⟩
        · rw [intercalate_first, i1]
          simp
        · obtain ⟨rfl, rfl⟩ := objText_plain hl (hb t (List.mem_cons_self ..)) h1
          obtain ⟨rfl, rfl⟩ := i3 hl fun t ht => hb t (List.mem_cons_of_mem _ ht)
          exact ⟨rfl, rfl⟩

/-- What an entry has to do with a subject and a predicate: it has the objects of the triples that `match` gives, in that order. -/
def IsEntry (o : Orders) (g : Graph) (cx : SerCtx) (s : Term) (e : Entry) : Prop :=
  List.Forall₂ (fun t x => ObjectAs cx.prefixes cx.base t.o x) (g.match o.stmts s e.node .none) e.objs

theorem predsText_layout {s : Term} {indent : Nat} : ∀ (ps : List (PStr × Term)) (first : Bool) (st : SerSt) {st' : SerSt} {X : PStr},
    predsText o c fuel g cx s indent first st ps = .ok (st', X) →
    ∃ es : List Entry, X = (if first then (spaces indent).intercalate (es.map (Entry.text indent)) else (es.map (Entry.text indent)).flatMap (spaces indent ++ ·)) ∧
      es.map (fun e => (e.name, e.node)) = ps ∧ (∀ e ∈ es, IsEntry o g cx s e) ∧
      (PlainGraph o st.w c g → st' = st ∧ es = ps.map (entryOf o g cx s))
  | [], first, _, _, _, h => by cases h; exact ⟨[], by cases first <;> rfl, rfl, by simp, fun _ => ⟨rfl, rfl⟩⟩
  | (pname, p) :: ps, first, st, st', X, h => by
    rw [predsText] at h
    cases h1 : objsText o c fuel g cx (indent + pname.length + 1) true st (g.match o.stmts s p .none) with
    | error e => rw [h1] at h; cases h
    | ok r =>
      obtain ⟨st1, x⟩ := r
      rw [h1] at h
      dsimp only at h
      cases h2 : predsText o c fuel g cx s indent false st1 ps with
      | error e => rw [h2] at h; cases h
      | ok q =>
        obtain ⟨st2, Y⟩ := q
        rw [h2] at h
        cases h
        obtain ⟨xs, j1, j2, j3⟩ := objsText_layout _ true st h1
        obtain ⟨es, i1, i2, i3, i4⟩ := predsText_layout ps false st1 h2
        refine ⟨⟨p, pname, xs⟩ :: es, ?_, by simp [i2], ?_, fun hp => ?_⟩
        · rw [List.map_cons, intercalate_first, i1, j1]
          simp [Entry.text, spaces]
        · intro e he
          rcases List.mem_cons.1 he with rfl | he
          · exact j2
          · exact i3 e he
        · obtain ⟨rfl, rfl⟩ := j3 hp.isList (hp.obj s p)
          obtain ⟨rfl, rfl⟩ := i4 hp
          exact ⟨rfl, rfl⟩

/-- What a block has to do with its subject. -/
structure IsBlock (o : Orders) (g : Graph) (cx : SerCtx) (b : Block) : Prop where
  sorted : (b.entries.map (·.name)).Pairwise (· ≤ ·)
  preds : (b.entries.map (·.node)).Perm (o.terms (pySet ((g.match o.stmts b.node .none .none).map (·.p))))
  names : ∀ e ∈ b.entries, NamedAs cx.prefixes cx.base e.node e.name
  objs : ∀ e ∈ b.entries, IsEntry o g cx b.node e

theorem subjText_layout (ho : Orders.OK o) {st st' : SerSt} {sname : PStr} {s : Term} {X : PStr} (h : subjText o c fuel g cx st sname s = .ok (st', X)) :
    ∃ b : Block, b.node = s ∧ b.name = sname ∧ X = b.text ∧ IsBlock o g cx b ∧
      (PlainGraph o st.w c g → st.nm = {} → st' = st ∧ b = blockOf o g cx (sname, s)) := by
  unfold subjText at h
  dsimp only at h
  cases h1 : sortedNames cx st.nm (o.terms (pySet ((g.match o.stmts s .none .none).map (·.p)))) with
  | error e => rw [h1] at h; cases h
  | ok r =>
    obtain ⟨nm, ps⟩ := r
    rw [h1] at h
    dsimp only at h
    cases h2 : predsText o c fuel g cx s (sname.length + 1) true ⟨st.w, nm⟩ ps with
    | error e => rw [h2] at h; cases h
    | ok q =>
      obtain ⟨st2, Y⟩ := q
      rw [h2] at h
      cases h
      obtain ⟨es, i1, i2, i3, i4⟩ := predsText_layout ps true _ h2
      obtain ⟨k1, k2, k3⟩ := sortedNames_as h1
      rw [← i2, List.map_map] at k1 k2
      refine ⟨⟨s, sname, es⟩, rfl, rfl, ?_, ⟨k2, k1, fun e he => ?_, i3⟩, fun hp hnm => ?_⟩
      · rw [i1]; simp [Block.text, spaces]
      · exact k3 (e.name, e.node) (i2 ▸ List.mem_map.2 ⟨e, he, rfl⟩)
      · obtain ⟨w, nm0⟩ := st
        have hnm : nm0 = {} := hnm
        subst hnm
        obtain ⟨xs, q1, -, -⟩ := sortedNames_named (m := cx.prefixes) (base := cx.base) (namer := cx.namer) {}
          (ts := o.terms (pySet ((g.match o.stmts s .none .none).map (·.p)))) (fun p hq => by
            obtain ⟨t, h4, rfl⟩ := List.mem_map.1 ((mem_pySet _ _).1 ((ho.terms _).mem_iff.1 hq))
            exact hp.pred s t h4)
        have q1 : sortedNames cx {} (o.terms (pySet ((g.match o.stmts s .none .none).map (·.p)))) = .ok ({}, xs) := q1
        have h1' := h1
        rw [q1] at h1'
        cases h1'
        obtain ⟨rfl, rfl⟩ := i4 hp
        refine ⟨rfl, ?_⟩
        simp only [blockOf, predPairs, q1]

theorem subjsText_layout (ho : Orders.OK o) : ∀ (ss : List (PStr × Term)) (st : SerSt) {st' : SerSt} {X : PStr}, subjsText o c fuel g cx st ss = .ok (st', X) →
    ∃ bs : List Block, X = bs.flatMap Block.text ∧ bs.map (fun b => (b.name, b.node)) = ss ∧ (∀ b ∈ bs, IsBlock o g cx b) ∧
      (PlainGraph o st.w c g → st.nm = {} → st' = st ∧ bs = ss.map (blockOf o g cx))
  | [], _, _, _, h => by cases h; exact ⟨[], rfl, rfl, by simp, fun _ _ => ⟨rfl, rfl⟩⟩
  | (sname, s) :: ss, st, st', X, h => by
    rw [subjsText] at h
    cases h1 : subjText o c fuel g cx st sname s with
    | error e => rw [h1] at h; cases h
    | ok r =>
      obtain ⟨st1, x⟩ := r
      rw [h1] at h
      dsimp only at h
      cases h2 : subjsText o c fuel g cx st1 ss with
      | error e => rw [h2] at h; cases h
      | ok q =>
        obtain ⟨st2, Y⟩ := q
        rw [h2] at h
        cases h
        obtain ⟨b, rfl, rfl, rfl, j, j2⟩ := subjText_layout ho h1
        obtain ⟨bs, rfl, i2, i3, i4⟩ := subjsText_layout ho ss st1 h2
        refine ⟨b :: bs, rfl, by simp [i2], fun b' hb' => ?_, fun hp hnm => ?_⟩
        · rcases List.mem_cons.1 hb' with rfl | hb'
          · exact j
          · exact i3 b' hb'
        · obtain ⟨rfl, e1⟩ := j2 hp hnm
          obtain ⟨rfl, e2⟩ := i4 hp hnm
          exact ⟨rfl, by rw [List.map_cons, ← e1, ← e2]⟩

theorem plainSubjects_layout {w : World} : ∀ (ss : List Term) {r : List Term}, plainSubjects o w c g ss = .ok r →
    r.Sublist ss ∧ ∀ x, x ∈ r ↔ x ∈ ss ∧ isList o w g c x = .ok false
  | [], _, h => by cases h; exact ⟨.slnil, by simp⟩
  | s :: ss, r, h => by
    rw [plainSubjects] at h
    cases h1 : isList o w g c s with
    | error e => rw [h1] at h; cases h
    | ok b =>
      rw [h1] at h
      dsimp only at h
      cases h2 : plainSubjects o w c g ss with
      | error e => rw [h2] at h; cases h
      | ok q =>
        rw [h2] at h
        cases h
        obtain ⟨i1, i2⟩ := plainSubjects_layout ss h2
        cases b with
        | true =>
          refine ⟨i1.cons _, fun x => ?_⟩
          simp only [if_true, i2, List.mem_cons]
          constructor
          · exact fun hx => ⟨.inr hx.1, hx.2⟩
          · rintro ⟨rfl | hx, hf⟩
            · rw [h1] at hf; cases hf
            · exact ⟨hx, hf⟩
        | false =>
          refine ⟨i1.cons_cons _, fun x => ?_⟩
          simp only [Bool.false_eq_true, if_false, i2, List.mem_cons]
          constructor
          · rintro (rfl | hx)
            · exact ⟨.inl rfl, h1⟩
            · exact ⟨.inr hx.1, hx.2⟩
          · rintro ⟨rfl | hx, hf⟩
            · exact .inl rfl
            · exact .inr ⟨hx, hf⟩
end

/-! ### C171 -/

/-- The layout of the text for a set of triples: `subjects` are those of which there is a block. -/
structure Spec.Layout (S : Finset Verif.Spec.Tri) (subjects : Term → Prop) (m : PrefixMap) (base : Option PStr) (bs : List Block) : Prop where
  /-- the subjects are sorted by what is written for them, -/
  sorted : (bs.map (·.name)).Pairwise (· ≤ ·)
  /-- each has one block, -/
  once : (bs.map (·.node)).Nodup
  all : ∀ s, s ∈ bs.map (·.node) ↔ subjects s
  named : ∀ b ∈ bs, NamedAs m base b.node b.name
  /-- in which the predicates are sorted in the same way, -/
  predsSorted : ∀ b ∈ bs, (b.entries.map (·.name)).Pairwise (· ≤ ·)
  /-- each once, those of the triples of that subject and no others, -/
  predsOnce : ∀ b ∈ bs, (b.entries.map (·.node)).Nodup
  predsAll : ∀ b ∈ bs, ∀ p, p ∈ b.entries.map (·.node) ↔ ∃ t ∈ S, t.s = b.node ∧ t.p = p
  predsNamed : ∀ b ∈ bs, ∀ e ∈ b.entries, NamedAs m base e.node e.name
  /-- with the objects of the triples of that subject and predicate, each once. -/
  objs : ∀ b ∈ bs, ∀ e ∈ b.entries, ∃ os : List Term, os.Nodup ∧ (∀ x, x ∈ os ↔ ⟨b.node, e.node, x⟩ ∈ S) ∧ List.Forall₂ (ObjectAs m base) os e.objs

/-- C171, and the blocks themselves for a graph without lists and blank nodes. -/
theorem layout_full (u : Term) (ops : List Verif.Spec.GOp) (ht : ∀ t ∈ everAdded ops, t.s.truthy = true ∧ t.p.truthy = true) {o : Orders} (ho : Orders.OK o) {w : World}
    (hr : resolveKey w listC (py! "rdf:rest") = .ok (some (Heap.rdfNs ++ py! "rest"))) {fuel : Nat} {base : Option PStr} {m : Option PrefixMap} {namer : Namer} {text : PStr}
    (h : serializeTurtle o w fuel (Graph.run u ops) base m namer = .ok text) :
    ∃ bs : List Block, text = header base (m.getD defaultPrefixes) ++ bs.flatMap Block.text ∧
      Layout (Verif.Spec.runSet ops)
        (fun s => (∃ t ∈ everAdded ops, t.s = s) ∧ ¬ ∃ t ∈ Verif.Spec.runSet ops, t.s = s ∧ t.p = .named (Heap.rdfNs ++ py! "rest"))
        (m.getD defaultPrefixes) base bs ∧
      (PlainGraph o w listC (Graph.run u ops) → (∀ t ∈ everAdded ops, ∃ i, t.s = .named i) →
        ∃ ss, sortedNames ⟨m.getD defaultPrefixes, base, namer⟩ {} (Graph.run u ops).subjects = .ok ({}, ss) ∧
          bs = ss.map (blockOf o (Graph.run u ops) ⟨m.getD defaultPrefixes, base, namer⟩)) := by
  have rep := Graph.rep_run u ops
  obtain ⟨⟨nd, hs⟩, -, -⟩ := C04_lists_ever_added u ops
  have hmem : ∀ (s p : Term) (t : Stmt), s.truthy = true → (t ∈ (Graph.run u ops).match o.stmts s p .none ↔
      ∃ x ∈ Verif.Spec.runSet ops, t = x.stmt ∧ x.s = s ∧ (p.truthy = true → x.p = p)) := by
    intro s p t hst
    rw [Graph.mem_match rep.inv ho.stmts, rep.mem]
    constructor
    · rintro ⟨⟨x, hx, rfl⟩, h1, h2, -⟩
      exact ⟨x, hx, rfl, h1 hst, h2⟩
    · rintro ⟨x, hx, rfl, h1, h2⟩
      exact ⟨⟨x, hx, rfl⟩, fun _ => h1, h2, fun h => by cases h⟩
  unfold serializeTurtle at h
  dsimp only at h
  cases h1 : plainSubjects o w listC (Graph.run u ops) (Graph.run u ops).subjects with
  | error e => rw [h1] at h; cases h
  | ok subjects =>
    rw [h1] at h
    dsimp only at h
    cases h2 : sortedNames ⟨m.getD defaultPrefixes, base, namer⟩ {} subjects with
    | error e => rw [h2] at h; cases h
    | ok r =>
      obtain ⟨nm, ss⟩ := r
      rw [h2] at h
      dsimp only at h
      cases h3 : subjsText o listC fuel (Graph.run u ops) ⟨m.getD defaultPrefixes, base, namer⟩ ⟨w, nm⟩ ss with
      | error e => rw [h3] at h; cases h
      | ok q =>
        obtain ⟨st, X⟩ := q
        rw [h3] at h
        cases h
        obtain ⟨bs, rfl, i2, i3, i4⟩ := subjsText_layout ho ss _ h3
        obtain ⟨k1, k2, k3⟩ := sortedNames_as h2
        obtain ⟨p1, p2⟩ := plainSubjects_layout _ h1
        rw [← i2, List.map_map] at k1 k2
        have k1 : (bs.map (·.node)).Perm subjects := k1
        have tr : ∀ b ∈ bs, b.node.truthy = true := by
          intro b hb
          obtain ⟨t, h4, h5⟩ := (hs b.node).1 ((p2 _).1 (k1.mem_iff.1 (List.mem_map.2 ⟨b, hb, rfl⟩))).1
          exact h5 ▸ (ht t h4).1
        have pa : ∀ b ∈ bs, ∀ p, p ∈ b.entries.map (·.node) ↔ ∃ t ∈ Verif.Spec.runSet ops, t.s = b.node ∧ t.p = p := by
          intro b hb p
          rw [(i3 b hb).preds.mem_iff, (ho.terms _).mem_iff, mem_pySet, List.mem_map]
          constructor
          · rintro ⟨t, h4, rfl⟩
            obtain ⟨x, hx, rfl, h5, -⟩ := (hmem _ _ _ (tr b hb)).1 h4
            exact ⟨x, hx, h5, rfl⟩
          · rintro ⟨x, hx, h5, rfl⟩
            exact ⟨x.stmt, (hmem _ _ _ (tr b hb)).2 ⟨x, hx, rfl, h5, fun h => by cases h⟩, rfl⟩
        refine ⟨bs, rfl, ⟨k2, k1.nodup_iff.2 (p1.nodup nd), fun s => ?_, fun b hb => ?_, fun b hb => (i3 b hb).sorted, fun b hb => ?_, pa,
          fun b hb => (i3 b hb).names, fun b hb e he => ?_⟩, fun hp hn => ?_⟩
        · rw [k1.mem_iff, p2, hs]
          refine and_congr_right fun ⟨t, h4, h5⟩ => ?_
          rw [isList, hr]
          have hst : s.truthy = true := h5 ▸ (ht t h4).1
          have : (decide ((Graph.run u ops).match o.stmts s (predTerm (some (Heap.rdfNs ++ py! "rest"))) .none ≠ []) = false) ↔
              ¬ ∃ t ∈ Verif.Spec.runSet ops, t.s = s ∧ t.p = .named (Heap.rdfNs ++ py! "rest") := by
            rw [decide_eq_false_iff_not, not_not, List.eq_nil_iff_forall_not_mem]
            constructor
            · rintro h6 ⟨x, hx, h7, h8⟩
              exact h6 x.stmt ((hmem _ _ _ hst).2 ⟨x, hx, rfl, h7, fun _ => h8⟩)
            · intro h6 t h7
              obtain ⟨x, hx, -, h8, h9⟩ := (hmem _ _ _ hst).1 h7
              exact h6 ⟨x, hx, h8, h9 rfl⟩
          rw [← this]
          exact ⟨fun h => Except.ok.inj h, fun h => congrArg Except.ok h⟩
        · exact k3 (b.name, b.node) (i2 ▸ List.mem_map.2 ⟨b, hb, rfl⟩)
        · exact (i3 b hb).preds.nodup_iff.2 ((ho.terms _).nodup_iff.2 (nodup_pySet _))
        · obtain ⟨x, hx, hxs, hxp⟩ := (pa b hb e.node).1 (List.mem_map.2 ⟨e, he, rfl⟩)
          have het : e.node.truthy = true := by
            rw [← hxp]
            exact (ht x (runSet_everAdded x hx)).2
          refine ⟨((Graph.run u ops).match o.stmts b.node e.node .none).map (·.o), ?_, fun y => ?_, ?_⟩
          · refine List.Nodup.map_on ?_ (Graph.nodup_match rep.inv.toIxInv ho.stmts _ _ _)
            intro t1 h4 t2 h5 heq
            obtain ⟨x1, -, rfl, h6, h7⟩ := (hmem _ _ _ (tr b hb)).1 h4
            obtain ⟨x2, -, rfl, h8, h9⟩ := (hmem _ _ _ (tr b hb)).1 h5
            obtain ⟨a1, a2, a3⟩ := x1
            obtain ⟨c1, c2, c3⟩ := x2
            have e1 : a1 = c1 := h6.trans h8.symm
            have e2 : a2 = c2 := (h7 het).trans (h9 het).symm
            have e3 : a3 = c3 := heq
            rw [e1, e2, e3]
          · rw [List.mem_map]
            constructor
            · rintro ⟨t, h4, rfl⟩
              obtain ⟨⟨a1, a2, a3⟩, h5, rfl, h6, h7⟩ := (hmem _ _ _ (tr b hb)).1 h4
              have h6 : a1 = b.node := h6
              have h7 : a2 = e.node := h7 het
              rw [← h6, ← h7]
              exact h5
            · intro h4
              exact ⟨_, (hmem _ _ _ (tr b hb)).2 ⟨_, h4, rfl, rfl, fun _ => rfl⟩, rfl⟩
          · rw [List.forall₂_map_left_iff]
            exact (i3 b hb).objs e he
        · have e0 : subjects = (Graph.run u ops).subjects := by
            have := plainSubjects_all (o := o) (w := w) (c := listC) (g := Graph.run u ops) (Graph.run u ops).subjects fun x _ => hp.isList x
            rw [h1] at this
            exact Except.ok.inj this
          obtain ⟨xs, q1, -, -⟩ := sortedNames_named (m := m.getD defaultPrefixes) (base := base) (namer := namer) {} (ts := subjects) (fun s h4 => by
            rw [e0] at h4
            obtain ⟨t, h5, rfl⟩ := (hs s).1 h4
            exact hn t h5)
          have h2' := h2
          rw [q1] at h2'
          cases h2'
          exact ⟨ss, e0 ▸ h2, (i4 hp rfl).2⟩

/-- C171. There is a block for each subject that was ever added, unless it is a list (`C04_lists_ever_added`: a graph still gives the subject of which all
    triples were removed; its block has no entries). -/
theorem C171_layout (u : Term) (ops : List Verif.Spec.GOp) (ht : ∀ t ∈ everAdded ops, t.s.truthy = true ∧ t.p.truthy = true) {o : Orders} (ho : Orders.OK o) {w : World}
    (hr : resolveKey w listC (py! "rdf:rest") = .ok (some (Heap.rdfNs ++ py! "rest"))) {fuel : Nat} {base : Option PStr} {m : Option PrefixMap} {namer : Namer} {text : PStr}
    (h : serializeTurtle o w fuel (Graph.run u ops) base m namer = .ok text) :
    ∃ bs : List Block, text = header base (m.getD defaultPrefixes) ++ bs.flatMap Block.text ∧
      Layout (Verif.Spec.runSet ops)
        (fun s => (∃ t ∈ everAdded ops, t.s = s) ∧ ¬ ∃ t ∈ Verif.Spec.runSet ops, t.s = s ∧ t.p = .named (Heap.rdfNs ++ py! "rest"))
        (m.getD defaultPrefixes) base bs := by
  obtain ⟨bs, h1, h2, -⟩ := layout_full u ops ht ho hr h
  exact ⟨bs, h1, h2⟩

/-- Two subjects, the second written first, with two predicates and two objects. -/
def layoutOps : List Verif.Spec.GOp :=
  [.add ⟨.named (py! "x:t"), .named (py! "x:p"), .lit (py! "b") none none⟩,
   .add ⟨.named (py! "x:s"), .named (py! "x:q"), .named (py! "x:o")⟩,
   .addAll [⟨.named (py! "x:s"), .named (py! "x:p"), .named (py! "x:o")⟩, ⟨.named (py! "x:s"), .named (py! "x:p"), .bnode 7⟩]]

set_option maxRecDepth 20000 in
theorem layout_text : serializeTurtle {} World.new 0 (Graph.run .none layoutOps) none (some [(py! "xsd", Heap.xsdNs)]) (some fun n => py! "_:b" ++ List.replicate n 98) =
    .ok (py! "@prefix xsd: <http://www.w3.org/2001/XMLSchema#> .\n<x:s> <x:p> <x:o>,\n            _:b ;\n      <x:q> <x:o> ;\n      .\n\n<x:t> <x:p> \"b\" ;\n      .\n\n") := by
  decide

set_option maxRecDepth 20000 in
example : ∃ bs, Layout (Verif.Spec.runSet layoutOps)
    (fun s => (∃ t ∈ everAdded layoutOps, t.s = s) ∧ ¬ ∃ t ∈ Verif.Spec.runSet layoutOps, t.s = s ∧ t.p = .named (Heap.rdfNs ++ py! "rest"))
    [(py! "xsd", Heap.xsdNs)] none bs :=
  (C171_layout .none layoutOps (by decide) Orders.OK.default resolveKey_rest layout_text).imp fun _ h => h.2

example : Block.text ⟨.named (py! "x:s"), py! "<x:s>", [⟨.named (py! "x:p"), py! "<x:p>", [py! "<x:o>", py! "_:b"]⟩, ⟨.named (py! "x:q"), py! "<x:q>", [py! "<x:o>"]⟩]⟩ =
    py! "<x:s> <x:p> <x:o>,\n            _:b ;\n      <x:q> <x:o> ;\n      .\n\n" := by decide

end Verif.Turtle
