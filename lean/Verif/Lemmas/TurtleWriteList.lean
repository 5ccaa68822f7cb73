import Verif.Props.TurtleRound
import Verif.Props.ResList
/-
The text the Turtle writer makes of lists of literals, and how the parser reads it.
-/
namespace Verif.Turtle
open Verif.Turtle.Spec
open Verif.Graph (mkTriple_inj)

/-! ### Lists of literals: a specification -/

/-- The first cell of a list, given its cells with their values; `rdf:nil` if there is none. -/
def headOf : List (Nat × Term) → Term
  | [] => rdfNil
  | (c, _) :: _ => .bnode c

/-- The triples of the cells of a list. -/
def cellStmts : List (Nat × Term) → List Stmt
  | [] => []
  | (c, v) :: cs => cellStmts cs ++ [mkTriple (.bnode c) rdfFirst v, mkTriple (.bnode c) rdfRest (headOf cs)]

/-- Every cell has one first and one rest, as listed. -/
def IsCells (T : Stmt → Prop) : List (Nat × Term) → Prop
  | [] => True
  | (c, v) :: cs => (∀ x, T (mkTriple (.bnode c) rdfFirst x) ↔ x = v) ∧ (∀ x, T (mkTriple (.bnode c) rdfRest x) ↔ x = headOf cs) ∧ IsCells T cs

/-- A literal that survives in a list read by a class with this language. -/
def SafeItem (lang : Option PStr) (e : Term) : Prop := (∃ v l d, e = .lit v l d ∧ TextLit v l d) ∧ Readable lang e

/-! ### Iterating -/

def litVal : Term → Val
  | .lit v l d => .lit v l d
  | _ => .none

theorem listTake_cells {o : Orders} (ho : o.OK) {w : World} {g : Graph} (hg : g.Reach) {c : Nat}
    (hL : ListClass w c (Heap.rdfNs ++ py! "first") (Heap.rdfNs ++ py! "rest") (Heap.rdfNs ++ py! "nil"))
    (hn : classify o w g c rdfNil = (w, .ok (.res 0 rdfNil))) :
    ∀ cs : List (Nat × Term), IsCells (· ∈ g.triples) cs → (∀ e ∈ cs, SafeItem (w.lang c) e.2 ∧ classify o w g c (.bnode e.1) = (w, .ok (.res 0 (.bnode e.1)))) →
      ∀ n k, (cs ≠ [] → k = c) → listTake o g c (cs.length + 1 + n) w (.test ⟨k, headOf cs⟩) = (w, cs.map fun e => litVal e.2, some (.ok ()))
  | [], _, _, n, k, _ => by
    rw [show ([] : List (Nat × Term)).length + 1 + n = n + 1 by simp; omega]
    unfold listTake listNext listTest
    simp only [hL.nil, predTerm, headOf, rdfNil, if_true]
    rfl
  | (x, v) :: cs, hcs, he, n, k, hk => by
    obtain rfl := hk (by simp)
    obtain ⟨hf, hre, htail⟩ := hcs
    obtain ⟨⟨⟨v', l, d, hv, _⟩, hread⟩, _⟩ := he _ (List.mem_cons_self ..)
    dsimp only at hv hread
    subst hv
    have ih := listTake_cells ho hg hL hn cs htail (fun e h => he e (List.mem_cons_of_mem _ h))
    have g1 := getOne_single (o := o) ho hg (r := ⟨k, .bnode x⟩) rfl hL.nfirst hL.first hL.sfirst hL.lang hf hread
    have hc1 : classify o w g k (.lit v' l d) = (w, .ok (.lit v' l d)) := rfl
    rw [hc1] at g1
    have hsr : Verif.Spec.IsResource (headOf cs) := by
      cases cs with
      | nil => exact .inl ⟨_, rfl⟩
      | cons a b => exact .inr ⟨_, rfl⟩
    have g2 := getOne_single (o := o) ho hg (w := w) (r := ⟨k, .bnode x⟩) rfl hL.nrest hL.rest hL.srest hL.lang hre (fun l _ => .inl hsr)
    have hc2 : classify o w g k (headOf cs) = (w, .ok (.res 0 (headOf cs))) := by
      cases cs with
      | nil => exact hn
      | cons a b => exact (he a (by simp)).2
    rw [hc2] at g2
    have e1 : ((x, Term.lit v' l d) :: cs).length + 1 + n = (cs.length + 1 + n) + 1 := by simp; omega
    have hx : ¬ (Term.bnode x = .named (Heap.rdfNs ++ py! "nil")) := by simp
    have h1 : listNext o w g k (.test ⟨k, headOf ((x, .lit v' l d) :: cs)⟩) = (w, .yielded ⟨k, .bnode x⟩, .item (.lit v' l d)) := by
      unfold listNext listTest
      simp only [hL.nil, predTerm, headOf, if_neg hx, g1]
    rw [e1, listTake, h1]
    have h2 : listTake o g k (cs.length + 1 + n) w (.yielded ⟨k, .bnode x⟩) = (w, cs.map fun e => litVal e.2, some (.ok ())) := by
      rw [show cs.length + 1 + n = (cs.length + n) + 1 by omega, listTake_yielded _ g2 hL.nil]
      have e2 : (if headOf cs = .named (Heap.rdfNs ++ py! "nil") then (⟨0, headOf cs⟩ : Res) else ⟨k, headOf cs⟩) =
          ⟨if headOf cs = .named (Heap.rdfNs ++ py! "nil") then 0 else k, headOf cs⟩ := by split <;> rfl
      rw [e2, show (cs.length + n) + 1 = cs.length + 1 + n by omega]
      refine ih n _ fun hne => ?_
      cases cs with
      | nil => exact absurd rfl hne
      | cons a b => exact if_neg (by simp [headOf])
    dsimp only
    rw [h2]
    rfl

/-! ### Writing and reading -/

def collOf : List Term → TColl
  | [] => .nil
  | t :: ts => .cons (.leaf t) (collOf ts)

section
variable {nl : PStr → Bool} {m : PrefixMap} {base : Option PStr} {namer : Namer}

theorem items_frag (hm : SafeProfile m) (nm : Names) {lang : Option PStr} : ∀ (cs : List (Nat × Term)) (first : Bool), (∀ e ∈ cs, SafeItem lang e.2) →
    ∃ X c, items ⟨m, base, namer⟩ first nm (cs.map fun e => litVal e.2) (some (.ok ())) = .ok (nm, X) ∧
      (first = false → ∀ r, Follows (X ++ 41 :: r)) ∧ (∀ Q, Reads Q → ∀ r tks, Q tks r → Q (Coll.toks c ++ tks) (X ++ 41 :: r)) ∧
      ∀ nl st, evalColl nl st c = .ok (st, collOf (cs.map fun e => asRead e.2))
  | [], first, _ => ⟨[], .nil, rfl, fun _ r => (.inr ⟨41, r, rfl, .inr (.inr rfl)⟩), fun _ hQ r tks h => hQ.tok (w := [41]) .rpar trivial h, fun _ _ => rfl⟩
  | (x, v) :: cs, first, h => by
    obtain ⟨⟨v', l, d, hv, hs⟩, _⟩ := h _ (List.mem_cons_self ..)
    dsimp only at hv
    subst hv
    obtain ⟨w, t, h1, h2, h3⟩ := textLit_frag hm hs
    obtain ⟨X, c, i1, i2, i3, i4⟩ := items_frag hm nm cs false fun e he => h e (List.mem_cons_of_mem _ he)
    refine ⟨(if first then [] else [32]) ++ w ++ X, .cons (.leaf t) c, ?_, ?_, fun Q hQ r tks hp => ?_, fun nl st => ?_⟩
    · have hn : itemName ⟨m, base, namer⟩ nm (litVal (.lit v' l d)) = .ok (nm, w) := by
        show (litRepr m v' l d).map _ = _
        rw [h1]; rfl
      simp only [List.map_cons, items, hn, i1]
    · rintro rfl r
      exact .inr ⟨32, w ++ X ++ 41 :: r, by simp, .inl rfl⟩
    · have h4 := h2 Q hQ _ _ (i2 rfl r) (i3 Q hQ r tks hp)
      have e : (Coll.toks (.cons (.leaf t) c) ++ tks : List Tok) = LeafTok.toks t ++ (Coll.toks c ++ tks) := by simp [Coll.toks, Obj.toks]
      rw [e]
      cases first with
      | true => simpa using h4
      | false => simpa using hQ.white (.inl rfl) h4
    · simp only [evalColl, evalObj, h3, i4]
      rfl

/-! ### Cells that the parser makes -/

/-- The nodes are renamed to the numbers from `n` on. -/
def Alloc (ρ : Nat → Nat) : Nat → List Nat → Prop
  | _, [] => True
  | n, c :: cs => ρ c = n ∧ Alloc ρ (n + 1) cs

theorem Alloc.append {ρ : Nat → Nat} : ∀ {a b : List Nat} {n : Nat}, Alloc ρ n (a ++ b) ↔ Alloc ρ n a ∧ Alloc ρ (n + a.length) b
  | [], b, n => by simp [Alloc]
  | x :: a, b, n => by
    rw [List.cons_append, Alloc, Alloc, Alloc.append, List.length_cons, and_assoc, show n + 1 + a.length = n + (a.length + 1) by omega]

/-- The cells of a list in the order in which the parser makes them. -/
def madeCells (cs : List (Nat × Term)) : List Nat := (cs.map (·.1)).reverse

theorem genColl_cells {ρ : Nat → Nat} : ∀ (cs : List (Nat × Term)) (n : Nat), (∀ e ∈ cs, (asRead e.2).rename ρ = asRead e.2) → Alloc ρ n (madeCells cs) →
    genColl n (collOf (cs.map fun e => asRead e.2)) = (n + cs.length, (cellStmts cs).map (fun t => (readStmt t).rename ρ), (headOf cs).rename ρ)
  | [], n, _, _ => rfl
  | (c, v) :: cs, n, hv, ha => by
    have hm : madeCells ((c, v) :: cs) = madeCells cs ++ [c] := by simp [madeCells]
    rw [hm, Alloc.append] at ha
    have ih := genColl_cells cs n (fun e he => hv e (List.mem_cons_of_mem _ he)) ha.1
    have hl : (madeCells cs).length = cs.length := by simp [madeCells]
    have hc : ρ c = n + cs.length := by have := ha.2.1; rwa [hl] at this
    have hv' : (asRead v).rename ρ = asRead v := hv _ (List.mem_cons_self ..)
    have k1 : (readStmt (mkTriple (.bnode c) rdfFirst v)).rename ρ = mkTriple (.bnode (n + cs.length)) rdfFirst (asRead v) := by
      rw [← hc]
      exact congrArg (mkTriple (.bnode (ρ c)) rdfFirst) hv'
    have k2 : (readStmt (mkTriple (.bnode c) rdfRest (headOf cs))).rename ρ = mkTriple (.bnode (n + cs.length)) rdfRest ((headOf cs).rename ρ) := by
      rw [← hc]
      cases cs <;> rfl
    have k3 : (headOf ((c, v) :: cs)).rename ρ = .bnode (n + cs.length) := by rw [← hc]; rfl
    rw [k3]
    simp only [List.map_cons, collOf, genColl, ih, genObj, cellStmts, List.map_append, List.map_nil, List.append_nil, k1, k2, List.length_cons]
    rfl

/-! ### The names given -/

/-- Only nodes with `P` have got a name. -/
def NDom (P : Nat → Prop) (nm : Names) : Prop := ∀ b t, nm.map.get? b = some t → P b

theorem name_dom {cx : SerCtx} {nm nm' : Names} {x : Term} {w : PStr} (h : name cx nm x = .ok (nm', w)) {P : Nat → Prop} (hd : NDom P nm) (hx : ∀ b, x = .bnode b → P b) : NDom P nm' := by
  cases x with
  | named i => cases h; exact hd
  | none => cases h
  | gen _ => cases h
  | lit v l d =>
    cases hl : litRepr cx.prefixes v l d with
    | error e => rw [name, hl] at h; cases h
    | ok t => rw [name, hl] at h; cases h; exact hd
  | bnode k =>
    rw [name] at h
    cases hg : nm.map.get? k with
    | some t => rw [hg] at h; cases h; exact hd
    | none =>
      rw [hg] at h
      dsimp only at h
      cases hf : cx.namer with
      | none => rw [hf] at h; cases h
      | some f =>
        rw [hf] at h
        cases h
        intro b t hb
        rw [show (Names.map ⟨nm.map.set k (f nm.taken), nm.taken + 1⟩) = nm.map.set k (f nm.taken) from rfl, Dict.get?_set] at hb
        split at hb
        · next e => subst e; exact hx _ rfl
        · exact hd b t hb

theorem names_dom {cx : SerCtx} {P : Nat → Prop} : ∀ {ts : List Term} {nm nm' : Names} {xs : List (PStr × Term)}, names cx nm ts = .ok (nm', xs) → NDom P nm →
    (∀ b, .bnode b ∈ ts → P b) → NDom P nm'
  | [], nm, nm', xs, h, hd, _ => by cases h; exact hd
  | t :: ts, nm, nm', xs, h, hd, hx => by
    rw [names] at h
    cases h1 : name cx nm t with
    | error e => rw [h1] at h; cases h
    | ok r =>
      obtain ⟨nm1, x⟩ := r
      rw [h1] at h
      dsimp only at h
      cases h2 : names cx nm1 ts with
      | error e => rw [h2] at h; cases h
      | ok r =>
        obtain ⟨nm2, ys⟩ := r
        rw [h2] at h
        cases h
        exact names_dom h2 (name_dom h1 hd fun b hb => hx b (hb ▸ List.mem_cons_self ..)) fun b hb => hx b (List.mem_cons_of_mem _ hb)

theorem sortedNames_dom {cx : SerCtx} {P : Nat → Prop} {ts : List Term} {nm nm' : Names} {xs : List (PStr × Term)} (h : sortedNames cx nm ts = .ok (nm', xs)) (hd : NDom P nm)
    (hx : ∀ b, .bnode b ∈ ts → P b) : NDom P nm' := by
  rw [sortedNames] at h
  cases h1 : names cx nm ts with
  | error e => rw [h1] at h; cases h
  | ok r =>
    obtain ⟨nm1, ys⟩ := r
    rw [h1] at h
    dsimp only at h
    split at h
    · cases h
    · cases h; exact names_dom h1 hd hx

theorem objsText_dom {P : Nat → Prop} {o : Orders} {c fuel : Nat} {g : Graph} {cx : SerCtx} {indent : Nat} {w w' : World} : ∀ {ts : List Stmt} {first : Bool} {nm nm' : Names} {X : PStr},
    objsText o c fuel g cx indent first ⟨w, nm⟩ ts = .ok (⟨w', nm'⟩, X) → (∀ t ∈ ts, isList o w g c t.o = .ok false) → NDom P nm → (∀ t ∈ ts, ∀ b, t.o = .bnode b → P b) → NDom P nm'
  | [], first, nm, nm', X, h, _, hd, _ => by cases h; exact hd
  | t :: ts, first, nm, nm', X, h, hl, hd, hx => by
    rw [objsText] at h
    have h0 := hl t (List.mem_cons_self ..)
    cases h1 : name cx nm t.o with
    | error e => simp only [objText, h0, h1] at h; cases h
    | ok r =>
      obtain ⟨nm1, x⟩ := r
      have hobj : objText o c fuel g cx ⟨w, nm⟩ t.o = .ok (⟨w, nm1⟩, x) := by simp only [objText, h0, h1]
      rw [hobj] at h
      dsimp only at h
      cases h2 : objsText o c fuel g cx indent false ⟨w, nm1⟩ ts with
      | error e => rw [h2] at h; cases h
      | ok r =>
        obtain ⟨⟨w2, nm2⟩, Y⟩ := r
        rw [h2] at h
        cases h
        exact objsText_dom h2 (fun t ht => hl t (List.mem_cons_of_mem _ ht)) (name_dom h1 hd (hx t (List.mem_cons_self ..))) fun t ht => hx t (List.mem_cons_of_mem _ ht)

/-! ### Objects, predicates -/

/-- The list that begins at a node. -/
def listAt (lists : List (List (Nat × Term))) (x : Term) : Option (List (Nat × Term)) := lists.find? fun cs => decide (headOf cs = x)

/-- The cells that belong to the object of a triple, in the order in which the parser makes them. -/
def cellsFor (lists : List (List (Nat × Term))) (t : Stmt) : List Nat := ((listAt lists t.o).map madeCells).getD []

/-- The triples of the list that is the object of a triple. -/
def listFor (lists : List (List (Nat × Term))) (t : Stmt) : List Stmt := ((listAt lists t.o).map cellStmts).getD []

/-- The objects of one subject and predicate: nodes that are not lists, or one list. -/
def GoodObjs (nl : PStr → Bool) (m : PrefixMap) (b : PStr) (namer : Namer) (o : Orders) (w : World) (g : Graph) (c fuel : Nat) (lang : Option PStr) (lists : List (List (Nat × Term)))
    (ts : List Stmt) : Prop :=
  (∀ t ∈ ts, TextNodeAt nl m b namer t.o ∧ isList o w g c t.o = .ok false ∧ listAt lists t.o = none) ∨
  ∃ t cs, ts = [t] ∧ listAt lists t.o = some cs ∧ headOf cs = t.o ∧ isList o w g c t.o = .ok true ∧
    listTake o g c fuel w (.test ⟨c, asSubject t.o⟩) = (w, cs.map fun e => litVal e.2, some (.ok ())) ∧ ∀ e ∈ cs, SafeItem lang e.2

theorem objs_frag_list (hm : SafeProfile m) {o : Orders} {c fuel : Nat} {g : Graph} {w : World} {lang : Option PStr} {lists : List (List (Nat × Term))} (indent : Nat) {ts : List Stmt} {nm : Names}
    (hn : NInv namer nm) (hne : ts ≠ []) (hts : GoodObjs nl m (base.getD []) namer o w g c fuel lang lists ts) {P : Nat → Prop} (hd : NDom P nm)
    (hP : ∀ t ∈ ts, listAt lists t.o = none → ∀ b, t.o = .bnode b → P b) :
    ∃ nm' X os, objsText o c fuel g ⟨m, base, namer⟩ indent true ⟨w, nm⟩ ts = .ok (⟨w, nm'⟩, X) ∧ NInv namer nm' ∧ NExt nm nm' ∧ NDom P nm' ∧ Frag (Objs.toks os) X ∧
      ∀ n0 st, AgreesAt (base.getD []) m st → BState.OK n0 st.bn → ∃ bs eos, evalObjs nl st os = .ok ({ st with bn := bs }, eos) ∧ BState.OK n0 bs ∧ st.bn.Ext bs ∧
        ∀ ρ, Compat ρ nm' bs → ∀ n, Alloc ρ n (ts.flatMap (cellsFor lists)) → ∀ s v, genObjs s v n eos =
          (n + (ts.flatMap (cellsFor lists)).length, ts.flatMap fun t => (listFor lists t).map (fun t => (readStmt t).rename ρ) ++ [mkTriple s v ((asRead t.o).rename ρ)]) := by
  rcases hts with hts | ⟨t, cs, rfl, hat, hhd, hl, htk, hit⟩
  · obtain ⟨nm', X, os, a1, a2, a3, _, a4, a5⟩ := objs_frag_at (nl := nl) hm (o := o) (c := c) (fuel := fuel) (g := g) (namer := namer) (base := base) (w := w) indent ts true nm hn hne
      fun t ht => ⟨(hts t ht).1, (hts t ht).2.1⟩
    have a1 : objsText o c fuel g ⟨m, base, namer⟩ indent true ⟨w, nm⟩ ts = .ok (⟨w, nm'⟩, X) := a1
    refine ⟨nm', X, os, a1, a2, a3, objsText_dom a1 (fun t ht => (hts t ht).2.1) hd (fun t ht => hP t ht (hts t ht).2.2), a4, fun n0 st hst ho => ?_⟩
    obtain ⟨bs, eos, b1, b2, b3, b4⟩ := a5 n0 st hst ho
    refine ⟨bs, eos, b1, b2, b3, fun ρ hρ n _ s v => ?_⟩
    have e1 : ts.flatMap (cellsFor lists) = [] := List.flatMap_eq_nil_iff.2 fun t ht => by simp [cellsFor, (hts t ht).2.2]
    have e2 : (ts.flatMap fun t => (listFor lists t).map (fun t => (readStmt t).rename ρ) ++ [mkTriple s v ((asRead t.o).rename ρ)]) = ts.map fun t => mkTriple s v ((asRead t.o).rename ρ) := by
      rw [List.map_eq_flatMap, List.flatMap_def, List.flatMap_def]
      congr 1
      exact List.map_congr_left fun t ht => by simp [listFor, (hts t ht).2.2]
    rw [(b4 ρ hρ).2, e1, e2]; rfl
  · obtain ⟨X, c', i1, _, i3, i4⟩ := items_frag (base := base) (namer := namer) hm nm cs true hit
    have hobj : objText o c fuel g ⟨m, base, namer⟩ ⟨w, nm⟩ t.o = .ok (⟨w, nm⟩, [40] ++ X ++ [41]) := by simp only [objText, hl, htk, i1]
    refine ⟨nm, [40] ++ X ++ [41], .one (.coll c'), ?_, hn, .refl _, hd, fun Q hQ r tks hr hp => ?_, fun n0 st hst ho => ⟨st.bn, .one (.coll (collOf (cs.map fun e => asRead e.2))), ?_, ho, .refl _, fun ρ hρ n ha s v => ?_⟩⟩
    · simp [objsText, hobj]
    · have := hQ.tok (w := [40]) .lpar trivial (i3 Q hQ r tks hp)
      simpa [Objs.toks, Obj.toks] using this
    · simp only [evalObjs, evalObj, i4]
    · have hv : ∀ e ∈ cs, (asRead e.2).rename ρ = asRead e.2 := fun e he => by obtain ⟨⟨v, l, d, h, _⟩, _⟩ := hit e he; rw [h]; exact asRead_lit_rename.symm
      have hhd' : asRead (headOf cs) = headOf cs := by cases cs <;> rfl
      have e1 : [t].flatMap (cellsFor lists) = madeCells cs := by simp [cellsFor, hat]
      have e2 : listFor lists t = cellStmts cs := by simp [listFor, hat]
      have hlen : (madeCells cs).length = cs.length := by simp [madeCells]
      rw [e1] at ha ⊢
      rw [genObjs, genObj, genColl_cells cs n hv ha, hlen]
      simp [e2, ← hhd, hhd']

theorem preds_frag_list (hm : SafeProfile m) {o : Orders} {c fuel : Nat} {g : Graph} {w : World} {lang : Option PStr} {lists : List (List (Nat × Term))} {P : Nat → Prop} (s : Term) (indent : Nat) :
    ∀ (ps : List (PStr × Term)) (first : Bool) (nm : Names), NInv namer nm → NDom P nm → ps ≠ [] →
      (∀ e ∈ ps, ∃ i, e = (iriRepr m base i, .named i) ∧ SafeIriAt nl m (base.getD []) i ∧ g.match o.stmts s e.2 .none ≠ [] ∧
        GoodObjs nl m (base.getD []) namer o w g c fuel lang lists (g.match o.stmts s e.2 .none) ∧
        ∀ t ∈ g.match o.stmts s e.2 .none, listAt lists t.o = none → ∀ b, t.o = .bnode b → P b) →
      ∃ nm' X pol, predsText o c fuel g ⟨m, base, namer⟩ s indent first ⟨w, nm⟩ ps = .ok (⟨w, nm'⟩, (if first then [] else spaces indent) ++ X) ∧
        NInv namer nm' ∧ NExt nm nm' ∧ NDom P nm' ∧ (∀ r tks, Plainly lark tks r → Plainly lark (Pol.toks pol ++ tks) (X ++ r)) ∧
        ∀ n0 st, AgreesAt (base.getD []) m st → BState.OK n0 st.bn → ∃ bs epol, evalPol nl st pol = .ok ({ st with bn := bs }, epol) ∧ BState.OK n0 bs ∧ st.bn.Ext bs ∧
          ∀ ρ, Compat ρ nm' bs → ∀ n, Alloc ρ n (ps.flatMap fun e => (g.match o.stmts s e.2 .none).flatMap (cellsFor lists)) → ∀ s', genPol s' n epol =
            (n + (ps.flatMap fun e => (g.match o.stmts s e.2 .none).flatMap (cellsFor lists)).length,
             ps.flatMap fun e => (g.match o.stmts s e.2 .none).flatMap fun t => (listFor lists t).map (fun t => (readStmt t).rename ρ) ++ [mkTriple s' e.2 ((asRead t.o).rename ρ)]) := by
  intro ps
  induction ps with
  | nil => intro _ _ _ _ h; exact absurd rfl h
  | cons e ps ih =>
    intro first nm hn hd _ hps
    obtain ⟨i, rfl, hi, hne, hts, hP⟩ := hps e (List.mem_cons_self ..)
    obtain ⟨it, f1, _, f2⟩ := iri_frag_at hm hi
    obtain ⟨nm1, X, os, g1, hn1, he1, hd1, g2, g3⟩ := objs_frag_list hm (indent + (iriRepr m base i).length + 1) hn hne hts hd hP
    have hw : ∀ tks r, Plainly lark tks r → Plainly lark (.iri it :: (os.toks ++ .semi :: tks)) (iriRepr m base i ++ (32 :: (X ++ (32 :: ([59] ++ (10 :: r)))))) := fun tks r h =>
      f1.plainly _ _ (.inr ⟨32, _, rfl, .inl rfl⟩) (Plainly.white (.inl rfl) (g2.plainly _ _ (.inr ⟨32, _, rfl, .inl rfl⟩) (Plainly.white (.inl rfl)
        (Plainly.tok .semi trivial (Plainly.white (by simp [isWhite]) h)))))
    cases ps with
    | nil =>
      refine ⟨nm1, iriRepr m base i ++ [32] ++ X ++ [32, 59, 10], .last (.iri it) os 1, ?_, hn1, he1, hd1, fun r tks h => ?_, fun n0 st hst ho => ?_⟩
      · rw [predsText, g1]
        simp [predsText]
      · have := hw tks r h
        simpa [Pol.toks, VerbTok.toks] using this
      · obtain ⟨bs, eos, d1, d2, d3, d4⟩ := g3 n0 st hst ho
        refine ⟨bs, .last (.named i) eos 1, ?_, d2, d3, fun ρ hρ n ha s' => ?_⟩
        · simp only [evalPol, evalVerb, f2 st hst, Except.map, d1]
        · simp only [List.flatMap_cons, List.flatMap_nil, List.append_nil] at ha ⊢
          rw [genPol, d4 ρ hρ n ha]
    | cons e' ps' =>
      obtain ⟨nm2, Y, pol, i1, hn2, he2, hd2, i2, i3⟩ := ih false nm1 hn1 hd1 (by simp) fun e he => hps e (List.mem_cons_of_mem _ he)
      refine ⟨nm2, iriRepr m base i ++ [32] ++ X ++ [32, 59, 10] ++ (spaces indent ++ Y), .cons (.iri it) os 0 pol, ?_, hn2, he1.trans he2, hd2, fun r tks h => ?_, fun n0 st hst ho => ?_⟩
      · rw [predsText, g1]
        show (match predsText o c fuel g ⟨m, base, namer⟩ s indent false ⟨w, nm1⟩ (e' :: ps') with | .error e => _ | .ok (st, rest) => _) = _
        rw [i1]
        simp
      · have := hw (pol.toks ++ tks) (spaces indent ++ (Y ++ r)) (Plainly.spaces (i2 r tks h) _)
        simpa [Pol.toks, VerbTok.toks] using this
      · obtain ⟨bs, eos, d1, d2, d3, d4⟩ := g3 n0 st hst ho
        obtain ⟨bs', epol, k1, k2, k3, k4⟩ := i3 n0 { st with bn := bs } (hst.bn bs) d2
        refine ⟨bs', .cons (.named i) eos 0 epol, ?_, k2, d3.trans k3, fun ρ hρ n ha s' => ?_⟩
        · simp only [evalPol, evalVerb, f2 st hst, Except.map, d1, k1]
        · rw [List.flatMap_cons, Alloc.append] at ha
          rw [List.flatMap_cons, List.flatMap_cons, genPol, d4 ρ (hρ.mono he2 k3) n ha.1]
          dsimp only
          simp only [k4 ρ hρ _ ha.2, List.flatMap_cons, List.length_append, Nat.add_assoc, List.append_assoc]

end

/-! ### Graphs with lists: a specification -/

/-- A cell of one of the lists. -/
def IsCell (lists : List (List (Nat × Term))) (x : Term) : Prop := ∃ cs ∈ lists, ∃ e ∈ cs, x = .bnode e.1

/-- Statements that survive, with lists of literals: besides the cells of the lists, which have nothing but a value and a rest, there are statements that survive; each list is the only object of
    one of them. -/
structure WithLists (nl : PStr → Bool) (m : PrefixMap) (b : PStr) (namer : Namer) (lang : Option PStr) (T : Stmt → Prop) (lists : List (List (Nat × Term))) : Prop where
  ne : ∀ cs ∈ lists, cs ≠ []
  /-- a cell stands in one place of one list -/
  nodup : (lists.flatMap fun cs => cs.map (·.1)).Nodup
  items : ∀ cs ∈ lists, ∀ e ∈ cs, SafeItem lang e.2
  cells : ∀ cs ∈ lists, ∀ t ∈ cellStmts cs, T t
  only : ∀ t, T t → IsCell lists t.s → ∃ cs ∈ lists, t ∈ cellStmts cs
  subj : ∀ t, T t → ¬ IsCell lists t.s → SafeSubjAt nl m b namer t.s
  pred : ∀ t, T t → ¬ IsCell lists t.s → ∃ i, t.p = .named i ∧ SafeIriAt nl m b i ∧ i ≠ Heap.rdfNs ++ py! "rest"
  obj : ∀ t, T t → ¬ IsCell lists t.s → TextNodeAt nl m b namer t.o ∧ ¬ IsCell lists t.o ∨ ∃ cs ∈ lists, t.o = headOf cs
  once : ∀ t t', T t → T t' → ¬ IsCell lists t.s → ¬ IsCell lists t'.s → IsCell lists t.o → (t'.o = t.o ∨ t'.s = t.s ∧ t'.p = t.p) → t' = t
  used : ∀ cs ∈ lists, ∃ t, T t ∧ ¬ IsCell lists t.s ∧ t.o = headOf cs
  nil : ∀ t, T t → t.s = rdfNil → t.p ≠ .named (Heap.rdfNs ++ py! "type")

theorem mem_cellStmts {t : Stmt} : ∀ {cs : List (Nat × Term)}, t ∈ cellStmts cs ↔
    ∃ pre c v post, cs = pre ++ (c, v) :: post ∧ (t = mkTriple (.bnode c) rdfFirst v ∨ t = mkTriple (.bnode c) rdfRest (headOf post))
  | [] => by simp [cellStmts]
  | (c, v) :: cs => by
    rw [cellStmts, List.mem_append, mem_cellStmts]
    constructor
    · rintro (⟨pre, c', v', post, rfl, h⟩ | h)
      · exact ⟨(c, v) :: pre, c', v', post, rfl, h⟩
      · exact ⟨[], c, v, cs, rfl, by simpa using h⟩
    · rintro ⟨pre, c', v', post, h, ht⟩
      cases pre with
      | nil => cases h; exact .inr (by simpa using ht)
      | cons a pre => cases h; exact .inl ⟨pre, c', v', post, rfl, ht⟩

section
variable {nl : PStr → Bool} {m : PrefixMap} {b : PStr} {namer : Namer} {lang : Option PStr} {T : Stmt → Prop} {lists : List (List (Nat × Term))}

theorem split_unique : ∀ {pre pre' post post' : List (Nat × Term)} {c : Nat} {v v' : Term}, pre ++ (c, v) :: post = pre' ++ (c, v') :: post' →
    ((pre ++ (c, v) :: post).map (·.1)).Nodup → v = v' ∧ post = post'
  | [], [], post, post', c, v, v', h, _ => by cases h; exact ⟨rfl, rfl⟩
  | [], a :: pre', post, post', c, v, v', h, nd => by
    cases h
    simp at nd
  | a :: pre, [], post, post', c, v, v', h, nd => by
    cases h
    simp at nd
  | a :: pre, a' :: pre', post, post', c, v, v', h, nd => by
    rw [List.cons_append, List.cons_append] at h
    exact split_unique (List.cons.inj h).2 (List.nodup_cons.1 nd).2

theorem WithLists.one (h : WithLists nl m b namer lang T lists) {cs cs' : List (Nat × Term)} (hc : cs ∈ lists) (hc' : cs' ∈ lists) {x : Nat} (hx : x ∈ cs.map (·.1)) (hx' : x ∈ cs'.map (·.1)) : cs = cs' := by
  have h1 := (List.nodup_flatMap.1 h.nodup).2
  by_contra hne
  obtain ⟨i, hi, rfl⟩ := List.getElem_of_mem hc
  obtain ⟨j, hj, rfl⟩ := List.getElem_of_mem hc'
  have hij : i ≠ j := by rintro rfl; exact hne rfl
  rcases Nat.lt_or_gt_of_ne hij with hl | hl
  · exact List.pairwise_iff_getElem.1 h1 i j hi hj hl hx hx'
  · exact List.pairwise_iff_getElem.1 h1 j i hj hi hl hx' hx

theorem WithLists.cell (h : WithLists nl m b namer lang T lists) {pre post : List (Nat × Term)} {c : Nat} {v : Term} (hc : pre ++ (c, v) :: post ∈ lists) {t : Stmt} (ht : T t) (hs : t.s = .bnode c) :
    t = mkTriple (.bnode c) rdfFirst v ∨ t = mkTriple (.bnode c) rdfRest (headOf post) := by
  obtain ⟨cs', hc', hm⟩ := h.only t ht ⟨_, hc, (c, v), by simp, hs⟩
  obtain ⟨pre', c', v', post', e, hm⟩ := mem_cellStmts.1 hm
  have : c' = c := by rcases hm with rfl | rfl <;> (cases hs; rfl)
  subst this
  have := h.one hc hc' (x := c') (by simp) (by simp [e])
  rw [← this] at e
  have nd : ((pre ++ (c', v) :: post).map (·.1)).Nodup := (List.nodup_flatMap.1 h.nodup).1 _ hc
  obtain ⟨rfl, rfl⟩ := split_unique e nd
  exact hm

theorem first_ne_rest : rdfFirst ≠ rdfRest := by decide

theorem WithLists.isCells (h : WithLists nl m b namer lang T lists) : ∀ (cs pre : List (Nat × Term)), pre ++ cs ∈ lists → IsCells T cs
  | [], _, _ => trivial
  | (c, v) :: cs, pre, hc => by
    refine ⟨fun x => ⟨fun hx => ?_, ?_⟩, fun x => ⟨fun hx => ?_, ?_⟩, h.isCells cs (pre ++ [(c, v)]) (by simpa using hc)⟩
    · rcases h.cell hc hx rfl with e | e
      · exact (mkTriple_inj.1 e).2.2
      · exact absurd (mkTriple_inj.1 e).2.1 first_ne_rest
    · rintro rfl; exact h.cells _ hc _ (mem_cellStmts.2 ⟨pre, c, x, cs, rfl, .inl rfl⟩)
    · rcases h.cell hc hx rfl with e | e
      · exact absurd (mkTriple_inj.1 e).2.1.symm first_ne_rest
      · exact (mkTriple_inj.1 e).2.2
    · rintro rfl; exact h.cells _ hc _ (mem_cellStmts.2 ⟨pre, c, v, cs, rfl, .inr rfl⟩)

theorem headOf_cell {cs : List (Nat × Term)} (hc : cs ∈ lists) (hne : cs ≠ []) : IsCell lists (headOf cs) := by
  cases cs with
  | nil => exact absurd rfl hne
  | cons a cs => exact ⟨_, hc, a, by simp, rfl⟩

theorem listAt_none {x : Term} (hne : ∀ cs ∈ lists, cs ≠ []) (hx : ¬ IsCell lists x) : listAt lists x = none := by
  rw [listAt, List.find?_eq_none]
  rintro cs hc he
  exact hx ((of_decide_eq_true he) ▸ headOf_cell hc (hne cs hc))

theorem WithLists.at_ (h : WithLists nl m b namer lang T lists) {cs : List (Nat × Term)} (hc : cs ∈ lists) : listAt lists (headOf cs) = some cs := by
  cases hf : listAt lists (headOf cs) with
  | none =>
    rw [listAt, List.find?_eq_none] at hf
    exact absurd (by simp) (hf cs hc)
  | some cs' =>
    have h1 := List.mem_of_find?_eq_some hf
    have h2 : headOf cs' = headOf cs := by have := List.find?_some hf; exact of_decide_eq_true this
    congr 1
    cases cs with
    | nil => exact absurd rfl (h.ne _ hc)
    | cons a cs =>
      cases cs' with
      | nil => exact absurd rfl (h.ne _ h1)
      | cons a' cs' =>
        have : a'.1 = a.1 := by injection h2
        exact h.one h1 hc (x := a.1) (by simp [this]) (by simp)

/-! ### Subjects -/

theorem TextNodeAt.truthy {x : Term} (h : TextNodeAt nl m b namer x) : x.truthy = true := by
  cases h with
  | @iri i h =>
    cases i with
    | nil => exact absurd rfl h.ne
    | cons => rfl
  | lit => rfl
  | bnode => rfl

theorem isList_iff {o : Orders} (ho : o.OK) {w : World} {g : Graph} (hg : g.Reach) {c : Nat} (hr : resolveKey w c (py! "rdf:rest") = .ok (some (Heap.rdfNs ++ py! "rest"))) {x : Term}
    (hx : x.truthy = true) {v : Bool} (hv : v = true ↔ ∃ y, mkTriple x rdfRest y ∈ g.triples) : isList o w g c x = .ok v := by
  obtain ⟨v', h1, h2⟩ := C58_is_list ho hg hr (by decide) hx
  rw [h1]
  congr 1
  have h3 : (v' = true ↔ v = true) := h2.trans hv.symm
  revert h3
  cases v <;> cases v' <;> simp

theorem classify_untyped {o : Orders} (ho : o.OK) {w : World} {g : Graph} (hg : g.Reach) {c : Nat} {ty : PStr} (hty : rdfType w c = .ok (.named ty)) (hne : ty ≠ []) {x : Term}
    (hx : (∃ i, x = .named i) ∨ ∃ i, x = .bnode i) (htr : x.truthy = true) (h : ∀ t ∈ g.triples, t.s = x → t.p ≠ .named ty) : classify o w g c x = (w, .ok (.res 0 x)) := by
  have hm : g.match o.stmts x (.named ty) .none = [] := by
    rw [List.eq_nil_iff_forall_not_mem]
    intro t ht
    obtain ⟨a, b, c, _⟩ := (Graph.mem_match hg.inv ho.stmts _ _ _ t).1 ht
    have hpt : (Term.named ty).truthy = true := by
      cases ty with
      | nil => exact absurd rfl hne
      | cons => rfl
    exact h t a (b htr) (c hpt)
  have hc : classesOf o w g (.named ty) x = [] := by
    have : o.terms (typesOf o g (.named ty) x) = [] := by
      rw [typesOf, hm]
      exact (ho.terms []).eq_nil
    rw [classesOf, this]; rfl
  rcases hx with ⟨i, rfl⟩ | ⟨i, rfl⟩ <;> simp only [classify, hty, classifyNode, hc]

/-- What is asked of the class List: its terms have the usual meaning. -/
structure UsualList (w : World) (c : Nat) : Prop extends ListClass w c (Heap.rdfNs ++ py! "first") (Heap.rdfNs ++ py! "rest") (Heap.rdfNs ++ py! "nil") where
  type : rdfType w c = .ok (.named (Heap.rdfNs ++ py! "type"))

theorem all_eq_singleton {α : Type} {t : α} : ∀ {ts : List α}, ts.Nodup → t ∈ ts → (∀ x ∈ ts, x = t) → ts = [t]
  | [], _, h, _ => by cases h
  | [a], _, _, h => by rw [h a (List.mem_cons_self ..)]
  | a :: a' :: ts, nd, _, h => by
    have h1 := h a (by simp)
    have h2 := h a' (by simp)
    rw [h1, h2] at nd
    simp at nd

section
variable {o : Orders} (ho : o.OK) {w : World} {g : Graph} (hg : g.Reach) {c : Nat} (hL : UsualList w c) (hT : WithLists nl m b namer (w.lang c) (· ∈ g.triples) lists)
include ho hg hL hT

theorem isList_plain {x : Term} (hx : x.truthy = true) (h : ¬ IsCell lists x) : isList o w g c x = .ok false := by
  refine isList_iff ho hg hL.rest hx ⟨fun h => (by cases h), fun ⟨y, hy⟩ => ?_⟩
  obtain ⟨i, h1, _, h2⟩ := hT.pred _ hy h
  cases h1
  exact absurd rfl h2

theorem isList_cell {x : Term} (h : IsCell lists x) : isList o w g c x = .ok true := by
  obtain ⟨cs, hc, e, he, rfl⟩ := h
  obtain ⟨pre, post, rfl⟩ := List.append_of_mem he
  exact isList_iff ho hg hL.rest rfl ⟨fun _ => ⟨headOf post, hT.cells _ hc _ (mem_cellStmts.2 ⟨pre, e.1, e.2, post, rfl, .inr rfl⟩)⟩, fun _ => rfl⟩

theorem goodObjs {fuel : Nat} (hfuel : ∀ cs ∈ lists, cs.length < fuel) {s p : Term} {ts : List Stmt} (nd : ts.Nodup) (hts : ∀ t, t ∈ ts ↔ t ∈ g.triples ∧ t.s = s ∧ t.p = p)
    (hs : ¬ IsCell lists s) : GoodObjs nl m b namer o w g c fuel (w.lang c) lists ts := by
  by_cases hl : ∃ t ∈ ts, ∃ cs ∈ lists, t.o = headOf cs
  · obtain ⟨t, ht, cs, hc, e⟩ := hl
    obtain ⟨h1, h2, h3⟩ := (hts t).1 ht
    have hcell : IsCell lists t.o := e ▸ headOf_cell hc (hT.ne cs hc)
    refine .inr ⟨t, cs, all_eq_singleton nd ht fun t' ht' => ?_, by rw [e]; exact hT.at_ hc, e.symm, isList_cell ho hg hL hT hcell, ?_, hT.items cs hc⟩
    · obtain ⟨h1', h2', h3'⟩ := (hts t').1 ht'
      exact hT.once t t' h1 h1' (h2 ▸ hs) (h2' ▸ hs) hcell (.inr ⟨h2'.trans h2.symm, h3'.trans h3.symm⟩)
    · have hnil : classify o w g c rdfNil = (w, .ok (.res 0 rdfNil)) :=
        classify_untyped ho hg hL.type (by decide) (.inl ⟨_, rfl⟩) (by decide) fun t ht => hT.nil t ht
      have hb : ∀ e ∈ cs, classify o w g c (.bnode e.1) = (w, .ok (.res 0 (.bnode e.1))) := by
        intro e he
        refine classify_untyped ho hg hL.type (by decide) (.inr ⟨_, rfl⟩) rfl fun t ht hs => ?_
        obtain ⟨pre, post, rfl⟩ := List.append_of_mem he
        rcases hT.cell hc ht hs with rfl | rfl
        · show rdfFirst ≠ _; decide
        · show rdfRest ≠ _; decide
      have hlen := hfuel cs hc
      have := listTake_cells ho hg hL.toListClass hnil cs (hT.isCells cs [] hc) (fun e he => ⟨hT.items cs hc e he, hb e he⟩) (fuel - (cs.length + 1)) c fun _ => rfl
      rw [show cs.length + 1 + (fuel - (cs.length + 1)) = fuel by omega] at this
      rw [e]
      cases cs with
      | nil => exact absurd rfl (hT.ne _ hc)
      | cons a cs => exact this
  · refine .inl fun t ht => ?_
    obtain ⟨h1, h2, h3⟩ := (hts t).1 ht
    rcases hT.obj t h1 (h2 ▸ hs) with ⟨h4, h5⟩ | ⟨cs, hc, e⟩
    · exact ⟨h4, isList_plain ho hg hL hT h4.truthy h5, listAt_none hT.ne h5⟩
    · exact absurd ⟨t, ht, cs, hc, e⟩ hl

end

end

section
variable {nl : PStr → Bool} {m : PrefixMap} {base : Option PStr} {namer : Namer} {lists : List (List (Nat × Term))}

/-- The statements that are written for a statement: those of the list that is its object, and itself. -/
def withList (lists : List (List (Nat × Term))) (t : Stmt) : List Stmt := listFor lists t ++ [t]

theorem subj_frag_list (hm : SafeProfile m) {o : Orders} (ho : Orders.OK o) {w : World} {g : Graph} (hg : g.Reach) {c fuel : Nat} (hL : UsualList w c)
    (hT : WithLists nl m (base.getD []) namer (w.lang c) (· ∈ g.triples) lists) (hfuel : ∀ cs ∈ lists, cs.length < fuel) (live : ∀ s ∈ g.subjects, ∃ t ∈ g.triples, t.s = s) {nm : Names}
    (hn : NInv namer nm) (hd : NDom (fun k => ¬ IsCell lists (.bnode k)) nm) {e : PStr × Term} (hi : e.2 ∈ g.subjects) (hc : ¬ IsCell lists e.2) (hN : Named nl m base nm e) :
    ∃ nm' X d, ∃ ts : List Stmt, subjText o c fuel g ⟨m, base, namer⟩ ⟨w, nm⟩ e.1 e.2 = .ok (⟨w, nm'⟩, X) ∧ NInv namer nm' ∧ NExt nm nm' ∧ NDom (fun k => ¬ IsCell lists (.bnode k)) nm' ∧
      (∀ r tks, Plainly lark tks r → Plainly lark (TStmt.toks d ++ tks) (X ++ r)) ∧
      (∀ n0 st, AgreesAt (base.getD []) m st → BState.OK n0 st.bn → ∃ bs es, evalStmt nl st d = .ok ({ st with bn := bs }, es) ∧ BState.OK n0 bs ∧ st.bn.Ext bs ∧
        ∀ ρ, Compat ρ nm' bs → ∀ n, Alloc ρ n (ts.flatMap (cellsFor lists)) →
          genStmt n es = (n + (ts.flatMap (cellsFor lists)).length, (ts.flatMap (withList lists)).map fun t => (readStmt t).rename ρ)) ∧
      ts.Nodup ∧ ∀ t, t ∈ ts ↔ t ∈ g.triples ∧ t.s = e.2 := by
  obtain ⟨w0, s⟩ := e
  dsimp only at hi hc ⊢
  obtain ⟨t0, ht0, hs0⟩ := live _ hi
  have hsi : SafeSubjAt nl m (base.getD []) namer s := hs0 ▸ hT.subj t0 ht0 (hs0 ▸ hc)
  have htr := hsi.truthy
  let preds := o.terms (pySet ((g.match o.stmts s .none .none).map (·.p)))
  have mem_preds : ∀ p, p ∈ preds ↔ ∃ t ∈ g.triples, t.s = s ∧ t.p = p := by
    intro p
    rw [(ho.terms _).mem_iff, mem_pySet, List.mem_map]
    constructor
    · rintro ⟨t, ht, rfl⟩
      obtain ⟨h1, h2, _⟩ := (Graph.mem_match hg.inv ho.stmts _ _ _ t).1 ht
      exact ⟨t, h1, h2 htr, rfl⟩
    · rintro ⟨t, h1, h2, rfl⟩
      exact ⟨t, (Graph.mem_match hg.inv ho.stmts _ _ _ t).2 ⟨h1, fun _ => h2, (by intro h; cases h), (by intro h; cases h)⟩, rfl⟩
  have predOf : ∀ t ∈ g.triples, t.s = s → ∃ i, t.p = .named i ∧ SafeIriAt nl m (base.getD []) i := fun t ht hs => by
    obtain ⟨i, a, b, _⟩ := hT.pred t ht (hs ▸ hc)
    exact ⟨i, a, b⟩
  obtain ⟨ps, h1, h2, h3⟩ := sortedNames_named (m := m) (base := base) (namer := namer) nm (ts := preds) (fun p hp => by
    obtain ⟨t, ht, hs, rfl⟩ := (mem_preds p).1 hp
    obtain ⟨j, hj, _⟩ := predOf t ht hs
    exact ⟨j, hj⟩)
  have mem_ps : ∀ e ∈ ps, ∃ t ∈ g.triples, t.s = s ∧ t.p = e.2 := fun e he => (mem_preds e.2).1 (h2.mem_iff.1 (List.mem_map.2 ⟨e, he, rfl⟩))
  have mem_m : ∀ e ∈ ps, ∀ t, t ∈ g.match o.stmts s e.2 .none ↔ t ∈ g.triples ∧ t.s = s ∧ t.p = e.2 := by
    intro e he t
    obtain ⟨t1, ht1, hs1, hp1⟩ := mem_ps e he
    obtain ⟨j, hj, hj2⟩ := predOf t1 ht1 hs1
    have hpt : e.2.truthy = true := by rw [← hp1, hj]; exact SafeSubjAt.truthy (namer := namer) (.inl ⟨j, rfl, hj2⟩)
    rw [Graph.mem_match hg.inv ho.stmts]
    constructor
    · rintro ⟨a, b, c, _⟩; exact ⟨a, b htr, c hpt⟩
    · rintro ⟨a, b, c⟩; exact ⟨a, fun _ => b, fun _ => c, by intro h; cases h⟩
  have hne : ps ≠ [] := by
    rintro rfl
    have := h2.mem_iff.2 ((mem_preds t0.p).2 ⟨t0, ht0, hs0, rfl⟩)
    simp at this
  obtain ⟨nm', X, pol, p1, hn', he', hd', p2, p3⟩ := preds_frag_list hm (o := o) (c := c) (fuel := fuel) (g := g) (namer := namer) (base := base) (nl := nl) (w := w) (lang := w.lang c) (lists := lists)
    (P := fun k => ¬ IsCell lists (.bnode k)) s (w0.length + 1) ps true nm hn hd hne (by
    intro e he
    obtain ⟨t1, ht1, hs1, hp1⟩ := mem_ps e he
    obtain ⟨j, rfl⟩ := h3 e he
    obtain ⟨j', hj, hj2⟩ := predOf t1 ht1 hs1
    rw [hp1] at hj; cases hj
    refine ⟨_, rfl, hj2, fun h => ?_, goodObjs ho hg hL hT hfuel (Graph.nodup_match hg.inv.toIxInv ho.stmts _ _ _) (mem_m _ he) hc, fun t ht hat k hk hcell => ?_⟩
    · have := (mem_m _ he t1).2 ⟨ht1, hs1, hp1⟩
      rw [h] at this; cases this
    · obtain ⟨a1, a2, _⟩ := (mem_m _ he t).1 ht
      rcases hT.obj t a1 (a2 ▸ hc) with ⟨_, h5⟩ | ⟨cs, hcs, e⟩
      · exact h5 (hk ▸ hcell)
      · rw [e, hT.at_ hcs] at hat
        cases hat)
  obtain ⟨it, f1, f2⟩ := named_frag hm hn hN
  have named : ∀ e ∈ ps, ∀ ρ : Nat → Nat, e.2.rename ρ = e.2 := fun e he ρ => by obtain ⟨j, rfl⟩ := h3 e he; rfl
  have hmap : ∀ e ∈ ps, ∀ ρ : Nat → Nat, ((g.match o.stmts s e.2 .none).flatMap fun t => (listFor lists t).map (fun t => (readStmt t).rename ρ) ++ [mkTriple (s.rename ρ) e.2 ((asRead t.o).rename ρ)]) =
      (g.match o.stmts s e.2 .none).flatMap fun t => (withList lists t).map fun t => (readStmt t).rename ρ := by
    intro e he ρ
    rw [List.flatMap_def, List.flatMap_def]
    congr 1
    apply List.map_congr_left
    intro t ht
    obtain ⟨a, b, c⟩ := (mem_m e he t).1 ht
    have h := hg.inv.isTri t a
    have hp := named e he ρ
    rw [withList, List.map_append]
    congr 1
    have : t = mkTriple s e.2 t.o := by
      cases t
      simp only at b c h
      subst b c h
      rfl
    rw [this]
    simp [mkTriple, Stmt.rename, readStmt, hp]
  refine ⟨nm', w0 ++ [32] ++ X ++ spaces (w0.length + 1) ++ [46, 10, 10], .node it pol, ps.flatMap fun e => g.match o.stmts s e.2 .none, ?_, hn', he', hd', fun r tks h => ?_, fun n0 st hst hok => ?_, ?_, fun t => ?_⟩
  · show (match sortedNames ⟨m, base, namer⟩ nm preds with | .error e => _ | .ok (nm, ps) => _) = _
    rw [h1]
    show (match predsText o c fuel g ⟨m, base, namer⟩ s (w0.length + 1) true ⟨w, nm⟩ ps with | .error e => _ | .ok (st, t) => _) = _
    rw [p1]
    simp
  · have e : (w0 ++ [32] ++ X ++ spaces (w0.length + 1) ++ [46, 10, 10] ++ r : PStr) =
        w0 ++ (32 :: (X ++ (spaces (w0.length + 1) ++ ([46] ++ (10 :: (10 :: r)))))) := by simp
    have e2 : (TStmt.toks (.node it pol) ++ tks : List Tok) = it.toks ++ (pol.toks ++ (.dot :: tks)) := by simp [TStmt.toks]
    rw [e, e2]
    refine f1.plainly _ _ (.inr ⟨32, _, rfl, .inl rfl⟩) (Plainly.white (.inl rfl) (p2 _ _ (Plainly.spaces (Plainly.tok .dot ?_ (Plainly.white (by simp [isWhite]) (Plainly.white (by simp [isWhite]) h))) _)))
    intro c hc
    cases hc
    simp [isDigitChar]
  · obtain ⟨bs, y, a1, a2, a3, a4⟩ := f2 n0 st hst hok
    obtain ⟨bs', epol, b1, b2, b3, b4⟩ := p3 n0 { st with bn := bs } (hst.bn bs) a2
    refine ⟨bs', .node y epol, by simp only [evalStmt, a1, b1, Except.map], b2, a3.trans b3, fun ρ hρ n ha => ?_⟩
    have := a4 ρ (hρ.mono he' b3)
    subst this
    rw [List.flatMap_assoc] at ha ⊢
    rw [genStmt, b4 ρ hρ n ha, List.flatMap_assoc, List.map_flatMap]
    congr 1
    simp only [List.flatMap_def (l := ps)]
    congr 1
    exact List.map_congr_left fun e he => by rw [hmap e he ρ, List.map_flatMap]
  · rw [List.nodup_iff_pairwise_ne, List.pairwise_flatMap]
    refine ⟨fun e he => List.nodup_iff_pairwise_ne.1 (Graph.nodup_match hg.inv.toIxInv ho.stmts _ _ _), ?_⟩
    have nd : (ps.map (·.2)).Nodup := h2.nodup_iff.2 ((ho.terms _).nodup_iff.2 (nodup_pySet _))
    have := (List.pairwise_map.1 (List.nodup_iff_pairwise_ne.1 nd))
    refine List.Pairwise.imp_of_mem (fun {a b} ha hb hab x hx y hy => ?_) this
    have h1 := ((mem_m a ha x).1 hx).2.2
    have h2 := ((mem_m b hb y).1 hy).2.2
    rintro rfl
    exact hab (h1.symm.trans h2)
  · rw [List.mem_flatMap]
    constructor
    · rintro ⟨e, he, ht⟩
      obtain ⟨a, b, _⟩ := (mem_m e he t).1 ht
      exact ⟨a, b⟩
    · rintro ⟨a, b⟩
      obtain ⟨e, he, hep⟩ := List.mem_map.1 (h2.mem_iff.2 ((mem_preds t.p).2 ⟨t, a, b, rfl⟩))
      exact ⟨e, he, (mem_m e he t).2 ⟨a, b, hep.symm⟩⟩

theorem subjs_frag_list (hm : SafeProfile m) {o : Orders} (ho : Orders.OK o) {w : World} {g : Graph} (hg : g.Reach) {c fuel : Nat} (hL : UsualList w c)
    (hT : WithLists nl m (base.getD []) namer (w.lang c) (· ∈ g.triples) lists) (hfuel : ∀ cs ∈ lists, cs.length < fuel) (live : ∀ s ∈ g.subjects, ∃ t ∈ g.triples, t.s = s) :
    ∀ (ss : List (PStr × Term)) (nm : Names), NInv namer nm → NDom (fun k => ¬ IsCell lists (.bnode k)) nm → (∀ e ∈ ss, e.2 ∈ g.subjects ∧ ¬ IsCell lists e.2 ∧ Named nl m base nm e) → (ss.map (·.2)).Nodup →
      ∃ nm' X ds, ∃ ts : List Stmt, subjsText o c fuel g ⟨m, base, namer⟩ ⟨w, nm⟩ ss = .ok (⟨w, nm'⟩, X) ∧ NInv namer nm' ∧ NExt nm nm' ∧ NDom (fun k => ¬ IsCell lists (.bnode k)) nm' ∧
        Plainly lark (docToks ds) X ∧
        (∀ n0 st, AgreesAt (base.getD []) m st → BState.OK n0 st.bn → ∃ bs es, evalStmts nl st ds = .ok ({ st with bn := bs }, es) ∧ BState.OK n0 bs ∧ st.bn.Ext bs ∧
          ∀ ρ, Compat ρ nm' bs → ∀ n, Alloc ρ n (ts.flatMap (cellsFor lists)) →
            genStmts n es = (n + (ts.flatMap (cellsFor lists)).length, (ts.flatMap (withList lists)).map fun t => (readStmt t).rename ρ)) ∧
        ts.Nodup ∧ ∀ t, t ∈ ts ↔ t ∈ g.triples ∧ t.s ∈ ss.map (·.2)
  | [], nm, hn, hd, _, _ => ⟨nm, [], [], [], rfl, hn, .refl _, hd, .nil (.inl .nil), fun n0 st _ hok => ⟨st.bn, [], rfl, hok, .refl _, fun _ _ _ _ => rfl⟩, .nil, by simp⟩
  | e :: ss, nm, hn, hd, h, nd => by
    obtain ⟨hs, hc, hN⟩ := h e (List.mem_cons_self ..)
    obtain ⟨nm1, X, d, ts, a1, hn1, he1, hd1, a2, a3, a5, a6⟩ := subj_frag_list hm ho hg hL hT hfuel live hn hd hs hc hN
    obtain ⟨nm2, Y, ds, us, b1, hn2, he2, hd2, b2, b3, b5, b6⟩ := subjs_frag_list hm ho hg hL hT hfuel live ss nm1 hn1 hd1
      (fun e he => ⟨(h e (List.mem_cons_of_mem _ he)).1, (h e (List.mem_cons_of_mem _ he)).2.1, (h e (List.mem_cons_of_mem _ he)).2.2.mono he1⟩) (List.nodup_cons.1 nd).2
    refine ⟨nm2, X ++ Y, d :: ds, ts ++ us, ?_, hn2, he1.trans he2, hd2, a2 _ _ b2, fun n0 st hst hok => ?_, ?_, fun t => ?_⟩
    · simp only [subjsText, a1, b1]
    · obtain ⟨bs, es, k1, k2, k3, k4⟩ := a3 n0 st hst hok
      obtain ⟨bs', ess, l1, l2, l3, l4⟩ := b3 n0 { st with bn := bs } (hst.bn bs) k2
      refine ⟨bs', es :: ess, by simp only [evalStmts, k1, l1], l2, k3.trans l3, fun ρ hρ n ha => ?_⟩
      rw [List.flatMap_append, Alloc.append] at ha
      simp only [genStmts, k4 ρ (hρ.mono he2 l3) n ha.1, l4 ρ hρ _ ha.2, List.flatMap_append, List.length_append, List.map_append, Nat.add_assoc]
    · rw [List.nodup_append]
      refine ⟨a5, b5, fun x hx y hy hxy => ?_⟩
      subst hxy
      have h1 := ((a6 x).1 hx).2
      have h2 := ((b6 x).1 hy).2
      rw [h1] at h2
      exact (List.nodup_cons.1 nd).1 h2
    · rw [List.mem_append, a6, b6, List.map_cons, List.mem_cons]
      constructor
      · rintro (⟨a, b⟩ | ⟨a, b⟩)
        · exact ⟨a, .inl b⟩
        · exact ⟨a, .inr b⟩
      · rintro ⟨a, b | b⟩
        · exact .inl ⟨a, b⟩
        · exact .inr ⟨a, b⟩

end

end Verif.Turtle
