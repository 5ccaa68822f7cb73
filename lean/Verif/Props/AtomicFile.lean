import Verif.Props.FailFile
import Verif.Props.WriteFail
/-
C170: a file whose `write` stores all of its text or nothing, and a Turtle file that is left incomplete by it.
-/
namespace Verif
open Spec

namespace Spec

/-- `write` stores all of its text and raises nothing, or it raises and stores nothing. -/
def Atomic {σ : Type} (f : File σ) : Prop :=
  ∀ s t, ((f.write s t).2 = .ok () ∧ f.content (f.write s t).1 = f.content s ++ t) ∨ ((∃ e, (f.write s t).2 = .error e) ∧ f.content (f.write s t).1 = f.content s)

end Spec

variable {σ α β : Type} {f : File σ}

/-- Code that uses a file, beside the same code with a file that never fails: what it writes is the same, or the file fails and what has been written is such a text. -/
def Leaves (f : File σ) (x : Uses σ α) (y : PStr × Except Exc α) (Q : PStr → Prop) : Prop :=
  ∀ s, (f.content (x s).1 = f.content s ++ y.1 ∧ (x s).2 = y.2) ∨ ∃ p e, Q p ∧ f.content (x s).1 = f.content s ++ p ∧ (x s).2 = .error e

theorem Leaves.mono {x : Uses σ α} {y : PStr × Except Exc α} {Q Q' : PStr → Prop} (h : Leaves f x y Q) (hq : ∀ p, Q p → Q' p) : Leaves f x y Q' := by
  intro s
  rcases h s with h | ⟨p, e, h1, h2⟩
  · exact .inl h
  · exact .inr ⟨p, e, hq p h1, h2⟩

theorem Leaves.quiet (r : Except Exc α) : Leaves f (Uses.quiet r) ([], r) (fun _ => False) := fun s => .inl ⟨by simp [Uses.quiet], rfl⟩

theorem Leaves.put (hf : Atomic f) (t : PStr) : Leaves f (f.put t) (t, .ok ()) (· = []) := by
  intro s
  rcases hf s t with ⟨h1, h2⟩ | ⟨⟨e, h1⟩, h2⟩
  · exact .inl ⟨h2, h1⟩
  · exact .inr ⟨[], e, rfl, by rw [List.append_nil]; exact h2, h1⟩

theorem Leaves.putIf (hf : Atomic f) (b : Bool) (t : PStr) : Leaves f (f.putIf b t) (if b then t else [], .ok ()) (· = []) := by
  cases b
  · exact (Leaves.quiet _).mono fun _ h => h.elim
  · exact Leaves.put hf t

theorem Leaves.andThen {x : Uses σ α} {y : PStr × Except Exc α} {k : α → Uses σ β} {l : α → PStr × Except Exc β} {Q : PStr → Prop} {Q' : α → PStr → Prop} (h : Leaves f x y Q)
    (hk : ∀ a, y.2 = .ok a → Leaves f (k a) (l a) (Q' a)) : Leaves f (x.andThen k) (thenOut y l) (fun p => Q p ∨ ∃ a p', y.2 = .ok a ∧ Q' a p' ∧ p = y.1 ++ p') := by
  intro s
  unfold Uses.andThen thenOut
  obtain ⟨t, r⟩ := y
  have h := h s
  generalize x s = z at h
  obtain ⟨s1, r1⟩ := z
  dsimp only at h ⊢
  rcases h with ⟨hc, rfl⟩ | ⟨p, e, hp, hc, rfl⟩
  · cases r1 with
    | error e => exact .inl ⟨hc, rfl⟩
    | ok a =>
      dsimp only
      rcases hk a rfl s1 with ⟨hc', hr'⟩ | ⟨p, e, hp, hc', he⟩
      · exact .inl ⟨by rw [hc', hc, List.append_assoc], hr'⟩
      · exact .inr ⟨t ++ p, e, .inr ⟨a, p, rfl, hp, rfl⟩, by rw [hc', hc, List.append_assoc], he⟩
  · exact .inr ⟨p, e, .inl hp, hc, rfl⟩

namespace Turtle
open Verif.Turtle.Spec

section
variable {nl : PStr → Bool} {m : PrefixMap} {base : Option PStr} {namer : Namer}

theorem itemName_word (hm : SafeProfile m) {nm nm1 : Names} {v : Val} {t : PStr} (hs : ∀ a l d, v = .lit a l d → TextLit a l d) (hi : itemName ⟨m, base, namer⟩ nm v = .ok (nm1, t)) :
    nm1 = nm ∧ Word t := by
  cases v with
  | none => cases hi
  | res => cases hi
  | lit v l d =>
    obtain ⟨w, lf, e1, e2, _⟩ := textLit_frag hm (hs v l d rfl)
    have : (litRepr m v l d).map (fun t => (nm, t)) = .ok (nm1, t) := hi
    rw [e1] at this
    cases this
    exact ⟨rfl, _, .leaf lf, e2⟩

theorem leaves_items (hf : Atomic f) (hm : SafeProfile m) (fin : Option (Except Exc Unit)) : ∀ (vs : List Val) (first : Bool) (nm : Names), NInv namer nm →
    (∀ v l d, Val.lit v l d ∈ vs → TextLit v l d) →
    Leaves f (fileItems f ⟨m, base, namer⟩ first nm vs fin) (putItems ⟨m, base, namer⟩ first nm vs fin) (fun p => Word p ∧ (first = false → Parts p))
  | [], first, nm, hn, _ => by
    match fin with
    | none => exact (Leaves.quiet _).mono fun _ h => h.elim
    | some (.ok ()) => exact (Leaves.quiet _).mono fun _ h => h.elim
    | some (.error e) => exact (Leaves.quiet _).mono fun _ h => h.elim
  | v :: vs, first, nm, hn, hs => by
    have hpre : Shut (if (!first) = true then [32] else [] : PStr) := by
      split
      · exact .white (.inl rfl)
      · exact Shut.nil
    have hparts : first = false → ∀ Y : PStr, Parts ((if (!first) = true then [32] else []) ++ Y) := by
      rintro rfl Y; exact .inr ⟨32, Y, rfl, .inl rfl⟩
    have hw : ∀ x, itemName ⟨m, base, namer⟩ nm v = .ok x → x.1 = nm ∧ Word x.2 := fun x hx => itemName_word hm (fun a l d h => hs a l d (by rw [h]; simp)) (nm1 := x.1) (t := x.2) hx
    have h := (Leaves.putIf hf (!first) [32]).andThen fun _ _ => (Leaves.quiet (f := f) (itemName ⟨m, base, namer⟩ nm v)).andThen fun x hx => (Leaves.put hf x.2).andThen fun _ _ =>
      leaves_items hf hm fin vs false x.1 (by rw [(hw x hx).1]; exact hn) fun v l d h => hs v l d (List.mem_cons_of_mem _ h)
    have e : thenOut ((if (!first) = true then [32] else [], .ok ()) : PStr × Except Exc Unit) (fun _ => thenOut (([] : PStr), itemName ⟨m, base, namer⟩ nm v) fun x =>
        thenOut (x.2, (.ok () : Except Exc Unit)) fun _ => putItems ⟨m, base, namer⟩ false x.1 vs fin) = putItems ⟨m, base, namer⟩ first nm (v :: vs) fin := by
      have ep : putItems ⟨m, base, namer⟩ first nm (v :: vs) fin =
          (Turtle.put (if first then [] else [32])).andThen fun _ => (putItem ⟨m, base, namer⟩ nm v).andThen fun nm => putItems ⟨m, base, namer⟩ false nm vs fin := by rw [putItems]
      rw [ep]; unfold putItem
      simp only [out_then, thenOut_assoc]
      cases first <;> cases itemName ⟨m, base, namer⟩ nm v <;> simp [thenOut, Turtle.put, Turtle.quiet]
    rw [e] at h
    refine h.mono fun p hp => ?_
    rcases hp with rfl | ⟨_, p1, _, hp, rfl⟩
    · exact ⟨Shut.nil.word, fun _ => .inl rfl⟩
    · rcases hp with hp | ⟨x, p2, hx, hp, rfl⟩
      · exact hp.elim
      · rcases hp with rfl | ⟨_, p3, _, hp, rfl⟩
        · exact ⟨by simpa using hpre.word, fun h => hparts h _⟩
        · exact ⟨hpre.then (by simpa using (hw x hx).2.then hp.1 (hp.2 rfl)), fun h => hparts h _⟩

variable {o : Orders} (ho : o.OK) {g : Graph} (hg : g.Reach) (hG : NameableGraph nl m (base.getD []) g) {w0 : World} {c fuel : Nat} (hc : c < w0.classes.length)
  {iFirst iRest iNil : PStr} (hL : ListNames w0 c iFirst iRest iNil) (hm : SafeProfile m) (hsn : ∀ f, namer = some f → SafeNamer f)
include ho hg hG hc hL

/-- The object of a triple that is written as a list is true, and nothing in the graph has an empty rest. -/
theorem list_start {st : SerSt} (hst : StOK namer w0 c st) {t : Stmt} (ht : t ∈ g.triples) (hi : isList o st.w g c t.o = .ok true) :
    (asSubject t.o).truthy = true ∧ NoEmptyRest g.triples (.named iRest) := by
  have hL1 := hL.ext hc hst.ext
  have hsub : ∀ t ∈ g.triples, t.s ∈ g.subjects := fun t ht => Idx.mem_keys_of_find ((hg.inv.spo _ _ _ t).2 ⟨ht, rfl, rfl, rfl⟩)
  refine ⟨?_, fun s => ⟨fun h => ?_, fun h => ?_⟩⟩
  · have hob := hG.obj t ht
    generalize t.o = x at hob hi
    cases hob with
    | @iri i h =>
      cases i with
      | nil => exact absurd rfl h.ne
      | cons => rfl
    | bnode => rfl
    | @lit v l d h =>
      exfalso
      unfold isList at hi
      rw [hL1.rest] at hi
      simp only [Except.ok.injEq, decide_eq_true_eq] at hi
      obtain ⟨u, hu⟩ := List.exists_mem_of_ne_nil _ hi
      obtain ⟨a, b, _⟩ := (Graph.mem_match hg.inv ho.stmts _ _ _ _).1 hu
      rcases hG.subj _ (hsub u a) with ⟨i, h, _⟩ | ⟨k, h⟩ <;> rw [b rfl] at h <;> cases h
  · have := hG.obj _ h
    cases this with
    | iri h => exact h.ne rfl
  · have := hG.obj _ h
    cases this

include hm hsn

theorem leaves_obj (hf : Atomic f) {st : SerSt} (hst : StOK namer w0 c st) {t : Stmt} (ht : t ∈ g.triples) :
    Leaves f (fileObj f o c fuel g ⟨m, base, namer⟩ st t.o) (putObj o c fuel g ⟨m, base, namer⟩ st t.o) Word := by
  have hc1 := Nat.lt_of_lt_of_le hc hst.ext.length
  have hL1 := hL.ext hc hst.ext
  have h := (Leaves.quiet (f := f) (isList o st.w g c t.o)).andThen (l := fun b =>
      if b then
        let r := listTake o g c fuel st.w (.test ⟨c, asSubject t.o⟩)
        (Turtle.put [40]).andThen fun _ => (putItems ⟨m, base, namer⟩ true st.nm r.2.1 r.2.2).andThen fun nm => (Turtle.put [41]).andThen fun _ => Turtle.quiet (.ok (⟨r.1, nm⟩ : SerSt))
      else (Turtle.quiet (name ⟨m, base, namer⟩ st.nm t.o)).andThen fun x => (Turtle.put x.2).andThen fun _ => Turtle.quiet (.ok ⟨st.w, x.1⟩))
    (k := fun b =>
      if b then
        let r := listTake o g c fuel st.w (.test ⟨c, asSubject t.o⟩)
        (f.put [40]).andThen fun _ => (fileItems f ⟨m, base, namer⟩ true st.nm r.2.1 r.2.2).andThen fun nm => (f.put [41]).andThen fun _ => .quiet (.ok ⟨r.1, nm⟩)
      else (Uses.quiet (name ⟨m, base, namer⟩ st.nm t.o)).andThen fun x => (f.put x.2).andThen fun _ => .quiet (.ok ⟨st.w, x.1⟩))
    (Q' := fun _ => Word) fun b hb => by
    cases b with
    | false =>
      refine ((Leaves.quiet (f := f) _).andThen fun x _ => (Leaves.put hf x.2).andThen fun _ _ => .quiet _).mono fun p hp => ?_
      rcases hp with hp | ⟨x, p1, _, hp, rfl⟩
      · exact hp.elim
      · rcases hp with rfl | ⟨_, _, _, hp, _⟩
        · exact Shut.nil.word
        · exact hp.elim
    | true =>
      obtain ⟨h1, h2⟩ := list_start ho hg hG hc hL hst ht hb
      have hlits : ∀ v l d, Val.lit v l d ∈ (listTake o g c fuel st.w (.test ⟨c, asSubject t.o⟩)).2.1 → TextLit v l d := fun v l d h => by
        obtain ⟨u, hu, e⟩ := test_lit ho hg h2 fuel hst.reach hc1 hL1 h1 v l d h
        have := hG.obj u hu
        rw [e] at this
        cases this
        assumption
      refine ((Leaves.put hf [40]).andThen fun _ _ => (leaves_items hf hm _ _ true _ hst.names hlits).andThen fun nm _ => (Leaves.put hf [41]).andThen fun _ _ => .quiet _).mono fun p hp => ?_
      rcases hp with rfl | ⟨_, p1, _, hp, rfl⟩
      · exact Shut.nil.word
      · rcases hp with hp | ⟨nm, p2, _, hp, rfl⟩
        · exact shut_lpar.then hp.1
        · rcases hp with rfl | ⟨_, _, _, hp, _⟩
          · have := (putItems_word (base := base) hm (listTake o g c fuel st.w (.test ⟨c, asSubject t.o⟩)).2.2 _ true st.nm hst.names hlits).1
            simpa using shut_lpar.then this
          · exact hp.elim
  refine h.mono fun p hp => ?_
  rcases hp with hp | ⟨b, p1, _, hp, rfl⟩
  · exact hp.elim
  · simpa using hp

theorem leaves_objs (hf : Atomic f) (indent : Nat) : ∀ (ts : List Stmt) (first : Bool) (st : SerSt), StOK namer w0 c st → (∀ t ∈ ts, t ∈ g.triples) →
    Leaves f (fileObjs f o c fuel g ⟨m, base, namer⟩ indent first st ts) (putObjs o c fuel g ⟨m, base, namer⟩ indent first st ts) (fun p => Word p ∧ (first = false → Parts p))
  | [], _, _, _, _ => (Leaves.quiet _).mono fun _ h => h.elim
  | t :: ts, first, st, hst, hts => by
    have hpre : Shut (if first = true then [] else [44, 10] ++ spaces indent : PStr) := by
      split
      · exact Shut.nil
      · exact shut_comma indent
    have hparts : first = false → ∀ Y : PStr, Parts ((if first = true then [] else [44, 10] ++ spaces indent) ++ Y) := by
      rintro rfl Y; exact .inr ⟨44, 10 :: (spaces indent ++ Y), rfl, .inr (.inl rfl)⟩
    obtain ⟨h1, h2⟩ := putObj_word ho hg hG hc hL hm hsn (fuel := fuel) hst (hts t (List.mem_cons_self ..))
    have h := (Leaves.putIf hf (!first) ([44, 10] ++ spaces indent)).andThen fun _ _ =>
      (leaves_obj ho hg hG hc hL hm hsn hf (fuel := fuel) hst (hts t (List.mem_cons_self ..))).andThen fun st1 hst1 => leaves_objs hf indent ts false st1 (h2 st1 hst1) fun t ht => hts t (List.mem_cons_of_mem _ ht)
    rw [putIf_not] at h
    refine Leaves.mono (y := putObjs o c fuel g ⟨m, base, namer⟩ indent first st (t :: ts)) h fun p hp => ?_
    rcases hp with rfl | ⟨_, p1, _, hp, rfl⟩
    · exact ⟨Shut.nil.word, fun _ => .inl rfl⟩
    · rcases hp with hp | ⟨st1, p2, _, hp, rfl⟩
      · exact ⟨hpre.then hp, fun h => hparts h _⟩
      · exact ⟨hpre.then (h1.then hp.1 (hp.2 rfl)), fun h => hparts h _⟩

theorem leaves_preds (hf : Atomic f) (s : Term) (indent : Nat) : ∀ (ps : List (PStr × Term)) (first : Bool) (st : SerSt), StOK namer w0 c st → (∀ e ∈ ps, Word e.1) →
    Leaves f (filePreds f o c fuel g ⟨m, base, namer⟩ s indent first st ps) (putPreds o c fuel g ⟨m, base, namer⟩ s indent first st ps) Word
  | [], _, _, _, _ => (Leaves.quiet _).mono fun _ h => h.elim
  | (pname, p) :: ps, first, st, hst, hps => by
    have hpre : Shut (if first = true then [] else spaces indent : PStr) := by
      split
      · exact Shut.nil
      · exact .spaces indent
    have hp : Shut (pname ++ [32]) := (hps _ (List.mem_cons_self ..) : Word pname).shut (.white (.inl rfl)) (.inr ⟨32, [], rfl, .inl rfl⟩) (by simp)
    have hts : ∀ t ∈ g.match o.stmts s p .none, t ∈ g.triples := fun t ht => ((Graph.mem_match hg.inv ho.stmts _ _ _ _).1 ht).1
    obtain ⟨h1, _, h2⟩ := putObjs_word ho hg hG hc hL hm hsn (fuel := fuel) (indent + pname.length + 1) (g.match o.stmts s p .none) true st hst hts
    have h := (Leaves.putIf hf (!first) (spaces indent)).andThen fun _ _ => (Leaves.put hf (pname ++ [32])).andThen fun _ _ =>
      (leaves_objs ho hg hG hc hL hm hsn hf (fuel := fuel) (indent + pname.length + 1) (g.match o.stmts s p .none) true st hst hts).andThen fun st1 hst1 =>
        (Leaves.put hf [32, 59, 10]).andThen fun _ _ => leaves_preds hf s indent ps false st1 (h2 st1 hst1) fun e he => hps e (List.mem_cons_of_mem _ he)
    rw [putIf_not] at h
    have hX : Shut ((putObjs o c fuel g ⟨m, base, namer⟩ (indent + pname.length + 1) true st (g.match o.stmts s p .none)).1 ++ [32, 59, 10]) :=
      h1.shut shut_semi (.inr ⟨32, _, rfl, .inl rfl⟩) (by simp)
    refine Leaves.mono (y := putPreds o c fuel g ⟨m, base, namer⟩ s indent first st ((pname, p) :: ps)) h fun q hq => ?_
    rcases hq with rfl | ⟨_, p1, _, hq, rfl⟩
    · exact Shut.nil.word
    · rcases hq with rfl | ⟨_, p2, _, hq, rfl⟩
      · simpa using hpre.word
      · rcases hq with hq | ⟨st1, p3, _, hq, rfl⟩
        · exact hpre.then (hp.then hq.1)
        · rcases hq with rfl | ⟨_, p4, _, hq, rfl⟩
          · exact hpre.then (hp.then (by simpa using h1))
          · refine hpre.then (hp.then ?_)
            dsimp only
            rw [← List.append_assoc]
            exact hX.then hq

theorem leaves_subj (hf : Atomic f) {st : SerSt} (hst : StOK namer w0 c st) {sname : PStr} {s : Term} (hs : ∃ n : NodeTok, Frag n.toks sname) :
    Leaves f (fileSubj f o c fuel g ⟨m, base, namer⟩ st sname s) (putSubj o c fuel g ⟨m, base, namer⟩ st sname s) (fun p => p = [] ∨ ∃ ts, Begun ts ∧ Frag ts p) := by
  obtain ⟨n, hn⟩ := hs
  have hsn1 : ∀ {ts : List Tok} {X : PStr}, Mids ts → Frag ts X → ∃ ts, Begun ts ∧ Frag ts ((sname ++ [32]) ++ X) := fun {ts X} h1 h2 =>
    ⟨n.toks ++ ts, ⟨n, ts, rfl, h1⟩, fun P hP r tks hr hp => by
      rw [List.append_assoc, List.append_assoc (sname ++ [32]), List.append_assoc]
      exact hn P hP _ _ (.inr ⟨32, X ++ r, rfl, .inl rfl⟩) (hP.white (.inl rfl) (h2 P hP _ _ hr hp))⟩
  have hps : ∀ x, sortedNames ⟨m, base, namer⟩ st.nm (o.terms (pySet ((g.match o.stmts s .none .none).map (·.p)))) = .ok x → NInv namer x.1 ∧ ∀ e ∈ x.2, Word e.1 := fun x hx => by
    obtain ⟨hn1, hps⟩ := sortedNames_word (nl := nl) hm hsn hst.names (nm' := x.1) (xs := x.2) (fun t ht => by
      have ht : t ∈ pySet ((g.match o.stmts s .none .none).map (·.p)) := (ho.terms _).mem_iff.1 ht
      obtain ⟨u, hu, rfl⟩ := List.mem_map.1 ((mem_pySet _ _).1 ht)
      obtain ⟨i, e, hi⟩ := hG.pred u ((Graph.mem_match hg.inv ho.stmts _ _ _ _).1 hu).1
      rw [e]
      exact ⟨.iri hi, by simp⟩) hx
    exact ⟨hn1, fun e he => by obtain ⟨_, k, hk⟩ := hps e he; exact ⟨_, .leaf (.node k), hk⟩⟩
  have h := (Leaves.put hf (sname ++ [32])).andThen fun _ _ =>
    (Leaves.quiet (f := f) (sortedNames ⟨m, base, namer⟩ st.nm (o.terms (pySet ((g.match o.stmts s .none .none).map (·.p)))))).andThen fun x hx =>
      (leaves_preds ho hg hG hc hL hm hsn hf (fuel := fuel) s (sname.length + 1) x.2 true ⟨st.w, x.1⟩ ⟨(hps x hx).1, hst.reach, hst.ext⟩ (hps x hx).2).andThen fun st1 _ =>
        (Leaves.put hf (spaces (sname.length + 1) ++ [46, 10, 10])).andThen fun _ _ => Leaves.quiet (f := f) (.ok st1)
  refine Leaves.mono (y := putSubj o c fuel g ⟨m, base, namer⟩ st sname s) h fun p hp => ?_
  rcases hp with rfl | ⟨_, p1, _, hp, rfl⟩
  · exact .inl rfl
  · right
    rcases hp with hp | ⟨x, p2, hx, hp, rfl⟩
    · exact hp.elim
    · rcases hp with ⟨ts, h1, h2⟩ | ⟨st1, p3, _, hp, rfl⟩
      · exact hsn1 h1 h2
      · rcases hp with rfl | ⟨_, _, _, hp, _⟩
        · obtain ⟨ts, h1, h2⟩ := (putPreds_word ho hg hG hc hL hm hsn (fuel := fuel) s (sname.length + 1) x.2 true ⟨st.w, x.1⟩ ⟨(hps x hx).1, hst.reach, hst.ext⟩ (hps x hx).2).1
          rw [List.append_nil]
          exact hsn1 h1 h2
        · exact hp.elim

/-- The subjects that have all been written. -/
theorem done_whole : ∀ (ss : List (PStr × Term)) (st : SerSt), StOK namer w0 c st → (∀ e ∈ ss, ∃ n : NodeTok, Frag n.toks e.1) → ∀ {X : PStr} {st' : SerSt},
    putSubjs o c fuel g ⟨m, base, namer⟩ st ss = (X, .ok st') → StOK namer w0 c st' ∧ ∃ a, Whole a ∧ ∀ P, Reads P → ∀ tks r, P tks r → P (a ++ tks) (X ++ r)
  | [], st, hst, _, X, st', h => by cases h; exact ⟨hst, [], ⟨trivial, rfl, .inl rfl⟩, fun _ _ _ _ h => h⟩
  | (sname, s) :: ss, st, hst, hss, X, st', h => by
    obtain ⟨h1, h2⟩ := putSubj_word ho hg hG hc hL hm hsn (fuel := fuel) hst (s := s) (hss _ (List.mem_cons_self ..))
    unfold putSubjs at h
    generalize putSubj o c fuel g ⟨m, base, namer⟩ st sname s = z at h h1 h2
    obtain ⟨Y, r⟩ := z
    cases r with
    | error e => cases h
    | ok st1 =>
      obtain ⟨q, ts, t1, t2⟩ := h2 st1 rfl
      simp only [andThen_ok] at h
      obtain ⟨e1, e2⟩ := Prod.mk.inj h
      obtain ⟨i0, a, i1, i2⟩ := done_whole ss st1 q (fun e he => hss e (List.mem_cons_of_mem _ he)) (Prod.ext rfl e2)
      refine ⟨i0, (ts ++ [.dot]) ++ a, t1.whole.append i1, fun P hP tks r hp => ?_⟩
      have := t2 P hP _ _ (i2 P hP _ _ hp)
      rw [← e1]
      simpa using this

/-- What there may be of the subjects: complete statements and a beginning of one; or the first subjects. -/
def SomeSubjs (o : Orders) (c fuel : Nat) (g : Graph) (cx : SerCtx) (st : SerSt) (ss : List (PStr × Term)) (p : PStr) : Prop :=
  (∃ a b, Whole a ∧ Begun b ∧ Plainly lark (a ++ b) p) ∨ ∃ done rest st', ss = done ++ rest ∧ putSubjs o c fuel g cx st done = (p, .ok st')

theorem leaves_subjs (hf : Atomic f) : ∀ (ss : List (PStr × Term)) (st : SerSt), StOK namer w0 c st → (∀ e ∈ ss, ∃ n : NodeTok, Frag n.toks e.1) →
    Leaves f (fileSubjs f o c fuel g ⟨m, base, namer⟩ st ss) (putSubjs o c fuel g ⟨m, base, namer⟩ st ss) (SomeSubjs o c fuel g ⟨m, base, namer⟩ st ss)
  | [], _, _, _ => (Leaves.quiet _).mono fun _ h => h.elim
  | (sname, s) :: ss, st, hst, hss => by
    obtain ⟨h1, h2⟩ := putSubj_word ho hg hG hc hL hm hsn (fuel := fuel) hst (s := s) (hss _ (List.mem_cons_self ..))
    have h := (leaves_subj ho hg hG hc hL hm hsn hf (fuel := fuel) hst (s := s) (hss _ (List.mem_cons_self ..))).andThen fun st1 hst1 =>
      leaves_subjs hf ss st1 (h2 st1 hst1).1 fun e he => hss e (List.mem_cons_of_mem _ he)
    refine Leaves.mono (y := putSubjs o c fuel g ⟨m, base, namer⟩ st ((sname, s) :: ss)) h fun p hp => ?_
    rcases hp with hp | ⟨st1, p1, hst1, hp, rfl⟩
    · rcases hp with rfl | ⟨ts, t1, t2⟩
      · exact .inr ⟨[], (sname, s) :: ss, st, rfl, rfl⟩
      · refine .inl ⟨[], ts, ⟨trivial, rfl, .inl rfl⟩, t1, ?_⟩
        have := t2.plainly [] [] (.inl rfl) (.nil (.inl .nil))
        simpa using this
    · obtain ⟨_, ts, t1, t2⟩ := h2 st1 hst1
      rcases hp with ⟨a, b, i1, i2, i3⟩ | ⟨done, rest, st', rfl, hd⟩
      · refine .inl ⟨(ts ++ [.dot]) ++ a, b, t1.whole.append i1, i2, ?_⟩
        have := t2 _ .plainly _ _ i3
        simpa using this
      · refine .inr ⟨(sname, s) :: done, rest, st', rfl, ?_⟩
        show thenOut (putSubj o c fuel g ⟨m, base, namer⟩ st sname s) (fun st1 => putSubjs o c fuel g ⟨m, base, namer⟩ st1 done) = _
        unfold thenOut
        rw [hst1]
        dsimp only
        rw [hd]

end

theorem putSubjs_append {o : Orders} {c fuel : Nat} {g : Graph} {cx : SerCtx} : ∀ (done rest : List (PStr × Term)) {st st' : SerSt} {X : PStr}, putSubjs o c fuel g cx st done = (X, .ok st') →
    putSubjs o c fuel g cx st (done ++ rest) = (X ++ (putSubjs o c fuel g cx st' rest).1, (putSubjs o c fuel g cx st' rest).2)
  | [], rest, st, st', X, h => by cases h; rfl
  | (sname, s) :: done, rest, st, st', X, h => by
    rw [List.cons_append]
    unfold putSubjs at h
    rw [putSubjs]
    generalize putSubj o c fuel g cx st sname s = z at h
    obtain ⟨Y, r⟩ := z
    cases r with
    | error e => cases h
    | ok st1 =>
      simp only [andThen_ok] at h ⊢
      obtain ⟨e1, e2⟩ := Prod.mk.inj h
      rw [putSubjs_append done rest (Prod.ext rfl e2 : putSubjs o c fuel g cx st1 done = (_, .ok st')), ← e1]
      simp

theorem leaves_prefixes (hf : Atomic f) : ∀ m : PrefixMap, Leaves f (filePrefixes f m) (header none m, .ok ()) (fun p => ∃ m1 m2, m = m1 ++ m2 ∧ p = header none m1)
  | [] => (Leaves.quiet _).mono fun _ h => h.elim
  | e :: m => by
    have h := (Leaves.putIf hf (decide (e.1 ≠ py! "rdf")) (py! "@prefix " ++ e.1 ++ py! ": <" ++ e.2 ++ py! "> .\n")).andThen fun _ _ => leaves_prefixes hf m
    have e1 : ∀ m, (if decide (e.1 ≠ py! "rdf") = true then py! "@prefix " ++ e.1 ++ py! ": <" ++ e.2 ++ py! "> .\n" else []) ++ header none m = header none (e :: m) := by
      intro m; simp [header, List.flatMap_cons]
    have e2 : thenOut ((if decide (e.1 ≠ py! "rdf") = true then py! "@prefix " ++ e.1 ++ py! ": <" ++ e.2 ++ py! "> .\n" else [], .ok ()) : PStr × Except Exc Unit)
        (fun _ => (header none m, (.ok () : Except Exc Unit))) = (header none (e :: m), .ok ()) := by rw [thenOut]; dsimp only; rw [e1]
    rw [e2] at h
    refine h.mono fun p hp => ?_
    rcases hp with rfl | ⟨_, p1, _, ⟨m1, m2, rfl, rfl⟩, rfl⟩
    · exact ⟨[], e :: m, rfl, rfl⟩
    · exact ⟨e :: m1, m2, rfl, e1 m1⟩

theorem leaves_header (hf : Atomic f) (base : Option PStr) (m : PrefixMap) :
    Leaves f (fileHeader f base m) (Turtle.put (header base m)) (fun p => p = [] ∨ ∃ m1 m2, m = m1 ++ m2 ∧ p = header base m1) := by
  cases base with
  | none =>
    refine ((Leaves.quiet (f := f) (.ok ())).andThen fun _ _ => leaves_prefixes hf m).mono fun p hp => ?_
    rcases hp with hp | ⟨_, p1, _, ⟨m1, m2, h1, rfl⟩, rfl⟩
    · exact hp.elim
    · exact .inr ⟨m1, m2, h1, rfl⟩
  | some b =>
    refine ((Leaves.put hf (py! "@base <" ++ b ++ py! "> .\n")).andThen fun _ _ => leaves_prefixes hf m).mono fun p hp => ?_
    rcases hp with hp | ⟨_, p1, _, ⟨m1, m2, h1, rfl⟩, rfl⟩
    · exact .inl hp
    · exact .inr ⟨m1, m2, h1, rfl⟩

section
variable {nl : PStr → Bool} {m : PrefixMap} {base : Option PStr} {namer : Namer} {o : Orders} (ho : o.OK) {g : Graph} (hg : g.Reach) (hG : NameableGraph nl m (base.getD []) g)
  {w : World} (hw : w.Reach) (hc : listC < w.classes.length) {iFirst iRest iNil : PStr} (hL : ListNames w listC iFirst iRest iNil) (hm : SafeProfileAt nl m (base.getD []))
  (hsn : ∀ f, namer = some f → SafeNamer f) {fuel : Nat}

/-- What there may be in the file: directives; or all of them and what there may be of the subjects. -/
def SomeText (o : Orders) (w : World) (fuel : Nat) (g : Graph) (base : Option PStr) (m : PrefixMap) (namer : Namer) (p : PStr) : Prop :=
  (p = [] ∨ ∃ m1 m2, m = m1 ++ m2 ∧ p = header base m1) ∨
  ∃ subjects nm ss X, plainSubjects o w listC g g.subjects = .ok subjects ∧ sortedNames ⟨m, base, namer⟩ {} subjects = .ok (nm, ss) ∧ p = header base m ++ X ∧
    SomeSubjs o listC fuel g ⟨m, base, namer⟩ ⟨w, nm⟩ ss X

include hG hm hsn in
theorem subjects_named {subjects : List Term} {nm : Names} {ss : List (PStr × Term)} (h1 : plainSubjects o w listC g g.subjects = .ok subjects)
    (h2 : sortedNames ⟨m, base, namer⟩ {} subjects = .ok (nm, ss)) : NInv namer nm ∧ ∀ e ∈ ss, ∃ n : NodeTok, Frag n.toks e.1 := by
  obtain ⟨hn, hss⟩ := sortedNames_word (nl := nl) hm.toSafeProfile hsn (NInv.empty namer) (fun t ht => by
    rcases hG.subj t (plainSubjects_sub _ h1 t ht) with ⟨i, rfl, hi⟩ | ⟨k, rfl⟩
    · exact ⟨.iri hi, by simp⟩
    · exact ⟨.bnode, by simp⟩) h2
  exact ⟨hn, fun e he => (hss e he).2⟩

include ho hg hG hw hc hL hm hsn in
theorem leaves_turtle (hf : Atomic f) :
    Leaves f (fileTurtle f o w fuel g base (some m) namer) (writeTurtle o w fuel g base (some m) namer) (SomeText o w fuel g base m namer) := by
  have h := (leaves_header hf base m).andThen fun _ _ => (Leaves.quiet (f := f) (plainSubjects o w listC g g.subjects)).andThen fun subjects h1 =>
    (Leaves.quiet (f := f) (sortedNames ⟨m, base, namer⟩ {} subjects)).andThen fun x h2 =>
      (leaves_subjs ho hg hG hc hL hm.toSafeProfile hsn hf (fuel := fuel) x.2 ⟨w, x.1⟩ ⟨(subjects_named hG hm hsn h1 (nm := x.1) (ss := x.2) h2).1, hw, World.Ext.refl w⟩
        (subjects_named hG hm hsn h1 (nm := x.1) (ss := x.2) h2).2).andThen fun _ _ => Leaves.quiet (f := f) (.ok ())
  refine Leaves.mono (y := writeTurtle o w fuel g base (some m) namer) h fun p hp => ?_
  rcases hp with hp | ⟨_, p1, _, hp, rfl⟩
  · exact .inl hp
  · rcases hp with hp | ⟨subjects, p2, h1, hp, rfl⟩
    · exact hp.elim
    · rcases hp with hp | ⟨x, p3, h2, hp, rfl⟩
      · exact hp.elim
      · rcases hp with hp | ⟨_, _, _, hp, _⟩
        · exact .inr ⟨subjects, x.1, x.2, _, h1, h2, rfl, hp⟩
        · exact hp.elim

/-- What a writer that has finished has written. -/
theorem writeTurtle_ok (h : (writeTurtle o w fuel g base (some m) namer).2 = .ok ()) :
    ∃ subjects nm ss X st', plainSubjects o w listC g g.subjects = .ok subjects ∧ sortedNames ⟨m, base, namer⟩ {} subjects = .ok (nm, ss) ∧
      putSubjs o listC fuel g ⟨m, base, namer⟩ ⟨w, nm⟩ ss = (X, .ok st') ∧ (writeTurtle o w fuel g base (some m) namer).1 = header base m ++ X := by
  unfold writeTurtle put quiet at h ⊢
  simp only [andThen_ok, Option.getD_some] at h ⊢
  cases h1 : plainSubjects o w listC g g.subjects with
  | error e => rw [h1] at h; cases h
  | ok subjects =>
    rw [h1] at h
    simp only [andThen_ok] at h ⊢
    cases h2 : sortedNames ⟨m, base, namer⟩ {} subjects with
    | error e => rw [h2] at h; cases h
    | ok x =>
      obtain ⟨nm, ss⟩ := x
      rw [h2] at h
      simp only [andThen_ok] at h ⊢
      cases h3 : putSubjs o listC fuel g ⟨m, base, namer⟩ ⟨w, nm⟩ ss with
      | mk X r =>
        rw [h3] at h
        cases r with
        | error e => cases h
        | ok st' => exact ⟨subjects, nm, ss, X, st', rfl, h2, h3, by simp [andThen_ok]⟩

theorem lex_plain {ts : List Tok} (hw : Whole ts) {p : PStr} (hp : Plainly lark ts p) : lex p = .ok ts := lexAll_complete _ _ (Nat.lt_succ_self _) hw.1 hp

/-- Whole statements that are the first tokens of a document are its first statements. -/
theorem whole_first {a vs : List Tok} {p text : PStr} (ha : Whole a) (hp : Plainly lark a p) (hv : Whole (a ++ vs)) (ht : Plainly lark (a ++ vs) text) {d d' : List PTStmt}
    (hd' : parseTree p = .ok d') (hd : parseTree text = .ok d) : d' <+: d := by
  unfold parseTree at hd hd'
  rw [lex_plain ha hp] at hd'
  rw [lex_plain hv ht] at hd
  have e1 := (C93_exact _ _).1 hd'
  have e2 := (C93_exact _ _).1 hd
  rw [e1] at e2
  exact docToks_first d' d e2.symm

theorem Plainly.none : Plainly lark [] [] := .nil (.inl .nil)

theorem docDecls_split (base : Option PStr) (m1 m2 : PrefixMap) : docDecls base (m1 ++ m2) = docDecls base m1 ++ declStmts m2 := by
  simp [docDecls, declStmts, List.append_assoc]

/-- The directives that have been written are directives of the profile. -/
theorem some_header (h : ∀ e ∈ m, PnPrefix e.1 ∧ LegalIri e.2) (hb : LegalIri (base.getD [])) {m1 m2 : PrefixMap} (hm12 : m = m1 ++ m2) :
    parseTree (header base m1) = .ok (docDecls base m1) ∧ docDecls base m1 <+: docDecls base m := by
  refine ⟨C96_exact ?_, by rw [hm12, docDecls_split]; exact List.prefix_append _ _⟩
  have := header_frag_at .plainly (m := m1) (fun e he => h e (by rw [hm12]; exact List.mem_append_left _ he)) hb Plainly.none
  simpa using this

include ho hg hG hw hc hL hm hsn in
/-- The text that is left is rejected, or its statements are the first statements of the whole text. -/
theorem someText_first {p : PStr} (h : SomeText o w fuel g base m namer p) :
    (∃ e, parseTree p = .error e) ∨ ∃ d', parseTree p = .ok d' ∧ ∀ d, (writeTurtle o w fuel g base (some m) namer).2 = .ok () →
      parseTree (writeTurtle o w fuel g base (some m) namer).1 = .ok d → d' <+: d := by
  have decls : ∀ d, (writeTurtle o w fuel g base (some m) namer).2 = .ok () → parseTree (writeTurtle o w fuel g base (some m) namer).1 = .ok d → docDecls base m <+: d := by
    intro d hok hd
    obtain ⟨subjects, nm, ss, X, st', h1, h2, h3, h4⟩ := writeTurtle_ok hok
    obtain ⟨hn, hss⟩ := subjects_named hG hm hsn h1 h2
    obtain ⟨_, a, a1, a2⟩ := done_whole ho hg hG hc hL hm.toSafeProfile hsn (fuel := fuel) ss ⟨w, nm⟩ ⟨hn, hw, World.Ext.refl w⟩ hss h3
    have hX : Plainly lark a X := by simpa using a2 _ .plainly _ _ Plainly.none
    have hp := header_frag_at .plainly hm.names hm.baseLegal hX
    rw [h4] at hd
    have hh : Plainly lark (docToks (docDecls base m)) (header base m) := by
      have := header_frag_at .plainly hm.names hm.baseLegal Plainly.none
      simpa using this
    exact whole_first (whole_decls base m) hh ((whole_decls base m).append a1) hp (C96_exact hh) hd
  rcases h with (rfl | ⟨m1, m2, h1, rfl⟩) | ⟨subjects, nm, ss, X, h1, h2, rfl, h3⟩
  · exact .inr ⟨[], rfl, fun d _ _ => List.nil_prefix⟩
  · obtain ⟨e1, e2⟩ := some_header hm.names hm.baseLegal h1
    exact .inr ⟨_, e1, fun d hok hd => e2.trans (decls d hok hd)⟩
  · obtain ⟨hn, hss⟩ := subjects_named hG hm hsn h1 h2
    rcases h3 with ⟨a, b, ha, hb, hp⟩ | ⟨done, rest, st', rfl, h3⟩
    · left
      have hp' := header_frag_at .plainly hm.names hm.baseLegal hp
      rw [← List.append_assoc] at hp'
      exact torn_rejected ((whole_decls base m).append ha) hb hp'
    · obtain ⟨hst, a, a1, a2⟩ := done_whole ho hg hG hc hL hm.toSafeProfile hsn (fuel := fuel) done ⟨w, nm⟩ ⟨hn, hw, World.Ext.refl w⟩ (fun e he => hss e (List.mem_append_left _ he)) h3
      have hX : Plainly lark a X := by simpa using a2 _ .plainly _ _ Plainly.none
      have hp := header_frag_at .plainly hm.names hm.baseLegal hX
      cases hd' : parseTree (header base m ++ X) with
      | error e => exact .inl ⟨e, rfl⟩
      | ok d' =>
        refine .inr ⟨d', rfl, fun d hok hd => ?_⟩
        obtain ⟨subjects', nm', ss', Y, st'', k1, k2, k3, k4⟩ := writeTurtle_ok hok
        rw [h1] at k1; cases k1
        rw [h2] at k2; cases k2
        rw [putSubjs_append done rest h3] at k3
        obtain ⟨e1, e2⟩ := Prod.mk.inj k3
        obtain ⟨_, b, b1, b2⟩ := done_whole ho hg hG hc hL hm.toSafeProfile hsn (fuel := fuel) rest st' hst (fun e he => hss e (List.mem_append_right _ he))
          (Prod.ext rfl e2 : putSubjs o listC fuel g ⟨m, base, namer⟩ st' rest = (_, .ok st''))
        have hY : Plainly lark (a ++ b) Y := by
          have := a2 _ .plainly _ _ (b2 _ .plainly _ _ Plainly.none)
          rw [← e1]
          simpa using this
        have hq := header_frag_at .plainly hm.names hm.baseLegal hY
        rw [← List.append_assoc] at hq
        rw [k4] at hd
        refine whole_first ((whole_decls base m).append a1) hp ?_ hq hd' hd
        rw [List.append_assoc]
        exact (whole_decls base m).append (a1.append b1)

/-- **The file that a failing `write` leaves** (C170): for every graph whose terms can be written or cannot be named, lists included, every base, profile of legal names and generator of labels, and
    every file that stores texts as a whole: all is written and the outcome is the writer's; or an exception reaches the caller, and what is in the file is rejected by the parser, or its statements
    are the first statements of the whole text. No value is ever cut. -/
theorem C170_turtle {nl : PStr → Bool} {m : PrefixMap} {base : Option PStr} {namer : Namer} {o : Orders} (ho : o.OK) {g : Graph} (hg : g.Reach)
    (hG : NameableGraph nl m (base.getD []) g) {w : World} (hw : w.Reach) {iFirst iRest iNil : PStr} (hc : listC < w.classes.length) (hL : ListNames w listC iFirst iRest iNil)
    (hm : SafeProfileAt nl m (base.getD [])) (hsn : ∀ f, namer = some f → SafeNamer f) {fuel : Nat} (hf : Atomic f) {s : σ} (hs : f.content s = []) :
    let out := fileTurtle f o w fuel g base (some m) namer s
    let text := (writeTurtle o w fuel g base (some m) namer).1
    (f.content out.1 = text ∧ out.2 = (writeTurtle o w fuel g base (some m) namer).2) ∨
    (∃ e, out.2 = .error e) ∧ ((∃ e, parseTree (f.content out.1) = .error e) ∨
      ∃ d', parseTree (f.content out.1) = .ok d' ∧ ∀ d, (writeTurtle o w fuel g base (some m) namer).2 = .ok () → parseTree text = .ok d → d' <+: d) := by
  rcases leaves_turtle ho hg hG hw hc hL hm hsn (fuel := fuel) hf s with ⟨h1, h2⟩ | ⟨p, e, hp, h1, h2⟩
  · exact .inl ⟨by simpa [hs] using h1, h2⟩
  · right
    refine ⟨⟨e, h2⟩, ?_⟩
    rw [h1, hs, List.nil_append]
    exact someText_first ho hg hG hw hc hL hm hsn hp

/-- The graph of the first subjects is what the text of the first subjects is read as. -/
theorem first_is_read (hm : SafeProfileAt nl m (base.getD [])) (hg : SafeGraphAt nl m (base.getD []) namer g) (ho : Orders.OK o)
    (hr : resolveKey w listC (py! "rdf:rest") = .ok (some (Heap.rdfNs ++ py! "rest"))) {subjects : List Term} {nm : Names} {done rest : List (PStr × Term)} {X : PStr} {st' : SerSt}
    (h1 : plainSubjects o w listC g g.subjects = .ok subjects) (h2 : sortedNames ⟨m, base, namer⟩ {} subjects = .ok (nm, done ++ rest))
    (h3 : putSubjs o listC fuel g ⟨m, base, namer⟩ ⟨w, nm⟩ done = (X, .ok st')) (n : Nat) :
    ∃ n' ts us ρ, parseText nl [] n (header base m ++ X) = .ok (n', ts.map fun t => (readStmt t).rename ρ) ∧ Renames ρ ts n n' ∧
      us = done.map (·.2) ∧ (∀ u ∈ us, u ∈ g.subjects) ∧ ∀ t, t ∈ ts ↔ t ∈ g.triples ∧ t.s ∈ us := by
  have hno : ∀ t ∈ g.triples, t.p ≠ .named (Heap.rdfNs ++ py! "rest") := fun t ht h => by
    obtain ⟨j, h1, _, h2⟩ := hg.pred t ht
    rw [h] at h1; cases h1; exact h2 rfl
  rw [plainSubjects_all g.subjects fun x _ => isList_false hno hg.inv ho.stmts hr x] at h1
  cases h1
  obtain ⟨nm0, ss, q1, hn, _, q2, q3⟩ := sortedNames_at (base := base) hm.toSafeProfile (NInv.empty namer) (ts := g.subjects) hg.inv.wspo.1 (fun s hs => by
    obtain ⟨t, ht, rfl⟩ := hg.live s hs
    exact hg.subj t ht)
  rw [q1] at h2
  cases h2
  have hsub : ∀ e ∈ done, e.2 ∈ g.subjects := fun e he => q2.mem_iff.1 (List.mem_map.2 ⟨e, List.mem_append_left _ he, rfl⟩)
  have hnd : (done.map (·.2)).Nodup := by
    have := q2.nodup_iff.2 hg.inv.wspo.1
    rw [List.map_append] at this
    exact this.of_append_left
  obtain ⟨nm', Y, ds, ts, a1, hn', _, _, a2, a3, a5, a6, _⟩ := subjs_frag_at hm.toSafeProfile hg ho (c := listC) (fuel := fuel) hr done nm hn
    (fun e he => ⟨hsub e he, q3 e (List.mem_append_left _ he)⟩) hnd
  have hag := putSubjs_agrees o listC fuel g ⟨m, base, namer⟩ done ⟨w, nm⟩
  rw [a1] at hag
  simp only [SameAs] at hag
  rw [h3] at hag
  cases hag
  obtain ⟨bs, es, k1, k2, k3, k4⟩ := a3 n _ (agreesAt_declared hm.toSafeProfile (base.getD []) { map := [], next := n }) (BState.OK.init n)
  have hp : Plainly lark (docToks (docDecls base m ++ ds)) (header base m ++ X) := by
    have := header_frag_at .plainly hm.names hm.baseLegal (a2 [] [] (.nil (.inl .nil)))
    simpa [docToks] using this
  obtain ⟨k, hk⟩ := eval_docDecls hm k1
  have hgk : ∀ ρ, Compat ρ nm' bs → ∀ k, genStmts bs.next (List.replicate k .directive ++ es) = (bs.next, ts.map fun t => (readStmt t).rename ρ) := by
    intro ρ hρ k
    induction k with
    | zero => exact k4 ρ hρ bs.next
    | succ k ih => rw [List.replicate_succ, List.cons_append, genStmts]; simp [genStmt, ih]
  have hren := renames_readAs hn' k2 (ts := ts.map readStmt) (us := (genStmts bs.next (List.replicate k .directive ++ es)).2) fun ρ hρ => by rw [hgk ρ hρ, List.map_map]; rfl
  refine ⟨bs.next, ts, done.map (·.2), readAs nm' bs, ?_, ?_, rfl, ?_, a6⟩
  · rw [parseText, C96_exact hp]
    show (match evalStmts nl { base := [], prefixes := initialPrefixes, bn := { map := [], next := n } } (docDecls base m ++ ds) with | .error _ => _ | .ok (st, es) => _) = _
    rw [hk]
    show Except.ok (genStmts bs.next _) = _
    rw [hgk _ (compat_readAs nm' bs)]
  · have hin : ∀ t ∈ ts, readStmt t ∈ ts.map readStmt := fun t ht => List.mem_map.2 ⟨t, ht, rfl⟩
    exact ⟨fun t ht t' ht' b b' hb hb' => hren.inj _ (hin t ht) _ (hin t' ht') b b' (hasBnode_readStmt hb) (hasBnode_readStmt hb'),
      fun t ht b hb => hren.fresh _ (hin t ht) b (hasBnode_readStmt hb)⟩
  · intro u hu
    obtain ⟨e, he, rfl⟩ := List.mem_map.1 hu
    exact hsub e he

theorem SafeGraphAt.nameable (h : SafeGraphAt nl m (base.getD []) namer g) : NameableGraph nl m (base.getD []) g where
  subj s hs := by
    obtain ⟨t, ht, rfl⟩ := h.live s hs
    rcases h.subj t ht with h | ⟨h, _⟩
    · exact .inl h
    · exact .inr h
  pred t ht := by obtain ⟨i, h1, h2, _⟩ := h.pred t ht; exact ⟨i, h1, h2⟩
  obj t ht := by
    have := h.obj t ht
    generalize t.o = x at this
    cases this with
    | iri h => exact .iri h
    | lit h => exact .lit h
    | bnode => exact .bnode

/-- **What is read from such a file** (C170), for graphs of safe triples with any history: an error, if the writer failed; or all triples of some of the subjects, up to the names of blank nodes,
    and of all subjects if the writer did not fail. -/
theorem C170_read {nl : PStr → Bool} {m : PrefixMap} {base : Option PStr} (hm : SafeProfileAt nl m (base.getD [])) {namer : Namer} (u : Term) (ops : List Verif.Spec.GOp)
    (hs : ∀ t ∈ Verif.Spec.runSet ops, TextTriAt nl m (base.getD []) namer t) (live : ∀ t ∈ everAdded ops, ∃ t' ∈ Verif.Spec.runSet ops, t'.s = t.s) {o : Orders} (ho : Orders.OK o)
    {w : World} (hw : w.Reach) {iFirst iNil : PStr} (hc : listC < w.classes.length) (hL : ListNames w listC iFirst (Heap.rdfNs ++ py! "rest") iNil)
    (hsn : ∀ f, namer = some f → SafeNamer f) {fuel : Nat} (hf : Atomic f) {s : σ} (hs0 : f.content s = []) (n : Nat) (u' : Term) :
    let out := fileTurtle f o w fuel (Graph.run u ops) base (some m) namer s
    ((∃ e, out.2 = .error e) ∧ ∃ e, parse (fun g t => g.add t) nl [] n (Graph.new u') (.str (f.content out.1)) = (Graph.new u', n, .error e)) ∨
    ∃ (us : List Term) (g : Graph) (n' : Nat) (ρ : Nat → Nat), parse (fun g t => g.add t) nl [] n (Graph.new u') (.str (f.content out.1)) = (g, n', .ok ()) ∧
      (∀ t ∈ Verif.Spec.runSet ops, ∀ t' ∈ Verif.Spec.runSet ops, t.s ∈ us → t'.s ∈ us → ∀ b b', HasBnode t.stmt b → HasBnode t'.stmt b' → ρ b = ρ b' → b = b') ∧
      (out.2 = .ok () → ∀ t ∈ Verif.Spec.runSet ops, t.s ∈ us) ∧
      ∀ x, g.contains x = true ↔ ∃ t ∈ Verif.Spec.runSet ops, t.s ∈ us ∧ x = (readStmt t.stmt).rename ρ := by
  intro out
  have rep := Graph.rep_run u ops
  have hg : (Graph.run u ops).Reach := ⟨u, ops, rfl⟩
  have hS := safeGraphAt_run u ops hs live
  have hr : resolveKey w listC (py! "rdf:rest") = .ok (some (Heap.rdfNs ++ py! "rest")) := hL.rest
  obtain ⟨text, hser, _⟩ := C118_plain_partial hm u ops hs live ho (w := w) fuel hr
  have hwr := ((writeTurtle_agrees o w fuel (Graph.run u ops) base (some m) namer).1 text).1 hser
  have hsubj : ∀ t ∈ (Graph.run u ops).triples, t.s ∈ (Graph.run u ops).subjects := fun t ht => Idx.mem_keys_of_find ((hg.inv.spo _ _ _ t).2 ⟨ht, rfl, rfl, rfl⟩)
  -- reading a text that is read as some triples
  have hread : ∀ {p : PStr} {n' : Nat} {ts : List Stmt} {us : List Term} {ρ : Nat → Nat}, f.content out.1 = p → parseText nl [] n p = .ok (n', ts.map fun t => (readStmt t).rename ρ) →
      Renames ρ ts n n' → (∀ t, t ∈ ts ↔ t ∈ (Graph.run u ops).triples ∧ t.s ∈ us) → (out.2 = .ok () → ∀ t ∈ Verif.Spec.runSet ops, t.s ∈ us) →
      ∃ (us : List Term) (g : Graph) (n' : Nat) (ρ : Nat → Nat), parse (fun g t => g.add t) nl [] n (Graph.new u') (.str (f.content out.1)) = (g, n', .ok ()) ∧
        (∀ t ∈ Verif.Spec.runSet ops, ∀ t' ∈ Verif.Spec.runSet ops, t.s ∈ us → t'.s ∈ us → ∀ b b', HasBnode t.stmt b → HasBnode t'.stmt b' → ρ b = ρ b' → b = b') ∧
        (out.2 = .ok () → ∀ t ∈ Verif.Spec.runSet ops, t.s ∈ us) ∧
        ∀ x, g.contains x = true ↔ ∃ t ∈ Verif.Spec.runSet ops, t.s ∈ us ∧ x = (readStmt t.stmt).rename ρ := by
    intro p n' ts us ρ hp h1 h2 h3 h4
    refine ⟨us, (Graph.new u').addAll (ts.map fun t => (readStmt t).rename ρ), n', ρ, ?_, ?_, h4, fun x => ?_⟩
    · rw [hp]; simp only [parse, h1]; rfl
    · intro t ht t' ht' hu hu'
      exact h2.inj _ ((h3 _).2 ⟨(rep.mem _).2 ⟨t, ht, rfl⟩, hu⟩) _ ((h3 _).2 ⟨(rep.mem _).2 ⟨t', ht', rfl⟩, hu'⟩)
    · rw [Graph.contains, decide_eq_true_eq, Graph.mem_addAll, List.mem_map]
      constructor
      · rintro (⟨t, ht, rfl⟩ | h)
        · obtain ⟨ht, hu⟩ := (h3 t).1 ht
          obtain ⟨t, ht', rfl⟩ := (rep.mem t).1 ht
          exact ⟨t, ht', hu, rfl⟩
        · simp [Graph.new] at h
      · rintro ⟨t, ht, hu, rfl⟩
        exact .inl ⟨_, (h3 _).2 ⟨(rep.mem _).2 ⟨t, ht, rfl⟩, hu⟩, rfl⟩
  rcases leaves_turtle ho hg hS.nameable hw hc hL hm hsn (fuel := fuel) hf s with ⟨h1, h2⟩ | ⟨p, e, hp, h1, h2⟩
  · right
    obtain ⟨subjects, nm, ss, X, st', k1, k2, k3, k4⟩ := writeTurtle_ok (o := o) (w := w) (fuel := fuel) (g := Graph.run u ops) (base := base) (m := m) (namer := namer) (by rw [hwr])
    obtain ⟨n', ts, us, ρ, r1, r2, r3, r4, r5⟩ := first_is_read (done := ss) (rest := []) hm hS ho hr k1 (by rw [List.append_nil]; exact k2) k3 n
    rw [hs0, List.nil_append, k4] at h1
    refine hread h1 r1 r2 r5 fun _ t ht => ?_
    have hno : ∀ t ∈ (Graph.run u ops).triples, t.p ≠ .named (Heap.rdfNs ++ py! "rest") := fun t ht h => by
      obtain ⟨j, h1, _, h2⟩ := hS.pred t ht
      rw [h] at h1; cases h1; exact h2 rfl
    rw [plainSubjects_all _ fun x _ => isList_false hno hS.inv ho.stmts hr x] at k1
    cases k1
    obtain ⟨nm0, ss0, q1, _, _, q2, _⟩ := sortedNames_at (base := base) hm.toSafeProfile (NInv.empty namer) (ts := (Graph.run u ops).subjects) hS.inv.wspo.1 (fun s hs => by
      obtain ⟨t, ht, rfl⟩ := hS.live s hs
      exact hS.subj t ht)
    rw [q1] at k2
    cases k2
    rw [r3, q2.mem_iff]
    exact hsubj _ ((rep.mem _).2 ⟨t, ht, rfl⟩)
  · have hout : out.2 = .error e := h2
    rw [hs0, List.nil_append] at h1
    have hnone : ∀ {d'}, parseTree p = .ok d' → d' <+: docDecls base m → parseText nl [] n p = .ok (n, []) := by
      intro d' hd' hpre
      have hh : Plainly lark (docToks (docDecls base m)) (header base m) := by
        have := header_frag_at .plainly hm.names hm.baseLegal Plainly.none
        simpa using this
      obtain ⟨k, hk⟩ := parseText_first (header_read hm n) (C96_exact hh) hd' hpre
      simpa using hk
    have hempty := fun h : parseText nl [] n p = .ok (n, []) => hread (us := []) (ts := []) (ρ := id) h1 h ⟨by simp, by simp⟩ (by simp) (by rw [hout]; intro h; cases h)
    rcases hp with (rfl | ⟨m1, m2, e1, rfl⟩) | ⟨subjects, nm, ss, X, k1, k2, rfl, h3⟩
    · exact .inr <| hempty (hnone (d' := []) rfl List.nil_prefix)
    · obtain ⟨e2, e3⟩ := some_header hm.names hm.baseLegal e1
      exact .inr <| hempty (hnone e2 e3)
    · rcases h3 with ⟨a, b, ha, hb, hp⟩ | ⟨done, rest, st', rfl, h3⟩
      · left
        have hp' := header_frag_at .plainly hm.names hm.baseLegal hp
        rw [← List.append_assoc] at hp'
        obtain ⟨e', he'⟩ := torn_rejected ((whole_decls base m).append ha) hb hp'
        refine ⟨⟨e, hout⟩, e', ?_⟩
        rw [h1]
        simp only [parse, parseText, he']
      · right
        obtain ⟨n', ts, us, ρ, r1, r2, r3, r4, r5⟩ := first_is_read hm hS ho hr k1 k2 h3 n
        exact hread h1 r1 r2 r5 (by rw [hout]; intro h; cases h)

end

end Turtle

/-! ### N-Triples -/

/-- `serialize_ntriples` leaves the lines of the first triples: each line is one call of `write`. -/
theorem leaves_ntriples (hf : Atomic f) : ∀ ts : List Stmt, Leaves f (f.ntriples ts) (serializeNTriples ts) (fun p => ∃ k, serializeNTriples (ts.take k) = (p, .ok ()))
  | [] => (Leaves.quiet _).mono fun _ h => h.elim
  | t :: ts => by
    have h := (Leaves.quiet (f := f) (tripleStr t)).andThen fun line _ => (Leaves.put hf line).andThen fun _ _ => leaves_ntriples hf ts
    have e : thenOut (([] : PStr), tripleStr t) (fun line => thenOut (line, .ok ()) fun _ => serializeNTriples ts) = serializeNTriples (t :: ts) := by
      rw [serializeNTriples]
      cases tripleStr t <;> rfl
    rw [e] at h
    refine h.mono fun p hp => ?_
    rcases hp with hp | ⟨line, p1, hl, hp, rfl⟩
    · exact hp.elim
    · rcases hp with rfl | ⟨_, p2, _, ⟨k, hk⟩, rfl⟩
      · exact ⟨0, rfl⟩
      · refine ⟨k + 1, ?_⟩
        have hl : tripleStr t = .ok line := hl
        rw [List.take_succ_cons, serializeNTriples, hl]
        dsimp only
        rw [hk]

/-- **N-Triples** (C170): what is left is always read, and it is exactly the first triples; all of them if the writer did not fail. -/
theorem C170_ntriples (hf : Atomic f) (g : Graph) (ord : List Stmt → List Stmt) (hord : IsOrder ord) (h : ∀ t ∈ g.triples, t.IsRdf ∧ t.Readable) (next : Nat) {s : σ} (hs : f.content s = []) :
    ∃ k g' next' n, parseString Graph.add false next (f.content (f.ntriples (g.iter ord) s).1) Graph.new = (g', next', .ok ()) ∧
      ((f.ntriples (g.iter ord) s).2 = .ok () → (g.iter ord).length ≤ k) ∧
      (∀ t ∈ (g.iter ord).take k, ∀ t' ∈ (g.iter ord).take k, ∀ i j, t.HasBnode i → t'.HasBnode j → n i = n j → i = j) ∧
      ∀ x, x ∈ g'.triples ↔ ∃ t ∈ (g.iter ord).take k, x = t.survive n := by
  have hmem : ∀ k, ∀ t ∈ (g.iter ord).take k, t.IsRdf ∧ t.Readable := fun k t ht => h t ((hord g.triples).mem_iff.1 (List.mem_of_mem_take ht))
  have key : ∀ k p, f.content (f.ntriples (g.iter ord) s).1 = p → serializeNTriples ((g.iter ord).take k) = (p, .ok ()) → ∃ g' next' n,
      parseString Graph.add false next (f.content (f.ntriples (g.iter ord) s).1) Graph.new = (g', next', .ok ()) ∧
      (∀ t ∈ (g.iter ord).take k, ∀ t' ∈ (g.iter ord).take k, ∀ i j, t.HasBnode i → t'.HasBnode j → n i = n j → i = j) ∧
      ∀ x, x ∈ g'.triples ↔ ∃ t ∈ (g.iter ord).take k, x = t.survive n := by
    intro k p hp hk
    obtain ⟨text, g', next', n, h1, h2, h3, _, h5⟩ := lines_read ((g.iter ord).take k) (hmem k) next
    rw [hk] at h1
    cases h1
    exact ⟨g', next', n, by rw [hp]; exact h2, h3, h5⟩
  rcases leaves_ntriples hf (g.iter ord) s with ⟨h1, h2⟩ | ⟨p, e, ⟨k, hk⟩, h1, h2⟩
  · rw [hs, List.nil_append] at h1
    obtain ⟨text, _, _, _, h3, _⟩ := lines_read (g.iter ord) (fun t ht => h t ((hord g.triples).mem_iff.1 ht)) next
    obtain ⟨g', next', n, k1, k2, k3⟩ := key (g.iter ord).length _ h1 (by rw [List.take_length, h3])
    exact ⟨_, g', next', n, k1, fun _ => Nat.le_refl _, k2, k3⟩
  · rw [hs, List.nil_append] at h1
    obtain ⟨g', next', n, k1, k2, k3⟩ := key k p h1 hk
    exact ⟨k, g', next', n, k1, (fun h => by rw [h2] at h; cases h), k2, k3⟩

/-! ### A file that takes so many writes -/

/-- A file that takes so many calls of `write`, and raises in all further ones; in the state is how many have been made. -/
def quota (k : Nat) : File (Nat × PStr) where
  write s t := if s.1 < k then ((s.1 + 1, s.2 ++ t), .ok ()) else (s, .error .plainException)
  content s := s.2

theorem quota_atomic (k : Nat) : Atomic (quota k) := by
  intro s t
  by_cases h : s.1 < k
  · exact .inl (by simp [quota, h])
  · exact .inr (by simp [quota, h])

/-- Non-vacuity for `C170_ntriples`: of two lines one is written. -/
example : (quota 1).ntriples [mkTriple (.named (py! "x:s")) (.named (py! "x:p")) (.lit (py! "1.5") none none), mkTriple (.bnode 3) (.named (py! "x:p")) (.named (py! "x:o"))] (0, []) =
    ((1, py! "<x:s> <x:p> \"1.5\" .\n"), .error .plainException) := by decide

namespace Turtle

/-- Non-vacuity: with six writes a statement is begun and not ended, with seven the first of two subjects is there, with more than are needed nothing fails. -/
example :
    (fileTurtle (quota 6) {} World.new 0 (Graph.run .none exBlank) (some exBase.text) (some defaultPrefixes) (some exNamer) (0, [])).1.2 =
      py! "@base <http://e/a#> .\n@prefix xsd: <http://www.w3.org/2001/XMLSchema#> .\n<#b> <x:p> _:b0 ;\n" ∧
    (fileTurtle (quota 7) {} World.new 0 (Graph.run .none exBlank) (some exBase.text) (some defaultPrefixes) (some exNamer) (0, [])).1.2 =
      py! "@base <http://e/a#> .\n@prefix xsd: <http://www.w3.org/2001/XMLSchema#> .\n<#b> <x:p> _:b0 ;\n     .\n\n" ∧
    (fileTurtle (quota 7) {} World.new 0 (Graph.run .none exBlank) (some exBase.text) (some defaultPrefixes) (some exNamer) (0, [])).2 = .error .plainException ∧
    (fileTurtle (quota 99) {} World.new 0 (Graph.run .none exBlank) (some exBase.text) (some defaultPrefixes) (some exNamer) (0, [])).2 = .ok () := ⟨rfl, rfl, rfl, rfl⟩

theorem exBlank_safe : ∀ t ∈ Verif.Spec.runSet exBlank, SafeTriAt (fun _ => true) defaultPrefixes exBase.text (some exNamer) t := by
  intro t ht
  have : Verif.Spec.runSet exBlank = {⟨.bnode 7, .named (py! "x:p"), .named (py! "http://e/a#b")⟩, ⟨.named (py! "http://e/a#b"), .named (py! "x:p"), .bnode 7⟩,
    ⟨.bnode 7, .named (py! "x:p"), .bnode 3⟩} := by decide
  rw [this] at ht
  simp only [Finset.mem_insert, Finset.mem_singleton] at ht
  have hp : SafeIriAt (fun _ => true) defaultPrefixes exBase.text (py! "x:p") := safe_short_at (by decide) (by unfold LegalIri; decide) (by decide)
    (fun _ => joins_alone exBase_good (alone_x 112 (by decide))) (fun rest e => by
      have := congrArg List.head? e
      rw [exBase_text] at this
      cases this)
  have hb : SafeIriAt (fun _ => true) defaultPrefixes exBase.text (py! "http://e/a#b") := safe_short_at (by decide) (by unfold LegalIri; decide) (by decide)
    (fun h => absurd (by decide) h) (fun rest e => by
      have : rest.length = 1 := by have := congrArg List.length e; rw [exBase_text] at this; simp at this; omega
      intro hi
      have := hi.length_le
      rw [exBase_text] at this
      simp at this
      omega)
  have hn : ∀ k, SafeSubjAt (fun _ => true) defaultPrefixes exBase.text (some exNamer) (.bnode k) := fun k => .inr ⟨⟨k, rfl⟩, _, rfl, exNamer_safe⟩
  rcases ht with rfl | rfl | rfl
  · exact ⟨hn 7, ⟨_, rfl, hp, by decide⟩, .iri hb⟩
  · exact ⟨.inl ⟨_, rfl, hb⟩, ⟨_, rfl, hp, by decide⟩, .bnode rfl exNamer_safe⟩
  · exact ⟨hn 7, ⟨_, rfl, hp, by decide⟩, .bnode rfl exNamer_safe⟩

/-- The hypotheses of `C170_read`, and by it those of `C170_turtle`. -/
example (k : Nat) := C170_read (base := some exBase.text) (namer := some exNamer) exProfile .none exBlank (fun t ht => (exBlank_safe t ht).text) (by decide) Orders.OK.default
  (w := World.new) .new (by decide) listClass_new.names (fun f h => by cases h; exact exNamer_safe) (fuel := 0) (quota_atomic k) (s := (0, [])) rfl 0 .none

end Turtle
end Verif
