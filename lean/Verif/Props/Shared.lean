import Verif.Spec.Shared
import Verif.Props.Dataset
import Mathlib.Algebra.BigOperators.Group.Finset.Defs
/-
C146 and C16: a dataset and the Graph objects put into it.
-/
namespace Verif
open Spec Dataset

/-- One operation, executed by the model. An object that does not exist cannot be used. -/
def Dataset.execS (ord : Nat → List Stmt → List Stmt) (ds : Dataset) : SOp → Dataset
  | .newGraph u => (ds.alloc (Graph.new (match u with | none => .none | some u => .named u))).1
  | .gAdd i t => if i < ds.next then ds.upd i ((ds.heap i).add t.stmt) else ds
  | .gRemove i t => if i < ds.next then ds.upd i ((ds.heap i).remove t.stmt).1 else ds
  | .add q => ds.add q.s q.p q.o q.g
  | .remove q => (ds.remove q.s q.p q.o q.g).1
  | .query g => (ds.match ord .none .none .none g).1
  | .addGraph i named => if i < ds.next then (ds.addGraph i named).1 else ds

/-- The dataset and the objects after a history. -/
def Dataset.runS (ord : Nat → List Stmt → List Stmt) (ops : List SOp) : Dataset :=
  ops.foldl (fun ds op => ds.execS ord op) Dataset.new

/-- The model's state shows what the specification's state says. -/
structure Shows (ds : Dataset) (S : Shared) : Prop where
  wf : ds.names.WF
  lt : ∀ {n i}, S.name n = some i → i < S.next
  name : ∀ n, ds.names.get? n = S.name n
  held : ∀ i, Graph.Rep (ds.heap i) (S.held i)
  uri : ∀ i, (ds.heap i).uri = S.uri i
  next : ds.next = S.next

namespace Shows

theorem start : Shows Dataset.new Shared.start where
  wf := by simp [Dataset.new, Dict.WF, Dict.keys]
  lt := by intro n i h; cases h
  name := fun n => rfl
  held := fun i => by
    have := Graph.rep_run (.none) []
    exact this
  uri := fun i => rfl
  next := rfl

theorem updS {ds S} (h : Shows ds S) (i : Nat) {g : Graph} {ts : Finset Tri} (hg : Graph.Rep g ts) :
    Shows (ds.upd i g) ((S.call i g.uri).hold i ts) where
  wf := h.wf
  lt := fun hn => h.lt hn
  name := h.name
  held := fun j => by
    by_cases e : j = i
    · subst e; rw [upd_heap_same]; simpa [Shared.hold] using hg
    · rw [upd_heap_ne _ _ e]; simpa [Shared.hold, Shared.call, Function.update_of_ne e] using h.held j
  uri := fun j => by
    by_cases e : j = i
    · subst e; rw [upd_heap_same]; simp [Shared.hold, Shared.call]
    · rw [upd_heap_ne _ _ e]; simpa [Shared.hold, Shared.call, Function.update_of_ne e] using h.uri j
  next := h.next

theorem create {ds S} (h : Shows ds S) {g : Graph} (hg : Graph.Rep g ∅) :
    Shows (ds.alloc g).1 (S.create g.uri) where
  wf := h.wf
  lt := fun hn => Nat.lt_succ_of_lt (h.lt hn)
  name := h.name
  held := fun j => by
    show Graph.Rep ((ds.upd ds.next g).heap j) _
    rw [h.next]
    by_cases e : j = S.next
    · subst e; rw [upd_heap_same]; simpa [Shared.create] using hg
    · rw [upd_heap_ne _ _ e]; simpa [Shared.create, Function.update_of_ne e] using h.held j
  uri := fun j => by
    show ((ds.upd ds.next g).heap j).uri = _
    rw [h.next]
    by_cases e : j = S.next
    · subst e; rw [upd_heap_same]; simp [Shared.create]
    · rw [upd_heap_ne _ _ e]; simpa [Shared.create, Function.update_of_ne e] using h.uri j
  next := by show ds.next + 1 = _; rw [h.next]; rfl

theorem put {ds S} (h : Shows ds S) (n : Term) {i : Nat} (hi : i < S.next) :
    Shows { ds with names := ds.names.set n i } (S.put n i) where
  wf := h.wf.set n i
  lt := fun {m j} hn => by
    by_cases e : m = n
    · subst e; simp [Shared.put] at hn; subst hn; exact hi
    · simp [Shared.put, Function.update_of_ne e] at hn; exact h.lt hn
  name := fun m => by
    show (ds.names.set n i).get? m = _
    rw [Dict.get?_set]
    by_cases e : n = m
    · subst e; simp [Shared.put]
    · rw [if_neg e, h.name]; simp [Shared.put, Function.update_of_ne (Ne.symm e)]
  held := h.held
  uri := h.uri
  next := h.next

theorem rep_new (u : Term) : Graph.Rep (Graph.new u) ∅ := by
  have := Graph.rep_run u []
  exact this

/-- Looking up a name. -/
theorem touch {ds S} (h : Shows ds S) (n : Term) :
    Shows (ds.touch n).1 (S.ask n) ∧ (S.ask n).name n = some (ds.touch n).2 := by
  unfold Shared.ask
  cases hn : S.name n with
  | some i =>
    have e : ds.names.get? n = some i := (h.name n).trans hn
    rw [touch_of_some e]
    rw [if_neg (by simp)]
    exact ⟨h, hn⟩
  | none =>
    have e : ds.names.get? n = none := (h.name n).trans hn
    rw [if_pos rfl]
    unfold Dataset.touch
    rw [e]
    have h1 := (h.create (rep_new .none)).put n (i := S.next) (Nat.lt_succ_self _)
    constructor
    · have : (ds.alloc (Graph.new .none)).2 = S.next := h.next
      show Shows { (ds.alloc (Graph.new .none)).1 with names := ds.names.set n (ds.alloc (Graph.new .none)).2 } _
      rw [this]; exact h1
    · show (Function.update S.name n (some S.next)) n = some ds.next
      rw [Function.update_self, h.next]

theorem at! {ds S} (h : Shows ds S) (n : Term) : (S.ask n).at! n = (ds.touch n).2 := by
  unfold Shared.at!; rw [(h.touch n).2]; rfl

theorem remove_uri (g : Graph) (t : Stmt) : (g.remove t).1.uri = g.uri := by
  unfold Graph.remove
  dsimp only
  split
  · split
    · rfl
    · split
      · rfl
      · split <;> rfl
  · rfl

theorem falsy_iff (t : Term) : t.truthy = false ↔ t = .none ∨ t = .named [] := by
  cases t with
  | named i => cases i <;> simp [Term.truthy]
  | _ => simp [Term.truthy]

theorem hold_call {S : Shared} {i : Nat} {u : Term} {ts} (e : S.uri i = u) : (S.call i u).hold i ts = S.hold i ts := by
  subst e; unfold Shared.call Shared.hold; simp

theorem call_hold {S : Shared} {i : Nat} {u : Term} {ts} (e : S.held i = ts) : (S.call i u).hold i ts = S.call i u := by
  subst e; unfold Shared.call Shared.hold; simp

/-- Every operation has the effect that the specification gives it. -/
theorem exec {ds S} (h : Shows ds S) (ord) (op : SOp) : Shows (ds.execS ord op) (S.step op) := by
  cases op with
  | newGraph u =>
    cases u with
    | none => exact h.create (rep_new .none)
    | some u => exact h.create (rep_new (.named u))
  | gAdd i t =>
    simp only [Dataset.execS, Shared.step, h.next]
    split
    · have := h.updS i ((h.held i).exec (.add t))
      rw [hold_call] at this
      · exact this
      · exact (h.uri i).symm
    · exact h
  | gRemove i t =>
    simp only [Dataset.execS, Shared.step, h.next]
    split
    · have := h.updS i ((h.held i).exec (.remove t))
      rw [hold_call] at this
      · exact this
      · rw [← h.uri i]; exact (remove_uri _ _).symm
    · exact h
  | add q =>
    have h1 := (h.touch q.g).1
    have e := h.at! q.g
    have := h1.updS (ds.touch q.g).2 (g := { (ds.touch q.g).1.heap (ds.touch q.g).2 with uri := q.g }.add (mkTriple q.s q.p q.o))
      (ts := insert ⟨q.s, q.p, q.o⟩ ((S.ask q.g).held (ds.touch q.g).2))
      (Graph.Rep.exec (g := { (ds.touch q.g).1.heap (ds.touch q.g).2 with uri := q.g })
        ⟨inv_setUri (h1.held _).inv _, (h1.held _).mem⟩ (.add ⟨q.s, q.p, q.o⟩))
    show Shows (((ds.touch q.g).1.upd _ _).upd _ _) _
    rw [upd_heap_same, upd_upd]
    simp only [Shared.step, e]
    exact this
  | remove q =>
    have h1 := (h.touch q.g).1
    have e := h.at! q.g
    have := h1.updS (ds.touch q.g).2 ((h1.held (ds.touch q.g).2).exec (.remove ⟨q.s, q.p, q.o⟩))
    simp only [Shared.step, e]
    rw [hold_call] at this
    · exact this
    · rw [← h1.uri]; exact (remove_uri _ _).symm
  | query g =>
    simp only [Dataset.execS, Shared.step, Dataset.match]
    by_cases hg : g.truthy = true
    · rw [if_pos hg, if_neg (by rw [← falsy_iff]; simp [hg])]
      exact (h.touch g).1
    · rw [if_neg hg, if_pos ((falsy_iff g).1 (by simpa using hg))]
      exact h
  | addGraph i named =>
    simp only [Dataset.execS, Shared.step, h.next]
    split
    · next hi =>
      have en : (if named.truthy then named else (ds.heap i).uri) = S.nameFor i named := by
        unfold Shared.nameFor
        rw [h.uri]
        by_cases hb : named.truthy = true
        · rw [if_pos hb, if_neg (by rw [← falsy_iff]; simp [hb])]
        · rw [if_neg hb, if_pos ((falsy_iff _).1 (by simpa using hb))]
      simp only [Dataset.addGraph, en]
      by_cases hn : (S.nameFor i named).truthy = true
      · rw [if_pos hn, if_neg (by rw [← falsy_iff]; simp [hn])]
        have := h.updS i (g := { ds.heap i with uri := S.nameFor i named }) (ts := S.held i)
          ⟨inv_setUri (h.held i).inv _, (h.held i).mem⟩
        rw [call_hold rfl] at this
        exact this.put (S.nameFor i named) (i := i) hi
      · rw [if_neg hn, if_pos ((falsy_iff _).1 (by simpa using hn))]
        exact h
    · exact h

theorem run (ord) (ops : List SOp) : Shows (Dataset.runS ord ops) (Shared.after ops) := by
  unfold Dataset.runS Shared.after
  have : ∀ (ops : List SOp) ds S, Shows ds S →
      Shows (ops.foldl (fun ds op => ds.execS ord op) ds) (ops.foldl Shared.step S) := by
    intro ops
    induction ops with
    | nil => intro ds S h; exact h
    | cons op ops ih => intro ds S h; exact ih _ _ (h.exec ord op)
  exact this ops _ _ start

theorem mem_names {ds S} (h : Shows ds S) (n : Term) (i : Nat) : (n, i) ∈ ds.names ↔ S.name n = some i := by
  rw [← h.name, Dict.mem_iff_get? h.wf]

theorem mem_iter {ds S} (h : Shows ds S) {ord} (hord : IsOrders ord) (x : Stmt) :
    x ∈ ds.iter ord ↔ ∃ n i t, S.name n = some i ∧ t ∈ S.held i ∧ x = mkQuad t.s t.p t.o (S.uri i) := by
  unfold Dataset.iter Dataset.graphs Dict.values
  simp only [List.mem_flatMap, List.mem_map, Graph.iter]
  constructor
  · rintro ⟨i, ⟨⟨n, i'⟩, hn, rfl⟩, t, ht, rfl⟩
    rw [(hord _ _).mem_iff, (h.held _).mem] at ht
    obtain ⟨t, ht, rfl⟩ := ht
    exact ⟨n, i', t, (h.mem_names n i').1 hn, ht, by rw [h.uri]; rfl⟩
  · rintro ⟨n, i, t, hn, ht, rfl⟩
    refine ⟨i, ⟨(n, i), (h.mem_names n i).2 hn, rfl⟩, t.stmt, ?_, by rw [h.uri]; rfl⟩
    rw [(hord _ _).mem_iff, (h.held _).mem]
    exact ⟨t, ht, rfl⟩

theorem mem_all {ds S} (h : Shows ds S) {ord} (hord : IsOrders ord) (s p o : Option Term) (hs : NonEmpty s) (hp : NonEmpty p)
    (ho : NonEmpty o) (x : Stmt) :
    x ∈ (ds.match ord (arg s) (arg p) (arg o) .none).2 ↔
      ∃ n i t, S.name n = some i ∧ t ∈ S.held i ∧ (agrees s t.s ∧ agrees p t.p ∧ agrees o t.o) ∧ x = mkQuad t.s t.p t.o n := by
  have e : (ds.match ord (arg s) (arg p) (arg o) .none).2 =
    ds.names.flatMap fun ni => ((ds.heap ni.2).match (ord ni.2) (arg s) (arg p) (arg o)).map (tAsQ ni.1) := by
    unfold Dataset.match; rw [if_neg (by simp [Term.truthy])]
  rw [e]
  simp only [List.mem_flatMap, List.mem_map]
  constructor
  · rintro ⟨⟨n, i⟩, hn, t, ht, rfl⟩
    rw [Graph.mem_match (h.held i).inv (hord i), ← Graph.agrees_iff hs, ← Graph.agrees_iff hp, ← Graph.agrees_iff ho, (h.held i).mem] at ht
    obtain ⟨⟨t, ht, rfl⟩, ha⟩ := ht
    exact ⟨n, i, t, (h.mem_names n i).1 hn, ht, ha, rfl⟩
  · rintro ⟨n, i, t, hn, ht, ha, rfl⟩
    refine ⟨(n, i), (h.mem_names n i).2 hn, t.stmt, ?_, rfl⟩
    rw [Graph.mem_match (h.held i).inv (hord i), ← Graph.agrees_iff hs, ← Graph.agrees_iff hp, ← Graph.agrees_iff ho, (h.held i).mem]
    exact ⟨⟨t, ht, rfl⟩, ha⟩

end Shows

/-! ### C146 -/

theorem rep_len {g : Graph} {ts : Finset Tri} (h : Graph.Rep g ts) : g.len = ts.card := by
  unfold Graph.len
  rw [h.triples_perm.length_eq, List.length_map, Finset.length_toList]

/-- Every Graph object holds exactly the triples that were added to it, directly or through any of its names in the dataset, and not
    removed since; and it calls itself by the name it was last given. -/
theorem C146_objects (ord) (ops : List SOp) (i : Nat) (t : Tri) :
    (((Dataset.runS ord ops).heap i).contains t.stmt = true ↔ t ∈ (Shared.after ops).held i) ∧
    ((Dataset.runS ord ops).heap i).len = ((Shared.after ops).held i).card ∧
    ((Dataset.runS ord ops).heap i).uri = (Shared.after ops).uri i := by
  have h := Shows.run ord ops
  refine ⟨?_, rep_len (h.held i), h.uri i⟩
  unfold Graph.contains
  rw [decide_eq_true_iff]
  exact (h.held i).mem_stmt t

/-- `quad in dataset`: the object under the quad's graph name holds the triple. -/
theorem C146_contains (ord) (ops : List SOp) (q : Qd) :
    (Dataset.runS ord ops).containsQuad q.s q.p q.o q.g = true ↔
      ∃ i, (Shared.after ops).name q.g = some i ∧ (⟨q.s, q.p, q.o⟩ : Tri) ∈ (Shared.after ops).held i := by
  have h := Shows.run ord ops
  unfold Dataset.containsQuad
  rw [h.name]
  cases (Shared.after ops).name q.g with
  | none => simp
  | some i =>
    have := (C146_objects ord ops i ⟨q.s, q.p, q.o⟩).1
    simp only [Option.some.injEq, exists_eq_left']
    exact this

/-- `match` without a graph name: the triples of the objects, each under the name it stands under in the dataset. -/
theorem C146_match (ord) (hord : IsOrders ord) (ops : List SOp) (s p o : Option Term) (hs : NonEmpty s) (hp : NonEmpty p)
    (ho : NonEmpty o) (x : Stmt) :
    x ∈ ((Dataset.runS ord ops).match ord (arg s) (arg p) (arg o) .none).2 ↔
      ∃ n i t, (Shared.after ops).name n = some i ∧ t ∈ (Shared.after ops).held i ∧
        (agrees s t.s ∧ agrees p t.p ∧ agrees o t.o) ∧ x = mkQuad t.s t.p t.o n :=
  (Shows.run ord ops).mem_all hord s p o hs hp ho x

/-- `match` with a graph name. -/
theorem C146_match_named (ord) (hord : IsOrders ord) (ops : List SOp) (s p o : Option Term) (hs : NonEmpty s) (hp : NonEmpty p)
    (ho : NonEmpty o) (n : Term) (hn : n ≠ .none ∧ n ≠ .named []) (x : Stmt) :
    x ∈ ((Dataset.runS ord ops).match ord (arg s) (arg p) (arg o) n).2 ↔
      ∃ i t, (Shared.after ops).name n = some i ∧ t ∈ (Shared.after ops).held i ∧
        (agrees s t.s ∧ agrees p t.p ∧ agrees o t.o) ∧ x = mkQuad t.s t.p t.o n := by
  have h := Shows.run ord ops
  obtain ⟨h1, h2⟩ := h.touch n
  unfold Dataset.match
  rw [if_pos ((Graph.truthy_iff n).2 hn)]
  dsimp only
  rw [List.mem_map]
  have key : ∀ t, t ∈ Graph.match (ord ((Dataset.runS ord ops).touch n).2)
      (((Dataset.runS ord ops).touch n).1.heap ((Dataset.runS ord ops).touch n).2) (arg s) (arg p) (arg o) ↔
      ∃ t' ∈ ((Shared.after ops).ask n).held ((Dataset.runS ord ops).touch n).2, t = t'.stmt ∧
        (agrees s t'.s ∧ agrees p t'.p ∧ agrees o t'.o) := by
    intro t
    rw [Graph.mem_match (h1.held _).inv (hord _), ← Graph.agrees_iff hs, ← Graph.agrees_iff hp, ← Graph.agrees_iff ho, (h1.held _).mem]
    constructor
    · rintro ⟨⟨t', ht, rfl⟩, ha⟩; exact ⟨t', ht, rfl, ha⟩
    · rintro ⟨t', ht, rfl, ha⟩; exact ⟨⟨t', ht, rfl⟩, ha⟩
  simp only [key]
  unfold Shared.ask at h2 ⊢
  by_cases hnone : (Shared.after ops).name n = none
  · rw [if_pos hnone] at h2 ⊢
    have e : (Shared.after ops).next = ((Dataset.runS ord ops).touch n).2 := by
      simpa [Shared.put] using h2
    rw [← e]
    simp [Shared.put, Shared.create, hnone]
  · rw [if_neg hnone] at h2 ⊢
    constructor
    · rintro ⟨_, ⟨t, ht, rfl, ha⟩, rfl⟩; exact ⟨_, t, h2, ht, ha, rfl⟩
    · rintro ⟨i, t, hi, ht, ha, rfl⟩
      rw [h2] at hi; cases hi
      exact ⟨t.stmt, ⟨t, ht, rfl, ha⟩, rfl⟩

/-- Iteration: the triples of the objects, each under the name the object calls itself by. -/
theorem C146_iter (ord) (hord : IsOrders ord) (ops : List SOp) (x : Stmt) :
    x ∈ (Dataset.runS ord ops).iter ord ↔
      ∃ n i t, (Shared.after ops).name n = some i ∧ t ∈ (Shared.after ops).held i ∧
        x = mkQuad t.s t.p t.o ((Shared.after ops).uri i) :=
  (Shows.run ord ops).mem_iter hord x

/-- `len(dataset)`: every name counts, also when two names share an object. -/
theorem C146_len (ord) (ops : List SOp) :
    ∃ N : Finset Term, (∀ n, n ∈ N ↔ (Shared.after ops).name n ≠ none) ∧
      (Dataset.runS ord ops).len = N.sum fun n => ((Shared.after ops).held ((Shared.after ops).at! n)).card := by
  have h := Shows.run ord ops
  refine ⟨⟨(Dataset.runS ord ops).names.keys, h.wf⟩, fun n => ?_, ?_⟩
  · show n ∈ (Dataset.runS ord ops).names.keys ↔ _
    rw [← h.name]
    unfold Dict.keys
    rw [List.mem_map]
    constructor
    · rintro ⟨⟨m, i⟩, hm, rfl⟩
      rw [(Dict.mem_iff_get? h.wf).1 hm]; simp
    · intro hn
      cases hg : (Dataset.runS ord ops).names.get? n with
      | none => exact absurd hg hn
      | some i => exact ⟨(n, i), (Dict.mem_iff_get? h.wf).2 hg, rfl⟩
  · unfold Dataset.len Dataset.graphs Dict.values
    rw [List.map_map]
    show _ = (Multiset.map _ (↑((Dataset.runS ord ops).names.keys) : Multiset Term)).sum
    rw [Multiset.map_coe, Multiset.sum_coe]
    unfold Dict.keys
    rw [List.map_map]
    congr 1
    apply List.map_congr_left
    rintro ⟨n, i⟩ hn
    have e := (h.mem_names n i).1 hn
    show ((Dataset.runS ord ops).heap i).len = _
    simp only [Function.comp, Shared.at!, e, Option.getD_some]
    exact rep_len (h.held i)

/-- A later operation does not put another object under the name. -/
def KeepsName (S : Shared) (n : Term) : SOp → Prop
  | .addGraph i named => S.nameFor i named ≠ n
  | _ => True

/-- The live view: once a graph has been put under a name, whatever is done afterwards -- to the graph itself, to the dataset under
    this name or under others -- the dataset shows under the name exactly what the graph holds, until another graph is put there. -/
theorem C146_live (ord) (ops later : List SOp) (n : Term) (i : Nat) (hput : (Shared.after ops).name n = some i)
    (hkeep : ∀ pre op post, later = pre ++ op :: post → KeepsName (Shared.after (ops ++ pre)) n op) (t : Tri) :
    (Dataset.runS ord (ops ++ later)).containsQuad t.s t.p t.o n =
      ((Dataset.runS ord (ops ++ later)).heap i).contains t.stmt := by
  have key : ∀ (later : List SOp), (∀ pre op post, later = pre ++ op :: post → KeepsName (Shared.after (ops ++ pre)) n op) →
      (Shared.after (ops ++ later)).name n = some i := by
    intro later
    induction later using List.reverseRecOn with
    | nil => intro _; simpa using hput
    | append_singleton l op ih =>
      intro hk
      have h1 := ih (fun pre op' post e => hk pre op' (post ++ [op]) (by rw [e]; simp))
      have h2 := hk l op [] rfl
      rw [← List.append_assoc]
      unfold Shared.after
      rw [List.foldl_append]
      show (Shared.step (Shared.after (ops ++ l)) op).name n = some i
      have hask : ∀ (S : Shared) m, S.name n = some i → (S.ask m).name n = some i := by
        intro S m hS
        unfold Shared.ask
        split
        · next hm =>
          have : n ≠ m := by rintro rfl; rw [hS] at hm; cases hm
          simp only [Shared.put, Function.update_of_ne this]
          exact hS
        · exact hS
      cases op with
      | newGraph u => cases u <;> exact h1
      | gAdd j t => simp only [Shared.step]; split <;> exact h1
      | gRemove j t => simp only [Shared.step]; split <;> exact h1
      | add q => exact hask _ _ h1
      | remove q => exact hask _ _ h1
      | query g =>
        simp only [Shared.step]
        split
        · exact h1
        · exact hask _ _ h1
      | addGraph j named =>
        simp only [Shared.step]
        split
        · split
          · exact h1
          · simp only [Shared.put, Shared.call, Function.update_of_ne (Ne.symm (show Shared.nameFor _ j named ≠ n from h2))]
            exact h1
        · exact h1
  have h := Shows.run ord (ops ++ later)
  have e : (Dataset.runS ord (ops ++ later)).names.get? n = some i := (h.name n).trans (key later hkeep)
  unfold Dataset.containsQuad
  rw [e]
  rfl

/-- Two objects, the first under two names. -/
def exS : List SOp := [.newGraph none, .newGraph (some (py! "http://g")), .addGraph 0 exN1, .gAdd 0 exT1, .addGraph 0 exN2, .addGraph 1 .none,
  .add exD1]

/- The hypotheses of the live view are met: the first object stands under both names, and what is added under the second name is seen
   under the first. -/
example : (Shared.after exS).name exN1 = some 0 ∧ (Shared.after exS).name exN2 = some 0 ∧
    (Dataset.runS ord0 (exS ++ [.add ⟨exB, exB, exC, exN2⟩])).containsQuad exB exB exC exN1 = true ∧
    (Dataset.runS ord0 exS).len = 2 := by
  refine ⟨rfl, rfl, rfl, ?_⟩
  decide

/-! ### C16 -/

/-- When each object was last given a name (0: never), in some counting of time. -/
structure Times (S : Shared) (time : Nat → Nat) (clock : Nat) : Prop where
  lt : ∀ {n i}, S.name n = some i → i < S.next
  bound : ∀ i, time i ≤ clock
  never : ∀ {n i}, S.name n = some i → time i = 0 → S.uri i = .named (py! "None")
  up : ∀ {n i}, S.name n = some i → 0 < time i → ∃ j, S.name (S.uri i) = some j ∧ (j = i ∨ time i < time j)

namespace Times

theorem create {S time clock} (h : Times S time clock) (u : Term) : Times (S.create u) (Function.update time S.next 0) clock := by
  have hne : ∀ {n i}, S.name n = some i → i ≠ S.next := fun hn => Nat.ne_of_lt (h.lt hn)
  refine ⟨fun hn => Nat.lt_succ_of_lt (h.lt hn), fun i => ?_, fun {n i} hn h0 => ?_, fun {n i} hn h0 => ?_⟩
  · by_cases e : i = S.next
    · subst e; simp
    · rw [Function.update_of_ne e]; exact h.bound i
  · have e := hne hn
    rw [Function.update_of_ne e] at h0
    simp only [Shared.create, Function.update_of_ne e]
    exact h.never hn h0
  · have e := hne hn
    rw [Function.update_of_ne e] at h0 ⊢
    simp only [Shared.create, Function.update_of_ne e]
    obtain ⟨j, hj, hj'⟩ := h.up hn h0
    exact ⟨j, hj, by rw [Function.update_of_ne (hne hj)]; exact hj'⟩

theorem ask {S time clock} (h : Times S time clock) (n : Term) : ∃ time', Times (S.ask n) time' clock := by
  unfold Shared.ask
  split
  · next hn =>
    have h1 := h.create (.named (py! "None"))
    refine ⟨_, ⟨fun {m i} hm => ?_, h1.bound, fun {m i} hm h0 => ?_, fun {m i} hm h0 => ?_⟩⟩
    · by_cases e : m = n
      · subst e; simp [Shared.put] at hm; subst hm; exact Nat.lt_succ_self _
      · simp only [Shared.put, Function.update_of_ne e] at hm; exact h1.lt hm
    · by_cases e : m = n
      · subst e; simp [Shared.put] at hm; subst hm; simp [Shared.put, Shared.create]
      · simp only [Shared.put, Function.update_of_ne e] at hm; exact h1.never hm h0
    · by_cases e : m = n
      · subst e; simp [Shared.put] at hm; subst hm; simp at h0
      · simp only [Shared.put, Function.update_of_ne e] at hm
        obtain ⟨j, hj, hj'⟩ := h1.up hm h0
        refine ⟨j, ?_, hj'⟩
        have : (S.create (.named (py! "None"))).uri i ≠ n := by
          intro e'; rw [e'] at hj; rw [show (S.create (.named (py! "None"))).name n = S.name n from rfl, hn] at hj; cases hj
        simp only [Shared.put]
        rw [Function.update_of_ne this]; exact hj
  · exact ⟨time, h⟩

theorem hold {S time clock} (h : Times S time clock) (i : Nat) (ts) : Times (S.hold i ts) time clock := ⟨h.lt, h.bound, h.never, h.up⟩

/-- An object that stands under the name, or is put there, is given the name. -/
theorem callPut {S time clock} (h : Times S time clock) {n : Term} {i : Nat} (hi : i < S.next) :
    Times ((S.call i n).put n i) (Function.update time i (clock + 1)) (clock + 1) := by
  have hlt : ∀ {m j}, ((S.call i n).put n i).name m = some j → j < S.next := by
    intro m j hm
    by_cases e : m = n
    · subst e; simp [Shared.put] at hm; subst hm; exact hi
    · simp only [Shared.put, Shared.call, Function.update_of_ne e] at hm; exact h.lt hm
  have hname : ∀ {m j}, ((S.call i n).put n i).name m = some j → j ≠ i → S.name m = some j := by
    intro m j hm hji
    by_cases e : m = n
    · subst e; simp [Shared.put] at hm; exact absurd hm.symm hji
    · simpa only [Shared.put, Shared.call, Function.update_of_ne e] using hm
  have hself : ((S.call i n).put n i).name n = some i := by simp [Shared.put]
  refine ⟨hlt, fun j => ?_, fun {m j} hm h0 => ?_, fun {m j} hm h0 => ?_⟩
  · by_cases e : j = i
    · subst e; simp
    · rw [Function.update_of_ne e]; exact Nat.le_succ_of_le (h.bound j)
  · have e : j ≠ i := by rintro rfl; simp at h0
    rw [Function.update_of_ne e] at h0
    simp only [Shared.put, Shared.call, Function.update_of_ne e]
    exact h.never (hname hm e) h0
  · by_cases e : j = i
    · subst e
      refine ⟨j, ?_, Or.inl rfl⟩
      have : ((S.call j n).put n j).uri j = n := by simp [Shared.put, Shared.call]
      rw [this]; exact hself
    · rw [Function.update_of_ne e] at h0 ⊢
      have eu : ((S.call i n).put n i).uri j = S.uri j := by simp only [Shared.put, Shared.call, Function.update_of_ne e]
      rw [eu]
      by_cases en : S.uri j = n
      · rw [en]
        exact ⟨i, hself, Or.inr (by rw [Function.update_self]; exact Nat.lt_succ_of_le (h.bound j))⟩
      · obtain ⟨k, hk, hk'⟩ := h.up (hname hm e) h0
        refine ⟨k, by simp only [Shared.put, Shared.call, Function.update_of_ne en]; exact hk, ?_⟩
        rcases hk' with rfl | hk'
        · exact Or.inl rfl
        · right
          by_cases e' : k = i
          · subst e'; rw [Function.update_self]; exact Nat.lt_succ_of_le (h.bound j)
          · rw [Function.update_of_ne e']; exact hk'

theorem ask_name (S : Shared) (n : Term) : (S.ask n).name n = some ((S.ask n).at! n) := by
  unfold Shared.at! Shared.ask
  split
  · simp [Shared.put]
  · next h =>
    cases hn : S.name n with
    | none => exact absurd hn h
    | some i => rfl

theorem put_same {S : Shared} {n : Term} {i : Nat} (h : S.name n = some i) (u : Term) : (S.call i u).put n i = S.call i u := by
  unfold Shared.put Shared.call
  simp only [← h, Function.update_eq_self]

theorem step {S time clock} (h : Times S time clock) (op : SOp) : ∃ time' clock', Times (S.step op) time' clock' := by
  cases op with
  | newGraph u => cases u <;> exact ⟨_, _, h.create _⟩
  | gAdd i t =>
    simp only [Shared.step]; split
    · exact ⟨_, _, h.hold _ _⟩
    · exact ⟨_, _, h⟩
  | gRemove i t =>
    simp only [Shared.step]; split
    · exact ⟨_, _, h.hold _ _⟩
    · exact ⟨_, _, h⟩
  | add q =>
    obtain ⟨time', h1⟩ := h.ask q.g
    have hn := ask_name S q.g
    have h2 := h1.callPut (n := q.g) (h1.lt hn)
    rw [put_same hn] at h2
    exact ⟨_, _, h2.hold _ _⟩
  | remove q =>
    obtain ⟨time', h1⟩ := h.ask q.g
    exact ⟨_, _, h1.hold _ _⟩
  | query g =>
    simp only [Shared.step]; split
    · exact ⟨_, _, h⟩
    · obtain ⟨time', h1⟩ := h.ask g; exact ⟨_, _, h1⟩
  | addGraph i named =>
    simp only [Shared.step]; split
    · next hi =>
      split
      · exact ⟨_, _, h⟩
      · exact ⟨_, _, h.callPut hi⟩
    · exact ⟨_, _, h⟩

theorem after (ops : List SOp) : ∃ time clock, Times (Shared.after ops) time clock := by
  have : ∀ (ops : List SOp) S, (∃ time clock, Times S time clock) → ∃ time clock, Times (ops.foldl Shared.step S) time clock := by
    intro ops
    induction ops with
    | nil => intro S h; exact h
    | cons op ops ih => rintro S ⟨time, clock, h⟩; exact ih _ (h.step op)
  refine this ops _ ⟨fun _ => 0, 0, ⟨?_, fun _ => Nat.le_refl 0, ?_, ?_⟩⟩
  · intro n i h; cases h
  · intro n i h; cases h
  · intro n i h; cases h

end Times

/-- If the dataset's iteration lists no quad twice, two names do not give the same quad. -/
theorem iter_twice {ds S} (h : Shows ds S) {ord} (hord : IsOrders ord) (hnd : (ds.iter ord).Nodup) {n n' i i' t}
    (hn : S.name n = some i) (hn' : S.name n' = some i') (ht : t ∈ S.held i) (ht' : t ∈ S.held i') (hu : S.uri i = S.uri i') :
    n = n' := by
  have e : ds.iter ord = ds.names.flatMap fun ni => ((ds.heap ni.2).iter (ord ni.2)).map (tAsQ (ds.heap ni.2).uri) := by
    unfold Dataset.iter Dataset.graphs Dict.values
    rw [List.flatMap_map]
  rw [e, List.nodup_flatMap] at hnd
  by_contra hne
  haveI : Std.Symm (Function.onFun List.Disjoint
      fun ni : Term × Nat => ((ds.heap ni.2).iter (ord ni.2)).map (tAsQ (ds.heap ni.2).uri)) :=
    ⟨fun a b hab => List.Disjoint.symm hab⟩
  have hd := hnd.2.forall ((h.mem_names n i).2 hn) ((h.mem_names n' i').2 hn') (fun e => hne (congrArg Prod.fst e))
  have hx : ∀ {n i}, S.name n = some i → t ∈ S.held i →
      tAsQ (S.uri i) t.stmt ∈ ((ds.heap i).iter (ord i)).map (tAsQ (ds.heap i).uri) := by
    intro n i hn ht
    rw [h.uri]
    refine List.mem_map_of_mem ?_
    unfold Graph.iter
    rw [(hord _ _).mem_iff, (h.held _).mem]
    exact ⟨t, ht, rfl⟩
  exact hd (hx hn ht) (hu ▸ hx hn' ht')

theorem match_nodup_shared {ds S} (h : Shows ds S) {ord} (hord : IsOrders ord) :
    (ds.match ord .none .none .none .none).2.Nodup := by
  show (ds.names.flatMap fun ni => ((ds.heap ni.2).match (ord ni.2) .none .none .none).map (tAsQ ni.1)).Nodup
  rw [List.nodup_flatMap]
  constructor
  · rintro ⟨n, i⟩ hm
    refine List.Nodup.map_on ?_ (Graph.nodup_match (h.held i).inv.toIxInv (hord i) _ _ _)
    intro x hx y hy e
    have hx := (h.held i).inv.isTri x ((Graph.mem_match (h.held i).inv (hord i) _ _ _ x).1 hx).1
    have hy := (h.held i).inv.isTri y ((Graph.mem_match (h.held i).inv (hord i) _ _ _ y).1 hy).1
    rw [Graph.eq_mkTriple hx, Graph.eq_mkTriple hy]
    simp only [tAsQ, mkQuad, Stmt.mk.injEq] at e
    rw [e.1, e.2.1, e.2.2.1]
  · have hk : ds.names.Pairwise (fun a b => a.1 ≠ b.1) := by
      have := h.wf
      unfold Dict.WF Dict.keys List.Nodup at this
      rwa [List.pairwise_map] at this
    refine hk.imp ?_
    rintro ⟨n, i⟩ ⟨n', i'⟩ hne x hx hx'
    simp only [List.mem_map] at hx hx'
    obtain ⟨t, _, rfl⟩ := hx
    obtain ⟨t', _, e⟩ := hx'
    simp only [tAsQ, mkQuad, Stmt.mk.injEq, Option.some.injEq] at e
    exact hne e.2.2.2.symm

/-- Exactly: after any history, also one in which a graph stands under several names, iterating over the dataset yields the same quads
    as `match()` if and only if every graph that is not empty calls itself by the name it stands under. -/
theorem C16_iff (ord) (hord : IsOrders ord) (ops : List SOp) :
    ((Dataset.runS ord ops).iter ord).Perm ((Dataset.runS ord ops).match ord .none .none .none .none).2 ↔
      ∀ n i t, (Shared.after ops).name n = some i → t ∈ (Shared.after ops).held i → (Shared.after ops).uri i = n := by
  have h := Shows.run ord ops
  have hall : ((Dataset.runS ord ops).match ord .none .none .none .none).2 =
      (Dataset.runS ord ops).names.flatMap fun ni =>
        (((Dataset.runS ord ops).heap ni.2).match (ord ni.2) .none .none .none).map (tAsQ ni.1) := rfl
  constructor
  · intro hp
    obtain ⟨time, clock, ht⟩ := Times.after ops
    have hnd : ((Dataset.runS ord ops).iter ord).Nodup := hp.nodup_iff.2 (match_nodup_shared h hord)
    -- a quad that iteration yields is yielded by match, so some object with the triple stands under its name
    have hB : ∀ {n i t}, (Shared.after ops).name n = some i → t ∈ (Shared.after ops).held i →
        ∃ j, (Shared.after ops).name ((Shared.after ops).uri i) = some j ∧ t ∈ (Shared.after ops).held j := by
      intro n i t hn hti
      have h1 := hp.mem_iff.1 ((h.mem_iter hord _).2 ⟨n, i, t, hn, hti, rfl⟩)
      obtain ⟨m, j, t', hm, ht', -, e⟩ := (h.mem_all hord none none none nonEmpty_none nonEmpty_none nonEmpty_none _).1 h1
      simp only [mkQuad, Stmt.mk.injEq, Option.some.injEq] at e
      obtain ⟨e1, e2, e3, e4⟩ := e
      have : t = t' := by cases t; cases t'; simp_all
      exact ⟨j, e4 ▸ hm, this ▸ ht'⟩
    have hA : ∀ {n i t}, (Shared.after ops).name n = some i → t ∈ (Shared.after ops).held i → (Shared.after ops).uri i ≠ n →
        ∃ j, (Shared.after ops).name ((Shared.after ops).uri i) = some j ∧ t ∈ (Shared.after ops).held j ∧
          (Shared.after ops).uri j ≠ (Shared.after ops).uri i := by
      intro n i t hn hti hbad
      obtain ⟨j, hj, htj⟩ := hB hn hti
      refine ⟨j, hj, htj, fun e => hbad ?_⟩
      exact (iter_twice h hord hnd hn hj hti htj e.symm).symm
    have key : ∀ k n i t, (Shared.after ops).name n = some i → t ∈ (Shared.after ops).held i → (Shared.after ops).uri i ≠ n →
        0 < time i → clock - time i ≤ k → False := by
      intro k
      induction k with
      | zero =>
        intro n i t hn hti hbad h0 hk
        obtain ⟨j, hj, htj, hne⟩ := hA hn hti hbad
        obtain ⟨j', hj', hup⟩ := ht.up hn h0
        rw [hj] at hj'; cases hj'
        rcases hup with rfl | hup
        · exact hne rfl
        · have := ht.bound j; omega
      | succ k ih =>
        intro n i t hn hti hbad h0 hk
        obtain ⟨j, hj, htj, hne⟩ := hA hn hti hbad
        obtain ⟨j', hj', hup⟩ := ht.up hn h0
        rw [hj] at hj'; cases hj'
        rcases hup with rfl | hup
        · exact hne rfl
        · exact ih _ j t hj htj hne (by omega) (by omega)
    intro n i t hn hti
    by_contra hbad
    by_cases h0 : time i = 0
    · obtain ⟨j, hj, htj, hne⟩ := hA hn hti hbad
      rw [ht.never hn h0] at hj hne
      refine key _ _ j t hj htj hne ?_ (Nat.le_refl _)
      rcases Nat.eq_zero_or_pos (time j) with e | e
      · exact absurd (ht.never hj e) hne
      · exact e
    · exact key _ n i t hn hti hbad (Nat.pos_of_ne_zero h0) (Nat.le_refl _)
  · intro hc
    rw [hall]
    unfold Dataset.iter Dataset.graphs Dict.values
    rw [List.flatMap_map]
    apply List.Perm.of_eq
    apply List.flatMap_congr
    rintro ⟨n, i⟩ hn
    have hn := (h.mem_names n i).1 hn
    show List.map _ (ord i _) = List.map _ (ord i _)
    apply List.map_congr_left
    intro x hx
    rw [(hord _ _).mem_iff, (h.held i).mem] at hx
    obtain ⟨t, ht, rfl⟩ := hx
    rw [h.uri, hc n i t hn ht]

/- Both cases of the equivalence occur: while the graph has one name iteration agrees; with two names it does not. -/
example : (Shared.after (exS.take 4)).uri 0 = exN1 ∧ (Shared.after exS).uri 0 = exN1 ∧ (Shared.after (exS.take 5)).uri 0 = exN2 := by
  decide

end Verif
