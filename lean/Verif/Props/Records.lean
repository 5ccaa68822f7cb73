import Verif.Model.Records
import Verif.Props.Graph
/-
C17: Triple, Quad and Literal as records.
-/
namespace Verif

/-- `q_as_t` and `t_as_q` are inverse up to the graph name. -/
theorem C17_qt_inverse (t q : Stmt) (n g : Term) (ht : t.g = none) (hq : q.g = some g) :
    qAsT (tAsQ n t) = t ∧ tAsQ g (qAsT q) = q ∧ (tAsQ n t).g = some n := by
  cases t; cases q; simp_all [qAsT, tAsQ, mkTriple, mkQuad]

/-- `_make` of the items of a record gives the record back; a wrong number of items is a TypeError. -/
theorem C17_make {α} (fields : List PStr) (xs : List α) :
    (xs.length = fields.length → recMake fields xs = .ok xs) ∧
    (xs.length ≠ fields.length → recMake fields xs = .error .typeError) := by
  constructor <;> intro h <;> simp [recMake, h]

/-- `_asdict` has exactly the fields, in order, with the items as values: `_make(_asdict().values())` round-trips and each field
    looks up its item. -/
theorem C17_asdict {α} (fields : List PStr) (hf : fields.Nodup) (xs : List α) (h : xs.length = fields.length) :
    (recAsdict fields xs).keys = fields ∧ recMake fields (recAsdict fields xs).values = .ok xs ∧
    ∀ i (hi : i < fields.length), (recAsdict fields xs).get? fields[i] = some (xs[i]'(h ▸ hi)) := by
  have hk : (recAsdict fields xs).keys = fields := by
    simp only [recAsdict, Dict.keys]; exact List.map_fst_zip (by omega)
  have hv : (recAsdict fields xs).values = xs := by
    simp only [recAsdict, Dict.values]; exact List.map_snd_zip (by omega)
  refine ⟨hk, by rw [hv]; exact (C17_make fields xs).1 h, fun i hi => ?_⟩
  have wf : (recAsdict fields xs).WF := by unfold Dict.WF; rw [hk]; exact hf
  rw [← Dict.mem_iff_get? wf]
  have : (fields.zip xs)[i]? = some (fields[i], xs[i]'(h ▸ hi)) := by
    rw [List.getElem?_eq_getElem (by simp [h]; omega)]
    simp
  exact List.mem_of_getElem? this

theorem popAll_spec {α} (fs : List PStr) (hf : fs.Nodup) (xs : List α) (h : xs.length = fs.length) (kw : Dict PStr α)
    (wf : kw.WF) :
    (popAll fs xs kw).1 = List.zipWith (fun f x => (kw.get? f).getD x) fs xs ∧
    (popAll fs xs kw).2.WF ∧ ∀ f, (popAll fs xs kw).2.get? f = if f ∈ fs then none else kw.get? f := by
  induction fs generalizing xs kw with
  | nil => cases xs <;> simp_all [popAll]
  | cons f fs ih =>
    cases xs with
    | nil => simp at h
    | cons x xs =>
      obtain ⟨hnf, hnd⟩ := List.nodup_cons.1 hf
      obtain ⟨h1, h2, h3⟩ := ih hnd xs (by simpa using h) (kw.del f) (wf.del f)
      refine ⟨?_, h2, fun f' => ?_⟩
      · simp only [popAll, List.zipWith_cons_cons, h1]
        congr 1
        apply List.ext_getElem?
        intro i
        simp only [List.getElem?_zipWith]
        cases hfi : fs[i]? with
        | none => rfl
        | some f' =>
          have : f ≠ f' := fun e => hnf (e ▸ List.mem_of_getElem? hfi)
          cases xs[i]? <;> simp [Dict.get?_del wf, this]
      · simp only [popAll, h3, Dict.get?_del wf, List.mem_cons]
        by_cases e : f' ∈ fs
        · simp [e]
        · by_cases e' : f = f'
          · simp [e']
          · simp [e, e', Ne.symm e']

/-- `_replace` changes exactly the named fields and keeps the others; an unknown field name is a ValueError. -/
theorem C17_replace {α} (fields : List PStr) (hf : fields.Nodup) (xs : List α) (h : xs.length = fields.length)
    (kw : Dict PStr α) (wf : kw.WF) :
    ((∀ f ∈ kw.keys, f ∈ fields) → ∃ ys, recReplace fields xs kw = .ok ys ∧ ys.length = fields.length ∧
      ∀ i (hi : i < fields.length), ys[i]? = some ((kw.get? fields[i]).getD (xs[i]'(h ▸ hi)))) ∧
    ((∃ f ∈ kw.keys, f ∉ fields) → recReplace fields xs kw = .error .valueError) := by
  obtain ⟨h1, h2, h3⟩ := popAll_spec fields hf xs h kw wf
  have hlen : (popAll fields xs kw).1.length = fields.length := by rw [h1]; simp [h]
  have hm := (C17_make fields (popAll fields xs kw).1).1 hlen
  unfold recReplace
  simp only [hm]
  constructor
  · intro hk
    have he : (popAll fields xs kw).2 = [] := by
      cases hr : (popAll fields xs kw).2 with
      | nil => rfl
      | cons a l =>
        exfalso
        have hka : a.1 ∈ (popAll fields xs kw).2.keys := by rw [hr]; simp [Dict.keys]
        have := (Dict.mem_keys_iff _ _).1 hka
        rw [h3] at this
        split at this
        · cases this
        · next hn => exact hn (hk _ ((Dict.mem_keys_iff _ _).2 this))
    refine ⟨_, by rw [he]; simp, hlen, fun i hi => ?_⟩
    rw [h1, List.getElem?_zipWith, List.getElem?_eq_getElem hi, List.getElem?_eq_getElem (h ▸ hi)]
  · rintro ⟨f, hf1, hf2⟩
    have : (popAll fields xs kw).2 ≠ [] := by
      intro e
      have h4 := h3 f
      rw [if_neg hf2, e] at h4
      have := (Dict.mem_keys_iff _ _).1 hf1
      rw [← h4] at this; cases this
    rw [if_pos this]

/-- The items of a Triple and of a Quad are those of their fields: `_asdict` gives each under its name. -/
theorem C17_fields (s p o g : Term) :
    recAsdict tripleFields (mkTriple s p o).items = [(py! "subject", s), (py! "predicate", p), (py! "object", o)] ∧
    recAsdict quadFields (mkQuad s p o g).items = [(py! "subject", s), (py! "predicate", p), (py! "object", o), (py! "graph", g)] := ⟨rfl, rfl⟩

/-- The same for the three items of a Literal, which `_replace` changes by their names. -/
theorem C17_literal {α} (v l d v' l' d' : α) :
    recAsdict literalFields [v, l, d] = [(py! "value", v), (py! "language", l), (py! "datatype", d)] ∧
    recReplace literalFields [v, l, d] [(py! "value", v')] = .ok [v', l, d] ∧
    recReplace literalFields [v, l, d] [(py! "language", l')] = .ok [v, l', d] ∧
    recReplace literalFields [v, l, d] [(py! "datatype", d')] = .ok [v, l, d'] ∧
    recReplace literalFields [v, l, d] ([] : Dict PStr α) = .ok [v, l, d] := ⟨rfl, rfl, rfl, rfl, rfl⟩

/-- The field lists of the three classes have no repetitions, so the theorems apply to them. -/
example : tripleFields.Nodup ∧ quadFields.Nodup ∧ literalFields.Nodup := by decide
example : recReplace quadFields exQ1.items [(py! "object", exA)] = .ok (mkQuad exA exB exA exA).items := by decide
example : recReplace tripleFields exT1.stmt.items [(py! "graph", exA)] = .error .valueError := by decide
example : recMake tripleFields [exA, exB] = .error .typeError := by decide

end Verif
