import Verif.Spec.Sparql
/-
SPARQL requests, results, graph stores and changesets: C68-C73.
-/
namespace Verif
open Spec

/-! ### C68, C69: requests -/

theorem field_setParam (d : Dict PStr ParamVal) (k k' : PStr) (v : Option ParamVal) (h : ∀ e ∈ d, e.1 ≠ k) :
    field (setParam d k v) k' = if k = k' then (v.map wire).getD [] else field d k' := by
  have hset : ∀ v, Dict.set d k v = d ++ [(k, v)] := by
    intro v
    induction d with
    | nil => rfl
    | cons a d ih =>
      obtain ⟨a, x⟩ := a
      rw [Dict.set, if_neg (h (a, x) (by simp)), ih fun e he => h e (by simp [he])]
      rfl
  have hnil : k = k' → field d k' = [] := by
    rintro rfl
    unfold field
    rw [List.filter_eq_nil_iff.2]
    · rfl
    · intro e he; simpa using h e he
  cases v with
  | none =>
    simp only [setParam, Option.map_none, Option.getD_none]
    split
    · next hk => exact hnil hk
    · rfl
  | some v =>
    simp only [setParam, hset, Option.map_some, Option.getD_some]
    unfold field at hnil ⊢
    rw [List.filter_append, List.flatMap_append]
    by_cases hk : k = k'
    · rw [hnil hk]; simp [hk]
    · simp [hk]

theorem wire_param (a : GraphArg) : (a.param.map wire).getD [] = asked a := by
  rcases a with _ | (_ | ⟨c, s⟩) | (_ | ⟨s, ss⟩) <;> rfl

/-- The fields of the parameters built for the graphs. -/
theorem field_graphs (k : OpKind) (dg ng : GraphArg) (key : PStr) :
    field (setParam (setParam [] k.defaultGraphUri dg.param) k.namedGraphUri ng.param) key =
      if k.namedGraphUri = key then asked ng else if k.defaultGraphUri = key then asked dg else [] := by
  rw [field_setParam, wire_param]
  · split
    · rfl
    · rw [field_setParam _ _ _ _ (by simp), wire_param]
      rfl
  · intro e he
    cases h : dg.param with
    | none => rw [h] at he; simp [setParam] at he
    | some v =>
      rw [h] at he
      simp only [setParam, Dict.set, List.mem_singleton] at he
      subst he
      dsimp only
      cases k <;> decide

/-- The fields when the text is a parameter too. -/
theorem field_all (k : OpKind) (dg ng : GraphArg) (b : List Nat) (key : PStr) :
    field ((setParam (setParam [] k.defaultGraphUri dg.param) k.namedGraphUri ng.param).set k.queryOrUpdate (.bytes b)) key =
      if k.queryOrUpdate = key then [.bytes b]
      else if k.namedGraphUri = key then asked ng else if k.defaultGraphUri = key then asked dg else [] := by
  have := field_setParam (setParam (setParam [] k.defaultGraphUri dg.param) k.namedGraphUri ng.param) k.queryOrUpdate key
    (some (.bytes b)) (by
      intro e he h
      have hf := field_graphs k dg ng k.queryOrUpdate
      have hne : field (setParam (setParam [] k.defaultGraphUri dg.param) k.namedGraphUri ng.param) k.queryOrUpdate = [] := by
        rw [hf]; cases k <;> rfl
      cases h1 : dg.param with
      | none =>
        cases h2 : ng.param with
        | none => rw [h1, h2] at he; simp [setParam] at he
        | some v =>
          rw [h1, h2] at he
          simp only [setParam, Dict.set, List.mem_singleton] at he
          subst he; dsimp only at h; revert h; cases k <;> decide
      | some u =>
        cases h2 : ng.param with
        | none =>
          rw [h1, h2] at he
          simp only [setParam, Dict.set, List.mem_singleton] at he
          subst he; dsimp only at h; revert h; cases k <;> decide
        | some v =>
          have hd : k.defaultGraphUri ≠ k.namedGraphUri := by cases k <;> decide
          rw [h1, h2] at he
          simp only [setParam, Dict.set, if_neg hd, List.mem_cons, List.not_mem_nil, or_false] at he
          rcases he with rfl | rfl <;> dsimp only at h <;> revert h <;> cases k <;> decide)
  rw [field_graphs] at this
  exact this

/-- The request a call builds stands for the operation asked for. -/
theorem buildRequest_spec (srv : Server) (k : OpKind) {sparql : PStr} {b : List Nat} (hb : utf8Encode sparql = some b) (dg ng : GraphArg)
    (headers : Dict PStr PStr) :
    ∃ req, buildRequest srv k sparql dg ng headers = .ok req ∧
      operation req = some ⟨decide (k = .update), b, asked dg, asked ng⟩ ∧
      req.url = srv.queryUrl ∧ req.verify = srv.verify ∧
      (req.method = .get ↔ k = .select ∧ srv.postDirectly = false ∧ srv.postQueries = false) ∧
      (req.data = .raw b ↔ srv.postDirectly = true) ∧
      (∀ h, h ≠ py! "Content-Type" → req.headers.get? h = headers.get? h) := by
  unfold buildRequest
  rw [hb]
  dsimp only
  cases hd : srv.postDirectly with
  | true =>
    refine ⟨_, rfl, ?_, rfl, rfl, by simp, by simp, ?_⟩
    · unfold operation
      simp only [Option.getD_some, field_graphs, Dict.get?_set, if_true, Option.map_some]
      cases k <;> rfl
    · intro h hne
      rw [Dict.get?_set, if_neg (Ne.symm hne)]
  | false =>
    cases hp : k.postQueries srv with
    | true =>
      refine ⟨_, rfl, ?_, rfl, rfl, ?_, by simp, fun _ _ => rfl⟩
      · unfold operation
        simp only [Option.getD_none, field_all, if_true]
        cases k <;> rfl
      · cases k with
        | select => simp only [OpKind.postQueries] at hp; simp [hp]
        | update => simp
    | false =>
      cases k with
      | update => cases hp
      | select =>
        simp only [OpKind.postQueries] at hp
        refine ⟨_, rfl, ?_, rfl, rfl, by simp [hp], by simp, fun _ _ => rfl⟩
        unfold operation
        simp only [Option.getD_some, field_all]
        rfl

/-- `query` sends exactly one request, to the configured URL. The request stands for the query operation with the given text (exactly
    once, in UTF-8) and the given graphs. It is a GET iff neither `post_queries` nor `post_directly` is set, and the text is the whole
    body iff `post_directly` is set. -/
theorem C68_query_request {J : Type} (loads : PStr → Except Exc J) (net : Net) (srv : Server) {sparql : PStr} {b : List Nat}
    (hb : utf8Encode sparql = some b) (output : PStr) (dg ng : GraphArg) :
    ∃ req, (query loads net srv sparql output dg ng).1 = [req] ∧
      operation req = some ⟨false, b, asked dg, asked ng⟩ ∧ utf8Decode b = some sparql ∧
      req.url = srv.queryUrl ∧ req.verify = srv.verify ∧
      (req.method = .get ↔ srv.postDirectly = false ∧ srv.postQueries = false) ∧
      (req.data = .raw b ↔ srv.postDirectly = true) ∧
      req.headers.get? (py! "Accept") = some (if output = py! "xml" then py! "application/rdf+xml,application/sparql-results+xml"
        else py! "application/sparql-results+json,text/turtle") := by
  obtain ⟨req, h1, h2, h3, h4, h5, h6, h7⟩ := buildRequest_spec srv .select hb dg ng (acceptHeader output)
  refine ⟨req, ?_, h2, utf8Decode_encode hb, h3, h4, by simpa using h5, h6, ?_⟩
  · unfold query execBase
    rw [h1]
    dsimp only
    split <;> simp_all
  · rw [h7 _ (by decide)]
    unfold acceptHeader
    split <;> rfl

/-- A text with a lone surrogate cannot be sent: UnicodeEncodeError, and no request is made. -/
theorem C68_unencodable {J : Type} (loads : PStr → Except Exc J) (net : Net) (srv : Server) {sparql : PStr}
    (hb : utf8Encode sparql = none) (output : PStr) (dg ng : GraphArg) :
    query loads net srv sparql output dg ng = ([], .error .unicodeEncodeError) ∧
    update net srv sparql dg ng = ([], .error .unicodeEncodeError) := by
  unfold query update execBase buildRequest
  rw [hb]
  exact ⟨rfl, rfl⟩

/-- `update` sends exactly one request, always a POST, which stands for the update operation with the given text and graphs. -/
theorem C69_update_request (net : Net) (srv : Server) {sparql : PStr} {b : List Nat} (hb : utf8Encode sparql = some b) (dg ng : GraphArg) :
    ∃ req, (update net srv sparql dg ng).1 = [req] ∧
      operation req = some ⟨true, b, asked dg, asked ng⟩ ∧ utf8Decode b = some sparql ∧
      req.url = srv.queryUrl ∧ req.verify = srv.verify ∧ req.method = .post ∧ (req.data = .raw b ↔ srv.postDirectly = true) := by
  obtain ⟨req, h1, h2, h3, h4, h5, h6, h7⟩ := buildRequest_spec srv .update hb dg ng []
  refine ⟨req, ?_, h2, utf8Decode_encode hb, h3, h4, ?_, h6⟩
  · unfold update execBase
    rw [h1]
  · cases hm : req.method with
    | post => rfl
    | get => have := (h5.1 hm).1; cases this

/-! ### C70: results -/

/-- What the documentation of `query` promises: a 200 response with one of the documented content types, and a content that can be
    decoded, gives a result. -/
def C70_statement : Prop :=
  ∀ (J : Type) (loads : PStr → Except Exc J), (∀ s, ∃ j, loads s = .ok j) → ∀ (net : Net) (srv : Server) (sparql output : PStr)
    (dg ng : GraphArg) (r : Response) (ct s : PStr), (∀ req, net req = .ok r) → (utf8Encode sparql).isSome → r.status = 200 →
    r.contentType = some ct → utf8Decode r.content = some s →
    mediaType ct ∈ [py! "application/rdf+xml", py! "application/sparql-results+json", py! "application/sparql-results+xml"] →
    ∃ j, (query loads net srv sparql output dg ng).2 = .ok j

/-- Exactly: what `query` does with a response. Only JSON results can be read. -/
theorem C70_query_exact {J : Type} (loads : PStr → Except Exc J) (net : Net) (srv : Server) {sparql : PStr}
    (hb : (utf8Encode sparql).isSome) (output : PStr) (dg ng : GraphArg) {r : Response} (hr : ∀ req, net req = .ok r) :
    (r.status ≠ 200 ∧ r.status ≠ 204 → (query loads net srv sparql output dg ng).2 = .error .sparqlQueryException) ∧
    (r.status = 204 → (query loads net srv sparql output dg ng).2 = .error .attributeError) ∧
    (r.status = 200 →
      (r.contentType = none → (query loads net srv sparql output dg ng).2 = .error .keyError) ∧
      ∀ ct, r.contentType = some ct →
        (py! "application/sparql-results+json" <+: ct →
          (∀ s, utf8Decode r.content = some s → (query loads net srv sparql output dg ng).2 = loads s) ∧
          (utf8Decode r.content = none → (query loads net srv sparql output dg ng).2 = .error .unicodeDecodeError)) ∧
        (py! "application/rdf+xml" <+: ct ∨ py! "text/turtle" <+: ct ∨ py! "application/sparql-results+xml" <+: ct →
          (query loads net srv sparql output dg ng).2 = .error .typeError) ∧
        (¬ py! "application/sparql-results+json" <+: ct ∧ ¬ py! "application/rdf+xml" <+: ct ∧ ¬ py! "text/turtle" <+: ct ∧
            ¬ py! "application/sparql-results+xml" <+: ct →
          (query loads net srv sparql output dg ng).2 = .error .unknownSPARQLReturnType)) := by
  obtain ⟨b, hb⟩ := Option.isSome_iff_exists.1 hb
  obtain ⟨req, h1, -⟩ := buildRequest_spec srv .select hb dg ng (acceptHeader output)
  unfold query execBase
  rw [h1]
  simp only [hr req]
  refine ⟨fun h => ?_, fun h => ?_, fun h => ⟨fun hc => ?_, fun ct hc => ⟨fun hj => ⟨fun s hs => ?_, fun hs => ?_⟩, fun hx => ?_, fun hn => ?_⟩⟩⟩
  · simp [h.1, h.2]
  · simp [h, decodeSelect]
  · simp [h, decodeSelect, hc]
  · obtain ⟨t, rfl⟩ := hj
    rw [if_neg (by omega), if_neg (by omega)]
    dsimp only [decodeSelect]
    rw [hc]
    simp [pyStartsWith, hs]
  · obtain ⟨t, rfl⟩ := hj
    rw [if_neg (by omega), if_neg (by omega)]
    dsimp only [decodeSelect]
    rw [hc]
    simp [pyStartsWith, hs]
  · rcases hx with ⟨t, rfl⟩ | ⟨t, rfl⟩ | ⟨t, rfl⟩ <;>
    · rw [if_neg (by omega), if_neg (by omega)]
      dsimp only [decodeSelect]
      rw [hc]
      simp [pyStartsWith]
  · rw [if_neg (by omega), if_neg (by omega)]
    dsimp only [decodeSelect]
    rw [hc]
    simp only [pyStartsWith, ← List.isPrefixOf_iff_prefix] at hn ⊢
    simp only [hn]
    rfl

theorem C70_refuted : ¬ C70_statement := by
  intro h
  have hq := C70_query_exact (J := Unit) (fun _ => .ok ()) (fun _ => .ok ⟨200, some (py! "application/rdf+xml"), []⟩)
    { queryUrl := [] } (sparql := []) rfl (py! "xml") .none .none (r := ⟨200, some (py! "application/rdf+xml"), []⟩) (fun _ => rfl)
  obtain ⟨j, hj⟩ := h Unit (fun _ => .ok ()) (fun s => ⟨(), rfl⟩) (fun _ => .ok ⟨200, some (py! "application/rdf+xml"), []⟩)
    { queryUrl := [] } [] (py! "xml") .none .none _ _ [] (fun _ => rfl) rfl rfl rfl rfl (by decide)
  rw [((hq.2.2 rfl).2 _ rfl).2.1 (Or.inl (List.prefix_refl _))] at hj
  cases hj

/-- The part that holds: JSON results. -/
theorem C70_json_partial {J : Type} (loads : PStr → Except Exc J) (net : Net) (srv : Server) (sparql output : PStr) (dg ng : GraphArg)
    {r : Response} {s : PStr} (hr : ∀ req, net req = .ok r) (hb : (utf8Encode sparql).isSome) (h200 : r.status = 200)
    {params : PStr} (hct : r.contentType = some (py! "application/sparql-results+json" ++ params))
    (hs : utf8Decode r.content = some s) : (query loads net srv sparql output dg ng).2 = loads s :=
  (((C70_query_exact loads net srv hb output dg ng hr).2.2 h200).2 _ hct).1 ⟨params, rfl⟩ |>.1 s hs

/-- Updates: True for 204, the response for 200, otherwise SPARQLQueryException. -/
theorem C70_update_exact (net : Net) (srv : Server) {sparql : PStr} (hb : (utf8Encode sparql).isSome) (dg ng : GraphArg) {r : Response}
    (hr : ∀ req, net req = .ok r) :
    (update net srv sparql dg ng).2 =
      if r.status = 204 then .ok .true else if r.status = 200 then .ok (.response r) else .error .sparqlQueryException := by
  obtain ⟨b, hb⟩ := Option.isSome_iff_exists.1 hb
  obtain ⟨req, h1, -⟩ := buildRequest_spec srv .update hb dg ng []
  unfold update execBase
  rw [h1]
  simp only [hr req]
  by_cases h4 : r.status = 204
  · simp [h4]
  · by_cases h2 : r.status = 200 <;> simp [h2, h4]

/-- What `requests` raises (no connection, ...) is passed on. -/
theorem C70_network_error {J : Type} (loads : PStr → Except Exc J) (net : Net) (srv : Server) {sparql : PStr}
    (hb : (utf8Encode sparql).isSome) (output : PStr) (dg ng : GraphArg) {e : Exc} (hr : ∀ req, net req = .error e) :
    (query loads net srv sparql output dg ng).2 = .error e ∧ (update net srv sparql dg ng).2 = .error e := by
  obtain ⟨b, hb⟩ := Option.isSome_iff_exists.1 hb
  obtain ⟨req, h1, -⟩ := buildRequest_spec srv .select hb dg ng (acceptHeader output)
  obtain ⟨req', h2, -⟩ := buildRequest_spec srv .update hb dg ng []
  unfold query update execBase
  rw [h1, h2]
  simp only [hr, and_self]

/-! ### C71, C72: changesets -/

/-- `differences(a, b, exclude)`: the removals are the triples of `a` that are not in `b`, the additions those of `b` that are not in `a`,
    both without the excluded predicates; applied to `a` they give `b`, as far as the other predicates are concerned. -/
theorem C71_differences (a b : List RTriple) (exclude : List PStr) :
    (∀ t, t ∈ (differences a b exclude).1 ↔ t ∈ a ∧ t ∉ b ∧ ∀ e ∈ exclude, t.2.1 ≠ .named e) ∧
    (∀ t, t ∈ (differences a b exclude).2 ↔ t ∈ b ∧ t ∉ a ∧ ∀ e ∈ exclude, t.2.1 ≠ .named e) ∧
    (∀ t : RTriple, (∀ e ∈ exclude, t.2.1 ≠ .named e) →
      ((t ∈ a ∧ t ∉ (differences a b exclude).1) ∨ t ∈ (differences a b exclude).2 ↔ t ∈ b)) := by
  have key : ∀ (a b : List RTriple) (t : RTriple),
      t ∈ (a.filter fun s => !b.contains s && !(exclude.map Term.named).contains s.2.1) ↔
        t ∈ a ∧ t ∉ b ∧ ∀ e ∈ exclude, t.2.1 ≠ .named e := by
    intro a b t
    simp only [List.mem_filter, Bool.and_eq_true, Bool.not_eq_true', List.contains_eq_mem, decide_eq_false_iff_not, List.mem_map, not_exists,
      not_and]
    constructor
    · rintro ⟨h1, h2, h3⟩; exact ⟨h1, h2, fun e he h => h3 e he h.symm⟩
    · rintro ⟨h1, h2, h3⟩; exact ⟨h1, h2, fun e he h => h3 e he h.symm⟩
  refine ⟨key a b, key b a, fun t ht => ?_⟩
  unfold differences
  dsimp only
  rw [key a b, key b a]
  by_cases ha : t ∈ a <;> by_cases hb : t ∈ b <;> simp [ha, hb] <;> exact ht

/-- No triple occurs twice in the differences of graphs. -/
theorem C71_once (a b : List RTriple) (exclude : List PStr) (ha : a.Nodup) (hb : b.Nodup) :
    (differences a b exclude).1.Nodup ∧ (differences a b exclude).2.Nodup := ⟨ha.filter _, hb.filter _⟩

theorem mem_radd {g : List RTriple} {t x : RTriple} : x ∈ radd g t ↔ x ∈ g ∨ x = t := by
  unfold radd
  split
  · next h => exact ⟨Or.inl, fun h' => h'.elim id fun e => e ▸ h⟩
  · simp

/-- The four triples that reify `t` as `n`. -/
def reifTriples (n : Nat) (t : RTriple) : List RTriple :=
  [(.bnode n, .named (rdfNsR ++ py! "type"), .named (rdfNsR ++ py! "Statement")),
   (.bnode n, .named (rdfNsR ++ py! "subject"), t.1),
   (.bnode n, .named (rdfNsR ++ py! "predicate"), t.2.1),
   (.bnode n, .named (rdfNsR ++ py! "object"), t.2.2)]

theorem mem_reify {g : List RTriple} {n : Nat} {t x : RTriple} : x ∈ reify g n t ↔ x ∈ g ∨ x ∈ reifTriples n t := by
  unfold reify reifTriples
  simp only [mem_radd, List.mem_cons, List.not_mem_nil, or_false, or_assoc]

/-- The triples added by one of the loops. -/
theorem mem_reifyAll {cs : Nat} {what : PStr} (ts : List RTriple) (g : List RTriple) (n : Nat) :
    (reifyAll cs what g n ts).2 = n + ts.length ∧
    ∀ x, x ∈ (reifyAll cs what g n ts).1 ↔ x ∈ g ∨ ∃ i t, ts[i]? = some t ∧
      (x ∈ reifTriples (n + i) t ∨ x = (.bnode cs, .named (csNs ++ what), .bnode (n + i))) := by
  induction ts generalizing g n with
  | nil => simp [reifyAll]
  | cons t ts ih =>
    obtain ⟨h1, h2⟩ := ih (radd (reify g n t) (.bnode cs, .named (csNs ++ what), .bnode n)) (n + 1)
    refine ⟨by rw [reifyAll, h1, List.length_cons]; omega, fun x => ?_⟩
    rw [reifyAll, h2, mem_radd, mem_reify]
    constructor
    · rintro (((h | h) | h) | ⟨i, t', h3, h4⟩)
      · exact Or.inl h
      · exact Or.inr ⟨0, t, rfl, Or.inl h⟩
      · exact Or.inr ⟨0, t, rfl, Or.inr h⟩
      · refine Or.inr ⟨i + 1, t', by simpa using h3, ?_⟩
        rw [show n + (i + 1) = n + 1 + i by omega]; exact h4
    · rintro (h | ⟨i, t', h3, h4⟩)
      · exact Or.inl (Or.inl (Or.inl h))
      · cases i with
        | zero =>
          simp only [List.getElem?_cons_zero, Option.some.injEq] at h3
          subst h3
          rcases h4 with h4 | h4
          · exact Or.inl (Or.inl (Or.inr h4))
          · exact Or.inl (Or.inr h4)
        | succ i =>
          refine Or.inr ⟨i, t', by simpa using h3, ?_⟩
          rw [show n + 1 + i = n + (i + 1) by omega]; exact h4

/-- All triples of a changeset. -/
theorem mem_changeset (a b : List RTriple) (uri date : PStr) (n : Nat) (x : RTriple) :
    x ∈ changeset a b uri date n ↔
      (x = (.bnode n, .named (rdfNsR ++ py! "type"), .named (csNs ++ py! "ChangeSet")) ∨
       x = (.bnode n, .named (csNs ++ py! "createdDate"), .lit date none none) ∨
       x = (.bnode n, .named (csNs ++ py! "subjectOfChange"), .named uri)) ∨
      (∃ i t, (differences a b).1[i]? = some t ∧
        (x ∈ reifTriples (n + 1 + i) t ∨ x = (.bnode n, .named (csNs ++ py! "removal"), .bnode (n + 1 + i)))) ∨
      (∃ i t, (differences a b).2[i]? = some t ∧
        (x ∈ reifTriples (n + 1 + (differences a b).1.length + i) t ∨
          x = (.bnode n, .named (csNs ++ py! "addition"), .bnode (n + 1 + (differences a b).1.length + i)))) := by
  unfold changeset
  dsimp only
  rw [(mem_reifyAll _ _ _).2, (mem_reifyAll _ _ _).2, (mem_reifyAll _ _ _).1]
  simp only [mem_radd, List.not_mem_nil, false_or, or_assoc]

theorem mem_reifTriples_subject {n : Nat} {t x : RTriple} (h : x ∈ reifTriples n t) : x.1 = .bnode n := by
  simp only [reifTriples, List.mem_cons, List.not_mem_nil, or_false] at h
  rcases h with rfl | rfl | rfl | rfl <;> rfl

/-- What a changeset says, for one of the two kinds: node `m` is attached as `what`, and the triples about `m` are the reification of
    exactly one statement. -/
theorem says_of {g : List RTriple} {cs : Term} {what : PStr} {off : Nat} {ts : List RTriple}
    (h1 : ∀ y, (cs, .named (csNs ++ what), y) ∈ g ↔ ∃ i t, ts[i]? = some t ∧ y = .bnode (off + i))
    (h2 : ∀ i t p y, ts[i]? = some t → ((.bnode (off + i), p, y) ∈ g ↔ (.bnode (off + i), p, y) ∈ reifTriples (off + i) t)) (t : RTriple) :
    Says g cs what t ↔ t ∈ ts := by
  have e1 : ∀ l, rdfI l = .named (rdfNsR ++ l) := fun l => rfl
  have e2 : ∀ l, csI l = .named (csNs ++ l) := fun l => rfl
  unfold Says Reifies
  simp only [e1, e2]
  constructor
  · rintro ⟨node, hn, hr⟩
    obtain ⟨i, t', hi, rfl⟩ := (h1 node).1 hn
    obtain ⟨-, r1, r2, r3⟩ := hr
    have r1 := (h2 _ _ _ _ hi).1 r1
    have r2 := (h2 _ _ _ _ hi).1 r2
    have r3 := (h2 _ _ _ _ hi).1 r3
    have : t = t' := by
      obtain ⟨s, p, o⟩ := t
      obtain ⟨s', p', o'⟩ := t'
      simp [reifTriples, rdfNsR] at r1 r2 r3
      rw [r1, r2, r3]
    rw [this]; exact List.mem_of_getElem? hi
  · intro ht
    obtain ⟨i, hi⟩ := List.mem_iff_getElem?.1 ht
    refine ⟨.bnode (off + i), (h1 _).2 ⟨i, t, hi, rfl⟩, ?_, ?_, ?_, ?_⟩ <;> rw [h2 _ _ _ _ hi] <;> simp [reifTriples]

/-- The subjects of the triples of a changeset are the change set and the reified statements. -/
theorem changeset_about (a b : List RTriple) (uri date : PStr) (n : Nat) :
    (∀ what y, what = py! "removal" → ((.bnode n, .named (csNs ++ what), y) ∈ changeset a b uri date n ↔
      ∃ i t, (differences a b).1[i]? = some t ∧ y = .bnode (n + 1 + i))) ∧
    (∀ what y, what = py! "addition" → ((.bnode n, .named (csNs ++ what), y) ∈ changeset a b uri date n ↔
      ∃ i t, (differences a b).2[i]? = some t ∧ y = .bnode (n + 1 + (differences a b).1.length + i))) ∧
    (∀ i t p y, (differences a b).1[i]? = some t → ((.bnode (n + 1 + i), p, y) ∈ changeset a b uri date n ↔
      (.bnode (n + 1 + i), p, y) ∈ reifTriples (n + 1 + i) t)) ∧
    (∀ i t p y, (differences a b).2[i]? = some t →
      ((.bnode (n + 1 + (differences a b).1.length + i), p, y) ∈ changeset a b uri date n ↔
        (.bnode (n + 1 + (differences a b).1.length + i), p, y) ∈ reifTriples (n + 1 + (differences a b).1.length + i) t)) := by
  have hs : ∀ {m : Nat} {t : RTriple} {p y : Term} {k : Nat}, (.bnode k, p, y) ∈ reifTriples m t → k = m := by
    intro m t p y k h
    have := mem_reifTriples_subject h
    simpa using this
  refine ⟨?_, ?_, ?_, ?_⟩
  · rintro what y rfl
    rw [mem_changeset]
    constructor
    · rintro (h | ⟨i, t, h1, h | h⟩ | ⟨i, t, h1, h | h⟩)
      · simp [rdfNsR, csNs] at h
      · have := hs h; omega
      · simp only [Prod.mk.injEq, true_and] at h; exact ⟨i, t, h1, h⟩
      · have := hs h; omega
      · simp [csNs] at h
    · rintro ⟨i, t, h1, rfl⟩; exact Or.inr (Or.inl ⟨i, t, h1, Or.inr rfl⟩)
  · rintro what y rfl
    rw [mem_changeset]
    constructor
    · rintro (h | ⟨i, t, h1, h | h⟩ | ⟨i, t, h1, h | h⟩)
      · simp [rdfNsR, csNs] at h
      · have := hs h; omega
      · simp [csNs] at h
      · have := hs h; omega
      · simp only [Prod.mk.injEq, true_and] at h; exact ⟨i, t, h1, h⟩
    · rintro ⟨i, t, h1, rfl⟩; exact Or.inr (Or.inr ⟨i, t, h1, Or.inr rfl⟩)
  · intro i t p y hi
    rw [mem_changeset]
    constructor
    · rintro (h | ⟨j, t', h1, h | h⟩ | ⟨j, t', h1, h | h⟩)
      · rcases h with h | h | h <;> simp only [Prod.mk.injEq, Term.bnode.injEq] at h <;> omega
      · have := hs h
        have : i = j := by omega
        subst this; rw [hi] at h1; cases h1; exact h
      · simp only [Prod.mk.injEq, Term.bnode.injEq] at h; omega
      · have := hs h
        have hlt := (List.getElem?_eq_some_iff.1 hi).1
        omega
      · simp only [Prod.mk.injEq, Term.bnode.injEq] at h; omega
    · intro h; exact Or.inr (Or.inl ⟨i, t, hi, Or.inl h⟩)
  · intro i t p y hi
    rw [mem_changeset]
    constructor
    · rintro (h | ⟨j, t', h1, h | h⟩ | ⟨j, t', h1, h | h⟩)
      · rcases h with h | h | h <;> simp only [Prod.mk.injEq, Term.bnode.injEq] at h <;> omega
      · have := hs h
        have hlt := (List.getElem?_eq_some_iff.1 h1).1
        omega
      · simp only [Prod.mk.injEq, Term.bnode.injEq] at h; omega
      · have := hs h
        have : i = j := by omega
        subst this; rw [hi] at h1; cases h1; exact h
      · simp only [Prod.mk.injEq, Term.bnode.injEq] at h; omega
    · intro h; exact Or.inr (Or.inr ⟨i, t, hi, Or.inl h⟩)

/-- The graph built by `changeset(a, b, uri)` says exactly that the triples of `a` that are not in `b` are to be removed and those of `b`
    that are not in `a` are to be added; it names the graph, and it describes no other change set. -/
theorem C72_changeset (a b : List RTriple) (uri date : PStr) (n : Nat) :
    (∀ t, Says (changeset a b uri date n) (.bnode n) (py! "removal") t ↔ t ∈ a ∧ t ∉ b) ∧
    (∀ t, Says (changeset a b uri date n) (.bnode n) (py! "addition") t ↔ t ∈ b ∧ t ∉ a) ∧
    (∀ x, (x, rdfI (py! "type"), csI (py! "ChangeSet")) ∈ changeset a b uri date n ↔ x = .bnode n) ∧
    (∀ x, (.bnode n, csI (py! "subjectOfChange"), x) ∈ changeset a b uri date n ↔ x = .named uri) := by
  obtain ⟨h1, h2, h3, h4⟩ := changeset_about a b uri date n
  have e1 : ∀ l, rdfI l = .named (rdfNsR ++ l) := fun l => rfl
  have e2 : ∀ l, csI l = .named (csNs ++ l) := fun l => rfl
  simp only [e1, e2]
  refine ⟨fun t => ?_, fun t => ?_, fun x => ?_, fun x => ?_⟩
  · rw [says_of (off := n + 1) (fun y => h1 _ y rfl) h3, (C71_differences a b []).1]
    simp
  · rw [says_of (off := n + 1 + (differences a b).1.length) (fun y => h2 _ y rfl) h4, (C71_differences a b []).2.1]
    simp
  · rw [mem_changeset]
    constructor
    · rintro (h | ⟨i, t, h1, h | h⟩ | ⟨i, t, h1, h | h⟩)
      · simp [rdfNsR, csNs] at h; exact h
      · simp [reifTriples, rdfNsR, csNs] at h
      · simp [rdfNsR, csNs] at h
      · simp [reifTriples, rdfNsR, csNs] at h
      · simp [rdfNsR, csNs] at h
    · rintro rfl; exact Or.inl (Or.inl rfl)
  · rw [mem_changeset]
    constructor
    · rintro (h | ⟨i, t, h1, h | h⟩ | ⟨i, t, h1, h | h⟩)
      · simp [rdfNsR, csNs] at h; exact h
      · simp [reifTriples, rdfNsR, csNs] at h
      · simp [csNs] at h
      · simp [reifTriples, rdfNsR, csNs] at h
      · simp [csNs] at h
    · rintro rfl; exact Or.inl (Or.inr (Or.inr rfl))

/-! ### C73: graph stores -/

/-- The claim: the operations of a graph store send their request. -/
def C73_statement : Prop :=
  ∀ (paramStyle : Bool) (datasetUrl : PStr) (op : StoreOp), ∃ url v, ∀ send, storeOp paramStyle datasetUrl op send = send url v

/-- None of them ever does: all raise AttributeError before. -/
theorem C73_never_sent (paramStyle : Bool) (datasetUrl : PStr) (op : StoreOp) (send : PStr → Option PStr → Except Exc Unit) :
    storeOp paramStyle datasetUrl op send = .error .attributeError := by
  unfold storeOp requestUrl selfServer
  cases op with
  | post u nt => cases u <;> cases paramStyle <;> rfl
  | _ => cases paramStyle <;> rfl

/-- Already the address of the graph cannot be computed, in either style. -/
theorem C73_no_address (paramStyle : Bool) (uri : PStr) : requestUrl paramStyle uri = .error .attributeError := by
  cases paramStyle <;> rfl

theorem C73_refuted : ¬ C73_statement := by
  intro h
  obtain ⟨url, v, hs⟩ := h true [] (.get [])
  have := hs fun _ _ => .ok ()
  rw [C73_never_sent] at this
  cases this

/-! ### Non-vacuity -/

example : ∃ b, utf8Encode (py! "ASK {}") = some b := ⟨_, rfl⟩

/-- One triple is removed, one added, one kept, one ignored because of its predicate. -/
example : differences [(.bnode 1, .named (py! "p"), .bnode 2), (.bnode 1, .named (py! "q"), .bnode 2), (.bnode 1, .named (py! "x"), .bnode 2)]
    [(.bnode 1, .named (py! "q"), .bnode 2), (.bnode 1, .named (py! "r"), .bnode 2)] [py! "x"] =
    ([(.bnode 1, .named (py! "p"), .bnode 2)], [(.bnode 1, .named (py! "r"), .bnode 2)]) := by decide

/-- A query with graphs, posted directly. -/
example : (query (J := Unit) (fun _ => .ok ()) (fun _ => .ok ⟨200, some (py! "application/sparql-results+json"), []⟩)
    { queryUrl := py! "http://s", postDirectly := true } (py! "ASK {}") (py! "json") (.many [py! "http://g", py! "http://h"]) (.one (py! "http://n"))).1 =
    [{ method := .post, url := py! "http://s", params := some [(py! "default-graph-uri", .many [py! "http://g", py! "http://h"]),
        (py! "named-graph-uri", .str (py! "http://n"))],
       headers := [(py! "Accept", py! "application/sparql-results+json,text/turtle"),
        (py! "Content-Type", py! "application/sparql-query; charset=utf-8")],
       data := .raw (py! "ASK {}"), verify := none }] := by decide

end Verif
