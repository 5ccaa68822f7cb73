import Verif.Props.LoadOrder
import Verif.Props.Settle
import Verif.Props.Relabel
/-
C147, C148 for any number of N-Triples documents, as text, bytes or files, of which some may be rejected; C159 for datasets.
-/
namespace Verif
open Spec NTSpec

/-! ### C147, C148 -/

/-- N-Triples given as text, bytes or a file; text is made of characters. -/
def Loading.IsNT : Loading → Prop
  | .nt (.str s) => s.Valid
  | .nt (.bytes _) => True
  | .ntFile c => c.Valid
  | .turtle _ _ => False

/-- A triple as the N-Triples parser makes them: an RDF triple, which, if it can be written, can also be read again. -/
def Stmt.Read (t : Stmt) : Prop := t.IsRdf ∧ t.s.Chars ∧ t.p.Chars ∧ t.o.Chars ∧ (t.Writable → t.NTOk)

theorem RStmt.FromText.read {r : RStmt} (hr : r.FromText) (f : PStr → Nat) : (r.subst f).Read := by
  refine ⟨⟨?_, ?_, ?_, ?_⟩, hr.s.chars f, hr.p.chars f, hr.o.chars f, fun hw => ⟨hr.s.ntok f hw.1, hr.p.ntok f hw.2.1, hr.o.ntok f hw.2.2⟩⟩
  · rcases hr.subj with ⟨i, e⟩ | ⟨l, e⟩
    · exact .inl ⟨i, by simp [RStmt.subst, RTerm.subst, e]⟩
    · exact .inr ⟨f l, by simp [RStmt.subst, RTerm.subst, e]⟩
  · obtain ⟨i, e⟩ := hr.pred
    exact ⟨i, by simp [RStmt.subst, RTerm.subst, e]⟩
  · cases e : r.o with
    | iri i => exact .inl ⟨i, by simp [RStmt.subst, RTerm.subst, e]⟩
    | label l => exact .inr (.inl ⟨f l, by simp [RStmt.subst, RTerm.subst, e]⟩)
    | lit v l d => exact .inr (.inr ⟨v, l, d, by simp [RStmt.subst, RTerm.subst, e]⟩)
  · simp [RStmt.subst, hr.triple]

theorem utf8Decode_valid {b : List Nat} {s : PStr} (h : utf8Decode b = some s) : s.Valid := by
  have he := utf8Encode_decode b h
  clear h
  induction s generalizing b with
  | nil => intro c hc; cases hc
  | cons c s ih =>
    unfold utf8Encode at he
    cases hc : utf8Char c with
    | none => rw [hc] at he; cases he
    | some l =>
      cases hs : utf8Encode s with
      | none => rw [hc, hs] at he; cases he
      | some bs =>
        intro x hx
        rcases List.mem_cons.1 hx with rfl | hx
        · unfold utf8Char at hc
          show x < 0x110000
          by_contra hn
          rw [if_neg (by omega), if_neg (by omega), if_neg (by omega), if_neg hn] at hc
          cases hc
        · exact ih hs x hx

theorem text_read {text : PStr} (hv : text.Valid) (next : Nat) (g : Graph) (hg : ∀ t ∈ g.triples, t.Read) :
    ∀ t ∈ (parseString Graph.add false next text g).1.triples, t.Read := by
  cases hd : pDoc false text with
  | error e => simpa [parseString, hd] using hg
  | ok rs =>
    obtain ⟨f, n', _, h2, _, _⟩ := C41_labels_scoped Graph.add false next text g rs hd
    rw [h2]
    intro t ht
    rw [foldl_add_eq, Graph.mem_addAll] at ht
    rcases ht with ht | ht
    · obtain ⟨r, hr, rfl⟩ := List.mem_map.1 ht
      exact (doc_fromText (pDoc_iff.1 hd) hv r hr).read f
    · exact hg t ht

theorem firstOf_fromText {ls : List PStr} {rs : List RStmt} (h : FirstOf false ls rs) (hv : ∀ l ∈ ls, l.Valid) : ∀ r ∈ rs, r.FromText := by
  induction h with
  | nil => simp
  | @cons l r more ls rs hd _ ih =>
    intro x hx
    rcases List.mem_cons.1 hx with rfl | hx
    · exact doc_fromText (pDoc_iff.1 hd) (hv l (by simp)) _ (by simp)
    · exact ih (fun l hl => hv l (by simp [hl])) x hx

theorem stream_read {content : PStr} (hv : content.Valid) (next : Nat) (g : Graph) (hg : ∀ t ∈ g.triples, t.Read) :
    ∀ t ∈ (parseStream Graph.add false next content g).1.triples, t.Read := by
  obtain ⟨pre, post, firsts, f, h1, h2, _, _, h5, _⟩ := C41_labels_scoped_stream Graph.add false next content g
  rw [h5]
  intro t ht
  rw [foldl_add_eq, Graph.mem_addAll] at ht
  rcases ht with ht | ht
  · obtain ⟨r, hr, rfl⟩ := List.mem_map.1 ht
    refine (firstOf_fromText h2 (fun l hl c hc => hv c ?_) r hr).read f
    rw [← splitLines_flatten content, h1]
    exact List.mem_flatten.2 ⟨l, by simp [hl], hc⟩
  · exact hg t ht

theorem loads_read (nl : PStr → Bool) (ls : List Loading) (hls : ∀ l ∈ ls, l.IsNT) : ∀ (next : Nat) (g : Graph), (∀ t ∈ g.triples, t.Read) →
    ∀ t ∈ (loadSeq (Loading.load Graph.add nl) ls next g).1.triples, t.Read := by
  induction ls with
  | nil => intro next g hg; exact hg
  | cons l ls ih =>
    intro next g hg
    refine ih (fun l hl => hls l (by simp [hl])) _ _ ?_
    have hl := hls l (by simp)
    match l, hl with
    | .nt (.str s), hl => exact text_read hl next g hg
    | .nt (.bytes b), _ =>
      show ∀ t ∈ (larkParseString Graph.add false next (.bytes b) g).1.triples, t.Read
      unfold larkParseString
      dsimp only
      cases h : utf8Decode b with
      | none => exact hg
      | some s => exact text_read (utf8Decode_valid h) next g hg
    | .ntFile c, hl => exact stream_read hl next g hg

/-- **When it can be written**, for any number of documents, whether they were read in full or not: exactly if no IRI that was read has a surrogate. -/
theorem C147_loads (nl : PStr → Bool) {ls : List Loading} (hls : ∀ l ∈ ls, l.IsNT) (next : Nat) {ord : List Stmt → List Stmt} (hord : IsOrder ord) (u : Term) :
    let g := (loadSeq (Loading.load Graph.add nl) ls next (Graph.new u)).1
    (∃ out, serializeNTriples (g.iter ord) = (out, .ok ())) ↔ ∀ t ∈ g.triples, t.Writable := by
  intro g
  have hr : ∀ t ∈ g.triples, t.Read := loads_read nl ls hls next (Graph.new u) (by intro t ht; cases ht)
  have hmem : ∀ t, t ∈ g.iter ord ↔ t ∈ g.triples := fun t => (hord g.triples).mem_iff
  constructor
  · rintro ⟨out, ho⟩ t ht
    by_contra hn
    obtain ⟨_, c1, c2, c3, _⟩ := hr t ht
    exact serialize_unwritable ⟨c1, c2, c3⟩ hn ((hmem t).2 ht) out ho
  · intro hw
    obtain ⟨out, _, _, _, h1, _⟩ := lines_read_ntok (g.iter ord) (fun t ht => ⟨(hr t ((hmem t).1 ht)).1, (hr t ((hmem t).1 ht)).2.2.2.2 (hw t ((hmem t).1 ht))⟩) 0
    exact ⟨out, h1⟩

/-- What was loaded, if it can be written at all, is settled after one save and load. -/
theorem C148_loads (nl : PStr → Bool) {ls : List Loading} (hls : ∀ l ∈ ls, l.IsNT) (next : Nat) {ord : List Stmt → List Stmt} (hord : IsOrder ord) (u : Term) {out : PStr}
    (hw : serializeNTriples ((loadSeq (Loading.load Graph.add nl) ls next (Graph.new u)).1.iter ord) = (out, .ok ())) (next' : Nat) :
    ∃ g1 n', parseString Graph.add false next' out Graph.new = (g1, n', .ok ()) ∧ Settled g1 := by
  have hW := (C147_loads nl hls next hord u).1 ⟨out, hw⟩
  have hr := loads_read nl ls hls next (Graph.new u) (by intro t ht; cases ht)
  generalize (loadSeq (Loading.load Graph.add nl) ls next (Graph.new u)).1 = g at *
  have hmem : ∀ t, t ∈ g.iter ord ↔ t ∈ g.triples := fun t => (hord g.triples).mem_iff
  obtain ⟨text', g1, n1, h1, h2, h3⟩ := settled_of_lines (g.iter ord)
    (fun t ht => ⟨(hr t ((hmem t).1 ht)).1, (hr t ((hmem t).1 ht)).2.2.2.2 (hW t ((hmem t).1 ht))⟩) next'
  rw [hw] at h1
  cases h1
  exact ⟨g1, n1, h2, h3⟩

/-- A text, bytes that are not UTF-8, and a file whose second line is wrong. -/
example : ∀ l ∈ [Loading.nt (.str (py! "_:a <p> <o> .")), .nt (.bytes [255]), .ntFile (py! "_:a <q> <o> .\nwrong\n")], l.IsNT := by
  intro l hl
  simp only [List.mem_cons, List.not_mem_nil, or_false] at hl
  rcases hl with rfl | rfl | rfl
  · show PStr.Valid _; unfold PStr.Valid; decide
  · trivial
  · show PStr.Valid _; unfold PStr.Valid; decide

/-! ### C159 -/

/-- The same for datasets that N-Quads documents are read into: what iterating over them gives. -/
theorem C159_dataset {text text' : PStr} {rs rs' : List RStmt} (h : Doc code true text rs) (h' : Doc code true text' rs') (next next' : Nat)
    (ord ord') (hord : IsOrders ord) (hord' : IsOrders ord') :
    SameUpToBlank ((parseStringDs true next text Dataset.new).1.iter ord) ((parseStringDs true next' text' Dataset.new).1.iter ord') ↔ SameWritten rs rs' := by
  have key : ∀ {text : PStr} {rs : List RStmt} (h : Doc code true text rs) (next : Nat) (ord) (hord : IsOrders ord),
      ∃ f : PStr → Nat, (∀ r ∈ rs, ∀ r' ∈ rs, ∀ l l', r.HasLabel l → r'.HasLabel l' → f l = f l' → l = l') ∧
        ∀ x, x ∈ (parseStringDs true next text Dataset.new).1.iter ord ↔ x ∈ rs.map (·.subst f) := by
    intro text rs h next ord hord
    obtain ⟨f, n', qs, h1, h2, h3, -⟩ := C136_string ord [] next h
    refine ⟨f, h3, fun x => ?_⟩
    have e : (parseStringDs true next text Dataset.new).1 = Dataset.run ord ([] ++ [.addAll qs]) := congrArg Prod.fst h1
    have hwf : ∀ op ∈ ([] ++ [DOp.addAll qs]), op.WF := by
      intro op ho; rw [List.mem_singleton.1 ho]; trivial
    rw [e, (C11_dataset_refines_set ord hord _ hwf).2.2.2]
    have hg := quadDoc_graph h
    constructor
    · rintro ⟨q, hq, rfl⟩
      have : q ∈ qs := by simpa [runQuads, DOp.apply] using hq
      obtain ⟨r, hr, e⟩ := (h2 q).1 this
      exact List.mem_map.2 ⟨r, hr, e⟩
    · intro hx
      obtain ⟨r, hr, rfl⟩ := List.mem_map.1 hx
      obtain ⟨g, eg⟩ := hg r hr
      have hq : ∃ q : Qd, q.stmt = r.subst f := ⟨⟨r.s.subst f, r.p.subst f, r.o.subst f, .named g⟩, by simp [Qd.stmt, mkQuad, RStmt.subst, RTerm.subst, eg]⟩
      obtain ⟨q, e⟩ := hq
      exact ⟨q, by simpa [runQuads, DOp.apply] using (h2 q).2 ⟨r, hr, e.symm⟩, e.symm⟩
  obtain ⟨f, hf, e⟩ := key h next ord hord
  obtain ⟨f', hf', e'⟩ := key h' next' ord' hord'
  rw [← sameWritten_iff hf hf']
  exact sameUpToBlank_congr e e'

/-- The same for files of lines that are not blank. -/
theorem C159_files {text text' : PStr} {rs rs' : List RStmt} (h : Doc code true text rs) (h' : Doc code true text' rs') (c : CleanText text) (c' : CleanText text') (next next' : Nat)
    (ord ord') (hord : IsOrders ord) (hord' : IsOrders ord') :
    (parseStreamDs true next text Dataset.new).2.2 = .ok () ∧
    (SameUpToBlank ((parseStreamDs true next text Dataset.new).1.iter ord) ((parseStreamDs true next' text' Dataset.new).1.iter ord') ↔ SameWritten rs rs') := by
  have key : ∀ {text : PStr} {rs : List RStmt} (h : Doc code true text rs) (c : CleanText text) (next : Nat), parseStreamDs true next text Dataset.new = parseStringDs true next text Dataset.new ∧
      (parseStringDs true next text Dataset.new).2.2 = .ok () := by
    intro text rs h c next
    have ok : (parseString Dataset.addStmt true next text Dataset.new).2.2 = .ok () := by unfold parseString; rw [pDoc_iff.2 h]
    rw [C136_stream, parseStringDs_eq, (C39_stream_partial Dataset.addStmt true next text c Dataset.new).2 ok]
    exact ⟨rfl, ok⟩
  rw [(key h c next).1, (key h' c' next').1]
  exact ⟨(key h c next).2, C159_dataset h h' next next' ord ord' hord hord'⟩

end Verif
