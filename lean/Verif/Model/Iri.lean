import Verif.Py.Utf8
import Verif.Model.Term
import Verif.Model.Escape
/-
src/pymantic/util.py:33-89 (percent-encoding and IRI normalization) and the `toNT` methods of src/pymantic/primitives.py.
-/
namespace Verif

/-- `reserved_in_iri`, util.py:37-57, in list order. -/
def reservedInIri : PStr := py! "%:/?#[]@!$&'()*+,;="

/-- `"%%%02X" % n` for `n < 256`. -/
def pctByte (n : Nat) : PStr := 37 :: fmt02X n

/-- One match of the body of `percent_encoding_re`, util.py:33-35, `%(?![01][0-9a-fA-F])(?!20)[a-fA-F0-9][a-fA-F0-9]`, on the two
    characters after `%`. -/
def pctMatches (a b : Nat) : Bool :=
  isHex a && isHex b && !(decide (a = 48 ∨ a = 49)) && !(decide (a = 50 ∧ b = 48))

/-- The longest run of such matches at the start of the string, as the byte values `int(group, 16)` of util.py:62-63. -/
def pctRun : PStr → List Nat
  | 37 :: a :: b :: rest => if pctMatches a b then parseHex [a, b] :: pctRun rest else []
  | _ => []

/-- `percent_decode(regmatch)`, util.py:60-67, on the byte values of the matched run: UTF-8 decoding, then re-encoding of each reserved
    character, one `str.replace` after the other. -/
def percentDecode (bytes : List Nat) : Except Exc PStr :=
  match utf8Decode bytes with
  | none => .error .unicodeDecodeError
  | some uni => .ok (reservedInIri.foldl (fun u res => pyReplace u [res] (pctByte res)) uni)

/-- Worker of `normalizeIri`: `re.sub`, scanning left to right; the first argument counts characters of a replaced run. -/
def normalizeAux : Nat → PStr → Except Exc PStr
  | _, [] => .ok []
  | k + 1, _ :: cs => normalizeAux k cs
  | 0, c :: cs =>
    match pctRun (c :: cs) with
    | [] => (normalizeAux 0 cs).map (c :: ·)
    | b :: bs =>
      match percentDecode (b :: bs) with
      | .error e => .error e
      | .ok u => (normalizeAux (3 * (b :: bs).length - 1) cs).map (u ++ ·)

/-- `normalize_iri(iri)`, util.py:70-75 -/
def normalizeIri (iri : PStr) : Except Exc PStr := normalizeAux 0 iri

/-- `percent_encode(char)`, util.py:78-79; `char.encode("utf-8")` raises UnicodeEncodeError for a surrogate. -/
def percentEncode (c : Nat) : Except Exc PStr :=
  match utf8Char c with
  | none => .error .unicodeEncodeError
  | some bs => .ok (bs.flatMap pctByte)

/-- The characters `urllib.parse.quote` keeps when called as in util.py:89: letters, digits, `_.-~` and the `safe` argument. -/
def quoteKeeps (c : Nat) : Bool :=
  decide ((65 ≤ c ∧ c ≤ 90) ∨ (97 ≤ c ∧ c ≤ 122) ∨ (48 ≤ c ∧ c ≤ 57)) || (py! "_.-~").contains c || reservedInIri.contains c

/-- `urllib.parse.quote` for one ASCII character (its UTF-8 form is one byte). -/
def quoteChar (c : Nat) : PStr := if quoteKeeps c then [c] else pctByte c

/-- The join of util.py:86-88. -/
def encodeNonAscii : PStr → Except Exc PStr
  | [] => .ok []
  | c :: cs =>
    if c > 127 then
      match percentEncode c with
      | .error e => .error e
      | .ok u => (encodeNonAscii cs).map (u ++ ·)
    else (encodeNonAscii cs).map (c :: ·)

/-- `quote_normalized_iri(normalized_iri)`, util.py:82-89 -/
def quoteNormalizedIri (iri : PStr) : Except Exc PStr := (encodeNonAscii iri).map (·.flatMap quoteChar)

/-- `NamedNode.toNT`, primitives.py:316-317 -/
def iriToNT (iri : PStr) : Except Exc PStr :=
  (quoteNormalizedIri iri).map fun q => [60] ++ ntEscape q ++ [62]

/-- `BlankNode.value`, primitives.py:343-345; the argument is `id(self)`. -/
def bnodeValue (id : Nat) : PStr := (hexDigits id).map (· + 17)

/-- `BlankNode.__str__` and `toNT`, primitives.py:349-353 -/
def bnodeStr (id : Nat) : PStr := py! "_:" ++ bnodeValue id

/-- `Literal.toNT`, primitives.py:291-298. An empty language or datatype is false in Python. -/
def literalToNT (value : PStr) (lang dt : Option PStr) : Except Exc PStr :=
  let quoted := [34] ++ ntEscape value ++ [34]
  match lang with
  | some (l :: ls) => .ok (quoted ++ [64] ++ (l :: ls))
  | _ =>
    match dt with
    | some (d :: ds) => (iriToNT (d :: ds)).map fun n => quoted ++ [94, 94] ++ n
    | _ => .ok quoted

/-- `term.toNT()`; `None` and generators have no such method. -/
def Term.toNT : Term → Except Exc PStr
  | .none => .error .attributeError
  | .gen _ => .error .attributeError
  | .named iri => iriToNT iri
  | .bnode id => .ok (bnodeStr id)
  | .lit v l d => literalToNT v l d

end Verif
