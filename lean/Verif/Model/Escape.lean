import Verif.Py.Basic
/-
src/pymantic/serializers.py:4-31 (nt_escape) and src/pymantic/util.py:114-143 (decode_literal).
-/
namespace Verif

/-- The body of the loop of `nt_escape`, serializers.py:7-30, for one character. Characters that no branch matches (the C0 controls
    other than tab, line feed and carriage return) contribute nothing. -/
def ntEscapeChar (c : Nat) : PStr :=
  if c = 0x09 then [92, 116]
  else if c = 0x0A then [92, 110]
  else if c = 0x0D then [92, 114]
  else if c = 0x22 then [92, 34]
  else if c = 0x5C then [92, 92]
  else if (c ≥ 0x20 ∧ c ≤ 0x21) ∨ (c ≥ 0x23 ∧ c ≤ 0x5B) ∨ (c ≥ 0x5D ∧ c ≤ 0x7E) then [c]
  else if c ≥ 0x7F ∧ c ≤ 0xFFFF then [92, 117] ++ fmt04X c
  else if c ≥ 0x10000 ∧ c ≤ 0x10FFFF then [92, 85] ++ fmt08X c
  else []

/-- `nt_escape(node_string)`, serializers.py:4-31 -/
def ntEscape (s : PStr) : PStr := s.flatMap ntEscapeChar

/-- `ESCAPE_MAP.get(c, c)`, util.py:114-123, 135 -/
def escapeMap (c : Nat) : Nat :=
  if c = 116 then 9          -- t
  else if c = 98 then 8      -- b
  else if c = 110 then 10    -- n
  else if c = 114 then 13    -- r
  else if c = 102 then 12    -- f
  else c                     -- `"`, `'`, `\` map to themselves; so does everything else

/-- `chr(n)`: ValueError above U+10FFFF, OverflowError from 2^31 (C int). -/
def pyChr (n : Nat) : Except Exc Nat :=
  if n < 0x110000 then .ok n else if n < 0x80000000 then .error .valueError else .error .overflowError

/-- An escape at the start of the string, as the regular expression of util.py:140 finds it:
    `\\u[a-fA-F0-9]{4}|\\U[a-fA-F0-9]{8}|\\[^uU]`, with the result of `process_escape` (util.py:129-135) and the length. `[^uU]`
    also matches a newline. -/
def escAt : PStr → Option (Except Exc Nat × Nat)
  | 92 :: c :: rest =>
    if c = 117 then
      if (rest.take 4).length = 4 ∧ (rest.take 4).all isHex then some (pyChr (parseHex (rest.take 4)), 6) else none
    else if c = 85 then
      if (rest.take 8).length = 8 ∧ (rest.take 8).all isHex then some (pyChr (parseHex (rest.take 8)), 10) else none
    else some (.ok (escapeMap c), 2)
  | _ => none

/-- Worker of `decodeLiteral`: `re.sub` scans left to right; the first argument counts characters of a replaced escape. -/
def decodeAux : Nat → PStr → Except Exc PStr
  | _, [] => .ok []
  | k + 1, _ :: cs => decodeAux k cs
  | 0, c :: cs =>
    match escAt (c :: cs) with
    | none => (decodeAux 0 cs).map (c :: ·)
    | some (.error e, _) => .error e
    | some (.ok v, n) => (decodeAux (n - 1) cs).map (v :: ·)

/-- `decode_literal(literal)`, util.py:138-143 -/
def decodeLiteral (s : PStr) : Except Exc PStr := decodeAux 0 s

end Verif
