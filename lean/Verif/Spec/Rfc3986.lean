import Verif.Py.Basic
/-
RFC 3986, section 5: reference resolution, on references given by their components. This is independent of the model of
`urllib.parse`.
-/
namespace Verif.Spec

/-- The five components; `none` is "undefined". -/
structure Ref where
  scheme : Option PStr
  authority : Option PStr
  path : PStr
  query : Option PStr
  fragment : Option PStr
  deriving DecidableEq, Repr

/-- 5.3, component recomposition. -/
def Ref.text (r : Ref) : PStr :=
  (match r.scheme with | some s => s ++ py! ":" | none => []) ++
  ((match r.authority with | some a => py! "//" ++ a | none => []) ++
  (r.path ++
  ((match r.query with | some q => py! "?" ++ q | none => []) ++
  (match r.fragment with | some f => py! "#" ++ f | none => []))))

/-- Remove the last segment and its preceding "/" (if any). -/
def dropLastSegment (out : PStr) : PStr := ((out.reverse.dropWhile (· ≠ 47)).drop 1).reverse

/-- 5.2.4, remove dot segments: the loop with its input and output buffer. Every step shortens the input, so its length is enough fuel. -/
def removeDotsLoop : Nat → PStr → PStr → PStr
  | 0, _, out => out
  | _ + 1, [], out => out
  | n + 1, inp@(c :: rest), out =>
    if py! "../" <+: inp then removeDotsLoop n (inp.drop 3) out                                     -- 2A
    else if py! "./" <+: inp then removeDotsLoop n (inp.drop 2) out
    else if py! "/./" <+: inp then removeDotsLoop n (47 :: inp.drop 3) out                          -- 2B
    else if inp = py! "/." then removeDotsLoop n [47] out
    else if py! "/../" <+: inp then removeDotsLoop n (47 :: inp.drop 4) (dropLastSegment out)       -- 2C
    else if inp = py! "/.." then removeDotsLoop n [47] (dropLastSegment out)
    else if inp = py! "." ∨ inp = py! ".." then removeDotsLoop n [] out                             -- 2D
    else removeDotsLoop n (rest.dropWhile (· ≠ 47)) (out ++ c :: rest.takeWhile (· ≠ 47))           -- 2E

def removeDots (path : PStr) : PStr := removeDotsLoop path.length path []

/-- 5.2.3, merge paths. -/
def mergePaths (base : Ref) (path : PStr) : PStr :=
  if base.authority.isSome ∧ base.path = [] then 47 :: path
  else (base.path.reverse.dropWhile (· ≠ 47)).reverse ++ path

/-- 5.2.2, transform references. -/
def resolve (base r : Ref) : Ref :=
  if r.scheme.isSome then { r with path := removeDots r.path }
  else if r.authority.isSome then { r with scheme := base.scheme, path := removeDots r.path }
  else if r.path = [] then
    { scheme := base.scheme, authority := base.authority, path := base.path,
      query := if r.query.isSome then r.query else base.query, fragment := r.fragment }
  else if r.path.take 1 = [47] then
    { scheme := base.scheme, authority := base.authority, path := removeDots r.path, query := r.query, fragment := r.fragment }
  else
    { scheme := base.scheme, authority := base.authority, path := removeDots (mergePaths base r.path), query := r.query, fragment := r.fragment }

/-- The syntax of references (3 and 4.1), as far as the delimiters are concerned: a scheme is a letter and letters, digits, `+`, `-`, `.`; an
    authority contains no `/`, `?`, `#`; a path contains no `?`, `#`, is empty or begins with `/` after an authority, does not begin with `//`
    without one, and its first segment contains no `:` in a relative reference; a query contains no `#`. There are no blanks or controls. -/
structure Ref.WF (r : Ref) : Prop where
  scheme : ∀ s, r.scheme = some s → ∃ c cs, s = c :: cs ∧ (65 ≤ c ∧ c ≤ 90 ∨ 97 ≤ c ∧ c ≤ 122) ∧
    ∀ x ∈ cs, 65 ≤ x ∧ x ≤ 90 ∨ 97 ≤ x ∧ x ≤ 122 ∨ 48 ≤ x ∧ x ≤ 57 ∨ x = 43 ∨ x = 45 ∨ x = 46
  authority : ∀ a, r.authority = some a → 47 ∉ a ∧ 63 ∉ a ∧ 35 ∉ a
  path : 63 ∉ r.path ∧ 35 ∉ r.path
  pathAuth : r.authority.isSome → r.path = [] ∨ r.path.head? = some 47
  pathNoAuth : r.authority = none → ¬ py! "//" <+: r.path
  pathNoScheme : r.scheme = none → r.authority = none → 58 ∉ r.path.takeWhile (· ≠ 47)
  query : ∀ q, r.query = some q → 35 ∉ q
  visible : ∀ c ∈ r.text, 32 < c

end Verif.Spec
