import Verif.Py.Basic
/-
src/pymantic/util.py:92-101, smart_urljoin, and `urllib.parse.urljoin` with the functions it calls (urlparse, urlsplit, urlunparse,
urlunsplit, _splitparams, _splitnetloc) as in CPython 3.11. The validity checks of the network location (brackets and NFKC
normalisation: `_check_bracketed_host`, `_checknetloc`) are a parameter `nl`; they raise ValueError.
-/
namespace Verif

/-- `s.partition(c)` as an option: the text before and after the first `c`. -/
def splitFirst (c : Nat) : PStr → Option (PStr × PStr)
  | [] => none
  | x :: xs => if x = c then some ([], xs) else (splitFirst c xs).map fun r => (x :: r.1, r.2)

/-- `s.split("/")` -/
def splitSlash : PStr → List PStr
  | [] => [[]]
  | c :: cs =>
    if c = 47 then [] :: splitSlash cs
    else match splitSlash cs with
      | [] => [[c]]
      | w :: ws => (c :: w) :: ws

/-- `"/".join(parts)` -/
def joinSlash : List PStr → PStr
  | [] => []
  | [p] => p
  | p :: ps => p ++ 47 :: joinSlash ps

/-- `uses_relative` -/
def usesRelative : List PStr :=
  [[], py! "ftp", py! "http", py! "gopher", py! "nntp", py! "imap", py! "wais", py! "file", py! "https", py! "shttp", py! "mms",
   py! "prospero", py! "rtsp", py! "rtsps", py! "rtspu", py! "sftp", py! "svn", py! "svn+ssh", py! "ws", py! "wss"]

/-- `uses_netloc` -/
def usesNetloc : List PStr :=
  [[], py! "ftp", py! "http", py! "gopher", py! "nntp", py! "telnet", py! "imap", py! "wais", py! "file", py! "mms", py! "https", py! "shttp",
   py! "snews", py! "prospero", py! "rtsp", py! "rtsps", py! "rtspu", py! "rsync", py! "svn", py! "svn+ssh", py! "sftp", py! "nfs", py! "git",
   py! "git+ssh", py! "ws", py! "wss"]

/-- `uses_params` -/
def usesParams : List PStr :=
  [[], py! "ftp", py! "hdl", py! "prospero", py! "http", py! "imap", py! "https", py! "shttp", py! "rtsp", py! "rtsps", py! "rtspu", py! "sip",
   py! "sips", py! "mms", py! "sftp", py! "tel"]

/-- ASCII letters. -/
def isAsciiAlpha (c : Nat) : Bool := (65 ≤ c && c ≤ 90) || (97 ≤ c && c ≤ 122)

/-- `scheme_chars`: letters, digits, `+-.` -/
def isSchemeChar (c : Nat) : Bool := isAsciiAlpha c || (48 ≤ c && c ≤ 57) || c == 43 || c == 45 || c == 46

/-- `.lower()` of scheme characters. -/
def asciiLower (c : Nat) : Nat := if 65 ≤ c ∧ c ≤ 90 then c + 32 else c

/-- The result of `urlparse`. -/
structure Url6 where
  scheme : PStr
  netloc : PStr
  path : PStr
  params : PStr
  query : PStr
  fragment : PStr
  deriving DecidableEq, Repr

/-- The scheme of a URL and the rest: the loop over `url[:i]` in `urlsplit`. -/
def splitScheme (dflt url : PStr) : PStr × PStr :=
  match splitFirst 58 url with
  | some (c :: cs, rest) => if isAsciiAlpha c && (c :: cs).all isSchemeChar then ((c :: cs).map asciiLower, rest) else (dflt, url)
  | _ => (dflt, url)

/-- `_splitnetloc(url, 2)` after `url[:2] == "//"`. -/
def splitNetloc : PStr → PStr × PStr
  | 47 :: 47 :: r => (r.takeWhile fun c => !(c == 47 || c == 63 || c == 35), r.dropWhile fun c => !(c == 47 || c == 63 || c == 35))
  | s => ([], s)

/-- `x, y = s.split(c, 1)` if `c in s`, else `s, ""`. -/
def cutAt (c : Nat) (s : PStr) : PStr × PStr := (splitFirst c s).getD (s, [])

/-- `_splitparams(url)` where ";" is in url: the part after the last slash is searched. -/
def splitParams (url : PStr) : PStr × PStr :=
  let last := (url.reverse.takeWhile (· ≠ 47)).reverse
  let dir := url.take (url.length - last.length)
  match splitFirst 59 last with
  | none => (url, [])
  | some (a, b) => (dir ++ a, b)

/-- `urlparse(url, dflt)`: `urlsplit` (leading C0 controls and spaces dropped, tab, CR and LF removed) and the parameters. `dflt` is "" or a
    scheme that `urlparse` returned, so that stripping it has no effect. -/
def urlparse (nl : PStr → Bool) (url dflt : PStr) : Except Exc Url6 :=
  let url := (url.dropWhile (· ≤ 32)).filter fun c => !(c == 9 || c == 13 || c == 10)
  let (scheme, url) := splitScheme dflt url
  let (netloc, url) := splitNetloc url
  if nl netloc then
    let (url, fragment) := cutAt 35 url
    let (url, query) := cutAt 63 url
    let (path, params) := if usesParams.contains scheme then splitParams url else (url, [])
    .ok { scheme, netloc, path, params, query, fragment }
  else .error .valueError

/-- `urlunparse(components)` with `urlunsplit`. -/
def urlunparse (u : Url6) : PStr :=
  let url := if u.params = [] then u.path else u.path ++ 59 :: u.params
  let url :=
    if u.netloc ≠ [] ∨ (u.scheme ≠ [] ∧ usesNetloc.contains u.scheme) ∨ url.take 2 = [47, 47] then
      let url := if url ≠ [] ∧ url.take 1 ≠ [47] then 47 :: url else url
      47 :: 47 :: (u.netloc ++ url)
    else url
  let url := if u.scheme = [] then url else u.scheme ++ 58 :: url
  let url := if u.query = [] then url else url ++ 63 :: u.query
  if u.fragment = [] then url else url ++ 35 :: u.fragment

/-- `segments` in `urljoin`. -/
def joinSegments (bpath path : PStr) : List PStr :=
  if path.take 1 = [47] then splitSlash path
  else
    let bp := splitSlash bpath
    let base := if bp.getLast? = some [] then bp else bp.dropLast
    let segs := base ++ splitSlash path
    match segs with
    | [] => []
    | [s] => [s]
    | s :: rest => s :: (rest.dropLast.filter (· ≠ []) ++ rest.getLast?.toList)

/-- The loop over the segments; the accumulator is `resolved_path` reversed. -/
def resolveLoop : List PStr → List PStr → List PStr
  | acc, [] => acc.reverse
  | acc, s :: ss => if s = [46, 46] then resolveLoop acc.tail ss else if s = [46] then resolveLoop acc ss else resolveLoop (s :: acc) ss

/-- `resolved_path` at the end. -/
def resolvePath (bpath path : PStr) : PStr :=
  let segs := joinSegments bpath path
  let r := resolveLoop [] segs
  let r := if segs.getLast? = some [46] ∨ segs.getLast? = some [46, 46] then r ++ [[]] else r
  if joinSlash r = [] then [47] else joinSlash r

/-- `urllib.parse.urljoin(base, url)` -/
def urljoin (nl : PStr → Bool) (base url : PStr) : Except Exc PStr :=
  if base = [] then .ok url
  else if url = [] then .ok base
  else
    match urlparse nl base [] with
    | .error e => .error e
    | .ok b =>
      match urlparse nl url b.scheme with
      | .error e => .error e
      | .ok u =>
        if u.scheme ≠ b.scheme ∨ !usesRelative.contains u.scheme then .ok url
        else if usesNetloc.contains u.scheme ∧ u.netloc ≠ [] then .ok (urlunparse u)
        else
          let netloc := if usesNetloc.contains u.scheme then b.netloc else u.netloc
          if u.path = [] ∧ u.params = [] then
            .ok (urlunparse { u with netloc, path := b.path, params := b.params, query := if u.query = [] then b.query else u.query })
          else .ok (urlunparse { u with netloc, path := resolvePath b.path u.path })

/-- `smart_urljoin(base, url)`, util.py:92-101 -/
def smartUrljoin (nl : PStr → Bool) (base url : PStr) : Except Exc PStr :=
  (urljoin nl base url).map fun joined =>
    if url.getLast? = some 35 ∧ joined.getLast? ≠ some 35 then joined ++ [35] else joined

end Verif
