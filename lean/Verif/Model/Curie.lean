import Verif.Py.Dict
import Verif.Model.Term
import Verif.Model.DateTime
/-
CURIEs, language tags and the Literal constructor: src/pymantic/primitives.py:31-113, 249-254, src/pymantic/uri_schemes.py.
-/
namespace Verif

/-- `schemes`, uri_schemes.py:4-79 -/
def schemes : List PStr :=
  [py! "aaa", py! "aaas", py! "acap", py! "cap", py! "cid", py! "crid", py! "data", py! "dav",
   py! "dict", py! "dns", py! "fax", py! "file", py! "ftp", py! "go", py! "gopher", py! "h323",
   py! "http", py! "https", py! "icap", py! "im", py! "imap", py! "info", py! "ipp", py! "iris",
   py! "iris.beep", py! "iris.xpc", py! "iris.xpcs", py! "iris.lwz", py! "ldap", py! "mailto", py! "mid", py! "modem",
   py! "msrp", py! "msrps", py! "mtqp", py! "mupdate", py! "news", py! "nfs", py! "nntp", py! "opaquelocktoken",
   py! "pop", py! "pres", py! "rtsp", py! "service", py! "shttp", py! "sip", py! "sips", py! "snmp",
   py! "soap.beep", py! "soap.beeps", py! "tag", py! "tel", py! "telnet", py! "tftp", py! "thismessage", py! "tip",
   py! "tv", py! "urn", py! "vemmi", py! "xmlrpc.beep", py! "xmlrpc.beeps", py! "xmpp", py! "z39.50r", py! "z39.50s",
   py! "afs", py! "dtn", py! "iax", py! "mailserver", py! "pack", py! "tn3270", py! "prospero", py! "snews",
   py! "videotex", py! "wais"]

/-- `curie[0] == "[" and curie[-1] == "]"` on a non-empty string, primitives.py:68 -/
def bracketed (curie : PStr) : Bool := curie.head? == some 91 && curie.getLast? == some 93

/-- `parse_curie(curie, prefixes)`, primitives.py:53-83. `curie[0]` raises IndexError on the empty string. The result (a NamedNode) is
    given as its text. `prefixes` is a dict from prefixes to namespaces. -/
def parseCurie (curie : PStr) (prefixes : Dict PStr PStr) : Except Exc PStr :=
  if curie = [] then .error .indexError
  else
    let definitely := bracketed curie
    let curie := if definitely then curie.tail.dropLast else curie
    let parts := pyPartition 58 curie
    let pre := parts.1
    let reference := parts.2.2
    if !definitely && schemes.contains pre then .ok curie
    else
      match reference, prefixes.get? [] with
      | [], some d => .ok (d ++ pre)
      | reference, _ =>
        match prefixes.get? pre with
        | some ns => .ok (ns ++ reference)
        | none => .error .valueError

/-- `parse_curies(curies, namespaces)`, primitives.py:86-89, a generator: what it yields, and the exception that ends it, if one does. -/
def parseCuries (namespaces : Dict PStr PStr) : List PStr → List PStr × Option Exc
  | [] => ([], none)
  | c :: cs =>
    match parseCurie c namespaces with
    | .error e => ([], some e)
    | .ok i => let r := parseCuries namespaces cs; (i :: r.1, r.2)

/-- Stable insertion for `sorted(matches, key=lambda pair: -len(pair[1]))`, primitives.py:108. -/
def insertByLen (x : PStr × PStr) : List (PStr × PStr) → List (PStr × PStr)
  | [] => [x]
  | y :: ys => if y.2.length ≤ x.2.length then x :: y :: ys else y :: insertByLen x ys

/-- `sorted(matches, key=lambda pair: -len(pair[1]))`: longest namespace first, ties in insertion order. -/
def sortByLen (l : List (PStr × PStr)) : List (PStr × PStr) := l.foldr insertByLen []

/-- `to_curie(uri, namespaces, seperator, explicit)`, primitives.py:92-113 -/
def toCurie (uri : PStr) (namespaces : Dict PStr PStr) (sep : PStr := [58]) (explicit : Bool := false) : PStr :=
  match sortByLen (namespaces.filter fun pn => pyStartsWith uri pn.2) with
  | [] => uri
  | (pre, ns) :: _ =>
    let r := pyReplace uri ns (pre ++ sep)
    if explicit then [91] ++ r ++ [93] else r

/-- `lang_match(lang1, lang2)`, primitives.py:38-50 -/
def langMatch : Option PStr → Option PStr → Bool
  | none, none => true
  | none, some _ => false
  | some _, none => false
  | some a, some b =>
    let a := pyPartition 45 a
    let b := pyPartition 45 b
    decide (a.1 = b.1) && (decide (a.2.2 = []) || decide (b.2.2 = []) || decide (a.2.2 = b.2.2))

/-- What can be passed as the value of a Literal. `other` is any value whose exact type is neither str (or a subclass), int nor
    datetime; `bool` is one of them, because the table is looked up by exact type. -/
inductive LitArg
  | str (s : PStr)
  | int (n : Int)
  | datetime (d : DateTime)
  | other

/-- `str(n)` -/
def intStr (n : Int) : PStr := if n < 0 then 45 :: decDigits n.natAbs else decDigits n.natAbs

/-- `XSD(name)`, primitives.py:320-328 -/
def xsd (name : PStr) : PStr := py! "http://www.w3.org/2001/XMLSchema#" ++ name

/-- `Literal(value, language, datatype)`, primitives.py:249-254 -/
def mkLiteral (value : LitArg) (lang dt : Option PStr := none) : Except Exc Term :=
  match value with
  | .str s => .ok (.lit s lang dt)
  | .int n => .ok (.lit (intStr n) lang (some (dt.getD (xsd (py! "integer")))))
  | .datetime d => .ok (.lit d.isoformat lang (some (dt.getD (xsd (py! "dateTime")))))
  | .other => .error .keyError

end Verif
