import Verif.Py.Basic
/-
The URI schemes registered in September 2008 (uri_schemes.py says it lists them), in alphabetical order.
-/
namespace Verif.Spec

def uriSchemes : List PStr :=
  [py! "aaa", py! "aaas", py! "acap", py! "afs", py! "cap", py! "cid", py! "crid", py! "data",
   py! "dav", py! "dict", py! "dns", py! "dtn", py! "fax", py! "file", py! "ftp", py! "go",
   py! "gopher", py! "h323", py! "http", py! "https", py! "iax", py! "icap", py! "im", py! "imap",
   py! "info", py! "ipp", py! "iris", py! "iris.beep", py! "iris.lwz", py! "iris.xpc", py! "iris.xpcs", py! "ldap",
   py! "mailserver", py! "mailto", py! "mid", py! "modem", py! "msrp", py! "msrps", py! "mtqp", py! "mupdate",
   py! "news", py! "nfs", py! "nntp", py! "opaquelocktoken", py! "pack", py! "pop", py! "pres", py! "prospero",
   py! "rtsp", py! "service", py! "shttp", py! "sip", py! "sips", py! "snews", py! "snmp", py! "soap.beep",
   py! "soap.beeps", py! "tag", py! "tel", py! "telnet", py! "tftp", py! "thismessage", py! "tip", py! "tn3270",
   py! "tv", py! "urn", py! "vemmi", py! "videotex", py! "wais", py! "xmlrpc.beep", py! "xmlrpc.beeps", py! "xmpp",
   py! "z39.50r", py! "z39.50s"]

end Verif.Spec
