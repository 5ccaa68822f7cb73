#!/usr/bin/env python3
"""Writes /verif/properties.jsonl from the table below."""
import json, os
P = []
def p(id, title, statement, quantifier, why, anchors):
    P.append(dict(id=id, title=title, statement=statement, quantifier=quantifier,
                  why_tests_cant=why, anchors=anchors))
PR="src/pymantic/primitives.py"; SE="src/pymantic/serializers.py"; UT="src/pymantic/util.py"
RD="src/pymantic/rdf.py"; NT="src/pymantic/parsers/lark/ntriples.py"; NQ="src/pymantic/parsers/lark/nquads.py"
LB="src/pymantic/parsers/lark/base.py"; TU="src/pymantic/parsers/lark/turtle.py"; PB="src/pymantic/parsers/base.py"
JL="src/pymantic/parsers/jsonld.py"; RX="src/pymantic/parsers/rdfxml.py"; SP="src/pymantic/sparql.py"; US="src/pymantic/uri_schemes.py"

# ---- Graph
p("C01","A Graph is a finite set of triples",
 "After any history of add/addAll/remove of Triples on a new Graph, `t in g`, `len(g)` and iteration agree with the mathematical set obtained by the same insertions and deletions; remove of an absent triple raises KeyError and changes nothing.",
 "all finite histories of add, addAll and remove, all triples",
 "three separately maintained nested indexes plus a set must stay in step over every interleaving of insertions and deletions; a test fixes a handful of histories",
 [f"{PR}: Graph.add, Graph.remove, Graph.addAll, Graph.__contains__, Graph.__len__, Graph.__iter__"])
p("C02","match returns exactly the matching triples",
 "For every graph reachable by a history of add/addAll/remove and every pattern whose given terms are non-empty, Graph.match yields each triple of the graph that agrees with the given terms exactly once, and nothing else, for all eight bound/unbound combinations.",
 "all histories, all patterns (8 shapes) over non-empty terms",
 "each of the eight branches reads a different index; the unit tests check one triple per branch",
 [f"{PR}: Graph.match, Graph.add, Graph.remove"])
p("C03","Only None is a wildcard in match",
 "The documentation of match says a position is unconstrained iff the argument is null. A given IRI must constrain the match even if it is the empty IRI.",
 "all graphs, all pattern arguments including NamedNode('')",
 "tests never pass a falsy term",
 [f"{PR}: Graph.match"])
p("C04","subjects(), predicates(), objects() list the terms in use",
 "g.subjects() (predicates(), objects()) yields each term that is the subject (predicate, object) of some triple currently in the graph exactly once, and no other term.",
 "all histories of add/addAll/remove",
 "the views are the key sets of indexes that removal only partly cleans; needs histories with removals",
 [f"{PR}: Graph.subjects, Graph.predicates, Graph.objects, Graph.remove"])
p("C05","removeMatches removes exactly the matching triples",
 "g.removeMatches(s,p,o) returns normally and leaves exactly the triples that do not match the pattern.",
 "all graphs, all patterns",
 "depends on mutating a dict/set while a suspended generator iterates over it",
 [f"{PR}: Graph.removeMatches, Graph.match, Graph.remove"])
p("C06","addAll and merge are set union",
 "g.addAll(ts) adds exactly the elements of ts; g.merge(h) returns a new graph whose triples are exactly those of g and of h, and leaves g and h as they were.",
 "all pairs of reachable graphs, all triple sequences, all set iteration orders",
 "needs all graphs and all iteration orders of the underlying hash set",
 [f"{PR}: Graph.addAll, Graph.merge, RDFEnvironment.createGraph"])
p("C07","Insertion order and repetition are unobservable",
 "Two graphs built by adding the same triples in any order, any number of times, answer every membership, len, and match query alike (as sets of results).",
 "all pairs of insertion sequences with the same underlying set",
 "exponentially many orders",
 [f"{PR}: Graph.add, Graph.addAll, Graph.match"])
p("C08","A graph operation that raises leaves the graph unchanged",
 "If add, remove or Resource.copy raises, then membership, len and match answer as before the call.",
 "all graphs, all arguments including ones that make the call fail",
 "failure atomicity must hold at every point where an exception can be raised",
 [f"{PR}: Graph.add, Graph.remove", f"{RD}: Resource.copy"])
p("C09","match is lazy but stable",
 "Consuming the generator returned by match without modifying the graph in between yields the same sequence as listing it at once, and reflects the graph at the time of the first next(), not of the call to match; if the dict or set being iterated changes size between two next() calls the next one raises RuntimeError, for each of the eight pattern shapes.",
 "all graphs, all patterns, all points of suspension",
 "generator suspension points multiply with the sizes of the nested dicts",
 [f"{PR}: Graph.match"])
p("C10","A graph that holds quads finds them again",
 "nquads_parser.parse(text) without a sink returns a Graph holding Quads. Every statement that iteration reports must also be found by match on its subject and predicate, and can be removed.",
 "all sets of quads added to a Graph",
 "needs quads that agree on s,p,o and differ in the graph name",
 [f"{PR}: Graph.add, Graph.match, Graph.remove", f"{LB}: LarkParser.parse", f"{PB}: BaseParser._make_graph", f"{NQ}: NQuadsTransformer.quad"])
# ---- Dataset
p("C11","A Dataset is a finite set of quads",
 "After any history of add/addAll/remove of Quads on a new Dataset, membership of a quad, len and iteration agree with the mathematical set of quads; remove of an absent quad raises KeyError without changing that set.",
 "all histories, all quads including the default graph (graph name None)",
 "the dataset is a lazily created map from names to graphs; every interleaving across graph names must agree",
 [f"{PR}: Dataset.add, Dataset.remove, Dataset.addAll, Dataset.__len__, Dataset.__contains__, Dataset.__iter__"])
p("C12","Dataset.match returns exactly the matching quads",
 "For every reachable dataset and every pattern of non-empty terms (with or without a graph name), Dataset.match yields exactly the matching quads, once each.",
 "all histories, all sixteen pattern shapes",
 "sixteen shapes times all histories",
 [f"{PR}: Dataset.match"])
p("C13","Reading a Dataset does not change it",
 "match and `in` never change the quads of the dataset nor the collection of graphs it reports.",
 "all datasets, all patterns",
 "the hidden write is in the container type (defaultdict), visible only for names not present",
 [f"{PR}: Dataset.match, Dataset.__contains__, Dataset.graphs"])
p("C14","Dataset.removeMatches removes exactly the matching quads",
 "ds.removeMatches(s,p,o,g) returns normally and leaves exactly the quads that do not match.",
 "all datasets, all patterns",
 "mutation during iteration",
 [f"{PR}: Dataset.removeMatches"])
p("C15","add_graph refuses unnamed graphs and remove_graph removes",
 "add_graph on a graph that was created without a name and without `named` raises ValueError; remove_graph(g) removes the graph's quads from the dataset.",
 "all graphs, all datasets",
 "needs the interplay of two constructors' defaults over all graphs",
 [f"{PR}: Dataset.add_graph, Dataset.remove_graph, Graph.__init__"])
p("C16","Iteration reports each quad under the name it is stored under",
 "Iterating a dataset yields the same quads as match() with no arguments, for every history of add, remove, match and add_graph.",
 "all histories including add_graph of one Graph object under several names and later writes to that object",
 "needs aliasing of graph objects between names",
 [f"{PR}: Dataset.__iter__, Dataset.match, Dataset.add_graph"])
p("C17","Triple, Quad and Literal are faithful records",
 "q_as_t and t_as_q are mutually inverse up to the graph name; _asdict/_make/_replace round-trip and _replace changes exactly the named fields, raising ValueError on an unknown field; _make raises TypeError on a wrong arity.",
 "all terms, all keyword sets",
 "all subsets of fields and all values",
 [f"{PR}: Triple, Quad, Literal, q_as_t, t_as_q"])
# ---- strings
p("C18","nt_escape output is safe inside a quoted N-Triples literal",
 "For every string, nt_escape(s) consists only of printable ASCII, contains no line break, and every quote and backslash in it belongs to a well-formed escape sequence, so the closing quote written after it is the first unescaped quote.",
 "all Python strings over all of Unicode (lone surrogates included)",
 "the domain is all strings; an injection needs one bad character in the right place",
 [f"{SE}: nt_escape", f"{PR}: Literal.toNT"])
p("C19","decode_literal inverts nt_escape",
 "decode_literal(nt_escape(s)) == s for every string s.",
 "all Python strings",
 "1.1 million code points times all contexts",
 [f"{SE}: nt_escape", f"{UT}: decode_literal, process_escape"])
p("C20","Different literals are written differently",
 "Literal.toNT() is injective: two literals with different value, language or datatype have different N-Triples forms.",
 "all pairs of literals",
 "quantifies over pairs",
 [f"{PR}: Literal.toNT", f"{SE}: nt_escape"])
p("C21","decode_literal is total and transparent",
 "decode_literal leaves every backslash-free string unchanged, distributes over concatenation with a backslash-free prefix, and raises only for a \\U escape above U+10FFFF.",
 "all strings",
 "regular-expression scanning over all strings",
 [f"{UT}: decode_literal, process_escape, ESCAPE_MAP"])
p("C22","quote_normalized_iri is an idempotent ASCII encoding",
 "For every surrogate-free string the result is ASCII, contains only unreserved and reserved URI characters and '%', leaves such strings unchanged, and quoting twice equals quoting once; with a lone surrogate it raises UnicodeEncodeError.",
 "all strings",
 "all of Unicode",
 [f"{UT}: quote_normalized_iri, percent_encode"])
p("C23","NamedNode.toNT is always a legal IRIREF",
 "For every surrogate-free IRI string, toNT() is '<' + characters allowed in an N-Triples IRIREF + '>', and reading it back gives the percent-encoded IRI, which is the original iff that contains only safe characters.",
 "all IRI strings",
 "all of Unicode",
 [f"{PR}: NamedNode.toNT", f"{UT}: quote_normalized_iri", f"{NT}: NTriplesTransformer.iriref"])
p("C24","Different IRIs are written differently",
 "NamedNode.toNT() is injective.",
 "all pairs of IRIs",
 "quantifies over pairs",
 [f"{PR}: NamedNode.toNT"])
p("C25","normalize_iri is idempotent",
 "normalize_iri(normalize_iri(u)) == normalize_iri(u) whenever the first call succeeds.",
 "all strings",
 "needs percent signs that combine with decoded neighbours",
 [f"{UT}: normalize_iri, percent_decode, percent_encoding_re"])
p("C26","Quoting a normalized IRI loses nothing",
 "normalize_iri(quote_normalized_iri(n)) == n for every normalized IRI n.",
 "all normalized IRIs",
 "all of Unicode, all percent-encoding contexts",
 [f"{UT}: normalize_iri, quote_normalized_iri"])
p("C27","percent_encode is reversible UTF-8",
 "Percent-decoding percent_encode(c) gives c for every character outside the reserved set; the encoding is exactly the UTF-8 bytes in upper-case hex.",
 "all Unicode scalar values",
 "1.1 million characters, variable length encodings",
 [f"{UT}: percent_encode, percent_decode"])
p("C28","Blank node labels are distinct and legal",
 "Two different live blank nodes have different string forms, and every string form is a legal BLANK_NODE_LABEL for the N-Triples parser.",
 "all object identities",
 "all memory addresses",
 [f"{PR}: BlankNode.value, BlankNode.__str__, BlankNode.toNT", f"{NT}: grammar BLANK_NODE_LABEL"])
# ---- CURIE
p("C29","parse_curie follows its three documented rules",
 "An unbracketed string whose prefix is a registered URI scheme is returned unchanged; otherwise the result is namespace + reference for the bound prefix, or default namespace + name when there is no reference; otherwise ValueError. Brackets only suppress the first rule. parse_curies yields these results in order, up to the first that raises.",
 "all strings, all prefix maps",
 "all strings and maps, including empty, one-character and bracketed ones",
 [f"{PR}: parse_curie, Prefix.__call__", f"{US}: schemes"])
p("C30","to_curie picks the longest matching namespace",
 "to_curie(uri, ns) replaces the longest namespace of ns that is a prefix of uri (first inserted on ties) and returns uri unchanged iff no namespace is a prefix of it.",
 "all uris, all prefix maps",
 "all maps with overlapping namespaces",
 [f"{PR}: to_curie, PrefixMap.shrink"])
p("C31","resolve inverts shrink",
 "prefixes.resolve(prefixes.shrink(iri)) == iri for every iri and prefix map.",
 "all iris, all prefix maps",
 "needs repeated namespaces, scheme-named prefixes, empty local parts",
 [f"{PR}: PrefixMap.resolve, PrefixMap.shrink, to_curie, parse_curie"])
p("C32","addAll respects override",
 "PrefixMap.addAll / TermMap.addAll: without override existing bindings never change and missing ones are added; with override all bindings of the argument win; other bindings are untouched.",
 "all pairs of maps",
 "all maps",
 [f"{PR}: PrefixMap.addAll, TermMap.addAll, Profile.importProfile"])
p("C33","TermMap resolve and shrink",
 "resolve(shrink(iri)) == iri whenever some term is bound to iri; an unknown term resolves to default+term, or None without default; shrink of an unknown iri returns it unchanged.",
 "all maps, all terms",
 "all maps, including several terms for one iri",
 [f"{PR}: TermMap.resolve, TermMap.shrink, TermMap.setDefault"])
p("C34","Every Profile resolves rdf: and xsd:",
 "A Profile built from any prefixes and terms binds rdf and xsd, keeps a caller's own bindings of them, and resolve dispatches on the presence of a colon.",
 "all initial prefix and term maps",
 "all maps, including empty ones (falsy)",
 [f"{PR}: Profile.__init__, Profile.resolve"])
p("C35","Copies of an environment's maps are independent, its profile is shared",
 "createPrefixMap/createTermMap return maps whose later changes do not affect the environment; createProfile shares the prefix map of the environment, so changes through either are visible in both. With empty=True the new objects have none of the environment's bindings.",
 "all histories of bindings on either object",
 "aliasing over histories",
 [f"{PR}: RDFEnvironment.createProfile, createPrefixMap, createTermMap"])
p("C36","lang_match is a reflexive symmetric prefix test",
 "lang_match is reflexive and symmetric, matches a primary tag with any of its regional forms, never matches None with a tag, and two tags with different regions do not match.",
 "all language tags and None",
 "all pairs of strings",
 [f"{PR}: lang_match"])
# ---- N-Triples
p("C37","N-Triples round trip",
 "Writing any graph with serialize_ntriples and parsing the text with ntriples_parser gives the same graph up to a one-to-one renaming of blank nodes.",
 "all graphs of serialisable triples, all iteration orders",
 "all graphs, all of Unicode in literals",
 [f"{SE}: serialize_ntriples", f"{PR}: Triple.__str__", f"{NT}: grammar, NTriplesTransformer", f"{LB}: LarkParser.parse"])
p("C38","One line per triple",
 "serialize_ntriples writes exactly one '\\n' per triple, at its end, for every graph; so concatenating two files is the file of the concatenated triple sequence.",
 "all graphs",
 "a single unescaped line break in any literal, IRI or label breaks framing",
 [f"{SE}: serialize_ntriples", f"{PR}: Triple.__str__"])
p("C39","Parsing a stream equals parsing its text",
 "ntriples_parser.parse(stream) yields the same graph as parsing the stream's whole content as a string.",
 "all texts",
 "needs blank lines, carriage returns and errors at all positions",
 [f"{LB}: LarkParser.line_by_line_parser, LarkParser.parse"])
p("C40","A syntax error in a string leaves the sink untouched",
 "If ntriples_parser.parse(string, graph) raises, graph is as before; for a stream the graph contains exactly the triples of the lines before the offending one.",
 "all texts, all sinks, all error positions",
 "crash point in every position of every text",
 [f"{LB}: LarkParser.parse"])
p("C41","Blank node labels are scoped to one parse",
 "Within one parse equal labels denote the same blank node and different labels different ones; blank nodes of different parses (or those already in the sink) are never shared.",
 "all documents, all sequences of parses",
 "all documents and parse sequences",
 [f"{PB}: BaseParser.make_blank_node, _prepare_parse, _cleanup_parse", f"{NT}: NTriplesTransformer.blank_node_label"])
p("C42","Every BCP47 language tag can be read back",
 "A literal with any language tag of the form letters('-' alphanumerics)* survives the N-Triples round trip.",
 "all language tags",
 "tests only use en-US and fr",
 [f"{NT}: grammar LANGTAG", f"{PR}: Literal.toNT"])
p("C43","N-Quads round trip",
 "Writing any dataset with serialize_nquads and parsing it with nquads_parser gives the same quads.",
 "all datasets",
 "all datasets",
 [f"{SE}: serialize_nquads", f"{PR}: Quad.__str__", f"{NQ}: NQuadsTransformer"])
p("C44","IRIs with white space are rejected",
 "The N-Triples parser rejects an IRIREF that contains a space or tab.",
 "all documents",
 "interaction of a token-level %ignore with a rule-level iriref",
 [f"{NT}: grammar iriref, %ignore"])
# ---- Resource
p("C45","Reading back what was set",
 "For a non-scalar predicate, after r[p] = values succeeds, r[p] yields exactly those values, each once; for a scalar predicate of a class whose lang is not the empty string, after r[p] = v with v a resource or a literal without language, r[p] is v. (Reading raises TypeError if the classes registered for a node's types cannot be combined.)",
 "all graphs, subjects, predicates, values",
 "all prior contents of the graph",
 [f"{RD}: Resource.__setitem__, Resource.__getitem__, literalize, objectify_value"])
p("C46","Setting touches only the addressed statements",
 "r[key] = v removes only triples with r's subject and the key's predicate, and adds only triples with that subject and predicate.",
 "all graphs and keys, including calls that raise",
 "all graphs, all key shapes",
 [f"{RD}: Resource.__setitem__, _objects_for_implicit_set, _objects_for_explicit_set"])
p("C47","Language versions of a scalar coexist",
 "Assigning r[p] = literal with language L to a scalar predicate whose objects carry at most one of language and datatype replaces the versions whose language matches L and removes resources and untagged or datatyped literals, but keeps every literal in a language that does not match L.",
 "all graphs, all languages",
 "all mixtures of existing values",
 [f"{RD}: Resource.__setitem__, _objects_for_implicit_set, objects_by_lang"])
p("C48","Deleting a key removes exactly what the key shows",
 "del r[key] removes exactly the triples for the objects that r[key] selects, never raises for well-typed graphs, and afterwards key not in r (for filters without fallback).",
 "all graphs and keys",
 "all graphs, all key shapes",
 [f"{RD}: Resource.__delitem__, _objects_for_key"])
p("C49","`in` agrees with reading",
 "key in r iff r's selection for key is non-empty.",
 "all graphs and keys",
 "all graphs, all key shapes",
 [f"{RD}: Resource.__contains__, _objects_for_key"])
p("C50","erase removes the resource and nothing else",
 "After r.erase() no triple has r's subject, and every other triple is kept.",
 "all graphs and subjects",
 "all graphs",
 [f"{RD}: Resource.erase"])
p("C51","new makes an instance",
 "After C.new(graph, s), C(graph, s).is_a() is true and only type triples for s were added; without a subject the new resource is a fresh blank node.",
 "all graphs, classes and subjects",
 "all graphs",
 [f"{RD}: Resource.new, Resource.is_a"])
p("C52","in_graph returns the instances",
 "C.in_graph(graph) is exactly the set of subjects that have all of C's rdf classes.",
 "all graphs, all classes with any number of rdf classes, all iteration orders",
 "needs classes with several rdf types and graphs where some type has no instance",
 [f"{RD}: Resource.in_graph"])
p("C53","classify picks the registered class",
 "classify returns literals unchanged, a plain Resource for a node without a registered type, the registered class for exactly one registered type, and for several a class that inherits from all of them; the same type set always gives the same class.",
 "all graphs, registries, nodes and call histories",
 "all histories of dynamic class creation",
 [f"{RD}: Resource.classify, MetaResource, register_class"])
p("C54","Resource equality is an equivalence consistent with hash",
 "Resource == is reflexive, symmetric and transitive among resources, IRIs and strings, and equal values have equal hashes.",
 "all resources and strings",
 "quantifies over triples of values",
 [f"{RD}: Resource.__eq__, Resource.__hash__"])
p("C55","copy duplicates a resource's triples",
 "r.copy(t) adds (t,p,o) for each (r,p,o) and nothing else.",
 "all graphs and targets",
 "all graphs",
 [f"{RD}: Resource.copy"])
p("C56","An unresolvable predicate name is an error",
 "r['name'] with a name that has no prefix and no registered term raises rather than selecting other predicates' values.",
 "all graphs, all names",
 "needs keys outside every map",
 [f"{RD}: Resource.resolve, _interpret_key, objects", f"{PR}: Profile.resolve, TermMap.resolve, Graph.match"])
p("C57","Prefixes and scalars are inherited",
 "A Resource subclass sees all prefixes and scalars of its bases; its own prefixes win over inherited ones; later bases win over earlier ones.",
 "all class hierarchies",
 "all hierarchies",
 [f"{RD}: MetaResource.__new__"])
p("C58","Iterating an RDF list yields its elements in order",
 "For a well-formed rdf:first/rdf:rest chain ending in rdf:nil, list(List(graph, head)) is the sequence of its elements.",
 "all lists, all element terms, all surrounding graphs",
 "all lengths and element kinds",
 [f"{RD}: List.__iter__, Resource.__getitem__"])
p("C59","Object filters partition the objects",
 "Every object of a predicate is selected by exactly one of: has a language, has a datatype, is bare, is a resource - for literals that do not carry both language and datatype.",
 "all graphs",
 "all graphs",
 [f"{RD}: objects_by_lang, objects_by_datatype, objects_by_type, bare_literals"])
# ---- Turtle
p("C60","Turtle string escaping is reversible",
 "The Turtle form of a string literal, read by the Turtle grammar, is one string token that decodes to the original string.",
 "all strings",
 "needs quotes, backslashes and line breaks",
 [f"{SE}: turtle_string_escape", f"{UT}: ECHAR_MAP", f"{TU}: TurtleTransformer.string"])
p("C61","Any graph can be written as Turtle",
 "serialize_turtle succeeds on every graph of well-formed triples, including blank nodes and lists of IRIs.",
 "all graphs",
 "needs blank nodes, lists of IRIs",
 [f"{SE}: turtle_repr, serialize_turtle"])
p("C62","Turtle terms denote the node they were written for",
 "turtle_repr(node), read in the context of the written @prefix and @base declarations, denotes node.",
 "all nodes, profiles, bases",
 "all IRIs and profiles",
 [f"{SE}: turtle_repr, escape_prefix_local"])
p("C63","The Turtle parser emits the triples of the document",
 "For every parse tree the triples produced are those of the Turtle semantics: one triple per (subject, verb, object), plus the triples of nested property lists and collections.",
 "all parse trees of any nesting depth",
 "unbounded nesting",
 [f"{TU}: TurtleTransformer, unpack_predicate_object_list"])
p("C64","Turtle collections read back as lists",
 "After parsing a collection of n objects, List iteration from its head node yields the n objects in order.",
 "all collections of any length and nesting",
 "unbounded length and nesting",
 [f"{TU}: TurtleTransformer.collection", f"{RD}: List.__iter__"])
p("C65","Directives affect only later statements",
 "A prefix or base directive affects exactly the IRIs that come after it in the document; the latest binding wins.",
 "all directive/statement sequences",
 "all documents",
 [f"{TU}: TurtleTransformer.prefix_id, base, prefixed_name, iri"])
p("C66","The Turtle parser accepts file-like objects",
 "turtle_parser.parse(stream) gives the graph of the stream's content.",
 "all streams",
 "documented but unreachable branch",
 [f"{TU}: parse"])
p("C67","smart_urljoin keeps an empty fragment",
 "smart_urljoin(base,url) ends in '#' whenever url does, and otherwise equals urljoin(base,url).",
 "all base and url strings, any urljoin",
 "all strings",
 [f"{UT}: smart_urljoin"])
# ---- SPARQL
p("C68","A SPARQL request carries the query exactly once, by the configured method",
 "query() issues exactly one request: POST with the query as body if post_directly, POST with form parameters if post_queries, else GET with URL parameters; the query text occurs in exactly one place, with the caller's graph parameters under the protocol's names.",
 "all server configurations, queries and graph arguments",
 "all configuration combinations",
 [f"{SP}: _SelectOrUpdate.execute, _Select, SPARQLServer.query"])
p("C69","Updates are always POSTed",
 "update() never issues a GET and uses the update protocol's parameter names, for every configuration.",
 "all server configurations and updates",
 "all configurations",
 [f"{SP}: _Update, SPARQLServer.update"])
p("C70","Failed responses raise",
 "A status other than 200 and 204 raises SPARQLQueryException; query results are decoded by content type and an unknown type raises UnknownSPARQLReturnTypeException.",
 "all responses",
 "all status codes and content types",
 [f"{SP}: _SelectOrUpdate.execute, _Select.execute"])
p("C71","Applying differences(a,b) to a gives b",
 "(a minus removals) plus additions equals b; removals are in a and not b, additions in b and not a; statements with an excluded predicate occur in neither.",
 "all pairs of graphs, all exclusion lists",
 "all pairs of graphs",
 [f"{SP}: differences"])
p("C72","A changeset graph describes exactly the differences",
 "The removals and additions read off the reified statements of changeset(a,b,uri) are exactly differences(a,b).",
 "all pairs of graphs",
 "all pairs of graphs",
 [f"{SP}: changeset, reify"])
p("C73","Graph store operations reach the server",
 "get/put/post/delete/patch issue their HTTP request.",
 "all configurations and graphs",
 "dead code paths",
 [f"{SP}: UpdateableGraphStore, PatchableGraphStore"])
# ---- JSON-LD, RDF/XML, util
p("C74","JSON-LD conversion keeps every statement",
 "The quads added by jsonld_parser are exactly the images of the statements returned by the JSON-LD processor, with equal blank node identifiers mapped to one blank node across all graphs of a document and different ones to different nodes.",
 "all processor outputs",
 "all outputs",
 [f"{JL}: PyLDLoader.process_jobj, process_triple_fragment, make_quad"])
p("C75","A JSON-LD graph named by a blank node keeps its identity",
 "If a named graph's name is a blank node identifier, the quads' graph is the same blank node as in the statements.",
 "all processor outputs",
 "needs blank graph names",
 [f"{JL}: PyLDLoader.process_jobj"])
p("C76","RDF/XML documents can be parsed",
 "RDFXMLParser.parse accepts documents with root rdf:RDF.",
 "all documents",
 "no test touches it",
 [f"{RX}: RDFXMLParser.parse"])
p("C77","one_or_none",
 "one_or_none returns None for an empty list, the element of a singleton, and raises ValueError otherwise.",
 "all lists",
 "all lengths",
 [f"{UT}: one_or_none"])
p("C78","grouper chunks without loss",
 "Concatenating the groups of grouper(xs, n) gives xs followed by fewer than n fill values, and every group has length n.",
 "all sequences, all n > 0",
 "all lengths",
 [f"{UT}: grouper"])
p("C79","Integer literals carry their value",
 "Literal(n) of a Python int has datatype xsd:integer and a lexical form that denotes n, so different ints give different literals; an explicit datatype wins over the automatic one; a str keeps its arguments; a value of any other type raises KeyError.",
 "all ints, all languages and datatypes",
 "all integers, including negative ones and zero",
 [f"{PR}: Literal.__new__, Literal.types"])
p("C80","The N-Triples and N-Quads parsers raise documented kinds of error",
 "Whatever the text, parse() either succeeds or raises UnexpectedInput, or ValueError/OverflowError for a \\U escape that is no code point; a text without the letter U raises only UnexpectedInput; a stream may in addition raise RuntimeError.",
 "all texts, all sinks",
 "all malformed texts",
 [f"{NT}: grammar", f"{LB}: LarkParser.parse", f"{UT}: decode_literal"])
p("C81","N-Triples comments are ignored",
 "A line that begins with # is skipped (N-Triples, section 2.5 of the recommendation).",
 "all documents with comment lines",
 "any number and position of comments",
 [f"{NT}: grammar"])
p("C82","Concatenated documents read as the statements of both",
 "If two N-Triples texts parse and the first consists of complete non-blank lines, the concatenation parses to the statements of the first followed by those of the second.",
 "all pairs of documents",
 "all pairs",
 [f"{NT}: grammar", f"{LB}: LarkParser.parse"])
p("C83","What a key selects",
 "r[name] for a non-scalar predicate selects all objects; r[name, filter] exactly the objects the filter describes (for a non-scalar predicate and a filter that is not empty also all resources), each once; r[name] for a scalar predicate the objects of the first non-empty kind among: in the class's language, resources, datatyped literals, plain literals (all objects if the class's language is None, the plain literals if it is empty); a class filter exactly the nodes classified as instances of the class.",
 "all graphs, classes, names and filters",
 "all mixtures of objects, all filters",
 [f"{RD}: _objects_for_key, _interpret_key, objects_by_lang, objects_by_datatype, objects_by_type"])
p("C84","Assigning through a language or datatype filter replaces what the filter shows",
 "For a non-scalar predicate, r[name, filter] = values, with literals of the filter's language or datatype or resources of the filter's class, leaves exactly the new values and the old objects that r[name, filter] does not show; a literal not in the filter's language is refused with ValueError and changes nothing. (For the filters None, the empty string and xsd:string see C87.)",
 "all graphs, filters and values",
 "all mixtures of objects",
 [f"{RD}: Resource.__setitem__, _objects_for_explicit_set, check_objects"])
p("C85","References can be assigned under any filter",
 "r[name, filter] = resource succeeds for every filter (the docstring of __setitem__: object references are always acceptable).",
 "all graphs, filters and resources",
 "all filters",
 [f"{RD}: Resource.__setitem__, check_objects"])
p("C86","Assigning through a filter to a scalar predicate",
 "Values that fit the filter: a language filter replaces the literals in that language, the datatyped literals and the resources and keeps the other literals; a datatype or class filter replaces every object. (For the filters None, the empty string and xsd:string see C87.)",
 "all graphs whose objects carry at most one of language and datatype",
 "all mixtures of objects",
 [f"{RD}: Resource.__setitem__, _objects_for_explicit_set"])
p("C87","The filters for everything and for plain literals can be assigned through",
 "If r[name, filter] shows plain literals, r[name, filter] = plain literal succeeds.",
 "all graphs and filters",
 "needs the filters None, '' and xsd:string on the writing side",
 [f"{RD}: Resource.__setitem__, check_objects, _objects_for_explicit_set"])
p("C88","decode_literal gives the string the text denotes",
 "For every text the grammar allows between quotes, decode_literal returns the string that the escapes of the recommendation (ECHAR table, UCHAR code points) denote, and raises ValueError or OverflowError exactly if it contains a \\U escape that is no code point; a text denotes at most one string.",
 "all string bodies",
 "all sequences of escapes and characters",
 [f"{UT}: decode_literal, process_escape, ESCAPE_MAP"])
p("C89","The parsers read a string as the same literal",
 "A string without datatype, with or without language tag, is the same Literal whether it is read from N-Triples or from JSON-LD.",
 "all strings and language tags",
 "relates two parsers",
 ["src/pymantic/parsers/jsonld.py: PyLDLoader.process_triple_fragment", f"{NT}: literal"])
p("C90","jsonld_parser.document.parse reads documents",
 "document.parse(text) and document.parse_file(f) accept every document the JSON-LD processor accepts, whatever calls came before.",
 "all documents, all call histories",
 "the outcome depends on the previous calls",
 ["src/pymantic/parsers/jsonld.py: PyLDLoader._Loader, parse_json", "src/pymantic/parsers/base.py: _prepare_parse, _cleanup_parse"])
p("C91","Absolute references denote themselves whatever the base",
 "smart_urljoin(base, iri) is iri for every absolute iri.",
 "all bases, all absolute IRIs",
 "all pairs of base and IRI",
 [f"{UT}: smart_urljoin"])
p("C92","Relative references are resolved as RFC 3986 says",
 "For a hierarchical base with authority, smart_urljoin(base, ref) is the target of RFC 3986 section 5.2, including dot segments, queries, fragments and empty references.",
 "all bases and relative references",
 "all paths with dot segments at any depth",
 [f"{UT}: smart_urljoin"])
p("C93","The Turtle parser accepts exactly the sentences of its grammar",
 "A sequence of Turtle tokens is accepted if and only if it is the sequence of some document tree, and then that tree, and no other, is what is interpreted: no document has two readings.",
 "all token sequences and all document trees, of any nesting",
 "unbounded nesting of collections and property lists; ambiguity is a property of the whole language",
 [f"{TU}: grammar, turtle_lark"])
p("C94","Parsing Turtle adds all the triples of the document or none",
 "turtle_parser.parse(text, graph) either raises and leaves the graph as it was, or adds the same triples whatever the graph held before, and keeps what it held.",
 "all texts, graphs, base IRIs and points of failure",
 "all positions of an error in all documents",
 [f"{TU}: parse, TurtleTransformer"])
p("C95", "Only Turtle is accepted", "Every text the Turtle parser accepts is, apart from white space and comments as the recommendation defines them, the sequence of the W3C terminals of the document that is interpreted: every character belongs to a token, to white space or to a comment.", "all texts", "infinitely many texts; a wrongly accepted one looks like any other", [f"{TU}: grammar, turtle_lark"])
p("C96", "The layout of a Turtle document does not matter", "A document written with any white space and comments between its tokens (where needed to separate them) is read as that document, whatever the layout.", "all documents of any nesting and all layouts", "unbounded documents and layouts", [f"{TU}: grammar, turtle_lark"])
p("C97","A graph written as Turtle is read back",
 "If serialize_turtle writes a graph without blank nodes, then parsing its output with the Turtle parser gives exactly the triples of the graph, each once.",
 "all histories of a graph, all terms, profiles and bases",
 "needs every combination of terms, prefixes, shared subjects and predicates, and removals before writing",
 [f"{SE}: serialize_turtle, turtle_repr, turtle_sorted_names", f"{TU}: parse"])
p("C98","The Turtle text is determined by the triples",
 "serialize_turtle writes the same text for two graphs that contain the same triples, whatever the order in which triples were added and removed and the iteration order of sets.",
 "all pairs of histories, all iteration orders, profiles, bases",
 "a test sees one history and one hash seed",
 [f"{SE}: serialize_turtle, turtle_sorted_names"])

p("C99","The operations of a Profile",
 "setTerm, setPrefix, setDefaultVocabulary and setDefaultPrefix change exactly the binding they name; importProfile adds the other profile's prefixes and terms, its own bindings winning unless override is given, and does not import the default vocabulary. Another profile sees the change exactly in the maps it shares.",
 "all profiles, all histories of operations, all sharing of maps",
 "needs arbitrary maps and aliasing",
 [f"{PR}: Profile.setDefaultVocabulary, setDefaultPrefix, setTerm, setPrefix, importProfile"])
p("C100","What normalize_iri does",
 "normalize_iri decodes every maximal run of percent escapes of bytes above 0x20 as UTF-8, keeps reserved characters and the percent sign escaped in upper case, keeps everything else (stray percent signs and escaped controls and spaces included) as it is, and fails with UnicodeDecodeError exactly if a run is not UTF-8.",
 "all strings",
 "all byte sequences and mixtures of escapes",
 [f"{UT}: normalize_iri, percent_decode, percent_encoding_re"])

p("C101","What r[key] is",
 "r[name] of a non-scalar predicate, and r[name, None] of any predicate, give a generator over all objects; r[name, filter] of a non-scalar predicate one over the objects the filter shows. r[name] and r[name, filter] of a scalar predicate, and get_scalar always, give one value: None if there is no object in question, the object if there is one, ValueError if there are several. For a scalar r[name] the objects in question are those of the first kind present: in the class's language, nodes, typed literals, plain literals (all objects if the class's language is None, the plain literals if it is empty). (TypeError if the classes of a node cannot be combined.)",
 "all graphs, classes, resources, keys",
 "combinations of kinds of objects, filters and scalars",
 [f"{RD}: Resource.__getitem__, get_scalar, _objects_for_key"])
p("C102","object_of is the inverse of reading",
 "r.object_of() lists each subject and predicate of a triple whose object is r exactly once; r.object_of(name) the subjects for that predicate; and y is among them exactly if r is among y[name, None].",
 "all graphs, classes, resources, predicate names",
 "all pairs of resources in all graphs",
 [f"{RD}: Resource.object_of, __getitem__"])
p("C103","Every resource has a text",
 "str(r) always gives a text: the label, or else the subject.",
 "all graphs and resources, any labels",
 "all combinations of labels",
 [f"{RD}: Resource.__str__"])
p("C104","Explicit CURIEs can be read back",
 "parse_curie(to_curie(iri, namespaces, explicit=True), namespaces) is iri for every iri in one of the namespaces; parse_curies gives for each CURIE in turn what parse_curie gives, up to the first that raises.",
 "all namespaces and IRIs, all lists",
 "all strings and prefix maps",
 [f"{PR}: to_curie, parse_curie, parse_curies"])
p("C105","The environment's constructors",
 "createGraph(triples) and createDataset(quads) hold exactly what they are given, toArray is their set, and createGraph(g.toArray()) has the triples of g; createBlankNode gives a different node each time; the other constructors and en, de keep the strings and terms they are given (other values of a literal are converted, C79).",
 "all sequences of triples and quads, all histories of a graph",
 "sequences of any length with repetitions",
 [f"{PR}: RDFEnvironment.createGraph, createDataset, createBlankNode, Dataset.toArray, Graph.toArray", f"{UT}: en, de"])

p("C106","The N-Triples and N-Quads parsers accept exactly the sentences of their grammar",
 "A string is parsed without an exception exactly when it is a sentence of a stated grammar (the W3C grammar with the listed departures), each sentence has one reading, and what is added to the sink are the statements of that reading in order, with one new blank node per label.",
 "all texts, N-Triples and N-Quads, any sink",
 "both directions over all texts: acceptance of every sentence, rejection of everything else",
 [f"{NT}: grammar, NTriplesTransformer", f"{NQ}: NQuadsTransformer", f"{LB}: LarkParser.parse"])

p("C107","Only N-Triples is read",
 "Every text the N-Triples (N-Quads) parser accepts is N-Triples (N-Quads) by the W3C recommendation and is read as what it means there.",
 "all texts",
 "rejection of all texts outside the grammar",
 [f"{NT}: grammar (iriref, PN_CHARS_BASE, LANGTAG)"])

p("C108","All N-Triples is read",
 "Every N-Triples (N-Quads) document of the W3C recommendation is accepted and adds the statements it makes.",
 "all documents of the W3C grammars",
 "all documents; tests cover the published test suite only",
 [f"{NT}: grammar (quad, graph, PN_CHARS_BASE, LANGTAG)"])

p("C109","N-Triples documents can be read as Turtle",
 "The Turtle parser reads every N-Triples document of the W3C recommendation (whose IRIs have only characters of IRIs) as the statements it makes: IRIs resolved against the base, strings without language or datatype as xsd:string, one new blank node per label.",
 "all N-Triples documents, all bases",
 "all documents, including comments, escapes and every line end",
 [f"{TU}: grammar, TurtleTransformer"])

p("C110","The two parsers agree on what both accept",
 "A text that both the N-Triples parser and the Turtle parser accept makes the same statements in both, up to the names of blank nodes and the datatype xsd:string of plain strings.",
 "all texts",
 "all texts in the intersection of two languages",
 [f"{NT}: grammar", f"{TU}: grammar"])

p("C111","What serialize_ntriples writes is N-Triples",
 "For every graph of RDF triples with language tags of the form of BCP47 the text written is a document of the W3C N-Triples grammar, with one statement for each triple in the order the graph yields them, stating the triple (with the losses of C37), and different labels for different blank nodes.",
 "all such graphs, all iteration orders",
 "all of Unicode in literals and IRIs",
 [f"{SE}: serialize_ntriples, nt_escape", f"{PR}: Triple.__str__, NamedNode.toNT, Literal.toNT, BlankNode.toNT"])

p("C112","A graph written as N-Triples can be read as Turtle",
 "Writing any graph with serialize_ntriples and reading the text with turtle_parser gives the same graph, up to a one-to-one renaming of blank nodes and the datatype xsd:string of plain strings.",
 "all graphs of well-formed RDF triples, all iteration orders",
 "all graphs; writer and parser come from different modules",
 [f"{SE}: serialize_ntriples", f"{TU}: TurtleTransformer"])

p("C113","The SKOS vocabulary module can be used",
 "Importing pymantic.vocab.skos succeeds whatever classes and prefixes the program has defined before; afterwards nodes of type skos:Concept and skos:ConceptScheme are given the classes Concept and ConceptScheme, for which skos:prefLabel is a scalar.",
 "all histories of class definitions, registrations and changes to the global profile",
 "depends on the state of the class registry and of the global profile at import time",
 ["src/pymantic/vocab/skos.py: SKOSResource, Concept, ConceptScheme", f"{RD}: MetaResource.__new__, register_class"])

p("C114","!= is the negation of ==",
 "For all resources, IRIs, strings, blank nodes and literals a and b, `a != b` is true exactly if `a == b` is false; so != is symmetric and nothing differs from itself.",
 "all pairs of values",
 "all pairs, including those where one side's method gives NotImplemented",
 [f"{RD}: Resource.__eq__, Resource.__ne__"])

p("C115","as_ changes only the class",
 "r.as_(C) has the class C and the subject of r; it equals r, hashes alike, and shows what any other resource with that subject shows when viewed as C. as_ of as_ is as_. Resource(graph, s) has the subject s if s is a node, and NamedNode(s) otherwise.",
 "all nodes, classes, graphs and keys",
 "all chains of views",
 [f"{RD}: Resource.__init__, Resource.as_"])

p("C116","Parsing bytes is parsing the text they encode",
 "For the N-Triples, N-Quads and Turtle parsers, parse_string on the UTF-8 encoding of a text does exactly what parse does on the text; any bytes that are not the UTF-8 encoding of a text (overlong forms, surrogates, other encodings) raise UnicodeDecodeError and leave the graph as it was.",
 "all byte strings, all texts, all sinks",
 "all byte strings, including every malformed one",
 [f"{LB}: LarkParser.parse_string", f"{TU}: parse, parse_string"])

p("C117","Parsing without a graph gives the statements of the document",
 "parse(text) without a graph returns a new object that contains exactly the statements of the document, and each of them can be found with match by its subject and predicate; it raises exactly when parse with a graph does.",
 "all texts, for each of the three parsers",
 "all documents, including several quads that share a triple",
 [f"{LB}: LarkParser.parse", f"{PB}: BaseParser._make_graph", f"{TU}: parse"])

p("C118","Graphs with blank nodes survive writing as Turtle with the caller's names for them",
 "If serialize_turtle, called with a bnode_name_generator that gives different blank node labels, writes a graph of well-formed triples, then reading the text gives the same graph up to a one-to-one choice of new blank nodes, with or without a base.",
 "all graphs and histories, all profiles, bases, name generators, hash orders",
 "all graphs and all bases; needs that names given in traversal order are read back consistently",
 [f"{SE}: serialize_turtle, turtle_repr, turtle_sorted_names", f"{TU}: parse"])

p("C119","An RDF/XML description of a resource gives its triples",
 "When RDFXMLParser handles an element of a document, each property element with rdf:resource gives the triple of the described resource, the property's IRI (namespace and local name) and the value resolved against the base; an element other than rdf:Description also gives its type.",
 "all elements, namespaces, attributes and bases, all sinks",
 "all elements and their combinations of attributes; parse itself never gets this far (C76), so no test of parse reaches it",
 ["src/pymantic/parsers/rdfxml.py: RDFXMLParser._handle_resource, _determine_subject, _resolve_tag, _resolve_uri"])

p("C120","The IRIs read from Turtle have only characters of IRIs",
 "Every IRI in the triples that turtle_parser.parse(text, base=...) gives (IRI nodes and datatypes) has only characters that may stand in an IRI reference, if the base given has: no controls, spaces, or any of <>\"{}|^`\\\\.",
 "all texts (strings and bytes), all legal bases",
 "all documents: escapes, prefixed names, nested bases and prefixes built from each other",
 ["src/pymantic/parsers/lark/turtle.py: LEGAL_IRI, TurtleTransformer.decode_iriref, iri, prefixed_name", "src/pymantic/util.py: smart_urljoin"])

p("C121","Strings, IRI references and prefixed names of a Turtle document stand for what the recommendation says",
 "In a document the parser accepts, a string (in any of the four quotations) stands for the characters its escapes denote; an IRI reference for the characters its escapes denote, resolved against the base in force; a prefixed name for the namespace its prefix has there followed by the local name with its backslashes removed.",
 "all documents, all positions in them, all legal bases",
 "all documents and combinations of escapes; prefixes whose namespace changes",
 ["src/pymantic/parsers/lark/turtle.py: TurtleTransformer.string, iri, prefixed_name", "src/pymantic/util.py: decode_literal, smart_urljoin"])

p("C122","What the name of a property stands for",
 "Resource.resolve(name), which resource[name], register_class and List go by: a non-empty name stands for what the class's prefixes (its own, else those of its last base that has the prefix) make of it as a CURIE; else, if it has a colon, for what the prefixes of the global profile make of it, else it raises ValueError; without a colon it stands for the term of the global profile, or None. After import the prefixes rdf, rdfs and xsd are known and no other.",
 "all names, class hierarchies and global profiles",
 "all combinations of bindings in classes, bases and the profile",
 ["src/pymantic/rdf.py: Resource.resolve, MetaResource.__new__", "src/pymantic/primitives.py: Profile.resolve, parse_curie"])

p("C123","Threads may share a parser",
 "When several threads call parse on the same module-level parser (ntriples_parser, nquads_parser), on strings or streams, each call hands to its sink what it would hand over alone, up to the identities of blank nodes; no call is disturbed, and no blank node is shared between two calls.",
 "all documents (also malformed ones), any number of threads and calls, all interleavings of their steps",
 "races show only in some schedules; tests see a few",
 ["src/pymantic/parsers/base.py: BaseParser._call_state, _prepare_parse, _cleanup_parse, make_blank_node", "src/pymantic/parsers/lark/base.py: LarkParser.parse"])

p("C124","A parse within a parse",
 "A sink (in its addAll) or a stream (while it gives its lines) may itself call the parser that is reading for it: neither call is disturbed.",
 "all documents, all positions of the inner call",
 "any position in any document",
 ["src/pymantic/parsers/base.py: BaseParser._prepare_parse, _cleanup_parse", "src/pymantic/parsers/lark/base.py: LarkParser.parse"])

p("C125","Parsing Turtle gives the graph of the document",
 "For every Turtle document, as the W3C recommendation defines them, turtle_parser.parse succeeds and gives, up to the choice of blank nodes, exactly the graph of the document: prefixes and bases in scope where they stand, references resolved as in RFC 3986, escapes decoded, labels, anonymous nodes, property lists and collections expanded. A document has only one graph.",
 "all documents of any length, nesting and layout, all base IRIs",
 "the whole language: every combination of its features, at any depth",
 ["src/pymantic/parsers/lark/turtle.py: grammar, TurtleTransformer, parse", "src/pymantic/util.py: smart_urljoin, decode_literal"])

p("C126","Iterating a resource lists its properties",
 "Iterating a resource lists, each exactly once, the predicate and the object of every triple of the graph with the resource as its subject, whatever the class of the resource. So an object is among r[name, None] exactly if iterating lists it with the predicate of the name, and (name, None) in r holds exactly if iterating lists any pair with that predicate.",
 "all graphs, all resources with a subject other than the empty IRI, all classes and names",
 "all graphs and subjects; that two ways of reading always agree",
 ["src/pymantic/rdf.py: Resource.__iter__, Resource.__getitem__, Resource.__contains__"])

p("C127","Iterating a list and writing a graph as Turtle come to an end",
 "Iterating a List resource, whatever the triples about its cells, comes to an end: normally, which it does only if the rests lead from the head to rdf:nil, or with an exception. So does serialize_turtle for every graph.",
 "all graphs, all nodes taken as the head of a list, all registered classes",
 "non-termination is not an outcome that a test can observe, and every shape of graph counts",
 ["src/pymantic/rdf.py: List.__iter__, List.is_list", "src/pymantic/serializers.py: serialize_turtle"])

p("C128","Literals made from datetimes carry their value",
 "Literal(d) of a datetime d is an xsd:dateTime literal whose lexical form is legal and has the date, the time, the microseconds and the offset of d. Different datetimes give different literals, and two such literals are equal exactly if the datetimes are equal in Python.",
 "all datetimes, naive or with any offset",
 "all dates, times and offsets",
 ["src/pymantic/primitives.py: Literal.types, Literal.__new__"])

p("C129","A failed N-Triples write leaves a readable beginning",
 "If serialize_ntriples raises, then because of one triple that has None, a generator object, or an IRI with a surrogate in it. The file then has exactly the complete lines of the triples iterated before that one, and if those are readable, parsing the file gives exactly those triples.",
 "all graphs and iteration orders",
 "which triple fails and how many precede it depends on the graph and the hash order",
 ["src/pymantic/serializers.py: serialize_ntriples", "src/pymantic/primitives.py: Triple.__str__", "src/pymantic/parsers/lark/ntriples.py"])

p("C130","A failed Turtle write is not taken for a document",
 "If serialize_turtle raises, what it has left in the file is not a Turtle document: reading it raises as well.",
 "all graphs, profiles, bases, name generators and iteration orders",
 "where it fails depends on the graph and the order of names",
 ["src/pymantic/serializers.py: serialize_turtle", "src/pymantic/parsers/lark/turtle.py"])

p("C131","What has been assigned through a resource can be written",
 "If the triples of a graph can be written as N-Triples and resource[key] = value returns, they can still be written afterwards: writing does not meet an object that has no N-Triples form.",
 "all classes, global profiles, graphs, resources, keys and values",
 "a name may be resolved by the prefixes of the class, by those of the global profile, or by its terms and default vocabulary, and which of them applies depends on what has been set",
 ["src/pymantic/rdf.py: Resource.__setitem__, Resource.resolve", "src/pymantic/primitives.py: TermMap.resolve, Profile.resolve, Triple.__str__", "src/pymantic/serializers.py: serialize_ntriples"])

p("C132","A resource reads the same from a graph that was saved and loaded",
 "Take a graph of RDF triples whose literals and IRIs have no character that the N-Triples writer mangles, write it as N-Triples and read the text into a new graph. Then the blank nodes correspond one to one, and for each resource of the first graph the resource of the corresponding node of the second gives the same answers: key in resource, the pairs of iter(resource), the ValueError for several values, and resource.get_scalar(key): the same literal, None, or a resource of the same class for the corresponding node. Iterating a List gives the corresponding elements in the same order.",
 "all such graphs, set iteration orders, class-level states, resources and keys without a class filter that resolve to an IRI; for the class of a value: its types are IRIs",
 "that nothing in selection by language, datatype or class depends on which blank nodes, or in which order statements were stored, concerns all graphs and all class registrations",
 ["src/pymantic/rdf.py: Resource.get_scalar, Resource.__contains__, Resource.__iter__, Resource.classify", "src/pymantic/serializers.py: serialize_ntriples", "src/pymantic/parsers/lark/ntriples.py: parse"])

p("C133","Edits of different properties are independent",
 "Take several assignments resource[key] = value and deletions del resource[key], no two of them about the same subject and predicate. Made one after the other they all succeed if and only if each of them alone would succeed on the graph as it was; then each property has the values that its own edit alone would have given it, all other triples are as before, and any order of the edits gives the same triples.",
 "all graphs, set iteration orders, class-level states, resources, lists of edits of any length with keys that resolve to an IRI and have no class filter, and values that are literals, strings, numbers or Resources (or also IRIs and blank nodes, while no class is registered)",
 "independence concerns all pairs and orders of edits on all graphs",
 ["src/pymantic/rdf.py: Resource.__setitem__, Resource.__delitem__, Resource._objects_for_key, Resource._objects_for_implicit_set, Resource._objects_for_explicit_set, literalize"])

p("C134","Assigning the same again changes nothing",
"If resource[key] = value succeeds, doing it a second time succeeds too and leaves the graph with the same triples; no value is lost, doubled or exchanged.",
"all graphs, set iteration orders, class-level states, resources, keys that resolve to an IRI and have no class filter, and values (one or many) that are strings, numbers, Resources or literals without both a language and a datatype",
"idempotence concerns the graph an arbitrary first assignment leaves behind, with whatever other values the property had",
["src/pymantic/rdf.py:289-337"])

p("C135","A deleted key is not in the resource any more",
"After del resource[key] succeeds, key in resource is False.",
"all graphs, set iteration orders, class-level states, resources, and keys that resolve to an IRI and have no class filter",
"the deletion and the later membership test each go through the fallback order of selections, on graphs with any mix of values",
["src/pymantic/rdf.py:339-354"])

p("C136","N-Quads documents can be read into a Dataset","nquads_parser.parse(text, dataset) adds exactly the quads that the document states, each in the graph it names, to what the dataset held; membership, len and match then show the old and the stated quads and no others, also for a triple stated in several graphs. Equal blank node labels are one new blank node, different labels different ones. A text that is not accepted raises and leaves the dataset as it was. A stream with one statement per line is read like its text.","all datasets with any history, all texts","tests read a few quads into a new dataset; they cannot show that no statement of any document is lost or filed under another graph",["src/pymantic/parsers/lark/base.py:14-36","src/pymantic/parsers/lark/nquads.py:21-31","src/pymantic/primitives.py:507-576"])

p("C137","Triples read into a Dataset go to its default graph","Reading an N-Triples or Turtle document into a Dataset adds its statements to the default graph of the dataset.","all documents, all datasets","the tests read triples into graphs only",["src/pymantic/parsers/lark/base.py:14-36","src/pymantic/parsers/lark/turtle.py:285-305","src/pymantic/primitives.py:511-513","src/pymantic/primitives.py:550-555"])

p("C138","Loops are not disturbed by edits elsewhere","While a program loops over graph.match(s, p, o), the loop body may add and remove triples that do not match the pattern, re-add triples that are there and try to remove absent ones: the loop still visits exactly the triples that matched when it began, each once, ends without an exception, and all the edits are made. The same holds for looping over the (predicate, object) pairs of a resource while other resources are edited.","all graphs with any history, all patterns, all sequences of edits between the steps of the loop","whether an edit disturbs a running loop depends on which dictionaries of the indexes the loop and the edit share; tests edit at a few places",["src/pymantic/primitives.py:381-455","src/pymantic/rdf.py:358-360"])

p("C139","Edits of what a loop visits are never silent","A loop over graph.match(s, p, o) that ends without an exception has visited exactly the triples that matched when it began, whatever the body did meanwhile; otherwise RuntimeError is raised.","all graphs, all patterns, all edits in the loop body","it needs edits at every possible point of every loop",["src/pymantic/primitives.py:401-455"])

p("C140","Looping over the values of a key is safe","for x in resource[name, None] visits exactly the values present when resource[name, None] was evaluated, each once, whatever the loop body does to the graph, even removing the values themselves; with a body that removes each visited value, the key is empty afterwards and nothing else has changed.","all graphs, resources, keys and edits in the loop body","it needs edits at every point of the loop",["src/pymantic/rdf.py:190-252","src/pymantic/rdf.py:254-278"])

p("C141","Attributes of a resource class come from its bases in method resolution order","A class made from several bases has each of its bases' ancestors once in its method resolution order, itself first and every base before its own ancestors; an attribute it does not declare (language, RDF classes) is that of the first class in that order which declares it; one it declares itself wins. With a single base the order is the base's with the class in front.","all sequences of class definitions, all classes and bases","class hierarchies are unbounded; tests build one or two",["src/pymantic/rdf.py:28-46"])

p("C142","Reading the same document twice changes nothing","After reading an N-Triples document into a graph, reading it into the same graph again leaves the graph as it is.","all documents, all graphs","it depends on how blank node labels of the two readings are related for every document",["src/pymantic/parsers/base.py","src/pymantic/parsers/lark/base.py:14-36","src/pymantic/parsers/lark/ntriples.py"])

p("C143","What was set through a resource is read after saving and loading","Assign values to a key of a resource, write the graph as N-Triples and read the text into a new graph: reading the same key of the same resource there gives the values that were assigned, each once (blank nodes under new names, different ones kept apart). A literal without language assigned to a scalar key is read back as that literal, in a class whose language is not the empty string.","all classes, graphs, keys and values whose terms survive writing (C37)","it composes assignment, writing, parsing and selection over all inputs",["src/pymantic/rdf.py:190-340","src/pymantic/serializers.py:22-60","src/pymantic/parsers/lark/ntriples.py"])

p("C144","Reading the same Turtle document twice changes nothing","After reading a Turtle document into a graph, reading it into the same graph again leaves the graph as it is. How a document is read does not depend on which blank nodes exist already.","all inputs (text, bytes, streams), all graphs","it depends on how the blank nodes of two readings are related for every document, including nested collections and property lists",["src/pymantic/parsers/lark/turtle.py:64-309","src/pymantic/parsers/lark/base.py:14-36"])

p("C145","An assignment to a key that is not scalar replaces everything","After assigning values to a key that is not scalar, the graph has exactly the statements it had under other subjects or predicates and one for each value. So neither the order nor the repetition of the values matters, nor what was assigned before.","all graphs, classes, keys and values","value lists and previous contents are unbounded",["src/pymantic/rdf.py:190-340"])

p("C146","A dataset and the graphs put into it","A Graph put into a dataset by add_graph stays the same object, also when it stands under several names. Under each name the dataset shows exactly what the Graph last put there holds. Each Graph holds exactly the triples that were added to it and not removed since, whether through its own add and remove or through the dataset under any of its names.","all histories of Graph(), add and remove on graphs, add, remove, match and add_graph on the dataset, any sharing","aliasing between any number of names and objects, over unbounded histories",["src/pymantic/primitives.py:507-576"])

p("C147","What was read from N-Triples can be written as N-Triples","Whatever graph parse_string makes of an N-Triples document, serialize_ntriples writes it without raising.","all documents, all orders of iteration","the grammar accepts more in IRIs than the writer can percent-encode; needs every document",["src/pymantic/parsers/lark/ntriples.py:18-97","src/pymantic/serializers.py:4-38","src/pymantic/primitives.py:285-375","src/pymantic/util.py:82-100"])

p("C148","Saving and loading a second time changes nothing","Writing a graph as N-Triples and reading it may change IRIs (percent-encoding), characters of literals and empty datatypes or language tags. Writing the result and reading it again changes nothing but the names of blank nodes, which stay distinct.","all graphs of readable RDF triples, all documents that are read and can be written, all orders of iteration","needs the composition of writer and parser to be idempotent on every graph",["src/pymantic/parsers/lark/ntriples.py:18-97","src/pymantic/serializers.py:4-38","src/pymantic/primitives.py:285-375","src/pymantic/util.py:82-100"])

p("C149","What was read from Turtle can be converted to N-Triples","Whatever graph a Turtle document gives, serialize_ntriples writes it, the N-Triples parser reads the result, and that is the same graph but for the names of blank nodes, which stay distinct.","all Turtle documents, all base IRIs of IRI characters, all orders of iteration","two parsers and a writer that disagree about IRIs, language tags and what a term is; needs every document",["src/pymantic/parsers/lark/turtle.py:1-309","src/pymantic/parsers/lark/ntriples.py:18-97","src/pymantic/serializers.py:4-38","src/pymantic/primitives.py:285-375","src/pymantic/util.py:82-100"])

p("C150","repr() shows every statement, and different ones differently","repr() of a Triple or Quad never raises, and two statements with the same repr are equal, so that what a log or an error message shows identifies the statement.","all statements, any table of printable characters","a text built by concatenation identifies its parts only if no string can imitate what follows it; needs every string",["src/pymantic/primitives.py:138-139","src/pymantic/primitives.py:184-185","src/pymantic/primitives.py:265-266","src/pymantic/primitives.py:310-317","src/pymantic/primitives.py:346-347"])

p("C151","A prefix added to a class is known to it and to its subclasses","After C.prefixes[p] = Prefix(ns) (README, Quick Start: Resource.prefixes['foaf'] = Prefix(...)), names p:r stand for ns followed by r in C and in every subclass of C that has no prefix p itself; names with other prefixes and other classes are not affected.","all histories of class definitions, registrations and prefix changes, all prefixes, namespaces and names","the effect depends on the order of all class definitions and prefix changes in a program",["README.rst:16","src/pymantic/rdf.py:28-46","src/pymantic/rdf.py:154-160","src/pymantic/primitives.py:53-83"])

p("C152","The language of a class can be changed at any time","After C.lang = l, scalar predicates of C and of those subclasses that have no language of their own prefer literals in l; every other class keeps its language.","all histories of class definitions, registrations and changes, all classes, languages and graphs","depends on the attribute lookup along every linearisation of the bases",["src/pymantic/rdf.py:113","src/pymantic/rdf.py:429-460","src/pymantic/rdf.py:28-46"])

p("C153","The Quick Start works for every document","After Resource.prefixes[p] = Prefix(ns) and graph = turtle_parser.parse(text), Resource(graph, s).get_scalar('p:n') gives the value that the document gives s for ns followed by n (None if there is none, ValueError if there are several), and Resource(graph, s)['p:k'] yields exactly its values for ns followed by k; if these are nodes, they are Resources of which the same holds.","all Turtle documents, prefixes, namespaces, names and nodes","composition of the Turtle parser, the graph, name resolution and reading, for every document",["README.rst:9-22","src/pymantic/rdf.py:119-123","src/pymantic/rdf.py:154-160","src/pymantic/rdf.py:252-285","src/pymantic/rdf.py:392-428","src/pymantic/parsers/lark/turtle.py:1-309"])

p("C154","No text in a graph becomes a statement","Whatever texts the IRIs and literals of a graph have, when the graph is written as Turtle or N-Triples and the text is read, no triples are read that the graph did not have: text from users cannot add statements.","all graphs of IRIs and literals with any texts, histories, orders and prefixes","depends on escaping for every text in every position; the harmful texts are special",["src/pymantic/serializers.py:4-43","src/pymantic/serializers.py:60-110","src/pymantic/serializers.py:117-169"])

p("C155","Saving and loading as Turtle a second time changes nothing","If a graph was written as Turtle and the text read, then writing what was read and reading that gives the same triples, up to the names of blank nodes.","all graphs, histories, bases, prefixes, orders and blank node names for which writing and reading succeed","composition of two writers and two readers over all graphs",["src/pymantic/serializers.py:60-169","src/pymantic/parsers/lark/turtle.py:1-309"])

p("C156","Whatever serialize_turtle writes, the Turtle parser reads","If serialize_turtle succeeds on a graph of well-formed triples, then reading the text with the Turtle parser succeeds.","all graphs, histories, orders, bases, prefixes and blank node names for which the writer succeeds","composition of the writer with the reader over all graphs; the literals that break it have datatypes outside the five that Turtle abbreviates",["src/pymantic/serializers.py:60-110","src/pymantic/serializers.py:117-169","src/pymantic/parsers/lark/turtle.py:1-309"])

p("C157","A program that uses resources sees the same in every run","Python's sets of strings are iterated in an order that differs from run to run. Apart from the order in which several values are given, what a program reads through resources, whether it completes, and what the graph holds afterwards do not depend on that order.","all worlds of classes, graphs and programs of reads, writes, deletions, tests and constructions, with arbitrary (and different) iteration orders at every step","a test fixes one iteration order for the process it runs in; the claim compares two runs with arbitrary orders at each step",["src/pymantic/rdf.py:200-556","src/pymantic/rdf.py:393-440"])

p("C158","What was read from N-Triples can be converted to Turtle","Whatever graph an N-Triples document gives, serialize_turtle writes it, given names for blank nodes, and reading the result with the Turtle parser gives the same graph up to a one-to-one renaming of blank nodes and the datatype xsd:string of plain strings.","all N-Triples documents, all base IRIs and prefixes, all name generators, all orders","a parser, a writer and another parser that disagree about literals; needs every document",["src/pymantic/parsers/lark/ntriples.py:18-97","src/pymantic/serializers.py:70-269","src/pymantic/parsers/lark/turtle.py:1-309"])

p("C159","Only the set of statements of an N-Triples document matters","Two N-Triples (or N-Quads) documents that are read give the same statements, up to a one-to-one renaming of blank nodes, exactly if they have the same written statements up to their order, repetitions and a one-to-one change of the blank node labels. In particular the order of the lines does not matter, nor whether a line is repeated, nor do they decide whether the document is read.","all pairs of documents, all earlier parses; strings and files","an equivalence between all pairs of documents and all renamings",["src/pymantic/parsers/lark/ntriples.py:18-97","src/pymantic/parsers/lark/nquads.py:1-42","src/pymantic/parsers/lark/base.py:1-45"])

p("C160","The order of the statements, abbreviations and labels do not matter in Turtle","Two Turtle documents that differ only in the order of the statements between directives, in whether s p o ; q r . is written as two statements, in whether s p o , o2 . is written as two statements, in semicolons at the end, and in a one-to-one change of the blank node labels, are both read or both rejected, and what is read is the same up to the choice of blank nodes.","all pairs of documents related in this way by any number of such changes, all layouts, all base IRIs","an equivalence between all pairs of documents",["src/pymantic/parsers/lark/turtle.py:30-75","src/pymantic/parsers/lark/turtle.py:95-309"])

p("C161","The order in which documents are loaded does not matter","Loading several documents into one graph (N-Triples as text, bytes or an open file, and Turtle, in any mixture), or into one dataset (N-Quads and JSON-LD), gives the same statements in whatever order they are loaded, up to a one-to-one change of the new blank nodes, also if some of the documents are rejected; how the loading of a document ends does not depend on what was loaded before. What a graph then has is what it had before and what each of the documents has when it is read alone, blank nodes of different documents being different.","all graphs and datasets, all lists of documents, well-formed or not, and all permutations of them","permutations of arbitrarily many arbitrary documents",["src/pymantic/parsers/base.py:18-53","src/pymantic/parsers/lark/base.py:9-45","src/pymantic/parsers/lark/turtle.py:285-309","src/pymantic/parsers/jsonld.py:27-84"])

p("C162","Threads may share a graph","Several threads that call add and remove on one Graph leave it, when all have finished, as if the calls had been made one after the other in some order that keeps the order within each thread: in, len, iteration and match agree with that order, and so does which calls raise KeyError.","all graphs made by one thread beforehand, any number of threads, all sequences of calls and all interleavings of their steps, a step being one lookup, store or deletion in a dict or one operation on a set","all interleavings of unboundedly many calls",["src/pymantic/primitives.py:356-399"])

p("C163","Threads may share a dataset","Several threads that call add and remove on one Dataset leave it, when all have finished, as if the calls had been made one after the other in some order that keeps the order within each thread: in, len, iteration and match agree with that order, and so does which calls raise KeyError.","all datasets made by one thread beforehand, any number of threads, all sequences of calls and all interleavings of their steps, a step being one lookup, store or deletion in a dict or one operation on a set","all interleavings of unboundedly many calls, with graphs that come into being on the way",["src/pymantic/primitives.py:507-516","src/pymantic/primitives.py:356-399"])

p("C164","A thread may read a graph while others change it","A thread that goes through match while other threads call add and remove on the same Graph comes to the end, and gets every matching triple that was there all the time, each once, and otherwise only matching triples that were there or that some thread adds.","all graphs made by one thread beforehand, all patterns, any number of threads, all sequences of calls and all interleavings of their steps with those of the reader","all interleavings of a generator over nested dicts with unboundedly many calls",["src/pymantic/primitives.py:401-455","src/pymantic/primitives.py:356-399"])

p("C165","Reading a graph from other threads changes nothing","Threads that go through match on a Graph that other threads add to and remove from make no difference: the graph and the outcomes of the calls are as if nobody had read, and each reader gets what it gets without the other readers.","all graphs made by one thread beforehand, all patterns, any number of readers and of threads that add and remove, all sequences of calls and all interleavings of their steps","all interleavings of any number of generators over nested defaultdicts with unboundedly many calls",["src/pymantic/primitives.py:401-455","src/pymantic/primitives.py:356-399"])

p("C166","A file that was cut off is never misread","Let a text be one that the N-Triples or N-Quads parser reads. Any beginning of it (an interrupted download, a disk that ran full) either raises and adds nothing, or is read as exactly the first statements of the text; read as a stream it adds exactly the first statements, whatever the outcome.","all texts that are read, all points at which they are cut, all sinks","the cut may be at any character of texts of any length: in an escape, a label, a language tag, between lines",["src/pymantic/parsers/lark/ntriples.py:20-49","src/pymantic/parsers/lark/base.py:9-36","src/pymantic/serializers.py:34-37"])

p("C167","A Turtle file that was cut off is never misread","Any beginning of a Turtle text that is read, when parsed, either raises and adds nothing, or is read as exactly the first triples of the text.","all Turtle texts that are read, all points at which they are cut","the cut may be at any character of texts of any length, within any token",["src/pymantic/parsers/lark/turtle.py:35-98","src/pymantic/parsers/lark/turtle.py:285-309","src/pymantic/serializers.py:69-109"])

p("C168","A write that fails is reported, and leaves a beginning of the file","Whatever file object is given to serialize_ntriples, serialize_nquads or serialize_turtle, whose write() appends the text it is given or raises after a part of it: if the function returns, all of the output is in the file, behind what was there; if a write raises, the exception reaches the caller, nothing more is written, and what is in the file is a beginning of the output.","all graphs and datasets, all bases, profiles and name generators, all file objects and states of them, all points of failure","a write may fail at any call and after any character; tests would have to make each of them fail",["src/pymantic/serializers.py:34-43","src/pymantic/serializers.py:117-169"])

p("C169","A load that broke off can be repeated","If a file that the N-Triples parser can read raises after some of its lines (a network file, a failing disk), the exception reaches the caller and the graph holds what it held and the triples of these lines. Reading the file again, as a whole, into the same graph then gives what reading it once would have given, up to the names of blank nodes.","all files that can be read, all points at which they break off, all exceptions, all graphs","the file may break off after any line of any file",["src/pymantic/parsers/lark/base.py:9-36","src/pymantic/parsers/base.py:32-36","src/pymantic/parsers/base.py:44-50"])

p("C170","A writer whose file fails between writes leaves nothing that is misread","If every f.write(text) either stores all of its text or raises and stores nothing, then serialize_ntriples and serialize_turtle, whichever call of write fails, leave no shortened value in a new file. An N-Triples file that is left is always read, as exactly the first triples (all of them if the writer returned). A Turtle file that is left is rejected by the parser, with the graph that is read into unchanged, or its statements are the first statements of the complete file; for graphs without lists it is read as exactly the triples of some of the subjects, each with all its triples, up to the names of blank nodes, and of all subjects if the writer returned.","all graphs, whatever their history, whose IRIs and literals the library writes as legal N-Triples or Turtle; all bases, profiles of legal names and generators of labels; all orders of sets; all files with all-or-nothing writes, and all points at which they fail","Tests would have to fail every single write of every graph; which writes there are depends on prefixes, lists, and the number of predicates and objects, and what the parser makes of each torn file depends on where a token may end.",["src/pymantic/serializers.py:34-37","src/pymantic/serializers.py:117-169","src/pymantic/parsers/lark/turtle.py:35-98"])

p("C171","Turtle output is grouped and sorted","Whenever serialize_turtle returns, what it has written is the directives followed by one block for each subject of graph.subjects() that is not a list, and nothing else. The blocks are in the order of what is written for their subjects. A block has one entry for each predicate of that subject's triples, in the order of what is written for the predicates, and an entry has the objects of the triples with that subject and predicate, each once, separated by a comma and a new line that is indented to the column of the first object; the entries of a block start in one column, and a full stop in that column ends it. IRIs and literals are written in the form that turtle_repr gives them; an object that is a list is in parentheses.","all graphs, whatever their history, with lists and blank nodes or without, whose subjects and predicates are not empty strings; all bases, profiles and generators of labels; all orders of sets; whenever there is a text","Whether something is written twice, left out, or out of order depends on the number and order of subjects, predicates and objects, on names that coincide or change under a prefix or base, and on the order in which sets are iterated; tests see a few graphs in one order.",["src/pymantic/serializers.py:112-115","src/pymantic/serializers.py:117-169"])

p("C172","A change to one subject shows only in its block of the Turtle output","If a graph is written with serialize_turtle, then triples of one subject are added and removed, and the graph is written again with the same base, profile and generator of labels, then the two texts have the same directives and the same blocks for all other subjects, in the same order: only the block of that subject differs, or is new. So the Turtle files of two versions of a graph can be compared line by line.","all graphs without blank nodes and lists, whatever their history; all changes to one subject, of any length; all bases and profiles; all orders of sets, which may differ between the two runs","Whether other blocks stay as they are depends on the order in which subjects, predicates and objects are kept and sorted for every pair of graphs, and on the order of sets, which differs from run to run.",["src/pymantic/serializers.py:112-115","src/pymantic/serializers.py:117-169","src/pymantic/primitives.py:383-399"])

p("C173","Turtle text that is read and written again is the same text","If serialize_turtle writes a graph, the text is read into a new graph with the Turtle parser, and that graph is written with the same base and profile, then the second text is the same as the first, character for character. So loading and saving a file that the library wrote does not change the file.","all graphs without blank nodes, lists and plain literals (those without language and datatype), whatever their history, in which every subject still has a triple and whose IRIs and literals the library writes as legal Turtle; all bases and profiles of legal names; all orders of sets, which may differ between the two runs","Whether the text is the same depends on the order in which subjects, predicates and objects are written, read and kept, on escapes and prefixes for every character, and on the order of sets, which differs from run to run.",["src/pymantic/serializers.py:112-115","src/pymantic/serializers.py:117-169","src/pymantic/parsers/lark/turtle.py:35-309","src/pymantic/primitives.py:383-390"])

p("C174","Graphs whose files are the same are the same","If serialize_ntriples, or serialize_turtle with the same base and profile, writes the same text for two graphs, the graphs have the same triples, up to the choice of blank nodes. So a file that has not changed stands for data that has not changed.","all pairs of graphs of well-formed triples, all histories, all orders of sets, all bases and profiles, all names for blank nodes","It is about pairs of different graphs; a test would have to guess the pair that is written alike.",["src/pymantic/serializers.py: serialize_ntriples, serialize_turtle, nt_escape, turtle_string_escape, turtle_repr","src/pymantic/util.py: quote_normalized_iri"])

p("C175","A graph is the same whether it was saved as N-Triples or as Turtle","If a graph is written with serialize_ntriples and with serialize_turtle, and both texts are read into new graphs with the parsers of the two formats, the two graphs are the same, up to the choice of blank nodes. So programs that exchange data may choose either format.","all graphs of well-formed triples, all histories, all orders of sets, bases, profiles and names for blank nodes for which both texts are written and read","It relates four functions on every term and every order of sets; a test compares one graph.",["src/pymantic/serializers.py: serialize_ntriples, serialize_turtle","src/pymantic/parsers/lark/ntriples.py","src/pymantic/parsers/lark/turtle.py"])

p("C176","Turtle texts of two graphs written one after the other to a file are read as both graphs","If serialize_turtle writes two graphs to the same file, one after the other, and the file is parsed, the result has the triples of both graphs, up to the choice of blank nodes: two blank nodes that differ when written differ when read. So files may be appended to, or joined with cat.","all pairs of graphs each of which is read back by itself, all histories, orders of sets, bases, profiles and names for blank nodes","The second text begins under the base, the prefixes and the blank nodes declared by the first; a test tries one pair.",["src/pymantic/serializers.py: serialize_turtle, turtle_repr","src/pymantic/parsers/lark/turtle.py"])

p("C177","N-Triples texts of several graphs written to one file are read as their union","If serialize_ntriples writes any number of graphs, all of which exist until the last is written, to the same file, one after the other, and the file is parsed into a new graph, that graph is the union of the graphs up to a one-to-one choice of blank nodes: a blank node that occurs in two of the graphs is read as one blank node, and different blank nodes are read as different ones.","any number of graphs, any orders of iteration; terms that N-Triples carries unchanged (IRIs of URI characters, literals without C0 control characters, language tags the grammar accepts), and in the exact form all terms it can read","Labels are chosen for each graph in a separate call and read in one; a test tries a few graphs.",["src/pymantic/serializers.py: serialize_ntriples","src/pymantic/primitives.py: BlankNode.value","src/pymantic/parsers/lark/ntriples.py"])

with open(os.path.join(os.path.dirname(__file__),"..","properties.jsonl"),"w") as f:
    for x in P: f.write(json.dumps(x)+"\n")
print(len(P))
