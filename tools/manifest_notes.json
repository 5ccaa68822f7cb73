{
 "C01": [
  "proved",
  "Refinement to Finset by induction over histories; outcome of remove included."
 ],
 "C02": [
  "proved",
  "All eight bound/unbound combinations, arbitrary set iteration order."
 ],
 "C03": [
  "partial",
  "Code violates it: the empty IRI acts as a wildcard (negation proved). Exact behaviour and the part for non-empty terms proved."
 ],
 "C04": [
  "partial",
  "Code violates it: removal leaves stale terms (negation proved). Exact: the listings show the terms ever added."
 ],
 "C05": [
  "partial",
  "Code violates it: an open pattern with a match removes one triple and raises RuntimeError (negation and exact behaviour proved). Holds for fully given patterns and for no match."
 ],
 "C06": [
  "proved",
  "addAll and merge are unions, including match on the merged graph."
 ],
 "C07": [
  "proved",
  "Any two histories with the same set are indistinguishable; adds of the same elements give the same set."
 ],
 "C08": [
  "partial",
  "Code violates it for plain tuples, as Resource.copy passes them (negation proved); add/addAll/remove of triples are atomic."
 ],
 "C09": [
  "proved",
  "Generator model: listing, size-change check for each pattern at every point of suspension (C09_together_raises, C09_outer_raises; with all positions given nothing is iterated, C09_bound_ends), removal of the yielded triple, insertion during full iteration."
 ],
 "C10": [
  "partial",
  "Code violates it: the same triple in two graphs (negation proved). Holds when no two statements agree in all three terms. C10_exact gives, for every history of add and remove with statements of any kind, what iteration, `in`, a pattern with one or two terms and remove do: a lookup finds the statement last added under its three terms as long as nothing was removed under them since."
 ],
 "C11": [
  "proved",
  "Refinement to a Finset of quads by induction over histories; outcome of remove and triple membership included."
 ],
 "C12": [
  "proved",
  "All sixteen pattern shapes, arbitrary set iteration orders."
 ],
 "C13": [
  "partial",
  "Code violates it: match with an unknown graph name creates that graph (negation and exact effect proved). The quads themselves never change."
 ],
 "C14": [
  "partial",
  "Code violates it: an open pattern with a match raises RuntimeError (negation and exact behaviour proved)."
 ],
 "C15": [
  "partial",
  "Code violates it: an unnamed graph is stored as the IRI 'None' and remove_graph does nothing (both proved). Exact effect of add_graph proved."
 ],
 "C16": [
  "partial",
  "Code violates it for one Graph object under two names (negation proved). Holds for all histories without sharing. C16_iff: after every history, with sharing, iteration agrees with match() exactly if every graph that is not empty calls itself by the name it stands under."
 ],
 "C17": [
  "proved",
  "qAsT/tAsQ, _make, _asdict, _replace."
 ],
 "C18": [
  "proved",
  "Against a separate grammar of STRING_LITERAL_QUOTE and a scanner for the first unescaped quote."
 ],
 "C19": [
  "partial",
  "Code violates it: C0 control characters are dropped (negation proved). Exact result for all strings; round trip holds iff none occurs."
 ],
 "C20": [
  "partial",
  "Code violates it: a datatype beside a language is not written, control characters are dropped, IRIs are percent-encoded (negation proved). Exact criterion for equal forms, and injectivity on well-formed literals with percent-free datatypes."
 ],
 "C21": [
  "proved",
  "Transparency on backslash-free prefixes; every failure is located at a \\\\U escape above U+10FFFF."
 ],
 "C22": [
  "proved",
  "Exact character set, idempotence, fixed points, surrogates."
 ],
 "C23": [
  "proved",
  "Written form is < + IRIREF characters + >; equals the IRI iff it has only URI characters; percent-decodes to the IRI if that has no percent sign."
 ],
 "C24": [
  "partial",
  "Code violates it: é and %C3%A9 are written alike (negation proved). Two IRIs are written alike iff their quoted forms agree; injective on percent-free IRIs and on all normalized IRIs without white space and control characters (C24_injective_normalized)."
 ],
 "C25": [
  "partial",
  "Code violates it: %%34%31 (negation proved). C25_fixed_iff gives the fixed points exactly; idempotent whenever every percent sign starts an escape; for every string the result is never longer, equal length means a fixed point, and repeated normalization comes to rest within as many steps as there are characters (C25_settles)."
 ],
 "C26": [
  "partial",
  "Code violates it: a space becomes %20 and stays (negation proved). C26_exact: for a normalized IRI it holds iff there is no white space or control character in it."
 ],
 "C27": [
  "proved",
  "UTF-8 bytes checked against the encoder of Lean's core library. C27_surrogate: surrogates raise UnicodeEncodeError."
 ],
 "C28": [
  "proved",
  "Injectivity of the hex label; letters only."
 ],
 "C29": [
  "partial",
  "The empty string raises IndexError instead of ValueError (negation of the full statement proved); all rules proved for every non-empty string."
 ],
 "C30": [
  "partial",
  "Code violates it: every occurrence of the namespace is replaced (negation proved). Choice of namespace proved exactly; result proved when the namespace does not recur. C30_exact spells the replacement out; C30_iff: the claim holds for a matching namespace iff it does not recur (or equals prefix and separator)."
 ],
 "C31": [
  "partial",
  "Code violates it in four ways (witnesses proved). Round trip proved under conditions excluding them. C31_exact, C31_iff and C31_unmatched give the result and the exact condition for non-empty namespaces and prefixes without colon."
 ],
 "C32": [
  "proved",
  "Both map classes, both modes, every key."
 ],
 "C33": [
  "proved",
  "All four clauses."
 ],
 "C34": [
  "proved",
  "Heap model with sharing; any initial maps."
 ],
 "C35": [
  "proved",
  "Heap model; arbitrary histories. Also: the copy of a term map loses its default, and an empty term map is not shared."
 ],
 "C36": [
  "proved",
  "Also: not transitive."
 ],
 "C79": [
  "proved",
  "Model of the constructor's type table; decimal representation proved injective."
 ],
 "C37": [
  "partial",
  "The code violates the property (C37_iri_changed: non-ASCII IRIs come back percent-encoded). C37_roundtrip_exact gives the exact result for every graph of readable terms, C37_roundtrip_partial the round trip for graphs of plain terms."
 ],
 "C38": [
  "partial",
  "Violated by a language with a line feed (C38_language_breaks_framing); holds for all other triples (C38_framing_partial), and concatenation of files holds without restriction."
 ],
 "C39": [
  "partial",
  "Violated: a blank line raises in a stream only (C39_blank_line; C39_blank_line_raises for every such stream). Holds for texts without blank lines and bare carriage returns (C39_stream_partial). C39_exact, for every text readable as a string: the stream succeeds iff every line holds a statement (RuntimeError otherwise), and has the same effect iff every line holds exactly one."
 ],
 "C40": [
  "partial",
  "The string half holds for all texts and sinks (C40_string_atomic). The stream half is violated by carriage returns between statements; exact behaviour in C40_stream_exact, and the property for texts without carriage returns in C40_stream_partial."
 ],
 "C41": [
  "proved",
  "Strings, streams, and pairs of consecutive parses of either kind."
 ],
 "C42": [
  "partial",
  "Violated (C42_digit_rejected): LANGTAG has [a-zA-Z0_9]. C42_exact says for every tag which of the two happens. C42_graph says it for whole graphs: the file is read exactly if no tag has such a digit, and otherwise nothing is."
 ],
 "C43": [
  "partial",
  "Violated: Quad.__str__ writes terms without brackets and quotes. C43_never_read: no dataset of absolute IRIs is ever read back. C43_never_isomorphic: no dataset with a quad in it comes back, whatever strings its IRIs and literals are and whatever names its blank nodes are given (C43_never_same: the case without blank nodes)."
 ],
 "C44": [
  "partial",
  "Violated: iriref is a rule, so white space between its tokens is ignored (C44_accepted, C44_exact); other white space is rejected."
 ],
 "C80": [
  "proved",
  "Strings and streams."
 ],
 "C81": [
  "partial",
  "Violated: the grammar has no comments (C81_comment_rejected, and C81_comments_never_read for every position and comment)."
 ],
 "C82": [
  "partial",
  "Violated: a second text that begins with a line of white space may parse on its own but not after a line (C82_refuted). Holds for every other second text (C82_partial); C82_exact says for all second texts what the whole reads as, errors included, with any line ends. Stated on the statements written in the texts; with C41 it carries over to the sink."
 ],
 "C45": [
  "proved",
  "C45_empty_lang shows why the class's lang must not be the empty string. C45_nonscalar_fails says exactly when the assignment fails."
 ],
 "C46": [
  "proved",
  "Every key shape and value, including calls that raise; C46_set_atomic: whether a call that raises changes anything."
 ],
 "C47": [
  "proved",
  "C47_both_keyError: with an object that carries both the language and a datatype the assignment raises KeyError."
 ],
 "C48": [
  "proved",
  ""
 ],
 "C49": [
  "proved",
  ""
 ],
 "C50": [
  "partial",
  "Violated for a resource whose subject is the empty IRI: erase then empties the graph. C50_erase_exact gives the exact effect, C50_erase_partial the claim for other subjects."
 ],
 "C51": [
  "partial",
  "Violated: without a subject, the new resource is NamedNode(str(BlankNode())), not a blank node. C51_new_partial proves the rest of the claim."
 ],
 "C52": [
  "partial",
  "Violated for classes with several rdf classes: when the types tried so far leave no candidates, the search starts again. C52_in_graph_partial: classes with one rdf class, and graphs with at least one instance; C52_in_graph_sound gives what holds otherwise. C52_exact: for every graph and order of the types, exactly which types count (Counting.unique: there is one such list) and that the resources with all of these are returned."
 ],
 "C53": [
  "partial",
  "Violated: registered classes that cannot be combined raise TypeError; a class registered later is not seen for a type set met before (C53_stale). The other parts are proved for all histories. C53_exact says what happens in every case, with the classes that can be combined described independently of the merge (Combines). C53_registered_twice: one class registered for two types of a node always gives TypeError."
 ],
 "C54": [
  "partial",
  "Violated: not transitive (a resource with a blank node subject equals the string of its name), and equal values have different hashes. Proved for resources, and for IRI subjects."
 ],
 "C55": [
  "partial",
  "Violated: copy of a resource with any triple raises AttributeError; C55_copy_exact."
 ],
 "C56": [
  "partial",
  "Violated: such a name acts as a wildcard over all predicates. Names with an unknown prefix do raise."
 ],
 "C57": [
  "proved",
  "C57_inherited on the tables of the class, C57_names on the names a program writes."
 ],
 "C58": [
  "partial",
  "Violated (C58_refuted): a literal element in another language than the list class's is yielded as None. C58_list_partial for the other elements; C58_cyclic_never_ends: cyclic chains. C58_list_class: the class List meets the hypotheses in every program that leaves its prefixes rdf and rdfs and its language alone, with the RDF vocabulary's IRIs. C58_exact: each element is shown as itself, or as None if it is a literal without datatype in another language; C58_iff: the exact condition for the list to be shown as it is."
 ],
 "C59": [
  "proved",
  ""
 ],
 "C83": [
  "proved",
  "C83_filter_selection, C83_name_selection, C83_class_selection; scalars: C83_scalar_selection for classes with a language, C83_scalar_no_language for the others."
 ],
 "C84": [
  "proved",
  "C84_language_filter, C84_datatype_filter, C84_class_filter (resources of the class, one or several; what the key shows is C83_class_selection), C84_wrong_language."
 ],
 "C85": [
  "partial",
  "Violated: AttributeError, or refused as part of a set. C85_reference_refused for every language and datatype filter. C85_set_datatype: a set of literals, strings and references with a reference in it is refused under a datatype filter too, with AttributeError unless a literal of another datatype is met first (ValueError)."
 ],
 "C86": [
  "proved",
  "C86_scalar_language, C86_scalar_datatype, C86_scalar_class (one resource), C86_scalar_class_set (any number)."
 ],
 "C87": [
  "partial",
  "Violated: ValueError for a single value, TypeError for a set of literals and a non-scalar predicate."
 ],
 "C68": [
  "proved",
  "Requests are compared with a separate reading of the SPARQL 1.1 Protocol (Spec/Sparql). A text with a lone surrogate sends nothing: C68_unencodable."
 ],
 "C69": [
  "proved",
  "For every configuration; graph arguments included."
 ],
 "C70": [
  "partial",
  "Violated: RDF/XML, Turtle and XML results raise TypeError (StringIO of bytes), 204 raises AttributeError. C70_query_exact gives every case, C70_json_partial the part that holds."
 ],
 "C71": [
  "proved",
  "Graphs as duplicate-free lists of triples."
 ],
 "C72": [
  "proved",
  "Reified statements are read off by Spec.Says."
 ],
 "C73": [
  "partial",
  "Violated: every graph store operation raises AttributeError before sending anything (C73_never_sent)."
 ],
 "C77": [
  "proved",
  ""
 ],
 "C78": [
  "proved",
  "C78_zero: grouper(xs, 0) is empty."
 ],
 "C88": [
  "proved",
  "Against an independent denotation relation (Spec/NTDenote). C88_every: all texts the grammar allows, with and without escapes that are no code point."
 ],
 "C67": [
  "proved",
  "Against a model of urllib.parse.urljoin (CPython 3.11)."
 ],
 "C74": [
  "proved",
  "Given the result of the JSON-LD processor; any dataset reached by API calls as sink, any sink in C74_order."
 ],
 "C75": [
  "partial",
  "Violated: the graph becomes NamedNode('_:b0'). C75_exact says what happens; C75_partial: holds without such graph names."
 ],
 "C76": [
  "partial",
  "Violated: every document is rejected with ValueError (the root element is compared with a str)."
 ],
 "C89": [
  "partial",
  "Violated: JSON-LD strings always carry a datatype, N-Triples strings never do (C89_never_equal)."
 ],
 "C90": [
  "partial",
  "Violated: AttributeError for every document with a statement (C90_exact); after a failed parse_json the statements go to the failed call's sink (C90_after_failure)."
 ],
 "C91": [
  "partial",
  "Violated: empty queries and parameters are dropped and the scheme is lower-cased. C91_partial: holds for other references and all bases. C91_exact gives what becomes of every absolute reference with an authority, C91_iff when it stays as it is, C91_no_authority that one without an authority never does beside a base with one."
 ],
 "C92": [
  "partial",
  "Violated: empty segments are dropped (C92_refuted), and dots in a reference with an authority are kept (C92_network_dots). C92_partial: equals RFC 3986 section 5.2 otherwise. C92_network_exact: the exact result for references with an authority; C92_empty: the empty reference gives the base as it is, with its fragment."
 ],
 "C93": [
  "proved",
  "for the model's recursive-descent parser over the grammar of turtle.py:35-58; that Lark's LALR tables implement the grammar is trusted"
 ],
 "C63": [
  "partial",
  "proved when no object list with several objects contains a collection or property list; C63_exact gives the behaviour for all documents; C63_refuted: `<s> <p> (), <o> .` puts a generator object into the graph"
 ],
 "C64": [
  "partial",
  "C64_partial: any document without the shapes of C63_refuted and without collections as subjects of rdf:first/rdf:rest reads back cell by cell, at any nesting; C64_iterate adds List iteration. C64_refuted: a language-tagged element reads back as None (C58)"
 ],
 "C65": [
  "proved",
  "C65_scope and C65_accepts: evaluation succeeds iff every name has a meaning under the last directives before it, and gives that meaning"
 ],
 "C66": [
  "partial",
  "refuted: every stream raises TypeError (C66_exact); bytes work like text (C66_bytes_partial)"
 ],
 "C94": [
  "proved",
  ""
 ],
 "C95": [
  "partial",
  "Refuted as stated: a comment that ends in CR alone swallows the following lines (`#\\r<s> <p> <o> .` is read as the empty document), and `BAſE` is accepted. C95_exact: what is accepted, with the parser's own comments and keywords. C95_partial: the W3C terminals, for texts with LF or CR LF line ends and without ſ, İ, ı."
 ],
 "C96": [
  "partial",
  "Refuted as stated by comments that end in CR alone. C96_exact: with comments ending in LF, any layout of any document is read as that document. C96_partial: the W3C layout for texts with LF or CR LF line ends; C96_layout: equal triples."
 ],
 "C60": [
  "partial",
  "False for the code: turtle_string_escape looks for escape sequences instead of special characters. Refuted (C60_refuted); C60_exact and C60_exact_w3c: a string is read back iff it has no double quote, backslash, line feed or carriage return. C60_output gives the text for every string: each character after a backslash is replaced by the raw character it stands for as an escape letter, nothing else changes."
 ],
 "C62": [
  "partial",
  "False for the code (C62_refuted: a plain literal comes back as xsd:string; C62_typed_literal: a single ^ is written; C62_slash, C62_dot: local names are not escaped). Proved, end to end through the writer's declarations and the parser, for safe nodes in safe profiles without a base (C62_denotes_partial). C62_base_partial: also with a base and for blank nodes, if the base leaves the IRIs readable (see C118). Plain literals in whole graphs: C118_plain_partial."
 ],
 "C61": [
  "partial",
  "False for the code (C61_refuted: a blank node stops the default writer, whose name generator is a generator without the method next; C61_list_of_iris: a list of IRIs stops every writer). Proved for graphs without blank nodes and lists, any profile with xsd, any base and names (C61_writes_partial); C61_exact: without lists, a graph is written by default iff it has no blank node (and never had one as a subject). With lists of literals: C118_lists_partial."
 ],
 "C97": [
  "partial",
  "False for the code (C97_refuted: a subject all of whose triples were removed is written without predicate; also C62's failures). Proved for histories whose subjects are all in use and whose triples are safe IRIs and literals, without lists: the text is read as a permutation of the triples (C97_round_trip_partial) and into an equal graph (C97_same_graph_partial); with a base, C97_base_partial and C97_base_cut. With lists of literals: C118_lists_partial."
 ],
 "C98": [
  "partial",
  "False for the code: objects of one subject and predicate are written in the order of addition (C98_refuted). Proved for graphs without lists with IRI subjects, all in use, if the objects of each subject and predicate were added in the same order, that is match(s, p) lists them alike (C98_orders_partial), and so if there is at most one object per subject and predicate (C98_same_text_partial); objects may be blank nodes, and errors agree too. C98_exact: for the graphs of C173 the texts of two graphs are the same exactly if the triples are and match(s, p) lists them alike."
 ],
 "C99": [
  "proved",
  "Against a specification on views (bindings as functions); any heap of dicts, any sharing. C99_resolve and C34 relate views to resolve."
 ],
 "C100": [
  "proved",
  "Exact for every string, against an inductive specification; C100_failure characterises the exception."
 ],
 "C101": [
  "proved",
  "Shape for every key; values for name keys and for all filters but classes (class filters: C83_class_selection and C49). C101_listed: what list() makes of the generator."
 ],
 "C102": [
  "proved",
  "TypeError is possible if the classes registered for a subject's types cannot be combined."
 ],
 "C103": [
  "partial",
  "False: C103_refuted (a label that is a node: AttributeError), C103_two_labels (ValueError). C103_exact gives the outcome in every case for classes with a language and a scalar rdfs:label; C103_text_partial the good case. C103_resource: the same for the class Resource in every program that leaves the prefixes rdf and rdfs and the language of Resource and List alone (World.Usual, builtin_kept). C103_no_language: the same for classes whose language is None (every label counts) or empty (plain labels only); C103_not_scalar: where rdfs:label is no scalar of the class, str(r) is AttributeError always."
 ],
 "C104": [
  "partial",
  "False: C104_refuted (repeated namespace; IRI equal to a namespace beside a default namespace). C104_explicit_partial for the rest; C104_unmatched for IRIs in no namespace; C104_list for parse_curies is complete. C104_iff gives the exact condition for non-empty namespaces and prefixes without colon."
 ],
 "C105": [
  "proved",
  "Orders of sets are arbitrary. Literals are given by strings here; other values: C17, C79. C105_nodes is for strings; conversions of other values are C79."
 ],
 "C106": [
  "proved",
  "Against an inductive character-level grammar with longest match for labels and language tags (Spec/NTGrammar.lean, dialect `code`). The Lark grammar itself was transcribed by hand into the model."
 ],
 "C107": [
  "partial",
  "False for the code: the label `_:a;b` is read (C107_refuted; white space in IRIs: C44). Proved for sentences without white space inside IRIs whose labels and language tags are those of the recommendation (C107_strict_partial, C107_legal_partial). Exactly: a text that is read is N-Triples (or N-Quads) for given statements iff it is a document of the restricted grammar `tidy` for them, and it is then read as what it means (C107_exact, C107_meaning)."
 ],
 "C108": [
  "partial",
  "False for the code: N-Quads statements without graph label or with a blank node for one are rejected always (C108_refuted, C108_no_graph_rejected, C108_bnode_graph_rejected), comments (C81), some labels (C108_labels), some language tags (C42). Proved for all documents without these (C108_tidy_partial), which are exactly the documents of the recommendations that are read (C108_exact); every other one is an error, never a different meaning (C108_never_misread)."
 ],
 "C109": [
  "partial",
  "False for the code: blank node labels of N-Triples may contain colons, which Turtle has not (C109_refuted). Proved for all documents without such labels (and, if there are comments, without a carriage return that has no line feed after it: see C95), any base (C109_partial, C109_no_base_partial); documents with an illegal character behind an escape in an IRI are rejected (C109_illegal_iri), except a line feed at the end (C109_line_feed)."
 ],
 "C110": [
  "partial",
  "False for the code: `<s> <p> _:a;<q>_:b.` is one triple in N-Triples and two in Turtle (C110_refuted). Proved for the grammar both share (C110_partial)."
 ],
 "C111": [
  "proved",
  "For graphs of RDF triples whose language tags are of the form of BCP47 and whose IRIs have no surrogates."
 ],
 "C112": [
  "partial",
  "False for the code: IRIs come back percent-encoded (C112_refuted), as in C37. Exact result for all graphs of C111 (C112_exact), equality for IRIs of URI characters and literals without C0 control characters (C112_partial)."
 ],
 "C113": [
  "partial",
  "Violated: the import raises ValueError in a fresh program (C113_refuted), because the class attributes are called `namespaces` and `scaler`. C113_exact: what happens in every state (the prefix can also be given to Resource before the import); C113_classify_partial: with the prefix in either place, Concepts are classified."
 ],
 "C114": [
  "proved",
  "All pairs of values."
 ],
 "C115": [
  "proved",
  "All resources with IRI or blank node subjects, and the constructor for other values."
 ],
 "C116": [
  "proved",
  "All byte strings and sinks; includes that the decoder accepts exactly the encodings of texts."
 ],
 "C117": [
  "partial",
  "Violated for N-Quads: the result is a Graph, in which of two quads with the same triple only one is found (C117_refuted, C117_quads). Proved for N-Triples and Turtle (C117_triples_partial, C117_turtle), membership and errors for all (C117_members, C117_errors)."
 ],
 "C118": [
  "partial",
  "It is false (C118_refuted, C97_base_cut: with a base that does not end in # or /, an IRI is cut where the reader does not join it). C118_round_trip_partial proves it for safe triples (legal IRIs that the base and namespaces leave readable, the literals of C62, blank nodes), any history in which every subject still has a triple, and any base; joins_hash, joins_slash and joins_alone give the conditions on IRIs for bases that end in # or / in terms of RFC 3986. C118_lists_partial adds lists of literals (each the only object of one triple, nothing else said of its cells, literals without a language or in that of List). Other lists: C118_shared_list (copied), C118_lost_list and C118_lost_property (not written), C118_two_objects (read as no term), C118_other_language and C61_list_of_iris (the writer stops). C118_plain_partial adds plain literals, which come back with the datatype xsd:string and otherwise as they were; C118_lists_partial includes them too, as objects and as items of lists."
 ],
 "C119": [
  "partial",
  "It is false (C119_refuted). C119_about: an element with rdf:about raises KeyError, for it looks up rdf:resource; C119_typed and C119_property: a tag in a namespace always raises, and nothing is added from there on. C119_plain_partial proves it for property elements without a namespace, C119_subject_partial for subjects given by rdf:nodeID, by rdf:ID and a base, or not at all. Comments and processing instructions among the elements raise TypeError (C119_comment, C119_comment_inside). C119_element_partial: an element without namespaces, written out with its property elements."
 ],
 "C120": [
  "partial",
  "It is false (C120_refuted, C120_line_feed): LEGAL_IRI ends in $, which also matches before a final newline, so an IRI reference that ends in the escape of a line feed is accepted. C120_exact: no other character gets through. C120_partial proves it for documents without such an escape."
 ],
 "C121": [
  "proved",
  "C121_string, C121_iri_reference and C121_prefixed_name give the meaning of the terminals; C65 says which base and namespace is in force where, C63 which triples the document has."
 ],
 "C122": [
  "proved",
  "C122_resolve and C122_unambiguous: for all names against the relation CurieMeans; C122_empty: the empty name raises IndexError; C122_subclass: in terms of the class statement (with C57); C122_fresh: after the import."
 ],
 "C123": [
  "proved",
  "C123_interleaving: for arbitrary sequences of the steps, against the run of each thread alone; C123_threads: for calls of parse, against parseString and parseStream (what these hand over is C37-C44, C106). That lark itself may be shared is in the trusted base."
 ],
 "C124": [
  "partial",
  "It is false (C124_refuted): the inner call deletes the table of labels of both. C124_exact: the outer call always ends in AttributeError. C124_string_partial: if it reads a string and the sink has taken its statements, both results have been handed over in full by then."
 ],
 "C125": [
  "partial",
  "It is false (C125_refuted): a collection among several objects. C125_partial: it holds for all documents without collections and property lists among several objects, whose references (absolute, relative, or with an authority only) and bases (which may be relative to the one before) are of the kinds that urljoin resolves as the RFC says (C91, C92), with no empty reference against a base with a fragment, with lines that do not end in CR alone. C125_sound_partial: the converse, what is parsed from any text is the graph of the document that the text is. C125_unique: the recommendation gives a document one graph up to isomorphism. The specification (Spec/TurtleDoc) uses no function of the model."
 ],
 "C126": [
  "proved",
  "C126_iter, C126_reads, C126_contains, C126_views. C126_empty_subject: the resource with the empty IRI lists the pairs of all triples of the graph, as graph.match takes its subject as absent (C03)."
 ],
 "C127": [
  "partial",
  "It is false (C127_refuted, C127_turtle_loops): a cell that is its own rest is iterated, and written, for ever. C127_ends_partial: iteration ends within as many steps as the graph has triples, and two, if no cell is reached from itself by rests; C127_turtle_partial: so does writing; C127_normal: a normal end means that rdf:nil is reached. C127_turtle_grows, C127_loop_fills: a writer that does not end writes without end. C127_iff: over cells with one first and one rest each, without registered classes, iteration ends if and only if rdf:nil is reached, and then normally; C127_endless: otherwise it yields the elements for ever. Cells with the empty IRI or None as their rest are excluded (C03)."
 ],
 "C128": [
  "partial",
  "It is false (C128_refuted): an offset with seconds, or of more than fourteen hours, is not a lexical form of xsd:dateTime; C128_legal_exact: exactly those are not; C128_legal_partial: for all other datetimes it is, with the right fields. C128_injective: the fields can always be read off the literal. C128_equal_refuted: noon in one zone equals one o'clock in another, but their literals differ; C128_equal_partial: for equal offsets the literals are equal exactly if the datetimes are."
 ],
 "C129": [
  "proved",
  "C129_exact: the file is the text of the triples before the failing one, and conversely; C129_raises: which triples fail; C129_partial_file: reading the file back gives the triples before, in the form that survives (C37). Assumes that f.write does not fail itself and that nothing is lost in a buffer."
 ],
 "C130": [
  "partial",
  "It is false (C130_refuted): with the default name generator a blank node as a subject leaves only the directives (C130_default, for all such graphs), which read as an empty graph. C130_exact: for all graphs, the file has the directives, or these, complete blocks of the first subjects and the beginning of a block. C130_torn_partial: with legal profiles and terms that can be written or cannot be named, the file is just the directives or does not parse, so a failed write is never read as a part of the graph. Assumes that f.write does not fail itself and that nothing is lost in a buffer."
 ],
 "C131": [
  "partial",
  "It is false (C131_refuted): TermMap.resolve returns a plain str, which has no toNT, so after an assignment to a property named by a term of the global profile or below its default vocabulary every attempt to write the graph fails (C131_exact). It holds for every name that resolves to a NamedNode (C131_node), which C131_which determines; in particular for names with a colon (C131_colon_partial). Modelled: the kind of the predicate object of each stored triple (Model/Kinds); datatypes of keys are NamedNodes, since a plain str is a language there; Literals of the caller are assumed to have NamedNodes as datatypes."
 ],
 "C132": [
  "proved",
  "C132_saved_loaded composes C132_ntriples (from C37_roundtrip_partial) with C132_read and C132_iter, which hold for any two graphs that are the same up to an injective choice of blank nodes, so also for graphs saved as Turtle (C132_turtle, from C118_round_trip_partial). C132_selection gives the lists of objects a key selects. The class of a value with blank-node types may differ: the recorded set of types names the old node."
 ],
 "C133": [
  "proved",
  "C133_independent for lists of edits of any length, C133_any_order for their permutations. C133_needs_plain: with registered classes and an IRI as a value it is false, since classifying the value reads its types, which another edit may change."
 ],
 "C134": [
  "proved",
  "C134_repeat: the second assignment succeeds and membership of every triple is unchanged. C134_two_tags shows that the condition on literals is needed: a Literal with both a language and a datatype is picked twice for removal and the second assignment raises KeyError."
 ],
 "C135": [
  "partial",
  "C135_refuted: a resource with an English and a plain rdfs:label still has rdfs:label after del. C135_partial proves the claim for keys with a language, datatype or empty filter, for predicates that are not scalar and for classes without a language. C135_exact covers the remaining keys: the key is still there iff some value that was not shown is of a kind that such a key may show."
 ],
 "C136": [
  "proved",
  "The accepted documents are those of the grammar in C106 (C108 compares it with the recommendation). C136_string reduces reading to addAll of the stated quads, C136_members says what contains, match and len give, C136_rejected covers other texts, C136_stream and C136_stream_lines streams."
 ],
 "C137": [
  "partial",
  "It is false (C137_refuted): a Triple has no graph attribute. C137_exact and C137_turtle: a document with a statement raises AttributeError and leaves the dataset unchanged, one without does nothing; C137_stream: the same for streams."
 ],
 "C138": [
  "proved",
  "C138_undisturbed gives the final graph, the visited list and the outcome of the loop exactly; C138_visits states it with the set of triples; C138_resource is the loop over a resource."
 ],
 "C139": [
  "partial",
  "It is false (C139_refuted, C139_skips): with one given position the loop is two-level, and values added or removed under a key still to come are silently visited or skipped. C139_partial: for patterns with two given positions or none, the first run of the body that changes the number of matching triples makes the loop raise RuntimeError right after it."
 ],
 "C140": [
  "proved",
  "C140_snapshot (the only exception is the TypeError of classifying a node), C140_literals (no exception for literal values), C140_empties (the removing loop)."
 ],
 "C141": [
  "proved",
  "C141_order, C141_own, C141_inherited, C141_first_giver, C141_single. That the first listed base always decides is false (C141_first_refuted): a base which only inherits the attribute is passed over for a later, more specific one. C141_accepts_iff and C141_no_order: which class statements are accepted, and that the others raise TypeError. C141_c3: the order is exactly C3's merge, tie-break included, which determines it (Spec.C3.unique)."
 ],
 "C142": [
  "partial",
  "It is false (C142_refuted): every reading makes new blank nodes. C142_exact: the second reading adds exactly a copy, with new blank nodes, of the statements that mention a label, and the length grows by the number of those; C142_ground: without labels the graph is unchanged."
 ],
 "C143": [
  "proved",
  "C143_ntriples is the whole path for keys that are not scalar; C143_values and C143_scalar state the reading in any graph equal up to blank nodes to the one assigned to, which is what C132_ntriples gives for N-Triples and C132_turtle for Turtle. The scalar case is for literals without a language."
 ],
 "C144": [
  "partial",
  "The first sentence is false (C144_refuted): labels, [] and collections stand for new blank nodes in each reading. C144_exact: the second reading succeeds and adds exactly a copy, with new identities, of the statements that have one, none of which was there, and the length grows by their number; C144_ground: without identities the graph is unchanged. C144_uniform is the second sentence: outcome and statements are the same from every state of the allocator, up to moving the new identities."
 ],
 "C145": [
  "proved",
  "C145_exact, C145_set (same set of values, graphs that agree elsewhere), C145_overwrite (the last assignment decides). For scalar keys it is false: C145_scalar_refuted, see C47."
 ],
 "C146": [
  "proved",
  "C146_objects, C146_contains, C146_match, C146_match_named, C146_iter, C146_len give all observations in terms of a small specification (Spec/Shared) of which object stands under which name and what it holds; C146_live: a graph put under a name and the dataset agree whatever is done later, until another graph is put there. Not in the histories: Dataset.removeMatches (C14) and a graph shared by two datasets."
 ],
 "C147": [
  "partial",
  "Not true as stated (C147_refuted): the escape of a surrogate is read in an IRI, and writing that IRI raises UnicodeEncodeError. C147_exact: writing succeeds exactly if no IRI or datatype that was read has a surrogate; C147_partial is the direction users need. C147_loads: the same for any number of documents, as text, bytes or files, of which some may be rejected."
 ],
 "C148": [
  "proved",
  "C148_graph for graphs made by a program, C148_document for graphs read from a document; C148_first_changes: a graph that was read and is changed by its first save and load. C148_loads: the same after loading any number of documents, as text, bytes or files."
 ],
 "C149": [
  "partial",
  "Not true as stated (C149_refuted, C149_list_unwritable, C149_tag_unread, C149_accent_changes): a list or node in brackets beside other objects leaves a generator in the graph, and writing it raises AttributeError; a language tag with a digit from 1 to 8 is written and not read as N-Triples; IRIs beyond ASCII come back percent-encoded. C149_written: exactly when writing succeeds. C149_turtle: what was written is always read as Turtle, with the exact result. C149_reads: exactly when it is read as N-Triples. C149_exact: exactly what is then read, and that it is settled (C148). C149_partial: the same graph for URI characters, kept literal characters, and no digits in tags."
 ],
 "C150": [
  "partial",
  "Not true as stated (C150_refuted): all blank nodes are shown alike. C150_exact: two statements are shown alike exactly if both are triples or both quads and their terms are alike (blank nodes; IRIs written alike, C24; literals with the same value and language and alike datatypes). C150_raises: repr raises exactly if an IRI or datatype has a surrogate, also beside a language. C150_string: the repr of strings is injective and self-delimiting, whatever is printable. C150_partial: without blank nodes, surrogates and percent signs it holds. IRIs are NamedNodes, not plain str."
 ],
 "C151": [
  "partial",
  "Not true as stated (C151_refuted): each class has a copy of its bases' prefixes, so List, and every other subclass that exists already, does not get a prefix added to Resource. C151_others: no other class is affected. C151_other_names: nor are other names of the class. C151_partial: the class itself and the classes defined from it afterwards get it. All theorems about programs (World.Reach) now include such changes."
 ],
 "C152": [
  "proved",
  "C152_exact: the language of every class afterwards; C152_class: the class itself; C152_read: what reading a scalar then gives, in terms of the triples (FirstOf, preference)."
 ],
 "C153": [
  "partial",
  "Not true as stated (C153_refuted: a document with a list beside another object, C63). C153_partial: true of the documents of C125_partial, in every program. C153_graph: in any graph, reading the name, iterating the acquaintances and reading theirs, if no types of the graph are registered."
 ],
 "C154": [
  "partial",
  "Not true (C154_refuted): strings are written as Turtle without escapes, so a string with a quote, a full stop and a statement is read as two statements (C154_string); so is a number (C154_number) or IRI (C154_iri) with such a text, and in N-Triples a language tag (C154_tag). C154_turtle_partial: exactly the triples of the graph are read if strings have no quotes, backslashes and line ends and the other texts are of their forms. C154_ntriples_partial: in N-Triples any texts of strings and IRIs are safe; only language tags must be such."
 ],
 "C155": [
  "partial",
  "Not true (C155_refuted): backslashes are not escaped but read as escapes, so each save and load halves them (C155_halved, C155_again). C155_partial: true of the graphs of C118_plain_partial, plain literals included, with blank nodes, any base and profile that leave the IRIs readable."
 ],
 "C156": [
  "partial",
  "Not true (C156_refuted, C156_date): a literal of any datatype but string, integer, decimal, double and boolean is written with one caret instead of two. C156_unreadable: one such literal makes the whole text unreadable, whatever else the graph has, and nothing is added to the graph it is read into; for all histories, bases, profiles, names and orders. C156_exact: for graphs without lists of IRIs that can be written, blank nodes, strings without quotes, backslashes and line ends, numbers and booleans in their forms, and literals of other datatypes, what is written is read if and only if there is none of the latter."
 ],
 "C157": [
  "partial",
  "Not true (C157_refuted, C157_either_way, C157_language): a node with two types whose classes are registered gets a class with those as bases in the order in which the set of types is iterated; if one is a subclass of the other, reading it raises TypeError in one run and not in another (C157_subclass: for all such nodes, unless the set of types was met before, there is an order that raises), and if they differ in language, two runs read different labels. C157_partial: as long as no node has two types with registered classes, two runs with any orders at any step see the same values, complete or fail together, and leave the same triples. The kind of exception, and in_graph, are not part of that theorem. in_graph also depends on the hash seed: C157_in_graph (one RDF class without instances, another with some: one run gives nothing, another all instances of the other), C157_in_graph_two (with two RDF classes the runs agree iff both or neither have instances), C157_in_graph_same."
 ],
 "C158": [
  "partial",
  "Not true as stated (C158_refuted): a document with a date is read, and the Turtle that is written for it is rejected. C158_partial: documents whose IRIs and literals can be written as Turtle (no lists, no special characters in literals) are converted and come back, for every profile, base, namer and order. C158_exact: if literals of other datatypes may occur as well, the result is read exactly if there are none."
 ],
 "C159": [
  "proved",
  "C159_exact (N-Triples and N-Quads), C159_graph (read into graphs), C159_lines (order and repetition of lines, including that both documents are read or both rejected), C159_stream (files), C159_dataset (read into datasets)."
 ],
 "C160": [
  "partial",
  "Not true as stated (C160_refuted): a collection among several objects is read as a generator object, and alone as a list. C160_partial: true for all documents without a collection or property list among several objects. C160_means_same: the recommendation gives the two documents the same triples, without that restriction. C160_perm: any permutation of the statements between directives is allowed."
 ],
 "C161": [
  "proved",
  "Parsers from pyld (to_rdf) and lxml are not modelled; for JSON-LD the result of to_rdf is an argument. A generator object that the Turtle parser stores (C63) counts as a blank node here."
 ],
 "C162": [
  "partial",
  "Refuted (C162_refuted): two threads that add triples with a common new subject may lose one of them in the index, since Index() is a Python function and defaultdict stores its result over what another thread stored meanwhile; the triple is in the graph but match does not find it (C162_lost). A triple added by one thread and removed by another may be found by match though it is not in the graph (C162_ghost). Proved for all schedules: in, len and iteration are right (C162_set), match gives only triples that were there or were added (C162_sound). C162_partial: all holds if terms and pairs of terms used by two threads are already in the graph and no thread removes what another adds or removes; C162_locked: all holds with a lock around each call; C162_alone: one thread alone does exactly what the sequential model does. Threads that only add: the graph is right but for what match misses (C162_adds), and adding every triple again in one thread makes match right too (C162_repair). C162_some: with threads that only add, in every schedule, some triple is still found under the subject, the predicate and the object of each triple in the graph."
 ],
 "C163": [
  "partial",
  "Refuted (C163_refuted): two threads that add quads to the same new graph may lose one altogether, membership and length included, since Graph() is Python code and defaultdict stores its result over the Graph another thread stored and filled meanwhile (C163_lost). A failing remove may leave a Graph without a name in place of the one add named, so that iteration gives a quad of a graph nobody used (C163_nameless). Proved for every schedule: membership and match give only quads that were there or are added by some thread, and only what fits the pattern (C163_sound). C163_partial: all holds if a graph used by two threads, and the terms and pairs of terms they both use in it, are there at the start, and no thread removes what another adds or removes; C163_own_graphs: so for threads that use different graphs, new ones included; C163_locked: with a lock around each call everything holds; C163_alone, C163_ends: a thread alone comes to its end with exactly what the calls give."
 ],
 "C164": [
  "partial",
  "Refuted (C164_refuted): a matching triple added while the reader is in a loop ends it with RuntimeError (C164_raises); if as many entries come as go, the reader goes on without an error and may pass over a triple that was there all the time (C164_skips, as CPython does it when the dict gets a new table). Proved for every schedule and whatever the loop meets in a table that was changed: the reader gets only triples that fit the pattern and that were there or are added by some thread, and it ends in order or with RuntimeError, never KeyError (C164_sound). C164_partial: if no call is about a triple that matches, the reader ends in order and gets exactly what match gives of the graph as it was. C164_one_way: if nothing is added to what the reader goes through in one go with something that is removed (so if the other threads only add, C164_adds, or only remove, C164_removes), the reader ends with RuntimeError or gets every matching triple that was there all the time, none twice; so passing over a triple silently needs an addition and a removal in one dict. C164_bound: with subject, predicate and object given the reader never raises and sees the graph as it is at one moment. Model: one reading thread."
 ],
 "C165": [
  "partial",
  "Refuted (C165_refuted): the indexes are defaultdicts, so a reader that looks up a key it has seen in another dict stores an empty dict; if two threads add at the same time, this can wipe out an entry: both triples are in the graph and neither is found by the subject (C165_wipes), which no schedule of the two threads brings about without the reader (C165_new). C165_partial: beside threads that keep apart (as in C162), in every interleaving with any number of readers, the graph with its indexes and the threads are at every moment in the state they are in without the readers, and each reader is where it is without the others, so that C162 and C164 hold with any number of readers. The same if add and remove are called with a lock and the readers take none (C165_locked), and C165_one_writer: one thread that adds and removes, and any number of readers. C165_sound: whatever the threads do, each of any number of readers gets only triples that fit its pattern and were there or are added, and ends in order or with RuntimeError. Model: each reader goes through one match."
 ],
 "C166": [
  "partial",
  "False for N-Triples (C166_refuted): a label may have a full stop in it, so a text cut after the full stop of the object _:x.y is read with the object _:x. C166_exact: two cases for every text and every cut that is read: the first statements, or these and one with the part of its object's label before a full stop. So the claim holds for all N-Quads texts (C166_nquads) and for N-Triples without such labels, as a string (C166_string_partial) and as a stream (C166_stream_partial). The library's own files: C166_written (any cut of what serialize_ntriples wrote: an error, or exactly the first triples), C166_torn (a cut within a line is always an error)."
 ],
 "C167": [
  "partial",
  "False (C167_refuted): 1.5 cut behind its point is read as the integer 1; the library's own files included, since serialize_turtle writes numbers bare (C167_own_file). C167_long_string: a cut within a long string, where a list of one string becomes a list of two (parse trees). C167_triples_partial: the claim for the triples of a text without blank nodes, if the cut is not in a token (the tokens of what is left are the first tokens of the text). C167_tokens_partial: the same for the statements of the parse tree, blank nodes or not. C167_white_partial: for the parse tree, if the cut is before white space and what is left is plainly a document, then it is read and its statements are the first of the text. Missing: which cuts within a token are misread; the triples of texts with blank nodes (whose identities depend on what follows)."
 ],
 "C168": [
  "proved",
  "C168_ntriples, C168_nquads, C168_turtle for every file that appends (Spec.Honest); C168_complete: no loss without an exception. C168_read: what a failed serialize_ntriples left in a new file is rejected, or read as exactly the first triples; for Turtle this is false (C168_turtle_read: the price 1.5 on a disk that is full after the point is read as 1). Not covered: files that buffer and lose text later."
 ],
 "C169": [
  "partial",
  "The last part is false (C169_refuted): the blank nodes of the second reading are new, so the triples with blank nodes of the first lines are there twice. C169_exact: what the graph has after the second reading, for every file. C169_partial: the claim for files without blank nodes. C169_reported (N-Triples and N-Quads, any sink): the exception is never swallowed. C169_first: exactly the first statements of the file have been added, with any sink. parseFrom_ends: for a file that ends, the model is that of C136 and C166."
 ],
 "C170": [
  "proved",
  "C170_ntriples; C170_turtle for all nameable graphs, lists included (first statements of the complete file, or rejected); C170_read: the triples that are read, for graphs without lists. The condition on the file is needed: C168_turtle_read has a file that stores a part of a text, and 1.5 becomes 1. quota is a file that meets it."
 ],
 "C171": [
  "proved",
  "C171_layout: Spec.Block.text and Spec.Entry.text say how a block is written, Spec.Layout what is in it. Assumes that List still resolves rdf:rest. Whether there is a text is C61; a subject of which all triples were removed still has a block, without entries (C04_lists_ever_added)."
 ],
 "C172": [
  "proved",
  "C172_local, with Spec.Layout of C171 for both texts. Graphs with blank nodes are outside the claim because labels are given in the order of writing: in C172_blank a blank node of one subject changes the block of another."
 ],
 "C173": [
  "proved",
  "C173_stable. Conditions as in C97 (Ground, SafeTriAt, SafeProfileAt). The condition on plain literals is needed: in C173_plain a plain literal and the same one with datatype xsd:string are written alike and come back as one. Blank nodes are outside the claim: their labels depend on the generator."
 ],
 "C174": [
  "partial",
  "It is false for both (C174_refuted, C174_ntriples_same: é and %C3%A9; C174_turtle_same: a string with quotes and line ends is written like two triples). C174_ntriples_exact: for all graphs of terms that can be written and read, the same text means that what N-Triples keeps of the triples is the same, up to blank nodes; so C174_ntriples_partial: IRIs of URI characters and literals without C0 controls. C174_turtle_exact: for the graphs of C118_plain_partial, with blank nodes, other labels and other runs allowed, the triples are the same but for plain literals and those typed xsd:string; C174_turtle_partial: without plain literals."
 ],
 "C175": [
  "partial",
  "It is false (C175_refuted): a plain literal stays one in N-Triples and is typed xsd:string by the Turtle parser. C175_exact: for graphs of terms that both formats can carry (conditions of C37_roundtrip_partial and C118_plain_partial), with blank nodes, both texts are written and read, and the results are the same exactly if there is no plain literal; C175_partial is the direction users need."
 ],
 "C176": [
  "partial",
  "It is false (C176_refuted): each call numbers the blank nodes afresh, so blank nodes of different graphs get the same label and are read as one. C176_exact: for all graphs that are read back by themselves (conditions of C118_plain_partial, literals as the Turtle parser types them), under other bases, profiles and names for each text, the file is read as the triples of the first and then those of the second, the blank nodes of each kept apart among themselves; the base of the second text must be given if the first has one, and must resolve to itself against it. C176_partial: if one of the graphs has no blank nodes, the file is read as the union."
 ],
 "C177": [
  "proved",
  "C177_union for terms that come back unchanged; C177_exact for all readable terms, with what survives of each as in C37. Blank nodes are numbers in the model; their names come from id(), so the graphs have to exist at the same time, as the statement says. Turtle differs (C176)."
 ]
}