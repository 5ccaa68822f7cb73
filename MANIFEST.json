{
 "claims": [
  {
   "property": "C01",
   "status": "proved",
   "theorems": [
    "Verif.C01_graph_refines_set",
    "Verif.C01_remove_outcome"
   ],
   "note": "Refinement to Finset by induction over histories; outcome of remove included."
  },
  {
   "property": "C02",
   "status": "proved",
   "theorems": [
    "Verif.C02_match_exact"
   ],
   "note": "All eight bound/unbound combinations, arbitrary set iteration order."
  },
  {
   "property": "C03",
   "status": "partial",
   "theorems": [
    "Verif.C03_empty_iri_is_wildcard",
    "Verif.C03_empty_iri_eq_none",
    "Verif.C03_given_term_constrains_partial"
   ],
   "note": "Code violates it: the empty IRI acts as a wildcard (negation proved). Exact behaviour and the part for non-empty terms proved."
  },
  {
   "property": "C04",
   "status": "partial",
   "theorems": [
    "Verif.C04_stale_subject",
    "Verif.C04_lists_ever_added",
    "Verif.C04_terms_in_use_partial"
   ],
   "note": "Code violates it: removal leaves stale terms (negation proved). Exact: the listings show the terms ever added."
  },
  {
   "property": "C05",
   "status": "partial",
   "theorems": [
    "Verif.C05_removeMatches_raises",
    "Verif.C05_removeMatches_exact",
    "Verif.C05_removeMatches_partial"
   ],
   "note": "Code violates it: an open pattern with a match removes one triple and raises RuntimeError (negation and exact behaviour proved). Holds for fully given patterns and for no match."
  },
  {
   "property": "C06",
   "status": "proved",
   "theorems": [
    "Verif.C06_addAll_union",
    "Verif.C06_merge_union"
   ],
   "note": "addAll and merge are unions, including match on the merged graph."
  },
  {
   "property": "C07",
   "status": "proved",
   "theorems": [
    "Verif.C07_order_unobservable",
    "Verif.C07_adds_same_elements"
   ],
   "note": "Any two histories with the same set are indistinguishable; adds of the same elements give the same set."
  },
  {
   "property": "C08",
   "status": "partial",
   "theorems": [
    "Verif.C08_addTuple_not_atomic",
    "Verif.C08_addTuple_inconsistent",
    "Verif.C08_atomic_partial"
   ],
   "note": "Code violates it for plain tuples, as Resource.copy passes them (negation proved); add/addAll/remove of triples are atomic."
  },
  {
   "property": "C09",
   "status": "proved",
   "theorems": [
    "Verif.C09_lazy_listing",
    "Verif.C09_size_change_raises",
    "Verif.C09_finished",
    "Verif.C09_remove_yielded",
    "Verif.C09_add_while_iterating_all",
    "Verif.C09_together_raises",
    "Verif.C09_bound_ends",
    "Verif.C09_outer_raises"
   ],
   "note": "Generator model: listing, size-change check for each pattern at every point of suspension (C09_together_raises, C09_outer_raises; with all positions given nothing is iterated, C09_bound_ends), removal of the yielded triple, insertion during full iteration."
  },
  {
   "property": "C10",
   "status": "partial",
   "theorems": [
    "Verif.C10_quads_lost",
    "Verif.C10_second_removal_fails",
    "Verif.C10_quads_found_partial",
    "Verif.C10_bound_match_misses_quads",
    "Verif.C10_exact",
    "Verif.C10_found_is_there",
    "Verif.C10_last_added"
   ],
   "note": "Code violates it: the same triple in two graphs (negation proved). Holds when no two statements agree in all three terms. C10_exact gives, for every history of add and remove with statements of any kind, what iteration, `in`, a pattern with one or two terms and remove do: a lookup finds the statement last added under its three terms as long as nothing was removed under them since."
  },
  {
   "property": "C100",
   "status": "proved",
   "theorems": [
    "Verif.C100_exact",
    "Verif.C100_failure"
   ],
   "note": "Exact for every string, against an inductive specification; C100_failure characterises the exception."
  },
  {
   "property": "C101",
   "status": "proved",
   "theorems": [
    "Verif.C101_listed",
    "Verif.C101_declared",
    "Verif.C101_shape",
    "Verif.C101_filter",
    "Verif.C101_name",
    "Verif.C101_name_no_language"
   ],
   "note": "Shape for every key; values for name keys and for all filters but classes (class filters: C83_class_selection and C49). C101_listed: what list() makes of the generator."
  },
  {
   "property": "C102",
   "status": "proved",
   "theorems": [
    "Verif.C102_object_of",
    "Verif.C102_inverse"
   ],
   "note": "TypeError is possible if the classes registered for a subject's types cannot be combined."
  },
  {
   "property": "C103",
   "status": "partial",
   "theorems": [
    "Verif.C103_resource",
    "Verif.C103_exact",
    "Verif.C103_no_language",
    "Verif.C103_not_scalar",
    "Verif.C103_text_partial",
    "Verif.C103_refuted",
    "Verif.C103_two_labels"
   ],
   "note": "False: C103_refuted (a label that is a node: AttributeError), C103_two_labels (ValueError). C103_exact gives the outcome in every case for classes with a language and a scalar rdfs:label; C103_text_partial the good case. C103_resource: the same for the class Resource in every program that leaves the prefixes rdf and rdfs and the language of Resource and List alone (World.Usual, builtin_kept). C103_no_language: the same for classes whose language is None (every label counts) or empty (plain labels only); C103_not_scalar: where rdfs:label is no scalar of the class, str(r) is AttributeError always."
  },
  {
   "property": "C104",
   "status": "partial",
   "theorems": [
    "Verif.C104_iff",
    "Verif.C104_refuted",
    "Verif.C104_explicit_partial",
    "Verif.C104_unmatched",
    "Verif.C104_list"
   ],
   "note": "False: C104_refuted (repeated namespace; IRI equal to a namespace beside a default namespace). C104_explicit_partial for the rest; C104_unmatched for IRIs in no namespace; C104_list for parse_curies is complete. C104_iff gives the exact condition for non-empty namespaces and prefixes without colon."
  },
  {
   "property": "C105",
   "status": "proved",
   "theorems": [
    "Verif.Env.C105_graph",
    "Verif.Env.C105_graph_back",
    "Verif.Env.C105_dataset",
    "Verif.Env.C105_nodes"
   ],
   "note": "Orders of sets are arbitrary. Literals are given by strings here; other values: C17, C79. C105_nodes is for strings; conversions of other values are C79."
  },
  {
   "property": "C106",
   "status": "proved",
   "theorems": [
    "Verif.C106_accepts",
    "Verif.C106_meaning",
    "Verif.C106_unambiguous"
   ],
   "note": "Against an inductive character-level grammar with longest match for labels and language tags (Spec/NTGrammar.lean, dialect `code`). The Lark grammar itself was transcribed by hand into the model."
  },
  {
   "property": "C107",
   "status": "partial",
   "theorems": [
    "Verif.C107_exact",
    "Verif.C107_meaning",
    "Verif.C107_refuted",
    "Verif.C107_strict_partial",
    "Verif.C107_legal_partial"
   ],
   "note": "False for the code: the label `_:a;b` is read (C107_refuted; white space in IRIs: C44). Proved for sentences without white space inside IRIs whose labels and language tags are those of the recommendation (C107_strict_partial, C107_legal_partial). Exactly: a text that is read is N-Triples (or N-Quads) for given statements iff it is a document of the restricted grammar `tidy` for them, and it is then read as what it means (C107_exact, C107_meaning)."
  },
  {
   "property": "C108",
   "status": "partial",
   "theorems": [
    "Verif.C108_never_misread",
    "Verif.C108_exact",
    "Verif.C108_one_meaning",
    "Verif.C108_refuted",
    "Verif.C108_tidy_partial",
    "Verif.C108_no_graph_rejected",
    "Verif.C108_bnode_graph_rejected",
    "Verif.C108_labels"
   ],
   "note": "False for the code: N-Quads statements without graph label or with a blank node for one are rejected always (C108_refuted, C108_no_graph_rejected, C108_bnode_graph_rejected), comments (C81), some labels (C108_labels), some language tags (C42). Proved for all documents without these (C108_tidy_partial), which are exactly the documents of the recommendations that are read (C108_exact); every other one is an error, never a different meaning (C108_never_misread)."
  },
  {
   "property": "C109",
   "status": "partial",
   "theorems": [
    "Verif.NTTurtle.C109_partial",
    "Verif.NTTurtle.C109_no_base_partial",
    "Verif.NTTurtle.C109_illegal_iri",
    "Verif.NTTurtle.C109_line_feed",
    "Verif.NTTurtle.C109_refuted"
   ],
   "note": "False for the code: blank node labels of N-Triples may contain colons, which Turtle has not (C109_refuted). Proved for all documents without such labels (and, if there are comments, without a carriage return that has no line feed after it: see C95), any base (C109_partial, C109_no_base_partial); documents with an illegal character behind an escape in an IRI are rejected (C109_illegal_iri), except a line feed at the end (C109_line_feed)."
  },
  {
   "property": "C11",
   "status": "proved",
   "theorems": [
    "Verif.C11_dataset_refines_set",
    "Verif.C11_remove_outcome",
    "Verif.C11_contains_triple"
   ],
   "note": "Refinement to a Finset of quads by induction over histories; outcome of remove and triple membership included."
  },
  {
   "property": "C110",
   "status": "partial",
   "theorems": [
    "Verif.NTTurtle.C110_refuted",
    "Verif.NTTurtle.C110_partial"
   ],
   "note": "False for the code: `<s> <p> _:a;<q>_:b.` is one triple in N-Triples and two in Turtle (C110_refuted). Proved for the grammar both share (C110_partial)."
  },
  {
   "property": "C111",
   "status": "proved",
   "theorems": [
    "Verif.NTTurtle.C111_conforms"
   ],
   "note": "For graphs of RDF triples whose language tags are of the form of BCP47 and whose IRIs have no surrogates."
  },
  {
   "property": "C112",
   "status": "partial",
   "theorems": [
    "Verif.NTTurtle.C112_exact",
    "Verif.NTTurtle.C112_refuted",
    "Verif.NTTurtle.C112_partial"
   ],
   "note": "False for the code: IRIs come back percent-encoded (C112_refuted), as in C37. Exact result for all graphs of C111 (C112_exact), equality for IRIs of URI characters and literals without C0 control characters (C112_partial)."
  },
  {
   "property": "C113",
   "status": "partial",
   "theorems": [
    "Verif.C113_exact",
    "Verif.C113_refuted",
    "Verif.C113_classify_partial"
   ],
   "note": "Violated: the import raises ValueError in a fresh program (C113_refuted), because the class attributes are called `namespaces` and `scaler`. C113_exact: what happens in every state (the prefix can also be given to Resource before the import); C113_classify_partial: with the prefix in either place, Concepts are classified."
  },
  {
   "property": "C114",
   "status": "proved",
   "theorems": [
    "Verif.C114_ne",
    "Verif.C114_laws"
   ],
   "note": "All pairs of values."
  },
  {
   "property": "C115",
   "status": "proved",
   "theorems": [
    "Verif.C115_as",
    "Verif.C115_view",
    "Verif.C115_string",
    "Verif.C115_repr",
    "Verif.C115_repr_class"
   ],
   "note": "All resources with IRI or blank node subjects, and the constructor for other values."
  },
  {
   "property": "C116",
   "status": "proved",
   "theorems": [
    "Verif.C116_bytes",
    "Verif.C116_text"
   ],
   "note": "All byte strings and sinks; includes that the decoder accepts exactly the encodings of texts."
  },
  {
   "property": "C117",
   "status": "partial",
   "theorems": [
    "Verif.C117_members",
    "Verif.C117_errors",
    "Verif.C117_triples_partial",
    "Verif.C117_turtle",
    "Verif.C117_refuted",
    "Verif.C117_quads"
   ],
   "note": "Violated for N-Quads: the result is a Graph, in which of two quads with the same triple only one is found (C117_refuted, C117_quads). Proved for N-Triples and Turtle (C117_triples_partial, C117_turtle), membership and errors for all (C117_members, C117_errors)."
  },
  {
   "property": "C118",
   "status": "partial",
   "theorems": [
    "Verif.Turtle.C118_plain_partial",
    "Verif.Turtle.C118_round_trip_partial",
    "Verif.Turtle.C118_refuted",
    "Verif.Turtle.C118_lists_partial",
    "Verif.Turtle.C118_shared_list",
    "Verif.Turtle.C118_lost_list",
    "Verif.Turtle.C118_lost_property",
    "Verif.Turtle.C118_two_objects",
    "Verif.Turtle.C118_other_language"
   ],
   "note": "It is false (C118_refuted, C97_base_cut: with a base that does not end in # or /, an IRI is cut where the reader does not join it). C118_round_trip_partial proves it for safe triples (legal IRIs that the base and namespaces leave readable, the literals of C62, blank nodes), any history in which every subject still has a triple, and any base; joins_hash, joins_slash and joins_alone give the conditions on IRIs for bases that end in # or / in terms of RFC 3986. C118_lists_partial adds lists of literals (each the only object of one triple, nothing else said of its cells, literals without a language or in that of List). Other lists: C118_shared_list (copied), C118_lost_list and C118_lost_property (not written), C118_two_objects (read as no term), C118_other_language and C61_list_of_iris (the writer stops). C118_plain_partial adds plain literals, which come back with the datatype xsd:string and otherwise as they were; C118_lists_partial includes them too, as objects and as items of lists."
  },
  {
   "property": "C119",
   "status": "partial",
   "theorems": [
    "Verif.C119_refuted",
    "Verif.C119_about",
    "Verif.C119_typed",
    "Verif.C119_property",
    "Verif.C119_comment",
    "Verif.C119_comment_inside",
    "Verif.C119_plain_partial",
    "Verif.C119_subject_partial",
    "Verif.C119_described_partial",
    "Verif.C119_element_partial"
   ],
   "note": "It is false (C119_refuted). C119_about: an element with rdf:about raises KeyError, for it looks up rdf:resource; C119_typed and C119_property: a tag in a namespace always raises, and nothing is added from there on. C119_plain_partial proves it for property elements without a namespace, C119_subject_partial for subjects given by rdf:nodeID, by rdf:ID and a base, or not at all. Comments and processing instructions among the elements raise TypeError (C119_comment, C119_comment_inside). C119_element_partial: an element without namespaces, written out with its property elements."
  },
  {
   "property": "C12",
   "status": "proved",
   "theorems": [
    "Verif.C12_match_exact"
   ],
   "note": "All sixteen pattern shapes, arbitrary set iteration orders."
  },
  {
   "property": "C120",
   "status": "partial",
   "theorems": [
    "Verif.Turtle.C120_exact",
    "Verif.Turtle.C120_partial",
    "Verif.Turtle.C120_line_feed",
    "Verif.Turtle.C120_refuted"
   ],
   "note": "It is false (C120_refuted, C120_line_feed): LEGAL_IRI ends in $, which also matches before a final newline, so an IRI reference that ends in the escape of a line feed is accepted. C120_exact: no other character gets through. C120_partial proves it for documents without such an escape."
  },
  {
   "property": "C121",
   "status": "proved",
   "theorems": [
    "Verif.Turtle.C121_prefixed_name",
    "Verif.Turtle.C121_string",
    "Verif.Turtle.C121_iri_reference"
   ],
   "note": "C121_string, C121_iri_reference and C121_prefixed_name give the meaning of the terminals; C65 says which base and namespace is in force where, C63 which triples the document has."
  },
  {
   "property": "C122",
   "status": "proved",
   "theorems": [
    "Verif.C122_unambiguous",
    "Verif.C122_resolve",
    "Verif.C122_empty",
    "Verif.C122_subclass",
    "Verif.C122_fresh"
   ],
   "note": "C122_resolve and C122_unambiguous: for all names against the relation CurieMeans; C122_empty: the empty name raises IndexError; C122_subclass: in terms of the class statement (with C57); C122_fresh: after the import."
  },
  {
   "property": "C123",
   "status": "proved",
   "theorems": [
    "Verif.Par.C123_interleaving",
    "Verif.Par.C123_threads"
   ],
   "note": "C123_interleaving: for arbitrary sequences of the steps, against the run of each thread alone; C123_threads: for calls of parse, against parseString and parseStream (what these hand over is C37-C44, C106). That lark itself may be shared is in the trusted base."
  },
  {
   "property": "C124",
   "status": "partial",
   "theorems": [
    "Verif.Par.C124_exact",
    "Verif.Par.C124_refuted",
    "Verif.Par.C124_string_partial"
   ],
   "note": "It is false (C124_refuted): the inner call deletes the table of labels of both. C124_exact: the outer call always ends in AttributeError. C124_string_partial: if it reads a string and the sink has taken its statements, both results have been handed over in full by then."
  },
  {
   "property": "C125",
   "status": "partial",
   "theorems": [
    "Verif.Turtle.C125_unique",
    "Verif.Turtle.C125_partial",
    "Verif.Turtle.C125_sound_partial",
    "Verif.Turtle.C125_refuted"
   ],
   "note": "It is false (C125_refuted): a collection among several objects. C125_partial: it holds for all documents without collections and property lists among several objects, whose references (absolute, relative, or with an authority only) and bases (which may be relative to the one before) are of the kinds that urljoin resolves as the RFC says (C91, C92), with no empty reference against a base with a fragment, with lines that do not end in CR alone. C125_sound_partial: the converse, what is parsed from any text is the graph of the document that the text is. C125_unique: the recommendation gives a document one graph up to isomorphism. The specification (Spec/TurtleDoc) uses no function of the model."
  },
  {
   "property": "C126",
   "status": "proved",
   "theorems": [
    "Verif.C126_iter",
    "Verif.C126_reads",
    "Verif.C126_contains",
    "Verif.C126_views",
    "Verif.C126_empty_subject"
   ],
   "note": "C126_iter, C126_reads, C126_contains, C126_views. C126_empty_subject: the resource with the empty IRI lists the pairs of all triples of the graph, as graph.match takes its subject as absent (C03)."
  },
  {
   "property": "C127",
   "status": "partial",
   "theorems": [
    "Verif.C127_refuted",
    "Verif.C127_ends_partial",
    "Verif.C127_normal",
    "Verif.Turtle.C127_turtle_partial",
    "Verif.Turtle.C127_turtle_loops",
    "Verif.C127_endless",
    "Verif.C127_iff",
    "Verif.Turtle.C127_turtle_grows",
    "Verif.Turtle.C127_loop_fills"
   ],
   "note": "It is false (C127_refuted, C127_turtle_loops): a cell that is its own rest is iterated, and written, for ever. C127_ends_partial: iteration ends within as many steps as the graph has triples, and two, if no cell is reached from itself by rests; C127_turtle_partial: so does writing; C127_normal: a normal end means that rdf:nil is reached. C127_turtle_grows, C127_loop_fills: a writer that does not end writes without end. C127_iff: over cells with one first and one rest each, without registered classes, iteration ends if and only if rdf:nil is reached, and then normally; C127_endless: otherwise it yields the elements for ever. Cells with the empty IRI or None as their rest are excluded (C03)."
  },
  {
   "property": "C128",
   "status": "partial",
   "theorems": [
    "Verif.C128_injective",
    "Verif.C128_legal_partial",
    "Verif.C128_legal_exact",
    "Verif.C128_refuted",
    "Verif.C128_equal_partial",
    "Verif.C128_equal_refuted"
   ],
   "note": "It is false (C128_refuted): an offset with seconds, or of more than fourteen hours, is not a lexical form of xsd:dateTime; C128_legal_exact: exactly those are not; C128_legal_partial: for all other datetimes it is, with the right fields. C128_injective: the fields can always be read off the literal. C128_equal_refuted: noon in one zone equals one o'clock in another, but their literals differ; C128_equal_partial: for equal offsets the literals are equal exactly if the datetimes are."
  },
  {
   "property": "C129",
   "status": "proved",
   "theorems": [
    "Verif.C129_raises",
    "Verif.C129_exact",
    "Verif.C129_partial_file"
   ],
   "note": "C129_exact: the file is the text of the triples before the failing one, and conversely; C129_raises: which triples fail; C129_partial_file: reading the file back gives the triples before, in the form that survives (C37). Assumes that f.write does not fail itself and that nothing is lost in a buffer."
  },
  {
   "property": "C13",
   "status": "partial",
   "theorems": [
    "Verif.C13_match_creates_graph",
    "Verif.C13_graphs_after_match",
    "Verif.C13_reading_keeps_quads_partial"
   ],
   "note": "Code violates it: match with an unknown graph name creates that graph (negation and exact effect proved). The quads themselves never change."
  },
  {
   "property": "C130",
   "status": "partial",
   "theorems": [
    "Verif.Turtle.C130_refuted",
    "Verif.Turtle.C130_exact",
    "Verif.Turtle.C130_torn_partial",
    "Verif.Turtle.C130_default"
   ],
   "note": "It is false (C130_refuted): with the default name generator a blank node as a subject leaves only the directives (C130_default, for all such graphs), which read as an empty graph. C130_exact: for all graphs, the file has the directives, or these, complete blocks of the first subjects and the beginning of a block. C130_torn_partial: with legal profiles and terms that can be written or cannot be named, the file is just the directives or does not parse, so a failed write is never read as a part of the graph. Assumes that f.write does not fail itself and that nothing is lost in a buffer."
  },
  {
   "property": "C131",
   "status": "partial",
   "theorems": [
    "Verif.C131_refuted",
    "Verif.C131_node",
    "Verif.C131_which",
    "Verif.C131_colon_partial",
    "Verif.C131_exact"
   ],
   "note": "It is false (C131_refuted): TermMap.resolve returns a plain str, which has no toNT, so after an assignment to a property named by a term of the global profile or below its default vocabulary every attempt to write the graph fails (C131_exact). It holds for every name that resolves to a NamedNode (C131_node), which C131_which determines; in particular for names with a colon (C131_colon_partial). Modelled: the kind of the predicate object of each stored triple (Model/Kinds); datatypes of keys are NamedNodes, since a plain str is a language there; Literals of the caller are assumed to have NamedNodes as datatypes."
  },
  {
   "property": "C132",
   "status": "proved",
   "theorems": [
    "Verif.C132_selection",
    "Verif.C132_read",
    "Verif.C132_iter",
    "Verif.C132_ntriples",
    "Verif.C132_turtle",
    "Verif.C132_saved_loaded",
    "Verif.C132_list"
   ],
   "note": "C132_saved_loaded composes C132_ntriples (from C37_roundtrip_partial) with C132_read and C132_iter, which hold for any two graphs that are the same up to an injective choice of blank nodes, so also for graphs saved as Turtle (C132_turtle, from C118_round_trip_partial). C132_selection gives the lists of objects a key selects. The class of a value with blank-node types may differ: the recorded set of types names the old node."
  },
  {
   "property": "C133",
   "status": "proved",
   "theorems": [
    "Verif.C133_independent",
    "Verif.C133_any_order",
    "Verif.C133_needs_plain"
   ],
   "note": "C133_independent for lists of edits of any length, C133_any_order for their permutations. C133_needs_plain: with registered classes and an IRI as a value it is false, since classifying the value reads its types, which another edit may change."
  },
  {
   "property": "C134",
   "status": "proved",
   "theorems": [
    "Verif.C134_repeat",
    "Verif.C134_two_tags"
   ],
   "note": "C134_repeat: the second assignment succeeds and membership of every triple is unchanged. C134_two_tags shows that the condition on literals is needed: a Literal with both a language and a datatype is picked twice for removal and the second assignment raises KeyError."
  },
  {
   "property": "C135",
   "status": "partial",
   "theorems": [
    "Verif.C135_refuted",
    "Verif.C135_partial",
    "Verif.C135_exact"
   ],
   "note": "C135_refuted: a resource with an English and a plain rdfs:label still has rdfs:label after del. C135_partial proves the claim for keys with a language, datatype or empty filter, for predicates that are not scalar and for classes without a language. C135_exact covers the remaining keys: the key is still there iff some value that was not shown is of a kind that such a key may show."
  },
  {
   "property": "C136",
   "status": "proved",
   "theorems": [
    "Verif.C136_string",
    "Verif.C136_members",
    "Verif.C136_rejected",
    "Verif.C136_stream",
    "Verif.C136_stream_lines"
   ],
   "note": "The accepted documents are those of the grammar in C106 (C108 compares it with the recommendation). C136_string reduces reading to addAll of the stated quads, C136_members says what contains, match and len give, C136_rejected covers other texts, C136_stream and C136_stream_lines streams."
  },
  {
   "property": "C137",
   "status": "partial",
   "theorems": [
    "Verif.C137_exact",
    "Verif.C137_stream",
    "Verif.C137_turtle",
    "Verif.C137_refuted"
   ],
   "note": "It is false (C137_refuted): a Triple has no graph attribute. C137_exact and C137_turtle: a document with a statement raises AttributeError and leaves the dataset unchanged, one without does nothing; C137_stream: the same for streams."
  },
  {
   "property": "C138",
   "status": "proved",
   "theorems": [
    "Verif.C138_undisturbed",
    "Verif.C138_visits",
    "Verif.C138_resource"
   ],
   "note": "C138_undisturbed gives the final graph, the visited list and the outcome of the loop exactly; C138_visits states it with the set of triples; C138_resource is the loop over a resource."
  },
  {
   "property": "C139",
   "status": "partial",
   "theorems": [
    "Verif.C139_refuted",
    "Verif.C139_skips",
    "Verif.C139_partial"
   ],
   "note": "It is false (C139_refuted, C139_skips): with one given position the loop is two-level, and values added or removed under a key still to come are silently visited or skipped. C139_partial: for patterns with two given positions or none, the first run of the body that changes the number of matching triples makes the loop raise RuntimeError right after it."
  },
  {
   "property": "C14",
   "status": "partial",
   "theorems": [
    "Verif.C14_removeMatches_raises",
    "Verif.C14_removeMatches_exact",
    "Verif.C14_removeMatches_partial"
   ],
   "note": "Code violates it: an open pattern with a match raises RuntimeError (negation and exact behaviour proved)."
  },
  {
   "property": "C140",
   "status": "proved",
   "theorems": [
    "Verif.C140_snapshot",
    "Verif.C140_literals",
    "Verif.C140_empties"
   ],
   "note": "C140_snapshot (the only exception is the TypeError of classifying a node), C140_literals (no exception for literal values), C140_empties (the removing loop)."
  },
  {
   "property": "C141",
   "status": "proved",
   "theorems": [
    "Verif.C141_order",
    "Verif.C141_own",
    "Verif.C141_inherited",
    "Verif.C141_first_giver",
    "Verif.C141_single",
    "Verif.C141_first_refuted",
    "Verif.C141_c3",
    "Verif.C141_accepts_iff",
    "Verif.C141_no_order"
   ],
   "note": "C141_order, C141_own, C141_inherited, C141_first_giver, C141_single. That the first listed base always decides is false (C141_first_refuted): a base which only inherits the attribute is passed over for a later, more specific one. C141_accepts_iff and C141_no_order: which class statements are accepted, and that the others raise TypeError. C141_c3: the order is exactly C3's merge, tie-break included, which determines it (Spec.C3.unique)."
  },
  {
   "property": "C142",
   "status": "partial",
   "theorems": [
    "Verif.C142_refuted",
    "Verif.C142_exact",
    "Verif.C142_ground"
   ],
   "note": "It is false (C142_refuted): every reading makes new blank nodes. C142_exact: the second reading adds exactly a copy, with new blank nodes, of the statements that mention a label, and the length grows by the number of those; C142_ground: without labels the graph is unchanged."
  },
  {
   "property": "C143",
   "status": "proved",
   "theorems": [
    "Verif.C143_values",
    "Verif.C143_ntriples",
    "Verif.C143_scalar"
   ],
   "note": "C143_ntriples is the whole path for keys that are not scalar; C143_values and C143_scalar state the reading in any graph equal up to blank nodes to the one assigned to, which is what C132_ntriples gives for N-Triples and C132_turtle for Turtle. The scalar case is for literals without a language."
  },
  {
   "property": "C144",
   "status": "partial",
   "theorems": [
    "Verif.Turtle.C144_uniform",
    "Verif.Turtle.C144_refuted",
    "Verif.Turtle.C144_exact",
    "Verif.Turtle.C144_ground"
   ],
   "note": "The first sentence is false (C144_refuted): labels, [] and collections stand for new blank nodes in each reading. C144_exact: the second reading succeeds and adds exactly a copy, with new identities, of the statements that have one, none of which was there, and the length grows by their number; C144_ground: without identities the graph is unchanged. C144_uniform is the second sentence: outcome and statements are the same from every state of the allocator, up to moving the new identities."
  },
  {
   "property": "C145",
   "status": "proved",
   "theorems": [
    "Verif.C145_exact",
    "Verif.C145_set",
    "Verif.C145_overwrite",
    "Verif.C145_scalar_refuted"
   ],
   "note": "C145_exact, C145_set (same set of values, graphs that agree elsewhere), C145_overwrite (the last assignment decides). For scalar keys it is false: C145_scalar_refuted, see C47."
  },
  {
   "property": "C146",
   "status": "proved",
   "theorems": [
    "Verif.C146_objects",
    "Verif.C146_contains",
    "Verif.C146_match",
    "Verif.C146_match_named",
    "Verif.C146_iter",
    "Verif.C146_len",
    "Verif.C146_live"
   ],
   "note": "C146_objects, C146_contains, C146_match, C146_match_named, C146_iter, C146_len give all observations in terms of a small specification (Spec/Shared) of which object stands under which name and what it holds; C146_live: a graph put under a name and the dataset agree whatever is done later, until another graph is put there. Not in the histories: Dataset.removeMatches (C14) and a graph shared by two datasets."
  },
  {
   "property": "C147",
   "status": "partial",
   "theorems": [
    "Verif.C147_loads",
    "Verif.C147_exact",
    "Verif.C147_refuted",
    "Verif.C147_partial"
   ],
   "note": "Not true as stated (C147_refuted): the escape of a surrogate is read in an IRI, and writing that IRI raises UnicodeEncodeError. C147_exact: writing succeeds exactly if no IRI or datatype that was read has a surrogate; C147_partial is the direction users need. C147_loads: the same for any number of documents, as text, bytes or files, of which some may be rejected."
  },
  {
   "property": "C148",
   "status": "proved",
   "theorems": [
    "Verif.C148_loads",
    "Verif.C148_graph",
    "Verif.C148_document",
    "Verif.C148_first_changes"
   ],
   "note": "C148_graph for graphs made by a program, C148_document for graphs read from a document; C148_first_changes: a graph that was read and is changed by its first save and load. C148_loads: the same after loading any number of documents, as text, bytes or files."
  },
  {
   "property": "C149",
   "status": "partial",
   "theorems": [
    "Verif.C149_written",
    "Verif.C149_turtle",
    "Verif.C149_reads",
    "Verif.C149_exact",
    "Verif.C149_partial",
    "Verif.C149_list_unwritable",
    "Verif.C149_refuted",
    "Verif.C149_tag_unread",
    "Verif.C149_accent_changes"
   ],
   "note": "Not true as stated (C149_refuted, C149_list_unwritable, C149_tag_unread, C149_accent_changes): a list or node in brackets beside other objects leaves a generator in the graph, and writing it raises AttributeError; a language tag with a digit from 1 to 8 is written and not read as N-Triples; IRIs beyond ASCII come back percent-encoded. C149_written: exactly when writing succeeds. C149_turtle: what was written is always read as Turtle, with the exact result. C149_reads: exactly when it is read as N-Triples. C149_exact: exactly what is then read, and that it is settled (C148). C149_partial: the same graph for URI characters, kept literal characters, and no digits in tags."
  },
  {
   "property": "C15",
   "status": "partial",
   "theorems": [
    "Verif.C15_unnamed_accepted",
    "Verif.C15_remove_graph_noop",
    "Verif.C15_violated",
    "Verif.C15_add_graph_exact_partial"
   ],
   "note": "Code violates it: an unnamed graph is stored as the IRI 'None' and remove_graph does nothing (both proved). Exact effect of add_graph proved."
  },
  {
   "property": "C150",
   "status": "partial",
   "theorems": [
    "Verif.C150_string",
    "Verif.C150_raises",
    "Verif.C150_exact",
    "Verif.C150_refuted",
    "Verif.C150_partial"
   ],
   "note": "Not true as stated (C150_refuted): all blank nodes are shown alike. C150_exact: two statements are shown alike exactly if both are triples or both quads and their terms are alike (blank nodes; IRIs written alike, C24; literals with the same value and language and alike datatypes). C150_raises: repr raises exactly if an IRI or datatype has a surrogate, also beside a language. C150_string: the repr of strings is injective and self-delimiting, whatever is printable. C150_partial: without blank nodes, surrogates and percent signs it holds. IRIs are NamedNodes, not plain str."
  },
  {
   "property": "C151",
   "status": "partial",
   "theorems": [
    "Verif.C151_others",
    "Verif.C151_class",
    "Verif.C151_other_names",
    "Verif.C151_partial",
    "Verif.C151_refuted"
   ],
   "note": "Not true as stated (C151_refuted): each class has a copy of its bases' prefixes, so List, and every other subclass that exists already, does not get a prefix added to Resource. C151_others: no other class is affected. C151_other_names: nor are other names of the class. C151_partial: the class itself and the classes defined from it afterwards get it. All theorems about programs (World.Reach) now include such changes."
  },
  {
   "property": "C152",
   "status": "proved",
   "theorems": [
    "Verif.C152_exact",
    "Verif.C152_class",
    "Verif.C152_read"
   ],
   "note": "C152_exact: the language of every class afterwards; C152_class: the class itself; C152_read: what reading a scalar then gives, in terms of the triples (FirstOf, preference)."
  },
  {
   "property": "C153",
   "status": "partial",
   "theorems": [
    "Verif.C153_graph",
    "Verif.C153_partial",
    "Verif.C153_refuted"
   ],
   "note": "Not true as stated (C153_refuted: a document with a list beside another object, C63). C153_partial: true of the documents of C125_partial, in every program. C153_graph: in any graph, reading the name, iterating the acquaintances and reading theirs, if no types of the graph are registered."
  },
  {
   "property": "C154",
   "status": "partial",
   "theorems": [
    "Verif.Turtle.C154_string",
    "Verif.Turtle.C154_number",
    "Verif.Turtle.C154_iri",
    "Verif.Turtle.C154_tag",
    "Verif.Turtle.C154_refuted",
    "Verif.Turtle.C154_turtle_partial",
    "Verif.Turtle.C154_ntriples_partial"
   ],
   "note": "Not true (C154_refuted): strings are written as Turtle without escapes, so a string with a quote, a full stop and a statement is read as two statements (C154_string); so is a number (C154_number) or IRI (C154_iri) with such a text, and in N-Triples a language tag (C154_tag). C154_turtle_partial: exactly the triples of the graph are read if strings have no quotes, backslashes and line ends and the other texts are of their forms. C154_ntriples_partial: in N-Triples any texts of strings and IRIs are safe; only language tags must be such."
  },
  {
   "property": "C155",
   "status": "partial",
   "theorems": [
    "Verif.Turtle.C155_halved",
    "Verif.Turtle.C155_again",
    "Verif.Turtle.C155_refuted",
    "Verif.Turtle.C155_partial"
   ],
   "note": "Not true (C155_refuted): backslashes are not escaped but read as escapes, so each save and load halves them (C155_halved, C155_again). C155_partial: true of the graphs of C118_plain_partial, plain literals included, with blank nodes, any base and profile that leave the IRIs readable."
  },
  {
   "property": "C156",
   "status": "partial",
   "theorems": [
    "Verif.Turtle.C156_date",
    "Verif.Turtle.C156_refuted",
    "Verif.Turtle.C156_unreadable",
    "Verif.Turtle.C156_exact"
   ],
   "note": "Not true (C156_refuted, C156_date): a literal of any datatype but string, integer, decimal, double and boolean is written with one caret instead of two. C156_unreadable: one such literal makes the whole text unreadable, whatever else the graph has, and nothing is added to the graph it is read into; for all histories, bases, profiles, names and orders. C156_exact: for graphs without lists of IRIs that can be written, blank nodes, strings without quotes, backslashes and line ends, numbers and booleans in their forms, and literals of other datatypes, what is written is read if and only if there is none of the latter."
  },
  {
   "property": "C157",
   "status": "partial",
   "theorems": [
    "Verif.C157_in_graph",
    "Verif.C157_in_graph_same",
    "Verif.C157_in_graph_two",
    "Verif.C157_partial",
    "Verif.C157_subclass",
    "Verif.C157_either_way",
    "Verif.C157_refuted",
    "Verif.C157_language"
   ],
   "note": "Not true (C157_refuted, C157_either_way, C157_language): a node with two types whose classes are registered gets a class with those as bases in the order in which the set of types is iterated; if one is a subclass of the other, reading it raises TypeError in one run and not in another (C157_subclass: for all such nodes, unless the set of types was met before, there is an order that raises), and if they differ in language, two runs read different labels. C157_partial: as long as no node has two types with registered classes, two runs with any orders at any step see the same values, complete or fail together, and leave the same triples. The kind of exception, and in_graph, are not part of that theorem. in_graph also depends on the hash seed: C157_in_graph (one RDF class without instances, another with some: one run gives nothing, another all instances of the other), C157_in_graph_two (with two RDF classes the runs agree iff both or neither have instances), C157_in_graph_same."
  },
  {
   "property": "C158",
   "status": "partial",
   "theorems": [
    "Verif.C158_partial",
    "Verif.C158_exact",
    "Verif.C158_refuted"
   ],
   "note": "Not true as stated (C158_refuted): a document with a date is read, and the Turtle that is written for it is rejected. C158_partial: documents whose IRIs and literals can be written as Turtle (no lists, no special characters in literals) are converted and come back, for every profile, base, namer and order. C158_exact: if literals of other datatypes may occur as well, the result is read exactly if there are none."
  },
  {
   "property": "C159",
   "status": "proved",
   "theorems": [
    "Verif.C159_dataset",
    "Verif.C159_files",
    "Verif.C159_exact",
    "Verif.C159_graph",
    "Verif.C159_lines",
    "Verif.C159_stream"
   ],
   "note": "C159_exact (N-Triples and N-Quads), C159_graph (read into graphs), C159_lines (order and repetition of lines, including that both documents are read or both rejected), C159_stream (files), C159_dataset (read into datasets)."
  },
  {
   "property": "C16",
   "status": "partial",
   "theorems": [
    "Verif.C16_alias_misreported",
    "Verif.C16_iter_eq_match_partial",
    "Verif.C16_iff"
   ],
   "note": "Code violates it for one Graph object under two names (negation proved). Holds for all histories without sharing. C16_iff: after every history, with sharing, iteration agrees with match() exactly if every graph that is not empty calls itself by the name it stands under."
  },
  {
   "property": "C160",
   "status": "partial",
   "theorems": [
    "Verif.Turtle.C160_means_same",
    "Verif.Turtle.C160_refuted",
    "Verif.Turtle.C160_partial",
    "Verif.Turtle.C160_perm"
   ],
   "note": "Not true as stated (C160_refuted): a collection among several objects is read as a generator object, and alone as a list. C160_partial: true for all documents without a collection or property list among several objects. C160_means_same: the recommendation gives the two documents the same triples, without that restriction. C160_perm: any permutation of the statements between directives is allowed."
  },
  {
   "property": "C161",
   "status": "proved",
   "theorems": [
    "Verif.C161_outcome",
    "Verif.C161_any_order",
    "Verif.C161_union",
    "Verif.C161_ds_outcome",
    "Verif.C161_ds_any_order"
   ],
   "note": "Parsers from pyld (to_rdf) and lxml are not modelled; for JSON-LD the result of to_rdf is an argument. A generator object that the Turtle parser stores (C63) counts as a blank node here."
  },
  {
   "property": "C162",
   "status": "partial",
   "theorems": [
    "Verif.C162_set",
    "Verif.C162_sound",
    "Verif.C162_partial",
    "Verif.C162_locked",
    "Verif.C162_alone",
    "Verif.C162_lost",
    "Verif.C162_refuted",
    "Verif.C162_ghost",
    "Verif.C162_adds",
    "Verif.C162_repair",
    "Verif.C162_some"
   ],
   "note": "Refuted (C162_refuted): two threads that add triples with a common new subject may lose one of them in the index, since Index() is a Python function and defaultdict stores its result over what another thread stored meanwhile; the triple is in the graph but match does not find it (C162_lost). A triple added by one thread and removed by another may be found by match though it is not in the graph (C162_ghost). Proved for all schedules: in, len and iteration are right (C162_set), match gives only triples that were there or were added (C162_sound). C162_partial: all holds if terms and pairs of terms used by two threads are already in the graph and no thread removes what another adds or removes; C162_locked: all holds with a lock around each call; C162_alone: one thread alone does exactly what the sequential model does. Threads that only add: the graph is right but for what match misses (C162_adds), and adding every triple again in one thread makes match right too (C162_repair). C162_some: with threads that only add, in every schedule, some triple is still found under the subject, the predicate and the object of each triple in the graph."
  },
  {
   "property": "C163",
   "status": "partial",
   "theorems": [
    "Verif.C163_locked",
    "Verif.C163_partial",
    "Verif.C163_own_graphs",
    "Verif.C163_ends",
    "Verif.C163_alone",
    "Verif.C163_lost",
    "Verif.C163_refuted",
    "Verif.C163_sound",
    "Verif.C163_nameless"
   ],
   "note": "Refuted (C163_refuted): two threads that add quads to the same new graph may lose one altogether, membership and length included, since Graph() is Python code and defaultdict stores its result over the Graph another thread stored and filled meanwhile (C163_lost). A failing remove may leave a Graph without a name in place of the one add named, so that iteration gives a quad of a graph nobody used (C163_nameless). Proved for every schedule: membership and match give only quads that were there or are added by some thread, and only what fits the pattern (C163_sound). C163_partial: all holds if a graph used by two threads, and the terms and pairs of terms they both use in it, are there at the start, and no thread removes what another adds or removes; C163_own_graphs: so for threads that use different graphs, new ones included; C163_locked: with a lock around each call everything holds; C163_alone, C163_ends: a thread alone comes to its end with exactly what the calls give."
  },
  {
   "property": "C164",
   "status": "partial",
   "theorems": [
    "Verif.C164_sound",
    "Verif.C164_partial",
    "Verif.C164_raises",
    "Verif.C164_refuted",
    "Verif.C164_skips",
    "Verif.C164_one_way",
    "Verif.C164_adds",
    "Verif.C164_removes",
    "Verif.C164_bound"
   ],
   "note": "Refuted (C164_refuted): a matching triple added while the reader is in a loop ends it with RuntimeError (C164_raises); if as many entries come as go, the reader goes on without an error and may pass over a triple that was there all the time (C164_skips, as CPython does it when the dict gets a new table). Proved for every schedule and whatever the loop meets in a table that was changed: the reader gets only triples that fit the pattern and that were there or are added by some thread, and it ends in order or with RuntimeError, never KeyError (C164_sound). C164_partial: if no call is about a triple that matches, the reader ends in order and gets exactly what match gives of the graph as it was. C164_one_way: if nothing is added to what the reader goes through in one go with something that is removed (so if the other threads only add, C164_adds, or only remove, C164_removes), the reader ends with RuntimeError or gets every matching triple that was there all the time, none twice; so passing over a triple silently needs an addition and a removal in one dict. C164_bound: with subject, predicate and object given the reader never raises and sees the graph as it is at one moment. Model: one reading thread."
  },
  {
   "property": "C165",
   "status": "partial",
   "theorems": [
    "Verif.C165_partial",
    "Verif.C165_locked",
    "Verif.C165_one_writer",
    "Verif.C165_sound",
    "Verif.C165_wipes",
    "Verif.C165_new",
    "Verif.C165_refuted"
   ],
   "note": "Refuted (C165_refuted): the indexes are defaultdicts, so a reader that looks up a key it has seen in another dict stores an empty dict; if two threads add at the same time, this can wipe out an entry: both triples are in the graph and neither is found by the subject (C165_wipes), which no schedule of the two threads brings about without the reader (C165_new). C165_partial: beside threads that keep apart (as in C162), in every interleaving with any number of readers, the graph with its indexes and the threads are at every moment in the state they are in without the readers, and each reader is where it is without the others, so that C162 and C164 hold with any number of readers. The same if add and remove are called with a lock and the readers take none (C165_locked), and C165_one_writer: one thread that adds and removes, and any number of readers. C165_sound: whatever the threads do, each of any number of readers gets only triples that fit its pattern and were there or are added, and ends in order or with RuntimeError. Model: each reader goes through one match."
  },
  {
   "property": "C166",
   "status": "partial",
   "theorems": [
    "Verif.C166_exact",
    "Verif.C166_refuted",
    "Verif.C166_string_partial",
    "Verif.C166_nquads",
    "Verif.C166_stream_partial",
    "Verif.C166_torn",
    "Verif.C166_written"
   ],
   "note": "False for N-Triples (C166_refuted): a label may have a full stop in it, so a text cut after the full stop of the object _:x.y is read with the object _:x. C166_exact: two cases for every text and every cut that is read: the first statements, or these and one with the part of its object's label before a full stop. So the claim holds for all N-Quads texts (C166_nquads) and for N-Triples without such labels, as a string (C166_string_partial) and as a stream (C166_stream_partial). The library's own files: C166_written (any cut of what serialize_ntriples wrote: an error, or exactly the first triples), C166_torn (a cut within a line is always an error)."
  },
  {
   "property": "C167",
   "status": "partial",
   "theorems": [
    "Verif.Turtle.C167_refuted",
    "Verif.Turtle.C167_own_file",
    "Verif.Turtle.C167_long_string",
    "Verif.Turtle.C167_tokens_partial",
    "Verif.Turtle.C167_white_partial",
    "Verif.Turtle.C167_triples_partial"
   ],
   "note": "False (C167_refuted): 1.5 cut behind its point is read as the integer 1; the library's own files included, since serialize_turtle writes numbers bare (C167_own_file). C167_long_string: a cut within a long string, where a list of one string becomes a list of two (parse trees). C167_triples_partial: the claim for the triples of a text without blank nodes, if the cut is not in a token (the tokens of what is left are the first tokens of the text). C167_tokens_partial: the same for the statements of the parse tree, blank nodes or not. C167_white_partial: for the parse tree, if the cut is before white space and what is left is plainly a document, then it is read and its statements are the first of the text. Missing: which cuts within a token are misread; the triples of texts with blank nodes (whose identities depend on what follows)."
  },
  {
   "property": "C168",
   "status": "proved",
   "theorems": [
    "Verif.C168_ntriples",
    "Verif.C168_nquads",
    "Verif.C168_turtle",
    "Verif.C168_complete",
    "Verif.C168_read",
    "Verif.C168_turtle_read"
   ],
   "note": "C168_ntriples, C168_nquads, C168_turtle for every file that appends (Spec.Honest); C168_complete: no loss without an exception. C168_read: what a failed serialize_ntriples left in a new file is rejected, or read as exactly the first triples; for Turtle this is false (C168_turtle_read: the price 1.5 on a disk that is full after the point is read as 1). Not covered: files that buffer and lose text later."
  },
  {
   "property": "C169",
   "status": "partial",
   "theorems": [
    "Verif.C169_refuted",
    "Verif.C169_reported",
    "Verif.C169_first",
    "Verif.C169_exact",
    "Verif.C169_partial"
   ],
   "note": "The last part is false (C169_refuted): the blank nodes of the second reading are new, so the triples with blank nodes of the first lines are there twice. C169_exact: what the graph has after the second reading, for every file. C169_partial: the claim for files without blank nodes. C169_reported (N-Triples and N-Quads, any sink): the exception is never swallowed. C169_first: exactly the first statements of the file have been added, with any sink. parseFrom_ends: for a file that ends, the model is that of C136 and C166."
  },
  {
   "property": "C17",
   "status": "proved",
   "theorems": [
    "Verif.C17_qt_inverse",
    "Verif.C17_make",
    "Verif.C17_asdict",
    "Verif.C17_replace",
    "Verif.C17_fields",
    "Verif.C17_literal"
   ],
   "note": "qAsT/tAsQ, _make, _asdict, _replace."
  },
  {
   "property": "C170",
   "status": "proved",
   "theorems": [
    "Verif.Turtle.C170_turtle",
    "Verif.Turtle.C170_read",
    "Verif.C170_ntriples"
   ],
   "note": "C170_ntriples; C170_turtle for all nameable graphs, lists included (first statements of the complete file, or rejected); C170_read: the triples that are read, for graphs without lists. The condition on the file is needed: C168_turtle_read has a file that stores a part of a text, and 1.5 becomes 1. quota is a file that meets it."
  },
  {
   "property": "C171",
   "status": "proved",
   "theorems": [
    "Verif.Turtle.C171_layout"
   ],
   "note": "C171_layout: Spec.Block.text and Spec.Entry.text say how a block is written, Spec.Layout what is in it. Assumes that List still resolves rdf:rest. Whether there is a text is C61; a subject of which all triples were removed still has a block, without entries (C04_lists_ever_added)."
  },
  {
   "property": "C172",
   "status": "proved",
   "theorems": [
    "Verif.Turtle.C172_local",
    "Verif.Turtle.C172_blank"
   ],
   "note": "C172_local, with Spec.Layout of C171 for both texts. Graphs with blank nodes are outside the claim because labels are given in the order of writing: in C172_blank a blank node of one subject changes the block of another."
  },
  {
   "property": "C173",
   "status": "proved",
   "theorems": [
    "Verif.Turtle.C173_stable",
    "Verif.Turtle.C173_plain"
   ],
   "note": "C173_stable. Conditions as in C97 (Ground, SafeTriAt, SafeProfileAt). The condition on plain literals is needed: in C173_plain a plain literal and the same one with datatype xsd:string are written alike and come back as one. Blank nodes are outside the claim: their labels depend on the generator."
  },
  {
   "property": "C174",
   "status": "partial",
   "theorems": [
    "Verif.C174_ntriples_exact",
    "Verif.C174_ntriples_partial",
    "Verif.C174_turtle_exact",
    "Verif.C174_turtle_partial",
    "Verif.C174_ntriples_same",
    "Verif.C174_turtle_same",
    "Verif.C174_refuted"
   ],
   "note": "It is false for both (C174_refuted, C174_ntriples_same: \u00e9 and %C3%A9; C174_turtle_same: a string with quotes and line ends is written like two triples). C174_ntriples_exact: for all graphs of terms that can be written and read, the same text means that what N-Triples keeps of the triples is the same, up to blank nodes; so C174_ntriples_partial: IRIs of URI characters and literals without C0 controls. C174_turtle_exact: for the graphs of C118_plain_partial, with blank nodes, other labels and other runs allowed, the triples are the same but for plain literals and those typed xsd:string; C174_turtle_partial: without plain literals."
  },
  {
   "property": "C175",
   "status": "partial",
   "theorems": [
    "Verif.C175_exact",
    "Verif.C175_partial",
    "Verif.C175_refuted"
   ],
   "note": "It is false (C175_refuted): a plain literal stays one in N-Triples and is typed xsd:string by the Turtle parser. C175_exact: for graphs of terms that both formats can carry (conditions of C37_roundtrip_partial and C118_plain_partial), with blank nodes, both texts are written and read, and the results are the same exactly if there is no plain literal; C175_partial is the direction users need."
  },
  {
   "property": "C176",
   "status": "partial",
   "theorems": [
    "Verif.Turtle.C176_exact",
    "Verif.Turtle.C176_conflated",
    "Verif.Turtle.C176_refuted",
    "Verif.Turtle.C176_partial"
   ],
   "note": "It is false (C176_refuted): each call numbers the blank nodes afresh, so blank nodes of different graphs get the same label and are read as one. C176_exact: for all graphs that are read back by themselves (conditions of C118_plain_partial, literals as the Turtle parser types them), under other bases, profiles and names for each text, the file is read as the triples of the first and then those of the second, the blank nodes of each kept apart among themselves; the base of the second text must be given if the first has one, and must resolve to itself against it. C176_partial: if one of the graphs has no blank nodes, the file is read as the union."
  },
  {
   "property": "C177",
   "status": "proved",
   "theorems": [
    "Verif.C177_exact",
    "Verif.C177_union"
   ],
   "note": "C177_union for terms that come back unchanged; C177_exact for all readable terms, with what survives of each as in C37. Blank nodes are numbers in the model; their names come from id(), so the graphs have to exist at the same time, as the statement says. Turtle differs (C176)."
  },
  {
   "property": "C18",
   "status": "proved",
   "theorems": [
    "Verif.C18_escape_safe"
   ],
   "note": "Against a separate grammar of STRING_LITERAL_QUOTE and a scanner for the first unescaped quote."
  },
  {
   "property": "C19",
   "status": "partial",
   "theorems": [
    "Verif.C19_controls_dropped",
    "Verif.C19_decode_escape_exact",
    "Verif.C19_roundtrip_partial"
   ],
   "note": "Code violates it: C0 control characters are dropped (negation proved). Exact result for all strings; round trip holds iff none occurs."
  },
  {
   "property": "C20",
   "status": "partial",
   "theorems": [
    "Verif.C20_not_injective",
    "Verif.C20_written_alike_iff",
    "Verif.C20_injective_partial"
   ],
   "note": "Code violates it: a datatype beside a language is not written, control characters are dropped, IRIs are percent-encoded (negation proved). Exact criterion for equal forms, and injectivity on well-formed literals with percent-free datatypes."
  },
  {
   "property": "C21",
   "status": "proved",
   "theorems": [
    "Verif.C21_raises",
    "Verif.C21_transparent",
    "Verif.C21_raises_only"
   ],
   "note": "Transparency on backslash-free prefixes; every failure is located at a \\\\U escape above U+10FFFF."
  },
  {
   "property": "C22",
   "status": "proved",
   "theorems": [
    "Verif.C22_quote_ascii_idempotent",
    "Verif.C22_surrogate_raises"
   ],
   "note": "Exact character set, idempotence, fixed points, surrogates."
  },
  {
   "property": "C23",
   "status": "proved",
   "theorems": [
    "Verif.C23_toNT_legal",
    "Verif.C23_percent_decodes"
   ],
   "note": "Written form is < + IRIREF characters + >; equals the IRI iff it has only URI characters; percent-decodes to the IRI if that has no percent sign."
  },
  {
   "property": "C24",
   "status": "partial",
   "theorems": [
    "Verif.C24_not_injective",
    "Verif.C24_written_alike_iff",
    "Verif.C24_injective_no_percent_partial",
    "Verif.C24_injective_normalized_partial",
    "Verif.C24_injective_normalized"
   ],
   "note": "Code violates it: \u00e9 and %C3%A9 are written alike (negation proved). Two IRIs are written alike iff their quoted forms agree; injective on percent-free IRIs and on all normalized IRIs without white space and control characters (C24_injective_normalized)."
  },
  {
   "property": "C25",
   "status": "partial",
   "theorems": [
    "Verif.C25_not_idempotent",
    "Verif.C25_idempotent_partial",
    "Verif.C25_total_without_percent",
    "Verif.C25_fixed_iff",
    "Verif.C25_shorter",
    "Verif.C25_settles"
   ],
   "note": "Code violates it: %%34%31 (negation proved). C25_fixed_iff gives the fixed points exactly; idempotent whenever every percent sign starts an escape; for every string the result is never longer, equal length means a fixed point, and repeated normalization comes to rest within as many steps as there are characters (C25_settles)."
  },
  {
   "property": "C26",
   "status": "partial",
   "theorems": [
    "Verif.C26_space_lost",
    "Verif.C26_quote_normalize_partial",
    "Verif.C26_exact"
   ],
   "note": "Code violates it: a space becomes %20 and stays (negation proved). C26_exact: for a normalized IRI it holds iff there is no white space or control character in it."
  },
  {
   "property": "C27",
   "status": "proved",
   "theorems": [
    "Verif.C27_utf8_is_core",
    "Verif.C27_percent_encode",
    "Verif.C27_surrogate"
   ],
   "note": "UTF-8 bytes checked against the encoder of Lean's core library. C27_surrogate: surrogates raise UnicodeEncodeError."
  },
  {
   "property": "C28",
   "status": "proved",
   "theorems": [
    "Verif.C28_read",
    "Verif.C28_labels_distinct",
    "Verif.C28_labels_legal"
   ],
   "note": "Injectivity of the hex label; letters only."
  },
  {
   "property": "C29",
   "status": "partial",
   "theorems": [
    "Verif.C29_empty_raises_index_error",
    "Verif.C29_rules_partial",
    "Verif.C29_parse_curies"
   ],
   "note": "The empty string raises IndexError instead of ValueError (negation of the full statement proved); all rules proved for every non-empty string."
  },
  {
   "property": "C30",
   "status": "partial",
   "theorems": [
    "Verif.C30_replaces_every_occurrence",
    "Verif.C30_choice_exact",
    "Verif.C30_shrink_partial",
    "Verif.C30_exact",
    "Verif.C30_iff"
   ],
   "note": "Code violates it: every occurrence of the namespace is replaced (negation proved). Choice of namespace proved exactly; result proved when the namespace does not recur. C30_exact spells the replacement out; C30_iff: the claim holds for a matching namespace iff it does not recur (or equals prefix and separator)."
  },
  {
   "property": "C31",
   "status": "partial",
   "theorems": [
    "Verif.C31_roundtrip_fails",
    "Verif.C31_roundtrip_partial",
    "Verif.C31_exact",
    "Verif.C31_iff",
    "Verif.C31_unmatched"
   ],
   "note": "Code violates it in four ways (witnesses proved). Round trip proved under conditions excluding them. C31_exact, C31_iff and C31_unmatched give the result and the exact condition for non-empty namespaces and prefixes without colon."
  },
  {
   "property": "C32",
   "status": "proved",
   "theorems": [
    "Verif.C32_addAll"
   ],
   "note": "Both map classes, both modes, every key."
  },
  {
   "property": "C33",
   "status": "proved",
   "theorems": [
    "Verif.C33_termmap"
   ],
   "note": "All four clauses."
  },
  {
   "property": "C34",
   "status": "proved",
   "theorems": [
    "Verif.C34_profile"
   ],
   "note": "Heap model with sharing; any initial maps."
  },
  {
   "property": "C35",
   "status": "proved",
   "theorems": [
    "Verif.C35_new_objects",
    "Verif.C35_empty",
    "Verif.C35_copies_independent",
    "Verif.C35_termmap_copy_loses_default",
    "Verif.C35_profile_shared",
    "Verif.C35_empty_terms_not_shared"
   ],
   "note": "Heap model; arbitrary histories. Also: the copy of a term map loses its default, and an empty term map is not shared."
  },
  {
   "property": "C36",
   "status": "proved",
   "theorems": [
    "Verif.C36_reflexive_symmetric",
    "Verif.C36_regions",
    "Verif.C36_not_transitive"
   ],
   "note": "Also: not transitive."
  },
  {
   "property": "C37",
   "status": "partial",
   "theorems": [
    "Verif.C37_roundtrip_exact",
    "Verif.C37_iri_changed",
    "Verif.C37_roundtrip_partial"
   ],
   "note": "The code violates the property (C37_iri_changed: non-ASCII IRIs come back percent-encoded). C37_roundtrip_exact gives the exact result for every graph of readable terms, C37_roundtrip_partial the round trip for graphs of plain terms."
  },
  {
   "property": "C38",
   "status": "partial",
   "theorems": [
    "Verif.C38_exact",
    "Verif.C38_iff",
    "Verif.C38_language_breaks_framing",
    "Verif.C38_framing_partial",
    "Verif.C38_concatenation"
   ],
   "note": "Violated by a language with a line feed (C38_language_breaks_framing); holds for all other triples (C38_framing_partial), and concatenation of files holds without restriction."
  },
  {
   "property": "C39",
   "status": "partial",
   "theorems": [
    "Verif.C39_blank_line",
    "Verif.C39_stream_partial",
    "Verif.C39_blank_line_raises",
    "Verif.C39_exact"
   ],
   "note": "Violated: a blank line raises in a stream only (C39_blank_line; C39_blank_line_raises for every such stream). Holds for texts without blank lines and bare carriage returns (C39_stream_partial). C39_exact, for every text readable as a string: the stream succeeds iff every line holds a statement (RuntimeError otherwise), and has the same effect iff every line holds exactly one."
  },
  {
   "property": "C40",
   "status": "partial",
   "theorems": [
    "Verif.C40_string_atomic",
    "Verif.C40_stream_loses",
    "Verif.C40_stream_exact",
    "Verif.C40_stream_partial"
   ],
   "note": "The string half holds for all texts and sinks (C40_string_atomic). The stream half is violated by carriage returns between statements; exact behaviour in C40_stream_exact, and the property for texts without carriage returns in C40_stream_partial."
  },
  {
   "property": "C41",
   "status": "proved",
   "theorems": [
    "Verif.C41_labels_scoped",
    "Verif.C41_labels_scoped_stream",
    "Verif.C41_parses_disjoint"
   ],
   "note": "Strings, streams, and pairs of consecutive parses of either kind."
  },
  {
   "property": "C42",
   "status": "partial",
   "theorems": [
    "Verif.C42_graph",
    "Verif.C42_digit_rejected",
    "Verif.C42_exact",
    "Verif.C42_language_partial"
   ],
   "note": "Violated (C42_digit_rejected): LANGTAG has [a-zA-Z0_9]. C42_exact says for every tag which of the two happens. C42_graph says it for whole graphs: the file is read exactly if no tag has such a digit, and otherwise nothing is."
  },
  {
   "property": "C43",
   "status": "partial",
   "theorems": [
    "Verif.C43_never_isomorphic",
    "Verif.C43_never_same",
    "Verif.C43_not_readable",
    "Verif.C43_never_read",
    "Verif.C43_empty_partial"
   ],
   "note": "Violated: Quad.__str__ writes terms without brackets and quotes. C43_never_read: no dataset of absolute IRIs is ever read back. C43_never_isomorphic: no dataset with a quad in it comes back, whatever strings its IRIs and literals are and whatever names its blank nodes are given (C43_never_same: the case without blank nodes)."
  },
  {
   "property": "C44",
   "status": "partial",
   "theorems": [
    "Verif.C44_accepted",
    "Verif.C44_exact",
    "Verif.C44_other_white_space_partial"
   ],
   "note": "Violated: iriref is a rule, so white space between its tokens is ignored (C44_accepted, C44_exact); other white space is rejected."
  },
  {
   "property": "C45",
   "status": "proved",
   "theorems": [
    "Verif.C45_nonscalar",
    "Verif.C45_nonscalar_fails",
    "Verif.C45_scalar",
    "Verif.C45_empty_lang"
   ],
   "note": "C45_empty_lang shows why the class's lang must not be the empty string. C45_nonscalar_fails says exactly when the assignment fails."
  },
  {
   "property": "C46",
   "status": "proved",
   "theorems": [
    "Verif.C46_set_frame",
    "Verif.C46_set_reach",
    "Verif.C46_set_atomic"
   ],
   "note": "Every key shape and value, including calls that raise; C46_set_atomic: whether a call that raises changes anything."
  },
  {
   "property": "C47",
   "status": "proved",
   "theorems": [
    "Verif.C47_languages_coexist",
    "Verif.C47_read_back",
    "Verif.C47_both_keyError"
   ],
   "note": "C47_both_keyError: with an object that carries both the language and a datatype the assignment raises KeyError."
  },
  {
   "property": "C48",
   "status": "proved",
   "theorems": [
    "Verif.C48_del_exact",
    "Verif.C48_del_error",
    "Verif.C48_del_then_absent",
    "Verif.C48_del_name_then_absent",
    "Verif.C48_del_class_then_absent"
   ],
   "note": ""
  },
  {
   "property": "C49",
   "status": "proved",
   "theorems": [
    "Verif.C49_contains"
   ],
   "note": ""
  },
  {
   "property": "C50",
   "status": "partial",
   "theorems": [
    "Verif.C50_erase_exact",
    "Verif.C50_erase_partial",
    "Verif.C50_refuted"
   ],
   "note": "Violated for a resource whose subject is the empty IRI: erase then empties the graph. C50_erase_exact gives the exact effect, C50_erase_partial the claim for other subjects."
  },
  {
   "property": "C51",
   "status": "partial",
   "theorems": [
    "Verif.C51_new_exact",
    "Verif.C51_new_partial",
    "Verif.C51_refuted",
    "Verif.C51_blank_not_instance"
   ],
   "note": "Violated: without a subject, the new resource is NamedNode(str(BlankNode())), not a blank node. C51_new_partial proves the rest of the claim."
  },
  {
   "property": "C52",
   "status": "partial",
   "theorems": [
    "Verif.C52_in_graph_partial",
    "Verif.C52_refuted",
    "Verif.C52_in_graph_sound",
    "Verif.C52_exact"
   ],
   "note": "Violated for classes with several rdf classes: when the types tried so far leave no candidates, the search starts again. C52_in_graph_partial: classes with one rdf class, and graphs with at least one instance; C52_in_graph_sound gives what holds otherwise. C52_exact: for every graph and order of the types, exactly which types count (Counting.unique: there is one such list) and that the resources with all of these are returned."
  },
  {
   "property": "C53",
   "status": "partial",
   "theorems": [
    "Verif.C53_literal",
    "Verif.C53_unregistered",
    "Verif.C53_one",
    "Verif.C53_inherits_partial",
    "Verif.C53_fresh_new",
    "Verif.C53_fresh_define",
    "Verif.C53_fresh_setPrefix",
    "Verif.C53_fresh_setLang",
    "Verif.C53_fresh_register",
    "Verif.C53_fresh_classify",
    "Verif.C53_same_class",
    "Verif.C53_direct_subclasses_ok",
    "Verif.C53_refuted",
    "Verif.C53_stale",
    "Verif.C53_exact",
    "Verif.C53_registered_twice"
   ],
   "note": "Violated: registered classes that cannot be combined raise TypeError; a class registered later is not seen for a type set met before (C53_stale). The other parts are proved for all histories. C53_exact says what happens in every case, with the classes that can be combined described independently of the merge (Combines). C53_registered_twice: one class registered for two types of a node always gives TypeError."
  },
  {
   "property": "C54",
   "status": "partial",
   "theorems": [
    "Verif.C54_symm",
    "Verif.C54_refl",
    "Verif.C54_refuted",
    "Verif.C54_hash_refuted",
    "Verif.C54_partial",
    "Verif.C54_resources"
   ],
   "note": "Violated: not transitive (a resource with a blank node subject equals the string of its name), and equal values have different hashes. Proved for resources, and for IRI subjects."
  },
  {
   "property": "C55",
   "status": "partial",
   "theorems": [
    "Verif.C55_copy_exact",
    "Verif.C55_refuted"
   ],
   "note": "Violated: copy of a resource with any triple raises AttributeError; C55_copy_exact."
  },
  {
   "property": "C56",
   "status": "partial",
   "theorems": [
    "Verif.C56_unresolved_is_wildcard",
    "Verif.C56_refuted",
    "Verif.C56_unresolved_set",
    "Verif.C56_unknown_prefix_partial",
    "Verif.C56_unknown_prefix_raises"
   ],
   "note": "Violated: such a name acts as a wildcard over all predicates. Names with an unknown prefix do raise."
  },
  {
   "property": "C57",
   "status": "proved",
   "theorems": [
    "Verif.C57_names",
    "Verif.C57_inherited",
    "Verif.C57_sees_all",
    "Verif.C57_others_kept"
   ],
   "note": "C57_inherited on the tables of the class, C57_names on the names a program writes."
  },
  {
   "property": "C58",
   "status": "partial",
   "theorems": [
    "Verif.C58_list_class",
    "Verif.C58_exact",
    "Verif.C58_iff",
    "Verif.C58_list_partial",
    "Verif.C58_list_no_classes",
    "Verif.C58_refuted",
    "Verif.C58_cyclic_never_ends",
    "Verif.C58_is_list",
    "Verif.C58_finished"
   ],
   "note": "Violated (C58_refuted): a literal element in another language than the list class's is yielded as None. C58_list_partial for the other elements; C58_cyclic_never_ends: cyclic chains. C58_list_class: the class List meets the hypotheses in every program that leaves its prefixes rdf and rdfs and its language alone, with the RDF vocabulary's IRIs. C58_exact: each element is shown as itself, or as None if it is a literal without datatype in another language; C58_iff: the exact condition for the list to be shown as it is."
  },
  {
   "property": "C59",
   "status": "proved",
   "theorems": [
    "Verif.C59_partition"
   ],
   "note": ""
  },
  {
   "property": "C60",
   "status": "partial",
   "theorems": [
    "Verif.Turtle.C60_output",
    "Verif.Turtle.C60_exact",
    "Verif.Turtle.C60_exact_w3c",
    "Verif.Turtle.C60_refuted",
    "Verif.Turtle.C60_string_partial"
   ],
   "note": "False for the code: turtle_string_escape looks for escape sequences instead of special characters. Refuted (C60_refuted); C60_exact and C60_exact_w3c: a string is read back iff it has no double quote, backslash, line feed or carriage return. C60_output gives the text for every string: each character after a backslash is replaced by the raw character it stands for as an escape letter, nothing else changes."
  },
  {
   "property": "C61",
   "status": "partial",
   "theorems": [
    "Verif.Turtle.C61_writes_partial",
    "Verif.Turtle.C61_exact",
    "Verif.Turtle.C61_blank_node",
    "Verif.Turtle.C61_same_name",
    "Verif.Turtle.C61_list_of_iris",
    "Verif.Turtle.C61_refuted"
   ],
   "note": "False for the code (C61_refuted: a blank node stops the default writer, whose name generator is a generator without the method next; C61_list_of_iris: a list of IRIs stops every writer). Proved for graphs without blank nodes and lists, any profile with xsd, any base and names (C61_writes_partial); C61_exact: without lists, a graph is written by default iff it has no blank node (and never had one as a subject). With lists of literals: C118_lists_partial."
  },
  {
   "property": "C62",
   "status": "partial",
   "theorems": [
    "Verif.Turtle.C62_base_partial",
    "Verif.Turtle.C62_denotes_partial",
    "Verif.Turtle.C62_plain_literal",
    "Verif.Turtle.C62_typed_literal",
    "Verif.Turtle.C62_slash",
    "Verif.Turtle.C62_dot",
    "Verif.Turtle.C62_refuted"
   ],
   "note": "False for the code (C62_refuted: a plain literal comes back as xsd:string; C62_typed_literal: a single ^ is written; C62_slash, C62_dot: local names are not escaped). Proved, end to end through the writer's declarations and the parser, for safe nodes in safe profiles without a base (C62_denotes_partial). C62_base_partial: also with a base and for blank nodes, if the base leaves the IRIs readable (see C118). Plain literals in whole graphs: C118_plain_partial."
  },
  {
   "property": "C63",
   "status": "partial",
   "theorems": [
    "Verif.Turtle.C63_document_partial",
    "Verif.Turtle.C63_exact",
    "Verif.Turtle.C63_partial",
    "Verif.Turtle.C63_generator",
    "Verif.Turtle.C63_refuted"
   ],
   "note": "proved when no object list with several objects contains a collection or property list; C63_exact gives the behaviour for all documents; C63_refuted: `<s> <p> (), <o> .` puts a generator object into the graph"
  },
  {
   "property": "C64",
   "status": "partial",
   "theorems": [
    "Verif.Turtle.C64_partial",
    "Verif.Turtle.C64_is_list",
    "Verif.Turtle.C64_iterate",
    "Verif.Turtle.C64_refuted"
   ],
   "note": "C64_partial: any document without the shapes of C63_refuted and without collections as subjects of rdf:first/rdf:rest reads back cell by cell, at any nesting; C64_iterate adds List iteration. C64_refuted: a language-tagged element reads back as None (C58)"
  },
  {
   "property": "C65",
   "status": "proved",
   "theorems": [
    "Verif.Turtle.C65_base_unique",
    "Verif.Turtle.C65_prefix_unique",
    "Verif.Turtle.C65_scope",
    "Verif.Turtle.C65_accepts"
   ],
   "note": "C65_scope and C65_accepts: evaluation succeeds iff every name has a meaning under the last directives before it, and gives that meaning"
  },
  {
   "property": "C66",
   "status": "partial",
   "theorems": [
    "Verif.Turtle.C66_exact",
    "Verif.Turtle.C66_refuted",
    "Verif.Turtle.C66_bytes_partial"
   ],
   "note": "refuted: every stream raises TypeError (C66_exact); bytes work like text (C66_bytes_partial)"
  },
  {
   "property": "C67",
   "status": "proved",
   "theorems": [
    "Verif.C67_fragment",
    "Verif.C67_no_base"
   ],
   "note": "Against a model of urllib.parse.urljoin (CPython 3.11)."
  },
  {
   "property": "C68",
   "status": "proved",
   "theorems": [
    "Verif.C68_query_request",
    "Verif.C68_unencodable"
   ],
   "note": "Requests are compared with a separate reading of the SPARQL 1.1 Protocol (Spec/Sparql). A text with a lone surrogate sends nothing: C68_unencodable."
  },
  {
   "property": "C69",
   "status": "proved",
   "theorems": [
    "Verif.C69_update_request"
   ],
   "note": "For every configuration; graph arguments included."
  },
  {
   "property": "C70",
   "status": "partial",
   "theorems": [
    "Verif.C70_query_exact",
    "Verif.C70_refuted",
    "Verif.C70_json_partial",
    "Verif.C70_update_exact",
    "Verif.C70_network_error"
   ],
   "note": "Violated: RDF/XML, Turtle and XML results raise TypeError (StringIO of bytes), 204 raises AttributeError. C70_query_exact gives every case, C70_json_partial the part that holds."
  },
  {
   "property": "C71",
   "status": "proved",
   "theorems": [
    "Verif.C71_differences",
    "Verif.C71_once"
   ],
   "note": "Graphs as duplicate-free lists of triples."
  },
  {
   "property": "C72",
   "status": "proved",
   "theorems": [
    "Verif.C72_changeset"
   ],
   "note": "Reified statements are read off by Spec.Says."
  },
  {
   "property": "C73",
   "status": "partial",
   "theorems": [
    "Verif.C73_never_sent",
    "Verif.C73_no_address",
    "Verif.C73_refuted"
   ],
   "note": "Violated: every graph store operation raises AttributeError before sending anything (C73_never_sent)."
  },
  {
   "property": "C74",
   "status": "proved",
   "theorems": [
    "Verif.C74_quads",
    "Verif.C74_order"
   ],
   "note": "Given the result of the JSON-LD processor; any dataset reached by API calls as sink, any sink in C74_order."
  },
  {
   "property": "C75",
   "status": "partial",
   "theorems": [
    "Verif.C75_refuted",
    "Verif.C75_partial",
    "Verif.C75_exact"
   ],
   "note": "Violated: the graph becomes NamedNode('_:b0'). C75_exact says what happens; C75_partial: holds without such graph names."
  },
  {
   "property": "C76",
   "status": "partial",
   "theorems": [
    "Verif.C76_refuted",
    "Verif.C76_always_valueError"
   ],
   "note": "Violated: every document is rejected with ValueError (the root element is compared with a str)."
  },
  {
   "property": "C77",
   "status": "proved",
   "theorems": [
    "Verif.C77_one_or_none"
   ],
   "note": ""
  },
  {
   "property": "C78",
   "status": "proved",
   "theorems": [
    "Verif.C78_grouper",
    "Verif.C78_exact_multiple",
    "Verif.C78_zero"
   ],
   "note": "C78_zero: grouper(xs, 0) is empty."
  },
  {
   "property": "C79",
   "status": "proved",
   "theorems": [
    "Verif.C79_int_literal"
   ],
   "note": "Model of the constructor's type table; decimal representation proved injective."
  },
  {
   "property": "C80",
   "status": "proved",
   "theorems": [
    "Verif.C80_string_errors",
    "Verif.C80_stream_errors"
   ],
   "note": "Strings and streams."
  },
  {
   "property": "C81",
   "status": "partial",
   "theorems": [
    "Verif.C81_comment_rejected",
    "Verif.C81_comments_never_read"
   ],
   "note": "Violated: the grammar has no comments (C81_comment_rejected, and C81_comments_never_read for every position and comment)."
  },
  {
   "property": "C82",
   "status": "partial",
   "theorems": [
    "Verif.C82_exact",
    "Verif.C82_partial",
    "Verif.C82_refuted",
    "Verif.C82_concatenation"
   ],
   "note": "Violated: a second text that begins with a line of white space may parse on its own but not after a line (C82_refuted). Holds for every other second text (C82_partial); C82_exact says for all second texts what the whole reads as, errors included, with any line ends. Stated on the statements written in the texts; with C41 it carries over to the sink."
  },
  {
   "property": "C83",
   "status": "proved",
   "theorems": [
    "Verif.C83_filter_selection",
    "Verif.C83_name_selection",
    "Verif.C83_scalar_selection",
    "Verif.C83_scalar_no_language",
    "Verif.C83_class_selection"
   ],
   "note": "C83_filter_selection, C83_name_selection, C83_class_selection; scalars: C83_scalar_selection for classes with a language, C83_scalar_no_language for the others."
  },
  {
   "property": "C84",
   "status": "proved",
   "theorems": [
    "Verif.C84_language_filter",
    "Verif.C84_datatype_filter",
    "Verif.C84_wrong_language",
    "Verif.C84_class_filter"
   ],
   "note": "C84_language_filter, C84_datatype_filter, C84_class_filter (resources of the class, one or several; what the key shows is C83_class_selection), C84_wrong_language."
  },
  {
   "property": "C85",
   "status": "partial",
   "theorems": [
    "Verif.C85_reference_refused",
    "Verif.C85_refuted",
    "Verif.C85_set_datatype"
   ],
   "note": "Violated: AttributeError, or refused as part of a set. C85_reference_refused for every language and datatype filter. C85_set_datatype: a set of literals, strings and references with a reference in it is refused under a datatype filter too, with AttributeError unless a literal of another datatype is met first (ValueError)."
  },
  {
   "property": "C86",
   "status": "proved",
   "theorems": [
    "Verif.C86_scalar_language",
    "Verif.C86_scalar_datatype",
    "Verif.C86_scalar_class",
    "Verif.C86_scalar_class_set"
   ],
   "note": "C86_scalar_language, C86_scalar_datatype, C86_scalar_class (one resource), C86_scalar_class_set (any number)."
  },
  {
   "property": "C87",
   "status": "partial",
   "theorems": [
    "Verif.C87_unassignable",
    "Verif.C87_sets_raise",
    "Verif.C87_refuted"
   ],
   "note": "Violated: ValueError for a single value, TypeError for a set of literals and a non-scalar predicate."
  },
  {
   "property": "C88",
   "status": "proved",
   "theorems": [
    "Verif.C88_denotes",
    "Verif.C88_too_large",
    "Verif.C88_total",
    "Verif.C88_every",
    "Verif.C88_unique"
   ],
   "note": "Against an independent denotation relation (Spec/NTDenote). C88_every: all texts the grammar allows, with and without escapes that are no code point."
  },
  {
   "property": "C89",
   "status": "partial",
   "theorems": [
    "Verif.C89_refuted",
    "Verif.C89_never_equal"
   ],
   "note": "Violated: JSON-LD strings always carry a datatype, N-Triples strings never do (C89_never_equal)."
  },
  {
   "property": "C90",
   "status": "partial",
   "theorems": [
    "Verif.C90_refuted",
    "Verif.C90_exact",
    "Verif.C90_after_failure"
   ],
   "note": "Violated: AttributeError for every document with a statement (C90_exact); after a failed parse_json the statements go to the failed call's sink (C90_after_failure)."
  },
  {
   "property": "C91",
   "status": "partial",
   "theorems": [
    "Verif.C91_exact",
    "Verif.C91_iff",
    "Verif.C91_no_authority",
    "Verif.C91_refuted",
    "Verif.C91_partial"
   ],
   "note": "Violated: empty queries and parameters are dropped and the scheme is lower-cased. C91_partial: holds for other references and all bases. C91_exact gives what becomes of every absolute reference with an authority, C91_iff when it stays as it is, C91_no_authority that one without an authority never does beside a base with one."
  },
  {
   "property": "C92",
   "status": "partial",
   "theorems": [
    "Verif.C92_network_exact",
    "Verif.C92_network_partial",
    "Verif.C92_network_dots",
    "Verif.C92_empty",
    "Verif.C92_empty_base",
    "Verif.C92_refuted",
    "Verif.C92_partial"
   ],
   "note": "Violated: empty segments are dropped (C92_refuted), and dots in a reference with an authority are kept (C92_network_dots). C92_partial: equals RFC 3986 section 5.2 otherwise. C92_network_exact: the exact result for references with an authority; C92_empty: the empty reference gives the base as it is, with its fragment."
  },
  {
   "property": "C93",
   "status": "proved",
   "theorems": [
    "Verif.Turtle.C93_exact",
    "Verif.Turtle.C93_unambiguous"
   ],
   "note": "for the model's recursive-descent parser over the grammar of turtle.py:35-58; that Lark's LALR tables implement the grammar is trusted"
  },
  {
   "property": "C94",
   "status": "proved",
   "theorems": [
    "Verif.Turtle.C94_all_or_nothing",
    "Verif.Turtle.C94_graph"
   ],
   "note": ""
  },
  {
   "property": "C95",
   "status": "partial",
   "theorems": [
    "Verif.Turtle.C95_exact",
    "Verif.Turtle.C95_refuted",
    "Verif.Turtle.C95_partial"
   ],
   "note": "Refuted as stated: a comment that ends in CR alone swallows the following lines (`#\\r<s> <p> <o> .` is read as the empty document), and `BA\u017fE` is accepted. C95_exact: what is accepted, with the parser's own comments and keywords. C95_partial: the W3C terminals, for texts with LF or CR LF line ends and without \u017f, \u0130, \u0131."
  },
  {
   "property": "C96",
   "status": "partial",
   "theorems": [
    "Verif.Turtle.C96_exact",
    "Verif.Turtle.C96_refuted",
    "Verif.Turtle.C96_partial",
    "Verif.Turtle.C96_layout"
   ],
   "note": "Refuted as stated by comments that end in CR alone. C96_exact: with comments ending in LF, any layout of any document is read as that document. C96_partial: the W3C layout for texts with LF or CR LF line ends; C96_layout: equal triples."
  },
  {
   "property": "C97",
   "status": "partial",
   "theorems": [
    "Verif.Turtle.C97_base_partial",
    "Verif.Turtle.C97_base_cut",
    "Verif.Turtle.C97_round_trip_partial",
    "Verif.Turtle.C97_same_graph_partial",
    "Verif.Turtle.C97_stale_subject",
    "Verif.Turtle.C97_refuted"
   ],
   "note": "False for the code (C97_refuted: a subject all of whose triples were removed is written without predicate; also C62's failures). Proved for histories whose subjects are all in use and whose triples are safe IRIs and literals, without lists: the text is read as a permutation of the triples (C97_round_trip_partial) and into an equal graph (C97_same_graph_partial); with a base, C97_base_partial and C97_base_cut. With lists of literals: C118_lists_partial."
  },
  {
   "property": "C98",
   "status": "partial",
   "theorems": [
    "Verif.Turtle.C98_orders_partial",
    "Verif.Turtle.C98_same_text_partial",
    "Verif.Turtle.C98_object_order",
    "Verif.Turtle.C98_refuted",
    "Verif.Turtle.C98_exact"
   ],
   "note": "False for the code: objects of one subject and predicate are written in the order of addition (C98_refuted). Proved for graphs without lists with IRI subjects, all in use, if the objects of each subject and predicate were added in the same order, that is match(s, p) lists them alike (C98_orders_partial), and so if there is at most one object per subject and predicate (C98_same_text_partial); objects may be blank nodes, and errors agree too. C98_exact: for the graphs of C173 the texts of two graphs are the same exactly if the triples are and match(s, p) lists them alike."
  },
  {
   "property": "C99",
   "status": "proved",
   "theorems": [
    "Verif.C99_operations",
    "Verif.C99_others",
    "Verif.C99_resolve",
    "Verif.C99_histories"
   ],
   "note": "Against a specification on views (bindings as functions); any heap of dicts, any sharing. C99_resolve and C34 relate views to resolve."
  }
 ]
}