# Formal model of norcalrdf/pymantic in Lean 4 — design

## Layout

| path (under `lean/Verif/`) | content |
|---|---|
| `Py/*.lean` | the fragment of Python the code runs on: strings as code-point lists, insertion-ordered dicts, exceptions, UTF-8, `str.replace/partition/startswith`, `%X` formatting |
| `Model/*.lean` | the model: one Lean definition per Python function, each with a comment citing file and lines in `/repo` |
| `Spec/*.lean` | small independent specifications (finite sets of triples/quads, RFC 3986, the W3C grammars, the meaning of Turtle documents, …); they never mention model helpers |
| `Lemmas/*.lean` | helper lemmas |
| `Props/*.lean` | the property theorems `Cxx_…`, each with an `example` showing its hypotheses are met by a concrete non-trivial case |

`properties.jsonl` is the property list (generated by `tools/gen_props.py`), `MANIFEST.json` maps properties to theorems (`tools/gen_manifest.py`), `AXIOMS.txt`
lists the axioms of every theorem (`tools/axioms.sh`), `seeded/LOG.jsonl` records the mutation tests of the theorems (`tools/mutate.py`, `seeded/mutants/`),
`tools/coverage.py` lists the functions of `/repo` that no definition cites (none at present).
`tools/stdlib_check.py` and `tools/turtle_lex_check.py` compare the model of Python's standard library (urljoin, UTF-8, `quote`, `replace`, `repr`, `isoformat`, `zip_longest`, the
method resolution order) and of the lexer's regular expressions with Python 3.11 on random inputs: tests of assumptions in the trusted base, not proofs.

## Modelling conventions

* **Strings** are `List Nat` (code points; lone surrogates are representable, as in Python). `py! "..."` is literal syntax.
* **Terms** are an inductive type with `None`, `NamedNode`, `BlankNode` (an object identity), `Literal`, and an opaque
  generator object (needed for one defect of the Turtle transformer). Python equality on these is structural.
  `NamedNode`, `Prefix` and `str` with equal text are identified (they are equal and hash equal in Python).
* **Exceptions are values** (`Except Exc`), and a stateful operation returns the state *also when it raises*, so that
  failure atomicity is expressible.
* **dict** is an insertion-ordered association list, **set** a list without duplicates. Where the iteration order of a hash set is
  observable the model takes an arbitrary permutation as a parameter and theorems quantify over it.
* **Generators** consumed by mutating code are explicit suspended states with a `next` function, including CPython's
  "changed size during iteration" check.
* **Object identity** (`id()`, blank nodes, aliasing of graphs) is a natural-number heap address from a counter.
* **Sinks.** Parsers are modelled for any sink (`add : σ → Stmt → σ`), so that a theorem holds for graphs, datasets and anything else with `add`/`addAll`.

## What is modelled

| file | model | not modelled |
|---|---|---|
| `primitives.py` | `Term`, `Records`, `Repr`, `DateTime`, `Curie`, `Iri`, `Escape`, `Graph`, `GraphThreads` and `DatasetThreads` (threads in `add` and `remove`), `GraphReader` and `GraphReaders` (a thread or threads in `match` beside them), `Dataset`, `Profile`, `Environment` | `Graph._actions` (nothing reads it), `createAction` and the actions (they raise NotImplementedError), the `repr` of plain strings and Prefixes in place of NamedNodes |
| `rdf.py` | `Resource`, `ResCompare` | logging; classes that do not derive from Resource; keys that are tuples of fewer than two items (longer ones are read as their first two) |
| `vocab/skos.py` | `Skos` | |
| `serializers.py` | `Escape` (`nt_escape`), `NTriples` (writers), `TurtleSer`, `TurtleOut` (what has reached the file before an exception), `FailFile` (the writers with an `f.write` that may fail) | an `f.write` that buffers |
| `util.py` | `Escape`, `Iri`, `UrlJoin`, `Util`, `Grouper` | |
| `parsers/base.py`, `parsers/lark/base.py`, `ntriples.py`, `nquads.py` | `NTriples`, `ParserApi`, `ParserState` (threads, nested calls), `DatasetSink`, `FailStream` (a stream that raises) | the text of error messages |
| `parsers/lark/turtle.py` | `TurtleLex` (terminals and lexer), `Turtle` (grammar, transformer, `parse`), `ParserApi` | the text of error messages |
| `parsers/jsonld.py` | `JsonLd` | the JSON-LD processor `pyld` (its result is an argument) |
| `parsers/rdfxml.py` | `RdfXml` | `lxml` (its tree is an argument) |
| `sparql.py` | `Sparql` | `requests` below `Session.request` (an oracle), `json.loads` (an oracle), `rdflib` except as a set of triples, `lxml.objectify` |
| `uri_schemes.py` | `Curie` | |
| `scripts/` | | not part of the library (`named_graph_to_nquads` uses rdflib only, `bnf2html` is a W3C tool) |

## Plan per property

Shapes: R = refinement to a set specification by induction over histories; L = algebraic law by structural induction;
D = decision logic; G = equivalence of a recogniser with a grammar given as inductive relations; X = the property is false of the code: the negation is proved
with a concrete witness, the exact behaviour is characterised, and the part that holds is proved as `…_partial`.

* C01 R; C02 R (index invariant: each of the three nested dicts is a bijective image of the set); C03 X (empty IRI); C04 X (stale keys),
  partial: superset always, equality for add-only histories; C05 X (RuntimeError after first deletion), partial: fully bound pattern and no match;
  C06 R; C07 corollary of C01/C02; C08 X for plain tuples (`Resource.copy`), partial: remove, add of triples; C09 iterator model; C10 X.
* C11, C12 R over a heap of graphs; C13 X for `graphs`, partial for quads; C14 X; C15 X; C16 X under aliasing, partial without; C17 L.
* C18 L; C19 X (C0 controls dropped), exact law; C20 X/partial; C21 L; C22 L; C23 L; C24 X; C25 X, partial for well-formed percent escapes;
  C26 partial; C27 L; C28 L; C88 L (decode_literal against the denotation of escapes); C100 L (normalize_iri exactly).
* C29 D; C30 L; C31 X (`replace` replaces every occurrence, scheme names, empty references), partial; C32–C36 L/D; C99, C104, C105 D.
* C37 L (character-level recogniser for the N-Triples grammar; induction over the triple list with the label→node map as invariant);
  C38 L; C39 X (blank lines), partial; C40 L; C41 L; C42 X (`[a-zA-Z0_9]`); C43 X; C44 X; C80 L; C81 X; C82 X (second text beginning with a line of white space), exact; C106 G; C107, C108 X against the W3C grammar, partial by inclusion of
  dialects; C111 G (the writer's output is derived in the grammar); C116, C117 L; C123 simulation of the interleaved system by the threads alone, up to renaming; C124 X.
* C45–C59, C83–C87, C101–C103 model of `rdf.py` over the Graph model. C51 X (blank node becomes IRI), C52 X (several classes), C54 X (blank nodes),
  C55 X (plain tuple), C56 X (None predicate is a wildcard), C58 X for other-language literals; C113 X; C114, C115 L; C122 D; C126 R; C127 X, partial by a pigeonhole argument on the visited cells; the rest R/L.
* C60 X, C61 X, C62 X (`^` instead of `^^`, unescaped local names), C63 X (nested generators in object lists), partial; C64 L; C65 L; C66 X; C67 L; C91, C92 X against
  RFC 3986 section 5; C93–C96 G (tokens, trees, layout); C97, C98, C118 end to end (writer, lexer, parser, transformer; C118: the names the writer gives and the nodes the parser makes are
  related by any renaming compatible with both tables); C120 X, C121 L (terminals against their meaning in the recommendation); C125 composes C63, C65, C91–C93, C95, C96 and C121 into one statement about texts
  and graphs, against a specification (`Spec/TurtleDoc`) that uses no function of the model, up to isomorphism of graphs; C109, C110, C112 relate the two parsers: a relation between
  N-Triples derivations and Turtle token lists, then evaluation.
* C68–C70 D; C71 L; C72 L; C73 X; C74 L; C75 X; C76, C119 X; C77–C79, C89, C90 L/D; C128 X against the lexical space of xsd:dateTime, exact.
* C129 L: prefix of the lines, read back by C37's lemma; C130 X, exact by the writer with its writes (a writer monad), torn text rejected by C93/C96: its tokens are complete statements and the beginning of one.
* C131 X (a plain `str` predicate has no `toNT`), exact, over the kinds of the stored predicates (`Model/Kinds`: NamedNode or plain str); C132: graphs equal up to an injective choice of blank nodes are
  indistinguishable through resources, composed with C37 and C118.
* C133 I: what an edit does to its property depends on the values of that property only (all selections are filters of them), the rest is C46's frame; the condition on values is shown to be needed.
* C134, C135: what an assignment removes is chosen by tests that do not depend on the graph; after it, the chosen values are among the stored ones. C135 fails for keys with fallback selections and has an exact form for them.
* C39 II: a document is readable line by line iff every line is a statement of its own; proved by splitting the document parser at line ends.
* C60 II: the text of turtle_string_escape, as a map of the characters after backslashes. C136 R: reading N-Quads into a dataset is addAll of the stated quads, so C11 and C12 apply; C137 X, exact.
* C138 I: the generator's next step depends only on the sub-dictionary its loop reads (`Plan`, `SameView`), which edits elsewhere leave alone; C139 X; C140: the objects are selected before the loop.
* C141 I: the merge of C3 keeps every merged list as a sublist and has no duplicates; the rest is a search along the result. C142 X, exact: C41 for each reading; C143: C45 composed with C132.
* C57, C58, C101, C103 II (`Props/BuiltIn`): the claims for the library's own classes, with IRIs written out, so that they do not depend on the model's constants.
* C144 (`Lemmas/TurtleShift`, `Props/TurtleReload`): the Turtle transformer commutes with moving the allocator (by mutual induction on the tree), its names lie below the allocator it returns; from these the exact effect of a second reading.
* C145 (`Props/Overwrite`): exact content after assigning to a key that is not scalar, from C45 and the frame theorem of C46.
* C24, C25, C26 II (`Lemmas/IriFix`, `Props/IriFix`): fixed points of normalization for arbitrary strings, termination of repeated normalization, exact condition for C26.
* C10 II (`Props/GraphQuads`): exact behaviour of a Graph with arbitrary statements under every history of additions and removals (two-component specification `QSpec`).
* C30, C31, C91, C104 II (`Props/CurieExact`, `Props/UrlAbs`): exact results and exact conditions for shortening, expanding and joining IRIs.
* C58 II (`Props/ListExact`): what a List shows of each element, and the exact condition for it to show the elements themselves.
* C146, C16 II (`Spec/Shared`, `Props/Shared`): datasets whose Graph objects the program also holds, under any number of names; the exact condition for iteration to agree with match.
* C147, C148 (`Props/Settle`): which graphs read from N-Triples can be written again; writing and reading is idempotent up to the names of blank nodes.
* C149 (`Props/Convert`): what a graph read from Turtle can contain (every term of every triple), when it can be written as N-Triples, when that is read as N-Triples or Turtle, and what is then read.
* C150 X (`Model/Repr`, `Props/Repr`): `repr` of strings, terms and statements as a prefix code.
* C151 X, C152, C153 X (`Props/ResPrefix`): prefixes and languages given to existing classes (`World.setPrefix`, `World.setLang`, part of `World.Reach`), and the README's Quick Start as a composition of C125, C101 and C53.
* C127 II (`Props/ListLoops`): the exact condition for iteration over proper cells to end.
* C107 II, C108 II (`Props/NTExact`): alignment of the two grammars term by term (no token of one ends inside a token of the other), so the documents read are exactly those of `tidy`.
* C154 X, C155 X (`Props/TurtleInject`): texts that become statements when a graph is written and read, and saving a second time; plain literals in the round trip (`C118_plain_partial`).
* C156 X (`Props/TurtleTyped`): which written Turtle documents are read; one literal of a datatype without a short form makes the whole text unreadable. (`Frag` and the header now hold of every relation closed under white space and tokens, `Reads`.)
* C157 X (`Props/HashOrder`): two runs of a program with different hash orders; what depends on the order (a class and a subclass of it, languages).
* C158 X (`Props/ConvertBack`): N-Triples to Turtle, a composition of C41, C118 and C156. `Props/NQuadsWrite`: no dataset of IRIs and literals comes back from serialize_nquads (C43), by the length of the text; `Props/NQuadsBlank`: nor does one with blank nodes, by the number of characters < and \ in the text.
* C159 P (`Props/Relabel`): the order and repetition of lines and the labels of blank nodes cannot be seen in what is read from N-Triples or N-Quads, and everything else can. `Props/HashInGraph`: `in_graph` and the hash seed (C157).
* C160 X (`Props/TurtleSame`): the same for Turtle, with abbreviations: rewriting steps on syntax trees that keep `HasTriples`, hence (C125) what is read from plain documents.
* C161 P (`Props/LoadOrder`): every reading hands a sink one list of statements moved up to the free identities (`Uniform`); a permutation of readings exchanges blocks of identities, by induction on the permutation.
* C162 X (`Model/GraphThreads`, `Props/GraphThreads`): threads on one Graph, with the dicts as objects in a heap. Invariant `GSys.Good` (each index finds the stored statements but for the calls under way), kept by a step
  that clashes with no other thread (`Compat`); the calls count in the order in which they change `_triples`. `Props/GraphThreadsSome`: `Lives` or `Busy` (what is stored over a dict will hold something) when threads only add.
* C163 X (`Model/DatasetThreads`, `Props/DatasetThreads`, `Props/DatasetThreadsSound`): the same for a Dataset: a heap of Graphs, each with its own threads state as in C162. Invariant `DSys.Good`, kept by a step
  that clashes with no other thread (`DSys.Safe`); `DSys.From` (every stored statement was added) is kept by every step.
* C164 X (`Model/GraphReader`, `Props/GraphReader`): a reader in `match` beside the threads of C162. Invariant `RSys.Ok` in every run; `Frozen` and `RCalm` (what is got and what is to come is the answer) if no call is
  about what is read. `Props/GraphReaderOneWay`: `Kept`, `Moves` and `OneWay` (an entry that was there is still to come, or its dict has changed in size for good) if each dict only grows or only gets smaller; with all three given, one look at the set.
* C165 X (`Model/GraphReaders`, `Props/GraphReaders`): any number of readers beside the threads of C162. `Stays` (threads that do not clash never overwrite an entry of the two upper levels) and `Sees` (what a reader is about to look up is there) give that a reader stores nothing; so a run with readers is the run without them (`RsSys.run_apart`). In all runs, `RSys.Ok` for each reader.
* C166 X (`Props/CutFile`): a parser function that has succeeded gives the same if more text follows (`pIriRef_more`, `pStmt_more`); the one token that may go on is a label, whence the refutation. Induction over the statements of the cut text; lines of a cut text by `splitLines_cut`.
* C167 X (`Props/CutTurtle`): by C93 documents and token lists are the same, and a statement is found in front of any further tokens (`pStmt_complete`), so `docToks_first`; `lexAll_more` for text: tokens that end plainly stay if white space follows. `parseText_first` takes this to triples, for texts without blank nodes (allocator unchanged); with them, only to parse trees.
* C168 (`Model/FailFile`, `Props/FailFile`): the writers once more, over any file object, each `f.write` a call of its own. `Tracks`: code with a file beside the same code with one that never fails (`writeTurtle`, `serializeNTriples`, `serializeNQuads`); kept by `andThen`.
* C169 X (`Model/FailStream`, `Props/FailStream`): a stream is the lines it yields and how it ends. `linesOut` of C161 gives the statements, `linesOut_sh` those of a second reading (other identities).
* C170 (`Props/AtomicFile`): files that take a piece whole or not at all (`Spec.Atomic`). `Leaves`: what the writer has put when a piece is refused is one of its own beginnings (`SomeText`: whole statements and at most one begun); a begun statement has no final dot, so the text is refused, or reads as the statements before it.
* C171 (`Props/TurtleLayout`): `Spec.Block.text`, `Spec.Entry.text` say how a subject and a predicate are written, `Spec.Layout` which there are and in which order; `objsText_layout`, `predsText_layout`, `subjsText_layout` follow the three loops, for any state of names and classes.
* C172 (`Props/TurtleLocal`): `SameOthers`: two graphs whose first index agrees on every subject but one; kept by `add` and `remove` for that subject. Blocks are a function of it (`blockOf`), and the sorted subjects without that one are the same (`sortedNames_filter`).
* C173 (`Props/TurtleStable`): `written_is_read_order` says in which order objects come back, `match_read` that a graph keeps that order, and blocks are a function of it (`blockOf`).
* C174 (`Props/SameFile`): from the round trips; two graphs whose statements are the same after renaming on both sides are isomorphic (`isomorphic_of_rename`). C98_exact is the same argument with the order kept.
* C175 (`Props/EitherFormat`): C37 and C118 side by side; two copies of the same statements with other blank nodes are the same up to blank nodes (`sameUpTo_copies`, in the sense of C132, so that resources read the same from both).
* C176 (`Props/TurtleAppend`): the fragment of one text (`written_frag`) is lexed before any other text and evaluated in any state that agrees with its profile; the directives of the second text bring the state left by the first into agreement (`agreesAt_after`), whatever was declared before. The two renamings are each one to one; they are not so together, which is what `C176_refuted` shows.
* C177 (`Props/NTAppend`): what is written of several graphs is what is written of their triples in a row (`fileOf_all`), so the renaming of C37 is one for all of them. The names of blank nodes come from id(), so distinct numbers in the model stand for blank nodes alive at the same time.
* C09 (`Props/LoopGroup`): RuntimeError for every pattern and suspension point: the dict a suspended generator goes over is described by its `Together` triples.
* C147/C148/C159 (`Props/LoadWrite`): statements read from any number of documents are valid input of the writers; `loads_read` gives their shape.

No property of the list is outside what a model can express. What a model cannot exhibit (hash randomisation, memory addresses,
lark's table construction, urllib, HTTP) enters as a parameter or as a cited reading of the library and is listed in the trusted base.

## Trusted base

1. **Lean 4.33.0's kernel**, and Mathlib 4.33.0 where imported. Axioms: at most `propext`, `Classical.choice`, `Quot.sound`; `AXIOMS.txt` gives them per theorem. No
   `sorry`, no axioms of our own, no `native_decide`, no `bv_decide`. `decide` and `rfl` are used for concrete witnesses only.
2. **The reading of the Python source** embodied in `Model/`. The code is not run here; every definition cites its lines. Simplifications are marked with the word
   "Simplification" at the definition.
3. **CPython 3.11**: `str`, `dict`, `set`, `frozenset`, `namedtuple`, generators (PEP 479), `type.__new__` and the C3 linearisation, the UTF-8 codec, `datetime.isoformat`, `urllib.parse` (the model
   is a transcription of `urljoin`, `urlsplit`, `urlparse`, `urlunsplit`, `urlunparse`). The check of the network location (`_check_bracketed_host`, NFKC) is the parameter
   `nl : PStr → Bool`, over which all theorems quantify. Object identities are not reused.
   For C162 to C165: another thread runs only between bytecodes of Python functions; a lookup, store or deletion in a dict with keys of the model's kinds, and an operation on a set, is one step; `defaultdict.__missing__`
   calls the factory, which is a Python function here, and then stores the result whether or not the key has come to be there.
   For C164 and C165 also: a loop over a dict or set raises RuntimeError at the next step if the size is not what it was when the loop began, and otherwise, if keys have come or gone, gives any entry that is there or ends (an over-approximation of CPython 3.11).
4. **Lark**. (a) The LALR(1) parser for a conflict-free grammar accepts the sentences of the grammar and builds their trees. (b) The contextual lexer tries the terminals acceptable in
   the parser state, longest pattern first, and skips ignored terminals. (c) With `transformer=` the callbacks run while parsing (N-Triples, N-Quads); `Transformer.transform`
   runs them on the tree, bottom-up, left to right, wrapping exceptions in VisitError (Turtle). In N-Triples the terminals acceptable in a state begin with different
   characters, so (b) does not matter; in Turtle it does, and `Model/TurtleLex` follows it. Where a text has several errors the model may report another one than Lark; that an
   error is raised is the same. (d) A Lark object keeps nothing between or during calls of `parse` that another call could disturb (C123, C124).
   Readings of regular expressions that differ from what the grammar's author had in mind are modelled as Python's `re` reads them: `[a-zA-Z0_9]` in N-Triples language
   tags (C42), `[\u10000-\uEFFFF]` as the three items U+1000, "0"–U+EFFF and "F" in N-Triples labels (C107), `BASE`/`PREFIX` with the flag `i` matching U+017F, U+0130 and U+0131 (C95).
5. **Third parties as parameters**: `requests`, `json`, `pyld`, `lxml`, `rdflib` as said in the table above. Theorems quantify over what they return.
6. **Sorting** in the Turtle writer is Python's stable sort on strings and tuples by code points; the model is an insertion sort on the same keys.
7. **Fuel**: following an RDF list in the Turtle writer can run forever on a cyclic chain; the model takes fuel, and theorems about that function say which fuel suffices.
8. **No resource limits**: memory is unbounded; there is no RecursionError (the model nests as deep as the document does) and no limit of 4300 digits on conversions between `int` and `str`.

## What the proofs found

Each of these is a theorem `Cxx_refuted` (or similarly named) with a concrete witness, together with the exact behaviour; see `MANIFEST.json` for all.

* Graph and Dataset: the empty IRI is a wildcard (C03); `subjects()` etc. show removed terms (C04); `removeMatches` raises after one removal (C05, C14); adding a plain tuple half-adds it
  (C08); looking for an unknown graph creates it (C13); `add_graph` of an unnamed graph and `remove_graph` do not do what they say (C15).
* Writers: control characters are dropped (C19); IRIs are percent-encoded (C24, C37); N-Quads output is never valid (C43); Turtle writes `^` for `^^`, does not escape quotes or local
  names, stops at blank nodes and lists of IRIs (C60–C62).
* Parsers: blank lines in streams (C39), comments (C81), digits in language tags (C42), white space in IRIs (C44), graph labels (C108), other labels (C107) in N-Triples/N-Quads;
  nested nodes in object lists (C63), streams (C66), comments ending in CR (C95), IRIs that end in a line feed (C120) in Turtle; every RDF/XML document (C76), and every element in a namespace (C119); `jsonld_parser` (C75, C90); `nquads_parser.parse` without
  a graph (C117); a parse within a parse (C124).
* Resources: see C50–C58, C85, C87, C102, C103; importing the SKOS vocabulary raises (C113).
* SPARQL: results other than JSON raise (C70); graph store operations never send anything (C73).
