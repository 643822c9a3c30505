# Formal model of numengo/python-ngomodel: design

## What this is

`properties.jsonl` lists the semantic properties a user of the library relies on.
`lean/Verif` holds a Lean 4 model of the code in `/repo` and theorems about it.
`MANIFEST.json` maps every property to its theorems and status.
`seeded/LOG.jsonl` records mutation tests: deliberate bugs put in a scratch copy of
the model, and which theorems caught them.

## Layout

* `Verif/Py.lean` – the Python-like base: exceptions as values (`Exc`, `Except Exc α`) and
  insertion-ordered dictionaries as association lists (`AList`). `Verif/Val.lean` – Python
  documents (`Val`: None, bool, int, str, list, dict) with truthiness, and texts.
  `Verif/Num.lean` – decimal notation.
* `Verif/Model/<Area>.lean` – the model, function by function. Every definition cites the
  file and lines it models and says where it simplifies.
* `Verif/Lemmas/<Area>.lean` – helper lemmas (where an area needs many).
* `Verif/Spec/<Area>.lean` – what is expected, written independently of the model's helpers
  (in `Props/<Area>.lean` itself where it is short).
* `Verif/Props/<Area>.lean` – the property theorems (named `Cnn_...`), and beside each an `example` showing a
  concrete non-trivial case that meets its hypotheses.

Naming: `Cnn_title` is a full proof of (a clause of) property Cnn. `Cnn_title_partial` is
the part that does hold when the code does not satisfy the full property, or when the model
covers only part of it. `Cnn_..._violated` is a proof of the negation of the stated property,
with a concrete witness program/input: the code disagrees with what a user would expect, and
the disagreement is recorded below under "Disagreements found".

## Modelling conventions

* Python functions become total Lean functions; an exception is a value of `Exc`.
  No `head!`/`getD`-style default replaces a Python exception.
* Generators that the callers exhaust become the list of yielded values (plus the exception
  that ends them, when one does).
* Mutable objects become explicit state: a method is a function from the state to the new
  state and its result/exception. Aliasing that matters is modelled by explicit stores.
* Arbitrary Python values on which the code only uses `==`/`hash` are a type parameter with
  `DecidableEq`. User code called back (getters, converters, bodies of `with` blocks) is an
  arbitrary Lean function parameter, possibly state-passing and possibly raising.
* Sets: Python iteration order is arbitrary, so the model either takes the order as a
  parameter (theorems then hold for every order) or states results up to membership.
  Where a property compares two iterations (C193), the order depends on the content only.
* Strings are `List Char` (code points) where the code slices them.
* Regular expressions are modelled by the predicate/scanner they denote, cited beside.

## Trusted base

* Lean 4.33.0's kernel, and the axioms `propext`, `Classical.choice`, `Quot.sound`
  (reported by `#print axioms`; no other axiom, no `sorry`, no `native_decide`,
  no `bv_decide`).
* The faithfulness of the hand-written model to the Python text, i.e. the citations in
  `Verif/Model/*.lean`; CPython's semantics of dict order, exceptions, generators,
  `str.split`/`rsplit`/`strip` and of `re` on the fixed patterns used are read into the model
  by hand.
* What is assumed of libraries the code calls, stated in the header of each model file:
  * sqlalchemy's registries: one slot per scope (`Model/Session`);
  * files: a map from paths to bytes, no symbolic links, `open` and codecs as documented
    (`Model/Files`);
  * XML: the events expat delivers and the calls `XMLGenerator` receives, not the text of
    the document (`Model/Xml`);
  * `inflection.underscore` on ASCII names (`Model/Builder`);
  * regular expressions on arbitrary patterns: a parameter with the assumption stated in the
    theorem (`Model/Query`);
  * jsonschema 3: `iter_errors` and the functions of the keywords, read into the model
    (`Model/Validate`);
  * jinja2: the tokens of its lexer, integers and floats having numbers as values
    (`Model/Literal`);
  * arrow 1: how it searches a format in a text (`Model/Temporal`);
  * pathlib on POSIX: splitting and joining names (`Model/FilePaths`); urllib is arbitrary, but drops an empty
    fragment (`Model/Ids`);
  * `collections.abc`: the bodies of the mixin methods (`Model/Mixins`);
  * `abc`: what `ABCMeta` remembers of `isinstance` and `issubclass` (`Model/Proxy`);
  * hashlib: a digest reads a stream; `WeakValueDictionary` gives the object itself while it lives; `type` takes the
    attributes of a class as given; jinja2's `PackageLoader(module, folder)` searches that folder of the module
    (`Model/Tools`); `session.repositories` is the list of what was appended to it (`Model/Relations`);
  * elsewhere jsonschema's validator, Jinja2 evaluation, getters and conversions of user types: arbitrary
    function parameters (`Model/Types`, `Model/Object`, `Model/Array`).

## Plan per property

What is modelled, and how it will be proved.

| id | model | proof |
|----|-------|-------|
| C01–C03 | `ReadOnlyChainMap` as a tree of maps and nested chains; lookup, membership, iteration, length, reversed keys, merged, flattened written branch by branch | structural induction over the tree; spec is "first map, left to right, that has the key" |
| C04, C05 | `Context.create_child/prepend/append` on chains | induction over the list of operations; spec is a priority list of maps |
| C06 | `_KeyModifierMapping` over an arbitrary normaliser | refinement to a finite map `normal form → value` by induction over the history |
| C07, C08 | `Registry` forest: ids, parents, stores; recursion through an acyclic parent relation | induction on rank; C08 is violated: negation plus partial |
| C09, C10 | `mro`: C3 merge loop with its candidate search | invariants of the merge loop; completeness by showing a consistent order always offers a candidate |
| C11 | `gcs` | induction over the first linearisation |
| C12, C13 | `topological_sort`: preprocessing and peeling loop | loop invariant; cycle extraction by pigeonhole / well-foundedness |
| C14 | `_call_order` with arbitrary set orders | from C12 |
| C15 | `grouper` as a fold over the iterable | fold invariant |
| C16, C17 | `Bracket` scanner with a stack | invariant over prefixes; spec is a depth count |
| C18, C19 | `get_descendant`, `split_path` on documents | induction on the path; C19 violated for indices |
| C20, C21 | `filter_collection` | list reasoning; C21 violated |
| C22 | `nested_dict_iter` | induction on documents; separator dropped in recursion: partial + negation |
| C23 | `threadsafe_counter`: per-thread acquire/read/write/release steps on shared state | inductive invariant over all interleavings |
| C24, C25 | with-blocks as programs with exceptions | structural induction over programs; C25 violated on exceptions |
| C26–C30 | string utilities on code point lists | induction |
| C31, C32 | decorators over arbitrary functions | list induction / history induction |
| C33, C34 | `clean_js_name` | character-class reasoning; C34 violated |
| C35 | `scope` | split reasoning |
| C36 | `resolve_fragment` | escape/unescape round trip, induction on path |
| C37 | document store plus `lru_cache` | violated: negation; partial without earlier resolve |
| C38–C42 | namespace manager searches, registration, caches | sort reasoning, histories; C39, C41 violated |
| C43–C55 | `Query`, `Filter` on documents, branch by branch | induction over iterable/criteria; several violated |
| C56–C65 | literal, enum, array, object types | case analysis / list induction; several violated |
| C66–C69 | object instances (`_data`, `_dataValidated`, `_itemsInputs`) with getters, templates, dependencies, aliases, lazy loading | the invariant "every record of inputs that is the present one comes with the value it gives", over every history, against a cache-free value function; violations with witnesses |
| C70, C71 | array instances as state machines | invariants over histories; both violated in part |
| C72, C73 | memory repository | invariants over commit histories |
| C74, C75 | session factory, scoped sessions | histories |
| C76, C77 | type builder with schemas as a reference graph, `_on_construction` and the registry as state | termination by counting the identifiers not yet requested; invariants; C77 violated |
| C78 | file saver over a file-system map | histories |
| C79–C81 | xmltodict handler and emitter over SAX events | induction over documents |
| C82 | memoised `maps_flattened` of a context | state before and after the first read |
| C83, C84 | `Bracket.is_in`, `filter_collection` on lists | exact behaviour; both violated |
| C85–C87 | `assert_arg`, `depend_on_prop`, `memoized_method` | histories over arbitrary functions |
| C88–C98 | namespace manager: documents, current namespace, relative names, URIs | sort and prefix reasoning |
| C99–C101 | query operators, chained queries | case analysis; generator state explicit |
| C102 | `no_defaults` in object serialisation | list induction |
| C103, C104 | session factory options and scoped `configure` | heap addresses for dictionaries |
| C105, C106 | file saver failures and options | exact file content after each failure |
| C107–C110 | XML handler and serializer corner cases | events; negations with witnesses |
| C111–C113 | memory repository kinds, initial content, changed keys | exact state after a commit |
| C114 | `ArrayProtocol.append` | exact outcome |
| C115–C117 | deletion, name cache, iteration of object instances | every state, or invariants over histories |
| C118–C123 | classes built from schemas (`ObjectProtocol.build`) and ordinary classes derived from them | programs of class definitions; every class is shown to be made from the ones before it, then induction on its number; resolution orders through C09 |
| C124, C125 | sets shared by a class and its instances, by all collection types | exact state after any sequence |
| C126–C129 | names of properties in documents: clean names, aliases, negated aliases | the lookup of every key after reading, in closed form, compared with what the document says |
| C130, C131 | aliases in serialised objects | the lookup of every key after writing; composed with reading |
| C132, C133 | types of properties with their cache | invariant of the cache over histories of lookups |
| C134–C138 | equality, hash and copies of instances | instances as trees with identities; closed form of the comparison, then recursion on the tree |
| C139 | copies in a heap of objects | every instance is reached from one object by one path: invariant of all reads and assignments |
| C140 | lookup by dotted name in a tree of objects, dictionaries and arrays, attributes as a parameter | induction over the names: the loop stands at the address of the value |
| C141 | as C140 | the loop up to the missing name, then one step |
| C142 | as C140 | induction over the parts: a walk over an index ends in None |
| C143 | as C140, parents by address | the loop up to the empty part, then from the parent again |
| C144 | assignment at an address of the tree | induction over the address, with the lookups outside it as frame |
| C145 | the search with its overwritten argument | case analysis |
| C146 | names up the chain of parents | induction over the chain; splitting undoes joining |
| C147, C148, C151 | schemas as trees of keywords, the errors of a value as a list with paths, the keywords that are registered and the types the code knows | mutual induction over schemas against a reading of JSON Schema; two readings agree where the keywords that differ do not meet the values that differ |
| C149, C150 | paths of errors joined to a text, the dictionary of messages | invariant of the fold; paths without indices by mutual induction |
| C152 | evaluation with an arbitrary conversion | cases |
| C153–C155 | conversion and writing of foreign keys, the types of the keys being arbitrary | equivalence with a relation between components; splitting undoes joining |
| C156–C158, C160 | repositories as catalogues, lookups through a session, entities written by their keys | cases on how keys become tuples; induction over the repositories |
| C159 | keys of the type built for a foreign key | cases |
| C161, C164–C166 | `Primitive._convert`, `Expr._convert`, `Pattern._convert` with an arbitrary evaluation | by cases; integers from `parseInt_showInt`; violations by `decide` |
| C162 | `Expr._inputs`, the regular expression as a scanner | a name standing in the text is the first component of a match, by induction over the text before and after it; then the assumption on evaluations |
| C163 | `get_jinja2_variables` on the tokens of jinja2's lexer | induction over the pieces of the template and the members of a path |
| C167–C169 | `Date`, `Time`, `Datetime`: conversion and serialisation, arrow's search of a format in a text token by token | numbers of fixed width read back (induction on the width); then format by format: those before the right one do not match the text |
| C170 | the same | no format matches without digits (induction over the text); what a match gives is checked |
| C171, C172 | the same | by cases |
| C173 | the same | `HH:mm` matches before `HH:mm A` |
| C174, C175 | `Symbol._convert`: positions of dots backwards, import, attributes; the interpreter is arbitrary | the positions are the cuts of the list of segments (induction); the first cut from the right that works is the longest module name |
| C176, C179, C180 | `check_symbol`, `_check` of the nine types | by cases on type and kind |
| C177 | `Symbol._serialize` | the written name denotes the object, then C174 |
| C178 | the same with an arbitrary evaluation of texts | the last position is the length of the expression |
| C181, C183 | `Id._convert`, `Id._serialize` over the manager of C89 | the identifier has one `#` and a document, so making it relative and absolute again keeps it; then C89 |
| C182, C184, C185 | the same for texts that are no names; `scope` of Uri | the text before the first `#`, by cases on whether it is empty |
| C187, C189 | POSIX `pathlib`: splitting at slashes, dropping empty names and dots | induction over the names; the leading slashes of the text are those of the path |
| C186, C188, C190 | `Uri`, `Path` with arbitrary urllib and file system | by computation |
| C191, C193, C195–C198 | types nested in each other as a tree whose branches are functions of the index or name; `_convert`, `_validate`, `_evaluate` of collections | induction over the type, with one lemma for loops over items and one for loops over names; the order of the names is that of C12 |
| C192 | the same | the value is validated last, after all its items |
| C194, C199 | `_deserialize` of arrays and objects besides | by computation; C199 for arrays by comparing the loop of evaluation with those of conversion and validation |
| C200–C203 | constant types and defaults with arbitrary conversion | by cases on the truth of the values |
| C204 | conversions as functions of the precision, which a sequence of uses hands on | induction over the uses after the last number |
| C205–C207 | `load_schema`, `load_schema_file` and the loop of `load_module_schemas` over files, with arbitrary normalisation of URIs | what a file registers does not depend on the documents; induction over the files |
| C208 | registration and search of `ModuleFileLoader`, with arbitrary file system | induction over the registrations, and by the position of the first `/` |
| C209–C212 | `UriResolver.create`, `Transformer`, `Loader`, `Saver`, `Resolver` with arbitrary functions | by cases; C212 by comparing two loops |
| C213 | sizes as fractions, the rounding of `%.1f` | induction over the units, and arithmetic |
| C214 | a registry of (address, name), types made in any history | induction over properties and history: the first declaration stays |
| C215–C217 | pattern properties, removal of types from nested schemas, stand-ins | structural induction for C216, by cases for the others |
| C218 | conversion and evaluation by tuple and set types | by cases on the Python class |
| C219–C222 | repositories with arbitrary saver, encoder and file system | induction over the commits, else by cases |
| C223 | reading by `JsonSerializer` with arbitrary deserializer | by cases |
| C224–C227 | `ObjectProtocol.__new__` and the calls of `__init__`, with arbitrary scoping and loading of classes | by cases on what the data name |
| C228 | `_inputs` of objects and arrays with arbitrary types | membership in nested loops |
| C229 | the truth value of types | by cases on the type |
| C230–C232 | array and object instances of C70 and C66 with the texts kept in `_str` and `_repr`, `repr` of values arbitrary | the entries by induction over the positions or keys; kept texts by induction over the operations |
| C233 | the wrappers with arbitrary method, state and representations; tuples told apart from other arguments | by cases on the message |
| C234 | messages with numbered arguments, arbitrary `str` and `log_format` | by computation; the second text is longer |
| C235 | the printer at level 0 with arbitrary representation | by cases on the limits |
| C236–C241 | the mixin methods of `MutableSequence` as programs over the array instances of C70, loops with one round more than there are items | the relation of C70 between an instance and a list of raw items, kept by every call; reversal by the list with its first and last items exchanged |
| C242–C246 | the mixin methods of `MutableMapping` and `get` over the object instances of C66 | an instance of a plain class behaves as a dictionary; creation gives such an instance, by induction over the items read |
| C247–C248 | `apply_through_collection` on nested lists and dictionaries, the function as what it makes of the collection, lists read while they change | a result relation (items replaced before what is in them) by induction over it; calls traced to positions by induction over the value |
| C249 | `reduce_coll` with its local function; a view of keys stands as its length | the loops over flat collections and over mappings in mappings, exactly |
| C250 | `scope_refs` with `scope` of any value | the same relation as C248; by induction over the position |
| C251–C252 | `schema_mro` with the extends relation as a parameter; `expand` up to the call of `schema_mro` | accessibility of the relation, duplicates removed at their first place; arity of the call |
| C253–C256 | `RelationshipBuilder.build` with its registry and `backPopulates`; loading of classes and `repr` as parameters | registered entries are kept by every build; the loop up to the first class that is not a stand-in |
| C257 | `get_or_create_repo` over all sessions, with the binding in `Repository.__init__` | the sessions after one call, looked at by a second one |
| C258 | `get_sha1` on what successive reads give, any hash | by induction over the reads, the hash being a stream |
| C259–C260 | `find_instance` and `__hash__` of contexts; order of sets and `repr` as parameters | first element found; a strictly sorted list is determined by its members, C02 |
| C261–C262 | globals of the default environment over histories; folders registered and the mapping of the loader | by induction over the history and the registry |
| C263–C264 | `class_casted_as` on orders of classes; the lookups of the registries | lookup in updated dictionaries against a relation along the order |
| C265 | the filters `split`, `rsplit` | relations of cuts from the left and from the right |
| C266–C268 | objects with the maps of their contexts; making, assigning, inserting as operations; `_root` with a depth | an invariant on contexts for histories without lazy insertions; then one insertion after any such history |
| C269–C272 | `Entity._serialize` and `ObjectProtocol._serialize` on trees of objects and arrays; references, prefix, required names | places in the tree against places in the result, by induction over the way there, in both directions |
| C273 | `Ref._validate`, `Ref._evaluate`, validation of a list of references, `CanonicalName._convert` | by cases; induction over the list |
| C274 | an entity with `_identityKeys`, the evaluated property and its inputs; assignments and readings | an invariant of the cache over all histories |
| C275–C279 | Python's lookup of attributes, `__getattr__`, `__setattr__`, `del`, on the instances of C66 with their own `__dict__` and the attributes of the class | by cases on where a name is found; for additional properties a read of the item without inputs |
| C280 | the reads, assignments and invalidations of C66 | a preorder (all keys remain), for every function by induction over the nesting |
| C281–C283 | `_build_name` and `_process_namespace` of xmltodict on qualified names | the last separator of a qualified name is found, by cases on the maps |
| C284 | `startNamespaceDecl` and `startElement` over the elements of a document | induction over the elements |
| C285 | the handler of C79 with one more event for comments, on trees with comments | handler states with and without comments are related by removing #comment, induction over trees |
| C286 | the options handed to `xmltodict.parse` | by cases on the names of the options |
| C287 | the requests of C76 (`Builder.protocolReqs`), against where schemas stand in others and RFC 6901 pointers | by cases on where the schema stands; pointers of simple keys need no escape |
| C288, C289 | the file names of a folder of commands; `inflection.underscore` as in C76, `sort` as insertion | underscore of the dashed name gives the name back iff it has no capitals or dashes; insertion keeps order and counts |
| C290 | `posixpath.relpath` on segments, against RFC 3986 dot removal | the common prefix is taken off, then induction over the steps up |
| C291 | `UriResolver._resolve` over the store of C31 | by cases on the store |
| C292 | `Document.load` and `unload` over the store | laws of dictionaries |
| C293, C294 | the classes of C118 (`Classes.build`), schemas with keywords and primary keys | what the loop keeps, induction over the classes of a program |
| C295 | attributes as in C275 | by cases on the lookup of the name |
| C296 | `==` on documents (`Query.pyEq`) and criteria without operator | against an inductive relation, by induction over documents; mappings by counting keys |
| C297 | `<`, `<=`, `>`, `>=` on documents (`Query.pyCmp`) | the comparison as one of three outcomes, which is related to an inductive order; transitivity by induction over documents |
| C298 | xmltodict with `item_depth`: path, items, calls of the callback | simulation by the plain handler inside an item; outside, an invariant on the pending text; by induction over trees |
| C299 | what the callback is given | from the exact list of calls (`items`) proved for every document |
| C300 | `ParsingInterrupted` | simulation of an arbitrary callback by one that always goes on |
| C301 | `Query.__contains__` on list and iterator caches | from C296 (equality), by cases on the cache |
| C302 | `count`, `isEmpty`, slices | by cases on the cache; positions of `take`/`drop` |
| C303 | `search_object`, first step of `search_object_non_rec` | induction over the places, with the exactness of filters (`call_all`) |
| C304 | `ForeignKey._evaluate` | from C153 for the key; a new session has no repositories |
| C305 | `_check` of the registered types over documents and instances of the standard classes | by cases on type and value |
| C306 | `Enum._check` | from C296 for membership |
| C307 | `ForeignKey._check` | induction over the components |
| C308 | `detect_type`, `is_type` | induction over the registry; from C305 |
| C309 | `namespaces`, `available_namespaces` | from C01-C05 for the chain; induction over the documents and the sort |
| C310 | `__contains__` | from C38 |
| C311 | `get_cname_definitions` | induction over the definitions; the name of a name is the name |
| C312 | `untype_schema` on types given as properties, `repr_schema` | lookups in the representation of the class |
| C313 | what `Object.__init__` and `Array.__init__` hold of what is given for a part | cases over places and things given |
| C314 | `_repr_schema` of constants, primitives, arrays and objects | mutual induction over types; lookups |
| C315 | the meta-schema as a tree of keywords, `iter_errors` on it | induction over schemas: the evaluation settles for enough depth, on what the keywords that have validators say |
| C316, C317 | a run of `iter_errors` as errors and an exception, the checks of paths, the combinations of jsonschema | mutual induction over schemas: what a run tells about the meaning of a schema |
| C318 | one property with its entries in the instance, an environment for what it depends on, the log of the setter | induction over histories; invariant: nothing is to be evaluated, or the value cannot be converted |
| C319, C320 | the same, with exceptions of setters and deleters | what the state is after an exception, and what the next reading gives |
| C321-C326 | a document with its two computed properties, a file system, loading, parsing and writing as parameters | what is kept after a reading; cases on path and URI |
| C327 | a property that is computed until there is a value | induction over histories of the file system |
| C328 | the criteria made of keys, on the model of queries | plain names are criteria of one step with `eq`; induction over items |
| C329, C330 | attributes of classes and instances, lookup along the resolution order, getters and setters as parameters | induction over the order |
| C331 | the operators on texts, members and positions, on the model of queries | membership by C296, positions by cutting lists |
| C332 | the messages of `log_exceptions` and `log_init`, on the model of logged calls | how a call is written is an inductive relation; both directions by recursion on arguments |
| C333 | the layouts of dates of the settings, on the model of dates | each format is shown to match or not from its first two tokens, then the search is cut at white space |
| C334 | `_emit` on values of any kind, on the model of C80 | a relation between a document and its texts; both are written with the same events |
| C335 | `_emit` on attributes with a mapping under `@xmlns` | the loop of assignments appends, as the names are distinct |
| C336 | attribute lookup with `__getattr__` after an AttributeError, for all properties and for one with a setter | the second reading starts from the state the first has left, in which nothing is outdated once the setter was called |
| C337, C338, C339 | `SchemaMetaclass.__new__` on class statements with their bases, `_schema` and `_id`, the registered nodes, and the type builder of C76 | the schema handed on is computed by cases; C339 by the growth of the builder's state and the fate of identifiers left under construction |
| C340, C341 | the binding of the arguments of `CollectionProtocol.__init__` and `Object.__call__`, followed by the deserialisation and validation of C62 and C63 | keywords without the parameters are a filter; the context is in the options whenever they are taken for the data |
| C342 | a chain of instances with what each remembers: its text, its canonical name and the name this was computed with | an invariant (what is remembered is what would be computed) over histories that rename nothing above; what is remembered is untouched by operations elsewhere |
| C343 | the visitor of syntax trees with its stack, the spreading of names over decorator lines, the cache of files | the names stored are the paths (an inductive relation), both ways, by mutual induction on trees; a name is spread exactly to the lines after decorator lines, by induction on the lines left |
| C344 | the canonical name of a parsed URI (as for C93) | the fold over plain segments, as in C93, from the first label |
| C345 | `_serialize` of nested collection types (Model/Writing.lean), over the types of Model/Nested.lean | values that reading gives (`Settled`) are described over the declarations; inside arrays, where values are only converted, by `Kept`; two inductions on types |
| C346 | the SAX handler with its options, on the calls expat makes (Model/XmlOptions.lean); without options it is the handler of Model/Xml.lean (`default_handler`) | the handler on trees (`handle_eventsL`), then an invariant over the children of one name |
| C347 | as for C346 | `translate` changes the tree by names; mutual induction on trees |
| C348 | as for C346 | as for C347, with the tree without attributes |
| C349 | as for C346 | `apart` changes the value; it commutes with `push_data`; an element with nothing but texts has one at most |
| C350 | `_emit` with a preprocessor that renames or refuses (Model/XmlWriter.lean) | mutual induction on values: the events are those of Model/Xml.lean for the pruned document, tags renamed |
| C351 | `_emit` with expand_iter (Model/XmlWriter.lean) | mutual induction on values: the same events as for the document with the lists inside lists named |
| C352 | the handler of Model/XmlOptions.lean | the item of an element depends on its first text stripped (`close_oneText`); mutual induction on the relation of documents |
| C353 | Model/Xml.lean: `_emit` with and without pretty, then the handler | simulation of the two runs of the reader: same items, texts that differ in white space (`Inv`, `Same`); mutual induction on values |
| C354 | the handler of Model/XmlOptions.lean | mutual induction on documents |
| C355 | the handler of Model/XmlOptions.lean with other keys | every operation of the handler commutes with a one-to-one change of keys (`put_rekey`, `close_rekey`); mutual induction on documents |
| C356 | Model/XmlKeys.lean: `_emit` with the prefix and keys as parameters | mutual induction on values; children, attributes and texts are told apart alike by injectivity |
| C357 | Model/XmlKeys.lean, then the handler of Model/XmlOptions.lean | C356, C80, the default handler, and the change of keys event by event (`handle_rekey`) |
| C358 | Model/Proxy.lean: the hook of the proxy under the memory of Python's ABCMeta (trusted) | invariants of what is remembered before and after the construction; induction on histories |
| C359 | `Object.default`, `ObjectProtocol.default` over the writing of C102 and the reading of C62 | induction over the properties with a default, then the theorems of C62 and C64 |
| C360 | Model/Instances.lean: evaluation of instances and data by a class, conversion and validation arbitrary | case analysis, induction on chains of calls |
| C361 | Model/Living.lean: the counter of sessions and the weak dictionary, under any interleaving of threads and collections; an operation on either is atomic | invariant of steps: numbers held and used are apart and below the next one |
| C362 | Model/Belonging.lean: contexts with their sessions, shared between objects; making and inserting | invariant relating the contexts to the list of expected sessions, induction on histories |
| C363 | Model/LogConfig.lean: the default configuration, its update by a file, `dictConfig` reduced to version and names (trusted) | names found iff a relational spec; lookup of updates |
| C364 | Model/Managers.lean: contexts by the way they were made, the manager found in them for identifiers and for keys of foreign keys | induction on the way a context was made |
| C365 | Model/Modules.lean: loaders of module files in the order they are made, their registry by folder name, registration of modules | invariant of all sequences: the registry has the latest loader of each name |

Not modelled: network/HTTP, Jinja2 template evaluation, arrow/dateutil parsing, the click
command line, logging output, JSON/YAML concrete syntax (third-party parsers), the Python
object model itself (descriptors are modelled through the methods that implement them).

## Disagreements found

Where the code does not do what the property says. Each is proved: the theorem is named
`Cnn_..._violated` (or says so in its comment), on a concrete program or for every state.

| id | what the code does | where |
|----|--------------------|-------|
| C08 | `unregister` stops midway with KeyError when an ancestor lacks the key or is reached twice | registry.py |
| C18, C45 | a falsy value met before the end of a path is returned as the value of the path | `get_descendant` |
| C19 | indices in path strings stay strings | `split_path` |
| C21 | `only=` keeps every key, or raises TypeError when recursive | `filter_collection` |
| C22 | separators other than the default are dropped in the recursion | `nested_dict_iter` |
| C25 | the class is not restored when the body raises | `casted_as` |
| C34 | the range `A-z` lets `[ \ ] ^` and the back quote through | `clean_js_name` |
| C36 | tokens such as `-1` or ` 1` index arrays | `resolve_fragment` |
| C37, C41 | `lru_cache` is never invalidated: replaced documents and former names are returned | `resolve_doc`, `get_id_cname` |
| C39, C88 | the greatest name / the first loaded document is taken, not the most specific one | namespace manager |
| C46 | a missing attribute ends the loop over criteria | `filter_any_of` |
| C48 | a filter rewrites its own criteria when it descends into mappings | `Filter` |
| C50, C52, C100 | `distinct` is ignored on direct reading; `union` extends its receiver; a query read before is exhausted | `Query` |
| C54, C55 | `last` always raises AssertionError; `order_by` raises TypeError, then returns unsorted objects | `Query` |
| C57 | the index equal to the number of members raises IndexError | `Enum.convert` |
| C60 | `minItems`, `maxItems`, `uniqueItems` are not enforced | array validation |
| C61 | the list of one empty string is lost | `ArrayString` |
| C62 | falsy defaults give None | object deserialisation |
| C64, C65 | excluded required properties are printed as None; a call without excludes changes later calls (mutable default) | object serialisation |
| C66 | additional properties are not converted; None with a default reads as None when lazy | object_protocol.py 413-434, 93-109 |
| C67 | `del obj[k]` deletes required properties | object_protocol.py 436-444 |
| C68 | stale or lost values after a refused reassignment, between equal values of different types, and for plain properties with dependencies | object_protocol.py 93-109, collection_protocol.py 169-192 |
| C69 | reading a negated alias does not negate (`op` looks at a variable replaced since) | object_protocol.py 399-411, 297 |
| C70, C71, C114 | a refused assignment leaves raw and converted items apart; lazy arrays keep the former conversion; `append` raises after appending | array_protocol.py |
| C76, C77 | a `$ref` with siblings registers over another type; a failed build leaves `_on_construction` filled | type_builder.py, type_protocol.py 152 |
| C78, C105, C106 | charset and byte order marks; a failed write empties the file; the `binary` option is dropped | file saver |
| C81, C107, C108, C109, C110 | TypeError before the root check; text cut in pieces; `unparse` passes `force_list` to `_emit`; the first root tag is kept; tails lost | xml handler and serializer |
| C82 | the flattened list of a context is memoised | `Context` |
| C83 | `is_in` says "lies before" | `Bracket` |
| C84 | excluding keys in a non-empty list raises TypeError | `filter_collection` |
| C85 | arguments of methods of an empty collection are not checked | `assert_arg` |
| C90, C91 | prefix tests without a dot | namespace manager |
| C94 | no dot between document and fragment | default names of URIs |
| C99, C101 | `iendswith` compares wrongly; `attr__size=n` holds of every non-empty list | query operators |
| C102 | `no_defaults` raises AttributeError on plain objects, TypeError on texts under negated aliases | object serialisation |
| C103, C104 | sessions share the factory's info; configuring a scope in use raises AttributeError | session.py |
| C111, C112, C113 | single-object repositories cannot commit; initial objects are not found; old identities stay | memory repository |
| C115 | a deleted property cannot be assigned again, KeyError | collection_protocol.py 169-178 |
| C116 | derived classes share the name cache of a base class used before | object_protocol.py 260-287 |
| C117 | iteration yields names of missing dependents | collection_protocol.py 92-98 |
| C118 | an ordinary class with two bases made from schemas only has the constraints of the first | object_protocol.py 584-587, attributes found by Python |
| C119 | on a diamond `obj.p` and `obj['p']` use different declarations | object_protocol.py 597, 753 against Python's resolution order |
| C120 | accessors for inherited properties ignored; accessors inherited through `extends` lost on redeclaration | object_protocol.py 695, 731 |
| C121 | a class attribute is lost as default of a property declared in the same class | object_protocol.py 707-709, type_builder.py 70-71 |
| C122 | a class defined again under the same identifier keeps the old property types | type_builder.py 70-71 |
| C123 | declared dependencies of `identityKeys` overwritten | object_protocol.py 581 |
| C124 | creating an instance adds its inputs to the dependencies of the class; later instances may fail | object_protocol.py 193 |
| C125 | all collection types share `notValidated` and `notSerialized` | types/collection.py 58-59 |
| C128 | True under a negated alias of a Boolean is refused, False stays False | object_protocol.py 221 |
| C129 | negated aliases are validated without negation | object_protocol.py 168-177 |
| C130 | aliases missing with `only` or with an attribute prefix | object_protocol.py 453-467 |
| C131 | an object with a text under a property with a negated alias cannot be serialised | object_protocol.py 467 |
| C132 | a plain alias does not have the type of its property | object_protocol.py 501-502 |
| C133 | looking up a negated alias leaves the stand-in cached for the property | types/object.py 152-171 |
| C135 | an object with properties equals no other object: the parent is compared with the first key | collection_protocol.py 218-220, object_protocol.py 372-373 |
| C136 | `hash` of an instance raises TypeError, so does `uniqueItems` with instances | collection_protocol.py 224 |
| C137 | a copy of an object does not equal the object | collection_protocol.py 207-221 |
| C138 | object properties at their default are serialised | types/object.py 252 |
| C139 | a copy shares the nested instances that have been read | collection_protocol.py 207 |
| C140 | a property named as a method is not reached by dotted name | object_protocol.py 390 |
| C141 | a missing name reads as None in objects with additional properties | object_protocol.py 306-321, 390-392 |
| C141 | brackets around no number raise ValueError | object_protocol.py 51 |
| C142 | no index in a dotted name is ever resolved | object_protocol.py 390 |
| C143 | after a leading dot the rest of the name is ignored | object_protocol.py 52-53 |
| C143 | an empty part reads as None in objects with additional properties | object_protocol.py 306-321, 390-392 |
| C144 | an assignment below None is lost without an error | object_protocol.py 413-434 |
| C144 | an item assigned by index is not read back by the same name | object_protocol.py 390, 413-434 |
| C145 | the name to resolve is overwritten | object_protocol.py 344 |
| C146 | instances without a name are named None | models/instances.py 40-45 |
| C147 | a schema with `$ref` accepts everything | jsch_validators.py 17 |
| C147 | booleans are numbers, texts are arrays for the keywords | type_builder.py 50-55, numerics.py 44-47, array.py 172-179 |
| C147 | definitions are checked like `properties`, so they constrain the properties that have their names | jsch_validators.py 50-51 |
| C147 | booleans inside lists and objects equal 1 and 0 for `const`, `enum` and `uniqueItems` | jsch_validators.py 22, 25, 47 |
| C148 | `type` is never checked by validation | jsch_validators.py 17-51 |
| C149 | errors under `allOf` or a list of `items` raise TypeError | validator.py 57 |
| C150 | of several errors with the same path the last only is reported | validator.py 57-58 |
| C151 | without `properties` the declared properties are additional | validator.py 56 |
| C152 | None is not validated | validator.py 77-79 |
| C154 | foreign keys with too many or too few components are accepted | foreign_key.py 118 |
| C155 | text keys are cut at the comma, negative keys read back as None, None with several keys cannot be written | foreign_key.py 110-115, 128-132 |
| C156 | key 0 is looked up as the empty tuple; only the first repository is searched | array.py 119-122, foreign_key.py 157-163 |
| C157 | key 0 as above; TypeError for an unknown key with several components | session.py 83 |
| C158 | entities with several keys cannot be made from them; key 0 makes a new entity | instances.py 61-76 |
| C159 | `primaryKeys` looked up as attribute of a dictionary | type_protocol.py 62 |
| C160 | an entity with key 0 cannot be read from a relationship | array.py 119-122 |
| C161 | the value of an expression goes through its text: true is refused by an integer | strings.py 58 |
| C161 | booleans do not evaluate expressions | boolean.py 42-56 |
| C162 | a property named as a builtin (id, type) is no input of an expression | strings.py 62 |
| C162 | names starting with a letter out of ASCII are no inputs | strings.py 44 |
| C162 | an expression with `{{` has the inputs of a template | type.py 61-64 against 73-76 |
| C163 | reading a template with a number in a variable raises TypeError or IndexError | jinja2.py 84-91 |
| C163 | blocks and operations are not read for inputs; `self.` is removed inside names | jinja2.py 77-93 |
| C164 | a text that cannot be evaluated is kept as value | type.py 77-78 |
| C165 | an expression that gives an expression is evaluated at each conversion | type.py 73-76 |
| C166 | raw literals are not converted | type.py 81 |
| C167 | dates with a format of arrow, and None with any format, cannot be serialised | datetime.py 15-23 |
| C168 | the zone of a time is lost; with microseconds and zone, what is written cannot be read | datetime.py 98-100, settings.py 138-149 |
| C169 | no datetime written without a format can be read | datetime.py 23, 138 |
| C169 | the zone of a written datetime is ignored on reading | datetime.py 139-141 |
| C170 | refusing a date or a time raises IndexError: the message has two places for one value | datetime.py 63, 103 |
| C170 | a datetime takes numbers, dates and times for None | datetime.py 131-143 |
| C171 | a datetime that is no date is refused by AssertionError | datetime.py 44, 90 |
| C173 | PM is ignored | settings.py 138-149 |
| C174 | attributes that are false are not found | symbols.py 44-46 |
| C174 | a module with the name of a builtin cannot be named | symbols.py 32 |
| C175 | a name that leads nowhere is kept as a text by importable and instance | symbols.py 51-54 |
| C176 | nothing is a class method; static methods are bound methods | symbols.py 109-119 |
| C177 | bound methods, instances and false objects do not survive writing and reading | symbols.py 69-78 |
| C178 | the dots and attributes of an expression are used instead of those of its value | symbols.py 34-41 |
| C179 | unhashable objects raise TypeError | symbols.py 32 |
| C180 | the checks of instances and callables accept everything | symbols.py 59-62 |
| C181 | names of namespaces with hyphens are taken for documents | uri.py 67, 88-93 |
| C183 | identifiers of documents and properties written as names are read as definitions | uri.py 100-104 |
| C184 | relative references to documents are not resolved | uri.py 95-98 |
| C185 | identifiers of documents fail the check | uri.py 78-86 |
| C186 | None is written as bytes or as the text None, or raises AttributeError | uri.py 51-59, 100-110, 155-166 |
| C187 | paths with templates or expressions in their names are evaluated | uri.py 137-153 |
| C188 | file: becomes a name of a relative path | uri.py 140-142 |
| C189 | the empty text stays a text; None and it cannot be resolved or expanded | uri.py 143-152 |
| C190 | relative paths raise AttributeError | uri.py 155-166 |
| C191 | a text given for an array is cut into its characters | collection.py 85-93 |
| C194 | conversion adds required names with None, so nothing is missing when validated | object.py 54-57 |
| C195 | defaults are not converted inside collections | collection.py 106-114 |
| C196 | KeyError for names that are not allowed | object.py 155-175 |
| C197 | IndexError for items beyond the listed types | array.py 129-135 |
| C198 | properties named as an excluded keyword are not validated | object.py 217, collection.py 95-104 |
| C199 | missing items, texts, single values and empty arrays differ | array.py 42-57, collection.py 106-114 |
| C200 | null evaluates everything and checks nothing; false evaluates None and raises TypeError | constants.py 19-36, converter.py 19-30 |
| C201 | false defaults of enumerations are replaced | type.py 91-92 |
| C202, C203 | false defaults, values and items are taken for missing ones | type_protocol.py 96-106, array.py 160-165 |
| C204 | the precision of the last number stays set | numerics.py 48-52 |
| C205 | AttributeError for schemas without identifier, though they have a title | schemas.py 41-43 |
| C206 | an identifier given as `id` is overridden by the name of the file | schemas.py 71 |
| C207 | files with the same name or identifier replace each other | module.py 110-115, schemas.py 71 |
| C209 | an empty store of documents is shared instead of copied | uri_resolver.py 130-131, 145 |
| C210 | the value is converted twice | transformer.py 23-39 |
| C211 | `raise` instead of `return` | loader.py 31-33, 58-60, resolver.py 20-22 |
| C213 | from 1024 TB a number without unit; 1024.0 instead of the next unit | files.py 92-99 |
| C214 | types are registered under the address of the object that has them, and looked up there after it is gone | object.py 129-135, array.py 108-114, type_builder.py 70-71 |
| C215 | AttributeError for pattern properties | object.py 137 |
| C216 | types in lists stay in the schema | type_builder.py 18-29 |
| C217 | before a type is built, its stand-in gives None for every value; `has_default` takes no value | type_proxy.py 38-71 |
| C218 | evaluation assigns to items of tuples and sets, conversion reads items of sets by index | collection.py 109-112, array.py 39-41 |
| C219 | `extend` by a mapping adds its names | repository.py 34-35 |
| C220 | the saved form is stored; `in` looks at the names of a single mapping | repository.py 33, 53-54 |
| C221 | the content is serialised when committed and when dumped | repository.py 33, 40-42 |
| C222 | `doc` and `fpath` are not defined | file_repositories.py 70-78 |
| C223 | `JSONEncoder` has no `decode` | json_serializer.py 44 |
| C224, C226 | `$schema` is popped from the dictionary of the caller | object_protocol.py 159 |
| C227 | `__init__` is called by the inner and by the outer call | object_protocol.py 162 |
| C228 | the inner loop uses the name of the outer one | object.py 238 |
| C229 | types are tested by their truth value | object.py 165, 219, array.py 116 |
| C230 | `_str` is not reset by `__setitem__`, `__delitem__`, `insert`; `a or b` on converted values | array_protocol.py 75-93, collection_protocol.py 144-160, object_protocol.py 433-444, 480, 490 |
| C231 | the default list of `excludes` is extended | object.py 83, 92 |
| C232 | `_items_types` is as short as the list of types | array.py 126, array_protocol.py 90 |
| C233 | `"%r" % a` with a tuple; `args[0]` of no arguments | decorators.py 184, 199 |
| C234 | the arguments are replaced by their texts | str_utils.py 138-142 |
| C235 | `>=` in place of `>`; sets are sliced | str_utils.py 92-104 |
| C236 | IndexError of a conversion is taken for the end | collection_protocol.py 150-154 (`Sequence.__iter__`) |
| C237 | the same | collection_protocol.py 150-154 |
| C239 | the same (`MutableSequence.clear`) | collection_protocol.py 150-160 |
| C240 | lazy assignment leaves the converted item | collection_protocol.py 144-148 |
| C241 | the item is validated as an array | array_protocol.py 84 |
| C242 | only KeyError is caught; aliases are read | object_protocol.py 399-411 |
| C243 | only KeyError is caught | collection_protocol.py 162-167 |
| C244 | declared properties are there with None | object_protocol.py 399-411, object.py 128-140 |
| C245 | no inputs are recorded for an assigned undeclared key; `del` does not look at aliases | object_protocol.py 433-444 |
| C246 | the same, the KeyError being taken for the end | object_protocol.py 433-444 |
| C248 | a function that wraps items never ends | utils.py 427-436 |
| C249 | the item after a deleted one is not looked at; 0 and False go; nothing is returned; nested single lists; a mapping of false values becomes the view of its keys | utils.py 402-411, 427 |
| C250 | the schema's own `$ref` and those in lists are not scoped | type_builder.py 127-130 |
| C251 | ancestors before a descendant when it is reached later | type_builder.py 115-122 |
| C252 | `schema_mro` without self: TypeError | type_builder.py 113, 134 |
| C254 | no keys when built while the foreign class is under construction | relationship_builder.py 65-71 |
| C255 | a mapping used as key: TypeError; nothing is populated | relationship_builder.py 84-87 |
| C256 | one2one, ManyToOne count as leading to many, OneToMany as leading to one | relationship_builder.py 72, ngoschema.json 298-302 |
| C257 | bound to the default session, `session` being kept by the context only; compared by class name, made by registered name | file_repositories.py 55-57, repository.py 15-23, session.py 54-61 |
| C259 | a generator cannot be reversed; nested contexts are not gone into | utils.py 151-153 |
| C260 | the hash is that of a text; 1 and True are written differently | utils.py 156-157 |
| C261 | globals are copied once | jinja2.py 43-48 |
| C262 | one folder per module, by its last name | jinja2.py 207-211 |
| C264 | the object is called; the default is ignored | utils.py 248-250, 269-270 |
| C266 | a parent is tested for truth, which is its number of entries | object_protocol_context.py 22 |
| C267 | an existing instance is taken as it is, its context is not set; arrays set it to their own | collection_protocol.py 133, array_protocol.py 82-83 |
| C268 | the context of the array replaces that of the object | array_protocol.py 83 |
| C269 | the keys are written as they are; none give an empty list | instances.py 98-100 |
| C270 | `self` is the class for nested values; one key is asserted | instances.py 101-104, collection.py 124 |
| C271 | the values are put in after serialisation | instances.py 106-110 |
| C272 | `excludes`, extended by the class, is passed on to the items | collection_protocol.py 85-86, collection.py 116-124 |
| C273 | True or False is returned; `foreignClass` does not exist | foreign_key.py 29-34, 191 |
| C274 | `_identityKeys` is refreshed by reading `identityKeys` only; its dependencies are those of the class | instances.py 81, 88-90, relationship_builder.py 29, object_protocol.py 580-581 |
| C275 | `__setattr__` makes an item of every public name; Python finds the attribute of the class first | object_protocol.py 368-379 |
| C276, C277 | an unknown name is None unless it is required; KeyError of the descriptor is not turned into AttributeError; `resolve_cname` raises Exception or IndexError | object_protocol.py 66-91, 308-321 |
| C278 | there is no `__delattr__` | object_protocol.py 368-379 |
| C281, C282 | without a replacement `_process_namespace` gives the local name without the prefix of attributes, which is then cut off as if it were there | xmltodict.py 354-366, 419-431 |
| C283 | short names are not checked to be different | xmltodict.py 68-82 |
| C284 | declarations are kept until an element has attributes | xmltodict.py 89-97 |
| C285 | `comments` makes an item, after which text goes to #text and #tail | xmltodict.py 162-165 |
| C286 | `opts.get('attr_prefix', …)` is used for process_namespaces and process_comments | xml_serializer.py 40-43 |
| C238 | `__delitem__` deletes first and checks then, and does not restore the item when the check fails | collection_protocol.py 156-160 |
| C287 | keys are put into identifiers without escapes | object_protocol.py 591-619, array_protocol.py 108-119 |
| C288, C289 | `dasherize` loses the difference between `-` and `_`, `underscore` changes capital letters | cli/__init__.py 40-58 |
| C290 | only the path of the target is used, and `relpath` drops a slash at its end | uri_resolver.py 82-89 |
| C291 | without `remote` the `try` falls through, which gives None | uri_resolver.py 190-205 |
| C292 | `load` registers under `doc_id`, `unload` unregisters `self.id` | models/files.py 197-210 |
| C293 | every keyword outside SCHEMA_DEF_KEYS is a default for the property of its name | object_protocol.py 672-676, settings.py 99-101 |
| C294 | `if not primary_keys` does not tell an empty list from none | object_protocol.py 576-579 |
| C295 | names with two underscores are refused before aliases are looked up; `op` looks at `name` after it was replaced | object_protocol.py 289-299 |
| C155 | a text for a key of several components is cut into its characters when it is written | foreign_key.py 128-132 |
| C191 | an empty list or text is an empty mapping | collection.py 85-93 |
| C198 | an item named as a keyword of objects is not validated; sizes of arrays in arrays are not checked | array.py 182, object.py 217, collection.py 95-104 |
| C299 | items lack their attributes; text before an item is put in front of its own text, unstripped | xmltodict.py 92-123 |
| C301 | `obj in query` uses up the results of a reversed query | query.py 412-413, 431-436 |
| C302 | `count`, `isEmpty` and slices of a reversed query are TypeErrors | query.py 412-413, 426-429 |
| C303 | a search without criteria finds nothing; `search_object_non_rec` without a match is a RuntimeError | query.py 186, 191 |
| C304 | evaluating a foreign key with `resolve` asks a new, empty session | foreign_key.py 142, 155 |
| C305 | None does not pass `null`, booleans pass `number` and `integer`, texts and paths do not pass `uri`, texts pass `array` and `tuple`, nothing passes `set` | constants.py 20-23, numerics.py 44, uri.py 33, array.py 173-178 |
| C306 | every value of the type that counts as true passes the check of an enumeration | type.py 96 |
| C307 | a key with the component 0 does not pass; missing components are not noticed | foreign_key.py 124 |
| C308 | `detect_type` always detects `true` | constants.py 39, type_builder.py 57-60 |
| C309 | of two documents with one name the listing gives the last, a lookup the first | namespace_manager.py 70-73, 198 |
| C310 | `module in manager` raises AttributeError; a namespace with an empty URI is not in the manager | namespace_manager.py 89 |
| C311 | `get_cname_definitions` resolves the name instead of the identifier and fails | namespace_manager.py 212 |
| C312 | a property made from an instance of a type has the schema of its class, the constraints are lost | validator.py 44-46, type_builder.py 24 |
| C313 | types cannot be given for additional properties or in lists of items; `items=False` accepts everything, `items=True` is no type | type_builder.py 82, array.py 116 |
| C314 | classes and constants stay in the representation of arrays, compiled patterns in that of objects | array.py 140-143, object.py 186 |
| C315 | `type` and `$ref` have no validators, so the meta-schema refuses wrong `complexTypes` only | jsch_validators.py 17, ngo-draft-06.json 110-121 |
| C316 | the checks of paths raise in `anyOf`, `oneOf`, `not` and `if`, so alternatives and negations fail | jsch_validators.py 92-108 |
| C317 | a failed check of a path is ValidationError, not InvalidValue, and hides other errors; AttributeError for values that are not paths | jsch_validators.py 93-108 |
| C318 | with lazy loading setters are called by reading, so values that are overwritten or equal are not told | object_protocol.py 83-84, 99 |
| C319 | the value is stored before the setter is called, and before it is converted | object_protocol.py 98-104 |
| C320 | `del obj['x']` neither calls the deleter nor refuses required properties | object_protocol.py 436-444 |
| C321 | the content is kept for the path and URI, not for the file; `urldefrag` is called with a ParseResult | object_protocol.py 66-89, uri_resolver.py 191-192 |
| C322 | `write` does nothing without path and URI | files.py 212-219 |
| C323 | `get_content` logs all exceptions and returns None | files.py 179-185 |
| C324 | `charset` is passed to nothing; `set_binary` is called when `binary` is read | files.py 47-57 |
| C326 | `split` of a ParseResult, `get` of lists and texts | files.py 173-177, 221-223 |
| C327 | properties of `FileInfo` depend on nothing, so they are computed once | files.py 71-117, object_protocol.py 66-89 |
| C328 | `zip` drops values in excess; criteria read names with `__` and operators; None is no value | array_protocol.py 152-159, query.py 57-65, 137-141 |
| C330 | a descriptor in a class does not see assignments to the class | decorators.py 292-296 |
| C331 | operators that do not apply end a query with an exception; `contains` on a mapping looks for an entry named `contains` | query.py 69-110, 143-151 |
| C147 | the patterns for names are joined to one, which covers nothing when it is empty | jsch_validators.py 17 |
| C151 | without `items`, `additionalItems` says nothing | validator.py 56 |
| C332 | a tuple of one item is logged as its item | decorators.py 184 `"%r" % a` |
| C334 | attributes are written with `str` (True, None), elements with true and nothing; `#text` must be a text | xmltodict.py 395-407, 429-430, 437-438 |
| C336 | an AttributeError raised by a setter while an attribute is read is lost: `__getattr__` reads again and gives the value | object_protocol.py 82-84, 296-302 |
| C337 | `extends` of a schema in the body is overwritten when the class has bases; it is not filled when the class is defined by its identifier | type_protocol.py 171-174 |
| C338 | `type` is written into the registered document, `extends` and `type` into the given `_schema` | type_protocol.py 172-175 |
| C339 | the registered class is removed before the new one is built, and lost if that fails; references registered to it keep the former class | type_protocol.py 178-181, type_builder.py 81-97 |
| C340 | keywords that are parameters of `__init__` (`items`, `validate`, `session`, ...) are not data | collection_protocol.py 37-45 |
| C341 | for an empty mapping `value or opts` is the dictionary of options, into which the context is written next | types/object.py 148-149 |
| C342 | the remembered canonical name depends on the own name only, and the remembered text is reset by own changes only, so that renaming an instance above leaves both | models/instances.py 26-38, object_protocol.py 71-74 |
| C343 | `async def` has no visit method, so coroutines have no name and are missing from the paths inside; a decorator over several lines ends the search for the decorated class; a changed file is not read again | utils/_qualname.py 43-65, 103-122 |
| C344 | only the first label of another domain is part of the name, so a.org/x, a.com/x and /a/x of the home domain share one name | managers/namespace_manager.py 169-171 |
| C345 | an object type that leaves out defaults, as is the default, reads `_aliasesNegated`, which only classes of instances have: AttributeError for every value of a property with a default | types/object.py 253 |
| C345 | items of an array beyond its list of types are written as None | types/collection.py 120-124 |
| C345 | a None of an object inside an array is not written and not filled in when it is read | types/collection.py 85-93, 120-124 |
| C346 | a text as force_list is searched for the name (`key in self.force_list`); True acts on `#text` | utils/xmltodict.py 188-196 |
| C347 | the text of an element without attributes and children is no item; the tail is added after the postprocessor was called | utils/xmltodict.py 139-149 |
| C349 | an element without text is `''` | utils/xmltodict.py 136-149 |
| C350 | a refused root gives a document without element; a refused child counts as child for the layout | utils/xmltodict.py 388-392, 432-449, 468 |
| C352 | the texts of an element are counted with those of white space: the first is the text, the second the tail, the others are lost | utils/xmltodict.py 131-146 |
| C353 | as for C352: the indentation counts as text | utils/xmltodict.py 131-146, 432-449 |
| C356 | the declarations of namespaces are looked for under `@xmlns`, not under the prefix given | utils/xmltodict.py 424 |
| C358 | the hook answers False while the class is under construction, and Python remembers it | protocols/type_proxy.py 78-81 |
| C359 | the default of a class has no default of its properties; AttributeError of types that are no classes; an empty mapping is ignored | types/object.py 192, 198, 253 |
| C360 | an instance that is not valid is accepted unless `validate=True` is given | protocols/collection_protocol.py 78 |
| C362 | an array made with a session changes the session of the object around it, or of `DEFAULT_CONTEXT` and so of all made on their own later | protocols/context.py 35-36, 41; utils/utils.py 138-139 |
| C362 | a session without entries is false and is ignored | protocols/context.py 41 |
| C363 | sections of the file replace default sections as a whole: the other default handlers and formatters are gone, and a file with handlers only is refused | config/utils.py 41 |
| C363 | an empty log configuration file raises TypeError | config/utils.py 40-41 |
| C364 | keys of foreign keys that are identifiers are read with the default namespace manager, since the context is put into another as a map | types/foreign_key.py 137; contexts/ns_manager_context.py 11 |
| C364 | a manager put in front of the context of an object is not the one it keeps | contexts/ns_manager_context.py 19 |
| C365 | a loader made for folders of a name that another has replaces it: modules registered later do not reach the first | loaders/module.py 24, 121 |
