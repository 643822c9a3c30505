{"id": "C01", "title": "Chained mappings resolve a key to the first map that has it", "statement": "Looking a key up in a ReadOnlyChainMap (or a Context) returns the value held by the first map, in construction order, that contains the key; it raises KeyError exactly when no map contains it; and `key in chain` is true exactly when the lookup succeeds. This holds for chains nested inside chains to any depth.", "quantifier": "every finite list of maps (including nested chains of any depth) and every key", "why_tests_cant": "tests look up a handful of literal keys in two or three literal maps; precedence must hold for any number, order, overlap and nesting of maps", "anchors": ["ngoschema/utils/utils.py:ReadOnlyChainMap.__getitem__", "ngoschema/utils/utils.py:ReadOnlyChainMap.__contains__"]}
{"id": "C02", "title": "The iteration, length and merged views of a chained mapping agree with lookup", "statement": "Iterating a ReadOnlyChainMap yields each visible key exactly once, in order of first appearance; len() is the number of keys yielded; reversed_keys() yields exactly the same keys, each once; `.merged` is a dict with exactly those keys and merged[k] == chain[k] for every one of them.", "quantifier": "every finite list of maps, including nested chains", "why_tests_cant": "agreement between five separately coded views must hold for all overlaps between maps, tests only compare a few literals", "anchors": ["ngoschema/utils/utils.py:ReadOnlyChainMap.__iter__", "ngoschema/utils/utils.py:ReadOnlyChainMap.__len__", "ngoschema/utils/utils.py:ReadOnlyChainMap.reversed_keys", "ngoschema/utils/utils.py:ReadOnlyChainMap.merged"]}
{"id": "C03", "title": "Flattening a nested chain preserves every lookup", "statement": "The flat list of maps exposed by maps_flattened contains no chained mapping any more, and looking a key up through it, first hit wins, gives the same result as looking it up through the nested chain.", "quantifier": "every nesting of chains of any depth and every key", "why_tests_cant": "nesting depth is unbounded", "anchors": ["ngoschema/utils/utils.py:ReadOnlyChainMap.maps_flattened"]}
{"id": "C04", "title": "Child contexts override and never alter their parent", "statement": "For ctx.create_child(*parents, **local): names in `local` win over names in `parents`, which win in order over everything visible in ctx; names in none of them resolve as in ctx; ctx itself answers every lookup as before; with no arguments the very same context is returned. Chains of children of any length compose accordingly (innermost wins).", "quantifier": "every context, every parents/local arguments, every sequence of nested create_child calls, every name", "why_tests_cant": "scoping must hold for any depth of nesting and any name collisions", "anchors": ["ngoschema/utils/utils.py:Context.create_child", "ngoschema/utils/utils.py:Context.__init__", "ngoschema/utils/utils.py:ReadOnlyChainMap.new_child"]}
{"id": "C05", "title": "Prepended maps override, appended maps only fill gaps", "statement": "After any sequence of Context.prepend / Context.append calls, a name resolves to the most recently prepended map that has it, else to its original binding, else to the earliest appended map that has it.", "quantifier": "every context and every finite sequence of prepend/append operations", "why_tests_cant": "the claim is over every operation history", "anchors": ["ngoschema/utils/utils.py:Context.prepend", "ngoschema/utils/utils.py:Context.append"]}
{"id": "C06", "title": "Case-insensitive mappings behave as one map over normalised keys", "statement": "For every history of assignments and deletions on a CaseInsensitiveDict (or any key-normalising mapping), a lookup, membership test, length or iteration answers as a plain dict would whose keys were normalised first: two spellings with the same normal form are the same entry, the last write wins, a deleted entry is absent under every spelling, deleting an absent key raises KeyError and changes nothing, iteration yields each normal form once.", "quantifier": "every normalisation function, every initial content, every history of set/delete operations, every key", "why_tests_cant": "histories and key spellings are unbounded", "anchors": ["ngoschema/utils/utils.py:_KeyModifierMapping", "ngoschema/utils/utils.py:CaseInsensitiveDict", "ngoschema/utils/utils.py:UriDict"]}
{"id": "C07", "title": "Registering an entry makes it visible in the registry and all its ancestors", "statement": "After Registry.register(key, value), the registry and every registry reachable through parent links return value for key; every other key in every registry, and every registry that is not an ancestor, is unchanged. After any history of register calls each registry returns for a key the value of the last register call made on it or on one of its descendants.", "quantifier": "every acyclic hierarchy of registries (including diamonds), every history of register calls, every key", "why_tests_cant": "hierarchies and histories are unbounded", "anchors": ["ngoschema/utils/utils.py:Registry.register", "ngoschema/utils/utils.py:Registry.__getitem__"]}
{"id": "C08", "title": "Unregistering an entry is all-or-nothing", "statement": "Registry.unregister(key) either removes key from the registry and all its ancestors, or raises KeyError and leaves every registry unchanged.", "quantifier": "every acyclic hierarchy of registries, every content, every key", "why_tests_cant": "the failure happens midway through a hierarchy of arbitrary shape", "anchors": ["ngoschema/utils/utils.py:Registry.unregister"]}
{"id": "C09", "title": "A computed method resolution order is a consistent linearisation", "statement": "When mro(*bases) returns, the result contains every class of every base's own linearisation and every base exactly once and nothing else, keeps the relative order of each base's own linearisation, and keeps the order in which the bases were given.", "quantifier": "every finite list of bases, each with an arbitrary duplicate-free linearisation", "why_tests_cant": "class hierarchies are unbounded; tests compare a few literal hierarchies", "anchors": ["ngoschema/utils/utils.py:mro"]}
{"id": "C10", "title": "mro fails only when no consistent order exists", "statement": "mro(*bases) raises TypeError exactly when no duplicate-free ordering of the classes respects every base's own linearisation and the order of the bases; otherwise it terminates with a result.", "quantifier": "every finite list of bases with duplicate-free linearisations", "why_tests_cant": "non-existence of an order is a statement over all permutations", "anchors": ["ngoschema/utils/utils.py:mro"]}
{"id": "C11", "title": "gcs returns the most specific shared superclass of the first class", "statement": "gcs(c1,...,cn) returns the first class in c1's linearisation that belongs to every ci's linearisation, i.e. a class common to all such that no earlier class in c1's linearisation is common; None exactly when no class is common.", "quantifier": "every non-empty list of classes with arbitrary linearisations", "why_tests_cant": "hierarchies are unbounded", "anchors": ["ngoschema/utils/utils.py:gcs"]}
{"id": "C12", "title": "Topological layers list every item once, after all its dependencies", "statement": "When topological_sort(data) completes, the yielded layers are non-empty, disjoint, and together contain exactly the keys of data and the items they depend on; every dependency of an item (other than itself) is in a strictly earlier layer than the item; and every item is in the earliest layer its dependencies allow.", "quantifier": "every finite dependency dictionary", "why_tests_cant": "graphs are unbounded", "anchors": ["ngoschema/utils/utils.py:topological_sort"]}
{"id": "C13", "title": "Topological sort fails exactly on cyclic dependencies", "statement": "topological_sort(data) raises AssertionError exactly when some item depends on itself through a chain of at least two distinct items; self-dependencies are ignored; it always terminates.", "quantifier": "every finite dependency dictionary", "why_tests_cant": "cycles can have any length", "anchors": ["ngoschema/utils/utils.py:topological_sort"]}
{"id": "C14", "title": "Object call order evaluates each key once, required keys first and dependencies before dependents", "statement": "The order in which an object's keys are evaluated lists every key of the value and every required key exactly once, all required keys come first, and among the non-required keys each key comes after the keys it depends on (acyclic dependencies).", "quantifier": "every value, every set of required keys, every acyclic dependency dictionary, every set-iteration order", "why_tests_cant": "tests check one literal schema; set iteration order is arbitrary in Python", "anchors": ["ngoschema/types/object.py:ObjectDeserializer._call_order"]}
{"id": "C15", "title": "Paging an iterable loses, duplicates and reorders nothing", "statement": "For page_size >= 1, concatenating the pages yielded by grouper(page_size, it) gives back the items in order; every page but the last has exactly page_size items; the last has fewer (possibly none); the number of pages is len//page_size + 1.", "quantifier": "every page size >= 1 and every finite iterable", "why_tests_cant": "lengths relative to the page size are unbounded", "anchors": ["ngoschema/utils/utils.py:grouper"]}
{"id": "C16", "title": "Bracket search pairs each closing bracket with its own opening bracket", "statement": "When Bracket.find_brackets(text, b) returns, it lists, in order of closing position, one pair per closing bracket of the kind b; each pair's positions hold the opening and the closing character, the text strictly between them is balanced, and no two pairs share a position or cross each other.", "quantifier": "every text and every bracket kind", "why_tests_cant": "texts are unbounded and nest to any depth", "anchors": ["ngoschema/utils/utils.py:Bracket.find_brackets", "ngoschema/utils/utils.py:Bracket.get_brackets"]}
{"id": "C17", "title": "Bracket search fails exactly on a closing bracket without opening", "statement": "find_brackets raises IndexError exactly when some prefix of the text holds more closing than opening brackets of the kind; find_closing_bracket returns the first outermost pair and its content, None when no bracket closes at the outer level.", "quantifier": "every text and every bracket kind", "why_tests_cant": "prefix counts range over unbounded texts", "anchors": ["ngoschema/utils/utils.py:Bracket.find_brackets", "ngoschema/utils/utils.py:Bracket.find_closing_bracket"]}
{"id": "C18", "title": "A list of keys reaches exactly the nested value it addresses", "statement": "get_descendant(obj, keys) with a non-empty key list returns the value reached by following the keys one by one through dictionaries and lists, and None when some key is absent on the way; it never raises.", "quantifier": "every nested document of dictionaries, lists and scalars and every non-empty list of keys", "why_tests_cant": "documents and paths have unbounded depth", "anchors": ["ngoschema/utils/utils.py:get_descendant"]}
{"id": "C19", "title": "Dotted and indexed path strings address nested values", "statement": "get_descendant(obj, 'a.b') equals following the keys a, b; get_descendant(obj, 'a[2].b') equals following the keys a, index 2, b.", "quantifier": "every document and every path string", "why_tests_cant": "paths are unbounded", "anchors": ["ngoschema/utils/utils.py:split_path", "ngoschema/utils/utils.py:get_descendant"]}
{"id": "C20", "title": "Excluding keys from a collection removes exactly these keys", "statement": "filter_collection(d, but=keys) on a dictionary returns a dictionary with exactly the keys of d not in `keys`, with their values and order; the argument d is not modified; with neither only nor but the argument itself is returned.", "quantifier": "every dictionary and every set of keys", "why_tests_cant": "dictionaries and key sets are unbounded", "anchors": ["ngoschema/utils/utils.py:filter_collection"]}
{"id": "C21", "title": "Selecting keys of a collection keeps only these keys", "statement": "filter_collection(d, only=keys) returns a dictionary with exactly the keys of d that are in `keys`.", "quantifier": "every dictionary and every set of keys", "why_tests_cant": "as above", "anchors": ["ngoschema/utils/utils.py:filter_collection"]}
{"id": "C22", "title": "Flattening a nested dictionary lists every leaf once under its full name", "statement": "nested_dict_iter(d, sep) yields exactly one pair per non-dictionary leaf, in depth-first order, named by the keys from the root joined by sep, with the leaf's value.", "quantifier": "every nested dictionary of any depth and every separator", "why_tests_cant": "depth is unbounded", "anchors": ["ngoschema/utils/utils.py:nested_dict_iter"]}
{"id": "C23", "title": "The shared counter never hands out a number twice, under any thread interleaving", "statement": "For every number of threads and every interleaving of their steps, the values returned by one threadsafe_counter are pairwise distinct and, after n completed calls, are exactly the n consecutive integers from the initial value; the lock is free whenever no call is in progress; no reachable state is deadlocked.", "quantifier": "every number of threads, every number of calls, every schedule", "why_tests_cant": "tests exercise one schedule; the claim ranges over all interleavings", "anchors": ["ngoschema/utils/utils.py:threadsafe_counter", "ngoschema/session.py:Session.__init__"]}
{"id": "C24", "title": "working_directory restores the previous directory on every exit path", "statement": "After a `with working_directory(p)` block, nested to any depth and left normally or by an exception at any point, the current directory is what it was at entry, whatever directory changes the body made (as long as the former directory still exists); the body's exception propagates unchanged.", "quantifier": "every nesting of blocks, every body, every exception point", "why_tests_cant": "exception points and nesting are unbounded", "anchors": ["ngoschema/utils/utils.py:working_directory"]}
{"id": "C25", "title": "casted_as restores the instance's class on every exit path", "statement": "Inside `with casted_as(obj, cls)` obj has class cls, and after the block it has its original class again, whether the block ends normally or by an exception; a class that is not an ancestor is refused and nothing changes.", "quantifier": "every instance, class and body, including bodies that raise", "why_tests_cant": "exit paths are a control-flow property", "anchors": ["ngoschema/utils/utils.py:casted_as"]}
{"id": "C26", "title": "Shortened strings stay within bounds and keep the head of the text", "statement": "shorten(s, n) returns s unchanged when it has at most n characters, and otherwise its first n characters followed by '...'; the result never exceeds n+3 characters, and the result equals s exactly when s has at most n characters or is itself n characters followed by '...'.", "quantifier": "every string and every n >= 0", "why_tests_cant": "lengths are unbounded", "anchors": ["ngoschema/utils/str_utils.py:shorten"]}
{"id": "C27", "title": "inline puts any text on one line, reversibly when it holds no backslash", "statement": "inline(s) contains no newline, equals s when s has none, and two texts without backslashes with the same inline form are equal.", "quantifier": "every string", "why_tests_cant": "strings are unbounded", "anchors": ["ngoschema/utils/str_utils.py:inline"]}
{"id": "C28", "title": "rreplace changes the rightmost occurrences only", "statement": "rreplace(s, old, new, 1) returns s unchanged when old does not occur, and otherwise replaces exactly the last occurrence: the text before and after it is untouched and old does not occur in what follows it.", "quantifier": "every string, every non-empty old, every new", "why_tests_cant": "strings are unbounded", "anchors": ["ngoschema/utils/str_utils.py:rreplace"]}
{"id": "C29", "title": "split_string cuts at every delimiter and nowhere else", "statement": "Without stripping, split_string(s, delimiters) returns one more piece than s has delimiter characters, no piece contains a delimiter, and the pieces interleaved with the delimiters of s give back s; with stripping each piece is the stripped piece; with no delimiters it returns [s].", "quantifier": "every string and every set of delimiter characters", "why_tests_cant": "strings are unbounded", "anchors": ["ngoschema/utils/str_utils.py:split_string"]}
{"id": "C30", "title": "multiple_replace performs all replacements simultaneously", "statement": "multiple_replace(s, table), for a table with non-empty keys, scans s from left to right, replaces at each position the first key (in table order) that occurs there, and never rescans replaced text; a string in which no key occurs is unchanged; in particular swapping two characters with a two-entry table works.", "quantifier": "every string and every non-empty table with non-empty keys", "why_tests_cant": "strings and tables are unbounded", "anchors": ["ngoschema/utils/str_utils.py:multiple_replace"]}
{"id": "C31", "title": "Array-lifted functions act element-wise", "statement": "A function decorated with take_arrays, called with a list for the lifted argument, returns the list of its results on each element in order (zipped with a second list of the same length, flattened if asked); raises InvalidValue, without calling the function, when two lists of different lengths are given and the second has length other than one; and behaves as the undecorated function on a scalar.", "quantifier": "every function, every argument lists", "why_tests_cant": "lists are unbounded", "anchors": ["ngoschema/decorators.py:take_arrays"]}
{"id": "C32", "title": "A memoised property is computed once until it is reset", "statement": "Over any history of reads and resets of a memoized_property, the getter runs once per run of reads between resets, and all reads of such a run return the same value.", "quantifier": "every history of read/reset operations, every (stateful) getter", "why_tests_cant": "histories are unbounded", "anchors": ["ngoschema/decorators.py:memoized_property"]}
{"id": "C33", "title": "Cleaned property names are stable", "statement": "clean_js_name keeps only the part after the last ':', contains no '-' and no ':', and applying it twice gives the same result as once; on names made of letters, digits, '.', and '_' it is the identity.", "quantifier": "every name", "why_tests_cant": "names are unbounded", "anchors": ["ngoschema/managers/namespace_manager.py:clean_js_name"]}
{"id": "C34", "title": "Cleaned property names only contain identifier characters", "statement": "Every character of clean_js_name(name) is an ASCII letter, a digit, '_' or '.'.", "quantifier": "every name", "why_tests_cant": "names are unbounded", "anchors": ["ngoschema/managers/namespace_manager.py:clean_js_name"]}
{"id": "C35", "title": "Scoping a reference makes it absolute and is idempotent", "statement": "scope(ref, base): a reference without '#' is unchanged; a reference '#frag' becomes base-document#frag; a reference doc#frag with non-empty doc is unchanged whatever the base; applying scope again with any base changes nothing (base with a non-empty document part); at most one '#' is kept.", "quantifier": "every reference and base string", "why_tests_cant": "strings are unbounded", "anchors": ["ngoschema/resolvers/uri_resolver.py:scope"]}
{"id": "C36", "title": "Every node of a document is reachable by its JSON pointer", "statement": "resolve_fragment(doc, pointer) returns, for every node of the document, that node when given the node's escaped pointer ('~'\u2192'~0', '/'\u2192'~1', list positions in decimal, percent-free keys, first key not empty), and raises InvalidValue when the pointer addresses nothing; no other exception escapes.", "quantifier": "every nested document of any depth and every path in it", "why_tests_cant": "documents are unbounded", "anchors": ["ngoschema/resolvers/uri_resolver.py:resolve_fragment"]}
{"id": "C37", "title": "Resolving a document URI returns the document currently registered", "statement": "After any history of register_doc / unregister_doc / resolve_doc calls, resolve_doc(uri) returns the document last registered under that URI and fails when none is registered.", "quantifier": "every history of operations", "why_tests_cant": "the fault needs a particular order of operations", "anchors": ["ngoschema/resolvers/uri_resolver.py:resolve_doc", "ngoschema/resolvers/uri_resolver.py:UriResolver.register_doc", "ngoschema/resolvers/uri_resolver.py:UriResolver.unregister_doc"]}
{"id": "C38", "title": "A canonical name is attributed to its most specific namespace", "statement": "Among the registered namespaces that are the name itself or a dotted prefix of it, the one found for a canonical name is the longest, and it is found whenever one exists.", "quantifier": "every registry of namespaces and every canonical name", "why_tests_cant": "registries are unbounded", "anchors": ["ngoschema/managers/namespace_manager.py:NamespaceManager._find_ns_by_cname"]}
{"id": "C39", "title": "An identifier is attributed to its most specific namespace", "statement": "Among the registered namespaces whose URI is a prefix of an identifier, the one found is the one with the longest URI.", "quantifier": "every registry of namespaces and every identifier", "why_tests_cant": "registries are unbounded", "anchors": ["ngoschema/managers/namespace_manager.py:NamespaceManager._find_ns_by_uri"]}
{"id": "C40", "title": "The first registration of a namespace name wins for ever", "statement": "Over any history of register_ns calls, a name keeps the URI (without fragment) of the first call that registered it.", "quantifier": "every history of register_ns calls", "why_tests_cant": "histories are unbounded", "anchors": ["ngoschema/managers/namespace_manager.py:NamespaceManager.register_ns"]}
{"id": "C41", "title": "Names follow namespaces added later", "statement": "After NamespaceManager.add(uri, name), get_id_cname(uri + fragment) is computed with the namespaces registered at that time, whatever was asked before.", "quantifier": "every history of add / get_id_cname calls", "why_tests_cant": "the fault needs a particular order of operations", "anchors": ["ngoschema/managers/namespace_manager.py:NamespaceManager.get_id_cname", "ngoschema/managers/namespace_manager.py:NamespaceManager.add"]}
{"id": "C42", "title": "Canonical names of schema fragments drop exactly the structural segments", "statement": "The canonical name of a fragment '/kw1/name1/kw2/name2/...' of alternating keyword/name segments is the dotted list of its (cleaned) names; definitions with distinct clean dot-free names at the same depth get distinct canonical names.", "quantifier": "every alternating fragment of any depth", "why_tests_cant": "fragments are unbounded", "anchors": ["ngoschema/managers/namespace_manager.py:NamespaceManager._fragment_to_cname"]}
{"id": "C43", "title": "filter and exclude partition the objects", "statement": "For the same criteria, every non-empty object of the iterable is returned by exactly one of filter and exclude (and by exactly one of filter_any_of and exclude_any_of), provided evaluating the criteria raises nothing; empty (falsy) objects are returned by neither.", "quantifier": "every iterable of objects, every criteria", "why_tests_cant": "iterables and criteria are unbounded", "anchors": ["ngoschema/query.py:Query.filter", "ngoschema/query.py:Query.exclude", "ngoschema/query.py:Filter.__call__"]}
{"id": "C44", "title": "Filtering keeps order and multiplicity", "statement": "The result of filter, exclude and their any_of variants is a subsequence of the iterable; filtering the result again by the same stateless criteria changes nothing; filtering by A then by B selects the objects that satisfy both.", "quantifier": "every iterable and criteria", "why_tests_cant": "iterables are unbounded", "anchors": ["ngoschema/query.py:Query._filter_or_exclude"]}
{"id": "C45", "title": "filter selects the objects satisfying all criteria", "statement": "On objects whose addressed attributes are not mappings, filter(**criteria) selects exactly the non-empty objects for which every attribute exists and every test holds, and every attribute named positionally exists.", "quantifier": "every iterable, every list of criteria and positional attributes", "why_tests_cant": "combinations are unbounded", "anchors": ["ngoschema/query.py:Filter.__call__"]}
{"id": "C46", "title": "filter_any_of selects the objects satisfying at least one criterion", "statement": "filter_any_of(**criteria) selects exactly the non-empty objects for which some criterion's attribute exists and its test holds, or some positional attribute exists.", "quantifier": "every iterable, every list of criteria", "why_tests_cant": "the fault depends on the order and presence of attributes", "anchors": ["ngoschema/query.py:Filter.__call__"]}
{"id": "C47", "title": "The `not` operator complements a criterion", "statement": "On an object having the attribute, `attr__op__not=v` holds exactly when `attr__op=v` does not.", "quantifier": "every object, operator chain and value", "why_tests_cant": "operator chains are unbounded", "anchors": ["ngoschema/query.py:_apply_ops_test", "ngoschema/query.py:Filter.__init__"]}
{"id": "C48", "title": "An object's verdict does not depend on the objects filtered before it", "statement": "A Filter gives the same answer on an object whatever objects it was applied to before.", "quantifier": "every sequence of objects", "why_tests_cant": "the fault needs a particular history", "anchors": ["ngoschema/query.py:Filter.__call__"]}
{"id": "C49", "title": "Criterion names split into a path and trailing operators", "statement": "A criterion 'p1__...__pn__op1__...__opm' is read as the path p1..pn and the operators op1..opm where the operators are the longest suffix made of operator names and '@index' items; joining them back gives the criterion.", "quantifier": "every criterion string", "why_tests_cant": "strings are unbounded", "anchors": ["ngoschema/query.py:_sort_criteria"]}
{"id": "C50", "title": "Distinct queries return each object once", "statement": "With distinct=True the result contains no duplicates, contains every object satisfying the criteria, and keeps the first occurrence of each.", "quantifier": "every iterable", "why_tests_cant": "iterables are unbounded", "anchors": ["ngoschema/query.py:Query._filter_or_exclude"]}
{"id": "C51", "title": "Query set operations have set semantics", "statement": "q.union(...) contains exactly the objects of q and of the others, q.intersection(...) the objects of q that are in all others, q.difference(...) the objects of q that are in none; intersection and difference keep the order of q.", "quantifier": "every query results and any number of other queries", "why_tests_cant": "numbers and sizes are unbounded", "anchors": ["ngoschema/query.py:Query.union", "ngoschema/query.py:Query.intersection", "ngoschema/query.py:Query.difference"]}
{"id": "C52", "title": "Query set operations leave their operands unchanged", "statement": "union, intersection and difference change the results of neither the receiver nor the arguments.", "quantifier": "every queries", "why_tests_cant": "aliasing appears only on later reads of the receiver", "anchors": ["ngoschema/query.py:Query.union"]}
{"id": "C53", "title": "get returns the unique match, next the first one", "statement": "q.get(criteria) returns an object exactly when one and only one object of the iterable matches, and raises otherwise; q.next(criteria) returns the first match, StopIteration when there is none.", "quantifier": "every iterable and criteria", "why_tests_cant": "iterables are unbounded", "anchors": ["ngoschema/query.py:Query.get", "ngoschema/query.py:Query.next"]}
{"id": "C54", "title": "first and last return the ends of the result", "statement": "q.first() is the first result and q.last() the last one, None when the result is empty; q[k] is the k-th result for 0 <= k < len(q).", "quantifier": "every query result", "why_tests_cant": "results are unbounded", "anchors": ["ngoschema/query.py:Query.first", "ngoschema/query.py:Query.last", "ngoschema/query.py:Query.__getitem__"]}
{"id": "C55", "title": "Ordered and reversed queries are permutations of the plain result", "statement": "order_by(key) returns the objects sorted by the key, reverse() returns them in reverse order, and the result can be read several times.", "quantifier": "every iterable and key", "why_tests_cant": "iterables are unbounded", "anchors": ["ngoschema/query.py:Query.order_by", "ngoschema/query.py:Query.reverse", "ngoschema/query.py:Query.result_cache"]}
{"id": "C56", "title": "Boolean conversion is decided by the configured word lists", "statement": "Boolean conversion returns True/False unchanged, maps a string to True or False according to its lower-cased form being in the true or false word list, maps the integers 1 and 0 to True and False, raises ConversionError on everything else, and is idempotent and case-insensitive.", "quantifier": "every value and every string", "why_tests_cant": "values are unbounded", "anchors": ["ngoschema/types/boolean.py:Boolean._convert"]}
{"id": "C57", "title": "Enum conversion only produces members of the enumeration", "statement": "Converting a value with an Enum type returns a member of the enumeration or raises ConversionError, members convert to themselves, and an index 0 <= i < n that is not itself a member converts to the i-th member.", "quantifier": "every enumeration and every value", "why_tests_cant": "enumerations and values are unbounded", "anchors": ["ngoschema/types/type.py:Enum._convert"]}
{"id": "C58", "title": "Inclusion options have a fixed precedence", "statement": "A key is processed exactly when it is not excluded, is listed in `only` if `only` is given, exists in the value if a value is given, and is not None when defaults are dropped; exclusion always wins.", "quantifier": "every key, value and options", "why_tests_cant": "option combinations with arbitrary key sets", "anchors": ["ngoschema/protocols/serializer.py:Deserializer._is_included"]}
{"id": "C59", "title": "Array deserialisation keeps the items and pads to the minimum", "statement": "Deserialising a sequence keeps its items in order; a string is split at the delimiter and stripped when splitting is enabled, else wrapped; any other value is wrapped; more than one item is refused when only one is allowed; the result has max(number of items, minItems) items, the added ones being None.", "quantifier": "every value, delimiter, minItems and options", "why_tests_cant": "sizes are unbounded", "anchors": ["ngoschema/types/array.py:ArrayDeserializer._deserialize"]}
{"id": "C60", "title": "Array validation enforces uniqueness and size limits", "statement": "Validating an array against uniqueItems / minItems / maxItems raises when it has duplicate items, too few or too many items.", "quantifier": "every array and limits", "why_tests_cant": "arrays are unbounded", "anchors": ["ngoschema/types/array.py:ArrayDeserializer._validate", "ngoschema/types/array.py:Array._validate"]}
{"id": "C61", "title": "Joining an array to a string and splitting it back is lossless", "statement": "For items that are stripped strings without the delimiter (and at least one item), serialising as string then deserialising with split_string gives back the items.", "quantifier": "every list of such strings and every delimiter character", "why_tests_cant": "lists are unbounded", "anchors": ["ngoschema/types/array.py:ArraySerializer._serialize", "ngoschema/types/array.py:ArrayDeserializer._deserialize"]}
{"id": "C62", "title": "Object deserialisation fills in every declared property and keeps what was given", "statement": "Deserialising an object keeps every supplied key and value, gives every missing property with a default its default and every other missing declared property None, adds nothing else, and lists each key once.", "quantifier": "every value, every properties/defaults declaration", "why_tests_cant": "schemas and values are unbounded", "anchors": ["ngoschema/types/object.py:Object._deserialize"]}
{"id": "C63", "title": "Object validation refuses missing required keys and unknown keys", "statement": "Validation succeeds (items aside) exactly when every required key is present and every key is declared, matches a declared pattern, or additional properties are allowed; otherwise it raises InvalidValue.", "quantifier": "every value, every declaration", "why_tests_cant": "schemas and values are unbounded", "anchors": ["ngoschema/types/object.py:ObjectDeserializer._validate", "ngoschema/types/object.py:Object._validate"]}
{"id": "C64", "title": "Serialisation respects excludes and only", "statement": "The serialised keys of an object never include an excluded key and, when `only` is given, are all listed in `only`.", "quantifier": "every value, every options, every set of required keys", "why_tests_cant": "options are unbounded", "anchors": ["ngoschema/types/object.py:ObjectSerializer._print_order", "ngoschema/types/collection.py:Collection._serialize"]}
{"id": "C65", "title": "Serialising one object does not affect the next one", "statement": "The keys printed for a value depend only on that value and the options of that call, not on earlier calls.", "quantifier": "every history of calls", "why_tests_cant": "the fault needs a particular history", "anchors": ["ngoschema/types/object.py:ObjectSerializer._print_order"]}
{"id": "C66", "title": "An assigned property reads back as its converted value", "statement": "On an instance of a schema-built class, after obj[k] = v for a writable property, obj[k] returns the conversion of v (immediately or lazily), independently of the other properties' values unless k is computed from them, and other independent properties are unchanged.", "quantifier": "every class declaration, every history of assignments and reads", "why_tests_cant": "histories are unbounded", "anchors": ["ngoschema/protocols/object_protocol.py:PropertyDescriptor", "ngoschema/protocols/collection_protocol.py:CollectionProtocol._set_data", "ngoschema/protocols/collection_protocol.py:CollectionProtocol._set_dataValidated"]}
{"id": "C67", "title": "Read-only properties cannot be assigned, required ones cannot be deleted", "statement": "Assigning a read-only property, or deleting a required one, raises AttributeError and leaves the instance unchanged, in every reachable state.", "quantifier": "every reachable state", "why_tests_cant": "states are unbounded", "anchors": ["ngoschema/protocols/object_protocol.py:PropertyDescriptor.__set__", "ngoschema/protocols/object_protocol.py:PropertyDescriptor.__delete__"]}
{"id": "C68", "title": "Computed properties are never stale", "statement": "Reading a property that is computed from others returns the value computed from their current values, after any history of assignments, for every acyclic dependency declaration.", "quantifier": "every acyclic dependency graph and every history", "why_tests_cant": "graphs and histories are unbounded", "anchors": ["ngoschema/protocols/collection_protocol.py:CollectionProtocol._items_touch", "ngoschema/protocols/object_protocol.py:ObjectProtocol._items_touch", "ngoschema/protocols/collection_protocol.py:CollectionProtocol._is_outdated"]}
{"id": "C69", "title": "Aliases read and write the aliased property; negated aliases negate both ways", "statement": "For an alias a of p, obj[a] = v then obj[a] gives v and obj[p] gives v; for a negated alias n of p, obj[n] = v then obj[n] gives v and obj[p] gives -v.", "quantifier": "every alias declaration, every value", "why_tests_cant": "values and declarations are unbounded", "anchors": ["ngoschema/protocols/object_protocol.py:ObjectProtocol.__getitem__", "ngoschema/protocols/object_protocol.py:ObjectProtocol.__setitem__", "ngoschema/protocols/object_protocol.py:ObjectProtocol._properties_raw_trans"]}
{"id": "C70", "title": "An array instance keeps its internal lists aligned", "statement": "After any history of insert / assignment / deletion / read on an array instance, its raw items, converted items and input records have the same length, len() is that length, and each converted item, when present, is the conversion of the raw item at the same index (eager mode).", "quantifier": "every history of operations, every index", "why_tests_cant": "histories are unbounded", "anchors": ["ngoschema/protocols/array_protocol.py:ArrayProtocol.insert", "ngoschema/protocols/collection_protocol.py:CollectionProtocol.__setitem__", "ngoschema/protocols/collection_protocol.py:CollectionProtocol.__delitem__"]}
{"id": "C71", "title": "A lazily loaded array reads back what was assigned", "statement": "With lazy loading, after arr[i] = v, arr[i] is the conversion of v.", "quantifier": "every history of assignments and reads", "why_tests_cant": "the fault needs a read before the assignment", "anchors": ["ngoschema/protocols/collection_protocol.py:CollectionProtocol.__setitem__", "ngoschema/protocols/collection_protocol.py:CollectionProtocol.__getitem__"]}
{"id": "C72", "title": "A memory repository holds at most one object per identity", "statement": "After any history of commits to a many-repository, no two stored objects have the same identity keys; the stored object for an identity is the last committed one; `keys in repo` and resolve_fkey(keys) agree with the stored objects.", "quantifier": "every history of commits, every number of primary keys", "why_tests_cant": "histories are unbounded", "anchors": ["ngoschema/repositories/memory_repository.py:MemoryRepository._commit", "ngoschema/repositories/memory_repository.py:MemoryRepository.__contains__", "ngoschema/repositories/memory_repository.py:MemoryRepository.resolve_fkey"]}
{"id": "C73", "title": "Automatically assigned keys are fresh", "statement": "Committing an object with an unset integer key gives it a key that no stored object has at that position, never replaces a stored object, and keeps keys already set.", "quantifier": "every repository content and every object", "why_tests_cant": "contents are unbounded", "anchors": ["ngoschema/repositories/memory_repository.py:MemoryRepository._commit"]}
{"id": "C74", "title": "Session options: call arguments override factory configuration, info is merged", "statement": "A session created by session_maker(...)(**local) receives for each option the local value if given, else the last configured value, else the default; `info` given at both levels is merged with local entries winning; creating sessions never alters the factory configuration.", "quantifier": "every configuration history and call arguments", "why_tests_cant": "histories are unbounded", "anchors": ["ngoschema/session.py:session_maker.__call__", "ngoschema/session.py:session_maker.configure"]}
{"id": "C75", "title": "A scoped session returns the same session until it is removed", "statement": "Within one scope, over any history of calls and removes, two calls without an intervening remove return the same session, a call after a remove creates a new one, scopes never share sessions, and a call with arguments when one is present fails without changing anything.", "quantifier": "every history over any number of scopes", "why_tests_cant": "histories are unbounded", "anchors": ["ngoschema/session.py:scoped_session.__call__", "ngoschema/session.py:scoped_session.remove"]}
{"id": "C76", "title": "A type is built once and recursive references resolve to it", "statement": "Over any history of build/load requests on any set of schemas, including recursive ones, a given identifier is successfully built at most once, every later request returns the same class, requests during construction return a reference that resolves to that class afterwards, and the request terminates.", "quantifier": "every set of schemas with arbitrary reference cycles, every history of requests", "why_tests_cant": "reference graphs are unbounded", "anchors": ["ngoschema/managers/type_builder.py:TypeBuilder.build", "ngoschema/managers/type_builder.py:TypeBuilder.load"]}
{"id": "C77", "title": "A failed build can be retried", "statement": "When building a type fails, a later request for the same identifier behaves as if the failed one had not happened.", "quantifier": "every history", "why_tests_cant": "the fault needs a failure followed by a retry", "anchors": ["ngoschema/managers/type_builder.py:TypeBuilder.build"]}
{"id": "C78", "title": "Saving a file leaves exactly the saved content", "statement": "After write_file(content, path) the file holds exactly the content and every other file is unchanged; writing the same content again does not rewrite the file; append_file adds the content at the end of what was there; any sequence of writes and appends leaves the last write followed by the later appends.", "quantifier": "every file system state and every history of writes/appends", "why_tests_cant": "histories are unbounded", "anchors": ["ngoschema/protocols/file_loader.py:FileSaver._write_file", "ngoschema/protocols/file_loader.py:FileSaver._append_file", "ngoschema/protocols/file_loader.py:FileSaver._save_file"]}
{"id": "C79", "title": "XML children with the same tag are all kept, in order", "statement": "Feeding any sequence of child elements to the XML parser leaves, for each tag, the single child when there is one and the list of all children in document order when there are several; tags keep the order of first appearance.", "quantifier": "every sequence of children", "why_tests_cant": "sequences are unbounded", "anchors": ["ngoschema/utils/xmltodict.py:_DictSAXHandler.push_data"]}
{"id": "C80", "title": "Writing a document as XML and parsing it back is lossless on canonical documents", "statement": "For every canonical document tree (elements carry attributes, then children, or text; repeated children as lists of at least two; stripped non-empty text), parsing the event stream emitted by unparse gives back the same dictionary.", "quantifier": "every canonical document tree of any depth", "why_tests_cant": "trees are unbounded", "anchors": ["ngoschema/utils/xmltodict.py:_emit", "ngoschema/utils/xmltodict.py:_DictSAXHandler"]}
{"id": "C81", "title": "XML output requires exactly one root", "statement": "unparse(d) succeeds on a full document only if d has exactly one key and its value is not a list of several items; otherwise it raises ValueError.", "quantifier": "every dictionary", "why_tests_cant": "dictionaries are unbounded", "anchors": ["ngoschema/utils/xmltodict.py:unparse", "ngoschema/utils/xmltodict.py:_emit"]}
{"id": "C82", "title": "The flattened view of a context stays current", "statement": "maps_flattened of a context always reflects its current maps: after any sequence of prepend/append calls, looking a name up through it gives the same result as looking it up in the context.", "quantifier": "every history of prepend, append and reads", "why_tests_cant": "the fault depends on when the view was first read", "anchors": ["ngoschema/utils/utils.py:ReadOnlyChainMap.maps_flattened", "ngoschema/utils/utils.py:Context.prepend", "ngoschema/utils/utils.py:Context.append"]}
{"id": "C83", "title": "The nesting test of brackets tells whether one lies inside the other", "statement": "For two brackets found in one text, a.is_in(b) is true exactly when a lies strictly inside b.", "quantifier": "every text and every two brackets found in it", "why_tests_cant": "texts nest to any depth", "anchors": ["ngoschema/utils/utils.py:Bracket.is_in"]}
{"id": "C84", "title": "Excluding keys reaches the dictionaries of a list", "statement": "filter_collection(list, but=keys) removes the keys from the dictionaries of the list.", "quantifier": "every list of documents and every set of keys", "why_tests_cant": "lists are unbounded", "anchors": ["ngoschema/utils/utils.py:filter_collection"]}
{"id": "C85", "title": "A declared argument is validated before the function body runs", "statement": "A function or method decorated with assert_arg(arg, T) runs its body only with that argument, passed by position or by name, replaced by its converted and validated value; when validation fails the call fails and the body does not run; all other arguments are passed unchanged; with assert_args=False nothing is checked.", "quantifier": "every function or method, every instance, every validator, every call", "why_tests_cant": "tests call the decorated function on one kind of instance; the claim ranges over all of them, including empty collections", "anchors": ["ngoschema/decorators.py:assert_arg"]}
{"id": "C86", "title": "Required properties are checked before a method runs", "statement": "A method decorated with assert_prop(p1, ..., pn) runs exactly when every listed property is defined on the instance; otherwise AttributeError is raised.", "quantifier": "every list of properties and every instance", "why_tests_cant": "lists and instances are unbounded", "anchors": ["ngoschema/decorators.py:assert_prop"]}
{"id": "C87", "title": "A memoised method is transparent, per instance, and remembers recent calls", "statement": "Over any history of calls on any number of instances, a memoized_method whose result depends only on the instance and the arguments returns that result; instances never share entries; a value is not recomputed as long as fewer than maxsize other argument combinations were used since.", "quantifier": "every history of calls on any number of instances, every maxsize", "why_tests_cant": "histories are unbounded", "anchors": ["ngoschema/decorators.py:memoized_method"]}
{"id": "C88", "title": "A name covered only by loaded documents is attributed to the most specific one", "statement": "When no registered namespace covers a canonical name, the loaded document found for it is the one whose canonical name is the longest dotted prefix of the name.", "quantifier": "every set of loaded documents in every order, every canonical name", "why_tests_cant": "loading orders and document sets are unbounded", "anchors": ["ngoschema/managers/namespace_manager.py:NamespaceManager._find_ns_by_cname"]}
{"id": "C89", "title": "Canonical names and identifiers translate back and forth", "statement": "For a name made of clean components in a registered namespace whose document is not loaded, the identifier given by the manager lies in that document and its canonical name is the name again, as long as no other registered namespace claims the name or the identifier.", "quantifier": "every registry of namespaces, every list of clean components", "why_tests_cant": "registries and names are unbounded", "anchors": ["ngoschema/managers/namespace_manager.py:NamespaceManager.get_cname_id", "ngoschema/managers/namespace_manager.py:NamespaceManager.get_id_cname"]}
{"id": "C90", "title": "The current namespace is the most specific one containing the name", "statement": "set_current(name) makes current the registered namespace that is the name or its longest dotted prefix, and its URI the default URI; the other namespaces are unchanged.", "quantifier": "every registry and every name", "why_tests_cant": "registries are unbounded", "anchors": ["ngoschema/managers/namespace_manager.py:NamespaceManager.set_current"]}
{"id": "C91", "title": "Relative canonical names drop exactly the current namespace", "statement": "get_id_cname(ref, relative=True) is the canonical name with the current namespace and the following dot removed when the name lies in the current namespace, and the full canonical name otherwise.", "quantifier": "every current namespace and every reference", "why_tests_cant": "names are unbounded", "anchors": ["ngoschema/managers/namespace_manager.py:NamespaceManager.get_id_cname"]}
{"id": "C92", "title": "Leading dots climb the namespaces", "statement": "In get_cname_id a name with k+1 leading dots stands for the name in the current namespace with its last k components removed; climbing above the top is an error; a name without leading dot is absolute.", "quantifier": "every current namespace, every number of dots, every name", "why_tests_cant": "unbounded depth", "anchors": ["ngoschema/managers/namespace_manager.py:NamespaceManager.get_cname_id"]}
{"id": "C93", "title": "Documents of the home domain get distinct dotted names", "statement": "The canonical name of a document of the home domain whose path segments are plain (not empty, not starting with a digit, no dash, no dot) is the dotted list of its segments, so two such documents have the same canonical name only if they have the same path.", "quantifier": "every path of plain segments", "why_tests_cant": "paths are unbounded", "anchors": ["ngoschema/managers/namespace_manager.py:NamespaceManager._uri_to_cname"]}
{"id": "C94", "title": "The default name of a URI with a fragment separates document and fragment", "statement": "NamespaceManager.add(doc#frag) without a name registers it under the document's canonical name, a dot, and the fragment's canonical name.", "quantifier": "every URI with a fragment", "why_tests_cant": "URIs are unbounded", "anchors": ["ngoschema/managers/namespace_manager.py:NamespaceManager._uri_to_cname", "ngoschema/managers/namespace_manager.py:NamespaceManager.add"]}
{"id": "C95", "title": "resolve_uri finds the node of the registered document", "statement": "Over any history of register_doc / unregister_doc / resolve_doc calls in which the document's URI was not resolved before, resolve_uri(uri#pointer) returns the node addressed by the pointer in the document last registered under the URI, and fails when none is registered.", "quantifier": "every history, every document, every pointer", "why_tests_cant": "histories and documents are unbounded", "anchors": ["ngoschema/resolvers/uri_resolver.py:resolve_uri", "ngoschema/resolvers/uri_resolver.py:resolve_doc", "ngoschema/resolvers/uri_resolver.py:resolve_fragment"]}
{"id": "C96", "title": "Names cleaned for URIs are stable", "statement": "clean_for_uri keeps only the part after the last ':' and turns every '_' into '-', changing nothing else; applying it again changes nothing.", "quantifier": "every string", "why_tests_cant": "strings are unbounded", "anchors": ["ngoschema/managers/namespace_manager.py:clean_for_uri"]}
{"id": "C97", "title": "Adding a namespace binds its name only", "statement": "NamespaceManager.add(uri, name) binds the name to the URI and changes no other name, the parents or the current namespace; a URI without document part is completed with the document of the default namespace; a new manager has a default namespace, '#' unless one is given.", "quantifier": "every manager, URI and name", "why_tests_cant": "any number of namespaces", "anchors": ["ngoschema/managers/namespace_manager.py:NamespaceManager.add", "ngoschema/managers/namespace_manager.py:NamespaceManager.__init__"]}
{"id": "C98", "title": "Identifiers of the current document are relative", "statement": "get_cname_id returns an identifier of the current document as '#' and its fragment, and any other identifier in full.", "quantifier": "every current URI and identifier", "why_tests_cant": "URIs are unbounded", "anchors": ["ngoschema/managers/namespace_manager.py:NamespaceManager.get_cname_id"]}
{"id": "C99", "title": "Case-insensitive operators compare up to case", "statement": "attr__ieq, attr__istartswith, attr__icontains and attr__iendswith on texts without special characters are equality, prefix, substring and suffix up to case.", "quantifier": "every texts", "why_tests_cant": "texts are unbounded", "anchors": ["ngoschema/query.py:_apply_ops_test"]}
{"id": "C100", "title": "Refining a query composes the filters", "statement": "A query refined again and again returns what the filters give one after the other, whether or not the intermediate queries have been read.", "quantifier": "every iterable, chain of filters and history of reads", "why_tests_cant": "chains and histories are unbounded", "anchors": ["ngoschema/query.py:Query.filter", "ngoschema/query.py:Query.result_cache"]}
{"id": "C101", "title": "Operators that transform the attribute are followed by the comparison", "statement": "attr__size__op=n compares the number of elements with n, and attr__size=n is equality as for any criterion without comparison; attr__intersects=l holds when attribute and l share an element.", "quantifier": "every lists and numbers", "why_tests_cant": "lists are unbounded", "anchors": ["ngoschema/query.py:_apply_ops_test", "ngoschema/query.py:_sort_criteria"]}
{"id": "C102", "title": "Properties at their default are left out of the serialised object", "statement": "Serialising an object without defaults leaves out exactly the properties whose value equals their declared default, besides those the options do not want.", "quantifier": "every object type, every value, every options", "why_tests_cant": "defaults and values are unbounded", "anchors": ["ngoschema/types/object.py:Object._print_order"]}
{"id": "C103", "title": "Sessions of one factory do not share their info dictionary", "statement": "Two sessions created by one session_maker configured with info receive distinct info dictionaries, so that what one session stores there is not seen by the others or by the factory.", "quantifier": "every configuration history and call arguments", "why_tests_cant": "aliasing shows only when a later session is inspected after an earlier one wrote", "anchors": ["ngoschema/session.py:session_maker.__call__"]}
{"id": "C104", "title": "Configuring a scoped session affects the sessions created later", "statement": "scoped_session.configure(**options) makes every session created afterwards receive these options, unless the creating call gives others, whether or not a session is already present; existing sessions keep theirs.", "quantifier": "every state of the registry, every option set", "why_tests_cant": "states are unbounded and the fault needs a session to be present", "anchors": ["ngoschema/session.py:scoped_session.configure"]}
{"id": "C105", "title": "A failed write leaves the file as it was", "statement": "When write_file raises, every file, including the one to be written, holds what it held before.", "quantifier": "every file system state, text and encoding", "why_tests_cant": "needs a failure in the middle of a write; states are unbounded", "anchors": ["ngoschema/protocols/file_loader.py:FileSaver._write_file", "ngoschema/protocols/file_loader.py:FileLoader._open_file"]}
{"id": "C106", "title": "The binary option of a write is honoured", "statement": "write_file(data, path, binary=True) writes the given bytes, whether or not the saver itself is binary.", "quantifier": "every file system state and data", "why_tests_cant": "states and data are unbounded", "anchors": ["ngoschema/protocols/file_loader.py:FileSaver._write_file", "ngoschema/protocols/file_loader.py:FileLoader._open_file"]}
{"id": "C107", "title": "The text of an XML element does not depend on how the parser delivers it", "statement": "Whether the text of an element arrives at the handler in one event or cut into several (expat cuts at its buffer size), the parsed dictionary is the same.", "quantifier": "every element and every way to cut its text", "why_tests_cant": "cuts depend on buffer boundaries of arbitrarily long texts", "anchors": ["ngoschema/utils/xmltodict.py:_DictSAXHandler.characters", "ngoschema/utils/xmltodict.py:_DictSAXHandler.endElement"]}
{"id": "C108", "title": "What the XML serializer writes, the XML deserializer reads back", "statement": "For every canonical value and tag, serialising to XML succeeds and deserialising the result returns the value.", "quantifier": "every canonical value, tag and set of options", "why_tests_cant": "values are unbounded", "anchors": ["ngoschema/serializers/xml_serializer.py:XmlSerializer._serialize_xml", "ngoschema/serializers/xml_serializer.py:XmlDeserializer._deserialize_xml"]}
{"id": "C109", "title": "Deserialising an XML document returns the content of its root", "statement": "For every document, whatever documents the deserializer has read before, deserialising it returns the content of its root element.", "quantifier": "every sequence of documents", "why_tests_cant": "state carried from document to document; sequences are unbounded", "anchors": ["ngoschema/serializers/xml_serializer.py:XmlDeserializer._deserialize_xml"]}
{"id": "C110", "title": "The text after the children of an XML element survives", "statement": "A document with a text under '#tail' written as XML and parsed again has the same text under '#tail'.", "quantifier": "every document tree", "why_tests_cant": "trees are unbounded", "anchors": ["ngoschema/utils/xmltodict.py:_emit", "ngoschema/utils/xmltodict.py:_DictSAXHandler.endElement"]}
{"id": "C111", "title": "A repository of a single object stores the committed object", "statement": "Committing an object to a memory repository with many=False makes it the content.", "quantifier": "every initial content and history of commits", "why_tests_cant": "histories are unbounded", "anchors": ["ngoschema/repositories/memory_repository.py:MemoryRepository._commit", "ngoschema/repositories/memory_repository.py:MemoryRepository.__init__"]}
{"id": "C112", "title": "A repository finds the objects it was created with", "statement": "For a many-repository created with objects of unique identities, `keys in repo` and resolve_fkey(keys) agree with the stored objects, before and after any history of commits.", "quantifier": "every initial content and history", "why_tests_cant": "contents and histories are unbounded", "anchors": ["ngoschema/repositories/memory_repository.py:MemoryRepository.__init__", "ngoschema/repositories/memory_repository.py:MemoryRepository.resolve_fkey"]}
{"id": "C113", "title": "A stored object whose keys changed is found under its current identity only, once committed again", "statement": "After the keys of a stored object change and it is committed again, resolve_fkey finds it under the new identity and no longer under the old one.", "quantifier": "every state and every change", "why_tests_cant": "states are unbounded", "anchors": ["ngoschema/repositories/memory_repository.py:MemoryRepository._commit", "ngoschema/repositories/memory_repository.py:MemoryRepository.resolve_fkey"]}
{"id": "C114", "title": "Appending an item of the item type to an array succeeds", "statement": "For an array whose items have type T, append(v) with v of type T returns normally and v, converted, is the last item.", "quantifier": "every array, history and value of the item type", "why_tests_cant": "the outcome depends on the kind of the appended value, and the array is modified whether or not the call raises", "anchors": ["ngoschema/protocols/array_protocol.py:ArrayProtocol.insert", "ngoschema/types/array.py:Array._validate", "ngoschema/protocols/validator.py:Validator._errors"]}
{"id": "C115", "title": "A deleted property can be assigned again", "statement": "After del obj[k] has succeeded for a declared property k that is not read-only, obj[k] = v succeeds and obj[k] gives the conversion of v.", "quantifier": "every class, every reachable state, every value", "why_tests_cant": "states are unbounded", "anchors": ["ngoschema/protocols/object_protocol.py:ObjectProtocol.__delitem__", "ngoschema/protocols/collection_protocol.py:CollectionProtocol._set_data"]}
{"id": "C116", "title": "Resolving a name does not depend on earlier lookups", "statement": "The property a name stands for in a class (itself, a clean name, an alias, an additional property) is determined by the declaration of the class, whatever names have been looked up before in this class or in others.", "quantifier": "every class, every history of lookups", "why_tests_cant": "histories of lookups across classes are unbounded", "anchors": ["ngoschema/protocols/object_protocol.py:ObjectProtocol._properties_raw_trans"]}
{"id": "C117", "title": "Iteration over an instance yields the names of its data", "statement": "The keys obtained by iterating over an instance are the names of its data: each can be read.", "quantifier": "every class, every history", "why_tests_cant": "histories are unbounded", "anchors": ["ngoschema/protocols/object_protocol.py:ObjectProtocol.__iter__", "ngoschema/protocols/object_protocol.py:ObjectProtocol._items_touch"]}
{"id": "C118", "title": "Constraints of a class are inherited from all its ancestors", "statement": "The required, read-only, not serialised and not validated properties of a class are those named by its own definition and by those of all the classes it derives from or extends.", "quantifier": "every program of class definitions", "why_tests_cant": "hierarchies are unbounded", "anchors": ["ngoschema/protocols/object_protocol.py:ObjectProtocol.build"]}
{"id": "C119", "title": "Attribute and item access use the same declaration", "statement": "For every class and property name, obj.name and obj['name'] use the same declaration of the property.", "quantifier": "every program of class definitions", "why_tests_cant": "hierarchies are unbounded", "anchors": ["ngoschema/protocols/object_protocol.py:ObjectProtocol.build"]}
{"id": "C120", "title": "Accessors defined in a class are used", "statement": "A get_, set_ or del_ method a class defines or inherits for one of its properties is the accessor of the property.", "quantifier": "every program of class definitions", "why_tests_cant": "hierarchies and names are unbounded", "anchors": ["ngoschema/protocols/object_protocol.py:ObjectProtocol.build"]}
{"id": "C121", "title": "A class attribute gives the default of a property", "statement": "A value given as class attribute under the name of a property becomes the default of that property in the class.", "quantifier": "every program of class definitions", "why_tests_cant": "hierarchies and values are unbounded", "anchors": ["ngoschema/protocols/object_protocol.py:ObjectProtocol.build"]}
{"id": "C122", "title": "The type of a property is the one declared", "statement": "The type of a property declared in a class is made from the schema given in the declaration.", "quantifier": "every program of class definitions", "why_tests_cant": "programs are unbounded", "anchors": ["ngoschema/protocols/object_protocol.py:ObjectProtocol.build", "ngoschema/managers/type_builder.py:TypeBuilder.build"]}
{"id": "C123", "title": "Dependencies are inherited", "statement": "The dependencies of a class include those declared by all the classes it derives from or extends.", "quantifier": "every program of class definitions", "why_tests_cant": "hierarchies are unbounded", "anchors": ["ngoschema/protocols/object_protocol.py:ObjectProtocol.build"]}
{"id": "C124", "title": "Creating an instance leaves the class as it is", "statement": "The dependencies of a class, and so the order in which its instances are evaluated, do not depend on the instances created before.", "quantifier": "every class, every sequence of instances", "why_tests_cant": "sequences are unbounded", "anchors": ["ngoschema/protocols/object_protocol.py:ObjectProtocol._call_order"]}
{"id": "C125", "title": "Collection types do not share their options", "statement": "The names given as notValidated or notSerialized to a collection type concern that type only.", "quantifier": "every sequence of type creations", "why_tests_cant": "sequences are unbounded", "anchors": ["ngoschema/types/collection.py:Collection.__init__"]}
{"id": "C126", "title": "Documents may use any name of a property", "statement": "A document written with clean names, aliases and negated aliases is read as the one written with the names of the properties: each property has the value the document gives it under whatever name, negated under a negated alias, the other names are gone and further keys are kept.", "quantifier": "all classes with unambiguous names, all documents giving no property twice with whole numbers under negated aliases, all set orders", "why_tests_cant": "names, documents and set iteration orders are unbounded", "anchors": ["ngoschema/protocols/object_protocol.py:ObjectProtocol._deserialize"]}
{"id": "C127", "title": "Reading does not depend on the order of keys", "statement": "Two documents with the same entries in different orders are read as the same data, even if a property is given under several names.", "quantifier": "all classes with unambiguous names, all documents with whole numbers under negated aliases, all permutations, all set orders", "why_tests_cant": "permutations and set iteration orders are unbounded", "anchors": ["ngoschema/protocols/object_protocol.py:ObjectProtocol._deserialize"]}
{"id": "C128", "title": "A negated alias of a Boolean property has the opposite value", "statement": "True given under a negated alias of a Boolean property is read as False, and False as True.", "quantifier": "all classes, all word lists", "why_tests_cant": "classes and configurations are unbounded", "anchors": ["ngoschema/protocols/object_protocol.py:ObjectProtocol._deserialize", "ngoschema/types/boolean.py:Boolean"]}
{"id": "C129", "title": "What is validated is what is read", "statement": "The check of a document validates the same data that reading the document gives, up to the keys that are not validated.", "quantifier": "all classes with unambiguous names, all documents, all orders of the chained names", "why_tests_cant": "documents are unbounded", "anchors": ["ngoschema/protocols/object_protocol.py:ObjectProtocol._check"]}
{"id": "C130", "title": "Aliases are serialised with their property", "statement": "A serialised object has, for every alias that is not excluded and whose property has a value, that value, or the opposite for a negated alias; nothing else changes.", "quantifier": "all classes with unambiguous names, all objects, all options", "why_tests_cant": "classes, objects and options are unbounded", "anchors": ["ngoschema/protocols/object_protocol.py:ObjectProtocol._serialize"]}
{"id": "C131", "title": "Names in serialised objects read back", "statement": "Reading the names of a serialised object, aliases included and whichever aliases were excluded, gives back the data.", "quantifier": "all classes with unambiguous names, all objects, all excluded aliases", "why_tests_cant": "classes and objects are unbounded", "anchors": ["ngoschema/protocols/object_protocol.py:ObjectProtocol._serialize", "ngoschema/protocols/object_protocol.py:ObjectProtocol._deserialize"]}
{"id": "C132", "title": "An alias has the type of its property", "statement": "The type found for an alias is the type of the property it stands for.", "quantifier": "all classes, all aliases", "why_tests_cant": "classes are unbounded", "anchors": ["ngoschema/protocols/object_protocol.py:ObjectProtocol._items_type"]}
{"id": "C133", "title": "Types under construction are resolved once built", "statement": "Whatever was looked up before and at whatever stage of the construction, the type found for a property is its declared type, and the class itself once the class has been built.", "quantifier": "all classes, all histories of lookups, all stages", "why_tests_cant": "histories are unbounded", "anchors": ["ngoschema/protocols/object_protocol.py:ObjectProtocol._items_type", "ngoschema/types/object.py:Object._items_type"]}
{"id": "C134", "title": "Equality of instances is an equivalence", "statement": "Comparing instances and plain values never fails and is reflexive, symmetric and transitive, whatever the hierarchy of classes.", "quantifier": "all hierarchies of classes, all instances nested to any depth", "why_tests_cant": "nesting and hierarchies are unbounded", "anchors": ["ngoschema/protocols/collection_protocol.py:CollectionProtocol.__eq__"]}
{"id": "C135", "title": "Instances with the same content are equal", "statement": "Two instances are equal exactly when they are of one class and have the same content.", "quantifier": "all instances nested to any depth", "why_tests_cant": "nesting is unbounded", "anchors": ["ngoschema/protocols/collection_protocol.py:CollectionProtocol.__eq__"]}
{"id": "C136", "title": "Instances have a hash", "statement": "Instances have a hash, so that an array with unique items may hold them.", "quantifier": "all instances, all arrays", "why_tests_cant": "instances are unbounded", "anchors": ["ngoschema/protocols/collection_protocol.py:CollectionProtocol.__hash__", "ngoschema/types/array.py:ArrayDeserializer._validate"]}
{"id": "C137", "title": "A copy is equal to the original", "statement": "The copy of an instance is equal to the instance.", "quantifier": "all instances", "why_tests_cant": "instances are unbounded", "anchors": ["ngoschema/protocols/collection_protocol.py:CollectionProtocol.copy", "ngoschema/protocols/collection_protocol.py:CollectionProtocol.__eq__"]}
{"id": "C138", "title": "Object and array properties at their default are left out", "statement": "A property whose value has the content of its default is left out of the serialised object.", "quantifier": "all values, all defaults", "why_tests_cant": "values are unbounded", "anchors": ["ngoschema/types/object.py:Object._print_order", "ngoschema/protocols/collection_protocol.py:CollectionProtocol.__eq__"]}
{"id": "C139", "title": "A copy is independent of the original", "statement": "Whatever is read or assigned through an object and its copy, to any depth and in any order, each has the content its own assignments give.", "quantifier": "all objects, all programs", "why_tests_cant": "programs are unbounded", "anchors": ["ngoschema/protocols/collection_protocol.py:CollectionProtocol.copy"]}
{"id": "C140", "title": "A dotted name gives what successive lookups give", "statement": "Looking up the names joined with dots gives the value that looking the names up one after the other gives.", "quantifier": "all trees of objects and dictionaries, all lists of at least two names", "why_tests_cant": "depth and names are unbounded", "anchors": ["ngoschema/protocols/object_protocol.py:ObjectProtocol.__getitem__", "ngoschema/protocols/object_protocol.py:split_cname"]}
{"id": "C141", "title": "A dotted name that leads nowhere raises KeyError", "statement": "When one of the names is not there, the lookup of the dotted name raises KeyError.", "quantifier": "all trees, all names", "why_tests_cant": "depth and names are unbounded", "anchors": ["ngoschema/protocols/object_protocol.py:ObjectProtocol.__getitem__", "ngoschema/protocols/object_protocol.py:ObjectProtocol.__getattr__"]}
{"id": "C142", "title": "Indices in dotted names reach items of arrays", "statement": "A dotted name with an index in brackets gives the item of the array at this index.", "quantifier": "all trees, all dotted names with an index", "why_tests_cant": "depth and names are unbounded", "anchors": ["ngoschema/protocols/object_protocol.py:ObjectProtocol.__getitem__", "ngoschema/protocols/object_protocol.py:split_cname"]}
{"id": "C143", "title": "An empty part of a dotted name stands for the parent", "statement": "Two dots in a row go from an object to the object above it, and a leading dot starts at the parent.", "quantifier": "all trees of objects, all dotted names with an empty part", "why_tests_cant": "depth and names are unbounded", "anchors": ["ngoschema/protocols/object_protocol.py:ObjectProtocol.__getitem__", "ngoschema/protocols/object_protocol.py:split_cname"]}
{"id": "C144", "title": "An assignment by dotted name is read back and changes nothing else", "statement": "After an assignment by dotted name the same name gives the assigned value, and names that are neither prefixes nor extensions of it give what they gave before.", "quantifier": "all trees, all dotted names, all values", "why_tests_cant": "depth, names and values are unbounded", "anchors": ["ngoschema/protocols/object_protocol.py:ObjectProtocol.__setitem__"]}
{"id": "C145", "title": "A canonical name resolves to the object it names", "statement": "Resolving a canonical name gives the object below that has this canonical name.", "quantifier": "all objects, all canonical names", "why_tests_cant": "trees and names are unbounded", "anchors": ["ngoschema/protocols/object_protocol.py:ObjectProtocol.resolve_cname_path", "ngoschema/protocols/object_protocol.py:ObjectProtocol.resolve_cname"]}
{"id": "C146", "title": "Canonical names identify instances", "statement": "The canonical name of an instance is made of the names from the root to it, and instances with different names on the way have different canonical names.", "quantifier": "all chains of instances, all names", "why_tests_cant": "depth and names are unbounded", "anchors": ["ngoschema/models/instances.py:Instance._canonicalName"]}
{"id": "C147", "title": "Validation accepts exactly the values that meet the schema", "statement": "validate returns the value exactly when the value meets every keyword of the schema, as JSON Schema defines them.", "quantifier": "all schemas, all values", "why_tests_cant": "schemas nest without bound and values are arbitrary", "anchors": ["ngoschema/protocols/validator.py:Validator._validate", "ngoschema/protocols/validator.py:Validator._errors", "ngoschema/managers/type_builder.py:TypeBuilder.is_type"]}
{"id": "C148", "title": "The types in a schema are enforced by validation", "statement": "A value of another type than the schema, or the part of the schema that applies, asks for is refused.", "quantifier": "all schemas, all values", "why_tests_cant": "schemas nest without bound", "anchors": ["ngoschema/protocols/validator.py:Validator._errors", "ngoschema/protocols/validator.py:Validator._validate"]}
{"id": "C149", "title": "A refused value raises InvalidValue", "statement": "Validating a value that does not meet the schema raises InvalidValue and no other exception.", "quantifier": "all schemas, all values, all exclusions", "why_tests_cant": "schemas nest without bound", "anchors": ["ngoschema/protocols/validator.py:Validator._validate", "ngoschema/protocols/validator.py:Validator._errors"]}
{"id": "C150", "title": "Every error of a value is reported", "statement": "The dictionary of errors has an entry for each error of the value, and for nothing else.", "quantifier": "all schemas, all values", "why_tests_cant": "the number of errors is unbounded", "anchors": ["ngoschema/protocols/validator.py:Validator._errors", "ngoschema/protocols/validator.py:Validator._format_errors"]}
{"id": "C151", "title": "Excluded keywords are the only ones not checked", "statement": "Validation with excluded keywords accepts a value exactly when it meets each of the other keywords of the schema.", "quantifier": "all schemas, all values, all exclusions", "why_tests_cant": "schemas and exclusions are arbitrary", "anchors": ["ngoschema/protocols/validator.py:Validator._errors"]}
{"id": "C152", "title": "Evaluated values are valid", "statement": "What evaluating a value returns meets the schema, and evaluating it again returns it.", "quantifier": "all schemas, defaults, conversions and values", "why_tests_cant": "conversions and values are arbitrary", "anchors": ["ngoschema/protocols/validator.py:Validator._evaluate"]}
{"id": "C153", "title": "The foreign key of an entity is made of its keys", "statement": "An entity given for a foreign key is converted to the values of its keys, each converted by the type of the key: the value itself if there is one key, the tuple else.", "quantifier": "all entities, keys and types of keys", "why_tests_cant": "number and types of keys are arbitrary", "anchors": ["ngoschema/types/foreign_key.py:ForeignKey._convert"]}
{"id": "C154", "title": "A foreign key has as many components as there are keys", "statement": "A list, or a text with commas, with as many components as the foreign key has keys gives the key with these components; any other number is refused.", "quantifier": "all lists and texts, all types of keys", "why_tests_cant": "number of components is arbitrary", "anchors": ["ngoschema/types/foreign_key.py:ForeignKey._convert"]}
{"id": "C155", "title": "A written foreign key reads back", "statement": "Serialising a foreign key gives a value that converts to the same key.", "quantifier": "all keys, all types that leave converted values", "why_tests_cant": "keys are arbitrary", "anchors": ["ngoschema/types/foreign_key.py:ForeignKey._serialize", "ngoschema/types/foreign_key.py:ForeignKey._convert"]}
{"id": "C156", "title": "A foreign key resolves to the object stored under it", "statement": "Resolving the key of an object stored in a repository of the session gives the object.", "quantifier": "all repositories, all keys", "why_tests_cant": "repositories and keys are arbitrary", "anchors": ["ngoschema/types/foreign_key.py:ForeignKey._resolve", "ngoschema/repositories/memory_repository.py:MemoryRepository.resolve_fkey"]}
{"id": "C157", "title": "A session finds an object by its keys in the first repository that has it", "statement": "Session.resolve_fkey gives the object that the first repository of the class holding the key has under it, and raises an error telling the key otherwise.", "quantifier": "all repositories, all keys", "why_tests_cant": "repositories and keys are arbitrary", "anchors": ["ngoschema/session.py:Session.resolve_fkey"]}
{"id": "C158", "title": "An entity written by its identity is made from the stored one", "statement": "Creating an entity from the identity keys that serialisation gives takes the data of the entity stored under these keys.", "quantifier": "all repositories, all keys", "why_tests_cant": "repositories and keys are arbitrary", "anchors": ["ngoschema/models/instances.py:Entity.__init__", "ngoschema/models/instances.py:Entity.__new__", "ngoschema/models/instances.py:Entity._serialize"]}
{"id": "C159", "title": "A foreign key refers to the primary keys of its class", "statement": "The keys of a foreign key are those it declares, else the primary keys of the class it refers to.", "quantifier": "all classes, all declarations", "why_tests_cant": "classes are arbitrary", "anchors": ["ngoschema/protocols/type_protocol.py:TypeProtocol.build", "ngoschema/types/foreign_key.py:ForeignKey.set_foreignClass"]}
{"id": "C160", "title": "An entity assigned to a relationship is read back", "statement": "After assigning a stored entity to a relationship, reading the relationship gives the entity.", "quantifier": "all repositories, entities and keys", "why_tests_cant": "repositories and keys are arbitrary", "anchors": ["ngoschema/managers/relationship_builder.py:RelationshipDescriptor.__set__", "ngoschema/managers/relationship_builder.py:RelationshipDescriptor.__get__"]}
{"id": "C161", "title": "An expression stands for its value, a template for its text", "statement": "A primitive property given an expression has the value of the expression converted to its type; given a template, the rendered text converted to its type.", "quantifier": "all expressions and templates, all contexts, all primitive types", "why_tests_cant": "expressions, contexts and types are arbitrary", "anchors": ["ngoschema/types/type.py:Primitive._convert", "ngoschema/types/strings.py:Expr._convert", "ngoschema/types/strings.py:Pattern._convert"]}
{"id": "C162", "title": "The value of an expression depends on its inputs only", "statement": "Two contexts that agree on the inputs of an expression give it the same value.", "quantifier": "all expressions, all contexts, all evaluations that depend only on the names standing in the text", "why_tests_cant": "expressions and contexts are arbitrary", "anchors": ["ngoschema/types/strings.py:Expr._inputs", "ngoschema/types/type.py:Primitive._inputs"]}
{"id": "C163", "title": "The inputs of a template are the variables it reads", "statement": "The inputs of a template are the variables it reads, by their path in the object.", "quantifier": "all templates", "why_tests_cant": "templates are arbitrary", "anchors": ["ngoschema/utils/jinja2.py:get_jinja2_variables", "ngoschema/types/strings.py:Pattern._inputs"]}
{"id": "C164", "title": "An evaluation that fails is reported", "statement": "Converting an expression that cannot be evaluated raises an error.", "quantifier": "all expressions, contexts and types", "why_tests_cant": "expressions, contexts and types are arbitrary", "anchors": ["ngoschema/types/type.py:Primitive._convert"]}
{"id": "C165", "title": "Converting a primitive twice is converting it once", "statement": "A converted primitive value converts to itself.", "quantifier": "all values, all contexts, all types that make instances of themselves", "why_tests_cant": "values, contexts and types are arbitrary", "anchors": ["ngoschema/types/type.py:Primitive._convert", "ngoschema/protocols/converter.py:Converter._convert"]}
{"id": "C166", "title": "Raw literals are not evaluated, but converted", "statement": "With raw literals, a value is converted to the type without being evaluated, and has no inputs.", "quantifier": "all values and types", "why_tests_cant": "values and types are arbitrary", "anchors": ["ngoschema/types/type.py:Primitive._convert", "ngoschema/types/type.py:Primitive._inputs"]}
{"id": "C167", "title": "A date survives writing and reading", "statement": "A date that is serialised converts back to the same date.", "quantifier": "all dates, all formats of serialisation", "why_tests_cant": "millions of dates", "anchors": ["ngoschema/types/datetime.py:Date._convert", "ngoschema/types/datetime.py:_dt_serialize"]}
{"id": "C168", "title": "A time survives writing and reading", "statement": "A time that is serialised converts back to the same time.", "quantifier": "all times, with and without microseconds and zone", "why_tests_cant": "billions of times", "anchors": ["ngoschema/types/datetime.py:Time._convert", "ngoschema/types/datetime.py:_dt_serialize"]}
{"id": "C169", "title": "A datetime survives writing and reading", "statement": "A datetime that is serialised converts back to the same moment.", "quantifier": "all datetimes and zones", "why_tests_cant": "unboundedly many moments", "anchors": ["ngoschema/types/datetime.py:Datetime._convert", "ngoschema/types/datetime.py:_dt_serialize"]}
{"id": "C170", "title": "What is no date is refused by InvalidValue", "statement": "A value that names no day of the calendar, or no time of the day, is refused by InvalidValue.", "quantifier": "all values", "why_tests_cant": "texts are arbitrary", "anchors": ["ngoschema/types/datetime.py:Date._convert", "ngoschema/types/datetime.py:Time._convert", "ngoschema/types/datetime.py:Datetime._convert"]}
{"id": "C171", "title": "A moment is a date at midnight only, and a time on the first day only", "statement": "A datetime converts to its date exactly if its time is midnight, and to its time exactly if its date is the first day; otherwise it is refused by InvalidValue.", "quantifier": "all datetimes", "why_tests_cant": "unboundedly many moments", "anchors": ["ngoschema/types/datetime.py:Date._convert", "ngoschema/types/datetime.py:Time._convert"]}
{"id": "C172", "title": "Converting dates and times twice is converting once", "statement": "A converted date, time or datetime converts to itself.", "quantifier": "all values", "why_tests_cant": "values are arbitrary", "anchors": ["ngoschema/types/datetime.py:Date._convert", "ngoschema/types/datetime.py:Time._convert", "ngoschema/types/datetime.py:Datetime._convert"]}
{"id": "C173", "title": "AM and PM tell the half of the day", "statement": "A text of hours, minutes and AM or PM is read as the time in this half of the day, as the formats of the settings say.", "quantifier": "all hours and minutes", "why_tests_cant": "follows from the order of the formats", "anchors": ["ngoschema/types/datetime.py:Time._convert", "ngoschema/config/settings.py:ALT_TIME_FORMATS"]}
{"id": "C174", "title": "A dotted name stands for the symbol it names", "statement": "Converting a dotted name to a symbol gives the object reached by importing the longest importable beginning of the name and following the rest as attributes.", "quantifier": "all names, all sets of modules and attributes", "why_tests_cant": "modules and attributes are arbitrary", "anchors": ["ngoschema/types/symbols.py:Symbol._convert"]}
{"id": "C175", "title": "What names nothing is refused", "statement": "A dotted name that leads to no object is refused by ConversionError.", "quantifier": "all names", "why_tests_cant": "names are arbitrary", "anchors": ["ngoschema/types/symbols.py:Symbol._convert"]}
{"id": "C176", "title": "A symbol has the declared kind", "statement": "What a type of symbols accepts is exactly what its name says: modules, functions, classes, methods, static methods, class methods, instances, callables.", "quantifier": "all values and types of symbols", "why_tests_cant": "values are arbitrary", "anchors": ["ngoschema/types/symbols.py:Symbol.check_symbol", "ngoschema/types/symbols.py:StaticMethod.check_symbol", "ngoschema/types/symbols.py:ClassMethod.check_symbol"]}
{"id": "C177", "title": "A symbol survives writing and reading", "statement": "A symbol that is serialised is converted back to the same object.", "quantifier": "all symbols", "why_tests_cant": "modules and attributes are arbitrary", "anchors": ["ngoschema/types/symbols.py:Symbol._serialize", "ngoschema/types/symbols.py:Symbol._convert"]}
{"id": "C178", "title": "An expression that gives a name stands for the symbol it names", "statement": "An expression or a template for a symbol stands for what the text it gives stands for.", "quantifier": "all expressions and their values", "why_tests_cant": "expressions are arbitrary", "anchors": ["ngoschema/types/symbols.py:Symbol._convert"]}
{"id": "C179", "title": "A symbol that is given is kept", "statement": "An object of the declared kind converts to itself, and converting twice is converting once.", "quantifier": "all objects and types of symbols", "why_tests_cant": "objects are arbitrary", "anchors": ["ngoschema/types/symbols.py:Symbol._convert"]}
{"id": "C180", "title": "The check of a symbol accepts what conversion keeps", "statement": "check answers true for an object exactly if converting it gives it back.", "quantifier": "all objects and types of symbols", "why_tests_cant": "objects are arbitrary", "anchors": ["ngoschema/types/symbols.py:Symbol._check", "ngoschema/types/symbols.py:Symbol.check_symbol"]}
{"id": "C181", "title": "A canonical name stands for the identifier of what it names", "statement": "Converting a canonical name to an identifier gives the identifier that the namespace manager has for it, whatever the current document.", "quantifier": "all names, managers and loaded documents", "why_tests_cant": "namespaces and documents are arbitrary", "anchors": ["ngoschema/types/uri.py:Id._convert", "ngoschema/types/uri.py:Id.cn_re"]}
{"id": "C182", "title": "An identifier survives writing and reading", "statement": "An identifier that has been converted, written relative to the current document and converted again is the same; converting twice is converting once.", "quantifier": "all texts, managers and documents", "why_tests_cant": "texts are arbitrary", "anchors": ["ngoschema/types/uri.py:Id._convert", "ngoschema/types/uri.py:Id._serialize"]}
{"id": "C183", "title": "An identifier written as canonical name is read back", "statement": "An identifier serialised as canonical name converts to the same identifier.", "quantifier": "all identifiers and managers", "why_tests_cant": "identifiers are arbitrary", "anchors": ["ngoschema/types/uri.py:Id._serialize", "ngoschema/types/uri.py:Canonical"]}
{"id": "C184", "title": "A converted identifier is absolute", "statement": "A converted identifier has a document and a fragment separated by one #, relative references being resolved against the current document.", "quantifier": "all texts and managers", "why_tests_cant": "texts are arbitrary", "anchors": ["ngoschema/types/uri.py:Id._convert"]}
{"id": "C185", "title": "A converted identifier passes the check", "statement": "What converts to an identifier is accepted by the check of identifiers.", "quantifier": "all identifiers", "why_tests_cant": "identifiers are arbitrary", "anchors": ["ngoschema/types/uri.py:Id._check", "ngoschema/types/uri.py:Id._convert"]}
{"id": "C186", "title": "A missing identifier, URI or path is written as None", "statement": "None is converted to None and serialised as None.", "quantifier": "all contexts", "why_tests_cant": "contexts are arbitrary", "anchors": ["ngoschema/types/uri.py:Id._serialize", "ngoschema/types/uri.py:Uri._serialize", "ngoschema/types/uri.py:Path._serialize"]}
{"id": "C187", "title": "A path survives writing and reading", "statement": "A path serialised and converted again is the same path.", "quantifier": "all paths", "why_tests_cant": "paths are arbitrary", "anchors": ["ngoschema/types/uri.py:Path._convert", "ngoschema/types/uri.py:Path._serialize"]}
{"id": "C188", "title": "A path given as URI is the path again", "statement": "Converting a path to a URI and this URI to a path gives the resolved path.", "quantifier": "all paths and file systems", "why_tests_cant": "paths are arbitrary", "anchors": ["ngoschema/types/uri.py:Path._convert", "ngoschema/types/uri.py:Uri._convert"]}
{"id": "C189", "title": "What is converted to a path is a path", "statement": "A conversion to a path gives a path in normal form, and converting it again keeps it.", "quantifier": "all values", "why_tests_cant": "values are arbitrary", "anchors": ["ngoschema/types/uri.py:Path._convert"]}
{"id": "C190", "title": "A path can be written relative to its document", "statement": "With `relative`, a path is serialised relative to the directory of its document.", "quantifier": "all paths and contexts", "why_tests_cant": "contexts are arbitrary", "anchors": ["ngoschema/types/uri.py:Path._serialize"]}
{"id": "C191", "title": "Every value in a nested collection is converted by its own type", "statement": "After conversion of a collection, every value at every depth is None or what the type of its place makes of the value given there.", "quantifier": "all types, nested to any depth, and all values", "why_tests_cant": "types and nesting are arbitrary", "anchors": ["ngoschema/types/collection.py:Collection._convert", "ngoschema/types/object.py:Object._convert", "ngoschema/types/array.py:Array._convert"]}
{"id": "C192", "title": "Every value in an evaluated collection is valid", "statement": "When a collection has been evaluated, every collection and every value inside, at every depth, satisfies its own schema or is None.", "quantifier": "all types, nested to any depth, and all values", "why_tests_cant": "types and nesting are arbitrary", "anchors": ["ngoschema/types/collection.py:Collection._evaluate", "ngoschema/protocols/validator.py:Validator._evaluate"]}
{"id": "C193", "title": "Converting a collection twice is converting it once", "statement": "What converting a collection gives is left unchanged by converting it again, if this holds for the types at the leaves.", "quantifier": "all types, nested to any depth, and all values", "why_tests_cant": "types and nesting are arbitrary", "anchors": ["ngoschema/types/collection.py:Collection._convert", "ngoschema/types/object.py:Object._convert"]}
{"id": "C194", "title": "A missing required property is refused", "statement": "A mapping without one of the required properties is refused by InvalidValue.", "quantifier": "all object types and mappings", "why_tests_cant": "mappings are arbitrary", "anchors": ["ngoschema/types/object.py:Object._convert", "ngoschema/types/object.py:Object._validate"]}
{"id": "C195", "title": "A missing item is replaced by the converted default of its type", "statement": "Evaluating None gives the converted default of the type, inside a collection as alone.", "quantifier": "all types with defaults", "why_tests_cant": "defaults are arbitrary", "anchors": ["ngoschema/types/collection.py:Collection._evaluate"]}
{"id": "C196", "title": "A name that is not allowed is refused by InvalidValue", "statement": "A mapping with a name for which the object type has no type is refused by InvalidValue.", "quantifier": "all object types and mappings", "why_tests_cant": "names are arbitrary", "anchors": ["ngoschema/types/object.py:Object._items_type", "ngoschema/types/object.py:Object._validate"]}
{"id": "C197", "title": "An array may be longer than the list of the types of its items", "statement": "Items beyond the listed types are kept as they are.", "quantifier": "all arrays with listed types of items", "why_tests_cant": "lengths are arbitrary", "anchors": ["ngoschema/types/array.py:Array._items_type", "ngoschema/types/collection.py:Collection._evaluate"]}
{"id": "C198", "title": "Validation reaches every value of a collection", "statement": "A collection passes validation only if every value inside, at every depth, is None or passes the validation of its type.", "quantifier": "all types, nested to any depth, and all values", "why_tests_cant": "types and nesting are arbitrary", "anchors": ["ngoschema/types/collection.py:Collection._validate", "ngoschema/types/object.py:Object._validate"]}
{"id": "C199", "title": "Deserialising and evaluating a value give the same", "statement": "The deserialisation of a value by a type is its evaluation.", "quantifier": "all types and values", "why_tests_cant": "types and values are arbitrary", "anchors": ["ngoschema/types/array.py:ArrayDeserializer._deserialize", "ngoschema/types/object.py:ObjectDeserializer._deserialize", "ngoschema/types/collection.py:Collection._evaluate"]}
{"id": "C200", "title": "The type null accepts None, true everything, false nothing", "statement": "A value is accepted by the type null exactly if it is None, always by true and never by false, by checking, validating and evaluating alike, and refused by InvalidValue.", "quantifier": "all values", "why_tests_cant": "values are arbitrary", "anchors": ["ngoschema/types/constants.py:Constant._check", "ngoschema/types/constants.py:_False._validate", "ngoschema/protocols/converter.py:Converter._convert"]}
{"id": "C201", "title": "A missing value stands for the declared default", "statement": "Evaluating None by a type with a default gives the converted default.", "quantifier": "all types and defaults", "why_tests_cant": "defaults are arbitrary", "anchors": ["ngoschema/types/type.py:Enum.__init__", "ngoschema/protocols/type_protocol.py:TypeProtocol.build"]}
{"id": "C202", "title": "has_default tells whether there is a default", "statement": "`has_default` is true exactly if a default is declared.", "quantifier": "all defaults", "why_tests_cant": "defaults are arbitrary", "anchors": ["ngoschema/protocols/type_protocol.py:TypeProtocol._has_default"]}
{"id": "C203", "title": "default gives the value that is given, or the declared default", "statement": "`default(value)` is the converted value, and the converted default if no value is given; for arrays, item by item.", "quantifier": "all values and defaults", "why_tests_cant": "values are arbitrary", "anchors": ["ngoschema/protocols/type_protocol.py:TypeProtocol.default", "ngoschema/types/array.py:Array.default"]}
{"id": "C204", "title": "The precision of a number type is used for its values and no others", "statement": "A number is converted under the precision of its type, and other conversions do not depend on which numbers were converted before.", "quantifier": "all sequences of conversions", "why_tests_cant": "sequences are arbitrary", "anchors": ["ngoschema/types/numerics.py:Number._evaluate"]}
{"id": "C205", "title": "A schema is registered under its identifier", "statement": "Loading a schema registers it under its identifier without `#` at the end, under its title if it has none, and changes no other document.", "quantifier": "all schemas, documents and normalisations of URIs", "why_tests_cant": "schemas and registered documents are arbitrary", "anchors": ["ngoschema/loaders/schemas.py:load_schema"]}
{"id": "C206", "title": "A schema file is registered under its identifier, or its name", "statement": "Loading a file of a schema registers it under the identifier of the schema; if it has none, under the name of the file.", "quantifier": "all files, schemas and documents", "why_tests_cant": "files and registered documents are arbitrary", "anchors": ["ngoschema/loaders/schemas.py:load_schema_file"]}
{"id": "C207", "title": "Loading a module registers each of its schemas", "statement": "After the schemas of a module are loaded, each of its files that holds a schema is registered, whatever the other files hold.", "quantifier": "all lists of files, in any order", "why_tests_cant": "the files of modules are arbitrary", "anchors": ["ngoschema/loaders/module.py:load_module_schemas"]}
{"id": "C208", "title": "The folders of a module are searched for its files", "statement": "The folders of a module are those registered for it that exist, once each and in order; a name that begins with a registered module is looked for in its folders, any other in all.", "quantifier": "all sequences of registrations, file systems and names", "why_tests_cant": "registrations are arbitrary", "anchors": ["ngoschema/loaders/module.py:ModuleFileLoader.register", "ngoschema/loaders/module.py:ModuleFileLoader.find_one"]}
{"id": "C209", "title": "Creating a resolver leaves the registered documents as they are", "statement": "Creating a resolver for a URI and a schema changes what is registered under no URI.", "quantifier": "all documents, URIs and schemas", "why_tests_cant": "documents are arbitrary", "anchors": ["ngoschema/resolvers/uri_resolver.py:UriResolver.create"]}
{"id": "C210", "title": "A transformation converts the value once", "statement": "Transforming a value makes the target of the converted value.", "quantifier": "all values, conversions and targets", "why_tests_cant": "conversions are arbitrary", "anchors": ["ngoschema/protocols/transformer.py:Transformer.transform"]}
{"id": "C211", "title": "Calling a loader, saver or resolver gives what its method gives", "statement": "Calling an instance with a value gives what `_load`, `_save` or `_resolve` gives for it.", "quantifier": "all loaders, savers, resolvers and values", "why_tests_cant": "the methods are arbitrary", "anchors": ["ngoschema/protocols/loader.py:Loader.__call__", "ngoschema/protocols/loader.py:Saver.__call__", "ngoschema/protocols/resolver.py:Resolver.__call__"]}
{"id": "C212", "title": "Loading many values is loading each", "statement": "Loading a list of values gives the list of what loading each gives.", "quantifier": "all lists, deserializers and classes of instances", "why_tests_cant": "lists and deserializers are arbitrary", "anchors": ["ngoschema/protocols/loader.py:Loader._load"]}
{"id": "C213", "title": "The size of a file in words has the greatest unit not above it", "statement": "The size of a file in words is a number from 1 to below 1024 of the greatest unit that is not above the size, rounded to the nearest tenth.", "quantifier": "all sizes that are exact as floats", "why_tests_cant": "sizes are unbounded", "anchors": ["ngoschema/models/files.py:File.get_contentSizeHuman"]}
{"id": "C214", "title": "A property of an object type has the type it was declared with", "statement": "After an object type is made with properties, each property has the type built from the schema given for it.", "quantifier": "all histories of types made, at all addresses", "why_tests_cant": "it depends on which addresses the memory manager uses again", "anchors": ["ngoschema/types/object.py:Object.__init__", "ngoschema/types/array.py:Array.__init__", "ngoschema/managers/type_builder.py:TypeBuilder.build"]}
{"id": "C215", "title": "An object type made with pattern properties has them", "statement": "An object type can be made with pattern properties and has them.", "quantifier": "all pattern properties", "why_tests_cant": "pattern properties are arbitrary", "anchors": ["ngoschema/types/object.py:Object.__init__"]}
{"id": "C216", "title": "No type is left in a schema", "statement": "Removing the types from a schema replaces each by a reference or its schema, at every depth, and changes nothing else.", "quantifier": "all schemas of any depth", "why_tests_cant": "schemas are nested to any depth", "anchors": ["ngoschema/managers/type_builder.py:untype_schema"]}
{"id": "C217", "title": "The stand-in of a type acts as the type", "statement": "What the stand-in of a type that is being built gives for a value is what the type gives, or an error as long as the type is not built.", "quantifier": "all types and values", "why_tests_cant": "types are arbitrary", "anchors": ["ngoschema/protocols/type_proxy.py:TypeProxy"]}
{"id": "C218", "title": "Tuple and set types evaluate tuples and sets", "statement": "Evaluating a collection by a tuple or set type gives the tuple or set of the evaluated items.", "quantifier": "all collections and types of items", "why_tests_cant": "collections and types are arbitrary", "anchors": ["ngoschema/types/array.py:Tuple", "ngoschema/types/array.py:Set", "ngoschema/types/collection.py:Collection._evaluate"]}
{"id": "C219", "title": "A repository of many objects holds all that was committed, in order", "statement": "After any sequence of commits the content of a repository of many objects is the list of all objects committed, in order.", "quantifier": "all sequences of commits and all savers", "why_tests_cant": "sequences of commits are unbounded", "anchors": ["ngoschema/protocols/repository.py:Repository._commit"]}
{"id": "C220", "title": "A committed object is contained in the repository", "statement": "After an object is committed, the repository contains it, whatever is committed later.", "quantifier": "all objects, savers and later commits", "why_tests_cant": "sequences of commits are unbounded", "anchors": ["ngoschema/protocols/repository.py:Repository.__contains__", "ngoschema/protocols/repository.py:Repository._commit"]}
{"id": "C221", "title": "The dump of a repository is the serialisation of what was committed", "statement": "Dumping a repository after an object was committed gives the serialisation of the object.", "quantifier": "all objects and serialisers", "why_tests_cant": "serialisers are arbitrary", "anchors": ["ngoschema/protocols/repository.py:Repository.dump"]}
{"id": "C222", "title": "Committing to a file repository writes the file, or changes nothing", "statement": "A commit to a file repository writes the encoded content, or fails and leaves the repository as it was.", "quantifier": "all objects, savers, encoders and file systems", "why_tests_cant": "savers and file systems are arbitrary", "anchors": ["ngoschema/repositories/file_repositories.py:FileRepository._commit"]}
{"id": "C223", "title": "A JSON text is read", "statement": "Deserialising a JSON text gives the value it stands for.", "quantifier": "all texts and deserializers", "why_tests_cant": "texts are arbitrary", "anchors": ["ngoschema/serializers/json_serializer.py:JsonSerializer._deserialize_json"]}
{"id": "C224", "title": "Making an object leaves the data as they are", "statement": "The dictionary from which an object is made is the same afterwards.", "quantifier": "all data and classes", "why_tests_cant": "data and classes are arbitrary", "anchors": ["ngoschema/protocols/object_protocol.py:ObjectProtocol.__new__"]}
{"id": "C225", "title": "The class of an object is the one its data name", "statement": "An object made of data with `$schema` is of the class named there, of the class called without; if there is no such class, no object is made.", "quantifier": "all data and classes", "why_tests_cant": "data and classes are arbitrary", "anchors": ["ngoschema/protocols/object_protocol.py:ObjectProtocol.__new__"]}
{"id": "C226", "title": "Objects made of the same data are of the same class", "statement": "When a class is called twice with the same data, both objects are of the same class.", "quantifier": "all data and classes", "why_tests_cant": "data and classes are arbitrary", "anchors": ["ngoschema/protocols/object_protocol.py:ObjectProtocol.__new__"]}
{"id": "C227", "title": "An object is initialised once", "statement": "When an object is made, it is initialised exactly once.", "quantifier": "all data and classes", "why_tests_cant": "data and classes are arbitrary", "anchors": ["ngoschema/protocols/object_protocol.py:ObjectProtocol.__new__"]}
{"id": "C228", "title": "The inputs of a collection are those of its values", "statement": "The inputs of a collection are those of its included values, each by the type of the value and under its name or index.", "quantifier": "all collections and types", "why_tests_cant": "collections and types are arbitrary", "anchors": ["ngoschema/types/object.py:Object._inputs", "ngoschema/types/array.py:Array._inputs"]}
{"id": "C229", "title": "A declared type is used for additional properties and for items", "statement": "Additional properties and items are accepted exactly if the type declared for them accepts them.", "quantifier": "all types and values", "why_tests_cant": "types and values are arbitrary", "anchors": ["ngoschema/types/object.py:Object._items_type", "ngoschema/types/object.py:Object._validate", "ngoschema/types/array.py:Array.__init__", "ngoschema/types/constants.py:Constant.__bool__"]}
{"id": "C230", "title": "The text of an instance shows its present values", "statement": "The text (str, repr) of an array or object instance shows the values it has at that moment.", "quantifier": "all instances, values and sequences of operations", "why_tests_cant": "sequences of operations are unbounded", "anchors": ["ngoschema/protocols/array_protocol.py:ArrayProtocol._str_list", "ngoschema/protocols/object_protocol.py:ObjectProtocol.__str__", "ngoschema/protocols/collection_protocol.py:CollectionProtocol._touch"]}
{"id": "C231", "title": "The text of an instance does not depend on what was printed before", "statement": "The text of an object is the same whatever texts of other objects were made before.", "quantifier": "all objects, classes and earlier texts", "why_tests_cant": "earlier texts are unbounded", "anchors": ["ngoschema/types/object.py:ObjectSerializer._print_order", "ngoschema/protocols/object_protocol.py:ObjectProtocol.__repr__"]}
{"id": "C232", "title": "The text of an instance shows ten values at most and counts the others", "statement": "The text of an instance has an entry of bounded length for each value up to the tenth, and then the number of the values that are left out.", "quantifier": "all instances", "why_tests_cant": "instances are unbounded", "anchors": ["ngoschema/protocols/array_protocol.py:ArrayProtocol._str_list", "ngoschema/protocols/object_protocol.py:ObjectProtocol.__str__"]}
{"id": "C233", "title": "A logged call does what the call does", "statement": "A method decorated to log its calls and exceptions returns the same, raises the same and has the same effect.", "quantifier": "all methods, arguments and states", "why_tests_cant": "methods and arguments are arbitrary", "anchors": ["ngoschema/decorators.py:log_exceptions", "ngoschema/decorators.py:log_init", "ngoschema/decorators.py:_format_call_msg"]}
{"id": "C234", "title": "A message is the same each time it is printed", "statement": "Converting a lazy message to text twice gives the same text.", "quantifier": "all messages and arguments", "why_tests_cant": "messages are arbitrary", "anchors": ["ngoschema/utils/str_utils.py:lazy_format.__str__"]}
{"id": "C235", "title": "A value within the limits is logged in full, a longer one with the number of what is missing", "statement": "The log text of a value within the limits is its representation; beyond, it is that of the beginning with the number of the characters or items left out.", "quantifier": "all texts and collections", "why_tests_cant": "values are unbounded", "anchors": ["ngoschema/utils/str_utils.py:PrettyShortPrinter._format"]}
{"id": "C236", "title": "Iterating over an array gives every item in order", "statement": "list(arr) gives the converted items of the array, all of them and in order, or raises the exception of an item that cannot be converted.", "quantifier": "all arrays of one item type, all conversions, all histories", "why_tests_cant": "arrays, conversions and histories are unbounded", "anchors": ["ngoschema/protocols/collection_protocol.py:CollectionProtocol.__getitem__", "ngoschema/protocols/array_protocol.py:ArrayProtocol"]}
{"id": "C237", "title": "Searching an array finds exactly the converted items", "statement": "x in arr, arr.index(x) and arr.count(x) answer as for the Python list of the converted items, and leave the array as it reads.", "quantifier": "all arrays of one item type, all conversions, all histories", "why_tests_cant": "arrays, values and histories are unbounded", "anchors": ["ngoschema/protocols/collection_protocol.py:CollectionProtocol.__getitem__", "ngoschema/protocols/array_protocol.py:ArrayProtocol.__len__"]}
{"id": "C238", "title": "Popping or removing an item takes out that item only", "statement": "arr.pop(i) gives arr[i] and removes that item; arr.remove(x) removes the first item equal to x or raises ValueError; the other items stay in order; a call that raises changes nothing.", "quantifier": "all arrays of one item type, all conversions, all histories", "why_tests_cant": "arrays, item numbers and histories are unbounded", "anchors": ["ngoschema/protocols/collection_protocol.py:CollectionProtocol.__getitem__", "ngoschema/protocols/collection_protocol.py:CollectionProtocol.__delitem__"]}
{"id": "C239", "title": "Clearing an array leaves it empty", "statement": "After arr.clear() without exception the array has no item.", "quantifier": "all arrays of one item type, all conversions, all histories", "why_tests_cant": "arrays and histories are unbounded", "anchors": ["ngoschema/protocols/collection_protocol.py:CollectionProtocol.__getitem__", "ngoschema/protocols/collection_protocol.py:CollectionProtocol.__delitem__"]}
{"id": "C240", "title": "Reversing an array reverses its items", "statement": "After arr.reverse() the items of the array are those it had before, in the opposite order.", "quantifier": "all arrays of one item type, all conversions, all histories", "why_tests_cant": "arrays and histories are unbounded", "anchors": ["ngoschema/protocols/collection_protocol.py:CollectionProtocol.__getitem__", "ngoschema/protocols/collection_protocol.py:CollectionProtocol.__setitem__"]}
{"id": "C241", "title": "Extending an array adds all the values", "statement": "arr.extend(values) with values of the item type adds them all at the end, in order.", "quantifier": "all arrays of one item type, all conversions, all histories", "why_tests_cant": "arrays and values are unbounded", "anchors": ["ngoschema/protocols/array_protocol.py:ArrayProtocol.insert"]}
{"id": "C242", "title": "A key is in an object exactly when the object iterates over it", "statement": "`key in obj` is True exactly for the keys over which obj iterates, and never raises.", "quantifier": "all classes, instances, keys and defaults", "why_tests_cant": "instances and keys are unbounded", "anchors": ["ngoschema/protocols/object_protocol.py:ObjectProtocol.__getitem__", "ngoschema/protocols/object_protocol.py:ObjectProtocol.__iter__"]}
{"id": "C243", "title": "Reading with a default never raises", "statement": "obj.get(key, default) is the value of the key when there is one that is not None, and the default otherwise.", "quantifier": "all classes, instances, keys and defaults", "why_tests_cant": "instances and keys are unbounded", "anchors": ["ngoschema/protocols/collection_protocol.py:CollectionProtocol.get", "ngoschema/protocols/object_protocol.py:ObjectProtocol.__getitem__"]}
{"id": "C244", "title": "setdefault gives what get gives and stores it", "statement": "obj.setdefault(key, default) gives what obj.get(key, default) gives, and the key then has this value.", "quantifier": "all classes, instances, keys and defaults", "why_tests_cant": "instances and keys are unbounded", "anchors": ["ngoschema/protocols/object_protocol.py:ObjectProtocol.__getitem__", "ngoschema/protocols/object_protocol.py:ObjectProtocol.__setitem__"]}
{"id": "C245", "title": "Popping a key of an object gives its value and removes it", "statement": "obj.pop(key) gives obj[key] and removes the key; obj.popitem() does so for the first key; the other entries stay.", "quantifier": "all classes, instances, keys and defaults", "why_tests_cant": "instances and keys are unbounded", "anchors": ["ngoschema/protocols/object_protocol.py:ObjectProtocol.__delitem__", "ngoschema/protocols/object_protocol.py:ObjectProtocol.__setitem__"]}
{"id": "C246", "title": "Clearing an object leaves it empty", "statement": "After obj.clear() without exception the object has no entry.", "quantifier": "all classes, instances, keys and defaults", "why_tests_cant": "instances are unbounded", "anchors": ["ngoschema/protocols/object_protocol.py:ObjectProtocol.__delitem__", "ngoschema/protocols/object_protocol.py:ObjectProtocol.__iter__"]}
{"id": "C247", "title": "Going through a collection visits every nested item once", "statement": "apply_through_collection with a function that changes nothing calls it exactly once for every item of every nested list and mapping, an item before those below it and siblings in order, with the collection that holds it, its key and its depth.", "quantifier": "all nested collections", "why_tests_cant": "collections nest without bound", "anchors": ["ngoschema/utils/utils.py:apply_through_collection"]}
{"id": "C248", "title": "A function may replace items while a collection is gone through", "statement": "When the function replaces items, apply_through_collection ends, every item is replaced once and everything else is as before.", "quantifier": "all nested collections and replacing functions", "why_tests_cant": "collections and functions are unbounded", "anchors": ["ngoschema/utils/utils.py:apply_through_collection"]}
{"id": "C249", "title": "Reducing a collection deletes its empty elements", "statement": "reduce_coll(coll) gives the collection without its empty elements and with lists of one element replaced by that element.", "quantifier": "all nested collections", "why_tests_cant": "collections are unbounded", "anchors": ["ngoschema/utils/utils.py:reduce_coll", "ngoschema/utils/utils.py:to_none_single_list", "ngoschema/utils/utils.py:apply_through_collection"]}
{"id": "C250", "title": "Expanding a schema scopes all its references", "statement": "scope_refs(id, schema) replaces every $ref in the schema by its reference relative to id, once, and changes nothing else.", "quantifier": "all schemas and identifiers", "why_tests_cant": "schemas nest without bound", "anchors": ["ngoschema/managers/type_builder.py:TypeBuilder.expand", "ngoschema/utils/utils.py:apply_through_collection", "ngoschema/resolvers/uri_resolver.py:scope"]}
{"id": "C251", "title": "The resolution order of a schema has all its ancestors, descendants first", "statement": "schema_mro(id) contains each proper ancestor of the schema once, every schema before its own ancestors, and is found when the extends relation has no cycle.", "quantifier": "all extends relations", "why_tests_cant": "relations between schemas are unbounded", "anchors": ["ngoschema/managers/type_builder.py:TypeBuilder.schema_mro"]}
{"id": "C252", "title": "A schema can be expanded", "statement": "type_builder.expand(id) gives the schema with the properties, required and read-only names of its ancestors.", "quantifier": "all schemas", "why_tests_cant": "holds for no schema, but only one not yet built reaches the call", "anchors": ["ngoschema/managers/type_builder.py:TypeBuilder.expand", "ngoschema/managers/type_builder.py:TypeBuilder.schema_mro"]}
{"id": "C253", "title": "A relationship is built once", "statement": "Once relationship_builder.build(id, schema) has given a relationship, it gives the same one for that id, whatever is built in between and whatever schema is given, and builds nothing.", "quantifier": "all histories of builds", "why_tests_cant": "histories are unbounded", "anchors": ["ngoschema/managers/relationship_builder.py:RelationshipBuilder.build"]}
{"id": "C254", "title": "A relationship has the keys of its schema or the primary keys of its foreign class", "statement": "A relationship built has the foreign schema of its schema relative to its id, the class of that schema, the given cardinality or OneToOne, and the given foreign keys or else the primary keys of the foreign class.", "quantifier": "all schemas of relationships, all registries and classes", "why_tests_cant": "whether the class is under construction depends on the order of loading", "anchors": ["ngoschema/managers/relationship_builder.py:RelationshipBuilder.build"]}
{"id": "C255", "title": "backPopulates gives the foreign class the reverse relationship", "statement": "Building a relationship whose schema has backPopulates enters the reverse relationship, under its name, in each foreign class named there.", "quantifier": "all schemas of relationships and registries", "why_tests_cant": "any number of entries, in any state of construction", "anchors": ["ngoschema/managers/relationship_builder.py:RelationshipBuilder.build"]}
{"id": "C256", "title": "The cardinality says whether a relationship leads to many", "statement": "_one2many is true exactly for cardinalities that lead to many objects; the schema allows one2one and one2many.", "quantifier": "all relationships", "why_tests_cant": "texts are unbounded", "anchors": ["ngoschema/managers/relationship_builder.py:RelationshipBuilder.build", "ngoschema/schemas/ngoschema.json:relationships"]}
{"id": "C257", "title": "A session gives the same repository each time it is asked", "statement": "session.get_or_create_repo(name) gives the repository of that name the session has, or makes one, bound to the session, which it gives from then on.", "quantifier": "all sessions, names and repositories", "why_tests_cant": "sessions hold any number of repositories", "anchors": ["ngoschema/session.py:Session.get_or_create_repo", "ngoschema/session.py:Session.bind_repo", "ngoschema/protocols/repository.py:Repository.__init__", "ngoschema/repositories/file_repositories.py:FileRepository.__init__"]}
{"id": "C258", "title": "The digest of a file is that of its content", "statement": "get_sha1 gives the digest of the whole content, whatever the size of the file and of the blocks read.", "quantifier": "all contents and sizes of blocks", "why_tests_cant": "files are unbounded", "anchors": ["ngoschema/models/files.py:get_sha1"]}
{"id": "C259", "title": "A context finds the nearest instance of a class", "statement": "find_instance gives the first map of the context, or the last if reverse, that is an instance of the class and not excluded, in nested contexts too, and the default if there is none.", "quantifier": "all contexts, classes and exclusions", "why_tests_cant": "contexts nest without bound", "anchors": ["ngoschema/utils/utils.py:Context.find_instance"]}
{"id": "C260", "title": "Equal contexts have the same hash", "statement": "Two contexts that are equal as mappings have the same hash.", "quantifier": "all contexts, any order of sets", "why_tests_cant": "contexts are unbounded and the order of sets is arbitrary", "anchors": ["ngoschema/utils/utils.py:Context.__hash__", "ngoschema/utils/utils.py:ReadOnlyChainMap.merged"]}
{"id": "C261", "title": "Globals added for templates are seen by the default environment", "statement": "What extend_jinja2_globals adds is among the globals of default_jinja2_env() from then on.", "quantifier": "all histories of additions and uses", "why_tests_cant": "depends on the order of unboundedly many calls", "anchors": ["ngoschema/utils/jinja2.py:extend_jinja2_globals", "ngoschema/utils/jinja2.py:default_jinja2_env"]}
{"id": "C262", "title": "Templates are searched in every folder registered", "statement": "After templates_module_loader.register(module, folder) the environment searches that folder for the templates of the module.", "quantifier": "all registries of modules and folders", "why_tests_cant": "any number of modules and folders", "anchors": ["ngoschema/utils/jinja2.py:ModulePrefixedJinja2Environment.update_loader", "ngoschema/loaders/module.py:GenericModuleFileLoader.register"]}
{"id": "C263", "title": "A class cast to a parent has the public attributes of the parent", "statement": "class_casted_as(cls, other) is possible exactly for classes of the order of cls; a public attribute of other is that of other, any other attribute is what the classes other does not have define, or else what other has.", "quantifier": "all class hierarchies and names", "why_tests_cant": "hierarchies are unbounded", "anchors": ["ngoschema/utils/utils.py:class_casted_as"]}
{"id": "C264", "title": "A registry gives what was registered, or the default", "statement": "registry[key] gives the object registered under the key as long as it lives, and registry.get(key, default) the default if there is none.", "quantifier": "all registries, keys and objects", "why_tests_cant": "registries are unbounded", "anchors": ["ngoschema/utils/utils.py:WeakRegistry.__getitem__", "ngoschema/utils/utils.py:GenericClassRegistry.get"]}
{"id": "C265", "title": "The splitting filters of templates lose nothing", "statement": "split and rsplit cut the text at the occurrences of the separator from the left and from the right, at most maxsplit times or at all for a negative number; joined by the separator the pieces are the text; None is one empty piece.", "quantifier": "all texts, separators and numbers", "why_tests_cant": "texts are unbounded", "anchors": ["ngoschema/utils/jinja2.py:split", "ngoschema/utils/jinja2.py:rsplit"]}
{"id": "C266", "title": "The root of an object is the outermost object around it", "statement": "obj._root is the object reached by following _parent as long as there is one.", "quantifier": "all histories of making, assigning and inserting objects", "why_tests_cant": "objects nest without bound", "anchors": ["ngoschema/contexts/object_protocol_context.py:ObjectProtocolContext._root", "ngoschema/contexts/object_protocol_context.py:ObjectProtocolContext.set_context"]}
{"id": "C267", "title": "An object that is put into another has this as its parent", "statement": "Once an object is the value of a property of another object, or an item of an array there, its _parent is that object.", "quantifier": "all histories of making, assigning and inserting objects", "why_tests_cant": "histories are unbounded", "anchors": ["ngoschema/contexts/object_protocol_context.py:ObjectProtocolContext.set_context", "ngoschema/protocols/collection_protocol.py:CollectionProtocol._items_evaluate", "ngoschema/protocols/array_protocol.py:ArrayProtocol.insert"]}
{"id": "C268", "title": "In the context of an object, this is the object and its own data come first", "statement": "Expressions and templates in an object are evaluated in a context in which this is the object and in which its own properties are found before all others, wherever it has been put.", "quantifier": "all histories of making, assigning and inserting objects", "why_tests_cant": "histories are unbounded", "anchors": ["ngoschema/protocols/object_protocol.py:ObjectProtocol._create_context", "ngoschema/protocols/array_protocol.py:ArrayProtocol.insert"]}
{"id": "C269", "title": "With use_identity_keys every entity but the roots is written as its keys", "statement": "Serialising with use_identity_keys writes each entity that is no root by its identity keys, one by itself and several as a list, and everything else in full; with root_entity the outermost entities are roots.", "quantifier": "all trees of objects, arrays and entities, all places in them", "why_tests_cant": "trees are unbounded", "anchors": ["ngoschema/models/instances.py:Entity._serialize", "ngoschema/types/collection.py:Collection._serialize"]}
{"id": "C270", "title": "With use_entity_keys every entity but the roots is written as a reference by its keys", "statement": "Serialising with use_entity_keys writes each entity that is no root as a dictionary of its keys, $ref standing for $id.", "quantifier": "all trees of objects, arrays and entities", "why_tests_cant": "trees are unbounded", "anchors": ["ngoschema/models/instances.py:Entity._serialize", "ngoschema/protocols/object_protocol.py:PropertyDescriptor.__get__"]}
{"id": "C271", "title": "With add_identity_keys an entity is written with its keys, as other properties are", "statement": "Serialising an entity in full with add_identity_keys writes each of its keys, under the name and in the form other properties have, unless it is excluded.", "quantifier": "all entities and options", "why_tests_cant": "entities and options are unbounded", "anchors": ["ngoschema/models/instances.py:Entity._serialize"]}
{"id": "C272", "title": "What a class does not serialise is left out of its own instances only", "statement": "Serialising a tree of objects leaves out exactly the properties that are excluded by the caller, None, or not serialised by the class of the object that has them.", "quantifier": "all trees of objects and arrays, all places in them", "why_tests_cant": "trees are unbounded", "anchors": ["ngoschema/protocols/collection_protocol.py:CollectionProtocol._serialize", "ngoschema/types/collection.py:Collection._serialize", "ngoschema/protocols/object_protocol.py:ObjectProtocol._serialize"]}
{"id": "C273", "title": "Validating a reference gives the reference, or refuses it", "statement": "Validating a value of the types $ref and canonicalName gives the value if it resolves and raises otherwise.", "quantifier": "all values and documents", "why_tests_cant": "documents are unbounded", "anchors": ["ngoschema/types/foreign_key.py:Ref._validate", "ngoschema/types/foreign_key.py:CanonicalName._convert"]}
{"id": "C274", "title": "An entity is known by the present values of its keys", "statement": "After any assignments, the identity keys of an entity, the keys shown by str and those a relationship gets when the entity is assigned to it are the present values of its primary keys.", "quantifier": "all histories of assignments and readings", "why_tests_cant": "histories are unbounded", "anchors": ["ngoschema/models/instances.py:Entity.get_identityKeys", "ngoschema/models/instances.py:Entity.__str__", "ngoschema/managers/relationship_builder.py:RelationshipDescriptor.__set__"]}
{"id": "C275", "title": "An attribute that was set is read back", "statement": "After o.name = v without exception, o.name gives v, as converted by the type of the property.", "quantifier": "all classes, instances, names and values", "why_tests_cant": "names and classes are unbounded; tests use declared properties", "anchors": ["ngoschema/protocols/object_protocol.py:ObjectProtocol.__setattr__", "ngoschema/protocols/object_protocol.py:ObjectProtocol.__getattr__"]}
{"id": "C276", "title": "hasattr tells whether an object has an attribute", "statement": "hasattr(o, name) is True if the class or the object has something under this name, and False if not.", "quantifier": "all classes, instances and names", "why_tests_cant": "names are unbounded", "anchors": ["ngoschema/protocols/object_protocol.py:ObjectProtocol.__getattr__", "ngoschema/protocols/object_protocol.py:PropertyDescriptor.__get__"]}
{"id": "C277", "title": "getattr with a default gives the default for what an object does not have", "statement": "getattr(o, name, default) gives default, and raises nothing, if there is nothing under this name.", "quantifier": "all classes, instances, names and defaults", "why_tests_cant": "names are unbounded", "anchors": ["ngoschema/protocols/object_protocol.py:ObjectProtocol.__getattr__"]}
{"id": "C278", "title": "What was set as an attribute can be deleted", "statement": "After o.name = v without exception, del o.name succeeds and the object no longer has it.", "quantifier": "all classes, instances, names and values", "why_tests_cant": "names and values are unbounded", "anchors": ["ngoschema/protocols/object_protocol.py:ObjectProtocol.__setattr__", "ngoschema/protocols/object_protocol.py:PropertyDescriptor.__delete__"]}
{"id": "C279", "title": "A class without additional properties refuses unknown names", "statement": "If additionalProperties is false, assigning, reading or deleting an attribute of an undeclared public name raises AttributeError and changes nothing.", "quantifier": "all classes, instances, names and values", "why_tests_cant": "names are unbounded", "anchors": ["ngoschema/protocols/object_protocol.py:ObjectProtocol.__setattr__", "ngoschema/protocols/object_protocol.py:ObjectProtocol.__getattr__"]}
{"id": "C280", "title": "Reading and assigning take nothing away", "statement": "Reading or assigning items or attributes removes no item from the object, even if it raises.", "quantifier": "all classes, getters, dependencies, instances, names and values", "why_tests_cant": "reads and invalidations nest without bound", "anchors": ["ngoschema/protocols/object_protocol.py:ObjectProtocol.__getitem__", "ngoschema/protocols/object_protocol.py:ObjectProtocol.__setitem__", "ngoschema/protocols/object_protocol.py:ObjectProtocol._items_touch"]}
{"id": "C281", "title": "Names are written in the namespaces given", "statement": "Writing XML with namespaces replaces the namespace of an element or attribute by what is given for it and leaves other names as they are.", "quantifier": "all maps of namespaces, separators, prefixes and names", "why_tests_cant": "names and maps are unbounded; tests use names without namespaces", "anchors": ["ngoschema/utils/xmltodict.py:_process_namespace", "ngoschema/utils/xmltodict.py:_emit"]}
{"id": "C282", "title": "A name read with namespaces is written back as it was", "statement": "Writing with the inverse map gives back the qualified name of the XML document that was read.", "quantifier": "all maps, separators, prefixes and qualified names", "why_tests_cant": "names and maps are unbounded", "anchors": ["ngoschema/utils/xmltodict.py:_DictSAXHandler._build_name", "ngoschema/utils/xmltodict.py:_process_namespace"]}
{"id": "C283", "title": "Different names stay different when they are read", "statement": "Two different qualified names of a document are read as different keys.", "quantifier": "all maps of namespaces and all pairs of names", "why_tests_cant": "pairs of names are unbounded", "anchors": ["ngoschema/utils/xmltodict.py:_DictSAXHandler._build_name"]}
{"id": "C284", "title": "An element is given the namespaces it declares", "statement": "With process_namespaces the xmlns item of an element holds the declarations of that element, and only these.", "quantifier": "all sequences of elements with declarations and attributes", "why_tests_cant": "documents are unbounded", "anchors": ["ngoschema/utils/xmltodict.py:_DictSAXHandler.startNamespaceDecl", "ngoschema/utils/xmltodict.py:_DictSAXHandler.startElement"]}
{"id": "C285", "title": "Reading comments changes nothing else", "statement": "With process_comments the result is the one without, plus the #comment items.", "quantifier": "all documents and choices of lists", "why_tests_cant": "documents are unbounded", "anchors": ["ngoschema/utils/xmltodict.py:_DictSAXHandler.comments", "ngoschema/utils/xmltodict.py:parse"]}
{"id": "C286", "title": "The options of a call override those of the deserialiser", "statement": "An option given to a call of the XML deserialiser is used in this call, the others are those the deserialiser was made with.", "quantifier": "all deserialisers and options", "why_tests_cant": "options and values are unbounded", "anchors": ["ngoschema/serializers/xml_serializer.py:XmlDeserializer._deserialize_xml"]}
{"id": "C287", "title": "A nested schema is built under the pointer that leads to it", "statement": "The type of a schema found in another one is built under the identifier of the outer one followed by the JSON pointer to the inner one.", "quantifier": "all schemas, identifiers and keys", "why_tests_cant": "schemas and keys are unbounded; tests use simple keys", "anchors": ["ngoschema/protocols/object_protocol.py:ObjectProtocol.build", "ngoschema/protocols/array_protocol.py:ArrayProtocol.build", "ngoschema/managers/type_builder.py:TypeBuilder.build"]}
{"id": "C288", "title": "A command that is listed is found", "statement": "Asking the command line for a listed command gives the command of the file it was listed for.", "quantifier": "all folders of files and names", "why_tests_cant": "names are unbounded; tests know the commands that exist", "anchors": ["ngoschema/cli/__init__.py:ComplexCLI.list_commands", "ngoschema/cli/__init__.py:ComplexCLI.get_command"]}
{"id": "C289", "title": "The list of commands is sorted and has every command once", "statement": "list_commands gives the names of the files of commands in order, different files under different names.", "quantifier": "all folders of files", "why_tests_cant": "folders are unbounded", "anchors": ["ngoschema/cli/__init__.py:ComplexCLI.list_commands"]}
{"id": "C290", "title": "A relative URL leads from the base to the target", "statement": "Resolving relative_url(target, base) against the base (RFC 3986) gives the target.", "quantifier": "all URLs and current directories", "why_tests_cant": "URLs are unbounded", "anchors": ["ngoschema/resolvers/uri_resolver.py:relative_url"]}
{"id": "C291", "title": "A URI that cannot be resolved is refused", "statement": "Resolving a URI gives what it names in a registered document, and an error if there is no such document.", "quantifier": "all stores of documents, URIs and normalisations", "why_tests_cant": "stores and URIs are unbounded", "anchors": ["ngoschema/resolvers/uri_resolver.py:UriResolver._resolve"]}
{"id": "C292", "title": "An unloaded document is no longer registered", "statement": "Unloading a document removes the registration made by loading it.", "quantifier": "all documents, stores and normalisations", "why_tests_cant": "documents and stores are unbounded", "anchors": ["ngoschema/models/files.py:Document.load", "ngoschema/models/files.py:Document.unload"]}
{"id": "C293", "title": "Keywords that define a class are no defaults of its properties", "statement": "If a class built from a schema inherits a property named like a keyword of schemas, the value of the keyword in its schema is not taken as the default of the property.", "quantifier": "all programs of class definitions", "why_tests_cant": "programs and keywords are unbounded; tests have no properties named like keywords", "anchors": ["ngoschema/protocols/object_protocol.py:ObjectProtocol.build", "ngoschema/config/settings.py:SCHEMA_DEF_KEYS"]}
{"id": "C294", "title": "Primary keys are those declared, or else inherited", "statement": "A class has the primary keys it declares; if it declares none it has those of its bases, each once.", "quantifier": "all programs of class definitions", "why_tests_cant": "programs are unbounded", "anchors": ["ngoschema/protocols/object_protocol.py:ObjectProtocol.build"]}
{"id": "C295", "title": "An attribute under an alias is that of the property", "statement": "Reading o.alias gives the value of the property the alias stands for, negated for a negated alias.", "quantifier": "all classes, instances, aliases and values", "why_tests_cant": "classes and names are unbounded", "anchors": ["ngoschema/protocols/object_protocol.py:ObjectProtocol.__getattr__"]}
{"id": "C296", "title": "A criterion compares documents by content", "statement": "A criterion without operator selects the objects whose attribute is equal to the value: the same number or text, a list with equal items in the same order, a mapping with the same keys and equal values in any order. Equality is reflexive, symmetric and transitive.", "quantifier": "all documents of any depth", "why_tests_cant": "documents nest without bound", "anchors": ["ngoschema/query.py:_apply_ops_test", "ngoschema/query.py:Filter.__call__"]}
{"id": "C297", "title": "The order operators of a query agree with each other and with equality", "statement": "Of two documents that can be compared, exactly one of lt, eq and gt holds, le is the opposite of gt and ge of lt, and lt is transitive; texts and lists are in dictionary order. Documents that cannot be compared raise a TypeError.", "quantifier": "all documents of any depth", "why_tests_cant": "documents nest without bound", "anchors": ["ngoschema/query.py:_apply_ops_test"]}
{"id": "C298", "title": "Every element at the depth asked for is handed to the callback once", "statement": "xmltodict.parse with an item_depth calls item_callback for every element at this depth, in the order of the document, with the names and attributes on the way to it, and returns None. With item_depth 0 no call is made and the whole document is returned.", "quantifier": "all documents, depths and choices of lists", "why_tests_cant": "documents and depths are unbounded", "anchors": ["ngoschema/utils/xmltodict.py:_DictSAXHandler.startElement", "ngoschema/utils/xmltodict.py:_DictSAXHandler.endElement", "ngoschema/utils/xmltodict.py:parse"]}
{"id": "C299", "title": "What is handed to the callback for an element is what reading the document gives for it", "statement": "The item that item_callback gets for an element is the value that the element has in the result of reading the document as a whole.", "quantifier": "all documents, depths and choices of lists", "why_tests_cant": "documents and depths are unbounded", "anchors": ["ngoschema/utils/xmltodict.py:_DictSAXHandler.startElement", "ngoschema/utils/xmltodict.py:_DictSAXHandler.endElement"]}
{"id": "C300", "title": "Reading stops when the callback wants no more", "statement": "The callback gets the items up to and including the first one for which it returns a false value; then ParsingInterrupted is raised, and in no other case. A callback that never returns a false value does not change the result.", "quantifier": "all documents, depths and callbacks", "why_tests_cant": "the callback is arbitrary and documents are unbounded", "anchors": ["ngoschema/utils/xmltodict.py:_DictSAXHandler.endElement", "ngoschema/utils/xmltodict.py:parse"]}
{"id": "C301", "title": "Asking whether an object is in a query agrees with its results and changes nothing", "statement": "`obj in query` is true exactly when one of the results of the query equals obj. Asking does not change the results.", "quantifier": "all queries, states and objects", "why_tests_cant": "results and sequences of operations are unbounded", "anchors": ["ngoschema/query.py:Query.__contains__", "ngoschema/query.py:Query.result_cache"]}
{"id": "C302", "title": "Number, emptiness and parts of a query agree with its results", "statement": "count() is the number of results, isEmpty() says whether there are none, and query[a:b] gives the results at the positions from a up to b.", "quantifier": "all queries, states and bounds", "why_tests_cant": "results and bounds are unbounded", "anchors": ["ngoschema/query.py:Query.count", "ngoschema/query.py:Query.isEmpty", "ngoschema/query.py:Query.__getitem__"]}
{"id": "C303", "title": "A search in a document gives the places of the path that satisfy the criteria", "statement": "search_object gives, with their values, the places matching the path whose values satisfy all criteria; without criteria, all of them. If there is none the result is empty.", "quantifier": "all documents, places and criteria", "why_tests_cant": "documents and criteria are unbounded", "anchors": ["ngoschema/query.py:search_object", "ngoschema/query.py:search_object_non_rec"]}
{"id": "C304", "title": "Evaluating a foreign key gives the key, or the object it stands for", "statement": "Evaluating an entity as a foreign key gives its converted and valid key; with resolve, the object that the session holds under this key.", "quantifier": "all entities, types of keys and sessions", "why_tests_cant": "keys and contents of sessions are unbounded", "anchors": ["ngoschema/types/foreign_key.py:ForeignKey._evaluate", "ngoschema/types/foreign_key.py:ForeignKey._resolve"]}
{"id": "C305", "title": "A value passes the check of a type exactly when it belongs to the type", "statement": "For the registered types other than enumerations, identifiers and symbols, check(value) is true exactly for the values of the type.", "quantifier": "all types and values", "why_tests_cant": "values are unbounded", "anchors": ["ngoschema/protocols/validator.py:Validator.check", "ngoschema/protocols/checker.py:Checker._check", "ngoschema/types/constants.py:Constant._check", "ngoschema/types/uri.py:Uri._check", "ngoschema/types/array.py:Array._check"]}
{"id": "C306", "title": "Only members pass the check of an enumeration", "statement": "check of an enumeration accepts exactly its members.", "quantifier": "all enumerations and values", "why_tests_cant": "values are unbounded", "anchors": ["ngoschema/types/type.py:Enum._check", "ngoschema/types/type.py:Primitive._check"]}
{"id": "C307", "title": "A foreign key passes its check exactly when its components pass theirs", "statement": "check of a foreign key accepts a list exactly when there is one component for each key and each passes the check of its type.", "quantifier": "all keys and types of keys", "why_tests_cant": "keys are unbounded", "anchors": ["ngoschema/types/foreign_key.py:ForeignKey._check"]}
{"id": "C308", "title": "The type detected for a value is its type", "statement": "detect_type gives the name of a registered type the value belongs to, a specific one where there is one; is_type says whether the value belongs to the named type.", "quantifier": "all values and registries", "why_tests_cant": "values are unbounded", "anchors": ["ngoschema/managers/type_builder.py:TypeBuilder.detect_type", "ngoschema/managers/type_builder.py:TypeBuilder.is_type"]}
{"id": "C309", "title": "The namespaces listed are the known ones, each with the URI a lookup gives", "statement": "namespaces(contains) lists, in the order of their names and each once, exactly the registered namespaces and the loaded documents whose name contains the text, each with the URI that a lookup by name gives.", "quantifier": "all managers, documents and texts", "why_tests_cant": "registrations and documents are unbounded", "anchors": ["ngoschema/managers/namespace_manager.py:NamespaceManager.namespaces", "ngoschema/managers/namespace_manager.py:NamespaceManager.available_namespaces"]}
{"id": "C310", "title": "A name is in a manager exactly when a known namespace covers it", "statement": "item in manager is true exactly when a registered namespace or a loaded document has the name (for a module, its name), or a beginning of it ending before a dot.", "quantifier": "all managers, documents and names", "why_tests_cant": "registrations and names are unbounded", "anchors": ["ngoschema/managers/namespace_manager.py:NamespaceManager.__contains__", "ngoschema/managers/namespace_manager.py:NamespaceManager._find_ns_by_cname"]}
{"id": "C311", "title": "The definitions of a namespace are those of its document", "statement": "get_cname_definitions(cname) gives, for each definition k of the document of the namespace, cname.k with its identifier.", "quantifier": "all managers, documents and names", "why_tests_cant": "documents and registrations are unbounded", "anchors": ["ngoschema/managers/namespace_manager.py:NamespaceManager.get_cname_definitions", "ngoschema/managers/namespace_manager.py:NamespaceManager.get_id_cname"]}
{"id": "C312", "title": "A type used as a property keeps its constraints", "statement": "The property of an object type made from a type accepts the values that this type accepts: every keyword of the type is in the schema the property is built from.", "quantifier": "all types, their schemas and keywords", "why_tests_cant": "types, keywords and nestings are unbounded", "anchors": ["ngoschema/types/object.py:Object.__init__", "ngoschema/managers/type_builder.py:untype_schema", "ngoschema/protocols/validator.py:Validator.repr_schema"]}
{"id": "C313", "title": "Types and booleans can be given wherever schemas can", "statement": "For a property, a pattern, additional properties, the items of an array or an item in a list, a schema, a boolean or a type can be given, and the new type holds what was given.", "quantifier": "all places, schemas, booleans and types", "why_tests_cant": "types and schemas are unbounded", "anchors": ["ngoschema/types/object.py:Object.__init__", "ngoschema/types/array.py:Array.__init__", "ngoschema/managers/type_builder.py:TypeBuilder.build"]}
{"id": "C314", "title": "A type is represented by a schema that describes it", "statement": "repr_schema gives a JSON schema, with type first, that has all keywords of the type and describes its items and properties.", "quantifier": "all types, nested to any depth", "why_tests_cant": "types nest without bound", "anchors": ["ngoschema/protocols/validator.py:Validator.repr_schema", "ngoschema/types/array.py:Array._repr_schema", "ngoschema/types/object.py:Object._repr_schema"]}
{"id": "C315", "title": "A type is not made from an invalid schema", "statement": "check_schema, done for the schema of every type that is made, raises SchemaError for exactly the schemas that do not meet the meta-schema.", "quantifier": "all values given as schemas", "why_tests_cant": "schemas are unbounded and nest", "anchors": ["ngoschema/managers/type_builder.py:TypeBuilder.check_schema", "ngoschema/managers/jsch_validators.py:default_meta_validator", "ngoschema/protocols/validator.py:Validator.__init__"]}
{"id": "C316", "title": "A path is accepted exactly if it meets the checks of its schema", "statement": "A value of a path type is accepted exactly if what is at the path meets the schema, where isPathDir, isPathFile and isPathExisting can be combined by allOf, anyOf, oneOf, not and if as in JSON Schema.", "quantifier": "all schemas with checks of paths, all states of the file at the path", "why_tests_cant": "schemas nest without bound", "anchors": ["ngoschema/managers/jsch_validators.py:isPathDir", "ngoschema/managers/jsch_validators.py:isPathFile", "ngoschema/managers/jsch_validators.py:isPathExisting", "ngoschema/protocols/validator.py:Validator._validate", "ngoschema/types/uri.py:Path"]}
{"id": "C317", "title": "A value that is refused by the checks of paths is refused with InvalidValue and its errors", "statement": "If a value does not meet a schema with isPathDir, isPathFile or isPathExisting, InvalidValue is raised and tells all errors.", "quantifier": "all schemas with checks of paths, all values", "why_tests_cant": "schemas nest without bound", "anchors": ["ngoschema/managers/jsch_validators.py:isPathDir", "ngoschema/protocols/validator.py:Validator._errors", "ngoschema/protocols/validator.py:Validator._validate"]}
{"id": "C318", "title": "A setter is told each value that is assigned", "statement": "A method set_x of a class is called with each value that is assigned to the property x, converted, once and in the order of the assignments; reading does not call it unless what the value depends on has changed.", "quantifier": "all histories of assignments, readings and changes of inputs; all conversions and setters", "why_tests_cant": "histories are unbounded", "anchors": ["ngoschema/protocols/object_protocol.py:PropertyDescriptor.__get__", "ngoschema/protocols/object_protocol.py:PropertyDescriptor.__set__", "ngoschema/protocols/collection_protocol.py:CollectionProtocol._is_outdated"]}
{"id": "C319", "title": "An assignment that fails leaves the property as it was", "statement": "If an assignment to a property raises, because the property is read only, the value cannot be converted or the setter refuses it, reading the property gives what it gave before.", "quantifier": "all properties, values, conversions and setters", "why_tests_cant": "values, conversions and setters are unbounded", "anchors": ["ngoschema/protocols/object_protocol.py:PropertyDescriptor.__set__", "ngoschema/protocols/collection_protocol.py:CollectionProtocol._set_data"]}
{"id": "C320", "title": "A property is deleted exactly if its deleter lets it", "statement": "Deleting a property that is not required calls its deleter once, and removes the property unless the deleter raises, whether it is deleted as attribute or as item.", "quantifier": "all properties, deleters and states", "why_tests_cant": "deleters and states are unbounded", "anchors": ["ngoschema/protocols/object_protocol.py:PropertyDescriptor.__delete__", "ngoschema/protocols/object_protocol.py:ObjectProtocol.__delitem__"]}
{"id": "C321", "title": "The content of a document is that of its file", "statement": "Reading content of a document gives what the encoder makes of the bytes that its file, or what is at its URI, has at that time.", "quantifier": "all documents, file systems, encodings and encoders; all histories of the file", "why_tests_cant": "file systems and histories are unbounded", "anchors": ["ngoschema/models/files.py:UriFile.get_contentRaw", "ngoschema/models/files.py:Document.get_content", "ngoschema/protocols/object_protocol.py:PropertyDescriptor.__get__"]}
{"id": "C322", "title": "What is written to a document is in its file", "statement": "After document.write(content) has returned, a new document of the same file has this content and other files are unchanged; where it cannot be written an exception is raised and no file is changed.", "quantifier": "all documents, contents, file systems and encoders", "why_tests_cant": "contents and file systems are unbounded", "anchors": ["ngoschema/models/files.py:Document.write", "ngoschema/protocols/file_loader.py:FileSaver._write_file"]}
{"id": "C323", "title": "A document that cannot be read says so", "statement": "Reading the content of a document whose file is there but cannot be decoded or parsed raises an exception, so that it is told from a missing file.", "quantifier": "all documents, files, encodings and encoders", "why_tests_cant": "files and encoders are unbounded", "anchors": ["ngoschema/models/files.py:Document.get_content"]}
{"id": "C324", "title": "A document is read in its mode and its encoding", "statement": "The file of a document is read with the encoding of its property charset, and as bytes if and only if its property binary is true.", "quantifier": "all documents, encodings, modes and files", "why_tests_cant": "encodings and files are unbounded", "anchors": ["ngoschema/models/files.py:File.__init__", "ngoschema/models/files.py:File.set_binary", "ngoschema/protocols/file_loader.py:FileLoader.__init__"]}
{"id": "C325", "title": "Deleting the file of a document deletes this file only", "statement": "del_file deletes the file of the document and no other; without a path it raises AttributeError, with the path of a missing file ValueError, and then no file is changed.", "quantifier": "all documents and file systems", "why_tests_cant": "file systems are unbounded", "anchors": ["ngoschema/models/files.py:Document.del_file"]}
{"id": "C326", "title": "A document has a name and an identifier", "statement": "filename is the last part of the path or of the URI of a document; doc_id is the member $id of its content, None where there is none.", "quantifier": "all documents, paths, URIs and contents", "why_tests_cant": "paths and contents are unbounded", "anchors": ["ngoschema/models/files.py:Document.filename", "ngoschema/models/files.py:Document.get_doc_id"]}
{"id": "C327", "title": "What is told of a file is true of it", "statement": "Reading the size, the dates or the digest in the FileInfo of a file gives those that the file has at that time, and raises if there is no file.", "quantifier": "all files and all histories of the file system", "why_tests_cant": "histories are unbounded", "anchors": ["ngoschema/models/files.py:FileInfo.get_contentSize", "ngoschema/models/files.py:FileInfo.get_sha1", "ngoschema/protocols/object_protocol.py:PropertyDescriptor.__get__"]}
{"id": "C328", "title": "An array gives the item that has the keys asked for", "statement": "array.get(*keys, default=d) gives the first item whose primary keys equal the values given, array.get(name=value) the first whose attributes do, and d if there is none.", "quantifier": "all arrays of objects, primary keys, values and defaults", "why_tests_cant": "arrays and values are unbounded", "anchors": ["ngoschema/protocols/array_protocol.py:ArrayProtocol.get", "ngoschema/query.py:Query.next"]}
{"id": "C329", "title": "A class property is computed for the class it is asked of", "statement": "Reading a class property of a class, or of an instance whatever this has under the name, calls the getter with that class in the present state; so it does for classes that inherit it.", "quantifier": "all hierarchies of classes, getters, states and instances", "why_tests_cant": "hierarchies and states are unbounded", "anchors": ["ngoschema/decorators.py:ClassPropertyDescriptor.__get__", "ngoschema/decorators.py:classproperty"]}
{"id": "C330", "title": "Assigning a class property calls its setter", "statement": "An assignment to a class property, by the class or by an instance, calls its setter with the class and the value, raises AttributeError if there is none, and leaves the property in place.", "quantifier": "all hierarchies of classes, setters, states and values", "why_tests_cant": "hierarchies and states are unbounded", "anchors": ["ngoschema/decorators.py:ClassPropertyDescriptor.__set__", "ngoschema/decorators.py:ClassPropertyDescriptor.setter"]}
{"id": "C331", "title": "Criteria on texts, members and positions mean what their names say", "statement": "attr__startswith, attr__endswith and attr__regex select the objects whose attribute is a text that begins with the value, ends with it or is matched by it; attr__contains those whose list has an item equal to the value, whose text has it as a part or whose mapping has it as a key; attr__in the other way round; attr__@i__eq those whose item at position i, from the end if negative, equals the value. The other objects are left out.", "quantifier": "all objects, attributes, values and positions", "why_tests_cant": "objects and values are unbounded", "anchors": ["ngoschema/query.py:_apply_ops_test", "ngoschema/query.py:Filter.__call__"]}
{"id": "C332", "title": "The log has a logged call as it is written", "statement": "The entry of a logged call is the representation of the object, the name of the method and, in parentheses, the representations of the arguments, those given by name with their names.", "quantifier": "all calls, arguments nested to any depth and names", "why_tests_cant": "arguments are unbounded", "anchors": ["ngoschema/decorators.py:_format_call_msg", "ngoschema/decorators.py:log_exceptions", "ngoschema/decorators.py:log_init"]}
{"id": "C333", "title": "A date is read whichever way of the settings it is written", "statement": "A text of a day, from the year to the day or from the day to the year, with -, / or ., is converted to that day; without the day, to the first of the month; followed by a time, to that moment.", "quantifier": "all days of the calendar, times of the day and layouts", "why_tests_cant": "all days in all layouts, none of which may be taken for another", "anchors": ["ngoschema/types/datetime.py:Date._convert", "ngoschema/types/datetime.py:Datetime._convert", "ngoschema/config/settings.py:ALT_DATE_FORMATS"]}
{"id": "C334", "title": "Values that are no texts are written to XML alike wherever they stand", "statement": "A document whose values are None, truth values and numbers is written to XML and read back with a text in the place of each; the same value gives the same text as an element, as an attribute and as the text of an element.", "quantifier": "all documents, values and tags, with and without pretty printing", "why_tests_cant": "nested documents of any shape; tests write a few texts", "anchors": ["ngoschema/utils/xmltodict.py:_emit", "ngoschema/utils/xmltodict.py:unparse", "ngoschema/utils/xmltodict.py:parse"]}
{"id": "C335", "title": "The prefixes under @xmlns are declared by the element", "statement": "An element whose attributes include a mapping under @xmlns is written with an attribute xmlns:p for each prefix p and xmlns for the empty prefix, in the place of @xmlns, beside its other attributes.", "quantifier": "all elements, prefixes and attributes", "why_tests_cant": "any number of prefixes and attributes around them", "anchors": ["ngoschema/utils/xmltodict.py:_emit"]}
{"id": "C336", "title": "An error met while a property is read reaches the reader", "statement": "If reading a declared property raises an error, in its getter, in converting its value or in its setter, then the attribute raises it as the item does.", "quantifier": "all classes, properties, getters, setters, errors and states of the instance", "why_tests_cant": "the kind of the error and the state it leaves decide what a second, hidden reading gives", "anchors": ["ngoschema/protocols/object_protocol.py:PropertyDescriptor.__get__", "ngoschema/protocols/object_protocol.py:ObjectProtocol.__getattr__"]}
{"id": "C337", "title": "The schema of a class extends its bases and what was written", "statement": "The schema a class statement hands to the type builder names under `extends` every identifier the given schema names and the identifier of every base class that has one.", "quantifier": "all class statements and registered documents", "why_tests_cant": "bases, identifiers and schemas combine freely, a test shows single combinations", "anchors": ["ngoschema/protocols/type_protocol.py:SchemaMetaclass.__new__"]}
{"id": "C338", "title": "A class statement leaves the schema it uses as it is", "statement": "Defining a class changes neither the registered document its identifier leads to nor the mapping given as `_schema`.", "quantifier": "all class statements, schemas and registered documents", "why_tests_cant": "the change shows in whatever uses the document or mapping later", "anchors": ["ngoschema/protocols/type_protocol.py:SchemaMetaclass.__new__", "ngoschema/resolvers/uri_resolver.py:resolve_uri"]}
{"id": "C339", "title": "Defining a class again replaces it, or leaves it if that fails", "statement": "After a class statement for a registered identifier succeeds, every request that leads to the identifier gives the new class; if it fails, they give the former one.", "quantifier": "all class statements, documents, states of the type builder and later histories of requests", "why_tests_cant": "it is a claim about all later requests, through whatever references", "anchors": ["ngoschema/protocols/type_protocol.py:SchemaMetaclass.__new__", "ngoschema/managers/type_builder.py:TypeBuilder.build"]}
{"id": "C340", "title": "Data can be given to an object by keyword", "statement": "An object made with keyword arguments has the data of the object made with the mapping of these keywords.", "quantifier": "all classes and keyword arguments", "why_tests_cant": "the names of properties are free, a test has the names it was written with", "anchors": ["ngoschema/protocols/collection_protocol.py:CollectionProtocol.__init__"]}
{"id": "C341", "title": "An object type called on a mapping reads this mapping", "statement": "Calling an object type on a mapping, empty or not, deserialises this mapping; the options of the call are no data.", "quantifier": "all object types, mappings and options", "why_tests_cant": "it is a claim about all types and options, and fails only for the empty mapping", "anchors": ["ngoschema/types/object.py:Object.__call__", "ngoschema/types/type.py:Type.__call__"]}
{"id": "C342", "title": "The canonical name and the text of an instance follow the names above it", "statement": "After any names were given, canonical names read and texts made, the canonical name and the text of an instance are made of the present names of the instance and of those above it.", "quantifier": "all chains of instances and histories of operations", "why_tests_cant": "histories are unbounded, and the error depends on what was read before", "anchors": ["ngoschema/models/instances.py:Instance.__str__", "ngoschema/models/instances.py:Instance.get_canonicalName", "ngoschema/protocols/object_protocol.py:PropertyDescriptor.__get__"]}
{"id": "C343", "title": "The qualified name of a definition is the path of the definitions around it in its source", "statement": "For a class or function without __qualname__, qualname gives the dotted path of the definitions around it in its source file as it is, with <locals> after functions, also when it is decorated; where nothing is defined it raises AttributeError.", "quantifier": "all syntax trees, sources, lines and states of the cache", "why_tests_cant": "definitions nest without bound, decorators run over any number of lines, and the outcome depends on which files were read before", "anchors": ["ngoschema/utils/_qualname.py:_Visitor", "ngoschema/utils/_qualname.py:qualname"]}
{"id": "C344", "title": "Documents of different domains get different names", "statement": "The canonical names of two documents of different domains differ.", "quantifier": "every two domains, every path", "why_tests_cant": "domains and paths are arbitrary", "anchors": ["ngoschema/managers/namespace_manager.py:NamespaceManager._uri_to_cname"]}
{"id": "C345", "title": "What a collection type writes, it reads back", "statement": "If a type of collections writes a value that it has read, it reads the value back from what it has written.", "quantifier": "every type nested of arrays, objects and other types, every value it reads, with and without defaults", "why_tests_cant": "types nest at any depth, and types of leaves, values and the order of sets are arbitrary", "anchors": ["ngoschema/types/collection.py:Collection._serialize", "ngoschema/types/object.py:Object._print_order", "ngoschema/types/object.py:ObjectSerializer._print_order", "ngoschema/types/array.py:ArraySerializer._serialize"]}
{"id": "C346", "title": "force_list makes lists of the elements it names, and of no others", "statement": "An element stands in a list exactly if there are others of its name beside it, or force_list names it.", "quantifier": "every document, every form of force_list", "why_tests_cant": "documents nest at any depth, with any number of elements of any names", "anchors": ["ngoschema/utils/xmltodict.py:_DictSAXHandler._should_force_list", "ngoschema/utils/xmltodict.py:_DictSAXHandler.push_data"]}
{"id": "C347", "title": "A postprocessor that renames or refuses names acts as if the document had the other names", "statement": "Reading with a postprocessor that gives names new names, or refuses them, is reading the document with these names, without what was refused.", "quantifier": "every document, every such postprocessor", "why_tests_cant": "documents and the names given are arbitrary", "anchors": ["ngoschema/utils/xmltodict.py:_DictSAXHandler.push_data", "ngoschema/utils/xmltodict.py:_DictSAXHandler.startElement", "ngoschema/utils/xmltodict.py:_DictSAXHandler.endElement"]}
{"id": "C348", "title": "Without xml_attribs a document is read as if it had no attributes", "statement": "Reading a document with xml_attribs=False is reading the document without its attributes.", "quantifier": "every document, all other options except functions of the path", "why_tests_cant": "documents nest at any depth with any attributes", "anchors": ["ngoschema/utils/xmltodict.py:_DictSAXHandler.startElement"]}
{"id": "C349", "title": "With force_cdata every text of an element stands under #text", "statement": "With force_cdata every element is a dictionary that has its text, if any, under #text.", "quantifier": "every document, all other options except functions", "why_tests_cant": "documents nest at any depth", "anchors": ["ngoschema/utils/xmltodict.py:_DictSAXHandler.endElement"]}
{"id": "C350", "title": "A document written with a preprocessor is the document of the names it gives", "statement": "When xmltodict.unparse is called with a preprocessor that renames elements and refuses some of them, what is written is exactly what the document without the refused elements, at any depth, is written as, with each tag under its new name; attributes and texts are untouched, and a document left without a root is refused as an empty document is.", "quantifier": "for all documents and fragments, all renamings and refusals, all layouts", "why_tests_cant": "The preprocessor acts at every depth, on single values and on items of lists alike; only an induction over all documents shows that no place is missed and that nothing else changes.", "anchors": ["ngoschema/utils/xmltodict.py:_emit", "ngoschema/utils/xmltodict.py:unparse"]}
{"id": "C351", "title": "expand_iter writes lists inside lists item by item", "statement": "With expand_iter, xmltodict.unparse writes a list that is an item of a list as an element that holds one element of the given name per item, at any depth of nesting, and everything else as without the option; without it such a list is the text of one element.", "quantifier": "for all documents and fragments, all names, all layouts, all preprocessors that rename or refuse", "why_tests_cant": "Lists may be nested to any depth, below dictionaries and inside each other; tests cover a few shapes.", "anchors": ["ngoschema/utils/xmltodict.py:_emit", "ngoschema/utils/xmltodict.py:unparse"]}
{"id": "C352", "title": "White space between elements makes no difference to what is read", "statement": "With strip_whitespace, two XML documents that differ only in white space around texts, between elements and between comments are read as the same value, whatever the other options are.", "quantifier": "for all documents, all white space, all options of parse", "why_tests_cant": "White space may stand at any place of a document of any shape; tests try a few layouts.", "anchors": ["ngoschema/utils/xmltodict.py:_DictSAXHandler.endElement", "ngoschema/utils/xmltodict.py:_DictSAXHandler.characters", "ngoschema/utils/xmltodict.py:parse"]}
{"id": "C353", "title": "Setting out a document does not change what is read back", "statement": "A document written with pretty=True is read back as the same value as when it is written without, for white space as indent and newl; errors are the same too.", "quantifier": "for all documents with values of any kind (canonical or not), all indentations and ends of line of white space, all forced lists", "why_tests_cant": "The indentation adds texts at every level of a document, which mix with its own texts; only an induction over all documents shows that they are told apart.", "anchors": ["ngoschema/utils/xmltodict.py:_emit", "ngoschema/utils/xmltodict.py:unparse", "ngoschema/utils/xmltodict.py:parse"]}
{"id": "C354", "title": "strip_whitespace strips texts and comments and nothing else", "statement": "With strip_whitespace a document is read exactly as the document whose texts and comments are stripped is read without it; without it texts are kept as they are. Attributes, white space inside texts, names and structure are the same either way.", "quantifier": "for all documents and all other options", "why_tests_cant": "The option acts at each text and each comment at any depth, together with every other option.", "anchors": ["ngoschema/utils/xmltodict.py:_DictSAXHandler.endElement", "ngoschema/utils/xmltodict.py:_DictSAXHandler.comments", "ngoschema/utils/xmltodict.py:parse"]}
{"id": "C355", "title": "The keys of attributes and texts only change the names of entries", "statement": "Reading an XML document with another attr_prefix, cdata_key, cdata_tail_key and comment_key gives the value read without them, with each key of an attribute, text, tail or comment replaced by the new one and everything else as it is, as long as no element has the name of one of these keys.", "quantifier": "for all documents, all keys, all other options of parse", "why_tests_cant": "Documents and keys are unbounded; a key that is ignored at one place shows in a few documents only.", "anchors": ["ngoschema/utils/xmltodict.py:_DictSAXHandler.startElement", "ngoschema/utils/xmltodict.py:_DictSAXHandler.endElement", "ngoschema/utils/xmltodict.py:parse"]}
{"id": "C356", "title": "A document under other keys for attributes and texts is written alike", "statement": "unparse with another attr_prefix, cdata_key and cdata_tail_key writes a dictionary that uses these keys as unparse without them writes the dictionary with the usual keys, errors included.", "quantifier": "for all documents, all keys, pretty or not", "why_tests_cant": "Documents and keys are unbounded; the option has to be handed on at every level.", "anchors": ["ngoschema/utils/xmltodict.py:_emit", "ngoschema/utils/xmltodict.py:unparse"]}
{"id": "C357", "title": "What is written under other keys is read back with these keys", "statement": "A canonical document with other keys for attributes and texts, written by unparse and read by parse with the same attr_prefix, cdata_key and cdata_tail_key, is unchanged, set out or not.", "quantifier": "for all canonical documents of any depth, all keys", "why_tests_cant": "Documents and keys are unbounded.", "anchors": ["ngoschema/utils/xmltodict.py:_emit", "ngoschema/utils/xmltodict.py:parse", "ngoschema/utils/xmltodict.py:_DictSAXHandler"]}
{"id": "C358", "title": "A reference to a class under construction has the instances of that class", "statement": "isinstance and issubclass with the class that stands for a class under construction (a proxy of type object or array) answer as for the class itself once this is built, whatever was asked before.", "quantifier": "for all classes, all histories of questions, constructions and registrations", "why_tests_cant": "The answer depends on the history of questions, which is unbounded; a test asks once.", "anchors": ["ngoschema/protocols/type_proxy.py:TypeProxy.__subclasshook__", "ngoschema/protocols/type_proxy.py:TypeProxy.proxy_type", "ngoschema/protocols/type_proxy.py:TypeProxy.build"]}
{"id": "C359", "title": "The default of an object has the defaults of its properties", "statement": "`default(value)` of an object type or class gives the mapping that is asked for (or the declared default), completed with the default of every property that has one and is missing or None; reading it gives the same values.", "quantifier": "all declarations of properties, defaults and given mappings, with and without the option no_defaults, any iteration order of sets", "why_tests_cant": "depends on the combination of declared defaults, given values and options; tests of a few classes do not distinguish the default that is left out from the one that is filled in again on reading", "anchors": ["ngoschema/types/object.py:191-198", "ngoschema/types/object.py:243-260", "ngoschema/protocols/object_protocol.py:230-233"]}
{"id": "C360", "title": "An instance is evaluated to itself, if it is valid", "statement": "Evaluating an instance of a class by the class gives this very instance when it is valid and refuses it with InvalidValue when it is not, as data are; evaluating what an evaluation gave gives it again.", "quantifier": "all classes (any conversion, items, validation, lazy or not), all options, all values and chains of calls", "why_tests_cant": "a test evaluates a few instances, mostly valid ones; what is claimed is that none is replaced or slips through under any options", "anchors": ["ngoschema/protocols/collection_protocol.py:72-81", "ngoschema/types/collection.py:105-113", "ngoschema/protocols/validator.py:74-85"]}
{"id": "C361", "title": "A living session is found by its number", "statement": "Whatever threads make sessions at the same time and whenever sessions are collected: a session is found by its number as long as it lives, no other session is ever found by it afterwards, threads making sessions hold different numbers, and closing all sessions reaches each living one exactly once.", "quantifier": "all interleavings of any number of threads making any number of sessions, all times of collection", "why_tests_cant": "a test runs a few schedules; a number given twice or reused shows only under some interleaving or time of collection", "anchors": ["ngoschema/session.py:22-36", "ngoschema/session.py:42-48", "ngoschema/session.py:258-260", "ngoschema/utils/utils.py:632-646"]}
{"id": "C362", "title": "An object belongs to the session it is given, or to that of the collection it is in", "statement": "An object or array that is given a session belongs to it; one that is not belongs to the session of the collection it is made in or inserted into, or to none; giving a session to one changes that of no other.", "quantifier": "all histories of making objects and arrays, nested or on their own, with or without sessions, and of insertions", "why_tests_cant": "contexts are shared between objects, so the session of one depends on the whole history of others; tests try a few", "anchors": ["ngoschema/protocols/context.py:31-45", "ngoschema/protocols/collection_protocol.py:37-49", "ngoschema/protocols/array_protocol.py:75-84", "ngoschema/utils/utils.py:136-142"]}
{"id": "C363", "title": "A log configuration file changes what it names and keeps the other defaults", "statement": "load_log_config gives the default configuration with what the file gives put in its place, at any depth, and puts it in force; it is refused only if the file itself is wrong.", "quantifier": "all contents of the file, all default configurations", "why_tests_cant": "files combine any sections, handlers and names; a test loads one or two", "anchors": ["ngoschema/config/utils.py:34-43", "ngoschema/config/settings.py:13-42"]}
{"id": "C364", "title": "Names in an object are read with the nearest namespace manager around it", "statement": "Identifiers in an object, and the keys of its foreign keys, are read with the nearest namespace manager in the contexts around it, or the default one if there is none, and this is the manager the object keeps.", "quantifier": "all contexts, however they were made from others, all nestings of objects", "why_tests_cant": "contexts and objects nest without bound", "anchors": ["ngoschema/contexts/ns_manager_context.py:9-21", "ngoschema/types/uri.py:89-99", "ngoschema/types/foreign_key.py:135-138", "ngoschema/utils/utils.py:136-145"]}
{"id": "C365", "title": "Registering a module registers it with every loader", "statement": "Once a module is registered, every loader of module files has the folder of this module that has the name of its folders, if it exists, and keeps the folders it had; registering again changes nothing.", "quantifier": "all sequences of making loaders and registering modules, all files", "why_tests_cant": "loaders are made and modules registered in any number and order", "anchors": ["ngoschema/loaders/module.py:17-38", "ngoschema/loaders/module.py:119-122"]}
