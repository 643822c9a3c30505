{
 "claims": [
  {
   "property": "C01",
   "status": "proved",
   "theorems": [
    "Verif.ChainMap.C01_lookup_first_hit",
    "Verif.ChainMap.C01_lookup_keyError",
    "Verif.ChainMap.C01_contains_iff_lookup"
   ],
   "note": ""
  },
  {
   "property": "C02",
   "status": "proved",
   "theorems": [
    "Verif.ChainMap.C02_iter_each_key_once",
    "Verif.ChainMap.C02_iter_first_seen_order",
    "Verif.ChainMap.C02_len",
    "Verif.ChainMap.C02_reversed_keys",
    "Verif.ChainMap.C02_merged"
   ],
   "note": ""
  },
  {
   "property": "C03",
   "status": "proved",
   "theorems": [
    "Verif.ChainMap.C03_flattened_same_lookup",
    "Verif.ChainMap.C03_flattened_same_bindings"
   ],
   "note": ""
  },
  {
   "property": "C04",
   "status": "proved",
   "theorems": [
    "Verif.ChainMap.C04_child_scoping",
    "Verif.ChainMap.C04_child_cases",
    "Verif.ChainMap.C04_child_no_args",
    "Verif.ChainMap.C04_nested_children",
    "Verif.ChainMap.C04_others_isolated"
   ],
   "note": ""
  },
  {
   "property": "C05",
   "status": "proved",
   "theorems": [
    "Verif.ChainMap.C05_prepend_append",
    "Verif.ChainMap.C05_prepend_append_binds"
   ],
   "note": ""
  },
  {
   "property": "C06",
   "status": "proved",
   "theorems": [
    "Verif.Registry.C06_last_mutation_wins",
    "Verif.Registry.C06_untouched_key_unchanged",
    "Verif.Registry.C06_initial_content",
    "Verif.Registry.C06_spellings_identified",
    "Verif.Registry.C06_delete",
    "Verif.Registry.C06_iteration"
   ],
   "note": ""
  },
  {
   "property": "C07",
   "status": "proved",
   "theorems": [
    "Verif.Registry.C07_register_visible",
    "Verif.Registry.C07_history_last_wins",
    "Verif.Registry.C07_history_untouched"
   ],
   "note": ""
  },
  {
   "property": "C08",
   "status": "partial",
   "theorems": [
    "Verif.Registry.C08_unregister_atomic_violated",
    "Verif.Registry.C08_unregister_diamond_violated",
    "Verif.Registry.C08_unregister_absent_partial",
    "Verif.Registry.C08_unregister_all_partial",
    "Verif.Registry.C08_unregister_after_registers_partial"
   ],
   "note": "The code violates it: unregistering fails midway when an ancestor lacks the key or is reached twice through a diamond. Negation proved with witnesses; the success case is proved as _partial."
  },
  {
   "property": "C09",
   "status": "proved",
   "theorems": [
    "Verif.Mro.C09_mro_sound"
   ],
   "note": ""
  },
  {
   "property": "C10",
   "status": "proved",
   "theorems": [
    "Verif.Mro.C10_mro_fails_iff_inconsistent"
   ],
   "note": ""
  },
  {
   "property": "C11",
   "status": "proved",
   "theorems": [
    "Verif.Mro.C11_gcs_first_common",
    "Verif.Mro.C11_gcs_none"
   ],
   "note": ""
  },
  {
   "property": "C12",
   "status": "proved",
   "theorems": [
    "Verif.Topo.C12_layers_sound",
    "Verif.Topo.C12_layers_complete"
   ],
   "note": ""
  },
  {
   "property": "C13",
   "status": "proved",
   "theorems": [
    "Verif.Topo.C13_fails_iff_cyclic"
   ],
   "note": ""
  },
  {
   "property": "C14",
   "status": "proved",
   "theorems": [
    "Verif.Topo.C14_call_order",
    "Verif.Topo.C14_call_order_cyclic",
    "Verif.Topo.C14_before_cycle"
   ],
   "note": ""
  },
  {
   "property": "C15",
   "status": "proved",
   "theorems": [
    "Verif.Doc.C15_grouper"
   ],
   "note": ""
  },
  {
   "property": "C16",
   "status": "proved",
   "theorems": [
    "Verif.Brackets.C16_find_brackets_sound",
    "Verif.Brackets.C16_content"
   ],
   "note": ""
  },
  {
   "property": "C17",
   "status": "proved",
   "theorems": [
    "Verif.Brackets.C17_find_brackets_fails_iff",
    "Verif.Brackets.C17_unknown_bracket",
    "Verif.Brackets.C17_find_closing_iff",
    "Verif.Brackets.C17_find_closing_fails_iff"
   ],
   "note": ""
  },
  {
   "property": "C18",
   "status": "partial",
   "theorems": [
    "Verif.Doc.C18_descendant_violated",
    "Verif.Doc.C18_descendant_partial",
    "Verif.Doc.C18_descendant_truthy_partial",
    "Verif.Doc.C18_empty_path"
   ],
   "note": "The code violates the 'None when absent' half: a falsy value met before the end of the path is returned. Negation proved; the reached-value half and the exact result otherwise are proved as _partial."
  },
  {
   "property": "C19",
   "status": "partial",
   "theorems": [
    "Verif.Doc.C19_dotted_partial",
    "Verif.Doc.C19_indexed_violated",
    "Verif.Doc.C19_no_index_partial"
   ],
   "note": "Dotted names proved (_partial); the indexed form is violated by the code (indices stay strings), negation proved."
  },
  {
   "property": "C20",
   "status": "proved",
   "theorems": [
    "Verif.Doc.C20_but",
    "Verif.Doc.C20_identity",
    "Verif.Doc.C20_argument_untouched"
   ],
   "note": ""
  },
  {
   "property": "C21",
   "status": "partial",
   "theorems": [
    "Verif.Doc.C21_only_violated",
    "Verif.Doc.C21_only_partial"
   ],
   "note": "The code violates it: only= keeps every key (or raises TypeError when recursive). Negation proved; the exact behaviour is _partial."
  },
  {
   "property": "C22",
   "status": "partial",
   "theorems": [
    "Verif.Doc.C22_leaves_complete",
    "Verif.Doc.C22_flatten_default_partial",
    "Verif.Doc.C22_flatten_separator_violated",
    "Verif.Doc.C22_flatten_partial"
   ],
   "note": "Holds for the default separator (_partial); violated for every other separator (negation proved for all of them); leaves, order and values proved for every separator."
  },
  {
   "property": "C23",
   "status": "proved",
   "theorems": [
    "Verif.Counter.C23_distinct",
    "Verif.Counter.C23_quiet",
    "Verif.Counter.C23_range",
    "Verif.Counter.C23_no_deadlock",
    "Verif.Counter.C23_real_time"
   ],
   "note": ""
  },
  {
   "property": "C24",
   "status": "proved",
   "theorems": [
    "Verif.Blocks.C24_working_directory",
    "Verif.Blocks.C24_refused",
    "Verif.Blocks.C24_gone",
    "Verif.Blocks.C24_removed",
    "Verif.Blocks.C24_nested"
   ],
   "note": ""
  },
  {
   "property": "C25",
   "status": "partial",
   "theorems": [
    "Verif.Blocks.C25_casted_as_violated",
    "Verif.Blocks.C25_casted_as_partial"
   ],
   "note": "The code violates it when the body raises: the class is not restored. Negation proved; normal exit and refusal are _partial."
  },
  {
   "property": "C26",
   "status": "proved",
   "theorems": [
    "Verif.Strings.C26_shorten"
   ],
   "note": ""
  },
  {
   "property": "C27",
   "status": "proved",
   "theorems": [
    "Verif.Strings.C27_no_newline",
    "Verif.Strings.C27_identity",
    "Verif.Strings.C27_injective"
   ],
   "note": ""
  },
  {
   "property": "C28",
   "status": "proved",
   "theorems": [
    "Verif.Strings.C28_absent",
    "Verif.Strings.C28_last_occurrence",
    "Verif.Strings.C28_once",
    "Verif.Strings.C28_more",
    "Verif.Strings.C28_empty"
   ],
   "note": ""
  },
  {
   "property": "C29",
   "status": "proved",
   "theorems": [
    "Verif.Strings.C29_split",
    "Verif.Strings.C29_strip"
   ],
   "note": ""
  },
  {
   "property": "C30",
   "status": "proved",
   "theorems": [
    "Verif.Strings.C30_simultaneous",
    "Verif.Strings.C30_unchanged",
    "Verif.Strings.C30_swap",
    "Verif.Strings.C30_empty"
   ],
   "note": ""
  },
  {
   "property": "C31",
   "status": "proved",
   "theorems": [
    "Verif.Decor.C31_elementwise",
    "Verif.Decor.C31_flatten",
    "Verif.Decor.C31_zipped",
    "Verif.Decor.C31_broadcast",
    "Verif.Decor.C31_mismatch",
    "Verif.Decor.C31_scalar",
    "Verif.Decor.C31_exception"
   ],
   "note": ""
  },
  {
   "property": "C32",
   "status": "proved",
   "theorems": [
    "Verif.Decor.C32_stable",
    "Verif.Decor.C32_runs_once",
    "Verif.Decor.C32_fresh_after_reset"
   ],
   "note": ""
  },
  {
   "property": "C33",
   "status": "proved",
   "theorems": [
    "Verif.Names.C33_last_part",
    "Verif.Names.C33_idempotent",
    "Verif.Names.C33_identity",
    "Verif.Names.C33_characters"
   ],
   "note": ""
  },
  {
   "property": "C34",
   "status": "partial",
   "theorems": [
    "Verif.Names.C34_identifier_chars_partial",
    "Verif.Names.C34_identifier_chars_violated"
   ],
   "note": "The code violates it: the regular expression range A-z lets [ \\\\ ] ^ and the back quote through. Negation proved; the exact set of characters that can remain is proved."
  },
  {
   "property": "C35",
   "status": "proved",
   "theorems": [
    "Verif.Uri.C35_cases",
    "Verif.Uri.C35_idempotent",
    "Verif.Uri.C35_one_hash"
   ],
   "note": ""
  },
  {
   "property": "C36",
   "status": "partial",
   "theorems": [
    "Verif.Uri.C36_reaches",
    "Verif.Uri.C36_reaches_encoded",
    "Verif.Uri.C36_only_invalid",
    "Verif.Uri.C36_unresolvable_partial",
    "Verif.Uri.C36_unresolvable_violated"
   ],
   "note": "Reaching every node, and no exception other than InvalidValue, are proved in full. 'Addresses nothing -> InvalidValue' is violated for tokens Python reads as a negative or non-canonical integer (negation proved) and proved for all other tokens."
  },
  {
   "property": "C37",
   "status": "partial",
   "theorems": [
    "Verif.Uri.C37_current_partial",
    "Verif.Uri.C37_never_foreign",
    "Verif.Uri.C37_current_violated"
   ],
   "note": "The code violates it (lru_cache on resolve_doc is never invalidated): replaced and removed documents are still returned. Negation proved; proved when nothing about the document changed since its URI was first resolved, and that no foreign document is ever returned."
  },
  {
   "property": "C38",
   "status": "proved",
   "theorems": [
    "Verif.Names.C38_longest",
    "Verif.Names.C38_covers",
    "Verif.Names.C38_nothing"
   ],
   "note": ""
  },
  {
   "property": "C39",
   "status": "partial",
   "theorems": [
    "Verif.Names.C39_prefix_partial",
    "Verif.Names.C39_longest_violated",
    "Verif.Names.C39_document"
   ],
   "note": "The code violates it (greatest name, not longest URI). Negation proved; found-whenever-exists proved, and longest when names extend each other as URIs do."
  },
  {
   "property": "C40",
   "status": "proved",
   "theorems": [
    "Verif.Names.C40_first_wins"
   ],
   "note": ""
  },
  {
   "property": "C41",
   "status": "partial",
   "theorems": [
    "Verif.Names.C41_current_partial",
    "Verif.Names.C41_current_violated"
   ],
   "note": "The code violates it (lru_cache on get_id_cname is not invalidated by add). Negation proved; proved for identifiers first asked after the last change."
  },
  {
   "property": "C42",
   "status": "proved",
   "theorems": [
    "Verif.Names.C42_names",
    "Verif.Names.C42_distinct"
   ],
   "note": ""
  },
  {
   "property": "C43",
   "status": "proved",
   "theorems": [
    "Verif.Query.C43_partition",
    "Verif.Query.C43_same_exception"
   ],
   "note": "Full claim: partition by position, and the same exception on both sides."
  },
  {
   "property": "C44",
   "status": "proved",
   "theorems": [
    "Verif.Query.C44_subsequence",
    "Verif.Query.C44_idempotent",
    "Verif.Query.C44_chained"
   ],
   "note": "Subsequence in full; idempotence and composition for criteria evaluated as documented (Plain), which C45 shows to be necessary."
  },
  {
   "property": "C45",
   "status": "partial",
   "theorems": [
    "Verif.Query.C45_filter_partial",
    "Verif.Query.C45_filter_violated"
   ],
   "note": "Proved for attributes not below an empty value (_partial); the code violates it otherwise: the empty value met on the way counts as the attribute. Negation proved."
  },
  {
   "property": "C46",
   "status": "partial",
   "theorems": [
    "Verif.Query.C46_any_of_partial",
    "Verif.Query.C46_any_of_violated"
   ],
   "note": "Proved when the attributes of the criteria exist (_partial); the code violates it otherwise: a missing attribute ends the loop. Negation proved."
  },
  {
   "property": "C47",
   "status": "proved",
   "theorems": [
    "Verif.Query.C47_not_criterion",
    "Verif.Query.C47_complement"
   ],
   "note": ""
  },
  {
   "property": "C48",
   "status": "partial",
   "theorems": [
    "Verif.Query.C48_stateless_partial",
    "Verif.Query.C48_stateless_violated"
   ],
   "note": "Proved for criteria that do not descend into mappings (_partial); the code violates it otherwise: a filter rewrites its own criteria. Negation proved."
  },
  {
   "property": "C49",
   "status": "proved",
   "theorems": [
    "Verif.Query.C49_split",
    "Verif.Query.C49_components"
   ],
   "note": ""
  },
  {
   "property": "C50",
   "status": "partial",
   "theorems": [
    "Verif.Query.C50_distinct_partial",
    "Verif.Query.C50_distinct_violated",
    "Verif.Query.C50_distinct_unhashable"
   ],
   "note": "Proved for filters over objects with a hash (_partial); violated by a distinct query read directly; unhashable objects raise TypeError (proved)."
  },
  {
   "property": "C51",
   "status": "proved",
   "theorems": [
    "Verif.Query.C51_result_read",
    "Verif.Query.C51_read_result",
    "Verif.Query.C51_union",
    "Verif.Query.C51_union_members",
    "Verif.Query.C51_restrict"
   ],
   "note": ""
  },
  {
   "property": "C52",
   "status": "partial",
   "theorems": [
    "Verif.Query.C52_restrict_unchanged",
    "Verif.Query.C52_union_unchanged_partial",
    "Verif.Query.C52_union_receiver_violated"
   ],
   "note": "intersection and difference in full; union leaves all other queries unchanged (_partial) but extends the result of the receiver (negation proved)."
  },
  {
   "property": "C53",
   "status": "proved",
   "theorems": [
    "Verif.Query.C53_get",
    "Verif.Query.C53_next",
    "Verif.Query.C53_next_none"
   ],
   "note": ""
  },
  {
   "property": "C54",
   "status": "partial",
   "theorems": [
    "Verif.Query.C54_first_item",
    "Verif.Query.C54_last_always_fails",
    "Verif.Query.C54_last_violated"
   ],
   "note": "first, q[k] and len proved in full; last raises AssertionError on every query (proved, and negation)."
  },
  {
   "property": "C55",
   "status": "partial",
   "theorems": [
    "Verif.Query.C55_reverse_partial",
    "Verif.Query.C55_order_by_fails",
    "Verif.Query.C55_order_by_violated"
   ],
   "note": "reverse() proved (_partial); order_by raises TypeError on the first reading of every query, then returns the objects unsorted. Negation proved."
  },
  {
   "property": "C56",
   "status": "proved",
   "theorems": [
    "Verif.Types.C56_boolean",
    "Verif.Types.C56_idempotent_and_case"
   ],
   "note": ""
  },
  {
   "property": "C57",
   "status": "partial",
   "theorems": [
    "Verif.Types.C57_members_only",
    "Verif.Types.C57_self_and_index_partial",
    "Verif.Types.C57_index_violated",
    "Verif.Types.C57_none_violated",
    "Verif.Types.C57_others"
   ],
   "note": "String and integer members, indices below the number of members and above it are covered; the index equal to that number raises IndexError and None is never converted (both proved)."
  },
  {
   "property": "C58",
   "status": "proved",
   "theorems": [
    "Verif.Types.C58_included",
    "Verif.Types.C58_exclusion_wins"
   ],
   "note": ""
  },
  {
   "property": "C59",
   "status": "proved",
   "theorems": [
    "Verif.Types.C59_array"
   ],
   "note": ""
  },
  {
   "property": "C60",
   "status": "partial",
   "theorems": [
    "Verif.Types.C60_limits_not_enforced",
    "Verif.Types.C60_limits_violated",
    "Verif.Types.C60_other_keywords_partial"
   ],
   "note": "The property is false: the three keywords are dropped from the schema given to the validator and the duplicate error is never raised."
  },
  {
   "property": "C61",
   "status": "partial",
   "theorems": [
    "Verif.Types.C61_round_trip_partial",
    "Verif.Types.C61_empty_string_violated"
   ],
   "note": "Proved for a one-character delimiter and a non-empty joined text; the list of one empty string is lost (proved)."
  },
  {
   "property": "C62",
   "status": "partial",
   "theorems": [
    "Verif.Types.C62_deserialize_partial",
    "Verif.Types.C62_falsy_default_violated",
    "Verif.Nested.C62_nested"
   ],
   "note": "Exact result proved; a default that is not truthy (0, False, empty) gives None in deserialisation without evaluation (proved), so the full statement fails."
  },
  {
   "property": "C63",
   "status": "proved",
   "theorems": [
    "Verif.Types.C63_validate"
   ],
   "note": ""
  },
  {
   "property": "C64",
   "status": "partial",
   "theorems": [
    "Verif.Types.C64_excludes_only_partial",
    "Verif.Types.C64_exact_partial",
    "Verif.Types.C64_required_violated",
    "Verif.Types.C64_values"
   ],
   "note": "Proved for properties that are not required; a required property is printed, as None, even when excluded (proved)."
  },
  {
   "property": "C65",
   "status": "partial",
   "theorems": [
    "Verif.Types.C65_history_partial",
    "Verif.Types.C65_explicit_partial",
    "Verif.Types.C65_history_violated"
   ],
   "note": "Proved for histories without a call that leaves out read-only properties and gives no excludes; such a call changes every later one (proved)."
  },
  {
   "property": "C66",
   "status": "partial",
   "theorems": [
    "Verif.Obj.C66_read_partial",
    "Verif.Obj.C66_others_partial",
    "Verif.Obj.C66_none_violated",
    "Verif.Obj.C66_additional_violated"
   ],
   "note": "Proved for every history, eager and lazy, for a set of declared properties whose conversions behave (Spec Good). Violated for additional properties (never converted when eager) and for None with a default (None when lazy). Not covered: relationships and dotted keys, setters."
  },
  {
   "property": "C67",
   "status": "partial",
   "theorems": [
    "Verif.Obj.C67_readonly",
    "Verif.Obj.C67_readonly_unchanged",
    "Verif.Obj.C67_required_attribute",
    "Verif.Obj.C67_required_translated",
    "Verif.Obj.C67_required_item_violated"
   ],
   "note": "Read-only: proved in every state. Required: proved for attributes and names that are not identifiers; violated by del obj[k] for ordinary names, which has no check."
  },
  {
   "property": "C68",
   "status": "partial",
   "theorems": [
    "Verif.Obj.C68_current_partial",
    "Verif.Obj.C68_reassigned_violated",
    "Verif.Obj.C68_equal_violated",
    "Verif.Obj.C68_lost_violated"
   ],
   "note": "Proved for every acyclic class and history when conversions and getters of the set succeed and equal values are the same. Violated otherwise: a failed reassignment of the same template leaves a stale value; 1 and True are taken for the same input; a plain property with dependencies can read as None."
  },
  {
   "property": "C69",
   "status": "partial",
   "theorems": [
    "Verif.Obj.C69_alias",
    "Verif.Obj.C69_negated_write",
    "Verif.Obj.C69_negated_read_violated",
    "Verif.Obj.C69_negated_violated"
   ],
   "note": "Aliases and writes to negated aliases: proved in every state. Violated: reading a negated alias gives the value of the property itself, in every state."
  },
  {
   "property": "C70",
   "status": "partial",
   "theorems": [
    "Verif.Arr.C70_aligned",
    "Verif.Arr.C70_converted_partial",
    "Verif.Arr.C70_refused_violated",
    "Verif.Arr.C70_types_violated"
   ],
   "note": "Lengths: proved for every history, whatever fails. Values: proved for one item type with idempotent conversion when assigned values are of the item type; the claim as stated is false after a refused assignment (raw item replaced, old conversion kept) and for arrays with a type per place (shifted items keep the conversion of the former type)."
  },
  {
   "property": "C71",
   "status": "partial",
   "theorems": [
    "Verif.Arr.C71_lazy_violated",
    "Verif.Arr.C71_lazy_partial",
    "Verif.Arr.C71_eager"
   ],
   "note": "False as stated: a lazily loaded array that was read keeps the old conversion after an assignment. The exact result of the read is proved, and the claim for eager arrays."
  },
  {
   "property": "C72",
   "status": "proved",
   "theorems": [
    "Verif.Repo.C72_history"
   ],
   "note": "Histories of commits on a repository created empty; see C112 for an initial content and C113 for keys that change in between."
  },
  {
   "property": "C73",
   "status": "proved",
   "theorems": [
    "Verif.Repo.C73_fresh",
    "Verif.Repo.C73_succeeds"
   ],
   "note": "In every state, not only reachable ones; any number of primary keys."
  },
  {
   "property": "C74",
   "status": "proved",
   "theorems": [
    "Verif.Session.C74_options",
    "Verif.Session.C74_info",
    "Verif.Session.C74_failure"
   ],
   "note": "Any construction arguments, any history of configure calls, any call arguments; dictionary objects are heap addresses, so that 'never alters' covers the info objects."
  },
  {
   "property": "C75",
   "status": "proved",
   "theorems": [
    "Verif.Session.C75_sameSession",
    "Verif.Session.C75_afterRemove",
    "Verif.Session.C75_argumentsRefused"
   ],
   "note": "Histories of calls, removes and configures over any scope type; registries of sqlalchemy modelled as one slot per scope. The refusal is a NameError, not the documented InvalidRequestError."
  },
  {
   "property": "C76",
   "status": "partial",
   "theorems": [
    "Verif.Builder.C76_terminates",
    "Verif.Builder.C76_once",
    "Verif.Builder.C76_same_partial",
    "Verif.Builder.C76_upper_no_clash",
    "Verif.Builder.C76_same_violated",
    "Verif.Builder.C76_proxies",
    "Verif.Builder.C76_during_partial"
   ],
   "note": "Termination, at most one successful build per identifier, and resolution of the proxies hold for all documents and histories. 'Every later request returns the same class' fails when a `$ref` with sibling keywords is built under an identifier whose underscored spelling is another identifier (type_protocol.py 152 registers over it); it holds otherwise, in particular for identifiers with an upper case letter or hyphen. A request during construction raises KeyError when the schema under construction has no `type`. Class creation failures other than those of sub-requests are an arbitrary parameter."
  },
  {
   "property": "C77",
   "status": "partial",
   "theorems": [
    "Verif.Builder.C77_unknown_partial",
    "Verif.Builder.C77_stuck_partial",
    "Verif.Builder.C77_retry_violated"
   ],
   "note": "Violated: _on_construction keeps the entry of a failed build, so every later request returns a proxy that resolves to nothing (or raises KeyError). It holds for identifiers unknown to every document."
  },
  {
   "property": "C78",
   "status": "partial",
   "theorems": [
    "Verif.Files.C78_write",
    "Verif.Files.C78_writeBytes",
    "Verif.Files.C78_noRewrite",
    "Verif.Files.C78_append",
    "Verif.Files.C78_appendBytes",
    "Verif.Files.C78_history",
    "Verif.Files.C78_save",
    "Verif.Files.C78_succeeds",
    "Verif.Files.C78_utf8",
    "Verif.Files.C78_charset_violated",
    "Verif.Files.C78_charset_partial",
    "Verif.Files.C78_appendMark_violated"
   ],
   "note": "Proved in the saver's own encoding, for UTF-8 and any encoding that is lossless and appends. Violated with a charset option (content compared in the saver's encoding, so the file may be left in the wrong one) and for appends in encodings with a byte order mark."
  },
  {
   "property": "C79",
   "status": "proved",
   "theorems": [
    "Verif.Xml.C79_children",
    "Verif.Xml.C79_parse"
   ],
   "note": "Events instead of XML text; options at their defaults."
  },
  {
   "property": "C80",
   "status": "proved",
   "theorems": [
    "Verif.Xml.C80_roundtrip"
   ],
   "note": "At event level, with and without pretty printing (white space as indentation and end of line), with forced lists."
  },
  {
   "property": "C81",
   "status": "partial",
   "theorems": [
    "Verif.Xml.C81_one_root",
    "Verif.Xml.C81_error_partial",
    "Verif.Xml.C81_error_violated"
   ],
   "note": "The only-if direction is proved. The exception is not always ValueError: when the first of several items cannot be written its TypeError comes first; an empty list under the root gives a document without root."
  },
  {
   "property": "C82",
   "status": "partial",
   "theorems": [
    "Verif.ChainMap.C82_flattened_stays_current_violated",
    "Verif.ChainMap.C82_flattened_current_before_first_read_partial"
   ],
   "note": "The code violates it: the flattened list is memoised. Negation proved; freshness before the first read is _partial."
  },
  {
   "property": "C83",
   "status": "partial",
   "theorems": [
    "Verif.Brackets.C83_is_in_violated",
    "Verif.Brackets.C83_is_in_means_before_partial"
   ],
   "note": "The code violates it: the test says 'lies before', which is proved as _partial; negation proved."
  },
  {
   "property": "C84",
   "status": "partial",
   "theorems": [
    "Verif.Doc.C84_list_violated",
    "Verif.Doc.C84_list_partial"
   ],
   "note": "The code violates it: any non-empty list raises TypeError. Negation proved; exact behaviour _partial."
  },
  {
   "property": "C85",
   "status": "partial",
   "theorems": [
    "Verif.Decor.C85_function_partial",
    "Verif.Decor.C85_method_partial",
    "Verif.Decor.C85_empty_instance_violated",
    "Verif.Decor.C85_switched_off"
   ],
   "note": "Proved for plain functions and for instances that count as true (_partial); the code violates it for an instance that counts as false (an empty collection): the argument is not checked. Negation proved."
  },
  {
   "property": "C86",
   "status": "proved",
   "theorems": [
    "Verif.Decor.C86_assert_prop"
   ],
   "note": ""
  },
  {
   "property": "C87",
   "status": "proved",
   "theorems": [
    "Verif.Decor.C87_transparent",
    "Verif.Decor.C87_separate",
    "Verif.Decor.C87_failures_run_again",
    "Verif.Decor.C87_remembered"
   ],
   "note": ""
  },
  {
   "property": "C88",
   "status": "partial",
   "theorems": [
    "Verif.Names.C88_documents_partial",
    "Verif.Names.C88_documents_violated"
   ],
   "note": "The code violates it: the first loaded document that covers the name is taken. Negation proved; found-whenever-exists proved."
  },
  {
   "property": "C89",
   "status": "proved",
   "theorems": [
    "Verif.Names.C89_round_trip",
    "Verif.Names.C89_namespace_itself",
    "Verif.Names.C89_path_short",
    "Verif.Names.C89_path_deep",
    "Verif.Names.C89_loaded"
   ],
   "note": ""
  },
  {
   "property": "C90",
   "status": "partial",
   "theorems": [
    "Verif.Names.C90_set_current_partial",
    "Verif.Names.C90_set_current_violated"
   ],
   "note": "The code violates it: the prefix test has no dot. Negation proved; the rest is proved, and the full claim when registered prefixes are dotted prefixes."
  },
  {
   "property": "C91",
   "status": "partial",
   "theorems": [
    "Verif.Names.C91_relative_partial",
    "Verif.Names.C91_relative_violated"
   ],
   "note": "The code violates it: a name that merely begins with the letters of the current namespace is reported as the current namespace itself. Negation proved; the two other cases are proved."
  },
  {
   "property": "C92",
   "status": "proved",
   "theorems": [
    "Verif.Names.C92_leading_dots",
    "Verif.Names.C92_absolute"
   ],
   "note": ""
  },
  {
   "property": "C93",
   "status": "proved",
   "theorems": [
    "Verif.Names.C93_dotted_path",
    "Verif.Names.C93_distinct",
    "Verif.Names.C93_version"
   ],
   "note": ""
  },
  {
   "property": "C94",
   "status": "partial",
   "theorems": [
    "Verif.Names.C94_fragment_partial",
    "Verif.Names.C94_fragment_violated"
   ],
   "note": "The code violates it: no dot is put between the two. Negation proved, with the exact result."
  },
  {
   "property": "C95",
   "status": "proved",
   "theorems": [
    "Verif.Uri.C95_resolve_uri"
   ],
   "note": ""
  },
  {
   "property": "C96",
   "status": "proved",
   "theorems": [
    "Verif.Names.C96_clean_for_uri",
    "Verif.Names.C96_stable"
   ],
   "note": "Full claim."
  },
  {
   "property": "C97",
   "status": "proved",
   "theorems": [
    "Verif.Names.C97_default",
    "Verif.Names.C97_add"
   ],
   "note": "Full claim, with an explicit name."
  },
  {
   "property": "C98",
   "status": "proved",
   "theorems": [
    "Verif.Names.C98_relative_identifiers"
   ],
   "note": "Full claim, on the step that makes an identifier relative (current URI with a non-empty document part)."
  },
  {
   "property": "C99",
   "status": "partial",
   "theorems": [
    "Verif.Query.C99_ignore_case_partial",
    "Verif.Query.C99_iendswith_violated"
   ],
   "note": "Proved for three operators and texts without a final newline (_partial), from an explicit assumption on the regular-expression engine; iendswith is violated (negation proved)."
  },
  {
   "property": "C100",
   "status": "partial",
   "theorems": [
    "Verif.Query.C100_chain_partial",
    "Verif.Query.C100_refine_after_read_violated",
    "Verif.Query.C100_exceptions"
   ],
   "note": "Proved when only the last query is read (_partial); violated when an intermediate query was read: its generator is exhausted."
  },
  {
   "property": "C101",
   "status": "partial",
   "theorems": [
    "Verif.Query.C101_size",
    "Verif.Query.C101_size_alone_violated",
    "Verif.Query.C101_intersects"
   ],
   "note": "The comparison forms and intersects are proved; attr__size=n is violated: it holds of every non-empty list."
  },
  {
   "property": "C102",
   "status": "partial",
   "theorems": [
    "Verif.Types.C102_defaults_dropped_partial",
    "Verif.Types.C102_plain_object_violated",
    "Verif.Types.C102_negated_violated"
   ],
   "note": "Proved for types built by the object protocol, negated aliases holding numbers included; plain Object types raise AttributeError and texts under a negated alias raise TypeError (both proved)."
  },
  {
   "property": "C103",
   "status": "partial",
   "theorems": [
    "Verif.Session.C103_sharedInfo_violated",
    "Verif.Session.C103_sharedInfo_partial"
   ],
   "note": "Violated when the call gives no info: the factory's own dictionary object is handed to every session. Holds when info is given at both levels."
  },
  {
   "property": "C104",
   "status": "partial",
   "theorems": [
    "Verif.Session.C104_configure_violated",
    "Verif.Session.C104_configure_partial"
   ],
   "note": "Violated when the scope already has a session: the warning uses a missing attribute, AttributeError is raised and the configuration is not changed. Otherwise the options reach every later session."
  },
  {
   "property": "C105",
   "status": "partial",
   "theorems": [
    "Verif.Files.C105_failedWrite_violated",
    "Verif.Files.C105_failedWrite_partial",
    "Verif.Files.C105_refused"
   ],
   "note": "Violated: the file is truncated before the text is encoded (or the encoding looked up), so text that the encoding lacks empties the file."
  },
  {
   "property": "C106",
   "status": "partial",
   "theorems": [
    "Verif.Files.C106_binaryOption_violated",
    "Verif.Files.C106_binaryOption_partial"
   ],
   "note": "Violated: the option is removed before the file is opened, so the attribute decides; bytes are refused with TypeError and an empty file is left. Holds for savers made with binary=True."
  },
  {
   "property": "C107",
   "status": "partial",
   "theorems": [
    "Verif.Xml.C107_pieces_partial",
    "Verif.Xml.C107_pieces_violated"
   ],
   "note": "Violated: white space at a cut is lost, and with attributes or children only two pieces survive, the second as #tail."
  },
  {
   "property": "C108",
   "status": "partial",
   "theorems": [
    "Verif.Xml.C108_serialize_violated",
    "Verif.Xml.C108_without_force_list_partial"
   ],
   "note": "Violated for every value: unparse hands force_list to _emit, which has no such parameter."
  },
  {
   "property": "C109",
   "status": "partial",
   "theorems": [
    "Verif.Xml.C109_root_partial",
    "Verif.Xml.C109_root_violated"
   ],
   "note": "Violated: the tag of the first document is kept, documents with another root then raise KeyError."
  },
  {
   "property": "C110",
   "status": "partial",
   "theorems": [
    "Verif.Xml.C110_tail_partial",
    "Verif.Xml.C110_tail_violated"
   ],
   "note": "Proved with a text before the children, at least one child and no pretty printing; violated otherwise."
  },
  {
   "property": "C111",
   "status": "partial",
   "theorems": [
    "Verif.Repo.C111_single_violated"
   ],
   "note": "Violated: every commit raises TypeError, the content (a list) is called."
  },
  {
   "property": "C112",
   "status": "partial",
   "theorems": [
    "Verif.Repo.C112_initial_partial",
    "Verif.Repo.C112_initial_violated"
   ],
   "note": "Violated: initial objects are not entered in the catalogue, so they are not found until committed again. Uniqueness and 'last committed' hold."
  },
  {
   "property": "C113",
   "status": "partial",
   "theorems": [
    "Verif.Repo.C113_commit_partial",
    "Verif.Repo.C113_changed_violated"
   ],
   "note": "Violated: the entry under the old identity stays. Proved: the object is found under its current identity after a successful commit, in every state."
  },
  {
   "property": "C114",
   "status": "partial",
   "theorems": [
    "Verif.Arr.C114_append_violated",
    "Verif.Arr.C114_append_partial"
   ],
   "note": "False as stated: InvalidValue is raised, after the item was appended, unless the item is a list or a text. The exact outcome is proved."
  },
  {
   "property": "C115",
   "status": "partial",
   "theorems": [
    "Verif.Obj.C115_deleted_violated",
    "Verif.Obj.C115_missing_violated"
   ],
   "note": "Violated in every state: assigning a deleted property raises KeyError."
  },
  {
   "property": "C116",
   "status": "partial",
   "theorems": [
    "Verif.Obj.C116_own_cache_partial",
    "Verif.Obj.C116_shared_cache_violated"
   ],
   "note": "Proved with a cache filled by the class alone, after any lookups. Violated when the base class has been used before: its dictionary is inherited."
  },
  {
   "property": "C117",
   "status": "partial",
   "theorems": [
    "Verif.Obj.C117_keys_partial",
    "Verif.Obj.C117_phantom_violated"
   ],
   "note": "Proved for every history of reads and assignments when what is declared to depend on something is in the data. Violated otherwise: invalidation enters the name of a missing dependent, whose reading raises KeyError."
  },
  {
   "property": "C118",
   "status": "partial",
   "theorems": [
    "Verif.Classes.C118_constraints_inherited_partial",
    "Verif.Classes.C118_ordinary_class_violated"
   ],
   "note": "Proved for every program in which ordinary Python classes have at most one base made from schemas. Violated for an ordinary class with two such bases: only the constraints of the first one in resolution order are kept."
  },
  {
   "property": "C119",
   "status": "partial",
   "theorems": [
    "Verif.Classes.C119_attribute_item_agree_partial",
    "Verif.Classes.C119_single_inheritance",
    "Verif.Classes.C119_single_declaration",
    "Verif.Classes.C119_diamond_violated"
   ],
   "note": "Proved when no ancestor finds different declarations in its bases, in particular with single inheritance or a single declaration. Violated on a diamond: attributes follow the resolution order of Python, items the bases depth first. Ordinary classes with two protocol bases excluded; descriptors hidden by methods of the same name (783) not modelled."
  },
  {
   "property": "C120",
   "status": "partial",
   "theorems": [
    "Verif.Classes.C120_own_accessor_partial",
    "Verif.Classes.C120_base_accessor_partial",
    "Verif.Classes.C120_inherited_ignored_partial",
    "Verif.Classes.C120_override_violated",
    "Verif.Classes.C120_extended_accessor_violated"
   ],
   "note": "Proved for properties the class declares, with accessors of its own or of its Python bases, when no property has the name of an accessor. Violated for inherited properties (the method is ignored: the code meant for them is dead) and for accessors inherited through extends."
  },
  {
   "property": "C121",
   "status": "partial",
   "theorems": [
    "Verif.Classes.C121_inherited_default_partial",
    "Verif.Classes.C121_local_default_violated"
   ],
   "note": "Proved for inherited properties, under distinct Python names and identifiers. Violated for properties declared in the same class: the type is already registered, so the redefinition is lost although the property is listed among those with a default. Only attributes, not schema keywords, are covered by the positive theorem."
  },
  {
   "property": "C122",
   "status": "partial",
   "theorems": [
    "Verif.Classes.C122_declared_type_partial",
    "Verif.Classes.C122_same_identifier_partial",
    "Verif.Classes.C122_redefinition_violated"
   ],
   "note": "Proved when no earlier definition, even a failed one, uses the same identifier. Violated for a class defined again under the same identifier: the types of the first definition are kept."
  },
  {
   "property": "C123",
   "status": "partial",
   "theorems": [
    "Verif.Classes.C123_dependencies_inherited_partial",
    "Verif.Classes.C123_identity_keys_violated"
   ],
   "note": "Proved for every property but identityKeys, when ordinary classes have at most one protocol base. Violated for identityKeys, whose dependencies are overwritten by the primary keys."
  },
  {
   "property": "C124",
   "status": "partial",
   "theorems": [
    "Verif.Shared.C124_class_after_instances_partial",
    "Verif.Shared.C124_unchanged_partial",
    "Verif.Shared.C124_order_sound_partial",
    "Verif.Shared.C124_instances_interfere_violated",
    "Verif.Shared.C124_self_partial"
   ],
   "note": "Violated: the copy of the dependencies is shallow, so inputs of templates are added to the sets of the class; after one instance another may fail with a cyclic dependency. Proved: the exact effect of any sequence of instances, that nothing changes without such inputs, and that the order respects declared dependencies and inputs."
  },
  {
   "property": "C125",
   "status": "partial",
   "theorems": [
    "Verif.Shared.C125_shared_sets_partial",
    "Verif.Shared.C125_other_type_violated"
   ],
   "note": "Violated: the sets of the class Collection are updated in place; every type has the names given to any type. Proved: the exact contents."
  },
  {
   "property": "C126",
   "status": "proved",
   "theorems": [
    "Verif.Alias.C126_read"
   ],
   "note": "Every class whose names can be told apart and every document that gives no property twice, with whole numbers under negated aliases; texts and booleans under negated aliases are C128 and C131."
  },
  {
   "property": "C127",
   "status": "proved",
   "theorems": [
    "Verif.Alias.C127_order"
   ],
   "note": ""
  },
  {
   "property": "C128",
   "status": "partial",
   "theorems": [
    "Verif.Alias.C128_boolean_violated"
   ],
   "note": "Violated: negation is arithmetic; True becomes -1, which is not a Boolean, and False stays False. Proved for every class, with every configuration of the word lists."
  },
  {
   "property": "C129",
   "status": "partial",
   "theorems": [
    "Verif.Alias.C129_check_partial",
    "Verif.Alias.C129_check_violated"
   ],
   "note": "Proved for documents without negated aliases, when no property has the clean name of another. Violated for negated aliases: validated as they stand and read with the opposite sign."
  },
  {
   "property": "C130",
   "status": "partial",
   "theorems": [
    "Verif.Alias.C130_aliases_partial",
    "Verif.Alias.C130_aliases_violated",
    "Verif.Alias.C130_prefix_violated"
   ],
   "note": "Proved without attribute prefix and without `only`. Violated: an alias asked for with `only` is never written, since its property was dropped before; with a prefix no alias of a primitive property is written."
  },
  {
   "property": "C131",
   "status": "partial",
   "theorems": [
    "Verif.Alias.C131_roundtrip_partial",
    "Verif.Alias.C131_text_violated"
   ],
   "note": "Proved without attribute prefix, for objects with whole numbers or None under properties with negated aliases. Violated: a text under such a property makes serialising raise TypeError."
  },
  {
   "property": "C132",
   "status": "partial",
   "theorems": [
    "Verif.Alias.C132_alias_violated",
    "Verif.Alias.C132_negated_partial"
   ],
   "note": "Violated for plain aliases: the lookup through the aliases is overwritten by the one through the negated aliases, so an alias has the type of an additional property or none. Proved for negated aliases not looked up before."
  },
  {
   "property": "C133",
   "status": "partial",
   "theorems": [
    "Verif.Alias.C133_resolved_partial",
    "Verif.Alias.C133_resolved_violated"
   ],
   "note": "Proved for every history of lookups of names other than negated aliases, while more and more classes are built. Violated: looking up a negated alias caches the stand-in under the name of the property for ever."
  },
  {
   "property": "C134",
   "status": "proved",
   "theorems": [
    "Verif.Equality.C134_equivalence"
   ],
   "note": "Instances whose items have been read, as trees of any depth, with scalars as plain values. That it is an equivalence does not make it a useful one: see C135."
  },
  {
   "property": "C135",
   "status": "partial",
   "theorems": [
    "Verif.Equality.C135_arrays_partial",
    "Verif.Equality.C135_objects_violated",
    "Verif.Equality.C135_empty_violated",
    "Verif.Equality.C135_plain_violated",
    "Verif.Equality.C135_empty_partial"
   ],
   "note": "Proved for arrays of arrays of plain values. Violated for objects: the loop compares the parent with the first key, so an object with properties equals no other object; objects without properties are all equal; an array equals no list."
  },
  {
   "property": "C136",
   "status": "partial",
   "theorems": [
    "Verif.Equality.C136_hash_violated",
    "Verif.Equality.C136_unique_violated"
   ],
   "note": "Violated: __hash__ calls tuple with two arguments and always raises TypeError; an array with uniqueItems holding an instance cannot be validated. Proved: the exact behaviour."
  },
  {
   "property": "C137",
   "status": "partial",
   "theorems": [
    "Verif.Equality.C137_array_partial",
    "Verif.Equality.C137_object_violated"
   ],
   "note": "Proved for arrays, whatever they hold. Violated for every object with properties."
  },
  {
   "property": "C138",
   "status": "partial",
   "theorems": [
    "Verif.Equality.C138_default_array_partial",
    "Verif.Equality.C138_default_object_violated"
   ],
   "note": "Proved for arrays of plain values. Violated for objects with properties: the default is an instance of its own, which equals no other."
  },
  {
   "property": "C139",
   "status": "partial",
   "theorems": [
    "Verif.Copy.C139_independent_partial",
    "Verif.Copy.C139_shared_violated"
   ],
   "note": "Proved, for any interleaving of reads and assignments to any depth, when no item of the object had become an instance at the time of the copy. Violated otherwise: the copy shares the instances."
  },
  {
   "property": "C140",
   "status": "partial",
   "theorems": [
    "Verif.Paths.C140_names_partial",
    "Verif.Paths.C140_shadowed",
    "Verif.Paths.C140_attribute_violated"
   ],
   "note": "Proved for names that are no attributes of the value they are looked up in. Violated otherwise: a property named as a method of mappings gives the method, whatever its value."
  },
  {
   "property": "C141",
   "status": "partial",
   "theorems": [
    "Verif.Paths.C141_missing_partial",
    "Verif.Paths.C141_additional",
    "Verif.Paths.C141_missing_violated",
    "Verif.Paths.C141_errors_partial",
    "Verif.Paths.C141_bracket_violated"
   ],
   "note": "Proved when the value in which the name is missing does not allow additional properties. Violated otherwise: the missing name and all that follows read as None. The only other error is ValueError, for brackets around no number."
  },
  {
   "property": "C142",
   "status": "partial",
   "theorems": [
    "Verif.Paths.C142_index_violated"
   ],
   "note": "Violated for every name with an index: hasattr with a number is a TypeError, which becomes KeyError, so an index reads as KeyError, or as None after a value that is None."
  },
  {
   "property": "C143",
   "status": "partial",
   "theorems": [
    "Verif.Paths.C143_parent_partial",
    "Verif.Paths.C143_leading_violated",
    "Verif.Paths.C143_empty_violated",
    "Verif.Paths.C143_closest_partial"
   ],
   "note": "Proved for an empty part after an object that does not allow additional properties. Violated by a leading dot, after which everything is ignored, and by objects that allow additional properties, where an empty part reads as None."
  },
  {
   "property": "C144",
   "status": "partial",
   "theorems": [
    "Verif.Paths.C144_assign_partial",
    "Verif.Paths.C144_none",
    "Verif.Paths.C144_lost_violated",
    "Verif.Paths.C144_index_violated",
    "Verif.Paths.C144_item_partial"
   ],
   "note": "Proved for names that are no attributes and a last collection that accepts the name; everything that is neither above nor below stays. Violated when a value on the way is None: the assignment is lost without an error. An index may be assigned but is not read back."
  },
  {
   "property": "C145",
   "status": "partial",
   "theorems": [
    "Verif.Paths.C145_resolve_violated"
   ],
   "note": "Violated: the argument is overwritten by the canonical name of the object itself before it is used."
  },
  {
   "property": "C146",
   "status": "partial",
   "theorems": [
    "Verif.Paths.C146_names_partial",
    "Verif.Paths.C146_unnamed_violated"
   ],
   "note": "Proved for instances that all have names without dots. Violated by instances without a name, which count as named None."
  },
  {
   "property": "C147",
   "status": "partial",
   "theorems": [
    "Verif.Validate.C147_accepts_partial",
    "Verif.Validate.C147_reading_partial",
    "Verif.Validate.C147_ref_violated",
    "Verif.Validate.C147_bool_violated",
    "Verif.Validate.C147_text_violated",
    "Verif.Validate.C147_defs_violated",
    "Verif.Validate.C147_nested_violated",
    "Verif.Validate.C147_joined_violated",
    "Verif.Validate.C147_empty_violated"
   ],
   "note": "Proved for schemas with neither types nor references and for every meaning of patterns, when no boolean meets keywords on numbers, no text keywords on arrays, no boolean inside a list or an object is compared, no object has a property named like a definition, and the patterns for names are not empty and mean the same joined by '|'; for all schemas without references the exact reading is proved. Violated: a schema with a reference accepts every value, bounds of numbers apply to booleans, bounds of arrays apply to texts, definitions constrain the properties that have their names, booleans inside lists equal numbers, the empty pattern covers no name, patterns that cannot be joined cover other names. $recursiveRef is not modelled."
  },
  {
   "property": "C148",
   "status": "partial",
   "theorems": [
    "Verif.Validate.C148_types_violated",
    "Verif.Validate.C148_alternatives_violated"
   ],
   "note": "Violated: removing every type from a schema, at any depth, changes no result, and neither does the option with_type. Alternatives by type never exclude each other."
  },
  {
   "property": "C149",
   "status": "partial",
   "theorems": [
    "Verif.Validate.C149_refused_partial",
    "Verif.Validate.C149_index_violated"
   ],
   "note": "Proved for schemas without allOf and without items given as a list. Violated by these: the path of the error holds an index, joining it raises TypeError."
  },
  {
   "property": "C150",
   "status": "partial",
   "theorems": [
    "Verif.Validate.C150_report_partial",
    "Verif.Validate.C150_missing_violated",
    "Verif.Validate.C150_dependencies_violated",
    "Verif.Validate.C150_items_violated"
   ],
   "note": "Proved when no two errors have the same schema path; in general there is one entry for each path. Violated otherwise: of two missing properties, two missing dependencies, or two wrong items, only the last is reported."
  },
  {
   "property": "C151",
   "status": "partial",
   "theorems": [
    "Verif.Validate.C151_excludes_partial",
    "Verif.Validate.C151_properties_violated",
    "Verif.Validate.C151_items_violated",
    "Verif.Validate.C151_alone_partial",
    "Verif.Validate.C151_leaf_partial"
   ],
   "note": "Proved when neither properties nor patternProperties nor items is excluded, for schemas without references. Violated when they are: the declared properties then count as additional ones, so excluding a keyword makes a valid value invalid; without items, additionalItems says nothing."
  },
  {
   "property": "C152",
   "status": "partial",
   "theorems": [
    "Verif.Validate.C152_evaluated_partial",
    "Verif.Validate.C152_none_violated"
   ],
   "note": "Proved except for None without a default, which is given back whatever the schema says. Evaluating again changes nothing when conversion leaves converted values and does not make None."
  },
  {
   "property": "C153",
   "status": "proved",
   "theorems": [
    "Verif.Keys.C153_entity"
   ],
   "note": ""
  },
  {
   "property": "C154",
   "status": "partial",
   "theorems": [
    "Verif.Keys.C154_list_partial",
    "Verif.Keys.C154_text_partial",
    "Verif.Keys.C154_surplus_violated",
    "Verif.Keys.C154_missing_violated"
   ],
   "note": "Proved for lists and texts with as many components as there are keys. Violated otherwise: components in surplus are dropped, missing ones give a shorter key."
  },
  {
   "property": "C155",
   "status": "partial",
   "theorems": [
    "Verif.Keys.C155_single_partial",
    "Verif.Keys.C155_several_partial",
    "Verif.Keys.C155_comma_violated",
    "Verif.Keys.C155_negative_violated",
    "Verif.Keys.C155_none_violated",
    "Verif.Keys.C155_chars_violated"
   ],
   "note": "Proved for several components, and for one component that is not negative or a text without commas and spaces around it. Violated otherwise: a text is cut at the comma, a negative number reads back as None, None cannot be written with several keys."
  },
  {
   "property": "C156",
   "status": "partial",
   "theorems": [
    "Verif.Keys.C156_resolve_partial",
    "Verif.Keys.C156_entity_partial",
    "Verif.Keys.C156_zero_violated",
    "Verif.Keys.C156_second_violated"
   ],
   "note": "Proved when the first repository of the class has the key and a single key does not count as false. Violated: the key 0 and the empty text are looked up as the empty tuple, what only a later repository has raises KeyError."
  },
  {
   "property": "C157",
   "status": "partial",
   "theorems": [
    "Verif.Keys.C157_session_partial",
    "Verif.Keys.C157_absent_violated",
    "Verif.Keys.C157_zero_violated"
   ],
   "note": "Proved for keys of several components and for single ones that do not count as false. Violated by the others; a key of several components that is nowhere raises TypeError, from writing the message."
  },
  {
   "property": "C158",
   "status": "partial",
   "theorems": [
    "Verif.Keys.C158_single_partial",
    "Verif.Keys.C158_several_violated",
    "Verif.Keys.C158_zero_violated"
   ],
   "note": "Proved for one key that does not count as false. Violated: several keys are never found, the key 0 makes a new entity."
  },
  {
   "property": "C159",
   "status": "partial",
   "theorems": [
    "Verif.Keys.C159_primary_partial",
    "Verif.Keys.C159_id_violated",
    "Verif.Keys.C159_proxy_violated"
   ],
   "note": "Proved for an entity class that is built and knows a property id. Violated: without a property id the type cannot be built, and a class under construction is referred to by id."
  },
  {
   "property": "C160",
   "status": "partial",
   "theorems": [
    "Verif.Keys.C160_relationship_partial",
    "Verif.Keys.C160_zero_violated"
   ],
   "note": "Proved when the first repository of the class has the entity and a single key is plain and does not count as false. Violated by the key 0, the first a memory repository assigns."
  },
  {
   "property": "C161",
   "status": "partial",
   "theorems": [
    "Verif.Literal.C161_text_partial",
    "Verif.Literal.C161_none_partial",
    "Verif.Literal.C161_integer_partial",
    "Verif.Literal.C161_string_partial",
    "Verif.Literal.C161_template_partial",
    "Verif.Literal.C161_bool_violated",
    "Verif.Literal.C161_boolean_violated",
    "Verif.Literal.C161_plain_partial"
   ],
   "note": "Proved for templates, and for expressions giving a text, None, an integer for an integer, or anything for a text. Violated otherwise: the value goes through its text, so that true is refused by an integer; booleans do not evaluate."
  },
  {
   "property": "C162",
   "status": "partial",
   "theorems": [
    "Verif.Literal.C162_expression_partial",
    "Verif.Literal.C162_sound_partial",
    "Verif.Literal.C162_builtin_violated",
    "Verif.Literal.C162_letter_violated",
    "Verif.Literal.C162_template_violated"
   ],
   "note": "Proved for expressions without template marks whose names start with an ASCII letter or an underscore, in contexts that agree on the builtins. Violated otherwise: a property named as a builtin (id, type, ...) is no input, nor is a name starting with another letter; an expression with template marks has the inputs of the template."
  },
  {
   "property": "C163",
   "status": "partial",
   "theorems": [
    "Verif.Literal.C163_template_partial",
    "Verif.Literal.C163_block_violated",
    "Verif.Literal.C163_operator_violated",
    "Verif.Literal.C163_number_violated",
    "Verif.Literal.C163_self_violated",
    "Verif.Literal.C163_this_violated"
   ],
   "note": "Proved for templates whose variables are paths of names and item numbers, that may be filtered, without this. and self. inside. Violated otherwise: what blocks read is no input, an operation counts as one name, a number makes the inputs fail, self. is removed inside a name; this. is not removed from expressions."
  },
  {
   "property": "C164",
   "status": "partial",
   "theorems": [
    "Verif.Literal.C164_refused_partial",
    "Verif.Literal.C164_text_violated"
   ],
   "note": "Proved for types that refuse the expression itself. Violated by texts, which keep the expression."
  },
  {
   "property": "C165",
   "status": "partial",
   "theorems": [
    "Verif.Literal.C165_literal_partial",
    "Verif.Literal.C165_expression_violated"
   ],
   "note": "Proved if the result is no expression and no template. Violated by an expression that gives an expression: it is evaluated once more each time."
  },
  {
   "property": "C166",
   "status": "partial",
   "theorems": [
    "Verif.Literal.C166_instance_partial",
    "Verif.Literal.C166_convert_violated"
   ],
   "note": "Proved for values that are left by the conversion. Violated by the others: nothing is converted."
  },
  {
   "property": "C167",
   "status": "partial",
   "theorems": [
    "Verif.Temporal.C167_date_partial",
    "Verif.Temporal.C167_format_violated"
   ],
   "note": "Proved without a format. Violated with one of arrow's formats, which dates do not know; None cannot be written with any format."
  },
  {
   "property": "C168",
   "status": "partial",
   "theorems": [
    "Verif.Temporal.C168_time_partial",
    "Verif.Temporal.C168_zone_violated",
    "Verif.Temporal.C168_micro_violated",
    "Verif.Temporal.C168_utc_partial"
   ],
   "note": "Proved for times without a zone. Violated by those with one: the zone is lost; with microseconds reading raises IndexError."
  },
  {
   "property": "C169",
   "status": "partial",
   "theorems": [
    "Verif.Temporal.C169_spaced_partial",
    "Verif.Temporal.C169_default_violated",
    "Verif.Temporal.C169_zone_violated",
    "Verif.Temporal.C169_micro_partial",
    "Verif.Temporal.C169_utc_partial"
   ],
   "note": "Proved for UTC up to the second, written with the format YYYY-MM-DD HH:mm:ss. Violated otherwise: no datetime written without a format can be read, and one written with its zone is read as UTC."
  },
  {
   "property": "C170",
   "status": "partial",
   "theorems": [
    "Verif.Temporal.C170_datetime_partial",
    "Verif.Temporal.C170_calendar_partial",
    "Verif.Temporal.C170_text_violated",
    "Verif.Temporal.C170_never_violated",
    "Verif.Temporal.C170_other_violated"
   ],
   "note": "Proved: texts are read as days of the calendar and times of the day only, and datetimes refuse texts without digits by InvalidValue. Violated: dates and times never raise InvalidValue, making the message raises IndexError; datetimes take numbers, dates and times for None."
  },
  {
   "property": "C171",
   "status": "partial",
   "theorems": [
    "Verif.Temporal.C171_date",
    "Verif.Temporal.C171_time",
    "Verif.Temporal.C171_assertion_violated"
   ],
   "note": "Proved what is accepted. Violated: the refusal is an AssertionError."
  },
  {
   "property": "C172",
   "status": "proved",
   "theorems": [
    "Verif.Temporal.C172_idempotent"
   ],
   "note": ""
  },
  {
   "property": "C173",
   "status": "partial",
   "theorems": [
    "Verif.Temporal.C173_morning_partial",
    "Verif.Temporal.C173_afternoon_violated",
    "Verif.Temporal.C173_never_violated",
    "Verif.Temporal.C173_formats_partial",
    "Verif.Temporal.C173_written_partial"
   ],
   "note": "Proved for AM before noon. Violated by PM: the format without it comes first, the afternoon is read as the morning."
  },
  {
   "property": "C174",
   "status": "partial",
   "theorems": [
    "Verif.Symbols.C174_best_partial",
    "Verif.Symbols.C174_typed_partial",
    "Verif.Symbols.C174_builtin",
    "Verif.Symbols.C174_false_violated",
    "Verif.Symbols.C174_module_violated"
   ],
   "note": "Proved for true attributes: exact, with the longest module name. Violated by attributes that are false (0, an empty list), whose name is kept as a text, and by modules with the name of a builtin."
  },
  {
   "property": "C175",
   "status": "partial",
   "theorems": [
    "Verif.Symbols.C175_refused_partial",
    "Verif.Symbols.C175_text_violated"
   ],
   "note": "Proved for modules, functions, classes, methods and callables. Violated for importable and instance: the text is kept."
  },
  {
   "property": "C176",
   "status": "partial",
   "theorems": [
    "Verif.Symbols.C176_kind_partial",
    "Verif.Symbols.C176_classmethod_violated",
    "Verif.Symbols.C176_static_violated"
   ],
   "note": "Proved for modules, functions, classes, methods and callables. Violated: no value is a class method, and static methods are refused while bound methods are accepted for them."
  },
  {
   "property": "C177",
   "status": "partial",
   "theorems": [
    "Verif.Symbols.C177_module_partial",
    "Verif.Symbols.C177_member_partial",
    "Verif.Symbols.C177_method_violated",
    "Verif.Symbols.C177_instance_violated",
    "Verif.Symbols.C177_false_violated"
   ],
   "note": "Proved for modules and for what is found in its module under its qualified name. Violated by bound methods (read as functions), instances (writing raises AttributeError) and false objects (not written)."
  },
  {
   "property": "C178",
   "status": "partial",
   "theorems": [
    "Verif.Symbols.C178_module_partial",
    "Verif.Symbols.C178_member_violated",
    "Verif.Symbols.C178_cut_violated"
   ],
   "note": "Proved for names of modules not longer than the expression. Violated otherwise: dots and attributes are taken from the expression, and a longer name is cut to its length."
  },
  {
   "property": "C179",
   "status": "partial",
   "theorems": [
    "Verif.Symbols.C179_kept_partial",
    "Verif.Symbols.C179_twice_partial",
    "Verif.Symbols.C179_unhashable_violated",
    "Verif.Symbols.C179_text_violated"
   ],
   "note": "Proved for hashable objects. Violated by unhashable ones (TypeError) and by texts found in modules, which are taken for names."
  },
  {
   "property": "C180",
   "status": "partial",
   "theorems": [
    "Verif.Symbols.C180_check_partial",
    "Verif.Symbols.C180_all_violated",
    "Verif.Symbols.C180_classmethod_violated"
   ],
   "note": "Proved for importable, modules, functions, classes, methods and static methods. Violated: the checks of instances and callables accept everything, that of class methods accepts what conversion refuses."
  },
  {
   "property": "C181",
   "status": "partial",
   "theorems": [
    "Verif.Ids.C181_name",
    "Verif.Ids.C181_definition_partial",
    "Verif.Ids.C181_hyphen_violated"
   ],
   "note": "Proved for names the manager finds (with an empty cache) and concretely for one or two names below a registered namespace whose document is not loaded. Violated by namespaces with other characters than letters, digits, underscores and dots: the name is taken for a document."
  },
  {
   "property": "C182",
   "status": "proved",
   "theorems": [
    "Verif.Ids.C182_round_trip",
    "Verif.Ids.C182_twice"
   ],
   "note": "For every text that converts, in any manager with the same current document."
  },
  {
   "property": "C183",
   "status": "partial",
   "theorems": [
    "Verif.Ids.C183_definition_partial",
    "Verif.Ids.C183_document_violated",
    "Verif.Ids.C183_property_violated"
   ],
   "note": "Proved for one or two names below a namespace whose document is not loaded. Violated by identifiers of documents and of properties."
  },
  {
   "property": "C184",
   "status": "partial",
   "theorems": [
    "Verif.Ids.C184_absolute_partial",
    "Verif.Ids.C184_cases",
    "Verif.Ids.C184_relative_violated"
   ],
   "note": "Proved: exactly one #, with a document if the current namespace has one. Violated: a relative reference to a document is not resolved against the current one."
  },
  {
   "property": "C185",
   "status": "partial",
   "theorems": [
    "Verif.Ids.C185_fragment_partial",
    "Verif.Ids.C185_document_violated",
    "Verif.Ids.C185_accepts"
   ],
   "note": "Proved with a nonempty fragment. Violated by every identifier of a document, whose # the check does not see."
  },
  {
   "property": "C186",
   "status": "partial",
   "theorems": [
    "Verif.Ids.C186_read_partial",
    "Verif.Ids.C186_id_violated",
    "Verif.FilePaths.C186_path_violated"
   ],
   "note": "Reading keeps None. Violated on writing: AttributeError for identifiers, bytes for URIs, the text None for paths."
  },
  {
   "property": "C187",
   "status": "partial",
   "theorems": [
    "Verif.FilePaths.C187_round_trip_partial",
    "Verif.FilePaths.C187_template_violated"
   ],
   "note": "Proved if the text of the path evaluates to itself. Violated by names with templates or expressions, evaluated even for paths."
  },
  {
   "property": "C188",
   "status": "partial",
   "theorems": [
    "Verif.FilePaths.C188_plain_partial",
    "Verif.FilePaths.C188_file_violated",
    "Verif.FilePaths.C188_written_partial"
   ],
   "note": "Proved: a parsed URI gives the path of its unquoted text. Violated by the URI of every path: file: becomes a name."
  },
  {
   "property": "C189",
   "status": "partial",
   "theorems": [
    "Verif.FilePaths.C189_normal_partial",
    "Verif.FilePaths.C189_twice_partial",
    "Verif.FilePaths.C189_empty_violated"
   ],
   "note": "Proved for everything but None and the empty text, and for paths whose text evaluates to itself. Violated: the empty text stays a text; it and None raise AttributeError if paths are resolved or expanded."
  },
  {
   "property": "C190",
   "status": "partial",
   "theorems": [
    "Verif.FilePaths.C190_relative_violated"
   ],
   "note": "Violated for every value: contexts have no find_file_repository."
  },
  {
   "property": "C191",
   "status": "partial",
   "theorems": [
    "Verif.Nested.C191_converted_partial",
    "Verif.Nested.C191_total_partial",
    "Verif.Nested.C191_text_violated",
    "Verif.Nested.C191_empty_violated"
   ],
   "note": "Proved at every depth for lists and mappings at the places of arrays and objects. Violated: a text given for an array is cut into its characters."
  },
  {
   "property": "C192",
   "status": "proved",
   "theorems": [
    "Verif.Nested.C192_valid"
   ],
   "note": "For every value that evaluates without error, whatever the types of the leaves and the order of sets."
  },
  {
   "property": "C193",
   "status": "proved",
   "theorems": [
    "Verif.Nested.C193_twice"
   ],
   "note": "Given that the types of the leaves have the property and that required names are declared; the iteration order of a set depends on its content only."
  },
  {
   "property": "C194",
   "status": "partial",
   "theorems": [
    "Verif.Nested.C194_validate_partial",
    "Verif.Nested.C194_undeclared_partial",
    "Verif.Nested.C194_added_violated",
    "Verif.Nested.C194_missing_violated"
   ],
   "note": "Validation alone refuses, and deserialising refuses names that are not declared. Violated when evaluating and deserialising: conversion adds every required name with the value None first."
  },
  {
   "property": "C195",
   "status": "partial",
   "theorems": [
    "Verif.Nested.C195_declared_partial",
    "Verif.Nested.C195_raw_violated"
   ],
   "note": "Proved for defaults that are converted already. Violated inside collections, whose items are evaluated without conversion."
  },
  {
   "property": "C196",
   "status": "partial",
   "theorems": [
    "Verif.Nested.C196_validate_partial",
    "Verif.Nested.C196_key_violated",
    "Verif.Nested.C196_read_violated"
   ],
   "note": "Proved for validation. Violated when evaluating: KeyError."
  },
  {
   "property": "C197",
   "status": "partial",
   "theorems": [
    "Verif.Nested.C197_convert_partial",
    "Verif.Nested.C197_index_violated"
   ],
   "note": "Conversion keeps items without type. Violated when evaluating: IndexError, for every longer array."
  },
  {
   "property": "C198",
   "status": "partial",
   "theorems": [
    "Verif.Nested.C198_reached_partial",
    "Verif.Nested.C198_name_violated",
    "Verif.Nested.C198_keywords_violated"
   ],
   "note": "Proved at every depth, for the keywords that are not excluded on the way and for other names than these keywords. Violated by properties named as a keyword, such as required."
  },
  {
   "property": "C199",
   "status": "partial",
   "theorems": [
    "Verif.Nested.C199_leaf_partial",
    "Verif.Nested.C199_array_partial",
    "Verif.Nested.C199_items_violated",
    "Verif.Nested.C199_empty_violated",
    "Verif.Nested.C199_nested_violated"
   ],
   "note": "Proved for types that are no collections and for nonempty arrays of them without None, long enough. Violated by missing items, texts, single values, empty arrays with a default, and texts in nested arrays."
  },
  {
   "property": "C200",
   "status": "partial",
   "theorems": [
    "Verif.Defaults.C200_true_partial",
    "Verif.Defaults.C200_false_partial",
    "Verif.Defaults.C200_null_violated",
    "Verif.Defaults.C200_false_violated",
    "Verif.Defaults.C200_written_violated"
   ],
   "note": "Proved for true, and for false and values other than None. Violated: null evaluates every value and checks none; false evaluates None and refuses the rest by TypeError."
  },
  {
   "property": "C201",
   "status": "partial",
   "theorems": [
    "Verif.Defaults.C201_missing_partial",
    "Verif.Defaults.C201_first_partial",
    "Verif.Defaults.C201_enum_violated"
   ],
   "note": "Proved without enumeration, and for true defaults of enumerations; without default the first value is used. Violated: a false default of an enumeration is replaced by the first value."
  },
  {
   "property": "C202",
   "status": "partial",
   "theorems": [
    "Verif.Defaults.C202_true_partial",
    "Verif.Defaults.C202_none_partial",
    "Verif.Defaults.C202_false_violated",
    "Verif.Instances.C202_class_partial",
    "Verif.Instances.C202_class_given_partial"
   ],
   "note": "Proved for true defaults and if there is none. Violated by every false default (0, False, the empty text), which is used but not seen."
  },
  {
   "property": "C203",
   "status": "partial",
   "theorems": [
    "Verif.Defaults.C203_value_partial",
    "Verif.Defaults.C203_array_partial",
    "Verif.Defaults.C203_false_violated",
    "Verif.Defaults.C203_array_violated"
   ],
   "note": "Proved for true values and true items. Violated: a false value is replaced by the default, a false item of an array by None or the default of the items. The array is taken before it is read again."
  },
  {
   "property": "C204",
   "status": "partial",
   "theorems": [
    "Verif.Defaults.C204_own_partial",
    "Verif.Defaults.C204_last_violated"
   ],
   "note": "Proved for evaluating numbers. Violated: the precision stays set afterwards, for every other conversion of the thread."
  },
  {
   "property": "C205",
   "status": "partial",
   "theorems": [
    "Verif.Loading.C205_registered_partial",
    "Verif.Loading.C205_title_partial",
    "Verif.Loading.C205_unnamed_partial",
    "Verif.Loading.C205_missing_violated"
   ],
   "note": "Proved for schemas with an identifier, and for empty identifiers. Violated: without identifier, AttributeError even if there is a title."
  },
  {
   "property": "C206",
   "status": "partial",
   "theorems": [
    "Verif.Loading.C206_file_partial",
    "Verif.Loading.C206_id_violated"
   ],
   "note": "Proved if the identifier is given as `$id` or not at all. Violated: an identifier given as `id` is overridden by the name of the file."
  },
  {
   "property": "C207",
   "status": "partial",
   "theorems": [
    "Verif.Loading.C207_last_partial",
    "Verif.Loading.C207_each_partial",
    "Verif.Loading.C207_stem_violated"
   ],
   "note": "Proved if no two files have the same identifier; files that fail do not affect the others. Violated: of two files with the same name or identifier only the last is kept."
  },
  {
   "property": "C208",
   "status": "proved",
   "theorems": [
    "Verif.Loading.C208_folders",
    "Verif.Loading.C208_find"
   ],
   "note": "For all sequences of registrations, arbitrary file systems and arbitrary search in a list of folders."
  },
  {
   "property": "C209",
   "status": "partial",
   "theorems": [
    "Verif.Loading.C209_unchanged_partial",
    "Verif.Loading.C209_empty_violated"
   ],
   "note": "Proved if documents are registered. Violated: with none, the schema of the resolver becomes a registered document."
  },
  {
   "property": "C210",
   "status": "partial",
   "theorems": [
    "Verif.Loading.C210_once_partial",
    "Verif.Loading.C210_twice_violated"
   ],
   "note": "Proved if converting twice is converting once, or without conversion. Violated: the value is converted twice."
  },
  {
   "property": "C211",
   "status": "partial",
   "theorems": [
    "Verif.Loading.C211_error_partial",
    "Verif.Loading.C211_raised_violated"
   ],
   "note": "Errors are the same. Violated: the result is raised instead of returned, so every call fails with TypeError."
  },
  {
   "property": "C212",
   "status": "proved",
   "theorems": [
    "Verif.Loading.C212_each"
   ],
   "note": "For values that are loaded without error."
  },
  {
   "property": "C213",
   "status": "partial",
   "theorems": [
    "Verif.Loading.C213_unit_partial",
    "Verif.Loading.C213_large_violated",
    "Verif.Loading.C213_rounded_violated"
   ],
   "note": "Proved below 1024 terabytes: the greatest unit that is not above the size, and the nearest tenth. Violated: above, a number without unit; just below a unit the number is rounded to 1024.0."
  },
  {
   "property": "C214",
   "status": "partial",
   "theorems": [
    "Verif.Making.C214_first_partial",
    "Verif.Making.C214_fresh_partial",
    "Verif.Making.C214_reused_violated"
   ],
   "note": "Exact: the type is that of the first declaration under the name at the address. Violated: at an address that is used again, the property has the type of the object that is gone."
  },
  {
   "property": "C215",
   "status": "partial",
   "theorems": [
    "Verif.Making.C215_none_partial",
    "Verif.Making.C215_attribute_violated"
   ],
   "note": "Only without pattern properties. Violated for all others: AttributeError."
  },
  {
   "property": "C216",
   "status": "partial",
   "theorems": [
    "Verif.Making.C216_left_partial",
    "Verif.Making.C216_plain",
    "Verif.Making.C216_list_violated"
   ],
   "note": "Exact: a type is left if and only if it lies below a list. Schemas without types are unchanged."
  },
  {
   "property": "C217",
   "status": "partial",
   "theorems": [
    "Verif.Making.C217_built_partial",
    "Verif.Making.C217_lost_violated",
    "Verif.Making.C217_default_violated"
   ],
   "note": "Proved once the type is built. Violated before: values are lost and accepted. Asking for the default of a value is a TypeError."
  },
  {
   "property": "C218",
   "status": "partial",
   "theorems": [
    "Verif.Making.C218_convert_partial",
    "Verif.Making.C218_set_partial",
    "Verif.Making.C218_hash_partial",
    "Verif.Making.C218_list_partial",
    "Verif.Making.C218_empty_partial",
    "Verif.Making.C218_evaluate_violated",
    "Verif.Making.C218_index_violated"
   ],
   "note": "Conversion of lists and tuples is proved, evaluation of lists and of empty collections. Violated: no other tuple or set can be evaluated, and sets cannot be converted."
  },
  {
   "property": "C219",
   "status": "partial",
   "theorems": [
    "Verif.Storing.C219_lists_partial",
    "Verif.Storing.C219_failed_partial",
    "Verif.Storing.C219_single_violated"
   ],
   "note": "Proved for commits of lists; failed commits change nothing. Violated: of a single mapping the names are added."
  },
  {
   "property": "C220",
   "status": "partial",
   "theorems": [
    "Verif.Storing.C220_many_partial",
    "Verif.Storing.C220_stays_partial",
    "Verif.Storing.C220_saved_violated",
    "Verif.Storing.C220_single_violated",
    "Verif.Storing.C220_names_violated",
    "Verif.Storing.C220_text_violated"
   ],
   "note": "Proved for repositories of many if the saver leaves the object as it is, also after later commits. Violated: otherwise the saved form is contained; a repository of one mapping is asked for its names."
  },
  {
   "property": "C221",
   "status": "partial",
   "theorems": [
    "Verif.Storing.C221_dump_partial",
    "Verif.Storing.C221_twice_violated"
   ],
   "note": "Proved without saving, or if serialising twice is serialising once. Violated: the content is serialised twice."
  },
  {
   "property": "C222",
   "status": "partial",
   "theorems": [
    "Verif.Storing.C222_failed_partial",
    "Verif.Storing.C222_name_violated"
   ],
   "note": "If the saver fails, nothing else changes. Violated: every other commit ends with an error (NameError), after the content was changed and the directory made."
  },
  {
   "property": "C223",
   "status": "partial",
   "theorems": [
    "Verif.Storing.C223_error_partial",
    "Verif.Storing.C223_read_violated"
   ],
   "note": "Only errors of the deserializer are as expected. Violated: no text can be read, AttributeError."
  },
  {
   "property": "C224",
   "status": "partial",
   "theorems": [
    "Verif.Storing.C224_kept_partial",
    "Verif.Storing.C224_removed_violated"
   ],
   "note": "Proved if the data name no class or are given as keyword arguments. Violated: `$schema` is removed from the dictionary of the caller, even if no object is made."
  },
  {
   "property": "C225",
   "status": "proved",
   "theorems": [
    "Verif.Storing.C225_class",
    "Verif.Storing.C225_unknown"
   ],
   "note": "For data given as dictionary or as keyword arguments."
  },
  {
   "property": "C226",
   "status": "partial",
   "theorems": [
    "Verif.Storing.C226_again_partial",
    "Verif.Storing.C226_second_violated"
   ],
   "note": "Proved if the data name no class or are given as keyword arguments. Violated: the second object made of a dictionary is of the class that was called."
  },
  {
   "property": "C227",
   "status": "partial",
   "theorems": [
    "Verif.Storing.C227_times_partial",
    "Verif.Storing.C227_twice_violated"
   ],
   "note": "Exact: twice if the data name a proper subclass of the class that is called, else once."
  },
  {
   "property": "C228",
   "status": "partial",
   "theorems": [
    "Verif.Storing.C228_array_partial",
    "Verif.Storing.C228_object_partial",
    "Verif.Storing.C228_same_partial",
    "Verif.Storing.C228_mixed_violated"
   ],
   "note": "Exact for arrays. For objects every value is looked at by the type of every included property, which is right only if all types see the same inputs."
  },
  {
   "property": "C229",
   "status": "partial",
   "theorems": [
    "Verif.Storing.C229_true_partial",
    "Verif.Storing.C229_additional_violated",
    "Verif.Storing.C229_items_violated"
   ],
   "note": "Proved for all types but null and false. Violated: additional properties of type null are refused; items declared by the types null or false are of any type."
  },
  {
   "property": "C230",
   "status": "partial",
   "theorems": [
    "Verif.Show.C230_array_partial",
    "Verif.Show.C230_array_kept_partial",
    "Verif.Show.C230_array_violated",
    "Verif.Show.C230_template_violated",
    "Verif.Show.C230_object_partial",
    "Verif.Show.C230_object_touched_partial",
    "Verif.Show.C230_object_declared_partial",
    "Verif.Show.C230_object_kept_partial",
    "Verif.Show.C230_object_violated",
    "Verif.Show.C230_object_refused_partial"
   ],
   "note": "Proved for the first text, and after the assignment of a different value to a declared property. Violated: the text of an array is never made again, that of an object not after an additional property was assigned or one deleted; an expression of value zero is shown as the expression."
  },
  {
   "property": "C231",
   "status": "partial",
   "theorems": [
    "Verif.Show.C231_str_partial",
    "Verif.Show.C231_repr_partial",
    "Verif.Show.C231_unrelated_partial",
    "Verif.Show.C231_violated"
   ],
   "note": "str leaves the shared list of excluded names alone, repr adds the read-only names of the class; proved that unrelated names do not matter. Violated: repr of one instance removes a property from the text of another one."
  },
  {
   "property": "C232",
   "status": "partial",
   "theorems": [
    "Verif.Show.C232_array_partial",
    "Verif.Show.C232_object_partial",
    "Verif.Show.C232_types_violated"
   ],
   "note": "Proved for arrays with one type of items and for objects. Violated: with a list of types the items beyond it are neither shown nor counted."
  },
  {
   "property": "C233",
   "status": "partial",
   "theorems": [
    "Verif.Show.C233_transparent_partial",
    "Verif.Show.C233_log_partial",
    "Verif.Show.C233_tuple_violated",
    "Verif.Show.C233_function_violated",
    "Verif.Show.C233_init_partial",
    "Verif.Show.C233_init_violated"
   ],
   "note": "Proved when no positional argument is a tuple and everything can be represented, or there is no logger. Violated: with a tuple as argument, or for a function without arguments, the function is not called."
  },
  {
   "property": "C234",
   "status": "partial",
   "theorems": [
    "Verif.Show.C234_plain_partial",
    "Verif.Show.C234_number_partial",
    "Verif.Show.C234_violated"
   ],
   "note": "Proved for messages with nothing to be shortened. Violated: an argument to be shortened is replaced by its text, which is formatted again, with further quotes."
  },
  {
   "property": "C235",
   "status": "partial",
   "theorems": [
    "Verif.Show.C235_short_partial",
    "Verif.Show.C235_long_partial",
    "Verif.Show.C235_text_violated",
    "Verif.Show.C235_small_partial",
    "Verif.Show.C235_list_partial",
    "Verif.Show.C235_list_violated",
    "Verif.Show.C235_bounded_partial",
    "Verif.Show.C235_set_violated",
    "Verif.Show.C235_cut_partial"
   ],
   "note": "Proved below and above the limits; texts of collections are bounded. Violated: at the limit a mark of zero missing characters or items is added; sets raise TypeError."
  },
  {
   "property": "C236",
   "status": "partial",
   "theorems": [
    "Verif.Mixins.C236_iteration_partial",
    "Verif.Mixins.C236_iteration_violated"
   ],
   "note": "Proved for arrays of one item type (eager, or lazy without assignments); the exception of the first item that cannot be converted comes out. Violated: an IndexError of a conversion ends the iteration silently."
  },
  {
   "property": "C237",
   "status": "partial",
   "theorems": [
    "Verif.Mixins.C237_search_partial",
    "Verif.Mixins.C237_search_violated"
   ],
   "note": "Proved for arrays of one item type whose items can be converted. Violated: `in` is false for an item behind one whose conversion raises IndexError."
  },
  {
   "property": "C238",
   "status": "partial",
   "theorems": [
    "Verif.Mixins.C238_pop",
    "Verif.Mixins.C238_remove",
    "Verif.Mixins.C238_refused_violated"
   ],
   "note": "Proved for arrays of one item type (eager, or lazy without assignments) of classes without checks of the whole array. Violated: where a check of the whole array (contains, anyOf, ...) refuses what is left, pop raises and the item is gone all the same."
  },
  {
   "property": "C239",
   "status": "partial",
   "theorems": [
    "Verif.Mixins.C239_clear_partial",
    "Verif.Mixins.C239_clear_violated"
   ],
   "note": "Proved for arrays of one item type whose items can be converted; exact behaviour otherwise. Violated: an item whose conversion raises IndexError stops clear without exception."
  },
  {
   "property": "C240",
   "status": "partial",
   "theorems": [
    "Verif.Mixins.C240_reverse_partial",
    "Verif.Mixins.C240_reverse_violated"
   ],
   "note": "Proved without lazy loading for one item type and items that can be converted. Violated with lazy loading: what is read does not change."
  },
  {
   "property": "C241",
   "status": "partial",
   "theorems": [
    "Verif.Mixins.C241_extend_partial",
    "Verif.Mixins.C241_extend_stops",
    "Verif.Mixins.C241_extend_violated"
   ],
   "note": "Proved for values that are lists or texts. Violated otherwise: the first value is added, InvalidValue raised and the rest dropped, because the item is validated as if it were the array."
  },
  {
   "property": "C242",
   "status": "partial",
   "theorems": [
    "Verif.Mixins.C242_created",
    "Verif.Mixins.C242_in_partial",
    "Verif.Mixins.C242_in_raises_violated",
    "Verif.Mixins.C242_in_alias_violated"
   ],
   "note": "Proved for classes without computed properties, aliases, translated names, dependencies and lazy loading, and instances holding converted values (which creation gives). Violated: a value that cannot be converted makes `in` raise; an alias is in the object though it is not iterated over."
  },
  {
   "property": "C243",
   "status": "partial",
   "theorems": [
    "Verif.Mixins.C243_get_partial",
    "Verif.Mixins.C243_get_violated"
   ],
   "note": "Proved for the same classes and instances as C242. Violated: only KeyError is caught."
  },
  {
   "property": "C244",
   "status": "partial",
   "theorems": [
    "Verif.Mixins.C244_setdefault_partial",
    "Verif.Mixins.C244_setdefault_violated"
   ],
   "note": "Proved for the same classes and instances as C242: keys that are there, and new keys that are not declared. Violated: a declared property without value keeps None and gives None."
  },
  {
   "property": "C245",
   "status": "partial",
   "theorems": [
    "Verif.Mixins.C245_pop_partial",
    "Verif.Mixins.C245_pop_violated",
    "Verif.Mixins.C245_pop_alias_violated"
   ],
   "note": "Proved for the same classes as C242 when the inputs of every item are recorded (as creation does). Violated: a key that was assigned later and is not declared is removed half-way with KeyError; an alias cannot be popped."
  },
  {
   "property": "C246",
   "status": "partial",
   "theorems": [
    "Verif.Mixins.C246_clear_partial",
    "Verif.Mixins.C246_clear_violated"
   ],
   "note": "Proved as C245. Violated: the KeyError of the deletion of an undeclared key that was assigned later ends clear without exception."
  },
  {
   "property": "C247",
   "status": "proved",
   "theorems": [
    "Verif.Walk.C247_each_once"
   ],
   "note": "For nested lists and dictionaries of any depth whose dictionaries have distinct keys."
  },
  {
   "property": "C248",
   "status": "partial",
   "theorems": [
    "Verif.Walk.C248_leaves_partial",
    "Verif.Walk.C248_replacements_partial",
    "Verif.Walk.C248_endless_violated"
   ],
   "note": "Proved for functions that assign a value depending on key and item: leaves by leaves; any replacement for which a finished result exists. Violated: a function that puts items into lists is called without end."
  },
  {
   "property": "C249",
   "status": "partial",
   "theorems": [
    "Verif.Walk.C249_flat_dict_partial",
    "Verif.Walk.C249_flat_list_partial",
    "Verif.Walk.C249_empty_stays_violated",
    "Verif.Walk.C249_zero_lost_violated",
    "Verif.Walk.C249_returns_nothing_violated",
    "Verif.Walk.C249_twice_violated",
    "Verif.Walk.C249_nested_partial",
    "Verif.Walk.C249_keys_violated",
    "Verif.Walk.C249_lists_partial"
   ],
   "note": "Exact for dictionaries and for lists of leaves, and for mappings in mappings that have a true entry each. Violated: the item after a deleted one is skipped, 0 and False are deleted, None is returned, nested single lists need several passes, a mapping of false values becomes the view of its keys."
  },
  {
   "property": "C250",
   "status": "partial",
   "theorems": [
    "Verif.Walk.C250_scoped_partial",
    "Verif.Walk.C250_lists_violated",
    "Verif.Walk.C250_in_lists_violated"
   ],
   "note": "Exact for all schemas in which `scope` accepts the references: those in mappings that are values of mappings are scoped. Violated for the schema itself and for mappings in lists (allOf, items)."
  },
  {
   "property": "C251",
   "status": "partial",
   "theorems": [
    "Verif.Walk.C251_ancestors_partial",
    "Verif.Walk.C251_ends",
    "Verif.Walk.C251_chain_partial",
    "Verif.Walk.C251_order_violated"
   ],
   "note": "Each proper ancestor once, and an end exactly when going up ends. Descendants first proved for single inheritance; violated with several parents."
  },
  {
   "property": "C252",
   "status": "partial",
   "theorems": [
    "Verif.Walk.C252_expand_violated"
   ],
   "note": "Violated for every schema: schema_mro has no self parameter."
  },
  {
   "property": "C253",
   "status": "proved",
   "theorems": [
    "Verif.Relations.C253_built_once"
   ],
   "note": "For any builds in between; loading a class is taken to build no relationship itself."
  },
  {
   "property": "C254",
   "status": "partial",
   "theorems": [
    "Verif.Relations.C254_attributes_partial",
    "Verif.Relations.C254_keys_violated"
   ],
   "note": "All attributes are as stated, except the keys while the foreign class is under construction: then none, for good."
  },
  {
   "property": "C255",
   "status": "partial",
   "theorems": [
    "Verif.Relations.C255_never_violated",
    "Verif.Relations.C255_proxies_partial",
    "Verif.Relations.C255_fails"
   ],
   "note": "Violated: no class ever gets a reverse relationship; with a class that is not under construction the build fails (TypeError) and leaves a relationship under an id made of a repr. Harmless if all are under construction."
  },
  {
   "property": "C256",
   "status": "partial",
   "theorems": [
    "Verif.Relations.C256_exact",
    "Verif.Relations.C256_violated",
    "Verif.Relations.C256_names_violated"
   ],
   "note": "Exact: to many unless the cardinality has OneTo in it. Violated for one2one, OneToMany and ManyToOne."
  },
  {
   "property": "C257",
   "status": "partial",
   "theorems": [
    "Verif.Relations.C257_found_partial",
    "Verif.Relations.C257_unknown",
    "Verif.Relations.C257_other_session_violated",
    "Verif.Relations.C257_default_twice",
    "Verif.Relations.C257_registered_violated"
   ],
   "note": "Found again only under the name of its class. Violated: a repository made is bound to the default session, since session= is not handed on to Repository.__init__; registered names differ from class names, so that each call makes another one."
  },
  {
   "property": "C258",
   "status": "proved",
   "theorems": [
    "Verif.Tools.C258_blocks",
    "Verif.Tools.C258_file"
   ],
   "note": "For any hash for which the pieces in which a stream is given do not matter."
  },
  {
   "property": "C259",
   "status": "partial",
   "theorems": [
    "Verif.Tools.C259_first_partial",
    "Verif.Tools.C259_reverse_violated",
    "Verif.Tools.C259_nested_violated"
   ],
   "note": "Exact for the maps of the context itself. Violated: reverse=True is a TypeError; what is in nested contexts is not found."
  },
  {
   "property": "C260",
   "status": "partial",
   "theorems": [
    "Verif.Tools.C260_same_lookups_partial",
    "Verif.Tools.C260_equal_violated"
   ],
   "note": "Proved for contexts with the same value for each key; keys are texts. Violated for values that are equal but written differently (1 and True)."
  },
  {
   "property": "C261",
   "status": "partial",
   "theorems": [
    "Verif.Tools.C261_frozen",
    "Verif.Tools.C261_before_partial",
    "Verif.Tools.C261_after_violated"
   ],
   "note": "Proved for globals added before the default environment is first used; violated afterwards."
  },
  {
   "property": "C262",
   "status": "partial",
   "theorems": [
    "Verif.Tools.C262_exact",
    "Verif.Tools.C262_one_folder_partial",
    "Verif.Tools.C262_two_folders_violated",
    "Verif.Tools.C262_deep_violated"
   ],
   "note": "Exact: the folder registered last, by its own name. As stated for one folder directly in that of the module; violated for several folders and for folders further inside."
  },
  {
   "property": "C263",
   "status": "proved",
   "theorems": [
    "Verif.Tools.C263_parents",
    "Verif.Tools.C263_attributes"
   ],
   "note": "For classes whose metaclass is type."
  },
  {
   "property": "C264",
   "status": "partial",
   "theorems": [
    "Verif.Tools.C264_weak_violated",
    "Verif.Tools.C264_weak_absent",
    "Verif.Tools.C264_classes_partial",
    "Verif.Tools.C264_default_violated"
   ],
   "note": "Violated: WeakRegistry calls the object it holds; GenericClassRegistry.get ignores its default."
  },
  {
   "property": "C265",
   "status": "proved",
   "theorems": [
    "Verif.Tools.C265_split",
    "Verif.Tools.C265_rsplit",
    "Verif.Tools.C265_edges"
   ],
   "note": ""
  },
  {
   "property": "C266",
   "status": "partial",
   "theorems": [
    "Verif.Entities.C266_outermost_partial",
    "Verif.Entities.C266_empty_violated",
    "Verif.Entities.C266_cycle_violated"
   ],
   "note": "Proved for histories without insertions into lazily loaded arrays and objects above that have entries. Violated: below an empty object an object is its own root; an object inserted into an array within itself has no root (RecursionError)."
  },
  {
   "property": "C267",
   "status": "partial",
   "theorems": [
    "Verif.Entities.C267_built_partial",
    "Verif.Entities.C267_assigned_violated",
    "Verif.Entities.C267_inserted_partial",
    "Verif.Entities.C267_within_inserted_violated"
   ],
   "note": "Proved for objects made from data given for a property, and for existing ones inserted into lazily loaded arrays. Violated: an existing object assigned to a property keeps its former parent, or none; what is built in an object that was inserted gets the object around it as parent."
  },
  {
   "property": "C268",
   "status": "partial",
   "theorems": [
    "Verif.Entities.C268_own_partial",
    "Verif.Entities.C268_inserted_violated"
   ],
   "note": "Violated: inserting an object into a lazily loaded array replaces its context by that of the array; `this` is then the object around and its own data cannot be seen."
  },
  {
   "property": "C269",
   "status": "partial",
   "theorems": [
    "Verif.Entities.C269_written",
    "Verif.Entities.C269_reference_partial",
    "Verif.Entities.C269_full_partial",
    "Verif.Entities.C269_nokeys_violated",
    "Verif.Entities.C269_raw_violated"
   ],
   "note": "Proved for all trees, at every place that is not hidden. Violated: entities without primary keys are all written as an empty list; a key that is an object is not serialised."
  },
  {
   "property": "C270",
   "status": "partial",
   "theorems": [
    "Verif.Entities.C270_single_partial",
    "Verif.Entities.C270_id_partial",
    "Verif.Entities.C270_several_violated",
    "Verif.Entities.C270_nested_violated"
   ],
   "note": "As stated only for an entity that is serialised itself and has one key. Violated: AssertionError for several keys; whatever has an entity in it cannot be written, since the keys are taken from the class (TypeError)."
  },
  {
   "property": "C271",
   "status": "partial",
   "theorems": [
    "Verif.Entities.C271_keys_partial",
    "Verif.Entities.C271_excluded_violated",
    "Verif.Entities.C271_prefix_violated",
    "Verif.Entities.C271_names_partial"
   ],
   "note": "Each key that is not None is there. Violated: excluded keys are written too; with a prefix for attributes they are written twice; they are not serialised."
  },
  {
   "property": "C272",
   "status": "partial",
   "theorems": [
    "Verif.Entities.C272_exact_partial",
    "Verif.Entities.C272_shown_partial",
    "Verif.Entities.C272_inner_violated",
    "Verif.Entities.C272_only_partial"
   ],
   "note": "Exact: a name is written unless it is excluded by the caller, or not serialised by the class of the object or of any object around it. Violated accordingly: an inner object loses names that only the outer class does not serialise."
  },
  {
   "property": "C273",
   "status": "partial",
   "theorems": [
    "Verif.Entities.C273_evaluate_partial",
    "Verif.Entities.C273_validate_violated",
    "Verif.Entities.C273_list_violated",
    "Verif.Entities.C273_canonical_violated"
   ],
   "note": "Evaluation keeps the converted value. Violated: validation gives True or False in place of it, so that a validated collection has Booleans for references, and refuses none that leads nowhere; a canonical name can never be converted (AttributeError)."
  },
  {
   "property": "C274",
   "status": "partial",
   "theorems": [
    "Verif.Entities.C274_read_partial",
    "Verif.Entities.C274_shown_violated",
    "Verif.Entities.C274_given_violated"
   ],
   "note": "identityKeys is current for entities with the keys of their class. Violated: str(entity) and the assignment to a relationship use the keys of the last reading of identityKeys; with primaryKeys given to the instance identityKeys is not updated."
  },
  {
   "property": "C275",
   "status": "partial",
   "theorems": [
    "Verif.Access.C275_private_partial",
    "Verif.Access.C275_additional_partial",
    "Verif.Access.C275_declared_partial",
    "Verif.Access.C275_class_attribute_violated"
   ],
   "note": "Proved for private names, for declared properties (attribute and item are the same), and for additional properties whose name is no attribute of the class, of values without references to other items, without lazy loading. Violated: where the class has an attribute of this name (a method or a constant), the value becomes an item and the attribute stays that of the class."
  },
  {
   "property": "C276",
   "status": "partial",
   "theorems": [
    "Verif.Access.C276_closed_partial",
    "Verif.Access.C276_anything_violated",
    "Verif.Access.C276_deleted_violated"
   ],
   "note": "Proved for undeclared names in classes without additional properties. Violated: with additional properties, which is the default, every public name is an attribute (None); after a declared property was deleted hasattr raises KeyError."
  },
  {
   "property": "C277",
   "status": "partial",
   "theorems": [
    "Verif.Access.C277_closed_partial",
    "Verif.Access.C277_private_partial",
    "Verif.Access.C277_none_violated",
    "Verif.Access.C277_by_name_violated",
    "Verif.Access.C277_deleted_violated"
   ],
   "note": "Proved for undeclared names in classes without additional properties, and for private names. Violated: with additional properties None is given instead of the default; with attributeByName what the search raises is raised; after a declared property was deleted KeyError is raised."
  },
  {
   "property": "C278",
   "status": "partial",
   "theorems": [
    "Verif.Access.C278_private_partial",
    "Verif.Access.C278_declared_partial",
    "Verif.Access.C278_additional_violated"
   ],
   "note": "Proved for private names and for complete declared properties that are not required, after any assignment that succeeded. Violated: additional properties cannot be deleted as attributes."
  },
  {
   "property": "C279",
   "status": "proved",
   "theorems": [
    "Verif.Access.C279_closed",
    "Verif.Access.C279_read_only"
   ],
   "note": "For undeclared public names in classes without additional properties and without attributeByName; read-only properties cannot be assigned."
  },
  {
   "property": "C280",
   "status": "proved",
   "theorems": [
    "Verif.Access.C280_nothing_lost",
    "Verif.Access.C280_items"
   ],
   "note": "Keys of the raw data, of the values and of the records of inputs; also when an exception is raised meanwhile."
  },
  {
   "property": "C281",
   "status": "partial",
   "theorems": [
    "Verif.XmlNs.C281_element_partial",
    "Verif.XmlNs.C281_attribute_partial",
    "Verif.XmlNs.C281_plain_partial",
    "Verif.XmlNs.C281_unknown_violated"
   ],
   "note": "Proved for names in known namespaces with a non-empty replacement and for names in no namespace, separators and prefixes of one character. Violated: when namespaces are given and this one is not among them, an element loses its namespace and an attribute also the first letter of its name (@xml:lang is written ang)."
  },
  {
   "property": "C282",
   "status": "partial",
   "theorems": [
    "Verif.XmlNs.C282_known_partial",
    "Verif.XmlNs.C282_plain_partial",
    "Verif.XmlNs.C282_unknown_violated"
   ],
   "note": "Proved if the map of writing inverts that of reading at this namespace, and the short name is not empty, and for names in no namespace. Violated: a namespace in neither map is kept when read and lost when written."
  },
  {
   "property": "C283",
   "status": "partial",
   "theorems": [
    "Verif.XmlNs.C283_distinct_partial",
    "Verif.XmlNs.C283_plain_partial",
    "Verif.XmlNs.C283_confused_violated"
   ],
   "note": "Proved if the two namespaces are read with different, non-empty names; a namespace without short name is read with its own. Violated: namespaces with the same short name, and an empty short name, confuse names."
  },
  {
   "property": "C284",
   "status": "partial",
   "theorems": [
    "Verif.XmlNs.C284_own_partial",
    "Verif.XmlNs.C284_next_violated",
    "Verif.XmlNs.C284_lost_violated"
   ],
   "note": "Proved for documents where every element that declares namespaces has attributes, without repeated prefixes. Violated: an element without attributes passes its declarations on to the next element with attributes; if there is none they are lost."
  },
  {
   "property": "C285",
   "status": "partial",
   "theorems": [
    "Verif.XmlNs.C285_records_partial",
    "Verif.XmlNs.C285_text_violated",
    "Verif.XmlNs.C285_tail_violated"
   ],
   "note": "Proved for documents where an element with comments has attributes or child elements and no text other than white space. Violated: a text followed by a comment becomes a dictionary, and the text behind the comment is put under #tail."
  },
  {
   "property": "C286",
   "status": "partial",
   "theorems": [
    "Verif.XmlNs.C286_options_partial",
    "Verif.XmlNs.C286_ignored_violated"
   ],
   "note": "Proved for namespace_separator, disable_entities and force_list. Violated: process_namespaces and process_comments of a call are ignored, and attr_prefix is taken for both."
  },
  {
   "property": "C287",
   "status": "partial",
   "theorems": [
    "Verif.Pointers.C287_leads_partial",
    "Verif.Pointers.C287_built_partial",
    "Verif.Pointers.C287_escape_violated",
    "Verif.Pointers.C287_shared_violated"
   ],
   "note": "Proved for keys without / and ~, for objects and arrays, in both directions. Violated: keys are not escaped, so the property a/items is built under the identifier of the items of the property a."
  },
  {
   "property": "C288",
   "status": "partial",
   "theorems": [
    "Verif.Refs.C288_found_partial",
    "Verif.Refs.C288_other_violated",
    "Verif.Refs.C288_camel_partial"
   ],
   "note": "Proved: every file cmd_<name>.py is listed, and asking for the listed name gives this file if the name has no capital letters, dashes or dots. Violated: otherwise asking for the listed name never gives this file."
  },
  {
   "property": "C289",
   "status": "partial",
   "theorems": [
    "Verif.Refs.C289_sorted_partial",
    "Verif.Refs.C289_distinct_partial",
    "Verif.Refs.C289_twice_violated"
   ],
   "note": "Proved: the list is sorted and has exactly the files of commands; files without dashes have different commands. Violated: two files whose names differ in a dash and an underscore are listed under one name, twice."
  },
  {
   "property": "C290",
   "status": "partial",
   "theorems": [
    "Verif.Refs.C290_leads_partial",
    "Verif.Refs.C290_dots",
    "Verif.Refs.C290_hosts",
    "Verif.Refs.C290_lost_violated",
    "Verif.Refs.C290_folder_violated"
   ],
   "note": "Proved for paths without dot segments where the target is no folder above the base; dots in the target do not matter, other hosts are refused. Violated: the query, the fragment and a slash at the end of the target are lost; to a folder above the base the URL leads with a slash behind."
  },
  {
   "property": "C291",
   "status": "partial",
   "theorems": [
    "Verif.Refs.C291_registered_partial",
    "Verif.Refs.C291_unknown_violated"
   ],
   "note": "Proved for registered documents: the fragment is resolved as in resolve_fragment (C31 ff.). Violated: an unregistered document gives None for every fragment, without an error."
  },
  {
   "property": "C292",
   "status": "partial",
   "theorems": [
    "Verif.Refs.C292_load_partial",
    "Verif.Refs.C292_unload_partial",
    "Verif.Refs.C292_stays_violated"
   ],
   "note": "Proved: loading registers the content under its $id and nothing else, and unloading takes it back if the document itself has this identifier. Violated: load uses the $id of the content, unload that of the document; if they differ the content stays registered."
  },
  {
   "property": "C293",
   "status": "partial",
   "theorems": [
    "Verif.Classes.C293_definition_partial",
    "Verif.Classes.C293_about_violated"
   ],
   "note": "Proved for the keywords of SCHEMA_DEF_KEYS. Violated: keywords that tell about the class and are not in this list, such as title, description, $id, abstract and relationships, become the defaults of inherited properties of these names."
  },
  {
   "property": "C294",
   "status": "partial",
   "theorems": [
    "Verif.Classes.C294_keys_partial",
    "Verif.Classes.C294_once_partial",
    "Verif.Classes.C294_none_violated"
   ],
   "note": "Proved: declared keys are the keys (class attribute before keyword), otherwise those of the bases, each once; stated for classes without extends. Violated: a class that declares an empty list has the keys of its base."
  },
  {
   "property": "C295",
   "status": "partial",
   "theorems": [
    "Verif.Access.C295_alias_partial",
    "Verif.Access.C295_special_violated",
    "Verif.Access.C295_negated_violated"
   ],
   "note": "Proved for aliases that do not begin with two underscores and stand for a property. Violated: an alias that begins with two underscores is not found, and under a negated alias the value is not negated."
  },
  {
   "property": "C296",
   "status": "proved",
   "theorems": [
    "Verif.Query.C296_equal",
    "Verif.Query.C296_equivalence",
    "Verif.Query.C296_criterion"
   ],
   "note": "Equality of documents as the criteria of a query, the members of an enumeration and the items of a list see it. Floats, dates and other objects are not documents of the model."
  },
  {
   "property": "C297",
   "status": "proved",
   "theorems": [
    "Verif.Query.C297_order",
    "Verif.Query.C297_total",
    "Verif.Query.C297_transitive"
   ],
   "note": "Order of documents: numbers, texts by code points, lists item by item. Everything else is a TypeError."
  },
  {
   "property": "C298",
   "status": "proved",
   "theorems": [
    "Verif.XmlStream.C298_elements",
    "Verif.XmlStream.C298_whole"
   ],
   "note": "For documents without attributes given twice and with names that are no @ or # names. The path is the one at the time of the call: the callback gets the list that the parser goes on changing."
  },
  {
   "property": "C299",
   "status": "partial",
   "theorems": [
    "Verif.XmlStream.C299_children_partial",
    "Verif.XmlStream.C299_bare_partial",
    "Verif.XmlStream.C299_attributes_violated",
    "Verif.XmlStream.C299_text_violated",
    "Verif.XmlStream.C299_empty_violated"
   ],
   "note": "Proved: the children are handed over whatever the document; the whole element if it has no attributes, either children or a text without white space around, and there is no text outside the elements at the depth. Violated: attributes of the element are missing, and the text before an element (such as indentation) is handed over with the element's own text, which is not stripped."
  },
  {
   "property": "C300",
   "status": "proved",
   "theorems": [
    "Verif.XmlStream.C300_stops"
   ],
   "note": "For every sequence of events. What the callback returns may depend on all calls so far."
  },
  {
   "property": "C301",
   "status": "partial",
   "theorems": [
    "Verif.Query.C301_member",
    "Verif.Query.C301_again_partial",
    "Verif.Query.C301_reversed_violated"
   ],
   "note": "Proved: the answer agrees with what iterating would give at that moment; for a query that is not reversed, asking changes nothing. Violated for reversed queries: asking consumes the results."
  },
  {
   "property": "C302",
   "status": "partial",
   "theorems": [
    "Verif.Query.C302_results_partial",
    "Verif.Query.C302_reversed_violated",
    "Verif.Query.C302_negative_violated"
   ],
   "note": "Slices have no step. Violated: a reversed query has neither a number nor parts (TypeError); negative bounds are refused."
  },
  {
   "property": "C303",
   "status": "partial",
   "theorems": [
    "Verif.Query.C303_criteria_partial",
    "Verif.Query.C303_plain_violated",
    "Verif.Query.C303_first_violated"
   ],
   "note": "The places that dpath finds for a path are a parameter; criteria in the plain form of C43. Violated: without criteria nothing is found; search_object_non_rec without a match is a RuntimeError."
  },
  {
   "property": "C304",
   "status": "partial",
   "theorems": [
    "Verif.Check.C304_key_partial",
    "Verif.Check.C304_resolve_violated"
   ],
   "note": "Proved for resolve=False. Violated: with resolve=True the session of the context is not passed on; a new session without repositories is asked and nothing is ever found."
  },
  {
   "property": "C305",
   "status": "partial",
   "theorems": [
    "Verif.Check.C305_types_partial",
    "Verif.Check.C305_outcome"
   ],
   "note": "Exact: the answer is right except in the listed cases. None is not null, booleans are numbers and integers, texts and paths are not uris, texts are arrays and tuples, parsed addresses are tuples, no set is a set. Enumerations: C306."
  },
  {
   "property": "C306",
   "status": "partial",
   "theorems": [
    "Verif.Check.C306_members_partial",
    "Verif.Check.C306_others_violated",
    "Verif.Check.C306_exact_partial"
   ],
   "note": "Proved: members pass, and values counting as false pass only if they are members. Violated: every other value of the type that counts as true passes."
  },
  {
   "property": "C307",
   "status": "partial",
   "theorems": [
    "Verif.Check.C307_true_partial",
    "Verif.Check.C307_false_violated",
    "Verif.Check.C307_missing_violated"
   ],
   "note": "Proved for components that count as true. Violated: a component that counts as false, such as 0, is refused; missing components are not noticed."
  },
  {
   "property": "C308",
   "status": "partial",
   "theorems": [
    "Verif.Check.C308_first_partial",
    "Verif.Check.C308_named_partial",
    "Verif.Check.C308_true_violated",
    "Verif.Check.C308_registered_partial"
   ],
   "note": "Proved: the first registered type that accepts the value is detected, and is_type answers by C305. Violated: that is the type of the schema true, which accepts everything, for every value."
  },
  {
   "property": "C309",
   "status": "partial",
   "theorems": [
    "Verif.Listing.C309_listed",
    "Verif.Listing.C309_same_name_violated"
   ],
   "note": "Exact content and order of the listing. Violated: of two documents with one name the listing gives the last, a lookup by the name the first."
  },
  {
   "property": "C310",
   "status": "partial",
   "theorems": [
    "Verif.Listing.C310_text_partial",
    "Verif.Listing.C310_module_violated",
    "Verif.Listing.C310_empty_violated"
   ],
   "note": "Proved for texts. Violated: modules have no __module__ and AttributeError is raised; a namespace with an empty URI is not held."
  },
  {
   "property": "C311",
   "status": "partial",
   "theorems": [
    "Verif.Listing.C311_given_partial",
    "Verif.Listing.C311_name_violated"
   ],
   "note": "Proved: what is given, when anything is, are the definitions of one document under their names. Violated: the name is not translated to an identifier, so that every name of letters, digits, underscores and dots fails, whatever is known."
  },
  {
   "property": "C312",
   "status": "partial",
   "theorems": [
    "Verif.Repr.C312_class_partial",
    "Verif.Repr.C312_instance_partial",
    "Verif.Repr.C312_lost_violated",
    "Verif.Repr.C312_same_violated"
   ],
   "note": "Holds for classes and for types with an identifier. Violated for instances: repr_schema is a method of the class, so Object(properties={'a': String(minLength=3)}) accepts any string. Exact for primitive types: what the class has is kept."
  },
  {
   "property": "C313",
   "status": "partial",
   "theorems": [
    "Verif.Repr.C313_places_partial",
    "Verif.Repr.C313_places_violated"
   ],
   "note": "Exact for every place. Violated: a type for additionalProperties or in a list of items raises TypeError, items=False accepts everything, items=True is no type."
  },
  {
   "property": "C314",
   "status": "partial",
   "theorems": [
    "Verif.Repr.C314_schema_partial",
    "Verif.Repr.C314_keywords_partial",
    "Verif.Repr.C314_array_partial",
    "Verif.Repr.C314_object_partial",
    "Verif.Repr.C314_first",
    "Verif.Repr.C314_items_violated",
    "Verif.Repr.C314_pattern_violated",
    "Verif.Repr.C314_additional_violated",
    "Verif.Repr.C314_options_violated"
   ],
   "note": "Exactly characterised when the representation is a schema. Violated: items that are classes or constants are left as they are, patterns are compiled, types for additional properties are not shown, options raise TypeError for array and object types."
  },
  {
   "property": "C315",
   "status": "partial",
   "theorems": [
    "Verif.Meta.C315_exact_partial",
    "Verif.Meta.C315_any_violated"
   ],
   "note": "Exact: the check passes iff the keyword complexTypes, at the top or in nested definitions, has one of eight values. Violated: type and $ref have no validator, so every other invalid schema, or a number, passes."
  },
  {
   "property": "C316",
   "status": "partial",
   "theorems": [
    "Verif.PathCheck.C316_sound_partial",
    "Verif.PathCheck.C316_conj_partial",
    "Verif.PathCheck.C316_any_violated",
    "Verif.PathCheck.C316_not_violated"
   ],
   "note": "What is accepted meets the schema, for all schemas. Exact where checks of paths are used in conjunctions only. Violated in anyOf, oneOf, not and if: the checks raise instead of giving errors, so a later alternative is not tried and negations accept nothing."
  },
  {
   "property": "C317",
   "status": "partial",
   "theorems": [
    "Verif.PathCheck.C317_plain_partial",
    "Verif.PathCheck.C317_hides_violated",
    "Verif.PathCheck.C317_other_violated",
    "Verif.PathCheck.C317_check_violated"
   ],
   "note": "Holds, up to errors with an index in their path (C149), for schemas without checks of paths. Violated: a failed check raises ValidationError, which is not InvalidValue, and hides the other errors; values that are not paths raise AttributeError."
  },
  {
   "property": "C318",
   "status": "partial",
   "theorems": [
    "Verif.Setters.C318_eager_partial",
    "Verif.Setters.C318_change_partial",
    "Verif.Setters.C318_lazy_partial",
    "Verif.Setters.C318_lazy_violated",
    "Verif.Setters.C318_same_violated"
   ],
   "note": "Holds without lazy loading for all histories, and when inputs change. Violated with lazy loading: the setter is told by the next reading only, so values assigned in between, and values equal to the present one, are never told."
  },
  {
   "property": "C319",
   "status": "partial",
   "theorems": [
    "Verif.Setters.C319_refused_partial",
    "Verif.Setters.C319_setter_violated",
    "Verif.Setters.C319_lazy_violated",
    "Verif.Setters.C319_value_violated"
   ],
   "note": "Holds for properties that are read only. Violated: when the setter raises, the property has the refused value and gives it; when the value cannot be converted, the property cannot be read any more; with lazy loading it is the first reading that fails."
  },
  {
   "property": "C320",
   "status": "partial",
   "theorems": [
    "Verif.Setters.C320_attribute_partial",
    "Verif.Setters.C320_item_partial",
    "Verif.Setters.C320_item_violated"
   ],
   "note": "Holds for del obj.x, and for del obj['x'] where the name of the property is no identifier. Violated for del obj['x'] otherwise: the deleter is not called, and required properties are deleted."
  },
  {
   "property": "C321",
   "status": "partial",
   "theorems": [
    "Verif.Documents.C321_first_partial",
    "Verif.Documents.C321_path_partial",
    "Verif.Documents.C321_stale_violated",
    "Verif.Documents.C321_uri_violated"
   ],
   "note": "Holds for the first reading, and when another path is assigned. Violated: once read the content is kept whatever becomes of the file, also when the document itself is written; a document with a URI has no content, even if it has a file too."
  },
  {
   "property": "C322",
   "status": "partial",
   "theorems": [
    "Verif.Documents.C322_file_partial",
    "Verif.Documents.C322_refused_partial",
    "Verif.Documents.C322_uri_partial",
    "Verif.Documents.C322_nowhere_violated"
   ],
   "note": "Holds for documents with a path, for encoders that read back what they write; a failure changes nothing; a URI is refused. Violated for documents with neither: writing succeeds and writes nothing."
  },
  {
   "property": "C323",
   "status": "partial",
   "theorems": [
    "Verif.Documents.C323_raw_partial",
    "Verif.Documents.C323_content_violated"
   ],
   "note": "contentRaw raises what decoding raises. Violated for content: it is None for a file that cannot be decoded or parsed, as for one that is missing; reading content never raises."
  },
  {
   "property": "C324",
   "status": "partial",
   "theorems": [
    "Verif.Documents.C324_made_partial",
    "Verif.Documents.C324_charset_violated",
    "Verif.Documents.C324_binary_violated"
   ],
   "note": "Holds for the mode given to the constructor and UTF-8. Violated: charset is never used; a mode that is assigned is used only after it has been read."
  },
  {
   "property": "C325",
   "status": "proved",
   "theorems": [
    "Verif.Documents.C325_delete"
   ],
   "note": "For all documents and file systems."
  },
  {
   "property": "C326",
   "status": "partial",
   "theorems": [
    "Verif.Documents.C326_name_partial",
    "Verif.Documents.C326_uri_violated",
    "Verif.Documents.C326_id_partial",
    "Verif.Documents.C326_id_violated"
   ],
   "note": "Holds for names of documents with a path and for identifiers of objects. Violated: the name of a document with a URI raises AttributeError, so does the identifier of a content that is a list or a text."
  },
  {
   "property": "C327",
   "status": "partial",
   "theorems": [
    "Verif.Documents.C327_first_partial",
    "Verif.Documents.C327_stale_violated"
   ],
   "note": "Holds until a reading has succeeded. Violated afterwards: size, dates and digest stay as they were first read, whatever the file becomes."
  },
  {
   "property": "C328",
   "status": "partial",
   "theorems": [
    "Verif.Getting.C328_keys_partial",
    "Verif.Getting.C328_names_partial",
    "Verif.Getting.C328_more_violated",
    "Verif.Getting.C328_none_violated",
    "Verif.Getting.C328_types_violated",
    "Verif.Getting.C328_operator_violated"
   ],
   "note": "Holds for keys with plain names and as many values as keys. Violated: values in excess are ignored, items with None for a key are not found, arrays with a list of types raise AttributeError, a key named like an operator raises IndexError."
  },
  {
   "property": "C329",
   "status": "proved",
   "theorems": [
    "Verif.ClassProps.C329_get"
   ],
   "note": "For all hierarchies, getters and states."
  },
  {
   "property": "C330",
   "status": "partial",
   "theorems": [
    "Verif.ClassProps.C330_instance_partial",
    "Verif.ClassProps.C330_class_violated",
    "Verif.ClassProps.C330_plain"
   ],
   "note": "Holds for assignments by instances. Violated for assignments by the class: the setter is not called, the value replaces the property, also where there is no setter."
  },
  {
   "property": "C331",
   "status": "partial",
   "theorems": [
    "Verif.Query.C331_texts",
    "Verif.Query.C331_members",
    "Verif.Query.C331_positions",
    "Verif.Query.C331_type_violated",
    "Verif.Query.C331_short_violated",
    "Verif.Query.C331_mapping_violated"
   ],
   "note": "What is satisfied is as stated, for all objects and values. Violated: an object whose attribute is of another type, or whose list is too short, ends the query with an exception instead of being left out; an attribute that is a mapping is never selected by `contains`."
  },
  {
   "property": "C332",
   "status": "partial",
   "theorems": [
    "Verif.Show.C332_message_partial",
    "Verif.Show.C332_init_partial",
    "Verif.Show.C332_tuple_violated"
   ],
   "note": "Without tuples among the arguments given by position the entry is the call as written in Python. Violated: a tuple of one item is logged as the item (others raise, C233)."
  },
  {
   "property": "C333",
   "status": "proved",
   "theorems": [
    "Verif.Temporal.C333_date",
    "Verif.Temporal.C333_datetime"
   ],
   "note": "All twelve layouts, for all days of the calendar; moments with hours, minutes and seconds after a space. `env.conv s = s`: the text is not evaluated (no expression or template in it)."
  },
  {
   "property": "C334",
   "status": "partial",
   "theorems": [
    "Verif.Xml.C334_texts_partial",
    "Verif.Xml.C334_attribute_violated",
    "Verif.Xml.C334_text_violated"
   ],
   "note": "Documents of values of any kind are read back with the texts of the values, at any depth, when the texts make a canonical document (C80). Violated: attributes are written with `str`, elements not, so True and None give different texts; a number under `#text` raises TypeError. Lists in lists and mappings as attributes are left out."
  },
  {
   "property": "C335",
   "status": "proved",
   "theorems": [
    "Verif.Xml.C335_declared"
   ],
   "note": "Without pretty printing and without `namespaces`; the names of all attributes, declarations included, are distinct."
  },
  {
   "property": "C336",
   "status": "partial",
   "theorems": [
    "Verif.Access.C336_again_partial",
    "Verif.Setters.C336_raised_partial",
    "Verif.Setters.C336_setter_violated"
   ],
   "note": "Errors other than AttributeError are the same for the attribute and the item. An AttributeError makes Python ask `__getattr__`, which reads once more: one raised by a setter is lost, and the value is given."
  },
  {
   "property": "C337",
   "status": "partial",
   "theorems": [
    "Verif.Defining.C337_body_partial",
    "Verif.Defining.C337_document_partial",
    "Verif.Defining.C337_schema_violated",
    "Verif.Defining.C337_bases_violated"
   ],
   "note": "With a schema in the body and bases, exactly the bases are extended and what the schema extends is lost; defined by its identifier, the schema of the class does not name its bases."
  },
  {
   "property": "C338",
   "status": "partial",
   "theorems": [
    "Verif.Defining.C338_nodes_partial",
    "Verif.Defining.C338_document_violated",
    "Verif.Defining.C338_body_exact_partial",
    "Verif.Defining.C338_shared_violated"
   ],
   "note": "Other nodes and typed nodes are left alone. A registered node without a type is given one, and the schema of the body is written to, so that a second class sharing it extends the bases of the first."
  },
  {
   "property": "C339",
   "status": "partial",
   "theorems": [
    "Verif.Defining.C339_replaced_partial",
    "Verif.Defining.C339_unknown_partial",
    "Verif.Defining.C339_failed_violated",
    "Verif.Defining.C339_stale_violated"
   ],
   "note": "A successful statement makes a new class, which all later requests return. One that fails in the construction loses the former class for good; identifiers registered as references to it keep giving the former class in any case."
  },
  {
   "property": "C340",
   "status": "partial",
   "theorems": [
    "Verif.Given.C340_value_partial",
    "Verif.Given.C340_keywords_partial",
    "Verif.Given.C340_parameter_violated",
    "Verif.Given.C340_named_value_violated"
   ],
   "note": "Data given as first argument are taken as they are, and keywords are the data otherwise. Keywords named value, lazyLoading, items, validate, context or session are parameters and never data."
  },
  {
   "property": "C341",
   "status": "partial",
   "theorems": [
    "Verif.Given.C341_value_partial",
    "Verif.Given.C341_empty_violated",
    "Verif.Given.C341_refused_violated"
   ],
   "note": "A mapping that is not empty is read as it is. For an empty one the options of the call and the context are read as properties, so that closed types refuse it and open ones get a property context."
  },
  {
   "property": "C342",
   "status": "partial",
   "theorems": [
    "Verif.Labels.C342_current_partial",
    "Verif.Labels.C342_name_violated",
    "Verif.Labels.C342_text_violated",
    "Verif.Labels.C342_given"
   ],
   "note": "Renaming the instance itself, or one inside it, is followed. The canonical name and the text are remembered, and an instance above that is renamed is not noticed."
  },
  {
   "property": "C343",
   "status": "partial",
   "theorems": [
    "Verif.Qualnames.C343_names_partial",
    "Verif.Qualnames.C343_changed_violated",
    "Verif.Qualnames.C343_coroutines_violated"
   ],
   "note": "Functions and classes of a file not read before get the path of the definitions around them, at their line and after decorators of one line each. Coroutines are passed over, and a file that changed is not read again."
  },
  {
   "property": "C344",
   "status": "partial",
   "theorems": [
    "Verif.Names.C344_label_partial",
    "Verif.Names.C344_domains_violated"
   ],
   "note": "Only the first label of the domain is used: the same path in a.org and a.com, or below /a in the home domain, has the same canonical name, for every label and path."
  },
  {
   "property": "C345",
   "status": "partial",
   "theorems": [
    "Verif.Writing.C345_roundtrip_partial",
    "Verif.Writing.C345_default_violated",
    "Verif.Writing.C345_beyond_violated",
    "Verif.Writing.C345_inside_violated",
    "Verif.Writing.C345_empty_violated"
   ],
   "note": "For every nesting of types with one type for the items of each array, and every value that reading gives, what is written is read as the value. Without defaults (the default) no object with a property that has a default, as all arrays do, is written (AttributeError); items beyond the list of types are written as None; a None of an object in an array is lost; an empty array is read as a default that is not empty. Types without aliases, read-only properties and options of the caller."
  },
  {
   "property": "C346",
   "status": "partial",
   "theorems": [
    "Verif.XmlOptions.C346_lists_partial",
    "Verif.XmlOptions.C346_call_partial",
    "Verif.XmlOptions.C346_text_violated",
    "Verif.XmlOptions.C346_always_violated"
   ],
   "note": "In every document, elements of one name stand in a list exactly if there are several or the name is forced. A text as force_list forces every name that is a part of it; True makes lists of the texts of elements with attributes too, and not of attributes."
  },
  {
   "property": "C347",
   "status": "partial",
   "theorems": [
    "Verif.XmlOptions.C347_names_partial",
    "Verif.XmlOptions.C347_text_violated",
    "Verif.XmlOptions.C347_tail_violated",
    "Verif.XmlOptions.C347_attributes_violated"
   ],
   "note": "Holds for every document for elements, attributes and comments. The text of an element without attributes and children is not subject to it; a new value for an element makes its tail disappear, and the postprocessor is not shown the tail; of two attributes given one name the last is kept."
  },
  {
   "property": "C348",
   "status": "proved",
   "theorems": [
    "Verif.XmlOptions.C348_bare"
   ],
   "note": "For all other options, without postprocessor or callable force_list (both are handed the attributes in the path)."
  },
  {
   "property": "C349",
   "status": "partial",
   "theorems": [
    "Verif.XmlOptions.C349_apart_partial",
    "Verif.XmlOptions.C349_empty_violated"
   ],
   "note": "Reading with force_cdata is reading without and putting every text that is a whole value under #text, if #text is not in force_list. Elements without text are empty texts, and no dictionaries."
  },
  {
   "property": "C350",
   "status": "partial",
   "theorems": [
    "Verif.XmlWriter.C350_document_with_other_names_partial",
    "Verif.XmlWriter.C350_refused_root_violated",
    "Verif.XmlWriter.C350_refused_child_violated"
   ],
   "note": "Holds for fragments and for documents whose root is not refused, if the text is not set out or nothing is refused. A refused root gives a document without element instead of an error; in a text that is set out a refused only child leaves an end of line and indentation."
  },
  {
   "property": "C351",
   "status": "proved",
   "theorems": [
    "Verif.XmlWriter.C351_lists_inside_lists",
    "Verif.XmlWriter.C351_text_of_a_list"
   ],
   "note": "The name given as expand_iter is assumed to be that of an element (no attribute, #text or #tail)."
  },
  {
   "property": "C352",
   "status": "partial",
   "theorems": [
    "Verif.XmlSpace.C352_white_space_partial",
    "Verif.XmlSpace.C352_tail_violated"
   ],
   "note": "Holds if every element has at most one text that is not white space and this is its first, and cdata_separator is empty. A text after a child is #text, #tail or lost according to the white space before it."
  },
  {
   "property": "C353",
   "status": "partial",
   "theorems": [
    "Verif.XmlSpace.C353_set_out_partial",
    "Verif.XmlSpace.C353_tail_violated"
   ],
   "note": "Holds for every document without #tail; with a text, two children and a tail the tail is lost if the document is set out."
  },
  {
   "property": "C354",
   "status": "proved",
   "theorems": [
    "Verif.XmlSpace.C354_strip_whitespace",
    "Verif.XmlSpace.C354_text_is_kept"
   ],
   "note": "At the level of the calls of the handler."
  },
  {
   "property": "C355",
   "status": "proved",
   "theorems": [
    "Verif.XmlKeys.C355_keys"
   ],
   "note": "For parse without postprocessor and with force_list no function; the change of keys is one-to-one and keeps the names of the elements."
  },
  {
   "property": "C356",
   "status": "partial",
   "theorems": [
    "Verif.XmlKeys.C356_keys_partial",
    "Verif.XmlKeys.C356_declarations_violated"
   ],
   "note": "Holds for attributes and texts that are neither lists nor dictionaries. The declarations of namespaces are looked for under @xmlns whatever attr_prefix is: with another prefix the text of the dictionary is written."
  },
  {
   "property": "C357",
   "status": "proved",
   "theorems": [
    "Verif.XmlKeys.C357_back"
   ],
   "note": "Canonical documents as in C80, with the keys changed; unparse and parse are given the same keys."
  },
  {
   "property": "C358",
   "status": "partial",
   "theorems": [
    "Verif.Proxy.C358_answer_partial",
    "Verif.Proxy.C358_early_violated"
   ],
   "note": "The exact answer for every history. A negative answer given while the class is under construction is remembered by ABCMeta and repeated after it is built, until some abstract class is registered with."
  },
  {
   "property": "C359",
   "status": "partial",
   "theorems": [
    "Verif.ObjDefault.C359_kept_partial",
    "Verif.ObjDefault.C359_read_partial",
    "Verif.ObjDefault.C359_without_violated",
    "Verif.ObjDefault.C359_plain_violated",
    "Verif.ObjDefault.C359_empty_violated"
   ],
   "note": "Proved with defaults (no_defaults=False), and of reading the result. False by default: classes leave the defaults of their properties out of their default, types of objects that are no classes raise AttributeError as soon as some property has a default. An empty mapping is replaced by the default of the class."
  },
  {
   "property": "C360",
   "status": "partial",
   "theorems": [
    "Verif.Instances.C360_kept",
    "Verif.Instances.C360_same",
    "Verif.Instances.C360_again",
    "Verif.Instances.C360_refused_partial",
    "Verif.Instances.C360_unchecked_violated"
   ],
   "note": "Proved: instances are kept, evaluation is idempotent, and validate=True refuses invalid instances. False without the option: data are then validated, instances are not."
  },
  {
   "property": "C361",
   "status": "proved",
   "theorems": [
    "Verif.Living.C361_found",
    "Verif.Living.C361_gone",
    "Verif.Living.C361_apart",
    "Verif.Living.C361_close"
   ],
   "note": "Over any interleaving of threads; one operation on the counter or on the weak dictionary is taken to be atomic. What close does is empty in the code (session.py 95-96): the theorem says on which sessions it is called."
  },
  {
   "property": "C362",
   "status": "partial",
   "theorems": [
    "Verif.Belonging.C362_objects_partial",
    "Verif.Belonging.C362_answers",
    "Verif.Belonging.C362_leak_violated",
    "Verif.Belonging.C362_outer_violated",
    "Verif.Belonging.C362_empty_violated",
    "Verif.Belonging.C362_shared_partial"
   ],
   "note": "Proved for any history in which no array is given a session and sessions given have entries. False otherwise: an array shares the context it is made in, so a session given to it becomes that of the object around it, or of all that is made on its own later; a session without entries is ignored."
  },
  {
   "property": "C363",
   "status": "partial",
   "theorems": [
    "Verif.LogConfig.C363_loaded_partial",
    "Verif.LogConfig.C363_others_partial",
    "Verif.LogConfig.C363_lost_violated",
    "Verif.LogConfig.C363_handlers_violated",
    "Verif.LogConfig.C363_empty_violated"
   ],
   "note": "Proved: at the top, what the file gives replaces the default and the rest stays; loading succeeds exactly when all names lead somewhere. False below: sections replace the default sections as a whole, so a file with a handler of its own and no loggers is refused; an empty file is refused too."
  },
  {
   "property": "C364",
   "status": "partial",
   "theorems": [
    "Verif.Managers.C364_nearest_partial",
    "Verif.Managers.C364_nested_violated",
    "Verif.Managers.C364_foreign_violated",
    "Verif.Managers.C364_kept_violated"
   ],
   "note": "Proved for identifiers in objects of any depth when no context is put into another as a map. False otherwise: managers in nested contexts are passed over, so keys of foreign keys are always read with the default manager; the manager an object keeps does not follow its context."
  },
  {
   "property": "C365",
   "status": "partial",
   "theorems": [
    "Verif.Modules.C365_latest_partial",
    "Verif.Modules.C365_schemas_partial",
    "Verif.Modules.C365_same_violated",
    "Verif.Modules.C365_again"
   ],
   "note": "Proved for the latest loader of each folder name, after any history, and for the loader of schemas. False for a loader when another was made later for folders of the same name: it is not reached."
  }
 ]
}