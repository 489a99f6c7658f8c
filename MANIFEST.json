{
 "claims": [
  {
   "property": "C01",
   "status": "proved",
   "theorems": [
    "Rebulk.C01_lookups_coherent",
    "Rebulk.C01_tagged_simple",
    "Rebulk.C01_named_many"
   ],
   "note": "Histories of append/insert/extend/remove/pop/del/clear and all lookups, all added matches of the container's kind (a refused add is C18)."
  },
  {
   "property": "C02",
   "status": "partial",
   "theorems": [
    "Rebulk.C02_setItem_refuted",
    "Rebulk.C02_setItem_partial",
    "Rebulk.C02_exact"
   ],
   "note": "False as stated: __setitem__ never removes the replaced match from built indexes. Proved: coherent when no index was built before the assignments. C02_exact: for every history without slice deletion, each lookup shows exactly the matching sequence plus what assignments and reversals overwrote since it was prepared."
  },
  {
   "property": "C03",
   "status": "proved",
   "theorems": [
    "Rebulk.C03_lookups_ordered",
    "Rebulk.C03_equal_matches",
    "Rebulk.C03_pop_refuted"
   ],
   "note": "C03_lookups_ordered: histories without equal matches; C03_equal_matches: equal matches allowed when removal is by value; C03_pop_refuted shows why pop is excluded there."
  },
  {
   "property": "C04",
   "status": "proved",
   "theorems": [
    "Rebulk.C04_behaves_like_list",
    "Rebulk.C04_construct",
    "Rebulk.C04_construct_marker",
    "Rebulk.C04_python_index",
    "Rebulk.C04_python_insert"
   ],
   "note": ""
  },
  {
   "property": "C05",
   "status": "partial",
   "theorems": [
    "Rebulk.C05_names_refuted",
    "Rebulk.C05_names_partial",
    "Rebulk.C05_exact"
   ],
   "note": "False as stated (defaultdict phantom keys, names of removed matches stay). Proved: superset always, exact on a freshly built index. C05_exact: for every history, names/tags are exactly the names/tags held or asked for since the container first looked at them."
  },
  {
   "property": "C06",
   "status": "proved",
   "theorems": [
    "Rebulk.C06_range",
    "Rebulk.C06_sort_unique"
   ],
   "note": "For containers of non-empty matches (overlap is only meaningful there)."
  },
  {
   "property": "C07",
   "status": "partial",
   "theorems": [
    "Rebulk.C07_max_end_refuted",
    "Rebulk.C07_max_end_partial",
    "Rebulk.C07_exact",
    "Rebulk.C07_removal",
    "Rebulk.C07_raised"
   ],
   "note": "Minimality is false after removals. Proved: lower bound always, minimality for histories without removals. C07_exact: for every history, max_end never decreases, bounds every end ever held and the input length, and is 0, the input length, an end once held or a position asked about."
  },
  {
   "property": "C08",
   "status": "proved",
   "theorems": [
    "Rebulk.C08_previous"
   ],
   "note": ""
  },
  {
   "property": "C09",
   "status": "proved",
   "theorems": [
    "Rebulk.C09_next"
   ],
   "note": ""
  },
  {
   "property": "C10",
   "status": "proved",
   "theorems": [
    "Rebulk.C10_conflicting",
    "Rebulk.C10_conflicting_raises"
   ],
   "note": ""
  },
  {
   "property": "C100",
   "status": "partial",
   "theorems": [
    "Rebulk.C100_list_values",
    "Rebulk.C100_values_list_refuted"
   ],
   "note": "The mapping itself is proved for every container and mode but details (hypothesis: no two matches hold the same list object as literal value). The values_list part is false: the first list grows meanwhile, so a later equal value is missed."
  },
  {
   "property": "C101",
   "status": "partial",
   "theorems": [
    "Rebulk.C101_defaults_partial",
    "Rebulk.C101_build_partial",
    "Rebulk.C101_chain_partial",
    "Rebulk.C101_overrides_refuted",
    "Rebulk.C101_build_dicts",
    "Rebulk.C101_build_keys",
    "Rebulk.C101_chain_dicts",
    "Rebulk.C101_defaults_dicts",
    "Rebulk.C101_chain_known"
   ],
   "note": "False for overrides: a dict option listed in overrides is the given object, but the default dict has been merged into it (C101_overrides_refuted). Proved otherwise, for every reachable history: options of patterns and chains, sequences of keys, dict options meeting dict defaults (merged entry by entry, for separate dict objects without nested dicts), what defaults() does, deep copies for chains. Missing: dict options that are nested or share objects."
  },
  {
   "property": "C102",
   "status": "partial",
   "theorems": [
    "Rebulk.C102_refuted",
    "Rebulk.C102_partial",
    "Rebulk.C102_before_lookups_partial",
    "Rebulk.C102_stale",
    "Rebulk.C102_read_back"
   ],
   "note": "False for name, tags, start and end of a contained match once a lookup of the kind was made; C102_stale says exactly what lookups return then, in every state. Proved: right when these attributes are only assigned to while the match is out of the container (other attributes at any time), or before the first lookup and removal."
  },
  {
   "property": "C103",
   "status": "partial",
   "theorems": [
    "Rebulk.C103_refuted",
    "Rebulk.C103_partial",
    "Rebulk.C103_raises",
    "Rebulk.C103_plain"
   ],
   "note": "False for tuples (neither abbreviations nor flags of the pattern are used) and dicts (flags are not used, and the dict of the caller is changed, so that it is expanded again by the next pattern). Proved: exactly what is compiled for each kind of argument, which dicts change and how, all exceptions; with one-character abbreviations occurring in no replacement, every character is replaced by what it stands for and repeated expansion does no harm. Compilation itself (re.compile) is a parameter."
  },
  {
   "property": "C104",
   "status": "partial",
   "theorems": [
    "Rebulk.C104_partial",
    "Rebulk.C104_unchanged",
    "Rebulk.C104_finishes",
    "Rebulk.C104_refuted"
   ],
   "note": "False with rules that change tags: the tag list of a pattern is shared with the matches of all calls (C104_refuted). Proved, for every schedule and any registrations meanwhile, when rules leave the tag lists of patterns alone (all other consequences do, C96_quiet_rules, C96_own_lists). The search of one pattern, when, and then are atomic steps."
  },
  {
   "property": "C105",
   "status": "proved",
   "theorems": [
    "Rebulk.C105_crop",
    "Rebulk.C105_split",
    "Rebulk.C105_changes"
   ],
   "note": "copy.deepcopy is modelled with its memo on a heap of objects; objects it refuses to copy, __deepcopy__ methods and RecursionError are not modelled. Spans of the pieces and exceptions are those of C28 and C29."
  },
  {
   "property": "C106",
   "status": "proved",
   "theorems": [
    "Rebulk.C106_strings",
    "Rebulk.C106_regexes",
    "Rebulk.C106_functions"
   ],
   "note": "Processors that return a match ending before it starts (then a ValueError, C45_processors) are excluded by KeepsOrder. Exceptions raised by user functions: C97."
  },
  {
   "property": "C107",
   "status": "proved",
   "theorems": [
    "Rebulk.C107_history",
    "Rebulk.C107_results"
   ],
   "note": "The operators inherited from collections.abc are modelled between IdentitySets."
  },
  {
   "property": "C108",
   "status": "partial",
   "theorems": [
    "Rebulk.C108_partial",
    "Rebulk.C108_iter",
    "Rebulk.C108_reversed",
    "Rebulk.C108_refuted",
    "Rebulk.C108_remove_loop",
    "Rebulk.C108_remove_reversed",
    "Rebulk.C108_append_loop"
   ],
   "note": "False of reversed: the container raises IndexError where a list stops, and notes its length at the first next instead of when the iterator is made (C108_refuted). C108_iter: proved in full for iter / for loops under any interleaving in which no call on the container raises; C108_partial adds reversed iterators as long as the sequence does not become too short; C108_reversed: what reversed gives under any changes whatever; C108_remove_loop, C108_remove_reversed, C108_append_loop: what the usual loops leave."
  },
  {
   "property": "C109",
   "status": "partial",
   "theorems": [
    "Rebulk.C109_partial",
    "Rebulk.C109_remove_exact",
    "Rebulk.C109_delete_exact",
    "Rebulk.C109_position_partial",
    "Rebulk.C109_position_exact",
    "Rebulk.C109_readable",
    "Rebulk.C109_no_lookup",
    "Rebulk.C109_refuted"
   ],
   "note": "False in general: remove after an insert, and pop, can raise after the match left the sequence and before it left the lookups (C109_refuted). C109_remove_exact and C109_delete_exact: in any container a history of calls gives, exactly when remove and deletions by position raise. C109_partial: in containers filled and emptied by value, remove then changes nothing when it raises. C109_position_exact: deletions by position there, in terms of the sequence; C109_position_partial, C109_no_lookup: special cases. C109_readable: any container, also one whose matches were assigned to, when all values can be read."
  },
  {
   "property": "C11",
   "status": "proved",
   "theorems": [
    "Rebulk.C11_at_index",
    "Rebulk.C11_at_span"
   ],
   "note": ""
  },
  {
   "property": "C110",
   "status": "partial",
   "theorems": [
    "Rebulk.C110_partial",
    "Rebulk.C110_next",
    "Rebulk.C110_live",
    "Rebulk.C110_unique",
    "Rebulk.C110_harmless",
    "Rebulk.C110_refuted"
   ],
   "note": "A loop ends with RuntimeError as soon as a new key is filed, even by looking up an unknown name (C110_refuted). What every step of an iterator gives is characterised exactly for all interleavings (C110_next); views are live and only grow (C110_live); loops that file no new key are complete (C110_partial, C110_harmless)."
  },
  {
   "property": "C111",
   "status": "partial",
   "theorems": [
    "Rebulk.C111_partial",
    "Rebulk.C111_exact",
    "Rebulk.C111_container_remove",
    "Rebulk.C111_refuted"
   ],
   "note": "False for live answers: with RemoveMatch twice on the container, the second consequence gets the third match (C111_refuted). What happens is characterised exactly (C111_exact) and in closed form for removals from the container (C111_container_remove); answers no consequence changes are shared out as they were (C111_partial)."
  },
  {
   "property": "C112",
   "status": "proved",
   "theorems": [
    "Rebulk.C112_scan",
    "Rebulk.C112_determined",
    "Rebulk.C112_answers",
    "Rebulk.C112_returned",
    "Rebulk.answers_string",
    "Rebulk.answers_regex",
    "Rebulk.answers_chain",
    "Rebulk.C112_validated",
    "Rebulk.plain_string",
    "Rebulk.plain_regex"
   ],
   "note": "The search is given as a relation (Spec.Scans) over text, position and steps, independent of the loop of the code; it leaves no choice of spans (C112_determined, without breaker). Parts are regular (Spec.RegularPart: strings, engine-like regular expressions, chains). C112_returned is for chains without validator of their own; C112_validated for those with one (that does not look at children) whose parts are strings or regular expressions without groups."
  },
  {
   "property": "C113",
   "status": "proved",
   "theorems": [
    "Rebulk.C113_length",
    "Rebulk.C113_reversed",
    "Rebulk.C113_truth",
    "Rebulk.C113_raw"
   ],
   "note": ""
  },
  {
   "property": "C114",
   "status": "proved",
   "theorems": [
    "Rebulk.C114_defined_at",
    "Rebulk.C114_otherwise",
    "Rebulk.C114_switch"
   ],
   "note": "ASCII blanks and letters."
  },
  {
   "property": "C115",
   "status": "proved",
   "theorems": [
    "Rebulk.C115_plain_search",
    "Rebulk.C115_one_string"
   ],
   "note": "No option but name and tags (the others: C45-C48, C74, C106)."
  },
  {
   "property": "C116",
   "status": "proved",
   "theorems": [
    "Rebulk.C116_configured_search"
   ],
   "note": "Groups and private options: C119. Chains with a validator: C53, C55."
  },
  {
   "property": "C117",
   "status": "proved",
   "theorems": [
    "Rebulk.C117_word_chain",
    "Rebulk.C117_one_answer",
    "Rebulk.C117_search"
   ],
   "note": "Other parts and options of chains: C44-C55, C79, C107, C109, C112."
  },
  {
   "property": "C118",
   "status": "partial",
   "theorems": [
    "Rebulk.C118_matches",
    "Rebulk.C118_markers_refuted",
    "Rebulk.C118_markers_partial",
    "Rebulk.C118_slice_input_refuted",
    "Rebulk.C118_slice"
   ],
   "note": "Matches(ms) in full. Markers(ms) drops the given markers (refuted; proved: it is an empty container of markers). A slice is a Matches built from the elements, but without input string (refuted)."
  },
  {
   "property": "C119",
   "status": "proved",
   "theorems": [
    "Rebulk.C119_group_search",
    "Rebulk.C119_no_conflict"
   ],
   "note": "Groups of regular expressions (children/every; value, formatter and validator for all, by role or by name; private_names, private_parent, private_children, ignore_names) together with the patterns of C116; the engine of regular expressions is a parameter that reports spans of the input. Captures that agree on span, value, name and whole match are excluded (see C02)."
  },
  {
   "property": "C12",
   "status": "proved",
   "theorems": [
    "Rebulk.C12_chain_before"
   ],
   "note": "Predicates that do not distinguish equal matches."
  },
  {
   "property": "C120",
   "status": "proved",
   "theorems": [
    "Rebulk.C120_key",
    "Rebulk.C120_built_with_key",
    "Rebulk.C120_built_with_keys",
    "Rebulk.C120_built_declared",
    "Rebulk.C120_typed_search",
    "Rebulk.C120_checking",
    "Rebulk.C120_checked_search"
   ],
   "note": "Search patterns as in C119; builder histories without shared dict options as in C101. Converters are functions of the text that do not raise."
  },
  {
   "property": "C121",
   "status": "proved",
   "theorems": [
    "Rebulk.C121_repeated_chain",
    "Rebulk.C121_one_answer",
    "Rebulk.C121_real",
    "Rebulk.C121_complete",
    "Rebulk.C121_search"
   ],
   "note": "Repetition bounds are natural numbers (negative bounds act as 0 and are not covered). Generalises C117 to repeaters and hidden parts."
  },
  {
   "property": "C122",
   "status": "proved",
   "theorems": [
    "Rebulk.C122_search",
    "Rebulk.C122_one_answer",
    "Rebulk.C122_accepted",
    "Rebulk.C122_required_dropped"
   ],
   "note": "From end to end through Chain.run and the default rules. The verdict of the validator must be a function of the hit and the copies (JudgingCopies). C122_required_dropped: the repeater minimum of the last string is not kept under a validator."
  },
  {
   "property": "C123",
   "status": "proved",
   "theorems": [
    "Rebulk.C123_chain_parts",
    "Rebulk.C123_with_others",
    "Rebulk.C123_texts",
    "Rebulk.C123_texts_refuted"
   ],
   "note": "From end to end through Chain.run and the default rules. C123_texts_refuted: with more than one required string, a part found may read something else than its string (the misplaced search of C52/C112)."
  },
  {
   "property": "C124",
   "status": "partial",
   "theorems": [
    "Rebulk.C124_partial",
    "Rebulk.C124_raises",
    "Rebulk.C124_whose",
    "Rebulk.C124_refuted"
   ],
   "note": "The first sentence is false of the code (C124_refuted: two patterns finding one span). C124_partial, C124_raises and C124_whose are the exact version. Public matches found must not be empty; values of parents (children compared by their spans) and log messages are not read."
  },
  {
   "property": "C125",
   "status": "proved",
   "theorems": [
    "Rebulk.C125_local"
   ],
   "note": "Conflict solvers answer from the contents of the two matches (Impartial), CHECK_DECLARED_KEYS off, a pattern object is identified by its id."
  },
  {
   "property": "C126",
   "status": "partial",
   "theorems": [
    "Rebulk.C126_partial",
    "Rebulk.C126_raw",
    "Rebulk.C126_refuted"
   ],
   "note": "Proved when the matches found are ordinary (public ones not empty, without conflict solver or parent, equal ones all public or all private); C126_raw: before the rules, whatever is found. False of children of different parents, judged by the length of the parents: C126_refuted."
  },
  {
   "property": "C127",
   "status": "partial",
   "theorems": [
    "Rebulk.C127_partial",
    "Rebulk.C127_rule",
    "Rebulk.C127_ordinary",
    "Rebulk.C127_refuted"
   ],
   "note": "Proved when no two matches found are equal, for all conflict solvers that name one of their two matches (C127_partial, C127_rule), and for equal matches without conflict solver or parent that are all public or all private (C127_ordinary). False when a private match equals a public one: C127_refuted."
  },
  {
   "property": "C128",
   "status": "proved",
   "theorems": [
    "Rebulk.C128_values",
    "Rebulk.C128_details",
    "Rebulk.C128_models",
    "Rebulk.C128_checks",
    "Rebulk.C128_refused"
   ],
   "note": "Containers built by additions and removals in order for the lookups by name, any container otherwise; the matches of to_dict(details=True) are different objects. The values of parents (compared by == when spans, values and names are equal) do not raise."
  },
  {
   "property": "C129",
   "status": "proved",
   "theorems": [
    "Rebulk.C129_parents",
    "Rebulk.families_string",
    "Rebulk.families_regex",
    "Rebulk.families_functional",
    "Rebulk.families_chain",
    "Rebulk.C129_within",
    "Rebulk.C129_no_conflict"
   ],
   "note": "C129_parents asks of the parts that they find families; families_* show that strings, regular expressions, functions and chains returning their own matches do. Processors are outside: they may set parents as they like. So are, as parts, chains that return the matches inside too. C129_within: for parts whose matches have no children, the chain match is the parent itself and the match lies within its span (a group in a look-ahead need not, C90_children_refuted)."
  },
  {
   "property": "C13",
   "status": "proved",
   "theorems": [
    "Rebulk.C13_chain_after"
   ],
   "note": "Predicates that do not distinguish equal matches."
  },
  {
   "property": "C14",
   "status": "proved",
   "theorems": [
    "Rebulk.C14_holes",
    "Rebulk.C14_holes_cover",
    "Rebulk.C14_hole_matches"
   ],
   "note": "ignore functions that do not distinguish equal matches."
  },
  {
   "property": "C15",
   "status": "partial",
   "theorems": [
    "Rebulk.C15_subrange_refuted",
    "Rebulk.C15_subrange_partial",
    "Rebulk.C15_exact"
   ],
   "note": "False: an extra empty span at start, inverted spans when start is after the end. C15_exact: for every non-negative start and every end exactly what is returned: the maximal runs, when the empty span precedes them, when an inverted span is returned and which."
  },
  {
   "property": "C16",
   "status": "partial",
   "theorems": [
    "Rebulk.C16_separators_refuted",
    "Rebulk.C16_separators_partial",
    "Rebulk.C16_exact",
    "Rebulk.C16_from_zero"
   ],
   "note": "False: a hole may begin with a separator. C16_exact: for every non-negative start and every end inside the input exactly what is returned (a specification with one solution: CutHoles.unique); C16_from_zero: the same for a range from 0, as an equivalence; C16_separators_partial: what remains of the claim."
  },
  {
   "property": "C17",
   "status": "proved",
   "theorems": [
    "Rebulk.C17_filter_index",
    "Rebulk.C17_lookup",
    "Rebulk.C17_named",
    "Rebulk.C17_keyword_wins",
    "Rebulk.C17_names_come_first",
    "Rebulk.C17_not_a_predicate"
   ],
   "note": "predicate and index given by position, by name, swapped, for named as keyword arguments too."
  },
  {
   "property": "C18",
   "status": "partial",
   "theorems": [
    "Rebulk.C18_refused_add_refuted",
    "Rebulk.C18_kinds_partial",
    "Rebulk.C18_refused_add",
    "Rebulk.C18_refused_extend"
   ],
   "note": "Atomicity of a refused add is false."
  },
  {
   "property": "C19",
   "status": "partial",
   "theorems": [
    "Rebulk.C19_slice_refuted",
    "Rebulk.C19_slice_partial",
    "Rebulk.C19_python_slice"
   ],
   "note": "False for markers (AssertionError)."
  },
  {
   "property": "C20",
   "status": "partial",
   "theorems": [
    "Rebulk.C20_del_slice_refuted",
    "Rebulk.C20_del_slice_partial",
    "Rebulk.C20_without"
   ],
   "note": "del of a slice may raise ValueError when the end index is not built."
  },
  {
   "property": "C21",
   "status": "proved",
   "theorems": [
    "Rebulk.C21_to_dict"
   ],
   "note": ""
  },
  {
   "property": "C22",
   "status": "partial",
   "theorems": [
    "Rebulk.C22_to_dict_pure_refuted",
    "Rebulk.C22_to_dict_pure_partial"
   ],
   "note": "False: a list-valued match that is first of its name is extended in place. Proved: otherwise nothing changes."
  },
  {
   "property": "C23",
   "status": "proved",
   "theorems": [
    "Rebulk.C23_typed_access",
    "Rebulk.C23_insert_refuted"
   ],
   "note": "Domain: additions at the end, removals, no two equal matches held at once; C23_insert_refuted shows why insert is excluded."
  },
  {
   "property": "C24",
   "status": "proved",
   "theorems": [
    "Rebulk.C24_to"
   ],
   "note": ""
  },
  {
   "property": "C25",
   "status": "proved",
   "theorems": [
    "Rebulk.C25_check_declared_keys"
   ],
   "note": ""
  },
  {
   "property": "C26",
   "status": "proved",
   "theorems": [
    "Rebulk.C26_equality",
    "Rebulk.C26_equality_fields"
   ],
   "note": ""
  },
  {
   "property": "C27",
   "status": "proved",
   "theorems": [
    "Rebulk.C27_order",
    "Rebulk.C27_sorted"
   ],
   "note": ""
  },
  {
   "property": "C28",
   "status": "proved",
   "theorems": [
    "Rebulk.C28_crop"
   ],
   "note": "Non-empty match, crops with start <= end; maximal runs when the crops are non-empty."
  },
  {
   "property": "C29",
   "status": "proved",
   "theorems": [
    "Rebulk.C29_split"
   ],
   "note": "Span inside the input, no separate raw bounds."
  },
  {
   "property": "C30",
   "status": "proved",
   "theorems": [
    "Rebulk.C30_value",
    "Rebulk.C30_raw",
    "Rebulk.C30_no_raw"
   ],
   "note": ""
  },
  {
   "property": "C31",
   "status": "proved",
   "theorems": [
    "Rebulk.C31_initiator",
    "Rebulk.C31_names",
    "Rebulk.C31_named",
    "Rebulk.C31_tagged",
    "Rebulk.C31_climb",
    "Rebulk.C31_length"
   ],
   "note": "No empty ancestor (initiator stops below a zero-length parent, which is falsy)."
  },
  {
   "property": "C32",
   "status": "proved",
   "theorems": [
    "Rebulk.C32_find_all"
   ],
   "note": ""
  },
  {
   "property": "C33",
   "status": "partial",
   "theorems": [
    "Rebulk.C33_find_all_terminates_refuted",
    "Rebulk.C33_find_all_terminates_partial",
    "Rebulk.C33_find_all_exact"
   ],
   "note": "False for an empty sub (endless). Proved: terminates for every other input, or when the window is empty."
  },
  {
   "property": "C34",
   "status": "proved",
   "theorems": [
    "Rebulk.C34_extend_safe",
    "Rebulk.C34_iterator_refuted"
   ],
   "note": "Re-iterable sources; C34_iterator_refuted shows why iterators are excluded."
  },
  {
   "property": "C35",
   "status": "proved",
   "theorems": [
    "Rebulk.C35_toposort_groups",
    "Rebulk.C35_flatten"
   ],
   "note": ""
  },
  {
   "property": "C36",
   "status": "proved",
   "theorems": [
    "Rebulk.C36_toposort_cycles",
    "Rebulk.C35_flatten"
   ],
   "note": ""
  },
  {
   "property": "C37",
   "status": "partial",
   "theorems": [
    "Rebulk.C37_toposort_pure_refuted",
    "Rebulk.C37_toposort_pure_partial"
   ],
   "note": "False: self-dependencies are discarded from the caller's sets. Proved: that is the only change."
  },
  {
   "property": "C38",
   "status": "proved",
   "theorems": [
    "Rebulk.C38_set_defaults",
    "Rebulk.Spec.isTrueKV_iff"
   ],
   "note": ""
  },
  {
   "property": "C39",
   "status": "partial",
   "theorems": [
    "Rebulk.C39_building_pure_refuted",
    "Rebulk.C39_building_pure_partial",
    "Rebulk.C39_regex_dict_partial"
   ],
   "note": "False: merging a dict-valued default into another dict-valued option changes that dict object, shared with the caller, the builder and earlier patterns; abbreviations rewrite a regex given as a dict. Proved: operations that merge no two dict-valued options change nothing else."
  },
  {
   "property": "C40",
   "status": "partial",
   "theorems": [
    "Rebulk.C40_call_refuted",
    "Rebulk.C40_method_refuted",
    "Rebulk.C40_call_partial",
    "Rebulk.C40_accepted_partial"
   ],
   "note": "False: keyword-only parameters are dropped, ignore_unused=True is passed on to **kwargs functions, bound methods get one positional argument too many and positional-only parameters may be passed by keyword. Proved for plain functions and classes: what is passed, and exactly when Python accepts the call."
  },
  {
   "property": "C41",
   "status": "proved",
   "theorems": [
    "Rebulk.C41_validators_formatters"
   ],
   "note": "Span inside the input."
  },
  {
   "property": "C42",
   "status": "proved",
   "theorems": [
    "Rebulk.C42_string_occurrences",
    "Rebulk.C42_string_text",
    "Rebulk.C42_string_text_ignore_case",
    "Rebulk.C42_string_matches",
    "Rebulk.C106_strings"
   ],
   "note": "Raw matches are exactly the greedy occurrences; text equal (up to character-wise case); complete plain pattern end to end."
  },
  {
   "property": "C43",
   "status": "proved",
   "theorems": [
    "Rebulk.C43_regex_children",
    "Rebulk.C106_regexes"
   ],
   "note": "For every engine result, non-marker patterns (marker patterns: C78)."
  },
  {
   "property": "C44",
   "status": "proved",
   "theorems": [
    "Rebulk.C44_functional_many",
    "Rebulk.C44_functional_one",
    "Rebulk.C44_functional_none",
    "Rebulk.C44_refused",
    "Rebulk.C44_refused_one",
    "Rebulk.C106_functions"
   ],
   "note": "Results that stand for no match raise (C44_refused, C44_refused_one). Beyond (start, end, value, name) positional arguments are not modelled."
  },
  {
   "property": "C45",
   "status": "proved",
   "theorems": [
    "Rebulk.C45_validation",
    "Rebulk.C45_rejected_child",
    "Rebulk.C45_processors"
   ],
   "note": "Validators are arbitrary total functions of the configured match tree."
  },
  {
   "property": "C46",
   "status": "proved",
   "theorems": [
    "Rebulk.C46_emission",
    "Rebulk.C45_validation",
    "Rebulk.C106_strings",
    "Rebulk.C106_regexes",
    "Rebulk.C46_defaults"
   ],
   "note": "C46_emission for accepting validators; C45_validation gives the same emission whenever the validators accept."
  },
  {
   "property": "C47",
   "status": "proved",
   "theorems": [
    "Rebulk.C47_formatter",
    "Rebulk.C77_inherited_keys"
   ],
   "note": "With C77_inherited_keys for declared keys."
  },
  {
   "property": "C48",
   "status": "partial",
   "theorems": [
    "Rebulk.C48_value_refuted",
    "Rebulk.C48_value_partial",
    "Rebulk.Spec.isTrue_iff"
   ],
   "note": "False for falsy values (value=0); proved for truthy ones."
  },
  {
   "property": "C49",
   "status": "proved",
   "theorems": [
    "Rebulk.C49_match_index"
   ],
   "note": ""
  },
  {
   "property": "C50",
   "status": "partial",
   "theorems": [
    "Rebulk.C50_repeater_partial",
    "Rebulk.C50_exactly_is_at_least",
    "Rebulk.C50_refuted",
    "Rebulk.C50_number_text",
    "Rebulk.C50_braced",
    "Rebulk.C50_ignored"
   ],
   "note": "False for '{n}', which the code reads as '{n,}'. Proved for every other notation."
  },
  {
   "property": "C51",
   "status": "partial",
   "theorems": [
    "Rebulk.C51_repeater_bounds_partial",
    "Rebulk.C51_upper_refuted",
    "Rebulk.C51_lower_refuted"
   ],
   "note": "Proved for parts that search one pattern (regular_string, regular_regex). False for parts with several patterns (each counted alone) and for visible matches when a validator rejects occurrences."
  },
  {
   "property": "C52",
   "status": "partial",
   "theorems": [
    "Rebulk.C52_adjacent_partial",
    "Rebulk.C52_refuted",
    "Rebulk.C52_run",
    "Rebulk.C52_exact"
   ],
   "note": "Between the parts: proved for parts that search one pattern; false for parts with several patterns. What one part keeps is characterised exactly for every pattern."
  },
  {
   "property": "C53",
   "status": "partial",
   "theorems": [
    "Rebulk.C53_real_matches_partial",
    "Rebulk.C53_refuted",
    "Rebulk.C53_drift_partial"
   ],
   "note": "False after an attempt failed half way through the parts (positions shifted). Proved for chains that can only fail at their first match. C53_drift_partial covers every chain of regular parts: a child is misplaced only if it comes from the first part found in its attempt, and then it is reported too early, never too late."
  },
  {
   "property": "C54",
   "status": "proved",
   "theorems": [
    "Rebulk.C54_terminates"
   ],
   "note": ""
  },
  {
   "property": "C55",
   "status": "partial",
   "theorems": [
    "Rebulk.C55_backtracking_partial",
    "Rebulk.C55_nested_refuted"
   ],
   "note": "False when the last part is a chain: the matches below it stay (C55_nested_refuted). Proved for the repetitions of the pattern of the last child, children pairwise different."
  },
  {
   "property": "C56",
   "status": "proved",
   "theorems": [
    "Rebulk.C56_only_accepted_children",
    "Rebulk.C56_breaker_and_hidden",
    "Rebulk.C56_hidden_never_shown"
   ],
   "note": "C56_only_accepted_children for parts of any kind; C56_breaker_and_hidden adds how the search advances, for parts that search one pattern."
  },
  {
   "property": "C57",
   "status": "partial",
   "theorems": [
    "Rebulk.C57_partial",
    "Rebulk.C57_refuted",
    "Rebulk.C57_objects",
    "Rebulk.C57_exact"
   ],
   "note": "Registration order is not kept when one class is registered at two priorities (C57_refuted). C57_exact: in every case what the order is: priority, dependency level, first registration of the class; C57_partial: class dependencies; C57_objects: objects of classes registered at the same priority, whatever the rules do."
  },
  {
   "property": "C58",
   "status": "proved",
   "theorems": [
    "Rebulk.C58_once",
    "Rebulk.C58_returns",
    "Rebulk.C58_duplicates",
    "Rebulk.C58_cyclic",
    "Rebulk.C58_object_twice",
    "Rebulk.C58_object_unregistered",
    "Rebulk.C58_unregistered"
   ],
   "note": "Dependencies given as objects: C57_objects (class registered at the same priority), C58_unregistered (class not registered: ValueError), C58_object_twice (registered at another priority: runs twice)."
  },
  {
   "property": "C59",
   "status": "partial",
   "theorems": [
    "Rebulk.C59_partial",
    "Rebulk.C59_across",
    "Rebulk.C59_refuted"
   ],
   "note": "False: execute_all_rules calls when and then rule by rule."
  },
  {
   "property": "C60",
   "status": "proved",
   "theorems": [
    "Rebulk.C60",
    "Rebulk.C60_raises",
    "Rebulk.C60_inert",
    "Rebulk.C60_all_inert"
   ],
   "note": ""
  },
  {
   "property": "C61",
   "status": "proved",
   "theorems": [
    "Rebulk.C61_many",
    "Rebulk.C61_one",
    "Rebulk.C61_filter",
    "Rebulk.C61_lookups",
    "Rebulk.C61_closed",
    "Rebulk.C61_counts"
   ],
   "note": " C61_closed / C61_counts: the closed form \u2014 in each class of equal matches the first k go, k = number of answers in that class."
  },
  {
   "property": "C62",
   "status": "partial",
   "theorems": [
    "Rebulk.C62_many",
    "Rebulk.C62_shape",
    "Rebulk.C62_one",
    "Rebulk.C62_partial",
    "Rebulk.C62_one_named",
    "Rebulk.C62_refuted",
    "Rebulk.C62_named_duplicate",
    "Rebulk.C62_lookups"
   ],
   "note": "Without a name: proved (C62_many, C62_shape, C62_one). With a name: proved for different objects; a single answer already contained is renamed in place and the name lookups become wrong (C62_refuted)."
  },
  {
   "property": "C63",
   "status": "partial",
   "theorems": [
    "Rebulk.C63_partial",
    "Rebulk.C63_one",
    "Rebulk.C63_refuted",
    "Rebulk.C63_equal_refuted",
    "Rebulk.C63_marker"
   ],
   "note": "A single zero-length answer is lost (C63_refuted); with equal matches another object may be lost (C63_equal_refuted). Proved for containers without equal matches. C63_marker: an answer of the other sort (a marker) equal to a contained match raises AssertionError, which comes out, after the contained one was taken out."
  },
  {
   "property": "C64",
   "status": "partial",
   "theorems": [
    "Rebulk.C64_append_partial",
    "Rebulk.C64_remove_partial",
    "Rebulk.C64_append_one",
    "Rebulk.C64_remove_one",
    "Rebulk.C64_refuted"
   ],
   "note": "A single zero-length answer is lost (C64_refuted). Proved for matches that share no tag list, in containers without equal matches."
  },
  {
   "property": "C65",
   "status": "partial",
   "theorems": [
    "Rebulk.C65_refuted",
    "Rebulk.C65_partial",
    "Rebulk.C65_leak"
   ],
   "note": "False: the tag list of a pattern is shared by its matches. C65_leak says exactly how each list changes; C65_partial that nothing else changes when lists are not shared."
  },
  {
   "property": "C66",
   "status": "proved",
   "theorems": [
    "Rebulk.C66",
    "Rebulk.C66_equal_refuted",
    "Rebulk.C67_equal_matches"
   ],
   "note": "The quantifier's pairwise distinct matches; public matches non empty (an empty one makes the rule raise, see C84). C67_equal_matches: equal matches allowed when they are alike public or private; C66_equal_refuted shows what happens otherwise."
  },
  {
   "property": "C67",
   "status": "proved",
   "theorems": [
    "Rebulk.C67",
    "Rebulk.C67_kept",
    "Rebulk.C67_exact",
    "Rebulk.C67_equal_matches"
   ],
   "note": ""
  },
  {
   "property": "C68",
   "status": "proved",
   "theorems": [
    "Rebulk.C68_order",
    "Rebulk.C68",
    "Rebulk.C68_not_mutual",
    "Rebulk.C68_rule",
    "Rebulk.C68_named",
    "Rebulk.C68_empty_kept"
   ],
   "note": "For solvers that name only matches of the pair they are asked about."
  },
  {
   "property": "C69",
   "status": "proved",
   "theorems": [
    "Rebulk.C69",
    "Rebulk.C69_lookups",
    "Rebulk.C69_conflict"
   ],
   "note": ""
  },
  {
   "property": "C70",
   "status": "partial",
   "theorems": [
    "Rebulk.C70_partial",
    "Rebulk.C70_refuted",
    "Rebulk.C70_lookups",
    "Rebulk.C70_exact"
   ],
   "note": "A private match equal to a public one found before it stays and the public one goes (C70_refuted); proved otherwise. C70_exact: for every container, what is left in closed form (in each class of equal matches the first k go, k = private ones in it), and of each class as many matches are left as there were public ones."
  },
  {
   "property": "C71",
   "status": "proved",
   "theorems": [
    "Rebulk.C71_patterns",
    "Rebulk.C71_rules",
    "Rebulk.C71_determined",
    "Rebulk.C71_keys",
    "Rebulk.C71_once"
   ],
   "note": "Children are one level deep, as in the code."
  },
  {
   "property": "C72",
   "status": "proved",
   "theorems": [
    "Rebulk.C72_rebulk",
    "Rebulk.C72_child",
    "Rebulk.C72_pattern"
   ],
   "note": ""
  },
  {
   "property": "C73",
   "status": "proved",
   "theorems": [
    "Rebulk.C73_collects",
    "Rebulk.C73_raises",
    "Rebulk.C73_total",
    "Rebulk.C73_then_rules"
   ],
   "note": "Up to the numbering of the match objects."
  },
  {
   "property": "C74",
   "status": "proved",
   "theorems": [
    "Rebulk.C74_distinct",
    "Rebulk.C74_ordinary",
    "Rebulk.C74_simple",
    "Rebulk.C74_equal_refuted",
    "Rebulk.C74_built"
   ],
   "note": "C74_distinct is the property for pairwise distinct matches; C74_ordinary says exactly which matches remain in the usual case; C74_simple needs no hypothesis on what is found; without distinctness it is false (C74_equal_refuted)."
  },
  {
   "property": "C75",
   "status": "proved",
   "theorems": [
    "Rebulk.C75",
    "Rebulk.C75_disabled"
   ],
   "note": ""
  },
  {
   "property": "C76",
   "status": "proved",
   "theorems": [
    "Rebulk.C76",
    "Rebulk.C76_determined"
   ],
   "note": ""
  },
  {
   "property": "C77",
   "status": "proved",
   "theorems": [
    "Rebulk.C77_single_key",
    "Rebulk.C77_key_sequence",
    "Rebulk.C77_declare_keys",
    "Rebulk.C77_inherited_keys"
   ],
   "note": "C77_inherited_keys: formatter dict existing before the build."
  },
  {
   "property": "C78",
   "status": "partial",
   "theorems": [
    "Rebulk.C78_marker_regex_refuted",
    "Rebulk.C78_marker_regex_partial",
    "Rebulk.C78_marker_string_partial",
    "Rebulk.C44_functional_many"
   ],
   "note": "False for regular expressions with a matching group (AssertionError); proved for the rest."
  },
  {
   "property": "C79",
   "status": "partial",
   "theorems": [
    "Rebulk.C79_found_partial",
    "Rebulk.C79_refuted",
    "Rebulk.C53_refuted",
    "Rebulk.C79_two_partial",
    "Rebulk.C79_strings_partial",
    "Rebulk.C79_three_refuted",
    "Rebulk.C79_first_partial"
   ],
   "note": "False when an occurrence of the first part has too few repetitions (the search ends). Proved for chains whose first part need not be repeated and whose other parts are optional. C79_two_partial adds chains with a second required part (any repeater); C79_strings_partial instantiates it for strings without hypotheses on the parts."
  },
  {
   "property": "C80",
   "status": "partial",
   "theorems": [
    "Rebulk.C80_part_formatter_partial",
    "Rebulk.C80_refuted"
   ],
   "note": "False when the chain includes the children (the chain's default formatter overrides)."
  },
  {
   "property": "C81",
   "status": "partial",
   "theorems": [
    "Rebulk.C81_greedy_partial",
    "Rebulk.C81_refuted"
   ],
   "note": "False for parts with several sub-patterns (C81_refuted); proved for parts that search one pattern."
  },
  {
   "property": "C82",
   "status": "partial",
   "theorems": [
    "Rebulk.C82_partial",
    "Rebulk.C82_refuted"
   ],
   "note": "False: a match is removed in favour of a longer one that is removed later (C82_refuted); a chain of longer matches leads to a survivor (C82_partial)."
  },
  {
   "property": "C83",
   "status": "proved",
   "theorems": [
    "Rebulk.C83_many",
    "Rebulk.C83_one",
    "Rebulk.C83_none",
    "Rebulk.C83_complete"
   ],
   "note": ""
  },
  {
   "property": "C84",
   "status": "partial",
   "theorems": [
    "Rebulk.C84_exactly",
    "Rebulk.C84_partial",
    "Rebulk.C84_refuted",
    "Rebulk.C66_zero_length"
   ],
   "note": "False exactly when a public match is empty (C84_exactly: the conflict rule raises iff some public match has end <= start). The private rule never raises."
  },
  {
   "property": "C85",
   "status": "partial",
   "theorems": [
    "Rebulk.C85_partial",
    "Rebulk.C85_refuted"
   ],
   "note": "False from the second level on (C85_refuted); proved for the rebulk and its direct children."
  },
  {
   "property": "C86",
   "status": "partial",
   "theorems": [
    "Rebulk.C86_partial",
    "Rebulk.C86_refuted_chain",
    "Rebulk.C86_refuted_values"
   ],
   "note": "False for chains and for patterns with a value= for a group; proved for the other patterns without declared properties."
  },
  {
   "property": "C87",
   "status": "proved",
   "theorems": [
    "Rebulk.C87",
    "Rebulk.C87_names"
   ],
   "note": ""
  },
  {
   "property": "C88",
   "status": "partial",
   "theorems": [
    "Rebulk.C88_partial",
    "Rebulk.C88_determined",
    "Rebulk.C88_refuted",
    "Rebulk.C88_raises"
   ],
   "note": "False: functions and other own members are called too (the predicate returns inspect.isclass instead of calling it). Proved when the own members are all rule classes."
  },
  {
   "property": "C89",
   "status": "proved",
   "theorems": [
    "Rebulk.C89"
   ],
   "note": ""
  },
  {
   "property": "C90",
   "status": "partial",
   "theorems": [
    "Rebulk.C90_in_order_partial",
    "Rebulk.C90_returned_partial",
    "Rebulk.C90_nested_chain",
    "Rebulk.C90_refuted",
    "Rebulk.C90_children_refuted"
   ],
   "note": "False in general: a part with several sub-patterns (or whose occurrences overlap) gives overlapping chain matches (C90_refuted), and a look-ahead group gives a child outside its match (C90_children_refuted). Proved for parts whose own matches are tidy (one string, regular expressions without look-around captures, nested chains of such), at any nesting depth and for every input."
  },
  {
   "property": "C91",
   "status": "proved",
   "theorems": [
    "Rebulk.C91_same_matches",
    "Rebulk.C91_raw_strings",
    "Rebulk.C91_raw_regexes",
    "Rebulk.C91_raw_functions"
   ],
   "note": ""
  },
  {
   "property": "C92",
   "status": "proved",
   "theorems": [
    "Rebulk.C92",
    "Rebulk.C92_determined",
    "Rebulk.C92_repeater",
    "Rebulk.C92_returns",
    "Rebulk.C92_own_rules"
   ],
   "note": "The registered objects as read by matches() are determined by the history (C92_determined). One call of repeater is C50, one call of rules() is C88."
  },
  {
   "property": "C93",
   "status": "proved",
   "theorems": [
    "Rebulk.C93",
    "Rebulk.C93_every_builder"
   ],
   "note": ""
  },
  {
   "property": "C94",
   "status": "partial",
   "theorems": [
    "Rebulk.C94_partial",
    "Rebulk.C94_refuted"
   ],
   "note": "False: reset() calls __init__() again, so patterns, rules, keys, children and the disabled flag are lost, and default rules come back. Proved: what is left is a fresh Rebulk(), and nothing else changes."
  },
  {
   "property": "C95",
   "status": "partial",
   "theorems": [
    "Rebulk.C95_refuted",
    "Rebulk.C95_partial",
    "Rebulk.C95_exact"
   ],
   "note": "False: the log_level argument is never stored, the engine then raises AttributeError. C95_exact: whatever levels the rules have, which rules are run before it does, and that they are run as without logging. C95_partial: when all rules have a level, logging changes nothing and each record has the right level."
  },
  {
   "property": "C96",
   "status": "partial",
   "theorems": [
    "Rebulk.C96_refuted",
    "Rebulk.C96_partial",
    "Rebulk.C96_quiet_rules",
    "Rebulk.C96_own_lists",
    "Rebulk.C96_first",
    "Rebulk.C96_tags"
   ],
   "note": "False with AppendTags/RemoveTags: the tag list of the pattern is shared with its matches and keeps the change. Proved for rules that leave the tag lists of patterns alone, which covers all other consequences and retagging of matches with lists of their own."
  },
  {
   "property": "C97",
   "status": "partial",
   "theorems": [
    "Rebulk.C97_refuted",
    "Rebulk.C97_partial",
    "Rebulk.C97_not_swallowed",
    "Rebulk.C97_silent"
   ],
   "note": "False for StopIteration: raised by a validator or processor inside a generator it becomes RuntimeError. Proved for everything else: what comes out is an exception of a user function (or RuntimeError for a StopIteration) or an exception of rebulk that occurs without it too; what returns does not depend on the raising calls; without exceptions both models agree. User functions are taken not to raise the private _InvalidChainException; formatters are called when a value is read and are not covered."
  },
  {
   "property": "C98",
   "status": "partial",
   "theorems": [
    "Rebulk.C98_refuted",
    "Rebulk.C98_partial",
    "Rebulk.C98_live",
    "Rebulk.C98_extend_diverges"
   ],
   "note": "False for at_index without predicate, which returns the list of the index itself (match.py:759). Proved for every history in which at_index has a predicate; and without changes by the caller the list got from at_index is what at_index would return now."
  },
  {
   "property": "C99",
   "status": "partial",
   "theorems": [
    "Rebulk.C99_refuted",
    "Rebulk.C99_no_exception",
    "Rebulk.C99_partial"
   ],
   "note": "False for an iterator or generator assigned to a slice (iterated twice, match.py:959-962), for the deletion of a slice of two matches before any ending lookup (C20) and for slices of markers (C19). Proved: from any state a call that does not raise acts as on a list; for every history without the three cases each call acts, returns and raises as on a list."
  }
 ]
}