{"id": "C01", "title": "Attribute lookups stay coherent with the sequence", "statement": "After any history of append / insert / extend / remove / pop / del m[i] / clear calls on a Matches object, interleaved with any lookups, named(n), tagged(t), starting(i), ending(i) and at_index(i) return exactly the matches currently in the sequence that have that name / tag / start / end / cover that index, each with the right multiplicity, up to match equality (==).", "quantifier": "every finite history of mutating calls and lookups, every match content (including equal duplicates), every key looked up", "why_tests_cant": "lookups are served from lazily built and incrementally updated indexes; a stale entry only shows for particular interleavings of lookups and mutations", "anchors": ["rebulk/match.py:_BaseMatches._add_match", "rebulk/match.py:_BaseMatches._remove_match", "rebulk/match.py:_BaseMatches._name_dict", "rebulk/match.py:_BaseMatches._tag_dict", "rebulk/match.py:_BaseMatches._start_dict", "rebulk/match.py:_BaseMatches._end_dict", "rebulk/match.py:_BaseMatches._index_dict"]}
{"id": "C02", "title": "Item assignment keeps lookups coherent", "statement": "After matches[i] = m (or reverse(), which is made of item assignments) lookups no longer return the replaced match and return the new one once.", "quantifier": "every Matches history containing an item assignment", "why_tests_cant": "only fails when the lookup index was built before the assignment", "anchors": ["rebulk/match.py:_BaseMatches.__setitem__"]}
{"id": "C03", "title": "Lookups preserve match order", "statement": "For histories that only add at the end and remove, and never hold two equal matches, named / tagged / starting / ending / at_index return the matches in sequence order: the result is literally the filtered sequence, whether or not the index was built before the history.", "quantifier": "every such history and key", "why_tests_cant": "order depends on whether the index was built lazily (from the sequence) or incrementally (in insertion order)", "anchors": ["rebulk/match.py:_BaseMatches._add_match", "rebulk/match.py:_BaseMatches._name_dict", "rebulk/match.py:_BaseMatches.named"]}
{"id": "C04", "title": "A Matches object behaves like a list", "statement": "len, matches[i], iteration, append, insert, extend, remove, pop, del, clear act on a Matches object exactly as on a Python list of its matches (remove/index use ==, negative indexes count from the end, insert clamps), and lookups never change the sequence.", "quantifier": "every history of those calls", "why_tests_cant": "quantifies over all histories and indexes, including negative and out of range ones", "anchors": ["rebulk/match.py:_BaseMatches.__getitem__", "rebulk/match.py:_BaseMatches.__delitem__", "rebulk/match.py:_BaseMatches.insert", "rebulk/match.py:_BaseMatches.__len__"]}
{"id": "C05", "title": "names and tags list exactly the names and tags present", "statement": "matches.names (matches.tags) contains exactly the non-empty names (tags) of the matches currently in the sequence.", "quantifier": "every history of mutations and lookups", "why_tests_cant": "the views are the keys of a default dict, so earlier lookups and removals can leave keys behind", "anchors": ["rebulk/match.py:_BaseMatches.names", "rebulk/match.py:_BaseMatches.tags", "rebulk/match.py:_BaseMatches.named"]}
{"id": "C06", "title": "range returns the overlapping matches, sorted", "statement": "range(start, end) returns exactly the contained matches that overlap [start, end), sorted by (start, end), ties in sequence order; with end omitted, exactly those whose end is after start.", "quantifier": "every reachable Matches object, every start and end", "why_tests_cant": "the upper bound is clamped by a cached maximum, which must never be below a contained end", "anchors": ["rebulk/match.py:_BaseMatches.range", "rebulk/match.py:_BaseMatches.max_end"]}
{"id": "C07", "title": "max_end tracks the content", "statement": "max_end is never below the end of a contained match nor below the input length; and it is the least such value for the current content.", "quantifier": "every history of mutations and lookups", "why_tests_cant": "cached value maintained incrementally; wrong only after particular removals/lookups", "anchors": ["rebulk/match.py:_BaseMatches.max_end", "rebulk/match.py:_BaseMatches._remove_match"]}
{"id": "C08", "title": "previous returns the nearest preceding matches", "statement": "previous(m) returns exactly the contained matches whose end is the greatest end at or before m.start (all of them), and nothing iff no contained match ends in [0, m.start].", "quantifier": "every reachable Matches object and every match m", "why_tests_cant": "nearest is a claim over all matches and gaps of any length", "anchors": ["rebulk/match.py:_BaseMatches.previous"]}
{"id": "C09", "title": "next returns the nearest following matches", "statement": "next(m) returns exactly the contained matches whose start is the least start strictly after m.start, and nothing iff no contained match starts after m.start, when contained matches have start <= end.", "quantifier": "every reachable Matches object and every match m", "why_tests_cant": "search is bounded by the cached maximum end, must be right for all gaps", "anchors": ["rebulk/match.py:_BaseMatches.next"]}
{"id": "C10", "title": "conflicting returns the overlapping others", "statement": "For a non-empty contained match m, conflicting(m) returns, without repetition (up to ==), exactly the contained matches different from m that share at least one index with m; for an empty match, or one equal to no contained match, the call raises ValueError.", "quantifier": "every reachable Matches object and match", "why_tests_cant": "overlap must be exact for all interval configurations", "anchors": ["rebulk/match.py:_BaseMatches.conflicting"]}
{"id": "C11", "title": "at_index / at_span / at_match positions", "statement": "at_index(i) returns the contained matches with start <= i < end; at_span((s,e)) and at_match return, without repetition when no two contained matches are equal, exactly those covering s or covering e-1 (so a match strictly inside the span is not returned).", "quantifier": "every reachable Matches object, span and index", "why_tests_cant": "exactness over all intervals", "anchors": ["rebulk/match.py:_BaseMatches.at_span", "rebulk/match.py:_BaseMatches.at_index", "rebulk/match.py:_BaseMatches.at_match"]}
{"id": "C12", "title": "chain_before follows matches and separators backwards", "statement": "For positions inside the input string: chain_before(position, seps, start, predicate) returns exactly the matches satisfying predicate that cover an index i in [start, position) such that every index between i and position is covered by a satisfying match or is a separator character; no repetitions.", "quantifier": "every Matches object, position, separator set, start and predicate", "why_tests_cant": "a reachability statement over arbitrarily long inputs", "anchors": ["rebulk/match.py:_BaseMatches.chain_before"]}
{"id": "C13", "title": "chain_after follows matches and separators forwards", "statement": "For positions inside the input string: chain_after(position, seps, end, predicate) returns exactly the matches satisfying predicate that cover an index i in [position, end) such that every index from position up to i is covered by a satisfying match or is a separator character; no repetitions.", "quantifier": "every Matches object, position, separator set, end and predicate", "why_tests_cant": "a reachability statement over arbitrarily long inputs", "anchors": ["rebulk/match.py:_BaseMatches.chain_after"]}
{"id": "C14", "title": "holes of the whole input are the maximal uncovered runs", "statement": "For contained (non ignored) matches of positive length: holes() (start 0, no separators, any ignore function) returns, in increasing order, exactly the maximal runs of indexes of [0, end) covered by no (non ignored) match; they are non-empty and disjoint and with the matches they cover [0, end).", "quantifier": "every Matches object with non-empty matches, every end and ignore function", "why_tests_cant": "all interval configurations, including adjacent, nested and overlapping matches", "anchors": ["rebulk/match.py:_BaseMatches.holes", "rebulk/match.py:_BaseMatches._hole_start", "rebulk/match.py:_BaseMatches._hole_end"]}
{"id": "C15", "title": "holes of a sub-range are well formed", "statement": "For contained (non ignored) matches of positive length: holes(start, end) returns non-empty holes inside [start, end), exactly the maximal uncovered runs of that range.", "quantifier": "every Matches object, start and end", "why_tests_cant": "only misbehaves for particular relative positions of start, the match before it and the match at it", "anchors": ["rebulk/match.py:_BaseMatches.holes", "rebulk/match.py:_BaseMatches._hole_start"]}
{"id": "C16", "title": "holes with separators", "statement": "With seps, no returned hole contains a separator character and every returned hole is a non-empty run inside the requested range.", "quantifier": "every input, separator set and Matches object", "why_tests_cant": "depends on runs of consecutive separators", "anchors": ["rebulk/match.py:_BaseMatches.holes"]}
{"id": "C17", "title": "predicate and index arguments", "statement": "For every lookup, passing a predicate keeps exactly the results satisfying it in order, and passing an index (also positionally in place of predicate) then returns the element at this Python index, or None when out of range.", "quantifier": "every collection, predicate and index (negative included)", "why_tests_cant": "all collections and indexes", "anchors": ["rebulk/loose.py:filter_index"]}
{"id": "C18", "title": "Markers and matches never mix, failed adds change nothing", "statement": "A Matches sequence only ever holds non-marker matches and its markers sequence only markers; an append or insert that is refused (AssertionError) leaves the sequence unchanged.", "quantifier": "every history of adds, including refused ones", "why_tests_cant": "needs every crash point of an add in any history", "anchors": ["rebulk/match.py:Matches._add_match", "rebulk/match.py:Markers._add_match", "rebulk/match.py:_BaseMatches.insert"]}
{"id": "C19", "title": "Slicing returns the slice", "statement": "matches[a:b] returns a Matches holding exactly the slice, for matches and for markers.", "quantifier": "every sequence and slice bounds", "why_tests_cant": "all bounds, both container kinds", "anchors": ["rebulk/match.py:_BaseMatches.__getitem__"]}
{"id": "C20", "title": "Deleting a slice", "statement": "del matches[a:b] removes exactly the slice, never fails and keeps lookups coherent.", "quantifier": "every sequence, slice bounds and lookup history", "why_tests_cant": "failure depends on which indexes were built and on the order of the ends in the slice", "anchors": ["rebulk/match.py:_BaseMatches.__delitem__", "rebulk/match.py:_BaseMatches._remove_match"]}
{"id": "C21", "title": "to_dict content in every mode", "statement": "to_dict maps each name present to the distinct values of its matches in position order: the value alone when there is one and the list otherwise (default), the first only (first_value), always a list (enforce_list); keys appear in order of first position; .matches maps each name to all its matches in position order and .values_list to its distinct values.", "quantifier": "every sequence of matches with non-list values and every mode combination", "why_tests_cant": "all sequences, duplicates and orders", "anchors": ["rebulk/match.py:_BaseMatches.to_dict", "rebulk/match.py:MatchesDict"]}
{"id": "C22", "title": "to_dict does not change the matches", "statement": "Calling to_dict never changes the value of any match.", "quantifier": "every sequence of matches, list-valued matches included", "why_tests_cant": "aliasing between a list value and the result list only shows with list values followed by another value", "anchors": ["rebulk/match.py:_BaseMatches.to_dict"]}
{"id": "C23", "title": "Typed key access", "statement": "matches[key] is the value of the first match named key.name (None if none) and all(key) the values of all of them in order, for every reachable Matches object.", "quantifier": "every history of additions at the end, removals and lookups that never holds two equal matches, and every key with a non-empty name", "why_tests_cant": "served from the incrementally maintained name index", "anchors": ["rebulk/match.py:_BaseMatches.__getitem__", "rebulk/match.py:_BaseMatches.all"]}
{"id": "C24", "title": "Projection onto a model", "statement": "to(model): a list field receives all values of its name, any other field the first value, fields without value are left to default/omitted; a field whose element type is unrelated to the declared key of that name raises TypeError and otherwise no TypeError is raised, except by a dataclass constructor missing a required field; list[structured] is rejected; list[scalar] returns all values; a scalar returns the first value or LookupError when empty.", "quantifier": "every sequence built by additions at the end and removals, every model shape (nested Optional/list hints) with distinct non-empty field names, declared key registry and subclass relation", "why_tests_cant": "all hint shapes and registries", "anchors": ["rebulk/match.py:_BaseMatches.to", "rebulk/match.py:_element_type", "rebulk/match.py:_contradicts"]}
{"id": "C25", "title": "Declared key contract check", "statement": "check_declared_keys raises TypeError iff some contained match has a non-empty declared name, is public, has no literal value, and a non-None value that is not an instance of the declared type.", "quantifier": "every sequence and registry", "why_tests_cant": "an iff over all sequences", "anchors": ["rebulk/match.py:_BaseMatches.check_declared_keys"]}
{"id": "C26", "title": "Match equality is an equivalence compatible with hash", "statement": "== on matches is reflexive, symmetric and transitive; != is its negation; equal matches have equal hashes; equality depends only on span, value, name and parent; the hash does not depend on the value.", "quantifier": "every pair/triple of matches, any parent depth", "why_tests_cant": "universal algebraic law with recursion through parents", "anchors": ["rebulk/match.py:Match.__eq__", "rebulk/match.py:Match.__ne__", "rebulk/match.py:Match.__hash__"]}
{"id": "C27", "title": "Match order is a total preorder by position", "statement": "<, <=, >, >= compare (start, end) lexicographically, are total, transitive and mutually consistent; sorting a sequence yields a stable permutation ordered by position.", "quantifier": "every list of matches", "why_tests_cant": "all lists", "anchors": ["rebulk/match.py:Match.__lt__", "rebulk/match.py:Match.__le__", "rebulk/match.py:_BaseMatches.range", "rebulk/match.py:_BaseMatches.to_dict"]}
{"id": "C28", "title": "crop removes exactly the cropped indexes", "statement": "m.crop(crops) returns non-empty, pairwise disjoint matches covering exactly the indexes of m that belong to no crop; with non-empty crops they are the maximal such runs; m itself is unchanged.", "quantifier": "every non-empty match and every list of well-formed crops, in any order and overlap", "why_tests_cant": "all interval configurations, repeated splitting", "anchors": ["rebulk/match.py:Match.crop"]}
{"id": "C29", "title": "split yields the maximal separator-free runs", "statement": "m.split(seps) returns, in order, exactly the maximal runs of m's text without separator characters, positioned in the input.", "quantifier": "every input, span inside the input (no raw bounds set) and separator set", "why_tests_cant": "all strings", "anchors": ["rebulk/match.py:Match.split"]}
{"id": "C30", "title": "Value precedence", "statement": "match.value is the literal value when it is truthy, else the formatter applied to the raw text, else the raw text; raw is the input slice of the raw span; has_literal_value is true iff the literal is used.", "quantifier": "every match", "why_tests_cant": "falsy literals (0, '', False) take another path", "anchors": ["rebulk/match.py:Match.value", "rebulk/match.py:Match.raw", "rebulk/match.py:Match.has_literal_value"]}
{"id": "C31", "title": "initiator, names, named and tagged", "statement": "initiator is the root of the parent chain (the match itself without parent) and has no parent; names is the match's own name without children, else the union of the names of the leaves below it. named(*names) and tagged(*tags) tell whether at least one of the given names is among these names, one of the given tags among the match's tags.", "quantifier": "every match tree of any depth whose parents are non-empty matches", "why_tests_cant": "recursive over depth", "anchors": ["rebulk/match.py:Match.initiator", "rebulk/match.py:Match.names", "rebulk/match.py:Match.named", "rebulk/match.py:Match.tagged"]}
{"id": "C32", "title": "find_all finds every non-overlapping occurrence", "statement": "find_all(s, sub, start, end) yields, in increasing order, exactly the occurrences of a non-empty sub inside s[start:end] selected greedily from the left: p is yielded iff sub occurs at p in the window and no yielded q has q < p < q + len(sub).", "quantifier": "every string, non-empty substring and bounds (negative bounds included)", "why_tests_cant": "all strings and overlaps", "anchors": ["rebulk/utils.py:find_all"]}
{"id": "C33", "title": "find_all terminates", "statement": "find_all yields finitely many indexes for every input.", "quantifier": "every string, substring (empty included) and bounds", "why_tests_cant": "non-termination cannot be observed by a test that ends", "anchors": ["rebulk/utils.py:find_all", "rebulk/pattern.py:StringPattern._match"]}
{"id": "C34", "title": "extend_safe adds each missing element once, in order", "statement": "extend_safe(target, source) leaves target as a prefix and appends exactly the source elements not already present, each once, in first-occurrence order, whether elements are hashable or not, including when an unhashable element is met half way; for a source that can be iterated twice.", "quantifier": "every target, source and hashability pattern", "why_tests_cant": "the fallback after a partial pass must not duplicate or lose elements", "anchors": ["rebulk/utils.py:extend_safe"]}
{"id": "C35", "title": "toposort groups respect dependencies", "statement": "In the groups yielded by toposort every dependency other than itself of an item is in an earlier group; every item and every mentioned dependency appears in exactly one group; each item is placed in the earliest possible group.", "quantifier": "every finite dependency graph", "why_tests_cant": "all graphs", "anchors": ["rebulk/toposort.py:toposort"]}
{"id": "C36", "title": "toposort detects exactly the cyclic graphs", "statement": "toposort raises CyclicDependency iff the graph has a dependency cycle of at least two items; otherwise it terminates having yielded every item.", "quantifier": "every finite dependency graph", "why_tests_cant": "an iff over all graphs, and termination", "anchors": ["rebulk/toposort.py:toposort", "rebulk/toposort.py:CyclicDependency"]}
{"id": "C37", "title": "toposort leaves its input unmodified", "statement": "The caller's dependency dict and its sets are the same after toposort as before.", "quantifier": "every graph", "why_tests_cant": "only graphs with a self dependency show the mutation", "anchors": ["rebulk/toposort.py:toposort"]}
{"id": "C38", "title": "Default merging", "statement": "set_defaults(defaults, kwargs): without override every key of kwargs keeps its value except that a list default is prepended to a list value and dict defaults are merged recursively under existing keys; missing keys take the default; with override every default key takes the default; clear=True first empties kwargs; no other key changes.", "quantifier": "every pair of nested keyword dicts", "why_tests_cant": "recursive over nesting", "anchors": ["rebulk/loose.py:set_defaults"]}
{"id": "C39", "title": "Building a pattern does not change defaults or earlier patterns", "statement": "Neither building a pattern nor calling defaults(...) changes the builder's other defaults, the caller's dicts, or the configuration of patterns built earlier.", "quantifier": "every sequence of builder calls", "why_tests_cant": "dict values are shared by reference, only particular sequences mutate a shared dict", "anchors": ["rebulk/builder.py:PatternFactory", "rebulk/loose.py:set_defaults", "rebulk/loose.py:ensure_dict"]}
{"id": "C40", "title": "call passes exactly the arguments the function accepts", "statement": "call(f, *args, **kwargs) never passes an unknown keyword nor too many positional arguments to a plain function: all when it has *args/**kwargs, else the first len(params) positional ones and the keywords naming parameters.", "quantifier": "every signature, argument list and keyword dict", "why_tests_cant": "all signatures", "anchors": ["rebulk/loose.py:call", "rebulk/loose.py:argspec_args"]}
{"id": "C41", "title": "Character validators and chains", "statement": "chars_before / chars_after / chars_surround accept iff the neighbouring character is in the set or the match touches the boundary of the input; validators(...) is the conjunction and formatters(...) the left-to-right composition of their arguments (match span inside the input).", "quantifier": "every input, span, character set and chain length", "why_tests_cant": "all spans and chains", "anchors": ["rebulk/validators.py", "rebulk/formatters.py:formatters"]}
{"id": "C42", "title": "A string pattern matches exactly its occurrences", "statement": "A string pattern produces one match per greedy non-overlapping occurrence of each of its strings, in order, each spanning text equal to the string (equal up to case with ignore_case, when lower-casing keeps lengths).", "quantifier": "every input and every non-empty pattern string", "why_tests_cant": "all inputs", "anchors": ["rebulk/pattern.py:StringPattern._match"]}
{"id": "C43", "title": "Regex groups become children", "statement": "For every regex match the main match spans group 0 and its children are exactly the participating, non-empty groups in group order, carrying the group name (or the pattern name) and the main match as parent; empty main matches are dropped.", "quantifier": "every regex engine result", "why_tests_cant": "all group configurations", "anchors": ["rebulk/pattern.py:RePattern._match"]}
{"id": "C44", "title": "Functional results are normalised", "statement": "A functional pattern returning nothing, one span, one dict, or an iterable of spans/dicts gives respectively no, one, one, or that many matches, empty ones dropped, explicit options overriding the pattern's options.", "quantifier": "every return value shape", "why_tests_cant": "all shapes", "anchors": ["rebulk/pattern.py:FunctionalPattern._match"]}
{"id": "C45", "title": "Validation is all or nothing", "statement": "A pattern emits something for a raw match only if the validators applicable to the parent and to every child accept; a rejected child suppresses the parent and its siblings; and an accepted match is emitted.", "quantifier": "every pattern configuration, raw match and number of children", "why_tests_cant": "all configurations", "anchors": ["rebulk/pattern.py:Pattern._process_matches", "rebulk/pattern.py:Pattern._process_match_validator"]}
{"id": "C46", "title": "Which matches a pattern emits", "statement": "For an accepted raw match the pattern emits the parent iff (not children or every or private_parent) and its name is not ignored, followed by the children with non ignored names iff (children or every or private_children); a match is private iff built private, or its name is in private_names, or private_parent (parent) / private_children (child).", "quantifier": "every flag combination, name lists and children", "why_tests_cant": "2^n flag combinations times all trees", "anchors": ["rebulk/pattern.py:Pattern._process_matches", "rebulk/pattern.py:Pattern._process_match_private"]}
{"id": "C47", "title": "Formatter resolution", "statement": "The formatter of an emitted match is the one declared for its name, else for __children__/__parent__, else the default; a declared key's converter is used for a name unless the pattern has its own entry for that name or a single callable formatter; not included matches are only formatted with format_all.", "quantifier": "every formatter configuration, key registry and match", "why_tests_cant": "all precedence combinations", "anchors": ["rebulk/pattern.py:Pattern._process_match_formatter", "rebulk/builder.py:PatternFactory._inherit_keys", "rebulk/utils.py:get_first_defined", "rebulk/loose.py:ensure_dict"]}
{"id": "C48", "title": "value= overrides the match value", "statement": "A value given for the match's name (else __children__/__parent__, else the default value) becomes match.value.", "quantifier": "every value configuration, falsy values included", "why_tests_cant": "falsy values take the fallback path", "anchors": ["rebulk/pattern.py:Pattern._process_match_value", "rebulk/loose.py:ensure_dict"]}
{"id": "C49", "title": "match_index numbers the raw matches", "statement": "Every match emitted by a pattern (parent and children) carries the rank of its raw match among the raw matches of the same sub-pattern.", "quantifier": "every pattern and input", "why_tests_cant": "all inputs", "anchors": ["rebulk/pattern.py:Pattern.matches", "rebulk/pattern.py:Pattern._process_match_index"]}
{"id": "C50", "title": "Repeater notation", "statement": "repeater(n), '+', '*', '?', '{n}', '{n,}', '{,m}', '{n,m}' set the bounds of regular expression syntax.", "quantifier": "every n, m", "why_tests_cant": "all numbers", "anchors": ["rebulk/chain.py:ChainPart.repeater"]}
{"id": "C51", "title": "Repeater bounds hold in every chain match", "statement": "In an accepted chain attempt each part contributes at least repeater_start and at most repeater_end occurrences.", "quantifier": "every chain, input and part", "why_tests_cant": "all inputs", "anchors": ["rebulk/chain.py:ChainPart._truncate_repeater", "rebulk/chain.py:ChainPart._validate_repeater", "rebulk/chain.py:Chain._match"]}
{"id": "C52", "title": "Chain parts are adjacent", "statement": "Within one part the kept occurrences follow each other without any character in between, and a part other than the first starts right where the previous one stopped.", "quantifier": "every chain part and input", "why_tests_cant": "all inputs", "anchors": ["rebulk/chain.py:ChainPart._truncate_repeater"]}
{"id": "C53", "title": "A chain match is made of real part matches", "statement": "Every child of a chain match is, at its reported position in the input string, a match of its part's pattern.", "quantifier": "every chain and input", "why_tests_cant": "only wrong after an attempt failed half way through the parts", "anchors": ["rebulk/chain.py:Chain._match", "rebulk/chain.py:Chain._to_next_chain_part", "rebulk/chain.py:Chain._fix_matches_offset"]}
{"id": "C54", "title": "Chain search terminates", "statement": "Chain matching stops on every input after at most one attempt per input character, for every behaviour of its parts that yields non-empty matches.", "quantifier": "every chain, input, chain breaker and part behaviour", "why_tests_cant": "termination", "anchors": ["rebulk/chain.py:Chain._match"]}
{"id": "C55", "title": "Chain validation backtracks over the last part", "statement": "When validation of a chain match fails, occurrences of the last part are dropped one repetition at a time from the end until validation succeeds (the end of the match following); if it never succeeds children and end are restored and the match is rejected.", "quantifier": "every chain match, validator and number of repetitions", "why_tests_cant": "all repetition counts and validators", "anchors": ["rebulk/chain.py:Chain._process_match"]}
{"id": "C56", "title": "Chain breaker and hidden parts", "statement": "Matches of a hidden part, and groups on which the chain breaker answers true, never become children, while still advancing the search.", "quantifier": "every chain, breaker and input", "why_tests_cant": "all inputs", "anchors": ["rebulk/chain.py:Chain._to_next_chain_part", "rebulk/chain.py:Chain._chain_breaker_eval"]}
{"id": "C57", "title": "Rule execution order", "statement": "Rules run in decreasing priority; within one priority a rule runs after all rules of that priority it depends on; otherwise rules of one dependency level run in registration order.", "quantifier": "every rule list, priorities and dependency graph", "why_tests_cant": "all rule sets", "anchors": ["rebulk/rules.py:Rules.execute_all_rules", "rebulk/rules.py:toposort_rules"]}
{"id": "C58", "title": "Every rule runs exactly once", "statement": "With class dependencies every registered rule is considered exactly once; duplicate classes at one priority raise ValueError, cyclic dependencies raise CyclicDependency.", "quantifier": "every rule list", "why_tests_cant": "all rule sets", "anchors": ["rebulk/rules.py:Rules.execute_all_rules", "rebulk/rules.py:toposort_rules"]}
{"id": "C59", "title": "All when calls of a priority precede its then calls", "statement": "For all rules with the same priority, when is called on every rule before any then is called (README, docstring of execute_all_rules).", "quantifier": "every rule list", "why_tests_cant": "needs two interacting rules of one priority", "anchors": ["rebulk/rules.py:Rules.execute_all_rules", "rebulk/rules.py:execute_rule", "README.md"]}
{"id": "C60", "title": "Disabled or non triggered rules have no effect", "statement": "A rule that is disabled for the context or whose when answer is falsy leaves the matches unchanged and is not reported; a triggered rule is reported with its answer, in execution order.", "quantifier": "every rule list and state", "why_tests_cant": "all interleavings of rules", "anchors": ["rebulk/rules.py:execute_rule", "rebulk/rules.py:Rules.execute_all_rules"]}
{"id": "C61", "title": "RemoveMatch removes exactly the returned matches", "statement": "RemoveMatch removes, for each returned match, the first equal match of the sequence if any and keeps all others in order; it returns those removed.", "quantifier": "every sequence and answer list, repeated and absent matches included", "why_tests_cant": "all lists", "anchors": ["rebulk/rules.py:RemoveMatch.then"]}
{"id": "C62", "title": "AppendMatch adds each missing match once at the end", "statement": "AppendMatch appends exactly the returned matches not equal to a contained one, in order, renamed when a name is given, never creating a duplicate when no name is given.", "quantifier": "every sequence and answer list", "why_tests_cant": "all lists", "anchors": ["rebulk/rules.py:AppendMatch.then"]}
{"id": "C63", "title": "RenameMatch renames the returned matches", "statement": "After RenameMatch(n) the returned contained matches are removed and re-added at the end with name n (skipping one equal to a present match); all other matches keep content and relative order.", "quantifier": "every sequence and answer list", "why_tests_cant": "all lists", "anchors": ["rebulk/rules.py:RenameMatch.then"]}
{"id": "C64", "title": "AppendTags / RemoveTags", "statement": "AppendTags(ts) adds ts to the tags of the returned contained matches and RemoveTags(ts) removes one occurrence of each of ts from them; spans, names and values do not change and tagged lookups reflect it.", "quantifier": "every sequence, answer list and tag list", "why_tests_cant": "all lists", "anchors": ["rebulk/rules.py:AppendTags.then", "rebulk/rules.py:RemoveTags.then"]}
{"id": "C65", "title": "Tag changes concern only the returned match", "statement": "AppendTags / RemoveTags on one match change neither the tags of other matches nor those of matches found by later matches() calls.", "quantifier": "every pattern with tags and every rule history", "why_tests_cant": "the tag list object given to the pattern is shared by its matches; needs two matches or two calls", "anchors": ["rebulk/rules.py:AppendTags.then", "rebulk/match.py:Match.__init__", "rebulk/loose.py:ensure_list"]}
{"id": "C66", "title": "No conflicting matches of different length survive", "statement": "With the default conflict solver, after conflict resolution no two surviving public matches share an index unless their initiators have the same length.", "quantifier": "every set of matches (pairwise distinct)", "why_tests_cant": "all interval configurations and orders", "anchors": ["rebulk/processors.py:ConflictSolver.when", "rebulk/processors.py:_default_conflict_solver"]}
{"id": "C67", "title": "Conflict resolution only removes shorter matches", "statement": "With the default conflict solver a match is removed only if it is public and shares an index with a public match with a strictly longer initiator; in particular a match without conflict, any private match, and a longest match are kept, and the survivors keep their order.", "quantifier": "every set of matches", "why_tests_cant": "all interval configurations and orders", "anchors": ["rebulk/processors.py:ConflictSolver.when"]}
{"id": "C68", "title": "Custom conflict solvers", "statement": "The conflict solver of the conflicting match is asked first, then the one of the match, then the default; __default__ falls through, None keeps both, a returned match is removed unless the other one is already being removed; two matches never remove each other.", "quantifier": "every solver behaviour and match set", "why_tests_cant": "all solver behaviours", "anchors": ["rebulk/processors.py:ConflictSolver.when"]}
{"id": "C69", "title": "Results do not depend on set iteration order", "statement": "The matches left by a removal rule do not depend on the order in which the identity-hashed removal set is iterated.", "quantifier": "every iteration order of every removal set", "why_tests_cant": "iteration order depends on memory addresses", "anchors": ["rebulk/utils.py:IdentitySet", "rebulk/rules.py:RemoveMatch.then"]}
{"id": "C70", "title": "Private matches never reach the result", "statement": "With the default rules, the matches returned by Rebulk.matches contain no private match and lose no public one to the removal of private matches.", "quantifier": "every pattern set and input", "why_tests_cant": "only fails for a private match equal to a public one found before it", "anchors": ["rebulk/processors.py:PrivateRemover.when", "rebulk/rules.py:RemoveMatch.then"]}
{"id": "C71", "title": "Effective patterns, rules and keys", "statement": "A rebulk runs its own patterns then those of its enabled direct children not already present, each once in registration order; same for rules by class; a declared key of the parent wins over the children's and an earlier child's over a later one's.", "quantifier": "every rebulk composition and context", "why_tests_cant": "all compositions", "anchors": ["rebulk/rebulk.py:Rebulk.effective_patterns", "rebulk/rebulk.py:Rebulk.effective_rules", "rebulk/rebulk.py:Rebulk.effective_keys"]}
{"id": "C72", "title": "Disabled rebulks and patterns contribute nothing", "statement": "A disabled rebulk returns no match and runs no rule; a disabled pattern contributes no match and leaves the others unaffected.", "quantifier": "every configuration and context", "why_tests_cant": "all configurations", "anchors": ["rebulk/rebulk.py:Rebulk._matches_patterns", "rebulk/rebulk.py:Rebulk._execute_rules"]}
{"id": "C73", "title": "matches collects all pattern results, markers apart", "statement": "Before rules run, the result holds exactly the non-marker matches emitted by the enabled effective patterns in pattern order and markers holds exactly the marker ones in order.", "quantifier": "every pattern list and input", "why_tests_cant": "all pattern lists", "anchors": ["rebulk/rebulk.py:Rebulk._matches_patterns"]}
{"id": "C74", "title": "End to end: longest non-private matches", "statement": "With only the default rules, Rebulk.matches returns a sub-sequence of what the patterns found, all public, with no two overlapping matches of different initiator length.", "quantifier": "every pattern list and input whose matches are pairwise distinct and non-empty", "why_tests_cant": "all inputs through the whole pipeline", "anchors": ["rebulk/rebulk.py:Rebulk.matches"]}
{"id": "C75", "title": "check_keys reports exactly the unused declared keys", "statement": "check_keys returns, sorted and without repetition, exactly the declared names (own and direct children) that no pattern (own or direct children, chain parts recursively) can produce and that are not allowed; disabling does not matter.", "quantifier": "every rebulk composition and allow list", "why_tests_cant": "all compositions, nested chains", "anchors": ["rebulk/rebulk.py:Rebulk.check_keys", "rebulk/rebulk.py:_producible_names"]}
{"id": "C76", "title": "Introspection lists every property once", "statement": "introspect(...).properties maps a name to the distinct values declared for it by the effective non private, non marker patterns and the effective rules, in order, each once.", "quantifier": "every rebulk composition", "why_tests_cant": "all compositions", "anchors": ["rebulk/introspector.py:Introspection", "rebulk/introspector.py:PatternDescription"]}
{"id": "C77", "title": "Keys never override explicit pattern options", "statement": "Passing key= sets name and formatter only when absent; a sequence of keys adds a converter for each key name not already having one, never mutates the caller's dict, and is refused iff the formatter is a single callable; redeclaring a key replaces it.", "quantifier": "every keyword dict and key list", "why_tests_cant": "all combinations", "anchors": ["rebulk/builder.py:_apply_key", "rebulk/builder.py:PatternFactory.declare_keys"]}
{"id": "C78", "title": "marker=True works for every kind of pattern", "statement": "A string, regular expression or functional pattern declared with marker=True yields marker matches for everything it finds, without error.", "quantifier": "every pattern kind, engine result and input", "why_tests_cant": "The regex engine's group results range over an unbounded space; tests of markers use group-less expressions.", "anchors": ["rebulk/pattern.py:RePattern._match", "rebulk/match.py:Matches._add_match"]}
{"id": "C79", "title": "A chain is found wherever its parts occur", "statement": "Whenever the parts of a chain occur one after the other in the input, each a number of times its repeater allows, the chain yields a match (completeness of the chain search).", "quantifier": "every chain of parts, input and validator outcome", "why_tests_cant": "Depends on the interplay of every part's occurrences over unbounded inputs.", "anchors": ["rebulk/chain.py:Chain._match", "rebulk/chain.py:ChainPart"]}
{"id": "C80", "title": "A part's formatter is applied inside the chain", "statement": "The value of a chain match's child made by a part is the part's formatter applied to its text, whatever formatter the chain includes or excludes.", "quantifier": "every chain, part options and inputs", "why_tests_cant": "All combinations of chain and part options.", "anchors": ["rebulk/chain.py:Chain._build_chain_match", "rebulk/chain.py:Chain.patterns", "rebulk/pattern.py:Pattern._process_match"]}
{"id": "C81", "title": "Repetition of a chain part is greedy", "statement": "A repeatable part of a chain keeps as many immediately following occurrences as its repeater allows.", "quantifier": "every chain, part, repeater and input", "why_tests_cant": "Unbounded number of occurrences.", "anchors": ["rebulk/chain.py:Chain._get_next_match_groups", "rebulk/chain.py:Chain._truncate_repeater"]}
{"id": "C83", "title": "Several consequences share out the answer", "statement": "A rule with an iterable of consequences gives the i-th consequence the i-th element of the answer, in order, stopping at the first that raises; StopIteration when the elements run out, extra elements are ignored; a single consequence gets the whole answer; a rule without consequence raises and changes nothing.", "quantifier": "every list of consequences, behaviours and answers", "why_tests_cant": "all lists and behaviours", "anchors": ["rebulk/rules.py:Rule.then"]}
{"id": "C82", "title": "A removed match lost to a match that stays", "statement": "With the default conflict solver, every removed match shares an index with a longer match that is kept.", "quantifier": "every set of matches", "why_tests_cant": "all interval configurations; fails only for chains of three or more overlapping matches", "anchors": ["rebulk/processors.py:ConflictSolver.when"]}
{"id": "C84", "title": "Conflict resolution never raises", "statement": "With the default rules, resolving conflicts and removing private matches completes without an exception whatever matches the patterns and earlier rules produced.", "quantifier": "every set of matches", "why_tests_cant": "fails only for an empty public match", "anchors": ["rebulk/processors.py:ConflictSolver.when", "rebulk/match.py:_BaseMatches.conflicting"]}
{"id": "C85", "title": "Patterns of nested rebulks are run", "statement": "Every enabled pattern registered on an enabled rebulk that is reachable through rebulk(child) links, at any depth, is searched by matches.", "quantifier": "every nesting of rebulks", "why_tests_cant": "nesting depth is unbounded", "anchors": ["rebulk/rebulk.py:Rebulk.effective_patterns", "rebulk/rebulk.py:Rebulk.rebulk"]}
{"id": "C86", "title": "Introspection covers the public matches", "statement": "The name of every public non-marker match found by the effective public patterns is a key of introspect(rebulk).properties.", "quantifier": "every rebulk, pattern and input", "why_tests_cant": "all inputs and all kinds of patterns", "anchors": ["rebulk/introspector.py:PatternDescription"]}
{"id": "C87", "title": "check_keys has no false positive", "statement": "A (non-empty) name reported by check_keys is borne by no match found by the patterns, nor by any match below them, on any input and in any context, unless user code of a pattern (a processor, or a function giving names) names it.", "quantifier": "every rebulk composition, nested chains, input and context", "why_tests_cant": "all inputs, unbounded nesting of chains", "anchors": ["rebulk/rebulk.py:Rebulk.check_keys", "rebulk/rebulk.py:_producible_names", "rebulk/chain.py:Chain"]}
{"id": "C88", "title": "Loading a module registers its rule classes", "statement": "rules(module) registers exactly one rule per rule class defined in the module, in the order of their names, and nothing for other members.", "quantifier": "every module content", "why_tests_cant": "all modules", "anchors": ["rebulk/rules.py:Rules.load_module", "rebulk/rules.py:Rules.load"]}
{"id": "C89", "title": "Every match comes from one pattern", "statement": "Every match found, and every match below it, is made by one pattern (the registered one or a part of it at any depth): it refers to it by pattern, has its tags, marker flag and conflict solver, and is named as it or as one of its regular expression groups.", "quantifier": "every pattern without processors, chains nested at any depth, every input", "why_tests_cant": "unbounded nesting, all inputs", "anchors": ["rebulk/pattern.py:Pattern.matches", "rebulk/chain.py:Chain"]}
{"id": "C90", "title": "Chain matches run from left to right", "statement": "The matches of a chain are found from left to right, do not overlap each other, lie in the input, and every match contains its children.", "quantifier": "every chain, nested at any depth, every input", "why_tests_cant": "unbounded number of parts, repeats, nesting and matches", "anchors": ["rebulk/chain.py:Chain._match", "rebulk/chain.py:Chain._to_next_chain_part"]}
{"id": "C91", "title": "Raw matches do not disturb the result", "statement": "Asking a pattern for its raw matches as well (with_raw_matches=True) changes nothing about the matches returned, and the raw matches are all occurrences found, in order, before any processing.", "quantifier": "every pattern, every input", "why_tests_cant": "all patterns and inputs", "anchors": ["rebulk/pattern.py:Pattern.matches", "rebulk/pattern.py:StringPattern._match", "rebulk/pattern.py:RePattern._match"]}
{"id": "C92", "title": "A Rebulk object is exactly what the calls registered", "statement": "After any sequence of calls (Rebulk(), pattern/string/regex/functional, chain and the chain builder's calls, repeater, hidden, rules, rebulk, declare_keys, reset, close), matches() runs on: the patterns registered since the object was made or last reset, in order; each chain with the parts added to it (before or after it was registered), in order, each with the repeater and hidden flag last given to it; the two default rules (rule objects of its own) if asked for, then the rules loaded; for each name the key last declared; and the objects attached, as they are when matches() is called.", "quantifier": "every sequence of registration calls on any number of Rebulk objects, chains and parts", "why_tests_cant": "objects are shared by reference and calls interleave; tests try a few call orders", "anchors": ["rebulk/rebulk.py:Rebulk.__init__", "rebulk/rebulk.py:Rebulk.pattern", "rebulk/rebulk.py:Rebulk.rules", "rebulk/rebulk.py:Rebulk.rebulk", "rebulk/builder.py:ChainBuilder", "rebulk/chain.py:ChainPart"]}
{"id": "C93", "title": "close() returns the owning Rebulk", "statement": "close(), on a chain builder or on any part of a chain, returns the Rebulk object on which the outermost chain was opened, whatever the nesting depth, and changes nothing.", "quantifier": "every sequence of registration calls and every chain builder or part", "why_tests_cant": "nesting depth is unbounded", "anchors": ["rebulk/builder.py:ChainBuilder.close", "rebulk/chain.py:ChainPart.close"]}
{"id": "C94", "title": "reset() resets the defaults only", "statement": "reset() ('Reset all defaults') resets the default options of the builder: registered patterns, rules, keys, attached objects and the disabled flag stay.", "quantifier": "every sequence of registration calls", "why_tests_cant": "depends on everything registered before", "anchors": ["rebulk/builder.py:Builder.reset"]}
{"id": "C95", "title": "Log levels of rules", "statement": "A rule created with log_level=n logs its condition and consequence records at level n, a group of rules at the greatest of their levels, and logging never changes which rules run nor what they do.", "quantifier": "every rule list, levels and rule behaviours", "why_tests_cant": "all rule lists and behaviours; a missing level only shows when the engine reaches the group", "anchors": ["rebulk/rules.py:CustomRule.__init__", "rebulk/rules.py:Rules.execute_all_rules", "rebulk/rules.py:execute_rule"]}
{"id": "C96", "title": "Calls of matches are independent", "statement": "The outcome of matches(input, context) does not depend on the calls made before on the same object, also when some of them raised.", "quantifier": "every series of calls, every pattern set and rule set", "why_tests_cant": "all histories of calls on one object", "anchors": ["rebulk/rebulk.py:Rebulk.matches", "rebulk/match.py:Match.__init__", "rebulk/rules.py:AppendTags.then"]}
{"id": "C97", "title": "Exceptions of user functions reach the caller", "statement": "An exception raised by a validator, a match processor, a post processor, a functional pattern (or the iterator it returns) or a chain breaker is never swallowed: matches raises it, unchanged. A call that returns gives what it would have given with any functions agreeing on the calls that did not raise.", "quantifier": "every pattern set (nested chains included), every user function that returns or raises, every input and context", "why_tests_cant": "all user functions and inputs; a swallowed exception only shows when a particular call raises at a particular place", "anchors": ["rebulk/pattern.py:Pattern.matches", "rebulk/pattern.py:Pattern._process_matches", "rebulk/chain.py:Chain._match", "rebulk/rebulk.py:Rebulk._matches_patterns"]}
{"id": "C98", "title": "Lists returned by lookups belong to the caller", "statement": "A list returned by a lookup (named, tagged, starting, ending, previous, next, range, chain_before, chain_after, holes, conflicting, at_span, at_index) is the caller's own: changing it does not change what the container holds or what its later calls return, and later calls on the container do not change the list.", "quantifier": "every container, every history of calls on it mixed with changes of the lists got so far, with and without predicates", "why_tests_cant": "Aliasing only shows after particular later changes of either side; tests read the returned list once and never change it.", "anchors": ["rebulk/match.py:_BaseMatches.at_index", "rebulk/match.py:_BaseMatches.at_span", "rebulk/match.py:_BaseMatches.named", "rebulk/match.py:_BaseMatches.starting", "rebulk/loose.py:filter_index"]}
{"id": "C99", "title": "Every sequence call acts as on a Python list", "statement": "Reading, assigning and deleting items and slices (with any bounds and steps), iteration, reversed, in, count, index, append, insert, extend, remove, pop, clear and reverse leave in a Matches or Markers object, return and raise what they do for a plain list of the same matches.", "quantifier": "every history of sequence calls and lookups, every index, slice, step and right side of an assignment (lists, iterators, the container itself)", "why_tests_cant": "The calls also maintain five lookup tables that may fail on their own; whether they do depends on what was looked up before and on what is assigned.", "anchors": ["rebulk/match.py:_BaseMatches.__getitem__", "rebulk/match.py:_BaseMatches.__setitem__", "rebulk/match.py:_BaseMatches.__delitem__", "rebulk/match.py:_BaseMatches.insert", "rebulk/match.py:_BaseMatches._add_match", "rebulk/match.py:_BaseMatches._remove_match"]}
{"id": "C100", "title": "to_dict() with list values", "statement": "In to_dict() (without details) a name whose first match, in position order, has a list as value is mapped to the elements of this list followed by the later values that are not yet there (each later list counting as one value); for the other names a list counts as one value like any other. values_list holds each distinct value of a name.", "quantifier": "every container, every mix of list-valued and plain matches with distinct literal list objects, first_value and enforce_list on or off", "why_tests_cant": "The result shares the list object of the first match and appends to it while it reads the later values; what comes out depends on the order, on equalities and on which objects are shared.", "anchors": ["rebulk/match.py:_BaseMatches.to_dict", "rebulk/match.py:Match.value"]}
{"id": "C101", "title": "Options a pattern is built with", "statement": "A pattern registered with regex/string/functional/chain gets its call's options completed by the defaults of its kind and then by the general defaults: a missing option takes the default, list-valued options are appended to list-valued defaults, any other given option stays, and an option listed in overrides is taken as given. defaults(**kw) replaces the named defaults and keeps the others (unless clear=True). The parts of a chain start from deep copies of the defaults.", "quantifier": "every history of builder calls (defaults, declare_key, patterns, chains) on any number of builders, every option name and value", "why_tests_cant": "Options are merged dict by dict in several steps with objects shared between builders; one wrong step only shows for some combination of kind, default and earlier call.", "anchors": ["rebulk/builder.py:PatternFactory.defaults", "rebulk/builder.py:PatternFactory.build_re", "rebulk/builder.py:overrides", "rebulk/builder.py:ChainBuilder._inherit_defaults", "rebulk/loose.py:set_defaults"]}
{"id": "C102", "title": "Changing a match while a container holds it", "statement": "After an assignment to an attribute of a match (name, tags, start, end, value, raw_start, raw_end, private, formatter), whether or not it is in a container at that time, the lookups of the container go by the attributes the matches have now, and the match can be removed.", "quantifier": "every history of additions, removals, lookups and assignments, any number of matches", "why_tests_cant": "Lookup tables are built at the first lookup and filed under the attributes of that moment; whether an assignment is seen depends on which lookups happened before.", "anchors": ["rebulk/match.py:Match.value", "rebulk/match.py:Match.raw_start", "rebulk/match.py:Match.raw_end", "rebulk/match.py:_BaseMatches._add_match", "rebulk/match.py:_BaseMatches._name_dict"]}
{"id": "C103", "title": "Abbreviations and flags of regular expressions", "statement": "Every regular expression given to a regex pattern (as a string, a dict or a tuple) is compiled with the abbreviations of the pattern expanded - one after the other, each occurrence from the left without overlap - and with the flags of the pattern where it has no flags of its own; the arguments of the caller are not changed; building fails only for an invalid expression, for repeated_captures=True without the regex module, or for a dict that re.compile refuses.", "quantifier": "every list of expressions of any kind, every list of abbreviations, every text, every engine", "why_tests_cant": "all texts and abbreviations", "anchors": ["rebulk/pattern.py:RePattern.__init__", "rebulk/loose.py:call", "rebulk/remodule.py"]}
{"id": "C104", "title": "Calls of matches at the same time", "statement": "Calls of matches() on one Rebulk object in several threads do not influence each other: however they are interleaved each has the outcome it has alone, and each ends without waiting for the others. When patterns, rules or keys are registered meanwhile, a call uses the keys, patterns and rules of the object as it was at some times after the call began (keys first, then patterns, then rules), and is not disturbed otherwise.", "quantifier": "every number of calls, every interleaving of their steps and of registrations", "why_tests_cant": "schedules", "anchors": ["rebulk/rebulk.py:Rebulk.matches", "rebulk/rebulk.py:Rebulk._matches_patterns", "rebulk/rebulk.py:Rebulk._execute_rules", "rebulk/rules.py:Rules.execute_all_rules", "rebulk/rules.py:AppendTags"]}
{"id": "C105", "title": "Pieces of crop and split are copies of their own", "statement": "crop() and split() change nothing that existed. Each match they return looks like the match they were called on - the same attributes, followed to any depth, with the same values and the same sharing of objects, cycles included - except for its start and end. No object reached from a returned match (its list of tags, parent, children, pattern) existed before the call or is reached from another returned match. So whatever is assigned through one of them is not seen from the original match, its pattern or the other pieces, nor the other way round.", "quantifier": "every graph of objects around the match (shared and cyclic references included), every list of crops, every separators, every series of assignments afterwards", "why_tests_cant": "aliasing: holds for every shape of the object graph and every later history", "anchors": ["rebulk/match.py:Match.crop", "rebulk/match.py:Match.split"]}
{"id": "C106", "title": "What a whole pattern returns", "statement": "pattern.matches(input), for a string, regex or functional pattern made of any number of strings, regular expressions or functions and with any options, is: for each of them in order, for each raw match found in order (rank counted from 0 for each), what is emitted once it has been processed and configured and the validators have accepted it; the whole list is then given to post_processor.", "quantifier": "every list of strings, regular expressions (any engine results) or functions (any results standing for matches), every option, every input", "why_tests_cant": "The loop composes five user-supplied stages over any number of sub-patterns; tests exercise one or two sub-patterns with one stage.", "anchors": ["rebulk/pattern.py:Pattern.matches", "rebulk/pattern.py:Pattern._process_matches", "rebulk/pattern.py:Pattern._post_process_matches"]}
{"id": "C107", "title": "A set by identity", "statement": "An IdentitySet holds objects by identity: after any calls of add, discard, remove, pop, update, clear, |=, -=, &=, ^=, membership, len and iteration are those of the set of objects (equal but different objects are different members); remove and pop raise KeyError exactly when there is nothing to remove; &, |, -, ^, <=, == and isdisjoint are those of sets. Nothing depends on the iteration order of the built-in set.", "quantifier": "every initial list of objects, every history of calls, every iteration order of the underlying set", "why_tests_cant": "The conflict resolution relies on it, it is excluded from coverage (pragma: no cover), and the iteration order of a set of addresses changes from run to run.", "anchors": ["rebulk/utils.py:IdentitySet", "rebulk/utils.py:_Ref"]}
{"id": "C108", "title": "Iterating over matches while they are changed", "statement": "An iterator over a Matches or Markers object (iter, reversed, a for loop) that is used while matches are added, removed or replaced gives what the iterator of a plain list changed in the same way gives: the match at its position when it is asked, then stops; it raises nothing else. In particular a for loop that removes the match it is given skips the next one, and a loop over reversed(matches) removes exactly the chosen matches.", "quantifier": "every interleaving of next() on any number of live iterators with any calls on the container", "why_tests_cant": "The outcome depends on the interleaving of iteration and changes, of which there are infinitely many; tests iterate over containers that do not change.", "anchors": ["rebulk/match.py: _BaseMatches.__getitem__, __len__ (and Sequence.__iter__, __reversed__)"]}
{"id": "C109", "title": "A removal that raises changes nothing", "statement": "Matches are compared by value, and reading a value calls the formatter, which may raise. When remove(m), del matches[i] or pop(i) raises for that reason, the sequence and all lookups are as before the call; otherwise the call does what it does when no formatter raises.", "quantifier": "every container, every set of matches whose formatter raises, every match or position removed", "why_tests_cant": "Needs an exception at each possible comparison of each possible container state (a crash point), with lookups built or not.", "anchors": ["rebulk/match.py:_BaseMatches._remove_match", "rebulk/match.py:_BaseMatches.__delitem__", "rebulk/match.py:Match.__eq__", "rebulk/match.py:Match.value"]}
{"id": "C110", "title": "Loops over names and tags", "statement": "A loop over `matches.names` or `matches.tags` visits every name (tag) that was shown when it began exactly once, in order, and ends normally, whatever is looked up, added or removed in the container meanwhile; and a view obtained earlier always shows what asking again would show.", "quantifier": "every container reached by any calls (slices included), every series of calls made between two steps of the iterator, every loop body", "why_tests_cant": "A unit test runs one loop body; the outcome depends on whether any call made during the loop, including a mere lookup, files a new key, for every interleaving of calls and iterator steps.", "anchors": ["rebulk/match.py:_BaseMatches.names", "rebulk/match.py:_BaseMatches.tags", "rebulk/match.py:_BaseMatches._name_dict", "rebulk/match.py:_BaseMatches._tag_dict"]}
{"id": "C111", "title": "Several consequences on an answer that changes", "statement": "With several consequences, each one is given the element that the answer of `when` had at its position when `when` returned, also if the answer is the container itself or a list obtained from `at_index`, which the consequences change as they run.", "quantifier": "every list of consequences, every answer object read afresh before each consequence, every reachable container", "why_tests_cant": "A unit test tries one answer object and one pair of consequences; what the k-th consequence receives depends on all changes the previous ones made to the very object being shared out, for every number of consequences.", "anchors": ["rebulk/rules.py:Rule.then", "rebulk/rules.py:RemoveMatch.then", "rebulk/match.py:_BaseMatches.at_index"]}
{"id": "C112", "title": "What a chain finds", "statement": "A chain finds exactly what one search from left to right finds: its parts are looked for one after another, each behind the last kept occurrence of the parts before it; when all are found as often as required the matches collected make one match of the chain and the search goes on behind the last occurrence; when one is missing the search goes on in the text behind the last occurrence found, taken to start where the first collected match ends; it is over when no part has an occurrence or the end of the input is reached. If the searches of the parts answer, so does that of the chain, and the chain returns what any pattern emits for these raw matches; a raw match the validator of the chain refuses is replaced by itself without the last repetitions of its last part, as few as necessary, or dropped if no such form is accepted.", "quantifier": "every chain of any parts (strings, regular expressions, chains nested to any depth, any repeater, hidden or not), every input string", "why_tests_cant": "A test fixes one chain and one input: which attempt gives which match depends on every failed attempt before it, for unboundedly many parts, repetitions, attempts and levels of nesting.", "anchors": ["rebulk/chain.py:Chain._match", "rebulk/chain.py:Chain._to_next_chain_part", "rebulk/chain.py:Chain._build_chain_match", "rebulk/pattern.py:Pattern.matches"]}
{"id": "C113", "title": "Length and truth value of a match", "statement": "len(match) is the number of indexes the match covers, which is the length of match.raw when the match lies inside its non-empty input string and has no raw bounds of its own; bool(match) is true exactly when it covers an index, whatever its value; both raise ValueError when the match ends before it starts.", "quantifier": "every match: any bounds, value, input string", "why_tests_cant": "Tests take a few positive spans; code that writes `if match:` relies on this for empty and reversed matches and for falsy values too.", "anchors": ["rebulk/match.py:Match.__len__", "rebulk/match.py:Match.raw"]}
{"id": "C114", "title": "Debugging switches", "statement": "With DEBUG on, defined_at is the innermost frame of the call stack that is not rebulk's own code (of another package or without package), and it raises only if there is none; with DEBUG off it is None. REBULK_CHECK_DECLARED_KEYS switches the contract check on exactly when its value is 1, true, yes or on, in any case, blanks around it ignored.", "quantifier": "every call stack, every value of the environment variable", "why_tests_cant": "Tests see the stack of the test runner only and a few values of the variable.", "anchors": ["rebulk/debug.py:defined_at", "rebulk/debug.py:_truthy_env"]}
{"id": "C115", "title": "Plain search from end to end", "statement": "Rebulk() with string and regular expression patterns that have no option but name and tags: matches(input) never raises and returns, pattern by pattern, string by string and from left to right, exactly the non-overlapping occurrences of the strings and the non-empty matches of the regular expressions that share no character with a longer find. Each is a public match without parent, no marker, with name and tags of its pattern, whose value is the text found and whose match_index its rank. For one string these are simply its occurrences.", "quantifier": "every input, every list of patterns, every non-empty string, every regular expression engine that reports spans of the input", "why_tests_cant": "Tests check a few inputs; this is the whole path from the patterns through the conflict solver and the private remover for all of them.", "anchors": ["rebulk/rebulk.py:Rebulk.matches", "rebulk/pattern.py:StringPattern._match", "rebulk/pattern.py:RePattern._match", "rebulk/processors.py:ConflictSolver.when"]}
{"id": "C116", "title": "Search with values, formatters and validators from end to end", "statement": "A rebulk that has only the default rules, whose patterns (its own and those of its enabled children) are strings (with any position bounds and ignore_case), regular expressions or functions with a name, tags, value, formatter and validator (each given for all matches, or by name or role), or chains of any such parts, with repeaters and breaker and with these options (with a validator: chains of strings and of regular expressions without groups): matches(input) never raises and returns, in the order of the patterns, exactly the non-empty hits of the enabled patterns that their validator accepts and that share no character with a longer accepted hit. The value of a match is the value the pattern gives it, else the one its function gave, else the formatter chosen for it applied to the text found; a function may also choose name and tags. Groups of a regular expression are neither returned nor validated. The hits of a chain are the matches of its left to right search (C112). The validator of a chain may shorten them: of a match it refuses the longest form is kept that it accepts, without the last repetitions of the last part. Disabled patterns find nothing.", "quantifier": "every input, context, tree of rebulks, list of patterns, formatter, validator whose verdict depends on what the match shows, regular expression engine and function reporting spans of the input", "why_tests_cant": "Tests check a few combinations of options on a few inputs; this is the whole path for all of them.", "anchors": ["rebulk/rebulk.py:Rebulk.matches", "rebulk/pattern.py:Pattern.matches", "rebulk/pattern.py:Pattern._process_match", "rebulk/pattern.py:FunctionalPattern._match", "rebulk/processors.py:ConflictSolver.when"]}
{"id": "C117", "title": "What a chain of strings finds", "statement": "chain().string(w).string(...)... with non-empty strings, names and tags never raises on any input, and its matches are exactly those of this procedure: look for the first occurrence of w in the text left; if the other strings follow it one right after the other, this is a match, spanning all of them, with the strings as children (with their names and tags), and the search goes on behind it; if they do not, the search goes on in the text behind the strings that did follow, but positions are counted as if that text started behind w. There is exactly one such answer for each input. A Rebulk with the default rules and only this chain (with any name, tags, value and formatter) returns exactly these matches, in this order.", "quantifier": "every non-empty list of non-empty strings, names, tags, value, formatter and every input", "why_tests_cant": "Tests check a few chains on a few inputs; the procedure after a failed attempt is not exercised by them.", "anchors": ["rebulk/chain.py:Chain._match", "rebulk/chain.py:Chain._fix_matches_offset", "rebulk/chain.py:Chain._truncate_repeater", "rebulk/rebulk.py:Rebulk.matches"]}
{"id": "C118", "title": "Containers built from matches", "statement": "Matches(ms, input) and Markers(ms, input) hold exactly the given matches, in this order, with right lookups, and raise exactly when one of the wrong kind is given; a slice of a container is such a container, with the same input string.", "quantifier": "every list of matches or markers, every input string, every container and slice", "why_tests_cant": "the list is arbitrary, with repetitions and both kinds, and the lookups of the new container must be right for every key", "anchors": ["rebulk/match.py: _BaseMatches.__init__, Matches.__init__, Markers.__init__, __getitem__, extend"]}
{"id": "C119", "title": "Search for groups from end to end", "statement": "A rebulk with only the default rules whose regular expressions are searched with children=True or every=True finds what each group of each non-empty match object captured (and with every the whole match), with the name of the group or else of the pattern, the rank of the match object, the value chosen for it (by name, else by role, else for all) or else its text through the formatter chosen in the same way, and the tags of the pattern. A match object gives nothing when the validator chosen for one of its captures refuses it; names in ignore_names are left out; what private_names, private_parent and private_children make private is not in the result. A public capture is lost only to a public one with which it shares a character and whose whole match is longer; when captures that share a character belong to whole matches of the same length, all public captures are found, in the order of the patterns, match objects and groups. The lookups of the result are right.", "quantifier": "every rebulk with only the default rules, every mix of such regular expressions with patterns of C116 in it and its children, every set of names, values, formatters and validators (whose verdict depends on what the capture tells), every input, when no two captures agree on span, value, name and whole match", "why_tests_cant": "Tests run one or two regular expressions on one line; which captures survive depends on all the patterns and the input.", "anchors": ["rebulk/pattern.py:RePattern", "rebulk/pattern.py:Pattern._match_parent", "rebulk/pattern.py:Pattern._process_match", "rebulk/processors.py:ConflictSolver", "rebulk/rebulk.py:Rebulk.matches"]}
{"id": "C120", "title": "Typed keys from end to end", "statement": "A key for a dataclass or TypedDict is refused; any other converts with its own formatter, else with its type. A pattern built with key=k and no other name or formatter has the key's name and formats with the key's converter whatever the defaults and declared keys are; one built with a sequence of keys formats what has the name of one of them with the formatter given for that name, else with the converter of the first key of that name; a pattern built without formatter formats what has the name of a declared key with that key's converter. When the patterns of a search (as in C119) convert what they find under a name with one converter, matches[key] is the converted text of the first match of that name in the result, None if there is none, and matches.all(key) the converted texts of all of them, in order. With CHECK_DECLARED_KEYS matches raises TypeError exactly when some match found contradicts a declared key, and otherwise returns what it returns without the flag; it never raises if the converters yield instances of their type or None.", "quantifier": "every key, builder history without shared dict options, set of defaults, rebulk with only the default rules and search patterns, and every input (no two captures alike)", "why_tests_cant": "Tests run one key on one pattern; conversion crosses the builder, the pattern options, the conflict solving and the name index.", "anchors": ["rebulk/key.py:Key", "rebulk/builder.py:_apply_key", "rebulk/builder.py:PatternFactory._inherit_keys", "rebulk/match.py:_BaseMatches.__getitem__", "rebulk/match.py:_BaseMatches.all", "rebulk/match.py:_BaseMatches.check_declared_keys", "rebulk/rebulk.py:Rebulk.matches"]}
{"id": "C121", "title": "What a chain of repeated strings finds", "statement": "chain().string(...).repeater(...)... with non-empty strings, names, tags, hidden parts and any least and greatest number of repetitions never raises on any input, and its matches are exactly those of this procedure: the first string is looked for anywhere in the text left, each other one right behind the one before; each takes as many copies as follow each other, at most its greatest number. If each part has at least its least number, this is a match (unless all parts found are hidden) from the first visible copy to the last one, with the visible copies as children, and the search goes on behind it; if nothing was found the search ends; if a part has too few, the search goes on behind the copies found, but positions are counted from behind the first visible copy. There is exactly one such answer. When only the first part is required, each match is really made of allowed numbers of copies of the strings one right after the other in the input; if moreover the first part may occur once, no occurrence of its string is outside of a match. A Rebulk with the default rules and only this chain returns exactly these matches, in this order.", "quantifier": "every list of non-empty strings with repeaters, names, tags and hidden flags, every name, tags, value and formatter of the chain and every input", "why_tests_cant": "Tests run a few chains on a few strings; greedy repetition, adjacency and what happens behind failed attempts depend on the whole input.", "anchors": ["rebulk/chain.py:Chain._match", "rebulk/chain.py:Chain._to_next_chain_part", "rebulk/chain.py:ChainPart._truncate_repeater", "rebulk/chain.py:ChainPart._validate_repeater", "rebulk/chain.py:Chain._build_chain_match", "rebulk/rebulk.py:Rebulk.matches"]}
{"id": "C122", "title": "What a chain of repeated strings with a validator finds", "statement": "A Rebulk with the default rules and one chain of non-empty strings with repeaters, names, tags and hidden parts, and with a validator (one for all, or by name or role), value and formatter: matches() never raises on any input and returns, from left to right, one match for each match of the search of C121 for which the validator accepts the match or the match without some of the last copies of the string found last: of these the longest, ending where its last copy ends. Dropping never reaches beyond the copies of that string (but may go below the number its repeater requires), a match without any copy is not returned, and a match that is never accepted is left out. There is exactly one such answer. The validator is called on a match with the place, rank, value, name and tags it would have, and its children.", "quantifier": "every list of non-empty strings with repeaters, names, tags and hidden flags (whose patterns are distinct), every name, tags, value, formatter and validator of the chain (whose verdict is a function of what it is told) and every input", "why_tests_cant": "Tests run a few chains and validators; how much has to be dropped depends on the number of repetitions in the input and on the verdicts on every shorter match.", "anchors": ["rebulk/chain.py:Chain._process_match", "rebulk/chain.py:Chain._match", "rebulk/chain.py:ChainPart._truncate_repeater", "rebulk/chain.py:ChainPart._validate_repeater", "rebulk/pattern.py:Pattern._process_matches", "rebulk/rebulk.py:Rebulk.matches"]}
{"id": "C123", "title": "What is found of the parts of a chain of repeated strings", "statement": "A Rebulk with the default rules and one chain of non-empty strings with repeaters, names, tags and hidden parts, given children=True or every=True, with any value and formatter (one for all, or by name or role), private names, private_parent, private_children and ignore_names, and no validator: matches() never raises on any input and returns, match of the chain by match of the chain (those of C121), the whole match if every=True, then one match for each visible copy of a string, in order: with the place of the copy, the name and tags of its string, the value and formatter the chain's options give to it, the number of the chain match as match_index and the chain match as its parent; private ones and ignored names are left out and none is removed as conflicting. Together with other patterns (groups of regular expressions, words) a part is lost only to a match with which it shares a character and whose whole match is longer. If only the first string is required, each part found reads its string; if later strings are required it need not.", "quantifier": "every list of non-empty strings with repeaters, names, tags and hidden flags, every such option of the chain and every input", "why_tests_cant": "Tests look at a few chains; that each child keeps its name, tags and place, gets the chain's value and index, and survives the conflict rules holds for all inputs only by proof.", "anchors": ["rebulk/chain.py:Chain._match", "rebulk/chain.py:Chain._build_chain_match", "rebulk/chain.py:Chain._process_match", "rebulk/pattern.py:Pattern._matches_privatize", "rebulk/pattern.py:Pattern._matches_ignore", "rebulk/pattern.py:Pattern._process_matches", "rebulk/processors.py:ConflictSolver", "rebulk/rebulk.py:Rebulk.matches"]}
{"id": "C124", "title": "A formatter that raises and the default rules", "statement": "Formatters are called when a value is read, and matches() itself reads values only to compare matches: with the default rules alone, a formatter that raises does not change what matches() returns. Exactly: matches() returns or raises the same as if no formatter raised, unless two different matches found (public or private, markers aside) have the same span, one of them has a value that cannot be read, and they share a character with a public match; in that case the call always raises, and when it would not have raised otherwise, it raises the exception of the formatter of a match that was found.", "quantifier": "every set of patterns, children and options, every input and context, every choice of formatters that raise, every conflict solver that names one of its two matches, every iteration order of sets", "why_tests_cant": "That a lazily raised exception stays harmless depends on every comparison made while indexing, resolving conflicts and removing matches, over all inputs; a test sees one input.", "anchors": ["rebulk/match.py:Match.__eq__", "rebulk/match.py:Match.value", "rebulk/match.py:_BaseMatches.conflicting", "rebulk/match.py:_BaseMatches.remove", "rebulk/processors.py:ConflictSolver.when", "rebulk/processors.py:PrivateRemover.when", "rebulk/rules.py:RemoveMatch.then"]}
{"id": "C125", "title": "Patterns that do not meet do not influence each other", "statement": "With the default rules only, patterns whose matches neither share a character with the matches of the other patterns nor equal one of them can be searched apart: matches() gives exactly the matches that each of the two groups of patterns gives alone, in the order each gives them, and the markers likewise. It raises exactly when one of the two groups alone raises, and then raises what one of them raises.", "quantifier": "every rebulk with its children and only the default rules, every splitting of its patterns in two groups, every input and context on which the matches found by the two groups do not meet, every conflict solver judging matches by what they are, every iteration order of sets", "why_tests_cant": "Conflict resolution compares every pair of matches, sorts all of them by length, and removes by equality over indexes shared by all patterns: that nothing leaks from one part of the input to another concerns all inputs and all pattern sets.", "anchors": ["rebulk/rebulk.py:Rebulk.matches", "rebulk/processors.py:ConflictSolver.when", "rebulk/processors.py:PrivateRemover.when", "rebulk/match.py:_BaseMatches.conflicting", "rebulk/rules.py:RemoveMatch.then"]}
{"id": "C126", "title": "The order of declaration of patterns does not matter", "statement": "With the default rules only, which matches and markers matches() returns does not depend on the order in which the patterns were declared, nor on whether they were declared in the object or in a child: only the order of the result does.", "quantifier": "every two rebulks with the same patterns in any order, spread over the object and its children, every input and context", "why_tests_cant": "Matches are resolved in an order that comes from the order of the patterns; that no choice leaks into the result concerns all permutations of all pattern sets on all inputs.", "anchors": ["rebulk/rebulk.py:Rebulk.effective_patterns", "rebulk/rebulk.py:Rebulk.matches", "rebulk/processors.py:ConflictSolver.when"]}
{"id": "C127", "title": "The default rules have nothing left to do on their own result", "statement": "Running the default rules again on what matches() returned, or on what is left of it after more removals, removes nothing more: a conflict that was settled stays settled, whatever the conflict solvers of the matches.", "quantifier": "every set of patterns and conflict solvers, every input and context, every iteration order of sets", "why_tests_cant": "Conflicts are settled in one pass that skips a removal when the other match is already being removed; that one pass is always enough concerns every graph of overlapping matches and every solver.", "anchors": ["rebulk/processors.py:ConflictSolver.when", "rebulk/processors.py:PrivateRemover.when", "rebulk/rules.py:Rules.execute_all_rules", "rebulk/rebulk.py:Rebulk.matches"]}
{"id": "C128", "title": "Reading results when a formatter raises", "statement": "A formatter that raises when a value is read makes a read fail only when that value is needed, and the first value needed that cannot be read decides the exception: matches[key] needs the first match of the name, all(key) all of them, to(T) the first match, to(list[T]) all matches, to_dict() all matches in position order even unnamed ones, to(dataclass or TypedDict) all matches of each field in turn after the field was compared with its declared key, check_declared_keys() the public matches of declared names without literal value up to the first of a wrong type. to_dict(details=True) needs values only to compare different matches of one name and one span. A read that does not fail answers as if nothing could raise.", "quantifier": "every container, every set of matches whose value cannot be read, every key, model, mode of to_dict and set of declared keys", "why_tests_cant": "Which values a projection reads, in which order and with which type errors in between, concerns every container and every set of failing formatters.", "anchors": ["rebulk/match.py:Matches.to_dict", "rebulk/match.py:Matches.__getitem__", "rebulk/match.py:Matches.all", "rebulk/match.py:Matches.to", "rebulk/match.py:Matches.check_declared_keys", "rebulk/match.py:Match.value"]}
{"id": "C129", "title": "Matches found inside a chain belong to the chain match", "statement": "Every match a chain without processors returns either is a match of the chain, without parent, or was found inside one: then following parent from it leads to that match, none of the parents on the way is empty, and that match is its initiator, also when the validator made the chain give up its last repetitions. So the default conflict solver, which compares the lengths of the initiators, never lets a chain match and a match found inside it, or two matches found inside it, push each other out.", "quantifier": "every input, every chain of parts, each of one or several strings, regular expressions (with groups or without), functions, or a chain that returns its own matches (so chains nested to any depth), every bounds of the repeaters, hidden parts, breakers, formatters and validators, every choice of the matches the chain returns", "why_tests_cant": "Parents are set while the chain match is built, then moved on each time the chain match is configured, processed or shortened; that all children follow concerns every input and every way of giving up repetitions.", "anchors": ["rebulk/chain.py:Chain._build_chain_match", "rebulk/chain.py:Chain._process_match", "rebulk/match.py:Match.initiator", "rebulk/processors.py:_default_conflict_solver"]}
