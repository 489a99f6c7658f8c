# Formal model of Toilal/rebulk in Lean 4

## 1. Layout

* `lean/Verif/Model/*.lean` — the model, function by function, every definition citing `/repo` lines.
* `lean/Verif/Spec/*.lean` — small independent specifications (no use of the model's helpers).
* `lean/Verif/Lemmas/*.lean` — helper lemmas.
* `lean/Verif/Props/*.lean` — the property theorems only (named after the property ids in their docstring)
  with a non-vacuity `example` beside each, and refutations (`..._refuted`) where the code violates a property.
* `lean/Verif/Tests/*.lean` — the project's own tests (`rebulk/test/*.py`) run on the model, as evidence that the model reads the code rightly.
  They are tests, not proofs: no theorem depends on them and none is in the manifest. A small regular expression engine written for them
  (`Tests/Engine.lean`) stands for `re`; some assertions are evaluated by the kernel, the larger ones (`#eval`) by the interpreter at build time.
* `MANIFEST.json` — property → theorem names and status. `seeded/LOG.jsonl` — mutation experiments.

Every property whose English statement is false of the code is kept at full strength in the list; the
Props file then has a `..._refuted` theorem (negation with a concrete witness, checked by kernel evaluation)
and a `..._partial` theorem with the strongest true part.

## 2. Modelling conventions

* Python `int` positions are `Int` (negative values allowed), strings are `List Char`, dicts are insertion-ordered
  association lists, exceptions are values of `Except PyErr`, in-place mutation is returning the new value.
* Python object identity is an explicit `id : Nat` field of `Match`; `==` is the Boolean function `Match.eqv`
  (span, value, name, parent chain). The parent chain is stored as a list of snapshots (`ancestors`).
* Aliasing that matters for a property (shared default dicts, shared tag lists, list values in `to_dict`,
  in-place renames) is modelled with explicit heaps in separate modules (`Model/Heap*.lean`).
* External behaviour is a parameter: regex engine results, user functions (validators, formatters, conflict
  solvers, rule conditions, functional patterns), `str.lower`.

## 3. Plan per property

| id | modelled by | proof |
|----|-------------|-------|
| C01 | `Model/Matches.lean`: sequence + five lazily built index dicts + `_max_end`, `step : State → Op → State × Out` | invariant (per-key counts up to `==`) by induction over the op list |
| C02 | same, op `setItem` | refuted by witness; partial: true when the index is not built; `C02_exact` (Spec/History `overwrittenSince`): for every history without slice deletion, lookups show the sequence plus what was overwritten since they were prepared (snoc induction over `Shows`, `Overwrites`) |
| C03 | same | stronger invariant (literal equality) for append/remove histories |
| C04 | same, spec = plain list machine | refinement: `delegate` commutes with the list machine; Python's negative indexes and `insert` specified apart (`Spec/Sequence`) |
| C05 | same, keys of the dicts | refuted (phantom keys); partial: superset always, exact on a freshly built index; `C05_exact` (Spec/History): for every history, exactly the names held or asked for since the first look |
| C06 | `range` | invariant `max_end ≥ end` + exact characterisation of stable sort |
| C07 | `max_end` | lower bound as invariant; exactness refuted; exact for histories of adds; `C07_exact`: for every history, monotone, an upper bound of all past ends, and one of the past ends or asked positions |
| C08, C09 | `previous`, `next` | induction on the scan, using C01/C07 invariants |
| C10, C11 | `conflicting`, `at_span`, `at_index` | membership characterisation up to `==` |
| C12, C13 | `chain_before`, `chain_after` | loop invariant against a declarative reachability spec |
| C14–C16 | `holes` | loop invariant against "maximal run" spec; C15/C16 refuted, partial, and exactly what is returned (`C15_exact`, `C16_exact`: the loop run from the place it begins at, then moved up to `start`) |
| C17 | `Model/Arguments.lean`: `filter_index`, the arguments of each lookup, keyword arguments of `named` | direct case analysis against list spec |
| C18 | `step` with refused adds | invariant; atomicity refuted |
| C19, C20 | slices | direct; refuted for markers / unbuilt end index; partial; the raw slice / removal equal Python's slice positions (`C19_python_slice`, `C20_without`) |
| C21 | `to_dict` | fold invariant, against `dedup`/`filter` spec |
| C22 | heap model of list values | refuted; partial (no list values) |
| C23–C25 | typed access, `to`, `check_declared_keys` with a model of type hints | structural induction on hints |
| C26, C27 | `Match.eqv`, order, stable sort | algebra |
| C28, C29 | `crop`, `split` | loop invariants against the maximal run spec |
| C30, C31 | value/raw, trees | case analysis / structural induction |
| C32, C33 | `find_all` with fuel | induction; divergence proved for every fuel when `sub = ""` |
| C34 | `extend_safe` with hash failure | fold invariant |
| C35–C37 | `toposort` | strong induction on remaining items; mutation of the input in a store; `toposort_flatten` concatenates the levels (`C35_flatten`) |
| C38, C39 | `set_defaults`, builder on a dict heap | induction on nesting; refuted by a build history |
| C40, C41 | `argspec_args`, `call` on functions, classes and methods; validators, formatters | direct; C40 against Python's rules for calls (`Spec/Callable.lean`), refuted + partial |
| C42–C49 | `Model/Pattern.lean` | direct + induction on children |
| C50–C56 | `Model/Chain.lean` | loop invariants, measure for termination; what a part keeps is characterised exactly (`Keeps`); C53 refuted + partial (`Props/ChainDrift.lean`: for any chain of regular parts only the first part found in an attempt can be misplaced, and then too early) |
| C57–C60 | `Model/Rules.lean` generic in the state | order theorems via C35/C36; objects as dependencies reduced to classes (`Props/RulesObjects.lean`); C59 refuted |
| C61–C65 | consequences; tags heap | induction; closed form of removal with equal matches in `Props/Removal.lean` (`Spec/Removal.lean`); C65 refuted |
| C66–C70 | `Model/Processors.lean` | loop invariants on the removal set; C70 refuted + partial; `C70_exact` in `Props/Removal.lean` for every container |
| C71–C74 | `Model/Rebulk.lean` | composition of the above |
| C75–C77 | `check_keys`, introspection, keys | structural induction |
| C78–C81 | see `properties.jsonl` | additions to the groups above (chains, patterns); C79 for two required parts in `Props/ChainFound.lean` |
| C82, C84 | processors | chain of longer matches; refuted + partial |
| C83 | consequences | induction |
| C85, C86, C88 | `Model/Rebulk.lean` | refuted by witness; partial theorems |
| C87, C89 | patterns and chains together | invariant on all nodes of a tree through processing, then structural induction on pattern objects |
| C90 | `Model/Chain.lean` | invariant on the matches of the chain loop; structural induction on nested chains; refuted + partial |
| C91 | `Model/Pattern.lean` | case analysis against the same call without raw matches |
| C92, C93 | `Model/Registry.lean`: objects by reference, one step per call | invariant relating objects to the history, induction over the calls |
| C94 | same | refuted by witness; partial: step analysis |
| C95 | `Model/RuleLog.lean`: the engine group by group with its log | refuted by witness; partial: the log erased gives the engine of C57–C60 |
| C96 | `Model/Session.lean`: series of calls with the tag list objects | refuted by witness; partial: induction over the calls; tags of a call's matches read from the lists as they are when it begins (`C96_tags`) |
| C97 | `Model/Raising.lean`: patterns, chains and `matches` with user functions that return or raise | refuted by witness; partial: simulation of the total model, structural induction over pattern objects |
| C98 | `Model/Handles.lean`: the lists returned by lookups as objects | refuted by witness; partial: induction over calls and changes |
| C99 | `Model/Sequence.lean`: slices with steps, slice assignment, the methods of `collections.abc.Sequence` | refuted by witness; partial: the indexes hold at least the sequence (invariant), slices against the documented meaning |
| C100 | `Model/Project.lean` with list objects | invariant on the loop of `to_dict` (values, sharing); `values_list` refuted by witness |
| C101 | `Model/Builder.lean`: option dicts as objects | invariant of reachable builders, option-wise description of each merge (dicts entry by entry), closedness of the heap; deep copies by recursion on the nesting; `overrides` of dicts refuted |
| C102 | `Model/Assign.lean`: match objects with attributes, a container referring to them | refuted by witness; partial: invariant over histories of calls and assignments; what stale lookups return, in every state; what an assignment makes readable and what it leaves (`C102_read_back`) |
| C103 | `Model/Regexes.lean`: `str.replace`, the loop of `RePattern.__init__` over its arguments with dict objects; `re.compile` a parameter | refuted by witnesses; the rest by induction on the arguments |
| C104 | `Model/Threads.lean`: calls as state machines (a step per pattern, per `when`, per `then`), events of a scheduler, registrations | refuted by witness; partial: invariant over events "the rest of the call alone gives its outcome"; ending by a measure |
| C105 | `Model/Copies.lean`: a heap of objects (attributes holding atoms or references), `copy.deepcopy` with its memo, `crop` and `split` on it; `Spec/Copies.lean`: following attributes, what is reached, `OwnCopies` | invariant of the copy (memo is a one-to-one correspondence onto the new objects, those on the stack excepted; the recursion ends as each step adds an object to memo), simulation of the span model of C28/C29, then every later assignment stays inside what one piece reaches |
| C106 | `Spec/PatternRun` (`Emits`, `EmitsAll`, `Returns`, `StringRaws`, `RegexRaws`, `FunctionRaws`) says stage by stage what becomes of the raw matches of each sub-pattern | induction over raw matches and sub-patterns, from `processMatches_spec` (C45, C46) and the raw matches of C42, C43, C44. |
| C107 | `Model/IdentitySet`: references compared by hash and identity, iteration order a parameter of every call; `Spec/IdentitySet` (`Changes`, `ListsSet`) | each call against the predicate on objects, induction over the history; cardinality for `<=` and `==`. |
| C108 | `Model/Iteration.lean`: paused generators of `Sequence.__iter__`/`__reversed__` beside the container, any interleaving; `Spec/Iteration.lean`: CPython's list iterators | lockstep simulation by induction on the history; `reversed` refuted + partial + exact form; loops by induction on what is left to read |
| C109 | `Model/Failing.lean`: removal statement by statement with comparisons that may raise | the matches met before the removed one in an index are those before it in the sequence (`Exact`), which were compared already; refuted by witness for inserted matches and deletion by position; by position: exactly when it raises, dictionary by dictionary (`Spec/FailingExact`; after any history `Spec/FailingHistories`), and any container at all when every value can be read |
| C110 | `Model/KeyViews.lean`: `names`/`tags` as live views of the index dictionaries, dict iterators as in CPython | keys only grow at the end under every call (`LongerNT`); induction on the steps of the iterator; refuted by witness; partial: loops that file no new key |
| C111 | `Model/LiveAnswers.lean`: the loop of `Rule.then` over an answer re-read before each consequence | the loop agrees with the relation `RunsNow` (induction on the consequences); closed form for removals from the container; refuted by witness; partial: answers that no consequence changes |
| C112 | `Spec/ChainScan.lean`: `Tried` (parts one after another in a text), `Gathers` (collected matches), `Scans` (the whole search, as an inductive relation), `Answers`; model in `Model/Chain.lean` | soundness of the loop for `Scans` by induction on the fuel with the state invariant of the text left; determinism of `Scans` by induction; absence of exceptions by an invariant on markers; closure of `Answers` under chains. With a validator (`Spec/ChainValid.lean`: `ChainEmits`, `PlainPart`; `Lemmas/ChainValid.lean`): the children of a raw match are shown to be distinct leaves below it, in order, so that C55 applies to every raw match |
| C113 | `Match.len?`, `Match.truthy?` (`Model/Match.lean`); spec: the list of covered indexes, each once | counting by permutation with a range; slices |
| C114 | `Model/Debug.lean`: call stack as list of frames, environment value; spec: innermost frame outside, blanks + word + blanks | induction on the stack; `dropWhile`/`takeWhile` lemmas |
| C115 | `Spec/PlainSearch.lean`: `Finding`, `Finds` (occurrences, match objects), `Stands` (find and its match), `Longest`; models of patterns, container, rules and `Rebulk.matches` as above | C106 for each pattern, where nothing is dropped; C74_simple for the rules; finds and matches related element by element |
| C116 | `Spec/ConfiguredSearch.lean`: `Config` (the options), `Hit`, `HitsOf` (what a pattern finds), `StandsFor` (hit and its match), `Unbeaten` | C106 for each pattern, where only the validator refuses; C74_ordinary for the rules; hits and matches related element by element; for chains `C112_returned`; with a validator `C112_validated` and `ChainHits` |
| C117 | `Spec/WordChain.lean`: `FirstAt`, `wordsFound` (the strings that follow), `WordScan` (the procedure), `WordMatch` (span and children) | C112_answers reduces the search to `Scans`; each attempt with strings is computed from the list of occurrences (`word_search`), then induction on `Scans`; the answer is unique by induction on `WordScan`; end to end (`Spec/WordSearch.lean`) by the chain case of C116, the spans of a scan being separate |
| C118 | `Matches.ofList` (constructors) and `getStep` (slices) of the container model; answers compared with plain lists (`LookupsRight`, `Reachable`). | no index is built while a new container is filled, so lookups are exact; kinds by `C18_kinds_partial`; `Markers(ms)` and the input string of slices refuted by witnesses. |
| C119 | Spec/GroupSearch.lean: `GroupConfig` (the keyword arguments), `Capture`, `GroupConfig.captures` (what the match objects of the engine should give), `HeaviestKept` (who survives). Model: RePattern, Pattern.matches, Rebulk.matches | Props/GroupSearch.lean: the tree of a match object is computed from the configuration (C46/C48 lemmas), then C74 gives what the default rules keep, and the result is carried back to captures |
| C120 | Model/TypedKeys.lean (key.py; the formatter dict read from the heap of Model/Builder.lean); Spec/TypedSearch.lean: `Converts`, `AllConvert`, `Contradicts` | Props/TypedSearch.lean: builder part from C101 and C77; search part from C119 by relating each kept capture to the options of its pattern; checking part from C73 (what is collected) and C25 |
| C121 | Model/Chain.lean; Spec/RepeatChain.lean: `CopiesAt`, `Takes`, `Laid`, `RepeatScan` (procedure), `Reads`, `RepeatsAllowed` (what a real match is) | Props/RepeatChain.lean: what a part keeps of all occurrences (`kept_many`), then induction along the scan of C112; Props/RepeatSearch.lean: real and complete for optional tails, end to end through the default rules as in C117. |
| C122 | Model/Chain.lean, Model/Rebulk.lean; Spec/RepeatValid.lean: `cutBy`, `droppable`, `Trims` (what the validator leaves of the copies), `Config.AgreesOn`, `TrimmedHits` | Props/RepeatValid.lean: the children of a raw match are the copies in order (C121), the shortened match of C112 is the match of the copies cut (`left_copies`, `shortened_span`), verdicts as in C116, disjoint hits survive the default rules. |
| C123 | Model/Chain.lean, Model/Pattern.lean, Model/Rebulk.lean; Spec/PartSearch.lean: `GroupConfig.runParts`, `runsParts`, `PiecesOf`, `PiecePattern` (captures of Spec/GroupSearch.lean for the copies of Spec/RepeatChain.lean) | Props/PartSearch.lean: raw matches of the chain have the copies as children in order, linked to the match (C121, `go_linked`); their configuration as in C119 (`captured`); emission (C106, C112); captures of one chain are distinct and conflict-free; `captures_found` of C119 for the default rules. |
| C124 | Model/FailingRules.lean (conflict resolution and removal with comparisons that raise, on Model/Failing.lean); Spec/FailingRules.lean: `OnlyFormattersDiffer`, `ByContent`, `Choosing`, `ClashAt` | Props/FailingRules.lean: each comparison made agrees with the one without failures or is blamed on a clash (`Tells`), carried through `conflicting`, the solvers and both removals (dichotomy); a clash is met by `conflicting` of the public match (`Compared`: the list being built stands for all matches looked at) |
| C125 | the models of C72-C74; Spec/Locality.lean: `Impartial`, `Apart`, `Shuffle` | Props/Locality.lean: `pick G f` (the matches of a group, as other objects) commutes with lookup by index, `conflicting`, sorting, the solvers, the set of matches to remove and the removals (`Agree`: the whole fails as one part does); Props/LocalityDefault.lean: flags and renamings between the searches, then the theorem |
| C126 | the models of C72-C74 | Props/PatternOrder.lean: what is collected is permuted (induction on the permutation), and C74 describes the result by a condition that does not look at the order; a witness with children for the rest |
| C127 | the models of C66-C68, C73 | Props/Settled.lean: a removal of the second pass would be justified by a conflict of the first one, of which one match was removed (`RemovalLog`); ordinary matches by C67_equal_matches twice; a witness for the rest |
| C128 | Model/FailingReads.lean (`to_dict`, `matches[key]`, `all`, `to`, `check_declared_keys` with reads and comparisons that may raise), Spec/FailingReads.lean | Props/FailingReads.lean: each read is compared with its counterpart without exceptions; details by induction on the position order with the invariant of C21 (a repeated name and span of which one cannot be read stops at its second match) |
| C129 | Model/Chain.lean, Model/Pattern.lean, Spec/ChainLinks.lean (leading to a match of the search; families) | Props/ChainGroups.lean, Lemmas/ChainLinks.lean: the parents of a match inside are some non-empty matches followed by the chain match, an invariant of building, moving, configuring, shortening and processing; families_*: what strings, regular expressions, functions and chains find meets what is asked of parts. Props/ChainLinks.lean (C129_within): for parts without groups the match inside has the chain match as parent and lies within its span, from the account of C70/C86 |

## 4. Trusted base

* Lean 4.33's kernel. No `native_decide`, no `bv_decide`, no axiom of our own; `decide +kernel` (still the kernel) in a few examples and witnesses.
* Axioms: the theorems depend on `propext`, `Quot.sound` and, some of them, `Classical.choice`, and on no other (`vcheck` prints them).
* The reading of `/repo` recorded in the comments of `Model/`: the model was written by hand from the text of the code, not extracted from it.
* `Model/Py.lean`: the documented behaviour of the Python built-ins used (dicts in insertion order, stable `sorted`, slices and negative indexes,
  `str.find`, `int()` of a text, `groupby`, `MutableSequence` mixins).

## 5. What is modelled and what is not

Modelled, function by function (`python3` on the comments of `Model/` gives the list of cited lines):

* `match.py`: `Match` (fields, `==`, order, hash, value, raw, initiator, names, `crop`, `split`), `_BaseMatches`, `Matches`, `Markers` with their lazily
  built lookups, `to_dict`, typed access (`first`, `values`, `to`), `check_declared_keys`.
* `pattern.py`: the three kinds of patterns, options, validators, formatters, processors, children, raw matches.
* `chain.py`: the search loop, repeaters, breaker, offsets, hidden parts, processing and backtracking; nested chains.
* `builder.py`, `loose.py`: defaults, overrides, keys, sharing of dict objects; registration by reference.
* `rebulk.py`, `introspector.py`, `key.py`: effective patterns, rules and keys, `matches`, `check_keys`, introspection.
* `rules.py`, `toposort.py`, `processors.py`: the engine, the consequences, the two default rules.
* `utils.py`, `validators.py`, `formatters.py`: `find_all`, `extend_safe`, `call`, character validators, formatter chains.

Parameters (universally quantified in the theorems): the regular expression engine (what `finditer`, group spans and captures return), user
functions (validators, formatters, processors, functional patterns, conflict solvers, rule conditions), `str.lower`, the iteration order of sets of matches.

Not modelled:

* exceptions raised by formatters when a value is read, except during a removal (`Model/Failing.lean`) and by the default rules (`Model/FailingRules.lean`; those of the other user functions are modelled in `Model/Raising.lean`, those of rules in `Model/Rules.lean`);
* user functions that change the match or the container they are given (rules, which do that through the container, are modelled on an arbitrary state);
* parents and children as one mutable graph: parents are snapshots, refreshed where the code changes the parent;
* `pickle`, deep copies other than the ones of `Model/Copies.lean`, `__repr__` of most classes, the frames seen by the stack inspection of `debug.py` (`Model/Debug.lean` takes the frames as a parameter), `REBULK_*` environment variables (the
  flag they set is a parameter), import-time code, `remodule.py` (choice between `re` and `regex`; both are the parameter above, `regex` adding
  repeated captures);
* threads: `Model/Threads` interleaves calls of `matches` step by step (C104); interpreter-level races inside one step are not modelled;
* performance.

Each `Model/` comment says what it simplifies.
