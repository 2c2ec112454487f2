{"id": "C01", "title": "A confirmed verdict covers every input", "statement": "When path exploration of a deterministic program reports CONFIRMED, every concrete input, run through the program, ends on a path that was explored and did not fail (it was confirmed, or ignored because a precondition rejected it). No input can reach a refuted or undecided path.", "quantifier": "every deterministic program over any set of inputs, every sequence of exploration iterations, every random choice the search makes, every sound solver answer", "why_tests_cant": "A test fixes one program, one random seed and one schedule of iterations; the claim is about all programs and all exploration orders.", "anchors": ["crosshair/statespace.py: SearchTreeNode, WorstResultNode, ModelValueNode, RootNode, StateSpace.choose_possible, StateSpace.bubble_status, merge_node_results", "crosshair/core.py: explore_paths, analyze_calltree"]}
{"id": "C02", "title": "A refuted verdict comes from a real execution", "statement": "When path exploration reports REFUTED, one of the iterations ended in a refuted leaf, and if the path constraints at that leaf are satisfiable there is a concrete input driving the program to that failure.", "quantifier": "every deterministic program, every exploration history", "why_tests_cant": "Soundness of alarms must hold for all histories, not a sampled few.", "anchors": ["crosshair/statespace.py: StateSpace.bubble_status, merge_node_results, WorstResultNode.compute_result"]}
{"id": "C03", "title": "Exploration never repeats a finished path and makes progress", "statement": "While the root is not exhausted every new iteration can be driven to a leaf that has never been finished before; the search never picks an exhausted branch, and once a node is exhausted its result never changes again.", "quantifier": "every program, every tree reachable by any number of iterations, every random choice", "why_tests_cant": "The assertion `not exhausted` and the freshness of the leaf depend on the whole history of earlier iterations.", "anchors": ["crosshair/statespace.py: RandomizedBinaryPathNode.choose, WorstResultNode.choose, SearchTreeNode.update_result, StateSpace.bubble_status"]}
{"id": "C04", "title": "Exploration of a finite program terminates with full coverage", "statement": "If the program's decision tree has n paths then at most n iterations end at ordinary leaves before the root is exhausted, and at exhaustion every feasible path was executed.", "quantifier": "every finite decision tree and every choice sequence", "why_tests_cant": "Termination is a claim about all schedules.", "anchors": ["crosshair/statespace.py: StateSpace.choose_possible, bubble_status", "crosshair/core.py: explore_paths"]}
{"id": "C05", "title": "Combining branch results takes the worst outcome", "statement": "Merging analyses of two branches is commutative and associative in the reported status, treats 'ignore' as neutral, reports the minimum status (REFUTED < UNKNOWN < CONFIRMED), keeps all messages in order, and remembers the failing precondition furthest down in the file.", "quantifier": "all pairs and triples of analyses", "why_tests_cant": "Algebraic laws quantify over all analyses.", "anchors": ["crosshair/statespace.py: merge_node_results, VerificationStatus, CallAnalysis"]}
{"id": "C06", "title": "Parallel search strategies only add information", "statement": "At a node where two alternative strategies explore the same inputs, the reported status is decided by any strategy that finished with a definite status; a CONFIRMED or REFUTED status is only reported if one strategy alone justifies it, or both agree by the worst-of rule.", "quantifier": "all pairs of strategy results", "why_tests_cant": "Decision table over all statuses and exhaustion flags.", "anchors": ["crosshair/statespace.py: ParallelNode.compute_result"]}
{"id": "C07", "title": "Nondeterministic programs are detected", "statement": "If a program replays a prefix of decisions and asks a different question from the one asked before at the same point, exploration raises a nondeterminism error instead of mixing the two subtrees.", "quantifier": "every recorded tree and every divergent replay", "why_tests_cant": "The divergence can occur at any depth of any tree.", "anchors": ["crosshair/statespace.py: StateSpace.choose_possible, WorstResultNode, NotDeterministic"]}
{"id": "C08", "title": "Call-tree analysis verdict", "statement": "The verdict for one postcondition is CONFIRMED only when exploration was exhausted with no refuted and no unknown path and at least one path met the preconditions; preconditions never met yields PRE_UNSAT; any failing path yields its failure message; everything else is CANNOT_CONFIRM.", "quantifier": "all sequences of per-path analyses", "why_tests_cant": "Combination of all possible path histories.", "anchors": ["crosshair/core.py: analyze_calltree, CallTreeAnalysis, explore_paths"]}
{"id": "C09", "title": "Message severity is a total order and messages are deduplicated by worst state", "statement": "Collected messages keep, per file position, only the most severe state seen; the order is CONFIRMED < CANNOT_CONFIRM < PRE_UNSAT < POST_ERR < EXEC_ERR < POST_FAIL < SYNTAX_ERR < IMPORT_ERR; the result does not depend on the order of arrival up to equal severities.", "quantifier": "all message sequences", "why_tests_cant": "Ranges over all sequences.", "anchors": ["crosshair/core.py: MessageCollector", "crosshair/statespace.py: MessageType, AnalysisMessage"]}
{"id": "C10", "title": "`crosshair check` exit status", "statement": "check exits 2 iff a target fails to load, otherwise 1 iff some message is more severe than PRE_UNSAT, otherwise 0.", "quantifier": "all lists of targets and messages", "why_tests_cant": "All combinations of message lists.", "anchors": ["crosshair/main.py: check, short_describe_message"]}
{"id": "C11", "title": "Watch mode reports each location once and notices every change", "statement": "Merging newly found messages into the watch display keeps exactly one message per file and line, reports a change iff some location became known, and is idempotent.", "quantifier": "all message sequences", "why_tests_cant": "Ranges over all histories of merges.", "anchors": ["crosshair/main.py: messages_merged"]}
{"id": "C12", "title": "Watcher sees every file modification", "statement": "Comparing consecutive snapshots of watched files reports a change iff some file appeared, disappeared or has a different modification time, provided each file is listed once.", "quantifier": "all pairs of snapshots", "why_tests_cant": "All file sets.", "anchors": ["crosshair/watcher.py: Watcher.check_changed"]}
{"id": "C13", "title": "The worker pool never exceeds its size and never loses work", "statement": "Across any sequence of submit, spawn, finish, timeout and collect events the number of live workers stays within the configured maximum and every submitted item is queued, running, or finished/killed exactly once.", "quantifier": "all event sequences", "why_tests_cant": "All schedules.", "anchors": ["crosshair/watcher.py: Pool"]}
{"id": "C14", "title": "Integer division and modulo of symbolic ints agree with Python", "statement": "The solver expressions built for `//` and `%` on symbolic integers equal Python's floor division and modulo for every pair of integers with non-zero divisor, and division by zero raises.", "quantifier": "all pairs of integers", "why_tests_cant": "Unbounded integers; sign cases.", "anchors": ["crosshair/libimpl/builtinslib.py: apply_smt"]}
{"id": "C15", "title": "Bit operations of symbolic ints agree with Python", "statement": "Shifts, inversion, and-with-a-low-mask, bit_length and bit_count computed through arithmetic equal the two's complement definition for all integers.", "quantifier": "all integers and all shift amounts", "why_tests_cant": "Unbounded integers.", "anchors": ["crosshair/libimpl/builtinslib.py: setup_binops, SymbolicIntable.__invert__, SymbolicInt.bit_length, SymbolicIntable.bit_count"]}
{"id": "C16", "title": "Rounding symbolic ints follows banker's rounding", "statement": "round(x, -n) for a symbolic integer returns the multiple of 10**n nearest to x, ties to the even multiple.", "quantifier": "all integers and all n>0", "why_tests_cant": "Unbounded.", "anchors": ["crosshair/libimpl/builtinslib.py: SymbolicInt.__round__"]}
{"id": "C17", "title": "Integer/bytes conversions round-trip", "statement": "int.from_bytes(x.to_bytes(n, order, signed), order, signed) == x whenever to_bytes succeeds, and to_bytes raises OverflowError exactly when x does not fit.", "quantifier": "all integers, lengths, byte orders, signedness", "why_tests_cant": "Unbounded lengths.", "anchors": ["crosshair/libimpl/builtinslib.py: SymbolicInt.to_bytes, _int_from_bytes"]}
{"id": "C18", "title": "Decimal rendering and parsing of symbolic ints", "statement": "The decimal rendering of a symbolic int is its canonical decimal numeral, and parsing a digit string in base 2..10 yields the number it denotes; parsing the rendering of a non-negative int gives the int back.", "quantifier": "all integers and digit strings", "why_tests_cant": "Unbounded.", "anchors": ["crosshair/libimpl/builtinslib.py: SymbolicInt._symbolic_repr, _int"]}
{"id": "C19", "title": "Bounded-integer shortcuts are sound", "statement": "Comparison answers a bounded symbolic int gives from its recorded bounds agree with the comparison of every value within those bounds, and the bounds recorded after a comparison always contain the value.", "quantifier": "all bounds, all values in them, all comparison histories", "why_tests_cant": "Histories of comparisons.", "anchors": ["crosshair/libimpl/builtinslib.py: SymbolicBoundedInt"]}
{"id": "C20", "title": "Lazy sequence views behave like the list they denote", "statement": "Indexing and slicing (any start, stop, step including negative and missing) of lazily concatenated or sliced sequences give exactly the elements and errors that the same operation gives on the fully built list.", "quantifier": "all nested concatenations/slices of any contents, all indices and slices", "why_tests_cant": "Unbounded nesting, all slice sign combinations.", "anchors": ["crosshair/simplestructs.py: SequenceConcatenation, SliceView, cut_slice, clamp_slice, concatenate_sequences, indices"]}
{"id": "C21", "title": "Mutable list shell refines Python's list", "statement": "Any sequence of item/slice assignment, deletion, append, extend, insert, reverse, copy on the mutable shell has the same results, errors and final contents as on a Python list, and never modifies the wrapped original.", "quantifier": "all operation sequences", "why_tests_cant": "All histories.", "anchors": ["crosshair/simplestructs.py: ShellMutableSequence"]}
{"id": "C22", "title": "Symbolic ranges behave like Python ranges", "statement": "Length, membership, indexing, index(), iteration and reversed iteration of a range with any start/stop/step≠0 agree with the arithmetic progression it denotes.", "quantifier": "all integer triples with step ≠ 0", "why_tests_cant": "Unbounded.", "anchors": ["crosshair/libimpl/builtinslib.py: SymbolicRange"]}
{"id": "C23", "title": "Mutable dict shell refines a map", "statement": "Any sequence of get/set/delete/len/contains/iterate/copy/clear on the mutable mapping behaves as on a finite map, with KeyError exactly for missing keys, and never modifies the wrapped mapping.", "quantifier": "all operation sequences over any wrapped mapping", "why_tests_cant": "All histories.", "anchors": ["crosshair/simplestructs.py: ShellMutableMap, SimpleDict, MapBase"]}
{"id": "C24", "title": "Lazy set algebra refines mathematical sets", "statement": "Union, intersection, difference, symmetric difference and mutation on lazy sets have the membership of the corresponding mathematical set, never contain duplicates, and len equals the number of distinct elements.", "quantifier": "all expression trees and operation sequences over sets", "why_tests_cant": "All histories and nestings.", "anchors": ["crosshair/simplestructs.py: LinearSet, LazySetCombination, ShellMutableSet, SetBase"]}
{"id": "C25", "title": "Sequence ordering is lexicographic", "statement": "Comparison operators of lazy sequences and strings give the lexicographic order: a strict total order consistent with equality, with <= being < or ==.", "quantifier": "all pairs/triples of sequences", "why_tests_cant": "Unbounded length.", "anchors": ["crosshair/simplestructs.py: SeqBase._lexicographic_compare", "crosshair/libimpl/builtinslib.py: AnySymbolicStr._cmp_op"]}
{"id": "C26", "title": "Substring search agrees with str.find", "statement": "find/rfind/index/partition/rpartition/contains on symbolic strings return the first/last occurrence of the needle within the window, as CPython defines it.", "quantifier": "all strings, needles and windows", "why_tests_cant": "Unbounded.", "anchors": ["crosshair/abcstring.py: AbcString._find, partition, rpartition", "crosshair/libimpl/builtinslib.py: LazyIntSymbolicStr.__contains__, _str_contains"]}
{"id": "C27", "title": "Replace and split agree with str", "statement": "replace, split, rsplit with a separator satisfy: joining the split pieces with the separator restores the string, no unlimited split piece contains the separator, at most maxsplit cuts are made, and replace(old,new,n) equals joining the first-n-split pieces with new.", "quantifier": "all strings, separators, limits", "why_tests_cant": "Unbounded.", "anchors": ["crosshair/abcstring.py: AbcString.replace", "crosshair/libimpl/builtinslib.py: AnySymbolicStr.split, rsplit"]}
{"id": "C28", "title": "Affix tests, stripping and padding agree with str", "statement": "startswith/endswith with windows, removeprefix/removesuffix, strip/lstrip/rstrip, ljust/rjust/center/zfill give CPython's result.", "quantifier": "all strings, windows, widths", "why_tests_cant": "Unbounded.", "anchors": ["crosshair/abcstring.py: startswith, endswith, removeprefix, removesuffix, _unfindable_range", "crosshair/libimpl/builtinslib.py: center, zfill, ljust, rjust, lstrip, rstrip"]}
{"id": "C29", "title": "Splitting lines loses nothing", "statement": "splitlines(keepends=True) concatenates back to the string, every piece but the last ends with exactly one line terminator (CRLF counted once), and without keepends the pieces are those with terminators removed.", "quantifier": "all strings", "why_tests_cant": "Unbounded.", "anchors": ["crosshair/libimpl/builtinslib.py: AnySymbolicStr.splitlines"]}
{"id": "C30", "title": "Hex encoding round-trips", "statement": "bytes.fromhex(b.hex()) == b for all byte strings, fromhex rejects exactly the malformed inputs, and separators are placed as documented.", "quantifier": "all byte strings and separators", "why_tests_cant": "Unbounded.", "anchors": ["crosshair/libimpl/builtinslib.py: BytesLike.hex, SymbolicBytes.fromhex, make_hex_digit, parse_hex_digit"]}
{"id": "C31", "title": "Base64 decode inverts encode", "statement": "Decoding the base64 encoding of any byte string (with or without newline, strict or not) returns the byte string; encoding has the documented length and padding.", "quantifier": "all byte strings", "why_tests_cant": "Unbounded.", "anchors": ["crosshair/libimpl/binasciilib.py: _b2a_base64, _a2b_base64, _bit_chunk_iter"]}
{"id": "C32", "title": "struct pack/unpack round-trip", "statement": "Unpacking what pack produced returns the packed values for every format and value in range, in the byte order requested; sizes agree with calcsize.", "quantifier": "all formats and values", "why_tests_cant": "Unbounded.", "anchors": ["crosshair/libimpl/structlib.py: _pack, _unpack, _parse_format"]}
{"id": "C33", "title": "Audit wall decisions", "statement": "Every interpreter audit event is rejected or accepted according to the documented table: write-like opens, process, network and registry events are blocked, read-only ones allowed, and user supplied allow/deny rules apply exactly to the events whose token prefix they name.", "quantifier": "all events, arguments and rule lists", "why_tests_cant": "All rule lists and events.", "anchors": ["crosshair/auditwall.py: make_handler, check_open, check_subprocess, _make_prefix_based_handler, _update_special_handlers, audithook"]}
{"id": "C34", "title": "Audit wall enable/disable nesting", "statement": "Opening and re-enabling the wall in nested scopes restores the previous state on exit, including by exception.", "quantifier": "all nestings", "why_tests_cant": "All nestings.", "anchors": ["crosshair/auditwall.py: opened_auditwall, enabled_auditwall, engage_auditwall, disable_auditwall"]}
{"id": "C35", "title": "Option overlay laws", "statement": "Layering option sets lets the later non-missing value win, is associative, has the empty set as identity, and does not touch the originals.", "quantifier": "all option sets", "why_tests_cant": "Algebraic law.", "anchors": ["crosshair/options.py: AnalysisOptionSet.overlay, AnalysisOptions.overlay, option_set_from_dict"]}
{"id": "C36", "title": "Budget splitting conserves limits", "statement": "Splitting limits by priority gives each half no more than the whole, and timeouts/iterations add up to the whole.", "quantifier": "all options and priorities in [0,1]", "why_tests_cant": "All numeric values.", "anchors": ["crosshair/options.py: AnalysisOptions.split_limits, get_per_path_timeout, get_max_uninteresting_iterations"]}
{"id": "C37", "title": "Directive comments configure the enclosing scope", "statement": "`# crosshair:` comments of one scope are accepted exactly if they consist of settings of known options with valid values, no option twice, and then set exactly those options. The directive of the innermost enclosing scope wins, the command line wins over directives, and malformed directives in any enclosing scope are rejected.", "quantifier": "all source comment sequences", "why_tests_cant": "All inputs.", "anchors": ["crosshair/codeconfig.py: parse_directives, collect_options"]}
{"id": "C38", "title": "Contract inheritance obeys behavioural subtyping", "statement": "Merging an overriding method's conditions with its superclass's keeps all postconditions of both and uses the superclass's preconditions unless the subclass declares its own, for any inheritance chain.", "quantifier": "all chains of overriding methods and condition lists", "why_tests_cant": "All hierarchies.", "anchors": ["crosshair/condition_parser.py: merge_fn_conditions, merge_method_conditions, get_class_conditions"]}
{"id": "C39", "title": "Docstring condition sections parse losslessly", "statement": "Condition lines in a docstring are attributed to the right section with the right line numbers, comments are stripped, and no non-condition text becomes a condition.", "quantifier": "all docstrings", "why_tests_cant": "All inputs.", "anchors": ["crosshair/condition_parser.py: parse_sections, strip_comment_line"]}
{"id": "C40", "title": "Contract enforcement blames the right side", "statement": "Calling a function under enforcement raises a precondition failure iff its preconditions are false on the given arguments, a postcondition failure iff the preconditions hold, the body returns and a postcondition is false, and otherwise passes through the function's own result or exception.", "quantifier": "all functions, arguments and condition lists", "why_tests_cant": "All behaviours.", "anchors": ["crosshair/enforce.py: EnforcementWrapper"]}
{"id": "C41", "title": "Exceptions during analysis are classified", "statement": "Each exception escaping a call is mapped to exactly one of ignored, expected-by-contract, unsupported-unknown, or reported failure; expected exceptions never become failures and unexpected ones never become confirmations.", "quantifier": "all exception kinds and declared raises sets", "why_tests_cant": "Complete decision table.", "anchors": ["crosshair/core.py: ExceptionFilter.__exit__, attempt_call"]}
{"id": "C42", "title": "Deque model refines a double-ended queue", "statement": "append/appendleft/pop/popleft/rotate/extend/insert/remove/reverse/index on the symbolic deque agree with a double-ended queue, with maxlen respected.", "quantifier": "all operation sequences", "why_tests_cant": "All histories.", "anchors": ["crosshair/libimpl/collectionslib.py: ListBasedDeque"]}
{"id": "C43", "title": "StringIO model refines a seekable text buffer", "statement": "read/readline/write/seek/truncate on the symbolic StringIO agree with a character buffer and a position.", "quantifier": "all operation sequences", "why_tests_cant": "All histories.", "anchors": ["crosshair/libimpl/iolib.py: BackedStringIO"]}
{"id": "C44", "title": "Time never runs backwards", "statement": "Successive readings of the simulated monotonic clocks are non-decreasing across any interleaving of reads and sleeps, and sleeping advances them by at least the requested amount.", "quantifier": "all sequences of clock reads and sleeps", "why_tests_cant": "All histories.", "anchors": ["crosshair/libimpl/timelib.py: _gte_last, _sleep"]}
{"id": "C45", "title": "Symbolic random generators replay deterministically", "statement": "A copied or re-seeded symbolic random generator produces the same sequence as the original, and every generated value lies in the requested range.", "quantifier": "all request sequences", "why_tests_cant": "All histories.", "anchors": ["crosshair/libimpl/randomlib.py: ExplicitRandom"]}
{"id": "C46", "title": "Greatest common divisor of symbolic ints", "statement": "gcd(a, b) is the non-negative greatest common divisor for all integers, with gcd(0,0)=0, and the loop terminates.", "quantifier": "all pairs of integers", "why_tests_cant": "Unbounded.", "anchors": ["crosshair/libimpl/mathlib.py: _gcd"]}
{"id": "C47", "title": "Date arithmetic is exact", "statement": "Converting between (year, month, day) and day ordinals is a bijection for all valid dates; timedelta normalisation preserves the duration and yields fields in their canonical ranges.", "quantifier": "all dates and integer durations", "why_tests_cant": "Unbounded.", "anchors": ["crosshair/libimpl/datetimelib.py: _ymd2ord, _ord2ymd, timedelta.__new__"]}
{"id": "C48", "title": "Diff-behavior reports equal exactly on equal behaviour", "statement": "Comparison of outcomes treats results as equal iff they are structurally equal (NaN equal to itself), is reflexive and symmetric, and two runs are reported different iff return values, raised exceptions or mutated arguments differ.", "quantifier": "all plain data outcomes", "why_tests_cant": "All values.", "anchors": ["crosshair/behavior_compare.py: flexible_equal, ExecutionResult.__eq__", "crosshair/diff_behavior.py: check_exception_equivalence, Result"]}
{"id": "C49", "title": "Diff and cover reports select a covering subset", "statement": "The examples selected for display cover every opcode edge that any collected example covers, and every selected example contributes something new.", "quantifier": "all sets of collected examples", "why_tests_cant": "All sets.", "anchors": ["crosshair/diff_behavior.py: diff_behavior, diff_scorer", "crosshair/path_cover.py: path_cover"]}
{"id": "C50", "title": "`crosshair diffbehavior` and `search` exit status", "statement": "diffbehavior exits 2 on load errors, 1 when a difference was found, else 0; search exits 0 iff an example was found.", "quantifier": "all outcomes", "why_tests_cant": "Complete table.", "anchors": ["crosshair/main.py: diffbehavior, search"]}
{"id": "C51", "title": "Scoped state is restored", "statement": "Context-scoped variables, patches and tracing modules return to their previous value after any well-nested sequence of scopes, even when left by exception.", "quantifier": "all nestings", "why_tests_cant": "All nestings.", "anchors": ["crosshair/util.py: DynamicScopeVar, add_to_pypath", "crosshair/tracers.py: PatchingModule, PushedModule"]}
{"id": "C52", "title": "Qualified names resolve to the longest importable module", "statement": "Resolving a dotted name imports the longest importable module prefix and walks the rest as attributes; ambiguity never changes the result and failure is reported as an error.", "quantifier": "all dotted names and module trees", "why_tests_cant": "All trees.", "anchors": ["crosshair/fnutil.py: load_by_qualname, walk_qualname, load_function_at_line, walk_paths"]}
{"id": "C53", "title": "Type unification is sound", "statement": "If the unifier accepts a value type for a receiver type then, under the bindings it returns, the value type is a subtype of the receiver type.", "quantifier": "all type expressions over a finite class hierarchy", "why_tests_cant": "All nested types.", "anchors": ["crosshair/dynamic_typing.py: unify, unify_callable_args, unify_dicts, realize"]}
{"id": "C54", "title": "Deep copies preserve structure and isolate mutation", "statement": "A deep copy has the same shape and aliasing as the original, and mutations of the copy or original are not visible in the other.", "quantifier": "all object graphs including cyclic ones", "why_tests_cant": "Unbounded graphs.", "anchors": ["crosshair/copyext.py: deepcopyext, _deepconstruct"]}
{"id": "C55", "title": "Regular expression matching on symbolic strings", "statement": "The symbolic matcher accepts a string at an offset iff the pattern's language contains the consumed substring, with greedy/lazy preference ordering of matches.", "quantifier": "all supported patterns, strings and offsets", "why_tests_cant": "Unbounded.", "anchors": ["crosshair/libimpl/relib.py: _internal_match_patterns"]}
{"id": "C56", "title": "JSON decoding of symbolic strings", "statement": "Decoding the serialization of any JSON value yields that value.", "quantifier": "all JSON values", "why_tests_cant": "Unbounded nesting.", "anchors": ["crosshair/libimpl/jsonlib.py"]}
{"id": "C57", "title": "Quantified aggregation of symbolic booleans", "statement": "all()/any() over a mix of concrete and symbolic booleans evaluate to the conjunction/disjunction of the items under every assignment of the symbolic ones, and evaluate no item that Python would not have evaluated.", "quantifier": "all item sequences and assignments", "why_tests_cant": "All sequences.", "anchors": ["crosshair/libimpl/builtinslib.py: _all, _any"]}
{"id": "C58", "title": "Lazily materialised characters denote one fixed string", "statement": "The variables a symbolic string hands out for a given index are always the same regardless of the order of indexing, slicing, iteration and comparison operations, and negative indices count from its actual length.", "quantifier": "all access histories", "why_tests_cant": "All histories.", "anchors": ["crosshair/libimpl/builtinslib.py: SymbolicBoundedIntTuple"]}
{"id": "C59", "title": "Slices of a symbolic string are slices of its characters", "statement": "Slicing a symbolic string, with any start, stop and step and after any other accesses, gives the characters (or the error) that slicing the string it stands for gives.", "quantifier": "all strings, slices and access histories", "why_tests_cant": "All slice sign combinations after all histories.", "anchors": ["crosshair/libimpl/builtinslib.py: SymbolicBoundedIntTuple.__getitem__"]}
{"id": "C60", "title": "Counting substrings", "statement": "count(sub, start, end) is the number of non-overlapping occurrences of sub in the window, taken from the left; for the empty string the number of positions in the window.", "quantifier": "all strings, needles, windows", "why_tests_cant": "Unbounded.", "anchors": ["crosshair/abcstring.py: AbcString.count"]}
{"id": "C61", "title": "Splitting at whitespace", "statement": "split and rsplit without a separator give the words between runs of whitespace, with at most maxsplit cuts, the remainder keeping its own far whitespace, as documented for str.", "quantifier": "all strings and limits", "why_tests_cant": "Unbounded.", "anchors": ["crosshair/libimpl/builtinslib.py: AnySymbolicStr._split_whitespace_default, _rsplit_whitespace_default, split_parts_lazy, rsplit_parts_lazy"]}
{"id": "C62", "title": "Expanding tabs", "statement": "expandtabs replaces each tab by spaces up to the next column divisible by the tab size.", "quantifier": "all strings and tab sizes", "why_tests_cant": "Unbounded.", "anchors": ["crosshair/libimpl/builtinslib.py: AnySymbolicStr.expandtabs"]}
{"id": "C63", "title": "Character class tests", "statement": "isdigit, isalpha etc. hold iff the string is non-empty and all characters are in the class; islower, isupper and istitle hold exactly as str documents, given the character classes.", "quantifier": "all strings and character classes", "why_tests_cant": "Unbounded.", "anchors": ["crosshair/libimpl/builtinslib.py: AnySymbolicStr._chars_in_maskfn, islower, isupper, istitle"]}
{"id": "C64", "title": "ISO weeks", "statement": "weekday and isoweekday cycle through the week from a Monday 0001-01-01; isocalendar gives the ISO 8601 year, week and weekday of every day; fromisocalendar accepts exactly the triples of existing days and inverts isocalendar.", "quantifier": "all days and all triples of integers", "why_tests_cant": "Every year boundary in every leap-year/weekday combination.", "anchors": ["crosshair/libimpl/datetimelib.py: date.isocalendar, date.fromisocalendar, _isoweek1monday"]}
{"id": "C65", "title": "Date and duration arithmetic", "statement": "Adding, subtracting, negating, scaling, dividing and comparing durations act on their length in microseconds (rounding to nearest, ties to even), overflowing exactly outside the documented range; dates, however represented, compare, subtract and move by their day numbers.", "quantifier": "all durations, integers and dates in either representation", "why_tests_cant": "Unbounded.", "anchors": ["crosshair/libimpl/datetimelib.py: timedelta, date.__add__, date.__sub__, date._cmp"]}
{"id": "C66", "title": "Datetime arithmetic and comparison", "statement": "Adding a duration moves the wall clock by it; subtraction and comparison of aware datetimes and times act on the instants they denote; naive and aware values do not mix.", "quantifier": "all datetimes, times and fixed offsets", "why_tests_cant": "All offset combinations.", "anchors": ["crosshair/libimpl/datetimelib.py: datetime.__add__, datetime.__sub__, datetime._cmp, time._cmp"]}
{"id": "C67", "title": "Rules move decisions one way only", "statement": "Adding --unblock entries never blocks an operation that was allowed; adding reject entries never allows one that was blocked.", "quantifier": "all rule lists, events and arguments", "why_tests_cant": "All rule lists and events.", "anchors": ["crosshair/auditwall.py: _update_special_handlers, _make_prefix_based_handler"]}
{"id": "C68", "title": "The advice in side effect errors works", "statement": "Running again with the --unblock entry that the error message advises, or a colon-delimited prefix of it, lets the reported operation through.", "quantifier": "all events and arguments", "why_tests_cant": "All argument texts.", "anchors": ["crosshair/auditwall.py: explain, match_tokens, _update_special_handlers"]}
{"id": "C69", "title": "Base64 decoding refuses what the real module refuses", "statement": "Decoding raises exactly for the texts for which the real binascii module raises, in strict mode and outside it, and otherwise returns the same bytes.", "quantifier": "all texts", "why_tests_cant": "All texts.", "anchors": ["crosshair/libimpl/binasciilib.py: _a2b_base64, _remap"]}
{"id": "C70", "title": "`crosshair search` finds the smallest example", "statement": "When an example is optimised by a scoring function, the value chosen on a path is the least score possible on that path, each new example is better than all earlier ones, and once the search is exhausted the last example printed has the least score of all.", "quantifier": "all scoring functions and sets of paths", "why_tests_cant": "Unbounded scores; all orders of paths.", "anchors": ["crosshair/path_search.py: path_search"]}
{"id": "C71", "title": "A change of files restarts the watch display", "statement": "After a watched file changes, the display shows exactly the problems found since the change, one for each file and line, and the effort per pass starts again from its initial value and doubles each pass.", "quantifier": "all histories of passes, messages and changes", "why_tests_cant": "Ranges over all histories.", "anchors": ["crosshair/main.py: run_watch_loop, messages_merged", "crosshair/watcher.py: Watcher.run_iteration, handle_periodic"]}
{"id": "C72", "title": "Certain branches are certain and others stay open", "statement": "When analysis asks for a branch with certainty, that branch is taken whenever it is open; otherwise the coverage heuristic leaves both branches a chance of at least a tenth and never fails.", "quantifier": "all coverage histories, branches and random values", "why_tests_cant": "All histories of the heuristic.", "anchors": ["crosshair/pathing_oracle.py: CoveragePathingOracle", "crosshair/statespace.py: RandomizedBinaryPathNode.choose"]}
{"id": "C73", "title": "Class invariants guard every public method", "statement": "Every public method of a class, whether inherited, overridden or new, may assume the invariants of the class and of its superclasses on entry and must establish them on exit; the constructor must establish them without assuming them; private methods and a few special ones are exempt. This holds whatever contract syntax is used.", "quantifier": "all class hierarchies, method names and invariants", "why_tests_cant": "All hierarchies.", "anchors": ["crosshair/condition_parser.py: get_class_conditions, CompositeConditionParser"]}
{"id": "C74", "title": "Every call from user code is checked", "statement": "During analysis, each call from user code of a function or method with a contract is checked against the conditions of that function or method, those of the class it is called on coming first; constructing an object under checking gives the object that Python would construct.", "quantifier": "all call sites, targets and classes", "why_tests_cant": "All combinations of callers and targets.", "anchors": ["crosshair/enforce.py: EnforcedConditions.trace_call, wants_codeobj, manual_constructor"]}
{"id": "C75", "title": "The stand-in for randrange allows exactly the members of the range", "statement": "Where a call to randrange is replaced by a value constrained by its contract, the values allowed are exactly those that Python's randrange can return for these arguments, and there is one whenever the call is legal.", "quantifier": "all start, stop and step arguments and all values", "why_tests_cant": "a missing value makes whole paths disappear silently; tests look at few argument combinations", "anchors": ["crosshair/libimpl/randomlib.py: make_registrations"]}
{"id": "C76", "title": "Making a dict from pairs keeps the last value of each key", "statement": "A dict made from an iterable of pairs under analysis has the same keys, values and order of items as Python's, and fails with the same exception in the same cases.", "quantifier": "all iterables of pairs, with all patterns of equal keys", "why_tests_cant": "Equalities between symbolic keys multiply; tests use literal pairs.", "anchors": ["crosshair/libimpl/builtinslib.py: _dict", "crosshair/simplestructs.py: SimpleDict"]}
{"id": "C77", "title": "index finds the first occurrence within the bounds", "statement": "list.index and tuple.index return the first position between the given bounds that holds the value, with negative bounds counting from the end, and raise ValueError exactly when there is none.", "quantifier": "all sequences, values and bounds", "why_tests_cant": "All combinations of lengths and bounds.", "anchors": ["crosshair/libimpl/builtinslib.py: _list_index, SymbolicArrayBasedUniformTuple.index, SymbolicBoundedIntTuple.index"]}
{"id": "C78", "title": "join, in and repr of containers behave as in Python", "statement": "Joining texts, testing for a substring and taking the repr of containers give, under every assignment, the result that Python gives for the concrete values.", "quantifier": "all separators, iterables, texts and containers", "why_tests_cant": "Unbounded lengths and contents.", "anchors": ["crosshair/libimpl/builtinslib.py: _join, _str_contains, _list_repr, _tuple_repr, _set_repr, _frozenset_repr"]}
{"id": "C79", "title": "Realized data has no symbolic values", "statement": "A deeply realized copy of a value has no symbolic value anywhere in it, however deep, shared or cyclic the value is, and is otherwise a copy of it.", "quantifier": "all object graphs", "why_tests_cant": "Object graphs of any depth, with any sharing and cycles.", "anchors": ["crosshair/core.py: deep_realize", "crosshair/copyext.py: deepcopyext, _deepconstruct"]}
{"id": "C80", "title": "JSON decoding accepts exactly JSON", "statement": "Decoding a text gives the value that the text is a JSON document of, and every text that is no JSON document is refused with an error; decoding always ends.", "quantifier": "all texts, strict and lenient", "why_tests_cant": "Texts of any length and nesting, valid and invalid.", "anchors": ["crosshair/libimpl/jsonlib.py: loads, JSONDecoder.decode, py_make_scanner, JSONObject, JSONArray, py_scanstring"]}
{"id": "C81", "title": "JSON encodings are detected", "statement": "When JSON is decoded from bytes, the Unicode transformation format and byte order of the document are detected, with and without a byte order mark.", "quantifier": "all JSON documents, all transformation formats, with or without byte order mark", "why_tests_cant": "Documents of any content.", "anchors": ["crosshair/libimpl/jsonlib.py: detect_encoding, loads"]}
{"id": "C82", "title": "A line number names the function it belongs to", "statement": "Naming a file and a line targets the function or method that the line belongs to, or is reported as an error if there is none.", "quantifier": "all modules with nested classes and all lines", "why_tests_cant": "Modules of any shape, adjacent functions, inherited methods.", "anchors": ["crosshair/fnutil.py: load_function_at_line, _contains_line, load_files_or_qualnames"]}
{"id": "C83", "title": "Directories are searched completely", "statement": "Naming directories visits exactly the Python files in and below them whose names can be module names (not setup.py); missing paths are an error unless ignored; each file is imported under the names of all packages above it.", "quantifier": "all directory trees and paths", "why_tests_cant": "Trees of any depth.", "anchors": ["crosshair/fnutil.py: walk_paths, analyzable_filename", "crosshair/util.py: extract_module_from_file"]}
{"id": "C84", "title": "Character masks are sets of characters", "statement": "Union, intersection, difference and inverse of the character masks that stand for sets of Unicode characters hold exactly the right characters, masks stay in canonical form, and the constraint given to the solver is true of exactly the characters of the mask.", "quantifier": "all masks and all characters", "why_tests_cant": "Masks of any number of ranges, over 1.1 million characters.", "anchors": ["crosshair/unicode_categories.py: CharMask"]}
{"id": "C85", "title": "Character expressions match the right characters", "statement": "A literal, range, category, set or dot in a regular expression is translated to the set of exactly the characters that Python's re matches, with the flags ASCII, IGNORECASE and DOTALL.", "quantifier": "all character expressions, flags and characters", "why_tests_cant": "Sets of any number of terms, over 1.1 million characters.", "anchors": ["crosshair/libimpl/relib.py: single_char_mask, unicode_ignorecase_mask"]}
{"id": "C86", "title": "search finds the leftmost match", "statement": "Searching a string for a pattern, between given positions, returns the leftmost position at which the pattern matches, with the preferred match there, and None exactly if there is none.", "quantifier": "all supported patterns, strings and positions", "why_tests_cant": "Strings of any length and patterns of any nesting.", "anchors": ["crosshair/libimpl/relib.py: _search, _match_pattern"]}
{"id": "C87", "title": "All matches are found", "statement": "finditer ends and yields, in order, the matches that Python's scanner finds: each one leftmost from where the last one ended, empty ones included, but no two empty ones at one place.", "quantifier": "all supported patterns, strings and positions", "why_tests_cant": "Strings of any length; interplay of empty and other matches.", "anchors": ["crosshair/libimpl/relib.py: _finditer, _finditer_symbolic"]}
{"id": "C88", "title": "Splitting by a pattern", "statement": "Splitting a string by a pattern without groups returns the parts between the matches that Python finds, at most as many splits as are asked for.", "quantifier": "all supported patterns, strings and limits", "why_tests_cant": "Strings of any length.", "anchors": ["crosshair/libimpl/relib.py: _split", "crosshair/libimpl/builtinslib.py: split_parts_lazy"]}
{"id": "C89", "title": "Replacing by a pattern", "statement": "sub and subn replace the matches that Python finds, as many as are asked for, leave everything else as it is, and count the replacements.", "quantifier": "all supported patterns, strings, replacements and counts", "why_tests_cant": "Strings of any length.", "anchors": ["crosshair/libimpl/relib.py: _sub, _subn"]}
{"id": "C90", "title": "What the solver is told about classes is what Python says", "statement": "Whatever classes come up during an execution, and in whatever order, the solver knows about each two of them exactly what issubclass answers in Python (yes, no or an exception) and that they are different; this is never a contradiction and never rules out a path that was possible before.", "quantifier": "all class hierarchies, orders in which classes come up, and models of the constraints", "why_tests_cant": "The facts accumulate over a path; one wrong or missing one would show only with particular questions in a particular order.", "anchors": ["crosshair/type_repo.py: SymbolicTypeRepository"]}
{"id": "C91", "title": "A symbolic class keeps its answers", "statement": "If code under analysis asks a symbolic class subclass questions, and the class later turns out to be a certain class, then that class is below the annotated one and all the answers are what Python answers for it; and every class below the annotated one may be the one.", "quantifier": "all class hierarchies, histories of questions and paths", "why_tests_cant": "Histories of questions of any length, which change the upper bound of the class on the way.", "anchors": ["crosshair/libimpl/builtinslib.py: SymbolicType", "crosshair/type_repo.py: SymbolicTypeRepository"]}
{"id": "C92", "title": "Any known subclass can be chosen", "statement": "For an argument annotated with a class, any concrete known subclass (direct or not) can be chosen, and nothing else; the choice ends, never fails internally, and is uniform but for an extra weight of the annotated class itself.", "quantifier": "all class hierarchies without cycles, all sequences of decisions", "why_tests_cant": "Hierarchies of any shape and depth.", "anchors": ["crosshair/core.py: iter_types, choose_type, with_uniform_probabilities", "crosshair/type_repo.py: get_subclass_map"]}
{"id": "C93", "title": "Intersected signatures cover both", "statement": "The intersection of two signatures accepts every call that the original signatures accept (with everything by keyword that may be given by keyword), with annotations that fit both.", "quantifier": "all signatures and calls", "why_tests_cant": "Any number of parameters of five kinds in two signatures, with names shared or not.", "anchors": ["crosshair/dynamic_typing.py: intersect_signatures, isolate_var_params"]}
{"id": "C94", "title": "Objects are made with arguments that constructors accept", "statement": "The signature that is used to make objects of a class accepts only calls that both __new__ and __init__ of the class accept, and all that the one accepts if there is only one.", "quantifier": "all signatures of __new__ and __init__, all calls", "why_tests_cant": "Any number of parameters of five kinds in two signatures.", "anchors": ["crosshair/core.py: get_constructor_signature", "crosshair/dynamic_typing.py: intersect_signatures"]}
{"id": "C95", "title": "Counterexamples with skipped calls are real", "statement": "When calls of functions with contracts are skipped on a path, and a failure is reported for it, then the same failure happens when the functions are called; and every failure can be found with whichever calls are skipped.", "quantifier": "all code, functions, inputs, choices of calls to skip and values assumed for them", "why_tests_cant": "Any number of skipped calls with any assumed values, with state that changes between them.", "anchors": ["crosshair/core.py: shortcircuit, attempt_call", "crosshair/statespace.py: StateSpace.detach_path, defer_assumption"]}
{"id": "C96", "title": "Skipping calls confirms nothing false", "statement": "If functions keep their contracts and a check with some calls skipped succeeds for all results that the contracts allow, then the check succeeds when the functions are called.", "quantifier": "all code, functions, contracts, inputs and choices of calls to skip", "why_tests_cant": "All results that a contract allows, at any number of calls.", "anchors": ["crosshair/core.py: shortcircuit, ShortCircuitingContext"]}
{"id": "C97", "title": "When calls are skipped", "statement": "A call may be skipped only if the function is declared to change none of its arguments, or its body is declared to be skipped always; a skipped call of the first sort is checked later, one of the second sort never; everything else is called.", "quantifier": "all combinations of declarations, signatures and arguments", "why_tests_cant": "A decision with eleven inputs.", "anchors": ["crosshair/core.py: ShortCircuitingContext.make_interceptor, consider_shortcircuit"]}
{"id": "C98", "title": "The signature of an overloaded function", "statement": "For a call of a registered function with several signatures, the first signature is used that fits the arguments of the call.", "quantifier": "all lists of signatures, all arguments", "why_tests_cant": "Any number of signatures and arguments.", "anchors": ["crosshair/core.py: find_best_sig"]}
{"id": "C99", "title": "Return values shown with a counterexample reproduce it", "statement": "If functions were given made-up results, then the results shown with the counterexample, when the functions are patched to return them one after the other, lead to the same outcome.", "quantifier": "all code, inputs, sets of skipped functions and made-up results", "why_tests_cant": "Any number of calls of any number of functions, in any order.", "anchors": ["crosshair/core.py: FunctionInterps, patch_to_return, fn_returning"]}
{"id": "C100", "title": "Encoding as UTF-8", "statement": "str.encode gives the UTF-8 of the Unicode standard for every string of characters, the only one there is; and what is encoded is decoded to the same string, and the other way round.", "quantifier": "all strings, all handlers of errors", "why_tests_cant": "More than a million code points, in strings of any length.", "anchors": ["crosshair/libimpl/encodings/utf_8.py: _encode_codepoint, Utf8StemEncoder", "crosshair/libimpl/encodings/_encutil.py: StemEncoder"]}
{"id": "C101", "title": "Decoding UTF-8", "statement": "bytes.decode accepts exactly the bytes that the Unicode standard calls well-formed, with the characters they stand for; otherwise the error names the first place where they are not.", "quantifier": "all byte strings", "why_tests_cant": "Byte strings of any length, with every kind of malformed sequence at any place.", "anchors": ["crosshair/libimpl/encodings/utf_8.py: Utf8StemEncoder", "crosshair/libimpl/encodings/_encutil.py: StemEncoder.decode"]}
{"id": "C102", "title": "Handlers of decoding errors", "statement": "With an errors argument that does not raise, decoding UTF-8 gives what Python gives: the well-formed parts as they are, and a replacement for each malformed part.", "quantifier": "all byte strings and handlers", "why_tests_cant": "Where malformed parts end depends on the bytes that follow.", "anchors": ["crosshair/libimpl/encodings/_encutil.py: StemEncoder.decode", "crosshair/libimpl/encodings/utf_8.py: Utf8StemEncoder"]}
{"id": "C103", "title": "ASCII and Latin-1", "statement": "Encoding and decoding ASCII and Latin-1 keep all characters of the encoding, and raise for others at the first of them, or replace each of them, as the errors argument says.", "quantifier": "all strings, byte strings and handlers", "why_tests_cant": "Strings of any length.", "anchors": ["crosshair/libimpl/encodings/ascii.py", "crosshair/libimpl/encodings/latin_1.py", "crosshair/libimpl/encodings/_encutil.py: StemEncoder"]}
{"id": "C104", "title": "Incremental decoding", "statement": "Bytes that are given piece by piece to an incremental decoder come out as the text that decoding all of them gives, and errors are raised for what cannot be decoded.", "quantifier": "all byte strings, all ways to cut them into pieces", "why_tests_cant": "Cuts anywhere, within characters too.", "anchors": ["crosshair/libimpl/encodings/_encutil.py: _getregentry"]}
{"id": "C105", "title": "Symbolic dictionaries are dictionaries", "statement": "All that code under analysis can see of a symbolic dictionary on one path is what it would see of one Python dictionary: lookups, length, and any number of iterations, all in the same order. Every dictionary is possible, and only paths that fit none are abandoned.", "quantifier": "all sequences of lookups, comparisons and interleaved iterations, all values the solver may choose", "why_tests_cant": "Contents and length are separate unknowns; any number of iterators at any positions.", "anchors": ["crosshair/libimpl/builtinslib.py: SymbolicDictOrSet, SymbolicDict"]}
{"id": "C106", "title": "Symbolic sets are sets", "statement": "All that code under analysis can see of a symbolic frozenset on one path is what it would see of one Python set, with one order of iteration. Every set is possible, and only paths that fit none are abandoned.", "quantifier": "all sequences of membership tests, comparisons and interleaved iterations, all values the solver may choose", "why_tests_cant": "Contents and length are separate unknowns; any number of iterators at any positions.", "anchors": ["crosshair/libimpl/builtinslib.py: SymbolicFrozenSet"]}
{"id": "C107", "title": "Comparing and unifying symbolic containers", "statement": "Two symbolic dictionaries or sets are equal exactly if they have the same contents; and a symbolic dictionary, set or tuple is taken for a given one exactly if it has the same contents.", "quantifier": "all dictionaries, sets and tuples", "why_tests_cant": "Contents of any size, compared as arrays over all keys at once.", "anchors": ["crosshair/libimpl/builtinslib.py: SymbolicDict.__eq__, SymbolicFrozenSet.__eq__, _smt_for_unification"]}
{"id": "C108", "title": "Symbolic tuples are tuples", "statement": "Indexing, slicing, comparing, ordering, searching, repeating and iterating a symbolic tuple give what Python gives for the tuple of its elements.", "quantifier": "all lengths and elements, all indices, slices and other tuples", "why_tests_cant": "Lengths, bounds and elements are all unknowns.", "anchors": ["crosshair/libimpl/builtinslib.py: SymbolicArrayBasedUniformTuple, SymbolicUniformTuple, process_slice_vs_bounded_len"]}
{"id": "C109", "title": "Objects in symbolic containers keep their identity", "statement": "An object taken out of a symbolic container is the same object each time it is taken out, whatever is looked up or changed in between; and two objects taken out as the same type are one object exactly if the solver takes their references to be equal.", "quantifier": "all references, types and histories of lookups (through any snapshot), changes and checkpoints", "why_tests_cant": "Aliasing is decided path by path; any number of objects and lookups.", "anchors": ["crosshair/statespace.py: find_key_in_heap, add_value_to_heaps"]}
{"id": "C110", "title": "Old values stay as they were", "statement": "What a call does to the objects that it is given is not seen in the values remembered from before the call: old values in postconditions and the arguments shown in counterexamples.", "quantifier": "all objects known before the call, all sequences of lookups and changes by the call", "why_tests_cant": "The objects are made lazily, some before and some during the call.", "anchors": ["crosshair/statespace.py: checkpoint, find_key_in_heap", "crosshair/core.py: attempt_call", "crosshair/libimpl/builtinslib.py: SymbolicValue.__deepcopy__"]}
{"id": "C111", "title": "Match objects give the groups", "statement": "The groups, positions and numbers that a match object of a symbolic string gives are those that Python's match object gives.", "quantifier": "all patterns, strings, spans of groups, numbers and names", "why_tests_cant": "Any number of groups, of which any may have taken part or not.", "anchors": ["crosshair/libimpl/relib.py: _MatchPart, _Match"]}
{"id": "C112", "title": "Templates are expanded with the groups", "statement": "Expanding a template with a match puts the text of the groups in the places of the references, as Python does.", "quantifier": "all matches and all templates", "why_tests_cant": "Templates of any length and shape.", "anchors": ["crosshair/libimpl/relib.py: _Match.expand, _BACKREF_RE_SOURCE"]}
{"id": "C113", "title": "implies evaluates its consequence only when needed", "statement": "In a condition, implies(X, Y) means that Y holds if X does, Y is not evaluated unless X is true, and this holds at any depth; a use with another number of arguments is refused.", "quantifier": "all expressions, values of their parts, and exceptions", "why_tests_cant": "Nesting of any depth.", "anchors": ["crosshair/condition_parser.py: ImpliesTransformer, compile_expr"]}
{"id": "C114", "title": "Leading assertions are preconditions, others are checked", "statement": "When assertions are contracts, an assertion that fails among those at the beginning of the function makes the input irrelevant, and any other that fails is reported.", "quantifier": "all bodies of functions, line layouts and tracebacks", "why_tests_cant": "Tracebacks of any depth through any functions.", "anchors": ["crosshair/condition_parser.py: AssertsParser.get_first_body_line, AssertsParser.get_fn_conditions", "crosshair/util.py: frame_summary_for_fn"]}
{"id": "C115", "title": "icontract preconditions are a choice of groups", "statement": "The preconditions taken from icontract hold exactly if all contracts of one of its groups hold.", "quantifier": "all groups of contracts and all outcomes of contracts", "why_tests_cant": "Any number of groups of any size.", "anchors": ["crosshair/condition_parser.py: IcontractParser.get_fn_conditions"]}
{"id": "C116", "title": "deal contracts see the arguments of the function", "statement": "A contract of deal is called with arguments that bind to the same values as those of the function.", "quantifier": "all signatures and arguments", "why_tests_cant": "Any number of parameters of every kind.", "anchors": ["crosshair/condition_parser.py: DealParser._extract_a_and_kw, DealParser._make_pre_expr"]}
{"id": "C117", "title": "Registered contracts stay and get their arguments", "statement": "A contract that is registered for a function keeps its conditions whatever is registered later, a refused registration changes nothing, and its conditions get the arguments of the function by name.", "quantifier": "all histories of registrations", "why_tests_cant": "Registrations come from plugins in any order and number.", "anchors": ["crosshair/register_contract.py: _add_contract, _verify_signatures", "crosshair/condition_parser.py: RegisteredContractsParser.get_fn_conditions"]}
{"id": "C118", "title": "Subscripts with symbolic keys", "statement": "A list, tuple or dictionary of the program, subscripted with a symbolic key, gives the element that Python gives, and raises an exception exactly if Python does.", "quantifier": "all containers, element types, keys and interpretations", "why_tests_cant": "Any number of elements of any mix of types, under every interpretation of the key.", "anchors": ["crosshair/opcode_intercept.py: MultiSubscriptableContainer.__getitem__, reachable_sequence_pairs, SymbolicSubscriptInterceptor, SymbolicSliceInterceptor", "crosshair/statespace.py: StateSpace.smt_fanout"]}
{"id": "C119", "title": "f-strings of symbolic values", "statement": "An f-string with symbolic parts is the string that Python would build.", "quantifier": "all numbers of pieces, conversions, format specifications and values", "why_tests_cant": "Any number of pieces and every combination of conversion and specification.", "anchors": ["crosshair/opcode_intercept.py: BuildStringInterceptor, FormatValueInterceptor, FormatStashingValue, frame_op_arg"]}
{"id": "C120", "title": "Comprehensions over symbolic keys", "statement": "A dictionary or set comprehension has the entries that Python's has, whichever keys are symbolic, and disturbs nothing else.", "quantifier": "all sequences of keys and values, and all stacks", "why_tests_cant": "Any number of turns, with symbolic and other keys in any order.", "anchors": ["crosshair/opcode_intercept.py: MapAddInterceptor, SetAddInterceptor"]}
{"id": "C121", "title": "not and is see symbolic booleans as booleans", "statement": "The operators not and is give for symbolic booleans what they give for the booleans that they stand for.", "quantifier": "all operands", "why_tests_cant": "Every combination of symbolic and other operands.", "anchors": ["crosshair/opcode_intercept.py: NotInterceptor, IdentityInterceptor, BoolStashingValue"]}
{"id": "C122", "title": "Annotations with bars are rewritten to Union", "statement": "On versions of Python without the | operator on types, every annotation of a stub is rewritten to the one with each list of alternatives in Union[...], at any depth, and nothing else changed.", "quantifier": "all annotations, with brackets nested to any depth and any number of alternatives", "why_tests_cant": "Every nesting of brackets, commas and bars; insertions shift all later positions.", "anchors": ["crosshair/stubs_parser.py: _rewrite_with_union, _parse_annotation"]}
{"id": "C123", "title": "Signatures found in stubs are the declared ones", "statement": "The signatures found in a stub file for a function are those that the stub declares for it under conditions that hold, and if some are missing the result is marked as not valid.", "quantifier": "all stub files and qualified names", "why_tests_cant": "Any nesting of classes, functions and conditions, with any number of overloads.", "anchors": ["crosshair/stubs_parser.py: signature_from_stubs, _sig_from_ast, _sig_from_functiondef"]}
{"id": "C124", "title": "Results put in place after an instruction", "statement": "A result that is put in place of an instruction's own result is put there right after that instruction, once, in the frame of that instruction, whatever other code runs during it.", "quantifier": "all executions with frames nested to any depth, and all positions of callbacks and exceptions", "why_tests_cant": "Executions of any length and depth, with exceptions at any point.", "anchors": ["crosshair/_tracers.c: CTracer_push_postop_callback, CTracer_handle_opcode", "crosshair/tracers.py: CompositeTracer.set_postop_callback"]}
{"id": "C125", "title": "Comparing decimals", "statement": "Decimals compare by their numeric values, whatever exponents they are written with, infinities lie beyond all numbers, and comparisons with a NaN are false and signal where they should.", "quantifier": "all decimals, with coefficients and exponents of any size", "why_tests_cant": "Coefficients and exponents of any size; the code compares padded strings of digits.", "anchors": ["crosshair/libimpl/decimallib.py: Decimal._cmp, __eq__, __lt__, __le__, __gt__, __ge__, _compare_check_nans"]}
{"id": "C126", "title": "Rounding decimals to the context", "statement": "+d, -d and abs(d) give the value rounded once to the precision and exponent range of the context in its rounding mode, with exactly the right signals (rounded, inexact, subnormal, underflow, overflow, clamped) in order of precedence, and the right sign of zero.", "quantifier": "all numbers and all contexts, in all eight rounding modes, with and without clamping", "why_tests_cant": "All coefficients, exponents and contexts; the interesting cases are at boundaries that depend on all of them.", "anchors": ["crosshair/libimpl/decimallib.py: Decimal._fix, _round_*, __pos__, __neg__, __abs__"]}
{"id": "C127", "title": "Adding and subtracting decimals", "statement": "The sum and the difference of two decimals are the exact sum and difference, rounded once, with exactly the right signals, ideal exponent and sign of zero; infinities and NaNs follow the rules.", "quantifier": "all operands and all contexts", "why_tests_cant": "Operands of any size; operands far apart in size are replaced by small ones before adding, which must never show.", "anchors": ["crosshair/libimpl/decimallib.py: Decimal.__add__, __sub__, _normalize, _check_nans, _fix_nan"]}
{"id": "C128", "title": "Multiplying decimals", "statement": "The product of two decimals, and fma(a, b, c), are the exact values, rounded once; addition and multiplication are commutative, signals included.", "quantifier": "all operands and all contexts", "why_tests_cant": "Operands of any size.", "anchors": ["crosshair/libimpl/decimallib.py: Decimal.__mul__, fma"]}
{"id": "C129", "title": "Dividing decimals", "statement": "The quotient of two decimals is the exact quotient, correctly rounded once, with the ideal exponent closest to the difference of exponents; dividing by zero gives the documented results.", "quantifier": "all operands and all contexts", "why_tests_cant": "Quotients with infinitely many digits must be rounded correctly from finitely many.", "anchors": ["crosshair/libimpl/decimallib.py: Decimal.__truediv__"]}
{"id": "C130", "title": "Integer division of decimals", "statement": "a // b is the exact quotient cut off at the point, a % b is a minus b times that, rounded, with the sign of a; divmod gives both; remainder_near takes the nearest integer instead. If the quotient has too many digits, the operation is invalid.", "quantifier": "all operands and all contexts", "why_tests_cant": "Operands of any size, and quotients around powers of ten.", "anchors": ["crosshair/libimpl/decimallib.py: Decimal._divide, __floordiv__, __mod__, __divmod__, remainder_near"]}
{"id": "C131", "title": "Turning decimals into integers and quantizing", "statement": "int, round, floor, ceil, to_integral_value and quantize round the exact value as they say; quantize gives exactly the exponent asked for, or is invalid if that does not fit the context.", "quantifier": "all numbers, exponents, rounding modes and contexts", "why_tests_cant": "Numbers of any size, and all boundaries of the context.", "anchors": ["crosshair/libimpl/decimallib.py: Decimal.__int__, __round__, __floor__, __ceil__, to_integral_value, quantize, _rescale"]}
{"id": "C132", "title": "Square roots of decimals", "statement": "The square root of a decimal is the real square root, rounded once half to even, with exactly the right signals and ideal exponent; zeros keep their sign, negative numbers have no root, NaNs are passed on.", "quantifier": "all numbers and all contexts", "why_tests_cant": "Irrational roots must be rounded correctly from finitely many digits, found by Newton's method on integers of any size.", "anchors": ["crosshair/libimpl/decimallib.py: Decimal.sqrt"]}
{"id": "C133", "title": "Hashes of decimals", "statement": "Decimals that are equal have equal hashes, and a decimal that is an integer has the hash of the integer, so that they are interchangeable as keys of dictionaries.", "quantifier": "all numbers and infinities, with coefficients and exponents of any size", "why_tests_cant": "Equal decimals have infinitely many representations; the hash is computed modulo a prime with an inverse of ten.", "anchors": ["crosshair/libimpl/decimallib.py: Decimal.__hash__"]}
{"id": "C134", "title": "Decimals as fractions", "statement": "as_integer_ratio gives the value of the decimal as a fraction in lowest terms with a positive denominator.", "quantifier": "all numbers", "why_tests_cant": "All coefficients and exponents.", "anchors": ["crosshair/libimpl/decimallib.py: Decimal.as_integer_ratio"]}
{"id": "C135", "title": "Normalizing decimals", "statement": "normalize rounds to the context and takes off trailing zeros without changing the value, up to the largest exponent; numbers with the same value are normalized to the same representation.", "quantifier": "all numbers and all contexts", "why_tests_cant": "All coefficients, exponents and contexts.", "anchors": ["crosshair/libimpl/decimallib.py: Decimal.normalize"]}
{"id": "C136", "title": "The total order of decimals", "statement": "compare_total decides a strict total order of all representations, NaNs with payloads, infinities and signed zeros included: by sign, kind, value, exponent and payload.", "quantifier": "all pairs and triples of decimals", "why_tests_cant": "A law about pairs and triples of values of any size.", "anchors": ["crosshair/libimpl/decimallib.py: Decimal.compare_total"]}
{"id": "C137", "title": "Neighbours of decimals", "statement": "next_plus and next_minus give the least larger and the greatest smaller number that the context can hold, or an infinity if there is none, without signals.", "quantifier": "all numbers and all contexts", "why_tests_cant": "Minimality is a statement about all numbers that a context can hold.", "anchors": ["crosshair/libimpl/decimallib.py: Decimal.next_plus, next_minus, _raise_error_in_ctx"]}
{"id": "C138", "title": "Decimals as text", "statement": "str(d) is read back as the same decimal, with the same sign, coefficient and exponent, payloads of NaNs included; engineering notation is read back with the same value. The exponent is written exactly if the number needs one.", "quantifier": "all decimals, with both kinds of capitals", "why_tests_cant": "All coefficients and exponents; a round trip through text.", "anchors": ["crosshair/libimpl/decimallib.py: Decimal.__str__, to_eng_string, Decimal.__new__ (from text)"]}
{"id": "C139", "title": "Integer operators with any mix of operands", "statement": "For symbolic and native integers and truth values in any combination, + - * // % and ** give the value that Python gives, or raise ZeroDivisionError where Python does, and stay symbolic.", "quantifier": "all integers of any size, all pairs of operand kinds of which one is symbolic, all these operators", "why_tests_cant": "The handler for an operator is found by a search through an ordered table of types; every pair of kinds takes its own way through promotions and handlers.", "anchors": ["crosshair/libimpl/builtinslib.py: numeric_binop, setup_binops, apply_smt, AtomicSymbolicValue operators, SymbolicIntable.__mul__"]}
{"id": "C140", "title": "Float operators with any mix of operands", "statement": "When a float takes part, or in a division, + - * / // % give the value that Python gives, up to rounding, including infinities, NaN and ZeroDivisionError.", "quantifier": "all numbers, all pairs of operand kinds of which one is symbolic, native integers up to 2**53", "why_tests_cant": "Finite floats, infinities and NaN go through different handlers, combined with six kinds of operands on either side.", "anchors": ["crosshair/libimpl/builtinslib.py: numeric_binop, setup_binops, _float_divmod, get_finite_comparable, RealBasedSymbolicFloat"]}
{"id": "C141", "title": "Powers with infinities and NaN", "statement": "A power with an infinite or NaN operand is the one that Python gives.", "quantifier": "all finite numbers and all three special floats", "why_tests_cant": "The result depends on magnitude and parity of the finite operand.", "anchors": ["crosshair/libimpl/builtinslib.py: setup_binops, NonFiniteFloat.get_finite_comparable"]}
{"id": "C142", "title": "Comparisons with any mix of operands", "statement": "== != < <= > >= between symbolic and native numbers compare their values exactly, whatever their kinds, and NaN compares as unequal.", "quantifier": "all numbers of any size, all pairs of operand kinds of which one is symbolic", "why_tests_cant": "Reflected comparisons and promotions must not change the order; integers can be too large for floats.", "anchors": ["crosshair/libimpl/builtinslib.py: numeric_binop, setup_binop, _FLIPPED_OPS, setup_binops"]}
{"id": "C143", "title": "Bitwise operators with any mix of operands", "statement": "& | ^ << >> of integers are Python's for operands of any sign and size, with ValueError for negative shifts; of two truth values & | ^ are truth values; of floats they are unsupported.", "quantifier": "all integers and truth values, all pairs of operand kinds of which one is symbolic", "why_tests_cant": "Masks and shifts are computed by arithmetic instead of bits.", "anchors": ["crosshair/libimpl/builtinslib.py: setup_binops (bitwise handlers), SymbolicBool"]}
{"id": "C144", "title": "Rounding of symbolic floats", "statement": "floor, ceil, int and trunc round in the stated direction; round gives a nearest integer, the even one in a tie; round with digits does so for the scaled number; is_integer, unary minus and abs are exact.", "quantifier": "all real numbers, up to fifteen digits", "why_tests_cant": "All reals, including ties.", "anchors": ["crosshair/libimpl/builtinslib.py: RealBasedSymbolicFloat.__round__, __floor__, __ceil__, __trunc__, __int__, is_integer"]}
{"id": "C145", "title": "Operators on IEEE floats", "statement": "On paths with bit-precise floats + - * / // % and the comparisons give Python's result, rounded as Python rounds.", "quantifier": "all floats, finite or not, symbolic or native, whatever the rounding", "why_tests_cant": "All pairs of floats; remainders and quotients have several conventions.", "anchors": ["crosshair/libimpl/builtinslib.py: PreciseIeeeSymbolicFloat, setup_binops, apply_smt"]}
{"id": "C146", "title": "Sign and class of numbers", "statement": "math.copysign gives a float with the magnitude of the first and the sign of the second operand; isfinite, isnan and isinf classify as Python does; an argument of type float can be any float.", "quantifier": "all numbers, symbolic or native, all ways a path can fork", "why_tests_cant": "Completeness ranges over all floats.", "anchors": ["crosshair/libimpl/mathlib.py: _copysign, _is_positive, _isfinite, _isnan, _isinf", "crosshair/libimpl/builtinslib.py: make_float"]}
{"id": "C147", "title": "Case and whitespace methods of byte strings", "statement": "lower, upper and swapcase of bytes and bytearrays change exactly the ASCII letters of the other case; strip, lstrip and rstrip remove exactly the longest run of whitespace, or of the given bytes, at the ends they name.", "quantifier": "all byte strings of any length, all sets of bytes to strip", "why_tests_cant": "Every string and every set of bytes; the code avoids branches by arithmetic on truth values, and rstrip recurses once per byte.", "anchors": ["crosshair/libimpl/builtinslib.py: is_ascii_space_ord, BytesLike._ch_swap_ascii_case, lower, upper, swapcase, lstrip, rstrip, strip"]}
{"id": "C148", "title": "Operators between bytes-like types", "statement": "<, <=, >, >=, == and + between bytes, bytearrays, memoryviews, arrays and other sequences are allowed for exactly the pairs of types for which Python allows them, and give Python's result.", "quantifier": "all pairs of types of which the first is symbolic, all contents", "why_tests_cant": "Every pair of types has its own rule, on every pair of contents.", "anchors": ["crosshair/libimpl/builtinslib.py: BytesLike.__eq__, _cmp_op, __radd__, SymbolicBytes.__add__, SymbolicByteArray._cmp_op, __add__, SymbolicMemoryView._cmp_op, __add__"]}
{"id": "C149", "title": "Memoryviews are windows on their object", "statement": "In every program, a memoryview and its slices show what is in their object at that moment, a write through a view changes exactly the addressed bytes of the object for everyone who looks at it, and all exceptions are Python's.", "quantifier": "all histories of operations on any number of bytes, bytearrays and views", "why_tests_cant": "Histories with several overlapping views and objects cannot be enumerated.", "anchors": ["crosshair/libimpl/builtinslib.py: SymbolicMemoryView, SymbolicByteArray", "crosshair/simplestructs.py: SliceView, compose_slices, ShellMutableSequence"]}
{"id": "C150", "title": "Copies of buffers do not change", "statement": "bytes(x), bytearray(x), tobytes() and extend take a copy: later writes to the source do not change the copy.", "quantifier": "all programs before and after the copy", "why_tests_cant": "The copies share lazy sequences with their source; sharing shows only in some later histories.", "anchors": ["crosshair/libimpl/builtinslib.py: _bytes, _bytearray, SymbolicMemoryView.tobytes, SymbolicByteArray.extend", "crosshair/simplestructs.py: sequence_evaluation"]}
{"id": "C151", "title": "Buffers contain bytes only", "statement": "Whatever a program stores in bytearrays, everything it reads from buffers and views lies between 0 and 255: other values are refused with TypeError or ValueError, and an operation that raises changes nothing.", "quantifier": "all histories of operations, all stored values", "why_tests_cant": "Every way to put a value into a buffer must check it, in every order.", "anchors": ["crosshair/libimpl/builtinslib.py: _as_byte_value, _validated_byte_values, SymbolicByteArray.append, extend, insert, __setitem__, _bytearray, SymbolicMemoryView.__setitem__"]}
{"id": "C152", "title": "Exhaustion of cover and search accounts for every input", "statement": "When the exploration behind `crosshair cover` and `crosshair search` ends because all paths are exhausted, every input is accounted for by a path that was executed: its run ends as that path did, unless it is no legal input or some path was cut short.", "quantifier": "all deterministic programs and inputs, all numbers of rounds, random draws, callbacks and solver answers with sound unsat", "why_tests_cant": "It is a statement about all inputs of the program under every schedule of the search.", "anchors": ["crosshair/core.py: explore_paths", "crosshair/statespace.py: StateSpace.bubble_status, detach_path"]}
{"id": "C153", "title": "What cover and search explore is real, fresh and limited", "statement": "Each path handed over belongs to the run of a concrete input; no path is explored twice; the loop makes no more rounds than allowed, starts none after the time limit, ends only for one of the stated reasons, never fails by itself on a deterministic program, and exhausts a program with few enough paths.", "quantifier": "all deterministic programs, all schedules of draws, solver answers, timeouts and callbacks", "why_tests_cant": "The number of schedules is unbounded and a repeated or unreal path appears only for some of them.", "anchors": ["crosshair/core.py: explore_paths", "crosshair/path_cover.py: path_cover"]}
{"id": "C154", "title": "diffbehavior: exhausted without differences means the same behaviour", "statement": "If `crosshair diffbehavior` reports no difference and says that all paths are exhausted, the two functions behave the same on every legal input.", "quantifier": "all pairs of functions, all inputs, all schedules", "why_tests_cant": "Equality of two functions on all inputs cannot be tested.", "anchors": ["crosshair/diff_behavior.py: diff_behavior, diff_behavior_with_signature, run_iteration", "crosshair/main.py: diffbehavior"]}
{"id": "C155", "title": "diffbehavior: reported differences are real", "statement": "Every difference reported by `crosshair diffbehavior` comes from one concrete input on which both functions were called with the same arguments and the outcomes were found different, with the text describing those outcomes; the exit code and the closing lines follow from what the two halves found.", "quantifier": "all pairs of functions, all schedules of both halves", "why_tests_cant": "A difference must be consistent over five stages that share one symbolic path.", "anchors": ["crosshair/diff_behavior.py: run_iteration, diff_behavior", "crosshair/main.py: diffbehavior"]}
{"id": "C156", "title": "search: examples are real, and exhaustion means there is none", "statement": "An example printed by `crosshair search` is the text of arguments with which the function returns; if no input is found and all paths were exhausted, the function raises on every legal input.", "quantifier": "all functions and inputs, all schedules", "why_tests_cant": "It quantifies over all inputs, and over all ways a path can end inside the tool.", "anchors": ["crosshair/path_search.py: path_search", "crosshair/core.py: explore_paths, ExceptionFilter", "crosshair/main.py: search"]}
{"id": "C157", "title": "Dates survive being written and read", "statement": "`date.isoformat` writes YYYY-MM-DD and `date.fromisoformat` reads it back as the same date; a text is read as a date exactly if it has this form and the date exists, and otherwise ValueError is raised.", "quantifier": "all representable dates, all texts", "why_tests_cant": "There are millions of dates and unboundedly many texts; tests see a few.", "anchors": ["crosshair/libimpl/datetimelib.py: date.isoformat, date.fromisoformat, _parse_isoformat_date, _check_date_fields"]}
{"id": "C158", "title": "Times survive being written and read", "statement": "`time.isoformat` with any precision, read by `time.fromisoformat`, gives the time cut off to that precision with the same offset; a text is read as a time exactly if it has the documented form and the time exists.", "quantifier": "all times with and without an offset, all precisions, all texts", "why_tests_cant": "The fields, precisions, signs and offsets down to microseconds combine into far more cases than can be tested.", "anchors": ["crosshair/libimpl/datetimelib.py: time.isoformat, time.fromisoformat, _format_time, _format_offset, _parse_hh_mm_ss_ff, _parse_isoformat_time"]}
{"id": "C159", "title": "Dates with times survive being written and read", "statement": "`datetime.isoformat` with any separator and precision, read by `datetime.fromisoformat`, gives the same day, offset and, up to the precision, time; a text is read exactly if it has the documented form, and otherwise ValueError is raised.", "quantifier": "all datetimes with fixed offsets, all separators and precisions, all texts", "why_tests_cant": "As for times, and malformed texts are unboundedly many.", "anchors": ["crosshair/libimpl/datetimelib.py: datetime.isoformat, datetime.fromisoformat, timezone.__new__"]}
{"id": "C160", "title": "ISO texts sort like what they stand for", "statement": "Texts of dates, of times and of datetimes without offsets, written with the same separator and precision, are ordered as strings like the dates and times they stand for.", "quantifier": "all pairs of dates, times and datetimes, all precisions and separators", "why_tests_cant": "It is a statement about all pairs, with texts of different lengths.", "anchors": ["crosshair/libimpl/datetimelib.py: date.isoformat, time.isoformat, datetime.isoformat, _format_time"]}
{"id": "C161", "title": "Texts of durations and names of zones are unambiguous", "statement": "`str()` of a timedelta states its days, hours, minutes, seconds and microseconds, so that different durations have different texts; the name of a timezone is UTC followed by its offset as ISO texts show it, and differs for different offsets.", "quantifier": "all durations, all offsets", "why_tests_cant": "Negative durations are normalised with positive seconds; all of them must be told apart.", "anchors": ["crosshair/libimpl/datetimelib.py: timedelta.__str__, timezone._name_from_offset, _format_offset"]}
{"id": "C162", "title": "The text of a counterexample evaluates to the counterexample", "statement": "The call printed for a counterexample, pasted into Python, makes a call with the same arguments: equal values, and two places of the arguments hold one and the same object exactly if they did in the counterexample.", "quantifier": "all argument values built of numbers, strings, lists, tuples, sets, frozensets, dictionaries and objects made by calls, with any sharing of objects", "why_tests_cant": "Aliasing structures and nesting are unbounded; tests print a handful of shapes.", "anchors": ["crosshair/util.py: EvalFriendlyReprContext._eval_friendly_repr, EvalFriendlyReprContext.cleanup, format_boundargs", "crosshair/libimpl/builtinslib.py: _list_repr, _tuple_repr, _set_repr, _frozenset_repr, _dict_repr", "crosshair/condition_parser.py: default_counterexample"]}
{"id": "C163", "title": "Variables in the text of a counterexample", "statement": "The text names exactly the objects that appear more than once; the names are v1, v2, ... in the order they are assigned; each is assigned once, and before it is used.", "quantifier": "all argument values with any sharing of objects", "why_tests_cant": "The order in which nested shared objects are met and named depends on the whole structure.", "anchors": ["crosshair/util.py: EvalFriendlyReprContext.cleanup, EvalFriendlyReprContext._eval_friendly_repr"]}
{"id": "C164", "title": "The written arguments bind to the same parameters", "statement": "The positional and keyword arguments in the printed call bind, by Python's rules, to the parameters of the function exactly as in the counterexample.", "quantifier": "all signatures Python accepts and all bindings of their parameters", "why_tests_cant": "Five kinds of parameters, defaults and extra arguments combine in unboundedly many signatures.", "anchors": ["crosshair/util.py: format_boundargs"]}
{"id": "C165", "title": "The result text of cover evaluates to the result", "statement": "The result that cover prints for a path (as in the generated assertion) evaluates to the result of the path.", "quantifier": "all arguments and results, with any sharing of objects between and within them", "why_tests_cant": "The text of the result is made in the context left behind by the text of the arguments; sharing between them is rarely tested.", "anchors": ["crosshair/core.py: LazyCreationRepr.eval_friendly_format", "crosshair/path_cover.py: path_cover, output_pytest_paths", "crosshair/util.py: EvalFriendlyReprContext"]}
{"id": "C166", "title": "The argument dictionary of cover evaluates to the arguments", "statement": "With the output format for argument dictionaries, the text evaluates to a dictionary from the names of the parameters to the arguments, with the same sharing of objects.", "quantifier": "all argument values with any sharing of objects", "why_tests_cant": "As for the text of calls.", "anchors": ["crosshair/util.py: format_boundargs_as_dictionary, EvalFriendlyReprContext"]}
{"id": "C167", "title": "Conversion between time zones keeps the instant", "statement": "astimezone gives the same instant in the target zone: for zones with a fixed offset, for local time, for a naive moment that local clocks do show, and for a user's zone with a constant standard offset whose daylight saving time is the same at the result; a result outside the years 1 to 9999 is an OverflowError.", "quantifier": "all moments, all source zones, all fixed offsets, all local time rules that change at most once around the moment, all user zones", "why_tests_cant": "Offsets, dates near the ends of the calendar and rules of user zones combine without end.", "anchors": ["crosshair/libimpl/datetimelib.py: datetime.astimezone, datetime._local_timezone, timezone.fromutc, tzinfo.fromutc, datetime.__add__, datetime.replace"]}
{"id": "C168", "title": "Timestamps of aware moments", "statement": "timestamp() is exactly the seconds from 1970 to the instant; fromtimestamp(x, tz) is the moment at the microsecond nearest to x, ties to even; the two invert each other.", "quantifier": "all moments with an offset, all real timestamps, all zones with a fixed offset", "why_tests_cant": "Rounding of negative and tie timestamps, and the borrow between seconds and microseconds, concern all real numbers.", "anchors": ["crosshair/libimpl/datetimelib.py: datetime.timestamp, datetime._fromtimestamp, datetime.fromtimestamp, datetime.utcfromtimestamp, timedelta.total_seconds"]}
{"id": "C169", "title": "Timestamps of naive moments", "statement": "The timestamp of a naive moment is the first time local clocks show it, or the last if fold is set; if clocks jump over it, it is computed by the offset before the jump, or after it if fold is set.", "quantifier": "all naive moments away from the ends of the calendar, all local time rules with at most one change around the moment", "why_tests_cant": "The algorithm probes the rules at a few points; that these suffice is a claim about all rules.", "anchors": ["crosshair/libimpl/datetimelib.py: datetime._mktime, datetime.timestamp"]}
{"id": "C170", "title": "Naive moments from timestamps", "statement": "fromtimestamp(x) without a zone shows what local clocks show, sets fold exactly if they have shown the same before, and timestamp() gives x back to the nearest microsecond.", "quantifier": "all real timestamps and all local time rules with at most one change around them", "why_tests_cant": "Fold detection probes the rules a day before; whether it is right depends on all rules and times.", "anchors": ["crosshair/libimpl/datetimelib.py: datetime._fromtimestamp, datetime.fromtimestamp, datetime.timestamp, datetime._mktime"]}
{"id": "C171", "title": "Equality and order of moments", "statement": "Moments in one zone are equal if the clocks show the same; in different zones if they denote the same instant and no offset depends on fold; order compares instants; a moment with an offset and one without cannot be ordered.", "quantifier": "all pairs of moments, naive or in any zones", "why_tests_cant": "Two zones, two folds and unbounded times.", "anchors": ["crosshair/libimpl/datetimelib.py: datetime.__eq__, datetime._cmp, datetime.__sub__, datetime.utcoffset"]}
{"id": "C172", "title": "Equal moments and times hash alike", "statement": "Equal moments have equal hashes, as do equal times of day; hashing does not fail.", "quantifier": "all pairs of moments in any zones, with any fold; all pairs of times of day", "why_tests_cant": "A violation needs two values of different shape that compare equal.", "anchors": ["crosshair/libimpl/datetimelib.py: datetime.__hash__, time.__hash__, _datetime_getstate, _time_getstate, time._cmp"]}
{"id": "C173", "title": "Taking moments apart and putting them together", "statement": "combine(m.date(), m.timetz()) is m, fold and zone included; replace changes exactly the given fields and fails exactly if the result is no date and time.", "quantifier": "all moments and all combinations of replaced fields", "why_tests_cant": "Nine optional fields and the calendar make unboundedly many combinations.", "anchors": ["crosshair/libimpl/datetimelib.py: datetime.combine, datetime.date, datetime.time, datetime.timetz, datetime.replace, _check_date_fields, _check_time_fields"]}
{"id": "C174", "title": "Time tuples", "statement": "timetuple holds the fields of the clock, weekday and day of the year, and whether daylight saving time is in force; utctimetuple the same of a UTC clock at the instant.", "quantifier": "all moments and zones", "why_tests_cant": "Days of the year and UTC adjustment across day, month and year ends.", "anchors": ["crosshair/libimpl/datetimelib.py: datetime.timetuple, datetime.utctimetuple, _build_struct_time"]}
{"id": "C175", "title": "Logical operations on decimals", "statement": "logical_and, logical_or, logical_xor and logical_invert work digit by digit on the last prec digits and give a logical operand; with an operand that is negative, has an exponent, or has other digits than 0 and 1, the operation is invalid and gives a NaN.", "quantifier": "all decimals as operands, of any length, and all contexts", "why_tests_cant": "Operands longer, shorter and as long as the precision, and all digit patterns.", "anchors": ["crosshair/libimpl/decimallib.py: Decimal.logical_and, Decimal.logical_or, Decimal.logical_xor, Decimal.logical_invert, Decimal._islogical, Decimal._fill_logical"]}
{"id": "C176", "title": "Shifting, rotating and scaling decimals", "statement": "shift and rotate move the last prec digits of the coefficient by the number of places, filling with zeros or bringing them around, and keep sign and exponent; scaleb adds to the exponent and rounds to the context; a second operand that is no integer with exponent zero or exceeds the limit is invalid; infinities stay.", "quantifier": "all decimals, all counts, all contexts", "why_tests_cant": "The count may be negative, zero or the limit; the coefficient longer or shorter than the precision.", "anchors": ["crosshair/libimpl/decimallib.py: Decimal.shift, Decimal.rotate, Decimal.scaleb"]}
{"id": "C177", "title": "The exponent of a decimal", "statement": "logb gives the exponent of the leading digit, rounded to the context; plus infinity for infinities; for zero it signals a division by zero and gives minus infinity.", "quantifier": "all decimals and contexts", "why_tests_cant": "Any exponent and any length of the coefficient; the exponent itself may need rounding.", "anchors": ["crosshair/libimpl/decimallib.py: Decimal.logb, Decimal.adjusted, Decimal.__new__"]}
{"id": "C178", "title": "The class of a decimal", "statement": "number_class, is_normal and is_subnormal tell zero, subnormal, normal, infinite and NaN apart by the value of the number and the least normal number of the context.", "quantifier": "all decimals and contexts", "why_tests_cant": "The boundary between subnormal and normal runs through infinitely many representations.", "anchors": ["crosshair/libimpl/decimallib.py: Decimal.number_class, Decimal.is_normal, Decimal.is_subnormal"]}
{"id": "C179", "title": "Maxima and minima of decimals", "statement": "max and min give the greater and smaller of two numbers, rounded to the context; if values are equal the total order of representations decides; max_mag and min_mag compare magnitudes; one quiet NaN gives way to the number, otherwise NaNs spread.", "quantifier": "all pairs of decimals and all contexts", "why_tests_cant": "Equal values with different representations, signs of zeros, NaNs of both kinds, and rounding.", "anchors": ["crosshair/libimpl/decimallib.py: Decimal.max, Decimal.min, Decimal.max_mag, Decimal.min_mag"]}
{"id": "C180", "title": "The next decimal towards another", "statement": "next_toward gives the nearest number in the direction of the other that the context can hold, and a copy with the other's sign if they are equal; overflow is signaled if the result is infinite, underflow if it is subnormal, and nothing otherwise.", "quantifier": "all finite numbers and all other operands that are no NaNs, all contexts", "why_tests_cant": "The neighbour depends on precision, exponent limits, and powers of ten.", "anchors": ["crosshair/libimpl/decimallib.py: Decimal.next_toward, Decimal.next_plus, Decimal.next_minus, Context._ignore_all_flags, _raise_error_in_ctx"]}
{"id": "C181", "title": "Rounding to integers with signals", "statement": "to_integral_exact gives the number rounded to an integer in the mode asked for, signals Rounded exactly if the number is not zero and has digits after the point, and Inexact exactly if the value changes.", "quantifier": "all finite decimals, rounding modes and contexts", "why_tests_cant": "Eight modes, ties, and digits that are all zeros.", "anchors": ["crosshair/libimpl/decimallib.py: Decimal.to_integral_exact, Decimal._rescale"]}
{"id": "C182", "title": "Comparing decimals with signals, quanta and signs", "statement": "compare and compare_signal give -1, 0 or 1 by value without signals for numbers, and the decisive NaN otherwise, which compare_signal signals also if it is quiet; compare_total_mag is the total order without signs; same_quantum compares exponents; copy_sign takes only the sign.", "quantifier": "all pairs of decimals and all contexts", "why_tests_cant": "Equal values with different representations and all kinds of NaNs on both sides.", "anchors": ["crosshair/libimpl/decimallib.py: Decimal.compare, Decimal.compare_signal, Decimal._compare_check_nans, Decimal.compare_total_mag, Decimal.same_quantum, Decimal.copy_sign"]}
{"id": "C183", "title": "Integers and significant digits among decimals", "statement": "A decimal is taken for an integer exactly if its value is one, for even exactly if the integer is; rounding to a number of significant digits gives exactly so many digits and the rounded value.", "quantifier": "all finite decimals, numbers of digits and rounding modes", "why_tests_cant": "Values have infinitely many representations; rounding may carry into a new digit.", "anchors": ["crosshair/libimpl/decimallib.py: Decimal._isinteger, Decimal._iseven, Decimal._round"]}
{"id": "C184", "title": "What is checked for a function", "statement": "A function is analysed exactly if the options in force enable it and it has a contract under the kinds of analysis in force: one check for each postcondition, in order, each with all the preconditions; if anything in the contract is malformed, all messages about it are reported instead and nothing is checked.", "quantifier": "all functions, contracts, directives and options given", "why_tests_cant": "Contracts combine well-formed and malformed conditions, directives and options in unboundedly many ways.", "anchors": ["crosshair/core.py: analyze_function, SyntaxErrorCheckable, ConditionCheckable", "crosshair/condition_parser.py: Conditions.syntax_messages, Conditions.has_any"]}
{"id": "C185", "title": "What is checked for a class", "statement": "Every postcondition of every method with a contract is checked, inherited ones included, unless the method is abstract or needs an instance of an abstract class; and nothing else is. Messages are clamped to the class.", "quantifier": "all classes, all methods and their contracts, all options", "why_tests_cant": "Any mixture of abstract and concrete, static and instance methods.", "anchors": ["crosshair/core.py: analyze_class, ClampedCheckable"]}
{"id": "C186", "title": "Subclasses are checked against inherited postconditions", "statement": "For every postcondition of the method of the class it inherits from, a subclass gets a check of its own method, overridden or not, under at least the inherited preconditions if it declares none.", "quantifier": "all classes with bases, all methods", "why_tests_cant": "Class hierarchies are unbounded.", "anchors": ["crosshair/core.py: analyze_class", "crosshair/condition_parser.py: ConcreteConditionParser.get_class_conditions"]}
{"id": "C187", "title": "Invariants are not checked on constructors", "statement": "The analysis of a class does not check that the constructor establishes the invariants.", "quantifier": "all classes with invariants", "why_tests_cant": "It depends on which other conditions the constructor has.", "anchors": ["crosshair/core.py: analyze_class, analyze_function"]}
{"id": "C188", "title": "Directives set the kind of analysis", "statement": "A directive in the code that sets the kind of analysis is obeyed for functions and methods, unless an option given overrides it.", "quantifier": "all functions, methods, directives and options", "why_tests_cant": "Directives occur on modules, classes and functions.", "anchors": ["crosshair/core.py: analyze_class, analyze_function", "crosshair/condition_parser.py: condition_parser"]}
{"id": "C189", "title": "What is analysed in a module", "statement": "Exactly the functions and classes defined in the module are analysed, in the order of their names, independent of the order of definition; imported ones are not.", "quantifier": "all modules with any members", "why_tests_cant": "Any number of members in any order.", "anchors": ["crosshair/core.py: analyze_module", "crosshair/fnutil.py: get_top_level_classes_and_functions"]}
{"id": "C190", "title": "Messages are placed in the function analysed", "statement": "A message about an event in the function's own lines is placed there; about any other event it is placed at the first line of the function and quotes the line.", "quantifier": "all functions, files, lines", "why_tests_cant": "Events can occur at any line of any file.", "anchors": ["crosshair/core.py: MessageGenerator.make"]}
{"id": "C191", "title": "The signature under which a method is analysed", "statement": "The first parameter of methods and read-only properties is typed with the class, that of class methods with the class itself, static methods and all other parameters keep their types; properties that can be set are not analysed; looking at a class never fails.", "quantifier": "all descriptors, classes and signatures", "why_tests_cant": "All combinations of descriptors and signatures, including those without parameters.", "anchors": ["crosshair/fnutil.py: FunctionInfo.get_callable, set_first_arg_type"]}
{"id": "C192", "title": "Patching a method keeps its kind", "statement": "Replacing the implementation of a function, static method, class method or property gives a descriptor of the same kind with the replacement; setters and deleters are kept.", "quantifier": "all descriptors and replacements", "why_tests_cant": "Must hold for each kind of descriptor and any functions.", "anchors": ["crosshair/fnutil.py: FunctionInfo.patch_logic, FunctionInfo.get_callable"]}
{"id": "C193", "title": "Names in conditions mean what they mean in the function", "statement": "Conditions and annotations of a function see the closure variables and global variables that the function itself sees.", "quantifier": "all functions, also wrapped, and all names", "why_tests_cant": "Any names may be closure variables or global or both.", "anchors": ["crosshair/fnutil.py: fn_globals"]}
{"id": "C194", "title": "Arguments are made for every parameter", "statement": "Every parameter of a signature gets exactly one argument, in order, made for its annotation: a list for *args, a dictionary with string keys for **kwargs, any type without annotation; subtypes are allowed except for self; the solver variables of different arguments never share a name.", "quantifier": "all signatures and all names of parameters", "why_tests_cant": "Signatures are unbounded, and names can be chosen to collide.", "anchors": ["crosshair/core.py: gen_args", "crosshair/statespace.py: StateSpace.uniq"]}
{"id": "C195", "title": "Enumerations and typed dictionaries are explored completely", "statement": "The value for an enumeration is one of its members and each is possible; a typed dictionary has all required keys, no unknown ones, and every choice of optional keys is possible.", "quantifier": "all enumerations and typed dictionaries, all decisions", "why_tests_cant": "The number of combinations is exponential.", "anchors": ["crosshair/core.py: proxy_for_type, proxy_for_class"]}
{"id": "C196", "title": "Deeply immutable values are recognised", "statement": "A value is taken for deeply immutable exactly if nothing in it can change, at any depth.", "quantifier": "all values, nested to any depth", "why_tests_cant": "Nesting is unbounded.", "anchors": ["crosshair/core.py: is_deeply_immutable, _mutability_testing_hash"]}
{"id": "C197", "title": "Testing immutability leaves the tracer as it was", "statement": "While a value is tested only the intercepting module is active; afterwards exactly the modules from before are active, in the same order, whatever the test does.", "quantifier": "all stacks of modules and all outcomes", "why_tests_cant": "Exceptions may occur at any point, and stacks have any depth.", "anchors": ["crosshair/core.py: is_deeply_immutable", "crosshair/_tracers.c: CTracer_pop_module"]}
{"id": "C198", "title": "Analysis stops after uninteresting iterations only", "statement": "The count compared with the limit on uninteresting iterations exceeds n exactly if the last n+1 paths came only to decisions at places that earlier paths had come to; visits to places are counted exactly.", "quantifier": "all histories of paths and questions", "why_tests_cant": "Histories are unbounded, and discovery depends on all earlier paths.", "anchors": ["crosshair/pathing_oracle.py: CoveragePathingOracle.post_path_hook", "crosshair/core.py: analyze_calltree, path_cover (iters_since_discovery)"]}
{"id": "C199", "title": "What led to a place is remembered and repeated", "statement": "For every place in the code the search remembers exactly how often each expression was true and false on the way to the first decision there; when it aims at the place, it prefers the truth values that led there.", "quantifier": "all histories of paths, all places, all expressions", "why_tests_cant": "It depends on the whole history, and on the identity of expressions in memory.", "anchors": ["crosshair/pathing_oracle.py: CoveragePathingOracle.post_path_hook, internalize, decide"]}
{"id": "C200", "title": "Branch decisions are probabilities and certainties stay", "statement": "Every heuristic answers with a probability, and a branch that is asked for with certainty stays certain.", "quantifier": "all counts, probabilities and constraints", "why_tests_cant": "Counts and probabilities have infinitely many values.", "anchors": ["crosshair/pathing_oracle.py: BreadthFirstPathingOracle.decide, PreferNegativeOracle.decide, ConstrainedOracle.decide"]}
{"id": "C201", "title": "Breadth first tries the branch not tried", "statement": "If only one branch has been taken at a location, the other is taken next when both are open; branches taken much more often become less probable, but never impossible.", "quantifier": "all counts, probabilities and random numbers", "why_tests_cant": "Counts are unbounded and choices random.", "anchors": ["crosshair/pathing_oracle.py: BreadthFirstPathingOracle.decide", "crosshair/statespace.py: RandomizedBinaryPathNode.choose"]}
{"id": "C202", "title": "Preferred constraints are kept", "statement": "As long as the branches are open, a path on which the preferred constraints are possible stays one, whatever the inner heuristic and the random numbers say.", "quantifier": "all constraints, expressions, paths of any length, inner heuristics and random numbers", "why_tests_cant": "Paths have any length.", "anchors": ["crosshair/pathing_oracle.py: ConstrainedOracle"]}
{"id": "C203", "title": "Heuristics take turns", "statement": "When heuristics rotate, each is told of every path, and the i-th path is decided by heuristic i modulo their number, in the state it has from its own turns.", "quantifier": "all lists of heuristics and all histories of paths and questions", "why_tests_cant": "Histories are unbounded and heuristics have memory.", "anchors": ["crosshair/pathing_oracle.py: RotatingOracle"]}
{"id": "C204", "title": "Results that cannot be compared are recognised", "statement": "The comparison of symbolic with concrete runs skips a result exactly if it contains a function, an uncanonical class or an object equal only to itself.", "quantifier": "all values, nested to any depth", "why_tests_cant": "Nesting is unbounded.", "anchors": ["crosshair/behavior_compare.py: _is_opaque"]}
{"id": "C205", "title": "Stand-ins have the type of the input", "statement": "Every input is a value of the type from which its symbolic stand-in is made.", "quantifier": "all values, nested to any depth", "why_tests_cant": "Nesting is unbounded.", "anchors": ["crosshair/behavior_compare.py: _proxy_type, _union_of"]}
{"id": "C206", "title": "Summaries of runs", "statement": "A run is detached from the search exactly once if asked to; it is summarised by what it returns (an iterator by its values) or the exception of the first step that fails; an argument that cannot be realized does not affect others.", "quantifier": "all functions, results, iterators and failures of realization", "why_tests_cant": "Any step may fail.", "anchors": ["crosshair/behavior_compare.py: summarize_execution, safe_deep_realize"]}
{"id": "C207", "title": "Divergence reports", "statement": "The comparison of an operation reports the first comparable input on which the symbolic run differs, none exactly if there is none, and counts compared and unsupported inputs exactly.", "quantifier": "all lists of inputs and outcomes of runs", "why_tests_cant": "Any sequence of outcomes.", "anchors": ["crosshair/behavior_compare.py: run_differential, run_symbolic_pinned"]}
{"id": "C208", "title": "Docstring conditions become the function's conditions", "statement": "The preconditions and postconditions of a function are exactly those written in its docstring, in order and with their line numbers; each can be evaluated or carries the error of its own text. A function with preconditions only gets one postcondition that always holds; built-in functions have none.", "quantifier": "all docstrings and all outcomes of compilation", "why_tests_cant": "Docstrings are arbitrary text.", "anchors": ["crosshair/condition_parser.py: Pep316Parser.get_fn_conditions, condition_from_source_text"]}
{"id": "C209", "title": "Syntax errors in contracts are reported", "statement": "Every condition that does not compile and every misuse of a section is reported with its line, for functions and for class invariants, and nothing else is reported.", "quantifier": "all docstrings", "why_tests_cant": "Docstrings are arbitrary text.", "anchors": ["crosshair/condition_parser.py: Conditions.syntax_messages, Pep316Parser.get_fn_conditions, Pep316Parser.get_class_invariants"]}
{"id": "C210", "title": "Names in conditions", "statement": "When a condition is evaluated, arguments hide globals of the same name, and all other names are globals of the function's module.", "quantifier": "all conditions, arguments and modules", "why_tests_cant": "Bindings are arbitrary.", "anchors": ["crosshair/condition_parser.py: condition_from_source_text"]}
{"id": "C211", "title": "Mutable arguments", "statement": "An argument may be changed by a function with a list of mutable arguments exactly if the list names it or something in it.", "quantifier": "all texts in brackets and all argument names", "why_tests_cant": "Texts are arbitrary.", "anchors": ["crosshair/condition_parser.py: Pep316Parser.get_fn_conditions (mutable_args)"]}
{"id": "C212", "title": "Declared exceptions are allowed", "statement": "The exceptions that a function is allowed to raise are exactly the exception classes that lines of its docstring declare, as `:raises X:` or `raises: X, Y`; unknown names do not affect others.", "quantifier": "all docstrings and all meanings of names", "why_tests_cant": "Docstrings are arbitrary text.", "anchors": ["crosshair/condition_parser.py: parse_sphinx_raises, _RAISE_SPHINX_RE"]}
{"id": "C213", "title": "Decimal exponentials are correctly rounded", "statement": "Decimal.exp of every finite number returns, after finitely many refinements, the true exponential rounded once half to even to the context's precision and exponent range, with exactly the signals of that rounding, including when the result overflows, underflows or is indistinguishable from one; zero gives exactly one, minus infinity zero; NaNs are passed on.", "quantifier": "all decimals and all contexts", "why_tests_cant": "Precision and exponents are unbounded, and termination depends on e to a rational power being irrational.", "anchors": ["crosshair/libimpl/decimallib.py: Decimal.exp, _dexp, _iexp"]}
{"id": "C214", "title": "Decimal logarithms are correctly rounded", "statement": "Decimal.ln and Decimal.log10 of every positive number return, after finitely many refinements, the true logarithm rounded once half to even; ln of one and log10 of powers of ten are exact however the argument is written; zero gives minus infinity, negative numbers are invalid operations and NaNs are passed on.", "quantifier": "all decimals and all contexts", "why_tests_cant": "Precision and exponents are unbounded, and termination depends on irrationality.", "anchors": ["crosshair/libimpl/decimallib.py: Decimal.ln, Decimal.log10, _dlog, _dlog10, _ilog, Decimal._ln_exp_bound, Decimal._log10_exp_bound"]}
{"id": "C215", "title": "Stored digits of ln 10", "statement": "After any history of requests, asking for p digits of the natural logarithm of ten after the point gives exactly those digits, cut off, and the request always ends.", "quantifier": "all histories of requests and all p", "why_tests_cant": "The digits are cached between calls, and p is unbounded.", "anchors": ["crosshair/libimpl/decimallib.py: _Log10Memoize.getdigits"]}
{"id": "C216", "title": "Integer helpers of decimal functions", "statement": "Division and shifts round to the nearest integer with ties to even, the nearest integer to a square root is found from any positive first guess, and an integer is multiplied by a power of ten exactly or not at all.", "quantifier": "all integers", "why_tests_cant": "Integers are unbounded.", "anchors": ["crosshair/libimpl/decimallib.py: _div_nearest, _rshift_nearest, _sqrt_nearest, _decimal_lshift_exact"]}
{"id": "C217", "title": "Error bounds of decimal approximations", "statement": "The integer approximations of ln, log10 and exp to p digits have an error below one unit in the last digit, for every argument and every p.", "quantifier": "all arguments and all precisions", "why_tests_cant": "Arguments and precisions are unbounded; errors of thousands of rounded steps accumulate.", "anchors": ["crosshair/libimpl/decimallib.py: _dlog, _dlog10, _dexp, _ilog, _iexp"]}
{"id": "C218", "title": "Case conversions of symbolic strings", "statement": "upper, lower, casefold, swapcase, title and capitalize of a symbolic string give what str's methods give for its value, including characters whose other case is two or three characters long and letters whose case depends on their neighbours.", "quantifier": "all strings over all of Unicode, and all values that the solver may choose for its table functions", "why_tests_cant": "Over a million characters in strings of any length; the table functions are free outside the points that are told to the solver.", "anchors": ["crosshair/libimpl/builtinslib.py: AnySymbolicStr.upper, lower, casefold, swapcase, title, _title_one_char, capitalize", "crosshair/unicode_categories.py: casemap, UnicodeMaskCache, _cached_int_transform"]}
{"id": "C219", "title": "Kinds of characters are Python's", "statement": "In the solver, being a letter, digit, number, white space, printable, a line end, of a case, or matching \\\\w holds for exactly the characters for which it holds in Python, and can be asked whenever the categories involved occur in the Unicode data.", "quantifier": "all characters, all Unicode data and all values that the solver may choose", "why_tests_cant": "The masks are built by a scan over all characters and unions, inversions and intersections of ranges.", "anchors": ["crosshair/unicode_categories.py: compute_categories, get_unicode_mask, get_char_fn_domain_mask, get_char_predicate_mask, make_mask, UnicodeMaskCache"]}
{"id": "C220", "title": "Tables of characters are shared safely between paths", "statement": "However table functions are asked for in different paths, the solver of each path is told exactly the facts about the functions that were asked for in that path, each once, and these facts never contradict each other.", "quantifier": "all histories of requests in any number of paths", "why_tests_cant": "Interpretations are cached for the process and functions for the path; histories are unbounded.", "anchors": ["crosshair/unicode_categories.py: transform_fn, mask_fn, _cached_int_transform, _cached_mask_interpretation"]}
{"id": "C221", "title": "Translating symbolic strings", "statement": "translate of a symbolic string gives what str.translate gives for its value: replaced, deleted and kept characters, and the same exception at the first bad entry.", "quantifier": "all strings and all tables, including those whose lookups raise", "why_tests_cant": "Tables are arbitrary objects, strings are unbounded.", "anchors": ["crosshair/libimpl/builtinslib.py: AnySymbolicStr.translate, _chr"]}
{"id": "C222", "title": "Numbers of symbolic characters", "statement": "unicodedata.decimal, digit and numeric of a symbolic string give the value that the Unicode data gives for the character, ValueError for characters without one and TypeError for strings that are not one character.", "quantifier": "all strings and all values that the solver may choose", "why_tests_cant": "All of Unicode; the table functions are free outside their tables.", "anchors": ["crosshair/libimpl/unicodedatalib.py: _decimal, _digit, _numeric", "crosshair/unicode_categories.py: nummap, fractionmap"]}
{"id": "C223", "title": "Made values belong to their annotations", "statement": "Every value that CrossHair makes for a parameter belongs to the parameter's annotation, whatever the solver answers: unions, tuples, lists, dictionaries, typed dictionaries, enumerations, type variables, new types, callables, and instances of classes and of classes derived from them.", "quantifier": "all annotations, all programs and all answers of the solver", "why_tests_cant": "Annotations nest without bound, and classes may ask for instances of themselves.", "anchors": ["crosshair/core.py: proxy_for_type, proxy_for_class, normalize_pytype, choose_type", "crosshair/libimpl/builtinslib.py: make_union_choice, make_tuple, make_dictionary, make_float, make_range, SymbolicCallable, make_registrations"]}
{"id": "C224", "title": "Every value of an annotation can be made", "statement": "For every value of a parameter's annotation there is a path in which CrossHair makes this value; nothing that callers may pass is silently left out.", "quantifier": "all annotations and all values that belong to them, with objects built by constructors", "why_tests_cant": "That something is never made is invisible in any number of runs.", "anchors": ["crosshair/core.py: proxy_for_type, proxy_for_class, choose_type", "crosshair/libimpl/builtinslib.py: make_union_choice, make_tuple, make_dictionary, make_float", "crosshair/libimpl/collectionslib.py: make_registrations"]}
{"id": "C225", "title": "Parts of inputs are independent", "statement": "All parts of all arguments - items of tuples, entries of typed dictionaries, characters, lengths, fields of dates - can take any values independently of each other: no two of them share a variable of the solver.", "quantifier": "all functions, names of parameters, annotations and paths", "why_tests_cant": "Two parts that share a variable are equal in every run; a false claim about them is then confirmed.", "anchors": ["crosshair/core.py: gen_args, SymbolicFactory.get_suffixed_varname, proxy_for_class", "crosshair/statespace.py: StateSpace.uniq", "crosshair/libimpl/builtinslib.py: make_tuple, SymbolicBoundedIntTuple", "crosshair/libimpl/datetimelib.py: make_timedelta, _symbolic_time_fields"]}
{"id": "C226", "title": "Registered contracts are exactly what was registered", "statement": "After any sequence of registrations of contracts and modules, lookups and clears, each function has exactly the contract that the accepted registrations of this function since the last clear give: the conditions of the first, the signatures of all in order. Registering other functions changes nothing, and lists that the program passes are not changed.", "quantifier": "all sequences of operations, all functions, signatures and conditions", "why_tests_cant": "Registrations of many plugins interleave in any order.", "anchors": ["crosshair/register_contract.py: register_contract, _internal_register_contract, _add_contract, _verify_signatures, clear_contract_registrations, get_contract"]}
{"id": "C227", "title": "A contract once found stays", "statement": "Until registrations are cleared, the contract of a function keeps its conditions and whether its body is skipped; signatures are only added. Asking twice gives the same answer, and the order of calls and registrations does not matter.", "quantifier": "all sequences of operations", "why_tests_cant": "Each call of a function asks for its contract; nobody sees in which order.", "anchors": ["crosshair/register_contract.py: get_contract, _add_contract, register_modules"]}
{"id": "C228", "title": "Functions of registered modules are registered, and no others", "statement": "A function that was not registered itself has a contract exactly if it belongs to a module that has been registered since the last clear, is no constructor, and has a signature; its body is then skipped, and nothing is assumed about its result beyond its type.", "quantifier": "all sequences of operations, functions, class methods and methods written in C", "why_tests_cant": "Skipping a body that should be run makes CrossHair report failures that do not exist.", "anchors": ["crosshair/register_contract.py: get_contract, register_modules, _NO_AUTO_REGISTER, _internal_register_contract"]}
{"id": "C229", "title": "Nothing is marked in a file with unsaved changes", "statement": "From the moment a file is changed or closed in the editor until it is opened or saved again, no mark of CrossHair is shown in it, whatever the analysis finds meanwhile, and however it publishes and starts again.", "quantifier": "all sequences of events in the editor and in the analysis, all files", "why_tests_cant": "The analysis runs in another thread: its steps interleave with the editor in any order.", "anchors": ["crosshair/lsp_server.py: create_lsp_server (did_change, did_close, did_open, did_save), publish_messages, LocalState.run_watch_loop"]}
{"id": "C230", "title": "Exactly the worst messages are marked, one for each line", "statement": "When the analysis has published, the marks of a saved file are exactly these: for each line, the first of the worst messages that were found since the analysis last started again or the file was saved, if it is a warning or worse. Publishing always ends.", "quantifier": "all sequences of events, all messages, files and lines", "why_tests_cant": "Which messages arrive before which save or restart depends on timing.", "anchors": ["crosshair/lsp_server.py: publish_messages, LocalState.run_watch_loop"]}
{"id": "C231", "title": "Marks are where the message is", "statement": "The mark of a message is on the message's line and covers exactly the text of this line without the spaces around it, in the columns of the protocol; its severity is a warning for conditions that cannot be met, and an error for anything worse.", "quantifier": "all messages and all texts of files", "why_tests_cant": "Texts with tabs, wide characters and lines that no longer exist are rare in tests.", "anchors": ["crosshair/lsp_server.py: get_diagnostic"]}
{"id": "C232", "title": "Rounding and fractions of symbolic floats are Python's", "statement": "The integer part, the integers below and above, the nearest integer, rounding to any number of digits, the question whether it is an integer, and the integer ratio of a symbolic float that is modelled as a real number are those that Python gives for this number.", "quantifier": "all real values, all numbers of digits and all kinds of them", "why_tests_cant": "Ties, negative values and extreme numbers of digits are rare, and the solver only answers symbolically.", "anchors": ["crosshair/libimpl/builtinslib.py: RealBasedSymbolicFloat (__round__, __floor__, __ceil__, __trunc__, is_integer, as_integer_ratio)"]}
{"id": "C233", "title": "Symbolic IEEE floats convert as Python's floats do", "statement": "A symbolic integer becomes the IEEE float that Python rounds it to. Conversions of IEEE floats to integers, rounding, and the question whether it is an integer give what Python gives, also for infinity and NaN.", "quantifier": "all integers, all IEEE floats, infinities and NaN, all numbers of digits", "why_tests_cant": "Double rounding and overflow happen only for few values.", "anchors": ["crosshair/libimpl/builtinslib.py: SymbolicInt.__float__, PreciseIeeeSymbolicFloat (__int__, __round__, __floor__, __ceil__, __trunc__, is_integer)"]}
{"id": "C234", "title": "The float of a symbolic text is the number it denotes", "statement": "float(text) of a symbolic text is the number that the text denotes (with IEEE floats: the nearest float), for every text of digits with optional sign and point; any other text is left to Python.", "quantifier": "all texts", "why_tests_cant": "The texts whose value is rounded twice, or that are very long, are few among infinitely many.", "anchors": ["crosshair/libimpl/builtinslib.py: _float, _FLOAT_REGEX"]}
{"id": "C235", "title": "At every call instruction, what is called is found and replaced", "statement": "In every supported version of Python and at every kind of call instruction, whatever the number of arguments, the interception finds what is being called; the replacement is called in its place, with the same arguments and keywords.", "quantifier": "all versions, call instructions, numbers of arguments and contents of the interpreter's stack", "why_tests_cant": "Tests run few versions and few shapes of calls; a wrong position corrupts an argument silently.", "anchors": ["crosshair/_tracers.c: crosshair_tracers_read_call_stack_info, CTracer_call_trace_op_fast", "crosshair/tracers.py: TracingModule.trace_op"]}
{"id": "C236", "title": "A patched function is replaced however it is called", "statement": "A function that has a replacement is never executed itself when it is called from traced code: directly, as a method of an object or a class, as a built-in method or by calling an object; the replacement gets the same arguments, including the object of a method. Calls of functions without replacement do what they did.", "quantifier": "all objects that can be called, all classes and attributes, all sets of replacements", "why_tests_cant": "The ways in which Python binds functions to objects cannot be enumerated in tests.", "anchors": ["crosshair/_tracers.c: crosshair_tracers_normalize_call_target_impl, CTracer_call_trace_op_fast", "crosshair/tracers.py: TracingModule.trace_op"]}
{"id": "C237", "title": "The depth of the interpreter's stack is known at every instruction", "statement": "In Python 3.12 and 3.13, where the interpreter does not tell the depth of its stack of values, the depth that is computed for an instruction is the actual depth in every run that comes to it, through whatever branches, loops and exception handlers. The computation ends for all code. (For code as the compiler makes it: the depth at a place is always the same, and the ranges of a handler are entered at a start.)", "quantifier": "all code with its table of exceptions, all runs", "why_tests_cant": "Control flow graphs cannot be enumerated; a wrong depth makes CrossHair read or overwrite the wrong value in memory.", "anchors": ["crosshair/_mark_stacks.h: _ch_mark_stacks, _ch_pop_to_level"]}
{"id": "C238", "title": "All instructions that matter are intercepted, and so is what follows them", "statement": "In Python 3.12 and 3.13 every instruction of a kind that CrossHair replaces is marked for interception when a run can come to it, and so are all instructions that can be executed directly after it, where what was to be done afterwards is done.", "quantifier": "all code, all runs", "why_tests_cant": "An instruction that is missed in some shape of code only makes symbolic values silently concrete.", "anchors": ["crosshair/_mark_stacks.h: _ch_mark_stacks", "crosshair/_tracers.c: CTracer_handle_opcode"]}
{"id": "C239", "title": "The cache of stack depths never confuses two pieces of code", "statement": "Whatever code is executed in whatever order, and whatever random numbers move entries of the cache, the depths used for a code are those computed for it; the cache holds at most 64 codes.", "quantifier": "all histories of executed code, all random numbers", "why_tests_cant": "The moves are random and evictions need more than 64 codes.", "anchors": ["crosshair/_tracers.c: _ch_get_stacks"]}
{"id": "C240", "title": "Known bounds of integers never change what a program can observe", "statement": "CrossHair remembers bounds of unknown integers, answers comparisons from them and narrows them when comparisons are decided. For every history of making, negating, comparing and deciding, the integers that remain possible are exactly those with the requested limits for which all answers given to the program are true; comparisons answered from bounds are right; and the remembered bounds are right for all remaining integers.", "quantifier": "all histories of operations, all decisions, all integers", "why_tests_cant": "Bounds are shared state changed when results are looked at, which can be any time later and in any order.", "anchors": ["crosshair/libimpl/builtinslib.py: SymbolicBoundedInt, SymbolicBool.__ch_realize__, make_bounded_int"]}
{"id": "C241", "title": "Functions given as arguments behave like the code shown for them", "statement": "A function that CrossHair makes up for an argument returns the values of a list one after the other and then always the last one, in any number of calls; the Python code shown for it in a counterexample, when evaluated, gives a function that returns the same in every call.", "quantifier": "all lists of values, all numbers of calls", "why_tests_cant": "The number of calls and the values are arbitrary; tests evaluate few reported messages.", "anchors": ["crosshair/libimpl/builtinslib.py: SymbolicCallable.__init__, __call__, __repr__"]}
{"id": "C242", "title": "Copies of functions behave the same, and equal functions, too", "statement": "At any time a made-up function can be copied, and the copy returns what the function would have returned; two functions that compare equal return the same from then on.", "quantifier": "all values, all numbers of calls before and after", "why_tests_cant": "Depends on how often each function has been called before.", "anchors": ["crosshair/libimpl/builtinslib.py: SymbolicCallable.__copy__, __eq__"]}
{"id": "C243", "title": "Copies of arguments are independent of what the program does", "statement": "A deep copy of an argument of unknown type, taken to notice changes, keeps its contents whatever the program does with the argument afterwards.", "quantifier": "all contents, all changes afterwards", "why_tests_cant": "It depends on whether the type was decided before or after the copy.", "anchors": ["crosshair/libimpl/builtinslib.py: SymbolicObject.__deepcopy__, _realize"]}
{"id": "C244", "title": "Format specifiers for decimals mean what is written", "statement": "A text is accepted as a format specifier of a decimal exactly if it is written by the rules [[fill]align][sign][z][#][0][width][,][.precision][type], without a fill or an alignment together with the zero, and without a comma together with the type of the locale. It then means what its parts say; any other text gives ValueError.", "quantifier": "all texts, all locales", "why_tests_cant": "The grammar has nine optional parts with interactions; tests try few combinations.", "anchors": ["crosshair/libimpl/decimallib.py: _parse_format_specifier_regex, _parse_format_specifier"]}
{"id": "C245", "title": "Thousands separators and padding with zeros", "statement": "When separators are put between digits, the groups from the right have the lengths that the grouping says and no separator comes first; removing the separators gives the digits, after zeros, exactly as few as are needed for the asked width.", "quantifier": "all texts of digits, all groupings and separators, all widths", "why_tests_cant": "Widths that fall on a separator are special, for every length of the number.", "anchors": ["crosshair/libimpl/decimallib.py: _insert_thousands_sep, _group_lengths"]}
{"id": "C246", "title": "A formatted decimal shows the number", "statement": "Formatting a finite decimal gives the sign, the whole part, the point with the digits after it and the exponent, padded to the width by the alignment. The number that these digits write is the decimal (hundredfold for percentages), rounded by the mode of the context to the places that the precision asks for: after the point, or significant. Infinities and NaNs are shown as by str.", "quantifier": "all decimals, all specifiers, all rounding modes", "why_tests_cant": "Rounding can carry into a new digit, zeros have exponents, and the type decides where the point is; tests check single values.", "anchors": ["crosshair/libimpl/decimallib.py: Decimal.__format__, _round, _format_number, _format_align, _format_sign"]}
{"id": "C247", "title": "Formatting a decimal without a specifier is str", "statement": "Formatting any decimal with an empty specifier gives exactly what str gives, in every context and locale.", "quantifier": "all decimals, contexts and locales", "why_tests_cant": "Two separate implementations place the point and the exponent.", "anchors": ["crosshair/libimpl/decimallib.py: Decimal.__format__, __str__"]}
{"id": "C248", "title": "Watch mode shows no results from before a change", "statement": "Once `crosshair watch` has noticed that a file changed, every result it gives out belongs to an analysis asked for after that. No result of an earlier analysis appears, whatever workers that are still running do.", "quantifier": "all histories of passes, file changes, worker starts, exits, results and kills, in every order", "why_tests_cant": "A worker may finish at any moment around the detection of the change; tests run one schedule.", "anchors": ["crosshair/watcher.py: Watcher.run_iteration, handle_periodic", "crosshair/watcher.py: Pool.terminate"]}
{"id": "C249", "title": "A pass of watch mode gives out each result once, and all of them", "statement": "Each analysis asked for gives at most one result. When a pass is complete, every file handed out has been dealt with and each result that came in has been given out.", "quantifier": "all histories, all schedules of workers", "why_tests_cant": "The loss depends on a worker ending between two lines of the loop.", "anchors": ["crosshair/watcher.py: Watcher.run_iteration", "crosshair/watcher.py: Pool.garden_workers, has_result, get_result"]}
{"id": "C250", "title": "Each pass hands out every file, most recently changed first", "statement": "A pass hands out every known file once, with the time limit of the pass, and starts with the files changed most recently.", "quantifier": "all sets of files, times and sizes of the pool", "why_tests_cant": "The order shows only with more files than workers.", "anchors": ["crosshair/watcher.py: Watcher.run_iteration", "crosshair/watcher.py: Pool._spawn_workers"]}
{"id": "C251", "title": "Watch mode checks for changes about once a second and stops when asked", "statement": "Checks for changes are at least a second apart. If a file differs from what is known when a check is due, the pass ends, the loop is told, and the next pass starts afresh with the new state of the files. After a request to stop, the pass ends after a bounded number of steps.", "quantifier": "all histories, all times, all changes of files", "why_tests_cant": "Depends on the moment of the change and on what is queued.", "anchors": ["crosshair/watcher.py: Watcher.handle_periodic, run_iteration, shutdown"]}
{"id": "C252", "title": "What analysed code prints does not disturb the results in watch mode", "statement": "The result of a worker arrives unchanged, whatever the analysed code prints.", "quantifier": "all results and all texts printed", "why_tests_cant": "Any text is possible, including parts of lines.", "anchors": ["crosshair/watcher.py: PoolWorkerShell.run, pool_worker_main, serialize, deserialize"]}
{"id": "C253", "title": "Representations of dates and times evaluate to the same values", "statement": "Evaluating the text that `repr` gives for a duration, date, time, datetime or time zone gives an equal value, with the same fields, zone and fold, so counterexamples can be pasted.", "quantifier": "all durations, days, times, moments and fixed-offset zones with any name", "why_tests_cant": "Which fields are left out depends on which are zero, in many combinations, and every value has to come back.", "anchors": ["crosshair/libimpl/datetimelib.py: timedelta.__repr__", "crosshair/libimpl/datetimelib.py: date.__repr__", "crosshair/libimpl/datetimelib.py: time.__repr__", "crosshair/libimpl/datetimelib.py: datetime.__repr__", "crosshair/libimpl/datetimelib.py: timezone.__repr__"]}
{"id": "C254", "title": "`ctime` gives the right weekday, month, day, time and year", "statement": "`ctime` gives a text with the name of the day of the week on which that day falls, the name of the month, the day padded with a space, the time and the year in four digits. Different days or times (to the second) give different texts.", "quantifier": "all days of the years 1 to 9999 and all times", "why_tests_cant": "Millions of days; tests look at a few.", "anchors": ["crosshair/libimpl/datetimelib.py: date.ctime", "crosshair/libimpl/datetimelib.py: datetime.ctime"]}
{"id": "C255", "title": "`strftime` expands every directive once", "statement": "`strftime` gives the format with each directive replaced: `%f` by six digits of microseconds, `%z` by the offset, `%Z` by the name of the zone, and all others as the system's `strftime` does. Percent signs in the name of a zone are not expanded again.", "quantifier": "all formats, offsets, microseconds and names of zones", "why_tests_cant": "Formats and names are arbitrary texts.", "anchors": ["crosshair/libimpl/datetimelib.py: _wrap_strftime"]}
{"id": "C256", "title": "Functions of `itertools` work under analysis as they do without it", "statement": "`filterfalse`, `takewhile`, `dropwhile`, `starmap`, `groupby` and `accumulate` give the same items or the same exception under analysis as the functions of the standard library, for every function argument that those accept.", "quantifier": "all sequences of items, all functions, all failures, and arguments left out or `None`", "why_tests_cant": "Functions are arbitrary, and optional arguments are easy to miss.", "anchors": ["crosshair/libimpl/itertoolslib.py: _filterfalse, _takewhile, _dropwhile, _starmap, _groupby, _accumulate"]}
{"id": "C257", "title": "Functions of `itertools` give the documented items", "statement": "With functions that do not fail: `filterfalse`, `takewhile` and `dropwhile` select the documented items, `groupby` gives the groups of neighbours with equal keys, and `accumulate` the running totals.", "quantifier": "all sequences, all predicates, keys and operations", "why_tests_cant": "Sequences of all lengths.", "anchors": ["crosshair/libimpl/itertoolslib.py: _filterfalse, _takewhile, _dropwhile, _groupby, _accumulate"]}
{"id": "C258", "title": "Cached functions give the same results under analysis", "statement": "Calls of a function decorated with `functools.lru_cache` give the same results under analysis, where the cache is skipped, as with the cache.", "quantifier": "all functions, all series of calls, all sizes of the cache", "why_tests_cant": "Depends on the history of calls and on what is evicted.", "anchors": ["crosshair/libimpl/functoolslib.py: call_with_skipped_cache"]}
{"id": "C259", "title": "Partial applications pass on all arguments", "statement": "A partial application under analysis calls the function with its own positional arguments before those of the call, and with keywords of the call in place of its own. It can be made whenever Python allows it.", "quantifier": "all functions, arguments and keywords", "why_tests_cant": "Keywords are arbitrary names.", "anchors": ["crosshair/libimpl/functoolslib.py: _partial"]}
{"id": "C260", "title": "In-place operators on objects of unknown type change only what Python would change", "statement": "After assignments and in-place operators like `x += 1` on parameters of unknown type, every variable refers to the same object, with the same contents, as in Python. An operator that works in place gives back the same object.", "quantifier": "all programs of assignments and in-place operators, all aliasing of variables, all operations", "why_tests_cant": "Depends on which variables share an object.", "anchors": ["crosshair/objectproxy.py: proxy_inplace_op", "crosshair/objectproxy.py: ObjectProxy._wrapped, __iadd__ and the other in-place operators"]}
{"id": "C261", "title": "Decimals are made exactly from triples", "statement": "`Decimal((sign, digits, exponent))` has the value that is written, whatever zeros are in front of the digits; `Decimal(d.as_tuple())` is `d` for every number, infinity and NaN; and exactly the triples with an invalid sign, digit or exponent are refused.", "quantifier": "all triples of integers, texts and other objects, all decimals", "why_tests_cant": "Numbers of digits and exponents are unbounded.", "anchors": ["crosshair/libimpl/decimallib.py: Decimal.__new__, as_tuple"]}
{"id": "C262", "title": "Decimals are made exactly from integers and floats", "statement": "`Decimal(n)` and `Decimal.from_float(f)` are exactly the integer or float, with the sign of a zero; infinities and NaNs are kept.", "quantifier": "all integers, all ratios with a power of two as denominator, infinities and NaNs", "why_tests_cant": "Floats of all magnitudes; the expansion has up to a thousand digits.", "anchors": ["crosshair/libimpl/decimallib.py: Decimal.__new__, from_float"]}
{"id": "C263", "title": "Decimals compare exactly with integers, fractions and floats", "statement": "`==`, `<`, `<=`, `>` and `>=` of a decimal and an integer, a fraction, a float or (for `==`) a complex number answer by the exact values, without rounding to the context.", "quantifier": "all decimals and infinities, all rationals and floats, both kinds of comparisons", "why_tests_cant": "No context's precision is enough for a fraction like 1/3.", "anchors": ["crosshair/libimpl/decimallib.py: _convert_for_comparison, _convert_other"]}
{"id": "C264", "title": "Powers modulo an integer are exact", "statement": "`pow(a, b, m)` of decimals that are integers is the remainder of the exact power by `m`, with the sign of the power, without signals; it is an invalid operation exactly if an operand is not an integer, `b` is negative, `m` is zero or has too many digits, or `a` and `b` are zero.", "quantifier": "all decimals with all exponents, all contexts", "why_tests_cant": "The exact powers are far too large to compute.", "anchors": ["crosshair/libimpl/decimallib.py: Decimal._power_modulo"]}
{"id": "C265", "title": "A context reads numbers with a single rounding", "statement": "`Context.create_decimal(text)` is the exact value that is written, rounded once by the context; texts with spaces or underscores, texts that are not numbers, and NaNs with payloads that are too long are invalid.", "quantifier": "all texts of numbers, all contexts", "why_tests_cant": "Texts are of arbitrary length.", "anchors": ["crosshair/libimpl/decimallib.py: Context.create_decimal"]}
{"id": "C266", "title": "Date and time inputs cover exactly what Python can build", "statement": "The dates, durations, times, time zones and moments that are tried as arguments are all valid, and each valid one is tried: all days from year 1 to 9999, all durations in the documented range, all times of day.", "quantifier": "all values of the symbolic variables, all dates, durations, times, time zones and moments", "why_tests_cant": "The space of moments has more than 10 to the 17 elements; a missing one hides a counterexample.", "anchors": ["crosshair/libimpl/datetimelib.py: make_registrations, _symbolic_date_ordinal, _symbolic_time_fields, _date_from_ordinal, _datetime_from_ordinal"]}
{"id": "C267", "title": "Realizing dates and durations is exact", "statement": "Converting a date or duration to the real type of Python for a report gives the same date or duration, although the microseconds pass through floats.", "quantifier": "all dates, all durations in their canonical form, every rounding with a relative error of at most 2 to the -53", "why_tests_cant": "There are 86400000000 durations within a day alone; the error of rounding depends on the bits.", "anchors": ["crosshair/libimpl/datetimelib.py: date.__ch_realize__, timedelta.__ch_realize__"]}
{"id": "C268", "title": "`replace` on dates and times changes exactly the given fields", "statement": "`date.replace` and `time.replace` give the date or time with the given fields replaced and the others kept, `ValueError` exactly if there is no such date or time, and `TypeError` exactly if an argument has the wrong type.", "quantifier": "all dates, times and arguments of each kind", "why_tests_cant": "Validity depends on the combination of all fields, as with 29 February.", "anchors": ["crosshair/libimpl/datetimelib.py: date.replace, time.replace"]}
{"id": "C269", "title": "Dictionaries that do not hash do what dictionaries of Python do, for keys of any class", "statement": "Any history of lookups, assignments and deletions in a dictionary that is searched linearly gives the values, errors and order of items that Python gives, for keys of all classes that follow the rules for `__eq__` and `__hash__`, with NaN and unhashable keys.", "quantifier": "all histories of operations, all dictionaries, all objects with their identity, equality and hash", "why_tests_cant": "Classes of users define equality and hashing; histories are unbounded.", "anchors": ["crosshair/simplestructs.py: SimpleDict.__getitem__, __setitem__, __delitem__", "crosshair/util.py: is_hashable"]}
{"id": "C270", "title": "Dictionaries compare without hashing as they do in Python", "statement": "`==` of dictionaries gives what Python gives for keys and values of any class.", "quantifier": "all pairs of dictionaries, all classes of keys and values", "why_tests_cant": "Equality of keys and values is defined by users.", "anchors": ["crosshair/simplestructs.py: MapBase.__eq__"]}
{"id": "C271", "title": "Symbolic dictionaries see each change for all equal keys", "statement": "After an assignment to a symbolic dictionary exactly the keys that are equal to the key give the new value, after a deletion exactly these are missing, and the length counts them.", "quantifier": "all dictionaries with changes on top, all keys with their identity and equality", "why_tests_cant": "Two objects of different classes may be equal, and NaN is not equal to itself.", "anchors": ["crosshair/simplestructs.py: ShellMutableMap.__getitem__, __setitem__, __delitem__"]}
{"id": "C272", "title": "Sets that do not hash have the members that sets of Python have", "statement": "Making a set from a sequence keeps exactly the first of equal elements, and `in` answers as in Python.", "quantifier": "all sequences, all elements with their identity, equality and hash", "why_tests_cant": "Equality is defined by users.", "anchors": ["crosshair/simplestructs.py: LinearSet.check_unique_and_create, __contains__"]}
{"id": "C273", "title": "No generated test hides another", "statement": "The tests that `crosshair cover` writes for pytest have different names, so that all of them are run.", "quantifier": "all lists of functions with all their examples", "why_tests_cant": "Names of functions and numbers of examples are arbitrary.", "anchors": ["crosshair/path_cover.py: output_pytest_paths"]}
{"id": "C274", "title": "Generated tests say exactly what was observed", "statement": "There is one test for each example, in order; all pass exactly if each call returns the value, or raises the exception with the message, that was observed.", "quantifier": "all functions, examples and behaviours of calls", "why_tests_cant": "Texts of arguments and results are arbitrary.", "anchors": ["crosshair/path_cover.py: output_pytest_paths"]}
{"id": "C275", "title": "Generated tests import what they use", "statement": "In the file of tests each name that is used is bound to the object of its module, nothing else is imported, and pytest is imported exactly if a test expects an exception.", "quantifier": "all lists of functions with all their examples and the names used in them", "why_tests_cant": "Names and modules are arbitrary and may clash.", "anchors": ["crosshair/path_cover.py: import_statements_for_references, output_pytest_paths", "crosshair/main.py: cover"]}
{"id": "C276", "title": "`crosshair cover` examines each function of its targets once", "statement": "The functions examined are exactly those in the given modules, classes and functions; the exit code is 0 with the tests of all of them, or 2 if there is no function or one is not deterministic.", "quantifier": "all lists of targets, all outcomes of examining them", "why_tests_cant": "Modules have any number of members.", "anchors": ["crosshair/main.py: cover"]}
{"id": "C277", "title": "Floats of the solver are read exactly", "statement": "Each text that the solver writes for a float is read as that float, with signs of zeros, infinities, not-a-number and subnormal numbers; all finite floats have such a text.", "quantifier": "all floats of double precision and their texts in SMT-LIB", "why_tests_cant": "There are 2 to the 64 floats.", "anchors": ["crosshair/smtlib.py: parse_smtlib_literal, LITERAL_CONSTS"]}
{"id": "C278", "title": "Real numbers of the solver become the nearest float", "statement": "A rational number in the solver's model is reported as the nearest float, and as itself if it is a float; for an irrational number no float is nearer by more than 2e-20.", "quantifier": "all rational numbers; all irrational numbers with approximations", "why_tests_cant": "Numerators and denominators are unbounded.", "anchors": ["crosshair/statespace.py: model_value_to_python"]}
{"id": "C279", "title": "Sequences of the solver become lists of their items", "statement": "A sequence in the solver's model is reported as the list of its items, in order and with none left out.", "quantifier": "all terms for sequences of any length", "why_tests_cant": "Lengths and nesting of terms are arbitrary.", "anchors": ["crosshair/statespace.py: model_value_to_python"]}
{"id": "C280", "title": "What CrossHair remembers about an object is never given for another object", "statement": "Sources, type hints and texts that are remembered by the identity of objects are given only for the object that they were stored for, though addresses of freed objects are used again; the number of entries is that of the objects.", "quantifier": "all histories of allocating, freeing, storing, reading and deleting", "why_tests_cant": "When the garbage collector frees objects, and which addresses are used again, is not under the control of a test.", "anchors": ["crosshair/util.py: IdKeyedDict"]}
{"id": "C281", "title": "Threads do not see each other's scopes", "statement": "A value that is passed down the call stack is seen as that of the innermost open scope of the same thread, under all interleavings, and leaving a scope gives back the value before.", "quantifier": "all interleavings of entering, leaving and reading by any number of threads", "why_tests_cant": "Schedules of threads are arbitrary.", "anchors": ["crosshair/util.py: DynamicScopeVar"]}
{"id": "C282", "title": "Remembered results are those of the first success", "statement": "After a successful call, calls with the same argument give the same result without calling the function again; failures are not remembered, and the results of a function that depends only on its argument are its own.", "quantifier": "all functions, also ones whose results change, and all sequences of calls", "why_tests_cant": "Sequences of calls are unbounded.", "anchors": ["crosshair/util.py: memo"]}
{"id": "C283", "title": "Coverage is exactly of what ran", "statement": "The instructions reported as covered for a function are exactly those that ran; the coverage is at most 1, and 1 exactly if no instruction is missing.", "quantifier": "all functions and all traces of instructions", "why_tests_cant": "Traces are unbounded.", "anchors": ["crosshair/tracers.py: CoverageTracingModule"]}
{"id": "C284", "title": "A symbolic list keeps what it takes in, of whatever kind", "statement": "After appending, extending and replacing items from lists, tuples, texts, ranges, sets, dictionary values and iterators, the length, the items, the iteration and the comparison of a symbolic list are those of a Python list.", "quantifier": "all histories of a list, with all kinds of objects that items are taken from", "why_tests_cant": "Histories are unbounded, and each kind of object takes another way.", "anchors": ["crosshair/simplestructs.py: ShellMutableSequence, SequenceConcatenation, sequence_evaluation, concatenate_sequences", "crosshair/util.py: is_hashable"]}
{"id": "C285", "title": "Variables for the same symbolic list see the same changes", "statement": "After programs of assignments, `+`, `*`, copies, `+=`, `*=` and appends, each variable shows the items, and is the same list as another variable, exactly as with Python's lists; `+` with other kinds of objects is a TypeError.", "quantifier": "all programs over any number of variables for lists", "why_tests_cant": "Programs and the ways in which variables share lists are unbounded.", "anchors": ["crosshair/simplestructs.py: ShellMutableSequence.__add__, ShellMutableSequence.__imul__, SeqBase.__mul__", "crosshair/libimpl/builtinslib.py: SymbolicList"]}
{"id": "C286", "title": "`len`, `hash`, `repr` and `str` of a program's own objects are Python's", "statement": "For an object of any class a program defines, len(), hash(), repr() and str() under CrossHair give what Python gives: the result or exception of the special method found in the class, with Python's checks of what it returned.", "quantifier": "all programs of classes, methods and objects", "why_tests_cant": "Classes and what their methods return are unbounded.", "anchors": ["crosshair/libimpl/builtinslib.py: _len, _hash, _repr, _str, invoke_dunder"]}
{"id": "C287", "title": "`isinstance` of a program's own classes is Python's", "statement": "isinstance(o, t) under CrossHair answers, or raises, as in Python, for classes, tuples and nested tuples, in order and with short cuts.", "quantifier": "all programs of classes, all objects and all (nested) tuples", "why_tests_cant": "Class hierarchies, custom checks and nested tuples are unbounded.", "anchors": ["crosshair/libimpl/builtinslib.py: _isinstance, _issubclass"]}
{"id": "C288", "title": "`sorted` takes a program's own iterable objects", "statement": "sorted(o) under CrossHair gives Python's result for every object that Python can iterate over.", "quantifier": "all programs of classes and objects", "why_tests_cant": "Classes and what they yield are unbounded.", "anchors": ["crosshair/libimpl/builtinslib.py: _sorted", "crosshair/util.py: is_iterable"]}
{"id": "C289", "title": "Attributes set by name are read back by name", "statement": "setattr and getattr under CrossHair set and read the attributes Python would, whether the name is symbolic or not, and change no other attributes.", "quantifier": "all objects, names, values and defaults", "why_tests_cant": "Names and stores are unbounded.", "anchors": ["crosshair/libimpl/builtinslib.py: _setattr, _getattr"]}
{"id": "C290", "title": "Symbolic values leave operations they do not know to the other operand", "statement": "For comparisons and + between a symbolic value and an object of a program's own class, on either side, the result or exception is Python's: built-in kinds do not know the object, so its (reflected) method decides; failing that objects are unequal and other operations are TypeErrors.", "quantifier": "all kinds of symbolic values, operations, and objects with any methods", "why_tests_cant": "The methods of other objects are unbounded.", "anchors": ["crosshair/libimpl/builtinslib.py: SymbolicList.__eq__, SymbolicList.__lt__, SymbolicUniformTuple.__eq__, AtomicSymbolicValue.__eq__, SymbolicFrozenSet._set_op, AnySymbolicStr._cmp_op, LazyIntSymbolicStr.__eq__, BytesLike.__eq__, BytesLike._cmp_op, SymbolicRange.__eq__, numeric_binop_internal", "crosshair/simplestructs.py: MapBase.__eq__, ShellMutableMap.__eq__, ShellMutableSequence.__add__"]}
{"id": "C291", "title": "A TypedDict is accepted for another one only if its values can be used as such", "statement": "If unification accepts a TypedDict where another one is expected, every value made for the first (no fields but its own) has the fields that the second requires, and the fields the second speaks of have their types, at any depth; type variables in fields are bound to the types found.", "quantifier": "all TypedDicts with any required and optional fields, nested to any depth, all class hierarchies and bindings", "why_tests_cant": "Types nest without bound.", "anchors": ["crosshair/dynamic_typing.py: unify, unify_dicts"]}
{"id": "C292", "title": "Methods of built-in classes take symbolic objects and arguments like others", "statement": "Calling a method of a built-in class, on an object or through the class (s.endswith(x), str.endswith(s, x), int.bit_length(n)), gives Python's result or exception, whether the object, arguments, or values in tuples among the arguments are symbolic, and for objects of subclasses and of other classes.", "quantifier": "all classes, methods, objects and arguments, with tuples nested to any depth", "why_tests_cant": "Where symbolic values occur among the arguments is unbounded.", "anchors": ["crosshair/core.py: with_realized_args, with_checked_self, with_symbolic_self, realize", "crosshair/libimpl/builtinslib.py: make_registrations"]}
{"id": "C293", "title": "Formatting objects of a program's own classes does what Python does", "statement": "format(obj, spec), template.format(...) and template % (...) give Python's text or exception for objects with any __format__ or __str__ methods, and leave the objects in the state Python leaves them in.", "quantifier": "all objects, methods (which may change the object, return anything, or raise) and sequences of fields", "why_tests_cant": "Methods and sequences of fields are unbounded.", "anchors": ["crosshair/libimpl/builtinslib.py: _format, _str_format, _str_percent_format, invoke_dunder", "crosshair/copyext.py: deepcopyext"]}
{"id": "C294", "title": "Arrays of C integers hold and refuse what Python's do", "statement": "Making an array.array with an integer type code, append, extend, fromlist, insert, item assignment, pop and reverse leave Python's items and raise Python's exceptions; arrays made as inputs are arrays Python can make, and all of them can be made; arrays with equal items are equal, whatever methods were called before.", "quantifier": "all integer type codes, items of any kind, arrays and sequences of operations of any length", "why_tests_cant": "Items and sequences of operations are unbounded.", "anchors": ["crosshair/libimpl/arraylib.py: INT_TYPE_BOUNDS, check_int, _array, make_array, SymbolicArray", "crosshair/simplestructs.py: ShellMutableSequence"]}
{"id": "C295", "title": "defaultdict inputs call their factory only where Python's do", "statement": "For a collections.defaultdict input, every sequence of d[k], d[k] = v, del d[k], k in d, get, pop, setdefault, popitem and len gives Python's results and exceptions, and leaves Python's entries; only d[k] calls the factory.", "quantifier": "all entries, factories, keys and sequences of operations", "why_tests_cant": "Sequences of operations are unbounded.", "anchors": ["crosshair/libimpl/collectionslib.py: PureDefaultDict, PureDefaultDict.__getitem__, PureDefaultDict.__missing__, PureDefaultDict.__delitem__"]}
{"id": "C296", "title": "math.gcd takes what Python's takes", "statement": "math.gcd gives the greatest common divisor of any number of integers, and raises a TypeError if an argument is not an integer.", "quantifier": "all lists of arguments of any kind and length", "why_tests_cant": "The number and values of arguments are unbounded.", "anchors": ["crosshair/libimpl/mathlib.py: _gcd"]}
{"id": "C297", "title": "Counterexamples with skipped functions show what these returned", "statement": "If a counterexample says which values skipped functions returned, running the program with crosshair.patch_to_return and these values sees what the execution that found the counterexample saw, also if the program changes the returned objects.", "quantifier": "all programs of calls of any functions, changes of returned lists and looks at them, and all returned lists", "why_tests_cant": "Programs and values are unbounded.", "anchors": ["crosshair/core.py: FunctionInterps.append_return, FunctionInterps.patch_string, fn_returning, patch_to_return, make_counterexample_message"]}
{"id": "C298", "title": "eval looks names up where Python does", "statement": "During analysis, eval(expression, globals, locals) gives the value that Python gives, or the same NameError, and assignments in the expression reach the same dictionaries, whichever of globals and locals are given.", "quantifier": "all expressions of numbers, names, additions and assignment expressions, all contents of the dictionaries and built-in names, all callers and all combinations of given globals and locals", "why_tests_cant": "Expressions and dictionaries are unbounded.", "anchors": ["crosshair/libimpl/builtinslib.py: _eval"]}
{"id": "C299", "title": "get of ordinary dictionaries does what Python's does", "statement": "During analysis, d.get(key, default) of a dictionary that is not symbolic returns the value Python would return, for keys of any type, and raises TypeError where Python does.", "quantifier": "all contents of dictionaries, all keys with any identity, hash and equality, and all defaults given by position or keyword", "why_tests_cant": "Dictionaries are unbounded, and equality and hashes are arbitrary functions.", "anchors": ["crosshair/libimpl/builtinslib.py: _dict_get", "crosshair/simplestructs.py: SimpleDict.__getitem__"]}
{"id": "C300", "title": "Extra plugins run as Python modules do", "statement": "A file given with --extra_plugin behaves as it does as a Python module: its functions see the names that the file imports, assigns and defines.", "quantifier": "all files of assignments, functions and calls, all names of CrossHair's main module and of the function that loads the plugins, and all built-in names", "why_tests_cant": "Plugins and the order of their statements are unbounded.", "anchors": ["crosshair/main.py: unwalled_main"]}
{"id": "C301", "title": "Verbose messages show the lines around the problem", "statement": "With verbose reports, each message shows, in order, the lines of the source file that are at most three lines away from the line of the message, and marks that line and no other.", "quantifier": "all files with any number of lines, and all line numbers, also ones that the file does not have", "why_tests_cant": "Files and line numbers are unbounded.", "anchors": ["crosshair/main.py: format_src_context, long_describe_message"]}
{"id": "C302", "title": "Ctrl-C ends crosshair watch cleanly", "statement": "Whenever the user interrupts crosshair watch, it ends with exit status 0 and leaves no worker processes.", "quantifier": "all points at which interrupts can happen, and all numbers of passes and of workers they start", "why_tests_cant": "Interrupts can come at any point of runs of any length.", "anchors": ["crosshair/main.py: watch", "crosshair/watcher.py: Watcher.__init__, Pool.terminate"]}
