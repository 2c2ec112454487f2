{
 "claims": [
  {
   "property": "C01",
   "status": "proved",
   "theorems": [
    "Verif.Search.confirmed_covers_every_input",
    "Verif.Search.confirmed_excludes_failures",
    "Verif.Search.runs_deterministic",
    "Verif.Search.cap_does_not_prevent_confirmed"
   ],
   "note": "For every schedule of iterations, draws, solver answers and timeouts. Hypotheses: `unsat` answers are right, and what follows detach_path is uniform (DetachUniform). cap_does_not_prevent_confirmed records that cap_result_at_unknown is forgotten by later iterations."
  },
  {
   "property": "C02",
   "status": "proved",
   "theorems": [
    "Verif.Search.refuted_is_real"
   ],
   "note": "Also: every reported message comes from the run of a concrete input."
  },
  {
   "property": "C03",
   "status": "proved",
   "theorems": [
    "Verif.Search.iterations_never_repeat",
    "Verif.Search.search_never_stuck",
    "Verif.Search.finished_parts_never_change"
   ],
   "note": "Programs that call detach_path while handling UnknownSatisfiability (Action.abort) are excluded from iterations_never_repeat: those paths are not recorded."
  },
  {
   "property": "C04",
   "status": "proved",
   "theorems": [
    "Verif.Search.exploration_terminates",
    "Verif.Search.confirmed_only_when_exhausted"
   ],
   "note": ""
  },
  {
   "property": "C05",
   "status": "proved",
   "theorems": [
    "Verif.Search.merge_takes_worst",
    "Verif.Search.worst_comm",
    "Verif.Search.worst_assoc",
    "Verif.Search.merge_exhausted",
    "Verif.Search.merge_messages",
    "Verif.Search.merge_failing_precondition",
    "Verif.Search.fork_status"
   ],
   "note": ""
  },
  {
   "property": "C06",
   "status": "proved",
   "theorems": [
    "Verif.Search.parallel_status_justified",
    "Verif.Search.parallel_finished_decides",
    "Verif.Search.parallel_second_decides",
    "Verif.Search.parallel_ignored_hides_refuted"
   ],
   "note": "parallel_ignored_hides_refuted records that a strategy whose paths were all ignored also decides."
  },
  {
   "property": "C07",
   "status": "partial",
   "theorems": [
    "Verif.Search.different_question_detected",
    "Verif.Search.fork_for_question_detected",
    "Verif.Search.question_for_fork_detected",
    "Verif.Search.realize_for_question_detected",
    "Verif.Search.deterministic_never_flagged",
    "Verif.Search.different_realization_undetected",
    "Verif.Search.early_end_undetected"
   ],
   "note": "Proved for questions and forks; the code does not detect a different realized expression or an early end (negations proved)."
  },
  {
   "property": "C08",
   "status": "proved",
   "theorems": [
    "Verif.Search.calltree_verdict",
    "Verif.Search.confirmed_only_when_exhausted",
    "Verif.Search.preUnsat_no_confirmed_path",
    "Verif.Search.preUnsat_after_timeout"
   ],
   "note": "preUnsat_after_timeout records that PRE_UNSAT is also reported when every path timed out."
  },
  {
   "property": "C09",
   "status": "proved",
   "theorems": [
    "Verif.Report.state_order",
    "Verif.Report.keyLt_preferred",
    "Verif.Report.collect_best",
    "Verif.Report.collect_order_irrelevant"
   ],
   "note": "All message sequences."
  },
  {
   "property": "C10",
   "status": "proved",
   "theorems": [
    "Verif.Report.check_exit",
    "Verif.Report.check_prints",
    "Verif.Report.verdicts_exit",
    "Verif.Report.clamp_places"
   ],
   "note": "All targets and messages; both output forms."
  },
  {
   "property": "C100",
   "status": "partial",
   "theorems": [
    "Verif.Codec.encode_exact_partial",
    "Verif.Codec.sequence_unique",
    "Verif.Codec.round_trip",
    "Verif.Codec.round_trip_back",
    "Verif.Codec.surrogates_encoded"
   ],
   "note": "All strings of Unicode scalar values; round trips for all strings and all byte strings. Surrogates are encoded where Python raises (negation proved)."
  },
  {
   "property": "C101",
   "status": "partial",
   "theorems": [
    "Verif.Codec.well_formed_decoded",
    "Verif.Codec.strict_exact_partial",
    "Verif.Codec.strict_error_partial",
    "Verif.Codec.surrogates_decoded",
    "Verif.Codec.error_end"
   ],
   "note": "All well-formed byte strings are decoded; others are refused if they contain no encoded surrogate. Encoded surrogates are decoded, and errors end one byte after their start (negations proved)."
  },
  {
   "property": "C102",
   "status": "partial",
   "theorems": [
    "Verif.Codec.bytewise_exact_partial",
    "Verif.Codec.replace_partial",
    "Verif.Codec.lenient_total",
    "Verif.Codec.replace_doubles",
    "Verif.Codec.surrogates_not_ignored"
   ],
   "note": "All byte strings without encoded surrogates and all handlers that replace each byte; for 'replace' if malformed parts are single bytes (negations proved otherwise)."
  },
  {
   "property": "C103",
   "status": "partial",
   "theorems": [
    "Verif.Codec.ascii_encode_strict",
    "Verif.Codec.latin1_encode_strict",
    "Verif.Codec.ascii_encode_charwise",
    "Verif.Codec.latin1_encode_charwise",
    "Verif.Codec.ascii_decode_bytewise",
    "Verif.Codec.latin1_decode",
    "Verif.Codec.ascii_decode_strict",
    "Verif.Codec.encode_error_end"
   ],
   "note": "All strings, byte strings, and handlers that replace each character. The end of an encoding error is that of its first character (negation proved)."
  },
  {
   "property": "C104",
   "status": "partial",
   "theorems": [
    "Verif.Codec.incremental_keeps_partial",
    "Verif.Codec.latin1_incremental",
    "Verif.Codec.one_at_a_time",
    "Verif.Codec.nothing_crashes",
    "Verif.Codec.errors_swallowed"
   ],
   "note": "Nothing is lost between output and buffer, for all cuts; Latin-1 is exact. The UTF-8 decoder gives one character at a time, raises IndexError for nothing, and no errors where it should (negations proved)."
  },
  {
   "property": "C105",
   "status": "proved",
   "theorems": [
    "Verif.Arrays.dict_real",
    "Verif.Arrays.dict_all",
    "Verif.Arrays.dict_described",
    "Verif.Arrays.dict_abandoned"
   ],
   "note": "All runs of questions with any number of iterators, under every interpretation of the solver's variables."
  },
  {
   "property": "C106",
   "status": "proved",
   "theorems": [
    "Verif.Arrays.set_real",
    "Verif.Arrays.set_all",
    "Verif.Arrays.set_described",
    "Verif.Arrays.set_abandoned"
   ],
   "note": "All runs of questions with any number of iterators, under every interpretation of the solver's variables."
  },
  {
   "property": "C107",
   "status": "proved",
   "theorems": [
    "Verif.Arrays.dict_eq_symbolic",
    "Verif.Arrays.dict_unify",
    "Verif.Arrays.set_eq_symbolic",
    "Verif.Arrays.set_unify",
    "Verif.Arrays.tuple_unify"
   ],
   "note": "All dictionaries, sets and tuples of values that have a sort of their own. Equality of symbolic tuples is in C108."
  },
  {
   "property": "C108",
   "status": "partial",
   "theorems": [
    "Verif.Arrays.tuple_all",
    "Verif.Arrays.tuple_len",
    "Verif.Arrays.tuple_get",
    "Verif.Arrays.tuple_slice_partial",
    "Verif.Arrays.tuple_step_dropped",
    "Verif.Arrays.tuple_not_reversed",
    "Verif.Arrays.tuple_eq",
    "Verif.Arrays.tuple_eq_symbolic_partial",
    "Verif.Arrays.tuple_eq_beyond_end",
    "Verif.Arrays.tuple_order",
    "Verif.Arrays.tuple_contains",
    "Verif.Arrays.tuple_index",
    "Verif.Arrays.tuple_mul"
   ],
   "note": "All tuples. Steps of slices are dropped, and equal symbolic tuples can be found different (negations proved)."
  },
  {
   "property": "C109",
   "status": "proved",
   "theorems": [
    "Verif.Heap.find_again",
    "Verif.Heap.find_apart",
    "Verif.Heap.is_iff",
    "Verif.Heap.find_new",
    "Verif.Heap.two_types_two_objects"
   ],
   "note": "All histories. The same reference taken as two types that do not unify gives two objects (proved as a disagreement)."
  },
  {
   "property": "C11",
   "status": "proved",
   "theorems": [
    "Verif.Report.merge_exact",
    "Verif.Report.watch_display",
    "Verif.Report.watchLimit_exact"
   ],
   "note": "All histories of merges; restarting is C71."
  },
  {
   "property": "C110",
   "status": "partial",
   "theorems": [
    "Verif.Heap.checkpoint_copies",
    "Verif.Heap.old_kept_partial",
    "Verif.Heap.original_shares",
    "Verif.Heap.old_value_changed",
    "Verif.Heap.first_old_lookup_live"
   ],
   "note": "Objects known before the checkpoint are kept for lookups through the older snapshot. But the original arguments use the same heap as the copies given to the call (negations proved)."
  },
  {
   "property": "C111",
   "status": "partial",
   "theorems": [
    "Verif.Match.group_exact_partial",
    "Verif.Match.group_whole",
    "Verif.Match.group_many_partial",
    "Verif.Match.groups_exact",
    "Verif.Match.span_exact_partial",
    "Verif.Match.group_past_end",
    "Verif.Match.lastindex_partial",
    "Verif.Match.group_negative",
    "Verif.Match.group_unknown_name",
    "Verif.Match.start_unmatched",
    "Verif.Match.start_name",
    "Verif.Match.groupdict_spans",
    "Verif.Match.lastindex_none",
    "Verif.Match.lastindex_nested",
    "Verif.Match.lastgroup_other"
   ],
   "note": "All matches, for numbers and names of existing groups. Positions only of groups that took part and by number; groupdict, lastindex and lastgroup differ from Python (negations proved)."
  },
  {
   "property": "C112",
   "status": "partial",
   "theorems": [
    "Verif.Match.expand_exact_partial",
    "Verif.Match.expand_plain",
    "Verif.Match.expand_unmatched",
    "Verif.Match.expand_newline",
    "Verif.Match.expand_escapes",
    "Verif.Match.expand_octal"
   ],
   "note": "All templates of text and references without line feeds, if the groups took part; line feeds, other escapes, octal characters and groups that did not take part differ from Python (negations proved)."
  },
  {
   "property": "C113",
   "status": "proved",
   "theorems": [
    "Verif.Kinds.implies_lazy",
    "Verif.Kinds.implies_refused",
    "Verif.Kinds.implies_keywords_dropped"
   ],
   "note": "All expressions; the value and the order of evaluation. Keyword arguments of implies are dropped (recorded)."
  },
  {
   "property": "C114",
   "status": "partial",
   "theorems": [
    "Verif.Kinds.asserts_exact_partial",
    "Verif.Kinds.asserts_others",
    "Verif.Kinds.asserts_none",
    "Verif.Kinds.asserts_last",
    "Verif.Kinds.asserts_recursion_hidden",
    "Verif.Kinds.asserts_same_name_hidden"
   ],
   "note": "All bodies whose statements are on lines of their own, and tracebacks in which no function of that name and file is called further in; recursion, methods of the same name, and functions of assertions alone differ (negations proved)."
  },
  {
   "property": "C115",
   "status": "proved",
   "theorems": [
    "Verif.Kinds.icontract_pre",
    "Verif.Kinds.icontract_short"
   ],
   "note": "All groups, for contracts that do not raise."
  },
  {
   "property": "C116",
   "status": "partial",
   "theorems": [
    "Verif.Kinds.deal_args_partial",
    "Verif.Kinds.deal_keyword_only",
    "Verif.Kinds.deal_varargs"
   ],
   "note": "All parameters that may be given by position; keyword-only parameters make every call fail and *args are nested (negations proved)."
  },
  {
   "property": "C117",
   "status": "partial",
   "theorems": [
    "Verif.Kinds.registered_stays",
    "Verif.Kinds.refused_unchanged",
    "Verif.Kinds.registered_pre_args_partial",
    "Verif.Kinds.registered_post_args_partial",
    "Verif.Kinds.registered_optional"
   ],
   "note": "All histories; arguments for conditions without optional parameters, for which it fails (negation proved)."
  },
  {
   "property": "C118",
   "status": "partial",
   "theorems": [
    "Verif.Ops.fanout_first",
    "Verif.Ops.subscript_exact_partial",
    "Verif.Ops.index_exact_partial",
    "Verif.Ops.index_float",
    "Verif.Ops.index_negative_zero",
    "Verif.Ops.slice_exact_partial",
    "Verif.Ops.slice_aliased"
   ],
   "note": "All containers, integer keys and interpretations, if symbolics stand for exactly the values (not -0.0 as a real), and slices while the list is unchanged; float keys and later changes differ (negations proved)."
  },
  {
   "property": "C119",
   "status": "partial",
   "theorems": [
    "Verif.Ops.build_string_partial",
    "Verif.Ops.build_string_lost",
    "Verif.Ops.format_exact_partial",
    "Verif.Ops.format_conversion_spec",
    "Verif.Ops.format_ascii"
   ],
   "note": "Up to 255 pieces; fields without conversion, or with !s or !r and no specification. The rest differs from Python (negations proved)."
  },
  {
   "property": "C12",
   "status": "proved",
   "theorems": [
    "Verif.Watch.check_records",
    "Verif.Watch.check_notices",
    "Verif.Watch.check_exact",
    "Verif.Watch.listed_twice_always_changed"
   ],
   "note": "No change is missed even if files are listed twice; but then every check reports a change (negation proved for overlapping paths)."
  },
  {
   "property": "C120",
   "status": "proved",
   "theorems": [
    "Verif.Ops.dict_comprehension",
    "Verif.Ops.set_comprehension"
   ],
   "note": "All sequences of additions and stacks; keys whose equality is an equivalence."
  },
  {
   "property": "C121",
   "status": "proved",
   "theorems": [
    "Verif.Ops.not_exact",
    "Verif.Ops.is_exact"
   ],
   "note": "All operands."
  },
  {
   "property": "C122",
   "status": "partial",
   "theorems": [
    "Verif.Stubs.rewrite_union",
    "Verif.Stubs.rewrite_same",
    "Verif.Stubs.rewrite_noBar",
    "Verif.Stubs.rewrite_literal",
    "Verif.Stubs.rewrite_quoted_bracket"
   ],
   "note": "All annotations without bars, brackets or commas between quotes; string literals with those are corrupted or raise (negations proved)."
  },
  {
   "property": "C123",
   "status": "partial",
   "theorems": [
    "Verif.Stubs.found_declared",
    "Verif.Stubs.declared_found_partial",
    "Verif.Stubs.invalid_reported",
    "Verif.Stubs.skipped_valid"
   ],
   "note": "All stubs; completeness if conditions mention sys. and can be evaluated and no function is async (otherwise signatures are missing although marked valid: negation proved)."
  },
  {
   "property": "C124",
   "status": "partial",
   "theorems": [
    "Verif.Callbacks.callbacks_exact_partial",
    "Verif.Callbacks.ran_at_own_position",
    "Verif.Callbacks.stale_runs",
    "Verif.Callbacks.stale_hides"
   ],
   "note": "All executions in which no instruction with a callback raises; after such an exception the callback is not dropped and runs later, or hides another (negations proved)."
  },
  {
   "property": "C125",
   "status": "proved",
   "theorems": [
    "Verif.Decimal.comparisons",
    "Verif.Decimal.comparisons_with_nans"
   ],
   "note": ""
  },
  {
   "property": "C126",
   "status": "proved",
   "theorems": [
    "Verif.Decimal.unary_plus",
    "Verif.Decimal.unary_minus",
    "Verif.Decimal.absolute_value",
    "Verif.Decimal.nan_operand",
    "Verif.Decimal.trapped",
    "Verif.Decimal.IsResult.unique"
   ],
   "note": ""
  },
  {
   "property": "C127",
   "status": "proved",
   "theorems": [
    "Verif.Decimal.addition",
    "Verif.Decimal.subtraction",
    "Verif.Decimal.infinite_sums",
    "Verif.Decimal.nan_operands",
    "Verif.Decimal.trapped"
   ],
   "note": ""
  },
  {
   "property": "C128",
   "status": "proved",
   "theorems": [
    "Verif.Decimal.multiplication",
    "Verif.Decimal.fused_multiply_add",
    "Verif.Decimal.infinite_products",
    "Verif.Decimal.commutative",
    "Verif.Decimal.nan_operands"
   ],
   "note": ""
  },
  {
   "property": "C129",
   "status": "proved",
   "theorems": [
    "Verif.Decimal.division",
    "Verif.Decimal.division_by_zero",
    "Verif.Decimal.infinite_products",
    "Verif.Decimal.nan_operands"
   ],
   "note": ""
  },
  {
   "property": "C13",
   "status": "partial",
   "theorems": [
    "Verif.Watch.pool_bounded",
    "Verif.Watch.pool_conserves",
    "Verif.Watch.pool_results",
    "Verif.Watch.pool_idle",
    "Verif.Watch.garden_busy",
    "Verif.Watch.garden_kills",
    "Verif.Watch.terminate_partial",
    "Verif.Watch.terminate_leaves_starting",
    "Verif.Watch.no_processes_never_finishes"
   ],
   "note": "All schedules of submissions, process starts, exits, gardening, termination and collection. Termination misses workers whose process does not exist yet, and on a machine with one processor the pool never runs anything (both proved)."
  },
  {
   "property": "C130",
   "status": "proved",
   "theorems": [
    "Verif.Decimal.integer_division",
    "Verif.Decimal.remainder_nearest",
    "Verif.Decimal.division_by_zero",
    "Verif.Decimal.infinite_products",
    "Verif.Decimal.infinite_modulus",
    "Verif.Decimal.nan_operands"
   ],
   "note": ""
  },
  {
   "property": "C131",
   "status": "proved",
   "theorems": [
    "Verif.Decimal.to_integers",
    "Verif.Decimal.to_integral",
    "Verif.Decimal.quantizing",
    "Verif.Decimal.nan_operands"
   ],
   "note": ""
  },
  {
   "property": "C132",
   "status": "proved",
   "theorems": [
    "Verif.DecimalMore.square_root",
    "Verif.DecimalMore.square_root_other",
    "Verif.DecimalMore.nan_operand"
   ],
   "note": ""
  },
  {
   "property": "C133",
   "status": "proved",
   "theorems": [
    "Verif.DecimalMore.hash_equal",
    "Verif.DecimalMore.hash_integer"
   ],
   "note": ""
  },
  {
   "property": "C134",
   "status": "proved",
   "theorems": [
    "Verif.DecimalMore.integer_ratio"
   ],
   "note": ""
  },
  {
   "property": "C135",
   "status": "proved",
   "theorems": [
    "Verif.DecimalMore.normalizing",
    "Verif.DecimalMore.normal_form",
    "Verif.DecimalMore.nan_operand"
   ],
   "note": ""
  },
  {
   "property": "C136",
   "status": "proved",
   "theorems": [
    "Verif.DecimalMore.total_order",
    "Verif.DecimalMore.total_order_strict"
   ],
   "note": ""
  },
  {
   "property": "C137",
   "status": "partial",
   "theorems": [
    "Verif.DecimalMore.next_plus_number",
    "Verif.DecimalMore.next_minus_number",
    "Verif.DecimalMore.next_infinite",
    "Verif.DecimalMore.next_plus_signals",
    "Verif.DecimalMore.nan_operand"
   ],
   "note": "The numbers are as stated, but signals are raised where the specification has none (next_plus_signals): with the traps of the default context the neighbour of the largest number is an exception. Missing is only that no signal is raised, which is false."
  },
  {
   "property": "C138",
   "status": "proved",
   "theorems": [
    "Verif.DecimalMore.text_round_trip",
    "Verif.DecimalMore.eng_round_trip",
    "Verif.DecimalMore.text_form",
    "Verif.DecimalMore.parse_form"
   ],
   "note": "Text without spaces around it, underscores and digits outside ASCII."
  },
  {
   "property": "C139",
   "status": "partial",
   "theorems": [
    "Verif.Numeric.int_arithmetic",
    "Verif.Numeric.int_arithmetic_symbolic",
    "Verif.Numeric.int_pow_partial",
    "Verif.Numeric.int_pow_negative"
   ],
   "note": "Proved but for ** with negative exponents, where the code gives an integer instead of a float (int_pow_negative)."
  },
  {
   "property": "C14",
   "status": "proved",
   "theorems": [
    "Verif.Ints.floordiv_mod_agree",
    "Verif.Ints.divmod_determined"
   ],
   "note": ""
  },
  {
   "property": "C140",
   "status": "proved",
   "theorems": [
    "Verif.Numeric.float_arithmetic",
    "Verif.Numeric.divmod_constraints"
   ],
   "note": "Real-based floats; the sign of zero is not modelled."
  },
  {
   "property": "C141",
   "status": "partial",
   "theorems": [
    "Verif.Numeric.pow_base_partial",
    "Verif.Numeric.pow_infinite"
   ],
   "note": "Proved for NaN and plus infinity as the base. For other operands the code takes the sign for the number and gives wrong results (pow_infinite)."
  },
  {
   "property": "C142",
   "status": "partial",
   "theorems": [
    "Verif.Numeric.int_comparisons",
    "Verif.Numeric.float_comparisons_partial",
    "Verif.Numeric.ieee_comparisons",
    "Verif.Numeric.big_int_equal",
    "Verif.Numeric.big_int_overflow"
   ],
   "note": "Proved for integers of any size, for floats with native integers up to 2**53, and for IEEE floats. Larger native integers are rounded or raise OverflowError when compared with a symbolic float (big_int_equal, big_int_overflow)."
  },
  {
   "property": "C143",
   "status": "proved",
   "theorems": [
    "Verif.Numeric.bitwise",
    "Verif.Numeric.bool_bitwise",
    "Verif.Numeric.float_bitwise"
   ],
   "note": ""
  },
  {
   "property": "C144",
   "status": "proved",
   "theorems": [
    "Verif.Numeric.rounding",
    "Verif.Numeric.round_half_even",
    "Verif.Numeric.round_digits",
    "Verif.Numeric.unary"
   ],
   "note": "Real-based floats."
  },
  {
   "property": "C145",
   "status": "partial",
   "theorems": [
    "Verif.Numeric.ieee_arithmetic",
    "Verif.Numeric.ieee_comparisons",
    "Verif.Numeric.ieee_floordiv_partial",
    "Verif.Numeric.ieee_floordiv_infinite",
    "Verif.Numeric.ieee_mod_partial",
    "Verif.Numeric.ieee_mod_nearest"
   ],
   "note": "Proved for + - * / and the comparisons. // is the floor of the rounded quotient, so it is proved for exact quotients of finite floats and false for infinities (ieee_floordiv_infinite); % is the remainder of the nearest quotient, proved where that is the floor and false elsewhere (ieee_mod_nearest)."
  },
  {
   "property": "C146",
   "status": "partial",
   "theorems": [
    "Verif.Numeric.copysign_partial",
    "Verif.Numeric.classification",
    "Verif.Numeric.makeFloat_complete",
    "Verif.Numeric.copysign_kind"
   ],
   "note": "Proved but for copysign of an integer, whose result is an integer instead of a float (copysign_kind)."
  },
  {
   "property": "C147",
   "status": "proved",
   "theorems": [
    "Verif.Buffers.case_methods",
    "Verif.Buffers.case_laws",
    "Verif.Buffers.lstrip_spec",
    "Verif.Buffers.rstrip_spec",
    "Verif.Buffers.strip_spec",
    "Verif.Buffers.stripped_unique"
   ],
   "note": ""
  },
  {
   "property": "C148",
   "status": "partial",
   "theorems": [
    "Verif.Buffers.ordering_spec",
    "Verif.Buffers.equality_partial",
    "Verif.Buffers.addition_spec",
    "Verif.Buffers.right_addition_spec",
    "Verif.Buffers.search_int",
    "Verif.Buffers.bytes_equal_array",
    "Verif.Buffers.bytearray_add_wide"
   ],
   "note": "Ordering and + proved; == but for bytes and arrays, which the code considers comparable (bytes_equal_array). Arrays of wider numbers are left out (bytearray_add_wide)."
  },
  {
   "property": "C149",
   "status": "partial",
   "theorems": [
    "Verif.Buffers.buffers_history_partial",
    "Verif.Buffers.readonly_write",
    "Verif.Buffers.view_write_outside",
    "Verif.Buffers.view_slice_open",
    "Verif.Buffers.view_slice_negative",
    "Verif.Buffers.view_slice_outside",
    "Verif.Buffers.view_self_assignment",
    "Verif.Buffers.resize_with_view",
    "Verif.Buffers.extend_error"
   ],
   "note": "Proved for all histories whose operations fit: writes within a view, slices with explicit non-negative first bound, no resizing under a view. Outside of that the code is wrong in the ways shown by the other theorems."
  },
  {
   "property": "C15",
   "status": "proved",
   "theorems": [
    "Verif.Ints.lshift_bits",
    "Verif.Ints.rshift_bits",
    "Verif.Ints.invert_bits",
    "Verif.Ints.and_mask_bits",
    "Verif.Ints.and_mask_answers",
    "Verif.Ints.bit_length_spec",
    "Verif.Ints.bit_count_spec",
    "Verif.Ints.bits_determine"
   ],
   "note": "`|`, `^` and `&` with other masks realize both operands and are CPython's own."
  },
  {
   "property": "C150",
   "status": "partial",
   "theorems": [
    "Verif.Buffers.copies_stay_partial",
    "Verif.Buffers.tobytes_changes",
    "Verif.Buffers.extend_view_changes"
   ],
   "note": "Proved for copies of bytes and bytearrays. Copies of memoryviews stay connected to the object (tobytes_changes, extend_view_changes)."
  },
  {
   "property": "C151",
   "status": "partial",
   "theorems": [
    "Verif.Buffers.reads_bytes_partial",
    "Verif.Buffers.failure_changes_nothing",
    "Verif.Buffers.bytearray_unchecked"
   ],
   "note": "Proved but for bytearray([...]), which does not check its argument (bytearray_unchecked)."
  },
  {
   "property": "C152",
   "status": "proved",
   "theorems": [
    "Verif.Explore.exhausted_accounts",
    "Verif.Explore.exhausted_covers"
   ],
   "note": ""
  },
  {
   "property": "C153",
   "status": "proved",
   "theorems": [
    "Verif.Explore.found_are_real",
    "Verif.Explore.paths_never_repeat",
    "Verif.Explore.exploring_never_fails",
    "Verif.Explore.stops_for_a_reason",
    "Verif.Explore.small_programs_are_exhausted"
   ],
   "note": ""
  },
  {
   "property": "C154",
   "status": "partial",
   "theorems": [
    "Verif.Explore.exhausted_half",
    "Verif.Explore.likely_the_same_partial",
    "Verif.Explore.half_rounds",
    "Verif.Explore.exhausted_although_cut_short",
    "Verif.Explore.exhausted_although_untold",
    "Verif.Explore.exhausted_although_half",
    "Verif.Explore.one_iteration_is_none"
   ],
   "note": "Proved when no path was cut short, comparing and describing do not fail, and for the signature whose half was exhausted. Without these the claim is false of the code, as the other theorems show."
  },
  {
   "property": "C155",
   "status": "proved",
   "theorems": [
    "Verif.Explore.differences_are_real",
    "Verif.Explore.report_from_halves"
   ],
   "note": ""
  },
  {
   "property": "C156",
   "status": "partial",
   "theorems": [
    "Verif.Explore.search_example_is_real_partial",
    "Verif.Explore.search_finds_all",
    "Verif.Explore.search_reports_an_ignored_path"
   ],
   "note": "The call either returned or its path was one to be ignored: the code takes the latter for a success (search_reports_an_ignored_path)."
  },
  {
   "property": "C157",
   "status": "partial",
   "theorems": [
    "Verif.DateText.date_roundtrip",
    "Verif.DateText.date_reading",
    "Verif.DateText.dates_read_exactly_partial",
    "Verif.DateText.date_reads_a_sign"
   ],
   "note": "That nothing else is read is proved for texts without plus signs, underscores, white space and non-ASCII characters; with them it is false of the code (date_reads_a_sign)."
  },
  {
   "property": "C158",
   "status": "partial",
   "theorems": [
    "Verif.DateText.time_roundtrip",
    "Verif.DateText.time_reading",
    "Verif.DateText.times_read_exactly_partial",
    "Verif.DateText.time_reads_two_signs"
   ],
   "note": "That nothing else is read is proved for plain texts with at most one sign; for others it is false of the code (time_reads_two_signs)."
  },
  {
   "property": "C159",
   "status": "partial",
   "theorems": [
    "Verif.DateText.stamp_roundtrip",
    "Verif.DateText.stamp_reading",
    "Verif.DateText.stamps_read_exactly_partial",
    "Verif.DateText.short_text_is_index_error",
    "Verif.DateText.cut_texts_are_read"
   ],
   "note": "That nothing else is read is proved for texts of 10 or at least 12 plain characters; short texts raise IndexError or are read although cut off."
  },
  {
   "property": "C16",
   "status": "proved",
   "theorems": [
    "Verif.Ints.round_spec",
    "Verif.Ints.rounded_determined"
   ],
   "note": ""
  },
  {
   "property": "C160",
   "status": "proved",
   "theorems": [
    "Verif.DateText.date_texts_sort",
    "Verif.DateText.time_texts_sort",
    "Verif.DateText.stamp_texts_sort"
   ],
   "note": ""
  },
  {
   "property": "C161",
   "status": "proved",
   "theorems": [
    "Verif.DateText.duration_texts",
    "Verif.DateText.zone_names"
   ],
   "note": ""
  },
  {
   "property": "C162",
   "status": "partial",
   "theorems": [
    "Verif.Repro.call_text_evaluates_partial",
    "Verif.Repro.unshared_call_text_evaluates_partial",
    "Verif.Repro.keyword_text_is_no_python",
    "Verif.Repro.dict_text_is_no_python",
    "Verif.Repro.single_tuple_text_is_no_tuple"
   ],
   "note": "Proved unless a tuple has one part, or a shared object first appears as a keyword argument or in a dictionary; in these cases it is false of the code."
  },
  {
   "property": "C163",
   "status": "proved",
   "theorems": [
    "Verif.Repro.variables_assigned_once_before_use",
    "Verif.Repro.variables_in_order"
   ],
   "note": ""
  },
  {
   "property": "C164",
   "status": "partial",
   "theorems": [
    "Verif.Repro.written_arguments_bind_back_partial",
    "Verif.Repro.default_before_varargs_is_no_python"
   ],
   "note": "Proved unless extra positional arguments follow a parameter with a default; then it is false of the code."
  },
  {
   "property": "C165",
   "status": "partial",
   "theorems": [
    "Verif.Repro.result_text_evaluates_partial",
    "Verif.Repro.value_text_evaluates_partial",
    "Verif.Repro.shared_result_text_is_empty"
   ],
   "note": "Proved when the result shares no object with the arguments (and within the limits of C162); otherwise it is false of the code."
  },
  {
   "property": "C166",
   "status": "partial",
   "theorems": [
    "Verif.Repro.dictionary_text_evaluates_partial",
    "Verif.Repro.shared_arguments_dictionary"
   ],
   "note": "Proved when no shared object first appears as an argument or in a dictionary (and within the limits of C162); otherwise it is false of the code."
  },
  {
   "property": "C167",
   "status": "proved",
   "theorems": [
    "Verif.Zones.astimezone_fixed",
    "Verif.Zones.astimezone_standard",
    "Verif.Zones.astimezone_local",
    "Verif.Zones.astimezone_naive"
   ],
   "note": ""
  },
  {
   "property": "C168",
   "status": "proved",
   "theorems": [
    "Verif.Zones.timestamp_aware",
    "Verif.Zones.fromtimestamp_fixed",
    "Verif.Zones.timestamp_roundtrip",
    "Verif.Zones.utcfromtimestamp_nearest"
   ],
   "note": ""
  },
  {
   "property": "C169",
   "status": "proved",
   "theorems": [
    "Verif.Zones.timestamp_naive"
   ],
   "note": ""
  },
  {
   "property": "C17",
   "status": "proved",
   "theorems": [
    "Verif.Ints.to_bytes_overflow_iff",
    "Verif.Ints.to_bytes_value",
    "Verif.Ints.bytes_roundtrip",
    "Verif.Ints.bytes_roundtrip_back",
    "Verif.Ints.to_bytes_zero_length_signed",
    "Verif.Ints.to_bytes_unknown_order"
   ],
   "note": "Two disagreements with CPython are proved as such: zero bytes with signed=True always overflow, and to_bytes accepts unknown byte orders."
  },
  {
   "property": "C170",
   "status": "proved",
   "theorems": [
    "Verif.Zones.fromtimestamp_naive",
    "Verif.Zones.naive_roundtrip"
   ],
   "note": ""
  },
  {
   "property": "C171",
   "status": "proved",
   "theorems": [
    "Verif.Zones.equality",
    "Verif.Zones.ordering"
   ],
   "note": ""
  },
  {
   "property": "C172",
   "status": "partial",
   "theorems": [
    "Verif.Zones.equal_moments_hash_alike",
    "Verif.Zones.equal_times_hash_alike_partial",
    "Verif.Zones.time_hash_fails"
   ],
   "note": "Proved for moments; for times of day if offsets are of whole minutes, otherwise the hash of the code fails."
  },
  {
   "property": "C173",
   "status": "proved",
   "theorems": [
    "Verif.Zones.combine_parts",
    "Verif.Zones.replace_fields"
   ],
   "note": ""
  },
  {
   "property": "C174",
   "status": "proved",
   "theorems": [
    "Verif.Zones.timetuple_fields",
    "Verif.Zones.utctimetuple_fields"
   ],
   "note": ""
  },
  {
   "property": "C175",
   "status": "proved",
   "theorems": [
    "Verif.DecimalDigits.logical_operations",
    "Verif.DecimalDigits.logical_inversion",
    "Verif.DecimalDigits.logical_invalid"
   ],
   "note": ""
  },
  {
   "property": "C176",
   "status": "proved",
   "theorems": [
    "Verif.DecimalDigits.shifting",
    "Verif.DecimalDigits.rotation",
    "Verif.DecimalDigits.scaling",
    "Verif.DecimalDigits.shift_limits"
   ],
   "note": ""
  },
  {
   "property": "C177",
   "status": "proved",
   "theorems": [
    "Verif.DecimalDigits.exponent"
   ],
   "note": ""
  },
  {
   "property": "C178",
   "status": "proved",
   "theorems": [
    "Verif.DecimalDigits.classes"
   ],
   "note": ""
  },
  {
   "property": "C179",
   "status": "proved",
   "theorems": [
    "Verif.DecimalDigits.extremes",
    "Verif.DecimalDigits.extremes_of_magnitude",
    "Verif.DecimalDigits.extremes_nan"
   ],
   "note": ""
  },
  {
   "property": "C18",
   "status": "proved",
   "theorems": [
    "Verif.Ints.repr_spec",
    "Verif.Ints.numeral_determined",
    "Verif.Ints.symbolic_repr_agrees",
    "Verif.Ints.repr_injective",
    "Verif.Ints.parse_digits",
    "Verif.Ints.parse_nondigits",
    "Verif.Ints.parse_repr",
    "Verif.Ints.parse_drops_base"
   ],
   "note": "parse_drops_base: int(text, base) on a symbolic text with a bad digit falls back to base ten."
  },
  {
   "property": "C180",
   "status": "partial",
   "theorems": [
    "Verif.DecimalDigits.next_toward_partial",
    "Verif.DecimalDigits.next_toward_signals"
   ],
   "note": "Values and the required signals are proved; the code also signals Inexact and Rounded for ordinary neighbours."
  },
  {
   "property": "C181",
   "status": "proved",
   "theorems": [
    "Verif.DecimalDigits.to_integral_exact"
   ],
   "note": ""
  },
  {
   "property": "C182",
   "status": "proved",
   "theorems": [
    "Verif.DecimalDigits.compare_numbers",
    "Verif.DecimalDigits.compare_nans",
    "Verif.DecimalDigits.total_order_of_magnitudes",
    "Verif.DecimalDigits.same_quantum",
    "Verif.DecimalDigits.copy_sign"
   ],
   "note": ""
  },
  {
   "property": "C183",
   "status": "proved",
   "theorems": [
    "Verif.DecimalDigits.integers",
    "Verif.DecimalDigits.even_integers",
    "Verif.DecimalDigits.significant_digits"
   ],
   "note": ""
  },
  {
   "property": "C184",
   "status": "proved",
   "theorems": [
    "Verif.Analyze.function_checks"
   ],
   "note": ""
  },
  {
   "property": "C185",
   "status": "proved",
   "theorems": [
    "Verif.Analyze.class_checks_only",
    "Verif.Analyze.class_checks_all"
   ],
   "note": "With the exception of invariants on constructors (C187)."
  },
  {
   "property": "C186",
   "status": "proved",
   "theorems": [
    "Verif.Analyze.inherited_checked"
   ],
   "note": ""
  },
  {
   "property": "C187",
   "status": "partial",
   "theorems": [
    "Verif.Analyze.init_invariants_partial",
    "Verif.Analyze.init_invariants_checked"
   ],
   "note": "They are checked after all if the constructor has another condition."
  },
  {
   "property": "C188",
   "status": "partial",
   "theorems": [
    "Verif.Analyze.function_checks",
    "Verif.Analyze.method_kind_ignored"
   ],
   "note": "Obeyed for functions; for methods the kinds chosen for the class are used."
  },
  {
   "property": "C189",
   "status": "proved",
   "theorems": [
    "Verif.Analyze.module_checks",
    "Verif.Analyze.module_order_exists"
   ],
   "note": ""
  },
  {
   "property": "C19",
   "status": "proved",
   "theorems": [
    "Verif.Ints.bounded_int_sound",
    "Verif.Ints.decided_lt_remembered",
    "Verif.Ints.bounded_neg"
   ],
   "note": ""
  },
  {
   "property": "C190",
   "status": "partial",
   "theorems": [
    "Verif.Analyze.message_place_partial",
    "Verif.Analyze.line_after_function"
   ],
   "note": "The line after the function counts as inside."
  },
  {
   "property": "C191",
   "status": "partial",
   "theorems": [
    "Verif.Analyze.callable_signature",
    "Verif.Analyze.callable_none",
    "Verif.Analyze.callable_crash"
   ],
   "note": "Fails for functions without parameters in a class."
  },
  {
   "property": "C192",
   "status": "proved",
   "theorems": [
    "Verif.Analyze.patch_keeps"
   ],
   "note": ""
  },
  {
   "property": "C193",
   "status": "partial",
   "theorems": [
    "Verif.Analyze.names_partial",
    "Verif.Analyze.names_shadowed"
   ],
   "note": "Fails for closure variables with the name of a global variable."
  },
  {
   "property": "C194",
   "status": "proved",
   "theorems": [
    "Verif.Inputs.arguments",
    "Verif.Inputs.variables_distinct"
   ],
   "note": ""
  },
  {
   "property": "C195",
   "status": "proved",
   "theorems": [
    "Verif.Inputs.enum_choice",
    "Verif.Inputs.typed_dict_keys"
   ],
   "note": ""
  },
  {
   "property": "C196",
   "status": "partial",
   "theorems": [
    "Verif.Inputs.immutable_partial",
    "Verif.Inputs.tuple_hides_mutable"
   ],
   "note": "Instances of ordinary classes within tuples are overlooked."
  },
  {
   "property": "C197",
   "status": "proved",
   "theorems": [
    "Verif.Inputs.modules_restored"
   ],
   "note": ""
  },
  {
   "property": "C198",
   "status": "partial",
   "theorems": [
    "Verif.Oracles.uninteresting_partial",
    "Verif.Oracles.detached_ignored"
   ],
   "note": "Decisions after detaching count if no decision comes right before; numbers of expressions must not be reused."
  },
  {
   "property": "C199",
   "status": "partial",
   "theorems": [
    "Verif.Oracles.conditions_recorded_partial",
    "Verif.Oracles.bias_partial",
    "Verif.Oracles.number_reused"
   ],
   "note": "As long as addresses of expressions are not used again: the table keeps addresses of expressions that it does not keep alive."
  },
  {
   "property": "C20",
   "status": "proved",
   "theorems": [
    "Verif.Seq.lazy_len",
    "Verif.Seq.lazy_get",
    "Verif.Seq.lazy_iter",
    "Verif.Seq.lazy_slice",
    "Verif.Seq.lazy_slice_elements",
    "Verif.Seq.lazy_concat",
    "Verif.Seq.lazy_view",
    "Verif.Seq.lazy_eq",
    "Verif.Seq.lazy_contains",
    "Verif.Seq.lazy_mul"
   ],
   "note": "Concrete lists, tuples, concatenations and views nested in any way. compose_slices and offset_slice are not used by these classes and not modelled."
  },
  {
   "property": "C200",
   "status": "partial",
   "theorems": [
    "Verif.Oracles.probabilities",
    "Verif.Oracles.certainty_partial",
    "Verif.Oracles.certainty_overridden"
   ],
   "note": "Preferred constraints override certainty."
  },
  {
   "property": "C201",
   "status": "proved",
   "theorems": [
    "Verif.Oracles.breadth_first"
   ],
   "note": ""
  },
  {
   "property": "C202",
   "status": "proved",
   "theorems": [
    "Verif.Oracles.preferred_kept"
   ],
   "note": ""
  },
  {
   "property": "C203",
   "status": "proved",
   "theorems": [
    "Verif.Oracles.rotation"
   ],
   "note": ""
  },
  {
   "property": "C204",
   "status": "partial",
   "theorems": [
    "Verif.Differential.comparable_partial",
    "Verif.Differential.deep_function",
    "Verif.Differential.key_function"
   ],
   "note": "Functions in keys of dictionaries or more than three containers deep are overlooked."
  },
  {
   "property": "C205",
   "status": "proved",
   "theorems": [
    "Verif.Differential.standin_type"
   ],
   "note": ""
  },
  {
   "property": "C206",
   "status": "proved",
   "theorems": [
    "Verif.Differential.summary",
    "Verif.Differential.arguments_apart"
   ],
   "note": ""
  },
  {
   "property": "C207",
   "status": "proved",
   "theorems": [
    "Verif.Differential.differential",
    "Verif.Differential.pinned_result"
   ],
   "note": ""
  },
  {
   "property": "C208",
   "status": "proved",
   "theorems": [
    "Verif.Pep316.function_conditions",
    "Verif.Pep316.builtin_conditions"
   ],
   "note": ""
  },
  {
   "property": "C209",
   "status": "partial",
   "theorems": [
    "Verif.Pep316.syntax_errors",
    "Verif.Pep316.class_invariants_partial",
    "Verif.Pep316.invariant_dropped"
   ],
   "note": "Proved for functions; for classes, complaints about sections are dropped."
  },
  {
   "property": "C21",
   "status": "proved",
   "theorems": [
    "Verif.Seq.shell_history",
    "Verif.Seq.shell_history_lazy"
   ],
   "note": "sort (CPython's own sorted) and in-place `*=` (which makes a new shell) are not in the histories. Sharing is modelled by several shells in one store."
  },
  {
   "property": "C210",
   "status": "proved",
   "theorems": [
    "Verif.Pep316.names_in_conditions"
   ],
   "note": ""
  },
  {
   "property": "C211",
   "status": "partial",
   "theorems": [
    "Verif.Pep316.mutable_arguments_partial",
    "Verif.Pep316.blank_before_dot",
    "Verif.Pep316.blank_brackets"
   ],
   "note": "As long as no blank comes before a dot; blank entries give an argument without a name."
  },
  {
   "property": "C212",
   "status": "partial",
   "theorems": [
    "Verif.Pep316.declared_exceptions_partial",
    "Verif.Pep316.next_line_taken"
   ],
   "note": "As long as no line is just the word raises."
  },
  {
   "property": "C213",
   "status": "proved",
   "theorems": [
    "Verif.DecimalFunctions.exponential",
    "Verif.DecimalFunctions.exponential_special",
    "Verif.DecimalFunctions.function_nan"
   ],
   "note": ""
  },
  {
   "property": "C214",
   "status": "proved",
   "theorems": [
    "Verif.DecimalFunctions.natural_logarithm",
    "Verif.DecimalFunctions.natural_logarithm_special",
    "Verif.DecimalFunctions.decimal_logarithm",
    "Verif.DecimalFunctions.decimal_logarithm_power",
    "Verif.DecimalFunctions.decimal_logarithm_special",
    "Verif.DecimalFunctions.function_nan"
   ],
   "note": ""
  },
  {
   "property": "C215",
   "status": "proved",
   "theorems": [
    "Verif.DecimalFunctions.log_ten_digits"
   ],
   "note": ""
  },
  {
   "property": "C216",
   "status": "proved",
   "theorems": [
    "Verif.DecimalFunctions.nearest_quotient",
    "Verif.DecimalFunctions.nearest_root",
    "Verif.DecimalFunctions.shift_exactly"
   ],
   "note": ""
  },
  {
   "property": "C217",
   "status": "proved",
   "theorems": [
    "Verif.DecimalFunctions.logarithm_approximations",
    "Verif.DecimalFunctions.exponential_approximation"
   ],
   "note": "For exp, three digits at least, as its callers ask for."
  },
  {
   "property": "C218",
   "status": "partial",
   "theorems": [
    "Verif.CaseMaps.upper_casefold",
    "Verif.CaseMaps.lower_partial",
    "Verif.CaseMaps.swapcase_partial",
    "Verif.CaseMaps.title_partial",
    "Verif.CaseMaps.capitalize_partial",
    "Verif.CaseMaps.final_sigma_lost"
   ],
   "note": "Final sigma is not modelled by the code (disagreement proved); without it, all six methods are Python's."
  },
  {
   "property": "C219",
   "status": "proved",
   "theorems": [
    "Verif.CaseMaps.tests_hold",
    "Verif.CaseMaps.tests_exist"
   ],
   "note": ""
  },
  {
   "property": "C22",
   "status": "proved",
   "theorems": [
    "Verif.Range.range_created",
    "Verif.Range.range_iter",
    "Verif.Range.range_len",
    "Verif.Range.range_bool",
    "Verif.Range.range_get",
    "Verif.Range.range_contains",
    "Verif.Range.range_index",
    "Verif.Range.range_eq",
    "Verif.Range.range_reversed"
   ],
   "note": "Slices of ranges are realized first (CPython's own)."
  },
  {
   "property": "C220",
   "status": "proved",
   "theorems": [
    "Verif.CaseMaps.told_exactly",
    "Verif.CaseMaps.requests_served",
    "Verif.CaseMaps.consistent"
   ],
   "note": ""
  },
  {
   "property": "C221",
   "status": "partial",
   "theorems": [
    "Verif.CaseMaps.translate_partial",
    "Verif.CaseMaps.lookup_error_escapes"
   ],
   "note": "A LookupError that is neither KeyError nor IndexError escapes (disagreement proved)."
  },
  {
   "property": "C222",
   "status": "proved",
   "theorems": [
    "Verif.CaseMaps.numbers_of_characters"
   ],
   "note": "The fraction that limit_denominator finds for numeric is taken from Python."
  },
  {
   "property": "C223",
   "status": "partial",
   "theorems": [
    "Verif.Proxies.made_belongs_partial",
    "Verif.Proxies.empty_tuple_filled",
    "Verif.Proxies.binary_stream_is_text"
   ],
   "note": "Tuple[()] on Python 3.11 or newer and IO[bytes] are excluded: for them it is false (disagreements proved)."
  },
  {
   "property": "C224",
   "status": "partial",
   "theorems": [
    "Verif.Proxies.every_value_made_partial",
    "Verif.Proxies.sequence_never_list",
    "Verif.Proxies.entry_never_derived"
   ],
   "note": "Sequence and classes as types of entries of typed dictionaries are excluded: for them it is false (disagreements proved)."
  },
  {
   "property": "C225",
   "status": "partial",
   "theorems": [
    "Verif.Proxies.inputs_free_partial",
    "Verif.Proxies.inputs_free_plain",
    "Verif.Proxies.keys_share_variables",
    "Verif.Proxies.parameters_share_variable"
   ],
   "note": "Keys that begin with other keys and parameters named like parts of others are excluded: for them it is false (disagreements proved)."
  },
  {
   "property": "C226",
   "status": "partial",
   "theorems": [
    "Verif.Registry.registry_exact_partial",
    "Verif.Registry.holds_one",
    "Verif.Registry.shared_list_grows",
    "Verif.Registry.own_list_changes"
   ],
   "note": "Lists that are passed more than once are excluded: for them it is false, and lists that are passed change (disagreements proved)."
  },
  {
   "property": "C227",
   "status": "partial",
   "theorems": [
    "Verif.Registry.contract_stays",
    "Verif.Registry.lookup_repeats",
    "Verif.Registry.lookup_blocks_registration"
   ],
   "note": "All sequences. That the order does not matter is false (disagreement proved): a lookup blocks a later registration."
  },
  {
   "property": "C228",
   "status": "partial",
   "theorems": [
    "Verif.Registry.automatic_only_partial",
    "Verif.Registry.automatic_always_partial"
   ],
   "note": "All sequences in which each list is passed at most once."
  },
  {
   "property": "C229",
   "status": "partial",
   "theorems": [
    "Verif.Editor.unsaved_unmarked_partial",
    "Verif.Editor.publish_race",
    "Verif.Editor.forget_race",
    "Verif.Editor.restart_race"
   ],
   "note": "Proved when nothing happens in the editor while the analysis publishes or starts again; for other schedules it is false (disagreements proved)."
  },
  {
   "property": "C23",
   "status": "partial",
   "theorems": [
    "Verif.Maps.shell_map_history",
    "Verif.Maps.shell_map_keeps_inner",
    "Verif.Maps.simple_dict_set",
    "Verif.Maps.simple_dict_del",
    "Verif.Maps.simple_dict_popitem",
    "Verif.Maps.map_eq_iff",
    "Verif.Maps.copy_keeps_items",
    "Verif.Maps.copy_fresh_partial",
    "Verif.Maps.copy_wrong_length",
    "Verif.Maps.or_items",
    "Verif.Maps.ror_swapped",
    "Verif.Maps.overwrite_moves_key",
    "Verif.Maps.reversed_repeats",
    "Verif.Maps.reversed_partial",
    "Verif.Maps.symbolic_dict_iter"
   ],
   "note": "Histories of get, set, delete, len, bool, iteration, items, pop, popitem, setdefault, update, clear and == are proved in full. `copy` keeps the contents but forgets the length after mutations (negation proved), so len and pop on such copies are wrong."
  },
  {
   "property": "C230",
   "status": "partial",
   "theorems": [
    "Verif.Editor.marks_exact_partial",
    "Verif.Editor.publish_ends",
    "Verif.Editor.nameless_file_ends"
   ],
   "note": "As for C229. A message without an absolute file name ends the analysis for good (disagreement proved)."
  },
  {
   "property": "C231",
   "status": "partial",
   "theorems": [
    "Verif.Editor.mark_covers_partial",
    "Verif.Editor.wide_characters",
    "Verif.Editor.line_zero"
   ],
   "note": "For lines that exist and have only characters below 65536; otherwise false (disagreements proved)."
  },
  {
   "property": "C232",
   "status": "partial",
   "theorems": [
    "Verif.Floats.real_exact",
    "Verif.Floats.real_round_digits_partial",
    "Verif.Floats.many_digits",
    "Verif.Floats.few_digits",
    "Verif.Floats.float_digits",
    "Verif.Floats.ratio_exact"
   ],
   "note": "Rounding to digits is proved for integers n for which 10**n is read exactly; otherwise it is false (disagreements proved)."
  },
  {
   "property": "C233",
   "status": "partial",
   "theorems": [
    "Verif.Floats.int_float_partial",
    "Verif.Floats.huge_integer",
    "Verif.Floats.ieee_exact",
    "Verif.Floats.ieee_is_integer_partial",
    "Verif.Floats.is_integer_infinite",
    "Verif.Floats.floor_is_float",
    "Verif.Floats.round_large",
    "Verif.Floats.round_twice"
   ],
   "note": "Correct rounding of integers is proved for all integers; too large ones become infinity instead of an error. Rounding to a number of digits other than 0 is false (disagreements proved)."
  },
  {
   "property": "C234",
   "status": "partial",
   "theorems": [
    "Verif.Floats.real_text_partial",
    "Verif.Floats.ieee_text_partial",
    "Verif.Floats.text_rounded_twice",
    "Verif.Floats.long_fraction"
   ],
   "note": "Real numbers: when powers of ten are read exactly. IEEE floats: texts without fraction, or with an integer part 0 and at most 15 digits; false in general (disagreements proved)."
  },
  {
   "property": "C235",
   "status": "partial",
   "theorems": [
    "Verif.Calls.callee_replaced_partial",
    "Verif.Calls.many_arguments",
    "Verif.Calls.keywords_kept",
    "Verif.Calls.keyword_other"
   ],
   "note": "For less than 256 arguments; with more it is false (disagreement proved)."
  },
  {
   "property": "C236",
   "status": "partial",
   "theorems": [
    "Verif.Calls.call_replaced_partial",
    "Verif.Calls.instruction_replaced_partial",
    "Verif.Calls.super_method",
    "Verif.Calls.instance_call",
    "Verif.Calls.none_method"
   ],
   "note": "For objects whose class has the built-in method under its name and that do not hide __call__; false for methods obtained from super(), objects with an own __call__, and methods of None (disagreements proved)."
  },
  {
   "property": "C237",
   "status": "proved",
   "theorems": [
    "Verif.Depths.depth_correct",
    "Verif.Depths.marking_ends",
    "Verif.Depths.only_reached",
    "Verif.Depths.range_entered_late"
   ],
   "note": "What the compiler makes sure of is a hypothesis (Compiled). Without it, for a range of exceptions that is not entered at its start, no depth is found in the handler (proved, too)."
  },
  {
   "property": "C238",
   "status": "partial",
   "theorems": [
    "Verif.Depths.flagged_partial",
    "Verif.Depths.prefixed_not_traced"
   ],
   "note": "For instructions without prefix; instructions with large arguments are not flagged (disagreement proved)."
  },
  {
   "property": "C239",
   "status": "proved",
   "theorems": [
    "Verif.Depths.cache_transparent",
    "Verif.Depths.cache_bounded"
   ],
   "note": "Codes are compared by identity; entries keep them alive."
  },
  {
   "property": "C24",
   "status": "partial",
   "theorems": [
    "Verif.Sets.set_history_partial",
    "Verif.Sets.tree_is_set",
    "Verif.Sets.tree_elements",
    "Verif.Sets.difference_aliases",
    "Verif.Sets.difference_not_python",
    "Verif.Sets.self_reference",
    "Verif.Sets.union_aliases"
   ],
   "note": "Histories over any number of sets with every operator, method and comparison are proved, except `a - b` with a mutable b, which keeps b by reference, and union/difference/intersection without arguments, which return the set itself: both negations are proved."
  },
  {
   "property": "C240",
   "status": "proved",
   "theorems": [
    "Verif.Bounds.path_exact",
    "Verif.Bounds.bounds_right",
    "Verif.Bounds.objects_right",
    "Verif.Bounds.shortcut_right",
    "Verif.Bounds.decision_answered"
   ],
   "note": "Comparisons with constants by < and >; other comparisons do not use bounds."
  },
  {
   "property": "C241",
   "status": "partial",
   "theorems": [
    "Verif.Lazy.call_results",
    "Verif.Lazy.shown_behaves_partial",
    "Verif.Lazy.shown_text"
   ],
   "note": "False for a single value whose str is not its repr, like a text (disagreement proved)."
  },
  {
   "property": "C242",
   "status": "partial",
   "theorems": [
    "Verif.Lazy.copy_behaves_partial",
    "Verif.Lazy.copy_used_up",
    "Verif.Lazy.eq_behaves_partial",
    "Verif.Lazy.eq_moved",
    "Verif.Lazy.eq_copy"
   ],
   "note": "Copying fails when all values are used, and the comparison does not look at the position of the other function (disagreements proved)."
  },
  {
   "property": "C243",
   "status": "partial",
   "theorems": [
    "Verif.Lazy.deepcopy_keeps_partial",
    "Verif.Lazy.deepcopy_undecided"
   ],
   "note": "If the type was decided before; otherwise the copy is the object itself (disagreement proved)."
  },
  {
   "property": "C244",
   "status": "proved",
   "theorems": [
    "Verif.DecimalFormat.specifier_read",
    "Verif.DecimalFormat.specifier_rejected",
    "Verif.DecimalFormat.specifier_unambiguous"
   ],
   "note": "Digits in specifiers are ASCII in the model."
  },
  {
   "property": "C245",
   "status": "proved",
   "theorems": [
    "Verif.DecimalFormat.digits_separated",
    "Verif.DecimalFormat.grouping_deterministic"
   ],
   "note": "For the forms of groupings that a locale can have."
  },
  {
   "property": "C246",
   "status": "proved",
   "theorems": [
    "Verif.DecimalFormat.number_shown",
    "Verif.DecimalFormat.special_shown"
   ],
   "note": "The exponent is not limited by the machine in the model."
  },
  {
   "property": "C247",
   "status": "proved",
   "theorems": [
    "Verif.DecimalFormat.format_plain"
   ],
   "note": ""
  },
  {
   "property": "C248",
   "status": "proved",
   "theorems": [
    "Verif.Passes.nothing_stale"
   ],
   "note": ""
  },
  {
   "property": "C249",
   "status": "partial",
   "theorems": [
    "Verif.Passes.shown_once",
    "Verif.Passes.pass_complete_partial",
    "Verif.Passes.result_missed"
   ],
   "note": "At most once is proved for all histories. A result that comes in between the last look at the queue and the removal of ended workers is not given out in the pass (negation proved)."
  },
  {
   "property": "C25",
   "status": "proved",
   "theorems": [
    "Verif.Seq.seqLt_iff",
    "Verif.Seq.seqLe_iff",
    "Verif.Seq.seqGt_iff",
    "Verif.Seq.seqGe_iff",
    "Verif.Seq.seqLt_strict_total",
    "Verif.Seq.strCmp_spec"
   ],
   "note": ""
  },
  {
   "property": "C250",
   "status": "partial",
   "theorems": [
    "Verif.Passes.oldest_first",
    "Verif.Passes.newest_last"
   ],
   "note": "Every file is handed out, with the right time limit; but the oldest are started first, since the pool takes work from the back of the list (negation proved)."
  },
  {
   "property": "C251",
   "status": "proved",
   "theorems": [
    "Verif.Passes.checks_apart",
    "Verif.Passes.change_ends_pass",
    "Verif.Passes.shutdown_ends"
   ],
   "note": "The two readings of the clock in one check are taken to be the same."
  },
  {
   "property": "C252",
   "status": "partial",
   "theorems": [
    "Verif.Passes.result_arrives_partial",
    "Verif.Passes.unfinished_line_loses_result"
   ],
   "note": "Pickling and compression are parameters. Holds if the text printed ends with the end of a line; otherwise the result is lost (negation proved)."
  },
  {
   "property": "C253",
   "status": "proved",
   "theorems": [
    "Verif.DateRepr.delta_repr_eval",
    "Verif.DateRepr.date_repr_eval",
    "Verif.DateRepr.zone_repr_eval",
    "Verif.DateRepr.time_repr_eval",
    "Verif.DateRepr.stamp_repr_eval",
    "Verif.DateRepr.quotes_exist"
   ],
   "note": "Reading is a specification of the subset of Python expressions needed; quoting of texts is a parameter (any quoting that can be read back). Subclasses and zones other than `timezone` are not modelled."
  },
  {
   "property": "C254",
   "status": "proved",
   "theorems": [
    "Verif.DateRepr.ctime_text",
    "Verif.DateRepr.ctime_determines"
   ],
   "note": ""
  },
  {
   "property": "C255",
   "status": "proved",
   "theorems": [
    "Verif.DateRepr.strftime_text"
   ],
   "note": "The system's `strftime` is a parameter that expands directives of one character."
  },
  {
   "property": "C256",
   "status": "partial",
   "theorems": [
    "Verif.Wrappers.same_as_replaced_partial",
    "Verif.Wrappers.filterfalse_none",
    "Verif.Wrappers.groupby_none",
    "Verif.Wrappers.accumulate_none"
   ],
   "note": "All functions and arguments left out; with `None` as the function `filterfalse`, `groupby` and `accumulate` fail under analysis (negation proved). Items are taken all at once; keyword names of parameters are not modelled."
  },
  {
   "property": "C257",
   "status": "proved",
   "theorems": [
    "Verif.Wrappers.filters_documented",
    "Verif.Wrappers.groupby_documented",
    "Verif.Wrappers.accumulate_documented"
   ],
   "note": "The functions of the standard library are modelled by their loops."
  },
  {
   "property": "C258",
   "status": "partial",
   "theorems": [
    "Verif.Wrappers.cache_skipped_partial",
    "Verif.Wrappers.cache_effects",
    "Verif.Wrappers.cache_keys"
   ],
   "note": "Holds if results depend only on the key of the arguments. Functions with effects on their results, or that tell apart arguments with equal keys (`1` and `1.0`), give other results (negations proved)."
  },
  {
   "property": "C259",
   "status": "partial",
   "theorems": [
    "Verif.Wrappers.partial_same_partial",
    "Verif.Wrappers.partial_arguments",
    "Verif.Wrappers.partial_func_keyword"
   ],
   "note": "A keyword named `func` is a `TypeError` under analysis (negation proved)."
  },
  {
   "property": "C26",
   "status": "partial",
   "theorems": [
    "Verif.Strs.find_python_partial",
    "Verif.Strs.rfind_python_partial",
    "Verif.Strs.isFind_unique",
    "Verif.Strs.contains_python",
    "Verif.Strs.partition_python",
    "Verif.Strs.rpartition_python",
    "Verif.Strs.find_low_start",
    "Verif.Strs.find_low_end"
   ],
   "note": "find/rfind proved for all strings and for bounds not below minus the length; below, the code is wrong (negations proved). partition, rpartition and `in` are proved in full. index/rindex only raise when find is -1."
  },
  {
   "property": "C260",
   "status": "partial",
   "theorems": [
    "Verif.Wrappers.inplace_same_partial",
    "Verif.Wrappers.inplace_identity",
    "Verif.Wrappers.other_variable_changes"
   ],
   "note": "Holds if no other variable shares the proxy when the operator gives a new object; otherwise that variable changes too (negation proved)."
  },
  {
   "property": "C261",
   "status": "proved",
   "theorems": [
    "Verif.DecimalMake.triple_round_trip",
    "Verif.DecimalMake.triple_value",
    "Verif.DecimalMake.triple_accepted"
   ],
   "note": "Triples with a list in the second place; booleans count as integers."
  },
  {
   "property": "C262",
   "status": "proved",
   "theorems": [
    "Verif.DecimalMake.from_int",
    "Verif.DecimalMake.from_float"
   ],
   "note": "A float is given by its sign and the ratio of integers of its magnitude."
  },
  {
   "property": "C263",
   "status": "proved",
   "theorems": [
    "Verif.DecimalMake.compare_rational",
    "Verif.DecimalMake.compare_float",
    "Verif.DecimalMake.compare_special"
   ],
   "note": "With NaNs, the operands stay NaNs, for which the comparisons are proved in the area Decimal (C125). Whether `FloatOperation` is trapped is not modelled."
  },
  {
   "property": "C264",
   "status": "proved",
   "theorems": [
    "Verif.DecimalMake.power_modulo",
    "Verif.DecimalMake.power_modulo_invalid"
   ],
   "note": "Operands that are NaNs are modelled but no theorem is stated for them."
  },
  {
   "property": "C265",
   "status": "proved",
   "theorems": [
    "Verif.DecimalMake.create_number",
    "Verif.DecimalMake.create_invalid"
   ],
   "note": "The characters that `strip` removes are a parameter."
  },
  {
   "property": "C266",
   "status": "partial",
   "theorems": [
    "Verif.DateInputs.dates_made",
    "Verif.DateInputs.timedeltas_made",
    "Verif.DateInputs.times_made",
    "Verif.DateInputs.timezones_made_partial",
    "Verif.DateInputs.timezones_missed",
    "Verif.DateInputs.datetimes_made_partial",
    "Verif.DateInputs.datetimes_missed"
   ],
   "note": "Time zones with the largest offsets or without a name, and moments with fold=1, are never tried; the disagreements are proved."
  },
  {
   "property": "C267",
   "status": "proved",
   "theorems": [
    "Verif.DateInputs.dates_made",
    "Verif.DateInputs.timedelta_realized"
   ],
   "note": "Floats are modelled by any rounding with relative error at most 2^-53; the real constructor's treatment of a float of milliseconds follows CPython."
  },
  {
   "property": "C268",
   "status": "partial",
   "theorems": [
    "Verif.DateInputs.replace_date_partial",
    "Verif.DateInputs.replace_date_none",
    "Verif.DateInputs.replace_time_partial",
    "Verif.DateInputs.replace_time_none"
   ],
   "note": "None for a field and True for tzinfo are accepted where Python raises TypeError; the disagreements are proved. For times the kind of error is not stated."
  },
  {
   "property": "C269",
   "status": "partial",
   "theorems": [
    "Verif.Keys.get_partial",
    "Verif.Keys.history_partial",
    "Verif.Keys.python_determined",
    "Verif.Keys.nan_stored_twice",
    "Verif.Keys.unhashable_accepted"
   ],
   "note": "Assignments and deletions of keys that are not equal to themselves, and keys like a tuple that holds a list, are handled otherwise than in Python; the disagreements are proved. Lookups are right for NaN too."
  },
  {
   "property": "C27",
   "status": "proved",
   "theorems": [
    "Verif.Strs.split_python",
    "Verif.Strs.rsplit_python",
    "Verif.Strs.split_join",
    "Verif.Strs.rsplit_join",
    "Verif.Strs.replace_python",
    "Verif.Strs.replace_empty_python",
    "Verif.Strs.replace_same",
    "Verif.Strs.isSplit_unique",
    "Verif.Strs.isRsplit_unique"
   ],
   "note": "Splitting with a separator; whitespace splitting is C61."
  },
  {
   "property": "C270",
   "status": "partial",
   "theorems": [
    "Verif.Keys.map_eq_partial",
    "Verif.Keys.nan_unequal"
   ],
   "note": "For keys and values equal to themselves; the disagreement for NaN is proved."
  },
  {
   "property": "C271",
   "status": "partial",
   "theorems": [
    "Verif.Keys.shell_set_partial",
    "Verif.Keys.shell_del_partial",
    "Verif.Keys.shell_set_len",
    "Verif.Keys.shell_nan"
   ],
   "note": "For keys equal to themselves; the disagreement for NaN is proved. The checks that keys are hashable are left out."
  },
  {
   "property": "C272",
   "status": "partial",
   "theorems": [
    "Verif.Keys.set_contains_partial",
    "Verif.Keys.set_made",
    "Verif.Keys.set_nan_missed"
   ],
   "note": "Membership for elements equal to themselves; the disagreement for NaN is proved. Making sets is right for NaN too."
  },
  {
   "property": "C273",
   "status": "partial",
   "theorems": [
    "Verif.Cover.names_of_function",
    "Verif.Cover.names_partial",
    "Verif.Cover.names_hidden"
   ],
   "note": "For the tests of one function always; for several functions if no name is that of another with a number. The disagreement for `f` and `f_2` is proved."
  },
  {
   "property": "C274",
   "status": "proved",
   "theorems": [
    "Verif.Cover.tests_in_order",
    "Verif.Cover.tests_pass"
   ],
   "note": "Values are compared by their texts, and what a pattern matches is a parameter; the rendering of tests as lines is left out."
  },
  {
   "property": "C275",
   "status": "partial",
   "theorems": [
    "Verif.Cover.imports_partial",
    "Verif.Cover.imports_needed",
    "Verif.Cover.imports_clash",
    "Verif.Cover.exception_not_imported"
   ],
   "note": "For names in arguments and results, if the same name is not from two modules; the disagreements for such names and for the classes of exceptions are proved. The order of the import statements is left out."
  },
  {
   "property": "C276",
   "status": "proved",
   "theorems": [
    "Verif.Cover.functions_found",
    "Verif.Cover.cover_exit"
   ],
   "note": "For the format PYTEST; the messages on the error stream are left out."
  },
  {
   "property": "C277",
   "status": "proved",
   "theorems": [
    "Verif.Values.float_literal",
    "Verif.Values.float_literals_all"
   ],
   "note": "The texts are of ASCII digits without underscores, as the solver writes them; the bytes between pack and unpack are left out."
  },
  {
   "property": "C278",
   "status": "partial",
   "theorems": [
    "Verif.Values.rational_nearest",
    "Verif.Values.rational_exact_partial",
    "Verif.Values.irrational_near",
    "Verif.Values.real_rounded",
    "Verif.Values.real_too_large"
   ],
   "note": "The nearest float always; the number itself only if it is a float. The disagreements for other numbers and for numbers above all floats are proved. What `approx` guarantees is a hypothesis."
  },
  {
   "property": "C279",
   "status": "partial",
   "theorems": [
    "Verif.Values.sequence_items_partial",
    "Verif.Values.sequence_error",
    "Verif.Values.sequence_shape"
   ],
   "note": "For terms that are joined one by one from the right; other shapes, which the solver may not give, are proved to lose items."
  },
  {
   "property": "C28",
   "status": "proved",
   "theorems": [
    "Verif.Strs.startswith_python",
    "Verif.Strs.endswith_python",
    "Verif.Strs.affix_python",
    "Verif.Strs.affix_any",
    "Verif.Strs.remove_affix",
    "Verif.Strs.strip_python",
    "Verif.Strs.isLstrip_unique",
    "Verif.Strs.just_python",
    "Verif.Strs.center_python",
    "Verif.Strs.zfill_python"
   ],
   "note": ""
  },
  {
   "property": "C280",
   "status": "proved",
   "theorems": [
    "Verif.Cells.dictionary_by_identity",
    "Verif.Cells.dictionary_length"
   ],
   "note": "A process with a garbage collector that may free any object without references; references between objects are those of the program and of the dictionary."
  },
  {
   "property": "C281",
   "status": "proved",
   "theorems": [
    "Verif.Cells.scopes_of_threads"
   ],
   "note": "Scopes are left in the reverse order in each thread; generators that are suspended in a scope are left out. Values are not None."
  },
  {
   "property": "C282",
   "status": "proved",
   "theorems": [
    "Verif.Cells.memo_once",
    "Verif.Cells.memo_same"
   ],
   "note": "Arguments are compared by equality; calls do not overlap."
  },
  {
   "property": "C283",
   "status": "proved",
   "theorems": [
    "Verif.Cells.coverage_exact"
   ],
   "note": "That the interpreter reports offsets of instructions is a hypothesis."
  },
  {
   "property": "C284",
   "status": "partial",
   "theorems": [
    "Verif.Sources.lists_taken_partial",
    "Verif.Sources.indexed_taken_partial",
    "Verif.Sources.equal_sound",
    "Verif.Sources.tuple_taken_unequal",
    "Verif.Sources.iterator_taken",
    "Verif.Sources.bag_taken"
   ],
   "note": "All of it for lists; for tuples, texts and ranges all but comparisons, which then say unequal (disagreement). The disagreements for iterators (no length, items only once) and for objects that cannot be indexed are proved. Slices are left out here; they are in C20 and C21."
  },
  {
   "property": "C285",
   "status": "partial",
   "theorems": [
    "Verif.Aliases.aliases_partial",
    "Verif.Aliases.imul_new_list",
    "Verif.Aliases.mul_one_alias",
    "Verif.Aliases.add_other_kinds"
   ],
   "note": "If `+` is used with lists only, `*` not with 1, and `*=` only on lists with one variable. The disagreements for the other cases are proved. What is inside of lists is only their items here."
  },
  {
   "property": "C286",
   "status": "partial",
   "theorems": [
    "Verif.Protocols.len_partial",
    "Verif.Protocols.len_negative",
    "Verif.Protocols.len_of_instance",
    "Verif.Protocols.hash_partial",
    "Verif.Protocols.hash_raw",
    "Verif.Protocols.text_partial",
    "Verif.Protocols.repr_no_text",
    "Verif.Protocols.static_fails"
   ],
   "note": "With the exact condition for agreement, for objects without such attributes of their own and methods that are not static. The disagreements for the other cases are proved."
  },
  {
   "property": "C287",
   "status": "partial",
   "theorems": [
    "Verif.Protocols.isinstance_partial",
    "Verif.Protocols.claims_ignored",
    "Verif.Protocols.instance_check_ignored"
   ],
   "note": "Where `__class__` is the type of the object, and the classes' checks of objects and subclasses agree. The disagreements for the other cases are proved. Symbolic classes are in Verif.Types."
  },
  {
   "property": "C288",
   "status": "partial",
   "theorems": [
    "Verif.Protocols.sorted_partial",
    "Verif.Protocols.sorted_by_index"
   ],
   "note": "For classes with `__iter__`, which is called twice. Objects that are only read by index are a disagreement."
  },
  {
   "property": "C289",
   "status": "partial",
   "theorems": [
    "Verif.Protocols.attributes_partial",
    "Verif.Protocols.set_then_get",
    "Verif.Protocols.setattr_symbolic"
   ],
   "note": "For `setattr` with names that are not symbolic; symbolic names are a disagreement. Descriptors and slots are left out."
  },
  {
   "property": "C29",
   "status": "proved",
   "theorems": [
    "Verif.Strs.splitlines_python",
    "Verif.Strs.splitlines_join",
    "Verif.Strs.splitlines_clean",
    "Verif.Strs.isLines_unique"
   ],
   "note": "For any newline class."
  },
  {
   "property": "C290",
   "status": "partial",
   "theorems": [
    "Verif.Reflected.foreign_left",
    "Verif.Reflected.symbolic_left_partial",
    "Verif.Reflected.deferring",
    "Verif.Reflected.plain_objects",
    "Verif.Reflected.equal_to_all_is_not",
    "Verif.Reflected.change_hides_method",
    "Verif.Reflected.order_not_asked",
    "Verif.Reflected.radd_not_asked"
   ],
   "note": "In full with the foreign object on the left, and for objects that define nothing for the operation. With the symbolic value on the left, the exact condition is proved, and the disagreements for the kinds that do not ask the other operand."
  },
  {
   "property": "C291",
   "status": "partial",
   "theorems": [
    "Verif.TypedDicts.accepted_partial",
    "Verif.TypedDicts.binds_field",
    "Verif.TypedDicts.disagreement_nested_not_bound",
    "Verif.TypedDicts.disagreement_inconsistent",
    "Verif.TypedDicts.disagreement_refused"
   ],
   "note": "For types without type variables at any depth; a type variable as the type of a field is bound. Type variables in TypedDicts inside TypedDicts are lost (disagreements), so that inconsistent uses are accepted; and some types are refused, or are exceptions, that should be accepted."
  },
  {
   "property": "C292",
   "status": "partial",
   "theorems": [
    "Verif.Unbound.realized_args",
    "Verif.Unbound.checked_self_partial",
    "Verif.Unbound.symbolic_self",
    "Verif.Unbound.disagreement_subclass",
    "Verif.Unbound.disagreement_tuple",
    "Verif.Unbound.disagreement_none"
   ],
   "note": "Exact conditions for the wrappers, given that the symbolic methods do what Python's do (other properties). Disagreements: symbolic values in tuples, as in text.endswith((symbolic, ...)), symbolic bools for methods of int called through the class, and objects of other classes with symbolic arguments."
  },
  {
   "property": "C293",
   "status": "partial",
   "theorems": [
    "Verif.Formatting.format_iff",
    "Verif.Formatting.strFormat_partial",
    "Verif.Formatting.percent_texts",
    "Verif.Formatting.changes_are_lost",
    "Verif.Formatting.template_text_differs",
    "Verif.Formatting.returns_other"
   ],
   "note": "The exact condition for format; templates for methods that do not change the object and return texts; % gives Python's text always. Disagreements: changes to objects are lost as methods are called on copies, so that templates can give other texts, and format returns objects that are no texts."
  },
  {
   "property": "C294",
   "status": "partial",
   "theorems": [
    "Verif.TypedArrays.make_partial",
    "Verif.TypedArrays.run_partial",
    "Verif.TypedArrays.program_partial",
    "Verif.TypedArrays.accepted_in_range",
    "Verif.TypedArrays.input_valid",
    "Verif.TypedArrays.eq_partial",
    "Verif.TypedArrays.narrow_codes",
    "Verif.TypedArrays.assignment_unchecked",
    "Verif.TypedArrays.floats_taken",
    "Verif.TypedArrays.extend_prefix",
    "Verif.TypedArrays.tobytes_changes_eq"
   ],
   "note": "For type codes b B h H q Q and items in range where the code does not check; integers that are checked are never accepted out of range, for all codes. Disagreements: bounds too narrow for i I l L, unchecked assignment and insert, floats, extend with an exception, and equality after tobytes."
  },
  {
   "property": "C295",
   "status": "partial",
   "theorems": [
    "Verif.DefaultDicts.step_partial",
    "Verif.DefaultDicts.no_factory_partial",
    "Verif.DefaultDicts.items_partial",
    "Verif.DefaultDicts.contains_adds",
    "Verif.DefaultDicts.defaults_not_used",
    "Verif.DefaultDicts.popitem_partial",
    "Verif.DefaultDicts.popitem_first"
   ],
   "note": "For programs without popitem if there is no factory, and of d[k], d[k] = v, del d[k] and len with any factory; other operations for keys that are there. Disagreements: with a factory, in, get, pop and setdefault call it for keys that are not there; popitem takes the first entry."
  },
  {
   "property": "C296",
   "status": "partial",
   "theorems": [
    "Verif.Gcds.gcd_partial",
    "Verif.Gcds.python_unique",
    "Verif.Gcds.three_refused",
    "Verif.Gcds.floats_taken",
    "Verif.Gcds.none_taken"
   ],
   "note": "For up to two arguments that are no floats and no false objects. Disagreements: three or more integers are refused; floats, and None as a second argument, are taken."
  },
  {
   "property": "C297",
   "status": "partial",
   "theorems": [
    "Verif.Replays.replay_is_final",
    "Verif.Replays.reproduced_partial",
    "Verif.Replays.early_copies_suffice",
    "Verif.Replays.changed_twice"
   ],
   "note": "For programs that do not change returned lists. In general the replay is exactly an execution in which calls return the lists as they were at the end, so that changes are seen twice (disagreement); copies made when the functions return would suffice."
  },
  {
   "property": "C298",
   "status": "partial",
   "theorems": [
    "Verif.Evals.eval_partial",
    "Verif.Evals.globals_only_partial",
    "Verif.Evals.caller_hides",
    "Verif.Evals.assignment_elsewhere"
   ],
   "note": "If locals are given or globals are not; and with only globals, for expressions without assignments whose names are not local to the caller. Otherwise, with only globals, the caller's locals hide the globals and take the assignments (disagreement)."
  },
  {
   "property": "C299",
   "status": "partial",
   "theorems": [
    "Verif.DictGets.get_partial",
    "Verif.DictGets.get_unique_partial",
    "Verif.DictGets.keyword_taken",
    "Verif.DictGets.items_overridden",
    "Verif.DictGets.hashes_ignored"
   ],
   "note": "For the default by position, dictionaries whose items lists the entries, and keys with the hashes of the keys they equal. Otherwise keyword defaults are taken, overridden items lose entries and hashes are ignored (disagreements)."
  },
  {
   "property": "C30",
   "status": "partial",
   "theorems": [
    "Verif.Hex.hex_correct",
    "Verif.Hex.fromhex_correct",
    "Verif.Hex.hex_roundtrip",
    "Verif.Hex.hexSep_roundtrip",
    "Verif.Hex.hexSep_left",
    "Verif.Hex.hexSep_zero",
    "Verif.Hex.hexSep_right_partial",
    "Verif.Hex.hexSep_misplaced"
   ],
   "note": "Everything is proved except the placement of separators counted from the right with groups of three or more, where the code is wrong (negation proved)."
  },
  {
   "property": "C300",
   "status": "partial",
   "theorems": [
    "Verif.Plugins.plugin_partial",
    "Verif.Plugins.own_names_unseen",
    "Verif.Plugins.names_of_main"
   ],
   "note": "For plugins whose functions use no names that the plugins set and that share no names with main.py. Other functions raise NameError, or see the names of main.py (disagreements)."
  },
  {
   "property": "C301",
   "status": "proved",
   "theorems": [
    "Verif.SourceContext.context_correct",
    "Verif.SourceContext.marked_iff"
   ],
   "note": "Headings and colors are left out; linecache is modelled as the lines of the file."
  },
  {
   "property": "C302",
   "status": "partial",
   "theorems": [
    "Verif.Interrupts.interrupt_partial",
    "Verif.Interrupts.early_interrupt",
    "Verif.Interrupts.second_interrupt"
   ],
   "note": "For one interrupt after the watcher has been made and workers that have started their processes. Earlier interrupts end with UnboundLocalError, and second ones leave workers (disagreements)."
  },
  {
   "property": "C31",
   "status": "proved",
   "theorems": [
    "Verif.B64.chunks_keep_bits",
    "Verif.B64.encode_rfc",
    "Verif.B64.encode_wraps",
    "Verif.B64.encode_length",
    "Verif.B64.decode_exact",
    "Verif.B64.decode_encode",
    "Verif.B64.decode_skips",
    "Verif.B64.encode_decode"
   ],
   "note": "Any alphabet of 64 different characters; which texts are refused is C69."
  },
  {
   "property": "C32",
   "status": "partial",
   "theorems": [
    "Verif.Pack.parse_exact",
    "Verif.Pack.pack_layout_partial",
    "Verif.Pack.pack_size",
    "Verif.Pack.pack_roundtrip",
    "Verif.Pack.packInto_partial",
    "Verif.Pack.iterUnpack_chunks",
    "Verif.Pack.native_order_wrong",
    "Verif.Pack.unpack_accepts_long_buffer",
    "Verif.Pack.bool_and_char_arguments",
    "Verif.Pack.empty_format_refused",
    "Verif.Pack.packInto_grows",
    "Verif.Pack.iterUnpack_endless",
    "Verif.Pack.iterUnpack_leftover"
   ],
   "note": "Round trip for all formats and byte orders, exact layout for explicit byte orders. Native order is packed big-endian, long buffers are accepted, and other boundary cases differ (each negation proved). Floats and strings go to the real module and are parameters."
  },
  {
   "property": "C33",
   "status": "proved",
   "theorems": [
    "Verif.Wall.default_policy",
    "Verif.Wall.tokens_of_event",
    "Verif.Wall.allow_rules_apply",
    "Verif.Wall.reject_rules_apply",
    "Verif.Wall.unblock_allows",
    "Verif.Wall.unblock_leaves_others"
   ],
   "note": "All events, argument lists and rule lists; the rendering of arguments as text and the call stack test are parameters."
  },
  {
   "property": "C34",
   "status": "partial",
   "theorems": [
    "Verif.Wall.scopes_are_lexical",
    "Verif.Wall.engaged_wall_scopes",
    "Verif.Wall.enabled_before_engage",
    "Verif.Wall.late_rules_ignored"
   ],
   "note": "Proved for an engaged wall. An enabled scope before the wall is engaged leaves it switched off afterwards (negation proved)."
  },
  {
   "property": "C35",
   "status": "proved",
   "theorems": [
    "Verif.Opts.overlay_last",
    "Verif.Opts.overlay_assoc",
    "Verif.Opts.overlay_empty",
    "Verif.Opts.full_overlay_last",
    "Verif.Opts.full_overlay_overlay",
    "Verif.Opts.fromDict_exact",
    "Verif.Opts.effective_precedence"
   ],
   "note": "All option sets and values."
  },
  {
   "property": "C36",
   "status": "partial",
   "theorems": [
    "Verif.Opts.split_iterations_sum",
    "Verif.Opts.split_iterations_bounds_partial",
    "Verif.Opts.split_timeouts_bounds",
    "Verif.Opts.split_timeouts_sum",
    "Verif.Opts.split_no_timeout",
    "Verif.Opts.maxUninteresting_exact",
    "Verif.Opts.perPath_exact",
    "Verif.Opts.split_negative_iterations",
    "Verif.Opts.split_zero_priority"
   ],
   "note": "Iterations always add up. Bounds need a representable iteration count: with the default count and priority one the second stage gets -1, and an absent timeout becomes NaN at priority zero (negations proved). Floating point rounding is a parameter (monotone, keeps zero and one)."
  },
  {
   "property": "C37",
   "status": "proved",
   "theorems": [
    "Verif.Opts.parse_exact",
    "Verif.Opts.parseBool_exact",
    "Verif.Opts.parseKinds_exact",
    "Verif.Opts.collect_innermost",
    "Verif.Opts.effective_precedence"
   ],
   "note": "All directive texts; the whitespace test and the parsing of numbers are parameters. Finding comments in source text is Python's tokenizer and not modelled."
  },
  {
   "property": "C38",
   "status": "proved",
   "theorems": [
    "Verif.Contract.declared_conditions",
    "Verif.Contract.line_exists",
    "Verif.Contract.postconditions_accumulate",
    "Verif.Contract.preconditions_nearest",
    "Verif.Contract.preconditions_none",
    "Verif.Contract.raises_accumulate",
    "Verif.Contract.function_nearest",
    "Verif.Contract.mutable_nearest",
    "Verif.Contract.subclass_keeps",
    "Verif.Contract.second_base_dropped",
    "Verif.Contract.diamond_takes_wrong_function"
   ],
   "note": "All hierarchies, along the line of classes that the conditions are drawn from. With several bases only the leftmost base with conditions counts, and in a diamond the wrong function is taken (both proved)."
  },
  {
   "property": "C39",
   "status": "proved",
   "theorems": [
    "Verif.Doc.parse_exact",
    "Verif.Doc.found_in_line",
    "Verif.Doc.written_sections_are_read",
    "Verif.Doc.docstring_lines",
    "Verif.Doc.lines_before_skipped",
    "Verif.Doc.other_docstrings_ignored",
    "Verif.Doc.other_quotes_cut_docstring"
   ],
   "note": "All docstrings: the reading is exactly that of a separate grammar. Docstrings in single quotes or with a prefix other than r are ignored, and triple quotes of the other kind at the end of a line cut the docstring short (both proved). Compiling the expressions and Python's own parser are not modelled."
  },
  {
   "property": "C40",
   "status": "proved",
   "theorems": [
    "Verif.Enforce.enforcing_restored",
    "Verif.Enforce.runs_unique",
    "Verif.Enforce.unguarded_call",
    "Verif.Enforce.guarded_call",
    "Verif.Enforce.blame",
    "Verif.Enforce.enforcement_transparent",
    "Verif.Enforce.unknown_mutable_argument_blames_postcondition"
   ],
   "note": "All programs, with conditions that themselves call functions; the exact outcomes of every guarded call. A name in post[...] that is no parameter makes every call a postcondition failure (proved)."
  },
  {
   "property": "C41",
   "status": "proved",
   "theorems": [
    "Verif.Attempt.body_exception",
    "Verif.Attempt.confirmed_iff",
    "Verif.Attempt.refuted_means",
    "Verif.Attempt.failures_reported",
    "Verif.Attempt.unmet_precondition",
    "Verif.Attempt.expected_never_failure",
    "Verif.Attempt.suspected_typeError",
    "Verif.Attempt.raising_postcondition_confirms",
    "Verif.Attempt.raising_precondition_confirms",
    "Verif.Attempt.allowed_exception_hides_nondeterminism",
    "Verif.Attempt.comparison_exception_escapes"
   ],
   "note": "All paths, by the outcomes of the code they run. Allowed exceptions also excuse conditions that raise them, and hide nondeterminism; an exception while comparing arguments ends the analysis (proved)."
  },
  {
   "property": "C42",
   "status": "partial",
   "theorems": [
    "Verif.Deque.unbounded_history",
    "Verif.Deque.bounded_history_partial",
    "Verif.Deque.rotate_steps",
    "Verif.Deque.maxlen_exceeded",
    "Verif.Deque.append_to_zero"
   ],
   "note": "Full for deques without a bound, the only ones that are created symbolically: all histories over any number of deques and copies, with lists as shared mutable objects. With a bound, extend, extendleft, insert and * ignore it, and append fails at bound zero (negations proved)."
  },
  {
   "property": "C43",
   "status": "partial",
   "theorems": [
    "Verif.TextIO.stream_history_partial",
    "Verif.TextIO.plain_use",
    "Verif.TextIO.lines_cover",
    "Verif.TextIO.read_negative",
    "Verif.TextIO.readline_limit_absolute",
    "Verif.TextIO.readline_negative",
    "Verif.TextIO.readline_beyond_end",
    "Verif.TextIO.truncate_negative",
    "Verif.TextIO.getvalue_after_close"
   ],
   "note": "All histories in all newline modes that avoid negative amounts, limits of readline, readline beyond the end, and getvalue after close; in each of these the stream differs from Python's (negations proved)."
  },
  {
   "property": "C44",
   "status": "proved",
   "theorems": [
    "Verif.Clock.never_backwards",
    "Verif.Clock.first_reading",
    "Verif.Clock.real_explored",
    "Verif.Clock.negative_sleep_turns_back"
   ],
   "note": "All paths; also every real execution is explored. sleep accepts negative amounts, which Python rejects, and then time may run backwards (proved). Seconds are exact rationals."
  },
  {
   "property": "C45",
   "status": "partial",
   "theorems": [
    "Verif.Rand.copy_replays",
    "Verif.Rand.copy_same",
    "Verif.Rand.in_range_partial",
    "Verif.Rand.single_in_range",
    "Verif.Rand.replay_out_of_range",
    "Verif.Rand.replay_mixed",
    "Verif.Rand.replay_random_one",
    "Verif.Rand.reseeding_does_not_replay"
   ],
   "note": "Copies replay under every interleaving. Values are in range as long as sharing generators ask for the same at the same position; otherwise they need not be, and seeding has no effect (negations proved)."
  },
  {
   "property": "C46",
   "status": "proved",
   "theorems": [
    "Verif.Ints.gcd_spec",
    "Verif.Ints.gcd_greatest"
   ],
   "note": ""
  },
  {
   "property": "C47",
   "status": "proved",
   "theorems": [
    "Verif.Dates.toordinal_numbers_days",
    "Verif.Dates.ordinal_roundtrip",
    "Verif.Dates.ordinal_order",
    "Verif.Dates.date_constructors",
    "Verif.Dates.day_constraint_exact",
    "Verif.Dates.decomposition_unique",
    "Verif.Dates.timedelta_normalises",
    "Verif.Dates.timedelta_canonical"
   ],
   "note": "For all integers; also the solver constraints that tie a symbolic ordinal to its year, month and day have exactly one solution."
  },
  {
   "property": "C48",
   "status": "partial",
   "theorems": [
    "Verif.Outcome.flexEq_iff_partial",
    "Verif.Outcome.flexEq_self",
    "Verif.Outcome.flexEq_symm_partial",
    "Verif.Outcome.iterators_compare_partial",
    "Verif.Outcome.iteration_verdict_partial",
    "Verif.Outcome.result_eq_partial",
    "Verif.Outcome.differingArgs_iff",
    "Verif.Outcome.iterators_same_type",
    "Verif.Outcome.objects_same_type",
    "Verif.Outcome.set_nan",
    "Verif.Outcome.dict_nan",
    "Verif.Outcome.unrealizable_asymmetric",
    "Verif.Outcome.ignored_compared"
   ],
   "note": "All plain values, nested without bound. Two iterators of one type are always equal, NaN in sets and as dict key is not equal to itself, unrealizable values make the comparison asymmetric, and ignored attempts are compared (negations proved)."
  },
  {
   "property": "C49",
   "status": "proved",
   "theorems": [
    "Verif.Pick.cover_covers",
    "Verif.Pick.cover_greedy",
    "Verif.Pick.cover_all_paths",
    "Verif.Pick.diff_covers",
    "Verif.Pick.diff_reported",
    "Verif.Pick.diff_without_coverage_ignored",
    "Verif.Pick.ties_prefer_longer"
   ],
   "note": "All sets of examples. Differences that execute no instruction are dropped, and ties between differences prefer the longer example, contrary to the documentation (both proved)."
  },
  {
   "property": "C50",
   "status": "proved",
   "theorems": [
    "Verif.Report.diff_exit",
    "Verif.Report.search_exit"
   ],
   "note": "All outcomes."
  },
  {
   "property": "C51",
   "status": "partial",
   "theorems": [
    "Verif.Scope.scopes_restore_partial",
    "Verif.Scope.seen_again_partial",
    "Verif.Scope.pop_out_of_order",
    "Verif.Scope.pypath_restores",
    "Verif.Scope.pureImports_restores_partial",
    "Verif.Scope.pureImports_exception",
    "Verif.Scope.noTracing_generatorExit",
    "Verif.Scope.pushed_twice",
    "Verif.Scope.tracer_twice",
    "Verif.Scope.enforcing_twice",
    "Verif.Scope.patch_same_code",
    "Verif.Scope.patched_without_opcodes"
   ],
   "note": "All programs of nested scopes, sequences, exceptions and handlers. Excluded are GeneratorExit, pushing a module that is in force, enforcing a function within itself, starting the tracer twice, patches that share a code object, and prefer_pure_python_imports left by an exception: each of these does not restore (negations proved)."
  },
  {
   "property": "C52",
   "status": "partial",
   "theorems": [
    "Verif.Names.resolves_iff",
    "Verif.Names.unambiguous",
    "Verif.Names.unresolved",
    "Verif.Names.reported_partial",
    "Verif.Names.missing_module_importError",
    "Verif.Names.inherited_refused",
    "Verif.Names.inside_other",
    "Verif.Names.notFound_traceback"
   ],
   "note": "All names and all worlds of modules and objects. What a name resolves to is settled completely. Missing: failures are not all reported: a name that is not found in its module ends in an exception nobody catches, a missing module is no NotFound, inherited methods are not found (negations proved)."
  },
  {
   "property": "C53",
   "status": "partial",
   "theorems": [
    "Verif.Unify.sound_partial",
    "Verif.Unify.bindings_closed",
    "Verif.Unify.ends",
    "Verif.Unify.callable_return",
    "Verif.Unify.accepts_itself_partial",
    "Verif.Unify.list_for_tuple",
    "Verif.Unify.string_for_tuple",
    "Verif.Unify.union_forgotten",
    "Verif.Unify.long_for_pair",
    "Verif.Unify.pair_for_long_crash",
    "Verif.Unify.empty_crash",
    "Verif.Unify.object_refused",
    "Verif.Unify.endless"
   ],
   "note": "All types of classes with arguments, Any, variables, unions, tuples and callables, nested without bound. Sound for value types without variables if there are no unions given to variables and no tuple types of any length expected; outside of this lists are accepted for tuples, bindings in unions are forgotten, tuples of any length are accepted for pairs, and there are exceptions and an endless recursion (negations proved)."
  },
  {
   "property": "C54",
   "status": "partial",
   "theorems": [
    "Verif.Copy.ends_partial",
    "Verif.Copy.shape_partial",
    "Verif.Copy.aliasing_partial",
    "Verif.Copy.original_partial",
    "Verif.Copy.original_isolated_partial",
    "Verif.Copy.copy_isolated_partial",
    "Verif.Copy.typeError_iff_partial",
    "Verif.Copy.method_internal",
    "Verif.Copy.set_cycle"
   ],
   "note": "All finite object graphs with any sharing and cycles, made of atoms, symbolic values, uncopyable objects, tuples, lists, dicts, instances and sets, any interleaved sequence of changes of original and copy. Missing: bound methods (best-effort copies can end in an internal error) and sets that can be reached from their items (aliasing is lost); negations proved."
  },
  {
   "property": "C55",
   "status": "partial",
   "theorems": [
    "Verif.Regex.match_partial",
    "Verif.Regex.accepts_partial",
    "Verif.Regex.sound_partial",
    "Verif.Regex.fullmatch_partial",
    "Verif.Regex.greedy_longest_partial",
    "Verif.Regex.lazy_shortest_partial",
    "Verif.Regex.plain_fits",
    "Verif.Regex.runs_language",
    "Verif.Regex.match_stable",
    "Verif.Regex.repetition_final",
    "Verif.Regex.empty_repetition_endless",
    "Verif.Regex.dollar_newline",
    "Verif.Regex.boundary_at_start",
    "Verif.Regex.caret_empty",
    "Verif.Regex.behind_at_start",
    "Verif.Regex.ahead_groups_lost"
   ],
   "note": "All strings and positions; characters, repetitions, branches, anchors, look-arounds and groups, nested without bound. Exact, with groups and order of preference, if what is repeated matches in one way at most and not the empty string; every match is right in general. Missing: repetitions whose body can match in several ways or the empty string, $ in front of a last line feed, word boundaries at the ends of the string, negative look-behind, groups in look-arounds (negations proved)."
  },
  {
   "property": "C56",
   "status": "partial",
   "theorems": [
    "Verif.Json.roundtrip_partial",
    "Verif.Json.roundtrip_plain",
    "Verif.Json.writes_json",
    "Verif.Json.keys_sorted",
    "Verif.Json.only_ascii",
    "Verif.Json.halves_joined"
   ],
   "note": "All JSON values, nested without bound, all options for indentation, separators, key order and ASCII. Missing: with ensure_ascii, strings with the two halves of a surrogate pair side by side, which come back as one character (negation proved). Circular values, keys that are not strings and hooks are not modelled; of floats the texts and their reading are assumed to fit."
  },
  {
   "property": "C57",
   "status": "partial",
   "theorems": [
    "Verif.Builtin.all_python_partial",
    "Verif.Builtin.any_python_partial",
    "Verif.Builtin.all_same_path",
    "Verif.Builtin.any_same_path",
    "Verif.Builtin.all_value",
    "Verif.Builtin.any_value",
    "Verif.Builtin.all_raises",
    "Verif.Builtin.any_raises",
    "Verif.Builtin.all_asks",
    "Verif.Builtin.any_asks",
    "Verif.Builtin.all_overdraws",
    "Verif.Builtin.any_overdraws",
    "Verif.Builtin.all_asks_symbolic"
   ],
   "note": "All iterators and items, under every assignment. Values returned are always right, and Python's exceptions are always raised; but items after a symbolic one that settles the result are still drawn, and symbolic values still asked (negations proved)."
  },
  {
   "property": "C58",
   "status": "partial",
   "theorems": [
    "Verif.Chars.char_fixed",
    "Verif.Chars.iterate_fixed",
    "Verif.Chars.compare_fixed",
    "Verif.Chars.realize_fixed",
    "Verif.Chars.index_python_partial",
    "Verif.Chars.longer_comparison_breaks_index"
   ],
   "note": "Proved for all histories: in-range positions, iteration, comparison and realization always use the same variables. Negative and out-of-range positions are right only if the string was never compared with a longer one; the negation is proved for a concrete history."
  },
  {
   "property": "C59",
   "status": "partial",
   "theorems": [
    "Verif.Chars.slice_python_partial",
    "Verif.Chars.longer_comparison_breaks_slice",
    "Verif.Chars.backward_slice_wrong"
   ],
   "note": "Slicing is Python's except after a comparison with a longer string (internal error) and for negative steps with bounds counted from the front (wrong characters): both negations are proved."
  },
  {
   "property": "C60",
   "status": "partial",
   "theorems": [
    "Verif.Strs.count_python",
    "Verif.Strs.count_empty_partial",
    "Verif.Strs.count_empty_past_end"
   ],
   "note": "Missing: the empty string in a window whose start is past its end, where the code answers 1 instead of 0 (proved)."
  },
  {
   "property": "C61",
   "status": "partial",
   "theorems": [
    "Verif.Strs.splitWs_python_partial",
    "Verif.Strs.rsplitWs_python_partial",
    "Verif.Strs.splitWs_strips",
    "Verif.Strs.rsplitWs_strips"
   ],
   "note": "Proved without a limit, with limit 0, and with any limit if the far end has no whitespace; otherwise the code drops the far whitespace (negations proved)."
  },
  {
   "property": "C62",
   "status": "partial",
   "theorems": [
    "Verif.Strs.expandtabs_no_tab_partial",
    "Verif.Strs.expandtabs_fixed"
   ],
   "note": "The code ignores columns (negation proved); only strings without tabs are right."
  },
  {
   "property": "C63",
   "status": "proved",
   "theorems": [
    "Verif.Strs.charsIn_python",
    "Verif.Strs.islower_python",
    "Verif.Strs.isupper_python",
    "Verif.Strs.istitle_python"
   ],
   "note": "The Unicode classes themselves are parameters."
  },
  {
   "property": "C64",
   "status": "proved",
   "theorems": [
    "Verif.Dates.weekdays",
    "Verif.Dates.isocalendar_correct",
    "Verif.Dates.fromisocalendar_correct",
    "Verif.Dates.isocalendar_roundtrip"
   ],
   "note": ""
  },
  {
   "property": "C65",
   "status": "proved",
   "theorems": [
    "Verif.Dates.timedelta_ring",
    "Verif.Dates.timedelta_division",
    "Verif.Dates.rounding_unique",
    "Verif.Dates.timedelta_compare",
    "Verif.Dates.date_arithmetic"
   ],
   "note": "Integer operands; multiplication and division of durations by floats are not modelled."
  },
  {
   "property": "C66",
   "status": "partial",
   "theorems": [
    "Verif.Dates.datetime_add",
    "Verif.Dates.datetime_sub",
    "Verif.Dates.datetime_compare",
    "Verif.Dates.time_compare_partial",
    "Verif.Dates.time_compare_drops_seconds"
   ],
   "note": "Fixed offsets. Comparison of times drops the seconds of offsets (negation proved)."
  },
  {
   "property": "C67",
   "status": "partial",
   "theorems": [
    "Verif.Wall.unblock_monotone_partial",
    "Verif.Wall.unblock_can_block",
    "Verif.Wall.reject_rule_can_allow"
   ],
   "note": "True except for entries with arguments on events without a special handler, where both directions fail (negations proved)."
  },
  {
   "property": "C68",
   "status": "partial",
   "theorems": [
    "Verif.Wall.advice_works_partial",
    "Verif.Wall.advice_is_full",
    "Verif.Wall.advice_fails"
   ],
   "note": "True when no argument text contains a colon; with one the advice fails (negation proved)."
  },
  {
   "property": "C69",
   "status": "partial",
   "theorems": [
    "Verif.B64.decode_exact",
    "Verif.B64.strict_accepts_excess_padding",
    "Verif.B64.data_after_padding_refused"
   ],
   "note": "decode_exact says exactly which texts are accepted. It differs from the real module for padding after complete groups in strict mode, and for data after padding otherwise (both proved)."
  },
  {
   "property": "C70",
   "status": "proved",
   "theorems": [
    "Verif.Pick.score_least",
    "Verif.Pick.search_least"
   ],
   "note": "All sets of possible scores, also infinite ones, given a solver that is right about intervals. Negative scores are ignored, as the code says."
  },
  {
   "property": "C71",
   "status": "partial",
   "theorems": [
    "Verif.Watch.watch_since_change",
    "Verif.Watch.screens_show_news",
    "Verif.Watch.no_restart_without_rewriting"
   ],
   "note": "Proved for ordinary terminals. On terminals that cannot rewrite lines a change does not restart the display (negation proved)."
  },
  {
   "property": "C72",
   "status": "proved",
   "theorems": [
    "Verif.Pick.certain_choices",
    "Verif.Pick.open_choices"
   ],
   "note": "The coverage oracle, the only one in use; probabilities in hundredths."
  },
  {
   "property": "C73",
   "status": "partial",
   "theorems": [
    "Verif.Contract.invariant_places",
    "Verif.Contract.own_invariants_guard",
    "Verif.Contract.constructor_establishes",
    "Verif.Contract.inherited_invariants_on_exit",
    "Verif.Contract.inherited_invariants_on_entry_partial",
    "Verif.Contract.own_precondition_drops_inherited_invariants",
    "Verif.Contract.new_method_skips_inherited_invariants",
    "Verif.Contract.second_syntax_invariants_ignored"
   ],
   "note": "Own invariants always guard. Inherited ones are dropped on entry by a declared precondition, for methods new in the subclass, and when they are written in another contract syntax than the first that finds anything (negations proved)."
  },
  {
   "property": "C74",
   "status": "proved",
   "theorems": [
    "Verif.Enforce.guarded_iff",
    "Verif.Enforce.conditions_found",
    "Verif.Enforce.user_code_wanted",
    "Verif.Enforce.cache_sound",
    "Verif.Enforce.construct_agrees",
    "Verif.Enforce.user_file_named_copy",
    "Verif.Enforce.lambda_not_guarded",
    "Verif.Enforce.metaclass_call_bypassed"
   ],
   "note": "Exact decision. Not true without exception: files called copy.py, enum.py and so on, lambdas, and metaclasses with their own __call__ (witnesses proved)."
  },
  {
   "property": "C75",
   "status": "partial",
   "theorems": [
    "Verif.Rand.randrange_forward",
    "Verif.Rand.randrange_one_argument",
    "Verif.Rand.randrange_possible",
    "Verif.Rand.randrange_negative_step"
   ],
   "note": "Exact for positive steps. With negative steps no value is allowed (negation proved)."
  },
  {
   "property": "C76",
   "status": "partial",
   "theorems": [
    "Verif.Builtin.dict_lookup",
    "Verif.Builtin.dict_order_partial",
    "Verif.Builtin.dict_fails",
    "Verif.Builtin.dict_order",
    "Verif.Builtin.dict_unhashable",
    "Verif.Builtin.dict_nan"
   ],
   "note": "Values are right for all pairs, the order only without repeated keys; unhashable keys raise the wrong exception and a repeated NaN is kept twice (negations proved). Iterables of pairs, without keyword arguments."
  },
  {
   "property": "C77",
   "status": "partial",
   "theorems": [
    "Verif.Builtin.symIndex_python",
    "Verif.Builtin.listIndex_python_partial",
    "Verif.Builtin.listIndex_shifted",
    "Verif.Builtin.listIndex_start"
   ],
   "note": "Full for symbolic sequences. For plain lists right without bounds; with bounds the position counts from the start bound (negation proved)."
  },
  {
   "property": "C78",
   "status": "partial",
   "theorems": [
    "Verif.Builtin.join_value",
    "Verif.Builtin.join_python_partial",
    "Verif.Builtin.join_error_order",
    "Verif.Builtin.contains_python",
    "Verif.Builtin.repr_python",
    "Verif.Builtin.tupleRepr_python_partial",
    "Verif.Builtin.tupleRepr_one"
   ],
   "note": "Full for in and for repr of lists, sets and frozensets. join reports the wrong exception when the iterable raises after an item of the wrong type, and repr of tuples with one item lacks the comma (negations proved)."
  },
  {
   "property": "C79",
   "status": "partial",
   "theorems": [
    "Verif.Copy.realize_concrete_partial",
    "Verif.Copy.shape_partial",
    "Verif.Copy.realize_method"
   ],
   "note": "All object graphs as for C54. A bound method leaves symbolic values in the copy (negation proved)."
  },
  {
   "property": "C80",
   "status": "partial",
   "theorems": [
    "Verif.Json.reads_json",
    "Verif.Json.only_json_partial",
    "Verif.Json.loads_ends",
    "Verif.Json.value_unique",
    "Verif.Json.sign_accepted",
    "Verif.Json.space_accepted",
    "Verif.Json.underscore_accepted"
   ],
   "note": "All texts. Every document is read as its value, and decoding ends; nothing else is read unless there is a sign, an underscore or white space among the four characters behind a backslash and u (negations proved)."
  },
  {
   "property": "C81",
   "status": "proved",
   "theorems": [
    "Verif.Json.detects"
   ],
   "note": "All documents, UTF-8, UTF-16 and UTF-32 in both byte orders, with and without byte order mark."
  },
  {
   "property": "C82",
   "status": "partial",
   "theorems": [
    "Verif.Names.line_sound_partial",
    "Verif.Names.line_found_partial",
    "Verif.Names.line_none",
    "Verif.Names.line_behind",
    "Verif.Names.inherited_keyError"
   ],
   "note": "All modules with nested classes. Missing: the line directly behind a function counts as part of it, and methods that are inherited by a class earlier in the alphabet end in a KeyError (negations proved)."
  },
  {
   "property": "C83",
   "status": "partial",
   "theorems": [
    "Verif.Names.visited_iff",
    "Verif.Names.missing_iff",
    "Verif.Names.module_of_file",
    "Verif.Names.module_ends_partial",
    "Verif.Names.root_package"
   ],
   "note": "All directory trees. The module name of a file is found unless the root directory has an __init__.py, in which case the search does not end (negation proved)."
  },
  {
   "property": "C84",
   "status": "proved",
   "theorems": [
    "Verif.Mask.union_holds",
    "Verif.Mask.intersect_holds",
    "Verif.Mask.invert_holds",
    "Verif.Mask.subtract_holds",
    "Verif.Mask.add_holds",
    "Verif.Mask.constraint_holds",
    "Verif.Mask.canonical"
   ],
   "note": "All masks whose parts are in order and do not overlap."
  },
  {
   "property": "C85",
   "status": "partial",
   "theorems": [
    "Verif.Mask.term_partial",
    "Verif.Mask.set_partial",
    "Verif.Mask.literal_ignorecase_partial",
    "Verif.Mask.range_ignorecase_partial",
    "Verif.Mask.dot_matches_all",
    "Verif.Mask.escaped_fails",
    "Verif.Mask.letter_without_case",
    "Verif.Mask.ascii_literal",
    "Verif.Mask.ascii_range",
    "Verif.Mask.mixed_range"
   ],
   "note": "All expressions, flags and characters without IGNORECASE. With IGNORECASE: literals that are no special characters, and ranges of ASCII letters without ASCII; otherwise there are wrong matches and exceptions (negations proved)."
  },
  {
   "property": "C86",
   "status": "partial",
   "theorems": [
    "Verif.Regex.search_partial",
    "Verif.Regex.leftmost_one",
    "Verif.Regex.positions_partial",
    "Verif.Regex.search_end",
    "Verif.Regex.negative_position"
   ],
   "note": "All strings, patterns as for C55. Missing: a match at the very end is never found, and negative positions count from the end (negations proved)."
  },
  {
   "property": "C87",
   "status": "partial",
   "theorems": [
    "Verif.Regex.finditer_partial",
    "Verif.Regex.scan_one",
    "Verif.Regex.matches_ordered"
   ],
   "note": "All strings, patterns as for C55, positions that are not negative."
  },
  {
   "property": "C88",
   "status": "partial",
   "theorems": [
    "Verif.Regex.split_partial",
    "Verif.Regex.split_end"
   ],
   "note": "All strings and limits, patterns as for C55. Missing: patterns that match at the very end (negation proved). If a match is empty, Python's own split is used."
  },
  {
   "property": "C89",
   "status": "partial",
   "theorems": [
    "Verif.Regex.subn_partial",
    "Verif.Regex.sub_empty",
    "Verif.Regex.sub_anchor",
    "Verif.Regex.sub_negative"
   ],
   "note": "All strings, patterns that can be told to be good by their looks, consume something and do not look back; counts that are not negative. Otherwise there are wrong results (negations proved). Replacements that depend on the matched text only."
  },
  {
   "property": "C90",
   "status": "proved",
   "theorems": [
    "Verif.Types.told_exact",
    "Verif.Types.told_true",
    "Verif.Types.told_conservative"
   ],
   "note": "All hierarchies, orders and models of the constraints."
  },
  {
   "property": "C91",
   "status": "partial",
   "theorems": [
    "Verif.Types.answers_true",
    "Verif.Types.realized_once",
    "Verif.Types.found_partial",
    "Verif.Types.lowering_loses"
   ],
   "note": "All hierarchies, histories of questions and paths; classes in questions are not symbolic. That all classes can be the one is proved if issubclass says what the known subclasses say, and if the annotation is not object; with registered subclasses of abstract base classes, asking loses some (negation proved)."
  },
  {
   "property": "C92",
   "status": "partial",
   "theorems": [
    "Verif.Types.any_subclass",
    "Verif.Types.lists_subclasses",
    "Verif.Types.uniform",
    "Verif.Types.biased",
    "Verif.Types.subclass_map",
    "Verif.Types.hidden_by_base"
   ],
   "note": "All hierarchies without cycles and all decisions. Known are classes whose bases up to the annotated class are known and may be used; others are never chosen (negation proved)."
  },
  {
   "property": "C93",
   "status": "partial",
   "theorems": [
    "Verif.Sigs.covers_partial",
    "Verif.Sigs.annotation_fits",
    "Verif.Sigs.covers_not_each",
    "Verif.Sigs.two_args_fail",
    "Verif.Sigs.default_order_fails",
    "Verif.Sigs.name_clash"
   ],
   "note": "All signatures and calls. Calls that both signatures accept are accepted, if the same name means the same kind of parameter in both. Missing: calls that only one of them accepts, two signatures with *args, defaults in front, and names that clash (negations proved)."
  },
  {
   "property": "C94",
   "status": "partial",
   "theorems": [
    "Verif.Sigs.strip_exact",
    "Verif.Sigs.constructor_one",
    "Verif.Sigs.constructor_both_partial",
    "Verif.Sigs.constructor_drops",
    "Verif.Sigs.constructor_fails",
    "Verif.Sigs.constructor_self"
   ],
   "note": "Exact for classes with one of the two methods. With both: if one of them takes everything, and the other one takes parameters that may be given by keyword; otherwise parameters are lost, the object stays a parameter, or there is a ValueError (negations proved)."
  },
  {
   "property": "C95",
   "status": "partial",
   "theorems": [
    "Verif.Skip.refuted_real",
    "Verif.Skip.refuted_found",
    "Verif.Skip.equal_not_same",
    "Verif.Skip.raising_crashes"
   ],
   "note": "All code, functions and choices. Missing: results that are == but differ, and functions that raise when the assumption is checked (negations proved)."
  },
  {
   "property": "C96",
   "status": "partial",
   "theorems": [
    "Verif.Skip.confirmed_holds",
    "Verif.Skip.exceptions_missed"
   ],
   "note": "All code, for functions that return without exceptions what their contracts allow; exceptions are never assumed (negation proved)."
  },
  {
   "property": "C97",
   "status": "proved",
   "theorems": [
    "Verif.Skip.checked_iff",
    "Verif.Skip.trusted_iff",
    "Verif.Skip.unsupported_iff",
    "Verif.Skip.mutating_called"
   ],
   "note": "Exact conditions for each decision."
  },
  {
   "property": "C98",
   "status": "partial",
   "theorems": [
    "Verif.Skip.best_first_partial",
    "Verif.Skip.keyword_wrong",
    "Verif.Skip.other_arity_raises"
   ],
   "note": "For positional arguments, if all signatures take as many as are given; otherwise the wrong signature or a TypeError (negations proved)."
  },
  {
   "property": "C99",
   "status": "partial",
   "theorems": [
    "Verif.Skip.reproduces_partial",
    "Verif.Skip.only_trusted",
    "Verif.Skip.values_shift"
   ],
   "note": "All code, functions and results; not if preconditions call the functions too, whose results then come first (negation proved)."
  }
 ]
}