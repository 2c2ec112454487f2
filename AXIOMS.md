# Axioms

Axioms of the 1265 theorems named in MANIFEST.json, from `#print axioms`.

## none

`Verif.Aliases.add_other_kinds`, `Verif.Aliases.imul_new_list`, `Verif.Aliases.mul_one_alias`, `Verif.Arrays.dict_described`, `Verif.Builtin.dict_nan`, `Verif.Builtin.dict_order`, `Verif.CaseMaps.lookup_error_escapes`, `Verif.Codec.encode_error_end`, `Verif.DecimalDigits.copy_sign`, `Verif.Evals.eval_partial`, `Verif.Inputs.tuple_hides_mutable`, `Verif.Ints.to_bytes_unknown_order`, `Verif.Keys.nan_unequal`, `Verif.Keys.shell_nan`, `Verif.Keys.unhashable_accepted`, `Verif.Kinds.asserts_others`, `Verif.Kinds.asserts_same_name_hidden`, `Verif.Kinds.registered_optional`, `Verif.Lazy.eq_copy`, `Verif.Maps.copy_fresh_partial`, `Verif.Maps.copy_keeps_items`, `Verif.Maps.copy_wrong_length`, `Verif.Maps.overwrite_moves_key`, `Verif.Maps.reversed_repeats`, `Verif.Maps.ror_swapped`, `Verif.Match.lastgroup_other`, `Verif.Match.lastindex_nested`, `Verif.Match.lastindex_none`, `Verif.Names.inherited_refused`, `Verif.Names.inside_other`, `Verif.Names.root_package`, `Verif.Ops.slice_aliased`, `Verif.Opts.full_overlay_last`, `Verif.Opts.overlay_last`, `Verif.Pep316.names_in_conditions`, `Verif.Protocols.setattr_symbolic`, `Verif.Regex.leftmost_one`, `Verif.Regex.negative_position`, `Verif.Registry.lookup_blocks_registration`, `Verif.Registry.own_list_changes`, `Verif.Registry.shared_list_grows`, `Verif.Search.merge_exhausted`, `Verif.Search.parallel_ignored_hides_refuted`, `Verif.Skip.equal_not_same`, `Verif.Skip.exceptions_missed`, `Verif.Skip.keyword_wrong`, `Verif.Skip.other_arity_raises`, `Verif.Skip.raising_crashes`, `Verif.Skip.values_shift`, `Verif.Strs.expandtabs_fixed`, `Verif.Stubs.skipped_valid`, `Verif.Wrappers.cache_effects`, `Verif.Wrappers.cache_keys`, `Verif.Wrappers.inplace_same_partial`, `Verif.Wrappers.other_variable_changes`, `Verif.Wrappers.partial_func_keyword`, `Verif.Wrappers.partial_same_partial`, `Verif.Zones.time_hash_fails`

## `propext`

`Verif.Analyze.callable_crash`, `Verif.Analyze.callable_none`, `Verif.Analyze.callable_signature`, `Verif.Analyze.names_partial`, `Verif.Analyze.patch_keeps`, `Verif.Arrays.set_described`, `Verif.Buffers.addition_spec`, `Verif.Buffers.bytearray_add_wide`, `Verif.Buffers.bytes_equal_array`, `Verif.Buffers.equality_partial`, `Verif.Buffers.right_addition_spec`, `Verif.Buffers.stripped_unique`, `Verif.Builtin.all_asks_symbolic`, `Verif.Builtin.all_overdraws`, `Verif.Builtin.any_overdraws`, `Verif.Builtin.dict_fails`, `Verif.Builtin.dict_unhashable`, `Verif.Builtin.join_error_order`, `Verif.Callbacks.ran_at_own_position`, `Verif.Callbacks.stale_hides`, `Verif.Callbacks.stale_runs`, `Verif.Calls.instance_call`, `Verif.Calls.keyword_other`, `Verif.Calls.many_arguments`, `Verif.Calls.none_method`, `Verif.Calls.super_method`, `Verif.Codec.error_end`, `Verif.Codec.errors_swallowed`, `Verif.Codec.latin1_decode`, `Verif.Codec.latin1_incremental`, `Verif.Codec.nothing_crashes`, `Verif.Codec.one_at_a_time`, `Verif.Codec.replace_doubles`, `Verif.Codec.surrogates_decoded`, `Verif.Codec.surrogates_not_ignored`, `Verif.DateInputs.replace_date_none`, `Verif.DateInputs.replace_time_none`, `Verif.DateInputs.replace_time_partial`, `Verif.Dates.time_compare_drops_seconds`, `Verif.Decimal.infinite_sums`, `Verif.DecimalDigits.next_toward_signals`, `Verif.DecimalFunctions.exponential_special`, `Verif.DecimalMake.create_invalid`, `Verif.DefaultDicts.contains_adds`, `Verif.DefaultDicts.defaults_not_used`, `Verif.DefaultDicts.items_partial`, `Verif.DefaultDicts.no_factory_partial`, `Verif.DefaultDicts.popitem_partial`, `Verif.DefaultDicts.step_partial`, `Verif.Depths.prefixed_not_traced`, `Verif.Depths.range_entered_late`, `Verif.Deque.append_to_zero`, `Verif.Deque.maxlen_exceeded`, `Verif.DictGets.hashes_ignored`, `Verif.DictGets.items_overridden`, `Verif.DictGets.keyword_taken`, `Verif.Differential.arguments_apart`, `Verif.Differential.deep_function`, `Verif.Differential.key_function`, `Verif.Editor.forget_race`, `Verif.Editor.line_zero`, `Verif.Editor.restart_race`, `Verif.Enforce.construct_agrees`, `Verif.Enforce.metaclass_call_bypassed`, `Verif.Enforce.unknown_mutable_argument_blames_postcondition`, `Verif.Evals.assignment_elsewhere`, `Verif.Evals.caller_hides`, `Verif.Evals.globals_only_partial`, `Verif.Explore.one_iteration_is_none`, `Verif.Explore.search_reports_an_ignored_path`, `Verif.Formatting.returns_other`, `Verif.Formatting.template_text_differs`, `Verif.Gcds.python_unique`, `Verif.Heap.first_old_lookup_live`, `Verif.Heap.old_value_changed`, `Verif.Inputs.modules_restored`, `Verif.Interrupts.early_interrupt`, `Verif.Ints.invert_bits`, `Verif.Ints.to_bytes_zero_length_signed`, `Verif.Json.halves_joined`, `Verif.Keys.python_determined`, `Verif.Keys.set_nan_missed`, `Verif.Keys.shell_del_partial`, `Verif.Keys.shell_set_len`, `Verif.Keys.shell_set_partial`, `Verif.Kinds.asserts_last`, `Verif.Kinds.asserts_none`, `Verif.Kinds.deal_args_partial`, `Verif.Kinds.icontract_short`, `Verif.Lazy.copy_used_up`, `Verif.Lazy.deepcopy_undecided`, `Verif.Lazy.eq_moved`, `Verif.Match.expand_escapes`, `Verif.Match.expand_octal`, `Verif.Match.expand_plain`, `Verif.Match.expand_unmatched`, `Verif.Match.group_negative`, `Verif.Match.group_unknown_name`, `Verif.Match.groupdict_spans`, `Verif.Match.start_name`, `Verif.Names.module_ends_partial`, `Verif.Names.module_of_file`, `Verif.Names.notFound_traceback`, `Verif.Ops.format_ascii`, `Verif.Ops.format_conversion_spec`, `Verif.Ops.format_exact_partial`, `Verif.Ops.index_negative_zero`, `Verif.Ops.is_exact`, `Verif.Ops.slice_exact_partial`, `Verif.Opts.fromDict_exact`, `Verif.Opts.maxUninteresting_exact`, `Verif.Oracles.detached_ignored`, `Verif.Oracles.number_reused`, `Verif.Pack.bool_and_char_arguments`, `Verif.Pack.empty_format_refused`, `Verif.Pack.iterUnpack_leftover`, `Verif.Pack.native_order_wrong`, `Verif.Pack.packInto_grows`, `Verif.Pack.unpack_accepts_long_buffer`, `Verif.Passes.newest_last`, `Verif.Passes.result_missed`, `Verif.Pep316.builtin_conditions`, `Verif.Plugins.names_of_main`, `Verif.Plugins.own_names_unseen`, `Verif.Protocols.hash_raw`, `Verif.Protocols.len_negative`, `Verif.Protocols.len_of_instance`, `Verif.Protocols.set_then_get`, `Verif.Protocols.sorted_by_index`, `Verif.Proxies.binary_stream_is_text`, `Verif.Proxies.empty_tuple_filled`, `Verif.Proxies.sequence_never_list`, `Verif.Range.range_created`, `Verif.Reflected.change_hides_method`, `Verif.Reflected.deferring`, `Verif.Reflected.equal_to_all_is_not`, `Verif.Reflected.foreign_left`, `Verif.Reflected.order_not_asked`, `Verif.Reflected.plain_objects`, `Verif.Reflected.radd_not_asked`, `Verif.Reflected.symbolic_left_partial`, `Verif.Regex.scan_one`, `Verif.Regex.sub_negative`, `Verif.Registry.holds_one`, `Verif.Registry.lookup_repeats`, `Verif.Report.check_prints`, `Verif.Report.search_exit`, `Verif.Report.state_order`, `Verif.Scope.pop_out_of_order`, `Verif.Search.cap_does_not_prevent_confirmed`, `Verif.Search.different_question_detected`, `Verif.Search.different_realization_undetected`, `Verif.Search.early_end_undetected`, `Verif.Search.fork_for_question_detected`, `Verif.Search.fork_status`, `Verif.Search.merge_messages`, `Verif.Search.merge_takes_worst`, `Verif.Search.parallel_finished_decides`, `Verif.Search.parallel_second_decides`, `Verif.Search.parallel_status_justified`, `Verif.Search.preUnsat_after_timeout`, `Verif.Search.question_for_fork_detected`, `Verif.Search.realize_for_question_detected`, `Verif.Search.runs_deterministic`, `Verif.Search.worst_assoc`, `Verif.Search.worst_comm`, `Verif.Seq.lazy_concat`, `Verif.Sets.difference_aliases`, `Verif.Sets.self_reference`, `Verif.Sets.union_aliases`, `Verif.Sigs.annotation_fits`, `Verif.Sigs.constructor_fails`, `Verif.Sigs.default_order_fails`, `Verif.Sigs.two_args_fail`, `Verif.Sources.bag_taken`, `Verif.Sources.equal_sound`, `Verif.Sources.iterator_taken`, `Verif.Sources.tuple_taken_unequal`, `Verif.Strs.find_low_end`, `Verif.Strs.isLines_unique`, `Verif.Strs.isLstrip_unique`, `Verif.Strs.isRsplit_unique`, `Verif.Strs.isSplit_unique`, `Verif.Stubs.invalid_reported`, `Verif.TypedArrays.assignment_unchecked`, `Verif.TypedArrays.eq_partial`, `Verif.TypedArrays.floats_taken`, `Verif.TypedArrays.narrow_codes`, `Verif.TypedArrays.tobytes_changes_eq`, `Verif.Unbound.disagreement_tuple`, `Verif.Unbound.realized_args`, `Verif.Unify.empty_crash`, `Verif.Unify.string_for_tuple`, `Verif.Values.sequence_error`, `Verif.Values.sequence_items_partial`, `Verif.Values.sequence_shape`, `Verif.Watch.terminate_leaves_starting`, `Verif.Wrappers.accumulate_documented`, `Verif.Wrappers.accumulate_none`, `Verif.Wrappers.cache_skipped_partial`, `Verif.Wrappers.filterfalse_none`, `Verif.Wrappers.filters_documented`, `Verif.Wrappers.groupby_none`, `Verif.Wrappers.inplace_identity`

## `Quot.sound`

`Verif.Kinds.refused_unchanged`, `Verif.Opts.full_overlay_overlay`, `Verif.Opts.overlay_assoc`, `Verif.Opts.overlay_empty`

## `propext`, `Quot.sound`

`Verif.Aliases.aliases_partial`, `Verif.Arrays.dict_abandoned`, `Verif.Arrays.tuple_len`, `Verif.Bounds.bounds_right`, `Verif.Bounds.decision_answered`, `Verif.Bounds.objects_right`, `Verif.Bounds.path_exact`, `Verif.Bounds.shortcut_right`, `Verif.Buffers.bytearray_unchecked`, `Verif.Buffers.extend_error`, `Verif.Buffers.extend_view_changes`, `Verif.Buffers.failure_changes_nothing`, `Verif.Buffers.ordering_spec`, `Verif.Buffers.readonly_write`, `Verif.Buffers.resize_with_view`, `Verif.Buffers.tobytes_changes`, `Verif.Buffers.view_slice_open`, `Verif.Buffers.view_write_outside`, `Verif.Builtin.all_asks`, `Verif.Builtin.all_python_partial`, `Verif.Builtin.all_raises`, `Verif.Builtin.all_same_path`, `Verif.Builtin.all_value`, `Verif.Builtin.any_asks`, `Verif.Builtin.any_python_partial`, `Verif.Builtin.any_raises`, `Verif.Builtin.any_same_path`, `Verif.Builtin.any_value`, `Verif.Builtin.dict_lookup`, `Verif.Builtin.dict_order_partial`, `Verif.Builtin.listIndex_python_partial`, `Verif.Callbacks.callbacks_exact_partial`, `Verif.Calls.call_replaced_partial`, `Verif.Calls.callee_replaced_partial`, `Verif.Calls.instruction_replaced_partial`, `Verif.Calls.keywords_kept`, `Verif.Cells.memo_once`, `Verif.Cells.memo_same`, `Verif.Chars.backward_slice_wrong`, `Verif.Chars.longer_comparison_breaks_index`, `Verif.Chars.longer_comparison_breaks_slice`, `Verif.Codec.ascii_decode_bytewise`, `Verif.Codec.ascii_decode_strict`, `Verif.Codec.ascii_encode_charwise`, `Verif.Codec.ascii_encode_strict`, `Verif.Codec.latin1_encode_charwise`, `Verif.Codec.latin1_encode_strict`, `Verif.Contract.declared_conditions`, `Verif.Copy.method_internal`, `Verif.Copy.realize_method`, `Verif.Copy.set_cycle`, `Verif.Cover.functions_found`, `Verif.DateRepr.quotes_exist`, `Verif.Dates.rounding_unique`, `Verif.Dates.weekdays`, `Verif.Decimal.comparisons_with_nans`, `Verif.Decimal.division_by_zero`, `Verif.Decimal.infinite_products`, `Verif.Decimal.nan_operand`, `Verif.Decimal.nan_operands`, `Verif.Decimal.trapped`, `Verif.DecimalDigits.compare_nans`, `Verif.DecimalDigits.same_quantum`, `Verif.DecimalFormat.grouping_deterministic`, `Verif.DecimalFunctions.decimal_logarithm_special`, `Verif.DecimalFunctions.function_nan`, `Verif.DecimalMore.nan_operand`, `Verif.DecimalMore.next_plus_signals`, `Verif.DefaultDicts.popitem_first`, `Verif.DictGets.get_partial`, `Verif.DictGets.get_unique_partial`, `Verif.Differential.comparable_partial`, `Verif.Differential.standin_type`, `Verif.Differential.summary`, `Verif.Doc.lines_before_skipped`, `Verif.Editor.mark_covers_partial`, `Verif.Editor.nameless_file_ends`, `Verif.Editor.publish_race`, `Verif.Editor.wide_characters`, `Verif.Enforce.blame`, `Verif.Enforce.conditions_found`, `Verif.Enforce.enforcement_transparent`, `Verif.Enforce.enforcing_restored`, `Verif.Enforce.guarded_call`, `Verif.Enforce.runs_unique`, `Verif.Enforce.unguarded_call`, `Verif.Explore.differences_are_real`, `Verif.Explore.exhausted_accounts`, `Verif.Explore.exhausted_although_cut_short`, `Verif.Explore.exhausted_although_half`, `Verif.Explore.exhausted_although_untold`, `Verif.Explore.exhausted_covers`, `Verif.Explore.exhausted_half`, `Verif.Explore.exploring_never_fails`, `Verif.Explore.found_are_real`, `Verif.Explore.paths_never_repeat`, `Verif.Explore.search_example_is_real_partial`, `Verif.Explore.search_finds_all`, `Verif.Formatting.changes_are_lost`, `Verif.Formatting.format_iff`, `Verif.Formatting.percent_texts`, `Verif.Formatting.strFormat_partial`, `Verif.Gcds.three_refused`, `Verif.Heap.find_new`, `Verif.Heap.original_shares`, `Verif.Heap.two_types_two_objects`, `Verif.Inputs.enum_choice`, `Verif.Inputs.immutable_partial`, `Verif.Inputs.typed_dict_keys`, `Verif.Interrupts.interrupt_partial`, `Verif.Interrupts.second_interrupt`, `Verif.Ints.bits_determine`, `Verif.Ints.bounded_int_sound`, `Verif.Ints.bounded_neg`, `Verif.Ints.decided_lt_remembered`, `Verif.Ints.parse_digits`, `Verif.Ints.symbolic_repr_agrees`, `Verif.Keys.nan_stored_twice`, `Verif.Kinds.asserts_recursion_hidden`, `Verif.Kinds.deal_keyword_only`, `Verif.Kinds.deal_varargs`, `Verif.Kinds.icontract_pre`, `Verif.Kinds.implies_keywords_dropped`, `Verif.Kinds.implies_refused`, `Verif.Kinds.registered_post_args_partial`, `Verif.Kinds.registered_pre_args_partial`, `Verif.Lazy.call_results`, `Verif.Lazy.copy_behaves_partial`, `Verif.Lazy.eq_behaves_partial`, `Verif.Lazy.shown_behaves_partial`, `Verif.Maps.or_items`, `Verif.Maps.simple_dict_del`, `Verif.Maps.simple_dict_popitem`, `Verif.Maps.simple_dict_set`, `Verif.Maps.symbolic_dict_iter`, `Verif.Mask.ascii_literal`, `Verif.Mask.ascii_range`, `Verif.Mask.escaped_fails`, `Verif.Mask.letter_without_case`, `Verif.Mask.mixed_range`, `Verif.Match.expand_newline`, `Verif.Match.group_past_end`, `Verif.Match.lastindex_partial`, `Verif.Match.span_exact_partial`, `Verif.Match.start_unmatched`, `Verif.Names.inherited_keyError`, `Verif.Names.line_behind`, `Verif.Names.line_found_partial`, `Verif.Names.line_sound_partial`, `Verif.Names.missing_module_importError`, `Verif.Names.reported_partial`, `Verif.Names.resolves_iff`, `Verif.Names.unambiguous`, `Verif.Names.unresolved`, `Verif.Numeric.copysign_kind`, `Verif.Numeric.makeFloat_complete`, `Verif.Ops.build_string_lost`, `Verif.Ops.build_string_partial`, `Verif.Ops.index_float`, `Verif.Ops.not_exact`, `Verif.Ops.set_comprehension`, `Verif.Opts.collect_innermost`, `Verif.Opts.effective_precedence`, `Verif.Oracles.rotation`, `Verif.Outcome.dict_nan`, `Verif.Outcome.differingArgs_iff`, `Verif.Outcome.iterators_same_type`, `Verif.Outcome.objects_same_type`, `Verif.Outcome.set_nan`, `Verif.Outcome.unrealizable_asymmetric`, `Verif.Pack.iterUnpack_endless`, `Verif.Pack.packInto_partial`, `Verif.Passes.change_ends_pass`, `Verif.Passes.checks_apart`, `Verif.Passes.shutdown_ends`, `Verif.Pep316.mutable_arguments_partial`, `Verif.Pick.certain_choices`, `Verif.Pick.cover_all_paths`, `Verif.Pick.diff_without_coverage_ignored`, `Verif.Pick.open_choices`, `Verif.Pick.ties_prefer_longer`, `Verif.Plugins.plugin_partial`, `Verif.Protocols.attributes_partial`, `Verif.Protocols.claims_ignored`, `Verif.Protocols.instance_check_ignored`, `Verif.Protocols.isinstance_partial`, `Verif.Protocols.len_partial`, `Verif.Protocols.repr_no_text`, `Verif.Protocols.sorted_partial`, `Verif.Protocols.static_fails`, `Verif.Protocols.text_partial`, `Verif.Proxies.entry_never_derived`, `Verif.Proxies.made_belongs_partial`, `Verif.Rand.randrange_negative_step`, `Verif.Regex.empty_repetition_endless`, `Verif.Regex.positions_partial`, `Verif.Regex.sub_anchor`, `Verif.Regex.sub_empty`, `Verif.Report.clamp_places`, `Verif.Report.keyLt_preferred`, `Verif.Report.merge_exact`, `Verif.Report.watchLimit_exact`, `Verif.Repro.default_before_varargs_is_no_python`, `Verif.Repro.dict_text_is_no_python`, `Verif.Repro.keyword_text_is_no_python`, `Verif.Repro.shared_arguments_dictionary`, `Verif.Repro.shared_result_text_is_empty`, `Verif.Repro.single_tuple_text_is_no_tuple`, `Verif.Repro.written_arguments_bind_back_partial`, `Verif.Scope.enforcing_twice`, `Verif.Scope.noTracing_generatorExit`, `Verif.Scope.patch_same_code`, `Verif.Scope.patched_without_opcodes`, `Verif.Scope.pureImports_exception`, `Verif.Scope.pureImports_restores_partial`, `Verif.Scope.pushed_twice`, `Verif.Scope.pypath_restores`, `Verif.Scope.scopes_restore_partial`, `Verif.Scope.seen_again_partial`, `Verif.Scope.tracer_twice`, `Verif.Search.calltree_verdict`, `Verif.Search.confirmed_covers_every_input`, `Verif.Search.confirmed_excludes_failures`, `Verif.Search.confirmed_only_when_exhausted`, `Verif.Search.deterministic_never_flagged`, `Verif.Search.exploration_terminates`, `Verif.Search.finished_parts_never_change`, `Verif.Search.iterations_never_repeat`, `Verif.Search.merge_failing_precondition`, `Verif.Search.refuted_is_real`, `Verif.Search.search_never_stuck`, `Verif.Seq.lazy_len`, `Verif.Seq.seqGe_iff`, `Verif.Seq.seqGt_iff`, `Verif.Seq.seqLe_iff`, `Verif.Seq.seqLt_iff`, `Verif.Sets.set_history_partial`, `Verif.Sets.tree_elements`, `Verif.Sets.tree_is_set`, `Verif.Sigs.constructor_drops`, `Verif.Sigs.constructor_self`, `Verif.Sigs.covers_not_each`, `Verif.Sigs.name_clash`, `Verif.Skip.best_first_partial`, `Verif.Skip.checked_iff`, `Verif.Skip.confirmed_holds`, `Verif.Skip.mutating_called`, `Verif.Skip.only_trusted`, `Verif.Skip.refuted_found`, `Verif.Skip.refuted_real`, `Verif.Skip.trusted_iff`, `Verif.Skip.unsupported_iff`, `Verif.Sources.indexed_taken_partial`, `Verif.Sources.lists_taken_partial`, `Verif.Strs.affix_any`, `Verif.Strs.charsIn_python`, `Verif.Strs.count_empty_past_end`, `Verif.Strs.find_low_start`, `Verif.Strs.isFind_unique`, `Verif.Strs.islower_python`, `Verif.Strs.istitle_python`, `Verif.Strs.isupper_python`, `Verif.Strs.just_python`, `Verif.Strs.rsplitWs_strips`, `Verif.Strs.splitWs_strips`, `Verif.Types.subclass_map`, `Verif.Types.told_exact`, `Verif.Types.told_true`, `Verif.Unbound.disagreement_none`, `Verif.Unbound.disagreement_subclass`, `Verif.Unify.accepts_itself_partial`, `Verif.Unify.callable_return`, `Verif.Unify.endless`, `Verif.Unify.list_for_tuple`, `Verif.Unify.long_for_pair`, `Verif.Unify.union_forgotten`, `Verif.Watch.check_notices`, `Verif.Watch.check_records`, `Verif.Watch.garden_busy`, `Verif.Watch.garden_kills`, `Verif.Watch.listed_twice_always_changed`, `Verif.Watch.no_processes_never_finishes`, `Verif.Watch.pool_bounded`, `Verif.Watch.pool_conserves`, `Verif.Watch.pool_idle`, `Verif.Watch.pool_results`, `Verif.Watch.terminate_partial`, `Verif.Watch.watch_since_change`, `Verif.Wrappers.groupby_documented`, `Verif.Wrappers.partial_arguments`, `Verif.Wrappers.same_as_replaced_partial`

## `propext`, `Classical.choice`, `Quot.sound`

`Verif.Analyze.class_checks_all`, `Verif.Analyze.class_checks_only`, `Verif.Analyze.function_checks`, `Verif.Analyze.inherited_checked`, `Verif.Analyze.init_invariants_checked`, `Verif.Analyze.init_invariants_partial`, `Verif.Analyze.line_after_function`, `Verif.Analyze.message_place_partial`, `Verif.Analyze.method_kind_ignored`, `Verif.Analyze.module_checks`, `Verif.Analyze.module_order_exists`, `Verif.Analyze.names_shadowed`, `Verif.Arrays.dict_all`, `Verif.Arrays.dict_eq_symbolic`, `Verif.Arrays.dict_real`, `Verif.Arrays.dict_unify`, `Verif.Arrays.set_abandoned`, `Verif.Arrays.set_all`, `Verif.Arrays.set_eq_symbolic`, `Verif.Arrays.set_real`, `Verif.Arrays.set_unify`, `Verif.Arrays.tuple_all`, `Verif.Arrays.tuple_contains`, `Verif.Arrays.tuple_eq`, `Verif.Arrays.tuple_eq_beyond_end`, `Verif.Arrays.tuple_eq_symbolic_partial`, `Verif.Arrays.tuple_get`, `Verif.Arrays.tuple_index`, `Verif.Arrays.tuple_mul`, `Verif.Arrays.tuple_not_reversed`, `Verif.Arrays.tuple_order`, `Verif.Arrays.tuple_slice_partial`, `Verif.Arrays.tuple_step_dropped`, `Verif.Arrays.tuple_unify`, `Verif.Attempt.allowed_exception_hides_nondeterminism`, `Verif.Attempt.body_exception`, `Verif.Attempt.comparison_exception_escapes`, `Verif.Attempt.confirmed_iff`, `Verif.Attempt.expected_never_failure`, `Verif.Attempt.failures_reported`, `Verif.Attempt.raising_postcondition_confirms`, `Verif.Attempt.raising_precondition_confirms`, `Verif.Attempt.refuted_means`, `Verif.Attempt.suspected_typeError`, `Verif.Attempt.unmet_precondition`, `Verif.B64.chunks_keep_bits`, `Verif.B64.data_after_padding_refused`, `Verif.B64.decode_encode`, `Verif.B64.decode_exact`, `Verif.B64.decode_skips`, `Verif.B64.encode_decode`, `Verif.B64.encode_length`, `Verif.B64.encode_rfc`, `Verif.B64.encode_wraps`, `Verif.B64.strict_accepts_excess_padding`, `Verif.Buffers.buffers_history_partial`, `Verif.Buffers.case_laws`, `Verif.Buffers.case_methods`, `Verif.Buffers.copies_stay_partial`, `Verif.Buffers.lstrip_spec`, `Verif.Buffers.reads_bytes_partial`, `Verif.Buffers.rstrip_spec`, `Verif.Buffers.search_int`, `Verif.Buffers.strip_spec`, `Verif.Buffers.view_self_assignment`, `Verif.Buffers.view_slice_negative`, `Verif.Buffers.view_slice_outside`, `Verif.Builtin.contains_python`, `Verif.Builtin.join_python_partial`, `Verif.Builtin.join_value`, `Verif.Builtin.listIndex_shifted`, `Verif.Builtin.listIndex_start`, `Verif.Builtin.repr_python`, `Verif.Builtin.symIndex_python`, `Verif.Builtin.tupleRepr_one`, `Verif.Builtin.tupleRepr_python_partial`, `Verif.CaseMaps.capitalize_partial`, `Verif.CaseMaps.consistent`, `Verif.CaseMaps.final_sigma_lost`, `Verif.CaseMaps.lower_partial`, `Verif.CaseMaps.numbers_of_characters`, `Verif.CaseMaps.requests_served`, `Verif.CaseMaps.swapcase_partial`, `Verif.CaseMaps.tests_exist`, `Verif.CaseMaps.tests_hold`, `Verif.CaseMaps.title_partial`, `Verif.CaseMaps.told_exactly`, `Verif.CaseMaps.translate_partial`, `Verif.CaseMaps.upper_casefold`, `Verif.Cells.coverage_exact`, `Verif.Cells.dictionary_by_identity`, `Verif.Cells.dictionary_length`, `Verif.Cells.scopes_of_threads`, `Verif.Chars.char_fixed`, `Verif.Chars.compare_fixed`, `Verif.Chars.index_python_partial`, `Verif.Chars.iterate_fixed`, `Verif.Chars.realize_fixed`, `Verif.Chars.slice_python_partial`, `Verif.Clock.first_reading`, `Verif.Clock.negative_sleep_turns_back`, `Verif.Clock.never_backwards`, `Verif.Clock.real_explored`, `Verif.Codec.bytewise_exact_partial`, `Verif.Codec.encode_exact_partial`, `Verif.Codec.incremental_keeps_partial`, `Verif.Codec.lenient_total`, `Verif.Codec.replace_partial`, `Verif.Codec.round_trip`, `Verif.Codec.round_trip_back`, `Verif.Codec.sequence_unique`, `Verif.Codec.strict_error_partial`, `Verif.Codec.strict_exact_partial`, `Verif.Codec.surrogates_encoded`, `Verif.Codec.well_formed_decoded`, `Verif.Contract.constructor_establishes`, `Verif.Contract.diamond_takes_wrong_function`, `Verif.Contract.function_nearest`, `Verif.Contract.inherited_invariants_on_entry_partial`, `Verif.Contract.inherited_invariants_on_exit`, `Verif.Contract.invariant_places`, `Verif.Contract.line_exists`, `Verif.Contract.mutable_nearest`, `Verif.Contract.new_method_skips_inherited_invariants`, `Verif.Contract.own_invariants_guard`, `Verif.Contract.own_precondition_drops_inherited_invariants`, `Verif.Contract.postconditions_accumulate`, `Verif.Contract.preconditions_nearest`, `Verif.Contract.preconditions_none`, `Verif.Contract.raises_accumulate`, `Verif.Contract.second_base_dropped`, `Verif.Contract.second_syntax_invariants_ignored`, `Verif.Contract.subclass_keeps`, `Verif.Copy.aliasing_partial`, `Verif.Copy.copy_isolated_partial`, `Verif.Copy.ends_partial`, `Verif.Copy.original_isolated_partial`, `Verif.Copy.original_partial`, `Verif.Copy.realize_concrete_partial`, `Verif.Copy.shape_partial`, `Verif.Copy.typeError_iff_partial`, `Verif.Cover.cover_exit`, `Verif.Cover.exception_not_imported`, `Verif.Cover.imports_clash`, `Verif.Cover.imports_needed`, `Verif.Cover.imports_partial`, `Verif.Cover.names_hidden`, `Verif.Cover.names_of_function`, `Verif.Cover.names_partial`, `Verif.Cover.tests_in_order`, `Verif.Cover.tests_pass`, `Verif.DateInputs.dates_made`, `Verif.DateInputs.datetimes_made_partial`, `Verif.DateInputs.datetimes_missed`, `Verif.DateInputs.replace_date_partial`, `Verif.DateInputs.timedelta_realized`, `Verif.DateInputs.timedeltas_made`, `Verif.DateInputs.times_made`, `Verif.DateInputs.timezones_made_partial`, `Verif.DateInputs.timezones_missed`, `Verif.DateRepr.ctime_determines`, `Verif.DateRepr.ctime_text`, `Verif.DateRepr.date_repr_eval`, `Verif.DateRepr.delta_repr_eval`, `Verif.DateRepr.stamp_repr_eval`, `Verif.DateRepr.strftime_text`, `Verif.DateRepr.time_repr_eval`, `Verif.DateRepr.zone_repr_eval`, `Verif.DateText.cut_texts_are_read`, `Verif.DateText.date_reading`, `Verif.DateText.date_reads_a_sign`, `Verif.DateText.date_roundtrip`, `Verif.DateText.date_texts_sort`, `Verif.DateText.dates_read_exactly_partial`, `Verif.DateText.duration_texts`, `Verif.DateText.short_text_is_index_error`, `Verif.DateText.stamp_reading`, `Verif.DateText.stamp_roundtrip`, `Verif.DateText.stamp_texts_sort`, `Verif.DateText.stamps_read_exactly_partial`, `Verif.DateText.time_reading`, `Verif.DateText.time_reads_two_signs`, `Verif.DateText.time_roundtrip`, `Verif.DateText.time_texts_sort`, `Verif.DateText.times_read_exactly_partial`, `Verif.DateText.zone_names`, `Verif.Dates.date_arithmetic`, `Verif.Dates.date_constructors`, `Verif.Dates.datetime_add`, `Verif.Dates.datetime_compare`, `Verif.Dates.datetime_sub`, `Verif.Dates.day_constraint_exact`, `Verif.Dates.decomposition_unique`, `Verif.Dates.fromisocalendar_correct`, `Verif.Dates.isocalendar_correct`, `Verif.Dates.isocalendar_roundtrip`, `Verif.Dates.ordinal_order`, `Verif.Dates.ordinal_roundtrip`, `Verif.Dates.time_compare_partial`, `Verif.Dates.timedelta_canonical`, `Verif.Dates.timedelta_compare`, `Verif.Dates.timedelta_division`, `Verif.Dates.timedelta_normalises`, `Verif.Dates.timedelta_ring`, `Verif.Dates.toordinal_numbers_days`, `Verif.Decimal.IsResult.unique`, `Verif.Decimal.absolute_value`, `Verif.Decimal.addition`, `Verif.Decimal.commutative`, `Verif.Decimal.comparisons`, `Verif.Decimal.division`, `Verif.Decimal.fused_multiply_add`, `Verif.Decimal.infinite_modulus`, `Verif.Decimal.integer_division`, `Verif.Decimal.multiplication`, `Verif.Decimal.quantizing`, `Verif.Decimal.remainder_nearest`, `Verif.Decimal.subtraction`, `Verif.Decimal.to_integers`, `Verif.Decimal.to_integral`, `Verif.Decimal.unary_minus`, `Verif.Decimal.unary_plus`, `Verif.DecimalDigits.classes`, `Verif.DecimalDigits.compare_numbers`, `Verif.DecimalDigits.even_integers`, `Verif.DecimalDigits.exponent`, `Verif.DecimalDigits.extremes`, `Verif.DecimalDigits.extremes_nan`, `Verif.DecimalDigits.extremes_of_magnitude`, `Verif.DecimalDigits.integers`, `Verif.DecimalDigits.logical_invalid`, `Verif.DecimalDigits.logical_inversion`, `Verif.DecimalDigits.logical_operations`, `Verif.DecimalDigits.next_toward_partial`, `Verif.DecimalDigits.rotation`, `Verif.DecimalDigits.scaling`, `Verif.DecimalDigits.shift_limits`, `Verif.DecimalDigits.shifting`, `Verif.DecimalDigits.significant_digits`, `Verif.DecimalDigits.to_integral_exact`, `Verif.DecimalDigits.total_order_of_magnitudes`, `Verif.DecimalFormat.digits_separated`, `Verif.DecimalFormat.format_plain`, `Verif.DecimalFormat.number_shown`, `Verif.DecimalFormat.special_shown`, `Verif.DecimalFormat.specifier_read`, `Verif.DecimalFormat.specifier_rejected`, `Verif.DecimalFormat.specifier_unambiguous`, `Verif.DecimalFunctions.decimal_logarithm`, `Verif.DecimalFunctions.decimal_logarithm_power`, `Verif.DecimalFunctions.exponential`, `Verif.DecimalFunctions.exponential_approximation`, `Verif.DecimalFunctions.log_ten_digits`, `Verif.DecimalFunctions.logarithm_approximations`, `Verif.DecimalFunctions.natural_logarithm`, `Verif.DecimalFunctions.natural_logarithm_special`, `Verif.DecimalFunctions.nearest_quotient`, `Verif.DecimalFunctions.nearest_root`, `Verif.DecimalFunctions.shift_exactly`, `Verif.DecimalMake.compare_float`, `Verif.DecimalMake.compare_rational`, `Verif.DecimalMake.compare_special`, `Verif.DecimalMake.create_number`, `Verif.DecimalMake.from_float`, `Verif.DecimalMake.from_int`, `Verif.DecimalMake.power_modulo`, `Verif.DecimalMake.power_modulo_invalid`, `Verif.DecimalMake.triple_accepted`, `Verif.DecimalMake.triple_round_trip`, `Verif.DecimalMake.triple_value`, `Verif.DecimalMore.eng_round_trip`, `Verif.DecimalMore.hash_equal`, `Verif.DecimalMore.hash_integer`, `Verif.DecimalMore.integer_ratio`, `Verif.DecimalMore.next_infinite`, `Verif.DecimalMore.next_minus_number`, `Verif.DecimalMore.next_plus_number`, `Verif.DecimalMore.normal_form`, `Verif.DecimalMore.normalizing`, `Verif.DecimalMore.parse_form`, `Verif.DecimalMore.square_root`, `Verif.DecimalMore.square_root_other`, `Verif.DecimalMore.text_form`, `Verif.DecimalMore.text_round_trip`, `Verif.DecimalMore.total_order`, `Verif.DecimalMore.total_order_strict`, `Verif.Depths.cache_bounded`, `Verif.Depths.cache_transparent`, `Verif.Depths.depth_correct`, `Verif.Depths.flagged_partial`, `Verif.Depths.marking_ends`, `Verif.Depths.only_reached`, `Verif.Deque.bounded_history_partial`, `Verif.Deque.rotate_steps`, `Verif.Deque.unbounded_history`, `Verif.Differential.differential`, `Verif.Differential.pinned_result`, `Verif.Doc.docstring_lines`, `Verif.Doc.found_in_line`, `Verif.Doc.other_docstrings_ignored`, `Verif.Doc.other_quotes_cut_docstring`, `Verif.Doc.parse_exact`, `Verif.Doc.written_sections_are_read`, `Verif.Editor.marks_exact_partial`, `Verif.Editor.publish_ends`, `Verif.Editor.unsaved_unmarked_partial`, `Verif.Enforce.cache_sound`, `Verif.Enforce.guarded_iff`, `Verif.Enforce.lambda_not_guarded`, `Verif.Enforce.user_code_wanted`, `Verif.Enforce.user_file_named_copy`, `Verif.Explore.half_rounds`, `Verif.Explore.likely_the_same_partial`, `Verif.Explore.report_from_halves`, `Verif.Explore.small_programs_are_exhausted`, `Verif.Explore.stops_for_a_reason`, `Verif.Floats.few_digits`, `Verif.Floats.float_digits`, `Verif.Floats.floor_is_float`, `Verif.Floats.huge_integer`, `Verif.Floats.ieee_exact`, `Verif.Floats.ieee_is_integer_partial`, `Verif.Floats.ieee_text_partial`, `Verif.Floats.int_float_partial`, `Verif.Floats.is_integer_infinite`, `Verif.Floats.long_fraction`, `Verif.Floats.many_digits`, `Verif.Floats.ratio_exact`, `Verif.Floats.real_exact`, `Verif.Floats.real_round_digits_partial`, `Verif.Floats.real_text_partial`, `Verif.Floats.round_large`, `Verif.Floats.round_twice`, `Verif.Floats.text_rounded_twice`, `Verif.Gcds.floats_taken`, `Verif.Gcds.gcd_partial`, `Verif.Gcds.none_taken`, `Verif.Heap.checkpoint_copies`, `Verif.Heap.find_again`, `Verif.Heap.find_apart`, `Verif.Heap.is_iff`, `Verif.Heap.old_kept_partial`, `Verif.Hex.fromhex_correct`, `Verif.Hex.hexSep_left`, `Verif.Hex.hexSep_misplaced`, `Verif.Hex.hexSep_right_partial`, `Verif.Hex.hexSep_roundtrip`, `Verif.Hex.hexSep_zero`, `Verif.Hex.hex_correct`, `Verif.Hex.hex_roundtrip`, `Verif.Inputs.arguments`, `Verif.Inputs.variables_distinct`, `Verif.Ints.and_mask_answers`, `Verif.Ints.and_mask_bits`, `Verif.Ints.bit_count_spec`, `Verif.Ints.bit_length_spec`, `Verif.Ints.bytes_roundtrip`, `Verif.Ints.bytes_roundtrip_back`, `Verif.Ints.divmod_determined`, `Verif.Ints.floordiv_mod_agree`, `Verif.Ints.gcd_greatest`, `Verif.Ints.gcd_spec`, `Verif.Ints.lshift_bits`, `Verif.Ints.numeral_determined`, `Verif.Ints.parse_drops_base`, `Verif.Ints.parse_nondigits`, `Verif.Ints.parse_repr`, `Verif.Ints.repr_injective`, `Verif.Ints.repr_spec`, `Verif.Ints.round_spec`, `Verif.Ints.rounded_determined`, `Verif.Ints.rshift_bits`, `Verif.Ints.to_bytes_overflow_iff`, `Verif.Ints.to_bytes_value`, `Verif.Json.detects`, `Verif.Json.keys_sorted`, `Verif.Json.loads_ends`, `Verif.Json.only_ascii`, `Verif.Json.only_json_partial`, `Verif.Json.reads_json`, `Verif.Json.roundtrip_partial`, `Verif.Json.roundtrip_plain`, `Verif.Json.sign_accepted`, `Verif.Json.space_accepted`, `Verif.Json.underscore_accepted`, `Verif.Json.value_unique`, `Verif.Json.writes_json`, `Verif.Keys.get_partial`, `Verif.Keys.history_partial`, `Verif.Keys.map_eq_partial`, `Verif.Keys.set_contains_partial`, `Verif.Keys.set_made`, `Verif.Kinds.asserts_exact_partial`, `Verif.Kinds.implies_lazy`, `Verif.Kinds.registered_stays`, `Verif.Lazy.deepcopy_keeps_partial`, `Verif.Lazy.shown_text`, `Verif.Maps.map_eq_iff`, `Verif.Maps.reversed_partial`, `Verif.Maps.shell_map_history`, `Verif.Maps.shell_map_keeps_inner`, `Verif.Mask.add_holds`, `Verif.Mask.canonical`, `Verif.Mask.constraint_holds`, `Verif.Mask.dot_matches_all`, `Verif.Mask.intersect_holds`, `Verif.Mask.invert_holds`, `Verif.Mask.literal_ignorecase_partial`, `Verif.Mask.range_ignorecase_partial`, `Verif.Mask.set_partial`, `Verif.Mask.subtract_holds`, `Verif.Mask.term_partial`, `Verif.Mask.union_holds`, `Verif.Match.expand_exact_partial`, `Verif.Match.group_exact_partial`, `Verif.Match.group_many_partial`, `Verif.Match.group_whole`, `Verif.Match.groups_exact`, `Verif.Names.line_none`, `Verif.Names.missing_iff`, `Verif.Names.visited_iff`, `Verif.Numeric.big_int_equal`, `Verif.Numeric.big_int_overflow`, `Verif.Numeric.bitwise`, `Verif.Numeric.bool_bitwise`, `Verif.Numeric.classification`, `Verif.Numeric.copysign_partial`, `Verif.Numeric.divmod_constraints`, `Verif.Numeric.float_arithmetic`, `Verif.Numeric.float_bitwise`, `Verif.Numeric.float_comparisons_partial`, `Verif.Numeric.ieee_arithmetic`, `Verif.Numeric.ieee_comparisons`, `Verif.Numeric.ieee_floordiv_infinite`, `Verif.Numeric.ieee_floordiv_partial`, `Verif.Numeric.ieee_mod_nearest`, `Verif.Numeric.ieee_mod_partial`, `Verif.Numeric.int_arithmetic`, `Verif.Numeric.int_arithmetic_symbolic`, `Verif.Numeric.int_comparisons`, `Verif.Numeric.int_pow_negative`, `Verif.Numeric.int_pow_partial`, `Verif.Numeric.pow_base_partial`, `Verif.Numeric.pow_infinite`, `Verif.Numeric.round_digits`, `Verif.Numeric.round_half_even`, `Verif.Numeric.rounding`, `Verif.Numeric.unary`, `Verif.Ops.dict_comprehension`, `Verif.Ops.fanout_first`, `Verif.Ops.index_exact_partial`, `Verif.Ops.subscript_exact_partial`, `Verif.Opts.parseBool_exact`, `Verif.Opts.parseKinds_exact`, `Verif.Opts.parse_exact`, `Verif.Opts.perPath_exact`, `Verif.Opts.split_iterations_bounds_partial`, `Verif.Opts.split_iterations_sum`, `Verif.Opts.split_negative_iterations`, `Verif.Opts.split_no_timeout`, `Verif.Opts.split_timeouts_bounds`, `Verif.Opts.split_timeouts_sum`, `Verif.Opts.split_zero_priority`, `Verif.Oracles.bias_partial`, `Verif.Oracles.breadth_first`, `Verif.Oracles.certainty_overridden`, `Verif.Oracles.certainty_partial`, `Verif.Oracles.conditions_recorded_partial`, `Verif.Oracles.preferred_kept`, `Verif.Oracles.probabilities`, `Verif.Oracles.uninteresting_partial`, `Verif.Outcome.flexEq_iff_partial`, `Verif.Outcome.flexEq_self`, `Verif.Outcome.flexEq_symm_partial`, `Verif.Outcome.ignored_compared`, `Verif.Outcome.iteration_verdict_partial`, `Verif.Outcome.iterators_compare_partial`, `Verif.Outcome.result_eq_partial`, `Verif.Pack.iterUnpack_chunks`, `Verif.Pack.pack_layout_partial`, `Verif.Pack.pack_roundtrip`, `Verif.Pack.pack_size`, `Verif.Pack.parse_exact`, `Verif.Passes.nothing_stale`, `Verif.Passes.oldest_first`, `Verif.Passes.pass_complete_partial`, `Verif.Passes.result_arrives_partial`, `Verif.Passes.shown_once`, `Verif.Passes.unfinished_line_loses_result`, `Verif.Pep316.blank_before_dot`, `Verif.Pep316.blank_brackets`, `Verif.Pep316.class_invariants_partial`, `Verif.Pep316.declared_exceptions_partial`, `Verif.Pep316.function_conditions`, `Verif.Pep316.invariant_dropped`, `Verif.Pep316.next_line_taken`, `Verif.Pep316.syntax_errors`, `Verif.Pick.cover_covers`, `Verif.Pick.cover_greedy`, `Verif.Pick.diff_covers`, `Verif.Pick.diff_reported`, `Verif.Pick.score_least`, `Verif.Pick.search_least`, `Verif.Protocols.hash_partial`, `Verif.Proxies.every_value_made_partial`, `Verif.Proxies.inputs_free_partial`, `Verif.Proxies.inputs_free_plain`, `Verif.Proxies.keys_share_variables`, `Verif.Proxies.parameters_share_variable`, `Verif.Rand.copy_replays`, `Verif.Rand.copy_same`, `Verif.Rand.in_range_partial`, `Verif.Rand.randrange_forward`, `Verif.Rand.randrange_one_argument`, `Verif.Rand.randrange_possible`, `Verif.Rand.replay_mixed`, `Verif.Rand.replay_out_of_range`, `Verif.Rand.replay_random_one`, `Verif.Rand.reseeding_does_not_replay`, `Verif.Rand.single_in_range`, `Verif.Range.range_bool`, `Verif.Range.range_contains`, `Verif.Range.range_eq`, `Verif.Range.range_get`, `Verif.Range.range_index`, `Verif.Range.range_iter`, `Verif.Range.range_len`, `Verif.Range.range_reversed`, `Verif.Regex.accepts_partial`, `Verif.Regex.ahead_groups_lost`, `Verif.Regex.behind_at_start`, `Verif.Regex.boundary_at_start`, `Verif.Regex.caret_empty`, `Verif.Regex.dollar_newline`, `Verif.Regex.finditer_partial`, `Verif.Regex.fullmatch_partial`, `Verif.Regex.greedy_longest_partial`, `Verif.Regex.lazy_shortest_partial`, `Verif.Regex.match_partial`, `Verif.Regex.match_stable`, `Verif.Regex.matches_ordered`, `Verif.Regex.plain_fits`, `Verif.Regex.repetition_final`, `Verif.Regex.runs_language`, `Verif.Regex.search_end`, `Verif.Regex.search_partial`, `Verif.Regex.sound_partial`, `Verif.Regex.split_end`, `Verif.Regex.split_partial`, `Verif.Regex.subn_partial`, `Verif.Registry.automatic_always_partial`, `Verif.Registry.automatic_only_partial`, `Verif.Registry.contract_stays`, `Verif.Registry.registry_exact_partial`, `Verif.Replays.changed_twice`, `Verif.Replays.early_copies_suffice`, `Verif.Replays.replay_is_final`, `Verif.Replays.reproduced_partial`, `Verif.Report.check_exit`, `Verif.Report.collect_best`, `Verif.Report.collect_order_irrelevant`, `Verif.Report.diff_exit`, `Verif.Report.verdicts_exit`, `Verif.Report.watch_display`, `Verif.Repro.call_text_evaluates_partial`, `Verif.Repro.dictionary_text_evaluates_partial`, `Verif.Repro.result_text_evaluates_partial`, `Verif.Repro.unshared_call_text_evaluates_partial`, `Verif.Repro.value_text_evaluates_partial`, `Verif.Repro.variables_assigned_once_before_use`, `Verif.Repro.variables_in_order`, `Verif.Search.preUnsat_no_confirmed_path`, `Verif.Seq.lazy_contains`, `Verif.Seq.lazy_eq`, `Verif.Seq.lazy_get`, `Verif.Seq.lazy_iter`, `Verif.Seq.lazy_mul`, `Verif.Seq.lazy_slice`, `Verif.Seq.lazy_slice_elements`, `Verif.Seq.lazy_view`, `Verif.Seq.seqLt_strict_total`, `Verif.Seq.shell_history`, `Verif.Seq.shell_history_lazy`, `Verif.Seq.strCmp_spec`, `Verif.Sets.difference_not_python`, `Verif.Sigs.constructor_both_partial`, `Verif.Sigs.constructor_one`, `Verif.Sigs.covers_partial`, `Verif.Sigs.strip_exact`, `Verif.Skip.reproduces_partial`, `Verif.SourceContext.context_correct`, `Verif.SourceContext.marked_iff`, `Verif.Strs.affix_python`, `Verif.Strs.center_python`, `Verif.Strs.contains_python`, `Verif.Strs.count_empty_partial`, `Verif.Strs.count_python`, `Verif.Strs.endswith_python`, `Verif.Strs.expandtabs_no_tab_partial`, `Verif.Strs.find_python_partial`, `Verif.Strs.partition_python`, `Verif.Strs.remove_affix`, `Verif.Strs.replace_empty_python`, `Verif.Strs.replace_python`, `Verif.Strs.replace_same`, `Verif.Strs.rfind_python_partial`, `Verif.Strs.rpartition_python`, `Verif.Strs.rsplitWs_python_partial`, `Verif.Strs.rsplit_join`, `Verif.Strs.rsplit_python`, `Verif.Strs.splitWs_python_partial`, `Verif.Strs.split_join`, `Verif.Strs.split_python`, `Verif.Strs.splitlines_clean`, `Verif.Strs.splitlines_join`, `Verif.Strs.splitlines_python`, `Verif.Strs.startswith_python`, `Verif.Strs.strip_python`, `Verif.Strs.zfill_python`, `Verif.Stubs.declared_found_partial`, `Verif.Stubs.found_declared`, `Verif.Stubs.rewrite_literal`, `Verif.Stubs.rewrite_noBar`, `Verif.Stubs.rewrite_quoted_bracket`, `Verif.Stubs.rewrite_same`, `Verif.Stubs.rewrite_union`, `Verif.TextIO.getvalue_after_close`, `Verif.TextIO.lines_cover`, `Verif.TextIO.plain_use`, `Verif.TextIO.read_negative`, `Verif.TextIO.readline_beyond_end`, `Verif.TextIO.readline_limit_absolute`, `Verif.TextIO.readline_negative`, `Verif.TextIO.stream_history_partial`, `Verif.TextIO.truncate_negative`, `Verif.TypedArrays.accepted_in_range`, `Verif.TypedArrays.extend_prefix`, `Verif.TypedArrays.input_valid`, `Verif.TypedArrays.make_partial`, `Verif.TypedArrays.program_partial`, `Verif.TypedArrays.run_partial`, `Verif.TypedDicts.accepted_partial`, `Verif.TypedDicts.binds_field`, `Verif.TypedDicts.disagreement_inconsistent`, `Verif.TypedDicts.disagreement_nested_not_bound`, `Verif.TypedDicts.disagreement_refused`, `Verif.Types.answers_true`, `Verif.Types.any_subclass`, `Verif.Types.biased`, `Verif.Types.found_partial`, `Verif.Types.hidden_by_base`, `Verif.Types.lists_subclasses`, `Verif.Types.lowering_loses`, `Verif.Types.realized_once`, `Verif.Types.told_conservative`, `Verif.Types.uniform`, `Verif.Unbound.checked_self_partial`, `Verif.Unbound.symbolic_self`, `Verif.Unify.bindings_closed`, `Verif.Unify.ends`, `Verif.Unify.object_refused`, `Verif.Unify.pair_for_long_crash`, `Verif.Unify.sound_partial`, `Verif.Values.float_literal`, `Verif.Values.float_literals_all`, `Verif.Values.irrational_near`, `Verif.Values.rational_exact_partial`, `Verif.Values.rational_nearest`, `Verif.Values.real_rounded`, `Verif.Values.real_too_large`, `Verif.Wall.advice_fails`, `Verif.Wall.advice_is_full`, `Verif.Wall.advice_works_partial`, `Verif.Wall.allow_rules_apply`, `Verif.Wall.default_policy`, `Verif.Wall.enabled_before_engage`, `Verif.Wall.engaged_wall_scopes`, `Verif.Wall.late_rules_ignored`, `Verif.Wall.reject_rule_can_allow`, `Verif.Wall.reject_rules_apply`, `Verif.Wall.scopes_are_lexical`, `Verif.Wall.tokens_of_event`, `Verif.Wall.unblock_allows`, `Verif.Wall.unblock_can_block`, `Verif.Wall.unblock_leaves_others`, `Verif.Wall.unblock_monotone_partial`, `Verif.Watch.check_exact`, `Verif.Watch.no_restart_without_rewriting`, `Verif.Watch.screens_show_news`, `Verif.Zones.astimezone_fixed`, `Verif.Zones.astimezone_local`, `Verif.Zones.astimezone_naive`, `Verif.Zones.astimezone_standard`, `Verif.Zones.combine_parts`, `Verif.Zones.equal_moments_hash_alike`, `Verif.Zones.equal_times_hash_alike_partial`, `Verif.Zones.equality`, `Verif.Zones.fromtimestamp_fixed`, `Verif.Zones.fromtimestamp_naive`, `Verif.Zones.naive_roundtrip`, `Verif.Zones.ordering`, `Verif.Zones.replace_fields`, `Verif.Zones.timestamp_aware`, `Verif.Zones.timestamp_naive`, `Verif.Zones.timestamp_roundtrip`, `Verif.Zones.timetuple_fields`, `Verif.Zones.utcfromtimestamp_nearest`, `Verif.Zones.utctimetuple_fields`
