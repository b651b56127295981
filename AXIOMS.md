# Axioms per theorem

Generated by tools/axioms.py with `#print axioms` (761 of 761 theorems).

## none (17)

Verif.Bind.C101_violated_roctx_threads, Verif.Bind.C101_violated_vtune, Verif.C23_unsupported_chars_lost, Verif.C73_lazy, Verif.C73_violation_race, Verif.Conc.Init.C46_violation_mixed, Verif.Conc.Init.C46_violation_race, Verif.Io.C84_violation_same_name, Verif.Io.C84_violation_twice, Verif.Mpi.CM.C117_violation_null, Verif.Mpi.CM.C117_violation_shared, Verif.Nvtx.C122_colors, Verif.Serv.RegionMonitor.C90_executions, Verif.Serv.RegionMonitor.C90_violation_history, Verif.Serv.RegionMonitor.C90_violation_open_region, Verif.Serv.RegionMonitor.C90_violation_threads, Verif.Splay.Alloc.C43_violation_zero_size

## propext (52)

Verif.Agg.C28_violated_late_attribute, Verif.Agg.C28_violated_long_keys, Verif.Agg.C28_violated_long_keys_twice, Verif.AggThreads.C78_violated_dropped, Verif.AggThreads.C78_violated_overlap, Verif.AggThreads.C78_violated_retire, Verif.Bind.C101_violated_race, Verif.C56_violation_utf8, Verif.C57_sum_int, Verif.Conc.Sig.C37_violation_unguarded, Verif.Memstat.C115_unreadable, Verif.Memstat.C115_violation_long, Verif.Monitor.C114_example, Verif.Monitor.C114_violation_signal, Verif.Mpi.CM.C117_violation_order, Verif.MpiMsg.C81_violation_collectives, Verif.MpiMsg.C81_violation_comm, Verif.MpiMsg.C81_violation_inactive, Verif.MpiMsg.C81_violation_partial_element, Verif.MpiMsg.C81_violation_stale, Verif.MpiMsg.C81_violation_waitany, Verif.MpiMsg.C81_violation_waitsome, Verif.Nvtx.C122_example, Verif.Pthread.C125_example, Verif.Pthread.C125_violation_early, Verif.Py.Annotate.C120_exceptions, Verif.Py.Conv.C109_demo, Verif.Query.C30_violation_avg_count, Verif.Query.C30_violation_count_inclusive, Verif.Query.C30_violation_duplicate, Verif.Query.C30_violation_inclusive, Verif.Query.C30_violation_key_metric, Verif.Query.C30_violation_unknown_metric, Verif.Query.C74_violation_inclusive, Verif.Query.C74_violation_shared_numerator, Verif.Query.C74_violation_variance_count, Verif.Query.C74_violation_zero_total, Verif.Query.Prof.C50_unknown_type, Verif.Serv.AllocStats.C89_violation_failed_realloc, Verif.Serv.AllocStats.C89_violation_inactive, Verif.Serv.AllocStats.C89_violation_outside, Verif.Serv.AllocStats.C89_violation_shared_peak, Verif.Serv.AllocStats.C89_witness, Verif.Serv.RegionMonitor.C90_witness, Verif.Splay.Alloc.C43_overlap_misses, Verif.Splay.Alloc.C43_violation_large, Verif.Splay.Alloc.C43_violation_retrack, Verif.Timeseries.C95_example, Verif.Timeseries.C95_interval_partial, Verif.Timeseries.C95_once, Verif.Timeseries.C95_once_count, Verif.Timeseries.C95_violation_interval

## propext, Classical.choice, Quot.sound (579)

Verif.Agg.C28_counts_total, Verif.Agg.C28_statistics_alloc_partial, Verif.Agg.C28_statistics_partial, Verif.Agg.C29_clear_partial, Verif.Agg.C29_clear_repeated_partial, Verif.Agg.C29_violated_skipped, Verif.Agg.C97_aggregation, Verif.Agg.C97_aggregation_within, Verif.AggThreads.C78_accounted_partial, Verif.AggThreads.C78_clear_partial, Verif.AggThreads.C78_flush_partial, Verif.AggThreads.C78_interval_partial, Verif.AggThreads.C78_memory_safe_partial, Verif.Annot.C75_inside_partial, Verif.Annot.C75_scoped_partial, Verif.Annot.C75_violation_recursion, Verif.Annot.C75_violation_set, Verif.Annot.C75_violation_type, Verif.Annot.Ref.C76_annotation_lifetime_partial, Verif.Annot.Ref.C76_loop_ended_once_partial, Verif.Annot.Ref.C76_loop_lifetime_partial, Verif.AttrReg.C17_contents_of_one_caller, Verif.AttrReg.C17_names_distinct, Verif.AttrReg.C17_one_attribute_per_name, Verif.AttrReg.C18_aggregatable, Verif.AttrReg.C18_created_attribute, Verif.AttrReg.C18_exactly_one_scope_partial, Verif.AttrReg.C18_global, Verif.AttrReg.C18_other_properties_kept, Verif.AttrReg.C18_scope, Verif.AttrReg.C18_two_scopes_kept, Verif.BB.C06_blackboard_refines_map, Verif.BB.C06_get_after_history, Verif.BB.C06_other_keys_unaffected, Verif.BB.C07_collision_free_partial, Verif.BB.C07_uniform_visibility_partial, Verif.BB.C08_capacity_and_termination, Verif.BB.C08_refused_insert_counted, Verif.Bind.C101_forwarded, Verif.Bind.C101_nested_partial, Verif.Bind.C101_roctx_partial, Verif.Bind.C101_vtune_partial, Verif.C01_vldec_reads_at_most_10, Verif.C01_vldec_total_on_10_bytes, Verif.C01_vlenc_roundtrip, Verif.C02_pack_roundtrip, Verif.C02_unpack_sound, Verif.C03_eq_iff_contents, Verif.C04_compare_spec_partial, Verif.C04_spec_is_total_order, Verif.C05_constructors_roundtrip, Verif.C05_conversions, Verif.C05_to_bool, Verif.C05_type_and_size, Verif.C103_attributes_partial, Verif.C103_blank_line_violated, Verif.C103_contents_partial, Verif.C103_empty_last_violated, Verif.C103_every_value, Verif.C103_globals_partial, Verif.C103_path_attribute_violated, Verif.C103_pointer_type_violated, Verif.C103_trailing_blank_violated, Verif.C103_two_paths_violated, Verif.C20_append_in_bounds, Verif.C20_imm_calls, Verif.C20_roundtrip_partial, Verif.C20_violated_many_refs, Verif.C21_import, Verif.C21_roundtrip, Verif.C22_roundtrip, Verif.C23_any_string, Verif.C23_no_raw_separators, Verif.C23_string_roundtrip, Verif.C24_decimal, Verif.C24_invalid_type_lost, Verif.C24_value_roundtrip, Verif.C25_empty_record_violated, Verif.C25_hidden_violated, Verif.C25_pointer_value_crash, Verif.C25_roundtrip_partial, Verif.C25_same_attributes_partial, Verif.C25_single_empty_text_violated, Verif.C26_nodes_once_before_use, Verif.C27_earlier_nodes_unchanged, Verif.C27_every_node_one_path, Verif.C27_identical_paths_share, Verif.C27_names_created, Verif.C27_names_stable, Verif.C27_two_streams, Verif.C39_bad_code, Verif.C39_type_names, Verif.C39_type_names_distinct, Verif.C39_type_roundtrip, Verif.C39_unknown_name, Verif.C49_files_partial, Verif.C49_globals_roundtrip_partial, Verif.C49_no_globals, Verif.C55_fits, Verif.C55_grow_multiset, Verif.C55_grow_partial, Verif.C55_stop_partial, Verif.C55_violation_order, Verif.C55_violation_size, Verif.C56_object_partial, Verif.C56_records_partial, Verif.C56_violation_addr, Verif.C56_violation_duplicate, Verif.C56_violation_names, Verif.C56_violation_split, Verif.C57_history, Verif.C57_kept, Verif.C57_values_partial, Verif.C57_violation_meta, Verif.C57_violation_truncate, Verif.C57_violation_type, Verif.C58_reports_partial, Verif.C58_violation_empty, Verif.C58_violation_set, Verif.C58_violation_unmatched_end, Verif.C59_violation_midloop, Verif.C59_violation_negative, Verif.C59_violation_prefix, Verif.C59_violation_threads, Verif.C60_violation_threads, Verif.C62_named_paths, Verif.C62_tree_output, Verif.C63_table_partial, Verif.C63_tree_partial, Verif.C63_violation_far_apart, Verif.C63_violation_lost_minimum, Verif.C63_violation_table, Verif.C64_cut, Verif.C64_tree_partial, Verif.C64_violation_indent, Verif.C64_violation_misaligned, Verif.C65_table_output, Verif.C70_split_partial, Verif.C70_violation_column, Verif.C70_violation_metadata, Verif.C70_violation_nan, Verif.C70_violation_section, Verif.C71_lines_partial, Verif.C71_read_partial, Verif.C71_values, Verif.C71_violation_path, Verif.C71_violation_separator, Verif.C72_filename_partial, Verif.C72_snapshot_partial, Verif.C72_streams, Verif.C72_string_partial, Verif.C72_violation_align, Verif.C72_violation_empty, Verif.C72_violation_exception, Verif.C72_violation_late, Verif.C72_violation_range, Verif.C72_violation_width, Verif.C80_attributes, Verif.C80_groups, Verif.C80_query_partial, Verif.C80_violation_input_order, Verif.CApi.C104_calls_partial, Verif.CApi.C104_current_region_partial, Verif.CApi.C104_ids, Verif.CApi.C104_violated_global_string, Verif.CApi.C104_violated_hidden, Verif.CApi.C104_violated_not_a_region, Verif.CApi.C104_violated_types, Verif.Cali.C100_consistent, Verif.Cali.C100_crash_exactly, Verif.Cali.C100_foreign_line, Verif.Cali.C100_truncated_partial, Verif.Cali.C100_violated_truncated_crash, Verif.Cali.C100_violated_truncated_value, Verif.Cali.C100_violated_unknown_attribute, Verif.Cali.C100_violated_unknown_ref, Verif.Cali.C102_attributes_partial, Verif.Cali.C102_builtin_nodes_agree, Verif.Cali.C102_import_globals_partial, Verif.Cali.C102_merge_again_partial, Verif.Cali.C102_merge_partial, Verif.Cali.C102_sources_agree_partial, Verif.Cali.C102_violated_empty_value, Verif.Cali.C102_violated_nul_strings, Verif.Cali.C98_attribute_partial, Verif.Cali.C98_globals_partial, Verif.Cali.C98_violation_metadata, Verif.Cali.C98_violation_type, Verif.Capi.C77_first_is_innermost, Verif.Capi.C77_pull_and_read_partial, Verif.Capi.C77_violated_find_all, Verif.Capi.C77_violated_limit, Verif.Capi.Chn.C108_calls_partial, Verif.Capi.Chn.C108_demo, Verif.Capi.Chn.C108_entries_cut_violated, Verif.Capi.Chn.C108_flush_deleted_violated, Verif.Capi.Chn.C108_ids_partial, Verif.Capi.Chn.C108_report_clear_violated, Verif.Chan.C40_begin, Verif.Chan.C40_end, Verif.Chan.C40_no_events_for_deleted_partial, Verif.Chan.C40_set, Verif.Chan.C40_violation_deleted_channel_call, Verif.Chan.C40_violation_reactivated_after_delete, Verif.Chan.C44_all_channels, Verif.Chan.C44_finalize, Verif.Chan.C44_get_channel, Verif.Chan.C44_is_active, Verif.Chan.C44_life_cycle, Verif.Chan.C44_new_id, Verif.Chan.C93_events_partial, Verif.Chan.C93_example, Verif.Chan.C93_flush_partial, Verif.Chan.C93_fresh_partial, Verif.Chan.C93_status_partial, Verif.Cli.C31_selector_string, Verif.Cli.C87_options_partial, Verif.Cli.C87_unknown, Verif.Cli.C87_violation_dropped, Verif.Cli.C87_violation_empty_value, Verif.Cli.C88_bad_query, Verif.Cli.C88_command_line_partial, Verif.Cli.C88_no_query, Verif.Cli.C88_violation_colon, Verif.Cli.C88_violation_key_ignored, Verif.Cli.C88_violation_unknown_function, Verif.Cli.C88_violation_where_dropped, Verif.Conc.C16_concurrent_partial, Verif.Conc.C36_children_list, Verif.Conc.C36_example, Verif.Conc.C36_insertion_point, Verif.Conc.C36_lock_free, Verif.Conc.C36_never_lost, Verif.Conc.C36_reader, Verif.Conc.C45_creates_only_missing, Verif.Conc.C45_existing_child_found, Verif.Conc.C45_one_copy_per_thread, Verif.Conc.C45_result_path, Verif.Conc.C45_violation_race, Verif.Conc.Cache.C35_never_stale_partial, Verif.Conc.Sig.C37_check_exact_partial, Verif.Conc.Sig.C37_exclusive_partial, Verif.Conc.Sig.C37_outermost_return, Verif.ConfMgr.C66_config_spec, Verif.ConfMgr.C66_config_spec_skipped, Verif.ConfMgr.C66_faulty_option_spec, Verif.ConfMgr.C66_load, Verif.ConfMgr.C66_option_specs, Verif.ConfMgr.C66_structured, Verif.ConfMgr.C66_unclosed, Verif.ConfMgr.C66_violation_bad_option, Verif.ConfMgr.C66_violation_empty_dict, Verif.ConfMgr.C66_violation_escape, Verif.ConfMgr.C67_add, Verif.ConfMgr.C67_add_extra, Verif.ConfMgr.C67_bad_file, Verif.ConfMgr.C67_check, Verif.ConfMgr.C67_defaults, Verif.ConfMgr.C67_error_stays, Verif.ConfMgr.C67_grows, Verif.ConfMgr.C67_malformed, Verif.ConfMgr.C67_unknown_option, Verif.ConfMgr.C67_violation_added_with_error, Verif.ConfMgr.C67_violation_old_extra, Verif.ConfMgr.C67_violation_stale_default, Verif.ConfMgr.C67_violation_trailing_comma, Verif.ConfMgr.C68_channel, Verif.ConfMgr.C68_check, Verif.ConfMgr.C68_config, Verif.ConfMgr.C68_enabled, Verif.ConfMgr.C68_expand, Verif.ConfMgr.C68_order, Verif.ConfMgr.C68_services, Verif.ConfMgr.C68_terminates, Verif.ConfMgr.C68_violation_brace, Verif.ConfMgr.C68_violation_cycle, Verif.ConfMgr.C68_violation_off_inherited, Verif.ConfMgr.C68_violation_twice, Verif.ConfMgr.C68_violation_unfilled, Verif.ConfMgr.C69_metadata, Verif.ConfMgr.C69_violation_braces, Verif.ConfMgr.C69_violation_dotted, Verif.ConfMgr.C69_violation_no_value, Verif.ConfMgr.C69_violation_pairs_with_file, Verif.Config.C53_fixed, Verif.Config.C53_overrides, Verif.Config.C53_precedence, Verif.Config.C53_variable, Verif.Config.C53_violation_preset, Verif.Config.C54_files_partial, Verif.Config.C54_profile_partial, Verif.Config.C54_violation_builtin, Verif.Config.C54_violation_first, Verif.Config.C54_violation_lost, Verif.E2E.C86_all_threads_partial, Verif.E2E.C86_end_to_end_partial, Verif.E2E.C86_text, Verif.E2E.C86_text_example, Verif.E2E.C86_tree_example, Verif.E2E.C86_tree_partial, Verif.E2E.C86_tree_text_example, Verif.Io.C85_records_partial, Verif.Io.C85_violation_earlier, Verif.Io.C85_violation_finish_last, Verif.Io.C85_violation_stale, Verif.MTree.C15_existing_nodes_unchanged, Verif.MTree.C15_failure_means_full, Verif.MTree.C15_full_tree_wrong_path, Verif.MTree.C15_get_child, Verif.MTree.C15_path_request_partial, Verif.MTree.C15_paths_identify_nodes, Verif.MTree.C15_same_node_again, Verif.MTree.C15_wanted_exists, Verif.MTree.C16_ids_unique_partial, Verif.MTree.C16_long_path_overflow, Verif.MTree.C16_lookup_partial, Verif.MTree.C16_lookup_sound_partial, Verif.Memstat.C115_example, Verif.Memstat.C115_values, Verif.Monitor.C114_numbers, Verif.Mpi.C106_absent_violated, Verif.Mpi.C106_can_finish, Verif.Mpi.C106_demo, Verif.Mpi.C106_report_partial, Verif.Mpi.C106_returns, Verif.Mpi.C106_single_process_partial, Verif.Mpi.C48_can_finish, Verif.Mpi.C48_complete, Verif.Mpi.C48_no_deadlock, Verif.Mpi.C48_no_message_left, Verif.Mpi.C48_no_overflow, Verif.Mpi.C48_terminates, Verif.Mpi.CM.C117_copy_partial, Verif.Mpi.CM.C117_example, Verif.Mpi.CM.C117_own_partial, Verif.Mpi.CM.C117_start, Verif.Mpi.CM.C117_violation_colon, Verif.Mpi.LR.C111_content, Verif.Mpi.LR.C111_example, Verif.Mpi.LR.C111_report_partial, Verif.Mpi.LR.C111_rows_bound, Verif.Mpi.LR.C111_violation_hang, Verif.Mpi.LR.C111_violation_nested, Verif.Mpi.LR.C111_violation_overflow, Verif.Mpi.LR.C111_violation_ranks, Verif.Mpi.LR.C111_violation_rows, Verif.MpiFilter.C83_filter, Verif.MpiFilter.C83_pairs_partial, Verif.MpiFilter.C83_regions, Verif.MpiFilter.C83_violation_other_channel, Verif.MpiFilter.C83_violation_unpaired, Verif.MpiFilter.C83_violation_warning, Verif.MpiFilter.C83_warnings_partial, Verif.MpiMsg.C81_messages_partial, Verif.MpiMsg.C82_totals_partial, Verif.Nvtx.C122_distinct_partial, Verif.Nvtx.C122_ranges_partial, Verif.Nvtx.C122_violation_overflow, Verif.Parse.C32_from_config, Verif.Parse.C32_malformed_rejected, Verif.Parse.C32_missing_comma_ignored, Verif.Pool.C33_disjoint_inbounds_aligned_partial, Verif.Pool.C33_statistics, Verif.Presets.C96_created_partial, Verif.Presets.C96_settings, Verif.Presets.C96_unknown_scope, Verif.Presets.C96_violation_space, Verif.Presets.C96_violation_unknown, Verif.Prof.C79_region_profile_partial, Verif.Prof.C79_violated_many_values, Verif.Prof.C79_violated_shadowed_time, Verif.PropStr.C38_buffer_partial, Verif.PropStr.C38_other_words, Verif.PropStr.C38_roundtrip, Verif.PropStr.C38_string2prop_names, Verif.PropStr.C38_violation_overflow, Verif.PropStr.C38_whole_words, Verif.PropStr.C38_written, Verif.PropStr.C39_type_names, Verif.PropStr.C39_unknown_type, Verif.Py.Annotate.C120_balanced_partial, Verif.Py.Annotate.C120_context_partial, Verif.Py.Annotate.C120_example, Verif.Py.Annotate.C120_violation_disabled, Verif.Py.Annotate.C120_violation_open, Verif.Py.Conv.C109_contents_partial, Verif.Py.Conv.C109_fails_iff, Verif.Py.Conv.C109_mixed_column_violated, Verif.Py.Conv.C109_null_violated, Verif.Query.C30_merge_partial, Verif.Query.C30_order_independent, Verif.Query.C30_parts_partial, Verif.Query.C30_parts_raw_partial, Verif.Query.C30_reports, Verif.Query.C31_pass_iff_partial, Verif.Query.C31_selector_less_is_exist, Verif.Query.C31_stream_partial, Verif.Query.C31_unreadable_value, Verif.Query.C31_violation_empty_entry, Verif.Query.C31_violation_large, Verif.Query.C74_merge_partial, Verif.Query.C74_percent_adds_up, Verif.Query.C74_reports, Verif.Query.CalQL.C61_documented, Verif.Query.CalQL.C61_example, Verif.Query.CalQL.C61_malformed, Verif.Query.CalQL.C61_parse_partial, Verif.Query.CalQL.C61_violation_format, Verif.Query.CalQL.C61_violation_path, Verif.Query.CalQL.C61_violation_quoted_not, Verif.Query.CalQL.C61_violation_star, Verif.Query.Plan.C92_example, Verif.Query.Plan.C92_meaning_unique, Verif.Query.Plan.C92_text_partial, Verif.Query.Plan.C92_violation_number, Verif.Query.Prof.C50_exclusive_adds_up, Verif.Query.Prof.C50_flat_exclusive, Verif.Query.Prof.C50_flat_inclusive_all, Verif.Query.Prof.C50_flat_inclusive_partial, Verif.Query.Prof.C50_flat_inclusive_totals, Verif.Query.Prof.C50_inclusive_is_sum_of_exclusive_partial, Verif.Query.Prof.C50_nested_exclusive_partial, Verif.Query.Prof.C50_nested_inclusive_partial, Verif.Query.Prof.C50_violation_leaf, Verif.Query.Prof.C50_violation_recursion, Verif.Query.Prof.C50_violation_slash, Verif.RT.C09_regions_form_a_stack, Verif.RT.C10_balanced_calls_restore, Verif.RT.C11_mismatched_end, Verif.RT.C12_unaligned_end, Verif.RT.C13_set, Verif.RT.C13_set_twice, Verif.RT.C14_isolation, Verif.RT.C14_process_values_shared, Verif.RT.C14_properties, Verif.RT.C14_threads, Verif.RT.C42_channel_globals_partial, Verif.RT.C42_process_globals_partial, Verif.RT.C47_ends_atomic_partial, Verif.RT.C47_violation_frozen, Verif.RT.C47_violation_lost_begin, Verif.RecTable.C123_example, Verif.RecTable.C123_lines, Verif.RecTable.C123_violation_empty, Verif.RecTable.C123_violation_path, Verif.RecTable.C123_violation_same, Verif.Serv.Adiak.C91_import, Verif.Serv.Adiak.C91_long_truncated, Verif.Serv.Adiak.C91_text_ambiguous, Verif.Serv.Adiak.C91_text_injective, Verif.Serv.Adiak.C91_uint_sign_extended, Verif.Serv.Adiak.C91_witness, Verif.Serv.Adiak.C91_witness_text, Verif.Serv.AllocStats.C89_high_water_mark, Verif.Serv.AllocStats.C89_quiescent, Verif.Serv.AllocStats.C89_regions, Verif.Serv.C51_branches_partial, Verif.Serv.C51_triggers, Verif.Serv.C51_violation_interleaved, Verif.Serv.C51_violation_set, Verif.Serv.C51_violation_threads, Verif.Serv.C52_durations_add_up, Verif.Serv.C52_inclusive, Verif.Serv.C52_region_time_partial, Verif.Serv.C52_stack_errors, Verif.Serv.C52_stamped, Verif.Serv.C52_unmatched, Verif.Serv.C52_violation_threads, Verif.Serv.Callpath.C113_distinct_partial, Verif.Serv.Callpath.C113_example, Verif.Serv.Callpath.C113_length, Verif.Serv.Callpath.C113_path, Verif.Serv.Callpath.C113_violation_deep, Verif.Serv.Callpath.C113_violation_names, Verif.Serv.Kokkos.C118_context_partial, Verif.Serv.Kokkos.C118_example, Verif.Serv.Kokkos.C118_kinds, Verif.Serv.Kokkos.C118_once_partial, Verif.Serv.Kokkos.C118_violation_finished, Verif.Serv.Kokkos.C118_violation_late, Verif.Serv.Kokkos.C118_violation_overlap, Verif.Serv.Kokkos.C118_violation_twice, Verif.Serv.Kokkos.C118_violation_type, Verif.Serv.Ompt.C107_before_registration, Verif.Serv.Ompt.C107_constructs_partial, Verif.Serv.Ompt.C107_demo, Verif.Serv.Ompt.C107_late_registration_violated, Verif.Serv.Ompt.C107_skipped_begin_violated, Verif.Serv.Papi.C110_example, Verif.Serv.Papi.C110_example_hyps, Verif.Serv.Papi.C110_existing_thread_violated, Verif.Serv.Papi.C110_gap_violated, Verif.Serv.Papi.C110_many_violated, Verif.Serv.Papi.C110_refused_thread_violated, Verif.Serv.Papi.C110_registered, Verif.Serv.Papi.C110_reset_violated, Verif.Serv.Papi.C110_thread_total_partial, Verif.Serv.Papi.C110_total_partial, Verif.Serv.Papi.C110_unknown_violated, Verif.Serv.Papi.C110_values_partial, Verif.Serv.Pcp.C121_example, Verif.Serv.Pcp.C121_increase_partial, Verif.Serv.Pcp.C121_log, Verif.Serv.Pcp.C121_memory_counters, Verif.Serv.Pcp.C121_memory_example, Verif.Serv.Pcp.C121_memory_partial, Verif.Serv.Pcp.C121_records_partial, Verif.Serv.Pcp.C121_violation_first, Verif.Serv.Pcp.C121_violation_trace, Verif.Serv.Pcp.C121_violation_unreadable, Verif.Serv.RegionMonitor.C90_short, Verif.Serv.Smp.C112_delete_partial, Verif.Serv.Smp.C112_samples_partial, Verif.Serv.Smp.C112_timers_partial, Verif.Serv.Variorum.C119_errors_partial, Verif.Serv.Variorum.C119_example, Verif.Serv.Variorum.C119_record_partial, Verif.Serv.Variorum.C119_violation_first, Verif.Serv.Variorum.C119_violation_mixed, Verif.Serv.Variorum.C119_violation_names, Verif.Services.C94_available, Verif.Services.C94_builtin, Verif.Services.C94_check, Verif.Services.C94_example, Verif.Services.C94_registered, Verif.Services.C94_settings, Verif.Services.C94_settings_example, Verif.Services.C94_violation_silent, Verif.Services.C94_violation_spurious, Verif.Services.C94_violation_twice, Verif.Services.C94_violation_unknown, Verif.Snap.C19_accounting, Verif.Snap.C19_builder_refines, Verif.Snap.C19_prefix, Verif.Snap.C19_remove_absent, Verif.Snap.C19_remove_first, Verif.Splay.Alloc.C43_active_mem_partial, Verif.Splay.Alloc.C43_highwatermark, Verif.Splay.Alloc.C43_records, Verif.Splay.Alloc.C43_resolve, Verif.Splay.Alloc.C43_totals, Verif.Splay.C34_lookup, Verif.Splay.C34_ordered_map, Verif.Stat.C116_example, Verif.Stat.C116_reuse_partial, Verif.Stat.C116_snapshots, Verif.Stat.C116_totals, Verif.Stat.C116_violation_size, Verif.Stat.C116_violation_uses, Verif.StringDB.C41_interning, Verif.StringDB.C41_stable, Verif.Sym.C99_innermost, Verif.Sym.C99_symbols_nonvacuous, Verif.Sym.C99_symbols_partial, Verif.Sym.C99_violated_channels, Verif.Sym.C99_violated_recursion, Verif.Sym.C99_violated_two_callers, Verif.Timeseries.C95_rows_partial, Verif.Timeseries.C95_violation_tail, Verif.Timeseries.C95_violation_thread, Verif.Topdown.C124_conserved, Verif.Topdown.C124_example, Verif.Topdown.C124_level_two, Verif.Topdown.C124_parts_partial, Verif.Topdown.C124_percent_partial, Verif.Topdown.C124_violation_short, Verif.Topdown.C124_when, Verif.TraceEv.C105_anonymous_threads_violated, Verif.TraceEv.C105_demo, Verif.TraceEv.C105_demo_device, Verif.TraceEv.C105_demo_others, Verif.TraceEv.C105_gputrace_violated, Verif.TraceEv.C105_no_exception, Verif.TraceEv.C105_no_exception_demo, Verif.TraceEv.C105_others, Verif.TraceEv.C105_rank_violated, Verif.TraceEv.C105_regions_partial, Verif.TraceEv.C105_sync, Verif.TraceEv.C105_unmatched_violated

## propext, Quot.sound (113)

Verif.Agg.C28_double_stats, Verif.Agg.C28_int_stats, Verif.Agg.C28_int_sum_exact, Verif.Agg.C28_key_meaning, Verif.Agg.C28_uint_stats, Verif.Agg.C28_uint_sum_exact, Verif.AggThreads.C78_violated_lost, Verif.AggThreads.C78_violated_race, Verif.Annot.Ref.C76_violation_assign, Verif.Annot.Ref.C76_violation_detach, Verif.Annot.Ref.C76_violation_end, Verif.AttrReg.C17_never_rebound, Verif.AttrReg.C17_registered_forever, Verif.BB.C07_hidden_becomes_visible, Verif.BB.C07_visible_disappears, Verif.C02_unpack_invalid, Verif.C03_empty_string_out_of_bounds, Verif.C03_empty_string_violation, Verif.C03_from_string_partial, Verif.C04_int_not_transitive, Verif.C04_int_violation, Verif.C20_unpack_some, Verif.C24_id_roundtrip, Verif.C55_out, Verif.C55_violation_dropcount, Verif.C55_violation_flush_policy, Verif.C59_blocks_partial, Verif.C59_total_partial, Verif.C60_statistics_partial, Verif.C63_violation_no_order, Verif.C73_delivered, Verif.C73_threads_partial, Verif.Capi.C77_violated_no_channel, Verif.Capi.Chn.C108_duplicate_key, Verif.Capi.Chn.C108_flush_default_violated, Verif.Chan.C40_attribute_flags, Verif.Chan.C93_violation_after_release, Verif.Chan.C93_violation_late_callback, Verif.Conc.Cache.C35_ghost_meaning, Verif.Conc.Cache.C35_violation_wraparound, Verif.Conc.Init.C46_initialisation_exclusive, Verif.Conc.Init.C46_single_instance_partial, Verif.Conc.Sig.C37_not_in_handler, Verif.ConfMgr.C67_get_channel, Verif.ConfMgr.C68_query, Verif.Config.C53_lists, Verif.Io.C84_mount_partial, Verif.Io.C84_violation_directory, Verif.Io.C84_violation_mount_point, Verif.Io.C84_violation_root, Verif.Io.C84_violation_rootFs, Verif.Io.C85_violation_failed, Verif.Io.C85_violation_finish_mid, Verif.Io.C85_violation_restart, Verif.Memstat.C115_failures, Verif.Memstat.C115_values_fit, Verif.Monitor.C114_deleted_partial, Verif.Monitor.C114_join, Verif.Monitor.C114_one_per_interval, Verif.Monitor.C114_stopped, Verif.Monitor.C114_violation_deleted, Verif.Monitor.C114_whole, Verif.Mpi.C106_inclusive_violated, Verif.Mpi.CM.C117_flush_partial, Verif.Mpi.CM.C117_rounds, Verif.Mpi.CM.C117_stop, Verif.Mpi.CM.C117_usual, Verif.Mpi.LR.C111_single, Verif.MpiMsg.C82_violation_nested, Verif.MpiMsg.C82_violation_overflow, Verif.Parse.C32_pass, Verif.Pool.C33_never_null, Verif.Pool.C33_ranges_stay, Verif.Pool.C33_violation_alignment, Verif.Pthread.C125_freed_partial, Verif.Pthread.C125_one_master, Verif.Pthread.C125_tagged, Verif.Pthread.C125_transparent, Verif.Pthread.C125_violation_exit, Verif.Pthread.C125_violation_failed_create, Verif.Query.C30_arithmetic, Verif.Query.C30_mixed_types, Verif.Query.C74_percent_whole, Verif.Query.Prof.C50_nested_totals, Verif.RT.C11_frozen_forever, Verif.RT.C11_no_effect, Verif.RT.C14_boards_untouched, Verif.RT.C42_violation_truncated, Verif.Serv.Adiak.C91_retyped, Verif.Serv.Adiak.C91_unset_disables_thread, Verif.Serv.AllocStats.C89_sysalloc, Verif.Serv.AllocStats.C89_sysalloc_witness, Verif.Serv.AllocStats.C89_violation_failed_malloc, Verif.Serv.C52_all_cases, Verif.Serv.Pcp.C121_context_example, Verif.Serv.Pcp.C121_context_partial, Verif.Serv.Pcp.C121_violation_context, Verif.Serv.Pcp.C121_violation_unknown, Verif.Serv.RegionMonitor.C90_measurements, Verif.Serv.Smp.C112_example, Verif.Serv.Smp.C112_idle, Verif.Serv.Smp.C112_period, Verif.Serv.Smp.C112_violation_existing, Verif.Serv.Smp.C112_violation_frequency, Verif.Serv.Smp.C112_violation_inactive, Verif.Serv.Smp.C112_violation_leftover, Verif.Serv.Smp.C112_violation_nesting, Verif.Serv.Smp.C112_violation_race, Verif.Serv.Trace.C97_trace_fits, Verif.Serv.Trace.C97_trace_partial, Verif.Serv.Trace.C97_violation_grow, Verif.StringDB.C41_terminated, Verif.Sym.C99_onecaller_nonvacuous
