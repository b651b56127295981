s("C01", "proved", "")
s("C02", "proved", "")
s("C03", "partial", "Equality theorem is complete for cali_make_variant (sizes < 2^32). cali_make_variant_from_string agrees with it for non-empty strings; for the empty string the code reads p[-1] (violation proved).")
s("C04", "partial", "Complete for UINT, ADDR, BOOL, TYPE, blobs and NUL-free strings; for INT and PTR only if the values are less than 2^31 apart: beyond that the code violates the property (proved). Floating point not modelled.")
s("C05", "proved", "Floating-point variants excluded (conversion of doubles is not modelled).")
s("C06","proved","every history of get/set/del/exchange on the blackboard, refinement to a finite map")
s("C07","partial","exact for histories with a single visibility flag and for histories without slot collisions; violated by the code for colliding keys with mixed visibility (C07_hidden_becomes_visible, C07_visible_disappears)")
s("C08","proved","capacity 910, no call loops forever, refused inserts are counted")
s("C15","partial","get_child, immutability, uniqueness and same-node-again are complete; the exact path of multi-node requests is proved unless a node block is refused (tree full), where the code can return a wrong path (C15_full_tree_wrong_path)")
s("C16","partial","proved for all histories of call-atomic requests of any threads in which no path request has more values than a node block (256); beyond that the code writes out of bounds (C16_long_path_overflow); C16_concurrent_partial extends it to all interleavings of shared-memory accesses")
s("C09","proved","every nested history on every location, any interleaving with other contexts/kinds; assumes no annotation was dropped for lack of space (NoLoss)")
s("C10","proved","region and unaligned attributes; as-value attributes are excluded because end removes the value instead of restoring a previous one")
s("C11","proved","calls without channel argument; channel-specific calls do not check the mark (the code does not either)")
s("C12","proved","")
s("C13","proved","")
s("C14","proved","call-level atomicity")
s("C17","proved","every interleaving of the look-up / get_child / insert steps of any number of create_attribute calls; contents theorem unless the context tree is full")
s("C18","partial","complete for requests naming at most one scope; a request naming two scopes keeps both (C18_two_scopes_kept)")
s("C19","proved","")
s("C20","partial","complete for records with at most four reference entries; false beyond that (C20_violated_many_refs); bounds and needed_len for all inputs")
s("C21","proved","")
s("C22","proved","records whose own contents are well formed in the sense of C20 (at most four references)")
s("C23","proved","exact for all strings of supported characters; for other strings exactly the unsupported bytes are dropped (C23_any_string, witness C23_unsupported_chars_lost)")
s("C24","proved","all values of the types; the invalid type value is the only exception (C24_invalid_type_lost)")
s("C39","proved","")
s("C25","partial","Round trip proved for all metadata trees, records and prior databases, restricted to values the text format supports; violations proved for empty records, single empty strings, hidden attributes and pointer values.")
s("C26","proved","For every acyclic metadata source and call sequence.")
s("C27","proved","For every reachable database and every stream the reader does not crash on.")
s("C28","partial","Counts add up for all call sequences (C28_counts_total); exact statistics per key for keys of at most 16 entries and a fixed attribute set; violated for longer keys and for attributes that appear after the first snapshot with a key.")
s("C29","partial","Equal to a new database for all histories as long as no later snapshot is skipped; violated (read beyond the key vector) when one is.")
s("C30","partial","Order independence proved for all integer records, kernels (count, sum, min, max, avg, inclusive) and permutations; merging of separately aggregated parts proved for any number of parts for queries without inclusive kernels, without kernels that share attributes and whose keys are not aggregated; violations proved for the excluded queries. Floating-point metrics (rounding) are outside the claim; kernels ratio, scale, percent_total, any, variance not modelled.")
s("C31","partial","Proved for all records without empty entries and all filter lists; for <, >, <=, >= the compared integers must be less than 2^31 apart (violation proved beyond that, it is C04's); an empty entry matches filters on unknown attributes (violation proved). C31_selector_string: the selector notation of cali-query -s is read as the conditions it lists.")
s("C32","proved","For all filters, and for every configuration text of plain or quoted words, match(), startswith() and regex(); std::regex is a parameter.")
s("C33","partial","Proved for all histories of any number of pools, all sizes (below 2^62) and alignments 1..16; for larger alignments the code hands out ranges that end beyond the chunk (violation proved).")
s("C34","proved","All histories and key orders; node-level heap model of insert, find, remove, splay and the rotations.")
s("C43","partial","Address resolution proved for all histories with non-overlapping regions; active memory and high-water mark proved when no address is tracked again while live (violation proved otherwise). C43_records: the pushed allocation records, for sizes below 2^31 (C43_violation_large beyond that); C43_violation_zero_size: an element size of 0, as calloc(n, 0) gives, divides by zero. Calls are taken one at a time; label nodes are not modelled.")
s("C38","partial","Round trip proved for all valid words and for all lists of property names; buffers of at least 102 bytes proved safe (the largest string); for shorter buffers the function writes beyond the end whenever the string does not fit (violation proved for all words and lengths of at least 15).")
s("C41","proved","All sequences of NUL-free strings, including the library's binary search.")
s("C42","partial","All histories of annotations with non-hidden attributes, all path lengths; process and channel globals. Blackboards with more than 120 visible entries lose the rest (C42_violation_truncated).")
s("C40","partial","All histories of channel calls and annotations: counts of callbacks proved for begin, set and end. Two violations proved: channel-specific calls on a deleted channel still invoke its callbacks, and activating a deleted channel makes process-wide calls notify it.")
s("C44","proved","All histories of channel calls and annotations on existing channels.")
s("C35","partial","All histories of process-blackboard updates and snapshots by all threads with fewer than 2^31 updates between two snapshots of a thread; beyond that the cached snapshot is stale (C35_violation_wraparound).")
s("C36","proved","All numbers of threads and all interleavings of shared-memory accesses (sequentially consistent memory): well-formed lists, no lost insertions, readers, insertion order, lock-freedom.")
s("C37","partial","All interleavings of nested calls and signals for the guarded API; activate/deactivate_channel, the process-wide memory_region calls and instance() do not take the lock (C37_violation_unguarded).")
s("C45","partial","Right path, only missing nodes created, and at most one copy per thread proved for all threads and interleavings; the same-node part is false under a race (C45_violation_race).")
s("C46","partial","Proved for all executions in which the first call completes its initialisation before another thread enters; with concurrent first calls a second runtime is created (C46_violation_race, C46_violation_mixed).")
s("C47","partial","Proved (equal to an atomic history with the same per-thread call order) for all executions in which no thread changes a slot while another thread is inside an end call on it; otherwise a begin is lost and the thread is later frozen (C47_violation_lost_begin, C47_violation_frozen).")
s("C48","proved","All numbers of ranks and all schedules, with and without buffering. A rank's four messages are one message in the model and merging is list append; loop variable overflow excluded for up to 2^30 ranks.")
s("C49","partial","Proved for any number of files with globals and a database that may have globals already (C49_files_partial), for metadata and values the format supports (as C25).")
s("C50","partial","Flat exclusive profile and all totals proved for every stream; flat inclusive for streams without recursive regions (C50_violation_recursion), nested profiles for names without slashes whose entries end in a region (C50_violation_slash, C50_violation_leaf). An unknown region type silently selects all nested regions (C50_unknown_type).")
s("C51","partial","Without branch filter proved for all histories. Branch filters: proved for properly nested regions of one thread without set calls; violated otherwise (C51_violation_set, C51_violation_interleaved, C51_violation_threads: the branch stack is shared by all threads).")
s("C52","partial","All but the last sentence proved for every history. Region times proved for thread-scope regions with any activity of other threads (no branch filter); violated for process-scope regions used from several threads (C52_violation_threads).")
s("C53","partial","Precedence proved for all histories, with preset() calls made before the config files are read as stated; presets made later override the files (C53_violation_preset; C53_precedence states exactly where they rank).")
s("C54","partial","Proved if the settings of the profile are in one section of one file; violated for repeated sections (C54_violation_first, C54_violation_lost, C54_violation_builtin).")
s("C55","partial","Proved as stated for all policies while the records fit into the buffers (C55_fits); with the grow policy complete and without duplicates for every history, but older chunks are written after newer ones (C55_violation_order); with the stop policy a correct selection in order. Violated: the flush policy never empties the buffer, so it overruns it and duplicates output (C55_violation_flush_policy); buffer size 0 (C55_violation_size); count of dropped snapshots (C55_violation_dropcount).")
s("C56","partial","Proved for the records and object layouts with a reference JSON reader, under RecordOk (values of one label are of one kind, numbers have a JSON literal); strings lose control characters and bytes >= 0x80. Violated: addresses, inf and nan are written unquoted (C56_violation_addr), duplicate labels (C56_violation_duplicate), non-ASCII bytes dropped (C56_violation_utf8), split layout (C56_violation_split), attribute names unescaped (C56_violation_names).")
s("C57","partial","Proved for all histories if the operands are not metadata attributes of other attributes (C57_values_partial), history independence without that hypothesis (C57_history); floating-point operations are parameters. Violated: metadata of attributes is taken for record values (C57_violation_meta), truncated integers wrap to 32 bits (C57_violation_truncate), values of a type different from the attribute's (C57_violation_type).")
s("C58","partial","Proved for all event sequences of any number of threads if no value is empty (C58_reports_partial, exact in both directions). Violated at the API: an unmatched end is never reported, since the runtime delivers no event for it (C58_violation_unmatched_end); set inside a region (C58_violation_set) and empty values (C58_violation_empty) give false alarms.")
s("C59","partial","Proved for all properly nested executions of one thread, all intervals and target lists (C59_blocks_partial, C59_total_partial). Violated: target names match as prefixes (C59_violation_prefix), negative iteration numbers (C59_violation_negative), interleaved threads (C59_violation_threads), channels activated inside a loop (C59_violation_midloop).")
s("C60","partial","Proved for all properly nested executions of one thread in which iterations of one loop are not nested in each other (C60_statistics_partial). Violated for interleaved threads, which share the stack (C60_violation_threads).")
s("C61","partial","Proved for all queries of the grammar (C61_parse_partial) whose formatter arguments contain no white space, quotes, commas or stray equal signs, which do not name an attribute 'not' in a condition, select no attribute after *, use path at most once, and define LET names once. Outside that it is violated: C61_violation_star, C61_violation_format, C61_violation_quoted_not, C61_violation_path.")
s("C62","proved","C62_tree_output, without hypotheses. C62_named_paths documents that naming 'path' together with another attribute in path-attributes drops the nested attributes. Simplified: print-globals is off, the attribute database does not change during the run.")
s("C63","partial","Table: C63_table_partial holds whenever the comparison of the sort values is consistent (goodOrder_uint, goodOrder_int below 2^30, goodOrder_string; missing values allowed: goodOrder_missing). Tree: C63_tree_partial additionally needs every record with a path to have the sort attributes. Violated otherwise: C63_violation_far_apart, C63_violation_table (32-bit truncation of differences), C63_violation_lost_minimum, C63_violation_no_order.")
s("C64","partial","Table: proved (C65_table_output, C64_cut). Tree: C64_tree_partial for names of at least three characters and texts within the limit. Violated otherwise: C64_violation_misaligned, C64_violation_indent.")
s("C65","proved","C65_table_output, without hypotheses. Simplified: print-globals is off, records are added one after another, the attribute database does not change during the run.")
s("C66","partial","C66_structured, C66_option_specs, C66_config_spec, C66_config_spec_skipped, C66_load hold for all written specs whose dictionaries are not empty and whose lists have no empty strings. Violated otherwise: C66_violation_empty_dict, C66_violation_bad_option (a wrong option spec in a config is dropped silently, with all later ones), C66_violation_escape.")
s("C67","partial","C67_add, C67_add_extra, C67_unknown_option, C67_bad_file, C67_malformed, C67_grows, C67_error_stays, C67_check hold without further hypotheses. Violated: C67_violation_stale_default (options in earlier strings win over those in later ones), C67_violation_added_with_error, C67_violation_old_extra, C67_violation_trailing_comma.")
s("C68","partial","C68_enabled, C68_order, C68_check, C68_services, C68_config, C68_channel, C68_query hold whenever the options are found, which C68_terminates shows if no option inherits itself; C68_expand for texts without other braces. Violated otherwise: C68_violation_cycle, C68_violation_twice, C68_violation_off_inherited, C68_violation_unfilled, C68_violation_brace.")
s("C69","partial","C69_metadata holds for pairs with values and for files whose strings do not begin with a brace and whose keys can be written as paths. Violated otherwise: C69_violation_dotted, C69_violation_braces, C69_violation_no_value, C69_violation_pairs_with_file.")
s("C70","partial","C70_split_partial holds for all queries and histories, for finite numbers and records whose values do not have tree-column attributes as metadata. Violated otherwise: C70_violation_nan, C70_violation_metadata, C70_violation_column (a node shared by two columns names one of them), C70_violation_section (globals named like a section).")
s("C71","partial","C71_lines_partial (exact output, for selections without path), C71_read_partial and C71_values (reading back, without separators in titles and values). Violated otherwise: C71_violation_path, C71_violation_separator.")
s("C72","partial","C72_string_partial, C72_snapshot_partial, C72_filename_partial, C72_streams for all formats without alignment letters, widths up to 80, non-empty values, and (snapshot formatter) attributes that exist at the first use. Violated otherwise: C72_violation_align, C72_violation_width, C72_violation_empty, C72_violation_late, C72_violation_exception.")
s("C73","partial","C73_delivered and C73_lazy for all states and sequences of calls; C73_threads_partial for any number of threads after a first use. Violated for threads that use a new stream concurrently: C73_violation_race (double-checked flag without second check).")
s("C74","partial","C74_reports (closed form of every reported record), C74_percent_whole, C74_percent_adds_up; C74_merge_partial for the non-inclusive kernels except variance, integer metrics, distinct attributes, and parts with positive totals. Violated otherwise: C74_violation_shared_numerator, C74_violation_inclusive, C74_violation_zero_total, C74_violation_variance_count.")
s("C75","partial","C75_scoped_partial (contexts restored) and C75_inside_partial (every point inside) for programs that use each annotation with values of its type and nest no as-value block (loop iteration) or set-guard inside a block of the same attribute. Violated otherwise: C75_violation_recursion (iterations of a loop inside an iteration of a loop of the same name disable the thread's annotations), C75_violation_type, C75_violation_set.")
s("C76","partial","C76_loop_lifetime_partial for all schedules without Loop assignment, C76_annotation_lifetime_partial for all schedules without overlapping detach on one object, C76_loop_ended_once_partial without overlapping end() on one loop. Violated otherwise: C76_violation_detach (double delete), C76_violation_end (loop ended twice), C76_violation_assign (implicit Loop assignment: use after free, loop never ended).")
s("C77","partial","C77_pull_and_read_partial for states without hidden attributes, at most 120 entries and attributes that do not describe attributes; C77_first_is_innermost. Violated otherwise: C77_violated_limit (121st entry lost though the buffer is large enough), C77_violated_find_all (find_all reports the attribute's own description of as-value entries), C77_violated_no_channel (returns 2, not 0, for an unknown channel).")
s("C78","partial","C78_memory_safe_partial (flush and clear not overlapping each other), C78_accounted_partial, C78_flush_partial, C78_clear_partial, C78_interval_partial (flush and clear while the other threads are outside the service). Violated otherwise: C78_violated_race (a flush works on a database while its thread writes to it: the stop flag is not waited for), C78_violated_lost (a snapshot between flush and clear is never reported nor counted as dropped), C78_violated_retire (a thread ending while clear is at its database loses its last snapshots), C78_violated_overlap (flush and clear on two threads: use after free), C78_violated_dropped (snapshots during a flush are dropped).")
s("C79","partial","C79_region_profile_partial: composition of annotation runtime, event service, timer and aggregation database, for thread-scope region attributes (no unaligned or process-wide regions), at most 116 values set, no branch filter, snapshot info off, aggregation memory available. Violated otherwise: C79_violated_many_values (with 119 values set the time values no longer fit in the snapshot record and the time is lost), C79_violated_shadowed_time (a user-set value of time.duration.ns is aggregated instead of the time).")
s("C80","partial","C80_query_partial: the whole pipeline LET, WHERE, AGGREGATE against the final metadata database, composing C57, C31 and C30; C80_groups. The kernels count, sum, min, max, inclusive versions and avg; formatting is separate (C62, C65, C71). Violated without the condition on intermediate results: C80_violation_input_order (a record with sum#x that arrives before the definition of x is left out of sum(x)).")
s("C81","partial","C81_messages_partial: all programs of calls the wrapper handles (simulation against an own account of live requests). Calls one at a time; the record's attribute encoding and the documented mpi.call.id (which the code has commented out) are not modelled. Violated otherwise: C81_violation_waitsome, C81_violation_waitany, C81_violation_inactive, C81_violation_stale, C81_violation_comm, C81_violation_collectives, C81_violation_partial_element.")
s("C82","partial","C82_totals_partial: for regions that contain no other communication region and totals that fit an int. Violated otherwise: C82_violation_nested, C82_violation_overflow. The wait timers are not modelled.")
s("C83","partial","C83_filter, C83_regions in full; C83_warnings_partial (lists without duplicates), C83_pairs_partial (no channel made or finished during the call). Violated otherwise: C83_violation_other_channel (regions of another channel's functions), C83_violation_unpaired, C83_violation_warning.")
s("C84","partial","C84_mount_partial: right for tables in which the directory of each mount is a mount or the root, and paths below a mount other than the root. Violated otherwise: C84_violation_root, C84_violation_rootFs (file system of the root never known), C84_violation_mount_point, C84_violation_directory (/a/x attributed to the mount /a/b), C84_violation_twice, C84_violation_same_name.")
s("C85","partial","C85_records_partial: histories without finished channels, failed calls and unwrapped descriptor changes. Violated otherwise: C85_violation_failed (2^64-1 bytes), C85_violation_finish_mid (another channel loses its records), C85_violation_finish_last (use of deleted data), C85_violation_restart (nothing recorded after all io channels finished), C85_violation_stale, C85_violation_earlier.")
s("C86","partial","C86_end_to_end_partial for the profile of one thread, C86_all_threads_partial for a flush with the profiles of any number of threads (sums modulo 2^64): the composition of C79, C25 and C80 for the situation of C79 (thread-scope regions, begin and end calls, no branch filter) and metadata with values the .cali format supports; the query is this one; the reader's database is complete before the first record is processed; C86_text: the query may be given as any text of it (C61, C92). C86_tree_partial goes on to the text cali-query prints with FORMAT tree: exactly one line per region path, with its times, at the level of its depth (print-globals and column contents that are cut off are not covered).")
s("C87","partial","C87_options_partial and C87_unknown in full for values that are not empty. C87_violation_dropped: a lone - and empty arguments are dropped silently. C87_violation_empty_value: --opt= followed by a file name takes the file name as value. A repeated option keeps its first value (part of C87_options_partial).")
s("C88","partial","C88_command_line_partial for lists separated by commas; C88_violation_colon: the documented separator is a colon, which is taken as part of the name; C88_violation_unknown_function: an unknown aggregation function is not an error and drops the rest of the list; C88_violation_where_dropped; C88_violation_key_ignored. File reading is a function parameter; the hiding of attributes ([-]attribute) of --print-attributes is not implemented in the code.")
s("C89","partial","C89_regions, C89_high_water_mark and C89_quiescent for all interleavings, under the assumptions that an address is not allocated twice without a deallocation in between, that a block is not freed while its allocation call is in progress, and that the sum of all sizes is less than 2^64; C89_sysalloc: programs whose library calls succeed meet them. Not so: C89_violation_failed_malloc and C89_violation_failed_realloc (failed allocations are counted, failed realloc loses the old block), C89_violation_inactive (memory freed while the channel is inactive), C89_violation_shared_peak (a snapshot of another thread takes the peak), C89_violation_outside (memory allocated outside of regions).")
s("C90","partial","C90_measurements, C90_executions, C90_short for one thread and regions begun after the channel was activated; times are integers instead of double. Not so: C90_violation_threads (begin and end snapshot of different threads' regions), C90_violation_open_region (empty vector accessed at the end of a region that was open at activation), C90_violation_history (the time in inner regions is added up over all executions but compared with the last one's time: a region once found unsuitable stays so).")
s("C91","partial","C91_import for values that fit (long in 32 bits, unsigned below 2^31, dates not negative, no unset values); C91_text_injective for integers, strings without commas and brackets, ranges of integers, sets, lists and tuples. Not so: C91_long_truncated, C91_uint_sign_extended, C91_unset_disables_thread, C91_text_ambiguous, C91_retyped. Doubles in containers (printed with six digits) and the metadata attributes (adiak.type etc.) are not covered.")
s("C92","partial","C92_text_partial for the aggregation functions count, sum, min, max, avg and their inclusive versions and for all LET operators, under the conditions of C61; C92_meaning_unique. Not so: C92_violation_number, a scale factor that is not a number ends the process by an exception instead of a parse error. The output side (SELECT, ORDER BY, FORMAT) is C61, C62, C65, C71.")
s("C93","partial","C93_status_partial, C93_events_partial, C93_flush_partial, C93_fresh_partial for all histories except: a start after Caliper::release() (C93_violation_after_release: null pointer), and destroying a controller whose channel got another finish callback after the start while nobody holds the channel (C93_violation_late_callback: the list of callbacks is freed while it is run). Calls on the controllers' channels are made through the controllers; copies of controller objects and channel configuration are not modelled.")
s("C94","partial","C94_registered, C94_available and C94_settings without restriction on written lists and specs; C94_builtin: the specifications of all built-in services declare exactly the settings and default values meant; C94_check gives exactly when which warning is printed. Violated: a service listed twice is registered twice (C94_violation_twice); the warnings are neither complete (C94_violation_silent, C94_violation_unknown) nor sound (C94_violation_spurious). What registration functions do, except for their configuration calls, and the printed documentation of services are not modelled.")
s("C95","partial","C95_rows_partial gives all rows and entries of every snapshot for every history without records in signal handlers and with keys of at most 16 entries (C28, C29); C95_interval_partial: the start time is the beginning of the interval if the creating thread makes all snapshots; C95_once: the intervals partition the records. Violated: a first snapshot on another thread has no start time and the time since the epoch as duration (C95_violation_thread); with two threads making snapshots start time and duration are not those of the interval covered by the rows (C95_violation_interval); what follows the last snapshot is not reported (C95_violation_tail). Operations of the threads are atomic.")
s("C96","partial","C96_settings: presets and default scope read from the settings, from whatever source they come; C96_created_partial: in every interleaving of creation calls the attribute has exactly the properties of the first list entry for its name, with the configured default scope, unless the context tree ran out of space (C17); C96_unknown_scope: an unknown default scope is reported. Violated: unknown property names are not reported, drop the properties asked for, and match if they end in a known name (C96_violation_unknown); a list is cut off without a message at an entry with white space inside (C96_violation_space).")
s("C97","partial","C97_aggregation: proved for the aggregation database after every history; C97_trace_partial: for the trace service with the stop and flush policies, C97_trace_fits: for all policies if the record fits. Violated: with the grow policy, the default, a record in a signal handler that does not fit allocates a new chunk (C97_violation_grow); the flush policy writes the output in the handler. Temporary memory of the services on the stack is not memory here; other services are not modelled.")
s("C98","partial","C98_attribute_partial for metadata attributes that are not stored as value, C98_globals_partial if no attribute set is metadata of another one that is set. Violated otherwise: an attribute all of whose metadata is stored as value has no type (C98_violation_type); a value is not set if a global attribute stored as value has it as metadata (C98_violation_metadata).")
s("C99","partial","C99_symbols_partial: exact for every history in which no address is reached over two call paths and no other channel looks up the same attributes; C99_innermost: without the first restriction, one entry per attribute with the right symbols for the innermost address. Violated otherwise: the cache is keyed by the address only, so a function called from two places is shown below the first caller (C99_violated_two_callers), recursion is cut (C99_violated_recursion), and channels share the result nodes, with wrong options and below a root node that is deleted with the other channel (C99_violated_channels).")
s("C100","partial","C100_foreign_line, C100_consistent (after any bytes all entries refer to existing nodes, earlier data is unchanged) and, for every truncation point, C100_truncated_partial (complete lines exactly as in the whole file, at most one record more); C100_crash_exactly characterises the inputs that crash the reader. Violated: null pointer dereference for node records with unknown attribute, parent or unreadable value (C100_violated_unknown_attribute), e.g. in files cut off within a node line (C100_violated_truncated_crash); a cut-off record is delivered with a wrong value (C100_violated_truncated_value), an unknown reference as an empty entry (C100_violated_unknown_ref), both without error.")
s("C101","partial","C101_forwarded: exact for every history of callbacks; C101_nested_partial: proper nesting per thread if attributes are announced before their first use; C101_roctx_partial: ranges if the most recent region of an attribute ends first, over all threads; C101_vtune_partial: names if string contents do not change. Violated: the binding marks a new attribute after other threads can use it, an end without begin is forwarded (C101_violated_race); roctx keeps the ranges of all threads in one stack per attribute (C101_violated_roctx_threads); vtune finds names by address (C101_violated_vtune). nvtx domains and colours are not modelled.")
s("C102","partial","C102_merge_partial, C102_attributes_partial, C102_merge_again_partial, C102_sources_agree_partial and C102_import_globals_partial hold for all sources, databases and records without empty node values and without NUL characters in strings. Violated for these: below a region begun with an empty value the merged path loses the enclosing regions (C102_violated_empty_value); the bytes after a NUL are replaced, and a and a NUL-terminated a become one node (C102_violated_nul_strings).")
s("C103","partial","C103_contents_partial, C103_globals_partial, C103_every_value and C103_attributes_partial hold for all files of representable values without attributes called path, whose lines do not end with a blank and whose last immediate texts are not empty. Violated otherwise: an empty last immediate value loses all immediate values of the record (C103_empty_last_violated), trailing blanks are stripped (C103_trailing_blank_violated), of two paths with the same attribute only the last is kept (C103_two_paths_violated), a nested attribute called path makes the whole read fail (C103_path_attribute_violated), pointer attributes have type t (C103_pointer_type_violated), blank lines raise (C103_blank_line_violated).")
s("C104","partial","C104_calls_partial (find, type, properties, name, cali_get, frozen threads, no crash) and C104_ids hold for all lossless programs; C104_current_region_partial if the thread and the process have either nothing open or a region among the open values. Violated otherwise: a value that is no region is reported as the current region (C104_violated_not_a_region), an open value of the thread hides the process's region (C104_violated_hidden), values of other types than the attribute's are stored (C104_violated_types), global strings include the NUL (C104_violated_global_string).")
s("C105","partial","C105_regions_partial (regions of each thread whose clock does not run backwards, no attribute called gputrace), C105_others (counters, activities, samples), C105_no_exception, C105_sync. Violated otherwise: a region begun before the rank is known aborts the conversion on every rank but 0 (C105_rank_violated), one unmatched end event aborts everything (C105_unmatched_violated), threads without ids are paired across threads (C105_anonymous_threads_violated), an attribute called gputrace is mixed up with device blocks (C105_gputrace_violated). gputrace blocks are modelled, not specified.")
s("C106","partial","C106_report_partial, C106_single_process_partial (integer metrics, mergeable cross query: no inclusive kernels, no kernel reading what another writes), C106_returns and C106_can_finish (any queries). Violated otherwise: inclusive metrics in the cross query are added again at every level of the tree (C106_inclusive_violated); if any process but rank 0 stays out, e.g. because its channel was never started, rank 0 waits forever (C106_absent_violated). Floating-point metrics are not covered.")
s("C107","partial","C107_constructs_partial once the service is registered and no construct begun before that ends afterwards. Violated otherwise: a channel with the service created while threads wait in a barrier (C107_late_registration_violated), or a parallel region entered before Caliper was available (C107_skipped_begin_violated), leads to an end without begin, after which all annotations of the thread are ignored.")
s("C108","partial","C108_calls_partial, C108_ids_partial for histories in which config sets exist, a key occurs once in a list, channels flushed exist, cali_flush is called with a default channel, at most 64 entries are pushed and a report is not to clear. Violated outside of these: C108_flush_deleted_violated (crash), C108_flush_default_violated (the first channel of the program is flushed and emptied), C108_report_clear_violated (flush options of write_report_for_query are ignored), C108_entries_cut_violated.")
s("C109","partial","C109_contents_partial for documents without null values for which the script does not fail, and C109_fails_iff: it fails exactly if a column whose first value is a text has a value that is not a text (C109_mixed_column_violated). A null value is read back as a missing key (C109_null_violated).")
s("C110","partial","C110_registered (exactly when the service is active), C110_values_partial (exact records, with arbitrary failures of reading and resetting) and C110_total_partial, C110_thread_total_partial (nothing lost or twice) for threads whose event sets were made and started and that exist since the channel was made or start later. Violated otherwise: a snapshot of a thread that used Caliper before the channel was made uses a null pointer (C110_existing_thread_violated), as does one of a thread whose event sets were refused (C110_refused_thread_violated); what occurs between reading and resetting is lost (C110_gap_violated), after a failing reset it is reported twice (C110_reset_violated); one unknown counter or a 33rd one drops all counters although the message says that it is skipped (C110_unknown_violated, C110_many_violated). Multiplexing is not modelled.")
s("C111","partial","C111_report_partial (ranks with the same loops first met in the same order: returns, one section for each loop in that order, exact rows), C111_content (whenever it returns, exactly the loops of all ranks, with exact rows), C111_single (one rank always returns), C111_rows_bound (fewer than twice the wanted rows on one rank). Violated otherwise: a loop that some rank does not execute makes rank 0 wait for ever (C111_violation_hang); the same loops in a different order overwrite memory in the broadcast of the name (C111_violation_overflow); up to almost twice timeseries.maxrows rows on one rank (C111_violation_rows) and more with ranks at different iterations (C111_violation_ranks); a loop executed in two places has two sections with the same name and the same combined data (C111_violation_nested). Times and the order of the rows are not modelled.")
s("C112","partial","C112_period, C112_timers_partial (exactly one timer per sampled thread), C112_samples_partial (exactly one sample per interrupt outside Caliper), C112_delete_partial (nothing left over), C112_idle, for threads that first use Caliper while the channel exists and the one that makes it. Violated otherwise: threads that used Caliper before are not sampled (C112_violation_existing); a frequency of 1 gives no samples at all (C112_violation_frequency); a deactivated channel is sampled (C112_violation_inactive); timers of other threads survive the channel and sample into the next one with the old frequency (C112_violation_leftover); a creating thread with a nesting error keeps its timer for ever (C112_violation_nesting); deleting the channel while another thread is in the handler uses a null pointer (C112_violation_race).")
s("C113","partial","C113_path (exactly the kept frames, outermost first, the 40 innermost at most), C113_distinct_partial (up to 40 frames: same path only for the same addresses), C113_length. Violated: deeper stacks lose their outermost functions, so that different stacks have the same path (C113_violation_deep); all functions with names of 100 bytes or more are shown as UNKNOWN (C113_violation_names).")
s("C114","partial","C114_numbers, C114_whole, C114_one_per_interval, C114_stopped and C114_join for all schedules; C114_deleted_partial: only services listed before thread_monitor can be used after their deletion. Violated: whenever thread_monitor is not the first service there is a schedule in which it uses a deleted service (C114_violation_deleted); the first signal handled in the thread ends the monitoring for good (C114_violation_signal).")
s("C115","proved","C115_values, C115_values_fit, C115_unreadable, C115_failures. Numbers of more than twelve digits may not fit into the buffer of 80 bytes and lose digits (C115_violation_long), outside of the quantifier.")
s("C116","partial","C116_totals, C116_snapshots for all streams (records of fewer than 2^31 elements); C116_reuse_partial for all streams in which nodes stand before the records that use them. Violated: each node record is counted as a use (C116_violation_uses); the size of the snapshots leaves out all immediate values (C116_violation_size). Overflow of the int counters and the layout are not modelled.")
s("C117","partial","C117_start, C117_stop, C117_usual, C117_rounds for all histories; C117_flush_partial when all added channels were started; C117_copy_partial for lists of services written with commas; C117_own_partial for channels with an mpireport query. Violated: a list written with colons keeps mpireport in the copy (C117_violation_colon); other channels are shared with the program (C117_violation_shared); a loop report that was not started is a null pointer (C117_violation_null); different orders mix channels (C117_violation_order). MPI itself and what a flush writes (C106, C111) are not part of this model.")
s("C118","partial","C118_context_partial, C118_once_partial for all properly nested histories on any threads in the default configuration, when the channels are made before the first kernel and live until the last. Violated: with several channels each kernel appears once for each of them in all channels (C118_violation_twice); after a channel is finished its deleted instance is used (C118_violation_finished); a channel made inside a kernel ends what it has not begun and freezes the thread (C118_violation_late), as does a kernel_type attribute of another type (C118_violation_type); overlapping kernels are mixed up (C118_violation_overlap).")
s("C119","partial","C119_record_partial and C119_errors_partial for one configured domain, all histories, readings below 2^63. Violated: create_measurement_info loops over all domains for each of them, so with several domains everything is recorded under the last one's name (C119_violation_names, for all lists and histories; C119_violation_mixed); the first average of each thread is half of the reading (C119_violation_first). The Variorum library and JSON are inputs.")
s("C120","partial","C120_context_partial, C120_balanced_partial for all programs in which no exception leaves a decorated function (default configuration); C120_exceptions for all programs. Violated: wrapper has no handler, so that an exception leaves the region open (C120_violation_open), and the return of a decorated caller then disables the thread's annotations (C120_violation_disabled).")
s("C121","partial","C121_records_partial, C121_increase_partial for all histories without sets of unreadable values only; C121_log; C121_context_partial; C121_memory_partial. Values are exact numbers in the model. Violated: unreadable values reset the previous value (C121_violation_unreadable), a failed first fetch (C121_violation_first), the destroyed context is kept (C121_violation_context, C121_violation_unknown), traces in aggregating channels (C121_violation_trace).")
s("C122","partial","C122_ranges_partial for all histories with at most 2^31 different texts; C122_colors, C122_distinct_partial (up to 14 texts); violated after 2^31 texts, whose number overflows an int and indexes outside of the table (C122_violation_overflow). cycle_colors = false is not modelled.")
s("C123","partial","C123_lines for all records. Violated: an empty record prints an empty line (C123_violation_empty), names with the same start and end look the same (C123_violation_same), nested values are printed backwards (C123_violation_path).")
s("C124","partial","C124_conserved, C124_when; C124_parts_partial, C124_percent_partial (if the processor's fractions add up to 255/255 and the intervals are long enough: 100 % up to 0.053 %), C124_level_two. Percentages are exact rational numbers. Violated: slots of intervals below 480000 slots are in the next record, whatever its region (C124_violation_short).")
s("C125","partial","C125_transparent (all schedules, no use of a deleted object), C125_tagged, C125_one_master; C125_freed_partial (if no creation fails and no thread leaves early). Violated: a failing pthread_create and a thread that calls pthread_exit or is cancelled leave their wrapper_args behind for good (C125_violation_failed_create, C125_violation_exit); a thread created before the service was active is never tagged (C125_violation_early). Not modelled: the event subscription of pthread.id.")
