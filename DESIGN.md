# Formal model of LLNL/Caliper in Lean 4 - design

## 1. Layout

* `lean/Verif/<Area>/Model.lean` - executable, total model of the code; each definition cites file and lines in `/repo`.
* `lean/Verif/<Area>/Lemmas*.lean` - helper lemmas and invariants.
* `lean/Verif/Props/<Area>.lean` - the property theorems (names `C01_...`), the small specifications they
  refer to, and beside each theorem an `example` showing that a concrete non-trivial case meets its hypotheses.
* `properties.jsonl` (generated from `tools/props.py`), `MANIFEST.json` (generated from `tools/manifest.py`),
  `seeded/LOG.jsonl` (mutation experiments).

## 2. Trusted base

* Lean 4.33.0 kernel (and the Mathlib modules imported, all kernel-checked).
* Axioms: only `propext`, `Classical.choice`, `Quot.sound`; no own axioms, no compiled evaluation. `AXIOMS.md` (generated by
  `tools/axioms.py` with `#print axioms`) lists the axioms of every theorem in the manifest.
* The faithfulness of the hand-written model to `/repo` as text; nothing is executed. Every definition cites the lines it models.
* The specifications (`*Spec.lean`, and the definitions next to the theorems in `Props/`), which say in Lean what the English property says.
* Machine model: LP64, two's complement, `char` signed (x86-64), `size_t`/`uintptr_t` 64 bit; integer
  wrap-around is modelled where a property is about it (variants, vlenc, aggregation of integers, prop flags);
  container sizes, counters and indices that cannot reach 2^64 in practice are `Nat`.
* Out-of-bounds access, null dereference and the like are explicit outcomes (`none`/`ub`/`dead`) where the code can reach them.
* Concurrency (`Verif/Conc`, `Verif/Mpi`): sequentially consistent interleavings of the individual shared-memory accesses (or, where said
  so, critical sections / messages). Weak-memory effects of the relaxed loads in `lockfree-tree.hpp` are not modelled. The other models
  take one API call as an atomic step.
* Standard library and OS: `std::map`, `std::vector`, `std::sort`, `std::lower_bound`, `malloc` etc. are modelled by their documented
  behaviour; `std::regex`, floating-point arithmetic and the printing/reading of doubles are parameters (theorems hold for every choice,
  under the stated hypotheses about them); clocks are arbitrary readings.

### Which parts of the code are modelled

| part of `/repo` | model | not modelled |
|---|---|---|
| `include/caliper/common/c-util/vlenc.h`, `src/common/cali_variant.c`, `Variant.cpp` | `Vlenc`, `Variant` | doubles, `to_string` of blobs |
| `src/caliper/Blackboard.cpp` | `Blackboard` | print_statistics |
| `src/caliper/MetadataTree.cpp`, `src/common/Node.cpp`, `util/lockfree-tree.hpp` | `Tree`, `Conc` | `copy_path_without_attribute` statistics, memory orders |
| `src/caliper/Caliper.cpp` (begin, end, set, channel variants, create_attribute, get_globals, pull/push snapshot order, instance, channels) | `Runtime`, `Attr`, `Channel`, `Conc` | logging, `memory_region` callbacks, release/finalize order |
| `SnapshotRecord`, `CompressedSnapshotRecord.cpp`, `NodeBuffer.cpp`, `SnapshotBuffer.cpp` | `Snapshot` | |
| `CaliWriter.cpp`, `CaliReader.cpp`, `CaliperMetadataDB.cpp`, `util/write_util.cpp` | `Cali` | file I/O, C++ exceptions |
| `services/aggregate/AggregationDB.cpp` | `Agg` | flush statistics |
| `services/{event,timer,trace,validator,loop_monitor,loop_statistics}` | `Serv` | log messages |
| `src/caliper/ConfigManager.cpp`, `src/common/StringConverter.cpp` (`rec_list`, `rec_dict`, `to_stringlist`) | `ConfMgr` | error messages, documentation texts, the controllers of the built-in configs |
| `src/reader/JsonSplitFormatter.cpp` | `Query/JsonSplit` | mutexes |
| `src/reader/Expand.cpp` | `Query/Expand` | mutex |
| `src/reader/UserFormatter.cpp`, `src/common/SnapshotTextFormatter.cpp`, `src/common/util/split.hpp` | `Query/FormatStr` | mutexes |
| `src/common/OutputStream.cpp` | `Out/Stream`, `Query/FormatStr` (file names) | making directories; buffering; several streams for one file |
| `src/reader/Aggregator.cpp:186-244`, `297-356`, `533-849` | `Query/Kernels` | hash table (in `Query/Agg`), floating-point arithmetic (parameter), mutex |
| `src/caliper/Annotation.cpp`, `include/caliper/Annotation.h` | `Annot/Model`, `Annot/Ref` | attribute metadata lists, `Loop::Iteration` outliving its loop, memory ordering |
| `src/caliper/cali.cpp` (pull, unpack, find_first, find_all) | `Capi/Snapshot` | signal handlers, process-blackboard cache (see C16) |
| `src/services/aggregate/Aggregate.cpp` (thread databases) | `Agg/Threads` | destruction of the service, weak memory (steps are sequentially consistent), address reuse; what a database does with a snapshot is C21-C24 |
| `src/caliper/Caliper.cpp` (`push_snapshot` with event, timer and aggregation services) | `Prof/Model` | other services, trigger info entries other than the region count, pointers stored on blackboards |
| `src/reader/QueryProcessor.cpp` (`process_record`, `flush`), name look-up in `Aggregator.cpp` | `Query/Pipeline` | other kernels than count, sum, min, max, inclusive versions, avg; concurrent `process_record` calls |
| `src/services/mpiwrap/{Wrapper.w,MpiTracing.cpp,MpiPattern.cpp}` | `Mpi/Messages` | datatypes beyond their size, attribute encoding of the records, wait timers, concurrent MPI calls |
| `src/services/mpiwrap/Wrapper.w` (filters, wrap counters) | `Mpi/Filter` | gotcha bindings |
| `src/services/io/IOService.cpp`, `src/services/io/CurIOus/src/*` | `Io/Model` | other wrapped functions of the same forms (`pread`, `fprintf`, ...), nesting of wrappers, gotcha, relative paths that do not resolve |
| `src/tools/cali-query/cali-query.cpp` (one file, one thread, fixed query) | `E2E/Model` | command line, several input files, interleaving of reading and processing, formatters |
| `src/tools/util/Args.cpp` | `Cli/Args` | help output |
| `src/tools/cali-query/query_common.cpp` | `Cli/Query` | help texts, reading of files |
| `src/services/alloc/AllocStatsService.cpp` | `Serv/AllocStats` | log message, attribute creation |
| `src/services/sysalloc/SysAllocService.cpp` | `Serv/AllocStats` (`wrapper`) | installing the hooks; calls made inside Caliper are not tracked |
| `src/services/monitor/RegionMonitor.cpp` | `Serv/RegionMonitor` | log message; `double` times as integers |
| `src/services/adiak/AdiakImport.cpp` | `Serv/Adiak` | the Adiak library (a list of values is given), metadata attributes, printing of doubles is a parameter |
| constructors of the query processor (`Aggregator.cpp:952-995`, `Preprocessor.cpp:362-376`, `QueryProcessor.cpp:41-47`) | `Query/Plan` | kernels other than count, sum, min, max, avg |
| `src/caliper/ChannelController.cpp`, `ConfigManager::start/stop/flush` | `Channel/Controller` | configuration and metadata of the channel, copies of controllers |
| `src/services/Services.cpp`, `src/caliper/config_sanity_check.cpp`, `create_channel` | `Serv/Services` | documentation output, registration functions of the services |
| `src/services/monitor/Timeseries.cpp` | `Serv/Timeseries` | configuration of the sub-profile; interleavings (C78) |
| `src/caliper/Caliper.cpp: parse_attribute_config` | `Attr/Presets` | messages are a flag |
| `src/services/symbollookup/SymbolLookup.cpp` | `Serv/Symbols` | nodes are paths below a root (C15), debug information is a function, set of address attributes is given, no locks |
| `src/reader/CaliReader.cpp: read` on arbitrary input | `Cali/Lines`, `Cali/DB` | input operations succeed, error messages are a flag |
| `src/caliper/AnnotationBinding.{h,cpp}`, `RocTX.cpp`, `VTuneBindings.cpp` | `Serv/Binding` | callbacks are atomic, marker nodes are a set, library calls are values |
| `src/reader/CaliperMetadataDB.cpp` on-line merging | `Cali/Merge` | the source is a map from ids to nodes with a creation rank; string database is C41; lifetimes of string values of immediate entries not modelled |
| `python/caliper-reader/caliperreader/*.py` | `Py/Model` | exceptions are one outcome; cached dictionaries are recomputed; ASCII text; `Attribute.metadata`, lookups by name in `Node.get` not modelled |
| `src/caliper/cali.cpp` (annotation, attribute and look-up calls), `src/caliper/api.cpp:54-60` | `Capi/Calls` | atomic calls; without `cali_set` of raw data, metadata arguments and create-attribute callbacks |
| `python/cali2traceevent.py` | `Py/TraceEvent` | without command line and JSON output; an exception is the outcome `none` |
| `src/caliper/collective_flush.cpp`, `src/caliper/aggregate_over_mpi.cpp` with aggregators | `Mpi/Collective` | same attribute and node ids on all ranks; LET and WHERE one function on records; encoding of messages is C20/C21 |
| `src/services/ompt/OmptService.cpp` (callbacks, registration) | `Serv/Ompt` | OMPT entry points, tool finalization and event subscriptions left out |
| `cali.cpp` (channels) | config sets, create/delete/activate/deactivate/is_active, flush, channel flush, push_snapshot, write_report_for_query; a channel's services are one buffer; names of channels, the logging and the query itself are left out |
| `python/json2json_split.py` | all of the conversion; reading and writing JSON text is Python's |
| `src/services/papi/Papi.cpp` | all but multiplexing, library initialisation, log output and the list of thread data |
| `src/caliper/controllers/LoopReportController.cpp` (collective part), `src/caliper/OutputCommMpi.cpp` (`bcast_str`) | all but times, formatting and order of the rows |
| `src/services/sampler/Sampler.cpp` | all but the unwind cursor, counters and log output |
| `src/services/callpath/Callpath.cpp` (`snapshot_cb`) | all but libunwind, libdw and the tree (C01, C15) |
| `src/services/monitor/ThreadMonitor.cpp` | all but the interval's value and log output |
| `src/services/memusage/MemStatService.cpp` | all but opening and closing the file |
| `src/tools/cali-stat/cali-stat.cpp` | all but option parsing (C87), table layout and averages |
| `src/caliper/MpiChannelManager.cpp`, `CollectiveOutputChannel.cpp` | add/start/stop/collective_flush, `from`, `remove_from_stringlist`; not the cross-process reduction (C106) |
| `src/services/kokkos/KokkosTime.cpp`, `KokkosProfilingSymbols.cpp` | kernel, fence and region callbacks; not `kokkosp_parse_args`, memory callbacks |
| `src/services/variorum/Variorum.cpp` | attribute creation, snapshot callback, error count; the library is an input |
| `src/interface/python/pycaliper/high_level.py` | `annotate_function`; not the check of the annotation type |
| `src/services/pcp/*.cpp` | snapshots, metrics, the shared context, the memory metrics; doubles as exact numbers; not the log lines |
| `src/services/nvtx/Nvtx.cpp` | ranges, domains and colours by text; not the colours by attribute |
| `src/reader/SnapshotTableFormatter.cpp` | all of it; the texts of values are given |
| `src/services/perf/PerfTopdown.cpp` | snapshots and postprocessing; exact percentages; not opening and closing the counters |
| `src/services/pthread/PthreadService.cpp` | wrapper, allocation, tags, initialisation; not GOTCHA and the event subscription |
| `src/reader/{Aggregator,RecordSelector,RegionProfile,JsonFormatter,Preprocessor,CalQLParser,SnapshotTree,TreeFormatter,TableFormatter}.cpp`, `util/format_util.cpp` | `Query` | the kernels not named in C30, `print-globals` |
| `src/common/util/parse_util.cpp`, `RegionFilter.cpp` | `Parse` | |
| `src/common/{RuntimeConfig,StringDB..}` , `cali_prop2string` | `Config`, `StringDB`, `PropStr` | reading of environment variables |
| `src/caliper/MemoryPool.cpp`, `services/alloc/*` | `Pool`, `Splay` | the alloc hooks |
| `mpi-rt aggregate_over_mpi` | `Mpi` | MPI itself |

Everything else (C and Fortran API wrappers, Python, GPU/OMPT/PAPI services, the Expand, JsonSplit and user formatters, the MPI wrapper generator) is not modelled.

### Behaviour of the code that violates a property (each with a theorem `Cxx_violation_*` or similar)

Where the code does not do what the property says, the full property stays in `properties.jsonl`, the theorem proved under the needed
hypothesis carries the suffix `_partial`, and a second theorem exhibits the violation in the model. The list:
C03 empty C string reads before its start; C04 comparison truncates differences to 32 bits; C07 hidden/visible bits after colliding deletes;
C15 full tree returns wrong paths; C16 long paths overflow a node block; C18 two scopes kept; C20 more than four references overwrite each
other; C25 empty records, single empty strings, hidden attributes, pointers; C28 keys longer than 16 entries, late attributes; C29 clear()
breaks the SKIPPED key; C30 shared attributes and inclusive kernels; C31 empty entries; C33 alignments above 16; C35 2^31 updates;
C37 unguarded calls; C38 short buffers overflow; C40 deleted channels; C42 more than 120 globals; C43 re-tracked addresses, 32-bit sizes in allocation records, division by zero for `calloc(n, 0)`; C45 duplicate
children under races; C46 two runtimes under a race; C47 lost begins; C50 recursion/slashes/leaf entries; C51 shared branch stack;
C52 process regions across threads; C53 late presets; C54 repeated sections; C55 flush policy overrun, grow order; C56 invalid JSON;
C57 attribute metadata taken for values; C58 unmatched ends; C59 target loop names matched as prefixes, negative iteration numbers, state
shared by threads, activation inside a loop; C60 loop stack shared by threads; C61 `SELECT *,x` loses `*`, formatter arguments re-parsed,
quoted keywords taken for keywords, `path` selected twice; C63 far-apart integers, missing values in tree nodes;
C64 one-letter region names; C66 empty dictionaries, wrong option specs, escapes; C67 options of earlier strings, unknown parameters,
trailing commas; C68 cyclic inheritance, options given twice or turned off but inherited, unfilled places; C69 dotted names, braces, names without value; C70 infinite values, attribute metadata
in tree columns, nodes shared by columns, globals named like sections; C71 path in SELECT, separators in values; C72 alignment, wide fields, empty values,
late attributes, wrong widths; C73 races at the first use;
C74 shared intermediate attributes, inclusive kernels, zero totals, 32-bit count of variances;
C75 recursion, types, set guards; C76 overlapping detach, overlapping end, implicit assignment of loops;
C77 more than 120 entries, find_all on attribute metadata, unknown channel;
C78 flush racing with snapshots, snapshots between flush and clear, thread exit during clear, overlapping flush and clear;
C79 more values set than fit in a record, user-set time attribute;
C80 intermediate results before the definition of their target attribute;
C81 `MPI_Waitsome`/`MPI_Testsome` statuses taken at the wrong positions, `MPI_Waitany` without a request reads outside the array, inactive or cancelled receives reported,
stale requests after unseen completions, reused communicator handles, data sizes of Scatterv, Scatter and Reduce_scatter, partial elements; C82 nested regions, `int` overflow;
C83 regions visible to channels that do not want them, calls during which a channel is made or finishes, duplicate names reported as unknown;
C84 files on the root, mount points, mounts in unmounted directories, mounts listed twice; C85 failed calls, channels that finish, descriptors reused by unwrapped functions, files opened before the first io channel. C87/C88 (command line): a lone `-` and empty arguments are dropped silently; `--opt= file` takes the file as value; the documented list separator `:` is taken as part of names; an unknown aggregation function silently ends the list; `-s` drops the WHERE of `-q`; `--aggregate-key` without `--aggregate` is ignored. C125: `wrapper_args` is leaked when `pthread_create` fails and when a thread ends by `pthread_exit` or cancellation; threads created before the service is active have no `pthread.id`. C124: intervals of less than 480000 slots are not recorded, and their slots appear in the record of the next interval, which may belong to another region. C123: the table of global values prints the parts of a nested value innermost first as if they were separate values, and an empty line for no values. C122: the number of the next colour is an int: after 2^31 different texts it is negative, and the colour is read from outside of the table. C121: when the last channel with pcp ends, or the first one names an unknown metric, the destroyed PCP context stays in the static variable and no later channel of the process gets the service; a fetch with unreadable values only makes the next increase the full counter; traced records of an aggregating channel get no mem.bytes entries. C120: `annotate_function` does not end the region when the function raises: the region stays open, and if a decorated caller handles the exception its own end mismatches and the thread's annotations are disabled. C119: with more than one domain, `create_measurement_info` gives every domain the attributes of the last one, so that all readings are recorded under its name; the first average is with 0. C118: kokkostime's callbacks are never disconnected and use the deleted instance after the channel is finished; two channels with the service annotate each kernel twice in both; a channel made inside a kernel freezes the thread. C117: `remove_from_stringlist` splits at commas only, so a services list with colons keeps mpireport in the copy; channels without mpireport are shared with the program instead of copied; a loop report that was not started is dereferenced in `collective_flush`; `from` sets the option `CALI_CHANNEL_FLUSH_AT_EXIT`, which does not exist (it is `flush_on_exit`). C116: cali-stat leaves the immediate values out of the size of the snapshots and counts each node record as a use. C115: no violation for sizes of up to twelve digits; longer ones would be cut. C114: a signal ends the monitoring for good (`nanosleep`'s result is compared with `EINTR`), and the monitoring thread uses services that were deleted before it is stopped. C113: the callpath service records at most 40 frames and drops the outermost ones, and shows every function with a name of 100 bytes or more as UNKNOWN. C112: the sampler ignores deactivation, takes no samples with frequency 1, leaves the timers of other threads running when its channel is deleted, and may use a null pointer then. C111: the loop report over MPI waits for ever when a loop is executed on some ranks only, and `bcast_str` overwrites the heap when the j-th loop of a rank has a longer name than that of rank 0; `timeseries.maxrows` is exceeded. C110: the papi service dereferences a null pointer in the first snapshot of every thread that used Caliper before the channel was made, or whose event sets PAPI refused; events between `PAPI_read` and `PAPI_reset` are lost. C109: a column that starts with a text and has a number later makes `json2json_split.py` fail with an exception; `null` values become missing ones. C108: `cali_channel_flush` uses the channel unchecked (crash for a deleted one); `cali_flush` flushes channel 0 even if that is not the default channel; `write_report_for_query` ignores `flush_opts`; more than 64 entries of a snapshot are dropped. OMPT service: an end callback whose begin came before the service was registered (or before Caliper was available) freezes the thread: all its later annotations are ignored (C107). Collective flush: inclusive metrics in the cross-process query are added again at every level of the reduction tree; one process whose channel was never started leaves rank 0 waiting forever (C106). cali2traceevent.py: a region begun before the rank is known, or any unmatched end event, aborts the conversion of all files; events of threads without ids are paired across threads; an attribute called `gputrace` is mixed up with device blocks (C105). `cali_get_current_region_or` reports values that are no regions, and a value of the thread hides the process's regions; by-name calls store values of another type than the attribute's; global strings are stored with their NUL (C104). The Python reader loses all immediate values of a record whose last value is an empty string, strips trailing blanks of the last value on a line, keeps only the last of two paths with the same attribute, fails on nested attributes called `path`, and reports `t` as the type of pointer attributes (C103). A region begun with an empty value cuts the path of everything nested in it when records are merged into a query database (runtime-report), and strings with NUL characters are changed (C102). Annotation bindings may forward an end without its begin for attributes just created by another thread; roctx mixes up the ranges of threads; vtune shows the old name if a name's memory is reused (C101). The reader dereferences a null pointer on node records it cannot use, e.g. in files cut off within a node line, and delivers cut-off records with wrong values without reporting an error (C100). symbollookup shows a function called from two places below its first caller in every call path, cuts recursive call paths, and channels share lookup results, with wrong options and dangling root nodes (C99). `CaliperMetadataDB::create_attribute` loses the type if all metadata is stored as value, and `set_global` loses values that are metadata of other globals (C98). With the trace service's default policy a snapshot in a signal handler allocates memory (C97). Misspelt property names in `CALI_CALIPER_ATTRIBUTE_PROPERTIES` are not reported and drop the properties a program asks for; white space in the list drops its rest (C96). A timeseries snapshot on a thread that did not make the previous one has a wrong start time and duration (C95). A service listed twice is registered twice, and the configuration check is silent about a channel with no snapshot trigger and warns about a complete one (C94). Starting a channel controller after Caliper::release() dereferences a null pointer, and destroying a controller frees the list of finish callbacks while it is being run (C93). A scale factor in a query that is not a number is accepted by the parser and ends cali-query by an uncaught exception (C92). adiak_import truncates long values to 32 bits, makes unsigned values from 2^31 on larger by 2^64-2^32, disables the annotations of the flushing thread when a value is unset, and writes ambiguous texts for strings with commas and empty strings in containers (C91). region_monitor compares times of the last execution with sums over all executions, mixes the regions of threads, and accesses an empty vector for regions open at activation (C90). allocstats counts failed allocations, loses the block of a failed realloc, counts a block twice if it was freed while the channel was inactive, gives the peak to the thread that takes the next snapshot (C89); its `clear_cb` is never connected, so the statistics survive a channel clear.
Observed but not turned into theorems: `Caliper::exchange` on a region attribute corrupts the region's slot; a full tree registers an
invalid attribute for a name for good; `steppow2` overflows above 2^30 ranks; records over MPI are cut at 127 entries; `elem_size` 0 in
memory regions divides by zero; signals during initialisation pass the sigsafe check.

## 3. Plan per property

(kept up to date below; see MANIFEST.json for status)

| id | what is modelled | how it is proved |
|----|------------------|------------------|
| C01 | `vlenc_u64`/`vldec_u64` over `BitVec 64` / byte lists with position | induction on the value (div 128), bit lemmas |
| C02 | `cali_variant_pack/unpack` | composition of C01 |
| C03 | variants as two words + memory; `cali_make_variant`, `cali_variant_eq` | case split; bit-field extraction lemmas |
| C04 | `cali_variant_compare` with C integer conversions | per-type order proofs; INT is false for far-apart values (witness), partial theorem |
| C05 | the `to_*` conversions | case split with bounds |
| C06-C08 | Blackboard as array of 1021 slots, linear probing, backward-shift deletion, toc bitmaps | cluster invariant; refinement to `Key -> Option Entry` |
| C09-C13 | Caliper begin/end/set over blackboard + metadata tree | refinement to a list of (attr, value) pairs |
| C14 | many threads, each call atomic | frame lemmas + induction over schedules |
| C15-C16 | MetadataTree with node blocks per thread | invariant over histories of requests |
| C17 | create_attribute as three atomic steps per thread | invariant over all interleavings |
| C18 | property normalisation over `BitVec 32` | bit reasoning |
| C19 | SnapshotBuilder | refinement to `take cap` of the append history |
| C20-C22 | CompressedSnapshotRecord(View), NodeBuffer, SnapshotBuffer over byte buffers | round-trip by induction |
| C23-C24 | text escaping and number formatting | round-trip by induction |
| C25-C27 | CaliWriter, CaliReader, CaliperMetadataDB | writer/reader simulation relation via id map |
| C28-C29 | AggregationDB with hash chains | refinement to per-key fold |
| C30 | query Aggregator kernels | commutative monoid / semilattice laws |
| C31-C32 | RecordSelector, RegionFilter | decision logic |
| C33 | MemoryPool | invariant over histories |
| C34 | SplayTree via zipper | in-order list preserved |
| C35 | version counter + cached copy | invariant over all interleavings |
| C36 | CAS loop | invariant over all interleavings |
| C37 | siglock | induction over nesting |
| C38-C39 | property/type tables | table proofs |
| C40 | channel lists | induction over histories |
| C41 | string database | sortedness invariant |
| C42 | globals extraction | list reasoning |
| C43 | AllocService on top of the splay tree model | refinement to a finite list of live regions |
| C44 | Channel callbacks registration and channel-specific calls | induction over histories |
| C45 | MetadataTree::get_child/get_path as shared-memory steps of many threads | invariant over all interleavings; race witness |
| C46 | Caliper::instance() first-use protocol as steps | invariant over interleavings; race witnesses |
| C47 | process-scope end = two critical sections | linearisation by induction over executions; witnesses of lost begins |
| C48 | aggregate_over_mpi tree reduction over ranks and messages | invariant over all schedules |
| C49 | writer/reader of globals, several files | simulation as in C25; induction over the files with the merged contents of the globals |
| C50 | RegionProfile / NestedExclusive... accumulators | refinement to sums over records |
| C51 | EventTrigger callbacks on the runtime's event log | counting over histories; violations for shared branch stack |
| C52 | Timer service | telescoping sums over histories |
| C53-C54 | RuntimeConfig precedence, config-file parser and profiles | precedence by case analysis, parsing by induction over lines |
| C55 | Trace service with buffers, chunk lists and policies | invariant over histories; overrun witnesses |
| C56 | JsonFormatter layouts and a reference JSON parser (spec) | parse-after-print by induction |
| C57 | Preprocessor (LET) operators with caches and attribute creation | history-independence invariant |
| C58 | validator service on the event log | stack simulation; Dyck words |
| C59-C60 | loop_monitor and loop_statistics on nested loop histories (`Serv/Loop`) | induction over well-nested bodies |
| C61 | CalQLParser against a separate abstract syntax and printer (`Query/CalQL*`) | parse-after-print by induction over clauses |
| C62-C64 | SnapshotTree + TreeFormatter (`Query/SnapTree*`, `Query/Pad`) over an abstract stable sort (`Util/StableSort`) | reading the printed lines back gives the records; invariants of the tree; lexicographic order of successive stable sorts |
| C63-C65 | TableFormatter (`Query/Table*`) | invariant over the records added; columns only grow |
| C66 | `rec_list`, `rec_dict`, option and config specs (`ConfMgr/{Model,Spec,JLemmas,SpecLemmas}`) | induction over written texts; the map of a spec is determined by the last entries |
| C67 | config strings, defaults, adding channels (`ConfMgr/{StringSpec,StringLemmas,AddLemmas}`) | grammar of config strings, relational meaning, induction over items; what every function keeps |
| C68 | `OptionsImpl` (`ConfMgr/{OptsSpec,OptsLemmas}`) | closure of the inheritance relation; fuel bounded by a rank |
| C69 | channel metadata (`ConfMgr/{MetaSpec,MetaLemmas}`) | induction over nesting depth |
| C70 | `JsonSplitFormatter.cpp` (`Query/{JsonSplit,JsonSplitSpec,JsonSplitLemmas}`) | invariant of the node table (paths of nodes, no duplicates) under rows and flushes; reading back with the JSON reader of C56 |
| C71 | `Expand.cpp` (`Query/{Expand,ExpandSpec}`) | runs of equal attributes in the stably sorted path; reader for lines |
| C72 | format strings (`Query/{FormatStr,FormatStrSpec}`) | tokens of written formats; state of the formatter after the first use |
| C73 | `OutputStream.cpp` (`Out/Stream`) | case analysis over destinations, induction over writes; invariant of interleavings |
| C74 | remaining kernels of `Aggregator.cpp` (`Query/{Kernels,KernelsSpec}`) | closed form of the kernel states by induction over the records; sums of groups are a permutation of all values |
| C75 | `Annotation.cpp` objects and block-structured programs over the runtime model (`Annot/{Model,Spec}`) | induction over programs: the calls are balanced (with the attributes that must be free); abstract runtime of C09-C14 |
| C76 | reference counts as a small-step machine (`Annot/Ref`) | invariant over all schedules: count = handles, one closing thread; second invariant for end() |
| C77 | `cali.cpp` snapshot functions over runtime, blackboards and compressed records (`Capi/Snapshot`) | what a blackboard snapshot denotes (C42's lemmas), C20's round trip, extension of the tree by later calls |
| C78 | per-thread databases of `Aggregate.cpp` as a small-step machine with any number of threads (`Agg/Threads`) | invariant on the linked list, ownership of databases and the snapshots in flight, by induction over schedules; concrete schedules for the races |
| C79 | composition of `Runtime`, `Serv/Event` and `Agg/Model` over timed histories (`Prof/Model`) | induction over the history with the refinement of C09-C14 as invariant: every call gives one record with the path, duration and region count of its interval; then C28 |
| C80 | `QueryProcessor` with names resolved while the database grows (`Query/Pipeline`) | invariant: cached attributes equal the look-up in the final database, attributes not yet found occur in no earlier record; each stage against the final database, then C57, C31, C30 |
| C81 | MPI wrappers, request tables and communicator map (`Mpi/Messages`), generic in what is done with a message | simulation against the live requests of MPI itself (`Mpi/MessagesSpec`); invariant for the communicator numbers |
| C82 | the same wrappers with the counters of `MpiPattern` | the same simulation; fold of the counters over the events of a region |
| C83 | `setup_filter`, the list of configurations and the wrap counters (`Mpi/Filter`) | induction over the function table; invariant: counter = number of live channels that enable the function |
| C84 | mount tree built from `/proc/mounts` and the search in it (`Io/Model`) against longest-prefix (`Io/Spec`) | invariant: the nodes are the mounts; the search stops at the longest mount point |
| C85 | `IOService.cpp` and CurIOus: callbacks, wrappers, file registry (`Io/Model`) against a history specification (`Io/Spec`) | simulation; exact result of removing a channel's callbacks |
| C86 | composition of the region profile (C79), writer and reader (C25), query processor (C80) (`E2E/Model`) against times computed from the history of calls (`E2E/Spec`) | the reader's database is in bijection with the metadata of the source; the rows of the query are sums over the rows of the profile; the printed tree (`E2E/Tree`): each row of the query is a path and its data for the tree formatter (C62), one record per node |
| C87 | `Args::parse`, `get`, `is_set` (`Cli/Args`) against items as a user means them (`Cli/ArgsSpec`) | one lemma per kind of item, induction over the items |
| C88 | `QueryArgsParser::parse_args`, `parse_functioncall`, `parse_arglist` (`Cli/Query`), with the CalQL parser of C73 and the selector parser of C31, against `Cli/QuerySpec` | token-wise reading of calls, splitting of joined lists, composition with C87 |
| C89 | `AllocStatsService` callbacks with one step per critical section and the wrappers of `SysAllocService` (`Serv/AllocStats`) against block lists and peaks over histories (`Serv/AllocStatsSpec`) | invariant relating the maps and counters to the histories of effects, per address and thread; potential argument for the size bound |
| C90 | `RegionMonitor` callbacks (`Serv/RegionMonitor`) against a recursive description of executions (`Serv/RegionMonitorSpec`) | induction on the nesting, table of times as a function of the observed executions |
| C91 | `nameval_cb`, `set_val`, `recursive_unpack`, the pre_flush callback (`Serv/Adiak`) against the meaning of values (`Serv/AdiakSpec`) | fold over the registry; unique decoding of texts by mutual induction on nested values |
| C92 | `Aggregator::configure`, `Preprocessor::configure`, the kernel factories (`Query/Plan`) after the parser (C61) and before the query processor (C80), against the meaning of clauses by function name (`Query/PlanSpec`) | cases over the tables of functions; composition with C61 |
| C93 | `ChannelController` on top of the channel functions (`Channel/Controller`) against the status of each controller after the history (`Channel/ControllerSpec`) | invariant linking controllers, finish callbacks and the specification of channels (C40, C44) |
| C94 | service map, registration, service settings and the configuration check (`Serv/Services`) against names, declared options and rules on groups of services (`Serv/ServicesSpec`) | the reading theorems of C66, C83 and the precedence theorem C53 composed along `create_channel` |
| C95 | the timeseries service over the per-thread aggregation databases (`Serv/Timeseries`) against functions of the history (`Serv/TimeseriesSpec`) | invariant over growing histories relating each database to the records of its thread since the last snapshot, using the refinement of C28 and C29 |
| C96 | `parse_attribute_config` on the configuration of C53 and the property reader of C38 (`Attr/Presets`), composed with the attribute registry of C17 | composition of C53_precedence, the list reader, C38_string2prop_names and C17_contents_of_one_caller |
| C97 | capacities of the vectors of the aggregation database (`Agg/Model`), chunks of the trace buffers (`Serv/Trace`) | invariant: contents lie within the capacities; case analysis of a record in a signal handler |
| C98 | `create_attribute`, `set_global`, `make_tree_entry` of the reader's database (`Cali/DB`) against values on paths (`Cali/MetadataSpec`) | stages of the metadata path; invariant relating the globals to the calls made so far |
| C99 | `process_snapshot`, `get_symbol_entry`, `perform_lookup` with the per-instance caches and the shared result nodes (`Serv/Symbols`) | invariant on caches and result nodes, generic in the relation between address lists and symbol paths, by induction over histories |
| C100 | the reader and its database (`Cali/Lines`, `Cali/DB`) on arbitrary bytes | lines of concatenated texts, induction over lines, the database invariant of C27 |
| C101 | the callbacks of `AnnotationBinding`, the ranges of RocTX and the string handles of VTune (`Serv/Binding`) | induction over histories; filtering properly nested words; invariant of open ranges |
| C102 | `recursive_merge_node`, `merge_snapshot(db, rec)`, `import_globals` (`Cali/Merge`) on top of the reader database | induction over the creation rank of source nodes, with the id-independent meaning of nodes (`Denotes`) as simulation relation; uniqueness of nodes gives idempotence and agreement of sources |
| C103 | the Python package's line splitter, metadata database and record expansion (`Py/Model`) on files produced by the writer model (`Cali/Writer`) | per-line lemmas for the scanner, an invariant relating the reader's node dictionary to the writer's metadata after every prefix of lines, induction over the lines; dictionaries specified by `pathEntry`/`recordEntry` over the writer's metadata only |
| C104 | C calls on top of the runtime model with attribute creation in the context tree (`Capi/Calls`), specification by names (`Capi/CallsSpec`) | refinement: node paths give each known name one valid handle, contexts by id are the images of contexts by name under the injective id map; induction over the program; exact characterisation of the current-region query |
| C105 | the converter on the reader's dictionaries (`Py/TraceEvent`), abstract number operations; specification by bracket matching (`Py/TraceEventSpec`) | stacks hold exactly the open begins (`Open`), induction over the records; a stable sort leaves each thread's events in file order; frames only grow; counting argument (suffixes of balanced sequences) for the absence of exceptions |
| C106 | the reduction of C48 with aggregators of C30 as data and their reported records as messages (`Mpi/Collective`) | forward simulation to the reduction of plain lists: what a rank was fed stands for the records of its subtree (`Good`, closed under appending and under aggregation); control does not depend on data, so C48 gives termination; a missing rank silences the path from it to rank 0 |
| C107 | the callbacks as annotation calls of `Runtime/Model` on the calling thread, with the attributes as global variables that may not exist yet (`Serv/Ompt`) | invariant between the abstract context of C09-C13 and what the thread is doing, by induction on histories of all threads |
| C108 | `Capi/Channels`: config sets, channel life cycle, snapshots and flushes of `cali.cpp` over the channel functions of `Channel/Model`; spec `Capi/ChannelsSpec`: a table of channels | refinement: relation between both states kept by every call (`Props/ChannelCalls`) |
| C109 | `Py/JsonConv`: `json2json_split.py` function by function; spec `Py/JsonConvSpec`: how a json-split document is read | invariant of the node tree (dictionaries and node list agree), induction over rows and columns (`Props/JsonConv`) |
| C110 | `Serv/Papi`: the papi service function by function, with the library as environment; spec `Serv/PapiSpec`: occurrences since the counter was last set to zero, from the history | invariant of the event sets of every thread, permutation of the counters by component, induction over histories (`Props/Papi`) |
| C111 | `Mpi/LoopReport`: local and cross summaries, the loop over the loops found on each rank with its broadcasts, block size and time series; spec `Mpi/LoopReportSpec`: totals, maxima over ranks and blocks straight from the records | rows of an aggregation by key, the share of a rank in the reduction, induction over the rounds (`Props/LoopReport`) |
| C112 | `Serv/Sampler`: the service's static state, timers, the threads' blackboard entries for them and the signal handler in two steps; spec `Serv/SamplerSpec`: sampled threads and samples straight from the history | invariant over histories (`Props/Sampler`) |
| C113 | `Serv/Callpath`: `snapshot_cb` with its arrays filled from the end, frames from the environment; spec `Serv/CallpathSpec`: list operations on the frames | induction over the frames (`Props/Callpath`) |
| C114 | `Monitor/Model`: the monitoring thread (before, in and after `nanosleep`, in a snapshot after `i` callbacks) and the finish callbacks of `n` services, interleaved; spec `Monitor/Spec` | invariant over schedules (`Props/ThreadMonitor`) |
| C115 | `Serv/Memstat`: `parse_statm` and `snapshot_cb` over bytes and 64-bit words; spec `Serv/MemstatSpec`: the text of proc(5) | induction over the digits (`Props/Memstat`) |
| C116 | `Cli/Stat`: the processors of cali-stat over the stream of records; spec `Cli/StatSpec`: counts and sums over the stream | induction over the stream (`Props/Stat`) |
| C117 | `Mpi/ChannelMgr`: the manager, the copies it makes and the channels' states under any history of calls; spec `Mpi/ChannelMgrSpec`: the channels added, read off the calls | invariant over histories (`Props/ChannelMgr`) |
| C118 | `Serv/Kokkos`: the callbacks as calls of the C interface model of C104; spec `Serv/KokkosSpec`: stacks of frames from the calls alone | induction over the history with the refinement of C104 (`Props/Kokkos`) |
| C119 | `Serv/Variorum`: creation of the attributes and the snapshot callback; spec `Serv/VariorumSpec`: the last reading of a thread, from the history | induction over histories (`Props/Variorum`) |
| C120 | `Py/Annotate`: runs of decorated programs as calls of the C interface model of C104; spec `Py/AnnotateSpec`: the functions that are running | structural induction over programs with the refinement of C104 (`Props/Annotate`) |
| C121 | `Serv/Pcp`: fetches, the static context, pcp.memory; spec `Serv/PcpSpec`: totals and last totals of a history of fetches | induction over the history with the last totals as invariant; the destroyed context is an invariant of all further events (`Props/Pcp`) |
| C122 | `Serv/Nvtx`: the calls of the binding (C101) as NVTX calls; spec `Serv/NvtxSpec`: what the library's calls mean, and the open regions with the numbers of their colours | refinement: an invariant between binding, library and specification (`Props/Nvtx`) |
| C123 | `Out/RecTable`: the unpacking and the loop of the printer; spec `Out/RecTableSpec`: the shape of each line | induction over the record; the facts on padding and cutting of C64 (`Props/RecTable`) |
| C124 | `Serv/Topdown`: the counters of a thread, the entries, the percentages; spec `Serv/TopdownSpec`: fractions of an interval, sums over aggregated snapshots | induction over histories and sets of snapshots; rational arithmetic (`Props/Topdown`) |
| C125 | `Serv/Pthread`: threads, the wrapper's arguments on the heap, the tags; spec `Serv/PthreadSpec`: the program without the service | simulation of the plain program and invariants over all histories of actions of any threads (`Props/Pthread`) |
