#!/usr/bin/env python3
"""Source of properties.jsonl (regenerate with: python3 tools/props.py)."""
import json, os
P = []
def p(id, title, statement, quantifier, why, anchors):
    P.append(dict(id=id, title=title, statement=statement, quantifier=quantifier, why_tests_cant=why, anchors=anchors))

p("C01", "Variable-length integers round-trip",
  "Writing any 64-bit unsigned value with vlenc_u64 and reading it back with vldec_u64 yields the same value, consumes exactly the number of bytes that were written, whatever bytes follow in the buffer, and never uses more than 10 bytes; the reader never looks at more than 10 bytes of any buffer.",
  "every 64-bit value; every byte sequence following the encoding; every byte buffer for the read bound",
  "2^64 values and arbitrary trailing bytes cannot be enumerated",
  ["src/common/util/vlenc.h: vlenc_u64, vldec_u64"])
p("C02", "Packed variants round-trip",
  "cali_variant_pack followed by cali_variant_unpack returns the same variant (type, size/hash word and value word), reports success and advances by the packed size (at most 20 bytes); unpacking data with an invalid type code reports failure and returns the empty variant.",
  "every variant with a valid type code; every trailing buffer content; every buffer for the error case",
  "two 64-bit words of input",
  ["src/common/cali_variant.c: cali_variant_pack, cali_variant_unpack"])
p("C03", "Variant equality is equality of type and contents",
  "Two variants built from (type, pointer, size) compare equal with cali_variant_eq / operator== exactly when their types agree and their contents agree: byte-wise for strings and blobs (irrespective of where the bytes are stored), and by value for the other types.",
  "every pair of typed values, every memory content and every storage location",
  "content, addresses and sizes are unbounded; the hash short-cut could reject equal or accept different strings only on rare inputs",
  ["src/common/cali_variant.c: cali_make_variant, _cali_variant_value_eq", "include/caliper/common/cali_variant.h: cali_variant_eq, cali_make_variant_from_string"])
p("C04", "Variant ordering is a strict weak order that agrees with equality",
  "For variants of one type, operator< / operator> (cali_variant_compare) is irreflexive, antisymmetric and transitive, orders unsigned/signed values numerically and strings lexicographically; sorting and <,> query filters rely on it.",
  "every pair / triple of values of a type",
  "an arithmetic shortcut in the comparison can go wrong only for far-apart values",
  ["src/common/cali_variant.c: cali_variant_compare", "include/caliper/common/Variant.h: operator<, operator>"])
p("C05", "Variant conversions never return a wrong value with ok=true",
  "When to_int / to_int64 / to_uint / to_bool / to_attr_type report ok, the returned value is numerically the stored one; when the stored value does not fit or the type is not convertible they report not-ok and return 0.",
  "every variant of every non-floating type",
  "boundary conditions over 2^64 values in both directions",
  ["src/common/cali_variant.c: cali_variant_to_int, cali_variant_to_int64, cali_variant_to_uint, cali_variant_to_bool, cali_variant_to_type"])
p("C06", "The blackboard behaves like a map from keys to entries",
  "After any history of set / del / exchange calls, get(key) returns the value most recently set or exchanged for that key and not deleted since (empty otherwise), exchange returns the previous value, and operations on one key never change what get returns for another key; insertions refused because the table is full are the only exception and are counted.",
  "every finite sequence of set/del/exchange/get operations with every combination of keys (colliding or not)",
  "correct deletion from an open-addressing table depends on the collision pattern; the number of patterns is astronomically large",
  ["src/caliper/Blackboard.h: get, find_existing_entry, find_free_slot", "src/caliper/Blackboard.cpp: add, set, del, exchange"])
p("C07", "Snapshots list every visible blackboard entry exactly once",
  "A blackboard snapshot contains each live entry that was added with include_in_snapshots exactly once and never contains an entry that was added as hidden, or one that was deleted.",
  "every finite history of blackboard operations, every key pattern and visibility",
  "the occupancy bitmaps and the hash table have to stay in sync across all collision/deletion patterns",
  ["src/caliper/Blackboard.cpp: snapshot, add, del"])
p("C08", "The blackboard never overflows or hangs, and reports what it drops",
  "The table always keeps free slots (at most 910 live entries), so look-ups and insertions always terminate inside the table; an insertion into a full table leaves all existing entries intact and increments the skipped counter by exactly one.",
  "every finite history of blackboard operations",
  "termination and capacity must hold for every history",
  ["src/caliper/Blackboard.cpp: add, print_statistics", "src/caliper/Blackboard.h: num_skipped_entries, find_free_slot"])
p("C09", "Regions form a stack",
  "After any properly nested sequence of begin and end calls for stack-type (non-value, aligned) attributes, the current context path lists exactly the regions that were begun and not yet ended, outermost to innermost, with their values; querying an attribute returns its innermost open value.",
  "every nesting depth, every sequence of begin/end calls over every set of attributes, any initial metadata tree",
  "unbounded nesting and histories; tree nodes are shared and reused between histories",
  ["src/caliper/Caliper.cpp: Caliper::begin, Caliper::end, handle_begin, handle_end, load_current_entry, Caliper::get", "src/common/Entry.cpp: Entry::get"])
p("C10", "A matching end undoes its begin",
  "begin(attr, v) immediately followed by end(attr) - or with any balanced sequence in between - leaves the current context path and every attribute query as before the begin.",
  "every reachable state and every balanced call sequence in between",
  "balanced sequences are unbounded",
  ["src/caliper/Caliper.cpp: handle_begin, handle_end"])
p("C11", "Mismatched end calls are detected and freeze the thread's annotations",
  "end(attr) when the innermost open region is not of that attribute (or nothing is open), and end_with_value_check when the value differs, changes no context, triggers no pre-end event, and from then on begin/end/set on that thread (calls without an explicit channel argument) have no effect on the context and deliver no events.",
  "every reachable state and every later sequence of annotation calls",
  "must hold for every mismatch in every state and all continuations",
  ["src/caliper/Caliper.cpp: Caliper::end, Caliper::end_with_value_check, load_current_entry, ThreadData::stack_error"])
p("C12", "Unaligned attributes end independently of each other",
  "Ending an UNALIGNED attribute removes exactly its innermost open value; all other unaligned values stay open, in the same order.",
  "every reachable unaligned path and attribute",
  "all interleavings of overlapping begin/end pairs",
  ["src/caliper/Caliper.cpp: handle_end", "src/caliper/MetadataTree.cpp: remove_first_in_path, copy_path_without_attribute"])
p("C13", "set replaces one value and nothing else",
  "set(attr, v) makes queries for attr return v, drops only the innermost previous value of attr, and leaves the values of all other attributes unchanged; setting twice is the same as setting the last value.",
  "every reachable state, attribute and value",
  "all states and paths",
  ["src/caliper/Caliper.cpp: handle_set", "src/caliper/MetadataTree.cpp: replace_first_in_path"])
p("C14", "Thread-scope and process-scope contexts are isolated",
  "Annotation calls for thread-scope attributes on one thread never change what another thread (or the process blackboard) reports; process-scope values set on one thread are reported on all threads.",
  "every interleaving of annotation calls from any number of threads (atomic at call level)",
  "schedules are unbounded",
  ["src/caliper/Caliper.cpp: Caliper::begin/end/set/get, ThreadData, process_blackboard"])
p("C15", "Context tree nodes are immutable and paths are found again",
  "Requesting a child / path under a node returns a node whose path is the parent's path extended by exactly the requested (attribute, value) pairs; it creates nodes only for the missing suffix, never changes the path of any existing node, and asking again returns the very same node.",
  "every tree state and every request sequence",
  "trees and requests are unbounded",
  ["src/caliper/MetadataTree.cpp: get_path, get_child, create_path, create_child, get_or_copy_node", "include/caliper/common/Node.h: find_child_node"])
p("C16", "Node ids are unique and resolve to their node",
  "Every context tree node created by any thread has an id no other node has, and node(id) returns that node.",
  "every sequence / interleaving of node creation requests from any number of threads, every block configuration",
  "id collisions appear only at block boundaries and in particular interleavings",
  ["src/caliper/MetadataTree.cpp: have_free_nodeblock, create_path, create_child", "src/caliper/MetadataTree.h: MetadataTree::node"])
p("C17", "One name, one attribute, under every schedule",
  "However many threads call create_attribute with the same name concurrently, they all get the same attribute, every later look-up by name returns it, and the registry never holds two attributes for a name; type and properties are those of exactly one of the callers.",
  "every interleaving of the (non-atomic) create_attribute calls of any number of threads",
  "the race window between the two registry look-ups is hit only by rare schedules",
  ["src/caliper/Caliper.cpp: Caliper::create_attribute, Caliper::get_attribute"])
p("C18", "Attribute properties are normalised",
  "Every attribute created through the API has exactly one scope; global attributes are process-scope and unaligned; properties requested by the user (or by the preset, which wins) are otherwise kept, and type and name are as requested.",
  "every property word, preset table and default scope",
  "2^32 flag words times configuration",
  ["src/caliper/Caliper.cpp: Caliper::create_attribute", "src/common/Attribute.cpp: properties, type, name"])
p("C19", "Snapshot records never exceed their capacity and count what they drop",
  "For every sequence of appends and removals the builder holds a prefix of the appended entries within capacity, size never exceeds capacity, and size + skipped accounts for every appended entry; remove deletes exactly the first equal entry.",
  "every capacity, every sequence of appends (single, bulk) and removals",
  "unbounded sequences and boundary sizes",
  ["include/caliper/SnapshotRecord.h: SnapshotBuilder"])
p("C20", "Compressed snapshot records unpack to what was appended",
  "Unpacking a compressed snapshot record (cali_channel_pull_snapshot / cali_unpack_snapshot, MPI aggregation) yields the node ids and the (attribute, value) pairs that were appended, in order; entries that do not fit are dropped as counted by num_skipped; needed_len is the space required.",
  "every list of entries and every buffer size",
  "block-wise packing makes behaviour depend on entry counts and encoded sizes",
  ["src/common/CompressedSnapshotRecord.cpp: append, to_entrylist, unpack_nodes, unpack_immediate", "src/caliper/cali.cpp: cali_channel_pull_snapshot, cali_unpack_snapshot"])
p("C21", "Node buffers round-trip",
  "NodeBuffer::for_each visits, in order, exactly the node records (id, attribute, parent or none, value) that were appended.",
  "every list of node records with ids below 2^63 and sizes below 2^32",
  "unbounded lists, variable-length encodings",
  ["src/common/NodeBuffer.cpp: append, pack_node, unpack_node, for_each"])
p("C22", "Snapshot buffers round-trip",
  "SnapshotBuffer::for_each visits, in order, exactly the records appended, with the same contents, also after the buffer was transferred with import().",
  "every list of records",
  "unbounded lists",
  ["src/common/SnapshotBuffer.cpp: append, import, for_each"])
p("C23", "Strings survive a .cali file",
  "A string value written to a .cali file and read back is unchanged, for every string of printable ASCII characters and newlines, including separators and backslashes; the writer never emits an unescaped separator or line break.",
  "every string over the supported characters, every following text",
  "escaping errors show up only for particular character combinations",
  ["src/common/util/format_util.h: write_cali_esc_string", "src/reader/CaliReader.cpp: read_escaped_word"])
p("C24", "Numbers, booleans, addresses and types survive a .cali file",
  "Integer, unsigned, address, boolean and type values written in .cali text form and parsed back are unchanged.",
  "every value of these types",
  "2^64 values",
  ["src/common/Variant.cpp: write_cali, from_string", "src/common/util/format_util.h: write_uint64", "src/common/util/parse_util.h: str_to_uint64", "src/reader/CaliReader.cpp: read_uint64_element"])
p("C25", "Writing and re-reading records preserves their contents",
  "Reading a .cali stream produced by the writer yields, for every written snapshot record, a record whose entries have the same attribute names and values (expanded along the context tree), whatever node ids the reading database already used.",
  "every metadata tree, every list of records and every prior state of the reading database",
  "trees, records and id collisions are unbounded",
  ["src/reader/CaliWriter.cpp", "src/reader/CaliReader.cpp", "src/reader/CaliperMetadataDB.cpp: merge_node, merge_entry, map_id"])
p("C26", "The writer emits each node once and before its first use",
  "In the stream a CaliWriter produces, each context tree node appears at most once, and every node id used as attribute, parent or reference has been defined earlier in the stream (or is a built-in).",
  "every metadata tree and record sequence",
  "unbounded trees",
  ["src/reader/CaliWriter.cpp: recursive_write_node, write_entrylist"])
p("C27", "Merging streams never changes earlier data",
  "Reading further streams into a database never changes the contents of nodes or records read before, identical paths from different streams share one node, and different paths never share a node.",
  "every sequence of node records from any number of streams",
  "id remapping depends on the order and overlap of ids",
  ["src/reader/CaliperMetadataDB.cpp: merge_node, create_node"])
p("C28", "On-line aggregation computes exact statistics per key",
  "After processing any sequence of snapshots the aggregation database reports, for every distinct key that occurred, one record with the exact number of snapshots with that key and count/min/max/sum of each aggregated attribute over those snapshots; the counts over all records add up to the number of snapshots processed.",
  "every sequence of snapshot records, every key/attribute configuration",
  "hash collisions and key patterns are unbounded",
  ["src/services/aggregate/AggregationDB.cpp: process_snapshot, find_or_create_entry, flush", "src/common/Variant.cpp: update_minmaxsum"])
p("C29", "Clearing the aggregation database gives a fresh one",
  "After clear(), processing any snapshots and flushing yields the same records as with a newly created database.",
  "every history before clear and every sequence after",
  "state that survives clear is visible only in particular continuations",
  ["src/services/aggregate/AggregationDB.cpp: clear"])
p("C30", "Aggregation results do not depend on processing order or partitioning",
  "For integer metrics, aggregating a multiset of records in any order - or aggregating parts separately and merging the parts' flushed results - gives the same count/sum/min/max for each key.",
  "every list of records, permutation and partition",
  "permutations and partitions are unbounded",
  ["src/reader/Aggregator.cpp: CountKernel, SumKernel, MinKernel, MaxKernel, apply_to_matching_entries", "src/caliper/aggregate_over_mpi.cpp"])
p("C31", "WHERE filters select exactly the matching records",
  "A record passes a filter list exactly when every condition holds: Exist/NotExist, ==, not ==, <, >, <=, >= evaluated over all attribute:value pairs of the record including those on context tree paths.",
  "every record, every condition list",
  "unbounded records and conditions",
  ["src/reader/RecordSelector.cpp: pass, have_match, make_clause"])
p("C32", "Region filters: exclude wins, include limits",
  "A region passes iff it does not match an exclude pattern and, if include patterns exist, matches one of them; match compares whole names and startswith compares prefixes.",
  "every pattern lists and region names",
  "unbounded strings",
  ["src/caliper/RegionFilter.h: pass", "src/caliper/RegionFilter.cpp: match, parse_filter_config"])
p("C33", "Memory pool allocations are disjoint, in bounds and aligned",
  "Every successful allocation returns a range that lies inside one of the pool's chunks, has the requested alignment, and does not overlap any other range handed out; merging pools keeps all ranges valid.",
  "every sequence of allocations and merges, all sizes and power-of-two alignments",
  "unbounded histories and sizes",
  ["src/caliper/MemoryPool.cpp: allocate, expand, merge"])
p("C34", "Memory-region lookup tree behaves like an ordered map",
  "After any sequence of insert and remove operations, find returns the element matching the query exactly when one is stored, inserting an equal key replaces the value, and removal removes exactly that element.",
  "every operation sequence and every key order",
  "rotations depend on the whole history",
  ["src/services/alloc/SplayTree.hpp: insert, remove, find, splay"])
p("C35", "Cached process context is never stale",
  "A snapshot taken on any thread contains the process-scope context as of some moment not earlier than the start of the snapshot call: every process-scope update that completed before is included.",
  "every interleaving of process-scope updates and snapshots on any number of threads",
  "the version check is read outside the lock; only particular interleavings would expose staleness",
  ["src/caliper/Caliper.cpp: ThreadData::update_process_snapshot", "src/caliper/Blackboard.h: count"])
p("C36", "Concurrent child insertions are never lost",
  "When any number of threads append children to the same tree node concurrently, every appended child is reachable from the node afterwards, exactly once, and readers never see a broken list.",
  "every interleaving of the load / compare-exchange steps of any number of threads, including spurious failures",
  "lost updates appear only in particular interleavings",
  ["include/caliper/common/lockfree-tree.hpp: append, first_child, next_sibling"])
p("C37", "Signal handlers never enter Caliper in the middle of an operation",
  "While a thread is inside any Caliper operation, however deeply nested, sigsafe_instance() on that thread evaluates to false, and it becomes usable again exactly when the outermost operation returns.",
  "every properly nested sequence of operation entries/exits and every interruption point",
  "interruption points are unbounded",
  ["src/caliper/Caliper.cpp: siglock, Caliper::operator bool, sigsafe_instance"])
p("C38", "Attribute property strings round-trip and respect the buffer",
  "cali_string2prop(cali_prop2string(p)) gives back p for every valid property word; cali_prop2string never writes beyond the given buffer and returns -1 if it is too small.",
  "every valid property word and every buffer length",
  "thousands of flag combinations times buffer lengths",
  ["src/common/cali_types.c: cali_prop2string, cali_string2prop"])
p("C39", "Type names round-trip",
  "cali_string2type(cali_type2string(t)) = t for every type; unknown names map to the invalid type.",
  "every type and every string",
  "all strings",
  ["src/common/cali_types.c: cali_type2string, cali_string2type"])
p("C40", "Events reach every active channel exactly once per annotation",
  "Each begin/end/set of an attribute without SKIP_EVENTS invokes the callbacks of every currently active channel exactly once and of no inactive or deleted channel; SKIP_EVENTS attributes invoke none; activating twice does not duplicate events.",
  "every sequence of create/activate/deactivate/delete channel operations and annotations",
  "unbounded histories",
  ["src/caliper/Caliper.cpp: activate_channel, deactivate_channel, delete_channel, begin, end, set"])
p("C41", "String interning in the reader preserves strings",
  "The string database of the reader returns, for every requested string, a stored copy with the same characters; equal strings share one copy and previously returned copies never change.",
  "every sequence of NUL-free strings",
  "the prefix-based binary search could misplace particular strings",
  ["src/reader/CaliperMetadataDB.cpp: make_string_variant"])
p("C42", "Global metadata is collected completely and in order",
  "get_globals returns exactly the values of global attributes currently set on the process (and channel) blackboard, with path values in their original order and nothing else.",
  "every blackboard state",
  "unbounded paths",
  ["src/caliper/Caliper.cpp: get_globals_from_blackboard, get_globals"])
p("C43", "Allocation tracking resolves addresses and accounts for memory",
  "After any sequence of track and untrack calls, an address inside a live region resolves to that region's id and the right element index and any other address to nothing; the recorded active memory is the number of bytes in live regions and the recorded high-water mark is the largest amount in use since the previous snapshot.",
  "every history of track, untrack and snapshot calls, all addresses and sizes",
  "depends on the whole allocation history and the shape of the lookup tree",
  ["src/services/alloc/AllocService.cpp: track_mem_cb, untrack_mem_cb, resolve_addresses, record_highwatermark", "src/services/alloc/SplayTree.hpp"])
p("C44", "Channels have a clean life cycle",
  "A channel gets a fresh id that is never reused; get_channel and get_all_channels report exactly the channels created and not yet deleted, in order of creation; each channel's init callback runs once at creation and its finish callbacks run exactly once, at its deletion or at finalization; after finalization no channel exists or gets events.",
  "every sequence of create/activate/deactivate/delete/finalize calls on existing channels",
  "unbounded histories",
  ["src/caliper/Caliper.cpp: create_channel, get_channel, get_all_channels, delete_channel, finalize"])
p("C45", "Concurrent requests build one shared tree",
  "Whatever other threads do at the same time, a request for a path returns a node whose path is the requested one, creates nodes only for values that did not exist when it started, and the same request always returns the same node.",
  "every number of threads and every interleaving of their shared-memory accesses",
  "the number of interleavings is unbounded and races are not reproducible in tests",
  ["src/caliper/MetadataTree.cpp: get_child, get_path", "include/caliper/common/lockfree-tree.hpp"])
p("C46", "Caliper is initialised exactly once",
  "However many threads make the first Caliper call at the same time, one runtime is created and every thread works with it.",
  "every number of threads and every interleaving",
  "races on the first call are not reproducible in tests",
  ["src/caliper/Caliper.cpp: Caliper::instance"])
p("C47", "Calls on shared contexts behave as if executed one at a time",
  "Begin, end and set calls of several threads on the process context or on one channel's context have the same effect as the same calls executed one at a time in some order: no begin is lost and no error is flagged that some order of the calls would not produce.",
  "every number of threads and every interleaving of the critical sections of their calls",
  "the window between the two critical sections of an end call is a few instructions long",
  ["src/caliper/Caliper.cpp: end, end_with_value_check, handle_end, load_current_entry"])
p("C48", "Cross-rank aggregation collects every rank's data exactly once",
  "For every number of MPI ranks and however the ranks are scheduled, the reduction terminates without deadlock even if no message is buffered, every message is received, and rank 0 ends with the data of all ranks, each exactly once and in rank order.",
  "every number of ranks, all schedules and message buffering choices, all data",
  "the tree shape depends on the number of ranks; deadlocks depend on timing and the MPI library",
  ["src/caliper/aggregate_over_mpi.cpp: aggregate_over_mpi"])
p("C49", "Run metadata survives the file",
  "Globals (run metadata) written to a .cali file are what a reader of the file reports: the same attribute names and values, wherever in the file the globals record stands and whatever else the file and the reader's database contain. After reading several files the globals are those of all files, each once, where for a metadata attribute stored as a plain value the last file that has a value counts.",
  "all metadata, snapshots and globals a program can write",
  "globals merge into a tree shared with all other data under ids that depend on everything read before",
  ["src/reader/CaliWriter.cpp: write_globals", "src/reader/CaliReader.cpp: read_globals", "src/reader/CaliperMetadataDB.cpp: merge_global, set_global, get_globals"])
p("C50", "Region profiles attribute every measurement to the right regions",
  "For every stream of records and every region type: the exclusive profile gives each region the sum of the measurements taken directly in it, the inclusive profile the sum of the measurements taken while it was open (each measurement once), the region total is the sum of all measurements inside regions of the type, the exclusive values add up to it, and the inclusive value of a path is the sum of the exclusive values of the path and the paths below it.",
  "all streams of records, all region types, all names, any floating-point addition (sums in exact arithmetic)",
  "profiles depend on the nesting, names and attribute types in all records of a run",
  ["src/reader/FlatExclusiveRegionProfile.cpp", "src/reader/FlatInclusiveRegionProfile.cpp", "src/reader/NestedExclusiveRegionProfile.cpp", "src/reader/NestedInclusiveRegionProfile.cpp", "src/caliper/RegionProfile.cpp: exclusive_region_times, inclusive_region_times"])
p("C51", "Exactly the selected annotation events trigger snapshots",
  "With the event service, each begin, set and end of a region leads to exactly one snapshot, naming the attribute and value as trigger (and counting the region on end), if the attribute is one the user selected by name or level and the region passes the region filter; otherwise to none. With a branch filter, snapshots are taken exactly while a region of the branch is open.",
  "all event configurations, attributes, filters and histories of events and attribute creations",
  "which events trigger depends on all earlier attribute creations, subscriptions and open regions of all threads",
  ["src/services/event/EventTrigger.cpp", "src/caliper/RegionFilter.cpp"])
p("C52", "Time values of snapshots are consistent",
  "Every snapshot is stamped with its time; the durations a thread records add up to the time of its last snapshot; the inclusive duration of an end snapshot is the time since the matching begin, and missing if there is none. So the inclusive time reported at the end of a region is the time between the begin and end calls, whatever nested regions and other threads do in between.",
  "all histories of events, snapshots and signals on all threads with a clock that does not go back",
  "the values depend on the whole history of events of the thread and on interleavings with other threads and signal handlers",
  ["src/services/timer/Timer.cpp: snapshot_cb, acquire_timerinfo, create_thread_cb", "src/services/event/EventTrigger.cpp"])
p("C53", "Configuration settings follow a fixed precedence",
  "The value a module gets for a configuration variable is the one given by the last set() or import() call, else by the environment (if allowed), else by the selected config profiles (the last one first), else by the default profile, else by preset() calls, else the module's default. It is fixed when the module first asks for it.",
  "all histories of configuration calls, environments, config files and variables",
  "the value depends on all earlier calls, the environment and the contents of all files at the right times",
  ["src/common/RuntimeConfig.cpp: ConfigSetImpl::init, init_config_database, init_configset, get, set, preset", "src/common/StringConverter.cpp: to_stringlist"])
p("C54", "The last definition in the config files counts",
  "A config profile has the settings written in its sections in the config files, which are read in order; when a variable is defined several times the last definition is taken. Files do not change profiles they do not mention.",
  "all lists of well-written config files",
  "files are arbitrary texts with any number of sections, profiles and repeated definitions",
  ["src/common/RuntimeConfig.cpp: read_config_profiles, read_config_files", "src/common/util/parse_util.cpp: read_word", "doc/sphinx/configuration.rst"])
p("C55", "A trace holds every snapshot since the last clear",
  "With the trace service, a flush at any time writes every non-empty snapshot taken since the last clear exactly once, the snapshots of each thread in the order in which they were taken and exactly as they were taken. Snapshots that do not fit are counted as dropped when the policy is to stop recording. Memory outside of the trace buffers is never written.",
  "all histories of snapshots (in and out of signal handlers), flushes, clears, thread starts and ends, all records, buffer sizes and buffer policies",
  "buffer overflow depends on the sizes of all snapshots so far; the record contents are arbitrary values",
  ["src/services/trace/Trace.cpp", "src/services/trace/TraceBufferChunk.cpp", "src/common/Entry.cpp: pack, unpack"])
p("C56", "JSON output is valid JSON with exactly the selected values",
  "The json output of a query is a valid JSON text for every list of records: a list with one object per record that has a selected value (in order), and in the object layout additionally the globals and the attributes. Each object has exactly one member per label that occurs in the record; the member for a label gives the values with that label: for region paths the values from the outermost to the innermost joined with '/', for other values the value itself, as a number, a truth value or a string.",
  "all record lists, attribute selections, aliases, string contents and layouts",
  "strings are arbitrary byte sequences and validity of the text is a property of the whole document",
  ["src/reader/JsonFormatter.cpp", "src/common/util/format_util.h: write_json_esc_string"])
p("C57", "LET adds exactly the computed value to each record",
  "In a query, a LET definition adds to every record that meets its condition and for which the operator (ratio, scale, truncate, first, sum, leaf) has a value exactly that value under the given name, and changes nothing else; records that lack the operands pass unchanged. Several LETs apply in order, each sees the results of the earlier ones. The result for a record is computed from the values in the record only, and does not depend on which records were processed before.",
  "all records, LET lists, attribute databases and processing histories",
  "caches inside the operators are filled by earlier records, so results could depend on any history; value types and record contents are arbitrary",
  ["src/reader/Preprocessor.cpp", "src/common/Entry.cpp: value, get", "src/common/CaliperMetadataAccessInterface.cpp: get_path_entry"])
p("C58", "The validator reports nesting errors exactly if annotations are improperly nested",
  "With the validator service active on a channel, the final message reports annotation nesting errors exactly if the annotations were improperly nested: for the process and for each thread, the begin and end calls of nested attributes match in last-in-first-out order, those of every other attribute match among themselves, and nothing is left open. Regions of different threads, and overlapping regions of non-nested attributes, are not errors.",
  "all sequences of begin, end and set calls of any number of threads, all attributes and values",
  "the verdict depends on the entire history of interleaved calls, of unbounded length and depth",
  ["src/services/validator/validator.cpp: StackValidator, begin_cb, end_cb, finalize_cb", "src/caliper/Caliper.cpp: begin, end, set"])
p("C59", "loop_monitor snapshots account for every iteration of the target loops",
  "With the loop_monitor service, for each execution of a loop named in target_loops (or every outermost loop if the list is empty) there is one snapshot when the loop begins, and the snapshots until its end partition its iterations into consecutive blocks: loop.iterations is the number of iterations in the block and loop.start_iteration the number of its first iteration. With iteration_interval N and no time interval every block but the last has exactly N iterations. Iterations of inner loops, of other loops, and of other threads' loops are not counted.",
  "all properly nested executions with any loops, iterations and other regions on any number of threads, all intervals, target lists, times",
  "the counters depend on the whole history of the loop and the nesting; intervals, names and iteration numbers are arbitrary",
  ["src/services/monitor/LoopMonitor.cpp: begin_cb, end_cb, snapshot, is_target_loop"])
p("C60", "loop_statistics records every iteration's duration and every loop's iteration count",
  "With the loop_statistics service, for every execution of an iteration inside a loop one snapshot records as iter.duration.ns the time between its begin and its end, and at the end of every loop one snapshot records as iter.count the number of iterations of exactly that loop execution, at any nesting depth and on any thread.",
  "all properly nested executions with any nesting of loops, iterations and other regions, on any number of threads",
  "counts and start times are kept on a stack that depends on the entire nesting history",
  ["src/services/LoopStatistics.cpp: begin_cb, end_cb"])
p("C61", "CalQL queries mean what is written",
  "Every query text built from SELECT, AGGREGATE, WHERE, GROUP BY, ORDER BY, LET and FORMAT clauses, in any order and number, with keywords in upper or lower case, any white space, and names plain or in quotes, is accepted, and the resulting query has exactly the written aggregations with their arguments, filter conditions (NOT giving the opposite comparison), grouping and sort attributes with their direction, LET definitions with their conditions, selected attributes (all for *), aliases and units, and output format with its arguments.",
  "all texts of the query grammar: any number of clauses and list entries, all names and arguments, all layouts",
  "the set of queries is infinite and the clauses interact through shared look-ahead; tests parse a few dozen queries",
  ["src/reader/CalQLParser.cpp: CalQLParserImpl", "src/common/util/parse_util.cpp: read_word, read_char"])
p("C62", "The tree output shows every record once, under its path",
  "The tree report, read top to bottom with the indentation giving the nesting, shows exactly the records that have a path (entries of nested attributes, or of the attributes named in path-attributes), each once, with its data values, under the line of its path; every region path that occurs in a record, including all its prefixes, has exactly one labelled line, at the indentation of its depth; no other path has a line; without ORDER BY the records of one path are in input order.",
  "all finite sequences of records, all attribute sets, all formatter settings, all implementations of a stable sort",
  "the tree is built incrementally from arbitrary records in arbitrary order; tests print a handful of small trees",
  ["src/reader/SnapshotTree.cpp: SnapshotTree::add_snapshot, push_entry", "src/reader/TreeFormatter.cpp: TreeFormatterImpl::add, recursive_print_nodes, flush"])
p("C63", "ORDER BY sorts the report",
  "With ORDER BY, the lines of a table (and in a tree: the children of every node, and the records of one node) come in the requested order: by the last attribute in the list, ties by the one before it, and so on, ascending or descending as asked; a tree node counts with the smallest (ascending) or largest (descending) value at or below it; records equal under all keys keep their input order.",
  "all records, all sort lists, all values, all implementations of a stable sort",
  "sortedness must hold for all values, including large ones, missing ones and ties; tests compare a few outputs",
  ["src/reader/TableFormatter.cpp: TableImpl::flush", "src/reader/TreeFormatter.cpp: get_sorted_child_nodes", "src/reader/SnapshotTree.cpp: SnapshotTreeNode::min_val, max_val, sort", "src/common/cali_variant.c: cali_variant_compare"])
p("C64", "Report columns are aligned and values are not cut without need",
  "In the tree and table reports every column starts at the same position on every line, labels are indented by two blanks per level, and a text is shown in full unless it is longer than the column width limit set by the user, in which case its beginning and end are shown.",
  "all records, all names and values of any length, all widths",
  "alignment depends on lengths of all names, values and nesting depths; tests look at few tables",
  ["src/common/util/format_util.cpp: pad_right, pad_left, clamp_string", "src/reader/TreeFormatter.cpp: column_width, recursive_print_nodes, recursive_max_path_label_width", "src/reader/TableFormatter.cpp: TableImpl::flush"])
p("C65", "The table output shows every record with a value once",
  "The table report has a title line and exactly one line for every record that has a value in a shown or sort column, in input order if there is no ORDER BY; its columns are the selected attributes in the given order or, without selection, the visible attributes in order of first occurrence; each cell shows the record's value of that attribute - for a region stack all values from outermost to innermost separated by slashes -, all cells of a column have the same width, and values are shown in full unless they exceed the column width limit.",
  "all finite sequences of records, all attribute sets, all selections, all implementations of a stable sort",
  "columns appear while records are read and rows have different lengths; tests print a few tables",
  ["src/reader/TableFormatter.cpp: TableImpl::update_columns, add, flush", "src/common/util/format_util.cpp: pad_right, pad_left, clamp_string"])
p("C66", "Option and config specs are read as written",
  "Specs written as JSON text - dictionaries, lists, strings in quotes or as plain words, any white space - give exactly the options and configs they declare: each option with its type, category, services, inherited options, settings and queries (in both notations), each config with its categories, options, defaults, initial configuration and other names; a config that needs a service that is not available is left out; a file with configs and options is loaded completely, or there is an error.",
  "all specs, all nesting depths, all texts and white space",
  "specs are arbitrary nested texts; tests read a handful of built-in ones",
  ["src/caliper/ConfigManager.cpp: OptionSpec::parse_spec, add_config_spec, add_global_option_specs, parse_json_content", "src/common/StringConverter.cpp: rec_list, rec_dict"])
p("C67", "Config strings start the configs they name, with their options",
  "ConfigManager::add with a list of configs, options and load commands adds exactly one channel for each config, in order, with the options given for it, completed by the defaults for this config, the options given outside of configs and the defaults of its spec, in this order of precedence; malformed strings, unknown options, unreadable files and refused options are errors, and then nothing is added; errors stay; check reports an error exactly if add does.",
  "all config strings, all specs and files, all states of the manager",
  "strings, specs and defaults combine in unbounded ways; tests use a few strings",
  ["src/caliper/ConfigManager.cpp: parse_configstring, parse_arglist, read_value, handle_load_command, add_default_parameters, merge_new_elements, parse, ConfigManager::add, ConfigManager::check"])
p("C68", "Options have the effects their specs declare",
  "An option is enabled exactly if it, or an option inheriting it (also through others), is given with a value that turns it on; the channel gets the services of all enabled options once, sorted, and for every configuration variable the last setting among the enabled options, with the option's value put in for {}; queries get the texts of the enabled options in order; options are refused exactly if a bool option has a value that is neither true nor false or a needed service is missing.",
  "all option specs, all inheritance relations, all arguments",
  "inheritance graphs and argument lists are unbounded; tests use the built-in options",
  ["src/caliper/ConfigManager.cpp: OptionsImpl::get_inherited_specs, find_enabled_options, check, services, append_config, update_channel_config, build_query, expand_variables, BasicController"])
p("C69", "Options and metadata given for a config are recorded in the channel's metadata",
  "The channel's metadata has an entry opts:<name> for each option given, the key=value pairs of all metadata options, and the values of the named keys (or of all keys) of the JSON files given in them, nested dictionaries with dots in the names; for each name the last one counts.",
  "all options, all pairs, all files of any nesting depth",
  "files are arbitrary nested texts; tests read one",
  ["src/caliper/ConfigManager.cpp: update_channel_metadata, add_metadata, parse_keyval_list, read_metadata_from_json_file, find_key_in_json, add_metadata_entries"])
p("C70", "The json-split format shows every record, with correct paths",
  "The output of FORMAT json-split is one JSON object: columns and column_metadata describe the columns the query selects, data has one row for each record with the value of the attribute, null, or the number of a node in every column; following the parents of the node gives exactly the record's path in that column, and different nodes have different paths; the rest are the global values. This holds however often the formatter is flushed before.",
  "all records, queries, attribute sets, all histories of adding and flushing",
  "arbitrary trees, names with any characters and sequences of flushes; tests look at a few lines of one output",
  ["src/reader/JsonSplitFormatter.cpp: configure, init_columns, Hierarchy::get_id, write_hierarchy_entry, write_immediate_entry, write_metadata, write_globals, flush"])
p("C71", "The expand format shows the selected values of every record",
  "FORMAT expand writes one line for each record with something to show: name=value for every value, and for the context tree name=outer/.../inner for every attribute on the path, with aliases, only the selected attributes, separated by commas; the lines can be read back.",
  "all records, paths, selections and aliases",
  "records, paths and texts are arbitrary; tests look at a few lines",
  ["src/reader/Expand.cpp: configure, print"])
p("C72", "Format strings and output file names are filled in with the values of the record",
  "A format string (FORMAT string, or an output file name) is text with places %name%, %[width]name% or %name[width]%: for every record the values of the named attributes are put in, paths with slashes, filled up with blanks to the width and aligned; attributes that do not exist give nothing.",
  "all format strings, records and databases; all sequences of uses of a formatter",
  "format strings and histories are unbounded; tests use one or two formats",
  ["src/reader/UserFormatter.cpp: parse, print", "src/common/SnapshotTextFormatter.cpp: parse, print", "src/common/util/split.hpp: split, tokenize", "src/common/OutputStream.cpp: set_filename"])
p("C73", "Output goes where it was directed, completely and in order",
  "What is written to an OutputStream goes to the chosen file or stream and nowhere else, completely and in order; files are created or truncated (or extended, in append mode) when the first text is written; this also holds when several threads write.",
  "all sequences of calls, all states, all interleavings of threads",
  "interleavings of first uses cannot be enumerated by tests",
  ["src/common/OutputStream.cpp: init, stream, reset, set_stream, set_filename, set_mode"])
p("C74", "Ratios, scaled sums, percentages, any, scaled counts and variances are those of the group's records",
  "For every group, ratio(a,b) is the scaled quotient of the sums of a and b, scale the scaled sum, percent_total the group's share of the total over all records (100 percent for a region that contains everything; the sums of the groups add up to the total), any a value of the group's first record that has one, scale_count the scaled number of records, variance the variance of the values; the inclusive variants also count the records of inner regions; aggregating partial results gives the same as aggregating everything.",
  "all queries, records, groupings and partitions of the records",
  "record sequences and partitions are unbounded; tests aggregate one file",
  ["src/reader/Aggregator.cpp: ScaledRatioKernel, ScaledSumKernel, PercentTotalKernel, AnyKernel, ScaledCountKernel, VarianceKernel"])
p("C75", "Scoped annotation objects leave the context as they found it",
  "A program that marks functions, scopes, loops, loop iterations and annotations with the C++ objects (Function, ScopeAnnotation, Loop, Loop::Iteration, Annotation, Annotation::Guard) as local variables leaves every thread's context exactly as before, raises no error, and at every point inside sees exactly the values of the enclosing blocks on top of what was there before.",
  "all block-structured programs with these objects, all names, values and types, all states of the runtime before",
  "program nesting is unbounded; tests use a few fixed nestings",
  ["src/caliper/Annotation.cpp: Function, ScopeAnnotation, Loop, Loop::Iteration, Annotation::Impl, Annotation::Guard", "include/caliper/Annotation.h"])
p("C76", "Copied annotation objects live exactly as long as their handles, and a loop ends exactly once",
  "However the copies of Loop and Annotation objects and their guards are made, assigned and destroyed by whatever threads, the shared object is deleted exactly once, after its last handle is gone, and never used after that; a loop region is ended exactly once, by the first end() or by the last destructor.",
  "all numbers of threads, handles and objects and all interleavings of the atomic operations",
  "schedules; a test sees a few",
  ["src/caliper/Annotation.cpp: Loop::Loop, Loop::~Loop, Loop::end, Annotation::Impl::attach, Annotation::Impl::detach, Annotation::operator=", "include/caliper/Annotation.h: class Loop"])
p("C77", "A snapshot pulled through the C interface reads back exactly what is annotated",
  "If the size returned by cali_channel_pull_snapshot is not larger than the buffer, then - at any later time - cali_unpack_snapshot runs the callback on exactly the open regions (innermost first), open unaligned values and current values of the thread and the process plus what the services measured, until the callback stops it; cali_find_first_in_snapshot returns the first value of an attribute and cali_find_all_in_snapshot all of them; each reports the snapshot's size; nothing is ever written beyond the buffer, and zero is returned if no snapshot was taken.",
  "all annotation histories before and after the pull, buffer lengths, measurements, callbacks and attributes",
  "histories, buffers and callbacks are unbounded; tests pull one or two snapshots into large buffers",
  ["src/caliper/cali.cpp: cali_channel_pull_snapshot, cali_unpack_snapshot, cali_find_first_in_snapshot, cali_find_all_in_snapshot", "src/caliper/Caliper.cpp: Caliper::pull_snapshot", "include/caliper/cali.h"])
p("C78", "Every thread's snapshots are aggregated once and reported by the next flush",
  "With the aggregation service, for any interleaving of snapshots, thread starts, thread exits, flushes and clears of several threads: no per-thread database is used after it was deleted; every snapshot is either put into exactly one database or counted as dropped; a flush made while the other threads are not inside the service reports every snapshot not yet cleared, of running and ended threads, exactly once; a clear removes everything; so in every interval that ends with flush and clear exactly the snapshots of that interval are reported.",
  "all numbers of threads, schedules, snapshots, thread lifetimes and sequences of flush and clear",
  "schedules are unbounded and not under a test's control; tests run one or a few threads once",
  ["src/services/aggregate/Aggregate.cpp: acquire_tdb, process_snapshot_cb, flush_cb, clear_cb, create_thread_cb, release_thread_cb", "src/caliper/Caliper.cpp: Caliper::release_thread"])
p("C79", "A region profile shows the time spent in each region path",
  "With the event, timer and aggregation services on an active channel: for any properly nested begin and end calls of a thread, at any times and with any number of other threads annotating in between, the profile written for the thread has exactly one record for every region path the thread was in at one of its calls; the record's summed duration is the time that passed between consecutive calls of the thread (from the creation of the channel on) while exactly these regions were open, its count is the number of those intervals, and its region count is the number of times the innermost region was ended.",
  "all call histories, interleavings with other threads, region depths and values, time stamps, attribute configurations and contents of the context tree and blackboards",
  "end-to-end over unboundedly many histories; unit tests compare one program's profile, with nondeterministic times",
  ["src/caliper/Caliper.cpp: begin, end, end_with_value_check, push_snapshot", "src/services/event/EventTrigger.cpp: pre_begin_cb, pre_end_cb", "src/services/timer/Timer.cpp: snapshot_cb", "src/services/aggregate/AggregationDB.cpp: process_snapshot, flush"])
p("C80", "A query reports what its clauses say, whenever attributes become known",
  "A query processor that is given attribute definitions and records in any order, as a reader meets them, reports what it would report if all attributes had been known from the start: every record is extended by the LET definitions, exactly those for which all WHERE conditions hold are kept, in order, and - with AGGREGATE - the output has exactly one record for each group of kept records (and each ancestor path an inclusive operator reaches), carrying for each operator its result over exactly the records of that group, under the operator's documented attribute names.",
  "all queries of LET, WHERE, GROUP BY and the reductions count, sum, min, max, their inclusive versions and avg; all interleavings of attribute definitions and records",
  "attribute names are looked up lazily and cached, so behaviour depends on the order in which definitions and records arrive; unit tests use one order",
  ["src/reader/QueryProcessor.cpp: process_record, flush", "src/reader/Aggregator.cpp: AggregationAttributeManager, update_key_attributes, is_key, process, flush", "src/reader/Preprocessor.cpp: process", "src/reader/RecordSelector.cpp: pass"])
p("C81", "MPI message tracing records every message once, with its data",
  "With CALI_MPI_MSG_TRACING, the channel gets exactly one record for each point-to-point message sent (when the send or start call is made), one for each message received (when the call that completes the receive returns) and one for each collective, in that order, with partner rank, tag, size in bytes and the description of the communicator; different communicators get different numbers. Completed sends, persistent requests that are set up but not started, and requests that did not complete make no record.",
  "all sequences of MPI calls with all results the MPI library may give: blocking, non-blocking and persistent requests, all Wait/Test variants, any reuse of request handles, any set of communicators and collectives",
  "the service follows requests through their life with tables keyed by handles the library reuses; unit tests run a few fixed exchanges",
  ["src/services/mpiwrap/Wrapper.w: wrappers of MPI_Send ... MPI_Scatterv", "src/services/mpiwrap/MpiTracing.cpp: handle_send_init, handle_irecv, handle_start, handle_completion, push_coll_event, lookup_comm, make_comm_entry"])
p("C82", "A communication region reports the totals of its messages",
  "With CALI_MPI_MSG_PATTERN, one record is made at each end of a communication region; it has the numbers of messages sent and received and of collectives between the begin and the end of the region, the bytes of each kind, and the numbers of different destinations and sources.",
  "all sequences of MPI calls and communication regions",
  "counters are accumulated over all calls of a region and must match the message history",
  ["src/services/mpiwrap/MpiPattern.cpp: begin_comm_region, end_comm_region, push_send_event, push_recv_event, handle_completion", "src/services/mpiwrap/Wrapper.w"])
p("C83", "MPI functions are marked as regions as the whitelist and blacklist say",
  "A channel with the mpi service instruments exactly the MPI functions its CALI_MPI_WHITELIST and CALI_MPI_BLACKLIST select (none by default, the whitelisted ones, all but the blacklisted ones), warns about exactly the names that are not MPI functions, and a call of an MPI function is marked as an mpi.function region exactly if a live channel instruments the function, with begin and end paired.",
  "all filter strings, all histories of channels being made and finished, all MPI calls of any threads interleaved with them",
  "wrap counters are shared by all channels and change over the program's life",
  ["src/services/mpiwrap/Wrapper.w: setup_filter, init_wrapper_config, delete_wrapper_config, inc_wrap_counters, dec_wrap_counters, push_mpifn, pop_mpifn", "src/common/StringConverter.cpp: to_stringlist"])
p("C84", "I/O operations are attributed to the mount point and file system of the file",
  "The io.mount.point and io.filesystem values of an I/O operation on a file are the mount point and file system type of the entry of /proc/mounts that holds the file: the longest mount point that is a prefix of the file's path.",
  "all mount tables and all absolute paths",
  "mount tables differ from machine to machine; tests see one",
  ["src/services/io/CurIOus/src/mount_tree.c: curious_init_mount_tree, get_mount, add_mount, curious_get_filesystem"])
p("C85", "Each I/O call makes one region and one byte count per io channel",
  "While channels with the io service are alive, each wrapped I/O call opens and closes one io.region (read, write, metadata) per such channel, with the mount point and file system of the file its descriptor refers to, and records the number of bytes moved exactly if it moved any; other channels, and channels that finished, are not affected.",
  "all histories of open, close, read and write calls with any results, and of channels that start and finish between them",
  "the callback and file tables depend on the whole history of channels and descriptors",
  ["src/services/io/IOService.cpp: handle_io, init_curious_in_channel, finalize_curious_in_channel", "src/services/io/CurIOus/src/curious.c", "src/services/io/CurIOus/src/callbacks.c", "src/services/io/CurIOus/src/dynamic_array.c", "src/services/io/CurIOus/src/file_registry.c", "src/services/io/CurIOus/src/wrappers.c"])
p("C86", "The report of cali-query on a profile shows the times of the regions",
  "Threads are profiled while they make properly nested begin and end calls; the profiles are flushed to a .cali file, and cali-query reads the file and runs AGGREGATE sum(sum#time.duration.ns),inclusive_sum(sum#time.duration.ns) GROUP BY path. The output has exactly one row for every region path a thread was in and every path around one; the row shows the region names, the time all threads together spent with exactly these regions open, and the time they spent with these regions open and possibly more inside.",
  "all timed histories of annotation calls of all threads, all context trees and attribute ids, all metadata the file format supports",
  "the result depends on the whole chain of runtime, event, timer and aggregation services, writer, reader, metadata merge and query processor; a test looks at one program",
  ["src/caliper/Caliper.cpp", "src/services/aggregate/AggregationDB.cpp", "src/services/timer/Timer.cpp", "src/reader/CaliWriter.cpp", "src/reader/CaliReader.cpp", "src/reader/CaliperMetadataDB.cpp", "src/reader/QueryProcessor.cpp", "src/reader/Aggregator.cpp", "src/tools/cali-query/cali-query.cpp"])
p("C87", "Command line options mean what was typed",
  "A tool's command line made of long options (--opt, --opt=value, --opt value), groups of short options (-abc, -abc=value, -abc value) and file names in any order, optionally followed by -- and anything else, is accepted; every option has exactly the value typed for it and is set exactly if it was typed, and the file names are the plain arguments and everything after --, in order. An unknown option makes the tool stop and report that option, wherever it is.",
  "all option tables without duplicate names, all command lines",
  "command lines are unbounded sequences; the parser handles many combinations of forms, and what one argument means depends on the ones before it",
  ["src/tools/util/Args.cpp", "src/tools/util/Args.h", "src/tools/cali-query/cali-query.cpp"])
p("C88", "The report options of cali-query give the query they describe",
  "The options --select, --print-attributes, --aggregate, --aggregate-key, --sort-by and the formatter options, together with a CalQL query given with --query or --query-file, result in the query the user describes: conditions, attributes, aggregations with their arguments, aggregation key and sort attributes are exactly the ones listed, in that order, added to (for --select: instead of) those of the CalQL query, and the formatter with its arguments is the one selected. A CalQL query that is not correct is reported.",
  "all command lines of cali-query, all lists of conditions, attributes and aggregations, all CalQL queries",
  "lists are unbounded, names are arbitrary, and the parts interact with the query they are added to",
  ["src/tools/cali-query/query_common.cpp", "src/reader/RecordSelector.cpp", "src/common/util/split.hpp", "src/common/util/parse_util.cpp"])
p("C89", "Allocation statistics are those of the allocated memory",
  "The allocstats service reports for each region the largest number of bytes of the region's own allocations that were allocated at the same time, the number of its allocations, the largest and the average allocation size, and in each snapshot the largest number of bytes allocated at any moment since the previous snapshot. This holds for calls from any number of threads in any interleaving; when no call is in progress the blocks counted are exactly the tracked ones, and for a program that uses malloc, calloc, realloc and free these are the heap blocks allocated inside a region.",
  "all sequences of allocations, deallocations and snapshots of any number of threads, all interleavings of their critical sections",
  "the statistics depend on the whole history, on all interleavings, and on the addresses the allocator reuses",
  ["src/services/alloc/AllocStatsService.cpp", "src/services/sysalloc/SysAllocService.cpp", "doc/sphinx/MemoryUsageProfiling.rst"])
p("C90", "region_monitor measures long-running regions, one at a time",
  "For regions that are executed one inside the other, the region_monitor service takes a begin and an end snapshot for exactly those executions that lie in no other measured execution and whose region, by the executions observed before (those outside of measured ones and longer than the configured interval), spends more than half of its last execution's time outside of the regions in it. The two snapshots of a measurement belong to the begin and the end of the same execution, measured executions never overlap, and a region whose executions are never longer than the interval is never measured.",
  "all nestings and durations of regions, all histories, all intervals",
  "which execution is measured depends on the durations of all executions before it, and the skip counter and time stack must stay balanced for any nesting depth",
  ["src/services/monitor/RegionMonitor.cpp"])
p("C91", "Adiak values become globals of the run",
  "When a channel with the adiak_import service is flushed, every value registered with Adiak in one of the chosen categories (and not of the control category) is a global of the channel that says the same as the registered value: the same number, the same floating-point value, the same string, or for ranges, sets, lists and tuples a text from which the value can be read back. Values of other categories and all other globals are unchanged, and the annotations of the flushing thread are not disturbed.",
  "all registries with unique names, all value types and nestings, all category lists, all states of the globals",
  "container values nest to any depth and the text must be unambiguous for all of them; the conversions must keep all of the 2^64 values",
  ["src/services/adiak/AdiakImport.cpp"])
p("C92", "cali-query does what the text of the query says",
  "A query written in CalQL with any mixture of letter case, white space and quoting is accepted, and the query processor computes exactly the written aggregations (in the order written, a query without any shows the records themselves), LET definitions, conditions and grouping keys, each for the attribute named in the query.",
  "all query texts with any number of clauses and items; all record streams and metadata databases",
  "the space of query texts is infinite; a table entry off by one or a swapped argument shows only for particular combinations",
  ["src/reader/CalQLParser.cpp", "src/reader/Aggregator.cpp", "src/reader/Preprocessor.cpp", "src/reader/QueryProcessor.cpp", "src/tools/cali-query/query_common.cpp"])
p("C93", "Started configurations record until they are stopped",
  "A channel controller (what ConfigManager starts, stops and flushes) has a channel from its start until it is destroyed or the channel is deleted or Caliper released; is_active() says whether the last of start and stop was a start; annotations notify the channel of a running controller exactly once and that of a stopped one not at all; different controllers have different channels, a new start after the end of a channel makes a new one, flush() writes exactly the controller's channel, and destroying the controller removes its channel.",
  "all histories of start, stop, flush and destruction of any number of controllers, direct calls on their channels, other channels and annotations",
  "the controller's pointer is reset from a callback while channels can end in four ways; tests start and stop once",
  ["src/caliper/ChannelController.cpp", "src/caliper/ConfigManager.cpp", "src/caliper/Caliper.cpp", "include/caliper/common/util/callback.hpp"])
p("C94", "A channel gets the services it names",
  "Creating a channel registers each service named in CALI_SERVICES_ENABLE, in that order, once, using the service added last under the name, and reports names it does not know; each option of a service has the value of the first configuration source that has one for CALI_<SERVICE>_<OPTION>, else the default in the service's spec; and the configuration check warns if and only if the listed services cannot produce output.",
  "all arrays of services added, all specs, all histories of configuration calls, environments and service lists",
  "service lists, specs and configuration sources combine freely; tests use a few working combinations",
  ["src/services/Services.cpp", "src/caliper/config_sanity_check.cpp", "src/caliper/Caliper.cpp"])
p("C95", "A time series covers every interval once",
  "With the timeseries service, each snapshot of the channel reports exactly the profile of its interval: for every thread and every distinct key among the records the thread made since the previous snapshot one row with their number and statistics, tagged with the number of earlier snapshots, the trigger information and the time the interval began; its own record has the length of the interval; no record is reported in two intervals and none is lost.",
  "all histories of threads that start, record and end and of snapshots on any thread, all records, clock readings and trigger information",
  "intervals, thread life times and the threads making the snapshots combine without bound; tests have a single thread and a few loop iterations",
  ["src/services/monitor/Timeseries.cpp", "src/services/aggregate/Aggregate.cpp"])
p("C96", "Attribute properties from the configuration",
  "CALI_CALIPER_ATTRIBUTE_PROPERTIES=name=prop1:prop2,... gives the attributes of these names exactly the listed properties, whatever properties the program asks for when it creates them and in whatever order and on whatever threads that happens; other attributes have the properties of the call; attributes without a scope get the scope that CALI_CALIPER_ATTRIBUTE_DEFAULT_SCOPE names. A value that is not understood is reported.",
  "all histories of configuration calls, environments and config files, all property lists, all interleavings of attribute creations",
  "property lists are unbounded and meet every interleaving of creation calls and every source of settings; tests have one list and one thread",
  ["src/caliper/Caliper.cpp: parse_attribute_config, create_attribute", "src/common/RuntimeConfig.cpp", "src/common/StringConverter.cpp: to_stringlist", "src/common/cali_types.c: cali_string2prop"])
p("C97", "Recording in a signal handler allocates no memory",
  "A snapshot taken in a signal handler (sampling, timers) never makes the aggregation or trace service allocate or reallocate memory, whatever was recorded before: a record for which there is no room is dropped or counted as skipped.",
  "all histories of records, in and out of signal handlers, and clears, all records, keys and aggregation attributes, all ways vectors grow",
  "the handler runs at any point of any history, and only certain fill levels of three vectors would show an allocation",
  ["src/services/aggregate/AggregationDB.cpp: find_or_create_entry", "src/services/trace/Trace.cpp: acquire_tbuf, handle_overflow"])
p("C98", "Attributes and globals added to a metadata database",
  "create_attribute on a reader's metadata database gives an attribute of that name with exactly the given type, properties and metadata and the unit and alias the user defined for it; after any calls of set_global the globals have, for every global attribute stored as value, the last value set, for every other global attribute all the values set and no others, and nothing for attributes that are not global.",
  "all databases made by reading any streams and adding any attributes, all sequences of calls, attributes and values",
  "how values are combined into tree paths depends on all earlier calls and on what the database contains",
  ["src/reader/CaliperMetadataDB.cpp: create_attribute, set_global, make_tree_entry", "src/common/Attribute.cpp"])
p("C99", "Symbol lookup names each address and each call path",
  "With the symbollookup service every flushed record with addresses (of the configured attributes, e.g. the call path of the callpath service) gets one entry per address attribute: the configured symbol information (module, file, function, line, source location) of each address on its path, in the order of the path, and keeps its own entries. The result depends on the record and the channel's options only, not on records, flushes or channels before.",
  "all records and call paths, all histories of flushes of any channels, all debug information and options",
  "cached lookups make the result depend on all earlier records; tests look up one address",
  ["src/services/symbollookup/SymbolLookup.cpp: process_snapshot, get_symbol_entry, perform_lookup", "src/common/Entry.cpp: Entry::get"])
p("C100", "Damaged and truncated files",
  "Reading a .cali file never crashes, whatever bytes it contains. Lines that are no records are reported as errors and change nothing else. The file of a program that was killed, cut off at any byte, gives exactly the nodes and records of its complete lines, and a cut-off or otherwise unusable record is reported as an error and not delivered.",
  "all byte sequences, all truncation points, all databases read into",
  "every byte of every file is a possible crash point, and any bytes may be read; tests have a few malformed files",
  ["src/reader/CaliReader.cpp: read, read_record, read_node, read_snapshot", "src/reader/CaliperMetadataDB.cpp: merge_node, merge_entry"])
p("C101", "Third-party tools see the regions as annotated",
  "With an annotation binding (nvtx, roctx, vtune, craypat), the tool is called once, in order, for exactly the begins and ends of the regions of the attributes to be forwarded (nested ones, or those named in the configuration) that pass the include and exclude filters; so on every thread it sees properly nested regions with the names given in the program, and each end closes the range of its begin.",
  "all histories of attribute creations, subscriptions, begins and ends on all threads, all filters and attribute lists",
  "needs every interleaving of attribute creation and use, and every overlap of regions of threads",
  ["src/caliper/AnnotationBinding.cpp", "src/caliper/AnnotationBinding.h: make_binding", "src/services/rocprofiler/RocTX.cpp", "src/services/vtune/VTuneBindings.cpp", "src/caliper/Caliper.cpp: create_attribute"])
p("C102", "Records of the running program are merged into a query database unchanged",
  "Merging a record of the running program (or of any other metadata database) into a query database, as runtime-report, mpi-report, the report service, Spot and collective_flush do, gives a record with the same attribute names, types, properties, values and paths in the same order, whatever node ids the two databases use; it never changes what was merged before, merging the same again adds nothing, equal paths from different sources become one node, and import_globals leaves exactly the imported globals.",
  "all source databases, all query databases and their histories, all records",
  "ids of both databases depend on everything that happened before; tests merge one small record",
  ["src/reader/CaliperMetadataDB.cpp: recursive_merge_node, merge_snapshot, import_globals, merge_node", "include/caliper/reader/CaliperMetadataDB.h: CaliperMetadataDB::merge_snapshot, CaliperMetadataDB::import_globals"])
p("C103", "The Python reader returns what was recorded",
  "Reading a .cali file written by the library with the Python package (read_caliper_contents, CaliperReader) raises no exception and returns one dictionary per snapshot record, in order: under each attribute name the text of the value, or the list of values outermost first if it is nested in itself, the list of nested regions under 'path', and the texts of the values stored in the record; the globals are those of the last globals record; attribute objects have the attributes' flags.",
  "all metadata trees and sequences of snapshot and globals records given to the writer",
  "the dictionaries depend on node ids, order of lines, escaping and nesting; the package's tests read two example files",
  ["python/caliper-reader/caliperreader/caliperstreamreader.py: CaliperStreamReader.read, _process, _process_node_record, _expand_record, _read_cali_record", "python/caliper-reader/caliperreader/metadatadb.py: Node, Attribute, MetadataDB", "python/caliper-reader/caliperreader/caliperreader.py: read_caliper_contents, read_caliper_globals"])
p("C104", "The C annotation interface works on attribute names",
  "After any program of C annotation calls of any threads: cali_find_attribute finds exactly the attributes created or mentioned by name in a call, with the type and properties of the first such call; the id never changes and different names have different ids; cali_get returns for every name and thread the value the calls have left (innermost open value, last value set, global values seen by all threads); an end call that does not fit freezes the calling thread only; values keep the type and contents they were set with; cali_get_current_region_or returns the innermost open region of the thread or process, else the alternative.",
  "all programs: sequences of calls (create, begin/set/end by id and by name for all value types, global values, regions, phases, communication regions) of any threads, all presets and default scopes",
  "the outcome depends on which of several calls mentions a name first, on the scopes and on the nesting over all attributes; the tests run a few fixed call sequences",
  ["src/caliper/cali.cpp: cali_create_attribute, cali_find_attribute, cali_begin_int_byname, cali_set_global_string_byname, cali_end_byname, cali_begin_region, cali_get, cali_get_current_region_or", "src/caliper/Caliper.cpp: Caliper::create_attribute, get_attribute, get_path_node", "src/caliper/api.cpp: init_api_attributes"])
p("C105", "cali2traceevent.py shows the regions of a trace",
  "When cali2traceevent.py converts .cali traces, every thread of every process gets exactly one complete event for each of its region end events, in order, starting at the time of the matching begin event (bracket matching per attribute) and lasting until the end event, with the region's name, attribute and call path; stack-frame references lead to frames that spell the call path; counters, device activities, allocator sizes and samples of the records appear exactly once each; with --sync all records of a process are moved by the same amount, the distance of its synchronization point to the latest one, and nothing else changes; a trace whose end events all have begins is converted without an error.",
  "all lists of input files, all records as delivered by the reader, all counter and id configurations, all threads, all nestings and overlaps of attributes, all interleavings of threads in a file",
  "the pairing depends on sorting by time across threads, ties, nesting per attribute and state carried from file to file; the tests convert single small files",
  ["python/cali2traceevent.py: CaliTraceEventConverter.read_and_sort, _process_record, _process_event_begin_rec, _process_event_end_rec, _process_counters, sync_timestamps, StackFrames.get_stackframe_id"])
p("C106", "The cross-process report covers all processes",
  "When all processes of a communicator call the collective flush of a channel (CollectiveOutputChannel, mpireport), it returns on all of them, even if MPI buffers no message; exactly one process, rank 0, prints; and it prints what the cross-process query gives for the results of the local queries of all processes taken together - if both queries are the same, what a single process having all the records would print.",
  "all numbers of processes, all records on each of them, all schedules and message delays, all local and cross-process queries (sums, counts, minima, maxima, averages, grouping)",
  "the result depends on the number of ranks and on the merging of partial results along a tree whose shape depends on it; the tests run one configuration",
  ["src/caliper/collective_flush.cpp: collective_flush", "src/caliper/aggregate_over_mpi.cpp: aggregate_over_mpi, pack_and_send, receive_and_merge", "src/caliper/CollectiveOutputChannel.cpp: MpiReportWrapper::collective_flush", "src/reader/Aggregator.cpp: Aggregator::flush, Aggregator::add"])
p("C107", "OpenMP constructs appear in the context of their thread",
  "With the ompt service, the constructs an OpenMP thread is in - parallel regions, work-sharing constructs, synchronization - are in the region stack of that thread, nested with the program's own regions; omp.parallel, omp.work and omp.sync have the value of the innermost open construct of their kind; omp.thread.type and omp.proc.id are set while the thread lives, omp.thread.id and omp.num.threads while it executes an implicit task; no callback makes later annotations of the thread ineffective; callbacks that come while Caliper is not available do nothing and are counted.",
  "all histories of OMPT callbacks and annotations of all threads in which the constructs and regions of the thread nest properly; all kinds, team sizes, processors",
  "histories of callbacks are unbounded and come from a foreign runtime; there is no test of this service",
  ["src/services/ompt/OmptService.cpp: cb_thread_begin, cb_thread_end, cb_parallel_begin, cb_parallel_end, cb_implicit_task, cb_work, cb_sync_region, register_ompt_service", "src/caliper/Caliper.cpp: Caliper::begin, Caliper::end"])
p("C108", "The channel functions of the C interface act on the channel they are given",
  "A channel made by cali_create_channel has the settings its config set had at that moment, gets an identifier no earlier channel had, and is active unless CALI_CHANNEL_LEAVE_INACTIVE is given; it reads the environment only with CALI_CHANNEL_ALLOW_READ_ENV; cali_channel_is_active is non-zero exactly for existing channels switched on; a snapshot pushed goes to every active channel (or the given one, if it is active) and to no other; flushing a channel hands on exactly its snapshots since the last clear, and empties it exactly with CALI_FLUSH_CLEAR_BUFFERS; cali_flush does so for the default channel only; calls for channels that do not exist have no effect.",
  "all histories of calls, channels, config sets, flags, snapshot lengths, with and without a default channel",
  "histories of calls are unbounded; tests use one or two channels and never flush a deleted channel, or without a default channel",
  ["src/caliper/cali.cpp: cali_create_configset, cali_configset_set, cali_delete_configset, cali_create_channel, cali_delete_channel, cali_activate_channel, cali_deactivate_channel, cali_channel_is_active, cali_flush, cali_channel_flush, cali_push_snapshot, cali_channel_push_snapshot, write_report_for_query", "src/caliper/Caliper.cpp: create_channel, get_channel, make_default_channel"])
p("C109", "json2json_split.py keeps the contents of the records",
  "For every list of records, json2json_split.py writes a json-split document from which the records can be read back: the columns are exactly the keys that occur, each once; there is a row for every record; the cell of a column is null if the record does not have the key, the value itself for value columns, and otherwise a node whose path of labels, joined with slashes, is the text; every path is in the node list once and parents come before their children.",
  "all lists of records with all keys, texts (including empty ones and leading or trailing slashes) and values",
  "the space of documents is unbounded; the repository has no test of the script",
  ["python/json2json_split.py: Tree.get_node_id, Tree.get_nodelist, json_to_json_split"])
p("C110", "Hardware counter events are reported exactly once",
  "With the papi service, every snapshot of a thread has one entry for each requested counter, named papi.<counter>, whose value is the number of occurrences of this event on this thread since the thread's previous snapshot (or since counting began on it), so that the values of a thread's snapshots and what is still in the counter add up to all its occurrences modulo 2^64; no snapshot crashes. The service is active if all requested counters (1 to 32) are known and have a supported type.",
  "all lists of counters, all PAPI libraries (event codes, types, components), all histories of events, snapshots, thread starts and ends of any number of threads, and all outcomes of the library calls",
  "interleavings of threads and hardware events and failing library calls cannot be enumerated; the repository has no test of the service",
  ["src/services/papi/Papi.cpp: setup_event_info, setup_thread_eventsets, start_thread_counting, finish_thread_eventsets, read_events, snapshot, register_papi"])
p("C111", "The loop report over MPI is complete and returns on every rank",
  "When the loop report (or the spot profile with time series) is written collectively, every rank returns, and the output has one section for each loop for which some rank recorded iterations, named after the loop, with one row for each block of iterations in which some rank has a record of the loop: the row's number of iterations is the largest over the ranks of the iterations recorded in that block. The blocks are single iterations if there are not more records than the wanted number of rows (20 by default, all for 0 or less), and otherwise as many iterations as needed so that about the wanted number of rows is printed.",
  "all numbers of ranks, all records of each rank (loops, nesting, start iterations, numbers of iterations) and all values of timeseries.maxrows",
  "the ranks' records and the number of ranks are unbounded, and the failures depend on different ranks having different loops; the repository's tests run the report on a single rank",
  ["src/caliper/controllers/LoopReportController.cpp: collective_flush, process_timeseries, get_loop_info, summary_local_aggregation, summary_query, timeseries_local_aggregation, timeseries_spec", "src/caliper/controllers/SpotController.cpp: process_timeseries", "src/caliper/OutputCommMpi.cpp: bcast_int, bcast_str, cross_aggregate"])
p("C112", "The sampler takes one sample per interrupt on every thread, and only while its channel exists",
  "While an active channel with the sampler service exists, every thread that uses Caliper has exactly one timer whose period is that of the configured frequency (1 to 10000 Hz), and each of its interrupts outside Caliper adds one sample with the interrupted address to the channel; interrupts inside Caliper add nothing. A deactivated channel gets no samples. When the channel is deleted, sampling ends on all threads, nothing crashes, and a sampler can be set up again.",
  "all histories of channel creation, deletion and activation, thread starts and ends, nesting errors and timer interrupts, for any number of threads, and all frequencies",
  "interrupts arrive at any point of any thread; the repository has no test of the service with several threads or channels",
  ["src/services/sampler/Sampler.cpp: on_prof, setup_settimer, clear_timer, sampler_register, pre_finish_cb, finish_cb, create_thread_cb, release_thread_cb", "src/caliper/Caliper.cpp: sigsafe_instance, push_snapshot, release_thread"])
p("C113", "Records have the call path of the snapshot",
  "With the callpath service every record has the call path of the place where the snapshot was taken, from the outermost function to the innermost: the addresses (if use_address is set) and the function names (if use_name is set) of all stack frames but the first skip_frames ones and, with skip_internal, those inside the Caliper library. Snapshots from different call stacks have different call paths.",
  "all call stacks (addresses, function names, depths) and all options",
  "depth and contents of call stacks are unbounded; the repository has no test of the service",
  ["src/services/callpath/Callpath.cpp: snapshot_cb"])
p("C114", "The monitoring thread takes one complete, numbered snapshot per interval until its channel is deleted",
  "With the thread_monitor service the monitoring thread takes one snapshot each time the interval is over, for as long as the channel exists: signals do not end it. The snapshots are numbered 0, 1, 2, ..., each of them is complete also when the channel is deleted meanwhile, deleting the channel does not wait for ever, and when the channel is deleted the thread uses no service that has been deleted already and takes no snapshot afterwards.",
  "all schedules of the monitoring thread and the thread that deletes the channel, with signals at any time, and all lists of services with thread_monitor at any place",
  "the two threads interleave arbitrarily; the repository has no test of the service",
  ["src/services/monitor/ThreadMonitor.cpp: snapshot, monitor, start, cancel, post_init_cb, finish_cb", "src/caliper/Caliper.cpp: delete_channel", "src/services/Services.cpp: register_configured_services"])
p("C115", "Records have the memory sizes the system reported",
  "With the memstat service every record has the size, the resident size and the data size that the system reported for the process when the snapshot was taken, as exact numbers of pages, for all sizes of up to twelve digits; when the system's file cannot be read the record has none of them and the failure is counted.",
  "all sizes of up to twelve decimal digits (more than a 64-bit Linux process can have) and all sequences of failing and successful reads",
  "the values are unbounded and machine dependent; the repository has no test of the parser",
  ["src/services/memusage/MemStatService.cpp: parse_statm, snapshot_cb, finish_cb"])
p("C116", "cali-stat prints the statistics of the files",
  "For any input files cali-stat prints the numbers of node and snapshot records, of their elements (four for a node record, one for a reference, two for a value), the smallest and largest number of elements of a snapshot record, the number of attributes in them, and the size of all elements; with --reuse-statistics it prints for each attribute that has nodes the number of node records, of different values, and how often the snapshot records use them.",
  "all streams of node and snapshot records, in any order and number",
  "streams are unbounded; the repository has no test of the tool's numbers",
  ["src/tools/cali-stat/cali-stat.cpp: CaliStreamStat, ReuseStat, Processor"])
p("C117", "An MpiChannelManager starts, stops and flushes exactly the channels given to it",
  "After any history of calls, start and stop of an MpiChannelManager activate and deactivate exactly the channels added to it on the processes of its communicator; collective_flush flushes each of them exactly once for each time it was added, first the ones with collective output in the order in which they were added, then the others. Each channel is the manager's own copy, with the services of the original but mpireport. If all processes add the same channels in the same order, all processes flush the same channel in each collective step.",
  "all histories of add, start, stop and collective_flush mixed with the program's own starts and stops of its channels; all configurations of channels",
  "histories are unbounded, several processes take part; the repository tests one order of calls",
  ["src/caliper/MpiChannelManager.cpp: MpiChannelManagerImpl add/start/stop/collective_flush", "src/caliper/CollectiveOutputChannel.cpp: from, remove_from_stringlist, MpiReportWrapper, CustomOutputControllerWrapper", "include/caliper/MpiChannelManager.h", "src/caliper/controllers/LoopReportController.cpp: collective_flush"])
p("C118", "Kokkos kernels and regions appear in the context, nested as they run",
  "With the kokkostime service, each Kokkos kernel, fence and user region that begins on a thread appears exactly once in the context of that thread, with its kind (kernel_type) and name (region), inside the kernels and regions open at that time, and disappears when it ends; the innermost one is the current region; the annotations of the program are not disturbed.",
  "all histories of Kokkos calls and of the program's regions on any threads; any number of channels with the service, made and finished at any time",
  "histories and numbers of channels are unbounded; the repository tests one program",
  ["src/services/kokkos/KokkosTime.cpp: KokkosTime", "src/services/kokkos/KokkosProfilingSymbols.cpp", "include/caliper/callback.hpp", "src/caliper/Annotation.cpp: Annotation::Impl begin/end"])
p("C119", "The variorum service records the power of each configured domain",
  "In each snapshot the service adds for each configured domain the power reading under variorum.val.<domain> and the average of it and the thread's previous reading of that domain under variorum.<domain>; a domain whose reading fails is left out and the failure counted.",
  "all lists of domains, all histories of snapshots on any threads, all readings and failures",
  "histories, domains and readings are unbounded; the repository has no test of this service",
  ["src/services/variorum/Variorum.cpp: VariorumService create_measurement_info, snapshot_cb"])
p("C120", "The Python decorator annotate_function puts a region around each call of the function",
  "While a function decorated with pycaliper.annotate_function runs, the region, phase or communication region with the given name (or the function's name) is open, inside those of the decorated functions that called it; when the call returns or is left by an exception, the region is closed; the decorator changes nothing else.",
  "all programs of decorated functions, nested calls, exceptions and handlers; all names and kinds",
  "programs are unbounded in size and depth; the repository tests one function without exceptions",
  ["src/interface/python/pycaliper/high_level.py: annotate_function", "src/interface/python/instrumentation.cpp", "src/caliper/cali.cpp: cali_begin_region, cali_end_region, cali_begin_phase, cali_end_phase"])
p("C121", "The pcp service records the configured performance co-pilot metrics, and pcp.memory the bytes read and written",
  "Each snapshot of a channel with the pcp service gets for each configured metric its value summed over all instances, for a counter its increase since the channel's last fetch with values, and the time since the last fetch; the increases add up to the increase of the counter since the channel was created; the service can be used by any channels of a process, one after another or at the same time. pcp.memory adds to each flushed record 64 bytes for each memory access counted in it.",
  "all metrics, all histories of fetch results (failures, missing and unreadable values), all histories of channels, all flushes and records",
  "histories are unbounded; performance co-pilot is not available to the tests",
  ["src/services/pcp/Pcp.cpp: snapshot, setup_metrics, init_pcp_context, finish_pcp_context, register_pcp", "src/services/pcp/PcpMemory.cpp: find_counter_attributes, sum_attributes, pre_flush_cb, postprocess_snapshot_cb"])
p("C122", "The nvtx service shows the open regions as NVTX ranges",
  "With the nvtx service, the open NVTX ranges of each thread are at any time the open regions the binding forwards: those of all nested attributes in the default domain, those of each other attribute in a domain with the attribute's name, in the order in which they began; regions with the same text have the same colour, and new texts get the 14 colours in turn.",
  "all histories of begins and ends on any threads, matched or not, all attributes and values",
  "histories are unbounded; NVTX is not available to the tests",
  ["src/services/nvtx/Nvtx.cpp: on_begin, on_end, get_value_color", "src/caliper/AnnotationBinding.h"])
p("C123", "Global values printed above a report are complete and aligned",
  "Where a report prints a record as a table (the global values with print.metadata), every value in the record gets a line of its own, in the order of the record, with its name and its value; the colons are in one column, numbers are complete and end in one column, names up to 24 and other values up to 52 characters are complete, longer ones are shown by their start and end; different names can be told apart, and nested values read from the outermost to the innermost.",
  "all records: any number of references and immediate values, all names and texts",
  "records and texts are unbounded; the repository tests one record of three short values",
  ["src/reader/SnapshotTableFormatter.cpp: format_record_as_table, unpack_record, write_record_data", "src/common/util/format_util.cpp: pad_left, pad_right, clamp_string", "src/reader/TableFormatter.cpp: flush"])
p("C124", "The top-down percentages of perf_topdown are those of the measured slots",
  "With the perf_topdown service no pipeline slots of a thread are lost: each is in exactly one record, the one of the interval in which it passed; the percentages in any record, also an aggregated one, are the shares of its slots, add up to 100 % up to rounding, and each part of the second level adds up with its counterpart to its part of the first level.",
  "all histories of snapshots of a thread, all counter values, all sets of aggregated snapshots, both levels",
  "histories and sums are unbounded; the counters exist on certain processors only",
  ["src/services/perf/PerfTopdown.cpp: read_topdown, snapshot_cb, postprocess_snapshot_cb"])
p("C125", "The pthread service is transparent and tags each new thread",
  "With the pthread service each thread a program creates runs its function once, with its argument, and has its result, as without the service; before the function is called the thread is tagged as not the master and with its own id; one thread at most is the master; and nothing the service allocated is left when the threads have ended.",
  "all schedules of creations, starts, returns, early exits, failing creations, initialisations of channels and finalization, any number of threads",
  "schedules and thread counts are unbounded; failing pthread_create and cancellation are not tested",
  ["src/services/pthread/PthreadService.cpp: thread_wrapper, cali_pthread_create_wrapper, post_init_cb"])
with open(os.path.join(os.path.dirname(__file__), "..", "properties.jsonl"), "w") as f:
    for x in P: f.write(json.dumps(x) + "\n")
print(len(P))
