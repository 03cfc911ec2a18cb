{"id": "C01", "title": "Splitting a paged store recovers every stream exactly", "statement": "After any sequence of write_atomic / write_bytes_atomic / std-Write / flush calls on up to one sink per page tag, once the sinks have been flushed (or dropped), splitting the backing store returns, for every tag, exactly the concatenation of the byte strings written to that tag's sink, in the order they were written, and nothing else.", "quantifier": "all finite histories of operations on the three sinks, all payload sizes (0 bytes to larger than a page), all interleavings of the sinks at operation granularity", "why_tests_cant": "page boundaries depend on the full history of sizes across all sinks; a test can only sample a few size patterns", "anchors": ["measureme/src/serialization.rs: SerializationSink::write_atomic, write_bytes_atomic, flush, write_page", "measureme/src/serialization.rs: split_streams", "measureme/src/serialization.rs: SerializationSinkBuilder::new_sink, into_bytes"]}
{"id": "C02", "title": "A returned address is the position of the data in the stream", "statement": "The address returned by any write equals the total number of bytes written to that sink before the call, and the bytes written are found at exactly that offset of the stream recovered by splitting the store, regardless of any later operations.", "quantifier": "all histories, every write inside the history, all sizes, including the direct (oversized) path and the >128-byte path", "why_tests_cant": "addresses are computed from a counter while data are placed by three different code paths; agreement must hold for all sizes and buffer fill levels", "anchors": ["measureme/src/serialization.rs: write_atomic, write_bytes_atomic", "measureme/src/serialization.rs: Addr"]}
{"id": "C03", "title": "Pages are well-formed and bounded; writing never panics", "statement": "Every page in the backing store is one tag byte (0,1,2), a little-endian u32 length and that many payload bytes; the payload is non-empty and at most 256 KiB; no call on a sink with a total closure panics whatever the size of the data.", "quantifier": "all histories, all sizes", "why_tests_cant": "the assertion in write_page guards a property of all reachable buffer states", "anchors": ["measureme/src/serialization.rs: write_page, MAX_PAGE_SIZE, MIN_PAGE_SIZE"]}
{"id": "C04", "title": "A crash at any byte leaves a prefix", "statement": "If the backing store is cut at an arbitrary byte (crash while writing), then splitting it either fails loudly or the cut is at a page boundary and every recovered stream is a prefix of the stream that the complete store would have given; it never returns wrong bytes.", "quantifier": "all histories and all cut points", "why_tests_cant": "the number of cut points times histories is unbounded", "anchors": ["measureme/src/serialization.rs: split_streams, write_page"]}
{"id": "C05", "title": "The two write primitives are interchangeable for readers", "statement": "write_bytes_atomic(b), write_atomic(len b, copy b) and the std::io::Write adapter's write(b) return the same address and yield the same recovered stream, in every history: replacing one by another changes no recovered stream and no address (only page boundaries may move).", "quantifier": "all histories, all buffers", "why_tests_cant": "requires comparing all pairs of histories differing at any position", "anchors": ["measureme/src/serialization.rs: write_atomic, write_bytes_atomic, StdWriteAdapter"]}
{"id": "C06", "title": "Records written atomically are never split across pages unless larger than a page", "statement": "A record of at most 128 bytes, or any record of at most 256 KiB written via write_atomic, is contained entirely within a single page of the store; in particular every page of the Events stream written by a profiler (apart from the first, which carries the stream header) holds a whole number of event records, also when several threads record events at once, however they are scheduled.", "quantifier": "all histories of small atomic writes; all sequences of profiler calls; all programs of several threads and all schedules", "why_tests_cant": "page alignment is a property of all reachable buffer levels", "anchors": ["measureme/src/serialization.rs: write_atomic, write_page", "measureme/src/profiler.rs: record_raw_event"]}
{"id": "C07", "title": "split_streams accepts exactly the concatenations of well-formed pages", "statement": "Splitting arbitrary bytes returns normally if and only if the bytes are a concatenation of pages with known tag and non-zero length; then each stream is the in-order concatenation of that tag's payloads. Every other input panics rather than returning an error.", "quantifier": "all byte strings", "why_tests_cant": "quantifies over all byte strings, including adversarial ones", "anchors": ["measureme/src/serialization.rs: split_streams, PageTag::try_from"]}
{"id": "C08", "title": "Concurrent writers are linearizable and pages are never torn", "statement": "With any number of threads calling write/flush/drop on the sinks concurrently, at the granularity of lock acquire/release and the three separate writes of each page: in every schedule the observed results are those of some sequential order of the calls consistent with each thread's program order and with real time; at every moment the store is a sequence of complete pages followed by a part of at most one page; when the threads have finished, each sink's state and the stream recovered for each unshared tag are those of that sequential order, and the pages of each tag are, one by one, those of that order, so every returned address locates exactly the bytes of its call; no schedule deadlocks or runs forever. (The raw order of pages of different sinks in the store need not be that of any sequential order: a call writing several pages can have another call's pages in between.)", "quantifier": "all numbers of threads, all programs, all schedules", "why_tests_cant": "schedules are unbounded; the defect would be a rare interleaving", "anchors": ["measureme/src/serialization.rs: SerializationSink (data: Mutex<SerializationSinkInner>), shared_state: SharedState, write_page, flush, write_atomic"]}
{"id": "C09", "title": "Backing-store failures are loud and never damage what is stored", "statement": "While all calls return normally, outcomes and store are those of a failure-free run, so no failure is silent. Up to and including the first failing call the store is a prefix of what a failure-free run writes, so reading it back fails loudly or yields prefixes of the streams. Whatever happens afterwards (more failures, panicking callbacks, drops), bytes in the store are never changed and, if the store still splits, every stream begins with what it had before the failure. A flush that fails before any byte is written loses nothing. (Not guaranteed, with a witness: going on after a torn page can yield a store that splits into wrong data, because drop flushes again; and after a panicking callback later addresses are wrong.)", "quantifier": "all histories with a failing backing-store write at any byte", "why_tests_cant": "fault point and history unbounded", "anchors": ["measureme/src/serialization.rs: write_page (write_all(...).unwrap()), Drop for SerializationSink"]}
{"id": "C10", "title": "Sinks with distinct tags are independent; two sinks sharing a tag are not", "statement": "Operations on one sink never change what another sink's recovered stream contains. With two sinks created with the same tag, the returned addresses are no longer positions in the recovered stream. Precisely: the stream of a tag is put together from blocks, each written by one of the sinks with that tag; the blocks of a sink make up exactly what was written to it, in order; a small record (at most a page through write_atomic, at most 128 bytes through write_bytes_atomic) lies in one block; the address returned is the number of bytes written to the sink itself. Larger data of sinks sharing a tag can be torn: what another sink writes may end up in the middle.", "quantifier": "all histories on several sinks with arbitrary tags", "why_tests_cant": "non-interference quantifies over pairs of histories", "anchors": ["measureme/src/serialization.rs: SerializationSinkBuilder::new_sink, split_streams"]}
{"id": "C11", "title": "File headers verify exactly when magic and version match", "statement": "write_file_header puts the 4 magic bytes and the u32 LE version at the start of the stream; verify_file_header accepts a byte string iff it is at least 8 bytes, starts with the expected magic and carries version 9; stripping the header leaves exactly the rest. Headers of the four kinds never verify as each other.", "quantifier": "all byte strings", "why_tests_cant": "all byte strings", "anchors": ["measureme/src/file_header.rs: write_file_header, verify_file_header, read_file_header, strip_file_header"]}
{"id": "C12", "title": "A plain string is read back verbatim", "statement": "For every str allocated with the string table builder, looking up the returned id in the loaded table yields exactly that str, whatever else was allocated before or after it.", "quantifier": "all strings, all histories of string-table operations", "why_tests_cant": "quantifies over all strings and all surrounding histories", "anchors": ["measureme/src/stringtable.rs: StringTableBuilder::alloc, SerializableString for str", "decodeme/src/stringtable.rs: StringTable::get, StringRef::to_string, write_to_string"]}
{"id": "C13", "title": "A composite string reads back as the concatenation of its components", "statement": "For every composite string allocated from Value and Ref components, where every referenced id has been allocated (or mapped) without cycles, StringRef::write_to_string yields the concatenation of the values and of the referenced strings' contents.", "quantifier": "all histories of allocations building an acyclic reference graph, any depth, any number of components", "why_tests_cant": "unbounded nesting depth and reference structure", "anchors": ["measureme/src/stringtable.rs: SerializableString for [StringComponent]", "decodeme/src/stringtable.rs: write_to_string, decode_string_ref"]}
{"id": "C14", "title": "to_string and write_to_string agree, except on entries mistaken for a lone reference", "statement": "For every id that denotes a text, to_string returns the same text as write_to_string, unless the entry begins with a reference and the first byte 0xFF of its encoding is at offset (address + 9) — the fast path compares a relative with an absolute offset — in which case to_string returns exactly what it returns for that reference. Entries beginning with text, and entries shorter than address + 10, are never affected.", "quantifier": "all tables produced by the builder", "why_tests_cant": "failure depends on a numeric coincidence of the address and the length", "anchors": ["decodeme/src/stringtable.rs: StringRef::to_string, write_to_string"]}
{"id": "C15", "title": "A virtual id resolves to its latest mapping, unmapped ids to <unknown>", "statement": "After loading, a virtual id resolves to the string it was most recently mapped to (single or bulk), and an id that was never mapped or the invalid id reads as '<unknown>' when it is referenced.", "quantifier": "all histories of mappings", "why_tests_cant": "last-writer-wins over arbitrary histories", "anchors": ["measureme/src/stringtable.rs: map_virtual_to_concrete_string, bulk_map_virtual_to_single_concrete_string, serialize_index_entry", "decodeme/src/stringtable.rs: StringTable::new, get_addr"]}
{"id": "C16", "title": "Bulk mapping equals mapping one by one", "statement": "bulk_map_virtual_to_single_concrete_string(ids, c) writes the same index-stream bytes as calling map_virtual_to_concrete_string(id, c) for each id in order, for any number of ids.", "quantifier": "all lists of ids", "why_tests_cant": "unbounded list lengths crossing page size", "anchors": ["measureme/src/stringtable.rs: bulk_map_virtual_to_single_concrete_string"]}
{"id": "C17", "title": "Id classes are disjoint and the metadata id cannot be overwritten", "statement": "The virtual ids available to users, the metadata id, the invalid id and the ids of allocated strings are pairwise disjoint; user mapping of the metadata or invalid or regular id panics instead of writing, so the metadata entry read back is the one written by alloc_metadata.", "quantifier": "all u64 values and all histories", "why_tests_cant": "u64-sized domain; all histories", "anchors": ["measureme/src/stringtable.rs: StringId, METADATA_STRING_ID, INVALID_STRING_ID, FIRST_REGULAR_STRING_ID, map_virtual_to_concrete_string, alloc_metadata"]}
{"id": "C18", "title": "Ids and addresses correspond one to one", "statement": "StringId::from_addr and to_addr are inverse on regular ids; two different allocations in the same builder get different ids; to_addr panics on virtual ids and from_addr panics on overflow instead of wrapping.", "quantifier": "all addresses; all pairs of allocations in a history", "why_tests_cant": "u64-sized domain and all pairs of events in a history", "anchors": ["measureme/src/stringtable.rs: StringId::from_addr, StringId::to_addr, StringTableBuilder::alloc"]}
{"id": "C19", "title": "Reading terminates exactly for well-founded references", "statement": "Reading a string terminates whenever the references reachable from it are well-founded; a virtual id mapped (directly or through others) to a string that references it makes the reader recurse without bound.", "quantifier": "all reference graphs", "why_tests_cant": "non-termination cannot be observed by a finite test", "anchors": ["decodeme/src/stringtable.rs: write_to_string, get_addr", "measureme/src/stringtable.rs: map_virtual_to_concrete_string"]}
{"id": "C20", "title": "The terminator and the reference tag never occur inside text", "statement": "The bytes 0xFF and 0xFE occur in the UTF-8 encoding of no string, so scanning for the terminator or a tag never stops inside text, for every Unicode string; lossy decoding of a str's bytes gives back the str.", "quantifier": "all Unicode strings", "why_tests_cant": "all code points and all concatenations", "anchors": ["measureme/src/stringtable.rs: TERMINATOR, STRING_REF_TAG", "decodeme/src/stringtable.rs: to_string (from_utf8_lossy), write_to_string (from_utf8)"]}
{"id": "C21", "title": "Event ids built by EventIdBuilder parse back to label and arguments", "statement": "For every label and list of arguments that are non-empty and contain neither the separator (0x1E) nor other control characters, the text of the event id built from them parses into exactly that label and those arguments, and reading the event id the way the decoder does gives them, unless the first byte 0xFF of its encoding is at offset (address + 9), in which case the decoder reports the label with no arguments; this cannot happen at addresses above ten times the number of arguments.", "quantifier": "all labels and argument lists, any number of args", "why_tests_cant": "unbounded numbers of arguments and lengths", "anchors": ["measureme/src/event_id.rs: EventIdBuilder::from_label, from_label_and_arg, from_label_and_args", "decodeme/src/event.rs: Event::parse_event_id"]}
{"id": "C22", "title": "Event-id parsing is total and lossless exactly on its grammar", "statement": "parse_event_id never panics. Every text decomposes uniquely into separator-free fields; if the first (the label) is a proper text (non-empty, no control characters other than white space) the parser returns it together with the following fields up to the first improper one; otherwise it returns the label '<parse error>' and no arguments. So it is lossless exactly on texts all of whose fields are proper.", "quantifier": "all strings", "why_tests_cant": "all strings", "anchors": ["decodeme/src/event.rs: Event::parse_event_id, Parser"]}
{"id": "C23", "title": "Documented whitespace and accepted whitespace differ", "statement": "The documented event-id grammar permits all [:space:] characters in text, the parser rejects U+000B; for every other ASCII space character the two agree.", "quantifier": "all characters", "why_tests_cant": "a boundary disagreement between documentation and code", "anchors": ["measureme/src/event_id.rs: module grammar", "decodeme/src/event.rs: Parser::parse_text_token"]}
{"id": "C24", "title": "Raw events pack and unpack without loss and kinds are disjoint", "statement": "new_interval, new_instant and new_integer followed by start/end/value reading give back the given values; an event is an interval, an instant or an integer exclusively, for all values within the 48-bit range.", "quantifier": "all 48-bit values (and all u32/StringId fields)", "why_tests_cant": "2^96 inputs", "anchors": ["measureme/src/raw_event.rs: RawEvent::new_interval, new_instant, new_integer, pack_values, start_value, end_value, value, is_instant, is_integer"]}
{"id": "C25", "title": "Out-of-range values are rejected, not truncated", "statement": "new_interval panics iff start > end or end exceeds the largest interval value, new_instant panics iff the value exceeds 48 bits, new_integer likewise; no accepted call loses bits.", "quantifier": "all u64 values", "why_tests_cant": "2^128 inputs", "anchors": ["measureme/src/raw_event.rs: new_interval, new_instant, new_integer"]}
{"id": "C26", "title": "Event serialization is a bijection with documented little-endian layout", "statement": "Serializing a raw event gives 32 bytes with documented field offsets, each little-endian, and deserialization is its two-sided inverse on all 32-byte strings.", "quantifier": "all raw events and all 32-byte strings", "why_tests_cant": "2^256 inputs", "anchors": ["measureme/src/raw_event.rs: RawEvent::serialize, RawEvent::deserialize, RAW_EVENT_SIZE"]}
{"id": "C27", "title": "Timestamp and payload relations are lawful", "statement": "EventPayload/Timestamp containment and duration are as documented: interval containment is reflexive, transitive, antisymmetric; half-open containment of an instant; a contained interval has at most the duration of its container; decoding raw events to payloads preserves the values.", "quantifier": "all timestamps and payloads", "why_tests_cant": "all pairs/triples of 64-bit values", "anchors": ["decodeme/src/event_payload.rs: EventPayload, Timestamp", "decodeme/src/lightweight_event.rs"]}
{"id": "C28", "title": "Event iteration yields each event once, in recording order, from either end", "statement": "Iterating a profile yields exactly num_events events in recording order, taking items from front and back in any pattern yields each event exactly once, and full and lightweight decoding agree on every event.", "quantifier": "all event streams, all patterns of next / next_back", "why_tests_cant": "all interleavings of front/back calls", "anchors": ["analyzeme/src/profiling_data.rs: ProfilerEventIterator", "decodeme/src/lib.rs: num_events, decode_full_event, decode_lightweight_event"]}
{"id": "C29", "title": "End-to-end: what a profiler records is what the decoder returns", "statement": "For every session with a profiler (any interleaving of string allocations, mappings, instants, integers, intervals) whose command line survives escaping (C32: the others do not open), the saved file is opened by the decoder, has exactly the recorded events in order with the recorded threads and values, and carries the metadata recorded at start; each event's kind is the text its kind id is shown as, and its label and arguments are the fields of the text its event id is shown as (C14), which for plain strings, entries beginning with text, and event ids of up to ten arguments is the recorded text.", "quantifier": "all sessions", "why_tests_cant": "composition of all layers over unbounded histories", "anchors": ["measureme/src/profiler.rs: Profiler", "decodeme/src/lib.rs: EventDecoder::new, decode_full_event", "analyzeme/src/profiling_data.rs: ProfilingData::from_paged_buffer"]}
{"id": "C30", "title": "Version dispatch is exact and conversion preserves meaning", "statement": "from_paged_buffer returns an error for every file-header version other than 8 and 9 (and for a wrong magic or a short buffer); accepted v8 data converted to the current representation preserve kind, label, args, thread and payload.", "quantifier": "all byte strings / all v8 events", "why_tests_cant": "all byte strings", "anchors": ["analyzeme/src/profiling_data.rs: from_paged_buffer", "decodeme/src/lib.rs: read_file_header", "analyzeme/src/file_formats/v8.rs"]}
{"id": "C31", "title": "Scoped timing guards give properly nested intervals", "statement": "If the counter is monotone, guards on one thread that are created and dropped in stack order record intervals that are pairwise nested or disjoint and appear in end order, with start at creation and end at drop; recording never panics while the counter stays within range.", "quantifier": "all well-bracketed programs of guards, detached guards included; any monotone clock", "why_tests_cant": "unbounded nesting and all clocks", "anchors": ["measureme/src/profiler.rs: start_recording_interval_event, TimingGuard::drop, start_recording_interval_event_detached, finish_recording_interval_event"]}
{"id": "C32", "title": "The metadata is readable iff every command-line character survives escaping", "statement": "Desired: every profile can be opened whatever the command-line arguments. Fails: arguments are escaped with Rust's escape_default, whose \\' and \\u{..} are not JSON; the file is readable iff no argument contains an apostrophe, a non-ASCII character or a control character other than tab, newline, carriage return.", "quantifier": "all argument lists", "why_tests_cant": "all strings", "anchors": ["measureme/src/profiler.rs: with_counter", "decodeme/src/lib.rs: EventDecoder (serde_json::from_str)"]}
{"id": "C33", "title": "The in-memory builder produces what was asked for", "statement": "ProfilingDataBuilder: building a profile from intervals (with nested closures), instants and integers yields profiling data whose iterator returns exactly those events in end order.", "quantifier": "all nested build scripts", "why_tests_cant": "unbounded nesting", "anchors": ["analyzeme/src/profiling_data.rs: ProfilingDataBuilder"]}
{"id": "C34", "title": "Self time is duration minus direct children", "statement": "For properly nested per-thread events, each label's self_time equals the sum over its intervals of duration minus the durations of their direct children (the intervals whose smallest enclosing interval on the same thread it is).", "quantifier": "all properly nested event streams, any number of threads, interleaved arbitrarily", "why_tests_cant": "unbounded forests", "anchors": ["analyzeme/src/analysis.rs: AnalysisResults / ProfilingData::perform_analysis"]}
{"id": "C35", "title": "Self times are conserved", "statement": "The self times of all labels add up to the total duration of the root intervals; each self time is non-negative and no more than the label's time; the result's total_time relation holds.", "quantifier": "all properly nested streams", "why_tests_cant": "unbounded forests", "anchors": ["analyzeme/src/analysis.rs: perform_analysis"]}
{"id": "C36", "title": "Analysis does not depend on how threads are interleaved", "statement": "Two event streams with the same per-thread sequences give the same analysis result, whatever the interleaving.", "quantifier": "all pairs of interleavings", "why_tests_cant": "all pairs of interleavings", "anchors": ["analyzeme/src/analysis.rs: perform_analysis (thread stacks)"]}
{"id": "C37", "title": "Counts, time, blocked, cache-load and hashing times match their definitions", "statement": "invocation_count, number_of_cache_misses, number_of_cache_hits, time, blocked_time, incremental_load_time and incremental_hashing_time of every label are the counts over events of the corresponding kinds with that label, or the sums of their durations (time includes every interval of that label except result-hashing ones; load and hashing time exclude the direct children of such intervals).", "quantifier": "all streams on which the analysis returns", "why_tests_cant": "unbounded streams", "anchors": ["analyzeme/src/analysis.rs: perform_analysis, QueryData"]}
{"id": "C38", "title": "total_time spans the profile", "statement": "total_time is the sum over threads of (latest end minus earliest start) of the intervals recorded on that thread, zero if there are none, and never underflows.", "quantifier": "all streams", "why_tests_cant": "unbounded streams", "anchors": ["analyzeme/src/analysis.rs: perform_analysis"]}
{"id": "C39", "title": "Artifact sizes are summed per label and only from integer events", "statement": "artifact_sizes lists each artifact label once in label order with the sum (mod 2^64) of its recorded integers.", "quantifier": "all streams", "why_tests_cant": "unbounded streams", "anchors": ["analyzeme/src/analysis.rs: ArtifactSize, perform_analysis"]}
{"id": "C40", "title": "Intervals that overlap without nesting: exactly when the analysis answers, and what", "statement": "Desired: perform_analysis returns for every decodable stream, and what it returns are the self times. Both fail for intervals that overlap without nesting: it can panic with a Duration underflow, or return numbers that are not the self times (witnesses). Exactly: it returns iff no interval ends before it starts, no artifact's sizes overflow (with overflow checks) and, walking from the end, no label has more time counted inside its intervals than they have; otherwise it panics. Whenever it returns, a label's self time is the length of its intervals minus that of the intervals counted in them, where an interval is counted in the first later one that encloses it and every interval of its thread recorded between the two; for properly nested streams that is its parent, and the analysis never panics.", "quantifier": "all streams", "why_tests_cant": "depends on event arrangement", "anchors": ["analyzeme/src/analysis.rs: perform_analysis"]}
{"id": "C41", "title": "Collapsed stacks add up to the recorded time", "statement": "collapse_stacks maps each stack path to the summed self time of the intervals with this path; the values add up to the total thread time of all threads. On a stream of any shape it returns exactly when no interval ends before it starts and, with overflow checks, never more is counted inside the intervals of a path than the ones already seen have, nor inside a thread; otherwise it panics. What it then reports for a path is the length of its intervals minus the length of those counted in them (modulo 2^64 without overflow checks), where the events an interval is counted in are the first later ones that enclose it and everything of the thread in between.", "quantifier": "all properly nested streams; for when it returns and what it then reports, all streams, nested or not, in debug and release builds", "why_tests_cant": "unbounded forests", "anchors": ["analyzeme/src/stack_collapse.rs: collapse_stacks"]}
{"id": "C42", "title": "Collapsed stacks agree with the analysis", "statement": "For properly nested streams, summing collapsed stacks by their leaf label gives each label's self time as reported by perform_analysis. The two agree on every other stream on which both return too: exactly in a debug build, modulo 2^64 in a release build.", "quantifier": "all properly nested streams, and all streams of any shape on which both tools return; labels without ';'", "why_tests_cant": "agreement of two independent algorithms over unbounded forests", "anchors": ["analyzeme/src/stack_collapse.rs: collapse_stacks", "analyzeme/src/analysis.rs: perform_analysis"]}
{"id": "C43", "title": "crox lane collapsing never overlaps threads in a lane", "statement": "With --collapse-threads two threads share a lane only if their active time spans do not overlap; every thread gets exactly one lane.", "quantifier": "all profiles, any sort order of ties", "why_tests_cant": "unbounded thread sets", "anchors": ["crox/src/main.rs: generate_thread_to_collapsed_thread_mapping"]}
{"id": "C44", "title": "crox uses as few lanes as possible", "statement": "The number of lanes used is the maximum number of simultaneously active threads, so no smaller assignment exists.", "quantifier": "all profiles", "why_tests_cant": "optimality over all assignments", "anchors": ["crox/src/main.rs: generate_thread_to_collapsed_thread_mapping"]}
{"id": "C45", "title": "crox filters and converts durations exactly", "statement": "crox emits one complete event for each interval of at least the minimum duration and no other events; timestamps and durations are rounded to microseconds; args appear as arg0.. iff there are arguments.", "quantifier": "all profiles and thresholds", "why_tests_cant": "all profiles", "anchors": ["crox/src/main.rs: main, as_micros, get_args"]}
{"id": "C46", "title": "Extrema keeps the most extreme distinct values", "statement": "After adding any sequence of ranges with sources to an Extrema with a positive limit, the smallest map has exactly the `limit` smallest distinct lower bounds and the largest map exactly the `limit` largest distinct upper bounds, in ascending order, each with its source if it occurred once and otherwise with the exact number of its occurrences; the internal assertion never fails.", "quantifier": "all limits > 0, all sequences of ranges and sources", "why_tests_cant": "eviction depends on the whole history of additions; sequences are unbounded", "anchors": ["summarize/src/aggregate.rs: Extrema"]}
{"id": "C47", "title": "Sample points replay the stream in time order", "statement": "If the back-to-front iterator over sample points ends without a panic, its points reversed replay on a stack of open intervals (every start is matched by its stop, the parent is the innermost open interval) and complete exactly the stream's timed events in order. For a single thread's scoped recording it never panics, the points come in time order, no duration is negative, and their times are exactly the endpoints of the events; and the points of a one-thread stream come in time order only if the stream is what scoped timings record.", "quantifier": "all event streams", "why_tests_cant": "nesting depth and length are unbounded", "anchors": ["summarize/src/aggregate.rs: SamplePoints, SampleIntervals"]}
{"id": "C48", "title": "aggregate fails exactly on profiles of different shape, and never in its own assertions", "statement": "aggregate_profiles returns a report iff every profile's sample points can be enumerated without a panic (one thread), no interval is negative (equivalently: each profile is what scoped timings of one thread record), and all profiles give the same sequence of kinds, labels, arguments and parents; otherwise it panics; the assertions in describe never fail, and two successive points are described by the sentence that says which event lasts, begins, ends or lies between them.", "quantifier": "all lists of profiles", "why_tests_cant": "assertions must hold over all inputs", "anchors": ["summarize/src/aggregate.rs: aggregate_profiles, describe"]}
{"id": "C49", "title": "The aggregate report is exact", "statement": "For profiles recorded by scoped timings on one thread each with the same shape, the report lists, of the gaps between successive endpoints position by position, the ten smallest minima, the ten largest maxima, and the ten smallest and largest differences between maximum and minimum, each with the description of its position if it occurs at one position only and with the number of its occurrences otherwise; whenever the command gives a report at all, whatever the profiles, the report is this one.", "quantifier": "all non-empty lists of profiles", "why_tests_cant": "unbounded numbers of profiles and events", "anchors": ["summarize/src/aggregate.rs: Aggregated"]}
{"id": "C50", "title": "diff reports, per label, exactly change minus base", "statement": "For any two analysis results whose times fit in 64 bits of nanoseconds and whose counts and sizes are below 2^63, summarize diff shows every label of either result exactly once, each column is the value in the change minus the value in the base (absent labels count as zero; the last entry of a label counts), the total likewise, and rows come by decreasing magnitude of the change in self time; this does not depend on the enumeration order of hash sets. Beyond 2^63 sizes wrap.", "quantifier": "all pairs of results, all hash-set enumeration orders, both build modes", "why_tests_cant": "all pairs", "anchors": ["summarize/src/diff.rs: calculate_diff, QueryDataDiff, SignedDuration"]}
{"id": "C51", "title": "diff is antisymmetric and zero on itself", "statement": "Swapping base and change negates every difference; diffing a result with itself gives zeros; SignedDuration subtraction is integer subtraction. The two zeros (+0, -0) are equal in order but not by ==.", "quantifier": "all pairs of results / durations", "why_tests_cant": "all pairs", "anchors": ["summarize/src/diff.rs: SignedDuration, QueryDataDiff::sub, invert"]}
{"id": "C52", "title": "JSON inputs are recognized by extension", "statement": "Desired: summarize diff reads a file with extension .json as a saved JSON result. In fact an argument is read as JSON exactly if the last component of its path is the name 'json'; a path ending in '.json' never is, and naming the file saved by --json means the profile it was made from.", "quantifier": "all paths and file systems", "why_tests_cant": "all paths", "anchors": ["summarize/src/main.rs: process_results", "summarize/src/main.rs: diff"]}
{"id": "C53", "title": "summarize shows an optional column under an exact condition", "statement": "The columns for cache hits, blocked time and load time are shown iff some item has a non-zero value for them. The hashing column is shown iff some item with hashing time is not preceded, in the order of self times, by items that together have the other three; so it can be hidden although there is data (with a witness).", "quantifier": "all result sets", "why_tests_cant": "all result sets", "anchors": ["summarize/src/main.rs: summarize"]}
{"id": "C54", "title": "percent-above keeps exactly the rows at or above the threshold", "statement": "summarize shows exactly the items whose share of the total time is not below --percent-above, by decreasing self time, under every title the value the title promises; the printed share is the sum of the percentages shown; the limit is refused exactly if above 100 or below 0.", "quantifier": "all results and limits, any monotone floating-point division", "why_tests_cant": "all result sets", "anchors": ["summarize/src/main.rs: summarize"]}
{"id": "C55", "title": "mmedit truncate keeps header, string pages and the first event page", "statement": "For every file of version 7 or 8, mmedit truncate either panics (exactly when its pages cannot be split) or writes the same header and pages in the same order without all event pages but the first: string streams are intact and the event stream is a prefix. Truncating twice changes nothing more. Every other version, in particular every file written by the current profiler, is refused with an error.", "quantifier": "all files", "why_tests_cant": "all files", "anchors": ["mmedit/src/main.rs: truncate"]}
{"id": "C56", "title": "mmview lists exactly the selected events", "statement": "mmview prints every event (of the selected thread if given) once and in order: kind, label, arguments, whole microseconds after the earliest start of any event, thread. A profile has no earliest start exactly if it has no timed event; then only 'No events.' is printed, even if there are integer events. It works on any file format; of the string data it reads only what the selected events need, so a damaged string of another thread does no harm, and it stops at the first selected event that cannot be read.", "quantifier": "all profiles whose events can be decoded, all thread selections", "why_tests_cant": "all profiles", "anchors": ["mmview/src/main.rs"]}
{"id": "C57", "title": "Hardware counters are exact, or refuse to be recorded", "statement": "A hardware counter's value is congruent to the true number of events since start modulo 2^48 (minus the interrupts for the subtracting counters), and exactly equal when no register passes 2^47 modulo 2^48; within 2^48 events a plain counter's value is exact or too large to be recorded (recording panics). Wall time counts nanoseconds.", "quantifier": "all numbers of events and register contents", "why_tests_cant": "2^96 pairs", "anchors": ["measureme/src/counters.rs: since_start, read"]}
{"id": "C58", "title": "Folded-stacks files can be read back", "statement": "The file written by stack_collapse (and the lines handed to the flamegraph generator) is one line per collapsed stack, the stack, a space and the count; a reader that splits each line at its last space gets back exactly the collapsed stacks if no stack contains a newline, and never if one does.", "quantifier": "all maps from stacks (of any labels, including labels with spaces and digits) to counts", "why_tests_cant": "Labels are arbitrary text; tests only try a few.", "anchors": ["stack_collapse/src/main.rs main", "flamegraph/src/main.rs main"]}
{"id": "C59", "title": "Profiler and reader agree on the file a path means", "statement": "The profiler writes to the path with the text after the last dot of the last component replaced by mm_profdata; opening the same path, or the written path, reads that file; paths that differ only after the last dot mean the same file; a file written by mmedit truncate can be opened by its full name, but its prefix means the original file.", "quantifier": "all paths", "why_tests_cant": "all paths", "anchors": ["measureme/src/profiler.rs: Profiler::new", "analyzeme/src/profiling_data.rs: ProfilingData::new", "mmedit/src/main.rs: truncate"]}
{"id": "C60", "title": "--exclude shows exactly the rows that match no excluded text", "statement": "summarize diff --exclude shows, in order, exactly the rows whose label contains none of the excluded texts.", "quantifier": "all results and lists of excluded texts", "why_tests_cant": "all results and texts", "anchors": ["summarize/src/main.rs: diff"]}
{"id": "C61", "title": "Counters are found by name on the documented CPUs", "statement": "Counter::by_name gives the counter of the documented name, only if its constructor succeeds, and an error for every other name; instructions-minus-irqs is available exactly on AMD CPUs since K8 and Intel CPUs since Sandy Bridge for which the kernel grants both events with readable 48-bit counters. The other hardware counters are available on every Intel CPU and on AMD CPUs since K8 under the same condition on the kernel; a counter that cannot be had is an error, never a panic; and a warning is given exactly if the CPU is newer than those listed, or r0420 is asked for on a CPU not known to be a Zen. On every other platform (not x86_64, not Linux, or OHOS) the clock is still available and asking for a hardware counter is an error that lists exactly what the platform lacks.", "quantifier": "all names, all cpuid results, all kernel answers, all platforms", "why_tests_cant": "needs every CPU; 2^128 cpuid results", "anchors": ["measureme/src/counters.rs: Counter::by_name, CpuModel::detect, irqs_counter_config, with_type_and_hw_id"]}
{"id": "C62", "title": "The tools work on every profile a scoped program leaves, and report what it did", "statement": "Take any program that holds its timings in scopes (on every thread, timings are finished in the reverse order of their starts, and the counter does not go backwards on a thread), uses ids that denote texts, and was started with plain command-line arguments. Opening the file its profiler leaves gives exactly the recorded events, in order, with their threads, times and texts. summarize does not panic on it; the self times add up to the time in outermost intervals and do not exceed the total time. stack_collapse writes for every path of labels the time spent in exactly that path, adding up to the time of all threads (up to 65536 threads). crox emits exactly the intervals that are long enough, with the session's process id, and never puts two simultaneously active threads on one lane. summarize diff of two such profiles is the difference of their analyses. If the program uses one thread and the counter never goes backwards, summarize aggregate accepts the profile.", "quantifier": "every program (any number of calls, threads, strings), every counter reading in range, every file stem, every build with or without overflow checks, every tool option", "why_tests_cant": "Tests run the tools on a handful of recorded profiles; the claim links every possible program with what each tool prints about it through the whole chain of encoders and decoders.", "anchors": ["measureme/src/profiler.rs (Profiler, TimingGuard)", "analyzeme/src/profiling_data.rs (ProfilingData::new)", "analyzeme/src/analysis.rs (perform_analysis)", "analyzeme/src/stack_collapse.rs (collapse_stacks)", "summarize/src/main.rs (summarize, diff, aggregate)", "stack_collapse/src/main.rs (main)", "crox/src/main.rs (main)"]}
{"id": "C63", "title": "A profiler shared by threads behaves like one used by a single thread", "statement": "When threads share a profiler, under every schedule there is one order of all their calls, agreeing with each thread's order and with real time, such that every thread gets the answers (string ids, panics) it would get if one thread made the calls in that order, and the file reads exactly like the file of that single thread. Each thread's events are in the file under its thread id in the order it recorded them and nothing is lost, duplicated or mixed; if every thread's timings are properly scoped, summarize, crox, stack_collapse and the other tools work on the file as they do for a single-threaded session. Every program runs to its end.", "quantifier": "for every number of threads, every sequence of profiler calls of each thread, every schedule of the steps of the locks and writes, every metadata", "why_tests_cant": "schedules are unboundedly many and races appear in few of them; a test runs a handful", "anchors": ["measureme/src/profiler.rs: Profiler::{with_counter,map_virtual_to_concrete_string,bulk_map_virtual_to_single_concrete_string,alloc_string,record_instant_event,record_integer_event,start_recording_interval_event,start_recording_interval_event_detached,finish_recording_interval_event,record_raw_event}", "measureme/src/serialization.rs: SerializationSink, SharedState", "measureme/src/stringtable.rs: StringTableBuilder", "analyzeme/src/profiling_data.rs: ProfilingData::from_paged_buffer"]}
{"id": "C64", "title": "Runs of one program can be aggregated", "statement": "Run a program that holds its timings in scopes on one thread any number of times, with a counter that goes forward with every reading. If the runs make the same sequence of calls and record events whose kinds, labels and arguments are the same texts, then summarize aggregate of the files they leave never panics, whatever the readings of the counter are and whatever ids the strings got, and reports the extremes and the spreads of the times between successive points. A counter that only never goes backwards is not enough: two intervals one after the other at one moment make the command panic.", "quantifier": "every scoped one-thread program, any number of runs, every strictly increasing sequence of counter readings per run, every process id, start time and command line", "why_tests_cant": "Every combination of counter readings over any number of runs; the tie case happens only when the clock does not advance between two reads.", "anchors": ["summarize/src/aggregate.rs (aggregate_profiles, SamplePoints)", "summarize/src/main.rs (aggregate)", "measureme/src/profiler.rs"]}
{"id": "C65", "title": "The project's end-to-end test passes under every schedule", "statement": "The end-to-end test records, from any number of threads that share one profiler, nested stacks of interval, instant and integer events, reads the file back and compares the events with the expected ones forwards and backwards. For any number of threads and stacks (as long as the recorded integers fit in 48 bits), whatever the counters read (non-decreasing, in range) and however the threads are scheduled, the events read agree thread by thread with the expected ones; so the test passes exactly if the two hash maps whose key lists it compares yield the thread ids in the same order, and always if that order depends only on the set of keys.", "quantifier": "every number of threads below 2^32, every number of stacks whose integers fit, every schedule of the threads' calls, every counter history per thread, every process id, start time and command line, every hash-map iteration order", "why_tests_cant": "It is itself the test: one run of it samples one schedule and one pair of sizes; the comparison of hash-map key lists depends on an order the standard library does not promise.", "anchors": ["analyzeme/src/testing_common.rs (run_end_to_end_serialization_test, generate_profiling_data, process_profiling_data, check_profiling_data, collect_events_per_thread)", "measureme/src/profiler.rs", "analyzeme/src/profiling_data.rs (ProfilerEventIterator)"]}
{"id": "C66", "title": "Opening a file of any content: what is an error, what a panic, what opens", "statement": "For every byte sequence given to the reader (version 9, paged): if it does not begin with its header, an error is reported; if what follows is not a sequence of non-empty pages with known tags, opening panics; if one of the three streams is missing or has no header, an error is reported; if the string index is no whole number of 16-byte entries, opening panics; otherwise the outcome is exactly that of reading the text of the metadata's id from the string data with the last index entry for each id, and parsing it. These are all cases, and a file without an entry for the metadata is an error, not a panic.", "quantifier": "every byte sequence", "why_tests_cant": "The input is arbitrary bytes, possibly damaged; the classification must be exhaustive.", "anchors": ["decodeme/src/lib.rs (EventDecoder::new, from_separate_buffers)", "decodeme/src/stringtable.rs (StringTable::new, metadata_query)", "measureme/src/serialization.rs (split_streams)", "measureme/src/file_header.rs (verify_file_header)"]}
{"id": "C67", "title": "A profile cut short: a killed process, a full disk, an interrupted copy", "statement": "For every session and every byte at which its profile is cut, the cut file either does not open at all (an error or a panic) or opens and shows exactly an initial part of what was recorded: the metadata, the first k events with their threads and values, and the texts given by the first i strings and the first j mappings (plain strings that are lost make the reader panic). It opens exactly if the cut is at the end of a page, the metadata text and its index entry and the header of the event stream are before it, and the index does not end within an entry. What a process has written when it is killed is such a cut; if it opens, at most the last 8192 events, 16384 mappings and 262144 bytes of text are missing. A process killed before 8192 events (or 8191 mappings, or more than 131072 bytes of text) leaves a profile that is an error to open; later it opens, unless a mapping of many ids at once has written a page that ends inside an index entry: then opening panics. The same holds with any number of threads, under every schedule and with the process killed anywhere in the code of each thread: there is an order of the calls that had been started, agreeing with each thread's own order, real time and all answers got, so that the file (or any cut of it) either does not open or shows an initial part of what one thread making the calls in this order records; between calls the bounds on what is lost hold as well. Strings include the values of the program's own types, with whatever bytes they wrote.", "quantifier": "every session (every list of profiler calls, metadata and plain command line), every byte position, every moment of death; every number of threads, their programs and schedules", "why_tests_cant": "It ranges over every crash point of every history; the page boundaries that matter appear only after thousands of events.", "anchors": ["measureme/src/serialization.rs (write_page, write_atomic, write_bytes_atomic, split_streams, MAX_PAGE_SIZE, MIN_PAGE_SIZE)", "measureme/src/profiler.rs", "measureme/src/stringtable.rs (bulk_map_virtual_to_single_concrete_string)", "decodeme/src/lib.rs (EventDecoder::new)", "decodeme/src/stringtable.rs (StringTable::new, to_string)"]}
{"id": "C68", "title": "crox's file is JSON that says exactly what the profiles say, or the run failed", "statement": "If crox succeeds, chrome_profiler.json is a JSON document (RFC 8259) with one meaning only: an array with, for each profile given and then each *.mm_profdata file of the directory, in order, one complete event per interval of at least the minimum duration (label, kind, whole microseconds, process id, lane, arguments arg0, arg1, ...), whatever bytes the texts contain, then the process name if the command line has one, then the sort index. If crox fails, the file left behind is not JSON.", "quantifier": "all sets of files, option values, texts, hash orders and sort tie-breaks", "why_tests_cant": "all texts (quotes, control characters, backslashes) and all numbers of profiles and events; failure at every point", "anchors": ["crox/src/main.rs: main, Event, as_micros, get_args, file_prefixes_in_dir"]}
{"id": "C69", "title": "Saved results read back exactly", "statement": "summarize --json writes a JSON document that holds all results with one meaning only; reading it gives the same results, in any layout (white space, member order, unknown members); comparing saved results with summarize diff is comparing the profiles; a file that is not JSON is an error, not a panic.", "quantifier": "all results whose numbers fit their types, all JSON layouts of them", "why_tests_cant": "all labels, numbers and layouts", "anchors": ["summarize/src/main.rs: write_results_json, process_results, diff", "analyzeme/src/analysis.rs: AnalysisResults, QueryData, ArtifactSize"]}
{"id": "C70", "title": "Tools write one file and never a profile", "statement": "Each tool changes at most its one output file; no tool but mmedit ever changes a profile, and mmedit only files named ….truncated.mm_profdata, never its input; a tool that fails (other than crox, and flamegraph's drawing) leaves all files as they were; running a tool never changes what a later tool reads, so running it again gives the same files. A tool whose output file cannot be created changes nothing and says so.", "quantifier": "all tools, all arguments, all file systems, all failures", "why_tests_cant": "all combinations of paths, file systems and outcomes", "anchors": ["mmedit/src/main.rs: main", "summarize/src/main.rs: write_results_json", "crox/src/main.rs: main", "stack_collapse/src/main.rs: main", "flamegraph/src/main.rs: main"]}
{"id": "C71", "title": "summarize diff --json writes the difference", "statement": "summarize diff --json writes one JSON document next to the changed profile that says, row by row, the difference of the two results: a row per label of either, change minus base in every column, the relative change (null exactly for new items and zero bases), in order of decreasing change of self time; likewise for artifacts and the total.", "quantifier": "all pairs of results (times below 2^64 ns, counts below 2^63), all hash orders", "why_tests_cant": "all results and orders", "anchors": ["summarize/src/main.rs: diff, write_results_json", "summarize/src/diff.rs: DiffResults, QueryDataDiff, ArtifactSizeDiff, SignedDuration"]}
{"id": "C72", "title": "I/O errors under concurrency", "statement": "With any number of threads on the sinks and any writes to the file failing after any number of bytes: the observed results (panics included) are those of some sequential order of the calls on a store with as many failures, consistent with every thread's order and real time; a failure is never silent; locks held by the failing thread are released, so no deadlock and no endless run; stored bytes are never changed and the complete pages stored before the first failure stay the beginning of every stream that can still be split; a profile left by a process stopped at its first I/O error either does not open or shows an initial part of what was recorded.", "quantifier": "all numbers of threads, programs, schedules, failing writes and numbers of bytes that reach the file", "why_tests_cant": "all interleavings and all failure points; tests use a store that cannot fail", "anchors": ["measureme/src/serialization.rs: SerializationSink::write_page, write_atomic, write_bytes_atomic, flush, SharedState", "measureme/src/profiler.rs: Profiler"]}
{"id": "C73", "title": "What is read from the kernel's counter page belongs together", "statement": "Opening a hardware counter reads several fields of a page the kernel may update meanwhile: if no update is going on when the successful attempt begins and the kernel makes fewer than 2^31 updates during it, the values are those of one moment, so the counter is created or refused according to one state of the page; the read ends once the kernel leaves the page alone, and is repeated only if the kernel updated it. (Not guaranteed, with witnesses: a read during an update, which the code does not detect, and 2^31 updates within one attempt.)", "quantifier": "all kernel executions, all interleavings with the reader, any number of retries", "why_tests_cant": "depends on the interleaving with kernel updates; needs hardware counters", "anchors": ["measureme/src/counters.rs: Counter::access_mmap_page_with_seqlock, Counter::with_type_and_hw_id"]}
{"id": "C74", "title": "The numbers in the printed tables are the numbers of the results", "statement": "What `summarize summarize` and `summarize diff` print can be read back: totals, counts, sizes, and all differences are exact; the durations in the table of `summarize` are the nearest number of hundredths of the largest unit not longer than the duration (ties to even), which keeps their order; every item not filtered has exactly one row, and under every title stands the value the title promises, with the sign of the difference. (Not as asked for in the code: `summarize diff` ignores the precision of two decimals.)", "quantifier": "all durations, counts, sizes, results, filters, hash orders", "why_tests_cant": "rounding, carries and units depend on the number; all numbers matter", "anchors": ["summarize/src/main.rs: diff, summarize", "summarize/src/diff.rs: impl Debug for SignedDuration"]}
{"id": "C75", "title": "What is said about a profile that is refused", "statement": "Opening a profile that is not there is an error that names the file looked for (the given path with the extension mm_profdata), and it mentions an out-dated version exactly if one of the three files of the old format is there. A file that does not begin with the header of a profile, that lacks one of the three streams, or of which a stream does not begin with its header, is refused with an error that names the file and the stream and says what was expected and what was found. Opening a file of an unsupported version is an error that names the version the file has. (As the code stands, both messages call the version too new, also when it is older than every supported one.)", "quantifier": "all file systems, all paths with a plain last component, all version numbers and all contents after the header", "why_tests_cant": "Tests try a few paths and versions; the messages must be right for every path, combination of existing files and version number.", "anchors": ["analyzeme/src/profiling_data.rs: ProfilingData::new, ProfilingData::from_paged_buffer, ProfilerFiles", "measureme/src/file_header.rs: verify_file_header", "decodeme/src/lib.rs: read_file_header, EventDecoder::new"]}
{"id": "C76", "title": "All text is well-formed Unicode, whatever a file contains", "statement": "Whatever bytes a profile consists of, every string the library returns from it (through either way of reading a string, as kind, label or argument of an event, as the command line) is well-formed UTF-8; so the event-id parser never panics on it, cutting strings at the separators the tools look for never splits a character, and every file and text the tools produce (crox's trace, also of a failed run; folded stacks; mmview's output; saved results and differences) is well-formed UTF-8.", "quantifier": "all byte strings as file contents, all string ids, all options, all orders of hash maps", "why_tests_cant": "Tests use well-formed strings; damaged or foreign files can hold any bytes at any place.", "anchors": ["decodeme/src/stringtable.rs: StringRef::to_string, write_to_string", "decodeme/src/event.rs: parse_event_id", "decodeme/src/lib.rs: Metadata", "crox/src/main.rs: main", "analyzeme/src/stack_collapse.rs: collapse_stacks", "mmview/src/main.rs: print_event", "summarize/src/main.rs: write_results_json"]}
{"id": "C77", "title": "Malformed event ids are reported, and only those", "statement": "When the reader parses the text of an event id and the label or an argument is not a proper text (non-empty, no control characters but white space), it prints exactly one message on standard error, naming the reason, the byte where the first improper field ends and the whole text, and returns '<parse error>' (improper label) or the label and the arguments before the first improper one. Nothing is printed exactly if the label and arguments returned, joined by the separator, are the text again.", "quantifier": "all texts, however many fields they have and wherever the first improper field is", "why_tests_cant": "Texts are unbounded; the position in the message depends on the UTF-8 length of all fields before it.", "anchors": ["decodeme/src/event.rs: Event::parse_event_id, Parser::err, parse_separator_terminated_text, parse_arg"]}
{"id": "C78", "title": "Creating a profile replaces exactly its own file", "statement": "Creating a profiler for a path asks for the directory of that path, replaces the one file the path stands for and no other; afterwards reading by the same path (or any path leading to the same file) gives the events of the new session and of no earlier one, whatever files were there. If the directory or the file cannot be created there is an error and all files are as before; if the file cannot be written the old profile is lost and opening gives an error. For the empty path and the root it panics, touching nothing.", "quantifier": "all paths, all file systems before, all answers of the operating system, all sessions", "why_tests_cant": "All spellings of paths (trailing separators, dots, extensions) and all earlier contents of the directory.", "anchors": ["measureme/src/profiler.rs: Profiler::new, Profiler::with_counter", "analyzeme/src/profiling_data.rs: ProfilingData::new"]}
{"id": "C79", "title": "Decoding an event by its number", "statement": "decode_full_event and decode_lightweight_event of a number below num_events give the event that iteration gives at that place. In builds with overflow checks every other number panics; in builds without, numbers count modulo 2^59, so a number too large by a multiple of 2^59 gives an event, and all others panic.", "quantifier": "all decoders, all 64-bit numbers, both kinds of build", "why_tests_cant": "64-bit numbers; the wrapping happens only for numbers no test uses.", "anchors": ["decodeme/src/lib.rs: decode_full_event, decode_lightweight_event, event_index_to_addr"]}
{"id": "C80", "title": "What a profile takes on disk", "statement": "Paging costs next to nothing, however data is handed to a sink: apart from pages forced by a flush or drop, the pages of a sink are on average at least half full (128 KiB), also for adversarial sequences of piece sizes. The file of a session has exactly the size of what it recorded (32 bytes per event, 16 per mapping made, one more than its bytes for a string and nine per reference, four headers of 8 bytes, the metadata) plus 5 bytes per page, with at most three pages more than there are 128 KiB of content; so the overhead is at most 0.004 percent plus 15 bytes. The same holds for a profiler used by several threads, under every schedule.", "quantifier": "all histories of calls of all sizes on any number of sinks; all metadata and all sequences of profiler calls; all programs of several threads and all schedules", "why_tests_cant": "The worst case depends on the sequence of piece sizes relative to the fill of the buffer; an unlucky pattern could leave pages nearly empty.", "anchors": ["measureme/src/serialization.rs: SerializationSink::write_atomic, write_bytes_atomic, write_page, flush", "measureme/src/raw_event.rs: RAW_EVENT_STORAGE_SIZE", "measureme/src/stringtable.rs: SerializableString::serialized_size, serialize_index_entry", "measureme/src/profiler.rs: Profiler::new"]}
{"id": "C81", "title": "Strings of user-defined types cannot harm other strings", "statement": "A program may store values of its own types implementing SerializableString, which write whatever bytes they like into the space they asked for. The table and the event stream of such a session open and read as ever: every string of the library's own types, every text made of such strings and every mapping to them reads as it should (all theorems of C12-C17 hold with such calls in between). The foreign value itself reads as the text up to the first terminator byte it wrote, so one following the documented format reads as its text; one without terminator runs on into the string after it (which still reads correctly), and if nothing follows, one reader answers '<invalid>' and the other panics. The same holds for such values passed to a profiler's alloc_string, on any thread: one that follows the documented format (with references or without) denotes what the library's own string with these components would denote, so all properties of profiles and tools hold for events named by such values.", "quantifier": "all sessions with any number of foreign values of any sizes and contents at any places, all ids", "why_tests_cant": "Foreign implementations can write any bytes; the damage they could do depends on everything stored around them.", "anchors": ["decodeme/src/stringtable.rs: StringRef::to_string, write_to_string", "measureme/src/profiler.rs: Profiler::alloc_string", "measureme/src/stringtable.rs: SerializableString, StringTableBuilder::alloc"]}
{"id": "C82", "title": "What a callback that panics leaves behind", "statement": "A program may catch a panic of its own write_atomic callback (or of the serialize method of a value of its own type) and go on using the sink. Then: the call that panicked is the only one that fails; the store still splits; the stream of every flushed sink with its own tag is what its calls left, namely their data and, for every callback of at most 262144 bytes that panicked, the contents of the slice at that moment (what the callback had written, zeros elsewhere). But the addresses the sink returns count successful writes only, so from the first such panic on every address (and every string id) is too small by the total size of these slices; they stay right exactly as long as no callback of 1 to 262144 bytes has panicked on that sink. At the level of strings: a string stored after such a panic may read as an earlier string. At the level of the profiler: all other calls return what they would return without the calls that panicked; the events and the string index of the file are those of a program without them, and only the string data has the panicking values' bytes inserted; so the file opens, shows the metadata and every event, and every string stored before the first panic reads as ever. Values that panic before asking for space, or that ask for more than a page, leave no trace. With several threads calling the sinks at once the same holds in the order in which the calls take the sinks' lock; with several threads sharing a profiler, whichever values panic on whichever thread, there is one order of all calls, agreeing with each thread and with real time, in which a single thread gets the same answers and leaves a file that reads alike: no lock stays held, every other call of every thread is answered as if the panicking calls had not been made, and every event of every thread is showns, whatever the schedule; a panic on one thread makes the later addresses of all threads of that sink too small.", "quantifier": "all histories of calls on any number of sinks, or on a profiler, any payload sizes, with any number of panicking callbacks at any places, whatever they have written; on sinks also all schedules of any number of threads", "why_tests_cant": "the offset depends on the whole history of sizes, page boundaries and panics of all sinks", "anchors": ["measureme/src/serialization.rs: write_atomic, write_bytes_atomic", "measureme/src/stringtable.rs: StringTableBuilder::alloc", "measureme/src/profiler.rs: Profiler::alloc_string"]}
{"id": "C83", "title": "Reading a sink back is like dropping it", "statement": "into_bytes gives, for an in-memory store, exactly what the calls on the sink left, flushed or not (if no other sink has its tag; otherwise what the store then holds for the tag). Whatever state the sinks are in and whatever the store does (any write may fail after any number of bytes), it leaves in the store, file or memory, exactly what dropping the sink would leave, fails with the same error if that would fail, touches no other sink and leaves nothing to be written later. On a file it always panics, but the data is in the file all the same.", "quantifier": "all histories of calls on any number of sinks, all payload sizes, both kinds of store, all patterns of write failures", "why_tests_cant": "what is still buffered depends on the whole history; failures can occur at any byte", "anchors": ["measureme/src/serialization.rs: SerializationSink::into_bytes, SharedState::copy_bytes_with_page_tag, Drop"]}
{"id": "C84", "title": "Callbacks that use sinks themselves", "statement": "The callback of write_atomic (or a string's serialize) may itself write to sinks, which are locked while their callbacks run (unless the callback asked for more than a page). If the sinks have an order such that callbacks only ever use sinks after those whose callbacks are running, any number of threads always run to the end; without an order two threads may block each other for ever. A thread that has a callback use its own sink (a string whose serialize allocates a string) never comes to its end, and every other thread that needs the sink waits for ever. One thread whose callbacks use only other sinks runs to its end. Whatever threads that come to their end have written is as if all calls had been made one after the other in some order, each thread's in its own order, a callback's before the call it belongs to (an order that only grows as time passes, so a thread that begins after another has ended comes after it); and at any moment, also when threads are blocked for ever, the store is complete pages and the beginning of at most one.", "quantifier": "all programs with callbacks nested to any depth that react to the answers they get, all numbers of threads, all interleavings, all sizes", "why_tests_cant": "a deadlock depends on the interleaving; a test that deadlocks does not end; nesting is unbounded", "anchors": ["measureme/src/serialization.rs: SerializationSink::write_atomic, Mutex<SerializationSinkInner>", "measureme/src/stringtable.rs: StringTableBuilder::alloc, SerializableString::serialize"]}
{"id": "C85", "title": "Collapsed stacks do not depend on how threads interleave", "statement": "If collapse_stacks returns on two streams of any shape that have the same events in the same order on each thread, it reports the same stacks with the same values, in debug and release builds. A release build returns on every interleaving if it does on one, and so does any build on properly nested streams; for other streams a debug build may panic on one interleaving and return on another. If stack_collapse succeeds on two profiles that differ so, the files it writes consist of the same lines, in some order.", "quantifier": "all pairs of interleavings, all streams, nested or not, both build modes", "why_tests_cant": "unbounded streams and numbers of threads, all interleavings", "anchors": ["analyzeme/src/stack_collapse.rs: collapse_stacks"]}
{"id": "C86", "title": "An event that cannot be decoded hides no other", "statement": "A program that catches panics can go on iterating: over the full events of a profile in the current format, from either end in any pattern, every call of next or next_back yields, for each event exactly once and in order, the event or the panic of that event's own decoding, and the remaining number is always right; k calls of next give the k events, each or its panic. The light-weight form of every event can always be had. For decoders whose light-weight decoding can itself panic the two ends differ: next meets the same event again on every further call (a loop over next never gets past it), next_back passes over it.", "quantifier": "all event streams, string tables and decoders, all patterns of next / next_back", "why_tests_cant": "needs every damaged profile and every interleaving of calls that panic and calls that do not", "anchors": ["analyzeme/src/profiling_data.rs: ProfilerEventIterator::next, next_back, iter_full, to_full_event", "decodeme/src/lib.rs: decode_full_event, decode_lightweight_event"]}
{"id": "C87", "title": "crox does not depend on how threads interleave", "statement": "For two profiles in which each thread records the same events in the same order and only the interleaving of the threads differs, crox accepts both or neither and writes the same records in another order; without --collapse-threads the records of each thread come in the same order. With it the number of lanes is the same, and so is each thread's lane if no two threads begin at one moment and no two end at one moment, whatever order the hash map of threads is walked in; if two threads begin and end together, that order decides which of them gets which lane, even for one and the same profile. The same holds of whole runs of crox on two profiles with the same metadata: the same records, and the process named and sorted alike.", "quantifier": "all pairs of event streams with the same threads, all arrangements the unstable sorts may give", "why_tests_cant": "interleavings and hash orders vary from run to run", "anchors": ["crox/src/main.rs: generate_thread_to_collapsed_thread_mapping, main"]}
