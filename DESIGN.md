# Formal model of measureme in Lean 4 — design

## Layout
* `properties.jsonl` — the properties; `MANIFEST.json` — the theorems per property (generated by `scripts/manifest.py`);
  `THEOREMS.md` — every property theorem in words with the axioms it depends on (generated by `scripts/theorems.py`).
* `lean/Verif/Basic.lean` — bytes, faults, little-endian integers.
* `lean/Verif/Model/*.lean` — the model, function by function; each definition cites the file and lines of `/repo` it models.
* `lean/Verif/Spec/*.lean` — small specifications written without the model's helpers (where a specification mentions a model type
  it is a data type such as an event or a call, not a function).
* `lean/Verif/Proofs/*.lean` — lemmas and invariants.
* `lean/Verif/Props/*.lean` — the property theorems (`Cnn_…`), each followed by `example`s showing that a concrete non-trivial case
  meets the hypotheses.
* `seeded/LOG.jsonl` — wrong programs tried against the theorems: each line an edit of the model, the claim it breaks, the theorems
  that failed, the theorems that had to be tightened.
* `scripts/coverage.py` — which lines of `/repo` no definition cites.

## Modelling conventions
* **Bytes and text.** A byte string is `List UInt8`. Text is its UTF-8 bytes where the reader handles it and Lean `String` where the
  user passes a `str`; `Model/Utf8.lean` models the standard library's validator and lossy decoder, and `C20_utf8_is_standard` ties
  the encoding to Lean's own.
* **Results.** `Result::Err` and panics are explicit values (`Except Fault`, `Fault.err` / `Fault.panic`); a function that mutates
  through `&mut` returns the new value. A panic in the middle of a call leaves the state the Rust code would leave (C09, C31).
* **Recursion.** The string-table reader, which the code does not bound, takes fuel; running out of fuel stands for unbounded
  recursion (stack overflow). Theorems say "for all large enough fuel" or "for every fuel it runs out" (C19).
* **Numbers.** Raw events, ids, counters, artifact sizes and stack counters are fixed-width exactly as in the code. Addresses inside
  a sink, sizes of buffers, times and durations are `Nat` (nanoseconds for times). Where the code's behaviour on overflow depends on
  the build (`overflow-checks`), a parameter `checks` says which build; theorems hold for both unless they say otherwise.
* **Floats.** Percentages are values of an abstract type with the operations the code uses; theorems assume monotonicity of the
  comparison only, and are instantiated with exact rationals (C54). Relative changes in `diff` are kept as the pair they are
  computed from.
* **Hash maps** are association lists; results are stated by lookup, or up to permutation. Where the code lets an iteration order
  leak (C50, C65) the order is a parameter. `BTreeMap` is a list sorted by key. `sort_unstable` is any sorted permutation.
* **Time.** A counter is what it returned at each call; no assumption is made on it except where a theorem states one
  (never backwards: C31, C62; forwards: C64).
* **Threads.** C08 is a small-step machine with the two mutexes and individual `write_all` calls; everything else about threads
  (C63, C65) is derived from it. Failing writes are steps of the same machine (C72); a failed write unwinds the thread, whose
  guards release the locks (`parking_lot` does not poison); not modelled: a second panic while unwinding, which aborts the process
  (a moment at which it is killed, C67). Weak memory is not modelled: all shared state is inside mutexes.

## Plan per property
Each row: what is modelled, and how it is proved. "Witness" means that the property in its first wording is false of the code, that
the negation is proved on a concrete input, and that the exact condition under which the property holds is proved as well.

| id | model | proof |
|----|-------|-------|
| C01, C02, C05 | sinks, page writer, `split_streams` | invariant over operation lists: (pages of the tag) ++ buffer = concatenation of payloads |
| C03, C06 | same | page-level invariant over histories |
| C04, C07 | `split_streams` on arbitrary bytes | characterisation by strong induction on the input; uniqueness of the decomposition |
| C08 | threads with two locks, several writes per page | forward simulation to the sequential model; wait-for order for deadlock freedom; a measure for termination; witness for the raw page order |
| C09 | failing store after any number of bytes, panicking callbacks, drop | simulation against the fault-free run up to the first failure; append-only; two witnesses |
| C10 | many sinks with arbitrary tags | projection of histories; for shared tags every page gets an owner, and the invariant says what the pages and buffer of each owner hold |
| C11 | header writer, reader, verifier | iff |
| C12–C19 | builder, index, reader with fuel | one refinement: what an id means is defined from the log of calls; invariant relates log and bytes; witnesses for C14, C19 |
| C20 | UTF-8 | case analysis on code points |
| C21–C23 | event-id builder and parser | parser correctness for every text; witnesses |
| C24–C27 | raw event bit packing, serialization, payload relations | bit-vector and `Nat` arithmetic |
| C28 | the double-ended iterator | invariant over call patterns, against a list |
| C29, C30, C32 | profiler session, `EventDecoder`, version dispatch, JSON reader | composition of C01–C26; iff for command lines |
| C31 | guards and detached timings with a counter | induction over scoped programs |
| C33 | `ProfilingDataBuilder` | induction over scripts, then C29's machinery |
| C34–C40 | `perform_analysis` | the stack of the backward walk = the chain of enclosing later intervals; for streams of any shape the stack holds the intervals that enclose everything of their thread seen since, which gives what an interval is counted in and exactly when a subtraction underflows; witnesses for overlapping intervals |
| C41, C42, C58 | `collapse_stacks`, `write_collapsed_stacks` | the same chain; conservation; reader of folded files; witnesses; on streams of any shape paths through holders (`Spec/AnyCollapse`), values modulo 2⁶⁴ and exact with overflow checks, exactly when it returns |
| C43–C45 | crox | greedy interval colouring: lanes = largest number of threads active at a moment |
| C46–C49 | `Extrema`, `SamplePoints`, `SampleIntervals`, aggregation | iterator invariants; characterisation of sorted distinct prefixes; a run in time order is of a scoped recording (`AggregateOrder`) |
| C50, C51, C60 | `diff`, `SignedDuration`, `--exclude` | lookup algebra; witnesses for wrap-around and signed zero |
| C52, C59 | `Path::ends_with`, `with_extension`, openers | characterisation on byte paths; witnesses |
| C53, C54 | columns and rows of `summarize` | list induction; witness for the hidden column |
| C55 | `mmedit truncate` | on arbitrary page sequences |
| C56 | mmview | on arbitrary event lists; witness for `No events.` |
| C57, C61 | counter arithmetic, names, CPU tables, counter creation and its warnings | modular arithmetic; iff against the documented tables |
| C62 | all tools from the file a session left | composition |
| C63 | a profiler shared by threads | C08 lifted through the profiler: one order of calls explains file and answers |
| C64 | `summarize aggregate` of reruns | equal structure ⇒ equal shape; witness for ties |
| C65 | the project's end-to-end test | C63 + C29 applied to the test's own program |
| C66 | opening a file of any bytes | case analysis: exhaustive classification into error, panic, and the exact equation for what opens |
| C67 | the file of a session cut at any byte; the file of a killed process (`killedFile`: the pages written so far, no destructor) | invariant over the session's sink calls (`CutInv`: event pages end at record boundaries, the index is the list of mappings), then the classification of C66 for every cut; buffers bound what is lost (`C67_killed_loses_at_most`), pages are written only at the thresholds (`C67_killed_early`, `C67_killed_late`, `C67_torn_index`); several threads (`C67_threads_*`): the part of the program that has been started is let run to its end, which only appends to the store, and the finished file has page by page, per stream, the same pages as a one-thread session in a serialization order (`C08_same_pages`) |
| C68 | crox's output file (`croxMain`: records, brackets, `--dir`, what is left by a failed run); JSON as a grammar (`Spec/JsonText`, RFC 8259) | the writer's text is in the grammar and the grammar is unambiguous (`document_unique`, through a reader proved sound and complete: `parseDocument_iff`); loop invariant for the records; last byte for failed runs |
| C69 | `summarize --json` and reading it back | round trip through writer and grammar; reader defined on values, so any layout reads alike; results of any file of at most 2⁵⁰ bytes fit (`Proofs/JsonFits`) |
| C70 | what each tool does to the file system (`Model/FileEffects`: one output file, created when) | file name algebra: no output file is ever a profile or one of the files a tool reads |
| C71 | `summarize diff --json` (`diffValue`; the text of a finite float is a parameter) | the document's value satisfies an independent relation to the two results (`Spec/DiffJson`), and is its only meaning |
| C72 | the machine of C08 with a second kind of step: the `write_all` a thread is about to make fails after any number of bytes, the thread unwinds, dropping its guards | invariant over all such executions (`FInv`): each call in progress, run alone on a store with the outcomes its writes have had so far, is where it is; linearization by order of the release of the data lock |
| C73 | the page over time (the kernel's protocol: increment, change, increment), the reader's loop with the time of each of its reads | the sequence number only grows, so equal 32-bit values mean no update; two witnesses (a page whose two fields agree between updates) |
| C74 | the texts in the cells of `summarize` and `summarize diff`; `Duration`'s `Debug` of the standard library | a reader of printed numbers as specification; digits, carry and ties by induction over the digits; composed with C50, C54, C60 |
| C75 | the messages of `ProfilingData::new`, `from_paged_buffer`, `EventDecoder::new` and of both header readers, with `Path::display` | equality with the message written out (`Spec/Refused`), on an independent specification of the file names |
| C76 | all places where text is read, cut, joined or written | text = encoding of a Lean string; the modelled validator accepts exactly that (`C20_validator_exact`), lossy decoding gives nothing else; invariants through string table, event-id and JSON readers, JSON writer, the id of a collapsed stack |
| C77 | `Event::parse_event_id` with the message it prints | the parser's result and message are computed for every text cut into fields; specification `idComplaint`; `C77_reported_iff_lossy` by cutting any text into fields |
| C78 | `Profiler::with_counter` up to the header: `Path::parent`, `create_dir_all`, `File::create` (`Model/Create`; the system's answers are parameters) | algebra of paths as C59; with C62 the events read back, for every earlier file system |
| C79 | `decode_full_event` and `decode_lightweight_event` with `usize` arithmetic (`Model/ByIndex`) | case analysis on the address; agrees with the decoder of C28 below the number of events |
| C80 | nothing new: sinks (C01) and sessions (C24) | potential argument over calls: what a buffer holds above half a page pays for the page it becomes; sizes of the three streams from the invariants of C24 and C67; for several threads by the linearization of C63 (the pages of a schedule are a permutation of those of one thread) |
| C81 | sessions of the string-table builder with foreign values (`SessionOp.custom`): any size, any bytes; profilers with foreign values (`ProfCall.allocForeign`), alone and on threads | the invariants of C12–C17 with one more kind of step; position of the foreign bytes in the stream; a foreign value in the documented format *stores* its components (`Stores`), so `Means` and everything built on it (C29, C62, C63) covers it |
| C82 | sinks (C01), string-table sessions (C81) and programs on a profiler (`ProfAct`) with callbacks that panic, leaving in the slice whatever they had written | the invariant of C01 with the address split from the position; `drift` is their difference. Profiler: a simulation between the run with and the run without the calls that panic (`Alike`), then the reader's side as in C67. Threads on sinks (`C82_threads`): the linearization of C08, whose fills may panic. Threads on one profiler: the machine of C08 runs the sink calls of `ProfAct`s; C63's merge along the linearization, redone for calls that panic, reduces them to one thread |
| C83 | `into_bytes` in full: the swap, the page, the copy (or the panic on a file), the drop of the emptied sink; stores that fail | the page writer is shown to depend on the store only, so `into_bytes` and `drop` run the same store program; contents from C82 |
| C84 | callbacks as programs (`Script`): calls on any sinks, with such callbacks again, deciding on the answers; `Script.compile` gives the lock, page and unlock steps of a thread, interleaved with the others' | who holds which lock is an invariant; a chain of waiting threads would go up in the order of the sinks; tasks are well-founded, so no execution is infinite; a task that must lock what it holds stays so; for one thread the run is computed in one go and compared with the sequential model, by induction on the program; for several the simulation of C08, where a call with a callback enters the sequential order when it unlocks its sink |
| C85 | `collapse_stacks` on interleavings | each quantity of `Spec/AnyCollapse` is a sum of costs that depend on an event and the later ones of its thread, so it is the same for every interleaving; witness of a panic that depends on it; whole runs of `stack_collapse` through `collapse_eq` |
| C86 | `next`, `next_back` and `iter_full` with the answer of each call and the state it leaves, also when decoding panics | induction on the pattern against a list of results (`takes`, `takesStuck`); light-weight decoding is total by C28/C26 |
| C87 | crox on two interleavings of the same threads | first and last moments depend on each thread's events only; sorted arrangements without ties are unique; the number of lanes from C44; counterexample with a tie; the tool's loop by `croxLoop_events` |

## Trusted base
* Lean 4.33.0's kernel. No axioms of our own; every theorem depends on at most `propext`, `Classical.choice`, `Quot.sound`
  (per theorem in `THEOREMS.md`; 3 theorems depend on none, 10 on `propext` only, 41 on `propext` and `Quot.sound`, the others on
  all three). No compiled evaluation is trusted; concrete examples are checked by `decide +kernel`, i.e. by the kernel.
* The reading of the code: the model is tied to `/repo` by the citations only; the code was not run.
* Library behaviour taken as given and modelled from its documentation: `Vec`, slices, `u64::to_le_bytes`, `Mutex` (mutual exclusion,
  no reentrancy, `parking_lot`: no poisoning), `HashMap`/`BTreeMap`, `String::from_utf8(_lossy)`, `char::escape_default`,
  `Path` on Unix, `serde_json` (reader, compact writer, `json!`) and `serde`'s derived implementations, `Duration` and `SystemTime` arithmetic, `memchr`, stable and unstable sorts.

### Modelled
| file | modelled |
|------|----------|
| `measureme/src/serialization.rs` | all: sinks, pages, backing store with and without failures, `split_streams`, `Drop`, both locks |
| `measureme/src/file_header.rs`, `raw_event.rs`, `rustc.rs` | all (except `Debug`/`Default`) |
| `measureme/src/stringtable.rs`, `event_id.rs` | all |
| `measureme/src/profiler.rs` | all recording calls, metadata, guards, detached timings, creation and drop |
| `measureme/src/counters.rs` | names, CPU recognition, event configuration, checks on the kernel's page, register arithmetic |
| `decodeme/src/*` | header checks, string-table reader, event-id parser, decoder, payloads, metadata |
| `analyzeme/src/profiling_data.rs`, `file_formats/*` | opening, dispatch, iterators, builder, conversion from v8 |
| `analyzeme/src/analysis.rs`, `stack_collapse.rs`, `testing_common.rs` | all |
| `summarize/src/*.rs` | analysis table, diff, aggregate; columns, rows, filters |
| `crox`, `mmedit`, `mmview`, `stack_collapse`, `flamegraph` | their logic up to the values handed to printers or writers |

### Not modelled
* Printing: table layout (`prettytable`), the text of floating-point numbers, SVG (`inferno`), command-line parsing (`clap`).
* Error messages other than those of C55, C75 and C77 (I/O errors, `serde_json`): there is an error, its text is abbreviated.
* `serde_json`'s recursion limit (128) and what it lets pass in values it skips (unpaired surrogates in ignored strings): the model's reader has no limit and checks all strings.
* The v8 decoder (`decodeme` 10.1.2 and its string table, an external crate): arbitrary functions; only dispatch and conversion are ours (C30).
* The assembly itself (`rdpmc`, `cpuid` are parameters); logging.
* Foreign values whose `serialize` is slow (the lock is held meanwhile): time is not modelled, only order.
* The operating system: a file is a byte list that grows by successful writes; `fs::write`, `mmap`, permissions are not modelled.
* Weak memory effects, out-of-memory, `usize` of 32 bits, sinks of 2^64 bytes.
* Performance, except for the size of files (C80).

## Caveats on single properties
* C08, C63: the store is fault-free (failures are C09 for one thread, C72 for several). Callbacks of `write_atomic` are functions of the slice; callbacks
  that use sinks themselves are the subject of C84.
* C63, C65: an interval is attributed to the thread that finishes it; the thread id it carries is the caller's choice, so guards handed to
  another thread are covered. Each thread is given as the list of calls it makes; an adaptive thread ends up
  making some list, and theorems hold for all lists, with the answers it got.
* C62: `aggregate` needs one thread per profile (C47); `stack_collapse` assumes at most 65536 threads so that sums stay below 2^64.
* C65: the profiler is dropped after all threads have finished, as in the test.

## Findings
Places where the code does not do what a user would expect; each has a theorem.
1. `StringRef::to_string`'s fast path compares an offset inside the entry with an address in the table: an entry that begins with a
   reference can be taken for a lone reference, so that `to_string` drops its text, and event ids lose their arguments
   (`C14_readers_disagree`, `C21_arguments_lost`; exact condition `C14_to_string_exact`).
2. Metadata escapes the command line with `escape_default`, which is not JSON: a profile of a program run with `'` or a non-ASCII
   character in its arguments cannot be opened (`C32_unreadable_profiles`).
3. Virtual ids can be mapped into a cycle through the public API; reading then never returns (`C19_cycle_diverges`).
4. Malformed files make `split_streams` and with it the decoder panic rather than return an error (`C07_split_otherwise_panics`).
5. After a failed page write, `Drop` writes the page again behind the torn one; the file then splits into wrong streams
   (`C09_io_failure_corrupts`). A panicking callback leaves buffer and address out of step (`C09_callback_panic_desynchronises`).
6. Two sinks made with one tag return addresses that do not locate their data (`C10_shared_tag_addresses_wrong`).
7. Documented event-id grammar and parser differ at U+000B (`C23_vertical_tab_rejected`).
8. `perform_analysis` and `collapse_stacks` panic (or wrap) on intervals that overlap without nesting; `collapse_stacks` takes a
   thread's end from the last recorded event (`C40_overlap_panics`, `C41_overlap_wraps`, `C41_end_not_updated`; for every stream `C41_any_stream`, `C41_release_returns_iff`, `C41_checked_returns_iff`).
9. `summarize diff` recognises JSON only by a last path component `json`, so `foo.json` is never read (`C52_extension_not_recognised`).
10. `summarize` can hide the hashing column although there is data (`C53_hashing_hidden`).
11. mmview says `No events.` for a profile of integer events (`C56_no_events`).
12. `mmedit truncate` refuses files of the current version (`C55_current_files_refused`).
13. `diff`: sizes of 2^63 wrap (`C50_huge_sizes_wrap`); signed zero makes `Eq` and `Ord` disagree (`C51_signed_zero`).
14. Hardware counters jump by 2^48 when a register passes 2^47; recording then panics (`C57_exact_or_refused`).
15. `with_extension` replaces what follows the last dot, so profilers made for `a.b` and `a.c` write one file (`C59_extensions_collide`).
16. Concurrent multi-page calls interleave pages in the raw store in an order no sequential execution has; streams are unaffected
   (`C08_raw_page_order_not_sequential`).
17. `summarize aggregate` panics on two runs of one program if the counter stands still between two intervals (`C64_ties_panic`).
18. The project's end-to-end test compares the key orders of two hash maps (`C65_passes_iff`).
19. A process that is killed leaves a readable profile only if all three streams have exceeded a page (8192 events, 16384 mappings, a page of text): until then its file is an error to open (`C67_killed_early`). `bulk_map_virtual_to_single_concrete_string` hands all entries to `write_bytes_atomic`, which cuts at 131072 bytes; since the stream begins with eight bytes of header, such a page ends in the middle of a 16-byte entry, and the profile of a process killed after it makes the decoder panic (`C67_torn_index`).
20. crox writes `[` first and `]` last: a run that fails (a profile that does not open, an event that is reversed or not decodable) leaves a `chrome_profiler.json` that is not JSON (`C68_failed_run_leaves_no_json`), having replaced the one that was there.
21. `summarize diff --json base change` writes to `change` with the extension `json`, the file `summarize --json change` writes to: saved results are silently replaced by a difference, which has another format (`C71_same_path`). In that file the relative change of a new item, and of an item that took no time before, is `null` (`C71_null_changes`), which the derived `Deserialize` does not accept for an `f64`.
22. `access_mmap_page_with_seqlock` does not check that `lock` is even: a page read while the kernel is updating it is accepted, although its fields need not belong together (`C73_torn_during_update`). For a thread reading its own counter's page, as here, the kernel does not update while the thread runs.
23. The table of `summarize diff` asks for two decimals (`{:.2?}`), but `impl Debug for SignedDuration` formats with `{:?}` and drops the precision: times are shown with up to nine decimals (`C74_precision_ignored`).
24. `summarize --percent-above nan` is accepted, and then hides nothing and prints a share (`C54_floats`).
25. A file of a version older than every supported one is refused with a message that calls it too new and advises to upgrade the tools (`C75_unsupported_version`).
26. `Profiler::new` panics instead of returning an error for the empty path and the root (`C78_panics_iff`); two stems that differ only in their last extension (`run.1`, `run.2`) replace each other's profile (C59, C78).
27. In builds without overflow checks `decode_full_event(i + (k << 59))` returns event `i` instead of panicking (`C79_wraps_around`).
28. A stored value of a foreign type without terminator at the end of the string data makes `to_string` panic, where `write_to_string` answers `<invalid>`
   (`C81_unterminated_at_end`).
29. If a `write_atomic` callback of at most a page (or a `SerializableString::serialize`) panics and the program catches it, the sink's buffer has grown (and holds what the callback had written) but its
   address has not (and the lock is not poisoned): every later address and string id of that sink is wrong, silently. A string may then read as
   the one before it (`C82_strings_after_a_panic`, `C82_addresses`).
30. `write_bytes_atomic` of more than 128 bytes is not contiguous if two sinks share a tag: the first 131072 bytes may go to the store at once while the others stay
   in the buffer (`C10_shared_tag_tears`), contrary to its documentation. The profiler never shares tags.
31. A `SerializableString::serialize` that allocates a string with the same profiler never returns, and blocks every other thread that allocates one
   (`C84_own_sink`, `C84_locked_out`), unless the outer string is larger than a page, when it works (262144 bytes decide). Nothing documents this.
32. For intervals that overlap without nesting `perform_analysis` may return without a panic and yet report a wrong self time: an interval inside one
   whose end another interval crosses is charged to the next outer one (`C40_silently_wrong`).
33. On overlapping intervals a debug build of `stack_collapse` may panic or not depending on how the threads were interleaved, since the threads
   share the counters of their paths (`C85_panic_depends`).
34. `next` advances after reading, `next_back` before (`profiling_data.rs:150,173`): should light-weight decoding panic (only a v8 decoder's can), a program
   that catches this meets the same event forever from the front but passes over it from the back (`C86_any_decoder`, `C86_front_is_stuck`).
35. `crox --collapse-threads` walks a hash map: threads that begin or end together get their lanes in an order that changes from run
   to run (`C87_ties_need_the_hash_order`).
