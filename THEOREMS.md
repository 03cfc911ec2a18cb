# The theorems, property by property

Generated by `scripts/theorems.py` from the comments above the theorems and from `#print axioms`. The axioms are Lean's own three:
`propext`, `Classical.choice`, `Quot.sound`; each theorem lists those it depends on.

## C01 Splitting a paged store recovers every stream exactly (proved)

* `C01_split_recovers_streams` (lean/Verif/Props/Container.lean) — After any history, splitting the store returns, for the tag of every sink that was flushed (or dropped) last and whose tag no other used sink has, exactly the concatenation of what was written to it; the stream is absent iff nothing was written. _Axioms: propext, Classical.choice, Quot.sound._
* `C01_unflushed_is_prefix` (lean/Verif/Props/Container.lean) — **C01** (data still in a buffer): without a final flush the recovered stream is a prefix of what was written, the missing part being at most one page. _Axioms: propext, Classical.choice, Quot.sound._

## C02 A returned address is the position of the data in the stream (proved)

* `C02_returned_address` (lean/Verif/Props/Container.lean) — The `k`-th call, if it is a write, succeeds and returns the number of bytes written to this sink before it (whether or not other sinks share the tag). _Axioms: propext, Quot.sound._
* `C02_address_locates_data` (lean/Verif/Props/Container.lean) — Reading the recovered stream at the returned address gives back exactly the bytes of that call, whatever happens afterwards. _Axioms: propext, Classical.choice, Quot.sound._

## C03 Pages are well-formed and bounded; writing never panics (proved)

* `C03_pages_wellformed` (lean/Verif/Props/Container.lean) — After any history the store is a sequence of pages in the documented layout, each non-empty and at most 256 KiB, and no call has panicked. _Axioms: propext, Quot.sound._

## C04 A crash at any byte leaves a prefix (proved)

* `C04_append_only` (lean/Verif/Props/Container.lean) — The store only ever grows at its end. _Axioms: propext, Quot.sound._
* `C04_crash_prefix` (lean/Verif/Props/Container.lean) — If the store is cut at any byte, splitting it panics, unless the cut falls between two pages; then every recovered stream is a prefix of the stream of the complete store. _Axioms: propext, Classical.choice, Quot.sound._
* `C04_crash_written_prefix` (lean/Verif/Props/Container.lean) — In particular what is recovered after a crash at any byte is a prefix of what the program wrote. _Axioms: propext, Classical.choice, Quot.sound._

## C05 The two write primitives are interchangeable for readers (proved)

* `C05_write_paths_interchangeable` (lean/Verif/Props/Container.lean) — Replacing calls by interchangeable ones anywhere in a history changes neither the recovered stream of any sink nor the address returned at any position where both versions return one. _Axioms: propext, Classical.choice, Quot.sound._

## C06 Records written atomically are never split across pages unless larger than a page (proved)

* `C06_record_in_one_page` (lean/Verif/Props/Container.lean) — The bytes of any record written atomically (at most a page through `write_atomic`, at most 128 bytes through `write_bytes_atomic`) lie inside a single page of the final store, at the stream position given by the returned address. _Axioms: propext, Quot.sound._
* `C06_pages_hold_whole_records` (lean/Verif/Props/Container.lean) — If everything written to a sink comes in atomic records whose sizes are multiples of `k` (event records: 32 bytes) then every page of that sink's tag holds a whole number of records. _Axioms: propext, Quot.sound._
* `C06_profiler_pages` (lean/Verif/Props/ProfilerPages.lean) — In the file of every session with a profiler, no event record is cut by the end of a page: the first page of the event stream holds the header of the stream (8 bytes) and whole records (of 32 bytes), every later one whole records. _Axioms: propext, Classical.choice, Quot.sound._
* `C06_threads` (lean/Verif/Props/ThreadsPages.lean) — Nor is an event record cut by the end of a page when several threads record events at once, however they are scheduled. _Axioms: propext, Classical.choice, Quot.sound._

## C07 split_streams accepts exactly the concatenations of well-formed pages (proved)

* `C07_split_accepts_iff` (lean/Verif/Props/Container.lean) — `split_streams` returns normally iff the input is a concatenation of pages with a known tag and a non-empty body (whose size fits the 32-bit size field); the result maps each occurring tag to the concatenation of its page bodies in order. _Axioms: propext, Classical.choice, Quot.sound._
* `C07_split_otherwise_panics` (lean/Verif/Props/Container.lean) — Every other input panics; `split_streams` never reports an error value. _Axioms: propext, Quot.sound._
* `C07_pages_unique` (lean/Verif/Props/Container.lean) — The decomposition into pages is unique. _Axioms: propext, Classical.choice, Quot.sound._

## C08 Concurrent writers are linearizable and pages are never torn (proved)

* `C08_linearizable` (lean/Verif/Props/Concurrent.lean) — **C08** (linearizability). Whatever the schedule, at any moment the calls observed so far have a linearization: a sequential order of the calls that every thread sees in its own program order, that respects real time, and in which the sequential sinks return exactly the observed results. _Axioms: propext, Classical.choice, Quot.sound._
* `C08_pages_never_torn` (lean/Verif/Props/Concurrent.lean) — **C08** (no torn pages). At any moment, in particular if the process is killed there, the store is a sequence of complete well-formed pages followed by an initial part of at most one page, which a thread holding the store lock is writing; and for every sink whose tag no other sink uses, the complete pages hold a prefix of what is written to it in the linearization. _Axioms: propext, Classical.choice, Quot.sound._
* `C08_final_state` (lean/Verif/Props/Concurrent.lean) — **C08** (final state). When all threads have finished, the linearization contains exactly their programs, every sink is in the state of the sequential execution, and every stream whose tag is used by one sink only is recovered from the store exactly as from the store of the sequential execution. _Axioms: propext, Classical.choice, Quot.sound._
* `C08_same_pages` (lean/Verif/Props/Concurrent.lean) — **C08** (pages). When all threads have finished, the store is a sequence of pages, and for every sink with a tag of its own the pages with this tag are, one by one and in order, those that the linearization writes: only the interleaving of the pages of different sinks can differ. _Axioms: propext, Classical.choice, Quot.sound._
* `C08_concurrent_writes_recovered` (lean/Verif/Props/Concurrent.lean) — **C08** (what threads wrote). With well-behaved callbacks, when all threads have finished, for every sink with a tag of its own: the recovered stream followed by the sink's buffer is everything written in the linearized order, and every write of every thread returned an address at which exactly its bytes are found, contiguously. _Axioms: propext, Classical.choice, Quot.sound._
* `C08_no_deadlock` (lean/Verif/Props/Concurrent.lean) — **C08** (no deadlock). In every reachable state some thread can move, unless all have finished. _Axioms: propext, Classical.choice, Quot.sound._
* `C08_bounded_steps` (lean/Verif/Props/Concurrent.lean) — **C08** (termination). No schedule runs forever: the number of steps is bounded by the programs. _Axioms: propext, Classical.choice, Quot.sound._
* `C08_always_finishes` (lean/Verif/Props/Concurrent.lean) — Every schedule can be continued to one where all threads have finished. _Axioms: propext, Classical.choice, Quot.sound._
* `C08_raw_page_order_not_sequential` (lean/Verif/Props/Concurrent.lean) — **C08** (the limit of the guarantee). The *raw* store need not be that of any sequential execution: a call that writes several pages releases the store lock between them, so pages of another call can come in between.  (The recovered streams are nevertheless those of the linearization: `C08_final_state`.) _Axioms: propext, Classical.choice, Quot.sound._

## C09 Backing-store failures are loud and never damage what is stored (proved)

The stronger wish (streams stay prefixes even if the process goes on after a torn page) is false of the code: C09_io_failure_corrupts and C09_callback_panic_desynchronises are witnesses.

* `C09_failure_is_loud` (lean/Verif/Props/Container.lean) — Failures are loud: as long as every call returns normally, outcomes and store are those of a run without I/O errors, whatever the I/O errors may be later. _Axioms: propext, Quot.sound._
* `C09_never_overwrites` (lean/Verif/Props/Container.lean) — The store is append-only: whatever fails, bytes that have reached the store are never changed. _Axioms: propext._
* `C09_stored_data_stays_first` (lean/Verif/Props/Container.lean) — What had been stored before the first failure stays readable: however the process goes on (further I/O errors, panicking callbacks, drops), if the store can still be split, every stream begins with what it had before the failure. _Axioms: propext, Classical.choice, Quot.sound._
* `C09_clean_failure_loses_nothing` (lean/Verif/Props/Container.lean) — A flush (or drop) whose first write fails before any byte is written loses nothing: it panics, and neither the sinks nor the store have changed, so flushing again later writes the same page.  (With nothing buffered it writes nothing and returns normally.) _Axioms: propext, Quot.sound._
* `C09_first_failure_prefix` (lean/Verif/Props/Container.lean) — If the process stops at the first call that fails (I/O errors may strike any write after any number of bytes, and callbacks may panic), what is on disk is a prefix of what a run without I/O errors would have written. _Axioms: propext, Quot.sound._
* `C09_first_failure_reads_prefix` (lean/Verif/Props/Container.lean) — With at most prefixes on disk, splitting never yields wrong bytes: it fails or gives a prefix. _Axioms: propext, Classical.choice, Quot.sound._
* `C09_io_failure_corrupts` (lean/Verif/Props/Container.lean) — **C09 (negation).** The full claim is false: after one transient I/O error the drop writes the page again behind the torn one, the store splits without complaint, and the recovered stream is not what was written, nor a prefix of it. _Axioms: propext, Classical.choice, Quot.sound._
* `C09_callback_panic_desynchronises` (lean/Verif/Props/Container.lean) — **C09 (negation, callbacks).** If a `write_atomic` callback panics and the program goes on, later returned addresses no longer locate the data: the buffer has grown but the address counter has not. _Axioms: propext._

## C10 Sinks with distinct tags are independent; two sinks sharing a tag are not (proved)

Independence proved; the shared-tag hazard is proved by a witness. Addresses: C02_returned_address holds without the tag hypothesis.

* `C10_sinks_independent` (lean/Verif/Props/Container.lean) — Sinks with their own tag are independent: what is recovered for a sink, and the addresses it returned, depend only on the calls made on that sink. _Axioms: propext, Classical.choice, Quot.sound._
* `C10_shared_tag_addresses_wrong` (lean/Verif/Props/Container.lean) — **C10 (hazard).** Two sinks created with the same tag: the second sink's first write returns address 0, but the recovered stream has other data there. _Axioms: propext, Classical.choice, Quot.sound._
* `C10_shared_tag_streams` (lean/Verif/Props/SharedTags.lean) — **C10** (sinks that share a tag). Whatever tags the sinks have: the store splits, and the stream of a tag is put together from blocks, each of one of the sinks with this tag, so that the blocks of a sink make up exactly what was written to it, in order. Every small record (at most a page through `write_atomic`, at most 128 bytes through `write_bytes_atomic`) lies within one block, so it stays in one piece. _Axioms: propext, Classical.choice, Quot.sound._
* `C10_shared_tag_addresses` (lean/Verif/Props/SharedTags.lean) — **C10** (addresses). Whatever tags the sinks have: the address a write returns is the number of bytes written before to *its own* sink; so it is a position in the stream exactly as far as no other sink with the tag has written a block before. _Axioms: propext, Quot.sound._
* `C10_shared_tag_tears` (lean/Verif/Props/SharedTags.lean) — **C10** (large records are torn). Between two sinks with the same tag "atomic" does not hold for large data: of any more than 131072 (and fewer than 262144) bytes written to a fresh sink the first 131072 go to the store at once and the others stay in the buffer; whatever another sink with the tag writes before the first is flushed ends up in between. _Axioms: propext, Classical.choice, Quot.sound._

## C11 File headers verify exactly when magic and version match (proved)

* `C11_magics_documented` (lean/Verif/Props/Header.lean) — The magic numbers are the documented ASCII strings (`file_header.rs:10-13`). _Axioms: none._
* `C11_header_bytes` (lean/Verif/Props/Header.lean) — `write_file_header` writes the magic followed by version 9 as a 32-bit little-endian number. _Axioms: propext._
* `C11_verify_iff` (lean/Verif/Props/Header.lean) — `verify_file_header` accepts a byte string iff it starts with the expected four magic bytes followed by the little-endian version number 9; anything else is reported as an error value, never a panic. _Axioms: propext, Quot.sound._
* `C11_write_then_verify` (lean/Verif/Props/Header.lean) — A written header followed by anything verifies, and stripping it leaves exactly what follows. _Axioms: propext, Quot.sound._
* `C11_read_iff` (lean/Verif/Props/Header.lean) — `read_file_header` reports the version of any file with the right magic: it succeeds iff there are at least eight bytes starting with the magic, and then returns the little-endian number in bytes 4..8. _Axioms: propext, Quot.sound._
* `C11_kinds_exclusive` (lean/Verif/Props/Header.lean) — No header verifies as another kind: the four magics are pairwise different. _Axioms: propext, Quot.sound._

## C12 A plain string is read back verbatim (proved)

* `C12_plain_string_reads_back` (lean/Verif/Props/StringTable.lean) — Whatever else happens in a session, a `str` that was allocated is read back verbatim, by both readers. _Axioms: propext, Classical.choice, Quot.sound._
* `C12_reading_is_faithful` (lean/Verif/Props/StringTable.lean) — Two strings that read the same are the same: nothing is lost in the bytes. _Axioms: propext, Classical.choice, Quot.sound._
* `C12_alloc_succeeds` (lean/Verif/Props/StringTable.lean) — `alloc` hands out an id in every session, as long as addresses fit. _Axioms: propext, Classical.choice, Quot.sound._

## C13 A composite string reads back as the concatenation of its components (proved)

* `C13_composite_reads_as_concatenation` (lean/Verif/Props/StringTable.lean) — Every id that means a text (its components' values verbatim, references replaced by what they mean) is read as that text by `write_to_string`. _Axioms: propext, Classical.choice, Quot.sound._
* `C13_meaning_unique` (lean/Verif/Props/StringTable.lean) — The meaning of an id is unique. _Axioms: propext, Classical.choice, Quot.sound._

## C14 to_string and write_to_string agree, except on entries mistaken for a lone reference (proved)

The unconditional claim is false of the code (C14_readers_disagree is a session on which to_string drops text); the exact condition is proved: C14_to_string_exact.

* `C14_to_string_exact` (lean/Verif/Props/StringTable.lean) — `to_string` shows exactly the text given by `Shown`: for every id that denotes a text, `to_string` returns it iff it is what `Shown` says. _Axioms: propext, Classical.choice, Quot.sound._
* `C14_readers_agree` (lean/Verif/Props/StringTable.lean) — The two readers agree on every entry that is not mistaken for a lone reference: unless it begins with a reference and the first byte 0xFF of its encoding is at offset (address + 9). _Axioms: propext, Classical.choice, Quot.sound._
* `C14_mistaken_shows_reference` (lean/Verif/Props/StringTable.lean) — An entry that is mistaken for a lone reference is shown as what that reference is shown as: the readers then agree only if nothing else is in it. _Axioms: propext, Classical.choice, Quot.sound._
* `C14_stored_somewhere` (lean/Verif/Props/StringTable.lean) — Every id that stands for an entry is stored somewhere, at an address of at least eight, so the conditions above apply to it. _Axioms: propext, Classical.choice, Quot.sound._
* `C14_never_mistaken` (lean/Verif/Props/StringTable.lean) — Plain strings, entries beginning with text and entries shorter than their address plus ten are never mistaken, so the readers agree on them; in particular on every entry of at most 17 bytes. _Axioms: propext, Classical.choice, Quot.sound._
* `C14_readers_disagree` (lean/Verif/Props/StringTable.lean) — The two readers disagree: the string `a0123456789` is read as `a` by `to_string`. _Axioms: propext, Classical.choice, Quot.sound._

## C15 A virtual id resolves to its latest mapping, unmapped ids to <unknown> (proved)

* `C15_latest_mapping_wins` (lean/Verif/Props/StringTable.lean) — A virtual id reads like the concrete id it was mapped to last. _Axioms: propext, Classical.choice, Quot.sound._
* `C15_unmapped_is_unknown` (lean/Verif/Props/StringTable.lean) — Ids that were never mapped, and the invalid id, read as `<unknown>`. _Axioms: propext, Classical.choice, Quot.sound._
* `C15_bound_or_unbound` (lean/Verif/Props/StringTable.lean) — Every virtual id is either mapped or reads as `<unknown>`: there is no third case. _Axioms: propext, Quot.sound._

## C16 Bulk mapping equals mapping one by one (proved)

* `C16_bulk_equals_single` (lean/Verif/Props/StringTable.lean) — After any session, mapping `vs` to `c` in bulk leaves exactly the same streams as mapping them one by one, in order. _Axioms: propext, Classical.choice, Quot.sound._

## C17 Id classes are disjoint and the metadata id cannot be overwritten (proved)

* `C17_mapping_guard` (lean/Verif/Props/StringTable.lean) — Mapping anything but a user virtual id, or mapping to a virtual id, panics and leaves everything as it was; otherwise it succeeds. _Axioms: propext, Classical.choice, Quot.sound._
* `C17_bulk_guard` (lean/Verif/Props/StringTable.lean) — The same for bulk mapping: one bad id and nothing is written. _Axioms: propext, Classical.choice, Quot.sound._
* `C17_metadata_is_last_metadata` (lean/Verif/Props/StringTable.lean) — Whatever is mapped, the metadata read back is the text of the last successful `alloc_metadata`. _Axioms: propext, Classical.choice, Quot.sound._
* `C17_regular_ids_disjoint` (lean/Verif/Props/StringTable.lean) — Ids handed out by `alloc` are neither user virtual ids, nor the metadata id, nor the invalid id. _Axioms: propext, Classical.choice, Quot.sound._
* `C17_new_virtual` (lean/Verif/Props/StringTable.lean) — `new_virtual` accepts exactly the user range, which contains neither reserved id. _Axioms: propext, Quot.sound._

## C18 Ids and addresses correspond one to one (proved)

* `C18_ids_addresses_inverse` (lean/Verif/Props/StringTable.lean) — `from_addr` is defined exactly for addresses that fit, `to_addr` exactly for regular ids, they are inverse, and panic otherwise. _Axioms: propext, Classical.choice, Quot.sound._
* `C18_ids_count_bytes` (lean/Verif/Props/StringTable.lean) — The id a call returns, an `alloc` of a string or of a value of one of the program's own types, is 100000003 plus the address of the string, which is eight (the header) plus the sizes of all strings stored before: it depends on nothing else. _Axioms: propext, Classical.choice, Quot.sound._
* `C18_allocations_distinct` (lean/Verif/Props/StringTable.lean) — Two different `alloc` calls of a session return different ids (the later one the larger). _Axioms: propext, Classical.choice, Quot.sound._

## C19 Reading terminates exactly for well-founded references (proved)

The model's fuel is the reader's stack; divergence means that no amount of stack suffices.

* `C19_terminates_iff_well_founded` (lean/Verif/Props/StringTable.lean) — In a session where every reference is to something, reading an id terminates iff the references reachable from it are well-founded; if not, the reader recurses without end (it never panics and never returns). _Axioms: propext, Classical.choice, Quot.sound._
* `C19_cycle_diverges` (lean/Verif/Props/StringTable.lean) — The public API lets a user build such a cycle, and reading it never returns. _Axioms: propext, Classical.choice, Quot.sound._

## C20 The terminator and the reference tag never occur inside text (proved)

* `C20_markers_not_in_text` (lean/Verif/Props/StringTable.lean) — Neither marker byte occurs in the UTF-8 encoding of any string; a `str`'s bytes are valid UTF-8, and decoding them (strictly or lossily) gives them back. _Axioms: propext, Classical.choice, Quot.sound._
* `C20_marker_is_not_text` (lean/Verif/Props/StringTable.lean) — Conversely no byte string containing a marker is accepted as text. _Axioms: propext, Classical.choice, Quot.sound._
* `C20_utf8_is_standard` (lean/Verif/Props/StringTable.lean) — The model's encoding is the standard library's UTF-8 encoding. _Axioms: propext, Classical.choice, Quot.sound._
* `C20_validator_exact` (lean/Verif/Props/Texts.lean) — The validator accepts exactly the encodings of strings. _Axioms: propext, Classical.choice, Quot.sound._
* `C20_lossy` (lean/Verif/Props/Texts.lean) — Lossy decoding of any bytes gives text, and gives text back unchanged. _Axioms: propext, Classical.choice, Quot.sound._

## C21 Event ids built by EventIdBuilder parse back to label and arguments (proved)

The unconditional claim is false of the code (C21_arguments_lost); the exact condition is proved.

* `C21_event_id_text` (lean/Verif/Props/EventId.lean) — An event id built from a label and arguments denotes the text `label ␞ arg₁ ␞ arg₂ …`, is read as that text by `write_to_string`, and that text is parsed into exactly the label and the arguments. _Axioms: propext, Classical.choice, Quot.sound._
* `C21_event_id_round_trip` (lean/Verif/Props/EventId.lean) — What the decoder does (`to_string`, then parse) gives back exactly the label and the arguments, for every event id stored at an address `a` unless the first byte 0xFF of its encoding is at offset `a + 9`.  (The exception is real: `C21_mistaken_loses_arguments`.) _Axioms: propext, Classical.choice, Quot.sound._
* `C21_mistaken_loses_arguments` (lean/Verif/Props/EventId.lean) — The exception: if the first byte 0xFF is at offset `a + 9`, the decoder reports the label as the label's own id is shown, and no arguments at all. _Axioms: propext, Classical.choice, Quot.sound._
* `C21_far_is_ordinary` (lean/Verif/Props/EventId.lean) — The exception cannot arise at addresses above ten times the number of arguments. _Axioms: propext, Classical.choice, Quot.sound._
* `C21_one_argument` (lean/Verif/Props/EventId.lean) — The one-argument constructor builds the same string as the general one. _Axioms: none._
* `C21_label_round_trip` (lean/Verif/Props/EventId.lean) — A label alone is its own event id: a plain string round-trips wherever it is stored. _Axioms: propext, Classical.choice, Quot.sound._
* `C21_arguments_lost` (lean/Verif/Props/EventId.lean) — The full statement fails: there is a session in which the event id with label `a` and argument `a` is decoded as label `a` with no arguments. _Axioms: propext, Classical.choice, Quot.sound._

## C22 Event-id parsing is total and lossless exactly on its grammar (proved)

* `C22_parse_characterised` (lean/Verif/Props/EventId.lean) — For every text there is exactly one way to see it as a label and arguments without separators; the parser returns the label and the arguments up to the first improper one, or `<parse error>` if the label is improper.  It never panics. _Axioms: propext, Classical.choice, Quot.sound._
* `C22_fields_unique` (lean/Verif/Props/EventId.lean) — The way to see a text as separator-free fields is unique. _Axioms: propext, Classical.choice, Quot.sound._
* `C22_lossless_iff_grammar` (lean/Verif/Props/EventId.lean) — A text is parsed without loss exactly when it is in the grammar the parser implements. _Axioms: propext, Classical.choice, Quot.sound._
* `C22_parse_never_panics` (lean/Verif/Props/EventId.lean) — Parsing returns normally on every text. _Axioms: propext, Classical.choice, Quot.sound._

## C23 Documented whitespace and accepted whitespace differ (proved)

The documented and the accepted grammar differ exactly at U+000B.

* `C23_documented_but_rejected_iff` (lean/Verif/Props/EventId.lean) — A non-empty text is in the documented grammar but rejected by the parser exactly when it has a vertical tab (and no other control character that is not white space). _Axioms: propext, Classical.choice, Quot.sound._
* `C23_accepted_is_documented` (lean/Verif/Props/EventId.lean) — Whatever the parser accepts is documented; without vertical tabs the two agree. _Axioms: propext, Classical.choice, Quot.sound._
* `C23_vertical_tab_rejected` (lean/Verif/Props/EventId.lean) — The documented label `a␋b` is returned as `<parse error>`. _Axioms: propext, Classical.choice, Quot.sound._

## C24 Raw events pack and unpack without loss and kinds are disjoint (proved)

* `C24_interval_roundtrip` (lean/Verif/Props/RawEvent.lean) — An accepted interval reads back unchanged and is neither an instant nor an integer. _Axioms: propext, Classical.choice, Quot.sound._
* `C24_instant_roundtrip` (lean/Verif/Props/RawEvent.lean) — An accepted instant reads back unchanged and is an instant only. _Axioms: propext, Classical.choice, Quot.sound._
* `C24_integer_roundtrip` (lean/Verif/Props/RawEvent.lean) — An accepted integer reads back unchanged and is an integer only. _Axioms: propext, Classical.choice, Quot.sound._
* `C24_decode_payload` (lean/Verif/Props/RawEvent.lean) — Decoding an accepted event relative to a start time gives the payload that was recorded. _Axioms: propext, Classical.choice, Quot.sound._
* `C24_payloads_determine_event` (lean/Verif/Props/RawEvent.lean) — Every raw event, from whatever bytes, is determined by its ids, thread and two payload values, which are below 2^48: no bit of the three payload words is unused or shared. _Axioms: propext, Classical.choice, Quot.sound._
* `C24_payloads_surjective` (lean/Verif/Props/RawEvent.lean) — Every 96-bit payload occurs: any two 48-bit values are the payload of some raw event. _Axioms: propext, Classical.choice, Quot.sound._
* `C24_kinds_disjoint` (lean/Verif/Props/RawEvent.lean) — No event is both an instant and an integer. _Axioms: propext, Quot.sound._

## C25 Out-of-range values are rejected, not truncated (proved)

* `C25_interval_guard` (lean/Verif/Props/RawEvent.lean) — `new_interval` succeeds iff `start ≤ end ≤ 2^48 - 3`, otherwise it panics. _Axioms: propext, Quot.sound._
* `C25_instant_guard` (lean/Verif/Props/RawEvent.lean) — `new_instant` succeeds iff the value fits 48 bits, otherwise it panics. _Axioms: propext, Quot.sound._
* `C25_integer_guard` (lean/Verif/Props/RawEvent.lean) — `new_integer` succeeds iff the value fits 48 bits, otherwise it panics. _Axioms: propext, Quot.sound._

## C26 Event serialization is a bijection with documented little-endian layout (proved)

* `C26_roundtrip` (lean/Verif/Props/RawEvent.lean) — Serialization yields 32 bytes and deserialization inverts it. _Axioms: propext, Classical.choice, Quot.sound._
* `C26_bijection` (lean/Verif/Props/RawEvent.lean) — Every 32-byte string is the serialization of exactly one event; other lengths panic. _Axioms: propext, Classical.choice, Quot.sound._
* `C26_layout` (lean/Verif/Props/RawEvent.lean) — The documented layout: byte `j` of each little-endian field sits at the field's offset (0: kind, 8: id, 16: thread, 20: payload1 low, 24: payload2 low, 28: upper halves). _Axioms: propext, Quot.sound._

## C27 Timestamp and payload relations are lawful (proved)

* `C27_contains_meaning` (lean/Verif/Props/RawEvent.lean) — `contains` on payloads means: an interval contains another interval iff it starts no later and ends no earlier, an instant iff it lies between start and end (inclusive); nothing else contains or is contained. _Axioms: propext, Quot.sound._
* `C27_contains_order` (lean/Verif/Props/RawEvent.lean) — Containment is reflexive on intervals, transitive and antisymmetric. _Axioms: propext, Quot.sound._
* `C27_duration` (lean/Verif/Props/RawEvent.lean) — A contained interval is no longer than its container; a recorded interval always has a duration, `end - start`; instants and integers have none. _Axioms: propext, Quot.sound._
* `C27_timestamp_half_open` (lean/Verif/Props/RawEvent.lean) — `Timestamp::contains` is the half-open interval: it includes the start and excludes the end, so the intervals `[a,b)` and `[b,c)` never both contain a time. _Axioms: propext, Quot.sound._
* `C27_start_and_end` (lean/Verif/Props/RawEvent.lean) — The start and the end a timestamp reports are those it was made from; together with `contains` they bound the same time, and they are all there is to a timestamp, apart from the kind. _Axioms: propext._
* `C27_kind_exactly_one` (lean/Verif/Props/RawEvent.lean) — Each payload is exactly one of interval, instant, integer. _Axioms: propext._
* `C27_reversed_interval_no_duration` (lean/Verif/Props/RawEvent.lean) — **C27 (malformed data).** A decoded interval that ends before it starts has no duration. _Axioms: propext._

## C28 Event iteration yields each event once, in recording order, from either end (proved)

* `C28_iteration_is_list` (lean/Verif/Props/Decoder.lean) — Taking events from the front and the back in any pattern gives what taking them from the ends of the list of events gives, and the reported remaining length is right at the end of every pattern (so at every point). _Axioms: propext, Quot.sound._
* `C28_each_event_once` (lean/Verif/Props/Decoder.lean) — Whatever the pattern, every event is taken exactly once: those taken from the front, then those left, then those taken from the back (reversed) are exactly the events in recording order. _Axioms: propext, Quot.sound._
* `C28_collects_all` (lean/Verif/Props/Decoder.lean) — Iterating to the end yields exactly `num_events` events. _Axioms: propext, Quot.sound._
* `C28_full_and_lightweight_agree` (lean/Verif/Props/Decoder.lean) — Full and lightweight decoding agree on every event: whenever the full event decodes, so does the lightweight one, with the same thread and payload, and its index leads back to the full event. _Axioms: propext, Classical.choice, Quot.sound._
* `C28_number_of_events` (lean/Verif/Props/Iteration.lean) — Whatever bytes the event stream holds (from opening: at least the eight of its header): there are `k` events exactly if 32·`k` bytes follow the header; otherwise asking for the number of events panics. _Axioms: propext, Classical.choice, Quot.sound._
* `C28_events_are_records` (lean/Verif/Props/Iteration.lean) — Whatever bytes the event stream holds: the events iteration yields, taken from either end in any pattern, are the records of 32 bytes behind the header in their order, each with its index. _Axioms: propext, Classical.choice, Quot.sound._
* `C28_every_stream_has_records` (lean/Verif/Props/Iteration.lean) — Every stream of a whole number of records is of that form, in one way only (C26). _Axioms: propext, Classical.choice, Quot.sound._
* `C28_recorded_order` (lean/Verif/Props/Iteration.lean) — What a program recorded is what iteration yields: each recorded event once, in recording order, from either end in any pattern, with the remaining number always right. _Axioms: propext, Classical.choice, Quot.sound._

## C29 End-to-end: what a profiler records is what the decoder returns (proved)

The exact conditions: command lines that survive escaping (C32_opens_iff_plain) and texts as shown by to_string (C14_to_string_exact).

* `C29_profile_round_trip` (lean/Verif/Props/Decoder.lean) — Every profile recorded with plain command-line arguments (the others do not open, `C32_opens_iff_plain`) is opened by the decoder, carries the metadata recorded at the start, and contains exactly the recorded events in order with their threads and values; the kind is the text its id is shown as, and label and arguments are the fields of the text the event id is shown as. _Axioms: propext, Classical.choice, Quot.sound._
* `C29_proper_fields` (lean/Verif/Props/Decoder.lean) — Proper labels and arguments come back as they are. _Axioms: propext, Classical.choice, Quot.sound._
* `C29_every_text_has_fields` (lean/Verif/Props/Decoder.lean) — Every text is made of separator-free fields, so the round trip speaks about every event id that is shown. _Axioms: propext, Classical.choice, Quot.sound._
* `C29_every_meaning_is_shown` (lean/Verif/Props/Decoder.lean) — Every id that denotes a text is shown as some text. _Axioms: propext, Classical.choice, Quot.sound._
* `C29_shown_in_full` (lean/Verif/Props/Decoder.lean) — In a profile every entry that begins with text or is at most 119 bytes long is shown in full. _Axioms: propext, Classical.choice, Quot.sound._
* `C29_plain_shown` (lean/Verif/Props/Decoder.lean) — A plain string allocated in the session is shown in full: the hypothesis of the round trip, from the calls. _Axioms: propext, Classical.choice, Quot.sound._
* `C29_event_id_shown` (lean/Verif/Props/Decoder.lean) — An event id made of a label and up to ten arguments allocated in the session is shown in full. _Axioms: propext, Classical.choice, Quot.sound._
* `C29_recorded_iff_ok` (lean/Verif/Props/Decoder.lean) — Every call is answered: recording calls with values in range succeed (and are recorded), the others panic and record nothing. _Axioms: propext, Classical.choice, Quot.sound._

## C30 Version dispatch is exact and conversion preserves meaning (proved)

The v8 decoder is an external crate: modelled as arbitrary functions.

* `C30_accepted_versions` (lean/Verif/Props/Decoder.lean) — Only files whose header is `MMPD` followed by version 8 or 9 are accepted. _Axioms: propext, Classical.choice, Quot.sound._
* `C30_rejected_versions` (lean/Verif/Props/Decoder.lean) — Every other header (too short, wrong magic, any other version) is an error value, never a panic. _Axioms: propext, Classical.choice, Quot.sound._
* `C30_conversion_preserves` (lean/Verif/Props/Decoder.lean) — Reading a version 8 profile gives exactly the events of the version 8 decoder: same number, and for every index the same kind, label, arguments, thread and payload, and the same metadata. _Axioms: propext._
* `C30_current_dispatch` (lean/Verif/Props/Decoder.lean) — A file saved by the current profiler is dispatched to the current decoder. _Axioms: propext, Classical.choice, Quot.sound._

## C31 Scoped timing guards give properly nested intervals (proved)

* `C31_scoped_intervals_nest` (lean/Verif/Props/Guards.lean) — Scoped programs record, on every thread, intervals that are pairwise nested or disjoint, in the order of their ends — in the profile as the decoder reads it. _Axioms: propext, Classical.choice, Quot.sound._
* `C31_finish_records` (lean/Verif/Props/Guards.lean) — In a scoped program the next finish in stack order, at a counter value that has not gone backwards and is at most 2⁴⁸ − 3, does not panic and records exactly one event: the interval from the counter value at the start to the one at the end, on the thread and with the kind of the start. _Axioms: propext, Classical.choice, Quot.sound._
* `C31_finish_never_panics` (lean/Verif/Props/Guards.lean) — In a scoped program no finish, of a guard or of a detached timing, ever panics while the counter is at most 2⁴⁸ − 3. _Axioms: propext, Classical.choice, Quot.sound._

## C32 The metadata is readable iff every command-line character survives escaping (proved)

The desired claim is false; the exact condition is proved (C32_opens_iff_plain) and the failure shown (C32_unreadable_profiles).

* `C32_opens_iff_plain` (lean/Verif/Props/Decoder.lean) — The exact condition for a profile to be readable: it opens iff all command-line characters are plain; otherwise opening reports an error. _Axioms: propext, Classical.choice, Quot.sound._
* `C32_unreadable_profiles` (lean/Verif/Props/Decoder.lean) — The desired statement (every profile opens) is false: a command line with an apostrophe, and one with an accented letter, give profiles that the decoder rejects. _Axioms: propext, Classical.choice, Quot.sound._
* `C32_metadata_text` (lean/Verif/Props/JsonFiles.lean) — Which texts are metadata: the JSON documents that have the start time, the process id and the command line, once each, in any layout and with anything else besides; or an array of just the three. _Axioms: propext, Classical.choice, Quot.sound._

## C33 The in-memory builder produces what was asked for (proved)

* `C33_built_profile` (lean/Verif/Props/Builder.lean) — For every build script whose values are in range, whose labels are proper texts and whose texts fit the address space, the built profile opens, has the fixed metadata, and contains exactly the events asked for — those of a closure before the interval they are nested in — each with its kind, label, no arguments, thread and times. _Axioms: propext, Classical.choice, Quot.sound._
* `C33_bad_values_panic` (lean/Verif/Props/Builder.lean) — A script with a value out of range (or an interval that ends before it starts) panics; it never yields a wrong profile. _Axioms: propext, Classical.choice, Quot.sound._

## C34 Self time is duration minus direct children (proved)

* `C34_self_time` (lean/Verif/Props/Analysis.lean) — On properly nested streams the self time reported for a label is the sum, over its intervals, of their lengths minus the lengths of their direct children. _Axioms: propext, Classical.choice, Quot.sound._
* `C34_children_fit` (lean/Verif/Props/Analysis.lean) — No self time was cut off: the direct children of an interval never take longer than it. _Axioms: propext, Classical.choice, Quot.sound._
* `C34_labels` (lean/Verif/Props/Analysis.lean) — Every label that occurs on an interval, or on a cache-hit instant, has exactly one entry; no other label has one. _Axioms: propext, Classical.choice, Quot.sound._

## C35 Self times are conserved (proved)

* `C35_conserved` (lean/Verif/Props/Analysis.lean) — The self times of all labels add up to the total length of the intervals that lie in no other. _Axioms: propext, Classical.choice, Quot.sound._
* `C35_within_total` (lean/Verif/Props/Analysis.lean) — The self times of all labels together are no more than the total time. _Axioms: propext, Classical.choice, Quot.sound._
* `C35_self_le_time` (lean/Verif/Props/Analysis.lean) — For every stream the self time of a label is at most the length of all its intervals; it is at most the reported time if the label has no result-hashing intervals. _Axioms: propext, Classical.choice, Quot.sound._

## C36 Analysis does not depend on how threads are interleaved (proved)

For streams that are not properly nested an interleaving may panic while another does not (the subtraction panics depend on the order); if both return they agree.

* `C36_interleaving` (lean/Verif/Props/Analysis.lean) — Two streams with the same events in the same order on each thread: if both are analysed without a panic, the results are the same. _Axioms: propext, Classical.choice, Quot.sound._
* `C36_nested` (lean/Verif/Props/Analysis.lean) — For properly nested streams the other interleaving is analysed without a panic too. _Axioms: propext, Classical.choice, Quot.sound._

## C37 Counts, time, blocked, cache-load and hashing times match their definitions (proved)

* `C37_counts` (lean/Verif/Props/Analysis.lean) — Whatever the stream, the counts and plain sums of a label are those of its events: every interval counts as an invocation unless it is a load or hashing interval, and so does every cache hit; a query or generic activity is a cache miss; the time includes everything except hashing. _Axioms: propext, Classical.choice, Quot.sound._
* `C37_incremental` (lean/Verif/Props/Analysis.lean) — On properly nested streams load and hashing times are the self times of the label's intervals of these kinds. _Axioms: propext, Classical.choice, Quot.sound._

## C38 total_time spans the profile (proved)

* `C38_total_time` (lean/Verif/Props/Analysis.lean) — The total time is the sum, over the threads with intervals, of the time from their first start to their last end. _Axioms: propext, Classical.choice, Quot.sound._
* `C38_total_never_fails` (lean/Verif/Props/Analysis.lean) — Computing the total never fails: the analysis can only fail while it walks the events. _Axioms: propext, Classical.choice, Quot.sound._

## C39 Artifact sizes are summed per label and only from integer events (proved)

* `C39_artifact_sizes` (lean/Verif/Props/Analysis.lean) — The artifact sizes: labels in increasing order of their bytes, each label once, exactly the labels of artifact-size events, each with the sum of their integers modulo 2⁶⁴. _Axioms: propext, Classical.choice, Quot.sound._
* `C39_exact` (lean/Verif/Props/Analysis.lean) — With overflow checks the sums are exact: they never exceed the type, or the analysis panics. _Axioms: propext, Classical.choice, Quot.sound._

## C40 Intervals that overlap without nesting: exactly when the analysis answers, and what (proved)

The desired claim (the self times for every stream) is false of the code; the witnesses are C40_overlap_panics and C40_silently_wrong. Proved: exactly when the analysis returns, what its numbers are on any stream, and that on properly nested streams it never panics.

* `C40_nested_never_panics` (lean/Verif/Props/Analysis.lean) — Properly nested streams are always analysed without a panic (with overflow checks: unless the sizes of one artifact add up to 2⁶⁴ or more). _Axioms: propext, Classical.choice, Quot.sound._
* `C40_reversed_panics` (lean/Verif/Props/Analysis.lean) — An interval that ends before it starts makes every analysis panic. _Axioms: propext, Classical.choice, Quot.sound._
* `C40_overlap_panics` (lean/Verif/Props/Analysis.lean) — The desired claim — an answer for every stream — is false: two intervals that overlap without nesting, recorded in the order of their ends, inside a third make the analysis panic although every interval is forward. _Axioms: propext, Classical.choice, Quot.sound._
* `C40_returns_iff` (lean/Verif/Props/AnyStream.lean) — Exactly when the analysis returns: no interval ends before it starts; with overflow checks the sizes of no artifact add up to 2⁶⁴; and for no label, walking from the end, more time is counted inside its intervals (its result-hashing intervals, its result-loading intervals) than the ones already seen have. _Axioms: propext, Classical.choice, Quot.sound._
* `C40_otherwise_panics` (lean/Verif/Props/AnyStream.lean) — Otherwise it panics: there is no error result. _Axioms: propext, Classical.choice, Quot.sound._
* `C40_any_stream` (lean/Verif/Props/AnyStream.lean) — What the numbers mean on any stream the analysis returns on, nested or not: the self time of a label is the length of its intervals minus the length of the intervals counted in them; likewise hashing and loading times; and the self times of all labels together are the length of all intervals minus the length of those counted in another. _Axioms: propext, Classical.choice, Quot.sound._
* `C40_nested_holder` (lean/Verif/Props/AnyStream.lean) — On properly nested streams an interval is counted in its parent. _Axioms: propext, Classical.choice, Quot.sound._
* `C40_silently_wrong` (lean/Verif/Props/AnyStream.lean) — The analysis can return numbers that are not the self times: of `acrossStream`, where the only smallest interval around `x` is `a`, the time of `x` is taken from `p`. _Axioms: propext, Classical.choice, Quot.sound._

## C41 Collapsed stacks add up to the recorded time (proved)

* `C41_any_stream` (lean/Verif/Props/AnyCollapse.lean) — What the tool reports on any stream it returns on, nested or not. There is one entry per path through the events the intervals are counted in, and one entry `rustc`; modulo 2⁶⁴, the value of a path is the length of its intervals minus the length of the intervals counted in them, `rustc` has the time from the first start to the end recorded last on each thread minus the length of the intervals counted in no other, and all values together are the times of the threads. _Axioms: propext, Classical.choice, Quot.sound._
* `C41_any_stream_exact` (lean/Verif/Props/AnyCollapse.lean) — With overflow checks, and times below 2⁶⁴ ns, nothing has wrapped: these are the exact values. _Axioms: propext, Classical.choice, Quot.sound._
* `C41_release_returns_iff` (lean/Verif/Props/AnyCollapse.lean) — Exactly when the tool returns in a release build: no interval ends before it starts. _Axioms: propext, Classical.choice, Quot.sound._
* `C41_checked_returns_iff` (lean/Verif/Props/AnyCollapse.lean) — Exactly when it returns with overflow checks, for times below 2⁶⁴ ns: no interval ends before it starts; walking from the end, never more is counted inside the intervals of a path than the ones already seen have, and no path and no thread reaches 2⁶⁴; on no thread are the intervals in no other longer than the time from the first start to the end recorded last; and the time left is below 2⁶⁴. _Axioms: propext, Classical.choice, Quot.sound._
* `C41_otherwise_panics` (lean/Verif/Props/AnyCollapse.lean) — Otherwise it panics. _Axioms: propext, Classical.choice, Quot.sound._
* `C41_nested_paths` (lean/Verif/Props/AnyCollapse.lean) — On properly nested streams these are the paths through the parents and the times of the threads. _Axioms: propext, Classical.choice, Quot.sound._
* `C41_profile_any` (lean/Verif/Props/AnyCollapse.lean) — On a profile of the current format all of whose events can be decoded the tool does exactly this to the events. _Axioms: propext, Classical.choice, Quot.sound._
* `C41_collapsed` (lean/Verif/Props/Collapse.lean) — Collapsing a properly nested stream (whose threads together span less than 2⁶⁴ ns) never panics. The result has one entry per path that an interval has, with the sum of the self times of the intervals with this path, and one entry `rustc` with the time in no interval; all values together are the time of all threads. _Axioms: propext, Classical.choice, Quot.sound._
* `C41_profile` (lean/Verif/Props/Collapse.lean) — The function itself works on a profile, decoding light-weight events and labels as it goes: on every profile of the current format all of whose events can be decoded and are properly nested, it gives exactly that. _Axioms: propext, Classical.choice, Quot.sound._
* `C41_any_profile` (lean/Verif/Props/Collapse.lean) — The same on every profile of any format whose light-weight events have the thread and payload of the full events. _Axioms: propext, Classical.choice, Quot.sound._
* `C41_id_never_underflows` (lean/Verif/Props/Collapse.lean) — On every stream, nested or not, the id kept for a thread is the path of its stack, so that cutting off a popped label never underflows. _Axioms: propext, Classical.choice, Quot.sound._
* `C41_overlap_wraps` (lean/Verif/Props/Collapse.lean) — Without proper nesting the counters go wrong: with overflow checks the tool panics, without them it reports durations of half a millennium. _Axioms: propext, Classical.choice, Quot.sound._
* `C41_end_not_updated` (lean/Verif/Props/Collapse.lean) — The end of a thread is taken from its last recorded event: if an earlier recorded one ends later, the time in no interval is wrong. _Axioms: propext, Classical.choice, Quot.sound._

## C42 Collapsed stacks agree with the analysis (proved)

* `C42_any_stream` (lean/Verif/Props/AnyCollapse.lean) — The two tools agree on every stream they both return on, nested or not: modulo 2⁶⁴, and exactly in a debug build for times below 2⁶⁴ ns, the values of the stacks that end in a label add up to the self time the analysis reports for it. _Axioms: propext, Classical.choice, Quot.sound._
* `C42_agrees` (lean/Verif/Props/Collapse.lean) — For properly nested streams whose labels contain no `;`, adding up the collapsed stacks that end in a label gives the self time that the analysis reports for it. _Axioms: propext, Classical.choice, Quot.sound._

## C43 crox lane collapsing never overlaps threads in a lane (proved)

* `C43_lanes_apart` (lean/Verif/Props/Crox.lean) — With `--collapse-threads`, however ties are sorted, no panic occurs, exactly the threads with a timestamp get a lane, each gets one, and two threads on one lane have no moment in common. _Axioms: propext, Classical.choice, Quot.sound._
* `C43_identity` (lean/Verif/Props/Crox.lean) — Without the flag every thread keeps its own id. _Axioms: none._

## C44 crox uses as few lanes as possible (proved)

* `C44_fewest_lanes` (lean/Verif/Props/Crox.lean) — The lanes used are `0 .. k-1`, where `k` is the largest number of threads active at one moment, and no valid assignment of lanes uses fewer. _Axioms: propext, Classical.choice, Quot.sound._

## C45 crox filters and converts durations exactly (proved)

* `C45_emits` (lean/Verif/Props/Crox.lean) — If no interval is reversed, crox emits, in the order of the profile, one complete event for each interval of at least the minimum duration and nothing else; each with the label, the kind, the start and the length in whole microseconds, the process id, the lane of its thread or the thread id, and the arguments numbered from `arg0`, if there are any. _Axioms: propext, Classical.choice, Quot.sound._
* `C45_panics_iff` (lean/Verif/Props/Crox.lean) — An interval that ends before it starts makes crox panic, and nothing else does. _Axioms: propext, Classical.choice, Quot.sound._
* `C45_args_distinct` (lean/Verif/Props/Crox.lean) — The names of the arguments are distinct, so collecting them into a map loses none. _Axioms: propext, Classical.choice, Quot.sound._
* `C45_crate_name` (lean/Verif/Props/Crox.lean) — The process is named after the text between the first ` --crate-name ` and the next space, and only if the command line contains that option. _Axioms: propext, Classical.choice, Quot.sound._
* `C45_profile` (lean/Verif/Props/Crox.lean) — One profile all of whose events can be decoded (its full and lightweight events agree, as C28 shows of every profile of the current format): crox emits the records of the intervals that are long enough, in order, then the name of the process if there is one and its start time; with the flag the lanes of C43 are used, without it the thread ids. _Axioms: propext, Classical.choice, Quot.sound._
* `C45_other_texts_unread` (lean/Verif/Props/Crox.lean) — The texts of an event are only looked at if it is an interval of at least the minimum duration: two profiles that differ in other texts only give the same output. _Axioms: propext, Classical.choice, Quot.sound._

## C46 Extrema keeps the most extreme distinct values (proved)

* `C46_extrema` (lean/Verif/Props/Aggregate.lean) — Adding any ranges to an `Extrema` with a positive limit never panics. Afterwards `smallest` has, in ascending order, exactly the `limit` smallest distinct lower ends, `largest` the `limit` largest distinct upper ends; each with its source if it occurred once, and with the number of its occurrences otherwise. _Axioms: propext, Classical.choice, Quot.sound._
* `C46_zero_panics` (lean/Verif/Props/Aggregate.lean) — With limit zero the first addition panics. _Axioms: propext._

## C47 Sample points replay the stream in time order (proved)

* `C47_points` (lean/Verif/Props/Aggregate.lean) — The sample points of a stream exist exactly if all its timed events are on one thread. In chronological order they are balanced: every point's parent is the innermost open interval, every end closes it, at the end nothing is open; and the events completed, in order, are the timed events of the stream. _Axioms: propext, Quot.sound._
* `C47_in_time_order` (lean/Verif/Props/Aggregate.lean) — If the stream was recorded by scoped timings, the points are in the order of time: their moments are all the starts, ends and instants of the stream, sorted; so no duration between successive points is negative, and the durations are the gaps of the stream. _Axioms: propext, Classical.choice, Quot.sound._
* `C47_gaps_sum` (lean/Verif/Props/Aggregate.lean) — The gaps of a stream add up to the time from its first to its last moment. _Axioms: propext, Classical.choice, Quot.sound._
* `C47_in_time_order_iff` (lean/Verif/Props/AggregateAny.lean) — The points of a one-thread stream come in the order of time, so that no duration is negative, exactly if the stream is what scoped timings record: no interval ends before it starts, events come in the order of their ends, and each interval spans each earlier event or begins no sooner than it ended. _Axioms: propext, Classical.choice, Quot.sound._

## C48 aggregate fails exactly on profiles of different shape, and never in its own assertions (proved)

* `C48_succeeds_iff` (lean/Verif/Props/Aggregate.lean) — Exactly which sets of profiles can be aggregated: each profile is on one thread, no two of its successive points are out of order, and all have the same shape, that is the same kinds, labels and arguments of successive points and their parents. Every other set makes the command panic; for these no assertion fails, neither while aggregating nor while describing. _Axioms: propext, Classical.choice, Quot.sound._
* `C48_describe_never_panics` (lean/Verif/Props/Aggregate.lean) — Two successive points of any one-thread stream, in time order or not, are described without a failed assertion, by the sentence that belongs to them. _Axioms: propext, Classical.choice, Quot.sound._
* `C48_otherwise_panics` (lean/Verif/Props/Aggregate.lean) — If there is no report, `aggregate_profiles` panics: it never returns an error, and it always ends. _Axioms: propext, Classical.choice, Quot.sound._
* `C48_no_profiles` (lean/Verif/Props/Aggregate.lean) — Without profiles nothing is reported. _Axioms: propext, Classical.choice, Quot.sound._
* `C48_succeeds_iff_recorded` (lean/Verif/Props/AggregateAny.lean) — Exactly which sets of profiles can be aggregated, in terms of what was recorded: each profile is what scoped timings of one thread record, and all have the same kinds, labels and arguments of successive points and their parents. _Axioms: propext, Classical.choice, Quot.sound._

## C49 The aggregate report is exact (proved)

* `C49_report` (lean/Verif/Props/Aggregate.lean) — For profiles recorded by scoped timings on one thread each, with equal shapes: position by position, the report has the ten smallest of the least gaps, the ten largest of the greatest gaps, and the ten smallest and largest differences between them; a value found at one position only is described by what happens there. _Axioms: propext, Classical.choice, Quot.sound._
* `C49_whenever` (lean/Verif/Props/AggregateAny.lean) — Whenever the command gives a report at all, whatever the profiles are, the report is the exact one. _Axioms: propext, Classical.choice, Quot.sound._

## C50 diff reports, per label, exactly change minus base (proved)

For results with times below 2^64 ns and counts and sizes below 2^63; C50_huge_sizes_wrap shows the bound is needed.

* `C50_difference` (lean/Verif/Props/Diff.lean) — For any two results of modest size the difference has exactly one row for every label of either, every column is the change minus the base, and rows come by decreasing size of the change in self time; whatever order hash sets are enumerated in. _Axioms: propext, Classical.choice, Quot.sound._
* `C50_huge_sizes_wrap` (lean/Verif/Props/Diff.lean) — Without the bound on sizes the claim is false: an artifact that grew from nothing to 2⁶³ bytes is reported to have shrunk. _Axioms: propext, Classical.choice, Quot.sound._

## C51 diff is antisymmetric and zero on itself (proved)

* `C51_antisymmetric` (lean/Verif/Props/Diff.lean) — Swapping base and change negates every column of every row, and the total. _Axioms: propext, Classical.choice, Quot.sound._
* `C51_self_is_zero` (lean/Verif/Props/Diff.lean) — A result compared with itself shows no change. _Axioms: propext, Classical.choice, Quot.sound._
* `C51_subtraction` (lean/Verif/Props/Diff.lean) — Signed durations subtract and compare as the numbers they stand for, as long as the difference is below 2⁶⁴ nanoseconds; otherwise its size is cut off to 64 bits. _Axioms: propext, Quot.sound._
* `C51_signed_zero` (lean/Verif/Props/Diff.lean) — Ordering and equality of signed durations disagree exactly at zero, which has two representations. _Axioms: propext, Classical.choice, Quot.sound._

## C52 JSON inputs are recognized by extension (proved)

The desired claim is false (C52_extension_not_recognised, C52_saved_results_not_read); the exact condition is C52_json_iff.

* `C52_json_iff` (lean/Verif/Props/Path.lean) — `summarize diff` reads an argument as saved JSON exactly if the last component of the path is the name `json`. _Axioms: propext, Classical.choice, Quot.sound._
* `C52_missing_json` (lean/Verif/Props/Path.lean) — If the saved results are not there, `summarize diff` reports an error. _Axioms: propext, Classical.choice, Quot.sound._
* `C52_extension_not_recognised` (lean/Verif/Props/Path.lean) — A path that ends in `.json` is never read as JSON, whatever the file holds. _Axioms: propext, Classical.choice, Quot.sound._
* `C52_saved_results_not_read` (lean/Verif/Props/Path.lean) — Results saved by `--json` are never read back: naming the saved file means the profile it was made from. _Axioms: propext, Classical.choice, Quot.sound._

## C53 summarize shows an optional column under an exact condition (proved)

The wish (hashing column shown whenever there is data) is false of the code: C53_hashing_hidden; the exact condition is C53_hashing_exact.

* `C53_columns` (lean/Verif/Props/Summarize.lean) — The columns for cache hits, blocked time and load time are shown exactly if some item has such a value. The hashing column is shown only if some item has a value, and — if one of the other three is missing — whenever some item has. _Axioms: propext, Classical.choice, Quot.sound._
* `C53_hashing_exact` (lean/Verif/Props/Summarize.lean) — Exactly when the hashing column is shown: some item has hashing time and does not come, in the order of self times, after items that together have cache hits, blocked time and load time. _Axioms: propext, Classical.choice, Quot.sound._
* `C53_hashing_hidden` (lean/Verif/Props/Summarize.lean) — The claim is false as desired: here an item has hashing time, yet there is no such column, because the scan stopped at the item before. _Axioms: propext, Classical.choice, Quot.sound._

## C54 percent-above keeps exactly the rows at or above the threshold (proved)

* `C54_rows` (lean/Verif/Props/Summarize.lean) — The rows are exactly the items that are not below the limit, by decreasing self time; under every title there is the value the title promises; the share is the sum of the percentages shown; the total and the artifacts are those of the results. _Axioms: propext, Classical.choice, Quot.sound._
* `C54_limits` (lean/Verif/Props/Summarize.lean) — The limit is refused exactly if it is above one hundred or below zero. _Axioms: propext, Classical.choice, Quot.sound._
* `C54_floats` (lean/Verif/Props/Summarize.lean) — Comparing percentages with a limit is monotone in the time for every arithmetic whose rounding is monotone and keeps positive integers positive, as that of `f64` is; hence `C54_rows` holds for it. A limit that is not a number is accepted, and hides nothing. _Axioms: propext, Classical.choice, Quot.sound._

## C55 mmedit truncate keeps header, string pages and the first event page (proved)

* `C55_truncates` (lean/Verif/Props/Mmedit.lean) — A file of version 7 or 8 is copied without all event pages but the first: header, string pages and their order are untouched. _Axioms: propext, Quot.sound._
* `C55_streams` (lean/Verif/Props/Mmedit.lean) — Whatever follows the header of a version 7 or 8 file: if the pages cannot be split, truncating panics, and otherwise it succeeds; splitting the result gives the same string streams, and of the events a prefix. _Axioms: propext, Classical.choice, Quot.sound._
* `C55_idempotent` (lean/Verif/Props/Mmedit.lean) — Truncating twice is truncating once. _Axioms: propext, Quot.sound._
* `C55_other_versions` (lean/Verif/Props/Mmedit.lean) — Files of any other version are refused with an error that names the version (not a panic), whatever they hold; so is every file written by the current profiler. _Axioms: propext, Classical.choice, Quot.sound._
* `C55_current_files_refused` (lean/Verif/Props/Mmedit.lean) —  _Axioms: propext, Classical.choice, Quot.sound._

## C56 mmview lists exactly the selected events (proved)

* `C56_prints_events` (lean/Verif/Props/Mmview.lean) — mmview prints every event (of the selected thread) once and in order: kind, label, arguments, times in whole microseconds after the earliest start of any event of the profile, thread; mmview itself sends nothing to standard error (the reports about event ids are C77). _Axioms: propext, Classical.choice, Quot.sound._
* `C56_no_events` (lean/Verif/Props/Mmview.lean) — A profile has no earliest start exactly if it has no event with a time; then mmview prints nothing but `No events.` on standard error, even if there are integer events. _Axioms: propext, Classical.choice, Quot.sound._
* `C56_any_profile` (lean/Verif/Props/Mmview.lean) — For a profile of any format, and whatever the texts of its other events: mmview reads the texts of the events of the selected thread only. If all of these can be read it prints all of them; otherwise it prints those before the first that cannot, and ends as reading that one does. The times are counted from the earliest start of all events, of other threads too. _Axioms: propext, Classical.choice, Quot.sound._

## C57 Hardware counters are exact, or refuse to be recorded (proved)

The hardware (rdpmc) is a parameter: the register shows the true count modulo 2^48.

* `C57_modulo` (lean/Verif/Props/Counters.lean) — Whatever the registers do in between, every hardware counter is right modulo 2^48. _Axioms: propext, Classical.choice, Quot.sound._
* `C57_exact` (lean/Verif/Props/Counters.lean) — As long as no register passes 2^47 (modulo 2^48) the counters are exact: the events since the start, minus the interrupts since the start (of which there are not more). _Axioms: propext, Classical.choice, Quot.sound._
* `C57_exact_or_refused` (lean/Verif/Props/Counters.lean) — A plain counter is never silently wrong: within 2^48 events of the start it is exact, or its value cannot be recorded — every event that would end with it panics. The latter happens exactly if the register passed 2^47 on the way. _Axioms: propext, Classical.choice, Quot.sound._
* `C57_wall_time` (lean/Verif/Props/Counters.lean) — The clock counts nanoseconds, exactly for the first 2^64 of them. _Axioms: propext._
* `C57_register` (lean/Verif/Props/Counters.lean) — Halves of a register are put together in order. _Axioms: propext, Quot.sound._

## C58 Folded-stacks files can be read back (proved)

* `C58_folded_readable` (lean/Verif/Props/Collapse.lean) — If no stack contains a newline, a reader that splits the folded-stacks file into lines, and each line at its last space, gets back exactly the collapsed stacks, in the order written, whatever else the labels contain. _Axioms: propext, Classical.choice, Quot.sound._
* `C58_readable_iff` (lean/Verif/Props/Collapse.lean) — A newline in a stack is never read back: the reader gets back the collapsed stacks exactly if no stack contains one. _Axioms: propext, Classical.choice, Quot.sound._
* `C58_flamegraph_lines` (lean/Verif/Props/FileEffects.lean) — The lines `flamegraph` draws are the lines `stack_collapse` writes: with a newline after each, the file. _Axioms: propext, Classical.choice, Quot.sound._

## C59 Profiler and reader agree on the file a path means (proved)

Paths are byte strings as on Unix.

* `C59_profiler_path` (lean/Verif/Props/Path.lean) — A profiler made for a path writes next to it: the last component keeps its part before the last dot (all of it if there is no dot or only a leading one) and gets the extension `.mm_profdata`. _Axioms: propext, Classical.choice, Quot.sound._
* `C59_reads_what_was_written` (lean/Verif/Props/Path.lean) — What a profiler wrote for a path is what is read for that path, or for the written file's own path. _Axioms: propext, Classical.choice, Quot.sound._
* `C59_extensions_collide` (lean/Verif/Props/Path.lean) — Two paths that differ only after the last dot of their last component mean the same file: the second profiler overwrites the file of the first. _Axioms: propext, Classical.choice, Quot.sound._
* `C59_truncated_file` (lean/Verif/Props/Path.lean) — The file `mmedit truncate` writes can be read by its full name; but its name without the extension means the original file. _Axioms: propext, Classical.choice, Quot.sound._

## C60 --exclude shows exactly the rows that match no excluded text (proved)

* `C60_excluded` (lean/Verif/Props/Diff.lean) — With `--exclude`, the rows shown are those, each as often and in the order of the results, whose label contains none of the given texts. _Axioms: propext, Quot.sound._

## C61 Counters are found by name on the documented CPUs (proved)

* `C61_names` (lean/Verif/Props/Counters.lean) — A counter is found under its documented name exactly, and only if its constructor succeeds; every other name is an error. _Axioms: propext, Classical.choice, Quot.sound._
* `C61_interrupts` (lean/Verif/Props/Counters.lean) — `instructions-minus-irqs` is available exactly if the CPU is one on which interrupts can be counted and the kernel grants both events with readable 48-bit counters; it then reads the registers of those events. _Axioms: propext, Classical.choice, Quot.sound._
* `C61_instructions` (lean/Verif/Props/CountersMade.lean) — `instructions:u` is available exactly on Intel CPUs and AMD CPUs since K8 whose kernel grants the event with a readable 48-bit counter; it then reads the register of that event. _Axioms: propext, Classical.choice, Quot.sound._
* `C61_raw0420` (lean/Verif/Props/CountersMade.lean) — `instructions-minus-r0420:u` is available on the same CPUs if the kernel also grants the raw event 0x420. _Axioms: propext, Classical.choice, Quot.sound._
* `C61_never_panics` (lean/Verif/Props/CountersMade.lean) — A counter that cannot be had is always an error that the caller can handle, never a panic; the clock is always available. _Axioms: propext, Classical.choice, Quot.sound._
* `C61_warned` (lean/Verif/Props/CountersMade.lean) — Whoever asks for a hardware counter is warned exactly if the CPU is newer than those the library knows; whoever asks for `instructions-minus-r0420:u` is also warned exactly if instructions can be counted but the CPU is not known to be a Zen. _Axioms: propext, Classical.choice, Quot.sound._
* `C61_elsewhere` (lean/Verif/Props/CountersMade.lean) — **C61** (other platforms). Hardware counters are supported exactly on x86_64 Linux outside OHOS; everywhere else the clock is still available, and asking for any of the hardware counters is an error (never a panic) that lists exactly what the platform lacks. _Axioms: propext, Classical.choice, Quot.sound._

## C62 The tools work on every profile a scoped program leaves, and report what it did (proved)

* `C62_read_back` (lean/Verif/Props/EndToEnd.lean) — What a tool reads from the file a session left under a stem is what the session recorded: all events in order, each with its thread, its times and its texts. _Axioms: propext, Classical.choice, Quot.sound._
* `C62_summarize` (lean/Verif/Props/EndToEnd.lean) — `summarize` works on the file of every scoped session, whatever its threads did: it never panics, every unit of self time is time of some outermost interval, and the self times do not exceed the total. _Axioms: propext, Classical.choice, Quot.sound._
* `C62_stack_collapse` (lean/Verif/Props/EndToEnd.lean) — `stack_collapse` works on the file of every scoped session of up to 65536 threads: the file it writes lists, for every path of labels, the time spent in exactly that path, and the times add up to the time of all threads. _Axioms: propext, Classical.choice, Quot.sound._
* `C62_crox` (lean/Verif/Props/EndToEnd.lean) — `crox` works on the file of every scoped session: it emits one record for every interval that is long enough, in order, with the process id of the session and lanes that never put two threads with a common moment together. _Axioms: propext, Classical.choice, Quot.sound._
* `C62_aggregate_ready` (lean/Verif/Props/EndToEnd.lean) — The preconditions of `summarize aggregate` hold of every scoped session that uses one thread and whose counter never goes backwards: its events are in post-order, the iterator gives their points, and the times between them are not negative. _Axioms: propext, Classical.choice, Quot.sound._
* `C62_diff` (lean/Verif/Props/EndToEnd.lean) — `summarize diff` of the files of two scoped sessions compares their analyses (neither file being called `json`). _Axioms: propext, Classical.choice, Quot.sound._

## C63 A profiler shared by threads behaves like one used by a single thread (proved)

* `C63_as_one_thread` (lean/Verif/Props/ConcProfiler.lean) — Whatever the threads do and however they are scheduled, there is one order of all their calls, agreeing with each thread's own order and with real time, such that the file reads like the file of a single thread making the calls in that order, and every thread gets the answers that the single thread gets. _Axioms: propext, Classical.choice, Quot.sound._
* `C63_executes` (lean/Verif/Props/ConcProfiler.lean) — Every program can be executed to its end (no deadlock between creation, use and drop). _Axioms: propext, Classical.choice, Quot.sound._
* `C63_tools` (lean/Verif/Props/ConcProfiler.lean) — Files that read alike are the same to all tools. _Axioms: propext, Classical.choice, Quot.sound._
* `C63_recorded` (lean/Verif/Props/ConcProfiler.lean) — In every order of the calls, each thread's events are recorded under its id in its order, and nothing else is. _Axioms: propext, Classical.choice, Quot.sound._
* `C63_scoped` (lean/Verif/Props/ConcProfiler.lean) — If every thread on its own is scoped, so is every order of the calls. _Axioms: propext, Quot.sound._
* `C63_session` (lean/Verif/Props/ConcProfiler.lean) — A program whose threads are each scoped, record under ids of their own and put into events only ids that denote texts (whichever thread allocated them) leaves a file that all tools treat like the file of a readable, scoped session of one thread, in which each thread's events appear in its order. _Axioms: propext, Classical.choice, Quot.sound._
* `C63_summarize` (lean/Verif/Props/ConcProfiler.lean) — So `summarize` works on the file of a multi-threaded program, whatever the schedule: it does not panic, it sees each thread's events in order, and the self times it computes are the time covered by outermost intervals. _Axioms: propext, Classical.choice, Quot.sound._
* `C63_stack_collapse` (lean/Verif/Props/ConcProfiler.lean) — So does `stack_collapse`, for a program of up to 65536 threads: the file it writes lists, for every path of labels, the time spent in exactly that path, and the times add up to the time of all threads. _Axioms: propext, Classical.choice, Quot.sound._
* `C63_crox` (lean/Verif/Props/ConcProfiler.lean) — And `crox`: it emits one record for every interval that is long enough, with the process id and the start of the session, in an order in which each thread's events come as it recorded them, and never puts two threads with a common moment on the same lane. _Axioms: propext, Classical.choice, Quot.sound._

## C64 Runs of one program can be aggregated (proved)

* `C64_same_structure` (lean/Verif/Props/Rerun.lean) — Streams of scoped timings on one thread each, with the same texts and the same nesting event by event, are aggregated without a panic, whatever the times are; and the report is the one of C49. _Axioms: propext, Classical.choice, Quot.sound._
* `C64_reruns` (lean/Verif/Props/Rerun.lean) — Run a scoped program on one thread any number of times, with a counter that goes forward with every reading; let the runs make the same calls and record the same texts. Then `summarize aggregate` of the files never panics, whatever the counter showed; and it reports the extremes and the spreads of the times between the points of the runs. _Axioms: propext, Classical.choice, Quot.sound._
* `C64_ties_panic` (lean/Verif/Props/Rerun.lean) — The counter has to go forward: if it only does not go backwards, there are two runs of one program that are scoped and on one thread, and whose aggregation panics. (Of two intervals, one after the other, at one and the same moment the second is taken to contain the first.) _Axioms: propext, Classical.choice, Quot.sound._

## C65 The project's end-to-end test passes under every schedule (proved)

* `C65_passes_iff` (lean/Verif/Props/SelfTest.lean) — For any number of threads and stacks, any counter values and any schedule: what the test reads back passes its checks, forwards and backwards, exactly if the two hash maps it compares yield the thread ids in the same order. _Axioms: propext, Classical.choice, Quot.sound._
* `C65_passes` (lean/Verif/Props/SelfTest.lean) — So the project's end-to-end test passes for any number of threads and stacks, any counter values and any schedule, if the order in which a hash map yields its keys depends only on which keys it has. _Axioms: propext, Classical.choice, Quot.sound._
* `C65_ids` (lean/Verif/Props/SelfTest.lean) — Whatever the schedule, the main thread gets these ids, which the test then uses. _Axioms: propext, Classical.choice, Quot.sound._

## C66 Opening a file of any content: what is an error, what a panic, what opens (proved)

* `C66_header` (lean/Verif/Props/Damaged.lean) — A file that does not begin with its header is reported as an error. _Axioms: propext, Classical.choice, Quot.sound._
* `C66_pages` (lean/Verif/Props/Damaged.lean) — What follows the header must be a sequence of pages; otherwise opening panics. _Axioms: propext, Classical.choice, Quot.sound._
* `C66_streams` (lean/Verif/Props/Damaged.lean) — If one of the three streams is missing or does not begin with its header, an error is reported. _Axioms: propext, Classical.choice, Quot.sound._
* `C66_index_size` (lean/Verif/Props/Damaged.lean) — An index that is not a whole number of entries makes opening panic, if all streams are there. _Axioms: propext, Classical.choice, Quot.sound._
* `C66_opens` (lean/Verif/Props/Damaged.lean) — In all other cases the file opens exactly if its metadata can be read: the text the metadata's id (100000001) is shown as must be the JSON text of a metadata record. Of several index entries for an id the last one counts. _Axioms: propext, Classical.choice, Quot.sound._
* `C66_all_cases` (lean/Verif/Props/Damaged.lean) — These are all cases: the header is missing, the pages do not parse, a stream has no header, the index has no whole number of entries, or the file consists of exactly the parts that `C66_opens` speaks of. _Axioms: propext, Classical.choice, Quot.sound._
* `C66_no_metadata` (lean/Verif/Props/Damaged.lean) — A file without metadata — no index entry for its id — is reported as an error, not a panic. _Axioms: propext, Classical.choice, Quot.sound._

## C67 A profile cut short: a killed process, a full disk, an interrupted copy (proved)

* `C67_threads_every_moment` (lean/Verif/Props/ConcKilled.lean) — Every moment of every execution is one the theorems below speak of. _Axioms: propext, Classical.choice, Quot.sound._
* `C67_threads_cut` (lean/Verif/Props/ConcKilled.lean) — **C67** (several threads). Whatever the threads do, however they are scheduled and wherever in their code they are when the process is killed, and wherever the file is cut: there is one order of the calls that had been started, agreeing with each thread's own order, with real time, and with the answers the threads had got, such that the file either does not open or shows an initial part of what one thread making the calls in this order records. _Axioms: propext, Classical.choice, Quot.sound._
* `C67_threads_killed` (lean/Verif/Props/ConcKilled.lean) — **C67** (several threads, between calls). If no call is in progress when the process is killed, the file reads like the file of a killed process of one thread that made the calls in some order, as above; so what `C67_killed_early`, `C67_killed_late` and `C67_killed_loses_at_most` say about such files holds for it. _Axioms: propext, Classical.choice, Quot.sound._
* `C67_threads_lose_at_most` (lean/Verif/Props/ConcKilled.lean) — **C67** (several threads, between calls): how much is lost. If the file opens it shows all but the last 8192 events, all but the last 16384 mappings, and all strings but those that end in the last 262144 bytes; and it does not open unless 8192 events, 8191 mappings and 131072 bytes of strings were written. _Axioms: propext, Classical.choice, Quot.sound._
* `C67_cut` (lean/Verif/Props/Crash.lean) — A profile cut at any byte (by a crash, a full disk or an interrupted copy) either does not open at all, or opens and shows exactly an initial part of what was recorded: the metadata, the first events with their threads and values, and the texts that the remaining strings and mappings give. It never shows an event that was not recorded or a text that differs. _Axioms: propext, Classical.choice, Quot.sound._
* `C67_opens_iff` (lean/Verif/Props/Crash.lean) — Exactly when a cut profile opens, and how much it shows: the file is a header followed by pages, the cut must be at the end of a page, and the pages before it must contain the header of the event stream, the whole metadata text and the index entry of the metadata; moreover the index must not end within an entry (`C67_torn_index` shows that pages can end within an entry). The number of events shown is the number of whole records. _Axioms: propext, Classical.choice, Quot.sound._
* `C67_killed_is_cut` (lean/Verif/Props/Killed.lean) — The file only grows: whatever a process has written when it is killed, be it between two calls or at any byte of the page that the last of `calls` writes, is a cut of the file it would have saved. So `C67_cut` and `C67_opens_iff` describe every profile of a killed process. _Axioms: propext, Classical.choice, Quot.sound._
* `C67_killed_loses_at_most` (lean/Verif/Props/Killed.lean) — What a process loses when it is killed between two calls: if the profile opens, all but at most the last 8192 events and all but at most the last 16384 mappings are there, and all strings but those in the last 262144 bytes of text. _Axioms: propext, Classical.choice, Quot.sound._
* `C67_killed_early` (lean/Verif/Props/Killed.lean) — A process that is killed early leaves a profile that cannot be opened at all: as long as fewer than 8192 events, or fewer than 8191 mappings, or at most 131072 bytes of text have been recorded, nothing of that stream is in the file, and opening it is an error. _Axioms: propext, Classical.choice, Quot.sound._
* `C67_killed_late` (lean/Verif/Props/Killed.lean) — A process that is killed late enough leaves a profile that opens, if it did not map more than eight ids in one call: with 8192 events, 16384 mappings and a page of text besides the metadata, the first pages of all three streams are in the file. _Axioms: propext, Classical.choice, Quot.sound._
* `C67_torn_index` (lean/Verif/Props/Killed.lean) — The restriction to at most eight ids is needed: if the first mapping of a session maps between 8191 and 16382 ids in one call, the page that this call writes ends in the middle of an index entry, and a process that is killed after the call leaves a profile on which the decoder panics. _Axioms: propext, Classical.choice, Quot.sound._

## C68 crox's file is JSON that says exactly what the profiles say, or the run failed (proved)

* `C68_trace_file` (lean/Verif/Props/JsonFiles.lean) — If crox succeeds, the file it leaves is a JSON document, and what it says is determined: an array that lists, profile after profile in the order given, what a trace should say about each. _Axioms: propext, Classical.choice, Quot.sound._
* `C68_failed_run_leaves_no_json` (lean/Verif/Props/JsonFiles.lean) — If crox fails, the file it leaves is not JSON. _Axioms: propext, Classical.choice, Quot.sound._
* `C68_directory_files` (lean/Verif/Props/JsonFiles.lean) — A file of the directory that is picked is the file that is read. _Axioms: propext, Classical.choice, Quot.sound._
* `C68_sessions_succeed` (lean/Verif/Props/JsonFiles.lean) — Every scoped session gives a trace (with C68_trace_file: a JSON document that says what it should). _Axioms: propext, Classical.choice, Quot.sound._

## C69 Saved results read back exactly (proved)

* `C69_saved_document` (lean/Verif/Props/JsonFiles.lean) — The file saved by `summarize --json` is a JSON document, and what it says is determined: all the results, with durations as seconds and nanoseconds. _Axioms: propext, Classical.choice, Quot.sound._
* `C69_round_trip` (lean/Verif/Props/JsonFiles.lean) — Reading saved results gives them back. _Axioms: propext, Classical.choice, Quot.sound._
* `C69_any_layout` (lean/Verif/Props/JsonFiles.lean) — Results are read whatever the layout of the file: white space, the order of the members, members that are not known. _Axioms: propext, Classical.choice, Quot.sound._
* `C69_not_json_refused` (lean/Verif/Props/JsonFiles.lean) — A file that is not JSON is refused with an error, not a panic. _Axioms: propext, Classical.choice, Quot.sound._
* `C69_results_fit` (lean/Verif/Props/JsonFiles.lean) — The results of analysing a profile always fit what they are saved as, if the file has at most 2⁵⁰ bytes: whatever the file contains, labels are UTF-8, counts and sizes are 64-bit numbers, and durations do not exceed 2⁶⁴ seconds. _Axioms: propext, Classical.choice, Quot.sound._
* `C69_diff_of_saved` (lean/Verif/Props/JsonFiles.lean) — Comparing saved results is comparing the profiles: `summarize diff` on a file named `json` that holds what `summarize --json` wrote for a profile of at most 2⁵⁰ bytes is `summarize diff` on the profile, on either side. _Axioms: propext, Classical.choice, Quot.sound._
* `C69_sessions_saved` (lean/Verif/Props/JsonFiles.lean) — `summarize --json` works on the file of every scoped session: it writes, next to the profile, results that read back as the analysis of the events the session recorded. _Axioms: propext, Classical.choice, Quot.sound._

## C70 Tools write one file and never a profile (proved)

* `C70_one_file` (lean/Verif/Props/FileEffects.lean) — A tool changes no file but its output file. _Axioms: propext, Classical.choice, Quot.sound._
* `C70_profiles_kept` (lean/Verif/Props/FileEffects.lean) — No tool but `mmedit` changes a profile, whether or not it succeeds, and whatever it was asked to do; `mmedit` only changes files named `….truncated.mm_profdata`. _Axioms: propext, Classical.choice, Quot.sound._
* `C70_mmedit_keeps_input` (lean/Verif/Props/FileEffects.lean) — `mmedit` never overwrites the file it reads. _Axioms: propext, Classical.choice, Quot.sound._
* `C70_not_created` (lean/Verif/Props/FileEffects.lean) — A tool whose output file cannot be created changes nothing and fails: with an error that says so, or in the way it fails where the file can be created. _Axioms: propext, Classical.choice, Quot.sound._
* `C70_failure_leaves_files` (lean/Verif/Props/FileEffects.lean) — A tool that fails before it has its results leaves all files as they were; only crox, which creates its file first, and `flamegraph` when the picture cannot be drawn, leave a file behind. _Axioms: propext, Classical.choice, Quot.sound._
* `C70_no_interference` (lean/Verif/Props/FileEffects.lean) — Running a tool does not change what any tool reads afterwards: opening a profile gives the same before and after, unless a file named `….truncated.mm_profdata` was written by `mmedit`. _Axioms: propext, Classical.choice, Quot.sound._
* `C70_repeatable` (lean/Verif/Props/FileEffects.lean) — Running `summarize --json`, `stack_collapse` or `flamegraph` again on the same profile gives the same files and the same outcome. _Axioms: propext, Classical.choice, Quot.sound._

## C71 summarize diff --json writes the difference (proved)

* `C71_document` (lean/Verif/Props/DiffJson.lean) — `summarize diff --json` writes a JSON document with one meaning: the difference of the two results, row by row.  `percent` is how a finite floating-point number is written. _Axioms: propext, Classical.choice, Quot.sound._
* `C71_null_changes` (lean/Verif/Props/DiffJson.lean) — A relative change is `null` exactly for a new item and for an item that took no time in the base; an item that is gone never has `null`. _Axioms: propext, Classical.choice, Quot.sound._
* `C71_same_path` (lean/Verif/Props/DiffJson.lean) — The file is written under the name of the results of the changed profile: `summarize diff --json` and `summarize --json` write to the same path. _Axioms: propext, Classical.choice, Quot.sound._

## C72 I/O errors under concurrency (proved)

* `C72_linearizable` (lean/Verif/Props/ConcFaults.lean) — **C72** (linearizability). Whatever fails, at any moment the calls observed so far have a linearization: an order of the calls that every thread sees in its own program order, that respects real time, and in which the calls, made one after the other by one thread on a store some of whose writes fail (no more than have failed), have exactly the observed results, panics included. _Axioms: propext, Classical.choice, Quot.sound._
* `C72_final_state` (lean/Verif/Props/ConcFaults.lean) — **C72** (final state). When all threads have finished, every call of every thread is in the linearization, as many writes fail in it as have failed, every sink is in the state it leaves, and no lock is held: an I/O error blocks nobody. _Axioms: propext, Classical.choice, Quot.sound._
* `C72_failures_are_loud` (lean/Verif/Props/ConcFaults.lean) — **C72** (no silent failure). If all threads have finished and no call has panicked, nothing has failed: the execution is one without I/O errors. _Axioms: propext, Classical.choice, Quot.sound._
* `C72_no_deadlock` (lean/Verif/Props/ConcFaults.lean) — **C72** (no deadlock). Whatever has failed, some thread can move, unless all have finished. _Axioms: propext, Classical.choice, Quot.sound._
* `C72_bounded_steps` (lean/Verif/Props/ConcFaults.lean) — **C72** (termination). No schedule runs forever, whatever fails. _Axioms: propext, Classical.choice, Quot.sound._
* `C72_never_overwrites` (lean/Verif/Props/ConcFaults.lean) — **C72** (stored data). Whatever fails, bytes that have reached the store are never changed; and if the final store can be split into pages, every stream begins with the complete pages that were in the store before the first failure. _Axioms: propext, Classical.choice, Quot.sound._
* `C72_first_failure` (lean/Verif/Props/ConcFaults.lean) — **C72** (the first failure). When the first write fails, what is in the store is an initial part of what an execution without any failure, which has gone exactly the same way so far, has there; the threads have observed the same. _Axioms: propext._
* `C72_profile_after_first_failure` (lean/Verif/Props/ConcFaults.lean) — **C72** (profiles). If a profiled program is stopped at the first I/O error, then whatever the threads were doing and wherever the file is cut, the file either does not open or shows an initial part of what one thread records that makes the calls that had been started in some order agreeing with each thread's own order, with real time and with the answers the threads had got. _Axioms: propext, Classical.choice, Quot.sound._

## C73 What is read from the kernel's counter page belongs together (proved)

* `C73_one_moment` (lean/Verif/Props/SeqLock.lean) — However the kernel updates the page while it is read, and however often the reader has to start again: if no update was going on when the iteration that returns began, and the kernel makes fewer than 2^31 updates during it, then what is returned is what the page contained at one moment. _Axioms: propext, Classical.choice, Quot.sound._
* `C73_counter_creation` (lean/Verif/Props/SeqLock.lean) — **C73** (the use that is made of it). The counter belongs to the thread that creates it, so the kernel updates its page while the thread is not running: no access of the reader is inside an update. Then a hardware counter is created, or refused, according to what the page says at one moment. _Axioms: propext, Classical.choice, Quot.sound._
* `C73_returns` (lean/Verif/Props/SeqLock.lean) — **C73** (termination). If the kernel leaves the page alone from some moment on, the reader returns. _Axioms: propext, Quot.sound._
* `C73_retries_only_on_updates` (lean/Verif/Props/SeqLock.lean) — **C73** (no needless retry). The reader starts again only if the kernel has begun or ended an update in between. _Axioms: propext, Quot.sound._
* `C73_torn_during_update` (lean/Verif/Props/SeqLock.lean) — **C73** (not checked: an update that is going on). The code accepts an odd `lock`: read while the kernel updates the page, two fields that always agree between updates are returned as different. _Axioms: propext, Classical.choice, Quot.sound._
* `C73_torn_after_wraparound` (lean/Verif/Props/SeqLock.lean) — **C73** (the bound is exact). With 2^31 updates during one iteration the 32-bit `lock` is back at the same value, and values of different moments are returned. _Axioms: propext, Classical.choice, Quot.sound._

## C74 The numbers in the printed tables are the numbers of the results (proved)

* `C74_durations_exact` (lean/Verif/Props/Printing.lean) — A duration printed without a precision, as the total is, is read back exactly, whatever it is. _Axioms: propext, Classical.choice, Quot.sound._
* `C74_two_decimals` (lean/Verif/Props/Printing.lean) — A duration in the table is shown with two decimals of the largest unit not longer than it, and what is read is the nearest such number to the duration; of two equally near, the even one. _Axioms: propext, Classical.choice, Quot.sound._
* `C74_order` (lean/Verif/Props/Printing.lean) — Rounding keeps the order: a row with less time never shows more. _Axioms: propext, Classical.choice, Quot.sound._
* `C74_summarize` (lean/Verif/Props/Printing.lean) — What `summarize` prints: first the titles, then one row for every item not below the limit, by decreasing self time, showing under every title the value it promises; the total exactly; the sizes of the artifacts exactly. _Axioms: propext, Classical.choice, Quot.sound._
* `C74_diff` (lean/Verif/Props/Printing.lean) — What `summarize diff` prints for any two results of modest size: ten titles; exactly one row for every label of either that contains no excluded text, from which the differences of times, counts and hits are read back exactly; the difference of the totals; one row for every artifact, from which the difference of sizes is read back exactly. _Axioms: propext, Classical.choice, Quot.sound._
* `C74_whole_numbers` (lean/Verif/Props/Printing.lean) — **C74** (how whole numbers look): decimal, without leading zeros; the changes of counts always with a sign, a change of nothing being "+0"; the changes of sizes with a sign only if they are negative. _Axioms: propext, Classical.choice, Quot.sound._
* `C74_precision_ignored` (lean/Verif/Props/Printing.lean) — The precision asked for in `summarize diff` has no effect: a change of one second and one nanosecond is shown with nine decimals, where `summarize` shows two. _Axioms: propext, Classical.choice, Quot.sound._

## C75 What is said about a profile that is refused (proved)

* `C75_missing_file` (lean/Verif/Props/Refused.lean) — If there is no file with the extension `.mm_profdata`, opening is an error that names this file; it also says that the data are from an out-dated version exactly if one of the three files of the old format is there. _Axioms: propext, Classical.choice, Quot.sound._
* `C75_unsupported_version` (lean/Verif/Props/Refused.lean) — A file of an unsupported version is refused with a message that names the version it has.  The message says that the version is too new, and to upgrade, also if it is older than every supported one. _Axioms: propext, Classical.choice, Quot.sound._
* `C75_no_header` (lean/Verif/Props/Refused.lean) — A file that has fewer than eight bytes or does not begin with the letters `MMPD` is refused with an error that names the file and what was found. _Axioms: propext, Classical.choice, Quot.sound._
* `C75_bad_stream` (lean/Verif/Props/Refused.lean) — A file of the current version that has pages but lacks one of the three streams is refused with an error that says which (strings before index before events); one whose streams are all there but do not all begin with their headers, with an error that names the file, the stream (events before strings before index) and what was found. _Axioms: propext, Classical.choice, Quot.sound._

## C76 All text is well-formed Unicode, whatever a file contains (proved)

* `C76_strings` (lean/Verif/Props/Texts.lean) — Whatever bytes the two streams of a string table hold, both ways of reading a string give well-formed text if they give anything. _Axioms: propext, Classical.choice, Quot.sound._
* `C76_profile` (lean/Verif/Props/Texts.lean) — Whatever bytes a file holds, if it opens, then its command line and the kind, label and arguments of every event that can be decoded are well-formed text. _Axioms: propext, Classical.choice, Quot.sound._
* `C76_event_ids` (lean/Verif/Props/Texts.lean) — Therefore reading an event id never panics in the parser, whatever the file. _Axioms: propext, Classical.choice, Quot.sound._
* `C76_trace_file` (lean/Verif/Props/Texts.lean) — crox's file is well-formed text, also if the run fails. _Axioms: propext, Classical.choice, Quot.sound._
* `C76_other_output` (lean/Verif/Props/Texts.lean) — So are the file of `stack_collapse`, what `mmview` prints, and the file of `summarize --json`. _Axioms: propext, Classical.choice, Quot.sound._
* `C76_diff_file` (lean/Verif/Props/TextsDiff.lean) — The file of `summarize diff --json` is text, whatever the two inputs contain, profiles or saved results. _Axioms: propext, Classical.choice, Quot.sound._

## C77 Malformed event ids are reported, and only those (proved)

* `C77_silent` (lean/Verif/Props/EventIdReports.lean) — If the label and all arguments are proper texts, parsing gives them back and nothing is reported. _Axioms: propext, Classical.choice, Quot.sound._
* `C77_label_reported` (lean/Verif/Props/EventIdReports.lean) — If the label is not a proper text, the label reads `<parse error>`, there are no arguments, and the report is about the label. _Axioms: propext, Classical.choice, Quot.sound._
* `C77_argument_reported` (lean/Verif/Props/EventIdReports.lean) — If the argument `f` is the first field that is not a proper text, the label and the arguments before `f` are returned and the report is about `f`, which begins one byte after the text of the fields before it. _Axioms: propext, Classical.choice, Quot.sound._
* `C77_reported_iff_lossy` (lean/Verif/Props/EventIdReports.lean) — For every text: parsing returns a label and arguments, and there is no report exactly if the label and the arguments, joined again, are the text. _Axioms: propext, Classical.choice, Quot.sound._
* `C77_report_is_separate` (lean/Verif/Props/EventIdReports.lean) — For every text that `decodeme` parses, what is returned is the same whether or not the report is looked at. _Axioms: propext, Classical.choice, Quot.sound._

## C78 Creating a profile replaces exactly its own file (proved)

* `C78_panics_iff` (lean/Verif/Props/Create.lean) — Creating a profiler panics exactly if the path is empty or the root (in any spelling: only `/` and `/.`); then no directory and no file is touched. _Axioms: propext, Classical.choice, Quot.sound._
* `C78_directory` (lean/Verif/Props/Create.lean) — For a path `dir` + name, the directory `dir` is asked for (without what is superfluous at its end). _Axioms: propext, Classical.choice, Quot.sound._
* `C78_other_files` (lean/Verif/Props/Create.lean) — Whatever happens, no file but the profile's own is changed, and it only if the file could be created: if the directory or the file cannot be created, there is an error and all files are as before. _Axioms: propext, Classical.choice, Quot.sound._
* `C78_no_room` (lean/Verif/Props/Create.lean) — If the new file can be created but its first bytes cannot be written, there is an error, the old contents of the file are lost, and opening the profile then gives an error. _Axioms: propext, Classical.choice, Quot.sound._
* `C78_replaces` (lean/Verif/Props/Create.lean) — If directory and file can be created and the file can be written, the file of the profile is what the session leaves, whatever was there before. _Axioms: propext, Classical.choice, Quot.sound._
* `C78_reads_back` (lean/Verif/Props/Create.lean) — Reading the profile back by the same path, or by any path that leads to the same file, gives the events of that session and of no other: it does not matter what files there were, in particular not whether there was a profile or files of the old format. _Axioms: propext, Classical.choice, Quot.sound._

## C79 Decoding an event by its number (proved)

* `C79_by_number` (lean/Verif/Props/ByIndex.lean) — Decoding by number gives the event of that number as iteration does (C28, C29); with overflow checks every number that is not below the number of events panics. _Axioms: propext, Classical.choice, Quot.sound._
* `C79_wraps_around` (lean/Verif/Props/ByIndex.lean) — Without overflow checks numbers count modulo 2^59: a number too large by a multiple of 2^59 gives an event instead of a panic; all others that are not below the number of events panic. _Axioms: propext, Classical.choice, Quot.sound._

## C80 What a profile takes on disk (proved)

* `C80_few_pages` (lean/Verif/Props/Space.lean) — However data is handed to a sink, in pieces of whatever sizes and by whichever calls: except for those it was made to write by being flushed or dropped, its pages are on average at least half full (128 KiB), so the number of page headers is bounded by the amount of data. _Axioms: propext, Classical.choice, Quot.sound._
* `C80_session_size` (lean/Verif/Props/Space.lean) — The file of a session holds what the session recorded (32 bytes for an event, 16 for a mapping, its bytes and one more for a string, nine for a reference in a string, four headers of eight bytes, the metadata) and five bytes for each of its pages, of which there are at most three more than there are 128 KiB of content. _Axioms: propext, Classical.choice, Quot.sound._
* `C80_overhead` (lean/Verif/Props/Space.lean) — **C80** (the same, as a bound on the size of the file). _Axioms: propext, Classical.choice, Quot.sound._
* `C80_threads` (lean/Verif/Props/ThreadsPages.lean) — Whatever the threads of a program do and however they are scheduled, there is an order of all their calls, agreeing with each thread's own and with real time, such that the file has as many pages as that of one thread making the calls in that order; so it holds what the threads recorded and five bytes for each of its pages, of which there are at most three more than there are 128 KiB of content. _Axioms: propext, Classical.choice, Quot.sound._

## C81 Strings of user-defined types cannot harm other strings (proved)

* `C81_others_unaffected` (lean/Verif/Props/Custom.lean) — Whatever values of the program's own types write, and however large they are: the table opens, the event stream is what was written to it, and every string of the library's own types (and every text made of such) reads as without them. _Axioms: propext, Classical.choice, Quot.sound._
* `C81_reads_up_to_terminator` (lean/Verif/Props/Custom.lean) — A value that writes a text and the terminator (0xFF), the bytes 0xFE and 0xFF not occurring in the text, reads as that text, each ill-formed sequence being replaced by U+FFFD; what it writes after the terminator does not matter. _Axioms: propext, Classical.choice, Quot.sound._
* `C81_format_followed` (lean/Verif/Props/Custom.lean) — So a value that writes what the library writes for a string reads as that string. _Axioms: propext, Classical.choice, Quot.sound._
* `C81_runs_on` (lean/Verif/Props/Custom.lean) — A value that forgets the terminator runs on into the next string; that one still reads as it should. _Axioms: propext, Classical.choice, Quot.sound._
* `C81_unterminated_at_end` (lean/Verif/Props/Custom.lean) — If nothing follows, the two ways of reading it disagree: one gives `<invalid>`, the other panics. _Axioms: propext, Classical.choice, Quot.sound._
* `C81_profile_shown` (lean/Verif/Props/CustomProfile.lean) — **C81** (profiler). A value of one of the program's own types that writes its text, the terminator and anything after it, passed to the profiler's `alloc_string`: its id denotes the text, and is shown as the text. With it all theorems about what tools show (C29, C62, C63) hold for events that are named by such values. _Axioms: propext, Classical.choice, Quot.sound._
* `C81_profile_composite` (lean/Verif/Props/CustomProfile.lean) — **C81** (profiler). Such a value may also refer to other strings, in the documented encoding: it denotes what the library's own string with the same components would denote. _Axioms: propext, Classical.choice, Quot.sound._

## C82 What a callback that panics leaves behind (proved)

* `C82_profiler_threads` (lean/Verif/Props/ActThreads.lean) — **C82** (threads sharing a profiler: one order). Whatever the threads do, whichever of their values panic and however the threads are scheduled, there is one order of all their calls, agreeing with each thread's own order and with real time, such that the file reads like that of a single thread making the calls, the panicking ones included, in that order, and every thread gets the answers that the single thread gets. _Axioms: propext, Classical.choice, Quot.sound._
* `C82_profiler_threads_execute` (lean/Verif/Props/ActThreads.lean) — **C82** (threads sharing a profiler: no deadlock). A panic leaves no lock held: every such program can be executed to its end, and from every state any schedule reaches it can be finished. _Axioms: propext, Classical.choice, Quot.sound._
* `C82_profiler_threads_answers` (lean/Verif/Props/ActThreads.lean) — **C82** (threads sharing a profiler: answers). There is an order of the calls that do not panic, agreeing with each thread's own order, such that these calls get, on every thread, exactly the answers (string ids included) of a single thread that makes only them, in that order; the others panic with their value's own panic, on the thread that made them. If the values that panicked had asked for no space, or for more than a page, the file reads like that of this single thread. _Axioms: propext, Classical.choice, Quot.sound._
* `C82_profiler_threads_shows` (lean/Verif/Props/ActThreads.lean) — **C82** (threads sharing a profiler: what can be relied on). Whichever values panic, on whichever threads: the file opens and shows the metadata and all events of all threads, each thread's under its id in its order, with their values; of the strings, those stored before the first panic (in the order of the calls), and everything made of them, read as ever. _Axioms: propext, Classical.choice, Quot.sound._
* `C82_profiler_threads_streams` (lean/Verif/Props/ActThreads.lean) — **C82** (threads sharing a profiler: streams). In every such execution there is an order of the calls for which the file's events and index are those of a single thread making only the calls that did not panic; the string data is the strings of all threads in this order, with what the panicking values had written (if they asked for at most a page) in between. _Axioms: propext, Classical.choice, Quot.sound._
* `C82_streams` (lean/Verif/Props/Panics.lean) — **C82** (streams). After any history with any number of panicking callbacks the store still splits, and the stream of every flushed sink with its own tag is what its calls left: their data and, for every callback of at most a page that panicked, the contents of its slice at that moment. _Axioms: propext, Classical.choice, Quot.sound._
* `C82_outcomes` (lean/Verif/Props/Panics.lean) — **C82** (outcomes). A call fails exactly if its own callback panics, with that panic, however many callbacks panicked before; a write that succeeds returns the number of bytes *successfully* written to the sink before it. _Axioms: propext, Classical.choice, Quot.sound._
* `C82_addresses` (lean/Verif/Props/Panics.lean) — **C82** (addresses). A write whose callback does not panic returns an address `a` and its bytes are in the stream at `a` plus the sizes of the slices of at most a page whose callbacks panicked before, on this sink: the addresses of a sink are right up to the first such panic, and wrong (too small, by that much) for ever after it. Panics in other sinks' callbacks, and in callbacks of more than a page, do no harm. _Axioms: propext, Classical.choice, Quot.sound._
* `C82_no_drift` (lean/Verif/Props/Panics.lean) — **C82** (when the addresses are right). Nothing drifts exactly as long as no callback of one to 262 144 bytes panicked on this sink. _Axioms: propext, Classical.choice, Quot.sound._
* `C82_strings_after_a_panic` (lean/Verif/Props/Panics.lean) — **C82** (strings). The strings stored after such a panic are wrong, although every call on them succeeded and the file opens: here the first reads as what the panicking value had written and its text, and the second reads as the *first*. _Axioms: propext, Classical.choice, Quot.sound._
* `C82_threads` (lean/Verif/Props/PanicsThreads.lean) — **C82** (threads). Threads that catch the panics of their callbacks and go on: whatever the schedule, when all have finished the store splits, and stream and buffer of every sink with its own tag hold what the calls left, in the linearized order. Exactly the calls whose callbacks panicked failed, each with its own panic; a write that returned `a` is found at `a` plus the slices of the panics that came before it on this sink, on any thread: one thread's panic makes all threads' later addresses wrong. _Axioms: propext, Classical.choice, Quot.sound._
* `C82_profiler_answers` (lean/Verif/Props/ProfPanics.lean) — **C82** (profiler: answers). A program that catches panics of its own `SerializableString`s gets, for all other calls on the profiler, exactly the answers (string ids included) it would get without the calls that panicked; those panic with the value's own panic. _Axioms: propext, Classical.choice, Quot.sound._
* `C82_profiler_streams` (lean/Verif/Props/ProfPanics.lean) — **C82** (profiler: streams). The events and the index of its file are exactly those of the file without the calls that panicked. The string data is that of the file without them, with what the panicking values had written (if they asked for at most a page) inserted. _Axioms: propext, Classical.choice, Quot.sound._
* `C82_profiler_harmless` (lean/Verif/Props/ProfPanics.lean) — **C82** (profiler: when nothing is lost). If the values that panicked had asked for no space, or for more than a page, the file reads like the one without them. _Axioms: propext, Classical.choice, Quot.sound._
* `C82_profiler_shows` (lean/Verif/Props/ProfPanics.lean) — **C82** (profiler: what can be relied on). Whatever happens after the first value that panics: the file opens and shows the metadata and all events, before and after it, with their threads and values; the strings stored before it, and everything made of them, read as ever. _Axioms: propext, Classical.choice, Quot.sound._

## C83 Reading a sink back is like dropping it (proved)

* `C83_like_dropping` (lean/Verif/Props/ReadBack.lean) — **C83** (the store). Whatever state the sinks are in and whatever the store does (any write may fail, after any number of bytes), `into_bytes` leaves in the store, file or memory, exactly what dropping the sink would leave, fails if that would fail, with the same error, does not touch other sinks, and nothing of this sink remains to be written later. _Axioms: propext, Quot.sound._
* `C83_file` (lean/Verif/Props/ReadBack.lean) — **C83** (files). On a file it always panics; if the store does not fail, the data is in the file all the same. _Axioms: propext, Quot.sound._
* `C83_memory` (lean/Verif/Props/ReadBack.lean) — **C83** (memory). In memory, after any history of calls on any number of sinks (callbacks that panicked included), `into_bytes` gives what the calls on this sink left, if no other sink shares its tag, whether it had been flushed or not; and in any case what splitting the store then gives for its tag. _Axioms: propext, Classical.choice, Quot.sound._

## C84 Callbacks that use sinks themselves (proved)

* `C84_ordered` (lean/Verif/Props/Reentrant.lean) — **C84** (an order of the sinks). If the sinks have an order such that calls are only ever made on sinks that come after those whose callbacks are running, then however the threads' steps interleave, they do not deadlock: every execution can go on to the end, and does, since no execution is infinite. _Axioms: propext, Classical.choice, Quot.sound._
* `C84_one_thread_ends` (lean/Verif/Props/Reentrant.lean) — **C84** (one thread). If no callback uses a sink that is locked by a callback around it, a single thread runs to the end, whatever the order of the sinks. _Axioms: propext, Classical.choice, Quot.sound._
* `C84_one_thread` (lean/Verif/Props/Reentrant.lean) — **C84** (one thread, what is written). Then everything is as if the calls had been made one after the other, those of a callback before the call it belongs to (and, where a callback had to wait for room in its buffer, a flush before them): same answers, same sinks, same store. So the store splits, and the stream of every flushed sink with its own tag is what its calls left, in that order. _Axioms: propext, Classical.choice, Quot.sound._
* `C84_own_sink` (lean/Verif/Props/Reentrant.lean) — **C84** (its own sink). A thread that, whatever answers it gets, makes a call on a sink that a callback around the call has locked never comes to its end, whatever the other threads do. _Axioms: propext, Classical.choice, Quot.sound._
* `C84_locked_out` (lean/Verif/Props/Reentrant.lean) — **C84** (its own sink, the others). A thread that waits for a sink it has locked itself waits for ever, and so does every thread that comes to need that sink: no later state has the sink unlocked. _Axioms: propext, Classical.choice, Quot.sound._
* `C84_crossed_orders` (lean/Verif/Props/Reentrant.lean) — **C84** (why an order). With several threads it is not enough that no callback uses a sink locked around it: these two threads may block each other for ever. _Axioms: propext, Quot.sound._
* `C84_threads` (lean/Verif/Props/ReentrantThreads.lean) — **C84** (several threads, what is written). If all threads have come to their end, everything is as if all calls had been made one after the other in some order `H` in which every thread's calls are those its program makes, in its order, those of a callback before the call it belongs to: same answers, same sinks, and for every sink with its own tag the same pages; so the store splits, and the stream of every flushed sink is what its calls left, in this order. _Axioms: propext, Classical.choice, Quot.sound._
* `C84_in_real_time` (lean/Verif/Props/ReentrantThreads.lean) — **C84** (in real time). The order can be chosen such that it only grows while the threads run: at any moment on the way, `σ₁`, the calls so far (`H₁`) account for what the sinks that are not locked hold and for all calls of the threads that have come to their end, and the calls of threads that have not begun come later. So a thread that is started after another has ended is after it in the order. _Axioms: propext, Classical.choice, Quot.sound._
* `C84_never_torn` (lean/Verif/Props/ReentrantThreads.lean) — **C84** (at any moment). Whatever callbacks do, also when threads are blocked for ever, the store is complete well-formed pages, followed by the beginning of at most one that is being written; for every sink the complete pages are the first of those of a sequential order of calls that the threads' programs make first. _Axioms: propext, Classical.choice, Quot.sound._

## C85 Collapsed stacks do not depend on how threads interleave (proved)

* `C85_interleaving` (lean/Verif/Props/InterleaveCollapse.lean) — Two streams of any shape with the same events in the same order on each thread: if the tool returns on both, it reports the same stacks with the same values, in debug and release builds. _Axioms: propext, Classical.choice, Quot.sound._
* `C85_release_returns` (lean/Verif/Props/InterleaveCollapse.lean) — In a release build the tool returns on every interleaving if it does on one. _Axioms: propext, Classical.choice, Quot.sound._
* `C85_nested` (lean/Verif/Props/InterleaveCollapse.lean) — With overflow checks that is so for properly nested streams. _Axioms: propext, Classical.choice, Quot.sound._
* `C85_panic_depends` (lean/Verif/Props/InterleaveCollapse.lean) — For other streams the debug build may panic on one interleaving and return on another, since the threads share the counters of their paths; the release build reports the same on both. _Axioms: propext, Classical.choice, Quot.sound._
* `C85_tool` (lean/Verif/Props/ToolOrder.lean) — Whole runs: if `stack_collapse` succeeds on two profiles whose threads recorded the same events, interleaved differently, the two files it writes have the same lines, in some order (that of a hash map). _Axioms: propext, Classical.choice, Quot.sound._

## C86 An event that cannot be decoded hides no other (proved)

* `C86_lightweight_total` (lean/Verif/Props/CaughtIteration.lean) — Whatever the event stream holds, once the number of events is known the light-weight form of every event can be had; it carries the event's index, by which it is decoded in full. _Axioms: propext, Classical.choice, Quot.sound._
* `C86_each_event_once` (lean/Verif/Props/CaughtIteration.lean) — Whatever the profile holds: a program that iterates over its full events from either end in any pattern, and catches the panics of those that cannot be decoded, gets for every event exactly once either the event or the panic of its own decoding; an event that cannot be decoded hides no other, and the remaining number is always right. _Axioms: propext, Classical.choice, Quot.sound._
* `C86_all_in_order` (lean/Verif/Props/CaughtIteration.lean) — In particular, `k` calls of `next` give the `k` events in recording order, each of them or its panic. _Axioms: propext, Classical.choice, Quot.sound._
* `C86_any_decoder` (lean/Verif/Props/CaughtIteration.lean) — With a decoder whose light-weight form can panic too (as an old format's may), the two ends differ: an event that cannot be decoded is met again by every further `next`, while `next_back` passes over it. _Axioms: propext, Quot.sound._
* `C86_front_is_stuck` (lean/Verif/Props/CaughtIteration.lean) — So a loop over `next` never gets past such an event. _Axioms: propext, Classical.choice, Quot.sound._

## C87 crox does not depend on how threads interleave (proved)

* `C87_lanes` (lean/Verif/Props/CroxOrder.lean) — If no two threads begin or end at one moment, the lanes do not depend on how the threads' events interleave, nor on the order in which the hash map of threads is walked. _Axioms: propext, Classical.choice, Quot.sound._
* `C87_lane_count` (lean/Verif/Props/CroxOrder.lean) — In any case the number of lanes does not depend on either. _Axioms: propext, Classical.choice, Quot.sound._
* `C87_ties_need_the_hash_order` (lean/Verif/Props/CroxOrder.lean) — Two threads that begin and end together: then it is the order of the hash map that decides which gets lane 0, for one and the same stream of events. _Axioms: propext, Classical.choice, Quot.sound._
* `C87_records` (lean/Verif/Props/CroxOrder.lean) — crox accepts all interleavings of the threads' events or none; it writes the same records, if in another order. _Axioms: propext, Classical.choice, Quot.sound._
* `C87_thread_order` (lean/Verif/Props/CroxOrder.lean) — Without the flag the records of each thread even come in the same order. _Axioms: propext, Classical.choice, Quot.sound._
* `C87_tool` (lean/Verif/Props/CroxOrder.lean) — The whole run: two profiles with the same metadata whose threads recorded the same events, interleaved differently. If, in case threads are to be collapsed, no two begin or end together, crox emits the same records, in some order, and names and sorts the process alike. _Axioms: propext, Classical.choice, Quot.sound._
