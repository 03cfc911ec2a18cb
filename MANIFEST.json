{
 "claims": [
  {
   "property": "C01",
   "status": "proved",
   "theorems": [
    "Verif.Props.C01_split_recovers_streams",
    "Verif.Props.C01_unflushed_is_prefix"
   ],
   "note": ""
  },
  {
   "property": "C02",
   "status": "proved",
   "theorems": [
    "Verif.Props.C02_returned_address",
    "Verif.Props.C02_address_locates_data"
   ],
   "note": ""
  },
  {
   "property": "C03",
   "status": "proved",
   "theorems": [
    "Verif.Props.C03_pages_wellformed"
   ],
   "note": ""
  },
  {
   "property": "C04",
   "status": "proved",
   "theorems": [
    "Verif.Props.C04_append_only",
    "Verif.Props.C04_crash_prefix",
    "Verif.Props.C04_crash_written_prefix"
   ],
   "note": ""
  },
  {
   "property": "C05",
   "status": "proved",
   "theorems": [
    "Verif.Props.C05_write_paths_interchangeable"
   ],
   "note": ""
  },
  {
   "property": "C06",
   "status": "proved",
   "theorems": [
    "Verif.Props.C06_record_in_one_page",
    "Verif.Props.C06_pages_hold_whole_records",
    "Verif.Props.C06_profiler_pages",
    "Verif.Props.C06_threads"
   ],
   "note": ""
  },
  {
   "property": "C07",
   "status": "proved",
   "theorems": [
    "Verif.Props.C07_split_accepts_iff",
    "Verif.Props.C07_split_otherwise_panics",
    "Verif.Props.C07_pages_unique"
   ],
   "note": ""
  },
  {
   "property": "C08",
   "status": "proved",
   "theorems": [
    "Verif.Props.C08_linearizable",
    "Verif.Props.C08_pages_never_torn",
    "Verif.Props.C08_final_state",
    "Verif.Props.C08_same_pages",
    "Verif.Props.C08_concurrent_writes_recovered",
    "Verif.Props.C08_no_deadlock",
    "Verif.Props.C08_bounded_steps",
    "Verif.Props.C08_always_finishes",
    "Verif.Props.C08_raw_page_order_not_sequential"
   ],
   "note": ""
  },
  {
   "property": "C09",
   "status": "proved",
   "theorems": [
    "Verif.Props.C09_failure_is_loud",
    "Verif.Props.C09_never_overwrites",
    "Verif.Props.C09_stored_data_stays_first",
    "Verif.Props.C09_clean_failure_loses_nothing",
    "Verif.Props.C09_first_failure_prefix",
    "Verif.Props.C09_first_failure_reads_prefix",
    "Verif.Props.C09_io_failure_corrupts",
    "Verif.Props.C09_callback_panic_desynchronises"
   ],
   "note": "The stronger wish (streams stay prefixes even if the process goes on after a torn page) is false of the code: C09_io_failure_corrupts and C09_callback_panic_desynchronises are witnesses."
  },
  {
   "property": "C10",
   "status": "proved",
   "theorems": [
    "Verif.Props.C10_sinks_independent",
    "Verif.Props.C10_shared_tag_addresses_wrong",
    "Verif.Props.C10_shared_tag_streams",
    "Verif.Props.C10_shared_tag_addresses",
    "Verif.Props.C10_shared_tag_tears"
   ],
   "note": "Independence proved; the shared-tag hazard is proved by a witness. Addresses: C02_returned_address holds without the tag hypothesis."
  },
  {
   "property": "C11",
   "status": "proved",
   "theorems": [
    "Verif.Props.C11_magics_documented",
    "Verif.Props.C11_header_bytes",
    "Verif.Props.C11_verify_iff",
    "Verif.Props.C11_write_then_verify",
    "Verif.Props.C11_read_iff",
    "Verif.Props.C11_kinds_exclusive"
   ],
   "note": ""
  },
  {
   "property": "C12",
   "status": "proved",
   "theorems": [
    "Verif.Props.C12_plain_string_reads_back",
    "Verif.Props.C12_reading_is_faithful",
    "Verif.Props.C12_alloc_succeeds"
   ],
   "note": ""
  },
  {
   "property": "C13",
   "status": "proved",
   "theorems": [
    "Verif.Props.C13_composite_reads_as_concatenation",
    "Verif.Props.C13_meaning_unique"
   ],
   "note": ""
  },
  {
   "property": "C14",
   "status": "proved",
   "theorems": [
    "Verif.Props.C14_to_string_exact",
    "Verif.Props.C14_readers_agree",
    "Verif.Props.C14_mistaken_shows_reference",
    "Verif.Props.C14_stored_somewhere",
    "Verif.Props.C14_never_mistaken",
    "Verif.Props.C14_readers_disagree"
   ],
   "note": "The unconditional claim is false of the code (C14_readers_disagree is a session on which to_string drops text); the exact condition is proved: C14_to_string_exact."
  },
  {
   "property": "C15",
   "status": "proved",
   "theorems": [
    "Verif.Props.C15_latest_mapping_wins",
    "Verif.Props.C15_unmapped_is_unknown",
    "Verif.Props.C15_bound_or_unbound"
   ],
   "note": ""
  },
  {
   "property": "C16",
   "status": "proved",
   "theorems": [
    "Verif.Props.C16_bulk_equals_single"
   ],
   "note": ""
  },
  {
   "property": "C17",
   "status": "proved",
   "theorems": [
    "Verif.Props.C17_mapping_guard",
    "Verif.Props.C17_bulk_guard",
    "Verif.Props.C17_metadata_is_last_metadata",
    "Verif.Props.C17_regular_ids_disjoint",
    "Verif.Props.C17_new_virtual"
   ],
   "note": ""
  },
  {
   "property": "C18",
   "status": "proved",
   "theorems": [
    "Verif.Props.C18_ids_addresses_inverse",
    "Verif.Props.C18_ids_count_bytes",
    "Verif.Props.C18_allocations_distinct"
   ],
   "note": ""
  },
  {
   "property": "C19",
   "status": "proved",
   "theorems": [
    "Verif.Props.C19_terminates_iff_well_founded",
    "Verif.Props.C19_cycle_diverges"
   ],
   "note": "The model's fuel is the reader's stack; divergence means that no amount of stack suffices."
  },
  {
   "property": "C20",
   "status": "proved",
   "theorems": [
    "Verif.Props.C20_markers_not_in_text",
    "Verif.Props.C20_marker_is_not_text",
    "Verif.Props.C20_utf8_is_standard",
    "Verif.Props.C20_validator_exact",
    "Verif.Props.C20_lossy"
   ],
   "note": ""
  },
  {
   "property": "C21",
   "status": "proved",
   "theorems": [
    "Verif.Props.C21_event_id_text",
    "Verif.Props.C21_event_id_round_trip",
    "Verif.Props.C21_mistaken_loses_arguments",
    "Verif.Props.C21_far_is_ordinary",
    "Verif.Props.C21_one_argument",
    "Verif.Props.C21_label_round_trip",
    "Verif.Props.C21_arguments_lost"
   ],
   "note": "The unconditional claim is false of the code (C21_arguments_lost); the exact condition is proved."
  },
  {
   "property": "C22",
   "status": "proved",
   "theorems": [
    "Verif.Props.C22_parse_characterised",
    "Verif.Props.C22_fields_unique",
    "Verif.Props.C22_lossless_iff_grammar",
    "Verif.Props.C22_parse_never_panics"
   ],
   "note": ""
  },
  {
   "property": "C23",
   "status": "proved",
   "theorems": [
    "Verif.Props.C23_documented_but_rejected_iff",
    "Verif.Props.C23_accepted_is_documented",
    "Verif.Props.C23_vertical_tab_rejected"
   ],
   "note": "The documented and the accepted grammar differ exactly at U+000B."
  },
  {
   "property": "C24",
   "status": "proved",
   "theorems": [
    "Verif.Props.C24_interval_roundtrip",
    "Verif.Props.C24_instant_roundtrip",
    "Verif.Props.C24_integer_roundtrip",
    "Verif.Props.C24_decode_payload",
    "Verif.Props.C24_payloads_determine_event",
    "Verif.Props.C24_payloads_surjective",
    "Verif.Props.C24_kinds_disjoint"
   ],
   "note": ""
  },
  {
   "property": "C25",
   "status": "proved",
   "theorems": [
    "Verif.Props.C25_interval_guard",
    "Verif.Props.C25_instant_guard",
    "Verif.Props.C25_integer_guard"
   ],
   "note": ""
  },
  {
   "property": "C26",
   "status": "proved",
   "theorems": [
    "Verif.Props.C26_roundtrip",
    "Verif.Props.C26_bijection",
    "Verif.Props.C26_layout"
   ],
   "note": ""
  },
  {
   "property": "C27",
   "status": "proved",
   "theorems": [
    "Verif.Props.C27_contains_meaning",
    "Verif.Props.C27_contains_order",
    "Verif.Props.C27_duration",
    "Verif.Props.C27_timestamp_half_open",
    "Verif.Props.C27_start_and_end",
    "Verif.Props.C27_kind_exactly_one",
    "Verif.Props.C27_reversed_interval_no_duration"
   ],
   "note": ""
  },
  {
   "property": "C28",
   "status": "proved",
   "theorems": [
    "Verif.Props.C28_iteration_is_list",
    "Verif.Props.C28_each_event_once",
    "Verif.Props.C28_collects_all",
    "Verif.Props.C28_full_and_lightweight_agree",
    "Verif.Props.C28_number_of_events",
    "Verif.Props.C28_events_are_records",
    "Verif.Props.C28_every_stream_has_records",
    "Verif.Props.C28_recorded_order"
   ],
   "note": ""
  },
  {
   "property": "C29",
   "status": "proved",
   "theorems": [
    "Verif.Props.C29_profile_round_trip",
    "Verif.Props.C29_proper_fields",
    "Verif.Props.C29_every_text_has_fields",
    "Verif.Props.C29_every_meaning_is_shown",
    "Verif.Props.C29_shown_in_full",
    "Verif.Props.C29_plain_shown",
    "Verif.Props.C29_event_id_shown",
    "Verif.Props.C29_recorded_iff_ok"
   ],
   "note": "The exact conditions: command lines that survive escaping (C32_opens_iff_plain) and texts as shown by to_string (C14_to_string_exact)."
  },
  {
   "property": "C30",
   "status": "proved",
   "theorems": [
    "Verif.Props.C30_accepted_versions",
    "Verif.Props.C30_rejected_versions",
    "Verif.Props.C30_conversion_preserves",
    "Verif.Props.C30_current_dispatch"
   ],
   "note": "The v8 decoder is an external crate: modelled as arbitrary functions."
  },
  {
   "property": "C31",
   "status": "proved",
   "theorems": [
    "Verif.Props.C31_scoped_intervals_nest",
    "Verif.Props.C31_finish_records",
    "Verif.Props.C31_finish_never_panics"
   ],
   "note": ""
  },
  {
   "property": "C32",
   "status": "proved",
   "theorems": [
    "Verif.Props.C32_opens_iff_plain",
    "Verif.Props.C32_unreadable_profiles",
    "Verif.Props.C32_metadata_text"
   ],
   "note": "The desired claim is false; the exact condition is proved (C32_opens_iff_plain) and the failure shown (C32_unreadable_profiles)."
  },
  {
   "property": "C33",
   "status": "proved",
   "theorems": [
    "Verif.Props.C33_built_profile",
    "Verif.Props.C33_bad_values_panic"
   ],
   "note": ""
  },
  {
   "property": "C34",
   "status": "proved",
   "theorems": [
    "Verif.Props.C34_self_time",
    "Verif.Props.C34_children_fit",
    "Verif.Props.C34_labels"
   ],
   "note": ""
  },
  {
   "property": "C35",
   "status": "proved",
   "theorems": [
    "Verif.Props.C35_conserved",
    "Verif.Props.C35_within_total",
    "Verif.Props.C35_self_le_time"
   ],
   "note": ""
  },
  {
   "property": "C36",
   "status": "proved",
   "theorems": [
    "Verif.Props.C36_interleaving",
    "Verif.Props.C36_nested"
   ],
   "note": "For streams that are not properly nested an interleaving may panic while another does not (the subtraction panics depend on the order); if both return they agree."
  },
  {
   "property": "C37",
   "status": "proved",
   "theorems": [
    "Verif.Props.C37_counts",
    "Verif.Props.C37_incremental"
   ],
   "note": ""
  },
  {
   "property": "C38",
   "status": "proved",
   "theorems": [
    "Verif.Props.C38_total_time",
    "Verif.Props.C38_total_never_fails"
   ],
   "note": ""
  },
  {
   "property": "C39",
   "status": "proved",
   "theorems": [
    "Verif.Props.C39_artifact_sizes",
    "Verif.Props.C39_exact"
   ],
   "note": ""
  },
  {
   "property": "C40",
   "status": "proved",
   "theorems": [
    "Verif.Props.C40_nested_never_panics",
    "Verif.Props.C40_reversed_panics",
    "Verif.Props.C40_overlap_panics",
    "Verif.Props.C40_returns_iff",
    "Verif.Props.C40_otherwise_panics",
    "Verif.Props.C40_any_stream",
    "Verif.Props.C40_nested_holder",
    "Verif.Props.C40_silently_wrong"
   ],
   "note": "The desired claim (the self times for every stream) is false of the code; the witnesses are C40_overlap_panics and C40_silently_wrong. Proved: exactly when the analysis returns, what its numbers are on any stream, and that on properly nested streams it never panics."
  },
  {
   "property": "C41",
   "status": "proved",
   "theorems": [
    "Verif.Props.C41_any_stream",
    "Verif.Props.C41_any_stream_exact",
    "Verif.Props.C41_release_returns_iff",
    "Verif.Props.C41_checked_returns_iff",
    "Verif.Props.C41_otherwise_panics",
    "Verif.Props.C41_nested_paths",
    "Verif.Props.C41_profile_any",
    "Verif.Props.C41_collapsed",
    "Verif.Props.C41_profile",
    "Verif.Props.C41_any_profile",
    "Verif.Props.C41_id_never_underflows",
    "Verif.Props.C41_overlap_wraps",
    "Verif.Props.C41_end_not_updated"
   ],
   "note": ""
  },
  {
   "property": "C42",
   "status": "proved",
   "theorems": [
    "Verif.Props.C42_any_stream",
    "Verif.Props.C42_agrees"
   ],
   "note": ""
  },
  {
   "property": "C43",
   "status": "proved",
   "theorems": [
    "Verif.Props.C43_lanes_apart",
    "Verif.Props.C43_identity"
   ],
   "note": ""
  },
  {
   "property": "C44",
   "status": "proved",
   "theorems": [
    "Verif.Props.C44_fewest_lanes"
   ],
   "note": ""
  },
  {
   "property": "C45",
   "status": "proved",
   "theorems": [
    "Verif.Props.C45_emits",
    "Verif.Props.C45_panics_iff",
    "Verif.Props.C45_args_distinct",
    "Verif.Props.C45_crate_name",
    "Verif.Props.C45_profile",
    "Verif.Props.C45_other_texts_unread"
   ],
   "note": ""
  },
  {
   "property": "C46",
   "status": "proved",
   "theorems": [
    "Verif.Props.C46_extrema",
    "Verif.Props.C46_zero_panics"
   ],
   "note": ""
  },
  {
   "property": "C47",
   "status": "proved",
   "theorems": [
    "Verif.Props.C47_points",
    "Verif.Props.C47_in_time_order",
    "Verif.Props.C47_gaps_sum",
    "Verif.Props.C47_in_time_order_iff"
   ],
   "note": ""
  },
  {
   "property": "C48",
   "status": "proved",
   "theorems": [
    "Verif.Props.C48_succeeds_iff",
    "Verif.Props.C48_describe_never_panics",
    "Verif.Props.C48_otherwise_panics",
    "Verif.Props.C48_no_profiles",
    "Verif.Props.C48_succeeds_iff_recorded"
   ],
   "note": ""
  },
  {
   "property": "C49",
   "status": "proved",
   "theorems": [
    "Verif.Props.C49_report",
    "Verif.Props.C49_whenever"
   ],
   "note": ""
  },
  {
   "property": "C50",
   "status": "proved",
   "theorems": [
    "Verif.Props.C50_difference",
    "Verif.Props.C50_huge_sizes_wrap"
   ],
   "note": "For results with times below 2^64 ns and counts and sizes below 2^63; C50_huge_sizes_wrap shows the bound is needed."
  },
  {
   "property": "C51",
   "status": "proved",
   "theorems": [
    "Verif.Props.C51_antisymmetric",
    "Verif.Props.C51_self_is_zero",
    "Verif.Props.C51_subtraction",
    "Verif.Props.C51_signed_zero"
   ],
   "note": ""
  },
  {
   "property": "C52",
   "status": "proved",
   "theorems": [
    "Verif.Props.C52_json_iff",
    "Verif.Props.C52_missing_json",
    "Verif.Props.C52_extension_not_recognised",
    "Verif.Props.C52_saved_results_not_read"
   ],
   "note": "The desired claim is false (C52_extension_not_recognised, C52_saved_results_not_read); the exact condition is C52_json_iff."
  },
  {
   "property": "C53",
   "status": "proved",
   "theorems": [
    "Verif.Props.C53_columns",
    "Verif.Props.C53_hashing_exact",
    "Verif.Props.C53_hashing_hidden"
   ],
   "note": "The wish (hashing column shown whenever there is data) is false of the code: C53_hashing_hidden; the exact condition is C53_hashing_exact."
  },
  {
   "property": "C54",
   "status": "proved",
   "theorems": [
    "Verif.Props.C54_rows",
    "Verif.Props.C54_limits",
    "Verif.Props.C54_floats"
   ],
   "note": ""
  },
  {
   "property": "C55",
   "status": "proved",
   "theorems": [
    "Verif.Props.C55_truncates",
    "Verif.Props.C55_streams",
    "Verif.Props.C55_idempotent",
    "Verif.Props.C55_other_versions",
    "Verif.Props.C55_current_files_refused"
   ],
   "note": ""
  },
  {
   "property": "C56",
   "status": "proved",
   "theorems": [
    "Verif.Props.C56_prints_events",
    "Verif.Props.C56_no_events",
    "Verif.Props.C56_any_profile"
   ],
   "note": ""
  },
  {
   "property": "C57",
   "status": "proved",
   "theorems": [
    "Verif.Props.C57_modulo",
    "Verif.Props.C57_exact",
    "Verif.Props.C57_exact_or_refused",
    "Verif.Props.C57_wall_time",
    "Verif.Props.C57_register"
   ],
   "note": "The hardware (rdpmc) is a parameter: the register shows the true count modulo 2^48."
  },
  {
   "property": "C58",
   "status": "proved",
   "theorems": [
    "Verif.Props.C58_folded_readable",
    "Verif.Props.C58_readable_iff",
    "Verif.Props.C58_flamegraph_lines"
   ],
   "note": ""
  },
  {
   "property": "C59",
   "status": "proved",
   "theorems": [
    "Verif.Props.C59_profiler_path",
    "Verif.Props.C59_reads_what_was_written",
    "Verif.Props.C59_extensions_collide",
    "Verif.Props.C59_truncated_file"
   ],
   "note": "Paths are byte strings as on Unix."
  },
  {
   "property": "C60",
   "status": "proved",
   "theorems": [
    "Verif.Props.C60_excluded"
   ],
   "note": ""
  },
  {
   "property": "C61",
   "status": "proved",
   "theorems": [
    "Verif.Props.C61_names",
    "Verif.Props.C61_interrupts",
    "Verif.Props.C61_instructions",
    "Verif.Props.C61_raw0420",
    "Verif.Props.C61_never_panics",
    "Verif.Props.C61_warned",
    "Verif.Props.C61_elsewhere"
   ],
   "note": ""
  },
  {
   "property": "C62",
   "status": "proved",
   "theorems": [
    "Verif.Props.C62_read_back",
    "Verif.Props.C62_summarize",
    "Verif.Props.C62_stack_collapse",
    "Verif.Props.C62_crox",
    "Verif.Props.C62_aggregate_ready",
    "Verif.Props.C62_diff"
   ],
   "note": ""
  },
  {
   "property": "C63",
   "status": "proved",
   "theorems": [
    "Verif.Props.C63_as_one_thread",
    "Verif.Props.C63_executes",
    "Verif.Props.C63_tools",
    "Verif.Props.C63_recorded",
    "Verif.Props.C63_scoped",
    "Verif.Props.C63_session",
    "Verif.Props.C63_summarize",
    "Verif.Props.C63_stack_collapse",
    "Verif.Props.C63_crox"
   ],
   "note": ""
  },
  {
   "property": "C64",
   "status": "proved",
   "theorems": [
    "Verif.Props.C64_same_structure",
    "Verif.Props.C64_reruns",
    "Verif.Props.C64_ties_panic"
   ],
   "note": ""
  },
  {
   "property": "C65",
   "status": "proved",
   "theorems": [
    "Verif.Props.C65_passes_iff",
    "Verif.Props.C65_passes",
    "Verif.Props.C65_ids"
   ],
   "note": ""
  },
  {
   "property": "C66",
   "status": "proved",
   "theorems": [
    "Verif.Props.C66_header",
    "Verif.Props.C66_pages",
    "Verif.Props.C66_streams",
    "Verif.Props.C66_index_size",
    "Verif.Props.C66_opens",
    "Verif.Props.C66_all_cases",
    "Verif.Props.C66_no_metadata"
   ],
   "note": ""
  },
  {
   "property": "C67",
   "status": "proved",
   "theorems": [
    "Verif.Props.C67_threads_every_moment",
    "Verif.Props.C67_threads_cut",
    "Verif.Props.C67_threads_killed",
    "Verif.Props.C67_threads_lose_at_most",
    "Verif.Props.C67_cut",
    "Verif.Props.C67_opens_iff",
    "Verif.Props.C67_killed_is_cut",
    "Verif.Props.C67_killed_loses_at_most",
    "Verif.Props.C67_killed_early",
    "Verif.Props.C67_killed_late",
    "Verif.Props.C67_torn_index"
   ],
   "note": ""
  },
  {
   "property": "C68",
   "status": "proved",
   "theorems": [
    "Verif.Props.C68_trace_file",
    "Verif.Props.C68_failed_run_leaves_no_json",
    "Verif.Props.C68_directory_files",
    "Verif.Props.C68_sessions_succeed"
   ],
   "note": ""
  },
  {
   "property": "C69",
   "status": "proved",
   "theorems": [
    "Verif.Props.C69_saved_document",
    "Verif.Props.C69_round_trip",
    "Verif.Props.C69_any_layout",
    "Verif.Props.C69_not_json_refused",
    "Verif.Props.C69_results_fit",
    "Verif.Props.C69_diff_of_saved",
    "Verif.Props.C69_sessions_saved"
   ],
   "note": ""
  },
  {
   "property": "C70",
   "status": "proved",
   "theorems": [
    "Verif.Props.C70_one_file",
    "Verif.Props.C70_profiles_kept",
    "Verif.Props.C70_mmedit_keeps_input",
    "Verif.Props.C70_not_created",
    "Verif.Props.C70_failure_leaves_files",
    "Verif.Props.C70_no_interference",
    "Verif.Props.C70_repeatable"
   ],
   "note": ""
  },
  {
   "property": "C71",
   "status": "proved",
   "theorems": [
    "Verif.Props.C71_document",
    "Verif.Props.C71_null_changes",
    "Verif.Props.C71_same_path"
   ],
   "note": ""
  },
  {
   "property": "C72",
   "status": "proved",
   "theorems": [
    "Verif.Props.C72_linearizable",
    "Verif.Props.C72_final_state",
    "Verif.Props.C72_failures_are_loud",
    "Verif.Props.C72_no_deadlock",
    "Verif.Props.C72_bounded_steps",
    "Verif.Props.C72_never_overwrites",
    "Verif.Props.C72_first_failure",
    "Verif.Props.C72_profile_after_first_failure"
   ],
   "note": ""
  },
  {
   "property": "C73",
   "status": "proved",
   "theorems": [
    "Verif.Props.C73_one_moment",
    "Verif.Props.C73_counter_creation",
    "Verif.Props.C73_returns",
    "Verif.Props.C73_retries_only_on_updates",
    "Verif.Props.C73_torn_during_update",
    "Verif.Props.C73_torn_after_wraparound"
   ],
   "note": ""
  },
  {
   "property": "C74",
   "status": "proved",
   "theorems": [
    "Verif.Props.C74_durations_exact",
    "Verif.Props.C74_two_decimals",
    "Verif.Props.C74_order",
    "Verif.Props.C74_summarize",
    "Verif.Props.C74_diff",
    "Verif.Props.C74_whole_numbers",
    "Verif.Props.C74_precision_ignored"
   ],
   "note": ""
  },
  {
   "property": "C75",
   "status": "proved",
   "theorems": [
    "Verif.Props.C75_missing_file",
    "Verif.Props.C75_unsupported_version",
    "Verif.Props.C75_no_header",
    "Verif.Props.C75_bad_stream"
   ],
   "note": ""
  },
  {
   "property": "C76",
   "status": "proved",
   "theorems": [
    "Verif.Props.C76_strings",
    "Verif.Props.C76_profile",
    "Verif.Props.C76_event_ids",
    "Verif.Props.C76_trace_file",
    "Verif.Props.C76_other_output",
    "Verif.Props.C76_diff_file"
   ],
   "note": ""
  },
  {
   "property": "C77",
   "status": "proved",
   "theorems": [
    "Verif.Props.C77_silent",
    "Verif.Props.C77_label_reported",
    "Verif.Props.C77_argument_reported",
    "Verif.Props.C77_reported_iff_lossy",
    "Verif.Props.C77_report_is_separate"
   ],
   "note": ""
  },
  {
   "property": "C78",
   "status": "proved",
   "theorems": [
    "Verif.Props.C78_panics_iff",
    "Verif.Props.C78_directory",
    "Verif.Props.C78_other_files",
    "Verif.Props.C78_no_room",
    "Verif.Props.C78_replaces",
    "Verif.Props.C78_reads_back"
   ],
   "note": ""
  },
  {
   "property": "C79",
   "status": "proved",
   "theorems": [
    "Verif.Props.C79_by_number",
    "Verif.Props.C79_wraps_around"
   ],
   "note": ""
  },
  {
   "property": "C80",
   "status": "proved",
   "theorems": [
    "Verif.Props.C80_few_pages",
    "Verif.Props.C80_session_size",
    "Verif.Props.C80_overhead",
    "Verif.Props.C80_threads"
   ],
   "note": ""
  },
  {
   "property": "C81",
   "status": "proved",
   "theorems": [
    "Verif.Props.C81_others_unaffected",
    "Verif.Props.C81_reads_up_to_terminator",
    "Verif.Props.C81_format_followed",
    "Verif.Props.C81_runs_on",
    "Verif.Props.C81_unterminated_at_end",
    "Verif.Props.C81_profile_shown",
    "Verif.Props.C81_profile_composite"
   ],
   "note": ""
  },
  {
   "property": "C82",
   "status": "proved",
   "theorems": [
    "Verif.Props.C82_profiler_threads",
    "Verif.Props.C82_profiler_threads_execute",
    "Verif.Props.C82_profiler_threads_answers",
    "Verif.Props.C82_profiler_threads_shows",
    "Verif.Props.C82_profiler_threads_streams",
    "Verif.Props.C82_streams",
    "Verif.Props.C82_outcomes",
    "Verif.Props.C82_addresses",
    "Verif.Props.C82_no_drift",
    "Verif.Props.C82_strings_after_a_panic",
    "Verif.Props.C82_threads",
    "Verif.Props.C82_profiler_answers",
    "Verif.Props.C82_profiler_streams",
    "Verif.Props.C82_profiler_harmless",
    "Verif.Props.C82_profiler_shows"
   ],
   "note": ""
  },
  {
   "property": "C83",
   "status": "proved",
   "theorems": [
    "Verif.Props.C83_like_dropping",
    "Verif.Props.C83_file",
    "Verif.Props.C83_memory"
   ],
   "note": ""
  },
  {
   "property": "C84",
   "status": "proved",
   "theorems": [
    "Verif.Props.C84_ordered",
    "Verif.Props.C84_one_thread_ends",
    "Verif.Props.C84_one_thread",
    "Verif.Props.C84_own_sink",
    "Verif.Props.C84_locked_out",
    "Verif.Props.C84_crossed_orders",
    "Verif.Props.C84_threads",
    "Verif.Props.C84_in_real_time",
    "Verif.Props.C84_never_torn"
   ],
   "note": ""
  },
  {
   "property": "C85",
   "status": "proved",
   "theorems": [
    "Verif.Props.C85_interleaving",
    "Verif.Props.C85_release_returns",
    "Verif.Props.C85_nested",
    "Verif.Props.C85_panic_depends",
    "Verif.Props.C85_tool"
   ],
   "note": ""
  },
  {
   "property": "C86",
   "status": "proved",
   "theorems": [
    "Verif.Props.C86_lightweight_total",
    "Verif.Props.C86_each_event_once",
    "Verif.Props.C86_all_in_order",
    "Verif.Props.C86_any_decoder",
    "Verif.Props.C86_front_is_stuck"
   ],
   "note": ""
  },
  {
   "property": "C87",
   "status": "proved",
   "theorems": [
    "Verif.Props.C87_lanes",
    "Verif.Props.C87_lane_count",
    "Verif.Props.C87_ties_need_the_hash_order",
    "Verif.Props.C87_records",
    "Verif.Props.C87_thread_order",
    "Verif.Props.C87_tool"
   ],
   "note": ""
  }
 ]
}
