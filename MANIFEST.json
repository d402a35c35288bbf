{
 "claims": [
  {
   "property": "C01",
   "status": "proved",
   "theorems": [
    "GJ.C01_batched_ranges",
    "GJ.C01_batched_ranges_sound",
    "GJ.C01_batched_ranges_fault"
   ],
   "note": "decodeRanges is NumericCompressor.h:55-86 over any single-block decoder."
  },
  {
   "property": "C02",
   "status": "proved",
   "theorems": [
    "GJ.C02_bucket_invariants",
    "GJ.C02_no_point_twice"
   ],
   "note": "bucketsOf is Range.cc:48-99 folded over the ranges; sizes are unbounded Nat."
  },
  {
   "property": "C03",
   "status": "proved",
   "theorems": [
    "GJ.C03_partial_decode_is_slice",
    "GJ.C03_reads_only_needed_bytes"
   ],
   "note": "All bit widths; bytes touched proved separately."
  },
  {
   "property": "C04",
   "status": "partial",
   "theorems": [
    "GJ.C04_packed_integers_partial",
    "GJ.C04_reader_exact_law",
    "GJ.C04_wide_values_truncated",
    "GJ.C04_too_wide_rejected",
    "GJ.C04_outside_section_rejected",
    "GJ.C04_zero_width"
   ],
   "note": "Proved for widths 1-58, 60, 64. False for 59, 61, 62, 63 (C04_wide_values_truncated): the 64-bit accumulator drops leading bits. Exact law at every width in C04_reader_exact_law. Rational arithmetic, no rounding."
  },
  {
   "property": "C05",
   "status": "partial",
   "theorems": [
    "GJ.C05_scaling_simple",
    "GJ.C05_scaling_ccsds_partial",
    "GJ.C05_ccsds_actual",
    "GJ.C05_ccsds_wrong_for_nonzero_scale"
   ],
   "note": "Simple packing proved. CCSDS proved for decimal scale factor 0 only; the code computes (-10)^D, so the claim is false for every other D (C05_ccsds_wrong_for_nonzero_scale). Rational arithmetic, no rounding."
  },
  {
   "property": "C06",
   "status": "partial",
   "theorems": [
    "GJ.C06_ccsds_range_is_slice_partial",
    "GJ.C06_last_block_rejected",
    "GJ.C06_never_a_wrong_slice",
    "GJ.C06_widths_accepted",
    "GJ.C06_wide_samples_rejected",
    "GJ.C06_empty_section_rejected"
   ],
   "note": "libaec is a parameter with a three-part contract (AecContract), met by a concrete codec. Holds whenever the offset behind the last block is recorded or the range does not end at the end of a field of full blocks; false otherwise (C06_last_block_rejected). No wrong slice is ever returned (C06_never_a_wrong_slice)."
  },
  {
   "property": "C07",
   "status": "proved",
   "theorems": [
    "GJ.C07_masked_extraction",
    "GJ.C07_field_pointwise"
   ],
   "note": "Over any packing reader that returns slices of the stored values; instantiated for simple packing in C40."
  },
  {
   "property": "C08",
   "status": "proved",
   "theorems": [
    "GJ.C08_packed_positions"
   ],
   "note": ""
  },
  {
   "property": "C09",
   "status": "proved",
   "theorems": [
    "GJ.C09_bitmap_flags",
    "GJ.C09_short_read"
   ],
   "note": "Includes the short-read error. For zero bits per value the code skips the bitmap (see C12)."
  },
  {
   "property": "C10",
   "status": "proved",
   "theorems": [
    "GJ.C10_mask_words",
    "GJ.C10_python_roundtrip",
    "GJ.C10_rust_roundtrip",
    "GJ.C10_rust_no_mask"
   ],
   "note": "toBitset plus the Python and Rust readers."
  },
  {
   "property": "C11",
   "status": "partial",
   "theorems": [
    "GJ.C11_malformed_rejected_partial",
    "GJ.C11_spherical_harmonics_rejected",
    "GJ.C11_past_end_accepted_constant",
    "GJ.C11_reversed_accepted_constant",
    "GJ.C11_past_end_accepted_padding",
    "GJ.C11_masked_bad_interval_undefined"
   ],
   "note": "Empty, unsorted and overlapping lists are rejected. False for reversed intervals and intervals past the end: accepted on constant fields and within padding bits, undefined behaviour on fields with a bitmap."
  },
  {
   "property": "C12",
   "status": "partial",
   "theorems": [
    "GJ.C12_constant_field_partial",
    "GJ.C12_bitmap_ignored"
   ],
   "note": "Proved without bitmap. False with a bitmap: the code ignores it (C12_bitmap_ignored)."
  },
  {
   "property": "C13",
   "status": "proved",
   "theorems": [
    "GJ.C13_result_shape",
    "GJ.C13_simple_reader_shape",
    "GJ.C13_message_shape"
   ],
   "note": "Intervals with begin <= end < 2^64; reader-shape hypothesis discharged for simple packing by C13_simple_reader_shape."
  },
  {
   "property": "C14",
   "status": "proved",
   "theorems": [
    "GJ.C14_lru",
    "GJ.C14_capacity_zero_undefined"
   ],
   "note": "Capacity at least one. Capacity zero is undefined behaviour (C14_capacity_zero_undefined)."
  },
  {
   "property": "C15",
   "status": "partial",
   "theorems": [
    "GJ.C15_lookup_partial",
    "GJ.C15_lookup_answers_partial",
    "GJ.C15_separated",
    "GJ.C15_same_basename_confused",
    "GJ.C15_digits_confused",
    "GJ.C15_repeated_offset_rejected"
   ],
   "note": "Holds for every interleaving of lookups, scans, inserts and flushes with growing data files, provided the cache keys tell the files in use apart (C15_separated gives a sufficient condition). Missing: the property without that condition is false (C15_same_basename_confused, C15_digits_confused); repeated offsets are rejected (C15_repeated_offset_rejected)."
  },
  {
   "property": "C16",
   "status": "proved",
   "theorems": [
    "GJ.C16_write_load",
    "GJ.C16_append_load",
    "GJ.C16_append_union"
   ],
   "note": "Write then load, and any number of appended batches then load, including repeated offsets (the first recorded metadata wins)."
  },
  {
   "property": "C17",
   "status": "proved",
   "theorems": [
    "GJ.C17_published_index_complete",
    "GJ.C17_crash_atomic",
    "GJ.C17_all_steps",
    "GJ.C17_append_corrupts",
    "GJ.C17_append_between_entries_partial"
   ],
   "note": "Scans (write to a temporary file, then rename), any crash point, any number of concurrent writers. The append path used by the plugin is not atomic: C17_append_corrupts; C17_append_between_entries_partial and C45_crash_while_appending say what remains."
  },
  {
   "property": "C18",
   "status": "partial",
   "theorems": [
    "GJ.C18_scan",
    "GJ.C18_reported_count_partial",
    "GJ.C18_scan_file",
    "GJ.C18_repeated_offset_counted_twice",
    "GJ.C18_null_entry_undefined",
    "GJ.C18_overlapping_scans_of_different_files",
    "GJ.C18_overlapping_scans_lose_entries"
   ],
   "note": "Completeness, preservation and idempotence for every list of offsets; the reported number when no offset is repeated. False otherwise: C18_repeated_offset_counted_twice; overlapping scans of one file lose entries (C18_overlapping_scans_lose_entries)."
  },
  {
   "property": "C19",
   "status": "partial",
   "theorems": [
    "GJ.C19_rebuild_partial",
    "GJ.C19_old_entries_win",
    "GJ.C19_stale_entry_kept"
   ],
   "note": "False in general: entries of the old index win (C19_old_entries_win, C19_stale_entry_kept). Holds when the old index has no stale entry (C19_rebuild_partial)."
  },
  {
   "property": "C20",
   "status": "proved",
   "theorems": [
    "GJ.C20_metadata_roundtrip",
    "GJ.C20_extraction_unchanged"
   ],
   "note": "All three metadata classes, with any stream content following. eckit's typed stream is a list of tagged items."
  },
  {
   "property": "C21",
   "status": "proved",
   "theorems": [
    "GJ.C21_header",
    "GJ.C21_errors",
    "GJ.C21_errors_raise",
    "GJ.C21_extract_request",
    "GJ.C21_extract_reply",
    "GJ.C21_scan_request",
    "GJ.C21_scan_reply",
    "GJ.C21_axes_request",
    "GJ.C21_axes_reply",
    "GJ.C21_forward_scan_request",
    "GJ.C21_forward_extract_request",
    "GJ.C21_forward_extract_reply"
   ],
   "note": "Every request and reply with any following content. Raw vectors are modelled down to their bytes. A forwarded location arrives with scheme 'file'; the sort by offset is taken to be stable."
  },
  {
   "property": "C22",
   "status": "proved",
   "theorems": [
    "GJ.C22_wrong_version",
    "GJ.C22_unknown_type",
    "GJ.C22_work_only_if_valid",
    "GJ.C22_type_numbers"
   ],
   "note": "The engine is called only for version 3 and types 0-4; otherwise the client is sent an exception."
  },
  {
   "property": "C23",
   "status": "proved",
   "theorems": [
    "GJ.C23_nothing_lost",
    "GJ.C23_at_most_once",
    "GJ.C23_pop_outcome",
    "GJ.C23_drained_after_close",
    "GJ.C23_no_lost_wakeup"
   ],
   "note": "Queue operations are atomic (one mutex). Wake-ups are modelled separately: no worker sleeps for ever while a task is queued."
  },
  {
   "property": "C24",
   "status": "proved",
   "theorems": [
    "GJ.C24_round_robin",
    "GJ.C24_bounded_wait"
   ],
   "note": ""
  },
  {
   "property": "C25",
   "status": "partial",
   "theorems": [
    "GJ.C25_no_use_after_return",
    "GJ.C25_returns_only_when_done",
    "GJ.C25_always_returns_partial",
    "GJ.C25_returns_without_failures_partial",
    "GJ.C25_cancelled_never_returns",
    "GJ.C25_abandoned_request_fails"
   ],
   "note": "Safety proved for every schedule. The wait returns under fair workers whatever other requests do, unless a task was cancelled; then it never returns (C25_cancelled_never_returns): a cancelled task is skipped without being counted. A request that throws while its tasks are queued leaves workers with destroyed tasks (C25_abandoned_request_fails)."
  },
  {
   "property": "C26",
   "status": "proved",
   "theorems": [
    "GJ.C26_no_silent_failure",
    "GJ.C26_at_most_once",
    "GJ.C26_not_started_after_failure"
   ],
   "note": "For waits that return (see C25). Errors are listed in the order of the failures. No task starts after a failure has cancelled the rest (C26_not_started_after_failure)."
  },
  {
   "property": "C27",
   "status": "proved",
   "theorems": [
    "GJ.C27_results_in_request_order",
    "GJ.C27_allowed_missing_are_empty",
    "GJ.C27_path_results_in_request_order",
    "GJ.C27_repeated_path_request_fails",
    "GJ.C27_path_requests_told_apart"
   ],
   "note": "Every schedule of the tasks; local, inefficient and forwarded extraction; requests by field and by path. Well-formed requests (C28) over a catalogue without repeated fields in which a path belongs to one place; the cache, the jumper and the servers are taken to be right (Honest), which C15, C40-C42 prove of their models. C27_allowed_missing_are_empty covers allowed missing data."
  },
  {
   "property": "C28",
   "status": "partial",
   "theorems": [
    "GJ.C28_match_iff_same_field_partial",
    "GJ.C28_rest_of_request_kept",
    "GJ.C28_duplicates_rejected",
    "GJ.C28_repeated_pair_garbled",
    "GJ.C28_digit_names_do_not_match",
    "GJ.C28_depends_on_earlier_requests",
    "GJ.C28_words_found_inside_values",
    "GJ.C28_year_without_month_does_not_match"
   ],
   "note": "Proved for well-formed requests with distinct names, names that do not extend each other by a character below '=', and year/month only together with a date; false otherwise (five witnesses)."
  },
  {
   "property": "C29",
   "status": "partial",
   "theorems": [
    "GJ.C29_missing_field_is_reported",
    "GJ.C29_catalogued_fields_are_found",
    "GJ.C29_duplicate_masks_missing"
   ],
   "note": "Proved for a catalogue that lists no field twice, in both directions. A field listed twice hides a missing one (C29_duplicate_masks_missing)."
  },
  {
   "property": "C30",
   "status": "proved",
   "theorems": [
    "GJ.C30_grouped_by_file",
    "GJ.C30_paths_grouped_by_file"
   ],
   "note": "Listing and path requests."
  },
  {
   "property": "C31",
   "status": "partial",
   "theorems": [
    "GJ.C31_files_go_to_their_server",
    "GJ.C31_unconfigured_endpoint_is_error",
    "GJ.C31_same_path_on_two_hosts"
   ],
   "note": "Proved when a path belongs to one endpoint. Files are told apart by path only, so equal paths on two hosts are merged (C31_same_path_on_two_hosts). Results reaching their items: C27 with forwarding."
  },
  {
   "property": "C32",
   "status": "partial",
   "theorems": [
    "GJ.C32_markers_found_partial",
    "GJ.C32_messages_found_partial",
    "GJ.C32_undamaged_file",
    "GJ.C32_damaged_file_reported",
    "GJ.C32_read_error_reported",
    "GJ.C32_last_message_dropped",
    "GJ.C32_marker_inside_message_reported",
    "GJ.C32_short_read_ends_search"
   ],
   "note": "Every file content, buffer size and read pattern that delivers the bytes in order. Every marker is found, and every message of a file of well-formed messages without the marker inside. False otherwise: a marker inside a message is reported as a message, the last message can be dropped, a short read ends the search."
  },
  {
   "property": "C33",
   "status": "partial",
   "theorems": [
    "GJ.C33_archived_fields_indexed",
    "GJ.C33_nothing_else_indexed",
    "GJ.C33_flush_completes",
    "GJ.C33_archive_accepted",
    "GJ.C33_no_failure",
    "GJ.C33_undelivered_location_terminates",
    "GJ.C33_old_entry_wins"
   ],
   "note": "Every history of archive and flush callbacks of any number of FDBs and every schedule of their indexing threads. Holds for fields whose location is delivered; otherwise the process ends (C33_undelivered_location_terminates). An old index entry for the same offset wins (C33_old_entry_wins). fdb5 callbacks, eckit::Queue and std::future are modelled by their contracts."
  },
  {
   "property": "C34",
   "status": "partial",
   "theorems": [
    "GJ.C34_selected_iff",
    "GJ.C34_answer_for_complete_keys",
    "GJ.C34_invalid_rejected_partial",
    "GJ.C34_invalid_selection_used_later",
    "GJ.C34_absent_name_throws",
    "GJ.C34_doubled_sign_accepted"
   ],
   "note": "Selection decided exactly for every selection of distinct names. The regular-expression engine is a parameter. False: an invalid selection is rejected only once per process (C34_invalid_selection_used_later); a field without a selected name makes archive throw (C34_absent_name_throws); a doubled sign is accepted."
  },
  {
   "property": "C35",
   "status": "proved",
   "theorems": [
    "GJ.C35_iterator",
    "GJ.C35_python_loop"
   ],
   "note": "Any mixture of calls, and the Python loop. Entries are never null: every source of results asserts or allocates them."
  },
  {
   "property": "C36",
   "status": "partial",
   "theorems": [
    "GJ.C36_values_never_overrun",
    "GJ.C36_masks_partial",
    "GJ.C36_mask_overrun"
   ],
   "note": "Values proved. Masks are written before the size check, so a too small stated size overruns (C36_mask_overrun)."
  },
  {
   "property": "C37",
   "status": "proved",
   "theorems": [
    "GJ.C37_ranges_checked",
    "GJ.C37_from_indices",
    "GJ.C37_from_mask"
   ],
   "note": "np.diff and np.where modelled on lists."
  },
  {
   "property": "C38",
   "status": "proved",
   "theorems": [
    "GJ.C38_ranges_survive_bridge"
   ],
   "note": ""
  },
  {
   "property": "C39",
   "status": "partial",
   "theorems": [
    "GJ.C39_grid_hash_checked",
    "GJ.C39_inefficient_path_unchecked",
    "GJ.C39_path_grid_hash_checked"
   ],
   "note": "Proved for local extraction by field and by path. Extraction through the store's own read (inefficient option) does not check (C39_inefficient_path_unchecked)."
  },
  {
   "property": "C40",
   "status": "partial",
   "theorems": [
    "GJ.C40_end_to_end_partial",
    "GJ.C40_constant_unscaled"
   ],
   "note": "Rational arithmetic. Excludes widths 59, 61, 62, 63, constant fields with a bitmap and constant fields with non-zero decimal scale factor, where it is false."
  },
  {
   "property": "C41",
   "status": "proved",
   "theorems": [
    "GJ.C41_remote_axes",
    "GJ.C41_remote_scan",
    "GJ.C41_forward_scan",
    "GJ.C41_remote_extract",
    "GJ.C41_remote_extract_throws",
    "GJ.C41_missing_result",
    "GJ.C41_forward_extract"
   ],
   "note": "Engine abstract. Extract needs distinct canonical request strings (guaranteed by the engine, which rejects clashes)."
  },
  {
   "property": "C42",
   "status": "partial",
   "theorems": [
    "GJ.C42_ccsds_end_to_end_partial"
   ],
   "note": "Decimal scale factor 0 only (see C05); without a recorded trailing offset, only fields whose last block is not full (see C06). libaec as in C06; rounding not modelled."
  },
  {
   "property": "C43",
   "status": "proved",
   "theorems": [
    "GJ.C43_broken_request",
    "GJ.C43_broken_reply",
    "GJ.C43_extract_all_or_nothing"
   ],
   "note": "Every request and every reply, every cut point; the stream may end or carry an exception there. eckit's Stream throws at end of file."
  },
  {
   "property": "C44",
   "status": "partial",
   "theorems": [
    "GJ.C44_always_answered_partial",
    "GJ.C44_short_ranges_undefined"
   ],
   "note": "Proved for inputs in which ranges are as many as announced and for an engine that is itself free of undefined behaviour on the decoded request. False otherwise: C44_short_ranges_undefined (decodeRanges does not compare the count with the bytes received; assumes that eckit reads a short blob into a larger buffer without complaint, and that the allocation succeeds). The real engine is not free of undefined behaviour on every decodable request: C52_empty_file_is_undefined."
  },
  {
   "property": "C45",
   "status": "proved",
   "theorems": [
    "GJ.C45_other_version_refused",
    "GJ.C45_foreign_file_refused",
    "GJ.C45_cut_index_never_wrong",
    "GJ.C45_crash_while_appending",
    "GJ.C45_foreign_item_refused",
    "GJ.C45_unknown_class_refused"
   ],
   "note": "Cuts between stream items (eckit throws on a cut inside an item). An entry cut behind its offset is loaded as a null pointer: absent for lookups, but rewriting the index then dereferences it (C18_null_entry_undefined)."
  },
  {
   "property": "C46",
   "status": "partial",
   "theorems": [
    "GJ.C46_place_does_not_matter",
    "GJ.C46_same_results",
    "GJ.C46_fallback_equals_file_partial",
    "GJ.C46_other_locations_refused",
    "GJ.C46_no_overrun",
    "GJ.C46_chunks_give_wrong_values",
    "GJ.C46_second_read_overwrites",
    "GJ.C46_short_delivery_undetected"
   ],
   "note": "Same message at two places: proved in full. Fallback through the store: proved when the location states the length and the handle delivers the message in one read. False otherwise: a second read overwrites the first (C46_second_read_overwrites, C46_chunks_give_wrong_values) and an incomplete delivery goes unnoticed (C46_short_delivery_undetected)."
  },
  {
   "property": "C47",
   "status": "partial",
   "theorems": [
    "GJ.C47_one_result_per_offset",
    "GJ.C47_arguments_checked",
    "GJ.C47_all_or_nothing",
    "GJ.C47_simple_values_partial",
    "GJ.C47_ccsds_values_partial"
   ],
   "note": "Alignment, argument checks and all-or-nothing proved in full. Values from header to field (C47_simple_values_partial, C47_ccsds_values_partial) carry the restrictions of C40 and C42."
  },
  {
   "property": "C48",
   "status": "partial",
   "theorems": [
    "GJ.C48_archived_equals_scanned",
    "GJ.C48_unsupported_packing_refused",
    "GJ.C48_other_editions_refused",
    "GJ.C48_metadata_as_stated",
    "GJ.C48_class_fits_packing",
    "GJ.C48_always_defined",
    "GJ.C48_message_object_partial",
    "GJ.C48_constant_ccsds_message_fails"
   ],
   "note": "Archived and scanned metadata proved equal in full (the plugin and the scan use the same constructors). The constructors from a message object, which only the InfoExtractor interface uses, differ for constant CCSDS fields (C48_constant_ccsds_message_fails)."
  },
  {
   "property": "C49",
   "status": "partial",
   "theorems": [
    "GJ.C49_cached_equals_direct_partial",
    "GJ.C49_cached_extraction_answers_partial"
   ],
   "note": "Every history and interleaving, for data files whose names the cache tells apart (necessary, see C15) and that change by appending."
  },
  {
   "property": "C50",
   "status": "partial",
   "theorems": [
    "GJ.C50_whole_node_partial",
    "GJ.C50_whole_node_paths_partial",
    "GJ.C50_grid_of_the_message_partial"
   ],
   "note": "Metadata from the cache after any history, values from files at any earlier time or from the store, every schedule. Restrictions: ToldApart (C15), delivery in one read (C46), a catalogue without repeated fields (C29). Other servers are assumed right here."
  },
  {
   "property": "C51",
   "status": "partial",
   "theorems": [
    "GJ.C51_files_as_if_alone",
    "GJ.C51_scan_indexes",
    "GJ.C51_listing",
    "GJ.C51_scan_requests",
    "GJ.C51_scan_again",
    "GJ.C51_scan_files",
    "GJ.C51_scan_by_files",
    "GJ.C51_nothing_to_scan",
    "GJ.C51_scan_files_fails_iff",
    "GJ.C51_grouping",
    "GJ.C51_forwarded",
    "GJ.C51_unknown_endpoint",
    "GJ.C51_forwarded_by_files_ignored",
    "GJ.C51_every_error_reported"
   ],
   "note": "Proved for every schedule, for files with index files of their own (necessary, see C15 and C18). False when scans are forwarded: `byfiles` is ignored (C51_forwarded_by_files_ignored). A message listed twice is counted twice (C18_repeated_offset_counted_twice)."
  },
  {
   "property": "C52",
   "status": "partial",
   "theorems": [
    "GJ.C52_cluster_partial",
    "GJ.C52_cluster_paths_partial",
    "GJ.C52_client_of_node_partial",
    "GJ.C52_client_of_cluster_partial",
    "GJ.C52_empty_file_is_undefined",
    "GJ.C52_forwarded_scan",
    "GJ.C52_forwarded_scan_errors"
   ],
   "note": "Any number of servers with histories of their own; any schedule on every node; requests by field and by path; client, front node and servers composed through the protocol model. Missing: file names a cache confuses (C15), one path at two endpoints (C31), a store behind a server (forwarded items are always read as files there, as in the code). C52_empty_file_is_undefined: a forwarded request with an empty file next to a non-empty one reads past an empty vector on the server; a client of this code base never sends one."
  },
  {
   "property": "C53",
   "status": "partial",
   "theorems": [
    "GJ.C53_machine_agrees_partial",
    "GJ.C53_huge_interval_wrong_values",
    "GJ.C53_huge_interval_witness",
    "GJ.C53_huge_interval_wrong_values_ccsds"
   ],
   "note": "Proved for intervals that end below 2^58 (with a bitmap: fields of fewer than 2^58 points), whatever the memory. False beyond: byte positions wrap and another point's values come back as present (C53_huge_interval_wrong_values, C53_huge_interval_wrong_values_ccsds, C53_huge_interval_witness)."
  },
  {
   "property": "C54",
   "status": "partial",
   "theorems": [
    "GJ.C54_forward_intervals_defined_partial",
    "GJ.C54_backward_interval_undefined"
   ],
   "note": "Proved for forward intervals of any magnitude; with a bitmap, inside the field. False otherwise: C54_backward_interval_undefined, C11_masked_bad_interval_undefined."
  },
  {
   "property": "C55",
   "status": "partial",
   "theorems": [
    "GJ.C55_node_answers_partial",
    "GJ.C55_local_calls_defined",
    "GJ.C55_machine_node_answers_partial",
    "GJ.C55_past_the_end_crashes_node",
    "GJ.C55_whole_node_answers_partial",
    "GJ.C55_lookups_are_safe"
   ],
   "note": "Proved for the engine of a node (requests, listing, tasks, forwarding, replies, scans, axes) with 64-bit extraction on files of any content. False without the restrictions: C55_past_the_end_crashes_node, C52_empty_file_is_undefined, C44_short_ranges_undefined, C25_abandoned_request_fails (fdb: places without the option for them), C70_no_capacity_undefined, C70_interrupted_flush_undefined."
  },
  {
   "property": "C56",
   "status": "partial",
   "theorems": [
    "GJ.C56_error_bound_partial",
    "GJ.C56_correctly_rounded_simple",
    "GJ.C56_correctly_rounded_ccsds_partial",
    "GJ.C56_ccsds_decimal_factor_wrong",
    "GJ.C56_exact_when_representable",
    "GJ.C56_order_kept",
    "GJ.C56_decoded_values_partial",
    "GJ.C56_not_always_closest"
   ],
   "note": "Proved for every rounding to nearest, integers up to 53 bits, decimal scale factors up to 300 in size and values that neither overflow nor underflow. For decimal factor 0 the value is the closest double; otherwise it need not be (C56_not_always_closest). CCSDS with another decimal factor is wrong already without rounding (C05), and under every rounding (C56_ccsds_decimal_factor_wrong)."
  },
  {
   "property": "C57",
   "status": "partial",
   "theorems": [
    "GJ.C57_first_loop_partial",
    "GJ.C57_single_request",
    "GJ.C57_values_unpacked",
    "GJ.C57_masks_unpacked",
    "GJ.C57_bool_masks",
    "GJ.C57_dump",
    "GJ.C57_extracted_reach_python",
    "GJ.C57_second_loop_uses_wrong_shapes",
    "GJ.C57_second_loop_consequences",
    "GJ.C57_no_ranges_one_array"
   ],
   "note": "One loop, and any sequence of loops over a single request of any cardinality: proved. A loop started after results were taken by another one pairs results with the wrong shapes (C57_second_loop_uses_wrong_shapes, C57_second_loop_consequences). C57_extracted_reach_python joins this to extraction from messages of any packing (C13_message_shape)."
  },
  {
   "property": "C58",
   "status": "partial",
   "theorems": [
    "GJ.C58_ranges_as_written",
    "GJ.C58_last_newline_optional",
    "GJ.C58_accepted_only_numbers",
    "GJ.C58_ranges_of_request",
    "GJ.C58_any_file",
    "GJ.C58_junk_accepted",
    "GJ.C58_minus_dropped"
   ],
   "note": "Every ranges file of non-negative numbers below 2^31 is read as written; larger numbers are refused (C58_ranges_as_written); the pairing of lines with requests is characterised exactly; no content is undefined. What is accepted consists of pairs that begin with numbers (C58_accepted_only_numbers), but trailing junk and a leading minus are dropped silently (C58_junk_accepted, C58_minus_dropped)."
  },
  {
   "property": "C59",
   "status": "partial",
   "theorems": [
    "GJ.C59_printed_partial",
    "GJ.C59_several_fields_undefined"
   ],
   "note": "Proved when every request names one field. Otherwise the print loop indexes requests and ranges by the position of the field and reads past their end (C59_several_fields_undefined)."
  },
  {
   "property": "C60",
   "status": "partial",
   "theorems": [
    "GJ.C60_all_match_iff",
    "GJ.C60_missing_point_reported_wrong"
   ],
   "note": "Exactly characterised, both directions (C60_all_match_iff). A missing point in a range makes correct results be reported wrong, because NaN is compared with the missing value of eccodes (C60_missing_point_reported_wrong)."
  },
  {
   "property": "C61",
   "status": "partial",
   "theorems": [
    "GJ.C61_all_files_indexed",
    "GJ.C61_skip_existing",
    "GJ.C61_refused_or_dry",
    "GJ.C61_skip_looks_in_wrong_place"
   ],
   "note": "All files indexed, skipping in the default place of index files, refusals and dry run are proved. With cache.directory set, the skip option looks for index files in the wrong place (C61_skip_looks_in_wrong_place)."
  },
  {
   "property": "C62",
   "status": "partial",
   "theorems": [
    "GJ.C62_accepted_iff",
    "GJ.C62_passed_on",
    "GJ.C62_dictionary_names_field_partial",
    "GJ.C62_dictionary_to_arrays_partial",
    "GJ.C62_list_passed_on",
    "GJ.C62_path_request",
    "GJ.C62_multivalued",
    "GJ.C62_several_values",
    "GJ.C62_rangestr_roundtrip",
    "GJ.C62_rangestr_not_always",
    "GJ.C62_separators_in_values",
    "GJ.C62_single_request_unchecked",
    "GJ.C62_single_request"
   ],
   "note": "Acceptance is characterised in both directions; accepted requests are passed on exactly and compose with C50 and C57 to the arrays. Separators and NUL in values are not checked (C62_separators_in_values), the single-request form does not check ranges (C62_single_request_unchecked), and range texts do not round-trip for empty lists or negative numbers (C62_rangestr_not_always)."
  },
  {
   "property": "C63",
   "status": "partial",
   "theorems": [
    "GJ.C63_local",
    "GJ.C63_refused",
    "GJ.C63_python",
    "GJ.C63_rust",
    "GJ.C63_end_to_end",
    "GJ.C63_not_ascii",
    "GJ.C63_nul_in_name",
    "GJ.C63_empty_dictionary"
   ],
   "note": "Exact on the node and through a server for plain ASCII axes; refusals characterised. Python fails on axes with other characters (C63_not_ascii) and confuses names with NUL (C63_nul_in_name)."
  },
  {
   "property": "C64",
   "status": "partial",
   "theorems": [
    "GJ.C64_iteration",
    "GJ.C64_result",
    "GJ.C64_validity",
    "GJ.C64_valid_are_stored",
    "GJ.C64_message_to_rust_partial",
    "GJ.C64_range_iff",
    "GJ.C64_range_from_unchecked",
    "GJ.C64_path_request",
    "GJ.C64_path_default",
    "GJ.C64_path_builder",
    "GJ.C64_errors",
    "GJ.C64_error_misread"
   ],
   "note": "Iteration, results, validity and eckit errors are exact; the composition with decoding lacks what C40 lacks. Ranges converted from start..end are not checked (C64_range_from_unchecked); a C++ message that begins like one of eckit is misread (C64_error_misread)."
  },
  {
   "property": "C65",
   "status": "partial",
   "theorems": [
    "GJ.C65_selection",
    "GJ.C65_extract_partial",
    "GJ.C65_extract_cluster_partial",
    "GJ.C65_axes",
    "GJ.C65_scan",
    "GJ.C65_paths_need_local",
    "GJ.C65_python_remote_partial",
    "GJ.C65_python_cluster_partial"
   ],
   "note": "Selection, axes and scans are shown in full (C65_selection, C65_axes, C65_scan); extraction carries the hypotheses of C50 and C52 about catalogue, files and servers (C65_extract_partial, C65_extract_cluster_partial, C65_python_remote_partial, C65_python_cluster_partial). Path-based calls need a local handle (C65_paths_need_local): here the two kinds differ."
  },
  {
   "property": "C66",
   "status": "proved",
   "theorems": [
    "GJ.C66_context_of_the_call",
    "GJ.C66_only_json",
    "GJ.C66_reference_good"
   ],
   "note": "For every schedule of any number of threads, workers and servers. Assumes the network delivers a header as sent (C18, C22)."
  },
  {
   "property": "C67",
   "status": "partial",
   "theorems": [
    "GJ.C67_own_message_partial",
    "GJ.C67_one_thread",
    "GJ.C67_other_threads_message"
   ],
   "note": "Proved for one thread (C67_one_thread) and for threads whose failing calls do not overlap. False in general: C67_other_threads_message shows an exception with another thread's message, and a data race."
  },
  {
   "property": "C68",
   "status": "partial",
   "theorems": [
    "GJ.C68_precedence_partial",
    "GJ.C68_which_file",
    "GJ.C68_fixed_at_first_use",
    "GJ.C68_broken_file",
    "GJ.C68_logging",
    "GJ.C68_servers",
    "GJ.C68_file_in_force",
    "GJ.C68_workers",
    "GJ.C68_no_workers",
    "GJ.C68_negative_threads",
    "GJ.C68_cache",
    "GJ.C68_disabled_cache",
    "GJ.C68_cache_size",
    "GJ.C68_environment_does_not_rescue"
   ],
   "note": "Precedence is proved for files whose entries have their types and a non-negative number of threads; values are fixed at first use for all settings (C68_fixed_at_first_use). Violations: the environment does not rescue a broken file (C68_environment_does_not_rescue), zero or negative threads give no workers and requests that never return (C68_no_workers, C68_negative_threads), a disabled cache still uses index files, in the root directory, and a cache of size 0 is undefined (C68_disabled_cache); a negative size means no limit (C68_cache_size)."
  },
  {
   "property": "C69",
   "status": "partial",
   "theorems": [
    "GJ.C69_request_succeeds_partial",
    "GJ.C69_remote_request_succeeds_partial",
    "GJ.C69_path_request_succeeds_partial",
    "GJ.C69_forwarded_request_succeeds_partial",
    "GJ.C69_forwarded_path_request_succeeds_partial"
   ],
   "note": "Proved on a node, for its clients, for path requests and for a cluster. Missing: file names the cache confuses (C15_same_basename_confused, C15_digits_confused), nodes that do not build metadata on demand (C87), stores that deliver a message in several reads (C46), two fields at one place (the cache refuses repeated offsets, C15_repeated_offset_rejected), requests with different keyword sets."
  },
  {
   "property": "C70",
   "status": "partial",
   "theorems": [
    "GJ.C70_history_defined_partial",
    "GJ.C70_scans_defined_partial",
    "GJ.C70_no_capacity_undefined",
    "GJ.C70_interrupted_flush_undefined"
   ],
   "note": "Proved for all histories with a positive capacity over index files without null entries, including scans through the interface. False without: C70_no_capacity_undefined, C70_interrupted_flush_undefined."
  },
  {
   "property": "C71",
   "status": "partial",
   "theorems": [
    "GJ.C71_refines",
    "GJ.C71_calls_as_alone",
    "GJ.C71_defined",
    "GJ.C71_returns_partial",
    "GJ.C71_call_completes_partial",
    "GJ.C71_node_request_completes_partial",
    "GJ.C71_failing_call_hangs"
   ],
   "note": "That a call gets what it gets alone, and definedness, are proved in full for calls that do not throw while enqueuing (those: C25_abandoned_request_fails). That it returns is proved for calls without a cancelled task; with one it is false (C71_failing_call_hangs)."
  },
  {
   "property": "C72",
   "status": "partial",
   "theorems": [
    "GJ.C72_engine",
    "GJ.C72_one_line_partial",
    "GJ.C72_undefined",
    "GJ.C72_names_once",
    "GJ.C72_action",
    "GJ.C72_context",
    "GJ.C72_size",
    "GJ.C72_error",
    "GJ.C72_failed_tasks",
    "GJ.C72_client_outcome",
    "GJ.C72_scan_outcome",
    "GJ.C72_forward_scan_outcome",
    "GJ.C72_axes_outcome",
    "GJ.C72_extract_outcome",
    "GJ.C72_scanned_partial",
    "GJ.C72_requests",
    "GJ.C72_numbers_distinct",
    "GJ.C72_bad_context_no_line",
    "GJ.C72_forwarded_scan_uncounted"
   ],
   "note": "False in two places: a client whose context is not JSON is served without a line (C72_bad_context_no_line), and a forwarded scan's line lacks the number of fields (C72_forwarded_scan_uncounted). The client's outcome is proved for extraction, axes, scan and forwarded scan, and for a forwarded extraction whose reply decodes (C72_client_outcome). Clock values and texts of exceptions are not modelled."
  },
  {
   "property": "C73",
   "status": "partial",
   "theorems": [
    "GJ.C73_order_does_not_show",
    "GJ.C73_complete",
    "GJ.C73_scanned_in_order",
    "GJ.C73_reproducible",
    "GJ.C73_scans_in_any_order",
    "GJ.C73_flushes_not_reproducible",
    "GJ.C73_dump",
    "GJ.C73_dump_missing",
    "GJ.C73_dump_undefined",
    "GJ.C73_tool_arguments",
    "GJ.C73_tool_file",
    "GJ.C73_tool_refuses",
    "GJ.C73_byfiles_not_default"
   ],
   "note": "False in three places: flushes (FDB plugin) append, so the same messages can leave different files (C73_flushes_not_reproducible); showing an index that was cut short is undefined or ends in a stream error (C73_dump_undefined); the scan tool does not scan whole files by default although its help says so (C73_byfiles_not_default). The text of a printed line is the subject of C91; request parsing and expansion are parameters."
  },
  {
   "property": "C74",
   "status": "partial",
   "theorems": [
    "GJ.C74_returned_values_partial",
    "GJ.C74_returned_path_values_partial",
    "GJ.C74_present_fields_served_partial",
    "GJ.C74_present_paths_served_partial",
    "GJ.C74_present_fields_return_partial",
    "GJ.C74_present_paths_return_partial",
    "GJ.C74_defined_partial"
   ],
   "note": "All histories of calls, workers, cache, scans, plugin and growing files together; nothing is assumed of lookups or of what files look like during a call. Values: C74_returned_values_partial, C74_returned_path_values_partial; present fields are served: C74_present_fields_served_partial, C74_present_paths_served_partial, and calls return: C74_present_fields_return_partial, C74_present_paths_return_partial; definedness with 64-bit arithmetic: C74_defined_partial. Missing: file names the cache confuses (C15), stores that deliver in several reads (C46), requests outside C54; scans are events of their own and do not wait in the work queue (with scans in the queue: C79); the values theorems are for exact arithmetic (with the machine's: C78, of which one process is a case)."
  },
  {
   "property": "C75",
   "status": "partial",
   "theorems": [
    "GJ.C75_defined",
    "GJ.C75_calls_return_partial",
    "GJ.C75_flawless_calls_return_partial",
    "GJ.C75_deadlock",
    "GJ.C75_single_worker_hangs",
    "GJ.C75_documented_servers_hang",
    "GJ.C75_failure_blocks_others"
   ],
   "note": "Definedness holds in all histories (C75_defined). Calls return when every server forwarded to keeps a worker free of forwarding or forwards only down an order of the servers (C75_calls_return_partial; without failures C75_flawless_calls_return_partial). The full claim is false of the code: a server with the default single worker that forwards to itself hangs in every schedule (C75_single_worker_hangs); two servers configured as in the documentation hang with two clients (C75_documented_servers_hang); a failing forwarded request takes away a worker of the forwarding server for ever, and with it other clients' calls (C75_failure_blocks_others). C75_deadlock shows in general that such a state is never left."
  },
  {
   "property": "C76",
   "status": "partial",
   "theorems": [
    "GJ.C76_forwarded_values_partial",
    "GJ.C76_forwarded_paths_partial",
    "GJ.C76_local_values_partial",
    "GJ.C76_local_paths_partial",
    "GJ.C76_sent_first"
   ],
   "note": "All histories of all processes together. Values of calls that forward: C76_forwarded_values_partial, C76_forwarded_paths_partial; of calls that do not: C76_local_values_partial, C76_local_paths_partial. Missing: file names a cache confuses (C15), the same path at two endpoints (C31), intervals of forwarded requests that do not fit 64 bits, what a store delivers (C46). Requests are forwarded once (a forwarded request is worked on locally, as in the code). The arrival of a request is a parameter tied to what was sent (Net.Sound); clients of other processes are calls on these. What arrives was sent before: C76_sent_first."
  },
  {
   "property": "C77",
   "status": "partial",
   "theorems": [
    "GJ.C77_present_fields_served_partial",
    "GJ.C77_present_paths_served_partial",
    "GJ.C77_goes_on_partial",
    "GJ.C77_present_fields_return_partial",
    "GJ.C77_present_paths_return_partial"
   ],
   "note": "Success and values in every history: C77_present_fields_served_partial, C77_present_paths_served_partial; every history can be carried on: C77_goes_on_partial; calls return in fair infinite histories: C77_present_fields_return_partial, C77_present_paths_return_partial. Missing: file names a cache confuses (C15), the same path at two endpoints (C31), processes that do not build metadata on demand (C47); for termination, forwarding calls that fail (C25_cancelled_never_returns, C75_failure_blocks_others) and workers that wait for each other (C75_documented_servers_hang), for which the claim is false."
  },
  {
   "property": "C78",
   "status": "partial",
   "theorems": [
    "GJ.C78_forwarded_values_partial",
    "GJ.C78_forwarded_paths_partial",
    "GJ.C78_local_values_partial",
    "GJ.C78_local_paths_partial",
    "GJ.C78_defined_partial"
   ],
   "note": "No undefined behaviour in any history, including broken connections: C78_defined_partial. Values with 64-bit arithmetic: C78_forwarded_values_partial, C78_forwarded_paths_partial, C78_local_values_partial, C78_local_paths_partial. Missing: requests that may not be made (false: C55_past_the_end_crashes_node, C52_empty_file_is_undefined, C25_abandoned_request_fails), intervals beyond 2^58 (C53), compressed messages with an empty block, a decompressor that breaks its contract, and the restrictions of C76."
  },
  {
   "property": "C79",
   "status": "partial",
   "theorems": [
    "GJ.C79_returned_values_partial",
    "GJ.C79_returned_path_values_partial",
    "GJ.C79_present_fields_served_partial",
    "GJ.C79_present_paths_served_partial",
    "GJ.C79_present_fields_return_partial",
    "GJ.C79_present_paths_return_partial",
    "GJ.C79_scan_counts",
    "GJ.C79_scan_returns_partial",
    "GJ.C79_defined_partial",
    "GJ.C79_failing_scan_hangs"
   ],
   "note": "Extractions beside scans: C79_returned_values_partial, C79_returned_path_values_partial, C79_present_fields_served_partial, C79_present_paths_served_partial, C79_present_fields_return_partial, C79_present_paths_return_partial. Definedness: C79_defined_partial. What a scan returns: C79_scan_counts (no restriction). A scan of readable files returns: C79_scan_returns_partial. Missing: the restrictions of C74 for extractions; a scan of which a task fails may wait for ever (false: C79_failing_scan_hangs)."
  },
  {
   "property": "C80",
   "status": "partial",
   "theorems": [
    "GJ.C80_scan_counts",
    "GJ.C80_forwarded_values_partial",
    "GJ.C80_forwarded_paths_partial",
    "GJ.C80_local_values_partial",
    "GJ.C80_local_paths_partial",
    "GJ.C80_defined_partial"
   ],
   "note": "What a scan returns, forwarded or not: C80_scan_counts (every history). Values of extractions with 64-bit arithmetic: C80_forwarded_values_partial, C80_forwarded_paths_partial, C80_local_values_partial, C80_local_paths_partial. Definedness: C80_defined_partial. Missing: the restrictions of C78 for extractions. The arrival of a request is a parameter tied to what was sent (Mesh.Sound)."
  },
  {
   "property": "C81",
   "status": "partial",
   "theorems": [
    "GJ.C81_sent_first",
    "GJ.C81_scan_returns_partial",
    "GJ.C81_fields_return_partial",
    "GJ.C81_paths_return_partial",
    "GJ.C81_goes_on_partial"
   ],
   "note": "Order, for every history: C81_sent_first. Termination with a right result on every infinite history that is fair to a set of processes that forward only to each other, whatever other processes do: C81_scan_returns_partial, C81_fields_return_partial, C81_paths_return_partial. Definedness while connections hold: C81_goes_on_partial. Missing because the code does not have it: a scan or call with a failed task may wait for ever (C79_failing_scan_hangs, C25); processes whose workers all wait for each other do not return (C75)."
  },
  {
   "property": "C82",
   "status": "partial",
   "theorems": [
    "GJ.C82_same_files",
    "GJ.C82_starts_afresh",
    "GJ.C82_any_process_is_killed_or_started",
    "GJ.C82_killed_is_still",
    "GJ.C82_scan_counts",
    "GJ.C82_forwarded_values_partial",
    "GJ.C82_forwarded_paths_partial",
    "GJ.C82_local_values_partial",
    "GJ.C82_local_paths_partial",
    "GJ.C82_defined_partial"
   ],
   "note": "For every history of processes that share files, are killed and started: same files C82_same_files, empty memory at the start C82_starts_afresh, stillness of the killed C82_killed_is_still, counts of scans C82_scan_counts, values C82_forwarded_values_partial, C82_forwarded_paths_partial, C82_local_values_partial, C82_local_paths_partial, definedness C82_defined_partial. Missing: what is missing in C76 and C78 (values a scaling cannot represent, allowMissing); a write of an index is one step (torn writes and crashes within one: C17); termination (C86)."
  },
  {
   "property": "C83",
   "status": "partial",
   "theorems": [
    "GJ.C83_fields_partial",
    "GJ.C83_grid_partial",
    "GJ.C83_server_partial",
    "GJ.C83_mars",
    "GJ.C83_paths_partial",
    "GJ.C83_file",
    "GJ.C83_messages_added",
    "GJ.C83_places_need_local",
    "GJ.C83_scan_paths",
    "GJ.C83_scan_requests_ignore_text",
    "GJ.C83_scan_requests_scan_everything"
   ],
   "note": "Fields C83_fields_partial, hashes C83_grid_partial, a server C83_server_partial, several fields C83_mars, places C83_paths_partial, messages of a file C83_file and C83_messages_added, remote refusals C83_places_need_local, scans of files C83_scan_paths. The code violates the property for scans of requests: the bridge makes the text the verb of a request without keys, so the text is not used (C83_scan_requests_ignore_text) and asking for one field scans all (C83_scan_requests_scan_everything). Missing: what is missing in C50."
  },
  {
   "property": "C84",
   "status": "partial",
   "theorems": [
    "GJ.C84_parts_of_whole_simple",
    "GJ.C84_parts_of_whole_partial",
    "GJ.C84_same_point_same_value_partial",
    "GJ.C84_mask_selects_partial",
    "GJ.C84_python_mask_partial",
    "GJ.C84_python_indices_partial"
   ],
   "note": "Simple packing, with no condition on the message: C84_parts_of_whole_simple. Any packing: C84_parts_of_whole_partial, C84_same_point_same_value_partial, C84_mask_selects_partial. Python: C84_python_mask_partial, C84_python_indices_partial. Missing: CCSDS messages that are cut off, declare fewer values than points present, or for which libaec breaks its contract; points in another order than increasing, which the library refuses."
  },
  {
   "property": "C85",
   "status": "proved",
   "theorems": [
    "GJ.C85_text_round_trip",
    "GJ.C85_json_round_trip",
    "GJ.C85_context_whole",
    "GJ.C85_defaults",
    "GJ.C85_default_values",
    "GJ.C85_python_context"
   ],
   "note": "Texts C85_text_round_trip, dictionaries C85_json_round_trip, encoding and C string C85_context_whole, defaults C85_defaults and C85_default_values, header and metrics lines of all interleavings C85_python_context. Python's json.dumps is modelled as documented; whether eckit's reader accepts the text is the parameter of C66."
  },
  {
   "property": "C86",
   "status": "partial",
   "theorems": [
    "GJ.C86_scan_returns_partial",
    "GJ.C86_fields_return_partial",
    "GJ.C86_paths_return_partial",
    "GJ.C86_goes_on_partial"
   ],
   "note": "Termination with a right result on every infinite history that is fair to a closed set of processes, whatever is killed elsewhere: C86_scan_returns_partial, C86_fields_return_partial, C86_paths_return_partial. Definedness while connections hold: C86_goes_on_partial (with breaks: C82_defined_partial). Missing: as for C81; calls at processes that forward to one that is killed (whether the client notices is decided by TCP and eckit, not modelled)."
  },
  {
   "property": "C87",
   "status": "partial",
   "theorems": [
    "GJ.C87_scanned_messages_served_partial",
    "GJ.C87_flushed_messages_served_partial",
    "GJ.C87_unscanned_refused",
    "GJ.C87_scanned_request_succeeds_partial",
    "GJ.C87_scanned_path_request_succeeds_partial",
    "GJ.C87_forwarded_request_succeeds_partial",
    "GJ.C87_forwarded_path_request_succeeds_partial",
    "GJ.C87_overlapping_scans_refused"
   ],
   "note": "Lookups after a scan C87_scanned_messages_served_partial and after a flush of the plugin C87_flushed_messages_served_partial; what nobody scanned is refused: C87_unscanned_refused; whole extractions: C87_scanned_request_succeeds_partial, C87_scanned_path_request_succeeds_partial, and through a node that forwards: C87_forwarded_request_succeeds_partial, C87_forwarded_path_request_succeeds_partial. False for two scans of one file that overlap: both succeed and one message is refused afterwards (C87_overlapping_scans_refused). Missing also: file names the cache confuses (C15)."
  },
  {
   "property": "C88",
   "status": "partial",
   "theorems": [
    "GJ.C88_no_use_after_free",
    "GJ.C88_held_is_alive",
    "GJ.C88_only_foreign_shapes_overflow",
    "GJ.C88_returned_is_held",
    "GJ.C88_loops_once_partial",
    "GJ.C88_ranges_stay_with_request",
    "GJ.C88_owned_once",
    "GJ.C88_nothing_leaks",
    "GJ.C88_all_can_be_freed",
    "GJ.C88_second_loop_overflows"
   ],
   "note": "No use after free and no second free in any history: C88_no_use_after_free, C88_held_is_alive. One owner: C88_owned_once; nothing left: C88_nothing_leaks, C88_all_can_be_freed. What calls return: C88_returned_is_held. The shapes an iterator uses are those of the ranges its requests were made with: C88_ranges_stay_with_request. If no iterator is looped over twice and answers have the shapes asked for, nothing undefined happens at all: C88_loops_once_partial. False for writing outside a buffer: a loop over an iterator that is begun again pairs results with the ranges of others, and reading the masks then writes past the end (C88_second_loop_overflows); this is the only undefined step (C88_only_foreign_shapes_overflow). That an extraction returns no more results than requests is C18/C35 (`Honest`). CPython reference counting, cffi and numpy are modelled as documented."
  },
  {
   "property": "C89",
   "status": "partial",
   "theorems": [
    "GJ.C89_reads_give_the_result_partial",
    "GJ.C89_loops_once_partial",
    "GJ.C89_read_after_failure_gives_zeros",
    "GJ.C89_second_read_shows_zero"
   ],
   "note": "C89_reads_give_the_result_partial, for results paired with their own ranges, as those of a first loop are (C57); C89_loops_once_partial, for histories in which no iterator is looped over twice and answers have the shapes asked for. False otherwise: the buffer is attached before the library is called, so the first read raises and the second silently shows zeros (C89_read_after_failure_gives_zeros, reached in C89_second_read_shows_zero)."
  },
  {
   "property": "C90",
   "status": "proved",
   "theorems": [
    "GJ.C90_never_undefined",
    "GJ.C90_one_at_a_time",
    "GJ.C90_handle_with_its_clones",
    "GJ.C90_never_stuck",
    "GJ.C90_can_call",
    "GJ.C90_view_shows",
    "GJ.C90_view_keeps",
    "GJ.C90_iterator_in_order"
   ],
   "note": "No step of any interleaving is undefined: C90_never_undefined (races and dangling uses are outcomes of the model). C90_one_at_a_time, C90_handle_with_its_clones, C90_never_stuck, C90_can_call; C90_iterator_in_order; C90_view_shows, C90_view_keeps. What a thread can write down is what Rust's ownership rules, Send and Sync allow (trusted, as are Arc and parking_lot's Mutex); what the library does with globals of its own during calls on two different handles is not part of this property."
  },
  {
   "property": "C91",
   "status": "partial",
   "theorems": [
    "GJ.C91_text_says",
    "GJ.C91_dumps_compare_partial",
    "GJ.C91_text_of_alike",
    "GJ.C91_block_offsets_not_shown",
    "GJ.C91_reference_as_shown"
   ],
   "note": "False in two places: of the offsets of the blocks of a compressed message only the number is printed (C91_block_offsets_not_shown: two indexes, one of which leads to the wrong bytes, print the same), and reference values that differ beyond the printed digits look the same (C91_reference_as_shown). Everything else is said: C91_text_says (texts of lists of indexes), C91_dumps_compare_partial (from the files), and C91_text_of_alike (nothing else is in the text). How a double is printed is a parameter; names of packings, checksums and paths are without comma and new line."
  },
  {
   "property": "C92",
   "status": "partial",
   "theorems": [
    "GJ.C92_index_right",
    "GJ.C92_flushed_is_indexed",
    "GJ.C92_archived_lookups_partial",
    "GJ.C92_archived_paths_partial",
    "GJ.C92_archived_fields_partial",
    "GJ.C92_archived_forwarded_partial",
    "GJ.C92_unflushed_refused"
   ],
   "note": "Index right: C92_index_right; every flushed field in it: C92_flushed_is_indexed; lookups: C92_archived_lookups_partial; calls: C92_archived_paths_partial, C92_archived_fields_partial, through servers C92_archived_forwarded_partial. Missing: file names the cache confuses (C15), index files that were wrong before archiving (C33_old_entry_wins), later rewrites that drop entries (C18_overlapping_scans_lose_entries), and the restrictions of C69 on catalogue and requests. What was archived but not flushed is refused without on-demand metadata (C92_unflushed_refused). That the store has written the bytes where it says is assumed."
  },
  {
   "property": "C93",
   "status": "proved",
   "theorems": [
    "GJ.C93_fragment_read",
    "GJ.C93_fragment_no_number",
    "GJ.C93_offset_read_back",
    "GJ.C93_never_another",
    "GJ.C93_task_offsets",
    "GJ.C93_task_refused",
    "GJ.C93_paths_same",
    "GJ.C93_fields_same",
    "GJ.C93_paths_refused",
    "GJ.C93_rest_ignored"
   ],
   "note": "Conversions: C93_offset_read_back, C93_never_another; accepted texts: C93_fragment_read, C93_fragment_no_number (what follows the digits is ignored: C93_rest_ignored); the task that opens the file: C93_task_offsets, C93_task_refused; whole calls equal those of the engine with numbers, so that the other claims carry over: C93_paths_same, C93_fields_same; refused locally: C93_paths_refused."
  },
  {
   "property": "C94",
   "status": "partial",
   "theorems": [
    "GJ.C94_indexed_elsewhere_served_partial",
    "GJ.C94_running_paths_partial",
    "GJ.C94_running_fields_partial",
    "GJ.C94_running_forwarded_partial",
    "GJ.C94_scan_under_way_refused"
   ],
   "note": "Lookups: C94_indexed_elsewhere_served_partial; calls by place, by field and through servers: C94_running_paths_partial, C94_running_fields_partial, C94_running_forwarded_partial. Missing: a scan of the same file under way in the running process, which writes back less (C94_scan_under_way_refused), rewrites that drop entries (C18), and file names the cache confuses (C15). Appending to a file is one step here; a file cut in the middle of an entry is C45."
  },
  {
   "property": "C95",
   "status": "partial",
   "theorems": [
    "GJ.C95_answers_right",
    "GJ.C95_indexed_before_served_by_all_partial",
    "GJ.C95_archived_served_by_all_partial",
    "GJ.C95_scanned_served_by_all_partial",
    "GJ.C95_scan_elsewhere_refused"
   ],
   "note": "All interleavings of any number of processes, restarts included: nothing undefined and answers right (C95_answers_right); archived and flushed messages (C95_archived_served_by_all_partial) and scanned messages (C95_scanned_served_by_all_partial) are served by all, and so are messages indexed before the start (C95_indexed_before_served_by_all_partial). Missing: a scan of the same file under way elsewhere, which writes back less (C95_scan_elsewhere_refused), flushes that rewrite an index, and file names the cache confuses (C15). Appending to an index is one step; the code does not support two processes doing so at once."
  }
 ]
}