{
 "claims": [
  {
   "property": "C01",
   "status": "proved",
   "theorems": [
    "Csn.Props.C01_scan_reports_spec_chunks",
    "Csn.Props.C01_rule_is_deterministic",
    "Csn.Props.C01_scan_independent_of_schedule",
    "Csn.Props.C01_scan_succeeds"
   ],
   "note": "For every accepted parameter set with a positive discriminator (see C06)."
  },
  {
   "property": "C02",
   "status": "proved",
   "theorems": [
    "Csn.Props.C02_chunks_tile_file"
   ],
   "note": ""
  },
  {
   "property": "C03",
   "status": "proved",
   "theorems": [
    "Csn.Props.C03_chunk_size_upper_bound",
    "Csn.Props.C03_chunk_size_lower_bound"
   ],
   "note": ""
  },
  {
   "property": "C04",
   "status": "proved",
   "theorems": [
    "Csn.Props.C04_chunk_id_is_digest"
   ],
   "note": ""
  },
  {
   "property": "C05",
   "status": "proved",
   "theorems": [
    "Csn.Props.C05_resynchronisation"
   ],
   "note": ""
  },
  {
   "property": "C06",
   "status": "partial",
   "theorems": [
    "Csn.Props.C06_scan_defined_partial",
    "Csn.Props.C06_discriminator_range",
    "Csn.Props.C06_refuted_division_by_zero",
    "Csn.Props.C06_refuted_float_conversion",
    "Csn.Props.C06_default_discriminator"
   ],
   "note": "Refuted for average sizes 1 (division by zero) and >= 9324557 (float conversion); proved for positive discriminators. C95_defined says exactly for which parameters scans are defined, with the formula in floating point arithmetic."
  },
  {
   "property": "C07",
   "status": "proved",
   "theorems": [
    "Csn.Props.C07_accepted_is_wellformed",
    "Csn.Props.C07_wellformed_is_accepted",
    "Csn.Props.C07_malformed_is_rejected"
   ],
   "note": ""
  },
  {
   "property": "C08",
   "status": "proved",
   "theorems": [
    "Csn.Props.C08_index_round_trip"
   ],
   "note": ""
  },
  {
   "property": "C09",
   "status": "partial",
   "theorems": [
    "Csn.Props.C09_every_entry_delivered_partial",
    "Csn.Props.C09_refuted"
   ],
   "note": "Refuted: entries of 4 GiB or more, including those with a decreasing end offset, are skipped silently (caibx.c:227). Proved for ascending tables."
  },
  {
   "property": "C10",
   "status": "proved",
   "theorems": [
    "Csn.Props.C10_loading_is_safe",
    "Csn.Props.C10_iterating_is_safe"
   ],
   "note": "Reads outside the filled part of a buffer are undefined behaviour in the model."
  },
  {
   "property": "C11",
   "status": "proved",
   "theorems": [
    "Csn.Props.C11_index_is_multimap",
    "Csn.Props.C11_insertions_succeed"
   ],
   "note": "For any qsort and bsearch meeting the C standard's contract (Lib.Conforms)."
  },
  {
   "property": "C12",
   "status": "proved",
   "theorems": [
    "Csn.Props.C12_index_bounds",
    "Csn.Props.C12_index_grows"
   ],
   "note": ""
  },
  {
   "property": "C13",
   "status": "proved",
   "theorems": [
    "Csn.Props.C13_first_hit_wins",
    "Csn.Props.C13_appended_in_order",
    "Csn.Props.C13_whole_run"
   ],
   "note": "For any stores, including ones that change behaviour over time; C13_whole_run: on the log of whole runs of csn and casync every answer comes from the first store that delivers, or after all working stores were asked."
  },
  {
   "property": "C14",
   "status": "proved",
   "theorems": [
    "Csn.Props.C14_failed_store_not_asked_again",
    "Csn.Props.C14_whole_run"
   ],
   "note": "For single chains with arbitrary stores, and on the log of whole runs of csn and casync without any assumption."
  },
  {
   "property": "C15",
   "status": "proved",
   "theorems": [
    "Csn.Props.C15_scanned_store_is_exact",
    "Csn.Props.C15_scanned_store_answers"
   ],
   "note": "Reads that report the end of the file too early are excluded; everything else (errors, short reads, EINTR, kills) is covered."
  },
  {
   "property": "C16",
   "status": "proved",
   "theorems": [
    "Csn.Props.C16_local_data_hashes_to_id"
   ],
   "note": ""
  },
  {
   "property": "C17",
   "status": "partial",
   "theorems": [
    "Csn.Props.C17_unusable_index_ignored_partial",
    "Csn.Props.C17_wrong_entry_discards_index_partial",
    "Csn.Props.C17_refuted_entry_beyond_end",
    "Csn.Props.C17_refuted_incomplete_index"
   ],
   "note": "Refuted: an index entry beyond the end of the store file makes the store fail for good, and an incomplete index hides chunks. Proved for unusable indices and for entries whose region exists but does not match."
  },
  {
   "property": "C18",
   "status": "proved",
   "theorems": [
    "Csn.Props.C18_lookup_ends_with_at_most_one_rescan",
    "Csn.Props.C18_store_scanned_at_most_once"
   ],
   "note": "Stronger: over its whole life a store scans its file at most once."
  },
  {
   "property": "C19",
   "status": "proved",
   "theorems": [
    "Csn.Props.C19_http_data_hashes_to_id"
   ],
   "note": "For the whole life of a store; decompressors within their buffer contract (Sane); fragments below 4 GiB."
  },
  {
   "property": "C20",
   "status": "proved",
   "theorems": [
    "Csn.Props.C20_http_stays_in_buffers",
    "Csn.Props.C20_decode_buffer_invariant"
   ],
   "note": ""
  },
  {
   "property": "C21",
   "status": "proved",
   "theorems": [
    "Csn.Props.C21_fragmentation_irrelevant"
   ],
   "note": "FrameOf states what the decompressor has to do with pieces of a frame; memory must suffice."
  },
  {
   "property": "C22",
   "status": "partial",
   "theorems": [
    "Csn.Props.C22_retry_policy_partial",
    "Csn.Props.C22_total_wait_refuted"
   ],
   "note": "Refuted: the code also waits after the tenth attempt, 52.6 s in total. Everything else is proved."
  },
  {
   "property": "C23",
   "status": "partial",
   "theorems": [
    "Csn.Props.C23_retry_succeeds_partial",
    "Csn.Props.C23_mid_body_refuted"
   ],
   "note": "Refuted for failures in the middle of a body: nothing is reset before the next attempt. Proved for failures before any body data."
  },
  {
   "property": "C24",
   "status": "proved",
   "theorems": [
    "Csn.Props.C24_error_accounting"
   ],
   "note": "A response counts as processed completely when the decompressor accepted all of it, even if the result is not the chunk."
  },
  {
   "property": "C25",
   "status": "proved",
   "theorems": [
    "Csn.Props.C25_url_layout"
   ],
   "note": ""
  },
  {
   "property": "C26",
   "status": "proved",
   "theorems": [
    "Csn.Props.C26_encrypted_like_plain",
    "Csn.Props.C26_same_outcome"
   ],
   "note": "Both for complete frames in different fragmentations, and for arbitrary responses with the same fragmentation."
  },
  {
   "property": "C27",
   "status": "partial",
   "theorems": [
    "Csn.Props.C27_integrity_partial",
    "Csn.Props.C27_refuted"
   ],
   "note": "Refuted: an entry repeating the ID of the one before with another length is written unchecked. Proved when neighbouring entries with the same ID have the same length, the table ascends (C09) and no local store is the target under another name (C28_refuted)."
  },
  {
   "property": "C28",
   "status": "partial",
   "theorems": [
    "Csn.Props.C28_image_partial",
    "Csn.Props.C28_refuted"
   ],
   "note": "Refuted when a local store is the target under another path. Proved for all other stores, servers and schedules."
  },
  {
   "property": "C29",
   "status": "proved",
   "theorems": [
    "Csn.Props.C29_frame"
   ],
   "note": "For stores and index that are not the target itself under another name."
  },
  {
   "property": "C30",
   "status": "partial",
   "theorems": [
    "Csn.Props.C30_crash_consistency_partial",
    "Csn.Props.C30_refuted"
   ],
   "note": "Refuted with C27's index. Proved when neighbouring entries with the same ID have the same length; every stop point is covered."
  },
  {
   "property": "C31",
   "status": "partial",
   "theorems": [
    "Csn.Props.C31_resumption_partial",
    "Csn.Props.C31_any_schedule_partial",
    "Csn.Props.C31_refuted"
   ],
   "note": "Refuted: with a read error on the target a matching region is written again. Proved for runs without failing system calls; for any schedule, C31_any_schedule_partial says what is skipped, queried and written."
  },
  {
   "property": "C32",
   "status": "partial",
   "theorems": [
    "Csn.Props.C32_forward_progress_partial",
    "Csn.Props.C32_refuted"
   ],
   "note": "Refuted with C27's index. Proved when neighbouring entries with the same ID have the same length and the entries before k are not empty."
  },
  {
   "property": "C33",
   "status": "partial",
   "theorems": [
    "Csn.Props.C33_second_run_partial",
    "Csn.Props.C33_refuted"
   ],
   "note": "Refuted with C27's index: the second run even fails. Proved when neighbouring entries with the same ID have the same length and no entry is empty."
  },
  {
   "property": "C34",
   "status": "proved",
   "theorems": [
    "Csn.Props.C34_repetitions_fetched_once"
   ],
   "note": ""
  },
  {
   "property": "C35",
   "status": "proved",
   "theorems": [
    "Csn.Props.C35_no_refetch",
    "Csn.Props.C35_clean",
    "Csn.Props.C35_target_fails"
   ],
   "note": "For every run, as long as the target has not failed as a store; it fails only if a read of it fails or offsets reach 2^63. Also that no later store is asked for an ID twice. A run with a failing read of the target is given, in which a chunk is fetched again."
  },
  {
   "property": "C36",
   "status": "proved",
   "theorems": [
    "Csn.Props.C36_available_partial",
    "Csn.Props.C36_blame",
    "Csn.Props.C36_every_chunk_returned",
    "Csn.Props.C36_available_refuted"
   ],
   "note": "C36_every_chunk_returned and C36_blame: if csn can start (arguments usable, system calls and allocations do not fail, block device large enough), a run only fails when the chain has just failed to return the first chunk not on the target with the length demanded; a run in which the chain returns what it is asked for succeeds. Neighbouring regions with the same ID must have the same length (a chain cannot return both). C36_available_partial says from contents of stores when chunks are returned: chunks found by scanning a local store or through its side-loaded index, hosted by a politely answering HTTP server (up to nine transient failures in a row) or already on the target; it assumes no store has data with a chunk's hash but another length."
  },
  {
   "property": "C37",
   "status": "partial",
   "theorems": [
    "Csn.Props.C37_failing_start_partial",
    "Csn.Props.C37_too_few_arguments",
    "Csn.Props.C37_abort_refuted"
   ],
   "note": "Nothing is modified and there is no success; but another store may make the run abort instead of failing (refuted)."
  },
  {
   "property": "C38",
   "status": "proved",
   "theorems": [
    "Csn.Props.C38_kinds",
    "Csn.Props.C38_target",
    "Csn.Props.C38_http",
    "Csn.Props.C38_local",
    "Csn.Props.C38_chain"
   ],
   "note": "Arguments are C strings. Includes that the chain csn builds has one store per argument, in order, made from it."
  },
  {
   "property": "C39",
   "status": "partial",
   "theorems": [
    "Csn.Props.C39_equivalent_partial",
    "Csn.Props.C39_identical_partial",
    "Csn.Props.C39_hits_refuted",
    "Csn.Props.C39_kcapi_refuted",
    "Csn.Props.C39_no_store",
    "Csn.Props.C39_help_alone",
    "Csn.Props.C39_help_refuted",
    "Csn.Props.C39_never_succeeds",
    "Csn.Props.C39_only_extract",
    "Csn.Props.C39_dispatch"
   ],
   "note": "Refuted: csn uses CSN_KCAPI_DRIVER, casync does not; --help with further words goes on without a store and dereferences NULL. Also, casync may print an uninitialised number as hits of a store. Proved as equality of result and effects up to these numbers for every command line with stores, unless csn cannot use the kernel driver; exactly if there are not more stores than initial slots. The behaviour of getopt_long is modelled, not part of the repository."
  },
  {
   "property": "C40",
   "status": "partial",
   "theorems": [
    "Csn.Props.C40_involution_partial",
    "Csn.Props.C40_huge_refuted"
   ],
   "note": "Refuted for inputs of 4 GiB and more (length truncated to 32 bits). Proved below; OpenSSL 3 refuses empty input."
  },
  {
   "property": "C41",
   "status": "partial",
   "theorems": [
    "Csn.Props.C41_streaming_partial"
   ],
   "note": "Proved for inputs below 4 GiB; larger ones are truncated (C40_huge_refuted)."
  },
  {
   "property": "C42",
   "status": "proved",
   "theorems": [
    "Csn.Props.C42_xchacha20",
    "Csn.Props.C42_keystream"
   ],
   "note": "Against a specification written from RFC 8439 and the XChaCha draft, which reproduces their test vectors; OpenSSL's ChaCha20 itself is modelled, not verified."
  },
  {
   "property": "C43",
   "status": "proved",
   "theorems": [
    "Csn.Props.C43_keyspec"
   ],
   "note": "A key file's text is cut at its last line break, see C45."
  },
  {
   "property": "C44",
   "status": "proved",
   "theorems": [
    "Csn.Props.C44_id_text"
   ],
   "note": ""
  },
  {
   "property": "C45",
   "status": "partial",
   "theorems": [
    "Csn.Props.C45_chomp_refuted",
    "Csn.Props.C45_chomp_partial"
   ],
   "note": "Refuted: a text with an inner line break and none at the end is cut off. Proved for all other texts."
  },
  {
   "property": "C46",
   "status": "partial",
   "theorems": [
    "Csn.Props.C46_derived_name",
    "Csn.Props.C46_same_id_partial",
    "Csn.Props.C46_refuted"
   ],
   "note": "The derived name is proved to be an involution always. Refuted: names with four extra characters before .cacnk are accepted, their derived names are not. Same ID proved for chunk names."
  },
  {
   "property": "C47",
   "status": "partial",
   "theorems": [
    "Csn.Props.C47_one_file_partial",
    "Csn.Props.C47_no_file_modified_partial",
    "Csn.Props.C47_refuted"
   ],
   "note": "Refuted when the existence check fails for another reason than absence. Proved for every run without failing calls (and one conversion with any failure but that one) and every stop point. Symbolic links and concurrent changes are not modelled."
  },
  {
   "property": "C48",
   "status": "partial",
   "theorems": [
    "Csn.Props.C48_one_file_partial",
    "Csn.Props.C48_list_partial",
    "Csn.Props.C48_succeeds",
    "Csn.Props.C48_refuted",
    "Csn.Props.C48_existing_partial"
   ],
   "note": "Refuted: an output left incomplete by a killed run is taken for a success later. Proved for outputs that did not exist and inputs below 4 GiB, for single files and lists; an existing regular output is as before or holds the conversion; conversely success is proved when nothing fails."
  },
  {
   "property": "C49",
   "status": "partial",
   "theorems": [
    "Csn.Props.C49_accepted_partial",
    "Csn.Props.C49_refused",
    "Csn.Props.C49_refuted"
   ],
   "note": "Refuted: four arbitrary characters between digits and .cacnk are accepted. The exact set of accepted names is proved."
  },
  {
   "property": "C50",
   "status": "proved",
   "theorems": [
    "Csn.Props.C50_copies",
    "Csn.Props.C50_too_small",
    "Csn.Props.C50_succeeds"
   ],
   "note": "For every positive transfer size (the code's is 1 MiB); includes that patchdd succeeds when nothing fails."
  },
  {
   "property": "C51",
   "status": "proved",
   "theorems": [
    "Csn.Props.C51_writes_from_first_difference",
    "Csn.Props.C51_second_run"
   ],
   "note": "In terms of positions covered by writes, as the kernel may split a write."
  },
  {
   "property": "C52",
   "status": "proved",
   "theorems": [
    "Csn.Props.C52_crash_consistency",
    "Csn.Props.C52_durable"
   ],
   "note": "Durability against a specification of what a power cut may leave (Spec/Durable)."
  },
  {
   "property": "C53",
   "status": "proved",
   "theorems": [
    "Csn.Props.C53_read_exact",
    "Csn.Props.C53_read_failure_has_cause",
    "Csn.Props.C53_read_succeeds",
    "Csn.Props.C53_write_prefix",
    "Csn.Props.C53_write_exact",
    "Csn.Props.C53_write_succeeds"
   ],
   "note": ""
  },
  {
   "property": "C54",
   "status": "partial",
   "theorems": [
    "Csn.Props.C54_digest_partial",
    "Csn.Props.C54_early_failure_partial",
    "Csn.Props.C54_disabled_for_good",
    "Csn.Props.C54_refuted"
   ],
   "note": "Refuted: when the kernel interface fails after a transfer, only the unsent rest is hashed. Proved when the call does not disable the interface, and for failures before any transfer."
  },
  {
   "property": "C55",
   "status": "partial",
   "theorems": [
    "Csn.Props.C55_drawing",
    "Csn.Props.C55_range",
    "Csn.Props.C55_proportion_partial",
    "Csn.Props.C55_refuted",
    "Csn.Props.C55_patchdd_partial",
    "Csn.Props.C55_shown"
   ],
   "note": "Refuted from 42949673 entries on (32 bit product). Range, drawing and when it is shown are proved always, the rest below that size."
  },
  {
   "property": "C56",
   "status": "partial",
   "theorems": [
    "Csn.Props.C56_everything_may_be_lost",
    "Csn.Props.C56_nothing_to_do_partial",
    "Csn.Props.C56_refuted"
   ],
   "note": "Refuted: nothing is ever flushed, so after any run a power cut may leave the old contents. Proved only for a target already in sync."
  },
  {
   "property": "C57",
   "status": "partial",
   "theorems": [
    "Csn.Props.C57_estimate_zero",
    "Csn.Props.C57_refuted",
    "Csn.Props.C57_large_stores_do_not_abort_partial",
    "Csn.Props.C57_refuted_index"
   ],
   "note": "Refuted: files below 10/12 of an average chunk, and side-load indices without entries or with an empty entry, abort the program. Proved for all other files."
  },
  {
   "property": "C58",
   "status": "partial",
   "theorems": [
    "Csn.Props.C58_only_verified_data_partial",
    "Csn.Props.C58_refuted"
   ],
   "note": "Refuted with C27's index; the hash is proved when neighbouring entries with the same ID have the same length, everything else always."
  },
  {
   "property": "C59",
   "status": "proved",
   "theorems": [
    "Csn.Props.C59_filtering"
   ],
   "note": ""
  },
  {
   "property": "C60",
   "status": "partial",
   "theorems": [
    "Csn.Props.C60_no_undefined_behaviour_partial",
    "Csn.Props.C60_overread_refuted",
    "Csn.Props.C60_double_free_refuted"
   ],
   "note": "Refuted: over-read with C27's index, double free after a failing rescan. Proved without such indices and, if a local store is given together with an index that is wrong about it, without failing system calls or allocations."
  },
  {
   "property": "C61",
   "status": "proved",
   "theorems": [
    "Csn.Props.C61_one_outcome",
    "Csn.Props.C61_runs_agree",
    "Csn.Props.C61_one_outcome_patchdd",
    "Csn.Props.C61_one_outcome_tool",
    "Csn.Props.C61_enough_calls"
   ],
   "note": "For csn, casync, patchdd and csn-tool. Assumes BUFSIZ is not zero. Together with C62: enough calls lead to the one outcome unless a server is waited for until a kill."
  },
  {
   "property": "C62",
   "status": "proved",
   "theorems": [
    "Csn.Props.C62_app_ends",
    "Csn.Props.C62_patchdd_ends",
    "Csn.Props.C62_tool_ends"
   ],
   "note": "The number may depend on the start. Assumes that the C library's qsort permutes its array (csn, casync) and that patchdd's transfer size is not zero. A wait for a server ends when the network schedule says so."
  },
  {
   "property": "C63",
   "status": "partial",
   "theorems": [
    "Csn.Props.C63_csn",
    "Csn.Props.C63_casync_partial",
    "Csn.Props.C63_casync_exact_partial",
    "Csn.Props.C63_otherwise",
    "Csn.Props.C63_skipped",
    "Csn.Props.C63_refuted"
   ],
   "note": "Refuted: casync prints uninitialised counters for stores behind the initial slots. Proved for csn and for the other counters of casync, without assumptions on files, servers and schedules; the number of skipped chunks for start conditions as in C31."
  },
  {
   "property": "C64",
   "status": "proved",
   "theorems": [
    "Csn.Props.C64_on_schedule",
    "Csn.Props.C64_offline",
    "Csn.Props.C64_totals"
   ],
   "note": "No assumptions on files, servers and schedules. What libcurl does within one transfer (name lookup, redirects) is not modelled."
  },
  {
   "property": "C65",
   "status": "partial",
   "theorems": [
    "Csn.Props.C65_line",
    "Csn.Props.C65_sites_partial",
    "Csn.Props.C65_refuted"
   ],
   "note": "Refuted: the message for a side-load index with other parameters (store-local.c:70) does not fit the buffer; half of it, the line end and the colour reset are lost. Proved for the other 247 calls and all arguments, and in general for messages that fit. How numbers are printed is a parameter; the table of calls is part of the model."
  },
  {
   "property": "C66",
   "status": "partial",
   "theorems": [
    "Csn.Props.C66_rows_partial",
    "Csn.Props.C66_refuted"
   ],
   "note": "Refuted for empty data (prints an uninitialised array); proved for all other data. The function is never called."
  },
  {
   "property": "C67",
   "status": "proved",
   "theorems": [
    "Csn.Props.C67_failure",
    "Csn.Props.C67_success",
    "Csn.Props.C67_deinit"
   ],
   "note": "Initialising twice without sha_kcapi_deinit loses a descriptor; the tools do not do that."
  },
  {
   "property": "C68",
   "status": "partial",
   "theorems": [
    "Csn.Props.C68_delta",
    "Csn.Props.C68_hash",
    "Csn.Props.C68_fill",
    "Csn.Props.C68_chunker_partial",
    "Csn.Props.C68_refuted_memory",
    "Csn.Props.C68_arguments_partial",
    "Csn.Props.C68_refuted_status"
   ],
   "note": "Refuted: an unknown benchmark ends with status 0, and the chunker benchmark does not check malloc. The rest is proved. The rate, a floating point number, is not modelled."
  },
  {
   "property": "C69",
   "status": "proved",
   "theorems": [
    "Csn.Props.C69_index_decides"
   ],
   "note": "For all pairs of successful runs whose indices describe the same regions; condition on neighbouring equal IDs as in C27, and stores that are the target under another name are excluded (Scene.own)."
  },
  {
   "property": "C70",
   "status": "proved",
   "theorems": [
    "Csn.Props.C70_cost_of_interruptions",
    "Csn.Props.C70_progress"
   ],
   "note": "Over an inductively defined sequence of runs of any length; conditions on the index as in C32. Failing system calls are excluded (a failing read ends skipping, C31_refuted)."
  },
  {
   "property": "C71",
   "status": "partial",
   "theorems": [
    "Csn.Props.C71_crypt_partial",
    "Csn.Props.C71_closed_output",
    "Csn.Props.C71_slurp",
    "Csn.Props.C71_keyspec",
    "Csn.Props.C71_refuted"
   ],
   "note": "Refuted: with standard output closed the output file gets descriptor 1 and is not closed. Proved if standard output is open; otherwise nothing but descriptor 1 is left over. In a model in which all data are arbitrary answers."
  },
  {
   "property": "C72",
   "status": "partial",
   "theorems": [
    "Csn.Props.C72_sync_partial",
    "Csn.Props.C72_end_partial",
    "Csn.Props.C72_refuted",
    "Csn.Props.C72_double_free_refuted",
    "Csn.Props.C72_local_new_refuted",
    "Csn.Props.C72_http_new_refuted"
   ],
   "note": "Refuted: index, target and local stores are never closed, the target is not freed, cipher contexts of repeated encrypt= parameters are lost, a failing rescan leads to a double free at the end, failing constructors keep descriptors and blocks. Proved: the bounds, no misuse up to the end of the synchronisation, and exactly what is left at the end if no local store failed."
  },
  {
   "property": "C73",
   "status": "partial",
   "theorems": [
    "Csn.Props.C73_streams_partial",
    "Csn.Props.C73_patchdd_partial",
    "Csn.Props.C73_refuted",
    "Csn.Props.C73_patchdd_refuted"
   ],
   "note": "Refuted: csn started with descriptors 1 and 2 closed opens the target as descriptor 2 and writes its messages to it; patchdd with 0 and 1 closed prints its results to the destination. Proved if the standard streams are open."
  },
  {
   "property": "C74",
   "status": "partial",
   "theorems": [
    "Csn.Props.C74_restart",
    "Csn.Props.C74_close",
    "Csn.Props.C74_keyspec_partial",
    "Csn.Props.C74_crypt_partial",
    "Csn.Props.C74_store_partial",
    "Csn.Props.C74_refuted",
    "Csn.Props.C74_store_refuted",
    "Csn.Props.C74_file_refuted"
   ],
   "note": "Refuted: `key` of do_crypt (csn-tool.c:134) and of store_handle_params is never wiped; a store whose constructor fails is freed with the key; text behind an inner line break or NUL of a key file and partly read key files are not wiped. Proved for all other buffers. OpenSSL's memory, registers and the command line are not modelled."
  },
  {
   "property": "C75",
   "status": "partial",
   "theorems": [
    "Csn.Props.C75_usage_partial",
    "Csn.Props.C75_refuted"
   ],
   "note": "Refuted: a command that does not exist prints the usage text and exits with status 0. Absence of effects is proved for all unusable command lines, the exit status for the others."
  },
  {
   "property": "C76",
   "status": "partial",
   "theorems": [
    "Csn.Props.C76_only_missing_partial",
    "Csn.Props.C76_once_partial",
    "Csn.Props.C76_downloads_partial",
    "Csn.Props.C76_refuted"
   ],
   "note": "Refuted: a local store is given up when an entry of its side-loaded index lies beyond the end of its file, and chunks it has are then looked for elsewhere. Proved if stores that count as having a chunk have no such entries, system calls and allocations do not fail, chunks with the same ID have the same length, and no store has data with a chunk's hash but another length."
  },
  {
   "property": "C77",
   "status": "proved",
   "theorems": [
    "Csn.Props.C77_encrypted",
    "Csn.Props.C77_plain"
   ],
   "note": "Composition of C48, C49, C26, C36 and C28 through the files and the server's answers. No data of a chunk's length, and no data a store could return, may have a chunk's ID without being the chunk. The decompressor is any function with the behaviour `FrameOf` on the chunk files; the key stream is the one of the model of encrypt.c (C42)."
  },
  {
   "property": "C78",
   "status": "proved",
   "theorems": [
    "Csn.Props.C78_answers",
    "Csn.Props.C78_determined",
    "Csn.Props.C78_stuck_until_reset",
    "Csn.Props.C78_pieces"
   ],
   "note": "chunker_get_id is always followed by a reset, as in all callers (an ID may be taken once per chunk; what OpenSSL does with a finished context is not modelled). Assumes a positive discriminator (C06)."
  },
  {
   "property": "C79",
   "status": "proved",
   "theorems": [
    "Csn.Props.C79_other_files",
    "Csn.Props.C79_other_files_patchdd"
   ],
   "note": "Files that libraries read on their own (certificates, configuration) are outside the model; environment variables are parameters of the model. csn-tool is left out: with a list of names its files are named by the list."
  },
  {
   "property": "C80",
   "status": "partial",
   "theorems": [
    "Csn.Props.C80_stores_partial",
    "Csn.Props.C80_crypt_partial",
    "Csn.Props.C80_refuted",
    "Csn.Props.C80_refused",
    "Csn.Props.C80_rejected"
   ],
   "note": "Refuted: the name of a store is its argument, so a key given as `#encrypt=key:...` is printed by the statistics at the end of every run; the whole argument is also printed if the store cannot be set up. Proved for keys taken from files and environment variables, for the messages of encrypt.c, of the construction of stores and their statistics, and of csn-tool. Messages of requests are not part of this model; none of them has access to the key (they print the base URL, which has no parameters, and store names at level debug)."
  },
  {
   "property": "C81",
   "status": "partial",
   "theorems": [
    "Csn.Props.C81_reported_partial",
    "Csn.Props.C81_failure",
    "Csn.Props.C81_list_partial",
    "Csn.Props.C81_refuted",
    "Csn.Props.C81_known"
   ],
   "note": "Refuted for csn-tool with names from standard input: fgets returns a null pointer at the end of the input and when a read fails, so a failed read ends the list silently and the exit status is EXIT_SUCCESS. Proved for everything else; C81_failure (unsuccessful ends) for all programs. Data that is merely not wanted (404 and 410, a target chunk that differs while resuming) is no failure; results that the code does not look at (close, usleep, ZSTD_initDStream, the SHA-256 functions of the chunker) are outside the model, and so are a write to stderr that fails and a negative result of EVP_Cipher (C84)."
  },
  {
   "property": "C82",
   "status": "partial",
   "theorems": [
    "Csn.Props.C82_writes_partial",
    "Csn.Props.C82_trusted",
    "Csn.Props.C82_http",
    "Csn.Props.C82_order",
    "Csn.Props.C82_success",
    "Csn.Props.C82_rescan",
    "Csn.Props.C82_no_ub",
    "Csn.Props.C82_refuted",
    "Csn.Props.C82_refuted_side",
    "Csn.Props.C82_refuted_target",
    "Csn.Props.C82_covers",
    "Csn.Props.C82_run"
   ],
   "note": "Refuted: data of a scanned seed file, of a seed file whose index entry was checked once, and of the target as a store is not compared again, so a file that changes in between makes csn write wrong data and report success. Proved: everything else; the hashes for chunks that were compared, in particular for all runs with HTTP stores only. In a model of the loop in which every read of a file gives arbitrary bytes; C82_covers shows that every run of the model of the whole program, killed or not, is one of these, with the same writes, and C82_run draws the conclusion for it, for local stores that are the target under another name as well."
  },
  {
   "property": "C83",
   "status": "proved",
   "theorems": [
    "Csn.Props.C83_printed_iff_success",
    "Csn.Props.C83_count",
    "Csn.Props.C83_all_skipped"
   ],
   "note": "The percentage and the elapsed time printed beside the number are not modelled (the percentage of an empty source is 0.0/0, printed as nan)."
  },
  {
   "property": "C84",
   "status": "partial",
   "theorems": [
    "Csn.Props.C84_same",
    "Csn.Props.C84_one_partial",
    "Csn.Props.C84_list_partial",
    "Csn.Props.C84_broken_partial",
    "Csn.Props.C84_refuted"
   ],
   "note": "Refuted: EVP_Cipher returns a number <= 0 (documented) or -1 (OpenSSL 3) when it fails, encrypt_do looks for 0 only; csn-tool then stores the chunk unencrypted under the name of the encrypted one and succeeds. Proved for failures reported with 0; C84_same connects the model with that of C46-C49. On the side of csn such data is refused like any wrong data (C19, C82_http)."
  },
  {
   "property": "C85",
   "status": "partial",
   "theorems": [
    "Csn.Props.C85_twice_the_body_partial",
    "Csn.Props.C85_frames_partial",
    "Csn.Props.C85_refuted"
   ],
   "note": "Refuted: ZSTD_decompressStream returns at the end of a frame, and handle_data calls it once per fragment, so a body of many small frames accumulates in the decode buffer, which has no limit and is not given back. Proved: both bounds."
  },
  {
   "property": "C86",
   "status": "proved",
   "theorems": [
    "Csn.Props.C86_same",
    "Csn.Props.C86_unused",
    "Csn.Props.C86_success",
    "Csn.Props.C86_empty_region"
   ],
   "note": "Without the condition on empty regions it is wrong (C86_empty_region): csn accepts that nobody has the chunk of an empty region, but a store that has one for its ID makes the run fail. The additional store has no key, and memory does not run out: reading a key and allocations would take from the schedules."
  },
  {
   "property": "C87",
   "status": "proved",
   "theorems": [
    "Csn.Props.C87_writes",
    "Csn.Props.C87_stays",
    "Csn.Props.C87_success",
    "Csn.Props.C87_remote"
   ],
   "note": "In the model of C82 (arbitrary reads), with the accesses of all processes to the target in one history in which reads deliver what is there. Indices as in C58 (neighbours with the same ID have the same length), no collisions within a region's length. Local stores must be right when they hand out something (C82 says when they compare); C87_remote is without local stores."
  },
  {
   "property": "C88",
   "status": "proved",
   "theorems": [
    "Csn.Props.C88_digest",
    "Csn.Props.C88_once",
    "Csn.Props.C88_writes",
    "Csn.Props.C88_success",
    "Csn.Props.C88_no_ub",
    "Csn.Props.C88_may_refuse"
   ],
   "note": "In the model of C82, with the digests as further answers of the machine; C88_digest and C88_once say that sha_once gives no others (the driver computes SHA-256). The loop of the model may get any number of wrong digests. C87 holds for such runs, too. The condition on shorter data is needed (example with noZeros); what is longer and ends with the chunk is taken by the stores and refused by the comparison of lengths in main.c:61. That right data may be refused: C88_may_refuse."
  },
  {
   "property": "C89",
   "status": "partial",
   "theorems": [
    "Csn.Props.C89_bytes",
    "Csn.Props.C89_kept",
    "Csn.Props.C89_parts",
    "Csn.Props.C89_others",
    "Csn.Props.C89_success_partial",
    "Csn.Props.C89_lists",
    "Csn.Props.C89_covers",
    "Csn.Props.C89_refuted"
   ],
   "note": "Refuted in the last point, in two ways: a run that looked for the output before another run created it empties the other's finished file, and if it then fails or is killed, the output is incomplete although the other run reported success (there is no O_EXCL and no rename); and a run that finds an output which another run is still writing reports success at once. Proved: the other points, and the last one if no run that created the output failed or was killed. In a model in which everything that depends on files is an answer, with the accesses of all processes in one history; C89_covers shows that the runs of the model of C46-C49 are among these. access reports the truth (a failing access is a missing file for csn-tool, which then overwrites it), inputs are read at one instant, and no input is the output of another conversion."
  },
  {
   "property": "C90",
   "status": "proved",
   "theorems": [
    "Csn.Props.C90_rounds",
    "Csn.Props.C90_source",
    "Csn.Props.C90_success",
    "Csn.Props.C90_writes",
    "Csn.Props.C90_stays",
    "Csn.Props.C90_csn",
    "Csn.Props.C90_patchdd",
    "Csn.Props.C90_covers"
   ],
   "note": "In a model of patchdd in which everything that depends on files is an answer, with the accesses to the target of all processes, csn's as in C87, in one history. C90_covers shows that the runs of the model of C50-C52 are among these. For the second part the sources must not change and have nothing but bytes of the image; an example shows that patchdd reports success with a mixture of two images if its source changes. Single bytes of the target are read and written atomically."
  },
  {
   "property": "C91",
   "status": "proved",
   "theorems": [
    "Csn.Props.C91_before",
    "Csn.Props.C91_meet",
    "Csn.Props.C91_asked",
    "Csn.Props.C91_few",
    "Csn.Props.C91_update"
   ],
   "note": "The old version is a store without an index of its own, so that it is scanned with the parameters of the index (with an index beside it C76 applies). That there is a boundary where the common end starts is a hypothesis about the two files; C91_meet says when it arises. It need not arise at all: without a cut by the hash chunks of maximal size follow each other in both versions. Conditions on the machine as in C36 and C76."
  },
  {
   "property": "C92",
   "status": "proved",
   "theorems": [
    "Csn.Props.C92_concat",
    "Csn.Props.C92_windows",
    "Csn.Props.C92_made",
    "Csn.Props.C92_image",
    "Csn.Props.C92_zeros",
    "Csn.Props.C92_scan",
    "Csn.Props.C92_store"
   ],
   "note": "The comment in the test says a window of one byte and zeros never cuts; proved for all bytes (C92_windows), although it is not needed, because the minimal size is larger than the window. A store smaller than ten twelfths of the average size is excluded (C57)."
  },
  {
   "property": "C93",
   "status": "proved",
   "theorems": [
    "Csn.Props.C93_index",
    "Csn.Props.C93_new",
    "Csn.Props.C93_store",
    "Csn.Props.C93_limit",
    "Csn.Props.C93_target",
    "Csn.Props.C93_help"
   ],
   "note": "What the index occupies at a time; while it grows, realloc may hold the old and the new block. For a local store the file must not change (nor may another process change it) between creation and the last request. C93_target speaks of the state after any number of entries, so of every moment between two entries, also in runs that are killed."
  },
  {
   "property": "C94",
   "status": "proved",
   "theorems": [
    "Csn.Props.C94_modified",
    "Csn.Props.C94_made",
    "Csn.Props.C94_left"
   ],
   "note": "C47 without its condition that no call fails. The last point (C94_left) is for one conversion into a file that is regular or missing; C94_modified and C94_made are for all runs. As in C46-C49 there are no symbolic links and no other processes (C89)."
  },
  {
   "property": "C95",
   "status": "proved",
   "theorems": [
    "Csn.Props.C95_division",
    "Csn.Props.C95_conversion",
    "Csn.Props.C95_defined",
    "Csn.Props.C95_scene",
    "Csn.Props.C95_no_scan",
    "Csn.Props.C95_rounding",
    "Csn.Props.C95_value",
    "Csn.Props.C95_monotone",
    "Csn.Props.C95_usable",
    "Csn.Props.C95_close",
    "Csn.Props.C95_powers",
    "Csn.Props.C95_default",
    "Csn.Props.C95_uncut",
    "Csn.Props.C95_machines_differ"
   ],
   "note": "Doubles as multiples of 2^-1074, rounding to nearest, ties to even (Spec/Double says what that is, without an algorithm); size_t has 64 bits. Not modelled: other rounding modes, x87 arithmetic with more bits, overflow (no value here is near it). C95_usable gives the hypotheses of all scan theorems (ScanEnv) and C95_scene those of the theorems about runs (Scene), so these hold with the formula as computed. C95_close bounds the difference; that there is none at all for averages up to 9115536 was seen by trying all of them outside Lean, which is not a proof."
  },
  {
   "property": "C96",
   "status": "proved",
   "theorems": [
    "Csn.Props.C96_all_down",
    "Csn.Props.C96_each",
    "Csn.Props.C96_given_up",
    "Csn.Props.C96_patient",
    "Csn.Props.C96_exactly"
   ],
   "note": "The promise of the manual page (a store is disabled after a number of transient failures). Waiting is what the program sleeps; the time curl itself takes is not modelled. That all attempts at the server fail is a hypothesis about the schedule of network results of that store's URL only; results for other URLs are arbitrary. That such a store does no harm if another one has the chunks is contained in C36, which asks nothing of the stores that are not the source. C96_patient supposes that memory suffices (the store fails at once if the URL cannot be copied); other errors of curl, such as a certificate that is not accepted, are not borne even once (example)."
  }
 ]
}