{"claims": [
{"property": "C01", "status": "proved", "theorems": ["Wdt.C01_varint_roundtrip", "Wdt.C01_varint_buffer_roundtrip", "Wdt.C01_varint_compact"], "note": ""},
{"property": "C02", "status": "proved", "theorems": ["Wdt.C02_zigzag64_roundtrip", "Wdt.C02_zigzag32_roundtrip", "Wdt.C02_nonneg_roundtrip", "Wdt.C02_decoded_in_range", "Wdt.C02_int32_refuses", "Wdt.C02_fixed_roundtrip", "Wdt.C02_fixed_refuses_negative"], "note": ""},
{"property": "C03", "status": "proved", "theorems": ["Wdt.C03_encodeVarU64", "Wdt.C03_before_start", "Wdt.C03_encodeVarI64", "Wdt.C03_encodeVarI64C", "Wdt.C03_encodeIntFixed", "Wdt.C03_encodeString"], "note": ""},
{"property": "C04", "status": "proved", "theorems": ["Wdt.C04_no_out_of_bounds_read", "Wdt.C04_make_range", "Wdt.C04_rest_is_suffix", "Wdt.C04_string_is_substring"], "note": ""},
{"property": "C05", "status": "proved", "theorems": ["Wdt.C05_header_roundtrip", "Wdt.C05_decodeHeader_total", "Wdt.C05_no_flags"], "note": ""},
{"property": "C06", "status": "proved", "theorems": ["Wdt.C06_header_fits", "Wdt.C06_bound_is_tight"], "note": ""},
{"property": "C07", "status": "proved", "theorems": ["Wdt.C07_checkpoints_roundtrip", "Wdt.C07_checkpoints_lossless", "Wdt.C07_local_checkpoint_fits", "Wdt.C07_decodeCheckpoints_total", "Wdt.C07_pre27_minus_one"], "note": ""},
{"property": "C08", "status": "partial", "theorems": ["Wdt.C08_settings_roundtrip", "Wdt.C08_settings_fit", "Wdt.C08_resume_long_id_truncated", "Wdt.C08_decodeSettings_total"], "note": "Round trip, size bound and totality are proved for all inputs; when resuming with a transfer id longer than about 230 bytes the code sends only 256 bytes of the message (C08_resume_long_id_truncated)."},
{"property": "C09", "status": "proved", "theorems": ["Wdt.C09_done", "Wdt.C09_size", "Wdt.C09_chunksCmd", "Wdt.C09_footer", "Wdt.C09_encryption", "Wdt.C09_abort", "Wdt.C09_decodeAbort_total"], "note": ""},
{"property": "C10", "status": "proved", "theorems": ["Wdt.C10_roundtrip", "Wdt.C10_progress", "Wdt.C10_decode_total"], "note": ""},
{"property": "C11", "status": "partial", "theorems": ["Wdt.C11_exchange_partial", "Wdt.C11_endless", "Wdt.C11_boundary_endless", "Wdt.C11_duplicate", "Wdt.C11_count"], "note": "Proved when every record's size bound is strictly below the message size; the code loops for ever or duplicates records otherwise (C11_endless, C11_boundary_endless, C11_duplicate)."},
{"property": "C12", "status": "proved", "theorems": ["Wdt.C12_agree_on_min", "Wdt.C12_sound", "Wdt.C12_asks_what_it_uses", "Wdt.C12_old_refused", "Wdt.C12_threads_agree", "Wdt.C12_threads_proceed", "Wdt.C12_zero_version_crashes", "Wdt.C12_receiver_never_answers_zero"], "note": "All positive version pairs. C12_zero_version_crashes records a crash provoked only by a peer this code never produces (C12_receiver_never_answers_zero)."},
{"property": "C13", "status": "proved", "theorems": ["Wdt.C13_merge_covers", "Wdt.C13_merge_separated", "Wdt.C13_order_irrelevant"], "note": ""},
{"property": "C14", "status": "proved", "theorems": ["Wdt.C14_remaining_exact", "Wdt.C14_nothing_remaining_iff"], "note": ""},
{"property": "C15", "status": "proved", "theorems": ["Wdt.C15_tile_range", "Wdt.C15_fresh_file", "Wdt.C15_empty_file", "Wdt.C15_resumed_file", "Wdt.C15_status", "Wdt.C15_hostile_list_endless"], "note": ""},
{"property": "C16", "status": "proved", "theorems": ["Wdt.C16_blocks_of_files", "Wdt.C16_every_byte_somewhere", "Wdt.C16_conservation", "Wdt.C16_no_check_failure", "Wdt.C16_early_pop_duplicates"], "note": ""},
{"property": "C17", "status": "proved", "theorems": ["Wdt.C17_strict_weak_order", "Wdt.C17_top_exists", "Wdt.C17_pop_order"], "note": ""},
{"property": "C18", "status": "proved", "theorems": ["Wdt.C18_checkpoint_resumes", "Wdt.C18_block_in_flight", "Wdt.C18_old_checkpoint_charged_twice"], "note": "Checkpoints of old protocol versions do not name the block and can be charged to two blocks (C18_old_checkpoint_charged_twice)."},
{"property": "C19", "status": "proved", "theorems": ["Wdt.C19_refused_iff", "Wdt.C19_refused_no_effect", "Wdt.C19_refused_system", "Wdt.C19_acknowledged_blocks_can_return"], "note": "C19_acknowledged_blocks_can_return shows what is not refused: going behind a WAIT/ERR acknowledgement."},
{"property": "C20", "status": "proved", "theorems": ["Wdt.C20_every_byte_conserved", "Wdt.C20_blocks_conserved", "Wdt.C20_everything_delivered", "Wdt.C20_no_check_failure"], "note": ""},
{"property": "C21", "status": "partial", "theorems": ["Wdt.C21_bounded_reconnects_partial", "Wdt.C21_gives_up_from_anywhere", "Wdt.C21_counter", "Wdt.C21_gives_up", "Wdt.C21_reconnect_reads_checkpoint", "Wdt.C21_thread_no_fault", "Wdt.C21_zero_retries_crashes", "Wdt.C21_ends", "Wdt.C21_ends_from_anywhere", "Wdt.C21_violated_made_up"], "note": "For max_transfer_retries >= 1 (with 0 the code dereferences a null socket, C21_zero_retries_crashes), and as long as the receiver does not make up what has arrived: the code takes a local checkpoint with as many blocks as the last but another block and some bytes of it for progress, whether the thread has sent that block or not, so such a receiver keeps the thread connecting for ever (C21_violated_made_up). C21_ends bounds all steps of a thread, not just connections, by the events that let it go on."},
{"property": "C22", "status": "partial", "theorems": ["Wdt.C22_success_means_sent", "Wdt.C22_success_reported", "Wdt.C22_nothing_left", "Wdt.C22_all_opened", "Wdt.C22_empty_file_not_noticed", "Wdt.C22_thread_ok_means_done"], "note": "Proved for bytes, directories and files with an error code; an empty file left in the queue while every thread says OK is not noticed by the report (C22_empty_file_not_noticed)."},
{"property": "C23", "status": "partial", "theorems": ["Wdt.C23_success_means_received", "Wdt.C23_no_encryption_failure_partial", "Wdt.C23_encryption_failure_hidden", "Wdt.C23_disagreement_hidden"], "note": "Counts and sender errors proved for all inputs; an encryption failure is hidden by a larger code or by threads told different totals (C23_encryption_failure_hidden, C23_disagreement_hidden)."},
{"property": "C24", "status": "partial", "theorems": ["Wdt.C24_counters_sum", "Wdt.C24_error_iff", "Wdt.C24_error_any_order", "Wdt.C24_code_any_order_partial", "Wdt.C24_code_depends_on_order"], "note": "Whether it is an error, and all sums, never depend on the order; which code is reported does when threads were told different totals (C24_code_depends_on_order)."},
{"property": "C25", "status": "proved", "theorems": ["Wdt.C25_entry_roundtrip", "Wdt.C25_entry_injective", "Wdt.C25_long_name_crash"], "note": ""},
{"property": "C26", "status": "proved", "theorems": ["Wdt.C26_cut", "Wdt.C26_clean_boundary", "Wdt.C26_append_continues", "Wdt.C26_always_ends"], "note": ""},
{"property": "C27", "status": "proved", "theorems": ["Wdt.C27_parse_says", "Wdt.C27_written_says", "Wdt.C27_never_unrecorded", "Wdt.C27_reparse_same"], "note": ""},
{"property": "C28", "status": "proved", "theorems": ["Wdt.C28_compact_same", "Wdt.C28_compacts_complete", "Wdt.C28_no_sender_invalid"], "note": "For logs with a sender address (the header always has one); C28_no_sender_invalid shows the case without."},
{"property": "C29", "status": "proved", "theorems": ["Wdt.C29_deletions_exact", "Wdt.C29_no_deletion", "Wdt.C29_deletions_empty"], "note": ""},
{"property": "C30", "status": "proved", "theorems": ["Wdt.C30_one_inside", "Wdt.C30_nothing_after_success", "Wdt.C30_no_lost_wakeup", "Wdt.C30_reenter_after_failure"], "note": ""},
{"property": "C31", "status": "partial", "theorems": ["Wdt.C31_no_early_pass", "Wdt.C31_no_crash", "Wdt.C31_released_partial", "Wdt.C31_vanished_thread_blocks"], "note": "Proved when every thread that leaves calls deRegister; a thread whose start() returns before that point blocks the others (C31_vanished_thread_blocks)."},
{"property": "C32", "status": "partial", "theorems": ["Wdt.C32_at_most_once", "Wdt.C32_start_hook", "Wdt.C32_end_hook_last", "Wdt.C32_end_hook_partial", "Wdt.C32_no_crash", "Wdt.C32_vanished_thread_no_hook"], "note": "At most once and order always; that the end hook runs needs every thread to reach it (C32_vanished_thread_no_hook)."},
{"property": "C33", "status": "partial", "theorems": ["Wdt.C33_done_partial", "Wdt.C33_checkpoints_handed", "Wdt.C33_no_deadlock", "Wdt.C33_silent_end", "Wdt.C33_done_while_receiving", "Wdt.C33_late_failure"], "note": "Proved for the moment of the decision and threads that leave a checkpoint when they fail; the code violates the full statement in three ways (C33_silent_end, C33_done_while_receiving, C33_late_failure)."},
{"property": "C34", "status": "partial", "theorems": ["Wdt.C34_parse_partial", "Wdt.C34_fragmentation_partial", "Wdt.C34_bytes_behind_done", "Wdt.C34_violated_long_name", "Wdt.C34_violated_long_id", "Wdt.C34_violated_behind_done", "Wdt.C34_violated_size_flood", "Wdt.C34_delivery_partial"], "note": "Proved: the code agrees with a parser of the whole byte stream, for every fragmentation and every previous buffer contents, on all streams that parser accepts, and an undisturbed sender's stream is delivered exactly. Missing: headers over 256 bytes, settings over 256 bytes and floods of SIZE commands, where the code violates the property (C34_violated_*)."},
{"property": "C35", "status": "partial", "theorems": ["Wdt.C35_writes_independent", "Wdt.C35_stream_partial", "Wdt.C35_violated_boundary", "Wdt.C35_violated_timeout"], "note": "Round trip proved for every cipher, write split, read split, interval and fragmentation, except reads that ask for more than was written when the plaintext ends at a tag position (violated: C35_violated_boundary) and timeouts right after a tag (violated: C35_violated_timeout)."},
{"property": "C36", "status": "proved", "theorems": ["Wdt.C36_escape_roundtrip", "Wdt.C36_escape_injective", "Wdt.C36_unescape_exact"], "note": "Round trip, alphabet and injectivity for all byte strings; the language accepted by un-escaping characterised exactly."},
{"property": "C37", "status": "partial", "theorems": ["Wdt.C37_url_roundtrip", "Wdt.C37_errors_reported", "Wdt.C37_key_roundtrip", "Wdt.C37_key_accepted", "Wdt.C37_violated_empty_key", "Wdt.C37_violated_type_overflow", "Wdt.C37_violated_port_overflow", "Wdt.C37_request_roundtrip_partial", "Wdt.C37_violated_port_zero", "Wdt.C37_violated_host", "Wdt.C37_violated_leading_amp"], "note": "Round trip for every request with a host name without ? and NUL, real port numbers, a non-empty key; the directory is not part of the url. Violated for the port list 0..n-1 (C37_violated_port_zero), empty keys, host names with ?; parsing hostile urls can overflow an int (C37_violated_type_overflow, C37_violated_port_overflow). A url is accepted without error only if every part of it was understood (C37_errors_reported)."},
{"property": "C38", "status": "proved", "theorems": ["Wdt.C38_global", "Wdt.C38_namespace"], "note": "Global and per-namespace bounds for all interleavings of all calls, limits may change within (0,M]."},
{"property": "C39", "status": "partial", "theorems": ["Wdt.C39_counts_partial", "Wdt.C39_shutdown_partial", "Wdt.C39_capacity_partial", "Wdt.C39_violated_race"], "note": "Proved except when a namespace is removed while a create call of it is in progress; that case is refuted (C39_violated_race: count leaks for ever, shutdown aborts)."},
{"property": "C40", "status": "proved", "theorems": ["Wdt.C40_average", "Wdt.C40_exact", "Wdt.C40_pieces", "Wdt.C40_violated_reset"], "note": "Doubles are modelled as rationals. Holds between resets; C40_violated_reset: setting the rates (done whenever another sender or receiver sharing the throttler is made) restarts the counting."},
{"property": "C41", "status": "partial", "theorems": ["Wdt.C41_peak_partial", "Wdt.C41_violated", "Wdt.C41_violated_unconfigured"], "note": "C41_peak_partial has one extra unit per call. C41_violated: the bucket is an integer whose negative level is rounded up, so any amount can be admitted in a tenth of a second. C41_violated_unconfigured: the constructor ignores the documented automatic configuration."},
{"property": "C42", "status": "partial", "theorems": ["Wdt.C42_reads_block", "Wdt.C42_error_reported", "Wdt.C42_short_file", "Wdt.C42_again", "Wdt.C42_direct_partial", "Wdt.C42_within_buffer", "Wdt.C42_violated_direct_short_file", "Wdt.C42_violated_direct_short_read"], "note": "Exact for buffered reads. With direct I/O in part: C42_violated_direct_short_file (a file that shrinks kills the sender process) and C42_violated_direct_short_read."},
{"property": "C43", "status": "proved", "theorems": ["Wdt.C43_written", "Wdt.C43_failed", "Wdt.C43_concurrent", "Wdt.C43_synced"], "note": "On the level of system calls on file contents; EINTR, short and failed writes, other threads in between."},
{"property": "C44", "status": "proved", "theorems": ["Wdt.C44_sized_once", "Wdt.C44_sized_before_opened", "Wdt.C44_exact_not_sized", "Wdt.C44_no_lost_wakeup", "Wdt.C44_no_deadlock"], "note": "All interleavings of any number of threads, spurious wake-ups included."},
{"property": "C45", "status": "proved", "theorems": ["Wdt.C45_equal", "Wdt.C45_nothing_old", "Wdt.C45_fresh", "Wdt.C45_resumed"], "note": "One file, any number of threads; creation and sizing (C44), single write(2) calls of partial and repeated blocks (C43) and the sender's block split (C15) put together. The data of an attempt are a prefix of the block (C42; integrity on the wire is C34/C53)."},
{"property": "C46", "status": "proved", "theorems": ["Wdt.C46_kept", "Wdt.C46_stays_aborted", "Wdt.C46_threads_stop", "Wdt.C46_violated_ok"], "note": "Proved for the calls themselves and for the threads: after an abort for another reason no thread begins another step. C46_violated_ok is a neighbouring finding: an ABORT message whose error code is OK clears what the application set."},
{"property": "C47", "status": "partial", "theorems": ["Wdt.C47_counted_after_tag_partial", "Wdt.C47_each_connection", "Wdt.C47_all_counted", "Wdt.C47_counted_once", "Wdt.C47_partial_block", "Wdt.C47_violated_checksum", "Wdt.C47_violated_plain_peer"], "note": "Proved for every history of a thread with tags and without checksums; with checksums a block is counted before a tag was verified (C47_violated_checksum), and where peers without encryption are allowed one such connection turns tags off (C47_violated_plain_peer)."},
{"property": "C48", "status": "partial", "theorems": ["Wdt.C48_inside_partial", "Wdt.C48_violated", "Wdt.C48_violated_nul", "Wdt.C48_violated_crash"], "note": "Names without '..' and NUL. C48_violated: '../e' leads out of the root; C48_violated_nul; C48_violated_crash: a name with a leading slash ends the receiver process. Symbolic links are not modelled."},
{"property": "C49", "status": "partial", "theorems": ["Wdt.C49_initial_agreement", "Wdt.C49_after_negotiation_partial", "Wdt.C49_violated"], "note": "Violated by the code for negotiated versions 10 and 11 on threads that did not run the funnel (C49_violated)."},
{"property": "C50", "status": "partial", "theorems": ["Wdt.C50_chunk_length_overflow", "Wdt.C50_chunk_length_partial"], "note": "Violated by the code: unchecked chunk message length (C50_chunk_length_overflow)."},
{"property": "C51", "status": "proved", "theorems": ["Wdt.C51_sequence_ids_distinct", "Wdt.C51_needs_distinct_ids"], "note": ""},
{"property": "C52", "status": "proved", "theorems": ["Wdt.C52_totals_agree"], "note": ""},
{"property": "C53", "status": "partial", "theorems": ["Wdt.C53_finish_partial", "Wdt.C53_finish_can_crash"], "note": "Proved if some thread ended OK, and otherwise if no checkpoint claims bytes for block id 0 at offset 0; C53_finish_can_crash shows the CHECK failure of the code in the remaining case (old protocol versions)."},
{"property": "C54", "status": "partial", "theorems": ["Wdt.C54_accepted_partial", "Wdt.C54_resize_of_lost_file", "Wdt.C54_stale_size", "Wdt.C54_overflow_ub"], "note": "Violated by the code: a resize entry of a file that is no longer on disk (C54_resize_of_lost_file) or below a stale size under a reused id (C54_stale_size) invalidates the whole log; proved for logs without those."},
{"property": "C55", "status": "proved", "theorems": ["Wdt.C55_only_checked", "Wdt.C55_stream_end", "Wdt.C55_first_tag"], "note": "Proved for arbitrary arriving bytes, with timeouts. Strength against forgery rests on the cipher's tag function, which is abstract here; with a tag interval of 0 (chosen by the peer) there are no tag positions inside the stream."},
{"property": "C56", "status": "partial", "theorems": ["Wdt.C56_encrypted_peer_partial", "Wdt.C56_other_cipher_refused", "Wdt.C56_violated_downgrade", "Wdt.C56_violated_sticky", "Wdt.C56_violated_one_byte"], "note": "Proved for encrypting peers (with the limits of C35). Violated: a stream in the clear is accepted (C56_violated_downgrade), encryption then stays off for the socket (C56_violated_sticky), a one byte first read breaks the socket (C56_violated_one_byte)."},
{"property": "C57", "status": "partial", "theorems": ["Wdt.C57_send_partial", "Wdt.C57_violated_send", "Wdt.C57_violated_receive"], "note": "Proved when initialisation succeeds; refuted when it fails (the sender/receiver stays registered)."},
{"property": "C58", "status": "proved", "theorems": ["Wdt.C58_parents_first"], "note": "Same answers of the operating system to the same call within one createFile."},
{"property": "C59", "status": "proved", "theorems": ["Wdt.C59_no_crash", "Wdt.C59_one_version", "Wdt.C59_no_deadlock", "Wdt.C59_waits", "Wdt.C59_violated_unsupported"], "note": "Barrier counters replaced by what they count (C31). C59_violated_unsupported: a receiver that names a version the sender cannot use crashes a sender of several threads."},
{"property": "C60", "status": "proved", "theorems": ["Wdt.C60_exact", "Wdt.C60_errors", "Wdt.C60_ends"], "note": "File system as an oracle that does not change during discovery; regular expressions as sets of strings. With links followed C60_exact holds when no error was noted (else C61_sound)."},
{"property": "C61", "status": "proved", "theorems": ["Wdt.C61_sound", "Wdt.C61_ends"], "note": ""},
{"property": "C62", "status": "partial", "theorems": ["Wdt.C62_unopened_reported_partial", "Wdt.C62_violated", "Wdt.C62_violated_twice"], "note": "Violated: only directories that cannot be opened reach the report; C62_violated (lstat fails), C62_violated_twice (a directory reachable also through a link is skipped)."},
{"property": "C63", "status": "partial", "theorems": ["Wdt.C63_present_not_deleted_partial", "Wdt.C63_violated", "Wdt.C63_deleted_without_option", "Wdt.C63_option"], "note": "Violated: C63_violated (an unreadable directory of the source leads to deletion of its files at the destination), C63_deleted_without_option. Holds for what discovery could read."},
{"property": "C64", "status": "proved", "theorems": ["Wdt.C64_list_exact", "Wdt.C64_up_to_failure"], "note": "The entry of the failed file among the failed sources is a hypothesis (C64_list_exact hi) as in failedSourceStats_."},
{"property": "C65", "status": "proved", "theorems": ["Wdt.C65_offered_blocks_recorded", "Wdt.C65_unverified"], "note": "Recorded means handed to the log after the block was written; the file system keeps what was written to the log. C65_unverified: without verification of the sender address."},
{"property": "C66", "status": "partial", "theorems": ["Wdt.C66_offered_data_current_partial", "Wdt.C66_violated_invalid_log", "Wdt.C66_violated_race"], "note": "Violated: C66_violated_invalid_log (an invalid log is kept, but can become valid again), C66_violated_race (threads do not wait for the one that notes that the sender does not resume). Holds if data is written only by sessions that found the log usable and after that note."},
{"property": "C67", "status": "partial", "theorems": ["Wdt.C67_offered_by_size_partial", "Wdt.C67_unverified_partial", "Wdt.C67_violated_short_header"], "note": "Violated: C67_violated_short_header (header cannot be written, the receiver goes on without a log, and leaves an empty log behind). Holds if data is written only while the log is open and after the receiver noted whether the sender resumes. What the directory walk finds is an argument of the model."},
{"property": "C68", "status": "partial", "theorems": ["Wdt.C68_finish_no_crash_partial", "Wdt.C68_violated_no_files", "Wdt.C68_violated_short_header"], "note": "Violated: C68_violated_no_files (a sender without files, not resuming, into a directory with the log of another transfer), C68_violated_short_header. Holds for failed transfers, for size based resumption, and when the header of this session is in the open log; compaction excluded."},
{"property": "C69", "status": "partial", "theorems": ["Wdt.C69_recorded_offered_partial", "Wdt.C69_violated_inconsistent"], "note": "Violated: C69_violated_inconsistent (with the log of another transfer in the directory the thread that writes the log is never started, so a crash loses all progress). Holds for sessions whose writer thread runs, without size based resumption; the next process must accept the log (see C54)."},
{"property": "C70", "status": "partial", "theorems": ["Wdt.C70_done_means_arrived_partial", "Wdt.C70_report_means_arrived_partial", "Wdt.C70_refused_checkpoint_loses_data", "Wdt.C70_early_checkpoint_loses_data", "Wdt.C70_unless_receiver_thread_fails"], "note": "Violated: C70_refused_checkpoint_loses_data and C70_early_checkpoint_loses_data (two executions without misbehaving peers in which the sender reports OK and data is missing: a right checkpoint is refused by the sender, which ignores the refusal; the first needs a long name or sequence id 0, see C99). Holds without exceptions when no receiver thread gives up (C70_unless_receiver_thread_fails). Holds when no global checkpoint is refused and no receiver thread ends without leaving its checkpoint (C33). Blocks are identified by the sequence id of their file, C51 shows that files do not share them; that the bytes are the right ones is C42, C43, C45."},
{"property": "C71", "status": "proved", "theorems": ["Wdt.C71_no_circle", "Wdt.C71_sender_can_end"], "note": "The order in which receiver threads register their failure decides: a thread is only ever told of failures before its own. A receiver that puts a sender thread's own port into an ERR command could block it; both sides here are wdt."},
{"property": "C72", "status": "partial", "theorems": ["Wdt.C72_headers", "Wdt.C72_new_file_partial", "Wdt.C72_new_file_unless_receiver_thread_fails", "Wdt.C72_resumed_file_partial", "Wdt.C72_complete_file", "Wdt.C72_violated"], "note": "Joins C70 (everything arrived), C15 (the blocks of a file cover what is missing) and C45 (writes build the file). Proved without exceptions when no receiver thread gives up (C72_new_file_unless_receiver_thread_fails); otherwise with the restrictions of C70, without which it is false (C72_violated). That the data on the wire is that of the source is C34/C43, with broken connections C99, and assumed here by the definition of Received; the ranges of an earlier session are assumed to hold the source's bytes (C66)."},
{"property": "C73", "status": "proved", "theorems": ["Wdt.C73_not_forgotten", "Wdt.C73_all_leave", "Wdt.C73_block_is_taken"], "note": "rebuild of the queue (resumption) happens while no thread is inside it, as SenderThread.cpp guarantees; taken as part of the step."},
{"property": "C74", "status": "partial", "theorems": ["Wdt.C74_batch_is_out", "Wdt.C74_next_is_asked_partial", "Wdt.C74_violated_mismatch", "Wdt.C74_violated_two_phases"], "note": "Not too early: C74_batch_is_out, always. Asked at all: only when every thread sleeps in the queue or has ended (C74_next_is_asked_partial). Violated otherwise: after a version mismatch the sender can hang for ever (C74_violated_mismatch: one thread in the barrier, one in the queue, discovery waiting for the first), and with two_phases it always hangs in start() (C74_violated_two_phases). Sent does not mean received: blocks of an earlier list can still be put back."},
{"property": "C75", "status": "proved", "theorems": ["Wdt.C75_bounded", "Wdt.C75_no_hang", "Wdt.C75_ends"], "note": "Bound: C75_bounded (six steps per thread). No dead end: C75_no_hang; together C75_ends. Before a transfer has begun a long-running receiver, or one with max_accept_retries <= 0, waits for ever by design (Receiver.cpp:189). A thread that writes WAIT to a dead connection ends anyway: the theorem does not use that this write fails."},
{"property": "C76", "status": "partial", "theorems": ["Wdt.C76_socket_timeouts", "Wdt.C76_io_as_set", "Wdt.C76_accept", "Wdt.C76_connect_partial", "Wdt.C76_connect_violated", "Wdt.C76_condition", "Wdt.C76_io"], "note": "Accept, read/write and condition waits: proved. Connect: only if abort_check_interval_millis is not negative (C76_connect_partial); a negative value, documented to switch abort checks off, also switches the connect timeout off (C76_connect_violated). The system is given exactly these timeouts, each for its direction (C76_socket_timeouts), so that reads and writes end in time if the system obeys them (C76_io_as_set)."},
{"property": "C77", "status": "proved", "theorems": ["Wdt.C77_listen", "Wdt.C77_close", "Wdt.C77_found", "Wdt.C77_fair", "Wdt.C77_same_address"], "note": ""},
{"property": "C78", "status": "partial", "theorems": ["Wdt.C78_tries_all_partial", "Wdt.C78_violated", "Wdt.C78_sound", "Wdt.C78_retries"], "note": "Violated: an address that leaves the connection unanswered keeps the addresses after it from being tried, at every attempt (C78_violated). Holds when the addresses before the good one refuse (C78_tries_all_partial)."},
{"property": "C79", "status": "partial", "theorems": ["Wdt.C79_independent_partial", "Wdt.C79_sessions_complete_partial", "Wdt.C79_none_unverified", "Wdt.C79_waits_for_ever", "Wdt.C79_idle_violated", "Wdt.C79_unverified_violated"], "note": "Violated in two ways. After a session in which no sender connected (default: 50 s) the checkpoints recorded by the threads stay and make the next sender wait for itself for ever (C79_idle_violated, C79_waits_for_ever). After a session in which a thread failed with unverified blocks (encryption with tags, the default) those blocks are counted in the next session, and a block that never arrived is taken for received: success reported, file missing (C79_unverified_violated). Otherwise holds (C79_independent_partial; C79_none_unverified gives its second condition for encryption without tags or with checksums). C79_sessions_complete_partial: the receiver goes on to the next session only when all its threads have ended, and then (unless every thread recorded a failure) every block the sender created and did not report as failed has been written in full."},
{"property": "C80", "status": "partial", "theorems": ["Wdt.C80_user_wins", "Wdt.C80_type_defaults", "Wdt.C80_disk_consistent", "Wdt.C80_start_port_partial", "Wdt.C80_start_port_violated"], "note": "Violated for the option type disk: start_port does not imply static_ports there, the receiver listens on other ports (C80_start_port_violated). User values otherwise always win (C80_user_wins), defaults are those of the type (C80_type_defaults), and the failing check is reached exactly if the user asked for preallocation (C80_disk_consistent)."},
{"property": "C81", "status": "partial", "theorems": ["Wdt.C81_whole_partial", "Wdt.C81_fraction_violated", "Wdt.C81_cut_violated", "Wdt.C81_buffer_partial", "Wdt.C81_buffer_violated"], "note": "Violated: a positive block size below 1 MB switches splitting off while the receiver is told it is on (C81_fraction_violated); other fractions are cut off (C81_cut_violated); buffers near 2^31 wrap to a negative size (C81_buffer_violated). Proved for whole numbers and smaller buffers."},
{"property": "C82", "status": "partial", "theorems": ["Wdt.C82_read_partial", "Wdt.C82_accepted", "Wdt.C82_blank_violated", "Wdt.C82_shift_violated", "Wdt.C82_space_violated", "Wdt.C82_missing_violated"], "note": "Violated: an empty line ends the process (C82_blank_violated); an empty size makes the flag the size (C82_shift_violated); with the separator that the comment documents sizes become part of names (C82_space_violated); a manifest that cannot be opened means no files and success (C82_missing_violated). Proved for lines of the forms the code knows; C82_accepted for every accepted text."},
{"property": "C83", "status": "partial", "theorems": ["Wdt.C83_can_complete_partial", "Wdt.C83_breaks_never_fatal", "Wdt.C83_breaks_alone_can_be_fatal"], "note": "Violated without tag and checksum: two breaks of a connection within the same block make the sender refuse a correct checkpoint, and no continuation delivers the rest (C83_breaks_alone_can_be_fatal; at the level of bytes the first break must be right behind a header of at least 256 bytes, C99_violated_long_name, or the sequence id 0). Proved with tags or checksums: breaks alone are never fatal (C83_breaks_never_fatal), and after failures of threads any port with both threads running suffices (C83_can_complete_partial, with the exceptions of C70). Retry counters are not in this model; giving up is a step that a thread may but need not take."},
{"property": "C84", "status": "partial", "theorems": ["Wdt.C84_sender_partial", "Wdt.C84_sender_crash", "Wdt.C84_url_violated", "Wdt.C84_old_violated", "Wdt.C84_receiver_partial", "Wdt.C84_listens", "Wdt.C84_receiver_crash", "Wdt.C84_options_violated", "Wdt.C84_directory_violated", "Wdt.C84_receiver_old_violated"], "note": "Missing: requests with version 0 or less (mod 2^32) end the program (C84_sender_crash, C84_receiver_crash; reachable by a url, C84_url_violated), versions 1 to 9 are accepted though no peer can speak them (C84_old_violated, C84_receiver_old_violated), two option combinations fail a check (C84_options_violated), a directory that cannot be created is ignored (C84_directory_violated). Everything else is proved: C84_sender_partial, C84_receiver_partial, C84_listens."},
{"property": "C85", "status": "partial", "theorems": ["Wdt.C85_url_partial", "Wdt.C85_fewer_violated", "Wdt.C85_busy_violated", "Wdt.C85_late_violated"], "note": "C85_url_partial: if init returned OK the url leads the sender there. Missing: with FEWER_PORTS the program goes on but prints no url (C85_fewer_violated), so a single busy port makes the receiver unusable by url (C85_busy_violated); a thread that starts to listen later than init listens on a port that is not in the url (C85_late_violated)."},
{"property": "C86", "status": "partial", "theorems": ["Wdt.C86_sender_no_crash_partial", "Wdt.C86_one_start", "Wdt.C86_sender_not_started", "Wdt.C86_race_violated", "Wdt.C86_again_violated", "Wdt.C86_receiver_no_crash_partial", "Wdt.C86_receiver_again", "Wdt.C86_receiver_success", "Wdt.C86_receiver_twice_violated", "Wdt.C86_refused_violated", "Wdt.C86_sender_finish_waits", "Wdt.C86_receiver_finish_waits"], "note": "Missing: finish concurrent with transferAsync (C86_race_violated), sender's finish a second time (C86_again_violated), second transferAsync of a receiver (C86_receiver_twice_violated), a refused receiver with resumption or runForever (C86_refused_violated). Proved: the rest."},
{"property": "C87", "status": "partial", "theorems": ["Wdt.C87_offered_partial", "Wdt.C87_equal_partial", "Wdt.C87_resumed_transfer_partial", "Wdt.C87_violated_race", "Wdt.C87_violated_unlisted", "Wdt.C87_violated_other_source"], "note": "Proved over all histories with three restrictions: files are written only once the first thread has noted in the log whether the sender resumes, by a process that found the log usable (without it: C87_violated_race, see also C66_violated_invalid_log); what is known about each file fits the buffer in which it is sent (C87_violated_unlisted); senders with the same recovery id, configuration and verified address have the same files (C87_violated_other_source). C87_resumed_transfer_partial also has the restrictions of C70. Histories include loss of power (see C88)."},
{"property": "C88", "status": "partial", "theorems": ["Wdt.C88_offered_partial", "Wdt.C88_complete_partial", "Wdt.C88_flushed_first"], "note": "C88_flushed_first holds without restriction; the others have those of C87. A part of the log that was written and not yet flushed is treated as never written (the header of each session is flushed before files change). Assumed: a range that was flushed and not written since survives; a failing fsync of the log, which the code ignores, is not modelled."},
{"property": "C89", "status": "partial", "theorems": ["Wdt.C89_one_at_a_time_partial", "Wdt.C89_quota_partial", "Wdt.C89_without_replacing", "Wdt.C89_violated_terminate", "Wdt.C89_violated_stale", "Wdt.C89_violated_full"], "note": "Violated because a release names a destination and not a sender: a call that was replaced releases its successor (C89_violated_terminate; three senders work where two are allowed), the same after releaseStaleSenders (C89_violated_stale); with the quota used up nothing can be replaced (C89_violated_full). Proved for executions in which releases hit the sender that is meant, and for all executions without replacing and without releases by others (C89_without_replacing)."},
{"property": "C90", "status": "partial", "theorems": ["Wdt.C90_finish_partial", "Wdt.C90_violated_twice"], "note": "Proved when no two calls of wdtReceiveFinish for the same name are in progress at the same time; otherwise violated (C90_violated_twice)."},
{"property": "C91", "status": "partial", "theorems": ["Wdt.C91_exit_status", "Wdt.C91_side_partial", "Wdt.C91_violated_bad_flag", "Wdt.C91_sender_exit"], "note": "Exit status: proved (C91_exit_status, C91_sender_exit). Which side: violated with -exit_on_bad_flags=false, an unknown flag turns a sender into a receiver (C91_violated_bad_flag)."},
{"property": "C92", "status": "partial", "theorems": ["Wdt.C92_rate_partial", "Wdt.C92_sent_partial", "Wdt.C92_registered", "Wdt.C92_violated_empty", "Wdt.C92_violated_create"], "note": "Proved when no rate is set while transfers run (C92_rate_partial, C92_sent_partial); creating a sender or receiver in the same namespace sets the rates and forgets what was charged (C92_violated_create); headers of empty files are never charged (C92_violated_empty). Registration of transfers is proved for all executions (C92_registered)."},
{"property": "C93", "status": "partial", "theorems": ["Wdt.C93_counts", "Wdt.C93_histogram", "Wdt.C93_percentile", "Wdt.C93_min_partial", "Wdt.C93_violated_min"], "note": "Number, sum, maximum, histogram and percentiles proved for all calls; the minimum is right for the first kind only (C93_min_partial), for all others 0 is printed (C93_violated_min). Ranks of the percentiles (count times 0.5, 0.95, 0.99 in floating point) are parameters; the average is not modelled."},
{"property": "C94", "status": "proved", "theorems": ["Wdt.C94_safe", "Wdt.C94_no_leak", "Wdt.C94_sender_destroyed", "Wdt.C94_receiver_closed", "Wdt.C94_connection_closed", "Wdt.C94_closed", "Wdt.C94_app", "Wdt.C94_one_per_thread", "Wdt.C94_budget"], "note": "Proved for all executions of the model: C94_safe, C94_no_leak, C94_sender_destroyed, C94_receiver_closed, C94_connection_closed, C94_closed, C94_app, C94_one_per_thread, C94_budget. Assumes that the application does not close a descriptor it has lent while the sender exists, and that the log is opened once (for calling init twice see C86)."},
{"property": "C95", "status": "partial", "theorems": ["Wdt.C95_percent_partial", "Wdt.C95_violated_race", "Wdt.C95_receiver_unknown", "Wdt.C95_bar", "Wdt.C95_bar_grows", "Wdt.C95_redraw_partial", "Wdt.C95_violated_redraw", "Wdt.C95_failed_names", "Wdt.C95_count_partial", "Wdt.C95_violated_twice", "Wdt.C95_violated_missing"], "note": "C95_bar, C95_bar_grows, C95_receiver_unknown and C95_failed_names are full. C95_percent_partial assumes that nothing happens while the numbers are read; without that more than 100 percent may be shown and the width of the bar may be computed by an overflow (C95_violated_race). C95_redraw_partial assumes that no throughput gets shorter by more than a character; otherwise remains stay visible (C95_violated_redraw). C95_count_partial assumes that no name is there twice and that all failures are of files that were found; otherwise the number may be too large, 0 though a file was sent, or negative (C95_violated_twice, C95_violated_missing)."},
{"property": "C96", "status": "partial", "theorems": ["Wdt.C96_agreed", "Wdt.C96_transparent_partial", "Wdt.C96_poll_partial", "Wdt.C96_no_false_abort", "Wdt.C96_abort_partial", "Wdt.C96_violated_hidden", "Wdt.C96_violated_swallowed", "Wdt.C96_patient", "Wdt.C96_few", "Wdt.C96_violated_idle", "Wdt.C96_local_checkpoint", "Wdt.C96_violated_hostile"], "note": "Violated by the code in four ways: a heart beat that was not read yet hides the receiver's ABORT from a sender that looks for it (C96_violated_hidden), so that the sender reports a connection error instead of the receiver's reason; the read that collects heart beats throws away whatever else has arrived (C96_violated_swallowed); after 25 idle days a receiver sends no heart beats for as long again (C96_violated_idle); a hostile receiver makes the sender declare an array of negative size or read variables never set (C96_violated_hostile). Proved: agreement on heart beats, patience, few heart beats, and invisibility in the state in which the sender waits for answers."},
{"property": "C97", "status": "partial", "theorems": ["Wdt.C97_transparent_partial", "Wdt.C97_delivery_partial", "Wdt.C97_violated_boundary"], "note": "Violated by the code when the stream of a connection ends where a tag is due (C97_violated_boundary): the receiver waits for the tag, which the sender only sends in front of further data, and throws away all it has read. Proved for all other lengths, without timeouts and within the limits of C34."},
{"property": "C98", "status": "partial", "theorems": ["Wdt.C98_nothing_else", "Wdt.C98_authentic_partial", "Wdt.C98_one_stream_partial", "Wdt.C98_violated_rewrite", "Wdt.C98_violated_replay"], "note": "Violated by the code: the settings in front of the stream are not protected, so the tag interval can be set to 0, and then any known bytes can be replaced (C98_violated_rewrite); a vector sent at a change is not protected, so earlier data can be replayed there (C98_violated_replay); streams in the clear are taken as well (C56). Proved: the receiver thread does nothing but what the accepted plaintext makes it do in the clear (C98_nothing_else), and if tags cannot be forged, then up to the last tag position passed that plaintext was sent, as one stream when vectors do not change, else put together from beginnings of what was sent under one vector."},
{"property": "C99", "status": "partial", "theorems": ["Wdt.C99_break_partial", "Wdt.C99_encrypted_break_partial", "Wdt.C99_resume_partial", "Wdt.C99_violated_refused", "Wdt.C99_violated_long_name"], "note": "Violated by the code for a file with sequence id 0 and without checksums (C99_violated_refused) and for long names (C99_violated_long_name): after two breaks the sender refuses a right checkpoint and its thread ends with a protocol error. Proved otherwise within the limits of C34: any number of broken connections, each at any byte, then one good one (C99_resume_partial); what one broken connection leaves behind, in the clear (C99_break_partial) and encrypted (C99_encrypted_break_partial). One sender thread and its receiver thread; several threads are C70/C72 on the level of blocks."},
{"property": "C100", "status": "partial", "theorems": ["Wdt.C100_recorded", "Wdt.C100_percentile_partial", "Wdt.C100_violated_negative", "Wdt.C100_merge_partial", "Wdt.C100_violated_merge", "Wdt.C100_threads_partial", "Wdt.C100_violated_race", "Wdt.C100_violated_scale"], "note": "Proved: one histogram (C100_recorded). Violated by the code: percentiles of negative data are wrong (C100_violated_negative; otherwise C100_percentile_partial); merging does not carry the smallest value over, and into an empty histogram not even the minimum (C100_violated_merge; number, sum and ranges are right: C100_merge_partial); a value whose recording overlaps with the reading is lost (C100_violated_race; otherwise C100_threads_partial); periodic delivery forgets the scale (C100_violated_scale). double is modelled as exact rational numbers, integers do not overflow; the standard deviation and printing are not modelled."},
{"property": "C101", "status": "partial", "theorems": ["Wdt.C101_one_object", "Wdt.C101_faults", "Wdt.C101_options_partial", "Wdt.C101_first_use", "Wdt.C101_violated_limits", "Wdt.C101_violated_race", "Wdt.C101_violated_release"], "note": "Proved: identity of the objects (C101_one_object) and exactly when the process is ended or something undefined is done (C101_faults). Violated by the code: limits set in the options after initializeWdt are not obeyed (C101_violated_limits; exactly which limits apply and that all other options are the ones last set: C101_options_partial); getWdt during a concurrent initializeWdt ends the process (C101_violated_race); a reference kept over releaseWdt dangles (C101_violated_release). Unsynchronised accesses to initDone_ and doGlobalFlagsInit are taken as atomic; only senders are modelled."},
{"property": "C102", "status": "proved", "theorems": ["Wdt.C102_never_early", "Wdt.C102_cancelled", "Wdt.C102_aborts", "Wdt.C102_exits"], "note": "Proved in full. The standard library's wait_for with a predicate and the destructor of the future of std::async are modelled by what the C++ standard says of them; a step of the clock is one second. That a transfer ends when the abort is asked for is not part of this (C46 and C76 are)."},
{"property": "C103", "status": "partial", "theorems": ["Wdt.C103_no_key_partial", "Wdt.C103_violated_rejected", "Wdt.C103_violated_cut", "Wdt.C103_violated_hash"], "note": "For a url that a receiver tells and a sender takes the messages of both are the same for all keys with the same std::hash (for every hash function). Partial because the full statement is false: the hash itself is written (C103_violated_hash), and a url that is not accepted, for example one whose end was cut off, is written as it is, with the key (C103_violated_rejected, C103_violated_cut). Messages of other parts of the code are not modelled; they are given no key."},
{"property": "C104", "status": "partial", "theorems": ["Wdt.C104_order", "Wdt.C104_complete_partial", "Wdt.C104_unused", "Wdt.C104_throughput", "Wdt.C104_update_interval", "Wdt.C104_time_partial", "Wdt.C104_stops", "Wdt.C104_finish_returns", "Wdt.C104_no_fault", "Wdt.C104_violated_no_end", "Wdt.C104_violated_dies", "Wdt.C104_violated_start", "Wdt.C104_violated_division", "Wdt.C104_violated_negative", "Wdt.C104_violated_delay"], "note": "Order, absence of overlap, the formula for the throughput, at most one call of progress after the threads were joined, that finish can return and that nothing else goes wrong are proved for all interleavings. Partial because the full statement is false: start is called after the threads have begun (C104_violated_start); a receiver that does not learn the total calls no end (C104_violated_no_end); a sender with a negative throughput_update_interval dies after the start (C104_violated_dies); the throughput can be negative when a connection breaks (C104_violated_negative), and the clock that is read can be set, and waiting end early, so that the time is 0 or negative (C104_violated_division); the wake-up at the end can be lost, finish then takes a whole progress_report_interval longer (C104_violated_delay). double arithmetic is not modelled: the throughput is a pair of numerator and denominator."},
{"property": "C105", "status": "partial", "theorems": ["Wdt.C105_resume_partial"], "note": "For every list of broken encrypted connections on which the receiver's socket code itself does not fail, what was written is data of the sources and one good connection completes the transfer. Partial as C99 and C97: one sender thread and one receiver thread, versions that need no negotiation, the checkpoint is handed over as a value, no data of the stream equals two repetitions of the tag before it (NoEcho: needed for the socket code, see C97), the stream does not end at a tag (C97_violated_boundary), sequence id 0 with a partial block is refused without tags and checksums (C99_violated_refused). Which blocks were verified before the break is left open (any number of the complete ones)."},
{"property": "C106", "status": "partial", "theorems": ["Wdt.C106_memory_partial", "Wdt.C106_memory_short", "Wdt.C106_crash_partial", "Wdt.C106_ends", "Wdt.C106_short_total", "Wdt.C106_violated_reads_outside", "Wdt.C106_violated_negative_rest", "Wdt.C106_violated_long_header"], "note": "The thread ends for all bytes (C106_ends). It leaves its buffer only at a SETTINGS command that begins less than 1066 bytes before the end of the buffer (C106_memory_partial), and fails a check only if settings consumed more than had arrived, which takes a transfer id of more than 200 bytes, or at a command that begins less than 65534 bytes before the end of the buffer (C106_crash_partial); connections that carry 32767 bytes less than the buffer holds are harmless (C106_short_total). Partial because the full statement is false: C106_violated_reads_outside (for every buffer), C106_violated_negative_rest, C106_violated_long_header and C34_violated_size_flood. Writing to disk succeeds and nobody aborts in the model."},
{"property": "C107", "status": "partial", "theorems": ["Wdt.C107_answers_partial", "Wdt.C107_call_partial", "Wdt.C107_violated", "Wdt.C107_ends", "Wdt.C107_success_needs_done"], "note": "Proved for all streams: the only faults are an ERR command whose length is negative and an ABORT command with a negative version or number of files (C107_answers_partial for a whole stream, C107_call_partial for each call and any division of the bytes), the thread stops reading (C107_ends), and success needs DONE followed by the end of the connection (C107_success_needs_done). Partial because these two commands do harm (C107_violated). The answer to the request for file chunks is the subject of C11 and C50, the use of the checkpoints of C19, version negotiation of C12 and C59."},
{"property": "C108", "status": "partial", "theorems": ["Wdt.C108_no_check", "Wdt.C108_get", "Wdt.C108_one", "Wdt.C108_create", "Wdt.C108_quota_left_partial", "Wdt.C108_release", "Wdt.C108_all", "Wdt.C108_ids", "Wdt.C108_stale", "Wdt.C108_counts", "Wdt.C108_quota", "Wdt.C108_limits", "Wdt.C108_violated_hidden_by_quota"], "note": "Proved for all histories: lookups (C108_get), at most one object per name and one name per object (C108_one), every result of a creation (C108_create), the lists (C108_all, C108_ids), stale objects (C108_stale), releases (C108_release), counts (C108_counts), no failed check (C108_no_check), quota answers and the codes of creation against the limits set last (C108_quota, C108_limits). Creating under a name in use gives the object in use while there is room (C108_quota_left_partial). Partial because at the limit the caller gets QUOTA_EXCEEDED and no object instead (C108_violated_hidden_by_quota). Calls are one after the other here; interleavings are the subject of C38 and C39."},
{"property": "C109", "status": "partial", "theorems": ["Wdt.C109_burst", "Wdt.C109_odd", "Wdt.C109_piecewise", "Wdt.C109_damage_partial", "Wdt.C109_violated_header", "Wdt.C109_limit"], "note": "Proved for all data: damage within 32 consecutive bits (C109_burst) and of an odd number of bits (C109_odd) changes the checksum, buffers do not matter (C109_piecewise), 32 is the largest such number (C109_limit), and end to end between the sender and receiver models (C109_damage_partial). Partial because the checksum covers the data of a block only: one damaged bit in its header makes the receiver write the data elsewhere and confirm the block (C109_violated_header); and names up to 204 bytes, transfer ids up to 200 bytes, at most 200 SIZE commands, no resumption as in C34. The definition of folly::crc32c is taken from its documentation (outside /repo)."},
{"property": "C110", "status": "partial", "theorems": ["Wdt.C110_resume_partial"], "note": "Proved over all runs of connections that break or damage (C110_resume_partial), with the CRC of C109 and the streams, checkpoints and history of C99. Partial: on each connection the first damage is to the data of a block (everything behind its checksum is arbitrary); damage to a header before that can go unnoticed (C109_violated_header); one thread on each side, no tags, no resumption, names up to 204 bytes, transfer ids up to 200 bytes, at most 200 SIZE commands per connection as in C99."},
{"property": "C111", "status": "proved", "theorems": ["Wdt.C111_no_check", "Wdt.C111_order_needed", "Wdt.C111_read_failure_final", "Wdt.C111_write_failure_final", "Wdt.C111_next_connection", "Wdt.C111_retried"], "note": "Proved for every sequence of calls and every behaviour of the outside (C111_no_check, C111_read_failure_final, C111_write_failure_final, C111_next_connection). That the order of the calls matters is shown by C111_order_needed; that the threads keep it is C113. Bytes are not followed here but in C35. Only refused encryption settings keep a thread from connecting again (C111_retried)."},
{"property": "C112", "status": "partial", "theorems": ["Wdt.C112_all_back_partial", "Wdt.C112_delivered_after_partial", "Wdt.C112_violated_claim"], "note": "Proved as long as no checkpoint has claimed bytes for block 0 at offset 0 (the same gap as C53): then the sender's own request to take everything back looks like an inconsistent repetition, its refusal is not looked at, and a block stays behind in the record (C112_violated_claim). How the threads agree on the version is C59."},
{"property": "C113", "status": "partial", "theorems": ["Wdt.C113_sender_partial", "Wdt.C113_sender_closes", "Wdt.C113_receiver", "Wdt.C113_violated_length"], "note": "Proved for the receiver (C113_receiver; its reading checks are C106) and, as long as the lengths announced by the receiver are positive, for the sender (C113_sender_partial, C113_sender_closes). A length of 0 or less ends the sender in a check (C113_violated_length, see C107). The case of max_transfer_retries = 0 is C21. The model leaves open what decides between the ways out of a state."},
{"property": "C114", "status": "partial", "theorems": ["Wdt.C114_no_crash", "Wdt.C114_own_account", "Wdt.C114_one_account_each", "Wdt.C114_freed_after_end", "Wdt.C114_ends_iff_partial", "Wdt.C114_violated_own_port", "Wdt.C114_violated_duplicate", "Wdt.C114_violated_duplicate_wait", "Wdt.C114_counted_ports"], "note": "Proved if no port is listed twice: separate accounts (C114_own_account), no missing account and no crash (C114_no_crash, also with repeated ports), waiting until the right thread has ended (C114_freed_after_end). The threads can end exactly if the receiver has not told threads to wait for each other in a circle (C114_ends_iff_partial); a wdt receiver never does (C71). Violated: a receiver that names a thread's own port stops it for ever, even against an abort (C114_violated_own_port); a url that lists a port twice is accepted and its threads share an account, so a block counts as acknowledged that was not (C114_violated_duplicate, C114_violated_duplicate_wait). Ports counted from a start port are distinct (C114_counted_ports). Without repeated ports every step acts on the accounts as if each thread had one of its own (C114_one_account_each), which is what the other sender theorems assume."},
{"property": "C115", "status": "partial", "theorems": ["Wdt.C115_buffers", "Wdt.C115_enough_partial", "Wdt.C115_receives", "Wdt.C115_sends", "Wdt.C115_size_makes_no_difference", "Wdt.C115_no_memory_reported", "Wdt.C115_violated_wait", "Wdt.C115_violated_no_done", "Wdt.C115_violated_large", "Wdt.C115_start", "Wdt.C115_violated_large_start"], "note": "No size fails a check while the threads are made, and a thread gets a good buffer or none at all (C115_buffers); with sizes up to 2147479552 and enough memory all threads get one (C115_enough_partial). With a good buffer the receiver does what the bytes say (C115_receives, streams as in C34) and the sender sends exactly its block, direct I/O included (C115_sends, direct I/O as in C42). Transfers with different sizes do the same (C115_size_makes_no_difference). The throttler gets the rates asked for and takes a full buffer as one request (C115_start). A thread without memory reports MEMORY_ALLOCATION_ERROR and never works with a bad buffer (C115_no_memory_reported). Violated: such a sender thread leaves without giving its account free, and a thread told about its port waits for ever (C115_violated_wait); a receiver thread without memory stays marked as running, and the others never answer DONE (C115_violated_no_done; see also C31_vanished_thread_blocks and C32_vanished_thread_no_hook for the barriers and the hook at the end); with sizes above 2147479552 no thread gets a buffer (C115_violated_large), and a sender that makes its own throttler fails a check in start (C115_violated_large_start)."},
{"property": "C116", "status": "partial", "theorems": ["Wdt.C116_no_check_fails", "Wdt.C116_one_thread_per_port", "Wdt.C116_each_round", "Wdt.C116_nobody_left", "Wdt.C116_not_started_counts_as_running", "Wdt.C116_goes_on", "Wdt.C116_has_started_partial", "Wdt.C116_violated_has_started"], "note": "For receivers and (joinable, one round) senders: no check of startThread fails (C116_no_check_fails), at most one thread per port (C116_one_thread_per_port), exactly one started per port and round (C116_each_round), nobody left when the controller is reset or the report is made (C116_nobody_left), ports whose thread is not started yet count as running (C116_not_started_counts_as_running), and the next round begins when all threads have ended (C116_goes_on). Threads may do anything with their own state. That the system can make a thread is assumed. Violated: hasStarted says yes during the first transfer (C116_has_started_partial), but in all later rounds no, until the session has ended (C116_violated_has_started)."}
]}
