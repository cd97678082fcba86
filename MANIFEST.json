{
 "claims": [
  {
   "property": "C01",
   "status": "proved",
   "theorems": [
    "Verif.Wire.C01_framed_messages_survive_segmentation",
    "Verif.Wire.C01_usable_configurations_send"
   ],
   "note": "s2 assumed lossless (hypothesis); greenpack body opaque"
  },
  {
   "property": "C02",
   "status": "partial",
   "theorems": [
    "Verif.Wire.C02_no_message_from_bad_frame_partial",
    "Verif.Wire.C02_no_crash_on_known_tags_partial",
    "Verif.Wire.C02_bad_tag_crashes_reader_counterexample"
   ],
   "note": "reader crashes (panic) on unknown tag or undecompressible s2 payload; counterexample proved"
  },
  {
   "property": "C03",
   "status": "proved",
   "theorems": [
    "Verif.Wire.C03_exact_read",
    "Verif.Wire.C03_exact_write",
    "Verif.Wire.C03_errors_end_the_write"
   ],
   "note": ""
  },
  {
   "property": "C04",
   "status": "proved",
   "theorems": [
    "Verif.Wire.C04_compression_tag_unambiguous"
   ],
   "note": "the empty name is an alias of compression-none; stated explicitly"
  },
  {
   "property": "C05",
   "status": "partial",
   "theorems": [
    "Verif.Wire.C05_receiver_undoes_compression_partial",
    "Verif.Wire.C05_usable_settings_do_not_crash_partial",
    "Verif.Wire.C05_lz4_crashes_sender_counterexample"
   ],
   "note": "lz4/zstd settings accepted by the configuration crash the sender; counterexample proved"
  },
  {
   "property": "C06",
   "status": "partial",
   "theorems": [
    "Verif.Crypt.C06_no_nonce_reused_partial",
    "Verif.Crypt.C06_two_server_encoders_can_collide_counterexample"
   ],
   "note": "per encoder and client-vs-server proved; a server has two encoders per connection with independent random starts (collision example proved)"
  },
  {
   "property": "C07",
   "status": "partial",
   "theorems": [
    "Verif.Crypt.C07_encrypted_round_trip_partial",
    "Verif.Crypt.C07_near_limit_body_rejected_counterexample",
    "Verif.Crypt.C07_no_compression_flag_crashes_sender_counterexample",
    "Verif.Crypt.C07_compression_off_receiver_crashes_counterexample",
    "Verif.Crypt.C07_short_frame_crashes_reader_counterexample",
    "Verif.Crypt.C07_only_authentic_messages"
   ],
   "note": "AEAD correctness and s2 losslessness are hypotheses; near-limit bodies and some settings fail, counterexamples proved"
  },
  {
   "property": "C08",
   "status": "proved",
   "theorems": [
    "Verif.HLC.C08_clock_never_goes_backwards",
    "Verif.HLC.C08_receive_exceeds_both",
    "Verif.HLC.C08_overflow_goes_backwards_counterexample"
   ],
   "note": "within the int64 range; overflow example proved"
  },
  {
   "property": "C09",
   "status": "proved",
   "theorems": [
    "Verif.HLC.C09_happened_before_implies_smaller"
   ],
   "note": ""
  },
  {
   "property": "C10",
   "status": "partial",
   "theorems": [
    "Verif.RLE.C10_index_equals_plain_log_partial",
    "Verif.RLE.C10_untruncated_history_partial",
    "Verif.RLE.C10_truncate_changes_discarded_term_counterexample",
    "Verif.RLE.C10_emptied_log_keeps_term_counterexample"
   ],
   "note": "Terms held, bounds and last term agree for every history; the term of the discarded part agrees only without truncation to a held entry (Truncate overwrites CompactTerm), shown by counterexamples."
  },
  {
   "property": "C11",
   "status": "proved",
   "theorems": [
    "Verif.RLE.C11_comparison_finds_common_prefix"
   ],
   "note": "All histories leaving uncompacted logs."
  },
  {
   "property": "C12",
   "status": "partial",
   "theorems": [
    "Verif.RLE.C12_comparison_under_compaction_partial",
    "Verif.RLE.C12_conflict_under_leader_compaction_counterexample",
    "Verif.RLE.C12_short_leader_counterexample"
   ],
   "note": "Needs that the follower agrees at the leader's compaction point and that its discarded part is in the leader's log; false otherwise (counterexamples)."
  },
  {
   "property": "C13",
   "status": "proved",
   "theorems": [
    "Verif.WAL.C13_log_holds_what_was_written",
    "Verif.WAL.C13_overwrite_first_after_snapshot_panics",
    "Verif.WAL.C13_overwrite_by_one_panics"
   ],
   "note": "All sequences of appends, overwrites, compactions and snapshot installs that return. Two panics shown as separate theorems. The in-memory variant (memwal.go) is not modelled."
  },
  {
   "property": "C14",
   "status": "partial",
   "theorems": [
    "Verif.WAL.C14_reopen_gives_the_same_log_partial",
    "Verif.WAL.C14_first_session_partial",
    "Verif.WAL.C14_reopen_append_overwrite_counterexample",
    "Verif.WAL.C14_compact_append_overwrite_counterexample",
    "Verif.WAL.C14_reopen_after_snapshot_counterexample"
   ],
   "note": "The code violates it: counterexamples. Proved for histories where no overwrite removes entries appended since the last reopening/compaction/snapshot."
  },
  {
   "property": "C15",
   "status": "partial",
   "theorems": [
    "Verif.WAL.C15_changed_entry_detected_partial",
    "Verif.WAL.C15_chain_covers_predecessor_partial",
    "Verif.WAL.C15_first_entry_unprotected_counterexample",
    "Verif.WAL.C15_dropped_tail_undetected_counterexample"
   ],
   "note": "The chain covers only the previous entry: the full statement is false for every hash (counterexample theorems). Changes to the log file alone are detected by the parlog."
  },
  {
   "property": "C16",
   "status": "partial",
   "theorems": [
    "Verif.WAL.C16_crash_before_or_after_append_partial",
    "Verif.WAL.C16_torn_append_unopenable_counterexample",
    "Verif.WAL.C16_crash_yields_no_wrong_log_partial"
   ],
   "note": "False in the code: every torn append makes the log unopenable (proved for all histories). Crash before or after an append is safe, and a crash never yields a wrong log."
  },
  {
   "property": "C17",
   "status": "proved",
   "theorems": [
    "Verif.Persistor.C17_save_is_atomic",
    "Verif.Persistor.C17_saved_state_is_durable"
   ],
   "note": "Save writes a temporary file, syncs, renames; every crash point between or within file-system operations gives the old or the new state. Marshalling and the hash are parameters."
  },
  {
   "property": "C18",
   "status": "proved",
   "theorems": [
    "Verif.Raft.C18_one_leader_per_term"
   ],
   "note": "Any two leaders of one term, at any two moments of any execution of the cluster model (loss, duplication, reordering, crashes between event-loop passes), are the same process. Fixed membership, no compaction."
  },
  {
   "property": "C19",
   "status": "proved",
   "theorems": [
    "Verif.Raft.C19_log_matching"
   ],
   "note": "Logs of any two nodes at any two moments of any execution."
  },
  {
   "property": "C20",
   "status": "partial",
   "theorems": [
    "Verif.Raft.C20_applied_entries_agree_partial",
    "Verif.Raft.C20_counterexample_partial_send",
    "Verif.Raft.C20_counterexample_two_records",
    "Verif.Raft.C20_counterexample_stale_ack"
   ],
   "note": "Proved for executions meeting three side conditions the code does not enforce; each is shown necessary by an execution in which two nodes apply different entries at one index."
  },
  {
   "property": "C21",
   "status": "partial",
   "theorems": [
    "Verif.Raft.C21_commit_within_log",
    "Verif.Raft.C21_commit_needs_majority_partial",
    "Verif.Raft.C21_counterexample_two_records",
    "Verif.Raft.C21_counterexample_leader_not_member"
   ],
   "note": "Monotone, inside the log and of the current term: for every node state. Majority: needs distinct node names among the records and the leader to be a member; the code ensures neither (counterexamples, one in a reachable state)."
  },
  {
   "property": "C22",
   "status": "proved",
   "theorems": [
    "Verif.Raft.C22_one_vote_per_term",
    "Verif.Raft.C22_voter_log_not_ahead",
    "Verif.Raft.C22_vote_is_saved",
    "Verif.Raft.C22_applies_to_cluster"
   ],
   "note": "One node against arbitrary messages, timeouts, crashes and restarts, from any state."
  },
  {
   "property": "C23",
   "status": "proved",
   "theorems": [
    "Verif.Raft.C23_prevote_changes_nothing",
    "Verif.Raft.C23_prevote_implies_vote"
   ],
   "note": "For every node state and request; the clock-dependent recent-leader test is a parameter."
  },
  {
   "property": "C24",
   "status": "partial",
   "theorems": [
    "Verif.Raft.C24_follower_repaired_partial",
    "Verif.Raft.C24_follower_behind_repaired_partial",
    "Verif.Raft.C24_conflict_counterexample",
    "Verif.Raft.C24_surplus_counterexample",
    "Verif.Raft.C24_later_entry_asks_for_snapshot"
   ],
   "note": "Proved for followers whose log is a beginning of the leader's or differs from the first entry on; disproved (for all such states, and reachable) for logs parting after a common beginning and for followers holding a surplus."
  },
  {
   "property": "C25",
   "status": "proved",
   "theorems": [
    "Verif.Apply.C25_indexes_in_order",
    "Verif.Apply.C25_applied_is_log",
    "Verif.Apply.C25_applied_bounds",
    "Verif.Apply.C25_apply_reaches_commit",
    "Verif.Apply.C25_apply_no_panic"
   ],
   "note": "Applied log of one node, over any interleaving of appends, suffix overwrites, commit moves, applies, compaction and crash/restart."
  },
  {
   "property": "C26",
   "status": "proved",
   "theorems": [
    "Verif.Snapshot.C26_installed_was_sent",
    "Verif.Snapshot.C26_installed_matches_checksum",
    "Verif.Snapshot.C26_whole_transfer_installed"
   ],
   "note": "Any number of transfers, any delivery; checksum only needs to separate the snapshots sent."
  },
  {
   "property": "C27",
   "status": "proved",
   "theorems": [
    "Verif.Membership.C27_overlap_check_is_exact"
   ],
   "note": "All pairs of member sets; peer names distinct (keys of an ordered map)."
  },
  {
   "property": "C28",
   "status": "partial",
   "theorems": [
    "Verif.Membership.C28_version_order",
    "Verif.Membership.C28_newest_configuration_wins_partial",
    "Verif.Membership.C28_snapshot_regresses_counterexample"
   ],
   "note": "Order proved outright; newest-wins for every path except installing a snapshot, which replaces the configuration unconditionally (counterexample)."
  },
  {
   "property": "C29",
   "status": "partial",
   "theorems": [
    "Verif.KV.C29_lease_excludes_partial",
    "Verif.KV.C29_table_counterexample",
    "Verif.KV.C29_autodelete_counterexample"
   ],
   "note": "proved for every sequence of operations; excluded with counterexamples: removing or renaming the table, automatic deletion by a reader past the lease end; for deletes the holder is known by name only"
  },
  {
   "property": "C30",
   "status": "partial",
   "theorems": [
    "Verif.KV.C30_epochs_increase_partial",
    "Verif.KV.C30_counterexample"
   ],
   "note": "proved for runs that do not remove the key; counterexample: delete and re-create restarts the epoch"
  },
  {
   "property": "C31",
   "status": "partial",
   "theorems": [
    "Verif.KV.C31_success",
    "Verif.KV.C31_failure",
    "Verif.KV.C31_iff_partial",
    "Verif.KV.C31_holder",
    "Verif.KV.C31_holder_counterexample"
   ],
   "note": "success and failure parts proved outright; the exact condition proved for senders that do not hold the lease, and the holder's exact condition given; counterexample: the holder's own swap is refused unless it asks for a longer lease"
  },
  {
   "property": "C32",
   "status": "partial",
   "theorems": [
    "Verif.KV.C32_clock_independent_partial",
    "Verif.KV.C32_local_read_partial",
    "Verif.KV.C32_autodelete_counterexample",
    "Verif.KV.C32_local_scan_counterexample",
    "Verif.KV.C32_resent_counterexample"
   ],
   "note": "proved for logs without automatic deletion; counterexamples: automatic deletion, scans answered by the leader alone, entries rewritten by applying and sent again"
  },
  {
   "property": "C33",
   "status": "partial",
   "theorems": [
    "Verif.Session.C33_at_most_once_partial",
    "Verif.Session.C33_applied_not_taken",
    "Verif.Session.C33_original_answer",
    "Verif.Session.C33_answer_kept",
    "Verif.Session.C33_answers_agree_partial",
    "Verif.Session.C33_leader_stays_covered",
    "Verif.Session.C33_retry_in_flight_counterexample"
   ],
   "note": "Any state machine, any run of elections, commits, expiry and resubmissions: at most one committed copy and all answers the original one, provided no leader takes a write while its own log holds an unapplied copy. That excluded case is a real double application (counterexample)."
  },
  {
   "property": "C34",
   "status": "partial",
   "theorems": [
    "Verif.Omap.C34_lookup",
    "Verif.Omap.C34_answers",
    "Verif.Omap.C34_iteration_partial",
    "Verif.Omap.C34_cached_partial",
    "Verif.Omap.C34_nested_counterexample"
   ],
   "note": "Any program of sets, deletes, clears, cached slices and loops with any bodies, any totally ordered key type: lookups are those of the finite map; iteration lists it in order. Missing: loops nested in loops over the same map, for which iteration is wrong afterwards (counterexample). The red-black tree itself is an external library, taken as a sorted list."
  },
  {
   "property": "C35",
   "status": "partial",
   "theorems": [
    "Verif.Omap.C35_uncached_partial",
    "Verif.Omap.C35_cached_partial",
    "Verif.Omap.C35_last_but_one",
    "Verif.Omap.C35_counterexample"
   ],
   "note": "Proved for every map without a valid iteration cache, and for every map unless the first element deleted is the last but one; in exactly that case the last element is skipped (C35_last_but_one, universally; and a concrete counterexample)."
  },
  {
   "property": "C36",
   "status": "partial",
   "theorems": [
    "Verif.Art.C36_tree_is_the_map_partial",
    "Verif.Art.C36_ranges_partial",
    "Verif.Art.C36_full_iteration_partial",
    "Verif.Art.C36_zero_byte_counterexample",
    "Verif.Art.C36_empty_key_counterexample",
    "Verif.Art.C36_range_counterexample",
    "Verif.Art.C36_nodes",
    "Verif.Art.C36_nodes_are_lists"
   ],
   "note": "Proved for calls that never insert a key while the tree holds that key followed by a zero byte and more, or the reverse: there the code loses keys or panics (counterexample proved). The exact search for the empty key in a one-key tree is left out (finds that key, proved), and ranges whose lower bound lies below a prefix common to all keys (they come out empty, proved for all such cases)."
  },
  {
   "property": "C37",
   "status": "partial",
   "theorems": [
    "Verif.Art.C37_nearest_key_partial",
    "Verif.Art.C37_no_key_partial",
    "Verif.Art.C37_common_prefix_counterexample",
    "Verif.Art.C37_single_key_counterexample"
   ],
   "note": "All four searches, for all trees without zero-byte collisions, with value and rank. Left out, and proved wrong in the code: upward searches for a key below a prefix common to all keys find nothing; strict searches for the only key of a tree find it."
  },
  {
   "property": "C38",
   "status": "proved",
   "theorems": [
    "Verif.Pong.C38_quorum_time_is_qth_newest",
    "Verif.Pong.C38_one_record_per_peer"
   ],
   "note": "\"Newest pong of a peer\" is the last one received; red-black tree modelled as a sorted list."
  },
  {
   "property": "C39",
   "status": "partial",
   "theorems": [
    "Verif.Imap.C39_lookup_exact",
    "Verif.Imap.C39_iteration_in_order_partial",
    "Verif.Imap.C39_reassigned_index_leaves_ghost_counterexample"
   ],
   "note": "Lookup for all histories; iteration when positive log indexes are not reassigned or shared (false otherwise, counterexample)."
  },
  {
   "property": "C40",
   "status": "proved",
   "theorems": [
    "Verif.Limit.C40_limit_never_exceeded",
    "Verif.Limit.C40_close_frees_one_slot",
    "Verif.Limit.C40_failed_accept_frees_slot"
   ],
   "note": "All interleavings of the listener's atomic steps."
  },
  {
   "property": "C41",
   "status": "partial",
   "theorems": [
    "Verif.CDC.C41_plakar",
    "Verif.CDC.C41_stadia",
    "Verif.CDC.C41_ultra",
    "Verif.CDC.C41_rabin",
    "Verif.CDC.C41_ultra_batch_partial",
    "Verif.CDC.C41_ultra_batch_counterexample",
    "Verif.CDC.C41_ultra_batch_empty",
    "Verif.CDC.C41_fnv_partial",
    "Verif.CDC.C41_fnv_counterexample",
    "Verif.CDC.C41_restic_partial",
    "Verif.CDC.C41_restic_counterexample",
    "Verif.CDC.C41_max_points"
   ],
   "note": "Proved for Plakar, Stadia, Rabin-Karp and UltraCDC (Algorithm) for every valid configuration. UltraCDC.Cutpoints: for non-empty input with 8 bytes of capacity behind the slice; otherwise it panics (counterexample) or returns [0] for empty input. FNV's Validate accepts sizes with which it never returns; restic's chunker ignores the maximum."
  },
  {
   "property": "C42",
   "status": "partial",
   "theorems": [
    "Verif.CDC.C42_local",
    "Verif.CDC.C42_ultra_local_partial",
    "Verif.CDC.C42_ultra_local_counterexample",
    "Verif.CDC.C42_ultra_batch_partial",
    "Verif.CDC.C42_streamed",
    "Verif.CDC.C42_streamed_plakar",
    "Verif.CDC.C42_buffer_irrelevant",
    "Verif.CDC.C42_readers_agree",
    "Verif.CDC.C42_streamed_describes",
    "Verif.CDC.C42_spans_describe_partial",
    "Verif.CDC.C42_small_buffer_counterexample"
   ],
   "note": "Locality for Plakar, Stadia, FNV and Rabin-Karp; for UltraCDC when maximum is at least minimum+8 (counterexample otherwise). Buffered reading equals whole-file chunking for every buffer not below the maximum; the two readers agree on dense files; chunk lists describe the file, with holes but without preallocated unwritten spans. Below the maximum the reader never ends (counterexample)."
  },
  {
   "property": "C43",
   "status": "partial",
   "theorems": [
    "Verif.Sync.C43_in_memory_partial",
    "Verif.Sync.C43_over_network_partial",
    "Verif.Sync.C43_end_to_end_partial",
    "Verif.Sync.C43_never_wrong_silently",
    "Verif.Sync.C43_zero_run_counterexample",
    "Verif.Sync.C43_unwritten_counterexample",
    "Verif.Sync.C43_preallocated_counterexample",
    "Verif.Sync.C43_large_chunk_counterexample"
   ],
   "note": "Proved for chunk lists that describe the files (which the chunkers' lists do), in memory and over the network, without unwritten ranges, and without zero runs over 4096 bytes that hold no aligned block. Counterexamples show the code fails outside these: a long unaligned zero run panics the taker, unwritten ranges fail the checksum, a preallocated file with a trailing hole is left too short, a chunk too large for a message is retried forever. The empty goal is sent by another path that is not modelled."
  },
  {
   "property": "C44",
   "status": "proved",
   "theorems": [
    "Verif.Sync.C44_asked_iff",
    "Verif.Sync.C44_asked_iff_missing",
    "Verif.Sync.C44_end_to_end",
    "Verif.Sync.C44_sent",
    "Verif.Sync.C44_diff_partial",
    "Verif.Sync.C44_diff_counterexample"
   ],
   "note": "Proved for the plan and the messages made from it, for any chunk lists that describe the files and for those of the default chunker. Contents that are all zeros need no data and are never asked for. Diff, a helper not used for plans, agrees only when no hash is repeated in its second argument (counterexample)."
  },
  {
   "property": "C45",
   "status": "partial",
   "theorems": [
    "Verif.CAS.C45_lookup_returns_appended_partial",
    "Verif.CAS.C45_distinct_appends_never_panic",
    "Verif.CAS.C45_reappend_with_large_cache",
    "Verif.CAS.C45_verification_accepts",
    "Verif.CAS.C45_reappend_after_reopen_counterexample",
    "Verif.CAS.C45_reappend_after_eviction_counterexample",
    "Verif.CAS.C45_verified_reopen_returns_compressed_counterexample"
   ],
   "note": "hash and s2 codec are parameters; correct for every non-panicking history and no panic when blobs are distinct or all cached; counterexamples: re-append after reopen/eviction panics, verified reopen returns compressed bytes"
  },
  {
   "property": "C46",
   "status": "proved",
   "theorems": [
    "Verif.CAS.C46_record_round_trip",
    "Verif.CAS.C46_file_parses",
    "Verif.CAS.C46_torn_index_panics"
   ],
   "note": ""
  },
  {
   "property": "C47",
   "status": "proved",
   "theorems": [
    "Verif.Numeric.C47_largest_aligned_span",
    "Verif.Numeric.C47_span_and_wings_partition"
   ],
   "note": "span maximal and aligned; span and wings partition the range"
  },
  {
   "property": "C48",
   "status": "proved",
   "theorems": [
    "Verif.Numeric.C48_padding_defined",
    "Verif.Numeric.C48_padding_bounded",
    "Verif.Numeric.C48_padding_monotone",
    "Verif.Numeric.C48_padding_hides_low_bits",
    "Verif.Numeric.C48_zero_panics_counterexample"
   ],
   "note": "for every length from 1; Padme(0) panics (counterexample theorem). Unbounded integers: int64 overflow near 2^63 not modelled"
  },
  {
   "property": "C49",
   "status": "partial",
   "theorems": [
    "Verif.Hermes.C49_all_but_one_partial",
    "Verif.Hermes.C49_reads_are_writes_partial",
    "Verif.Hermes.C49_stale_read_counterexample",
    "Verif.Hermes.C49_timeout_counterexample",
    "Verif.Hermes.C49_queued_write_counterexample",
    "Verif.Hermes.C49_release_crash_counterexample",
    "Verif.Hermes.C49_early_ack_crash_counterexample"
   ],
   "note": "Holds without timeouts for all replicas but at most one (all of them with two replicas). False as stated: a write completes one acknowledgement early, and timeouts complete writes nobody has heard of; see the counterexamples."
  },
  {
   "property": "C50",
   "status": "partial",
   "theorems": [
    "Verif.Hermes.C50_total_order",
    "Verif.Hermes.C50_collision_counterexample",
    "Verif.Hermes.C50_timestamps_unique",
    "Verif.Hermes.C50_never_regresses_partial",
    "Verif.Hermes.C50_greatest_wins_partial",
    "Verif.Hermes.C50_replicas_agree_partial",
    "Verif.Hermes.C50_delivered_is_seen",
    "Verif.Hermes.C50_regress_counterexample",
    "Verif.Hermes.C50_same_timestamp_counterexample"
   ],
   "note": "Total order if the keyed hash tells the replicas apart; unique timestamps, no regress, greatest wins and agreement hold as long as nothing times out. Timeouts break the last three; see the counterexamples. Read-modify-writes are not modelled."
  },
  {
   "property": "C51",
   "status": "partial",
   "theorems": [
    "Verif.Rpc.C51_own_reply_partial",
    "Verif.Rpc.C51_own_reply_without_chosen_numbers_partial",
    "Verif.Rpc.C51_push_counterexample",
    "Verif.Rpc.C51_completes_once",
    "Verif.Rpc.C51_reply_arrives",
    "Verif.Rpc.C51_answer_names_call"
   ],
   "note": "For every interleaving: a call completes only with the server's reply to it, if no push or one-way message carries an outstanding call's number; with such a push the code violates the property (counterexample). Assumes loquet.Chan keeps the first value."
  },
  {
   "property": "C52",
   "status": "partial",
   "theorems": [
    "Verif.Upload.C52_client_numbers_parts",
    "Verif.Upload.C52_delivered_in_order_partial",
    "Verif.Upload.C52_nothing_lost_partial",
    "Verif.Upload.C52_failed_send_counterexample",
    "Verif.Upload.C52_early_cancel_counterexample",
    "Verif.Upload.C52_full_channel_wedges_connection",
    "Verif.Upload.C52_wedge_counterexample",
    "Verif.Upload.C52_ends_with_last"
   ],
   "note": "Order, completeness and the last mark proved for every interleaving, for uploads with no failed send and not cancelled before their goroutine starts; both exceptions crash the server (counterexamples). A full channel whose reader's context ended blocks the connection for good (proved)."
  },
  {
   "property": "C53",
   "status": "partial",
   "theorems": [
    "Verif.Stream.C53_parts_numbered_without_gaps",
    "Verif.Stream.C53_last_part_marked_partial",
    "Verif.Stream.C53_single_part_counterexample"
   ],
   "note": "numbering, order and begin mark for all schedules; end mark only for two or more parts (counterexample for one)"
  },
  {
   "property": "C54",
   "status": "partial",
   "theorems": [
    "Verif.Stream.C54_cancel_reaches_running_call_partial",
    "Verif.Stream.C54_only_named_calls_cancelled",
    "Verif.Stream.C54_cancel_before_start_counterexample",
    "Verif.Stream.C54_upload_cancel_lost_counterexample"
   ],
   "note": "cancellations handled while the call is registered reach it, and only it; counterexamples for cancellation handled before registration"
  },
  {
   "property": "C55",
   "status": "proved",
   "theorems": [
    "Verif.Frag.C55_fragment_round_trip",
    "Verif.Frag.C55_user_args_arrive"
   ],
   "note": "msgpack encoding between the two conversions is opaque (C01)"
  },
  {
   "property": "C56",
   "status": "partial",
   "theorems": [
    "Verif.Frag.C56_less_is_lexicographic",
    "Verif.Frag.C56_less_transitive",
    "Verif.Frag.C56_total_order_partial",
    "Verif.Frag.C56_payload_counterexample"
   ],
   "note": "less-than is exactly lexicographic and transitive; antisymmetry fails on payload (counterexample)"
  },
  {
   "property": "C57",
   "status": "partial",
   "theorems": [
    "Verif.PeerURL.C57_circuit_url_parses_back_partial",
    "Verif.PeerURL.C57_peer_url_parses_back_partial",
    "Verif.PeerURL.C57_question_mark_counterexample",
    "Verif.PeerURL.C57_hash_counterexample",
    "Verif.PeerURL.C57_percent_counterexample",
    "Verif.PeerURL.C57_name_without_scheme_counterexample"
   ],
   "note": "net/url.Parse modelled; proved for scheme://host:port addresses and components free of '/', '%', '?', '#' and control bytes; counterexamples otherwise"
  },
  {
   "property": "C58",
   "status": "proved",
   "theorems": [
    "Verif.Span.C58_span_operations_are_set_operations",
    "Verif.Span.C58_constructors"
   ],
   "note": ""
  },
  {
   "property": "C59",
   "status": "partial",
   "theorems": [
    "Verif.SendLock.C59_shared_mutex_keeps_messages_whole_partial",
    "Verif.SendLock.C59_single_write_keeps_messages_whole_partial",
    "Verif.SendLock.C59_shared_mutex_reader_gets_all_partial",
    "Verif.SendLock.C59_unencrypted_server_interleaves_counterexample"
   ],
   "note": "one shared mutex or single-buffer messages proved for all schedules; unencrypted server (two mutexes, three writes) counterexample proved"
  },
  {
   "property": "C60",
   "status": "partial",
   "theorems": [
    "Verif.KV.C60_range",
    "Verif.KV.C60_prefix_partial",
    "Verif.KV.C60_prefix_descending_counterexample"
   ],
   "note": "range reads in both directions and ascending prefix reads proved; descending prefix reads answer at most the prefix itself (proved)"
  },
  {
   "property": "C61",
   "status": "partial",
   "theorems": [
    "Verif.KV.C61_expired_lease_taken_partial",
    "Verif.KV.C61_replicated_iff",
    "Verif.KV.C61_never_replicated_counterexample"
   ],
   "note": "proved for writes that reach the log; a leader serving local reads never lets such a write reach the log (proved)"
  },
  {
   "property": "C62",
   "status": "proved",
   "theorems": [
    "Verif.KV.C62_read_returns_last_write",
    "Verif.KV.C62_not_found_iff"
   ],
   "note": "Histories from an empty store. The table named dead, where expired values are moved, is set apart in the first theorem; the second needs that no write asks for auto-delete (with it, replicas differ, see C32)."
  },
  {
   "property": "C63",
   "status": "partial",
   "theorems": [
    "Verif.NetRpc.C63_own_result_partial",
    "Verif.NetRpc.C63_after_timeout_counterexample",
    "Verif.NetRpc.C63_swapped_request_counterexample"
   ],
   "note": "Holds as long as no call timed out; false after a timeout, where the buffers shared by the goroutines give hangs and swapped requests (counterexamples)."
  },
  {
   "property": "C64",
   "status": "partial",
   "theorems": [
    "Verif.Art.C64_next_key_partial",
    "Verif.Art.C64_ended_stays_ended",
    "Verif.Art.C64_removal_ends_early_counterexample",
    "Verif.Art.C64_key_given_twice_counterexample",
    "Verif.Art.C64_change_before_first_counterexample",
    "Verif.Art.C64_single_key_counterexample",
    "Verif.Art.C64_empty_key_counterexample"
   ],
   "note": "Every next key and its index, for walks that do not change the tree before the first Next, never call Next with a single key or the empty key in the tree, and do not remove the last key given while it lies below a prefix common to the keys left. Each of these exceptions is proved to go wrong in the code."
  },
  {
   "property": "C65",
   "status": "partial",
   "theorems": [
    "Verif.Art.C65_at_partial",
    "Verif.Art.C65_index_of_key_partial"
   ],
   "note": "At with its kept iterator, Atfar, LeafIndex and FindExact; partial only because zero-byte collisions (C36) and the empty key in a one-key tree are left out."
  },
  {
   "property": "C66",
   "status": "proved",
   "theorems": [
    "Verif.Greenpack.C66_encoded_values_come_back",
    "Verif.Greenpack.C66_any_declarations",
    "Verif.Greenpack.C66_with_msgpack",
    "Verif.Greenpack.C66_encoding_is_prefix_free",
    "Verif.Greenpack.C66_reused_target_without_pointers",
    "Verif.Greenpack.C66_reused_pointer_stays_counterexample",
    "Verif.Greenpack.C66_message_roundtrip",
    "Verif.Greenpack.C66_header_roundtrip",
    "Verif.Greenpack.C66_messages_over_a_connection",
    "Verif.Greenpack.C66_repeated_key_last_value_wins"
   ],
   "note": "Generated encoders and decoders of 64 structs, for every msgp library that meets the stated laws and for the MessagePack implementation in the model. Reused targets: proved for structs without pointers, refuted for the others."
  },
  {
   "property": "C67",
   "status": "proved",
   "theorems": [
    "Verif.Greenpack.C67_versions_share_common_fields",
    "Verif.Greenpack.C67_older_writer_reused_target",
    "Verif.Greenpack.C67_newer_writer_stale_field_counterexample"
   ],
   "note": "Writer and reader with different field lists at the top level; nested structs equal. A newer writer and a reused target is refuted."
  },
  {
   "property": "C68",
   "status": "partial",
   "theorems": [
    "Verif.Hooks.C68_members_come_back",
    "Verif.Hooks.C68_entries_come_back",
    "Verif.Hooks.C68_ticket_index_rebuilt",
    "Verif.Hooks.C68_tables_come_back",
    "Verif.Hooks.C68_tree_comes_back_partial",
    "Verif.Hooks.C68_ticket_error_text_arrives_partial",
    "Verif.Hooks.C68_misfiled_member_lost_counterexample",
    "Verif.Hooks.C68_tables_merge_counterexample",
    "Verif.Hooks.C68_zero_byte_tree_counterexample",
    "Verif.Hooks.C68_empty_error_lost_counterexample",
    "Verif.Hooks.C68_old_error_returns_counterexample"
   ],
   "note": "Members need to be stored under their own names, ticket IDs to differ, error texts to be non-empty, and trees are those of C36; each condition has a counterexample."
  },
  {
   "property": "C69",
   "status": "proved",
   "theorems": [
    "Verif.Handshake.C69_verified_handshake_agrees",
    "Verif.Handshake.C69_plain_handshake_agrees",
    "Verif.Handshake.C69_frame_fits"
   ],
   "note": "Hypotheses: X25519 gives both sides the same secret, certificates chain, signatures verify, the codec reads back the two messages, HMAC tags have 32 bytes. Messages above 874 bytes panic the sender."
  },
  {
   "property": "C70",
   "status": "partial",
   "theorems": [
    "Verif.Handshake.C70_server_accepts_iff",
    "Verif.Handshake.C70_client_accepts_iff",
    "Verif.Handshake.C70_server_silent_before_checks",
    "Verif.Handshake.C70_frames_are_checked",
    "Verif.Handshake.C70_bounded_memory",
    "Verif.Handshake.C70_crashes_only_after_checks_partial",
    "Verif.Handshake.C70_low_order_key_crashes_counterexample",
    "Verif.Handshake.C70_plain_accepts_iff",
    "Verif.Handshake.C70_accepted_key_shape"
   ],
   "note": "What is accepted and what is sent is proved outright; the no-crash part fails for low-order points (counterexample with X25519 itself)."
  },
  {
   "property": "C71",
   "status": "proved",
   "theorems": [
    "Verif.HandshakeSym.C71_forward_secrecy",
    "Verif.HandshakeSym.C71_psk_secrecy"
   ],
   "note": "Symbolic model with an attacker who owns the network; the code's own handshake functions with symbolic primitives."
  },
  {
   "property": "C72",
   "status": "partial",
   "theorems": [
    "Verif.HandshakeSym.C72_peer_took_part_partial",
    "Verif.HandshakeSym.C72_misbinding_counterexample",
    "Verif.HandshakeSym.C72_reflection_counterexample",
    "Verif.HandshakeSym.C72_replay_counterexample"
   ],
   "note": "The peer took part with the reported ephemeral key and nobody else holds the session key; agreement on role and peer fails (three executions)."
  },
  {
   "property": "C73",
   "status": "partial",
   "theorems": [
    "Verif.Handshake.C73_psk_traffic_uses_handshake_key_partial",
    "Verif.Handshake.C73_tcp_uses_zero_key_counterexample"
   ],
   "note": "Holds for TLS and QUIC; TCP without TLS uses the all-zero key."
  },
  {
   "property": "C74",
   "status": "partial",
   "theorems": [
    "Verif.HostKey.C74_written_is_read_back",
    "Verif.HostKey.C74_lockdown_accepts_iff",
    "Verif.HostKey.C74_lockdown_own_key_partial",
    "Verif.HostKey.C74_appended_certificate_counterexample",
    "Verif.HostKey.C74_keys_are_never_removed",
    "Verif.HostKey.C74_keys_are_never_removed_by_any_sequence",
    "Verif.HostKey.C74_first_use_is_remembered",
    "Verif.HostKey.C74_no_file",
    "Verif.HostKey.C74_email_line_break_counterexample",
    "Verif.HostKey.C74_race_counterexample",
    "Verif.HostKey.C74_empty_lockdown_refuses"
   ],
   "note": "Holds for peers presenting one certificate, addresses and emails without line breaks, and connections one after the other; counterexamples for the rest."
  },
  {
   "property": "C75",
   "status": "partial",
   "theorems": [
    "Verif.HostKey.C75_refusals_do_not_stop_tls_partial",
    "Verif.HostKey.C75_limit_counts_served_partial",
    "Verif.HostKey.C75_quic_without_refused_keys_partial",
    "Verif.HostKey.C75_refused_connections_use_up_the_limit_counterexample",
    "Verif.HostKey.C75_one_refusal_stops_quic_counterexample"
   ],
   "note": "Holds for TLS without a limit; fails with a limit (connections refused after the TLS handshake are never closed) and for QUIC (a refused client ends the accept loop)."
  },
  {
   "property": "C76",
   "status": "partial",
   "theorems": [
    "Verif.Parallel.C76_covers_partial",
    "Verif.Parallel.C76_prefix_partial",
    "Verif.Parallel.C76_workers_irrelevant",
    "Verif.Parallel.C76_default_partial",
    "Verif.Parallel.C76_crash_counterexample",
    "Verif.Parallel.C76_tail_missing_counterexample"
   ],
   "note": "Proved for files that are at most one segment long or do not end less than 2*min bytes after a segment boundary; for the others a returned list describes the file up to a missing end of fewer than 2*min bytes, and counterexamples (at small sizes) show both a crash and a list that silently lacks the end."
  },
  {
   "property": "C77",
   "status": "partial",
   "theorems": [
    "Verif.Reconfig.C77_one_leader_per_term_partial",
    "Verif.Reconfig.C77_elections_partial",
    "Verif.Reconfig.C77_version_names_members_partial",
    "Verif.Reconfig.C77_counterexample_stale_report",
    "Verif.Reconfig.C77_counterexample_empty_membership"
   ],
   "note": "Proved for executions in which every change is made from a non-empty membership and confirmed by reports of the leader's own term (the code also counts reports of later terms); counterexample runs show that both conditions are needed."
  },
  {
   "property": "C78",
   "status": "partial",
   "theorems": [
    "Verif.Reconfig.C78_logs_match_partial",
    "Verif.Reconfig.C78_applied_of_one_term_partial",
    "Verif.Reconfig.C78_counterexample_removed_leader",
    "Verif.Reconfig.C78_counterexample_unreplicated_entry"
   ],
   "note": "Under the condition of C77 logs match and two entries of one term applied at one index are the same; the rest fails: a removed leader counts itself, and the check before a change asks only for the first entry of the term (counterexample executions)."
  },
  {
   "property": "C79",
   "status": "proved",
   "theorems": [
    "Verif.Simnet.C79_delivers_only_what_was_sent",
    "Verif.Simnet.C79_at_most_once",
    "Verif.Simnet.C79_exactly_one_place",
    "Verif.Simnet.C79_healthy_loses_nothing",
    "Verif.Simnet.C79_progress"
   ],
   "note": "All operations of the model of the simulated network: sends, reads, passes, faults, repairs, isolation, shutdown, power, close. Progress assumes that waiting reads were issued before the time of the pass."
  },
  {
   "property": "C80",
   "status": "partial",
   "theorems": [
    "Verif.Simnet.C80_fifo_partial",
    "Verif.Simnet.C80_order_counterexample",
    "Verif.Simnet.C80_varying_hop_counterexample"
   ],
   "note": "Proved for nodes with a single connection; false for a server with several clients (counterexample), where a read can skip an earlier message of the same client."
  },
  {
   "property": "C81",
   "status": "partial",
   "theorems": [
    "Verif.Simnet.C81_isolated_or_off",
    "Verif.Simnet.C81_deaf",
    "Verif.Simnet.C81_drop_partial",
    "Verif.Simnet.C81_drop_counterexample"
   ],
   "note": "Isolation, power and deafness proved in full. Dropping: only messages that passed the drop decision before the fault can be delivered, and they can (counterexample)."
  },
  {
   "property": "C82",
   "status": "partial",
   "theorems": [
    "Verif.Simnet.C82_dropped_come_back_partial",
    "Verif.Simnet.C82_unheard_come_back_partial",
    "Verif.Simnet.C82_unheard_counterexample"
   ],
   "note": "Dropped messages come back for all options of the repair; unheard ones if only the origin is repaired. False for unheard messages in a full repair (counterexample)."
  },
  {
   "property": "C83",
   "status": "partial",
   "theorems": [
    "Verif.Simnet.C83_rate_partial",
    "Verif.Simnet.C83_rate_kept",
    "Verif.Simnet.C83_same_for_all",
    "Verif.Simnet.C83_extremes",
    "Verif.Simnet.C83_rate_counterexample",
    "Verif.Simnet.C83_burst_counterexample",
    "Verif.Simnet.C83_rate_among_others_partial"
   ],
   "note": "Exact rate from the first message of the connection on, for all p and k. The counters are not reset when p is set, so after faultless traffic the claim fails (counterexample). Probabilities are fractions, not floats."
  },
  {
   "property": "C84",
   "status": "partial",
   "theorems": [
    "Verif.Simconn.C84_byte_stream_partial",
    "Verif.Simconn.C84_loss_bounded",
    "Verif.Simconn.C84_read_size",
    "Verif.Simconn.C84_eof",
    "Verif.Simconn.C84_write_partial",
    "Verif.Simconn.C84_short_write_counterexample",
    "Verif.Simconn.C84_deadline_counterexample"
   ],
   "note": "Byte stream for all buffer sizes as long as no Read times out with its request in the network; in general whole messages in order with at most one lost for each such Read. Write of more than UserMaxPayload bytes is cut with a nil error (proved for all such writes)."
  },
  {
   "property": "C85",
   "status": "partial",
   "theorems": [
    "Verif.Lease.C85_no_newer_leader_partial",
    "Verif.Lease.C85_read_latest_partial",
    "Verif.Lease.C85_shadow_counterexample",
    "Verif.Lease.C85_stamp_counterexample",
    "Verif.Lease.C85_restart_counterexample",
    "Verif.Lease.C85_late_answer_counterexample"
   ],
   "note": "Proved for every timed execution in which pings are stamped within the cushion of two heartbeats (with the clocks' rate difference), non-voting replicas do not answer, and no node that heard from a leader within its minimal election time restarts or receives an answer of a later term; the second half also needs the conditions of C20. Missing: executions without these conditions, where the code serves stale reads (counterexamples for each)."
  },
  {
   "property": "C86",
   "status": "partial",
   "theorems": [
    "Verif.Lease.C86_good_until_partial",
    "Verif.Lease.C86_step_down_counterexample"
   ],
   "note": "Proved under the conditions of C85 while the serving node stays in its term. A leader that steps down breaks the promise (counterexample)."
  },
  {
   "property": "C87",
   "status": "partial",
   "theorems": [
    "Verif.Raft.C87_real_time_order_partial",
    "Verif.Raft.C87_linearizable_partial",
    "Verif.Raft.C87_local_read_partial"
   ],
   "note": "Proved for every execution meeting the three side conditions of C20, none of which the code enforces."
  },
  {
   "property": "C88",
   "status": "proved",
   "theorems": [
    "Verif.Raft.C88_nothing_from_nowhere"
   ],
   "note": "Unconditional, membership fixed."
  },
  {
   "property": "C89",
   "status": "partial",
   "theorems": [
    "Verif.Czar.C89_versions_never_decrease",
    "Verif.Czar.C89_comparisons_agree",
    "Verif.Czar.C89_no_repeat_partial",
    "Verif.Czar.C89_repeat_counterexample"
   ],
   "note": "Versions never decrease and the comparisons agree: proved for all executions. No repetition: only between take-overs of a view from the czar key; counterexample across one."
  },
  {
   "property": "C90",
   "status": "proved",
   "theorems": [
    "Verif.Czar.C90_same_version_same_view"
   ],
   "note": "All executions, all views delivered or answered."
  },
  {
   "property": "C91",
   "status": "proved",
   "theorems": [
    "Verif.Czar.C91_one_czar",
    "Verif.Czar.C91_epochs_in_time_order"
   ],
   "note": "Under the stated clock bound."
  },
  {
   "property": "C92",
   "status": "partial",
   "theorems": [
    "Verif.Czar.C92_caller_in_answer_partial",
    "Verif.Czar.C92_joining_caller_missing_counterexample",
    "Verif.Czar.C92_heartbeat_panics_counterexample",
    "Verif.Czar.C92_duration_missing_counterexample"
   ],
   "note": "Proved when no other member has outlived its lease. Otherwise the code leaves a joining caller out (for all such states), which a member does not survive; the duration is never stated."
  },
  {
   "property": "C93",
   "status": "partial",
   "theorems": [
    "Verif.Czar.C93_kept_in_term_partial",
    "Verif.Czar.C93_lost_at_change_counterexample"
   ],
   "note": "Proved within one czar's term; false across a change of czar."
  },
  {
   "property": "C94",
   "status": "partial",
   "theorems": [
    "Verif.Czar.C94_take_over_partial",
    "Verif.Czar.C94_locked_out_counterexample",
    "Verif.Czar.C94_locked_out_reachable_counterexample"
   ],
   "note": "Proved for members that remember the key's epoch, or none; others are locked out for ever, proved for all continuations."
  },
  {
   "property": "C95",
   "status": "partial",
   "theorems": [
    "Verif.Czar.C95_told_partial",
    "Verif.Czar.C95_untold_counterexample"
   ],
   "note": "Proved unless the member took a view of that version over from the czar key; false then."
  },
  {
   "property": "C96",
   "status": "partial",
   "theorems": [
    "Verif.DirSync.C96_copies_partial",
    "Verif.DirSync.C96_changed_file_counterexample",
    "Verif.DirSync.C96_lost_file_counterexample",
    "Verif.DirSync.C96_directory_for_file_counterexample"
   ],
   "note": "Copies the tree when every file the taker already has is empty or current (kinds at the same place agreeing). A changed nonempty file is never updated although success is reported (proved for all trees), new files can be lost behind it, a directory in place of a file stays."
  },
  {
   "property": "C97",
   "status": "partial",
   "theorems": [
    "Verif.DirSync.C97_modes_partial",
    "Verif.DirSync.C97_leaf_directory_counterexample",
    "Verif.DirSync.C97_empty_file_counterexample",
    "Verif.DirSync.C97_bits_only_counterexample"
   ],
   "note": "Holds for directories with subdirectories and new non-empty files. Fails for every directory without subdirectories, every new empty file with parallel chunking, every change of bits alone."
  },
  {
   "property": "C98",
   "status": "partial",
   "theorems": [
    "Verif.DirSync.C98_dry_run_partial",
    "Verif.DirSync.C98_dry_run_counterexample"
   ],
   "note": "Only deletions are left out: a dry run equals the real run when there is nothing to delete. Paths the giver does not have are left."
  },
  {
   "property": "C99",
   "status": "partial",
   "theorems": [
    "Verif.DirSync.C99_confined_partial",
    "Verif.DirSync.C99_dotdot_counterexample",
    "Verif.DirSync.C99_taker_link_counterexample",
    "Verif.DirSync.C99_dangling_link_counterexample",
    "Verif.DirSync.C99_sent_link_counterexample"
   ],
   "note": "Every listing, also of a dishonest giver, with proper names and nothing below a link or followed in its place: nothing outside the target changes. Counterexamples for '..', links at the taker (honest giver), links sent by the giver."
  },
  {
   "property": "C100",
   "status": "partial",
   "theorems": [
    "Verif.DirSync.C100_nothing_to_do_partial",
    "Verif.DirSync.C100_twice_partial",
    "Verif.DirSync.C100_touched_file_counterexample"
   ],
   "note": "A target that holds the giver's tree with file times equal to the second: nothing is asked for and the tree stays; two syncs in a row. A file with another time is asked for again in every sync."
  },
  {
   "property": "C101",
   "status": "partial",
   "theorems": [
    "Verif.RaftCompact.C101_state_machines_agree_partial",
    "Verif.RaftCompact.C101_counterexample_overlap",
    "Verif.RaftCompact.C101_counterexample_old_snapshot",
    "Verif.RaftCompact.C101_counterexample_empty_log",
    "Verif.RaftCompact.C101_counterexample_crash_in_install"
   ],
   "note": "Under six conditions (three of C20, plus: base terms match where logs overlap, snapshots not older than what was acknowledged, no restart with an emptied compacted log); a counterexample for each of the new ones"
  },
  {
   "property": "C102",
   "status": "partial",
   "theorems": [
    "Verif.RaftCompact.C102_leader_completeness_partial",
    "Verif.RaftCompact.C102_counterexample"
   ],
   "note": "Under the conditions of C101; counterexamples without them"
  },
  {
   "property": "C103",
   "status": "proved",
   "theorems": [
    "Verif.RaftCompact.C103_snapshot_installs_leader_state"
   ],
   "note": "Any leader state whose applied commands begin its log, any follower of the same term"
  },
  {
   "property": "C104",
   "status": "partial",
   "theorems": [
    "Verif.RaftCompact.C104_compaction_partial",
    "Verif.RaftCompact.C104_message_after_compaction_partial",
    "Verif.RaftCompact.C104_counterexample"
   ],
   "note": "State, sendable entries and vote answers for every state; a leader's message only when its entries begin past the new base, else counterexample"
  },
  {
   "property": "C105",
   "status": "partial",
   "theorems": [
    "Verif.RaftCompact.C105_no_panic_partial",
    "Verif.RaftCompact.C105_snapshot_no_panic_partial",
    "Verif.RaftCompact.C105_counterexample",
    "Verif.RaftCompact.C105_counterexample_without_compaction"
   ],
   "note": "False of the code (two counterexamples, one without compaction); proved for messages that do not reach back to the base, and for snapshots"
  },
  {
   "property": "C106",
   "status": "partial",
   "theorems": [
    "Verif.Pump.C106_in_order",
    "Verif.Pump.C106_no_gap_partial",
    "Verif.Pump.C106_errors_partial",
    "Verif.Pump.C106_timer_counterexample",
    "Verif.Pump.C106_drop_counterexample",
    "Verif.Pump.C106_drop_only_when_full"
   ],
   "note": "Order and no duplicates hold in every run (C106_in_order). Without gaps holds with distinct circuit ids and as long as neither the five-second timer of the delivery loop nor the five-second drop of a full ReadsIn fires; both timers lose a fragment of a circuit that stays open (counterexamples). Errors: no timer discards them."
  },
  {
   "property": "C107",
   "status": "partial",
   "theorems": [
    "Verif.Pump.C107_final",
    "Verif.Pump.C107_told_once",
    "Verif.Pump.C107_remote_closes_partial",
    "Verif.Pump.C107_reason_counterexample",
    "Verif.Pump.C107_first_reason"
   ],
   "note": "Final close and told at most once, with distinct ids. The remote end closes when the reason is nil; a close with a reason is converted to an error on the way and the remote end stays open (universal counterexample)."
  },
  {
   "property": "C108",
   "status": "partial",
   "theorems": [
    "Verif.Pump.C108_count_partial",
    "Verif.Pump.C108_counterexample"
   ],
   "note": "With distinct circuit ids; with both ends of one circuit at the same peer the count is too low."
  },
  {
   "property": "C109",
   "status": "partial",
   "theorems": [
    "Verif.Pump.C109_only_then",
    "Verif.Pump.C109_peers_partial",
    "Verif.Pump.C109_circuits_counterexample",
    "Verif.Pump.C109_peers_counterexample",
    "Verif.Pump.C109_remotes_told"
   ],
   "note": "Shuts down only when stopped or on a notice (C109_only_then). The flag for circuits is never acted on (universal counterexample). The flag for peers works when the remote is known under its peer id only; a circuit opened by address leaves a second key and the peer never stops."
  },
  {
   "property": "C110",
   "status": "partial",
   "theorems": [
    "Verif.Pump.C110_reads_partial",
    "Verif.Pump.C110_errors_counterexample",
    "Verif.Pump.C110_dead_peer_counterexample"
   ],
   "note": "A full Reads channel holds the pump until the two-second timer, which is always armed. A full Errors channel holds it without limit, and a stopped peer whose ErrorsIn is full blocks its connection (both for every continuation)."
  },
  {
   "property": "C111",
   "status": "partial",
   "theorems": [
    "Verif.FragPool.C111_new_fragment_partial",
    "Verif.FragPool.C111_ambiguous_counterexample",
    "Verif.FragPool.C111_double_free_counterexample",
    "Verif.FragPool.C111_retry_counterexample"
   ],
   "note": "Proved for callers who use only fragments that are theirs. A failed SendOneWay does not tell whether it has freed the fragment; freeing or sending again after a failure breaks the property (counterexamples)."
  },
  {
   "property": "C112",
   "status": "partial",
   "theorems": [
    "Verif.PeerSvc.C112_config",
    "Verif.PeerSvc.C112_limit_partial",
    "Verif.PeerSvc.C112_same_id_counterexample",
    "Verif.PeerSvc.C112_register_counterexample",
    "Verif.PeerSvc.C112_extant",
    "Verif.PeerSvc.C112_extant_single",
    "Verif.PeerSvc.C112_extant_counterexample",
    "Verif.PeerSvc.C112_flag_counterexample",
    "Verif.PeerSvc.C112_turned_away",
    "Verif.PeerSvc.C112_panics_counterexample",
    "Verif.PeerSvc.C112_start_panics_counterexample",
    "Verif.PeerSvc.C112_extant_panics_counterexample",
    "Verif.PeerSvc.C112_race_panics_counterexample",
    "Verif.PeerSvc.C112_no_panic_partial"
   ],
   "note": "Limit proved per registration and for instances with distinct ids; prefer-extant proved; panics characterised exactly. Requests with an id in use, re-registration and several panicking requests break the claim (counterexamples)."
  },
  {
   "property": "C113",
   "status": "partial",
   "theorems": [
    "Verif.FragPool.C113_resend_partial",
    "Verif.FragPool.C113_identity",
    "Verif.FragPool.C113_counterexample",
    "Verif.FragPool.C113_kept",
    "Verif.FragPool.C113_not_kept"
   ],
   "note": "Proved for circuits between services of the same names; otherwise the first circuit's service names stick (counterexample). Ids are always right."
  },
  {
   "property": "C114",
   "status": "proved",
   "theorems": [
    "Verif.Ticket.C114_one_place",
    "Verif.Ticket.C114_applied_once"
   ],
   "note": "Over all runs of the cluster model; one place in all logs at all times, applied at most once per node."
  },
  {
   "property": "C115",
   "status": "proved",
   "theorems": [
    "Verif.Ticket.C115_success",
    "Verif.Ticket.C115_error",
    "Verif.Ticket.C115_final"
   ],
   "note": "Success: stands applied at the index reported; error: in no log, for every continuation; an answer never changes."
  },
  {
   "property": "C116",
   "status": "partial",
   "theorems": [
    "Verif.Ticket.C116_accepted_partial",
    "Verif.Ticket.C116_logged_partial",
    "Verif.Ticket.C116_refused_partial",
    "Verif.Ticket.C116_answered_partial",
    "Verif.Ticket.C116_stalled_counterexample",
    "Verif.Ticket.C116_stepdown_counterexample",
    "Verif.Ticket.C116_send_counterexample",
    "Verif.Ticket.C116_takeover_counterexample",
    "Verif.Ticket.C116_submitted_partial"
   ],
   "note": "False in the code: four universal counterexamples; the steps of the normal way are the partial theorems."
  },
  {
   "property": "C117",
   "status": "partial",
   "theorems": [
    "Verif.Ticket.C117_own_partial",
    "Verif.Ticket.C117_follower_partial",
    "Verif.Ticket.C117_leader_partial",
    "Verif.Ticket.C117_lost_counterexample",
    "Verif.Ticket.C117_overwritten_counterexample",
    "Verif.Ticket.C117_home_counterexample"
   ],
   "note": "False in the code: nobody is told of a lost request; a node elected meanwhile does not tell its own caller. Holds for the call's own entry, for a follower still waiting, and a leader always sends the answer."
  },
  {
   "property": "C118",
   "status": "proved",
   "theorems": [
    "Verif.Ticket.C118_order",
    "Verif.Ticket.C118_positions",
    "Verif.Ticket.C118_nothing_dropped"
   ],
   "note": "All runs, all batchings."
  },
  {
   "property": "C119",
   "status": "partial",
   "theorems": [
    "Verif.Sparse.C119_regions",
    "Verif.Sparse.C119_summary",
    "Verif.Sparse.C119_empty",
    "Verif.Sparse.C119_chunks",
    "Verif.Sparse.C119_reserved_counterexample"
   ],
   "note": "Regions tile the file, flags and chunk list proved; space reserved beyond the end of a file that has a hole is not reported (counterexample, universal)."
  },
  {
   "property": "C120",
   "status": "partial",
   "theorems": [
    "Verif.Sparse.C120_copy_partial",
    "Verif.Sparse.C120_short_counterexample",
    "Verif.Sparse.C120_same_file_counterexample"
   ],
   "note": "Proved for different paths unless the source ends in a hole and uses more disk than its size; that case and copying a file onto itself are refuted (counterexamples, universal)."
  },
  {
   "property": "C121",
   "status": "proved",
   "theorems": [
    "Verif.Sparse.C121_nil_iff"
   ],
   "note": "Both directions, and it always returns."
  },
  {
   "property": "C122",
   "status": "partial",
   "theorems": [
    "Verif.MemWAL.C122_log_holds_what_was_written",
    "Verif.MemWAL.C122_is_the_log_described",
    "Verif.MemWAL.C122_same_as_disk_partial",
    "Verif.MemWAL.C122_over_snapshot_counterexample",
    "Verif.MemWAL.C122_disk_stops_over_base_counterexample",
    "Verif.MemWAL.C122_links_counterexample",
    "Verif.MemWAL.C122_returns_partial",
    "Verif.MemWAL.C122_stale_term_counterexample",
    "Verif.MemWAL.C122_committed_entries_are_kept"
   ],
   "note": "The memory-only log holds what was written after every sequence of calls (proved in full) and, where both run on, the same terms and bodies as the log on disk. The full claims fail and the failures are proved: the log on disk stops where the memory log does not (an entry over a snapshot cannot be replaced), the links to the entry before differ, and entries that fit what the log still holds can be refused because the index keeps a term that was cut off."
  },
  {
   "property": "C123",
   "status": "partial",
   "theorems": [
    "Verif.Rand.C123_range_partial",
    "Verif.Rand.C123_range_tube_partial",
    "Verif.Rand.C123_redraws",
    "Verif.Rand.C123_max_counterexample",
    "Verif.Rand.C123_empty_range_counterexample",
    "Verif.Rand.C123_pos_or_neg",
    "Verif.Rand.C123_non_negative",
    "Verif.Rand.C123_positive",
    "Verif.Rand.C123_int64",
    "Verif.Rand.C123_bool",
    "Verif.Rand.C123_sync_counterexample",
    "Verif.Rand.C123_sync_partial"
   ],
   "note": "Every range function gives every value of its range equally often, at every number of words, for all sizes below MaxInt64; at MaxInt64 the bound itself can be returned, and the jsync copies return a negative number for one word (proved)."
  },
  {
   "property": "C124",
   "status": "partial",
   "theorems": [
    "Verif.RandLock.C124_shareable_partial",
    "Verif.RandLock.C124_never_returns_counterexample",
    "Verif.RandLock.C124_stops_all_counterexample",
    "Verif.RandLock.C124_tube_shareable_partial",
    "Verif.RandLock.C124_tube_never_returns_counterexample"
   ],
   "note": "Holds for the calls that read the generator themselves, for all goroutines, calls and schedules; the calls that go through Read while holding the mutex never return and stop all others (proved for all schedules)."
  },
  {
   "property": "C125",
   "status": "partial",
   "theorems": [
    "Verif.Rand.C125_election_timeout_partial",
    "Verif.Rand.C125_small_cluster",
    "Verif.Rand.C125_large_cluster_counterexample",
    "Verif.Rand.C125_hop_partial",
    "Verif.Rand.C125_hop_fixed",
    "Verif.Rand.C125_hop_counterexample"
   ],
   "note": "Bounds for all configurations in the exact form the code has; at most twice the minimum for clusters up to three, exceeded from five on; hop delays uniform in [min,max), except that a room of one nanosecond panics."
  },
  {
   "property": "C126",
   "status": "partial",
   "theorems": [
    "Verif.PreVote.C126_progress_partial",
    "Verif.PreVote.C126_same_term_progress_partial",
    "Verif.PreVote.C126_no_leader_ever_counterexample",
    "Verif.PreVote.C126_progress_counterexample",
    "Verif.PreVote.C126_without_prevotes_partial"
   ],
   "note": "Does not hold of the code: pre-votes never carry terms over, so two nodes left of three, one with the higher term and one with the newer log, never elect a leader again (counterexamples, concrete and general). Proved: a majority with a member that is behind none of the others in term, configuration version and log can elect it and commit anything, from every reachable state; without the pre-vote phase every majority can, from every reachable state. Possibility of progress under a suitable schedule, not that a given schedule achieves it."
  },
  {
   "property": "C127",
   "status": "proved",
   "theorems": [
    "Verif.PreVote.C127_consent",
    "Verif.PreVote.C127_only_way_up",
    "Verif.PreVote.C127_answer",
    "Verif.PreVote.C127_cut_off",
    "Verif.PreVote.C127_still_raft"
   ],
   "note": "For every cluster size and execution of the model of Model/PreVote (fixed membership, no snapshots)."
  },
  {
   "property": "C128",
   "status": "partial",
   "theorems": [
    "Verif.Prune.C128_one_circuit_stays_partial",
    "Verif.Prune.C128_agreed_circuit_stays_partial",
    "Verif.Prune.C128_crossing_counterexample",
    "Verif.Prune.C128_window_counterexample",
    "Verif.Prune.C128_reconnect_counterexample",
    "Verif.Prune.C128_late_notice_counterexample"
   ],
   "note": "By requests alone the smallest circuit is never lost, and replicas that agree keep their circuit; but the closing loop of the periodic check leaves crossing replicas, and a client in a window of ten seconds, with no circuit, and a late notice of departure closes the new circuit."
  },
  {
   "property": "C129",
   "status": "partial",
   "theorems": [
    "Verif.Prune.C129_closed_on_evidence_partial",
    "Verif.Prune.C129_asked_only_when_due_partial",
    "Verif.Prune.C129_duplicate_since",
    "Verif.Prune.C129_closing_loop_counterexample",
    "Verif.Prune.C129_closing_loop_reached_counterexample"
   ],
   "note": "The node that is asked closes only on the same request over both circuits, and requests are sent only when due; the closing loop of the periodic check closes all circuits but the newest with none of that."
  },
  {
   "property": "C130",
   "status": "partial",
   "theorems": [
    "Verif.EventQ.C130_slice_partial",
    "Verif.EventQ.C130_release_partial",
    "Verif.EventQ.C130_slice_complete",
    "Verif.EventQ.C130_alike_counterexample"
   ],
   "note": "Order of a slice and of releases is the same for all numberings and orders of submission when no two requests are alike; complete. Counterexample: alike requests are ordered by number."
  },
  {
   "property": "C131",
   "status": "partial",
   "theorems": [
    "Verif.EventQ.C131_order",
    "Verif.EventQ.C131_queue_partial",
    "Verif.EventQ.C131_batch_counterexample"
   ],
   "note": "All six comparisons are total orders by number and their key; queues refine sets under put, pop, del. Counterexample: a batch has no time and stops the scheduler."
  },
  {
   "property": "C132",
   "status": "partial",
   "theorems": [
    "Verif.SessTable.C132_known_partial",
    "Verif.SessTable.C132_stays_partial",
    "Verif.SessTable.C132_snapshot_drops_counterexample",
    "Verif.SessTable.C132_snapshot_ends_counterexample",
    "Verif.SessTable.C132_clock_behind_counterexample",
    "Verif.SessTable.C132_end_moves_back_counterexample",
    "Verif.SessTable.C132_created_once_partial"
   ],
   "note": "Without snapshots and restarts, ids never reused and creation times per client growing. Snapshots and leaders with clocks behind break the claim: counterexamples."
  },
  {
   "property": "C133",
   "status": "partial",
   "theorems": [
    "Verif.SessTable.C133_forgotten_partial",
    "Verif.SessTable.C133_restart_counterexample",
    "Verif.SessTable.C133_snapshot_counterexample",
    "Verif.SessTable.C133_two_sessions_counterexample",
    "Verif.SessTable.C133_unknown_session_counterexample"
   ],
   "note": "Without snapshots and restarts, after entries whose session is known. Restarts, snapshots and entries of unknown sessions break the claim: counterexamples."
  },
  {
   "property": "C134",
   "status": "partial",
   "theorems": [
    "Verif.ReqChunks.C134_whole_partial",
    "Verif.ReqChunks.C134_pull_partial",
    "Verif.ReqChunks.C134_packs_partial",
    "Verif.ReqChunks.C134_few_chunks_counterexample",
    "Verif.ReqChunks.C134_endless_counterexample",
    "Verif.ReqChunks.C134_cut_counterexample"
   ],
   "note": "Requests whose chunks fit into messages, on circuits that do not end. With the constants of the code this covers chunks up to 230 bytes encoded and any number of them. Counterexamples for the rest."
  },
  {
   "property": "C135",
   "status": "partial",
   "theorems": [
    "Verif.ReqChunks.C135_last_follows_partial",
    "Verif.ReqChunks.C135_before_last_partial",
    "Verif.ReqChunks.C135_lost_earlier_counterexample",
    "Verif.ReqChunks.C135_exchanged_counterexample"
   ],
   "note": "A gap just before the last message is noticed; earlier gaps and exchanged messages are not: counterexamples."
  },
  {
   "property": "C136",
   "status": "partial",
   "theorems": [
    "Verif.CDC.C136_plakar_window_partial",
    "Verif.CDC.C136_plakar_files_partial",
    "Verif.CDC.C136_after_common_cut",
    "Verif.CDC.C136_stadia_window_partial",
    "Verif.CDC.C136_fnv_counterexample",
    "Verif.CDC.C136_rabin_counterexample",
    "Verif.CDC.C136_ultra_counterexample"
   ],
   "note": "Proved for Plakar's chunker (the default of jsync) on NextCut and on the cuts of two files with a common end, for Stadia's chunker for cuts made by the threshold, and for every chunker that after one common cut all later cuts are the same. False for FNV-1a (hashes the whole chunk), Rabin-Karp (the leaving byte is never taken out of the hash, in any valid configuration) and UltraCDC (groups of eight bytes counted from the chunk's start). Stadia's cuts by going back to an earlier candidate, and Restic's external chunker, are not covered."
  },
  {
   "property": "C137",
   "status": "partial",
   "theorems": [
    "Verif.HermesWake.C137_timer_in_time_partial",
    "Verif.HermesWake.C137_request_sets_timer_partial",
    "Verif.HermesWake.C137_second_request_counterexample",
    "Verif.HermesWake.C137_parity_counterexample",
    "Verif.HermesWake.C137_two_waiting_counterexample",
    "Verif.HermesWake.C137_counterexample",
    "Verif.HermesWake.C137_ack_counterexample",
    "Verif.HermesWake.C137_wake_sets_timer_partial",
    "Verif.HermesWake.C137_wake_unblock_counterexample",
    "Verif.HermesWake.C137_delete_moves_timer_partial",
    "Verif.HermesWake.C137_unblock_sets_timer_partial",
    "Verif.HermesWake.C137_queue_in_order"
   ],
   "note": "Proved for all runs: a timer that is set is in time; a request sets one if none is set; a timeout whose handlers only drop or re-record sets the next. Disagreements proved: a request that comes while a timer is set turns it off (k waiting requests have a timer iff k is odd), recorded acknowledgements set none, a timeout that lets reads go leaves the others without."
  },
  {
   "property": "C138",
   "status": "partial",
   "theorems": [
    "Verif.HermesWake.C138_tube_order",
    "Verif.HermesWake.C138_tube_found",
    "Verif.HermesWake.C138_hermes_order_partial",
    "Verif.HermesWake.C138_hermes_found_partial",
    "Verif.HermesWake.C138_hermes_order_counterexample",
    "Verif.HermesWake.C138_hermes_lost_counterexample",
    "Verif.HermesWake.C138_hermes_left_counterexample"
   ],
   "note": "Tube's ticket queue: total order, every ticket is found whatever the rotations. Hermes' queue: the same if no two tickets have the same deadline and key; otherwise each is greater than the other and after a rotation tickets are not found (proved). Deletion and colours of the external red-black tree are not modelled."
  },
  {
   "property": "C139",
   "status": "partial",
   "theorems": [
    "Verif.HostCID.C139_later_starts_partial",
    "Verif.HostCID.C139_first_start_counterexample",
    "Verif.HostCID.C139_counterexample",
    "Verif.HostCID.C139_crash_counterexample",
    "Verif.HostCID.C139_race_counterexample",
    "Verif.HostCID.C139_early_reader_counterexample"
   ],
   "note": "From the second start on the identifier is stable. Disagreements proved: the first process has a newline at the end of it; a crash or a start between creation and write makes later starts panic; two first starts at the same time have different identifiers."
  },
  {
   "property": "C140",
   "status": "partial",
   "theorems": [
    "Verif.FindLeader.C140_somebody_said",
    "Verif.FindLeader.C140_self_report_partial",
    "Verif.FindLeader.C140_single_leader_partial",
    "Verif.FindLeader.C140_none",
    "Verif.FindLeader.C140_order_counterexample",
    "Verif.FindLeader.C140_exit_counterexample",
    "Verif.FindLeader.C140_hearsay_counterexample"
   ],
   "note": "Who is returned as really the leader said so itself, when only configured nodes are asked; a single leader is found in any order; the case of none outright. The code violates the rest: of several leaders the one asked last is returned whatever the terms, and hearsay of nodes not configured is believed."
  },
  {
   "property": "C141",
   "status": "partial",
   "theorems": [
    "Verif.KVMerge.C141_clone_partial",
    "Verif.KVMerge.C141_merge_table_partial",
    "Verif.KVMerge.C141_merge_partial",
    "Verif.KVMerge.C141_clone_store_partial",
    "Verif.KVMerge.C141_merge_counterexample"
   ],
   "note": "Copying a table or store, and merging stores in any order of the tables, show the union of the contents. Missing: keys that extend each other by a zero byte (counterexample: a merge loses a key); that the second store's memory is not shared is not modelled, in the model it is unchanged by construction."
  },
  {
   "property": "C142",
   "status": "partial",
   "theorems": [
    "Verif.Watchdog.C142_request_tried",
    "Verif.Watchdog.C142_up_is_latest_try_partial",
    "Verif.Watchdog.C142_heard_forward",
    "Verif.Watchdog.C142_heard_true",
    "Verif.Watchdog.C142_silent_counterexample",
    "Verif.Watchdog.C142_no_address_counterexample"
   ],
   "note": "A reconnection asked for is tried at the next round and its result is the peer's state (if the request has an address); the time heard goes forward only and is a time something was heard. Refuted for all runs: the tick reconnects a silent peer."
  },
  {
   "property": "C143",
   "status": "partial",
   "theorems": [
    "Verif.Rolling.C143_rabin_karp",
    "Verif.Rolling.C143_rabin_karp_window",
    "Verif.Rolling.C143_gear_partial",
    "Verif.Rolling.C143_gear_window_counterexample",
    "Verif.Rolling.C143_buzhash_counterexample",
    "Verif.Rolling.C143_buzhash_fill_counterexample",
    "Verif.Rolling.C143_skip_partial",
    "Verif.Rolling.C143_skip_counterexample",
    "Verif.Rolling.C143_block_lengths"
   ],
   "note": "Rabin-Karp outright: the hash is the polynomial in the window. The chunker's block lengths outright (maximum at least 1). Gear only with 64 bytes in place of the window, Skip only for 0 and 1; the rest is refuted, Buzhash for every stream."
  },
  {
   "property": "C144",
   "status": "partial",
   "theorems": [
    "Verif.UserMeta.C144_metadata",
    "Verif.UserMeta.C144_sent",
    "Verif.UserMeta.C144_reserved",
    "Verif.UserMeta.C144_system_args",
    "Verif.UserMeta.C144_own_args_partial",
    "Verif.UserMeta.C144_own_args_counterexample",
    "Verif.UserMeta.C144_leader_partial",
    "Verif.UserMeta.C144_leader_counterexample"
   ],
   "note": "Outright: the metadata are those of the latest change, they are in every message, no argument of the system changes, a reserved key panics. Partial: the caller's own arguments unless the metadata have the key; the leader unless learned by inspection, by a ticket's guess or from an acknowledgement without a term; both refuted otherwise."
  },
  {
   "property": "C145",
   "status": "proved",
   "theorems": [
    "Verif.SvcLimit.C145_update",
    "Verif.SvcLimit.C145_last",
    "Verif.SvcLimit.C145_unlisted",
    "Verif.SvcLimit.C145_replica",
    "Verif.SvcLimit.C145_prepare_counterexample"
   ],
   "note": "For every configuration and every sequence of updates; the tube command's preparation alone is refuted, the check after it makes up for it."
  },
  {
   "property": "C146",
   "status": "partial",
   "theorems": [
    "Verif.ToDisk.C146_kept",
    "Verif.ToDisk.C146_whole",
    "Verif.ToDisk.C146_succeeds",
    "Verif.ToDisk.C146_kept_buffered",
    "Verif.ToDisk.C146_buffered_partial",
    "Verif.ToDisk.C146_flush_counterexample",
    "Verif.ToDisk.C146_order_counterexample"
   ],
   "note": "The upload receiver outright: kept until whole, whole when no error is reported, and it does succeed. The writer in jsync: kept until the end outright; whole only on a disk with room and with parts in order, refuted otherwise."
  },
  {
   "property": "C147",
   "status": "partial",
   "theorems": [
    "Verif.ProdCfg.C147_start_partial",
    "Verif.ProdCfg.C147_accepts",
    "Verif.ProdCfg.C147_defaults_sane",
    "Verif.ProdCfg.C147_not_insane",
    "Verif.ProdCfg.C147_limit",
    "Verif.ProdCfg.C147_cluster_lease",
    "Verif.ProdCfg.C147_lone_read",
    "Verif.ProdCfg.C147_lone_read_counterexample",
    "Verif.ProdCfg.C147_wrap_counterexample",
    "Verif.ProdCfg.C147_drift_counterexample",
    "Verif.ProdCfg.C147_check"
   ],
   "note": "Timings after the start, the check in both directions, insaneConfig never fires, cluster leases positive, exact condition for a lone node's reads. Missing: heartbeats whose fivefold overflows, and a lone node's reads for drift bounds within 5 ms of half the election time: counterexamples."
  },
  {
   "property": "C148",
   "status": "proved",
   "theorems": [
    "Verif.KV.C148_read_reports",
    "Verif.KV.C148_refused_write_reports",
    "Verif.KV.C148_refused_cas_reports",
    "Verif.KV.C148_cas_after_read",
    "Verif.KV.C148_cas_after_refusal"
   ],
   "note": "Reads, refused writes and refused compare-and-swaps tell the stored facts; a compare-and-swap expecting them on an unheld key is carried out."
  }
 ]
}