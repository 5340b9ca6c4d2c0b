{
 "claims": [
  {
   "property": "C01",
   "status": "proved",
   "theorems": [
    "Verif.Props.C01_varint_roundtrip",
    "Verif.Props.C01_varint_prefix_free"
   ],
   "note": ""
  },
  {
   "property": "C02",
   "status": "partial",
   "theorems": [
    "Verif.Props.C02_exact_range_partial",
    "Verif.Props.C02_violated_wrong_value",
    "Verif.Props.C02_violated_nontermination"
   ],
   "note": "The code violates the claim outside the 32-bit range; the exact range of validity is proved."
  },
  {
   "property": "C03",
   "status": "proved",
   "theorems": [
    "Verif.Props.C03_roundtrip",
    "Verif.Props.C03_prefix_free",
    "Verif.Props.C03_long_string_misread"
   ],
   "note": "Strings are limited to 2^15-1 bytes because the decoder reads the length as signed; longer ones are silently misread (C03_long_string_misread)."
  },
  {
   "property": "C04",
   "status": "partial",
   "theorems": [
    "Verif.Props.C04_values_partial",
    "Verif.Props.C04_never_misread_partial",
    "Verif.Props.C04_record",
    "Verif.Props.C04_record_set",
    "Verif.Props.C04_violated_bytebuf_panic",
    "Verif.Props.C04_violated_batch_accepted",
    "Verif.Props.C04_violated_record_data"
   ],
   "note": "Proved for all basic and derived types, records and record sets; byte buffers panic, and a batch or record payload decoded on its own accepts truncated input."
  },
  {
   "property": "C05",
   "status": "proved",
   "theorems": [
    "Verif.Props.C05_record_roundtrip"
   ],
   "note": ""
  },
  {
   "property": "C06",
   "status": "proved",
   "theorems": [
    "Verif.Props.C06_batch_roundtrip",
    "Verif.Props.C06_skip",
    "Verif.Props.C06_raw_batch_roundtrip",
    "Verif.Props.C06_producer_to_consumer",
    "Verif.Props.C06_schema_id_dropped"
   ],
   "note": "Compression libraries are abstract (decompression undoes compression). The conversion raw -> in-memory on the consumer side drops the schema id (finding)."
  },
  {
   "property": "C07",
   "status": "partial",
   "theorems": [
    "Verif.Props.C07_record_set_roundtrip",
    "Verif.Props.C07_raw_record_set_roundtrip",
    "Verif.Props.C07_announced_size_partial",
    "Verif.Props.C07_size_off_by_schema",
    "Verif.Props.C07_violated_size"
   ],
   "note": "The announced size is 4 bytes too small per batch with a schema id."
  },
  {
   "property": "C08",
   "status": "proved",
   "theorems": [
    "Verif.Props.C08_crc_covers_payload",
    "Verif.Props.C08_burst_detected",
    "Verif.Props.C08_single_bit",
    "Verif.Props.C08_not_verified_on_read"
   ],
   "note": "Bit windows are taken in the order in which the checksum consumes bits (least significant bit of each byte first). The code never verifies the checksum on reading (finding)."
  },
  {
   "property": "C09",
   "status": "partial",
   "theorems": [
    "Verif.Props.C09_offsets_gap_free",
    "Verif.Props.C09_offsets_unique",
    "Verif.Props.C09_write_reports",
    "Verif.Props.C09_rejected_write_partial",
    "Verif.Props.C09_violated_partial_write",
    "Verif.Props.C09_trusts_header",
    "Verif.Props.C09_schema_batch_panics"
   ],
   "note": "Gap-free numbering proved for all histories. A multi-batch write whose file write fails midway is reported as failed but leaves its first batches stored. Batches with a schema id cannot be written at all (failed assertion)."
  },
  {
   "property": "C10",
   "status": "partial",
   "theorems": [
    "Verif.Props.C10_told_offset_partial",
    "Verif.Props.C10_consumer_partial",
    "Verif.Props.C10_violated_at_most_once",
    "Verif.Props.C10_violated_smartmodule",
    "Verif.Props.C10_violated_dropped"
   ],
   "note": "Proved end to end (accumulator, requests, resends, broker log, client reader) for at-least-once delivery without SmartModules; at-most-once drops error codes, and a SmartModule on the request shifts offsets."
  },
  {
   "property": "C11",
   "status": "proved",
   "theorems": [
    "Verif.Props.C11_fetch",
    "Verif.Props.C11_fetch_stored",
    "Verif.Props.C11_outside",
    "Verif.Props.C11_fetch_committed"
   ],
   "note": ""
  },
  {
   "property": "C12",
   "status": "partial",
   "theorems": [
    "Verif.Props.C12_committed_partial",
    "Verif.Props.C12_violated"
   ],
   "note": "Proved when the fetch offset is not beyond the high watermark; a committed fetch beyond it returns uncommitted data (unsigned wrap)."
  },
  {
   "property": "C13",
   "status": "partial",
   "theorems": [
    "Verif.Props.C13_reader_partial",
    "Verif.Props.C13_client_partial",
    "Verif.Props.C13_violated_truncated_batch"
   ],
   "note": "Proved for a reader that ignores incomplete batches and for the client when no fetch is cut; the real client decodes a batch cut by the byte limit as complete and loses records."
  },
  {
   "property": "C14",
   "status": "partial",
   "theorems": [
    "Verif.Props.C14_files",
    "Verif.Props.C14_interrupted_write",
    "Verif.Props.C14_reopened_partial",
    "Verif.Props.C14_batch_without_index_entry",
    "Verif.Props.C14_roll_over",
    "Verif.Props.C14_during_retention",
    "Verif.Props.C14_scan_is_list",
    "Verif.Props.C14_violated_index_full",
    "Verif.Props.C14_opens_partial"
   ],
   "note": "Byte-level recovery proved for every crash point in the log file; also for a process that dies while a new segment is started or old ones are removed. Reopening fails when the offset index is full (counterexample proved), and always succeeds when the index has room for a whole segment, as it has by default. Losses of the operating system's cache are not modelled."
  },
  {
   "property": "C15",
   "status": "proved",
   "theorems": [
    "Verif.Props.C15_index"
   ],
   "note": ""
  },
  {
   "property": "C16",
   "status": "partial",
   "theorems": [
    "Verif.Props.C16_removes_oldest",
    "Verif.Props.C16_only_as_needed_partial",
    "Verif.Props.C16_within_limit_partial",
    "Verif.Props.C16_violated_one_round",
    "Verif.Props.C16_violated_after_restart",
    "Verif.Props.C16_violated_removes_too_much"
   ],
   "note": "The cleaner removes only a prefix of closed segments; how many is computed from an average, so it can remove too few or too many, and sizes are forgotten on restart."
  },
  {
   "property": "C17",
   "status": "partial",
   "theorems": [
    "Verif.Props.C17_only_expired",
    "Verif.Props.C17_no_hole_partial",
    "Verif.Props.C17_violated_hole"
   ],
   "note": "Only expired segments are removed; without monotone modification times a hole can arise."
  },
  {
   "property": "C18",
   "status": "partial",
   "theorems": [
    "Verif.Props.C18_hw_is_checkpoint",
    "Verif.Props.C18_hw_le_leo",
    "Verif.Props.C18_consistent_partial",
    "Verif.Props.C18_violated_log_start",
    "Verif.Props.C18_violated_unreadable",
    "Verif.Props.C18_checkpoint_caught_up_partial",
    "Verif.Props.C18_violated_checkpoint_skipped"
   ],
   "note": "The watermark read back never exceeds the log end; it can be below the log start or be reset by an unreadable checkpoint."
  },
  {
   "property": "C19",
   "status": "partial",
   "theorems": [
    "Verif.Props.C19_partial",
    "Verif.Props.C19_follower_view_partial",
    "Verif.Props.C19_bytes_partial",
    "Verif.Props.C19_violated_cut_batch"
   ],
   "note": "Proved for every interleaving of produce, sync, report, restart with whole batches; a sync cut by the byte limit in the middle of a batch stores the cut batch as if complete."
  },
  {
   "property": "C20",
   "status": "proved",
   "theorems": [
    "Verif.Props.C20_leader",
    "Verif.Props.C20_follower"
   ],
   "note": "Within one life of the replica process (restart reads the checkpoint, see C18)."
  },
  {
   "property": "C21",
   "status": "proved",
   "theorems": [
    "Verif.Props.C21_value",
    "Verif.Props.C21_advances",
    "Verif.Props.C21_capped",
    "Verif.Props.C21_order",
    "Verif.Props.C21_single"
   ],
   "note": ""
  },
  {
   "property": "C22",
   "status": "partial",
   "theorems": [
    "Verif.Props.C22_acked_everywhere_partial",
    "Verif.Props.C22_timeout_is_error",
    "Verif.Props.C22_violated_cut_batch"
   ],
   "note": "Proved for every schedule while messages carry whole batches (the set of replicas of a partition is fixed; a restart of the leader ends the request). A message cut by the byte limit inside a batch makes the leader acknowledge a record the follower does not have."
  },
  {
   "property": "C23",
   "status": "partial",
   "theorems": [
    "Verif.Props.C23_committed_kept_partial",
    "Verif.Props.C23_converges_partial",
    "Verif.Props.C23_violated_diverged",
    "Verif.Props.C23_violated_stuck"
   ],
   "note": "Committed records survive a clean fail-over to a caught-up follower; logs are never truncated, so an old leader with uncommitted records diverges, and a replica with a higher watermark is stuck."
  },
  {
   "property": "C24",
   "status": "partial",
   "theorems": [
    "Verif.Props.C24_restart_partial",
    "Verif.Props.C24_get_partial",
    "Verif.Props.C24_interrupted",
    "Verif.Props.C24_violated_failed_delete",
    "Verif.Props.C24_violated_retention",
    "Verif.Props.C24_violated_old_watermark"
   ],
   "note": "On a partition replica, down to bytes. Exact when the changes of a key succeed and the store loads; a failed delete is undone by a restart, retention of the last checkpoint makes the store unloadable, an old watermark file hides entries."
  },
  {
   "property": "C25",
   "status": "partial",
   "theorems": [
    "Verif.Props.C25_offsets_partial",
    "Verif.Props.C25_commit",
    "Verif.Props.C25_delete",
    "Verif.Props.C25_delete_replica",
    "Verif.Props.C25_fetch",
    "Verif.Props.C25_violated_stored_but_rejected",
    "Verif.Props.C25_violated_deleted_offset_returns"
   ],
   "note": "Over all histories of commits, deletions, partition deletions, restarts and retention. A failing flush rejects a stored commit; a failed deletion can return after the partition's offsets were deleted."
  },
  {
   "property": "C26",
   "status": "proved",
   "theorems": [
    "Verif.Props.C26_same_key_same_partition"
   ],
   "note": "For every hash function."
  },
  {
   "property": "C27",
   "status": "proved",
   "theorems": [
    "Verif.Props.C27_even",
    "Verif.Props.C27_even_all_online",
    "Verif.Props.C27_valid",
    "Verif.Props.C27_violated_wraparound"
   ],
   "note": "Below the wrap-around of the 32-bit counter; across it the evenness is lost (shown as an extra theorem)."
  },
  {
   "property": "C28",
   "status": "proved",
   "theorems": [
    "Verif.Props.C28_exactly_once_in_order",
    "Verif.Props.C28_sent_is_final",
    "Verif.Props.C28_flush_takes_all"
   ],
   "note": ""
  },
  {
   "property": "C29",
   "status": "partial",
   "theorems": [
    "Verif.Props.C29_batch_limits",
    "Verif.Props.C29_sent_limits",
    "Verif.Props.C29_rejection_partial",
    "Verif.Props.C29_violated_rejects_sendable"
   ],
   "note": "Limits proved; a record that fits alone is rejected when the waiting batch plus the record exceeds the request size."
  },
  {
   "property": "C30",
   "status": "partial",
   "theorems": [
    "Verif.Props.C30_relative_partial",
    "Verif.Props.C30_absolute",
    "Verif.Props.C30_absolute_negative",
    "Verif.Props.C30_violated_inverted",
    "Verif.Props.C30_violated_inverted_log"
   ],
   "note": "Exact for positions that do not overflow an i64; when the log start is above the stable offset (possible after a restart, C18) a relative position panics."
  },
  {
   "property": "C31",
   "status": "partial",
   "theorems": [
    "Verif.Props.C31_client_partial",
    "Verif.Props.C31_reader_partial",
    "Verif.Props.C31_violated_late_notification",
    "Verif.Props.C31_late_notification_happens",
    "Verif.Props.C31_violated_starvation"
   ],
   "note": "Model: server task with both offset listeners, publisher, connection in both directions, client decoding and acknowledgements, partition with any history; every interleaving of writes, watermark updates, publications, listener returns, responses and acknowledgements. Proved: slices start at the start's batch, follow each other without gap or overlap, at most one unacknowledged slice; in quiescent states everything readable has been received, and from every running state a quiescent state is reachable. False in the code when a notification of the acknowledgement listener comes late (slice sent and delivered twice) and when a batch exceeds max_bytes (stream stalls); retention and reopening during the stream are not covered."
  },
  {
   "property": "C32",
   "status": "partial",
   "theorems": [
    "Verif.Props.C32_client_partial",
    "Verif.Props.C32_take_partial",
    "Verif.Props.C32_violated_take_records"
   ],
   "note": "Every start offset and batch layout: the application receives exactly the stored records from the start on, in order, and in quiescent states all of them. Streams with disable_continuous: complete if the start begins a batch; otherwise false, the records below the start are counted and the stream ends early."
  },
  {
   "property": "C33",
   "status": "partial",
   "theorems": [
    "Verif.Props.C33_never_ahead",
    "Verif.Props.C33_never_decreases",
    "Verif.Props.C33_flush_partial",
    "Verif.Props.C33_violated_auto",
    "Verif.Props.C33_violated_reconnect",
    "Verif.Props.C33_violated_earlier_start"
   ],
   "note": "The stored offset is never ahead of what was committed and never decreases within a session. Flush is exact for the manual strategy in one session; the automatic strategy marks offsets as flushed without an answer, and reconnecting forgets commits."
  },
  {
   "property": "C34",
   "status": "partial",
   "theorems": [
    "Verif.Props.C34_single_partial",
    "Verif.Props.C34_resume_partial",
    "Verif.Props.C34_violated_partitions",
    "Verif.Props.C34_violated_partitions_twice",
    "Verif.Props.C34_violated_before_first"
   ],
   "note": "Proved for one partition and every disconnect point; one resume offset is shared by all partitions, so multi-partition consumers skip or repeat records."
  },
  {
   "property": "C35",
   "status": "partial",
   "theorems": [
    "Verif.Props.C35_deletes_first",
    "Verif.Props.C35_deletes_first_full",
    "Verif.Props.C35_any_order_partial",
    "Verif.Props.C35_violated_recreate"
   ],
   "note": "Proved for every history, every filter and every earlier epoch: full reports are the whole content; incremental reports reconstruct it when deletions are applied before updates, and in any order when no key is reported both as updated and as deleted. The claim as stated fails for an object deleted and created again between two reports (violated_recreate)."
  },
  {
   "property": "C36",
   "status": "partial",
   "theorems": [
    "Verif.Props.C36_client_partial",
    "Verif.Props.C36_broker_partial",
    "Verif.Props.C36_converges_partial",
    "Verif.Props.C36_violated_recreate",
    "Verif.Props.C36_violated_empty_sync"
   ],
   "note": "Proved for clients and brokers over every history of changes, reports, connections and controller restarts, under the hypothesis that reports are clean. Fails when an object is deleted and re-created between two reports, and when the store is empty at a full report."
  },
  {
   "property": "C37",
   "status": "partial",
   "theorems": [
    "Verif.Props.C37_in_order_partial",
    "Verif.Props.C37_violated_concurrent_writers"
   ],
   "note": "Proved for every interleaving of writers and listeners in which publications happen in the order of the writes (e.g. one writer per store, as the controller's dispatcher). Fails with two concurrent writers that publish out of order."
  },
  {
   "property": "C38",
   "status": "proved",
   "theorems": [
    "Verif.Props.C38_valid",
    "Verif.Props.C38_complete"
   ],
   "note": "Every set of brokers, every load, every present map. Kept assignments (same replica count) are taken over unchanged, without checking that their brokers are online; that is what the property says."
  },
  {
   "property": "C39",
   "status": "partial",
   "theorems": [
    "Verif.Props.C39_least_load_partial",
    "Verif.Props.C39_spread_partial",
    "Verif.Props.C39_fresh_balanced",
    "Verif.Props.C39_violated_wrap"
   ],
   "note": "Exact below 65536 leaders or followers per broker; the 16-bit load counters wrap in release builds, so beyond that the most loaded broker can be chosen."
  },
  {
   "property": "C40",
   "status": "proved",
   "theorems": [
    "Verif.Props.C40_validate"
   ],
   "note": "For maps with at most 2^32 partitions."
  },
  {
   "property": "C41",
   "status": "partial",
   "theorems": [
    "Verif.Props.C41_off",
    "Verif.Props.C41_most_caught_up_partial",
    "Verif.Props.C41_marked_offline_partial",
    "Verif.Props.C41_on",
    "Verif.Props.C41_candidates_are_replicas",
    "Verif.Props.C41_report_recorded",
    "Verif.Props.C41_violated_ahead",
    "Verif.Props.C41_violated_out_of_storage",
    "Verif.Props.C41_violated_batch"
   ],
   "note": "Every store, status and online set. The new leader is always an eligible online replica and others are untouched; it is a most caught-up one unless some replica is recorded ahead of the leader (the score wraps; reachable after a fail-over). An out-of-storage partition is not marked offline, and changes of several brokers in one batch override each other."
  },
  {
   "property": "C42",
   "status": "partial",
   "theorems": [
    "Verif.Props.C42_provisioned",
    "Verif.Props.C42_complete",
    "Verif.Props.C42_invalid_no_partitions",
    "Verif.Props.C42_only_provisioned",
    "Verif.Props.C42_fixed_point_partial",
    "Verif.Props.C42_violated_livelock"
   ],
   "note": "Every configuration and every sequence of evaluations, broker changes, foreign partition changes, partition/mirror additions and deletion. The fixed point (at most three evaluations) excludes manual maps that name an unknown broker: those alternate between pending and invalid for ever (counterexample proved)."
  },
  {
   "property": "C43",
   "status": "proved",
   "theorems": [
    "Verif.Props.C43_creates_missing",
    "Verif.Props.C43_idempotent",
    "Verif.Props.C43_keys"
   ],
   "note": "Every store and every map with distinct keys; C43_keys shows reachable topics have such maps."
  },
  {
   "property": "C44",
   "status": "partial",
   "theorems": [
    "Verif.Props.C44_accepted_partial",
    "Verif.Props.C44_violated_empty"
   ],
   "note": "The empty name is accepted; otherwise the equivalence holds for every string."
  },
  {
   "property": "C45",
   "status": "proved",
   "theorems": [
    "Verif.Props.C45_request",
    "Verif.Props.C45_stream",
    "Verif.Props.C45_isolation",
    "Verif.Props.C45_delivered",
    "Verif.Props.C45_violated_wrap"
   ],
   "note": "Every interleaving of requests, streams, time-outs, drops, failed sends, responses (known, unknown, repeated), connection end and shutdown, for fewer than 2^32 requests per connection. C45_violated_wrap shows the bound is needed."
  },
  {
   "property": "C46",
   "status": "proved",
   "theorems": [
    "Verif.Props.C46_highest_common",
    "Verif.Props.C46_server_tables",
    "Verif.Props.C46_sent_anyway"
   ],
   "note": "For server tables with one proper range per API, which the tables of SPU and SC are. If no common version exists the request is sent with the default version all the same (finding)."
  },
  {
   "property": "C47",
   "status": "proved",
   "theorems": [
    "Verif.Props.C47_versioned"
   ],
   "note": ""
  },
  {
   "property": "C48",
   "status": "partial",
   "theorems": [
    "Verif.Props.C48_prefix_partial",
    "Verif.Props.C48_keeps",
    "Verif.Props.C48_reaches",
    "Verif.Props.C48_answer",
    "Verif.Props.C48_violated_overlap",
    "Verif.Props.C48_violated_failover",
    "Verif.Props.C48_violated_retention",
    "Verif.Props.C48_violated_cut_batch"
   ],
   "note": "Proved for every interleaving of writes, sync messages (delayed, duplicated, lost, reordered), reports, reconnections, restarts, failing writes and retention, with one connection served at a time: the target is a prefix of the source, and reaches it after as many exchanges as records are missing. Violated when two connections to the target overlap (check and write are not atomic), when the source fails over (uncommitted records are mirrored), when retention removes unmirrored records (the mirror is stuck for good), and when the byte limit of a message cuts a batch."
  },
  {
   "property": "C49",
   "status": "partial",
   "theorems": [
    "Verif.Props.C49_replica_key",
    "Verif.Props.C49_signed_partial",
    "Verif.Props.C49_violated_negative",
    "Verif.Props.C49_parse_sound"
   ],
   "note": "Proved in full for replica keys (unsigned numbers) and for non-negative numbers in the i32 helpers; negative numbers collide."
  },
  {
   "property": "C50",
   "status": "proved",
   "theorems": [
    "Verif.Props.C50_no_wait",
    "Verif.Props.C50_never_stuck",
    "Verif.Props.C50_unseen_data",
    "Verif.Props.C50_final_value",
    "Verif.Props.C50_returns_current"
   ],
   "note": "Interleaving of any number of publishers and listeners; the event-listener crate is modelled by its documented behaviour."
  },
  {
   "property": "C51",
   "status": "proved",
   "theorems": [
    "Verif.Props.C51_frames",
    "Verif.Props.C51_so_far",
    "Verif.Props.C51_bad_length"
   ],
   "note": "Messages shorter than 2^31-4 bytes. Length fields no encoder writes are not checked: panic or endless wait (finding)."
  },
  {
   "property": "C52",
   "status": "partial",
   "theorems": [
    "Verif.Props.C52_filter_partial",
    "Verif.Props.C52_resume",
    "Verif.Props.C52_violated_client_offset",
    "Verif.Props.C52_violated_offset_delta",
    "Verif.Props.C52_violated_skips_segment",
    "Verif.Props.C52_violated_oversized",
    "Verif.Props.C52_violated_start_inside_batch"
   ],
   "note": "Every filter and every batch list: exactly the passing records of the processed batches are delivered, once and in order, and the stream resumes after the last processed batch; stored offsets are delivered if everything passes. The claim as stated is false in the code: offsets of filtered records are renumbered from the batch base, the record deltas have the wrong sign from the second batch on, and batches are skipped when a whole segment yields nothing or one output exceeds max_bytes."
  },
  {
   "property": "C53",
   "status": "partial",
   "theorems": [
    "Verif.Props.C53_agree",
    "Verif.Props.C53_stable",
    "Verif.Props.C53_violated_stale"
   ],
   "note": "Proved when the result of an evaluation is visible before the next one. Overlapping evaluations can leave a partition whose replicas differ from the topic's map for ever (counterexample proved)."
  },
  {
   "property": "C54",
   "status": "partial",
   "theorems": [
    "Verif.Props.C54_prompt_partial",
    "Verif.Props.C54_resumes",
    "Verif.Props.C54_violated_stall"
   ],
   "note": "Holds while the queues of the open streams have room; a full queue stops the dispatcher with the table locked, and then no other request can be answered, registered or time out (counterexample proved)."
  },
  {
   "property": "C55",
   "status": "partial",
   "theorems": [
    "Verif.Props.C55_stream_partial",
    "Verif.Props.C55_fetch_partial",
    "Verif.Props.C55_replication_partial",
    "Verif.Props.C55_mirror_partial",
    "Verif.Props.C55_records",
    "Verif.Props.C55_count",
    "Verif.Props.C55_violated_short_read",
    "Verif.Props.C55_violated_produce"
   ],
   "note": "Proved for stream responses, fetch responses, replication and mirroring requests of any shape and version, when slices are read completely. Without zero copy a slice is read by one pread call whose short result is sent as is (counterexample proved), and the produce request's file encoding omits the SmartModules its announced length counts (proved for every such request; nothing sends one)."
  },
  {
   "property": "C56",
   "status": "partial",
   "theorems": [
    "Verif.Props.C56_last_partial",
    "Verif.Props.C56_last_age_partial",
    "Verif.Props.C56_age_partial",
    "Verif.Props.C56_violated_segment",
    "Verif.Props.C56_violated_single_record",
    "Verif.Props.C56_violated_first_record",
    "Verif.Props.C56_violated_retention"
   ],
   "note": "After every history of writes, watermark changes, size retention and reopening: look-back by count gives the beginning of the wanted records, and all of them when no segment begins among them; look-back by age is exact for batches of at least two records with non-decreasing timestamps when the log starts at 0 or an old batch is left. Newest records after a segment boundary are left out, single-record batches are skipped or make the look-back fail, and it fails after retention (counterexamples proved)."
  },
  {
   "property": "C57",
   "status": "partial",
   "theorems": [
    "Verif.Props.C57_record_by_record",
    "Verif.Props.C57_batches",
    "Verif.Props.C57_kinds",
    "Verif.Props.C57_aggregate",
    "Verif.Props.C57_failure",
    "Verif.Props.C57_error_partial",
    "Verif.Props.C57_violated_not_all_modules",
    "Verif.Props.C57_violated_error_offset"
   ],
   "note": "Without failures proved for every chain, every memory and every batch: stage by stage equals record by record, in output and state, and batching does not matter. Failures are characterised for every chain (C57_failure) and as claimed for one module; with several modules an error in an earlier one delivers records that have not passed the later ones, and after an array map the error names the wrong offset (counterexamples proved)."
  },
  {
   "property": "C58",
   "status": "partial",
   "theorems": [
    "Verif.Props.C58_stored",
    "Verif.Props.C58_all_or_nothing",
    "Verif.Props.C58_leader_partial",
    "Verif.Props.C58_violated_gap",
    "Verif.Props.C58_violated_overlap",
    "Verif.Props.C58_violated_failed_write",
    "Verif.Props.C58_violated_timestamps"
   ],
   "note": "Proved for every chain: the stored values are exactly the chain's output over any sequence of successful writes, and a failing chain stores nothing. Consecutive offsets are proved for chains that make one record of each; filters leave gaps and array maps make offsets overlap. A storage failure after a deduplication filter loses the record when it is sent again, and all timestamps are lost (counterexamples proved)."
  },
  {
   "property": "C59",
   "status": "partial",
   "theorems": [
    "Verif.Props.C59_once_partial",
    "Verif.Props.C59_violated_twice",
    "Verif.Props.C59_violated_start_inside"
   ],
   "note": "Proved for every chain that does not fail and every sequence of appends and fetches, when no response is cut off by its size limit, the stream starts at a batch boundary and each read has some output or reaches the end. A response that is cut off makes the chain process a batch twice; a start inside a batch lets the chain see earlier records (counterexamples proved)."
  },
  {
   "property": "C60",
   "status": "partial",
   "theorems": [
    "Verif.Props.C60_status_partial",
    "Verif.Props.C60_spec_partial",
    "Verif.Props.C60_by_key_partial",
    "Verif.Props.C60_link_partial",
    "Verif.Props.C60_stale_refused",
    "Verif.Props.C60_current_accepted",
    "Verif.Props.C60_violated_resurrected",
    "Verif.Props.C60_violated_update_after_delete",
    "Verif.Props.C60_violated_successor"
   ],
   "note": "Proved for any number of tasks and every interleaving while the object is not deleted: a successful update was applied to exactly the version it was computed from. With deletions: linking a child resurrects a deleted parent, an update recreates a deleted object, and revisions restart at 0 so that an update reaches a later object of the same name (counterexamples proved)."
  },
  {
   "property": "C61",
   "status": "partial",
   "theorems": [
    "Verif.Props.C61_no_orphans_partial",
    "Verif.Props.C61_delete_cascades_partial",
    "Verif.Props.C61_violated_lost_link",
    "Verif.Props.C61_violated_orphan_stays",
    "Verif.Props.C61_violated_stale_child"
   ],
   "note": "Proved for every sequence of requests, one at a time, as the controller makes them. With concurrent requests a refused link leaves a child that outlives its parent; a child whose parent does not exist can never be deleted; a deleted child that was updated stays in its parent's list (counterexamples proved)."
  },
  {
   "property": "C62",
   "status": "partial",
   "theorems": [
    "Verif.Props.C62_converges_partial",
    "Verif.Props.C62_settles",
    "Verif.Props.C62_resync",
    "Verif.Props.C62_violated_reordered",
    "Verif.Props.C62_violated_recreated",
    "Verif.Props.C62_violated_deadlock"
   ],
   "note": "Proved for every interleaving in which changes are sent in the order they were written and no listing has an older revision of a cached object; a quiet listing repairs everything else. Two writers can send in the wrong order (deleted object stays in the cache), an object deleted and re-created around a listing is ignored, and the dispatcher blocks for ever on its own full queue (counterexamples proved)."
  },
  {
   "property": "C63",
   "status": "partial",
   "theorems": [
    "Verif.Props.C63_restart_partial",
    "Verif.Props.C63_each_partial",
    "Verif.Props.C63_violated_torn",
    "Verif.Props.C63_violated_removal",
    "Verif.Props.C63_violated_failed_write"
   ],
   "note": "Proved for every history without failing file operations; failures stay confined to their object while running. A crash inside a write makes the whole kind unloadable, a failed removal brings the object back, a failed write is visible until the restart (counterexamples proved)."
  },
  {
   "property": "C64",
   "status": "partial",
   "theorems": [
    "Verif.Props.C64_safe_partial",
    "Verif.Props.C64_served",
    "Verif.Props.C64_exact_partial",
    "Verif.Props.C64_violated_uninvited",
    "Verif.Props.C64_violated_undelete",
    "Verif.Props.C64_violated_two_roles",
    "Verif.Props.C64_violated_no_retry"
   ],
   "note": "Safety proved for every sequence of messages, failures and restarts in which a notice of deletion names the known leader, without the membership of followers; exactly the told roles proved when nothing fails and assignments change properly. A broker that is no replica follows a partition whose leader changes, a deletion that is taken back leaves the replica unserved, a deletion with a new leader leads to two roles, and a failed replica is not tried again (counterexamples proved)."
  },
  {
   "property": "C65",
   "status": "partial",
   "theorems": [
    "Verif.Props.C65_kept",
    "Verif.Props.C65_gone_partial",
    "Verif.Props.C65_violated_resurrected",
    "Verif.Props.C65_violated_silent",
    "Verif.Props.C65_violated_left_behind"
   ],
   "note": "Keeping proved without restrictions. Removal proved while nothing fails, the broker does not restart and notices of deletion name the known leader; otherwise records of deleted partitions come back in partitions of the same name (counterexamples proved)."
  },
  {
   "property": "C66",
   "status": "partial",
   "theorems": [
    "Verif.Props.C66_requested_partial",
    "Verif.Props.C66_local_partial",
    "Verif.Props.C66_kubernetes",
    "Verif.Props.C66_answered_partial",
    "Verif.Props.C66_violated_stale_ack",
    "Verif.Props.C66_violated_lost_ack"
   ],
   "note": "Proved for every interleaving in which a name is used again only when nothing about its removal is under way; with Kubernetes an unmarked partition is never removed by an acknowledgement, without restrictions. With the local storage a late acknowledgement deletes a partition that was created again; with Kubernetes a lost acknowledgement leaves the partition in deletion (counterexamples proved)."
  },
  {
   "property": "C67",
   "status": "partial",
   "theorems": [
    "Verif.Props.C67_decision",
    "Verif.Props.C67_decision_instance_partial",
    "Verif.Props.C67_asked_partial",
    "Verif.Props.C67_permitted_partial",
    "Verif.Props.C67_stranger_partial",
    "Verif.Props.C67_mirror",
    "Verif.Props.C67_not_refused",
    "Verif.Props.C67_text_partial",
    "Verif.Props.C67_violated_substring",
    "Verif.Props.C67_violated_delete",
    "Verif.Props.C67_violated_mirrors",
    "Verif.Props.C67_violated_watch",
    "Verif.Props.C67_violated_fail_open",
    "Verif.Props.C67_violated_read_only",
    "Verif.Props.C67_violated_root",
    "Verif.Props.C67_violated_text"
   ],
   "note": "Proved for creating and listing everything but mirrors, and that the permitted are never refused. Deleting and changing is open to everybody, mirrors and watches are not checked, three handlers go on when the decision fails, read-only mode permits deletion, a permission for one object covers all names contained in its name (counterexamples proved)."
  },
  {
   "property": "C68",
   "status": "partial",
   "theorems": [
    "Verif.Props.C68_one_write",
    "Verif.Props.C68_created",
    "Verif.Props.C68_deleted",
    "Verif.Props.C68_updated_partial",
    "Verif.Props.C68_answer",
    "Verif.Props.C68_protected",
    "Verif.Props.C68_never_replaces_partial",
    "Verif.Props.C68_dry_run_partial",
    "Verif.Props.C68_spu_ids",
    "Verif.Props.C68_list_partial",
    "Verif.Props.C68_violated_replace",
    "Verif.Props.C68_violated_dry_run",
    "Verif.Props.C68_violated_partition_count",
    "Verif.Props.C68_violated_filters",
    "Verif.Props.C68_violated_race",
    "Verif.Props.C68_violated_race_ids"
   ],
   "note": "One write, frame conditions, answers and protection proved for all requests. SmartModules, SPU groups and home mirrors are overwritten, trials of most kinds are carried out, the number of partitions wraps around, lists of partitions and mirrors ignore filters, concurrent creations both succeed (counterexamples proved)."
  },
  {
   "property": "C69",
   "status": "partial",
   "theorems": [
    "Verif.Props.C69_match_partial",
    "Verif.Props.C69_match_plain_partial",
    "Verif.Props.C69_found_partial",
    "Verif.Props.C69_full_name_partial",
    "Verif.Props.C69_store_id_partial",
    "Verif.Props.C69_created_deleted",
    "Verif.Props.C69_agree_partial",
    "Verif.Props.C69_list_partial",
    "Verif.Props.C69_violated_store_id",
    "Verif.Props.C69_violated_shadow",
    "Verif.Props.C69_violated_trailing",
    "Verif.Props.C69_violated_short_name",
    "Verif.Props.C69_violated_ambiguous",
    "Verif.Props.C69_violated_slash"
   ],
   "note": "Proved for packaged modules, names without repeated separators, and ids of names without dashes. Dashes make different packages share an id, modules without a package answer to any group and version, short names work at the broker only, trailing parts are ignored (counterexamples proved)."
  },
  {
   "property": "C70",
   "status": "partial",
   "theorems": [
    "Verif.Props.C70_last_report_recorded_partial",
    "Verif.Props.C70_nothing_stays_under_way",
    "Verif.Props.C70_report_can_be_completed_partial",
    "Verif.Props.C70_violated_base_offset",
    "Verif.Props.C70_violated_connection_lost",
    "Verif.Props.C70_violated_unknown_partition",
    "Verif.Props.C70_violated_lost_update"
   ],
   "note": "Proved for every interleaving without broken connections, unknown partitions and other writers of the same status, without the base offset. The base offset is never recorded, a report is lost with the connection or with an unknown partition in the same message, and a notice of full storage overwrites new offsets with old ones (counterexamples proved)."
  },
  {
   "property": "C71",
   "status": "partial",
   "theorems": [
    "Verif.Props.C71_online_iff_connected_partial",
    "Verif.Props.C71_settles_partial",
    "Verif.Props.C71_silence",
    "Verif.Props.C71_online_is_alive_partial",
    "Verif.Props.C71_violated_reconnect",
    "Verif.Props.C71_violated_after_restart",
    "Verif.Props.C71_violated_increments"
   ],
   "note": "Proved for brokers that have registered since the controller was started, never have two connections at the same time, and non-overlapping increments of the counter of changes. A broker that reconnects before the old connection has ended is shown as offline, a broker that died while the controller was down stays online, and overlapping increments hide a change (counterexamples proved)."
  },
  {
   "property": "C72",
   "status": "partial",
   "theorems": [
    "Verif.Props.C72_reports_complete",
    "Verif.Props.C72_status_completes_partial",
    "Verif.Props.C72_violated_deadlock"
   ],
   "note": "Proved without restriction for reports of offsets, removed replicas and mirrors, and for notices of full storage that fit into the channel. A notice with two more entries than the channel holds can block the dispatcher and everybody who needs the partition store for ever (counterexample proved)."
  },
  {
   "property": "C73",
   "status": "partial",
   "theorems": [
    "Verif.Props.C73_envelope",
    "Verif.Props.C73_requests_partial",
    "Verif.Props.C73_create_partial",
    "Verif.Props.C73_create_old_partial",
    "Verif.Props.C73_truncated",
    "Verif.Props.C73_violated_assigned",
    "Verif.Props.C73_violated_two_partitions",
    "Verif.Props.C73_violated_package",
    "Verif.Props.C73_violated_smartmodule",
    "Verif.Props.C73_violated_mirror",
    "Verif.Props.C73_violated_update"
   ],
   "note": "Proved for all kinds and requests from version 11 on, and for older versions for lists, watches, deletions (without mirrors) and the creation of table formats, groups, custom SPUs and computed topics. In versions 9 and 10 assigned topics and SmartModules are garbled because they are encoded again at another version than they are read at, mirrors are unknown, and changes before version 11 cannot be read (counterexamples proved)."
  },
  {
   "property": "C74",
   "status": "partial",
   "theorems": [
    "Verif.Props.C74_drains_partial",
    "Verif.Props.C74_settled_once",
    "Verif.Props.C74_violated_clock_set_back"
   ],
   "note": "Proved for all interleavings as long as the system clock is not set back: a task left to itself comes to rest after boundedly many steps, with the queue empty and every channel settled. If the clock is set back a batch can stay in the queue. Not modelled: the end of the task when the producer is dropped (queued records are then lost and their futures fail)."
  },
  {
   "property": "C75",
   "status": "partial",
   "theorems": [
    "Verif.Props.C75_waits_partial",
    "Verif.Props.C75_delivered_partial",
    "Verif.Props.C75_violated_other_error",
    "Verif.Props.C75_violated_dropped"
   ],
   "note": "Proved without dropped calls: the requests of all earlier records have ended; and that they succeeded, if the two hash maps are visited in the same order (always with one partition) and errors are not cleared. With several partitions the wrong partition's error is read; after a dropped call the next one returns early."
  },
  {
   "property": "C76",
   "status": "partial",
   "theorems": [
    "Verif.Props.C76_follows_partial",
    "Verif.Props.C76_settings_partial",
    "Verif.Props.C76_kept_partial",
    "Verif.Props.C76_own_untouched_partial",
    "Verif.Props.C76_violated_settings",
    "Verif.Props.C76_violated_leader_unknown",
    "Verif.Props.C76_violated_takes_over"
   ],
   "note": "After a message has been handled the mirrored topics are exactly the ones offered, with leader and direction, whatever was there before; a topic that stays offered is never deleted and own topics are untouched, in every run including lost connections and late actions. Not true of the code, each with a witness: changed settings do not follow once leader and direction agree; a topic whose leading broker is not registered at the moment is left out of the message and so deleted; an own topic of the same name is taken over."
  },
  {
   "property": "C77",
   "status": "partial",
   "theorems": [
    "Verif.Props.C77_only_own_topics",
    "Verif.Props.C77_only_admitted_partial",
    "Verif.Props.C77_conn_admitted",
    "Verif.Props.C77_violated_auth_failure"
   ],
   "note": "Messages list only topics with a partition for the remote cluster; connections are made only by registered remote clusters that were not refused, and messages are sent only while it is registered. A check that fails (rather than refuses) lets the remote cluster in: shown by a witness."
  },
  {
   "property": "C78",
   "status": "partial",
   "theorems": [
    "Verif.Props.C78_address",
    "Verif.Props.C78_right_broker",
    "Verif.Props.C78_one_connection",
    "Verif.Props.C78_serial_open",
    "Verif.Props.C78_replaced",
    "Verif.Props.C78_stream_open_partial",
    "Verif.Props.C78_stream_after_serial",
    "Verif.Props.C78_violated_stream",
    "Verif.Props.C78_violated_blocked"
   ],
   "note": "Right broker, right address, at most one open connection per broker, open serial sockets and replacement by the next serial call are proved for all runs. Streams are opened on the pooled connection without a check: after it has ended all streams to that broker go to the dead connection until a serial socket is asked for (proved for every continuation); asking for a serial socket first, as the consumer does, avoids this. The lock of the pool is held while connecting, so one unreachable broker blocks calls for all others (witness)."
  },
  {
   "property": "C79",
   "status": "partial",
   "theorems": [
    "Verif.Props.C79_unique_partial",
    "Verif.Props.C79_custom",
    "Verif.Props.C79_started_checked",
    "Verif.Props.C79_conflict_found",
    "Verif.Props.C79_violated_duplicate",
    "Verif.Props.C79_violated_both_started",
    "Verif.Props.C79_violated_grows",
    "Verif.Props.C79_violated_overflow"
   ],
   "note": "Ids are unique in every run in which the groups are laid out without overlap; a stateful set exists only for a group that was once found free of conflicts; conflicts are found; custom ids are free. Not enforced by the code, each with a witness: brokers of a group marked invalid are registered anyway; two groups checked before their brokers are registered are both started; a reserved group that grows is not checked again; at the end of the range of i32 the check is empty."
  },
  {
   "property": "C80",
   "status": "partial",
   "theorems": [
    "Verif.Props.C80_pod_id",
    "Verif.Props.C80_names",
    "Verif.Props.C80_ids",
    "Verif.Props.C80_private_host_partial",
    "Verif.Props.C80_violated_private_host"
   ],
   "note": "Ids agree for all names and ids; names and ids are distinct. The private address has the name of the group main written into it: right for main, wrong for every other group (proved for all names), so replication cannot reach brokers of other groups."
  },
  {
   "property": "C81",
   "status": "partial",
   "theorems": [
    "Verif.Props.C81_current",
    "Verif.Props.C81_complete_partial",
    "Verif.Props.C81_found",
    "Verif.Props.C81_add",
    "Verif.Props.C81_add_others_partial",
    "Verif.Props.C81_rename_partial",
    "Verif.Props.C81_delete_profile",
    "Verif.Props.C81_delete_cluster",
    "Verif.Props.C81_violated_rename",
    "Verif.Props.C81_violated_add",
    "Verif.Props.C81_violated_lost",
    "Verif.Props.C81_violated_force"
   ],
   "note": "The current profile exists after every sequence of commands, and without --force its cluster does. Effects of each command are proved. Not true of the code, each with a witness: renaming onto an existing profile loses it; a renamed profile still refers to the cluster of its old name and is changed by adding a profile of that name; an interrupted save leaves a file that the next add replaces, losing all profiles."
  },
  {
   "property": "C82",
   "status": "partial",
   "theorems": [
    "Verif.Props.C82_at_most_once",
    "Verif.Props.C82_told_stored",
    "Verif.Props.C82_at_least_once",
    "Verif.Props.C82_only_queued",
    "Verif.Props.C82_order_partial",
    "Verif.Props.C82_order_connection",
    "Verif.Props.C82_violated_order",
    "Verif.Props.C82_violated_order_once",
    "Verif.Props.C82_violated_failed",
    "Verif.Props.C82_violated_retry"
   ],
   "note": "Both delivery semantics hold in every run. The order holds as long as no sending fails (delivery at least once, any number of connections and repetitions) or one connection is used (both semantics). Not true of the code in general: after a timeout the next batches go to a new connection while the failed ones still wait on the old one and may be stored later; and all retries use the connection of the first attempt, so a broken one makes them useless."
  },
  {
   "property": "C83",
   "status": "partial",
   "theorems": [
    "Verif.Props.C83_as_given_partial",
    "Verif.Props.C83_cli_file",
    "Verif.Props.C83_workable",
    "Verif.Props.C83_shown",
    "Verif.Props.C83_violated_segment",
    "Verif.Props.C83_violated_retention",
    "Verif.Props.C83_violated_longer"
   ],
   "note": "Proved for durations and segment sizes below 2^32: accepted exactly if within the limits, and storage gets exactly the settings given or the defaults; command line and file agree; whatever is given, accepted limits are workable (C83_workable) and the retention shown is enforced (C83_shown). Missing: larger values. They are cut to 32 bits without a warning (C83_violated_segment: 4 GiB + 2 KiB becomes 2 KiB; C83_violated_retention: 137 years become 296 days; C83_violated_longer: no retention beyond 2^32 seconds exists)."
  },
  {
   "property": "C84",
   "status": "proved",
   "theorems": [
    "Verif.Props.C84_log",
    "Verif.Props.C84_producer",
    "Verif.Props.C84_refused",
    "Verif.Props.C84_smartmodules",
    "Verif.Props.C84_transparent",
    "Verif.Props.C84_readable"
   ],
   "note": "By induction over requests; chains of SmartModules and the deduplication filter are arbitrary functions, the codecs arbitrary functions (inverse to each other for C84_transparent and C84_readable). Batches received from mirrors are not checked by the code and not part of the statement."
  },
  {
   "property": "C85",
   "status": "partial",
   "theorems": [
    "Verif.Props.C85_selected_partial",
    "Verif.Props.C85_all_or_none",
    "Verif.Props.C85_only_selected",
    "Verif.Props.C85_each",
    "Verif.Props.C85_served",
    "Verif.Props.C85_flush",
    "Verif.Props.C85_unmanaged",
    "Verif.Props.C85_violated_mirror",
    "Verif.Props.C85_violated_mirror_ignored",
    "Verif.Props.C85_violated_twice"
   ],
   "note": "Merging, commits and flushes are proved for all interleavings of a consumer of different partitions, the selection for requests that list no partition twice and name a mirror with one partition. Missing: with the name of a mirror that does not exist the consumer silently reads the partitions of all other mirrors (C85_violated_mirror); a partition listed twice is read twice (C85_violated_twice). Flushing is for the manual strategy; for the automatic one see C33_violated_auto."
  },
  {
   "property": "C86",
   "status": "partial",
   "theorems": [
    "Verif.Props.C86_goes_on",
    "Verif.Props.C86_goes_on_partial",
    "Verif.Props.C86_with_room",
    "Verif.Props.C86_one_ack",
    "Verif.Props.C86_flush_returns",
    "Verif.Props.C86_violated_stall",
    "Verif.Props.C86_violated_abandoned"
   ],
   "note": "Proved in full for consumers without automatic flushes that wait for their flushes, and while at most 97 flushes were not waited for, or while incoming responses find room in the channel. Missing: the acknowledgement is put into the bounded channel with try_send and its result ignored; with a flush period of zero a hundred records read at a stretch (C86_violated_stall), or a hundred abandoned flushes (C86_violated_abandoned), make the stream stop for good."
  },
  {
   "property": "C87",
   "status": "proved",
   "theorems": [
    "Verif.Props.C87_ids",
    "Verif.Props.C87_ack",
    "Verif.Props.C87_ack_unknown",
    "Verif.Props.C87_commit",
    "Verif.Props.C87_commit_unknown"
   ],
   "note": "For connections that open fewer than 2^32 streams, as the statement says; the sequence wraps around after that."
  },
  {
   "property": "C88",
   "status": "partial",
   "theorems": [
    "Verif.Props.C88_only_deleted",
    "Verif.Props.C88_others_unaffected",
    "Verif.Props.C88_told_partial",
    "Verif.Props.C88_left_alone",
    "Verif.Props.C88_violated_overwritten",
    "Verif.Props.C88_violated_unlisted",
    "Verif.Props.C88_violated_demoted",
    "Verif.Props.C88_violated_demoted_forever"
   ],
   "note": "Streams are told only of the deletion of their own replica (or if their own client acknowledges the offset -2), and are told of it if they are listed and no acknowledgement comes before their task looks. Missing: an acknowledgement overwrites the notice (C88_violated_overwritten); a stream being opened misses it (C88_violated_unlisted); streams of a demoted leader are never told (C88_violated_demoted, C88_violated_demoted_forever)."
  },
  {
   "property": "C89",
   "status": "partial",
   "theorems": [
    "Verif.Props.C89_call",
    "Verif.Props.C89_aggregate",
    "Verif.Props.C89_chain_partial",
    "Verif.Props.C89_again_partial",
    "Verif.Props.C89_error",
    "Verif.Props.C89_garbled",
    "Verif.Props.C89_violated_long_error"
   ],
   "note": "Call, aggregate call and chain are transparent at every version, for any user function. Limits: sizes below 2 GiB, aggregates from version 16, and texts of user errors below 32 KiB: beyond that the output of the call is unreadable (violated)."
  },
  {
   "property": "C90",
   "status": "proved",
   "theorems": [
    "Verif.Props.C90_request",
    "Verif.Props.C90_unsendable",
    "Verif.Props.C90_exchange",
    "Verif.Props.C90_unknown_key",
    "Verif.Props.C90_error",
    "Verif.Props.C90_success",
    "Verif.Props.C90_unknown_error"
   ],
   "note": "All ten requests of SpuServerApiKey, their answers and all 64 error codes. The sizes are those of the length prefixes; what happens beyond them is C03, what happens to batches with a schema C07. Streams of answers and file slices are C55."
  },
  {
   "property": "C91",
   "status": "partial",
   "theorems": [
    "Verif.Props.C91_message_partial",
    "Verif.Props.C91_complete",
    "Verif.Props.C91_batches",
    "Verif.Props.C91_unknown_key",
    "Verif.Props.C91_answer",
    "Verif.Props.C91_violated_spu",
    "Verif.Props.C91_violated_smartmodule"
   ],
   "note": "All 19 kinds arrive in full but two: updates of brokers are sent at version 0, which has no local public endpoint, and updates of SmartModules at version 10, which has no visibility; both fields never arrive (violated; nothing in the broker reads them). Checksum and length of batches are filled in by the encoder."
  },
  {
   "property": "C92",
   "status": "partial",
   "theorems": [
    "Verif.Props.C92_settles",
    "Verif.Props.C92_reaches",
    "Verif.Props.C92_keeps",
    "Verif.Props.C92_caught_up_partial",
    "Verif.Props.C92_committed_partial",
    "Verif.Props.C92_violated_retention",
    "Verif.Props.C92_violated_big",
    "Verif.Props.C92_violated_stolen"
   ],
   "note": "Proved for all runs, unless: retention at the leader removed records a follower still needs (violated: it is stuck for ever), a batch is larger than peer_max_bytes (violated), or an older connection of the follower whose end was not noticed takes its updates (violated: waits for the timer). Storage does not fail; a connection ends on both sides at once; ends of followers' logs are not cut while the leader runs."
  },
  {
   "property": "C93",
   "status": "partial",
   "theorems": [
    "Verif.Props.C93_signed_partial",
    "Verif.Props.C93_contents",
    "Verif.Props.C93_intact_partial",
    "Verif.Props.C93_assembled_partial",
    "Verif.Props.C93_violated_forged",
    "Verif.Props.C93_violated_duplicate",
    "Verif.Props.C93_violated_mixed",
    "Verif.Props.C93_violated_twice",
    "Verif.Props.C93_violated_same_name"
   ],
   "note": "Proved for packages without directories and with distinct names: signed packages verify, and contents are as signed if the signature was made by the holder of the key. Violated: an empty signature list naming a public key is accepted for any package (no key needed); a duplicate entry in front is read but not verified; signatures of different packages can be combined; a package signed twice verifies with no key; of two files with one base name only the first can be read. Tar, gzip, YAML, JSON and ed25519 are parameters or not modelled."
  },
  {
   "property": "C94",
   "status": "partial",
   "theorems": [
    "Verif.Props.C94_settles",
    "Verif.Props.C94_reaches",
    "Verif.Props.C94_keeps",
    "Verif.Props.C94_caught_up_partial",
    "Verif.Props.C94_violated_retention",
    "Verif.Props.C94_violated_ahead",
    "Verif.Props.C94_violated_big"
   ],
   "note": "Proved for one connection at a time, no batch larger than a message, retention that leaves what the target lacks, and a source that loses no records. Each of the last three is needed: otherwise the clusters connect and disconnect, or exchange empty messages, for ever."
  },
  {
   "property": "C95",
   "status": "partial",
   "theorems": [
    "Verif.Props.C95_read_back_partial",
    "Verif.Props.C95_distinct",
    "Verif.Props.C95_uid",
    "Verif.Props.C95_sound_partial",
    "Verif.Props.C95_violated_registry",
    "Verif.Props.C95_violated_ignored",
    "Verif.Props.C95_violated_tag",
    "Verif.Props.C95_violated_empty",
    "Verif.Props.C95_violated_slashes"
   ],
   "note": "Proved for ids with clean names and tags that do not look like versions. Violated: a registry that is not a URL is silently replaced by the default one; the registry is not used for downloads; a tag that looks like a version is read back as a version; empty names, groups and tags are accepted; a registry that ends with two slashes loses one. URLs and semantic versions are parameters with stated laws."
  },
  {
   "property": "C96",
   "status": "partial",
   "theorems": [
    "Verif.Props.C96_published",
    "Verif.Props.C96_latest_partial",
    "Verif.Props.C96_newest",
    "Verif.Props.C96_listed",
    "Verif.Props.C96_violated_yanked",
    "Verif.Props.C96_violated_order"
   ],
   "note": "Proved for packages made by publishing releases. Violated: a withdrawn (yanked) release is offered as the latest; an index that is not sorted yields an older release."
  },
  {
   "property": "C97",
   "status": "partial",
   "theorems": [
    "Verif.Props.C97_local",
    "Verif.Props.C97_public_partial",
    "Verif.Props.C97_id",
    "Verif.Props.C97_served",
    "Verif.Props.C97_named",
    "Verif.Props.C97_ends_partial",
    "Verif.Props.C97_ends_one_group",
    "Verif.Props.C97_violated_two_groups",
    "Verif.Props.C97_violated_shared_address",
    "Verif.Props.C97_violated_no_host",
    "Verif.Props.C97_violated_balancer_ip"
   ],
   "note": "Proved for addresses that are not shared and groups whose node ports differ. Violated: two groups get the same node ports, so that the pass of the controller never ends; the annotated address is registered for several brokers while load balancers have no addresses; a NodePort service without annotation gives an address without host; a configured load balancer address is ignored."
  },
  {
   "property": "C98",
   "status": "partial",
   "theorems": [
    "Verif.Props.C98_fetch_partial",
    "Verif.Props.C98_offsets",
    "Verif.Props.C98_violated_partition_limit",
    "Verif.Props.C98_violated_limit",
    "Verif.Props.C98_violated_consumer_start"
   ],
   "note": "Proved for all requests and schedules. Violated: the limit of a partition is ignored; the limit of the request holds for each partition and not for the response, and a negative one is none; the start for a consumer may lie outside of the log."
  },
  {
   "property": "C99",
   "status": "partial",
   "theorems": [
    "Verif.Props.C99_lines_partial",
    "Verif.Props.C99_raw_partial",
    "Verif.Props.C99_mirror_partial",
    "Verif.Props.C99_unreadable",
    "Verif.Props.C99_violated_not_text",
    "Verif.Props.C99_violated_separator",
    "Verif.Props.C99_violated_raw_unreadable",
    "Verif.Props.C99_violated_mirror_topic",
    "Verif.Props.C99_violated_mirror_remote"
   ],
   "note": "Proved for inputs of UTF-8 lines that contain the separator, for readable files, and for one mirror topic. Violated: a line that is no UTF-8 silently ends the input; lines without separator are skipped; --raw sends an empty record for an unreadable file; each time success is reported. --mirror looks at all topics and on a remote cluster finds only partitions that refuse records."
  },
  {
   "property": "C100",
   "status": "partial",
   "theorems": [
    "Verif.Props.C100_start",
    "Verif.Props.C100_crossing",
    "Verif.Props.C100_all",
    "Verif.Props.C100_until_partial",
    "Verif.Props.C100_until_any",
    "Verif.Props.C100_violated_behind",
    "Verif.Props.C100_violated_partitions",
    "Verif.Props.C100_violated_null",
    "Verif.Props.C100_violated_full_table"
   ],
   "note": "Proved for one partition whose stream has the end, and without --end. Violated: a record behind the end is printed if the end itself is not in the stream; with several partitions the first one that reaches the end stops the command; no key and the key null look the same; full-table without a terminal panics."
  },
  {
   "property": "C101",
   "status": "partial",
   "theorems": [
    "Verif.Props.C101_name",
    "Verif.Props.C101_render",
    "Verif.Props.C101_only_declared",
    "Verif.Props.C101_declared_partial",
    "Verif.Props.C101_lines_partial",
    "Verif.Props.C101_file_partial",
    "Verif.Props.C101_env",
    "Verif.Props.C101_value_partial",
    "Verif.Props.C101_reference",
    "Verif.Props.C101_debug",
    "Verif.Props.C101_resolve",
    "Verif.Props.C101_violated_unversioned",
    "Verif.Props.C101_violated_injection",
    "Verif.Props.C101_violated_trim",
    "Verif.Props.C101_violated_reference"
   ],
   "note": "Proved but for: configurations without API version, whose secrets are dropped; values with line breaks, which become entries of the configuration (values are inserted before YAML is parsed); values with blanks at their ends, which files lose; references that were written by serde, which cannot be read again."
  },
  {
   "property": "C102",
   "status": "partial",
   "theorems": [
    "Verif.Props.C102_partition_roundtrip",
    "Verif.Props.C102_partition",
    "Verif.Props.C102_start_roundtrip",
    "Verif.Props.C102_settings_partial",
    "Verif.Props.C102_refused",
    "Verif.Props.C102_defaults",
    "Verif.Props.C102_topic",
    "Verif.Props.C102_violated_none",
    "Verif.Props.C102_violated_twice",
    "Verif.Props.C102_violated_size"
   ],
   "note": "Proved but for: an empty sequence of partitions, which means all; a partition named twice, which is read twice; sizes of 2 GiB and more, which are cut to 32 bits."
  },
  {
   "property": "C103",
   "status": "partial",
   "theorems": [
    "Verif.Props.C103_digits",
    "Verif.Props.C103_name",
    "Verif.Props.C103_inj",
    "Verif.Props.C103_listing",
    "Verif.Props.C103_stop",
    "Verif.Props.C103_running",
    "Verif.Props.C103_active",
    "Verif.Props.C103_violated_panic",
    "Verif.Props.C103_violated_plus",
    "Verif.Props.C103_violated_leftover"
   ],
   "note": "Proved but for: a file of 20 bytes that are no UTF-8 with the extension log, which makes the start panic; a name with a sign (+0000000000000000005.log), which counts as a second segment with the same offset, whose records are then read twice; a stop between removing the log and the index of a segment, after which the index is never removed."
  },
  {
   "property": "C104",
   "status": "partial",
   "theorems": [
    "Verif.Props.C104_count",
    "Verif.Props.C104_filter",
    "Verif.Props.C104_meaning",
    "Verif.Props.C104_kept",
    "Verif.Props.C104_exact_partial",
    "Verif.Props.C104_violated_age",
    "Verif.Props.C104_violated_gap",
    "Verif.Props.C104_violated_uncommitted",
    "Verif.Props.C104_violated_batches",
    "Verif.Props.C104_violated_failed",
    "Verif.Props.C104_violated_refused",
    "Verif.Props.C104_violated_override",
    "Verif.Props.C104_violated_large",
    "Verif.Props.C104_violated_seq"
   ],
   "note": "Proved but for: a leader that starts again forgets all values if the bounds have an age (records stored through the chain have no timestamp), and some if records were dropped before, are not committed, or came in requests of several batches; after a write that failed the values are remembered though not stored, so they are dropped when sent again; parameters of the user override the count; a count of 2^32 or more leaves the partition without a leader; after 2^32 values the wrong ones are forgotten."
  },
  {
   "property": "C105",
   "status": "partial",
   "theorems": [
    "Verif.Props.C105_wire",
    "Verif.Props.C105_certificate_partial",
    "Verif.Props.C105_permitted_partial",
    "Verif.Props.C105_anonymous",
    "Verif.Props.C105_no_policy",
    "Verif.Props.C105_claimed",
    "Verif.Props.C105_violated_direct",
    "Verif.Props.C105_violated_no_scopes",
    "Verif.Props.C105_violated_no_tls",
    "Verif.Props.C105_violated_example",
    "Verif.Props.C105_violated_broker"
   ],
   "note": "At the public address of a controller with TLS, client certificates, scopes and a policy this is proved for all clients and all they send. The code violates the rest: at the address without TLS behind the proxy, without a file of scopes, and without TLS clients name their roles themselves; brokers give everybody all permissions. The TLS library and flv-tls-proxy are modelled by what they are documented to do."
  },
  {
   "property": "C106",
   "status": "proved",
   "theorems": [
    "Verif.Props.C106_layout",
    "Verif.Props.C106_size",
    "Verif.Props.C106_place",
    "Verif.Props.C106_shown",
    "Verif.Props.C106_read",
    "Verif.Props.C106_stream"
   ],
   "note": "For records shorter than 2^32 bytes (records are at most 2^31). That `content_inspector` calls a record binary is not modelled."
  },
  {
   "property": "C107",
   "status": "partial",
   "theorems": [
    "Verif.Props.C107_commands_partial",
    "Verif.Props.C107_run_partial",
    "Verif.Props.C107_switch",
    "Verif.Props.C107_install",
    "Verif.Props.C107_others",
    "Verif.Props.C107_update_partial",
    "Verif.Props.C107_order_partial",
    "Verif.Props.C107_violated_again",
    "Verif.Props.C107_violated_left",
    "Verif.Props.C107_violated_uninstall",
    "Verif.Props.C107_violated_mixture",
    "Verif.Props.C107_violated_stuck",
    "Verif.Props.C107_violated_settings",
    "Verif.Props.C107_violated_order"
   ],
   "note": "Proved for completed commands and failed downloads when the active version is not uninstalled. Not so for the code: artifacts that are new upstream are never recorded, binaries of other versions are left over, the active version can be uninstalled, and a stop may leave a mixture, a directory that cannot be removed or settings that can never be read again. The archive, checksums and the registry are not modelled."
  },
  {
   "property": "C108",
   "status": "partial",
   "theorems": [
    "Verif.Props.C108_limit",
    "Verif.Props.C108_create",
    "Verif.Props.C108_allowed",
    "Verif.Props.C108_total_partial",
    "Verif.Props.C108_confined_partial",
    "Verif.Props.C108_others_partial",
    "Verif.Props.C108_output",
    "Verif.Props.C108_status",
    "Verif.Props.C108_fuel",
    "Verif.Props.C108_violated_escape",
    "Verif.Props.C108_violated_high",
    "Verif.Props.C108_violated_total",
    "Verif.Props.C108_violated_room"
   ],
   "note": "The output, the size of each memory and the fuel are as claimed for every module. Confinement is proved for modules whose allocator does what it should, and memories of at most 2 GiB; the code checks neither, so a module can have its input written to any address within 2 GiB of its memory. The limit of a store is one for each module. That WebAssembly instructions cannot leave the linear memory is trusted; WASI is not modelled."
  },
  {
   "property": "C109",
   "status": "partial",
   "theorems": [
    "Verif.Props.C109_no_overflow",
    "Verif.Props.C109_calls",
    "Verif.Props.C109_records_partial",
    "Verif.Props.C109_fuel_partial",
    "Verif.Props.C109_look_back",
    "Verif.Props.C109_export_partial",
    "Verif.Props.C109_kept_partial",
    "Verif.Props.C109_violated_twice",
    "Verif.Props.C109_violated_aggregate",
    "Verif.Props.C109_violated_split",
    "Verif.Props.C109_violated_unnamed",
    "Verif.Props.C109_violated_idle"
   ],
   "note": "Calls, bytes and errors are counted once, and exports lose nothing if every module has one name, as in the broker. Fuel and time of all modules but aggregates are counted twice, records of aggregates never, remainders of modules with several names are lost, and idle modules get a millisecond at each export. Counters are natural numbers."
  },
  {
   "property": "C110",
   "status": "partial",
   "theorems": [
    "Verif.Props.C110_brokers_apart",
    "Verif.Props.C110_broker_ports",
    "Verif.Props.C110_one_cluster",
    "Verif.Props.C110_start_refused",
    "Verif.Props.C110_started",
    "Verif.Props.C110_stopped",
    "Verif.Props.C110_stop_undoes_start",
    "Verif.Props.C110_resumed",
    "Verif.Props.C110_not_resumed",
    "Verif.Props.C110_data_kept",
    "Verif.Props.C110_confirmed",
    "Verif.Props.C110_deleted_partial",
    "Verif.Props.C110_delete_kinds",
    "Verif.Props.C110_upgraded",
    "Verif.Props.C110_violated_ports",
    "Verif.Props.C110_violated_resume_exit",
    "Verif.Props.C110_violated_failed_start",
    "Verif.Props.C110_violated_own_dir",
    "Verif.Props.C110_violated_cloud_delete",
    "Verif.Props.C110_violated_upgrade",
    "Verif.Props.C110_violated_search"
   ],
   "note": "Proved for all executions without --skip-checks. Violated in the code: a deletion removes the default data directory instead of the cluster's own; a failed resume or upgrade reports success; a start that fails half way blocks start and resume until a shutdown; delete --k8 does not look at the type of the cluster."
  },
  {
   "property": "C111",
   "status": "partial",
   "theorems": [
    "Verif.Props.C111_own_cluster",
    "Verif.Props.C111_own_topic",
    "Verif.Props.C111_one_to_one_partial",
    "Verif.Props.C111_connected_partial",
    "Verif.Props.C111_one_task_partial",
    "Verif.Props.C111_established",
    "Verif.Props.C111_only_first",
    "Verif.Props.C111_violated_twice",
    "Verif.Props.C111_violated_moved",
    "Verif.Props.C111_violated_taken_over",
    "Verif.Props.C111_violated_old_task",
    "Verif.Props.C111_violated_direction"
   ],
   "note": "Partitions are served only to their own cluster and topic; one to one if no cluster is listed twice in a file; connected to the right broker by one task if the topic is not deleted and no broker moves. Violated otherwise: a cluster listed twice, a broker whose address changes, a topic of the remote cluster's own that is taken over, a topic that is deleted and made anew."
  },
  {
   "property": "C112",
   "status": "partial",
   "theorems": [
    "Verif.Props.C112_requirements",
    "Verif.Props.C112_each_once",
    "Verif.Props.C112_success",
    "Verif.Props.C112_no_fix",
    "Verif.Props.C112_order_kept",
    "Verif.Props.C112_ordered_partial",
    "Verif.Props.C112_accepts_partial",
    "Verif.Props.C112_violated_order",
    "Verif.Props.C112_violated_changes",
    "Verif.Props.C112_violated_unsupported"
   ],
   "note": "Requirements, completeness and the verdict hold for all lists of checks. The order is right for the lists the program uses, not for all lists; a start that is refused can have replaced the system chart before."
  },
  {
   "property": "C113",
   "status": "partial",
   "theorems": [
    "Verif.Props.C113_runs_current",
    "Verif.Props.C113_reached_partial",
    "Verif.Props.C113_update_refused",
    "Verif.Props.C113_first_run",
    "Verif.Props.C113_switch",
    "Verif.Props.C113_switch_succeeds",
    "Verif.Props.C113_switch_unknown",
    "Verif.Props.C113_frontend",
    "Verif.Props.C113_development",
    "Verif.Props.C113_unreadable",
    "Verif.Props.C113_create_partial",
    "Verif.Props.C113_create_fails",
    "Verif.Props.C113_delete",
    "Verif.Props.C113_default_paths_apart",
    "Verif.Props.C113_found_partial",
    "Verif.Props.C113_violated_delete_current",
    "Verif.Props.C113_violated_create_replaces",
    "Verif.Props.C113_violated_create_first",
    "Verif.Props.C113_violated_switch_fails",
    "Verif.Props.C113_violated_unpublished",
    "Verif.Props.C113_violated_silent",
    "Verif.Props.C113_violated_nested",
    "Verif.Props.C113_violated_dev",
    "Verif.Props.C113_violated_delete_dev",
    "Verif.Props.C113_violated_update",
    "Verif.Props.C113_violated_help",
    "Verif.Props.C113_violated_delete_reports",
    "Verif.Props.C113_violated_latest"
   ],
   "note": "What is run is the binary of the current channel; commands on channels keep the others when the configuration can be read. The current channel can be deleted, a channel created on a new machine or in a configuration that cannot be read replaces the whole configuration, a failing switch has switched, and a channel without a binary fails silently."
  },
  {
   "property": "C114",
   "status": "partial",
   "theorems": [
    "Verif.Props.C114_pair",
    "Verif.Props.C114_same",
    "Verif.Props.C114_kept",
    "Verif.Props.C114_first",
    "Verif.Props.C114_hubid",
    "Verif.Props.C114_remote",
    "Verif.Props.C114_key_roundtrip",
    "Verif.Props.C114_key_length",
    "Verif.Props.C114_token_partial",
    "Verif.Props.C114_violated_interrupted",
    "Verif.Props.C114_violated_named",
    "Verif.Props.C114_violated_named_hubid",
    "Verif.Props.C114_violated_private",
    "Verif.Props.C114_violated_org",
    "Verif.Props.C114_violated_hidden"
   ],
   "note": "The current profile is stable and its keys belong together in all histories. A first load that is interrupted blocks all later ones, a profile named by the environment that has no keys gets new ones at each load, the mode of the private key file is never set, and with several organisations the token is an arbitrary one."
  },
  {
   "property": "C115",
   "status": "partial",
   "theorems": [
    "Verif.Props.C115_unique",
    "Verif.Props.C115_start",
    "Verif.Props.C115_shutdown_partial",
    "Verif.Props.C115_shutdown_unknown",
    "Verif.Props.C115_tracked_partial",
    "Verif.Props.C115_list",
    "Verif.Props.C115_violated_orphan_kept",
    "Verif.Props.C115_violated_orphan",
    "Verif.Props.C115_violated_stuck",
    "Verif.Props.C115_violated_pid",
    "Verif.Props.C115_violated_lost",
    "Verif.Props.C115_violated_signal",
    "Verif.Props.C115_violated_leftover"
   ],
   "note": "Names are unique in all histories, and in orderly ones each running connector is tracked. The process is started before the name is checked, a missing temporary directory keeps the entry for good, a reused process id belongs to a foreign program that shutdown ends, and an index that cannot be read is replaced."
  }
 ]
}
