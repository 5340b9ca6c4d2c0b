import Verif.Props.Access
import Verif.Props.Acks
import Verif.Props.Addresses
import Verif.Props.AdminApi
import Verif.Props.Batch
import Verif.Props.Blocking
import Verif.Props.Chain
import Verif.Props.Channel
import Verif.Props.CliConsume
import Verif.Props.CliProduce
import Verif.Props.Client
import Verif.Props.ClusterCheck
import Verif.Props.ClusterMessages
import Verif.Props.Codec
import Verif.Props.Commit
import Verif.Props.Compress
import Verif.Props.Confined
import Verif.Props.ConnectorConsumer
import Verif.Props.ConnectorSecret
import Verif.Props.Dedup
import Verif.Props.Delivery
import Verif.Props.Deploy
import Verif.Props.Election
import Verif.Props.EndToEnd
import Verif.Props.Fetch
import Verif.Props.FetchMany
import Verif.Props.FileWrite
import Verif.Props.Filter
import Verif.Props.Flush
import Verif.Props.Fvm
import Verif.Props.Health
import Verif.Props.HexDump
import Verif.Props.HubAccess
import Verif.Props.HubPackage
import Verif.Props.Identity
import Verif.Props.Kv
import Verif.Props.LocalCluster
import Verif.Props.LocalDisk
import Verif.Props.LocalStore
import Verif.Props.LocalWatch
import Verif.Props.Log
import Verif.Props.LookBack
import Verif.Props.Metadata
import Verif.Props.Mirror
import Verif.Props.MirrorPairing
import Verif.Props.MirrorProgress
import Verif.Props.MirrorTopics
import Verif.Props.Misc
import Verif.Props.Mux
import Verif.Props.Net
import Verif.Props.Objects
import Verif.Props.Package
import Verif.Props.PackageIds
import Verif.Props.PartitionMap
import Verif.Props.Partitioner
import Verif.Props.Partitions
import Verif.Props.Pool
import Verif.Props.Producer
import Verif.Props.Profile
import Verif.Props.Reader
import Verif.Props.Recovery
import Verif.Props.Releases
import Verif.Props.Removal
import Verif.Props.ReplicaBytes
import Verif.Props.Replication
import Verif.Props.ReplicationProgress
import Verif.Props.Reports
import Verif.Props.Restart
import Verif.Props.Retention
import Verif.Props.Retry
import Verif.Props.Roles
import Verif.Props.Scheduler
import Verif.Props.SegmentFiles
import Verif.Props.Sessions
import Verif.Props.SmartMetrics
import Verif.Props.SmartProduce
import Verif.Props.SmartStream
import Verif.Props.SmartWire
import Verif.Props.SpuGroups
import Verif.Props.SpuMessages
import Verif.Props.Stream
import Verif.Props.Topic
import Verif.Props.TopicSettings
import Verif.Props.Varint

/-! Axioms used by every property theorem named in the manifest (generated). -/

#print axioms Verif.Props.C01_varint_roundtrip
#print axioms Verif.Props.C01_varint_prefix_free
#print axioms Verif.Props.C02_exact_range_partial
#print axioms Verif.Props.C02_violated_wrong_value
#print axioms Verif.Props.C02_violated_nontermination
#print axioms Verif.Props.C03_roundtrip
#print axioms Verif.Props.C03_prefix_free
#print axioms Verif.Props.C03_long_string_misread
#print axioms Verif.Props.C04_values_partial
#print axioms Verif.Props.C04_never_misread_partial
#print axioms Verif.Props.C04_record
#print axioms Verif.Props.C04_record_set
#print axioms Verif.Props.C04_violated_bytebuf_panic
#print axioms Verif.Props.C04_violated_batch_accepted
#print axioms Verif.Props.C04_violated_record_data
#print axioms Verif.Props.C05_record_roundtrip
#print axioms Verif.Props.C06_batch_roundtrip
#print axioms Verif.Props.C06_skip
#print axioms Verif.Props.C06_raw_batch_roundtrip
#print axioms Verif.Props.C06_producer_to_consumer
#print axioms Verif.Props.C06_schema_id_dropped
#print axioms Verif.Props.C07_record_set_roundtrip
#print axioms Verif.Props.C07_raw_record_set_roundtrip
#print axioms Verif.Props.C07_announced_size_partial
#print axioms Verif.Props.C07_size_off_by_schema
#print axioms Verif.Props.C07_violated_size
#print axioms Verif.Props.C08_crc_covers_payload
#print axioms Verif.Props.C08_burst_detected
#print axioms Verif.Props.C08_single_bit
#print axioms Verif.Props.C08_not_verified_on_read
#print axioms Verif.Props.C09_offsets_gap_free
#print axioms Verif.Props.C09_offsets_unique
#print axioms Verif.Props.C09_write_reports
#print axioms Verif.Props.C09_rejected_write_partial
#print axioms Verif.Props.C09_violated_partial_write
#print axioms Verif.Props.C09_trusts_header
#print axioms Verif.Props.C09_schema_batch_panics
#print axioms Verif.Props.C10_told_offset_partial
#print axioms Verif.Props.C10_consumer_partial
#print axioms Verif.Props.C10_violated_at_most_once
#print axioms Verif.Props.C10_violated_smartmodule
#print axioms Verif.Props.C10_violated_dropped
#print axioms Verif.Props.C11_fetch
#print axioms Verif.Props.C11_fetch_stored
#print axioms Verif.Props.C11_outside
#print axioms Verif.Props.C11_fetch_committed
#print axioms Verif.Props.C12_committed_partial
#print axioms Verif.Props.C12_violated
#print axioms Verif.Props.C13_reader_partial
#print axioms Verif.Props.C13_client_partial
#print axioms Verif.Props.C13_violated_truncated_batch
#print axioms Verif.Props.C14_files
#print axioms Verif.Props.C14_interrupted_write
#print axioms Verif.Props.C14_reopened_partial
#print axioms Verif.Props.C14_batch_without_index_entry
#print axioms Verif.Props.C14_roll_over
#print axioms Verif.Props.C14_during_retention
#print axioms Verif.Props.C14_scan_is_list
#print axioms Verif.Props.C14_violated_index_full
#print axioms Verif.Props.C14_opens_partial
#print axioms Verif.Props.C15_index
#print axioms Verif.Props.C16_removes_oldest
#print axioms Verif.Props.C16_only_as_needed_partial
#print axioms Verif.Props.C16_within_limit_partial
#print axioms Verif.Props.C16_violated_one_round
#print axioms Verif.Props.C16_violated_after_restart
#print axioms Verif.Props.C16_violated_removes_too_much
#print axioms Verif.Props.C17_only_expired
#print axioms Verif.Props.C17_no_hole_partial
#print axioms Verif.Props.C17_violated_hole
#print axioms Verif.Props.C18_hw_is_checkpoint
#print axioms Verif.Props.C18_hw_le_leo
#print axioms Verif.Props.C18_consistent_partial
#print axioms Verif.Props.C18_violated_log_start
#print axioms Verif.Props.C18_violated_unreadable
#print axioms Verif.Props.C18_checkpoint_caught_up_partial
#print axioms Verif.Props.C18_violated_checkpoint_skipped
#print axioms Verif.Props.C19_partial
#print axioms Verif.Props.C19_follower_view_partial
#print axioms Verif.Props.C19_bytes_partial
#print axioms Verif.Props.C19_violated_cut_batch
#print axioms Verif.Props.C20_leader
#print axioms Verif.Props.C20_follower
#print axioms Verif.Props.C21_value
#print axioms Verif.Props.C21_advances
#print axioms Verif.Props.C21_capped
#print axioms Verif.Props.C21_order
#print axioms Verif.Props.C21_single
#print axioms Verif.Props.C22_acked_everywhere_partial
#print axioms Verif.Props.C22_timeout_is_error
#print axioms Verif.Props.C22_violated_cut_batch
#print axioms Verif.Props.C23_committed_kept_partial
#print axioms Verif.Props.C23_converges_partial
#print axioms Verif.Props.C23_violated_diverged
#print axioms Verif.Props.C23_violated_stuck
#print axioms Verif.Props.C24_restart_partial
#print axioms Verif.Props.C24_get_partial
#print axioms Verif.Props.C24_interrupted
#print axioms Verif.Props.C24_violated_failed_delete
#print axioms Verif.Props.C24_violated_retention
#print axioms Verif.Props.C24_violated_old_watermark
#print axioms Verif.Props.C25_offsets_partial
#print axioms Verif.Props.C25_commit
#print axioms Verif.Props.C25_delete
#print axioms Verif.Props.C25_delete_replica
#print axioms Verif.Props.C25_fetch
#print axioms Verif.Props.C25_violated_stored_but_rejected
#print axioms Verif.Props.C25_violated_deleted_offset_returns
#print axioms Verif.Props.C26_same_key_same_partition
#print axioms Verif.Props.C27_even
#print axioms Verif.Props.C27_even_all_online
#print axioms Verif.Props.C27_valid
#print axioms Verif.Props.C27_violated_wraparound
#print axioms Verif.Props.C28_exactly_once_in_order
#print axioms Verif.Props.C28_sent_is_final
#print axioms Verif.Props.C28_flush_takes_all
#print axioms Verif.Props.C29_batch_limits
#print axioms Verif.Props.C29_sent_limits
#print axioms Verif.Props.C29_rejection_partial
#print axioms Verif.Props.C29_violated_rejects_sendable
#print axioms Verif.Props.C30_relative_partial
#print axioms Verif.Props.C30_absolute
#print axioms Verif.Props.C30_absolute_negative
#print axioms Verif.Props.C30_violated_inverted
#print axioms Verif.Props.C30_violated_inverted_log
#print axioms Verif.Props.C31_client_partial
#print axioms Verif.Props.C31_reader_partial
#print axioms Verif.Props.C31_violated_late_notification
#print axioms Verif.Props.C31_late_notification_happens
#print axioms Verif.Props.C31_violated_starvation
#print axioms Verif.Props.C32_client_partial
#print axioms Verif.Props.C32_take_partial
#print axioms Verif.Props.C32_violated_take_records
#print axioms Verif.Props.C33_never_ahead
#print axioms Verif.Props.C33_never_decreases
#print axioms Verif.Props.C33_flush_partial
#print axioms Verif.Props.C33_violated_auto
#print axioms Verif.Props.C33_violated_reconnect
#print axioms Verif.Props.C33_violated_earlier_start
#print axioms Verif.Props.C34_single_partial
#print axioms Verif.Props.C34_resume_partial
#print axioms Verif.Props.C34_violated_partitions
#print axioms Verif.Props.C34_violated_partitions_twice
#print axioms Verif.Props.C34_violated_before_first
#print axioms Verif.Props.C35_deletes_first
#print axioms Verif.Props.C35_deletes_first_full
#print axioms Verif.Props.C35_any_order_partial
#print axioms Verif.Props.C35_violated_recreate
#print axioms Verif.Props.C36_client_partial
#print axioms Verif.Props.C36_broker_partial
#print axioms Verif.Props.C36_converges_partial
#print axioms Verif.Props.C36_violated_recreate
#print axioms Verif.Props.C36_violated_empty_sync
#print axioms Verif.Props.C37_in_order_partial
#print axioms Verif.Props.C37_violated_concurrent_writers
#print axioms Verif.Props.C38_valid
#print axioms Verif.Props.C38_complete
#print axioms Verif.Props.C39_least_load_partial
#print axioms Verif.Props.C39_spread_partial
#print axioms Verif.Props.C39_fresh_balanced
#print axioms Verif.Props.C39_violated_wrap
#print axioms Verif.Props.C40_validate
#print axioms Verif.Props.C41_off
#print axioms Verif.Props.C41_most_caught_up_partial
#print axioms Verif.Props.C41_marked_offline_partial
#print axioms Verif.Props.C41_on
#print axioms Verif.Props.C41_candidates_are_replicas
#print axioms Verif.Props.C41_report_recorded
#print axioms Verif.Props.C41_violated_ahead
#print axioms Verif.Props.C41_violated_out_of_storage
#print axioms Verif.Props.C41_violated_batch
#print axioms Verif.Props.C42_provisioned
#print axioms Verif.Props.C42_complete
#print axioms Verif.Props.C42_invalid_no_partitions
#print axioms Verif.Props.C42_only_provisioned
#print axioms Verif.Props.C42_fixed_point_partial
#print axioms Verif.Props.C42_violated_livelock
#print axioms Verif.Props.C43_creates_missing
#print axioms Verif.Props.C43_idempotent
#print axioms Verif.Props.C43_keys
#print axioms Verif.Props.C44_accepted_partial
#print axioms Verif.Props.C44_violated_empty
#print axioms Verif.Props.C45_request
#print axioms Verif.Props.C45_stream
#print axioms Verif.Props.C45_isolation
#print axioms Verif.Props.C45_delivered
#print axioms Verif.Props.C45_violated_wrap
#print axioms Verif.Props.C46_highest_common
#print axioms Verif.Props.C46_server_tables
#print axioms Verif.Props.C46_sent_anyway
#print axioms Verif.Props.C47_versioned
#print axioms Verif.Props.C48_prefix_partial
#print axioms Verif.Props.C48_keeps
#print axioms Verif.Props.C48_reaches
#print axioms Verif.Props.C48_answer
#print axioms Verif.Props.C48_violated_overlap
#print axioms Verif.Props.C48_violated_failover
#print axioms Verif.Props.C48_violated_retention
#print axioms Verif.Props.C48_violated_cut_batch
#print axioms Verif.Props.C49_replica_key
#print axioms Verif.Props.C49_signed_partial
#print axioms Verif.Props.C49_violated_negative
#print axioms Verif.Props.C49_parse_sound
#print axioms Verif.Props.C50_no_wait
#print axioms Verif.Props.C50_never_stuck
#print axioms Verif.Props.C50_unseen_data
#print axioms Verif.Props.C50_final_value
#print axioms Verif.Props.C50_returns_current
#print axioms Verif.Props.C51_frames
#print axioms Verif.Props.C51_so_far
#print axioms Verif.Props.C51_bad_length
#print axioms Verif.Props.C52_filter_partial
#print axioms Verif.Props.C52_resume
#print axioms Verif.Props.C52_violated_client_offset
#print axioms Verif.Props.C52_violated_offset_delta
#print axioms Verif.Props.C52_violated_skips_segment
#print axioms Verif.Props.C52_violated_oversized
#print axioms Verif.Props.C52_violated_start_inside_batch
#print axioms Verif.Props.C53_agree
#print axioms Verif.Props.C53_stable
#print axioms Verif.Props.C53_violated_stale
#print axioms Verif.Props.C54_prompt_partial
#print axioms Verif.Props.C54_resumes
#print axioms Verif.Props.C54_violated_stall
#print axioms Verif.Props.C55_stream_partial
#print axioms Verif.Props.C55_fetch_partial
#print axioms Verif.Props.C55_replication_partial
#print axioms Verif.Props.C55_mirror_partial
#print axioms Verif.Props.C55_records
#print axioms Verif.Props.C55_count
#print axioms Verif.Props.C55_violated_short_read
#print axioms Verif.Props.C55_violated_produce
#print axioms Verif.Props.C56_last_partial
#print axioms Verif.Props.C56_last_age_partial
#print axioms Verif.Props.C56_age_partial
#print axioms Verif.Props.C56_violated_segment
#print axioms Verif.Props.C56_violated_single_record
#print axioms Verif.Props.C56_violated_first_record
#print axioms Verif.Props.C56_violated_retention
#print axioms Verif.Props.C57_record_by_record
#print axioms Verif.Props.C57_batches
#print axioms Verif.Props.C57_kinds
#print axioms Verif.Props.C57_aggregate
#print axioms Verif.Props.C57_failure
#print axioms Verif.Props.C57_error_partial
#print axioms Verif.Props.C57_violated_not_all_modules
#print axioms Verif.Props.C57_violated_error_offset
#print axioms Verif.Props.C58_stored
#print axioms Verif.Props.C58_all_or_nothing
#print axioms Verif.Props.C58_leader_partial
#print axioms Verif.Props.C58_violated_gap
#print axioms Verif.Props.C58_violated_overlap
#print axioms Verif.Props.C58_violated_failed_write
#print axioms Verif.Props.C58_violated_timestamps
#print axioms Verif.Props.C59_once_partial
#print axioms Verif.Props.C59_violated_twice
#print axioms Verif.Props.C59_violated_start_inside
#print axioms Verif.Props.C60_status_partial
#print axioms Verif.Props.C60_spec_partial
#print axioms Verif.Props.C60_by_key_partial
#print axioms Verif.Props.C60_link_partial
#print axioms Verif.Props.C60_stale_refused
#print axioms Verif.Props.C60_current_accepted
#print axioms Verif.Props.C60_violated_resurrected
#print axioms Verif.Props.C60_violated_update_after_delete
#print axioms Verif.Props.C60_violated_successor
#print axioms Verif.Props.C61_no_orphans_partial
#print axioms Verif.Props.C61_delete_cascades_partial
#print axioms Verif.Props.C61_violated_lost_link
#print axioms Verif.Props.C61_violated_orphan_stays
#print axioms Verif.Props.C61_violated_stale_child
#print axioms Verif.Props.C62_converges_partial
#print axioms Verif.Props.C62_settles
#print axioms Verif.Props.C62_resync
#print axioms Verif.Props.C62_violated_reordered
#print axioms Verif.Props.C62_violated_recreated
#print axioms Verif.Props.C62_violated_deadlock
#print axioms Verif.Props.C63_restart_partial
#print axioms Verif.Props.C63_each_partial
#print axioms Verif.Props.C63_violated_torn
#print axioms Verif.Props.C63_violated_removal
#print axioms Verif.Props.C63_violated_failed_write
#print axioms Verif.Props.C64_safe_partial
#print axioms Verif.Props.C64_served
#print axioms Verif.Props.C64_exact_partial
#print axioms Verif.Props.C64_violated_uninvited
#print axioms Verif.Props.C64_violated_undelete
#print axioms Verif.Props.C64_violated_two_roles
#print axioms Verif.Props.C64_violated_no_retry
#print axioms Verif.Props.C65_kept
#print axioms Verif.Props.C65_gone_partial
#print axioms Verif.Props.C65_violated_resurrected
#print axioms Verif.Props.C65_violated_silent
#print axioms Verif.Props.C65_violated_left_behind
#print axioms Verif.Props.C66_requested_partial
#print axioms Verif.Props.C66_local_partial
#print axioms Verif.Props.C66_kubernetes
#print axioms Verif.Props.C66_answered_partial
#print axioms Verif.Props.C66_violated_stale_ack
#print axioms Verif.Props.C66_violated_lost_ack
#print axioms Verif.Props.C67_decision
#print axioms Verif.Props.C67_decision_instance_partial
#print axioms Verif.Props.C67_asked_partial
#print axioms Verif.Props.C67_permitted_partial
#print axioms Verif.Props.C67_stranger_partial
#print axioms Verif.Props.C67_mirror
#print axioms Verif.Props.C67_not_refused
#print axioms Verif.Props.C67_text_partial
#print axioms Verif.Props.C67_violated_substring
#print axioms Verif.Props.C67_violated_delete
#print axioms Verif.Props.C67_violated_mirrors
#print axioms Verif.Props.C67_violated_watch
#print axioms Verif.Props.C67_violated_fail_open
#print axioms Verif.Props.C67_violated_read_only
#print axioms Verif.Props.C67_violated_root
#print axioms Verif.Props.C67_violated_text
#print axioms Verif.Props.C68_one_write
#print axioms Verif.Props.C68_created
#print axioms Verif.Props.C68_deleted
#print axioms Verif.Props.C68_updated_partial
#print axioms Verif.Props.C68_answer
#print axioms Verif.Props.C68_protected
#print axioms Verif.Props.C68_never_replaces_partial
#print axioms Verif.Props.C68_dry_run_partial
#print axioms Verif.Props.C68_spu_ids
#print axioms Verif.Props.C68_list_partial
#print axioms Verif.Props.C68_violated_replace
#print axioms Verif.Props.C68_violated_dry_run
#print axioms Verif.Props.C68_violated_partition_count
#print axioms Verif.Props.C68_violated_filters
#print axioms Verif.Props.C68_violated_race
#print axioms Verif.Props.C68_violated_race_ids
#print axioms Verif.Props.C69_match_partial
#print axioms Verif.Props.C69_match_plain_partial
#print axioms Verif.Props.C69_found_partial
#print axioms Verif.Props.C69_full_name_partial
#print axioms Verif.Props.C69_store_id_partial
#print axioms Verif.Props.C69_created_deleted
#print axioms Verif.Props.C69_agree_partial
#print axioms Verif.Props.C69_list_partial
#print axioms Verif.Props.C69_violated_store_id
#print axioms Verif.Props.C69_violated_shadow
#print axioms Verif.Props.C69_violated_trailing
#print axioms Verif.Props.C69_violated_short_name
#print axioms Verif.Props.C69_violated_ambiguous
#print axioms Verif.Props.C69_violated_slash
#print axioms Verif.Props.C70_last_report_recorded_partial
#print axioms Verif.Props.C70_nothing_stays_under_way
#print axioms Verif.Props.C70_report_can_be_completed_partial
#print axioms Verif.Props.C70_violated_base_offset
#print axioms Verif.Props.C70_violated_connection_lost
#print axioms Verif.Props.C70_violated_unknown_partition
#print axioms Verif.Props.C70_violated_lost_update
#print axioms Verif.Props.C71_online_iff_connected_partial
#print axioms Verif.Props.C71_settles_partial
#print axioms Verif.Props.C71_silence
#print axioms Verif.Props.C71_online_is_alive_partial
#print axioms Verif.Props.C71_violated_reconnect
#print axioms Verif.Props.C71_violated_after_restart
#print axioms Verif.Props.C71_violated_increments
#print axioms Verif.Props.C72_reports_complete
#print axioms Verif.Props.C72_status_completes_partial
#print axioms Verif.Props.C72_violated_deadlock
#print axioms Verif.Props.C73_envelope
#print axioms Verif.Props.C73_requests_partial
#print axioms Verif.Props.C73_create_partial
#print axioms Verif.Props.C73_create_old_partial
#print axioms Verif.Props.C73_truncated
#print axioms Verif.Props.C73_violated_assigned
#print axioms Verif.Props.C73_violated_two_partitions
#print axioms Verif.Props.C73_violated_package
#print axioms Verif.Props.C73_violated_smartmodule
#print axioms Verif.Props.C73_violated_mirror
#print axioms Verif.Props.C73_violated_update
#print axioms Verif.Props.C74_drains_partial
#print axioms Verif.Props.C74_settled_once
#print axioms Verif.Props.C74_violated_clock_set_back
#print axioms Verif.Props.C75_waits_partial
#print axioms Verif.Props.C75_delivered_partial
#print axioms Verif.Props.C75_violated_other_error
#print axioms Verif.Props.C75_violated_dropped
#print axioms Verif.Props.C76_follows_partial
#print axioms Verif.Props.C76_settings_partial
#print axioms Verif.Props.C76_kept_partial
#print axioms Verif.Props.C76_own_untouched_partial
#print axioms Verif.Props.C76_violated_settings
#print axioms Verif.Props.C76_violated_leader_unknown
#print axioms Verif.Props.C76_violated_takes_over
#print axioms Verif.Props.C77_only_own_topics
#print axioms Verif.Props.C77_only_admitted_partial
#print axioms Verif.Props.C77_conn_admitted
#print axioms Verif.Props.C77_violated_auth_failure
#print axioms Verif.Props.C78_address
#print axioms Verif.Props.C78_right_broker
#print axioms Verif.Props.C78_one_connection
#print axioms Verif.Props.C78_serial_open
#print axioms Verif.Props.C78_replaced
#print axioms Verif.Props.C78_stream_open_partial
#print axioms Verif.Props.C78_stream_after_serial
#print axioms Verif.Props.C78_violated_stream
#print axioms Verif.Props.C78_violated_blocked
#print axioms Verif.Props.C79_unique_partial
#print axioms Verif.Props.C79_custom
#print axioms Verif.Props.C79_started_checked
#print axioms Verif.Props.C79_conflict_found
#print axioms Verif.Props.C79_violated_duplicate
#print axioms Verif.Props.C79_violated_both_started
#print axioms Verif.Props.C79_violated_grows
#print axioms Verif.Props.C79_violated_overflow
#print axioms Verif.Props.C80_pod_id
#print axioms Verif.Props.C80_names
#print axioms Verif.Props.C80_ids
#print axioms Verif.Props.C80_private_host_partial
#print axioms Verif.Props.C80_violated_private_host
#print axioms Verif.Props.C81_current
#print axioms Verif.Props.C81_complete_partial
#print axioms Verif.Props.C81_found
#print axioms Verif.Props.C81_add
#print axioms Verif.Props.C81_add_others_partial
#print axioms Verif.Props.C81_rename_partial
#print axioms Verif.Props.C81_delete_profile
#print axioms Verif.Props.C81_delete_cluster
#print axioms Verif.Props.C81_violated_rename
#print axioms Verif.Props.C81_violated_add
#print axioms Verif.Props.C81_violated_lost
#print axioms Verif.Props.C81_violated_force
#print axioms Verif.Props.C82_at_most_once
#print axioms Verif.Props.C82_told_stored
#print axioms Verif.Props.C82_at_least_once
#print axioms Verif.Props.C82_only_queued
#print axioms Verif.Props.C82_order_partial
#print axioms Verif.Props.C82_order_connection
#print axioms Verif.Props.C82_violated_order
#print axioms Verif.Props.C82_violated_order_once
#print axioms Verif.Props.C82_violated_failed
#print axioms Verif.Props.C82_violated_retry
#print axioms Verif.Props.C83_as_given_partial
#print axioms Verif.Props.C83_cli_file
#print axioms Verif.Props.C83_workable
#print axioms Verif.Props.C83_shown
#print axioms Verif.Props.C83_violated_segment
#print axioms Verif.Props.C83_violated_retention
#print axioms Verif.Props.C83_violated_longer
#print axioms Verif.Props.C84_log
#print axioms Verif.Props.C84_producer
#print axioms Verif.Props.C84_refused
#print axioms Verif.Props.C84_smartmodules
#print axioms Verif.Props.C84_transparent
#print axioms Verif.Props.C84_readable
#print axioms Verif.Props.C85_selected_partial
#print axioms Verif.Props.C85_all_or_none
#print axioms Verif.Props.C85_only_selected
#print axioms Verif.Props.C85_each
#print axioms Verif.Props.C85_served
#print axioms Verif.Props.C85_flush
#print axioms Verif.Props.C85_unmanaged
#print axioms Verif.Props.C85_violated_mirror
#print axioms Verif.Props.C85_violated_mirror_ignored
#print axioms Verif.Props.C85_violated_twice
#print axioms Verif.Props.C86_goes_on
#print axioms Verif.Props.C86_goes_on_partial
#print axioms Verif.Props.C86_with_room
#print axioms Verif.Props.C86_one_ack
#print axioms Verif.Props.C86_flush_returns
#print axioms Verif.Props.C86_violated_stall
#print axioms Verif.Props.C86_violated_abandoned
#print axioms Verif.Props.C87_ids
#print axioms Verif.Props.C87_ack
#print axioms Verif.Props.C87_ack_unknown
#print axioms Verif.Props.C87_commit
#print axioms Verif.Props.C87_commit_unknown
#print axioms Verif.Props.C88_only_deleted
#print axioms Verif.Props.C88_others_unaffected
#print axioms Verif.Props.C88_told_partial
#print axioms Verif.Props.C88_left_alone
#print axioms Verif.Props.C88_violated_overwritten
#print axioms Verif.Props.C88_violated_unlisted
#print axioms Verif.Props.C88_violated_demoted
#print axioms Verif.Props.C88_violated_demoted_forever
#print axioms Verif.Props.C89_call
#print axioms Verif.Props.C89_aggregate
#print axioms Verif.Props.C89_chain_partial
#print axioms Verif.Props.C89_again_partial
#print axioms Verif.Props.C89_error
#print axioms Verif.Props.C89_garbled
#print axioms Verif.Props.C89_violated_long_error
#print axioms Verif.Props.C90_request
#print axioms Verif.Props.C90_unsendable
#print axioms Verif.Props.C90_exchange
#print axioms Verif.Props.C90_unknown_key
#print axioms Verif.Props.C90_error
#print axioms Verif.Props.C90_success
#print axioms Verif.Props.C90_unknown_error
#print axioms Verif.Props.C91_message_partial
#print axioms Verif.Props.C91_complete
#print axioms Verif.Props.C91_batches
#print axioms Verif.Props.C91_unknown_key
#print axioms Verif.Props.C91_answer
#print axioms Verif.Props.C91_violated_spu
#print axioms Verif.Props.C91_violated_smartmodule
#print axioms Verif.Props.C92_settles
#print axioms Verif.Props.C92_reaches
#print axioms Verif.Props.C92_keeps
#print axioms Verif.Props.C92_caught_up_partial
#print axioms Verif.Props.C92_committed_partial
#print axioms Verif.Props.C92_violated_retention
#print axioms Verif.Props.C92_violated_big
#print axioms Verif.Props.C92_violated_stolen
#print axioms Verif.Props.C93_signed_partial
#print axioms Verif.Props.C93_contents
#print axioms Verif.Props.C93_intact_partial
#print axioms Verif.Props.C93_assembled_partial
#print axioms Verif.Props.C93_violated_forged
#print axioms Verif.Props.C93_violated_duplicate
#print axioms Verif.Props.C93_violated_mixed
#print axioms Verif.Props.C93_violated_twice
#print axioms Verif.Props.C93_violated_same_name
#print axioms Verif.Props.C94_settles
#print axioms Verif.Props.C94_reaches
#print axioms Verif.Props.C94_keeps
#print axioms Verif.Props.C94_caught_up_partial
#print axioms Verif.Props.C94_violated_retention
#print axioms Verif.Props.C94_violated_ahead
#print axioms Verif.Props.C94_violated_big
#print axioms Verif.Props.C95_read_back_partial
#print axioms Verif.Props.C95_distinct
#print axioms Verif.Props.C95_uid
#print axioms Verif.Props.C95_sound_partial
#print axioms Verif.Props.C95_violated_registry
#print axioms Verif.Props.C95_violated_ignored
#print axioms Verif.Props.C95_violated_tag
#print axioms Verif.Props.C95_violated_empty
#print axioms Verif.Props.C95_violated_slashes
#print axioms Verif.Props.C96_published
#print axioms Verif.Props.C96_latest_partial
#print axioms Verif.Props.C96_newest
#print axioms Verif.Props.C96_listed
#print axioms Verif.Props.C96_violated_yanked
#print axioms Verif.Props.C96_violated_order
#print axioms Verif.Props.C97_local
#print axioms Verif.Props.C97_public_partial
#print axioms Verif.Props.C97_id
#print axioms Verif.Props.C97_served
#print axioms Verif.Props.C97_named
#print axioms Verif.Props.C97_ends_partial
#print axioms Verif.Props.C97_ends_one_group
#print axioms Verif.Props.C97_violated_two_groups
#print axioms Verif.Props.C97_violated_shared_address
#print axioms Verif.Props.C97_violated_no_host
#print axioms Verif.Props.C97_violated_balancer_ip
#print axioms Verif.Props.C98_fetch_partial
#print axioms Verif.Props.C98_offsets
#print axioms Verif.Props.C98_violated_partition_limit
#print axioms Verif.Props.C98_violated_limit
#print axioms Verif.Props.C98_violated_consumer_start
#print axioms Verif.Props.C99_lines_partial
#print axioms Verif.Props.C99_raw_partial
#print axioms Verif.Props.C99_mirror_partial
#print axioms Verif.Props.C99_unreadable
#print axioms Verif.Props.C99_violated_not_text
#print axioms Verif.Props.C99_violated_separator
#print axioms Verif.Props.C99_violated_raw_unreadable
#print axioms Verif.Props.C99_violated_mirror_topic
#print axioms Verif.Props.C99_violated_mirror_remote
#print axioms Verif.Props.C100_start
#print axioms Verif.Props.C100_crossing
#print axioms Verif.Props.C100_all
#print axioms Verif.Props.C100_until_partial
#print axioms Verif.Props.C100_until_any
#print axioms Verif.Props.C100_violated_behind
#print axioms Verif.Props.C100_violated_partitions
#print axioms Verif.Props.C100_violated_null
#print axioms Verif.Props.C100_violated_full_table
#print axioms Verif.Props.C101_name
#print axioms Verif.Props.C101_render
#print axioms Verif.Props.C101_only_declared
#print axioms Verif.Props.C101_declared_partial
#print axioms Verif.Props.C101_lines_partial
#print axioms Verif.Props.C101_file_partial
#print axioms Verif.Props.C101_env
#print axioms Verif.Props.C101_value_partial
#print axioms Verif.Props.C101_reference
#print axioms Verif.Props.C101_debug
#print axioms Verif.Props.C101_resolve
#print axioms Verif.Props.C101_violated_unversioned
#print axioms Verif.Props.C101_violated_injection
#print axioms Verif.Props.C101_violated_trim
#print axioms Verif.Props.C101_violated_reference
#print axioms Verif.Props.C102_partition_roundtrip
#print axioms Verif.Props.C102_partition
#print axioms Verif.Props.C102_start_roundtrip
#print axioms Verif.Props.C102_settings_partial
#print axioms Verif.Props.C102_refused
#print axioms Verif.Props.C102_defaults
#print axioms Verif.Props.C102_topic
#print axioms Verif.Props.C102_violated_none
#print axioms Verif.Props.C102_violated_twice
#print axioms Verif.Props.C102_violated_size
#print axioms Verif.Props.C103_digits
#print axioms Verif.Props.C103_name
#print axioms Verif.Props.C103_inj
#print axioms Verif.Props.C103_listing
#print axioms Verif.Props.C103_stop
#print axioms Verif.Props.C103_running
#print axioms Verif.Props.C103_active
#print axioms Verif.Props.C103_violated_panic
#print axioms Verif.Props.C103_violated_plus
#print axioms Verif.Props.C103_violated_leftover
#print axioms Verif.Props.C104_count
#print axioms Verif.Props.C104_filter
#print axioms Verif.Props.C104_meaning
#print axioms Verif.Props.C104_kept
#print axioms Verif.Props.C104_exact_partial
#print axioms Verif.Props.C104_violated_age
#print axioms Verif.Props.C104_violated_gap
#print axioms Verif.Props.C104_violated_uncommitted
#print axioms Verif.Props.C104_violated_batches
#print axioms Verif.Props.C104_violated_failed
#print axioms Verif.Props.C104_violated_refused
#print axioms Verif.Props.C104_violated_override
#print axioms Verif.Props.C104_violated_large
#print axioms Verif.Props.C104_violated_seq
#print axioms Verif.Props.C105_wire
#print axioms Verif.Props.C105_certificate_partial
#print axioms Verif.Props.C105_permitted_partial
#print axioms Verif.Props.C105_anonymous
#print axioms Verif.Props.C105_no_policy
#print axioms Verif.Props.C105_claimed
#print axioms Verif.Props.C105_violated_direct
#print axioms Verif.Props.C105_violated_no_scopes
#print axioms Verif.Props.C105_violated_no_tls
#print axioms Verif.Props.C105_violated_example
#print axioms Verif.Props.C105_violated_broker
#print axioms Verif.Props.C106_layout
#print axioms Verif.Props.C106_size
#print axioms Verif.Props.C106_place
#print axioms Verif.Props.C106_shown
#print axioms Verif.Props.C106_read
#print axioms Verif.Props.C106_stream
#print axioms Verif.Props.C107_commands_partial
#print axioms Verif.Props.C107_run_partial
#print axioms Verif.Props.C107_switch
#print axioms Verif.Props.C107_install
#print axioms Verif.Props.C107_others
#print axioms Verif.Props.C107_update_partial
#print axioms Verif.Props.C107_order_partial
#print axioms Verif.Props.C107_violated_again
#print axioms Verif.Props.C107_violated_left
#print axioms Verif.Props.C107_violated_uninstall
#print axioms Verif.Props.C107_violated_mixture
#print axioms Verif.Props.C107_violated_stuck
#print axioms Verif.Props.C107_violated_settings
#print axioms Verif.Props.C107_violated_order
#print axioms Verif.Props.C108_limit
#print axioms Verif.Props.C108_create
#print axioms Verif.Props.C108_allowed
#print axioms Verif.Props.C108_total_partial
#print axioms Verif.Props.C108_confined_partial
#print axioms Verif.Props.C108_others_partial
#print axioms Verif.Props.C108_output
#print axioms Verif.Props.C108_status
#print axioms Verif.Props.C108_fuel
#print axioms Verif.Props.C108_violated_escape
#print axioms Verif.Props.C108_violated_high
#print axioms Verif.Props.C108_violated_total
#print axioms Verif.Props.C108_violated_room
#print axioms Verif.Props.C109_no_overflow
#print axioms Verif.Props.C109_calls
#print axioms Verif.Props.C109_records_partial
#print axioms Verif.Props.C109_fuel_partial
#print axioms Verif.Props.C109_look_back
#print axioms Verif.Props.C109_export_partial
#print axioms Verif.Props.C109_kept_partial
#print axioms Verif.Props.C109_violated_twice
#print axioms Verif.Props.C109_violated_aggregate
#print axioms Verif.Props.C109_violated_split
#print axioms Verif.Props.C109_violated_unnamed
#print axioms Verif.Props.C109_violated_idle
#print axioms Verif.Props.C110_brokers_apart
#print axioms Verif.Props.C110_broker_ports
#print axioms Verif.Props.C110_one_cluster
#print axioms Verif.Props.C110_start_refused
#print axioms Verif.Props.C110_started
#print axioms Verif.Props.C110_stopped
#print axioms Verif.Props.C110_stop_undoes_start
#print axioms Verif.Props.C110_resumed
#print axioms Verif.Props.C110_not_resumed
#print axioms Verif.Props.C110_data_kept
#print axioms Verif.Props.C110_confirmed
#print axioms Verif.Props.C110_deleted_partial
#print axioms Verif.Props.C110_delete_kinds
#print axioms Verif.Props.C110_upgraded
#print axioms Verif.Props.C110_violated_ports
#print axioms Verif.Props.C110_violated_resume_exit
#print axioms Verif.Props.C110_violated_failed_start
#print axioms Verif.Props.C110_violated_own_dir
#print axioms Verif.Props.C110_violated_cloud_delete
#print axioms Verif.Props.C110_violated_upgrade
#print axioms Verif.Props.C110_violated_search
#print axioms Verif.Props.C111_own_cluster
#print axioms Verif.Props.C111_own_topic
#print axioms Verif.Props.C111_one_to_one_partial
#print axioms Verif.Props.C111_connected_partial
#print axioms Verif.Props.C111_one_task_partial
#print axioms Verif.Props.C111_established
#print axioms Verif.Props.C111_only_first
#print axioms Verif.Props.C111_violated_twice
#print axioms Verif.Props.C111_violated_moved
#print axioms Verif.Props.C111_violated_taken_over
#print axioms Verif.Props.C111_violated_old_task
#print axioms Verif.Props.C111_violated_direction
#print axioms Verif.Props.C112_requirements
#print axioms Verif.Props.C112_each_once
#print axioms Verif.Props.C112_success
#print axioms Verif.Props.C112_no_fix
#print axioms Verif.Props.C112_order_kept
#print axioms Verif.Props.C112_ordered_partial
#print axioms Verif.Props.C112_accepts_partial
#print axioms Verif.Props.C112_violated_order
#print axioms Verif.Props.C112_violated_changes
#print axioms Verif.Props.C112_violated_unsupported
#print axioms Verif.Props.C113_runs_current
#print axioms Verif.Props.C113_reached_partial
#print axioms Verif.Props.C113_update_refused
#print axioms Verif.Props.C113_first_run
#print axioms Verif.Props.C113_switch
#print axioms Verif.Props.C113_switch_succeeds
#print axioms Verif.Props.C113_switch_unknown
#print axioms Verif.Props.C113_frontend
#print axioms Verif.Props.C113_development
#print axioms Verif.Props.C113_unreadable
#print axioms Verif.Props.C113_create_partial
#print axioms Verif.Props.C113_create_fails
#print axioms Verif.Props.C113_delete
#print axioms Verif.Props.C113_default_paths_apart
#print axioms Verif.Props.C113_found_partial
#print axioms Verif.Props.C113_violated_delete_current
#print axioms Verif.Props.C113_violated_create_replaces
#print axioms Verif.Props.C113_violated_create_first
#print axioms Verif.Props.C113_violated_switch_fails
#print axioms Verif.Props.C113_violated_unpublished
#print axioms Verif.Props.C113_violated_silent
#print axioms Verif.Props.C113_violated_nested
#print axioms Verif.Props.C113_violated_dev
#print axioms Verif.Props.C113_violated_delete_dev
#print axioms Verif.Props.C113_violated_update
#print axioms Verif.Props.C113_violated_help
#print axioms Verif.Props.C113_violated_delete_reports
#print axioms Verif.Props.C113_violated_latest
#print axioms Verif.Props.C114_pair
#print axioms Verif.Props.C114_same
#print axioms Verif.Props.C114_kept
#print axioms Verif.Props.C114_first
#print axioms Verif.Props.C114_hubid
#print axioms Verif.Props.C114_remote
#print axioms Verif.Props.C114_key_roundtrip
#print axioms Verif.Props.C114_key_length
#print axioms Verif.Props.C114_token_partial
#print axioms Verif.Props.C114_violated_interrupted
#print axioms Verif.Props.C114_violated_named
#print axioms Verif.Props.C114_violated_named_hubid
#print axioms Verif.Props.C114_violated_private
#print axioms Verif.Props.C114_violated_org
#print axioms Verif.Props.C114_violated_hidden
#print axioms Verif.Props.C115_unique
#print axioms Verif.Props.C115_start
#print axioms Verif.Props.C115_shutdown_partial
#print axioms Verif.Props.C115_shutdown_unknown
#print axioms Verif.Props.C115_tracked_partial
#print axioms Verif.Props.C115_list
#print axioms Verif.Props.C115_violated_orphan_kept
#print axioms Verif.Props.C115_violated_orphan
#print axioms Verif.Props.C115_violated_stuck
#print axioms Verif.Props.C115_violated_pid
#print axioms Verif.Props.C115_violated_lost
#print axioms Verif.Props.C115_violated_signal
#print axioms Verif.Props.C115_violated_leftover
