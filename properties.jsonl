{"id": "C01", "title": "Variable-length integers survive the wire (32-bit range)", "statement": "Any integer that fits in 32 signed bits, written in the variable-length encoding used inside records and followed by any other bytes, is read back as the same integer, leaves exactly the following bytes unread, and occupies exactly the number of bytes announced by the size function.", "quantifier": "every integer in [-2^31, 2^31) and every byte string that follows it", "why_tests_cant": "4 billion values times arbitrary trailing data; sign/boundary bugs hide at 7-bit group boundaries", "anchors": ["crates/fluvio-protocol/src/core/varint.rs: varint_decode, variant_encode, variant_size"]}
{"id": "C02", "title": "Variable-length integers survive the wire (full 64-bit range)", "statement": "Every 64-bit signed integer (record lengths, offset deltas and timestamp deltas are declared as such) written in the variable-length encoding is read back unchanged and the encoder always terminates.", "quantifier": "every 64-bit signed integer", "why_tests_cant": "2^64 values; the failing region starts beyond every value used in the test-suite", "anchors": ["crates/fluvio-protocol/src/core/varint.rs: variant_encode, varint_decode", "crates/fluvio-protocol/src/record/data.rs: RecordHeader"]}
{"id": "C03", "title": "Protocol values round-trip and are self-delimiting", "statement": "For every value built from the protocol's basic types (booleans, 8..64-bit integers, durations, byte buffers, strings, optional values, sequences, ordered maps, variable-length byte strings and any nesting of them) within the size limits of the length prefixes, decoding the encoding followed by arbitrary bytes returns that value and leaves exactly those bytes; the announced size equals the number of bytes produced.", "quantifier": "every value of every nested combination of the types, every trailing byte string", "why_tests_cant": "unbounded set of nested values; tests check single samples", "anchors": ["crates/fluvio-protocol/src/core/encoder.rs", "crates/fluvio-protocol/src/core/decoder.rs", "crates/fluvio-protocol/src/core/bytebuf.rs"]}
{"id": "C04", "title": "Truncated messages are rejected, never misread", "statement": "If a message is cut off anywhere, decoding reports an error instead of returning a (different) value.", "quantifier": "every encodable value and every cut point strictly inside its encoding", "why_tests_cant": "cut point x value space is unbounded", "anchors": ["crates/fluvio-protocol/src/core/decoder.rs", "crates/fluvio-protocol/src/record/data.rs: RecordData::decode"]}
{"id": "C05", "title": "Records round-trip", "statement": "Every record (optional key, value, timestamp delta, offset delta, headers count) that is sent is read back with identical key, value and deltas whatever bytes follow it.", "quantifier": "every key/value byte string whose length fits the length prefix, every delta in 32-bit range, all trailing bytes", "why_tests_cant": "arbitrary binary keys and values; length prefix nests other length prefixes", "anchors": ["crates/fluvio-protocol/src/record/data.rs: Record, RecordHeader, RecordData"]}
{"id": "C06", "title": "Batches round-trip", "statement": "Every batch of uncompressed records, with or without a schema id, is read back with the same base offset, header fields, schema id and records; its length field equals the number of bytes that follow the 12-byte preamble; so a reader can skip a batch without decoding its records.", "quantifier": "every header, every schema-id option, every list of records, all trailing bytes", "why_tests_cant": "unbounded record lists and header combinations", "anchors": ["crates/fluvio-protocol/src/record/batch.rs: Batch::encode, Batch::decode, calc_batch_len, validate_decoding"]}
{"id": "C07", "title": "Record sets round-trip and announce their size", "statement": "A record set (several batches) is read back as the same batches in the same order, and the size announced before writing equals the number of bytes written (the socket and the storage layer rely on it).", "quantifier": "every list of batches, with and without schema ids", "why_tests_cant": "unbounded lists; the schema-id variant is not covered by tests", "anchors": ["crates/fluvio-protocol/src/record/data.rs: RecordSet encode/decode/write_size", "crates/fluvio-protocol/src/record/batch.rs: write_size"]}
{"id": "C08", "title": "Batch checksum covers the payload and detects corruption", "statement": "The checksum written in a batch header is the CRC-32C of everything after it, and any corruption of the covered bytes confined to a window of at most 32 bits (in particular any single flipped bit) changes the checksum.", "quantifier": "every batch content and every corruption pattern within a 32-bit window", "why_tests_cant": "all contents x all corruptions cannot be enumerated", "anchors": ["crates/fluvio-protocol/src/record/batch.rs: Batch::encode (crc)"]}
{"id": "C09", "title": "Offsets assigned by a partition are gap-free and unique", "statement": "Starting from an empty partition, after any sequence of successful and failed writes, the k-th stored record has offset k, a write of n records is told base offset = previous end offset and moves the end offset by exactly n (or not at all when rejected), across segment roll-overs.", "quantifier": "every sequence of writes of every size, every configuration of segment size / batch size limits", "why_tests_cant": "depends on the whole history and on roll-over timing", "anchors": ["crates/fluvio-storage/src/replica.rs: write_recordset, write_batch", "crates/fluvio-storage/src/segment.rs: append_batch", "crates/fluvio-spu/src/storage/mod.rs: write_record_set"]}
{"id": "C10", "title": "The offset acknowledged to the producer is the offset at which consumers see the record", "statement": "If a producer is told that its record has offset o, then every consumer that reads offset o gets exactly that record.", "quantifier": "every interleaving of producers' batches, every batch size, every position in the batch", "why_tests_cant": "relates producer futures, broker history and client decoding over all histories", "anchors": ["crates/fluvio/src/producer/record.rs: FutureRecordMetadata::wait", "crates/fluvio/src/producer/accumulator.rs", "crates/fluvio-protocol/src/record/batch.rs: into_consumer_records_iter", "crates/fluvio-spu/src/services/public/produce_handler.rs"]}
{"id": "C11", "title": "Fetch returns the records at the requested offset", "statement": "A read at offset o between the log start and the log end returns a run of whole batches exactly as they were appended (cut only by the byte limit), the first of which contains o; reads at the end offset return nothing; reads outside are errors.", "quantifier": "every append history (any batch sizes, roll-overs, index intervals), every o, every byte limit", "why_tests_cant": "combination of sparse index, segment boundaries and scan; histories unbounded", "anchors": ["crates/fluvio-storage/src/replica.rs: read_records", "crates/fluvio-storage/src/segment.rs: records_slice, find_offset_position", "crates/fluvio-storage/src/segments.rs: find_slice, find_segment"]}
{"id": "C12", "title": "Committed reads never expose uncommitted records", "statement": "A read with committed isolation returns only records whose offset is below the high watermark.", "quantifier": "every log, every high watermark at a write boundary, every requested offset and byte limit", "why_tests_cant": "needs all relative positions of offset, watermark, batch and segment boundaries", "anchors": ["crates/fluvio-storage/src/replica.rs: read_partition_slice", "crates/fluvio-storage/src/segment.rs: records_slice"]}
{"id": "C13", "title": "Reading a partition start to end yields every record exactly once, in order", "statement": "A reader that repeatedly fetches from the offset after the last received record, starting at the log start, receives every record of the log exactly once, in offset order, and reaches the end, provided the byte limit admits the largest batch.", "quantifier": "every log history and every (sufficient) byte limit", "why_tests_cant": "iterated behaviour across segments for every history", "anchors": ["crates/fluvio-storage/src/replica.rs: read_records", "crates/fluvio-storage/src/segment.rs", "crates/fluvio-spu/src/services/public/stream_fetch.rs"]}
{"id": "C14", "title": "Crash recovery keeps every completely written batch and invents nothing", "statement": "If the process dies at any moment while appending, and the active log file is left with any prefix of the bytes being written, reopening the partition yields exactly the batches that were completely written before (same bytes, same offsets), the partial tail is discarded, and the next write continues at the following offset.", "quantifier": "every append history, every crash point (byte granularity) in the last write", "why_tests_cant": "crash points are byte granular over unbounded histories", "anchors": ["crates/fluvio-storage/src/segment.rs: open_for_write, validate_and_repair", "crates/fluvio-storage/src/validator.rs", "crates/fluvio-storage/src/batch.rs: read_from", "crates/fluvio-storage/src/mut_records.rs: open"]}
{"id": "C15", "title": "The sparse index never misleads a lookup", "statement": "Looking an offset up through the sparse index and scanning forward finds the same batch position as scanning the whole segment from the start, whatever the index interval.", "quantifier": "every batch-size sequence, index interval, index capacity and looked-up offset", "why_tests_cant": "relationship between two data structures over every history", "anchors": ["crates/fluvio-storage/src/mut_index.rs: write_index, find_offset", "crates/fluvio-storage/src/index.rs: lookup_entry", "crates/fluvio-storage/src/segment.rs: find_offset_position"]}
{"id": "C16", "title": "Size-based retention removes only the oldest data, only as needed", "statement": "Size-based cleaning removes a prefix (oldest segments) of the closed segments, never the active one, stops as soon as the partition is within the limit, and afterwards is within the limit unless only the active segment is left; remaining records stay readable at their offsets.", "quantifier": "every list of segments with every size and limit", "why_tests_cant": "all segment-size combinations", "anchors": ["crates/fluvio-storage/src/cleaner.rs: enforce_size", "crates/fluvio-storage/src/segments.rs: remove_segment, update_min_max"]}
{"id": "C17", "title": "Time-based retention keeps the log contiguous and never removes unexpired data", "statement": "Time-based cleaning removes only closed segments older than the retention period and leaves no hole in the offset range that remains readable.", "quantifier": "every list of segments with every age", "why_tests_cant": "all age combinations, including clock/mtime anomalies", "anchors": ["crates/fluvio-storage/src/cleaner.rs: enforce_ttl"]}
{"id": "C18", "title": "Restart restores a consistent high watermark", "statement": "After any shutdown or crash, the reopened partition has log start <= high watermark <= log end, where the high watermark is the last checkpointed value unless that lies beyond the recovered log.", "quantifier": "every checkpointed value and recovered log", "why_tests_cant": "crash-dependent combination of two files", "anchors": ["crates/fluvio-storage/src/replica.rs: create_or_load_inner", "crates/fluvio-storage/src/checkpoint.rs"]}
{"id": "C19", "title": "Committed records are on every replica", "statement": "As long as replicas do not lose stored data, at every moment every record below the leader's high watermark is stored, identically and at the same offset, on every follower; and every follower's log is a prefix of the leader's log.", "quantifier": "every interleaving of produces, fetch/sync messages (delayed, duplicated, dropped or reordered across connections), offset reports, and any number of followers", "why_tests_cant": "distributed interleavings are unbounded", "anchors": ["crates/fluvio-spu/src/replication/leader/replica_state.rs: update_states_from_followers, compute_hw, follower_updates", "crates/fluvio-spu/src/replication/follower/state.rs: update_from_leader, write_recordsets"]}
{"id": "C20", "title": "The high watermark never moves backwards", "statement": "While a leader is running, the high watermark it exposes never decreases, never exceeds its log end, and likewise on each follower.", "quantifier": "every interleaving of writes and follower reports", "why_tests_cant": "requires all schedules, including stale snapshots taken before a lock", "anchors": ["crates/fluvio-spu/src/replication/leader/replica_state.rs: update_states_from_followers, compute_hw", "crates/fluvio-spu/src/replication/follower/state.rs: update_from_leader"]}
{"id": "C21", "title": "The high watermark is exactly what all in-sync replicas hold", "statement": "The watermark computed by the leader from the followers' reported end offsets is the largest offset held by the required number of replicas, it advances if and only if enough followers are past the old watermark, and is independent of the order in which followers are listed.", "quantifier": "every set of follower offsets and every required replica count", "why_tests_cant": "all multisets of offsets of any size", "anchors": ["crates/fluvio-spu/src/replication/leader/replica_state.rs: compute_hw"]}
{"id": "C22", "title": "A fully acknowledged produce is on every replica", "statement": "When a producer using committed isolation receives a success acknowledgement, the acknowledged records are stored on all replicas; a timeout is reported as an error, never as success.", "quantifier": "every schedule of the wait relative to replication", "why_tests_cant": "schedule-dependent", "anchors": ["crates/fluvio-spu/src/services/public/produce_handler.rs: wait_for_acks, handle_produce_partition"]}
{"id": "C23", "title": "Leader fail-over does not lose or rewrite committed records", "statement": "After the leader dies and another in-sync replica is elected, every record that was committed stays readable at the same offset on the new leader, and when the old leader returns as follower its log converges to the new leader's log.", "quantifier": "every history before the crash, every choice of new leader, every history after", "why_tests_cant": "multi-epoch distributed histories", "anchors": ["crates/fluvio-spu/src/replication/leader/replica_state.rs", "crates/fluvio-spu/src/replication/follower/state.rs", "crates/fluvio-spu/src/replication/follower/controller.rs", "crates/fluvio-sc/src/controllers/partitions/reducer.rs"]}
{"id": "C24", "title": "The broker's key-value store survives restart at any point", "statement": "After any sequence of put, delete and flush and a restart, the store contains exactly the last value put for each key not deleted since; a restart between two log appends yields the state before or after the interrupted operation.", "quantifier": "every operation sequence and every restart point", "why_tests_cant": "histories unbounded; flush and replay interact through checkpoints", "anchors": ["crates/fluvio-kv-storage/src/log.rs: put, delete, flush, replay"]}
{"id": "C25", "title": "Stored consumer offsets are the last ones committed", "statement": "Reading a named consumer's offset on a partition returns the offset of the last accepted commit for that consumer and partition, other consumers and partitions are unaffected, and deletion removes exactly the addressed entries.", "quantifier": "every sequence of commits, deletions and flushes", "why_tests_cant": "histories unbounded", "anchors": ["crates/fluvio-spu/src/kv/consumer.rs", "crates/fluvio-spu/src/services/public/consumer_handler.rs"]}
{"id": "C26", "title": "Records with equal keys go to one partition", "statement": "While the partition count is unchanged, all records with the same key are sent to the same existing partition, whatever else is produced and whichever partitions are available.", "quantifier": "every key, every partition count > 0, every interleaving with other records", "why_tests_cant": "all keys and histories", "anchors": ["crates/fluvio/src/producer/partitioning.rs: SiphashRoundRobinPartitioner"]}
{"id": "C27", "title": "Unkeyed records are spread evenly", "statement": "Records without key are distributed round-robin: over any run of consecutive unkeyed records the numbers sent to any two partitions differ by at most one, and every chosen partition is a valid one.", "quantifier": "every run length and partition count (below counter wrap-around)", "why_tests_cant": "all run lengths and counts", "anchors": ["crates/fluvio/src/producer/partitioning.rs"]}
{"id": "C28", "title": "The producer queues every accepted record exactly once, in order", "statement": "Each record accepted by the producer for a partition is placed in exactly one batch; concatenating the batches in sending order gives the accepted records in acceptance order; rejected records appear nowhere; the position reported for each record is its index in its batch.", "quantifier": "every sequence of records of every size and every interleaving with batch draining", "why_tests_cant": "histories and size combinations unbounded", "anchors": ["crates/fluvio/src/producer/accumulator.rs: push_record, create_and_new_batch", "crates/fluvio/src/producer/memory_batch.rs: push_record", "crates/fluvio/src/producer/partition_producer.rs: flush"]}
{"id": "C29", "title": "Batches respect the configured limits", "statement": "No batch holding more than one record exceeds the batch size limit, no batch exceeds the request size limit, and a record is rejected as too large only if it could not be sent alone.", "quantifier": "every record-size sequence and limits", "why_tests_cant": "boundary combinations of two limits and histories", "anchors": ["crates/fluvio/src/producer/memory_batch.rs: push_record"]}
{"id": "C30", "title": "Relative start offsets resolve inside the readable range", "statement": "Resolving a start position given as n from the beginning, n from the end, or relative to a stored consumer position gives an offset between the log start and the committed end, equal to the requested distance when that lies inside the range; absolute positions are kept unchanged.", "quantifier": "every start/end offsets, consumer position and n", "why_tests_cant": "all integer combinations including boundaries", "anchors": ["crates/fluvio/src/offset.rs: OffsetInner::resolve"]}
{"id": "C31", "title": "A consumer stream pushes the log contiguously", "statement": "For a stream without transformation, the broker sends slices that follow each other without gap or overlap, starts at the requested offset's batch, waits for the consumer's acknowledgement between slices, and resumes when new data is published, for every interleaving of writes and acknowledgements.", "quantifier": "every interleaving of offset publications and consumer acknowledgements", "why_tests_cant": "schedule-dependent state machine", "anchors": ["crates/fluvio-spu/src/services/public/stream_fetch.rs: process, send_back_records"]}
{"id": "C32", "title": "Consumers get no record below the requested offset, none twice and in order", "statement": "Because batches are returned whole, the client drops records below the requested start; what the application sees is exactly the stored records from the start offset on, in order.", "quantifier": "every batch layout and start offset", "why_tests_cant": "all layouts", "anchors": ["crates/fluvio/src/consumer/mod.rs: stream filter, TakeRecords", "crates/fluvio-protocol/src/record/batch.rs: into_consumer_records_iter"]}
{"id": "C33", "title": "Explicit consumer commits are not lost or invented", "statement": "For every sequence of delivered records, commits and flushes, the offset stored on the server never exceeds an offset the application was given and committed, never decreases, and after commit followed by a successful flush equals the last committed offset.", "quantifier": "every interleaving of reads, commits, flushes and background flushes", "why_tests_cant": "concurrent background flush gives unbounded schedules", "anchors": ["crates/fluvio/src/consumer/offset.rs: OffsetLocalStore", "crates/fluvio/src/consumer/stream.rs: OffsetManagement"]}
{"id": "C34", "title": "Automatic reconnection neither skips nor repeats records", "statement": "When the consumer reconnects after an error, the application continues with exactly the records following the last one delivered.", "quantifier": "every disconnect point, any number of partitions", "why_tests_cant": "every crash point over every interleaving of partitions", "anchors": ["crates/fluvio/src/consumer/retry.rs"]}
{"id": "C35", "title": "Incremental metadata changes reconstruct the store", "statement": "A subscriber that knows the metadata store's content at epoch e and applies the reported changes since e (updates and deletions, in any order) obtains exactly the current content; nothing is missed.", "quantifier": "every history of updates, deletions, full syncs and every e", "why_tests_cant": "histories unbounded", "anchors": ["crates/fluvio-stream-model/src/epoch/dual_epoch_map.rs: update, remove, changes_since_with_filter"]}
{"id": "C36", "title": "Watching clients and brokers converge to the controller's metadata", "statement": "If a client or broker applies, in order, every message the controller sends it, then after the last message its local metadata equals the controller's.", "quantifier": "every history of controller changes and every grouping into messages", "why_tests_cant": "histories and groupings unbounded", "anchors": ["crates/fluvio-sc/src/services/public_api/watch.rs: sync_and_send_changes", "crates/fluvio/src/sync/controller.rs: sync_metadata", "crates/fluvio-stream-model/src/store/dual_store.rs: sync_all, apply_changes", "crates/fluvio-spu/src/core/store.rs"]}
{"id": "C37", "title": "Metadata listeners never miss a change", "statement": "A listener that has synced and then waits is woken whenever the store's content has changed since its last sync, for any number of concurrent writers.", "quantifier": "every interleaving of writers and the listener", "why_tests_cant": "schedules", "anchors": ["crates/fluvio-stream-model/src/store/dual_store.rs: apply_changes, sync_all, ChangeListener", "crates/fluvio-stream-model/src/store/event.rs: EventPublisher"]}
{"id": "C38", "title": "Computed replica assignments are valid", "statement": "When the controller assigns replicas for a topic, every partition gets exactly the requested number of replicas on pairwise different SPUs that are online, with the first being the leader; existing complete assignments are kept; otherwise nothing is assigned.", "quantifier": "every set of SPUs, existing load, partition count and replication factor", "why_tests_cant": "all cluster states", "anchors": ["crates/fluvio-sc/src/controllers/scheduler/partition.rs: generate_partitions_without_rack", "crates/fluvio-sc/src/stores/partition/store.rs: find_suitable_spu"]}
{"id": "C39", "title": "Replica placement balances leaders and replicas", "statement": "Each replica is placed on an SPU with the least load among those allowed; on a fresh cluster the numbers of leaders on any two online SPUs differ by at most one.", "quantifier": "every SPU count, partition count", "why_tests_cant": "all cluster sizes", "anchors": ["crates/fluvio-sc/src/stores/partition/store.rs: find_suitable_spu, increase_leaders, increase_followers"]}
{"id": "C40", "title": "Manual replica maps are accepted exactly when well-formed", "statement": "A user-supplied replica map is accepted if and only if it is non-empty, partitions are numbered 0..n-1 in sequence, all partitions have the same non-zero number of replicas, no SPU repeats within a partition and no SPU id is negative.", "quantifier": "every list of partition maps", "why_tests_cant": "all maps", "anchors": ["crates/fluvio-controlplane-metadata/src/topic/spec.rs: PartitionMaps::validate"]}
{"id": "C41", "title": "Leader election picks an online, most caught-up replica", "statement": "When a partition's leader goes offline the controller chooses an online replica of that partition whose end offset is at least as high as that of every other eligible online replica; if none is eligible the partition is marked offline and keeps its leader; other partitions are untouched.", "quantifier": "every partition status, every online set", "why_tests_cant": "all status combinations including ties and unknown offsets", "anchors": ["crates/fluvio-sc/src/controllers/partitions/reducer.rs: force_election_spu_off, force_election_spu_on", "crates/fluvio-sc/src/stores/partition/store.rs: candidate_leader", "crates/fluvio-sc/src/stores/partition/policy.rs: SimplePolicy"]}
{"id": "C42", "title": "Topic life-cycle is sound", "statement": "A topic becomes provisioned only with a complete replica map; an invalid configuration never leads to partitions; repeated evaluation without external change reaches a fixed point; partitions are only created for provisioned topics.", "quantifier": "every spec, cluster state, and sequence of evaluations", "why_tests_cant": "all event sequences", "anchors": ["crates/fluvio-sc/src/controllers/topics/policy.rs: compute_next_state", "crates/fluvio-sc/src/controllers/topics/reducer.rs: update_actions_next_state"]}
{"id": "C43", "title": "Partition creation is idempotent and never replaces existing partitions", "statement": "Reconciling a provisioned topic creates exactly the missing partitions, each with the replicas recorded in the topic's map and its first replica as leader, leaves existing ones untouched, and does nothing when run again.", "quantifier": "every replica map and set of existing partitions", "why_tests_cant": "all store states", "anchors": ["crates/fluvio-sc/src/stores/topic/store.rs: create_new_partitions"]}
{"id": "C44", "title": "Resource names are validated", "statement": "A topic name is accepted if and only if it is non-empty, at most the maximum length, made of lower-case letters, digits and '-', and neither starts nor ends with '-'.", "quantifier": "every string", "why_tests_cant": "all strings", "anchors": ["crates/fluvio-sc-schema/src/shared.rs: validate_resource_name"]}
{"id": "C45", "title": "Responses on a shared connection reach their own requests", "statement": "With any number of concurrent requests and streams on one connection, each response is delivered only to the request (or stream) that carries its correlation id; each request gets at most one response; messages of a stream arrive in server order; unknown ids affect nobody.", "quantifier": "every interleaving of requests, timeouts, stream openings and responses (below id wrap-around)", "why_tests_cant": "interleavings unbounded", "anchors": ["crates/fluvio-socket/src/multiplexing.rs: send_and_receive, create_stream, MultiPlexingResponseDispatcher"]}
{"id": "C46", "title": "Version negotiation picks a version both sides support", "statement": "The API version chosen by a client is supported by both client and server and is the highest such version; if there is none, none is chosen.", "quantifier": "every pair of version ranges and every server table", "why_tests_cant": "all range pairs", "anchors": ["crates/fluvio-socket/src/versioned.rs: lookup_version", "crates/fluvio-protocol/src/link/versions.rs"]}
{"id": "C47", "title": "Versioned messages are understood by a peer speaking the same version", "statement": "For every message type whose fields carry version ranges and every version, decoding at that version the message encoded at that version returns the fields present in that version unchanged and default values for the others, and leaves the following bytes unread.", "quantifier": "every field list, version ranges, version, field values and trailing bytes", "why_tests_cant": "all type shapes and versions", "anchors": ["crates/fluvio-protocol-derive/src/ser.rs", "crates/fluvio-protocol-derive/src/de.rs", "crates/fluvio-protocol-derive/src/ast/prop.rs: version_check_token_stream"]}
{"id": "C48", "title": "Mirrored partitions are prefixes of their source", "statement": "A mirror target's log is at all times a prefix of the source's log and, when messages flow, reaches it; duplicated, delayed or lost sync messages never duplicate, drop or reorder mirrored records.", "quantifier": "every interleaving of source writes, sync messages, acknowledgements and reconnections", "why_tests_cant": "distributed interleavings", "anchors": ["crates/fluvio-spu/src/mirroring/remote/controller.rs", "crates/fluvio-spu/src/mirroring/home/connection.rs", "crates/fluvio-spu/src/replication/leader/replica_state.rs: append_record_set"]}
{"id": "C49", "title": "Partition names identify topic and partition uniquely", "statement": "The textual name built from a topic name and a partition number is parsed back to that topic and number, and two different pairs never share a name, whatever dashes or digits the topic contains.", "quantifier": "every topic string and partition number", "why_tests_cant": "all strings", "anchors": ["crates/fluvio-types/src/partition.rs: create_partition_name, decompose_partition_name"]}
{"id": "C50", "title": "Offset listeners always observe the latest published offset", "statement": "A listener waiting for offset changes returns without waiting if the published value differs from the last one it returned, and once publications stop it has returned the final value; it never blocks forever while unseen data exists.", "quantifier": "every interleaving of publications and listens", "why_tests_cant": "schedules (check-then-wait race)", "anchors": ["crates/fluvio-types/src/event.rs: OffsetPublisher, OffsetChangeListener"]}
{"id": "C51", "title": "Requests framed on a socket are recovered whatever the packet boundaries", "statement": "A sequence of length-prefixed messages written to a connection is recovered as the same sequence however the bytes are split into packets.", "quantifier": "every message sequence and every chunking", "why_tests_cant": "chunkings unbounded", "anchors": ["crates/fluvio-protocol/src/codec/mod.rs: FluvioCodec"]}
{"id": "C52", "title": "SmartModule look-back and filtering keep record offsets", "statement": "When a broker applies a filter to stored batches, every record that passes is delivered with the offset at which it is stored, and the stream resumes after the last processed batch.", "quantifier": "every batch list and every filter", "why_tests_cant": "all filters and layouts", "anchors": ["crates/fluvio-spu/src/smartengine/batch.rs: process_batch", "crates/fluvio-spu/src/services/public/stream_fetch.rs: send_processed_response"]}
{"id": "C53", "title": "Replica assignments are stable and partitions agree with their topic", "statement": "Replicas assigned to a partition are never changed afterwards by the topic controller, and every partition of a topic has the replicas recorded for it in the topic's map.", "quantifier": "every sequence of evaluations, broker changes, partition additions and deletions", "why_tests_cant": "all event sequences", "anchors": ["crates/fluvio-sc/src/controllers/topics/policy.rs: compute_next_state", "crates/fluvio-sc/src/controllers/scheduler/partition.rs: generate_partitions_without_rack", "crates/fluvio-sc/src/controllers/topics/controller.rs: sync_topics"]}
{"id": "C54", "title": "A slow stream does not hold up other requests on the connection", "statement": "On a shared connection a request whose response has arrived completes (and a request without response times out) whatever the consumers of other streams do.", "quantifier": "every interleaving of requests, streams and consumers", "why_tests_cant": "needs a stalled consumer and full queue", "anchors": ["crates/fluvio-socket/src/multiplexing.rs: MultiPlexingResponseDispatcher::send"]}
{"id": "C55", "title": "Messages sent from file slices carry exactly the announced bytes", "statement": "A message whose records are copied from files arrives as one message of the announced length and decodes to the same fields with the bytes of the file range as its records, whatever the number of topics, partitions and slices; following messages on the connection are unaffected.", "quantifier": "every response/request value, version, file contents and packet boundary", "why_tests_cant": "two encoders (write_size/encode and file_encode) must agree for all shapes", "anchors": ["crates/fluvio-protocol/src/store.rs: FileWrite", "crates/fluvio-spu-schema/src/file.rs", "crates/fluvio-spu-schema/src/fetch/response.rs", "crates/fluvio-spu-schema/src/server/stream_fetch.rs", "crates/fluvio-spu-schema/src/produce/request.rs", "crates/fluvio-socket/src/sink.rs: encode_file_slices"]}
{"id": "C56", "title": "A SmartModule is shown exactly the past records it asks for", "statement": "A look-back at the last n records, or at the records of the last d seconds (at most n of them), shows a SmartModule exactly those committed records of the partition, in order, whatever the segment layout and retention.", "quantifier": "every history of the partition, every n and age", "why_tests_cant": "depends on segment boundaries, batch sizes, retention and timestamps", "anchors": ["crates/fluvio-spu/src/smartengine/context.rs: read_records, read_batches_by_age", "crates/fluvio-storage/src/iterators.rs"]}
{"id": "C57", "title": "A chain of SmartModules processes each record through all modules in order", "statement": "The output of a chain for a batch, and the state of its modules afterwards, are those of sending the records through all modules one after the other; batching makes no difference. When a function fails on a record, the output is what the chain makes of the records before it, and the error names that record.", "quantifier": "every chain of filters, maps, filter-maps, array maps and aggregates with any state, every batch", "why_tests_cant": "all chains, states and failure positions", "anchors": ["crates/fluvio-smartengine/src/engine/wasmtime/engine.rs: process", "crates/fluvio-smartengine/src/engine/wasmtime/transforms", "crates/fluvio-smartmodule-derive/src/generator"]}
{"id": "C58", "title": "SmartModules on the producer side store exactly what the chain yields", "statement": "A request whose records pass a chain of SmartModules (or a topic's deduplication filter) stores exactly the chain's output at consecutive offsets with the records' timestamps, or nothing and an error if the chain fails; a failed write has no effect on what later writes store.", "quantifier": "every chain, every sequence of requests and storage failures", "why_tests_cant": "needs stateful filters, failing storage and multi-batch requests", "anchors": ["crates/fluvio-spu/src/services/public/produce_handler.rs: apply_smartmodules", "crates/fluvio-spu/src/replication/leader/replica_state.rs: transform, write_record_set", "crates/fluvio-spu/src/smartengine/batch.rs: process_batch"]}
{"id": "C59", "title": "A consumer stream passes each record through its SmartModules once", "statement": "A stream with (stateful) SmartModules delivers what the chain makes of the records from the start offset on, each record passing the chain exactly once, whatever the sizes of reads and responses.", "quantifier": "every chain that does not fail, every log and sequence of appends and fetches", "why_tests_cant": "all interleavings and response limits", "anchors": ["crates/fluvio-spu/src/services/public/stream_fetch.rs: send_back_records, send_processed_response", "crates/fluvio-spu/src/smartengine/batch.rs: process_batch"]}
{"id": "C60", "title": "Updates of stored metadata are never lost and deleted objects stay deleted", "statement": "An update of an object in the local metadata storage that was computed from some version is applied to exactly that version or refused, for any number of concurrent tasks; an object whose deletion has succeeded does not come back by itself, and an update meant for it does not reach a later object of the same name.", "quantifier": "every number of tasks, every interleaving of their actions", "why_tests_cant": "races between reading and writing", "anchors": ["crates/fluvio-stream-dispatcher/src/metadata/local.rs: apply, update_spec, update_spec_by_key, update_status, delete_item, link_parent, unlink_parent"]}
{"id": "C61", "title": "Deleting a stored object deletes exactly its children", "statement": "In the local metadata storage every object that names a parent has a parent that lists it; deleting an object removes it and all its children and nothing else.", "quantifier": "every sequence of requests", "why_tests_cant": "depends on the history of all objects", "anchors": ["crates/fluvio-stream-dispatcher/src/metadata/local.rs: link_parent, unlink_parent, delete_children, delete_item"]}
{"id": "C62", "title": "The controller's cache converges to the local metadata storage", "statement": "However writers, the queue of changes, periodic listings and the dispatcher's own actions are interleaved, once writing stops the controller's cache becomes equal to the local metadata storage.", "quantifier": "every interleaving of any number of writers with the dispatcher, any length", "why_tests_cant": "races, a full queue and timer", "anchors": ["crates/fluvio-stream-dispatcher/src/metadata/local.rs: send_update, watch_stream_since, retrieve_items", "crates/fluvio-stream-dispatcher/src/dispatcher/metadata.rs", "crates/fluvio-stream-model/src/store/dual_store.rs: sync_all, apply_changes"]}
{"id": "C63", "title": "The local metadata storage survives restarts", "statement": "After a restart or crash at any moment the local metadata storage loads exactly the objects of the operations that reported success.", "quantifier": "every history of operations, failures of the file system, crashes and restarts", "why_tests_cant": "crash points and failing file operations", "anchors": ["crates/fluvio-stream-dispatcher/src/metadata/local.rs: load, flush, delete"]}
{"id": "C64", "title": "A broker leads and follows exactly the replicas it is told to", "statement": "After any sequence of assignments, failures and restarts a broker leads a replica only if it was last told to lead it, follows a replica only as one of its replicas and at the leader it was last told, never does both, and keeps connections exactly to the leaders it follows; and it does lead and follow all that it was told to.", "quantifier": "every sequence of messages, failing file operations and restarts, every number of replicas and brokers", "why_tests_cant": "depends on the whole history of assignments, failures and restarts", "anchors": ["crates/fluvio-spu/src/core/global_context.rs: apply_replica_update, apply_replica_actions, promote, demote_replica, switch_leader_for_follower, remove_replica", "crates/fluvio-spu/src/core/store.rs: sync_all, apply_changes", "crates/fluvio-spu/src/replication/follower/state.rs: add_replica, remove_replica", "crates/fluvio-spu/src/replication/leader/leaders_state.rs: add_leader_replica, promote_follower"]}
{"id": "C65", "title": "A replica's records are kept while it is assigned and gone once it is deleted", "statement": "A broker never loses records of a replica whose removal it was not told of, through changes of leaders, failures and restarts; it has no records of replicas that do not exist, so that a partition created anew starts empty.", "quantifier": "every sequence of messages, writes, failures and restarts", "why_tests_cant": "needs deletion combined with restarts and failures", "anchors": ["crates/fluvio-spu/src/core/global_context.rs: remove_leader_replica, remove_follower_replica, demote_replica, promote", "crates/fluvio-spu/src/storage/mod.rs: create_or_load, remove"]}
{"id": "C66", "title": "A partition disappears only after its deletion was requested", "statement": "The controller removes a partition from its metadata only if the deletion of this partition (not of an earlier one of the same name) was requested, whatever acknowledgements arrive from brokers; and a requested deletion is completed.", "quantifier": "every interleaving of requests, elections, deliveries, acknowledgements and reconnections, any number of brokers", "why_tests_cant": "races between acknowledgements and re-creation", "anchors": ["crates/fluvio-sc/src/services/private_api/private_server.rs: receive_replica_remove", "crates/fluvio-stream-dispatcher/src/dispatcher/metadata.rs: process_ws_action", "crates/fluvio-stream-dispatcher/src/metadata/local.rs: finalize_delete_item", "crates/fluvio-stream-dispatcher/src/metadata/k8.rs: finalize_delete_item", "crates/fluvio-spu/src/core/global_context.rs: remove_leader_replica"]}
{"id": "C67", "title": "Administrative requests are carried out only for those permitted", "statement": "With a policy in force, a request of the controller's public API (create, change, delete, list, watch, connect) is carried out exactly when one of the roles of the client's identity holds a permission for the action on the kind of object, or on this object; a failed decision refuses, read-only mode changes nothing, and permissions read from text are those that were written.", "quantifier": "every policy, set of roles, request and state of the cluster", "why_tests_cant": "quantifies over policies and all kinds of requests", "anchors": ["crates/fluvio-auth/src/policy.rs", "crates/fluvio-sc/src/services/auth/basic.rs", "crates/fluvio-sc/src/services/auth/mod.rs", "crates/fluvio-sc/src/services/public_api/public_server.rs"]}
{"id": "C68", "title": "An administrative request changes exactly the object it names", "statement": "A request that creates, changes or deletes writes at most once and changes exactly the object it names, as asked; success is reported only when it was written (or for a trial, which writes nothing), a refused request writes nothing; creating never replaces an object, ids of SPUs stay unique, system topics, mirrored topics and managed SPUs are protected, and lists have exactly the objects that pass the filters.", "quantifier": "every request, every state of the cluster, every outcome of the write; sequences of requests of any length", "why_tests_cant": "frame conditions over all objects and requests", "anchors": ["crates/fluvio-sc/src/services/public_api/create.rs", "crates/fluvio-sc/src/services/public_api/delete.rs", "crates/fluvio-sc/src/services/public_api/list.rs", "crates/fluvio-sc/src/services/public_api/topic/create.rs", "crates/fluvio-sc/src/services/public_api/topic/delete.rs", "crates/fluvio-sc/src/services/public_api/topic/update/add_partition.rs", "crates/fluvio-sc/src/services/public_api/topic/update/add_mirror.rs", "crates/fluvio-sc/src/services/public_api/spu/register_custom_spus_req.rs", "crates/fluvio-sc/src/services/public_api/smartmodule/create.rs", "crates/fluvio-sc/src/services/public_api/mirror/register.rs"]}
{"id": "C69", "title": "A SmartModule is found, listed and deleted by its qualified name", "statement": "A qualified name (name, group/name or group/name@version) finds at the broker, lists and deletes at the controller exactly the SmartModules it refers to; different packages are filed under different ids, and controller and broker agree on whether a name exists.", "quantifier": "every name, every set of SmartModules", "why_tests_cant": "separators inside names, collisions of ids, order of iteration", "anchors": ["crates/fluvio-controlplane-metadata/src/smartmodule/package.rs: from_qualified_name, is_match, store_id, fqdn", "crates/fluvio-spu/src/core/smartmodule/metadata.rs: find_by_pk_key", "crates/fluvio-sc/src/services/public_api/smartmodule/create.rs", "crates/fluvio-sc/src/services/public_api/smartmodule/delete.rs", "crates/fluvio-sc/src/services/public_api/smartmodule/list.rs"]}
{"id": "C70", "title": "What a leader reports about a partition reaches the controller", "statement": "Once nothing is under way any more, the controller's metadata of a partition show what its leader reported last: the leader and its offsets, those of the followers, the size, the base offset and that the partition is online; and everything under way does arrive.", "quantifier": "every interleaving of reports of any partitions, turns of the sending loop, deliveries, actions of other controllers and writes of the dispatcher", "why_tests_cant": "needs particular interleavings of several tasks on two machines", "anchors": ["crates/fluvio-spu/src/control_plane/message_sink.rs", "crates/fluvio-spu/src/control_plane/dispatcher.rs: send_lrs_status_back_to_sc, send_partition_status_back_to_sc", "crates/fluvio-sc/src/services/private_api/private_server.rs: receive_lrs_update, receive_partition_status_update", "crates/fluvio-sc/src/stores/partition/store.rs: merge"]}
{"id": "C71", "title": "A broker is shown as online exactly while it is connected", "statement": "When the controller has nothing left to do, every broker is shown as online if it has an open connection and as offline otherwise; a connection is given up for silence exactly when nothing was heard on it for 90 seconds; and the controller does come to rest.", "quantifier": "every history of connections, messages, silence and changes of the brokers' metadata, in every interleaving of the controller's tasks", "why_tests_cant": "needs races between connections, timers and the controller's loop", "anchors": ["crates/fluvio-sc/src/services/private_api/private_server.rs: respond, dispatch_loop", "crates/fluvio-sc/src/stores/spu/mod.rs", "crates/fluvio-sc/src/controllers/spus/controller.rs", "crates/fluvio-types/src/event.rs"]}
{"id": "C72", "title": "Handling status messages never blocks the controller", "statement": "The tasks that handle the brokers' status messages, and the dispatcher that writes the metadata, never wait for each other in a circle: every message is handled and every action carried out, however many messages arrive and however long they are.", "quantifier": "every number and length of messages, every schedule of the tasks, every fill level of the channel", "why_tests_cant": "the deadlock needs a long message and a full channel at the same time", "anchors": ["crates/fluvio-sc/src/services/private_api/private_server.rs: receive_lrs_update, receive_replica_remove, receive_mirror_update, receive_partition_status_update", "crates/fluvio-stream-dispatcher/src/store/mod.rs: send_action", "crates/fluvio-stream-dispatcher/src/dispatcher/metadata.rs: process_ws_action", "crates/fluvio-stream-model/src/store/dual_store.rs: apply_changes"]}
{"id": "C73", "title": "Administrative requests arrive as they were sent", "statement": "A request to create, list, watch, delete or change an object of any kind, sent in any version the controller accepts, is received as exactly what that version can express of it, as a request about that kind and no other; what follows in the stream is untouched, and a truncated request is refused.", "quantifier": "every kind of object, every request, every accepted version", "why_tests_cant": "cross-version encodings of all object types; old clients are not part of the tests", "anchors": ["crates/fluvio-sc-schema/src/objects/metadata.rs: TypeBuffer", "crates/fluvio-sc-schema/src/objects/create.rs: CreateTypeBuffer", "crates/fluvio-sc-schema/src/objects/classic.rs", "crates/fluvio-sc-schema/src/objects/list.rs", "crates/fluvio-sc-schema/src/objects/watch.rs", "crates/fluvio-sc-schema/src/objects/delete.rs", "crates/fluvio-sc-schema/src/objects/update.rs", "crates/fluvio-controlplane-metadata/src/topic/spec.rs", "crates/fluvio-controlplane-metadata/src/smartmodule/spec.rs"]}
{"id": "C74", "title": "No accepted record is left in the producer's queue", "statement": "Every record that `send` accepted leaves the producer's queue without any further call, after the linger time at the latest once the task gets to it, and waiting for its metadata ends: its batch is handed a response, or its channel is dropped, exactly once.", "quantifier": "every interleaving of pushes, flushes, failing requests, timers and steps of the partitions' tasks", "why_tests_cant": "lost wake-ups need particular interleavings of counted events, timers and locks", "anchors": ["crates/fluvio/src/producer/partition_producer.rs: run, flush", "crates/fluvio/src/producer/event.rs", "crates/fluvio/src/producer/accumulator.rs: push_record, create_and_new_batch", "crates/fluvio/src/producer/record.rs: base_offset"]}
{"id": "C75", "title": "A flush returns only after everything accepted before was sent", "statement": "When `flush` returns successfully, every record accepted before the call, in every partition, has been delivered: the request with it was answered (at-least-once) or put on the connection (at-most-once).", "quantifier": "every interleaving of any number of concurrent calls of `send` and `flush`, any number of partitions, any failures", "why_tests_cant": "needs concurrent and dropped calls, failures in some partitions, and the order of hash maps", "anchors": ["crates/fluvio/src/producer/mod.rs: flush_all_batches, push_record", "crates/fluvio/src/producer/partition_producer.rs: run, flush", "crates/fluvio/src/producer/event.rs"]}
{"id": "C76", "title": "Topics of a remote cluster follow its home cluster", "statement": "Once the controller of a remote cluster has handled a message from its home cluster, the topics there that are mirrored from the home cluster are exactly the ones the home cluster mirrors to it, with the leader, direction and settings they have at the home cluster. A mirrored topic is never deleted while the home cluster has it, and the remote cluster's own topics are never changed.", "quantifier": "for all states of both clusters, and for all runs: any interleaving of messages, lost connections, delayed actions of the store, changes at home clusters and changes made by people", "why_tests_cant": "Tests synchronize one topic once; they cannot cover a message taken while topics, brokers and people's changes interleave, nor what a message omits for a moment.", "anchors": ["crates/fluvio-sc/src/controllers/mirroring/controller.rs: inner_loop, delete_not_received_topics, sync_topic", "crates/fluvio-sc/src/services/public_api/mirroring/connect.rs: sync_and_send_topics"]}
{"id": "C77", "title": "A home cluster shares topics only with the remote clusters they are for", "statement": "A message of a home cluster to a remote cluster lists only topics with a partition for that remote cluster, and only remote clusters that are registered and permitted get messages.", "quantifier": "for all states of the home cluster and all runs with changing registrations and permissions", "why_tests_cant": "Tests connect one permitted remote cluster; they do not try failing checks or registrations removed while connected.", "anchors": ["crates/fluvio-sc/src/services/public_api/mirroring/connect.rs: dispatch_loop, sync_and_send_topics, get_remote_mirror"]}
{"id": "C78", "title": "A client's connections go to the right broker, are shared, and are replaced when they end", "statement": "A socket or stream that a client gets for a partition runs over a connection to the broker that led the partition, according to the client's metadata, when the call began, made to the address the metadata gave for it (the local one only if asked for). There is at most one open connection to each broker. What is handed out is open, a connection that has ended is replaced by the next call, and calls for one broker do not wait for another.", "quantifier": "for all runs: any interleaving of calls, attempts to connect, connections that end, changes of metadata and abandoned calls", "why_tests_cant": "Tests use one broker with a connection that stays up; they cannot cover a connection ending between any two calls or an attempt to connect that hangs.", "anchors": ["crates/fluvio/src/spu.rs: connect_to_leader, create_serial_socket_from_leader, create_serial_socket, create_stream_with_version", "crates/fluvio-spu/src/core/leader_client.rs", "crates/fluvio-socket/src/stream_socket.rs: is_stale"]}
{"id": "C79", "title": "Ids of brokers are unique, groups of brokers included", "statement": "No two registered brokers have the same id. A group of brokers takes the ids from min_id on and is started only if none of them belongs to a broker of somebody else; a custom broker is registered only under a free id.", "quantifier": "for all runs of the two controllers of groups and brokers, interleaved with people defining, changing and deleting groups and custom brokers", "why_tests_cant": "Tests create one group in an empty cluster; they do not cover overlapping groups handled in every order.", "anchors": ["crates/fluvio-sc/src/k8/controllers/spg_stateful.rs: sync_spg_to_statefulset", "crates/fluvio-sc/src/k8/controllers/spu_controller.rs: sync_spu", "crates/fluvio-sc/src/stores/spu/mod.rs: is_conflict", "crates/fluvio-sc/src/services/public_api/spu/register_custom_spus_req.rs: validate_custom_spu_request"]}
{"id": "C80", "title": "A broker of a group is who the controller registered", "statement": "The process in a pod of a group computes for itself the id under which the controller has registered it; brokers of groups have different names and, within a group, different ids; and the registered private address is the address of the pod.", "quantifier": "for all names of groups, all first ids (i32) and all positions (u16)", "why_tests_cant": "Tests use the group main, whose name is written into the code, and small ids.", "anchors": ["crates/fluvio-sc/src/k8/objects/spg_group.rs: as_spu, compute_spu_id, as_statefulset", "crates/fluvio-spu/src/config/cli.rs: find_spu_id_from_env"]}
{"id": "C81", "title": "Commands on profiles of the client change what they say and nothing else", "statement": "The current profile exists and its cluster is known. Adding a profile makes it current with the given address; renaming keeps its cluster and whether it is current; deleting a profile or an unused cluster does not change the others; no command changes what another profile stands for.", "quantifier": "for all configurations and all sequences of commands, interrupted ones included", "why_tests_cant": "Tests run single commands on one sample file; they do not cover sequences of commands or interruptions.", "anchors": ["crates/fluvio/src/config/config.rs: Config, ConfigFile", "crates/fluvio-cli/src/profile/: add, rename, switch, delete_profile, delete_cluster", "crates/fluvio-types/src/config_file.rs: save_to"]}
{"id": "C82", "title": "Delivery at most once and at least once, in order", "statement": "With delivery at most once no batch is stored twice. With delivery at least once every batch taken from the queue is stored, or its sending is reported as failed. A batch reported as sent is stored. The batches of a producer are stored in the order of its queue: none appears for the first time after a later one.", "quantifier": "for all runs of a producer's task with timeouts, retries, broken and replaced connections, and a broker that answers in time or not", "why_tests_cant": "Tests run against a broker that answers; they do not cover responses that come after the retry, or a connection replaced while requests are still waiting on the old one.", "anchors": ["crates/fluvio/src/producer/partition_producer.rs: flush, connect_spu_with_reconnect, send_to_socket", "crates/fluvio-socket/src/versioned.rs: send_async, send_receive_with_retry, is_retryable", "crates/fluvio-socket/src/multiplexing.rs: send_and_receive, set_stale"]}
{"id": "C83", "title": "The settings of a topic are the limits of its storage", "statement": "A topic is created with a retention, a segment size, a maximal partition size, a compression and a deduplication filter, on the command line or in a file. The topic is accepted exactly if the settings are within the documented limits (10 seconds, 1 KiB, 2 KiB and at least a segment), and then every replica of every partition stores records with exactly these settings, and with the documented defaults where none is given. The retention shown is the one enforced.", "quantifier": "all settings of 64 bits, given on the command line or in a file", "why_tests_cant": "Settings pass five descriptions and several integer widths before they reach storage; tests use small values, for which all widths agree.", "anchors": ["crates/fluvio-controlplane-metadata/src/topic/config.rs: From<TopicConfig>", "crates/fluvio-controlplane-metadata/src/topic/spec.rs: validate_config, retention_secs", "crates/fluvio-cli/src/client/topic/create.rs: construct", "crates/fluvio-storage/src/config.rs: update_from_replica", "crates/fluvio-controlplane-metadata/src/partition/spec.rs: from_replicas", "crates/fluvio-controlplane/src/replica.rs: From<PartitionMetadata>"]}
{"id": "C84", "title": "The compression a topic requires is the compression of its log", "statement": "If a topic requires a compression algorithm, every batch stored for a produce request has it, whatever producers send and whatever SmartModules or deduplication filter the batches pass; batches of another or unknown codec are refused and leave nothing behind. A producer whose configuration does not contradict the topic can be created and its batches are never refused for their compression. Compression is transparent: SmartModules and consumers see the same records for every codec.", "quantifier": "all sequences of requests with any batches, any SmartModules, any deduplication filter, any failures of the storage, and any codecs which undo their own compression", "why_tests_cant": "The check sits between two transformations which build new batches with headers of their own; tests use one codec, one batch and no filter.", "anchors": ["crates/fluvio-spu/src/services/public/produce_handler.rs: handle_produce_topic, apply_smartmodules, validate_records", "crates/fluvio-spu/src/smartengine/batch.rs: process_batch, set_compression", "crates/fluvio-spu/src/smartengine/produce_batch.rs: ProduceBatchIterator", "crates/fluvio-spu/src/replication/leader/replica_state.rs: write_record_set, transform", "crates/fluvio/src/producer/mod.rs: determine_producer_compression_algo", "crates/fluvio-protocol/src/record/batch.rs: get_compression, set_compression"]}
{"id": "C85", "title": "A consumer reads exactly the partitions asked for", "statement": "A consumer of a topic reads the partitions asked for (those listed, all if none is listed, or that of a mirror that is named), each once, or fails as a whole. In whatever order the partitions' streams have something, what the application gets of a partition is what that partition's stream yields, in its order, nothing lost and nothing twice, and the merged stream ends only when all have ended. When offset_flush succeeds, the server holds for every partition the highest offset that had been got when offset_commit was last called.", "quantifier": "all topics and requests for partitions, all streams, all interleavings of records, commits, flushes (refused, failed or abandoned for any of the partitions) and answers of the servers", "why_tests_cant": "Tests of merged streams use a few records that are all ready at once; flushes of several partitions of which one fails do not occur in them.", "anchors": ["crates/fluvio/src/fluvio.rs: consumer_with_config_inner", "crates/fluvio/src/consumer/stream.rs: MultiplePartitionConsumerStream, SinglePartitionConsumerStream", "crates/fluvio/src/consumer/offset.rs: OffsetLocalStore", "crates/fluvio/src/consumer/config.rs: ConsumerConfigExtBuilder"]}
{"id": "C86", "title": "A consumer that keeps reading keeps being served", "statement": "The broker sends the next response of a stream only once the previous one is acknowledged. Whatever the application does (reading, committing offsets, flushing them with or without waiting), as long as the connection lives the acknowledgement of every response that came in reaches the broker, so that the stream can go on; at most one acknowledgement is under way.", "quantifier": "all strategies of offset management, all interleavings of responses, records, commits, flushes, abandoned calls and the task that sends messages to the broker", "why_tests_cant": "The channel of 100 messages is never full in tests, which read few records with the default flush period.", "anchors": ["crates/fluvio/src/consumer/mod.rs: inner_stream_batches_with_config", "crates/fluvio/src/consumer/offset.rs: flush, try_flush", "crates/fluvio/src/consumer/stream.rs: run_auto_flush"]}
{"id": "C87", "title": "Acknowledgements and commits reach the stream they name", "statement": "The streams of one connection get the ids 1, 2, 3, ... An acknowledgement changes exactly the stream of its own connection that has the id it names, and an offset committed through a stream is stored for that stream's partition and consumer id. With an id that the connection does not have, or a stream without consumer id, the request is refused and nothing changes. (Fewer than 2^32 streams on a connection.)", "quantifier": "all histories of connections opening streams, acknowledging, committing and closing, on all replicas", "why_tests_cant": "Tests have one stream per connection, where any id does.", "anchors": ["crates/fluvio-spu/src/services/public/stream_fetch.rs: publishers", "crates/fluvio-spu/src/services/public/offset_update.rs: handle_offset_update", "crates/fluvio-spu/src/services/public/consumer_handler.rs: handle_update"]}
{"id": "C88", "title": "Streams end when their broker stops leading the partition, and only then", "statement": "When a broker stops leading a partition (the topic is deleted, or another broker is elected), every stream that reads from it is told and ends; a stream is told that its topic was deleted only if it was, and streams of other partitions are not affected.", "quantifier": "all histories of streams being opened and acknowledged on all connections, replicas being led, deleted and demoted, and all interleavings with the tasks of the streams", "why_tests_cant": "The notice shares a variable with the acknowledgements; the order in which the two write it depends on the scheduler.", "anchors": ["crates/fluvio-spu/src/replication/leader/replica_state.rs: register_offset_publisher, signal_topic_deleted", "crates/fluvio-spu/src/core/global_context.rs: remove_leader_replica, demote_replica", "crates/fluvio-spu/src/services/public/stream_fetch.rs: start, process", "crates/fluvio-types/src/event.rs: OffsetPublisher, OffsetChangeListener"]}
{"id": "C89", "title": "The host and a SmartModule understand each other", "statement": "What the host encodes for a SmartModule instance at the version of the instance (records, base offset, base timestamp, accumulator) is exactly what the generated code of the guest works on, and the records, the accumulator and the error it leaves are exactly what the host gets; a chain of modules with encoding and decoding between them computes what the chain computes on the records themselves, and an error names the record that failed.", "quantifier": "all versions, user functions, memories, accumulators, batches and chains", "why_tests_cant": "Tests run a few sample modules at one version with small inputs; version-dependent fields, every kind of result and large error texts are not combined.", "anchors": ["crates/fluvio-smartmodule/src/input.rs: SmartModuleInput", "crates/fluvio-smartmodule/src/output.rs: SmartModuleOutput", "crates/fluvio-protocol/src/link/smartmodule.rs: SmartModuleTransformRuntimeError", "crates/fluvio-smartengine/src/engine/wasmtime/instance.rs: write_input, read_output", "crates/fluvio-smartmodule-derive/src/generator/transform.rs: generate_transform"]}
{"id": "C90", "title": "Requests to a broker and its answers arrive as they were sent", "statement": "Whatever request a client sends to a broker, of any kind and at any version, the broker decodes a request of that kind with the same header and the same contents, as far as the version has the fields (a produce timeout in whole milliseconds); the announced length is the length sent. The answer, encoded for the request the broker decoded, reaches the client as the answer given, under the number of the request. Every error code arrives as that error with its details, only success is sent as zero, and unknown request keys and error numbers are refused. Texts are shorter than 32 KiB, lists than 2^31, record sets below 2 GiB and without a schema.", "quantifier": "all requests, answers and error codes, all versions, all headers, all bytes that follow", "why_tests_cant": "There are ten kinds of requests, more than sixty error codes and a different layout for almost each of the 25 versions; tests encode a few values at the current version.", "anchors": ["crates/fluvio-spu-schema/src/server/api.rs: decode_with_header", "crates/fluvio-spu-schema/src/produce/request.rs: ProduceRequest::encode", "crates/fluvio-spu-schema/src/server/stream_fetch.rs: StreamFetchRequest", "crates/fluvio-spu-schema/src/server/smartmodule.rs: SmartModuleInvocation", "crates/fluvio-protocol/src/link/error_code.rs: ErrorCode", "crates/fluvio-protocol/src/api/request.rs: RequestMessage", "crates/fluvio-protocol/src/api/response.rs: ResponseMessage"]}
{"id": "C91", "title": "What controller, brokers and mirrors tell each other arrives as it was sent", "statement": "Every message between the controller and a broker, between two brokers and between mirrored clusters is received by the service it is for as a message of the same kind with the same contents: the brokers, replicas, SmartModules and mirrors a broker is told about, what brokers report about replicas, partitions and mirrors, batches and offsets of replication. A message of unknown kind is refused. The answer to a message reaches its sender unchanged.", "quantifier": "all 19 kinds of messages, all contents within the limits of the length prefixes, all that follows on the connection", "why_tests_cant": "Tests exchange single messages between sender and receiver of one kind with default contents, not every kind with every field at the version it is sent at.", "anchors": ["crates/fluvio-controlplane/src/sc_api/api.rs: InternalScRequest::decode_with_header", "crates/fluvio-controlplane/src/spu_api/api.rs: InternalSpuRequest::decode_with_header", "crates/fluvio-controlplane/src/requests/request.rs: ControlPlaneRequest", "crates/fluvio-controlplane/src/replica.rs: Replica", "crates/fluvio-spu/src/services/internal/api.rs: SpuPeerRequest::decode_with_header", "crates/fluvio-spu/src/replication/follower/peer_api.rs: FollowerPeerRequest", "crates/fluvio-spu/src/mirroring/remote/remote_api.rs: RemoteMirrorRequest"]}
{"id": "C92", "title": "Followers that stay connected catch up with their leader, and everything is committed", "statement": "Whatever producers, followers and connections did before: once nothing more happens from outside, the brokers come to rest after finitely many steps, in whatever order their tasks run and their messages arrive. Then every connected follower has the log and the watermark of the leader, and if all followers are connected, the watermark is at the end of the log everywhere. No follower has to wait for a timer, and no update is forgotten because a position was read before it changed.", "quantifier": "all logs and positions at the start, all numbers of followers, all interleavings of tasks and messages, all sequences of produced batches, connects, disconnects and timers", "why_tests_cant": "Tests wait for fixed times on two or three brokers with one sequence of records; a lost notification shows only in rare interleavings and is covered up by the timer.", "anchors": ["crates/fluvio-spu/src/replication/leader/connection.rs: FollowerHandler::inner_loop", "crates/fluvio-spu/src/replication/leader/connection.rs: update_from_leaders", "crates/fluvio-spu/src/replication/leader/spu.rs: FollowerSpuPendingUpdates", "crates/fluvio-spu/src/replication/leader/replica_state.rs: update_states_from_followers", "crates/fluvio-spu/src/replication/leader/replica_state.rs: notify_followers", "crates/fluvio-spu/src/replication/leader/replica_state.rs: follower_updates", "crates/fluvio-spu/src/replication/follower/controller.rs: sync_with_leader", "crates/fluvio-spu/src/replication/follower/state.rs: update_from_leader"]}
{"id": "C93", "title": "A hub package that verifies is the package that was signed", "statement": "A package signed with a key verifies with that key and with no other, and signing does not change what can be read from it. A package that verifies with a key contains every file the holder of the key signed, with the contents it had then; nobody without the key can make a package that verifies. Several people can sign a package, and each signature can be verified. Every file named in the package's metadata can be read from the assembled package.", "quantifier": "all packages, files, contents, keys, signature schemes and serialisation formats; all orders of entries and of the signature table", "why_tests_cant": "The tests sign one package from a fixture and verify it with the right and a wrong key; nobody tries a package with a forged or empty signature list, duplicate entries, mixed signatures or two signers.", "anchors": ["crates/fluvio-hub-util/src/package.rs: package_sign", "crates/fluvio-hub-util/src/package.rs: package_getsigs_with_readio", "crates/fluvio-hub-util/src/package.rs: package_verify_with_readio", "crates/fluvio-hub-util/src/package.rs: package_verify_sig_from_readio", "crates/fluvio-hub-util/src/package.rs: package_get_topfile_with_readio", "crates/fluvio-hub-util/src/package.rs: package_assemble"]}
{"id": "C94", "title": "A mirror that stays connected catches up with its source", "statement": "As long as nothing happens from outside, source and target of a mirrored partition come to rest after finitely many steps, whichever cluster is the source and whatever happened before (producers, retention, timers, broken connections, restarts, records lost at the target). When they are at rest they are connected, and the log of the target is exactly the log of the source. On the way the source's log does not change, and the target loses nothing.", "quantifier": "all logs, batch sizes, runs of produced records, restarts, disconnections and timers; both directions of mirroring; all interleavings of listener, reports and sending", "why_tests_cant": "The tests mirror a handful of records between two running clusters and wait. No test looks at lost wake-ups between the listener and the reports, at stale knowledge after reconnecting, or at endless exchanges that do not make progress.", "anchors": ["crates/fluvio-spu/src/mirroring/remote/controller.rs: sync_mirror_loop", "crates/fluvio-spu/src/mirroring/remote/controller.rs: sync_mirror_as_target", "crates/fluvio-spu/src/mirroring/remote/controller.rs: update_from_home_as_source", "crates/fluvio-spu/src/mirroring/remote/controller.rs: geneate_remote_record_as_source", "crates/fluvio-spu/src/mirroring/home/connection.rs: respond_as_source", "crates/fluvio-spu/src/mirroring/home/connection.rs: respond_as_target", "crates/fluvio-spu/src/mirroring/home/connection.rs: update_from_remote", "crates/fluvio-spu/src/mirroring/home/connection.rs: generate_home_records_as_source"]}
{"id": "C95", "title": "A package id means the same package however it is written", "statement": "An id of a package in the package index that is written and read again means the same version of the same package: same registry, group, name and version or tag. Ids of different packages are written differently, and the uid is the same exactly for ids of the same registry, group and name. A text that is accepted is one of the documented forms, and the registry, group, name and version of the id are those in the text.", "quantifier": "all ids, texts, registries, groups, names, versions and tags; both kinds of ids", "why_tests_cant": "The tests parse a dozen well-formed ids. Nobody tries registries that are no URL, tags that look like versions, empty parts or repeated slashes.", "anchors": ["crates/fluvio-package-index/src/package_id.rs: PackageId::from_str", "crates/fluvio-package-index/src/package_id.rs: Display for PackageId", "crates/fluvio-package-index/src/package_id.rs: Registry::try_from_segments", "crates/fluvio-package-index/src/package_id.rs: uid", "crates/fluvio-package-index/src/version.rs: PackageVersion::from_str", "crates/fluvio-package-index/src/tags.rs: TagName::from_str", "crates/fluvio-package-index/src/http.rs: request_release_download"]}
{"id": "C96", "title": "The latest release of a package is the newest one published for the target", "statement": "A package has each published version once, oldest first, with exactly the targets it was published for. The latest release for a target is one that was published for it, is not withdrawn, is stable unless pre-releases are asked for, and no newer such release exists; if there is none, none was published.", "quantifier": "all sequences of published releases, all versions with their order, all targets", "why_tests_cant": "The tests ask one package with four releases, already in order, for its latest release. None has a withdrawn release or releases that are not in order.", "anchors": ["crates/fluvio-package-index/src/package.rs: add_release", "crates/fluvio-package-index/src/package.rs: latest_release", "crates/fluvio-package-index/src/package.rs: latest_release_for_target", "crates/fluvio-package-index/src/package.rs: releases_for_target"]}
{"id": "C97", "title": "The public address of a broker on Kubernetes leads to that broker", "statement": "The public address that the controller registers for a broker leads to the pod that was started with the broker's id, and to no other, whatever services were applied, created by others, deleted and given addresses before; and so does the address for use inside the cluster. A pass of the controller over the groups ends, and after it every broker of every group has a service.", "quantifier": "all histories of services, groups, brokers, templates of services, annotations, addresses given by Kubernetes", "why_tests_cant": "The code needs a Kubernetes cluster; its tests check the object for one broker of one group.", "anchors": ["crates/fluvio-sc/src/k8/controllers/spu_service.rs: sync_group_to_spu_services", "crates/fluvio-sc/src/k8/controllers/spu_service.rs: apply_spu_load_balancers", "crates/fluvio-sc/src/k8/controllers/spu_controller.rs: get_ingress_from_service", "crates/fluvio-sc/src/k8/controllers/spu_controller.rs: apply_spu_changes", "crates/fluvio-sc/src/k8/objects/spu_k8_config.rs: apply_service", "crates/fluvio-controlplane-metadata/src/spu/spec.rs: IngressPort"]}
{"id": "C98", "title": "A request about many partitions is answered for each of them", "statement": "The response to a fetch request or to a request for offsets has the topics and partitions of the request, in the same order. Each partition is answered as it was at some moment while the request was handled: an error if the broker does not lead it, otherwise its watermark and start of log, and the batches from the offset asked for, within the limits of the request; for a consumer the offset behind the one stored.", "quantifier": "all requests, all histories of the broker, everything that happens between two partitions", "why_tests_cant": "Tests of the broker fetch from one partition of one topic while nothing else happens.", "anchors": ["crates/fluvio-spu/src/services/public/fetch_handler.rs: handle_fetch_request", "crates/fluvio-spu/src/services/public/fetch_handler.rs: handle_fetch_partition", "crates/fluvio-spu/src/services/public/offset_request.rs: handle_offset_request", "crates/fluvio-spu-schema/src/fetch/request.rs: FetchPartition"]}
{"id": "C99", "title": "fluvio produce sends what it reads", "statement": "The command hands each line of its input to the producer as one record, in order and unchanged, with the key given or, with a separator, with what stands before its first occurrence as key; with --raw the whole input is one record. It reports success only if every record was handed over and, unless at most once was asked for, acknowledged; and it does if nothing fails. With --mirror the records go to the partition of the topic for that cluster.", "quantifier": "all inputs from file or standard input, all keys and separators, all failures of the producer, all topics", "why_tests_cant": "The command has no unit tests; the end-to-end tests send a few well-formed lines and never a line that is no text, a missing separator, an unreadable file or two mirror topics.", "anchors": ["crates/fluvio-cli/src/client/produce/mod.rs: produce_lines", "crates/fluvio-cli/src/client/produce/mod.rs: producer_stdin", "crates/fluvio-cli/src/client/produce/mod.rs: produce_key_value", "crates/fluvio-cli/src/client/produce/mod.rs: process_raw_file", "crates/fluvio-cli-common/src/user_input.rs: UserInputRecords::try_from", "crates/fluvio-controlplane-metadata/src/partition/spec.rs: accept_traffic"]}
{"id": "C100", "title": "fluvio consume prints the records asked for", "statement": "Beginning where the options say, the command prints every record of the stream once and in order, with --key-value behind its key, until the stream ends or fails, the user stops it, or the offset given with --end was printed; records behind that offset are not printed, and all before it are.", "quantifier": "all streams of records of any partitions, all options and formats", "why_tests_cant": "Unit tests check the text about the start; no test has --end with several partitions, or an end that is not in the stream.", "anchors": ["crates/fluvio-cli/src/client/consume/mod.rs: consume_records_stream", "crates/fluvio-cli/src/client/consume/mod.rs: print_record", "crates/fluvio-cli/src/client/consume/mod.rs: calculate_offset", "crates/fluvio-cli/src/client/consume/mod.rs: consume_records"]}
{"id": "C101", "title": "Secrets get into the configuration of a connector, and only where they belong", "statement": "Names of secrets are ASCII identifiers. Rendering the configuration of a connector succeeds exactly if every secret declared has a value in the store and every value used is a secret declared; the result is the template with the values in their places, whatever other secrets there are, and has the lines of the template. A file of lines name=value gives each name its value. A secret in a configuration is read as it was written, and its value is not logged.", "quantifier": "all names, stores, files, templates and values", "why_tests_cant": "Unit tests render one template and read one file; none has values with line breaks or blanks, configurations without version, or reads a written reference.", "anchors": ["crates/fluvio-connector-package/src/secret.rs: FileSecretStore::read", "crates/fluvio-connector-package/src/secret.rs: SecretString", "crates/fluvio-connector-package/src/render/mod.rs: render_config_str", "crates/fluvio-connector-package/src/render/context.rs: extract_context_values", "crates/fluvio-connector-package/src/config/mod.rs: SecretName::validate"]}
{"id": "C102", "title": "A connector consumes what its configuration says", "statement": "Partitions and start of the consumer of a connector are read as they were written. The consumer of a connector reads exactly the partitions set, from the position set, with the consumer id, strategy, flush period and size set, and with documented defaults for what is not set; it is refused exactly if it starts at a negative offset or saves offsets without a consumer id. The topic is created, as configured, exactly if there is none.", "quantifier": "all configurations and all topics on the server", "why_tests_cant": "Unit tests parse a few files; consumer_stream_from_config needs a cluster and is not tested.", "anchors": ["crates/fluvio-connector-package/src/config/mod.rs: ConsumerPartitionConfig", "crates/fluvio-connector-package/src/config/mod.rs: OffsetConfig", "crates/fluvio-connector-common/src/consumer.rs: consumer_stream_from_config", "crates/fluvio-connector-common/src/lib.rs: ensure_topic_exists", "crates/fluvio/src/consumer/config.rs: ConsumerConfigExtBuilder::build"]}
{"id": "C103", "title": "The files of a partition are found again after a stop at any moment", "statement": "The name of a file of a segment is its base offset as 20 digits with an extension; the offset is read back from it, and no two segments share a name. In whatever order the directory is listed and whatever else is in it, the segments are those whose log files are there. Whenever the broker is stopped, also between two operations of a roll over, of a removal or of a start, it starts again; its segments follow each other to the end of what was written, and have every record that was written except those of the segments being removed from the beginning. Nothing is left of a segment that was removed.", "quantifier": "all offsets, directory listings and sequences of appends, roll overs, removals, stops and starts", "why_tests_cant": "Tests reopen replicas that were closed regularly; none stops within roll_over or Segment::remove, and file names are tested with one offset.", "anchors": ["crates/fluvio-storage/src/util.rs: generate_file_name", "crates/fluvio-storage/src/util.rs: log_path_get_offset", "crates/fluvio-storage/src/segments.rs: SharedSegments::from_dir", "crates/fluvio-storage/src/replica.rs: create_or_load_inner", "crates/fluvio-storage/src/replica.rs: roll_over", "crates/fluvio-storage/src/segment.rs: Segment::remove"]}
{"id": "C104", "title": "A topic with deduplication stores each value once within its bounds and loses none", "statement": "The filter of a topic with deduplication is given the topic's count, and lets a value through exactly if it is not among the last count values it has let through. As long as no write fails, and whenever the leader is started again, every value offered is in the log, in the order of the offers, and nothing else is. A value is not stored again while it is among the last count values stored, also after a restart.", "quantifier": "all bounds, values and sequences of requests, commits and restarts", "why_tests_cant": "Tests send a few records to a leader that runs on; none restarts a leader with uncommitted records, with records dropped before, or with an age, and none lets a write fail.", "anchors": ["crates/fluvio-spu/src/smartengine/mod.rs: dedup_to_invocation", "crates/fluvio-spu/src/replication/leader/replica_state.rs: write_record_set", "crates/fluvio-spu/src/replication/leader/replica_state.rs: Uninit::init", "crates/fluvio-spu/src/smartengine/context.rs: lookback_last_iterator", "crates/fluvio-spu/src/smartengine/context.rs: lookback_age_iterator", "smartmodule/examples/filter_hashset/src/lib.rs: BoundedHashSet::insert"]}
{"id": "C105", "title": "A connection to the controller has the permissions of its certificate", "statement": "With a policy, the permissions of a connection are those of the roles bound to the name in the client's certificate: whoever has no certificate of the authority is not let in, and nobody gets other roles by what they send or by where they connect. A request to create or list is carried out only if one of these roles holds the permission.", "quantifier": "all options of the controller, bindings of scopes, policies, clients with or without certificates, addresses and first messages", "why_tests_cant": "Tests use the authenticator with one certificate and two sets of scopes, and no adversarial first message; that no client and no combination of options escapes is a statement about all of them.", "anchors": ["crates/fluvio-auth/src/x509/authenticator.rs: X509Authenticator::authenticate, ScopeBindings::get_scopes", "crates/fluvio-auth/src/x509/identity.rs: X509Identity::create_from_connection", "crates/fluvio-auth/src/x509/request.rs: AuthRequest", "crates/fluvio-sc/src/cli.rs: as_sc_config, try_build_tls_acceptor", "crates/fluvio-sc/src/start.rs: proxy::start_proxy", "crates/fluvio-sc/src/init.rs: pub_server::start", "crates/fluvio-spu/src/start.rs: create_services, proxy::start_proxy"]}
{"id": "C106", "title": "A hexadecimal dump shows the record", "statement": "What consumers print of a binary record determines the record: every byte is shown in its row and column with its number, digits and character, all lines are equally long, a last row that is not full is filled up, and a sequence of dumps can be read back without mistaking one record for another.", "quantifier": "all byte sequences shorter than 4 GiB, all sequences of them and whatever text follows", "why_tests_cant": "Two tests compare the dumps of a text of 175 bytes and of eight bytes; rows that end before, at and after the gap between the groups, and that dumps of different records differ, are statements about all records.", "anchors": ["crates/fluvio-extension-common/src/common/hex_dump.rs: bytes_to_hex_dump, byte_to_string, hex_dump_separator", "crates/fluvio-cli/src/client/consume/record_format.rs: format_binary_record"]}
{"id": "C107", "title": "The active version is the one the settings name", "statement": "After any number of installations, updates, switches and removals by the version manager, each completed or with a failed download, the binaries are those of the directory of the version which the settings name, every version's directory can be opened and holds what its manifest lists; wherever a command is stopped, the directories of other versions are as before; after an update nothing is left to update.", "quantifier": "all sequences of commands, all package sets, all states of the file system, every moment at which a command may be stopped", "why_tests_cant": "The tests of the version manager install, switch and uninstall in an empty home directory one after the other; they never stop a command, install over an older version, or update to a package set with new artifacts.", "anchors": ["crates/fluvio-version-manager/src/common/version_directory.rs: open, set_active, scan_versions_manifests", "crates/fluvio-version-manager/src/common/settings.rs: open, set_active, save", "crates/fluvio-version-manager/src/common/version_installer.rs: install, update, store_artifacts, store_manifest", "crates/fluvio-version-manager/src/command/update.rs: process", "crates/fluvio-version-manager/src/command/uninstall.rs: process", "crates/fluvio-version-manager/src/command/switch.rs: process", "crates/fluvio-hub-util/src/fvm/mod.rs: Ord for Channel"]}
{"id": "C108", "title": "A SmartModule is confined to its memory and its fuel", "statement": "Whatever a SmartModule does, a call changes no memory of the process other than the module's own, which stays within the limit of the store; its output is what it gave during that very call and lies in its memory; and the call ends when its fuel is used up.", "quantifier": "all modules (any functions of the state that say what they do and return), all inputs, states, limits and sizes of memory", "why_tests_cant": "The tests run example modules whose allocators are those of the library; a module with another allocator, with pointers beyond 2 GiB or an output that is not in its memory never occurs.", "anchors": ["crates/fluvio-smartengine/src/engine/wasmtime/memory.rs: copy_memory_to_instance", "crates/fluvio-smartengine/src/engine/wasmtime/instance.rs: write_input, read_output, copy_memory_from, instantiate", "crates/fluvio-smartengine/src/engine/wasmtime/limiter.rs: memory_growing", "crates/fluvio-smartengine/src/engine/wasmtime/transforms/simple_transform.rs: process", "crates/fluvio-smartengine/src/engine/wasmtime/state.rs: top_up_fuel"]}
{"id": "C109", "title": "What SmartModules use is counted once", "statement": "Each call of a SmartModule adds one call, the bytes of its input, the records of its output, its error and the fuel and time it took to its counters, and what is exported for a name is what was counted for the modules of that name: nothing is lost and nothing exported twice.", "quantifier": "all modules, inputs, states and ways in which calls end; all chains and all sequences of calls and exports", "why_tests_cant": "The tests assert that some fuel was used and compare the number of calls for one module; they do not compare the fuel with what a module costs, and use neither aggregates nor modules with several names.", "anchors": ["crates/fluvio-smartengine/src/engine/metrics.rs: SmartModuleChainMetrics", "crates/fluvio-smartengine/src/engine/wasmtime/engine.rs: metrics_export, metrics_reset, look_back", "crates/fluvio-smartengine/src/engine/wasmtime/instance.rs: process, metrics_time_elapsed", "crates/fluvio-smartengine/src/engine/wasmtime/transforms/simple_transform.rs: process", "crates/fluvio-smartengine/src/engine/wasmtime/transforms/aggregate.rs: process", "crates/fluvio-smartengine/src/engine/wasmtime/state.rs: get_used_fuel, top_up_fuel"]}
{"id": "C110", "title": "A cluster on the local machine is started once, stopped completely and resumed as it was", "statement": "Whatever commands people give, no two controllers and no two processes of one broker run on the machine, and brokers have numbers and ports of their own. A shutdown ends everything a start has started and nothing else, and keeps the data; a resume brings the same components back; only a confirmed deletion removes data, and then those of the cluster.", "quantifier": "all sequences of start, resume, shutdown, delete and upgrade with any options, interleaved with other processes and writes; all outcomes of starts; all numbers of brokers up to 5653", "why_tests_cant": "The tests start one cluster with one or two brokers in the default directory and delete it; they do not look at process tables, do not let a start fail half way, and use no other data directory.", "anchors": ["crates/fluvio-cluster/src/start/local.rs: install, install_only, launch_sc, launch_spu_read_only", "crates/fluvio-cluster/src/runtime/local/spu.rs: create_spu_absolute, start", "crates/fluvio-cluster/src/process/mod.rs: kill_local_processes, delete_data_dir", "crates/fluvio-cluster/src/cli/resume.rs: process, resume", "crates/fluvio-cluster/src/cli/shutdown.rs: process", "crates/fluvio-cluster/src/cli/delete.rs: process", "crates/fluvio-cluster/src/cli/upgrade.rs: upgrade_local_cluster", "crates/fluvio-cluster/src/check/mod.rs: LocalClusterCheck, CleanLocalClusterCheck, LocalClusterVersionCheck"]}
{"id": "C111", "title": "Partitions of mirrored topics are paired one to one", "statement": "A partition of a mirrored topic at the home cluster exchanges records only with the partition of the same topic at the one remote cluster it is for: the remote cluster connects to the broker that leads this partition, by one task, the broker finds exactly this partition whatever else it leads, and one of the two sides is the source and the other the target.", "quantifier": "all sequences of creating (from a file or empty), extending and deleting mirrored topics, registering and moving brokers, assigning partitions, messages between the controllers, evaluations, starts and restarts at the remote cluster; all orders of the broker's hash map", "why_tests_cant": "The parts are in five components of two clusters and are tested with one topic and one partition; names listed twice, address changes and deletions after pairing are not tested.", "anchors": ["crates/fluvio-controlplane-metadata/src/topic/spec.rs: HomeMirrorConfig::from_simple", "crates/fluvio-sc/src/services/public_api/topic/update/add_mirror.rs: handle_add_mirror", "crates/fluvio-sc/src/services/public_api/mirroring/connect.rs: sync_and_send_topics", "crates/fluvio-sc/src/controllers/mirroring/controller.rs: sync_topic", "crates/fluvio-sc/src/stores/topic/store.rs: create_new_partitions", "crates/fluvio-spu/src/replication/leader/leaders_state.rs: find_mirror_home_leader", "crates/fluvio-spu/src/mirroring/remote/controller.rs: dispatch_loop"]}
{"id": "C112", "title": "Checks before a start are made in order and change nothing when it is refused", "statement": "The checks before a cluster is started are each made once, after the checks of what they require and only if these passed; the run succeeds exactly if all passed or could be fixed, so that a machine on which every check passes is accepted; nothing is changed without leave to fix or when the start is refused.", "quantifier": "all lists of checks with any requirements, all machines, with and without fixing", "why_tests_cant": "Tests compare one pair of checks; sorting with a comparison that is no order, and what a failed run leaves behind, are not tested.", "anchors": ["crates/fluvio-cluster/src/check/mod.rs: ClusterChecker::run", "crates/fluvio-cluster/src/check/mod.rs: check_compare", "crates/fluvio-cluster/src/start/k8.rs: preflight_check", "crates/fluvio-cluster/src/cli/check.rs"]}
{"id": "C113", "title": "Commands run on the current release channel", "statement": "The frontend installed as fluvio runs each command, with its arguments unchanged, in the binary of the current release channel, and passes on the name, the extensions directory and the image tag strategy of that channel. The current channel is always one of the configuration. Creating, deleting and switching change only the channel named, in the configuration given, with the files of that channel only; a command that fails changes nothing.", "quantifier": "all configurations, disks, command lines and environments, all histories of calls", "why_tests_cant": "The tests of the channel tools check one helper function; histories of create, delete, switch and ordinary commands and failing downloads are not tested.", "anchors": ["crates/fluvio-channel/src/lib.rs: FluvioChannelConfig", "crates/fluvio-channel-cli/src/bin/main.rs: main", "crates/fluvio-channel-cli/src/cli/create.rs: process", "crates/fluvio-channel-cli/src/cli/delete.rs: process", "crates/fluvio-channel-cli/src/cli/switch.rs: process"]}
{"id": "C114", "title": "The identity used for the hub is kept and is private", "statement": "Access to the hub uses one signing identity: a profile that has keys is used as it is, a new key pair is made only if there is none and is then stored, loading again gives the same identity, also after an interruption; private and public key belong together and survive being written and read; a new hub id keeps the keys; the private key can be read by its owner only. The remote is that of the flag, the environment, the login, or the default, in this order, and the token sent is that of the login.", "quantifier": "all directories of profiles, all histories of loads and changes of the hub id with interruptions, all keys", "why_tests_cant": "The tests write and read one key and parse two token outputs; loading of profiles and interruptions are not tested, and no test looks at the mode of the key file.", "anchors": ["crates/fluvio-hub-util/src/hubaccess.rs: HubAccess::load_path", "crates/fluvio-hub-util/src/keymgmt.rs: Keypair", "crates/fluvio-hub-protocol/src/infinyon_tok.rs: read_access_token", "crates/smartmodule-development-kit/src/hub.rs: set_hubid"]}
{"id": "C115", "title": "Local connectors are tracked from start to shutdown", "statement": "The index of local deployments has one entry for each connector that runs: names are unique, a start under a taken name is refused and starts nothing, each running connector is in the index and can be shut down, a shutdown ends the process of that connector and no other and removes its entry and its temporary directory and nothing else, and the list tells for each entry whether its connector runs.", "quantifier": "all histories of starts, shutdowns, processes that end or begin and losses of the index file", "why_tests_cant": "The tests cover the index file alone, with a stub for the processes; the order of starting the process and taking the name, missing directories and reused process ids are not tested.", "anchors": ["crates/cdk/src/deploy.rs: deploy_local", "crates/cdk/src/deploy.rs: local_index", "crates/fluvio-connector-deployer/src/local.rs: deploy_local"]}
