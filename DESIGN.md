# Formal model of fluvio: design

The subject is the source tree of `infinyon/fluvio` at the pinned commit (read as text in `/repo`,
never built).  The model is written in Lean 4 (4.33.0, no Mathlib import), one module per subsystem under
`lean/Verif/`.  All paths below are relative to `/repo/crates/`.

## 1. Method

* The code is transcribed, function by function, into small total functions over `List`, `Nat`,
  `Int`, `BitVec`, `Option`, `Except`.  `&mut self` becomes "returns the new value".  A Rust panic or
  an `Err` becomes an explicit error value.  Asynchronous code becomes a step relation, with one step
  per region executed under a lock (or between two `await`s that matter), so that a theorem about all
  reachable states is a theorem about all schedules.
* Each definition cites the file and the lines it transcribes, and says where it simplifies.
* Specifications are separate definitions that use only lists, arithmetic and logic, not the model's
  helpers.
* When the code does not satisfy a property, the negation is proved on a concrete witness
  (`..._violated_...`), and what does hold is proved under an explicit extra hypothesis with the suffix
  `_partial`.  The doc comment of a partial theorem says what is missing.
* `Verif/<Area>/*.lean` holds models and lemmas, `Verif/Props/*.lean` the property theorems together
  with non-vacuity examples, `Verif/Audit.lean` prints the axioms of every claimed theorem.
* The theorems are tested against wrong programs: `seeded/LOG.jsonl` lists the edits of the model that
  were tried, the claim each one breaks and the theorems that then no longer check.

## 2. Trusted base

* Lean's kernel, and of the axioms only the standard ones `propext`, `Classical.choice`, `Quot.sound`;
  section 7 lists which theorem uses which.  No axioms are added, no `sorry`, no `native_decide`, no
  `bv_decide`.
* The transcription from Rust to Lean, done by hand, is trusted; line citations make it checkable.
* The environment is modelled by its documented behaviour, or left abstract:
  * files: a write appends its bytes or fails after a prefix of them, a crash leaves a prefix of what was
    being written, memory-mapped index writes are not torn, flushed data stays;
  * `async-lock`, `event-listener` (`listen` registers at once, `notify(MAX)` wakes all registered),
    `async-channel`, `tokio::select!` (any ready branch may run), sequentially consistent atomics;
  * TCP: bytes arrive in order, in packets of any size, until the connection breaks; the replication and
    mirroring models allow more (any message ever sent may arrive at any time, again, or never);
  * the compression libraries (decompression undoes compression) and the key hash are parameters;
    `crc32c` is its definition;
  * versions of SmartModules (`semver`, `lenient_semver`) are a type with a printing and a parsing function;
    where needed, parsing undoes printing and printed versions have no `/` and no `@`;
  * `HashMap`s are lists with distinct keys and no theorem depends on their order, except where the code's
    result does (then every order is considered).
* Integers have the width of the code where overflow matters (varints, correlation ids, load counters,
  partition counter, scores, positions); offsets (`i64`) and byte counts are unbounded elsewhere, i.e. a
  partition is assumed to hold fewer than 2^63 records and bytes.

## 3. Modelled code

| modules | code |
|---|---|
| `Wire.Varint`, `VarintExact` | `fluvio-protocol/src/core/varint.rs` |
| `Wire.Codec`, `Universe`, `PrefixSafe`, `Prim` | `fluvio-protocol/src/core/{encoder,decoder,bytebuf}.rs`, code generated by `fluvio-protocol-derive/src/{ser,de}.rs` including version ranges |
| `Wire.Record`, `Batch`, `RawBatch`, `Crc` | `fluvio-protocol/src/record/{data,batch}.rs` |
| `Storage.Index`, `Segment`, `Replica`, `Recovery`, `Checkpoint`, `Retention` | `fluvio-storage/src/{index,mut_index,records,mut_records,segment,segments,replica,cleaner,validator,batch,iterators,checkpoint}.rs`, `fluvio-spu/src/storage/mod.rs` |
| `Storage.Reader` | the fetch loop of a consumer: `fluvio/src/consumer/mod.rs` |
| `Replication.Hw`, `Protocol`, `Ack`, `Failover`, `Store` | `fluvio-spu/src/replication/{leader/replica_state,leader/connection,follower/state,follower/controller}.rs`, `wait_for_acks` in `services/public/produce_handler.rs`, `promote_follower`/`demote_replica` |
| `Mirror.Protocol` | `fluvio-spu/src/mirroring/{remote/controller,home/connection}.rs`, `append_record_set` |
| `Producer.*` | `fluvio/src/producer/{mod,partitioning,memory_batch,accumulator,partition_producer}.rs`; the produce handler |
| `Client.Offset`, `Commit`, `Retry` | `fluvio/src/offset.rs`, `fluvio/src/consumer/{mod,offset,stream,retry}.rs` |
| `Stream.Server`, `Filter` | `fluvio-spu/src/services/public/{stream_fetch,offset_update}.rs`, `smartengine/batch.rs`, `fluvio/src/consumer/mod.rs` |
| `Kv.*` | `fluvio-kv-storage/src/{lib,log}.rs`, `fluvio-spu/src/kv/consumer.rs`, `replication/leader/kv.rs`, `services/public/consumer_handler.rs` |
| `Meta.*` | `fluvio-stream-model/src/{epoch/dual_epoch_map,store/dual_store,store/event,store/metadata}.rs`, `fluvio-sc/src/services/{public_api/watch,private_api/private_server}.rs`, `fluvio/src/sync/{controller,store}.rs`, `fluvio-spu/src/core/store.rs` |
| `Meta.Local*` | `fluvio-stream-dispatcher/src/{metadata/local,dispatcher/metadata}.rs` |
| `Sc.*` | `fluvio-sc/src/controllers/{topics,partitions,scheduler}`, `stores/{partition,topic}`, `fluvio-controlplane-metadata/src/{topic,partition}/{spec,status}.rs`, `fluvio-sc-schema/src/shared.rs` |
| `Broker.*` | `fluvio-spu/src/core/{global_context,store}.rs`, `replication/leader/leaders_state.rs`, `replication/follower/{state,controller}.rs` (replica maps and controllers), `fluvio-sc/src/services/private_api/private_server.rs` (`receive_replica_remove`), `fluvio-stream-dispatcher/src/metadata/{local,k8}.rs` (`finalize_delete_item`) |
| `Smart.LookBack` | `fluvio-spu/src/smartengine/context.rs`, `fluvio-storage/src/iterators.rs` |
| `Smart.{Chain,Batch,Produce,Stream}` | `fluvio-smartengine/src/engine/wasmtime/{engine,instance}.rs`, `transforms/`, `fluvio-smartmodule-derive/src/generator/`, `fluvio-spu/src/smartengine/batch.rs`, `produce_handler.rs` (`apply_smartmodules`), `replica_state.rs` (`transform`), `stream_fetch.rs` |
| `Net.*` | `fluvio-socket/src/{multiplexing,versioned,sink}.rs`, `fluvio-protocol/src/{codec/mod,store,api/request,api/response}.rs`, the `FileWrite` implementations in `fluvio-spu-schema` and `fluvio-spu` |
| `Misc.*` | `fluvio-types/src/{event,partition}.rs`, `fluvio-protocol/src/record/replica.rs` |
| `Admin.*` | `fluvio-auth/src/policy.rs`, `fluvio-sc/src/services/auth/{basic,mod}.rs`, `fluvio-sc/src/services/public_api/**`, `fluvio-controlplane-metadata/src/smartmodule/package.rs`, `fluvio-spu/src/core/smartmodule/metadata.rs` |
| `Sc.{Reports,Health,Blocking}` | `fluvio-spu/src/control_plane/{message_sink,dispatcher}.rs` (reports), `fluvio-sc/src/services/private_api/private_server.rs`, `fluvio-sc/src/stores/spu/mod.rs`, `fluvio-sc/src/controllers/spus/controller.rs`, locks and channel of `fluvio-stream-dispatcher` |
| `Admin.{Schema,Objects}` | `fluvio-sc-schema/src/objects/*.rs`, the specs in `fluvio-controlplane-metadata/src/*/spec.rs` as protocol types (semantic versions as texts) |
| `Producer.{Task,TaskInv,PoolInv,FlushInv,FlushReturn}` | `fluvio/src/producer/{mod,partition_producer,event,accumulator}.rs` (tasks, events, `flush`) |
| `Mirror.Topics` | fluvio-sc/src/controllers/mirroring/controller.rs, services/public_api/mirroring/connect.rs |
| `Client.Pool` | fluvio/src/spu.rs, fluvio-spu/src/core/leader_client.rs |
| `Sc.SpuGroups` | fluvio-sc/src/k8/objects/spg_group.rs, k8/controllers/{spg_stateful,spu_controller}.rs, stores/spu/mod.rs, fluvio-spu/src/config/cli.rs (id from the environment) |
| `Client.Profile` | fluvio/src/config/config.rs, fluvio-cli/src/profile/ |
| `Producer.Delivery` | fluvio/src/producer/partition_producer.rs (sending), fluvio-socket/src/{versioned,multiplexing}.rs (retries, staleness) |
| `Sc.TopicSettings`, `Smart.Compress` | settings of a topic on their way to storage; compression from the producer to the log |
| `Client.Partitions` | selection and merging of partitions by a consumer, commits and flushes of several partitions |
| `Client.Acks` | the client's channel for acknowledgements and flushes (consumer/mod.rs, offset.rs, stream.rs) |
| `Stream.Sessions` | streams of a broker's connections, acknowledgements, commits, the notice that a topic was deleted (stream_fetch.rs, offset_update.rs, consumer_handler.rs, replica_state.rs, global_context.rs) |
| `Smart.Wire` | `fluvio-smartmodule/src/{input,output}.rs`, `fluvio-protocol/src/link/smartmodule.rs`, `fluvio-smartengine/src/engine/wasmtime/{engine,instance}.rs`, `transforms/*.rs`, `fluvio-smartmodule-derive/src/generator/*.rs` |
| `Storage.IndexRoom` | when the index of a segment can be opened again (`fluvio-storage/src/{index,mut_index}.rs`) |
| `Net.ErrorCode` | `fluvio-protocol/src/link/error_code.rs` |
| `Net.Spu`, `SpuLemmas` | `fluvio-spu-schema/src/{produce,fetch,server}`, `fluvio-protocol/src/{api/{request,response},link/versions}.rs` |
| `Net.Cluster`, `ClusterLemmas` | `fluvio-controlplane/src/**`, `fluvio-spu/src/{services/internal,replication/{leader,follower},mirroring}/*` (message types) |
| `Replication.Progress`, `ProgressInv`, `ProgressRun`, `ProgressEnd`, `ProgressStuck` | `fluvio-spu/src/replication/leader/{connection,spu,replica_state}.rs`, `follower/{controller,state}.rs` (what causes messages) |
| `Hub.Package`, `PackageLemmas` | `fluvio-hub-util/src/package.rs` |
| `Mirror.Progress`, `ProgressInv`, `ProgressEnd`, `ProgressStuck` | `fluvio-spu/src/mirroring/{remote/controller.rs,home/connection.rs}` |
| `Hub.PackageId` | `fluvio-package-index/src/{package_id.rs,version.rs,tags.rs,http.rs}` |
| `Hub.Releases` | `fluvio-package-index/src/package.rs` |
| `Sc.Addresses` | `fluvio-sc/src/k8/controllers/{spu_service.rs,spu_controller.rs}`, `k8/objects/{spu_k8_config,spu_service,spg_group}.rs` |
| `Broker.FetchMany` | `fluvio-spu/src/services/public/{fetch_handler.rs,offset_request.rs}` |
| `Cli.Produce` | `fluvio-cli/src/client/produce/mod.rs`, `fluvio-cli-common/src/user_input.rs` |
| `Cli.Consume` | `fluvio-cli/src/client/consume/mod.rs` |
| `Connector.Secret` | `fluvio-connector-package/src/{secret,config/mod}.rs`, `src/render/*.rs` |
| `Connector.Consumer` | `fluvio-connector-package/src/config/mod.rs`, `fluvio-connector-common/src/{consumer,lib}.rs` |
| `Storage.Files` | `fluvio-storage/src/{util,segments,segment,replica}.rs` (names, creation, roll over, removal, loading) |
| `Smart.Dedup` | `fluvio-spu/src/smartengine/{mod,context}.rs`, `replication/leader/replica_state.rs` (deduplication), `smartmodule/examples/filter_hashset` |
| `Admin.Identity` | fluvio-auth/src/x509/{authenticator,identity,request}.rs; fluvio-sc/src/{cli,start,init}.rs (TLS, scopes, policy); fluvio-spu/src/start.rs |
| `Cli.HexDump` | fluvio-extension-common/src/common/hex_dump.rs; fluvio-cli/src/client/consume/record_format.rs (format_binary_record) |
| `Fvm.Model` | fluvio-version-manager/src/common/{version_directory,settings,manifest,version_installer}.rs, command/{install,update,switch,uninstall,list}.rs; fluvio-hub-util/src/fvm/mod.rs |
| `Smart.Host`, `Smart.Metrics` | fluvio-smartengine/src/engine/{metrics.rs, wasmtime/{memory,instance,state,limiter,engine,init,look_back}.rs, wasmtime/transforms/*.rs} (memory, fuel, counters) |
| `Cli.LocalCluster` | fluvio-cluster/src/{start/local.rs, runtime/local/{sc,spu}.rs, process/mod.rs, delete.rs, cli/{shutdown,resume,delete,upgrade}.rs, check/mod.rs:688-772}, fluvio-cli/src/lib.rs:329-385, fluvio-extension-common/src/installation.rs (local clusters) |
| `Mirror.Pairing` | fluvio-controlplane-metadata/src/topic/spec.rs (`HomeMirrorConfig`), fluvio-cli/src/client/topic/create.rs (mirror options), fluvio-sc: public_api/topic/update/add_mirror.rs, mirroring/connect.rs, controllers/mirroring/controller.rs, stores/topic/store.rs; fluvio-spu: leaders_state.rs, replica_state.rs (start of mirror controllers), mirroring/remote/controller.rs (`dispatch_loop`, `create_socket_to_home`, `send_initial_request`) |
| `Cli.ClusterCheck` | fluvio-cluster/src/check/mod.rs, start/{k8,local}.rs (`preflight_check`), cli/{check,resume}.rs (lists of checks) |
| `Cli.Channel` | fluvio-channel/src/lib.rs, fluvio-channel-cli/src/lib.rs, cli/{create,delete,switch}.rs, bin/main.rs |
| `Hub.Access` | fluvio-hub-util/src/{hubaccess,keymgmt}.rs, fluvio-hub-protocol/src/infinyon_tok.rs, smartmodule-development-kit/src/hub.rs (`set_hubid`) |
| `Connector.Deploy` | cdk/src/deploy.rs, fluvio-connector-deployer/src/{lib,local}.rs |

## 4. Code that is not modelled

* Of the command lines, installers and packaging only the files named in section 3 are modelled.  Not modelled
  are the rest of `fluvio-cli*`, `fluvio-extension-common`, `fluvio-cluster`, `fluvio-package-index`,
  `fluvio-hub-*`, `fluvio-channel*` and `fluvio-connector-*`, the rest of `smartmodule-development-kit` and of `cdk`, and all of
  `fluvio-run` and `cargo-builder`; tests and benchmarks (`fluvio-test*`,
  `fluvio-benchmark`); `fluvio-smartmodule*` except the generated loops.
* `fluvio-smartengine`: the WebAssembly engine itself (a user function is any function of its memory and the
  record, which may return an error or trap), instantiation, WASI; in `Stream.Filter` a SmartModule
  is a total filter.
* `fluvio-sc`: the Kubernetes operator and start-up code other than that of section 3; the TLS library and
  `flv-tls-proxy`, which are described in `Admin.Identity`.
* `fluvio-spu`: start-up, metrics, configuration, SmartModule storage.
* `fluvio` client: connection set-up, TLS and profiles, the admin API.
* Within the modelled files: logging, metrics, tracing, time-outs other than those named in the modules,
  and resource exhaustion (memory, file descriptors).  Task cancellation is modelled where the code's
  callers can drop a future (`Net.Mux`, `Client.Commit`).

## 5. Findings

Where the code at this commit does not do what the property says.  Each is a theorem about the model;
the witness is a concrete run.

| theorem | what happens |
|---|---|
| `C02_violated_wrong_value` | **C02 (violated).** The 64-bit value `2^31` is encoded as one byte which is read back as `-1`. |
| `C02_violated_nontermination` | **C02 (violated).** There is a 64-bit value for which the encoder never stops. |
| `C03_long_string_misread` | **C03 (why the limits are needed).** The encoder writes any string, but a string of 2^15 to 2^16-1 bytes is read back as the empty string, its bytes being left in the stream (the length is written as an unsigned and read as a signed 16-bit number). |
| `C04_violated_bytebuf_panic` | **C04 (violated).** A truncated byte buffer makes the decoder panic. |
| `C04_violated_batch_accepted` | **C04 (violated).** A batch cut inside its records and decoded on its own is accepted, with fewer record bytes than were written. |
| `C04_violated_record_data` | **C04 (violated).** The payload type of keys and values, decoded on its own, accepts a truncated encoding (inside a record the record's length protects it, `C04_record`). |
| `C06_schema_id_dropped` | **C06 (finding).** A consumer's conversion of a raw batch forgets the schema id although the header still announces one. |
| `C07_size_off_by_schema` | Exactly by how much the announced size is wrong: 4 bytes for each batch with a schema id. |
| `C07_violated_size` | **C07 (violated).** For a batch with a schema id the announced size is not the number of bytes written. |
| `C08_not_verified_on_read` | **C08 (finding).** Nothing checks the checksum on reading: a batch with a corrupted payload is decoded without complaint. |
| `C09_violated_partial_write` | The claim "not at all when rejected" is false: if the file write of the second batch of a record set fails, the write is reported as failed but the first batch has been stored and has taken offsets. |
| `C09_trusts_header` | A batch whose header announces fewer or more records than it carries (never produced by this client, but not checked by the server) breaks the numbering: here the next write is numbered 10. |
| `C09_schema_batch_panics` | A batch with a schema id announces four bytes less than it encodes to, so that writing it to any segment with room for it fails an assertion. |
| `C10_violated_at_most_once` | The claim fails with at-most-once delivery: the broker refuses the batch, the producer is told offset 0, where another record is. |
| `C10_violated_smartmodule` | It fails when the request carries a SmartModule that drops records: here the first of two is dropped; the producer is told offsets 0 and 1 for them, offset 0 has the second one. |
| `C10_violated_dropped` | If the SmartModule drops all records of a batch, the producer is told that they are stored from offset 0 on (produce_handler.rs:148-149, 421-426: the answer for the partition has no error and its default offset), where there is nothing, or a record of somebody else. |
| `C12_violated` | The claim is false for the active segment: offsets 0–3 are stored, the watermark is 1 (nothing but offset 0 is committed), and a committed read from offset 2 returns the uncommitted batch 2–3. (The length of the slice is computed as `u32` difference, which wraps in a release build; unlike `records.rs:173-182`, `mut_records.rs:214-217` does not check it.) |
| `C13_violated_truncated_batch` | The claim fails for the client when a byte limit (here larger than every batch) cuts a batch: the records behind the cut are never delivered, and the client goes on behind them. |
| `C14_violated_index_full` | The claim fails when the offset index of the active segment is full: the partition cannot be opened any more, although its log is intact. |
| `C16_violated_one_round` | "afterwards is within the limit" is false for one round: the number of segments to remove is computed as if every segment were full. |
| `C16_violated_after_restart` | After a restart the closed segments are not counted, so the limit is not enforced. |
| `C16_violated_removes_too_much` | Because index bytes are counted, a segment can occupy more than `segment_max_bytes`, and more segments than necessary are removed: removing one segment of the three would have been enough. |
| `C17_violated_hole` | If a file has a newer modification time than its successor (for example after being touched), the successor is removed first and leaves a hole: offset 3 lies between log start 0 and log end 13 but cannot be read. |
| `C18_violated_log_start` | Writes that are not yet replicated (watermark stays 0), size-based retention, restart: log start 3, watermark 0. |
| `C18_violated_unreadable` | A checkpoint file that is not exactly eight bytes long: the watermark is reset to 0. |
| `C18_violated_checkpoint_skipped` | Start with 10 in the file but only 7 recovered, watermark reset to 7, then it grows to 10 again: the file is left at 9 although the writer has caught up. |
| `C19_violated_cut_batch` | A limit that cuts the second batch, although it is larger than each batch: the follower stores the part it got as a complete batch. Its end offset then equals the leader's, so the rest is never sent; the last record is committed once the follower reports, and lost if the follower becomes leader. |
| `C22_violated_cut_batch` | The same cut makes an acknowledgement wrong. A leader with one follower wrote two batches; the follower got them cut by one byte and reports its end; the leader merges the report, the watermark passes the write, and the producer waiting with committed isolation is told success, although the last acknowledged record is not on the follower and, both ends being equal, no message will bring it. |
| `C23_violated_diverged` | The old leader's log need not converge: a record only it had stays in its log, at the offset of a record that the new leader commits, and no continuation without another election ever changes that. |
| `C23_violated_stuck` | The old leader need not be accepted at all: it knows a higher watermark than the new leader, whose watermark had not been updated when the old leader died, so every report of it is rejected as "newer". From then on nothing is ever sent to it and nothing is ever committed, as long as neither of the two is restarted. |
| `C24_violated_failed_delete` | **C24 does not hold as stated**: a delete whose append fails removes the value from the running store (log.rs:41-46: the map first); after a restart the value is back. |
| `C24_violated_retention` | **C24 does not hold as stated**: retention may remove the segment with the last checkpoint (the partition's retention period is seven days, fluvio-sc/src/controllers/topics/controller.rs:205-236, and a checkpoint is only written after a hundred changes); then the store can never be loaded again, and everything in it, including what was just put, is lost. |
| `C24_violated_old_watermark` | **C24 does not hold as stated** when the watermark file is older than the log at a restart: the log is read from the watermark (kv.rs:70-72), so newer entries are ignored. |
| `C25_violated_stored_but_rejected` | **C25 does not hold as stated**: when the periodic flush after a stored commit fails, the commit is answered with an error (consumer.rs:125) although its offset is what is read from then on, even after a restart. |
| `C25_violated_deleted_offset_returns` | **C25 does not hold as stated**: a deletion whose append failed hides the offset, so that deleting the partition's offsets, reported as successful, skips it; after a restart the offset is back. |
| `C27_violated_wraparound` | Across the wrap-around of the counter the evenness is lost: with three partitions, three records in a row go to partitions 0, 0 and 1. |
| `C29_violated_rejects_sendable` | The claim fails for the last part: a record that fits alone is rejected because of the batch that happens to wait, and accepted when the queue is empty. |
| `C30_violated_inverted` | The claim fails if the log starts behind its committed end (size and age limits remove closed segments without looking at the watermark): every relative position panics in the client. |
| `C30_violated_inverted_log` | Such a log: three batches are written, none is committed yet, and the size limit removes the first two. |
| `C31_violated_late_notification` | C31 fails when the notification of an acknowledgement comes late: the listener returns the value once more, and the slice is sent a second time before the first one is acknowledged. The application receives records twice. |
| `C31_late_notification_happens` | A listener may return the same value twice: it takes the new value in its second check and is then woken by the notification that belonged to it. |
| `C31_violated_starvation` | A batch larger than the byte limit stops the stream for good: nothing is delivered, nothing is acknowledged, and new records do not help. |
| `C32_violated_take_records` | C32 fails for streams that are not continuous when the start lies inside a batch: the records before the start are counted, and the stream ends early. (Start 1, stable offset 4: record 3 is missing.) |
| `C33_violated_auto` | The claim fails with the automatic strategy: a record is delivered (and so committed) while the flush period is over, the message to the server is marked as flushed when it is queued, so that `offset_commit` and `offset_flush` then succeed at once although the server has nothing; it may even refuse the message later, and no flush will send it again. |
| `C33_violated_reconnect` | It also fails when the stream reconnects between commit and flush: the new stream has its own store of offsets, in which nothing is committed, so the flush succeeds without sending anything. |
| `C33_violated_earlier_start` | The stored offset decreases when a consumer with a stored offset reads from an earlier position: neither the client nor the server compares the two. |
| `C34_violated_partitions` | The claim fails for two partitions: only one position is remembered and all partitions are reopened there. Here partition 0 has delivered offset 2, partition 1 nothing; after the reconnection partition 1 goes on at offset 3 and its first three records are never delivered. |
| `C34_violated_partitions_twice` | … and here partition 1 delivers its records twice. |
| `C34_violated_before_first` | Before the first record a relative position is resolved again: a consumer started at the end misses what was committed while it was disconnected. |
| `C35_violated_recreate` | The claim fails for an object that is deleted and created again between two reports: it is in the store, it is reported as updated and as deleted, and the controller sends updates first (watch.rs:199-217). |
| `C36_violated_recreate` | The claim fails for a topic that is deleted and created again between two reports: it is lost at the client although everything has been processed. |
| `C36_violated_empty_sync` | The claim fails when everything has been deleted and the report is a full one: nothing is sent to a broker (private_server.rs:394), and a client ignores it (controller.rs:149); both keep what they had. |
| `C37_violated_concurrent_writers` | The claim fails with two writers: the second publishes before the first, which then takes the published epoch back to one that the listener has already seen. The listener sleeps, everything is announced, and the second write is not seen. |
| `C39_violated_wrap` | **C39 is violated** for very large loads: the counters are 16 bits wide and wrap in release builds (store.rs:143, 191), so an SPU that leads 65536 partitions is taken for an idle one. |
| `C41_violated_ahead` | The score of a replica is its lag cast to 16 unsigned bits, so a replica *ahead* of the recorded leader scores worst. After the reports above broker 0 comes back and broker 1 fails: both 0 (end offset 110) and 2 (108) are eligible, and 2 is elected. |
| `C41_violated_out_of_storage` | A partition that is out of storage when its leader fails and that has no eligible replica stays readable in the controller's view, and is therefore also skipped when a caught-up replica comes online later. |
| `C41_violated_batch` | Changes of several brokers in one batch are all computed from the same store, and the last one wins: with the leader 0 offline, broker 1 (end offset 10) and broker 2 (end offset 7) come online together, and 2 becomes leader. |
| `C42_violated_livelock` | **C42 is false** for a manual map that names an unknown broker: the topic is alternately reported pending and invalid, and no evaluation is ever the last one. |
| `C44_violated_empty` | The empty name is accepted, contrary to C44. |
| `C45_violated_wrap` | **C45 is false without the bound**: after 2^32 requests the ids start again at 1, and the response to a stream that is still open goes to an unrelated request. |
| `C46_sent_anyway` | What is sent if there is no common version: the request goes out all the same, with the client's default version (finding: nothing stops the client). |
| `C48_violated_overlap` | Two connections served by the target at the same time, say the one the source has given up and its successor: both handlers compare the offset of the message they got with the end of the log, both find it equal, and both write. |
| `C48_violated_failover` | The source reads uncommitted records (replica_state.rs:501, connection.rs:392): record 1 is mirrored before the source's followers have it, the leader fails, its successor goes on with record 2. Both logs have the same end, so the difference is never noticed. |
| `C48_violated_retention` | Retention removes records at the source before they were mirrored: from then on, whatever happens, the target stays as it is, since it takes nothing but its next record. |
| `C48_violated_cut_batch` | As on a follower (`C19_violated_cut_batch`), a batch cut by the byte limit of a message is stored by the target without its tail: three of four records arrive, and the ends are equal. |
| `C49_violated_negative` | A negative number is read back as another topic with the opposite number, and that pair has the same name. |
| `C51_bad_length` | A length field between -4 and -1 (no encoder writes one) makes the receiver panic, and one below -4 or close to 2^31 makes it wait for ever (finding: the length is not checked). |
| `C52_violated_client_offset` | C52 fails: a record is delivered with a smaller offset than the one at which it is stored. |
| `C52_violated_offset_delta` | The offset deltas written into the records are wrong as well, from the second batch on: the difference of the base offsets is taken with the wrong sign. |
| `C52_violated_skips_segment` | When no record of a segment passes, the stream goes on at the end of the partition: what passes in the later segments is never delivered. |
| `C52_violated_oversized` | The same when the output of the first batch does not fit into `max_bytes`. |
| `C52_violated_start_inside_batch` | With a start inside a batch the wrong offsets make the client drop records that pass: record 2 is stored behind the start, passes, and is not delivered. |
| `C53_violated_stale` | **C53 is false** when an evaluation reads the topic before the result of an earlier evaluation has come back through the metadata store. The topic is pending; broker 0 is online and is chosen; before that result is visible, broker 0 goes offline and broker 1 comes, so a second evaluation of the same pending topic chooses broker 1. The partition is created from the first result, the map is then overwritten by the second, and further evaluations repair nothing. |
| `C54_violated_stall` | **C54 is false**: the dispatcher waits for room in the queue of one stream with the table of senders locked. Until that stream is read or dropped, no response is delivered to anyone, no new request can be registered, and the waiting request does not even time out. |
| `C55_violated_short_read` | **C55, violated by a short read.** Without zero copy (TLS connections) a slice is read by a single `pread`; if that returns fewer bytes than asked for, the message is sent with the announced length of the whole slice but fewer bytes. Two messages are sent; the receiver takes the first bytes of the second for the end of the first and gets neither right. |
| `C55_violated_produce` | **C55, violated for produce requests.** `FileProduceRequest::file_encode` leaves out the SmartModules that `write_size` counts: every message announces more bytes (four at least) than are sent. (No code sends such a request at this commit.) |
| `C56_violated_segment` | A look-back at the last 3 records of 5, all committed; the last one is in a new segment and is not shown. (One read returns at most the rest of one segment — context.rs:162-177, replica.rs:339-403.) |
| `C56_violated_single_record` | Batches with one record each, all recent: every second one is skipped, the newest among them. (The loop reads at `offset - 1`, where `offset` is already the last offset of the batch it is looking for — context.rs:211, 218.) |
| `C56_violated_first_record` | A partition with one committed record: the look-back fails (it reads at offset -1). |
| `C56_violated_retention` | After retention has removed the oldest segment, the look-back fails although all wanted records are there: it goes on below the log start. |
| `C57_violated_not_all_modules` | Only even values may pass the chain; `1` is delivered. The first module fails on the second record, and what it has made of the first one is returned without passing the second module (engine.rs:194-198). |
| `C57_violated_error_offset` | The second module fails on the second record; the error names the offset of the first. (An array map makes new records without offset deltas — array_map.rs:26-28.) |
| `C58_violated_gap` | A filter drops two of three records: the partition's end moves by three, and offsets 1 and 2 are never used. (The last offset delta counts the records of the input — batch.rs:118-124.) |
| `C58_violated_overlap` | An array map makes two records of one: the next record written has the offset of the second. |
| `C58_violated_failed_write` | A deduplication filter, and a storage that fails once: the producer is told so and sends the record again; the second write succeeds, but the record is not stored: the filter has seen it. (replica_state.rs:346-351: `transform` runs before the storage is written.) |
| `C58_violated_timestamps` | Records lose their timestamp on the way through any chain; hence a look-back by age, which a deduplication filter needs when the leader starts again, shows it none of them. |
| `C59_violated_twice` | Running sums of 1, 2, 3: the consumer gets 1, 5, 11 instead of 1, 3, 6. A response holds one record here; the chain has processed the batch that does not fit any more, and processes it again for the next response (batch.rs:78, 103-110). |
| `C59_violated_start_inside` | A stream that starts at offset 1, inside a batch: the first record is part of all sums. |
| `C60_violated_resurrected` | A deleted object comes back: creating a partition reads the topic, the topic is deleted (the deletion reports success), then the partition's task writes the topic with its new child. |
| `C60_violated_update_after_delete` | An update with the item of an object that has been deleted creates it again, with the parent and the revision it had. |
| `C60_violated_successor` | Revisions start again from 0: a status computed for a topic that has been deleted is accepted for a new topic with the same name and another specification. |
| `C61_violated_lost_link` | The topic is updated between the two halves of linking a partition to it: the link is refused, the partition stays, and deleting the topic does not delete it. |
| `C61_violated_orphan_stays` | A partition whose topic does not exist is stored although the request fails, and no request ever deletes it: deleting it fails because its topic cannot be found. |
| `C61_violated_stale_child` | A partition that has been updated since it was created and is then deleted stays in its topic's list of children: entries are compared with the revision they were added with. |
| `C62_violated_reordered` | One task updates an object, another deletes it; the change under the lock and its sending are two steps, and the deletion is sent first. All changes have arrived, the object is deleted, and the controller still has it. |
| `C62_violated_recreated` | An object is deleted and created again with another specification, and the reconciliation timer fires before the dispatcher has read the two changes: the listing is ignored because its revision is lower than the cached one, and the changes are ignored because they are older than the listing. |
| `C62_violated_deadlock` | A topic with at least 100 partitions is deleted by the dispatcher of topics, which fills the queue of the dispatcher of partitions; this one has just begun to update another partition. It waits for room in the queue that only it empties: whatever happens afterwards, it receives nothing and does nothing any more. |
| `C63_violated_torn` | A crash between emptying a file and writing it (or a full disk) leaves a file that does not parse: at the next start nothing of the kind can be loaded, neither this object nor any other. |
| `C63_violated_removal` | A file that cannot be removed: the deletion reports success, and the object is back after a restart. |
| `C63_violated_failed_write` | A file that cannot be written: the operation reports an error, its effect is visible until the next restart and gone afterwards. |
| `C64_violated_uninvited` | **C64 is violated**: a broker that is not a replica of a partition follows it as soon as the partition's leader changes. The controller sends every partition to every broker (`send_replica_spec_changes`) and `switch_leader_for_follower` (global_context.rs:474-489) does not ask whether the broker is a replica, so broker 3 creates a copy of a partition of brokers 1 and 2. |
| `C64_violated_undelete` | **C64 is violated**: a replica that was being deleted and is assigned again (the topic was created again before the broker heard of the end of the deletion) is neither led nor followed: the change is reported as a modification with the same leader, for which nothing is done (global_context.rs:338-362). |
| `C64_violated_two_roles` | **C64 is violated**: an assignment that names a new leader and the deletion at once removes nothing at a follower that has become the leader (`remove_leader_replica` finds no leader and leaves the follower); when the partition is created again the broker leads and follows it at the same time, with a connection to its former leader. |
| `C64_violated_no_retry` | **C64 is violated**: a replica whose storage could not be opened is not tried again: the error is only logged, the broker's metadata already has the assignment, and when everything is sent again nothing has changed. |
| `C65_violated_resurrected` | **C65 is violated**: a topic is deleted while a broker is down; the broker starts with an empty list of replicas, hears of no deletion and leaves the directory where it is. When a topic of the same name is created, the broker opens the directory and serves the deleted topic's records. |
| `C65_violated_silent` | **C65 is violated**: if the directory of a led replica cannot be removed, the broker forgets the replica and acknowledges the removal to the controller all the same (global_context.rs:383-408); a partition created anew has the old records. |
| `C65_violated_left_behind` | **C65 is violated**: if the notice of a deletion names a new leader, the former leader looks for a followed replica and the new leader for a led one; neither removes anything, and the new one acknowledges. |
| `C66_violated_stale_ack` | **C66 is violated** (local storage): a topic is deleted and created again at once. The leader's acknowledgement of the removal of the old partition arrives when the new one exists; it names the partition by topic and number only (`ReplicaRemovedRequest`), `receive_replica_remove` (private_server.rs:254-284) finds a partition of that name, and with the local storage the final deletion deletes it (local.rs:156-161). Nobody has asked for this, and the leader removes the new records as well. |
| `C66_violated_lost_ack` | **C66 is violated** (Kubernetes): the acknowledgement is lost with the connection. When the connection is established anew the broker already has the partition as being deleted, so it does nothing and does not answer; nor does it however often this is repeated, and the partition remains in deletion. |
| `C67_violated_substring` | **C67 violated: permission for one object reaches others.** A permission is tied to an object by a test for a substring (basic.rs:214, `pi.contains(&i)`), so the permission for the mirror `edge-10` is also one for `edge-1`, for `edge`, and for the empty name. |
| `C67_violated_delete` | **C67 violated: everybody may delete and change.** `BasicAuthContext::allow_instance_action` answers `Ok(true)` without looking at the policy (basic.rs:64-72). Somebody without any role deletes a topic of a cluster whose policy permits nothing but reading topics. |
| `C67_violated_mirrors` | **C67 violated: nobody asks about mirrors.** The handlers that register, unregister and list mirrors do not consult the authorization at all (mirror/{register,unregister,list}.rs): without any role one registers a remote cluster, drops one, and sees all of them. |
| `C67_violated_watch` | **C67 violated: nobody asks about watches.** `handle_watch_request` has no check (watch.rs:30-93), so somebody without any role, to whom the list of topics is shown empty, is sent all topics and their changes on a watch. |
| `C67_violated_fail_open` | **C67 violated: a failed decision counts as yes.** When the authorization fails, creating a custom SPU, listing the SPUs and connecting a remote cluster go on as if permitted (`if let Ok(authorized) = … && !authorized`: register_custom_spus_req.rs:43-55, spu/fetch.rs:69-79, connect.rs:62-84); the other handlers stop. |
| `C67_violated_read_only` | **C67 violated: read-only is not.** The context "that allows only read only ops" (auth/mod.rs:53) lets everybody delete and change: only creating is refused. With read-only metadata a topic is deleted, while one may not be created. |
| `C67_violated_root` | **C67 violated: the default policy is not "full permissions" for `Root`.** It has no entry for SmartModules, and its entries for mirrors are tied to the objects `user1` and `user2` (basic.rs:233-270), left over from a test: with it `Root` may not create or list SmartModules. (The controller does not use this policy when none is given, init.rs:140-159; it is what an embedding that asks for the default gets.) |
| `C67_violated_text` | **C67 violated: a colon in a name widens or moves a permission.** Reading a permission keeps only what stands between the first and the second colon (basic.rs:130-140). |
| `C68_violated_replace` | **C68 violated: objects are replaced.** Creating a SmartModule, an SPU group or a home mirror does not look whether there is one of that name already (smartmodule/create.rs:43-89, spg/create.rs:46-85, mirror/register.rs:22-29): the old one is overwritten and success is reported. |
| `C68_violated_dry_run` | **C68 violated: trials are carried out.** Only topics and custom SPUs look at `dry_run`; a trial of creating any other object creates it. |
| `C68_violated_partition_count` | **C68 violated: adding partitions can remove them.** The new number of partitions is computed modulo 2^32 (a release build; a debug build panics) and is not compared with the old one (topic/update/add_partition.rs:50-56): adding 4294967295 partitions to a topic with two leaves one. |
| `C68_violated_filters` | **C68 violated: ignored filters.** Lists of partitions and of mirrors have all of them, whatever the filters (partition/mod.rs:30-60, mirror/list.rs:15-40). |
| `C68_violated_race` | **C68 violated: two requests at the same time.** Looking and writing are two steps and nothing is held in between (topic/create.rs:36-76): two requests to create a topic of the same name, both looking before either writes, are both answered with success, and the topic of the first is lost. |
| `C68_violated_race_ids` | **C68 violated: two requests at the same time, ids.** In the same way two custom SPUs with one id are registered; `SpusDistinct` holds before and not after. |
| `C69_violated_store_id` | **C69 violated: different packages, one id.** `store_id` joins name, group and version with `-` (package.rs:98-105, 212-226) and names may have `-` in them, as most do: the module `map` of the group `json-sql` and the module `map-json` of the group `sql` are filed under one id, so creating the second replaces the first, for all brokers, and success is reported. |
| `C69_violated_shadow` | **C69 violated: modules without a package answer to any group and version.** `is_match` compares only the name with a module that has no package (package.rs:191-209): asking the broker for `infinyon/jolt@iii` runs the local module `jolt`, even if the packaged one is there too. |
| `C69_violated_trailing` | **C69 violated: what follows a further separator is ignored.** `from_qualified_name` takes the first two pieces and drops the rest (package.rs:155-186). |
| `C69_violated_short_name` | **C69 violated: short names.** The broker finds a packaged module by its name alone or by group and name; the controller turns the same texts into ids under which nothing is filed, so that the module cannot be deleted by them, nor used for the deduplication of a topic. |
| `C69_violated_ambiguous` | **C69 violated: any version will do.** With several versions of a module, its short name is whichever comes first in the broker's hash map: the same modules in another order give another one. |
| `C69_violated_slash` | **C69 violated: a module with `/` in its name.** Nothing checks the name of a module without a package on creation. One named `a/b` cannot be deleted; the attempt deletes a module named `b-a` if there is one. |
| `C70_violated_base_offset` | **C70 is violated for the base offset.** The first offset a leader still holds is part of every report, and part of the stored status, but `PartitionStatus::merge` does not copy it: no sequence of reports ever changes the stored one, which stays 0 although the leader reports 7. |
| `C70_violated_connection_lost` | **C70 is violated when the connection breaks.** The sink is emptied before the message is sent, so a report whose message is lost is not repeated on the next connection: everything is quiet and the store shows the status from before, until the partition's offsets happen to change again. |
| `C70_violated_unknown_partition` | **C70 is violated by an unknown partition.** If the message also carries a report about a partition that the controller has deleted meanwhile, the handler gives up and all other reports of the message are lost with it. |
| `C70_violated_lost_update` | **C70 is violated by a lost update.** The handler computes the new status from the store and lets the dispatcher write it later. When a broker reports new offsets and a full storage in the same turn, the second status is computed before the first is written, so the offsets of the report are overwritten with old ones. |
| `C71_violated_reconnect` | An SPU loses its connection and connects again before the controller has noticed (it may take the controller 90 seconds): the end of the old connection marks the SPU as unhealthy although the new one is alive. The controller comes to rest showing a connected SPU as offline. It stays so however long the SPU goes on sending messages. |
| `C71_violated_after_restart` | A controller that is started again finds the status it stored before; an SPU that has died in the meantime never registers, so it has no entry in the health map and is shown as online for ever. |
| `C71_violated_increments` | `update_increment` reads and writes the counter separately, so that overlapping increments can set it back: the connection of SPU 4 goes unnoticed. (The notifications happen while the controller is not inside `listen`, where they would wake it.) |
| `C72_violated_deadlock` | **C72 is violated by messages about full storage.** `receive_partition_status_update` keeps the read lock of the partition store while it sends its actions; the dispatcher needs the write lock to carry them out, and the channel holds 100. A message with 102 entries — one disk that fills up under 102 partitions — can fill the channel while the dispatcher waits for the lock. Then nobody can move any more: the handler, the dispatcher and every other task that needs the partition store wait for ever, whatever else arrives. |
| `C73_violated_assigned` | **C73 is violated.** A request of version 9 or 10 to create an object is decoded, encoded again at version 19 and decoded once more at the original version (`objects/create.rs:87-95`). A topic with one partition assigned to SPU 1, kept for an hour, without compression restrictions: the byte of the absent mirror (since version 14) is taken for the absence of a retention time, and everything after it is shifted: the topic is created without retention time and with compression switched off. |
| `C73_violated_two_partitions` | **C73 is violated.** The same with two partitions: the request is not understood at all. |
| `C73_violated_package` | **C73 is violated.** A SmartModule with a package, sent by a client of version 10: the visibility (since version 19) shifts what follows. |
| `C73_violated_smartmodule` | **C73 is violated.** A SmartModule sent by a client of version 9: it is encoded again in the second format and then read in the first, where the code is found at another place; `ByteBuf` then reads beyond the end, which is a panic. |
| `C73_violated_mirror` | **C73 is violated.** Mirrors cannot be created or deleted by clients of a version before 11, although the encoders know them (`objects/classic.rs:475, 517`): the classic decoders have no arm for them. |
| `C73_violated_update` | **C73 is violated.** A request to add a partition in version 10, which the server accepts (`MIN_API_VERSION` is 1): the client writes no length, the server expects one. |
| `C74_violated_clock_set_back` | If the system clock is set back by 50 ms while a batch waits for a linger time of 100 ms, the timer fires too early for the batch: it stays in the queue, the timer is gone, and the task has nothing left to do. The record stays there until another record opens a new batch or `flush` is called. |
| `C75_violated_other_error` | `flush_all_batches` zips two hash maps whose orders are unrelated, so that after flushing one partition it reads the error of another: with two partitions visited in opposite orders, the flush of partition 0 fails after the error of partition 0 was read, and `flush` returns success although the record of partition 0 was lost. |
| `C75_violated_dropped` | A call of `flush` that its caller drops while it waits (a timeout around it, say) leaves an answer behind. The next call takes that answer and returns success before the task has even begun: the record accepted in between is still in the queue. |
| `C76_violated_settings` | **Violation.** Settings do not follow: the retention of the topic is changed at the home cluster (from 100 to 50 seconds), every message since says so, and the remote cluster keeps the old one, since the topic counts as up to date once leader and direction agree (controller.rs:242-249). |
| `C76_violated_leader_unknown` | **Violation.** A topic is deleted at the remote cluster, with its records, although the home cluster still has it: the broker leading its partition was not registered at the moment of the message — for instance because the home controller has just started and has not read its brokers yet (connect.rs:199-211). |
| `C76_violated_takes_over` | **Violation.** A topic of the remote cluster's own is taken over when the home cluster mirrors one of the same name (controller.rs:239-251), and then deleted when the home cluster stops doing so. |
| `C77_violated_auth_failure` | **Violation.** A remote cluster is served although the authorization check failed: `if let Ok(authorized) = … && !authorized` refuses only on a negative answer (connect.rs:64-83); everywhere else a failed check is an error. |
| `C78_violated_stream` | Violation: once the connection of a broker has ended, streams go to the dead connection for ever, whatever else happens, as long as nobody asks for a serial socket: no stream for this broker ever gets another connection. |
| `C78_violated_blocked` | Violation: while one call is connecting to broker 1, a call for broker 2, to which there is an open connection, gets nothing until that attempt ends. |
| `C79_violated_duplicate` | Violation: a group that is in conflict is marked invalid, but its brokers are registered all the same, so two brokers have the same id. |
| `C79_violated_both_started` | Violation: two groups with the same ids that are handled before brokers are registered are both reserved and started. |
| `C79_violated_grows` | Violation: a reserved group that grows into the ids of another one is not checked again. |
| `C79_violated_overflow` | Violation: at the end of the range of `i32` the check looks at an empty range. |
| `C80_violated_private_host` | Violation: the address names pods of the group `main` whatever the group is called; for any other group it is never the address of the pod. |
| `C81_violated_rename` | Violation: renaming onto an existing profile loses that one. |
| `C81_violated_add` | Violation: a renamed profile follows its old name: adding a profile of the old name changes what the renamed one connects to. |
| `C81_violated_lost` | Violation: a command that is interrupted while saving leaves a file that cannot be read, and the next `add` replaces it: all other profiles are lost. |
| `C81_violated_force` | Violation (by request): with `--force` a profile is left without its cluster. |
| `C82_violated_order` | **C82 is violated, order**: after a timeout the connection is stale, and the next batches are sent on a new one; the broker may handle them before the batch still waiting on the old one. Batch 0, reported as failed, is stored after batch 1. |
| `C82_violated_order_once` | **C82 is violated, order with delivery at most once**: the connection is found broken on the client's side while the broker has still to handle what was sent on it. No sending is reported as failed. |
| `C82_violated_failed` | **C82, failed but stored**: a batch reported as failed may be in the log, also more than once. |
| `C82_violated_retry` | **C82 is violated, repetitions do not reconnect**: the requests of all retries are sent on the connection of the first one. Once it is broken, the sending fails however many retries there are, and no new connection is made. |
| `C83_violated_segment` | **C83 is violated, segment size**: sizes of segments are cut to 32 bits without a warning. Segments of 4 GiB and 2 KiB become segments of 2 KiB. |
| `C83_violated_retention` | **C83 is violated, retention**: so are durations. Keeping records for 137 years (of 365 days) removes them within 296 days. |
| `C83_violated_longer` | **C83 is violated, in general**: the storage never keeps records longer than 2^32 seconds, whatever is asked for. |
| `C85_violated_mirror` | **C85 violated: a mirror that does not exist.** With a name that no mirror has (or for a topic that is not mirrored at all) the consumer reads all partitions, those of all other remote clusters, instead of failing (fluvio.rs:413-419). |
| `C85_violated_mirror_ignored` | … and so it is for every name that is not found: the result is that without a name. |
| `C85_violated_twice` | **C85 violated: a partition listed twice** is read twice, every record of it is got twice. |
| `C86_violated_stall` | C86 fails: with the automatic strategy and a flush period of zero each record puts a flush into the channel. When a hundred records are read before the task gets its turn, the acknowledgement of the next response finds the channel full and is dropped, and the stream stops for good although the connection lives. |
| `C86_violated_abandoned` | The same by hand: a hundred flushes that were given up (a time-out around `offset_flush`, say) while the broker does not answer. |
| `C88_violated_overwritten` | C88 fails: an acknowledgement that arrives between the deletion and the task's next look takes the place of the notice, and the stream, though listed, goes on waiting. |
| `C88_violated_unlisted` | C88 fails: a stream that has found its leader but is not yet on the list when the topic is deleted is not told. |
| `C88_violated_demoted` | C88 fails: streams are not told when the broker stops leading the partition because another broker was elected; they go on waiting on the state of the former leader. |
| `C88_violated_demoted_forever` | So the stream of the demoted broker waits until the consumer gives up. |
| `C89_violated_long_error` | **Finding.** The text of a user error (`format!("{error:?}")`, which for an `eyre` report has all causes and the location) is encoded as a string with a 16-bit length that is read as a signed number. If it has 32 KiB or more, the host cannot read the output of the call: instead of the records processed so far and the error with the record it is about, the caller gets a decoding error. |
| `C91_violated_spu` | **C91 fails for brokers.** `UpdateSpuRequest` is sent at version 0 and `public_endpoint_local` exists from version 1 (spu/spec.rs:38, update_spu.rs:12-15): a broker is never told the local public endpoint of another one. |
| `C91_violated_smartmodule` | **C91 fails for SmartModules.** `UpdateSmartModuleRequest` is sent at version 10 and `visibility` exists from version 19 (smartmodule/package.rs:84, update_smartmodule.rs:21): to a broker every SmartModule is private. |
| `C92_violated_retention` | **A follower that needs records which retention removed never catches up.** Retention does not look at the followers (C16, C17). A read below the first stored offset fails, the leader sends the error code with the watermark (replica_state.rs:283-286), and the follower does not look at it (follower/controller.rs:258-290). So whatever happens afterwards — producing, reconnecting, timers — the follower keeps the log it has. |
| `C92_violated_big` | **A batch larger than a message stops replication.** If the first batch a follower needs is larger than `peer_max_bytes` (configurable, connection.rs:47), the message carries no records; the follower has nothing to report, and nothing is committed. |
| `C92_violated_stolen` | **Updates taken by an older connection are lost.** All connections of a follower share the pending updates (leader/spu.rs:37-40). One whose end the leader has not noticed takes them too and writes them to nobody; the follower waits until its timer fires (`C92_caught_up_partial` applies again then). |
| `C93_violated_forged` | **C93, violated.** Anyone can make any package verify with any public key: a signature file that names the key and lists no files is accepted (package.rs:486-499 — of no files, all are verified). The list of files is not signed. |
| `C93_violated_duplicate` | **C93, violated.** A signed package to which another file with the name of an existing one is prepended still verifies — the last of the two is — but the other is read. |
| `C93_violated_mixed` | **C93, violated.** Files of different packages of one signer can be put together, and the signatures with them: the result verifies (package.rs:232-241 sign the contents of each file alone, not the name, the version or the other files). |
| `C93_violated_twice` | **C93, violated.** A package signed twice verifies with no key: the second signature file has the name of the first (package.rs:217 compares the whole name, `signature.0`, with `signature`). |
| `C93_violated_same_name` | **C93, violated.** Of two files with the same name in different directories, only the first can be read from the assembled package (package.rs:90-103 keep only the name). |
| `C94_violated_retention` | **Violation.** Retention at the source, which does not look at the target, has removed records the target does not have yet: the clusters connect, the target reports its end, reading fails, the connection ends, and so on. The target never gets any more records. |
| `C94_violated_ahead` | **Violation.** The source has lost records the target already has, as after a fail-over to a broker whose log is shorter: the clusters connect and disconnect for ever. |
| `C94_violated_big` | **Violation.** The next batch is larger than what fits into a message: messages without records and reports of the unchanged end follow each other for ever, without any pause, and the target never gets any more records. |
| `C95_violated_registry` | **Violation.** A registry that is not a URL is dropped: the text is read as a package of the default registry. |
| `C95_violated_ignored` | **Violation.** The registry of an id plays no role for what is downloaded, and from where. |
| `C95_violated_tag` | **Violation.** A tag may look like a version, and is read back as this version. |
| `C95_violated_empty` | **Violation.** The empty text is the id of a package, whose name is empty, and so are the empty group and the empty tag. |
| `C95_violated_slashes` | **Violation.** A registry whose text ends with two slashes loses one of them each time the id is written and read. |
| `C96_violated_yanked` | **Violation.** "If a release is yanked, no client should ever try to download it" (package.rs:160): a withdrawn release is the latest release for its target, and is what `fluvio update` and `fluvio install` download. |
| `C96_violated_order` | **Violation.** Releases of an index are taken to be sorted, but nothing checks this: an older release may be the latest, also after another target was added to a release. |
| `C97_violated_two_groups` | Violation: with a base port for the nodes, brokers with the same index in two groups are to have the same port (`node_port + replica`, spu_k8_config.rs:122). Kubernetes refuses the second one, so the controller never comes to the end of a pass, whatever the state and however often it tries; the brokers after that one get no services. |
| `C97_violated_shared_address` | Violation: the annotation is the same for all services (spu_service.rs:202-204), and so is the port unless they are of type `NodePort`. While the load balancers of two brokers have no addresses of their own, both brokers are registered under one and the same address, so for one of them it leads elsewhere, whatever it leads to. |
| `C97_violated_no_host` | Violation: without the annotation the public address of a broker with a service of type `NodePort` has no host (`":30004"`), whatever addresses the service has (spu_controller.rs:217-225 drops them). |
| `C97_violated_balancer_ip` | Violation: the address wanted for load balancers in the configuration is ignored: `apply_service` looks for it in the new service, where there is none (spu_k8_config.rs:131-133). |
| `C98_violated_partition_limit` | Violation: the limit of a partition (`FetchPartition::max_bytes`, "the maximum bytes to fetch from this partition") is never looked at: the answer is the same whatever it is. |
| `C98_violated_limit` | Violation: the limit of the request ("the maximum bytes to fetch") holds for each partition, so that the response has more; and a negative limit is no limit. |
| `C98_violated_consumer_start` | Violation: the start for a consumer is not compared with the log: it may lie before its start or behind its end. |
| `C99_violated_not_text` | Violation: a line that is not UTF-8 ends the input. The lines after it are not sent, and the command reports success (`map_while(/it/ it.ok())`, produce/mod.rs:372). |
| `C99_violated_separator` | Violation: a line without the separator is skipped, and the command reports success. |
| `C99_violated_raw_unreadable` | Violation: `--raw` with a file that cannot be read sends an empty record without the key, and reports success (`unwrap_or_default`). |
| `C99_violated_mirror_topic` | Violation: the partition is looked for in all topics, whatever topic the records are for. Producing to `b` for the remote cluster `m`, records go to the partition of another cluster. |
| `C99_violated_mirror_remote` | Violation: on a remote cluster `--mirror` finds just the partitions whose brokers refuse records, and fails if the topic accepts them. |
| `C100_violated_behind` | Violation: the offset is compared after printing, so a record behind the end is printed — if the start lies behind it (`--head`, `--tail`, a consumer), or if a smart module dropped the record at the end. |
| `C100_violated_partitions` | Violation: with several partitions the command stops when the first of them reaches the end; records of the others before the end are not printed. |
| `C100_violated_null` | Violation: `[null]` stands for no key and for the key `null`. |
| `C100_violated_full_table` | Violation: `--output full-table` without a terminal panics at the first record. |
| `C101_violated_unversioned` | **Violation**: without an API version the secrets listed are dropped: a configuration that uses one is refused, whatever the store has. |
| `C101_violated_injection` | **Violation**: the value of a secret is inserted into the text of the configuration before it is parsed, so that a value with a line break (from the environment) adds entries to it. |
| `C101_violated_trim` | **Violation**: blanks around a value do not belong to it: the same secret in the environment and in a file are two values. |
| `C101_violated_reference` | **Violation**: a secret that was written is not read again: it is written with a tag (`!secret`), which the visitor does not know. |
| `C102_violated_none` | **Violation**: an empty sequence of partitions means all of them. |
| `C102_violated_twice` | **Violation**: a partition named twice is read twice, so that its records are consumed twice. |
| `C102_violated_size` | **Violation**: sizes of 2 GiB and more are cut to 32 bits (`as i32`): 3 GiB is negative, 4 GiB and one byte is one. |
| `C103_violated_panic` | A file whose name is not UTF-8 keeps the partition from starting: 20 bytes and `.log` are enough. |
| `C103_violated_plus` | A name with a sign counts as well. Beside the segment with the same number it is a second segment with the same base offset, and the records of the one file are read twice. |
| `C103_violated_leftover` | A broker stopped between removing the log and the index of a segment leaves the index, and whatever happens later it is never removed. |
| `C104_violated_age` | With an age the look-back shows the filter nothing, however recent the records are: a batch written by the leader's own chain has the timestamp −1, so a record is taken for as old as 1970 (batch.rs:41-51, where the batch's header is the default one, and context.rs:196-203). A leader that starts again has forgotten all values. |
| `C104_violated_gap` | Deduplication itself leaves gaps in the numbers of records, and the look-back takes the last `count` numbers for the last `count` records: after a restart the only record of the log, which is also the last, is stored again. |
| `C104_violated_uncommitted` | The look-back takes committed records only: what a leader has stored, but its followers have not, is stored again after a restart. |
| `C104_violated_batches` | Two batches of a request both begin at the offset 0, and the records keep the numbers they have there: the second batch's record is taken for an older one. After a restart it is stored again although it is the last record of the log (and the look-back takes in three). |
| `C104_violated_failed` | When the storage fails, the producer is told so, but the filter remembers the values: sent again they are dropped, and the producer is told that they are stored. (replica_state.rs:349-358: `transform` comes before the write.) |
| `C104_violated_refused` | The same when one record of a request is no text: the whole request is refused, but the values before that record are remembered. |
| `C104_violated_override` | Parameters of the user come after those of the bounds: the filter may remember fewer records than the bounds say. |
| `C104_violated_large` | A count of 2^32 or more is accepted for a topic, but the module cannot be initialised: there is no leader. |
| `C104_violated_seq` | The numbers of the filter end at 2^32 − 1; from then on all new values have this number, and the one that is forgotten is not the oldest but the first in alphabetical order — the newest of all, here. A filter that remembers one value lets 1 through twice in a row. (lib.rs:62: `saturating_add`.) |
| `C105_violated_direct` | **C105 violated: the address behind the proxy.** The service listens without TLS at an address of its own (cli.rs:139-162; `0.0.0.0:9005` in k8-util/helm/fluvio-app/templates/sc-deployment.yaml:49), and believes the claim in the first message: who connects there, without any certificate, has whatever roles they name. |
| `C105_violated_no_scopes` | **C105 violated: TLS without scopes.** Without a file of scopes there is no authenticator (start.rs:165-172), the first message comes from the client, and a client with a certificate of the authority — or, without certificates of clients, anyone — has whatever roles they name. |
| `C105_violated_no_tls` | **C105 violated: without TLS** a policy protects nothing: everybody names their roles. |
| `C105_violated_example` | What that means: a client without certificate lists the topics of a controller with TLS, certificates, scopes and a policy, none of which gives them anything. |
| `C105_violated_broker` | **C105 violated: brokers.** A broker gives whoever reaches it all permissions; with TLS it asks for a certificate at most (fluvio-spu/src/start.rs:75-80, 111-113, "TODO: add X509Authenticator"), so that names, scopes and policy do not matter for producing and consuming. |
| `C107_violated_again` | **C107 violated: an update that is never done.** The manifest after an update has only the artifacts it had before (version_installer.rs:70-91). One that is new upstream is stored, but not recorded, so that it is missing again at the next update, and at every one after it. |
| `C107_violated_left` | **C107 violated: binaries are left over.** After switching to a version without `fluvio-run` there still is that of the version before; and an installation over an older one keeps what the older one had: the new version's directory, and so the binaries, have an artifact which its manifest does not list. |
| `C107_violated_uninstall` | **C107 violated: the active version is uninstalled.** The settings go on naming it, and `fvm update` then fails to open its directory. |
| `C107_violated_mixture` | **C107 violated: a stop while switching** leaves binaries of both versions, and one that is not whole, while the settings name the old version. |
| `C107_violated_stuck` | **C107 violated: a stop during the first installation** leaves a directory without manifest. It cannot be uninstalled (uninstall.rs:45), and no version is listed any more. |
| `C107_violated_settings` | **C107 violated: settings that are not whole.** The file is overwritten in place (settings.rs:79-86). If it cannot be read, nothing can be installed or switched to without an error, ever: each attempt changes the binaries, but the settings stay as they are. |
| `C107_violated_order` | **C107 violated: channels are not ordered.** Of a version and another name each is less than the other (fvm/mod.rs:69-80), so the order in which `fvm list` shows them is undefined. |
| `C108_violated_escape` | **C108 violated: a module writes to the memory of the broker.** The pointer which the module's `alloc` returns is not checked (memory.rs:51-54). So a module that returns any number from −2^31 to 2^31−1 has its input, which producers choose, written that far from its memory, in the process it runs in. |
| `C108_violated_high` | **C108 violated: memories of more than 2 GiB.** Pointers are unsigned in a module, but signed here. If the broker is configured to allow more, the input of a module whose allocator does what it should is written in front of its memory as soon as the pointer is 2^31 or more. |
| `C108_violated_total` | **C108 violated: the limit of a store.** For every limit up to 4 GiB two modules of a chain may each have as much as the limit. |
| `C108_violated_room` | **C108 violated: the size of an output is not limited.** Before its range is checked, room for the output is allocated in the broker (instance.rs:281): up to 4 GiB, for a module whose memory may have one page. |
| `C109_violated_twice` | **C109 violated: fuel and time are counted twice.** Filters and maps count what they used themselves (simple_transform.rs:64), and then it is counted again by the instance (instance.rs:74), with the same fuel of the store. |
| `C109_violated_aggregate` | **C109 violated: aggregates.** The records they give are not counted at all. |
| `C109_violated_split` | **C109 violated: modules with several names.** The counters are divided, and the remainder is dropped when they are reset: with two names and a call before each export no call is ever exported. |
| `C109_violated_unnamed` | **C109 violated: a module without a name** is a division by zero. |
| `C109_violated_idle` | **C109 violated: idle modules.** Each export adds a millisecond of processor time to each module, also if it was not called at all. |
| `C110_violated_ports` | The numbers stay distinct up to 60535 brokers, but the ports do not stay in order: broker 5653 gets port 4, and brokers 0 and 32768 share their ports. |
| `C110_violated_resume_exit` | Code violation: a resume that fails tells the shell it succeeded, whatever the reason. |
| `C110_violated_failed_start` | Code violation: a start whose brokers do not come online in time leaves its components running and saves no description. Then neither a start nor a resume does anything, until a shutdown. |
| `C110_violated_own_dir` | Code violation: the data of a cluster with a data directory of its own are not deleted, so that the next cluster in this directory finds all the old records; instead the default directory is removed, whatever lies there. |
| `C110_violated_cloud_delete` | Code violation: with `--k8` the current cluster is not looked at: people with a cloud profile, which is never deleted, delete what is installed on Kubernetes after having confirmed the name of the cloud cluster. |
| `C110_violated_upgrade` | Code violation: the metadata that are checked before an upgrade are those in the default directory, not those of the cluster; and an upgrade that fails has stopped the cluster and tells the shell it succeeded. |
| `C110_violated_search` | Code violation: the two searches for processes `fluvio run …` and `fluvio cluster run …` find nothing that a start has started, as they compare with the whole command line, program included; these processes end only because the components they wait for end. |
| `C111_violated_twice` | **C111 is violated, a cluster listed twice**: nothing refuses a file with the same cluster twice (`add-mirror` would). The topic gets two partitions for the cluster; which of the two is served depends on the order in which the broker's hash map is read, so that it can change when the broker restarts. |
| `C111_violated_moved` | **C111 is violated, a broker that moves**: when the public address of the home broker changes, the remote cluster is told and puts the new address into the topic, but the partition keeps the old one, and so do the tasks that mirror it: in whatever way things go on, restarts included, as long as the topic is not deleted at the home cluster, no task ever connects to the new address. |
| `C111_violated_taken_over` | **C111 is violated, a topic that is taken over**: when the remote cluster has a topic of its own with the name of a topic mirrored to it, its specification becomes that of a mirrored topic, but its partition is not touched: it is never mirrored, as long as the topic is not deleted at the home cluster. |
| `C111_violated_old_task` | **C111 is violated, a topic that is made anew**: the task that mirrors a partition does not end when the partition is deleted. After the topic was deleted and created again there are two tasks, and the old one, which still holds the old records, is served by the new partition. |
| `C111_violated_direction` | **C111 is violated, a direction that is changed**: when the new topic has the other direction, the old task takes itself for the source and so does the partition that serves it. |
| `C112_violated_order` | **C112 is violated, order**: the order compares two checks only when one directly requires the other, which is no order that a sort can use: two checks with an unrelated one between them are not put right. A list of checks that all pass is then refused, because one is skipped. |
| `C112_violated_changes` | **C112 is violated, changes by a start that is refused**: on any machine where Fluvio is installed already with a system chart of another version, starting a cluster is refused, but not before the system chart was replaced by the one of the new version (an older one, too). |
| `C112_violated_unsupported` | **C112 is violated, changes on a machine that is not supported**: with a server of Kubernetes that is too old the system chart is installed although the start is refused for the version. |
| `C113_violated_delete_current` | Deleting the current channel is allowed, and from then on no command can be run. |
| `C113_violated_create_replaces` | Creating a channel where the configuration given is missing or cannot be read replaces the default configuration, whatever it holds, by one with this channel alone and no current one: all other channels are lost. |
| `C113_violated_create_first` | So after a channel is created on a new machine no command can be run. |
| `C113_violated_switch_fails` | A first switch to the stable channel that fails because the registry does not answer has switched already: the current channel is one without a binary. |
| `C113_violated_unpublished` | A version that is not published gives a channel without a binary, and this is reported as success. |
| `C113_violated_silent` | Commands on a channel without a binary do nothing, with the exit status of success. |
| `C113_violated_nested` | What the frontend runs cannot call the frontend: the variable that is to detect a loop is inherited by all processes started below. |
| `C113_violated_dev` | The development channel of the installed frontend is the frontend itself: with it no command can be run. |
| `C113_violated_delete_dev` | Deleting that channel again deletes the frontend. |
| `C113_violated_update` | An argument `update` of any command is taken for the command. |
| `C113_violated_help` | `fluvio help` prints nothing and does not reach the binary. |
| `C113_violated_delete_reports` | A channel that is deleted before its extensions directory exists is reported as failed, although it is gone. |
| `C113_violated_latest` | `create latest` and `switch latest` make different channels: the tags of the images and the directory of the extensions differ. |
| `C114_violated_interrupted` | A first load that is interrupted between making the directory and writing the pointer makes all later loads of the current profile fail. |
| `C114_violated_named` | A profile without keys that is named by `FLUVIO_HUB_PROFILE` gets a new key at each load, and each load makes the new identity the current one. |
| `C114_violated_named_hubid` | With a named profile a new hub id is reported as set, but the named profile keeps the old one. |
| `C114_violated_private` | The file of the private key can be read by everybody with the usual mask: the restricted mode is computed but never set. |
| `C114_violated_org` | With several organisations the token depends on the order in which the map is read. |
| `C114_violated_hidden` | A login of the new kind without an organisation hides a valid one of the old kind: the request is sent without token. |
| `C115_violated_orphan_kept` | Such a process is not ended by any sequence of shutdowns. |
| `C115_violated_orphan` | Starting a connector under a name that is taken is refused only after the process was started: it runs, and no shutdown of any name ends it. |
| `C115_violated_stuck` | If the temporary directory of a connector is gone, shutting it down ends the process but fails and keeps the entry; nothing has changed that would let the next shutdown succeed, and a start under the name is refused. |
| `C115_violated_pid` | A connector that has ended and whose process id was given to another program is listed as running, and shutting it down ends that program. |
| `C115_violated_lost` | With an index that cannot be read the next start replaces it by one with the new connector alone. |
| `C115_violated_signal` | A connector that does not end on the signal is taken out of the index although it runs on. |
| `C115_violated_leftover` | A start from a package that is refused for its configuration leaves the directory with the binary behind, to which no entry refers. |

Observed while reading and not proved: the KV revision stream polled again after an error panics; the map
of consumer-offset storages is never cleaned; a decode error inside a record set is swallowed and the
batches before it are kept (`record/data.rs`); `MemoryBatch` counts its base offset from the length;
messages left in the commit channel when the sending task ends leave `offset_flush` waiting; deleting an
absent key raises the store's epoch; the listener for SmartModule specs is not polled by the SC's private
server; the two kinds of metadata items disagree on whether equal revisions are newer; requests that add
partitions read the spec before writing it, so that one of two concurrent ones is lost.
- `fluvio-stream-dispatcher/src/dispatcher/metadata.rs`: a refused update (`attempt to update by stale value`) is only logged and not tried again, so a status computed while the cache is behind the storage is lost; the "409" branch is taken when a revision in the local error text happens to contain 409, and repeats the same stale update.
- `fluvio-stream-dispatcher/src/metadata/local.rs`: `watch_stream_since` clones one receiver, so two watchers of a kind would each see only a part of the changes; there is one at present.
- `fluvio-spu/src/core/global_context.rs`: changes of a replica's configuration (retention, compression, deduplication) with an unchanged leader are not applied to the running replica (`update_replica` does nothing); demoting a leader opens the storage again while other tasks may still hold the leader's handle.
- `fluvio-sc/src/services/private_api/private_server.rs`: `receive_lrs_update` drops all of a broker's status updates if one of them names an unknown partition.
- `fluvio-storage/src/replica.rs` (`roll_over`): the index file is cut before the new segment is created; if creating it fails, the partition goes on with a memory map longer than its file, and the next index entry beyond the file's last page is a bus error.
- `fluvio-sc` (public port) and `fluvio-auth/src/x509/identity.rs`: the identity is the first `AuthRequest` a connection sends, with the scopes in it; the TLS proxy in front is what makes it true.  Whoever reaches the controller's own port states their own scopes.
- `fluvio-spu` public service: producing, consuming and offsets are not subject to authorization; only mirror connections are.
- `fluvio-stream-dispatcher/src/store/mod.rs` (`create_spec`): success is reported on any newer version of the object, not necessarily the one written; an update that changes nothing waits until the time-out and is reported as an error.
- `fluvio/src/producer/accumulator.rs` (`wait_for_space`): waits in a loop that never yields while the queue is full (on a single-threaded executor the task that would make room cannot run), and the time-out is only reached after the loop; it waits even if the last batch has room.
- `fluvio/src/producer/partition_producer.rs`: every flush sends a request even if there is nothing to send; its failure makes the partition refuse records until the errors are cleared.
- C76: `sync_topic` compares only after `set_replicas`, so a topic whose leader and direction agree is never updated (settings drift); a home topic whose leading broker is not (yet) in the store is omitted from the message, which makes the remote cluster delete its copy; a topic of the same name of the remote cluster's own is overwritten.
- C77: the authorization check of a mirroring connection refuses only on `Ok(false)`; an error lets the remote cluster in.
- C78: `create_stream_with_version` never asks `is_stale`, so a broken connection stays in use for streams until `create_serial_socket` for the same broker removes it; the pool's mutex is held across `connect()`.
- C79: `sync_spu` registers the brokers of every group whatever its status; the check for conflicts looks at registered brokers only, is done once per group, and wraps around at the end of `i32`.
- C80: `as_spu` writes `fluvio-spg-main-{i}` into the private address of brokers of every group.
- C81: `rename_profile` overwrites an existing profile; profiles share clusters by name, so `profile add` of a renamed profile's old name changes it; `save_to` truncates before writing and `add` starts from an empty configuration when the file cannot be read.
- C82: `send_receive_with_retry` checks the liveness of the connection once and repeats on the same connection even after a timeout has marked it stale; batches of a failed request are neither withdrawn nor waited for, so a later request on a new connection can overtake them.
- C83: `segment_size` and retention are converted with `as u32` both in the CLI and for topic files, so values of 2^32 and more are silently reduced modulo 2^32 before validation. `log.size` of the broker's configuration is never used.
- C84: a request of several batches with different codecs passes a topic with a required codec if SmartModules are applied and the first batch with output has that codec: the check comes after the SmartModules, which build one batch. The claim about the log still holds.
- C85: `consumer_with_config_inner` treats a mirror name that is not found like no mirror name: it reads all partitions of the topic.
- C86: acknowledgements are put into a bounded channel with `try_send` and dropped when it is full; the stream then stops without an error.
- C88: the notice of deletion and the acknowledgements share one variable; streams of a demoted leader are not ended, their consumers wait for ever.
- C89: the text of a user error (`format!("{error:?}")`) is a string with a 16-bit length read as a signed number; with 32 KiB or more the host cannot decode the output of the call, and the records processed so far and the name of the failing record are lost.
- C90: a produce timeout loses its part below a millisecond on the way (`as_millis`), and one of 2^31 ms or more makes the request fail to encode (`C90_unsendable`); the SmartModules of a stream are dropped without an error by versions below 18 (`reqSeen`), the client therefore does not talk to such brokers (consumer/mod.rs:439-448).
- C91: `UpdateSpuRequest` has the default version 0 and `UpdateSmartModuleRequest` version 10, so `SpuSpec::public_endpoint_local` (from version 1) and `SmartModulePackage::visibility` (from version 19) are dropped on the way to brokers; no code in the broker reads them today.
- C92: a follower below the first offset the leader stores is never brought forward: the leader answers with an error code the follower does not look at, and nothing tells it to start anew; with it the watermark of the partition stands still (`C92_violated_retention`).
- C92: pending updates are per follower, not per connection: a half-open older connection takes them (`C92_violated_stolen`).
- The internal service goes on after it has answered `FetchStreamRequest` with a rejection because of a wrong id (service_impl.rs:59-67), and then sends a second answer.
- A follower reports a change even if it skipped the records it received (follower/state.rs: result of `write_recordsets` is not looked at); harmless, as C92 shows.
- C93: `package_verify` accepts a signature file with an empty list of files: whoever knows a public key (it is in every signed package) can make any package verify (`C93_violated_forged`). The list of files is itself not signed, and the signatures cover contents only (`C93_violated_mixed`). `hash` and `len` of `FileSig` are written but never checked.
- C93: `package_sign` compares whole file names with `signature`, so it never counts the `signature.0` it wrote itself (`C93_violated_twice`).
- Downloading commands (fluvio-cli hub, cdk deploy) read packages without verifying them at all.
- C94: a next batch larger than the maximum of a message makes source and target exchange empty messages and reports without any pause (`C94_violated_big`); retention that overtakes the target, or a source with fewer records than the target, makes them reconnect for ever (`C94_violated_retention`, `C94_violated_ahead`).
- C94: every timer of a target that lags adds one more report, each answered by the records from the position of the target: the pairs keep circulating, so that records are sent several times until the target has caught up.
- C95: `Registry::try_from_segments` returns an `Option`, so that `example.com/v1/group/name` (no scheme) means a package of the default registry (`C95_violated_registry`); and `HttpAgent` never looks at the registry of an id (`C95_violated_ignored`).
- C96: nothing reads `yanked` (`C96_violated_yanked`).
- C97: `node_port + replica` (spu_k8_config.rs:122) is the same for two groups (`C97_violated_two_groups`); spu_k8_config.rs:131-133 looks for `load_balancer_ip` in the wrong place (`C97_violated_balancer_ip`).
- C98: `FetchPartition::max_bytes` is never read (`C98_violated_partition_limit`); `FetchRequest::max_bytes` is the limit of each partition (`C98_violated_limit`).
- C99: `map_while(|it| it.ok())` and `while let Some(Ok(line))` take a line that is no UTF-8 for the end of the input (`C99_violated_not_text`); `unwrap_or_default` hides that a file cannot be read (`C99_violated_raw_unreadable`); `find_map` over all topics ignores the topic (`C99_violated_mirror_topic`).
- C100: `--end` is checked after printing and for all partitions together (`C100_violated_behind`, `C100_violated_partitions`).
- C101: secrets are inserted into the text of a configuration before YAML is parsed (`C101_violated_injection`); `ConnectorConfig::secrets` is empty for configurations without version (`C101_violated_unversioned`); `SecretString` is serialized as `!secret`, for which its visitor has no `visit_enum` (`C101_violated_reference`).
- C102: `max_bytes.as_u64() as i32` (consumer.rs:69, `C102_violated_size`).
- C103: `to_str().unwrap()` (util.rs:43) panics for names that are no UTF-8; `parse::<i64>` accepts a sign; `Segment::remove` removes the log first, and `from_dir` never looks at index files without log.
- C104: `process_batch` writes batches with the default header, so `first_timestamp` is -1 and `lookback_age_iterator` drops every record; with the bounds the command line sets (5 records, 5 s) a leader that starts again remembers nothing.\n- C104: `lookback_last_iterator` counts offsets, but batches from which the filter dropped records still cover the offsets of all of them.
- **C105** `X509Identity::create_from_connection` believes the first message of any connection (identity.rs:27-72). The service behind the TLS proxy listens without TLS (Helm chart: `0.0.0.0:9005`), so whoever reaches that port names their own roles; the same holds at the public port when TLS is on and no file of scopes is given.
- **C105** With scopes but without a policy, or with scopes but without client certificates, every TLS client is refused.
- **C105** Brokers always use `RootAuthorization` and a proxy without authenticator.
- C107: `VersionInstaller::update` merges new versions into the artifacts the manifest already lists (version_installer.rs:70-91); an artifact that is new upstream is stored again at each update.\n- C107: `settings.toml` is overwritten in place; if that is interrupted, `fvm` fails for ever until it is deleted by hand. A version directory without manifest can neither be listed (and hides all others) nor uninstalled.\n- C107: `Ord for Channel` says of a version and another name that each is less than the other (fvm/mod.rs:69-80); sorting with such an order may panic in recent Rust versions.
- C108: the pointer that a SmartModule's `alloc` returns is used for an unsafe copy without a check (memory.rs:51-54): a module can overwrite memory of the broker with records of a topic.\n- C108: room for a module's output, up to 4 GiB, is allocated before its range is checked (instance.rs:281); tables of a module may grow without limit (limiter.rs:41-48).\n- C109: `SimpleTansform::process` and `SmartModuleInstance::process` both add the fuel used since the last top up, so the exported fuel and time are twice the real ones.
- C110: `fluvio cluster delete` removes `~/.fluvio/data` (process/mod.rs:113-115) even if the cluster was started with `--data-dir`: the cluster's data stay, and whatever lies in the default directory is removed; `upgrade` checks the metadata of the default directory as well (upgrade.rs:104-109).\n- C110: `fluvio cluster resume` and `upgrade` print an error but report success to the shell (resume.rs:47-51, upgrade.rs:78-80); a failed upgrade has already stopped the cluster.\n- C110: a start whose brokers do not come online in time leaves its processes running without a saved description (local.rs:513-522): start and resume are refused until a shutdown.\n- C110: `kill_local_processes` compares `run` and `cluster run` with the command line from its first element, the program (process/mod.rs:28-35), and so never finds these processes; they end because `fluvio-run` ends.\n- C110: `delete --k8` and `--sys` skip the look at the type of the current cluster, which otherwise protects cloud clusters (delete.rs:67-75).
- C111: `from_simple` and `--mirror-apply` accept a cluster that is listed twice (`C111_violated_twice`); `create_new_partitions` never updates the mirror configuration of a partition, so a changed broker address does not reach it (`C111_violated_moved`) and a topic taken over is not mirrored (`C111_violated_taken_over`); the loop of `MirrorRemoteToHomeController` has no end, so the task of a deleted partition goes on and is served by a new partition of the same name (`C111_violated_old_task`, `C111_violated_direction`).
- C112: `check_compare` is not transitive, so `sort_by` leaves a check before one it requires when an unrelated one stands between (`C112_violated_order`); fixes are made as the checks go, so the system chart is installed, upgraded or downgraded although a later or earlier check refuses the start (`C112_violated_changes`, `C112_violated_unsupported`).
- C113: `version delete` takes the current channel, after which every command ends with "Channel info not found" (`C113_violated_delete_current`); `version create` with a configuration that is missing or cannot be read saves one with the new channel alone and no current channel to the default place, also when `--config` names another file (`C113_violated_create_replaces`, `C113_violated_create_first`); a first switch saves before it downloads (`C113_violated_switch_fails`); an unpublished version and a failing `exec` are not reported (`C113_violated_unpublished`, `C113_violated_silent`); the dev channel of the installed frontend is the frontend itself, so that it loops, and deleting it deletes the frontend (`C113_violated_dev`, `C113_violated_delete_dev`); any argument `update` is refused on a pinned version (`C113_violated_update`).
- C114: the first load makes the directory with `create_dir` and later the pointer, and a load without pointer fails if the directory is there (`C114_violated_interrupted`); keys generated for a profile named by `FLUVIO_HUB_PROFILE` and a hub id set with it go to another profile, which becomes the current one (`C114_violated_named`, `C114_violated_named_hubid`); `set_perms_owner_rw` changes a copy of the permissions, to a mode that is not rw either (`C114_violated_private`); the organisation is the first of a hash map (`C114_violated_org`).
- C115: `deploy_local` starts the process and only then `insert` refuses a taken name, so the process runs without an entry and no shutdown reaches it (`C115_violated_orphan`); `remove` fails if the temporary directory is gone, after the process was ended and before the index is written (`C115_violated_stuck`); processes are known by their id alone (`C115_violated_pid`); an index file that cannot be read counts as empty and is overwritten (`C115_violated_lost`); the result of the signal is dropped (`C115_violated_signal`).

## 6. Properties

Status, the module of the property theorems, how they are proved, and what is missing.

| id | title | status | theorems in | method | note |
|---|---|---|---|---|---|
| C01 | Variable-length integers survive the wire (32-bit range) | proved | `Varint.lean` | reduce zig-zag to naturals, induction on 7-bit groups |  |
| C02 | Variable-length integers survive the wire (full 64-bit range) | partial | `Varint.lean` | exact characterisation of the values that survive; witnesses outside | The code violates the claim outside the 32-bit range; the exact range of validity is proved. |
| C03 | Protocol values round-trip and are self-delimiting | proved | `Codec.lean` | induction on the type | Strings are limited to 2^15-1 bytes because the decoder reads the length as signed; longer ones are silently misread (C03_long_string_misread). |
| C04 | Truncated messages are rejected, never misread | partial | `Codec.lean` | locality of decoders (consuming a prefix does not depend on what follows); record data violates it: witness | Proved for all basic and derived types, records and record sets; byte buffers panic, and a batch or record payload decoded on its own accepts truncated input. |
| C05 | Records round-trip | proved | `Batch.lean` | composition of C01/C03 |  |
| C06 | Batches round-trip | proved | `Batch.lean` | composition; length field | Compression libraries are abstract (decompression undoes compression). The conversion raw -> in-memory on the consumer side drops the schema id (finding). |
| C07 | Record sets round-trip and announce their size | partial | `Batch.lean` | induction on batches; schema-id size violated: witness | The announced size is 4 bytes too small per batch with a schema id. |
| C08 | Batch checksum covers the payload and detects corruption | proved | `Batch.lean` | linearity and invertibility of the shift register | Bit windows are taken in the order in which the checksum consumes bits (least significant bit of each byte first). The code never verifies the checksum on reading (finding). |
| C09 | Offsets assigned by a partition are gap-free and unique | partial | `Log.lean`, `Recovery.lean` | invariant by induction on the history | Gap-free numbering proved for all histories. A multi-batch write whose file write fails midway is reported as failed but leaves its first batches stored. Batches with a schema id cannot be written at all (failed assertion). |
| C10 | The offset acknowledged to the producer is the offset at which consumers see the record | partial | `EndToEnd.lean` | refinement to list of records | Proved end to end (accumulator, requests, resends, broker log, client reader) for at-least-once delivery without SmartModules; at-most-once drops error codes, and a SmartModule on the request shifts offsets. |
| C11 | Fetch returns the records at the requested offset | proved | `Fetch.lean` | invariant of segments + index lookup correctness |  |
| C12 | Committed reads never expose uncommitted records | partial | `Fetch.lean` | case analysis on watermark position; start > watermark violated | Proved when the fetch offset is not beyond the high watermark; a committed fetch beyond it returns uncommitted data (unsigned wrap). |
| C13 | Reading a partition start to end yields every record exactly once, in order | partial | `Reader.lean` | well-founded induction on remaining offsets | Proved for a reader that ignores incomplete batches and for the client when no fetch is cut; the real client decodes a batch cut by the byte limit as complete and loses records. |
| C14 | Crash recovery keeps every completely written batch and invents nothing | partial | `Recovery.lean` | scanning a concatenation of encodings plus a strict prefix; invariant relating index entries to the bytes of the segment | Byte-level recovery proved for every crash point in the log file; also for a process that dies while a new segment is started or old ones are removed. Reopening fails when the offset index is full (counterexample proved), and always succeeds when the index has room for a whole segment, as it has by default. Losses of the operating system's cache are not modelled. |
| C15 | The sparse index never misleads a lookup | proved | `Fetch.lean` | invariant "entries are sorted and point to batch starts" |  |
| C16 | Size-based retention removes only the oldest data, only as needed | partial | `Retention.lean` | induction on segments | The cleaner removes only a prefix of closed segments; how many is computed from an average, so it can remove too few or too many, and sizes are forgotten on restart. |
| C17 | Time-based retention keeps the log contiguous and never removes unexpired data | partial | `Retention.lean` | hole violated when ages are not monotone; `_partial` under monotone ages | Only expired segments are removed; without monotone modification times a hole can arise. |
| C18 | Restart restores a consistent high watermark | partial | `Restart.lean` | case analysis | The watermark read back never exceeds the log end; it can be below the log start or be reset by an unreadable checkpoint. |
| C19 | Committed records are on every replica | partial | `ReplicaBytes.lean`, `Replication.lean` | inductive invariant | Proved for every interleaving of produce, sync, report, restart with whole batches; a sync cut by the byte limit in the middle of a batch stores the cut batch as if complete. |
| C20 | The high watermark never moves backwards | proved | `Replication.lean` | inductive invariant | Within one life of the replica process (restart reads the checkpoint, see C18). |
| C21 | The high watermark is exactly what all in-sync replicas hold | proved | `Replication.lean` | permutation-invariant specification |  |
| C22 | A fully acknowledged produce is on every replica | partial | `ReplicaBytes.lean`, `Replication.lean` | corollary of C19 | Proved for every schedule while messages carry whole batches (the set of replicas of a partition is fixed; a restart of the leader ends the request). A message cut by the byte limit inside a batch makes the leader acknowledge a record the follower does not have. |
| C23 | Leader fail-over does not lose or rewrite committed records | partial | `Replication.lean` | committed part preserved; convergence of old leader violated: witness (no truncation in the code) | Committed records survive a clean fail-over to a caught-up follower; logs are never truncated, so an old leader with uncommitted records diverges, and a replica with a higher watermark is stuck. |
| C24 | The broker's key-value store survives restart at any point | partial | `Kv.lean` | refinement to a finite map, crash between operations | On a partition replica, down to bytes. Exact when the changes of a key succeed and the store loads; a failed delete is undone by a restart, retention of the last checkpoint makes the store unloadable, an old watermark file hides entries. |
| C25 | Stored consumer offsets are the last ones committed | partial | `Kv.lean` | refinement | Over all histories of commits, deletions, partition deletions, restarts and retention. A failing flush rejects a stored commit; a failed deletion can return after the partition's offsets were deleted. |
| C26 | Records with equal keys go to one partition | proved | `Partitioner.lean` | arithmetic on the counter | For every hash function. |
| C27 | Unkeyed records are spread evenly | proved | `Partitioner.lean` | arithmetic on the counter | Below the wrap-around of the 32-bit counter; across it the evenness is lost (shown as an extra theorem). |
| C28 | The producer queues every accepted record exactly once, in order | proved | `Producer.lean` | invariant on queue, batches; second half of C29 violated |  |
| C29 | Batches respect the configured limits | partial | `Producer.lean` | invariant on queue, batches; second half of C29 violated | Limits proved; a record that fits alone is rejected when the waiting batch plus the record exceeds the request size. |
| C30 | Relative start offsets resolve inside the readable range | partial | `Client.lean` | arithmetic | Exact for positions that do not overflow an i64; when the log start is above the stable offset (possible after a restart, C18) a relative position panics. |
| C31 | A consumer stream pushes the log contiguously | partial | `Stream.lean` | step invariant, progress by a measure | Model: server task with both offset listeners, publisher, connection in both directions, client decoding and acknowledgements, partition with any history; every interleaving of writes, watermark updates, publications, listener returns, responses and acknowledgements. Proved: slices start at the start's batch, follow each other without gap or overlap, at most one unacknowledged slice; in quiescent states everything readable has been received, and from every running state a quiescent state is reachable. False in the code when a notification of the acknowledgement listener comes late (slice sent and delivered twice) and when a batch exceeds max_bytes (stream stalls); retention and reopening during the stream are not covered. |
| C32 | Consumers get no record below the requested offset, none twice and in order | partial | `Stream.lean` | list reasoning | Every start offset and batch layout: the application receives exactly the stored records from the start on, in order, and in quiescent states all of them. Streams with disable_continuous: complete if the start begins a batch; otherwise false, the records below the start are counted and the stream ends early. |
| C33 | Explicit consumer commits are not lost or invented | partial | `Commit.lean` | invariant; concurrent flush race violated | The stored offset is never ahead of what was committed and never decreases within a session. Flush is exact for the manual strategy in one session; the automatic strategy marks offsets as flushed without an answer, and reconnecting forgets commits. |
| C34 | Automatic reconnection neither skips nor repeats records | partial | `Retry.lean` | single partition proved, multi partition violated | Proved for one partition and every disconnect point; one resume offset is shared by all partitions, so multi-partition consumers skip or repeat records. |
| C35 | Incremental metadata changes reconstruct the store | partial | `Metadata.lean` | invariant relating history snapshots and epochs; delete+recreate violated | Proved for every history, every filter and every earlier epoch: full reports are the whole content; incremental reports reconstruct it when deletions are applied before updates, and in any order when no key is reported both as updated and as deleted. The claim as stated fails for an object deleted and created again between two reports (violated_recreate). |
| C36 | Watching clients and brokers converge to the controller's metadata | partial | `Metadata.lean` | same; empty full sync violated | Proved for clients and brokers over every history of changes, reports, connections and controller restarts, under the hypothesis that reports are clean. Fails when an object is deleted and re-created between two reports, and when the store is empty at a full report. |
| C37 | Metadata listeners never miss a change | partial | `Metadata.lean` | sequential writers proved, concurrent publish violated | Proved for every interleaving of writers and listeners in which publications happen in the order of the writes (e.g. one writer per store, as the controller's dispatcher). Fails with two concurrent writers that publish out of order. |
| C38 | Computed replica assignments are valid | proved | `Scheduler.lean` | loop invariants | Every set of brokers, every load, every present map. Kept assignments (same replica count) are taken over unchanged, without checking that their brokers are online; that is what the property says. |
| C39 | Replica placement balances leaders and replicas | partial | `Scheduler.lean` | loop invariants | Exact below 65536 leaders or followers per broker; the 16-bit load counters wrap in release builds, so beyond that the most loaded broker can be chosen. |
| C40 | Manual replica maps are accepted exactly when well-formed | proved | `PartitionMap.lean` | equivalence with a declarative predicate | For maps with at most 2^32 partitions. |
| C41 | Leader election picks an online, most caught-up replica | partial | `Election.lean` | min-search invariant; lag wrap violated | Every store, status and online set. The new leader is always an eligible online replica and others are untouched; it is a most caught-up one unless some replica is recorded ahead of the leader (the score wraps; reachable after a fail-over). An out-of-storage partition is not marked offline, and changes of several brokers in one batch override each other. |
| C42 | Topic life-cycle is sound | partial | `Topic.lean` | state machine, case analysis, idempotence | Every configuration and every sequence of evaluations, broker changes, foreign partition changes, partition/mirror additions and deletion. The fixed point (at most three evaluations) excludes manual maps that name an unknown broker: those alternate between pending and invalid for ever (counterexample proved). |
| C43 | Partition creation is idempotent and never replaces existing partitions | proved | `Topic.lean` | state machine, case analysis, idempotence | Every store and every map with distinct keys; C43_keys shows reachable topics have such maps. |
| C44 | Resource names are validated | partial | `Misc.lean` | equivalence; empty name violated | The empty name is accepted; otherwise the equivalence holds for every string. |
| C45 | Responses on a shared connection reach their own requests | proved | `Mux.lean` | step invariant on ids | Every interleaving of requests, streams, time-outs, drops, failed sends, responses (known, unknown, repeated), connection end and shutdown, for fewer than 2^32 requests per connection. C45_violated_wrap shows the bound is needed. |
| C46 | Version negotiation picks a version both sides support | proved | `Net.lean` | arithmetic | For server tables with one proper range per API, which the tables of SPU and SC are. If no common version exists the request is sent with the default version all the same (finding). |
| C47 | Versioned messages are understood by a peer speaking the same version | proved | `Codec.lean` | induction on field list |  |
| C48 | Mirrored partitions are prefixes of their source | partial | `Mirror.lean` | inductive invariant over all interleavings, progress by exchanges | Proved for every interleaving of writes, sync messages (delayed, duplicated, lost, reordered), reports, reconnections, restarts, failing writes and retention, with one connection served at a time: the target is a prefix of the source, and reaches it after as many exchanges as records are missing. Violated when two connections to the target overlap (check and write are not atomic), when the source fails over (uncommitted records are mirrored), when retention removes unmirrored records (the mirror is stuck for good), and when the byte limit of a message cuts a batch. |
| C49 | Partition names identify topic and partition uniquely | partial | `Misc.lean` | last-dash decomposition | Proved in full for replica keys (unsigned numbers) and for non-negative numbers in the i32 helpers; negative numbers collide. |
| C50 | Offset listeners always observe the latest published offset | proved | `Misc.lean` | interleaving step relation | Interleaving of any number of publishers and listeners; the event-listener crate is modelled by its documented behaviour. |
| C51 | Requests framed on a socket are recovered whatever the packet boundaries | proved | `Net.lean` | chunking induction | Messages shorter than 2^31-4 bytes. Length fields no encoder writes are not checked: panic or endless wait (finding). |
| C52 | SmartModule look-back and filtering keep record offsets | partial | `Filter.lean` | offsets of filtered batches; violated for clients numbering by index | Every filter and every batch list: exactly the passing records of the processed batches are delivered, once and in order, and the stream resumes after the last processed batch; stored offsets are delivered if everything passes. The claim as stated is false in the code: offsets of filtered records are renumbered from the batch base, the record deltas have the wrong sign from the second batch on, and batches are skipped when a whole segment yields nothing or one output exceeds max_bytes. |
| C53 | Replica assignments are stable and partitions agree with their topic | partial | `Topic.lean` | inductive invariant on topic and partition stores | Proved when the result of an evaluation is visible before the next one. Overlapping evaluations can leave a partition whose replicas differ from the topic's map for ever (counterexample proved). |
| C54 | A slow stream does not hold up other requests on the connection | partial | `Mux.lean` | step relation, reachability of completion | Holds while the queues of the open streams have room; a full queue stops the dispatcher with the table locked, and then no other request can be answered, registered or time out (counterexample proved). |
| C55 | Messages sent from file slices carry exactly the announced bytes | partial | `FileWrite.lean` | structural refinement of the ordinary encoder by the file encoder, composed with C51 | Proved for stream responses, fetch responses, replication and mirroring requests of any shape and version, when slices are read completely. Without zero copy a slice is read by one pread call whose short result is sent as is (counterexample proved), and the produce request's file encoding omits the SmartModules its announced length counts (proved for every such request; nothing sends one). |
| C56 | A SmartModule is shown exactly the past records it asks for | partial | `LookBack.lean` | refinement of the log reader (C13) and induction over the committed batches from the newest | After every history of writes, watermark changes, size retention and reopening: look-back by count gives the beginning of the wanted records, and all of them when no segment begins among them; look-back by age is exact for batches of at least two records with non-decreasing timestamps when the log starts at 0 or an old batch is left. Newest records after a segment boundary are left out, single-record batches are skipped or make the look-back fail, and it fails after retention (counterexamples proved). |
| C57 | A chain of SmartModules processes each record through all modules in order | partial | `Chain.lean` | interchange of stage-wise and record-wise processing by induction over records and modules | Without failures proved for every chain, every memory and every batch: stage by stage equals record by record, in output and state, and batching does not matter. Failures are characterised for every chain (C57_failure) and as claimed for one module; with several modules an error in an earlier one delivers records that have not passed the later ones, and after an array map the error names the wrong offset (counterexamples proved). |
| C58 | SmartModules on the producer side store exactly what the chain yields | partial | `SmartProduce.lean` | induction over batches and writes, refinement of the record-wise semantics of C57 | Proved for every chain: the stored values are exactly the chain's output over any sequence of successful writes, and a failing chain stores nothing. Consecutive offsets are proved for chains that make one record of each; filters leave gaps and array maps make offsets overlap. A storage failure after a deduplication filter loses the record when it is sent again, and all timestamps are lost (counterexamples proved). |
| C59 | A consumer stream passes each record through its SmartModules once | partial | `SmartStream.lean` | invariant over appends and fetches, refinement of the record-wise semantics of C57 | Proved for every chain that does not fail and every sequence of appends and fetches, when no response is cut off by its size limit, the stream starts at a batch boundary and each read has some output or reaches the end. A response that is cut off makes the chain process a batch twice; a start inside a batch lets the chain see earlier records (counterexamples proved). |
| C60 | Updates of stored metadata are never lost and deleted objects stay deleted | partial | `LocalStore.lean` | invariant over all schedules of atomic actions (revisions only grow while the object stays) | Proved for any number of tasks and every interleaving while the object is not deleted: a successful update was applied to exactly the version it was computed from. With deletions: linking a child resurrects a deleted parent, an update recreates a deleted object, and revisions restart at 0 so that an update reaches a later object of the same name (counterexamples proved). |
| C61 | Deleting a stored object deletes exactly its children | partial | `LocalStore.lean` | invariant (parents and children agree) over all sequences of requests | Proved for every sequence of requests, one at a time, as the controller makes them. With concurrent requests a refused link leaves a child that outlives its parent; a child whose parent does not exist can never be deleted; a deleted child that was updated stays in its parent's list (counterexamples proved). |
| C62 | The controller's cache converges to the local metadata storage | partial | `LocalWatch.lean` | invariant: the cache plus the changes still to come gives the storage; measure for settling; stuck states closed under steps | Proved for every interleaving in which changes are sent in the order they were written and no listing has an older revision of a cached object; a quiet listing repairs everything else. Two writers can send in the wrong order (deleted object stays in the cache), an object deleted and re-created around a listing is ignored, and the dispatcher blocks for ever on its own full queue (counterexamples proved). |
| C63 | The local metadata storage survives restarts | partial | `LocalDisk.lean` | invariant over operations and restarts | Proved for every history without failing file operations; failures stay confined to their object while running. A crash inside a write makes the whole kind unloadable, a failed removal brings the object back, a failed write is visible until the restart (counterexamples proved). |
| C64 | A broker leads and follows exactly the replicas it is told to | partial | `Roles.lean` | invariant per replica over all runs (each action only touches its replica); connections by a separate invariant | Safety proved for every sequence of messages, failures and restarts in which a notice of deletion names the known leader, without the membership of followers; exactly the told roles proved when nothing fails and assignments change properly. A broker that is no replica follows a partition whose leader changes, a deletion that is taken back leaves the replica unserved, a deletion with a new leader leads to two roles, and a failed replica is not tried again (counterexamples proved). |
| C65 | A replica's records are kept while it is assigned and gone once it is deleted | partial | `Roles.lean` | prefix invariant over runs; invariant that records imply a role | Keeping proved without restrictions. Removal proved while nothing fails, the broker does not restart and notices of deletion name the known leader; otherwise records of deleted partitions come back in partitions of the same name (counterexamples proved). |
| C66 | A partition disappears only after its deletion was requested | partial | `Removal.lean` | invariant over the states of controller, brokers and messages under way | Proved for every interleaving in which a name is used again only when nothing about its removal is under way; with Kubernetes an unmarked partition is never removed by an acknowledgement, without restrictions. With the local storage a late acknowledgement deletes a partition that was created again; with Kubernetes a lost acknowledgement leaves the partition in deletion (counterexamples proved). |
| C67 | Administrative requests are carried out only for those permitted | partial | `Access.lean` | case analysis of every handler over an arbitrary decision; characterisation of the policy's evaluation by the permissions held | Proved for creating and listing everything but mirrors, and that the permitted are never refused. Deleting and changing is open to everybody, mirrors and watches are not checked, three handlers go on when the decision fails, read-only mode permits deletion, a permission for one object covers all names contained in its name (counterexamples proved). |
| C68 | An administrative request changes exactly the object it names | partial | `AdminApi.lean` | characterisation of the writes of every handler, frame conditions on the stores; induction over sequences of requests | One write, frame conditions, answers and protection proved for all requests. SmartModules, SPU groups and home mirrors are overwritten, trials of most kinds are carried out, the number of partitions wraps around, lists of partitions and mirrors ignore filters, concurrent creations both succeed (counterexamples proved). |
| C69 | A SmartModule is found, listed and deleted by its qualified name | partial | `Package.lean` | unique decomposition of texts at separators | Proved for packaged modules, names without repeated separators, and ids of names without dashes. Dashes make different packages share an id, modules without a package answer to any group and version, short names work at the broker only, trailing parts are ignored (counterexamples proved). |
| C70 | What a leader reports about a partition reaches the controller | partial | `Reports.lean` | invariant: the last report is in the sink, on the wire, in the queue or in the store with nothing about its partition after it | Proved for every interleaving without broken connections, unknown partitions and other writers of the same status, without the base offset. The base offset is never recorded, a report is lost with the connection or with an unknown partition in the same message, and a notice of full storage overwrites new offsets with old ones (counterexamples proved). |
| C71 | A broker is shown as online exactly while it is connected | partial | `Health.lean` | invariant relating connections, the map of health, the counter of changes and the loop of the controller; progress by a measure | Proved for brokers that have registered since the controller was started, never have two connections at the same time, and non-overlapping increments of the counter of changes. A broker that reconnects before the old connection has ended is shown as offline, a broker that died while the controller was down stays online, and overlapping increments hide a change (counterexamples proved). |
| C72 | Handling status messages never blocks the controller | partial | `Blocking.lean` | decreasing measure, and analysis of the states without successors | Proved without restriction for reports of offsets, removed replicas and mirrors, and for notices of full storage that fit into the channel. A notice with two more entries than the channel holds can block the dispatcher and everybody who needs the partition store for ever (counterexample proved). |
| C73 | Administrative requests arrive as they were sent | partial | `Objects.lean` | round trip through the universe of protocol types with versioned fields; prefix property of encodings at two versions | Proved for all kinds and requests from version 11 on, and for older versions for lists, watches, deletions (without mirrors) and the creation of table formats, groups, custom SPUs and computed topics. In versions 9 and 10 assigned topics and SmartModules are garbled because they are encoded again at another version than they are read at, mirrors are unknown, and changes before version 11 cannot be read (counterexamples proved). |
| C74 | No accepted record is left in the producer's queue | partial | `Flush.lean` | invariant relating queue, pending events and the armed timer; decreasing measure for the task's own steps | Proved for all interleavings as long as the system clock is not set back: a task left to itself comes to rest after boundedly many steps, with the queue empty and every channel settled. If the clock is set back a batch can stay in the queue. Not modelled: the end of the task when the producer is dropped (queued records are then lost and their futures fail). |
| C75 | A flush returns only after everything accepted before was sent | partial | `Flush.lean` | conservation of flush tokens under the pool's read-write lock; monotone settlement of batches | Proved without dropped calls: the requests of all earlier records have ended; and that they succeeded, if the two hash maps are visited in the same order (always with one partition) and errors are not cleared. With several partitions the wrong partition's error is read; after a dropped call the next one returns early. |
| C76 | Topics of a remote cluster follow its home cluster | partial | `MirrorTopics.lean` | Model of the home side (which topics a message lists) and the remote side (what to delete, `sync_topic`), and a state machine of both with messages under way, work left and actions of the store not carried out yet. One round is computed as a fold over the tasks; the two run theorems are invariants over all events. | After a message has been handled the mirrored topics are exactly the ones offered, with leader and direction, whatever was there before; a topic that stays offered is never deleted and own topics are untouched, in every run including lost connections and late actions. Not true of the code, each with a witness: changed settings do not follow once leader and direction agree; a topic whose leading broker is not registered at the moment is left out of the message and so deleted; an own topic of the same name is taken over. |
| C77 | A home cluster shares topics only with the remote clusters they are for | partial | `MirrorTopics.lean` | Soundness of the list of topics against a membership specification; induction over runs for who is connected. | Messages list only topics with a partition for the remote cluster; connections are made only by registered remote clusters that were not refused, and messages are sent only while it is registered. A check that fails (rather than refuses) lets the remote cluster in: shown by a witness. |
| C78 | A client's connections go to the right broker, are shared, and are replaced when they end | partial | `Pool.lean` | State machine of the pool: calls with their phase, the lock, connections with a flag that they have ended. An invariant (an open connection is in the pool; a connecting call has the lock and its broker has no entry) and a history invariant over prefixes of the run. | Right broker, right address, at most one open connection per broker, open serial sockets and replacement by the next serial call are proved for all runs. Streams are opened on the pooled connection without a check: after it has ended all streams to that broker go to the dead connection until a serial socket is asked for (proved for every continuation); asking for a serial socket first, as the consumer does, avoids this. The lock of the pool is held while connecting, so one unreachable broker blocks calls for all others (witness). |
| C79 | Ids of brokers are unique, groups of brokers included | partial | `SpuGroups.lean` | State machine of both stores and both controllers with the copies they work from; an invariant relative to a plan of ids, and a history invariant that reserved groups were checked. | Ids are unique in every run in which the groups are laid out without overlap; a stateful set exists only for a group that was once found free of conflicts; conflicts are found; custom ids are free. Not enforced by the code, each with a witness: brokers of a group marked invalid are registered anyway; two groups checked before their brokers are registered are both started; a reserved group that grows is not checked again; at the end of the range of i32 the check is empty. |
| C80 | A broker of a group is who the controller registered | partial | `SpuGroups.lean` | Names as lists of characters, with the decimal printing and parsing of C49; round trip and cancellation. | Ids agree for all names and ids; names and ids are distinct. The private address has the name of the group main written into it: right for main, wrong for every other group (proved for all names), so replication cannot reach brokers of other groups. |
| C81 | Commands on profiles of the client change what they say and nothing else | partial | `Profile.lean` | Configurations as association lists; commands as functions on the file; two invariants by induction over commands, frame theorems per command. | The current profile exists after every sequence of commands, and without --force its cluster does. Effects of each command are proved. Not true of the code, each with a witness: renaming onto an existing profile loses it; a renamed profile still refers to the cluster of its old name and is changed by adding a profile of that name; an interrupted save leaves a file that the next add replaces, losing all profiles. |
| C82 | Delivery at most once and at least once, in order | partial | `Delivery.lean` | State machine of the task, its connections as queues and the log; invariants on tags and copies, and on the order of the groups in log and queues. | Both delivery semantics hold in every run. The order holds as long as no sending fails (delivery at least once, any number of connections and repetitions) or one connection is used (both semantics). Not true of the code in general: after a timeout the next batches go to a new connection while the failed ones still wait on the old one and may be stored later; and all retries use the connection of the first attempt, so a broken one makes them useless. |
| C83 | The settings of a topic are the limits of its storage | partial | `TopicSettings.lean` | functions for each step of the way (two constructors of the description, validation, partition, replica, storage); case analysis against the English limits and defaults; violations on witnesses | Proved for durations and segment sizes below 2^32: accepted exactly if within the limits, and storage gets exactly the settings given or the defaults; command line and file agree; whatever is given, accepted limits are workable (C83_workable) and the retention shown is enforced (C83_shown). Missing: larger values. They are cut to 32 bits without a warning (C83_violated_segment: 4 GiB + 2 KiB becomes 2 KiB; C83_violated_retention: 137 years become 296 days; C83_violated_longer: no retention beyond 2^32 seconds exists). |
| C84 | The compression a topic requires is the compression of its log | proved | `Compress.lean` | raw batches with attribute bits, the loop of `process_batch` over any chain, the check, the deduplication filter and storage with failures; invariant of the log by induction; simulation between requests which differ in compression only | By induction over requests; chains of SmartModules and the deduplication filter are arbitrary functions, the codecs arbitrary functions (inverse to each other for C84_transparent and C84_readable). Batches received from mirrors are not checked by the code and not part of the statement. |
| C85 | A consumer reads exactly the partitions asked for | partial | `Partitions.lean` | selection as a function against a specification of what was asked for; product of the single partition sessions of C33 with the merged stream, `try_join_all` step by step; invariants by induction over events | Merging, commits and flushes are proved for all interleavings of a consumer of different partitions, the selection for requests that list no partition twice and name a mirror with one partition. Missing: with the name of a mirror that does not exist the consumer silently reads the partitions of all other mirrors (C85_violated_mirror); a partition listed twice is read twice (C85_violated_twice). Flushing is for the manual strategy; for the automatic one see C33_violated_auto. |
| C86 | A consumer that keeps reading keeps being served | partial | `Acks.lean` | state machine of the client's channel, its task and the flow control of the broker; number of acknowledgements under way as invariant, number of flushes in the channel bounded by those not waited for; progress by emptying the channel; the violation by an invariant of the stopped state | Proved in full for consumers without automatic flushes that wait for their flushes, and while at most 97 flushes were not waited for, or while incoming responses find room in the channel. Missing: the acknowledgement is put into the bounded channel with try_send and its result ignored; with a flush period of zero a hundred records read at a stretch (C86_violated_stall), or a hundred abandoned flushes (C86_violated_abandoned), make the stream stop for good. |
| C87 | Acknowledgements and commits reach the stream they name | proved | `Sessions.lean` | invariant of the table of a connection against the list of its streams; ids by position | For connections that open fewer than 2^32 streams, as the statement says; the sequence wraps around after that. |
| C88 | Streams end when their broker stops leading the partition, and only then | partial | `Sessions.lean` | induction over histories with an invariant that leader states belong to one replica; the notice stays until an acknowledgement of the same connection | Streams are told only of the deletion of their own replica (or if their own client acknowledges the offset -2), and are told of it if they are listed and no acknowledgement comes before their task looks. Missing: an acknowledgement overwrites the notice (C88_violated_overwritten); a stream being opened misses it (C88_violated_unlisted); streams of a demoted leader are never told (C88_violated_demoted, C88_violated_demoted_forever). |
| C89 | The host and a SmartModule understand each other | partial | `SmartWire.lean` | The input, output and error types are codecs built from those of C03-C05 (fields with version ranges, records, strings); the guest decodes, runs an arbitrary loop, encodes; the host decodes. Proved from the round trips of the codecs; the chain by induction on its modules, relating the loop on encoded records (with attributes and headers) to the loop of C57. | Call, aggregate call and chain are transparent at every version, for any user function. Limits: sizes below 2 GiB, aggregates from version 16, and texts of user errors below 32 KiB: beyond that the output of the call is unreadable (violated). |
| C90 | Requests to a broker and its answers arrive as they were sent | proved | `SpuMessages.lean` | Codecs of all requests, answers and error codes composed from those of their fields, with their version ranges; a relation `Sends c seen fits` (values that fit arrive as seen, sizes are right) closed under pairs, lists, options, versioned fields and structs, instantiated once per message; the dispatch by key and the header are composed on top. The tables of error codes are generated from the source text. | All ten requests of SpuServerApiKey, their answers and all 64 error codes. The sizes are those of the length prefixes; what happens beyond them is C03, what happens to batches with a schema C07. Streams of answers and file slices are C55. |
| C91 | What controller, brokers and mirrors tell each other arrives as it was sent | partial | `ClusterMessages.lean` | Model of the seven services of the cluster (keys, fixed versions, contents) over the codecs of C02/C90; by cases on the kind of message, each codec shown to transmit what `reqSeen` says. | All 19 kinds arrive in full but two: updates of brokers are sent at version 0, which has no local public endpoint, and updates of SmartModules at version 10, which has no visibility; both fields never arrive (violated; nothing in the broker reads them). Checksum and length of batches are filled in by the encoder. |
| C92 | Followers that stay connected catch up with their leader, and everything is committed | partial | `ReplicationProgress.lean` | State machine with tasks, pending updates and messages; the two reads of `as_offset` are separate steps. Invariant: the leader knows a connected follower's position or a report is under way, and if it differs from its own, something fresh is under way. Termination by a lexicographic measure (what the leader knows, what followers have, what is under way). | Proved for all runs, unless: retention at the leader removed records a follower still needs (violated: it is stuck for ever), a batch is larger than peer_max_bytes (violated), or an older connection of the follower whose end was not noticed takes its updates (violated: waits for the timer). Storage does not fail; a connection ends on both sides at once; ends of followers' logs are not cut while the leader runs. |
| C93 | A hub package that verifies is the package that was signed | partial | `HubPackage.lean` | Functions over lists of entries, with the temporary directory and the hash tables as maps; an abstract signature scheme and serialisation. Verification is shown to be about the last entry of each name, reading about the first. The violations hold for every scheme and package. | Proved for packages without directories and with distinct names: signed packages verify, and contents are as signed if the signature was made by the holder of the key. Violated: an empty signature list naming a public key is accepted for any package (no key needed); a duplicate entry in front is read but not verified; signatures of different packages can be combined; a package signed twice verifies with no key; of two files with one base name only the first can be read. Tar, gzip, YAML, JSON and ed25519 are parameters or not modelled. |
| C94 | A mirror that stays connected catches up with its source | partial | `MirrorProgress.lean` | A state machine whose state holds what causes messages to be sent (listener, flag, position read, messages in flight). An invariant says that a target that lacks records always has a report, message, flag or unheard change to wait for; a lexicographic measure (missing records, wrong beliefs, weighted messages) is lowered by every step. The violations are invariants of the endless exchanges. | Proved for one connection at a time, no batch larger than a message, retention that leaves what the target lacks, and a source that loses no records. Each of the last three is needed: otherwise the clusters connect and disconnect, or exchange empty messages, for ever. |
| C95 | A package id means the same package however it is written | partial | `PackageIds.lean` | Functions on lists of characters; splitting at a character and joining are inverse, which determines the last segments of a text. URLs and semantic versions are parameters. | Proved for ids with clean names and tags that do not look like versions. Violated: a registry that is not a URL is silently replaced by the default one; the registry is not used for downloads; a tag that looks like a version is read back as a version; empty names, groups and tags are accepted; a registry that ends with two slashes loses one. URLs and semantic versions are parameters with stated laws. |
| C96 | The latest release of a package is the newest one published for the target | partial | `Releases.lean` | Lists of releases with a stable sort by version, over any linear order; invariant over all sequences of publications. | Proved for packages made by publishing releases. Violated: a withdrawn (yanked) release is offered as the latest; an index that is not sorted yields an older release. |
| C97 | The public address of a broker on Kubernetes leads to that broker | partial | `Addresses.lean` | Services as a finite map changed by events; invariant that a service selects exactly the pod of the broker in its name; injectivity of the names; the controller's pass as a function. | Proved for addresses that are not shared and groups whose node ports differ. Violated: two groups get the same node ports, so that the pass of the controller never ends; the annotated address is registered for several brokers while load balancers have no addresses; a NodePort service without annotation gives an address without host; a configured load balancer address is ignored. |
| C98 | A request about many partitions is answered for each of them | partial | `FetchMany.lean` | The handlers as loops over the request with a schedule of other tasks' steps before each partition; induction over the request; each replica of a broker is one reached from the empty replica, so C11 applies. | Proved for all requests and schedules. Violated: the limit of a partition is ignored; the limit of the request holds for each partition and not for the response, and a negative one is none; the start for a consumer may lie outside of the log. |
| C99 | fluvio produce sends what it reads | partial | `CliProduce.lean` | The command as functions of its input and of the producer's answers; lines of a text by induction over the bytes; splitting at the first occurrence is sound and complete. | Proved for inputs of UTF-8 lines that contain the separator, for readable files, and for one mirror topic. Violated: a line that is no UTF-8 silently ends the input; lines without separator are skipped; --raw sends an empty record for an unreadable file; each time success is reported. --mirror looks at all topics and on a remote cluster finds only partitions that refuse records. |
| C100 | fluvio consume prints the records asked for | partial | `CliConsume.lean` | The loop as a function of the items of the stream; induction over the stream. | Proved for one partition whose stream has the end, and without --end. Violated: a record behind the end is printed if the end itself is not in the stream; with several partitions the first one that reaches the end stops the command; no key and the key null look the same; full-table without a terminal panics. |
| C101 | Secrets get into the configuration of a connector, and only where they belong | partial | `ConnectorSecret.lean` | Store, context and template as functions; both directions of rendering by induction over template and declarations; characters by cases below 128. | Proved but for: configurations without API version, whose secrets are dropped; values with line breaks, which become entries of the configuration (values are inserted before YAML is parsed); values with blanks at their ends, which files lose; references that were written by serde, which cannot be read again. |
| C102 | A connector consumes what its configuration says | partial | `ConnectorConsumer.lean` | Reading is characterised by what is accepted; settings by a structure of independent requirements. | Proved but for: an empty sequence of partitions, which means all; a partition named twice, which is read twice; sizes of 2 GiB and more, which are cut to 32 bits. |
| C103 | The files of a partition are found again after a stop at any moment | partial | `SegmentFiles.lean` | Directories as functions from names to contents; a state machine whose steps are single operations on files, with stops between any two; invariant: the log files present are contiguous segments, all but the last with an index. | Proved but for: a file of 20 bytes that are no UTF-8 with the extension log, which makes the start panic; a name with a sign (+0000000000000000005.log), which counts as a second segment with the same offset, whose records are then read twice; a stop between removing the log and the index of a segment, after which the index is never removed. |
| C104 | A topic with deduplication stores each value once within its bounds and loses none | partial | `Dedup.lean` | The set of the example filter refines the last n values kept, by an invariant on its numbers; runs of writes, commits and restarts by induction on events, on top of C58's model of writes through a chain. | Proved but for: a leader that starts again forgets all values if the bounds have an age (records stored through the chain have no timestamp), and some if records were dropped before, are not committed, or came in requests of several batches; after a write that failed the values are remembered though not stored, so they are dropped when sent again; parameters of the user override the count; a count of 2^32 or more leaves the partition without a leader; after 2^32 values the wrong ones are forgotten. |
| C105 | A connection to the controller has the permissions of its certificate | partial | `Identity.lean` | Messages are bytes: the claim of the authenticator is encoded and decoded with the codecs of the model. `startServer` is the evaluation of the command line; `connect` the way of a connection through listener, TLS, authenticator and service. The theorem compares the granted context with that of the bound roles; `C105_permitted_partial` composes it with C67. | At the public address of a controller with TLS, client certificates, scopes and a policy this is proved for all clients and all they send. The code violates the rest: at the address without TLS behind the proxy, without a file of scopes, and without TLS clients name their roles themselves; brokers give everybody all permissions. The TLS library and flv-tls-proxy are modelled by what they are documented to do. |
| C106 | A hexadecimal dump shows the record | proved | `HexDump.lean` | The loop with its two accumulators is modelled index by index and shown to equal a line-by-line specification; a reader that looks only at columns gets the bytes back, by induction over the rows. | For records shorter than 2^32 bytes (records are at most 2^31). That `content_inspector` calls a record binary is not modelled. |
| C107 | The active version is the one the settings name | partial | `Fvm.lean` | Commands are programs over a file system that give every state on the way, the last state and the result; an invariant over states is kept by every command, and the directories of other versions at every moment of it. Violations are runs of the model or general theorems. | Proved for completed commands and failed downloads when the active version is not uninstalled. Not so for the code: artifacts that are new upstream are never recorded, binaries of other versions are left over, the active version can be uninstalled, and a stop may leave a mixture, a directory that cannot be removed or settings that can never be read again. The archive, checksums and the registry are not modelled. |
| C108 | A SmartModule is confined to its memory and its fuel | partial | `Confined.lean` | A module is an arbitrary function that says what it does; induction over its acts shows what they leave unchanged. The two copies between host and module are modelled as functions of addresses. | The output, the size of each memory and the fuel are as claimed for every module. Confinement is proved for modules whose allocator does what it should, and memories of at most 2 GiB; the code checks neither, so a module can have its input written to any address within 2 GiB of its memory. The limit of a store is one for each module. That WebAssembly instructions cannot leave the linear memory is trusted; WASI is not modelled. |
| C109 | What SmartModules use is counted once | partial | `SmartMetrics.lean` | Case analysis of how a call ends, with the fuel computed from the acts of the module; conservation by induction over sequences of counts and exports. | Calls, bytes and errors are counted once, and exports lose nothing if every module has one name, as in the broker. Fuel and time of all modules but aggregates are counted twice, records of aggregates never, remainders of modules with several names are lost, and idle modules get a millisecond at each export. Counters are natural numbers. |
| C110 | A cluster on the local machine is started once, stopped completely and resumed as it was | partial | `LocalCluster.lean` | State machine of the machine's processes, files and profile; invariant (process numbers, roles of components, waiting processes) by induction over executions; ending a start's processes is shown to be the inverse of starting them. | Proved for all executions without --skip-checks. Violated in the code: a deletion removes the default data directory instead of the cluster's own; a failed resume or upgrade reports success; a start that fails half way blocks start and resume until a shutdown; delete --k8 does not look at the type of the cluster. |
| C111 | Partitions of mirrored topics are paired one to one | partial | `MirrorPairing.lean` | Model of both clusters (`Mirror.Pairing`): home topics, brokers and addresses; remote topics, partitions and tasks. Invariants over all runs (`Named`, `Distinct`, `RInv`) for the positive part; `Stuck` shows that a partition's configuration never changes, which gives the violations for all continuations. | Partitions are served only to their own cluster and topic; one to one if no cluster is listed twice in a file; connected to the right broker by one task if the topic is not deleted and no broker moves. Violated otherwise: a cluster listed twice, a broker whose address changes, a topic of the remote cluster's own that is taken over, a topic that is deleted and made anew. |
| C112 | Checks before a start are made in order and change nothing when it is refused | partial | `ClusterCheck.lean` | Model of the loop, of the insertion sort with `check_compare` and of every check on a machine (`Cli.ClusterCheck`); induction over the list of checks for the general part, case analysis over the purposes for the order. | Requirements, completeness and the verdict hold for all lists of checks. The order is right for the lists the program uses, not for all lists; a start that is refused can have replaced the system chart before. |
| C113 | Commands run on the current release channel | partial | `Channel.lean` | Model of the configuration, of the three commands on a file system and of `main` of the frontend (`Cli.Channel`); invariant over all histories of calls, with the exact change of configuration and files for each command. | What is run is the binary of the current channel; commands on channels keep the others when the configuration can be read. The current channel can be deleted, a channel created on a new machine or in a configuration that cannot be read replaces the whole configuration, a failing switch has switched, and a channel without a binary fails silently. |
| C114 | The identity used for the hub is kept and is private | partial | `HubAccess.lean` | Model of the directory of profiles with the disk after each write, of hexadecimal text and key files and of the tokens (`Hub.Access`); invariant over all histories with interruptions, round trips by induction over the bytes. | The current profile is stable and its keys belong together in all histories. A first load that is interrupted blocks all later ones, a profile named by the environment that has no keys gets new ones at each load, the mode of the private key file is never set, and with several organisations the token is an arbitrary one. |
| C115 | Local connectors are tracked from start to shutdown | partial | `Deploy.lean` | State machine of index file, processes and directories (`Connector.Deploy`); invariants by induction over all histories, each failure as a theorem for all machines. | Names are unique in all histories, and in orderly ones each running connector is tracked. The process is started before the name is checked, a missing temporary directory keeps the entry for good, a reused process id belongs to a foreign program that shutdown ends, and an index that cannot be read is replaced. |

## 7. Axioms each theorem depends on

From `Verif/Audit.lean` (`#print axioms`).

* `Classical.choice`, `Quot.sound`, `propext`: `C01_varint_roundtrip`, `C01_varint_prefix_free`, `C02_exact_range_partial`, `C02_violated_nontermination`, `C03_roundtrip`, `C03_prefix_free`, `C03_long_string_misread`, `C04_values_partial`, `C04_never_misread_partial`, `C04_record`, `C04_record_set`, `C04_violated_bytebuf_panic`, `C05_record_roundtrip`, `C06_batch_roundtrip`, `C06_skip`, `C06_raw_batch_roundtrip`, `C06_producer_to_consumer`, `C07_record_set_roundtrip`, `C07_raw_record_set_roundtrip`, `C07_announced_size_partial`, `C07_size_off_by_schema`, `C08_burst_detected`, `C08_single_bit`, `C09_offsets_gap_free`, `C09_offsets_unique`, `C09_write_reports`, `C09_rejected_write_partial`, `C10_told_offset_partial`, `C10_consumer_partial`, `C11_fetch`, `C11_fetch_stored`, `C11_outside`, `C11_fetch_committed`, `C12_committed_partial`, `C13_reader_partial`, `C13_client_partial`, `C14_files`, `C14_interrupted_write`, `C14_reopened_partial`, `C14_batch_without_index_entry`, `C14_roll_over`, `C14_during_retention`, `C14_scan_is_list`, `C14_opens_partial`, `C15_index`, `C16_removes_oldest`, `C16_only_as_needed_partial`, `C16_within_limit_partial`, `C17_only_expired`, `C17_no_hole_partial`, `C18_hw_is_checkpoint`, `C18_hw_le_leo`, `C18_consistent_partial`, `C19_partial`, `C19_follower_view_partial`, `C19_bytes_partial`, `C20_leader`, `C20_follower`, `C21_value`, `C21_advances`, `C21_order`, `C21_single`, `C22_acked_everywhere_partial`, `C22_timeout_is_error`, `C23_committed_kept_partial`, `C23_converges_partial`, `C23_violated_stuck`, `C24_restart_partial`, `C24_get_partial`, `C24_interrupted`, `C25_offsets_partial`, `C25_commit`, `C25_delete`, `C25_delete_replica`, `C25_fetch`, `C25_violated_stored_but_rejected`, `C25_violated_deleted_offset_returns`, `C27_even`, `C27_even_all_online`, `C29_batch_limits`, `C29_sent_limits`, `C31_client_partial`, `C31_reader_partial`, `C32_client_partial`, `C32_take_partial`, `C33_never_ahead`, `C33_flush_partial`, `C35_deletes_first`, `C35_deletes_first_full`, `C35_any_order_partial`, `C36_client_partial`, `C36_broker_partial`, `C36_converges_partial`, `C37_in_order_partial`, `C38_valid`, `C38_complete`, `C39_least_load_partial`, `C39_spread_partial`, `C39_fresh_balanced`, `C39_violated_wrap`, `C40_validate`, `C41_on`, `C42_provisioned`, `C42_complete`, `C42_invalid_no_partitions`, `C42_only_provisioned`, `C42_fixed_point_partial`, `C43_creates_missing`, `C43_idempotent`, `C43_keys`, `C44_accepted_partial`, `C45_request`, `C45_stream`, `C45_isolation`, `C45_delivered`, `C45_violated_wrap`, `C47_versioned`, `C48_violated_retention`, `C50_never_stuck`, `C50_unseen_data`, `C50_final_value`, `C51_frames`, `C51_so_far`, `C51_bad_length`, `C52_filter_partial`, `C53_agree`, `C53_stable`, `C54_resumes`, `C54_violated_stall`, `C55_stream_partial`, `C55_fetch_partial`, `C55_replication_partial`, `C55_mirror_partial`, `C55_records`, `C55_violated_short_read`, `C55_violated_produce`, `C56_last_partial`, `C56_last_age_partial`, `C56_age_partial`, `C58_violated_timestamps`, `C59_once_partial`, `C60_status_partial`, `C60_spec_partial`, `C60_by_key_partial`, `C60_link_partial`, `C62_converges_partial`, `C62_resync`, `C62_violated_deadlock`, `C64_safe_partial`, `C64_exact_partial`, `C65_kept`, `C65_gone_partial`, `C67_asked_partial`, `C67_permitted_partial`, `C67_stranger_partial`, `C67_not_refused`, `C67_text_partial`, `C67_violated_substring`, `C67_violated_delete`, `C67_violated_mirrors`, `C67_violated_watch`, `C67_violated_fail_open`, `C67_violated_read_only`, `C67_violated_root`, `C67_violated_text`, `C68_one_write`, `C68_created`, `C68_deleted`, `C68_updated_partial`, `C68_answer`, `C68_protected`, `C68_never_replaces_partial`, `C68_dry_run_partial`, `C68_spu_ids`, `C68_list_partial`, `C68_violated_replace`, `C68_violated_dry_run`, `C68_violated_partition_count`, `C68_violated_filters`, `C68_violated_race`, `C68_violated_race_ids`, `C69_match_partial`, `C69_found_partial`, `C69_full_name_partial`, `C69_created_deleted`, `C69_agree_partial`, `C69_list_partial`, `C69_violated_store_id`, `C69_violated_shadow`, `C69_violated_trailing`, `C69_violated_short_name`, `C69_violated_ambiguous`, `C69_violated_slash`, `C70_last_report_recorded_partial`, `C70_nothing_stays_under_way`, `C70_report_can_be_completed_partial`, `C70_violated_base_offset`, `C70_violated_connection_lost`, `C70_violated_unknown_partition`, `C70_violated_lost_update`, `C72_reports_complete`, `C72_status_completes_partial`, `C73_envelope`, `C73_requests_partial`, `C73_create_partial`, `C73_create_old_partial`, `C73_truncated`, `C73_violated_assigned`, `C73_violated_two_partitions`, `C73_violated_package`, `C73_violated_smartmodule`, `C73_violated_mirror`, `C73_violated_update`, `C74_drains_partial`, `C75_waits_partial`, `C75_delivered_partial`, `C76_follows_partial`, `C76_settings_partial`, `C76_kept_partial`, `C76_own_untouched_partial`, `C76_violated_settings`, `C77_only_own_topics`, `C78_right_broker`, `C78_one_connection`, `C78_serial_open`, `C78_stream_open_partial`, `C78_stream_after_serial`, `C78_violated_stream`, `C78_violated_blocked`, `C79_unique_partial`, `C79_custom`, `C79_started_checked`, `C79_conflict_found`, `C79_violated_duplicate`, `C79_violated_both_started`, `C79_violated_grows`, `C79_violated_overflow`, `C80_pod_id`, `C80_ids`, `C80_private_host_partial`, `C80_violated_private_host`, `C82_at_most_once`, `C82_told_stored`, `C82_at_least_once`, `C82_only_queued`, `C82_order_partial`, `C82_order_connection`, `C84_log`, `C84_producer`, `C84_refused`, `C84_smartmodules`, `C84_transparent`, `C84_readable`, `C85_selected_partial`, `C85_only_selected`, `C85_each`, `C85_flush`, `C85_violated_mirror`, `C85_violated_mirror_ignored`, `C86_goes_on`, `C86_goes_on_partial`, `C86_with_room`, `C87_ids`, `C87_ack`, `C87_ack_unknown`, `C87_commit`, `C87_commit_unknown`, `C88_only_deleted`, `C88_others_unaffected`, `C88_told_partial`, `C88_left_alone`, `C88_violated_demoted_forever`, `C89_call`, `C89_aggregate`, `C89_chain_partial`, `C89_again_partial`, `C89_garbled`, `C89_violated_long_error`, `C90_request`, `C90_unsendable`, `C90_exchange`, `C90_unknown_key`, `C90_error`, `C90_success`, `C90_unknown_error`, `C91_message_partial`, `C91_complete`, `C91_unknown_key`, `C91_answer`, `C91_violated_spu`, `C91_violated_smartmodule`, `C92_settles`, `C92_reaches`, `C92_caught_up_partial`, `C92_committed_partial`, `C93_signed_partial`, `C93_violated_duplicate`, `C93_violated_twice`, `C94_settles`, `C94_reaches`, `C94_caught_up_partial`, `C94_violated_retention`, `C94_violated_ahead`, `C94_violated_big`, `C95_violated_ignored`, `C95_violated_slashes`, `C96_newest`, `C97_local`, `C97_public_partial`, `C97_id`, `C97_served`, `C97_named`, `C97_ends_partial`, `C97_ends_one_group`, `C97_violated_two_groups`, `C97_violated_shared_address`, `C97_violated_balancer_ip`, `C98_fetch_partial`, `C98_violated_limit`, `C99_mirror_partial`, `C100_all`, `C100_until_partial`, `C100_until_any`, `C100_violated_behind`, `C100_violated_partitions`, `C100_violated_null`, `C100_violated_full_table`, `C101_name`, `C101_render`, `C101_only_declared`, `C101_lines_partial`, `C101_file_partial`, `C101_value_partial`, `C101_reference`, `C101_debug`, `C101_violated_unversioned`, `C101_violated_injection`, `C101_violated_trim`, `C101_violated_reference`, `C102_partition_roundtrip`, `C102_partition`, `C102_start_roundtrip`, `C102_topic`, `C103_digits`, `C103_name`, `C103_inj`, `C103_listing`, `C103_stop`, `C103_running`, `C103_active`, `C103_violated_plus`, `C103_violated_leftover`, `C104_count`, `C104_kept`, `C104_exact_partial`, `C104_violated_age`, `C104_violated_large`, `C105_wire`, `C105_certificate_partial`, `C105_permitted_partial`, `C105_anonymous`, `C105_no_policy`, `C105_claimed`, `C105_violated_direct`, `C105_violated_no_scopes`, `C105_violated_no_tls`, `C105_violated_example`, `C106_size`, `C106_place`, `C106_read`, `C106_stream`, `C107_update_partial`, `C108_output`, `C109_kept_partial`, `C110_brokers_apart`, `C110_broker_ports`, `C110_one_cluster`, `C110_started`, `C110_stopped`, `C110_stop_undoes_start`, `C110_resumed`, `C110_data_kept`, `C110_confirmed`, `C110_deleted_partial`, `C110_delete_kinds`, `C110_upgraded`, `C110_violated_failed_start`, `C110_violated_own_dir`, `C110_violated_cloud_delete`, `C110_violated_search`, `C111_own_cluster`, `C111_own_topic`, `C111_one_to_one_partial`, `C111_connected_partial`, `C111_one_task_partial`, `C111_established`, `C111_violated_moved`, `C111_violated_taken_over`, `C113_runs_current`, `C113_reached_partial`, `C113_update_refused`, `C113_first_run`, `C113_switch`, `C113_switch_succeeds`, `C113_switch_unknown`, `C113_development`, `C113_unreadable`, `C113_create_partial`, `C113_create_fails`, `C113_delete`, `C113_default_paths_apart`, `C113_found_partial`, `C113_violated_delete_current`, `C113_violated_create_replaces`, `C113_violated_create_first`, `C113_violated_switch_fails`, `C113_violated_unpublished`, `C113_violated_silent`, `C113_violated_nested`, `C113_violated_dev`, `C113_violated_delete_dev`, `C113_violated_update`, `C113_violated_help`, `C113_violated_delete_reports`, `C113_violated_latest`, `C114_same`, `C114_first`, `C114_hubid`, `C114_key_roundtrip`, `C114_token_partial`, `C114_violated_named_hubid`, `C115_shutdown_partial`, `C115_tracked_partial`, `C115_violated_stuck`, `C115_violated_pid`, `C115_violated_signal`
* `Quot.sound`, `propext`: `C02_violated_wrong_value`, `C04_violated_batch_accepted`, `C04_violated_record_data`, `C06_schema_id_dropped`, `C07_violated_size`, `C08_crc_covers_payload`, `C08_not_verified_on_read`, `C09_schema_batch_panics`, `C10_violated_at_most_once`, `C10_violated_smartmodule`, `C10_violated_dropped`, `C12_violated`, `C13_violated_truncated_batch`, `C14_violated_index_full`, `C16_violated_one_round`, `C16_violated_after_restart`, `C16_violated_removes_too_much`, `C17_violated_hole`, `C18_violated_log_start`, `C18_violated_unreadable`, `C18_checkpoint_caught_up_partial`, `C19_violated_cut_batch`, `C21_capped`, `C22_violated_cut_batch`, `C24_violated_failed_delete`, `C24_violated_retention`, `C24_violated_old_watermark`, `C26_same_key_same_partition`, `C27_valid`, `C28_exactly_once_in_order`, `C28_sent_is_final`, `C29_rejection_partial`, `C29_violated_rejects_sendable`, `C30_relative_partial`, `C30_absolute`, `C30_violated_inverted_log`, `C31_violated_late_notification`, `C31_violated_starvation`, `C32_violated_take_records`, `C33_never_decreases`, `C34_single_partial`, `C34_resume_partial`, `C41_off`, `C41_most_caught_up_partial`, `C41_marked_offline_partial`, `C41_candidates_are_replicas`, `C41_report_recorded`, `C41_violated_ahead`, `C41_violated_out_of_storage`, `C42_violated_livelock`, `C46_highest_common`, `C46_server_tables`, `C46_sent_anyway`, `C48_prefix_partial`, `C48_keeps`, `C48_reaches`, `C48_answer`, `C48_violated_cut_batch`, `C49_replica_key`, `C49_signed_partial`, `C49_violated_negative`, `C49_parse_sound`, `C52_resume`, `C52_violated_client_offset`, `C52_violated_skips_segment`, `C52_violated_oversized`, `C52_violated_start_inside_batch`, `C56_violated_segment`, `C56_violated_single_record`, `C56_violated_first_record`, `C56_violated_retention`, `C57_record_by_record`, `C57_batches`, `C57_kinds`, `C57_aggregate`, `C57_failure`, `C57_error_partial`, `C58_stored`, `C58_all_or_nothing`, `C58_leader_partial`, `C60_stale_refused`, `C60_violated_resurrected`, `C60_violated_update_after_delete`, `C60_violated_successor`, `C61_no_orphans_partial`, `C61_delete_cascades_partial`, `C61_violated_lost_link`, `C61_violated_orphan_stays`, `C61_violated_stale_child`, `C62_settles`, `C62_violated_reordered`, `C62_violated_recreated`, `C63_restart_partial`, `C64_served`, `C64_violated_uninvited`, `C64_violated_undelete`, `C64_violated_two_roles`, `C64_violated_no_retry`, `C65_violated_resurrected`, `C65_violated_silent`, `C65_violated_left_behind`, `C66_requested_partial`, `C66_local_partial`, `C66_kubernetes`, `C66_answered_partial`, `C66_violated_stale_ack`, `C66_violated_lost_ack`, `C67_decision`, `C67_decision_instance_partial`, `C67_mirror`, `C69_store_id_partial`, `C71_online_iff_connected_partial`, `C71_settles_partial`, `C71_silence`, `C71_online_is_alive_partial`, `C71_violated_reconnect`, `C71_violated_increments`, `C72_violated_deadlock`, `C74_settled_once`, `C74_violated_clock_set_back`, `C75_violated_other_error`, `C75_violated_dropped`, `C77_only_admitted_partial`, `C78_replaced`, `C80_names`, `C81_current`, `C81_complete_partial`, `C81_found`, `C81_add`, `C81_add_others_partial`, `C81_rename_partial`, `C81_delete_profile`, `C81_delete_cluster`, `C82_violated_order`, `C82_violated_retry`, `C83_as_given_partial`, `C83_workable`, `C85_all_or_none`, `C86_one_ack`, `C86_flush_returns`, `C86_violated_stall`, `C86_violated_abandoned`, `C88_violated_overwritten`, `C88_violated_unlisted`, `C88_violated_demoted`, `C89_error`, `C91_batches`, `C92_violated_retention`, `C92_violated_big`, `C92_violated_stolen`, `C93_contents`, `C93_intact_partial`, `C93_assembled_partial`, `C93_violated_forged`, `C93_violated_mixed`, `C95_read_back_partial`, `C95_distinct`, `C95_sound_partial`, `C95_violated_registry`, `C95_violated_tag`, `C95_violated_empty`, `C96_published`, `C96_latest_partial`, `C96_listed`, `C97_violated_no_host`, `C98_offsets`, `C99_lines_partial`, `C99_violated_not_text`, `C99_violated_separator`, `C99_violated_mirror_topic`, `C99_violated_mirror_remote`, `C100_crossing`, `C102_settings_partial`, `C102_refused`, `C102_defaults`, `C103_violated_panic`, `C104_filter`, `C104_meaning`, `C104_violated_seq`, `C105_violated_broker`, `C106_layout`, `C106_shown`, `C107_commands_partial`, `C107_run_partial`, `C107_switch`, `C107_install`, `C107_violated_again`, `C107_violated_settings`, `C108_limit`, `C108_create`, `C108_allowed`, `C108_total_partial`, `C108_confined_partial`, `C108_others_partial`, `C108_status`, `C108_fuel`, `C108_violated_escape`, `C108_violated_high`, `C108_violated_total`, `C109_fuel_partial`, `C109_look_back`, `C109_export_partial`, `C109_violated_twice`, `C109_violated_idle`, `C110_start_refused`, `C110_not_resumed`, `C111_only_first`, `C112_requirements`, `C112_each_once`, `C112_success`, `C112_order_kept`, `C112_ordered_partial`, `C112_accepts_partial`, `C112_violated_order`, `C112_violated_changes`, `C114_pair`, `C114_kept`, `C114_key_length`, `C114_violated_interrupted`, `C114_violated_named`, `C115_unique`, `C115_start`, `C115_shutdown_unknown`, `C115_list`, `C115_violated_orphan`, `C115_violated_lost`
* `propext`: `C09_violated_partial_write`, `C09_trusts_header`, `C23_violated_diverged`, `C27_violated_wraparound`, `C28_flush_takes_all`, `C30_violated_inverted`, `C31_late_notification_happens`, `C33_violated_auto`, `C33_violated_reconnect`, `C33_violated_earlier_start`, `C34_violated_partitions`, `C34_violated_partitions_twice`, `C34_violated_before_first`, `C35_violated_recreate`, `C36_violated_recreate`, `C36_violated_empty_sync`, `C37_violated_concurrent_writers`, `C48_violated_overlap`, `C48_violated_failover`, `C50_returns_current`, `C53_violated_stale`, `C54_prompt_partial`, `C55_count`, `C58_violated_gap`, `C58_violated_overlap`, `C58_violated_failed_write`, `C60_current_accepted`, `C63_each_partial`, `C69_match_plain_partial`, `C71_violated_after_restart`, `C76_violated_leader_unknown`, `C76_violated_takes_over`, `C77_conn_admitted`, `C77_violated_auth_failure`, `C78_address`, `C81_violated_rename`, `C81_violated_add`, `C81_violated_lost`, `C81_violated_force`, `C82_violated_order_once`, `C82_violated_failed`, `C85_served`, `C85_unmanaged`, `C85_violated_twice`, `C92_keeps`, `C93_violated_same_name`, `C94_keeps`, `C95_uid`, `C96_violated_yanked`, `C96_violated_order`, `C98_violated_partition_limit`, `C98_violated_consumer_start`, `C104_violated_gap`, `C104_violated_uncommitted`, `C104_violated_batches`, `C104_violated_failed`, `C104_violated_refused`, `C104_violated_override`, `C107_others`, `C107_order_partial`, `C107_violated_left`, `C107_violated_uninstall`, `C107_violated_mixture`, `C107_violated_stuck`, `C107_violated_order`, `C108_violated_room`, `C109_no_overflow`, `C109_calls`, `C109_records_partial`, `C109_violated_aggregate`, `C109_violated_split`, `C110_violated_resume_exit`, `C110_violated_upgrade`, `C111_violated_twice`, `C111_violated_old_task`, `C111_violated_direction`, `C112_no_fix`, `C112_violated_unsupported`, `C113_frontend`, `C114_remote`, `C114_violated_private`, `C114_violated_org`, `C114_violated_hidden`, `C115_violated_orphan_kept`, `C115_violated_leftover`
* none: `C18_violated_checkpoint_skipped`, `C30_absolute_negative`, `C41_violated_batch`, `C44_violated_empty`, `C50_no_wait`, `C52_violated_offset_delta`, `C57_violated_not_all_modules`, `C57_violated_error_offset`, `C59_violated_twice`, `C59_violated_start_inside`, `C63_violated_torn`, `C63_violated_removal`, `C63_violated_failed_write`, `C83_cli_file`, `C83_shown`, `C83_violated_segment`, `C83_violated_retention`, `C83_violated_longer`, `C99_raw_partial`, `C99_unreadable`, `C99_violated_raw_unreadable`, `C100_start`, `C101_declared_partial`, `C101_env`, `C101_resolve`, `C102_violated_none`, `C102_violated_twice`, `C102_violated_size`, `C109_violated_unnamed`, `C110_violated_ports`
