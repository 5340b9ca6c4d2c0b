/-!
# From the settings of a topic to the limits of its storage

Models the way of the settings given at the creation of a topic, as command line options
(`crates/fluvio-cli/src/client/topic/create.rs:228-281`) or in a file
(`crates/fluvio-controlplane-metadata/src/topic/config.rs:169-207`), over the description of the topic
(`topic/spec.rs:25-44, 150-195`), of its partitions (`partition/spec.rs:48-66`) and of the replicas sent to brokers
(`crates/fluvio-controlplane/src/replica.rs:48-73`) to the configuration of the storage
(`crates/fluvio-storage/src/config.rs:24-93`).

Left out: the assignment of replicas (C38-C40), names (C44), the bounds of deduplication filters, and the encoding of
these descriptions (C47, C73).
-/

namespace Verif.Sc.TopicSettings

/-- `CompressionAlgorithm`, topic/spec.rs:990-1013. -/
inductive Alg
  | none | gzip | snappy | lz4 | any | zstd
deriving DecidableEq, Repr

/-- What people give: a duration in whole seconds and sizes in bytes, all of 64 bits, and the name of a deduplication
filter (create.rs:328-372, topic/config.rs:25-125). -/
structure Given where
  retention : Option Nat := none
  segment : Option Nat := none
  maxPartition : Option Nat := none
  compression : Option Alg := none
  dedup : Option String := none
deriving DecidableEq, Repr

/-- `TopicStorageConfig`, topic/spec.rs:978-988. -/
structure Storage where
  segment : Option Nat
  maxPartition : Option Nat
deriving DecidableEq, Repr

/-- The settings in `TopicSpec`, topic/spec.rs:25-44; the default compression is `Any`. -/
structure TopicSpec where
  cleanup : Option Nat := none
  storage : Option Storage := none
  compression : Alg := .any
  dedup : Option String := none
deriving DecidableEq, Repr

/-- `as u32`. -/
def asU32 (n : Nat) : Nat := n % 2 ^ 32

/-- `CreateTopicOpt::construct`, create.rs:228-281. -/
def fromCli (g : Given) : TopicSpec :=
  let t : TopicSpec := {}
  let t := match g.retention with
    | some r => { t with cleanup := some (asU32 r) }
    | none => t
  let t := match g.compression with
    | some c => { t with compression := c }
    | none => t
  let t := match g.dedup with
    | some d => { t with dedup := some d }
    | none => t
  if g.segment.isSome || g.maxPartition.isSome then
    { t with storage := some ⟨g.segment.map asU32, g.maxPartition⟩ }
  else t

/-- `impl From<TopicConfig> for TopicSpec`, topic/config.rs:169-207; a missing compression in the file is the default,
`Any` (config.rs:127-137). -/
def fromConfig (g : Given) : TopicSpec :=
  let segment := g.segment.map asU32
  let maxPartition := g.maxPartition
  let t : TopicSpec := {}
  let t := match g.retention with
    | some r => { t with cleanup := some (asU32 r) }
    | none => t
  let t := { t with compression := g.compression.getD .any }
  let t := { t with dedup := g.dedup }
  if segment.isSome || maxPartition.isSome then { t with storage := some ⟨segment, maxPartition⟩ } else t

/-- fluvio-types/src/defaults.rs:41-51. -/
abbrev segmentMin : Nat := 1024
abbrev segmentDefault : Nat := 1073741824
abbrev partitionMin : Nat := segmentMin * 2
abbrev partitionDefault : Nat := 107374182400
abbrev retentionMin : Nat := 10
abbrev retentionDefault : Nat := 7 * 24 * 3600

/-- `TopicSpec::validate_config`, topic/spec.rs:157-195: whether the description is refused. -/
def refused (t : TopicSpec) : Bool :=
  (match t.cleanup with
    | some r => decide (r < retentionMin)
    | none => false) ||
  match t.storage with
  | some st =>
    (match st.segment with
      | some s => decide (s < segmentMin)
      | none => false) ||
    (match st.maxPartition with
      | some m => decide (m < partitionMin) || decide (m < st.segment.getD segmentDefault)
      | none => false)
  | none => false

/-- `TopicSpec::retention_secs`, topic/spec.rs:149-154: the retention shown to people. -/
def TopicSpec.shownRetention (t : TopicSpec) : Nat := t.cleanup.getD retentionDefault

/-- The settings in `PartitionSpec`, partition/spec.rs:17-36. -/
structure PartitionSpec where
  cleanup : Option Nat
  storage : Option Storage
  compression : Alg
  dedup : Option String
deriving DecidableEq, Repr

/-- `PartitionSpec::from_replicas`, partition/spec.rs:48-66. -/
def PartitionSpec.ofTopic (t : TopicSpec) : PartitionSpec := ⟨t.cleanup, t.storage, t.compression, t.dedup⟩

/-- The settings in `Replica`, fluvio-controlplane/src/replica.rs:17-29. -/
structure Replica where
  cleanup : Option Nat
  storage : Option Storage
  compression : Alg
  dedup : Option String
deriving DecidableEq, Repr

/-- `impl From<PartitionMetadata> for Replica`, replica.rs:50-73. -/
def Replica.ofPartition (p : PartitionSpec) : Replica := ⟨p.cleanup, p.storage, p.compression, p.dedup⟩

/-- The limits in `ReplicaConfig`, fluvio-storage/src/config.rs:24-60. -/
structure ReplicaConfig where
  segment : Nat
  retention : Nat
  maxPartition : Nat
deriving DecidableEq, Repr

/-- `impl From<&SpuConfig> for ReplicaConfig`, fluvio-spu/src/config/spu_config.rs:158-171, with the defaults of
`Log::default` (spu_config.rs:61-78), which no option of the broker changes. -/
def brokerDefault : ReplicaConfig := ⟨segmentDefault, retentionDefault, partitionDefault⟩

/-- `update_from_replica`, config.rs:68-93. -/
def ReplicaConfig.update (c : ReplicaConfig) (r : Replica) : ReplicaConfig :=
  let c := match r.cleanup with
    | some s => { c with retention := s }
    | none => c
  let c := match r.storage.bind (·.segment) with
    | some s => { c with segment := s }
    | none => c
  match r.storage.bind (·.maxPartition) with
  | some m => { c with maxPartition := m }
  | none => c

/-- The configuration of the storage of a replica of a topic, both as leader
(fluvio-spu/src/replication/leader/replica_state.rs:156-158) and as follower (follower/state.rs:97-101). -/
def storageOf (t : TopicSpec) : ReplicaConfig :=
  brokerDefault.update (Replica.ofPartition (PartitionSpec.ofTopic t))

/-- Creating a topic (fluvio-sc/src/services/public_api/topic/create.rs:107-113) and what its storage is told; `none`
if the topic is refused for its settings. -/
def create (t : TopicSpec) : Option (TopicSpec × ReplicaConfig) :=
  if refused t then none else some (t, storageOf t)

end Verif.Sc.TopicSettings
