import Verif.Sc.Placement
import Verif.Sc.PartitionMap
import Verif.Sc.Election

/-!
# Topic life-cycle (`fluvio-sc/src/controllers/topics/policy.rs`, `reducer.rs`,
`stores/topic/store.rs`, `fluvio-controlplane-metadata/src/topic/status.rs`)
-/

namespace Verif.Sc

/-- `ReplicaSpec` — topic/spec.rs:163-180.  The mirror configuration is the list of its partition
configurations (`HomePartitionConfig` or `SpuMirrorConfig`), each an opaque number. -/
inductive TSpec where
  | computed (partitions rf : Nat)
  | assigned (maps : List PMap)
  | mirror (configs : List Nat)
deriving DecidableEq

/-- `ReplicaSpec::partitions` — spec.rs:250-256 (counts below 2^32) -/
def TSpec.partitions : TSpec → Nat
  | .computed n _ => n
  | .assigned maps => maps.length
  | .mirror configs => configs.length

/-- `TopicResolution` — status.rs:45-59 -/
inductive TResolution where
  | init | pending | insufficient | invalidConfig | provisioned | deleting
deriving DecidableEq

/-- the texts used as `reason` -/
inductive Reason where
  | none | pending | map (e : MapError) | zeroPartitions | zeroFactor | unknownSpu (s : Int) | emptyMap
deriving DecidableEq

/-- `TopicStatus` — status.rs:28-35 -/
structure TStatus where
  resolution : TResolution
  map : RMap
  mirrors : List (Nat × Nat)
  reason : Reason
deriving DecidableEq

/-- `TopicStatus::default` — status.rs:118-127 -/
def TStatus.new : TStatus := ⟨.init, [], [], .none⟩

/-- a topic; `settings` stands for clean-up policy, storage, compression, deduplication and the system
flag, which are copied to the partitions -/
structure Topic where
  name : String
  spec : TSpec
  status : TStatus
  deleting : Bool
  settings : Nat
deriving DecidableEq

/-- a partition in the store -/
structure Partition where
  key : ReplicaKey
  spec : PartSpec
  mirror : Option Nat
  settings : Nat
  status : PStatus
deriving DecidableEq

/-- `PartitionSpec::from_replicas` in a new object — partition/spec.rs:49-66 -/
def Partition.fromReplicas (key : ReplicaKey) (rs : List Int) (mirror : Option Nat) (settings : Nat) : Partition :=
  ⟨key, ⟨match rs with | [] => 0 | r :: _ => r, rs⟩, mirror, settings, PStatus.init⟩

/-- `create_new_partitions` — stores/topic/store.rs:34-60 -/
def newPartitions (t : Topic) (store : List Partition) : List Partition :=
  t.status.map.filterMap fun e =>
    if store.any fun p => decide (p.key = ⟨t.name, e.1⟩) then none
    else some (.fromReplicas ⟨t.name, e.1⟩ e.2 ((t.status.mirrors.find? fun m => m.1 == e.1).map (·.2)) t.settings)

/-- `TopicNextState` — policy.rs:106-113 -/
structure NextState where
  resolution : TResolution
  reason : Reason := .none
  map : RMap := []
  parts : List Partition := []
  mirrors : List (Nat × Nat) := []

/-- `validate_*_topic_parameters` — policy.rs:31-71; `MirrorConfig::validate` always succeeds. -/
def validateSpec : TSpec → NextState
  | .computed n rf =>
    if n = 0 then { resolution := .invalidConfig, reason := .zeroPartitions }
    else if rf = 0 then { resolution := .invalidConfig, reason := .zeroFactor }
    else { resolution := .pending, reason := .pending }
  | .assigned maps =>
    match validate maps with
    | .error e => { resolution := .invalidConfig, reason := .map e }
    | .ok () => { resolution := .pending, reason := .pending }
  | .mirror _ => { resolution := .pending, reason := .pending }

/-- `ReplicaPartitionMap::from(&PartitionMaps)` — scheduler/partition.rs:40-50 -/
def mapOfSpec (maps : List PMap) : RMap := maps.foldl (fun m p => m.insert p.id p.replicas) []

/-- `update_replica_map_for_assigned_topic` — policy.rs:78-103 -/
def assignedNext (maps : List PMap) (spus : List Spu) : NextState :=
  match (uniqueSpus maps).find? fun s => !(spus.any fun u => u.id == s) with
  | some s => { resolution := .invalidConfig, reason := .unknownSpu s }
  | none =>
    if (mapOfSpec maps).isEmpty then { resolution := .invalidConfig, reason := .emptyMap }
    else { resolution := .provisioned, map := mapOfSpec maps }

/-- what a topic depends on: the SPUs and the partition store -/
structure World where
  topic : Topic
  store : List Partition
  spus : List Spu

/-- the map generated for computed and mirror topics — policy.rs:190-196, 263-276 -/
def World.generated (w : World) (n rf : Nat) : RMap :=
  generate w.spus (w.store.map (·.spec)) n rf w.topic.status.map

/-- numbering the mirror configurations — policy.rs:283-307 -/
def numbered (configs : List Nat) : List (Nat × Nat) := (List.range configs.length).zip configs

/-- `compute_next_state` — policy.rs:181-345 -/
def World.next (w : World) : NextState :=
  match w.topic.status.resolution with
  | .init | .invalidConfig => validateSpec w.topic.spec
  | .pending | .insufficient =>
    match w.topic.spec with
    | .computed n rf =>
      if (w.generated n rf).isEmpty then { resolution := .insufficient }
      else { resolution := .provisioned, map := w.generated n rf }
    | .assigned maps =>
      if (assignedNext maps w.spus).resolution = .provisioned then
        { assignedNext maps w.spus with parts := newPartitions w.topic w.store }
      else assignedNext maps w.spus
    | .mirror configs =>
      if (w.generated configs.length 1).isEmpty then { resolution := .insufficient }
      else { resolution := .provisioned, map := w.generated configs.length 1, mirrors := numbered configs }
  | .provisioned => { resolution := .provisioned, parts := newPartitions w.topic w.store }
  | .deleting => { resolution := .deleting }

/-- `apply_as_next_state`, without the partitions — policy.rs:160-170 -/
def NextState.applyTo (n : NextState) (s : TStatus) : TStatus :=
  { resolution := n.resolution
    reason := n.reason
    map := if n.map.isEmpty then s.map else n.map
    mirrors := if n.mirrors.isEmpty then s.mirrors else n.mirrors }

/-- the actions of one evaluation: a new topic status, partitions to apply, partitions to delete -/
structure Actions where
  status : Option TStatus := none
  apply : List Partition := []
  delete : List ReplicaKey := []

/-- `update_actions_next_state` — reducer.rs:102-197.  The children of a topic are found by owner
(`childrens`, fluvio-stream-model/src/store/metadata.rs:139-151); here they are the partitions that
carry the topic's name. -/
def World.actions (w : World) : Actions :=
  if w.topic.deleting then
    if w.topic.status.resolution = .deleting then {}
    else { status := some { w.topic.status with resolution := .deleting }
           delete := (w.store.filter fun p => p.key.topic == w.topic.name).map (·.key) }
  else if w.topic.status.resolution = .provisioned ∧ w.topic.status.map.length < w.topic.spec.partitions then
    { status := some { w.topic.status with resolution := .pending } }
  else
    { apply := w.next.parts
      status :=
        if w.next.resolution ≠ w.topic.status.resolution ∨ w.next.reason ≠ w.topic.status.reason then
          some (w.next.applyTo w.topic.status)
        else none }

/-- `WSAction::Apply`: create the object or overwrite its spec -/
def applyPartition (store : List Partition) (p : Partition) : List Partition :=
  if store.any fun q => decide (q.key = p.key) then
    store.map fun q => if q.key = p.key then { p with status := q.status } else q
  else store ++ [p]

/-- carrying out the actions of an evaluation -/
def World.perform (w : World) (a : Actions) : World :=
  { w with
    topic := match a.status with
      | some s => { w.topic with status := s }
      | none => w.topic
    store := (a.apply.foldl applyPartition w.store).filter fun p => !a.delete.contains p.key }

/-- one evaluation of the topic whose actions are carried out before the next one -/
def World.eval (w : World) : World := w.perform w.actions

/-- changes of the store by others: they may add, change and remove partitions of other topics, and
change leader and status of this topic's partitions (elections, reports) or remove them, but they
neither create partitions of this topic nor change their replicas. -/
def Foreign (name : String) (s s' : List Partition) : Prop :=
  ∀ p ∈ s', p.key.topic = name →
    ∃ q ∈ s, q.key = p.key ∧ q.spec.replicas = p.spec.replicas ∧ q.mirror = p.mirror ∧ q.settings = p.settings

/-- What happens around a topic: evaluations, changes of brokers and of other partitions, requests to
add partitions (`add_partition.rs:50-54`, no overflow of the `u32` count), to add a mirror
(`add_mirror.rs:109-120`), and the deletion mark. -/
inductive Step : World → World → Prop where
  | eval (w : World) : Step w w.eval
  | spus (w : World) (s : List Spu) : Step w { w with spus := s }
  | store (w : World) (s : List Partition) : Foreign w.topic.name w.store s → Step w { w with store := s }
  | addPartitions (w : World) (n rf k : Nat) : w.topic.spec = .computed n rf →
      Step w { w with topic := { w.topic with spec := .computed (n + k) rf } }
  | addMirror (w : World) (cs : List Nat) (c : Nat) : w.topic.spec = .mirror cs →
      Step w { w with topic := { w.topic with spec := .mirror (cs ++ [c]) } }
  | markDeleted (w : World) : Step w { w with topic := { w.topic with deleting := true } }

/-- any number of steps -/
inductive Steps : World → World → Prop where
  | refl (w : World) : Steps w w
  | tail {a b c : World} : Steps a b → Step b c → Steps a c

/-- a topic that was just created: default status and no partitions -/
def Fresh (w : World) : Prop :=
  w.topic.status = TStatus.new ∧ ∀ p ∈ w.store, p.key.topic ≠ w.topic.name

end Verif.Sc
