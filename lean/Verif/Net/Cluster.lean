import Verif.Net.SpuLemmas
import Verif.Admin.ObjectsLemmas

/-!
# The messages within a cluster and between mirrored clusters

Between controller and brokers (`fluvio-controlplane/src/{sc_api,spu_api,requests}`), between brokers
(`fluvio-spu/src/services/internal`, `fluvio-spu/src/replication`) and between mirrored clusters
(`fluvio-spu/src/mirroring`).  In contrast to the requests of clients (`Verif.Net.Spu`) each of them is sent at one
fixed version.
-/

namespace Verif.Net.Cluster
open Verif.Wire Verif.Admin.Schema Verif.Net.Spu

/-- Who answers: the enums of keys that are decoded on different connections — `InternalScKey`
(sc_api/api.rs:20-31), `InternalSpuApi` (spu_api/api.rs:17-28), `SPUPeerApiEnum` (services/internal/api.rs:17-26),
`LeaderPeerApiEnum` (replication/leader/api_key.rs:3-10), `FollowerPeerApiEnum` (replication/follower/api_key.rs:3-11),
`MirrorHomeApiEnum` (mirroring/home/api_key.rs:3-10), `MirrorRemoteApiEnum` (mirroring/remote/api_key.rs:3-10). -/
inductive Service where
  | controller | broker | peer | leader | follower | mirrorHome | mirrorRemote
deriving DecidableEq, Repr

/-- The requests of these services. -/
inductive Api where
  | registerSpu | updateLrs | replicaRemoved | mirrorStat | partitionStat
  | updateSpu | updateReplica | updateSmartModule | updateMirror
  | fetchStream | fetchConsumerOffset | updateConsumerOffset
  | updateOffsets
  | syncRecords | rejectOffset
  | homeOffset | homeSync
  | remoteSync | remoteOffset
deriving DecidableEq, Repr

/-- The enum of keys of the request (see `Service`). -/
def Api.service : Api → Service
  | .registerSpu | .updateLrs | .replicaRemoved | .mirrorStat | .partitionStat => .controller
  | .updateSpu | .updateReplica | .updateSmartModule | .updateMirror => .broker
  | .fetchStream | .fetchConsumerOffset | .updateConsumerOffset => .peer
  | .updateOffsets => .leader
  | .syncRecords | .rejectOffset => .follower
  | .homeOffset | .homeSync => .mirrorHome
  | .remoteSync | .remoteOffset => .mirrorRemote

/-- `API_KEY` of the requests, the discriminants of the enums (see `Service`). -/
def Api.key : Api → BitVec 16
  | .registerSpu => 2000 | .updateLrs => 2001 | .replicaRemoved => 2002 | .mirrorStat => 2003 | .partitionStat => 2004
  | .updateSpu => 1001 | .updateReplica => 1002 | .updateSmartModule => 1003 | .updateMirror => 1004
  | .fetchStream => 0 | .fetchConsumerOffset => 1 | .updateConsumerOffset => 2
  | .updateOffsets => 0
  | .syncRecords => 0 | .rejectOffset => 1
  | .homeOffset => 0 | .homeSync => 1
  | .remoteSync => 0 | .remoteOffset => 1

/-- `DEFAULT_API_VERSION` of the requests — update_lrs.rs:51, update_replica.rs:14, update_smartmodule.rs:21,
fetch_consumer_offset_request.rs:21, update_consumer_offset_request.rs:21 (`COMMON_VERSION`,
fluvio-spu-schema/src/lib.rs:20), update_offsets.rs:17, follower/sync.rs:60, reject_request.rs:16,
home/{sync.rs:43,update_offsets.rs:14}, remote/{sync.rs:51,update_offsets.rs:27} (`COMMON_MIRROR_VERSION`,
mirroring/mod.rs:7); all others have the default of the trait, fluvio-protocol/src/api/mod.rs:41. -/
def Api.version : Api → BitVec 16
  | .updateLrs => 1
  | .updateReplica => 18
  | .updateSmartModule => 10
  | .fetchConsumerOffset | .updateConsumerOffset => 25
  | .syncRecords => 7
  | .homeOffset | .homeSync | .remoteSync | .remoteOffset => 1
  | _ => 0

/-- `TryFrom<u16>` of the enums (see `Service`), used by `decode_with_header` — sc_api/api.rs:57-83,
spu_api/api.rs:58-80, services/internal/api.rs:44-76, leader/peer_api.rs:30-46, follower/peer_api.rs:31-52,
home/home_api.rs:32-53, remote/remote_api.rs:30-53. -/
def Service.ofKey : Service → BitVec 16 → Option Api
  | .controller, k =>
    if k = 2000 then some .registerSpu else if k = 2001 then some .updateLrs
    else if k = 2002 then some .replicaRemoved else if k = 2003 then some .mirrorStat
    else if k = 2004 then some .partitionStat else none
  | .broker, k =>
    if k = 1001 then some .updateSpu else if k = 1002 then some .updateReplica
    else if k = 1003 then some .updateSmartModule else if k = 1004 then some .updateMirror else none
  | .peer, k =>
    if k = 0 then some .fetchStream else if k = 1 then some .fetchConsumerOffset
    else if k = 2 then some .updateConsumerOffset else none
  | .leader, k => if k = 0 then some .updateOffsets else none
  | .follower, k => if k = 0 then some .syncRecords else if k = 1 then some .rejectOffset else none
  | .mirrorHome, k => if k = 0 then some .homeOffset else if k = 1 then some .homeSync else none
  | .mirrorRemote, k => if k = 0 then some .remoteSync else if k = 1 then some .remoteOffset else none

/-! ## Contents -/

abbrev Key := String × U32
/-- `ReplicaStatus` — partition/status.rs:170-180: broker, high watermark, end of log. -/
abbrev ReplicaStat := U32 × U64 × U64
abbrev replicaStatT : Ty ReplicaStat := .pair (.int 4) (.pair (.int 8) (.int 8))

/-- `LrsRequest` — update_lrs.rs:64-73: partition, leader, replicas, size, base offset. -/
abbrev Lrs := Key × ReplicaStat × List ReplicaStat × U64 × U64
abbrev lrsT : Ty Lrs :=
  .pair replicaT (.pair replicaStatT (.pair (.vec replicaStatT) (.pair (.int 8) (.field 1 none (.int 8) 0))))

/-- `MirrorPairStatus` — mirror/status.rs:62-77.  (The macro ignores the `min_version` of a variant.) -/
abbrev PairStat := Unit ⊕ Unit ⊕ Unit ⊕ Unit ⊕ Unit ⊕ String ⊕ Empty
abbrev pairStatT : Ty PairStat :=
  .enumCons 1 0#8 .unit (.enumCons 1 1#8 .unit (.enumCons 1 2#8 .unit (.enumCons 1 3#8 .unit (.enumCons 1 4#8 .unit
    (.enumCons 1 5#8 .string (.enumNil 1))))))

/-- `MirrorStatus` — mirror/status.rs:3-16, 79-97: connection, pairing as seen by the controller and by the broker,
last seen. -/
abbrev MirrorStat := Enum2 × PairStat × PairStat × U64
abbrev mirrorStatT : Ty MirrorStat := .pair (enum2T 0#8 1#8) (.pair pairStatT (.pair pairStatT (.int 8)))

/-- `PartitionResolution` — partition/status.rs:152-168. -/
abbrev Resolution := Unit ⊕ Unit ⊕ Enum3
abbrev resolutionT : Ty Resolution := .enumCons 1 0#8 .unit (.enumCons 1 1#8 .unit (enum3T 2#8 3#8 4#8))

/-- `SpuSpec` — spu/spec.rs:22-42, 346-355: id, type, public and private endpoint, rack, local public endpoint. -/
abbrev SpuSpec :=
  U32 × Enum2 × (U16 × List (Option String × Option String) × Enum2) × Endpoint × Option String × Option Endpoint
abbrev spuSpecT : Ty SpuSpec :=
  .pair (.int 4) (.pair (enum2T 0#8 1#8)
    (.pair (.pair (.int 2) (.pair (.vec (.pair (.option .string) (.option .string))) (enum2T 0#8 1#8)))
      (.pair endpointT (.pair (.option .string) (.field 1 none (.option endpointT) none)))))

/-- `Replica` — fluvio-controlplane/src/replica.rs:16-29. -/
abbrev Replica :=
  Key × U32 × List U32 × Option PartitionMirror × Bool × Option (U32 ⊕ Empty) × Option (Option U32 × Option U64) ×
    Enum6 × Option Dedup
abbrev replicaInfoT : Ty Replica :=
  .pair replicaT (.pair (.int 4) (.pair (.vec (.int 4)) (.pair (.option partitionMirrorT) (.pair .bool
    (.pair (.option (.enumCons 1 0#8 (.int 4) (.enumNil 1)))
      (.pair (.option (.pair (.option (.int 4)) (.option (.int 8)))) (.pair compressionT (.option dedupT))))))))

/-- `ControlPlaneRequest<S>` — requests/request.rs:6-12, `Message`, `MsgType` — message/msg_type.rs:18-31: epoch,
changes (update or delete), everything. -/
abbrev Control (S : Type) := U64 × List (Enum2 × S) × List S
abbrev controlT {S : Type} (t : Ty S) : Ty (Control S) :=
  .pair (.int 8) (.pair (.vec (.pair (enum2T 0#8 1#8) t)) (.vec t))

/-- `ReplicaOffsetRequest` — leader/update_offsets.rs:21-26: partition, end of log, high watermark. -/
abbrev offsetT : Ty (Key × U64 × U64) := .pair replicaT (.pair (.int 8) (.int 8))

/-- The requests that consist of what `Ty` describes; the others transport records. -/
def Api.plain : Api → Bool
  | .syncRecords | .homeSync | .remoteSync => false
  | _ => true

/-- Contents of the requests: `RegisterSpuRequest` (register_spu.rs:24-27), `UpdateLrsRequest` (update_lrs.rs:14-18,
54-58), `ReplicaRemovedRequest` (remove.rs:11-15), `UpdateMirrorStatRequest` (update_mirror.rs:12-15, 42-46),
`UpdatePartitionStatRequest` (update_partition.rs:13-16, 43-47), `UpdateSpuRequest`, `UpdateReplicaRequest`,
`UpdateSmartModuleRequest`, `UpdateMirrorRequest` (spu_api/update_*.rs), `FetchStreamRequest`
(fetch_stream_request.rs:9-15), `FetchConsumerOffsetRequest`, `UpdateConsumerOffsetRequest`
({fetch,update}_consumer_offset_request.rs:12-18), `UpdateOffsetRequest` (leader/update_offsets.rs:10-13),
`SyncRequest` (follower/sync.rs:30-36), `RejectOffsetRequest` (reject_request.rs:9-12), and those of
mirroring/{home,remote}/{sync,update_offsets}.rs. -/
abbrev Api.Req : Api → Type
  | .registerSpu => U32
  | .updateLrs => List Lrs × U32 × U32
  | .replicaRemoved => Key × Bool
  | .mirrorStat => List (String × MirrorStat)
  | .partitionStat => List (Key × Resolution)
  | .updateSpu => Control SpuSpec
  | .updateReplica => Control Replica
  | .updateSmartModule => Control (String × SmartModule)
  | .updateMirror => Control (String × Mirror)
  | .fetchStream => U32 × U32 × U32 × U32
  | .fetchConsumerOffset => Key × String
  | .updateConsumerOffset => Key × String × U64
  | .updateOffsets => List (Key × U64 × U64)
  | .syncRecords => SyncRequest ErrorCode (List (Batch Bytes))
  | .rejectOffset => List Key
  | .homeOffset => Key × U64 × U64
  | .homeSync => MirrorSync (List (Batch Bytes))
  | .remoteSync => MirrorSync (List (Batch Bytes))
  | .remoteOffset => Key × U64 × U64

/-- The descriptions of the plain requests (see `Api.Req`).  Since `UpdateSmartModule` has version 10, the
SmartModules have the second format (smartmodule/spec.rs:26-87). -/
def Api.reqT : (a : Api) → a.plain = true → Ty a.Req
  | .registerSpu, _ => .int 4
  | .updateLrs, _ => .pair (.vec lrsT) (.pair (.int 4) (.int 4))
  | .replicaRemoved, _ => .pair replicaT .bool
  | .mirrorStat, _ => .vec (.pair .string mirrorStatT)
  | .partitionStat, _ => .vec (.pair replicaT resolutionT)
  | .updateSpu, _ => controlT spuSpecT
  | .updateReplica, _ => controlT replicaInfoT
  | .updateSmartModule, _ => controlT (.pair .string smartModule2T)
  | .updateMirror, _ => controlT (.pair .string mirrorT)
  | .fetchStream, _ => .pair (.int 4) (.pair (.int 4) (.pair (.int 4) (.int 4)))
  | .fetchConsumerOffset, _ => .pair replicaT .string
  | .updateConsumerOffset, _ => .pair replicaT (.pair .string (.int 8))
  | .updateOffsets, _ => .vec offsetT
  | .rejectOffset, _ => .vec replicaT
  | .homeOffset, _ => offsetT
  | .remoteOffset, _ => offsetT

/-- The codecs of the requests (see `Api.Req`) at a version (10 or later for `UpdateSmartModule`). -/
def reqC (ver : Int) : (a : Api) → Codec a.Req
  | .syncRecords => syncRequestC errorCodeC setC
  | .homeSync => mirrorSyncC setC
  | .remoteSync => mirrorSyncC setC
  | .registerSpu => (Api.reqT .registerSpu rfl).codec ver
  | .updateLrs => (Api.reqT .updateLrs rfl).codec ver
  | .replicaRemoved => (Api.reqT .replicaRemoved rfl).codec ver
  | .mirrorStat => (Api.reqT .mirrorStat rfl).codec ver
  | .partitionStat => (Api.reqT .partitionStat rfl).codec ver
  | .updateSpu => (Api.reqT .updateSpu rfl).codec ver
  | .updateReplica => (Api.reqT .updateReplica rfl).codec ver
  | .updateSmartModule => (Api.reqT .updateSmartModule rfl).codec ver
  | .updateMirror => (Api.reqT .updateMirror rfl).codec ver
  | .fetchStream => (Api.reqT .fetchStream rfl).codec ver
  | .fetchConsumerOffset => (Api.reqT .fetchConsumerOffset rfl).codec ver
  | .updateConsumerOffset => (Api.reqT .updateConsumerOffset rfl).codec ver
  | .updateOffsets => (Api.reqT .updateOffsets rfl).codec ver
  | .rejectOffset => (Api.reqT .rejectOffset rfl).codec ver
  | .homeOffset => (Api.reqT .homeOffset rfl).codec ver
  | .remoteOffset => (Api.reqT .remoteOffset rfl).codec ver

/-- `RequestMessage::new_request` with `set_client_id` — fluvio-protocol/src/api/request.rs:67-74: key and version
are those of the type. -/
def header (a : Api) (correlation : BitVec 32) (client : String) : Header :=
  ⟨a.key, a.version, correlation, client⟩

/-- `RequestMessage::encode` — api/request.rs:144-175 -/
def encodeRequest (h : Header) (a : Api) (x : a.Req) : Bytes :=
  reqHeaderC.enc h ++ (reqC h.apiVersion.toInt a).enc x

/-- `RequestMessage::write_size` — api/request.rs:149-151 -/
def requestSize (h : Header) (a : Api) (x : a.Req) : Nat :=
  reqHeaderC.size h + (reqC h.apiVersion.toInt a).size x

/-- `ApiMessage::decode_from` — api/mod.rs:59-86 — and the functions `decode_with_header` (see `Service.ofKey`). -/
def decodeRequest (s : Service) : Dec (Header × (a : Api) × a.Req) :=
  reqHeaderC.dec.bind fun h =>
    match s.ofKey h.apiKey with
    | none => Dec.fail .invalid
    | some a => (reqC h.apiVersion.toInt a).dec.bind fun x => Dec.pure (h, ⟨a, x⟩)

/-! ## Answers -/

/-- Contents of the answers: `RegisterSpuResponse` (register_spu.rs:34-38), `FetchStreamResponse`
(fetch_stream_request.rs:22-25), `FetchConsumerOffsetResponse` (fetch_consumer_offset_request.rs:40-49),
`UpdateConsumerOffsetResponse` (update_consumer_offset_request.rs:41-44); all others are empty (and not sent). -/
abbrev Api.Resp : Api → Type
  | .registerSpu => ErrorCode × Option String
  | .fetchStream => Option U32
  | .fetchConsumerOffset => ErrorCode × Option U64
  | .updateConsumerOffset => ErrorCode
  | _ => Unit

/-- The codecs of the answers (see `Api.Resp`). -/
def respC : (a : Api) → Codec a.Resp
  | .registerSpu => pairC errorCodeC (optionC stringC)
  | .fetchStream => optionC (intC 4)
  | .fetchConsumerOffset => pairC errorCodeC (optionC (intC 8))
  | .updateConsumerOffset => errorCodeC
  | .updateLrs => unitC | .replicaRemoved => unitC | .mirrorStat => unitC | .partitionStat => unitC
  | .updateSpu => unitC | .updateReplica => unitC | .updateSmartModule => unitC | .updateMirror => unitC
  | .updateOffsets => unitC | .syncRecords => unitC | .rejectOffset => unitC
  | .homeOffset => unitC | .homeSync => unitC | .remoteSync => unitC | .remoteOffset => unitC

/-- `RequestMessage::new_response` and `ResponseMessage::encode` — api/request.rs:84-94, api/response.rs:82-110 -/
def encodeResponse (h : Header) (a : Api) (y : a.Resp) : Bytes :=
  (intC 4).enc h.correlationId ++ (respC a).enc y

/-- `ResponseMessage::decode_from` — api/response.rs:36-53 -/
def decodeResponse (a : Api) : Dec (BitVec 32 × a.Resp) :=
  (intC 4).dec.bind fun c => (respC a).dec.bind fun y => Dec.pure (c, y)

/-! ## Specification vocabulary -/

/-- **Specification.** What a broker learns of another broker: everything but its local public endpoint … -/
def spuSeen (s : SpuSpec) : SpuSpec := (s.1, s.2.1, s.2.2.1, s.2.2.2.1, s.2.2.2.2.1, none)

/-- **Specification.** … and of a SmartModule: everything but its visibility. -/
def smartModuleSeen (m : String × SmartModule) : String × SmartModule :=
  (m.1, m.2.1.map (fun i =>
    ((i.1.1, i.1.2.1, i.1.2.2.1, i.1.2.2.2.1, i.1.2.2.2.2.1, i.1.2.2.2.2.2.1, .inl (), i.1.2.2.2.2.2.2.2), i.2)), m.2.2)

/-- **Specification.** The objects of an update, each as seen. -/
def controlSeen {S : Type} (f : S → S) (c : Control S) : Control S :=
  (c.1, c.2.1.map fun m => (m.1, f m.2), c.2.2.map f)

/-- **Specification.** What arrives: everything, except for the two cases above; batches with the length their
contents have. -/
def reqSeen : (a : Api) → a.Req → a.Req
  | .updateSpu, x => controlSeen spuSeen x
  | .updateSmartModule, x => controlSeen smartModuleSeen x
  | .syncRecords, x => x.map fun t =>
      { t with partitions := t.partitions.map fun p => { p with records := p.records.map (asWritten rawC) } }
  | .homeSync, x => { x with records := x.records.map (asWritten rawC) }
  | .remoteSync, x => { x with records := x.records.map (asWritten rawC) }
  | .registerSpu, x => x | .updateLrs, x => x | .replicaRemoved, x => x | .mirrorStat, x => x | .partitionStat, x => x
  | .updateReplica, x => x | .updateMirror, x => x | .fetchStream, x => x | .fetchConsumerOffset, x => x
  | .updateConsumerOffset, x => x | .updateOffsets, x => x | .rejectOffset, x => x | .homeOffset, x => x
  | .remoteOffset, x => x

/-- **Specification.** The limits of the length prefixes (`Ty.fits`: texts shorter than 32 KiB, lists than 2³¹, maps
than 2¹⁶ and in the order of their keys); record sets below 2 GiB without a schema. -/
def reqFits : (a : Api) → a.Req → Prop
  | .syncRecords, x =>
    listFits (fun t => short t.name ∧ listFits (fun p => p.error.fits ∧ batchesFit p.records) t.partitions) x
  | .homeSync, x => batchesFit x.records
  | .remoteSync, x => batchesFit x.records
  | .registerSpu, _ => True
  | .updateLrs, x => listFits (fun l => short l.1.1 ∧ l.2.2.1.length < 2 ^ 31) x.1
  | .replicaRemoved, x => short x.1.1
  | .mirrorStat, x => (Api.reqT .mirrorStat rfl).fits 0 x
  | .partitionStat, x => listFits (fun p => short p.1.1) x
  | .updateSpu, x => (Api.reqT .updateSpu rfl).fits 0 x
  | .updateReplica, x => (Api.reqT .updateReplica rfl).fits 18 x
  | .updateSmartModule, x => (Api.reqT .updateSmartModule rfl).fits 10 x
  | .updateMirror, x => (Api.reqT .updateMirror rfl).fits 0 x
  | .fetchStream, _ => True
  | .fetchConsumerOffset, x => short x.1.1 ∧ short x.2
  | .updateConsumerOffset, x => short x.1.1 ∧ short x.2.1
  | .updateOffsets, x => listFits (fun p => short p.1.1) x
  | .rejectOffset, x => listFits (fun k => short k.1) x
  | .homeOffset, x => short x.1.1
  | .remoteOffset, x => short x.1.1

/-- **Specification.** … -/
def respFits : (a : Api) → a.Resp → Prop
  | .registerSpu, y => y.1.fits ∧ optFits short y.2
  | .fetchConsumerOffset, y => y.1.fits
  | .updateConsumerOffset, y => ErrorCode.fits y
  | _, _ => True

end Verif.Net.Cluster
