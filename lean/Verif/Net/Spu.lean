import Verif.Net.ErrorCode
import Verif.Net.FileWrite
import Verif.Wire.Batch

/-!
# The requests a broker accepts from clients, and its answers

`fluvio-spu-schema/src/{produce,fetch,server}`, `fluvio-protocol/src/api/{request,response}.rs`,
`fluvio-protocol/src/link/versions.rs`.
-/

namespace Verif.Net.Spu
open Verif.Wire

/-! ## Parts -/

/-- `RecordSet<RawRecords>` — fluvio-protocol/src/record/data.rs:249-384 -/
def setC : Codec (List (Batch Bytes)) where
  enc := encSet rawC
  dec := decSet rawC
  size := sizeSet rawC
  wf _ := True

/-- `ReplicaKey` — fluvio-types/src/partition.rs: topic and partition. -/
abbrev replicaT : Ty (String × BitVec (8 * 4)) := .pair .string (.int 4)

/-- A fieldless enum whose tag is one byte, 0 or 1: `Isolation` — isolation.rs:4-13 -/
abbrev isolationT : Ty (Unit ⊕ Unit ⊕ Empty) := .enumCons 1 0 .unit (.enumCons 1 1 .unit (.enumNil 1))

/-- `SmartModuleInvocationWasm` — server/smartmodule.rs:78-86 -/
abbrev wasmT : Ty (String ⊕ List (BitVec (8 * 1)) ⊕ Empty) :=
  .enumCons 1 0 .string (.enumCons 1 1 (.vec (.int 1)) (.enumNil 1))

/-- `SmartModuleContextData` — server/smartmodule.rs:163-182 -/
abbrev contextT : Ty (Unit ⊕ List (BitVec (8 * 1)) ⊕ String ⊕ (String × String) ⊕ Empty) :=
  .enumCons 1 0 .unit (.enumCons 1 1 (.vec (.int 1)) (.enumCons 1 2 .string
    (.enumCons 1 3 (.pair .string .string) (.enumNil 1))))

/-- `SmartModuleKind` — server/smartmodule.rs:121-149.  (The macro ignores version ranges of variants.) -/
abbrev kindT : Ty (Unit ⊕ Unit ⊕ Unit ⊕ List (BitVec (8 * 1)) ⊕ Unit ⊕ String ⊕ (String × String) ⊕
    (Unit ⊕ List (BitVec (8 * 1)) ⊕ String ⊕ (String × String) ⊕ Empty) ⊕ Empty) :=
  .enumCons 1 0 .unit (.enumCons 1 1 .unit (.enumCons 1 2 .unit (.enumCons 1 3 (.vec (.int 1))
    (.enumCons 1 4 .unit (.enumCons 1 5 .string (.enumCons 1 6 (.pair .string .string)
      (.enumCons 1 7 contextT (.enumNil 1))))))))

/-- `SmartModuleInvocation` — server/smartmodule.rs:24-75: handwritten, the name from version 25. -/
abbrev invocationT := Ty.pair wasmT (.pair kindT (.pair Smart.paramsT (.field 25 none (.option .string) none)))

/-- What an invocation consists of: code, kind, parameters with look-back, name. -/
abbrev Invocation := (String ⊕ List (BitVec (8 * 1)) ⊕ Empty) ×
  (Unit ⊕ Unit ⊕ Unit ⊕ List (BitVec (8 * 1)) ⊕ Unit ⊕ String ⊕ (String × String) ⊕
    (Unit ⊕ List (BitVec (8 * 1)) ⊕ String ⊕ (String × String) ⊕ Empty) ⊕ Empty) ×
  (List (String × String) × Option (BitVec 64 × Option (BitVec 64 × BitVec 32))) × Option String

/-! ## Requests -/

/-- The requests of `SpuServerApiKey` — server/api_key.rs:9-31 -/
inductive Api where
  | apiVersion | produce | fetch | fetchOffsets | streamFetch | updateOffsets | updateConsumerOffset
  | deleteConsumerOffset | fetchConsumerOffsets | startMirror
deriving DecidableEq, Repr

/-- The discriminants — server/api_key.rs:15-30; `API_KEY` of the requests: produce/request.rs:51,
fetch/request.rs:52, link/versions.rs:8, and `SpuServerApiKey::… as u16`. -/
def Api.key : Api → BitVec 16
  | .apiVersion => 18 | .produce => 0 | .fetch => 1 | .fetchOffsets => 1002 | .streamFetch => 1003
  | .updateOffsets => 1005 | .updateConsumerOffset => 1006 | .deleteConsumerOffset => 1007
  | .fetchConsumerOffsets => 1008 | .startMirror => 2000

/-- `TryFrom<u16>` of the derived enum — fluvio-protocol-derive/src/de.rs (`try_enum`), server/api_key.rs:9-31 -/
def Api.ofKey (k : BitVec 16) : Option Api :=
  if k = 18 then some .apiVersion else if k = 0 then some .produce else if k = 1 then some .fetch
  else if k = 1002 then some .fetchOffsets else if k = 1003 then some .streamFetch
  else if k = 1005 then some .updateOffsets else if k = 1006 then some .updateConsumerOffset
  else if k = 1007 then some .deleteConsumerOffset else if k = 1008 then some .fetchConsumerOffsets
  else if k = 2000 then some .startMirror else none

/-- `ProduceRequest<RecordSet<RawRecords>>` — produce/request.rs:26-45.  The timeout (a `Duration`) is given in
nanoseconds. -/
structure Produce where
  transactionalId : Option String
  committed : Bool
  timeout : Nat
  topics : List (TopicOf (ProducePartition (List (Batch Bytes))))
  smartmodules : List Invocation

/-- `IsolationData::from`, and `as_millis` (truncated to the field; see `encodable`) — produce/request.rs:156-163,
181-188 -/
def Produce.raw (p : Produce) : ProduceRequest Invocation (List (Batch Bytes)) :=
  ⟨p.transactionalId, if p.committed then -1 else 1, BitVec.ofNat 32 (p.timeout / 1000000), p.topics, p.smartmodules⟩

/-- `impl Encoder/Decoder for ProduceRequest` — produce/request.rs:79-120, conversions 156-206.  (The decoder
converts the timeout before it reads the topics; that only matters for which error is reported.) -/
def produceC (ver : Int) : Codec Produce where
  enc p := (produceRequestC (invocationT.codec ver) setC).enc p.raw
  dec := (produceRequestC (invocationT.codec ver) setC).dec.bind fun r =>
    if r.timeout.toInt < 0 then Dec.fail .invalid
    else Dec.pure ⟨r.transactionalId, decide (r.isolation.toInt < 0), r.timeout.toNat * 1000000, r.topics,
      r.smartmodules⟩
  size p := (produceRequestC (invocationT.codec ver) setC).size p.raw
  wf _ := True

/-- `FetchPartition` — fetch/request.rs:85-106 -/
structure FetchPart where
  index : BitVec (8 * 4)
  epoch : BitVec (8 * 4)
  offset : BitVec (8 * 8)
  logStart : BitVec (8 * 8)
  maxBytes : BitVec (8 * 4)
deriving DecidableEq

abbrev fetchPartT : Ty (BitVec (8 * 4) × BitVec (8 * 4) × BitVec (8 * 8) × BitVec (8 * 8) × BitVec (8 * 4)) :=
  .pair (.int 4) (.pair (.field 9 none (.int 4) 0) (.pair (.int 8) (.pair (.field 5 none (.int 8) 0) (.int 4))))

def fetchPartC (ver : Int) : Codec FetchPart :=
  structC (fun p => (p.index, p.epoch, p.offset, p.logStart, p.maxBytes))
    (fun t => ⟨t.1, t.2.1, t.2.2.1, t.2.2.2.1, t.2.2.2.2⟩) (fetchPartT.codec ver)

/-- `FetchRequest<R>` — fetch/request.rs:17-46 -/
structure Fetch where
  maxWait : BitVec (8 * 4)
  minBytes : BitVec (8 * 4)
  maxBytes : BitVec (8 * 4)
  isolation : Unit ⊕ Unit ⊕ Empty
  topics : List (String × List FetchPart)
  forgotten : List (String × List (BitVec (8 * 4)))

/-- `ForgottenTopic` — fetch/request.rs:73-83 -/
abbrev forgottenT : Ty (String × List (BitVec (8 * 4))) :=
  .pair (.field 7 none .string "") (.field 7 none (.vec (.int 4)) [])

/-- The derived codec of `FetchRequest` — fetch/request.rs:17-71 -/
def fetchC (ver : Int) : Codec Fetch :=
  structC (fun f => (f.maxWait, f.minBytes, f.maxBytes, f.isolation, f.topics, f.forgotten))
    (fun t => ⟨t.1, t.2.1, t.2.2.1, t.2.2.2.1, t.2.2.2.2.1, t.2.2.2.2.2⟩)
    (pairC (intC 4) <| pairC (intC 4) <| pairC (fieldC 3 none ver (intC 4) 0) <|
      pairC (fieldC 4 none ver (isolationT.codec ver) (.inl ())) <|
      pairC (vecC (pairC stringC (vecC (fetchPartC ver)))) (fieldC 7 none ver (vecC (forgottenT.codec ver)) []))

/-- `StreamFetchRequest<R>` — server/stream_fetch.rs:57-92 -/
structure StreamFetch where
  topic : String
  partition : BitVec (8 * 4)
  offset : BitVec (8 * 8)
  maxBytes : BitVec (8 * 4)
  isolation : Unit ⊕ Unit ⊕ Empty
  wasm : List (BitVec (8 * 1))
  smartmodule : Option Invocation
  derivedstream : Option (String × (List (String × String) × Option (BitVec 64 × Option (BitVec 64 × BitVec 32))))
  smartmodules : List Invocation
  consumerId : Option String

/-- The derived codec of `StreamFetchRequest` — server/stream_fetch.rs:57-92, 112-116 -/
def streamFetchReqC (ver : Int) : Codec StreamFetch :=
  structC (fun f => (f.topic, f.partition, f.offset, f.maxBytes, f.isolation, f.wasm, f.smartmodule, f.derivedstream,
      f.smartmodules, f.consumerId))
    (fun t => ⟨t.1, t.2.1, t.2.2.1, t.2.2.2.1, t.2.2.2.2.1, t.2.2.2.2.2.1, t.2.2.2.2.2.2.1, t.2.2.2.2.2.2.2.1,
      t.2.2.2.2.2.2.2.2.1, t.2.2.2.2.2.2.2.2.2⟩)
    (pairC stringC <| pairC (intC 4) <| pairC (intC 8) <| pairC (intC 4) <| pairC (isolationT.codec ver) <|
      pairC (fieldC 11 (some 18) ver (vecC (intC 1)) []) <|
      pairC (fieldC 16 (some 18) ver (optionC (invocationT.codec ver)) none) <|
      pairC (fieldC 16 (some 18) ver (optionC (pairC stringC (Smart.paramsT.codec ver))) none) <|
      pairC (fieldC 18 none ver (vecC (invocationT.codec ver)) []) (fieldC 23 none ver (optionC stringC) none))

/-- Contents of the requests: `ApiVersionsRequest` (link/versions.rs:16-24), `FetchOffsetsRequest`
(server/fetch_offset.rs:22-62), `UpdateOffsetsRequest` (server/update_offset.rs:14-24),
`UpdateConsumerOffsetRequest`, `DeleteConsumerOffsetRequest`, `FetchConsumerOffsetsRequest`
(server/consumer_offset.rs:8-74), `StartMirrorRequest` (server/mirror.rs:7-12). -/
abbrev Api.Req : Api → Type
  | .apiVersion => String × String × String
  | .produce => Produce
  | .fetch => Fetch
  | .fetchOffsets => List (String × List (BitVec (8 * 4))) × Option String
  | .streamFetch => StreamFetch
  | .updateOffsets => List (BitVec (8 * 8) × BitVec (8 * 4))
  | .updateConsumerOffset => BitVec (8 * 8) × BitVec (8 * 4)
  | .deleteConsumerOffset => (String × BitVec (8 * 4)) × String
  | .fetchConsumerOffsets => Option (Option (String × BitVec (8 * 4)) × Option String)
  | .startMirror => String × String

/-- The codecs of the requests (see `Api.Req`). -/
def reqC (ver : Int) : (a : Api) → Codec a.Req
  | .apiVersion => pairC (fieldC 1 none ver stringC "") (pairC (fieldC 1 none ver stringC "") (fieldC 1 none ver stringC ""))
  | .produce => produceC ver
  | .fetch => fetchC ver
  | .fetchOffsets => pairC (vecC (pairC stringC (vecC (intC 4)))) (fieldC 23 (some 23) ver (optionC stringC) none)
  | .streamFetch => streamFetchReqC ver
  | .updateOffsets => vecC (pairC (intC 8) (intC 4))
  | .updateConsumerOffset => pairC (intC 8) (intC 4)
  | .deleteConsumerOffset => pairC (pairC stringC (intC 4)) stringC
  | .fetchConsumerOffsets =>
    fieldC 24 none ver (optionC (pairC (optionC (pairC stringC (intC 4))) (optionC stringC))) none
  | .startMirror => pairC stringC stringC

/-- Encoding does not fail: the only conversion that can is that of a timeout to 32 bits — produce/request.rs:181-190 -/
def encodable : (a : Api) → a.Req → Bool
  | .produce, p => decide (p.timeout / 1000000 < 2 ^ 31)
  | _, _ => true

/-- `RequestMessage::encode` — api/request.rs:144-175: the header, then the request at the header's version. -/
def encodeRequest (h : Header) (a : Api) (x : a.Req) : Option Bytes :=
  if encodable a x then some (reqHeaderC.enc h ++ (reqC h.apiVersion.toInt a).enc x) else none

/-- `RequestMessage::write_size` — api/request.rs:149-151 -/
def requestSize (h : Header) (a : Api) (x : a.Req) : Nat :=
  reqHeaderC.size h + (reqC h.apiVersion.toInt a).size x

/-- `ApiMessage::decode_from` and `SpuServerRequest::decode_with_header` — api/mod.rs:59-86, server/api.rs:70-104:
the header, then the request its key stands for, at the version of the header. -/
def decodeRequest : Dec (Header × (a : Api) × a.Req) :=
  reqHeaderC.dec.bind fun h =>
    match Api.ofKey h.apiKey with
    | none => Dec.fail .invalid
    | some a => (reqC h.apiVersion.toInt a).dec.bind fun x => Dec.pure (h, ⟨a, x⟩)

/-! ## Answers -/

/-- `PartitionProduceResponse` — produce/response.rs:50-74 -/
structure ProducedPart where
  index : BitVec (8 * 4)
  error : ErrorCode
  baseOffset : BitVec (8 * 8)
  appendTime : BitVec (8 * 8)
  logStart : BitVec (8 * 8)

def producedPartC (ver : Int) : Codec ProducedPart :=
  structC (fun p => (p.index, p.error, p.baseOffset, p.appendTime, p.logStart))
    (fun t => ⟨t.1, t.2.1, t.2.2.1, t.2.2.2.1, t.2.2.2.2⟩)
    (pairC (intC 4) <| pairC errorCodeC <| pairC (intC 8) <| pairC (fieldC 2 none ver (intC 8) 0)
      (fieldC 5 none ver (intC 8) 0))

/-- `PlatformVersion` — link/versions.rs:52-125: a text that the decoder checks to be a semantic version
(`semver` stands for `semver::Version::parse(…).is_ok()`). -/
def platformC (semver : String → Bool) : Codec String where
  enc := stringC.enc
  dec := stringC.dec.bind fun s => if semver s then Dec.pure s else Dec.fail .invalid
  size := stringC.size
  wf s := stringC.wf s ∧ semver s = true

/-- Contents of the answers: `ApiVersionsResponse` (link/versions.rs:38-50), `ProduceResponse`
(produce/response.rs:7-48), `FetchResponse`, `FetchOffsetsResponse` (server/fetch_offset.rs:68-108),
`StreamFetchResponse`, `UpdateOffsetsResponse` (server/update_offset.rs:38-48), `UpdateConsumerOffsetResponse`,
`DeleteConsumerOffsetResponse`, `FetchConsumerOffsetsResponse` (server/consumer_offset.rs:27-31, 57-60, 82-94),
`StartMirrorResponse` (server/mirror.rs:20-21). -/
abbrev Api.Resp : Api → Type
  | .apiVersion => ErrorCode × List (BitVec (8 * 2) × BitVec (8 * 2) × BitVec (8 * 2)) × String
  | .produce => List (String × List ProducedPart) × BitVec (8 * 4)
  | .fetch => FetchResponse ErrorCode (List (Batch Bytes))
  | .fetchOffsets => List (String × List (ErrorCode × BitVec (8 * 4) × BitVec (8 * 8) × BitVec (8 * 8)))
  | .streamFetch => StreamFetchResponse ErrorCode (List (Batch Bytes))
  | .updateOffsets => List (BitVec (8 * 4) × ErrorCode)
  | .updateConsumerOffset => BitVec (8 * 8) × ErrorCode
  | .deleteConsumerOffset => ErrorCode
  | .fetchConsumerOffsets =>
    ErrorCode × List (String × (String × BitVec (8 * 4)) × BitVec (8 * 8) × BitVec (8 * 8))
  | .startMirror => Unit

/-- The codecs of the answers (see `Api.Resp`). -/
def respC (semver : String → Bool) (ver : Int) : (a : Api) → Codec a.Resp
  | .apiVersion => pairC errorCodeC (pairC (vecC (pairC (intC 2) (pairC (intC 2) (intC 2)))) (platformC semver))
  | .produce => pairC (vecC (pairC stringC (vecC (producedPartC ver)))) (fieldC 1 none ver (intC 4) 0)
  | .fetch => fetchResponseC ver errorCodeC setC
  | .fetchOffsets => vecC (pairC stringC (vecC (pairC errorCodeC (pairC (intC 4) (pairC (intC 8) (intC 8))))))
  | .streamFetch => streamFetchC ver errorCodeC setC
  | .updateOffsets => vecC (pairC (intC 4) errorCodeC)
  | .updateConsumerOffset => pairC (intC 8) errorCodeC
  | .deleteConsumerOffset => errorCodeC
  | .fetchConsumerOffsets =>
    pairC errorCodeC (vecC (pairC stringC (pairC (pairC stringC (intC 4)) (pairC (intC 8) (intC 8)))))
  | .startMirror => unitC

/-- `RequestMessage::new_response` and `ResponseMessage::encode` — api/request.rs:84-94, api/response.rs:82-110: the
correlation id of the request and the answer, at the version of the request (every handler passes
`header.api_version()`). -/
def encodeResponse (semver : String → Bool) (h : Header) (a : Api) (y : a.Resp) : Bytes :=
  (intC 4).enc h.correlationId ++ (respC semver h.apiVersion.toInt a).enc y

/-- `ResponseMessage::write_size` — api/response.rs:86-88 -/
def responseSize (semver : String → Bool) (h : Header) (a : Api) (y : a.Resp) : Nat :=
  4 + (respC semver h.apiVersion.toInt a).size y

/-- `ResponseMessage::decode_from` on the client, at the version of its request — api/response.rs:36-53,
fluvio-socket/src/multiplexing.rs -/
def decodeResponse (semver : String → Bool) (h : Header) (a : Api) : Dec (BitVec 32 × a.Resp) :=
  (intC 4).dec.bind fun c => (respC semver h.apiVersion.toInt a).dec.bind fun y => Dec.pure (c, y)

end Verif.Net.Spu
