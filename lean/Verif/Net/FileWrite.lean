import Verif.Wire.Universe
import Verif.Net.Frame

/-!
# Messages written partly from files

`fluvio-protocol/src/store.rs`, `fluvio-spu-schema/src/file.rs`, `fluvio-socket/src/sink.rs` and the
`FileWrite` implementations: the broker sends stored records by copying file ranges to the socket.  The
message is assembled as a list of byte chunks and file slices, and its announced length is computed
beforehand by `write_size`.
-/

namespace Verif.Net
open Verif.Wire

/-- `AsyncFileSlice` (crate `fluvio-future`): a range of an open file. -/
structure Slice where
  file : Nat
  pos : Nat
  len : Nat
deriving DecidableEq, Inhabited

/-- Contents of the open files. -/
abbrev Files := Nat → Bytes

/-- Bytes of the file range. -/
def Slice.content (fs : Files) (s : Slice) : Bytes := ((fs s.file).drop s.pos).take s.len

/-- `StoreValue` — store.rs:14-17 -/
inductive Part where
  | bytes (b : Bytes)
  | slice (s : Slice)
deriving DecidableEq

/-- The two out-parameters of `file_encode`: the current buffer and the finished values. -/
structure Out where
  buf : Bytes := []
  data : List Part := []
deriving DecidableEq

/-- Encoding something ordinary: `x.encode(dest, version)`. -/
def Out.put (o : Out) (b : Bytes) : Out := { o with buf := o.buf ++ b }

/-- `FileRecordSet::file_encode` — file.rs:80-96 -/
def Slice.fileEncode (s : Slice) (o : Out) : Out :=
  let o1 := o.put (intEnc 4 (BitVec.ofNat 32 s.len))
  ⟨[], o1.data ++ [.bytes o1.buf, .slice s]⟩

/-- `FileRecordSet` as far as it is an `Encoder` — file.rs:51-71: `write_size`; `encode` works on the
empty slice only and `decode` is `unimplemented!`, neither is used. -/
def sliceC : Codec Slice where
  enc s := if s.len = 0 then intEnc 4 0#32 else []
  dec := Dec.fail .panic
  size s := s.len + 4
  wf _ := True

/-- `Vec<M>::file_encode` — store.rs:39-56 -/
def vecFileEncode {α} (fe : α → Out → Out) (vs : List α) (o : Out) : Out :=
  vs.foldl (fun o v => fe v o) (o.put (intEnc 4 (BitVec.ofNat 32 vs.length)))

/-- A struct is encoded like the tuple of its fields. -/
def structC {α β} (to : β → α) (back : α → β) (c : Codec α) : Codec β where
  enc v := c.enc (to v)
  dec := c.dec.bind fun a => Dec.pure (back a)
  size v := c.size (to v)
  wf v := c.wf (to v)

theorem structC_rt {α β} {to : β → α} {back : α → β} {c : Codec α} (hc : RoundTrips c)
    (h : ∀ v, back (to v) = v) : RoundTrips (structC to back c) where
  roundtrip v rest hw := by
    show (c.dec.bind fun a => Dec.pure (back a)) (c.enc (to v) ++ rest) = _
    rw [Dec.bind_ok (hc.roundtrip _ rest hw)]
    simp only [Dec.pure, h]
  size_eq v hw := hc.size_eq _ hw

/-! ## Fetch responses -/

/-- `FetchablePartitionResponse<R>` — fetch/response.rs:56-80.  `ε` stands for `ErrorCode`. -/
structure FetchPartition (ε R : Type) where
  index : BitVec 32
  error : ε
  hw : BitVec 64
  nextFilter : BitVec 64
  logStart : BitVec 64
  aborted : Option (List (BitVec 64 × BitVec 64))
  records : R

/-- Derived encoder and decoder, fields in declaration order; `next_filter_offset` has
`min_version = 11` — fetch/response.rs:56-80, 97-101. -/
def fetchPartitionC {ε R} (ver : Int) (e : Codec ε) (r : Codec R) : Codec (FetchPartition ε R) :=
  structC (fun p => (p.index, p.error, p.hw, p.nextFilter, p.logStart, p.aborted, p.records))
    (fun t => ⟨t.1, t.2.1, t.2.2.1, t.2.2.2.1, t.2.2.2.2.1, t.2.2.2.2.2.1, t.2.2.2.2.2.2⟩)
    (pairC (intC 4) <| pairC e <| pairC (intC 8) <| pairC (fieldC 11 none ver (intC 8) 0) <|
      pairC (intC 8) <| pairC (optionC (vecC (pairC (intC 8) (intC 8)))) r)

/-- `FilePartitionResponse::file_encode` — fetch/response.rs:137-158 -/
def FetchPartition.fileEncode {ε} (ver : Int) (e : Codec ε) (p : FetchPartition ε Slice) (o : Out) :
    Out :=
  let o := o.put ((intC 4).enc p.index)
  let o := o.put (e.enc p.error)
  let o := o.put ((intC 8).enc p.hw)
  let o := if ver ≥ 11 then o.put ((intC 8).enc p.nextFilter) else o
  let o := o.put ((intC 8).enc p.logStart)
  let o := o.put ((optionC (vecC (pairC (intC 8) (intC 8)))).enc p.aborted)
  p.records.fileEncode o

/-- `FetchableTopicResponse<R>` — fetch/response.rs:46-54; likewise `PeerFetchableTopicResponse`
(replication/follower/sync.rs:81-89) and `TopicProduceData` (produce/request.rs:60-68) with other
partition types.  (`PhantomData` takes no bytes.) -/
structure TopicOf (P : Type) where
  name : String
  partitions : List P

def topicC {P} (p : Codec P) : Codec (TopicOf P) :=
  structC (fun t => (t.name, t.partitions)) (fun t => ⟨t.1, t.2⟩) (pairC stringC (vecC p))

/-- `FileTopicResponse::file_encode` — fetch/response.rs:181-193; `PeerFileTopicResponse::file_encode` —
follower/sync.rs:128-140; `FileTopicRequest::file_encode` — produce/request.rs:248-260 -/
def TopicOf.fileEncode {P} (fe : P → Out → Out) (t : TopicOf P) (o : Out) : Out :=
  let o := o.put (stringC.enc t.name)
  vecFileEncode fe t.partitions o

/-- `FetchResponse<R>` — fetch/response.rs:13-24 -/
structure FetchResponse (ε R : Type) where
  throttle : BitVec 32
  error : ε
  session : BitVec 32
  topics : List (TopicOf (FetchPartition ε R))

def fetchResponseC {ε R} (ver : Int) (e : Codec ε) (r : Codec R) : Codec (FetchResponse ε R) :=
  structC (fun f => (f.throttle, f.error, f.session, f.topics)) (fun t => ⟨t.1, t.2.1, t.2.2.1, t.2.2.2⟩)
    (pairC (intC 4) <| pairC e <| pairC (intC 4) (vecC (topicC (fetchPartitionC ver e r))))

/-- `FileFetchResponse::file_encode` — fetch/response.rs:160-179 -/
def FetchResponse.fileEncode {ε} (ver : Int) (e : Codec ε) (f : FetchResponse ε Slice) (o : Out) : Out :=
  let o := o.put ((intC 4).enc f.throttle)
  let o := o.put (e.enc f.error)
  let o := o.put ((intC 4).enc f.session)
  vecFileEncode (TopicOf.fileEncode (FetchPartition.fileEncode ver e)) f.topics o

/-- `StreamFetchResponse<R>` — server/stream_fetch.rs:115-120 -/
structure StreamFetchResponse (ε R : Type) where
  topic : String
  streamId : BitVec 32
  partition : FetchPartition ε R

def streamFetchC {ε R} (ver : Int) (e : Codec ε) (r : Codec R) : Codec (StreamFetchResponse ε R) :=
  structC (fun f => (f.topic, f.streamId, f.partition)) (fun t => ⟨t.1, t.2.1, t.2.2⟩)
    (pairC stringC <| pairC (intC 4) (fetchPartitionC ver e r))

/-- `StreamFetchResponse<FileRecordSet>::file_encode` — server/stream_fetch.rs:142-156 -/
def StreamFetchResponse.fileEncode {ε} (ver : Int) (e : Codec ε) (f : StreamFetchResponse ε Slice)
    (o : Out) : Out :=
  let o := o.put (stringC.enc f.topic)
  let o := o.put ((intC 4).enc f.streamId)
  f.partition.fileEncode ver e o

/-! ## Replication -/

/-- `PeerFetchablePartitionResponse<R>` — follower/sync.rs:104-114 -/
structure PeerPartition (ε R : Type) where
  partition : BitVec 32
  error : ε
  hw : BitVec 64
  leo : BitVec 64
  records : R

def peerPartitionC {ε R} (e : Codec ε) (r : Codec R) : Codec (PeerPartition ε R) :=
  structC (fun p => (p.partition, p.error, p.hw, p.leo, p.records))
    (fun t => ⟨t.1, t.2.1, t.2.2.1, t.2.2.2.1, t.2.2.2.2⟩)
    (pairC (intC 4) <| pairC e <| pairC (intC 8) <| pairC (intC 8) r)

/-- `PeerFilePartitionResponse::file_encode` — follower/sync.rs:142-157 -/
def PeerPartition.fileEncode {ε} (e : Codec ε) (p : PeerPartition ε Slice) (o : Out) : Out :=
  let o := o.put ((intC 4).enc p.partition)
  let o := o.put (e.enc p.error)
  let o := o.put ((intC 8).enc p.hw)
  let o := o.put ((intC 8).enc p.leo)
  p.records.fileEncode o

/-- `SyncRequest<R>` — follower/sync.rs:30-36: just the list of topics. -/
abbrev SyncRequest (ε R : Type) := List (TopicOf (PeerPartition ε R))

def syncRequestC {ε R} (e : Codec ε) (r : Codec R) : Codec (SyncRequest ε R) :=
  vecC (topicC (peerPartitionC e r))

/-- `FileSyncRequest::file_encode` — follower/sync.rs:67-79 -/
def syncFileEncode {ε} (e : Codec ε) (s : SyncRequest ε Slice) (o : Out) : Out :=
  vecFileEncode (TopicOf.fileEncode (PeerPartition.fileEncode e)) s o

/-- `MirrorPartitionSyncRequest<R>` and its wrapper — mirroring/remote/sync.rs:24-32,
mirroring/home/sync.rs:24-27 -/
structure MirrorSync (R : Type) where
  hw : BitVec 64
  leo : BitVec 64
  records : R

def mirrorSyncC {R} (r : Codec R) : Codec (MirrorSync R) :=
  structC (fun p => (p.hw, p.leo, p.records)) (fun t => ⟨t.1, t.2.1, t.2.2⟩)
    (pairC (intC 8) <| pairC (intC 8) r)

/-- `RemoteFilePartitionSyncRequest::file_encode`, `HomeFilePartitionSyncRequest::file_encode` —
mirroring/remote/sync.rs:59-72, mirroring/home/sync.rs:56-67 -/
def MirrorSync.fileEncode (p : MirrorSync Slice) (o : Out) : Out :=
  let o := o.put ((intC 8).enc p.hw)
  let o := o.put ((intC 8).enc p.leo)
  p.records.fileEncode o

/-! ## Produce requests -/

/-- `PartitionProduceData<R>` — produce/request.rs:70-77 -/
structure ProducePartition (R : Type) where
  index : BitVec 32
  records : R

def producePartitionC {R} (r : Codec R) : Codec (ProducePartition R) :=
  structC (fun p => (p.index, p.records)) (fun t => ⟨t.1, t.2⟩) (pairC (intC 4) r)

/-- `FilePartitionRequest::file_encode` — produce/request.rs:262-274 -/
def ProducePartition.fileEncode (p : ProducePartition Slice) (o : Out) : Out :=
  let o := o.put ((intC 4).enc p.index)
  p.records.fileEncode o

/-- `ProduceRequest<R>` — produce/request.rs:26-45.  Isolation and timeout are given as the integers
they are sent as (`IsolationData`, `TimeoutData`: produce/request.rs:152-206); `σ` stands for
`SmartModuleInvocation`. -/
structure ProduceRequest (σ R : Type) where
  transactionalId : Option String
  isolation : BitVec 16
  timeout : BitVec 32
  topics : List (TopicOf (ProducePartition R))
  smartmodules : List σ

/-- `impl Encoder/Decoder for ProduceRequest` — produce/request.rs:79-120 -/
def produceRequestC {σ R} (sm : Codec σ) (r : Codec R) : Codec (ProduceRequest σ R) :=
  structC (fun f => (f.transactionalId, f.isolation, f.timeout, f.topics, f.smartmodules))
    (fun t => ⟨t.1, t.2.1, t.2.2.1, t.2.2.2.1, t.2.2.2.2⟩)
    (pairC (optionC stringC) <| pairC (intC 2) <| pairC (intC 4) <|
      pairC (vecC (topicC (producePartitionC r))) (vecC sm))

/-- `FileProduceRequest::file_encode` — produce/request.rs:229-246: the SmartModules are not written.
(Nothing in the repository sends such a request.) -/
def ProduceRequest.fileEncode {σ} (f : ProduceRequest σ Slice) (o : Out) : Out :=
  let o := o.put ((optionC stringC).enc f.transactionalId)
  let o := o.put ((intC 2).enc f.isolation)
  let o := o.put ((intC 4).enc f.timeout)
  vecFileEncode (TopicOf.fileEncode ProducePartition.fileEncode) f.topics o

/-! ## Messages and the socket -/

/-- `RequestHeader` — api/mod.rs:88-94 -/
structure Header where
  apiKey : BitVec 16
  apiVersion : BitVec 16
  correlationId : BitVec 32
  clientId : String

def reqHeaderC : Codec Header :=
  structC (fun h => (h.apiKey, h.apiVersion, h.correlationId, h.clientId))
    (fun t => ⟨t.1, t.2.1, t.2.2.1, t.2.2.2⟩)
    (pairC (intC 2) <| pairC (intC 2) <| pairC (intC 4) stringC)

/-- `ResponseMessage<P>::file_encode` — store.rs:58-84; `write_size` — api/response.rs:86-88.  `c` is
the response's own encoder (for its size), `fe` its `file_encode`. -/
def responseFileEncode {α} (c : Codec α) (fe : α → Out → Out) (corr : BitVec 32) (v : α) (o : Out) : Out :=
  let len := 4 + c.size v
  let o := o.put (intEnc 4 (BitVec.ofNat 32 len))
  let o := o.put ((intC 4).enc corr)
  fe v o

/-- `RequestMessage<R>::file_encode` — store.rs:86-110; `write_size` — api/request.rs:149-151.  The
size is computed at the version of the header (`c`), the encoding at the version of the call (`fe`);
all callers pass the header's (replication/leader/connection.rs:159, mirroring/home/connection.rs:356,
mirroring/remote/controller.rs:475). -/
def requestFileEncode {α} (c : Codec α) (fe : α → Out → Out) (h : Header) (v : α) (o : Out) : Out :=
  let len := reqHeaderC.size h + c.size v
  let o := o.put (intEnc 4 (BitVec.ofNat 32 len))
  let o := o.put (reqHeaderC.enc h)
  fe v o

/-- `FluvioSink::encode_file_slices` up to the call of `write_store_values` — sink.rs:119-136:
assemble, then add the remainder. -/
def encodeFileSlices (fe : Out → Out) : List Part :=
  let o := fe {}
  o.data ++ [.bytes o.buf]

/-- How the sink gets at the bytes of a slice: `enable_zero_copy`, or one call of `pread` per slice,
which may return fewer bytes than asked for. -/
structure Sink where
  zeroCopy : Bool
  pread : Slice → Bytes

/-- `write_store_values` — sink.rs:138-209: the bytes put on the socket, and the returned count.
`ZeroCopy::copy_slice` (crate `fluvio-future`) is taken to copy the whole slice; errors, which abort
the write, are not modelled. -/
def writeValues (fs : Files) (k : Sink) : List Part → Bytes × Nat
  | [] => ([], 0)
  | .bytes b :: ps =>
    let r := writeValues fs k ps
    (b ++ r.1, b.length + r.2)
  | .slice s :: ps =>
    let r := writeValues fs k ps
    if s.len = 0 then r
    else
      let b := if k.zeroCopy then s.content fs else k.pread s
      (b ++ r.1, b.length + r.2)

/-! ## Proofs -/

/-! **Specification**: what the receiver should get — the same message, the slice replaced by the bytes
of the file (and a field older versions do not have by its default). -/

def FetchPartition.load {ε} (fs : Files) (ver : Int) (p : FetchPartition ε Slice) :
    FetchPartition ε Bytes :=
  { index := p.index, error := p.error, hw := p.hw, nextFilter := if ver ≥ 11 then p.nextFilter else 0,
    logStart := p.logStart, aborted := p.aborted, records := p.records.content fs }

def TopicOf.load {P Q} (f : P → Q) (t : TopicOf P) : TopicOf Q :=
  { name := t.name, partitions := t.partitions.map f }

def FetchResponse.load {ε} (fs : Files) (ver : Int) (f : FetchResponse ε Slice) : FetchResponse ε Bytes :=
  { throttle := f.throttle, error := f.error, session := f.session,
    topics := f.topics.map (TopicOf.load (FetchPartition.load fs ver)) }

def StreamFetchResponse.load {ε} (fs : Files) (ver : Int) (f : StreamFetchResponse ε Slice) :
    StreamFetchResponse ε Bytes :=
  { topic := f.topic, streamId := f.streamId, partition := f.partition.load fs ver }

def PeerPartition.load {ε} (fs : Files) (p : PeerPartition ε Slice) : PeerPartition ε Bytes :=
  { partition := p.partition, error := p.error, hw := p.hw, leo := p.leo,
    records := p.records.content fs }

def syncLoad {ε} (fs : Files) (s : SyncRequest ε Slice) : SyncRequest ε Bytes :=
  s.map (TopicOf.load (PeerPartition.load fs))

def MirrorSync.load (fs : Files) (p : MirrorSync Slice) : MirrorSync Bytes :=
  { hw := p.hw, leo := p.leo, records := p.records.content fs }

def ProducePartition.load (fs : Files) (p : ProducePartition Slice) : ProducePartition Bytes :=
  { index := p.index, records := p.records.content fs }

def ProduceRequest.load {σ} (fs : Files) (f : ProduceRequest σ Slice) : ProduceRequest σ Bytes :=
  { transactionalId := f.transactionalId, isolation := f.isolation, timeout := f.timeout,
    topics := f.topics.map (TopicOf.load (ProducePartition.load fs)), smartmodules := f.smartmodules }

/-- The range lies within the file. -/
def Slice.inside (fs : Files) (s : Slice) : Prop := s.pos + s.len ≤ (fs s.file).length

theorem Slice.content_length {fs : Files} {s : Slice} (h : s.inside fs) :
    (s.content fs).length = s.len := by
  unfold Slice.inside at h
  unfold Slice.content
  rw [List.length_take, List.length_drop]; omega

def Part.flat (fs : Files) : Part → Bytes
  | .bytes b => b
  | .slice s => s.content fs

/-- All bytes assembled so far. -/
def Out.flat (fs : Files) (o : Out) : Bytes := o.data.flatMap (Part.flat fs) ++ o.buf

theorem Out.flat_put (fs : Files) (o : Out) (b : Bytes) : (o.put b).flat fs = o.flat fs ++ b := by
  unfold Out.put Out.flat; simp

/-- `fe` writes what the encoder `c` writes for the loaded value, and `cs` announces its size. -/
structure FileEnc {α β} (fs : Files) (fe : α → Out → Out) (load : α → β) (c : Codec β) (cs : Codec α)
    (ok : α → Prop) : Prop where
  bytes : ∀ v o, ok v → (fe v o).flat fs = o.flat fs ++ c.enc (load v)
  size : ∀ v, ok v → cs.size v = c.size (load v)

theorem slice_fileEnc (fs : Files) :
    FileEnc fs Slice.fileEncode (Slice.content fs) byteBufC sliceC (Slice.inside fs) where
  bytes s o h := by
    have hl := Slice.content_length h
    have hi : intEnc 4 (BitVec.ofNat 32 s.len) = beEnc 4 (s.content fs).length := by
      rw [hl]
      have e := intDec_beEnc 4 s.len []
      have e2 := intDec_intEnc 4 (BitVec.ofNat 32 s.len) []
      unfold intEnc
      rw [BitVec.toNat_ofNat]
      have : ∀ n k, beEnc n (k % 256 ^ n) = beEnc n k := by
        intro n k
        have h1 := beEnc_beVal (beEnc n k)
        rw [beEnc_length, beVal_beEnc] at h1
        exact h1
      have h3 := this 4 s.len
      rw [show (256 : Nat) ^ 4 = 2 ^ 32 from rfl] at h3
      exact h3
    show Out.flat fs ⟨[], o.data ++ [.bytes (o.buf ++ _), .slice s]⟩ = _
    unfold Out.flat
    simp only [List.flatMap_append, List.flatMap_cons, List.flatMap_nil, Part.flat, List.append_nil,
      byteBufC, hi, List.append_assoc]
  size s h := by
    show s.len + 4 = 4 + (s.content fs).length
    rw [Slice.content_length h]; omega

theorem intEnc_ofNat (n k : Nat) : intEnc n (BitVec.ofNat (8 * n) k) = beEnc n k := by
  unfold intEnc
  rw [BitVec.toNat_ofNat, ← pow256]
  have h1 := beEnc_beVal (beEnc n k)
  rw [beEnc_length, beVal_beEnc] at h1
  exact h1

theorem vec_fileEnc {α β} {fs : Files} {fe : α → Out → Out} {load : α → β} {c : Codec β} {cs : Codec α}
    {ok : α → Prop} (h : FileEnc fs fe load c cs ok) :
    FileEnc fs (vecFileEncode fe) (List.map load) (vecC c) (vecC cs) (fun vs => ∀ v ∈ vs, ok v) where
  bytes vs o hv := by
    have gen : ∀ (vs : List α) (o : Out), (∀ v ∈ vs, ok v) →
        (vs.foldl (fun o v => fe v o) o).flat fs = o.flat fs ++ (vs.map load).flatMap c.enc := by
      intro vs
      induction vs with
      | nil => intro o _; simp
      | cons v vs ih =>
        intro o hv
        rw [List.foldl_cons, ih _ (fun w hw => hv w (by simp [hw])), h.bytes v o (hv v (by simp))]
        simp [List.append_assoc]
    unfold vecFileEncode
    rw [gen vs _ hv, Out.flat_put]
    simp only [vecC, List.length_map, List.append_assoc]
    rw [intEnc_ofNat 4]
  size vs hv := by
    simp only [vecC, List.foldl_map]
    generalize 4 = k0
    induction vs generalizing k0 with
    | nil => rfl
    | cons v vs ih =>
      simp only [List.foldl_cons]
      rw [h.size v (hv v (by simp)), ih (fun w hw => hv w (by simp [hw]))]

theorem topic_fileEnc {α β} {fs : Files} {fe : α → Out → Out} {load : α → β} {c : Codec β} {cs : Codec α}
    {ok : α → Prop} (h : FileEnc fs fe load c cs ok) :
    FileEnc fs (TopicOf.fileEncode fe) (TopicOf.load load) (topicC c) (topicC cs)
      (fun t => ∀ v ∈ t.partitions, ok v) where
  bytes t o hv := by
    unfold TopicOf.fileEncode
    dsimp only
    rw [(vec_fileEnc h).bytes _ _ hv, Out.flat_put]
    simp only [topicC, structC, pairC, TopicOf.load, List.append_assoc]
  size t hv := by
    have := (vec_fileEnc h).size _ hv
    simp only [topicC, structC, pairC, TopicOf.load, this]

theorem fetchPartition_fileEnc {ε} (fs : Files) (ver : Int) (e : Codec ε) :
    FileEnc fs (FetchPartition.fileEncode ver e) (FetchPartition.load fs ver)
      (fetchPartitionC ver e byteBufC) (fetchPartitionC ver e sliceC)
      (fun p => p.records.inside fs) where
  bytes p o h := by
    unfold FetchPartition.fileEncode
    dsimp only
    rw [(slice_fileEnc fs).bytes _ _ h]
    by_cases hv : ver ≥ 11
    · have hi : inVersion 11 none ver = true := by simp [inVersion, hv]
      simp only [if_pos hv, Out.flat_put, fetchPartitionC, structC, pairC, FetchPartition.load,
        List.append_assoc, fieldC, hi, ↓reduceIte]
    · have hi : inVersion 11 none ver = false := by simp [inVersion]; omega
      simp only [if_neg hv, Out.flat_put, fetchPartitionC, structC, pairC, FetchPartition.load,
        List.append_assoc, fieldC, hi, Bool.false_eq_true, ↓reduceIte, List.nil_append]
  size p h := by
    have := (slice_fileEnc fs).size _ h
    simp only [fetchPartitionC, structC, pairC, FetchPartition.load, this]
    rfl

theorem fetchResponse_fileEnc {ε} (fs : Files) (ver : Int) (e : Codec ε) :
    FileEnc fs (FetchResponse.fileEncode ver e) (FetchResponse.load fs ver)
      (fetchResponseC ver e byteBufC) (fetchResponseC ver e sliceC)
      (fun f => ∀ t ∈ f.topics, ∀ p ∈ t.partitions, p.records.inside fs) where
  bytes f o h := by
    unfold FetchResponse.fileEncode
    dsimp only
    rw [(vec_fileEnc (topic_fileEnc (fetchPartition_fileEnc fs ver e))).bytes _ _ h]
    simp only [Out.flat_put, fetchResponseC, structC, pairC, FetchResponse.load, List.append_assoc]
  size f h := by
    have := (vec_fileEnc (topic_fileEnc (fetchPartition_fileEnc fs ver e))).size _ h
    simp only [fetchResponseC, structC, pairC, FetchResponse.load, this]

theorem streamFetch_fileEnc {ε} (fs : Files) (ver : Int) (e : Codec ε) :
    FileEnc fs (StreamFetchResponse.fileEncode ver e) (StreamFetchResponse.load fs ver)
      (streamFetchC ver e byteBufC) (streamFetchC ver e sliceC)
      (fun f => f.partition.records.inside fs) where
  bytes f o h := by
    unfold StreamFetchResponse.fileEncode
    dsimp only
    rw [(fetchPartition_fileEnc fs ver e).bytes _ _ h]
    simp only [Out.flat_put, streamFetchC, structC, pairC, StreamFetchResponse.load, List.append_assoc]
  size f h := by
    have := (fetchPartition_fileEnc fs ver e).size _ h
    simp only [streamFetchC, structC, pairC, StreamFetchResponse.load, this]

theorem peerPartition_fileEnc {ε} (fs : Files) (e : Codec ε) :
    FileEnc fs (PeerPartition.fileEncode e) (PeerPartition.load fs) (peerPartitionC e byteBufC)
      (peerPartitionC e sliceC) (fun p => p.records.inside fs) where
  bytes p o h := by
    unfold PeerPartition.fileEncode
    dsimp only
    rw [(slice_fileEnc fs).bytes _ _ h]
    simp only [Out.flat_put, peerPartitionC, structC, pairC, PeerPartition.load, List.append_assoc]
  size p h := by
    have := (slice_fileEnc fs).size _ h
    simp only [peerPartitionC, structC, pairC, PeerPartition.load, this]

theorem sync_fileEnc {ε} (fs : Files) (e : Codec ε) :
    FileEnc fs (syncFileEncode e) (syncLoad fs) (syncRequestC e byteBufC) (syncRequestC e sliceC)
      (fun s => ∀ t ∈ s, ∀ p ∈ t.partitions, p.records.inside fs) :=
  vec_fileEnc (topic_fileEnc (peerPartition_fileEnc fs e))

theorem mirror_fileEnc (fs : Files) :
    FileEnc fs MirrorSync.fileEncode (MirrorSync.load fs) (mirrorSyncC byteBufC) (mirrorSyncC sliceC)
      (fun p => p.records.inside fs) where
  bytes p o h := by
    unfold MirrorSync.fileEncode
    dsimp only
    rw [(slice_fileEnc fs).bytes _ _ h]
    simp only [Out.flat_put, mirrorSyncC, structC, pairC, MirrorSync.load, List.append_assoc]
  size p h := by
    have := (slice_fileEnc fs).size _ h
    simp only [mirrorSyncC, structC, pairC, MirrorSync.load, this]

theorem producePartition_fileEnc (fs : Files) :
    FileEnc fs ProducePartition.fileEncode (ProducePartition.load fs) (producePartitionC byteBufC)
      (producePartitionC sliceC) (fun p => p.records.inside fs) where
  bytes p o h := by
    unfold ProducePartition.fileEncode
    dsimp only
    rw [(slice_fileEnc fs).bytes _ _ h]
    simp only [Out.flat_put, producePartitionC, structC, pairC, ProducePartition.load, List.append_assoc]
  size p h := by
    have := (slice_fileEnc fs).size _ h
    simp only [producePartitionC, structC, pairC, ProducePartition.load, this]

theorem fieldC_rt {α} {min : Int} {max : Option Int} {ver : Int} {c : Codec α} (hc : RoundTrips c)
    (d : α) : RoundTrips (fieldC min max ver c d) := by
  cases hv : inVersion min max ver with
  | true => rw [fieldC_in _ _ hv]; exact hc
  | false => rw [fieldC_out _ _ hv]; exact (absentC_lawful d).toRoundTrips

theorem intC_rt (n : Nat) : RoundTrips (intC n) := (intC_lawful n).toRoundTrips

theorem fetchPartitionC_rt {ε} (ver : Int) {e : Codec ε} (he : RoundTrips e) :
    RoundTrips (fetchPartitionC ver e byteBufC) :=
  structC_rt (pairC_rt (intC_rt 4) <| pairC_rt he <| pairC_rt (intC_rt 8) <|
    pairC_rt (fieldC_rt (intC_rt 8) 0) <| pairC_rt (intC_rt 8) <|
    pairC_rt (optionC_rt (vecC_rt (pairC_rt (intC_rt 8) (intC_rt 8)))) byteBufC_lawful.toRoundTrips)
    fun _ => rfl

theorem topicC_rt {P} {p : Codec P} (hp : RoundTrips p) : RoundTrips (topicC p) :=
  structC_rt (pairC_rt stringC_lawful.toRoundTrips (vecC_rt hp)) fun _ => rfl

theorem fetchResponseC_rt {ε} (ver : Int) {e : Codec ε} (he : RoundTrips e) :
    RoundTrips (fetchResponseC ver e byteBufC) :=
  structC_rt (pairC_rt (intC_rt 4) <| pairC_rt he <| pairC_rt (intC_rt 4) <|
    vecC_rt (topicC_rt (fetchPartitionC_rt ver he))) fun _ => rfl

theorem streamFetchC_rt {ε} (ver : Int) {e : Codec ε} (he : RoundTrips e) :
    RoundTrips (streamFetchC ver e byteBufC) :=
  structC_rt (pairC_rt stringC_lawful.toRoundTrips <| pairC_rt (intC_rt 4) (fetchPartitionC_rt ver he))
    fun _ => rfl

theorem peerPartitionC_rt {ε} {e : Codec ε} (he : RoundTrips e) :
    RoundTrips (peerPartitionC e byteBufC) :=
  structC_rt (pairC_rt (intC_rt 4) <| pairC_rt he <| pairC_rt (intC_rt 8) <|
    pairC_rt (intC_rt 8) byteBufC_lawful.toRoundTrips) fun _ => rfl

theorem syncRequestC_rt {ε} {e : Codec ε} (he : RoundTrips e) : RoundTrips (syncRequestC e byteBufC) :=
  vecC_rt (topicC_rt (peerPartitionC_rt he))

theorem mirrorSyncC_rt : RoundTrips (mirrorSyncC byteBufC) :=
  structC_rt (pairC_rt (intC_rt 8) <| pairC_rt (intC_rt 8) byteBufC_lawful.toRoundTrips) fun _ => rfl

theorem reqHeaderC_rt : RoundTrips reqHeaderC :=
  structC_rt (pairC_rt (intC_rt 2) <| pairC_rt (intC_rt 2) <|
    pairC_rt (intC_rt 4) stringC_lawful.toRoundTrips) fun _ => rfl

/-- What the sink writes is what was assembled. -/
theorem writeValues_flat {fs : Files} {k : Sink} (ps : List Part)
    (hk : k.zeroCopy = true ∨ ∀ s, Part.slice s ∈ ps → k.pread s = s.content fs) :
    (writeValues fs k ps).1 = ps.flatMap (Part.flat fs) := by
  induction ps with
  | nil => rfl
  | cons p ps ih =>
    have ih' := ih (hk.imp id fun h s hs => h s (by simp [hs]))
    cases p with
    | bytes b =>
      show b ++ (writeValues fs k ps).1 = _
      rw [ih', List.flatMap_cons]; rfl
    | slice s =>
      rw [List.flatMap_cons, ← ih']
      simp only [writeValues]
      by_cases h0 : s.len = 0
      · rw [if_pos h0]
        simp [Part.flat, Slice.content, h0]
      · rw [if_neg h0]
        dsimp only
        congr 1
        rcases hk with hk | hk
        · rw [if_pos hk]; rfl
        · cases hz : k.zeroCopy with
          | true => rfl
          | false =>
            simp only [Bool.false_eq_true, ↓reduceIte]
            exact hk s (by simp)

theorem writeValues_count (fs : Files) (k : Sink) (ps : List Part) :
    (writeValues fs k ps).2 = (writeValues fs k ps).1.length := by
  induction ps with
  | nil => rfl
  | cons p ps ih =>
    cases p with
    | bytes b =>
      show b.length + (writeValues fs k ps).2 = (b ++ (writeValues fs k ps).1).length
      rw [ih, List.length_append]
    | slice s =>
      simp only [writeValues]
      by_cases h0 : s.len = 0
      · rw [if_pos h0, ih]
      · rw [if_neg h0]
        dsimp only
        rw [ih, List.length_append]

theorem response_frame {α β} {fs : Files} {k : Sink} {fe : α → Out → Out} {load : α → β} {c : Codec β}
    {cs : Codec α} {ok : α → Prop} (h : FileEnc fs fe load c cs ok) (hc : RoundTrips c) (corr : BitVec 32)
    (v : α) (hok : ok v) (hwf : c.wf (load v))
    (hk : k.zeroCopy = true ∨ ∀ s, k.pread s = s.content fs) :
    (writeValues fs k (encodeFileSlices (responseFileEncode cs fe corr v))).1 =
      frame ((pairC (intC 4) c).enc (corr, load v)) := by
  rw [writeValues_flat _ (hk.imp id fun h s _ => h s)]
  unfold encodeFileSlices
  have hf : ∀ o : Out, (o.data ++ [Part.bytes o.buf]).flatMap (Part.flat fs) = o.flat fs := by
    intro o; unfold Out.flat; simp [Part.flat]
  dsimp only
  rw [hf]
  unfold responseFileEncode
  dsimp only
  rw [h.bytes v _ hok, Out.flat_put, Out.flat_put]
  have hs : (4 : Nat) + cs.size v = ((pairC (intC 4) c).enc (corr, load v)).length := by
    rw [h.size v hok, hc.size_eq _ hwf]
    simp only [pairC, List.length_append]
    congr 1
  rw [hs]
  unfold frame
  simp [Out.flat, pairC, List.append_assoc]

theorem request_frame {α β} {fs : Files} {k : Sink} {fe : α → Out → Out} {load : α → β} {c : Codec β}
    {cs : Codec α} {ok : α → Prop} (h : FileEnc fs fe load c cs ok) (hc : RoundTrips c) (hd : Header)
    (v : α) (hok : ok v) (hh : reqHeaderC.wf hd) (hwf : c.wf (load v))
    (hk : k.zeroCopy = true ∨ ∀ s, k.pread s = s.content fs) :
    (writeValues fs k (encodeFileSlices (requestFileEncode cs fe hd v))).1 =
      frame ((pairC reqHeaderC c).enc (hd, load v)) := by
  rw [writeValues_flat _ (hk.imp id fun h s _ => h s)]
  unfold encodeFileSlices
  have hf : ∀ o : Out, (o.data ++ [Part.bytes o.buf]).flatMap (Part.flat fs) = o.flat fs := by
    intro o; unfold Out.flat; simp [Part.flat]
  dsimp only
  rw [hf]
  unfold requestFileEncode
  dsimp only
  rw [h.bytes v _ hok, Out.flat_put, Out.flat_put]
  have hs : reqHeaderC.size hd + cs.size v = ((pairC reqHeaderC c).enc (hd, load v)).length := by
    rw [h.size v hok, hc.size_eq _ hwf, reqHeaderC_rt.size_eq _ hh]
    simp only [pairC, List.length_append]
  rw [hs]
  unfold frame
  simp [Out.flat, pairC, List.append_assoc]

end Verif.Net
