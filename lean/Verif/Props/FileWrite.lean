import Verif.Net.FileWrite
import Verif.Props.Net
import Verif.Wire.RawBatch

namespace Verif.Props
open Verif.Net Verif.Wire

/-! ## C55 Messages written from file slices -/

/-- **Specification.** The sink reads every slice completely: by copying, or because `pread` returned
all the bytes asked for. -/
def ReadsAll (fs : Files) (k : Sink) : Prop := k.zeroCopy = true ∨ ∀ s, k.pread s = s.content fs

/-- **Specification.** Limits of a partition in a fetch response. -/
def FetchPartitionFits {ε} (fs : Files) (e : Codec ε) (p : FetchPartition ε Slice) : Prop :=
  e.wf p.error ∧ (∀ l, p.aborted = some l → l.length < 2 ^ 31) ∧
    p.records.pos + p.records.len ≤ (fs p.records.file).length ∧ p.records.len < 2 ^ 32

/-- **Specification.** Limits of a partition in a message from the leader to a follower. -/
def PeerPartitionFits {ε} (fs : Files) (e : Codec ε) (p : PeerPartition ε Slice) : Prop :=
  e.wf p.error ∧ p.records.pos + p.records.len ≤ (fs p.records.file).length ∧ p.records.len < 2 ^ 32

/-- **Specification.** Limits of a topic. -/
def TopicFits {P} (fits : P → Prop) (t : TopicOf P) : Prop :=
  t.name.utf8ByteSize < 2 ^ 15 ∧ t.partitions.length < 2 ^ 31 ∧ ∀ p ∈ t.partitions, fits p

theorem str_wf {s : String} (h : s.utf8ByteSize < 2 ^ 15) : stringC.wf s := by
  show (strBytes s).length < 2 ^ 15
  unfold strBytes; simpa using h

theorem fetchPartition_wf {ε} {fs : Files} {ver : Int} {e : Codec ε} {p : FetchPartition ε Slice}
    (h : FetchPartitionFits fs e p) :
    p.records.inside fs ∧ (fetchPartitionC ver e byteBufC).wf (p.load fs ver) := by
  obtain ⟨h1, h2, h3, h4⟩ := h
  refine ⟨h3, trivial, h1, trivial, ?_, trivial, ?_, ?_⟩
  · show (fieldC 11 none ver (intC 8) 0).wf (if ver ≥ 11 then p.nextFilter else 0)
    unfold fieldC
    by_cases hv : ver ≥ 11
    · have : inVersion 11 none ver = true := by simp [inVersion, hv]
      simp only [this, ↓reduceIte]; trivial
    · have : inVersion 11 none ver = false := by simp [inVersion]; omega
      simp only [this, if_neg hv, Bool.false_eq_true, ↓reduceIte]
  · show (optionC (vecC (pairC (intC 8) (intC 8)))).wf p.aborted
    cases ha : p.aborted with
    | none => trivial
    | some l => exact ⟨h2 l ha, fun _ _ => ⟨trivial, trivial⟩⟩
  · show (p.records.content fs).length < 2 ^ 32
    rw [Slice.content_length h3]; exact h4

theorem peerPartition_wf {ε} {fs : Files} {e : Codec ε} {p : PeerPartition ε Slice}
    (h : PeerPartitionFits fs e p) :
    p.records.inside fs ∧ (peerPartitionC e byteBufC).wf (p.load fs) := by
  obtain ⟨h1, h3, h4⟩ := h
  refine ⟨h3, trivial, h1, trivial, trivial, ?_⟩
  show (p.records.content fs).length < 2 ^ 32
  rw [Slice.content_length h3]; exact h4

theorem topic_wf {P Q} {fits ok : P → Prop} {load : P → Q} {c : Codec Q}
    (h : ∀ p, fits p → ok p ∧ c.wf (load p)) {t : TopicOf P} (ht : TopicFits fits t) :
    (∀ p ∈ t.partitions, ok p) ∧ (topicC c).wf (t.load load) := by
  obtain ⟨h1, h2, h3⟩ := ht
  refine ⟨fun p hp => (h p (h3 p hp)).1, str_wf h1, ?_, ?_⟩
  · show (t.partitions.map load).length < 2 ^ 31
    rw [List.length_map]; exact h2
  · intro q hq
    obtain ⟨p, hp, rfl⟩ := List.mem_map.1 hq
    exact (h p (h3 p hp)).2

theorem topics_wf {P Q} {fits ok : P → Prop} {load : P → Q} {c : Codec Q}
    (h : ∀ p, fits p → ok p ∧ c.wf (load p)) {ts : List (TopicOf P)} (hl : ts.length < 2 ^ 31)
    (ht : ∀ t ∈ ts, TopicFits fits t) :
    (∀ t ∈ ts, ∀ p ∈ t.partitions, ok p) ∧ (vecC (topicC c)).wf (ts.map (TopicOf.load load)) := by
  refine ⟨fun t hm => (topic_wf h (ht t hm)).1, ?_, ?_⟩
  · show (ts.map _).length < 2 ^ 31
    rw [List.length_map]; exact hl
  · intro q hq
    obtain ⟨t, hm, rfl⟩ := List.mem_map.1 hq
    exact (topic_wf h (ht t hm)).2

/-- Values whose messages are the frames of `c` are received as these values. -/
theorem frames_received {α β} {c : Codec β} (hc : RoundTrips c) {load : α → β} {wire : α → Bytes}
    (vs : List α) (hf : ∀ v ∈ vs, c.wf (load v) ∧ wire v = frame (c.enc (load v)))
    (hlen : ∀ v ∈ vs, (wire v).length < 2 ^ 31) (packets : List Bytes)
    (hp : packets.flatten = vs.flatMap wire) :
    ∃ ms, receive [] packets = some (ms, []) ∧ ms.map c.dec = vs.map fun v => .ok (load v, []) := by
  have h1 : vs.flatMap wire = (vs.map load).flatMap (encodeFrame c) := by
    rw [List.flatMap_map]
    clear hp hlen
    induction vs with
    | nil => rfl
    | cons v vs ih =>
      have hv := hf v (by simp)
      rw [List.flatMap_cons, List.flatMap_cons, ih (fun w hw => hf w (by simp [hw])), hv.2,
        encodeFrame_eq hc hv.1]
  obtain ⟨ms, h2, h3⟩ := C51_frames c hc (vs.map load) (by
    intro w hw
    obtain ⟨v, hv, rfl⟩ := List.mem_map.1 hw
    refine ⟨(hf v hv).1, ?_⟩
    have := hlen v hv
    rw [(hf v hv).2, frame_length] at this
    exact this) packets (by rw [hp, h1])
  exact ⟨ms, h2, by rw [h3, List.map_map]; rfl⟩

/-- The bytes of a stream response on the socket. -/
def streamWire {ε} (fs : Files) (k : Sink) (ver : Int) (e : Codec ε)
    (m : BitVec 32 × StreamFetchResponse ε Slice) : Bytes :=
  (writeValues fs k (encodeFileSlices (responseFileEncode (streamFetchC ver e sliceC)
    (StreamFetchResponse.fileEncode ver e) m.1 m.2))).1

/-- **C55, streams.** A broker sends stream responses whose records lie in files, one after another.
However the bytes are cut into packets, the consumer's connection delivers exactly one message per
response, and each decodes to the response sent, with the bytes of the file range as its records.
(Partial: slices must be read completely — see `C55_violated_short_read` — and a message must be
shorter than 2 GB.) -/
theorem C55_stream_partial {ε} (fs : Files) (k : Sink) (hk : ReadsAll fs k) (ver : Int) (e : Codec ε)
    (he : RoundTrips e) (ms : List (BitVec 32 × StreamFetchResponse ε Slice))
    (hm : ∀ m ∈ ms, m.2.topic.utf8ByteSize < 2 ^ 15 ∧ FetchPartitionFits fs e m.2.partition)
    (hlen : ∀ m ∈ ms, (streamWire fs k ver e m).length < 2 ^ 31) (packets : List Bytes)
    (hp : packets.flatten = ms.flatMap (streamWire fs k ver e)) :
    ∃ got, receive [] packets = some (got, []) ∧
      got.map (pairC (intC 4) (streamFetchC ver e byteBufC)).dec =
        ms.map fun m => .ok ((m.1, m.2.load fs ver), []) := by
  refine frames_received (load := fun m : BitVec 32 × StreamFetchResponse ε Slice => (m.1, m.2.load fs ver))
    (pairC_rt (intC_rt 4) (streamFetchC_rt ver he)) ms ?_ hlen packets hp
  intro m hm'
  obtain ⟨h1, h2⟩ := hm m hm'
  obtain ⟨h3, h4⟩ := fetchPartition_wf (ver := ver) h2
  have hw : (streamFetchC ver e byteBufC).wf (m.2.load fs ver) := ⟨str_wf h1, trivial, h4⟩
  exact ⟨⟨trivial, hw⟩, response_frame (streamFetch_fileEnc fs ver e) (streamFetchC_rt ver he) m.1 m.2 h3
    hw hk⟩

/-- The bytes of a fetch response on the socket. -/
def fetchWire {ε} (fs : Files) (k : Sink) (ver : Int) (e : Codec ε)
    (m : BitVec 32 × FetchResponse ε Slice) : Bytes :=
  (writeValues fs k (encodeFileSlices (responseFileEncode (fetchResponseC ver e sliceC)
    (FetchResponse.fileEncode ver e) m.1 m.2))).1

/-- **C55, fetch responses**, with any number of topics and partitions, each with its own file range. -/
theorem C55_fetch_partial {ε} (fs : Files) (k : Sink) (hk : ReadsAll fs k) (ver : Int) (e : Codec ε)
    (he : RoundTrips e) (ms : List (BitVec 32 × FetchResponse ε Slice))
    (hm : ∀ m ∈ ms, e.wf m.2.error ∧ m.2.topics.length < 2 ^ 31 ∧
      ∀ t ∈ m.2.topics, TopicFits (FetchPartitionFits fs e) t)
    (hlen : ∀ m ∈ ms, (fetchWire fs k ver e m).length < 2 ^ 31) (packets : List Bytes)
    (hp : packets.flatten = ms.flatMap (fetchWire fs k ver e)) :
    ∃ got, receive [] packets = some (got, []) ∧
      got.map (pairC (intC 4) (fetchResponseC ver e byteBufC)).dec =
        ms.map fun m => .ok ((m.1, m.2.load fs ver), []) := by
  refine frames_received (load := fun m : BitVec 32 × FetchResponse ε Slice => (m.1, m.2.load fs ver))
    (pairC_rt (intC_rt 4) (fetchResponseC_rt ver he)) ms ?_ hlen packets hp
  intro m hm'
  obtain ⟨h1, h2, h3⟩ := hm m hm'
  obtain ⟨h4, h5⟩ := topics_wf (fun p hp => fetchPartition_wf (ver := ver) hp) h2 h3
  have hw : (fetchResponseC ver e byteBufC).wf (m.2.load fs ver) := ⟨trivial, h1, trivial, h5⟩
  exact ⟨⟨trivial, hw⟩, response_frame (fetchResponse_fileEnc fs ver e) (fetchResponseC_rt ver he) m.1
    m.2 h4 hw hk⟩

/-- The bytes of a sync request of a leader on the socket. -/
def syncWire {ε} (fs : Files) (k : Sink) (e : Codec ε) (m : Header × SyncRequest ε Slice) : Bytes :=
  (writeValues fs k (encodeFileSlices (requestFileEncode (syncRequestC e sliceC) (syncFileEncode e)
    m.1 m.2))).1

/-- **C55, replication.** The same for the requests by which a leader sends records to a follower. -/
theorem C55_replication_partial {ε} (fs : Files) (k : Sink) (hk : ReadsAll fs k) (e : Codec ε)
    (he : RoundTrips e) (ms : List (Header × SyncRequest ε Slice))
    (hm : ∀ m ∈ ms, m.1.clientId.utf8ByteSize < 2 ^ 15 ∧ m.2.length < 2 ^ 31 ∧
      ∀ t ∈ m.2, TopicFits (PeerPartitionFits fs e) t)
    (hlen : ∀ m ∈ ms, (syncWire fs k e m).length < 2 ^ 31) (packets : List Bytes)
    (hp : packets.flatten = ms.flatMap (syncWire fs k e)) :
    ∃ got, receive [] packets = some (got, []) ∧
      got.map (pairC reqHeaderC (syncRequestC e byteBufC)).dec =
        ms.map fun m => .ok ((m.1, syncLoad fs m.2), []) := by
  refine frames_received (load := fun m : Header × SyncRequest ε Slice => (m.1, syncLoad fs m.2))
    (pairC_rt reqHeaderC_rt (syncRequestC_rt he)) ms ?_ hlen packets hp
  intro m hm'
  obtain ⟨h1, h2, h3⟩ := hm m hm'
  obtain ⟨h4, h5⟩ := topics_wf (fun p hp => peerPartition_wf hp) h2 h3
  have hh : reqHeaderC.wf m.1 := ⟨trivial, trivial, trivial, str_wf h1⟩
  exact ⟨⟨hh, h5⟩, request_frame (sync_fileEnc fs e) (syncRequestC_rt he) m.1 m.2 h4 hh h5 hk⟩

/-- The bytes of a mirroring request on the socket. -/
def mirrorWire (fs : Files) (k : Sink) (m : Header × MirrorSync Slice) : Bytes :=
  (writeValues fs k (encodeFileSlices (requestFileEncode (mirrorSyncC sliceC) MirrorSync.fileEncode
    m.1 m.2))).1

/-- **C55, mirroring.** The same for the requests by which records are mirrored to another cluster. -/
theorem C55_mirror_partial (fs : Files) (k : Sink) (hk : ReadsAll fs k)
    (ms : List (Header × MirrorSync Slice))
    (hm : ∀ m ∈ ms, m.1.clientId.utf8ByteSize < 2 ^ 15 ∧
      m.2.records.pos + m.2.records.len ≤ (fs m.2.records.file).length)
    (hlen : ∀ m ∈ ms, (mirrorWire fs k m).length < 2 ^ 31) (packets : List Bytes)
    (hsz : ∀ m ∈ ms, m.2.records.len < 2 ^ 32)
    (hp : packets.flatten = ms.flatMap (mirrorWire fs k)) :
    ∃ got, receive [] packets = some (got, []) ∧
      got.map (pairC reqHeaderC (mirrorSyncC byteBufC)).dec =
        ms.map fun m => .ok ((m.1, m.2.load fs), []) := by
  refine frames_received (load := fun m : Header × MirrorSync Slice => (m.1, m.2.load fs))
    (pairC_rt reqHeaderC_rt mirrorSyncC_rt) ms ?_ hlen packets hp
  intro m hm'
  obtain ⟨h1, h2⟩ := hm m hm'
  have hh : reqHeaderC.wf m.1 := ⟨trivial, trivial, trivial, str_wf h1⟩
  have hw : (mirrorSyncC byteBufC).wf (m.2.load fs) := by
    refine ⟨trivial, trivial, ?_⟩
    show (m.2.records.content fs).length < 2 ^ 32
    rw [Slice.content_length h2]; exact hsz m hm'
  exact ⟨⟨hh, hw⟩, request_frame (mirror_fileEnc fs) mirrorSyncC_rt m.1 m.2 h2 hh hw hk⟩

/-- **C55, records.** The records field of such a message, as the receiver's record set decoder reads
it: if the file range consists of stored batches, exactly these batches. -/
theorem C55_records {R} {rc : RecordsC R} (hl : RecordsLaw rc) (fs : Files) (s : Slice)
    (bs : List (Batch R)) (rest : Bytes) (hc : s.content fs = bs.flatMap (encBatch rc))
    (hw : ∀ b ∈ bs, rc.wf b.records) (hlen : (s.content fs).length < 2 ^ 31) :
    decSet rc (byteBufC.enc (s.content fs) ++ rest) = .ok (bs.map (asWritten rc), rest) := by
  rw [hc] at hlen ⊢
  exact decSet_enc hl bs rest hw hlen

/-- **C55, count.** The number of bytes reported as written is the number of bytes written. -/
theorem C55_count (fs : Files) (k : Sink) (ps : List Part) :
    (writeValues fs k ps).2 = (writeValues fs k ps).1.length := writeValues_count fs k ps

/-- A file with ten bytes, and a header. -/
def tenBytes : Files := fun _ => [0, 1, 2, 3, 4, 5, 6, 7, 8, 9]

def someHeader : Header := ⟨0#16, 7#16, 1#32, "a"⟩

/-- Non-vacuity: a stream response with three bytes of a file, copied or read, between two others. -/
example : streamWire tenBytes ⟨true, fun _ => []⟩ 12 unitC
      (1#32, ⟨"t", 5#32, ⟨0#32, (), 9#64, 0#64, 0#64, none, ⟨0, 2, 3⟩⟩⟩) =
    [0, 0, 0, 47, 0, 0, 0, 1, 0, 1, 116, 0, 0, 0, 5, 0, 0, 0, 0, 0, 0, 0, 0, 0, 0, 0, 9,
      0, 0, 0, 0, 0, 0, 0, 0, 0, 0, 0, 0, 0, 0, 0, 0, 0, 0, 0, 0, 3, 2, 3, 4] := by decide +kernel
example : ReadsAll tenBytes ⟨false, Slice.content tenBytes⟩ := .inr fun _ => rfl
example : FetchPartitionFits tenBytes unitC ⟨0#32, (), 9#64, 0#64, 0#64, none, ⟨0, 2, 3⟩⟩ :=
  ⟨trivial, nofun, by decide, by decide⟩
/-- Non-vacuity: two partitions of a topic, records from different places of the file. -/
example : (encodeFileSlices (requestFileEncode (syncRequestC unitC sliceC) (syncFileEncode unitC) someHeader
      [⟨"t", [⟨0#32, (), 1#64, 2#64, ⟨0, 0, 2⟩⟩, ⟨1#32, (), 1#64, 2#64, ⟨1, 5, 1⟩⟩]⟩])) =
    [.bytes [0, 0, 0, 73, 0, 0, 0, 7, 0, 0, 0, 1, 0, 1, 97, 0, 0, 0, 1, 0, 1, 116, 0, 0, 0, 2, 0, 0, 0, 0,
        0, 0, 0, 0, 0, 0, 0, 1, 0, 0, 0, 0, 0, 0, 0, 2, 0, 0, 0, 2], .slice ⟨0, 0, 2⟩,
      .bytes [0, 0, 0, 1, 0, 0, 0, 0, 0, 0, 0, 1, 0, 0, 0, 0, 0, 0, 0, 2, 0, 0, 0, 1], .slice ⟨1, 5, 1⟩,
      .bytes []] := by decide +kernel

/-- **C55, violated by a short read.** Without zero copy (TLS connections) a slice is read by a single
`pread`; if that returns fewer bytes than asked for, the message is sent with the announced length of
the whole slice but fewer bytes.  Two messages are sent; the receiver takes the first bytes of the
second for the end of the first and gets neither right. -/
theorem C55_violated_short_read : ∃ (fs : Files) (k : Sink) (ms : List (Header × MirrorSync Slice)),
    (∀ s, k.pread s <+: s.content fs) ∧
      (∀ m ∈ ms, m.2.records.pos + m.2.records.len ≤ (fs m.2.records.file).length) ∧
      ∃ a b, ms = [a, b] ∧ ∃ got rest, receive [] [ms.flatMap (mirrorWire fs k)] = some ([got], rest) ∧
        got ≠ (pairC reqHeaderC (mirrorSyncC byteBufC)).enc (a.1, a.2.load fs) ∧ rest ≠ [] := by
  refine ⟨tenBytes, ⟨false, fun s => (s.content tenBytes).take 1⟩,
    [(someHeader, ⟨9#64, 9#64, ⟨0, 0, 3⟩⟩), (someHeader, ⟨9#64, 9#64, ⟨0, 3, 3⟩⟩)], ?_, by decide,
    (someHeader, ⟨9#64, 9#64, ⟨0, 0, 3⟩⟩), (someHeader, ⟨9#64, 9#64, ⟨0, 3, 3⟩⟩), rfl, ?_⟩
  · intro s; exact List.take_prefix _ _
  · refine ⟨[0, 0, 0, 7, 0, 0, 0, 1, 0, 1, 97, 0, 0, 0, 0, 0, 0, 0, 9, 0, 0, 0, 0, 0, 0, 0, 9,
      0, 0, 0, 3, 0, 0, 0], [0, 34, 0, 0, 0, 7, 0, 0, 0, 1, 0, 1, 97, 0, 0, 0, 0, 0, 0, 0, 9, 0, 0, 0, 0, 0,
      0, 0, 9, 0, 0, 0, 3, 3], ?_, ?_, ?_⟩ <;> decide +kernel

/-- **C55, violated for produce requests.** `FileProduceRequest::file_encode` leaves out the SmartModules
that `write_size` counts: every message announces more bytes (four at least) than are sent.  (No code
sends such a request at this commit.) -/
theorem C55_violated_produce {σ} (fs : Files) (k : Sink) (hk : ReadsAll fs k) (sm : Codec σ) (hd : Header)
    (hh : reqHeaderC.wf hd) (f : ProduceRequest σ Slice)
    (hi : ∀ t ∈ f.topics, ∀ p ∈ t.partitions, p.records.inside fs)
    (hwf : (produceRequestC sm byteBufC).wf (f.load fs)) (hsm : RoundTrips sm) :
    ∃ body, (writeValues fs k (encodeFileSlices (requestFileEncode (produceRequestC sm sliceC)
        ProduceRequest.fileEncode hd f))).1 =
      intEnc 4 (BitVec.ofNat 32 (body.length + (vecC sm).size f.smartmodules)) ++ body ∧
      4 ≤ (vecC sm).size f.smartmodules := by
  have ht := vec_fileEnc (topic_fileEnc (producePartition_fileEnc fs))
  refine ⟨reqHeaderC.enc hd ++ ((optionC stringC).enc f.transactionalId ++ ((intC 2).enc f.isolation ++
    ((intC 4).enc f.timeout ++ (vecC (topicC (producePartitionC byteBufC))).enc
      (f.topics.map (TopicOf.load (ProducePartition.load fs)))))), ?_, ?_⟩
  · rw [writeValues_flat _ (hk.imp id fun h s _ => h s)]
    unfold encodeFileSlices
    have hf : ∀ o : Out, (o.data ++ [Part.bytes o.buf]).flatMap (Part.flat fs) = o.flat fs := by
      intro o; unfold Out.flat; simp [Part.flat]
    dsimp only
    rw [hf]
    unfold requestFileEncode ProduceRequest.fileEncode
    dsimp only
    rw [ht.bytes _ _ hi]
    simp only [Out.flat_put]
    have hs : reqHeaderC.size hd + (produceRequestC sm sliceC).size f =
        (reqHeaderC.enc hd ++ ((optionC stringC).enc f.transactionalId ++ ((intC 2).enc f.isolation ++
        ((intC 4).enc f.timeout ++ (vecC (topicC (producePartitionC byteBufC))).enc
        (f.topics.map (TopicOf.load (ProducePartition.load fs))))))).length +
          (vecC sm).size f.smartmodules := by
      obtain ⟨w1, w2, w3, w4, w5⟩ := hwf
      have r1 := (optionC_rt stringC_lawful.toRoundTrips).size_eq _ w1
      have r2 : (intC 2).size f.isolation = _ := (intC_rt 2).size_eq _ w2
      have r3 : (intC 4).size f.timeout = _ := (intC_rt 4).size_eq _ w3
      have rp : RoundTrips (producePartitionC byteBufC) :=
        structC_rt (pairC_rt (intC_rt 4) byteBufC_lawful.toRoundTrips) fun _ => rfl
      have r4 := (vecC_rt (topicC_rt rp)).size_eq _ w4
      have r5 := ht.size _ hi
      have r6 := reqHeaderC_rt.size_eq _ hh
      simp only [produceRequestC, structC, pairC, List.length_append]
      simp only [ProduceRequest.load] at r1 r2 r3 r4
      simp only [topicC, producePartitionC, structC, pairC] at r1 r2 r3 r4 r5 r6 ⊢
      omega
    rw [hs]
    simp [Out.flat, List.append_assoc]
  · obtain ⟨_, _, _, _, w5⟩ := hwf
    have := (vecC_rt hsm).size_eq _ w5
    simp only [ProduceRequest.load] at this
    rw [this]
    simp [vecC]

/-- Non-vacuity: one partition, no SmartModules: 42 bytes are announced, 38 are sent. -/
example : (writeValues tenBytes ⟨true, fun _ => []⟩ (encodeFileSlices (requestFileEncode
      (produceRequestC unitC sliceC) ProduceRequest.fileEncode someHeader
      (⟨none, 1#16, 1#32, [⟨"t", [⟨0#32, ⟨0, 0, 1⟩⟩]⟩], []⟩ : ProduceRequest Unit Slice)))).1 =
    [0, 0, 0, 42, 0, 0, 0, 7, 0, 0, 0, 1, 0, 1, 97, 0, 0, 1, 0, 0, 0, 1, 0, 0, 0, 1, 0, 1, 116,
      0, 0, 0, 1, 0, 0, 0, 0, 0, 0, 0, 1, 0] := by decide +kernel

end Verif.Props
