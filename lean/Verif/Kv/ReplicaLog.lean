import Verif.Kv.StoreInv
import Verif.Storage.Reader
import Verif.Producer.AccWire

/-!
# The key-value store's log on a partition replica (`fluvio-spu/src/replication/leader/kv.rs`)

The consumer-offset partition has a single replica (fluvio-sc/src/controllers/topics/controller.rs:
205-236), so the watermark is moved by every write.
-/

namespace Verif.Kv
open Verif.Wire Verif.Storage

/-- `Record::new(entry)` with the offset delta set by `add_record` — data.rs:500-520,
fluvio-protocol/src/record/batch.rs:268-286 -/
def kvRecord (i : Nat) (e : Bytes) : Record := ⟨⟨0#8, 0#64, BitVec.ofNat 64 i⟩, none, e, 0#64⟩

/-- the records of a batch of entries, the first with offset delta `i` -/
def kvRecords (i : Nat) : List Bytes → List Record
  | [] => []
  | e :: es => kvRecord i e :: kvRecords (i + 1) es

/-- The in-memory batch: `Batch::new` and `add_record` for each entry — kv.rs:48-51 -/
def kvMem (es : List Bytes) : Batch (List Record) :=
  ⟨0#64, BitVec.ofNat 32 (batchHeaderSize + memC.size (kvRecords 0 es)),
    { BatchHeader.default with lastOffsetDelta := BitVec.ofInt 32 ((es.length : Int) - 1) }, 0#32, kvRecords 0 es⟩

/-- its raw form (no compression) — kv.rs:52, batch.rs:207-227 -/
def kvRaw (es : List Bytes) : Batch Bytes :=
  { kvMem es with
    batchLen := BitVec.ofNat 32 (memC.enc (kvRecords 0 es)).length
    records := memC.enc (kvRecords 0 es) }

def kvBatch (es : List Bytes) : SBatch Record := ofRaw (kvRaw es) (kvRecords 0 es)

/-- `append_batch` — kv.rs:45-58.  The offset counter (`i64`) is taken not to overflow: an append that
would bring it to 2^63 is refused here. -/
def kvAppend (c : Cfg) (r : Replica Record) (es : List Bytes) (f : Option Nat) : Replica Record × Bool :=
  if r.leo + es.length < 2 ^ 63 then
    match r.write c [kvBatch es] true f with
    | (r', .ok _) => (r', true)
    | (r', .error _) => (r', false)
  else (r, false)

/-- `FileBatchIterator::next`: decompression — iterators.rs:135-148 -/
def recordBytes (z : Compressor) (h : BatchHeader) (raw : Bytes) : Option Bytes :=
  match h.compression with
  | none => none
  | some 0 => some raw
  | some (k + 1) => z.uncompress (k + 1) raw

/-- the decoded records with their offsets — iterators.rs:190-213, kv.rs:89-92 -/
def numberRecords (base : Int) : Except Err (List Record × Bytes) → Except Err (List (Int × Record))
  | .error e => .error e
  | .ok (rs, _) => .ok (rs.map fun r => (base + r.preamble.offsetDelta.toInt, r))

/-- `FileBatchIterator::next` once and the records of that batch (`FileRecordIterator`) —
fluvio-storage/src/iterators.rs:58-153, 177-215.  `bs`: the file from the start of the slice on. -/
def firstBatch (z : Compressor) (bs : Bytes) : Except Err (List (Int × Record)) :=
  if bs.length = 0 then .ok []
  else if bs.length < 57 then .error .eof
  else
    match decFileHeader bs with
    | .error e => .error e
    | .ok ((base, len, h), rest) =>
      if asUsize len < batchHeaderSize then .error .panic
      else if rest.length < asUsize len - batchHeaderSize then .error .eof
      else
        match recordBytes z h (rest.take (asUsize len - batchHeaderSize)) with
        | none => .error .invalid
        | some bytes => numberRecords base.toInt ((vecC recordC).dec bytes)

/-- `ReplicaRevStream` — kv.rs:61-139: batch by batch from the end, each batch from its last record.  An
error is the last item (`none`; polling the stream again panics).  The fuel is the number of batches
read at most; it does not run out because offsets decrease. -/
def revFrom (z : Compressor) (r : Replica Record) : Nat → Int → List (Option Bytes)
  | 0, _ => [none]
  | fuel + 1, seen =>
    if seen - 1 < 0 then []
    else
      match r.readPartition (seen - 1) (2 ^ 32 - 1) .uncommitted with
      | .error _ => [none]
      | .ok res =>
        match res.data with
        | none => []
        | some bs =>
          match firstBatch z bs with
          | .error _ => [none]
          | .ok [] => []
          | .ok (i :: is) =>
            (i :: is).reverse.map (fun p => some p.2.value) ++ revFrom z r fuel i.1

/-- What happens to the partition besides appends: the cleaners (`expire n`: the closed segments whose
base offset is below `n` are older than the retention period), and reopening after a restart with the
watermark found as it was. -/
inductive KvExt where
  | cleanSize
  | expire (n : Int)
  | reopen

/-- the operation of the replica -/
def KvExt.op (r : Replica Record) : KvExt → Op Record
  | .cleanSize => .cleanSize
  | .expire n => .cleanTtl fun b => decide (b < n)
  | .reopen => .reopen (.value r.hw)

/-- `LeaderReplicaLog` — kv.rs:22-59 -/
def replicaLog (z : Compressor) (c : Cfg) : LogApi (Replica Record) (Option Nat) KvExt where
  append := kvAppend c
  readFromEnd r := revFrom z r (r.hw.toNat + 1) r.hw
  other r x := (r.step c (x.op r)).1

/-! ## The log keeps what it is given -/

theorem kvRecords_length : ∀ (es : List Bytes) (i : Nat), (kvRecords i es).length = es.length
  | [], _ => rfl
  | _ :: es, i => by rw [kvRecords, List.length_cons, List.length_cons, kvRecords_length es]

theorem kvRecords_value : ∀ (es : List Bytes) (i : Nat), (kvRecords i es).map (·.value) = es
  | [], _ => rfl
  | _ :: es, i => by rw [kvRecords, List.map_cons, kvRecords_value es]; rfl

theorem kvRecords_mem : ∀ (es : List Bytes) (i : Nat) (r : Record), r ∈ kvRecords i es →
    ∃ j e, i ≤ j ∧ j < i + es.length ∧ r = kvRecord j e
  | [], _, _, h => by cases h
  | e :: es, i, r, h => by
    rw [kvRecords] at h
    rcases List.mem_cons.1 h with rfl | h
    · exact ⟨i, e, Nat.le_refl _, by simp, rfl⟩
    · obtain ⟨j, e', h1, h2, h3⟩ := kvRecords_mem es (i + 1) r h
      exact ⟨j, e', by omega, by rw [List.length_cons]; omega, h3⟩

theorem noSchema {h : BatchHeader} (ha : h.attributes = 0#16) : h.hasSchema = false := by
  unfold BatchHeader.hasSchema
  rw [ha]
  decide

theorem kvHeader_compression (h : BatchHeader) (ha : h.attributes = 0#16) : h.compression = some 0 := by
  unfold BatchHeader.compression
  rw [ha]
  rfl

theorem kvBatch_size (es : List Bytes) : (kvBatch es).size = 57 + (memC.enc (kvRecords 0 es)).length := by
  show sizeBatch rawC (kvRaw es) = _
  unfold sizeBatch batchPreambleSize batchHeaderSize
  show 12 + 45 + (memC.enc (kvRecords 0 es)).length = _
  omega

/-- An encoded record is at least as long as its value, and not empty. -/
theorem recordC_enc_ge (r : Record) : r.value.length + 1 ≤ (recordC.enc r).length := by
  have h1 : (recordInnerC.enc r).length = (recordHeaderC.enc r.preamble).length +
      (((optionC recordDataC).enc r.key).length + ((recordDataC.enc r.value).length + (varintC.enc r.headers).length)) := by
    show (recordHeaderC.enc r.preamble ++ ((optionC recordDataC).enc r.key ++
      (recordDataC.enc r.value ++ varintC.enc r.headers))).length = _
    simp only [List.length_append]
  have h2 : (recordDataC.enc r.value).length = (varintC.enc (BitVec.ofNat 64 r.value.length)).length + r.value.length := by
    show (varintC.enc (BitVec.ofNat 64 r.value.length) ++ r.value).length = _
    rw [List.length_append]
  have h3 : 1 ≤ (recordHeaderC.enc r.preamble).length := by
    show 1 ≤ (intEnc 1 r.preamble.attributes ++ _).length
    rw [List.length_append, intEnc_length]
    omega
  have h4 : (recordInnerC.enc r).length ≤ (recordC.enc r).length := by
    show _ ≤ (varintC.enc (BitVec.ofNat 64 (recordInnerC.enc r).length) ++ recordInnerC.enc r).length
    rw [List.length_append]
    omega
  omega

theorem flatMap_enc_ge : ∀ (rs : List Record), rs.length ≤ (rs.flatMap recordC.enc).length ∧
    ∀ r ∈ rs, (recordC.enc r).length ≤ (rs.flatMap recordC.enc).length
  | [] => ⟨by simp, by intro r h; cases h⟩
  | x :: rs => by
    obtain ⟨h1, h2⟩ := flatMap_enc_ge rs
    have := recordC_enc_ge x
    rw [List.flatMap_cons, List.length_append]
    refine ⟨by rw [List.length_cons]; omega, ?_⟩
    intro r hr
    rcases List.mem_cons.1 hr with rfl | hr
    · omega
    · have := h2 r hr; omega

theorem memC_enc_length (rs : List Record) : (memC.enc rs).length = 4 + (rs.flatMap recordC.enc).length := by
  show (beEnc 4 rs.length ++ rs.flatMap recordC.enc).length = _
  rw [List.length_append, beEnc_length]

/-- A small enough batch of entries satisfies the limits of the encoding. -/
theorem kvRecords_wf {es : List Bytes} (h : (kvBatch es).size < 2 ^ 31) : memC.wf (kvRecords 0 es) := by
  rw [kvBatch_size, memC_enc_length] at h
  obtain ⟨h1, h2⟩ := flatMap_enc_ge (kvRecords 0 es)
  rw [kvRecords_length] at h1
  refine ⟨by rw [kvRecords_length]; omega, ?_⟩
  intro r hr
  have hl := h2 r hr
  obtain ⟨j, e, _, hj, rfl⟩ := kvRecords_mem es 0 r hr
  have hv := recordC_enc_ge (kvRecord j e)
  have hoff : (BitVec.ofNat 64 j).toInt = j := ofNat_toInt_small 64 j (by omega)
  have hz : -2 ^ 31 ≤ (0#64).toInt ∧ (0#64).toInt < 2 ^ 31 := by decide
  have hw : recordInnerC.wf (kvRecord j e) := by
    refine ⟨⟨trivial, hz, ?_⟩, trivial, ?_, hz⟩
    · show -2 ^ 31 ≤ (BitVec.ofNat 64 j).toInt ∧ (BitVec.ofNat 64 j).toInt < 2 ^ 31
      rw [hoff]; omega
    · show e.length < 2 ^ 31
      have : e.length + 1 ≤ (recordC.enc (kvRecord j e)).length := hv
      omega
  refine ⟨hw, ?_⟩
  have h4 : (recordInnerC.enc (kvRecord j e)).length ≤ (recordC.enc (kvRecord j e)).length := by
    show _ ≤ (varintC.enc (BitVec.ofNat 64 (recordInnerC.enc (kvRecord j e)).length) ++ recordInnerC.enc (kvRecord j e)).length
    rw [List.length_append]
    omega
  omega

theorem ofInt32_toInt {x : Int} (h1 : -2 ^ 31 ≤ x) (h2 : x < 2 ^ 31) : (BitVec.ofInt 32 x).toInt = x := by
  rw [BitVec.toInt_ofInt, Int.bmod_def]
  omega

theorem kvBatch_honest {es : List Bytes} (hne : es ≠ []) (h : (kvBatch es).size < 2 ^ 31) :
    HonestBatch (kvBatch es) := by
  have hw := kvRecords_wf h
  have hl : es.length < 2 ^ 31 := by
    have := hw.1; rw [kvRecords_length] at this; omega
  have hpos : 0 < es.length := List.length_pos_iff.2 hne
  apply ofRaw_honest (noSchema rfl)
  · rw [kvRecords_length]
    show (es.length : Int) = (BitVec.ofInt 32 ((es.length : Int) - 1)).toInt + 1
    rw [ofInt32_toInt (by omega) (by omega)]
    omega
  · intro hh
    have := kvRecords_length es 0
    rw [hh] at this
    simp at this
    omega

/-- what can be read back from a stored batch of entries -/
def KvStored (b : SBatch Record) : Prop := ∃ es, es ≠ [] ∧ b = kvBatch es ∧ (kvBatch es).size < 2 ^ 31

theorem items_map : ∀ (es : List Bytes) (i : Nat) (base : Int), i + es.length < 2 ^ 31 →
    ((kvRecords i es).map fun r => (base + r.preamble.offsetDelta.toInt, r)).map (fun p => some p.2.value)
      = es.map some ∧
    ∀ e es', es = e :: es' → ((kvRecords i es).map fun r => (base + r.preamble.offsetDelta.toInt, r)).head? =
      some (base + i, kvRecord i e) := by
  intro es i base h
  refine ⟨?_, ?_⟩
  · rw [List.map_map]
    have := congrArg (List.map some) (kvRecords_value es i)
    rw [List.map_map] at this
    exact this
  · rintro e es' rfl
    rw [kvRecords, List.map_cons, List.head?_cons]
    have : (kvRecord i e).preamble.offsetDelta.toInt = i := ofNat_toInt_small 64 i (by omega)
    rw [this]

theorem encBatch_plain {raw : Batch Bytes} (ha : raw.header.attributes = 0#16) :
    ∃ hdr, encBatch rawC raw = hdr ++ raw.records ∧ hdr.length = 57 ∧
    ∀ rest, decFileHeader (hdr ++ rest) = .ok ((raw.baseOffset,
      BitVec.ofNat 32 (45 + raw.records.length),
      { raw.header with crc := crc32c (batchBody rawC raw) }), rest) := by
  have hsch := noSchema ha
  have hlen : calcBatchLen rawC raw = 45 + raw.records.length := by
    unfold calcBatchLen batchHeaderSize
    rw [hsch]
    rfl
  obtain ⟨hdr, body, he, h1, h2, h3⟩ := encBatch_split raw
  rw [hlen] at h2 h3
  refine ⟨hdr, ?_, h1, h3⟩
  have hbody : body = raw.records := by
    have e := he
    rw [encBatch_eq, hsch] at e
    simp only [Bool.false_eq_true, ↓reduceIte, List.nil_append] at e
    have e2 := congrArg (List.drop 57) e
    rw [List.drop_left' h1] at e2
    rw [← e2, ← List.append_assoc, ← List.append_assoc, List.drop_left']
    · rfl
    · simp only [List.length_append, intEnc_length, headerC_enc_length]
  rw [he, hbody]

theorem recordBytes_plain (z : Compressor) {h : BatchHeader} (ha : h.attributes = 0#16) (raw : Bytes) :
    recordBytes z h raw = some raw := by
  unfold recordBytes
  rw [kvHeader_compression h ha]

theorem firstBatch_plain (z : Compressor) {raw : Batch Bytes} (ha : raw.header.attributes = 0#16)
    {rs : List Record} (hr : raw.records = memC.enc rs) (hwf : memC.wf rs) (hsz : (memC.enc rs).length + 57 < 2 ^ 31)
    (rest : Bytes) :
    firstBatch z (encBatch rawC raw ++ rest) =
      .ok (rs.map fun r => (raw.baseOffset.toInt + r.preamble.offsetDelta.toInt, r)) := by
  obtain ⟨hdr, he, h1, h3⟩ := encBatch_plain ha
  rw [hr] at he h3
  have hu : asUsize (BitVec.ofNat 32 (45 + (memC.enc rs).length)) = 45 + (memC.enc rs).length :=
    asUsize_ofNat (by omega)
  have hdec : (vecC recordC).dec (memC.enc rs) = .ok (rs, []) := by
    have := vecRecord_rt.roundtrip rs [] hwf
    rw [List.append_nil] at this
    exact this
  rw [he, List.append_assoc]
  generalize memC.enc rs = bytes at *
  unfold firstBatch
  rw [if_neg (by simp only [List.length_append]; omega), if_neg (by simp only [List.length_append]; omega), h3]
  simp only [hu, batchHeaderSize]
  rw [if_neg (by omega), if_neg (by simp only [List.length_append]; omega)]
  have htake : List.take (45 + bytes.length - 45) (bytes ++ rest) = bytes := List.take_left' (by omega)
  have hcmp : recordBytes z { raw.header with crc := crc32c (batchBody rawC raw) } bytes = some bytes :=
    recordBytes_plain z ha bytes
  rw [htake, hcmp]
  simp only [hdec]
  rfl

theorem firstBatch_kv (z : Compressor) {es : List Bytes} (h : (kvBatch es).size < 2 ^ 31) {base : Int}
    (hf : Fits64 base) (rest : Bytes) :
    firstBatch z ((kvBatch es).enc base ++ rest) =
      .ok ((kvRecords 0 es).map fun r => (base + r.preamble.offsetDelta.toInt, r)) := by
  have hsz := kvBatch_size es
  have h1 := firstBatch_plain z (raw := { kvRaw es with baseOffset := BitVec.ofInt 64 base }) (rs := kvRecords 0 es)
    rfl rfl (kvRecords_wf h) (by omega) rest
  have : (BitVec.ofInt 64 base).toInt = base := ofInt64_toInt hf
  simp only [this] at h1
  exact h1

/-- the entries in a batch -/
def values (b : Stored Record) : List Bytes := b.batch.records.map (·.value)

/-- The replica received `gone ++ kept` and still has `kept`. -/
structure Holds (c : Cfg) (r : Replica Record) (gone kept : List Bytes) : Prop where
  ok : ReplicaOk r
  seamless : Seamless r
  bounded : Bounded c r
  hw : r.hw = r.leo
  fits : r.leo < 2 ^ 63
  start : r.logStart = gone.length
  kept : r.batches.flatMap values = kept
  kv : ∀ b ∈ r.batches, KvStored b.batch

theorem Holds.init (c : Cfg) : Holds c Replica.init [] [] where
  ok := ReplicaOk.init
  seamless := Seamless.init
  bounded := Bounded.init c
  hw := rfl
  fits := by decide
  start := rfl
  kept := rfl
  kv := by intro b hb; cases hb

/-- Reading backwards from the end of `l`. -/
theorem revFrom_spec {z : Compressor} {c : Cfg} {r : Replica Record} (hc : c.segMax < 2 ^ 31) (h : ReplicaOk r)
    (hbd : Bounded c r) (hfit : r.leo < 2 ^ 63) (hkv : ∀ b ∈ r.batches, KvStored b.batch)
    (h0 : 0 ≤ r.logStart) :
    ∀ (n : Nat) (l post : List (Stored Record)) (fuel : Nat) (x : Int), l.length = n → r.batches = l ++ post →
      Chain r.logStart l x → x ≤ r.leo → x.toNat < fuel →
      revFrom z r fuel x = (l.flatMap values).reverse.map some ++
        (if r.logStart = 0 then [] else [none]) := by
  intro n
  induction n with
  | zero =>
    intro l post fuel x hl hb hch hx hf
    have : l = [] := List.eq_nil_of_length_eq_zero hl
    subst this
    have hxe : r.logStart = x := hch
    obtain ⟨fuel, rfl⟩ : ∃ k, fuel = k + 1 := ⟨fuel - 1, by omega⟩
    rw [revFrom]
    by_cases hz : r.logStart = 0
    · rw [if_pos (by omega), if_pos hz]
      rfl
    · rw [if_neg (by omega), if_neg hz]
      have := (h.read_outside none (2 ^ 32 - 1)).2.2 (x - 1) (by omega)
      unfold Replica.readPartition
      simp only [this]
      rfl
  | succ n ih =>
    intro l post fuel x hl hb hch hx hf
    rcases List.eq_nil_or_concat l with rfl | ⟨l', b, rfl⟩
    · cases hl
    rw [List.concat_eq_append] at *
    obtain ⟨y, hy1, hy2⟩ := Chain.split hch
    have hbase : b.base = y := hy2.1
    have hdel := hy2.2.1
    have hlast : b.last + 1 = x := hy2.2.2
    have hle := hy1.le
    have hbm : b ∈ r.batches := by rw [hb]; simp
    obtain ⟨fuel, rfl⟩ : ∃ k, fuel = k + 1 := ⟨fuel - 1, by omega⟩
    have hll : b.last = b.base + b.batch.delta := rfl
    rw [revFrom, if_neg (by omega)]
    obtain ⟨pre, run, post', hrb, hread, hwid⟩ := h.read_stored_width hbm (o := x - 1) (by omega) (by omega) (2 ^ 32 - 1)
    have hw := hwid c hbd
    have hcut : (Storage.content (b :: run)).take (2 ^ 32 - 1) = b.bytes ++ Storage.content run := by
      rw [List.take_of_length_le (by rw [content_length]; omega)]
      simp [Storage.content]
    unfold Replica.readPartition
    simp only [hread, hcut]
    obtain ⟨es, hne, hes, hsz⟩ := hkv b hbm
    have hbytes : b.bytes = (kvBatch es).enc b.base := by unfold Stored.bytes; rw [hes]
    rw [hbytes, firstBatch_kv z hsz (by constructor <;> omega)]
    have hlen : es.length < 2 ^ 31 := by
      have := (kvRecords_wf hsz).1; rw [kvRecords_length] at this; omega
    obtain ⟨e, es', rfl⟩ : ∃ e es', es = e :: es' := by
      cases es with
      | nil => exact absurd rfl hne
      | cons e es' => exact ⟨e, es', rfl⟩
    obtain ⟨k1, k2⟩ := items_map (e :: es') 0 b.base (by omega)
    have k2' := k2 e es' rfl
    cases hit : (kvRecords 0 (e :: es')).map fun r => (b.base + r.preamble.offsetDelta.toInt, r) with
    | nil => rw [hit] at k2'; cases k2'
    | cons i is =>
      rw [hit] at k1 k2'
      simp only
      have hi : i.1 = b.base := by
        rw [List.head?_cons] at k2'
        have := (Option.some.inj k2')
        rw [this]
        simp
      rw [hi]
      have hrec := ih l' (b :: post) fuel b.base (by simpa using hl) (by rw [hb]; simp) (by rw [hbase]; exact hy1)
        (by omega) (by omega)
      rw [hrec, List.map_reverse, k1, List.flatMap_append, List.reverse_append, List.map_append,
        List.append_assoc]
      congr 1
      have : [b].flatMap values = e :: es' := by
        rw [List.flatMap_cons, List.flatMap_nil, List.append_nil]
        unfold values
        rw [hes]
        exact kvRecords_value _ 0
      rw [this, List.map_reverse]

theorem Holds.read (z : Compressor) {c : Cfg} (hc : c.segMax < 2 ^ 31) {r : Replica Record}
    {gone kept : List Bytes} (h : Holds c r gone kept) :
    revFrom z r (r.hw.toNat + 1) r.hw = kept.reverse.map some ++ (if gone = [] then [] else [none]) := by
  have := revFrom_spec (z := z) hc h.ok h.bounded h.fits h.kv (by rw [h.start]; omega) r.batches.length r.batches []
    (r.hw.toNat + 1) r.hw rfl (by simp) (by rw [h.hw]; exact h.seamless) (by rw [h.hw]; omega) (by omega)
  rw [this, h.kept]
  congr 1
  have hs := h.start
  by_cases hg : gone = []
  · rw [if_pos hg, if_pos]
    rw [hs, hg]; rfl
  · have : 0 < gone.length := List.length_pos_iff.2 hg
    rw [if_neg hg, if_neg (by omega)]

theorem Holds.count {c : Cfg} {r : Replica Record} {gone kept : List Bytes} (h : Holds c r gone kept) :
    r.leo = gone.length + kept.length := by
  have := (Chain.pairs h.seamless fun b hb => honest_of_mem h.ok hb).2
  rw [this, h.start, ← h.kept]
  have : (r.batches.flatMap values).length = (r.batches.flatMap fun b => b.batch.records).length := by
    simp only [List.length_flatMap]
    congr 1
    apply List.map_congr_left
    intro b _
    simp [values]
  rw [this]

/-- Appending. -/
theorem Holds.append {c : Cfg} (hc : c.segMax < 2 ^ 31) {r : Replica Record} {gone kept : List Bytes}
    (h : Holds c r gone kept) (es : List Bytes) (hne : es ≠ []) (f : Option Nat) :
    ((kvAppend c r es f).2 = true → Holds c (kvAppend c r es f).1 gone (kept ++ es)) ∧
    ((kvAppend c r es f).2 = false → Holds c (kvAppend c r es f).1 gone kept) := by
  unfold kvAppend
  by_cases hfit : r.leo + es.length < 2 ^ 63
  · rw [if_pos hfit]
    by_cases hsz : (kvBatch es).size < 2 ^ 31
    · have hhon := kvBatch_honest hne hsz
      have hset : ∀ b ∈ [kvBatch es], HonestBatch b := by
        intro b hb; rw [List.mem_singleton] at hb; subst hb; exact hhon
      have hop : (Op.write [kvBatch es] true f).Honest := hset
      obtain ⟨h1, dn, rest, e1, e2, e3, e4⟩ := write_spec c h.ok [kvBatch es] true f hset
      have hsm := h.seamless.step h.ok c (.write [kvBatch es] true f) hop (by intro e; simp)
      have hbd := h.bounded.step (.write [kvBatch es] true f)
      have hst : (r.step c (.write [kvBatch es] true f)).1 = (r.write c [kvBatch es] true f).1 := by
        unfold Replica.step
        dsimp only
        generalize r.write c [kvBatch es] true f = res
        obtain ⟨r', x⟩ := res
        cases x <;> rfl
      rw [hst] at hsm hbd
      have hch : Chain r.leo (place r.leo dn) (r.write c [kvBatch es] true f).1.leo := by
        rw [e3]
        exact place_chain dn r.leo fun b hb => hset b (by rw [e1]; simp [hb])
      have hstart := Seamless.logStart_eq h.seamless hsm e2 hch
      rcases e4 with ⟨e, herr, hrest, hhw, _⟩ | ⟨hok, hrest, hhw⟩
      · have hdn : dn = [] := by
          cases dn with
          | nil => rfl
          | cons a dn =>
            rw [List.cons_append] at e1
            injection e1 with _ e1
            have := List.nil_eq_append_iff.1 e1
            exact absurd this.2 hrest
        subst hdn
        generalize r.write c [kvBatch es] true f = res at *
        obtain ⟨r', x⟩ := res
        dsimp only at *
        subst herr
        refine ⟨nofun, fun _ => ?_⟩
        have hbt : r'.batches = r.batches := by rw [e2]; simp [place]
        have hle : r'.leo = r.leo := by rw [e3]; simp [recordCount]
        exact ⟨h1, hsm, hbd, by rw [hhw, hle]; exact h.hw, by rw [hle]; exact h.fits, by rw [hstart]; exact h.start,
          by rw [hbt]; exact h.kept, by rw [hbt]; exact h.kv⟩
      · subst hrest
        rw [List.append_nil] at e1
        subst e1
        have hcount : recordCount [kvBatch es] = es.length := by
          unfold recordCount
          show ((kvRecords 0 es).length + 0) = _
          rw [kvRecords_length]
          omega
        generalize r.write c [kvBatch es] true f = res at *
        obtain ⟨r', x⟩ := res
        dsimp only at *
        subst hok
        refine ⟨fun _ => ?_, nofun⟩
        rw [hcount] at e3 hhw
        refine ⟨h1, hsm, hbd, ?_, by rw [e3]; exact hfit, by rw [hstart]; exact h.start, ?_, ?_⟩
        · rw [hhw, e3]; rfl
        · rw [e2, List.flatMap_append, h.kept]
          congr 1
          show values ⟨r.leo, kvBatch es⟩ ++ [] = es
          rw [List.append_nil]
          exact kvRecords_value es 0
        · intro b hb
          rw [e2] at hb
          rcases List.mem_append.1 hb with hb | hb
          · exact h.kv b hb
          · have : b.batch = kvBatch es := by simpa using mem_place hb
            exact ⟨es, hne, this, hsz⟩
    · have hchk : checkSizes c [kvBatch es] = .error .batchExceededSegment := by
        unfold checkSizes
        rw [if_pos (by omega)]
      have hw : r.write c [kvBatch es] true f = (r, .error .batchExceededSegment) := by
        unfold Replica.write
        rw [hchk]
      rw [hw]
      exact ⟨nofun, fun _ => h⟩
  · rw [if_neg hfit]
    exact ⟨nofun, fun _ => h⟩

/-- If dropping leading batches is all that happened, the log still holds the rest. -/
theorem Holds.dropped {c : Cfg} {r r' : Replica Record} {gone kept : List Bytes} (h : Holds c r gone kept)
    (hok : ReplicaOk r') (hbd : Bounded c r') (hhw : r'.hw = r.hw) (hleo : r'.leo = r.leo)
    {first : List (Stored Record)} (hb : r.batches = first ++ r'.batches) :
    ∃ t d, kept = t ++ d ∧ Holds c r' (gone ++ t) d := by
  have hs := h.seamless
  unfold Seamless at hs
  rw [hb] at hs
  obtain ⟨x, hx1, hx2⟩ := Chain.split hs
  rw [← hleo] at hx2
  have hsm := hok.seamless_of hx2
  have hxs : r'.logStart = x := by
    have h1 := (Chain.pairs hsm fun b hb' => honest_of_mem hok hb').2
    have h2 := (Chain.pairs hx2 fun b hb' => honest_of_mem hok hb').2
    omega
  have hcnt := (Chain.pairs hx1 fun b hb' => honest_of_mem h.ok (by rw [hb]; simp [hb'])).2
  refine ⟨first.flatMap values, r'.batches.flatMap values, ?_, ?_⟩
  · rw [← h.kept, hb, List.flatMap_append]
  · refine ⟨hok, hsm, hbd, by rw [hhw, hleo]; exact h.hw, by rw [hleo]; exact h.fits, ?_, rfl, ?_⟩
    · rw [hxs, hcnt, h.start, List.length_append]
      have : (first.flatMap values).length = (first.flatMap fun b => b.batch.records).length := by
        simp only [List.length_flatMap]
        congr 1
        apply List.map_congr_left
        intro b _
        simp [values]
      rw [this]
      omega
    · intro b hb'
      exact h.kv b (by rw [hb]; simp [hb'])

theorem filter_drop {β : Type _} (p : β → Bool) : ∀ {l : List β},
    l.Pairwise (fun s t => p s = true → p t = true) → ∃ k, l.filter p = l.drop k
  | [], _ => ⟨0, rfl⟩
  | a :: l, h => by
    rw [List.pairwise_cons] at h
    cases hp : p a with
    | true =>
      refine ⟨0, ?_⟩
      rw [List.drop_zero, List.filter_eq_self]
      intro x hx
      rcases List.mem_cons.1 hx with rfl | hx
      · exact hp
      · exact h.1 x hx hp
    | false =>
      obtain ⟨k, hk⟩ := filter_drop p h.2
      exact ⟨k + 1, by rw [List.filter_cons, hp]; exact hk⟩

/-- Retention and restart. -/
theorem Holds.other {c : Cfg} {r : Replica Record} {gone kept : List Bytes} (h : Holds c r gone kept)
    (x : KvExt) : ∃ t d, kept = t ++ d ∧ Holds c (r.step c (x.op r)).1 (gone ++ t) d := by
  have hok := h.ok.step c (x.op r) (by cases x <;> trivial)
  have hbd := h.bounded.step (x.op r)
  cases x with
  | cleanSize =>
    have e : (r.step c .cleanSize).1 = r.cleanSize c := rfl
    simp only [KvExt.op] at hok hbd ⊢
    rw [e] at hok hbd ⊢
    rw [h.ok.cleanSize_eq] at hok hbd ⊢
    dsimp only at hok hbd ⊢
    by_cases hx : 0 < r.sizePrev + r.sizeActive - c.partMax
    · rw [if_pos hx] at hok hbd ⊢
      exact h.dropped hok hbd rfl rfl (batches_drop r _ _)
    · rw [if_neg hx]
      exact ⟨[], kept, rfl, by rw [List.append_nil]; exact h⟩
  | expire n =>
    simp only [KvExt.op] at hok hbd ⊢
    have e : (r.step c (.cleanTtl fun b => decide (b < n))).1 = r.cleanTtl fun b => decide (b < n) := rfl
    rw [e] at hok hbd ⊢
    have hpw : r.prev.Pairwise fun s t => (!decide (s.base < n)) = true → (!decide (t.base < n)) = true := by
      refine List.Pairwise.imp ?_ h.ok.bases_nodup
      intro s t hlt hns
      simp only [Bool.not_eq_true', decide_eq_false_iff_not] at hns ⊢
      omega
    obtain ⟨k, hk⟩ := filter_drop (fun s : Segment Record => !decide (s.base < n)) hpw
    have hprev := r.cleanTtl_prev fun b => decide (b < n)
    rw [hk] at hprev
    have hact : (r.cleanTtl fun b => decide (b < n)).active = r.active ∧
        (r.cleanTtl fun b => decide (b < n)).hw = r.hw := by
      unfold Replica.cleanTtl
      dsimp only
      split <;> exact ⟨rfl, rfl⟩
    refine h.dropped hok hbd hact.2 (by unfold Replica.leo; rw [hact.1]) (first := (r.prev.take k).flatMap Segment.file) ?_
    unfold Replica.batches
    rw [hprev, hact.1, ← List.append_assoc, ← List.flatMap_append, List.take_append_drop]
  | reopen =>
    refine ⟨[], kept, rfl, ?_⟩
    rw [List.append_nil]
    simp only [KvExt.op, Replica.step] at hok hbd ⊢
    cases hr : r.reopen c (.value r.hw) with
    | none => exact h
    | some r' =>
      rw [hr] at hok hbd
      obtain ⟨k1, k2, k3, k4, k5, k6⟩ := h.ok.reopen hr
      have hsm : Seamless r' := k1.seamless_of (a := r.logStart) (by rw [k2, k3]; exact h.seamless)
      have hst : r'.logStart = r.logStart := by
        refine Seamless.logStart_eq h.seamless hsm (x := []) (by rw [k2]; simp) ?_
        rw [k3]; rfl
      refine ⟨k1, hsm, hbd, ?_, by rw [k3]; exact h.fits, by rw [hst]; exact h.start, by rw [k2]; exact h.kept,
        by rw [k2]; exact h.kv⟩
      rw [k6, k3]
      show (if r.leo < r.hw then r.leo else r.hw) = _
      rw [h.hw]
      split <;> rfl

/-- The log on a partition replica keeps what it is given. -/
theorem replicaLog_keeps (z : Compressor) {c : Cfg} (hc : c.segMax < 2 ^ 31) :
    (replicaLog z c).Keeps (Holds c) where
  append_ok _ _ _ b f h hb ho := (h.append hc b hb f).1 ho
  append_failed _ _ _ b f h hb ho := .inl ((h.append hc b hb f).2 ho)
  other _ _ _ x h := h.other x
  read _ _ _ h := ⟨_, h.read z hc, fun hg => if_pos hg, fun hg => ⟨[], if_neg hg⟩⟩

/-- The log used by the tests of the crate keeps what it is given. -/
theorem vecLog_keeps : vecLog.Keeps fun l g k => g = [] ∧ l = k where
  append_ok _ _ _ _ _ h _ _ := ⟨h.1, by rw [← h.2]; rfl⟩
  append_failed _ _ _ _ _ _ _ ho := by cases ho
  other _ _ k _ h := ⟨[], k, rfl, by rw [h.1]; rfl, h.2⟩
  read _ _ _ h := ⟨[], by rw [List.append_nil, ← h.2]; rfl, fun _ => rfl, fun hg => absurd h.1 hg⟩

end Verif.Kv
