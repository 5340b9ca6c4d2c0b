import Verif.Wire.Record
import Verif.Wire.Crc

/-!
# Batches and record sets (`fluvio-protocol/src/record/{batch,data}.rs`)

`Batch R` is generic in the representation of the records: `memC` (`MemoryRecords = Vec<Record>`) or
`rawC` (`RawRecords`, bytes).
-/

namespace Verif.Wire

/-- batch.rs:452-467 -/
structure BatchHeader where
  leaderEpoch : BitVec (8 * 4)
  magic : BitVec (8 * 1)
  crc : BitVec (8 * 4)
  attributes : BitVec (8 * 2)
  lastOffsetDelta : BitVec (8 * 4)
  firstTimestamp : BitVec (8 * 8)
  maxTimestamp : BitVec (8 * 8)
  producerId : BitVec (8 * 8)
  producerEpoch : BitVec (8 * 2)
  firstSequence : BitVec (8 * 4)
deriving DecidableEq

/-- batch.rs:87-94 -/
structure Batch (R : Type) where
  baseOffset : BitVec (8 * 8)
  batchLen : BitVec (8 * 4)
  header : BatchHeader
  schemaId : BitVec (8 * 4)
  records : R
deriving DecidableEq

/-- batch.rs:480-484, flag `ATTR_SCHEMA_PRESENT = 0x10` (batch.rs:23) -/
def BatchHeader.hasSchema (h : BatchHeader) : Bool := (h.attributes &&& 0x10#16) ≠ 0#16

/-- default header — batch.rs:490-505 -/
def BatchHeader.default : BatchHeader :=
  ⟨-1#32, 2#8, 0#32, 0#16, -1#32, -1#64, -1#64, -1#64, -1#16, -1#32⟩

/-- derived codec of `BatchHeader` — batch.rs:452-467 -/
def headerC : Codec BatchHeader :=
  isoC (pairC (intC 4) (pairC (intC 1) (pairC (intC 4) (pairC (intC 2) (pairC (intC 4)
      (pairC (intC 8) (pairC (intC 8) (pairC (intC 8) (pairC (intC 2) (intC 4))))))))))
    (fun x => ⟨x.1, x.2.1, x.2.2.1, x.2.2.2.1, x.2.2.2.2.1, x.2.2.2.2.2.1, x.2.2.2.2.2.2.1,
      x.2.2.2.2.2.2.2.1, x.2.2.2.2.2.2.2.2.1, x.2.2.2.2.2.2.2.2.2⟩)
    (fun h => (h.leaderEpoch, h.magic, h.crc, h.attributes, h.lastOffsetDelta, h.firstTimestamp,
      h.maxTimestamp, h.producerId, h.producerEpoch, h.firstSequence))

/-- How a batch stores its records: codec, default value, applied to exactly the record bytes. -/
structure RecordsC (R : Type) where
  enc : R → Bytes
  /-- decode the bytes cut out for the records; bytes left over are dropped or not by the caller -/
  dec : Dec R
  size : R → Nat
  dflt : R
  wf : R → Prop

/-- `MemoryRecords = Vec<Record>` — batch.rs:37 -/
def memC : RecordsC (List Record) where
  enc := (vecC recordC).enc
  dec := (vecC recordC).dec
  size := (vecC recordC).size
  dflt := []
  wf := (vecC recordC).wf

/-- `RawRecords`: the bytes themselves, decoding takes everything — batch.rs:44-63 -/
def rawC : RecordsC Bytes where
  enc b := b
  dec := fun bs => .ok (bs, [])
  size b := b.length
  dflt := []
  wf _ := True

variable {R : Type}

/-- `BATCH_HEADER_SIZE` — batch.rs:507-516 -/
def batchHeaderSize : Nat := 45
/-- `BATCH_PREAMBLE_SIZE` — batch.rs:70-71 -/
def batchPreambleSize : Nat := 12

/-- `calc_batch_len` — batch.rs:238-245 -/
def calcBatchLen (rc : RecordsC R) (b : Batch R) : Nat :=
  if b.header.hasSchema then batchHeaderSize + rc.size b.records + 4
  else batchHeaderSize + rc.size b.records

/-- The bytes covered by the checksum (`out`) — batch.rs:418-430 -/
def batchBody (rc : RecordsC R) (b : Batch R) : Bytes :=
  intEnc 2 b.header.attributes ++ intEnc 4 b.header.lastOffsetDelta ++
  intEnc 8 b.header.firstTimestamp ++ intEnc 8 b.header.maxTimestamp ++
  intEnc 8 b.header.producerId ++ intEnc 2 b.header.producerEpoch ++
  intEnc 4 b.header.firstSequence ++
  (if b.header.hasSchema then intEnc 4 b.schemaId else []) ++ rc.enc b.records

/-- `Batch::encode` — batch.rs:406-437 -/
def encBatch (rc : RecordsC R) (b : Batch R) : Bytes :=
  intEnc 8 b.baseOffset ++ intEnc 4 (BitVec.ofNat 32 (calcBatchLen rc b)) ++
  intEnc 4 b.header.leaderEpoch ++ intEnc 1 b.header.magic ++
  intEnc 4 (crc32c (batchBody rc b)) ++ batchBody rc b

/-- `Batch::write_size` — batch.rs:402-404 -/
def sizeBatch (rc : RecordsC R) (b : Batch R) : Nat :=
  batchPreambleSize + batchHeaderSize + rc.size b.records

/-- `i32 as usize` (64-bit): negative numbers become huge. -/
def asUsize (x : BitVec 32) : Nat := if x.toInt < 0 then 2 ^ 64 - (-x.toInt).toNat else x.toNat

/-- `self.batch_len as usize - BATCH_HEADER_SIZE [- 4]`, `none` when the subtraction underflows
(a panic in checked builds) — batch.rs:376-382 -/
def recLen (batchLen : BitVec 32) (hasSchema : Bool) : Option Nat :=
  let need := if hasSchema then batchHeaderSize + 4 else batchHeaderSize
  if asUsize batchLen < need then none else some (asUsize batchLen - need)

/-- Decode the records from the next `n` bytes (`src.take(n)`, which may be shorter than `n`); what the
records decoder leaves unread stays in the source — batch.rs:384-391 -/
def decRecords (rc : RecordsC R) (n : Nat) : Dec R := fun bs =>
  if (bs.take n).length > 0 then
    match rc.dec (bs.take n) with
    | .error e => .error e
    | .ok (r, left) => .ok (r, left ++ bs.drop n)
  else .ok (rc.dflt, bs)

/-- `Batch::decode` on a default batch — batch.rs:368-395, 167-176 -/
def decBatch (rc : RecordsC R) : Dec (Batch R) :=
  (intDec 8).bind fun base => (intDec 4).bind fun len => headerC.dec.bind fun h =>
    (if h.hasSchema then intDec 4 else Dec.pure 0#32).bind fun sid =>
      match recLen len h.hasSchema with
      | none => Dec.fail .panic
      | some n => (decRecords rc n).bind fun r => Dec.pure ⟨base, len, h, sid, r⟩

/-- What a reader gets back: the length field and the checksum are filled in by the encoder, and the
schema id is only kept when flagged. -/
def asWritten (rc : RecordsC R) (b : Batch R) : Batch R :=
  { b with
    batchLen := BitVec.ofNat 32 (calcBatchLen rc b)
    header := { b.header with crc := crc32c (batchBody rc b) }
    schemaId := if b.header.hasSchema then b.schemaId else 0#32 }

/-- Laws of a record representation within a batch. -/
structure RecordsLaw (rc : RecordsC R) : Prop where
  roundtrip : ∀ r, rc.wf r → rc.dec (rc.enc r) = .ok (r, [])
  size_eq : ∀ r, rc.wf r → rc.size r = (rc.enc r).length
  nonempty : ∀ r, rc.wf r → rc.enc r = [] → r = rc.dflt

theorem vecRecord_rt : RoundTrips (vecC recordC) := vecC_rt recordC_rt

theorem memC_law : RecordsLaw memC where
  roundtrip r h := by
    have := vecRecord_rt.roundtrip r [] h
    rwa [List.append_nil] at this
  size_eq r h := vecRecord_rt.size_eq r h
  nonempty r h he := by
    have := congrArg List.length he
    simp [memC, vecC] at this

theorem rawC_law : RecordsLaw rawC where
  roundtrip _ _ := rfl
  size_eq _ _ := rfl
  nonempty _ _ h := h

theorem headerC_rt : RoundTrips headerC :=
  isoC_rt (pairC_rt (intC_lawful 4).toRoundTrips (pairC_rt (intC_lawful 1).toRoundTrips
    (pairC_rt (intC_lawful 4).toRoundTrips (pairC_rt (intC_lawful 2).toRoundTrips
    (pairC_rt (intC_lawful 4).toRoundTrips (pairC_rt (intC_lawful 8).toRoundTrips
    (pairC_rt (intC_lawful 8).toRoundTrips (pairC_rt (intC_lawful 8).toRoundTrips
    (pairC_rt (intC_lawful 2).toRoundTrips (intC_lawful 4).toRoundTrips))))))))) fun _ => rfl

theorem headerC_wf (h : BatchHeader) : headerC.wf h :=
  ⟨trivial, trivial, trivial, trivial, trivial, trivial, trivial, trivial, trivial, trivial⟩

/-- The batch encoding with the header seen as one value. -/
theorem encBatch_eq (rc : RecordsC R) (b : Batch R) :
    encBatch rc b = intEnc 8 b.baseOffset ++ (intEnc 4 (BitVec.ofNat 32 (calcBatchLen rc b)) ++
      (headerC.enc { b.header with crc := crc32c (batchBody rc b) } ++
        ((if b.header.hasSchema then intEnc 4 b.schemaId else []) ++ rc.enc b.records))) := by
  unfold encBatch
  generalize crc32c (batchBody rc b) = c
  simp only [batchBody, headerC, isoC, pairC, intC, List.append_assoc]

theorem intEnc_length (n : Nat) (v : BitVec (8 * n)) : (intEnc n v).length = n := by simp [intEnc]

theorem headerC_enc_length (h : BatchHeader) : (headerC.enc h).length = 45 := by
  simp only [headerC, isoC, pairC, intC, List.length_append, intEnc_length]

theorem encBatch_length {rc : RecordsC R} (hl : RecordsLaw rc) (b : Batch R) (hw : rc.wf b.records) :
    (encBatch rc b).length = 12 + calcBatchLen rc b := by
  rw [encBatch_eq]
  simp only [List.length_append, intEnc_length, headerC_enc_length, calcBatchLen, hl.size_eq _ hw,
    batchHeaderSize]
  cases b.header.hasSchema
  · simp; omega
  · simp [intEnc_length]; omega

theorem recLen_ofNat (n : Nat) (s : Bool) (h : n < 2 ^ 31)
    (hn : (if s then batchHeaderSize + 4 else batchHeaderSize) ≤ n) :
    recLen (BitVec.ofNat 32 n) s = some (n - if s then batchHeaderSize + 4 else batchHeaderSize) := by
  have hi := ofNat_toInt_small 32 n (by omega)
  have ht : (BitVec.ofNat 32 n).toNat = n := by
    rw [BitVec.toNat_ofNat]; exact Nat.mod_eq_of_lt (by omega)
  have ha : asUsize (BitVec.ofNat 32 n) = n := by
    unfold asUsize; rw [hi, ht, if_neg (by omega)]
  simp only [recLen]
  rw [ha, if_neg (by omega)]

theorem decRecords_ok {rc : RecordsC R} (hl : RecordsLaw rc) (r : R) (hw : rc.wf r) (rest : Bytes) :
    decRecords rc (rc.enc r).length (rc.enc r ++ rest) = .ok (r, rest) := by
  unfold decRecords
  rw [List.take_left' rfl, List.drop_left' rfl, hl.roundtrip r hw]
  split
  · simp
  · rename_i h
    have hnil : rc.enc r = [] := List.length_eq_zero_iff.1 (by omega)
    rw [hnil, hl.nonempty r hw hnil]; rfl

theorem decBatch_enc {rc : RecordsC R} (hl : RecordsLaw rc) (b : Batch R) (hw : rc.wf b.records)
    (hlen : calcBatchLen rc b < 2 ^ 31) (rest : Bytes) :
    decBatch rc (encBatch rc b ++ rest) = .ok (asWritten rc b, rest) := by
  rw [encBatch_eq]
  simp only [List.append_assoc]
  unfold decBatch
  rw [Dec.bind_ok (intDec_intEnc 8 _ _), Dec.bind_ok (intDec_intEnc 4 _ _),
    Dec.bind_ok (headerC_rt.roundtrip _ _ (headerC_wf _))]
  have hs : ({ b.header with crc := crc32c (batchBody rc b) } : BatchHeader).hasSchema
      = b.header.hasSchema := rfl
  rw [hs]
  have hge : (if b.header.hasSchema then batchHeaderSize + 4 else batchHeaderSize)
      ≤ calcBatchLen rc b := by
    unfold calcBatchLen; split <;> omega
  have hrl := recLen_ofNat (calcBatchLen rc b) b.header.hasSchema hlen hge
  have hn : (calcBatchLen rc b - if b.header.hasSchema then batchHeaderSize + 4 else batchHeaderSize)
      = (rc.enc b.records).length := by
    rw [← hl.size_eq _ hw]; unfold calcBatchLen; split <;> omega
  rw [hn] at hrl
  rw [hrl]
  have hd := decRecords_ok hl b.records hw rest
  have step : ∀ sid, (decRecords rc (rc.enc b.records).length).bind
      (fun r => Dec.pure (Batch.mk b.baseOffset (BitVec.ofNat 32 (calcBatchLen rc b))
        { b.header with crc := crc32c (batchBody rc b) } sid r)) (rc.enc b.records ++ rest)
      = .ok (⟨b.baseOffset, BitVec.ofNat 32 (calcBatchLen rc b),
        { b.header with crc := crc32c (batchBody rc b) }, sid, b.records⟩, rest) := by
    intro sid; rw [Dec.bind_ok hd]; rfl
  cases hb : b.header.hasSchema
  · simp only [Bool.false_eq_true, ↓reduceIte, List.nil_append]
    rw [Dec.bind_ok (show Dec.pure 0#32 _ = .ok (0#32, _) from rfl), step]
    simp only [asWritten, hb, Bool.false_eq_true, ↓reduceIte]
  · simp only [↓reduceIte]
    rw [Dec.bind_ok (intDec_intEnc 4 _ _), step]
    simp only [asWritten, hb, ↓reduceIte]

/-! ## Record sets — data.rs:249-384 -/

/-- `RecordSet::encode` — data.rs:365-384 -/
def encSet (rc : RecordsC R) (bs : List (Batch R)) : Bytes :=
  beEnc 4 (bs.flatMap (encBatch rc)).length ++ bs.flatMap (encBatch rc)

/-- `RecordSet::write_size` — data.rs:359-363 -/
def sizeSet (rc : RecordsC R) (bs : List (Batch R)) : Nat :=
  bs.foldl (fun sum b => sum + sizeBatch rc b) 4

/-- The loop of `RecordSet::decode` — data.rs:328-353.  `fuel` bounds the number of iterations; each
one consumes at least 57 bytes, so the length of the buffer is enough.  On an error the batches
decoded so far are returned as success; the bytes the failed attempt consumed are not tracked (all
that is left of the set is reported as unread). -/
def decBatches (rc : RecordsC R) : Nat → Bytes → Except Err (List (Batch R) × Bytes)
  | 0, bs => .ok ([], bs)
  | fuel + 1, bs =>
    if bs.length > 0 then
      match decBatch rc bs with
      | .error .panic => .error .panic
      | .error _ => .ok ([], bs)
      | .ok (b, rest) =>
        match decBatches rc fuel rest with
        | .error e => .error e
        | .ok (l, r) => .ok (b :: l, r)
    else .ok ([], [])

/-- `RecordSet::decode` — data.rs:305-356 -/
def decSet (rc : RecordsC R) : Dec (List (Batch R)) :=
  (intDec 4).bind fun len => fun bs =>
    if bs.length < asUsize len then .error .eof
    else
      match decBatches rc (asUsize len) (bs.take (asUsize len)) with
      | .error e => .error e
      | .ok (l, r) => .ok (l, r ++ bs.drop (asUsize len))

theorem encBatch_pos (rc : RecordsC R) (b : Batch R) : 57 ≤ (encBatch rc b).length := by
  rw [encBatch_eq]
  simp only [List.length_append, intEnc_length, headerC_enc_length]
  omega

theorem decBatches_enc {rc : RecordsC R} (hl : RecordsLaw rc) :
    ∀ (bs : List (Batch R)) (fuel : Nat), (∀ b ∈ bs, rc.wf b.records) →
      (∀ b ∈ bs, calcBatchLen rc b < 2 ^ 31) → (bs.flatMap (encBatch rc)).length ≤ fuel →
      decBatches rc fuel (bs.flatMap (encBatch rc)) = .ok (bs.map (asWritten rc), [])
  | [], fuel, _, _, _ => by cases fuel <;> simp [decBatches]
  | b :: bs, fuel, hw, hs, hf => by
    simp only [List.flatMap_cons, List.length_append] at hf
    have hp := encBatch_pos rc b
    obtain ⟨fuel, rfl⟩ : ∃ k, fuel = k + 1 := ⟨fuel - 1, by omega⟩
    simp only [List.flatMap_cons, decBatches]
    rw [if_pos (by rw [List.length_append]; omega),
      decBatch_enc hl b (hw b (by simp)) (hs b (by simp))]
    simp only
    rw [decBatches_enc hl bs fuel (fun x hx => hw x (by simp [hx])) (fun x hx => hs x (by simp [hx]))
      (by omega)]
    simp

theorem decSet_enc {rc : RecordsC R} (hl : RecordsLaw rc) (bs : List (Batch R)) (rest : Bytes)
    (hw : ∀ b ∈ bs, rc.wf b.records) (hlen : (bs.flatMap (encBatch rc)).length < 2 ^ 31) :
    decSet rc (encSet rc bs ++ rest) = .ok (bs.map (asWritten rc), rest) := by
  unfold decSet encSet
  rw [List.append_assoc, Dec.bind_ok (intDec_beEnc 4 _ _)]
  have hi := ofNat_toInt_small 32 (bs.flatMap (encBatch rc)).length (by omega)
  have ht : (BitVec.ofNat 32 (bs.flatMap (encBatch rc)).length).toNat
      = (bs.flatMap (encBatch rc)).length := by
    rw [BitVec.toNat_ofNat]; exact Nat.mod_eq_of_lt (by omega)
  have ha : asUsize (BitVec.ofNat (8 * 4) (bs.flatMap (encBatch rc)).length)
      = (bs.flatMap (encBatch rc)).length := by
    unfold asUsize; rw [hi, ht, if_neg (by omega)]
  have hb : ∀ b ∈ bs, calcBatchLen rc b < 2 ^ 31 := by
    intro b hb
    have h1 := encBatch_length hl b (hw b hb)
    have h2 : (encBatch rc b).length ≤ (bs.flatMap (encBatch rc)).length := by
      clear hlen hi ht ha hw h1
      induction bs with
      | nil => simp at hb
      | cons a bs ih =>
        simp only [List.flatMap_cons, List.length_append]
        rcases List.mem_cons.1 hb with rfl | h
        · omega
        · have := ih h; omega
    omega
  simp only [ha]
  rw [if_neg (by rw [List.length_append]; omega), List.take_left' rfl, List.drop_left' rfl,
    decBatches_enc hl bs _ hw hb (Nat.le_refl _)]
  rfl

theorem decSet_prefix {rc : RecordsC R} (bs : List (Batch R)) (p s : Bytes)
    (hlen : (bs.flatMap (encBatch rc)).length < 2 ^ 31) (h : encSet rc bs = p ++ s) (hs : s ≠ []) :
    decSet rc p = .error .eof := by
  rcases prefix_split h hs with ⟨s', h1, h2⟩ | ⟨p', h1, h2⟩
  · have := prefix_length h1 h2
    rw [beEnc_length] at this
    exact bind_error (intDec_short this)
  · subst h1
    have hl := prefix_length h2 hs
    unfold decSet
    rw [Dec.bind_ok (intDec_beEnc 4 _ _)]
    have hi := ofNat_toInt_small 32 (bs.flatMap (encBatch rc)).length (by omega)
    have ht : (BitVec.ofNat 32 (bs.flatMap (encBatch rc)).length).toNat
        = (bs.flatMap (encBatch rc)).length := by
      rw [BitVec.toNat_ofNat]; exact Nat.mod_eq_of_lt (by omega)
    have ha : asUsize (BitVec.ofNat (8 * 4) (bs.flatMap (encBatch rc)).length)
        = (bs.flatMap (encBatch rc)).length := by
      unfold asUsize; rw [hi, ht, if_neg (by omega)]
    simp only [ha]
    rw [if_pos hl]

theorem sizeSet_eq {rc : RecordsC R} (hl : RecordsLaw rc) (bs : List (Batch R))
    (hw : ∀ b ∈ bs, rc.wf b.records) :
    sizeSet rc bs + 4 * (bs.filter fun b => b.header.hasSchema).length = (encSet rc bs).length := by
  have gen : ∀ (bs : List (Batch R)) (k : Nat), (∀ b ∈ bs, rc.wf b.records) →
      bs.foldl (fun sum b => sum + sizeBatch rc b) k +
        4 * (bs.filter fun b => b.header.hasSchema).length
        = k + (bs.flatMap (encBatch rc)).length := by
    intro bs
    induction bs with
    | nil => intro k _; simp
    | cons b bs ih =>
      intro k hw
      have h1 := encBatch_length hl b (hw b (by simp))
      have h2 := ih (k + sizeBatch rc b) (fun x hx => hw x (by simp [hx]))
      have h3 : sizeBatch rc b + (if b.header.hasSchema then 4 else 0) = (encBatch rc b).length := by
        rw [h1]
        simp only [sizeBatch, calcBatchLen, batchPreambleSize, batchHeaderSize]
        split <;> omega
      simp only [List.foldl_cons, List.flatMap_cons, List.length_append]
      cases hb : b.header.hasSchema
      · rw [List.filter_cons_of_neg (by simp [hb])]
        simp only [hb, Bool.false_eq_true, ↓reduceIte] at h3
        omega
      · rw [List.filter_cons_of_pos (by simp [hb])]
        simp only [hb, ↓reduceIte] at h3
        simp only [List.length_cons]
        omega
  have := gen bs 4 hw
  unfold sizeSet encSet
  rw [List.length_append, beEnc_length]
  exact this

end Verif.Wire
