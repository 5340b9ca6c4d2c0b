import Verif.Props.Codec

/-!
# C05 – C08: records, batches, record sets, checksums
-/

namespace Verif.Props
open Verif.Wire

/-- **C05.** A record is read back identically, whatever follows; its announced size is right. -/
theorem C05_record_roundtrip (r : Record) (hr : r.fits) (rest : Bytes) :
    recordC.dec (recordC.enc r ++ rest) = .ok (r, rest) ∧ recordC.size r = (recordC.enc r).length :=
  ⟨recordC_rt.roundtrip r rest hr.wf, recordC_rt.size_eq r hr.wf⟩

example : sampleRecord.fits := sampleRecord_fits
example : recordC.dec (recordC.enc sampleRecord ++ [9]) = .ok (sampleRecord, [9]) := by decide

/-- **Specification.** A batch of in-memory records that can be written: its records fit, and fewer
than 2^31 bytes follow the preamble. -/
def MemBatchFits (b : Batch (List Record)) : Prop :=
  b.records.length < 2 ^ 31 ∧ (∀ r ∈ b.records, r.fits) ∧ (encBatch memC b).length < 2 ^ 31

/-- **Specification.** The batch `b'` read back agrees with the batch `b` written: everything equal
except the length and checksum fields, which the writer fills in, and the schema id, which exists only
when the header says so. -/
def SameBatch {R} (b b' : Batch R) : Prop :=
  b'.baseOffset = b.baseOffset ∧ b'.records = b.records ∧
  b'.header = { b.header with crc := b'.header.crc } ∧
  (b.header.hasSchema = true → b'.schemaId = b.schemaId)

theorem memWf {b : Batch (List Record)} (h : MemBatchFits b) : memC.wf b.records :=
  ⟨h.1, fun r hr => (h.2.1 r hr).wf⟩

/-- **C06.** A batch is read back the same, whatever follows, and its length field is the number of
bytes after the 12-byte preamble. -/
theorem C06_batch_roundtrip (b : Batch (List Record)) (hb : MemBatchFits b) (rest : Bytes) :
    ∃ b', decBatch memC (encBatch memC b ++ rest) = .ok (b', rest) ∧ SameBatch b b' ∧
      b'.batchLen.toInt + 12 = (encBatch memC b).length := by
  have hw := memWf hb
  have hl := encBatch_length memC_law b hw
  have h3 := hb.2.2
  refine ⟨_, decBatch_enc memC_law b hw (by omega) rest, ⟨rfl, rfl, rfl, ?_⟩, ?_⟩
  · intro h; simp only [asWritten, h, ↓reduceIte]
  · simp only [asWritten]
    rw [ofNat_toInt_small 32 _ (by omega)]
    omega

/-- The length field sits at bytes 8..11 in big-endian order, so a reader can skip the batch without
decoding it. -/
theorem C06_skip (b : Batch (List Record)) (hb : MemBatchFits b) (rest : Bytes) :
    let all := encBatch memC b ++ rest
    all.drop (12 + beVal ((all.drop 8).take 4)) = rest := by
  have hl := encBatch_length memC_law b (memWf hb)
  have h3 := hb.2.2
  intro all
  have e : (all.drop 8).take 4 = intEnc 4 (BitVec.ofNat 32 (calcBatchLen memC b)) := by
    simp only [all, encBatch_eq, List.append_assoc]
    rw [List.drop_left' (intEnc_length 8 _), List.take_left' (intEnc_length 4 _)]
  have : beVal (intEnc 4 (BitVec.ofNat 32 (calcBatchLen memC b))) = calcBatchLen memC b := by
    unfold intEnc
    rw [beVal_beEnc, BitVec.toNat_ofNat]
    omega
  rw [e, this, ← hl]
  exact List.drop_left' rfl

/-- Raw batches (records as bytes) round-trip as well. -/
theorem C06_raw_batch_roundtrip (b : Batch Bytes) (hb : (encBatch rawC b).length < 2 ^ 31)
    (rest : Bytes) : ∃ b', decBatch rawC (encBatch rawC b ++ rest) = .ok (b', rest) ∧ SameBatch b b' ∧
      b'.batchLen.toInt + 12 = (encBatch rawC b).length := by
  have hl := encBatch_length rawC_law b trivial
  refine ⟨_, decBatch_enc rawC_law b trivial (by omega) rest, ⟨rfl, rfl, rfl, ?_⟩, ?_⟩
  · intro h; simp only [asWritten, h, ↓reduceIte]
  · simp only [asWritten]
    rw [ofNat_toInt_small 32 _ (by omega)]
    omega

/-- **C06 through compression.** Provided the compression library undoes itself, the records and the
header of a batch survive the producer's conversion to raw form, the wire, and the consumer's
conversion back. -/
theorem C06_producer_to_consumer (z : Compressor)
    (hz : ∀ c bs, z.uncompress c (z.compress c bs) = some bs) (b : Batch (List Record))
    (hrec : memC.wf b.records) (raw : Batch Bytes) (hraw : toRaw z b = some raw)
    (hlen : (encBatch rawC raw).length < 2 ^ 31) (rest : Bytes) :
    ∃ got back, decBatch rawC (encBatch rawC raw ++ rest) = .ok (got, rest) ∧
      toMem z got = .ok back ∧ back.baseOffset = b.baseOffset ∧ back.records = b.records ∧
      back.header = { b.header with crc := back.header.crc } := by
  have hl := encBatch_length rawC_law raw trivial
  refine ⟨_, ⟨b.baseOffset, BitVec.ofNat 32 (batchHeaderSize + memC.size b.records),
    { b.header with crc := crc32c (batchBody rawC raw) }, 0#32, b.records⟩,
    decBatch_enc rawC_law raw trivial (by omega) rest, ?_, rfl, rfl, rfl⟩
  unfold toRaw at hraw
  cases hc : b.header.compression with
  | none => rw [hc] at hraw; cases hraw
  | some c =>
    rw [hc] at hraw
    simp only [Option.some.injEq] at hraw
    have hm : memoryRecords z (asWritten rawC raw) = .ok b.records := by
      unfold memoryRecords
      have : (asWritten rawC raw).header.compression = some c := by rw [← hraw]; exact hc
      rw [this]
      have hr : (asWritten rawC raw).records = z.run c (memC.enc b.records) := by rw [← hraw]; rfl
      simp only [hr, Compressor.run]
      split
      · exact decodeMemory_enc _ hrec
      · rw [hz]; exact decodeMemory_enc _ hrec
    unfold toMem
    rw [hm, ← hraw]
    rfl

def sampleMemBatch : Batch (List Record) :=
  ⟨40#64, 0#32, { BatchHeader.default with attributes := 0x10#16, lastOffsetDelta := 1#32 }, 77#32,
    [⟨⟨0#8, 0#64, 0#64⟩, none, [104, 105], 0#64⟩, sampleRecord]⟩

theorem sampleMemBatch_fits : MemBatchFits sampleMemBatch := by
  refine ⟨by decide, ?_, by decide +kernel⟩
  intro r hr
  simp only [sampleMemBatch, List.mem_cons, List.not_mem_nil, or_false] at hr
  rcases hr with rfl | rfl
  · refine ⟨?_, ?_, ?_, ?_⟩ <;> decide
  · exact sampleRecord_fits

example : MemBatchFits sampleMemBatch := sampleMemBatch_fits
example : sampleMemBatch.header.hasSchema = true := by decide
/-- the identity "compression" satisfies the hypothesis of `C06_producer_to_consumer` -/
example : ∀ c bs, (⟨fun _ b => b, fun _ b => some b⟩ : Compressor).uncompress c
    ((⟨fun _ b => b, fun _ b => some b⟩ : Compressor).compress c bs) = some bs := fun _ _ => rfl
example : (toRaw ⟨fun _ b => b, fun _ b => some b⟩ sampleMemBatch).isSome = true := by decide

/-- **C06 (finding).** A consumer's conversion of a raw batch forgets the schema id although the header
still announces one. -/
theorem C06_schema_id_dropped (z : Compressor) (b : Batch Bytes) (m : Batch (List Record))
    (h : toMem z b = .ok m) : m.schemaId = 0#32 ∧ m.header = b.header := by
  unfold toMem at h
  split at h
  · cases h
  · cases h; exact ⟨rfl, rfl⟩

/-- **C07.** A record set is read back as the same batches in the same order (in-memory records). -/
theorem C07_record_set_roundtrip (bs : List (Batch (List Record)))
    (hb : ∀ b ∈ bs, b.records.length < 2 ^ 31 ∧ ∀ r ∈ b.records, r.fits)
    (hlen : (encSet memC bs).length < 2 ^ 31) (rest : Bytes) :
    ∃ bs', decSet memC (encSet memC bs ++ rest) = .ok (bs', rest) ∧ bs'.length = bs.length ∧
      ∀ i (h : i < bs.length) (h' : i < bs'.length), SameBatch bs[i] bs'[i] := by
  have hw : ∀ b ∈ bs, memC.wf b.records := fun b hb' => ⟨(hb b hb').1, fun r hr => ((hb b hb').2 r hr).wf⟩
  have h2 : (bs.flatMap (encBatch memC)).length < 2 ^ 31 := by
    unfold encSet at hlen; rw [List.length_append] at hlen; omega
  refine ⟨_, decSet_enc memC_law bs rest hw h2, by simp, ?_⟩
  intro i h h'
  rw [List.getElem_map]
  refine ⟨rfl, rfl, rfl, ?_⟩
  intro hs; simp only [asWritten, hs, ↓reduceIte]

/-- The same for raw records. -/
theorem C07_raw_record_set_roundtrip (bs : List (Batch Bytes))
    (hlen : (encSet rawC bs).length < 2 ^ 31) (rest : Bytes) :
    ∃ bs', decSet rawC (encSet rawC bs ++ rest) = .ok (bs', rest) ∧ bs'.length = bs.length ∧
      ∀ i (h : i < bs.length) (h' : i < bs'.length), SameBatch bs[i] bs'[i] := by
  have h2 : (bs.flatMap (encBatch rawC)).length < 2 ^ 31 := by
    unfold encSet at hlen; rw [List.length_append] at hlen; omega
  refine ⟨_, decSet_enc rawC_law bs rest (fun _ _ => trivial) h2, by simp, ?_⟩
  intro i h h'
  rw [List.getElem_map]
  refine ⟨rfl, rfl, rfl, ?_⟩
  intro hs; simp only [asWritten, hs, ↓reduceIte]

/-- **C07 (partial).** The announced size is the number of bytes written for record sets without schema
ids.  Missing: batches with a schema id, where the announced size is wrong
(`C07_size_off_by_schema`, `C07_violated_size`). -/
theorem C07_announced_size_partial (bs : List (Batch (List Record)))
    (hb : ∀ b ∈ bs, b.records.length < 2 ^ 31 ∧ ∀ r ∈ b.records, r.fits)
    (hs : ∀ b ∈ bs, b.header.hasSchema = false) : sizeSet memC bs = (encSet memC bs).length := by
  have hw : ∀ b ∈ bs, memC.wf b.records := fun b hb' => ⟨(hb b hb').1, fun r hr => ((hb b hb').2 r hr).wf⟩
  have := sizeSet_eq memC_law bs hw
  have h0 : (bs.filter fun b => b.header.hasSchema) = [] := by
    rw [List.filter_eq_nil_iff]
    intro b hb'; rw [hs b hb']; decide
  rw [h0] at this
  simpa using this

/-- Exactly by how much the announced size is wrong: 4 bytes for each batch with a schema id. -/
theorem C07_size_off_by_schema (bs : List (Batch (List Record)))
    (hb : ∀ b ∈ bs, b.records.length < 2 ^ 31 ∧ ∀ r ∈ b.records, r.fits) :
    (encSet memC bs).length = sizeSet memC bs + 4 * (bs.filter fun b => b.header.hasSchema).length :=
  (sizeSet_eq memC_law bs fun b hb' => ⟨(hb b hb').1, fun r hr => ((hb b hb').2 r hr).wf⟩).symm

/-- **C07 (violated).** For a batch with a schema id the announced size is not the number of bytes written. -/
theorem C07_violated_size :
    sizeSet memC [sampleMemBatch] ≠ (encSet memC [sampleMemBatch]).length := by decide +kernel

example : (∀ b ∈ [sampleMemBatch, sampleMemBatch], b.records.length < 2 ^ 31 ∧ ∀ r ∈ b.records, r.fits) ∧
    (encSet memC [sampleMemBatch, sampleMemBatch]).length < 2 ^ 31 := by
  refine ⟨?_, by decide +kernel⟩
  intro b hb
  simp only [List.mem_cons, List.not_mem_nil, or_false, or_self] at hb
  subst hb
  exact ⟨sampleMemBatch_fits.1, sampleMemBatch_fits.2.1⟩

/-! ## C08 -/

/-- **C08.** Bytes 17..20 of a written batch hold the CRC-32C of all bytes from position 21 on. -/
theorem C08_crc_covers_payload {R} (rc : RecordsC R) (b : Batch R) :
    ((encBatch rc b).drop 17).take 4 = intEnc 4 (crc32c ((encBatch rc b).drop 21)) := by
  have h17 : (intEnc 8 b.baseOffset ++ intEnc 4 (BitVec.ofNat 32 (calcBatchLen rc b)) ++
      intEnc 4 b.header.leaderEpoch ++ intEnc 1 b.header.magic).length = 17 := by
    simp only [List.length_append, intEnc_length]
  have e1 : (encBatch rc b).drop 17 = intEnc 4 (crc32c (batchBody rc b)) ++ batchBody rc b := by
    unfold encBatch
    rw [List.append_assoc]
    exact List.drop_left' h17
  have e2 : (encBatch rc b).drop 21 = batchBody rc b := by
    rw [show 21 = 17 + 4 from rfl, ← List.drop_drop, e1]
    exact List.drop_left' (intEnc_length 4 _)
  rw [e2, e1]
  exact List.take_left' (intEnc_length 4 _)

/-- **Specification.** `x` and `y` have the same length and differ only in bits `a, …, a + 31` (bit
`8*i + j` being bit `j`, least significant first, of byte `i`). -/
def DifferWithin32 (a : Nat) (x y : Bytes) : Prop :=
  x.length = y.length ∧
  ∀ i j (h : i < x.length) (h' : i < y.length), j < 8 → ¬ (a ≤ 8 * i + j ∧ 8 * i + j < a + 32) →
    x[i].toBitVec.getLsbD j = y[i].toBitVec.getLsbD j

theorem bits_getElem? (x : Bytes) : ∀ (i j : Nat) (h : i < x.length), j < 8 →
    (bits x)[8 * i + j]? = some (x[i].toBitVec.getLsbD j) := by
  induction x with
  | nil => intro i j h; simp at h
  | cons b x ih =>
    intro i j h hj
    rw [bits_cons]
    cases i with
    | zero =>
      rw [List.getElem?_append_left (by rw [byteBits_length]; omega)]
      simp [byteBits, hj]
    | succ i =>
      rw [List.getElem?_append_right (by rw [byteBits_length]; omega), byteBits_length]
      have := ih i j (by simpa using h) hj
      rw [show 8 * (i + 1) + j - 8 = 8 * i + j by omega, this]
      rfl

/-- **C08.** Any corruption confined to a window of 32 bits changes the checksum. -/
theorem C08_burst_detected (a : Nat) (x y : Bytes) (h : DifferWithin32 a x y) (hne : x ≠ y) :
    crc32c x ≠ crc32c y := by
  obtain ⟨hl, hd⟩ := h
  intro hc
  have hlen : (bits x).length = (bits y).length := by rw [bits_length, bits_length, hl]
  have h0 : (List.zipWith xor (bits x) (bits y)).foldl crcBit 0#32 = 0#32 := by
    have e := foldl_crcBit_xor (bits x) (bits y) 0xFFFFFFFF#32 0xFFFFFFFF#32 hlen
    rw [BitVec.xor_self] at e
    rw [← e]
    unfold crc32c at hc
    have : (bits x).foldl crcBit 0xFFFFFFFF#32 = (bits y).foldl crcBit 0xFFFFFFFF#32 := by
      have := congrArg (· ^^^ 0xFFFFFFFF#32) hc
      simpa [BitVec.xor_assoc] using this
    rw [this, BitVec.xor_self]
  -- the difference string
  generalize hD : List.zipWith xor (bits x) (bits y) = D at h0
  have hDlen : D.length = 8 * x.length := by
    rw [← hD, List.length_zipWith, bits_length, bits_length, ← hl]; omega
  have hout : ∀ k, ¬ (a ≤ k ∧ k < a + 32) → ∀ (hk : k < D.length), D[k] = false := by
    intro k hk hkl
    have hi : k / 8 < x.length := by omega
    have hi' : k / 8 < y.length := by omega
    have hx := bits_getElem? x (k / 8) (k % 8) hi (Nat.mod_lt _ (by decide))
    have hy := bits_getElem? y (k / 8) (k % 8) hi' (Nat.mod_lt _ (by decide))
    rw [show 8 * (k / 8) + k % 8 = k by omega] at hx hy
    have := hd (k / 8) (k % 8) hi hi' (Nat.mod_lt _ (by decide)) (by omega)
    have e : D[k]? = some ((x[k / 8].toBitVec.getLsbD (k % 8)) ^^ (y[k / 8].toBitVec.getLsbD (k % 8))) := by
      rw [← hD, List.getElem?_zipWith, hx, hy]
    rw [this, Bool.xor_self, List.getElem?_eq_getElem hkl] at e
    simpa using e
  -- cut it into zeros, window, zeros
  have hsplit : D = List.replicate (D.take a).length false ++ (D.drop a).take 32 ++
      List.replicate ((D.drop a).drop 32).length false := by
    conv => lhs; rw [← List.take_append_drop a D, ← List.take_append_drop 32 (D.drop a)]
    rw [List.append_assoc]
    congr 1
    · apply List.ext_getElem (by simp)
      intro k h1 h2
      rw [List.length_take] at h1
      rw [List.getElem_take, List.getElem_replicate]
      exact hout k (by omega) (by omega)
    · congr 1
      apply List.ext_getElem (by simp)
      intro k h1 h2
      rw [List.length_drop, List.length_drop] at h1
      rw [List.getElem_drop, List.getElem_drop, List.getElem_replicate]
      exact hout _ (by omega) (by omega)
  rw [hsplit] at h0
  refine crc_burst _ _ _ (by rw [List.length_take]; omega) ?_ h0
  -- if the window were all zeros the messages would be equal
  intro hz
  apply hne
  apply bits_inj
  apply List.ext_getElem hlen
  intro k h1 h2
  have hk : k < D.length := by rw [hDlen, ← bits_length]; exact h1
  have hDk : D[k] = false := by
    by_cases hw : a ≤ k ∧ k < a + 32
    · have hlt : k - a < ((D.drop a).take 32).length := by
        rw [List.length_take, List.length_drop]; omega
      have e : ((D.drop a).take 32)[k - a] = D[k] := by
        rw [List.getElem_take, List.getElem_drop]
        congr 1; omega
      rw [← e]
      rw [List.getElem_of_eq hz, List.getElem_replicate]
    · exact hout k hw hk
  have : D[k] = ((bits x)[k] ^^ (bits y)[k]) := by
    simp only [← hD, List.getElem_zipWith]
  rw [this] at hDk
  revert hDk
  cases (bits x)[k] <;> cases (bits y)[k] <;> decide

/-- **C08.** In particular every single-bit error is detected. -/
theorem C08_single_bit (x : Bytes) (i j : Nat) (hi : i < x.length) (hj : j < 8) :
    crc32c (x.set i (x[i] ^^^ (1 <<< UInt8.ofNat j))) ≠ crc32c x := by
  have hbit : ∀ j, j < 8 → ∀ k, k < 8 → ((1 <<< UInt8.ofNat j : UInt8)).toBitVec.getLsbD k = decide (j = k) := by
    decide
  refine C08_burst_detected (8 * i + j) _ _ ⟨by simp, ?_⟩ ?_
  · intro i' j' h h' hj' hout
    by_cases hii : i' = i
    · subst hii
      rw [List.getElem_set_self]
      have : j ≠ j' := by omega
      simp only [UInt8.toBitVec_xor, BitVec.getLsbD_xor, hbit j hj j' hj', this, decide_false,
        Bool.xor_false]
    · rw [List.getElem_set_ne (by omega)]
  · intro h
    have := List.getElem_of_eq h (i := i) (by simpa using hi)
    rw [List.getElem_set_self] at this
    have := congrArg (fun b => b.toBitVec.getLsbD j) this
    simp only [UInt8.toBitVec_xor, BitVec.getLsbD_xor, hbit j hj j hj, decide_true, Bool.xor_true] at this
    cases hx : x[i].toBitVec.getLsbD j <;> rw [hx] at this <;> exact absurd this (by decide)

/-- The standard check value of CRC-32C ("123456789"). -/
example : crc32c [0x31, 0x32, 0x33, 0x34, 0x35, 0x36, 0x37, 0x38, 0x39] = 0xE3069283#32 := by
  decide +kernel

example : DifferWithin32 5 [0xff, 0, 0] [0x1f, 0xff, 0] ∧ [(0xff : UInt8), 0, 0] ≠ [0x1f, 0xff, 0] := by
  refine ⟨⟨rfl, ?_⟩, by decide⟩
  intro i j h h' hj hout
  have : i < 3 := h
  have key : ∀ i, i < 3 → ∀ j, j < 8 → ¬ (5 ≤ 8 * i + j ∧ 8 * i + j < 5 + 32) →
      ([0xff, 0, 0] : Bytes)[i]?.map (·.toBitVec.getLsbD j) =
      ([0x1f, 0xff, 0] : Bytes)[i]?.map (·.toBitVec.getLsbD j) := by decide
  have := key i this j hj hout
  rw [List.getElem?_eq_getElem h, List.getElem?_eq_getElem h'] at this
  simpa using this

/-- **C08 (finding).** Nothing checks the checksum on reading: a batch with a corrupted payload is
decoded without complaint. -/
theorem C08_not_verified_on_read :
    ∃ b, decBatch rawC ((encBatch rawC sampleBatch).set 59 0xff) = .ok (b, []) ∧ b.records = [1, 2, 0xff] := by
  refine ⟨⟨5#64, 48#32, { BatchHeader.default with crc := crc32c (batchBody rawC sampleBatch) }, 0#32,
    [1, 2, 0xff]⟩, ?_, rfl⟩
  decide +kernel

end Verif.Props
