import Verif.Wire.Batch

/-!
# Conversion between in-memory and raw (possibly compressed) batches

Clients build in-memory batches and send raw ones; the broker stores raw ones; consumers convert raw
batches back (`fluvio-protocol/src/record/batch.rs:193-227, 307-340`).  The compression libraries are
abstract: `Compressor` gives the two functions for the codec numbers 1..4.
-/

namespace Verif.Wire

/-- The compression crates (fluvio-compression/src/lib.rs:96-140), by codec number 1..4. -/
structure Compressor where
  compress : Nat → Bytes → Bytes
  uncompress : Nat → Bytes → Option Bytes

/-- `get_compression` — batch.rs:470-473, fluvio-compression/src/lib.rs:40-58: the low three bits of
the attributes, an error for 5, 6, 7. -/
def BatchHeader.compression (h : BatchHeader) : Option Nat :=
  let c := (h.attributes &&& 0x07#16).toNat
  if c ≤ 4 then some c else none

/-- `Compression::compress` — fluvio-compression/src/lib.rs:96-109 -/
def Compressor.run (z : Compressor) (codec : Nat) (bs : Bytes) : Bytes :=
  if codec = 0 then bs else z.compress codec bs

/-- `TryFrom<Batch> for Batch<RawRecords>` — batch.rs:207-227 -/
def toRaw (z : Compressor) (b : Batch (List Record)) : Option (Batch Bytes) :=
  match b.header.compression with
  | none => none
  | some c =>
    let out := z.run c (memC.enc b.records)
    some ⟨b.baseOffset, BitVec.ofNat 32 out.length, b.header, b.schemaId, out⟩

/-- The records pushed by `decode_vec` before it stops — decoder.rs:63-75 -/
def decPartial {α} (d : Dec α) : Nat → Bytes → List α × Option Err
  | 0, _ => ([], none)
  | n + 1, bs =>
    match d bs with
    | .error e => ([], some e)
    | .ok (v, rest) => let (l, e) := decPartial d n rest; (v :: l, e)

/-- The closure `decode` in `memory_records`: `UnexpectedEof` is swallowed and the records decoded
before it are returned — batch.rs:310-319, decoder.rs:39-61 -/
def decodeMemory (bs : Bytes) : Except Err (List Record) :=
  match intDec 4 bs with
  | .error .eof => .ok []
  | .error e => .error e
  | .ok (len, rest) =>
    if len.toInt < 1 then .ok []
    else
      match decPartial recordC.dec len.toInt.toNat rest with
      | (l, none) => .ok l
      | (l, some .eof) => .ok l
      | (_, some e) => .error e

/-- `memory_records` — batch.rs:307-340 -/
def memoryRecords (z : Compressor) (b : Batch Bytes) : Except Err (List Record) :=
  match b.header.compression with
  | none => .error .invalid
  | some c =>
    if c = 0 then decodeMemory b.records
    else
      match z.uncompress c b.records with
      | none => .error .invalid
      | some bs => decodeMemory bs

/-- `TryFrom<Batch<RawRecords>> for Batch` — batch.rs:193-205 (the schema id becomes 0) -/
def toMem (z : Compressor) (b : Batch Bytes) : Except Err (Batch (List Record)) :=
  match memoryRecords z b with
  | .error e => .error e
  | .ok rs =>
    .ok ⟨b.baseOffset, BitVec.ofNat 32 (batchHeaderSize + memC.size rs), b.header, 0#32, rs⟩

theorem decPartial_enc : ∀ (rs : List Record) (rest : Bytes), (∀ r ∈ rs, recordC.wf r) →
    decPartial recordC.dec rs.length (rs.flatMap recordC.enc ++ rest) = (rs, none)
  | [], _, _ => rfl
  | r :: rs, rest, h => by
    simp only [List.length_cons, decPartial, List.flatMap_cons, List.append_assoc]
    rw [recordC_rt.roundtrip r _ (h r (by simp))]
    simp only
    rw [decPartial_enc rs rest (fun x hx => h x (by simp [hx]))]

theorem decodeMemory_enc (rs : List Record) (h : memC.wf rs) : decodeMemory (memC.enc rs) = .ok rs := by
  obtain ⟨hl, hw⟩ := h
  unfold decodeMemory
  have : memC.enc rs = beEnc 4 rs.length ++ rs.flatMap recordC.enc := rfl
  rw [this, intDec_beEnc]
  have hi := ofNat_toInt_small (8 * 4) rs.length (by omega)
  simp only [hi]
  by_cases h0 : rs.length = 0
  · rw [if_pos (by omega), List.length_eq_zero_iff.1 h0]
  · rw [if_neg (by omega)]
    have := decPartial_enc rs [] hw
    rw [List.append_nil] at this
    rw [Int.toNat_natCast, this]

end Verif.Wire
