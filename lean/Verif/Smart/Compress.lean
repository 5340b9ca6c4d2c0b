import Verif.Wire.RawBatch
import Verif.Sc.TopicSettings

/-!
# Compression on the way into a partition

A topic may require a compression algorithm. Models the choice made by the producer
(`crates/fluvio/src/producer/mod.rs:714-755`), the broker's handling of a produce request
(`crates/fluvio-spu/src/services/public/produce_handler.rs:80-330`) with its SmartModules
(`smartengine/batch.rs:31-154`, `smartengine/produce_batch.rs:50-88`), and the leader's deduplication filter
(`replication/leader/replica_state.rs:345-382`), all on raw batches.

A chain of SmartModules is any function of its state, the base offset and timestamp of a batch and its uncompressed
bytes. Left out: lookback (C62), mirrors (C27), acknowledgements (C25), and errors other than those of compression,
which are parameters here.
-/

namespace Verif.Smart.Compress
open Verif.Wire
open Verif.Sc.TopicSettings (Alg)

/-- `Compression`, fluvio-compression/src/lib.rs:25-39. -/
inductive Codec
  | none | gzip | snappy | lz4 | zstd
deriving DecidableEq, Repr

/-- The numbers of the codecs, lib.rs:28-38. -/
def Codec.code : Codec → Nat
  | .none => 0
  | .gzip => 1
  | .snappy => 2
  | .lz4 => 3
  | .zstd => 4

/-- `determine_producer_compression_algo`, producer/mod.rs:714-755; `none` is an error at the creation of the producer. -/
def determine (topic : Alg) (config : Option Codec) : Option Codec :=
  match topic with
  | .any => some (config.getD .none)
  | .gzip => match config with
    | some .gzip | none => some .gzip
    | some _ => none
  | .snappy => match config with
    | some .snappy | none => some .snappy
    | some _ => none
  | .lz4 => match config with
    | some .lz4 | none => some .lz4
    | some _ => none
  | .zstd => match config with
    | some .zstd | none => some .zstd
    | some _ => none
  | .none => match config with
    | some .none | none => some .none
    | some _ => none

/-- `BatchHeader::set_compression`, fluvio-protocol/src/record/batch.rs:475-478. -/
def setCompression (h : BatchHeader) (c : Nat) : BatchHeader :=
  { h with attributes := (h.attributes &&& ~~~0x07#16) ||| (BitVec.ofNat 16 c &&& 0x07#16) }

/-- The bytes given to SmartModules, produce_batch.rs:64-79. -/
def uncompressed (z : Compressor) (b : Batch Bytes) : Option Bytes :=
  match b.header.compression with
  | none => none
  | some c => if c = 0 then some b.records else z.uncompress c b.records

/-- `records_len`, batch.rs:145-151. -/
def recordsLen (b : Batch Bytes) : Nat :=
  if b.header.lastOffsetDelta.toInt < 0 then 0 else b.header.lastOffsetDelta.toInt.toNat + 1

/-- `total_records`, record/data.rs:289-294. -/
def totalRecords (l : List (Batch Bytes)) : Nat := (l.map recordsLen).sum

/-- A chain of SmartModules: from its state, the base offset, base timestamp and bytes of a batch to a new state and the
output with a flag for the error of a user function, or `none` if the engine fails. -/
abbrev Chain (σ : Type) := σ → BitVec 64 → BitVec 64 → Bytes → σ × Option (List Record × Bool)

/-- `add_base_offset`, record/data.rs:451-454. -/
def addBase (k : BitVec 64) (r : Record) : Record :=
  { r with preamble := { r.preamble with offsetDelta := r.preamble.offsetDelta + k } }

/-- The batch with which `process_batch` starts, batch.rs:46-48. -/
def start : Batch (List Record) := ⟨-1#64, 0#32, BatchHeader.default, 0#32, []⟩

/-- What a batch with output adds to the batch being built, batch.rs:81-120. -/
def addTo (o : Batch (List Record)) (b : Batch Bytes) (rs : List Record) : Batch (List Record) :=
  let o := if rs.isEmpty then o else
    let o := if o.baseOffset = -1#64 then
        { o with
          header := match b.header.compression with
            | some c => setCompression o.header c
            | none => o.header
          baseOffset := b.baseOffset }
      else o
    { o with records := o.records ++ rs.map (addBase (o.baseOffset - b.baseOffset)) }
  if o.baseOffset = -1#64 then o
  else { o with header := { o.header with lastOffsetDelta := o.header.lastOffsetDelta + (b.header.lastOffsetDelta + 1#32) } }

/-- The loop of `process_batch` without a limit, batch.rs:52-140; the flag tells of the error of a user function. -/
def loop {σ : Type} (z : Compressor) (f : Chain σ) : σ → Batch (List Record) → List (Batch Bytes) →
    σ × Option (Batch (List Record) × Bool)
  | s, o, [] => (s, some (o, false))
  | s, o, b :: l =>
    match uncompressed z b with
    | none => (s, none)
    | some bs =>
      match f s b.baseOffset b.header.firstTimestamp bs with
      | (s', none) => (s', none)
      | (s', some (rs, err)) => if err then (s', some (addTo o b rs, true)) else loop z f s' (addTo o b rs) l

/-- `apply_smartmodules`, produce_handler.rs:252-303: the batches after the SmartModules of the request; `none` is an
error. -/
def applySm {σ : Type} (z : Compressor) (f : Chain σ) (s : σ) (l : List (Batch Bytes)) : Option (List (Batch Bytes)) :=
  match (loop z f s start l).2 with
  | some (o, false) => (toRaw z o).map ([·])
  | _ => none

/-- `validate_records`, produce_handler.rs:305-328. -/
def valid (topic : Alg) (l : List (Batch Bytes)) : Bool :=
  l.all fun b =>
    match b.header.compression with
    | none => false
    | some c =>
      match topic with
      | .any => true
      | .none => c == Codec.none.code
      | .gzip => c == Codec.gzip.code
      | .snappy => c == Codec.snappy.code
      | .lz4 => c == Codec.lz4.code
      | .zstd => c == Codec.zstd.code

/-- `LeaderReplicaState::transform`, replica_state.rs:368-382, with the deduplication filter of the topic: its new
state, and the batches, `none` if it fails. -/
def transform {σ : Type} (z : Compressor) (f : Chain σ) (s : σ) (l : List (Batch Bytes)) :
    σ × Option (List (Batch Bytes)) :=
  match loop z f s start l with
  | (s', some (o, false)) => (s', if o.records.isEmpty then some [] else (toRaw z o).map ([·]))
  | (s', _) => (s', none)

/-- A leader: the state of its deduplication filter, if the topic has one, and its log. -/
structure Leader (σ : Type) where
  dedup : Option σ
  log : List (Batch Bytes)

/-- A produce request for the partition: the state of the chain of its SmartModules, if it has any, and the batches.
`written` tells how many batches the storage writes before it fails, if it does. -/
structure Request (σ : Type) where
  chain : Option σ
  batches : List (Batch Bytes)
  written : Option Nat := none

inductive Outcome
  | smError | filtered | compressionError | writeError | ok
deriving DecidableEq, Repr

/-- The storage writes batches one by one, with their new base offsets (fluvio-storage/src/replica.rs:300-330,
`Verif.Storage.Replica`), which are not modelled here. -/
def Leader.store {σ : Type} (x : Leader σ) (d : Option σ) (l : List (Batch Bytes)) (written : Option Nat) :
    Leader σ × Outcome :=
  if totalRecords l = 0 then (⟨d, x.log⟩, .ok)
  else match written with
    | some k => (⟨d, x.log ++ l.take k⟩, .writeError)
    | none => (⟨d, x.log ++ l⟩, .ok)

/-- `handle_produce_partition` and `write_record_set`, produce_handler.rs:170-250, replica_state.rs:345-366. -/
def Leader.write {σ : Type} (z : Compressor) (dd : Chain σ) (topic : Alg) (x : Leader σ) (l : List (Batch Bytes))
    (written : Option Nat) : Leader σ × Outcome :=
  if valid topic l then
    match x.dedup with
    | none => x.store none l written
    | some s =>
      match transform z dd s l with
      | (s', none) => (⟨some s', x.log⟩, .writeError)
      | (s', some l') => x.store (some s') l' written
  else (x, .compressionError)

/-- `handle_produce_topic` for one partition, produce_handler.rs:104-165; `sm` is the chain of the request, `dd` the
deduplication filter. -/
def Leader.produce {σ : Type} (z : Compressor) (sm dd : Chain σ) (topic : Alg) (x : Leader σ) (r : Request σ) :
    Leader σ × Outcome :=
  match (match r.chain with
    | none => some r.batches
    | some s => applySm z sm s r.batches) with
  | none => (x, .smError)
  | some l => if totalRecords l = 0 then (x, .filtered) else x.write z dd topic l r.written

/-- Any requests one after the other, each with its own SmartModules. -/
def Leader.run {σ : Type} (z : Compressor) (dd : Chain σ) (topic : Alg) (x : Leader σ)
    (rs : List (Chain σ × Request σ)) : Leader σ :=
  rs.foldl (fun x r => (x.produce z r.1 dd topic r.2).1) x

/-! ## Lemmas -/

theorem mask_set (a c : BitVec 16) : ((a &&& ~~~0x07#16) ||| (c &&& 0x07#16)) &&& 0x07#16 = c &&& 0x07#16 := by
  apply BitVec.eq_of_getLsbD_eq
  intro i hi
  simp only [BitVec.getLsbD_and, BitVec.getLsbD_or, BitVec.getLsbD_not, hi, decide_true, Bool.true_and]
  cases a.getLsbD i <;> cases c.getLsbD i <;> cases (0x07#16).getLsbD i <;> rfl

theorem compression_set (h : BatchHeader) (c : Nat) (hc : c ≤ 4) : (setCompression h c).compression = some c := by
  have e : ((setCompression h c).attributes &&& 0x07#16) = BitVec.ofNat 16 c &&& 0x07#16 := mask_set _ _
  unfold BatchHeader.compression
  rw [e]
  have : c = 0 ∨ c = 1 ∨ c = 2 ∨ c = 3 ∨ c = 4 := by omega
  rcases this with h | h | h | h | h <;> subst h <;> rfl

theorem compression_le {h : BatchHeader} {c : Nat} (e : h.compression = some c) : c ≤ 4 := by
  unfold BatchHeader.compression at e
  dsimp only at e
  split at e
  · injection e with e; omega
  · cases e

theorem start_compression : start.header.compression = some 0 := by decide

theorem toRaw_some {z : Compressor} {o : Batch (List Record)} {b : Batch Bytes} (h : toRaw z o = some b) :
    b.header = o.header := by
  unfold toRaw at h
  split at h
  · cases h
  · injection h with h; rw [← h]

/-- Either nothing was added yet, or the compression is the given one. -/
def Fixed (c : Nat) (o : Batch (List Record)) : Prop :=
  (o.baseOffset = -1#64 ∧ o.header.lastOffsetDelta = -1#32 ∧ o.records = []) ∨ o.header.compression = some c

theorem delta_compression (h : BatchHeader) (d : BitVec 32) :
    BatchHeader.compression { h with lastOffsetDelta := d } = h.compression := rfl

theorem addTo_fixed {c : Nat} {o : Batch (List Record)} {b : Batch Bytes} (rs : List Record) (ho : Fixed c o)
    (hb : b.header.compression = some c) : Fixed c (addTo o b rs) := by
  have hc := compression_le hb
  unfold addTo
  dsimp only
  rw [hb]
  dsimp only
  cases rs with
  | nil =>
    simp only [List.isEmpty_nil, if_true]
    by_cases h : o.baseOffset = -1#64
    · rw [if_pos h]; exact ho
    · rw [if_neg h]
      rcases ho with ⟨h1, _⟩ | h1
      · exact absurd h1 h
      · exact Or.inr h1
  | cons r rs =>
    simp only [List.isEmpty_cons, Bool.false_eq_true, if_false]
    by_cases h : o.baseOffset = -1#64
    · simp only [if_pos h]
      split
      · exact Or.inr (compression_set _ _ hc)
      · exact Or.inr (compression_set _ _ hc)
    · have h1 : o.header.compression = some c := by
        rcases ho with ⟨h1, _⟩ | h1
        · exact absurd h1 h
        · exact h1
      simp only [if_neg h]
      exact Or.inr h1

theorem loop_fixed {σ : Type} (z : Compressor) (f : Chain σ) {c : Nat} : ∀ (l : List (Batch Bytes)) (s : σ)
    (o : Batch (List Record)), (∀ b ∈ l, b.header.compression = some c) → Fixed c o →
    ∀ s' o' e, loop z f s o l = (s', some (o', e)) → Fixed c o' := by
  intro l
  induction l with
  | nil =>
    intro s o _ ho s' o' e h
    simp only [loop] at h
    injection h with _ h
    injection h with h
    injection h with h
    exact h ▸ ho
  | cons b l ih =>
    intro s o hl ho s' o' e h
    have hb := hl b (by simp)
    unfold loop at h
    split at h
    · injection h with _ h; cases h
    · split at h
      · injection h with _ h; cases h
      · have hf := addTo_fixed (o := o) (b := b) (by assumption) ho hb
        split at h
        · injection h with _ h
          injection h with h
          injection h with h
          exact h ▸ hf
        · exact ih _ _ (fun b hb => hl b (by simp [hb])) hf _ _ _ h

theorem fixed_start (c : Nat) : Fixed c start := Or.inl ⟨rfl, rfl, rfl⟩

theorem known_addTo {o : Batch (List Record)} (b : Batch Bytes) (rs : List Record) (h : o.header.compression.isSome) :
    (addTo o b rs).header.compression.isSome := by
  have key : ∀ (h' : BatchHeader), h'.compression.isSome → (match b.header.compression with
      | some c => setCompression h' c
      | none => h').compression.isSome := by
    intro h' hh
    cases hc : b.header.compression with
    | none => exact hh
    | some c => dsimp only; rw [compression_set _ _ (compression_le hc)]; rfl
  unfold addTo
  dsimp only
  cases rs with
  | nil =>
    simp only [List.isEmpty_nil, if_true]
    split
    · exact h
    · exact h
  | cons r rs =>
    simp only [List.isEmpty_cons, Bool.false_eq_true, if_false]
    by_cases hb : o.baseOffset = -1#64
    · simp only [if_pos hb]
      split
      · exact key _ h
      · exact key _ h
    · simp only [if_neg hb]; exact h

theorem loop_known {σ : Type} (z : Compressor) (f : Chain σ) : ∀ (l : List (Batch Bytes)) (s : σ)
    (o : Batch (List Record)), o.header.compression.isSome →
    ∀ s' o' e, loop z f s o l = (s', some (o', e)) → o'.header.compression.isSome := by
  intro l
  induction l with
  | nil =>
    intro s o ho s' o' e h
    simp only [loop] at h
    injection h with _ h
    injection h with h
    injection h with h
    exact h ▸ ho
  | cons b l ih =>
    intro s o ho s' o' e h
    unfold loop at h
    split at h
    · injection h with _ h; cases h
    · split at h
      · injection h with _ h; cases h
      · split at h
        · injection h with _ h
          injection h with h
          injection h with h
          exact h ▸ known_addTo _ _ ho
        · exact ih _ _ (known_addTo _ _ ho) _ _ _ h

end Verif.Smart.Compress
