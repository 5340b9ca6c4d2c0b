import Verif.Wire.RawBatch

/-!
# Batching in the producer (`fluvio/src/producer/{memory_batch,accumulator,partition_producer}.rs`)

The queue of one partition.  `push_record` and the draining part of `flush` each hold the queue's write
lock, so that they are atomic steps.  The event objects only decide when the next flush happens; in the
model a flush may happen at any time.
-/

namespace Verif.Producer
open Verif.Wire

/-- `MemoryBatch` — memory_batch.rs:16-24; `created` is `create_time`. -/
structure MemoryBatch where
  compression : Nat
  batchLimit : Nat
  writeLimit : Nat
  currentSize : Nat
  fullFlag : Bool
  created : Int
  records : List Record
deriving DecidableEq

/-- `MemoryBatch::new` — memory_batch.rs:26-37; an empty vector takes 4 bytes. -/
def MemoryBatch.new (writeLimit batchLimit compression : Nat) (now : Int) : MemoryBatch :=
  ⟨compression, batchLimit, writeLimit, memC.size [], false, now, []⟩

/-- `Batch::<RawRecords>::default()` — batch.rs:87-94, 490-505 -/
def defaultRaw : Batch Bytes := ⟨0#64, 0#32, BatchHeader.default, 0#32, []⟩

/-- `raw_size` — memory_batch.rs:98-100 -/
def MemoryBatch.rawSize (m : MemoryBatch) : Nat := m.currentSize + sizeBatch rawC defaultRaw

/-- `is_full` — memory_batch.rs:88-90 -/
def MemoryBatch.isFull (m : MemoryBatch) : Bool := m.fullFlag || decide (m.batchLimit ≤ m.rawSize)

/-- `elapsed` — memory_batch.rs:92-96 -/
def MemoryBatch.elapsed (m : MemoryBatch) (now : Int) : Int := max 0 (now - m.created)

/-- `set_offset_delta`, `set_timestamp_delta` — memory_batch.rs:48-54, fluvio-protocol record/data.rs -/
def setDeltas (r : Record) (offset : Nat) (elapsed : Int) : Record :=
  { r with preamble := { r.preamble with
      offsetDelta := BitVec.ofNat 64 offset
      timestampDelta := BitVec.ofInt 64 elapsed } }

inductive PushStatus where
  | added (offset : Nat)
  | notAdded
  | tooLarge
deriving DecidableEq

/-- `MemoryBatch::push_record` — memory_batch.rs:45-86; `now` is the time of the call. -/
def MemoryBatch.push (m : MemoryBatch) (r : Record) (now : Int) : MemoryBatch × PushStatus :=
  let first := m.records.length = 0
  let off := m.records.length
  let r' := setDeltas r off (m.elapsed now)
  let recordSize := recordC.size r'
  let actual := m.rawSize + recordSize
  if actual > m.writeLimit then ({ m with fullFlag := true }, .tooLarge)
  else if ¬first ∧ actual > m.batchLimit then ({ m with fullFlag := true }, .notAdded)
  else
    let full :=
      if first then (if actual > m.batchLimit then true else m.fullFlag)
      else (if actual = m.batchLimit then true else m.fullFlag)
    ({ m with
        fullFlag := full
        currentSize := m.currentSize + recordSize
        records := m.records ++ [r'] }, .added off)

/-- `From<MemoryBatch> for Batch<MemoryRecords>` — memory_batch.rs:116-146, `new_with_len`
(batch.rs:134-143), `set_compression` (batch.rs:475-478: the low three bits of the attributes) -/
def MemoryBatch.toBatch (m : MemoryBatch) : Batch (List Record) :=
  let len := m.records.length
  let last := if len > 0 then len - 1 else len
  { baseOffset := BitVec.ofNat 64 last
    batchLen := BitVec.ofNat 32 (batchHeaderSize + memC.size m.records)
    header := { BatchHeader.default with
      lastOffsetDelta := BitVec.ofNat 32 last
      firstTimestamp := BitVec.ofInt 64 m.created
      maxTimestamp := match m.records.getLast? with
        | some r => BitVec.ofInt 64 m.created + r.preamble.timestampDelta
        | none => 0#64
      attributes := BitVec.ofNat 16 (m.compression % 8) }
    schemaId := 0#32
    records := m.records }

/-- `ProducerBatch` — accumulator.rs:289-293; `id` stands for the shared `BatchMetadata` (each batch has
its own). -/
structure PBatch where
  id : Nat
  mem : MemoryBatch
deriving DecidableEq

/-- Settings — accumulator.rs:61-67 -/
structure AccCfg where
  batchSize : Nat
  maxRequest : Nat
  compression : Nat
deriving DecidableEq

/-- The queue of a partition (accumulator.rs:38-57), the next `BatchMetadata` to be created, and the
batches taken out by flushes so far, in order. -/
structure Acc where
  queue : List PBatch
  nextId : Nat
  sent : List PBatch
deriving DecidableEq

def Acc.init : Acc := ⟨[], 0, []⟩

/-- `PushRecord`: batch and position in it (record.rs:107-160), or the error. -/
inductive PushRes where
  | ok (batch offset : Nat)
  | tooLarge
  | timeout
  | attempts
deriving DecidableEq

/-- `create_and_new_batch` — accumulator.rs:181-232 (at most two attempts); the batch is created at
`now` and the record added at `now'`. -/
def createAndNewBatch (c : AccCfg) (r : Record) (now now' : Int) : Nat → Acc → Acc × PushRes
  | 0, a => (a, .attempts)
  | k + 1, a =>
    match (MemoryBatch.new c.maxRequest c.batchSize c.compression now).push r now' with
    | (m, .added off) =>
      ({ a with queue := a.queue ++ [⟨a.nextId, m⟩], nextId := a.nextId + 1 }, .ok a.nextId off)
    | (m, .notAdded) =>
      createAndNewBatch c r now now' k { a with queue := a.queue ++ [⟨a.nextId, m⟩], nextId := a.nextId + 1 }
    | (_, .tooLarge) => ({ a with nextId := a.nextId + 1 }, .tooLarge)

/-- The queue with its last batch replaced. -/
def setLast (q : List PBatch) (m : MemoryBatch) : List PBatch :=
  match q.getLast? with
  | none => q
  | some b => q.dropLast ++ [{ b with mem := m }]

/-- `RecordAccumulator::push_record` — accumulator.rs:103-160, once there is space in the queue;
`now`, `now'` are the successive clock readings. -/
def Acc.push (c : AccCfg) (a : Acc) (r : Record) (now now' : Int) : Acc × PushRes :=
  match a.queue.getLast? with
  | none => createAndNewBatch c r now now' 2 a
  | some b =>
    match b.mem.push r now with
    | (m, .added off) => ({ a with queue := setLast a.queue m }, .ok b.id off)
    | (m, .notAdded) => createAndNewBatch c r now now' 2 { a with queue := setLast a.queue m }
    | (m, .tooLarge) => ({ a with queue := setLast a.queue m }, .tooLarge)

/-- The batches at the front of the queue that a flush takes: all if forced, else while the front one
is full or has waited long enough — partition_producer.rs:170-188 -/
def takeReady (force : Bool) (linger : Int) (now : Int) : List PBatch → List PBatch × List PBatch
  | [] => ([], [])
  | b :: q =>
    if force || b.mem.isFull || decide (linger ≤ b.mem.elapsed now) then
      let (t, rest) := takeReady force linger now q
      (b :: t, rest)
    else ([], b :: q)

/-- first part of `flush` — partition_producer.rs:167-188 -/
def Acc.drain (a : Acc) (force : Bool) (linger now : Int) : Acc × List PBatch :=
  let (t, rest) := takeReady force linger now a.queue
  ({ a with queue := rest, sent := a.sent ++ t }, t)

inductive AccEv where
  | push (r : Record) (now now' : Int)
  /-- no space in the queue in time — accumulator.rs:162-179 -/
  | pushTimeout (r : Record)
  | flush (force : Bool) (linger now : Int)

def Acc.step (c : AccCfg) (a : Acc) : AccEv → Acc × Option (Record × PushRes)
  | .push r now now' => let (a', x) := a.push c r now now'; (a', some (r, x))
  | .pushTimeout r => (a, some (r, .timeout))
  | .flush f l now => ((a.drain f l now).1, none)

/-- A sequence of events; the answers to the pushes in order. -/
def Acc.run (c : AccCfg) : Acc → List AccEv → Acc × List (Record × PushRes)
  | a, [] => (a, [])
  | a, e :: evs =>
    let (a', o) := a.step c e
    let (a'', os) := Acc.run c a' evs
    (a'', o.toList ++ os)

end Verif.Producer
