import Verif.Storage.Segment

/-!
# A partition replica on disk (`fluvio-storage/src/{replica,segments,cleaner,checkpoint}.rs`)

`Op` is the interface of the replica: writes, watermark updates, the two cleaners, reopening after a
shutdown or crash.  Operations are atomic (writers hold the storage lock, produce and follower code
alike: fluvio-spu/src/storage/mod.rs:120-160; the cleaner takes the segment lock for each removal, and
its size bookkeeping is not modelled as racing with writes).
-/

namespace Verif.Storage
open Verif.Wire (Bytes)

variable {α : Type}

/-- `FileReplica` — replica.rs:36-56.  `prev` is the `BTreeMap` of closed segments in key order. -/
structure Replica (α : Type) where
  prev : List (Segment α)
  active : Segment α
  hw : Int
  sizePrev : Nat
  sizeActive : Nat
  short : Bool

/-- A new, empty partition — replica.rs:216-301 with no files (base offset 0, replica.rs:62-75). -/
def Replica.init : Replica α := ⟨[], Segment.create 0, 0, 0, 0, false⟩

/-- `get_leo` — replica.rs:84-88 -/
def Replica.leo (r : Replica α) : Int := r.active.endOff

/-- `update_min_max` — segments.rs:196-212: (min, max) -/
def minMax (l : List (Segment α)) : Int × Int :=
  l.foldl (fun mm s =>
    (if mm.1 < 0 ∨ s.base < mm.1 then s.base else mm.1, if mm.2 < s.endOff then s.endOff else mm.2))
    (-1, 0)

/-- `get_log_start_offset` — replica.rs:90-97 -/
def Replica.logStart (r : Replica α) : Int :=
  if (minMax r.prev).1 < 0 then r.active.base else (minMax r.prev).1

/-- `SegmentList::find_segment` — segments.rs:229-246 (`range(..).next_back()` on the ordered map) -/
def findSegment (l : List (Segment α)) (off : Int) : Option (Segment α) :=
  if off < (minMax l).1 then none
  else if off = (minMax l).1 then (l.filter fun s => decide (s.base = off)).getLast?
  else if (minMax l).2 ≤ off then none
  else (l.filter fun s => decide (off - (minMax l).2 + (minMax l).1 + 1 ≤ s.base ∧ s.base ≤ off)).getLast?

/-- `add_segment` (`BTreeMap::insert`) of a segment that lies after all others — segments.rs:112-116,
184-194 -/
def addSegment (l : List (Segment α)) (s : Segment α) : List (Segment α) :=
  l.filter (fun t => decide (t.base < s.base)) ++ [s] ++ l.filter (fun t => decide (s.base < t.base))

/-- `roll_over` — replica.rs:459-474 -/
def Replica.rollOver (r : Replica α) : Replica α :=
  { r with
    prev := addSegment r.prev r.active.close
    active := Segment.create r.active.endOff
    sizePrev := r.sizePrev + r.active.close.occupiedClosed }

/-- `FileReplica::write_batch` — replica.rs:406-452.  A panic unwinds without setting the short-circuit
flag. -/
def Replica.writeBatch (c : Cfg) (ioOk : Bool) (r : Replica α) (b : SBatch α) :
    Replica α × Except StErr Unit :=
  if r.short then (r, .error .shortCircuited)
  else
    match r.active.append c ioOk b with
    | .ok (true, s) => ({ r with active := s, sizeActive := s.occupied }, .ok ())
    | .ok (false, _) =>
      let r' := r.rollOver
      match r'.active.append c ioOk b with
      | .ok (true, s) => ({ r' with active := s, sizeActive := s.occupied }, .ok ())
      | .ok (false, _) => ({ r' with short := true }, .error .other)
      | .error .panic => (r', .error .panic)
      | .error e => ({ r' with short := true }, .error e)
    | .error .panic => (r, .error .panic)
    | .error e => ({ r with short := true }, .error e)

/-- The loop over the batches — replica.rs:154-156; `ioFail = some k`: the file write of batch `k`
fails. -/
def Replica.writeBatches (c : Cfg) : Option Nat → Replica α → List (SBatch α) →
    Replica α × Except StErr Unit
  | _, r, [] => (r, .ok ())
  | f, r, b :: bs =>
    match r.writeBatch c (decide (f ≠ some 0)) b with
    | (r', .ok ()) => Replica.writeBatches c (f.map (· - 1)) r' bs
    | (r', .error e) => (r', .error e)

/-- The size checks before anything is written — replica.rs:139-152 -/
def checkSizes (c : Cfg) : List (SBatch α) → Except StErr Unit
  | [] => .ok ()
  | b :: bs =>
    if c.segMax < b.size then .error .batchExceededSegment
    else if c.reqMax < b.size then .error .batchTooBig
    else checkSizes c bs

/-- `update_high_watermark` — replica.rs:169-188 (no check that the new value is larger or within the
log) -/
def Replica.updateHw (r : Replica α) (o : Int) : Replica α := { r with hw := o }

/-- `write_recordset` — replica.rs:134-164, with the offsets reported by
`SharableReplicaStorage::write_record_set` — fluvio-spu/src/storage/mod.rs:125-165:
`(base offset, end offset, bytes)`. -/
def Replica.write (c : Cfg) (r : Replica α) (set : List (SBatch α)) (hwUpdate : Bool)
    (ioFail : Option Nat) : Replica α × Except StErr (Int × Int × Nat) :=
  match checkSizes c set with
  | .error e => (r, .error e)
  | .ok () =>
    match r.writeBatches c ioFail set with
    | (r', .error e) => (r', .error e)
    | (r', .ok ()) =>
      let r'' := if hwUpdate then r'.updateHw r'.leo else r'
      (r'', .ok (r.leo, r''.leo, (set.map SBatch.size).sum))

/-- Result of `read_partition_slice`: log start, watermark, log end, bytes of the file slice. -/
structure ReadRes where
  start : Int
  hw : Int
  leo : Int
  data : Option Bytes
deriving DecidableEq

/-- `read_records` — replica.rs:339-403 -/
def Replica.read (r : Replica α) (start : Int) (max : Option Int) (maxLen : Nat) :
    Except StErr ReadRes :=
  let res : Option Bytes → ReadRes := fun d => ⟨r.logStart, r.hw, r.leo, d⟩
  if r.active.base ≤ start then
    if start = r.leo then .ok (res none)
    else if r.leo < start then .error .other
    else
      match r.active.slice false start max with
      | .error e => .error e
      | .ok none => .error .other
      | .ok (some (pos, len)) => .ok (res (some (r.active.bytesAt pos (min len maxLen))))
  else
    match findSegment r.prev start with
    | none => .error (.evicted r.logStart)
    | some s =>
      match s.slice true start max with
      | .error e => .error e
      | .ok none => .error .other
      | .ok (some (pos, len)) => .ok (res (some (s.bytesAt pos (min len maxLen))))

/-- `Isolation` — fluvio-spu-schema/src/isolation.rs -/
inductive Isolation where
  | committed
  | uncommitted
deriving DecidableEq

/-- `read_partition_slice` — replica.rs:102-117 -/
def Replica.readPartition (r : Replica α) (start : Int) (maxLen : Nat) : Isolation → Except StErr ReadRes
  | .committed => r.read start (some r.hw) maxLen
  | .uncommitted => r.read start none maxLen

/-! ## Cleaning — cleaner.rs:85-133 -/

/-- `remove_segments` — segments.rs:118-125, 142-155, 214-222 -/
def removeSegments (l : List (Segment α)) (bases : List Int) : List (Segment α) :=
  l.filter fun s => decide (s.base ∉ bases)

/-- `SegmentList::occupied_memory` — segments.rs:178-183 -/
def occupiedPrev (l : List (Segment α)) : Nat := (l.map Segment.occupiedClosed).sum

/-- `enforce_size` — cleaner.rs:85-111 -/
def Replica.cleanSize (c : Cfg) (r : Replica α) : Replica α :=
  let excess := (r.sizePrev + r.sizeActive) - c.partMax
  if 0 < excess then
    let count := excess / c.segMax + if 0 < excess % c.segMax then 1 else 0
    let prev := removeSegments r.prev ((r.prev.map Segment.base).take count)
    { r with prev := prev, sizePrev := occupiedPrev prev }
  else r

/-- `enforce_ttl` — cleaner.rs:114-133; `expired` says, by base offset, which log files are older than
the retention period. -/
def Replica.cleanTtl (expired : Int → Bool) (r : Replica α) : Replica α :=
  let gone := (r.prev.filter fun s => expired s.base).map Segment.base
  if gone = [] then r
  else
    let prev := removeSegments r.prev gone
    { r with prev := prev, sizePrev := occupiedPrev prev }

/-! ## Reopening -/

/-- State of the checkpoint file found when reopening — checkpoint.rs:57-101 -/
inductive ChkFile where
  | missing
  | unreadable
  | value (v : Int)

/-- `CheckPoint::create` — checkpoint.rs:57-101 -/
def readCheckpoint (chk : ChkFile) (initial : Int) : Int :=
  match chk with
  | .missing => initial
  | .unreadable => 0
  | .value v => v

/-- `LogValidator::leo` — validator.rs:213-220, on the batches found in a log file -/
def validatedLeo (base : Int) (file : List (Stored α)) : Int :=
  match file.getLast? with
  | none => base
  | some b => if b.last = -1 then base else b.last + 1

/-- `Segment::open_unknown` — segment.rs:258-291 -/
def Segment.openUnknown (s : Segment α) : Segment α :=
  { s with endOff := validatedLeo s.base s.file, ix := s.ix.close }

/-- `open_for_write` and `validate_and_repair` — segment.rs:325-347, 354-381 (the byte-level repair is
in `Verif.Storage.Recovery`) -/
def Segment.openForWrite (c : Cfg) (s : Segment α) : Option (Segment α) :=
  (s.ix.reopen c.ix).map fun ix => { s with endOff := validatedLeo s.base s.file, ix := ix }

/-- `create_or_load_inner` on existing files — replica.rs:216-301, segments.rs:40-93; `none`: opening
fails.  (Note that only the active segment's size is counted.) -/
def Replica.reopen (c : Cfg) (chk : ChkFile) (r : Replica α) : Option (Replica α) :=
  (r.active.openForWrite c).map fun a =>
    let hw := readCheckpoint chk a.base
    { prev := r.prev.map Segment.openUnknown
      active := a
      hw := if a.endOff < hw then a.endOff else hw
      sizePrev := 0
      sizeActive := a.occupied
      short := false }

/-! ## Histories -/

inductive Op (α : Type) where
  | write (set : List (SBatch α)) (hwUpdate : Bool) (ioFail : Option Nat)
  | updateHw (o : Int)
  | cleanSize
  | cleanTtl (expired : Int → Bool)
  | reopen (chk : ChkFile)

inductive Result where
  /-- base offset, end offset, bytes -/
  | wrote (base leo : Int) (bytes : Nat)
  | failed
  | done
deriving DecidableEq

def Replica.step (c : Cfg) (r : Replica α) : Op α → Replica α × Result
  | .write set u f =>
    match r.write c set u f with
    | (r', .ok (b, l, n)) => (r', .wrote b l n)
    | (r', .error _) => (r', .failed)
  | .updateHw o => (r.updateHw o, .done)
  | .cleanSize => (r.cleanSize c, .done)
  | .cleanTtl e => (r.cleanTtl e, .done)
  | .reopen chk =>
    match r.reopen c chk with
    | some r' => (r', .done)
    | none => (r, .failed)

def Replica.run (c : Cfg) : Replica α → List (Op α) → Replica α × List Result
  | r, [] => (r, [])
  | r, op :: ops =>
    let (r', x) := r.step c op
    let (r'', xs) := Replica.run c r' ops
    (r'', x :: xs)

/-- All batches on disk, oldest first. -/
def Replica.batches (r : Replica α) : List (Stored α) := r.prev.flatMap Segment.file ++ r.active.file

end Verif.Storage
