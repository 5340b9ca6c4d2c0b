import Verif.Producer.AccInv

/-!
# The producer's tasks and `flush` (`fluvio/src/producer/{mod,partition_producer,event,accumulator}.rs`)

Each partition has a task that takes batches out of the partition's queue and sends them.  It is woken by
counted events (`EventHandler`) and a timer; `flush()` of the producer wakes it and waits for its answer.
Any number of calls of `send` and `flush` run concurrently; the locks order them as in the code.
-/

namespace Verif.Producer
open Verif.Wire

/-! ## Events given by a push -/

/-- The `notify_batch_full` and `notify_new_batch` calls of `create_and_new_batch` —
accumulator.rs:181-232 -/
def createTokens (c : AccCfg) (r : Record) (now now' : Int) : Nat → Nat × Nat
  | 0 => (0, 0)
  | k + 1 =>
    match (MemoryBatch.new c.maxRequest c.batchSize c.compression now).push r now' with
    | (m, .added _) => (if m.isFull then 1 else 0, 1)
    | (m, .notAdded) =>
      let t := createTokens c r now now' k
      (t.1 + (if m.isFull then 1 else 0), t.2 + 1)
    | (_, .tooLarge) => (0, 0)

/-- The same of `push_record` — accumulator.rs:103-160: events for full and for new batches. -/
def Acc.pushTokens (c : AccCfg) (a : Acc) (r : Record) (now now' : Int) : Nat × Nat :=
  match a.queue.getLast? with
  | none => createTokens c r now now' 2
  | some b =>
    match b.mem.push r now with
    | (m, .added _) => (if m.isFull then 1 else 0, 0)
    | (m, .notAdded) =>
      let t := createTokens c r now now' 2
      (t.1 + (if m.isFull then 1 else 0), t.2)
    | (_, .tooLarge) => (0, 0)

/-! ## One partition -/

/-- Which branch of the `select!` started a flush — partition_producer.rs:98-142 -/
inductive Why where
  | manual
  | full
  | timer
deriving DecidableEq

/-- Where the partition's task is: in `select!`; in `flush` before the queue was drained
(`connect_spu_with_reconnect`, waiting for the lock); in `flush` with the drained batches. -/
inductive Phase where
  | idle
  | connecting (w : Why)
  | sending (w : Why) (bs : List PBatch)
deriving DecidableEq

/-- What became of a batch's `notify` channel: a response was put in
(partition_producer.rs:233-241), or it was dropped, so that `base_offset` fails (record.rs:73-105). -/
inductive Outcome where
  | told
  | lost
deriving DecidableEq

/-- One partition of a producer: its queue and events (accumulator.rs:40-43, 335-338), its task
(partition_producer.rs), its pair of flush events and its last error (mod.rs:72-76). -/
structure Part where
  acc : Acc
  /-- a push in progress, which holds the queue's write lock: the queue it leaves, and its result -/
  pushing : Option (Acc × Record × PushRes)
  /-- the results of the pushes so far -/
  out : List (Record × PushRes)
  /-- count of `batch_full` -/
  full : Nat
  /-- count of `new_batch` -/
  new : Nat
  /-- count of `flush_event.0` -/
  flushReq : Nat
  /-- count of `flush_event.1` -/
  flushed : Nat
  /-- deadline of `linger_sleep` on the monotonic clock -/
  timer : Option Int
  phase : Phase
  /-- `last_error` is set -/
  error : Bool
  /-- the batches whose channel was used or dropped -/
  done : List (Nat × Outcome)
deriving DecidableEq

def Part.init : Part := ⟨Acc.init, none, [], 0, 0, 0, 0, none, .idle, false, []⟩

/-- The monotonic clock of `sleep`, and how far the system clock (`Utc::now`, memory_batch.rs:27, 92-96)
is ahead of it. -/
structure Clock where
  mono : Int
  skew : Int
deriving DecidableEq

def Clock.wall (k : Clock) : Int := k.mono + k.skew

inductive TaskEv where
  | onFlush
  | onFull
  | onNew
  | onTimer
  | drain
  /-- the request was answered (at least once) or put on the connection (at most once); responses for
  the last `missing` batches are missing -/
  | answered (missing : Nat)
  /-- any error in `flush` after draining -/
  | failed
deriving DecidableEq

/-- After a flush: partition_producer.rs:104-141 -/
def Part.flushEnd (s : Part) (w : Why) : Part :=
  match w with
  | .manual => { s with flushed := s.flushed + 1, timer := none, phase := .idle }
  | .full => { s with phase := .idle }
  | .timer => { s with timer := none, phase := .idle }

/-- The batches that got a response, and those that did not: `zip` in partition_producer.rs:233-241 -/
def outcomes (bs : List PBatch) (missing : Nat) : List (Nat × Outcome) :=
  bs.zipIdx.map fun x => (x.1.id, if x.2 < bs.length - missing then .told else .lost)

/-- `run` and `flush` of the partition's task — partition_producer.rs:89-145, 162-262; `linger` in
milliseconds.  `none`: the task cannot do this now.

Simplifications: the end of the task when the producer is dropped is left out; `connect_spu_with_reconnect`
tries until it succeeds; the callback is left out. -/
def Part.task (linger : Nat) (k : Clock) (s : Part) : TaskEv → Option Part
  | .onFlush =>
    if s.phase = .idle ∧ s.flushReq > 0 then
      some { s with flushReq := s.flushReq - 1, phase := .connecting .manual }
    else none
  | .onFull =>
    if s.phase = .idle ∧ s.full > 0 then
      some { s with full := s.full - 1, phase := .connecting .full }
    else none
  | .onNew =>
    if s.phase = .idle ∧ s.new > 0 then
      some { s with new := s.new - 1, timer := some (k.mono + linger) }
    else none
  | .onTimer =>
    match s.timer with
    | none => none
    | some d => if s.phase = .idle ∧ d ≤ k.mono then some { s with phase := .connecting .timer } else none
  | .drain =>
    match s.phase, s.pushing with
    | .connecting w, none =>
      let r := s.acc.drain (w = .manual) linger k.wall
      some { s with acc := r.1, phase := .sending w r.2 }
    | _, _ => none
  | .answered missing =>
    match s.phase with
    | .sending w bs => some ({ s with done := s.done ++ outcomes bs missing }.flushEnd w)
    | _ => none
  | .failed =>
    match s.phase with
    | .sending w bs =>
      some ({ s with done := s.done ++ outcomes bs bs.length, error := true }.flushEnd w)
    | _ => none

/-- First part of `push_record` — mod.rs:265-303, accumulator.rs:103-160: with the queue locked, the
events are given before the new batch is in the queue.  Refused while `last_error` is set.  Simplification:
the events are given at once; waiting for space is left out. -/
def Part.pushStart (c : AccCfg) (s : Part) (r : Record) (now now' : Int) : Option Part :=
  if s.error then some s
  else
    match s.pushing with
    | some _ => none
    | none =>
      let x := s.acc.push c r now now'
      let t := s.acc.pushTokens c r now now'
      some { s with pushing := some (x.1, r, x.2), full := s.full + t.1, new := s.new + t.2 }

/-- The new batch is in the queue and the lock is released — accumulator.rs:206-211 -/
def Part.pushEnd (s : Part) : Option Part :=
  match s.pushing with
  | none => none
  | some (a, r, x) => some { s with acc := a, pushing := none, out := s.out ++ [(r, x)] }

/-! ## All partitions and the calls of `flush` -/

/-- A call of `flush()`: `flush_all_batches` (mod.rs:178-195) goes through the partitions with the zipped
maps; `todo` are the remaining pairs of partition to flush and partition whose error is read. -/
inductive Flusher where
  /-- before `manual_flush_notifier.notify()` for the first pair -/
  | next (todo : List (Nat × Nat))
  /-- waiting for `batch_flushed_event` of the first pair -/
  | waiting (todo : List (Nat × Nat))
  /-- about to read the error of the first pair -/
  | taken (todo : List (Nat × Nat))
  /-- returned, successfully or with an error -/
  | returned (ok : Bool)
  /-- dropped by its caller (for example by a timeout around it) -/
  | cancelled
deriving DecidableEq

def Flusher.active : Flusher → Bool
  | .returned _ => false
  | .cancelled => false
  | _ => true

structure Pool where
  clock : Clock
  /-- partitions with a task: keys of `flush_events` and of `errors` -/
  ids : List Nat
  part : Nat → Part
  calls : List Flusher

def Pool.init : Pool := ⟨⟨0, 0⟩, [], fun _ => Part.init, []⟩

structure PoolCfg where
  acc : AccCfg
  linger : Nat

inductive PoolEv where
  /-- `send` reaches the queue of partition `p`; clock readings `now`, `now'` -/
  | push (p : Nat) (r : Record) (now now' : Int)
  | pushEnd (p : Nat)
  | task (p : Nat) (e : TaskEv)
  /-- `flush()` with the orders in which the two hash maps are visited -/
  | flushStart (flushes errors : List Nat)
  | flushNotify (i : Nat)
  | flushTake (i : Nat)
  | flushCheck (i : Nat)
  | flushCancel (i : Nat)
  /-- `clear_errors()` -/
  | clearErrors
  | tick (d : Nat)
  /-- the system clock is adjusted -/
  | adjust (d : Int)
deriving DecidableEq

def setPart (f : Nat → Part) (p : Nat) (v : Part) : Nat → Part := fun q => if q = p then v else f q

/-- No push is in progress: the producer pool is not locked for writing. -/
def Pool.noPush (s : Pool) : Bool := s.ids.all fun p => (s.part p).pushing.isNone

/-- No `flush` is in progress: the producer pool is not locked for reading. -/
def Pool.noFlush (s : Pool) : Bool := s.calls.all fun f => !f.active

/-- Steps; `none`: not possible now.  `push_record` holds the write lock of the producer pool
(mod.rs:280-303), `flush` its read lock (mod.rs:257-260), from beginning to end. -/
def Pool.step (c : PoolCfg) (s : Pool) : PoolEv → Option Pool
  | .push p r now now' =>
    if s.noPush && s.noFlush && decide (now ≤ s.clock.wall) && decide (now' ≤ s.clock.wall) then
      ((s.part p).pushStart c.acc r now now').map fun v =>
        { s with ids := if p ∈ s.ids then s.ids else s.ids ++ [p], part := setPart s.part p v }
    else none
  | .pushEnd p => ((s.part p).pushEnd).map fun v => { s with part := setPart s.part p v }
  | .task p e =>
    if p ∈ s.ids then
      ((s.part p).task c.linger s.clock e).map fun v => { s with part := setPart s.part p v }
    else none
  | .flushStart fs es =>
    if s.noPush && fs.isPerm s.ids && es.isPerm s.ids then
      some { s with calls := s.calls ++ [if fs.isEmpty then .returned true else .next (fs.zip es)] }
    else none
  | .flushNotify i =>
    match s.calls[i]? with
    | some (.next ((p, q) :: l)) =>
      some { s with
        part := setPart s.part p { s.part p with flushReq := (s.part p).flushReq + 1 }
        calls := s.calls.set i (.waiting ((p, q) :: l)) }
    | _ => none
  | .flushTake i =>
    match s.calls[i]? with
    | some (.waiting ((p, q) :: l)) =>
      if (s.part p).flushed > 0 then
        some { s with
          part := setPart s.part p { s.part p with flushed := (s.part p).flushed - 1 }
          calls := s.calls.set i (.taken ((p, q) :: l)) }
      else none
    | _ => none
  | .flushCheck i =>
    match s.calls[i]? with
    | some (.taken ((_, q) :: l)) =>
      let f : Flusher :=
        if (s.part q).error then .returned false
        else if l.isEmpty then .returned true
        else .next l
      some { s with calls := s.calls.set i f }
    | _ => none
  | .flushCancel i =>
    match s.calls[i]? with
    | some f => if f.active then some { s with calls := s.calls.set i .cancelled } else none
    | none => none
  | .clearErrors =>
    if s.noPush then some { s with part := fun p => { s.part p with error := false } } else none
  | .tick d => some { s with clock := { s.clock with mono := s.clock.mono + d } }
  | .adjust d => some { s with clock := { s.clock with skew := s.clock.skew + d } }

def Pool.run (c : PoolCfg) : Pool → List PoolEv → Option Pool
  | s, [] => some s
  | s, e :: evs =>
    match s.step c e with
    | none => none
    | some s' => Pool.run c s' evs

end Verif.Producer
