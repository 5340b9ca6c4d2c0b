import Verif.Storage.Reader

/-!
# A consumer stream (`fluvio-spu/src/services/public/stream_fetch.rs`, `fluvio/src/consumer/mod.rs`)

One stream without SmartModule: the partition, the server task, the two offset publishers it listens to
(the leader's, and the one into which the acknowledgements of this consumer are written), the connection
in both directions and the client.  Everything happens in any order.

Not modelled: the metrics, the reaction to closed sockets (the stream just stops), removal of the
partition, and the loss of an acknowledgement when the client's channel to its sending task is full
(consumer/mod.rs:569, capacity 100, while at most one acknowledgement is under way).
-/

namespace Verif.Stream
open Verif.Wire (Bytes)
open Verif.Storage

variable {α : Type}

/-- `OffsetInfo::isolation` — fluvio-storage/src/lib.rs:67-73: up to where the stream may read -/
def readEnd (iso : Isolation) (r : Replica α) : Int :=
  match iso with
  | .committed => r.hw
  | .uncommitted => r.leo

/-- The parameters of the request: isolation, `max_bytes`, `fetch_offset` — stream_fetch.rs:160-173. -/
structure Req where
  iso : Isolation
  maxBytes : Nat
  start : Int

structure Conn (α : Type) where
  r : Replica α
  /-- `last_partition_offset`, `last_known_consumer_offset` — stream_fetch.rs:225, 232 -/
  last : Int
  known : Option Int
  /-- the loop has been left -/
  ended : Bool
  /-- value of the leader's publisher, and the value this task's listener returned last -/
  pubEnd : Int
  seenEnd : Int
  /-- the same for the publisher of the acknowledgements -/
  ackPub : Int
  ackSeen : Int
  /-- responses on their way to the client -/
  wire : List Bytes
  /-- acknowledgements on their way to the server -/
  acks : List Int
  /-- what the application received -/
  got : List (Int × α)
  /-- for the statements: all responses sent, and the number of acknowledgements that arrived -/
  sent : List Bytes
  arrived : Nat

/-- `send_back_records` without SmartModule, with the assignments made from its result —
stream_fetch.rs:350-472, 225-233, 279-291, 321-336.  A read error ends the stream. -/
def Conn.send (q : Req) (s : Conn α) (o : Int) : Conn α :=
  match s.r.readPartition o q.maxBytes q.iso with
  | .error _ => { s with ended := true }
  | .ok ⟨_, _, _, some (x :: bs)⟩ =>
    { s with last := readEnd q.iso s.r, known := none, wire := s.wire ++ [x :: bs],
             sent := s.sent ++ [x :: bs] }
  | .ok _ => { s with last := o, known := some o }

/-- A new stream: the publisher of the acknowledgements holds `INIT_OFFSET` = −1 (603-654), and listeners
start at 0 (fluvio-types/src/event.rs:131-136). `pub` is the current value of the leader's publisher. -/
def Conn.new (r : Replica α) (pub : Int) : Conn α :=
  ⟨r, 0, none, false, pub, 0, -1, 0, [], [], [], [], 0⟩

/-- `process` up to the loop — stream_fetch.rs:220-233 -/
def Conn.start (q : Req) (r : Replica α) (pub : Int) : Conn α := (Conn.new r pub).send q q.start

inductive StEv (α : Type) where
  /-- something happens to the partition -/
  | op (o : Op α)
  /-- the writer publishes the new end — fluvio-spu/src/storage/mod.rs:121-165 -/
  | publish
  /-- the leader listener of the stream returns -/
  | leader
  /-- the listener for acknowledgements returns -/
  | consumer
  /-- the client receives a response -/
  | receive
  /-- an acknowledgement reaches the server -/
  | ack
  /-- end event, topic deletion, socket error -/
  | stop

/-- The branch of the loop for a leader update — stream_fetch.rs:295-337 -/
def Conn.onLeader (q : Req) (s : Conn α) : Conn α :=
  if s.ended then s
  else
    let s := { s with seenEnd := s.pubEnd }
    match s.known with
    | none => { s with last := s.pubEnd }
    | some k => if s.pubEnd ≤ k then { s with last := s.pubEnd } else s.send q k

/-- The branch for an acknowledgement — stream_fetch.rs:252-292 -/
def Conn.onConsumer (q : Req) (s : Conn α) : Conn α :=
  if s.ended then s
  else
    let s := { s with ackSeen := s.ackPub }
    if s.ackPub = -1 then s
    else if s.last ≤ s.ackPub then { s with known := some s.ackPub }
    else s.send q s.ackPub

/-- The client: records before the start offset are dropped (consumer/mod.rs:625-637), the offset behind
the last batch is acknowledged (mod.rs:553-572). -/
def Conn.onReceive (parse : Parser α) (q : Req) (s : Conn α) : Conn α :=
  match s.wire with
  | [] => s
  | bs :: w =>
    let p := parse q.start bs
    { s with wire := w, got := s.got ++ p.1, acks := s.acks ++ p.2.toList }

/-- `handle_offset_update` — fluvio-spu/src/services/public/offset_update.rs:12-54 -/
def Conn.onAck (s : Conn α) : Conn α :=
  match s.acks with
  | [] => s
  | u :: a => { s with acks := a, ackPub := u, arrived := s.arrived + 1 }

def Conn.step (parse : Parser α) (c : Cfg) (q : Req) (s : Conn α) : StEv α → Conn α
  | .op o => { s with r := (s.r.step c o).1 }
  | .publish => { s with pubEnd := readEnd q.iso s.r }
  | .leader => s.onLeader q
  | .consumer => s.onConsumer q
  | .receive => s.onReceive parse q
  | .ack => s.onAck
  | .stop => { s with ended := true }

def Conn.run (parse : Parser α) (c : Cfg) (q : Req) (s : Conn α) (es : List (StEv α)) : Conn α :=
  es.foldl (Conn.step parse c q) s

/-- What may happen to a partition while its leader serves it, apart from retention: writes of batches
with property `P`, and the watermark rises (C20). -/
def LiveOp (P : SBatch α → Prop) (r : Replica α) : Op α → Prop
  | .write set _ _ => ∀ b ∈ set, HonestBatch b ∧ P b
  | .updateHw o => r.hw ≤ o ∧ o ≤ r.leo
  | _ => False

/-- Such operations only, and no late notifications: the listener for acknowledgements returns only
values it has not returned before (the leader listener may return whenever it likes). -/
def StEv.Timely (P : SBatch α → Prop) (s : Conn α) : StEv α → Prop
  | .op o => LiveOp P s.r o
  | .consumer => s.ackPub ≠ s.ackSeen
  | _ => True

def TimelyAll (parse : Parser α) (c : Cfg) (q : Req) (P : SBatch α → Prop) : Conn α → List (StEv α) → Prop
  | _, [] => True
  | s, e :: es => e.Timely P s ∧ TimelyAll parse c q P (s.step parse c q e) es

end Verif.Stream
