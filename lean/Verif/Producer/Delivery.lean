/-!
# How batches of one producer reach the log

Models the sending part of `crates/fluvio/src/producer/partition_producer.rs:167-323`, the retries of
`crates/fluvio-socket/src/versioned.rs:325-347`, the waiting of `crates/fluvio-socket/src/multiplexing.rs:125-213` and
the broker's handling of one request after the other per connection (`fluvio-spu/src/services/public/mod.rs`, the loop
over requests).

Simplifications: batches are numbers in the order in which the queue gave them out; a request is answered as a whole
(the broker stores all of its batches or none); batches of other producers in the log are left out.
-/

namespace Verif.Producer.Delivery

/-- A produce request: its batches and its correlation id. -/
structure Req where
  ids : List Nat
  tag : Nat
deriving DecidableEq, Repr

/-- The response to a request. -/
structure Resp where
  tag : Nat
  ids : List Nat
  ok : Bool
deriving DecidableEq, Repr

/-- A connection: requests sent but not handled by the broker, responses not yet read by the client, whether the client
has marked it stale, and whether nothing sent on it arrives any more. -/
structure Conn where
  sent : List Req
  resp : List Resp
  stale : Bool
  dead : Bool
deriving DecidableEq, Repr

/-- The task of the producer: idle, or waiting for the response with this tag. -/
inductive Phase
  | idle
  | waiting (ids : List Nat) (conn tag retries : Nat)
deriving DecidableEq, Repr

/-- Delivery semantic and number of retries (`DeliverySemantic`, `RetryPolicy`,
`fluvio/src/producer/config.rs:268-330`). -/
structure Cfg where
  atMostOnce : Bool
  retries : Nat

structure State where
  next : Nat
  nextTag : Nat
  conns : List Conn
  phase : Phase
  /-- the batches of this producer in the log, in order -/
  log : List Nat
  /-- batches whose sending was reported as successful -/
  told : List Nat
  /-- the groups of batches whose sending was reported as failed -/
  failed : List (List Nat)
deriving DecidableEq, Repr

def init : State := ⟨0, 0, [], .idle, [], [], []⟩

/-- What can happen.

* `flush n ok`: the task takes `n` batches from the queue and sends them; `ok = false`: sending fails.
* `serve c good`: the broker handles the next request of connection `c`: stores its batches or refuses them.
* `deliver c`: the next response of connection `c` reaches the client.
* `timeout`: no response in time or the connection is closed; the request is sent again if retries are left.
* `giveUp`: the overall time limit of the sending is over.
* `lose c k`: connection `c` breaks; all but the next `k` requests are lost, and so is all that follows.
* `notice c`: the client marks connection `c` as stale. -/
inductive Ev
  | flush (n : Nat) (ok : Bool)
  | serve (c : Nat) (good : Bool)
  | deliver (c : Nat)
  | timeout
  | giveUp
  | lose (c k : Nat)
  | notice (c : Nat)
deriving DecidableEq, Repr

/-- Sending on a connection. -/
def Conn.send (c : Conn) (r : Req) : Conn := if c.dead then c else { c with sent := c.sent ++ [r] }

/-- `connect_spu_with_reconnect`, partition_producer.rs:263-282, with the pool of C78: the last connection unless it
is stale. -/
def connect (conns : List Conn) : List Conn :=
  match conns.getLast? with
  | some c => if c.stale then conns ++ [⟨[], [], false, false⟩] else conns
  | none => [⟨[], [], false, false⟩]

/-- One step. -/
def step (cfg : Cfg) (s : State) : Ev → State
  | .flush n ok =>
    match s.phase with
    | .idle =>
      -- partition_producer.rs:167-187
      let conns := connect s.conns
      let c := conns.length - 1
      let ids := List.range' s.next n
      if ok then
        let conns' := conns.modify c (·.send ⟨ids, s.nextTag⟩)
        -- `send_async`, or `send_receive_with_retry`: partition_producer.rs:292-307
        { s with next := s.next + n, nextTag := s.nextTag + 1, conns := conns',
                 phase := if cfg.atMostOnce then .idle else .waiting ids c s.nextTag cfg.retries }
      else { s with next := s.next + n, conns := conns, failed := s.failed ++ [ids] }
    | .waiting .. => s
  | .serve c good =>
    match s.conns[c]? with
    | some ⟨r :: rest, resp, stale, dead⟩ =>
      { s with conns := s.conns.set c ⟨rest, resp ++ [⟨r.tag, r.ids, good⟩], stale, dead⟩,
               log := if good then s.log ++ r.ids else s.log }
    | _ => s
  | .deliver c =>
    match s.conns[c]? with
    | some ⟨sent, a :: rest, stale, dead⟩ =>
      let s' := { s with conns := s.conns.set c ⟨sent, rest, stale, dead⟩ }
      -- the response is for whoever waits for its correlation id
      if cfg.atMostOnce then
        if a.ok then { s' with told := s.told ++ a.ids } else { s' with failed := s.failed ++ [a.ids] }
      else
        match s.phase with
        | .waiting ids c' tag _ =>
          if c' = c ∧ a.tag = tag then
            if a.ok then { s' with phase := .idle, told := s.told ++ ids }
            else { s' with phase := .idle, failed := s.failed ++ [ids] }
          else s'
        | .idle => s'
    | _ => s
  | .timeout =>
    match s.phase with
    | .waiting ids c tag retries =>
      let conns := s.conns.modify c fun x => { x with stale := true }
      -- `retry_if`, versioned.rs:341-346: again on the same connection
      match retries with
      | 0 => { s with conns := conns, phase := .idle, failed := s.failed ++ [ids] }
      | k + 1 =>
        { s with conns := conns.modify c (·.send ⟨ids, s.nextTag⟩), nextTag := s.nextTag + 1,
                 phase := .waiting ids c s.nextTag k }
    | .idle => s
  | .giveUp =>
    match s.phase with
    | .waiting ids _ _ _ => { s with phase := .idle, failed := s.failed ++ [ids] }
    | .idle => s
  | .lose c k => { s with conns := s.conns.modify c fun x => { x with sent := x.sent.take k, dead := true } }
  | .notice c => { s with conns := s.conns.modify c fun x => { x with stale := true } }

/-- A run. -/
def run (cfg : Cfg) (s : State) : List Ev → State
  | [] => s
  | e :: es => run cfg (step cfg s e) es

end Verif.Producer.Delivery
