/-!
# Requests and streams sharing a connection (`fluvio-socket/src/multiplexing.rs`)

A transition system.  Calls are numbered by the order in which they obtain their correlation id; the
state of the dispatcher includes whether it is waiting, with the lock on the table of senders held.
-/

namespace Verif.Net.Mux

/-- the bytes of a response, opaque -/
abbrev Payload := Nat

/-- `send_and_receive` (128) or `create_stream` with a queue length (232) -/
inductive Kind where
  | serial
  | queue (cap : Nat)
deriving DecidableEq

/-- how far a call has got: id obtained; entered in the table; listener set up (`send_and_receive`
only, 158); request written to the socket; finished -/
inductive Phase where
  | allocated | registered | listening | waiting | done
deriving DecidableEq

/-- one call: a slot and an event (`SharedMsg`, 45) or a bounded channel, and what the caller was given
so far (`none`: an error) -/
structure Call where
  id : Nat
  kind : Kind
  phase : Phase
  slot : Option Payload := none
  notified : Bool := false
  queue : List (Option Payload) := []
  closed : Bool := false
  out : List (Option Payload) := []
deriving DecidableEq

/-- the dispatcher task: waiting for a frame; waiting for room in the queue of a call, inside `send`,
with the table locked (484); inside `close`, with the table locked (508-522); ended -/
inductive Mode where
  | running
  | blocked (h : Nat) (p : Payload)
  | closing (rest : List Nat)
  | finished
deriving DecidableEq

/-- `MultiplexerSocket` with its dispatcher.  `senders` maps correlation ids to calls.  The counter is
an `AtomicI32`, whose `fetch_add` wraps; negative ids are represented by their residue modulo 2^32. -/
structure State where
  counter : Nat
  calls : List Call
  senders : List (Nat × Nat)
  mode : Mode
deriving DecidableEq

/-- `MultiplexerSocket::new` — multiplexing.rs:86-109 -/
def State.init : State := ⟨1, [], [], .running⟩

/-- what can happen -/
inductive Event where
  /-- `next_correlation_id` — 120-122 -/
  | begin (kind : Kind)
  /-- entering the table — 149-152, 249-261 -/
  | register (h : Nat)
  /-- `msg_event.listen()` — 156 -/
  | listen (h : Nat)
  /-- `sink.send_request` succeeded or failed — 159, 265 -/
  | sent (h : Nat)
  | sendFailed (h : Nat)
  /-- a frame arrives at the dispatcher — 404-416, 455-506 -/
  | frame (id : Nat) (p : Payload)
  /-- the dispatcher continues after waiting for room — 484-492 -/
  | resume
  /-- the caller wakes up and takes its response, or takes the next message of its stream —
  182-213, 293-317; the end of a closed, empty stream is not an event -/
  | take (h : Nat)
  /-- the time limit of `send_and_receive` — 164-180 -/
  | timeout (h : Nat)
  /-- the caller gives up: the future or the stream is dropped — 285-290 -/
  | drop (h : Nat)
  /-- the connection ends or breaks — 418-427 -/
  | eof
  /-- `close` reaches call `h`, in any order — 512-519 -/
  | closeStep (h : Nat)
  /-- `close` is done -/
  | closeDone
  /-- the socket is dropped and the dispatcher notices — 431-447 -/
  | terminate
deriving DecidableEq

/-- nobody holds the lock on the table -/
def State.free (s : State) : Bool :=
  match s.mode with
  | .running | .finished => true
  | _ => false

/-- change call `h` -/
def State.upd (s : State) (h : Nat) (f : Call → Call) : State :=
  { s with calls := s.calls.modify h f }

/-- `HashMap::remove` -/
def remove (senders : List (Nat × Nat)) (id : Nat) : List (Nat × Nat) := senders.filter fun e => e.1 != id

/-- `HashMap::insert` -/
def insert (senders : List (Nat × Nat)) (id h : Nat) : List (Nat × Nat) := (id, h) :: remove senders id

/-- `HashMap::get` -/
def lookup (senders : List (Nat × Nat)) (id : Nat) : Option Nat :=
  (senders.find? fun e => e.1 == id).map (·.2)

/-- the entries kept by `retain` — 253-256 -/
def retained (s : State) : List (Nat × Nat) :=
  s.senders.filter fun e =>
    match s.calls[e.2]? with
    | some c => !(c.kind != .serial && c.closed)
    | none => true

/-- `notify(1)`: wakes a listener if there is one -/
def Call.notify (c : Call) : Call :=
  { c with notified := c.notified || c.phase == .listening || c.phase == .waiting }

/-- the channel has room -/
def Call.room (c : Call) : Bool :=
  match c.kind with
  | .serial => false
  | .queue cap => c.queue.length < cap

/-- `send` — multiplexing.rs:455-506.  `try_lock` on a slot never fails: callers lock it only after
removing their entry, under the lock of the table. -/
def State.deliver (s : State) (id : Nat) (p : Payload) : State :=
  match lookup s.senders id with
  | none => s
  | some h =>
    match s.calls[h]? with
    | none => s
    | some c =>
      match c.kind with
      | .serial => s.upd h fun c => { c with slot := some p }.notify
      | .queue _ =>
        if c.closed then s
        else if c.room then s.upd h fun c => { c with queue := c.queue ++ [some p] }
        else { s with mode := .blocked h p }

/-- closing one sender in `close` — 512-519; `none` while the channel is full -/
def Call.close (c : Call) : Option Call :=
  match c.kind with
  | .serial => some { c with slot := none }.notify
  | .queue _ =>
    if c.closed then some c
    else if c.room then some { c with queue := c.queue ++ [none] }
    else none

/-- closing one sender when the socket was dropped — 434-443 -/
def Call.terminate (c : Call) : Call :=
  match c.kind with
  | .serial => { c with slot := none }.notify
  | .queue _ => { c with closed := true }

/-- One step; `none` if the event cannot happen now. -/
def step (s : State) : Event → Option State
  | .begin k =>
    if k = .queue 0 then none  -- `bounded(0)` panics
    else some { s with
      counter := (s.counter + 1) % 2 ^ 32
      calls := s.calls ++ [{ id := s.counter, kind := k, phase := .allocated }] }
  | .register h =>
    match s.calls[h]? with
    | some c =>
      if s.free ∧ c.phase = .allocated then
        match c.kind with
        | .serial => some ({ s with senders := insert s.senders c.id h }.upd h fun c => { c with phase := .registered })
        | .queue _ =>
          some ({ s with senders := insert (retained s) c.id h }.upd h fun c => { c with phase := .registered })
      else none
    | none => none
  | .listen h =>
    match s.calls[h]? with
    | some c =>
      if c.kind = .serial ∧ c.phase = .registered then some (s.upd h fun c => { c with phase := .listening })
      else none
    | none => none
  | .sent h =>
    match s.calls[h]? with
    | some c =>
      if (c.kind = .serial ∧ c.phase = .listening) ∨ (c.kind ≠ .serial ∧ c.phase = .registered) then
        some (s.upd h fun c => { c with phase := .waiting })
      else none
    | none => none
  | .sendFailed h =>
    match s.calls[h]? with
    | some c =>
      if c.kind = .serial ∧ c.phase = .listening then
        some (s.upd h fun c => { c with phase := .done, out := [none] })
      else if c.kind ≠ .serial ∧ c.phase = .registered then
        some (s.upd h fun c => { c with phase := .done, closed := true })
      else none
    | none => none
  | .frame id p => if s.mode = .running then some (s.deliver id p) else none
  | .resume =>
    match s.mode with
    | .blocked h p =>
      match s.calls[h]? with
      | some c =>
        if c.closed then some { s with mode := .running }
        else if c.room then
          some ({ s with mode := .running }.upd h fun c => { c with queue := c.queue ++ [some p] })
        else none
      | none => none
    | _ => none
  | .take h =>
    match s.calls[h]? with
    | some c =>
      if c.phase = .waiting then
        match c.kind with
        | .serial =>
          if s.free ∧ c.notified then
            some ({ s with senders := remove s.senders c.id }.upd h fun c =>
              { c with phase := .done, out := [c.slot] })
          else none
        | .queue _ =>
          match c.queue with
          | [] => none
          | x :: rest => some (s.upd h fun c => { c with queue := rest, out := c.out ++ [x] })
      else none
    | none => none
  | .timeout h =>
    match s.calls[h]? with
    | some c =>
      if c.kind = .serial ∧ c.phase = .waiting ∧ s.free then
        some ({ s with senders := remove s.senders c.id }.upd h fun c => { c with phase := .done, out := [none] })
      else none
    | none => none
  | .drop h =>
    match s.calls[h]? with
    | some c => if c.phase = .done then none else some (s.upd h fun c => { c with phase := .done, closed := true })
    | none => none
  | .eof => if s.mode = .running then some { s with mode := .closing (s.senders.map (·.2)) } else none
  | .closeStep h =>
    match s.mode with
    | .closing rest =>
      if rest.contains h then
        match s.calls[h]? with
        | some c =>
          match c.close with
          | some c' => some { s.upd h (fun _ => c') with mode := .closing (rest.erase h) }
          | none => none
        | none => none
      else none
    | _ => none
  | .closeDone => if s.mode = .closing [] then some { s with mode := .finished } else none
  | .terminate =>
    if s.mode = .running then
      some { s with
        calls := s.calls.mapIdx fun h c => if s.senders.any (fun e => e.2 == h) then c.terminate else c
        mode := .finished }
    else none

/-- `Reach evs s`: the events `evs` can happen, in this order, and lead to `s` -/
inductive Reach : List Event → State → Prop where
  | init : Reach [] State.init
  | snoc {evs : List Event} {e : Event} {s s' : State} : Reach evs s → step s e = some s' → Reach (evs ++ [e]) s'

end Verif.Net.Mux
