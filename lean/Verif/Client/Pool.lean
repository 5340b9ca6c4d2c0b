/-!
# The client's connections to brokers

Models `crates/fluvio/src/spu.rs` (`SpuSocketPool`); the brokers' own `LeaderConnections`
(`crates/fluvio-spu/src/core/leader_client.rs:20-130`) is written the same way.

Simplifications: the client's metadata is a pair of maps that can change at any time (its convergence is C36);
a connection is a number together with the broker and address it was made for and whether it is *stale* (its
reader has ended, `fluvio-socket/src/multiplexing.rs:113-119, 508-509`); TLS names and versions are left out.
-/

namespace Verif.Client.Pool

/-- What the client knows of a broker: its public address and its local one (`SpuSpec`). -/
structure Spu where
  addr : String
  localAddr : Option String
deriving DecidableEq, Repr

/-- The client's view of the cluster: the leader of each partition, and the brokers. -/
structure Meta (K : Type) where
  leader : K → Option Int
  spu : Int → Option Spu

/-- A connection: broker, address, and whether it has ended. -/
structure Sock where
  spu : Int
  addr : String
  stale : Bool
deriving DecidableEq, Repr

/-- `create_serial_socket` or `create_stream_with_version`. -/
inductive Kind
  | serial
  | stream
deriving DecidableEq, Repr

/-- How far a call has got.  `waiting` for the lock of the pool, `connecting` with the lock held, or finished: with
a socket or a stream on a connection, or with an error. -/
inductive Phase
  | waiting (kind : Kind) (leader : Int)
  | connecting (kind : Kind) (leader : Int) (addr : String)
  | got (kind : Kind) (leader : Int) (conn : Nat)
  | failed
deriving DecidableEq, Repr

/-- The pool, its connections (numbered in order of creation), and the calls. -/
structure State (K : Type) where
  useLocal : Bool
  view : Meta K
  socks : List Sock
  pool : List (Int × Nat)
  calls : Nat → Option Phase
  lock : Option Nat

/-- `client_lock.get_mut(&leader_id)`. -/
def State.pooled {K : Type} (s : State K) (l : Int) : Option Nat := (s.pool.find? (·.1 = l)).map (·.2)

/-- Has connection `c` ended? -/
def State.stale {K : Type} (s : State K) (c : Nat) : Bool := ((s.socks[c]?).map (·.stale)).getD true

/-- The address to connect to, `connect_to_leader`, spu.rs:107-116. -/
def address (useLocal : Bool) (spu : Spu) : String :=
  match spu.localAddr with
  | some a => if useLocal then a else spu.addr
  | none => spu.addr

def State.setCall {K : Type} (s : State K) (i : Nat) (p : Phase) : State K :=
  { s with calls := fun j => if j = i then some p else s.calls j }

/-- What can happen.

* `view`: the client's view changes.
* `begin`: a call looks up the leader of its partition.
* `enter`: a call gets the lock and looks into the pool.
* `connected`: the attempt to connect of the call that has the lock ends; `ok` tells whether it succeeded, `streamOk`
  whether the stream could then be requested on the new connection.
* `broken`: a connection ends.
* `dropped`: a call is abandoned by its caller. -/
inductive Ev (K : Type)
  | view (m : Meta K)
  | begin (i : Nat) (kind : Kind) (k : K)
  | enter (i : Nat)
  | connected (i : Nat) (ok streamOk : Bool)
  | broken (c : Nat)
  | dropped (i : Nat)

/-- The start of a connection with the lock held, spu.rs:99-102: the broker must be known. -/
def State.connect {K : Type} (s : State K) (i : Nat) (kind : Kind) (l : Int) : State K :=
  match s.view.spu l with
  | some spu => { s.setCall i (.connecting kind l (address s.useLocal spu)) with lock := some i }
  | none => s.setCall i .failed

/-- One step.  `create_serial_socket` and `create_serial_socket_from_leader`, spu.rs:126-147, 175-187;
`create_stream_with_version`, spu.rs:195-225.  The lock is held while connecting. -/
def step {K : Type} (s : State K) : Ev K → State K
  | .view m => { s with view := m }
  | .begin i kind k =>
    match s.calls i with
    | none =>
      match s.view.leader k with
      | some l => s.setCall i (.waiting kind l)
      | none => s.setCall i .failed
    | some _ => s
  | .enter i =>
    match s.lock, s.calls i with
    | none, some (.waiting .serial l) =>
      match s.pooled l with
      | some c =>
        if s.stale c then ({ s with pool := s.pool.filter (·.1 ≠ l) } : State K).connect i .serial l
        else s.setCall i (.got .serial l c)
      | none => s.connect i .serial l
    | none, some (.waiting .stream l) =>
      match s.pooled l with
      | some c => s.setCall i (.got .stream l c)
      | none => s.connect i .stream l
    | _, _ => s
  | .connected i ok streamOk =>
    match s.calls i with
    | some (.connecting kind l a) =>
      if ok then
        let c := s.socks.length
        if kind = .stream ∧ streamOk = false then
          -- the connection is dropped, and with it ended
          { s.setCall i .failed with socks := s.socks ++ [⟨l, a, true⟩], lock := none }
        else
          { s.setCall i (.got kind l c) with
            socks := s.socks ++ [⟨l, a, false⟩], pool := (l, c) :: s.pool.filter (·.1 ≠ l), lock := none }
      else { s.setCall i .failed with lock := none }
    | _ => s
  | .broken c => { s with socks := s.socks.modify c fun x => { x with stale := true } }
  | .dropped i =>
    match s.calls i with
    | some (.waiting _ _) => s.setCall i .failed
    | some (.connecting _ _ _) => { s.setCall i .failed with lock := none }
    | _ => s

/-- A run. -/
def run {K : Type} (s : State K) : List (Ev K) → State K
  | [] => s
  | e :: es => run (step s e) es

/-- `SpuSocketPool::start`, spu.rs:89-97. -/
def init {K : Type} (useLocal : Bool) (m : Meta K) : State K := ⟨useLocal, m, [], [], fun _ => none, none⟩

end Verif.Client.Pool
