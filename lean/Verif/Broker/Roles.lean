import Verif.Meta.Sync

/-!
# How a broker carries out its assignments

`fluvio-spu/src/core/global_context.rs` (module `file_replica`), the maps of led and followed replicas
(`replication/leader/leaders_state.rs`, `replication/follower/state.rs`), the controllers that follow a
leader (`FollowerGroups`, `replication/follower/controller.rs:23-73`), and the replicas' directories.

Not modelled: the deletion of the consumer offsets of a removed replica (see C25), the tasks themselves
(what a controller or a client request does with a replica it has got hold of).
-/

namespace Verif.Broker

open Verif.Meta

set_option linter.unusedSectionVars false

/-- `Replica` — fluvio-controlplane/src/replica.rs:17-30, without its id.  `conf` stands for `mirror`,
`cleanup_policy`, `storage`, `compression_type` and `deduplication`. -/
structure Assign where
  leader : Nat
  replicas : List Nat
  deleting : Bool
  conf : Nat
deriving DecidableEq

/-- `SpecChange` — fluvio-spu/src/core/store.rs:30-35 -/
inductive Change (K : Type) where
  | add (k : K) (new : Assign)
  | mod (k : K) (new old : Assign)
  | del (k : K) (old : Assign)
deriving DecidableEq

variable {K : Type} [DecidableEq K]

/-- What an update of one replica is reported as — store.rs:158-169, 208-218 -/
def putChange (s : BStore K Assign) (k : K) (a : Assign) : List (Change K) :=
  match s.get k with
  | some o => if o = a then [] else [.mod k a o]
  | none => [.add k a]

/-- What the removal of one replica is reported as — store.rs:173-182, 221-229 -/
def delChange (s : BStore K Assign) (k : K) : List (Change K) :=
  match s.get k with
  | some o => [.del k o]
  | none => []

/-- `apply_changes` with the actions it returns — store.rs:197-245 -/
def changesOf (s : BStore K Assign) : List (Upd K Assign) → List (Change K)
  | [] => []
  | .put k a :: l => putChange s k a ++ changesOf (s.insert k a) l
  | .del k :: l => delChange s k ++ changesOf (s.delete k) l

/-- the first loop of `sync_all` — store.rs:155-170 -/
def syncChanges (s : BStore K Assign) : List (K × Assign) → List (Change K)
  | [] => []
  | p :: l => putChange s p.1 p.2 ++ syncChanges (s.insert p.1 p.2) l

/-- its second loop — store.rs:173-182 -/
def dropChanges (s : BStore K Assign) : List K → List (Change K)
  | [] => []
  | k :: l => delChange s k ++ dropChanges (s.delete k) l

/-- The actions that `apply` returns — store.rs:130-193.  The store itself is changed by `brokerApply`. -/
def actionsOf (s : BStore K Assign) (m : Msg K Assign) : List (Change K) :=
  if m.all ≠ [] then
    let r := m.all.foldl BStore.syncOne (s, s.map (·.1))
    syncChanges s m.all ++ dropChanges r.1 r.2
  else changesOf s m.changes

/-- A broker: what it has been told (`replica_localstore`), the replicas it leads (`leaders_state`, with the
assignment each was created with), those it follows (`followers_state.states`, with the leader), the
leaders it has a controller for (`followers_state.groups`), and the records in the replicas' directories (a
missing directory is one without records). -/
structure Broker (K : Type) where
  me : Nat
  told : BStore K Assign
  leads : BStore K Assign
  follows : BStore K Nat
  groups : List Nat
  disk : BStore K (List Nat)

/-- Whether opening a replica's storage, initialising a leader and removing a directory succeed. -/
structure Io where
  openOk : Bool
  initOk : Bool
  removeOk : Bool
deriving DecidableEq

/-- `ReplicaChange` — global_context.rs:206-210: a removal to report to the controller, or an error that is
only logged (control_plane/dispatcher.rs:329-341). -/
inductive Out (K : Type) where
  | removed (k : K)
  | storageError
deriving DecidableEq

def Broker.records (b : Broker K) (k : K) : List Nat := (b.disk.get k).getD []

/-- `FollowerGroups::check_new` — controller.rs:32-54 -/
def Broker.checkNew (b : Broker K) (leader : Nat) : Broker K :=
  if leader ∈ b.groups then b else { b with groups := b.groups ++ [leader] }

/-- `FollowersState::add_replica` — state.rs:73-107.  `create_or_load` opens the directory if there is
one. -/
def Broker.addFollower (b : Broker K) (io : Io) (k : K) (a : Assign) : Broker K × Bool :=
  match b.follows.get k with
  | some _ => (b, true)
  | none =>
    if io.openOk then (Broker.checkNew { b with follows := b.follows.insert k a.leader } a.leader, true)
    else (b, false)

/-- `FollowersState::remove_replica` — state.rs:109-138, with `FollowerGroups::remove` -/
def Broker.dropFollower (b : Broker K) (leader : Nat) (k : K) : Broker K × Bool :=
  match b.follows.get k with
  | none => (b, false)
  | some _ =>
    let f := b.follows.delete k
    ({ b with
        follows := f
        groups := if f.any (fun p => decide (p.2 = leader)) then b.groups
          else b.groups.filter fun l => decide (l ≠ leader) }, true)

/-- `SharableReplicaStorage::remove` — fluvio-spu/src/storage/mod.rs:166-173; a failure leaves the records
where they are. -/
def Broker.wipe (b : Broker K) (io : Io) (k : K) : Broker K :=
  if io.removeOk then { b with disk := b.disk.delete k } else b

/-- `ReplicaLeadersState::add_leader_replica` — leaders_state.rs:107-128 -/
def Broker.addLeader (b : Broker K) (io : Io) (k : K) (a : Assign) : Broker K × List (Out K) :=
  if io.openOk && io.initOk then ({ b with leads := b.leads.insert k a }, [])
  else (b, [.storageError])

/-- `remove_replica`, `remove_leader_replica`, `remove_follower_replica` — global_context.rs:371-440 -/
def Broker.removeReplica (b : Broker K) (io : Io) (k : K) (a : Assign) : Broker K × List (Out K) :=
  if a.leader = b.me then
    match b.leads.get k with
    | some _ => (Broker.wipe { b with leads := b.leads.delete k } io k, [.removed k])
    | none => (b, [.removed k])
  else
    let r := b.dropFollower a.leader k
    (if r.2 then r.1.wipe io k else r.1, [])

/-- `promote` — global_context.rs:224-263, with `promote_follower` — leaders_state.rs:150-166 -/
def Broker.promote (b : Broker K) (io : Io) (k : K) (new old : Assign) : Broker K × List (Out K) :=
  let r := b.dropFollower old.leader k
  if r.2 then
    if io.initOk then ({ r.1 with leads := r.1.leads.insert k new }, [])
    else (r.1, [.storageError])
  else (r.1, [])

/-- `demote_replica` — global_context.rs:443-463 -/
def Broker.demote (b : Broker K) (io : Io) (k : K) (new : Assign) : Broker K :=
  match b.leads.get k with
  | some _ => (Broker.addFollower { b with leads := b.leads.delete k } io k new).1
  | none => b

/-- `switch_leader_for_follower` — global_context.rs:474-489 -/
def Broker.switchLeader (b : Broker K) (io : Io) (k : K) (new old : Assign) : Broker K :=
  ((b.dropFollower old.leader k).1.addFollower io k new).1

/-- one round of `apply_replica_actions` — global_context.rs:297-366 -/
def Broker.act (b : Broker K) (io : Io) : Change K → Broker K × List (Out K)
  | .add k new =>
    if new.deleting then b.removeReplica io k new
    else if new.leader = b.me then b.addLeader io k new
    else if b.me ∈ new.replicas then
      let r := b.addFollower io k new
      (r.1, if r.2 then [] else [.storageError])
    else (b, [])
  | .del k old => b.removeReplica io k old
  | .mod k new old =>
    if new.deleting then b.removeReplica io k new
    else if new.leader ≠ old.leader then
      if new.leader = b.me then b.promote io k new old
      else if old.leader = b.me then (b.demote io k new, [])
      else (b.switchLeader io k new old, [])
    else (b, [])

/-- `apply_replica_actions` — global_context.rs:277-369; one `Io` for each action, as long as there are. -/
def Broker.actAll (b : Broker K) : List Io → List (Change K) → Broker K × List (Out K)
  | _, [] => (b, [])
  | ios, c :: cs =>
    let r := b.act (ios.head?.getD ⟨true, true, true⟩) c
    let r' := r.1.actAll ios.tail cs
    (r'.1, r.2 ++ r'.2)

/-- `apply_replica_update` — global_context.rs:265-274 -/
def Broker.update (b : Broker K) (ios : List Io) (m : Msg K Assign) : Broker K × List (Out K) :=
  Broker.actAll { b with told := brokerApply b.told m } ios (actionsOf b.told m)

inductive Event (K : Type) where
  /-- a request of the controller -/
  | update (ios : List Io) (m : Msg K Assign)
  /-- a led or followed replica grows by some records -/
  | write (k : K) (rs : List Nat)
  /-- the broker restarts: only the directories remain -/
  | restart
deriving DecidableEq

def Broker.step (b : Broker K) : Event K → Broker K
  | .update ios m => (b.update ios m).1
  | .write k rs =>
    if (b.leads.get k).isSome || (b.follows.get k).isSome then
      { b with disk := b.disk.insert k (b.records k ++ rs) }
    else b
  | .restart => { b with told := [], leads := [], follows := [], groups := [] }

def Broker.run (b : Broker K) (es : List (Event K)) : Broker K := es.foldl Broker.step b

/-- A broker that starts with empty directories. -/
def Broker.init (me : Nat) : Broker K := ⟨me, [], [], [], [], []⟩

end Verif.Broker
