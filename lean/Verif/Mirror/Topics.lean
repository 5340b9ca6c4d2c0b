/-!
# How a remote cluster's controller follows the topics of its home cluster

Models

* `crates/fluvio-sc/src/services/public_api/mirroring/connect.rs` (home side: which topics are sent to which
  remote cluster);
* `crates/fluvio-sc/src/controllers/mirroring/controller.rs` (remote side: the loop that applies what it is sent);
* the parts of `crates/fluvio-controlplane-metadata/src/topic/spec.rs` and
  `crates/fluvio-controlplane-metadata/src/mirroring/mod.rs` these use.

Simplifications: names, endpoints and keys are strings; numbers are unbounded; the contents of computed and
assigned replica specifications and of the deduplication settings do not matter to this code and are numbers.
The status of the mirror objects, TLS and the back-off between attempts are left out.  Messages arrive as they
were sent (that is C45, C51 and C73).
-/

namespace Verif.Mirror.Topics

/-- One entry of a home topic: the remote cluster a partition belongs to.
`fluvio-controlplane-metadata/src/partition/spec.rs` (`HomePartitionConfig`); `remote_replica` and the copy of
`source` are not read by the code modelled here. -/
structure HomePart where
  remoteCluster : String
deriving DecidableEq, Repr

/-- `SpuMirrorConfig`, topic/spec.rs:898-902. -/
structure SpuRef where
  id : Int
  key : String
  endpoint : String
deriving DecidableEq, Repr

/-- `ReplicaSpec` with `MirrorConfig`, topic/spec.rs:198-212, 622-627: `Computed` and `Assigned` are `other`. -/
inductive Replicas
  | other (n : Nat)
  | home (parts : List HomePart) (source : Bool)
  | remote (homeCluster : String) (homeSpus : List SpuRef) (target : Bool)
deriving DecidableEq, Repr

/-- `TopicSpec`, topic/spec.rs:24-43.  `cleanup` is the retention time, `storage` the two optional sizes,
`compression` the tag of the algorithm, `dedup` stands for the deduplication settings. -/
structure TopicSpec where
  replicas : Replicas
  cleanup : Option Nat := none
  storage : Option (Option Nat × Option Nat) := none
  compression : Nat := 4
  dedup : Option Nat := none
  system : Bool := false
deriving DecidableEq, Repr

/-! ## Stores: finite maps by name -/

/-- The object stored under a key (`LocalStore::value`). -/
def get {α : Type} (m : List (String × α)) (k : String) : Option α := (m.find? (·.1 = k)).map (·.2)

/-- Removing a key. -/
def del {α : Type} (m : List (String × α)) (k : String) : List (String × α) := m.filter (·.1 ≠ k)

/-- Setting the object of a key. -/
def put {α : Type} (m : List (String × α)) (k : String) (a : α) : List (String × α) := (k, a) :: del m k

/-! ## The home side -/

/-- A broker registered at the home cluster: its key, id and public address. -/
structure Spu where
  key : String
  id : Int
  addr : String
deriving DecidableEq, Repr

/-- A topic at the home cluster with the replica map of its status (partition to brokers, leader first). -/
structure HomeTopic where
  spec : TopicSpec
  replicaMap : List (Nat × List Int)
deriving DecidableEq, Repr

/-- What the home controller knows: topics, brokers, the remote clusters registered, and the answer of the
authorization to a remote cluster's request (`none`: the check itself failed). -/
structure HomeState where
  topics : List (String × HomeTopic)
  spus : List Spu
  remotes : List String
  auth : String → Option Bool

/-- `MirroringSpecWrapper<TopicSpec>`, mirroring/mod.rs:100-106. -/
structure Wrapper where
  key : String
  spec : TopicSpec
  spuId : Int
  spuKey : String
  spuEndpoint : String
deriving DecidableEq, Repr

/-- The body of the `filter_map` in `sync_and_send_topics`, connect.rs:182-220: a topic is sent when it is a home
mirror with a partition for the remote cluster whose leader is in the replica map and is a registered broker. -/
def wrap (h : HomeState) (rid : String) (e : String × HomeTopic) : Option Wrapper :=
  match e.2.spec.replicas with
  | .home parts _ =>
    match parts.findIdx? (fun p => p.remoteCluster == rid) with
    | some i =>
      match ((e.2.replicaMap.find? (fun r => r.1 == i)).map (fun r => r.2)).bind (fun ids => ids.head?) with
      | some id =>
        match h.spus.find? (fun s => s.id == id) with
        | some s => some ⟨e.1, e.2.spec, id, s.key, s.addr⟩
        | none => none
      | none => none
    | none => none
  | _ => none

/-- The topics of one message, `sync_and_send_topics`, connect.rs:178-221. -/
def snapshot (h : HomeState) (rid : String) : List Wrapper := h.topics.filterMap (wrap h rid)

/-- The check when a remote cluster connects, `dispatch_loop`, connect.rs:62-88: the remote cluster must be
registered, and is refused if the authorization answers no.  An authorization that *fails* does not refuse
(`if let Ok(authorized) = … && !authorized`). -/
def admits (h : HomeState) (rid : String) : Bool :=
  h.remotes.contains rid && (h.auth rid != some false)

/-! ## The remote side -/

/-- `Home`, mirror/spec.rs:74-80, without TLS. -/
structure Home where
  id : String
  remoteId : String
  endpoint : String
deriving DecidableEq, Repr

/-- The settings copied from the home topic, controller.rs:262-272: the clean-up policy and the storage
configuration are copied only when the home topic has them. -/
def adopt (t h : TopicSpec) : TopicSpec :=
  { t with
    cleanup := h.cleanup <|> t.cleanup
    compression := h.compression
    dedup := h.dedup
    storage := h.storage <|> t.storage }

/-- The result of `sync_topic`. -/
inductive SyncResult
  | upToDate
  | write (t : TopicSpec)
  | error
deriving DecidableEq, Repr

/-- `sync_topic`, controller.rs:216-279; `cur` is the topic of that name found in the store. -/
def syncTopic (homeId : String) (cur : Option TopicSpec) (w : Wrapper) : SyncResult :=
  match w.spec.replicas with
  | .home _ source =>
    let r := Replicas.remote homeId [⟨w.spuId, w.spuKey, w.spuEndpoint⟩] source
    match cur with
    | some t =>
      if { t with replicas := r } = t then .upToDate
      else .write (adopt { t with replicas := r } w.spec)
    | none => .write (adopt { w.spec with replicas := r } w.spec)
  | _ => .error

/-- Is this a topic mirrored from the home cluster `homeId`? (the pattern in controller.rs:193-202) -/
def mirrors (homeId : String) (t : TopicSpec) : Bool :=
  match t.replicas with
  | .remote h _ _ => h == homeId
  | _ => false

/-- The topics to delete, `delete_not_received_topics`, controller.rs:186-213. -/
def toDelete (homeId : String) (store : List (String × TopicSpec)) (received : List String) : List String :=
  ((store.filter fun e => mirrors homeId e.2).map (·.1)).filter fun k => !received.contains k

/-- One thing the controller has left to do for a message. -/
inductive Task
  | del (k : String)
  | sync (w : Wrapper)
deriving DecidableEq, Repr

/-- An action handed to the store (`WSAction`). -/
inductive Act
  | del (k : String)
  | put (k : String) (t : TopicSpec)
deriving DecidableEq, Repr

/-- A connection of the controller: the home object it was made with, the messages under way and what is left to
do for the last one taken. -/
structure Conn where
  home : Home
  inbox : List (List Wrapper)
  work : List Task

/-- Both clusters.  `homes` gives the home controller behind an address; `acts` are actions handed to the remote
cluster's store but not carried out yet. -/
structure World where
  homes : String → HomeState
  mirrors : List (String × Home)
  topics : List (String × TopicSpec)
  conn : Option Conn
  acts : List Act

/-- Carrying out an action. -/
def Act.apply (m : List (String × TopicSpec)) : Act → List (String × TopicSpec)
  | .del k => Topics.del m k
  | .put k t => Topics.put m k t

/-- What can happen.

* `homeChange`: anything at a home cluster changes.
* `setMirrors`: somebody registers or unregisters home clusters at the remote cluster.
* `connect`: the remote controller connects to a home cluster it finds under a name.
* `send`: the home controller sends the present topics.
* `recv`: the remote controller takes the next message and determines what to delete.
* `issue`: the remote controller does the next thing.
* `carry`: the store carries out an action.
* `fail`: the connection ends, or an action is not confirmed in time.
* `admin`: somebody changes a topic at the remote cluster. -/
inductive Ev
  | homeChange (addr : String) (h : HomeState)
  | setMirrors (m : List (String × Home))
  | connect (name : String)
  | send
  | recv
  | issue
  | carry
  | fail
  | admin (a : Act)

/-- One step.  `dispatch_loop` and `inner_loop`, controller.rs:48-114; `dispatch_loop`, connect.rs:59-140.  Events
that are not possible leave everything as it is.  The home controller sends every five seconds whether or not
anything changed (its listeners are never advanced), so `send` is always possible on a connection while the
remote cluster is registered; when it is not, the connection ends (connect.rs:245-247). -/
def step (s : World) : Ev → World
  | .homeChange a h => { s with homes := fun x => if x = a then h else s.homes x }
  | .setMirrors m => { s with mirrors := m }
  | .connect n =>
    match s.conn, get s.mirrors n with
    | none, some h => if admits (s.homes h.endpoint) h.remoteId then { s with conn := some ⟨h, [], []⟩ } else s
    | _, _ => s
  | .send =>
    match s.conn with
    | some c =>
      let h := s.homes c.home.endpoint
      if h.remotes.contains c.home.remoteId then
        { s with conn := some { c with inbox := c.inbox ++ [snapshot h c.home.remoteId] } }
      else { s with conn := none }
    | none => s
  | .recv =>
    match s.conn with
    | some c =>
      match c.work, c.inbox with
      | [], r :: rest =>
        { s with conn := some { c with
            inbox := rest
            work := (toDelete c.home.id s.topics (r.map (·.key))).map .del ++ r.map .sync } }
      | _, _ => s
    | none => s
  | .issue =>
    match s.conn with
    | some c =>
      match c.work with
      | [] => s
      | .del k :: rest => { s with acts := s.acts ++ [.del k], conn := some { c with work := rest } }
      | .sync w :: rest =>
        match syncTopic c.home.id (get s.topics w.key) w with
        | .upToDate => { s with conn := some { c with work := rest } }
        | .write t => { s with acts := s.acts ++ [.put w.key t], conn := some { c with work := rest } }
        | .error => { s with conn := none }
    | none => s
  | .carry =>
    match s.acts with
    | [] => s
    | a :: rest => { s with topics := a.apply s.topics, acts := rest }
  | .fail => { s with conn := none }
  | .admin a => { s with topics := a.apply s.topics }

/-- A run. -/
def run (s : World) : List Ev → World
  | [] => s
  | e :: es => run (step s e) es

/-- The controller does its next things, waiting each time until the store has carried out the action
(`create_spec` and `delete` return only then), `n` times. -/
def settle : Nat → List Ev
  | 0 => []
  | n + 1 => .issue :: .carry :: settle n

end Verif.Mirror.Topics
