/-!
# How the partitions of a mirrored topic are paired with those of the remote clusters

Models

* `crates/fluvio-controlplane-metadata/src/topic/spec.rs` (`HomeMirrorConfig`) and
  `crates/fluvio-cli/src/client/topic/create.rs` (`--mirror-apply`, `--mirror`): which partitions a home topic has;
* `crates/fluvio-sc/src/services/public_api/topic/update/add_mirror.rs`: adding one;
* `crates/fluvio-sc/src/services/public_api/mirroring/connect.rs` (which broker a remote cluster is told);
* `crates/fluvio-sc/src/controllers/mirroring/controller.rs`, `controllers/topics/policy.rs`,
  `stores/topic/store.rs` at the remote cluster: from what it is told to the partition it creates;
* `crates/fluvio-spu/src/replication/leader/replica_state.rs` and `mirroring/remote/controller.rs` at the remote
  cluster: the task that connects to the home cluster;
* `crates/fluvio-spu/src/replication/leader/leaders_state.rs` (`find_mirror_home_leader`) at the home cluster: the
  partition that serves a connection.

Simplifications.  One home cluster and one remote cluster, whose id at the home cluster is `rid`.  Stores are
functions from keys.  Messages of the home controller are applied as they are sent (C76 is about their order).
Mirrored topics have one partition at the remote cluster (`home_spus` has one element, controller.rs:228-235), so of
a topic there only partition 0 is kept.  Settings other than the mirror configuration are left out, and so is TLS.
The deletion of a topic takes its partitions along in one step.  The partition objects of a home topic carry the
entry of the topic with their index (C42, C53), and mirrored topics have one replica per partition, so that leaders
do not change.
-/

namespace Verif.Mirror.Pairing

/-! ## The home cluster -/

/-- `HomePartitionConfig` — partition/spec.rs:208-218 -/
structure HPart where
  cluster : String
  replica : String
  source : Bool
deriving DecidableEq, Repr

/-- `HomeMirrorInner` — topic/spec.rs:793-803 -/
structure HTopic where
  parts : List HPart
  source : Bool
deriving DecidableEq, Repr

/-- `ReplicaKey::new(topic, i).to_string()` -/
def replicaName (topic : String) (i : Nat) : String := topic ++ "-" ++ toString i

/-- `HomeMirrorConfig::from_simple` — topic/spec.rs:728-741 -/
def fromSimple (topic : String) (clusters : List String) : HTopic :=
  ⟨clusters.map fun c => ⟨c, replicaName topic 0, false⟩, false⟩

/-- `HomeMirrorInner::set_home_to_remote` — topic/spec.rs:856-862 -/
def HTopic.setHomeToRemote (t : HTopic) (b : Bool) : HTopic :=
  ⟨t.parts.map fun p => { p with source := b }, b⟩

/-- `fluvio topic create --mirror-apply` — create.rs:180-217: the clusters of the file must be registered (as mirrors
of any kind, `mirrors` has `true` for remote clusters); `MirrorConfig::validate` accepts everything. -/
def createApply (mirrors : List (String × Bool)) (topic : String) (clusters : List String) (h2r : Bool) :
    Option HTopic :=
  let c := (fromSimple topic clusters).setHomeToRemote h2r
  if c.parts.all fun p => (mirrors.map (·.1)).contains p.cluster then some c else none

/-- `fluvio topic create --mirror` — create.rs:218-222 -/
def createEmpty (h2r : Bool) : HTopic := ⟨[], h2r⟩

/-- `handle_add_mirror` for a home topic — add_mirror.rs:22-131 -/
def addMirror (mirrors : List (String × Bool)) (topic : String) (t : HTopic) (cluster : String) : Option HTopic :=
  if mirrors.contains (cluster, true) then
    if t.parts.any fun p => p.cluster == cluster then none
    else some { t with parts := t.parts ++ [⟨cluster, replicaName topic 0, t.source⟩] }
  else none

/-- The home cluster: registered mirrors, mirrored topics, the leader of each partition once assigned, the public
address of each broker once registered. -/
structure Home where
  mirrors : List (String × Bool)
  topics : String → Option HTopic
  leader : String → Nat → Option Int
  addr : Int → Option String

/-- A partition led by a broker of the home cluster, with its mirror configuration. -/
structure Rep where
  topic : String
  index : Nat
  part : HPart
deriving DecidableEq, Repr

/-- The partition `r` exists and is led by the broker `s`. -/
def Leads (h : Home) (s : Int) (r : Rep) : Prop :=
  ∃ t, h.topics r.topic = some t ∧ t.parts[r.index]? = some r.part ∧ h.leader r.topic r.index = some s

/-- `find_mirror_home_leader` — leaders_state.rs:91-109: the first match in the map of the partitions led here.  The
map is a `HashMap`, so `order` is the partitions in any order. -/
def serve (order : List Rep) (cluster replica : String) : Option Rep :=
  order.find? fun r => r.part.cluster == cluster && r.part.replica == replica

/-- What a remote cluster is told about a topic: `MirroringSpecWrapper`, as far as it matters here. -/
structure Msg where
  source : Bool
  spu : Int
  endpoint : String
deriving DecidableEq, Repr

/-- The body of the `filter_map` in `sync_and_send_topics` — connect.rs:182-219: the *first* partition for the remote
cluster, its leader and the leader's public address. -/
def message (h : Home) (rid t : String) : Option Msg :=
  (h.topics t).bind fun T =>
    (T.parts.findIdx? fun p => p.cluster == rid).bind fun i =>
      (h.leader t i).bind fun s => (h.addr s).map fun a => ⟨T.source, s, a⟩

/-! ## The remote cluster -/

/-- `RemotePartitionConfig` (partition/spec.rs:233-245), and `RemoteMirrorConfig` with its one broker
(topic/spec.rs:883-891) -/
structure RConf where
  home : String
  spu : Int
  endpoint : String
  target : Bool
deriving DecidableEq, Repr

/-- A topic at the remote cluster: the mirror configuration of its specification (none for a topic of its own) and,
once the topic is provisioned, the entry for partition 0 of the mirror map in its status. -/
structure RTopic where
  spec : Option RConf
  resolved : Option (Option RConf)
deriving DecidableEq, Repr

/-- The remote cluster: topics, the mirror configuration of partition 0 of each topic (if the partition exists),
whether its broker leads that partition, and the mirror controllers running there. -/
structure Remote where
  topics : String → Option RTopic
  part : String → Option (Option RConf)
  led : String → Bool
  tasks : List (String × RConf)

/-- the new specification — mirroring/controller.rs:226-238 -/
def conf (homeId : String) (m : Msg) : RConf := ⟨homeId, m.spu, m.endpoint, m.source⟩

/-- `sync_topic` and `delete_not_received_topics` for one topic — mirroring/controller.rs:187-279 -/
def syncTopic (homeId : String) : Option Msg → Option RTopic → Option RTopic
  | some m, some T => some { T with spec := some (conf homeId m) }
  | some m, none => some ⟨some (conf homeId m), none⟩
  | none, some ⟨some c, r⟩ => if c.home = homeId then none else some ⟨some c, r⟩
  | none, other => other

/-- handling one message -/
def Remote.sync (r : Remote) (homeId : String) (snap : String → Option Msg) : Remote :=
  { topics := fun t => syncTopic homeId (snap t) (r.topics t)
    part := fun t => if (syncTopic homeId (snap t) (r.topics t)).isSome then r.part t else none
    led := fun t => (syncTopic homeId (snap t) (r.topics t)).isSome && r.led t
    tasks := r.tasks }

/-- changing one entry of a store -/
def put {α : Type} (f : String → α) (k : String) (a : α) : String → α := fun t => if t = k then a else f t

/-- the topic controller gives a topic its maps when it is not provisioned yet — policy.rs:267-321 -/
def Remote.resolve (r : Remote) (t : String) : Remote :=
  match r.topics t with
  | some ⟨spec, none⟩ => { r with topics := put r.topics t (some ⟨spec, some spec⟩) }
  | _ => r

/-- `create_new_partitions` of a provisioned topic — stores/topic/store.rs:34-60, policy.rs:329-341: a partition that
exists is not touched -/
def Remote.create (r : Remote) (t : String) : Remote :=
  match r.topics t, r.part t with
  | some ⟨_, some c⟩, none => { r with part := put r.part t (some c) }
  | _, _ => r

/-- the broker becomes the leader of the partition and starts a mirror controller for it — replica_state.rs:492-510.
The controller's loop has no end (remote/controller.rs:156-193), and nothing stops it when the partition goes. -/
def Remote.start (r : Remote) (t : String) : Remote :=
  match r.part t, r.led t with
  | some (some c), false => { r with led := put r.led t true, tasks := r.tasks ++ [(t, c)] }
  | some none, false => { r with led := put r.led t true }
  | _, _ => r

/-- creating a topic of the remote cluster's own -/
def Remote.own (r : Remote) (t : String) : Remote :=
  match r.topics t with
  | none => { r with topics := put r.topics t (some ⟨none, none⟩) }
  | some _ => r

/-- restarting the broker of the remote cluster -/
def Remote.restart (r : Remote) : Remote := { r with led := fun _ => false, tasks := [] }

/-! ## Both together -/

/-- Home and remote cluster. -/
structure World where
  home : Home
  remote : Remote

/-- What can happen. -/
inductive Ev
  /-- `fluvio topic create t --mirror-apply` with the clusters of the file, `--home-to-remote` or not -/
  | apply (t : String) (clusters : List String) (h2r : Bool)
  /-- `fluvio topic create t --mirror` -/
  | empty (t : String) (h2r : Bool)
  /-- `fluvio topic add-mirror t cluster` -/
  | add (t cluster : String)
  /-- `fluvio topic delete t` at the home cluster -/
  | delete (t : String)
  /-- mirrors are registered or unregistered at the home cluster -/
  | mirrors (l : List (String × Bool))
  /-- the home controller assigns the partition to a broker -/
  | assign (t : String) (i : Nat) (s : Int)
  /-- a broker is registered with an address -/
  | spu (s : Int) (a : String)
  /-- a broker's public address changes -/
  | move (s : Int) (a : String)
  /-- the remote controller handles a message of the home controller -/
  | sync
  | resolve (t : String)
  | create (t : String)
  | start (t : String)
  | own (t : String)
  | restart
deriving DecidableEq, Repr

/-- creating a topic, unless there is one of this name already -/
def Home.insert (h : Home) (t : String) (T : Option HTopic) : Home :=
  match h.topics t, T with
  | none, some T => { h with topics := put h.topics t (some T) }
  | _, _ => h

/-- replacing the specification of a topic -/
def Home.extend (h : Home) (t cluster : String) : Home :=
  match h.topics t with
  | some T =>
    match addMirror h.mirrors t T cluster with
    | some T' => { h with topics := put h.topics t (some T') }
    | none => h
  | none => h

/-- assigning a partition that has no broker yet (C53: those assigned stay) -/
def Home.assign (h : Home) (t : String) (i : Nat) (s : Int) : Home :=
  match h.topics t, h.leader t i with
  | some T, none =>
    if i < T.parts.length then
      { h with leader := put h.leader t fun j => if j = i then some s else h.leader t j }
    else h
  | _, _ => h

/-- setting the address of a broker -/
def Home.setAddr (h : Home) (s : Int) (a : String) : Home :=
  { h with addr := fun s' => if s' = s then some a else h.addr s' }

/-- One event; `homeId` is the name of the home cluster at the remote one, `rid` that of the remote one at home. -/
def step (homeId rid : String) (w : World) : Ev → World
  | .apply t cs b => { w with home := w.home.insert t (createApply w.home.mirrors t cs b) }
  | .empty t b => { w with home := w.home.insert t (some (createEmpty b)) }
  | .add t c => { w with home := w.home.extend t c }
  | .delete t =>
    { w with home := { w.home with topics := put w.home.topics t none, leader := put w.home.leader t fun _ => none } }
  | .mirrors l => { w with home := { w.home with mirrors := l } }
  | .assign t i s => { w with home := w.home.assign t i s }
  | .spu s a => if (w.home.addr s).isSome then w else { w with home := w.home.setAddr s a }
  | .move s a => if (w.home.addr s).isSome then { w with home := w.home.setAddr s a } else w
  | .sync => { w with remote := w.remote.sync homeId (message w.home rid) }
  | .resolve t => { w with remote := w.remote.resolve t }
  | .create t => { w with remote := w.remote.create t }
  | .start t => { w with remote := w.remote.start t }
  | .own t => { w with remote := w.remote.own t }
  | .restart => { w with remote := w.remote.restart }

/-- A sequence of events. -/
def run (homeId rid : String) (w : World) (es : List Ev) : World := es.foldl (step homeId rid) w

/-- Two clusters without topics. -/
def init : World :=
  ⟨⟨[], fun _ => none, fun _ _ => none, fun _ => none⟩, ⟨fun _ => none, fun _ => none, fun _ => false, []⟩⟩

end Verif.Mirror.Pairing
