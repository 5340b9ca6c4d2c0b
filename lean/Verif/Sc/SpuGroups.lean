import Verif.Misc.PartitionName

/-!
# Groups of brokers on Kubernetes

Models `crates/fluvio-sc/src/k8/objects/spg_group.rs`, `k8/controllers/spg_stateful.rs`,
`k8/controllers/spu_controller.rs`, `stores/spu/mod.rs` and the id a broker computes for itself,
`crates/fluvio-spu/src/config/cli.rs:202-240`.

Arithmetic on `i32` wraps around, as in release builds (`/repo/Cargo.toml` sets no overflow checks).  Names are lists
of characters.
-/

namespace Verif.Sc.Groups

open Verif.Misc

abbrev Name := List Char

/-- `i32` arithmetic in release builds. -/
def wrap32 (x : Int) : Int := x.bmod (2 ^ 32)

/-- The type `i32`. -/
def IsI32 (x : Int) : Prop := -2 ^ 31 ≤ x ∧ x < 2 ^ 31

/-- `SpuGroupStatusResolution`, `fluvio-controlplane-metadata/src/spg/status.rs:49-57`. -/
inductive Resolution
  | init
  | invalid
  | reserved
deriving DecidableEq, Repr

/-- A group: its uid in Kubernetes, `SpuGroupSpec` (min_id, replicas) and its status. -/
structure Group where
  uid : Nat
  minId : Int
  replicas : Nat
  status : Resolution
deriving DecidableEq, Repr

/-- A registered broker: id, owner if any, host of the private endpoint (the public ones are left out). -/
structure Broker where
  id : Int
  owner : Option Nat
  privateHost : Name
deriving DecidableEq, Repr

/-- `compute_spu_id`, spg_group.rs:174-177. -/
def computeSpuId (minId : Int) (index : Nat) : Int := wrap32 (index + minId)

/-- The name of a broker of a group, spg_group.rs:105. -/
def spuName (group : Name) (index : Nat) : Name := group ++ '-' :: showNat index

/-- The host of the private endpoint, spg_group.rs:121-124. -/
def privateHost (group : Name) (ns : Name) (index : Nat) : Name :=
  "fluvio-spg-main-".toList ++ showNat index ++ ".fluvio-spg-".toList ++ group ++ '.' :: ns ++
    ".svc.cluster.local".toList

/-- `as_spu`, spg_group.rs:97-157. -/
def asSpu (ns : Name) (name : Name) (g : Group) (index : Nat) : Name × Broker :=
  (spuName name index, ⟨computeSpuId g.minId index, some g.uid, privateHost name ns index⟩)

/-- The name of the stateful set and of the service, spg_group.rs:41, 75. -/
def setName (group : Name) : Name := "fluvio-spg-".toList ++ group

/-- `find_spu_id_from_env`, cli.rs:202-240, with `SPU_INDEX` the name of the pod and `SPU_MIN` as given by the
stateful set, spg_group.rs:229-232. -/
def podId (spuIndex spuMin : Name) : Option Int :=
  match splitLastDash spuIndex with
  | none => none
  | some (_, token) =>
    match parseNum true (2 ^ 31 - 1) token, parseNum true (2 ^ 31 - 1) spuMin with
    | some id, some base => some (wrap32 (id + base))
    | _, _ => none

/-! ## The two controllers -/

def get {V : Type} (l : List (Name × V)) (n : Name) : Option V := (l.find? (·.1 = n)).map (·.2)

def del {V : Type} (l : List (Name × V)) (n : Name) : List (Name × V) := l.filter (·.1 ≠ n)

def put {V : Type} (l : List (Name × V)) (n : Name) (v : V) : List (Name × V) := (n, v) :: del l n

/-- `is_owned`, `fluvio-stream-model/src/store/metadata.rs:131-136`. -/
def Broker.isOwned (b : Broker) (uid : Nat) : Bool := b.owner == some uid

/-- `is_conflict`, stores/spu/mod.rs:13-28. -/
def isConflict (spus : List (Name × Broker)) (uid : Nat) (start stop : Int) : Option Int :=
  (spus.find? fun e => !e.2.isOwned uid && (start ≤ e.2.id && e.2.id < stop)).map (·.2.id)

/-- `is_conflict_with`, spg_group.rs:50-67. -/
def Group.conflict (g : Group) (spus : List (Name × Broker)) : Option Int :=
  if g.status = .reserved then none
  else isConflict spus g.uid g.minId (wrap32 (g.minId + g.replicas))

/-- Stores and controllers.  `work`: groups the controller of stateful sets has yet to handle, as it read them;
`applies`: brokers the controller of brokers has yet to write. -/
structure State where
  groups : List (Name × Group)
  spus : List (Name × Broker)
  sets : List (Name × Group)
  work : List (Name × Group)
  applies : List (Name × Broker)
  nextUid : Nat
deriving DecidableEq, Repr

def init : State := ⟨[], [], [], [], [], 1⟩

/-- What can happen.

* `define`: somebody creates a group or changes its specification (`WSAction::UpdateSpec`, the status stays).
* `remove`: somebody deletes a group; Kubernetes then deletes what it owns.
* `read`: the controller of stateful sets takes the groups that changed (here: all of them).
* `handle`: it handles the next one.
* `list`: the controller of brokers computes the brokers of all groups.
* `apply`: it writes the next one.
* `register`: somebody registers a custom broker.
* `unregister`: somebody deletes a custom broker (only those, `unregister_custom_spus_req.rs:91-105`; here: one without
  an owner). -/
inductive Ev
  | define (n : Name) (minId : Int) (replicas : Nat)
  | remove (n : Name)
  | read
  | handle
  | list
  | apply
  | register (n : Name) (id : Int) (host : Name)
  | unregister (n : Name)
deriving DecidableEq, Repr

/-- `sync_spg_to_statefulset`, spg_stateful.rs:166-215.  A status is written to the group of that name, if it still
exists. -/
def handleGroup (s : State) (n : Name) (g : Group) : State :=
  match g.conflict s.spus with
  | some _ => setStatus s n .invalid
  | none =>
    if g.status = .reserved then { s with sets := put s.sets n g } else setStatus s n .reserved
where
  setStatus (s : State) (n : Name) (r : Resolution) : State :=
    match get s.groups n with
    | some g => { s with groups := put s.groups n { g with status := r } }
    | none => s

/-- One step.  `sync_spu`, spu_controller.rs:150-176 (no look at the status of the group);
`validate_custom_spu_request` and `register_custom_spu`,
`services/public_api/spu/register_custom_spus_req.rs:80-125`, taken as one step. -/
def step (s : State) : Ev → State
  | .define n m r =>
    match get s.groups n with
    | some g => { s with groups := put s.groups n { g with minId := m, replicas := r } }
    | none => { s with groups := put s.groups n ⟨s.nextUid, m, r, .init⟩, nextUid := s.nextUid + 1 }
  | .remove n =>
    match get s.groups n with
    | some g =>
      { s with groups := del s.groups n, sets := del s.sets n,
               spus := s.spus.filter fun e => !e.2.isOwned g.uid }
    | none => s
  | .read => if s.work = [] then { s with work := s.groups } else s
  | .handle =>
    match s.work with
    | (n, g) :: rest => handleGroup { s with work := rest } n g
    | [] => s
  | .list =>
    if s.applies = [] then
      { s with applies := s.groups.flatMap fun e => (List.range e.2.replicas).map fun i =>
          asSpu "default".toList e.1 e.2 i }
    else s
  | .apply =>
    match s.applies with
    | (n, b) :: rest => { s with spus := put s.spus n b, applies := rest }
    | [] => s
  | .register n id host =>
    if (get s.spus n).isSome || s.spus.any (fun e => e.2.id == id) then s
    else { s with spus := put s.spus n ⟨id, none, host⟩ }
  | .unregister n =>
    match get s.spus n with
    | some b => if b.owner = none then { s with spus := del s.spus n } else s
    | none => s

/-- A run. -/
def run (s : State) : List Ev → State
  | [] => s
  | e :: es => run (step s e) es

end Verif.Sc.Groups
