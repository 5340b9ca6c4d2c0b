import Verif.Sc.SpuGroups

/-!
# Public addresses of brokers on Kubernetes

Models `crates/fluvio-sc/src/k8/controllers/spu_service.rs`, `k8/controllers/spu_controller.rs`,
`k8/objects/{spu_k8_config,spu_service,spg_group}.rs` and `IngressPort` of
`crates/fluvio-controlplane-metadata/src/spu/spec.rs`.

Left out: encryption, the traffic policy and the external name of services, namespaces other than the one of the cluster.
-/

namespace Verif.Sc.Addresses

open Verif.Misc Verif.Sc.Groups

/-- `LoadBalancerType` of the crate `k8-types`: the type of a service. -/
inductive Kind
  | clusterIp | nodePort | loadBalancer
deriving DecidableEq, Repr

/-- The service of the configuration (`ScK8Config::service`), as far as it is used. -/
structure Template where
  kind : Option Kind
  lbIp : Option Name
deriving DecidableEq, Repr

/-- `ScK8Config`, spu_k8_config.rs:44-51: the template, `base_node_port`, and the annotation
`fluvio.io/ingress-address` in `lb_service_annotations`. -/
structure Config where
  template : Option Template
  base : Option Nat
  address : Option Name
deriving DecidableEq, Repr

/-- `IngressAddr`, spec.rs:240-243, and `LoadBalancerIngress`, converted one to one by `convert`,
spu_controller.rs:266-271. -/
structure Addr where
  hostname : Option Name
  ip : Option Name
deriving DecidableEq, Repr

/-- `IngressAddr::host`, spec.rs:260-262. -/
def Addr.host (a : Addr) : Option Name := a.hostname.or a.ip

/-- The specification of a service with one port: the pod it selects, its type, its port, its port on the nodes, the
address wanted for the load balancer. -/
structure Spec where
  selector : Name
  kind : Option Kind
  port : Nat
  nodePort : Option Nat
  lbIp : Option Name
deriving DecidableEq, Repr

/-- A service in Kubernetes: the label `fluvio.io/spu-name`, the annotation `fluvio.io/ingress-address`, the
specification, and the addresses in its status. -/
structure Service where
  label : Option Name
  address : Option Name
  spec : Spec
  ingress : List Addr
deriving DecidableEq, Repr

/-- `SPU_PUBLIC_PORT`, `fluvio-types/src/defaults.rs`. -/
def publicPort : Nat := 9005

/-- `apply_service`, spu_k8_config.rs:108-138.  The sum of base port and index is a `u16`. -/
def applyService (cfg : Config) (replica : Nat) (s : Spec) : Spec :=
  match cfg.template with
  | none => { s with port := publicPort, nodePort := none }
  | some t =>
    { s with
      kind := match t.kind with | some k => some k | none => s.kind
      lbIp := match s.lbIp with | some ip => some ip | none => s.lbIp
      port := publicPort
      nodePort :=
        match t.kind, cfg.base with
        | some .nodePort, some b => some ((b + replica) % 2 ^ 16)
        | _, _ => none }

/-- `service_name`, spu_service.rs:35-37. -/
def serviceName (spu : Name) : Name := "fluvio-spu-".toList ++ spu

/-- `spply_spu_load_service`, spu_service.rs:178-218: the service handed to Kubernetes. -/
def service (cfg : Config) (spu : Name) (replica : Nat) : Service :=
  { label := some spu
    address := cfg.address
    spec := applyService cfg replica ⟨"fluvio-spg-".toList ++ spu, none, 0, none, none⟩
    ingress := [] }

/-! ## Kubernetes (not part of the repository) -/

/-- The services. -/
abbrev Services := List (Name × Service)

/-- The port on the nodes is free for the service `n`. -/
def free (S : Services) (n : Name) (p : Nat) : Bool :=
  S.all fun e => e.1 = n || e.2.spec.nodePort ≠ some p

/-- The port on the nodes of a service of type `NodePort`: the one it asks for, else the one it had, else one Kubernetes
chooses. -/
def nodePortOf (old : Option Service) (s : Service) (choice : Nat) : Nat :=
  match s.spec.nodePort with
  | some p => p
  | none => match old.bind (·.spec.nodePort) with | some p => p | none => choice

/-- The addresses in the status of a service that may exist. -/
def status (old : Option Service) : List Addr :=
  match old with
  | some o => o.ingress
  | none => []

/-- Kubernetes applies a service: it creates it, or changes it and keeps its status.  A port on the
nodes in use by another service is refused, and so is a port on the nodes for other types.  Simplified: services of type `LoadBalancer` also get ports on
the nodes, which nobody uses here. -/
def apply (S : Services) (n : Name) (s : Service) (choice : Nat) : Option Services :=
  let old := get S n
  let s := { s with ingress := status old }
  if s.spec.kind = some .nodePort then
    let p := nodePortOf old s choice
    if free S n p then some (put S n { s with spec := { s.spec with nodePort := some p } }) else none
  else if s.spec.nodePort.isSome then none
  else some (put S n s)

/-- What can happen to services.

* `serve`: the controller applies the service of a broker.
* `foreign`: somebody creates another service, without the label.
* `remove`: a service is deleted.
* `assign`: the cloud gives a load balancer addresses; no two services share one. -/
inductive Ev
  | serve (cfg : Config) (group : Name) (i choice : Nat)
  | foreign (n : Name) (spec : Spec) (choice : Nat)
  | remove (n : Name)
  | assign (n : Name) (addrs : List Addr)

/-- The broker name is part of the service name, spu_service.rs:161, 196. -/
def step (S : Services) : Ev → Services
  | .serve cfg group i choice =>
    (apply S (serviceName (spuName group i)) (service cfg (spuName group i) i) choice).getD S
  | .foreign n spec choice =>
    if (get S n).isSome || "fluvio-spu-".toList.isPrefixOf n then S
    else (apply S n ⟨none, none, spec, []⟩ choice).getD S
  | .remove n => del S n
  | .assign n addrs =>
    match get S n with
    | none => S
    | some s =>
      if S.all fun e => e.1 = n || e.2.ingress.all fun a => addrs.all fun b => a.host ≠ b.host then
        put S n { s with ingress := addrs }
      else S

def run (S : Services) : List Ev → Services
  | [] => S
  | e :: es => run (step S e) es

/-! ## The controller of services -/

/-- `update_services`, spu_service.rs:154-176, for groups given by name and number of brokers: it stops at the first
error.  The flag tells whether it came to the end. -/
def updateServices (cfg : Config) (choice : Name → Nat) : Services → List (Name × Nat) → Services × Bool
  | S, work =>
    match work with
    | [] => (S, true)
    | (g, i) :: rest =>
      match apply S (serviceName (spuName g i)) (service cfg (spuName g i) i) (choice (spuName g i)) with
      | some S' => updateServices cfg choice S' rest
      | none => (S, false)
termination_by _ work => work.length

/-- The brokers of the groups in the order of the two loops, spu_service.rs:159-165. -/
def brokers (groups : List (Name × Nat)) : List (Name × Nat) :=
  groups.flatMap fun g => (List.range g.2).map fun i => (g.1, i)

/-! ## The controller of brokers -/

/-- `IngressPort`, spec.rs:196-202. -/
structure Ingress where
  port : Nat
  ingress : List Addr
deriving DecidableEq, Repr

/-- `add_ingress_from_svc_annotation`, spu_controller.rs:247-264.  `ipText` gives the text of an IP address as Rust
prints it, if the text is one. -/
def annotated (ipText : Name → Option Name) (s : Service) : List Addr :=
  match s.address with
  | none => []
  | some a =>
    match ipText a with
    | some ip => [⟨none, some ip⟩]
    | none => [⟨some a, none⟩]

/-- `get_ingress_from_service`, spu_controller.rs:203-245. -/
def getIngress (ipText : Name → Option Name) (s : Service) : Option Ingress :=
  match s.spec.kind with
  | some .nodePort => s.spec.nodePort.map fun p => ⟨p, annotated ipText s⟩
  | _ => some ⟨s.spec.port, s.ingress ++ annotated ipText s⟩

/-- One service of the loop in `get_spu_services`, spu_controller.rs:183-197. -/
def note (ipText : Name → Option Name) (m : List (Name × Ingress)) (e : Name × Service) : List (Name × Ingress) :=
  match e.2.label, getIngress ipText e.2 with
  | some n, some i => put m n i
  | _, _ => m

/-- `get_spu_services`, spu_controller.rs:178-201: a map from names of brokers; `convert_from_k8`,
spu_service.rs:108-126, skips services without the label. -/
def spuServices (ipText : Name → Option Name) (S : Services) : List (Name × Ingress) :=
  S.foldl (note ipText) []

/-- The public endpoint of a broker in `as_spu`, spg_group.rs:109-119. -/
def endpoint (ipText : Name → Option Name) (S : Services) (spu : Name) : Ingress :=
  match get (spuServices ipText S) spu with
  | some i => i
  | none => ⟨publicPort, []⟩

/-- `host` and `host_string`, spec.rs:217-230. -/
def Ingress.host (i : Ingress) : Name :=
  match i.ingress with
  | [] => []
  | a :: _ => a.host.getD []

/-- The host of the local public endpoint, spg_group.rs:125, 137-141; its port is `publicPort`. -/
def localHost (ns spu : Name) : Name :=
  "fluvio-spu-".toList ++ spu ++ '.' :: ns ++ ".svc.cluster.local".toList

end Verif.Sc.Addresses
