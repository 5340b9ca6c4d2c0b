/-!
# The checks before a cluster is started

Models `crates/fluvio-cluster/src/check/mod.rs` (the checks, their order and how they are run) and where lists of
checks are put together: `start/{k8,local}.rs` (`preflight_check`), `cli/check.rs`, `cli/resume.rs`.

Simplifications: what the checks look at is a `Machine` with the results of the programs they call; texts are left
out.  Versions are numbers.
-/

namespace Verif.Cli.ClusterCheck

/-- `FluvioClusterComponent` — check/mod.rs:268-273 -/
inductive Component
  | helm | kubernetes | k8Version | sysChart
deriving DecidableEq, Repr

/-- The result of a check — `CheckStatus`, check/mod.rs:127-141; `error` is `Err` of `perform_check`.  A fixer turns
the machine into another one and succeeds or not. -/
inductive Status (σ : Type)
  | pass
  | fixable (fix : σ → σ × Bool)
  | unrecoverable
  | error

/-- A check — trait `ClusterCheck`, check/mod.rs:276-292 -/
structure Check (σ : Type) where
  label : String
  component : Option Component
  requires : List Component
  perform : σ → Status σ

variable {σ : Type}

/-- `check_compare` — check/mod.rs:990-1017 -/
def checkCompare (first second : Check σ) : Ordering :=
  if first.requires.any fun d => second.component == some d then .gt
  else if second.requires.any fun d => first.component == some d then .lt
  else .eq

/-- One step of the insertion sort that `sort_by` uses for up to 20 elements, on the reversed list: the new element
moves to the front as long as it is less than the element before it. -/
def insertBack (x : Check σ) : List (Check σ) → List (Check σ)
  | [] => [x]
  | p :: rest => if checkCompare x p = .lt then p :: insertBack x rest else x :: p :: rest

/-- `sorted_checks.sort_by(check_compare)` — check/mod.rs:890-891, for up to 20 checks -/
def sort (l : List (Check σ)) : List (Check σ) := (l.foldl (fun r x => insertBack x r) []).reverse

/-- What became of a check. -/
inductive Outcome
  | passed | fixed | fixFailed | fixDisabled | bad | skipped
deriving DecidableEq, Repr

/-- `passed` in the loop — check/mod.rs:896, 922, 951 -/
def Outcome.good : Outcome → Bool
  | .passed | .fixed => true
  | _ => false

/-- performing one check whose requirements are met — check/mod.rs:913-970; `none` when the check itself fails -/
def attempt (fix : Bool) (m : σ) (c : Check σ) : Option (Outcome × σ) :=
  match c.perform m with
  | .pass => some (.passed, m)
  | .fixable f =>
    if fix then (if (f m).2 then some (.fixed, (f m).1) else some (.fixFailed, (f m).1))
    else some (.fixDisabled, m)
  | .unrecoverable => some (.bad, m)
  | .error => none

/-- one round of the loop: a check is skipped unless all required components are registered — check/mod.rs:899-912,
971-977 -/
def visit (fix : Bool) (comps : List Component) (m : σ) (c : Check σ) : Option (Outcome × σ) :=
  if c.requires.all fun d => comps.contains d then attempt fix m c else some (.skipped, m)

/-- registering the component of a check that passed — check/mod.rs:979-982 -/
def register (comps : List Component) (c : Check σ) (o : Outcome) : List Component :=
  if o.good then (match c.component with | some d => d :: comps | none => comps) else comps

/-- The protocol of a run: what became of the checks, in order, whether a check failed to run (which ends the run at
once), and the machine afterwards. -/
structure Report (σ : Type) where
  log : List (Check σ × Outcome)
  aborted : Bool
  machine : σ

/-- the loop of `run` — check/mod.rs:894-985 -/
def loop (fix : Bool) : List Component → σ → List (Check σ) → Report σ
  | _, m, [] => ⟨[], false, m⟩
  | comps, m, c :: rest =>
    match visit fix comps m c with
    | none => ⟨[], true, m⟩
    | some (o, m') =>
      let r := loop fix (register comps c o) m' rest
      { r with log := (c, o) :: r.log }

/-- `ClusterChecker::run` -/
def run (fix : Bool) (checks : List (Check σ)) (m : σ) : Report σ := loop fix [] m (sort checks)

/-- the result of `run` — check/mod.rs:894, 987-993 -/
def Report.ok (r : Report σ) : Bool := !r.aborted && r.log.all fun e => e.2.good

/-! ## The checks -/

/-- What the checks look at.  `kubectl` and `helm` say whether the programs can be called; the versions are what they
report (`serverVersion = none`: no connection); `sysCharts`/`appCharts` are the versions of the charts installed
(`none`: helm fails); `permissions` are the answers of `kubectl auth can-i create`. -/
structure Machine where
  activeCluster : Bool
  kubectl : Bool
  serverVersion : Option Nat
  helm : Bool
  helmVersion : Nat
  sysCharts : Option (List Nat)
  appCharts : Option (List Nat)
  installWorks : Bool
  mayCreateService : Bool
  mayCreateCrd : Bool
  mayCreateSecret : Bool
  running : Bool
  localVersion : Option Nat
deriving DecidableEq, Repr

/-- `ActiveKubernetesCluster` — check/mod.rs:302-354 -/
def activeKubernetes : Check Machine :=
  ⟨"Kubernetes config", some .kubernetes, [], fun m => if m.activeCluster then .pass else .unrecoverable⟩

/-- the versions required: `KUBE_VERSION` 1.7.0 (check/mod.rs:31) and `DEFAULT_HELM_VERSION` 3.3.4 (charts/mod.rs:10),
with two digits for minor and patch -/
def minKube : Nat := 10700

@[inherit_doc minKube]
def minHelm : Nat := 30304

/-- `K8Version` — check/mod.rs:357-422 -/
def k8Version : Check Machine :=
  ⟨"Kubernetes version", some .k8Version, [.kubernetes], fun m =>
    if m.kubectl then
      match m.serverVersion with
      | none => .unrecoverable
      | some v => if v < minKube then .unrecoverable else .pass
    else .error⟩

/-- `HelmVersion` — check/mod.rs:425-466 -/
def helmVersion : Check Machine :=
  ⟨"Helm", some .helm, [], fun m =>
    if m.helm then (if m.helmVersion < minHelm then .unrecoverable else .pass) else .unrecoverable⟩

/-- installing or upgrading the system chart — check/mod.rs:558-602 -/
def setSysChart (platform : Nat) (m : Machine) : Machine × Bool :=
  if m.installWorks then ({ m with sysCharts := some [platform] }, true) else (m, false)

/-- `SysChartCheck` — check/mod.rs:469-555 -/
def sysChart (platform : Nat) : Check Machine :=
  ⟨"Fluvio Sys Chart", some .sysChart, [.helm, .kubernetes], fun m =>
    if m.helm then
      match m.sysCharts with
      | none => .unrecoverable
      | some [] => .fixable (setSysChart platform)
      | some [v] => if v = platform then .pass else .fixable (setSysChart platform)
      | some _ => .unrecoverable
    else .error⟩

/-- `AlreadyInstalled` — check/mod.rs:605-631 -/
def alreadyInstalled : Check Machine :=
  ⟨"Fluvio installation", none, [.helm, .kubernetes], fun m =>
    if m.helm then
      match m.appCharts with
      | none => .error
      | some [] => .pass
      | some _ => .unrecoverable
    else .error⟩

/-- `CreateServicePermission`, `CreateCrdPermission`, `CreateServiceAccountPermission` — check/mod.rs:634-685,
1019-1042 -/
def permission (label : String) (may : Machine → Bool) : Check Machine :=
  ⟨label, none, [.kubernetes], fun m =>
    if m.kubectl then (if may m then .pass else .unrecoverable) else .error⟩

/-- `LocalClusterCheck` — check/mod.rs:688-712 -/
def localCluster : Check Machine :=
  ⟨"Fluvio Local Installation", none, [], fun m => if m.running then .unrecoverable else .pass⟩

/-- `CleanLocalClusterCheck` — check/mod.rs:715-741 -/
def cleanLocal : Check Machine :=
  ⟨"Clean Fluvio Local Installation", none, [], fun m => if m.localVersion.isSome then .unrecoverable else .pass⟩

/-- `LocalClusterVersionCheck` — check/mod.rs:744-775 -/
def localVersion (v : Nat) : Check Machine :=
  ⟨"Versions match", none, [], fun m =>
    match m.localVersion with
    | none => .error
    | some i => if i = v then .pass else .unrecoverable⟩

/-- Where checks are made. -/
inductive Purpose
  /-- `fluvio cluster check` for Kubernetes — cli/check.rs:35-42, check/mod.rs:818-829 -/
  | checkK8
  /-- `fluvio cluster check` for a local cluster with Kubernetes — cli/check.rs:46, check/mod.rs:868-877 -/
  | checkLocalK8
  /-- `fluvio cluster check` for a local cluster, and starting one — cli/check.rs:43-45, start/local.rs:402-408 -/
  | startLocal
  /-- starting a local cluster with Kubernetes — start/local.rs:409-430 -/
  | startLocalK8
  /-- starting or upgrading on Kubernetes — start/k8.rs:607-632 -/
  | startK8 (installSys upgrade : Bool)
  /-- `fluvio cluster resume` — cli/resume.rs:84-90 -/
  | resume
deriving DecidableEq, Repr

/-- the checks for a purpose -/
def checks (platform : Nat) : Purpose → List (Check Machine)
  | .checkK8 =>
    [activeKubernetes, k8Version, helmVersion, permission "Service" (·.mayCreateService),
      permission "Crd" (·.mayCreateCrd), permission "Service Account" (·.mayCreateSecret), sysChart platform]
  | .checkLocalK8 => [helmVersion, k8Version, activeKubernetes, localCluster]
  | .startLocal => [localCluster, cleanLocal]
  | .startLocalK8 => [helmVersion, k8Version, activeKubernetes, localCluster, sysChart platform]
  | .startK8 installSys upgrade =>
    [activeKubernetes, helmVersion, k8Version] ++ (if installSys then [sysChart platform] else [])
      ++ (if upgrade then [] else [alreadyInstalled])
  | .resume => [localCluster, localVersion platform]

end Verif.Cli.ClusterCheck
