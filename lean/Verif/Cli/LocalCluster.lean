/-!
# Clusters on the local machine

Models the commands `fluvio cluster start | resume | shutdown | delete | upgrade` for clusters of the type "local":
`crates/fluvio-cluster/src/start/local.rs:396-766`, `runtime/local/{sc,spu}.rs`, `process/mod.rs`, `delete.rs:80-200`,
`cli/{shutdown,resume,delete,upgrade}.rs`, the checks in `check/mod.rs:688-772`, the way `fluvio run …` runs the program
`fluvio-run` (`crates/fluvio-cli/src/lib.rs:329-385`) and
`crates/fluvio-extension-common/src/installation.rs:61-78`.

Left out: clusters on Kubernetes and clusters that only read their description (`--read-only`); of these only the
decision which commands act on them is modelled. The home directory is taken to exist, so that the paths of the saved
description and of the default data directory are known (local.rs:31-34). TLS appears only as a flag which adds a port.
Waiting, progress output and the content of log files are left out. Whether the controller answers and the brokers come
online in time is decided by the surroundings (`Env`).
-/

namespace Verif.Cli.LocalCluster

/-- A process of the machine. `waits` is the process it was started to wait for: `fluvio run …` starts `fluvio-run …`,
waits for it and ends with it (fluvio-cli/src/lib.rs:361-385). `mine`: people may end it (process/mod.rs:38-46). -/
structure Proc where
  pid : Nat
  name : String
  argv : List String
  mine : Bool := true
  waits : Option Nat := none
deriving DecidableEq, Repr

/-- `InstallationType`, fluvio-extension-common/src/installation.rs:9-19. -/
inductive Kind
  | k8 | onThisMachine | localK8 | readOnly | docker | cloud
deriving DecidableEq, Repr

/-- What the commands read of the current cluster of the current profile: the name of the cluster, the type of
installation if one was saved, and whether the cloud left a mark (installation.rs:61-74). -/
structure Profile where
  cluster : String
  install : Option Kind
  cloudMark : Bool
deriving DecidableEq, Repr

/-- `InstallationType::load`, installation.rs:61-72. -/
def Profile.kind (p : Profile) : Kind :=
  match p.install, p.cloudMark with
  | some k, _ => k
  | none, true => .cloud
  | none, false => .k8

/-- `LocalConfig`, start/local.rs:50-187, as far as the commands use it; the type of installation is "local".
`launcherName` is the name under which processes of the launcher appear, the last part of its path. -/
structure Config where
  version : Nat
  dataDir : String
  launcher : String
  launcherName : String := "fluvio"
  replicas : Nat
  tls : Bool := false
  pubAddr : String := "127.0.0.1:9003"
  saveProfile : Bool := true
  skipChecks : Bool := false
deriving DecidableEq, Repr

/-- What lies in a data directory: the brokers registered in the metadata of the controller, and all the rest. -/
structure Dir where
  brokers : List Nat
  records : List Nat
deriving DecidableEq, Repr

/-- The machine. `config` is the file `~/.fluvio/local-config`, `socket` the monitoring socket of brokers. -/
structure World where
  procs : List Proc
  nextPid : Nat
  config : Option Config
  dirs : String → Option Dir
  socket : Bool
  profile : Option Profile

/-- `DEFAULT_DATA_DIR`, start/local.rs:33-34. -/
def defaultDataDir : String := "~/.fluvio/data"

/-- What the surroundings decide during a start: the controller accepts connections in time (local.rs:580-589), and
exactly the wanted number of brokers comes online in time (local.rs:712-750). -/
structure Env where
  scUp : Bool
  online : Bool
deriving DecidableEq, Repr

/-! ### The brokers of a local cluster -/

/-- `LocalSpuProcess` and its `SpuSpec`, runtime/local/spu.rs:16-26, 97-128. `plain` is the port without TLS. -/
structure Spu where
  id : Nat
  publicPort : Nat
  privatePort : Nat
  plain : Option Nat
deriving DecidableEq, Repr

/-- Arithmetic of `u16` in a release build. -/
def u16 (n : Nat) : Nat := n % 65536

/-- `create_spu_absolute`, spu.rs:95-98, and the port without TLS, spu.rs:44-46. -/
def createAbsolute (tls : Bool) (id : Nat) : Spu :=
  let index := u16 (id + (65536 - 5001))
  let publicPort := u16 (9010 + u16 (index * 10))
  let privatePort := u16 (publicPort + 1)
  ⟨id, publicPort, privatePort, if tls then some (u16 (privatePort + 1)) else none⟩

/-- `create_spu_relative`, spu.rs:91-93. -/
def createRelative (tls : Bool) (i : Nat) : Spu := createAbsolute tls (u16 (i + 5001))

/-- An address on all interfaces, spu.rs:50-53. -/
def anyAddr (port : Nat) : String := "0.0.0.0:" ++ toString port

/-- The arguments of the broker, spu.rs:38-57, and of the controller, sc.rs:43-67. The paths of certificates are left
out. -/
def spuArgs (c : Config) (s : Spu) : List String :=
  ["spu"] ++ (match s.plain with
    | some p => ["--tls", "--bind-non-tls-public", anyAddr p]
    | none => []) ++
  ["-i", toString s.id, "-p", anyAddr s.publicPort, "-v", anyAddr s.privatePort, "--log-base-dir", c.dataDir]

def scArgs (c : Config) : List String :=
  ["sc", "--local", c.dataDir ++ "/metadata", "--bind-public", c.pubAddr] ++
    (if c.tls then ["--tls", "--bind-non-tls-public", "0.0.0.0:9005"] else [])

/-! ### Starting -/

/-- `ScProcess::start` and `LocalSpuProcess::start`: `<launcher> run <args>` (sc.rs:36-42, spu.rs:36-42), which in turn
runs `fluvio-run <args>` and waits (fluvio-cli/src/lib.rs:329-365). Both are taken to start. -/
def spawn (c : Config) (args : List String) (w : World) : World :=
  { w with
    procs := w.procs ++
      [⟨w.nextPid, c.launcherName, c.launcher :: "run" :: args, true, some (w.nextPid + 1)⟩,
       ⟨w.nextPid + 1, "fluvio-run", "fluvio-run" :: args, true, none⟩]
    nextPid := w.nextPid + 2 }

/-- The controller creates its metadata in the data directory and registers a broker unless it is known
(`launch_spu_read_only`, local.rs:691-707). -/
def register (dir : String) (id : Nat) (w : World) : World :=
  let d := (w.dirs dir).getD ⟨[], []⟩
  let d' := if d.brokers.contains id then d else { d with brokers := d.brokers ++ [id] }
  { w with dirs := fun p => if p = dir then some d' else w.dirs p }

/-- `launch_spu_group_read_only`, local.rs:664-680: for clusters of the type "local" as well (local.rs:507-511). -/
def launchSpus (c : Config) : List Nat → World → World
  | [], w => w
  | i :: is, w =>
    let s := createRelative c.tls i
    launchSpus c is (spawn c (spuArgs c s) (register c.dataDir s.id w))

/-- `set_profile`, local.rs:592-614: the profile "local" becomes the current one, with its type of installation. -/
def setProfile (w : World) : World := { w with profile := some ⟨"local", some .onThisMachine, false⟩ }

/-- `install_only`, local.rs:449-535. The answer is whether it succeeded. The monitoring socket is made by brokers. -/
def installOnly (c : Config) (e : Env) (w : World) : World × Bool :=
  let w := if c.saveProfile then setProfile w else w
  let w := spawn c (scArgs c) w
  if !e.scUp then (w, false)
  else
    let w := launchSpus c (List.range c.replicas) w
    let w := { w with socket := w.socket || !(c.replicas == 0) }
    if !e.online then (w, false) else ({ w with config := some c }, true)

/-- `LocalClusterCheck`, check/mod.rs:692-708. -/
def noneRunning (w : World) : Bool := !(w.procs.any fun p => p.name == "fluvio-run")

/-- `install`, local.rs:440-446, with `preflight_check`, local.rs:396-408 (`with_no_k8_checks`, check/mod.rs:831-834; a
saved description means that a cluster was not deleted, check/mod.rs:719-737). -/
def start (c : Config) (e : Env) (w : World) : World × Bool :=
  if !c.skipChecks && !(noneRunning w && w.config.isNone) then (w, false) else installOnly c e w

/-! ### Stopping -/

/-- The test in `kill_proc`, process/mod.rs:21-37: the wanted arguments are compared with the first elements of the
command line, of which the very first is the program. -/
def wanted (name : String) (args : Option (List String)) (p : Proc) : Bool :=
  p.name == name && match args with
    | none => true
    | some a => decide (a.length ≤ p.argv.length) && p.argv.take a.length == a

/-- `kill_proc`, process/mod.rs:16-47. -/
def killProc (name : String) (args : Option (List String)) (ps : List Proc) : List Proc :=
  ps.filter fun p => !(wanted name args p && p.mine)

/-- Processes that only waited for an ended process end (fluvio-cli/src/lib.rs:361-385). -/
def settle (ps : List Proc) : List Proc :=
  ps.filter fun p => match p.waits with
    | none => true
    | some c => ps.any fun q => q.pid == c

/-- `kill_local_processes`, process/mod.rs:13-53. -/
def killLocal (ps : List Proc) : List Proc :=
  let ps := killProc "fluvio" (some ["cluster", "run"]) ps
  let ps := killProc "fluvio" (some ["run"]) ps
  settle (killProc "fluvio-run" none ps)

/-- `shutdown_local`, cli/shutdown.rs:54-75. -/
def shutdownLocal (w : World) : World := { w with procs := killLocal w.procs, socket := false }

/-- `ShutdownOpt::process`, cli/shutdown.rs:23-52. The answer is the outcome the command reports to the shell. For
`LocalK8` also objects in Kubernetes are removed. -/
def shutdown (w : World) : World × Bool :=
  match w.profile with
  | none => (w, false)
  | some p => match p.kind with
    | .onThisMachine | .localK8 | .readOnly => (shutdownLocal w, true)
    | .cloud => (w, false)
    | _ => (w, true)

/-! ### Resuming -/

/-- `ResumeOpt::process`, `LocalResume::resume`, cli/resume.rs:19-92. The answers: whether the cluster was resumed, and
what the command reports to the shell. Both checks always run (check/mod.rs:880-975); a description that cannot be
loaded fails the second one. -/
def resume (version : Nat) (e : Env) (w : World) : World × Bool × Bool :=
  match w.profile with
  | none => (w, false, false)
  | some p => match p.kind with
    | .onThisMachine | .readOnly =>
      match w.config with
      | none => (w, false, true)
      | some c =>
        if noneRunning w && c.version == version then
          let r := installOnly c e w
          (r.1, r.2, true)
        else (w, false, true)
    | _ => (w, false, true)

/-! ### Deleting -/

/-- What `ClusterUninstallConfig` asks for, delete.rs:18-41. -/
structure Plan where
  here : Bool
  k8 : Bool
  sys : Bool
deriving DecidableEq, Repr

/-- The options of `fluvio cluster delete`, cli/delete.rs:11-29; `typed` is what people type when asked. -/
structure DeleteOpt where
  k8Only : Bool := false
  sysOnly : Bool := false
  force : Bool := false
  typed : String := ""
deriving DecidableEq, Repr

/-- `trim`, cli/delete.rs:49; only of the white space of ASCII. -/
def trim (s : String) : String :=
  String.ofList ((s.toList.dropWhile Char.isWhitespace).reverse.dropWhile Char.isWhitespace).reverse

/-- The choice in `DeleteOpt::process`, cli/delete.rs:64-101. -/
def plan (o : DeleteOpt) (k : Kind) : Option Plan :=
  if o.sysOnly then some ⟨false, false, true⟩
  else if o.k8Only then some ⟨false, true, false⟩
  else match k with
    | .k8 => some ⟨false, true, true⟩
    | .localK8 => some ⟨true, true, true⟩
    | .onThisMachine | .readOnly => some ⟨true, false, false⟩
    | .cloud | .docker => none

/-- `uninstall_local`, delete.rs:141-159, with `delete_data_dir`, `delete_local_config` and `delete_spu_socket`,
process/mod.rs:93-115. The files are taken to be removable. -/
def uninstallLocal (w : World) : World :=
  { w with
    procs := killLocal w.procs
    config := none
    dirs := fun p => if p = defaultDataDir then none else w.dirs p
    socket := false }

/-- `DeleteOpt::process`, cli/delete.rs:31-117. The answers: the plan that was carried out, if any, and what the command
reports to the shell. -/
def delete (o : DeleteOpt) (w : World) : World × Option Plan × Bool :=
  match w.profile with
  | none => (w, none, false)
  | some p =>
    if !o.force && trim o.typed != p.cluster then (w, none, true)
    else match plan o p.kind with
      | none => (w, none, false)
      | some pl => (if pl.here then uninstallLocal w else w, some pl, true)

/-! ### Upgrading -/

/-- `UpgradeOpt::process` and `upgrade_local_cluster`, cli/upgrade.rs:35-141, after the confirmation. `metaOk dir`: the
metadata in this data directory can be read. The answers: whether the cluster was upgraded, and what the command reports.
An upgrade on Kubernetes is left out. -/
def upgrade (version : Nat) (launcher launcherName : String) (metaOk : String → Bool) (requested : Option Kind)
    (w : World) : World × Bool × Bool :=
  match w.profile with
  | none => (w, false, false)
  | some p =>
    if requested.isSome && requested != some p.kind then (w, false, false)
    else match p.kind with
      | .k8 => (w, false, true)
      | .onThisMachine | .localK8 | .readOnly =>
        let w := shutdownLocal w
        if !metaOk defaultDataDir then (w, false, true)
        else match w.config with
          | none => (w, false, true)
          | some c =>
            ({ w with config := some { c with version := version, launcher := launcher, launcherName := launcherName } },
              true, true)
      | .cloud | .docker => (w, false, false)

/-! ### Executions -/

/-- The commands, and what else happens on the machine: other processes come and go, brokers write records. Other
processes are not called `fluvio-run`. -/
inductive Op
  | start (c : Config) (e : Env)
  | resume (version : Nat) (e : Env)
  | shutdown
  | delete (o : DeleteOpt)
  | upgrade (version : Nat) (launcher launcherName : String) (metaOk : String → Bool) (requested : Option Kind)
  | other (name : String) (argv : List String) (mine : Bool)
  | gone (pid : Nat)
  | write (dir : String) (r : Nat)

def step (w : World) : Op → World
  | .start c e => (start c e w).1
  | .resume v e => (resume v e w).1
  | .shutdown => (shutdown w).1
  | .delete o => (delete o w).1
  | .upgrade v l n m r => (upgrade v l n m r w).1
  | .other name argv mine =>
    if name = "fluvio-run" then w
    else { w with procs := w.procs ++ [⟨w.nextPid, name, argv, mine, none⟩], nextPid := w.nextPid + 1 }
  | .gone pid => { w with procs := settle (w.procs.filter fun p => p.pid != pid) }
  | .write dir r =>
    { w with dirs := fun p => if p = dir then (w.dirs dir).map fun d => { d with records := d.records ++ [r] } else w.dirs p }

def run (w : World) (ops : List Op) : World := ops.foldl step w

end Verif.Cli.LocalCluster
