/-!
# Profiles of the client

Models `crates/fluvio/src/config/config.rs:54-420` and the commands in `crates/fluvio-cli/src/profile/`.

Simplifications: maps are association lists with at most one entry per key; of a profile only the cluster is kept,
of a cluster the endpoint, the TLS policy (as text) and one further setting; the file is one value: absent, readable
or not readable (being rewritten, damaged, or not permitted).
-/

namespace Verif.Client.Profile

/-- `FluvioClusterConfig`, config/cluster.rs:20-44. -/
structure Cluster where
  endpoint : String
  tls : String
  useLocal : Bool
deriving DecidableEq, Repr

/-- `Config`, config.rs:190-198: the current profile, the cluster each profile refers to, and the clusters. -/
structure Config where
  current : Option String
  profiles : List (String × String)
  clusters : List (String × Cluster)
deriving DecidableEq, Repr

def look {V : Type} (l : List (String × V)) (n : String) : Option V := (l.find? (·.1 = n)).map (·.2)

def del {V : Type} (l : List (String × V)) (n : String) : List (String × V) := l.filter (·.1 ≠ n)

def put {V : Type} (l : List (String × V)) (n : String) (v : V) : List (String × V) := (n, v) :: del l n

/-- `Config::new`, config.rs:201-206. -/
def Config.new : Config := ⟨none, [], []⟩

/-- `set_current_profile`, config.rs:244-251. -/
def Config.setCurrent (c : Config) (n : String) : Config × Bool :=
  if (look c.profiles n).isSome then ({ c with current := some n }, true) else (c, false)

/-- `rename_profile`, config.rs:253-275. -/
def Config.rename (c : Config) (src dst : String) : Config × Bool :=
  match look c.profiles src with
  | none => (c, false)
  | some p =>
    ({ c with profiles := put (del c.profiles src) dst p,
              current := if c.current = some src then some dst else c.current }, true)

/-- `delete_profile`, config.rs:278-291. -/
def Config.deleteProfile (c : Config) (n : String) : Config × Bool :=
  match look c.profiles n with
  | some _ => ({ c with profiles := del c.profiles n, current := if c.current = some n then none else c.current }, true)
  | none => (c, false)

/-- `delete_cluster`, config.rs:313-315. -/
def Config.deleteCluster (c : Config) (n : String) : Config := { c with clusters := del c.clusters n }

/-- `delete_cluster_check`, config.rs:340-354: the profiles that refer to the cluster. -/
def Config.conflicts (c : Config) (n : String) : List String := (c.profiles.filter (·.2 = n)).map (·.1)

/-- `current_profile`, config.rs:357-364, and `current_cluster`, config.rs:377-385. -/
def Config.currentCluster (c : Config) : Option Cluster :=
  ((c.current.bind (look c.profiles)).bind (look c.clusters))

/-- `cluster_with_profile`, config.rs:399-403. -/
def Config.clusterOf (c : Config) (profile : String) : Option Cluster :=
  (look c.profiles profile).bind (look c.clusters)

/-- `add_or_replace_profile`, config.rs:154-184; `set_local_context` (`profile/sync/local.rs:35-68`) and
`set_k8_context` (`profile/sync/k8.rs:67-108`) do the same with their own names. -/
def Config.addOrReplace (c : Config) (n addr tls : String) : Config :=
  let c1 : Config :=
    match look c.clusters n with
    | some k => { c with clusters := put c.clusters n { k with endpoint := addr, tls := tls } }
    | none => { c with clusters := put c.clusters n ⟨addr, tls, false⟩ }
  (Config.setCurrent { c1 with profiles := put c1.profiles n n } n).1

/-- The configuration file. -/
inductive File
  | absent
  | unreadable
  | config (c : Config)
deriving DecidableEq, Repr

/-- `ConfigFile::load`, config.rs:86-105. -/
def File.load : File → Option Config
  | .config c => some c
  | _ => none

/-- `load_default_or_new`, config.rs:75-85. -/
def File.loadOrNew (f : File) : Config := f.load.getD Config.new

/-- The commands (`fluvio profile …`). -/
inductive Cmd
  | add (n addr tls : String)
  | rename (src dst : String)
  | switch (n : String)
  | deleteProfile (n : String)
  | deleteCluster (n : String) (force : Bool)
deriving DecidableEq, Repr

/-- What a command writes, if anything: `profile/add.rs:19-37`, `rename.rs:14-27`, `switch.rs:17-32`,
`delete_profile.rs:16-42`, `delete_cluster.rs:16-73`. -/
def Cmd.exec (f : File) : Cmd → Option Config
  | .add n addr tls => some (f.loadOrNew.addOrReplace n addr tls)
  | .rename src dst => f.load.map fun c => (c.rename src dst).1
  | .switch n => f.load.bind fun c => if (c.setCurrent n).2 then some (c.setCurrent n).1 else none
  | .deleteProfile n => f.load.bind fun c => if (c.deleteProfile n).2 then some (c.deleteProfile n).1 else none
  | .deleteCluster n force => f.load.bind fun c =>
    if (look c.clusters n).isNone then none
    else if !force && c.conflicts n ≠ [] then none
    else some (c.deleteCluster n)

/-- Running a command: the new contents of the file.  `done = false`: the command is interrupted while saving; the
file has been truncated but not written (`save_to`, `fluvio-types/src/config_file.rs:34-44`). -/
def exec (f : File) (c : Cmd) (done : Bool := true) : File :=
  match c.exec f with
  | some cfg => if done then .config cfg else .unreadable
  | none => f

/-- Several commands. -/
def execAll (f : File) : List (Cmd × Bool) → File
  | [] => f
  | (c, d) :: cs => execAll (exec f c d) cs

end Verif.Client.Profile
