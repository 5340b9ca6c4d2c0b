/-!
# Local deployments of connectors

Models `crates/cdk/src/deploy.rs` (`start`, `shutdown`, `list` and the index file of deployments) and
`crates/fluvio-connector-deployer/src/{lib,local}.rs` (starting the process).

Simplifications: whether the package can be read or built, and whether the configuration is valid and the process can be
started, are inputs; a temporary
directory is a number; log files and output are left out; writing the index never fails.
-/

namespace Verif.Connector.Deploy

/-- `Entry` — cdk/src/deploy.rs:377-386, without the log file -/
structure Entry where
  pid : Nat
  name : String
  tmp : Option Nat
deriving DecidableEq, Repr

/-- What a process is. -/
inductive Proc
  | connector (name : String)
  | other
deriving DecidableEq, Repr

/-- The machine: the index file (`none` if it is missing or cannot be read), the processes, and the temporary
directories that are there. -/
structure World where
  index : Option (List Entry)
  procs : Nat → Option Proc
  dirs : Nat → Bool

/-- `LocalIndex::load` — cdk/src/deploy.rs:404-421 -/
def loadIndex (w : World) : List Entry := w.index.getD []

/-- `find_by_name` — cdk/src/deploy.rs:455-465 -/
def findByName (l : List Entry) (n : String) : Option Entry := l.find? fun e => e.name == n

/-- `insert` — cdk/src/deploy.rs:423-434 -/
def insertEntry (l : List Entry) (e : Entry) : Option (List Entry) :=
  match findByName l e.name with
  | some _ => none
  | none => some (l ++ [e])

/-- `store` — cdk/src/deploy.rs:570-574 -/
def store (w : World) (e : Entry) : World × Bool :=
  match insertEntry (loadIndex w) e with
  | none => (w, false)
  | some l => ({ w with index := some l }, true)

/-- `from_ipkg_file` — cdk/src/deploy.rs:292-335: the binary is unpacked into a new directory -/
def unpack (w : World) : Option Nat → World
  | none => w
  | some t => { w with dirs := fun q => q = t || w.dirs q }

/-- `deploy_local` of the deployer — fluvio-connector-deployer/src/local.rs:24-66; the system chooses the process id -/
def spawn (w : World) (pid : Nat) (n : String) : World :=
  { w with procs := fun q => if q = pid then some (.connector n) else w.procs q }

/-- `deploy_local` — cdk/src/deploy.rs:183-229, fluvio-connector-deployer/src/lib.rs:52-87 -/
def start (w : World) (packageOk configOk : Bool) (n : String) (pid : Nat) (tmp : Option Nat) : World × Bool :=
  if packageOk then
    let w1 := unpack w tmp
    if configOk then store (spawn w1 pid n) ⟨pid, n, tmp⟩
    else (w1, false)
  else (w, false)

/-- `kill` — cdk/src/deploy.rs:518-531: the signal is sent to whatever process has the id, the result is dropped; `dies`
tells which processes end -/
def kill (w : World) (dies : Nat → Bool) (pid : Nat) : World :=
  if dies pid then { w with procs := fun q => if q = pid then none else w.procs q } else w

/-- `remove_dir_all` -/
def removeDir (w : World) (t : Nat) : Option World :=
  if w.dirs t then some { w with dirs := fun q => q != t && w.dirs q } else none

/-- `delete_by_name` with `remove` — cdk/src/deploy.rs:581-610, 436-453 -/
def shutdown (w : World) (dies : Nat → Bool) (n : String) : World × Bool :=
  let l := loadIndex w
  match findByName l n with
  | none => ({ w with index := some l }, true)
  | some e =>
    let w1 := kill w dies e.pid
    let rest := l.eraseP fun e => e.name == n
    match e.tmp with
    | none => ({ w1 with index := some rest }, true)
    | some t =>
      match removeDir w1 t with
      | none => (w1, false)
      | some w2 => ({ w2 with index := some rest }, true)

/-- `print_table` — cdk/src/deploy.rs:474-500, 503-516: name and whether it is running -/
def list (w : World) : List (String × Bool) := (loadIndex w).map fun e => (e.name, (w.procs e.pid).isSome)

/-! ### What else happens on the machine -/

/-- a process ends by itself -/
def exit (w : World) (pid : Nat) : World :=
  { w with procs := fun q => if q = pid then none else w.procs q }

/-- another program is started -/
def other (w : World) (pid : Nat) : World :=
  { w with procs := fun q => if q = pid then some .other else w.procs q }

end Verif.Connector.Deploy
