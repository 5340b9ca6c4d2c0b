/-!
# Release channels

Models `crates/fluvio-channel/src/lib.rs` (the configuration file of channels), `crates/fluvio-channel-cli/src/lib.rs`
(installing the binary of a channel), `cli/{create,delete,switch}.rs` and `bin/main.rs` (the frontend that is installed
as `fluvio` and runs the binary of the current channel).

Simplifications: a path is its list of components, so names of channels have no `/`; the file system is a map of
configuration files, a set of files and a set of directories; writing never fails; which strings are versions and what
the package registry answers are parameters; the branches for Windows and for a failing `current_exe` are left out.
-/

namespace Verif.Cli.Channel

abbrev Path := List String

/-- `ImageTagStrategy` — fluvio-channel/src/lib.rs:182-190 -/
inductive Strategy
  | version | versionGit | git
deriving DecidableEq, Repr

/-- `Display for ImageTagStrategy` — fluvio-channel/src/lib.rs:192-200 -/
def Strategy.text : Strategy → String
  | .version => "version"
  | .versionGit => "version-git"
  | .git => "git"

/-- `FluvioChannelInfo` — fluvio-channel/src/lib.rs:202-207 -/
structure Info where
  binary : Path
  extensions : Path
  strategy : Strategy
deriving DecidableEq, Repr

/-- `ChannelConfig` — fluvio-channel/src/lib.rs:165-170; the hash map is a list with one entry for a name -/
structure Config where
  current : String
  channels : List (String × Info)
deriving DecidableEq, Repr

/-- `ChannelConfig::default` — fluvio-channel/src/lib.rs:165 -/
def Config.empty : Config := ⟨"", []⟩

/-- `get_channel` — fluvio-channel/src/lib.rs:75-80 -/
def Config.get (c : Config) (n : String) : Option Info := (c.channels.find? fun e => e.1 == n).map (·.2)

/-- `remove_channel` — fluvio-channel/src/lib.rs:98-101 -/
def Config.remove (c : Config) (n : String) : Config := { c with channels := c.channels.filter fun e => e.1 != n }

/-- `insert_channel` — fluvio-channel/src/lib.rs:88-96 -/
def Config.insert (c : Config) (n : String) (i : Info) : Config :=
  { c with channels := (n, i) :: (c.remove n).channels }

/-- `set_current_channel` — fluvio-channel/src/lib.rs:132-135 -/
def Config.setCurrent (c : Config) (n : String) : Config := { c with current := n }

/-- What is found at the place of a configuration file. -/
inductive Stored
  | missing | unreadable | config (c : Config)
deriving DecidableEq, Repr

/-- The file system. -/
structure Disk where
  configs : Path → Stored
  file : Path → Bool
  dir : Path → Bool

/-- The versions that can be asked for — `FluvioBinVersion`, fluvio-channel/src/lib.rs:342-347 -/
inductive BinVersion
  | dev | stable | latest | tag (v : String)
deriving DecidableEq, Repr

/-- What asking the registry for a package gives: no answer about versions, no package file, or the package. -/
inductive Fetched
  | failed | unpublished | package
deriving DecidableEq, Repr

/-- The machine: home directory, place and name of the running program, versions and registry. -/
structure Env where
  home : Option Path
  exeDir : Path
  exeName : String
  isVersion : String → Bool
  fetch : BinVersion → Fetched

/-- `FluvioBinVersion::parse` — fluvio-channel/src/lib.rs:350-364; no letter outside ASCII has a lower
case in these two names -/
def parseVersion (e : Env) (s : String) : Option BinVersion :=
  if s.toList.map Char.toLower = "stable".toList then some .stable
  else if s.toList.map Char.toLower = "latest".toList then some .latest
  else if e.isVersion s then some (.tag s)
  else none

/-- `default_config_location` — fluvio-channel/src/lib.rs:112-121 -/
def location (e : Env) : Path :=
  match e.home with
  | some h => h ++ [".fluvio", "channel"]
  | none => ["."]

/-- `FluvioChannelInfo::new_channel` — fluvio-channel/src/lib.rs:224-266 -/
def newChannel (e : Env) (n : String) (s : Strategy) : Info :=
  let ext := if n = "stable" then "extensions" else "extensions-" ++ n
  match e.home with
  | some h => ⟨h ++ [".fluvio", "bin", "fluvio-" ++ n], h ++ [".fluvio", ext], s⟩
  | none => ⟨[".fluvio", "bin", "fluvio-" ++ n], [".fluvio", ext], s⟩

/-- `stable_channel` — fluvio-channel/src/lib.rs:293-295 -/
def stableChannel (e : Env) : Info := newChannel e "stable" .version

/-- `latest_channel` — fluvio-channel/src/lib.rs:297-299 -/
def latestChannel (e : Env) : Info := newChannel e "latest" .versionGit

/-- `dev_channel` — fluvio-channel/src/lib.rs:301-326 -/
def devChannel (e : Env) : Info := ⟨e.exeDir ++ ["fluvio"], ["extensions"], .git⟩

/-- `is_pinned_version_channel` — fluvio-channel/src/lib.rs:381-383 -/
def isPinned (n : String) : Bool := !(n == "stable" || n == "latest" || n == "dev")

/-- `from_file` — fluvio-channel/src/lib.rs:58-73 -/
def load (d : Disk) (p : Path) : Option Config :=
  match d.configs p with
  | .config c => some c
  | _ => none

/-- `save` — fluvio-channel/src/lib.rs:103-109, 331-339 -/
def save (d : Disk) (p : Path) (c : Config) : Disk :=
  { d with configs := fun q => if q = p then .config c else d.configs q }

/-- The configuration and the path it is saved to: that of the file, or the default with the default path —
cli/create.rs:47-63, cli/switch.rs:41-57 -/
def loadOrDefault (e : Env) (d : Disk) (given : Option Path) : Path × Config :=
  match load d (given.getD (location e)) with
  | some c => (given.getD (location e), c)
  | none => (location e, .empty)

/-- `install_channel_fluvio_bin` — fluvio-channel-cli/src/lib.rs:12-77; `none` on error.  A package that is not
published is no error (lines 52-59). -/
def install (e : Env) (d : Disk) (n : String) (c : Config) (v : BinVersion) : Option Disk :=
  match c.get n with
  | none => none
  | some i =>
    if v = .dev then none
    else match e.fetch v with
      | .failed => none
      | .unpublished => some d
      | .package => some { d with file := fun q => q = i.binary || d.file q }

/-- `CreateOpt` — cli/create.rs:13-32 -/
structure CreateOpt where
  config : Option Path := none
  channel : Option String
  binary : Option Path := none
  extensions : Option Path := none
  strategy : Option Strategy := none
deriving DecidableEq, Repr

/-- where `create` puts binaries — cli/create.rs:66-72 -/
def createHome (e : Env) : Path :=
  match e.home with
  | some h => h ++ [".fluvio"]
  | none => ["."]

/-- the new channel — cli/create.rs:74-103 -/
def createInfo (e : Env) (o : CreateOpt) (n : String) : Info where
  binary := o.binary.getD (createHome e ++ ["bin", "fluvio-" ++ n])
  extensions := o.extensions.getD (createHome e ++ ["bin", "extensions-" ++ n])
  strategy := o.strategy.getD .version

/-- installing the binary if it is not there — cli/create.rs:107-111 -/
def createBinary (e : Env) (d : Disk) (n : String) (c : Config) (binary : Path) : Option Disk :=
  if d.file binary then some d
  else match parseVersion e n with
    | none => none
    | some v => install e d n c v

/-- `CreateOpt::process` — cli/create.rs:35-124; the flag tells success -/
def create (e : Env) (d : Disk) (o : CreateOpt) : Disk × Bool :=
  match o.channel with
  | none => (d, false)
  | some n =>
    let pc := loadOrDefault e d o.config
    let c := pc.2.insert n (createInfo e o n)
    match createBinary e d n c (createInfo e o n).binary with
    | none => (d, false)
    | some d' => (save d' pc.1 c, true)

/-- `std::fs::remove_file` -/
def removeFile (d : Disk) (p : Path) : Option Disk :=
  if d.file p then some { d with file := fun q => q != p && d.file q } else none

/-- `std::fs::remove_dir_all`: all that is below goes with it -/
def removeDirAll (d : Disk) (p : Path) : Option Disk :=
  if d.dir p then
    some { d with file := fun q => !p.isPrefixOf q && d.file q, dir := fun q => !p.isPrefixOf q && d.dir q }
  else none

/-- `DeleteOpt::process` — cli/delete.rs:25-80 -/
def delete (e : Env) (d : Disk) (given : Option Path) (channel : Option String) : Disk × Bool :=
  match channel with
  | none => (d, false)
  | some n =>
    match load d (given.getD (location e)) with
    | none => (d, true)
    | some c =>
      match c.get n with
      | none => (d, true)
      | some i =>
        let d1 := save d (given.getD (location e)) (c.remove n)
        match removeFile d1 i.binary with
        | none => (d1, false)
        | some d2 =>
          match removeDirAll d2 i.extensions with
          | none => (d2, false)
          | some d3 => (d3, true)

/-- the channels that are known without being created — cli/switch.rs:75-85 -/
def known (e : Env) (n : String) : Option Info :=
  if n = "stable" then some (stableChannel e)
  else if n = "latest" then some (latestChannel e)
  else if n = "dev" then some (devChannel e)
  else none

/-- installing the binary at the first switch — cli/switch.rs:96-116 -/
def switchBinary (e : Env) (d : Disk) (n : String) (c : Config) : Option Disk :=
  if (n = "stable" ∧ d.file (stableChannel e).binary = false) ∨
      (n = "latest" ∧ d.file (latestChannel e).binary = false) then
    match parseVersion e n with
    | none => none
    | some v => install e d n c v
  else some d

/-- `SwitchOpt::process` — cli/switch.rs:29-134 -/
def switch (e : Env) (d : Disk) (given : Option Path) (channel : Option String) : Disk × Bool :=
  let pc := loadOrDefault e d given
  match channel with
  | none => (d, false)
  | some n =>
    if (pc.2.get n).isSome then (save d pc.1 (pc.2.setCurrent n), true)
    else match known e n with
      | none => (d, false)
      | some i =>
        let c := (pc.2.insert n i).setCurrent n
        let d1 := save d pc.1 c
        match switchBinary e d1 n c with
        | none => (d1, false)
        | some d2 => (save d2 pc.1 (c.setCurrent n), true)

/-! ### The frontend -/

/-- `ChannelCmd` — bin/main.rs:62-72; `list` changes nothing and is left out -/
inductive ChannelCmd
  | create (o : CreateOpt)
  | delete (config : Option Path) (channel : Option String)
  | switch (config : Option Path) (channel : Option String)
deriving DecidableEq, Repr

/-- `ChannelCmd::process` — bin/main.rs:74-83 -/
def process (e : Env) (d : Disk) : ChannelCmd → Disk × Bool
  | .create o => create e d o
  | .delete p n => delete e d p n
  | .switch p n => switch e d p n

/-- `RootCmd` — bin/main.rs:92-101 -/
inductive RootCmd
  | help
  | version (help : Bool) (cmd : Option ChannelCmd)
  | other (args : List String)
deriving DecidableEq, Repr

/-- The command line: the arguments after the program's name and what `Root::try_parse` makes of them (the flag
`--skip-channel-check` and the command), `none` on error — bin/main.rs:33-46, 173, 203-217. -/
structure CmdLine where
  raw : List String
  parsed : Option (Bool × RootCmd)

/-- The environment variables used — bin/main.rs:28-31, fluvio-channel/src/lib.rs:24-26.  `FLUVIO_FRONTEND` is what
`bool::from_str(..).unwrap_or(false)` gives. -/
structure Vars where
  loop : Option (String × Path) := none
  frontend : Option Bool := none
  bootstrap : Bool := false
  channelBootstrap : Option String := none
  releaseChannel : Option String := none
  extensionsDir : Option Path := none
  tagStrategy : Option String := none
deriving DecidableEq, Repr

/-- How a call of the frontend ends. -/
inductive Outcome
  | loopDetected
  /-- own help, printed or not -/
  | helped (printed : Bool)
  /-- a command on channels was carried out -/
  | channelCmd (ok : Bool)
  | failed
  | updateRefused
  /-- the process is replaced by that of a binary -/
  | ran (binary : Path) (args : List String) (vars : Vars)
  /-- `exec` failed, its error is dropped and the exit status is 0 -/
  | silent
deriving DecidableEq, Repr

/-- `is_frontend` — bin/main.rs:137-168 -/
def isFrontend (e : Env) (v : Vars) : Bool :=
  match v.frontend with
  | some b => b
  | none => e.exeName == "fluvio" || e.exeName == "fluvio.exe"

/-- the strategy of the first channel — bin/main.rs:256-262 -/
def bootstrapStrategy : BinVersion → Strategy
  | .stable => .version
  | .latest => .versionGit
  | .tag _ => .version
  | .dev => .git

/-- the first configuration — bin/main.rs:247-283 -/
def firstConfig (e : Env) (v : Vars) : Option (String × Info) :=
  if v.bootstrap then
    match v.channelBootstrap with
    | none => none
    | some n =>
      match parseVersion e n with
      | none => none
      | some bv => some (n, newChannel e n (bootstrapStrategy bv))
  else some ("stable", stableChannel e)

/-- the channel whose binary is to be run — bin/main.rs:220-291 -/
def chooseChannel (e : Env) (v : Vars) (d : Disk) (skip : Bool) : Disk × Option (String × Info) :=
  if isFrontend e v && !skip then
    match d.configs (location e) with
    | .unreadable => (d, none)
    | .config c => (d, (c.get c.current).map fun i => (c.current, i))
    | .missing =>
      match firstConfig e v with
      | none => (d, none)
      | some (n, i) => (save d (location e) ((Config.empty.insert n i).setCurrent n), some (n, i))
  else (d, some ("dev", devChannel e))

/-- refusing `update` — bin/main.rs:293-299 -/
def refuses (cmd : RootCmd) (n : String) : Bool :=
  match cmd with
  | .other args => args.contains "update" && isPinned n
  | _ => false

/-- the variables set — bin/main.rs:301-327 -/
def setVars (v : Vars) (n : String) (i : Info) : Vars :=
  { v with releaseChannel := some n, extensionsDir := some i.extensions, tagStrategy := some i.strategy.text
           loop := some (n, i.binary) }

/-- running the binary — bin/main.rs:310-347 -/
def exec (v : Vars) (d : Disk) (n : String) (i : Info) (raw : List String) : Outcome :=
  if d.file i.binary then .ran i.binary raw (setVars v n i) else .silent

/-- what follows the command line — bin/main.rs:220-347 -/
def forward (e : Env) (v : Vars) (d : Disk) (skip : Bool) (cmd : RootCmd) (raw : List String) : Disk × Outcome :=
  match chooseChannel e v d skip with
  | (d', none) => (d', .failed)
  | (d', some (n, i)) => if refuses cmd n then (d', .updateRefused) else (d', exec v d' n i raw)

/-- `main` — bin/main.rs:111-347 -/
def main (e : Env) (v : Vars) (d : Disk) (l : CmdLine) : Disk × Outcome :=
  if v.loop.isSome then (d, .loopDetected)
  else match l.parsed with
    | none => forward e v d false (.other l.raw) l.raw
    | some (_, .help) => (d, .helped (!isFrontend e v))
    | some (_, .version true _) => (d, .helped true)
    | some (_, .version false (some cmd)) =>
      let r := process e d cmd
      (r.1, .channelCmd r.2)
    | some (skip, .version false none) => forward e v d skip (.version false none) l.raw
    | some (skip, .other args) => forward e v d skip (.other args) l.raw

end Verif.Cli.Channel
