/-!
# The version manager

`fluvio-version-manager/src/{common,command}/*.rs`, `fluvio-hub-util/src/fvm/mod.rs`.

A command is a sequence of changes of the file system; it may stop after any of them.  `V` are versions, `B` the
contents of binaries.  Simplified: file operations do not fail (a failure is a stop at that moment); versions are
printed and parsed without loss; the order in which a directory is read is that of its list.
-/

namespace Verif.Fvm

/-- `Channel` — fluvio-hub-util/src/fvm/mod.rs:29-34; directories are named after channels. -/
inductive Chan (V : Type) where
  | stable | latest
  | tag (v : V)
  | other (s : String)
deriving DecidableEq

/-- A file: written to the end, or not. -/
inductive File (α : Type) where
  | whole (a : α)
  | torn
deriving DecidableEq

variable {V B : Type} [DecidableEq V]

/-- `VersionManifest` — common/manifest.rs:35-40; `contents` are names and versions of artifacts. -/
structure Manifest (V : Type) where
  channel : Chan V
  version : V
  contents : Option (List (String × V))

/-- A version directory — common/version_directory.rs:24-32: the manifest and all other files. -/
structure Dir (V B : Type) where
  manifest : Option (File (Manifest V))
  files : List (String × File B)

/-- `~/.fvm/versions`, `~/.fluvio/bin` and `~/.fvm/settings.toml` (common/settings.rs:17-23: channel and version). -/
structure Fs (V B : Type) where
  dirs : Chan V → Option (Dir V B)
  bin : String → Option (File B)
  settings : Option (File (Option (Chan V) × Option V))

/-- An artifact of a package set — fvm/mod.rs:118-124; `body` is what is downloaded. -/
structure Artifact (V B : Type) where
  name : String
  version : V
  body : B

/-- `PackageSet` — fvm/mod.rs:150-154 -/
structure Pkgset (V B : Type) where
  version : V
  artifacts : List (Artifact V B)

/-! ## Programs -/

/-- The states on the way, the last state, and the result, if there was no error. -/
abbrev Prog (V B α : Type) := Fs V B → List (Fs V B) × Fs V B × Option α

def Prog.ok {α : Type} (a : α) : Prog V B α := fun s => ([], s, some a)
def Prog.fail {α : Type} : Prog V B α := fun s => ([], s, none)
def Prog.read {α : Type} (f : Fs V B → Option α) : Prog V B α := fun s => ([], s, f s)
def Prog.act (f : Fs V B → Fs V B) : Prog V B Unit := fun s => ([f s], f s, some ())

def Prog.then {α β : Type} (p : Prog V B α) (q : α → Prog V B β) : Prog V B β := fun s =>
  match p s with
  | (l, t, none) => (l, t, none)
  | (l, t, some a) => (l ++ (q a t).1, (q a t).2)

def each {β : Type} (f : β → Prog V B Unit) : List β → Prog V B Unit
  | [] => .ok ()
  | b :: l => (f b).then fun _ => each f l

/-- a file in a directory is replaced or added -/
def put (l : List (String × File B)) (n : String) (x : File B) : List (String × File B) :=
  l.filter (fun e => decide (e.1 ≠ n)) ++ [(n, x)]

def remove (l : List (String × File B)) (n : String) : List (String × File B) :=
  l.filter fun e => decide (e.1 ≠ n)

def setDir (c : Chan V) (d : Option (Dir V B)) (s : Fs V B) : Fs V B :=
  { s with dirs := fun x => if x = c then d else s.dirs x }

def inDir (c : Chan V) (f : Dir V B → Dir V B) (s : Fs V B) : Fs V B := setDir c ((s.dirs c).map f) s

def setBin (n : String) (x : Option (File B)) (s : Fs V B) : Fs V B :=
  { s with bin := fun m => if m = n then x else s.bin m }

/-! ## Opening and activating -/

/-- `VersionDirectory::open` — version_directory.rs:36-72: an error without a manifest that can be read -/
def openDir (d : Dir V B) : Option (Manifest V × List (String × File B)) :=
  match d.manifest with
  | some (.whole m) => some (m, d.files)
  | _ => none

/-- `Settings::save` — settings.rs:79-86 -/
def saveSettings (x : Option (Chan V) × Option V) : Prog V B Unit :=
  (Prog.act fun s => { s with settings := some .torn }).then fun _ =>
    .act fun s => { s with settings := some (.whole x) }

/-- `Settings::open` — settings.rs:54-66; `init` (28-48) if there is no file.  A file of which nothing has been
written yet would be read as settings without values; here a torn file cannot be read. -/
def openSettings : Prog V B (Option (Chan V) × Option V) := fun s =>
  match s.settings with
  | none => ((saveSettings (none, none)).then fun _ => .ok (none, none)) s
  | some (.whole x) => ([], s, some x)
  | some .torn => ([], s, none)

/-- One binary of `set_active` — version_directory.rs:94-112: removed, then copied -/
def copyBin (e : String × File B) : Prog V B Unit :=
  (Prog.act (setBin e.1 none)).then fun _ =>
    (Prog.act (setBin e.1 (some .torn))).then fun _ => .act (setBin e.1 (some e.2))

/-- `set_active` — version_directory.rs:85-117, with `update_from_manifest` (settings.rs:69-76) -/
def setActive (m : Manifest V) (files : List (String × File B)) : Prog V B Unit :=
  (each copyBin files).then fun _ =>
    openSettings.then fun _ => saveSettings (some m.channel, some m.version)

/-- Opening a directory and activating it. -/
def activate (c : Chan V) : Prog V B Unit :=
  (Prog.read fun s => (s.dirs c).bind openDir).then fun x => setActive x.1 x.2

/-! ## Commands -/

/-- One artifact of `store_artifacts` — version_installer.rs:150-173: an existing one is removed, then the new one
is renamed into place, or copied if that is not possible (`rename` false). -/
def storeOne (rename : Bool) (c : Chan V) (a : Artifact V B) : Prog V B Unit :=
  (Prog.act (inDir c fun d => { d with files := remove d.files a.name })).then fun _ =>
    (if rename then Prog.ok () else .act (inDir c fun d => { d with files := put d.files a.name .torn })).then fun _ =>
      .act (inDir c fun d => { d with files := put d.files a.name (.whole a.body) })

/-- `store_artifacts` — version_installer.rs:143-176 -/
def store (rename : Bool) (c : Chan V) (l : List (Artifact V B)) : Prog V B Unit :=
  (Prog.read fun s => some (s.dirs c).isSome).then fun here =>
    (if here then Prog.ok () else .act (setDir c (some ⟨none, []⟩))).then fun _ => each (storeOne rename c) l

/-- `VersionManifest::write` — manifest.rs:60-66 -/
def writeManifest (c : Chan V) (m : Manifest V) : Prog V B Unit :=
  (Prog.act (inDir c fun d => { d with manifest := some .torn })).then fun _ =>
    .act (inDir c fun d => { d with manifest := some (.whole m) })

/-- `VersionInstaller::install` — version_installer.rs:30-62.  `got`: all artifacts were downloaded and have the
checksums of the registry (119-141, fluvio-hub-util/src/fvm/api/download.rs:17-79); they are kept in a temporary
directory, so nothing is changed before. -/
def install (rename got : Bool) (c : Chan V) (p : Pkgset V B) : Prog V B Unit :=
  if got then
    (store rename c p.artifacts).then fun _ =>
      (writeManifest c ⟨c, p.version, some (p.artifacts.map fun a => (a.name, a.version))⟩).then fun _ => activate c
  else .fail

/-- The contents after an update — version_installer.rs:70-91: those of the manifest, with the new version of those
which were updated -/
def merge (old : List (String × V)) (l : List (Artifact V B)) : List (String × V) :=
  old.map fun e => match l.find? fun a => decide (a.name = e.1) with
    | some a => (a.name, a.version)
    | none => e

/-- `VersionInstaller::update` — version_installer.rs:64-117 -/
def update (rename got : Bool) (c : Chan V) (l : List (Artifact V B)) : Prog V B Unit :=
  if got then
    (store rename c l).then fun _ =>
      (Prog.read fun s => ((s.dirs c).bind openDir).map (·.1)).then fun m =>
        (writeManifest c { m with contents := m.contents.map fun x => merge x l }).then fun _ => activate c
  else .fail

/-- `artifacts_diff` — fvm/mod.rs:169-196: those of upstream which are missing or have another version.
Simplified: names in a package set are distinct; the order (that of a hash map) is that of upstream. -/
def diff (ours : List (String × V)) (theirs : List (Artifact V B)) : List (Artifact V B) :=
  theirs.filter fun a => decide ((a.name, a.version) ∉ ours)

/-- `SwitchOpt::process` — command/switch.rs:26-86: nothing happens if the version is not installed -/
def switch (c : Chan V) : Prog V B Unit :=
  (Prog.read fun s => some (s.dirs c).isSome).then fun here => if here then activate c else .ok ()

/-- `UninstallOpt::process` — command/uninstall.rs:28-50, `remove` — version_directory.rs:75-82; files are removed
one by one, the manifest first or last. -/
def uninstall (first : Bool) (c : Chan V) : Prog V B Unit :=
  (Prog.read fun s => match s.dirs c with
    | none => some none
    | some d => (openDir d).map fun x => some x.2).then fun x =>
  match x with
  | none => .ok ()
  | some files =>
    let m : Prog V B Unit := .act (inDir c fun d => { d with manifest := none })
    let f : Prog V B Unit := each (fun e => .act (inDir c fun d => { d with files := remove d.files e.1 })) files
    (if first then m.then fun _ => f else f.then fun _ => m).then fun _ => .act (setDir c none)

/-- `UpdateOpt::process` after the settings are read — command/update.rs:34-105; `p` is what the registry has for
the channel. -/
def updateWith (lt : V → V → Bool) (rename got : Bool) (p : Pkgset V B) (x : Option (Chan V) × Option V) :
    Prog V B Unit :=
  match x.1 with
  | some .stable =>
    match x.2 with
    | none => .ok ()
    | some v =>
      if lt v p.version then install rename got .stable p
      else if p.version = v then
        (Prog.read fun s => ((s.dirs .stable).bind openDir).bind fun y => y.1.contents).then fun ours =>
          if (diff ours p.artifacts).isEmpty then .ok () else update rename got .stable (diff ours p.artifacts)
      else .ok ()
  | some .latest =>
    match x.2 with
    | none => .ok ()
    | some v => if p.version ≠ v then install rename got .latest p else .ok ()
  | _ => .ok ()

/-- `UpdateOpt::process` — command/update.rs:26-105 -/
def updateCmd (lt : V → V → Bool) (rename got : Bool) (p : Pkgset V B) : Prog V B Unit :=
  openSettings.then (updateWith lt rename got p)

/-- `scan_versions_manifests` — version_directory.rs:125-154: one directory that cannot be opened is an error for
all; `cs` are the directories. -/
def scan (s : Fs V B) (cs : List (Chan V)) : Option (List (Manifest V)) :=
  cs.mapM fun c => ((s.dirs c).bind openDir).map (·.1)

/-- `Ord for Channel` — fvm/mod.rs:54-83, `cmpV`, `cmpS` the orders of versions and texts -/
def Chan.cmp (cmpV : V → V → Ordering) (cmpS : String → String → Ordering) : Chan V → Chan V → Ordering
  | .stable, .stable => .eq
  | .stable, _ => .gt
  | .latest, .stable => .lt
  | .latest, .latest => .eq
  | .latest, _ => .gt
  | .tag _, .stable => .lt
  | .tag _, .latest => .lt
  | .tag v, .tag w => cmpV v w
  | .tag _, .other _ => .lt
  | .other _, .stable => .lt
  | .other _, .latest => .lt
  | .other _, .tag _ => .lt
  | .other s, .other t => cmpS s t

inductive Cmd (V B : Type) where
  | install (rename got : Bool) (c : Chan V) (p : Pkgset V B)
  | update (rename got : Bool) (p : Pkgset V B)
  | switch (c : Chan V)
  | uninstall (first : Bool) (c : Chan V)

def Cmd.prog (lt : V → V → Bool) : Cmd V B → Prog V B Unit
  | .install r g c p => Fvm.install r g c p
  | .update r g p => updateCmd lt r g p
  | .switch c => Fvm.switch c
  | .uninstall f c => Fvm.uninstall f c

/-! ## Specification -/

/-- **Specification.** The body of an artifact is determined by name and version. -/
def Published (content : String → V → B) (p : Pkgset V B) : Prop :=
  (p.artifacts.map (·.name)).Nodup ∧ ∀ a ∈ p.artifacts, a.body = content a.name a.version

/-- **Specification.** A directory as it should be: it can be opened, its manifest names its channel, no name
occurs twice among its files, all are whole, and those which the manifest lists have the version it lists. -/
structure DirOk (content : String → V → B) (c : Chan V) (d : Dir V B) : Prop where
  manifest : ∃ m, d.manifest = some (.whole m) ∧ m.channel = c ∧
    ∀ l, m.contents = some l → ∀ e ∈ l, (e.1, File.whole (content e.1 e.2)) ∈ d.files
  nodup : (d.files.map (·.1)).Nodup
  whole : ∀ e ∈ d.files, e.2 ≠ .torn

/-- **Specification.** The settings name an installed version, and the binaries are those of its directory. -/
def ActiveOk (s : Fs V B) (c : Chan V) (v : V) : Prop :=
  ∃ d m, s.dirs c = some d ∧ d.manifest = some (.whole m) ∧ m.version = v ∧ ∀ e ∈ d.files, s.bin e.1 = some e.2

/-- **Specification.** All is as it should be. -/
structure Good (content : String → V → B) (s : Fs V B) : Prop where
  dirs : ∀ c d, s.dirs c = some d → DirOk content c d
  settings : s.settings ≠ some .torn
  active : ∀ c v, s.settings = some (.whole (c, v)) → (c = none ∧ v = none) ∨
    ∃ c' v', c = some c' ∧ v = some v' ∧ ActiveOk s c' v'

/-- A computer on which nothing is installed. -/
def blank : Fs V B := ⟨fun _ => none, fun _ => none, none⟩

/-- **Specification.** The state in which a command ends, and those in which it may be stopped. -/
def final {α : Type} (p : Prog V B α) (s : Fs V B) : Fs V B := (p s).2.1
def result {α : Type} (p : Prog V B α) (s : Fs V B) : Option α := (p s).2.2
def Passes {α : Type} (p : Prog V B α) (s t : Fs V B) : Prop := t = s ∨ t ∈ (p s).1

end Verif.Fvm
