/-
Packages of the hub: assembling, signing, verifying and reading them.

Models crates/fluvio-hub-util/src/package.rs.

Simplifications: an archive is the list of its entries (the formats tar and gzip are not modelled, entries that cannot be
read do not occur); paths have no `..`, are not absolute, and no entry is a link or a directory; writing and reading
temporary files does not fail, and no path is both file and directory.  Contents are of an abstract type `D`; the formats
YAML and JSON of metadata and signatures, and the signature scheme (ed25519), are parameters.
-/

namespace Verif.Hub

/-- A path within an archive: directories and file name. -/
structure Path where
  dir : List (List Char)
  base : List Char
deriving DecidableEq, Repr

/-- An entry of an archive. -/
structure Entry (D : Type) where
  path : Path
  data : D

/-- The part before the last dot. -/
def beforeDot : List Char → Option (List Char)
  | [] => none
  | c :: l =>
    match beforeDot l with
    | some b => some (c :: b)
    | none => if c = '.' then some [] else none

/-- `Path::file_stem`. -/
def stem (l : List Char) : List Char :=
  match beforeDot l with
  | some b => if b = [] then l else b
  | none => l

/-- `HUB_SIGNFILE_BASE` (crates/fluvio-hub-protocol/src/constants.rs:32). -/
def signBase : List Char := ['s', 'i', 'g', 'n', 'a', 't', 'u', 'r', 'e']

/-- A scheme of signatures: `S` signatures, `K` public and `P` private keys. -/
structure Scheme (D K P S : Type) where
  pub : P → K
  sign : P → D → S
  verify : K → D → S → Bool
  correct : ∀ k d, verify (pub k) d (sign k d) = true

/-- `FileSig` (package.rs:131-137).  Hash and length are left out, since nothing looks at them; `sig` is `none` if it is
not the hexadecimal form of a signature. -/
structure FileSig (S : Type) where
  name : Path
  sig : Option S

/-- `PackageSignature` (package.rs:139-143). -/
structure PkgSig (K S : Type) where
  files : List (FileSig S)
  pubkey : K

/-- The formats of the metadata and the signatures. -/
structure Format (D K S : Type) where
  ser : PkgSig K S → D
  de : D → Option (PkgSig K S)
  de_ser : ∀ s, de (ser s) = some s

variable {D K P S : Type}

/-! ### Reading -/

/-- `package_get_topfile_with_readio` (package.rs:318-345): the first entry with the path. -/
def topFile (a : List (Entry D)) (p : Path) : Option D := (a.find? (fun e => decide (e.path = p))).map (·.data)

/-- `package_get_manifest_file_with_readio` (package.rs:360-389): `blob` unpacks the archive within. -/
def manifestFile (blob : D → Option (List (Entry D))) (manifest : Path) (a : List (Entry D)) (p : Path) : Option D :=
  match topFile a manifest with
  | some d =>
    match blob d with
    | some b => topFile b p
    | none => none
  | none => none

/-! ### Assembling -/

/-- The manifest archive of `package_assemble` (package.rs:88-103): the files under their names without directories.
`none`: a file is missing. -/
def assembleBlob (fs : Path → Option D) : List Path → Option (List (Entry D))
  | [] => some []
  | p :: ps =>
    match fs p with
    | some d =>
      match assembleBlob fs ps with
      | some es => some (⟨⟨[], p.base⟩, d⟩ :: es)
      | none => none
    | none => none

/-! ### Signing -/

/-- The name of a signature file, `signature.N` (package.rs:247). -/
def signName (n : Nat) : Path := ⟨[], signBase ++ '.' :: (Nat.toDigits 10 n)⟩

/-- `package_sign` (package.rs:188-266): every file is signed and kept, and the signature file added.  Its number is that
of the files named `signature` — compared with the whole name, not the stem (package.rs:217). -/
def sign (c : Scheme D K P S) (f : Format D K S) (k : P) (a : List (Entry D)) : Option (List (Entry D)) :=
  if a.length = 0 then none
  else some (a ++ [⟨signName (a.countP (fun e => decide (e.path.base = signBase))),
    f.ser ⟨a.map (fun e => ⟨e.path, some (c.sign k e.data)⟩), c.pub k⟩⟩])

/-! ### Verifying -/

/-- The temporary directory. -/
abbrev Temp (D : Type) := Path → Option D

def Temp.write (t : Temp D) (p : Path) (d : D) : Temp D := fun q => if q = p then some d else t q

/-- `package_getsigs_with_readio` (package.rs:269-307): signatures by the path of their file.  What is read is the file
with the name of the entry at the top of the temporary directory (package.rs:294-295).  `none`: an error. -/
def sigsFrom (f : Format D K S) (t : Temp D) (acc : Path → Option (PkgSig K S)) :
    List (Entry D) → Option (Path → Option (PkgSig K S))
  | [] => some acc
  | e :: es =>
    let t := t.write e.path e.data
    match t ⟨[], e.path.base⟩ with
    | none => none
    | some buf =>
      if stem e.path.base = signBase then
        match f.de buf with
        | none => none
        | some ps => sigsFrom f t (fun q => if q = e.path then some ps else acc q) es
      else sigsFrom f t acc es

def sigs (f : Format D K S) (a : List (Entry D)) : Option (Path → Option (PkgSig K S)) :=
  sigsFrom f (fun _ => none) (fun _ => none) a

/-- `IsVerified` (package.rs:443-447). -/
structure Ver (S : Type) where
  sig : Option S
  seen : Bool
  ok : Bool

/-- The loop of `package_verify_sig_from_readio` (package.rs:458-484). -/
def verFrom (v : D → S → Bool) (t : Temp D) (m : Path → Option (Ver S)) :
    List (Entry D) → Option (Path → Option (Ver S))
  | [] => some m
  | e :: es =>
    match m e.path with
    | none => verFrom v t m es
    | some iv =>
      let t := t.write e.path e.data
      match t ⟨[], e.path.base⟩ with
      | none => none
      | some buf =>
        match iv.sig with
        | none => none
        | some s => verFrom v t (fun q => if q = e.path then some ⟨some s, true, v buf s⟩ else m q) es

/-- The table of the files of a signature: of several with one name the last (package.rs:448-456). -/
def table (files : List (FileSig S)) : Path → Option (Ver S) := fun p =>
  (files.reverse.find? (fun s => decide (s.name = p))).map (fun s => ⟨s.sig, false, false⟩)

/-- `package_verify_sig_from_readio` (package.rs:432-500): all files of the signature were seen and verified. -/
def verifySig (c : Scheme D K P S) (a : List (Entry D)) (s : PkgSig K S) : Bool :=
  match verFrom (c.verify s.pubkey) (fun _ => none) (table s.files) a with
  | none => false
  | some m => s.files.all (fun x => match m x.name with | some iv => iv.seen && iv.ok | none => false)

/-- What `package_verify_with_readio` (package.rs:511-530) may answer: of several signatures with the key it takes any
(the order of a `HashMap`). -/
def Answer (c : Scheme D K P S) (f : Format D K S) (a : List (Entry D)) (k : K) (r : Bool) : Prop :=
  match sigs f a with
  | none => r = false
  | some m =>
    (∃ p s, m p = some s ∧ s.pubkey = k ∧ r = verifySig c a s) ∨ ((∀ p s, m p = some s → s.pubkey ≠ k) ∧ r = false)

/-! ### Specification vocabulary -/

/-- **Specification.** No entry is in a directory. -/
def Flat (a : List (Entry D)) : Prop := ∀ e ∈ a, e.path.dir = []

/-- **Specification.** No two entries have the same path. -/
def Distinct (a : List (Entry D)) : Prop := (a.map (·.path)).Nodup

/-- **Specification.** There is no signature file yet. -/
def Unsigned (a : List (Entry D)) : Prop := ∀ e ∈ a, stem e.path.base ≠ signBase

/-- **Specification.** A signature is valid only for what was signed. -/
def Binding (c : Scheme D K P S) (k : P) : Prop := ∀ d d', c.verify (c.pub k) d' (c.sign k d) = true → d' = d

end Verif.Hub
