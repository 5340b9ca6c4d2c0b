/-!
# The identity used for the hub

Models `crates/fluvio-hub-util/src/hubaccess.rs` (the profile with the signing key, and the remote),
`crates/fluvio-hub-util/src/keymgmt.rs` (keys as hexadecimal text and as files),
`crates/fluvio-hub-protocol/src/infinyon_tok.rs` (the access token) and `set_hubid` of
`crates/smartmodule-development-kit/src/hub.rs`.

Simplifications: a key is its 32 bytes, the map from a private to a public key and the hash that names profiles are
parameters, a generated key is an argument of the call; YAML, TOML, JSON and PEM texts are the values they stand for;
writing a file never fails.
-/

namespace Verif.Hub.Access

/-- The bytes of a key. -/
abbrev Key := List (Fin 256)

/-! ### Keys as text — keymgmt.rs -/

/-- a digit of `hex::encode` -/
def hexDigit (n : Fin 16) : Char :=
  if n.val < 10 then Char.ofNat (48 + n.val) else Char.ofNat (87 + n.val)

/-- a digit of `hex::decode`, which takes both cases -/
def unhexDigit (c : Char) : Option (Fin 16) :=
  if h : 48 ≤ c.toNat ∧ c.toNat < 58 then some ⟨c.toNat - 48, by omega⟩
  else if h : 97 ≤ c.toNat ∧ c.toNat < 103 then some ⟨c.toNat - 87, by omega⟩
  else if h : 65 ≤ c.toNat ∧ c.toNat < 71 then some ⟨c.toNat - 55, by omega⟩
  else none

/-- `Keypair::to_hex`, `PublicKey::to_hex` — keymgmt.rs:81-83, 168-170 -/
def toHex : Key → List Char
  | [] => []
  | b :: k => hexDigit ⟨b.val / 16, by omega⟩ :: hexDigit ⟨b.val % 16, by omega⟩ :: toHex k

/-- `hex::decode` -/
def decodeHex : List Char → Option Key
  | [] => some []
  | [_] => none
  | a :: b :: rest =>
    match unhexDigit a, unhexDigit b, decodeHex rest with
    | some x, some y, some k => some (⟨16 * x.val + y.val, by omega⟩ :: k)
    | _, _, _ => none

/-- `Keypair::from_secret_bytes` — keymgmt.rs:100-104: 32 bytes are wanted -/
def fromSecretBytes (k : Key) : Option Key := if k.length = 32 then some k else none

/-- `Keypair::from_hex` — keymgmt.rs:85-88 -/
def fromHex (s : List Char) : Option Key :=
  match decodeHex s with
  | some k => fromSecretBytes k
  | none => none

/-! ### Keys as files — keymgmt.rs -/

/-- A file with its permission bits; the content is the tag and the bytes of the PEM text. -/
structure KeyFile where
  tag : String
  contents : Key
  mode : Nat
deriving DecidableEq, Repr

/-- the mode of a file that `File::create` makes, given the mask of the process -/
def createMode (umask : Nat) : Nat := 0o666 &&& (0o777 ^^^ umask)

/-- `set_perms_owner_rw` — keymgmt.rs:173-179: the mode is set in a copy of the permissions that is dropped -/
def setPermsOwnerRw (f : KeyFile) : KeyFile :=
  let _perms := 0o500
  f

/-- `write_keypair` — keymgmt.rs:72-79; a file that is there keeps its mode -/
def writeKeypair (umask : Nat) (old : Option KeyFile) (k : Key) : KeyFile :=
  let created : KeyFile := ⟨"PRIVATE KEY", [], (old.map (·.mode)).getD (createMode umask)⟩
  { setPermsOwnerRw created with contents := k }

/-- `Keypair::read_from_file` — keymgmt.rs:62-69 -/
def readKeypair (f : KeyFile) : Option Key :=
  if f.tag ≠ "PRIVATE KEY" then none else fromSecretBytes f.contents

/-- `PublicKey::write` — keymgmt.rs:128-133 -/
def writePublic (umask : Nat) (old : Option KeyFile) (k : Key) : KeyFile :=
  ⟨"PUBLIC KEY", k, (old.map (·.mode)).getD (createMode umask)⟩

/-- `PublicKey::read_from_file` — keymgmt.rs:112-122; `valid` tells the points of the curve -/
def readPublic (valid : Key → Bool) (f : KeyFile) : Option Key :=
  if f.tag ≠ "PUBLIC KEY" then none
  else if f.contents.length = 32 ∧ valid f.contents then some f.contents else none

/-! ### The profile — hubaccess.rs -/

/-- `HubAccess` as stored — hubaccess.rs:50-57; the remote is not -/
structure Profile where
  hubid : String
  pkgkey : List Char
  pubkey : List Char
deriving DecidableEq, Repr

/-- The content of a file in the directory of the hub. -/
inductive Content
  | text (s : String)
  | profile (p : Profile)
deriving DecidableEq, Repr

/-- The directory `~/.fluvio/hub`: whether the one above and it are there, and its files. -/
structure Disk where
  parent : Bool
  dir : Bool
  files : String → Option Content

/-- The public key of a private one and the name of a profile, 128 digits of SHA-512. -/
structure Crypto where
  public_ : Key → Key
  hash : String → List Char → String
  hash_ne : ∀ i k, hash i k ≠ "hcurrent"

/-- `std::fs::write` -/
def write (d : Disk) (n : String) (c : Content) : Disk :=
  { d with files := fun m => if m = n then some c else d.files m }

/-- `gen_pkgkey` — hubaccess.rs:224-230 -/
def genKey (c : Crypto) (k : Key) (p : Profile) : Profile :=
  { p with pkgkey := toHex k, pubkey := toHex (c.public_ k) }

/-- `write_hash` — hubaccess.rs:301-311; the disks after each write -/
def writeHash (c : Crypto) (d : Disk) (p : Profile) : List Disk :=
  let name := c.hash p.hubid p.pubkey
  let d1 := write d name (.profile p)
  [d1, write d1 "hcurrent" (.text name)]

/-- The disk after a sequence of writes. -/
def final (d : Disk) (ds : List Disk) : Disk := ds.getLast?.getD d

/-- the name of the profile, and the disks after each write — hubaccess.rs:238-263.  A profile in the place of the
pointer is no name of a file. -/
def resolve (c : Crypto) (k : Key) (d : Disk) : Option String → List Disk × Option String
  | some p => ([], some p)
  | none =>
    match d.files "hcurrent" with
    | some (.text p) => ([], some p)
    | some (.profile _) => ([], none)
    | none =>
      if d.dir || !d.parent then ([], none)
      else
        let d1 : Disk := { d with dir := true }
        let d2 := write d1 "default" (.profile (genKey c k ⟨"", [], []⟩))
        ([d1, d2, write d2 "hcurrent" (.text "default")], some "default")

/-- reading the profile — hubaccess.rs:264-277 -/
def readProfile (c : Crypto) (k : Key) (d : Disk) (name : String) : List Disk × Option Profile :=
  match d.files name with
  | some (.profile p) =>
    if p.pkgkey = [] then
      let p' := genKey c k p
      (writeHash c d p', some p')
    else ([], some p)
  | _ => ([], none)

/-- `load_path` without the remote — hubaccess.rs:233-277; the disks after each write and the result -/
def load (c : Crypto) (k : Key) (d : Disk) (given : Option String) : List Disk × Option Profile :=
  match resolve c k d given with
  | (ds, none) => (ds, none)
  | (ds, some name) =>
    let r := readProfile c k (final d ds) name
    (ds ++ r.1, r.2)

/-- the remote — hubaccess.rs:279-290, 358-382: flag, variable, the hub that the cloud of the login names, default -/
def remote (flag env login : Option String) (ask : String → Option String) : String :=
  match flag with
  | some r => r
  | none =>
    match env with
    | some r => r
    | none =>
      match login with
      | some l =>
        if l = "https://infinyon.cloud" then "https://hub.infinyon.cloud"
        else (ask l).getD "https://hub.infinyon.cloud"
      | none => "https://hub.infinyon.cloud"

/-- `keypair` — hubaccess.rs:314-316 -/
def keypair (p : Profile) : Option Key := fromHex p.pkgkey

/-- `create_hubid`, what is accepted — hubaccess.rs:104-125 -/
def hubidAccepted (status : Nat) : Bool := status == 201 || status == 200

/-- `set_hubid` — smartmodule-development-kit/src/hub.rs:64-76; the disks after each write -/
def setHubid (c : Crypto) (d : Disk) (status : Nat) (hubid : String) (p : Profile) : List Disk :=
  if hubidAccepted status then writeHash c d { p with hubid := hubid } else []

/-! ### The access token — infinyon_tok.rs -/

/-- `AccessToken` — infinyon_tok.rs:34-38, 55-61; the map of organisations in the order in which it is read -/
inductive Token
  | v3 (token : String)
  | v4 (orgs : List (String × String))
deriving DecidableEq, Repr

/-- `get_token` — infinyon_tok.rs:40-46, 64-81 -/
def Token.get : Token → Option String
  | .v3 t => some t
  | .v4 orgs =>
    match orgs.head? with
    | none => none
    | some o => (orgs.find? fun x => x.1 == o.1).map (·.2)

/-- `read_access_token` — infinyon_tok.rs:84-120; the message about the organisation fails if there is none -/
def readToken (v4 : Option (List (String × String))) (v3 : Option String) : Option Token :=
  match v4 with
  | some orgs => if orgs = [] then none else some (.v4 orgs)
  | none => v3.map .v3

/-- the header of `make_action_token` — hubaccess.rs:158-190; `none`: an error, `some none`: no header -/
def authHeader : Option Token → Option (Option String)
  | none => some none
  | some t =>
    match t.get with
    | none => none
    | some s =>
      match t with
      | .v4 _ => some (some ("Bearer " ++ s))
      | .v3 _ => some (some s)

end Verif.Hub.Access
