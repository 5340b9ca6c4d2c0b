/-!
# The metadata store (`fluvio-stream-model/src/epoch/dual_epoch_map.rs`, `store/dual_store.rs`)

Objects are a key with a spec, a status and a metadata item, each of any type with decidable equality;
`newer` is `MetadataItem::is_newer` (core.rs:20), any relation.  A write holds the store's lock from
beginning to end (dual_store.rs:220, 306), so operations are atomic here; publishing the new epoch to
listeners happens after the lock is released and is in `Verif.Meta.Listener`.  `HashMap`s are lists
with distinct keys; nothing below depends on their order.
-/

namespace Verif.Meta

/-- `MetadataStoreObject` — store/metadata.rs:14-23 -/
structure Obj (K Sp St Me : Type) where
  key : K
  spec : Sp
  status : St
  item : Me
deriving DecidableEq

/-- `ChangeFlag` — dual_epoch_map.rs:41-47 -/
structure Flag where
  spec : Bool
  status : Bool
  item : Bool
deriving DecidableEq

/-- `has_no_changes` — dual_epoch_map.rs:72-76 -/
def Flag.isNone (f : Flag) : Bool := !f.spec && !f.status && !f.item

/-- `FULL_FILTER` — dual_epoch_map.rs:21 -/
def Flag.full : Flag := ⟨true, true, true⟩

/-- `DualEpochCounter` — dual_epoch_map.rs:81-88 -/
structure Entry (K Sp St Me : Type) where
  obj : Obj K Sp St Me
  specE : Int
  statusE : Int
  itemE : Int
deriving DecidableEq

/-- `DualEpochMap` — dual_epoch_map.rs:175-181 -/
structure Store (K Sp St Me : Type) where
  epoch : Int
  fence : Int
  values : List (Entry K Sp St Me)
  deleted : List (Entry K Sp St Me)
deriving DecidableEq

variable {K Sp St Me : Type} [DecidableEq K] [DecidableEq Sp] [DecidableEq St] [DecidableEq Me]

/-- `LocalStore::default` — dual_store.rs:39-50 -/
def Store.init : Store K Sp St Me := ⟨0, 0, [], []⟩

/-- `HashMap::get` -/
def Store.find (s : Store K Sp St Me) (k : K) : Option (Entry K Sp St Me) :=
  s.values.find? fun e => decide (e.obj.key = k)

/-- `diff` — store/metadata.rs:158-176 -/
def Obj.diff (newer : Me → Me → Bool) (old new : Obj K Sp St Me) : Flag :=
  if newer old.item new.item then ⟨false, false, false⟩
  else ⟨decide (old.spec ≠ new.spec), decide (old.status ≠ new.status), decide (old.item ≠ new.item)⟩

/-- `set_epoch` — dual_epoch_map.rs:101-105 -/
def Entry.setEpoch (v : Entry K Sp St Me) (e : Int) : Entry K Sp St Me :=
  { v with specE := e, statusE := e, itemE := e }

/-- The value that replaces an existing one — dual_epoch_map.rs:246-256 -/
def Entry.merge (old : Entry K Sp St Me) (new : Obj K Sp St Me) (f : Flag) (e : Int) :
    Entry K Sp St Me :=
  ⟨new, if f.spec then e else old.specE, if f.status then e else old.statusE,
    if f.item then e else old.itemE⟩

/-- `DualEpochMap::update` — dual_epoch_map.rs:232-267; `none`: the key is new. -/
def Store.update (newer : Me → Me → Bool) (s : Store K Sp St Me) (new : Obj K Sp St Me) :
    Store K Sp St Me × Option Flag :=
  match s.find new.key with
  | some old =>
    let f := old.obj.diff newer new
    if f.isNone then (s, some f)
    else
      ({ s with values := s.values.map fun v =>
          if v.obj.key = new.key then old.merge new f s.epoch else v }, some f)
  | none => ({ s with values := s.values ++ [⟨new, s.epoch, s.epoch, s.epoch⟩] }, none)

/-- `DualEpochMap::remove` — dual_epoch_map.rs:271-284 -/
def Store.remove (s : Store K Sp St Me) (k : K) : Store K Sp St Me :=
  match s.find k with
  | some old =>
    { s with
      values := s.values.filter fun v => decide (v.obj.key ≠ k)
      deleted := s.deleted ++ [old.setEpoch s.epoch] }
  | none => s

/-- `mark_fence` — dual_epoch_map.rs:288-291 -/
def Store.markFence (s : Store K Sp St Me) : Store K Sp St Me :=
  { s with deleted := [], fence := s.epoch }

/-- `LSUpdate` — store/actions.rs -/
inductive Chg (K Sp St Me : Type) where
  | mod (o : Obj K Sp St Me)
  | del (k : K)
deriving DecidableEq

/-- One round of the loop of `apply_changes` — dual_store.rs:320-347; the flag says whether one of the
counters has been increased (a deletion counts even when the key is absent). -/
def Store.applyOne (newer : Me → Me → Bool) (s : Store K Sp St Me × Bool) :
    Chg K Sp St Me → Store K Sp St Me × Bool
  | .mod o =>
    match s.1.update newer o with
    | (s', some f) => (s', s.2 || !f.isNone)
    | (s', none) => (s', true)
  | .del k => (s.1.remove k, true)

/-- `increment_epoch` — dual_epoch_map.rs:198-200 -/
def Store.bump (s : Store K Sp St Me) : Store K Sp St Me := { s with epoch := s.epoch + 1 }

/-- `apply_changes` — dual_store.rs:303-386: the epoch is taken back when nothing changed. -/
def Store.applyChanges (newer : Me → Me → Bool) (s : Store K Sp St Me) (l : List (Chg K Sp St Me)) :
    Store K Sp St Me :=
  let r := l.foldl (Store.applyOne newer) (s.bump, false)
  if r.2 then r.1 else { r.1 with epoch := r.1.epoch - 1 }

/-- `sync_all` — dual_store.rs:216-295 -/
def Store.syncAll (newer : Me → Me → Bool) (s : Store K Sp St Me) (l : List (Obj K Sp St Me)) :
    Store K Sp St Me :=
  let gone := (s.values.map (·.obj.key)).filter fun k => decide (k ∉ l.map (·.key))
  let s1 := l.foldl (fun s o => (s.update newer o).1) s.bump
  (gone.foldl Store.remove s1).markFence

inductive Op (K Sp St Me : Type) where
  | apply (l : List (Chg K Sp St Me))
  | sync (l : List (Obj K Sp St Me))
deriving DecidableEq

def Store.step (newer : Me → Me → Bool) (s : Store K Sp St Me) : Op K Sp St Me → Store K Sp St Me
  | .apply l => s.applyChanges newer l
  | .sync l => s.syncAll newer l

def Store.run (newer : Me → Me → Bool) (s : Store K Sp St Me) (l : List (Op K Sp St Me)) :
    Store K Sp St Me := l.foldl (Store.step newer) s

/-- `EpochChanges` — epoch_map.rs:268-273, 327-330 -/
inductive Delta (K Sp St Me : Type) where
  | all (l : List (Obj K Sp St Me))
  | changes (updates deletes : List (Obj K Sp St Me))
deriving DecidableEq

/-- The condition of the two filters — dual_epoch_map.rs:367-370, 383-386 -/
def Entry.since (f : Flag) (e : Int) (v : Entry K Sp St Me) : Bool :=
  f.spec && decide (e < v.specE) || f.status && decide (e < v.statusE) || f.item && decide (e < v.itemE)

/-- `changes_since_with_filter` — dual_epoch_map.rs:352-397; the reported epoch is the store's. -/
def Store.changesSince (s : Store K Sp St Me) (f : Flag) (e : Int) : Delta K Sp St Me :=
  if e < s.fence then .all (s.values.map Entry.obj)
  else if e = s.epoch then .changes [] []
  else
    .changes ((s.values.filter (Entry.since f e)).map Entry.obj)
      ((s.deleted.filter (Entry.since f e)).map Entry.obj)

end Verif.Meta
