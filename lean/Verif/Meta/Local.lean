import Verif.Meta.Store

/-!
# The local metadata storage (`fluvio-stream-dispatcher/src/metadata/local.rs`)

The storage behind the system controller when it does not run on Kubernetes.  A key here stands for the
kind of the object together with its name: there is one `SpecStore` per kind, each with its own lock, and
no operation holds two of them, so a single map over all keys does the same.  The identifier of an item is
the name of its key (`apply`, line 170; `update_spec_by_key`, 215-218).

A client operation is a program (`Prog`) of atomic actions: reading under the read lock, and inserting or
removing under the write lock.  Between two actions of one operation other tasks may run.  Sending the
update to watchers is in `Verif.Meta.LocalWatch`, files are in `Verif.Meta.LocalDisk`.  Revisions (`u64`)
do not overflow here.  Failing to load a kind from disk (`get_store`) is not modelled.
-/

namespace Verif.Meta.Local

/-- `LocalMetadataItem` — local.rs:7-15.  Simplified: of the parent only the key is kept (nothing else of
it is used), and of a child its key and the revision recorded with it; an entry also repeats the child's own
children, which are none for the kinds of fluvio (partitions and SPUs). -/
structure Item (K : Type) where
  rev : Nat
  parent : Option K
  kids : List (K × Nat)
deriving DecidableEq, Repr

/-- `Default` — local.rs:7 -/
def Item.fresh {K : Type} : Item K := ⟨0, none, []⟩

/-- `is_newer` — local.rs:24-26 -/
def newer {K : Type} (a b : Item K) : Bool := decide (b.rev < a.rev)

variable {K Sp St : Type} [DecidableEq K]

/-- `LocalStoreObject` — local.rs:125 -/
abbrev LObj (K Sp St : Type) := Obj K Sp St (Item K)

/-- The maps of all `SpecStore`s — local.rs:286 -/
abbrev Data (K Sp St : Type) := K → Option (LObj K Sp St)

def Data.set (d : Data K Sp St) (k : K) (x : Option (LObj K Sp St)) : Data K Sp St :=
  fun j => if j = k then x else d j

/-- The object that `SpecStore::apply` stores, `none` if the value is stale — local.rs:477-486 -/
def accept (d : Data K Sp St) (o : LObj K Sp St) : Option (LObj K Sp St) :=
  match d o.key with
  | some prev =>
    if newer prev.item o.item then none
    else some { o with item := { o.item with rev := prev.item.rev + 1 } }
  | none => some o

/-- `put_child` — local.rs:66-79 -/
def putChild (kids : List (K × Nat)) (c : K × Nat) : List (K × Nat) :=
  if c ∈ kids then kids else kids ++ [c]

/-- `remove_child` — local.rs:80-91 -/
def removeChild (kids : List (K × Nat)) (c : K × Nat) : List (K × Nat) :=
  kids.filter fun x => decide (x ≠ c)

/-- An operation in progress: the actions it still has to do, and in the end whether it succeeded. -/
inductive Prog (K Sp St : Type) where
  | done (ok : Bool)
  /-- `try_retrieve_item`, under the read lock — local.rs:430-441 -/
  | get (k : K) (next : Option (LObj K Sp St) → Prog K Sp St)
  /-- the block under the write lock in `SpecStore::apply` — local.rs:475-491 -/
  | put (o : LObj K Sp St) (next : Bool → Prog K Sp St)
  /-- the block under the write lock in `SpecStore::delete_item` — local.rs:453-462 -/
  | del (k : K) (next : Prog K Sp St)

/-- One action. -/
def Prog.step (d : Data K Sp St) : Prog K Sp St → Data K Sp St × Prog K Sp St
  | .done ok => (d, .done ok)
  | .get k next => (d, next (d k))
  | .put o next =>
    match accept d o with
    | some o' => (d.set o.key (some o'), next true)
    | none => (d, next false)
  | .del k next => (d.set k none, next)

/-- `link_parent` — local.rs:341-354 -/
def link (p : K) (c : K × Nat) : Prog K Sp St :=
  .get p fun
    | none => .done false
    | some po => .put { po with item := { po.item with kids := putChild po.item.kids c } } .done

/-- `apply` — local.rs:163-177; the child is recorded with the revision it was given, not with the one
`SpecStore::apply` assigns (171). -/
def applyOp (o : LObj K Sp St) : Prog K Sp St :=
  .put o fun ok =>
    if ok then
      match o.item.parent with
      | some p => link p (o.key, o.item.rev)
      | none => .done true
    else .done false

/-- `update_spec` — local.rs:179-203; `m` is the item the caller has, `dflt` the default status. -/
def updateSpecOp (dflt : St) (k : K) (m : Item K) (spec : Sp) : Prog K Sp St :=
  .get k fun
    | some o => .put { o with item := m, spec := spec } .done
    | none => .put ⟨k, spec, dflt, m⟩ .done

/-- `update_spec_by_key` — local.rs:205-228 -/
def updateSpecByKeyOp (dflt : St) (k : K) (spec : Sp) : Prog K Sp St :=
  .get k fun
    | some o => .put { o with spec := spec } .done
    | none => .put ⟨k, spec, dflt, .fresh⟩ .done

/-- `update_status` and `patch_status` — local.rs:230-246, 264-280 -/
def updateStatusOp (k : K) (m : Item K) (st : St) : Prog K Sp St :=
  .get k fun
    | some o => .put { o with item := m, status := st } fun ok =>
        if ok then .get k fun x => .done x.isSome else .done false
    | none => .done false

/-- The rest of `delete_item`: `delete_children` (local.rs:328-339) and the object itself (151). -/
def removeAll (k : K) : List (K × Nat) → Prog K Sp St
  | [] => .del k (.done true)
  | c :: l => .del c.1 (removeAll k l)

/-- `delete_item` and `finalize_delete_item` — local.rs:140-161, with `unlink_parent` (356-369). -/
def deleteOp (k : K) : Prog K Sp St :=
  .get k fun
    | none => .done true
    | some o =>
      match o.item.parent with
      | none => removeAll k o.item.kids
      | some p =>
        .get p fun
          | none => .done false
          | some po =>
            .put { po with item := { po.item with kids := removeChild po.item.kids (k, o.item.rev) } }
              fun ok => if ok then removeAll k o.item.kids else .done false

/-! ### Tasks running side by side -/

/-- The storage and its clients: any number of operations in progress. -/
structure Sys (K Sp St : Type) where
  data : Data K Sp St
  tasks : Nat → Prog K Sp St

/-- Task `i` does its next action. -/
def Sys.step (s : Sys K Sp St) (i : Nat) : Sys K Sp St :=
  ⟨((s.tasks i).step s.data).1, fun j => if j = i then ((s.tasks i).step s.data).2 else s.tasks j⟩

/-- The actions of a schedule. -/
def Sys.run (s : Sys K Sp St) (sched : List Nat) : Sys K Sp St := sched.foldl Sys.step s

/-- An operation with nothing else running. -/
def Prog.exec (d : Data K Sp St) : Prog K Sp St → Data K Sp St × Bool
  | .done ok => (d, ok)
  | .get k next => (next (d k)).exec d
  | .put o next =>
    match accept d o with
    | some o' => (next true).exec (d.set o.key (some o'))
    | none => (next false).exec d
  | .del k next => next.exec (d.set k none)

end Verif.Meta.Local
