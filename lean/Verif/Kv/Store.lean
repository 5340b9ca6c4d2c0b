import Verif.Wire.Record

/-!
# The log-based key-value store (`fluvio-kv-storage/src/{lib,log}.rs`)

The store writes every change to a log of byte strings and keeps the current content in a hash map; a
restart rebuilds the map from the log, read from its end up to the last checkpoint.  The log is a
parameter, as in the code (`trait Log`).
-/

namespace Verif.Kv
open Verif.Wire

/-! ## Entries -/

/-- `Vec<u8>` — encoder.rs:49-77, decoder.rs:39-61 at `u8` -/
def bytesC : Codec Bytes :=
  isoC (vecC (intC 1)) (fun l => l.map UInt8.ofBitVec) (fun l => l.map UInt8.toBitVec)

/-- log.rs:130-139 -/
inductive Entry where
  | updated (key value : Bytes)
  | deleted (key : Bytes)
  | checkpoint
deriving DecidableEq

/-- Derived codec of `Entry` (one-byte tags 0, 1, 2) — log.rs:130-139 -/
def entryC : Codec Entry :=
  isoC (enumConsC 1 0#8 (pairC bytesC bytesC) (enumConsC 1 1#8 bytesC (enumConsC 1 2#8 unitC (enumNilC 1))))
    (fun x => match x with
      | .inl (k, v) => .updated k v
      | .inr (.inl k) => .deleted k
      | .inr (.inr (.inl _)) => .checkpoint
      | .inr (.inr (.inr e)) => nomatch e)
    (fun x => match x with
      | .updated k v => .inl (k, v)
      | .deleted k => .inr (.inl k)
      | .checkpoint => .inr (.inr (.inl ())))

/-- `decode` — log.rs:187-191; bytes after the value are ignored. -/
def decodeAs {α : Type} (c : Codec α) (bs : Bytes) : Option α :=
  match c.dec bs with
  | .ok (v, _) => some v
  | .error _ => none

/-! ## The map -/

variable {κ ν : Type} [DecidableEq κ]

/-- `HashMap::get` -/
def lookup (m : List (κ × ν)) (k : κ) : Option ν := (m.find? fun e => decide (e.1 = k)).map (·.2)
/-- `HashMap::remove` -/
def erase (m : List (κ × ν)) (k : κ) : List (κ × ν) := m.filter fun e => decide (e.1 ≠ k)
/-- `HashMap::insert` -/
def insert (m : List (κ × ν)) (k : κ) (v : ν) : List (κ × ν) := (k, v) :: erase m k

/-! ## The log -/

/-- `trait Log` — log.rs:14-23.  `append` gets, besides the entries, what goes wrong (if anything), and
says whether it succeeded; `readFromEnd` lists the items of the stream (`none`: an error); `other` is
whatever else may happen to the log. -/
structure LogApi (L Fault Ext : Type) where
  append : L → List Bytes → Fault → L × Bool
  readFromEnd : L → List (Option Bytes)
  other : L → Ext → L

variable {L Fault Ext : Type}

/-- `LogBasedKVStorage` — log.rs:25-29.  `cache = none`: not loaded (process restarted). -/
structure Store (κ ν L : Type) where
  cache : Option (List (κ × ν))
  log : L

/-- The codecs of keys and values. -/
structure Types (κ ν : Type) where
  key : Codec κ
  value : Codec ν

/-- `EntriesLog::read_from_end` (log.rs:153-159) and `take_while` (101-110): the entries down to the
last checkpoint, newest first. -/
def tail (items : List (Option Bytes)) : List (Option Entry) :=
  (items.map fun i => i.bind (decodeAs entryC)).takeWhile fun e => decide (e ≠ some .checkpoint)

/-- The loop of `replay` — log.rs:112-122 -/
def replayLoop (t : Types κ ν) : List (Option Entry) → List (κ × ν) → Option (List (κ × ν))
  | [], m => some m
  | some (.updated k v) :: es, m =>
    match decodeAs t.key k, decodeAs t.value v with
    | some k, some v => replayLoop t es (insert m k v)
    | _, _ => none
  | some (.deleted k) :: es, m =>
    match decodeAs t.key k with
    | some k => replayLoop t es (erase m k)
    | none => none
  | some .checkpoint :: _, _ => none
  | none :: _, _ => none

/-- `replay` — log.rs:98-128 -/
def replay (t : Types κ ν) (items : List (Option Bytes)) : Option (List (κ × ν)) :=
  replayLoop t (tail items).reverse []

/-- `new` and `sync_from_log` on first use (log.rs:76-84, fluvio-spu/src/kv/consumer.rs:53-69); an error
leaves the store unloaded. -/
def Store.load (t : Types κ ν) (api : LogApi L Fault Ext) (s : Store κ ν L) : Store κ ν L :=
  match s.cache with
  | some _ => s
  | none => { s with cache := replay t (api.readFromEnd s.log) }

/-- `get` — log.rs:37-39 -/
def Store.get (s : Store κ ν L) (k : κ) : Option (Option ν) := s.cache.map fun m => lookup m k

/-- `entries` — log.rs:61-67 -/
def Store.entries (s : Store κ ν L) : Option (List (κ × ν)) := s.cache

/-- `put` — log.rs:48-59: the log first, then the map. -/
def Store.put (t : Types κ ν) (api : LogApi L Fault Ext) (s : Store κ ν L) (k : κ) (v : ν) (f : Fault) :
    Store κ ν L × Bool :=
  match (s.load t api).cache with
  | none => (s.load t api, false)
  | some m =>
    match api.append s.log [entryC.enc (.updated (t.key.enc k) (t.value.enc v))] f with
    | (l, true) => (⟨some (insert m k v), l⟩, true)
    | (l, false) => (⟨some m, l⟩, false)

/-- `delete` — log.rs:41-46: the map first, then the log. -/
def Store.delete (t : Types κ ν) (api : LogApi L Fault Ext) (s : Store κ ν L) (k : κ) (f : Fault) :
    Store κ ν L × Bool :=
  match (s.load t api).cache with
  | none => (s.load t api, false)
  | some m =>
    let (l, ok) := api.append s.log [entryC.enc (.deleted (t.key.enc k))] f
    (⟨some (erase m k), l⟩, ok)

/-- `flush` — log.rs:86-96: one batch with a checkpoint and all values; `order` is the iteration order
of the hash map. -/
def Store.flush (t : Types κ ν) (api : LogApi L Fault Ext) (s : Store κ ν L)
    (order : List (κ × ν) → List (κ × ν)) (f : Fault) : Store κ ν L × Bool :=
  match (s.load t api).cache with
  | none => (s.load t api, false)
  | some m =>
    let (l, ok) := api.append s.log (entryC.enc .checkpoint ::
      (order m).map fun e => entryC.enc (.updated (t.key.enc e.1) (t.value.enc e.2))) f
    (⟨some m, l⟩, ok)

/-! ## Histories -/

inductive Ev (κ ν Fault Ext : Type) where
  | put (k : κ) (v : ν) (f : Fault)
  | delete (k : κ) (f : Fault)
  | flush (order : List (κ × ν) → List (κ × ν)) (f : Fault)
  /-- the process ends and starts again -/
  | restart
  /-- somebody uses the store (`get_or_insert`) -/
  | load
  | other (x : Ext)

/-- One event; the answer of a put, delete or flush. -/
def Store.step (t : Types κ ν) (api : LogApi L Fault Ext) (s : Store κ ν L) :
    Ev κ ν Fault Ext → Store κ ν L × Option Bool
  | .put k v f => let r := s.put t api k v f; (r.1, some r.2)
  | .delete k f => let r := s.delete t api k f; (r.1, some r.2)
  | .flush o f => let r := s.flush t api o f; (r.1, some r.2)
  | .restart => ({ s with cache := none }, none)
  | .load => (s.load t api, none)
  | .other x => ({ s with log := api.other s.log x }, none)

def Store.run (t : Types κ ν) (api : LogApi L Fault Ext) : Store κ ν L → List (Ev κ ν Fault Ext) →
    Store κ ν L × List (Option Bool)
  | s, [] => (s, [])
  | s, e :: evs =>
    let (s', x) := s.step t api e
    let (s'', xs) := Store.run t api s' evs
    (s'', x :: xs)

/-- `impl Log for &mut Vec<Vec<u8>>` — log.rs:168-179 -/
def vecLog : LogApi (List Bytes) Unit Unit where
  append l es _ := (l ++ es, true)
  readFromEnd l := l.reverse.map some
  other l _ := l

end Verif.Kv
