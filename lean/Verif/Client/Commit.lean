/-!
# Committing consumer offsets (`fluvio/src/consumer/{offset,stream,mod}.rs`)

One partition stream of one consumer, its channel to the task that talks to the server, and the offset
stored on the server.  The application owns the stream (`&mut self` in `poll_next`, `offset_commit`,
`offset_flush`), so its calls do not overlap; the background flusher and the sending task run at any
time in between.  Messages left in the channel when the sending task ends are never answered.
-/

namespace Verif.Client

/-- `OffsetLocalStore` — consumer/offset.rs:18-23; all values start at −1 (26-33) -/
structure LocalStore where
  seen : Int
  committed : Int
  flushed : Int

def LocalStore.new : LocalStore := ⟨-1, -1, -1⟩

/-- `update` — offset.rs:35-37 -/
def LocalStore.update (s : LocalStore) (o : Int) : LocalStore := { s with seen := max s.seen o }

/-- `commit` — offset.rs:39-42 -/
def LocalStore.commit (s : LocalStore) : LocalStore := { s with committed := s.seen }

/-- `StreamToServer::FlushManagedOffset`; `answer`: somebody waits for the answer. -/
structure FlushMsg where
  offset : Int
  answer : Bool

/-- What the application does in `offset_flush` — offset.rs:44-67 -/
inductive Waiting where
  /-- not in `flush` -/
  | no
  /-- waiting for the answer -/
  | answer
  /-- the answer is there -/
  | got (ok : Bool)
deriving DecidableEq

/-- The strategies with a local store — stream.rs:52-64. -/
inductive Mode where
  | manual
  | auto
deriving DecidableEq

structure Session where
  mode : Mode
  loc : LocalStore
  /-- channel to the sending task, oldest first -/
  queue : List FlushMsg
  waiting : Waiting
  /-- the sending task has ended (connection lost) -/
  dead : Bool
  /-- the offset stored on the server -/
  stored : Option Int

def Session.start (m : Mode) (stored : Option Int) : Session := ⟨m, .new, [], .no, false, stored⟩

/-- `try_flush` — offset.rs:69-81; `room`: the channel accepts the message (it is bounded and may be
closed). -/
def Session.tryFlush (s : Session) (room : Bool) : Session :=
  if s.loc.committed ≤ s.loc.flushed then s
  else if room ∧ s.dead = false then
    { s with queue := s.queue ++ [⟨s.loc.committed, false⟩],
             loc := { s.loc with flushed := s.loc.committed } }
  else s

/-- What the server does with a flush request (see `C25_commit`): it stores the offset and says so; it
refuses; or it stores it and reports an error. -/
inductive Served where
  | stored
  | refused
  | storedButFailed
  /-- the connection breaks after, or before, the request was carried out -/
  | lost (stored : Bool)
deriving DecidableEq

def Served.stores : Served → Bool
  | .stored => true
  | .refused => false
  | .storedButFailed => true
  | .lost b => b

def Served.ok : Served → Bool
  | .stored => true
  | _ => false

def Served.breaks : Served → Bool
  | .lost _ => true
  | _ => false

inductive CmEv where
  /-- the stream yields the record at this offset; `tick`: the flush period is over -/
  | deliver (o : Int) (tick room : Bool)
  | commit
  /-- the application calls `offset_flush` -/
  | flush
  /-- … and continues with the answer -/
  | flushed
  /-- … or drops the call before the answer -/
  | cancel
  /-- the background flusher, or the end or an error of the stream (stream.rs:146, 226-244) -/
  | auto (room : Bool)
  /-- the stream is dropped (stream.rs:316-332) -/
  | dropped (room : Bool)
  /-- the sending task handles the oldest message (consumer/mod.rs:496-517) -/
  | serve (w : Served)
  /-- the stream has ended and the sending task handles its `Close` message (mod.rs:492-495) -/
  | closed
  /-- reconnection: a new stream with a new store and channel (consumer/retry.rs:236-249) -/
  | reconnect

/-- One step; `some b`: a call of `offset_flush` returned, `b` is `Ok`.  Events that cannot happen in a
state leave it unchanged. -/
def Session.step (s : Session) : CmEv → Session × Option Bool
  | .deliver o tick room =>
    if s.waiting ≠ .no then (s, none)
    else match s.mode with
    | .manual => ({ s with loc := s.loc.update o }, none)
    | .auto =>
      let s := { s with loc := (s.loc.update o).commit }
      (if tick then s.tryFlush room else s, none)
  | .commit => if s.waiting ≠ .no then (s, none) else ({ s with loc := s.loc.commit }, none)
  | .flush =>
    if s.waiting ≠ .no then (s, none)
    else if s.loc.committed ≤ s.loc.flushed then (s, some true)
    else if s.dead then (s, some false)
    else ({ s with queue := s.queue ++ [⟨s.loc.committed, true⟩], waiting := .answer }, none)
  | .flushed =>
    match s.waiting with
    | .got true => ({ s with waiting := .no, loc := { s.loc with flushed := s.loc.committed } }, some true)
    | .got false => ({ s with waiting := .no }, some false)
    | _ => (s, none)
  | .cancel =>
    ({ s with waiting := .no, queue := s.queue.map fun m => { m with answer := false } }, none)
  | .auto room => (if s.mode = .auto then s.tryFlush room else s, none)
  | .dropped room =>
    if s.waiting ≠ .no then (s, none)
    else if s.mode = .auto then (({ s with loc := s.loc.commit }).tryFlush room, none)
    else (s, none)
  | .serve w =>
    if s.dead then (s, none)
    else match s.queue with
    | [] => (s, none)
    | m :: q =>
      ({ s with
          queue := if w.breaks then [] else q
          stored := if w.stores then some m.offset else s.stored
          waiting := if m.answer then .got w.ok else s.waiting
          dead := w.breaks }, none)
  | .closed => (if s.queue.isEmpty then { s with dead := true } else s, none)
  | .reconnect =>
    if s.waiting ≠ .no then (s, none) else (Session.start s.mode s.stored, none)

/-- The state after a history. -/
def Session.run (s : Session) (es : List CmEv) : Session := es.foldl (fun s e => (s.step e).1) s

/-! ## What the application knows -/

/-- **Specification.** What the application was given in the current session, the offset of its last
commit in it, and the offsets of all its commits. -/
structure Told where
  given : List Int
  last : Option Int
  all : List Int

def Told.start : Told := ⟨[], none, []⟩

/-- A commit is of the highest offset given. -/
def Told.commit (t : Told) : Told :=
  match t.given.max? with
  | none => t
  | some v => { t with last := some v, all := t.all ++ [v] }

/-- With the automatic strategy every record is committed when it is given, and once more at the end. -/
def Told.step (m : Mode) (t : Told) : CmEv → Told
  | .deliver o _ _ =>
    let t := { t with given := t.given ++ [o] }
    if m = .auto then t.commit else t
  | .commit => t.commit
  | .dropped _ => if m = .auto then t.commit else t
  | .reconnect => { t with given := [], last := none }
  | _ => t

def Told.run (m : Mode) (t : Told) (es : List CmEv) : Told := es.foldl (Told.step m) t

/-- Events that the ownership of the stream allows: while a call of `offset_flush` is running the
application does nothing else with the stream.  Offsets are not negative. -/
def CmEv.Possible (s : Session) : CmEv → Prop
  | .deliver o _ _ => s.waiting = .no ∧ 0 ≤ o
  | .commit => s.waiting = .no
  | .flush => s.waiting = .no
  | .dropped _ => s.waiting = .no
  | .reconnect => s.waiting = .no
  | _ => True

def PossibleAll (s : Session) : List CmEv → Prop
  | [] => True
  | e :: es => e.Possible s ∧ PossibleAll (s.step e).1 es

end Verif.Client
