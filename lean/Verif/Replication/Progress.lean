import Verif.Replication.Protocol

/-
What makes replication go on: the notifications and tasks of the leader, and the messages in flight.

Models crates/fluvio-spu/src/replication/leader/{connection.rs,spu.rs,replica_state.rs} and
replication/follower/{controller.rs,state.rs} for one partition.  The functions themselves (`Leader.merge`,
`Leader.updates`, `Follower.receive`) are those of `Verif.Replication.Protocol`; here every message is delivered once,
and what causes it to be sent is part of the state.

Simplifications: messages of one connection may overtake each other (a TCP connection allows less); the tasks of one
connection may run at the same time (the loop of the code runs one after the other); storage does not fail; the end of
a connection is noticed by both sides at the same time (see `Mishap.stolen` for what happens otherwise).
-/

namespace Verif.Replication.Progress
open Verif.Replication

variable {α : Type}

/-- What a task of the leader does after it has read the position of the leader:
* `send i` — `update_from_leaders`, `follower_updates` for follower `i` (connection.rs:119-158,
  replica_state.rs:244-308);
* `merge i pos` — `update_from_follower`, `update_states_from_followers` (connection.rs:160-205,
  replica_state.rs:186-242);
* `notify` — `notify_followers` (replica_state.rs:386-401). -/
inductive Job where
  | send (i : Nat)
  | merge (i : Nat) (pos : Info)
  | notify

/-- `as_offset` reads the watermark and then the end of the log (crates/fluvio-spu/src/storage/mod.rs:74-79): how far
it has come. -/
inductive Seen where
  | nothing
  | hw (h : Int)
  | both (p : Info)

/-- A running task of the leader. -/
structure Task where
  job : Job
  seen : Seen

/-- Leader and followers of a partition. -/
structure Sys (α : Type) where
  leader : Leader α
  /-- the first offset the leader still stores -/
  start : Int
  followers : Nat → Follower α
  /-- the follower is connected -/
  up : Nat → Bool
  /-- the partition is among the replicas of `FollowerSpuPendingUpdates` of the follower (leader/spu.rs:80-86) -/
  pending : Nat → Bool
  tasks : List Task
  /-- messages to each follower -/
  syncs : Nat → List (Sync α)
  /-- reports of each follower -/
  reports : Nat → List Info

/-- `f` with another value at `i`. -/
def put {β : Type} (f : Nat → β) (i : Nat) (x : β) : Nat → β := fun j => if j = i then x else f j

/-- The position of the leader, `as_offset`. -/
def Sys.pos (s : Sys α) : Info := ⟨s.leader.hw, s.leader.leo⟩

/-- The position of a follower, `as_offset_request` (follower/state.rs:265-271). -/
def Sys.fpos (s : Sys α) (i : Nat) : Info := ⟨(s.followers i).hw, (s.followers i).leo⟩

/-- The message of `follower_updates`: reading below the first stored offset is an error, and the message has no
records then (replica_state.rs:283-286; the follower does not look at the error, follower/controller.rs:258-290). -/
def Sys.message (s : Sys α) (i : Nat) (p : Info) (k : Nat) : Option (Sync α) :=
  s.leader.updates i p (if (s.leader.infos i).leo < s.start then 0 else k)

/-- How many whole batches a message carries: none if the first is `big`ger than `peer_max_bytes`, otherwise at least
one (connection.rs:47, C11). -/
def Cut (big : List α → Bool) (log : List (List α)) (o : Int) (k : Nat) : Prop :=
  match readAt log 0 o with
  | some (_, b :: _) => if big b then k = 0 else 0 < k
  | _ => True

/-- Whether `update_from_leader` reports a change (follower/state.rs:213-243): records were received, whether written
or not, or the watermark was taken over. -/
def changed (f : Follower α) (m : Sync α) : Bool :=
  decide (m.batches.flatten.length > 0) || decide ((f.receive m).hw ≠ f.hw)

/-- The steps that the brokers take by themselves. -/
inductive Quiet (n : Nat) (big : List α → Bool) : Sys α → Sys α → Prop where
  /-- the listener of the connection wakes up and `drain_replicas` takes the partition (connection.rs:76-80, 121;
  leader/spu.rs:101-104) -/
  | drain (s : Sys α) (i : Nat) (hi : i < n) (up : s.up i = true) (hp : s.pending i = true) :
      Quiet n big s { s with pending := put s.pending i false, tasks := ⟨.send i, .nothing⟩ :: s.tasks }
  /-- first half of `as_offset` -/
  | readHw (s : Sys α) (pre post : List Task) (j : Job) (ht : s.tasks = pre ++ ⟨j, .nothing⟩ :: post) :
      Quiet n big s { s with tasks := pre ++ ⟨j, .hw s.leader.hw⟩ :: post }
  /-- second half of `as_offset` -/
  | readLeo (s : Sys α) (pre post : List Task) (j : Job) (h : Int) (ht : s.tasks = pre ++ ⟨j, .hw h⟩ :: post) :
      Quiet n big s { s with tasks := pre ++ ⟨j, .both ⟨h, s.leader.leo⟩⟩ :: post }
  /-- the message is built and sent (connection.rs:132-156) -/
  | send (s : Sys α) (pre post : List Task) (i : Nat) (p : Info) (k : Nat)
      (ht : s.tasks = pre ++ ⟨.send i, .both p⟩ :: post) (hk : Cut big s.leader.log (s.leader.infos i).leo k) :
      Quiet n big s { s with
        tasks := pre ++ post
        syncs := match s.message i p k with
          | some m => put s.syncs i (m :: s.syncs i)
          | none => s.syncs }
  /-- the follower handles a message and reports its position if something changed (follower/controller.rs:243-302) -/
  | receive (s : Sys α) (i : Nat) (pre post : List (Sync α)) (m : Sync α) (hm : s.syncs i = pre ++ m :: post) :
      Quiet n big s { s with
        followers := put s.followers i ((s.followers i).receive m)
        syncs := put s.syncs i (pre ++ post)
        reports := if changed (s.followers i) m then
            put s.reports i (⟨((s.followers i).receive m).hw, ((s.followers i).receive m).leo⟩ :: s.reports i)
          else s.reports }
  /-- a report arrives (connection.rs:91-100) -/
  | take (s : Sys α) (i : Nat) (pre post : List Info) (r : Info) (hr : s.reports i = pre ++ r :: post) :
      Quiet n big s { s with reports := put s.reports i (pre ++ post), tasks := ⟨.merge i r, .nothing⟩ :: s.tasks }
  /-- a report ahead of the leader is dropped (replica_state.rs:197-200); any other is merged, and the followers are
  notified (replica_state.rs:202-237) -/
  | merge (s : Sys α) (pre post : List Task) (i : Nat) (r p : Info)
      (ht : s.tasks = pre ++ ⟨.merge i r, .both p⟩ :: post) :
      Quiet n big s (if r.newer p then { s with tasks := pre ++ post } else
        { s with leader := s.leader.merge n ⟨i, r, p⟩ true, tasks := ⟨.notify, .nothing⟩ :: (pre ++ post) })
  /-- followers that are known and have another position than the leader get the partition to their pending updates
  (replica_state.rs:390-400, leader/spu.rs:64-77, 94-98) -/
  | notify (s : Sys α) (pre post : List Task) (p : Info) (ht : s.tasks = pre ++ ⟨.notify, .both p⟩ :: post) :
      Quiet n big s { s with
        tasks := pre ++ post
        pending := fun i => s.pending i ||
          (decide (i < n) && ((s.leader.infos i).isValid && !(s.leader.infos i).isSame p)) }

/-- The steps caused from outside. -/
inductive Outside (n : Nat) : Sys α → Sys α → Prop where
  /-- records are produced, and the followers notified (replica_state.rs:347-366) -/
  | produce (s : Sys α) (bs : List (List α)) (hne : ∀ b ∈ bs, b ≠ []) :
      Outside n s { s with leader := s.leader.write n bs, tasks := ⟨.notify, .nothing⟩ :: s.tasks }
  /-- retention removes records that every follower has -/
  | trim (s : Sys α) (start : Int) (hs : s.start ≤ start) (h : ∀ i, i < n → start ≤ (s.followers i).leo) :
      Outside n s { s with start := start }
  /-- the connection to a follower ends, with everything in flight -/
  | down (s : Sys α) (i : Nat) :
      Outside n s { s with
        up := put s.up i false, syncs := put s.syncs i [], reports := put s.reports i []
        tasks := s.tasks.filter (fun t => match t.job with | .send j => decide (j ≠ i) | _ => true) }
  /-- a follower connects and reports its position (follower/controller.rs:181-189) -/
  | connect (s : Sys α) (i : Nat) (hi : i < n) (h : s.up i = false) :
      Outside n s { s with up := put s.up i true, reports := put s.reports i [s.fpos i] }
  /-- a follower reports its position: its timer fired, or replicas were added (follower/controller.rs:198-211) -/
  | timer (s : Sys α) (i : Nat) (h : s.up i = true) :
      Outside n s { s with reports := put s.reports i (s.fpos i :: s.reports i) }

/-- Any number of steps. -/
inductive Run (n : Nat) (big : List α → Bool) : Sys α → Sys α → Prop where
  | refl (s : Sys α) : Run n big s s
  | quiet {s t u : Sys α} : Run n big s t → Quiet n big t u → Run n big s u
  | outside {s t u : Sys α} : Run n big s t → Outside n t u → Run n big s u

/-- Any number of steps that the brokers take by themselves. -/
inductive Quiets (n : Nat) (big : List α → Bool) : Sys α → Sys α → Prop where
  | refl (s : Sys α) : Quiets n big s s
  | step {s t u : Sys α} : Quiets n big s t → Quiet n big t u → Quiets n big s u

/-- What may happen besides.
* `trim`: retention does not look at the followers (crates/fluvio-storage/src/cleaner.rs, C16, C17);
* `stolen`: the leader still serves an older connection of the follower, of which it has not noticed the end; it shares
  the pending updates with the new one (leader/spu.rs:37-40, service_impl.rs:70-79) and takes them. -/
inductive Mishap : Sys α → Sys α → Prop where
  | trim (s : Sys α) (start : Int) (hs : s.start ≤ start) (h : start ≤ s.leader.leo) : Mishap s { s with start := start }
  | stolen (s : Sys α) (i : Nat) : Mishap s { s with pending := put s.pending i false }

/-! ### Specification vocabulary -/

/-- **Specification.** A broker starts to lead a partition: the logs of the followers are initial parts of its own, no
follower is ahead of its watermark, all records it will have to send are still there, and nobody is connected yet.
A single replica has everything committed. -/
structure Start (n : Nat) (s : Sys α) : Prop where
  batches : ∀ b ∈ s.leader.log, b ≠ []
  leo : s.leader.leo = size s.leader.log
  hw : 0 ≤ s.leader.hw ∧ s.leader.hw ≤ s.leader.leo
  alone : n = 0 → s.leader.hw = s.leader.leo
  unknown : ∀ i, s.leader.infos i = Info.unknown
  pref : ∀ i, i < n → (s.followers i).log <+: s.leader.log
  fleo : ∀ i, i < n → (s.followers i).leo = size (s.followers i).log
  fhw : ∀ i, i < n → 0 ≤ (s.followers i).hw ∧ (s.followers i).hw ≤ (s.followers i).leo ∧
    (s.followers i).hw ≤ s.leader.hw
  stored : ∀ i, i < n → s.start ≤ (s.followers i).leo
  idle : s.tasks = [] ∧ (∀ i, s.up i = false) ∧ (∀ i, s.pending i = false) ∧ (∀ i, s.syncs i = []) ∧
    ∀ i, s.reports i = []

/-- **Specification.** Nothing is left to do. -/
def Settled (n : Nat) (big : List α → Bool) (s : Sys α) : Prop := ∀ t, ¬ Quiet n big s t

/-- **Specification.** Follower `i` has the log and the watermark of the leader. -/
def CaughtUp (s : Sys α) (i : Nat) : Prop :=
  (s.followers i).log = s.leader.log ∧ (s.followers i).hw = s.leader.hw ∧ (s.followers i).leo = s.leader.leo

end Verif.Replication.Progress
