import Verif.Mirror.Protocol
import Verif.Replication.ProgressRun

/-
What makes mirroring go on: the tasks of source and target on their connection.

Models crates/fluvio-spu/src/mirroring/remote/controller.rs and mirroring/home/connection.rs.  The functions themselves
(`updateFrom`, `generate`, `accepts`, `append`) are those of `Verif.Mirror.Protocol`; here every message is delivered
once and in order, and what causes it to be sent is part of the state.  Either side may be the source: `keep` says that
the source is the remote cluster, whose task keeps what it knows about the target, and its listener, over connections
(controller.rs:181-221); the home cluster starts anew with every connection (connection.rs:131-143, 287).

Simplifications: one connection at a time, whose end is noticed by both sides at once (`C48_violated_overlap` is about
the other case); storage does not fail; the home cluster knows the remote one and leads its partition
(connection.rs:90-125); statuses and back-off are left out.
-/

namespace Verif.Mirror.Progress
open Verif.Replication Verif.Mirror

variable {α : Type}

/-- Source and target of a mirrored partition, and their connection. -/
structure Sys (α : Type) where
  source : Source α
  target : Target α
  /-- `last_value` of the source's listener (crates/fluvio-types/src/event.rs:110-112) -/
  heard : Int
  /-- the connection exists -/
  up : Bool
  /-- `home_leo` or `remote_leo`, -1 if unknown -/
  known : Int
  /-- `home_updated_needed` or `remote_updated_needed` -/
  needed : Bool
  /-- the source is sending: the end of its log as read by `as_offset` -/
  seen : Option Int
  /-- records on their way, oldest first -/
  syncs : List (Msg α)
  /-- ends of the target's log on their way, oldest first -/
  reports : List Int

/-- The connection ends, with everything on its way. -/
def Sys.drop (s : Sys α) : Sys α := { s with up := false, needed := false, seen := none, syncs := [], reports := [] }

/-- The task of the source waits in its `select!`: what has to be sent has been (controller.rs:256-264,
connection.rs:302-306). -/
def Sys.Waiting (s : Sys α) : Prop := ¬ (s.needed = true ∧ 0 ≤ s.known)

/-- The steps that the clusters take by themselves. -/
inductive Quiet (keep : Bool) (big : List α → Bool) : Sys α → Sys α → Prop where
  /-- the remote cluster connects (controller.rs:185-197, 542-603); the target reports its end
  (connection.rs:194, controller.rs:324) -/
  | connect (s : Sys α) (h : s.up = false) :
      Quiet keep big s { s.drop with
        up := true, heard := if keep then s.heard else 0, known := if keep then s.known else -1
        reports := [s.target.leo] }
  /-- the source notices a new end of its log (controller.rs:266-269, connection.rs:308-311) -/
  | listen (s : Sys α) (hu : s.up = true) (hw : s.Waiting) (h : s.heard ≠ s.source.leo) :
      Quiet keep big s { s with heard := s.source.leo, needed := true }
  /-- a report arrives at the source (controller.rs:271-281, connection.rs:314-324); on an error the connection ends -/
  | update (s : Sys α) (hu : s.up = true) (hw : s.Waiting) (r : Int) (rest : List Int) (hr : s.reports = r :: rest) :
      Quiet keep big s (match updateFrom s.source.leo s.known r with
        | (k, none) => { s.drop with known := k }
        | (k, some n) => { s with known := k, needed := n, reports := rest })
  /-- the source starts to send: `as_offset` (controller.rs:256-258, 488-489, connection.rs:302-303, 370-371) -/
  | look (s : Sys α) (hu : s.up = true) (hn : s.needed = true) (hk : 0 ≤ s.known) (h : s.seen = none) :
      Quiet keep big s { s with seen := some s.source.leo }
  /-- … reads and sends the records (controller.rs:491-539, connection.rs:373-421); on an error the connection ends -/
  | send (s : Sys α) (hu : s.up = true) (l : Int) (h : s.seen = some l) (k : Nat)
      (hk : Replication.Progress.Cut big s.source.log s.known k) :
      Quiet keep big s (match generate s.source l s.known k with
        | .error _ => s.drop
        | .ok none => { s with needed := false, seen := none }
        | .ok (some m) => { s with needed := false, seen := none, syncs := s.syncs ++ [m] })
  /-- records arrive at the target, which takes them if they are the next ones, and reports its end
  (connection.rs:262-275, controller.rs:350-359) -/
  | receive (s : Sys α) (hu : s.up = true) (m : Msg α) (rest : List (Msg α)) (hm : s.syncs = m :: rest) :
      Quiet keep big s (if accepts s.target m then
          { s with target := append s.target m, syncs := rest, reports := s.reports ++ [(append s.target m).leo] }
        else { s with syncs := rest, reports := s.reports ++ [s.target.leo] })

/-- The steps caused from outside. -/
inductive Outside : Sys α → Sys α → Prop where
  /-- records are produced at the source -/
  | produce (s : Sys α) (bs : List (List α)) (hne : ∀ b ∈ bs, b ≠ []) :
      Outside s { s with source := { s.source with log := s.source.log ++ bs, leo := size (s.source.log ++ bs) } }
  /-- retention at the source removes records that the target has -/
  | trim (s : Sys α) (start : Int) (hs : s.source.start ≤ start) (h : start ≤ s.target.leo) :
      Outside s { s with source := { s.source with start := start } }
  /-- the connection breaks -/
  | down (s : Sys α) : Outside s s.drop
  /-- the timer of the target fires (connection.rs:211-215, controller.rs:333-337) -/
  | timer (s : Sys α) (hu : s.up = true) : Outside s { s with reports := s.reports ++ [s.target.leo] }
  /-- the target restarts without the end of its log; the source still has what is missing -/
  | lose (s : Sys α) (n : Nat) (h : s.source.start ≤ size (s.target.log.take n)) :
      Outside s { s.drop with target := ⟨s.target.log.take n, size (s.target.log.take n), false⟩ }
  /-- the source restarts -/
  | restart (s : Sys α) : Outside s { s.drop with known := -1, heard := 0 }

/-- Any number of steps. -/
inductive Run (keep : Bool) (big : List α → Bool) : Sys α → Sys α → Prop where
  | refl (s : Sys α) : Run keep big s s
  | quiet {s t u : Sys α} : Run keep big s t → Quiet keep big t u → Run keep big s u
  | outside {s t u : Sys α} : Run keep big s t → Outside t u → Run keep big s u

/-- Any number of steps that the clusters take by themselves. -/
inductive Quiets (keep : Bool) (big : List α → Bool) : Sys α → Sys α → Prop where
  | refl (s : Sys α) : Quiets keep big s s
  | step {s t u : Sys α} : Quiets keep big s t → Quiet keep big t u → Quiets keep big s u

/-! ### Specification vocabulary -/

/-- **Specification.** Mirroring starts: the target has an initial part of the source's log, the source still has the
rest, and there is no connection yet. -/
structure Start (s : Sys α) : Prop where
  batches : ∀ b ∈ s.source.log, b ≠ []
  source : s.source.leo = size s.source.log
  target : s.target.leo = size s.target.log
  pref : s.target.log <+: s.source.log
  stored : s.source.start ≤ s.target.leo
  idle : s.up = false ∧ s.heard = 0 ∧ s.known = -1 ∧ s.needed = false ∧ s.seen = none ∧ s.syncs = [] ∧ s.reports = []

/-- **Specification.** Nothing is left to do. -/
def Settled (keep : Bool) (big : List α → Bool) (s : Sys α) : Prop := ∀ t, ¬ Quiet keep big s t

end Verif.Mirror.Progress
