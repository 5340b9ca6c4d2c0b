import Verif.Storage.Checkpoint
import Verif.Props.Fetch

/-!
# C18: the high watermark after a restart
-/

namespace Verif.Props
open Verif.Storage

variable {α : Type}

/-- After a restart the high watermark is the checkpointed value, or the log end if that is smaller; the
log itself is what it was. -/
theorem C18_hw_is_checkpoint (c : Cfg) (ops : List (Op α)) (hh : ∀ op ∈ ops, op.Honest) (v : Int)
    (r' : Replica α) (hr : (Replica.init.run c ops).1.reopen c (.value v) = some r') :
    r'.hw = min v r'.leo ∧ r'.hw ≤ r'.leo ∧ r'.leo = (Replica.init.run c ops).1.leo ∧
      r'.pairs = (Replica.init.run c ops).1.pairs ∧
      r'.logStart = (Replica.init.run c ops).1.logStart := by
  have hok := ReplicaOk.run c ops Replica.init ReplicaOk.init hh
  generalize (Replica.init.run c ops).1 = r at *
  obtain ⟨h1, h2, h3, h4, h5, h6⟩ := hok.reopen hr
  have hstart : r'.logStart = r.logStart := by
    cases hp : r.prev with
    | nil =>
      rw [hp, List.map_nil, List.map_eq_nil_iff] at h4
      rw [Replica.logStart_nil hp, Replica.logStart_nil h4, h5]
    | cons s l =>
      rw [hp, List.map_cons] at h4
      cases hp' : r'.prev with
      | nil => rw [hp'] at h4; cases h4
      | cons s' l' =>
        rw [hp', List.map_cons] at h4
        rw [hok.logStart_cons hp, h1.logStart_cons hp']
        injection h4 with h4 _
        injection h4
  refine ⟨?_, ?_, h3, by unfold Replica.pairs; rw [h2], hstart⟩
  · rw [h6, h3]
    dsimp only [readCheckpoint]
    split <;> omega
  · rw [h6, h3]
    dsimp only [readCheckpoint]
    split <;> omega

/-- Without a checkpoint file, or with an unreadable one, the watermark is still within the log end. -/
theorem C18_hw_le_leo (c : Cfg) (ops : List (Op α)) (hh : ∀ op ∈ ops, op.Honest) (chk : ChkFile)
    (r' : Replica α) (hr : (Replica.init.run c ops).1.reopen c chk = some r') : r'.hw ≤ r'.leo := by
  have hok := ReplicaOk.run c ops Replica.init ReplicaOk.init hh
  generalize (Replica.init.run c ops).1 = r at *
  obtain ⟨h1, h2, h3, h4, h5, h6⟩ := hok.reopen hr
  rw [h6, h3]
  dsimp only
  split <;> omega

/-- log start ≤ high watermark ≤ log end after a restart, if the checkpointed value is not below the
log start, or if there is no checkpoint file.

Missing: retention does not look at the watermark, so the log start can be beyond it; an unreadable
checkpoint resets the watermark to 0 — see `C18_violated_log_start` and `C18_violated_unreadable`. -/
theorem C18_consistent_partial (c : Cfg) (ops : List (Op α)) (hh : ∀ op ∈ ops, op.Honest) (chk : ChkFile)
    (hchk : chk = .missing ∨ ∃ v, chk = .value v ∧ (Replica.init.run c ops).1.logStart ≤ v)
    (r' : Replica α) (hr : (Replica.init.run c ops).1.reopen c chk = some r') :
    (Replica.init.run c ops).1.logStart ≤ r'.hw ∧ r'.hw ≤ r'.leo := by
  refine ⟨?_, C18_hw_le_leo c ops hh chk r' hr⟩
  have hok := ReplicaOk.run c ops Replica.init ReplicaOk.init hh
  generalize (Replica.init.run c ops).1 = r at *
  obtain ⟨h1, h2, h3, h4, h5, h6⟩ := hok.reopen hr
  have hle : r.logStart ≤ r.active.base := by
    cases hp : r.prev with
    | nil => rw [Replica.logStart_nil hp]; omega
    | cons s l =>
      rw [hok.logStart_cons hp]
      have := (hok.prev s (by simp [hp])).2
      omega
  have hle2 : r.active.base ≤ r.leo := hok.active.chain.le
  rw [h6]
  rcases hchk with rfl | ⟨v, rfl, hv⟩
  · dsimp only [readCheckpoint]
    split <;> omega
  · dsimp only [readCheckpoint]
    split <;> omega

example : ((Replica.init.run demoCfg demoOps).1.reopen demoCfg (.value 7)).map (fun r => (r.hw, r.leo))
    = some (7, 9) := by decide
example : ((Replica.init.run demoCfg demoOps).1.reopen demoCfg (.value 70)).map (fun r => (r.hw, r.leo))
    = some (9, 9) := by decide

/-- Writes that are not yet replicated (watermark stays 0), size-based retention, restart: log start 3,
watermark 0. -/
theorem C18_violated_log_start :
    let ops : List (Op Nat) := [.write [demoBatch [1, 2, 3]] false none,
      .write [demoBatch [4, 5, 6]] false none, .write [demoBatch [7, 8, 9]] false none, .cleanSize]
    (((Replica.init.run demoCfg ops).1.reopen demoCfg (.value 0)).map fun r => (r.logStart, r.hw))
      = some (3, 0) := by decide

/-- A checkpoint file that is not exactly eight bytes long: the watermark is reset to 0. -/
theorem C18_violated_unreadable :
    let ops : List (Op Nat) := [.write [demoBatch [1, 2, 3]] true none,
      .write [demoBatch [4, 5, 6]] true none, .write [demoBatch [7, 8, 9]] true none, .cleanSize]
    (Replica.init.run demoCfg ops).1.hw = 9 ∧
    (((Replica.init.run demoCfg ops).1.reopen demoCfg .unreadable).map fun r => (r.logStart, r.hw))
      = some (3, 0) := by decide

/-- The checkpoint file holds the current watermark once the background writer has caught up, unless
that watermark equals the value found in the file at the last start (or is 0).

Missing: that value — see `C18_violated_checkpoint_skipped`. -/
theorem C18_checkpoint_caught_up_partial (file : Option (Option Int)) (initial : Int) (ops : List ChkOp)
    (w : Bool) (hk : ((Chk.open file initial).run ops).cur ≠ (Chk.open file initial).known)
    (h0 : ((Chk.open file initial).run ops).cur ≠ 0) :
    ((Chk.open file initial).run (ops ++ [.writer w])).file
      = some ((Chk.open file initial).run ops).cur := by
  obtain ⟨h1, h2⟩ := Chk.Inv.run ops (Chk.Inv.open file initial)
  unfold Chk.run at *
  rw [List.foldl_append]
  generalize List.foldl Chk.step (Chk.open file initial) ops = k at *
  show (k.writer w).file = some k.cur
  unfold Chk.writer
  split
  · rename_i he
    replace he := he.1
    rcases h1 with h | h | h
    · rw [he, h, h2] at hk; exact absurd rfl hk
    · rw [he] at h0; exact absurd h h0
    · rw [h, he]
  · show (if k.cur = k.known then k.file else some k.cur) = _
    rw [if_neg (by rw [h2]; exact hk)]

example : ((Chk.open none 0).run [.update 3, .writer false, .update 5, .update 8, .writer false]).file = some 8 := by
  decide

/-- Start with 10 in the file but only 7 recovered, watermark reset to 7, then it grows to 10 again: the
file is left at 9 although the writer has caught up. -/
theorem C18_violated_checkpoint_skipped :
    let k := (Chk.open (some (some 10)) 0).run
      [.writer false, .update 7, .writer false, .update 9, .writer false, .update 10, .writer false]
    k.cur = 10 ∧ k.seen = 10 ∧ k.file = some 9 := by decide

end Verif.Props
