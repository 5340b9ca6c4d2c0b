import Verif.Replication.Failover

/-
Waiting for a produce request to be committed.

Models `wait_for_acks` (crates/fluvio-spu/src/services/public/produce_handler.rs:334-388) for one
partition.
-/

namespace Verif.Replication

variable {α : Type}

/-- Outcome for one partition: the error code of the response. -/
inductive AckResult where
  | none
  | timedOut
  /-- an error the write itself ended with; waiting is skipped -/
  | failed
deriving DecidableEq, Repr

/-- `wait_for_acks` for one partition with committed isolation: `first` is the watermark checked before
waiting (line 358), `observed` are the values the listener returned before the timer fired (lines
363-386); `failed` if the write ended with an error (346-349). -/
def waitForAcks (written : Bool) (leo first : Int) (observed : List Int) : AckResult :=
  if !written then .failed
  else if first ≥ leo then .none
  else if observed.any (fun hw => decide (hw ≥ leo)) then .none
  else .timedOut

/-- States one after another in the life of one leader. -/
inductive Path (n : Nat) : Cluster α → List (Cluster α) → Cluster α → Prop where
  | nil (c : Cluster α) : Path n c [] c
  | cons {c d e : Cluster α} {l : List (Cluster α)} : Life n (fun p => p ≠ none) c d → Path n d l e →
      Path n c (d :: l) e

theorem Path.logs {n : Nat} {c e : Cluster α} {l : List (Cluster α)} (h : Path n c l e) :
    c.leader.log <+: e.leader.log ∧ ∀ i, (c.followers i).log <+: (e.followers i).log := by
  induction h with
  | nil => exact ⟨List.prefix_rfl, fun i => List.prefix_rfl⟩
  | cons hl _ ih =>
    have := life_logs hl
    exact ⟨this.1.trans ih.1, fun i => (this.2 i).trans (ih.2 i)⟩

theorem Life.weaken {n : Nat} {may may' : Option Nat → Prop} (hm : ∀ p, may p → may' p)
    {c d : Cluster α} (h : Life n may c d) : Life n may' c d := by
  induction h with
  | refl => exact .refl _
  | step _ hs ih => exact ih.step hs
  | restartLeader hw _ hp hle ih => exact ih.restartLeader hw (hm _ hp) hle
  | restartFollower j hw _ hp hle ih => exact ih.restartFollower j hw (hm _ hp) hle

/-- A state with the awaited watermark was seen on the path. -/
theorem Path.seen {n : Nat} {c e : Cluster α} {l : List (Cluster α)} (h : Path n c l e)
    (hc : History n c) {leo : Int}
    (hany : (l.map (fun s => s.leader.hw)).any (fun hw => decide (hw ≥ leo)) = true) :
    ∃ s, History n s ∧ c.leader.log <+: s.leader.log ∧ leo ≤ s.leader.hw ∧
      ∀ i, (s.followers i).log <+: (e.followers i).log := by
  induction h with
  | nil => simp at hany
  | cons hl hp ih =>
    have hb := hc.life (hl.weaken fun _ _ => trivial)
    simp only [List.map_cons, List.any_cons, Bool.or_eq_true, decide_eq_true_eq] at hany
    rcases hany with hany | hany
    · exact ⟨_, hb, (life_logs hl).1, hany, hp.logs.2⟩
    · obtain ⟨s, h1, h2, h3, h4⟩ := ih hb hany
      exact ⟨s, h1, (life_logs hl).1.trans h2, h3, h4⟩

end Verif.Replication
