import Verif.Broker.Removal

/-!
# C66: partitions are removed only on request
-/

namespace Verif.Props

open Verif.Meta Verif.Broker

variable {K : Type} [DecidableEq K]

/-! ## Specification -/

/-- The step takes partition `k` from the controller's metadata. -/
def TakesAway (isLocal : Bool) (s : Cluster K) (e : Act K) (k : K) : Prop :=
  s.parts.get k ≠ none ∧ (s.step isLocal e).parts.get k = none

/-! ## C66 -/

/-- **C66**, Kubernetes and local storage, any number of brokers, with elections, failures at the brokers and
broken connections: a partition disappears only by the request to delete it, or after this very partition's
deletion has been requested.

Missing: it has to be given that a name is used again only when no notice and no acknowledgement about its
removal is under way (`Cluster.Reach`); without this it is wrong (`C66_violated_stale_ack`). -/
theorem C66_requested_partial (isLocal : Bool) (s : Cluster K) (e : Act K) (k : K)
    (hr : s.Reach isLocal) (h : TakesAway isLocal s e k) : e = .request k ∨ s.asked k = true := by
  rcases removed_by h.1 h.2 with ⟨he, _⟩ | ⟨i, rfl, hi⟩
  · exact Or.inl he
  · rcases hr.honest.under i k (Or.inl hi) with h' | h'
    · exact absurd h' h.1
    · exact Or.inr h'

/-- **C66**, local storage: acknowledgements never remove anything.

Missing: as for `C66_requested_partial`. -/
theorem C66_local_partial (s : Cluster K) (e : Act K) (k : K) (hr : s.Reach true)
    (h : TakesAway true s e k) : e = .request k := by
  rcases C66_requested_partial true s e k hr h with h' | h'
  · exact h'
  · rw [hr.asked_local] at h'
    cases h'

/-- **C66**, Kubernetes: an acknowledgement never removes a partition that is not marked for deletion,
whatever has happened before. -/
theorem C66_kubernetes (s : Cluster K) (e : Act K) (k : K) (a : Assign) (ha : s.parts.get k = some a)
    (hd : a.deleting = false) : (s.step false e).parts.get k ≠ none := by
  intro h
  rcases removed_by (by rw [ha]; nofun) h with ⟨_, h'⟩ | ⟨i, rfl, _⟩
  · cases h'
  · unfold Cluster.step at h
    dsimp only at h
    split at h
    · rw [ha] at h; cases h
    · rename_i j js _
      split at h
      · rw [show s.parts.get k = none from h] at ha
        cases ha
      · rename_i a' ha'
        split at h
        · rename_i hdel
          have h3 : (s.parts.delete j).get k = none := h
          rw [get_delete] at h3
          split at h3
          · rename_i ej
            rw [← ej, ha] at ha'
            cases ha'
            rw [hd] at hdel
            cases hdel
          · rw [ha] at h3; cases h3
        · rw [show s.parts.get k = none from h] at ha
          cases ha

/-- **C66**, the other direction: a leader that is told of the deletion answers, and with the answer the
partition is gone (Kubernetes).

Missing: nothing brings a lost answer back (`C66_violated_lost_ack`). -/
theorem C66_answered_partial (s : Cluster K) (i : Nat) (ios : List Io) (k : K) (a : Assign)
    (ms : List (Msg K Assign)) (hw : (s.conns i).wire = ⟨[], [.put k a]⟩ :: ms)
    (hd : a.deleting = true) (hl : a.leader = (s.conns i).broker.me)
    (hn : (s.conns i).broker.told.get k ≠ some a) (hq : (s.conns i).acks = [])
    (hp : ∃ p, s.parts.get k = some p ∧ p.deleting = true) :
    let s' := s.step false (.deliver i ios)
    (s'.conns i).acks = [k] ∧ (s'.step false (.ack i)).parts.get k = none := by
  have hacks : ((s.step false (.deliver i ios)).conns i).acks = [k] := by
    unfold Cluster.step
    dsimp only
    rw [hw]
    show (ite (i = i) _ (s.conns i) : Conn K).acks = _
    rw [if_pos rfl]
    show (s.conns i).acks ++ _ = _
    rw [hq, acks_deleting _ _ _ _ hd hl hn]
    rfl
  have hparts : (s.step false (.deliver i ios)).parts = s.parts := by
    unfold Cluster.step
    dsimp only
    rw [hw]
  refine ⟨hacks, ?_⟩
  generalize s.step false (.deliver i ios) = s' at *
  obtain ⟨p, hp, hpd⟩ := hp
  unfold Cluster.step
  dsimp only
  rw [hacks, hparts]
  dsimp only
  rw [hp]
  dsimp only
  rw [if_pos (by rw [hpd]; rfl)]
  show (s.parts.delete k).get k = none
  rw [get_delete, if_pos rfl]

/-- A partition is created, led by broker 1 and followed by broker 2, and deleted with Kubernetes. -/
def removalRun : List (Act Nat) :=
  [.create 7 ⟨1, [1, 2], false, 0⟩, .deliver 1 [], .deliver 2 [], .request 7, .deliver 1 []]

def Cluster.runs (isLocal : Bool) (es : List (Act Nat)) : Cluster Nat := es.foldl (Cluster.step isLocal) .init

example : (Cluster.runs false removalRun).Reach false ∧
    TakesAway false (Cluster.runs false removalRun) (.ack 1) 7 ∧
    (Cluster.runs false removalRun).asked 7 = true := by
  refine ⟨?_, ⟨nofun, rfl⟩, rfl⟩
  have h0 : Cluster.Reach false (Cluster.init : Cluster Nat) := .init
  have h1 := h0.step _ (.create 7 ⟨1, [1, 2], false, 0⟩) (fun _ _ _ _ => ⟨nofun, nofun⟩)
  have h2 := h1.step _ (.deliver 1 []) nofun
  have h3 := h2.step _ (.deliver 2 []) nofun
  have h4 := h3.step _ (.request 7) nofun
  exact h4.step _ (.deliver 1 []) nofun

/-- The hypotheses of `C66_answered_partial` hold just before broker 1 hears of the deletion. -/
example :
    let s := Cluster.runs false (removalRun.take 4)
    (s.conns 1).wire = [⟨[], [.put 7 ⟨1, [1, 2], true, 0⟩]⟩] ∧ (s.conns 1).acks = [] ∧
    (s.conns 1).broker.told.get 7 = some ⟨1, [1, 2], false, 0⟩ ∧
    s.parts.get 7 = some ⟨1, [1, 2], true, 0⟩ := by
  decide

/-- **C66 is violated** (local storage): a topic is deleted and created again at once.  The leader's
acknowledgement of the removal of the old partition arrives when the new one exists; it names the partition by
topic and number only (`ReplicaRemovedRequest`), `receive_replica_remove` (private_server.rs:254-284) finds a
partition of that name, and with the local storage the final deletion deletes it (local.rs:156-161).  Nobody
has asked for this, and the leader removes the new records as well. -/
theorem C66_violated_stale_ack :
    let s := Cluster.runs true
      [.create 7 ⟨1, [1], false, 0⟩, .deliver 1 [], .request 7, .create 7 ⟨1, [1], false, 1⟩, .deliver 1 [],
       .deliver 1 []]
    TakesAway true s (.ack 1) 7 ∧ s.asked 7 = false ∧
    (s.conns 1).broker.leads.get 7 = some ⟨1, [1], false, 1⟩ ∧
    (((s.step true (.ack 1)).step true (.deliver 1 [])).conns 1).broker.leads.get 7 = none :=
  ⟨⟨nofun, rfl⟩, rfl, rfl, rfl⟩

/-- **C66 is violated** (Kubernetes): the acknowledgement is lost with the connection.  When the connection is
established anew the broker already has the partition as being deleted, so it does nothing and does not
answer; nor does it however often this is repeated, and the partition remains in deletion. -/
theorem C66_violated_lost_ack :
    let s := Cluster.runs false (removalRun ++ [.reconnect 1, .deliver 1 []])
    s.asked 7 = true ∧ (s.conns 1).wire = [] ∧ (s.conns 1).acks = [] ∧
    s.parts.get 7 = some ⟨1, [1, 2], true, 0⟩ ∧
    (let s' := (s.step false (.reconnect 1)).step false (.deliver 1 [])
     s'.parts = s.parts ∧ (s'.conns 1).wire = [] ∧ (s'.conns 1).acks = [] ∧
     (s'.conns 1).broker.told = (s.conns 1).broker.told) := by
  decide

end Verif.Props
