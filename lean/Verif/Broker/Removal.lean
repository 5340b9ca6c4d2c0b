import Verif.Broker.RolesRun

/-!
# Removal of partitions: controller, brokers and their acknowledgements

The controller tells every broker about every partition
(`fluvio-sc/src/services/private_api/private_server.rs:431-491`); a leader that has removed its replica
acknowledges it, and the controller then removes the partition (`receive_replica_remove`, :254-284).
-/

namespace Verif.Broker

open Verif.Meta

set_option linter.unusedSectionVars false

variable {K : Type} [DecidableEq K]

/-- One broker with the messages to it and its acknowledgements under way. -/
structure Conn (K : Type) where
  wire : List (Msg K Assign)
  acks : List K
  broker : Broker K

/-- The controller's partitions (its cache and the stored objects are taken as one), the connections, and,
for the statement only, whether the removal of the present partition has been requested. -/
structure Cluster (K : Type) where
  parts : BStore K Assign
  conns : Nat → Conn K
  asked : K → Bool

/-- A change is sent to every broker. -/
def Cluster.tell (s : Cluster K) (u : Upd K Assign) : Nat → Conn K :=
  fun i => { s.conns i with wire := (s.conns i).wire ++ [⟨[], [u]⟩] }

inductive Act (K : Type) where
  /-- a partition is created -/
  | create (k : K) (a : Assign)
  /-- its topic is deleted -/
  | request (k : K)
  /-- its leader is changed -/
  | elect (k : K) (leader : Nat)
  /-- a broker processes the next message -/
  | deliver (i : Nat) (ios : List Io)
  /-- the controller processes the next acknowledgement -/
  | ack (i : Nat)
  /-- a connection breaks and is established anew: messages under way are lost, everything is sent -/
  | reconnect (i : Nat)

/-- `request`: with the local metadata storage a topic's partitions are removed with it
(fluvio-stream-dispatcher/src/metadata/local.rs:139-154); with Kubernetes they are marked and wait for the
leader (controllers/topics/reducer.rs:117-131, controllers/partitions/reducer.rs:82-103).
`ack`: `receive_replica_remove` with `DeleteFinal` (dispatcher/metadata.rs:291-309), which removes an object
of the local storage (local.rs:156-161), and with Kubernetes releases an object that waits to be deleted
(k8.rs:76-107).
Simplified: each change is a message of its own; the controller's cache is the storage. -/
def Cluster.step (isLocal : Bool) (s : Cluster K) : Act K → Cluster K
  | .create k a =>
    match s.parts.get k with
    | some _ => s
    | none =>
      ⟨s.parts.insert k { a with deleting := false }, s.tell (.put k { a with deleting := false }),
        fun j => if j = k then false else s.asked j⟩
  | .request k =>
    match s.parts.get k with
    | none => s
    | some a =>
      if isLocal then ⟨s.parts.delete k, s.tell (.del k), s.asked⟩
      else ⟨s.parts.insert k { a with deleting := true }, s.tell (.put k { a with deleting := true }),
        fun j => if j = k then true else s.asked j⟩
  | .elect k l =>
    match s.parts.get k with
    | none => s
    | some a => { s with parts := s.parts.insert k { a with leader := l }, conns := s.tell (.put k { a with leader := l }) }
  | .deliver i ios =>
    match (s.conns i).wire with
    | [] => s
    | m :: ms =>
      let r := (s.conns i).broker.update ios m
      { s with conns := fun j =>
          if j = i then
            ⟨ms, (s.conns i).acks ++ r.2.filterMap (fun | .removed k => some k | .storageError => none), r.1⟩
          else s.conns j }
  | .ack i =>
    match (s.conns i).acks with
    | [] => s
    | k :: ks =>
      let s' : Cluster K := { s with conns := fun j => if j = i then { s.conns i with acks := ks } else s.conns j }
      match s.parts.get k with
      | none => s'
      | some a =>
        if isLocal || a.deleting then
          { s' with parts := s.parts.delete k, conns := s'.tell (.del k) }
        else s'
  | .reconnect i =>
    { s with conns := fun j => if j = i then ⟨[⟨s.parts, []⟩], [], (s.conns i).broker⟩ else s.conns j }

def Cluster.init : Cluster K := ⟨[], fun i => ⟨[], [], Broker.init i⟩, fun _ => false⟩

/-- A message announces the removal of `k`. -/
def Announces (k : K) (m : Msg K Assign) : Prop :=
  none ∈ heardMsg k m ∨ ∃ a, some a ∈ heardMsg k m ∧ a.deleting = true

/-- Nothing about a removal of `k` is under way. -/
def Cluster.Quiet (s : Cluster K) (k : K) : Prop :=
  ∀ i, k ∉ (s.conns i).acks ∧ ∀ m ∈ (s.conns i).wire, ¬Announces k m

/-- Runs in which a name is used again only when nothing about a removal is under way. -/
inductive Cluster.Reach (isLocal : Bool) : Cluster K → Prop
  | init : Reach isLocal .init
  | step (s : Cluster K) (e : Act K) : Reach isLocal s → (∀ k a, e = .create k a → s.Quiet k) →
    Reach isLocal (s.step isLocal e)

/-! ## Acknowledgements follow announcements -/

theorem removed_act {b : Broker K} {io : Io} {c : Change K} {k : K}
    (h : .removed k ∈ (b.act io c).2) :
    c.key = k ∧ (c.new = none ∨ ∃ a, c.new = some a ∧ a.deleting = true) := by
  have hrem : ∀ j a, .removed k ∈ (b.removeReplica io j a).2 → j = k := by
    intro j a h
    unfold Broker.removeReplica at h
    split at h
    · split at h
      · rw [List.mem_singleton] at h; cases h; rfl
      · rw [List.mem_singleton] at h; cases h; rfl
    · cases h
  cases c with
  | add j n =>
    have h' : .removed k ∈ (ite _ _ _ : Broker K × List (Out K)).2 := h
    split at h'
    · rename_i hd
      exact ⟨hrem j n h', Or.inr ⟨n, rfl, hd⟩⟩
    · split at h'
      · unfold Broker.addLeader at h'
        split at h'
        · cases h'
        · rw [List.mem_singleton] at h'; cases h'
      · split at h'
        · dsimp only at h'
          split at h'
          · cases h'
          · rw [List.mem_singleton] at h'; cases h'
        · cases h'
  | del j o => exact ⟨hrem j o h, Or.inl rfl⟩
  | mod j n o =>
    have h' : .removed k ∈ (ite _ _ _ : Broker K × List (Out K)).2 := h
    split at h'
    · rename_i hd
      exact ⟨hrem j n h', Or.inr ⟨n, rfl, hd⟩⟩
    · split at h'
      · split at h'
        · unfold Broker.promote at h'
          dsimp only at h'
          split at h'
          · split at h'
            · cases h'
            · rw [List.mem_singleton] at h'; cases h'
          · cases h'
        · split at h'
          · cases h'
          · cases h'
      · cases h'

theorem removed_actAll {k : K} (cs : List (Change K)) : ∀ (b : Broker K) (ios : List Io),
    .removed k ∈ (b.actAll ios cs).2 →
    ∃ c ∈ cs, c.key = k ∧ (c.new = none ∨ ∃ a, c.new = some a ∧ a.deleting = true) := by
  induction cs with
  | nil => intro b ios h; cases h
  | cons c cs ih =>
    intro b ios h
    rcases List.mem_append.1 (show .removed k ∈ (b.act (ios.head?.getD ⟨true, true, true⟩) c).2 ++ _ from h)
      with h | h
    · exact ⟨c, by simp, removed_act h⟩
    · obtain ⟨c', hc', h'⟩ := ih _ _ h
      exact ⟨c', by simp [hc'], h'⟩

theorem removed_update {b : Broker K} {ios : List Io} {m : Msg K Assign} {k : K}
    (h : .removed k ∈ (b.update ios m).2) : Announces k m := by
  obtain ⟨c, hc, rfl, hn⟩ := removed_actAll _ _ _ h
  have := new_actions hc
  rcases hn with hn | ⟨a, hn, hd⟩
  · rw [hn] at this
    exact Or.inl this
  · rw [hn] at this
    exact Or.inr ⟨a, this, hd⟩

/-- What is under way about a removal concerns a partition that is gone or to be removed. -/
structure Cluster.Honest (s : Cluster K) : Prop where
  under : ∀ i k, (k ∈ (s.conns i).acks ∨ ∃ m ∈ (s.conns i).wire, Announces k m) →
    s.parts.get k = none ∨ s.asked k = true
  marked : ∀ p ∈ s.parts, p.2.deleting = true → s.asked p.1 = true

theorem mem_insert {V : Type} {s : BStore K V} {k : K} {v : V} {p : K × V} :
    p ∈ s.insert k v ↔ (p ∈ s ∧ p.1 ≠ k) ∨ p = (k, v) := by
  unfold BStore.insert
  simp [List.mem_append, List.mem_filter]

theorem mem_delete {V : Type} {s : BStore K V} {k : K} {p : K × V} :
    p ∈ s.delete k ↔ p ∈ s ∧ p.1 ≠ k := by
  unfold BStore.delete
  simp [List.mem_filter]

theorem heard_one (k : K) (u : Upd K Assign) :
    heardMsg k ⟨[], [u]⟩ = if u.key = k then [u.val] else [] := by
  unfold heardMsg
  rw [if_neg (by simp)]
  rw [List.filterMap_cons]
  split
  · rename_i h
    split at h
    · cases h
    · rename_i hk; rw [if_neg hk]; rfl
  · rename_i x h
    split at h
    · rename_i hk; rw [if_pos hk]; cases h; rfl
    · cases h

theorem announces_put {j k : K} {a : Assign} :
    Announces k ⟨[], [.put j a]⟩ ↔ j = k ∧ a.deleting = true := by
  unfold Announces
  rw [heard_one]
  by_cases h : j = k
  · rw [if_pos (show (Upd.put j a).key = k from h)]
    show (none ∈ [some a] ∨ ∃ x, some x ∈ [some a] ∧ _) ↔ _
    constructor
    · rintro (h' | ⟨x, hx, hd⟩)
      · simp at h'
      · rw [List.mem_singleton] at hx; cases hx; exact ⟨h, hd⟩
    · intro h'; exact Or.inr ⟨a, by simp, h'.2⟩
  · rw [if_neg (show ¬(Upd.put j a).key = k from h)]
    constructor
    · rintro (h' | ⟨x, hx, _⟩)
      · cases h'
      · cases hx
    · intro h'; exact absurd h'.1 h

theorem announces_del {j k : K} : Announces k ⟨[], [.del j]⟩ ↔ j = k := by
  unfold Announces
  rw [heard_one]
  by_cases h : j = k
  · rw [if_pos (show (Upd.del j : Upd K Assign).key = k from h)]
    exact ⟨fun _ => h, fun _ => Or.inl (by simp [Upd.val])⟩
  · rw [if_neg (show ¬(Upd.del j : Upd K Assign).key = k from h)]
    constructor
    · rintro (h' | ⟨x, hx, _⟩)
      · cases h'
      · cases hx
    · intro h'; exact absurd h' h

theorem tell_under {s : Cluster K} {u : Upd K Assign} {i : Nat} {k : K}
    (h : k ∈ (s.tell u i).acks ∨ ∃ m ∈ (s.tell u i).wire, Announces k m) :
    (k ∈ (s.conns i).acks ∨ ∃ m ∈ (s.conns i).wire, Announces k m) ∨ Announces k ⟨[], [u]⟩ := by
  rcases h with h | ⟨m, hm, ha⟩
  · exact Or.inl (Or.inl h)
  · rcases List.mem_append.1 (show m ∈ (s.conns i).wire ++ [⟨[], [u]⟩] from hm) with h | h
    · exact Or.inl (Or.inr ⟨m, h, ha⟩)
    · rw [List.mem_singleton] at h
      exact Or.inr (h ▸ ha)

theorem Cluster.Honest.step {isLocal : Bool} {s : Cluster K} (h : s.Honest) (e : Act K)
    (hq : ∀ k a, e = .create k a → s.Quiet k) : (s.step isLocal e).Honest := by
  cases e with
  | create k a =>
    unfold Cluster.step
    dsimp only
    split
    · exact h
    · rename_i hn
      refine ⟨?_, ?_⟩
      · intro i j hu
        show (s.parts.insert k _).get j = none ∨ _
        by_cases e : j = k
        · exfalso
          subst e
          rcases tell_under hu with h1 | h1
          · have := hq j a rfl i
            rcases h1 with h1 | ⟨m, hm, ha⟩
            · exact this.1 h1
            · exact this.2 m hm ha
          · exact absurd (announces_put.1 h1).2 (by simp)
        · rw [get_insert, if_neg e]
          show _ ∨ (if j = k then false else s.asked j) = true
          rw [if_neg e]
          rcases tell_under hu with h1 | h1
          · exact h.under i j h1
          · exact absurd (announces_put.1 h1).1.symm e
      · intro p hp hd
        show (if p.1 = k then false else s.asked p.1) = true
        rcases mem_insert.1 hp with ⟨hp, e⟩ | rfl
        · rw [if_neg e]
          exact h.marked p hp hd
        · cases hd
  | request k =>
    unfold Cluster.step
    dsimp only
    split
    · exact h
    · rename_i a ha
      split
      · refine ⟨?_, ?_⟩
        · intro i j hu
          show (s.parts.delete k).get j = none ∨ s.asked j = true
          rw [get_delete]
          by_cases e : j = k
          · rw [if_pos e]; exact Or.inl rfl
          · rw [if_neg e]
            rcases tell_under hu with h1 | h1
            · exact h.under i j h1
            · exact absurd (announces_del.1 h1).symm e
        · intro p hp hd
          exact h.marked p (mem_delete.1 hp).1 hd
      · refine ⟨?_, ?_⟩
        · intro i j hu
          show (s.parts.insert k _).get j = none ∨ (if j = k then true else s.asked j) = true
          by_cases e : j = k
          · rw [if_pos e]; exact Or.inr rfl
          · rw [get_insert, if_neg e, if_neg e]
            rcases tell_under hu with h1 | h1
            · exact h.under i j h1
            · exact absurd (announces_put.1 h1).1.symm e
        · intro p hp hd
          show (if p.1 = k then true else s.asked p.1) = true
          rcases mem_insert.1 hp with ⟨hp, e⟩ | rfl
          · rw [if_neg e]
            exact h.marked p hp hd
          · exact if_pos rfl
  | elect k l =>
    unfold Cluster.step
    dsimp only
    split
    · exact h
    · rename_i a ha
      refine ⟨?_, ?_⟩
      · intro i j hu
        show (s.parts.insert k _).get j = none ∨ s.asked j = true
        rw [get_insert]
        rcases tell_under hu with h1 | h1
        · have := h.under i j h1
          by_cases e : j = k
          · subst e
            rw [ha] at this
            rcases this with h2 | h2
            · cases h2
            · exact Or.inr h2
          · rw [if_neg e]; exact this
        · obtain ⟨e, hd⟩ := announces_put.1 h1
          subst e
          exact Or.inr (h.marked (k, a) (mem_of_get ha) hd)
      · intro p hp hd
        rcases mem_insert.1 hp with ⟨hp, _⟩ | rfl
        · exact h.marked p hp hd
        · exact h.marked (k, a) (mem_of_get ha) hd
  | deliver i ios =>
    unfold Cluster.step
    dsimp only
    split
    · exact h
    · rename_i m ms hw
      refine ⟨?_, h.marked⟩
      intro j k hu
      refine h.under j k ?_
      have hu' : k ∈ (ite (j = i) _ (s.conns j) : Conn K).acks ∨
        ∃ m ∈ (ite (j = i) _ (s.conns j) : Conn K).wire, Announces k m := hu
      split at hu'
      · rename_i e
        subst e
        rw [hw]
        rcases hu' with hu' | ⟨m', hm', ha⟩
        · rcases List.mem_append.1 hu' with h1 | h1
          · exact Or.inl h1
          · obtain ⟨o, ho, hk⟩ := List.mem_filterMap.1 h1
            cases o with
            | storageError => cases hk
            | removed k' =>
              cases hk
              exact Or.inr ⟨m, by simp, removed_update ho⟩
        · exact Or.inr ⟨m', by simp [show m' ∈ ms from hm'], ha⟩
      · exact hu'
  | ack i =>
    unfold Cluster.step
    dsimp only
    split
    · exact h
    · rename_i k ks hacks
      have hbase : ∀ j k', (k' ∈ (ite (j = i) { s.conns i with acks := ks } (s.conns j) : Conn K).acks ∨
          ∃ m ∈ (ite (j = i) { s.conns i with acks := ks } (s.conns j) : Conn K).wire, Announces k' m) →
          s.parts.get k' = none ∨ s.asked k' = true := by
        intro j k' hu
        refine h.under j k' ?_
        split at hu
        · rename_i e
          subst e
          rcases hu with hu | hu
          · exact Or.inl (by rw [hacks]; simp [show k' ∈ ks from hu])
          · exact Or.inr hu
        · exact hu
      split
      · exact ⟨hbase, h.marked⟩
      · rename_i a ha
        split
        · refine ⟨?_, ?_⟩
          · intro j k' hu
            show (s.parts.delete k).get k' = none ∨ s.asked k' = true
            rw [get_delete]
            by_cases e : k' = k
            · rw [if_pos e]; exact Or.inl rfl
            · rw [if_neg e]
              rcases tell_under hu with h1 | h1
              · exact hbase j k' h1
              · exact absurd (announces_del.1 h1).symm e
          · intro p hp hd
            exact h.marked p (mem_delete.1 hp).1 hd
        · exact ⟨hbase, h.marked⟩
  | reconnect i =>
    refine ⟨?_, h.marked⟩
    intro j k hu
    have hu' : k ∈ (ite (j = i) _ (s.conns j) : Conn K).acks ∨
      ∃ m ∈ (ite (j = i) _ (s.conns j) : Conn K).wire, Announces k m := hu
    split at hu'
    · rcases hu' with hu' | ⟨m, hm, ha⟩
      · cases hu'
      · rw [show m = ⟨s.parts, []⟩ from List.mem_singleton.1 hm] at ha
        show s.parts.get k = none ∨ s.asked k = true
        by_cases hn : s.parts.get k = none
        · exact Or.inl hn
        · right
          have hmem : ∀ v ∈ heardMsg k ⟨s.parts, []⟩, ∃ p ∈ s.parts, p.1 = k ∧ v = some p.2 := by
            intro v hv
            unfold heardMsg at hv
            split at hv
            · dsimp only at hv
              split at hv
              · rename_i hnil
                exfalso
                cases hg : s.parts.get k with
                | none => exact hn hg
                | some a =>
                  have := List.filterMap_eq_nil_iff.1 hnil (k, a) (mem_of_get hg)
                  simp at this
              · obtain ⟨p, hp, he⟩ := List.mem_filterMap.1 hv
                split at he
                · rename_i hk
                  cases he
                  exact ⟨p, hp, hk, rfl⟩
                · cases he
            · cases hv
          rcases ha with ha | ⟨a, ha, hd⟩
          · obtain ⟨p, _, _, he⟩ := hmem _ ha
            cases he
          · obtain ⟨p, hp, hk, he⟩ := hmem _ ha
            cases he
            exact hk ▸ h.marked p hp hd
    · exact h.under j k hu'

theorem Cluster.Reach.honest {isLocal : Bool} {s : Cluster K} (h : s.Reach isLocal) : s.Honest := by
  induction h with
  | init =>
    refine ⟨?_, nofun⟩
    rintro i k (h | ⟨m, h, _⟩)
    · cases h
    · cases h
  | step s e _ hq ih => exact ih.step e hq

/-- A step that removes a partition is the request itself or the processing of an acknowledgement. -/
theorem removed_by {isLocal : Bool} {s : Cluster K} {e : Act K} {k : K}
    (h1 : s.parts.get k ≠ none) (h2 : (s.step isLocal e).parts.get k = none) :
    (e = .request k ∧ isLocal = true) ∨ ∃ i, e = .ack i ∧ k ∈ (s.conns i).acks := by
  have hins : ∀ {j : K} {a : Assign}, (s.parts.insert j a).get k = none → False := by
    intro j a h
    rw [get_insert] at h
    split at h
    · cases h
    · exact h1 h
  cases e with
  | create j a =>
    unfold Cluster.step at h2
    dsimp only at h2
    split at h2
    · exact absurd h2 h1
    · exact (hins h2).elim
  | request j =>
    unfold Cluster.step at h2
    dsimp only at h2
    split at h2
    · exact absurd h2 h1
    · split at h2
      · rename_i hl
        have h3 : (s.parts.delete j).get k = none := h2
        rw [get_delete] at h3
        split at h3
        · rename_i e
          exact Or.inl ⟨by rw [e], hl⟩
        · exact absurd h3 h1
      · exact (hins h2).elim
  | elect j l =>
    unfold Cluster.step at h2
    dsimp only at h2
    split at h2
    · exact absurd h2 h1
    · exact (hins h2).elim
  | deliver i ios =>
    unfold Cluster.step at h2
    dsimp only at h2
    split at h2
    · exact absurd h2 h1
    · exact absurd h2 h1
  | ack i =>
    unfold Cluster.step at h2
    dsimp only at h2
    split at h2
    · exact absurd h2 h1
    · rename_i j js hacks
      split at h2
      · exact absurd h2 h1
      · split at h2
        · have h3 : (s.parts.delete j).get k = none := h2
          rw [get_delete] at h3
          split at h3
          · rename_i e
            exact Or.inr ⟨i, rfl, by rw [hacks, e]; simp⟩
          · exact absurd h3 h1
        · exact absurd h2 h1
  | reconnect i => exact absurd h2 h1

/-- With the local storage nothing ever waits to be removed. -/
theorem Cluster.Reach.asked_local {s : Cluster K} (h : s.Reach true) (k : K) : s.asked k = false := by
  induction h with
  | init => rfl
  | step s e _ _ ih =>
    cases e with
    | create j a =>
      unfold Cluster.step
      dsimp only
      split
      · exact ih
      · show (if k = j then false else s.asked k) = false
        split
        · rfl
        · exact ih
    | request j =>
      unfold Cluster.step
      dsimp only
      split
      · exact ih
      · exact ih
    | elect j l =>
      unfold Cluster.step
      dsimp only
      split
      · exact ih
      · exact ih
    | deliver i ios =>
      unfold Cluster.step
      dsimp only
      split
      · exact ih
      · exact ih
    | ack i =>
      unfold Cluster.step
      dsimp only
      split
      · exact ih
      · split
        · exact ih
        · split
          · exact ih
          · exact ih
    | reconnect i => exact ih

/-! ## The leader acknowledges -/

theorem removed_of_leader (b : Broker K) (io : Io) (k : K) (a : Assign) (h : a.leader = b.me) :
    (b.removeReplica io k a).2 = [.removed k] := by
  unfold Broker.removeReplica
  rw [if_pos h]
  split <;> rfl

theorem update_one (b : Broker K) (ios : List Io) (u : Upd K Assign) :
    (b.update ios ⟨[], [u]⟩).2 =
      (Broker.actAll { b with told := brokerApply b.told ⟨[], [u]⟩ } ios (changesOf b.told [u])).2 := by
  unfold Broker.update actionsOf
  rw [if_neg (by simp)]

/-- A leader acknowledges the deletion of a replica it is told of for the first time. -/
theorem acks_deleting (b : Broker K) (ios : List Io) (k : K) (a : Assign) (hd : a.deleting = true)
    (hl : a.leader = b.me) (hn : b.told.get k ≠ some a) :
    (b.update ios ⟨[], [.put k a]⟩).2 = [.removed k] := by
  rw [update_one]
  have : ∃ c, changesOf b.told [.put k a] = [c] ∧ (c = .add k a ∨ ∃ o, c = .mod k a o) := by
    show ∃ c, putChange b.told k a ++ [] = [c] ∧ _
    unfold putChange
    cases hg : b.told.get k with
    | none => exact ⟨_, rfl, Or.inl rfl⟩
    | some o =>
      dsimp only
      rw [if_neg (by rintro rfl; exact hn hg)]
      exact ⟨_, rfl, Or.inr ⟨o, rfl⟩⟩
  obtain ⟨c, hc, h⟩ := this
  rw [hc]
  show (Broker.act _ _ c).2 ++ [] = _
  rw [List.append_nil]
  rcases h with rfl | ⟨o, rfl⟩
  · show (ite _ _ _ : Broker K × List (Out K)).2 = _
    rw [if_pos hd]
    exact removed_of_leader _ _ _ _ hl
  · show (ite _ _ _ : Broker K × List (Out K)).2 = _
    rw [if_pos hd]
    exact removed_of_leader _ _ _ _ hl

/-- A leader acknowledges the end of a replica it knows. -/
theorem acks_del (b : Broker K) (ios : List Io) (k : K) (a : Assign) (h : b.told.get k = some a)
    (hl : a.leader = b.me) : (b.update ios ⟨[], [.del k]⟩).2 = [.removed k] := by
  rw [update_one]
  have : changesOf b.told [.del k] = [.del k a] := by
    show delChange b.told k ++ [] = _
    unfold delChange
    rw [h]
    rfl
  rw [this]
  show (Broker.act _ _ _).2 ++ [] = _
  rw [List.append_nil]
  exact removed_of_leader _ _ _ _ hl

end Verif.Broker
