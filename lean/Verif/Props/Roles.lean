import Verif.Broker.RolesRun

/-!
# C64, C65: a broker's replicas and their records
-/

namespace Verif.Props

open Verif.Meta Verif.Broker

variable {K : Type} [DecidableEq K]

/-! ## Specification -/

/-- The last word a broker has heard about `k` (`none`: that there is no such replica, or nothing). -/
def lastHeard (k : K) (es : List (Event K)) : Option Assign := (heard k es).getLastD none

/-- The broker has been told to lead `k`. -/
def ToldToLead (me : Nat) (k : K) (es : List (Event K)) : Prop :=
  ∃ a, lastHeard k es = some a ∧ a.leader = me ∧ a.deleting = false

/-- The broker has been told that another broker `l` leads `k`. -/
def ToldOther (me : Nat) (k : K) (l : Nat) (es : List (Event K)) : Prop :=
  ∃ a, lastHeard k es = some a ∧ a.leader = l ∧ l ≠ me ∧ a.deleting = false

/-- The broker has been told to follow `l`. -/
def ToldToFollow (me : Nat) (k : K) (l : Nat) (es : List (Event K)) : Prop :=
  ∃ a, lastHeard k es = some a ∧ a.leader = l ∧ l ≠ me ∧ me ∈ a.replicas ∧ a.deleting = false

/-- It leads, it follows. -/
def Leads (b : Broker K) (k : K) : Prop := ∃ a, b.leads.get k = some a
def Follows (b : Broker K) (k : K) (l : Nat) : Prop := b.follows.get k = some l

/-! ## C64 -/

/-- **C64**, safety.  However opening, initialising and removing replicas fails and however often the broker
restarts: a broker leads only what it has last been told to lead, follows a replica only at the leader it has
last been told, never leads and follows the same replica, has a connection to each leader it follows, and no
other connections.

Missing: it follows replicas it is not assigned to (`C64_violated_uninvited`), and a notice of deletion has to
name the leader named before (`C64_violated_two_roles`). -/
theorem C64_safe_partial (me : Nat) (es : List (Event K))
    (hs : ∀ k, Successive Steady none (heard k es)) :
    let b := (Broker.init me).run es
    (∀ k, Leads b k → ToldToLead me k es) ∧
    (∀ k l, Follows b k l → ToldOther me k l es) ∧
    (∀ k l, ¬(Leads b k ∧ Follows b k l)) ∧
    (∀ l, l ∈ b.groups ↔ ∃ k, Follows b k l) := by
  intro b
  have h := SafeAll.run es (SafeAll.init (K := K) me) hs
  have hme : b.me = me := run_me es _
  have hsafe : ∀ k, (b.loc k).Safe me (lastHeard k es) := by
    intro k
    have := h.safe k
    rw [run_told] at this
    rw [hme] at this
    exact this
  have h1 : ∀ k, Leads b k → ToldToLead me k es := fun k ⟨a, ha⟩ => (hsafe k).1 a ha
  have h2 : ∀ k l, Follows b k l → ToldOther me k l es := fun k l hl => (hsafe k).2 l hl
  refine ⟨h1, h2, ?_, ?_⟩
  · rintro k l ⟨h3, h4⟩
    obtain ⟨a, ha, hl, _⟩ := h1 k h3
    obtain ⟨a', ha', hl', hne, _⟩ := h2 k l h4
    rw [ha] at ha'
    cases ha'
    exact hne (hl'.symm.trans hl)
  · intro l
    exact ⟨fun hl => h.needed l hl, fun ⟨k, hk⟩ => h.grouped.served k l hk⟩

/-- **C64**, whatever the broker is told: each leader it follows has a connection. -/
theorem C64_served (me : Nat) (es : List (Event K)) (k : K) (l : Nat) :
    Follows ((Broker.init me).run es) k l → l ∈ ((Broker.init me).run es).groups :=
  (Grouped.run es (b := Broker.init me) ⟨List.nodup_nil, nofun⟩).served k l

/-- **C64**, exactly.  While nothing fails, and if assignments change as they should for this broker
(`Proper`), it leads exactly what it has last been told to lead and follows exactly what it has last been told
to follow, at that leader.

Missing: changes that are not proper (`C64_violated_uninvited`, `C64_violated_undelete`,
`C64_violated_two_roles`) and failures (`C64_violated_no_retry`). -/
theorem C64_exact_partial (me : Nat) (es : List (Event K)) (hf : ∀ e ∈ es, Fine e)
    (hs : ∀ k, Successive (Proper me) none (heard k es)) :
    let b := (Broker.init me).run es
    (∀ k, Leads b k ↔ ToldToLead me k es) ∧
    (∀ k l, Follows b k l ↔ ToldToFollow me k l es) := by
  intro b
  have h := DoesAll.run me es hf hs
  have hme : b.me = me := run_me es _
  have hd : ∀ k, (b.loc k).Does (duty me (lastHeard k es)) := by
    intro k
    have := h k
    rw [run_told] at this
    rw [hme] at this
    exact this
  refine ⟨fun k => ?_, fun k l => ?_⟩
  · have := (hd k).1
    unfold Leads
    rw [show (∃ a, b.leads.get k = some a) ↔ (b.loc k).lead.isSome = true from by
      show _ ↔ (b.leads.get k).isSome = true
      rw [Option.isSome_iff_exists], this]
    unfold ToldToLead duty
    cases lastHeard k es with
    | none => simp
    | some a => grind
  · have := (hd k).2 l
    show (b.loc k).follow = some l ↔ _
    rw [this]
    unfold ToldToFollow duty
    cases lastHeard k es with
    | none => simp
    | some a => grind

/-- An ordinary life: broker 2 follows 1, is promoted, demoted, and the replica is deleted. -/
def lifeEvents : List (Event Nat) :=
  [.update [] ⟨[(7, ⟨1, [1, 2], false, 0⟩), (8, ⟨2, [2, 3], false, 0⟩)], []⟩,
   .write 7 [100],
   .update [] ⟨[], [.put 7 ⟨2, [1, 2], false, 0⟩]⟩,
   .write 7 [101]]

theorem life_heard (k : Nat) : heard k lifeEvents =
    if k = 7 then [some ⟨1, [1, 2], false, 0⟩, some ⟨2, [1, 2], false, 0⟩]
    else if k = 8 then [some ⟨2, [2, 3], false, 0⟩] else [none] := by
  by_cases h7 : k = 7
  · subst h7; rfl
  · by_cases h8 : k = 8
    · subst h8; rfl
    · rw [if_neg h7, if_neg h8]
      simp [heard, heardEvent, heardMsg, lifeEvents, List.flatMap, Ne.symm h7, Ne.symm h8, Upd.key]

example : (∀ e ∈ lifeEvents, Fine e) ∧ (∀ e ∈ lifeEvents, Running e) ∧
    (∀ k, Successive (Proper 2) none (heard k lifeEvents)) ∧
    (∀ k, Successive Steady none (heard k lifeEvents)) ∧
    Leads ((Broker.init 2).run lifeEvents) 7 ∧
    Follows ((Broker.init 2).run (lifeEvents.take 2)) 7 1 ∧
    ((Broker.init 2).run (lifeEvents.take 2)).groups = [1] ∧
    ((Broker.init 2).run lifeEvents).groups = [] ∧
    ((Broker.init 2).run lifeEvents).records 7 = [100, 101] := by
  refine ⟨?_, ?_, ?_, ?_, ⟨_, rfl⟩, rfl, rfl, rfl, rfl⟩
  · intro e he
    simp only [lifeEvents, List.mem_cons, List.not_mem_nil, or_false] at he
    rcases he with rfl | rfl | rfl | rfl <;> simp [Fine]
  · intro e he
    simp only [lifeEvents, List.mem_cons, List.not_mem_nil, or_false] at he
    rcases he with rfl | rfl | rfl | rfl <;> simp [Running]
  · intro k
    rw [life_heard]
    split
    · refine ⟨nofun, ?_, trivial⟩
      intro o n h1 h2
      cases h1
      cases h2
      exact ⟨nofun, nofun, by simp, by simp, by simp, by simp⟩
    · split
      · exact ⟨nofun, trivial⟩
      · exact ⟨nofun, trivial⟩
  · intro k
    rw [life_heard]
    split
    · refine ⟨nofun, ?_, trivial⟩
      intro o n h1 h2
      cases h1
      cases h2
      exact nofun
    · split
      · exact ⟨nofun, trivial⟩
      · exact ⟨nofun, trivial⟩

/-- **C64 is violated**: a broker that is not a replica of a partition follows it as soon as the partition's
leader changes.  The controller sends every partition to every broker (`send_replica_spec_changes`) and
`switch_leader_for_follower` (global_context.rs:474-489) does not ask whether the broker is a replica, so
broker 3 creates a copy of a partition of brokers 1 and 2. -/
theorem C64_violated_uninvited :
    let es : List (Event Nat) :=
      [.update [] ⟨[(7, ⟨1, [1, 2], false, 0⟩)], []⟩, .update [] ⟨[], [.put 7 ⟨2, [1, 2], false, 0⟩]⟩]
    Follows ((Broker.init 3).run es) 7 2 ∧ ¬ToldToFollow 3 7 2 es := by
  refine ⟨rfl, ?_⟩
  rintro ⟨a, h, _, _, hm, _⟩
  cases h
  revert hm
  decide

/-- **C64 is violated**: a replica that was being deleted and is assigned again (the topic was created again
before the broker heard of the end of the deletion) is neither led nor followed: the change is reported as a
modification with the same leader, for which nothing is done (global_context.rs:338-362). -/
theorem C64_violated_undelete :
    let es : List (Event Nat) :=
      [.update [] ⟨[(7, ⟨1, [1, 2], false, 0⟩)], []⟩, .update [] ⟨[], [.put 7 ⟨1, [1, 2], true, 0⟩]⟩,
       .update [] ⟨[(7, ⟨1, [1, 2], false, 0⟩)], []⟩]
    ToldToLead 1 7 es ∧ ¬Leads ((Broker.init 1).run es) 7 ∧
    ToldToFollow 2 7 1 es ∧ ¬Follows ((Broker.init 2).run es) 7 1 := by
  refine ⟨⟨_, rfl, rfl, rfl⟩, ?_, ⟨_, rfl, rfl, by decide, by decide, rfl⟩, ?_⟩
  · rintro ⟨a, h⟩
    have h' : (none : Option Assign) = some a := h
    cases h'
  · intro h
    have h' : (none : Option Nat) = some 1 := h
    cases h'

/-- **C64 is violated**: an assignment that names a new leader and the deletion at once removes nothing at a
follower that has become the leader (`remove_leader_replica` finds no leader and leaves the follower); when
the partition is created again the broker leads and follows it at the same time, with a connection to its
former leader. -/
theorem C64_violated_two_roles :
    let es : List (Event Nat) :=
      [.update [] ⟨[(7, ⟨1, [1, 2], false, 0⟩)], []⟩, .update [] ⟨[], [.put 7 ⟨2, [1, 2], true, 0⟩]⟩,
       .update [] ⟨[], [.del 7]⟩, .update [] ⟨[], [.put 7 ⟨2, [1, 2], false, 0⟩]⟩]
    let b := (Broker.init 2).run es
    Leads b 7 ∧ Follows b 7 1 ∧ ¬ToldOther 2 7 1 es ∧ b.groups = [1] := by
  refine ⟨⟨_, rfl⟩, rfl, ?_, rfl⟩
  rintro ⟨a, h, hl, _⟩
  cases h
  revert hl
  decide

/-- **C64 is violated**: a replica whose storage could not be opened is not tried again: the error is only
logged, the broker's metadata already has the assignment, and when everything is sent again nothing has
changed. -/
theorem C64_violated_no_retry :
    let es : List (Event Nat) :=
      [.update [⟨false, true, true⟩] ⟨[(7, ⟨1, [1], false, 0⟩)], []⟩,
       .update [] ⟨[(7, ⟨1, [1], false, 0⟩)], []⟩]
    ToldToLead 1 7 es ∧ ((Broker.init 1).run es).leads.get 7 = none := by
  exact ⟨⟨_, rfl, rfl, rfl⟩, by decide⟩

/-! ## C65 -/

/-- No message of the run speaks of a removal of `k`. -/
def NoRemoval (k : K) (es : List (Event K)) : Prop :=
  ∀ ios m, .update ios m ∈ es → ∀ v ∈ heardMsg k m, ∃ a, v = some a ∧ a.deleting = false

/-- **C65**, kept.  Through restarts, failures, changes of leaders and of anything else, the records of a
replica are kept as long as no message speaks of its removal. -/
theorem C65_kept (b : Broker K) (es : List (Event K)) (k : K) (h : NoRemoval k es) :
    b.records k <+: (b.run es).records k := by
  refine recs_run k es b ?_
  intro e he
  cases e with
  | update ios m => exact h ios m he
  | write _ _ => trivial
  | restart => trivial

/-- **C65**, gone.  While nothing fails and the broker does not restart, a broker has records only of replicas
that exist and are not being deleted; so a partition that is created anew starts empty.

Missing: deletions during a restart (`C65_violated_resurrected`), failed removals (`C65_violated_silent`),
deletions that come with a change of the leader (`C65_violated_left_behind`). -/
theorem C65_gone_partial (me : Nat) (es : List (Event K)) (hf : ∀ e ∈ es, Fine e)
    (hr : ∀ e ∈ es, Running e) (hs : ∀ k, Successive Steady none (heard k es)) (k : K)
    (hk : ∀ a, lastHeard k es = some a → a.deleting = true) :
    ((Broker.init me).run es).records k = [] := by
  have h := HeldAll.run me es hf hr hs
  have hsafe := h.safe.safe k
  rw [run_told] at hsafe
  by_cases hn : ((Broker.init me).run es).records k = []
  · exact hn
  · exfalso
    rcases h.held k hn with h1 | h1
    · obtain ⟨a, ha⟩ := Option.isSome_iff_exists.1 h1
      obtain ⟨t, ht, _, hd⟩ := hsafe.1 a ha
      rw [hk t ht] at hd
      cases hd
    · obtain ⟨l, hl⟩ := Option.isSome_iff_exists.1 h1
      obtain ⟨t, ht, _, _, hd⟩ := hsafe.2 l hl
      rw [hk t ht] at hd
      cases hd

/-- With the deletion of replica 7 its records go. -/
example :
    let es := lifeEvents ++ [.update [] ⟨[], [.put 7 ⟨2, [1, 2], true, 0⟩]⟩]
    NoRemoval 7 lifeEvents ∧
    (∀ a, lastHeard 7 es = some a → a.deleting = true) ∧
    ((Broker.init 2).run lifeEvents).records 7 = [100, 101] ∧
    ((Broker.init 2).run es).records 7 = [] := by
  refine ⟨?_, ?_, rfl, rfl⟩
  · intro ios m he v hv
    simp only [lifeEvents, List.mem_cons, List.not_mem_nil, or_false] at he
    rcases he with he | he | he | he
    · cases he
      rw [show heardMsg 7 _ = [some ⟨1, [1, 2], false, 0⟩] from rfl, List.mem_singleton] at hv
      exact ⟨_, hv, rfl⟩
    · cases he
    · cases he
      rw [show heardMsg 7 _ = [some ⟨2, [1, 2], false, 0⟩] from rfl, List.mem_singleton] at hv
      exact ⟨_, hv, rfl⟩
    · cases he
  · intro a ha
    cases ha
    rfl

/-- **C65 is violated**: a topic is deleted while a broker is down; the broker starts with an empty list of
replicas, hears of no deletion and leaves the directory where it is.  When a topic of the same name is
created, the broker opens the directory and serves the deleted topic's records. -/
theorem C65_violated_resurrected :
    let es : List (Event Nat) :=
      [.update [] ⟨[(7, ⟨1, [1], false, 0⟩)], []⟩, .write 7 [100], .restart,
       .update [] ⟨[(8, ⟨1, [1], false, 0⟩)], []⟩]
    lastHeard 7 es = none ∧ ((Broker.init 1).run es).records 7 = [100] ∧
    (let es' := es ++ [.update [] ⟨[], [.put 7 ⟨1, [1], false, 1⟩]⟩]
     Leads ((Broker.init 1).run es') 7 ∧ ((Broker.init 1).run es').records 7 = [100]) :=
  ⟨rfl, rfl, ⟨_, rfl⟩, rfl⟩

/-- **C65 is violated**: if the directory of a led replica cannot be removed, the broker forgets the replica
and acknowledges the removal to the controller all the same (global_context.rs:383-408); a partition
created anew has the old records. -/
theorem C65_violated_silent :
    let b := (Broker.init 1).run [.update [] ⟨[(7, ⟨1, [1], false, 0⟩)], []⟩, .write 7 [100]]
    let r := b.update [⟨true, true, false⟩] ⟨[], [.del 7]⟩
    (r.2 = [.removed 7] : Prop) ∧ r.1.records (7 : Nat) = [100] ∧
    (let b' := r.1.run [.update [] ⟨[], [.put 7 ⟨1, [1], false, 1⟩]⟩]
     Leads b' 7 ∧ b'.records 7 = [100]) :=
  ⟨rfl, rfl, ⟨_, rfl⟩, rfl⟩

/-- **C65 is violated**: if the notice of a deletion names a new leader, the former leader looks for a followed
replica and the new leader for a led one; neither removes anything, and the new one acknowledges. -/
theorem C65_violated_left_behind :
    let es : List (Event Nat) :=
      [.update [] ⟨[(7, ⟨1, [1, 2], false, 0⟩)], []⟩, .write 7 [100],
       .update [] ⟨[], [.put 7 ⟨2, [1, 2], true, 0⟩]⟩, .update [] ⟨[], [.del 7]⟩]
    lastHeard 7 es = none ∧
    ((Broker.init 1).run es).records 7 = [100] ∧ Leads ((Broker.init 1).run es) 7 ∧
    ((Broker.init 2).run es).records 7 = [100] :=
  ⟨rfl, rfl, ⟨_, rfl⟩, rfl⟩

end Verif.Props
