import Verif.Sc.Blocking

/-! # C72 — handling a broker's status messages never blocks the controller -/

namespace Verif.Props

open Verif.Sc.Blocking

/-- **C72.**  Messages about offsets, removed replicas and mirrors: however many of them are handled at the
same time, however long they are, and whatever the schedule, the tasks cannot block each other.  Only a
bounded number of steps is possible, and when no more is, every message is handled and every action carried
out. -/
theorem C72_reports_complete {s t : State} {n : Nat}
    (hdrop : ∀ x ∈ s.tasks, x ≠ .done → ∃ m, x = .start false m ∨ x = .sending false m) (hcap : 0 < s.cap)
    (hrun : Steps n s t) :
    n ≤ s.work ∧ ((∀ u, ¬ Step t u) → (∀ x ∈ t.tasks, x = .done) ∧ t.chan = 0 ∧ t.disp = .idle) := by
  have hc : Careful s := by
    refine ⟨fun x hx => ?_, hcap⟩
    by_cases hd : x = .done
    · rw [hd]; rfl
    · obtain ⟨m, rfl | rfl⟩ := hdrop x hx hd <;> rfl
  refine ⟨by have := steps_work hrun; omega, fun hs => ?_⟩
  have ht := careful_steps hc hrun
  rcases stuck_cases ht.2 hs with h | ⟨_, ⟨x, hx, hb⟩, _⟩
  · exact h
  · rw [guards_of_drops (ht.1 x hx)] at hb
    cases hb

/-- **C72.**  Messages about full storage too, as long as all entries of the messages being handled fit into
the channel together with the actions already there.

Missing from the full claim: longer messages, for which it is false (`C72_violated_deadlock`). -/
theorem C72_status_completes_partial {s t : State} {n : Nat} (hcap : 0 < s.cap)
    (hroom : s.chan + (s.tasks.map Task.todo).sum ≤ s.cap) (hrun : Steps n s t) :
    n ≤ s.work ∧ ((∀ u, ¬ Step t u) → (∀ x ∈ t.tasks, x = .done) ∧ t.chan = 0 ∧ t.disp = .idle) := by
  refine ⟨by have := steps_work hrun; omega, fun hs => ?_⟩
  have ⟨h1, h2⟩ := load_steps hrun
  exact stuck_room (by rw [h2]; exact hcap) (by rw [h2]; exact Nat.le_trans h1 hroom) hs

/-- two brokers' reports, the dispatcher at work on a change: the hypotheses of `C72_reports_complete` are met;
the messages together have more entries than fit into the channel -/
example : (∀ x ∈ (⟨100, 100, .busy, [.start false 80, .sending false 90, .done]⟩ : State).tasks, x ≠ .done →
    ∃ m, x = .start false m ∨ x = .sending false m) := by
  intro x hx hd
  simp only [List.mem_cons, List.not_mem_nil, or_false] at hx
  rcases hx with rfl | rfl | rfl
  · exact ⟨80, .inl rfl⟩
  · exact ⟨90, .inr rfl⟩
  · exact absurd rfl hd

/-- and those of `C72_status_completes_partial`, with a task that keeps the lock and a waiting dispatcher -/
example : (40 : Nat) + (([.start true 20, .sending true 30, .sending false 10] : List Task).map Task.todo).sum ≤ 100 := by
  decide

/-- a run of the tasks in which other messages arrive as well -/
inductive Goes : State → State → Prop where
  | refl (s) : Goes s s
  | step {s t u} (h : Goes s t) (h' : Step t u) : Goes s u
  | arrives {s t u} (h : Goes s t) (h' : Arrives t u) : Goes s u

/-- **C72 is violated by messages about full storage.**  `receive_partition_status_update` keeps the read lock
of the partition store while it sends its actions; the dispatcher needs the write lock to carry them out, and
the channel holds 100.  A message with 102 entries — one disk that fills up under 102 partitions — can fill the
channel while the dispatcher waits for the lock.  Then nobody can move any more: the handler, the dispatcher and
every other task that needs the partition store wait for ever, whatever else arrives. -/
theorem C72_violated_deadlock : ∃ n s, Steps n ⟨100, 0, .idle, [.start true 102, .start false 1]⟩ s ∧
    ∀ t, Goes s t → (∀ u, ¬ Step t u) ∧ .start false 1 ∈ t.tasks ∧ ∃ m, .sending true (m + 1) ∈ t.tasks := by
  obtain ⟨n, m, hrun⟩ := jam (c := 100) (n := 102) (by decide) (by decide) [.start false 1]
  refine ⟨n, _, hrun, fun t hg => ?_⟩
  have : Frozen t ∧ .start false 1 ∈ t.tasks := by
    induction hg with
    | refl =>
      refine ⟨⟨rfl, Nat.le_refl _, ⟨m, List.mem_cons_self⟩, fun t ht => ?_⟩, by simp⟩
      rcases List.mem_cons.1 ht with rfl | ht
      · rfl
      · rw [List.mem_singleton.1 ht]; rfl
    | step _ h' ih => exact absurd h' (frozen_stuck ih.1 _)
    | arrives _ h' ih =>
      refine ⟨frozen_arrives ih.1 h', ?_⟩
      cases h' with
      | task => exact List.mem_append.2 (.inl ih.2)
      | change => exact ih.2
  exact ⟨frozen_stuck this.1, this.2, this.1.guard⟩

end Verif.Props
