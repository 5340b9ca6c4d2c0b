import Verif.Client.Retry

/-!
# C34: reconnecting consumers
-/

namespace Verif.Props
open Verif.Client

variable {α : Type}

/-- A consumer of one partition, started at any position, with connections lost and records committed
and removed at any time.  At every moment what was delivered are records of the log with their offsets,
in increasing order without repetition, and every record between the first and the last of them that
retention has not removed is among them.

Missing: several partitions, see `C34_violated_partitions`. -/
theorem C34_single_partial (start : Position) (q : Part α) (hq : q.base ≤ q.full.length)
    (es : List (RtEv α)) :
    let r := (Retry.connect start [q]).run start es
    ∃ q', r.parts = [q'] ∧
      (∀ e ∈ r.out, 0 ≤ e.2.1 ∧ q'.full[e.2.1.toNat]? = some e.2.2) ∧
      (r.out.map fun e => e.2.1).Pairwise (· < ·) ∧
      ∀ a ∈ r.out, ∀ b ∈ r.out, ∀ o, a.2.1 ≤ o → o ≤ b.2.1 → (q'.base : Int) ≤ o →
        o ∈ r.out.map fun e => e.2.1 := by
  intro r
  obtain ⟨q', c, h1, h2, h3, h4, h5, h6, h7⟩ := RetryOk.run es (RetryOk.connect start q hq)
  refine ⟨q', h1, fun e he => (h4 e he).2, ?_, ?_⟩
  · rw [List.pairwise_map]; exact h5
  · intro a ha b hb o ho1 ho2 ho3
    obtain ⟨n, _, _, e3⟩ := h7 (List.ne_nil_of_mem ha)
    have := (e3 b hb).1
    rcases (e3 a ha).2 o ho1 (by omega) with h' | ⟨e, he, h'⟩
    · omega
    · rw [List.mem_map]; exact ⟨e, he, h'⟩

/-- If the connection is lost at such a moment and the record behind the last one delivered is still in
the log, the next thing the application gets is that record. -/
theorem C34_resume_partial (start : Position) (q : Part α) (hq : q.base ≤ q.full.length)
    (es : List (RtEv α)) (a : Nat × Int × α) (q' : Part α)
    (hq' : ((Retry.connect start [q]).run start es).parts = [q'])
    (ha : ((Retry.connect start [q]).run start es).out.getLast? = some a)
    (hb : (q'.base : Int) ≤ a.2.1 + 1) (x : α) (hx : q'.full[(a.2.1 + 1).toNat]? = some x) :
    ((Retry.connect start [q]).run start (es ++ [.lost, .poll 0])).out
      = ((Retry.connect start [q]).run start es).out ++ [(0, a.2.1 + 1, x)] := by
  obtain ⟨q2, c, hr⟩ := RetryOk.run es (RetryOk.connect start q hq)
  unfold Retry.run at *
  rw [List.foldl_append]
  generalize List.foldl (Retry.step start) (Retry.connect start [q]) es = r at *
  have hqq : q2 = q' := by
    have := hr.parts
    rw [hq'] at this
    exact (List.cons.inj this).1.symm
  subst hqq
  have ham := List.mem_of_getLast? ha
  obtain ⟨n, e1, e2, e3⟩ := hr.next (List.ne_nil_of_mem ham)
  have hn : n = a.2.1 + 1 := by
    obtain ⟨k1, k2⟩ := e3 a ham
    refine Int.le_antisymm (Int.not_lt.1 fun hlt => ?_) (by omega)
    rcases k2 (a.2.1 + 1) (by omega) hlt with h' | ⟨e, he, h'⟩
    · omega
    · -- the last record delivered is the largest
      obtain ⟨l, hl⟩ := List.getLast?_eq_some_iff.1 ha
      have hp := hr.inc
      rw [hl, List.pairwise_append] at hp
      rw [hl] at he
      rcases List.mem_append.1 he with he | he
      · have := hp.2.2 e he a (by simp); omega
      · rw [List.mem_singleton.1 he] at h'; omega
  have hn0 : 0 ≤ n := hr.nonneg n e2
  have hrec := hr.reconnect (start := start)
  rw [e1, nextPosition_resolve start hn0] at hrec
  show ((r.reconnect start).poll start 0).out = _
  unfold Retry.poll
  rw [hrec.parts, hrec.cursors, List.getElem?_cons_zero, List.getElem?_cons_zero]
  dsimp only
  rw [hn, if_neg (by omega), hx]
  rfl

/-- a lost connection between the two records, with more records arriving -/
example : ((Retry.connect (.fromEnd 1) [⟨["a", "b"], 0⟩]).run (.fromEnd 1)
    [.poll 0, .grow 0 ["c"], .lost, .poll 0, .lost, .trim 0 2, .grow 0 ["d"], .poll 0]).out
    = [(0, 1, "b"), (0, 2, "c"), (0, 3, "d")] := by decide

/-- The claim fails for two partitions: only one position is remembered and all partitions are
reopened there.  Here partition 0 has delivered offset 2, partition 1 nothing; after the reconnection
partition 1 goes on at offset 3 and its first three records are never delivered. -/
theorem C34_violated_partitions :
    ((Retry.connect (.absolute 0) [⟨["a", "b", "c"], 0⟩, ⟨["A", "B", "C", "D"], 0⟩]).run (.absolute 0)
      [.poll 0, .poll 0, .poll 0, .lost, .poll 1]).out
    = [(0, 0, "a"), (0, 1, "b"), (0, 2, "c"), (1, 3, "D")] := by decide

/-- … and here partition 1 delivers its records twice. -/
theorem C34_violated_partitions_twice :
    ((Retry.connect (.absolute 0) [⟨["a"], 0⟩, ⟨["A", "B"], 0⟩]).run (.absolute 0)
      [.poll 1, .poll 1, .poll 0, .lost, .poll 1]).out
    = [(1, 0, "A"), (1, 1, "B"), (0, 0, "a"), (1, 1, "B")] := by decide

/-- Before the first record a relative position is resolved again: a consumer started at the end misses
what was committed while it was disconnected. -/
theorem C34_violated_before_first :
    ((Retry.connect (.fromEnd 0) [⟨["a"], 0⟩]).run (.fromEnd 0)
      [.grow 0 ["b"], .lost, .grow 0 ["c"], .poll 0]).out = [(0, 2, "c")] := by decide

end Verif.Props
