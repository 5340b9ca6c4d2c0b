import Verif.Mirror.Protocol
import Verif.Props.ReplicaBytes
import Verif.Props.Replication

/-!
# C48: mirrored partitions

`Run v` are the executions of a partition mirrored from one cluster to another, see
`Verif.Mirror.Protocol`: every interleaving of writes to the source, messages delayed, duplicated, lost
and reordered, reconnections, restarts and failing writes on both sides, and retention at the source;
with `v = Env.plain` the target serves one connection at a time and the source's log is not cut by a
fail-over.  `records` is the sequence of records of a log, the index being the offset.
-/

namespace Verif.Props
open Verif.Replication Verif.Mirror Verif.Storage Verif.Wire

variable {α : Type}

/-- In every reachable state the target's records are a prefix of the source's: none missing, none
twice, in the same order.

Missing: connections served at the same time, see `C48_violated_overlap`; fail-overs at the source, see
`C48_violated_failover`; batches cut by the byte limit of a message, see `C48_violated_cut_batch`. -/
theorem C48_prefix_partial {c : System α} (h : Run Env.plain (newSystem α) c) :
    records c.target.log <+: records c.source.log :=
  records_prefix (Inv.init.run rfl rfl h).pref

/-- No step takes a record from the target, other than a restart of the target that has lost its end. -/
theorem C48_keeps {c d : System α} (h : Run Env.plain (newSystem α) c) (s : Step Env.plain c d) :
    records c.target.log <+: records d.target.log ∨
      ∃ keep, records d.target.log = records (c.target.log.take keep) := by
  rcases (Inv.init.run rfl rfl h).grows s with h1 | ⟨k, h1⟩
  · exact .inl (records_prefix h1.1)
  · exact .inr ⟨k, by rw [h1]⟩

/-- When messages flow the target reaches the source: from every reachable state in which the target's
storage works and the source has published its log and still has what the target lacks, as many
undisturbed exchanges (report, answer with at least one batch) as records are missing suffice,
whatever the task of the source knew before. -/
theorem C48_reaches {c : System α} (h : Run Env.plain (newSystem α) c) (hok : c.target.broken = false)
    (hidle : c.pending = []) (hkept : c.source.start ≤ c.target.leo)
    (hpub : c.source.leo = size c.source.log) (i : Nat) (ks : List Nat) (hk : ∀ k ∈ ks, 0 < k)
    (hlen : c.source.leo - c.target.leo ≤ ks.length) :
    records (exchanges i ks c).target.log = records c.source.log ∧ Run Env.plain c (exchanges i ks c) := by
  obtain ⟨h1, _, h2⟩ := exchanges_reach i ks hk ⟨Inv.init.run rfl rfl h, hok, hidle, hkept, hpub⟩ hlen
  exact ⟨by rw [h1], h2⟩

/-- Also when anything happens in between: a message sent in answer to a report of the target's end `r`
leaves the target past `r` once it is handled, unless the target has lost records meanwhile. -/
theorem C48_answer {c₀ c d : System α} (h : Run Env.plain (newSystem α) c₀) (hok : c₀.target.broken = false)
    (r₁ : Run Env.plain c₀ c) {leo : Int} {k : Nat} {m : Msg α} (hk : 0 < k)
    (hleo : leo ≤ c.source.leo) (hm : generate c.source leo c₀.target.leo k = .ok (some m))
    (r₂ : Run Env.plain c d) (hokd : d.target.broken = false) (hle : c₀.target.leo ≤ d.target.leo) :
    c₀.target.leo < (handle d.target m).leo :=
  answer rfl rfl (Inv.init.run rfl rfl h) hok r₁ hk hleo hm hle
    (((Inv.init.run rfl rfl h).run rfl rfl (r₁.trans r₂)).tEq hokd)

/-! Concrete cases -/

/-- Two requests written to the source. -/
def mirrorWritten : System Nat :=
  { newSystem Nat with source := ⟨[[1, 2], [3]], 0, 3, 0, false⟩ }

theorem mirrorWritten_run : Run Env.plain (newSystem Nat) mirrorWritten :=
  .step (.refl _) (.write _ [[1, 2], [3]] (by decide) rfl)

example := C48_reaches mirrorWritten_run rfl rfl (by decide) rfl 0 [1, 1, 1] (by decide) (by decide)

example : ∃ m, 0 < (handle mirrorWritten.target m).leo :=
  ⟨⟨0, [[1, 2]]⟩, C48_answer (leo := 3) (k := 1) mirrorWritten_run rfl (.refl _) (by decide) (by decide) rfl (.refl _) rfl
    (by decide)⟩

example : records (exchanges 0 [1, 1, 1] mirrorWritten).target.log = [1, 2, 3] := by decide

example : (generate mirrorWritten.source 3 0 1).toOption = some (some ⟨0, [[1, 2]]⟩) ∧
    (handle mirrorWritten.target ⟨0, [[1, 2]]⟩).leo = 2 := ⟨rfl, rfl⟩

/-- The report of an equal end is not noted (controller.rs:441-447).  When the source goes on the task
first sends from where the target was before; the target ignores that, and its answer sets things
right. -/
example :
    let c := exchanges 0 [2, 2] mirrorWritten
    let s : Source Nat := ⟨[[1, 2], [3], [4]], 0, 4, 0, false⟩
    (c.ctl 0).known = 0 ∧ c.target.log = [[1, 2], [3]] ∧
    (generate s 4 (c.ctl 0).known 3).toOption.map (·.map Msg.batches) = some (some [[1, 2], [3], [4]]) ∧
    handle c.target ⟨0, [[1, 2], [3], [4]]⟩ = c.target ∧
    (exchanges 0 [1] { c with source := s }).target.log = [[1, 2], [3], [4]] :=
  ⟨rfl, rfl, rfl, rfl, rfl⟩

/-! ## Where the claim fails -/

/-- Two connections served by the target at the same time, say the one the source has given up and its
successor: both handlers compare the offset of the message they got with the end of the log, both find
it equal, and both write. -/
theorem C48_violated_overlap :
    ∃ c : System Nat, Run ⟨true, false⟩ (newSystem Nat) c ∧ records c.source.log = [1] ∧
      records c.target.log = [1, 1] := by
  let s : Source Nat := ⟨[[1]], 0, 1, 0, false⟩
  let m : Msg Nat := ⟨0, [[1]]⟩
  have r1 : Run ⟨true, false⟩ (newSystem Nat) { newSystem Nat with source := s } :=
    .step (.refl _) (.write _ [[1]] (by decide) rfl)
  have r2 := Run.step r1 (.report _)
  have r3 := Run.step r2 (.update _ 0 0 (by simp [newSystem]))
  have r4 := Run.step r3 (.send _ 0 1 1 (some m) rfl (by decide) (by decide) rfl)
  have r5 := Run.step r4 (.check _ m (by simp) rfl rfl (.inl rfl))
  have r6 := Run.step r5 (.check _ m (by simp) rfl rfl (.inl rfl))
  have r7 := Run.step r6 (.append _ [] [m] m rfl rfl)
  have r8 := Run.step r7 (.append _ [] [] m rfl rfl)
  exact ⟨_, r8, rfl, rfl⟩

/-- The source reads uncommitted records (replica_state.rs:501, connection.rs:392): record 1 is mirrored
before the source's followers have it, the leader fails, its successor goes on with record 2.  Both logs
have the same end, so the difference is never noticed. -/
theorem C48_violated_failover :
    ∃ c : System Nat, Run ⟨false, true⟩ (newSystem Nat) c ∧ records c.source.log = [2] ∧
      records c.target.log = [1] ∧ c.source.leo = c.target.leo ∧
      (exchange 0 1 c).target = c.target := by
  let s : Source Nat := ⟨[[1]], 0, 1, 0, false⟩
  let m : Msg Nat := ⟨0, [[1]]⟩
  have r1 : Run ⟨false, true⟩ (newSystem Nat) { newSystem Nat with source := s } :=
    .step (.refl _) (.write _ [[1]] (by decide) rfl)
  have r2 := Run.step r1 (.report _)
  have r3 := Run.step r2 (.update _ 0 0 (by simp [newSystem]))
  have r4 := Run.step r3 (.send _ 0 1 1 (some m) rfl (by decide) (by decide) rfl)
  have r5 := Run.step r4 (.check _ m (by simp) rfl rfl (.inr rfl))
  have r6 := Run.step r5 (.append _ [] [] m rfl rfl)
  have r7 := Run.step r6 (.failover _ [] rfl List.nil_prefix (by decide))
  have r8 := Run.step r7 (.write _ [[2]] (by decide) rfl)
  exact ⟨_, r8, rfl, rfl, rfl, rfl⟩

/-- Retention removes records at the source before they were mirrored: from then on, whatever happens,
the target stays as it is, since it takes nothing but its next record. -/
theorem C48_violated_retention :
    ∃ c : System Nat, Run Env.plain (newSystem Nat) c ∧ records c.source.log = [1, 2] ∧
      ∀ d, Run Env.plain c d → records d.target.log = [] := by
  have r1 : Run Env.plain (newSystem Nat) { newSystem Nat with source := ⟨[[1], [2]], 0, 2, 0, false⟩ } :=
    .step (.refl _) (.write _ [[1], [2]] (by decide) rfl)
  have r2 := Run.step r1 (.retain _ [[1]] ⟨[[2]], rfl⟩ (by decide))
  refine ⟨_, r2, rfl, fun d rd => ?_⟩
  have hs : Stuck [[1]] { newSystem Nat with source := ⟨[[1], [2]], 1, 2, 0, false⟩ } :=
    { inv := Inv.init.run rfl rfl r2, pref := ⟨[[2]], rfl⟩, start := by decide, pos := by decide,
      empty := rfl, leo := rfl, syncs := by simp [newSystem], idle := rfl }
  have := (hs.run rfl rfl rd).empty
  rw [this]
  rfl

/-- As on a follower (`C19_violated_cut_batch`), a batch cut by the byte limit of a message is stored by
the target without its tail: three of four records arrive, and the ends are equal. -/
theorem C48_violated_cut_batch :
    ∃ n, clientBatch.size ≤ n ∧
      (let bytes := ((clientLog.readPartition 0 n .uncommitted).toOption.bind (·.data)).getD []
       let w := receiveBytes clientCfg clientRead Replica.init bytes none
       w.2 = .ok true ∧ w.1.leo = clientLog.leo ∧
       (w.1.batches.flatMap fun b => b.batch.records).length = 3 ∧
       (clientLog.batches.flatMap fun b => b.batch.records).length = 4) := by
  refine ⟨2 * clientBatch.size - 1, by decide +kernel, ?_⟩
  have := C19_violated_cut_batch
  exact ⟨this.1, this.2.1, this.2.2.2.1, this.2.2.2.2⟩

end Verif.Props
