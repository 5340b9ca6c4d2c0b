import Verif.Storage.LogSpec

/-!
# C09: offsets of a partition

Specification: `numbered log` (`log[k]` has offset `k`), `LogStep`/`LogRun` in
`Verif.Storage.LogSpec`.
-/

namespace Verif.Props
open Verif.Storage

variable {α : Type}

/-- Starting from an empty partition, after any sequence of writes (successful or failed), watermark
changes and restarts, the partition stores exactly some list of records, the k-th at offset k; each
operation's report and its effect on that list are those of `LogStep` (base offset = old end, new end =
old end + number of records), for every segment size, batch limit and index setting. -/
theorem C09_offsets_gap_free (c : Cfg) (ops : List (Op α)) (hh : ∀ op ∈ ops, op.Honest)
    (hk : ∀ op ∈ ops, op.Keeps) :
    ∃ log, LogRun [] ops (Replica.init.run c ops).2 log ∧
      (Replica.init.run c ops).1.pairs = numbered log ∧
      (Replica.init.run c ops).1.leo = log.length := by
  obtain ⟨log, h1, h2, h3⟩ := Stores.run c ops Replica.init [] Stores.init hh
  exact ⟨log, h1, h3 hk rfl, h2.leo⟩

/-- With retention added: what is stored are records of that list at their own offsets, in order
(an offset is never used twice), and numbering still goes on from the end of the list. -/
theorem C09_offsets_unique (c : Cfg) (ops : List (Op α)) (hh : ∀ op ∈ ops, op.Honest) :
    ∃ log, LogRun [] ops (Replica.init.run c ops).2 log ∧
      (Replica.init.run c ops).1.pairs.Sublist (numbered log) ∧
      (Replica.init.run c ops).1.leo = log.length := by
  obtain ⟨log, h1, h2, _⟩ := Stores.run c ops Replica.init [] Stores.init hh
  exact ⟨log, h1, h2.part, h2.leo⟩

/-- The offsets in `numbered log` are 0, 1, 2, …, and the record at offset `k` is `log[k]`. -/
theorem numbered_getElem? (log : List α) (k : Nat) :
    (numbered log)[k]? = log[k]?.map fun a => ((k : Int), a) := by
  unfold numbered
  rw [List.getElem?_map, List.getElem?_zipIdx]
  cases log[k]? <;> simp

/-- A write that is accepted in any reachable state reports the old end as base offset, the new end is
the old end plus the number of records, and the records of the set are stored at these offsets. -/
theorem C09_write_reports (c : Cfg) (ops : List (Op α)) (hh : ∀ op ∈ ops, op.Honest)
    (set : List (SBatch α)) (hset : ∀ b ∈ set, HonestBatch b) (u : Bool) (f : Option Nat)
    (base leo : Int) (n : Nat)
    (hw : ((Replica.init.run c ops).1.write c set u f).2 = .ok (base, leo, n)) :
    base = (Replica.init.run c ops).1.leo ∧ leo = base + (recordsOf set).length ∧
    ((Replica.init.run c ops).1.write c set u f).1.leo = leo ∧
    ((Replica.init.run c ops).1.write c set u f).1.pairs =
      (Replica.init.run c ops).1.pairs ++ (recordsOf set).zipIdx.map fun p => (base + (p.2 : Int), p.1) := by
  have hok := ReplicaOk.run c ops Replica.init ReplicaOk.init hh
  generalize (Replica.init.run c ops).1 = r at *
  obtain ⟨_, dn, rest, e1, e2, e3, e4⟩ := write_spec c hok set u f hset
  rcases e4 with ⟨e, he, _⟩ | ⟨he, hr, _⟩
  · rw [he] at hw; cases hw
  · subst hr
    rw [List.append_nil] at e1
    subst e1
    rw [he] at hw
    cases hw
    refine ⟨rfl, by rw [recordCount_eq], e3, ?_⟩
    unfold Replica.pairs
    rw [e2, List.flatMap_append, pairs_place]

/-- A write that fails without a failing file write (too big, empty, replica short-circuited) leaves
log, end offset and watermark as they were; so does any failed write of a single batch.

Missing: record sets of several batches with a file write failing in the middle — see
`C09_violated_partial_write`. -/
theorem C09_rejected_write_partial (c : Cfg) (ops : List (Op α)) (hh : ∀ op ∈ ops, op.Honest)
    (set : List (SBatch α)) (hset : ∀ b ∈ set, HonestBatch b) (u : Bool) (f : Option Nat)
    (hf : f = none ∨ set.length ≤ 1) (e : StErr)
    (hw : ((Replica.init.run c ops).1.write c set u f).2 = .error e) :
    ((Replica.init.run c ops).1.write c set u f).1.leo = (Replica.init.run c ops).1.leo ∧
    ((Replica.init.run c ops).1.write c set u f).1.pairs = (Replica.init.run c ops).1.pairs ∧
    ((Replica.init.run c ops).1.write c set u f).1.hw = (Replica.init.run c ops).1.hw := by
  have hok := ReplicaOk.run c ops Replica.init ReplicaOk.init hh
  generalize (Replica.init.run c ops).1 = r at *
  obtain ⟨_, dn, rest, e1, e2, e3, e4⟩ := write_spec c hok set u f hset
  rcases e4 with ⟨e', he, hr, hhw, hcut⟩ | ⟨he, _⟩
  · have hdn : dn = [] := by
      rcases hcut with h | h
      · exact h
      · rcases hf with hf | hf
        · rw [hf] at h; cases h
        · have : rest.length ≠ 0 := by simpa using hr
          rw [e1, List.length_append] at hf
          exact List.eq_nil_of_length_eq_zero (by omega)
    subst hdn
    refine ⟨by rw [e3]; simp [recordCount], ?_, hhw⟩
    unfold Replica.pairs
    rw [e2]; simp [place]
  · rw [he] at hw; cases hw

/-! Concrete cases -/

/-- batch of the given records, 10 bytes per record -/
def demoBatch (l : List Nat) : SBatch Nat :=
  ⟨l.length - 1, l, 10 * l.length, fun _ => List.replicate (10 * l.length) 0⟩

theorem demoBatch_honest (l : List Nat) (h : l ≠ []) : HonestBatch (demoBatch l) := by
  have : 0 < l.length := List.length_pos_iff.2 h
  refine ⟨?_, ?_, ?_, fun _ => ?_⟩ <;> simp only [demoBatch, List.length_replicate] <;> omega

/-- segments of at most 50 bytes, batches of at most 40 -/
def demoCfg : Cfg := ⟨50, 40, 100, ⟨15, 8⟩⟩

def demoOps : List (Op Nat) :=
  [.write [demoBatch [1, 2], demoBatch [3, 4]] true none, .write [demoBatch [5, 6]] true none,
   .write [demoBatch [1, 2, 3, 4, 5]] true none, .reopen (.value 3),
   .write [demoBatch [7, 8, 9]] true none]

theorem demoOps_honest : ∀ op ∈ demoOps, op.Honest := by
  intro op h
  simp only [demoOps, List.mem_cons, List.not_mem_nil, or_false] at h
  rcases h with rfl | rfl | rfl | rfl | rfl
  · intro b hb; simp only [List.mem_cons, List.not_mem_nil, or_false] at hb
    rcases hb with rfl | rfl <;> exact demoBatch_honest _ (by simp)
  · intro b hb; simp only [List.mem_cons, List.not_mem_nil, or_false] at hb
    subst hb; exact demoBatch_honest _ (by simp)
  · intro b hb; simp only [List.mem_cons, List.not_mem_nil, or_false] at hb
    subst hb; exact demoBatch_honest _ (by simp)
  · trivial
  · intro b hb; simp only [List.mem_cons, List.not_mem_nil, or_false] at hb
    subst hb; exact demoBatch_honest _ (by simp)

example : (∀ op ∈ demoOps, op.Honest) ∧ (∀ op ∈ demoOps, op.Keeps) :=
  ⟨demoOps_honest, by
    intro op h
    simp only [demoOps, List.mem_cons, List.not_mem_nil, or_false] at h
    rcases h with rfl | rfl | rfl | rfl | rfl <;> trivial⟩

/-- one roll-over, one rejected write, one restart -/
example : (Replica.init.run demoCfg demoOps).2 =
    [.wrote 0 4 40, .wrote 4 6 20, .failed, .done, .wrote 6 9 30] := by decide
example : (Replica.init.run demoCfg demoOps).1.prev.map (fun s => (s.base, s.endOff)) = [(0, 4)] := by
  decide
example : (Replica.init.run demoCfg demoOps).1.pairs =
    [(0, 1), (1, 2), (2, 3), (3, 4), (4, 5), (5, 6), (6, 7), (7, 8), (8, 9)] := by decide

/-- The claim "not at all when rejected" is false: if the file write of the second batch of a record set
fails, the write is reported as failed but the first batch has been stored and has taken offsets. -/
theorem C09_violated_partial_write :
    let w := (Replica.init : Replica Nat).write demoCfg [demoBatch [1, 2], demoBatch [3, 4]] true (some 1)
    w.2 = .error .io ∧ w.1.leo = 2 ∧ w.1.pairs = [(0, 1), (1, 2)] := by decide

/-- A batch whose header announces fewer or more records than it carries (never produced by this
client, but not checked by the server) breaks the numbering: here the next write is numbered 10. -/
theorem C09_trusts_header :
    ((Replica.init : Replica Nat).write demoCfg [{ demoBatch [1, 2] with delta := 9 }] true none).1.leo
      = 10 := by decide

end Verif.Props
