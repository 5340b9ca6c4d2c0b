import Verif.Props.Log

/-!
# C11, C12, C15: reading a partition

`Replica.init.run c ops` is the state after any history `ops`; `Replica.batches` are the stored batches
in order, each with the base offset it got; `content` are their bytes one after the other.
-/

namespace Verif.Props
open Verif.Storage

variable {α : Type}

/-- After any history (writes, failures, restarts, size-based retention), a read at an offset between
log start and log end returns consecutive stored batches, cut only by the byte limit; the first of them
contains the offset. -/
theorem C11_fetch (c : Cfg) (ops : List (Op α)) (hh : ∀ op ∈ ops, op.Honest)
    (hn : ∀ op ∈ ops, ∀ e, op ≠ .cleanTtl e) (o : Int) (maxLen : Nat)
    (h1 : (Replica.init.run c ops).1.logStart ≤ o) (h2 : o < (Replica.init.run c ops).1.leo) :
    ∃ pre first run post res,
      (Replica.init.run c ops).1.batches = pre ++ (first :: run) ++ post ∧
      first.base ≤ o ∧ o < first.base + first.batch.records.length ∧
      (Replica.init.run c ops).1.readPartition o maxLen .uncommitted = .ok res ∧
      res.data = some (((first :: run).flatMap Stored.bytes).take maxLen) := by
  have hok := ReplicaOk.run c ops Replica.init ReplicaOk.init hh
  have hs := Seamless.run c ops Replica.init ReplicaOk.init Seamless.init hh hn
  generalize (Replica.init.run c ops).1 = r at *
  obtain ⟨b, hb, h3, h4⟩ := hs.contains h1 h2
  obtain ⟨pre, run, post, e1, e2⟩ := hok.read_stored hb h3 h4 maxLen
  have hhon : HonestBatch b.batch := by
    obtain ⟨s, _, _, _, _, hbs, hso, _⟩ := hok.locate hb h3 h4
    exact hso.honest b hbs
  refine ⟨pre, b, run, post, _, e1, h3, ?_, e2, rfl⟩
  have := hhon.2.1
  unfold Stored.last at h4
  omega

/-- The same for every offset that is still stored, with time-based retention allowed too. -/
theorem C11_fetch_stored (c : Cfg) (ops : List (Op α)) (hh : ∀ op ∈ ops, op.Honest)
    (b : Stored α) (hb : b ∈ (Replica.init.run c ops).1.batches) (o : Int) (maxLen : Nat)
    (h1 : b.base ≤ o) (h2 : o < b.base + b.batch.records.length) :
    ∃ pre run post res,
      (Replica.init.run c ops).1.batches = pre ++ (b :: run) ++ post ∧
      (Replica.init.run c ops).1.readPartition o maxLen .uncommitted = .ok res ∧
      res.data = some (((b :: run).flatMap Stored.bytes).take maxLen) := by
  have hok := ReplicaOk.run c ops Replica.init ReplicaOk.init hh
  generalize (Replica.init.run c ops).1 = r at *
  have hhon : HonestBatch b.batch := by
    unfold Replica.batches at hb
    rw [List.mem_append, List.mem_flatMap] at hb
    rcases hb with ⟨s, hs, hb⟩ | hb
    · exact (hok.prev s hs).1.honest b hb
    · exact hok.active.honest b hb
  have := hhon.2.1
  obtain ⟨pre, run, post, e1, e2⟩ := hok.read_stored hb h1 (by unfold Stored.last; omega) maxLen
  exact ⟨pre, run, post, _, e1, e2, rfl⟩

/-- A read at the end returns nothing, reads outside are errors; an evicted offset is answered with
the first offset available. -/
theorem C11_outside (c : Cfg) (ops : List (Op α)) (hh : ∀ op ∈ ops, op.Honest) (maxLen : Nat)
    (iso : Isolation) :
    (∃ res, (Replica.init.run c ops).1.readPartition (Replica.init.run c ops).1.leo maxLen iso = .ok res ∧
      res.data = none) ∧
    (∀ o, (Replica.init.run c ops).1.leo < o →
      ∃ e, (Replica.init.run c ops).1.readPartition o maxLen iso = .error e) ∧
    (∀ o, o < (Replica.init.run c ops).1.logStart →
      (Replica.init.run c ops).1.readPartition o maxLen iso
        = .error (.evicted (Replica.init.run c ops).1.logStart)) := by
  have hok := ReplicaOk.run c ops Replica.init ReplicaOk.init hh
  generalize (Replica.init.run c ops).1 = r at *
  cases iso with
  | committed =>
    obtain ⟨h1, h2, h3⟩ := hok.read_outside (some r.hw) maxLen
    exact ⟨⟨_, h1, rfl⟩, fun o ho => ⟨_, h2 o ho⟩, h3⟩
  | uncommitted =>
    obtain ⟨h1, h2, h3⟩ := hok.read_outside none maxLen
    exact ⟨⟨_, h1, rfl⟩, fun o ho => ⟨_, h2 o ho⟩, h3⟩

/-- Committed reads make progress: if the batch containing the offset lies below the high watermark, it
is the first batch returned. -/
theorem C11_fetch_committed (c : Cfg) (ops : List (Op α)) (hh : ∀ op ∈ ops, op.Honest)
    (hc : c.segMax < 2 ^ 32)
    (b : Stored α) (hb : b ∈ (Replica.init.run c ops).1.batches) (o : Int) (maxLen : Nat)
    (h1 : b.base ≤ o) (h2 : o < b.base + b.batch.records.length)
    (h3 : b.base + b.batch.records.length ≤ (Replica.init.run c ops).1.hw) :
    ∃ pre run post res,
      (Replica.init.run c ops).1.batches = pre ++ (b :: run) ++ post ∧
      (∀ x ∈ b :: run, x.base + x.batch.records.length ≤ (Replica.init.run c ops).1.hw) ∧
      (Replica.init.run c ops).1.readPartition o maxLen .committed = .ok res ∧
      res.data = some (((b :: run).flatMap Stored.bytes).take maxLen) := by
  have hok := ReplicaOk.run c ops Replica.init ReplicaOk.init hh
  have hbd := Bounded.run c ops (Bounded.init (α := α) c)
  generalize (Replica.init.run c ops).1 = r at *
  have hhon : ∀ x ∈ r.batches, HonestBatch x.batch := by
    intro x hx
    unfold Replica.batches at hx
    rw [List.mem_append, List.mem_flatMap] at hx
    rcases hx with ⟨s, hs, hx⟩ | hx
    · exact (hok.prev s hs).1.honest x hx
    · exact hok.active.honest x hx
  have hlen := (hhon b hb).2.1
  obtain ⟨pre, run, post, e1, e2, e3, e4⟩ := hok.read_bounded hbd hc hb (m := r.hw) h1
    (by unfold Stored.last; omega) (by omega) maxLen
  obtain ⟨tl, rfl⟩ := e3 (by unfold Stored.last; omega)
  refine ⟨pre, tl, post, _, e1, ?_, e4, rfl⟩
  intro x hx
  have h5 := e2 x hx
  have h6 := (hhon x (by rw [e1, List.mem_append, List.mem_append]; exact .inl (.inr hx))).2.1
  unfold Stored.last at h5
  omega

/-- A committed read returns only whole batches below the high watermark — for requested offsets not
beyond the watermark, and for all offsets outside the active segment.

Missing: requested offsets beyond the watermark in the active segment, where the claim is false — see
`C12_violated`. -/
theorem C12_committed_partial (c : Cfg) (ops : List (Op α)) (hh : ∀ op ∈ ops, op.Honest)
    (hc : c.segMax < 2 ^ 31) (o : Int) (maxLen : Nat) (res : ReadRes) (d : Verif.Wire.Bytes)
    (ho : o ≤ (Replica.init.run c ops).1.hw ∨ o < (Replica.init.run c ops).1.active.base)
    (hr : (Replica.init.run c ops).1.readPartition o maxLen .committed = .ok res)
    (hd : res.data = some d) :
    ∃ pre run post, (Replica.init.run c ops).1.batches = pre ++ run ++ post ∧
      (∀ x ∈ run, x.base + x.batch.records.length ≤ (Replica.init.run c ops).1.hw) ∧
      d = (run.flatMap Stored.bytes).take maxLen := by
  have hok := ReplicaOk.run c ops Replica.init ReplicaOk.init hh
  have hbd := Bounded.run c ops (Bounded.init (α := α) c)
  generalize (Replica.init.run c ops).1 = r at *
  have hhon : ∀ x ∈ r.batches, HonestBatch x.batch := by
    intro x hx
    unfold Replica.batches at hx
    rw [List.mem_append, List.mem_flatMap] at hx
    rcases hx with ⟨s, hs, hx⟩ | hx
    · exact (hok.prev s hs).1.honest x hx
    · exact hok.active.honest x hx
  unfold Replica.readPartition at hr
  by_cases hex : ∃ b ∈ r.batches, b.base ≤ o ∧ o ≤ b.last
  · obtain ⟨b, hb, h1, h2⟩ := hex
    by_cases hle : o ≤ r.hw
    · obtain ⟨pre, run, post, e1, e2, _, e4⟩ := hok.read_bounded hbd (by omega) hb h1 h2 hle maxLen
      rw [e4] at hr
      cases hr
      cases hd
      refine ⟨pre, run, post, e1, ?_, rfl⟩
      intro x hx
      have h5 := e2 x hx
      have h6 := (hhon x (by rw [e1, List.mem_append, List.mem_append]; exact .inl (.inr hx))).2.1
      unfold Stored.last at h5
      omega
    · rcases hok.read_behind hbd hc hb h1 h2 (m := r.hw) (by omega)
        (by rcases ho with h | h <;> omega) maxLen with e | e
      · rw [e] at hr; cases hr
      · rw [e] at hr
        cases hr
        cases hd
        exact ⟨[], [], r.batches, rfl, by simp, by simp⟩
  · have hno : ∀ b ∈ r.batches, ¬ (b.base ≤ o ∧ o ≤ b.last) := fun b hb h => hex ⟨b, hb, h⟩
    rcases hok.read_absent hno (some r.hw) maxLen with ⟨e, he⟩ | he
    · rw [he] at hr; cases hr
    · rw [he] at hr; cases hr; cases hd

/-- The claim is false for the active segment: offsets 0–3 are stored, the watermark is 1 (nothing but
offset 0 is committed), and a committed read from offset 2 returns the uncommitted batch 2–3.
(The length of the slice is computed as `u32` difference, which wraps in a release build; unlike
`records.rs:173-182`, `mut_records.rs:214-217` does not check it.) -/
theorem C12_violated :
    let r := ((Replica.init : Replica Nat).run demoCfg
      [.write [demoBatch [1, 2], demoBatch [3, 4]] false none, .updateHw 1]).1
    r.hw = 1 ∧ r.leo = 4 ∧
    r.batches.map (fun b => (b.base, b.batch.records)) = [(0, [1, 2]), (2, [3, 4])] ∧
    r.readPartition 2 1000 .committed = .ok ⟨0, 1, 4, some ((demoBatch [3, 4]).enc 2)⟩ := by
  decide

/-- Looking up an offset through the sparse index gives, in every segment of every reachable state, the
batch that contains the offset and its byte position; offsets outside the segment are not found. -/
theorem C15_index (c : Cfg) (ops : List (Op α)) (hh : ∀ op ∈ ops, op.Honest) (s : Segment α)
    (closed : Bool)
    (hs : (closed = true ∧ s ∈ (Replica.init.run c ops).1.prev) ∨
      (closed = false ∧ s = (Replica.init.run c ops).1.active)) :
    (∀ pre b post (off : Int), s.file = pre ++ b :: post → b.base ≤ off →
      off < b.base + b.batch.records.length →
      s.find closed off = .ok (some (b, (pre.map fun x => x.bytes.length).sum))) ∧
    (∀ off, (∀ b ∈ s.file, ¬ (b.base ≤ off ∧ off < b.base + b.batch.records.length)) →
      s.find closed off = .ok none) := by
  have hok := ReplicaOk.run c ops Replica.init ReplicaOk.init hh
  have hso : SegOk s := by
    rcases hs with ⟨_, h⟩ | ⟨_, h⟩
    · exact (hok.prev s h).1
    · rw [h]; exact hok.active.toSegOk
  refine ⟨?_, ?_⟩
  · intro pre b post off hf h1 h2
    have := (hso.honest b (by rw [hf]; simp)).2.1
    rw [hso.find_eq closed hf h1 (by unfold Stored.last; omega)]
    rfl
  · intro off hno
    unfold Segment.find
    by_cases h1 : off < s.base
    · rw [if_pos h1]
    · by_cases h2 : s.endOff ≤ off
      · rw [if_neg h1, if_pos h2]
      · obtain ⟨pre, b, post, hf, h3, h4⟩ := exists_containing hso.chain (off := off) (by omega) (by omega)
        have := (hso.honest b (by rw [hf]; simp)).2.1
        refine absurd ⟨h3, ?_⟩ (hno b (by rw [hf]; simp))
        unfold Stored.last at h4
        omega

/-! Concrete cases: two segments, an index entry in use, reads in both. -/

example : (Replica.init.run demoCfg demoOps).1.active.ix.entries = [] ∧
    (Replica.init.run demoCfg demoOps).1.prev.map (fun s => s.ix.entries) = [[(2, 20)]] ∧
    (Replica.init.run demoCfg demoOps).1.prev.map (fun s => (s.find true 3).toOption.bind
      (Option.map Prod.snd)) = [some 20] := by decide

example : (Replica.init.run demoCfg demoOps).1.logStart = 0 ∧
    (Replica.init.run demoCfg demoOps).1.leo = 9 := by decide

example : ∀ op ∈ demoOps, ∀ e, op ≠ .cleanTtl e := by
  intro op h e
  simp only [demoOps, List.mem_cons, List.not_mem_nil, or_false] at h
  rcases h with rfl | rfl | rfl | rfl | rfl <;> simp

example : (Replica.init.run demoCfg demoOps).1.readPartition 3 15 .uncommitted =
    .ok ⟨0, 9, 9, some (List.replicate 15 0)⟩ := by decide

/-- hypotheses of `C12_committed_partial`, with data -/
example : demoCfg.segMax < 2 ^ 31 ∧
    (let r := (Replica.init.run demoCfg (demoOps ++ [.updateHw 6])).1
     (4 : Int) ≤ r.hw ∧ r.readPartition 4 100 .committed = .ok ⟨0, 6, 9, some (List.replicate 20 0)⟩) := by
  decide

end Verif.Props
