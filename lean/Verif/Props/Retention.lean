import Verif.Storage.Retention
import Verif.Props.Fetch

/-!
# C16, C17: retention
-/

namespace Verif.Props
open Verif.Storage

variable {α : Type}

/-- bytes occupied by the partition: log and index of all segments -/
def occupancy (r : Replica α) : Nat :=
  (r.prev.map fun s => 8 * s.ix.closedEntries.length + width s.file).sum
    + (8 * r.active.ix.used + width r.active.file)

/-- Size-based cleaning removes some number of the oldest closed segments and nothing else: never the
active segment, and the remaining batches are the newest ones, unchanged.  (They stay readable at their
offsets by `C11_fetch`, whose histories include this cleaning.) -/
theorem C16_removes_oldest (c : Cfg) (ops : List (Op α)) (hh : ∀ op ∈ ops, op.Honest) :
    ∃ k removed, ((Replica.init.run c ops).1.cleanSize c).prev = (Replica.init.run c ops).1.prev.drop k ∧
      ((Replica.init.run c ops).1.cleanSize c).active = (Replica.init.run c ops).1.active ∧
      ((Replica.init.run c ops).1.cleanSize c).leo = (Replica.init.run c ops).1.leo ∧
      ((Replica.init.run c ops).1.cleanSize c).hw = (Replica.init.run c ops).1.hw ∧
      (Replica.init.run c ops).1.batches
        = removed ++ ((Replica.init.run c ops).1.cleanSize c).batches := by
  have hok := ReplicaOk.run c ops Replica.init ReplicaOk.init hh
  generalize (Replica.init.run c ops).1 = r at *
  rw [hok.cleanSize_eq]
  dsimp only
  split
  · exact ⟨_, _, rfl, rfl, rfl, rfl, batches_drop r _ _⟩
  · exact ⟨0, [], rfl, rfl, rfl, rfl, rfl⟩

/-- It removes nothing unless the partition exceeds the limit, and not more than necessary: with the
last removed segment kept, the limit would be exceeded.

Missing: closed segments that occupy more than `segment_max_bytes` (possible because the index counts
too), and partitions reopened since — see `C16_violated_removes_too_much` and
`C16_violated_after_restart`. -/
theorem C16_only_as_needed_partial (c : Cfg) (ops : List (Op α)) (hh : ∀ op ∈ ops, op.Honest)
    (hn : ∀ op ∈ ops, ∀ k, op ≠ .reopen k) (hseg : 0 < c.segMax)
    (hsh : (Replica.init.run c ops).1.short = false)
    (hsz : ∀ s ∈ (Replica.init.run c ops).1.prev, 8 * s.ix.closedEntries.length + width s.file ≤ c.segMax)
    (hrm : ((Replica.init.run c ops).1.cleanSize c).prev ≠ (Replica.init.run c ops).1.prev) :
    ∃ gone last, (Replica.init.run c ops).1.prev
        = gone ++ last :: ((Replica.init.run c ops).1.cleanSize c).prev ∧
      c.partMax < occupancy { (Replica.init.run c ops).1 with
        prev := last :: ((Replica.init.run c ops).1.cleanSize c).prev } := by
  have hok := ReplicaOk.run c ops Replica.init ReplicaOk.init hh
  have hacc := Accounted.run c ops Replica.init ReplicaOk.init Accounted.init hh hn
  generalize (Replica.init.run c ops).1 = r at *
  rw [hok.cleanSize_eq] at hrm ⊢
  dsimp only at hrm ⊢
  obtain ⟨ha1, ha2⟩ := hacc
  have ha2 := ha2 hsh
  generalize hx : r.sizePrev + r.sizeActive - c.partMax = x at *
  by_cases hpos : 0 < x
  · rw [if_pos hpos] at hrm ⊢
    dsimp only at hrm ⊢
    obtain ⟨hb1, hb2⟩ := count_bounds hseg hpos
    generalize x / c.segMax + (if 0 < x % c.segMax then 1 else 0) = k at *
    -- the number actually removed
    have hne : r.prev ≠ [] := by rintro e; apply hrm; rw [e]; simp
    have hlen : 0 < r.prev.length := List.length_pos_iff.2 hne
    let k' := min k r.prev.length
    have hk' : 0 < k' := by show 0 < min k _; omega
    have hdrop : r.prev.drop k = r.prev.drop k' := by
      by_cases hle : k ≤ r.prev.length
      · show _ = r.prev.drop (min k _); rw [Nat.min_eq_left hle]
      · show _ = r.prev.drop (min k _)
        rw [Nat.min_eq_right (by omega), List.drop_length, List.drop_eq_nil_of_le (by omega)]
    have hlt : k' - 1 < r.prev.length := by show min k _ - 1 < _; omega
    refine ⟨r.prev.take (k' - 1), r.prev[k' - 1], ?_, ?_⟩
    · rw [hdrop]
      conv => lhs; rw [← List.take_append_drop (k' - 1) r.prev]
      rw [List.drop_eq_getElem_cons hlt]
      congr 3
      omega
    · have hsplit : r.prev = r.prev.take (k' - 1) ++ (r.prev[k' - 1] :: r.prev.drop k) := by
        rw [hdrop]
        conv => lhs; rw [← List.take_append_drop (k' - 1) r.prev]
        rw [List.drop_eq_getElem_cons hlt]
        congr 3
        omega
      have hocc : occupiedPrev r.prev = occupiedPrev (r.prev.take (k' - 1))
          + occupiedPrev (r.prev[k' - 1] :: r.prev.drop k) := by
        rw [← occupiedPrev_append, ← hsplit]
      have htake := occupiedPrev_take_le (m := c.segMax) (l := r.prev) (fun s hs => hsz s hs) (k' - 1)
      have hmul : (k' - 1) * c.segMax ≤ (k - 1) * c.segMax := by
        apply Nat.mul_le_mul_right
        show min k _ - 1 ≤ _
        omega
      show c.partMax < occupiedPrev (r.prev[k' - 1] :: r.prev.drop k) + r.active.occupied
      omega
  · rw [if_neg hpos] at hrm
    exact absurd rfl hrm

/-- `n` rounds of the cleaner (it runs periodically). -/
def cleanRounds (c : Cfg) : Nat → Replica α → Replica α
  | 0, r => r
  | n + 1, r => cleanRounds c n (r.cleanSize c)

theorem cleanSize_accounted (c : Cfg) (r : Replica α) :
    (r.cleanSize c).sizeActive = r.sizeActive ∧ (r.cleanSize c).active = r.active ∧
    (r.sizePrev = occupiedPrev r.prev → (r.cleanSize c).sizePrev = occupiedPrev (r.cleanSize c).prev) := by
  unfold Replica.cleanSize
  dsimp only
  split
  · exact ⟨rfl, rfl, fun _ => rfl⟩
  · exact ⟨rfl, rfl, fun h => h⟩

/-- After as many rounds as there are closed segments, the partition is within the limit or only the
active segment is left.

Missing: a single round need not suffice — see `C16_violated_one_round`. -/
theorem C16_within_limit_partial (c : Cfg) (ops : List (Op α)) (hh : ∀ op ∈ ops, op.Honest)
    (hn : ∀ op ∈ ops, ∀ k, op ≠ .reopen k) (hseg : 0 < c.segMax)
    (hsh : (Replica.init.run c ops).1.short = false) (n : Nat)
    (hlen : (Replica.init.run c ops).1.prev.length ≤ n) :
    occupancy (cleanRounds c n (Replica.init.run c ops).1) ≤ c.partMax ∨
      (cleanRounds c n (Replica.init.run c ops).1).prev = [] := by
  have hok := ReplicaOk.run c ops Replica.init ReplicaOk.init hh
  have hacc := Accounted.run c ops Replica.init ReplicaOk.init Accounted.init hh hn
  generalize (Replica.init.run c ops).1 = r at *
  obtain ⟨ha1, ha2⟩ := hacc
  replace ha2 := ha2 hsh
  clear hsh
  -- within the limit nothing happens any more
  have stable : ∀ n (r : Replica α), r.sizePrev + r.sizeActive ≤ c.partMax → cleanRounds c n r = r := by
    intro n
    induction n with
    | zero => intros; rfl
    | succ n ih =>
      intro r hr
      have : r.cleanSize c = r := by
        unfold Replica.cleanSize
        dsimp only
        rw [if_neg (by omega)]
      unfold cleanRounds
      rw [this]; exact ih r hr
  induction n generalizing r with
  | zero => right; exact List.eq_nil_of_length_eq_zero (by unfold cleanRounds; omega)
  | succ n ih =>
    by_cases hlim : r.sizePrev + r.sizeActive ≤ c.partMax
    · left
      rw [stable _ r hlim]
      show occupiedPrev r.prev + r.active.occupied ≤ _
      omega
    · unfold cleanRounds
      obtain ⟨k1, k2, k3⟩ := cleanSize_accounted c r
      refine ih (r.cleanSize c) ?_ (hok.cleanSize c) (k3 ha1) (by rw [k1, k2]; exact ha2)
      rw [hok.cleanSize_eq]
      dsimp only
      rw [if_pos (by omega)]
      dsimp only
      have := (count_bounds (x := r.sizePrev + r.sizeActive - c.partMax) hseg (by omega)).2
      rw [List.length_drop]
      omega

/-- partition limit 110 bytes -/
def sizeCfg : Cfg := { demoCfg with partMax := 110 }

/-- Histories for the size cleaner: one batch per segment. -/
def fourSegments : List (Op Nat) :=
  [.write [demoBatch [1, 2, 3]] true none, .write [demoBatch [4, 5, 6]] true none,
   .write [demoBatch [7, 8, 9]] true none, .write [demoBatch [10, 11, 12, 13]] true none]

theorem fourSegments_honest : ∀ op ∈ fourSegments, op.Honest := by
  intro op h
  simp only [fourSegments, List.mem_cons, List.not_mem_nil, or_false] at h
  rcases h with rfl | rfl | rfl | rfl <;>
  · intro b hb; simp only [List.mem_cons, List.not_mem_nil, or_false] at hb
    subst hb; exact demoBatch_honest _ (by simp)

/-- hypotheses of the theorems above, with segments removed: 30 + 30 + 30 + 40 bytes and index, limit
110 -/
example : 0 < sizeCfg.segMax ∧ (Replica.init.run sizeCfg fourSegments).1.short = false ∧
    (∀ s ∈ (Replica.init.run sizeCfg fourSegments).1.prev,
      8 * s.ix.closedEntries.length + width s.file ≤ sizeCfg.segMax) ∧
    (Replica.init.run sizeCfg fourSegments).1.prev.map (·.base) = [0, 3, 6] ∧
    ((Replica.init.run sizeCfg fourSegments).1.cleanSize sizeCfg).prev.map (·.base) = [3, 6] ∧
    occupancy (Replica.init.run sizeCfg fourSegments).1 = 154 := by decide

example : ∀ op ∈ fourSegments, ∀ k, op ≠ .reopen k := by
  intro op h e
  simp only [fourSegments, List.mem_cons, List.not_mem_nil, or_false] at h
  rcases h with rfl | rfl | rfl | rfl <;> simp

/-- "afterwards is within the limit" is false for one round: the number of segments to remove is
computed as if every segment were full. -/
theorem C16_violated_one_round :
    let r := (Replica.init.run sizeCfg fourSegments).1.cleanSize sizeCfg
    r.prev.length = 2 ∧ sizeCfg.partMax < occupancy r := by decide

/-- After a restart the closed segments are not counted, so the limit is not enforced. -/
theorem C16_violated_after_restart :
    let r := (Replica.init.run sizeCfg (fourSegments ++ [.reopen (.value 13)])).1
    sizeCfg.partMax < occupancy r ∧ (r.cleanSize sizeCfg).prev = r.prev := by
  refine ⟨by decide, ?_⟩
  rfl

/-- Configuration for the next example: an index entry for every batch. -/
def denseCfg : Cfg := ⟨50, 50, 115, ⟨0, 100⟩⟩

/-- Because index bytes are counted, a segment can occupy more than `segment_max_bytes`, and more
segments than necessary are removed: removing one segment of the three would have been enough. -/
theorem C16_violated_removes_too_much :
    let ops : List (Op Nat) := (List.range 11).map fun i => .write [demoBatch [i]] true none
    let r := (Replica.init.run denseCfg ops).1
    r.prev.map (·.base) = [0, 5] ∧ (r.cleanSize denseCfg).prev = [] ∧
    occupancy { r with prev := r.prev.drop 1 } ≤ denseCfg.partMax := by
  refine ⟨by decide, ?_, by decide⟩
  apply List.eq_nil_of_length_eq_zero
  decide

/-- Time-based cleaning keeps exactly the closed segments that are not expired, and the active one. -/
theorem C17_only_expired (r : Replica α) (expired : Int → Bool) :
    (∀ s, s ∈ (r.cleanTtl expired).prev ↔ s ∈ r.prev ∧ expired s.base = false) ∧
    (r.cleanTtl expired).active = r.active ∧ (r.cleanTtl expired).leo = r.leo := by
  refine ⟨?_, ?_, ?_⟩
  · intro s
    rw [Replica.cleanTtl_prev, List.mem_filter]
    simp
  · unfold Replica.cleanTtl; dsimp only; split <;> rfl
  · unfold Replica.cleanTtl; dsimp only; split <;> rfl

theorem filter_eq_drop {β : Type _} (p : β → Bool) : ∀ {l : List β},
    l.Pairwise (fun s t => p s = true → p t = true) → ∃ k, l.filter p = l.drop k
  | [], _ => ⟨0, rfl⟩
  | a :: l, h => by
    rw [List.pairwise_cons] at h
    cases ha : p a with
    | true =>
      refine ⟨0, ?_⟩
      rw [List.drop_zero, List.filter_eq_self]
      intro b hb
      rcases List.mem_cons.1 hb with rfl | hb
      · exact ha
      · exact h.1 b hb ha
    | false =>
      obtain ⟨k, hk⟩ := filter_eq_drop p h.2
      refine ⟨k + 1, ?_⟩
      rw [List.filter_cons_of_neg (by simp [ha]), hk, List.drop_succ_cons]

/-- It leaves no hole if no segment is expired while an older one is not: the remaining readable offsets
are exactly those from the new log start to the log end.

Missing: segments whose file times are not in the order of their offsets — see `C17_violated_hole`. -/
theorem C17_no_hole_partial (c : Cfg) (ops : List (Op α)) (hh : ∀ op ∈ ops, op.Honest)
    (hn : ∀ op ∈ ops, ∀ e, op ≠ .cleanTtl e) (expired : Int → Bool)
    (hage : ∀ s ∈ (Replica.init.run c ops).1.prev, ∀ t ∈ (Replica.init.run c ops).1.prev,
      s.base < t.base → expired t.base = true → expired s.base = true) (o : Int)
    (h1 : ((Replica.init.run c ops).1.cleanTtl expired).logStart ≤ o)
    (h2 : o < ((Replica.init.run c ops).1.cleanTtl expired).leo) :
    ∃ b ∈ ((Replica.init.run c ops).1.cleanTtl expired).batches,
      b.base ≤ o ∧ o < b.base + b.batch.records.length := by
  have hok := ReplicaOk.run c ops Replica.init ReplicaOk.init hh
  have hs := Seamless.run c ops Replica.init ReplicaOk.init Seamless.init hh hn
  generalize (Replica.init.run c ops).1 = r at *
  have hok' := hok.cleanTtl expired
  have hpw : r.prev.Pairwise fun s t => (!expired s.base) = true → (!expired t.base) = true := by
    refine List.Pairwise.imp_of_mem ?_ hok.bases_nodup
    intro s t hs ht hlt hns
    cases he : expired t.base with
    | false => rfl
    | true => rw [hage s hs t ht hlt he] at hns; cases hns
  obtain ⟨k, hk⟩ := filter_eq_drop (fun s : Segment α => !expired s.base) hpw
  have hb : (r.cleanTtl expired).batches = { r with prev := r.prev.drop k, sizePrev := 0 }.batches := by
    unfold Replica.batches
    rw [Replica.cleanTtl_prev, hk, (C17_only_expired r expired).2.1]
  have hs' : Seamless (r.cleanTtl expired) := by
    have hs2 := hs
    unfold Seamless at hs2
    rw [batches_drop r k 0] at hs2
    obtain ⟨x, _, hx⟩ := Chain.split hs2
    refine hok'.seamless_of (a := x) ?_
    rw [hb, (C17_only_expired r expired).2.2]
    exact hx
  obtain ⟨b, hb', h3, h4⟩ := hs'.contains h1 h2
  refine ⟨b, hb', h3, ?_⟩
  have hhon : HonestBatch b.batch := by
    obtain ⟨s, _, _, _, _, hbs, hso, _⟩ := hok'.locate hb' h3 h4
    exact hso.honest b hbs
  have := hhon.2.1
  unfold Stored.last at h4
  omega

example : ((Replica.init.run demoCfg fourSegments).1.cleanTtl (· < 4)).logStart = 6 ∧
    ((Replica.init.run demoCfg fourSegments).1.cleanTtl (· < 4)).leo = 13 := by decide

/-- If a file has a newer modification time than its successor (for example after being touched), the
successor is removed first and leaves a hole: offset 3 lies between log start 0 and log end 13 but
cannot be read. -/
theorem C17_violated_hole :
    let r := (Replica.init.run demoCfg fourSegments).1.cleanTtl (· == 3)
    r.logStart = 0 ∧ r.leo = 13 ∧ r.readPartition 3 1000 .uncommitted = .error .other := by decide

end Verif.Props
