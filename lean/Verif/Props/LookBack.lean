import Verif.Smart.LookBack
import Verif.Props.Filter

/-!
# C56: what a SmartModule is shown of the past

`wanted` (in `Verif.Smart.LookBack`) is what a look-back asks for: the last `n` committed records, or the
committed records with a timestamp of at least `m` (among the last `n`, if `n` is not 0).
-/

namespace Verif.Props
open Verif.Storage Verif.Wire Verif.Stream Verif.Smart

variable {α : Type}

/-- The partition when a SmartModule looks back; the watermark is at the end of a batch. -/
structure OpenedL (c : Cfg) (rd : Bytes → List α) (ops : List (Op α)) : Prop where
  seg : c.segMax < 2 ^ 32
  honest : ∀ op ∈ ops, op.Honest
  noTtl : ∀ op ∈ ops, ∀ e, op ≠ .cleanTtl e
  all : ∀ op ∈ ops, op.All fun b => RawBatch b ∧ ∀ e, rd (b.enc e) = b.records
  hw_ge : (Replica.init.run c ops).1.logStart ≤ (Replica.init.run c ops).1.hw
  hw_le : (Replica.init.run c ops).1.hw ≤ (Replica.init.run c ops).1.leo
  hw_at : ∀ b ∈ (Replica.init.run c ops).1.batches, b.base < (Replica.init.run c ops).1.hw →
    b.last < (Replica.init.run c ops).1.hw
  leo : (Replica.init.run c ops).1.leo < 2 ^ 63

theorem OpenedL.lbOk {c : Cfg} {rd : Bytes → List α} {ops : List (Op α)} (h : OpenedL c rd ops) :
    LbOk c rd (Replica.init.run c ops).1 :=
  ⟨ReplicaOk.run c ops Replica.init ReplicaOk.init h.honest,
   Seamless.run c ops Replica.init ReplicaOk.init Seamless.init h.honest h.noTtl,
   Bounded.run c ops (Bounded.init c), h.seg,
   all_run c ops Replica.init ReplicaOk.init (by intro b hb; cases hb) h.honest h.all,
   h.hw_ge, h.hw_le, h.hw_at, h.leo⟩

/-- After any history: looking back at the last `n` records never fails and gives the beginning of the
wanted records — all of them, if no segment begins between the first of them and the watermark.

Missing: with a segment boundary in between the newest records are left out, see
`C56_violated_segment`. -/
theorem C56_last_partial (c : Cfg) (rd : Bytes → List α) (ts : α → Int) (ops : List (Op α)) (h : OpenedL c rd ops)
    (n : Nat) (hn : n < 2 ^ 63) :
    let r := (Replica.init.run c ops).1
    ∃ l, lookback rd ts r (.last n) = .ok l ∧ (∃ rest, wanted ts r (.last n) = l ++ rest) ∧
      ((∀ s ∈ r.prev ++ [r.active], s.base ≤ max (r.hw - n) r.logStart ∨ r.hw ≤ s.base) →
        l = wanted ts r (.last n)) := by
  intro r
  have hl : LbOk c rd r := h.lbOk
  have h1 := hl.hw_ge
  obtain ⟨res, e1, e2⟩ := hl.read (o := fromLast r n) (by unfold fromLast; omega) (by unfold fromLast; omega)
  simp only [lookback, lookbackLast, hl.from_eq hn, e1, wanted, hl.wanted_eq]
  rcases e2 with ⟨k1, k2⟩ | ⟨bs, l, k1, k2, k3, k4⟩
  · rw [k1, k2]
    exact ⟨[], rfl, ⟨[], rfl⟩, fun _ => rfl⟩
  · rw [k1]
    exact ⟨l, congrArg Except.ok k2, k3, fun hs => (k4 hs).symm⟩

/-- The same for the recent ones among the last `n > 0` records. -/
theorem C56_last_age_partial (c : Cfg) (rd : Bytes → List α) (ts : α → Int) (ops : List (Op α))
    (h : OpenedL c rd ops) (m : Int) (n : Nat) (h0 : 0 < n) (hn : n < 2 ^ 63) :
    let r := (Replica.init.run c ops).1
    ∃ l, lookback rd ts r (.age m n) = .ok l ∧ (∃ rest, wanted ts r (.age m n) = l ++ rest) ∧
      ((∀ s ∈ r.prev ++ [r.active], s.base ≤ max (r.hw - n) r.logStart ∨ r.hw ≤ s.base) →
        l = wanted ts r (.age m n)) := by
  intro r
  obtain ⟨l, e1, ⟨rest, e2⟩, e3⟩ := C56_last_partial c rd ts ops h n hn
  change lookbackLast rd r n = .ok l at e1
  change lastN n (committed r) = l ++ rest at e2
  simp only [lookback, wanted, if_pos h0, e1]
  refine ⟨_, rfl, ⟨_, by rw [e2, List.filter_append]⟩, fun hs => ?_⟩
  rw [e3 hs]
  rfl

/-- Looking back by age alone gives exactly the recent committed records: if every batch has at least two
records, maximal timestamps of batches do not decrease, no record is newer than its batch's maximum, and
the log starts at 0 or some committed batch is too old.

Missing: batches with one record are skipped, see `C56_violated_single_record`, or let the look-back fail,
see `C56_violated_first_record`; after retention it fails unless the oldest batch left is too old, see
`C56_violated_retention`. -/
theorem C56_age_partial (c : Cfg) (rd : Bytes → List α) (ts : α → Int) (ops : List (Op α))
    (h : OpenedL c rd ops) (m : Int)
    (h2 : ∀ b ∈ (Replica.init.run c ops).1.batches, 2 ≤ b.batch.records.length)
    (hmono : ((Replica.init.run c ops).1.batches.map fun b => maxTsOf b.bytes).Pairwise (· ≤ ·))
    (hts : ∀ b ∈ (Replica.init.run c ops).1.batches, ∀ v ∈ b.batch.records, ts v ≤ maxTsOf b.bytes)
    (hstop : (Replica.init.run c ops).1.logStart = 0 ∨
      ∃ b ∈ (Replica.init.run c ops).1.batches, b.last < (Replica.init.run c ops).1.hw ∧ maxTsOf b.bytes < m) :
    lookback rd ts (Replica.init.run c ops).1 (.age m 0) = .ok (wanted ts (Replica.init.run c ops).1 (.age m 0)) := by
  have hl : LbOk c rd (Replica.init.run c ops).1 := h.lbOk
  generalize (Replica.init.run c ops).1 = r at *
  have hhon := hl.honest
  have h0 := hl.start_nonneg
  -- the committed batches
  obtain ⟨l, rest, e1, hch, hrest⟩ : ∃ l rest, r.batches = l ++ rest ∧ Chain r.logStart l r.hw ∧
      ∀ b ∈ rest, r.hw ≤ b.base := by
    have hh := hl.hw_ge
    have hh2 := hl.hw_le
    by_cases hend : r.hw = r.leo
    · exact ⟨r.batches, [], by simp, by rw [hend]; exact hl.seamless, by simp⟩
    · obtain ⟨b, hb, h3, h4⟩ := hl.seamless.contains hh (by omega)
      obtain ⟨pre, post, hf⟩ := List.append_of_mem hb
      have hc : Chain r.logStart (pre ++ b :: post) r.leo := hf ▸ hl.seamless
      obtain ⟨y, hy1, hy2⟩ := hc.split
      have hy3 := hy2.1
      have : b.base = r.hw := by
        by_cases hlt : b.base < r.hw
        · have := hl.hw_at b hb hlt; omega
        · omega
      refine ⟨pre, b :: post, hf, by rw [← this, hy3]; exact hy1, ?_⟩
      intro z hz
      rw [List.mem_cons] at hz
      rcases hz with rfl | hz
      · omega
      · have := hy2.2.2.mem hz; omega
  have hin : ∀ b ∈ l, b ∈ r.batches := by intro b hb; rw [e1]; simp [hb]
  have hpairs : ∀ x : Stored α, HonestBatch x.batch → ∀ p ∈ x.pairs, x.base ≤ p.1 ∧ p.1 ≤ x.last ∧ p.2 ∈ x.batch.records := by
    intro x hx p hp
    unfold Stored.pairs at hp
    rw [List.mem_map] at hp
    obtain ⟨q, hq, rfl⟩ := hp
    have := List.snd_lt_of_mem_zipIdx hq
    have := hx.2.1
    refine ⟨by dsimp only; omega, by unfold Stored.last; dsimp only; omega, ?_⟩
    exact List.fst_mem_of_mem_zipIdx hq
  have hcomm : committed r = l.flatMap Stored.pairs := by
    unfold committed Replica.pairs
    rw [e1, List.flatMap_append, List.filter_append]
    rw [List.filter_eq_self.2, List.filter_eq_nil_iff.2, List.append_nil]
    · intro p hp
      rw [List.mem_flatMap] at hp
      obtain ⟨x, hx, hp⟩ := hp
      have := hpairs x (hhon x (by rw [e1]; simp [hx])) p hp
      have := hrest x hx
      simp only [decide_eq_true_eq]; omega
    · intro p hp
      rw [List.mem_flatMap] at hp
      obtain ⟨x, hx, hp⟩ := hp
      have := hpairs x (hhon x (hin x hx)) p hp
      have := hch.mem hx
      exact decide_eq_true (by omega)
  have hge := hl.hw_ge
  obtain ⟨old, new, k1, k2, k3⟩ := hl.age m (r.hw.toNat + 1) l rest r.hw e1 hch (Int.le_refl _)
    (by intro b hb; have := h2 b (hin b hb); have := (hhon b (hin b hb)).2.1; omega)
    (by
      rcases hstop with h3 | ⟨b, hb, h4, h5⟩
      · exact .inl h3
      · refine .inr ⟨b, ?_, h5⟩
        rw [e1, List.mem_append] at hb
        rcases hb with hb | hb
        · exact hb
        · have := hrest b hb
          have := (hhon b (by rw [e1]; simp [hb])).1
          unfold Stored.last at h4
          omega)
    (by omega)
  have hold : (old.flatMap Stored.pairs).filter (fun p => decide (m ≤ ts p.2)) = [] := by
    rw [List.filter_eq_nil_iff]
    intro p hp
    rw [List.mem_flatMap] at hp
    obtain ⟨x, hx, hp⟩ := hp
    have hxr : x ∈ r.batches := hin x (by rw [k1]; simp [hx])
    have h3 := hts x hxr p.2 (hpairs x (hhon x hxr) p hp).2.2
    have hne : old ≠ [] := by rintro rfl; cases hx
    have h4 := k2 (old.getLast hne) (List.getLast?_eq_some_getLast hne)
    have h5 : maxTsOf x.bytes ≤ maxTsOf (old.getLast hne).bytes := by
      obtain ⟨init, b, rfl⟩ : ∃ init b, old = init ++ [b] := by
        exact ⟨old.dropLast, old.getLast hne, (List.dropLast_concat_getLast hne).symm⟩
      rw [List.getLast_concat]
      rw [e1, k1] at hmono
      simp only [List.map_append, List.append_assoc, List.pairwise_append, List.map_cons, List.map_nil] at hmono
      rw [List.mem_append, List.mem_singleton] at hx
      rcases hx with hx | rfl
      · exact hmono.2.2 _ (List.mem_map_of_mem hx) _ (by simp)
      · exact Int.le_refl _
    simp only [decide_eq_true_eq]
    omega
  simp only [lookback, Nat.lt_irrefl, if_false, readBatchesByAge, k3, wanted]
  show Except.ok ((recordItems (new.map Stored.view)).filter _) = _
  rw [recordItems_view fun x hx => hhon x (hin x (by rw [k1]; simp [hx])), hcomm, k1, List.flatMap_append,
    List.filter_append, hold, List.nil_append]

/-! Concrete cases: a record is a byte, which is also its timestamp. -/

/-- A batch as a producer sends it: the maximal timestamp is that of the last record. -/
def agedBatch (l : List UInt8) : SBatch UInt8 :=
  ofRaw ⟨0#64, 0#32, { BatchHeader.default with
    lastOffsetDelta := BitVec.ofNat 32 (l.length - 1), maxTimestamp := BitVec.ofNat 64 (l.getLast?.getD 0).toNat },
    0#32, l⟩ l

def byteTs (v : UInt8) : Int := v.toNat

theorem agedBatch_ok {l : List UInt8} (h : (l.length : Int) = (BitVec.ofNat 32 (l.length - 1)).toInt + 1)
    (h0 : l ≠ []) (h1 : l.length < 1000) :
    HonestBatch (agedBatch l) ∧ RawBatch (agedBatch l) ∧ ∀ e, byteRd ((agedBatch l).enc e) = (agedBatch l).records := by
  refine ⟨ofRaw_honest (show BatchHeader.default.hasSchema = false by decide) h h0, ⟨_, rfl, rfl, ?_⟩, fun e => ?_⟩
  · unfold calcBatchLen
    split
    · show 45 + l.length + 4 < 2 ^ 31; omega
    · show 45 + l.length < 2 ^ 31; omega
  · show (encBatch rawC _).drop 57 = l
    unfold encBatch batchBody
    simp only [← List.append_assoc]
    exact List.drop_left' (by simp [intEnc_length, BatchHeader.hasSchema, BatchHeader.default])

def agedOps : List (Op UInt8) := [Op.write [agedBatch [1, 2], agedBatch [3, 4]] true none,
  Op.write [agedBatch [5, 6]] false none]

theorem agedOps_opened : OpenedL clientCfg byteRd agedOps where
  seg := by decide
  honest := by
    intro op ho
    simp only [agedOps, List.mem_cons, List.not_mem_nil, or_false] at ho
    rcases ho with rfl | rfl
    · intro b hb
      simp only [List.mem_cons, List.not_mem_nil, or_false] at hb
      rcases hb with rfl | rfl
      · exact (agedBatch_ok (by decide) (by simp) (by decide)).1
      · exact (agedBatch_ok (by decide) (by simp) (by decide)).1
    · intro b hb
      simp only [List.mem_cons, List.not_mem_nil, or_false] at hb
      subst hb
      exact (agedBatch_ok (by decide) (by simp) (by decide)).1
  noTtl := by
    intro op ho e
    simp only [agedOps, List.mem_cons, List.not_mem_nil, or_false] at ho
    rcases ho with rfl | rfl <;> simp
  all := by
    intro op ho
    simp only [agedOps, List.mem_cons, List.not_mem_nil, or_false] at ho
    rcases ho with rfl | rfl
    · intro b hb
      simp only [List.mem_cons, List.not_mem_nil, or_false] at hb
      rcases hb with rfl | rfl
      · exact (agedBatch_ok (by decide) (by simp) (by decide)).2
      · exact (agedBatch_ok (by decide) (by simp) (by decide)).2
    · intro b hb
      simp only [List.mem_cons, List.not_mem_nil, or_false] at hb
      subst hb
      exact (agedBatch_ok (by decide) (by simp) (by decide)).2
  hw_ge := by decide +kernel
  hw_le := by decide +kernel
  hw_at := by
    have : ∀ b ∈ (Replica.init.run clientCfg agedOps).1.batches.map (fun b => (b.base, b.last)),
        b.1 < (Replica.init.run clientCfg agedOps).1.hw → b.2 < (Replica.init.run clientCfg agedOps).1.hw := by
      decide +kernel
    intro b hb
    exact this (b.base, b.last) (List.mem_map_of_mem hb)
  leo := by decide +kernel

/-- offsets 0–3 are committed, 4 and 5 are not -/
example : lookback byteRd byteTs (Replica.init.run clientCfg agedOps).1 (.last 3) = .ok [(1, 2), (2, 3), (3, 4)] := by
  decide +kernel

example : lookback byteRd byteTs (Replica.init.run clientCfg agedOps).1 (.age 2 3) = .ok [(1, 2), (2, 3), (3, 4)] ∧
    lookback byteRd byteTs (Replica.init.run clientCfg agedOps).1 (.age 4 3) = .ok [(3, 4)] := by
  decide +kernel

/-- the hypotheses of `C56_age_partial` -/
example : ((Replica.init.run clientCfg agedOps).1.batches.map fun b => maxTsOf b.bytes).Pairwise (· ≤ ·) ∧
    (∀ b ∈ (Replica.init.run clientCfg agedOps).1.batches.map fun b => b.batch.records, 2 ≤ b.length) ∧
    (∀ b ∈ (Replica.init.run clientCfg agedOps).1.batches.map (fun b => (b.batch.records, maxTsOf b.bytes)),
      ∀ v ∈ b.1, byteTs v ≤ b.2) ∧ (Replica.init.run clientCfg agedOps).1.logStart = 0 ∧
    lookback byteRd byteTs (Replica.init.run clientCfg agedOps).1 (.age 2 0) = .ok [(1, 2), (2, 3), (3, 4)] ∧
    lookback byteRd byteTs (Replica.init.run clientCfg agedOps).1 (.age 4 0) = .ok [(3, 4)] := by
  decide +kernel

/-- A look-back at the last 3 records of 5, all committed; the last one is in a new segment and is not
shown.  (One read returns at most the rest of one segment — context.rs:162-177, replica.rs:339-403.) -/
theorem C56_violated_segment :
    let r := ((Replica.init : Replica UInt8).run byteCfg
      [.write [agedBatch [1, 2], agedBatch [3, 4]] true none, .write [agedBatch [5]] true none]).1
    r.hw = 5 ∧ wanted byteTs r (.last 3) = [(2, 3), (3, 4), (4, 5)] ∧
    lookback byteRd byteTs r (.last 3) = .ok [(2, 3), (3, 4)] := by decide +kernel

/-- Batches with one record each, all recent: every second one is skipped, the newest among them.  (The
loop reads at `offset - 1`, where `offset` is already the last offset of the batch it is looking for —
context.rs:211, 218.) -/
theorem C56_violated_single_record :
    let r := ((Replica.init : Replica UInt8).run clientCfg
      [.write [agedBatch [1], agedBatch [2], agedBatch [3], agedBatch [4], agedBatch [5]] true none]).1
    r.hw = 5 ∧ wanted byteTs r (.age 3 0) = [(2, 3), (3, 4), (4, 5)] ∧
    lookback byteRd byteTs r (.age 3 0) = .ok [(3, 4)] := by decide +kernel

/-- A partition with one committed record: the look-back fails (it reads at offset -1). -/
theorem C56_violated_first_record :
    let r := ((Replica.init : Replica UInt8).run clientCfg [.write [agedBatch [1]] true none]).1
    r.hw = 1 ∧ wanted byteTs r (.age 0 0) = [(0, 1)] ∧
    lookback byteRd byteTs r (.age 0 0) = .error (.evicted 0) := by decide +kernel

/-- After retention has removed the oldest segment, the look-back fails although all wanted records are
there: it goes on below the log start. -/
theorem C56_violated_retention :
    let r := ((Replica.init : Replica UInt8).run { byteCfg with partMax := 200 }
      [.write [agedBatch [1, 2], agedBatch [3, 4]] true none, .write [agedBatch [5, 6]] true none,
       .write [agedBatch [7, 8]] true none, .write [agedBatch [9, 10]] true none, .cleanSize]).1
    r.logStart = 4 ∧ r.hw = 10 ∧
    wanted byteTs r (.age 5 0) = [(4, 5), (5, 6), (6, 7), (7, 8), (8, 9), (9, 10)] ∧
    lookback byteRd byteTs r (.age 5 0) = .error (.evicted 4) ∧
    lookback byteRd byteTs r (.age 7 0) = .ok [(6, 7), (7, 8), (8, 9), (9, 10)] := by decide +kernel

end Verif.Props
