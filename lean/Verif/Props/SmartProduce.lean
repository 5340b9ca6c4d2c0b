import Verif.Smart.Produce
import Verif.Props.Chain

/-!
# C58: SmartModules on the way into a partition

`feed` (in `Verif.Smart.Chain`) sends records through the chain one at a time; `KeepsCount` and `SentOk`
are in `Verif.Smart.Produce`.
-/

namespace Verif.Props
open Verif.Smart

variable {μ B ε : Type}

/-- The batches of a request are replaced by one with exactly what the chain makes of their records, in
order. -/
theorem C58_stored (c c' : List (Inst μ B ε)) (l : List (InBatch B)) (out : List (Rec B))
    (hl : ∀ b ∈ l, SentOk b) (h : feed c (allRecs l) = some (c', out)) :
    ∃ o, applyChain c l = (c', .batch o) ∧ o.recs.map Rec.kv = out.map Rec.kv :=
  let ⟨o, h1, h2, _⟩ := applyChain_ok hl h
  ⟨o, h1, h2⟩

/-- When a user function fails on any record, nothing of the request is stored. -/
theorem C58_all_or_nothing (x : Leader μ B ε) (l : List (InBatch B)) (io : Bool)
    (h : feed x.chain (allRecs l) = none) :
    (x.write l io).2 = false ∧ (x.write l io).1.log = x.log ∧ (x.write l io).1.leo = x.leo := by
  unfold Leader.write
  rcases applyChain_fail h with h1 | ⟨e, h1⟩ <;>
  · generalize applyChain x.chain l = y at h1
    obtain ⟨y1, y2⟩ := y
    dsimp only at h1
    subst h1
    exact ⟨rfl, rfl, rfl⟩

/-- One write on which nothing fails. -/
theorem write_ok (x : Leader μ B ε) (l : List (InBatch B)) (c' : List (Inst μ B ε)) (out : List (Rec B))
    (hl : ∀ b ∈ l, SentOk b) (h : feed x.chain (allRecs l) = some (c', out)) :
    (x.write l false).2 = true ∧ (x.write l false).1.chain = c' ∧
    (x.write l false).1.pairs.map (·.2) = x.pairs.map (·.2) ++ out.map Rec.kv ∧
    (KeepsCount x.chain → (x.write l false).1.leo = x.leo + out.length ∧
      (x.write l false).1.pairs.map (·.1) = x.pairs.map (·.1) ++ (List.range out.length).map fun k : Nat => x.leo + k) := by
  obtain ⟨o, h1, h2, h3⟩ := applyChain_ok hl h
  unfold Leader.write
  rw [h1]
  dsimp only
  have hlen : o.recs.length = out.length := by simpa using congrArg List.length h2
  by_cases hout : out = []
  · have hrec : o.recs = [] := List.eq_nil_of_length_eq_zero (by rw [hlen, hout]; rfl)
    have : (o.recs.isEmpty || decide (o.recordsLen = 0)) = true := by rw [hrec]; rfl
    rw [if_pos this]
    exact ⟨rfl, rfl, by rw [hout]; simp [Leader.pairs], fun _ => ⟨by rw [hout]; simp, by rw [hout]; simp [Leader.pairs]⟩⟩
  · rcases h3 with ⟨k1, _⟩ | ⟨pre, b, post, c2, k1, k2, k3⟩
    · exact absurd k1 hout
    · have hspan : span (b :: post) = ((allRecs (b :: post)).length : Int) :=
        span_recs fun y hy => hl y (by rw [k1, List.mem_append]; exact .inr hy)
      have hall : allRecs l = allRecs pre ++ allRecs (b :: post) := by rw [k1]; simp [allRecs]
      have hpos : allRecs (b :: post) ≠ [] := by
        intro hn
        rw [hall, hn, List.append_nil, k2] at h
        injection h with h; injection h with _ h
        exact hout h.symm
      have hpos' : 0 < (allRecs (b :: post)).length := List.length_pos_iff.2 hpos
      have hne : (o.recs.isEmpty || decide (o.recordsLen = 0)) = false := by
        rw [Bool.or_eq_false_iff]
        refine ⟨?_, decide_eq_false ?_⟩
        · cases hr : o.recs with
          | nil => rw [hr] at hlen; exact absurd (List.eq_nil_of_length_eq_zero hlen.symm) hout
          | cons _ _ => rfl
        · unfold OutBatch.recordsLen; omega
      rw [if_neg (by rw [hne]; exact Bool.false_ne_true), if_neg Bool.false_ne_true]
      refine ⟨rfl, rfl, ?_, fun hk => ?_⟩
      · simp only [Leader.pairs, List.flatMap_append, List.flatMap_cons, List.flatMap_nil, List.append_nil,
          List.map_append, pairs_values, h2]
      · have hc : o.delta + 1 = (out.length : Int) := by
          have h4 := feed_count x.chain c2 (allRecs pre) [] hk k2
          have h5 := feed_count x.chain c' (allRecs l) out hk h
          rw [hall, List.length_append, ← h4] at h5
          simp only [List.length_nil, Nat.zero_add] at h5
          rw [k3, hspan, h5]
        refine ⟨by show x.leo + (o.delta + 1) = _; rw [hc], ?_⟩
        simp only [Leader.pairs, List.flatMap_append, List.flatMap_cons, List.flatMap_nil, List.append_nil,
          List.map_append]
        congr 1
        unfold OutBatch.pairs
        rw [List.map_map, ← hlen]
        have : ∀ (l : List (Rec B)) (j : Nat),
            (l.zipIdx j).map ((fun p : Int × Option B × B => p.1) ∘ fun p => (x.leo + (p.2 : Int), p.1.kv)) =
              (List.range' j l.length).map fun k : Nat => x.leo + (k : Int) := by
          intro l
          induction l with
          | nil => intro j; rfl
          | cons r l ih => intro j; rw [List.zipIdx_cons, List.map_cons, ih, List.length_cons, List.range'_succ]; rfl
        rw [List.range_eq_range']
        exact this _ 0

theorem take_fn {i i' : Inst μ B ε} {r : Rec B} {o : List (Rec B)} (h : i.take r = some (i', o)) : i'.fn = i.fn := by
  unfold Inst.take at h
  split at h
  · cases h
  · injection h with h; injection h with h _; rw [← h]

theorem feedAll_fn : ∀ (rs : List (Rec B)) (i i' : Inst μ B ε) (o : List (Rec B)),
    feedAll Inst.take i rs = some (i', o) → i'.fn = i.fn
  | [], i, i', o, h => by simp only [feedAll, Option.some.injEq, Prod.mk.injEq] at h; rw [h.1]
  | r :: rs, i, i', o, h => by
    simp only [feedAll] at h
    cases h1 : i.take r with
    | none => rw [h1] at h; cases h
    | some x =>
      rw [h1, Option.bind_some] at h
      cases h2 : feedAll Inst.take x.1 rs with
      | none => rw [h2] at h; cases h
      | some y =>
        rw [h2, Option.map_some] at h
        injection h with h; injection h with h _
        rw [← h, feedAll_fn rs x.1 y.1 y.2 h2, take_fn h1]

theorem feed_keeps : ∀ (c c' : List (Inst μ B ε)) (rs o : List (Rec B)), feed c rs = some (c', o) →
    KeepsCount c → KeepsCount c'
  | [], c', rs, o, h, _ => by
    rw [feed_nil] at h
    injection h with h; injection h with h _
    rw [← h]; trivial
  | i :: l, c', rs, o, h, hk => by
    rw [feed_cons] at h
    cases h1 : feedAll Inst.take i rs with
    | none => rw [h1] at h; cases h
    | some x =>
      rw [h1, Option.bind_some] at h
      cases h2 : feed l x.2 with
      | none => rw [h2] at h; cases h
      | some y =>
        rw [h2, Option.map_some] at h
        injection h with h; injection h with h _
        rw [← h]
        exact ⟨by rw [feedAll_fn rs i x.1 x.2 h1]; exact hk.1, feed_keeps l y.1 x.2 y.2 h2 hk.2⟩

/-- A leader with a chain (deduplication): after any writes of which none fails, the log has exactly what
the chain makes of all records offered, each once and in order.  If every module makes one record of each
record, they have the offsets 0, 1, 2, …

Missing: with other chains offsets are skipped or used twice, see `C58_violated_gap`,
`C58_violated_overlap`; after a failed write the chain has seen records that are not stored, see
`C58_violated_failed_write`; timestamps are lost, see `C58_violated_timestamps`. -/
theorem C58_leader_partial (c c' : List (Inst μ B ε)) (ws : List (List (InBatch B))) (out : List (Rec B))
    (hl : ∀ l ∈ ws, ∀ b ∈ l, SentOk b) (h : feed c (ws.flatMap allRecs) = some (c', out)) :
    let x := (⟨c, [], 0⟩ : Leader μ B ε).run (ws.map fun l => (l, false))
    x.chain = c' ∧ x.pairs.map (·.2) = out.map Rec.kv ∧
    (KeepsCount c → x.leo = out.length ∧ x.pairs.map (·.1) = (List.range out.length).map fun k : Nat => (k : Int)) := by
  suffices H : ∀ (ws : List (List (InBatch B))) (x : Leader μ B ε) (c' : List (Inst μ B ε)) (out : List (Rec B)),
      (∀ l ∈ ws, ∀ b ∈ l, SentOk b) → feed x.chain (ws.flatMap allRecs) = some (c', out) →
      (x.run (ws.map fun l => (l, false))).chain = c' ∧
      (x.run (ws.map fun l => (l, false))).pairs.map (·.2) = x.pairs.map (·.2) ++ out.map Rec.kv ∧
      (KeepsCount x.chain → (x.run (ws.map fun l => (l, false))).leo = x.leo + out.length ∧
        (x.run (ws.map fun l => (l, false))).pairs.map (·.1) =
          x.pairs.map (·.1) ++ (List.range out.length).map fun k : Nat => x.leo + k) by
    obtain ⟨k1, k2, k3⟩ := H ws ⟨c, [], 0⟩ c' out hl h
    refine ⟨k1, k2, fun hk => ?_⟩
    obtain ⟨k4, k5⟩ := k3 hk
    refine ⟨by rw [k4]; show (0 : Int) + _ = _; omega, ?_⟩
    rw [k5]
    show [] ++ (List.range out.length).map (fun k : Nat => (0 : Int) + k) = _
    rw [List.nil_append]
    exact List.map_congr_left fun k _ => Int.zero_add _
  clear hl h
  intro ws
  induction ws with
  | nil =>
    intro x c' out _ h
    simp only [List.flatMap_nil, feed, feedAll] at h
    injection h with h; injection h with h1 h2
    subst h1 h2
    exact ⟨rfl, by simp [Leader.run], fun _ => ⟨by simp [Leader.run], by simp [Leader.run]⟩⟩
  | cons l ws ih =>
    intro x c' out hl h
    rw [List.flatMap_cons, feed_append] at h
    cases h1 : feed x.chain (allRecs l) with
    | none => rw [h1] at h; cases h
    | some y =>
      rw [h1, Option.bind_some] at h
      cases h2 : feed y.1 (ws.flatMap allRecs) with
      | none => rw [h2] at h; cases h
      | some z =>
        rw [h2, Option.map_some] at h
        injection h with h; injection h with h3 h4
        subst h3 h4
        obtain ⟨_, e2, e3, e4⟩ := write_ok x l y.1 y.2 (hl l (by simp)) h1
        obtain ⟨f1, f2, f3⟩ := ih (x.write l false).1 z.1 z.2 (fun l' hl' => hl l' (by simp [hl'])) (by rw [e2]; exact h2)
        have hrun : x.run ((l :: ws).map fun l => (l, false)) = (x.write l false).1.run (ws.map fun l => (l, false)) := rfl
        rw [hrun]
        refine ⟨f1, by rw [f2, e3, List.map_append, List.append_assoc], fun hk => ?_⟩
        obtain ⟨g1, g2⟩ := e4 hk
        obtain ⟨g3, g4⟩ := f3 (by rw [e2]; exact feed_keeps x.chain y.1 (allRecs l) y.2 h1 hk)
        refine ⟨by rw [g3, g1, List.length_append]; omega, ?_⟩
        rw [g4, g2, g1, List.append_assoc, List.length_append, List.range_add, List.map_append, List.map_map]
        congr 2
        apply List.map_congr_left
        intro k _
        show x.leo + (y.2.length : Int) + (k : Int) = x.leo + ((y.2.length + k : Nat) : Int)
        omega

/-! Concrete cases -/

/-- a batch of a producer: base offset 0, first timestamp 1000 -/
def sent (l : List Nat) : InBatch Nat := ⟨0, l.length - 1, 1000, numRecs l⟩

theorem sent_ok (l : List Nat) : SentOk (sent l) := ⟨Int.le_refl 0, by simp [sent, numRecs]⟩

/-- remembers what it has seen and passes only new values -/
def dedup : Inst (List Nat) Nat Nat :=
  ⟨.filter fun m r => (r.val :: m, .ok (!m.contains r.val)), [], 0⟩

/-- three requests through a deduplication filter -/
example : ((⟨[dedup], [], 0⟩ : Leader _ _ _).run [([sent [1, 2, 1]], false), ([sent [2]], false), ([sent [3, 1]], false)]).pairs.map
      (·.2.2) = [1, 2, 3] ∧
    ((feed [dedup] ([[sent [1, 2, 1]], [sent [2]], [sent [3, 1]]].flatMap allRecs)).map fun x => x.2.map (·.val)) =
      some [1, 2, 3] := by decide

/-- a chain of an aggregate and a map keeps the count -/
example : KeepsCount [adding, doubleBut 999] ∧
    ((⟨[adding, doubleBut 999], [], 0⟩ : Leader _ _ _).run [([sent [1, 2], sent [3]], false), ([sent [4]], false)]).pairs =
      [(0, none, 202), (1, none, 206), (2, none, 212), (3, none, 220)] := by
  refine ⟨⟨trivial, trivial, trivial⟩, by decide⟩

/-- a record on which the chain fails -/
example : feed [doubleBut 3] (allRecs [sent [1, 3]]) = none := by rfl

/-- A filter drops two of three records: the partition's end moves by three, and offsets 1 and 2 are
never used.  (The last offset delta counts the records of the input — batch.rs:118-124.) -/
theorem C58_violated_gap :
    let x := (⟨[evens], [], 0⟩ : Leader _ _ _).run [([sent [2, 1, 3]], false), ([sent [4]], false)]
    x.leo = 4 ∧ x.pairs = [(0, none, 2), (3, none, 4)] := by decide

/-- An array map makes two records of one: the next record written has the offset of the second. -/
theorem C58_violated_overlap :
    let split : Inst Nat Nat Nat := ⟨pureArrayMap fun r => [(none, r.val), (none, r.val + 1)], 0, 0⟩
    let x := (⟨[split], [], 0⟩ : Leader _ _ _).run [([sent [10]], false), ([sent [20]], false)]
    x.leo = 2 ∧ x.pairs = [(0, none, 10), (1, none, 11), (1, none, 20), (2, none, 21)] := by decide

/-- A deduplication filter, and a storage that fails once: the producer is told so and sends the record
again; the second write succeeds, but the record is not stored: the filter has seen it.
(replica_state.rs:346-351: `transform` runs before the storage is written.) -/
theorem C58_violated_failed_write :
    let x : Leader _ _ _ := ⟨[dedup], [], 0⟩
    let y := x.write [sent [7]] true
    let z := y.1.write [sent [7]] false
    y.2 = false ∧ z.2 = true ∧ z.1.pairs = [] := by decide

/-- Records lose their timestamp on the way through any chain; hence a look-back by age, which a
deduplication filter needs when the leader starts again, shows it none of them. -/
theorem C58_violated_timestamps (c c' : List (Inst μ B ε)) (l : List (InBatch B)) (o : OutBatch B)
    (_ : applyChain c l = (c', .batch o)) :
    (∀ r ∈ o.recs, recTs o.ts r = -1) ∧ ∀ m : Int, 0 ≤ m → o.recs.filter (fun r => decide (m ≤ recTs o.ts r)) = [] := by
  have h : ∀ r : Rec B, recTs o.ts r = -1 := fun r => rfl
  refine ⟨fun r _ => h r, fun m hm => ?_⟩
  rw [List.filter_eq_nil_iff]
  intro r _
  rw [h r, decide_eq_true_eq]
  omega

/-- the records had timestamps -/
example : (sent [1, 2]).recs.map (recTs (sent [1, 2]).ts) = [1000, 1000] ∧
    ∃ c' o, applyChain [dedup] [sent [1, 2]] = (c', .batch o) ∧ o.recs.length = 2 := ⟨rfl, _, _, rfl, rfl⟩

end Verif.Props
