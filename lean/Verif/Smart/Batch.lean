import Verif.Smart.Chain
import Verif.Stream.Filter

/-!
# Batches and SmartModule chains (`fluvio-spu/src/smartengine/batch.rs`)

`Verif.Stream.Filter` has the same loop for one filter that cannot fail; here any chain is run.
-/

namespace Verif.Smart
open Verif.Stream (FileB)

variable {μ B ε : Type}

/-- `SmartModuleInputBatch` — batch.rs:17-29, implemented by produce_batch.rs:21-42 and file_batch.rs:
base offset, last offset delta, first timestamp, decoded records. -/
structure InBatch (B : Type) where
  base : Int
  delta : Int
  ts : Int
  recs : List (Rec B)

/-- `Batch<MemoryRecords>` as filled by `process_batch`: the rest of its header is the default one, except
for the compression (fluvio-protocol/src/record/batch.rs:490-505: no timestamps). -/
structure OutBatch (B : Type) where
  base : Int
  delta : Int
  recs : List (Rec B)

/-- `add_base_offset` — fluvio-protocol/src/record/data.rs:451-454 -/
def Rec.addBase (k : Int) (r : Rec B) : Rec B := { r with delta := r.delta + k }

/-- Does the output exceed the limit?  `none` is `usize::MAX`, which data in memory cannot exceed. -/
def exceeds (n : Nat) : Option Nat → Bool
  | none => false
  | some m => decide (m < n)

/-- The loop of `process_batch` — batch.rs:53-133; `size` is the encoded size of records.  Result: the chain,
and the output batch with the error of a user function; or none if the chain fails. -/
def smLoop (size : List (Rec B) → Nat) (max : Option Nat) :
    List (Inst μ B ε) → OutBatch B → Nat → List (InBatch B) →
    List (Inst μ B ε) × Option (OutBatch B × Option (ε × Int))
  | c, o, _, [] => (c, some (o, none))
  | c, o, total, b :: l =>
    match chainProcess b.base c b.recs with
    | (c', none) => (c', none)
    | (c', some out) =>
      if out.successes.isEmpty then
        let o' := if o.base = -1 then o else { o with delta := o.delta + (b.delta + 1) }
        match out.error with
        | some e => (c', some (o', some e))
        | none => smLoop size max c' o' total l
      else
        let base := if o.base = -1 then b.base else o.base
        let recs := out.successes.map (Rec.addBase (base - b.base))
        if exceeds (total + size recs) max then (c', some ({ o with base := base }, out.error))
        else
          let o' : OutBatch B := ⟨base, if base = -1 then o.delta else o.delta + (b.delta + 1), o.recs ++ recs⟩
          match out.error with
          | some e => (c', some (o', some e))
          | none => smLoop size max c' o' (total + size recs) l

/-- `process_batch` — batch.rs:41-51 -/
def smBatch (size : List (Rec B) → Nat) (max : Option Nat) (c : List (Inst μ B ε)) (l : List (InBatch B)) :
    List (Inst μ B ε) × Option (OutBatch B × Option (ε × Int)) := smLoop size max c ⟨-1, -1, []⟩ 0 l

/-- Key and value of a record. -/
def Rec.kv (r : Rec B) : Option B × B := (r.key, r.val)

/-- The records of batches, one after the other. -/
def allRecs (l : List (InBatch B)) : List (Rec B) := l.flatMap (·.recs)

/-- How many offsets batches cover. -/
def span (l : List (InBatch B)) : Int := (l.map fun b => b.delta + 1).sum

theorem addBase_kv (k : Int) (l : List (Rec B)) : (l.map (Rec.addBase k)).map Rec.kv = l.map Rec.kv := by
  rw [List.map_map]; rfl

/-- What the loop does when no user function fails on the batches. -/
structure LoopOk (max : Option Nat) (c : List (Inst μ B ε)) (o : OutBatch B) (l : List (InBatch B))
    (c' : List (Inst μ B ε)) (o' : OutBatch B) (taken rest : List (InBatch B)) : Prop where
  split : l = taken ++ rest
  recs : ∃ c1 out, feed c (allRecs taken) = some (c1, out) ∧ o'.recs.map Rec.kv = o.recs.map Rec.kv ++ out.map Rec.kv ∧
    (o.base ≠ -1 → o'.base = o.base ∧ o'.delta = o.delta + span taken) ∧
    (o.base = -1 → out = [] ∧ o'.delta = o.delta ∧ (rest = [] → o'.base = -1) ∨
      ∃ pre b post, taken = pre ++ b :: post ∧ o'.base = b.base ∧ o'.delta = o.delta + span (b :: post) ∧
        ∃ c2, feed c (allRecs pre) = some (c2, [])) ∧
    (rest = [] ∧ c' = c1 ∨
      max ≠ none ∧ ∃ b rest' out', rest = b :: rest' ∧ feed c1 b.recs = some (c', out') ∧ out' ≠ [])

theorem smLoop_ok (size : List (Rec B) → Nat) (max : Option Nat) : ∀ (l : List (InBatch B)) (c : List (Inst μ B ε))
    (o : OutBatch B) (total : Nat), (∀ b ∈ l, b.base ≠ -1) → (feed c (allRecs l)).isSome →
    ∃ c' o' taken rest, smLoop size max c o total l = (c', some (o', none)) ∧ LoopOk max c o l c' o' taken rest := by
  intro l
  induction l with
  | nil =>
    intro c o total _ _
    refine ⟨c, o, [], [], rfl, rfl, c, [], ?_, by simp, fun _ => ⟨rfl, by simp [span]⟩, fun h => .inl ⟨rfl, rfl, fun _ => h⟩,
      .inl ⟨rfl, rfl⟩⟩
    simp [allRecs, feed, feedAll]
  | cons b l ih =>
    intro c o total hb hf
    have hall : allRecs (b :: l) = b.recs ++ allRecs l := by simp [allRecs]
    rw [hall, feed_append] at hf
    cases h1 : feed c b.recs with
    | none => rw [h1] at hf; cases hf
    | some x =>
      obtain ⟨c1, o1⟩ := x
      rw [h1, Option.bind_some] at hf
      have hf' : (feed c1 (allRecs l)).isSome := by
        cases h2 : feed c1 (allRecs l) with
        | none => rw [h2] at hf; cases hf
        | some _ => rfl
      have hbb := hb b (by simp)
      have hcons : ∀ t, allRecs (b :: t) = b.recs ++ allRecs t := by intro t; simp [allRecs]
      have hspan : ∀ t, span (b :: t) = (b.delta + 1) + span t := by intro t; simp [span]
      have happ : ∀ t c2 out2, feed c1 (allRecs t) = some (c2, out2) →
          feed c (allRecs (b :: t)) = some (c2, o1 ++ out2) := by
        intro t c2 out2 h; rw [hcons, feed_append, h1, Option.bind_some, h]; rfl
      unfold smLoop
      rw [chainProcess_ok c b.base b.recs c1 o1 h1]
      dsimp only
      by_cases hemp : o1.isEmpty = true
      · rw [if_pos hemp]
        have ho1 : o1 = [] := List.isEmpty_iff.1 hemp
        subst ho1
        by_cases hob : o.base = -1
        · rw [if_pos hob]
          obtain ⟨c', o', t, r, e1, e2, c2, out, f1, f2, f3, f4, f5⟩ := ih c1 o total
            (fun y hy => hb y (by simp [hy])) hf'
          refine ⟨c', o', b :: t, r, e1, by rw [e2]; rfl, c2, out, happ t c2 out f1, f2, fun h => absurd hob h, ?_, f5⟩
          intro _
          rcases f4 hob with h | ⟨pre, y, post, g1, g2, g3, c3, g4⟩
          · exact .inl h
          · exact .inr ⟨b :: pre, y, post, by rw [g1]; rfl, g2, g3, c3, happ pre c3 [] g4⟩
        · rw [if_neg hob]
          obtain ⟨c', o', t, r, e1, e2, c2, out, f1, f2, f3, f4, f5⟩ := ih c1 { o with delta := o.delta + (b.delta + 1) }
            total (fun y hy => hb y (by simp [hy])) hf'
          refine ⟨c', o', b :: t, r, e1, by rw [e2]; rfl, c2, out, happ t c2 out f1, f2, fun h => ?_,
            fun h => absurd h hob, f5⟩
          obtain ⟨g1, g2⟩ := f3 h
          exact ⟨g1, by rw [g2, hspan]; dsimp only; omega⟩
      · rw [if_neg hemp]
        have ho1 : o1 ≠ [] := fun h => hemp (List.isEmpty_iff.2 h)
        generalize hbase : (if o.base = -1 then b.base else o.base) = base
        by_cases hx : exceeds (total + size (o1.map (Rec.addBase (base - b.base)))) max = true
        · rw [if_pos hx]
          refine ⟨c1, { o with base := base }, [], b :: l, rfl, rfl, c, [], by simp [allRecs, feed, feedAll], by simp,
            fun h => ⟨by show base = o.base; rw [← hbase, if_neg h], by simp [span]⟩,
            fun h => .inl ⟨rfl, rfl, fun h' => by cases h'⟩,
            .inr ⟨(by intro h; rw [h] at hx; cases hx), b, l, o1, rfl, h1, ho1⟩⟩
        · rw [if_neg hx]
          have hbn : base ≠ -1 := by
            rw [← hbase]; split
            · exact hbb
            · assumption
          rw [if_neg hbn]
          obtain ⟨c', o', t, r, e1, e2, c2, out, f1, f2, f3, f4, f5⟩ := ih c1
            ⟨base, o.delta + (b.delta + 1), o.recs ++ o1.map (Rec.addBase (base - b.base))⟩
            (total + size (o1.map (Rec.addBase (base - b.base)))) (fun y hy => hb y (by simp [hy])) hf'
          obtain ⟨g1, g2⟩ := f3 hbn
          refine ⟨c', o', b :: t, r, e1, by rw [e2]; rfl, c2, o1 ++ out, happ t c2 out f1, ?_, fun h => ?_, fun h => ?_, f5⟩
          · rw [f2]
            simp only [List.map_append, addBase_kv, List.append_assoc]
          · exact ⟨by rw [g1]; show base = o.base; rw [← hbase, if_neg h], by rw [g2, hspan]; dsimp only; omega⟩
          · refine .inr ⟨[], b, t, rfl, by rw [g1]; show base = b.base; rw [← hbase, if_pos h],
              by rw [g2, hspan]; dsimp only; omega, c, ?_⟩
            simp [allRecs, feed, feedAll]

/-- When a user function fails, the loop returns an error (unless it stops before, at the limit). -/
theorem smLoop_fail (size : List (Rec B) → Nat) : ∀ (l : List (InBatch B)) (c : List (Inst μ B ε))
    (o : OutBatch B) (total : Nat), feed c (allRecs l) = none →
    (smLoop size none c o total l).2 = none ∨ ∃ o' e, (smLoop size none c o total l).2 = some (o', some e) := by
  intro l
  induction l with
  | nil => intro c o total h; simp [allRecs, feed, feedAll] at h
  | cons b l ih =>
    intro c o total hf
    have hall : allRecs (b :: l) = b.recs ++ allRecs l := by simp [allRecs]
    rw [hall, feed_append] at hf
    cases h1 : feed c b.recs with
    | none =>
      unfold smLoop
      rcases chainProcess_fail c b.base b.recs h1 with h2 | ⟨out, e, h2⟩
      · generalize chainProcess b.base c b.recs = y at h2
        obtain ⟨y1, y2⟩ := y
        dsimp only at h2
        subst h2
        exact .inl rfl
      · generalize chainProcess b.base c b.recs = y at h2
        obtain ⟨y1, y2⟩ := y
        dsimp only at h2
        subst h2
        dsimp only
        refine .inr ?_
        split
        · exact ⟨_, e, rfl⟩
        · exact ⟨_, e, rfl⟩
    | some x =>
      rw [h1, Option.bind_some] at hf
      have hf' : feed x.1 (allRecs l) = none := by
        cases h2 : feed x.1 (allRecs l) with
        | none => rfl
        | some _ => rw [h2] at hf; cases hf
      unfold smLoop
      rw [chainProcess_ok c b.base b.recs x.1 x.2 h1]
      dsimp only
      split
      · exact ih _ _ _ hf'
      · exact ih _ _ _ hf'

end Verif.Smart
