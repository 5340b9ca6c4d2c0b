import Verif.Smart.Chain

/-!
# C57: what a chain of SmartModules computes

`feed` (in `Verif.Smart.Chain`) sends records through the chain one at a time: each record passes all
modules before the next one enters; it is `none` when some user function fails.
-/

namespace Verif.Props
open Verif.Smart

variable {μ B ε : Type}

/-- Without errors a chain does to a batch exactly what it does to the records one after the other: same
output, same memory and accumulators afterwards. -/
theorem C57_record_by_record (c c' : List (Inst μ B ε)) (base : Int) (rs o : List (Rec B)) :
    chainProcess base c rs = (c', some ⟨o, none⟩) ↔ feed c rs = some (c', o) := by
  refine ⟨fun h => ?_, chainProcess_ok c base rs c' o⟩
  cases hf : feed c rs with
  | none =>
    rcases chainProcess_fail c base rs hf with h1 | ⟨o', e, h1⟩
    · rw [h] at h1; cases h1
    · rw [h] at h1; cases h1
  | some x =>
    rw [chainProcess_ok c base rs x.1 x.2 hf] at h
    injection h with h1 h2
    injection h2 with h2
    injection h2 with h2 _
    rw [← h1, ← h2]

/-- Hence the way records are cut into batches does not matter: two batches are processed one after the
other as their concatenation is. -/
theorem C57_batches (c c' : List (Inst μ B ε)) (b b1 b2 : Int) (l m o : List (Rec B)) :
    chainProcess b c (l ++ m) = (c', some ⟨o, none⟩) ↔
    ∃ c1 o1 o2, chainProcess b1 c l = (c1, some ⟨o1, none⟩) ∧ chainProcess b2 c1 m = (c', some ⟨o2, none⟩) ∧
      o = o1 ++ o2 := by
  simp only [C57_record_by_record, feed_append]
  constructor
  · intro h
    cases h1 : feed c l with
    | none => rw [h1] at h; cases h
    | some x =>
      rw [h1, Option.bind_some] at h
      cases h2 : feed x.1 m with
      | none => rw [h2] at h; cases h
      | some y =>
        rw [h2, Option.map_some] at h
        injection h with h
        injection h with h3 h4
        subst h3
        exact ⟨x.1, x.2, y.2, rfl, h2, h4.symm⟩
  · rintro ⟨c1, o1, o2, h1, h2, rfl⟩
    rw [h1, Option.bind_some, h2]
    rfl

/-- A module whose function does not fail and keeps no state. -/
def pureFilter (p : Rec B → Bool) : Fn μ B ε := .filter fun m r => (m, .ok (p r))
def pureMap (f : Rec B → Option B × B) : Fn μ B ε := .map fun m r => (m, .ok (f r))
def pureFilterMap (f : Rec B → Option (Option B × B)) : Fn μ B ε := .filterMap fun m r => (m, .ok (f r))
def pureArrayMap (f : Rec B → List (Option B × B)) : Fn μ B ε := .arrayMap fun m r => (m, .ok (f r))
def pureAggregate (f : B → Rec B → B) : Fn μ B ε := .aggregate fun m a r => (m, .ok (f a r))

/-- A stateless module. -/
theorem stateless {i : Inst μ B ε} {g : Rec B → List (Rec B)} (h : ∀ r, i.take r = some (i, g r)) (base : Int)
    (rs : List (Rec B)) : chainProcess base [i] rs = ([i], some ⟨rs.flatMap g, none⟩) := by
  rw [C57_record_by_record, feed_single]
  suffices feedAll Inst.take i rs = some (i, rs.flatMap g) by rw [this]; rfl
  induction rs with
  | nil => rfl
  | cons r rs ih => simp only [feedAll, h, Option.bind_some, ih, Option.map_some, List.flatMap_cons]

/-- What the kinds of modules do with a batch. -/
theorem C57_kinds (m : μ) (a : B) (base : Int) (rs : List (Rec B)) :
    (∀ p, chainProcess base [(⟨pureFilter p, m, a⟩ : Inst μ B ε)] rs =
      ([⟨pureFilter p, m, a⟩], some ⟨rs.filter p, none⟩)) ∧
    (∀ f, chainProcess base [(⟨pureMap f, m, a⟩ : Inst μ B ε)] rs =
      ([⟨pureMap f, m, a⟩], some ⟨rs.map fun r => { r with key := (f r).1, val := (f r).2 }, none⟩)) ∧
    (∀ f, chainProcess base [(⟨pureFilterMap f, m, a⟩ : Inst μ B ε)] rs =
      ([⟨pureFilterMap f, m, a⟩],
        some ⟨rs.filterMap fun r => (f r).map fun kv => { r with key := kv.1, val := kv.2 }, none⟩)) ∧
    (∀ f, chainProcess base [(⟨pureArrayMap f, m, a⟩ : Inst μ B ε)] rs =
      ([⟨pureArrayMap f, m, a⟩], some ⟨rs.flatMap fun r => (f r).map fun kv => ⟨0, 0, kv.1, kv.2⟩, none⟩)) := by
  refine ⟨fun p => ?_, fun f => ?_, fun f => ?_, fun f => ?_⟩
  · rw [stateless (g := fun r => if p r then [r] else []) (fun r => rfl)]
    refine congrArg (fun x => (_, some (Output.mk x none))) ?_
    induction rs with
    | nil => rfl
    | cons r rs ih => rw [List.flatMap_cons, ih, List.filter_cons]; cases p r <;> rfl
  · rw [stateless (g := fun r => [{ r with key := (f r).1, val := (f r).2 }]) (fun r => rfl)]
    refine congrArg (fun x => (_, some (Output.mk x none))) ?_
    induction rs with
    | nil => rfl
    | cons r rs ih => rw [List.flatMap_cons, ih, List.map_cons]; rfl
  · rw [stateless (g := fun r => ((f r).map fun kv => ({ r with key := kv.1, val := kv.2 } : Rec B)).toList)
      (fun r => by simp only [Inst.take, pureFilterMap, Fn.apply, Except.map]; cases f r <;> rfl)]
    refine congrArg (fun x => (_, some (Output.mk x none))) ?_
    induction rs with
    | nil => rfl
    | cons r rs ih => rw [List.flatMap_cons, ih, List.filterMap_cons]; cases f r <;> rfl
  · rw [stateless (g := fun r => (f r).map fun kv => ⟨0, 0, kv.1, kv.2⟩) (fun r => rfl)]

/-- An aggregate replaces the `k`-th value by the accumulation of the first `k` records, counted from the
accumulator it was started with; the next batch goes on from the last value. -/
theorem C57_aggregate (f : B → Rec B → B) (m : μ) (a : B) (base : Int) (rs : List (Rec B)) :
    ∃ o, chainProcess base [(⟨pureAggregate f, m, a⟩ : Inst μ B ε)] rs =
      ([⟨pureAggregate f, m, rs.foldl f a⟩], some ⟨o, none⟩) ∧ o.length = rs.length ∧
      ∀ k (h : k < o.length) (h' : k < rs.length), o[k] = { rs[k] with val := (rs.take (k + 1)).foldl f a } := by
  simp only [C57_record_by_record, feed_single]
  suffices ∃ o, feedAll Inst.take (⟨pureAggregate f, m, a⟩ : Inst μ B ε) rs =
      some (⟨pureAggregate f, m, rs.foldl f a⟩, o) ∧ o.length = rs.length ∧
      ∀ k (h : k < o.length) (h' : k < rs.length), o[k] = { rs[k] with val := (rs.take (k + 1)).foldl f a } by
    obtain ⟨o, h1, h2, h3⟩ := this
    exact ⟨o, by rw [h1]; rfl, h2, h3⟩
  induction rs generalizing a with
  | nil => exact ⟨[], rfl, rfl, fun k h => absurd h (Nat.not_lt_zero _)⟩
  | cons r rs ih =>
    obtain ⟨o, h1, h2, h3⟩ := ih (f a r)
    have ht : Inst.take (⟨pureAggregate f, m, a⟩ : Inst μ B ε) r =
      some (⟨pureAggregate f, m, f a r⟩, [{ r with val := f a r }]) := rfl
    refine ⟨{ r with val := f a r } :: o, ?_, by simp [h2], ?_⟩
    · simp only [feedAll, ht, Option.bind_some, h1]; rfl
    · intro k hk hk'
      cases k with
      | zero => rfl
      | succ k => exact h3 k (Nat.lt_of_succ_lt_succ hk) (Nat.lt_of_succ_lt_succ hk')

/-- When something fails: there is a first module that fails, at its first record that fails.  The modules
before it have processed the whole batch; the result is its output for the records before, with an error
that names the record, or nothing if the guest was aborted. -/
theorem C57_failure (c : List (Inst μ B ε)) (base : Int) (rs : List (Rec B)) (h : feed c rs = none) :
    ∃ before i after before' mid pre r post i' o e, c = before ++ i :: after ∧
      feed before rs = some (before', mid) ∧ mid = pre ++ r :: post ∧
      feed [i] pre = some ([i'], o) ∧ (i.fn.apply i'.mem i'.acc r).2 = .error e ∧
      (chainProcess base c rs).2 = match e with
        | .trap => none
        | .err e => some ⟨o, some (e, base + r.delta)⟩ := by
  induction c generalizing rs with
  | nil => rw [feed_nil] at h; cases h
  | cons i l ih =>
    rw [feed_cons] at h
    cases h1 : feedAll Inst.take i rs with
    | none =>
      obtain ⟨pre, r, post, i', o, e, k1, k2, k3, k4⟩ := process_fail h1 base
      refine ⟨[], i, l, [], rs, pre, r, post, i', o, e, rfl, feed_nil rs, k1, ?_, k3, ?_⟩
      · rw [feed_single, k2]; rfl
      · rw [chainProcess_cons_fail l base h1, k4]
        cases e <;> rfl
    | some x =>
      rw [h1, Option.bind_some] at h
      have h2 : feed l x.2 = none := by
        cases h2 : feed l x.2 with
        | none => rfl
        | some y => rw [h2] at h; cases h
      obtain ⟨before, j, after, before', mid, pre, r, post, i', o, e, k1, k2, k3, k4, k5, k6⟩ := ih x.2 h2
      refine ⟨i :: before, j, after, x.1 :: before', mid, pre, r, post, i', o, e, by rw [k1]; rfl, ?_, k3, k4, k5, ?_⟩
      · rw [feed_cons, h1, Option.bind_some, k2]; rfl
      · rw [chainProcess_cons_ok l base (process_ok h1 base), k6]

/-- With one module: the output is what the chain makes of the records before the first failing one, and the
error names that record.

Missing: with several modules the records may have passed only some of them, and the error may concern a
later record, see `C57_violated_not_all_modules`; after an array map its offset is wrong, see
`C57_violated_error_offset`. -/
theorem C57_error_partial (i : Inst μ B ε) (base : Int) (rs o : List (Rec B)) (e : ε) (x : Int)
    (h : (chainProcess base [i] rs).2 = some ⟨o, some (e, x)⟩) :
    ∃ pre r post i', rs = pre ++ r :: post ∧ feed [i] pre = some (i', o) ∧ feed [i] (pre ++ [r]) = none ∧
      x = base + r.delta := by
  have hn : feed [i] rs = none := by
    cases hf : feed [i] rs with
    | none => rfl
    | some y => rw [chainProcess_ok _ base rs y.1 y.2 hf] at h; cases h
  rw [feed_single] at hn
  have h1 : feedAll Inst.take i rs = none := by
    cases hf : feedAll Inst.take i rs with
    | none => rfl
    | some y => rw [hf] at hn; cases hn
  obtain ⟨pre, r, post, i', o', e', k1, k2, k3, k4⟩ := process_fail h1 base
  rw [show (chainProcess base [i] rs).2 = (i.process base rs).2 from rfl, k4] at h
  cases e' with
  | trap => cases h
  | err e' =>
    injection h with h
    injection h with h2 h3
    injection h3 with h3
    injection h3 with h3 h4
    refine ⟨pre, r, post, [i'], k1, by rw [feed_single, k2, ← h2]; rfl, ?_, h4.symm⟩
    have hfn : i'.fn = i.fn := ((guestLoop_spec i.fn pre i.mem i.acc).1 i' o' k2).2
    have ht : i'.take r = none := by
      unfold Inst.take
      rw [hfn]
      generalize hx : i.fn.apply i'.mem i'.acc r = y at k3
      obtain ⟨y1, y2⟩ := y
      dsimp only at k3
      subst k3
      rfl
    rw [feed_single, feedAll_append, k2]
    simp [feedAll, ht]

/-! Concrete cases: values are numbers, the memory counts calls, errors are numbers. -/

/-- records with values and offset deltas 0, 1, 2, … -/
def numRecs (l : List Nat) : List (Rec Nat) := l.zipIdx.map fun p => ⟨p.2, 0, none, p.1⟩

/-- fails on `n`, otherwise doubles the value -/
def doubleBut (n : Nat) : Inst Nat Nat Nat :=
  ⟨.map fun m r => (m + 1, if r.val = n then .error (.err n) else .ok (r.key, 2 * r.val)), 0, 0⟩

def evens : Inst Nat Nat Nat := ⟨pureFilter fun r => r.val % 2 == 0, 0, 0⟩
def evenCalls : Inst Nat Nat Nat := ⟨.filter fun m _ => (m + 1, .ok (m % 2 == 0)), 0, 0⟩
def adding : Inst Nat Nat Nat := ⟨pureAggregate fun a r => a + r.val, 0, 100⟩

/-- a stateful filter and an aggregate; the state goes on in the second batch -/
example : let (c, o) := chainProcess 0 [evenCalls, adding] (numRecs [1, 2, 3])
    let (_, o') := chainProcess 3 c (numRecs [4, 5])
    (o.map fun x => (x.successes.map (·.val), x.error)) = some ([101, 104], none) ∧
    (o'.map fun x => (x.successes.map (·.val), x.error)) = some ([109], none) ∧
    ((feed [evenCalls, adding] (numRecs [1, 2, 3] ++ numRecs [4, 5])).map fun x => x.2.map (·.val)) =
      some [101, 104, 109] := by decide

/-- one module that fails -/
example : ((chainProcess 10 [doubleBut 3] (numRecs [1, 2, 3, 4])).2.map fun x => (x.successes.map (·.val), x.error)) =
    some ([2, 4], some (3, 12)) := by decide

/-- Only even values may pass the chain; `1` is delivered.  The first module fails on the second record, and
what it has made of the first one is returned without passing the second module (engine.rs:194-198). -/
theorem C57_violated_not_all_modules :
    let fails : Inst Nat Nat Nat := ⟨.map fun m r => (m, if r.val = 2 then .error (.err 7) else .ok (r.key, r.val)), 0, 0⟩
    ((chainProcess 0 [fails, evens] (numRecs [1, 2])).2.map fun x => (x.successes.map (·.val), x.error)) =
      some ([1], some (7, 1)) ∧
    ((feed [fails, evens] (numRecs [1])).map fun x => x.2) = some [] := by decide

/-- The second module fails on the second record; the error names the offset of the first.  (An array map
makes new records without offset deltas — array_map.rs:26-28.) -/
theorem C57_violated_error_offset :
    let split : Inst Nat Nat Nat := ⟨pureArrayMap fun r => [(none, r.val), (none, r.val)], 0, 0⟩
    ((chainProcess 10 [split, doubleBut 6] (numRecs [5, 6])).2.map fun x => (x.successes.map (·.val), x.error)) =
      some ([10, 10], some (6, 10)) ∧
    (feed [split, doubleBut 6] (numRecs [5])).isSome ∧ (feed [split, doubleBut 6] (numRecs [5, 6])).isNone := by
  decide

end Verif.Props
