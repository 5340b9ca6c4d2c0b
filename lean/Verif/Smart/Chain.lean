import Verif.Storage.Replica

/-!
# SmartModule chains
(`fluvio-smartengine/src/engine/wasmtime/{engine,instance}.rs`, `transforms/*.rs`,
`fluvio-smartmodule-derive/src/generator/*.rs`)

A SmartModule is a user function called for each record, wrapped in generated code (the guest) that runs
inside WebAssembly.  `μ` is the memory of a module instance, which survives between calls; `B` are keys and
values; `ε` are errors the user function returns.  Fuel and memory limits appear as traps, which may happen
at any record.  The encoding of records between host and guest is not modelled here (C03–C05), nor are the
`init` function and metrics.
-/

namespace Verif.Smart

/-- `Record` — fluvio-protocol/src/record/data.rs:393-402, 433-438 -/
structure Rec (B : Type) where
  delta : Int
  tsd : Int
  key : Option B
  val : B
deriving DecidableEq

/-- How a user function fails: it returns an error, or the guest is aborted (panic, out of fuel or memory,
undecodable input or unencodable output: the call returns an error or a negative status). -/
inductive Fail (ε : Type) where
  | err (e : ε)
  | trap
deriving DecidableEq

/-- The user functions — generator/{filter,map,filter_map,array_map,aggregate}.rs -/
inductive Fn (μ B ε : Type) where
  | filter (f : μ → Rec B → μ × Except (Fail ε) Bool)
  | map (f : μ → Rec B → μ × Except (Fail ε) (Option B × B))
  | filterMap (f : μ → Rec B → μ × Except (Fail ε) (Option (Option B × B)))
  | arrayMap (f : μ → Rec B → μ × Except (Fail ε) (List (Option B × B)))
  | aggregate (f : μ → B → Rec B → μ × Except (Fail ε) B)

variable {μ B ε : Type}

/-- One round of the loops in generator/filter.rs:18-42, map.rs:18-40, filter_map.rs:19-42,
array_map.rs:18-44 (new records with a default preamble), aggregate.rs:74-96: what is
pushed to `successes`, and the new accumulator. -/
def Fn.apply (fn : Fn μ B ε) (m : μ) (acc : B) (r : Rec B) : μ × Except (Fail ε) (B × List (Rec B)) :=
  match fn with
  | .filter f => ((f m r).1, (f m r).2.map fun ok => (acc, if ok then [r] else []))
  | .map f => ((f m r).1, (f m r).2.map fun kv => (acc, [{ r with key := kv.1, val := kv.2 }]))
  | .filterMap f => ((f m r).1, (f m r).2.map fun o => match o with
      | some kv => (acc, [{ r with key := kv.1, val := kv.2 }])
      | none => (acc, []))
  | .arrayMap f => ((f m r).1, (f m r).2.map fun kvs => (acc, kvs.map fun kv => ⟨0, 0, kv.1, kv.2⟩))
  | .aggregate f => ((f m acc r).1, (f m acc r).2.map fun v => (v, [{ r with val := v }]))

/-- What the guest's loop leaves behind. -/
structure LoopOut (μ B ε : Type) where
  mem : μ
  acc : B
  out : List (Rec B)
  fail : Option (Fail ε × Rec B)

/-- The loop over the records: it stops at the first failure. -/
def guestLoop (fn : Fn μ B ε) : μ → B → List (Rec B) → LoopOut μ B ε
  | m, a, [] => ⟨m, a, [], none⟩
  | m, a, r :: rs =>
    match fn.apply m a r with
    | (m', .error e) => ⟨m', a, [], some (e, r)⟩
    | (m', .ok (a', o)) =>
      let l := guestLoop fn m' a' rs
      ⟨l.mem, l.acc, o ++ l.out, l.fail⟩

/-- `SmartModuleInstance` — instance.rs:24-32, transforms/aggregate.rs:22-25 -/
structure Inst (μ B ε : Type) where
  fn : Fn μ B ε
  mem : μ
  acc : B

/-- `SmartModuleOutput` — fluvio-smartmodule/src/output.rs; the error carries the offset of the record
(fluvio-protocol/src/link/smartmodule.rs:26-43). -/
structure Output (B ε : Type) where
  successes : List (Rec B)
  error : Option (ε × Int)

/-- `SimpleTansform::process`, `SmartModuleAggregate::process` — transforms/simple_transform.rs:55-77,
aggregate.rs:71-98: the host keeps the accumulator of the output, and the old one when the call fails.
`none` is an error of the call. -/
def Inst.process (i : Inst μ B ε) (base : Int) (rs : List (Rec B)) : Inst μ B ε × Option (Output B ε) :=
  let l := guestLoop i.fn i.mem i.acc rs
  match l.fail with
  | some (.trap, _) => ({ i with mem := l.mem }, none)
  | some (.err e, r) => ({ i with mem := l.mem, acc := l.acc }, some ⟨l.out, some (e, base + r.delta)⟩)
  | none => ({ i with mem := l.mem, acc := l.acc }, some ⟨l.out, none⟩)

/-- `SmartModuleChainInstance::process` — engine.rs:176-223 -/
def chainProcess (base : Int) : List (Inst μ B ε) → List (Rec B) → List (Inst μ B ε) × Option (Output B ε)
  | [], rs => ([], some ⟨rs, none⟩)
  | [i], rs => ([(i.process base rs).1], (i.process base rs).2)
  | i :: j :: l, rs =>
    match i.process base rs with
    | (i', none) => (i' :: j :: l, none)
    | (i', some o) =>
      match o.error with
      | some e => (i' :: j :: l, some ⟨o.successes, some e⟩)
      | none => (i' :: (chainProcess base (j :: l) o.successes).1, (chainProcess base (j :: l) o.successes).2)

/-! ## Specification: one record after the other -/

/-- One record goes into one module. -/
def Inst.take (i : Inst μ B ε) (r : Rec B) : Option (Inst μ B ε × List (Rec B)) :=
  match i.fn.apply i.mem i.acc r with
  | (_, .error _) => none
  | (m, .ok (a, o)) => some ({ i with mem := m, acc := a }, o)

/-- Records go through a machine one after the other. -/
def feedAll {S : Type} (one : S → Rec B → Option (S × List (Rec B))) : S → List (Rec B) → Option (S × List (Rec B))
  | s, [] => some (s, [])
  | s, r :: rs => (one s r).bind fun x => (feedAll one x.1 rs).map fun y => (y.1, x.2 ++ y.2)

/-- **Specification.** One record goes through all modules of a chain (of length `n`): what the first
module makes of it goes, one by one, through the rest.  `none` when a user function fails. -/
def feedOne : Nat → List (Inst μ B ε) → Rec B → Option (List (Inst μ B ε) × List (Rec B))
  | 0, c, r => some (c, [r])
  | _ + 1, [], r => some ([], [r])
  | n + 1, i :: l, r =>
    (i.take r).bind fun x => (feedAll (feedOne n) l x.2).map fun y => (x.1 :: y.1, y.2)

/-- **Specification.** Records go through a chain one after the other: the chain afterwards and what comes
out. -/
def feed (c : List (Inst μ B ε)) (rs : List (Rec B)) : Option (List (Inst μ B ε) × List (Rec B)) :=
  feedAll (feedOne c.length) c rs

/-! ## Lemmas -/

theorem feedAll_append {S : Type} (one : S → Rec B → Option (S × List (Rec B))) : ∀ (l m : List (Rec B)) (s : S),
    feedAll one s (l ++ m) = (feedAll one s l).bind fun x => (feedAll one x.1 m).map fun y => (y.1, x.2 ++ y.2)
  | [], m, s => by
    simp only [List.nil_append, feedAll, Option.bind_some]
    cases feedAll one s m <;> rfl
  | r :: l, m, s => by
    simp only [List.cons_append, feedAll, feedAll_append one l m]
    cases one s r with
    | none => rfl
    | some x =>
      simp only [Option.bind_some]
      cases feedAll one x.1 l with
      | none => rfl
      | some y =>
        simp only [Option.bind_some, Option.map_some]
        cases feedAll one y.1 m with
        | none => rfl
        | some z => simp [List.append_assoc]

theorem feedOne_zero (c : List (Inst μ B ε)) (rs : List (Rec B)) : feedAll (feedOne 0) c rs = some (c, rs) := by
  induction rs with
  | nil => rfl
  | cons r rs ih =>
    simp only [feedAll, Option.bind_some, ih, show feedOne 0 c r = some (c, [r]) from rfl]
    rfl

theorem feed_nil (rs : List (Rec B)) : feed ([] : List (Inst μ B ε)) rs = some ([], rs) := feedOne_zero [] rs

/-- Feeding record by record is the same as stage by stage. -/
theorem feed_stages (n : Nat) : ∀ (rs : List (Rec B)) (i : Inst μ B ε) (l : List (Inst μ B ε)),
    feedAll (feedOne (n + 1)) (i :: l) rs =
      (feedAll Inst.take i rs).bind fun x => (feedAll (feedOne n) l x.2).map fun y => (x.1 :: y.1, y.2)
  | [], i, l => by simp [feedAll]
  | r :: rs, i, l => by
    simp only [feedAll, feedOne]
    cases hi : i.take r with
    | none => rfl
    | some x =>
      simp only [Option.bind_some]
      cases h1 : feedAll (feedOne n) l x.2 with
      | none =>
        simp only [Option.map_none, Option.bind_none]
        cases h2 : feedAll Inst.take x.1 rs with
        | none => rfl
        | some z =>
          simp only [Option.map_some, Option.bind_some]
          rw [feedAll_append, h1]
          rfl
      | some y =>
        simp only [Option.map_some, Option.bind_some]
        rw [feed_stages n rs x.1 y.1]
        cases h2 : feedAll Inst.take x.1 rs with
        | none => rfl
        | some z =>
          simp only [Option.map_some, Option.bind_some]
          rw [feedAll_append, h1]
          simp only [Option.bind_some]
          cases feedAll (feedOne n) y.1 z.2 <;> rfl

theorem feedOne_length : ∀ (n : Nat) (c : List (Inst μ B ε)) (r : Rec B) (c' : List (Inst μ B ε)) (o : List (Rec B)),
    feedOne n c r = some (c', o) → c'.length = c.length := by
  intro n
  induction n with
  | zero =>
    intro c r c' o h
    simp only [feedOne, Option.some.injEq, Prod.mk.injEq] at h
    rw [h.1]
  | succ n ih =>
    have hall : ∀ (rs : List (Rec B)) (c c' : List (Inst μ B ε)) (o : List (Rec B)),
        feedAll (feedOne n) c rs = some (c', o) → c'.length = c.length := by
      intro rs
      induction rs with
      | nil =>
        intro c c' o h
        simp only [feedAll, Option.some.injEq, Prod.mk.injEq] at h
        rw [h.1]
      | cons r rs ihr =>
        intro c c' o h
        simp only [feedAll] at h
        cases h1 : feedOne n c r with
        | none => rw [h1] at h; cases h
        | some x =>
          rw [h1, Option.bind_some] at h
          cases h2 : feedAll (feedOne n) x.1 rs with
          | none => rw [h2] at h; cases h
          | some y =>
            rw [h2, Option.map_some] at h
            injection h with h
            injection h with h _
            rw [← h, ihr x.1 y.1 y.2 h2]
            exact ih c r x.1 x.2 h1
    intro c r c' o h
    cases c with
    | nil =>
      simp only [feedOne, Option.some.injEq, Prod.mk.injEq] at h
      rw [← h.1]
    | cons i l =>
      simp only [feedOne] at h
      cases h1 : i.take r with
      | none => rw [h1] at h; cases h
      | some x =>
        rw [h1, Option.bind_some] at h
        cases h2 : feedAll (feedOne n) l x.2 with
        | none => rw [h2] at h; cases h
        | some y =>
          rw [h2, Option.map_some] at h
          injection h with h
          injection h with h _
          rw [← h, List.length_cons, List.length_cons, hall _ _ _ _ h2]

theorem feedAll_length (n : Nat) : ∀ (rs : List (Rec B)) (c c' : List (Inst μ B ε)) (o : List (Rec B)),
    feedAll (feedOne n) c rs = some (c', o) → c'.length = c.length := by
  intro rs
  induction rs with
  | nil =>
    intro c c' o h
    simp only [feedAll, Option.some.injEq, Prod.mk.injEq] at h
    rw [h.1]
  | cons r rs ihr =>
    intro c c' o h
    simp only [feedAll] at h
    cases h1 : feedOne n c r with
    | none => rw [h1] at h; cases h
    | some x =>
      rw [h1, Option.bind_some] at h
      cases h2 : feedAll (feedOne n) x.1 rs with
      | none => rw [h2] at h; cases h
      | some y =>
        rw [h2, Option.map_some] at h
        injection h with h
        injection h with h _
        rw [← h, ihr x.1 y.1 y.2 h2]
        exact feedOne_length n c r x.1 x.2 h1

theorem feed_length {c c' : List (Inst μ B ε)} {rs o : List (Rec B)} (h : feed c rs = some (c', o)) :
    c'.length = c.length := feedAll_length _ rs c c' o h

theorem feed_append (c : List (Inst μ B ε)) (l m : List (Rec B)) :
    feed c (l ++ m) = (feed c l).bind fun x => (feed x.1 m).map fun y => (y.1, x.2 ++ y.2) := by
  unfold feed
  rw [feedAll_append]
  cases h : feedAll (feedOne c.length) c l with
  | none => rfl
  | some x => simp only [Option.bind_some]; rw [feedAll_length _ l c x.1 x.2 h]

theorem feed_cons (i : Inst μ B ε) (l : List (Inst μ B ε)) (rs : List (Rec B)) :
    feed (i :: l) rs = (feedAll Inst.take i rs).bind fun x => (feed l x.2).map fun y => (x.1 :: y.1, y.2) :=
  feed_stages l.length rs i l

theorem feed_single (i : Inst μ B ε) (rs : List (Rec B)) :
    feed [i] rs = (feedAll Inst.take i rs).map fun x => ([x.1], x.2) := by
  rw [feed_cons]
  cases feedAll Inst.take i rs with
  | none => rfl
  | some x => simp [feed_nil]

/-- The guest's loop without failure is feeding. -/
theorem guestLoop_spec (fn : Fn μ B ε) : ∀ (rs : List (Rec B)) (m : μ) (a : B),
    (∀ i' o, feedAll Inst.take ⟨fn, m, a⟩ rs = some (i', o) →
      guestLoop fn m a rs = ⟨i'.mem, i'.acc, o, none⟩ ∧ i'.fn = fn) ∧
    (feedAll Inst.take ⟨fn, m, a⟩ rs = none →
      ∃ pre r post i' o e, rs = pre ++ r :: post ∧ feedAll Inst.take ⟨fn, m, a⟩ pre = some (i', o) ∧
        (fn.apply i'.mem i'.acc r).2 = .error e ∧
        guestLoop fn m a rs = ⟨(fn.apply i'.mem i'.acc r).1, i'.acc, o, some (e, r)⟩)
  | [], m, a => by
    refine ⟨fun i' o h => ?_, fun h => by cases h⟩
    simp only [feedAll, Option.some.injEq, Prod.mk.injEq] at h
    obtain ⟨rfl, rfl⟩ := h
    exact ⟨rfl, rfl⟩
  | r :: rs, m, a => by
    unfold guestLoop
    simp only [feedAll, Inst.take]
    cases hr : fn.apply m a r with
    | mk m' res =>
      cases res with
      | error e =>
        refine ⟨fun i' o h => by simp at h, fun _ => ?_⟩
        exact ⟨[], r, rs, ⟨fn, m, a⟩, [], e, rfl, rfl, by rw [hr], by simp [hr]⟩
      | ok x =>
        obtain ⟨k1, k2⟩ := guestLoop_spec fn rs m' x.1
        simp only [Option.bind_some]
        refine ⟨fun i' o h => ?_, fun h => ?_⟩
        · cases h2 : feedAll Inst.take ⟨fn, m', x.1⟩ rs with
          | none => rw [h2] at h; cases h
          | some y =>
            rw [h2] at h
            simp only [Option.map_some, Option.some.injEq, Prod.mk.injEq] at h
            obtain ⟨g1, g2⟩ := k1 y.1 y.2 h2
            rw [g1, ← h.1, ← h.2]
            exact ⟨rfl, g2⟩
        · cases h2 : feedAll Inst.take ⟨fn, m', x.1⟩ rs with
          | some y => rw [h2] at h; cases h
          | none =>
            obtain ⟨pre, r', post, i', o, e, g1, g2, g3, g4⟩ := k2 h2
            refine ⟨r :: pre, r', post, i', x.2 ++ o, e, by rw [g1]; rfl, ?_, g3, by rw [g4]⟩
            simp only [feedAll, Inst.take, hr, Option.bind_some, g2, Option.map_some]

theorem process_ok {i i' : Inst μ B ε} {rs o : List (Rec B)} (h : feedAll Inst.take i rs = some (i', o))
    (base : Int) : i.process base rs = (i', some ⟨o, none⟩) := by
  obtain ⟨k1, k2⟩ := (guestLoop_spec i.fn rs i.mem i.acc).1 i' o h
  simp only [Inst.process, k1]
  rw [← k2]

theorem process_fail {i : Inst μ B ε} {rs : List (Rec B)} (h : feedAll Inst.take i rs = none) (base : Int) :
    ∃ pre r post i' o e, rs = pre ++ r :: post ∧ feedAll Inst.take i pre = some (i', o) ∧
      (i.fn.apply i'.mem i'.acc r).2 = .error e ∧
      (i.process base rs).2 = match e with
        | .trap => none
        | .err e => some ⟨o, some (e, base + r.delta)⟩ := by
  obtain ⟨pre, r, post, i', o, e, g1, g2, g3, g4⟩ := (guestLoop_spec i.fn rs i.mem i.acc).2 h
  refine ⟨pre, r, post, i', o, e, g1, g2, g3, ?_⟩
  simp only [Inst.process, g4]
  cases e <;> rfl

theorem chainProcess_cons_ok {i i' : Inst μ B ε} {rs o : List (Rec B)} (l : List (Inst μ B ε)) (base : Int)
    (h : i.process base rs = (i', some ⟨o, none⟩)) :
    chainProcess base (i :: l) rs = (i' :: (chainProcess base l o).1, (chainProcess base l o).2) := by
  cases l with
  | nil => simp only [chainProcess, h]
  | cons j l => simp only [chainProcess, h]

theorem chainProcess_cons_fail {i : Inst μ B ε} {rs : List (Rec B)} (l : List (Inst μ B ε)) (base : Int)
    (h : feedAll Inst.take i rs = none) :
    (chainProcess base (i :: l) rs).2 = (i.process base rs).2 := by
  obtain ⟨pre, r, post, i', o, e, _, _, _, h4⟩ := process_fail h base
  cases l with
  | nil => rfl
  | cons j l =>
    rw [h4]
    simp only [chainProcess]
    cases hp : i.process base rs with
    | mk i2 res =>
      rw [hp] at h4
      dsimp only at h4
      subst h4
      cases e <;> rfl

theorem chainProcess_ok : ∀ (c : List (Inst μ B ε)) (base : Int) (rs : List (Rec B)) (c' : List (Inst μ B ε))
    (o : List (Rec B)), feed c rs = some (c', o) → chainProcess base c rs = (c', some ⟨o, none⟩)
  | [], base, rs, c', o, h => by
    rw [feed_nil] at h
    simp only [Option.some.injEq, Prod.mk.injEq] at h
    rw [← h.1, ← h.2]; rfl
  | i :: l, base, rs, c', o, h => by
    rw [feed_cons] at h
    cases h1 : feedAll Inst.take i rs with
    | none => rw [h1] at h; cases h
    | some x =>
      rw [h1, Option.bind_some] at h
      cases h2 : feed l x.2 with
      | none => rw [h2] at h; cases h
      | some y =>
        rw [h2] at h
        simp only [Option.map_some, Option.some.injEq, Prod.mk.injEq] at h
        rw [chainProcess_cons_ok l base (process_ok h1 base), chainProcess_ok l base x.2 y.1 y.2 h2, ← h.1, ← h.2]

theorem chainProcess_fail : ∀ (c : List (Inst μ B ε)) (base : Int) (rs : List (Rec B)), feed c rs = none →
    (chainProcess base c rs).2 = none ∨ ∃ o e, (chainProcess base c rs).2 = some ⟨o, some e⟩
  | [], base, rs, h => by rw [feed_nil] at h; cases h
  | i :: l, base, rs, h => by
    rw [feed_cons] at h
    cases h1 : feedAll Inst.take i rs with
    | none =>
      rw [chainProcess_cons_fail l base h1]
      obtain ⟨pre, r, post, i', o, e, _, _, _, h4⟩ := process_fail h1 base
      rw [h4]
      cases e with
      | trap => exact .inl rfl
      | err e => exact .inr ⟨_, _, rfl⟩
    | some x =>
      rw [h1, Option.bind_some] at h
      cases h2 : feed l x.2 with
      | some y => rw [h2] at h; cases h
      | none =>
        rw [chainProcess_cons_ok l base (process_ok h1 base)]
        exact chainProcess_fail l base x.2 h2

end Verif.Smart
