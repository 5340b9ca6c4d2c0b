import Verif.Smart.Host
/-!
# What is counted of SmartModules
(`fluvio-smartengine/src/engine/{metrics.rs,wasmtime/{engine,instance,state}.rs,wasmtime/transforms/*.rs}`)

Counters are natural numbers here; in the code they have 64 bits.  Times are parameters.
-/

namespace Verif.Smart.Host

/-- `SmartModuleChainMetrics` — metrics.rs:9-23, without the names -/
structure Metrics where
  bytesIn : Nat
  recordsOut : Nat
  recordsErr : Nat
  invocations : Nat
  fuel : Nat
  cpu : Nat
deriving DecidableEq

def Metrics.zero : Metrics := ⟨0, 0, 0, 0, 0, 0⟩

/-- `top_up_fuel` — state.rs:38-43 -/
def topUp (s : St) : St := { s with fuel := Nat.max fullFuel s.fuel }

/-- `get_used_fuel` — state.rs:45-52; the subtraction overflows if there is more, which does not happen
(`C109_no_overflow`) -/
def usedFuel (s : St) : Nat := fullFuel - s.fuel

/-- `add_fuel_used` — metrics.rs:75-79 -/
def addFuel (m : Metrics) (fuel ms : Nat) : Metrics := { m with fuel := m.fuel + fuel, cpu := m.cpu + Nat.max ms 1 }

/-- `SmartModuleOutput`: the records, and whether there is an error -/
structure Out (α : Type) where
  records : List α
  error : Bool

/-- A transform with what it counts: `SimpleTansform::process` — simple_transform.rs:55-78;
`SmartModuleAggregate::process` (`simple` false) — aggregate.rs:71-98 -/
def transform {α : Type} (limit : Option Nat) (simple : Bool) (g : Guest) (dec : List UInt8 → Option (Out α))
    (bytes : List UInt8) (ms : Nat) (s : St) (m : Metrics) : (St × Metrics) × End (Out α) :=
  let r := process limit g dec bytes s
  if simple then
    match r.2 with
    | .noInput => ((r.1, m), r.2)
    | .trap => ((r.1, m), r.2)
    | .status _ => ((r.1, addFuel m (usedFuel r.1) ms), r.2)
    | .badOutput => ((r.1, addFuel m (usedFuel r.1) ms), r.2)
    | .done o => ((r.1, { addFuel m (usedFuel r.1) ms with
        recordsOut := (addFuel m (usedFuel r.1) ms).recordsOut + o.records.length }), r.2)
  else ((r.1, m), r.2)

/-- `SmartModuleInstance::process` after `top_up_fuel` — instance.rs:60-86, engine.rs:193, 209; `raw` is the size of
the input -/
def call {α : Type} (limit : Option Nat) (simple : Bool) (g : Guest) (dec : List UInt8 → Option (Out α))
    (bytes : List UInt8) (raw ms ms' : Nat) (s : St) (m : Metrics) : (St × Metrics) × End (Out α) :=
  let r := transform limit simple g dec bytes ms (topUp s)
    { m with bytesIn := m.bytesIn + raw, invocations := m.invocations + 1 }
  let m2 := addFuel r.1.2 (usedFuel r.1.1) ms'
  match r.2 with
  | .done o => ((r.1.1, if o.error then { m2 with recordsErr := m2.recordsErr + 1 } else m2), r.2)
  | _ => ((r.1.1, m2), r.2)

/-- One module in `look_back` — engine.rs:233-255 (`call_look_back` is a `process` whose result is not used) -/
def lookBack {α : Type} (limit : Option Nat) (g : Guest) (dec : List UInt8 → Option α) (bytes : List UInt8)
    (raw ms : Nat) (s : St) (m : Metrics) : (St × Metrics) × End α :=
  let r := process limit g dec bytes (topUp s)
  let m1 := addFuel { m with bytesIn := m.bytesIn + raw } (usedFuel r.1) ms
  ((r.1, { m1 with invocations := m1.invocations + 1 }), r.2)

/-! ## Export -/

/-- `append` — metrics.rs:110-127 -/
def Metrics.append (a b : Metrics) : Metrics :=
  ⟨a.bytesIn + b.bytesIn, a.recordsOut + b.recordsOut, a.recordsErr + b.recordsErr, a.invocations + b.invocations,
    a.fuel + b.fuel, a.cpu + b.cpu⟩

/-- The part of each of `n` names — engine.rs:143-153 -/
def frac (m : Metrics) (n : Nat) : Metrics :=
  { addFuel ⟨m.bytesIn / n, m.recordsOut / n, m.recordsErr / n, 0, 0, 0⟩ (m.fuel / n) (m.cpu / n) with
    invocations := m.invocations / n }

/-- one name — engine.rs:155-165 -/
def addTo (out : String → Option Metrics) (name : String) (m : Metrics) : String → Option Metrics := fun x =>
  if x = name then
    match out name with
    | some e => some (e.append m)
    | none => some (Metrics.zero.append m)
  else out x

/-- `metrics_export` — engine.rs:136-169 without the reset; `none`: a division by zero, which is a panic -/
def exportAll : List (List String × Metrics) → (String → Option Metrics) → Option (String → Option Metrics)
  | [], out => some out
  | (names, m) :: l, out =>
    if names.length = 0 then none
    else exportAll l (names.foldl (fun out n => addTo out n (frac m names.length)) out)

/-- `metrics_reset` — engine.rs:171-175, metrics.rs:128-135 -/
def resetAll (l : List (List String × Metrics)) : List (List String × Metrics) := l.map fun e => (e.1, Metrics.zero)

/-! ## Specification -/

/-- **Specification.** The fuel that the things a module does cost. -/
def cost (l : List Act) : Nat := (l.map fun a => match a with | .burn n => n | _ => 0).sum

/-- the counters other than time -/
inductive Counter where
  | bytesIn | recordsOut | recordsErr | invocations | fuel

def Metrics.get (m : Metrics) : Counter → Nat
  | .bytesIn => m.bytesIn
  | .recordsOut => m.recordsOut
  | .recordsErr => m.recordsErr
  | .invocations => m.invocations
  | .fuel => m.fuel

/-- **Specification.** The sum over the modules that have a name. -/
def sumOf (l : List (List String × Metrics)) (name : String) (f : Metrics → Nat) : Nat :=
  ((l.filter fun e => decide (e.1 = [name])).map fun e => f e.2).sum

/-- what was exported for a name -/
def got (out : String → Option Metrics) (name : String) (f : Metrics → Nat) : Nat :=
  match out name with
  | some m => f m
  | none => 0

/-! ## Lemmas -/

theorem run_cost (limit : Option Nat) : ∀ (l : List Act) (s : St), (run limit l s).2 = true →
    (run limit l s).1.fuel + cost l = s.fuel
  | [], _, _ => rfl
  | a :: l, s, h => by
    by_cases hc : (step limit a s).2 = true
    · have hr : run limit (a :: l) s = run limit l (step limit a s).1 := by rw [run, if_pos hc]
      rw [hr] at h ⊢
      have ih := run_cost limit l _ h
      have hcost : cost (a :: l) = cost [a] + cost l := by
        unfold cost
        rw [List.map_cons, List.sum_cons, List.map_cons, List.sum_cons]
        simp
      have hstep : (step limit a s).1.fuel + cost [a] = s.fuel := by
        cases a with
        | write off b => rw [step_write]; split <;> rfl
        | copy p n => rfl
        | burn n =>
          rw [step_burn] at hc ⊢
          by_cases hn : n ≤ s.fuel
          · rw [if_pos hn]
            show s.fuel - n + (n + 0) = s.fuel
            omega
          · rw [if_neg hn] at hc; cases hc
        | grow n =>
          rw [step_grow]
          split
          · split <;> rfl
          · rfl
      omega
    · have hr : run limit (a :: l) s = step limit a s := by rw [run, if_neg hc]
      rw [hr] at h
      exact absurd h hc

theorem process_fuel {α : Type} (limit : Option Nat) (g : Guest) (dec : List UInt8 → Option α) (bytes : List UInt8)
    (s : St) : (process limit g dec bytes s).1.fuel ≤ s.fuel :=
  process_keeps (fun _ n => n ≤ s.fuel) limit (fun l t h => Nat.le_trans (run_fuel limit l t) h)
    (fun _ _ h => h) g dec bytes s (Nat.le_refl _)

theorem topUp_fuel {s : St} (h : s.fuel ≤ fullFuel) : (topUp s).fuel = fullFuel := Nat.max_eq_left h

/-- The fuel a call took, if the module was not stopped. -/
theorem process_cost {α : Type} (limit : Option Nat) (g : Guest) (dec : List UInt8 → Option α) (bytes : List UInt8)
    (s : St) (h : ∀ r, (process limit g dec bytes s).2 = r → r ≠ .noInput ∧ r ≠ .trap) :
    ∃ (p : BitVec 32) (t : St), writeInput limit g bytes s = (t, some p) ∧
      (process limit g dec bytes s).1.fuel +
        (cost (g.alloc (BitVec.ofNat 32 bytes.length) { s with inst := { s.inst with cb := none } }).1 +
          cost (g.fn p (BitVec.ofNat 32 bytes.length) t).1) = s.fuel := by
  rcases copyTo_cases limit g bytes { s with inst := { s.inst with cb := none } } with hc | ⟨p, hp, hr, hc⟩
  · exact absurd rfl (h _ (by rw [process_none limit g dec bytes s _ hc])).1
  · refine ⟨p, _, hc, ?_⟩
    have h1 := run_cost limit _ _ hr
    have hf := process_fst limit g dec bytes s _ p hc
    generalize ht : ({ (run limit (g.alloc (BitVec.ofNat 32 bytes.length)
      { s with inst := { s.inst with cb := none } }).1 { s with inst := { s.inst with cb := none } }).1 with
        host := blit (run limit (g.alloc (BitVec.ofNat 32 bytes.length)
          { s with inst := { s.inst with cb := none } }).1 { s with inst := { s.inst with cb := none } }).1.host
          ((run limit (g.alloc (BitVec.ofNat 32 bytes.length) { s with inst := { s.inst with cb := none } }).1
            { s with inst := { s.inst with cb := none } }).1.inst.lo + p.toInt) bytes } : St) = t at *
    have htf : t.fuel = (run limit (g.alloc (BitVec.ofNat 32 bytes.length)
      { s with inst := { s.inst with cb := none } }).1 { s with inst := { s.inst with cb := none } }).1.fuel := by
      rw [← ht]
    have h2 : (run limit (g.fn p (BitVec.ofNat 32 bytes.length) t).1 t).2 = true := by
      cases hb : (run limit (g.fn p (BitVec.ofNat 32 bytes.length) t).1 t).2 with
      | true => rfl
      | false =>
        refine absurd rfl (h .trap ?_).2
        unfold process
        have hw : writeInput limit g bytes s = (t, some p) := hc
        rw [hw]
        dsimp only
        cases hq : run limit (g.fn p (BitVec.ofNat 32 bytes.length) t).1 t with
        | mk u b =>
          rw [hq] at hb
          dsimp only at hb
          subst hb
          rfl
    have h3 := run_cost limit _ _ h2
    rw [hf]
    have arith : ∀ u a f r : Nat, u + f = r → u + (a + f) = r + a := fun u a f r h => by omega
    exact (arith _ _ _ _ (h3.trans htf)).trans h1

end Verif.Smart.Host
