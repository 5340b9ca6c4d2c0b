import Verif.Smart.Metrics
/-!
# C109: what SmartModules use is counted once

The model is in `Verif/Smart/Metrics.lean`.
-/

namespace Verif.Props
open Verif.Smart.Host

namespace C109

/-- a module whose function costs 7 and whose allocator costs 5 -/
def seven : Guest where
  alloc _ _ := ([.burn 5], some 16#32)
  fn _ _ _ := ([.burn 7], some 0#32)

def s0 : St := ⟨fun _ => 0, ⟨1000, 65536, none, none⟩, 3⟩

/-- outputs of three records without an error -/
def three (_ : List UInt8) : Option (Out Nat) := some ⟨[1, 2, 3], false⟩

/-- **Specification.** A call in which the module was not stopped. -/
def Finished {α : Type} (r : End α) : Prop := r ≠ .noInput ∧ r ≠ .trap

/-- **Specification.** What happens to the counters of a chain: something is counted for the module with number `i`,
or all is exported. -/
inductive Ev where
  | count (i : Nat) (d : Metrics)
  | exported

/-- the modules, and what was exported so far for each name -/
structure Sys where
  mods : List (List String × Metrics)
  out : String → Counter → Nat

def Sys.step (s : Sys) : Ev → Option Sys
  | .count i d => some { s with mods := s.mods.modify i fun e => (e.1, e.2.append d) }
  | .exported => (exportAll s.mods fun _ => none).map fun o =>
      ⟨resetAll s.mods, fun n c => s.out n c + got o n (·.get c)⟩

def Sys.run : List Ev → Sys → Option Sys
  | [], s => some s
  | e :: l, s => (s.step e).bind (Sys.run l)

/-- **Specification.** All that was counted for the modules of a name. -/
def counted (names : List (List String)) (name : String) (c : Counter) : List Ev → Nat
  | [] => 0
  | .count i d :: l => (if names[i]? = some [name] then d.get c else 0) + counted names name c l
  | .exported :: l => counted names name c l

def one : Sys := ⟨[(["a"], .zero), (["b"], .zero), (["a"], .zero)], fun _ _ => 0⟩

end C109
open C109

/-! ### Calls -/

/-- The fuel is never more than what every call starts with, so that what was used is not computed wrongly; and every
call starts with all of it, whatever the modules before used. -/
theorem C109_no_overflow {α : Type} (limit : Option Nat) (simple : Bool) (g : Guest) (dec : List UInt8 → Option (Out α))
    (bytes : List UInt8) (raw ms ms' : Nat) (s : St) (m : Metrics) (h : s.fuel ≤ fullFuel) :
    (topUp s).fuel = fullFuel ∧ (call limit simple g dec bytes raw ms ms' s m).1.1.fuel ≤ fullFuel := by
  refine ⟨topUp_fuel h, ?_⟩
  have h1 : (call limit simple g dec bytes raw ms ms' s m).1.1 = (process limit g dec bytes (topUp s)).1 := by
    unfold call transform
    generalize process limit g dec bytes (topUp s) = r
    obtain ⟨u, e⟩ := r
    cases simple <;> cases e <;> rfl
  rw [h1, ← topUp_fuel h]
  exact process_fuel limit g dec bytes (topUp s)

/-- Calls, bytes and errors are counted once, for each call, however it ends. -/
theorem C109_calls {α : Type} (limit : Option Nat) (simple : Bool) (g : Guest) (dec : List UInt8 → Option (Out α))
    (bytes : List UInt8) (raw ms ms' : Nat) (s : St) (m : Metrics) :
    (call limit simple g dec bytes raw ms ms' s m).1.2.invocations = m.invocations + 1 ∧
    (call limit simple g dec bytes raw ms ms' s m).1.2.bytesIn = m.bytesIn + raw ∧
    (call limit simple g dec bytes raw ms ms' s m).1.2.recordsErr = m.recordsErr +
      (match (call limit simple g dec bytes raw ms ms' s m).2 with | .done o => if o.error then 1 else 0 | _ => 0) := by
  unfold call transform
  generalize process limit g dec bytes (topUp s) = r
  obtain ⟨u, e⟩ := r
  cases simple <;> cases e with
  | done o => obtain ⟨l, b⟩ := o; cases b <;> exact ⟨rfl, rfl, rfl⟩
  | _ => exact ⟨rfl, rfl, rfl⟩

/-- The records a module gives are counted.  Missing: those of aggregates (`C109_violated_aggregate`). -/
theorem C109_records_partial {α : Type} (limit : Option Nat) (g : Guest) (dec : List UInt8 → Option (Out α))
    (bytes : List UInt8) (raw ms ms' : Nat) (s : St) (m : Metrics) :
    (call limit true g dec bytes raw ms ms' s m).1.2.recordsOut = m.recordsOut +
      (match (call limit true g dec bytes raw ms ms' s m).2 with | .done o => o.records.length | _ => 0) := by
  unfold call transform
  generalize process limit g dec bytes (topUp s) = r
  obtain ⟨u, e⟩ := r
  cases e with
  | done o => obtain ⟨l, b⟩ := o; cases b <;> rfl
  | _ => rfl

/-- The fuel an aggregate took is counted once.  Missing: all other modules (`C109_violated_twice`). -/
theorem C109_fuel_partial {α : Type} (limit : Option Nat) (g : Guest) (dec : List UInt8 → Option (Out α))
    (bytes : List UInt8) (raw ms ms' : Nat) (s : St) (m : Metrics) (h : s.fuel ≤ fullFuel)
    (hf : Finished (call limit false g dec bytes raw ms ms' s m).2) :
    ∃ p t, writeInput limit g bytes (topUp s) = (t, some p) ∧
      (call limit false g dec bytes raw ms ms' s m).1.2.fuel = m.fuel +
        (cost (g.alloc (BitVec.ofNat 32 bytes.length) { topUp s with inst := { s.inst with cb := none } }).1 +
          cost (g.fn p (BitVec.ofNat 32 bytes.length) t).1) := by
  have h2 : (call limit false g dec bytes raw ms ms' s m).2 = (process limit g dec bytes (topUp s)).2 := by
    unfold call transform
    generalize process limit g dec bytes (topUp s) = r
    obtain ⟨u, e⟩ := r
    cases e <;> rfl
  have h1 : (call limit false g dec bytes raw ms ms' s m).1.2.fuel = m.fuel + usedFuel (process limit g dec bytes (topUp s)).1 := by
    unfold call transform
    generalize process limit g dec bytes (topUp s) = r
    obtain ⟨u, e⟩ := r
    cases e with
    | done o => obtain ⟨l, b⟩ := o; cases b <;> rfl
    | _ => rfl
  rw [h2] at hf
  obtain ⟨p, t, hw, hc⟩ := process_cost limit g dec bytes (topUp s) fun r hr => hr ▸ hf
  refine ⟨p, t, hw, ?_⟩
  rw [h1]
  unfold usedFuel
  have hc := hc.trans (topUp_fuel h)
  have arith : ∀ u x f k : Nat, u + x = f → k + (f - u) = k + x := fun u x f k h => by omega
  exact arith _ _ _ _ hc

/-- **C109 violated: fuel and time are counted twice.**  Filters and maps count what they used themselves
(simple_transform.rs:64), and then it is counted again by the instance (instance.rs:74), with the same fuel of the
store. -/
theorem C109_violated_twice {α : Type} (limit : Option Nat) (g : Guest) (dec : List UInt8 → Option (Out α))
    (bytes : List UInt8) (raw ms ms' : Nat) (s : St) (m : Metrics) (h : s.fuel ≤ fullFuel)
    (hf : Finished (call limit true g dec bytes raw ms ms' s m).2) :
    ∃ p t, writeInput limit g bytes (topUp s) = (t, some p) ∧
      (call limit true g dec bytes raw ms ms' s m).1.2.fuel = m.fuel + 2 *
        (cost (g.alloc (BitVec.ofNat 32 bytes.length) { topUp s with inst := { s.inst with cb := none } }).1 +
          cost (g.fn p (BitVec.ofNat 32 bytes.length) t).1) ∧
      (call limit true g dec bytes raw ms ms' s m).1.2.cpu ≥ m.cpu + ms + ms' := by
  have h2 : (call limit true g dec bytes raw ms ms' s m).2 = (process limit g dec bytes (topUp s)).2 := by
    unfold call transform
    generalize process limit g dec bytes (topUp s) = r
    obtain ⟨u, e⟩ := r
    cases e <;> rfl
  rw [h2] at hf
  have h1 : (call limit true g dec bytes raw ms ms' s m).1.2.fuel = m.fuel + usedFuel (process limit g dec bytes (topUp s)).1 +
        usedFuel (process limit g dec bytes (topUp s)).1 ∧
      (call limit true g dec bytes raw ms ms' s m).1.2.cpu = m.cpu + Nat.max ms 1 + Nat.max ms' 1 := by
    unfold call transform
    generalize process limit g dec bytes (topUp s) = r at hf ⊢
    obtain ⟨u, e⟩ := r
    cases e with
    | done o => obtain ⟨l, b⟩ := o; cases b <;> exact ⟨rfl, rfl⟩
    | noInput => exact absurd rfl hf.1
    | trap => exact absurd rfl hf.2
    | _ => exact ⟨rfl, rfl⟩
  obtain ⟨p, t, hw, hc⟩ := process_cost limit g dec bytes (topUp s) fun r hr => hr ▸ hf
  refine ⟨p, t, hw, ?_, ?_⟩
  · rw [h1.1]
    unfold usedFuel
    have hc := hc.trans (topUp_fuel h)
    have arith : ∀ u x f k : Nat, u + x = f → k + (f - u) + (f - u) = k + 2 * x := fun u x f k h => by omega
    exact arith _ _ _ _ hc
  · rw [h1.2]
    have a1 : ms ≤ Nat.max ms 1 := Nat.le_max_left _ _
    have a2 : ms' ≤ Nat.max ms' 1 := Nat.le_max_left _ _
    omega

example : (call none true seven three [1] 1 4 4 s0 .zero).1.2 = ⟨1, 3, 0, 1, 24, 8⟩ ∧
    (call none false seven three [1] 1 4 4 s0 .zero).1.2 = ⟨1, 0, 0, 1, 12, 4⟩ := by decide

/-- **C109 violated: aggregates.**  The records they give are not counted at all. -/
theorem C109_violated_aggregate {α : Type} (limit : Option Nat) (g : Guest) (dec : List UInt8 → Option (Out α))
    (bytes : List UInt8) (raw ms ms' : Nat) (s : St) (m : Metrics) :
    (call limit false g dec bytes raw ms ms' s m).1.2.recordsOut = m.recordsOut := by
  unfold call transform
  generalize process limit g dec bytes (topUp s) = r
  obtain ⟨u, e⟩ := r
  cases e with
  | done o => obtain ⟨l, b⟩ := o; cases b <;> rfl
  | _ => rfl

/-- Looking back is counted as one call with all it took. -/
theorem C109_look_back {α : Type} (limit : Option Nat) (g : Guest) (dec : List UInt8 → Option α) (bytes : List UInt8)
    (raw ms : Nat) (s : St) (m : Metrics) (h : s.fuel ≤ fullFuel)
    (hf : Finished (lookBack limit g dec bytes raw ms s m).2) :
    (lookBack limit g dec bytes raw ms s m).1.2.invocations = m.invocations + 1 ∧
    (lookBack limit g dec bytes raw ms s m).1.2.bytesIn = m.bytesIn + raw ∧
    ∃ p t, writeInput limit g bytes (topUp s) = (t, some p) ∧
      (lookBack limit g dec bytes raw ms s m).1.2.fuel = m.fuel +
        (cost (g.alloc (BitVec.ofNat 32 bytes.length) { topUp s with inst := { s.inst with cb := none } }).1 +
          cost (g.fn p (BitVec.ofNat 32 bytes.length) t).1) := by
  obtain ⟨p, t, hw, hc⟩ := process_cost limit g dec bytes (topUp s) fun r hr => hr ▸ hf
  refine ⟨rfl, rfl, p, t, hw, ?_⟩
  show m.fuel + usedFuel (process limit g dec bytes (topUp s)).1 = _
  unfold usedFuel
  have hc := hc.trans (topUp_fuel h)
  have arith : ∀ u x f k : Nat, u + x = f → k + (f - u) = k + x := fun u x f k h => by omega
  exact arith _ _ _ _ hc

example : Finished (lookBack none seven three [1] 1 4 s0 .zero).2 := by
  refine ⟨?_, ?_⟩ <;> intro h <;> cases h

/-! ### Export -/

theorem C109.got_addTo (out : String → Option Metrics) (name x : String) (m : Metrics) (c : Counter) :
    got (addTo out name m) x (·.get c) = got out x (·.get c) + if x = name then m.get c else 0 := by
  unfold got addTo
  by_cases h : x = name
  · subst h
    rw [if_pos rfl, if_pos rfl]
    cases out x with
    | none => cases c <;> simp [Metrics.append, Metrics.zero, Metrics.get]
    | some e => cases c <;> rfl
  · rw [if_neg h, if_neg h]
    rfl

theorem C109.frac_one (m : Metrics) (c : Counter) : (frac m 1).get c = m.get c := by
  cases c <;> simp [frac, addFuel, Metrics.get]

theorem C109.export_sum : ∀ (l : List (List String × Metrics)) (out : String → Option Metrics),
    (∀ e ∈ l, e.1.length = 1) → ∃ o, exportAll l out = some o ∧
      ∀ x c, got o x (·.get c) = got out x (·.get c) + sumOf l x (·.get c)
  | [], out, _ => ⟨out, rfl, fun _ _ => rfl⟩
  | (names, m) :: l, out, h => by
    have hl : names.length = 1 := h _ (List.mem_cons_self)
    obtain ⟨n, rfl⟩ := List.length_eq_one_iff.1 hl
    obtain ⟨o, h1, h2⟩ := C109.export_sum l (addTo out n (frac m 1)) fun e he => h e (List.mem_cons_of_mem _ he)
    refine ⟨o, ?_, fun x c => ?_⟩
    · unfold exportAll
      rw [if_neg (by rw [hl]; decide)]
      exact h1
    · rw [h2 x c, C109.got_addTo, C109.frac_one]
      unfold sumOf
      rw [List.filter_cons]
      by_cases hx : x = n
      · subst hx
        rw [if_pos rfl, if_pos (by simp), List.map_cons, List.sum_cons]
        dsimp only
        omega
      · rw [if_neg hx, if_neg (by simp; exact fun he => hx he.symm)]
        omega

/-- When every module has its own name — so it is in the broker — what is exported for a name is the sum of what was
counted for the modules with that name. -/
theorem C109_export_partial (l : List (List String × Metrics)) (h : ∀ e ∈ l, e.1.length = 1) :
    ∃ o, exportAll l (fun _ => none) = some o ∧ ∀ x c, got o x (·.get c) = sumOf l x (·.get c) := by
  obtain ⟨o, h1, h2⟩ := C109.export_sum l (fun _ => none) h
  refine ⟨o, h1, fun x c => ?_⟩
  rw [h2 x c]
  show 0 + _ = _
  omega

theorem C109.sum_modify (x : String) (c : Counter) (d : Metrics) : ∀ (l : List (List String × Metrics)) (i : Nat),
    sumOf (l.modify i fun e => (e.1, e.2.append d)) x (·.get c) =
      sumOf l x (·.get c) + if (l.map (·.1))[i]? = some [x] then d.get c else 0
  | [], i => by cases i <;> rfl
  | e :: l, 0 => by
    have ha : (e.2.append d).get c = e.2.get c + d.get c := by cases c <;> rfl
    show sumOf ((e.1, e.2.append d) :: l) x _ = _ + if some e.1 = some [x] then _ else _
    unfold sumOf
    rw [List.filter_cons, List.filter_cons]
    by_cases hx : e.1 = [x]
    · simp only [hx, decide_true, if_true, List.map_cons, List.sum_cons]
      rw [ha]
      omega
    · have hx' : ¬some e.1 = some [x] := fun h => hx (by injection h)
      rw [if_neg (by simpa using hx), if_neg (by simpa using hx), if_neg hx']
      rfl
  | e :: l, i + 1 => by
    have ih := C109.sum_modify x c d l i
    show sumOf (e :: l.modify i fun e => (e.1, e.2.append d)) x _ = _ + if (l.map (·.1))[i]? = some [x] then _ else _
    unfold sumOf at ih ⊢
    rw [List.filter_cons, List.filter_cons]
    by_cases hx : e.1 = [x]
    · rw [if_pos (by simpa using hx), if_pos (by simpa using hx), List.map_cons, List.sum_cons, List.map_cons,
        List.sum_cons, ih]
      omega
    · rw [if_neg (by simpa using hx), if_neg (by simpa using hx), ih]

theorem C109.sum_reset (x : String) (c : Counter) : ∀ (l : List (List String × Metrics)),
    sumOf (resetAll l) x (·.get c) = 0
  | [] => rfl
  | e :: l => by
    have ih := C109.sum_reset x c l
    show sumOf ((e.1, Metrics.zero) :: resetAll l) x _ = 0
    unfold sumOf at ih ⊢
    rw [List.filter_cons]
    split
    · rw [List.map_cons, List.sum_cons, ih]
      cases c <;> rfl
    · exact ih

/-- Nothing that is counted gets lost and nothing is exported twice: at any time, what was exported for a name and
what the counters of its modules have is what was counted for them and there was at the beginning. -/
theorem C109_kept_partial (evs : List Ev) : ∀ (s t : Sys), (∀ e ∈ s.mods, e.1.length = 1) → Sys.run evs s = some t →
    ∀ x c, t.out x c + sumOf t.mods x (·.get c) =
      s.out x c + sumOf s.mods x (·.get c) + counted (s.mods.map (·.1)) x c evs := by
  induction evs with
  | nil =>
    intro s t _ hr x c
    injection hr with hr
    subst hr
    rfl
  | cons e l ih =>
    intro s t hs hr x c
    cases e with
    | count i d =>
      have hnames : (s.mods.modify i fun e => (e.1, e.2.append d)).map (·.1) = s.mods.map (·.1) := by
        apply List.ext_getElem?
        intro k
        rw [List.getElem?_map, List.getElem?_map, List.getElem?_modify]
        by_cases hk : i = k
        · subst hk
          cases s.mods[i]? <;> simp
        · cases s.mods[k]? <;> simp [hk]
      have := ih { s with mods := s.mods.modify i fun e => (e.1, e.2.append d) } t ?_ hr x c
      · rw [this]
        dsimp only
        rw [hnames, C109.sum_modify]
        show _ = s.out x c + sumOf s.mods x (·.get c) +
          ((if (s.mods.map (·.1))[i]? = some [x] then d.get c else 0) + counted (s.mods.map (·.1)) x c l)
        omega
      · intro e he
        have : e.1 ∈ s.mods.map (·.1) := hnames ▸ List.mem_map.2 ⟨e, he, rfl⟩
        obtain ⟨e', he', hee⟩ := List.mem_map.1 this
        rw [← hee]
        exact hs e' he'
    | exported =>
      obtain ⟨o, h1, h2⟩ := C109_export_partial s.mods hs
      have hst : s.step .exported = some ⟨resetAll s.mods, fun n c => s.out n c + got o n (·.get c)⟩ := by
        show (exportAll s.mods fun _ => none).map _ = _
        rw [h1]
        rfl
      unfold Sys.run at hr
      rw [hst] at hr
      have hnames : (resetAll s.mods).map (·.1) = s.mods.map (·.1) := by
        unfold resetAll
        rw [List.map_map]
        rfl
      have := ih _ t ?_ hr x c
      · rw [this]
        dsimp only
        rw [hnames, C109.sum_reset, h2 x c]
        show _ = s.out x c + sumOf s.mods x (·.get c) + counted (s.mods.map (·.1)) x c l
        omega
      · intro e he
        obtain ⟨e', he', rfl⟩ := List.mem_map.1 he
        exact hs e' he'

example : ∃ t, Sys.run [.count 0 ⟨1, 2, 0, 1, 9, 1⟩, .count 2 ⟨1, 0, 0, 1, 4, 1⟩, .exported, .count 1 ⟨5, 0, 0, 1, 8, 1⟩,
    .exported] one = some t ∧ t.out "a" .fuel = 13 ∧ t.out "b" .bytesIn = 5 := by
  refine ⟨_, rfl, ?_, ?_⟩ <;> decide

/-- **C109 violated: modules with several names.**  The counters are divided, and the remainder is dropped when they
are reset: with two names and a call before each export no call is ever exported. -/
theorem C109_violated_split (a b : String) (m : Metrics) (h : m.invocations = 1) :
    ∃ o, exportAll [([a, b], m)] (fun _ => none) = some o ∧ (∀ x, got o x (·.invocations) = 0) ∧
      resetAll [([a, b], m)] = [([a, b], .zero)] := by
  refine ⟨_, rfl, fun x => ?_, rfl⟩
  show got (addTo (addTo (fun _ => none) a (frac m 2)) b (frac m 2)) x (·.get .invocations) = 0
  rw [C109.got_addTo, C109.got_addTo]
  have : (frac m 2).get .invocations = 0 := by
    show m.invocations / 2 = 0
    rw [h]
  rw [this]
  show 0 + _ + _ = 0
  split <;> split <;> rfl

/-- **C109 violated: a module without a name** is a division by zero. -/
theorem C109_violated_unnamed (m : Metrics) (l : List (List String × Metrics)) (out : String → Option Metrics) :
    exportAll (([], m) :: l) out = none := rfl

/-- **C109 violated: idle modules.**  Each export adds a millisecond of processor time to each module, also if it was
not called at all. -/
theorem C109_violated_idle (a : String) : ∃ o, exportAll [([a], .zero)] (fun _ => none) = some o ∧
    got o a (·.cpu) = 1 ∧ got o a (·.invocations) = 0 := by
  refine ⟨_, rfl, ?_, ?_⟩ <;> simp [got, addTo, frac, addFuel, Metrics.zero, Metrics.append]

end Verif.Props
