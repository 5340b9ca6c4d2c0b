/-!
# SmartModules and the process they run in
(`fluvio-smartengine/src/engine/wasmtime/{memory,instance,state,limiter}.rs`, `transforms/{simple_transform,aggregate}.rs`)

A module is any function that gives what it does when called: writes to its linear memory, growth of it, calls of
`copy_records` and the fuel it burns.  WebAssembly itself — that the instructions of a module can do nothing else —
is trusted; the functions of WASI (output to the console) are not modelled.  The memory of the process is a function
of addresses; the linear memory of an instance begins at `lo`, where it stays.
-/

namespace Verif.Smart.Host

/-- `DEFAULT_FUEL` — state.rs:11-14 -/
def fullFuel : Nat := (2 ^ 63 - 1) / 2

/-- `SmartModuleInstanceContext` — instance.rs:127-134: the linear memory, its declared maximum, `records_cb` -/
structure Inst where
  lo : Int
  size : Nat
  max : Option Nat
  cb : Option (BitVec 32 × BitVec 32)
deriving DecidableEq

/-- The process as far as one module can see it: its memory, the instance, the fuel of the store. -/
structure St where
  host : Int → UInt8
  inst : Inst
  fuel : Nat

/-- What a module does. -/
inductive Act where
  | write (off : Nat) (b : UInt8)
  | grow (by_ : Nat)
  | copy (ptr len : BitVec 32)
  | burn (n : Nat)
deriving DecidableEq

/-- `desired > limit`, if there is one -/
def over (limit : Option Nat) (desired : Nat) : Bool :=
  match limit with
  | some l => decide (desired > l)
  | none => false

/-- `memory_growing` — limiter.rs:18-39: an error has the current size, the one requested and the limit -/
def memoryGrowing (limit : Option Nat) (current desired : Nat) (maximum : Option Nat) : Except (Nat × Nat × Nat) Unit :=
  if over limit desired = true then
    .error (current, desired, (limit.or maximum).getD 0)
  else if over maximum desired = true then
    .error (current, desired, (limit.or maximum).getD 0)
  else .ok ()

/-- A memory is made when a module is instantiated, with the size it declares — state.rs:71-88 (`instantiate`): the
limiter is asked for it as for growth. -/
def create (limit : Option Nat) (lo : Int) (min : Nat) (maximum : Option Nat) : Option Inst :=
  match memoryGrowing limit 0 min maximum with
  | .ok _ => if min ≤ 2 ^ 32 then some ⟨lo, min, maximum, none⟩ else none
  | .error _ => none

/-- One thing a module does; false: it is stopped.  The memory of a module has at most 4 GiB (it is not grown then,
which the module is told); `copy_records` — instance.rs:149-161; running out of fuel is a trap. -/
def step (limit : Option Nat) : Act → St → St × Bool
  | .write off b, s =>
    if off < s.inst.size then ({ s with host := fun a => if a = s.inst.lo + off then b else s.host a }, true)
    else (s, false)
  | .grow n, s =>
    match memoryGrowing limit s.inst.size (s.inst.size + n) s.inst.max with
    | .ok _ => if s.inst.size + n ≤ 2 ^ 32 then ({ s with inst := { s.inst with size := s.inst.size + n } }, true)
      else (s, true)
    | .error _ => (s, false)
  | .copy ptr len, s => ({ s with inst := { s.inst with cb := some (ptr, len) } }, true)
  | .burn n, s => if n ≤ s.fuel then ({ s with fuel := s.fuel - n }, true) else ({ s with fuel := 0 }, false)

def run (limit : Option Nat) : List Act → St → St × Bool
  | [], s => (s, true)
  | a :: l, s => if (step limit a s).2 then run limit l (step limit a s).1 else step limit a s

/-- A module: what `alloc` and its function do, and what they return if they are not stopped (`none`: a trap, or the
function is missing).  It may depend on anything. -/
structure Guest where
  alloc : BitVec 32 → St → List Act × Option (BitVec 32)
  fn : BitVec 32 → BitVec 32 → St → List Act × Option (BitVec 32)

/-- `raw.copy_from(bytes)` -/
def blit (host : Int → UInt8) (at_ : Int) (bytes : List UInt8) : Int → UInt8 := fun a =>
  if at_ ≤ a ∧ a < at_ + bytes.length then bytes.getD (a - at_).toNat 0 else host a

def slice (host : Int → UInt8) (at_ : Int) (n : Nat) : List UInt8 := (List.range n).map fun i : Nat => host (at_ + (i : Int))

/-- `copy_memory_to_instance` — memory.rs:13-57: where `alloc` says, seen from the beginning of the memory -/
def copyTo (limit : Option Nat) (g : Guest) (bytes : List UInt8) (s : St) : St × Option (BitVec 32) :=
  let x := g.alloc (BitVec.ofNat 32 bytes.length) s
  match run limit x.1 s with
  | (t, false) => (t, none)
  | (t, true) =>
    match x.2 with
    | none => (t, none)
    | some p => ({ t with host := blit t.host (t.inst.lo + p.toInt) bytes }, some p)

/-- `write_input` — instance.rs:188-206, `bytes` is the input encoded -/
def writeInput (limit : Option Nat) (g : Guest) (bytes : List UInt8) (s : St) : St × Option (BitVec 32) :=
  copyTo limit g bytes { s with inst := { s.inst with cb := none } }

/-- What `copy_memory_from` allocates in the process — instance.rs:281 -/
def outputSize (len : BitVec 32) : Nat := len.toNat

/-- `copy_memory_from` — instance.rs:280-284; `Memory::read` of wasmtime checks the range, the pointer is extended
with its sign -/
def copyFrom (s : St) (ptr len : BitVec 32) : Option (List UInt8) :=
  if (ptr.signExtend 64).toNat + outputSize len ≤ s.inst.size then
    some (slice s.host (s.inst.lo + ((ptr.signExtend 64).toNat : Int)) (outputSize len))
  else none

/-- `read_output` up to decoding — instance.rs:208-213: nothing if there is no output or it cannot be read -/
def readBytes (s : St) : List UInt8 :=
  match s.inst.cb with
  | none => []
  | some (ptr, len) => (copyFrom s ptr len).getD []

/-- How a call ends: the input could not be written; a trap; a negative status; the output cannot be decoded; or
with an output. -/
inductive End (α : Type) where
  | noInput
  | trap
  | status (r : BitVec 32)
  | badOutput
  | done (o : α)

/-- `SimpleTansform::process`, `SmartModuleAggregate::process` without metrics — simple_transform.rs:55-77,
aggregate.rs:71-98; `init.rs`:46-66 and `look_back.rs`:40-62 likewise -/
def process {α : Type} (limit : Option Nat) (g : Guest) (dec : List UInt8 → Option α) (bytes : List UInt8) (s : St) :
    St × End α :=
  match writeInput limit g bytes s with
  | (t, none) => (t, .noInput)
  | (t, some p) =>
    let y := g.fn p (BitVec.ofNat 32 bytes.length) t
    match run limit y.1 t with
    | (u, false) => (u, .trap)
    | (u, true) =>
      match y.2 with
      | none => (u, .trap)
      | some r => if r.toInt < 0 then (u, .status r) else
        match dec (readBytes u) with
        | none => (u, .badOutput)
        | some o => (u, .done o)

/-! ## Specification -/

/-- **Specification.** The module's allocator does what it should: it is given the number of bytes and returns where
in its memory there is room for them. -/
def Honest (limit : Option Nat) (g : Guest) : Prop :=
  ∀ len s p, (g.alloc len s).2 = some p → (run limit (g.alloc len s).1 s).2 = true →
    p.toNat + len.toNat ≤ (run limit (g.alloc len s).1 s).1.inst.size

/-- **Specification.** Addresses in the linear memory. -/
def Inside (i : Inst) (a : Int) : Prop := i.lo ≤ a ∧ a < i.lo + i.size

/-- **Specification.** The last output a module gave among the things it did. -/
def lastCopy (l : List Act) : Option (BitVec 32 × BitVec 32) :=
  (l.filterMap fun a => match a with | .copy p n => some (p, n) | _ => none).getLast?

/-! ## Lemmas -/

theorem growing_ok {limit : Option Nat} {c d : Nat} {m : Option Nat} {u : Unit}
    (h : memoryGrowing limit c d m = .ok u) : (∀ l, limit = some l → d ≤ l) ∧ ∀ x, m = some x → d ≤ x := by
  unfold memoryGrowing at h
  by_cases h1 : over limit d = true
  · rw [if_pos h1] at h; cases h
  · rw [if_neg h1] at h
    by_cases h2 : over m d = true
    · rw [if_pos h2] at h; cases h
    · refine ⟨fun l hl => ?_, fun x hx => ?_⟩
      · subst hl
        simp only [over, decide_eq_true_eq] at h1
        omega
      · subst hx
        simp only [over, decide_eq_true_eq] at h2
        omega

theorem growing_of {limit : Option Nat} {c d : Nat} {m : Option Nat} (h1 : ∀ l, limit = some l → d ≤ l)
    (h2 : ∀ x, m = some x → d ≤ x) : memoryGrowing limit c d m = .ok () := by
  unfold memoryGrowing
  rw [if_neg, if_neg]
  · cases m with
    | none => exact Bool.noConfusion
    | some x => simp only [over, decide_eq_true_eq]; have := h2 x rfl; omega
  · cases limit with
    | none => exact Bool.noConfusion
    | some l => simp only [over, decide_eq_true_eq]; have := h1 l rfl; omega

theorem step_write (limit : Option Nat) (off : Nat) (b : UInt8) (s : St) : step limit (.write off b) s =
    if off < s.inst.size then ({ s with host := fun a => if a = s.inst.lo + off then b else s.host a }, true)
    else (s, false) := rfl

theorem step_grow (limit : Option Nat) (n : Nat) (s : St) : step limit (.grow n) s =
    match memoryGrowing limit s.inst.size (s.inst.size + n) s.inst.max with
    | .ok _ => if s.inst.size + n ≤ 2 ^ 32 then ({ s with inst := { s.inst with size := s.inst.size + n } }, true)
      else (s, true)
    | .error _ => (s, false) := rfl

theorem step_burn (limit : Option Nat) (n : Nat) (s : St) : step limit (.burn n) s =
    if n ≤ s.fuel then ({ s with fuel := s.fuel - n }, true) else ({ s with fuel := 0 }, false) := rfl

theorem step_inst (limit : Option Nat) (a : Act) (s : St) :
    (step limit a s).1.inst.lo = s.inst.lo ∧ (step limit a s).1.inst.max = s.inst.max ∧
    s.inst.size ≤ (step limit a s).1.inst.size := by
  cases a with
  | write off b => rw [step_write]; split <;> exact ⟨rfl, rfl, Nat.le_refl _⟩
  | copy p n => exact ⟨rfl, rfl, Nat.le_refl _⟩
  | burn n => rw [step_burn]; split <;> exact ⟨rfl, rfl, Nat.le_refl _⟩
  | grow n =>
    rw [step_grow]
    split
    · split
      · exact ⟨rfl, rfl, Nat.le_add_right _ _⟩
      · exact ⟨rfl, rfl, Nat.le_refl _⟩
    · exact ⟨rfl, rfl, Nat.le_refl _⟩

theorem run_inst (limit : Option Nat) : ∀ (l : List Act) (s : St),
    (run limit l s).1.inst.lo = s.inst.lo ∧ (run limit l s).1.inst.max = s.inst.max ∧
    s.inst.size ≤ (run limit l s).1.inst.size
  | [], _ => ⟨rfl, rfl, Nat.le_refl _⟩
  | a :: l, s => by
    obtain ⟨h1, h2, h3⟩ := step_inst limit a s
    unfold run
    split
    · obtain ⟨k1, k2, k3⟩ := run_inst limit l (step limit a s).1
      exact ⟨k1.trans h1, k2.trans h2, Nat.le_trans h3 k3⟩
    · exact ⟨h1, h2, h3⟩

/-- sizes within limits -/
def SizeOk (limit : Option Nat) (i : Inst) : Prop :=
  (∀ l, limit = some l → i.size ≤ l) ∧ (∀ m, i.max = some m → i.size ≤ m) ∧ i.size ≤ 2 ^ 32

theorem step_size (limit : Option Nat) (a : Act) (s : St) (h : SizeOk limit s.inst) :
    SizeOk limit (step limit a s).1.inst := by
  cases a with
  | write off b => rw [step_write]; split <;> exact h
  | copy p n => exact h
  | burn n => rw [step_burn]; split <;> exact h
  | grow n =>
    rw [step_grow]
    split
    · rename_i hg
      split
      · rename_i hle
        obtain ⟨h1, h2⟩ := growing_ok hg
        exact ⟨h1, h2, hle⟩
      · exact h
    · exact h

theorem run_size (limit : Option Nat) : ∀ (l : List Act) (s : St), SizeOk limit s.inst →
    SizeOk limit (run limit l s).1.inst
  | [], _, h => h
  | a :: l, s, h => by
    unfold run
    split
    · exact run_size limit l _ (step_size limit a s h)
    · exact step_size limit a s h

theorem step_host (limit : Option Nat) (a : Act) (s : St) (x : Int) (h : ¬Inside s.inst x) :
    (step limit a s).1.host x = s.host x := by
  cases a with
  | write off b =>
    rw [step_write]
    split
    · rename_i ho
      show (if x = s.inst.lo + (off : Int) then b else s.host x) = s.host x
      rw [if_neg]
      intro he
      exact h ⟨by omega, by omega⟩
    · rfl
  | copy p n => rfl
  | burn n => rw [step_burn]; split <;> rfl
  | grow n =>
    rw [step_grow]
    split
    · split <;> rfl
    · rfl

theorem inside_mono {i j : Inst} (h1 : j.lo = i.lo) (h2 : i.size ≤ j.size) {x : Int} (h : Inside i x) : Inside j x :=
  ⟨by rw [h1]; exact h.1, by rw [h1]; have := h.2; omega⟩

theorem run_host (limit : Option Nat) : ∀ (l : List Act) (s : St) (x : Int), ¬Inside (run limit l s).1.inst x →
    (run limit l s).1.host x = s.host x
  | [], _, _, _ => rfl
  | a :: l, s, x, h => by
    obtain ⟨h1, _, h3⟩ := step_inst limit a s
    have hout : ¬Inside s.inst x := fun hi => by
      obtain ⟨k1, _, k3⟩ := run_inst limit (a :: l) s
      exact h (inside_mono k1 k3 hi)
    by_cases hc : (step limit a s).2 = true
    · have hr : run limit (a :: l) s = run limit l (step limit a s).1 := by rw [run, if_pos hc]
      rw [hr] at h ⊢
      exact (run_host limit l _ x h).trans (step_host limit a s x hout)
    · have hr : run limit (a :: l) s = step limit a s := by rw [run, if_neg hc]
      rw [hr]
      exact step_host limit a s x hout

theorem step_fuel (limit : Option Nat) (a : Act) (s : St) : (step limit a s).1.fuel ≤ s.fuel := by
  cases a with
  | write off b => rw [step_write]; split <;> exact Nat.le_refl _
  | copy p n => exact Nat.le_refl _
  | burn n => rw [step_burn]; split <;> simp
  | grow n =>
    rw [step_grow]
    split
    · split <;> exact Nat.le_refl _
    · exact Nat.le_refl _

theorem run_fuel (limit : Option Nat) : ∀ (l : List Act) (s : St), (run limit l s).1.fuel ≤ s.fuel
  | [], _ => Nat.le_refl _
  | a :: l, s => by
    unfold run
    split
    · exact Nat.le_trans (run_fuel limit l _) (step_fuel limit a s)
    · exact step_fuel limit a s

theorem lastCopy_cons (a : Act) (l : List Act) :
    lastCopy (a :: l) = (lastCopy l).or (match a with | .copy p n => some (p, n) | _ => none) := by
  cases a with
  | copy p n =>
    show (List.getLast? ((p, n) :: _)) = _
    rw [List.getLast?_cons]
    unfold lastCopy
    cases (List.filterMap (fun a => match a with | Act.copy p n => some (p, n) | _ => none) l).getLast? <;> rfl
  | _ => unfold lastCopy; simp

theorem step_cb (limit : Option Nat) (a : Act) (s : St) :
    (step limit a s).1.inst.cb = (match a with | .copy p n => some (p, n) | _ => none).or s.inst.cb := by
  cases a with
  | write off b => rw [step_write]; split <;> rfl
  | copy p n => rfl
  | burn n => rw [step_burn]; split <;> rfl
  | grow n =>
    rw [step_grow]
    split
    · split <;> rfl
    · rfl

theorem run_cb (limit : Option Nat) : ∀ (l : List Act) (s : St), (run limit l s).2 = true →
    (run limit l s).1.inst.cb = (lastCopy l).or s.inst.cb
  | [], _, _ => rfl
  | a :: l, s, h => by
    by_cases hc : (step limit a s).2 = true
    · have hr : run limit (a :: l) s = run limit l (step limit a s).1 := by rw [run, if_pos hc]
      rw [hr] at h ⊢
      rw [run_cb limit l _ h, step_cb, lastCopy_cons, Option.or_assoc]
    · have hr : run limit (a :: l) s = step limit a s := by rw [run, if_neg hc]
      rw [hr] at h
      exact absurd h hc

theorem lastCopy_append (l m : List Act) : lastCopy (l ++ m) = (lastCopy m).or (lastCopy l) := by
  unfold lastCopy
  rw [List.filterMap_append, List.getLast?_append]

theorem blit_out (host : Int → UInt8) (at_ : Int) (bytes : List UInt8) (x : Int)
    (h : ¬(at_ ≤ x ∧ x < at_ + bytes.length)) : blit host at_ bytes x = host x := if_neg h

theorem blit_in (host : Int → UInt8) (at_ : Int) (bytes : List UInt8) (i : Nat) (h : i < bytes.length) :
    blit host at_ bytes (at_ + i) = bytes[i] := by
  unfold blit
  rw [if_pos ⟨by omega, by omega⟩]
  have : (at_ + (i : Int) - at_).toNat = i := by omega
  rw [this, List.getD_eq_getElem?_getD, List.getElem?_eq_getElem h]
  rfl

/-- the state before and after the two calls of a module -/
theorem copyTo_cases (limit : Option Nat) (g : Guest) (bytes : List UInt8) (s : St) :
    ((copyTo limit g bytes s) = ((run limit (g.alloc (BitVec.ofNat 32 bytes.length) s).1 s).1, none)) ∨
    ∃ p, (g.alloc (BitVec.ofNat 32 bytes.length) s).2 = some p ∧
      (run limit (g.alloc (BitVec.ofNat 32 bytes.length) s).1 s).2 = true ∧
      copyTo limit g bytes s = ({ (run limit (g.alloc (BitVec.ofNat 32 bytes.length) s).1 s).1 with
        host := blit (run limit (g.alloc (BitVec.ofNat 32 bytes.length) s).1 s).1.host
          ((run limit (g.alloc (BitVec.ofNat 32 bytes.length) s).1 s).1.inst.lo + p.toInt) bytes }, some p) := by
  unfold copyTo
  cases hr : run limit (g.alloc (BitVec.ofNat 32 bytes.length) s).1 s with
  | mk t b =>
    cases b with
    | false =>
      left
      dsimp only
      rw [hr]
    | true =>
      dsimp only
      rw [hr]
      cases hp : (g.alloc (BitVec.ofNat 32 bytes.length) s).2 with
      | none => exact .inl rfl
      | some p => exact .inr ⟨p, rfl, rfl, rfl⟩

theorem process_fst {α : Type} (limit : Option Nat) (g : Guest) (dec : List UInt8 → Option α) (bytes : List UInt8)
    (s t : St) (p : BitVec 32) (h : writeInput limit g bytes s = (t, some p)) :
    (process limit g dec bytes s).1 = (run limit (g.fn p (BitVec.ofNat 32 bytes.length) t).1 t).1 := by
  unfold process
  rw [h]
  dsimp only
  cases hr : run limit (g.fn p (BitVec.ofNat 32 bytes.length) t).1 t with
  | mk u b =>
    cases b with
    | false => rfl
    | true =>
      dsimp only
      cases (g.fn p (BitVec.ofNat 32 bytes.length) t).2 with
      | none => rfl
      | some r =>
        dsimp only
        split
        · rfl
        · cases dec (readBytes u) <;> rfl

theorem process_none {α : Type} (limit : Option Nat) (g : Guest) (dec : List UInt8 → Option α) (bytes : List UInt8)
    (s t : St) (h : writeInput limit g bytes s = (t, none)) : process limit g dec bytes s = (t, .noInput) := by
  unfold process
  rw [h]

/-- A property of the instance and the fuel that every act keeps, is kept by a call. -/
theorem process_keeps {α : Type} (P : Inst → Nat → Prop) (limit : Option Nat)
    (hrun : ∀ l (s : St), P s.inst s.fuel → P (run limit l s).1.inst (run limit l s).1.fuel)
    (hcb : ∀ i n, P i n → P { i with cb := none } n)
    (g : Guest) (dec : List UInt8 → Option α) (bytes : List UInt8) (s : St) (h : P s.inst s.fuel) :
    P (process limit g dec bytes s).1.inst (process limit g dec bytes s).1.fuel := by
  have h0 : P ({ s with inst := { s.inst with cb := none } } : St).inst
      ({ s with inst := { s.inst with cb := none } } : St).fuel := hcb _ _ h
  rcases copyTo_cases limit g bytes { s with inst := { s.inst with cb := none } } with hc | ⟨p, _, _, hc⟩
  · rw [process_none limit g dec bytes s _ hc]
    exact hrun _ _ h0
  · rw [process_fst limit g dec bytes s _ p hc]
    exact hrun _ _ (hrun _ _ h0)

end Verif.Smart.Host
