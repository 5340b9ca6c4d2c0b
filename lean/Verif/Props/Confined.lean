import Verif.Smart.Host
/-!
# C108: a SmartModule is confined to its memory and its fuel

The model is in `Verif/Smart/Host.lean`.
-/

namespace Verif.Props
open Verif.Smart.Host

namespace C108

/-- a module that copies its input to the output -/
def echo : Guest where
  alloc _ _ := ([.burn 5], some 16#32)
  fn p n _ := ([.burn 7, .copy p n], some 0#32)

/-- the same with a pointer to somewhere else -/
def evil (p : BitVec 32) : Guest where
  alloc _ _ := ([], some p)
  fn _ _ _ := ([], some 0#32)

def page : Inst := ⟨1000, 65536, none, none⟩
def start : St := ⟨fun _ => 7, page, fullFuel⟩

def whole (l : List UInt8) : Option (List UInt8) := some l

/-- **Specification.** The memory all modules of a chain have. -/
def total (l : List Inst) : Nat := (l.map (·.size)).sum

end C108
open C108

/-! ### Memory -/

/-- Whatever a module does, its memory stays within the limit of the broker, the maximum it declares and 4 GiB. -/
theorem C108_limit {α : Type} (limit : Option Nat) (g : Guest) (dec : List UInt8 → Option α) (bytes : List UInt8)
    (s : St) (h : SizeOk limit s.inst) : SizeOk limit (process limit g dec bytes s).1.inst :=
  process_keeps (fun i _ => SizeOk limit i) limit (fun l s => run_size limit l s) (fun _ _ h => h) g dec bytes s h

/-- So it is from the beginning; with a limit of the broker, a module that declares more cannot be used. -/
theorem C108_create (limit : Option Nat) (lo : Int) (min : Nat) (maximum : Option Nat) (i : Inst)
    (h : create limit lo min maximum = some i) : SizeOk limit i ∧ i.lo = lo ∧ i.size = min ∧ i.max = maximum := by
  unfold create at h
  cases hg : memoryGrowing limit 0 min maximum with
  | error e => rw [hg] at h; cases h
  | ok u =>
    rw [hg] at h
    dsimp only at h
    by_cases hm : min ≤ 2 ^ 32
    · rw [if_pos hm] at h
      injection h with h
      subst h
      exact ⟨⟨(growing_ok hg).1, (growing_ok hg).2, hm⟩, rfl, rfl, rfl⟩
    · rw [if_neg hm] at h
      cases h

/-- What exceeds no limit is not refused. -/
theorem C108_allowed (limit : Option Nat) (s : St) (n : Nat) (h : SizeOk limit { s.inst with size := s.inst.size + n }) :
    (step limit (.grow n) s).2 = true ∧ (step limit (.grow n) s).1.inst.size = s.inst.size + n := by
  rw [step_grow, growing_of h.1 h.2.1]
  dsimp only
  have : s.inst.size + n ≤ 2 ^ 32 := h.2.2
  rw [if_pos this]
  exact ⟨rfl, rfl⟩

example : SizeOk (some 1000000) page ∧ create (some 1000000) 1000 65536 none = some page ∧
    create (some 65535) 1000 65536 none = none := by
  refine ⟨⟨fun l h => ?_, fun _ h => (nomatch h), by decide⟩, by decide, by decide⟩
  injection h with h
  subst h
  decide

/-- The modules of a chain together have at most the limit for each of them.  Missing: the limit is called that of
the store (engine.rs:25, 63), but it is one for each memory (`C108_violated_total`). -/
theorem C108_total_partial (l : Nat) (insts : List Inst) (h : ∀ i ∈ insts, SizeOk (some l) i) :
    total insts ≤ insts.length * l := by
  induction insts with
  | nil => exact Nat.zero_le _
  | cons i is ih =>
    have h1 := (h i (List.mem_cons_self)).1 l rfl
    have h2 := ih fun j hj => h j (List.mem_cons_of_mem _ hj)
    show i.size + total is ≤ (is.length + 1) * l
    rw [Nat.succ_mul]
    omega

/-- **C108 violated: the limit of a store.**  For every limit up to 4 GiB two modules of a chain may each have as
much as the limit. -/
theorem C108_violated_total (l : Nat) (h0 : 0 < l) (h1 : l ≤ 2 ^ 32) (a b : Int) :
    ∃ i j, create (some l) a l none = some i ∧ create (some l) b l none = some j ∧ total [i, j] > l := by
  have : ∀ lo, create (some l) lo l none = some ⟨lo, l, none, none⟩ := by
    intro lo
    unfold create
    rw [growing_of (fun x hx => by injection hx with hx; omega) fun _ hx => by cases hx]
    dsimp only
    rw [if_pos h1]
  refine ⟨_, _, this a, this b, ?_⟩
  show l + (l + 0) > l
  omega

theorem C108.signed {p : BitVec 32} (h : p.toNat < 2 ^ 31) : p.toInt = p.toNat := by
  rw [BitVec.toInt_eq_toNat_cond, if_pos]
  have h2 : (2 : Nat) ^ 31 = 2147483648 := by decide
  have h3 : (2 : Nat) ^ 32 = 4294967296 := by decide
  omega

/-- A call changes nothing in the process but the module's own memory, if the module's allocator gives room in that
memory and the memory has at most 2 GiB.  Missing: other modules (`C108_violated_escape`) and larger memories
(`C108_violated_high`). -/
theorem C108_confined_partial {α : Type} (l : Nat) (hl : l ≤ 2 ^ 31) (g : Guest) (hg : Honest (some l) g)
    (dec : List UInt8 → Option α) (bytes : List UInt8) (hb : bytes.length < 2 ^ 32) (s : St)
    (h : SizeOk (some l) s.inst) (a : Int) (ha : ¬Inside (process (some l) g dec bytes s).1.inst a) :
    (process (some l) g dec bytes s).1.host a = s.host a := by
  have hk := process_keeps (fun i _ => i.lo = s.inst.lo) (some l) (fun l' s h => (run_inst (some l) l' s).1.trans h)
    (fun _ _ h => h) g dec bytes s rfl
  rcases copyTo_cases (some l) g bytes { s with inst := { s.inst with cb := none } } with hc | ⟨p, hp, hr, hc⟩
  · rw [process_none (some l) g dec bytes s _ hc] at ha ⊢
    exact run_host (some l) _ _ a ha
  · rw [process_fst (some l) g dec bytes s _ p hc] at ha ⊢
    rw [run_host (some l) _ _ a ha]
    have hon := hg _ _ p hp hr
    generalize hs0 : ({ s with inst := { s.inst with cb := none } } : St) = s0 at *
    have hz : SizeOk (some l) s0.inst := by rw [← hs0]; exact h
    have hsz := (run_size (some l) (g.alloc (BitVec.ofNat 32 bytes.length) s0).1 s0 hz).1 l rfl
    generalize ht : run (some l) (g.alloc (BitVec.ofNat 32 bytes.length) s0).1 s0 = t at *
    have hn : (BitVec.ofNat 32 bytes.length).toNat = bytes.length := by
      rw [BitVec.toNat_ofNat]; exact Nat.mod_eq_of_lt hb
    rw [hn] at hon
    have hout : ¬Inside t.1.inst a := by
      intro hi
      apply ha
      have := run_inst (some l) (g.fn p (BitVec.ofNat 32 bytes.length)
        { t.1 with host := blit t.1.host (t.1.inst.lo + p.toInt) bytes }).1
        ({ t.1 with host := blit t.1.host (t.1.inst.lo + p.toInt) bytes } : St)
      exact inside_mono this.1 this.2.2 hi
    show blit t.1.host (t.1.inst.lo + p.toInt) bytes a = s.host a
    rw [blit_out]
    · rw [← ht] at hout ⊢
      rw [run_host (some l) _ _ a hout, ← hs0]
    · rintro ⟨k1, k2⟩
      have hlt : p.toNat < 2 ^ 31 := by omega
      rw [C108.signed hlt] at k1 k2
      exact hout ⟨by omega, by omega⟩

/-- In particular the memory of the other modules of the chain is as before. -/
theorem C108_others_partial {α : Type} (l : Nat) (hl : l ≤ 2 ^ 31) (g : Guest) (hg : Honest (some l) g)
    (dec : List UInt8 → Option α) (bytes : List UInt8) (hb : bytes.length < 2 ^ 32) (s : St)
    (h : SizeOk (some l) s.inst) (j : Inst) (hj : SizeOk (some l) j)
    (hd : j.lo + 2 ^ 32 ≤ s.inst.lo ∨ s.inst.lo + 2 ^ 32 ≤ j.lo) :
    slice (process (some l) g dec bytes s).1.host j.lo j.size = slice s.host j.lo j.size := by
  unfold slice
  refine List.map_congr_left fun i hi => ?_
  refine C108_confined_partial l hl g hg dec bytes hb s h _ fun hin => ?_
  have h1 := List.mem_range.1 hi
  have h2 := hj.2.2
  have h3 := (C108_limit (some l) g dec bytes s h).2.2
  have hk := process_keeps (fun i _ => i.lo = s.inst.lo) (some l) (fun l' s h => (run_inst (some l) l' s).1.trans h)
    (fun _ _ h => h) g dec bytes s rfl
  obtain ⟨q1, q2⟩ := hin
  rw [hk] at q1 q2
  have h4 : (2 : Nat) ^ 32 = 4294967296 := by decide
  have h5 : (2 : Int) ^ 32 = 4294967296 := by decide
  omega

example : Honest (some 65536) (evil 16#32) → False := by
  intro h
  have := h (BitVec.ofNat 32 100) ⟨fun _ => 0, ⟨0, 50, none, none⟩, 0⟩ 16#32 rfl rfl
  revert this
  decide

/-- an allocator that is honest: it says where there is room, or nothing -/
example : Honest (some 65536) { echo with alloc := fun n s => ([], if 16 + n.toNat ≤ s.inst.size then some 16#32 else none) } := by
  intro len s p hp _
  dsimp only at hp
  by_cases hc : 16 + len.toNat ≤ s.inst.size
  · rw [if_pos hc] at hp
    injection hp with hp
    subst hp
    exact hc
  · rw [if_neg hc] at hp
    cases hp

/-- **C108 violated: a module writes to the memory of the broker.**  The pointer which the module's `alloc` returns
is not checked (memory.rs:51-54).  So a module that returns any number from −2^31 to 2^31−1 has its input, which
producers choose, written that far from its memory, in the process it runs in. -/
theorem C108_violated_escape (limit : Option Nat) (p : BitVec 32) (bytes : List UInt8) (s : St) (i : Nat)
    (hi : i < bytes.length) :
    (writeInput limit (evil p) bytes s).1.host (s.inst.lo + p.toInt + i) = bytes[i] ∧
    (writeInput limit (evil p) bytes s).2 = some p :=
  ⟨blit_in s.host (s.inst.lo + p.toInt) bytes i hi, rfl⟩

example : ¬Inside page 999 ∧ (process (some 65536) (evil (BitVec.ofInt 32 (-1))) whole [1] start).1.host 999 = 1 ∧
    start.host 999 = 7 := by
  refine ⟨?_, ?_, rfl⟩
  · rintro ⟨h, _⟩
    exact absurd h (by decide)
  · decide

/-- **C108 violated: memories of more than 2 GiB.**  Pointers are unsigned in a module, but signed here.  If the
broker is configured to allow more, the input of a module whose allocator does what it should is written in front
of its memory as soon as the pointer is 2^31 or more. -/
theorem C108_violated_high (limit : Option Nat) (p : BitVec 32) (hp : 2 ^ 31 ≤ p.toNat) (bytes : List UInt8) (s : St)
    (hb : 0 < bytes.length) :
    ∃ a, a < s.inst.lo ∧ (writeInput limit (evil p) bytes s).1.host a = bytes[0] := by
  refine ⟨s.inst.lo + p.toInt + (0 : Nat), ?_, (C108_violated_escape limit p bytes s 0 hb).1⟩
  rw [BitVec.toInt_eq_toNat_cond, if_neg]
  · have := p.isLt
    have h3 : (2 : Nat) ^ 32 = 4294967296 := by decide
    omega
  · have h2 : (2 : Nat) ^ 31 = 2147483648 := by decide
    have h3 : (2 : Nat) ^ 32 = 4294967296 := by decide
    omega

/-! ### Output -/

theorem C108.signExtend_small {p : BitVec 32} (h : (p.signExtend 64).toNat ≤ 2 ^ 32) :
    (p.signExtend 64).toNat = p.toNat := by
  rw [BitVec.toNat_signExtend] at h ⊢
  have hw : (p.setWidth 64).toNat = p.toNat := by
    rw [BitVec.toNat_setWidth]
    exact Nat.mod_eq_of_lt (Nat.lt_trans p.isLt (by decide))
  rw [hw] at h ⊢
  by_cases hm : p.msb = true
  · rw [if_pos hm] at h
    have h3 : (2 : Nat) ^ 32 = 4294967296 := by decide
    have h4 : (2 : Nat) ^ 64 = 18446744073709551616 := by decide
    omega
  · rw [if_neg hm]; rfl

/-- The output of a call is what the module gave last during that very call, as it is in the module's memory at the
end of the call; if there is none in the memory, it is what no bytes at all decode to.  So it is neither that of an
earlier call, nor anything else in the process. -/
theorem C108_output {α : Type} (limit : Option Nat) (g : Guest) (dec : List UInt8 → Option α) (bytes : List UInt8)
    (s : St) (h : SizeOk limit s.inst) (o : α) (ho : (process limit g dec bytes s).2 = .done o) :
    ∃ (p : BitVec 32) (t : St), writeInput limit g bytes s = (t, some p) ∧
      let u := (process limit g dec bytes s).1
      let acts := (g.alloc (BitVec.ofNat 32 bytes.length) { s with inst := { s.inst with cb := none } }).1 ++
        (g.fn p (BitVec.ofNat 32 bytes.length) t).1
      (dec [] = some o ∧ (∀ ptr len, lastCopy acts = some (ptr, len) → u.inst.size < ptr.toNat + len.toNat ∨
          2 ^ 31 ≤ ptr.toNat)) ∨
      ∃ ptr len, lastCopy acts = some (ptr, len) ∧ ptr.toNat + len.toNat ≤ u.inst.size ∧
        dec (slice u.host (u.inst.lo + (ptr.toNat : Int)) len.toNat) = some o := by
  have hsz := C108_limit limit g dec bytes s h
  rcases copyTo_cases limit g bytes { s with inst := { s.inst with cb := none } } with hc | ⟨p, hp, hr, hc⟩
  · rw [process_none limit g dec bytes s _ hc] at ho
    cases ho
  · have hf := process_fst limit g dec bytes s _ p hc
    generalize hal : (g.alloc (BitVec.ofNat 32 bytes.length) { s with inst := { s.inst with cb := none } }) = al at *
    obtain ⟨al1, al2⟩ := al
    generalize ht : (writeInput limit g bytes s).1 = t
    have hc' : writeInput limit g bytes s = (t, some p) := by
      rw [← ht]
      unfold writeInput
      rw [hc]
    refine ⟨p, t, hc', ?_⟩
    dsimp only
    have htcb : t.inst.cb = lastCopy al1 := by
      rw [← ht]
      unfold writeInput
      rw [hc]
      dsimp only at hr ⊢
      rw [run_cb limit al1 _ hr]
      cases lastCopy al1 <;> rfl
    rw [process_fst limit g dec bytes s t p hc'] at hsz ⊢
    unfold process at ho
    rw [hc'] at ho
    dsimp only at ho
    cases hq : run limit (g.fn p (BitVec.ofNat 32 bytes.length) t).1 t with
    | mk u b =>
      rw [hq] at ho hsz
      have hrc := run_cb limit (g.fn p (BitVec.ofNat 32 bytes.length) t).1 t
      rw [hq] at hrc
      cases b with
      | false => cases ho
      | true =>
        dsimp only at ho hsz ⊢
        have hcb : u.inst.cb = lastCopy (al1 ++ (g.fn p (BitVec.ofNat 32 bytes.length) t).1) := by
          rw [hrc rfl, lastCopy_append, htcb]
        cases hy : (g.fn p (BitVec.ofNat 32 bytes.length) t).2 with
        | none => rw [hy] at ho; cases ho
        | some r =>
          rw [hy] at ho
          dsimp only at ho
          split at ho
          · cases ho
          · have hdec : dec (readBytes u) = some o := by
              cases hd : dec (readBytes u) with
              | none => rw [hd] at ho; cases ho
              | some x => rw [hd] at ho; injection ho with ho; rw [ho]
            unfold readBytes at hdec
            rw [hcb] at hdec
            cases hl : lastCopy (al1 ++ (g.fn p (BitVec.ofNat 32 bytes.length) t).1) with
            | none =>
              rw [hl] at hdec
              exact .inl ⟨hdec, fun _ _ h => (nomatch h)⟩
            | some x =>
              obtain ⟨ptr, len⟩ := x
              rw [hl] at hdec
              dsimp only at hdec
              unfold copyFrom outputSize at hdec
              by_cases hin : (ptr.signExtend 64).toNat + len.toNat ≤ u.inst.size
              · have h32 : u.inst.size ≤ 2 ^ 32 := hsz.2.2
                have he := C108.signExtend_small (p := ptr) (by omega)
                rw [if_pos hin] at hdec
                rw [he] at hdec hin
                exact .inr ⟨ptr, len, rfl, hin, hdec⟩
              · rw [if_neg hin] at hdec
                refine .inl ⟨hdec, fun ptr' len' hx => ?_⟩
                injection hx with hx
                injection hx with hx1 hx2
                subst hx1 hx2
                by_cases hb : 2 ^ 31 ≤ ptr.toNat
                · exact .inr hb
                · left
                  have : (ptr.signExtend 64).toNat = ptr.toNat := by
                    rw [BitVec.toNat_signExtend, if_neg]
                    · rw [BitVec.toNat_setWidth, Nat.add_zero]
                      exact Nat.mod_eq_of_lt (Nat.lt_trans ptr.isLt (by decide))
                    · rw [BitVec.msb_eq_decide, decide_eq_true_eq]
                      exact hb
                  rw [this] at hin
                  omega

example : (process (some 65536) echo whole [1, 2, 3] start).2 = .done [1, 2, 3] := rfl

/-- A module that says it failed, by a negative number, has no output; otherwise the output is decoded. -/
theorem C108_status {α : Type} (limit : Option Nat) (g : Guest) (dec : List UInt8 → Option α) (bytes : List UInt8)
    (s t : St) (p r : BitVec 32) (hw : writeInput limit g bytes s = (t, some p))
    (hr : (g.fn p (BitVec.ofNat 32 bytes.length) t).2 = some r)
    (hd : (run limit (g.fn p (BitVec.ofNat 32 bytes.length) t).1 t).2 = true) :
    (2 ^ 31 ≤ r.toNat → (process limit g dec bytes s).2 = .status r) ∧
    (r.toNat < 2 ^ 31 → (process limit g dec bytes s).2 = .badOutput ∨ ∃ o, (process limit g dec bytes s).2 = .done o) := by
  unfold process
  rw [hw]
  dsimp only
  cases hq : run limit (g.fn p (BitVec.ofNat 32 bytes.length) t).1 t with
  | mk u b =>
    rw [hq] at hd
    dsimp only at hd
    subst hd
    dsimp only
    rw [hr]
    dsimp only
    have h2 : (2 : Nat) ^ 31 = 2147483648 := by decide
    refine ⟨fun h => ?_, fun h => ?_⟩
    · rw [if_pos]
      rw [BitVec.toInt_eq_toNat_cond, if_neg (by omega)]
      have := r.isLt
      omega
    · rw [if_neg (by rw [C108.signed h]; omega)]
      cases dec (readBytes u) with
      | none => exact .inl rfl
      | some o => exact .inr ⟨o, rfl⟩

example : (process (some 65536) { echo with fn := fun p n _ => ([.copy p n], some (BitVec.ofInt 32 (-1))) } whole [1]
    start).2 = .status (BitVec.ofInt 32 (-1)) := rfl

/-- **C108 violated: the size of an output is not limited.**  Before its range is checked, room for the output is
allocated in the broker (instance.rs:281): up to 4 GiB, for a module whose memory may have one page. -/
theorem C108_violated_room (limit : Option Nat) (s : St) (n : Nat) (h : n < 2 ^ 32) :
    ∃ g : Guest, ∃ ptr len, (process limit g whole [] s).1.inst.cb = some (ptr, len) ∧ outputSize len = n ∧
      (process limit g whole [] s).1.inst.size = s.inst.size := by
  refine ⟨⟨fun _ _ => ([], some 0#32), fun _ _ _ => ([.copy 0#32 (BitVec.ofNat 32 n)], some 0#32)⟩, 0#32,
    BitVec.ofNat 32 n, rfl, ?_, rfl⟩
  unfold outputSize
  rw [BitVec.toNat_ofNat]
  exact Nat.mod_eq_of_lt h

/-! ### Fuel -/

/-- A call gives no fuel back, and ends when it is used up: a module that burns more than there is, is stopped. -/
theorem C108_fuel {α : Type} (limit : Option Nat) (g : Guest) (dec : List UInt8 → Option α) (bytes : List UInt8)
    (s : St) : (process limit g dec bytes s).1.fuel ≤ s.fuel ∧
    (∀ acts (t : St), t.fuel < (acts.map fun a => match a with | .burn n => n | _ => 0).sum →
      (run limit acts t).2 = false) := by
  refine ⟨process_keeps (fun _ n => n ≤ s.fuel) limit (fun l t h => Nat.le_trans (run_fuel limit l t) h)
    (fun _ _ h => h) g dec bytes s (Nat.le_refl _), ?_⟩
  intro acts
  induction acts with
  | nil => intro t h; exact absurd h (Nat.not_lt_zero _)
  | cons a l ih =>
    intro t h
    rw [List.map_cons, List.sum_cons] at h
    by_cases hc : (step limit a t).2 = true
    · rw [run, if_pos hc]
      refine ih _ ?_
      cases a with
      | burn n =>
        rw [step_burn] at hc ⊢
        by_cases hn : n ≤ t.fuel
        · rw [if_pos hn]
          dsimp only at h ⊢
          omega
        · rw [if_neg hn] at hc
          cases hc
      | write off b =>
        have := step_fuel limit (.write off b) t
        dsimp only at h
        omega
      | copy p n =>
        have := step_fuel limit (.copy p n) t
        dsimp only at h
        omega
      | grow n =>
        have := step_fuel limit (.grow n) t
        dsimp only at h
        omega
    · rw [run, if_neg hc]
      exact Bool.eq_false_iff.2 hc

example : (process (some 65536) echo whole [1] start).1.fuel = fullFuel - 12 ∧
    (process (some 65536) echo whole [1] { start with fuel := 11 }).2 = .trap := ⟨rfl, rfl⟩

end Verif.Props
