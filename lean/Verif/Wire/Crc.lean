import Verif.Wire.Basic

/-!
# CRC-32C

The code calls the external crate `crc32c` (record/batch.rs:432).  Its documented function is the
CRC-32C (Castagnoli) checksum, modelled here bit by bit (reflected polynomial `0x82F63B78`, initial
value and final mask all ones).
-/

namespace Verif.Wire

/-- Castagnoli polynomial, reflected. -/
def crcPoly : BitVec 32 := 0x82F63B78#32

/-- One shift of the register. -/
def crcShift (s : BitVec 32) : BitVec 32 :=
  (s >>> 1) ^^^ (if s.getLsbD 0 then crcPoly else 0#32)

/-- Consume one message bit. -/
def crcBit (s : BitVec 32) (b : Bool) : BitVec 32 :=
  crcShift (s ^^^ (if b then 1#32 else 0#32))

/-- Bits of a byte, least significant first (the order in which the reflected CRC consumes them). -/
def byteBits (b : UInt8) : List Bool := (List.range 8).map b.toBitVec.getLsbD

def bits (bs : Bytes) : List Bool := bs.flatMap byteBits

/-- `crc32c::crc32c` -/
def crc32c (bs : Bytes) : BitVec 32 :=
  ((bits bs).foldl crcBit 0xFFFFFFFF#32) ^^^ 0xFFFFFFFF#32

/-! ## The register is linear and invertible -/

theorem crcShift_xor (a b : BitVec 32) : crcShift (a ^^^ b) = crcShift a ^^^ crcShift b := by
  unfold crcShift
  apply BitVec.eq_of_getLsbD_eq
  intro i hi
  simp only [BitVec.getLsbD_xor, BitVec.getLsbD_ushiftRight]
  cases a.getLsbD 0 <;> cases b.getLsbD 0 <;> simp <;>
    (cases a.getLsbD (1 + i) <;> cases b.getLsbD (1 + i) <;> cases crcPoly.getLsbD i <;> rfl)

theorem crcShift_zero : crcShift 0#32 = 0#32 := by decide

theorem crcShift_eq_zero (a : BitVec 32) (h : crcShift a = 0#32) : a = 0#32 := by
  have h31 : (crcShift a).getLsbD 31 = false := by rw [h]; rfl
  have e : (crcShift a).getLsbD 31 = a.getLsbD 0 := by
    unfold crcShift
    simp only [BitVec.getLsbD_xor, BitVec.getLsbD_ushiftRight]
    rw [BitVec.getLsbD_of_ge a (1 + 31) (by decide)]
    cases a.getLsbD 0 <;> decide
  rw [e] at h31
  have h' := h
  unfold crcShift at h'
  rw [h31] at h'
  simp only [Bool.false_eq_true, ↓reduceIte, BitVec.xor_zero] at h'
  apply BitVec.eq_of_getLsbD_eq
  intro i hi
  cases i with
  | zero => rw [h31]; rfl
  | succ i =>
    have := congrArg (fun x => BitVec.getLsbD x i) h'
    simp only [BitVec.getLsbD_ushiftRight, BitVec.getLsbD_zero] at this
    rw [show 1 + i = i + 1 by omega] at this
    rw [this, BitVec.getLsbD_zero]

theorem crcBit_xor (s t : BitVec 32) (a b : Bool) :
    crcBit s a ^^^ crcBit t b = crcBit (s ^^^ t) (a ^^ b) := by
  unfold crcBit
  rw [← crcShift_xor]
  congr 1
  apply BitVec.eq_of_getLsbD_eq
  intro i hi
  simp only [BitVec.getLsbD_xor]
  cases a <;> cases b <;> simp only [Bool.xor_true, Bool.xor_false, Bool.not_true, Bool.not_false,
    Bool.false_eq_true, ↓reduceIte, BitVec.getLsbD_zero] <;>
    (cases s.getLsbD i <;> cases t.getLsbD i <;> cases (1#32).getLsbD i <;> rfl)

/-- Running the register over the bitwise difference of two messages gives the difference of the
registers. -/
theorem foldl_crcBit_xor : ∀ (xs ys : List Bool) (s t : BitVec 32), xs.length = ys.length →
    xs.foldl crcBit s ^^^ ys.foldl crcBit t =
      (List.zipWith xor xs ys).foldl crcBit (s ^^^ t)
  | [], [], _, _, _ => rfl
  | x :: xs, y :: ys, s, t, h => by
    simp only [List.foldl_cons, List.zipWith_cons_cons]
    rw [foldl_crcBit_xor xs ys _ _ (by simpa using h), crcBit_xor]

theorem foldl_false_eq_zero : ∀ (n : Nat) (s : BitVec 32),
    (List.replicate n false).foldl crcBit s = 0#32 → s = 0#32
  | 0, s, h => by simpa using h
  | n + 1, s, h => by
    simp only [List.replicate_succ, List.foldl_cons] at h
    have := foldl_false_eq_zero n _ h
    unfold crcBit at this
    simpa using crcShift_eq_zero _ this

theorem foldl_false_zero : ∀ n, (List.replicate n false).foldl crcBit 0#32 = 0#32
  | 0 => rfl
  | n + 1 => by
    simp only [List.replicate_succ, List.foldl_cons]
    rw [show crcBit 0#32 false = 0#32 by decide, foldl_false_zero n]

/-- The bits packed into a register, first bit least significant. -/
def packBits (l : List Bool) : BitVec 32 :=
  l.foldr (fun b p => (p <<< 1) ^^^ (if b then 1#32 else 0#32)) 0#32

theorem packBits_getLsbD : ∀ (l : List Bool) (i : Nat), i < 32 →
    (packBits l).getLsbD i = l[i]?.getD false
  | [], i, _ => by simp [packBits]
  | b :: l, 0, _ => by
    simp only [packBits, List.foldr_cons, BitVec.getLsbD_xor, BitVec.getLsbD_shiftLeft]
    cases b <;> simp
  | b :: l, i + 1, h => by
    have ih := packBits_getLsbD l i (by omega)
    simp only [packBits, List.foldr_cons, BitVec.getLsbD_xor, BitVec.getLsbD_shiftLeft] at ih ⊢
    rw [show i + 1 - 1 = i by omega, ih]
    have : (if b then 1#32 else 0#32).getLsbD (i + 1) = false := by
      cases b <;> simp [BitVec.getLsbD_one]
    rw [this]
    simp [h]

theorem shift_shift (p : BitVec 32) (h : p.getLsbD 31 = false) : crcShift (p <<< 1) = p := by
  unfold crcShift
  apply BitVec.eq_of_getLsbD_eq
  intro i hi
  simp only [BitVec.getLsbD_xor, BitVec.getLsbD_ushiftRight, BitVec.getLsbD_shiftLeft]
  simp only [show (decide (0 < 1)) = true from rfl, Bool.not_true, Bool.and_false,
    Bool.false_and, Bool.false_eq_true, ↓reduceIte, BitVec.getLsbD_zero, Bool.xor_false]
  rw [show 1 + i - 1 = i by omega]
  by_cases h31 : i = 31
  · subst h31; rw [h]; rfl
  · simp [show 1 + i < 32 by omega]

theorem foldl_pack : ∀ (l : List Bool) (s : BitVec 32), l.length ≤ 32 →
    l.foldl crcBit s = (List.replicate l.length false).foldl crcBit (s ^^^ packBits l)
  | [], s, _ => by simp [packBits]
  | b :: l, s, h => by
    have hl : l.length ≤ 31 := by simpa using h
    simp only [List.foldl_cons, List.length_cons, List.replicate_succ]
    rw [foldl_pack l _ (by omega)]
    congr 1
    have h31 : (packBits l).getLsbD 31 = false := by
      rw [packBits_getLsbD l 31 (by omega), List.getElem?_eq_none (by omega)]; rfl
    show crcBit s b ^^^ packBits l = crcBit (s ^^^ ((packBits l <<< 1) ^^^ _)) false
    unfold crcBit
    conv => lhs; rw [← shift_shift (packBits l) h31, ← crcShift_xor]
    congr 1
    simp only [Bool.false_eq_true, ↓reduceIte, BitVec.xor_zero]
    rw [BitVec.xor_assoc, BitVec.xor_comm (packBits l <<< 1)]

theorem packBits_eq_zero (l : List Bool) (hl : l.length ≤ 32) (h : packBits l = 0#32) :
    l = List.replicate l.length false := by
  apply List.ext_getElem (by simp)
  intro i h1 h2
  have := packBits_getLsbD l i (by omega)
  rw [h, List.getElem?_eq_getElem h1] at this
  simp at this
  simp [this]

/-- A nonzero difference confined to 32 consecutive bits leaves a nonzero register. -/
theorem crc_burst (a c : Nat) (w : List Bool) (hw : w.length ≤ 32)
    (hne : w ≠ List.replicate w.length false) :
    (List.replicate a false ++ w ++ List.replicate c false).foldl crcBit 0#32 ≠ 0#32 := by
  intro h
  rw [List.foldl_append, List.foldl_append, foldl_false_zero] at h
  have h1 := foldl_false_eq_zero c _ h
  rw [foldl_pack w _ hw] at h1
  have h2 := foldl_false_eq_zero _ _ h1
  simp only [BitVec.zero_xor] at h2
  exact hne (packBits_eq_zero w hw h2)

theorem byteBits_inj {a b : UInt8} (h : byteBits a = byteBits b) : a = b := by
  apply UInt8.toBitVec_inj.1
  apply BitVec.eq_of_getLsbD_eq
  intro i hi
  have := congrArg (fun l => l[i]?) h
  simp only [byteBits, List.getElem?_map, List.getElem?_range hi, Option.map_some,
    Option.some.injEq] at this
  exact this

theorem bits_cons (a : UInt8) (x : Bytes) : bits (a :: x) = byteBits a ++ bits x := by
  simp [bits]

theorem byteBits_length (a : UInt8) : (byteBits a).length = 8 := by simp [byteBits]

theorem bits_length (x : Bytes) : (bits x).length = 8 * x.length := by
  induction x with
  | nil => rfl
  | cons a x ih => rw [bits_cons, List.length_append, byteBits_length, ih, List.length_cons]; omega

theorem bits_inj : ∀ {x y : Bytes}, bits x = bits y → x = y
  | [], [], _ => rfl
  | [], b :: y, h => by have := congrArg List.length h; simp [bits_length] at this
  | a :: x, [], h => by have := congrArg List.length h; simp [bits_length] at this
  | a :: x, b :: y, h => by
    rw [bits_cons, bits_cons] at h
    obtain ⟨h1, h2⟩ := List.append_inj h (by simp [byteBits_length])
    rw [byteBits_inj h1, bits_inj h2]

end Verif.Wire
