import Verif.Wire.Varint

/-!
# Where the variable-length encoding is faithful

Auxiliary facts for the exact characterisation of the integers that survive the encoding.
-/

namespace Verif.Wire

theorem encLoop_neg_one : ∀ f, encLoop f (-1#64) = none
  | 0 => rfl
  | f + 1 => by
    unfold encLoop
    have h1 : (-1#64 &&& 0xffffff80#64) ≠ 0#64 := by decide
    have h2 : (-1#64).sshiftRight 7 = -1#64 := by decide
    rw [if_pos h1, h2, encLoop_neg_one f]; rfl

theorem encLoop_none_aux : ∀ (k : Nat) (v : BitVec 64), -2 ^ (7 * k) ≤ v.toInt → v.toInt < 2 ^ (7 * k) →
    encLoop (k + 1) v = none → ∀ f, encLoop f v = none
  | 0, v, h1, h2, h => by
    have : v.toInt = -1 ∨ v.toInt = 0 := by simp at h1 h2; omega
    rcases this with hv | hv
    · have : v = -1#64 := BitVec.eq_of_toInt_eq (by rw [hv]; decide)
      subst this; exact encLoop_neg_one
    · have : v = 0#64 := BitVec.eq_of_toInt_eq (by rw [hv]; decide)
      subst this; simp [encLoop] at h
  | k + 1, v, h1, h2, h => by
    intro f
    cases f with
    | zero => rfl
    | succ f =>
      rw [encLoop] at h ⊢
      split
      · rename_i hm
        rw [if_pos hm] at h
        simp only [Option.map_eq_none_iff] at h ⊢
        have hs : (v.sshiftRight 7).toInt = v.toInt / 2 ^ 7 := by
          rw [BitVec.toInt_sshiftRight, Int.shiftRight_eq_div_pow]; rfl
        have hp : (2 : Int) ^ (7 * (k + 1)) = 2 ^ (7 * k) * 128 := by
          rw [Nat.mul_add, Int.pow_add]; rfl
        rw [hp] at h1 h2
        refine encLoop_none_aux k _ ?_ ?_ h f
        · rw [hs]; omega
        · rw [hs]; omega
      · rename_i hm; rw [if_neg hm] at h; simp at h

/-- If 11 iterations are not enough then no number of iterations is: the Rust loop does not stop. -/
theorem encLoop_none_diverges (v : BitVec 64) (h : encLoop 11 v = none) : ∀ f, encLoop f v = none := by
  have h1 := BitVec.le_two_mul_toInt (x := v)
  have h2 := BitVec.two_mul_toInt_lt (x := v)
  exact encLoop_none_aux 10 v (by omega) (by omega) h

theorem getLsbD_byte_hi (v : BitVec 64) (i : Nat) (hi : i < 7) :
    ((v &&& 127#64).getLsbD i || (128#64).getLsbD i) = v.getLsbD i := by
  have : i = 0 ∨ i = 1 ∨ i = 2 ∨ i = 3 ∨ i = 4 ∨ i = 5 ∨ i = 6 := by omega
  rcases this with h | h | h | h | h | h | h <;> subst h <;> simp

theorem and7f (b : BitVec 8) (i : Nat) : (b &&& 0x7f#8).getLsbD i = (b.getLsbD i && decide (i < 7)) := by
  by_cases h : i < 8
  · have : i = 0 ∨ i = 1 ∨ i = 2 ∨ i = 3 ∨ i = 4 ∨ i = 5 ∨ i = 6 ∨ i = 7 := by omega
    rcases this with h | h | h | h | h | h | h | h <;> subst h <;> simp
  · simp [BitVec.getLsbD_of_ge _ _ (by omega : 8 ≤ i)]

/-- Bit-level meaning of decoding what the encoder loop wrote: bit `i` of the accumulator is the
corresponding bit of `v`, and bits beyond the bytes written are lost. -/
theorem decLoop_encLoop_bits : ∀ (k : Nat) (v : BitVec 64) (bs rest : Bytes) (num : BitVec 64)
    (shift : Nat) (num' : BitVec 64) (s' : Nat) (rest' : Bytes),
    encLoop k v = some bs → decLoop (bs ++ rest) num shift = .ok (num', s', rest') →
    0 < bs.length ∧ ∀ i, i < 64 → num'.getLsbD i = (num.getLsbD i ||
      (decide (shift ≤ i) && decide (i < shift + 7 * bs.length) &&
        (v.sshiftRight (i - shift)).getLsbD 0))
  | 0, v, bs, rest, num, shift, num', s', rest', h, _ => by simp [encLoop] at h
  | k + 1, v, bs, rest, num, shift, num', s', rest', h, hd => by
    rw [encLoop] at h
    split at h
    · rename_i hm
      cases hrec : encLoop k (v.sshiftRight 7) with
      | none => simp [hrec] at h
      | some bs' =>
        simp only [hrec, Option.map_some, Option.some.injEq] at h
        subst h
        simp only [List.cons_append, decLoop] at hd
        split at hd
        · simp at hd
        · rename_i hsh
          have hstop : ¬ ((UInt8.ofBitVec (((v &&& 0x7f#64) ||| 0x80#64).setWidth 8)).toBitVec
              &&& 0x80#8 = 0#8) := by
            rw [dec_stop, byte_hi]; omega
          rw [if_neg hstop] at hd
          obtain ⟨hl, hbits⟩ := decLoop_encLoop_bits k _ _ _ _ _ _ _ _ hrec hd
          refine ⟨by simp, fun i hi => ?_⟩
          rw [hbits i hi]
          simp only [BitVec.getLsbD_or, BitVec.getLsbD_shiftLeft, BitVec.getLsbD_setWidth, and7f,
            List.length_cons, hi, decide_true, Bool.true_and]
          by_cases c1 : i < shift
          · have : ¬ (shift ≤ i) := by omega
            have : ¬ (shift + 7 ≤ i) := by omega
            simp [*]
          · by_cases c2 : i - shift < 7
            · have h7 : ¬ (shift + 7 ≤ i) := by omega
              have h8 : shift ≤ i := by omega
              have h9 : i < shift + 7 * (bs'.length + 1) := by omega
              have h64 : i - shift < 64 := by omega
              rw [getLsbD_byte_hi v (i - shift) c2]
              have e0 : (v.sshiftRight (i - shift)).getLsbD 0 = v.getLsbD (i - shift) := by
                rw [BitVec.getLsbD_sshiftRight]; simp [h64]
              rw [e0]
              simp [c1, c2, h7, h8, h9, h64, show i - shift < 8 by omega]
            · have h7 : shift + 7 ≤ i := by omega
              have h8 : shift ≤ i := by omega
              have e : ((v.sshiftRight 7).sshiftRight (i - (shift + 7))) = v.sshiftRight (i - shift) := by
                rw [← BitVec.sshiftRight_add]
                congr 1; omega
              have h9 : (i < shift + 7 + 7 * bs'.length) ↔ (i < shift + 7 * (bs'.length + 1)) := by omega
              rw [e]
              simp [c1, c2, h7, h8, h9]
    · rename_i hm
      simp only [ne_eq, Decidable.not_not] at hm
      simp only [Option.some.injEq] at h
      subst h
      simp only [List.cons_append, List.nil_append, decLoop] at hd
      split at hd
      · simp at hd
      · rename_i hsh
        have hmod : v.toNat / 128 % 2 ^ 25 = 0 := (and_mask_eq_zero v).1 hm
        have hstop : ((UInt8.ofBitVec (v.setWidth 8)).toBitVec &&& 0x80#8 = 0#8) := by
          rw [dec_stop, byte_lo]; omega
        rw [if_pos hstop] at hd
        simp only [Except.ok.injEq, Prod.mk.injEq] at hd
        obtain ⟨hd1, -, -⟩ := hd
        subst hd1
        refine ⟨by simp, fun i hi => ?_⟩
        simp only [BitVec.getLsbD_or, BitVec.getLsbD_shiftLeft, BitVec.getLsbD_setWidth, and7f,
          List.length_cons, List.length_nil, hi, decide_true, Bool.true_and]
        by_cases c1 : i < shift
        · have : ¬ (shift ≤ i) := by omega
          simp [*]
        · have h8 : shift ≤ i := by omega
          by_cases c2 : i - shift < 7
          · have h9 : i < shift + 7 * (0 + 1) := by omega
            have h64 : i - shift < 64 := by omega
            have h88 : i - shift < 8 := by omega
            have e0 : (v.sshiftRight (i - shift)).getLsbD 0 = v.getLsbD (i - shift) := by
              rw [BitVec.getLsbD_sshiftRight]; simp [h64]
            rw [e0]
            have h9' : i < shift + 7 := by omega
            simp [c1, c2, h8, h9', h64, h88]
          · have h9 : ¬ (i < shift + 7) := by omega
            simp [c1, c2, h8, h9]

theorem zig_bit (n : BitVec 64) (i : Nat) (hi : i < 64) :
    (zig n).getLsbD i = ((decide (1 ≤ i) && n.getLsbD (i - 1)) ^^
      (if i + 31 < 64 then n.getLsbD (i + 31) else n.msb)) := by
  unfold zig
  rw [BitVec.getLsbD_xor, BitVec.getLsbD_shiftLeft, BitVec.getLsbD_sshiftRight]
  by_cases h : i < 1
  · have h1 : ¬ 1 ≤ i := by omega
    by_cases h' : i + 31 < 64 <;>
      simp [hi, h, h1, h', Nat.add_comm 31 i, show ¬ 64 ≤ i by omega]
  · have h1 : 1 ≤ i := by omega
    by_cases h' : i + 31 < 64 <;>
      simp [hi, h, h1, h', Nat.add_comm 31 i, show ¬ 64 ≤ i by omega]

/-- An `i64` whose bits 31..63 all agree is in the 32-bit range. -/
theorem range_of_bits (n : BitVec 64) (h : ∀ i, 31 ≤ i → i < 64 → n.getLsbD i = n.getLsbD 31) :
    -2 ^ 31 ≤ n.toInt ∧ n.toInt < 2 ^ 31 := by
  have e : n = (n.setWidth 32).signExtend 64 := by
    apply BitVec.eq_of_getLsbD_eq
    intro i hi
    rw [BitVec.getLsbD_signExtend]
    by_cases c : i < 32
    · simp [hi, c]
    · have : (n.setWidth 32).msb = n.getLsbD 31 := by
        rw [BitVec.msb_eq_getLsbD_last]; simp
      rw [h i (by omega) hi, this]; simp [hi, c]
  rw [e, BitVec.toInt_signExtend_of_le (by decide)]
  have h1 := BitVec.le_two_mul_toInt (x := n.setWidth 32)
  have h2 := BitVec.two_mul_toInt_lt (x := n.setWidth 32)
  omega

theorem varint_exact (n : BitVec 64) (bs rest : Bytes) (len : Nat) (rest' : Bytes)
    (he : varintEncode n = some bs) (hd : varintDecode (bs ++ rest) = .ok ((n, len), rest')) :
    -2 ^ 31 ≤ n.toInt ∧ n.toInt < 2 ^ 31 := by
  unfold varintDecode at hd
  cases hdl : decLoop (bs ++ rest) 0#64 0 with
  | error e => simp [hdl] at hd
  | ok x =>
    obtain ⟨u, s', r'⟩ := x
    simp only [hdl, Except.ok.injEq, Prod.mk.injEq] at hd
    obtain ⟨⟨hu, -⟩, -⟩ := hd
    obtain ⟨hlen, hbits⟩ := decLoop_encLoop_bits _ _ _ _ _ _ _ _ _ he hdl
    have ub : ∀ i, i < 64 → u.getLsbD i = (decide (i < 7 * bs.length) && (zig n).getLsbD i) := by
      intro i hi
      rw [hbits i hi, BitVec.getLsbD_sshiftRight]
      simp [hi]
    have u0 : u.getLsbD 0 = n.getLsbD 31 := by
      rw [ub 0 (by omega), zig_bit n 0 (by omega)]
      simp; omega
    have hneg : ∀ i, i < 64 → (-(u &&& 1#64)).getLsbD i = u.getLsbD 0 := by
      intro i hi
      have : u &&& 1#64 = if u.getLsbD 0 then 1#64 else 0#64 := by
        apply BitVec.eq_of_getLsbD_eq
        intro j hj
        rw [BitVec.getLsbD_and]
        by_cases hj0 : j = 0
        · subst hj0; cases u.getLsbD 0 <;> simp
        · have : (1#64).getLsbD j = false := by simp [hj0]
          rw [this]; split <;> simp [hj0]
      rw [this]
      have a1 : -(1#64) = BitVec.allOnes 64 := by decide
      have a0 : -(0#64) = 0#64 := by decide
      cases u.getLsbD 0
      · simp
      · simp only [if_true, a1, BitVec.getLsbD_allOnes]; simp [hi]
    have hn : ∀ i, i < 64 → n.getLsbD i =
        ((if i + 1 < 64 then u.getLsbD (i + 1) else u.msb) ^^ n.getLsbD 31) := by
      intro i hi
      conv => lhs; rw [← hu]
      rw [BitVec.getLsbD_xor, hneg i hi, u0, BitVec.getLsbD_sshiftRight]
      simp only [Nat.add_comm 1 i]
      simp [show ¬ 64 ≤ i by omega]
    have umsb : u.msb = u.getLsbD 63 := by rw [BitVec.msb_eq_getLsbD_last]
    have nmsb : n.msb = n.getLsbD 63 := by rw [BitVec.msb_eq_getLsbD_last]
    -- bits above what was written
    have hhi : ∀ i, 7 * bs.length ≤ i + 1 → i < 64 → i + 1 < 64 → n.getLsbD i = n.getLsbD 31 := by
      intro i h1 h2 h3
      have := hn i h2
      rw [if_pos h3, ub (i + 1) h3] at this
      simpa [show ¬ (i + 1 < 7 * bs.length) by omega] using this
    have hlo : ∀ j, 1 ≤ j → j < 64 → j < 7 * bs.length →
        (if j + 31 < 64 then n.getLsbD (j + 31) else n.msb) = n.getLsbD 31 := by
      intro j h1 h2 h3
      have hj := hn (j - 1) (by omega)
      rw [if_pos (by omega), show j - 1 + 1 = j by omega, ub j h2, zig_bit n j h2] at hj
      simp only [h3, decide_true, Bool.true_and, h1] at hj
      revert hj
      generalize (if j + 31 < 64 then n.getLsbD (j + 31) else n.msb) = x
      cases x <;> cases n.getLsbD 31 <;> cases n.getLsbD (j - 1) <;> simp
    apply range_of_bits
    intro i h1 h2
    by_cases c : i = 63
    · subst c
      by_cases c2 : 63 < 7 * bs.length
      · have := hlo 63 (by omega) (by omega) c2
        rw [if_neg (by omega), nmsb] at this; exact this
      · have := hn 63 (by omega)
        rw [if_neg (by omega), umsb, ub 63 (by omega)] at this
        simpa [c2] using this
    · by_cases c2 : 7 * bs.length ≤ i + 1
      · exact hhi i c2 h2 (by omega)
      · by_cases c3 : i = 31
        · rw [c3]
        · have := hlo (i - 31) (by omega) (by omega) (by omega)
          rwa [if_pos (by omega), show i - 31 + 31 = i by omega] at this

end Verif.Wire
