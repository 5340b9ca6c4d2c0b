import Verif.Wire.Basic

/-!
# Variable-length integers (`fluvio-protocol/src/core/varint.rs`)

`i64` is `BitVec 64`; `<<`, arithmetic `>>`, `^`, `&`, `|` are the bit-vector operations, exactly as in
the source.
-/

namespace Verif.Wire

/-- `let mut v = (num << 1) ^ (num >> 31);` — varint.rs:47 (and :71). -/
def zig (num : BitVec 64) : BitVec 64 := (num <<< 1) ^^^ (num.sshiftRight 31)

/-- The `while (v & 0xffffff80) != 0` loop of `variant_encode` — varint.rs:49-66.
The first argument bounds the number of iterations; `none` means the bound was hit
(`encLoop_none_diverges` shows that with bound 11 this means the Rust loop never ends).
The destination buffer is unbounded (`remaining_mut() == 0` never holds for `Vec<u8>`/`BytesMut`). -/
def encLoop : Nat → BitVec 64 → Option Bytes
  | 0, _ => none
  | fuel + 1, v =>
    if v &&& 0xffffff80#64 ≠ 0#64 then
      (encLoop fuel (v.sshiftRight 7)).map
        (UInt8.ofBitVec (((v &&& 0x7f#64) ||| 0x80#64).setWidth 8) :: ·)
    else
      some [UInt8.ofBitVec (v.setWidth 8)]

/-- `variant_encode` — varint.rs:43-68.  `none`: the Rust loop does not terminate. -/
def varintEncode (num : BitVec 64) : Option Bytes := encLoop 11 (zig num)

/-- The loop of `variant_size` — varint.rs:74-77. -/
def sizeLoop : Nat → BitVec 64 → Option Nat
  | 0, _ => none
  | fuel + 1, v =>
    if v &&& 0xffffff80#64 ≠ 0#64 then (sizeLoop fuel (v.sshiftRight 7)).map (· + 1) else some 1

/-- `variant_size` — varint.rs:70-80. -/
def varintSize (num : BitVec 64) : Option Nat := sizeLoop 11 (zig num)

/-- The loop of `varint_decode` — varint.rs:20-37.  Shifting an `i64` by 64 or more is a panic in a
debug build (a release build masks the shift amount; that variant is not modelled). -/
def decLoop : Bytes → BitVec 64 → Nat → Except Err (BitVec 64 × Nat × Bytes)
  | [], _, _ => .error .eof
  | b :: bs, num, shift =>
    if 64 ≤ shift then .error .panic
    else
      let num' := num ||| (((b.toBitVec &&& 0x7f#8).setWidth 64) <<< shift)
      if b.toBitVec &&& 0x80#8 = 0#8 then .ok (num', shift + 7, bs)
      else decLoop bs num' (shift + 7)

/-- `varint_decode` — varint.rs:13-40; yields the value, the number of bytes read, and the rest. -/
def varintDecode (bs : Bytes) : Except Err ((BitVec 64 × Nat) × Bytes) :=
  match decLoop bs 0#64 0 with
  | .error e => .error e
  | .ok (num, shift, rest) =>
    .ok ((num.sshiftRight 1 ^^^ -(num &&& 1#64), shift / 7), rest)

/-! ## Lemmas -/

theorem nat_and_mask (x : Nat) : x &&& 0xffffff80 = 128 * (x / 128 % 2 ^ 25) := by
  have h1 : (x &&& 0xffffff80) % 2 ^ 7 = 0 := by
    rw [Nat.and_mod_two_pow]
    show x % 2 ^ 7 &&& 0 = 0
    simp
  have h2 : (x &&& 0xffffff80) / 2 ^ 7 = x / 128 % 2 ^ 25 := by
    rw [Nat.and_div_two_pow]
    have : (0xffffff80 : Nat) / 2 ^ 7 = 2 ^ 25 - 1 := by decide
    rw [this, Nat.and_two_pow_sub_one_eq_mod]
  have := Nat.div_add_mod (x &&& 0xffffff80) (2 ^ 7)
  omega

theorem and_mask_eq_zero (v : BitVec 64) :
    (v &&& 0xffffff80#64 = 0#64) ↔ v.toNat / 128 % 2 ^ 25 = 0 := by
  rw [← BitVec.toNat_inj, BitVec.toNat_and]
  have : (0xffffff80#64).toNat = 0xffffff80 := by decide
  rw [this, nat_and_mask]
  show _ = 0 ↔ _
  omega

theorem byte_hi (v : BitVec 64) :
    (UInt8.ofBitVec (((v &&& 0x7f#64) ||| 0x80#64).setWidth 8)).toNat = v.toNat % 128 + 128 := by
  have h : ((v &&& 0x7f#64) ||| 0x80#64).toNat = v.toNat % 128 + 128 := by
    rw [BitVec.toNat_or, BitVec.toNat_and]
    have e1 : (0x7f#64).toNat = 2 ^ 7 - 1 := by decide
    have e2 : (0x80#64).toNat = 2 ^ 7 * 1 := by decide
    rw [e1, e2, Nat.and_two_pow_sub_one_eq_mod, Nat.or_comm,
      ← Nat.two_pow_add_eq_or_of_lt (Nat.mod_lt _ (by decide))]
    omega
  show (BitVec.setWidth 8 _).toNat = _
  rw [BitVec.toNat_setWidth, h]
  omega

theorem byte_lo (v : BitVec 64) : (UInt8.ofBitVec (v.setWidth 8)).toNat = v.toNat % 256 := by
  show (BitVec.setWidth 8 _).toNat = _
  rw [BitVec.toNat_setWidth]

theorem sshr7 (v : BitVec 64) (h : v.toNat < 2 ^ 63) :
    (v.sshiftRight 7).toNat = v.toNat / 128 := by
  have : v.msb = false := by
    rw [BitVec.msb_eq_false_iff_two_mul_lt]; omega
  rw [BitVec.sshiftRight_eq_of_msb_false this, BitVec.toNat_ushiftRight, Nat.shiftRight_eq_div_pow]

/-- The encoding of a natural number below 2^32 in groups of 7 bits, least significant first. -/
def leb (fuel : Nat) (n : Nat) : Bytes :=
  match fuel with
  | 0 => []
  | f + 1 => if n < 128 then [UInt8.ofNat n] else UInt8.ofNat (n % 128 + 128) :: leb f (n / 128)

theorem encLoop_eq_leb : ∀ (fuel : Nat) (v : BitVec 64), v.toNat < 2 ^ 32 →
    v.toNat < 128 ^ (fuel + 1) → encLoop (fuel + 1) v = some (leb (fuel + 1) v.toNat) := by
  intro fuel
  induction fuel with
  | zero =>
    intro v h32 h
    have hv : v.toNat < 128 := by omega
    unfold encLoop leb
    have : v &&& 0xffffff80#64 = 0#64 := (and_mask_eq_zero v).2 (by omega)
    simp only [this, ne_eq, not_true, ↓reduceIte, if_pos hv]
    congr 2
  | succ f ih =>
    intro v h32 h
    unfold encLoop leb
    by_cases hv : v.toNat < 128
    · have : v &&& 0xffffff80#64 = 0#64 := (and_mask_eq_zero v).2 (by omega)
      simp only [this, ne_eq, not_true, ↓reduceIte, if_pos hv]
      congr 2
    · have : ¬ (v &&& 0xffffff80#64 = 0#64) := fun hh => by
        have := (and_mask_eq_zero v).1 hh; omega
      have s7 := sshr7 v (by omega)
      simp only [ne_eq, this, not_false_eq_true, ↓reduceIte, if_neg hv]
      rw [ih (v.sshiftRight 7) (by omega)
        (by rw [s7]; rw [Nat.pow_succ] at h; omega), s7]
      simp only [Option.map_some, Option.some.injEq, List.cons.injEq, and_true]
      apply UInt8.toNat_inj.1
      rw [byte_hi, UInt8.toNat_ofNat']
      omega

theorem sizeLoop_eq (fuel : Nat) (v : BitVec 64) :
    sizeLoop fuel v = (encLoop fuel v).map List.length := by
  induction fuel generalizing v with
  | zero => rfl
  | succ f ih =>
    unfold sizeLoop encLoop
    split
    · rw [ih]; cases encLoop f (v.sshiftRight 7) <;> simp
    · rfl

/-- One decoder step on a byte given by its numeric value. -/
theorem dec_or (num : BitVec 64) (shift : Nat) (b : UInt8) (hs : shift ≤ 56)
    (hn : num.toNat < 2 ^ shift) :
    (num ||| (((b.toBitVec &&& 0x7f#8).setWidth 64) <<< shift)).toNat
      = num.toNat + 2 ^ shift * (b.toNat % 128) := by
  have h1 : (b.toBitVec &&& 0x7f#8).toNat = b.toNat % 128 := by
    rw [BitVec.toNat_and]
    have e1 : (0x7f#8).toNat = 2 ^ 7 - 1 := by decide
    rw [e1, Nat.and_two_pow_sub_one_eq_mod]; rfl
  have h2 : ((b.toBitVec &&& 0x7f#8).setWidth 64).toNat = b.toNat % 128 := by
    rw [BitVec.toNat_setWidth, h1]; omega
  have hlt : 2 ^ shift * (b.toNat % 128) < 2 ^ 64 := by
    have : 2 ^ shift ≤ 2 ^ 56 := Nat.pow_le_pow_right (by decide) hs
    have : 2 ^ shift * (b.toNat % 128) ≤ 2 ^ 56 * 127 := Nat.mul_le_mul this (by omega)
    omega
  have h3 : (((b.toBitVec &&& 0x7f#8).setWidth 64) <<< shift).toNat
      = 2 ^ shift * (b.toNat % 128) := by
    rw [BitVec.toNat_shiftLeft, h2, Nat.shiftLeft_eq, Nat.mul_comm, Nat.mod_eq_of_lt hlt]
  rw [BitVec.toNat_or, h3, Nat.or_comm, ← Nat.two_pow_add_eq_or_of_lt hn, Nat.add_comm]

theorem dec_stop (b : UInt8) : (b.toBitVec &&& 0x80#8 = 0#8) ↔ b.toNat < 128 := by
  have hb := b.toNat_lt
  rw [← BitVec.toNat_inj, BitVec.toNat_and]
  have e : (0x80#8).toNat = 128 := by decide
  have e0 : b.toBitVec.toNat = b.toNat := rfl
  rw [e, e0]
  have h1 : (b.toNat &&& 128) % 2 ^ 7 = 0 := by
    rw [Nat.and_mod_two_pow]; show _ &&& 0 = 0; simp
  have h2 : (b.toNat &&& 128) / 2 ^ 7 = b.toNat / 128 % 2 := by
    rw [Nat.and_div_two_pow]
    have : (128 : Nat) / 2 ^ 7 = 2 ^ 1 - 1 := by decide
    rw [this, Nat.and_two_pow_sub_one_eq_mod]
  have := Nat.div_add_mod (b.toNat &&& 128) (2 ^ 7)
  show _ = 0 ↔ _
  omega

theorem decLoop_leb : ∀ (fuel : Nat) (n : Nat) (rest : Bytes) (num : BitVec 64) (shift : Nat),
    n < 128 ^ (fuel + 1) → shift ≤ 56 → 2 ^ shift * n < 2 ^ 56 → num.toNat < 2 ^ shift →
    decLoop (leb (fuel + 1) n ++ rest) num shift
      = .ok (BitVec.ofNat 64 (num.toNat + 2 ^ shift * n), shift + 7 * (leb (fuel + 1) n).length,
          rest) := by
  intro fuel
  induction fuel with
  | zero =>
    intro n rest num shift h hs hb hn
    have hv : n < 128 := by omega
    unfold leb
    simp only [if_pos hv, List.cons_append, List.nil_append, decLoop, List.length_cons,
      List.length_nil]
    rw [if_neg (by omega)]
    have hb' : (UInt8.ofNat n).toNat = n := by rw [UInt8.toNat_ofNat']; omega
    rw [if_pos ((dec_stop _).2 (by omega))]
    congr 2
    apply BitVec.eq_of_toNat_eq
    rw [dec_or num shift _ hs hn, hb', BitVec.toNat_ofNat]
    have : 2 ^ shift ≤ 2 ^ 56 := Nat.pow_le_pow_right (by decide) hs
    rw [Nat.mod_eq_of_lt (a := n) hv, Nat.mod_eq_of_lt (by omega)]
  | succ f ih =>
    intro n rest num shift h hs hb hn
    have hsle : 2 ^ shift ≤ 2 ^ 56 := Nat.pow_le_pow_right (by decide) hs
    unfold leb
    by_cases hv : n < 128
    · simp only [if_pos hv, List.cons_append, List.nil_append, decLoop, List.length_cons,
        List.length_nil]
      rw [if_neg (by omega)]
      have hb' : (UInt8.ofNat n).toNat = n := by rw [UInt8.toNat_ofNat']; omega
      rw [if_pos ((dec_stop _).2 (by omega))]
      congr 2
      apply BitVec.eq_of_toNat_eq
      rw [dec_or num shift _ hs hn, hb', BitVec.toNat_ofNat]
      rw [Nat.mod_eq_of_lt (a := n) hv, Nat.mod_eq_of_lt (by omega)]
    · simp only [if_neg hv, List.cons_append, decLoop, List.length_cons]
      rw [if_neg (by omega)]
      have hb' : (UInt8.ofNat (n % 128 + 128)).toNat = n % 128 + 128 := by
        rw [UInt8.toNat_ofNat']; omega
      rw [if_neg (fun hh => by have := (dec_stop _).1 hh; omega)]
      have hpow : 2 ^ (shift + 7) = 2 ^ shift * 128 := by rw [Nat.pow_add]
      have hmul : 2 ^ shift * 128 * (n / 128) ≤ 2 ^ shift * n := by
        rw [Nat.mul_assoc]; exact Nat.mul_le_mul_left _ (by omega)
      have hnum := dec_or num shift (UInt8.ofNat (n % 128 + 128)) hs hn
      rw [hb'] at hnum
      have hmod : (n % 128 + 128) % 128 = n % 128 := by omega
      rw [hmod] at hnum
      have hmul2 : 2 ^ shift * (n % 128) ≤ 2 ^ shift * 127 := Nat.mul_le_mul_left _ (by omega)
      rw [ih (n / 128) rest _ (shift + 7) (by rw [Nat.pow_succ] at h; omega)
        (by
          have h1 : 2 ^ (shift + 7) * 1 ≤ 2 ^ (shift + 7) * (n / 128) :=
            Nat.mul_le_mul_left _ (by omega)
          have h2 : 2 ^ (shift + 7) < 2 ^ 56 := by rw [hpow] at h1 ⊢; omega
          have := (Nat.pow_lt_pow_iff_right (a := 2) (by decide)).1 h2
          omega)
        (by rw [hpow]; omega) (by rw [hnum, hpow]; omega)]
      rw [hnum, hpow]
      have hfin : num.toNat + 2 ^ shift * (n % 128) + 2 ^ shift * 128 * (n / 128)
          = num.toNat + 2 ^ shift * n := by
        rw [Nat.add_assoc, Nat.mul_assoc, ← Nat.mul_add]
        congr 2; omega
      rw [hfin]
      congr 3
      omega

/-- Mathematical zig-zag map. -/
def zigNat (n : Int) : Nat := if 0 ≤ n then (2 * n).toNat else (-2 * n - 1).toNat

theorem zig_toNat (n : Int) (h1 : -2 ^ 31 ≤ n) (h2 : n < 2 ^ 31) :
    (zig (BitVec.ofInt 64 n)).toNat = zigNat n := by
  have hn : (BitVec.ofInt 64 n).toInt = n := by
    rw [BitVec.toInt_ofInt, Int.bmod_eq_of_le] <;> omega
  unfold zigNat
  split
  · rename_i h0
    have hnat : (BitVec.ofInt 64 n).toNat = n.toNat := by
      rw [BitVec.toNat_ofInt]; omega
    have hs : (BitVec.ofInt 64 n).sshiftRight 31 = 0#64 := by
      apply BitVec.eq_of_toInt_eq
      rw [BitVec.toInt_sshiftRight, hn, Int.shiftRight_eq_div_pow]
      show _ = (0 : Int)
      omega
    unfold zig
    rw [hs, BitVec.xor_zero, BitVec.toNat_shiftLeft, hnat, Nat.shiftLeft_eq]
    omega
  · rename_i h0
    have hs : (BitVec.ofInt 64 n).sshiftRight 31 = BitVec.allOnes 64 := by
      apply BitVec.eq_of_toInt_eq
      rw [BitVec.toInt_sshiftRight, hn, Int.shiftRight_eq_div_pow]
      show _ = (-1 : Int)
      omega
    have hnat : (BitVec.ofInt 64 n).toNat = (2 ^ 64 + n).toNat := by
      rw [BitVec.toNat_ofInt]; omega
    unfold zig
    rw [hs, BitVec.xor_allOnes, BitVec.toNat_not, BitVec.toNat_shiftLeft, hnat, Nat.shiftLeft_eq]
    omega

theorem unzig (n : Int) (h1 : -2 ^ 31 ≤ n) (h2 : n < 2 ^ 31) :
    (BitVec.ofNat 64 (zigNat n)).sshiftRight 1 ^^^ -(BitVec.ofNat 64 (zigNat n) &&& 1#64)
      = BitVec.ofInt 64 n := by
  have hz : zigNat n < 2 ^ 32 := by unfold zigNat; split <;> omega
  have hz' : (BitVec.ofNat 64 (zigNat n)).toNat = zigNat n := by
    rw [BitVec.toNat_ofNat]; omega
  have hmsb : (BitVec.ofNat 64 (zigNat n)).msb = false := by
    rw [BitVec.msb_eq_false_iff_two_mul_lt, hz']; omega
  have hand : (BitVec.ofNat 64 (zigNat n) &&& 1#64) = BitVec.ofNat 64 (zigNat n % 2) := by
    apply BitVec.eq_of_toNat_eq
    rw [BitVec.toNat_and, hz', BitVec.toNat_ofNat (zigNat n % 2)]
    show _ &&& (2 ^ 1 - 1) = _
    rw [Nat.and_two_pow_sub_one_eq_mod]; omega
  rw [BitVec.sshiftRight_eq_of_msb_false hmsb, hand]
  have hsh : ((BitVec.ofNat 64 (zigNat n)) >>> 1).toNat = zigNat n / 2 := by
    rw [BitVec.toNat_ushiftRight, hz', Nat.shiftRight_eq_div_pow]
  by_cases h0 : 0 ≤ n
  · have hv : zigNat n = (2 * n).toNat := by unfold zigNat; rw [if_pos h0]
    have : zigNat n % 2 = 0 := by omega
    rw [this]
    have e : -(BitVec.ofNat 64 0) = 0#64 := by decide
    rw [e, BitVec.xor_zero]
    apply BitVec.eq_of_toNat_eq
    rw [hsh, BitVec.toNat_ofInt]; omega
  · have hv : zigNat n = (-2 * n - 1).toNat := by unfold zigNat; rw [if_neg h0]
    have : zigNat n % 2 = 1 := by omega
    rw [this]
    have e : -(BitVec.ofNat 64 1) = BitVec.allOnes 64 := by decide
    rw [e, BitVec.xor_allOnes]
    apply BitVec.eq_of_toNat_eq
    rw [BitVec.toNat_not, hsh, BitVec.toNat_ofInt]; omega

theorem zigNat_lt (n : Int) (h1 : -2 ^ 31 ≤ n) (h2 : n < 2 ^ 31) : zigNat n < 2 ^ 32 := by
  unfold zigNat; split <;> omega

theorem varintEncode_eq (n : Int) (h1 : -2 ^ 31 ≤ n) (h2 : n < 2 ^ 31) :
    varintEncode (BitVec.ofInt 64 n) = some (leb 11 (zigNat n)) := by
  have hz := zigNat_lt n h1 h2
  unfold varintEncode
  rw [encLoop_eq_leb 10 _ (by rw [zig_toNat n h1 h2]; exact hz)
    (by rw [zig_toNat n h1 h2]; exact Nat.lt_of_lt_of_le hz (by decide)), zig_toNat n h1 h2]

theorem varintDecode_leb (n : Int) (h1 : -2 ^ 31 ≤ n) (h2 : n < 2 ^ 31) (rest : Bytes) :
    varintDecode (leb 11 (zigNat n) ++ rest)
      = .ok ((BitVec.ofInt 64 n, (leb 11 (zigNat n)).length), rest) := by
  have hz := zigNat_lt n h1 h2
  unfold varintDecode
  rw [decLoop_leb 10 _ rest 0#64 0 (Nat.lt_of_lt_of_le hz (by decide)) (by decide)
    (by omega) (by decide)]
  have e : (0#64).toNat + 2 ^ 0 * zigNat n = zigNat n := by simp
  simp only [e]
  rw [unzig n h1 h2]
  congr 3
  simp

/-- A decoder result does not depend on what follows the bytes consumed. -/
theorem decLoop_local : ∀ (bs : Bytes) (num : BitVec 64) (shift : Nat) r s' rest tl,
    decLoop bs num shift = .ok (r, s', rest) → decLoop (bs ++ tl) num shift = .ok (r, s', rest ++ tl)
  | [], _, _, _, _, _, _, h => by simp [decLoop] at h
  | b :: bs, num, shift, r, s', rest, tl, h => by
    simp only [decLoop, List.cons_append] at h ⊢
    split
    · rename_i h64; simp [h64] at h
    · rename_i h64
      simp only [if_neg h64] at h
      split
      · rename_i h80
        simp only [if_pos h80, Except.ok.injEq, Prod.mk.injEq] at h
        obtain ⟨h1, h2, h3⟩ := h
        rw [h1, h2, h3]
      · rename_i h80
        simp only [if_neg h80] at h
        exact decLoop_local bs _ _ _ _ _ _ h

theorem varintDecode_local (bs : Bytes) (r : BitVec 64 × Nat) (rest tl : Bytes)
    (h : varintDecode bs = .ok (r, rest)) : varintDecode (bs ++ tl) = .ok (r, rest ++ tl) := by
  unfold varintDecode at h ⊢
  cases hd : decLoop bs 0#64 0 with
  | error e => simp [hd] at h
  | ok x =>
    obtain ⟨a, b, c⟩ := x
    rw [decLoop_local _ _ _ _ _ _ tl hd]
    simp only [hd, Except.ok.injEq, Prod.mk.injEq] at h ⊢
    obtain ⟨h1, h2⟩ := h
    exact ⟨h1, by rw [h2]⟩

end Verif.Wire
