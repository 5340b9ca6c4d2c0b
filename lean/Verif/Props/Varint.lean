import Verif.Wire.VarintExact

/-!
# C01, C02 — variable-length integers
-/

namespace Verif.Props
open Verif.Wire

/-- **C01.** Every integer of the 32-bit signed range is encoded (the encoder stops), the size
function announces the number of bytes written, and decoding the bytes followed by anything returns
the integer, the number of bytes used, and exactly what followed. -/
theorem C01_varint_roundtrip (n : Int) (hlo : -2 ^ 31 ≤ n) (hhi : n < 2 ^ 31) :
    ∃ bs, varintEncode (BitVec.ofInt 64 n) = some bs ∧
      varintSize (BitVec.ofInt 64 n) = some bs.length ∧
      ∀ rest, varintDecode (bs ++ rest) = .ok ((BitVec.ofInt 64 n, bs.length), rest) := by
  refine ⟨_, varintEncode_eq n hlo hhi, ?_, varintDecode_leb n hlo hhi⟩
  unfold varintSize
  rw [sizeLoop_eq]
  have := varintEncode_eq n hlo hhi
  unfold varintEncode at this
  rw [this]; rfl

example : (-2 ^ 31 : Int) ≤ -300 ∧ (-300 : Int) < 2 ^ 31 := by decide
example : varintEncode (BitVec.ofInt 64 (-300)) = some [0xd7, 0x04] := by decide
example : varintDecode [0xd7, 0x04, 9, 9] = .ok ((BitVec.ofInt 64 (-300), 2), [9, 9]) := by decide

/-- **C01.** Different integers of the range have different encodings, and no encoding is a prefix of
another one (so a reader always knows where an integer ends). -/
theorem C01_varint_prefix_free (m n : Int) (hm : -2 ^ 31 ≤ m ∧ m < 2 ^ 31)
    (hn : -2 ^ 31 ≤ n ∧ n < 2 ^ 31) (bm bn tl : Bytes)
    (em : varintEncode (BitVec.ofInt 64 m) = some bm) (en : varintEncode (BitVec.ofInt 64 n) = some bn)
    (h : bn = bm ++ tl) : m = n ∧ tl = [] := by
  obtain ⟨_, e1, -, d1⟩ := C01_varint_roundtrip m hm.1 hm.2
  obtain ⟨_, e2, -, d2⟩ := C01_varint_roundtrip n hn.1 hn.2
  rw [em] at e1; rw [en] at e2
  cases e1; cases e2
  have a := d1 tl
  have b := d2 []
  rw [List.append_nil, h, a] at b
  simp only [Except.ok.injEq, Prod.mk.injEq] at b
  refine ⟨?_, b.2⟩
  have := congrArg BitVec.toInt b.1.1
  rwa [BitVec.toInt_ofInt, BitVec.toInt_ofInt, Int.bmod_eq_of_le, Int.bmod_eq_of_le] at this <;> omega

example : varintEncode (BitVec.ofInt 64 64) = some [0x80, 0x01] := by decide

/-- **C02 (violated).** The 64-bit value `2^31` is encoded as one byte which is read back as `-1`. -/
theorem C02_violated_wrong_value :
    varintEncode (BitVec.ofInt 64 (2 ^ 31)) = some [1] ∧
      varintDecode [1] = .ok ((BitVec.ofInt 64 (-1), 1), []) := by decide

/-- **C02 (violated).** There is a 64-bit value for which the encoder never stops. -/
theorem C02_violated_nontermination :
    ∀ iterations, encLoop iterations (zig (BitVec.ofInt 64 (2 ^ 62 + 2 ^ 40))) = none :=
  encLoop_none_diverges _ (by decide)

/-- **C02 (partial).** The set of 64-bit integers that survive the encoding is exactly the 32-bit
range.  Missing with respect to C02: all other 64-bit integers, for which the claim is false. -/
theorem C02_exact_range_partial (n : BitVec 64) :
    (∃ bs, varintEncode n = some bs ∧ ∀ rest, varintDecode (bs ++ rest) = .ok ((n, bs.length), rest))
      ↔ -2 ^ 31 ≤ n.toInt ∧ n.toInt < 2 ^ 31 := by
  constructor
  · rintro ⟨bs, he, hd⟩
    exact varint_exact n bs [] bs.length [] he (hd [])
  · rintro ⟨h1, h2⟩
    obtain ⟨bs, a, -, c⟩ := C01_varint_roundtrip n.toInt h1 h2
    rw [BitVec.ofInt_toInt] at a c
    exact ⟨bs, a, c⟩

end Verif.Props
