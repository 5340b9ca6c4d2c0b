import Verif.Cli.HexDump
/-!
# C106: a hexadecimal dump shows the record

The model is in `Verif/Cli/HexDump.lean`.
-/

namespace Verif.Props
open Verif.Cli.HexDump

/-- The dump is a line for every sixteen bytes: the number of the first byte, two groups of eight columns, and
the characters between bars; a last line that is not full is filled up with blanks. -/
theorem C106_layout (bs : List Byte) : dump bs = (lines 0 (rows bs)).flatten := dump_lines bs

/-- All lines are 79 characters long, so is the line of dashes. -/
theorem C106_size (bs : List Byte) (h : bs.length < 2 ^ 32) :
    (dump bs).length = 79 * ((bs.length + 15) / 16) ∧ separator.length = 79 := by
  obtain ⟨_, h2, h3⟩ := rows_spec bs.length bs (Nat.le_refl _)
  have key : ∀ (rs : List (List Byte)) (k : Nat), (∀ r ∈ rs, r.length ≤ 16) → 16 * (k + rs.length) ≤ 2 ^ 32 →
      (lines k rs).flatten.length = 79 * rs.length := by
    intro rs
    induction rs with
    | nil => intro k _ _; rfl
    | cons r rs ih =>
      intro k hr hk
      rw [List.length_cons] at hk
      rw [lines, List.flatten_cons, List.length_append, line_length (by omega) (hr r (by simp)),
        ih (k + 1) (fun x hx => hr x (by simp [hx])) (by omega), List.length_cons]
      omega
  exact ⟨by rw [dump_lines, key _ 0 h2 (by rw [h3]; omega), h3], by decide⟩

/-- Every byte is shown in its place: its line begins with the number of the line's first byte, its two digits
are in its column, and its character is in the column of characters. -/
theorem C106_place (bs : List Byte) (h : bs.length < 2 ^ 32) (i : Nat) (hi : i < bs.length) :
    number (((dump bs).drop (79 * (i / 16))).take 8) = some (16 * (i / 16)) ∧
    byteAt ((dump bs).drop (79 * (i / 16))) (i % 16) = some bs[i] ∧
    (dump bs)[79 * (i / 16) + 61 + i % 16]? = some (shown bs[i]) := by
  obtain ⟨_, h2, h3⟩ := rows_spec bs.length bs (Nat.le_refl _)
  obtain ⟨hk, e⟩ := rows_get bs.length bs (Nat.le_refl _) i hi
  obtain ⟨more, em⟩ := lines_drop (rows bs) 0 (i / 16) h2 (by rw [h3]; omega) hk
  rw [Nat.zero_add] at em
  have ho : 16 * (i / 16) < 2 ^ 32 := by omega
  have hr := h2 _ (List.getElem_mem hk)
  rw [← dump_lines] at em
  refine ⟨?_, ?_, ?_⟩
  · rw [em]
    have h8 := hexPad_length (w := 8) (n := 16 * (i / 16)) (by decide) ho
    have : (line (16 * (i / 16)) (rows bs)[i / 16] ++ more).take 8 = hexPad 8 (16 * (i / 16)) := by
      unfold line
      simp only [List.append_assoc]
      rw [List.take_append_of_le_length (by omega), List.take_of_length_le (by omega)]
    rw [this, number_hexPad]
  · rw [em, byteAt_append ho _ hr (by omega), e]
  · have := line_chars ho hr more e
    rw [← em, List.getElem?_drop] at this
    rw [← this]
    congr 1
    omega

/-- The character of a byte: printable ASCII is shown as it is, the end of a line as a dot, all else as a blank. -/
theorem C106_shown (b : Byte) :
    (0x20 ≤ b.toNat → b.toNat < 0x7f → (shown b).toNat = b.toNat) ∧ (b.toNat = 0x0a → shown b = '.') ∧
    (b.toNat ≠ 0x0a → ¬ (0x20 ≤ b.toNat ∧ b.toNat < 0x7f) → shown b = ' ') := by
  refine ⟨fun h1 h2 => ?_, fun h => ?_, fun h1 h2 => ?_⟩
  · unfold shown
    rw [if_pos ⟨h1, h2⟩]
    have hv : b.toNat.isValidChar := .inl (by omega)
    rw [Char.ofNat, dif_pos hv]
    rfl
  · unfold shown; rw [if_neg (by omega), if_pos h]
  · unfold shown; rw [if_neg h2, if_neg h1]

/-- No record is mistaken for another: dumps can be read back, whatever follows. -/
theorem C106_read (bs : List Byte) (h : bs.length < 2 ^ 32) (rest : Text) :
    readBack (formatBinary bs ++ rest) = some (bs, rest) := by
  obtain ⟨h1, h2, h3⟩ := rows_spec bs.length bs (Nat.le_refl _)
  unfold formatBinary
  rw [List.append_assoc, dump_lines, readBack_lines rest (rows bs) 0 h2 (by rw [h3]; omega), h1]

/-- So is a sequence of records: what is shown of them determines them. -/
theorem C106_stream (as bs : List (List Byte)) (ha : ∀ a ∈ as, a.length < 2 ^ 32) (hb : ∀ b ∈ bs, b.length < 2 ^ 32)
    (h : as.flatMap formatBinary = bs.flatMap formatBinary) : as = bs := by
  have hne : ∀ (x : List Byte) (t : Text), formatBinary x ++ t ≠ [] := by
    intro x t he
    have := congrArg List.length he
    unfold formatBinary at this
    rw [List.length_append, List.length_append, show separator.length = 79 by decide] at this
    simp at this
  induction as generalizing bs with
  | nil =>
    cases bs with
    | nil => rfl
    | cons b bs => exact absurd h.symm (hne _ _)
  | cons a as ih =>
    cases bs with
    | nil => exact absurd h (hne _ _)
    | cons b bs =>
      rw [List.flatMap_cons, List.flatMap_cons] at h
      have h1 := C106_read a (ha a (by simp)) (as.flatMap formatBinary)
      rw [h, C106_read b (hb b (by simp))] at h1
      injection h1 with h1
      injection h1 with h1 h2
      rw [h1, ih bs (fun x hx => ha x (by simp [hx])) (fun x hx => hb x (by simp [hx])) h2.symm]

/-- three bytes; nine bytes, where the second group begins; and sixteen, which fill a line -/
example : dump [0x41, 0x0a, 0xff] =
    "00000000  41 0a ff                                          |A.              |\n".toList := by decide

example : dump [0x41, 0x42, 0x43, 0x44, 0x45, 0x46, 0x47, 0x48, 0x49] =
    "00000000  41 42 43 44 45 46 47 48  49                       |ABCDEFGHI       |\n".toList := by decide

/-- The dump of no bytes is empty; what is shown is the line of dashes. -/
example : dump [] = [] := by decide

end Verif.Props
