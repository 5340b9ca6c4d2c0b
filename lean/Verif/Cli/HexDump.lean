/-!
# Records shown as hexadecimal dumps

`fluvio-extension-common/src/common/hex_dump.rs`, and `format_binary_record` of
`fluvio-cli/src/client/consume/record_format.rs`.  A string is the list of its characters.
-/

namespace Verif.Cli.HexDump

abbrev Text := List Char
abbrev Byte := BitVec 8

/-- `{:0wx}`: lower-case hexadecimal digits, filled up with zeros to a width -/
def hexPad (w n : Nat) : Text :=
  List.replicate (w - (Nat.toDigits 16 n).length) '0' ++ Nat.toDigits 16 n

/-- `byte_to_string` — hex_dump.rs:58-66 -/
def shown (b : Byte) : Char :=
  if 0x20 ≤ b.toNat ∧ b.toNat < 0x7f then Char.ofNat b.toNat
  else if b.toNat = 0xa then '.'
  else ' '

/-- The loop of `bytes_to_hex_dump` — hex_dump.rs:17-40: the bytes from index `i` on; `res` and `coll` are
`result` and `collector`. -/
def loop : Nat → List Byte → Text × Text → Text × Text
  | _, [], s => s
  | i, b :: bs, (res, coll) =>
    let res := if i % 16 = 0 then res ++ hexPad 8 i else res
    let res := if i % (16 / 2) = 0 then res ++ [' '] else res
    let coll := coll ++ [shown b]
    let res := res ++ ' ' :: hexPad 2 b.toNat
    if (i + 1) % 16 = 0 then loop (i + 1) bs (res ++ ' ' :: ' ' :: '|' :: coll ++ ['|', '\n'], [])
    else loop (i + 1) bs (res, coll)

/-- `for _ in last_char_idx..cols` — hex_dump.rs:48-51 -/
def fill : Nat → Text × Text → Text × Text
  | 0, s => s
  | n + 1, (res, coll) => fill n (res ++ [' ', ' ', ' '], coll ++ [' '])

/-- `bytes_to_hex_dump` — hex_dump.rs:9-56 -/
def dump (bs : List Byte) : Text :=
  let s := loop 0 bs ([], [])
  if s.2.isEmpty then s.1
  else
    let last := bs.length % 16
    let s := (if last ≤ 16 / 2 then s.1 ++ [' '] else s.1, s.2)
    let s := fill (16 - last) s
    s.1 ++ ' ' :: ' ' :: '|' :: s.2 ++ ['|', '\n']

/-- `hex_dump_separator` — hex_dump.rs:69-71 -/
def separator : Text :=
  "------------------------------------------------------------------------------\n".toList

/-- `format_binary_record` — record_format.rs:51-56 -/
def formatBinary (bs : List Byte) : Text := dump bs ++ separator

/-! ## Specification -/

/-- **Specification.** Rows of sixteen bytes, the last may be shorter. -/
def rows (bs : List Byte) : List (List Byte) :=
  match bs with
  | [] => []
  | b :: t => (b :: t).take 16 :: rows ((b :: t).drop 16)
termination_by bs.length
decreasing_by simp; omega

/-- **Specification.** Column `j` of the middle of a row: a blank and two digits, or three blanks. -/
def cell (row : List Byte) (j : Nat) : Text :=
  match row[j]? with
  | some b => ' ' :: hexPad 2 b.toNat
  | none => [' ', ' ', ' ']

/-- **Specification.** A line: the number of its first byte, two groups of eight columns, the characters. -/
def line (off : Nat) (row : List Byte) : Text :=
  hexPad 8 off ++ [' '] ++ (List.range 8).flatMap (cell row) ++ [' '] ++
    (List.range' 8 8).flatMap (cell row) ++ [' ', ' ', '|'] ++
    (row.map shown ++ List.replicate (16 - row.length) ' ') ++ ['|', '\n']

/-- **Specification.** The lines of rows, numbered. -/
def lines : Nat → List (List Byte) → List Text
  | _, [] => []
  | k, r :: rs => line (16 * k) r :: lines (k + 1) rs

/-- **Specification.** A hexadecimal digit read. -/
def unhex (c : Char) : Option Nat :=
  if '0'.toNat ≤ c.toNat ∧ c.toNat ≤ '9'.toNat then some (c.toNat - '0'.toNat)
  else if 'a'.toNat ≤ c.toNat ∧ c.toNat ≤ 'f'.toNat then some (c.toNat - 'a'.toNat + 10)
  else none

/-- **Specification.** The byte at column `j` of a line, read by its place: eight digits, a blank, and three
characters for each column, with one more blank before the second group. -/
def byteAt (l : Text) (j : Nat) : Option Byte :=
  match l.drop (9 + 3 * j + j / 8) with
  | _ :: x :: y :: _ =>
    match unhex x, unhex y with
    | some a, some b => some (BitVec.ofNat 8 (16 * a + b))
    | _, _ => none
  | _ => none

/-- **Specification.** Reading a dump back, line by line, until the line of dashes; what follows is left. -/
def readBack (s : Text) : Option (List Byte × Text) :=
  if s.length < 79 then none
  else if s.head? = some '-' then some ([], s.drop 79)
  else
    match readBack (s.drop 79) with
    | none => none
    | some (bs, rest) => some ((List.range 16).filterMap (byteAt (s.take 79)) ++ bs, rest)
termination_by s.length
decreasing_by simp; omega

/-! ## Lemmas -/

/-- Columns from `j` on, with the blank between the groups. -/
def cols : Nat → List Byte → Text
  | _, [] => []
  | j, b :: bs => (if j % 8 = 0 then [' '] else []) ++ ' ' :: hexPad 2 b.toNat ++ cols (j + 1) bs

theorem cols_append (a b : List Byte) : ∀ j, cols j (a ++ b) = cols j a ++ cols (j + a.length) b := by
  induction a with
  | nil => intro j; simp [cols]
  | cons x a ih =>
    intro j
    rw [List.cons_append, cols, ih, cols, List.length_cons, show j + 1 + a.length = j + (a.length + 1) by omega]
    simp

/-- Inside a row. -/
theorem loop_cols (k : Nat) : ∀ (bs more : List Byte) (j : Nat) (res coll : Text), 0 < j → j + bs.length ≤ 15 →
    loop (16 * k + j) (bs ++ more) (res, coll) =
      loop (16 * k + j + bs.length) more (res ++ cols j bs, coll ++ bs.map shown)
  | [], more, j, res, coll, _, _ => by simp [cols]
  | b :: bs, more, j, res, coll, h1, h2 => by
    rw [List.length_cons] at h2
    rw [List.cons_append, loop]
    have e1 : ¬ (16 * k + j) % 16 = 0 := by omega
    have e2 : ¬ (16 * k + j + 1) % 16 = 0 := by omega
    have e3 : (16 * k + j) % (16 / 2) = j % 8 := by omega
    rw [if_neg e1, if_neg e2, e3]
    have ih := loop_cols k bs more (j + 1)
      ((if j % 8 = 0 then res ++ [' '] else res) ++ ' ' :: hexPad 2 b.toNat) (coll ++ [shown b]) (by omega) (by omega)
    rw [show 16 * k + (j + 1) = 16 * k + j + 1 by omega] at ih
    rw [ih, List.length_cons, show 16 * k + j + 1 + bs.length = 16 * k + j + (bs.length + 1) by omega]
    congr 1
    rw [cols]
    split <;> simp

/-- A row that is not full. -/
theorem loop_short (k : Nat) (row : List Byte) (h0 : row ≠ []) (h : row.length ≤ 15) (res : Text) :
    loop (16 * k) row (res, []) = (res ++ hexPad 8 (16 * k) ++ cols 0 row, row.map shown) := by
  cases row with
  | nil => exact absurd rfl h0
  | cons b bs =>
    rw [List.length_cons] at h
    rw [loop]
    have e1 : (16 * k) % 16 = 0 := by omega
    have e2 : ¬ (16 * k + 1) % 16 = 0 := by omega
    have e3 : (16 * k) % (16 / 2) = 0 := by omega
    rw [if_pos e1, if_neg e2, if_pos e3]
    have := loop_cols k bs [] 1 (res ++ hexPad 8 (16 * k) ++ [' '] ++ ' ' :: hexPad 2 b.toNat) ([] ++ [shown b])
      (by omega) (by omega)
    rw [List.append_nil] at this
    rw [this, loop, cols]
    simp

/-- A full row. -/
theorem loop_full (k : Nat) (row more : List Byte) (h : row.length = 16) (res : Text) :
    loop (16 * k) (row ++ more) (res, []) =
      loop (16 * (k + 1)) more
        (res ++ hexPad 8 (16 * k) ++ cols 0 row ++ [' ', ' ', '|'] ++ row.map shown ++ ['|', '\n'], []) := by
  obtain ⟨init, z, rfl⟩ : ∃ init z, row = init ++ [z] := by
    rcases List.eq_nil_or_concat row with rfl | ⟨i, z, rfl⟩
    · cases h
    · exact ⟨i, z, by simp⟩
  rw [List.length_append, List.length_singleton] at h
  have hs : loop (16 * k) (init ++ ([z] ++ more)) (res, []) =
      loop (16 * k + 15) ([z] ++ more) (res ++ hexPad 8 (16 * k) ++ cols 0 init, init.map shown) := by
    cases init with
    | nil => simp at h
    | cons b bs =>
      rw [List.length_cons] at h
      rw [List.cons_append, loop]
      have e1 : (16 * k) % 16 = 0 := by omega
      have e2 : ¬ (16 * k + 1) % 16 = 0 := by omega
      have e3 : (16 * k) % (16 / 2) = 0 := by omega
      rw [if_pos e1, if_neg e2, if_pos e3]
      rw [loop_cols k bs ([z] ++ more) 1 _ _ (by omega) (by omega), cols,
        show 16 * k + 1 + bs.length = 16 * k + 15 by omega]
      simp
  rw [List.append_assoc, hs, List.singleton_append, loop]
  have e1 : ¬ (16 * k + 15) % 16 = 0 := by omega
  have e2 : (16 * k + 15 + 1) % 16 = 0 := by omega
  have e3 : ¬ (16 * k + 15) % (16 / 2) = 0 := by omega
  rw [if_neg e1, if_pos e2, if_neg e3, cols_append, show 16 * k + 15 + 1 = 16 * (k + 1) by omega]
  have : cols (0 + init.length) [z] = ' ' :: hexPad 2 z.toNat := by
    rw [show 0 + init.length = 15 by omega, cols, if_neg (by decide)]
    simp [cols]
  rw [this]
  simp

theorem fill_eq : ∀ (n : Nat) (res coll : Text),
    fill n (res, coll) = (res ++ (List.replicate n [' ', ' ', ' ']).flatten, coll ++ List.replicate n ' ')
  | 0, res, coll => by simp [fill]
  | n + 1, res, coll => by
    rw [fill, fill_eq n]
    simp [List.replicate_succ]

/-- The middle of a line is the columns, filled up with blanks. -/
theorem line_eq : ∀ (off : Nat) (row : List Byte), row ≠ [] → row.length ≤ 16 → line off row =
    hexPad 8 off ++ cols 0 row ++ (if row.length ≤ 8 then [' '] else []) ++
      (List.replicate (16 - row.length) [' ', ' ', ' ']).flatten ++ [' ', ' ', '|'] ++
      (row.map shown ++ List.replicate (16 - row.length) ' ') ++ ['|', '\n'] := by
  intro off row h0 h
  have r1 : List.range 8 = [0, 1, 2, 3, 4, 5, 6, 7] := by decide
  have r2 : List.range' 8 8 = [8, 9, 10, 11, 12, 13, 14, 15] := by decide
  have key : [' '] ++ (List.range 8).flatMap (cell row) ++ [' '] ++ (List.range' 8 8).flatMap (cell row) =
      cols 0 row ++ (if row.length ≤ 8 then [' '] else []) ++
      (List.replicate (16 - row.length) [' ', ' ', ' ']).flatten := by
    rw [r1, r2]
    rcases row with _ | ⟨a0, row⟩
    · exact absurd rfl h0
    iterate 15
      rcases row with _ | ⟨a1, row⟩
      · simp [cols, cell, List.replicate_succ]
    rcases row with _ | ⟨a1, row⟩
    · simp [cols, cell, List.replicate_succ]
    · simp at h
  unfold line
  have := congrArg (fun t => hexPad 8 off ++ t ++ ([' ', ' ', '|'] ++
    (row.map shown ++ List.replicate (16 - row.length) ' ') ++ ['|', '\n'])) key
  simpa only [List.append_assoc] using this

theorem rows_nil : rows [] = [] := by rw [rows]

theorem rows_cons {bs : List Byte} (h : bs ≠ []) : rows bs = bs.take 16 :: rows (bs.drop 16) := by
  cases bs with
  | nil => exact absurd rfl h
  | cons b t => rw [rows]

/-- The dump is the lines of the rows. -/
theorem loop_rows : ∀ (n : Nat) (bs : List Byte) (k : Nat) (res : Text), bs.length ≤ n →
    (let s := loop (16 * k) bs (res, [])
     if s.2.isEmpty then s.1
     else
      let last := bs.length % 16
      let s := (if last ≤ 16 / 2 then s.1 ++ [' '] else s.1, s.2)
      let s := fill (16 - last) s
      s.1 ++ ' ' :: ' ' :: '|' :: s.2 ++ ['|', '\n']) = res ++ (lines k (rows bs)).flatten := by
  intro n
  induction n with
  | zero =>
    intro bs k res h
    have : bs = [] := List.length_eq_zero_iff.1 (by omega)
    subst this
    simp [loop, rows_nil, lines]
  | succ n ih =>
    intro bs k res h
    by_cases h0 : bs = []
    · subst h0; simp [loop, rows_nil, lines]
    · rw [rows_cons h0, lines, List.flatten_cons]
      by_cases hl : bs.length ≤ 15
      · rw [loop_short k bs h0 hl, List.take_of_length_le (by omega), List.drop_eq_nil_of_le (by omega), rows_nil,
          lines, List.flatten_nil, List.append_nil, line_eq _ _ h0 (by omega)]
        have hn : ¬ (bs.map shown).isEmpty = true := by simpa using h0
        dsimp only
        rw [if_neg hn, Nat.mod_eq_of_lt (by omega), fill_eq]
        by_cases h8 : bs.length ≤ 8
        · rw [if_pos h8, if_pos (show bs.length ≤ 16 / 2 from h8)]; simp
        · rw [if_neg h8, if_neg (show ¬ bs.length ≤ 16 / 2 from h8)]; simp
      · have ht : (bs.take 16).length = 16 := by rw [List.length_take]; omega
        have hne : bs.take 16 ≠ [] := by intro he; rw [he] at ht; cases ht
        have hd : (bs.drop 16).length % 16 = bs.length % 16 := by rw [List.length_drop]; omega
        have := ih (bs.drop 16) (k + 1)
          (res ++ hexPad 8 (16 * k) ++ cols 0 (bs.take 16) ++ [' ', ' ', '|'] ++ (bs.take 16).map shown ++ ['|', '\n'])
          (by rw [List.length_drop]; omega)
        rw [← loop_full k (bs.take 16) (bs.drop 16) ht res, List.take_append_drop, hd] at this
        rw [this, line_eq _ _ hne (by omega), ht]
        simp

theorem dump_lines (bs : List Byte) : dump bs = (lines 0 (rows bs)).flatten := by
  have := loop_rows bs.length bs 0 [] (Nat.le_refl _)
  rw [List.nil_append] at this
  exact this

/-! Lengths and places -/

theorem hexPad_length {w n : Nat} (hw : 0 < w) (h : n < 16 ^ w) : (hexPad w n).length = w := by
  have := (Nat.length_toDigits_le_iff (b := 16) (n := n) (k := w) (by decide) hw).2 h
  unfold hexPad
  rw [List.length_append, List.length_replicate]
  omega

theorem unhex_digit {k : Nat} (h : k < 16) : unhex k.digitChar = some k := by
  have key : ∀ n : Fin 16, unhex n.val.digitChar = some n.val := by decide
  exact key ⟨k, h⟩

theorem digits_step (n : Nat) : Nat.toDigits 16 n =
    if n < 16 then [n.digitChar] else Nat.toDigits 16 (n / 16) ++ [(n % 16).digitChar] :=
  Nat.toDigits_eq_if (by decide)

/-- The two digits of a byte. -/
theorem hex2 (b : Byte) : ∃ x y, hexPad 2 b.toNat = [x, y] ∧ unhex x = some (b.toNat / 16) ∧
    unhex y = some (b.toNat % 16) := by
  have hb := b.isLt
  refine ⟨(b.toNat / 16).digitChar, (b.toNat % 16).digitChar, ?_, unhex_digit (by omega), unhex_digit (by omega)⟩
  unfold hexPad
  rw [digits_step]
  by_cases h : b.toNat < 16
  · rw [if_pos h, Nat.div_eq_of_lt h, Nat.mod_eq_of_lt h]; rfl
  · rw [if_neg h, digits_step, if_pos (by omega)]; rfl

/-- Digits read from the left. -/
def number (t : Text) : Option Nat :=
  t.foldl (fun a c => match a, unhex c with | some a, some d => some (16 * a + d) | _, _ => none) (some 0)

theorem number_append (a b : Text) {n : Nat} (h : number a = some n) :
    number (a ++ b) = b.foldl (fun a c => match a, unhex c with
      | some a, some d => some (16 * a + d) | _, _ => none) (some n) := by
  unfold number at *
  rw [List.foldl_append, h]

theorem number_digits : ∀ (m n : Nat), n ≤ m → number (Nat.toDigits 16 n) = some n := by
  intro m
  induction m with
  | zero => intro n h; have : n = 0 := by omega
            subst this; decide
  | succ m ih =>
    intro n h
    rw [digits_step]
    by_cases hn : n < 16
    · rw [if_pos hn]
      show (match some 0, unhex n.digitChar with | some a, some d => some (16 * a + d) | _, _ => none) = _
      rw [unhex_digit hn]; simp
    · rw [if_neg hn, number_append _ _ (ih (n / 16) (by omega))]
      show (match some (n / 16), unhex (n % 16).digitChar with | some a, some d => some (16 * a + d) | _, _ => none) = _
      rw [unhex_digit (by omega)]
      simp; omega

theorem number_zeros : ∀ n, number (List.replicate n '0') = some 0
  | 0 => rfl
  | n + 1 => by
    rw [List.replicate_succ]
    exact number_zeros n

theorem number_hexPad (w n : Nat) : number (hexPad w n) = some n := by
  unfold hexPad
  rw [number_append _ _ (number_zeros _)]
  exact number_digits n n (Nat.le_refl n)

theorem cell_length (row : List Byte) (j : Nat) : (cell row j).length = 3 := by
  unfold cell
  cases row[j]? with
  | none => rfl
  | some b =>
    obtain ⟨x, y, h, _⟩ := hex2 b
    dsimp only
    rw [h]; rfl

theorem cells_length (row : List Byte) : ∀ l : List Nat, (l.flatMap (cell row)).length = 3 * l.length
  | [] => rfl
  | j :: l => by
    rw [List.flatMap_cons, List.length_append, cell_length, cells_length row l, List.length_cons]; omega

theorem line_length {off : Nat} (ho : off < 2 ^ 32) {row : List Byte} (h : row.length ≤ 16) :
    (line off row).length = 79 := by
  unfold line
  simp only [List.length_append, cells_length, List.length_range, List.length_range', List.length_map,
    List.length_replicate, List.length_cons, List.length_nil]
  rw [hexPad_length (by decide) (by exact ho)]
  omega

/-- The cell in a column is found at its place. -/
theorem cells_drop (row : List Byte) (more : Text) : ∀ (n s j : Nat), j < n →
    ∃ t, ((List.range' s n).flatMap (cell row) ++ more).drop (3 * j) = cell row (s + j) ++ t
  | 0, _, _, h => absurd h (by omega)
  | n + 1, s, j, h => by
    rw [List.range'_succ, List.flatMap_cons, List.append_assoc]
    cases j with
    | zero => exact ⟨_, rfl⟩
    | succ j =>
      rw [show 3 * (j + 1) = (cell row s).length + 3 * j by rw [cell_length]; omega, ← List.drop_drop,
        List.drop_left]
      obtain ⟨t, ht⟩ := cells_drop row more n (s + 1) j (by omega)
      exact ⟨t, by rw [ht, show s + 1 + j = s + (j + 1) by omega]⟩

theorem line_cell {off : Nat} (ho : off < 2 ^ 32) (row : List Byte) {j : Nat} (hj : j < 16) :
    ∃ t, (line off row).drop (9 + 3 * j + j / 8) = cell row j ++ t := by
  have h9 : (hexPad 8 off ++ [' ']).length = 9 := by
    rw [List.length_append, hexPad_length (by decide) (by exact ho)]; rfl
  unfold line
  simp only [List.append_assoc]
  rw [← List.append_assoc (hexPad 8 off), show 9 + 3 * j + j / 8 = (hexPad 8 off ++ [' ']).length + (3 * j + j / 8) by
    rw [h9]; omega, ← List.drop_drop, List.drop_left]
  by_cases h : j < 8
  · rw [show 3 * j + j / 8 = 3 * j by omega, List.range_eq_range']
    obtain ⟨t, ht⟩ := cells_drop row _ 8 0 j h
    exact ⟨t, by rw [ht, Nat.zero_add]⟩
  · rw [← List.append_assoc ((List.range 8).flatMap (cell row)),
      show 3 * j + j / 8 = ((List.range 8).flatMap (cell row) ++ [' ']).length + 3 * (j - 8) by
        rw [List.length_append, cells_length]; simp; omega, ← List.drop_drop, List.drop_left]
    obtain ⟨t, ht⟩ := cells_drop row _ 8 8 (j - 8) (by omega)
    exact ⟨t, by rw [ht, show 8 + (j - 8) = j by omega]⟩

theorem byteAt_line {off : Nat} (ho : off < 2 ^ 32) (row : List Byte) {j : Nat} (hj : j < 16) :
    byteAt (line off row) j = row[j]? := by
  obtain ⟨t, ht⟩ := line_cell ho row hj
  unfold byteAt
  rw [ht]
  unfold cell
  cases row[j]? with
  | none => rfl
  | some b =>
    obtain ⟨x, y, h, hx, hy⟩ := hex2 b
    dsimp only
    rw [h]
    show (match unhex x, unhex y with
      | some a, some b => some (BitVec.ofNat 8 (16 * a + b))
      | _, _ => none) = some b
    rw [hx, hy]
    dsimp only
    rw [show 16 * (b.toNat / 16) + b.toNat % 16 = b.toNat by omega]
    simp

theorem bytes_line {off : Nat} (ho : off < 2 ^ 32) {row : List Byte} (h : row.length ≤ 16) :
    (List.range 16).filterMap (byteAt (line off row)) = row := by
  have h1 : (List.range 16).filterMap (byteAt (line off row)) = (List.range 16).filterMap (fun j => row[j]?) := by
    have : ∀ l : List Nat, (∀ j ∈ l, j < 16) →
        l.filterMap (byteAt (line off row)) = l.filterMap (fun j => row[j]?) := by
      intro l
      induction l with
      | nil => intro _; rfl
      | cons j l ih =>
        intro hl
        rw [List.filterMap_cons, List.filterMap_cons, byteAt_line ho row (hl j (by simp)),
          ih fun i hi => hl i (by simp [hi])]
    exact this _ fun j hj => List.mem_range.1 hj
  have h2 : ∀ (n : Nat) (r : List Byte), r.length ≤ n → (List.range n).filterMap (fun j => r[j]?) = r := by
    intro n
    induction n with
    | zero => intro r h; have : r = [] := List.length_eq_zero_iff.1 (by omega); subst this; rfl
    | succ n ih =>
      intro r h
      cases r with
      | nil => simp
      | cons a r =>
        rw [List.range_succ_eq_map, List.filterMap_cons, List.filterMap_map]
        have hih := ih r (by simpa using h)
        have he : ((fun j => (a :: r)[j]?) ∘ Nat.succ) = fun j => r[j]? := by funext j; rfl
        rw [he, hih]
        rfl
  rw [h1, h2 16 row h]

theorem digits_no_dash : ∀ (m n : Nat), n ≤ m → ∀ c ∈ Nat.toDigits 16 n, c ≠ '-' := by
  have hk : ∀ k, k < 16 → k.digitChar ≠ '-' := by
    intro k h he
    have := unhex_digit h
    rw [he, show unhex '-' = none by decide] at this
    cases this
  intro m
  induction m with
  | zero => intro n h c hc; have : n = 0 := by omega
            subst this; rw [digits_step, if_pos (by decide)] at hc; simp at hc; rw [hc]; decide
  | succ m ih =>
    intro n h c hc
    rw [digits_step] at hc
    split at hc
    · rename_i hn
      simp at hc; rw [hc]; exact hk n hn
    · rcases List.mem_append.1 hc with hc | hc
      · exact ih (n / 16) (by omega) c hc
      · simp at hc; rw [hc]; exact hk _ (by omega)

theorem line_head (off : Nat) (row : List Byte) (more : Text) : (line off row ++ more).head? ≠ some '-' := by
  have hd : ∀ c ∈ hexPad 8 off, c ≠ '-' := by
    intro c hc
    unfold hexPad at hc
    rcases List.mem_append.1 hc with hc | hc
    · rw [(List.mem_replicate.1 hc).2]; decide
    · exact digits_no_dash off off (Nat.le_refl _) c hc
  intro h
  have hne : hexPad 8 off ≠ [] := by
    unfold hexPad
    intro he
    exact Nat.toDigits_ne_nil (List.append_eq_nil_iff.1 he).2
  cases he : hexPad 8 off with
  | nil => exact hne he
  | cons c t =>
    unfold line at h
    rw [he] at h
    simp at h
    exact hd c (by rw [he]; simp) h

theorem readBack_separator (rest : Text) : readBack (separator ++ rest) = some ([], rest) := by
  have hs : separator.length = 79 := by decide
  rw [readBack, if_neg (by rw [List.length_append]; omega), if_pos (by rfl)]
  have : (separator ++ rest).drop 79 = rest := by
    rw [← hs, List.drop_left]
  rw [this]

theorem readBack_lines (rest : Text) : ∀ (rs : List (List Byte)) (k : Nat), (∀ r ∈ rs, r.length ≤ 16) →
    16 * (k + rs.length) ≤ 2 ^ 32 →
    readBack ((lines k rs).flatten ++ (separator ++ rest)) = some (rs.flatten, rest)
  | [], k, _, _ => by rw [lines, List.flatten_nil, List.nil_append, readBack_separator]; rfl
  | r :: rs, k, h, hk => by
    rw [List.length_cons] at hk
    have ho : 16 * k < 2 ^ 32 := by omega
    have hl := line_length ho (h r (by simp))
    rw [lines, List.flatten_cons, List.append_assoc, readBack,
      if_neg (by rw [List.length_append]; omega), if_neg (line_head _ _ _)]
    have e1 : (line (16 * k) r ++ ((lines (k + 1) rs).flatten ++ (separator ++ rest))).drop 79 =
        (lines (k + 1) rs).flatten ++ (separator ++ rest) := by rw [← hl, List.drop_left]
    have e2 : (line (16 * k) r ++ ((lines (k + 1) rs).flatten ++ (separator ++ rest))).take 79 =
        line (16 * k) r := by rw [← hl, List.take_left]
    rw [e1, e2, readBack_lines rest rs (k + 1) (fun x hx => h x (by simp [hx])) (by omega),
      bytes_line ho (h r (by simp))]
    rfl

theorem rows_spec : ∀ (n : Nat) (bs : List Byte), bs.length ≤ n →
    (rows bs).flatten = bs ∧ (∀ r ∈ rows bs, r.length ≤ 16) ∧ (rows bs).length = (bs.length + 15) / 16 := by
  intro n
  induction n with
  | zero =>
    intro bs h
    have : bs = [] := List.length_eq_zero_iff.1 (by omega)
    subst this
    simp [rows_nil]
  | succ n ih =>
    intro bs h
    by_cases h0 : bs = []
    · subst h0; simp [rows_nil]
    · have hp : 0 < bs.length := List.length_pos_iff.2 h0
      obtain ⟨i1, i2, i3⟩ := ih (bs.drop 16) (by rw [List.length_drop]; omega)
      rw [rows_cons h0]
      refine ⟨by rw [List.flatten_cons, i1, List.take_append_drop], ?_, ?_⟩
      · intro r hr
        rcases List.mem_cons.1 hr with rfl | hr
        · rw [List.length_take]; omega
        · exact i2 r hr
      · rw [List.length_cons, i3, List.length_drop]; omega

/-- The `k`-th line is found at its place. -/
theorem lines_drop : ∀ (rs : List (List Byte)) (m k : Nat), (∀ r ∈ rs, r.length ≤ 16) →
    16 * (m + rs.length) ≤ 2 ^ 32 → (h : k < rs.length) →
    ∃ more, (lines m rs).flatten.drop (79 * k) = line (16 * (m + k)) rs[k] ++ more
  | [], _, _, _, _, h => absurd h (by simp)
  | r :: rs, m, k, hr, hm, h => by
    rw [List.length_cons] at hm
    rw [lines, List.flatten_cons]
    cases k with
    | zero => exact ⟨_, rfl⟩
    | succ k =>
      have hl := line_length (off := 16 * m) (by omega) (hr r (by simp))
      rw [show 79 * (k + 1) = (line (16 * m) r).length + 79 * k by rw [hl]; omega, ← List.drop_drop, List.drop_left]
      obtain ⟨more, e⟩ := lines_drop rs (m + 1) k (fun x hx => hr x (by simp [hx])) (by omega) (by simpa using h)
      exact ⟨more, by rw [e, show m + 1 + k = m + (k + 1) by omega]; rfl⟩

theorem rows_get : ∀ (n : Nat) (bs : List Byte), bs.length ≤ n → ∀ (i : Nat) (h : i < bs.length),
    ∃ hk : i / 16 < (rows bs).length, (rows bs)[i / 16][i % 16]? = some bs[i] := by
  intro n
  induction n with
  | zero => intro bs h i hi; omega
  | succ n ih =>
    intro bs h i hi
    have h0 : bs ≠ [] := by intro he; subst he; simp at hi
    have hs := rows_cons h0
    by_cases hl : i < 16
    · refine ⟨by rw [hs, List.length_cons]; omega, ?_⟩
      simp only [hs, Nat.div_eq_of_lt hl, Nat.mod_eq_of_lt hl, List.getElem_cons_zero]
      rw [List.getElem?_take_of_lt hl, List.getElem?_eq_getElem hi]
    · obtain ⟨hk, e⟩ := ih (bs.drop 16) (by rw [List.length_drop]; omega) (i - 16) (by rw [List.length_drop]; omega)
      have hd : i / 16 = (i - 16) / 16 + 1 := by omega
      have hm : i % 16 = (i - 16) % 16 := by omega
      refine ⟨by rw [hs, List.length_cons]; omega, ?_⟩
      simp only [hs, hd, List.getElem_cons_succ]
      rw [hm, e, List.getElem_drop]
      congr 2
      omega

theorem byteAt_append {off : Nat} (ho : off < 2 ^ 32) (row : List Byte) (h : row.length ≤ 16) {j : Nat} (hj : j < 16)
    (more : Text) : byteAt (line off row ++ more) j = row[j]? := by
  obtain ⟨t, ht⟩ := line_cell ho row hj
  have hl := line_length ho h
  rw [← byteAt_line ho row hj]
  unfold byteAt
  rw [List.drop_append_of_le_length (by rw [hl]; omega), ht]
  have hc := cell_length row j
  match hx : cell row j, hc with
  | [a, b, c], _ => rfl

theorem line_chars {off : Nat} (ho : off < 2 ^ 32) {row : List Byte} (h : row.length ≤ 16) (more : Text) {j : Nat} {b : Byte}
    (hj : row[j]? = some b) : (line off row ++ more)[61 + j]? = some (shown b) := by
  have hlt : j < row.length := by
    rcases Nat.lt_or_ge j row.length with h | h
    · exact h
    · rw [List.getElem?_eq_none h] at hj; cases hj
  have hp : (hexPad 8 off ++ [' '] ++ (List.range 8).flatMap (cell row) ++ [' '] ++
      (List.range' 8 8).flatMap (cell row) ++ [' ', ' ', '|']).length = 61 := by
    simp only [List.length_append, cells_length, List.length_range, List.length_range', List.length_cons, List.length_nil]
    rw [hexPad_length (by decide) (by exact ho)]
  unfold line
  rw [List.append_assoc, List.append_assoc, List.getElem?_append_right (by omega), hp, Nat.add_sub_cancel_left,
    List.append_assoc, List.getElem?_append_left (by simpa using hlt), List.getElem?_map, hj]
  rfl

end Verif.Cli.HexDump
