/-!
# Names of partitions (`fluvio-protocol/src/record/replica.rs`, `fluvio-types/src/partition.rs`)

Strings are lists of characters; byte positions in the code are only used to cut the string at a '-',
which is a single byte.
-/

namespace Verif.Misc

/-- decimal digits, most significant first (`Display` of unsigned integers) -/
def showNat (n : Nat) : List Char :=
  if h : n < 10 then [Char.ofNat (48 + n)] else showNat (n / 10) ++ [Char.ofNat (48 + n % 10)]
termination_by n
decreasing_by omega

/-- `Display` of integers -/
def showInt (i : Int) : List Char :=
  if 0 ≤ i then showNat i.toNat else '-' :: showNat (-i).toNat

/-- `Display for ReplicaKey` — fluvio-protocol/src/record/replica.rs:37-41 (`idx` is a `u32`), and
`create_partition_name` — fluvio-types/src/partition.rs:31-33 (`idx` is an `i32`) -/
def partitionName (topic : List Char) (idx : Int) : List Char := topic ++ '-' :: showInt idx

/-- `char::to_digit(10)` -/
def digit (c : Char) : Option Nat :=
  if 48 ≤ c.toNat ∧ c.toNat ≤ 57 then some (c.toNat - 48) else none

/-- The digit loop of `from_str_radix` of the standard library for non-negative numbers; `max` is the
largest value of the type (checked multiplication and addition). -/
def parseDigits (max : Nat) : Nat → List Char → Option Nat
  | acc, [] => some acc
  | acc, c :: cs =>
    match digit c with
    | none => none
    | some d =>
      if acc * 10 ≤ max then
        if acc * 10 + d ≤ max then parseDigits max (acc * 10 + d) cs else none
      else none

/-- `str::parse` for `u32` (`signed = false`, `max = 2^32 - 1`) and `i32` (`signed = true`,
`max = 2^31 - 1`): an optional sign, then digits; the empty string and a lone sign are errors. -/
def parseNum (signed : Bool) (max : Nat) (s : List Char) : Option Int :=
  match s with
  | [] => none
  | ['+'] => none
  | ['-'] => none
  | '+' :: cs => (parseDigits max 0 cs).map Int.ofNat
  | '-' :: cs =>
    if signed then (parseDigits (max + 1) 0 cs).map fun n => -(Int.ofNat n) else none
  | cs => (parseDigits max 0 cs).map Int.ofNat

/-- `rfind('-')`: the part before the last dash and the part after it. -/
def splitLastDash : List Char → Option (List Char × List Char)
  | [] => none
  | c :: cs =>
    match splitLastDash cs with
    | some (a, b) => some (c :: a, b)
    | none => if c = '-' then some ([], cs) else none

/-- `decompose_partition_name` — fluvio-protocol/src/record/replica.rs:92-115 (`u32`),
fluvio-types/src/partition.rs:8-29 (`i32`) -/
def decompose (signed : Bool) (max : Nat) (name : List Char) : Option (List Char × Int) :=
  match splitLastDash name with
  | none => none
  | some (topic, idx) =>
    if idx = [] then none
    else (parseNum signed max idx).map fun n => (topic, n)

/-! ## Lemmas -/

theorem splitLastDash_none {l : List Char} (h : '-' ∉ l) : splitLastDash l = none := by
  induction l with
  | nil => rfl
  | cons c l ih =>
    rw [List.mem_cons, not_or] at h
    unfold splitLastDash
    rw [ih h.2]
    exact if_neg (fun e => h.1 e.symm)

theorem splitLastDash_append (a : List Char) {b : List Char} (h : '-' ∉ b) :
    splitLastDash (a ++ '-' :: b) = some (a, b) := by
  induction a with
  | nil =>
    show splitLastDash ('-' :: b) = _
    unfold splitLastDash
    rw [splitLastDash_none h]
    rfl
  | cons c a ih =>
    show splitLastDash (c :: (a ++ '-' :: b)) = _
    unfold splitLastDash
    rw [ih]

theorem digit_char {d : Nat} (h : d < 10) : digit (Char.ofNat (48 + d)) = some d ∧
    Char.ofNat (48 + d) ≠ '-' ∧ Char.ofNat (48 + d) ≠ '+' := by
  have : d = 0 ∨ d = 1 ∨ d = 2 ∨ d = 3 ∨ d = 4 ∨ d = 5 ∨ d = 6 ∨ d = 7 ∨ d = 8 ∨ d = 9 := by omega
  rcases this with rfl | rfl | rfl | rfl | rfl | rfl | rfl | rfl | rfl | rfl <;> decide

theorem showNat_chars (n : Nat) : ∀ c ∈ showNat n, ∃ d, d < 10 ∧ c = Char.ofNat (48 + d) := by
  fun_induction showNat n with
  | case1 n h =>
    intro c hc
    exact ⟨n, h, by simpa using hc⟩
  | case2 n h ih =>
    intro c hc
    rw [List.mem_append] at hc
    rcases hc with hc | hc
    · exact ih c hc
    · exact ⟨n % 10, Nat.mod_lt _ (by decide), by simpa using hc⟩

theorem showNat_ne_nil (n : Nat) : showNat n ≠ [] := by
  unfold showNat
  split <;> simp

theorem parseDigits_append (max acc : Nat) (a b : List Char) :
    parseDigits max acc (a ++ b) = (parseDigits max acc a).bind fun x => parseDigits max x b := by
  induction a generalizing acc with
  | nil => rfl
  | cons c a ih =>
    simp only [List.cons_append, parseDigits]
    split
    · rfl
    · split
      · split
        · exact ih _
        · rfl
      · rfl

theorem parseDigits_showNat {max n : Nat} (h : n ≤ max) : parseDigits max 0 (showNat n) = some n := by
  fun_induction showNat n with
  | case1 n hn =>
    simp only [parseDigits, (digit_char hn).1]
    rw [if_pos (by omega), if_pos (by omega)]; simp
  | case2 n hn ih =>
    rw [parseDigits_append, ih (by omega)]
    simp only [Option.bind_some, parseDigits, (digit_char (Nat.mod_lt n (by decide : 0 < 10))).1]
    rw [if_pos (by omega), if_pos (by omega)]
    congr 1; omega

theorem parseNum_showNat {signed : Bool} {max n : Nat} (h : n ≤ max) :
    parseNum signed max (showNat n) = some (n : Int) := by
  have h0 := showNat_ne_nil n
  have hc := showNat_chars n
  have hp := parseDigits_showNat h
  cases hs : showNat n with
  | nil => exact absurd hs h0
  | cons c cs =>
    rw [hs] at hc hp
    obtain ⟨d, hd, rfl⟩ := hc c (by simp)
    have hne := digit_char hd
    unfold parseNum
    split
    · rename_i h1; cases h1
    · rename_i h1; exact absurd (List.cons.inj h1).1 hne.2.2
    · rename_i h1; exact absurd (List.cons.inj h1).1 hne.2.1
    · rename_i h1; exact absurd (List.cons.inj h1).1 hne.2.2
    · rename_i h1; exact absurd (List.cons.inj h1).1 hne.2.1
    · rw [hp]; rfl

theorem dash_not_mem_showNat (n : Nat) : '-' ∉ showNat n := by
  intro h
  obtain ⟨d, hd, e⟩ := showNat_chars n _ h
  exact (digit_char hd).2.1 e.symm

theorem decompose_name {signed : Bool} {max n : Nat} (topic : List Char) (h : n ≤ max) :
    decompose signed max (partitionName topic n) = some (topic, (n : Int)) := by
  unfold decompose partitionName
  have : showInt (n : Int) = showNat n := by
    unfold showInt
    rw [if_pos (by omega)]; rfl
  rw [this, splitLastDash_append topic (dash_not_mem_showNat n)]
  dsimp only
  rw [if_neg (showNat_ne_nil n), parseNum_showNat h]
  rfl

theorem decompose_negative {max n : Nat} (topic : List Char) (h0 : 0 < n) (h : n ≤ max) :
    decompose true max (partitionName topic (-(n : Int))) = some (topic ++ ['-'], (n : Int)) := by
  have : partitionName topic (-(n : Int)) = partitionName (topic ++ ['-']) (n : Int) := by
    unfold partitionName showInt
    rw [if_neg (by omega), if_pos (by omega)]
    simp
  rw [this]
  exact decompose_name _ h

/-- Every name that is accepted splits at its last dash. -/
theorem splitLastDash_some {l a b : List Char} (h : splitLastDash l = some (a, b)) :
    l = a ++ '-' :: b ∧ '-' ∉ b := by
  induction l generalizing a b with
  | nil => cases h
  | cons c l ih =>
    unfold splitLastDash at h
    split at h
    · rename_i x y hxy
      cases h
      obtain ⟨h1, h2⟩ := ih hxy
      exact ⟨by rw [h1]; rfl, h2⟩
    · rename_i hn
      split at h
      · rename_i hc
        cases h
        refine ⟨by rw [hc]; rfl, ?_⟩
        intro hm
        clear ih hc
        induction l with
        | nil => cases hm
        | cons d l ih =>
          unfold splitLastDash at hn
          split at hn
          · cases hn
          · rename_i hn'
            split at hn
            · cases hn
            · rename_i hd
              rcases List.mem_cons.1 hm with he | he
              · exact hd he.symm
              · exact ih hn' he
      · cases h

end Verif.Misc
