import Verif.Wire.Basic

/-!
# The sparse offset index of a segment (`fluvio-storage/src/{mut_index,index}.rs`)

An index entry is a pair (offset relative to the segment base, byte position in the log file).
-/

namespace Verif.Storage

/-- `index_max_interval_bytes` and the number of slots `index_max_bytes / 8` — config.rs:104-120,
mut_index.rs:231-233 -/
structure IxCfg where
  interval : Nat
  cap : Nat

/-- `MutLogIndex` — mut_index.rs:39-50.  `slots` is the part of the memory-mapped file that was ever
written; every other slot reads as `(0, 0)`.  Numbers are natural numbers instead of `u32`. -/
structure Index where
  slots : List (Nat × Nat)
  used : Nat
  acc : Nat
  lastDelta : Nat

/-- `MutLogIndex::create` — mut_index.rs:52-90 -/
def Index.empty : Index := ⟨[], 0, 0, 0⟩

/-- The entries in use: `self[0 .. first_empty_slot]` -/
def Index.entries (ix : Index) : List (Nat × Nat) := ix.slots.take ix.used

/-- `write_index` — mut_index.rs:184-228; `none` when one of the assertions fails. -/
def Index.write (c : IxCfg) (ix : Index) (delta pos size : Nat) : Option Index :=
  if (0 < delta ∧ ¬ ix.lastDelta < delta) ∨ (delta = 0 ∧ ix.lastDelta ≠ 0) then none
  else if ix.acc < c.interval then
    some { ix with lastDelta := delta, acc := ix.acc + size }
  else if ix.used < c.cap then
    some { slots := ix.slots.take ix.used ++ (delta, pos) :: ix.slots.drop (ix.used + 1)
           used := ix.used + 1, acc := 0, lastDelta := delta }
  else some { ix with lastDelta := delta }

/-- `MutLogIndex::open` with `find_first_empty_index` — mut_index.rs:92-133, 160-176: the first slot
whose position is zero; `none` when there is none (the open fails). -/
def Index.reopen (c : IxCfg) (ix : Index) : Option Index :=
  let k := (ix.slots.takeWhile fun e => e.2 != 0).length
  if k < c.cap then some ⟨ix.slots, k, 0, 0⟩ else none

/-- `shrink` at roll-over, then `LogIndex::open_from_offset` — mut_index.rs:137-145,
index.rs:103-136: the file keeps the slots in use. -/
def Index.close (ix : Index) : Index := { ix with slots := ix.slots.take ix.used }

/-- What a read-only index holds: an empty file is opened with the minimal length of one entry, which
is zero — index.rs:111 (`MemoryMappedFile::open(path, INDEX_ENTRY_SIZE)`; the behaviour of that
library call is assumed). -/
def Index.closedEntries (ix : Index) : List (Nat × Nat) :=
  if ix.entries = [] then [(0, 0)] else ix.entries

/-- The loop of `<[T]>::binary_search_by` of the Rust standard library: keeps the half that may
contain the target. `f i` compares element `i` with the target. -/
def bsLoop (f : Nat → Ordering) : Nat → Nat → Nat → Nat
  | 0, base, _ => base
  | fuel + 1, base, size =>
    if size ≤ 1 then base
    else
      let half := size / 2
      let mid := base + half
      bsLoop f fuel (if f mid = .gt then base else mid) (size - half)

/-- `<[T]>::binary_search_by`: `Ok idx` (as `.inl`) if found, `Err insertion_point` (as `.inr`). -/
def binarySearch (f : Nat → Ordering) (n : Nat) : Nat ⊕ Nat :=
  if n = 0 then .inr 0
  else
    let base := bsLoop f n 0 n
    match f base with
    | .eq => .inl base
    | .lt => .inr (base + 1)
    | .gt => .inr base

/-- `lookup_entry` — index.rs:197-212; `none` also stands for the panic on an empty slice. -/
def lookupEntry (es : List (Nat × Nat)) (x : Nat) : Option Nat :=
  match es with
  | [] => none
  | e :: _ =>
    if x < e.1 then none
    else
      match binarySearch (fun i => compare ((es[i]?.getD (0, 0)).1) x) es.length with
      | .inl i => some i
      | .inr i => some (i - 1)

/-- `find_offset` of the writable index — mut_index.rs:240-253 -/
def Index.find (ix : Index) (x : Nat) : Option (Nat × Nat) :=
  if ix.used = 0 then none
  else (lookupEntry ix.entries x).bind fun i => ix.entries[i]?

/-- `find_offset` of the read-only index — index.rs:170-172 -/
def Index.findClosed (ix : Index) (x : Nat) : Option (Nat × Nat) :=
  (lookupEntry ix.closedEntries x).bind fun i => ix.closedEntries[i]?

/-! ## Facts about the search -/

theorem bsLoop_inv (f : Nat → Ordering) :
    ∀ fuel base size, f base ≠ .gt → f (bsLoop f fuel base size) ≠ .gt := by
  intro fuel
  induction fuel with
  | zero => intro base size h; exact h
  | succ fuel ih =>
    intro base size h
    unfold bsLoop
    split
    · exact h
    · apply ih
      split
      · exact h
      · assumption

theorem bsLoop_lt (f : Nat → Ordering) :
    ∀ fuel base size, 0 < size → bsLoop f fuel base size < base + size := by
  intro fuel
  induction fuel with
  | zero => intro base size h; unfold bsLoop; omega
  | succ fuel ih =>
    intro base size h
    unfold bsLoop
    split
    · omega
    · have := ih (if f (base + size / 2) = .gt then base else base + size / 2) (size - size / 2)
        (by omega)
      dsimp only
      split at this <;> simp_all <;> omega

/-- Whatever the list, the entry found is not beyond the target (it never skips forward). -/
theorem lookupEntry_le {es : List (Nat × Nat)} {x i : Nat} (h : lookupEntry es x = some i) :
    ∃ e, es[i]? = some e ∧ e.1 ≤ x := by
  unfold lookupEntry at h
  split at h
  · cases h
  · rename_i e tl
    split at h
    · cases h
    · rename_i hx
      generalize hf : (fun (i : Nat) => compare ((((e :: tl)[i]?).getD (0, 0)).1) x) = f at h
      have h0 : f 0 ≠ .gt := by
        rw [← hf]; simp only [List.getElem?_cons_zero, Option.getD_some]
        intro hc; rw [Nat.compare_eq_gt] at hc; omega
      have hb := bsLoop_inv f (e :: tl).length 0 (e :: tl).length h0
      have hlt := bsLoop_lt f (e :: tl).length 0 (e :: tl).length (by simp)
      unfold binarySearch at h
      rw [if_neg (by simp)] at h
      simp only at h
      generalize hbase : bsLoop f (e :: tl).length 0 (e :: tl).length = base at *
      have hlt' : base < (e :: tl).length := by omega
      have hfb : f base = compare ((e :: tl)[base]).1 x := by
        rw [← hf]; simp only [List.getElem?_eq_getElem hlt', Option.getD_some]
      refine ⟨(e :: tl)[base], ?_, ?_⟩
      · cases hc : f base with
        | eq => simp only [hc, Option.some.injEq] at h; subst h; exact List.getElem?_eq_getElem hlt'
        | lt =>
          simp only [hc, Option.some.injEq, Nat.add_sub_cancel] at h; subst h
          exact List.getElem?_eq_getElem hlt'
        | gt => exact absurd hc hb
      · rw [hfb] at hb
        rw [Ne, Nat.compare_eq_gt] at hb
        omega

theorem Index.find_mem {ix : Index} {x : Nat} {e : Nat × Nat} (h : ix.find x = some e) :
    e ∈ ix.entries ∧ e.1 ≤ x := by
  unfold Index.find at h
  split at h
  · cases h
  · rw [Option.bind_eq_some_iff] at h
    obtain ⟨i, hi, he⟩ := h
    obtain ⟨e', h1, h2⟩ := lookupEntry_le hi
    rw [h1] at he; cases he
    exact ⟨List.mem_of_getElem? h1, h2⟩

theorem Index.findClosed_mem {ix : Index} {x : Nat} {e : Nat × Nat} (h : ix.findClosed x = some e) :
    (e ∈ ix.entries ∧ e.1 ≤ x) ∨ e = (0, 0) := by
  unfold Index.findClosed at h
  rw [Option.bind_eq_some_iff] at h
  obtain ⟨i, hi, he⟩ := h
  obtain ⟨e', h1, h2⟩ := lookupEntry_le hi
  rw [h1] at he; cases he
  have hm := List.mem_of_getElem? h1
  unfold Index.closedEntries at hm
  split at hm
  · right; simpa using hm
  · left; exact ⟨hm, h2⟩

/-- For sorted entries the search is the documented one: the last entry not beyond the target. -/
theorem bsLoop_sorted (f : Nat → Ordering) (n : Nat)
    (hs : ∀ i j, i ≤ j → j < n → f i = .gt → f j = .gt) :
    ∀ fuel base size, 0 < size → base + size ≤ n → size ≤ fuel →
      (∀ j, base + size ≤ j → j < n → f j = .gt) →
      ∀ j, bsLoop f fuel base size < j → j < n → f j = .gt := by
  intro fuel
  induction fuel with
  | zero => intro base size h _ hf; omega
  | succ fuel ih =>
    intro base size h0 hn hf hout
    unfold bsLoop
    split
    · intro j hj hjn; exact hout j (by omega) hjn
    · dsimp only
      split
      · rename_i hm
        apply ih _ _ (by omega) (by omega) (by omega)
        intro j hj hjn
        exact hs _ j (by omega) hjn hm
      · apply ih _ _ (by omega) (by omega) (by omega)
        intro j hj hjn; exact hout j (by omega) hjn

theorem lookupEntry_sorted {es : List (Nat × Nat)} {x i : Nat}
    (hs : es.Pairwise fun a b => a.1 < b.1) (h : lookupEntry es x = some i) :
    ∀ j e, i < j → es[j]? = some e → x < e.1 := by
  unfold lookupEntry at h
  split at h
  · cases h
  · rename_i e tl
    split at h
    · cases h
    · rename_i hx
      generalize hf : (fun (i : Nat) => compare ((((e :: tl)[i]?).getD (0, 0)).1) x) = f at h
      have hget : ∀ j (hj : j < (e :: tl).length), f j = compare ((e :: tl)[j]).1 x := by
        intro j hj; rw [← hf]; simp only [List.getElem?_eq_getElem hj, Option.getD_some]
      have hmono : ∀ a b, a ≤ b → b < (e :: tl).length → f a = .gt → f b = .gt := by
        intro a b hab hb hg
        rw [hget a (by omega), Nat.compare_eq_gt] at hg
        rw [hget b hb, Nat.compare_eq_gt]
        rcases Nat.eq_or_lt_of_le hab with rfl | hlt
        · exact hg
        · have := List.pairwise_iff_getElem.1 hs a b (by omega) hb hlt
          omega
      have h0 : f 0 ≠ .gt := by
        rw [hget 0 (by simp)]; simp only [List.getElem_cons_zero]
        intro hc; rw [Nat.compare_eq_gt] at hc; omega
      have hb := bsLoop_inv f (e :: tl).length 0 (e :: tl).length h0
      have hafter := bsLoop_sorted f (e :: tl).length hmono (e :: tl).length 0 (e :: tl).length
        (by simp) (by omega) (by omega) (by intro j hj hjn; omega)
      unfold binarySearch at h
      rw [if_neg (by simp)] at h
      simp only at h
      generalize bsLoop f (e :: tl).length 0 (e :: tl).length = base at *
      have hi : i = base := by
        cases hc : f base with
        | eq => simp only [hc, Option.some.injEq] at h; exact h.symm
        | lt => simp only [hc, Option.some.injEq, Nat.add_sub_cancel] at h; exact h.symm
        | gt => exact absurd hc hb
      subst hi
      intro j e' hj he'
      obtain ⟨hjn, rfl⟩ := List.getElem?_eq_some_iff.1 he'
      have := hafter j hj hjn
      rw [hget j hjn, Nat.compare_eq_gt] at this
      exact this

end Verif.Storage
