import Verif.Cli.Consume

/-!
# C100 `fluvio consume` prints the records it was asked for

Beginning where the options say, every record of the stream is printed once and in order, up to and including the offset
given with `--end`.
-/

namespace Verif.Props

open Verif.Cli.Consume

/-- Specification: what is printed for a record: the formatted value, with `--key-value` behind the key in brackets
(`[null]` without key). -/
def C100_line (o : Opts) (f : Format) (r : Rec) : Option Text :=
  let v := match f.template with | some t => t r | none => f.fmt o.output r.value
  v.map fun v => if o.keyValue then "[".toList ++ (match r.key with | some k => k | none => "null".toList) ++ "] ".toList ++ v
    else v

theorem C100.lineOf_eq (o : Opts) (f : Format) (ho : o.output ≠ .fullTable) (r : Rec) :
    lineOf o f r = (C100_line o f r).map fun l => (r, l) := by
  unfold Cli.Consume.lineOf C100_line printRecord
  have hk : r.key.getD "null".toList = (match r.key with | some k => k | none => "null".toList) := by
    cases r.key <;> rfl
  cases f.template with
  | some t =>
    dsimp only
    rw [if_neg ho]
    cases t r with
    | none => rfl
    | some v =>
      dsimp only
      split <;> simp_all
  | none =>
    dsimp only
    rw [if_neg ho]
    dsimp only
    rw [if_neg ho]
    cases f.fmt o.output r.value with
    | none => rfl
    | some v =>
      dsimp only
      split <;> simp_all

/-- Specification: the records that are printed with their lines; records that cannot be formatted are left out. -/
def C100_printed (o : Opts) (f : Format) (rs : List Rec) : List (Rec × Text) :=
  rs.filterMap fun r => (C100_line o f r).map fun l => (r, l)

theorem C100.printed_eq (o : Opts) (f : Format) (ho : o.output ≠ .fullTable) (rs : List Rec) :
    rs.filterMap (lineOf o f) = C100_printed o f rs := by
  unfold C100_printed
  congr
  funext r
  exact C100.lineOf_eq o f ho r

/-- The start is the one asked for; without option it is the end. -/
theorem C100_start (s : Start) :
    (s = ⟨true, none, none, none⟩ → calculateOffset s = .fromBeginning 0) ∧
    (∀ n, s = ⟨false, some n, none, none⟩ → calculateOffset s = .fromBeginning n) ∧
    (∀ n, s = ⟨false, none, some n, none⟩ → calculateOffset s = .fromEnd n) ∧
    (∀ n, s = ⟨false, none, none, some n⟩ → calculateOffset s = .absolute n) ∧
    (s = ⟨false, none, none, none⟩ → calculateOffset s = .fromEnd 0) := by
  refine ⟨?_, ?_, ?_, ?_, ?_⟩ <;> (intros; subst_vars; rfl)

/-- An end before the start is refused, and nothing else is. -/
theorem C100_crossing (start stop : Option Nat) :
    crossing start stop = true ↔ ∃ s e, start = some s ∧ stop = some e ∧ e < s := by
  unfold crossing
  cases start <;> cases stop <;> simp

/-- **C100 without `--end`.**  All records are printed, in order, until the stream ends or fails or the user stops; the
command ends as the stream does. -/
theorem C100_all (o : Opts) (f : Format) (ho : o.output ≠ .fullTable) (hs : o.stop = none) (rs : List Rec) (rest : List Item) :
    (loop o f (rs.map .record) = (C100_printed o f rs, .done)) ∧
    (loop o f (rs.map .record ++ .stop :: rest) = (C100_printed o f rs, .done)) ∧
    (loop o f (rs.map .record ++ .error :: rest) = (C100_printed o f rs, .failed)) := by
  refine ⟨?_, ?_, ?_⟩
  · have := loop_free o f ho hs rs []
    rw [List.append_nil] at this
    rw [this, C100.printed_eq o f ho, loop, List.append_nil]
  · rw [loop_free o f ho hs rs, C100.printed_eq o f ho, loop, List.append_nil]
  · rw [loop_free o f ho hs rs, C100.printed_eq o f ho, loop, List.append_nil]

/-- **C100 with `--end`, one partition.**  If offsets increase and the end itself is among them, exactly the records up to
it are printed; and if the end is not reached, all of them. -/
theorem C100_until_partial (o : Opts) (f : Format) (ho : o.output ≠ .fullTable) (e : Nat) (hs : o.stop = some e)
    (rs : List Rec) (hinc : rs.Pairwise fun a b => a.offset < b.offset) (rest : List Item) :
    ((∃ r ∈ rs, r.offset = e) →
      loop o f (rs.map .record ++ rest) = (C100_printed o f (rs.filter fun r => r.offset ≤ (e : Int)), .done)) ∧
    ((∀ r ∈ rs, r.offset < e) → loop o f (rs.map .record) = (C100_printed o f rs, .done) ∧
      loop o f (rs.map .record ++ .error :: rest) = (C100_printed o f rs, .failed)) := by
  refine ⟨fun ⟨r, hr, he⟩ => ?_, fun h => ⟨?_, ?_⟩⟩
  · obtain ⟨a, b, rfl⟩ := List.append_of_mem hr
    rw [List.pairwise_append, List.pairwise_cons] at hinc
    have ha : ∀ x ∈ a, x.offset < e := fun x hx => he ▸ hinc.2.2 x hx r (List.mem_cons_self ..)
    have hb : ∀ x ∈ b, (e : Int) < x.offset := fun x hx => he ▸ hinc.2.1.1 x hx
    have hf : (a ++ r :: b).filter (fun r => r.offset ≤ (e : Int)) = a ++ [r] := by
      rw [List.filter_append, List.filter_cons_of_pos (by simp [he]),
        List.filter_eq_self.mpr (fun x hx => by have := ha x hx; simp; omega),
        List.filter_eq_nil_iff.mpr (fun x hx => by have := hb x hx; simp; omega)]
    rw [hf, List.map_append, List.append_assoc, loop_before o f ho e hs a _ ha, List.map_cons, List.cons_append,
      loop_end o f ho e hs r (by omega), ← C100.printed_eq o f ho, List.filterMap_append]
  · have := loop_before o f ho e hs rs [] h
    rw [List.append_nil] at this
    rw [this, C100.printed_eq o f ho, loop, List.append_nil]
  · rw [loop_before o f ho e hs rs _ h, C100.printed_eq o f ho, loop, List.append_nil]

/-- With `--end` no more than one record with an offset behind the end is printed, whatever the stream, and it is the last
one; the records printed are, in order, from the stream. -/
theorem C100_until_any (o : Opts) (f : Format) (ho : o.output ≠ .fullTable) (e : Nat) (hs : o.stop = some e)
    (rs : List Rec) :
    ∃ pre, pre <+: rs ∧ (loop o f (rs.map .record)).1 = C100_printed o f pre ∧ (∀ r ∈ pre.dropLast, r.offset < e) ∧
      (pre = rs ∨ ∃ r, pre.getLast? = some r ∧ (e : Int) ≤ r.offset) := by
  induction rs with
  | nil => exact ⟨[], List.prefix_refl _, rfl, fun _ h => by simp at h, .inl rfl⟩
  | cons r rs ih =>
    by_cases he : (e : Int) ≤ r.offset
    · refine ⟨[r], List.cons_prefix_cons.mpr ⟨rfl, List.nil_prefix⟩, ?_, fun _ h => by simp at h, .inr ⟨r, rfl, he⟩⟩
      rw [List.map_cons, loop_end o f ho e hs r he, C100.printed_eq o f ho]
    · obtain ⟨pre, h1, h2, h3, h4⟩ := ih
      refine ⟨r :: pre, List.cons_prefix_cons.mpr ⟨rfl, h1⟩, ?_, fun x hx => ?_, ?_⟩
      · have := loop_before o f ho e hs [r] (rs.map .record) (by simpa using he)
        rw [List.map_cons, List.map_nil, List.cons_append, List.nil_append] at this
        rw [List.map_cons, this, h2, C100.printed_eq o f ho]
        dsimp only
        unfold C100_printed
        rw [← List.filterMap_append]
        rfl
      · cases pre with
        | nil => simp at hx
        | cons p ps =>
          rw [List.dropLast_cons_of_ne_nil (by simp), List.mem_cons] at hx
          rcases hx with rfl | hx
          · omega
          · exact h3 x hx
      · rcases h4 with rfl | ⟨x, h5, h6⟩
        · exact .inl rfl
        · refine .inr ⟨x, ?_, h6⟩
          cases pre with
          | nil => cases h5
          | cons p ps => rw [List.getLast?_cons_cons]; exact h5

/-- Violation: the offset is compared after printing, so a record behind the end is printed — if the start lies behind it
(`--head`, `--tail`, a consumer), or if a smart module dropped the record at the end. -/
theorem C100_violated_behind (o : Opts) (f : Format) (ho : o.output ≠ .fullTable) (e : Nat) (hs : o.stop = some e)
    (r : Rec) (he : (e : Int) < r.offset) (rest : List Item) :
    (loop o f (.record r :: rest)).1 = C100_printed o f [r] := by
  rw [loop_end o f ho e hs r (by omega), C100.printed_eq o f ho]

/-- Violation: with several partitions the command stops when the first of them reaches the end; records of the others
before the end are not printed. -/
theorem C100_violated_partitions (o : Opts) (f : Format) (ho : o.output ≠ .fullTable) (e : Nat) (hs : o.stop = some e)
    (r : Rec) (he : r.offset = e) (others : List Rec) :
    loop o f (.record r :: others.map .record) = (C100_printed o f [r], .done) := by
  rw [loop_end o f ho e hs r (by omega), C100.printed_eq o f ho]

/-- Violation: `[null]` stands for no key and for the key `null`. -/
theorem C100_violated_null (o : Opts) (f : Format) (ht : f.template = none) (p : Nat) (off : Int) (v : Text) :
    printRecord o f ⟨p, off, none, v⟩ = printRecord o f ⟨p, off, some "null".toList, v⟩ := by
  unfold printRecord
  rw [ht]
  rfl

/-- Violation: `--output full-table` without a terminal panics at the first record. -/
theorem C100_violated_full_table (o : Opts) (f : Format) (ho : o.output = .fullTable) (ht : f.template = none) (r : Rec)
    (rest : List Item) : loop o f (.record r :: rest) = ([], .panicked) := by
  rw [loop, printRecord, ht]
  simp [ho]

/-! ## The hypotheses can be met -/

def C100.f : Format := ⟨fun _ v => some v, none⟩

def C100.r (p : Nat) (o : Int) : Rec := ⟨p, o, none, "v".toList⟩

example : loop ⟨true, .dynamic, some 1⟩ C100.f ([C100.r 0 0, C100.r 0 1, C100.r 0 2].map .record)
    = ([(C100.r 0 0, "[null] v".toList), (C100.r 0 1, "[null] v".toList)], .done) := by
  decide +kernel

/-- Two partitions with two records each: the second record of partition 1 is lost. -/
example : (loop ⟨false, .dynamic, some 1⟩ C100.f
    ([C100.r 0 0, C100.r 1 0, C100.r 0 1, C100.r 1 1].map .record)).1.map (fun x => (x.1.part, x.1.offset))
    = [(0, 0), (1, 0), (0, 1)] := by
  decide +kernel

example : (loop ⟨false, .dynamic, some 1⟩ C100.f ([C100.r 0 5, C100.r 0 6].map .record)).1
    = [(C100.r 0 5, "v".toList)] := by
  decide +kernel

end Verif.Props
