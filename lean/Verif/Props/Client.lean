import Verif.Client.Offset
import Verif.Props.Reader

/-!
# C30: where a consumer starts
-/

namespace Verif.Props
open Verif.Client

/-- **Specification.** `o` is the offset in `[lo, hi]` closest to `want`. -/
def Closest (lo hi want o : Int) : Prop :=
  lo ≤ o ∧ o ≤ hi ∧ ∀ x, lo ≤ x → x ≤ hi → (o - want).natAbs ≤ (x - want).natAbs

/-- **Specification.** The offset a position asks for: a distance from the beginning, from the end, or
from behind the last record the consumer has stored. -/
inductive Wanted (start stable : Int) : Position → Option Int → Int → Prop where
  | beginning (n : Nat) : Wanted start stable (.fromBeginning n) none (start + n)
  | fromEnd (n : Nat) : Wanted start stable (.fromEnd n) none (stable - n)
  | after (n : Nat) (last : Int) : Wanted start stable (.fromBeginning n) (some last) (last + 1 + n)
  | before (n : Nat) (last : Int) : Wanted start stable (.fromEnd n) (some last) (last + 1 - n)

theorem clamp_closest {lo hi x : Int} (h : lo ≤ hi) : ∃ o, clamp x lo hi = some o ∧ Closest lo hi x o := by
  unfold clamp
  rw [if_neg (by omega)]
  refine ⟨_, rfl, ?_⟩
  by_cases h1 : x < lo
  · rw [if_pos h1]; exact ⟨by omega, by omega, fun y _ _ => by omega⟩
  · rw [if_neg h1]
    by_cases h2 : hi < x
    · rw [if_pos h2]; exact ⟨by omega, by omega, fun y _ _ => by omega⟩
    · rw [if_neg h2]; exact ⟨by omega, by omega, fun y _ _ => by omega⟩

/-- A relative start position resolves to the offset between the log start and the committed end that
is closest to the one asked for; in particular to that one if it lies in the range.  The distance is a
`u32`, offsets stay 2^33 away from the `i64` limit, and the log does not start behind its committed
end (see `C30_violated_inverted`). -/
theorem C30_relative_partial (p : Position) (start stable want : Int) (stored : Option Int)
    (h0 : 0 ≤ start) (h1 : start ≤ stable) (h2 : stable < 2 ^ 63 - 2 ^ 33)
    (hs : ∀ s, stored = some s → -1 ≤ s ∧ s < 2 ^ 63 - 2 ^ 33)
    (hp : ∀ n, p = .fromBeginning n ∨ p = .fromEnd n → n < 2 ^ 32)
    (hw : Wanted start stable p stored want) :
    ∃ o, startOffset p start stable stored = some o ∧ Closest start stable want o ∧
      (start ≤ want → want ≤ stable → o = want) := by
  have key : ∀ x : Int, -2 ^ 63 ≤ x → x < 2 ^ 63 → ∃ o,
      (clamp (wrap64 x) start stable).map (fun o => max o 0) = some o ∧ Closest start stable x o ∧
        (start ≤ x → x ≤ stable → o = x) := by
    intro x hx1 hx2
    rw [wrap64_of_fits hx1 hx2]
    obtain ⟨o, ho, hc⟩ := clamp_closest (x := x) h1
    refine ⟨o, ?_, hc, ?_⟩
    · rw [ho, Option.map_some, Int.max_eq_left (by have := hc.1; omega)]
    · intro ha hb
      have := hc.2.2 x ha hb
      omega
  cases hw with
  | beginning n =>
    have := hp n (.inl rfl)
    exact key (start + n) (by omega) (by omega)
  | fromEnd n =>
    have := hp n (.inr rfl)
    exact key (stable - n) (by omega) (by omega)
  | after n last =>
    have := hp n (.inl rfl)
    have := hs last rfl
    exact key (last + 1 + n) (by omega) (by omega)
  | before n last =>
    have := hp n (.inr rfl)
    have := hs last rfl
    exact key (last + 1 - n) (by omega) (by omega)

/-- An absolute position is kept as it is, whatever the log and the stored position; negative ones
cannot be constructed. -/
theorem C30_absolute (o start stable : Int) (stored : Option Int) (p : Position)
    (h : Position.mkAbsolute o = some p) : startOffset p start stable stored = some o ∧ 0 ≤ o := by
  unfold Position.mkAbsolute at h
  split at h
  · cases h
  · cases h
    refine ⟨?_, by omega⟩
    show some (max o 0) = some o
    rw [Int.max_eq_left (by omega)]

/-- No position below zero can be asked for. -/
theorem C30_absolute_negative (o : Int) (h : o < 0) : Position.mkAbsolute o = none := if_pos h

example : startOffset (.fromEnd 3) 5 10 none = some 7 ∧ startOffset (.fromEnd 30) 5 10 none = some 5 ∧
    startOffset (.fromBeginning 0) 5 10 (some 7) = some 8 ∧
    startOffset (.fromEnd 2) 5 10 (some 7) = some 6 ∧ Wanted 5 10 (.fromEnd 2) (some 7) (7 + 1 - 2) :=
  ⟨by decide, by decide, by decide, by decide, .before 2 7⟩

example : Position.mkAbsolute 12 = some (.absolute 12) ∧ startOffset (.absolute 12) 5 10 (some 7) = some 12 := by
  decide

/-- The claim fails if the log starts behind its committed end (size and age limits remove closed
segments without looking at the watermark): every relative position panics in the client. -/
theorem C30_violated_inverted (n : Nat) (start stable : Int) (stored : Option Int) (h : stable < start) :
    startOffset (.fromBeginning n) start stable stored = none ∧
    startOffset (.fromEnd n) start stable stored = none := by
  constructor <;>
  · unfold startOffset Position.resolve Position.resolveInner clamp
    simp only [if_pos h, Option.map_none]

open Verif.Storage in
/-- Such a log: three batches are written, none is committed yet, and the size limit removes the first
two. -/
theorem C30_violated_inverted_log :
    let r := (Replica.init.run ⟨200, 200, 200, ⟨50, 8⟩⟩
      [Op.write [clientBatch] false none, .write [clientBatch] false none, .write [clientBatch] false none,
       .cleanSize]).1
    r.hw = 0 ∧ r.logStart = 4 ∧ r.leo = 6 ∧ startOffset (.fromEnd 1) r.logStart r.hw none = none := by
  decide +kernel

end Verif.Props
