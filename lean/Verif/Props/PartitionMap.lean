import Verif.Sc.PartitionMap

/-!
# C40: manual replica maps
-/

namespace Verif.Props
open Verif.Sc

/-- a well-formed manual map: not empty, numbered `0, 1, …`, one non-zero number of replicas
everywhere, no SPU twice in a partition, no negative SPU id -/
def WellFormed (maps : List PMap) : Prop :=
  maps ≠ [] ∧ ∃ rf, 0 < rf ∧ ∀ i (hi : i < maps.length),
    maps[i].id = i ∧ maps[i].replicas.length = rf ∧ maps[i].replicas.Nodup ∧
      ∀ s ∈ maps[i].replicas, 0 ≤ s

/-- **C40.** A manual map is accepted exactly when it is well-formed.  Vectors of more than 2^32
entries are excluded: partition ids are `u32`, so no such map has the numbers `0 … n-1`, and the
length prefix of a vector on the wire is an `i32` (fluvio-protocol core/decoder.rs:47). -/
theorem C40_validate (maps : List PMap) (hsize : maps.length ≤ 2 ^ 32) :
    validate maps = .ok () ↔ WellFormed maps := by
  unfold validate WellFormed
  cases maps with
  | nil => simp
  | cons p rest =>
    rw [if_neg (by simp)]
    have hb : 1 + rest.length ≤ 2 ^ 32 := by simpa [Nat.add_comm] using hsize
    unfold validateLoop
    rw [if_pos rfl]
    constructor
    · intro h
      refine ⟨nofun, p.replicas.length, ?_⟩
      split at h
      · cases h
      · rename_i h1
        split at h
        · cases h
        · rename_i h2
          have hne : p.replicas ≠ [] := fun e => h2 (by rw [e]; rfl)
          refine ⟨by omega, ?_⟩
          split at h
          · cases h
          · rename_i hck
            have hck := (checkReplicas_ok _ hne).1 hck
            intro i hi
            cases i with
            | zero => exact ⟨by simpa using h1, rfl, hck⟩
            | succ i =>
              have hi' : i < rest.length := by simpa using hi
              rw [Nat.mod_eq_of_lt (by omega)] at h
              have := (validateLoop_later rest 1 _ (by omega) (by omega) hb).1 h i hi'
              refine ⟨?_, this.2⟩
              show rest[i].id = _
              omega
    · rintro ⟨_, rf, hrf, h⟩
      have h0 := h 0 (by simp)
      simp only [List.getElem_cons_zero] at h0
      have hne : p.replicas ≠ [] := fun e => by rw [e] at h0; simp at h0; omega
      rw [if_neg (by simp [h0.1]), if_neg (by omega), (checkReplicas_ok _ hne).2 h0.2.2]
      dsimp only
      cases rest with
      | nil => rfl
      | cons q r2 =>
        rw [Nat.mod_eq_of_lt (by simp at hb; omega)]
        refine (validateLoop_later _ 1 _ (by omega) (by omega) hb).2 fun i hi => ?_
        have := h (i + 1) (by simpa using hi)
        simp only [List.getElem_cons_succ] at this
        exact ⟨by omega, by omega, this.2.2⟩

/-- non-vacuity: an accepted map, and one rejected for each reason -/
example : validate [⟨0, [7, 3]⟩, ⟨1, [3, 9]⟩] = .ok () := rfl
example : validate [] = .error .empty := rfl
example : validate [⟨1, [0]⟩] = .error .startWithZero := rfl
example : validate [⟨0, []⟩] = .error .noReplica := rfl
example : validate [⟨0, [0]⟩, ⟨2, [0]⟩] = .error .gap := rfl
example : validate [⟨0, [0]⟩, ⟨1, [0, 1]⟩] = .error .differentLength := rfl
example : validate [⟨0, [5, 1, 5]⟩] = .error .duplicate := rfl
example : validate [⟨0, [0, -1]⟩] = .error .negative := rfl
example : WellFormed [⟨0, [7, 3]⟩, ⟨1, [3, 9]⟩] := (C40_validate _ (by decide)).1 rfl
example : ¬ WellFormed [⟨0, [7, 3]⟩, ⟨1, [3]⟩] := fun h => nomatch (C40_validate _ (by decide)).2 h

end Verif.Props
