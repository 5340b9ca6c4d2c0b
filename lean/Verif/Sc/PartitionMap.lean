import Verif.Sc.Sort

/-!
# Manual replica maps (`fluvio-controlplane-metadata/src/topic/spec.rs`)
-/

namespace Verif.Sc

/-- `PartitionMap` — spec.rs:602-612; the mirror configuration plays no role here. -/
structure PMap where
  id : Nat
  replicas : List Int
deriving DecidableEq

/-- the number of neighbours that differ: `windows(2).filter(|p| p[0] != p[1]).count()` —
spec.rs:557-560 -/
def changes : List Int → Nat
  | x :: y :: rest => (if x ≠ y then 1 else 0) + changes (y :: rest)
  | _ => 0

/-- errors of `validate`, in the order of the checks -/
inductive MapError where
  | empty | startWithZero | noReplica | gap | differentLength | duplicate | negative
deriving DecidableEq

/-- the checks of the loop that do not depend on the position — spec.rs:554-574 -/
def checkReplicas (rs : List Int) : Except MapError Unit :=
  if rs.length ≠ 1 + changes (sortInts rs) then .error .duplicate
  else if rs.any (fun s => s < 0) then .error .negative
  else .ok ()

/-- the loop of `validate` with the counter `id : u32`, which wraps in release builds, and the
length of the first entry — spec.rs:528-578 -/
def validateLoop : List PMap → Nat → Nat → Except MapError Unit
  | [], _, _ => .ok ()
  | p :: rest, id, len =>
    if id = 0 then
      if p.id ≠ id then .error .startWithZero
      else if p.replicas.length = 0 then .error .noReplica
      else match checkReplicas p.replicas with
        | .error e => .error e
        | .ok () => validateLoop rest ((id + 1) % 2 ^ 32) p.replicas.length
    else
      if p.id ≠ id then .error .gap
      else if p.replicas.length ≠ len then .error .differentLength
      else match checkReplicas p.replicas with
        | .error e => .error e
        | .ok () => validateLoop rest ((id + 1) % 2 ^ 32) len

/-- `PartitionMaps::validate` — spec.rs:509-581 -/
def validate (maps : List PMap) : Except MapError Unit :=
  if maps.isEmpty then .error .empty else validateLoop maps 0 0

/-- `unique_spus_in_partition_map` — spec.rs:493-505 -/
def uniqueSpus (maps : List PMap) : List Int :=
  maps.foldl (fun acc p => p.replicas.foldl (fun acc s => if acc.contains s then acc else acc ++ [s]) acc) []

/-! ## Facts -/

theorem changes_le (l : List Int) : changes l + 1 ≤ l.length ∨ l = [] := by
  induction l with
  | nil => exact .inr rfl
  | cons x rest ih =>
    left
    cases rest with
    | nil => simp [changes]
    | cons y r2 =>
      have := ih.resolve_right nofun
      simp only [changes, List.length_cons] at *
      split <;> omega

theorem changes_nodup (l : List Int) (h : l.Pairwise (· ≤ ·)) (hne : l ≠ []) :
    l.length = 1 + changes l ↔ l.Nodup := by
  induction l with
  | nil => exact absurd rfl hne
  | cons x rest ih =>
    cases rest with
    | nil => simp [changes]
    | cons y r2 =>
      have ⟨h1, h2⟩ := List.pairwise_cons.1 h
      have ih := ih h2 nofun
      have hle := (changes_le (y :: r2)).resolve_right nofun
      rw [List.nodup_cons, ← ih]
      simp only [changes, List.length_cons] at *
      constructor
      · intro he
        split at he
        · rename_i hxy
          refine ⟨fun hm => ?_, by omega⟩
          have hy := h1 y List.mem_cons_self
          rcases List.mem_cons.1 hm with e | hm
          · exact hxy e
          · have := (List.pairwise_cons.1 h2).1 x hm
            omega
        · omega
      · rintro ⟨hn, he⟩
        rw [if_pos (fun e => hn (by rw [e]; exact List.mem_cons_self))]
        omega

theorem checkReplicas_ok (rs : List Int) (hne : rs ≠ []) :
    checkReplicas rs = .ok () ↔ rs.Nodup ∧ ∀ s ∈ rs, 0 ≤ s := by
  have hs : sortInts rs ≠ [] := by
    intro e
    have := (sortInts_perm rs).length_eq
    rw [e] at this
    exact hne (List.length_eq_zero_iff.1 this.symm)
  have hlen : rs.length = 1 + changes (sortInts rs) ↔ rs.Nodup := by
    rw [← (sortInts_perm rs).length_eq, changes_nodup _ (sortInts_sorted rs) hs]
    exact (sortInts_perm rs).nodup_iff
  unfold checkReplicas
  split
  · rename_i h
    constructor
    · nofun
    · exact fun ⟨a, _⟩ => absurd (hlen.2 a) h
  · rename_i h
    have hn := hlen.1 (Classical.not_not.1 h)
    split
    · rename_i ha
      constructor
      · nofun
      · rintro ⟨_, hp⟩
        obtain ⟨s, hs, hlt⟩ := List.any_eq_true.1 ha
        have := hp s hs
        simp at hlt
        omega
    · rename_i ha
      refine ⟨fun _ => ⟨hn, fun s hs => ?_⟩, fun _ => rfl⟩
      apply Classical.byContradiction
      intro hlt
      exact ha (List.any_eq_true.2 ⟨s, hs, by simpa using by omega⟩)

theorem validateLoop_later (maps : List PMap) (id len : Nat) (hid : 0 < id) (hlen : 0 < len)
    (hb : id + maps.length ≤ 2 ^ 32) :
    validateLoop maps id len = .ok () ↔
      ∀ i (hi : i < maps.length), maps[i].id = id + i ∧ maps[i].replicas.length = len ∧
        maps[i].replicas.Nodup ∧ ∀ s ∈ maps[i].replicas, 0 ≤ s := by
  induction maps generalizing id with
  | nil => exact ⟨fun _ i hi => absurd hi (Nat.not_lt_zero _), fun _ => rfl⟩
  | cons p rest ih =>
    unfold validateLoop
    rw [if_neg (by omega)]
    have hb' : id + 1 + rest.length ≤ 2 ^ 32 := by simpa [Nat.add_comm, Nat.add_left_comm] using hb
    constructor
    · intro h
      split at h
      · cases h
      · rename_i h1
        split at h
        · cases h
        · rename_i h2
          have hl : p.replicas.length = len := by omega
          have hne : p.replicas ≠ [] := fun e => by rw [e] at hl; simp at hl; omega
          split at h
          · cases h
          · rename_i hck
            have hck := (checkReplicas_ok _ hne).1 hck
            intro i hi
            cases i with
            | zero => exact ⟨by simp; omega, hl, hck⟩
            | succ i =>
              have hi' : i < rest.length := by simpa using hi
              rw [Nat.mod_eq_of_lt (by omega)] at h
              have := (ih (id + 1) (by omega) hb').1 h i hi'
              refine ⟨?_, this.2⟩
              show rest[i].id = _
              omega
    · intro h
      have h0 := h 0 (by simp)
      simp only [List.getElem_cons_zero, Nat.add_zero] at h0
      rw [if_neg (by simp [h0.1]), if_neg (by simp [h0.2.1])]
      have hne : p.replicas ≠ [] := fun e => by rw [e] at h0; simp at h0; omega
      rw [(checkReplicas_ok _ hne).2 h0.2.2]
      dsimp only
      cases rest with
      | nil => rfl
      | cons q r2 =>
        rw [Nat.mod_eq_of_lt (by simp at hb'; omega)]
        refine (ih (id + 1) (by omega) hb').2 fun i hi => ?_
        have := h (i + 1) (by simpa using hi)
        refine ⟨?_, this.2⟩
        have := this.1
        simp only [List.getElem_cons_succ] at this
        omega

end Verif.Sc
