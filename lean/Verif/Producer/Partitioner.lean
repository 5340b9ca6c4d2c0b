import Verif.Wire.Basic

/-!
# Choosing a partition (`fluvio/src/producer/partitioning.rs`, `producer/mod.rs`)

One producer: the round-robin counter, the partition count and the list of available partitions kept
up to date by a background task.  The hash function (SipHash 2-4 with key 0 over the key's length and
bytes) is abstract.
-/

namespace Verif.Producer
open Verif.Wire (Bytes)

/-- `SiphashRoundRobinPartitioner::index` (partitioning.rs:41-51) and
`PartitionAvailabilityTracker::{partition_count, available_partitions}` (mod.rs:416-423) -/
structure PState where
  index : Nat
  count : Nat
  available : List Nat
deriving DecidableEq

/-- `SiphashRoundRobinPartitioner::new` (partitioning.rs:45-51), `PartitionAvailabilityTracker::start`
(mod.rs:433-464) -/
def PState.init (count : Nat) : PState := ⟨0, count, []⟩

/-- `partition_siphash` — partitioning.rs:75-88; `none`: division by zero panics. -/
def partitionSiphash (hash : Bytes → Nat) (key : Bytes) (count : Nat) : Option Nat :=
  if count = 0 then none else some (hash key % count)

/-- `SiphashRoundRobinPartitioner::partition` — partitioning.rs:53-73 (`fetch_add` on a `u32` wraps). -/
def PState.partition (hash : Bytes → Nat) (s : PState) (key : Option Bytes) : PState × Option Nat :=
  match key with
  | some k => (s, partitionSiphash hash k s.count)
  | none =>
    let index := s.index
    let s' := { s with index := (s.index + 1) % 2 ^ 32 }
    if s.available.isEmpty then (s', if s.count = 0 then none else some (index % s.count))
    else (s', s.available[index % s.available.length]?)

/-- What happens: a record is sent, or the background task (mod.rs:466-499) stores the partition count
of the topic (471-478), or the list of the online ones among `n` partitions (480-497).  The two stores
are separate, so that a record can be sent in between. -/
inductive PEv where
  | send (key : Option Bytes)
  | setCount (n : Nat)
  | setAvailable (n : Nat) (online : Nat → Bool)

/-- `update_available_partitions` — mod.rs:466-499, `push_record` — mod.rs:260-278 -/
def PState.step (hash : Bytes → Nat) (s : PState) : PEv → PState × Option (Option Bytes × Option Nat)
  | .send key => let (s', p) := s.partition hash key; (s', some (key, p))
  | .setCount n => ({ s with count := n }, none)
  | .setAvailable n online => ({ s with available := (List.range n).filter online }, none)

/-- The choices made, in order: key and partition. -/
def PState.run (hash : Bytes → Nat) : PState → List PEv → List (Option Bytes × Option Nat)
  | _, [] => []
  | s, e :: evs =>
    match (s.step hash e).2 with
    | none => PState.run hash (s.step hash e).1 evs
    | some o => o :: PState.run hash (s.step hash e).1 evs

/-- The states passed through (including the first). -/
def PState.states (hash : Bytes → Nat) : PState → List PEv → List PState
  | s, [] => [s]
  | s, e :: evs => s :: PState.states hash (s.step hash e).1 evs

theorem PState.head_states (hash : Bytes → Nat) (s : PState) (evs : List PEv) :
    s ∈ s.states hash evs := by
  cases evs <;> simp [PState.states]

/-! ## Counting residues in an interval -/

/-- how many of the `n` numbers from `s` on have residue `a` modulo `m` -/
def hits (m a : Nat) : Nat → Nat → Nat
  | _, 0 => 0
  | s, n + 1 => (if s % m = a then 1 else 0) + hits m a (s + 1) n

theorem div_step {m x N : Nat} (hm : 0 < m) (hx : x < m) :
    (N + 1 + x) / m = (N + x) / m + if N % m = m - 1 - x then 1 else 0 := by
  have e : N + 1 + x = (N + x) + 1 := by omega
  rw [e, Nat.succ_div]
  congr 1
  have hd := Nat.div_add_mod N m
  have hr := Nat.mod_lt N hm
  by_cases h : N % m = m - 1 - x
  · rw [if_pos h, if_pos]
    refine ⟨N / m + 1, ?_⟩
    rw [Nat.mul_add]; omega
  · rw [if_neg h, if_neg]
    rintro ⟨k, hk⟩
    apply h
    have h1 : N % m + x + 1 = m * k - m * (N / m) := by omega
    rw [← Nat.mul_sub] at h1
    have h2 : k - N / m = 1 := by
      rcases Nat.lt_or_ge (k - N / m) 1 with h3 | h3
      · have : k - N / m = 0 := by omega
        rw [this] at h1; omega
      · rcases Nat.lt_or_ge (k - N / m) 2 with h4 | h4
        · omega
        · have := Nat.mul_le_mul_left m h4
          omega
    rw [h2] at h1; omega

theorem hits_eq {m a : Nat} (hm : 0 < m) (ha : a < m) : ∀ n s,
    hits m a s n + (s + (m - 1 - a)) / m = (s + n + (m - 1 - a)) / m
  | 0, s => by simp [hits]
  | n + 1, s => by
    have ih := hits_eq hm ha n (s + 1)
    have hst := div_step (N := s) hm (x := m - 1 - a) (by omega)
    have ea : m - 1 - (m - 1 - a) = a := by omega
    rw [ea] at hst
    have e : s + (n + 1) + (m - 1 - a) = s + 1 + n + (m - 1 - a) := by omega
    unfold hits
    rw [e, ← ih]
    omega

theorem hits_even {m a b : Nat} (ha : a < m) (hb : b < m) (s n : Nat) :
    hits m a s n ≤ hits m b s n + 1 := by
  have hm : 0 < m := by omega
  have h1 := hits_eq hm ha n s
  have h2 := hits_eq hm hb n s
  have bound : ∀ y, y / m + n / m ≤ (y + n) / m ∧ (y + n) / m ≤ y / m + n / m + 1 := by
    intro y
    have := Nat.add_div hm (a := y) (b := n)
    split at this <;> omega
  have ba := bound (s + (m - 1 - a))
  have bb := bound (s + (m - 1 - b))
  have ea : s + (m - 1 - a) + n = s + n + (m - 1 - a) := by omega
  have eb : s + (m - 1 - b) + n = s + n + (m - 1 - b) := by omega
  rw [ea] at ba
  rw [eb] at bb
  omega

end Verif.Producer
