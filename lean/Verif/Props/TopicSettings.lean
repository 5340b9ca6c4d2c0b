import Verif.Sc.TopicSettings

/-!
# C83: the settings of a topic are the limits of its storage
-/

namespace Verif.Props

open Verif.Sc.TopicSettings

/-- The limits which people may ask for: at least 10 seconds, segments of 1 KiB, partitions of 2 KiB which hold a
segment (of 1 GiB, unless given). -/
def SettingsAllowed (g : Given) : Prop :=
  (∀ r, g.retention = some r → 10 ≤ r) ∧ (∀ s, g.segment = some s → 1024 ≤ s) ∧
  (∀ m, g.maxPartition = some m → 2048 ≤ m ∧ g.segment.getD (2 ^ 30) ≤ m)

/-- Durations and segment sizes of 32 bits. -/
def SettingsSmall (g : Given) : Prop :=
  (∀ r, g.retention = some r → r < 2 ^ 32) ∧ (∀ s, g.segment = some s → s < 2 ^ 32)

private theorem dn (a b : Nat) (i : Decidable (a < b)) : (@decide (a < b) i = false) ↔ b ≤ a := by
  rw [decide_eq_false_iff_not, Nat.not_lt]

/-- **C83, both ways of giving settings agree**: the command line and the file describe the same topic. -/
theorem C83_cli_file (g : Given) : fromCli g = fromConfig g := by
  obtain ⟨r, s, m, c, d⟩ := g
  cases r <;> cases s <;> cases m <;> cases c <;> cases d <;> rfl

/-- **C83, as given**: a topic whose durations and segment sizes fit in 32 bits is accepted exactly if its settings are
allowed, and then its storage has the limits given, and the documented defaults (7 days, segments of 1 GiB, partitions
of 100 GiB) where none is given; the compression and the deduplication filter are those given. -/
theorem C83_as_given_partial (g : Given) (hs : SettingsSmall g) :
    ((create (fromConfig g)).isSome ↔ SettingsAllowed g) ∧
    ∀ t c, create (fromConfig g) = some (t, c) →
      c.retention = g.retention.getD (7 * 24 * 60 * 60) ∧ c.segment = g.segment.getD (2 ^ 30) ∧
      c.maxPartition = g.maxPartition.getD (100 * 2 ^ 30) ∧
      (Replica.ofPartition (PartitionSpec.ofTopic t)).compression = g.compression.getD .any ∧
      (Replica.ofPartition (PartitionSpec.ofTopic t)).dedup = g.dedup := by
  obtain ⟨r, s, m, cm, d⟩ := g
  obtain ⟨h1, h2⟩ := hs
  have hr : ∀ x, r = some x → asU32 x = x := fun x hx => Nat.mod_eq_of_lt (h1 x hx)
  have hsg : ∀ x, s = some x → asU32 x = x := fun x hx => Nat.mod_eq_of_lt (h2 x hx)
  constructor
  · cases r with
    | none =>
      cases s with
      | none =>
        cases m with
        | none => simp [dn, create, refused, fromConfig, SettingsAllowed]
        | some m =>
          simp [dn, create, refused, fromConfig, SettingsAllowed, partitionMin, segmentMin, segmentDefault]
      | some s =>
        have e := hsg s rfl
        cases m with
        | none => simp [dn, create, refused, fromConfig, SettingsAllowed, e, segmentMin]
        | some m => simp [dn, create, refused, fromConfig, SettingsAllowed, e, segmentMin, partitionMin]
    | some r =>
      have e' := hr r rfl
      cases s with
      | none =>
        cases m with
        | none => simp [dn, create, refused, fromConfig, SettingsAllowed, e', retentionMin]
        | some m =>
          simp [dn, create, refused, fromConfig, SettingsAllowed, e', retentionMin, partitionMin, segmentMin, segmentDefault]
      | some s =>
        have e := hsg s rfl
        cases m with
        | none => simp [dn, create, refused, fromConfig, SettingsAllowed, e, e', retentionMin, segmentMin]
        | some m =>
          simp [dn, create, refused, fromConfig, SettingsAllowed, e, e', retentionMin, segmentMin, partitionMin]
  · intro t c h
    unfold create at h
    split at h
    · cases h
    · injection h with h
      injection h with ht hc
      subst ht; subst hc
      cases r with
      | none =>
        cases s with
        | none => cases m <;> exact ⟨rfl, rfl, rfl, rfl, rfl⟩
        | some s => cases m <;> exact ⟨rfl, hsg s rfl, rfl, rfl, rfl⟩
      | some r =>
        cases s with
        | none => cases m <;> exact ⟨hr r rfl, rfl, rfl, rfl, rfl⟩
        | some s => cases m <;> exact ⟨hr r rfl, hsg s rfl, rfl, rfl, rfl⟩

example : SettingsSmall { retention := some 3600, segment := some 4096, maxPartition := some 1000000 } ∧
    SettingsAllowed { retention := some 3600, segment := some 4096, maxPartition := some 1000000 } ∧
    create (fromConfig { retention := some 3600, segment := some 4096, maxPartition := some 1000000, compression := some .gzip })
      = some (⟨some 3600, some ⟨some 4096, some 1000000⟩, .gzip, none⟩, ⟨4096, 3600, 1000000⟩) := by
  refine ⟨⟨?_, ?_⟩, ⟨?_, ?_, ?_⟩, by decide⟩ <;> intro x hx <;> cases hx <;> decide

example : create (fromConfig { maxPartition := some 1000000 }) = none := by decide

/-- **C83, workable limits**: whatever is given, the storage of an accepted topic keeps records for ten seconds at least,
has segments of 1 KiB at least, and partitions large enough for a segment. -/
theorem C83_workable (g : Given) (t : TopicSpec) (c : ReplicaConfig) (h : create (fromConfig g) = some (t, c)) :
    10 ≤ c.retention ∧ 1024 ≤ c.segment ∧ c.segment ≤ c.maxPartition := by
  unfold create at h
  split at h
  · cases h
  · rename_i hr
    injection h with h
    injection h with ht hc
    subst ht; subst hc
    obtain ⟨r, s, m, cm, d⟩ := g
    have hlt : ∀ x, asU32 x < 2 ^ 32 := fun x => Nat.mod_lt _ (by decide)
    cases r with
    | none =>
      cases s with
      | none =>
        cases m with
        | none => exact ⟨(by decide : 10 ≤ retentionDefault), (by decide : 1024 ≤ segmentDefault), (by decide : segmentDefault ≤ partitionDefault)⟩
        | some m =>
          simp [refused, fromConfig, partitionMin, segmentMin, segmentDefault] at hr
          exact ⟨(by decide : 10 ≤ retentionDefault), (by decide : 1024 ≤ segmentDefault), hr.2⟩
      | some s =>
        have := hlt s
        cases m with
        | none =>
          simp [refused, fromConfig, segmentMin] at hr
          refine ⟨(by decide : 10 ≤ retentionDefault), hr, ?_⟩
          show asU32 s ≤ 107374182400
          omega
        | some m =>
          simp [refused, fromConfig, segmentMin, partitionMin] at hr
          exact ⟨(by decide : 10 ≤ retentionDefault), hr.1, hr.2.2⟩
    | some r =>
      cases s with
      | none =>
        cases m with
        | none =>
          simp [refused, fromConfig, retentionMin] at hr
          exact ⟨hr, (by decide : 1024 ≤ segmentDefault), (by decide : segmentDefault ≤ partitionDefault)⟩
        | some m =>
          simp [refused, fromConfig, retentionMin, partitionMin, segmentMin, segmentDefault] at hr
          exact ⟨hr.1, (by decide : 1024 ≤ segmentDefault), hr.2.2⟩
      | some s =>
        have := hlt s
        cases m with
        | none =>
          simp [refused, fromConfig, segmentMin, retentionMin] at hr
          refine ⟨hr.1, hr.2, ?_⟩
          show asU32 s ≤ 107374182400
          omega
        | some m =>
          simp [refused, fromConfig, segmentMin, partitionMin, retentionMin] at hr
          exact ⟨hr.1, hr.2.1, hr.2.2.2⟩

/-- **C83, shown is enforced**: the retention shown for a topic is the one its storage enforces. -/
theorem C83_shown (t t' : TopicSpec) (c : ReplicaConfig) (h : create t = some (t', c)) :
    t' = t ∧ t'.shownRetention = c.retention := by
  unfold create at h
  split at h
  · cases h
  · injection h with h
    injection h with ht hc
    subst ht; subst hc
    refine ⟨rfl, ?_⟩
    obtain ⟨cl, st, _, _⟩ := t
    cases cl with
    | none =>
      cases st with
      | none => rfl
      | some st => obtain ⟨a, b⟩ := st; cases a <;> cases b <;> rfl
    | some cl =>
      cases st with
      | none => rfl
      | some st => obtain ⟨a, b⟩ := st; cases a <;> cases b <;> rfl

/-- **C83 is violated, segment size**: sizes of segments are cut to 32 bits without a warning. Segments of 4 GiB and
2 KiB become segments of 2 KiB. -/
theorem C83_violated_segment : ∃ t c, create (fromConfig { segment := some (4 * 2 ^ 30 + 2048) }) = some (t, c) ∧
    c.segment = 2048 := ⟨_, _, rfl, rfl⟩

/-- **C83 is violated, retention**: so are durations. Keeping records for 137 years (of 365 days) removes them within
296 days. -/
theorem C83_violated_retention : ∃ t c, create (fromConfig { retention := some (137 * 365 * 24 * 3600) }) = some (t, c) ∧
    c.retention < 296 * 24 * 3600 := ⟨_, _, rfl, by decide⟩

/-- **C83 is violated, in general**: the storage never keeps records longer than 2^32 seconds, whatever is asked for. -/
theorem C83_violated_longer (g : Given) (t : TopicSpec) (c : ReplicaConfig) (h : create (fromConfig g) = some (t, c)) :
    c.retention < 2 ^ 32 := by
  have := (C83_shown _ _ _ h)
  rw [← this.2, this.1]
  obtain ⟨r, s, m, cm, d⟩ := g
  cases r with
  | none => cases s <;> cases m <;> exact (by decide : retentionDefault < 2 ^ 32)
  | some r => cases s <;> cases m <;> exact Nat.mod_lt _ (by decide)

end Verif.Props
