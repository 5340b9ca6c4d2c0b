import Verif.Sc.Election

/-!
# C41 — leader election
-/

namespace Verif.Props

open Verif.Sc

/-- The specification.  `Eligible online st r` (Sc/Election.lean): `r` is one of the replicas in the
status, its broker is online and it lags fewer than four records behind the end offset last
reported by the leader.

`after` is what became of partition `before` when broker `off` went offline. -/
structure Elected (online : List Int) (off : Int) (before after : Part) : Prop where
  /-- it is the same partition with the same replicas -/
  key : after.key = before.key
  replicas : after.spec.replicas = before.spec.replicas
  /-- another leader: nothing happens -/
  untouched : before.spec.leader ≠ off → after = before
  /-- a replica is eligible: the new leader is an eligible one, the status does not change -/
  elects : before.spec.leader = off → (∃ r, Eligible online before.status r) →
    after.status = before.status ∧
    ∃ r, Eligible online before.status r ∧ after.spec.leader = r.spu
  /-- no replica is eligible: the leader stays, and the partition is not online any more -/
  keeps : before.spec.leader = off → (∀ r, ¬ Eligible online before.status r) →
    after.spec = before.spec ∧ after.status.resolution ≠ .online

theorem elected_of_off (online : List Int) (off : Int) (p : Part) :
    Elected online off p ((offActions online off p).foldl actOn p) := by
  unfold offActions
  by_cases h : p.spec.leader = off
  · rw [if_pos h]
    cases hc : candidateLeader online p.status with
    | some l =>
      obtain ⟨r, hr, hs, _⟩ := candidate_some hc
      simp only [List.foldl_cons, List.foldl_nil, actOn, if_pos]
      exact ⟨rfl, rfl, fun c => absurd h c, fun _ _ => ⟨rfl, r, hr, hs.symm⟩,
        fun _ c => absurd hr (c r)⟩
    | none =>
      have hn := candidate_none hc
      by_cases ho : p.status.isOnline = true
      · simp only [if_pos ho, List.foldl_cons, List.foldl_nil, actOn, if_pos]
        exact ⟨rfl, rfl, fun c => absurd h c, fun _ ⟨r, hr⟩ => absurd hr (hn r), fun _ _ => ⟨rfl, nofun⟩⟩
      · have hf : p.status.resolution ≠ .online := by
          intro e
          exact ho (by unfold PStatus.isOnline; rw [e]; rfl)
        simp only [if_neg ho, List.foldl_nil]
        exact ⟨rfl, rfl, fun c => absurd h c, fun _ ⟨r, hr⟩ => absurd hr (hn r), fun _ _ => ⟨rfl, hf⟩⟩
  · rw [if_neg h]
    exact ⟨rfl, rfl, fun _ => rfl, fun c => absurd c h, fun c => absurd c h⟩

/-- When broker `off` goes offline, every partition of the store becomes what the specification
says; no partition appears, disappears or moves. -/
theorem C41_off (online : List Int) (off : Int) (ps : List Part) (hn : (ps.map (·.key)).Nodup) :
    ∃ f : Part → Part, applyActions ps (electionOff online off ps) = ps.map f ∧
      ∀ p ∈ ps, Elected online off p (f p) := by
  refine ⟨fun p => (offActions online off p).foldl actOn p, ?_, fun p _ => elected_of_off online off p⟩
  rw [applyActions_map]
  apply List.map_congr_left
  intro p hp
  exact acts_own _ (offActions_key online off) ps hn p hp p rfl

/-- The new leader is as far as every other eligible replica, provided no eligible replica is
recorded with a higher end offset than the leader.

Missing from the full claim: that hypothesis.  Without it the claim is false,
`C41_violated_ahead`. -/
theorem C41_most_caught_up_partial (online : List Int) (off : Int) (ps : List Part)
    (hn : (ps.map (·.key)).Nodup) (p : Part) (hp : p ∈ ps) (hl : p.spec.leader = off)
    (hahead : ∀ r, Eligible online p.status r → r.leo ≤ p.status.leader.leo)
    (hex : ∃ r, Eligible online p.status r) :
    ∃ q ∈ applyActions ps (electionOff online off ps), q.key = p.key ∧ q.status = p.status ∧
      q.spec.replicas = p.spec.replicas ∧
      ∃ r, Eligible online p.status r ∧ q.spec.leader = r.spu ∧
        ∀ r', Eligible online p.status r' → r'.leo ≤ r.leo := by
  have e : applyActions ps (electionOff online off ps) =
      ps.map fun p => (offActions online off p).foldl actOn p := by
    rw [applyActions_map]
    apply List.map_congr_left
    intro p hp
    exact acts_own _ (offActions_key online off) ps hn p hp p rfl
  refine ⟨(offActions online off p).foldl actOn p, e ▸ List.mem_map.2 ⟨p, hp, rfl⟩, ?_⟩
  unfold offActions
  rw [if_pos hl]
  cases hc : candidateLeader online p.status with
  | none =>
    obtain ⟨r, hr⟩ := hex
    exact absurd hr (candidate_none hc r)
  | some l =>
    obtain ⟨r, hr, hs, hb⟩ := candidate_some hc
    simp only [List.foldl_cons, List.foldl_nil, actOn, if_pos]
    refine ⟨trivial, trivial, trivial, r, hr, hs.symm, fun r' hr' => ?_⟩
    have h1 := hb r' hr'
    have h2 := hahead r hr
    have h3 := hahead r' hr'
    have h4 := hr.2.2
    have h5 := hr'.2.2
    rw [Int.emod_eq_of_lt (by omega) (by omega), Int.emod_eq_of_lt (by omega) (by omega)] at h1
    omega

/-- If no replica is eligible, a partition that is not out of storage can no longer be read or
written afterwards.  (For a partition that is out of storage this is false:
`C41_violated_out_of_storage`.) -/
theorem C41_marked_offline_partial (online : List Int) (off : Int) (ps : List Part)
    (hn : (ps.map (·.key)).Nodup) (p : Part) (hp : p ∈ ps) (hl : p.spec.leader = off)
    (hno : ∀ r, ¬ Eligible online p.status r) (hst : p.status.resolution ≠ .outOfStorage) :
    ∃ q ∈ applyActions ps (electionOff online off ps), q.key = p.key ∧ q.spec = p.spec ∧
      q.status.isReadable = false := by
  obtain ⟨f, hf, he⟩ := C41_off online off ps hn
  have hp' := he p hp
  have hk := hp'.keeps hl hno
  refine ⟨f p, hf ▸ List.mem_map.2 ⟨p, hp, rfl⟩, hp'.key, hk.1, ?_⟩
  -- the resolution is the old one or `LeaderOffline`
  obtain ⟨g, hg, hg2⟩ : ∃ g : Part → Part, applyActions ps (electionOff online off ps) = ps.map g ∧
      ∀ p ∈ ps, (g p).status.resolution = p.status.resolution ∨ (g p).status.resolution = .leaderOffline := by
    refine ⟨fun p => (offActions online off p).foldl actOn p, ?_, fun p _ => ?_⟩
    · rw [applyActions_map]
      apply List.map_congr_left
      intro p hp
      exact acts_own _ (offActions_key online off) ps hn p hp p rfl
    · dsimp only
      unfold offActions
      split
      · split
        · simp [actOn]
        · split
          · simp [actOn]
          · simp
      · simp
  have hfg : f p = g p := by
    have hmap : ps.map f = ps.map g := hf.symm.trans hg
    exact (List.map_inj_left.1 hmap) p hp
  have hres := hg2 p hp
  rw [← hfg] at hres
  unfold PStatus.isReadable
  have hne := hk.2
  rcases hres with h | h
  · rw [h] at hne ⊢
    revert hne hst
    cases p.status.resolution <;> decide
  · rw [h]; rfl

/-- When broker `on` comes online, only partitions that cannot be read are touched.  One led by `on`
becomes online; another one gets `on` as its leader exactly if `on` is a replica lagging fewer than
four records behind the recorded leader. -/
theorem C41_on (on : Int) (ps : List Part) (hn : (ps.map (·.key)).Nodup) :
    ∃ f : Part → Part, applyActions ps (electionOn on ps) = ps.map f ∧
      ∀ p ∈ ps,
        (p.status.isReadable = true → f p = p) ∧
        (p.status.isReadable = false → p.spec.leader = on →
          f p = { p with status := { p.status with resolution := .online } }) ∧
        (p.status.isReadable = false → p.spec.leader ≠ on →
          (∃ r, Eligible [on] p.status r) → f p = { p with spec := { p.spec with leader := on } }) ∧
        (p.status.isReadable = false → p.spec.leader ≠ on →
          (∀ r, ¬ Eligible [on] p.status r) → f p = p) := by
  refine ⟨fun p => (onActions on p).foldl actOn p, ?_, fun p _ => ?_⟩
  · rw [applyActions_map]
    apply List.map_congr_left
    intro p hp
    exact acts_own _ (onActions_key on) ps hn p hp p rfl
  · have hel : ∀ r, Eligible [on] p.status r ↔
        r ∈ p.status.replicas.filter fun r => r.spu == on && (score r p.status.leader).isSome := by
      intro r
      rw [List.mem_filter]
      unfold Eligible
      refine and_congr Iff.rfl ?_
      rw [Bool.and_eq_true, beq_iff_eq, List.mem_singleton]
      refine and_congr Iff.rfl ?_
      cases hs : score r p.status.leader with
      | none => simpa using score_none hs
      | some n => simpa using (score_some hs).1
    refine ⟨fun h => by simp [onActions, h], fun h hl => ?_, fun h hl ⟨r, hr⟩ => ?_, fun h hl hno => ?_⟩
    · simp [onActions, h, hl, actOn]
    · have hf : ∀ (l : List RStatus) (q : Part), q.key = p.key →
          (l.map fun _ => PAction.updateSpec p.key { p.spec with leader := on }).foldl actOn q =
            if l = [] then q else { q with spec := { p.spec with leader := on } } := by
        intro l
        induction l with
        | nil => intro q _; rfl
        | cons x rest ih =>
          intro q hq
          rw [List.map_cons, List.foldl_cons]
          have e1 : actOn q (.updateSpec p.key { p.spec with leader := on }) =
              { q with spec := { p.spec with leader := on } } := if_pos hq
          rw [e1]
          refine (ih { q with spec := { p.spec with leader := on } } hq).trans ?_
          cases rest <;> rfl
      have hne : (p.status.replicas.filter fun r => r.spu == on && (score r p.status.leader).isSome) ≠ [] :=
        List.ne_nil_of_mem ((hel r).1 hr)
      show (onActions on p).foldl actOn p = _
      unfold onActions
      rw [if_neg (by simp [h]), if_pos hl, hf _ p rfl, if_neg hne]
    · have he : (p.status.replicas.filter fun r => r.spu == on && (score r p.status.leader).isSome) = [] := by
        apply List.eq_nil_iff_forall_not_mem.2
        intro r hr
        exact hno r ((hel r).2 hr)
      show (onActions on p).foldl actOn p = _
      unfold onActions
      rw [if_neg (by simp [h]), if_pos hl, he]
      rfl

/-- A report of a leader about itself and its followers. -/
structure Report where
  leader : RStatus
  replicas : List RStatus
  size : Int
  base : Int

/-- The status of a partition after the reports `l`, starting from a new partition. -/
def statusAfter (l : List Report) : PStatus :=
  l.foldl (fun s r => s.report r.leader r.replicas r.size r.base) PStatus.init

/-- Reports only ever put SPUs they mention into the status, each at most once and never both as
leader and as replica.  So if the reports only mention the partition's own replicas, an elected
leader (any eligible replica with a proper id) is one of the partition's replicas and differs from
the leader that was last reported. -/
theorem C41_candidates_are_replicas (R : List Int) (reports : List Report)
    (hrep : ∀ r ∈ reports, r.leader.spu ∈ R ∧ ∀ x ∈ r.replicas, x.spu ∈ R)
    (online : List Int) (hon : ∀ s ∈ online, s ≠ -1) (x : RStatus)
    (hx : Eligible online (statusAfter reports) x) :
    x.spu ∈ R ∧ x.spu ≠ (statusAfter reports).leader.spu ∧
      ∀ y ∈ (statusAfter reports).replicas, y.spu = x.spu → y = x := by
  have key : ∀ (l : List Report) (s : PStatus), s.Proper → s.Within R →
      (∀ r ∈ l, r.leader.spu ∈ R ∧ ∀ x ∈ r.replicas, x.spu ∈ R) →
      (l.foldl (fun s r => s.report r.leader r.replicas r.size r.base) s).Proper ∧
      (l.foldl (fun s r => s.report r.leader r.replicas r.size r.base) s).Within R := by
    intro l
    induction l with
    | nil => exact fun s a b _ => ⟨a, b⟩
    | cons r rest ih =>
      intro s a b h
      have hr := h r List.mem_cons_self
      refine ih _ (proper_merge a) (within_merge a b ?_) fun r' hr' => h r' (List.mem_cons_of_mem _ hr')
      exact ⟨.inl hr.1, fun x hx => .inl (hr.2 x hx)⟩
  have ⟨hp, hw⟩ := key reports PStatus.init ⟨List.nodup_nil, nofun⟩ ⟨.inr rfl, nofun⟩ hrep
  have hmem : x.spu ∈ (statusAfter reports).replicas.map (·.spu) := List.mem_map.2 ⟨x, hx.1, rfl⟩
  refine ⟨(hw.2 x hx.1).resolve_right (hon _ hx.2.1), fun e => hp.2 (e ▸ hmem), ?_⟩
  have inj : ∀ (l : List RStatus), (l.map (·.spu)).Nodup → ∀ a ∈ l, ∀ b ∈ l, a.spu = b.spu → a = b := by
    intro l
    induction l with
    | nil => exact nofun
    | cons z rest ih =>
      intro hn a ha b hb e
      rw [List.map_cons, List.nodup_cons] at hn
      rcases List.mem_cons.1 ha with rfl | ha'
      · rcases List.mem_cons.1 hb with rfl | hb'
        · rfl
        · exact absurd (List.mem_map.2 ⟨b, hb', e.symm⟩) hn.1
      · rcases List.mem_cons.1 hb with rfl | hb'
        · exact absurd (List.mem_map.2 ⟨a, ha', e⟩) hn.1
        · exact ih hn.2 a ha' b hb' e
  exact fun y hy e => inj _ hp.1 y hy x hx.1 e

/-- After a report, the status carries the leader's reported offsets and the reported offsets of every
follower that is mentioned once, unless they are unknown (`-1`). -/
theorem C41_report_recorded (s : PStatus) (l : RStatus) (rs : List RStatus) (size base : Int)
    (hl : l.spu ≠ -1) (hl2 : l.leo ≠ -1) (hn : (rs.map (·.spu)).Nodup) (r : RStatus) (hr : r ∈ rs)
    (hr1 : r.spu ≠ -1) (hr2 : r.leo ≠ -1) (hne : r.spu ≠ l.spu) :
    (s.report l rs size base).leader.leo = l.leo ∧
    ∃ x ∈ (s.report l rs size base).replicas, x.spu = r.spu ∧ x.leo = r.leo := by
  have hlead : (s.report l rs size base).leader.leo = l.leo ∧ (s.report l rs size base).leader.spu = l.spu := by
    show (s.leader.merge l).1.leo = l.leo ∧ (s.leader.merge l).1.spu = l.spu
    unfold RStatus.merge
    rw [if_neg hl]
    split
    · simp
    · exact ⟨rfl, rfl⟩
  refine ⟨hlead.1, ?_⟩
  have one : ∀ (acc : List RStatus), ∃ x ∈ mergeReplica acc r, x.spu = r.spu ∧ x.leo = r.leo := by
    intro acc
    induction acc with
    | nil => exact ⟨r, by simp [mergeReplica], rfl, rfl⟩
    | cons y rest ih =>
      unfold mergeReplica
      split
      · rename_i he
        refine ⟨(y.merge r).1, List.mem_cons_self, merge_spu y r he, ?_⟩
        unfold RStatus.merge
        rw [if_neg hr1, if_pos (.inr he)]
        exact if_pos hr2
      · obtain ⟨x, hx, e⟩ := ih
        exact ⟨x, List.mem_cons_of_mem _ hx, e⟩
  have keep : ∀ (t : RStatus), t.spu ≠ r.spu → ∀ (acc : List RStatus),
      (∃ x ∈ acc, x.spu = r.spu ∧ x.leo = r.leo) →
      ∃ x ∈ mergeReplica acc t, x.spu = r.spu ∧ x.leo = r.leo := by
    intro t ht acc
    induction acc with
    | nil => rintro ⟨x, hx, _⟩; cases hx
    | cons y rest ih =>
      rintro ⟨x, hx, e⟩
      unfold mergeReplica
      rcases List.mem_cons.1 hx with rfl | hx
      · rw [if_neg (by rw [e.1]; exact fun c => ht c.symm)]
        exact ⟨x, List.mem_cons_self, e⟩
      · split
        · exact ⟨x, List.mem_cons_of_mem _ hx, e⟩
        · obtain ⟨z, hz, ez⟩ := ih ⟨x, hx, e⟩
          exact ⟨z, List.mem_cons_of_mem _ hz, ez⟩
  have all : ∀ (l : List RStatus) (acc : List RStatus), (l.map (·.spu)).Nodup → r ∈ l →
      ∃ x ∈ l.foldl mergeReplica acc, x.spu = r.spu ∧ x.leo = r.leo := by
    have rest : ∀ (l : List RStatus) (acc : List RStatus), r.spu ∉ l.map (·.spu) →
        (∃ x ∈ acc, x.spu = r.spu ∧ x.leo = r.leo) →
        ∃ x ∈ l.foldl mergeReplica acc, x.spu = r.spu ∧ x.leo = r.leo := by
      intro l
      induction l with
      | nil => exact fun acc _ h => h
      | cons t rest ih =>
        intro acc hnot h
        rw [List.map_cons, List.mem_cons, not_or] at hnot
        exact ih _ hnot.2 (keep t (fun e => hnot.1 e.symm) acc h)
    intro l
    induction l with
    | nil => exact nofun
    | cons t l' ih =>
      intro acc hnd hm
      rw [List.map_cons, List.nodup_cons] at hnd
      rcases List.mem_cons.1 hm with rfl | hm
      · exact rest l' _ hnd.1 (one acc)
      · exact ih _ hnd.2 hm
  obtain ⟨x, hx, e1, e2⟩ := all rs _ hn hr
  refine ⟨x, ?_, e1, e2⟩
  refine List.mem_filter.2 ⟨hx, ?_⟩
  have : x.spu ≠ (s.leader.merge l).1.spu := by
    have h2 : (s.leader.merge l).1.spu = l.spu := hlead.2
    rw [h2, e1]; exact hne
  simpa using this

/-! ## Where the code breaks the claim -/

def k0 : ReplicaKey := ⟨"t", 0⟩

/-- Two reports: broker 0 leads with end offset 110 and followers 1 and 2 at 108; it fails and 1
becomes leader and reports itself and follower 2 at 108 (and nothing about 0, whose last known end
offset stays 110). -/
def failedOver : List Report :=
  [⟨⟨0, 108, 110⟩, [⟨1, 108, 108⟩, ⟨2, 108, 108⟩], 0, 0⟩,
   ⟨⟨1, 108, 108⟩, [⟨2, 108, 108⟩, ⟨0, -1, -1⟩], 0, 0⟩]

/-- The score of a replica is its lag cast to 16 unsigned bits, so a replica *ahead* of the recorded
leader scores worst.  After the reports above broker 0 comes back and broker 1 fails: both 0 (end
offset 110) and 2 (108) are eligible, and 2 is elected. -/
theorem C41_violated_ahead :
    ∃ r r' : RStatus, Eligible [0, 2] (statusAfter failedOver) r ∧
      Eligible [0, 2] (statusAfter failedOver) r' ∧ r.leo < r'.leo ∧
      applyActions [⟨k0, ⟨1, [0, 1, 2]⟩, statusAfter failedOver⟩]
          (electionOff [0, 2] 1 [⟨k0, ⟨1, [0, 1, 2]⟩, statusAfter failedOver⟩]) =
        [⟨k0, ⟨r.spu, [0, 1, 2]⟩, statusAfter failedOver⟩] := by
  refine ⟨⟨2, 108, 108⟩, ⟨0, 108, 110⟩, ?_, ?_, by decide, by decide⟩
  · exact ⟨by decide, by decide, by decide⟩
  · exact ⟨by decide, by decide, by decide⟩

/-- A partition that is out of storage when its leader fails and that has no eligible replica stays
readable in the controller's view, and is therefore also skipped when a caught-up replica comes
online later. -/
theorem C41_violated_out_of_storage :
    ∃ p : Part, p.spec.leader = 0 ∧ (∀ r, ¬ Eligible [] p.status r) ∧
      applyActions [p] (electionOff [] 0 [p]) = [p] ∧ p.status.isReadable = true ∧
      (∃ r, Eligible [1] p.status r) ∧
      applyActions [p] (electionOn 1 [p]) = [p] := by
  refine ⟨⟨k0, ⟨0, [0, 1]⟩, ⟨.outOfStorage, ⟨0, 9, 9⟩, 0, [⟨1, 9, 9⟩], 0, 0⟩⟩, rfl,
    (fun r h => nomatch h.2.1), by decide, by decide, ⟨⟨1, 9, 9⟩, by decide, by decide, by decide⟩,
    by decide⟩

/-- Changes of several brokers in one batch are all computed from the same store, and the last one
wins: with the leader 0 offline, broker 1 (end offset 10) and broker 2 (end offset 7) come online
together, and 2 becomes leader. -/
theorem C41_violated_batch :
    ∃ p : Part, p.spec.leader = 0 ∧ p.status.leader.leo = 10 ∧
      p.status.replicas = [⟨1, 7, 10⟩, ⟨2, 7, 7⟩] ∧
      ∃ q, applyActions [p] (elections [1, 2] [(0, .offline), (1, .online), (2, .online)] [p]) = [q] ∧
        q.spec.leader = 2 := by
  refine ⟨⟨k0, ⟨0, [0, 1, 2]⟩, ⟨.leaderOffline, ⟨0, 7, 10⟩, 0, [⟨1, 7, 10⟩, ⟨2, 7, 7⟩], 0, 0⟩⟩,
    rfl, rfl, rfl, _, rfl, by decide⟩

/-! ## The hypotheses are met -/

/-- three partitions: one led by 0 with replicas, one led by 1, one led by 0 without candidates -/
def ps0 : List Part :=
  [⟨k0, ⟨0, [0, 1, 2]⟩, ⟨.online, ⟨0, 7, 10⟩, 0, [⟨1, 7, 8⟩, ⟨2, 7, 9⟩], 0, 0⟩⟩,
   ⟨⟨"t", 1⟩, ⟨1, [1, 0]⟩, ⟨.online, ⟨1, 3, 3⟩, 1, [⟨0, 3, 3⟩], 0, 0⟩⟩,
   ⟨⟨"u", 0⟩, ⟨0, [0, 1]⟩, ⟨.online, ⟨0, 3, 30⟩, 0, [⟨1, 3, 3⟩], 0, 0⟩⟩]

example : (ps0.map (·.key)).Nodup := by decide

/-- broker 2, with the highest end offset, leads `t-0`; `u-0` is marked -/
example : (applyActions ps0 (electionOff [1, 2] 0 ps0)).map (fun p => (p.spec.leader, p.status.resolution)) =
    [(2, .online), (1, .online), (0, .leaderOffline)] := by decide

example : ∀ r, Eligible [1, 2] ps0[0].status r → r.leo ≤ ps0[0].status.leader.leo := by
  rintro r ⟨h, _, _⟩
  have : r = ⟨1, 7, 8⟩ ∨ r = ⟨2, 7, 9⟩ := by simpa [ps0] using h
  rcases this with rfl | rfl <;> decide

example : ∃ r, Eligible [1, 2] ps0[0].status r := ⟨⟨2, 7, 9⟩, by decide, by decide, by decide⟩

example : ∀ r, ¬ Eligible [1, 2] ps0[2].status r := by
  rintro r ⟨h, _, h3⟩
  have : r = ⟨1, 3, 3⟩ := by simpa [ps0] using h
  subst this
  exact absurd h3 (by decide)

example : ∀ r ∈ failedOver, r.leader.spu ∈ [(0 : Int), 1, 2] ∧ ∀ x ∈ r.replicas, x.spu ∈ [(0 : Int), 1, 2] := by
  decide

example : (statusAfter failedOver).replicas = [⟨2, 108, 108⟩, ⟨0, 108, 110⟩] := by decide

/-- a partition without leader gets one as soon as a replica comes online -/
example : (applyActions [⟨k0, ⟨0, [0, 1]⟩, ⟨.leaderOffline, ⟨0, 7, 10⟩, 0, [⟨1, 7, 8⟩], 0, 0⟩⟩]
    (electionOn 1 [⟨k0, ⟨0, [0, 1]⟩, ⟨.leaderOffline, ⟨0, 7, 10⟩, 0, [⟨1, 7, 8⟩], 0, 0⟩⟩])).map
      (fun p => p.spec.leader) = [1] := by decide

end Verif.Props
