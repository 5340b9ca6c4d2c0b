import Verif.Replication.Protocol

/-
Change of leader.  Models `promote_follower`
(crates/fluvio-spu/src/replication/leader/leaders_state.rs:153-167), which reuses the follower's
storage as it is, and `demote_replica` (crates/fluvio-spu/src/core/global_context.rs:451-…), by
which the old leader becomes a follower with the log it has; nothing truncates that log.
-/

namespace Verif.Replication

variable {α : Type}

/-- Follower `j` becomes the leader; the old leader comes back as a follower, in the place `j`, with
its own log and a watermark `oldHw` of its checkpoint.  The connections of the old leader are
gone, with everything in flight on them. -/
def Cluster.failover (c : Cluster α) (j : Nat) (oldHw : Int) : Cluster α where
  leader := { log := (c.followers j).log, leo := (c.followers j).leo, hw := (c.followers j).hw,
              infos := fun _ => Info.unknown, broken := (c.followers j).broken }
  followers := set c.followers j
    { log := c.leader.log, leo := size c.leader.log, hw := oldHw, broken := false }
  seenHw := []
  handlers := []
  syncs := []
  reports := []

/-- Histories with restarts, and fail-overs to a follower that has everything the old leader had. -/
inductive History (n : Nat) : Cluster α → Prop where
  | fresh : History n (fresh α)
  | life {c d : Cluster α} : History n c → Life n (fun _ => True) c d → History n d
  | failover {c : Cluster α} (j : Nat) (oldHw : Int) : History n c → j < n →
      (c.followers j).log = c.leader.log → oldHw ≤ c.leader.hw → History n (c.failover j oldHw)

theorem Inv.failover {n : Nat} {hw0 : Int} {c : Cluster α} (hi : Inv n hw0 c) {j : Nat}
    (hj : j < n) (hall : (c.followers j).log = c.leader.log) {oldHw : Int}
    (hold : oldHw ≤ c.leader.hw) : Inv n (c.followers j).hw (c.failover j oldHw) := by
  have hmono : ∀ i, i < n → size (c.followers i).log ≤ size ((c.failover j oldHw).followers i).log := by
    intro i hin
    show _ ≤ size (set c.followers j _ i).log
    unfold set
    split
    · exact size_prefix (hi.pref i hin)
    · exact Int.le_refl _
  have hH : ∀ w, Held n c w → Held n (c.failover j oldHw) w := by
    intro w h
    refine ⟨?_, fun i hin => Int.le_trans (h.2 i hin) (hmono i hin)⟩
    show w ≤ size (c.followers j).log
    rw [hall]; exact h.1
  have hF : ∀ (P : Follower α → Prop) (i : Nat), (i ≠ j → P (c.followers i)) →
      P { log := c.leader.log, leo := size c.leader.log, hw := oldHw, broken := false } →
      P ((c.failover j oldHw).followers i) := by
    intro P i h1 h2
    show P (set c.followers j _ i)
    unfold set
    split
    · exact h2
    · rename_i hne; exact h1 hne
  constructor
  · show ∀ b ∈ (c.followers j).log, b ≠ []
    rw [hall]; exact hi.nonempty
  · exact hi.fLe j hj
  · exact hi.fHw j hj
  · exact hH _ (hi.fHeld j hj)
  · exact .inl rfl
  · exact Int.le_refl _
  · intro i hin
    show ((c.failover j oldHw).followers i).log <+: (c.followers j).log
    rw [hall]
    exact hF (fun f => f.log <+: c.leader.log) i (fun _ => hi.pref i hin) List.prefix_rfl
  · intro i hin
    exact hF (fun f => f.leo ≤ size f.log) i (fun _ => hi.fLe i hin) (Int.le_refl _)
  · intro i hin
    exact hF (fun f => f.broken = false → f.leo = size f.log) i (fun _ => hi.fEq i hin) (fun _ => rfl)
  · intro i hin
    exact hF (fun f => f.hw ≤ f.leo) i (fun _ => hi.fHw i hin) (Int.le_trans hold hi.held.1)
  · intro i hin
    exact hF (fun f => 0 ≤ f.leo) i (fun _ => hi.fNonneg i hin) (size_nonneg _)
  · intro i hin
    apply hH
    refine hF (fun f => Held n c f.hw) i (fun _ => hi.fHeld i hin) ?_
    exact ⟨Int.le_trans hold hi.held.1, fun k hk => Int.le_trans hold (hi.held.2 k hk)⟩
  · intro i hin
    have h1 := size_nonneg ((c.failover j oldHw).followers i).log
    have h2 := hi.fNonneg j hj
    constructor
    · show (-1 : Int) ≤ _
      omega
    · show (-1 : Int) ≤ (c.followers j).leo
      omega
  · intro h hh; cases hh
  · intro h hh; cases hh
  · intro h hh; cases hh
  · intro h hh; cases hh
  · intro i _; exact Int.le_refl _
  · intro h hh; cases hh
  · intro h hh; cases hh

theorem History.inv {n : Nat} {c : Cluster α} (h : History n c) : ∃ hw0, Inv n hw0 c := by
  induction h with
  | fresh => exact ⟨0, inv_fresh n⟩
  | life _ hl ih => obtain ⟨w, hi⟩ := ih; exact hi.life hl
  | failover j oldHw _ hj hall hold ih =>
    obtain ⟨w, hi⟩ := ih; exact ⟨_, hi.failover hj hall hold⟩

/-! ### Catching up -/

/-- Reading from a batch boundary starts exactly there. -/
theorem readAt_boundary {pre : List (List α)} {b : List α} {rest : List (List α)} (hb : b ≠ [])
    (start : Int) : readAt (pre ++ b :: rest) start (start + size pre) =
      some (start + size pre, b :: rest) := by
  induction pre generalizing start with
  | nil =>
    have : 0 < b.length := List.length_pos_iff.2 hb
    simp only [List.nil_append, size_nil, Int.add_zero]
    unfold readAt
    rw [if_pos (by omega)]
  | cons x pre ih =>
    rw [size_cons]
    have := size_nonneg pre
    show readAt (x :: (pre ++ b :: rest)) _ _ = _
    unfold readAt
    rw [if_neg (by omega)]
    have h := ih (start + x.length)
    have e : start + (↑x.length + size pre) = start + ↑x.length + size pre := by omega
    rw [e]
    exact h

/-- A follower whose watermark is not ahead of the leader's can reach the leader's log by the
protocol alone. -/
theorem Inv.catchUp {n : Nat} {hw0 : Int} {c : Cluster α} (hi : Inv n hw0 c) {i : Nat} (hin : i < n)
    (hb : (c.followers i).broken = false) (hl : c.leader.leo = size c.leader.log)
    (h0 : 0 ≤ (c.followers i).hw) (hhw : (c.followers i).hw ≤ c.leader.hw)
    (may : Option Nat → Prop) :
    ∃ d, Life n may c d ∧ d.leader.log = c.leader.log ∧ (d.followers i).log = c.leader.log := by
  by_cases heq : (c.followers i).log = c.leader.log
  · exact ⟨c, .refl c, rfl, heq⟩
  obtain ⟨rest, hrest⟩ := hi.pref i hin
  have hfe := hi.fEq i hin hb
  cases rest with
  | nil => simp at hrest; exact absurd hrest heq
  | cons b rest =>
    have hbne : b ≠ [] := hi.nonempty b (by rw [← hrest]; simp)
    have hbl : 0 < b.length := List.length_pos_iff.2 hbne
    have hsz : size c.leader.log = size (c.followers i).log + b.length + size rest := by
      rw [← hrest, size_append, size_cons]; omega
    have hrn := size_nonneg rest
    -- the follower reports, the leader reads its own position and merges
    let pos : Info := ⟨(c.followers i).hw, (c.followers i).leo⟩
    let h : Handler := ⟨i, pos, ⟨c.leader.hw, c.leader.leo⟩⟩
    let c1 : Cluster α := { c with seenHw := c.leader.hw :: c.seenHw }
    let c2 : Cluster α := { c1 with reports := (i, pos) :: c1.reports }
    let c3 : Cluster α := { c2 with handlers := h :: c2.handlers }
    let c4 : Cluster α := { c3 with leader := c3.leader.merge n h true }
    have s1 : Step n c c1 := .readHw c
    have s2 : Step n c1 c2 := .report c1 i hin
    have s3 : Step n c2 c3 := by
      refine .arrive c2 i pos c.leader.hw (List.mem_cons_self ..) (List.mem_cons_self ..) ?_
      show Info.newer _ _ = false
      unfold Info.newer
      simp only [Bool.or_eq_false_iff, decide_eq_false_iff_not]
      show ¬ (c.followers i).leo > c.leader.leo ∧ ¬ (c.followers i).hw > c.leader.hw
      omega
    have s4 : Step n c3 c4 := .locked c3 h (List.mem_cons_self ..) true
    have hi4 : Inv n hw0 c4 := (((hi.step s1).step s2).step s3).step s4
    obtain ⟨m1, m2, _⟩ := merge_same n c.leader h true
    have hinfo : (c4.leader.infos i).leo = (c.followers i).leo := by
      show ((c.leader.merge n h true).infos i).leo = _
      rw [merge_infos n c.leader h true hin, if_pos rfl, update_leo]
      have := (hi.info i hin).1
      show max (c.leader.infos i).leo (c.followers i).leo = _
      omega
    have hinfoHw : 0 ≤ (c4.leader.infos i).hw := by
      show 0 ≤ ((c.leader.merge n h true).infos i).hw
      rw [merge_infos n c.leader h true hin, if_pos rfl]
      unfold Info.update
      dsimp only
      have e : h.pos.hw = (c.followers i).hw := rfl
      split <;> omega
    -- the leader sends everything from there
    let m : Sync α := ⟨i, size (c.followers i).log, b :: rest, c.leader.hw⟩
    let c5 : Cluster α := { c4 with syncs := m :: c4.syncs }
    have s5 : Step n c4 c5 := by
      refine .send c4 i (b :: rest).length c.leader.hw c.leader.leo m hin
        (List.mem_cons_self ..) (by show c.leader.leo ≤ (c.leader.merge n h true).leo; rw [m2]; exact Int.le_refl _) ?_
      unfold Leader.updates
      dsimp only
      have hv : ((c4.leader.infos i).isValid && !(c4.leader.infos i).isSame ⟨c.leader.hw, c.leader.leo⟩) = true := by
        have := hi4.infoHw i hin
        unfold Info.isValid Info.isSame
        have e1 : ((c4.leader.infos i).hw == -1) = false := by
          simp only [beq_eq_false_iff_ne]; omega
        have e2 : ((c4.leader.infos i).leo == -1) = false := by
          simp only [beq_eq_false_iff_ne]; omega
        have e3 : ((c4.leader.infos i).leo == c.leader.leo) = false := by
          simp only [beq_eq_false_iff_ne]; omega
        simp only [e1, e2, e3, Bool.or_self, Bool.not_false, Bool.true_and, Bool.and_false,
          Bool.and_true, decide_eq_true_eq]
        exact this
      rw [if_pos hv, if_pos (by rw [hinfo]; omega), hinfo, hfe]
      have : c4.leader.log = (c.followers i).log ++ b :: rest := by
        show (c.leader.merge n h true).log = _
        rw [m1, hrest]
      rw [this]
      have hr := readAt_boundary (pre := (c.followers i).log) (rest := rest) hbne 0
      rw [Int.zero_add] at hr
      rw [hr]
      dsimp only
      rw [List.take_length]
    -- and the follower appends it
    let c6 : Cluster α := { c5 with followers := set c5.followers i ((c5.followers i).receive m) }
    have s6 : Step n c5 c6 := .receive c5 m (List.mem_cons_self ..) hb
    refine ⟨c6, ((((((Life.refl c).step s1).step s2).step s3).step s4).step s5).step s6, m1, ?_⟩
    show (set c.followers i ((c.followers i).receive m) i).log = _
    unfold set
    rw [if_pos rfl]
    unfold Follower.receive
    dsimp only
    rw [(takeHw_log _ _).1, if_pos ⟨by simp [m]; omega, by show size _ = _; rw [hfe]⟩]
    exact hrest

/-! ### A follower the leader can never hear -/

/-- Follower `i` is ahead of the leader's watermark, so that every report of it is rejected. -/
structure Unheard (i : Nat) (w : Int) (log : List (List α)) (c : Cluster α) : Prop where
  ahead : w < (c.followers i).hw
  hw : c.leader.hw ≤ w
  info : c.leader.infos i = Info.unknown
  seen : ∀ h ∈ c.seenHw, h ≤ w ∧ -1 ≤ h
  hwGe : -1 ≤ c.leader.hw
  handler : ∀ h ∈ c.handlers, h.follower ≠ i ∧ -1 ≤ h.leaderPos.hw
  report : ∀ r ∈ c.reports, r.1 = i → w < r.2.hw
  sync : ∀ m ∈ c.syncs, m.to ≠ i
  log : (c.followers i).log = log

theorem computeHw_unknown {hw : Int} {followers : List Int} (h : (-1) ∈ followers) (hhw : -1 ≤ hw) :
    computeHw hw (followers.length + 1) followers = none := by
  cases hc : computeHw hw (followers.length + 1) followers with
  | none => rfl
  | some x =>
    have := computeHw_all hc
    have := this.2 _ h
    omega

theorem Unheard.step {n i : Nat} (hin : i < n) {w : Int} {log : List (List α)} {c d : Cluster α}
    (hu : Unheard i w log c) (hs : Step n c d) : Unheard i w log d := by
  have hn : n ≠ 0 := by omega
  cases hs with
  | produce bs hne ok =>
    have e : (c.leader.write n bs).hw = c.leader.hw := by
      show (if n = 0 then _ else _) = _
      rw [if_neg hn]
    exact { hu with
      hw := by show (c.leader.write n bs).hw ≤ w; rw [e]; exact hu.hw
      hwGe := by show -1 ≤ (c.leader.write n bs).hw; rw [e]; exact hu.hwGe }
  | produceFail bs k shut hne ok => exact { hu with }
  | readHw =>
    refine { hu with seen := ?_ }
    intro h hh
    rcases List.mem_cons.1 hh with rfl | hh
    · exact ⟨hu.hw, hu.hwGe⟩
    · exact hu.seen h hh
  | send j k hw leo m hjn hhw hleo hm =>
    refine { hu with sync := ?_ }
    intro m' hm'
    rcases List.mem_cons.1 hm' with rfl | hm'
    · intro hto
      have hto' : m'.to = j := by
        unfold Leader.updates at hm
        dsimp only at hm
        repeat' split at hm
        all_goals first | (injection hm with hm; rw [← hm]) | cases hm
      have : j = i := by omega
      subst this
      unfold Leader.updates at hm
      rw [hu.info] at hm
      simp [Info.isValid, Info.unknown] at hm
    · exact hu.sync m' hm'
  | receive m hm ok =>
    have hne := hu.sync m hm
    have e : set c.followers m.to ((c.followers m.to).receive m) i = c.followers i := by
      unfold set; rw [if_neg (fun h => hne h.symm)]
    exact { hu with
      ahead := by show w < (set c.followers m.to _ i).hw; rw [e]; exact hu.ahead
      log := by show (set c.followers m.to _ i).log = log; rw [e]; exact hu.log }
  | receiveFail m k hm ok =>
    have hne := hu.sync m hm
    have e : set c.followers m.to ((c.followers m.to).receiveFail m k) i = c.followers i := by
      unfold set; rw [if_neg (fun h => hne h.symm)]
    exact { hu with
      ahead := by show w < (set c.followers m.to _ i).hw; rw [e]; exact hu.ahead
      log := by show (set c.followers m.to _ i).log = log; rw [e]; exact hu.log }
  | report j hjn =>
    refine { hu with report := ?_ }
    intro r hr he
    rcases List.mem_cons.1 hr with rfl | hr
    · have : j = i := he
      subst this
      exact hu.ahead
    · exact hu.report r hr he
  | arrive j pos hw hr hhw hnew =>
    refine { hu with handler := ?_ }
    intro h hh
    rcases List.mem_cons.1 hh with rfl | hh
    · refine ⟨fun he => ?_, (hu.seen hw hhw).2⟩
      have h1 := hu.report _ hr he
      have h2 := (hu.seen hw hhw).1
      unfold Info.newer at hnew
      simp only [Bool.or_eq_false_iff, decide_eq_false_iff_not] at hnew
      have h3 := hnew.2
      dsimp only at h1 h3
      omega
    · exact hu.handler h hh
  | locked h hh stored =>
    obtain ⟨hne, hge⟩ := hu.handler h hh
    by_cases hf : h.follower < n
    · have hinfo : (c.leader.merge n h stored).infos i = Info.unknown := by
        rw [merge_infos n c.leader h stored hf, if_neg (fun e => hne e.symm)]
        exact hu.info
      have hhw : (c.leader.merge n h stored).hw = c.leader.hw := by
        rcases merge_hw n c.leader h stored hf with he | he
        · exact he
        · have hlen : ((List.range n).map
              (fun i => ((c.leader.merge n h stored).infos i).leo)).length = n := by simp
          rw [← congrArg (· + 1) hlen] at he
          rw [computeHw_unknown _ hge] at he
          · cases he
          · refine List.mem_map.2 ⟨i, List.mem_range.2 hin, ?_⟩
            rw [hinfo]; rfl
      exact { hu with
        hw := by show (c.leader.merge n h stored).hw ≤ w; rw [hhw]; exact hu.hw
        hwGe := by show -1 ≤ (c.leader.merge n h stored).hw; rw [hhw]; exact hu.hwGe
        info := hinfo }
    · have : c.leader.merge n h stored = c.leader := by
        unfold Leader.merge; rw [if_neg hf]
      rw [this]
      exact hu

theorem Unheard.life {n i : Nat} (hin : i < n) {w : Int} {log : List (List α)} {c d : Cluster α}
    (hu : Unheard i w log c) (hl : Life n (fun p => p ≠ none ∧ p ≠ some i) c d) :
    Unheard i w log d := by
  induction hl with
  | refl => exact hu
  | step _ hs ih => exact ih.step hin hs
  | restartLeader hw _ hm _ _ => exact absurd rfl hm.1
  | restartFollower j hw _ hm hle ih =>
    have hne : ¬ i = j := fun e => hm.2 (by rw [e])
    have e : ∀ (fs : Nat → Follower α) (f : Follower α), set fs j f i = fs i := by
      intro fs f; unfold set; rw [if_neg hne]
    exact { ih with
      ahead := by show w < (set _ j _ i).hw; rw [e]; exact ih.ahead
      log := by show (set _ j _ i).log = log; rw [e]; exact ih.log }

end Verif.Replication
