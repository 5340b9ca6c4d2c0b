import Verif.Replication.Ack

/-!
# C19–C23: replication

`Life n may` are the executions of a leader with `n` followers, see `Verif.Replication.Protocol`:
every interleaving of writes (also failing ones), messages delayed, duplicated, lost and reordered,
offset reports, tasks of the leader stopped between reading a position and taking a lock, and
restarts of the processes `may` allows.  `records` is the sequence of records of a log, the index
being the offset.
-/

namespace Verif.Props
open Verif.Replication

variable {α : Type}

/-- The records of a log by offset. -/
def records (log : List (List α)) : List α := log.flatten

theorem records_prefix {a b : List (List α)} (h : a <+: b) : records a <+: records b := by
  obtain ⟨t, rfl⟩ := h
  exact ⟨records t, by simp [records]⟩

theorem get_prefix {a b : List α} (h : a <+: b) {o : Nat} (ho : o < a.length) : b[o]? = a[o]? := by
  obtain ⟨t, rfl⟩ := h
  exact List.getElem?_append_left ho

/-! ## C19 -/

/-- In every reachable state every follower's log is a prefix of the leader's, and every record below
the leader's watermark is there on every follower, the same at the same offset.  Fail-overs are those
of `History`.

Missing: messages carry whole batches here.  The byte limit of a message may cut the last batch, which
the follower then stores without its tail, see `C19_violated_cut_batch`; and fail-overs to a follower
that lacks records of the old leader, see C23. -/
theorem C19_partial {n : Nat} {c : Cluster α} (h : History n c) {i : Nat} (hi : i < n) :
    records (c.followers i).log <+: records c.leader.log ∧
      ∀ o : Nat, (o : Int) < c.leader.hw →
        ∃ r, (records c.leader.log)[o]? = some r ∧ (records (c.followers i).log)[o]? = some r := by
  obtain ⟨w, hv⟩ := h.inv
  have hp := records_prefix (hv.pref i hi)
  refine ⟨hp, fun o ho => ?_⟩
  have hl : o < (records (c.followers i).log).length := by
    have := hv.held.2 i hi
    have h2 : size (c.followers i).log = ((records (c.followers i).log).length : Int) := rfl
    omega
  refine ⟨(records (c.followers i).log)[o], ?_, List.getElem?_eq_getElem hl⟩
  rw [get_prefix hp hl]
  exact List.getElem?_eq_getElem hl

/-- The same for what a follower believes to be committed. -/
theorem C19_follower_view_partial {n : Nat} {c : Cluster α} (h : History n c) {i j : Nat} (hi : i < n)
    (hj : j < n) (o : Nat) (ho : (o : Int) < (c.followers j).hw) :
    ∃ r, (records c.leader.log)[o]? = some r ∧ (records (c.followers i).log)[o]? = some r := by
  obtain ⟨w, hv⟩ := h.inv
  have hp := records_prefix (hv.pref i hi)
  have hl : o < (records (c.followers i).log).length := by
    have := (hv.fHeld j hj).2 i hi
    have h2 : size (c.followers i).log = ((records (c.followers i).log).length : Int) := rfl
    omega
  refine ⟨(records (c.followers i).log)[o], ?_, List.getElem?_eq_getElem hl⟩
  rw [get_prefix hp hl]
  exact List.getElem?_eq_getElem hl

/-! ## C20 -/

/-- While the leader runs, whatever the followers do, its watermark does not decrease and stays within
the published log, which stays within the stored log. -/
theorem C20_leader {n : Nat} {c d : Cluster α} (h : History n c)
    (hl : Life n (fun p => p ≠ none) c d) :
    c.leader.hw ≤ d.leader.hw ∧ d.leader.hw ≤ d.leader.leo ∧
      d.leader.leo ≤ (records d.leader.log).length := by
  obtain ⟨w, hv⟩ := h.inv
  have key : ∃ w', Inv n w' d ∧ c.leader.hw ≤ d.leader.hw := by
    induction hl with
    | refl => exact ⟨w, hv, Int.le_refl _⟩
    | step _ hs ih =>
      obtain ⟨w', h1, h2⟩ := ih
      exact ⟨w', h1.step hs, Int.le_trans h2 (h1.step_hw hs)⟩
    | restartLeader hw _ hm _ _ => exact absurd rfl hm
    | restartFollower i hw _ _ hle ih =>
      obtain ⟨w', h1, h2⟩ := ih
      exact ⟨w', h1.restartFollower i hw hle, h2⟩
  obtain ⟨w', h1, h2⟩ := key
  exact ⟨h2, h1.hwLeo, h1.leoLe⟩

/-- The same for a follower that is not restarted, also across restarts of the leader. -/
theorem C20_follower {n : Nat} {c d : Cluster α} (h : History n c) {i : Nat} (hi : i < n)
    (hl : Life n (fun p => p ≠ some i) c d) :
    (c.followers i).hw ≤ (d.followers i).hw ∧ (d.followers i).hw ≤ (d.followers i).leo ∧
      (d.followers i).leo ≤ (records (d.followers i).log).length := by
  obtain ⟨w, hv⟩ := h.inv
  obtain ⟨w', hv'⟩ := hv.life hl
  refine ⟨?_, hv'.fHw i hi, hv'.fLe i hi⟩
  clear hv' w'
  induction hl with
  | refl => exact Int.le_refl _
  | step _ hs ih => exact Int.le_trans ih (step_follower_hw hs i)
  | restartLeader hw _ _ _ ih => exact ih
  | restartFollower j hw _ hm _ ih =>
    have hne : ¬ i = j := fun e => hm (by rw [e])
    show _ ≤ (Verif.Replication.set _ j _ i).hw
    unfold Verif.Replication.set
    rw [if_neg hne]
    exact ih

/-! ## C21

`heldBy y l` counts the followers that have reported the offset `y`. -/

/-- **Specification.** The followers whose end offset is at least `y`. -/
def heldBy (y : Int) (leos : List Int) : Nat := (leos.filter (fun l => decide (y ≤ l))).length

theorem heldBy_eq (y : Int) (l : List Int) : heldBy y l = atLeast y l := by
  unfold heldBy atLeast
  rw [List.countP_eq_length_filter]

/-- `need` followers besides the leader are required (`min_replica = need + 1`, not more than there
are): the computed watermark is exactly the largest offset that many followers hold, provided it is
past the old one. -/
theorem C21_value {hw : Int} {need : Nat} {leos : List Int} (h0 : 0 < need) (hn : need ≤ leos.length)
    (x : Int) :
    computeHw hw (need + 1) leos = some x ↔
      hw < x ∧ need ≤ heldBy x leos ∧ ∀ y, need ≤ heldBy y leos → y ≤ x := by
  have hmin : min (need + 1 - 1) leos.length = need := by omega
  rw [computeHw_some (by omega), hmin]
  simp only [heldBy_eq]
  refine and_congr_right fun _ => and_congr_right fun _ => ⟨fun h y hy => ?_, fun h y hy => ?_⟩
  · apply Classical.byContradiction
    intro hc
    have := h y (by omega)
    omega
  · apply Classical.byContradiction
    intro hc
    have := h y (by omega)
    omega

/-- It advances if and only if enough followers are past the old watermark. -/
theorem C21_advances {hw : Int} {need : Nat} {leos : List Int} (h0 : 0 < need)
    (hn : need ≤ leos.length) :
    (computeHw hw (need + 1) leos).isSome ↔ need ≤ heldBy (hw + 1) leos := by
  have hmin : min (need + 1 - 1) leos.length = need := by omega
  have := computeHw_none (hw := hw) (minReplica := need + 1) (followers := leos) (by omega)
  rw [hmin] at this
  rw [heldBy_eq]
  cases hc : computeHw hw (need + 1) leos with
  | none => have := this.1 hc; simp; omega
  | some x => 
    have h1 : ¬ atLeast (hw + 1) leos < need := fun h => by simp [this.2 h] at hc
    simp; omega

/-- If more followers are required than there are, all of them are. -/
theorem C21_capped (hw : Int) (minReplica : Nat) (leos : List Int)
    (h : leos.length < minReplica) :
    computeHw hw minReplica leos = computeHw hw (leos.length + 1) leos := by
  unfold computeHw
  have : min (minReplica - 1) leos.length = min (leos.length + 1 - 1) leos.length := by omega
  rw [this]

/-- The order in which the followers are listed does not matter. -/
theorem C21_order {hw : Int} {minReplica : Nat} {l l' : List Int} (hp : l.Perm l') :
    computeHw hw minReplica l = computeHw hw minReplica l' := by
  by_cases h0 : min (minReplica - 1) l.length = 0
  · have hlen := hp.length_eq
    unfold computeHw
    dsimp only
    rw [if_pos h0, if_pos (by omega)]
    have hf := hp.filter (fun leo => decide (leo > hw))
    generalize l.filter _ = a at *
    generalize l'.filter _ = b at *
    cases ha : a.max? with
    | none =>
      rw [List.max?_eq_none_iff] at ha
      subst ha
      have : b = [] := hf.nil_eq.symm
      rw [this]; rfl
    | some m =>
      rw [List.max?_eq_some_iff] at ha
      symm
      rw [List.max?_eq_some_iff]
      exact ⟨hf.mem_iff.1 ha.1, fun x hx => ha.2 x (hf.mem_iff.2 hx)⟩
  · have hlen := hp.length_eq
    have hiff : ∀ x, computeHw hw minReplica l = some x ↔ computeHw hw minReplica l' = some x := by
      intro x
      rw [computeHw_some (by omega), computeHw_some (by omega), hlen, atLeast_perm hp]
      simp only [atLeast_perm hp]
    cases hc : computeHw hw minReplica l with
    | some x => exact ((hiff x).1 hc).symm
    | none =>
      cases hc' : computeHw hw minReplica l' with
      | none => rfl
      | some x => rw [(hiff x).2 hc'] at hc; cases hc

/-- No follower required (only when there is none): the largest reported offset past the watermark. -/
theorem C21_single (hw : Int) (leos : List Int) (x : Int) :
    computeHw hw 1 leos = some x ↔ hw < x ∧ x ∈ leos ∧ ∀ y ∈ leos, y ≤ x := by
  unfold computeHw
  dsimp only
  rw [if_pos (by omega), List.max?_eq_some_iff]
  simp only [List.mem_filter, decide_eq_true_eq, gt_iff_lt, and_imp]
  constructor
  · rintro ⟨⟨h1, h2⟩, h3⟩
    refine ⟨h2, h1, fun y hy => ?_⟩
    by_cases hy' : hw < y
    · exact h3 y hy hy'
    · omega
  · rintro ⟨h1, h2, h3⟩
    exact ⟨⟨h2, h1⟩, fun y hy _ => h3 y hy⟩

/-- the example of the source comment -/
example : computeHw 2 3 [2, 4] = none ∧ computeHw 2 3 [3, 4] = some 3 ∧
    computeHw 2 3 [4, 4] = some 4 ∧ computeHw 2 3 [6, 7, 9] = some 7 := by decide

/-! ## C22 -/

/-- The handler of a produce request with committed isolation: its write went into the log at `base`,
then it looked at the watermark in the states of a path, and reported success.  Then in the last state
every follower has the written records at their offsets. -/
theorem C22_acked_everywhere_partial {n : Nat} {c : Cluster α} (h : History n c)
    (bs : List (List α)) (hne : ∀ b ∈ bs, b ≠ []) (hok : c.leader.broken = false)
    {first : Cluster α} {states : List (Cluster α)} {last : Cluster α}
    (hf : Life n (fun p => p ≠ none) { c with leader := c.leader.write n bs } first)
    (hp : Path n first states last)
    (hack : waitForAcks true (size (c.leader.log ++ bs)) first.leader.hw
      (states.map (fun s => s.leader.hw)) = .none)
    {i : Nat} (hi : i < n) (k : Nat) (hk : k < (records bs).length) :
    (records (last.followers i).log)[(records c.leader.log).length + k]? = (records bs)[k]? := by
  have hw0 : History n { c with leader := c.leader.write n bs } :=
    h.life ((Life.refl c).step (.produce c bs hne hok))
  -- some state seen on the way has committed the write
  have hseen : ∃ s, History n s ∧ (c.leader.write n bs).log <+: s.leader.log ∧
      size (c.leader.log ++ bs) ≤ s.leader.hw ∧ (s.followers i).log <+: (last.followers i).log := by
    have hpre := (life_logs hf).1
    have hfirst : History n first := hw0.life (hf.weaken fun _ _ => trivial)
    unfold waitForAcks at hack
    simp only [Bool.not_true, Bool.false_eq_true, if_false] at hack
    split at hack
    · rename_i hge
      exact ⟨first, hfirst, hpre, hge, hp.logs.2 i⟩
    · split at hack
      · rename_i hany
        obtain ⟨s, h1, h2, h3, h4⟩ := hp.seen hfirst hany
        exact ⟨s, h1, hpre.trans h2, h3, h4 i⟩
      · cases hack
  obtain ⟨s, hs, hlog, hhw, hgrow⟩ := hseen
  obtain ⟨w, hv⟩ := hs.inv
  have hsz : size (c.leader.log ++ bs) = ((records c.leader.log).length : Int) + (records bs).length := by
    rw [size_append]; rfl
  have hfl := hv.held.2 i hi
  have hfl' : size (s.followers i).log = ((records (s.followers i).log).length : Int) := rfl
  have hlen : (records c.leader.log).length + k < (records (s.followers i).log).length := by omega
  rw [get_prefix (records_prefix hgrow) hlen,
    ← get_prefix (records_prefix (hv.pref i hi)) hlen]
  have hl2 : (records c.leader.log).length + k < (records (c.leader.write n bs).log).length := by
    show _ < (records (c.leader.log ++ bs)).length
    simp only [records, List.flatten_append, List.length_append] at hk ⊢
    omega
  rw [get_prefix (records_prefix hlog) hl2]
  show (records (c.leader.log ++ bs))[_]? = _
  have : records (c.leader.log ++ bs) = records c.leader.log ++ records bs := by simp [records]
  rw [this, List.getElem?_append_right (by omega)]
  congr 1
  omega

/-- Success is reported only after a watermark at or past the end of the write was seen; if none was
seen before the timer, the answer is the timeout error, and a failed write stays an error. -/
theorem C22_timeout_is_error (written : Bool) (leo first : Int) (observed : List Int) :
    (waitForAcks written leo first observed = .none ↔
      written = true ∧ (leo ≤ first ∨ ∃ hw ∈ observed, leo ≤ hw)) ∧
    (written = true → (∀ hw ∈ first :: observed, hw < leo) →
      waitForAcks written leo first observed = .timedOut) ∧
    (written = false → waitForAcks written leo first observed = .failed) := by
  unfold waitForAcks
  cases written with
  | false => simp
  | true =>
    simp only [Bool.not_true, Bool.false_eq_true, if_false, true_and, reduceCtorEq, false_implies,
      and_true, forall_const]
    by_cases h1 : first ≥ leo
    · rw [if_pos h1]
      refine ⟨by simp; omega, fun h => ?_⟩
      have := h first (by simp)
      omega
    · rw [if_neg h1]
      by_cases h2 : observed.any (fun hw => decide (hw ≥ leo)) = true
      · rw [if_pos h2]
        simp only [List.any_eq_true, decide_eq_true_eq] at h2
        refine ⟨?_, fun h => ?_⟩
        · simp only [true_iff]
          exact .inr h2
        · obtain ⟨x, hx, hx'⟩ := h2
          have := h x (by simp [hx])
          omega
      · rw [if_neg h2]
        simp only [List.any_eq_true, decide_eq_true_eq] at h2
        refine ⟨?_, fun _ => rfl⟩
        simp only [reduceCtorEq, false_iff]
        rintro (h | h)
        · exact h1 h
        · exact h2 h

/-! ## C23 -/

/-- After any history, any follower `j` may be elected: whatever happens next (without another
election), every record that was committed under the old leader stays at its offset in the new
leader's log.

Missing: the second half of the claim, see `C23_violated_diverged`, `C23_violated_stuck`; and further
elections, for which `C23_converges_partial` needs an assumption. -/
theorem C23_committed_kept_partial {n : Nat} {c : Cluster α} (h : History n c) {j : Nat} (hj : j < n)
    (oldHw : Int) {d : Cluster α} (hl : Life n (fun _ => True) (c.failover j oldHw) d)
    (o : Nat) (ho : (o : Int) < c.leader.hw) :
    ∃ r, (records c.leader.log)[o]? = some r ∧ (records d.leader.log)[o]? = some r := by
  obtain ⟨r, h1, h2⟩ := (C19_partial h hj).2 o ho
  refine ⟨r, h1, ?_⟩
  have hp : (c.followers j).log <+: d.leader.log := (life_logs hl).1
  have hlen : o < (records (c.followers j).log).length := by
    rcases List.getElem?_eq_some_iff.1 h2 with ⟨hh, _⟩
    exact hh
  rw [get_prefix (records_prefix hp) hlen, h2]

/-- If the elected follower had everything the old leader had, then after any further history
(including more such elections) every follower, the old leader among them, holds a prefix of the
leader's log, and as long as its watermark is not ahead of the leader's it can reach the leader's log
by the protocol alone. -/
theorem C23_converges_partial {n : Nat} {c : Cluster α} (h : History n c) {i : Nat} (hi : i < n) :
    (c.followers i).log <+: c.leader.log ∧
    ((c.followers i).broken = false → c.leader.leo = (records c.leader.log).length →
      0 ≤ (c.followers i).hw → (c.followers i).hw ≤ c.leader.hw →
      ∃ d, Life n (fun _ => False) c d ∧ d.leader.log = c.leader.log ∧
        (d.followers i).log = c.leader.log) := by
  obtain ⟨w, hv⟩ := h.inv
  exact ⟨hv.pref i hi, fun hb hl h0 hhw => hv.catchUp hi hb hl h0 hhw _⟩

/-! ### Concrete executions -/

/-- One follower; a write of two batches is replicated and committed. -/
def run1 : Cluster Nat := { fresh Nat with leader := (fresh Nat).leader.write 1 [[7], [8, 9]] }
def run2 : Cluster Nat := { run1 with seenHw := [0] }
def run3 : Cluster Nat := { run2 with reports := [(0, ⟨0, 0⟩)] }
def run4 : Cluster Nat := { run3 with handlers := [⟨0, ⟨0, 0⟩, ⟨0, 3⟩⟩] }
def run5 : Cluster Nat := { run4 with leader := run4.leader.merge 1 ⟨0, ⟨0, 0⟩, ⟨0, 3⟩⟩ true }
def msg : Sync Nat := ⟨0, 0, [[7], [8, 9]], 0⟩
def run6 : Cluster Nat := { run5 with syncs := [msg] }
def run7 : Cluster Nat := { run6 with followers := set run6.followers 0 ((run6.followers 0).receive msg) }
def run8 : Cluster Nat := { run7 with reports := (0, ⟨0, 3⟩) :: run7.reports }
def run9 : Cluster Nat := { run8 with handlers := ⟨0, ⟨0, 3⟩, ⟨0, 3⟩⟩ :: run8.handlers }
def run10 : Cluster Nat := { run9 with leader := run9.leader.merge 1 ⟨0, ⟨0, 3⟩, ⟨0, 3⟩⟩ true }

theorem run1_life : Life 1 (fun _ => False) (fresh Nat) run1 :=
  (Life.refl _).step (.produce _ [[7], [8, 9]] (by decide) rfl)

theorem run10_life : Life 1 (fun _ => False) run1 run10 := by
  have s2 : Step 1 run1 run2 := .readHw run1
  have s3 : Step 1 run2 run3 := .report run2 0 (by decide)
  have s4 : Step 1 run3 run4 := .arrive run3 0 ⟨0, 0⟩ 0 (by decide) (by decide) (by decide)
  have s5 : Step 1 run4 run5 := .locked run4 _ (List.mem_cons_self ..) true
  have s6 : Step 1 run5 run6 := .send run5 0 2 0 3 msg (by decide) (by decide) (by decide) rfl
  have s7 : Step 1 run6 run7 := .receive run6 msg (List.mem_cons_self ..) rfl
  have s8 : Step 1 run7 run8 := .report run7 0 (by decide)
  have s9 : Step 1 run8 run9 := .arrive run8 0 ⟨0, 3⟩ 0 (by decide) (by decide) (by decide)
  have s10 : Step 1 run9 run10 := .locked run9 _ (List.mem_cons_self ..) true
  exact (((((((((Life.refl run1).step s2).step s3).step s4).step s5).step s6).step s7).step s8).step
    s9).step s10

theorem run10_history : History 1 run10 :=
  (History.fresh.life (run1_life.weaken fun _ h => h.elim)).life
    (run10_life.weaken fun _ h => h.elim)

/-- committed, on the follower, and the follower does not know yet that it is committed -/
example : run10.leader.hw = 3 ∧ records (run10.followers 0).log = [7, 8, 9] ∧
    (run10.followers 0).hw = 0 := by decide

/-- the acknowledgement of that write -/
example : waitForAcks true (size ((fresh Nat).leader.log ++ [[7], [8, 9]])) run1.leader.hw
    ([run7, run10].map (fun s => s.leader.hw)) = .none := by decide

example : waitForAcks true 3 0 [0, 0] = .timedOut := by decide

/-- The old leader's log need not converge: a record only it had stays in its log, at the offset of a
record that the new leader commits, and no continuation without another election ever changes that. -/
theorem C23_violated_diverged :
    ∃ c d : Cluster Nat, History 1 c ∧ Life 1 (fun _ => False) (c.failover 0 0) d ∧
      d.leader.hw = 1 ∧ (records d.leader.log)[0]? = some 2 ∧
      ∀ e, Life 1 (fun _ => True) d e →
        (records e.leader.log)[0]? = some 2 ∧ (records (e.followers 0).log)[0]? = some 1 := by
  let c0 : Cluster Nat := { fresh Nat with leader := (fresh Nat).leader.write 1 [[1]] }
  let d0 := c0.failover 0 0
  let d1 : Cluster Nat := { d0 with leader := d0.leader.write 1 [[2]] }
  let d2 : Cluster Nat := { d1 with seenHw := [0] }
  let d3 : Cluster Nat := { d2 with reports := [(0, ⟨0, 1⟩)] }
  let d4 : Cluster Nat := { d3 with handlers := [⟨0, ⟨0, 1⟩, ⟨0, 1⟩⟩] }
  let d5 : Cluster Nat := { d4 with leader := d4.leader.merge 1 ⟨0, ⟨0, 1⟩, ⟨0, 1⟩⟩ true }
  have t1 : Step 1 (fresh Nat) c0 := .produce _ [[1]] (by decide) rfl
  have s1 : Step 1 d0 d1 := .produce d0 [[2]] (by decide) rfl
  have s2 : Step 1 d1 d2 := .readHw d1
  have s3 : Step 1 d2 d3 := .report d2 0 (by decide)
  have s4 : Step 1 d3 d4 := .arrive d3 0 ⟨0, 1⟩ 0 (List.mem_cons_self ..) (List.mem_cons_self ..) rfl
  have s5 : Step 1 d4 d5 := .locked d4 _ (List.mem_cons_self ..) true
  refine ⟨c0, d5, History.fresh.life ((Life.refl _).step t1),
    (((((Life.refl d0).step s1).step s2).step s3).step s4).step s5, rfl, rfl, ?_⟩
  intro e he
  obtain ⟨h1, h2⟩ := life_logs he
  have h2 := h2 0
  constructor
  · rw [get_prefix (records_prefix h1) (show 0 < (records d5.leader.log).length by decide)]
    rfl
  · rw [get_prefix (records_prefix h2) (show 0 < (records (d5.followers 0).log).length by decide)]
    rfl

/-- The old leader need not be accepted at all: it knows a higher watermark than the new leader, whose
watermark had not been updated when the old leader died, so every report of it is rejected as "newer".
From then on nothing is ever sent to it and nothing is ever committed, as long as neither of the two is
restarted. -/
theorem C23_violated_stuck :
    ∃ c : Cluster Nat, History 1 c ∧ (c.followers 0).log = c.leader.log ∧
      ∀ d, Life 1 (fun p => p ≠ none ∧ p ≠ some 0) (c.failover 0 c.leader.hw) d →
        d.leader.hw = 0 ∧ (d.followers 0).log = c.leader.log := by
  refine ⟨run10, run10_history, by decide, ?_⟩
  intro d hd
  have hu : Unheard 0 0 run10.leader.log (run10.failover 0 run10.leader.hw) := by
    constructor
    · decide
    · decide
    · rfl
    · intro h hh; cases hh
    · decide
    · intro h hh; cases hh
    · intro h hh; cases hh
    · intro h hh; cases hh
    · rfl
  have := hu.life (n := 1) (by decide) hd
  have h2 : History 1 (run10.failover 0 run10.leader.hw) :=
    run10_history.failover 0 _ (by decide) (by decide) (Int.le_refl _)
  have h3 := C20_leader h2 (hd.weaken fun p h => h.1)
  have h4 := h3.1
  have h5 : (run10.failover 0 run10.leader.hw).leader.hw = 0 := by decide
  exact ⟨by have := this.hw; omega, this.log⟩

end Verif.Props
