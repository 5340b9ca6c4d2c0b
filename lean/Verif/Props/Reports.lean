import Verif.Sc.Reports

/-! # C70 — what a leader reports about a partition reaches the controller -/

namespace Verif.Props

open Verif.Sc Verif.Sc.Reports

/-- **C70.**  A leader reports the status of a partition the controller knows.  Whatever else happens
afterwards — other partitions report, other controllers act, in any interleaving — once nothing is under
way any more, the controller's store shows exactly this report: leader, its offsets, the followers'
offsets, the size, that the partition is online, and the number of followers in sync.

Missing from the full claim: the base offset (never recorded, `C70_violated_base_offset`); and the
hypothesis `harmless` excludes broken connections, partitions unknown to the controller, and other writers
of the same status, for each of which the claim is false (`C70_violated_…`). -/
theorem C70_last_report_recorded_partial {s t : State} {r : Lrs} {es : List Ev}
    (hproper : r.Proper) (hkey : ∃ p ∈ s.parts, p.key = r.key)
    -- what is under way at the time is about known partitions, and the sink holds one report for each
    (hknown : Known s) (huniq : (s.lrs.map (·.key)).Nodup) (hstats : ∀ x ∈ s.stats, x.1 ≠ r.key)
    (hrun : run s (.report r :: es) = some t)
    (hok : ∀ u, step s (.report r) = some u → Always (fun u e => e.harmless u r.key) u es)
    (hquiet : t.Quiet) :
    (∃ p ∈ t.parts, p.key = r.key) ∧ ∀ p ∈ t.parts, p.key = r.key → Shows p.status r := by
  have hk : r.key ∈ s.keys := List.mem_map.2 hkey
  have hi : Inv r { s with lrs := sendLrs s.lrs r } := by
    refine ⟨⟨fun y hy => ?_, hknown.stats, hknown.wire⟩, sendLrs_nodup huniq r, hstats,
      .sink (mem_sendLrs.2 (.inr rfl))⟩
    rcases mem_sendLrs.1 hy with hy | rfl
    · exact hknown.lrs y hy.1
    · exact hk
  obtain ⟨hi, hkeys⟩ := inv_run hproper hi (hok _ rfl) hrun
  refine ⟨List.mem_map.1 (show r.key ∈ t.keys from hkeys ▸ hk), ?_⟩
  obtain ⟨h1, _, h3, h4⟩ := hquiet
  cases hi.stage with
  | sink h => rw [h1] at h; cases h
  | wire hs pre post l hw => rw [h3] at hw; exact absurd hw.symm (by simp)
  | queue hs hw pre post st hq => rw [h4] at hq; exact absurd hq.symm (by simp)
  | store hs hw hq hst => exact hst

/-- **C70.**  What is under way does arrive: in every state, sending what is in the sinks, handling the
messages and carrying out the actions lead to a state in which nothing is under way. -/
theorem C70_nothing_stays_under_way (s : State) :
    ∃ es t, (∀ e ∈ es, e = .deliver ∨ e = .apply ∨ (∃ l, e = .tickLrs l) ∨ ∃ l, e = .tickStat l) ∧
      run s es = some t ∧ t.Quiet := by
  obtain ⟨es, t, h1, h2, h3⟩ := drains s
  refine ⟨es, t, fun e he => ?_, h2, h3⟩
  have := h1 e he
  cases e <;> first | exact .inl rfl | exact .inr (.inl rfl) | exact .inr (.inr (.inl ⟨_, rfl⟩)) |
    exact .inr (.inr (.inr ⟨_, rfl⟩)) | (simp [Ev.internal] at this; done)

/-- **C70.**  So a report can always be completed: without any further report, the store gets to show it. -/
theorem C70_report_can_be_completed_partial {s : State} {r : Lrs}
    (hproper : r.Proper) (hkey : ∃ p ∈ s.parts, p.key = r.key)
    (hknown : Known s) (huniq : (s.lrs.map (·.key)).Nodup) (hstats : ∀ x ∈ s.stats, x.1 ≠ r.key) :
    ∃ es t, run s (.report r :: es) = some t ∧ t.Quiet ∧ (∃ p ∈ t.parts, p.key = r.key) ∧
      ∀ p ∈ t.parts, p.key = r.key → Shows p.status r := by
  obtain ⟨es, t, h1, h2, h3⟩ := drains { s with lrs := sendLrs s.lrs r }
  have hok : ∀ (es : List Ev), (∀ e ∈ es, e.internal = true) → ∀ u,
      Always (fun u e => e.harmless u r.key) u es := by
    intro es
    induction es with
    | nil => exact fun _ _ => trivial
    | cons e es ih =>
      intro h u
      refine ⟨?_, fun t _ => ih (fun e he => h e (List.mem_cons_of_mem _ he)) t⟩
      have := h e List.mem_cons_self
      cases e <;> first | trivial | (simp [Ev.internal] at this; done)
  exact ⟨es, t, h2, h3, C70_last_report_recorded_partial hproper hkey hknown huniq hstats h2
    (fun u _ => hok es h1 u) h3⟩

/-! ## Examples -/

private def k0 : ReplicaKey := ⟨"a", 0⟩
private def k1 : ReplicaKey := ⟨"b", 0⟩

private def reportOf (k : ReplicaKey) (n : Int) : Lrs := ⟨k, ⟨1, n, n⟩, [⟨2, n, n⟩, ⟨3, n - 1, n - 1⟩], 10 * n, 7⟩

private def store0 (spec : PartSpec) : State :=
  ⟨[], [], [], [⟨k0, spec, .init⟩, ⟨k1, spec, .init⟩], []⟩

private def spec0 : PartSpec := ⟨1, [1, 2, 3]⟩

/-- the hypotheses of `C70_last_report_recorded_partial` are met: an older report of the same partition is on
the wire, a newer one in the sink is replaced, the other partition reports in between -/
private def before : State :=
  { store0 spec0 with
    lrs := [reportOf k1 3, reportOf k0 4]
    wire := [.lrs [reportOf k0 3], .stat [(k0, .outOfStorage)]] }

private def interleaved : List Ev :=
  [.deliver, .tickLrs [reportOf k0 5, reportOf k1 3], .report (reportOf k1 6), .deliver, .apply, .deliver,
   .other (.updateSpec k0 ⟨2, [2, 1, 3]⟩), .tickLrs [reportOf k1 6], .apply, .apply, .apply, .apply, .deliver,
   .apply]

example : (reportOf k0 5).Proper := ⟨by decide, by decide⟩
example : Known before := ⟨by decide, by decide, by decide⟩
example : (before.lrs.map (·.key)).Nodup ∧ (∀ x ∈ before.stats, x.1 ≠ k0) ∧ ∃ p ∈ before.parts, p.key = k0 := by
  decide
example : (run before (.report (reportOf k0 5) :: interleaved)).map
    (fun t => (t.parts.map fun p => (p.status.leader.leo, p.status.resolution, p.status.lsr), t.lrs, t.wire, t.queue)) =
    some ([(5, .online, 1), (6, .online, 1)], [], [], []) := by decide

/-- the run is harmless: checked event by event -/
private def harmlessB (s : State) (k : ReplicaKey) : Ev → Bool
  | .report r => decide (r.key ∈ s.keys) && decide (r.key ≠ k)
  | .stat r => decide (r.1 ∈ s.keys) && decide (r.1 ≠ k)
  | .failLrs | .break | .remove _ => false
  | .other a => !writesStatus k a
  | _ => true

private def alwaysB (k : ReplicaKey) : State → List Ev → Bool
  | _, [] => true
  | s, e :: es => harmlessB s k e && match step s e with
    | none => true
    | some t => alwaysB k t es

private theorem always_of_alwaysB {k : ReplicaKey} {s : State} {es : List Ev} (h : alwaysB k s es = true) :
    Always (fun u e => e.harmless u k) s es := by
  induction es generalizing s with
  | nil => trivial
  | cons e es ih =>
    rw [alwaysB, Bool.and_eq_true] at h
    refine ⟨?_, fun t ht => ?_⟩
    · have := h.1
      cases e <;> simp_all [harmlessB, Ev.harmless]
    · have := h.2
      rw [ht] at this
      exact ih this

example : ∀ u, step before (.report (reportOf k0 5)) = some u →
    Always (fun u e => e.harmless u k0) u interleaved := by
  intro u hu
  cases hu
  exact always_of_alwaysB (by decide)

/-! ## Where the full claim fails -/

instance (s : State) : Decidable s.Quiet := inferInstanceAs (Decidable (_ ∧ _ ∧ _ ∧ _))

/-- what the store says about partition `k` -/
private def offsets (k : ReplicaKey) (s : State) : List (Int × Int × PResolution) :=
  (s.parts.filter (·.key = k)).map fun p => (p.status.leader.leo, p.status.baseOffset, p.status.resolution)

/-- **C70 is violated for the base offset.**  The first offset a leader still holds is part of every report,
and part of the stored status, but `PartitionStatus::merge` does not copy it: no sequence of reports ever
changes the stored one, which stays 0 although the leader reports 7. -/
theorem C70_violated_base_offset :
    (∀ (st : PStatus) (r : Lrs), (st.report r.leader r.replicas r.size r.base).baseOffset = st.baseOffset) ∧
    ((run (store0 spec0) [.report (reportOf k0 5), .tickLrs [reportOf k0 5], .deliver, .apply]).map (offsets k0)
      = some [(5, 0, .online)]) ∧ (reportOf k0 5).base = 7 :=
  ⟨fun _ _ => rfl, by decide, rfl⟩

/-- **C70 is violated when the connection breaks.**  The sink is emptied before the message is sent, so a
report whose message is lost is not repeated on the next connection: everything is quiet and the store shows
the status from before, until the partition's offsets happen to change again. -/
theorem C70_violated_connection_lost :
    (run (store0 spec0) [.report (reportOf k0 5), .failLrs]).map
      (fun t => (offsets k0 t, decide t.Quiet)) = some ([(-1, 0, .offline)], true) ∧
    (run (store0 spec0) [.report (reportOf k0 5), .tickLrs [reportOf k0 5], .break]).map
      (fun t => (offsets k0 t, decide t.Quiet)) = some ([(-1, 0, .offline)], true) := by
  decide

/-- **C70 is violated by an unknown partition.**  If the message also carries a report about a partition that
the controller has deleted meanwhile, the handler gives up and all other reports of the message are lost with
it. -/
theorem C70_violated_unknown_partition :
    (run (store0 spec0) [.report (reportOf k0 5), .report (reportOf k1 5), .remove k1,
        .tickLrs [reportOf k0 5, reportOf k1 5], .deliver]).map
      (fun t => (offsets k0 t, decide t.Quiet)) = some ([(-1, 0, .offline)], true) := by
  decide

/-- **C70 is violated by a lost update.**  The handler computes the new status from the store and lets the
dispatcher write it later.  When a broker reports new offsets and a full storage in the same turn, the second
status is computed before the first is written, so the offsets of the report are overwritten with old ones. -/
theorem C70_violated_lost_update :
    (run (store0 spec0) [.report (reportOf k0 5), .stat (k0, .outOfStorage), .tickLrs [reportOf k0 5],
        .tickStat [(k0, .outOfStorage)], .deliver, .deliver, .apply, .apply]).map
      (fun t => (offsets k0 t, decide t.Quiet)) = some ([(-1, 0, .outOfStorage)], true) := by
  decide

end Verif.Props
