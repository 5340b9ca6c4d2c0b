import Verif.Sc.Election

/-!
# How the status of a partition reaches the controller

The sinks in which a broker collects reports (`fluvio-spu/src/control_plane/message_sink.rs`), the loop
that sends them (`fluvio-spu/src/control_plane/dispatcher.rs`), and the controller's handlers
(`fluvio-sc/src/services/private_api/private_server.rs`).  The controller reads the status from its store,
and writes it by sending an action to the metadata dispatcher, which carries it out later.
-/

namespace Verif.Sc.Reports

/-- `LrsRequest`; two of them are equal, and have equal hashes, if their ids are —
fluvio-controlplane/src/sc_api/update_lrs.rs:62-86 -/
structure Lrs where
  key : ReplicaKey
  leader : RStatus
  replicas : List RStatus
  size : Int
  base : Int
deriving DecidableEq

/-- `PartitionStatRequest`, equal if the keys are — update_partition.rs:44-63 -/
abbrev Stat := ReplicaKey × PResolution

/-- a message to the controller: `UpdateLrsRequest` or `UpdatePartitionStatRequest` -/
inductive Msg where
  | lrs (l : List Lrs)
  | stat (l : List Stat)
deriving DecidableEq

/-- the sinks of one broker, its connection to the controller, the controller's store of partitions and
the actions sent to the metadata dispatcher.  Reports of other brokers are about other partitions. -/
structure State where
  lrs : List Lrs
  stats : List Stat
  wire : List Msg
  parts : List Part
  queue : List PAction
deriving DecidableEq

/-- `MessageSink::send` for `LrsRequest`: `HashSet::replace` — message_sink.rs:32-37 -/
def sendLrs (sink : List Lrs) (r : Lrs) : List Lrs := sink.filter (·.key ≠ r.key) ++ [r]

/-- `MessageSink::send` for `PartitionStatRequest` — message_sink.rs:32-37 -/
def sendStat (sink : List Stat) (r : Stat) : List Stat := sink.filter (·.1 ≠ r.1) ++ [r]

/-- the actions of `receive_lrs_update`; `none` if it gives up at an unknown partition —
private_server.rs:222-266 -/
def receiveLrs (ps : List Part) : List Lrs → Option (List PAction)
  | [] => some []
  | r :: rest =>
    match ps.find? (·.key = r.key) with
    | none => none
    | some p =>
      (receiveLrs ps rest).map (.updateStatus r.key (p.status.report r.leader r.replicas r.size r.base) :: ·)

/-- the actions of `receive_partition_status_update` — private_server.rs:343-380 -/
def receiveStat (ps : List Part) : List Stat → Option (List PAction)
  | [] => some []
  | r :: rest =>
    match ps.find? (·.key = r.1) with
    | none => none
    | some p => (receiveStat ps rest).map (.updateStatus r.1 { p.status with resolution := r.2 } :: ·)

/-- the actions sent for a message; none at all if one of its partitions is unknown -/
def receive (ps : List Part) : Msg → List PAction
  | .lrs l => (receiveLrs ps l).getD []
  | .stat l => (receiveStat ps l).getD []

inductive Ev where
  /-- `LeaderReplicaState::update_status` — fluvio-spu/src/replication/leader/replica_state.rs:333-342 -/
  | report (r : Lrs)
  /-- the storage of a partition is full — fluvio-spu/src/services/public/produce_handler.rs:213-222 -/
  | stat (r : Stat)
  /-- `send_lrs_status_back_to_sc`: the sink is drained, in any order, and sent — dispatcher.rs -/
  | tickLrs (l : List Lrs)
  /-- `send_partition_status_back_to_sc` -/
  | tickStat (l : List Stat)
  /-- the sink is drained, but sending fails and the connection is given up -/
  | failLrs
  /-- the connection breaks: what was under way is lost; the broker will connect again -/
  | break
  /-- the controller handles the next message -/
  | deliver
  /-- the metadata dispatcher carries out the next action -/
  | apply
  /-- another task of the controller sends an action -/
  | other (a : PAction)
  /-- a partition disappears from the controller's store -/
  | remove (k : ReplicaKey)
deriving DecidableEq

def step (s : State) : Ev → Option State
  | .report r => some { s with lrs := sendLrs s.lrs r }
  | .stat r => some { s with stats := sendStat s.stats r }
  | .tickLrs l => if l.Perm s.lrs then some { s with lrs := [], wire := s.wire ++ [.lrs l] } else none
  | .tickStat l => if l.Perm s.stats then some { s with stats := [], wire := s.wire ++ [.stat l] } else none
  | .failLrs => some { s with lrs := [], wire := [] }
  | .break => some { s with wire := [] }
  | .deliver =>
    match s.wire with
    | [] => none
    | m :: rest => some { s with wire := rest, queue := s.queue ++ receive s.parts m }
  | .apply =>
    match s.queue with
    | [] => none
    | a :: rest => some { s with queue := rest, parts := applyAction s.parts a }
  | .other a => some { s with queue := s.queue ++ [a] }
  | .remove k => some { s with parts := s.parts.filter (·.key ≠ k) }

def run (s : State) : List Ev → Option State
  | [] => some s
  | e :: es => match step s e with
    | none => none
    | some s' => run s' es

/-- nothing is under way -/
def State.Quiet (s : State) : Prop := s.lrs = [] ∧ s.stats = [] ∧ s.wire = [] ∧ s.queue = []

/-! ## What a merged status shows -/

/-- `x` carries what was reported about a follower -/
def Carries (x f : RStatus) : Prop := x.spu = f.spu ∧ x.hw = f.hw ∧ x.leo = f.leo

theorem merge_carries {x f : RStatus} (hs : x.spu = f.spu) (h1 : f.spu ≠ -1) (h2 : f.hw ≠ -1) (h3 : f.leo ≠ -1) :
    Carries (x.merge f).1 f := by
  unfold RStatus.merge
  rw [if_neg h1, if_pos (.inr hs)]
  exact ⟨rfl, if_pos h2, if_pos h3⟩

theorem mergeReplica_carries (acc : List RStatus) {f : RStatus} (h1 : f.spu ≠ -1) (h2 : f.hw ≠ -1) (h3 : f.leo ≠ -1) :
    ∃ x ∈ mergeReplica acc f, Carries x f := by
  induction acc with
  | nil => exact ⟨f, List.mem_cons_self, rfl, rfl, rfl⟩
  | cons y rest ih =>
    unfold mergeReplica
    split
    · rename_i he
      exact ⟨_, List.mem_cons_self, merge_carries he h1 h2 h3⟩
    · obtain ⟨x, hx, e⟩ := ih
      exact ⟨x, List.mem_cons_of_mem _ hx, e⟩

theorem mergeReplica_keeps {t f : RStatus} (ht : t.spu ≠ f.spu) (acc : List RStatus)
    (h : ∃ x ∈ acc, Carries x f) : ∃ x ∈ mergeReplica acc t, Carries x f := by
  induction acc with
  | nil => obtain ⟨x, hx, _⟩ := h; cases hx
  | cons y rest ih =>
    obtain ⟨x, hx, e⟩ := h
    unfold mergeReplica
    rcases List.mem_cons.1 hx with rfl | hx
    · rw [if_neg (by rw [e.1]; exact fun c => ht c.symm)]
      exact ⟨x, List.mem_cons_self, e⟩
    · split
      · exact ⟨x, List.mem_cons_of_mem _ hx, e⟩
      · obtain ⟨z, hz, ez⟩ := ih ⟨x, hx, e⟩
        exact ⟨z, List.mem_cons_of_mem _ hz, ez⟩

theorem foldMerge_carries {l : List RStatus} (hn : (l.map (·.spu)).Nodup) (acc : List RStatus) {f : RStatus}
    (hf : f ∈ l) (h1 : f.spu ≠ -1) (h2 : f.hw ≠ -1) (h3 : f.leo ≠ -1) :
    ∃ x ∈ l.foldl mergeReplica acc, Carries x f := by
  have rest : ∀ (l : List RStatus) (acc : List RStatus), f.spu ∉ l.map (·.spu) →
      (∃ x ∈ acc, Carries x f) → ∃ x ∈ l.foldl mergeReplica acc, Carries x f := by
    intro l
    induction l with
    | nil => exact fun acc _ h => h
    | cons t rest ih =>
      intro acc hnot h
      rw [List.map_cons, List.mem_cons, not_or] at hnot
      exact ih _ hnot.2 (mergeReplica_keeps (fun e => hnot.1 e.symm) acc h)
  induction l generalizing acc with
  | nil => cases hf
  | cons t l' ih =>
    rw [List.map_cons, List.nodup_cons] at hn
    rcases List.mem_cons.1 hf with rfl | hm
    · exact rest l' _ hn.1 (mergeReplica_carries acc h1 h2 h3)
    · exact ih hn.2 _ hm

/-- a report that says what it should: the leader's and the followers' offsets are known -/
structure Lrs.Proper (r : Lrs) : Prop where
  leader : r.leader.spu ≠ -1 ∧ r.leader.hw ≠ -1 ∧ r.leader.leo ≠ -1
  nodup : (r.replicas.map (·.spu)).Nodup

/-- the status shows the report: who leads, up to where, that the partition is online, its size, and the
offsets of every follower whose offsets are known -/
structure Shows (st : PStatus) (r : Lrs) : Prop where
  leader : st.leader = r.leader
  online : st.resolution = .online
  size : st.size = r.size
  followers : ∀ f ∈ r.replicas, f.spu ≠ -1 → f.hw ≠ -1 → f.leo ≠ -1 → f.spu ≠ r.leader.spu →
    ∃ x ∈ st.replicas, x.spu = f.spu ∧ x.hw = f.hw ∧ x.leo = f.leo
  inSync : st.lsr = (st.replicas.filter fun x => decide (x.leo = r.leader.leo)).length

theorem shows_report (st : PStatus) {r : Lrs} (hp : r.Proper) :
    Shows (st.report r.leader r.replicas r.size r.base) r := by
  have hl : (st.leader.merge r.leader).1 = r.leader := by
    unfold RStatus.merge
    rw [if_neg hp.leader.1]
    split
    · rw [if_pos hp.leader.2.1, if_pos hp.leader.2.2]
    · rfl
  refine ⟨hl, rfl, rfl, fun f hf h1 h2 h3 h4 => ?_, ?_⟩
  · obtain ⟨x, hx, e⟩ := foldMerge_carries hp.nodup (match (st.leader.merge r.leader).2 with
      | some old => st.replicas ++ [old]
      | none => st.replicas) hf h1 h2 h3
    refine ⟨x, List.mem_filter.2 ⟨hx, ?_⟩, e⟩
    show decide (x.spu ≠ (st.leader.merge r.leader).1.spu) = true
    rw [hl, e.1]
    exact decide_eq_true h4
  · show (List.filter _ _).length = (List.filter _ _).length
    congr 1
    refine List.filter_congr fun x _ => ?_
    rw [show (st.leader.merge r.leader).1 = r.leader from hl, Bool.eq_iff_iff]
    simp only [Bool.and_eq_true, beq_iff_eq, decide_eq_true_eq]
    refine ⟨fun h => h.2.symm, fun h => ⟨fun c => hp.leader.2.2 (h.symm.trans c), h.symm⟩⟩

/-! ## Where a report is on its way -/

def Msg.keys : Msg → List ReplicaKey
  | .lrs l => l.map (·.key)
  | .stat l => l.map (·.1)

def State.keys (s : State) : List ReplicaKey := s.parts.map (·.key)

/-- the action writes the status of partition `k` -/
def writesStatus (k : ReplicaKey) : PAction → Bool
  | .updateStatus k' _ => decide (k' = k)
  | .updateSpec _ _ => false

/-- everything under way is about partitions the controller knows -/
structure Known (s : State) : Prop where
  lrs : ∀ r ∈ s.lrs, r.key ∈ s.keys
  stats : ∀ r ∈ s.stats, r.1 ∈ s.keys
  wire : ∀ m ∈ s.wire, ∀ k ∈ m.keys, k ∈ s.keys

/-- report `r` is in the sink, on the wire, in the queue of actions, or in the store, and nothing about
the same partition comes after it -/
inductive Stage (r : Lrs) (s : State) : Prop where
  | sink (h : r ∈ s.lrs)
  | wire (hs : ∀ x ∈ s.lrs, x.key ≠ r.key) (pre post : List Msg) (l : List Lrs)
      (hw : s.wire = pre ++ .lrs l :: post) (hl : r ∈ l) (hn : (l.map (·.key)).Nodup)
      (hp : ∀ m ∈ post, r.key ∉ m.keys)
  | queue (hs : ∀ x ∈ s.lrs, x.key ≠ r.key) (hw : ∀ m ∈ s.wire, r.key ∉ m.keys)
      (pre post : List PAction) (st : PStatus) (hq : s.queue = pre ++ .updateStatus r.key st :: post)
      (hst : Shows st r) (hp : ∀ a ∈ post, writesStatus r.key a = false)
  | store (hs : ∀ x ∈ s.lrs, x.key ≠ r.key) (hw : ∀ m ∈ s.wire, r.key ∉ m.keys)
      (hq : ∀ a ∈ s.queue, writesStatus r.key a = false)
      (hst : ∀ p ∈ s.parts, p.key = r.key → Shows p.status r)

structure Inv (r : Lrs) (s : State) : Prop where
  known : Known s
  uniq : (s.lrs.map (·.key)).Nodup
  stats : ∀ x ∈ s.stats, x.1 ≠ r.key
  stage : Stage r s

/-- an event that does not get in the way of report `r`: no connection breaks, no partition is removed,
nobody reports about unknown partitions, and nobody else reports or writes the status of this one -/
def Ev.harmless (s : State) (k : ReplicaKey) : Ev → Prop
  | .report r => r.key ∈ s.keys ∧ r.key ≠ k
  | .stat r => r.1 ∈ s.keys ∧ r.1 ≠ k
  | .failLrs | .break | .remove _ => False
  | .other a => writesStatus k a = false
  | _ => True

theorem applyAction_keys (ps : List Part) (a : PAction) : (applyAction ps a).map (·.key) = ps.map (·.key) := by
  cases a <;>
  · simp only [applyAction]
    rw [List.map_map]
    refine List.map_congr_left fun p _ => ?_
    dsimp only [Function.comp_apply]
    split <;> rfl

theorem find_known {ps : List Part} {k : ReplicaKey} (h : k ∈ ps.map (·.key)) :
    ∃ p, ps.find? (·.key = k) = some p ∧ p.key = k := by
  obtain ⟨p, hp, e⟩ := List.mem_map.1 h
  cases hf : ps.find? (·.key = k) with
  | none =>
    have := List.find?_eq_none.1 hf p hp
    simp [e] at this
  | some q => exact ⟨q, rfl, by simpa using List.find?_some hf⟩

theorem receiveLrs_known {ps : List Part} {l : List Lrs} (h : ∀ r ∈ l, r.key ∈ ps.map (·.key)) :
    ∃ as, receiveLrs ps l = some as ∧ (∀ k, k ∉ l.map (·.key) → ∀ a ∈ as, writesStatus k a = false) ∧
      ∀ r ∈ l, (l.map (·.key)).Nodup → r.Proper → ∃ pre st post, as = pre ++ .updateStatus r.key st :: post ∧
        Shows st r ∧ ∀ a ∈ post, writesStatus r.key a = false := by
  induction l with
  | nil => exact ⟨[], rfl, fun _ _ => nofun, nofun⟩
  | cons x l ih =>
    obtain ⟨as, h1, h2, h3⟩ := ih fun r hr => h r (List.mem_cons_of_mem _ hr)
    obtain ⟨p, hp, _⟩ := find_known (h x List.mem_cons_self)
    refine ⟨_ :: as, by rw [receiveLrs, hp]; dsimp only; rw [h1]; rfl, fun k hk a ha => ?_, fun r hr hn hpr => ?_⟩
    · rw [List.map_cons, List.mem_cons, not_or] at hk
      rcases List.mem_cons.1 ha with rfl | ha
      · exact decide_eq_false fun e => hk.1 e.symm
      · exact h2 k hk.2 a ha
    · rw [List.map_cons, List.nodup_cons] at hn
      rcases List.mem_cons.1 hr with rfl | hr
      · exact ⟨[], _, as, rfl, shows_report p.status hpr, h2 _ hn.1⟩
      · obtain ⟨pre, st, post, e, h4, h5⟩ := h3 r hr hn.2 hpr
        exact ⟨_ :: pre, st, post, by rw [e]; rfl, h4, h5⟩

theorem receiveStat_other {ps : List Part} {l : List Stat} {k : ReplicaKey} (hk : k ∉ l.map (·.1)) {as}
    (h : receiveStat ps l = some as) : ∀ a ∈ as, writesStatus k a = false := by
  induction l generalizing as with
  | nil => cases h; exact nofun
  | cons x l ih =>
    rw [List.map_cons, List.mem_cons, not_or] at hk
    rw [receiveStat] at h
    split at h
    · cases h
    · cases hr : receiveStat ps l with
      | none => rw [hr] at h; cases h
      | some bs =>
        rw [hr] at h
        cases h
        intro a ha
        rcases List.mem_cons.1 ha with rfl | ha
        · exact decide_eq_false fun e => hk.1 e.symm
        · exact ih hk.2 hr a ha

theorem receive_other {ps : List Part} {m : Msg} {k : ReplicaKey} (hk : k ∉ m.keys)
    (hm : ∀ k ∈ m.keys, k ∈ ps.map (·.key)) : ∀ a ∈ receive ps m, writesStatus k a = false := by
  cases m with
  | lrs l =>
    obtain ⟨as, h1, h2, _⟩ := receiveLrs_known (ps := ps) (l := l) fun r hr => hm _ (List.mem_map.2 ⟨r, hr, rfl⟩)
    rw [receive, h1]
    exact h2 k hk
  | stat l =>
    rw [receive]
    cases h : receiveStat ps l with
    | none => exact nofun
    | some as => exact receiveStat_other hk h

theorem writes_keeps {ps : List Part} {a : PAction} {k : ReplicaKey} (h : writesStatus k a = false) {r : Lrs}
    (hs : ∀ p ∈ ps, p.key = k → Shows p.status r) : ∀ p ∈ applyAction ps a, p.key = k → Shows p.status r := by
  intro p hp hk
  cases a with
  | updateSpec k' sp =>
    obtain ⟨q, hq, rfl⟩ := List.mem_map.1 hp
    revert hk
    split
    · exact fun hk => hs q hq hk
    · exact fun hk => hs q hq hk
  | updateStatus k' st =>
    obtain ⟨q, hq, rfl⟩ := List.mem_map.1 hp
    revert hk
    split
    · rename_i e
      exact fun hk => absurd (e.symm.trans hk) (of_decide_eq_false h)
    · exact fun hk => hs q hq hk

theorem sendLrs_nodup {l : List Lrs} (hn : (l.map (·.key)).Nodup) (r : Lrs) :
    ((sendLrs l r).map (·.key)).Nodup := by
  unfold sendLrs
  rw [List.map_append, List.nodup_append]
  refine ⟨(List.Sublist.map _ List.filter_sublist).nodup hn, by simp, ?_⟩
  intro a ha b hb e
  obtain ⟨x, hx, rfl⟩ := List.mem_map.1 ha
  rw [List.map_singleton, List.mem_singleton] at hb
  exact of_decide_eq_true (List.mem_filter.1 hx).2 (e.trans hb)

theorem mem_sendLrs {l : List Lrs} {r x : Lrs} : x ∈ sendLrs l r ↔ (x ∈ l ∧ x.key ≠ r.key) ∨ x = r := by
  unfold sendLrs
  rw [List.mem_append, List.mem_filter, List.mem_singleton, decide_eq_true_eq]

theorem inv_step {r : Lrs} (hpr : r.Proper) {s t : State} {e : Ev} (hi : Inv r s) (he : e.harmless s r.key)
    (h : step s e = some t) : Inv r t := by
  cases e with
  | report x =>
    cases h
    obtain ⟨hx1, hx2⟩ := he
    have hlrs : ∀ y ∈ sendLrs s.lrs x, y ∈ s.lrs ∨ y = x := fun y hy => (mem_sendLrs.1 hy).imp (·.1) id
    refine ⟨⟨fun y hy => ?_, hi.known.stats, hi.known.wire⟩, sendLrs_nodup hi.uniq x, hi.stats, ?_⟩
    · rcases hlrs y hy with hy | rfl
      · exact hi.known.lrs y hy
      · exact hx1
    · have hs' : (∀ y ∈ s.lrs, y.key ≠ r.key) → ∀ y ∈ sendLrs s.lrs x, y.key ≠ r.key := by
        intro hs y hy
        rcases hlrs y hy with hy | rfl
        · exact hs y hy
        · exact hx2
      cases hi.stage with
      | sink h => exact .sink (mem_sendLrs.2 (.inl ⟨h, fun e => hx2 e.symm⟩))
      | wire hs pre post l hw hl hn hp => exact .wire (hs' hs) pre post l hw hl hn hp
      | queue hs hw pre post st hq hst hp => exact .queue (hs' hs) hw pre post st hq hst hp
      | store hs hw hq hst => exact .store (hs' hs) hw hq hst
  | stat x =>
    cases h
    obtain ⟨hx1, hx2⟩ := he
    have hm : ∀ y ∈ sendStat s.stats x, y ∈ s.stats ∨ y = x := by
      intro y hy
      unfold sendStat at hy
      rcases List.mem_append.1 hy with hy | hy
      · exact .inl (List.mem_filter.1 hy).1
      · exact .inr (List.mem_singleton.1 hy)
    refine ⟨⟨hi.known.lrs, fun y hy => ?_, hi.known.wire⟩, hi.uniq, fun y hy => ?_, ?_⟩
    · rcases hm y hy with hy | rfl
      · exact hi.known.stats y hy
      · exact hx1
    · rcases hm y hy with hy | rfl
      · exact hi.stats y hy
      · exact hx2
    · cases hi.stage with
      | sink h => exact .sink h
      | wire hs pre post l hw hl hn hp => exact .wire hs pre post l hw hl hn hp
      | queue hs hw pre post st hq hst hp => exact .queue hs hw pre post st hq hst hp
      | store hs hw hq hst => exact .store hs hw hq hst
  | tickLrs l =>
    rw [step] at h
    split at h
    · rename_i hl
      cases h
      refine ⟨⟨nofun, hi.known.stats, fun m hm k hk => ?_⟩, List.nodup_nil, hi.stats, ?_⟩
      · rcases List.mem_append.1 hm with hm | hm
        · exact hi.known.wire m hm k hk
        · rw [List.mem_singleton.1 hm] at hk
          obtain ⟨x, hx, rfl⟩ := List.mem_map.1 hk
          exact hi.known.lrs x (hl.mem_iff.1 hx)
      · have hlk : (∀ y ∈ s.lrs, y.key ≠ r.key) → ∀ m ∈ [Msg.lrs l], r.key ∉ m.keys := by
          intro hs m hm hk
          rw [List.mem_singleton.1 hm] at hk
          obtain ⟨x, hx, e⟩ := List.mem_map.1 hk
          exact hs x (hl.mem_iff.1 hx) e
        cases hi.stage with
        | sink h =>
          exact .wire nofun s.wire [] l rfl (hl.mem_iff.2 h) ((hl.map (·.key)).nodup_iff.2 hi.uniq) nofun
        | wire hs pre post l' hw hl' hn hp =>
          refine .wire nofun pre (post ++ [.lrs l]) l' ?_ hl' hn fun m hm => ?_
          · show s.wire ++ _ = _
            rw [hw, List.append_assoc, List.cons_append]
          · exact (List.mem_append.1 hm).elim (hp m) (hlk hs m)
        | queue hs hw pre post st hq hst hp =>
          exact .queue nofun (fun m hm => (List.mem_append.1 hm).elim (hw m) (hlk hs m)) pre post st hq hst hp
        | store hs hw hq hst =>
          exact .store nofun (fun m hm => (List.mem_append.1 hm).elim (hw m) (hlk hs m)) hq hst
    · cases h
  | tickStat l =>
    rw [step] at h
    split at h
    · rename_i hl
      cases h
      have hlk : ∀ m ∈ [Msg.stat l], r.key ∉ m.keys := by
        intro m hm hk
        rw [List.mem_singleton.1 hm] at hk
        obtain ⟨x, hx, e⟩ := List.mem_map.1 hk
        exact hi.stats x (hl.mem_iff.1 hx) e
      refine ⟨⟨hi.known.lrs, nofun, fun m hm k hk => ?_⟩, hi.uniq, nofun, ?_⟩
      · rcases List.mem_append.1 hm with hm | hm
        · exact hi.known.wire m hm k hk
        · rw [List.mem_singleton.1 hm] at hk
          obtain ⟨x, hx, rfl⟩ := List.mem_map.1 hk
          exact hi.known.stats x (hl.mem_iff.1 hx)
      · cases hi.stage with
        | sink h => exact .sink h
        | wire hs pre post l' hw hl' hn hp =>
          refine .wire hs pre (post ++ [.stat l]) l' ?_ hl' hn fun m hm => ?_
          · show s.wire ++ _ = _
            rw [hw, List.append_assoc, List.cons_append]
          · exact (List.mem_append.1 hm).elim (hp m) (hlk m)
        | queue hs hw pre post st hq hst hp =>
          exact .queue hs (fun m hm => (List.mem_append.1 hm).elim (hw m) (hlk m)) pre post st hq hst hp
        | store hs hw hq hst =>
          exact .store hs (fun m hm => (List.mem_append.1 hm).elim (hw m) (hlk m)) hq hst
    · cases h
  | failLrs => exact he.elim
  | «break» => exact he.elim
  | remove k => exact he.elim
  | deliver =>
    rw [step] at h
    split at h
    · cases h
    · rename_i m rest hm
      cases h
      have hkm := hi.known.wire m (by rw [hm]; exact List.mem_cons_self)
      refine ⟨⟨hi.known.lrs, hi.known.stats, fun m' hm' => hi.known.wire m' (by rw [hm]; exact List.mem_cons_of_mem _ hm')⟩,
        hi.uniq, hi.stats, ?_⟩
      cases hi.stage with
      | sink h => exact .sink h
      | wire hs pre post l hw hl hn hp =>
        rw [hm] at hw
        cases pre with
        | nil =>
          injection hw with h1 h2
          subst h1 h2
          obtain ⟨as, e, _, h3⟩ := receiveLrs_known (ps := s.parts) (l := l)
            fun x hx => hkm _ (List.mem_map.2 ⟨x, hx, rfl⟩)
          obtain ⟨pre, st, post, e2, h4, h5⟩ := h3 r hl hn hpr
          refine .queue hs hp (s.queue ++ pre) post st ?_ h4 h5
          show s.queue ++ (receiveLrs s.parts l).getD [] = _
          rw [e, Option.getD_some, e2, List.append_assoc]
        | cons m' pre =>
          injection hw with h1 h2
          exact .wire hs pre post l h2 hl hn hp
      | queue hs hw pre post st hq hst hp =>
        rw [hm] at hw
        refine .queue hs (fun m' hm' => hw m' (List.mem_cons_of_mem _ hm')) pre (post ++ receive s.parts m) st ?_ hst ?_
        · show s.queue ++ _ = _
          rw [hq, List.append_assoc, List.cons_append]
        · intro a ha
          exact (List.mem_append.1 ha).elim (hp a) (receive_other (hw m List.mem_cons_self) hkm a)
      | store hs hw hq hst =>
        rw [hm] at hw
        refine .store hs (fun m' hm' => hw m' (List.mem_cons_of_mem _ hm')) (fun a ha => ?_) hst
        exact (List.mem_append.1 ha).elim (hq a) (receive_other (hw m List.mem_cons_self) hkm a)
  | apply =>
    rw [step] at h
    split at h
    · cases h
    · rename_i a rest hqa
      cases h
      have hk : ({ s with queue := rest, parts := applyAction s.parts a } : State).keys = s.keys :=
        applyAction_keys _ _
      refine ⟨⟨fun x hx => by rw [hk]; exact hi.known.lrs x hx, fun x hx => by rw [hk]; exact hi.known.stats x hx,
        fun m hm k hkm => by rw [hk]; exact hi.known.wire m hm k hkm⟩, hi.uniq, hi.stats, ?_⟩
      cases hi.stage with
      | sink h => exact .sink h
      | wire hs pre post l hw hl hn hp => exact .wire hs pre post l hw hl hn hp
      | queue hs hw pre post st hq hst hp =>
        rw [hqa] at hq
        cases pre with
        | nil =>
          injection hq with h1 h2
          subst h1 h2
          refine .store hs hw hp fun p hpm hpk => ?_
          obtain ⟨q, hq, rfl⟩ := List.mem_map.1 hpm
          revert hpk
          split
          · exact fun _ => hst
          · rename_i hne; exact fun hk => absurd hk hne
        | cons b pre =>
          injection hq with h1 h2
          exact .queue hs hw pre post st h2 hst hp
      | store hs hw hq hst =>
        rw [hqa] at hq
        exact .store hs hw (fun b hb => hq b (List.mem_cons_of_mem _ hb)) (writes_keeps (hq a List.mem_cons_self) hst)
  | other a =>
    cases h
    refine ⟨⟨hi.known.lrs, hi.known.stats, hi.known.wire⟩, hi.uniq, hi.stats, ?_⟩
    have ha : ∀ b ∈ [a], writesStatus r.key b = false := fun b hb => by rw [List.mem_singleton.1 hb]; exact he
    cases hi.stage with
    | sink h => exact .sink h
    | wire hs pre post l hw hl hn hp => exact .wire hs pre post l hw hl hn hp
    | queue hs hw pre post st hq hst hp =>
      refine .queue hs hw pre (post ++ [a]) st ?_ hst fun b hb => (List.mem_append.1 hb).elim (hp b) (ha b)
      show s.queue ++ _ = _
      rw [hq, List.append_assoc, List.cons_append]
    | store hs hw hq hst =>
      exact .store hs hw (fun b hb => (List.mem_append.1 hb).elim (hq b) (ha b)) hst

theorem keys_step {s t : State} {e : Ev} {k : ReplicaKey} (he : e.harmless s k) (h : step s e = some t) :
    t.keys = s.keys := by
  cases e with
  | report x => cases h; rfl
  | stat x => cases h; rfl
  | tickLrs l => rw [step] at h; split at h <;> cases h; rfl
  | tickStat l => rw [step] at h; split at h <;> cases h; rfl
  | failLrs => exact he.elim
  | «break» => exact he.elim
  | remove k => exact he.elim
  | deliver => rw [step] at h; split at h <;> cases h; rfl
  | apply =>
    rw [step] at h
    split at h <;> cases h
    exact applyAction_keys _ _
  | other a => cases h; rfl

/-- every event of the run satisfies `ok` in the state in which it happens -/
def Always (ok : State → Ev → Prop) : State → List Ev → Prop
  | _, [] => True
  | s, e :: es => ok s e ∧ ∀ t, step s e = some t → Always ok t es

theorem inv_run {r : Lrs} (hpr : r.Proper) {s t : State} {es : List Ev} (hi : Inv r s)
    (ha : Always (fun s e => e.harmless s r.key) s es) (h : run s es = some t) :
    Inv r t ∧ t.keys = s.keys := by
  induction es generalizing s with
  | nil => cases h; exact ⟨hi, rfl⟩
  | cons e es ih =>
    rw [run] at h
    cases hs : step s e with
    | none => rw [hs] at h; cases h
    | some u =>
      rw [hs] at h
      have ⟨h1, h2⟩ := ih (inv_step hpr hi ha.1 hs) (ha.2 u hs) h
      exact ⟨h1, h2.trans (keys_step ha.1 hs)⟩

/-! ## Everything under way arrives -/

theorem run_append {s t : State} {l l' : List Ev} (h : run s l = some t) : run s (l ++ l') = run t l' := by
  induction l generalizing s with
  | nil => cases h; rfl
  | cons e l ih =>
    rw [List.cons_append, run]
    rw [run] at h
    cases hs : step s e with
    | none => rw [hs] at h; cases h
    | some s' => rw [hs] at h; exact ih h

/-- events that only move things along -/
def Ev.internal : Ev → Bool
  | .tickLrs _ | .tickStat _ | .deliver | .apply => true
  | _ => false

theorem drains (s : State) : ∃ es t, (∀ e ∈ es, e.internal = true) ∧ run s es = some t ∧ t.Quiet := by
  have hq : ∀ (q : List PAction) (ps : List Part), ∃ es t, (∀ e ∈ es, Ev.internal e = true) ∧
      run ⟨[], [], [], ps, q⟩ es = some t ∧ t.Quiet := by
    intro q
    induction q with
    | nil => exact fun ps => ⟨[], _, nofun, rfl, rfl, rfl, rfl, rfl⟩
    | cons a q ih =>
      intro ps
      obtain ⟨es, t, h1, h2, h3⟩ := ih (applyAction ps a)
      refine ⟨.apply :: es, t, fun e he => ?_, h2, h3⟩
      rcases List.mem_cons.1 he with rfl | he
      · rfl
      · exact h1 e he
  have hw : ∀ (w : List Msg) (q : List PAction) (ps : List Part), ∃ es t, (∀ e ∈ es, Ev.internal e = true) ∧
      run ⟨[], [], w, ps, q⟩ es = some t ∧ t.Quiet := by
    intro w
    induction w with
    | nil => exact hq
    | cons m w ih =>
      intro q ps
      obtain ⟨es, t, h1, h2, h3⟩ := ih (q ++ receive ps m) ps
      refine ⟨.deliver :: es, t, fun e he => ?_, h2, h3⟩
      rcases List.mem_cons.1 he with rfl | he
      · rfl
      · exact h1 e he
  obtain ⟨es, t, h1, h2, h3⟩ := hw (s.wire ++ [.lrs s.lrs] ++ [.stat s.stats]) s.queue s.parts
  refine ⟨.tickLrs s.lrs :: .tickStat s.stats :: es, t, fun e he => ?_, ?_, h3⟩
  · rcases List.mem_cons.1 he with rfl | he
    · rfl
    · rcases List.mem_cons.1 he with rfl | he
      · rfl
      · exact h1 e he
  · rw [run]
    have e1 : step s (.tickLrs s.lrs) = some { s with lrs := [], wire := s.wire ++ [.lrs s.lrs] } :=
      if_pos (List.Perm.refl _)
    rw [e1]
    dsimp only
    rw [run]
    have e2 : step { s with lrs := [], wire := s.wire ++ [.lrs s.lrs] } (.tickStat s.stats) =
        some ⟨[], [], s.wire ++ [.lrs s.lrs] ++ [.stat s.stats], s.parts, s.queue⟩ :=
      if_pos (List.Perm.refl _)
    rw [e2]
    exact h2

end Verif.Sc.Reports
