import Verif.Replication.Protocol

/-
A partition mirrored from a source cluster to a target cluster.

Models crates/fluvio-spu/src/mirroring/remote/controller.rs, mirroring/home/connection.rs and
`append_record_set` of crates/fluvio-spu/src/replication/leader/replica_state.rs.  Either side may be
the source: the remote (controller.rs:224-300 against connection.rs:184-239) or the home
(connection.rs:278-340 against controller.rs:304-378); the two pairs have the same code but for what
the source remembers over a reconnection, see `Step.connect`.

* As in `Verif.Replication.Protocol` a log is the list of its batches, messages carry whole batches,
  and the network keeps every message ever sent: a message may be delivered any number of times, in
  any order, at any later time or never, on any connection.
* The target's partition takes no records from producers (crates/fluvio-controlplane-metadata/src/
  partition/spec.rs:172-189), so it has no step writing them.
* Statuses, back-off, authorisation and the lookup of the partition by its name are left out.
-/

namespace Verif.Mirror
open Verif.Replication

variable {α : Type}

/-- The leader of the source partition.  `log` is everything ever written, `start` the log start
offset: batches below it have been removed by retention.  `leo` is the published end, `hw` the
offset up to which the source's own replicas hold the log. -/
structure Source (α : Type) where
  log : List (List α)
  start : Int
  leo : Int
  hw : Int
  broken : Bool

/-- The leader of the target partition. -/
structure Target (α : Type) where
  log : List (List α)
  leo : Int
  broken : Bool

/-- Records on their way (`MirrorPartitionSyncRequest`, remote/sync.rs:26-34; the positions of the
source in it are not used by the target). -/
structure Msg (α : Type) where
  base : Int
  batches : List (List α)

/-- What a task of the source knows (`home_leo` or `remote_leo`, -1 if unknown) and whether it has to
send (`home_updated_needed`, `remote_updated_needed`). -/
structure Ctl where
  known : Int
  needed : Bool
  deriving DecidableEq, Repr

/-- A task before its first message (controller.rs:99-110, connection.rs:33-41). -/
def Ctl.init : Ctl := ⟨-1, false⟩

/-- `update_from_home_as_source`, `update_from_remote` (controller.rs:406-449, connection.rs:424-472):
the end of the target `new` against the source's `leo`.  Without result: the error that ends the
connection. -/
def updateFrom (leo known new : Int) : Int × Option Bool :=
  let known := if known < 0 then new else known
  if new > leo then (known, none)
  else if new < leo then (new, some true)
  else (known, some false)

/-- A task takes a report.  On an error the connection ends; the flag then no longer matters, since the
task's next step is to connect. -/
def Ctl.take (c : Ctl) (leo new : Int) : Ctl :=
  ⟨(updateFrom leo c.known new).1, (updateFrom leo c.known new).2.getD false⟩

/-- `geneate_remote_record_as_source`, `generate_home_records_as_source` (controller.rs:484-539,
connection.rs:365-421) with the source's position `leo` read first; `k` is how many whole batches the
byte limit and the segment end leave.  Reading below the log start is an error. -/
def generate (s : Source α) (leo known : Int) (k : Nat) : Except Unit (Option (Msg α)) :=
  if leo = known then .ok none
  else if leo > known then
    if known < s.start then .error ()
    else match readAt s.log 0 known with
      | some (base, bs) => .ok (some ⟨base, bs.take k⟩)
      | none => .ok (some ⟨-1, []⟩)
  else .error ()

/-- The checks of `append_record_set` (leader/replica_state.rs:448-463). -/
def accepts (t : Target α) (m : Msg α) : Bool :=
  if m.batches.flatten.length = 0 then false
  else if m.base ≠ t.leo then false
  else true

/-- The write of `append_record_set` (leader/replica_state.rs:465, storage/mod.rs:131-165): the
batches go to the end of the log, whatever offset they came with. -/
def append (t : Target α) (m : Msg α) : Target α :=
  { t with log := t.log ++ m.batches, leo := size (t.log ++ m.batches) }

/-- The same write failing after `j` batches: nothing is published and the storage is shut. -/
def appendFail (t : Target α) (m : Msg α) (j : Nat) : Target α :=
  { t with log := t.log ++ m.batches.take j, broken := true }

/-- Both sides, the tasks of the source by number, and the network. -/
structure System (α : Type) where
  source : Source α
  target : Target α
  ctl : Nat → Ctl
  /-- messages whose check has passed and whose write has not happened -/
  pending : List (Msg α)
  syncs : List (Msg α)
  reports : List Int

/-- A task's state replaced. -/
def setCtl (cs : Nat → Ctl) (i : Nat) (c : Ctl) : Nat → Ctl := fun j => if j = i then c else cs j

/-- What the environment may do besides: `overlap`, that two connections to the target are served at
the same time, so that one handler may pass its check while another has not written yet; `failover`,
that the source's leader is replaced by a replica holding only the log up to its watermark. -/
structure Env where
  overlap : Bool
  failover : Bool

/-- One step. -/
inductive Step (v : Env) : System α → System α → Prop where
  /-- a producer's request is written to the source -/
  | write (c : System α) (bs : List (List α)) (hne : ∀ b ∈ bs, b ≠ []) (ok : c.source.broken = false) :
      Step v c { c with source :=
        { c.source with log := c.source.log ++ bs, leo := size (c.source.log ++ bs) } }
  /-- a write to the source fails after `j` batches -/
  | writeFail (c : System α) (bs : List (List α)) (j : Nat) (hne : ∀ b ∈ bs, b ≠ [])
      (ok : c.source.broken = false) :
      Step v c { c with source := { c.source with log := c.source.log ++ bs.take j, broken := true } }
  /-- the source's watermark moves -/
  | commit (c : System α) (hw : Int) (h : hw ≤ c.source.leo) :
      Step v c { c with source := { c.source with hw := hw } }
  /-- retention removes the segments of the source below `size pre` -/
  | retain (c : System α) (pre : List (List α)) (h : pre <+: c.source.log)
      (hs : c.source.start ≤ size pre) :
      Step v c { c with source := { c.source with start := size pre } }
  /-- the source's process restarts (its tasks with it) -/
  | restartSource (c : System α) :
      Step v c { c with source := { c.source with leo := size c.source.log, broken := false },
                        ctl := fun _ => Ctl.init }
  /-- another replica of the source takes over with what it holds of the log -/
  | failover (c : System α) (log : List (List α)) (hv : v.failover = true)
      (h : log <+: c.source.log) (hw : c.source.hw ≤ size log) :
      Step v c { c with source := { c.source with log := log, leo := size log, broken := false },
                        ctl := fun _ => Ctl.init }
  /-- a task connects: the remote keeps what it knew (controller.rs:185-221, 246), the home starts
  anew (connection.rs:131-143, 287) -/
  | connect (c : System α) (i : Nat) (keep : Bool) :
      Step v c { c with ctl := setCtl c.ctl i ⟨if keep then (c.ctl i).known else -1, false⟩ }
  /-- the target sends its end: on connecting, when the timer expires, after a message
  (connection.rs:195, 214, 274, controller.rs:324, 335, 358) -/
  | report (c : System α) : Step v c { c with reports := c.target.leo :: c.reports }
  /-- a task notices a new end of the source's log (controller.rs:266-269, connection.rs:308-311) -/
  | listen (c : System α) (i : Nat) :
      Step v c { c with ctl := setCtl c.ctl i ⟨(c.ctl i).known, true⟩ }
  /-- a report arrives at a task (controller.rs:275-281, connection.rs:322-324) -/
  | update (c : System α) (i : Nat) (new : Int) (h : new ∈ c.reports) :
      Step v c { c with ctl := setCtl c.ctl i ((c.ctl i).take c.source.leo new) }
  /-- a task sends what is missing (controller.rs:256-261, connection.rs:302-305); the end of the
  source's log it works with may have been read earlier -/
  | send (c : System α) (i k : Nat) (leo : Int) (m : Option (Msg α)) (hn : (c.ctl i).needed = true)
      (hk : 0 ≤ (c.ctl i).known) (hleo : leo ≤ c.source.leo)
      (hm : generate c.source leo (c.ctl i).known k = .ok m) :
      Step v c { c with ctl := setCtl c.ctl i ⟨(c.ctl i).known, false⟩,
                        syncs := m.toList ++ c.syncs }
  /-- a message arrives at the target and passes the checks -/
  | check (c : System α) (m : Msg α) (hm : m ∈ c.syncs) (ha : accepts c.target m = true)
      (hb : c.target.broken = false) (hone : v.overlap = true ∨ c.pending = []) :
      Step v c { c with pending := m :: c.pending }
  /-- the records of a checked message are written -/
  | append (c : System α) (pre post : List (Msg α)) (m : Msg α) (hp : c.pending = pre ++ m :: post)
      (hb : c.target.broken = false) :
      Step v c { c with target := append c.target m, pending := pre ++ post }
  /-- ... or their write fails -/
  | appendFail (c : System α) (pre post : List (Msg α)) (m : Msg α) (j : Nat)
      (hp : c.pending = pre ++ m :: post) (hb : c.target.broken = false) :
      Step v c { c with target := appendFail c.target m j, pending := pre ++ post }
  /-- the target's process restarts; batches at the end of its log may be gone -/
  | restartTarget (c : System α) (keep : Nat) :
      Step v c { c with target := ⟨c.target.log.take keep, size (c.target.log.take keep), false⟩,
                        pending := [] }

/-- Any number of steps. -/
inductive Run (v : Env) : System α → System α → Prop where
  | refl (c : System α) : Run v c c
  | step {c d e : System α} : Run v c d → Step v d e → Run v c e

theorem Run.trans {v : Env} {c d e : System α} (h : Run v c d) (h' : Run v d e) : Run v c e := by
  induction h' with
  | refl => exact h
  | step _ s ih => exact .step ih s

/-- Two empty partitions. -/
def newSystem (α : Type) : System α where
  source := ⟨[], 0, 0, 0, false⟩
  target := ⟨[], 0, false⟩
  ctl := fun _ => Ctl.init
  pending := []
  syncs := []
  reports := []

/-- One connection at a time, no fail-over at the source. -/
def Env.plain : Env := ⟨false, false⟩

/-! ### Safety -/

/-- What is true in every reachable state. -/
structure Inv (c : System α) : Prop where
  nonempty : ∀ b ∈ c.source.log, b ≠ []
  leoLe : c.source.leo ≤ size c.source.log
  pref : c.target.log <+: c.source.log
  tEq : c.target.broken = false → c.target.leo = size c.target.log
  tLe : c.target.leo ≤ size c.target.log
  tNonneg : 0 ≤ c.target.leo
  sync : ∀ m ∈ c.syncs, m.batches ≠ [] → At c.source.log m.base m.batches
  pend : c.pending = [] ∨ ∃ m, c.pending = [m] ∧ m ∈ c.syncs ∧ m.batches ≠ [] ∧ m.base = c.target.leo

theorem Inv.init : Inv (newSystem α) where
  nonempty := by simp [newSystem]
  leoLe := by simp [newSystem, size]
  pref := by simp [newSystem]
  tEq := by simp [newSystem, size]
  tLe := by simp [newSystem, size]
  tNonneg := by simp [newSystem]
  sync := by simp [newSystem]
  pend := .inl rfl

theorem accepts_iff {t : Target α} {m : Msg α} :
    accepts t m = true ↔ m.batches.flatten.length ≠ 0 ∧ m.base = t.leo := by
  unfold accepts
  split
  · simp_all
  · split <;> simp_all

theorem generate_at {s : Source α} {leo known : Int} {k : Nat} {m : Msg α}
    (h : generate s leo known k = .ok (some m)) (hne : m.batches ≠ []) :
    At s.log m.base m.batches := by
  unfold generate at h
  split at h
  · simp at h
  · split at h
    · split at h
      · simp at h
      · split at h
        · rename_i base bs hr
          injection h with h; injection h with h; subst h
          obtain ⟨pre, h1, h2⟩ := readAt_spec hr
          refine ⟨pre, bs.drop k, ?_, by simpa using h2⟩
          rw [List.append_assoc, List.take_append_drop]; exact h1
        · injection h with h; injection h with h; subst h
          exact absurd rfl hne
    · simp at h

theorem Inv.one {c : System α} (h : Inv c) {pre post : List (Msg α)} {m : Msg α}
    (hp : c.pending = pre ++ m :: post) :
    pre = [] ∧ post = [] ∧ m ∈ c.syncs ∧ m.batches ≠ [] ∧ m.base = c.target.leo := by
  rcases h.pend with h0 | ⟨x, h0, h1, h2, h3⟩
  · rw [h0] at hp; simp at hp
  · rw [h0] at hp
    cases pre with
    | nil =>
      simp only [List.nil_append, List.cons.injEq] at hp
      obtain ⟨rfl, h5⟩ := hp
      exact ⟨rfl, h5.symm, h1, h2, h3⟩
    | cons y pre => simp at hp

/-- The records of a checked message are the next ones of the source. -/
theorem Inv.next {c : System α} (h : Inv c) {m : Msg α} (hb : c.target.broken = false)
    (hm : m ∈ c.syncs) (hne : m.batches ≠ []) (hbase : m.base = c.target.leo) :
    c.target.log ++ m.batches <+: c.source.log := by
  obtain ⟨pre, post, h1, h2⟩ := h.sync m hm hne
  have e : c.target.log = pre := by
    refine prefix_eq h.nonempty h.pref ⟨m.batches ++ post, by rw [h1, List.append_assoc]⟩ ?_
    rw [← h.tEq hb, ← hbase, h2]
  rw [e]
  exact ⟨post, h1.symm⟩

theorem Inv.step {v : Env} (hv : v.overlap = false) (hf : v.failover = false) {c d : System α}
    (h : Inv c) (s : Step v c d) : Inv d := by
  cases s with
  | write bs hne ok =>
    exact { h with
      nonempty := fun b hb => (List.mem_append.1 hb).elim (h.nonempty b) (hne b)
      leoLe := Int.le_refl _
      pref := h.pref.trans ⟨bs, rfl⟩
      sync := fun m hm hn => (h.sync m hm hn).mono bs }
  | writeFail bs j hne ok =>
    exact { h with
      nonempty := fun b hb => (List.mem_append.1 hb).elim (h.nonempty b)
        fun hb => hne b (List.mem_of_mem_take hb)
      leoLe := by
        have := h.leoLe
        have h2 := size_nonneg (bs.take j)
        show c.source.leo ≤ size (c.source.log ++ bs.take j)
        rw [size_append]
        omega
      pref := h.pref.trans ⟨bs.take j, rfl⟩
      sync := fun m hm hn => (h.sync m hm hn).mono (bs.take j) }
  | commit hw hh => exact { h with }
  | retain pre hp hs => exact { h with }
  | restartSource => exact { h with leoLe := Int.le_refl _ }
  | failover log hv' _ _ => rw [hf] at hv'; cases hv'
  | connect i keep => exact { h with }
  | report => exact { h with }
  | listen i => exact { h with }
  | update i new hn => exact { h with }
  | send i k leo m hn hk hleo hm =>
    have hsync : ∀ x ∈ m.toList ++ c.syncs, x.batches ≠ [] → At c.source.log x.base x.batches := by
      intro x hx hne
      rcases List.mem_append.1 hx with hx | hx
      · rw [Option.mem_toList] at hx
        cases hx
        exact generate_at hm hne
      · exact h.sync x hx hne
    refine { h with sync := hsync, pend := ?_ }
    rcases h.pend with h0 | ⟨x, h0, h1, h2, h3⟩
    · exact .inl h0
    · exact .inr ⟨x, h0, List.mem_append_right _ h1, h2, h3⟩
  | check m hm ha hb hone =>
    have hp : c.pending = [] := by
      rcases hone with h0 | h0
      · rw [hv] at h0; cases h0
      · exact h0
    obtain ⟨h1, h2⟩ := accepts_iff.1 ha
    refine { h with pend := .inr ⟨m, by show m :: c.pending = [m]; rw [hp], hm, ?_, h2⟩ }
    intro h0
    rw [h0] at h1
    exact h1 rfl
  | append pre post m hp hb =>
    obtain ⟨rfl, rfl, h1, h2, h3⟩ := h.one hp
    exact { h with
      pref := h.next hb h1 h2 h3
      tEq := fun _ => rfl
      tLe := Int.le_refl _
      tNonneg := size_nonneg _
      pend := .inl rfl }
  | appendFail pre post m j hp hb =>
    obtain ⟨rfl, rfl, h1, h2, h3⟩ := h.one hp
    have hn := h.next hb h1 h2 h3
    refine { h with
      pref := List.IsPrefix.trans ?_ hn
      tEq := fun h0 => by cases h0
      tLe := ?_
      pend := .inl rfl }
    · exact ⟨m.batches.drop j, by
        show c.target.log ++ m.batches.take j ++ _ = _
        rw [List.append_assoc, List.take_append_drop]⟩
    · show c.target.leo ≤ size (c.target.log ++ m.batches.take j)
      rw [size_append]
      have := h.tLe
      have := size_nonneg (m.batches.take j)
      omega
  | restartTarget keep =>
    exact { h with
      pref := (List.take_prefix keep _).trans h.pref
      tEq := fun _ => rfl
      tLe := Int.le_refl _
      tNonneg := size_nonneg _
      pend := .inl rfl }

theorem Inv.run {v : Env} (hv : v.overlap = false) (hf : v.failover = false) {c d : System α}
    (h : Inv c) (r : Run v c d) : Inv d := by
  induction r with
  | refl => exact h
  | step _ s ih => exact ih.step hv hf s

/-! ### Progress -/

/-- Reading at the end of a proper prefix yields what follows it. -/
theorem readAt_prefix : ∀ {pre rest : List (List α)} {start : Int}, (∀ b ∈ pre ++ rest, b ≠ []) →
    rest ≠ [] → readAt (pre ++ rest) start (start + size pre) = some (start + size pre, rest)
  | [], b :: rest, start, hne, _ => by
    have hb : b ≠ [] := hne b (by simp)
    have : 0 < b.length := List.length_pos_iff.2 hb
    simp only [List.nil_append, size_nil, Int.add_zero, readAt]
    rw [if_pos (by omega)]
  | b :: pre, rest, start, hne, hr => by
    have ih := readAt_prefix (pre := pre) (rest := rest) (start := start + b.length)
      (fun x hx => hne x (by simp only [List.cons_append, List.mem_cons]; exact .inr hx)) hr
    rw [size_cons]
    show readAt (b :: (pre ++ rest)) _ _ = _
    unfold readAt
    have := size_nonneg pre
    rw [if_neg (by omega)]
    have e : start + ((b.length : Int) + size pre) = start + b.length + size pre := by omega
    rw [e]
    exact ih

/-- What a task sends to a target at a batch boundary of a log it still has. -/
theorem generate_next {s : Source α} {pre rest : List (List α)} (hl : s.log = pre ++ rest)
    (hne : ∀ b ∈ s.log, b ≠ []) {leo : Int} (hleo : leo ≤ size s.log) (hlt : size pre < leo)
    (hs : s.start ≤ size pre) (k : Nat) :
    generate s leo (size pre) k = .ok (some ⟨size pre, rest.take k⟩) := by
  have hr : rest ≠ [] := by
    intro h0
    rw [hl, h0, List.append_nil] at hleo
    omega
  have := readAt_prefix (pre := pre) (rest := rest) (start := 0) (by rw [← hl]; exact hne) hr
  rw [Int.zero_add] at this
  unfold generate
  rw [if_neg (by omega), if_pos (by omega), if_neg (by omega), hl, this]

/-- One undisturbed exchange on task `i`: the target reports its end, the task takes the report and
sends up to `k` batches, the target appends them. -/
def exchange (i k : Nat) (c : System α) : System α :=
  let x := (c.ctl i).take c.source.leo c.target.leo
  let c1 : System α := { c with reports := c.target.leo :: c.reports, ctl := setCtl c.ctl i x }
  if x.needed = true ∧ 0 ≤ x.known then
    match generate c.source c.source.leo x.known k with
    | .ok none => { c1 with ctl := setCtl c1.ctl i ⟨x.known, false⟩ }
    | .ok (some m) =>
      let c2 : System α := { c1 with ctl := setCtl c1.ctl i ⟨x.known, false⟩, syncs := m :: c1.syncs }
      if accepts c.target m then { c2 with target := append c.target m } else c2
    | .error _ => c1
  else c1

/-- An exchange is made of steps of the system. -/
theorem exchange_run (v : Env) (i k : Nat) {c : System α} (hb : c.target.broken = false)
    (hp : c.pending = []) : Run v c (exchange i k c) := by
  have s1 : Run v c { c with reports := c.target.leo :: c.reports } := .step (.refl _) (.report c)
  have s2 := Run.step s1 (.update _ i c.target.leo (by simp))
  have hx : setCtl c.ctl i ((c.ctl i).take c.source.leo c.target.leo) i =
      (c.ctl i).take c.source.leo c.target.leo := by simp [setCtl]
  unfold exchange
  dsimp only at s2 ⊢
  generalize (c.ctl i).take c.source.leo c.target.leo = x at s2 hx ⊢
  split
  · rename_i hc
    split
    · rename_i hm
      have s3 := Run.step s2 (.send _ i k c.source.leo none (by dsimp only; rw [hx]; exact hc.1)
        (by dsimp only; rw [hx]; exact hc.2) (Int.le_refl _) (by dsimp only; rw [hx]; exact hm))
      dsimp only at s3
      rw [hx] at s3
      exact s3
    · rename_i m hm
      have s3 := Run.step s2 (.send _ i k c.source.leo (some m) (by dsimp only; rw [hx]; exact hc.1)
        (by dsimp only; rw [hx]; exact hc.2) (Int.le_refl _) (by dsimp only; rw [hx]; exact hm))
      dsimp only at s3
      rw [hx] at s3
      split
      · rename_i ha
        have s4 := Run.step s3 (.check _ m (by simp) ha hb (.inr hp))
        have s5 := Run.step s4 (.append _ [] [] m (by show m :: c.pending = _; rw [hp]; rfl) hb)
        rw [hp]
        exact s5
      · exact s3
    · exact s2
  · exact s2

/-- A state in which exchanges can take place: the target's storage works, nothing is half handled, and
the source still has what the target lacks. -/
structure Ready (c : System α) : Prop where
  inv : Inv c
  ok : c.target.broken = false
  idle : c.pending = []
  kept : c.source.start ≤ c.target.leo
  published : c.source.leo = size c.source.log

theorem flatten_ne {l : List (List α)} (hne : ∀ b ∈ l, b ≠ []) (h : l ≠ []) : l.flatten.length ≠ 0 := by
  cases l with
  | nil => exact absurd rfl h
  | cons b l =>
    have : 0 < b.length := List.length_pos_iff.2 (hne b (by simp))
    simp only [List.flatten_cons, List.length_append]
    omega

/-- An exchange moves the target's end by at least one record, unless it is already there. -/
theorem exchange_ready (i k : Nat) (hk : 0 < k) {c : System α} (h : Ready c) :
    Ready (exchange i k c) ∧ (exchange i k c).source = c.source ∧
      (c.target.leo = c.source.leo ∧ (exchange i k c).target = c.target ∨
        c.target.leo < (exchange i k c).target.leo) := by
  obtain ⟨rest, hrest⟩ := h.inv.pref
  have ht := h.inv.tEq h.ok
  have hle : c.target.leo ≤ c.source.leo := by
    rw [ht, h.published]; exact size_prefix h.inv.pref
  by_cases heq : c.target.leo = c.source.leo
  · have hu : ((c.ctl i).take c.source.leo c.target.leo).needed = false := by
      unfold Ctl.take updateFrom
      rw [if_neg (by omega), if_neg (by omega)]
      rfl
    have he : exchange i k c = { c with
        reports := c.target.leo :: c.reports
        ctl := setCtl c.ctl i ((c.ctl i).take c.source.leo c.target.leo) } := by
      unfold exchange
      dsimp only
      rw [if_neg (by rw [hu]; simp)]
    rw [he]
    exact ⟨⟨{ h.inv with }, h.ok, h.idle, h.kept, h.published⟩, rfl, .inl ⟨heq, rfl⟩⟩
  · have hlt : c.target.leo < c.source.leo := by omega
    have hu : (c.ctl i).take c.source.leo c.target.leo = ⟨c.target.leo, true⟩ := by
      unfold Ctl.take updateFrom
      rw [if_neg (by omega), if_pos (by omega)]
      rfl
    have hg : generate c.source c.source.leo c.target.leo k =
        .ok (some ⟨c.target.leo, rest.take k⟩) := by
      rw [ht]
      exact generate_next hrest.symm h.inv.nonempty h.inv.leoLe (by omega) (by rw [← ht]; exact h.kept) k
    have hr : rest ≠ [] := by
      intro h0
      rw [h0, List.append_nil] at hrest
      have := h.published
      rw [← hrest] at this
      omega
    have hne : ∀ b ∈ rest.take k, b ≠ [] := fun b hb =>
      h.inv.nonempty b (by rw [← hrest]; exact List.mem_append_right _ (List.mem_of_mem_take hb))
    have hrk : rest.take k ≠ [] := by
      rw [Ne, List.take_eq_nil_iff]
      rintro (h0 | h0)
      · omega
      · exact hr h0
    have hfl := flatten_ne hne hrk
    have ha : accepts c.target ⟨c.target.leo, rest.take k⟩ = true := accepts_iff.2 ⟨hfl, rfl⟩
    have he : exchange i k c = { c with
        reports := c.target.leo :: c.reports
        ctl := setCtl (setCtl c.ctl i ⟨c.target.leo, true⟩) i ⟨c.target.leo, false⟩
        syncs := ⟨c.target.leo, rest.take k⟩ :: c.syncs
        target := append c.target ⟨c.target.leo, rest.take k⟩ } := by
      unfold exchange
      dsimp only
      rw [hu]
      dsimp only
      rw [if_pos ⟨rfl, h.inv.tNonneg⟩, hg]
      dsimp only
      rw [if_pos ha]
    have hnew : c.target.leo < size (c.target.log ++ rest.take k) := by
      rw [size_append, ht]
      unfold size
      omega
    have hinv : Inv (exchange i k c) := h.inv.run (v := Env.plain) rfl rfl (exchange_run _ i k h.ok h.idle)
    refine ⟨⟨hinv, ?_, ?_, ?_, ?_⟩, ?_, .inr ?_⟩
    · rw [he]; exact h.ok
    · rw [he]; exact h.idle
    · rw [he]
      show c.source.start ≤ size (c.target.log ++ rest.take k)
      have := h.kept
      omega
    · rw [he]; exact h.published
    · rw [he]
    · rw [he]; exact hnew

/-- Exchanges one after another, each with its own limit. -/
def exchanges (i : Nat) : List Nat → System α → System α
  | [], c => c
  | k :: ks, c => exchanges i ks (exchange i k c)

theorem exchanges_reach (i : Nat) : ∀ (ks : List Nat) {c : System α}, (∀ k ∈ ks, 0 < k) → Ready c →
    c.source.leo - c.target.leo ≤ ks.length →
    (exchanges i ks c).target.log = c.source.log ∧ (exchanges i ks c).source = c.source ∧
      Run Env.plain c (exchanges i ks c)
  | [], c, _, h, hle => by
    refine ⟨?_, rfl, .refl _⟩
    show c.target.log = c.source.log
    have h1 : size c.target.log = size c.source.log := by
      have := size_prefix h.inv.pref
      have := h.inv.tEq h.ok
      have := h.published
      simp only [List.length_nil] at hle
      omega
    exact prefix_eq h.inv.nonempty h.inv.pref (List.prefix_refl _) h1
  | k :: ks, c, hk, h, hle => by
    obtain ⟨h1, h2, h3⟩ := exchange_ready i k (hk k (by simp)) h
    have hle' : (exchange i k c).source.leo - (exchange i k c).target.leo ≤ ks.length := by
      rw [h2]
      simp only [List.length_cons] at hle
      rcases h3 with ⟨h3, h4⟩ | h3
      · rw [h4]; omega
      · omega
    obtain ⟨q1, q2, q3⟩ := exchanges_reach i ks (fun x hx => hk x (by simp [hx])) h1 hle'
    refine ⟨?_, ?_, (exchange_run _ i k h.ok h.idle).trans q3⟩
    · show (exchanges i ks (exchange i k c)).target.log = _
      rw [q1, h2]
    · show (exchanges i ks (exchange i k c)).source = _
      rw [q2, h2]

/-! ### The target's end never moves back -/

/-- The end of the target over steps that are not its own restart. -/
theorem Inv.grows {v : Env} {c d : System α} (h : Inv c) (s : Step v c d) :
    (c.target.log <+: d.target.log ∧ c.target.leo ≤ d.target.leo) ∨
      ∃ keep, d.target.log = c.target.log.take keep := by
  cases s with
  | append pre post m hp hb =>
    refine .inl ⟨⟨m.batches, rfl⟩, ?_⟩
    show c.target.leo ≤ size (c.target.log ++ m.batches)
    rw [size_append]
    have := h.tLe
    have := size_nonneg m.batches
    omega
  | appendFail pre post m j hp hb => exact .inl ⟨⟨m.batches.take j, rfl⟩, Int.le_refl _⟩
  | restartTarget keep => exact .inr ⟨keep, rfl⟩
  | _ => exact .inl ⟨List.prefix_refl _, Int.le_refl _⟩

/-- Without fail-over the source's log only grows. -/
theorem Step.source_grows {v : Env} (hf : v.failover = false) {c d : System α} (s : Step v c d) :
    c.source.log <+: d.source.log := by
  cases s with
  | write bs hne ok => exact ⟨bs, rfl⟩
  | writeFail bs j hne ok => exact ⟨bs.take j, rfl⟩
  | failover log hv' _ _ => rw [hf] at hv'; cases hv'
  | _ => exact List.prefix_refl _

theorem Run.source_grows {v : Env} (hf : v.failover = false) {c d : System α} (r : Run v c d) :
    c.source.log <+: d.source.log := by
  induction r with
  | refl => exact List.prefix_refl _
  | step _ s ih => exact ih.trans (s.source_grows hf)

/-- The handler of a message, undisturbed. -/
def handle (t : Target α) (m : Msg α) : Target α := if accepts t m then append t m else t

/-- A message sent in answer to the report of an end brings the target past that end. -/
theorem answer {v : Env} (hv : v.overlap = false) (hf : v.failover = false) {c₀ c : System α}
    (h : Inv c₀) (hok : c₀.target.broken = false) (r₁ : Run v c₀ c) {leo : Int} {k : Nat} {m : Msg α}
    (hk : 0 < k) (hleo : leo ≤ c.source.leo)
    (hm : generate c.source leo c₀.target.leo k = .ok (some m)) {t : Target α}
    (hle : c₀.target.leo ≤ t.leo) (ht : t.leo = size t.log) :
    c₀.target.leo < (handle t m).leo := by
  have hc := h.run hv hf r₁
  obtain ⟨rest, hrest⟩ := h.pref.trans (r₁.source_grows hf)
  have h0 := h.tEq hok
  have hgt : c₀.target.leo < leo := by
    unfold generate at hm
    split at hm
    · simp at hm
    · split at hm
      · assumption
      · simp at hm
  have hst : c.source.start ≤ c₀.target.leo := by
    unfold generate at hm
    rw [if_neg (by omega), if_pos (by omega)] at hm
    split at hm
    · simp at hm
    · omega
  have hle' := hc.leoLe
  have hg := generate_next hrest.symm hc.nonempty (leo := leo) (by omega) (by omega) (by omega) k
  rw [← h0, hm] at hg
  injection hg with hg; injection hg with hg
  subst hg
  have hr : rest ≠ [] := by
    intro h1
    rw [h1, List.append_nil] at hrest
    rw [← hrest] at hle'
    omega
  have hne : ∀ b ∈ rest.take k, b ≠ [] := fun b hb =>
    hc.nonempty b (by rw [← hrest]; exact List.mem_append_right _ (List.mem_of_mem_take hb))
  have hrk : rest.take k ≠ [] := by
    rw [Ne, List.take_eq_nil_iff]
    rintro (h1 | h1)
    · omega
    · exact hr h1
  have hfl := flatten_ne hne hrk
  unfold handle
  by_cases he : t.leo = c₀.target.leo
  · rw [if_pos (accepts_iff.2 ⟨hfl, he.symm⟩)]
    show c₀.target.leo < size (t.log ++ rest.take k)
    rw [size_append, ← ht]
    unfold size
    omega
  · split
    · rename_i ha
      exact absurd (accepts_iff.1 ha).2.symm he
    · omega

/-! ### Retention at the source -/

/-- Where a read at or after a batch boundary starts. -/
theorem readAt_base_ge {pre log : List (List α)} (hp : pre <+: log) {o base : Int} {bs : List (List α)}
    (ho : size pre ≤ o) (h : readAt log 0 o = some (base, bs)) : size pre ≤ base := by
  suffices ∀ (pre log : List (List α)) (start : Int), pre <+: log → start + size pre ≤ o →
      readAt log start o = some (base, bs) → start + size pre ≤ base by
    have := this pre log 0 hp (by omega) h
    omega
  intro pre
  induction pre with
  | nil =>
    intro log start _ _ hr
    obtain ⟨p, _, h2⟩ := readAt_spec hr
    have := size_nonneg p
    rw [size_nil]
    omega
  | cons b pre ih =>
    intro log start hpre hle hr
    obtain ⟨t, ht⟩ := hpre
    subst ht
    rw [size_cons] at hle ⊢
    have h0 := size_nonneg pre
    have hr' : readAt (b :: (pre ++ t)) start o = some (base, bs) := hr
    unfold readAt at hr'
    rw [if_neg (by omega)] at hr'
    have := ih (pre ++ t) (start + b.length) ⟨t, rfl⟩ (by omega) hr'
    omega

/-- The target is stuck at the beginning, the source's log starts at the batch boundary `size pre`. -/
structure Stuck (pre : List (List α)) (c : System α) : Prop where
  inv : Inv c
  pref : pre <+: c.source.log
  start : size pre ≤ c.source.start
  pos : 0 < size pre
  empty : c.target.log = []
  leo : c.target.leo = 0
  syncs : ∀ m ∈ c.syncs, m.batches ≠ [] → size pre ≤ m.base
  idle : c.pending = []

theorem Stuck.step {v : Env} (hv : v.overlap = false) (hf : v.failover = false)
    {pre : List (List α)} {c d : System α} (h : Stuck pre c) (s : Step v c d) : Stuck pre d := by
  have hi := h.inv.step hv hf s
  cases s with
  | write bs hne ok => exact { h with inv := hi, pref := h.pref.trans ⟨bs, rfl⟩ }
  | writeFail bs j hne ok => exact { h with inv := hi, pref := h.pref.trans ⟨bs.take j, rfl⟩ }
  | commit hw hh => exact { h with inv := hi }
  | retain p hp hs => exact { h with inv := hi, start := Int.le_trans h.start hs }
  | restartSource => exact { h with inv := hi }
  | failover log hv' _ _ => rw [hf] at hv'; cases hv'
  | connect i keep => exact { h with inv := hi }
  | report => exact { h with inv := hi }
  | listen i => exact { h with inv := hi }
  | update i new hn => exact { h with inv := hi }
  | send i k leo m hn hk hleo hm =>
    refine { h with inv := hi, syncs := ?_ }
    intro x hx hne
    rcases List.mem_append.1 hx with hx | hx
    · rw [Option.mem_toList] at hx
      cases hx
      unfold generate at hm
      split at hm
      · simp at hm
      · split at hm
        · split at hm
          · simp at hm
          · rename_i hst
            split at hm
            · rename_i base bs hr
              injection hm with hm; injection hm with hm; subst hm
              have h1 := h.start
              exact readAt_base_ge h.pref (by omega) hr
            · injection hm with hm; injection hm with hm; subst hm
              exact absurd rfl hne
        · simp at hm
    · exact h.syncs x hx hne
  | check m hm ha hb hone =>
    obtain ⟨h1, h2⟩ := accepts_iff.1 ha
    have := h.syncs m hm (by intro h0; rw [h0] at h1; exact h1 rfl)
    have h3 := h.leo
    have h4 := h.pos
    omega
  | append p q m hp hb => rw [h.idle] at hp; simp at hp
  | appendFail p q m j hp hb => rw [h.idle] at hp; simp at hp
  | restartTarget keep =>
    have : c.target.log.take keep = [] := by rw [h.empty]; exact List.take_nil
    exact { h with
      inv := hi
      empty := this
      leo := by show size (c.target.log.take keep) = 0; rw [this]; rfl
      idle := rfl }

theorem Stuck.run {v : Env} (hv : v.overlap = false) (hf : v.failover = false)
    {pre : List (List α)} {c d : System α} (h : Stuck pre c) (r : Run v c d) : Stuck pre d := by
  induction r with
  | refl => exact h
  | step _ s ih => exact ih.step hv hf s

end Verif.Mirror
