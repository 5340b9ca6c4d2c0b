import Verif.Replication.Hw

/-
Leader and followers of one partition exchanging records and offset reports.

Models crates/fluvio-spu/src/replication/leader/replica_state.rs, leader/connection.rs,
follower/state.rs, follower/controller.rs and crates/fluvio-spu/src/storage/mod.rs.

* A log is the list of its batches, a batch the (non-empty) list of its records; the storage layer
  itself (segments, index, bytes) is modelled in `Verif.Storage` and abstracted here.
* Followers are numbered `0 .. n-1`.
* The network keeps every message ever sent: a message may be delivered any number of times, in
  any order, at any later time, or never.  A TCP connection allows less than that.
* Functions that read shared state before taking a lock are split into separate steps, so that
  anything may happen in between.
-/

namespace Verif.Replication

variable {α : Type}

/-- Number of records in a log: the log end offset of a log starting at 0. -/
def size (log : List (List α)) : Int := (log.flatten.length : Int)

/-- The leader's side (leader/replica_state.rs:41-60, storage/mod.rs:23-29).  `leo` is the end
offset that is *published*: a write that fails half way leaves batches in the log without
publishing them (storage/mod.rs:149-153), after which the storage refuses every write
(`broken`). -/
structure Leader (α : Type) where
  log : List (List α)
  leo : Int
  hw : Int
  /-- reported position of each follower (`followers: BTreeMap<SpuId, OffsetInfo>`) -/
  infos : Nat → Info
  broken : Bool

/-- A follower (follower/state.rs). -/
structure Follower (α : Type) where
  log : List (List α)
  leo : Int
  hw : Int
  broken : Bool

/-- A synchronisation message: records starting at `base`, and the leader's watermark. -/
structure Sync (α : Type) where
  to : Nat
  base : Int
  batches : List (List α)
  hw : Int

/-- A handler of an offset report that has read the leader's position and not yet taken the lock
(leader/replica_state.rs:193-203). -/
structure Handler where
  follower : Nat
  pos : Info
  leaderPos : Info

/-- The whole system. -/
structure Cluster (α : Type) where
  leader : Leader α
  followers : Nat → Follower α
  /-- watermarks read by tasks of the leader that are still running -/
  seenHw : List Int
  handlers : List Handler
  syncs : List (Sync α)
  reports : List (Nat × Info)

/-- Reading records from an offset: the batches from the one containing it
(`read_records`, storage/mod.rs:108-119, over the storage read proved in C11), with the offset of
the first.  Reading outside the log yields no records. -/
def readAt : List (List α) → Int → Int → Option (Int × List (List α))
  | [], _, _ => none
  | b :: l, base, o =>
    if o < base + b.length then some (base, b :: l) else readAt l (base + b.length) o

/-- `update_states_from_followers` under the lock (leader/replica_state.rs:206-225): merge the
report, and if it changed something and the position read earlier was not fully committed, compute
the watermark from that position and the merged reports.  `stored` is false if `update_hw` fails. -/
def Leader.merge (n : Nat) (l : Leader α) (h : Handler) (stored : Bool) : Leader α :=
  if h.follower < n then
    let u := (l.infos h.follower).update h.pos
    let infos := fun i => if i = h.follower then u.1 else l.infos i
    let l' := { l with infos := infos }
    if u.2 then
      if h.leaderPos.isCommitted then l'
      else
        match computeHw h.leaderPos.hw (n + 1) ((List.range n).map (fun i => (infos i).leo)) with
        | some hw => if stored then { l' with hw := hw } else l'
        | none => l'
    else l'
  else l

/-- `write_record_set` on the leader (leader/replica_state.rs:347-366, storage/mod.rs:131-165): all
batches are appended and the new end published; with a single replica the watermark follows. -/
def Leader.write (n : Nat) (l : Leader α) (bs : List (List α)) : Leader α :=
  let log := l.log ++ bs
  { l with log := log, leo := size log, hw := if n = 0 then size log else l.hw }

/-- A write that fails after `k` batches (storage/mod.rs:149-150: the `?` skips publishing).  An
error shuts the storage (`shut`), a panic does not. -/
def Leader.writeFail (l : Leader α) (bs : List (List α)) (k : Nat) (shut : Bool) : Leader α :=
  { l with log := l.log ++ bs.take k, broken := shut }

/-- The message built by `follower_updates` (leader/replica_state.rs:244-308), from the leader's
position read first and the follower's position read under the lock; `k` is how many whole batches
the byte limit and the segment end leave. -/
def Leader.updates (l : Leader α) (i : Nat) (pos : Info) (k : Nat) : Option (Sync α) :=
  let f := l.infos i
  if f.isValid && !f.isSame pos then
    if f.leo < pos.leo then
      match readAt l.log 0 f.leo with
      | some (base, bs) => some ⟨i, base, bs.take k, pos.hw⟩
      | none => some ⟨i, -1, [], pos.hw⟩
    else some ⟨i, -1, [], pos.hw⟩
  else none

/-- The watermark part of `update_from_leader` (follower/state.rs:222-241). -/
def Follower.takeHw (f : Follower α) (hw : Int) : Follower α :=
  if f.hw ≠ hw then
    if f.hw > hw then f
    else if hw > f.leo then f
    else { f with hw := hw }
  else f

/-- `update_from_leader` (follower/state.rs:208-262): append if the records start exactly at the
follower's end, then take over the watermark if it does not go back or past the end. -/
def Follower.receive (f : Follower α) (m : Sync α) : Follower α :=
  let f' := if m.batches.flatten.length > 0 ∧ m.base = f.leo then
      { f with log := f.log ++ m.batches, leo := size (f.log ++ m.batches) }
    else f
  f'.takeHw m.hw

/-- `update_from_leader` when the write fails after `k` batches: `?` returns before anything is
published (follower/state.rs:216, storage/mod.rs:149). -/
def Follower.receiveFail (f : Follower α) (m : Sync α) (k : Nat) : Follower α :=
  if m.batches.flatten.length > 0 ∧ m.base = f.leo then
    { f with log := f.log ++ m.batches.take k, broken := true }
  else f

/-- A follower opened again on its stored log (follower/state.rs:185-200); the watermark is the one
of the checkpoint (C18). -/
def Follower.restart (f : Follower α) (hw : Int) : Follower α :=
  { log := f.log, leo := size f.log, hw := hw, broken := false }

/-- `f` updated at `i`. -/
def set (fs : Nat → Follower α) (i : Nat) (f : Follower α) : Nat → Follower α :=
  fun j => if j = i then f else fs j

/-- One step of the system with `n` followers. -/
inductive Step (n : Nat) : Cluster α → Cluster α → Prop where
  /-- a producer's request is written -/
  | produce (c : Cluster α) (bs : List (List α)) (hne : ∀ b ∈ bs, b ≠ [])
      (ok : c.leader.broken = false) :
      Step n c { c with leader := c.leader.write n bs }
  /-- a write fails after `k` batches -/
  | produceFail (c : Cluster α) (bs : List (List α)) (k : Nat) (shut : Bool)
      (hne : ∀ b ∈ bs, b ≠ [])
      (ok : c.leader.broken = false) :
      Step n c { c with leader := c.leader.writeFail bs k shut }
  /-- a task of the leader reads the watermark: first half of `as_offset` (storage/mod.rs:74-79) -/
  | readHw (c : Cluster α) : Step n c { c with seenHw := c.leader.hw :: c.seenHw }
  /-- the leader builds a message for a follower with `follower_updates`; the watermark and the
  published end it works with were read earlier -/
  | send (c : Cluster α) (i k : Nat) (hw leo : Int) (m : Sync α) (hi : i < n)
      (hhw : hw ∈ c.seenHw) (hleo : leo ≤ c.leader.leo)
      (hm : c.leader.updates i ⟨hw, leo⟩ k = some m) :
      Step n c { c with syncs := m :: c.syncs }
  /-- a follower handles a message -/
  | receive (c : Cluster α) (m : Sync α) (hm : m ∈ c.syncs)
      (ok : (c.followers m.to).broken = false) :
      Step n c { c with followers := set c.followers m.to ((c.followers m.to).receive m) }
  /-- a follower fails while writing the records of a message -/
  | receiveFail (c : Cluster α) (m : Sync α) (k : Nat) (hm : m ∈ c.syncs)
      (ok : (c.followers m.to).broken = false) :
      Step n c { c with followers := set c.followers m.to ((c.followers m.to).receiveFail m k) }
  /-- a follower reports its position (follower/state.rs:265-271, follower/controller.rs:182-302) -/
  | report (c : Cluster α) (i : Nat) (hi : i < n) :
      Step n c { c with reports := (i, ⟨(c.followers i).hw, (c.followers i).leo⟩) :: c.reports }
  /-- a report arrives: the handler completes `as_offset` and rejects positions ahead of it
  (leader/replica_state.rs:193-200) -/
  | arrive (c : Cluster α) (i : Nat) (pos : Info) (hw : Int) (hr : (i, pos) ∈ c.reports)
      (hhw : hw ∈ c.seenHw) (hnew : pos.newer ⟨hw, c.leader.leo⟩ = false) :
      Step n c { c with handlers := ⟨i, pos, ⟨hw, c.leader.leo⟩⟩ :: c.handlers }
  /-- a handler gets the lock -/
  | locked (c : Cluster α) (h : Handler) (hh : h ∈ c.handlers) (stored : Bool) :
      Step n c { c with leader := c.leader.merge n h stored }

/-- The leader process restarts (leader/replica_state.rs:101-135): its log is kept, its watermark
may fall back to an older one, the reports of followers are forgotten and so are its tasks. -/
def Cluster.restartLeader (c : Cluster α) (hw : Int) : Cluster α :=
  { c with
    leader := { log := c.leader.log, leo := size c.leader.log, hw := hw,
                infos := fun _ => Info.unknown, broken := false }
    seenHw := [], handlers := [] }

/-- A follower process restarts; its watermark may fall back to an older one. -/
def Cluster.restartFollower (c : Cluster α) (i : Nat) (hw : Int) : Cluster α :=
  { c with followers := set c.followers i ((c.followers i).restart hw) }

/-- Any number of steps, and of restarts of the processes allowed by `may` (`none`: the leader,
`some i`: follower `i`). -/
inductive Life (n : Nat) (may : Option Nat → Prop) : Cluster α → Cluster α → Prop where
  | refl (c : Cluster α) : Life n may c c
  | step {c d e : Cluster α} : Life n may c d → Step n d e → Life n may c e
  | restartLeader {c d : Cluster α} (hw : Int) : Life n may c d → may none → hw ≤ d.leader.hw →
      Life n may c (d.restartLeader hw)
  | restartFollower {c d : Cluster α} (i : Nat) (hw : Int) : Life n may c d → may (some i) →
      hw ≤ (d.followers i).hw → Life n may c (d.restartFollower i hw)

/-- A freshly created partition: every replica is empty. -/
def fresh (α : Type) : Cluster α where
  leader := { log := [], leo := 0, hw := 0, infos := fun _ => Info.unknown, broken := false }
  followers := fun _ => { log := [], leo := 0, hw := 0, broken := false }
  seenHw := []
  handlers := []
  syncs := []
  reports := []

/-! ### Lists of batches -/

theorem size_nil : size ([] : List (List α)) = 0 := rfl

theorem size_append (a b : List (List α)) : size (a ++ b) = size a + size b := by
  unfold size; simp

theorem size_nonneg (a : List (List α)) : 0 ≤ size a := by unfold size; omega

theorem size_cons (b : List α) (l : List (List α)) : size (b :: l) = b.length + size l := by
  unfold size; simp

theorem size_prefix {a b : List (List α)} (h : a <+: b) : size a ≤ size b := by
  obtain ⟨t, rfl⟩ := h
  rw [size_append]
  have := size_nonneg t
  omega

theorem eq_nil_of_size {l : List (List α)} (hne : ∀ b ∈ l, b ≠ []) (h : size l = 0) : l = [] := by
  cases l with
  | nil => rfl
  | cons b l =>
    rw [size_cons] at h
    have h1 : b ≠ [] := hne b (by simp)
    have h2 := size_nonneg l
    have h3 : 0 < b.length := List.length_pos_iff.2 h1
    omega

/-- Two prefixes of a log of the same size are equal. -/
theorem prefix_eq {a b l : List (List α)} (hne : ∀ x ∈ l, x ≠ []) (ha : a <+: l) (hb : b <+: l)
    (h : size a = size b) : a = b := by
  have hn : ∀ t : List (List α), t <:+: l → ∀ x ∈ t, x ≠ [] :=
    fun t ht x hx => hne x (ht.mem hx)
  rcases Nat.le_total a.length b.length with hl | hl
  · obtain ⟨t, ht⟩ := List.prefix_of_prefix_length_le ha hb hl
    subst ht
    rw [size_append] at h
    have : t = [] := by
      apply eq_nil_of_size
      · intro x hx
        exact hne x (hb.mem (by simp [hx]))
      · omega
    simp [this]
  · obtain ⟨t, ht⟩ := List.prefix_of_prefix_length_le hb ha hl
    subst ht
    rw [size_append] at h
    have : t = [] := by
      apply eq_nil_of_size
      · intro x hx
        exact hne x (ha.mem (by simp [hx]))
      · omega
    simp [this]

theorem readAt_spec {log : List (List α)} {start o base : Int} {bs : List (List α)}
    (h : readAt log start o = some (base, bs)) :
    ∃ pre, log = pre ++ bs ∧ base = start + size pre := by
  induction log generalizing start with
  | nil => simp [readAt] at h
  | cons b l ih =>
    unfold readAt at h
    split at h
    · injection h with h
      injection h with h1 h2
      subst h1; subst h2
      exact ⟨[], rfl, by simp [size_nil]⟩
    · obtain ⟨pre, h1, h2⟩ := ih h
      refine ⟨b :: pre, by rw [h1]; rfl, ?_⟩
      rw [size_cons, h2]
      omega

/-! ### The invariant -/

/-- `bs` stands in `log` at offset `base`. -/
def At (log : List (List α)) (base : Int) (bs : List (List α)) : Prop :=
  ∃ pre post, log = pre ++ bs ++ post ∧ base = size pre

theorem At.mono {log : List (List α)} {base : Int} {bs : List (List α)} (h : At log base bs)
    (more : List (List α)) : At (log ++ more) base bs := by
  obtain ⟨pre, post, h1, h2⟩ := h
  exact ⟨pre, post ++ more, by rw [h1]; simp, h2⟩

/-- A watermark all replicas have reached. -/
def Held (n : Nat) (c : Cluster α) (hw : Int) : Prop :=
  hw ≤ size c.leader.log ∧ ∀ i, i < n → hw ≤ size (c.followers i).log

/-- What is true in every reachable state; `hw0` is the watermark the leader started with. -/
structure Inv (n : Nat) (hw0 : Int) (c : Cluster α) : Prop where
  nonempty : ∀ b ∈ c.leader.log, b ≠ []
  leoLe : c.leader.leo ≤ size c.leader.log
  hwLeo : c.leader.hw ≤ c.leader.leo
  held : Held n c c.leader.hw
  /-- the watermark is still the initial one, or every follower has reported it -/
  hwFrom : c.leader.hw = hw0 ∨ ∀ i, i < n → c.leader.hw ≤ (c.leader.infos i).leo
  hwGe : hw0 ≤ c.leader.hw
  pref : ∀ i, i < n → (c.followers i).log <+: c.leader.log
  fLe : ∀ i, i < n → (c.followers i).leo ≤ size (c.followers i).log
  fEq : ∀ i, i < n → (c.followers i).broken = false → (c.followers i).leo = size (c.followers i).log
  fHw : ∀ i, i < n → (c.followers i).hw ≤ (c.followers i).leo
  fNonneg : ∀ i, i < n → 0 ≤ (c.followers i).leo
  fHeld : ∀ i, i < n → Held n c (c.followers i).hw
  info : ∀ i, i < n → (c.leader.infos i).leo ≤ size (c.followers i).log ∧
    (c.leader.infos i).leo ≤ c.leader.leo
  seen : ∀ h ∈ c.seenHw, hw0 ≤ h ∧ h ≤ c.leader.hw
  handler : ∀ h ∈ c.handlers, h.follower < n → h.pos.leo ≤ size (c.followers h.follower).log ∧
    h.pos.leo ≤ c.leader.leo ∧ hw0 ≤ h.leaderPos.hw ∧ h.leaderPos.hw ≤ c.leader.hw
  sync : ∀ m ∈ c.syncs, m.to < n ∧ Held n c m.hw ∧ (m.batches ≠ [] → At c.leader.log m.base m.batches)
  report : ∀ r ∈ c.reports, r.2.leo ≤ size (c.followers r.1).log
  /-- positions are ordered -/
  infoHw : ∀ i, i < n → (c.leader.infos i).hw ≤ (c.leader.infos i).leo
  handlerHw : ∀ h ∈ c.handlers, h.pos.hw ≤ h.pos.leo
  reportHw : ∀ r ∈ c.reports, r.2.hw ≤ r.2.leo

theorem inv_fresh (n : Nat) : Inv n 0 (fresh α) := by
  constructor <;> simp [fresh, Held, size_nil, Info.unknown]

/-- Everything a change of the followers must respect. -/
theorem Inv.setFollower {n : Nat} {hw0 : Int} {c : Cluster α} (hi : Inv n hw0 c) (i : Nat)
    (f : Follower α) (hgrow : size (c.followers i).log ≤ size f.log)
    (hpre : i < n → f.log <+: c.leader.log)
    (hle : i < n → f.leo ≤ size f.log) (heq : i < n → f.broken = false → f.leo = size f.log)
    (hhw : i < n → f.hw ≤ f.leo) (hnn : i < n → 0 ≤ f.leo) (hheld : i < n → Held n c f.hw) :
    Inv n hw0 { c with followers := set c.followers i f } := by
  have hmono : ∀ j, size (c.followers j).log ≤ size (set c.followers i f j).log := by
    intro j
    unfold set
    split
    · rename_i h; subst h; exact hgrow
    · exact Int.le_refl _
  have hH : ∀ w, Held n c w → Held n { c with followers := set c.followers i f } w :=
    fun w h => ⟨h.1, fun j hj => Int.le_trans (h.2 j hj) (hmono j)⟩
  constructor
  · exact hi.nonempty
  · exact hi.leoLe
  · exact hi.hwLeo
  · exact hH _ hi.held
  · exact hi.hwFrom
  · exact hi.hwGe
  · intro j hj
    show (set c.followers i f j).log <+: _
    unfold set; split
    · rename_i h; subst h; exact hpre hj
    · exact hi.pref j hj
  · intro j hj
    show (set c.followers i f j).leo ≤ size (set c.followers i f j).log
    unfold set; split
    · rename_i h; subst h; exact hle hj
    · exact hi.fLe j hj
  · intro j hj
    show (set c.followers i f j).broken = false →
      (set c.followers i f j).leo = size (set c.followers i f j).log
    unfold set; split
    · rename_i h; subst h; exact heq hj
    · exact hi.fEq j hj
  · intro j hj
    show (set c.followers i f j).hw ≤ (set c.followers i f j).leo
    unfold set; split
    · rename_i h; subst h; exact hhw hj
    · exact hi.fHw j hj
  · intro j hj
    show 0 ≤ (set c.followers i f j).leo
    unfold set; split
    · rename_i h; subst h; exact hnn hj
    · exact hi.fNonneg j hj
  · intro j hj
    apply hH
    show Held n c (set c.followers i f j).hw
    unfold set; split
    · rename_i h; subst h; exact hheld hj
    · exact hi.fHeld j hj
  · intro j hj
    exact ⟨Int.le_trans (hi.info j hj).1 (hmono j), (hi.info j hj).2⟩
  · exact hi.seen
  · intro h hh hn
    obtain ⟨h1, h2⟩ := hi.handler h hh hn
    exact ⟨Int.le_trans h1 (hmono _), h2⟩
  · intro m hm
    obtain ⟨h0, h1, h2⟩ := hi.sync m hm
    exact ⟨h0, hH _ h1, h2⟩
  · intro r hr
    exact Int.le_trans (hi.report r hr) (hmono _)
  · exact hi.infoHw
  · exact hi.handlerHw
  · exact hi.reportHw

theorem takeHw_log (f : Follower α) (hw : Int) :
    (f.takeHw hw).log = f.log ∧ (f.takeHw hw).leo = f.leo ∧ (f.takeHw hw).broken = f.broken := by
  unfold Follower.takeHw
  repeat' split
  all_goals exact ⟨rfl, rfl, rfl⟩

theorem takeHw_hw (f : Follower α) (hw : Int) :
    (f.takeHw hw).hw = f.hw ∨ ((f.takeHw hw).hw = hw ∧ hw ≤ f.leo ∧ f.hw ≤ hw) := by
  unfold Follower.takeHw
  repeat' split
  · exact .inl rfl
  · exact .inl rfl
  · exact .inr ⟨rfl, by omega, by omega⟩
  · exact .inl rfl

/-- A follower that appends the records of a message stays a prefix of the leader. -/
theorem Inv.append {n : Nat} {hw0 : Int} {c : Cluster α} (hi : Inv n hw0 c) {m : Sync α}
    (hm : m ∈ c.syncs) (hn : m.to < n) (ok : (c.followers m.to).broken = false)
    (hb : m.batches.flatten.length > 0 ∧ m.base = (c.followers m.to).leo) (k : Nat) :
    (c.followers m.to).log ++ m.batches.take k <+: c.leader.log := by
  obtain ⟨_, _, hat⟩ := hi.sync m hm
  have hne : m.batches ≠ [] := by
    intro h; rw [h] at hb; simp at hb
  obtain ⟨pre, post, h1, h2⟩ := hat hne
  have : (c.followers m.to).log = pre := by
    apply prefix_eq hi.nonempty (hi.pref _ hn)
    · rw [h1]; exact ⟨m.batches ++ post, by simp⟩
    · rw [← h2, hb.2, hi.fEq _ hn ok]
  rw [this, h1]
  refine ⟨m.batches.drop k ++ post, ?_⟩
  simp only [List.append_assoc]
  rw [← List.append_assoc (m.batches.take k), List.take_append_drop]

/-- What a merge leaves unchanged. -/
theorem merge_same (n : Nat) (l : Leader α) (h : Handler) (stored : Bool) :
    (l.merge n h stored).log = l.log ∧ (l.merge n h stored).leo = l.leo ∧
      (l.merge n h stored).broken = l.broken := by
  unfold Leader.merge
  dsimp only
  repeat' split
  all_goals exact ⟨rfl, rfl, rfl⟩

/-- A merge raises the reported positions of the known follower only. -/
theorem merge_infos (n : Nat) (l : Leader α) (h : Handler) (stored : Bool) (hn : h.follower < n)
    (i : Nat) : (l.merge n h stored).infos i =
      if i = h.follower then ((l.infos h.follower).update h.pos).1 else l.infos i := by
  unfold Leader.merge
  dsimp only
  rw [if_pos hn]
  repeat' split
  all_goals simp_all

theorem merge_hw (n : Nat) (l : Leader α) (h : Handler) (stored : Bool) (hn : h.follower < n) :
    (l.merge n h stored).hw = l.hw ∨
      computeHw h.leaderPos.hw (n + 1)
        ((List.range n).map (fun i => ((l.merge n h stored).infos i).leo)) =
        some (l.merge n h stored).hw := by
  have hinf := merge_infos n l h stored hn
  have heq : (List.range n).map (fun i => ((l.merge n h stored).infos i).leo) =
      (List.range n).map (fun i => (if i = h.follower then ((l.infos h.follower).update h.pos).1
        else l.infos i).leo) := by
    apply List.map_congr_left
    intro i _
    rw [hinf i]
  rw [heq]
  unfold Leader.merge
  dsimp only
  rw [if_pos hn]
  split
  · split
    · exact .inl rfl
    · split
      · rename_i hw hc
        split
        · exact .inr hc
        · exact .inl rfl
      · exact .inl rfl
  · exact .inl rfl

theorem update_leo (a b : Info) : (a.update b).1.leo = max a.leo b.leo := by
  unfold Info.update
  dsimp only
  split <;> omega

theorem Inv.step {n : Nat} {hw0 : Int} {c d : Cluster α} (hi : Inv n hw0 c) (hs : Step n c d) :
    Inv n hw0 d := by
  cases hs with
  | produce bs hne ok =>
    have hsz : size c.leader.log ≤ size (c.leader.log ++ bs) :=
      size_prefix ⟨bs, rfl⟩
    have hH : ∀ w, Held n c w → Held n { c with leader := c.leader.write n bs } w :=
      fun w h => ⟨Int.le_trans h.1 hsz, h.2⟩
    have hhw : c.leader.hw ≤ (c.leader.write n bs).hw := by
      show _ ≤ if n = 0 then _ else _
      split
      · exact Int.le_trans hi.held.1 hsz
      · exact Int.le_refl _
    constructor
    · intro b hb
      rcases List.mem_append.1 hb with h | h
      · exact hi.nonempty b h
      · exact hne b h
    · exact Int.le_refl _
    · show (if n = 0 then _ else _) ≤ size (c.leader.log ++ bs)
      split
      · exact Int.le_refl _
      · exact Int.le_trans hi.held.1 hsz
    · show Held n _ (if n = 0 then _ else _)
      split
      · rename_i h0
        exact ⟨Int.le_refl _, fun i hn => by omega⟩
      · exact hH _ hi.held
    · show (if n = 0 then _ else _) = hw0 ∨ ∀ i, i < n → (if n = 0 then _ else _) ≤ _
      by_cases h0 : n = 0
      · right; intro i hn; omega
      · simp only [if_neg h0]
        exact hi.hwFrom
    · exact Int.le_trans hi.hwGe hhw
    · intro i hn
      obtain ⟨t, ht⟩ := hi.pref i hn
      exact ⟨t ++ bs, by rw [← List.append_assoc, ht]; rfl⟩
    · exact hi.fLe
    · exact hi.fEq
    · exact hi.fHw
    · exact hi.fNonneg
    · intro i hn; exact hH _ (hi.fHeld i hn)
    · intro i hn
      refine ⟨(hi.info i hn).1, ?_⟩
      show (c.leader.infos i).leo ≤ size (c.leader.log ++ bs)
      have := (hi.info i hn).2
      have := hi.leoLe
      omega
    · intro h hh
      exact ⟨(hi.seen h hh).1, Int.le_trans (hi.seen h hh).2 hhw⟩
    · intro h hh hn
      obtain ⟨h1, h2, h3, h4⟩ := hi.handler h hh hn
      refine ⟨h1, ?_, h3, Int.le_trans h4 hhw⟩
      show _ ≤ size (c.leader.log ++ bs)
      have := hi.leoLe
      omega
    · intro m hm
      obtain ⟨h0, h1, h2⟩ := hi.sync m hm
      exact ⟨h0, hH _ h1, fun h => (h2 h).mono bs⟩
    · exact hi.report
    · exact hi.infoHw
    · exact hi.handlerHw
    · exact hi.reportHw
  | produceFail bs k shut hne ok =>
    have hsz : size c.leader.log ≤ size (c.leader.log ++ bs.take k) :=
      size_prefix ⟨bs.take k, rfl⟩
    have hH : ∀ w, Held n c w → Held n { c with leader := c.leader.writeFail bs k shut } w :=
      fun w h => ⟨Int.le_trans h.1 hsz, h.2⟩
    constructor
    · intro b hb
      rcases List.mem_append.1 hb with h | h
      · exact hi.nonempty b h
      · exact hne b (List.mem_of_mem_take h)
    · exact Int.le_trans hi.leoLe hsz
    · exact hi.hwLeo
    · exact hH _ hi.held
    · exact hi.hwFrom
    · exact hi.hwGe
    · intro i hn
      obtain ⟨t, ht⟩ := hi.pref i hn
      exact ⟨t ++ bs.take k, by rw [← List.append_assoc, ht]; rfl⟩
    · exact hi.fLe
    · exact hi.fEq
    · exact hi.fHw
    · exact hi.fNonneg
    · intro i hn; exact hH _ (hi.fHeld i hn)
    · exact hi.info
    · exact hi.seen
    · exact hi.handler
    · intro m hm
      obtain ⟨h0, h1, h2⟩ := hi.sync m hm
      exact ⟨h0, hH _ h1, fun h => (h2 h).mono _⟩
    · exact hi.report
    · exact hi.infoHw
    · exact hi.handlerHw
    · exact hi.reportHw
  | readHw =>
    refine { hi with seen := ?_ }
    intro h hh
    rcases List.mem_cons.1 hh with rfl | hh
    · exact ⟨hi.hwGe, Int.le_refl _⟩
    · exact hi.seen h hh
  | send i k hw leo m hin hhw hleo hm =>
    refine { hi with sync := ?_ }
    intro m' hm'
    rcases List.mem_cons.1 hm' with rfl | hm'
    · have hw1 : Held n c hw := by
        have := (hi.seen hw hhw).2
        exact ⟨Int.le_trans this hi.held.1, fun j hj => Int.le_trans this (hi.held.2 j hj)⟩
      unfold Leader.updates at hm
      dsimp only at hm
      split at hm
      · split at hm
        · split at hm
          · rename_i base bs hr
            injection hm with hm
            subst hm
            refine ⟨hin, hw1, fun _ => ?_⟩
            obtain ⟨pre, h1, h2⟩ := readAt_spec hr
            refine ⟨pre, bs.drop k, ?_, by rw [h2]; exact Int.zero_add _⟩
            rw [h1, List.append_assoc, List.take_append_drop]
          · injection hm with hm
            subst hm
            exact ⟨hin, hw1, fun h => absurd rfl h⟩
        · injection hm with hm
          subst hm
          exact ⟨hin, hw1, fun h => absurd rfl h⟩
      · cases hm
    · exact hi.sync m' hm'
  | receive m hm ok =>
    obtain ⟨hn, hheld, hat⟩ := hi.sync m hm
    have hfe := hi.fEq _ hn ok
    generalize hf : (c.followers m.to) = f at *
    have hrec : ∀ g : Follower α, size f.log ≤ size g.log → g.log <+: c.leader.log →
        g.leo = size g.log → g.hw = f.hw →
        Inv n hw0 { c with followers := set c.followers m.to (g.takeHw m.hw) } := by
      intro g hg hp he hh
      obtain ⟨t1, t2, t3⟩ := takeHw_log g m.hw
      apply hi.setFollower
      · rw [hf, t1]; exact hg
      · intro _; rw [t1]; exact hp
      · intro _; rw [t1, t2, he]; exact Int.le_refl _
      · intro _ _; rw [t1, t2, he]
      · intro _
        rw [t2]
        rcases takeHw_hw g m.hw with h | ⟨h, h', _⟩
        · rw [h, hh, he]
          have := hi.fHw m.to hn
          rw [hf] at this
          omega
        · rw [h]; exact h'
      · intro _
        rw [t2, he]
        exact size_nonneg _
      · intro _
        rcases takeHw_hw g m.hw with h | ⟨h, _, _⟩
        · rw [h, hh]
          have := hi.fHeld m.to hn
          rwa [hf] at this
        · rw [h]; exact hheld
    unfold Follower.receive
    dsimp only
    by_cases hb : m.batches.flatten.length > 0 ∧ m.base = f.leo
    · rw [if_pos hb]
      have := hi.append hm hn (by rw [hf]; exact ok) (by rw [hf]; exact hb) m.batches.length
      rw [List.take_length, hf] at this
      exact hrec _ (size_prefix ⟨m.batches, rfl⟩) this rfl rfl
    · rw [if_neg hb]
      exact hrec f (Int.le_refl _) (by rw [← hf]; exact hi.pref _ hn) hfe rfl
  | receiveFail m k hm ok =>
    obtain ⟨hn, hheld, hat⟩ := hi.sync m hm
    unfold Follower.receiveFail
    by_cases hb : m.batches.flatten.length > 0 ∧ m.base = (c.followers m.to).leo
    · rw [if_pos hb]
      have hsz : size (c.followers m.to).log ≤ size ((c.followers m.to).log ++ m.batches.take k) :=
        size_prefix ⟨_, rfl⟩
      apply hi.setFollower
      · exact hsz
      · intro _; exact hi.append hm hn ok hb k
      · intro _; exact Int.le_trans (hi.fLe _ hn) hsz
      · intro _ h; cases h
      · intro _; exact hi.fHw _ hn
      · intro _; exact hi.fNonneg _ hn
      · intro _; exact hi.fHeld _ hn
    · rw [if_neg hb]
      apply hi.setFollower
      · exact Int.le_refl _
      · exact hi.pref _
      · exact hi.fLe _
      · exact hi.fEq _
      · exact hi.fHw _
      · exact hi.fNonneg _
      · exact hi.fHeld _
  | report i hin =>
    refine { hi with report := ?_, reportHw := ?_ }
    · intro r hr
      rcases List.mem_cons.1 hr with rfl | hr
      · exact hi.fLe i hin
      · exact hi.report r hr
    · intro r hr
      rcases List.mem_cons.1 hr with rfl | hr
      · exact hi.fHw i hin
      · exact hi.reportHw r hr
  | arrive i pos hw hr hhw hnew =>
    refine { hi with handler := ?_, handlerHw := ?_ }
    rotate_left
    · intro h hh
      rcases List.mem_cons.1 hh with rfl | hh
      · exact hi.reportHw _ hr
      · exact hi.handlerHw h hh
    intro h hh hn
    rcases List.mem_cons.1 hh with rfl | hh
    · refine ⟨hi.report _ hr, ?_, (hi.seen hw hhw).1, (hi.seen hw hhw).2⟩
      unfold Info.newer at hnew
      simp only [Bool.or_eq_false_iff, decide_eq_false_iff_not] at hnew
      show pos.leo ≤ c.leader.leo
      omega
    · exact hi.handler h hh hn
  | locked h hh stored =>
    by_cases hn : h.follower < n
    · obtain ⟨m1, m2, m3⟩ := merge_same n c.leader h stored
      have hinf := merge_infos n c.leader h stored hn
      obtain ⟨a1, a2, a3, a4⟩ := hi.handler h hh hn
      have hleo : ∀ i, i < n → ((c.leader.merge n h stored).infos i).leo ≤
          size (c.followers i).log ∧ ((c.leader.merge n h stored).infos i).leo ≤ c.leader.leo ∧
          (c.leader.infos i).leo ≤ ((c.leader.merge n h stored).infos i).leo := by
        intro i hin
        rw [hinf i]
        obtain ⟨b1, b2⟩ := hi.info i hin
        split
        · rename_i he
          subst he
          rw [update_leo]
          omega
        · exact ⟨b1, b2, Int.le_refl _⟩
      have hnew : c.leader.hw ≤ (c.leader.merge n h stored).hw ∧
          ((c.leader.merge n h stored).hw = c.leader.hw ∨
            (∀ i, i < n → (c.leader.merge n h stored).hw ≤
              ((c.leader.merge n h stored).infos i).leo)) := by
        rcases merge_hw n c.leader h stored hn with he | he
        · rw [he]; exact ⟨Int.le_refl _, .inl rfl⟩
        · have hlen : ((List.range n).map
              (fun i => ((c.leader.merge n h stored).infos i).leo)).length + 1 = n + 1 := by simp
          rw [← hlen] at he
          obtain ⟨e1, e2⟩ := computeHw_all he
          have e2' : ∀ i, i < n → (c.leader.merge n h stored).hw ≤
              ((c.leader.merge n h stored).infos i).leo := by
            intro i hin
            apply e2
            exact List.mem_map.2 ⟨i, List.mem_range.2 hin, rfl⟩
          refine ⟨?_, .inr e2'⟩
          rcases hi.hwFrom with hw | hw
          · omega
          · apply computeHw_all_ge he
            intro l hl
            obtain ⟨i, hin, rfl⟩ := List.mem_map.1 hl
            have hin := List.mem_range.1 hin
            exact Int.le_trans (hw i hin) (hleo i hin).2.2
      have hheld : Held n c (c.leader.merge n h stored).hw := by
        rcases hnew.2 with he | he
        · rw [he]; exact hi.held
        · refine ⟨?_, fun i hin => Int.le_trans (he i hin) (hleo i hin).1⟩
          have e1 := he h.follower hn
          have e2 := (hleo h.follower hn).2.1
          have e3 := hi.leoLe
          omega
      have hH : ∀ w, Held n c w →
          Held n { c with leader := c.leader.merge n h stored } w := by
        intro w hw
        refine ⟨?_, hw.2⟩
        show w ≤ size (c.leader.merge n h stored).log
        rw [m1]; exact hw.1
      constructor
      · show ∀ b ∈ (c.leader.merge n h stored).log, _
        rw [m1]; exact hi.nonempty
      · show (c.leader.merge n h stored).leo ≤ size (c.leader.merge n h stored).log
        rw [m1, m2]; exact hi.leoLe
      · show (c.leader.merge n h stored).hw ≤ (c.leader.merge n h stored).leo
        rw [m2]
        rcases hnew.2 with he | he
        · rw [he]; exact hi.hwLeo
        · exact Int.le_trans (he _ hn) (hleo _ hn).2.1
      · exact hH _ hheld
      · show (c.leader.merge n h stored).hw = hw0 ∨ _
        rcases hnew.2 with he | he
        · rcases hi.hwFrom with hw | hw
          · exact .inl (he.trans hw)
          · right
            intro i hin
            show (c.leader.merge n h stored).hw ≤ _
            rw [he]
            exact Int.le_trans (hw i hin) (hleo i hin).2.2
        · exact .inr he
      · exact Int.le_trans hi.hwGe hnew.1
      · intro i hin
        show _ <+: (c.leader.merge n h stored).log
        rw [m1]; exact hi.pref i hin
      · exact hi.fLe
      · exact hi.fEq
      · exact hi.fHw
      · exact hi.fNonneg
      · intro i hin; exact hH _ (hi.fHeld i hin)
      · intro i hin
        show _ ∧ ((c.leader.merge n h stored).infos i).leo ≤ (c.leader.merge n h stored).leo
        rw [m2]
        exact ⟨(hleo i hin).1, (hleo i hin).2.1⟩
      · intro x hx
        exact ⟨(hi.seen x hx).1, Int.le_trans (hi.seen x hx).2 hnew.1⟩
      · intro x hx hxn
        obtain ⟨x1, x2, x3, x4⟩ := hi.handler x hx hxn
        refine ⟨x1, ?_, x3, Int.le_trans x4 hnew.1⟩
        show _ ≤ (c.leader.merge n h stored).leo
        rw [m2]; exact x2
      · intro m hm
        obtain ⟨h0, h1, h2⟩ := hi.sync m hm
        refine ⟨h0, hH _ h1, fun hb => ?_⟩
        show At (c.leader.merge n h stored).log _ _
        rw [m1]; exact h2 hb
      · exact hi.report
      · intro i hin
        show ((c.leader.merge n h stored).infos i).hw ≤ ((c.leader.merge n h stored).infos i).leo
        rw [hinf i]
        split
        · have p1 := hi.infoHw h.follower hn
          have p2 := hi.handlerHw h hh
          unfold Info.update
          dsimp only
          split <;> split <;> omega
        · exact hi.infoHw i hin
      · exact hi.handlerHw
      · exact hi.reportHw
    · have : c.leader.merge n h stored = c.leader := by
        unfold Leader.merge; rw [if_neg hn]
      rw [this]
      exact hi

theorem Inv.restartFollower {n : Nat} {hw0 : Int} {c : Cluster α} (hi : Inv n hw0 c) (i : Nat)
    (hw : Int) (hhw : hw ≤ (c.followers i).hw) : Inv n hw0 (c.restartFollower i hw) := by
  apply hi.setFollower
  · exact Int.le_refl _
  · exact hi.pref i
  · intro _; exact Int.le_refl _
  · intro _ _; rfl
  · intro hn
    have h1 := hi.fHw i hn
    have h2 := hi.fLe i hn
    show hw ≤ size (c.followers i).log
    omega
  · intro _; exact size_nonneg _
  · intro hn
    obtain ⟨h1, h2⟩ := hi.fHeld i hn
    exact ⟨Int.le_trans hhw h1, fun j hj => Int.le_trans hhw (h2 j hj)⟩

theorem Inv.restartLeader {n : Nat} {hw0 : Int} {c : Cluster α} (hi : Inv n hw0 c) (hw : Int)
    (hhw : hw ≤ c.leader.hw) : Inv n hw (c.restartLeader hw) := by
  have hH : ∀ w, Held n c w → Held n (c.restartLeader hw) w := fun w h => h
  constructor
  · exact hi.nonempty
  · exact Int.le_refl _
  · exact Int.le_trans hhw hi.held.1
  · exact ⟨Int.le_trans hhw hi.held.1, fun j hj => Int.le_trans hhw (hi.held.2 j hj)⟩
  · exact .inl rfl
  · exact Int.le_refl _
  · exact hi.pref
  · exact hi.fLe
  · exact hi.fEq
  · exact hi.fHw
  · exact hi.fNonneg
  · exact hi.fHeld
  · intro i _
    have h1 := size_nonneg (c.followers i).log
    have h2 := size_nonneg c.leader.log
    constructor
    · show (-1 : Int) ≤ size (c.followers i).log
      omega
    · show (-1 : Int) ≤ size c.leader.log
      omega
  · intro h hh; cases hh
  · intro h hh; cases hh
  · exact hi.sync
  · exact hi.report
  · intro i _; exact Int.le_refl _
  · intro h hh; cases hh
  · exact hi.reportHw

theorem Inv.life {n : Nat} {may : Option Nat → Prop} {hw0 : Int} {c d : Cluster α}
    (hi : Inv n hw0 c) (hr : Life n may c d) : ∃ hw1, Inv n hw1 d := by
  induction hr with
  | refl => exact ⟨hw0, hi⟩
  | step _ hs ih => obtain ⟨w, h⟩ := ih; exact ⟨w, h.step hs⟩
  | restartLeader hw _ _ hle ih => obtain ⟨w, h⟩ := ih; exact ⟨hw, h.restartLeader hw hle⟩
  | restartFollower i hw _ _ hle ih => obtain ⟨w, h⟩ := ih; exact ⟨w, h.restartFollower i hw hle⟩

/-! ### What single steps change -/

/-- Logs only grow. -/
theorem step_logs {n : Nat} {c d : Cluster α} (hs : Step n c d) :
    c.leader.log <+: d.leader.log ∧ ∀ i, (c.followers i).log <+: (d.followers i).log := by
  have hset : ∀ (i : Nat) (f : Follower α), (c.followers i).log <+: f.log →
      ∀ j, (c.followers j).log <+: (set c.followers i f j).log := by
    intro i f h j
    unfold set
    split
    · rename_i e; subst e; exact h
    · exact List.prefix_rfl
  cases hs with
  | produce bs hne ok => exact ⟨⟨bs, rfl⟩, fun i => List.prefix_rfl⟩
  | produceFail bs k shut hne ok => exact ⟨⟨bs.take k, rfl⟩, fun i => List.prefix_rfl⟩
  | readHw => exact ⟨List.prefix_rfl, fun i => List.prefix_rfl⟩
  | send i k hw leo m hin hhw hleo hm => exact ⟨List.prefix_rfl, fun i => List.prefix_rfl⟩
  | receive m hm ok =>
    refine ⟨List.prefix_rfl, hset _ _ ?_⟩
    unfold Follower.receive
    dsimp only
    rw [(takeHw_log _ _).1]
    split
    · exact ⟨_, rfl⟩
    · exact List.prefix_rfl
  | receiveFail m k hm ok =>
    refine ⟨List.prefix_rfl, hset _ _ ?_⟩
    unfold Follower.receiveFail
    split
    · exact ⟨_, rfl⟩
    · exact List.prefix_rfl
  | report i hin => exact ⟨List.prefix_rfl, fun i => List.prefix_rfl⟩
  | arrive i pos hw hr hhw hnew => exact ⟨List.prefix_rfl, fun i => List.prefix_rfl⟩
  | locked h hh stored =>
    refine ⟨?_, fun i => List.prefix_rfl⟩
    show _ <+: (c.leader.merge n h stored).log
    rw [(merge_same n c.leader h stored).1]
    exact List.prefix_rfl

theorem life_logs {n : Nat} {may : Option Nat → Prop} {c d : Cluster α} (hr : Life n may c d) :
    c.leader.log <+: d.leader.log ∧ ∀ i, (c.followers i).log <+: (d.followers i).log := by
  induction hr with
  | refl => exact ⟨List.prefix_rfl, fun i => List.prefix_rfl⟩
  | step _ hs ih =>
    have := step_logs hs
    exact ⟨ih.1.trans this.1, fun i => (ih.2 i).trans (this.2 i)⟩
  | restartLeader hw _ _ hle ih => exact ih
  | restartFollower i hw _ _ hle ih =>
    refine ⟨ih.1, fun j => ?_⟩
    show _ <+: (set _ i _ j).log
    unfold set
    split
    · rename_i e; subst e; exact ih.2 _
    · exact ih.2 j

/-- The watermark of a running leader does not go back. -/
theorem Inv.step_hw {n : Nat} {hw0 : Int} {c d : Cluster α} (hi : Inv n hw0 c) (hs : Step n c d) :
    c.leader.hw ≤ d.leader.hw := by
  -- reading the watermark before the step leaves a value that the invariant bounds afterwards
  have h1 : Inv n hw0 { c with seenHw := c.leader.hw :: c.seenHw } := hi.step (.readHw c)
  cases hs with
  | produce bs hne ok =>
    have h2 := h1.step (.produce { c with seenHw := c.leader.hw :: c.seenHw } bs hne ok)
    exact (h2.seen c.leader.hw (List.mem_cons_self ..)).2
  | produceFail bs k shut hne ok => exact Int.le_refl _
  | readHw => exact Int.le_refl _
  | send i k hw leo m hin hhw hleo hm => exact Int.le_refl _
  | receive m hm ok => exact Int.le_refl _
  | receiveFail m k hm ok => exact Int.le_refl _
  | report i hin => exact Int.le_refl _
  | arrive i pos hw hr hhw hnew => exact Int.le_refl _
  | locked h hh stored =>
    have h2 := h1.step (.locked { c with seenHw := c.leader.hw :: c.seenHw } h hh stored)
    exact (h2.seen c.leader.hw (List.mem_cons_self ..)).2

/-- The watermark of a running follower does not go back. -/
theorem step_follower_hw {n : Nat} {c d : Cluster α} (hs : Step n c d) (i : Nat) :
    (c.followers i).hw ≤ (d.followers i).hw := by
  cases hs with
  | receive m hm ok =>
    show _ ≤ (set _ _ _ i).hw
    unfold set
    split
    · rename_i e
      subst e
      unfold Follower.receive
      dsimp only
      have key : ∀ f' : Follower α, f'.hw = (c.followers m.to).hw →
          (c.followers m.to).hw ≤ (f'.takeHw m.hw).hw := by
        intro f' h0
        rcases takeHw_hw f' m.hw with h | ⟨h, _, h'⟩
        · rw [h, h0]; exact Int.le_refl _
        · rw [h]; omega
      split
      · exact key _ rfl
      · exact key _ rfl
    · exact Int.le_refl _
  | receiveFail m k hm ok =>
    show _ ≤ (set _ _ _ i).hw
    unfold set
    split
    · rename_i e
      subst e
      unfold Follower.receiveFail
      split <;> exact Int.le_refl _
    · exact Int.le_refl _
  | _ => exact Int.le_refl _

end Verif.Replication
