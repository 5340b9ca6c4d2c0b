import Verif.Replication.ProgressEnd
import Verif.Replication.ProgressStuck

/-
C92: followers that stay connected catch up with their leader, and everything is committed.

`Quiet` are the steps that the brokers take by themselves, in any order; `Outside` are producers, retention, followers
that connect and disconnect, and timers.  A `Run` mixes them.  `Settled` means that the brokers have nothing left to
do; `CaughtUp` that a follower has the log and the watermark of the leader (all in `Verif.Replication.Progress`).
-/

namespace Verif.Props
open Verif.Replication Verif.Replication.Progress

variable {α : Type}

namespace C92

/-- A leader with three batches, one of them committed; follower 0 has two of them, follower 1 none. -/
def sys : Sys Nat where
  leader := { log := [[1], [2, 3], [4]], leo := 4, hw := 1, infos := fun _ => Info.unknown, broken := false }
  start := 0
  followers := fun i =>
    if i = 0 then { log := [[1], [2, 3]], leo := 3, hw := 1, broken := false }
    else { log := [], leo := 0, hw := 0, broken := false }
  up := fun _ => false
  pending := fun _ => false
  tasks := []
  syncs := fun _ => []
  reports := fun _ => []

/-- Both followers connected. -/
def both : Sys Nat :=
  let s := { sys with up := put sys.up 0 true, reports := put sys.reports 0 [sys.fpos 0] }
  { s with up := put s.up 1 true, reports := put s.reports 1 [s.fpos 1] }

def small : List Nat → Bool := fun b => decide (b.length > 10)

theorem start : Start 2 sys where
  batches := by decide
  leo := by decide
  hw := by decide
  alone := by decide
  unknown := fun _ => rfl
  pref := by
    intro i hi
    match i, hi with
    | 0, _ => exact ⟨[[4]], rfl⟩
    | 1, _ => exact ⟨[[1], [2, 3], [4]], rfl⟩
  fleo := by decide
  fhw := by decide
  stored := by decide
  idle := ⟨rfl, fun _ => rfl, fun _ => rfl, fun _ => rfl, fun _ => rfl⟩

theorem run : Run 2 small sys both :=
  .outside (.outside (.refl _) (.connect sys 0 (by decide) rfl)) (.connect _ 1 (by decide) rfl)

end C92

/-- **The brokers come to rest.**  After any run, as long as nothing happens from outside, the brokers take only
finitely many steps, in whatever order. -/
theorem C92_settles {n : Nat} {big : List α → Bool} {s t : Sys α} (h0 : Start n s) (hr : Run n big s t)
    (hbig : ∀ b ∈ t.leader.log, big b = false) (f : Nat → Sys α) (hf : f 0 = t) :
    ¬ ∀ k, Quiet n big (f k) (f (k + 1)) :=
  (PInv.run h0 hr hbig).ends hbig f hf

example (f : Nat → Sys Nat) (hf : f 0 = C92.both) : ¬ ∀ k, Quiet 2 C92.small (f k) (f (k + 1)) :=
  C92_settles C92.start C92.run (by decide) f hf

/-- There is a state in which nothing is left to do. -/
theorem C92_reaches {n : Nat} {big : List α → Bool} {s t : Sys α} (h0 : Start n s) (hr : Run n big s t)
    (hbig : ∀ b ∈ t.leader.log, big b = false) : ∃ u, Quiets n big t u ∧ Settled n big u :=
  (PInv.run h0 hr hbig).reaches hbig

/-- On the way no records are lost at the leader and no follower disconnects. -/
theorem C92_keeps {n : Nat} {big : List α → Bool} {t u : Sys α} (h : Quiets n big t u) :
    u.leader.log = t.leader.log ∧ u.leader.leo = t.leader.leo ∧ u.up = t.up := by
  induction h with
  | refl => exact ⟨rfl, rfl, rfl⟩
  | step _ hq ih =>
    refine ⟨hq.log.trans ih.1, hq.leo.trans ih.2.1, Eq.trans ?_ ih.2.2⟩
    cases hq with
    | merge pre post i r p ht => split <;> rfl
    | _ => rfl

/-- **Whoever is connected has caught up.**  When nothing is left to do, every connected follower has the log and the
watermark of the leader.

Partial: as long as no batch is larger than what fits into a message (`C92_violated_big`), retention leaves what the
followers need (`C92_violated_retention`, excluded in `Outside.trim`), and the ends of connections are noticed
(`C92_violated_stolen`). -/
theorem C92_caught_up_partial {n : Nat} {big : List α → Bool} {s t : Sys α} (h0 : Start n s) (hr : Run n big s t)
    (hbig : ∀ b ∈ t.leader.log, big b = false) (hs : Settled n big t) {i : Nat} (hu : t.up i = true) : CaughtUp t i :=
  (PInv.run h0 hr hbig).caughtUp hs hu

/-- **Everything is committed.**  When all followers are connected and nothing is left to do, the watermark is at the
end of the log, at the leader and at all followers. -/
theorem C92_committed_partial {n : Nat} {big : List α → Bool} {s t : Sys α} (h0 : Start n s) (hr : Run n big s t)
    (hbig : ∀ b ∈ t.leader.log, big b = false) (hs : Settled n big t) (hu : ∀ i, i < n → t.up i = true) :
    t.leader.hw = size t.leader.log ∧ ∀ i, i < n → (t.followers i).log = t.leader.log ∧
      (t.followers i).hw = size t.leader.log := by
  have hi := PInv.run h0 hr hbig
  have h1 := hi.committed hs hu
  rw [hi.core.leoEq] at h1
  refine ⟨h1, fun i hin => ?_⟩
  have h2 := hi.caughtUp hs (hu i hin)
  exact ⟨h2.1, h2.2.1.trans h1⟩

-- both followers of the example get everything, and all of it is committed
example : ∃ u, Quiets 2 C92.small C92.both u ∧ Settled 2 C92.small u ∧ u.leader.hw = 4 ∧
    (u.followers 0).log = [[1], [2, 3], [4]] ∧ (u.followers 1).log = [[1], [2, 3], [4]] ∧ (u.followers 1).hw = 4 := by
  obtain ⟨u, h1, h2⟩ := C92_reaches C92.start C92.run (by decide)
  obtain ⟨k1, _, k3⟩ := C92_keeps h1
  have hl : u.leader.log = [[1], [2, 3], [4]] := k1
  have hb : ∀ b ∈ u.leader.log, C92.small b = false := by rw [hl]; decide
  have hu : ∀ i, i < 2 → u.up i = true := by
    intro i hi
    rw [k3]
    match i, hi with
    | 0, _ => rfl
    | 1, _ => rfl
  obtain ⟨c1, c2⟩ := C92_committed_partial C92.start (C92.run.quiets h1) hb h2 hu
  rw [hl] at c1 c2
  exact ⟨u, h1, h2, c1, (c2 0 (by decide)).1, (c2 1 (by decide)).1, (c2 1 (by decide)).2⟩

/-! ### What stops it -/

namespace C92

/-- One follower, with nothing; the leader has two batches. -/
def one : Sys Nat where
  leader := { log := [[1], [2]], leo := 2, hw := 0, infos := fun _ => Info.unknown, broken := false }
  start := 0
  followers := fun _ => { log := [], leo := 0, hw := 0, broken := false }
  up := fun _ => false
  pending := fun _ => false
  tasks := []
  syncs := fun _ => []
  reports := fun _ => []

theorem oneStart : Start 1 one where
  batches := by decide
  leo := by decide
  hw := by decide
  alone := by decide
  unknown := fun _ => rfl
  pref := fun _ _ => ⟨[[1], [2]], rfl⟩
  fleo := by decide
  fhw := by decide
  stored := by decide
  idle := ⟨rfl, fun _ => rfl, fun _ => rfl, fun _ => rfl, fun _ => rfl⟩

end C92

/-- **A follower that needs records which retention removed never catches up.**  Retention does not look at the
followers (C16, C17).  A read below the first stored offset fails, the leader sends the error code with the watermark
(replica_state.rs:283-286), and the follower does not look at it (follower/controller.rs:258-290).  So whatever happens
afterwards — producing, reconnecting, timers — the follower keeps the log it has. -/
theorem C92_violated_retention : ∃ s t : Sys Nat, Start 1 s ∧ Mishap s t ∧
    ∀ (big : List Nat → Bool) (u : Sys Nat), Run 1 big t u → (u.followers 0).log = [] ∧ ¬ CaughtUp u 0 := by
  refine ⟨C92.one, _, C92.oneStart, .trim C92.one 1 (by decide) (by decide), ?_⟩
  intro big u hr
  have hst : Stuck 0 { C92.one with start := 1 } := by
    refine ⟨by decide, by decide, ?_, ?_, ?_⟩
    · exact fun _ h => absurd h List.not_mem_nil
    · exact fun _ h => absurd h List.not_mem_nil
    · exact fun _ h => absurd h List.not_mem_nil
  have h1 : (u.followers 0).log = [] := (hst.run hr).2
  refine ⟨h1, fun hc => ?_⟩
  have hpre : [[1], [2]] <+: u.leader.log := by
    clear h1 hc hst
    induction hr with
    | refl => exact List.prefix_rfl
    | quiet _ hq ih => rw [hq.log]; exact ih
    | outside _ ho ih => exact ih.trans ho.log
  rw [← hc.1, h1] at hpre
  exact absurd hpre (by decide)

namespace C92

/-- The follower has connected, its position is known, and an update is pending. -/
theorem waiting (big : List Nat → Bool) : ∃ w : Sys Nat, Run 1 big one w ∧ w.tasks = [] ∧ (∀ i, w.syncs i = []) ∧
    (∀ i, w.reports i = []) ∧ w.pending 0 = true ∧ (∀ i, i ≠ 0 → w.pending i = false) ∧ w.up 0 = true ∧
    w.leader.infos 0 = ⟨0, 0⟩ ∧ w.leader.log = [[1], [2]] ∧ w.leader.leo = 2 ∧ w.leader.hw = 0 ∧ w.start = 0 ∧
    w.followers 0 = { log := [], leo := 0, hw := 0, broken := false } := by
  have r1 := Run.outside (big := big) (.refl one) (.connect (n := 1) one 0 (by decide) rfl)
  have r2 := r1.quiet (.take _ 0 [] [] _ rfl)
  have r3 := r2.quiet (.readHw _ [] [] _ rfl)
  have r4 := r3.quiet (.readLeo _ [] [] _ _ rfl)
  have r5 := r4.quiet (.merge _ [] [] _ _ _ rfl)
  rw [if_neg (by decide)] at r5
  have r6 := r5.quiet (.readHw _ [] [] _ rfl)
  have r7 := r6.quiet (.readLeo _ [] [] _ _ rfl)
  have r8 := r7.quiet (.notify _ [] [] _ rfl)
  refine ⟨_, r8, rfl, fun _ => rfl, ?_, by decide, ?_, rfl, by decide, by decide, by decide, by decide, rfl, rfl⟩
  · intro i
    show put (put one.reports 0 _) 0 [] i = []
    by_cases hi : i = 0
    · subst hi; rfl
    · rw [put_ne _ _ hi, put_ne _ _ hi]; rfl
  · intro i hi
    have : ¬ i < 1 := by omega
    simp [this, one]

end C92

/-- **Updates taken by an older connection are lost.**  All connections of a follower share the pending updates
(leader/spu.rs:37-40).  One whose end the leader has not noticed takes them too and writes them to nobody; the
follower waits until its timer fires (`C92_caught_up_partial` applies again then). -/
theorem C92_violated_stolen : ∃ (big : List Nat → Bool) (s t u : Sys Nat), Start 1 s ∧ Run 1 big s t ∧ Mishap t u ∧
    Settled 1 big u ∧ u.up 0 = true ∧ ¬ CaughtUp u 0 ∧ u.leader.hw = 0 ∧ u.leader.leo = 2 := by
  obtain ⟨w, hr, h1, h2, h3, h4, h5, h6, h7, h8, h9, h10, h11, h12⟩ := C92.waiting C92.small
  refine ⟨C92.small, C92.one, w, _, C92.oneStart, hr, .stolen w 0, ?_, h6, ?_, h10, h9⟩
  · refine settled_of h1 ?_ h2 h3
    intro i
    show put w.pending 0 false i = false
    by_cases hi : i = 0
    · subst hi; exact put_same _ _ _
    · exact (put_ne _ _ hi).trans (h5 i hi)
  · intro hc
    have : (w.followers 0).log = w.leader.log := hc.1
    rw [h8, h12] at this
    cases this

/-- **A batch larger than a message stops replication.**  If the first batch a follower needs is larger than
`peer_max_bytes` (configurable, connection.rs:47), the message carries no records; the follower has nothing to report,
and nothing is committed. -/
theorem C92_violated_big : ∃ (big : List Nat → Bool) (s u : Sys Nat), Start 1 s ∧ Run 1 big s u ∧ Settled 1 big u ∧
    u.up 0 = true ∧ ¬ CaughtUp u 0 ∧ u.leader.hw = 0 ∧ u.leader.leo = 2 := by
  obtain ⟨w, hr, h1, h2, h3, h4, h5, h6, h7, h8, h9, h10, h11, h12⟩ := C92.waiting (fun _ => true)
  have r1 := hr.quiet (.drain w 0 (by decide) h6 h4)
  rw [h1] at r1
  have r2 := r1.quiet (.readHw _ [] [] _ rfl)
  have r3 := r2.quiet (.readLeo _ [] [] _ _ rfl)
  have hcut : Cut (fun _ : List Nat => true) w.leader.log (w.leader.infos 0).leo 0 := by
    rw [h8, h7]
    simp [Cut, readAt]
  have r4 := r3.quiet (.send _ [] [] _ _ 0 rfl hcut)
  have hm : Sys.message { w with pending := put w.pending 0 false, tasks := [⟨.send 0, .both ⟨w.leader.hw, w.leader.leo⟩⟩] }
      0 ⟨w.leader.hw, w.leader.leo⟩ 0 = some ⟨0, 0, [], 0⟩ := by
    simp only [Sys.message, Leader.updates, h7, h8, h9, h10, h11]
    rfl
  have r5 := r4.quiet (.receive _ 0 [] [] ⟨0, 0, [], 0⟩ (by
    dsimp only [List.nil_append]
    rw [hm]
    dsimp only
    rw [put_same, h2]))
  refine ⟨_, C92.one, _, C92.oneStart, r5, settled_of rfl ?_ ?_ ?_, h6, ?_, h10, h9⟩
  · intro i
    show put w.pending 0 false i = false
    by_cases hi : i = 0
    · subst hi; exact put_same _ _ _
    · exact (put_ne _ _ hi).trans (h5 i hi)
  · intro i
    dsimp only [List.nil_append]
    rw [hm]
    dsimp only
    by_cases hi : i = 0
    · subst hi; rw [put_same]
    · rw [put_ne _ _ hi, put_ne _ _ hi, h2]
  · intro i
    dsimp only [List.nil_append]
    rw [h12]
    rw [if_neg (by decide)]
    exact h3 i
  · intro hc
    have h13 := hc.1
    dsimp only at h13
    rw [put_same, h12, h8] at h13
    exact absurd h13 (by decide)

end Verif.Props
