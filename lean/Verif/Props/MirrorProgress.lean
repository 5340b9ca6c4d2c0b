import Verif.Mirror.ProgressEnd
import Verif.Mirror.ProgressStuck

/-
C94: a mirror that stays connected catches up with its source.

`Quiet` are the steps that the clusters take by themselves, including to connect; `Outside` are producers, retention,
timers, restarts and broken connections.  A `Run` mixes them.  `Settled` means that nothing is left to do (all in
`Verif.Mirror.Progress`).
-/

namespace Verif.Props
open Verif.Replication Verif.Mirror Verif.Mirror.Progress

variable {α : Type}

namespace C94

/-- A source with three batches, whose target has one of them. -/
def sys : Sys Nat where
  source := { log := [[1], [2, 3], [4]], start := 0, leo := 4, hw := 4, broken := false }
  target := { log := [[1]], leo := 1, broken := false }
  heard := 0
  up := false
  known := -1
  needed := false
  seen := none
  syncs := []
  reports := []

def small : List Nat → Bool := fun b => decide (b.length > 10)

theorem start : Start sys where
  batches := by decide
  source := by decide
  target := by decide
  pref := ⟨[[2, 3], [4]], rfl⟩
  stored := by decide
  idle := ⟨rfl, rfl, rfl, rfl, rfl, rfl, rfl⟩

/-- The source has received one more batch, and the target has restarted without its records. -/
def later : Sys Nat :=
  { sys with
    source := { log := [[1], [2, 3], [4], [5]], start := 0, leo := 5, hw := 4, broken := false }
    target := { log := [], leo := 0, broken := false } }

theorem run (keep : Bool) : Run keep small sys later :=
  .outside (.outside (.refl _) (.produce sys [[5]] (by decide))) (.lose _ 0 (by decide))

end C94

/-- **Mirroring comes to rest.**  After any run, as long as nothing happens from outside, the clusters take only
finitely many steps. -/
theorem C94_settles {keep : Bool} {big : List α → Bool} {s t : Sys α} (h0 : Start s) (hr : Run keep big s t)
    (hbig : ∀ b ∈ t.source.log, big b = false) (f : Nat → Sys α) (hf : f 0 = t) :
    ¬ ∀ k, Quiet keep big (f k) (f (k + 1)) :=
  ((MInv.start h0).run hr).ends hbig f hf

example (f : Nat → Sys Nat) (hf : f 0 = C94.later) : ¬ ∀ k, Quiet true C94.small (f k) (f (k + 1)) :=
  C94_settles C94.start (C94.run true) (by decide) f hf

/-- There is a state in which nothing is left to do. -/
theorem C94_reaches {keep : Bool} {big : List α → Bool} {s t : Sys α} (h0 : Start s) (hr : Run keep big s t)
    (hbig : ∀ b ∈ t.source.log, big b = false) : ∃ u, Quiets keep big t u ∧ Settled keep big u :=
  ((MInv.start h0).run hr).reaches hbig

/-- On the way the source's log stays as it is, and the target loses nothing. -/
theorem C94_keeps {keep : Bool} {big : List α → Bool} {t u : Sys α} (h : Quiets keep big t u) :
    u.source = t.source ∧ t.target.log <+: u.target.log := by
  induction h with
  | refl => exact ⟨rfl, List.prefix_refl _⟩
  | step _ hq ih =>
    refine ⟨hq.source.trans ih.1, ih.2.trans ?_⟩
    cases hq with
    | update hu hw r rest hr => split <;> exact List.prefix_refl _
    | send hu l hs k hk => split <;> exact List.prefix_refl _
    | receive hu m rest hm =>
      split
      · exact ⟨m.batches, rfl⟩
      · exact List.prefix_refl _
    | _ => exact List.prefix_refl _

/-- **The target has caught up.**  When nothing is left to do, the clusters are connected and the target has exactly
the source's log.

Partial: as long as no batch is larger than what fits into a message (`C94_violated_big`), retention leaves what the
target needs (`C94_violated_retention`, excluded in `Outside.trim`), and the source loses no records
(`C94_violated_ahead`). -/
theorem C94_caught_up_partial {keep : Bool} {big : List α → Bool} {s t : Sys α} (h0 : Start s) (hr : Run keep big s t)
    (hs : Settled keep big t) : t.up = true ∧ t.target.log = t.source.log ∧ t.target.leo = t.source.leo := by
  have hi := (MInv.start h0).run hr
  obtain ⟨h1, h2⟩ := hi.settled hs
  exact ⟨h1, h2, by rw [hi.tleo, hi.sleo, h2]⟩

-- the target of the example gets everything, whichever cluster is the source
example (keep : Bool) : ∃ u, Quiets keep C94.small C94.later u ∧ Settled keep C94.small u ∧
    u.target.log = [[1], [2, 3], [4], [5]] ∧ u.target.leo = 5 := by
  obtain ⟨u, h1, h2⟩ := C94_reaches C94.start (C94.run keep) (by decide)
  obtain ⟨k1, _⟩ := C94_keeps h1
  obtain ⟨_, c2, c3⟩ := C94_caught_up_partial C94.start ((C94.run keep).quiets h1) h2
  rw [k1] at c2 c3
  exact ⟨u, h1, h2, c2, c3⟩

/-! ### What stops it -/

/-- **Violation.**  Retention at the source, which does not look at the target, has removed records the target does not
have yet: the clusters connect, the target reports its end, reading fails, the connection ends, and so on.  The target
never gets any more records. -/
theorem C94_violated_retention {keep : Bool} {big : List α → Bool} {s : Sys α} {start : Int} (h0 : Start s)
    (h1 : s.target.leo < start) (h2 : start ≤ s.source.leo) :
    ∀ t, Quiets keep big { s with source := { s.source with start := start } } t →
      t.target = s.target ∧ ∃ u, Quiet keep big t u := by
  intro t ht
  obtain ⟨i1, i2, i3, i4, i5, i6, i7⟩ := h0.idle
  have hc : Cut { s.source with start := start } s.target { s with source := { s.source with start := start } } := {
    isSrc := rfl, isTgt := rfl
    pos := by rw [h0.target]; exact size_nonneg _
    bad := .inl ⟨h1, by show _ < s.source.leo; omega⟩
    known := .inl i3
    seen := fun l hl => by rw [show s.seen = some l from hl] at i5; cases i5
    reps := fun r hr => by rw [show s.reports = [] from i7] at hr; cases hr
    sync := i6
    going := fun hu => by rw [show s.up = true from hu] at i1; cases i1 }
  exact ⟨(hc.quiets ht).isTgt, (hc.quiets ht).next⟩

example : ∀ t, Quiets true C94.small { C94.sys with source := { C94.sys.source with start := 3 } } t →
    t.target.log = [[1]] ∧ ∃ u, Quiet true C94.small t u := fun t ht => by
  obtain ⟨h1, h2⟩ := C94_violated_retention C94.start (by decide) (by decide) t ht
  exact ⟨by rw [h1]; rfl, h2⟩

/-- **Violation.**  The source has lost records the target already has, as after a fail-over to a broker whose log is
shorter: the clusters connect and disconnect for ever. -/
theorem C94_violated_ahead {keep : Bool} {big : List α → Bool} {s : Sys α} {log : List (List α)} (h0 : Start s)
    (h1 : size log < s.target.leo) :
    ∀ t, Quiets keep big { s with source := { s.source with log := log, leo := size log } } t →
      t.target = s.target ∧ ∃ u, Quiet keep big t u := by
  intro t ht
  obtain ⟨i1, i2, i3, i4, i5, i6, i7⟩ := h0.idle
  have hc : Cut { s.source with log := log, leo := size log } s.target
      { s with source := { s.source with log := log, leo := size log } } := {
    isSrc := rfl, isTgt := rfl
    pos := by rw [h0.target]; exact size_nonneg _
    bad := .inr h1
    known := .inl i3
    seen := fun l hl => by rw [show s.seen = some l from hl] at i5; cases i5
    reps := fun r hr => by rw [show s.reports = [] from i7] at hr; cases hr
    sync := i6
    going := fun hu => by rw [show s.up = true from hu] at i1; cases i1 }
  exact ⟨(hc.quiets ht).isTgt, (hc.quiets ht).next⟩

example : ∀ t, Quiets false C94.small { C94.sys with source := { C94.sys.source with log := [], leo := 0 } } t →
    t.target.log = [[1]] ∧ ∃ u, Quiet false C94.small t u := fun t ht => by
  obtain ⟨h1, h2⟩ := C94_violated_ahead (log := []) C94.start (by decide) t ht
  exact ⟨by rw [h1]; rfl, h2⟩

/-- **Violation.**  The next batch is larger than what fits into a message: messages without records and reports of the
unchanged end follow each other for ever, without any pause, and the target never gets any more records. -/
theorem C94_violated_big {keep : Bool} {big : List α → Bool} {s : Sys α} {b : List α} {rest : List (List α)}
    (h0 : Start s) (h1 : s.source.log = s.target.log ++ b :: rest) (h2 : big b = true) :
    ∀ t, Quiets keep big s t → t.target = s.target ∧ ∃ u, Quiet keep big t u ∧ (t.up = true → u.up = true) := by
  intro t ht
  obtain ⟨i1, i2, i3, i4, i5, i6, i7⟩ := h0.idle
  have hra : readAt s.source.log 0 (size s.target.log) = some (size s.target.log, b :: rest) := by
    have := readAt_prefix (pre := s.target.log) (rest := b :: rest) (start := 0) (by rw [← h1]; exact h0.batches)
      (by simp)
    rw [Int.zero_add, ← h1] at this
    exact this
  have hc : Empty big s.source s.target s := {
    isSrc := rfl, isTgt := rfl
    pos := by rw [h0.target]; exact size_nonneg _
    behind := by
      have hb : b ≠ [] := h0.batches b (by rw [h1]; simp)
      have := List.length_pos_iff.2 hb
      rw [h0.source, h0.target, h1, size_append, size_cons]
      have := size_nonneg rest
      omega
    stored := h0.stored
    zero := fun k hk => by
      unfold Replication.Progress.Cut at hk
      rw [h0.target, hra] at hk
      have hk : if big b = true then k = 0 else 0 < k := hk
      rw [if_pos h2] at hk
      exact hk
    known := .inl i3
    seen := fun l hl => by rw [hl] at i5; cases i5
    reps := fun r hr => by rw [i7] at hr; cases hr
    sync := fun m hm => by rw [i6] at hm; cases hm
    going := fun hu => by rw [hu] at i1; cases i1 }
  have ht' := hc.quiets ht
  obtain ⟨u, hu⟩ := ht'.next (keep := keep)
  exact ⟨ht'.isTgt, u, hu, (ht'.quiet hu).2⟩

example : ∀ t, Quiets true (fun b => decide (b.length > 1)) C94.sys t → t.target.log = [[1]] ∧
    ∃ u, Quiet true (fun b => decide (b.length > 1)) t u := fun t ht => by
  obtain ⟨h1, u, h2, _⟩ := C94_violated_big (b := [2, 3]) (rest := [[4]]) C94.start rfl (by decide) t ht
  exact ⟨by rw [h1]; rfl, u, h2⟩

end Verif.Props
