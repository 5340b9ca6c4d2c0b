import Verif.Mirror.ProgressEnd

/-
What keeps a target from catching up: invariants of source and target going round in circles.
-/

namespace Verif.Mirror.Progress
open Verif.Replication Verif.Mirror

variable {α : Type}

/-- The source can never send to the target. -/
structure Cut (src : Source α) (tgt : Target α) (s : Sys α) : Prop where
  isSrc : s.source = src
  isTgt : s.target = tgt
  pos : 0 ≤ tgt.leo
  bad : (tgt.leo < src.start ∧ tgt.leo < src.leo) ∨ src.leo < tgt.leo
  known : s.known = -1 ∨ s.known = tgt.leo
  seen : ∀ l, s.seen = some l → l = src.leo ∧ s.needed = true ∧ s.known = tgt.leo
  reps : ∀ r ∈ s.reports, r = tgt.leo
  sync : s.syncs = []
  going : s.up = true → s.reports ≠ [] ∨ (s.needed = true ∧ s.known = tgt.leo)

theorem Cut.error {src : Source α} {tgt : Target α} {s : Sys α} (h : Cut src tgt s) (k : Nat) :
    generate src src.leo tgt.leo k = .error () := by
  unfold generate
  rcases h.bad with hb | hb
  · rw [if_neg (by omega), if_pos hb.2, if_pos hb.1]
  · rw [if_neg (by omega), if_neg (by omega)]

theorem Cut.drop {src : Source α} {tgt : Target α} {s : Sys α} (h : Cut src tgt s) {k : Int}
    (hk : k = -1 ∨ k = tgt.leo) : Cut src tgt { s.drop with known := k } where
  isSrc := h.isSrc
  isTgt := h.isTgt
  pos := h.pos
  bad := h.bad
  known := hk
  seen := fun l hl => by cases hl
  reps := fun r hr => by cases hr
  sync := rfl
  going := fun hu => by cases hu

theorem Cut.quiet {keep : Bool} {big : List α → Bool} {src : Source α} {tgt : Target α} {s t : Sys α}
    (h : Cut src tgt s) (hq : Quiet keep big s t) : Cut src tgt t := by
  have hpos := h.pos
  have hsrc := h.isSrc
  have htgt := h.isTgt
  cases hq with
  | connect hd =>
    exact { h with
      known := by
        show (if keep = true then s.known else -1) = -1 ∨ (if keep = true then s.known else -1) = tgt.leo
        split
        · exact h.known
        · exact .inl rfl
      seen := fun l hl => by cases hl
      reps := fun r hr => by rw [List.mem_singleton.1 hr]; show s.target.leo = _; rw [htgt]
      sync := rfl
      going := fun _ => .inl (by simp) }
  | listen hu hw hh =>
    exact { h with
      seen := fun l hl => by
        obtain ⟨h1, h2, h3⟩ := h.seen l hl
        exact ⟨h1, rfl, h3⟩
      going := fun _ => (h.going hu).imp id fun h1 => ⟨rfl, h1.2⟩ }
  | update hu hw r rest hr =>
    have hrr := h.reps r (by rw [hr]; simp)
    have hsn : s.seen = none := by
      cases hs : s.seen with
      | none => rfl
      | some l =>
        obtain ⟨_, h2, h3⟩ := h.seen l hs
        exact absurd ⟨h2, by omega⟩ hw
    have hrest : ∀ x ∈ rest, x = tgt.leo := fun x hx => h.reps x (by rw [hr]; simp [hx])
    subst hrr
    rw [hsrc]
    rcases h.bad with hb | hb
    · rw [updateFrom_le (by omega), if_pos hb.2]
      exact { h with
        isSrc := rfl
        known := .inr rfl
        seen := fun l hl => by
          have hl : s.seen = some l := hl
          rw [hsn] at hl; cases hl
        reps := hrest
        going := fun _ => .inr ⟨rfl, rfl⟩ }
    · have hu : updateFrom src.leo s.known tgt.leo = (if s.known < 0 then tgt.leo else s.known, none) := by
        unfold updateFrom
        dsimp only
        rw [if_pos (by omega)]
      rw [hu]
      refine h.drop ?_
      rcases h.known with hk | hk
      · rw [if_pos (by omega)]; exact .inr rfl
      · rw [if_neg (by omega)]; exact .inr hk
  | look hu hn hk hs =>
    exact { h with
      seen := fun l hl => by
        injection hl with hl
        refine ⟨by rw [← hl, hsrc], hn, ?_⟩
        rcases h.known with h1 | h1
        · omega
        · exact h1 }
  | send hu l hs k hk =>
    obtain ⟨h1, h2, h3⟩ := h.seen l hs
    rw [h1, h3, hsrc, h.error k]
    have := h.drop (.inr h3)
    exact this
  | receive hu m rest hm => rw [h.sync] at hm; cases hm

theorem Cut.next {keep : Bool} {big : List α → Bool} {src : Source α} {tgt : Target α} {s : Sys α}
    (h : Cut src tgt s) : ∃ t, Quiet keep big s t := by
  have hpos := h.pos
  cases hu : s.up with
  | false => exact ⟨_, .connect s hu⟩
  | true =>
    by_cases hw : s.Waiting
    · rcases h.going hu with h1 | h1
      · cases hr : s.reports with
        | nil => exact absurd hr h1
        | cons r rest => exact ⟨_, .update s hu hw r rest hr⟩
      · exact absurd ⟨h1.1, by omega⟩ hw
    · have hw : s.needed = true ∧ 0 ≤ s.known := Classical.not_not.1 hw
      cases hse : s.seen with
      | none => exact ⟨_, .look s hu hw.1 hw.2 hse⟩
      | some l =>
        obtain ⟨k, hk⟩ := Replication.Progress.exists_cut big s.source.log s.known
        exact ⟨_, .send s hu l hse k hk⟩

theorem Cut.quiets {keep : Bool} {big : List α → Bool} {src : Source α} {tgt : Target α} {s t : Sys α}
    (h : Cut src tgt s) (hq : Quiets keep big s t) : Cut src tgt t := by
  induction hq with
  | refl => exact h
  | step _ hs ih => exact ih.quiet hs

/-- The source sends messages without records. -/
structure Empty (big : List α → Bool) (src : Source α) (tgt : Target α) (s : Sys α) : Prop where
  isSrc : s.source = src
  isTgt : s.target = tgt
  pos : 0 ≤ tgt.leo
  behind : tgt.leo < src.leo
  stored : src.start ≤ tgt.leo
  zero : ∀ k, Replication.Progress.Cut big src.log tgt.leo k → k = 0
  known : s.known = -1 ∨ s.known = tgt.leo
  seen : ∀ l, s.seen = some l → l = src.leo ∧ s.needed = true ∧ s.known = tgt.leo
  reps : ∀ r ∈ s.reports, r = tgt.leo
  sync : ∀ m ∈ s.syncs, m.batches = []
  going : s.up = true → s.reports ≠ [] ∨ s.syncs ≠ [] ∨ (s.needed = true ∧ s.known = tgt.leo)

theorem generate_zero {s : Source α} {l known : Int} (h1 : known < l) (h2 : s.start ≤ known) :
    ∃ m, generate s l known 0 = .ok (some m) ∧ m.batches = [] := by
  unfold generate
  rw [if_neg (by omega), if_pos (by omega), if_neg (by omega)]
  split
  · exact ⟨_, rfl, by simp⟩
  · exact ⟨_, rfl, rfl⟩

theorem Empty.quiet {keep : Bool} {big : List α → Bool} {src : Source α} {tgt : Target α} {s t : Sys α}
    (h : Empty big src tgt s) (hq : Quiet keep big s t) : Empty big src tgt t ∧ (s.up = true → t.up = true) := by
  have hpos := h.pos
  have hsrc := h.isSrc
  have htgt := h.isTgt
  have hbe := h.behind
  cases hq with
  | connect hd =>
    refine ⟨{ h with
      known := ?_
      seen := fun l hl => by cases hl
      reps := fun r hr => by rw [List.mem_singleton.1 hr]; show s.target.leo = _; rw [htgt]
      sync := fun m hm => by cases hm
      going := fun _ => .inl (by simp) }, fun _ => rfl⟩
    show (if keep = true then s.known else -1) = -1 ∨ (if keep = true then s.known else -1) = tgt.leo
    split
    · exact h.known
    · exact .inl rfl
  | listen hu hw hh =>
    exact ⟨{ h with
      seen := fun l hl => by
        obtain ⟨h1, h2, h3⟩ := h.seen l hl
        exact ⟨h1, rfl, h3⟩
      going := fun _ => (h.going hu).imp id fun h1 => h1.imp id fun h1 => ⟨rfl, h1.2⟩ }, id⟩
  | update hu hw r rest hr =>
    have hrr := h.reps r (by rw [hr]; simp)
    have hsn : s.seen = Option.none := by
      cases hs : s.seen with
      | none => rfl
      | some l =>
        obtain ⟨_, h2, h3⟩ := h.seen l hs
        exact absurd ⟨h2, by omega⟩ hw
    have hrest : ∀ x ∈ rest, x = tgt.leo := fun x hx => h.reps x (by rw [hr]; simp [hx])
    subst hrr
    rw [hsrc, updateFrom_le (by omega), if_pos hbe]
    exact ⟨{ h with
      isSrc := rfl
      known := .inr rfl
      seen := fun l hl => by
        have hl : s.seen = some l := hl
        rw [hsn] at hl; cases hl
      reps := hrest
      going := fun _ => .inr (.inr ⟨rfl, rfl⟩) }, id⟩
  | look hu hn hk hs =>
    refine ⟨{ h with seen := fun l hl => ?_ }, id⟩
    injection hl with hl
    refine ⟨by rw [← hl, hsrc], hn, ?_⟩
    rcases h.known with h1 | h1
    · omega
    · exact h1
  | send hu l hs k hk =>
    obtain ⟨h1, h2, h3⟩ := h.seen l hs
    rw [h3, hsrc] at hk
    have hk0 := h.zero k hk
    subst hk0
    rw [h1, h3, hsrc]
    obtain ⟨m, hm, hb⟩ := generate_zero hbe h.stored
    rw [hm]
    exact ⟨{ h with
      isSrc := rfl
      known := .inr rfl
      seen := fun l hl => by cases hl
      sync := fun x hx => by
        rcases List.mem_append.1 hx with hx | hx
        · exact h.sync x hx
        · rw [List.mem_singleton.1 hx]; exact hb
      going := fun _ => .inr (.inl (by simp)) }, id⟩
  | receive hu m rest hm =>
    have hb := h.sync m (by rw [hm]; simp)
    have ha : ¬ accepts s.target m = true := by
      unfold accepts
      rw [hb]
      simp
    rw [if_neg ha]
    exact ⟨{ h with
      reps := fun r hr => by
        rcases List.mem_append.1 hr with hr | hr
        · exact h.reps r hr
        · rw [List.mem_singleton.1 hr, htgt]
      sync := fun x hx => h.sync x (by rw [hm]; simp [hx])
      going := fun _ => .inl (by simp) }, id⟩

theorem Empty.next {keep : Bool} {big : List α → Bool} {src : Source α} {tgt : Target α} {s : Sys α}
    (h : Empty big src tgt s) : ∃ t, Quiet keep big s t := by
  have hpos := h.pos
  cases hu : s.up with
  | false => exact ⟨_, .connect s hu⟩
  | true =>
    by_cases hw : s.Waiting
    · rcases h.going hu with h1 | h1 | h1
      · cases hr : s.reports with
        | nil => exact absurd hr h1
        | cons r rest => exact ⟨_, .update s hu hw r rest hr⟩
      · cases hr : s.syncs with
        | nil => exact absurd hr h1
        | cons m rest => exact ⟨_, .receive s hu m rest hr⟩
      · exact absurd ⟨h1.1, by omega⟩ hw
    · have hw : s.needed = true ∧ 0 ≤ s.known := Classical.not_not.1 hw
      cases hse : s.seen with
      | none => exact ⟨_, .look s hu hw.1 hw.2 hse⟩
      | some l =>
        obtain ⟨k, hk⟩ := Replication.Progress.exists_cut big s.source.log s.known
        exact ⟨_, .send s hu l hse k hk⟩

theorem Empty.quiets {keep : Bool} {big : List α → Bool} {src : Source α} {tgt : Target α} {s t : Sys α}
    (h : Empty big src tgt s) (hq : Quiets keep big s t) : Empty big src tgt t := by
  induction hq with
  | refl => exact h
  | step _ hs ih => exact (ih.quiet hs).1

end Verif.Mirror.Progress
