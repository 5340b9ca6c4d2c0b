import Verif.Replication.ProgressInv

/-
The invariant of `Verif.Replication.ProgressInv` along runs, and what it means when nothing is left to do.
-/

namespace Verif.Replication.Progress
open Verif.Replication

variable {α : Type}

theorem PInv.outside {n : Nat} {hw0 : Int} {s t : Sys α} (hi : PInv n hw0 s) (hs : Outside n s t) : PInv n hw0 t := by
  have c := hi.core
  cases hs with
  | produce bs hne =>
    have hlog : s.leader.log <+: (s.leader.write n bs).log := List.prefix_append _ _
    have hsz : (s.leader.write n bs).leo = size s.leader.log + size bs := size_append _ _
    have hbs := size_nonneg bs
    have hleo : s.leader.leo ≤ (s.leader.write n bs).leo := by rw [hsz, c.leoEq]; omega
    have hhw : s.leader.hw ≤ (s.leader.write n bs).hw := by
      show _ ≤ if n = 0 then size (s.leader.log ++ bs) else s.leader.hw
      have := c.hwLeo
      rw [size_append]
      have := c.leoEq
      split <;> omega
    constructor
    · show Core n hw0 (s.leader.write n bs) s.followers s.start
      constructor
      · intro b hb
        rcases List.mem_append.1 hb with h | h
        · exact c.ne b h
        · exact hne b h
      · rfl
      · show (if n = 0 then size (s.leader.log ++ bs) else s.leader.hw) ≤ size (s.leader.log ++ bs)
        rw [size_append]
        have := c.hwLeo
        have := c.leoEq
        split <;> omega
      · exact ⟨c.hwGe.1, Int.le_trans c.hwGe.2 hhw⟩
      · by_cases hn : n = 0
        · exact .inr fun i h => by omega
        · show (if n = 0 then size (s.leader.log ++ bs) else s.leader.hw) = hw0 ∨ ∀ i, i < n →
            (if n = 0 then size (s.leader.log ++ bs) else s.leader.hw) ≤ (s.leader.infos i).leo
          rw [if_neg hn]; exact c.hwFrom
      · intro i h; exact (c.pref i h).trans hlog
      · exact c.fEq
      · intro i h
        have := c.fHw i h
        exact ⟨this.1, this.2.1, Int.le_trans this.2.2 hhw⟩
      · exact c.stored
      · exact c.info
      · intro hn
        obtain ⟨i, h1, h2⟩ := c.least hn
        exact ⟨i, h1, Int.le_trans h2 hhw⟩
      · intro hn
        show (if n = 0 then size (s.leader.log ++ bs) else s.leader.hw) = size (s.leader.log ++ bs)
        rw [if_pos hn]
    · exact hi.rep
    · intro t h
      rcases List.mem_cons.1 h with rfl | h
      · exact ⟨trivial, trivial⟩
      · obtain ⟨h1, h2⟩ := hi.task t h
        refine ⟨?_, h2⟩
        revert h1
        cases t.seen with
        | nothing => exact fun h => h
        | hw x => exact fun h => ⟨h.1, Int.le_trans h.2 hhw⟩
        | both q => exact fun h => ⟨h.1, Int.le_trans h.2.1 hhw, Int.le_trans h.2.2 hleo⟩
    · intro j m hm
      obtain ⟨h1, h2⟩ := hi.syn j m hm
      exact ⟨Int.le_trans h1 hhw, fun h => (h2 h).mono bs⟩
    · exact hi.down
    · exact hi.upLt
    · intro j hu
      rcases hi.known j hu with h | h | ⟨x, h⟩
      · exact .inl h
      · exact .inr (.inl h)
      · exact .inr (.inr ⟨x, List.mem_cons_of_mem _ h⟩)
    · intro j _
      exact .inr (.inr (.inl ⟨⟨.notify, .nothing⟩, List.mem_cons_self, trivial⟩))
  | trim start _ h =>
    exact ⟨⟨c.ne, c.leoEq, c.hwLeo, c.hwGe, c.hwFrom, c.pref, c.fEq, c.fHw, h, c.info, c.least, c.alone⟩,
      hi.rep, hi.task, hi.syn, hi.down, hi.upLt, hi.known, hi.work⟩
  | down i =>
    have hup : ∀ j, put s.up i false j = true → j ≠ i ∧ s.up j = true := by
      intro j hu
      by_cases hj : j = i
      · subst hj; rw [put_same] at hu; cases hu
      · rw [put_ne _ _ hj] at hu; exact ⟨hj, hu⟩
    have hrep : ∀ j, j ≠ i → put s.reports i [] j = s.reports j := fun j hj => put_ne _ _ hj
    have hsyn : ∀ j, j ≠ i → put s.syncs i [] j = s.syncs j := fun j hj => put_ne _ _ hj
    constructor
    · exact c
    · intro j r hr
      have hr' : r ∈ put s.reports i [] j := hr
      by_cases hj : j = i
      · subst hj; rw [put_same] at hr'; cases hr'
      · rw [hrep j hj] at hr'; exact hi.rep j r hr'
    · intro t h
      obtain ⟨h, hk⟩ := List.mem_filter.1 h
      have h0 := hi.task t h
      obtain ⟨job, seen⟩ := t
      cases job with
      | send j =>
        refine ⟨h0.1, h0.2.1, ?_⟩
        show put s.up i false j = true
        rw [put_ne _ _ (by simpa using hk)]
        exact h0.2.2
      | merge j r => exact h0
      | notify => exact h0
    · intro j m hm
      have hm' : m ∈ put s.syncs i [] j := hm
      by_cases hj : j = i
      · subst hj; rw [put_same] at hm'; cases hm'
      · rw [hsyn j hj] at hm'; exact hi.syn j m hm'
    · intro j hu
      by_cases hj : j = i
      · subst hj; exact ⟨put_same _ _ _, put_same _ _ _⟩
      · have hu' : put s.up i false j = false := hu
        rw [put_ne _ _ hj] at hu'
        obtain ⟨h1, h2⟩ := hi.down j hu'
        exact ⟨(hsyn j hj).trans h1, (hrep j hj).trans h2⟩
    · intro j hu; exact hi.upLt j (hup j hu).2
    · intro j hu
      obtain ⟨hj, hu⟩ := hup j hu
      rcases hi.known j hu with h | h | ⟨x, h⟩
      · exact .inl h
      · refine .inr (.inl ?_)
        show _ ∈ put s.reports i [] j
        rw [hrep j hj]; exact h
      · exact .inr (.inr ⟨x, List.mem_filter.2 ⟨h, rfl⟩⟩)
    · intro j hu
      obtain ⟨hj, hu⟩ := hup j hu
      rcases hi.work j hu with h | h
      · exact .inl h
      · right
        rcases h with h | ⟨t, ht, hh⟩ | h | h
        · exact .inl h
        · refine .inr (.inl ⟨t, List.mem_filter.2 ⟨ht, ?_⟩, hh⟩)
          obtain ⟨job, seen⟩ := t
          cases job with
          | send k =>
            have : k = j := hh.1
            subst this
            simpa using hj
          | merge k r => rfl
          | notify => rfl
        · refine .inr (.inr (.inl ?_))
          show put s.reports i [] j ≠ []
          rw [hrep j hj]; exact h
        · refine .inr (.inr (.inr ?_))
          show ∃ m ∈ put s.syncs i [] j, _
          rw [hsyn j hj]; exact h
  | connect i hin h =>
    have hrep : ∀ j, j ≠ i → put s.reports i [s.fpos i] j = s.reports j := fun j hj => put_ne _ _ hj
    have hup : ∀ j, j ≠ i → put s.up i true j = s.up j := fun j hj => put_ne _ _ hj
    constructor
    · exact c
    · intro j r hr
      have hr' : r ∈ put s.reports i [s.fpos i] j := hr
      by_cases hj : j = i
      · subst hj; rw [put_same] at hr'
        rw [List.mem_singleton.1 hr']
        exact ⟨Int.le_refl _, Int.le_refl _⟩
      · rw [hrep j hj] at hr'; exact hi.rep j r hr'
    · intro t ht
      have h0 := hi.task t ht
      obtain ⟨job, seen⟩ := t
      cases job with
      | send j =>
        refine ⟨h0.1, h0.2.1, ?_⟩
        by_cases hj : j = i
        · subst hj; exact put_same _ _ _
        · exact (hup j hj).trans h0.2.2
      | merge j r => exact h0
      | notify => exact h0
    · exact hi.syn
    · intro j hu
      by_cases hj : j = i
      · subst hj
        have hu' : put s.up j true j = false := hu
        rw [put_same] at hu'; cases hu'
      · have hu' : put s.up i true j = false := hu
        rw [hup j hj] at hu'
        obtain ⟨h1, h2⟩ := hi.down j hu'
        exact ⟨h1, (hrep j hj).trans h2⟩
    · intro j hu
      by_cases hj : j = i
      · rw [hj]; exact hin
      · have hu' : put s.up i true j = true := hu
        rw [hup j hj] at hu'
        exact hi.upLt j hu'
    · intro j hu
      by_cases hj : j = i
      · subst hj
        refine .inr (.inl ?_)
        show s.fpos j ∈ put s.reports j [s.fpos j] j
        rw [put_same]; exact List.mem_cons_self
      · have hu' : put s.up i true j = true := hu
        rw [hup j hj] at hu'
        rcases hi.known j hu' with h | h | h
        · exact .inl h
        · refine .inr (.inl ?_)
          show _ ∈ put s.reports i _ j
          rw [hrep j hj]; exact h
        · exact .inr (.inr h)
    · intro j hu
      by_cases hj : j = i
      · subst hj
        refine .inr (.inr (.inr (.inl ?_)))
        show put s.reports j [s.fpos j] j ≠ []
        rw [put_same]; simp
      · have hu' : put s.up i true j = true := hu
        rw [hup j hj] at hu'
        rcases hi.work j hu' with h | h | h | h | h
        · exact .inl h
        · exact .inr (.inl h)
        · exact .inr (.inr (.inl h))
        · refine .inr (.inr (.inr (.inl ?_)))
          show put s.reports i _ j ≠ []
          rw [hrep j hj]; exact h
        · exact .inr (.inr (.inr (.inr h)))
  | timer i hup =>
    have hsub : ∀ j r, r ∈ s.reports j → r ∈ put s.reports i (s.fpos i :: s.reports i) j := by
      intro j r hr
      by_cases hj : j = i
      · subst hj; rw [put_same]; exact List.mem_cons_of_mem _ hr
      · rw [put_ne _ _ hj]; exact hr
    constructor
    · exact c
    · intro j r hr
      have hr' : r ∈ put s.reports i (s.fpos i :: s.reports i) j := hr
      by_cases hj : j = i
      · subst hj; rw [put_same] at hr'
        rcases List.mem_cons.1 hr' with rfl | h
        · exact ⟨Int.le_refl _, Int.le_refl _⟩
        · exact hi.rep j r h
      · rw [put_ne _ _ hj] at hr'; exact hi.rep j r hr'
    · exact hi.task
    · exact hi.syn
    · intro j hu
      have hj : j ≠ i := by
        rintro rfl
        have hu' : s.up j = false := hu
        rw [hup] at hu'; cases hu'
      obtain ⟨h1, h2⟩ := hi.down j hu
      refine ⟨h1, ?_⟩
      show put s.reports i _ j = []
      rw [put_ne _ _ hj]; exact h2
    · exact hi.upLt
    · intro j hu
      rcases hi.known j hu with h | h | h
      · exact .inl h
      · exact .inr (.inl (hsub j _ h))
      · exact .inr (.inr h)
    · intro j hu
      rcases hi.work j hu with h | h | h | h | h
      · exact .inl h
      · exact .inr (.inl h)
      · exact .inr (.inr (.inl h))
      · refine .inr (.inr (.inr (.inl ?_)))
        obtain ⟨r, hr⟩ := List.exists_mem_of_ne_nil _ h
        exact List.ne_nil_of_mem (hsub j r hr)
      · exact .inr (.inr (.inr (.inr h)))

/-! ### Runs -/

theorem Quiet.log {n : Nat} {big : List α → Bool} {s t : Sys α} (h : Quiet n big s t) : t.leader.log = s.leader.log := by
  cases h with
  | merge pre post i r p ht =>
    split
    · rfl
    · exact (merge_same n s.leader ⟨i, r, p⟩ true).1
  | _ => rfl

theorem Quiet.leo {n : Nat} {big : List α → Bool} {s t : Sys α} (h : Quiet n big s t) : t.leader.leo = s.leader.leo := by
  cases h with
  | merge pre post i r p ht =>
    split
    · rfl
    · exact (merge_same n s.leader ⟨i, r, p⟩ true).2.1
  | _ => rfl

theorem Outside.log {n : Nat} {s t : Sys α} (h : Outside n s t) : s.leader.log <+: t.leader.log := by
  cases h with
  | produce bs hne => exact List.prefix_append _ _
  | _ => exact List.prefix_rfl

theorem PInv.run {n : Nat} {big : List α → Bool} {s t : Sys α} (h0 : Start n s) (hr : Run n big s t)
    (hbig : ∀ b ∈ t.leader.log, big b = false) : PInv n s.leader.hw t := by
  induction hr with
  | refl => exact PInv.start h0
  | quiet _ hq ih =>
    have hbig' := hbig
    rw [hq.log] at hbig'
    exact (ih hbig').quiet hq hbig'
  | outside _ ho ih => exact (ih fun b hb => hbig b (ho.log.subset hb)).outside ho

theorem Quiets.log {n : Nat} {big : List α → Bool} {s t : Sys α} (h : Quiets n big s t) :
    t.leader.log = s.leader.log := by
  induction h with
  | refl => rfl
  | step _ hq ih => rw [hq.log, ih]

theorem Run.quiets {n : Nat} {big : List α → Bool} {r s t : Sys α} (h : Run n big r s) (hq : Quiets n big s t) :
    Run n big r t := by
  induction hq with
  | refl => exact h
  | step _ hs ih => exact .quiet ih hs

/-! ### When nothing is left to do -/

theorem exists_cut (big : List α → Bool) (log : List (List α)) (o : Int) : ∃ k, Cut big log o k := by
  cases h : readAt log 0 o with
  | none => exact ⟨0, by unfold Cut; rw [h]; trivial⟩
  | some x =>
    obtain ⟨b, l⟩ := x
    cases l with
    | nil => exact ⟨0, by unfold Cut; rw [h]; trivial⟩
    | cons x l =>
      cases hb : big x with
      | true => exact ⟨0, by unfold Cut; rw [h]; simp [hb]⟩
      | false => exact ⟨1, by unfold Cut; rw [h]; simp [hb]⟩

theorem settled_tasks {n : Nat} {big : List α → Bool} {s : Sys α} (h : Settled n big s) : s.tasks = [] := by
  cases ht : s.tasks with
  | nil => rfl
  | cons t ts =>
    exfalso
    obtain ⟨job, seen⟩ := t
    cases seen with
    | nothing => exact h _ (.readHw s [] ts job ht)
    | hw x => exact h _ (.readLeo s [] ts job x ht)
    | both p =>
      cases job with
      | send i =>
        obtain ⟨k, hk⟩ := exists_cut big s.leader.log (s.leader.infos i).leo
        exact h _ (.send s [] ts i p k ht hk)
      | merge i r => exact h _ (.merge s [] ts i r p ht)
      | notify => exact h _ (.notify s [] ts p ht)

theorem settled_reports {n : Nat} {big : List α → Bool} {s : Sys α} (h : Settled n big s) (i : Nat) :
    s.reports i = [] := by
  cases ht : s.reports i with
  | nil => rfl
  | cons r rs => exact absurd (.take s i [] rs r ht) (h _)

theorem settled_syncs {n : Nat} {big : List α → Bool} {s : Sys α} (h : Settled n big s) (i : Nat) :
    s.syncs i = [] := by
  cases ht : s.syncs i with
  | nil => rfl
  | cons r rs => exact absurd (.receive s i [] rs r ht) (h _)

/-- Connected followers have the position of the leader. -/
theorem PInv.settled {n : Nat} {hw0 : Int} {big : List α → Bool} {s : Sys α} (hi : PInv n hw0 s)
    (h : Settled n big s) {i : Nat} (hu : s.up i = true) : s.leader.infos i = s.pos ∧ s.fpos i = s.pos := by
  have ht := settled_tasks h
  have hin := hi.upLt i hu
  have h1 : s.leader.infos i = s.pos := by
    rcases hi.work i hu with h1 | h1 | ⟨t, h1, _⟩ | h1 | ⟨m, h1, _⟩
    · exact h1
    · exact absurd (.drain s i hin hu h1) (h _)
    · rw [ht] at h1; cases h1
    · exact absurd (settled_reports h i) h1
    · rw [settled_syncs h i] at h1; cases h1
  refine ⟨h1, ?_⟩
  rcases hi.known i hu with h2 | h2 | ⟨x, h2⟩
  · exact h2.symm.trans h1
  · rw [settled_reports h i] at h2; cases h2
  · rw [ht] at h2; cases h2

theorem PInv.caughtUp {n : Nat} {hw0 : Int} {big : List α → Bool} {s : Sys α} (hi : PInv n hw0 s)
    (h : Settled n big s) {i : Nat} (hu : s.up i = true) : CaughtUp s i := by
  have h2 := (hi.settled h hu).2
  have hin := hi.upLt i hu
  have e1 : (s.followers i).hw = s.leader.hw := congrArg Info.hw h2
  have e2 : (s.followers i).leo = s.leader.leo := congrArg Info.leo h2
  refine ⟨?_, e1, e2⟩
  apply prefix_eq hi.core.ne (hi.core.pref i hin) List.prefix_rfl
  rw [← hi.core.fEq i hin, ← hi.core.leoEq, e2]

theorem PInv.committed {n : Nat} {hw0 : Int} {big : List α → Bool} {s : Sys α} (hi : PInv n hw0 s)
    (h : Settled n big s) (hu : ∀ i, i < n → s.up i = true) : s.leader.hw = s.leader.leo := by
  by_cases hn : n = 0
  · exact hi.core.alone hn
  · obtain ⟨i, h1, h2⟩ := hi.core.least hn
    have h3 := (hi.settled h (hu i h1)).1
    rw [h3] at h2
    have := hi.core.hwLeo
    have h4 : s.leader.leo ≤ s.leader.hw := h2
    omega

end Verif.Replication.Progress
