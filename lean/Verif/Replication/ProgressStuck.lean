import Verif.Replication.ProgressRun

/-
A follower whose next record the leader no longer stores stays where it is.
-/

namespace Verif.Replication.Progress
open Verif.Replication

variable {α : Type}

/-- Follower `i` needs records that are gone, and no records for it are under way. -/
structure Stuck (i : Nat) (s : Sys α) : Prop where
  gone : (s.followers i).leo < s.start
  info : (s.leader.infos i).leo ≤ (s.followers i).leo
  rep : ∀ r ∈ s.reports i, r.leo ≤ (s.followers i).leo
  task : ∀ t ∈ s.tasks, ∀ r, t.job = .merge i r → r.leo ≤ (s.followers i).leo
  syn : ∀ m ∈ s.syncs i, m.batches = []

theorem receive_nothing {f : Follower α} {m : Sync α} (h : m.batches = []) :
    (f.receive m).log = f.log ∧ (f.receive m).leo = f.leo := by
  unfold Follower.receive
  rw [if_neg (by rw [h]; simp)]
  exact ⟨(takeHw_log f m.hw).1, (takeHw_log f m.hw).2.1⟩

theorem message_nothing {s : Sys α} {i k : Nat} {p : Info} {m : Sync α} (h : (s.leader.infos i).leo < s.start)
    (hm : s.message i p k = some m) : m.batches = [] := by
  unfold Sys.message Leader.updates at hm
  dsimp only at hm
  rw [if_pos h] at hm
  split at hm
  · split at hm
    · split at hm
      · injection hm with hm; subst hm; rfl
      · injection hm with hm; subst hm; rfl
    · injection hm with hm; subst hm; rfl
  · cases hm

theorem Stuck.quiet {n i : Nat} {big : List α → Bool} {s t : Sys α} (h : Stuck i s) (hs : Quiet n big s t) :
    Stuck i t ∧ (t.followers i).log = (s.followers i).log := by
  obtain ⟨h1, h2, h3, h4, h5⟩ := h
  cases hs with
  | drain j hin up hp =>
    refine ⟨⟨h1, h2, h3, ?_, h5⟩, rfl⟩
    intro t ht r hr
    rcases List.mem_cons.1 ht with rfl | ht
    · cases hr
    · exact h4 t ht r hr
  | readHw pre post j ht =>
    refine ⟨⟨h1, h2, h3, ?_, h5⟩, rfl⟩
    intro t htm r hr
    rcases mem_mid.1 htm with rfl | htm
    · exact h4 ⟨j, .nothing⟩ (by rw [ht]; exact mem_mid.2 (.inl rfl)) r hr
    · exact h4 t (by rw [ht]; exact mem_mid.2 (.inr htm)) r hr
  | readLeo pre post j x ht =>
    refine ⟨⟨h1, h2, h3, ?_, h5⟩, rfl⟩
    intro t htm r hr
    rcases mem_mid.1 htm with rfl | htm
    · exact h4 ⟨j, .hw x⟩ (by rw [ht]; exact mem_mid.2 (.inl rfl)) r hr
    · exact h4 t (by rw [ht]; exact mem_mid.2 (.inr htm)) r hr
  | send pre post j p k ht hk =>
    refine ⟨⟨h1, h2, h3, fun t htm => h4 t (by rw [ht]; exact mem_mid.2 (.inr htm)), ?_⟩, rfl⟩
    intro m hm
    cases hmsg : s.message j p k with
    | none => simp only [hmsg] at hm; exact h5 m hm
    | some m' =>
      simp only [hmsg] at hm
      by_cases hj : i = j
      · subst hj
        rw [put_same] at hm
        rcases List.mem_cons.1 hm with rfl | hm
        · exact message_nothing (Int.lt_of_le_of_lt h2 h1) hmsg
        · exact h5 m hm
      · rw [put_ne _ _ hj] at hm; exact h5 m hm
  | receive j pre post m hm =>
    by_cases hj : i = j
    · subst hj
      obtain ⟨e1, e2⟩ := receive_nothing (f := s.followers i) (h5 m (by rw [hm]; exact mem_mid.2 (.inl rfl)))
      refine ⟨⟨?_, ?_, ?_, ?_, ?_⟩, ?_⟩
      · show (put s.followers i _ i).leo < s.start
        rw [put_same, e2]; exact h1
      · show _ ≤ (put s.followers i _ i).leo
        rw [put_same, e2]; exact h2
      · intro r hr
        show r.leo ≤ (put s.followers i _ i).leo
        rw [put_same, e2]
        dsimp only at hr
        split at hr
        · rw [put_same] at hr
          rcases List.mem_cons.1 hr with rfl | hr
          · exact Int.le_of_eq e2
          · exact h3 r hr
        · exact h3 r hr
      · intro t ht r hr
        show r.leo ≤ (put s.followers i _ i).leo
        rw [put_same, e2]; exact h4 t ht r hr
      · intro x hx
        have hx' : x ∈ put s.syncs i (pre ++ post) i := hx
        rw [put_same] at hx'
        exact h5 x (by rw [hm]; exact mem_mid.2 (.inr hx'))
      · show (put s.followers i _ i).log = _
        rw [put_same, e1]
    · have e : put s.followers j ((s.followers j).receive m) i = s.followers i := put_ne _ _ hj
      refine ⟨⟨?_, ?_, ?_, ?_, ?_⟩, ?_⟩
      · show (put s.followers j _ i).leo < s.start
        rw [e]; exact h1
      · show _ ≤ (put s.followers j _ i).leo
        rw [e]; exact h2
      · intro r hr
        show r.leo ≤ (put s.followers j _ i).leo
        rw [e]
        dsimp only at hr
        split at hr
        · rw [put_ne _ _ hj] at hr; exact h3 r hr
        · exact h3 r hr
      · intro t ht r hr
        show r.leo ≤ (put s.followers j _ i).leo
        rw [e]; exact h4 t ht r hr
      · intro x hx
        have hx' : x ∈ put s.syncs j (pre ++ post) i := hx
        rw [put_ne _ _ hj] at hx'
        exact h5 x hx'
      · show (put s.followers j _ i).log = _
        rw [e]
  | take j pre post r hr =>
    refine ⟨⟨h1, h2, ?_, ?_, h5⟩, rfl⟩
    · intro x hx
      have hx' : x ∈ put s.reports j (pre ++ post) i := hx
      by_cases hj : i = j
      · subst hj
        rw [put_same] at hx'
        exact h3 x (by rw [hr]; exact mem_mid.2 (.inr hx'))
      · rw [put_ne _ _ hj] at hx'; exact h3 x hx'
    · intro t ht x hx
      rcases List.mem_cons.1 ht with rfl | ht
      · injection hx with e1 e2
        subst e1 e2
        exact h3 _ (by rw [hr]; exact mem_mid.2 (.inl rfl))
      · exact h4 t ht x hx
  | merge pre post j r p ht =>
    split
    · exact ⟨⟨h1, h2, h3, fun t htm => h4 t (by rw [ht]; exact mem_mid.2 (.inr htm)), h5⟩, rfl⟩
    · refine ⟨⟨h1, ?_, h3, ?_, h5⟩, rfl⟩
      · show ((s.leader.merge n ⟨j, r, p⟩ true).infos i).leo ≤ _
        by_cases hj : j < n
        · rw [merge_infos n s.leader ⟨j, r, p⟩ true hj]
          split
          · rename_i he
            dsimp only at he
            subst he
            rw [update_leo]
            have := h4 ⟨.merge i r, .both p⟩ (by rw [ht]; exact mem_mid.2 (.inl rfl)) r rfl
            dsimp only
            omega
          · exact h2
        · have : s.leader.merge n ⟨j, r, p⟩ true = s.leader := by
            unfold Leader.merge
            rw [if_neg hj]
          rw [this]; exact h2
      · intro t htm x hx
        rcases List.mem_cons.1 htm with rfl | htm
        · cases hx
        · exact h4 t (by rw [ht]; exact mem_mid.2 (.inr htm)) x hx
  | notify pre post p ht =>
    exact ⟨⟨h1, h2, h3, fun t htm => h4 t (by rw [ht]; exact mem_mid.2 (.inr htm)), h5⟩, rfl⟩

theorem Stuck.outside {n i : Nat} {s t : Sys α} (h : Stuck i s) (hs : Outside n s t) :
    Stuck i t ∧ (t.followers i).log = (s.followers i).log := by
  obtain ⟨h1, h2, h3, h4, h5⟩ := h
  cases hs with
  | produce bs hne =>
    refine ⟨⟨h1, h2, h3, ?_, h5⟩, rfl⟩
    intro t ht r hr
    rcases List.mem_cons.1 ht with rfl | ht
    · cases hr
    · exact h4 t ht r hr
  | trim start hs h => exact ⟨⟨Int.lt_of_lt_of_le h1 hs, h2, h3, h4, h5⟩, rfl⟩
  | down j =>
    refine ⟨⟨h1, h2, ?_, fun t ht => h4 t (List.mem_filter.1 ht).1, ?_⟩, rfl⟩
    · intro r hr
      have hr' : r ∈ put s.reports j [] i := hr
      by_cases hj : i = j
      · subst hj; rw [put_same] at hr'; cases hr'
      · rw [put_ne _ _ hj] at hr'; exact h3 r hr'
    · intro m hm
      have hm' : m ∈ put s.syncs j [] i := hm
      by_cases hj : i = j
      · subst hj; rw [put_same] at hm'; cases hm'
      · rw [put_ne _ _ hj] at hm'; exact h5 m hm'
  | connect j hin h =>
    refine ⟨⟨h1, h2, ?_, h4, h5⟩, rfl⟩
    intro r hr
    have hr' : r ∈ put s.reports j [s.fpos j] i := hr
    by_cases hj : i = j
    · subst hj
      rw [put_same] at hr'
      rw [List.mem_singleton.1 hr']
      exact Int.le_refl _
    · rw [put_ne _ _ hj] at hr'; exact h3 r hr'
  | timer j hup =>
    refine ⟨⟨h1, h2, ?_, h4, h5⟩, rfl⟩
    intro r hr
    have hr' : r ∈ put s.reports j (s.fpos j :: s.reports j) i := hr
    by_cases hj : i = j
    · subst hj
      rw [put_same] at hr'
      rcases List.mem_cons.1 hr' with rfl | hr'
      · exact Int.le_refl _
      · exact h3 r hr'
    · rw [put_ne _ _ hj] at hr'; exact h3 r hr'

theorem Stuck.run {n i : Nat} {big : List α → Bool} {s t : Sys α} (h : Stuck i s) (hr : Run n big s t) :
    Stuck i t ∧ (t.followers i).log = (s.followers i).log := by
  induction hr with
  | refl => exact ⟨h, rfl⟩
  | quiet _ hq ih => exact ⟨(ih.1.quiet hq).1, (ih.1.quiet hq).2.trans ih.2⟩
  | outside _ ho ih => exact ⟨(ih.1.outside ho).1, (ih.1.outside ho).2.trans ih.2⟩

/-- What shows that nothing is left to do. -/
theorem settled_of {n : Nat} {big : List α → Bool} {s : Sys α} (h1 : s.tasks = []) (h2 : ∀ i, s.pending i = false)
    (h3 : ∀ i, s.syncs i = []) (h4 : ∀ i, s.reports i = []) : Settled n big s := by
  intro t ht
  cases ht with
  | drain i hin up hp => rw [h2] at hp; cases hp
  | readHw pre post j ht => rw [h1] at ht; simp at ht
  | readLeo pre post j h ht => rw [h1] at ht; simp at ht
  | send pre post i p k ht hk => rw [h1] at ht; simp at ht
  | receive i pre post m hm => rw [h3] at hm; simp at hm
  | take i pre post r hr => rw [h4] at hr; simp at hr
  | merge pre post i r p ht => rw [h1] at ht; simp at ht
  | notify pre post p ht => rw [h1] at ht; simp at ht

end Verif.Replication.Progress
