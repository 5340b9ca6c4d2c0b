import Verif.Replication.Progress

/-
Invariants of `Verif.Replication.Progress`: whenever a connected follower differs from the leader, something that will
be noticed is under way.
-/

namespace Verif.Replication.Progress
open Verif.Replication

variable {α : Type}

theorem put_same {β : Type} (f : Nat → β) (i : Nat) (x : β) : put f i x i = x := by simp [put]
theorem put_ne {β : Type} (f : Nat → β) {i j : Nat} (x : β) (h : j ≠ i) : put f i x j = f j := by simp [put, h]

/-! ### Reading -/

theorem readAt_boundary (pre rest : List (List α)) (start : Int) (hne : ∀ b ∈ rest, b ≠ []) (h : rest ≠ []) :
    readAt (pre ++ rest) start (start + size pre) = some (start + size pre, rest) := by
  induction pre generalizing start with
  | nil =>
    cases rest with
    | nil => exact absurd rfl h
    | cons b l =>
      have hb : 0 < b.length := List.length_pos_iff.2 (hne b (by simp))
      simp only [List.nil_append, readAt, size_nil]
      rw [if_pos (by omega)]
      congr 2
      omega
  | cons b pre ih =>
    simp only [List.cons_append, readAt]
    have h1 := size_nonneg pre
    rw [size_cons, if_neg (by omega)]
    have h2 : start + (b.length + size pre) = start + b.length + size pre := by omega
    rw [h2]
    exact ih _

/-- What is read at the end of a shorter log. -/
theorem readAt_prefix {a l : List (List α)} (hp : a <+: l) (hne : ∀ b ∈ l, b ≠ []) (h : size a < size l) :
    ∃ rest, rest ≠ [] ∧ (∀ b ∈ rest, b ∈ l) ∧ readAt l 0 (size a) = some (size a, rest) := by
  obtain ⟨rest, rfl⟩ := hp
  have hr : rest ≠ [] := by
    rintro rfl
    rw [List.append_nil] at h
    omega
  have := readAt_boundary a rest 0 (fun b hb => hne b (List.mem_append_right _ hb)) hr
  rw [Int.zero_add] at this
  exact ⟨rest, hr, fun b hb => List.mem_append_right _ hb, this⟩

/-! ### The invariant -/

/-- Facts about the logs and positions. -/
structure Core (n : Nat) (hw0 : Int) (l : Leader α) (fs : Nat → Follower α) (start : Int) : Prop where
  ne : ∀ b ∈ l.log, b ≠ []
  leoEq : l.leo = size l.log
  hwLeo : l.hw ≤ l.leo
  hwGe : 0 ≤ hw0 ∧ hw0 ≤ l.hw
  hwFrom : l.hw = hw0 ∨ ∀ i, i < n → l.hw ≤ (l.infos i).leo
  pref : ∀ i, i < n → (fs i).log <+: l.log
  fEq : ∀ i, i < n → (fs i).leo = size (fs i).log
  fHw : ∀ i, i < n → 0 ≤ (fs i).hw ∧ (fs i).hw ≤ (fs i).leo ∧ (fs i).hw ≤ l.hw
  stored : ∀ i, i < n → start ≤ (fs i).leo
  info : ∀ i, i < n → (l.infos i).hw ≤ (fs i).hw ∧ (l.infos i).leo ≤ (fs i).leo
  /-- the watermark is not behind all followers -/
  least : n ≠ 0 → ∃ i, i < n ∧ (l.infos i).leo ≤ l.hw
  alone : n = 0 → l.hw = l.leo

theorem Core.fLeo {n : Nat} {hw0 : Int} {l : Leader α} {fs : Nat → Follower α} {start : Int}
    (c : Core n hw0 l fs start) {i : Nat} (hi : i < n) : (fs i).leo ≤ l.leo := by
  rw [c.fEq i hi, c.leoEq]; exact size_prefix (c.pref i hi)

/-- The position a task has read is still the one of the leader. -/
def Fresh (l : Leader α) : Seen → Prop
  | .nothing => True
  | .hw h => h = l.hw
  | .both p => p = ⟨l.hw, l.leo⟩

/-- A task that will bring follower `i` forward. -/
def Helps (l : Leader α) (i : Nat) (t : Task) : Prop :=
  match t.job with
  | .send j => j = i ∧ Fresh l t.seen
  | .merge j _ => j = i
  | .notify => Fresh l t.seen

/-- A message that will bring follower `i` forward, if the leader knows the position of the follower. -/
def Current (l : Leader α) (i : Nat) (m : Sync α) : Prop :=
  m.hw = l.hw ∧ ((l.infos i).leo < l.leo → m.base = (l.infos i).leo ∧ m.batches.flatten.length > 0)

/-- Something is under way for follower `i`. -/
def Work (s : Sys α) (i : Nat) : Prop :=
  s.pending i = true ∨ (∃ t ∈ s.tasks, Helps s.leader i t) ∨ s.reports i ≠ [] ∨
    ∃ m ∈ s.syncs i, Current s.leader i m

/-- A task has read a position not behind a report. -/
def Ahead (r : Info) : Seen → Prop
  | .nothing => True
  | .hw h => r.hw ≤ h
  | .both p => r.hw ≤ p.hw ∧ r.leo ≤ p.leo

/-- A task has read an earlier position of the leader. -/
def Past (hw0 : Int) (l : Leader α) : Seen → Prop
  | .nothing => True
  | .hw h => hw0 ≤ h ∧ h ≤ l.hw
  | .both p => hw0 ≤ p.hw ∧ p.hw ≤ l.hw ∧ p.leo ≤ l.leo

/-- What is true of a task. -/
def TaskOk (n : Nat) (hw0 : Int) (l : Leader α) (fs : Nat → Follower α) (up : Nat → Bool) (t : Task) : Prop :=
  Past hw0 l t.seen ∧
  match t.job with
  | .send i => i < n ∧ up i = true
  | .merge i r => i < n ∧ r.hw ≤ (fs i).hw ∧ r.leo ≤ (fs i).leo ∧ Ahead r t.seen
  | .notify => True

/-- What is true in every state. -/
structure PInv (n : Nat) (hw0 : Int) (s : Sys α) : Prop where
  core : Core n hw0 s.leader s.followers s.start
  rep : ∀ i, ∀ r ∈ s.reports i, r.hw ≤ (s.followers i).hw ∧ r.leo ≤ (s.followers i).leo
  task : ∀ t ∈ s.tasks, TaskOk n hw0 s.leader s.followers s.up t
  syn : ∀ i, ∀ m ∈ s.syncs i, m.hw ≤ s.leader.hw ∧ (m.batches ≠ [] → At s.leader.log m.base m.batches)
  down : ∀ i, s.up i = false → s.syncs i = [] ∧ s.reports i = []
  upLt : ∀ i, s.up i = true → i < n
  /-- the leader knows the position of the follower, or a report of it is under way -/
  known : ∀ i, s.up i = true → s.leader.infos i = s.fpos i ∨ s.fpos i ∈ s.reports i ∨
    ∃ sn, ⟨.merge i (s.fpos i), sn⟩ ∈ s.tasks
  work : ∀ i, s.up i = true → s.leader.infos i = s.pos ∨ Work s i

theorem PInv.start {n : Nat} {s : Sys α} (h : Start n s) : PInv n s.leader.hw s := by
  obtain ⟨i1, i2, i3, i4, i5⟩ := h.idle
  constructor
  · constructor
    · exact h.batches
    · exact h.leo
    · exact h.hw.2
    · exact ⟨h.hw.1, Int.le_refl _⟩
    · exact .inl rfl
    · exact h.pref
    · exact h.fleo
    · exact h.fhw
    · exact h.stored
    · intro i hi
      have h1 := h.fhw i hi
      rw [h.unknown]
      simp only [Info.unknown]
      omega
    · intro hn
      refine ⟨0, by omega, ?_⟩
      have h1 := h.hw.1
      rw [h.unknown]
      simp only [Info.unknown]
      omega
    · exact h.alone
  · intro i r hr; rw [i5] at hr; cases hr
  · intro t ht; rw [i1] at ht; cases ht
  · intro i m hm; rw [i4] at hm; cases hm
  · intro i _; exact ⟨i4 i, i5 i⟩
  · intro i hu; rw [i2] at hu; cases hu
  · intro i hu; rw [i2] at hu; cases hu
  · intro i hu; rw [i2] at hu; cases hu

/-! ### Merging -/

/-- The watermark does not fall, stays within what all have, and is not behind all followers. -/
theorem merge_facts {n : Nat} {hw0 : Int} {l : Leader α} {fs : Nat → Follower α} {start : Int}
    (c : Core n hw0 l fs start) {h : Handler} (hn : h.follower < n) (h1 : hw0 ≤ h.leaderPos.hw)
    (h2 : h.leaderPos.hw ≤ l.hw) (h3 : h.pos.hw ≤ (fs h.follower).hw) (h4 : h.pos.leo ≤ (fs h.follower).leo)
    (h5 : h.pos.leo ≤ h.leaderPos.leo) :
    l.hw ≤ (l.merge n h true).hw ∧ Core n hw0 (l.merge n h true) fs start := by
  obtain ⟨e1, e2, _⟩ := merge_same n l h true
  have hinf := merge_infos n l h true hn
  have hle : ∀ i, (l.infos i).leo ≤ ((l.merge n h true).infos i).leo := by
    intro i; rw [hinf i]; split
    · rename_i he; subst he; rw [update_leo]; omega
    · exact Int.le_refl _
  have hup : ∀ i, i < n → ((l.merge n h true).infos i).hw ≤ (fs i).hw ∧
      ((l.merge n h true).infos i).leo ≤ (fs i).leo := by
    intro i hi
    rw [hinf i]; split
    · rename_i he; subst he
      have := c.info _ hi
      simp only [Info.update]
      constructor <;> split <;> omega
    · exact c.info i hi
  have hlen : ∀ g : Nat → Int, ((List.range n).map g).length + 1 = n + 1 := by intro g; simp
  have hall : ∀ (g : Nat → Int) (P : Int → Prop), (∀ i, i < n → P (g i)) → ∀ x ∈ (List.range n).map g, P x := by
    intro g P hg x hx
    obtain ⟨i, hi, rfl⟩ := List.mem_map.1 hx
    exact hg i (List.mem_range.1 hi)
  have hfacts : ∀ x, computeHw h.leaderPos.hw (n + 1)
        ((List.range n).map (fun i => ((l.merge n h true).infos i).leo)) = some x →
      h.leaderPos.hw < x ∧ (∀ i, i < n → x ≤ ((l.merge n h true).infos i).leo) ∧ l.hw ≤ x := by
    intro x hx
    rw [← hlen] at hx
    obtain ⟨a, b⟩ := computeHw_all hx
    refine ⟨a, fun i hi => b _ (List.mem_map.2 ⟨i, List.mem_range.2 hi, rfl⟩), ?_⟩
    rcases c.hwFrom with hf | hf
    · omega
    · exact computeHw_all_ge hx (hall _ (fun y => l.hw ≤ y) fun i hi => Int.le_trans (hf i hi) (hle i))
  have hmono : l.hw ≤ (l.merge n h true).hw := by
    rcases merge_hw n l h true hn with e | e
    · rw [e]; exact Int.le_refl _
    · exact (hfacts _ e).2.2
  have hfrom : (l.merge n h true).hw = hw0 ∨ ∀ i, i < n → (l.merge n h true).hw ≤ ((l.merge n h true).infos i).leo := by
    rcases merge_hw n l h true hn with e | e
    · rw [e]
      rcases c.hwFrom with hf | hf
      · exact .inl hf
      · exact .inr fun i hi => Int.le_trans (hf i hi) (hle i)
    · exact .inr (hfacts _ e).2.1
  refine ⟨hmono, ?_⟩
  constructor
  · rw [e1]; exact c.ne
  · rw [e1, e2]; exact c.leoEq
  · rw [e2]
    rcases merge_hw n l h true hn with e | e
    · rw [e]; exact c.hwLeo
    · have a := (hfacts _ e).2.1 _ hn
      have b := (hup _ hn).2
      have d := c.fLeo hn
      omega
  · exact ⟨c.hwGe.1, Int.le_trans c.hwGe.2 hmono⟩
  · exact hfrom
  · rw [e1]; exact c.pref
  · exact c.fEq
  · intro i hi
    have := c.fHw i hi
    exact ⟨this.1, this.2.1, Int.le_trans this.2.2 hmono⟩
  · exact c.stored
  · exact hup
  · intro hn0
    obtain ⟨i, hi, hil⟩ := c.least hn0
    -- the follower the watermark is not behind, after the merge
    have hkeep : h.pos.leo ≤ l.hw → ((l.merge n h true).infos i).leo ≤ (l.merge n h true).hw := by
      intro hp
      rw [hinf i]
      split
      · rename_i he; subst he; rw [update_leo]; omega
      · omega
    by_cases hch : ((l.infos h.follower).update h.pos).2 = true
    · by_cases hcm : h.leaderPos.isCommitted = true
      · refine ⟨i, hi, hkeep ?_⟩
        have : h.leaderPos.leo = h.leaderPos.hw := by simpa [Info.isCommitted] using hcm
        omega
      · cases hc : computeHw h.leaderPos.hw (n + 1)
            ((List.range n).map (fun i => ((l.merge n h true).infos i).leo)) with
        | none =>
          rw [computeHw_none (by simp; omega)] at hc
          apply Classical.byContradiction
          intro hno
          have : ∀ y ∈ (List.range n).map (fun i => ((l.merge n h true).infos i).leo),
              h.leaderPos.hw + 1 ≤ y := by
            apply hall
            intro j hj
            apply Classical.byContradiction
            intro hlt
            exact hno ⟨j, hj, by omega⟩
          rw [atLeast_all this] at hc
          simp at hc
        | some x =>
          have hx := hc
          rw [computeHw_some (by simp; omega)] at hc
          obtain ⟨_, _, hc3⟩ := hc
          have hxv : (l.merge n h true).hw = x := by
            have heq : (List.range n).map (fun i => ((l.merge n h true).infos i).leo) =
                (List.range n).map (fun i => (if i = h.follower then ((l.infos h.follower).update h.pos).1
                  else l.infos i).leo) := by
              apply List.map_congr_left
              intro i _
              rw [hinf i]
            rw [heq] at hx
            unfold Leader.merge
            dsimp only
            rw [if_pos hn, if_pos hch, if_neg hcm, hx]
            rfl
          apply Classical.byContradiction
          intro hno
          have : ∀ y ∈ (List.range n).map (fun i => ((l.merge n h true).infos i).leo), x + 1 ≤ y := by
            apply hall
            intro j hj
            apply Classical.byContradiction
            intro hlt
            exact hno ⟨j, hj, by rw [hxv]; omega⟩
          have h6 := hc3 (x + 1) (by omega)
          rw [atLeast_all this] at h6
          simp at h6
    · refine ⟨i, hi, ?_⟩
      have : h.pos.leo ≤ (l.infos h.follower).leo := by
        simp only [Info.update, Bool.or_eq_true, decide_eq_true_eq] at hch
        omega
      rw [hinf i]
      split
      · rename_i he; subst he; rw [update_leo]; omega
      · omega
  · intro hn0; omega

/-! ### Receiving -/

theorem changed_false {f : Follower α} {m : Sync α} :
    changed f m = false ↔ ¬ m.batches.flatten.length > 0 ∧ (f.receive m).hw = f.hw := by
  unfold changed
  rw [Bool.or_eq_false_iff, decide_eq_false_iff_not, decide_eq_false_iff_not, Decidable.not_not]

theorem changed_true {f : Follower α} {m : Sync α} :
    changed f m = true ↔ m.batches.flatten.length > 0 ∨ (f.receive m).hw ≠ f.hw := by
  unfold changed
  rw [Bool.or_eq_true, decide_eq_true_eq, decide_eq_true_eq]

/-- What a follower is after a message. -/
theorem receive_facts {f : Follower α} {m : Sync α} {log : List (List α)} {hw leo : Int}
    (hne : ∀ b ∈ log, b ≠ []) (hpre : f.log <+: log) (heq : f.leo = size f.log) (hhw : f.hw ≤ f.leo)
    (hlhw : f.hw ≤ hw) (hleo : leo = size log)
    (hm : m.hw ≤ hw) (hat : m.batches ≠ [] → At log m.base m.batches) :
    (f.receive m).log <+: log ∧ (f.receive m).leo = size (f.receive m).log ∧ f.hw ≤ (f.receive m).hw ∧
      (f.receive m).hw ≤ (f.receive m).leo ∧ (f.receive m).hw ≤ hw ∧ f.leo ≤ (f.receive m).leo ∧
      (m.batches.flatten.length > 0 → m.base = f.leo → f.leo < (f.receive m).leo) ∧
      (changed f m = false → (f.receive m).hw = f.hw ∧ (f.receive m).leo = f.leo) := by
  unfold Follower.receive
  by_cases hb : m.batches.flatten.length > 0 ∧ m.base = f.leo
  · rw [if_pos hb]
    dsimp only
    generalize hf' : ({ f with log := f.log ++ m.batches, leo := size (f.log ++ m.batches) } : Follower α) = f'
    have e1 : f'.log = f.log ++ m.batches := by rw [← hf']
    have e2 : f'.leo = size (f.log ++ m.batches) := by rw [← hf']
    have e3 : f'.hw = f.hw := by rw [← hf']
    obtain ⟨t1, t2, _⟩ := takeHw_log f' m.hw
    have t4 := takeHw_hw f' m.hw
    have hgrow : size (f.log ++ m.batches) = size f.log + m.batches.flatten.length := by
      rw [size_append]; rfl
    have hpre' : f.log ++ m.batches <+: log := by
      obtain ⟨pre, post, h1, h2⟩ := hat (by rintro h; rw [h] at hb; simp at hb)
      have : f.log = pre := by
        apply prefix_eq hne hpre
        · rw [h1]; exact ⟨m.batches ++ post, by simp⟩
        · omega
      rw [this, h1]
      exact ⟨post, by simp⟩
    refine ⟨by rw [t1, e1]; exact hpre', by rw [t1, t2, e1, e2], ?_, ?_, ?_, ?_, ?_, ?_⟩
    · rcases t4 with h | ⟨h, _, h'⟩ <;> omega
    · rcases t4 with h | ⟨h, h', _⟩ <;> omega
    · rcases t4 with h | ⟨h, _⟩ <;> omega
    · omega
    · intro h _; omega
    · intro h
      exact absurd hb.1 (changed_false.1 h).1
  · rw [if_neg hb]
    dsimp only
    obtain ⟨t1, t2, _⟩ := takeHw_log f m.hw
    have t4 := takeHw_hw f m.hw
    refine ⟨by rw [t1]; exact hpre, by rw [t1, t2]; exact heq, ?_, ?_, ?_, ?_, ?_, ?_⟩
    · rcases t4 with h | ⟨h, _, h'⟩ <;> omega
    · rcases t4 with h | ⟨h, h', _⟩ <;> omega
    · rcases t4 with h | ⟨h, _⟩ <;> omega
    · omega
    · intro h h'; exact absurd ⟨h, h'⟩ hb
    · intro h
      have h2 := (changed_false.1 h).2
      unfold Follower.receive at h2
      rw [if_neg hb] at h2
      exact ⟨h2, t2⟩

/-! ### Steps -/

theorem mem_mid {β : Type} {pre post : List β} {x t : β} : t ∈ pre ++ x :: post ↔ t = x ∨ t ∈ pre ++ post := by
  simp only [List.mem_append, List.mem_cons]
  constructor
  · rintro (h | h | h) <;> simp [h]
  · rintro (h | h | h) <;> simp [h]

theorem validOf {i : Info} (h : 0 ≤ i.hw ∧ i.hw ≤ i.leo) : i.isValid = true := by
  unfold Info.isValid
  have h1 : (i.hw == -1) = false := by simp; omega
  have h2 : (i.leo == -1) = false := by simp; omega
  simp [h1, h2, h.2]

theorem isSame_iff {i o : Info} : i.isSame o = true ↔ i = o := by
  unfold Info.isSame
  cases i; cases o
  simp

/-- The message sent by a task with the current position. -/
theorem message_current {n : Nat} {hw0 : Int} {s : Sys α} {big : List α → Bool} (c : Core n hw0 s.leader s.followers s.start)
    (hbig : ∀ b ∈ s.leader.log, big b = false) {i : Nat} (hi : i < n) (he : s.leader.infos i = s.fpos i)
    (hne : s.leader.infos i ≠ s.pos) {k : Nat} (hk : Cut big s.leader.log (s.leader.infos i).leo k) :
    ∃ m, s.message i s.pos k = some m ∧ Current s.leader i m := by
  have hv : (s.leader.infos i).isValid = true := by
    apply validOf
    rw [he]
    have := c.fHw i hi
    exact ⟨this.1, this.2.1⟩
  have hs : (s.leader.infos i).isSame s.pos = false := by
    cases h : (s.leader.infos i).isSame s.pos with
    | false => rfl
    | true => exact absurd (isSame_iff.1 h) hne
  have hle : (s.leader.infos i).leo = size (s.followers i).log := by rw [he]; exact c.fEq i hi
  unfold Sys.message Leader.updates
  dsimp only
  rw [hv, hs]
  simp only [Bool.not_false, Bool.and_self, if_true]
  by_cases hlt : (s.leader.infos i).leo < s.pos.leo
  · rw [if_pos hlt]
    have hlt' : size (s.followers i).log < size s.leader.log := by
      rw [← hle, ← c.leoEq]; exact hlt
    obtain ⟨rest, h1, h2, h3⟩ := readAt_prefix (c.pref i hi) c.ne hlt'
    have hst : ¬ (s.leader.infos i).leo < s.start := by
      have := c.stored i hi
      rw [he]
      show ¬ (s.followers i).leo < s.start
      omega
    rw [if_neg hst, hle, h3]
    dsimp only
    refine ⟨_, rfl, rfl, fun _ => ⟨hle.symm, ?_⟩⟩
    unfold Cut at hk
    rw [hle, h3] at hk
    cases rest with
    | nil => exact absurd rfl h1
    | cons b l =>
      have hb := h2 b (by simp)
      simp only [hbig b hb] at hk
      have h4 : 0 < b.length := List.length_pos_iff.2 (c.ne b hb)
      cases k with
      | zero => simp at hk
      | succ k =>
        simp only [List.take_succ_cons, List.flatten_cons, List.length_append]
        omega
  · rw [if_neg hlt]
    exact ⟨_, rfl, rfl, fun h => absurd h hlt⟩

/-- A message that brings the follower forward does so. -/
theorem current_changes {n : Nat} {hw0 : Int} {s : Sys α} (c : Core n hw0 s.leader s.followers s.start) {i : Nat}
    (hi : i < n) (he : s.leader.infos i = s.fpos i) (hne : s.leader.infos i ≠ s.pos) {m : Sync α}
    (hc : Current s.leader i m) : changed (s.followers i) m = true := by
  rw [changed_true]
  by_cases hlt : (s.leader.infos i).leo < s.leader.leo
  · exact .inl (hc.2 hlt).2
  · have hl := c.fLeo hi
    have hf := c.fHw i hi
    rw [he] at hlt hne
    have hleo : (s.followers i).leo = s.leader.leo := by
      have : ¬ (s.followers i).leo < s.leader.leo := hlt
      omega
    have hhw : (s.followers i).hw < s.leader.hw := by
      have : (s.followers i).hw ≠ s.leader.hw := by
        intro h
        exact hne (by unfold Sys.fpos Sys.pos; rw [h, hleo])
      omega
    have hm := hc.1
    have := c.hwLeo
    by_cases hb : m.batches.flatten.length > 0
    · exact .inl hb
    · have : ((s.followers i).receive m).hw = m.hw := by
        unfold Follower.receive Follower.takeHw
        rw [if_neg (fun h : m.batches.flatten.length > 0 ∧ m.base = (s.followers i).leo => hb h.1)]
        rw [if_pos (by omega), if_neg (by omega), if_neg (by omega)]
      right
      omega

/-- What `message` yields is in the log. -/
theorem message_at {s : Sys α} {i k : Nat} {p : Info} {m : Sync α} (h : s.message i p k = some m) :
    m.hw = p.hw ∧ (m.batches ≠ [] → At s.leader.log m.base m.batches) := by
  unfold Sys.message Leader.updates at h
  dsimp only at h
  split at h
  · split at h
    · split at h
      · rename_i base bs hr
        injection h with h; subst h
        refine ⟨rfl, fun _ => ?_⟩
        obtain ⟨pre, h1, h2⟩ := readAt_spec hr
        refine ⟨pre, bs.drop (if (s.leader.infos i).leo < s.start then 0 else k), ?_, by rw [h2]; simp⟩
        rw [List.append_assoc, List.take_append_drop]; exact h1
      · injection h with h; subst h
        exact ⟨rfl, fun h => absurd rfl h⟩
    · injection h with h; subst h
      exact ⟨rfl, fun h => absurd rfl h⟩
  · cases h

/-- Work goes on when only the tasks change, and those that help are kept. -/
theorem Work.tasks {s : Sys α} {i : Nat} {ts : List Task} (h : Work s i)
    (hk : ∀ t ∈ s.tasks, Helps s.leader i t → ∃ t' ∈ ts, Helps s.leader i t') : Work { s with tasks := ts } i := by
  rcases h with h | ⟨t, ht, hh⟩ | h | h
  · exact .inl h
  · exact .inr (.inl (hk t ht hh))
  · exact .inr (.inr (.inl h))
  · exact .inr (.inr (.inr h))

/-- Replacing a task by one that has read more. -/
theorem PInv.read {n : Nat} {hw0 : Int} {s : Sys α} (hi : PInv n hw0 s) {pre post : List Task} {j : Job}
    {sn sn' : Seen} (ht : s.tasks = pre ++ ⟨j, sn⟩ :: post)
    (hok : TaskOk n hw0 s.leader s.followers s.up ⟨j, sn'⟩)
    (hfresh : Fresh s.leader sn → Fresh s.leader sn') :
    PInv n hw0 { s with tasks := pre ++ ⟨j, sn'⟩ :: post } := by
  constructor
  · exact hi.core
  · exact hi.rep
  · intro t h
    rcases mem_mid.1 h with rfl | h
    · exact hok
    · exact hi.task t (by rw [ht]; exact mem_mid.2 (.inr h))
  · exact hi.syn
  · exact hi.down
  · exact hi.upLt
  · intro i hu
    rcases hi.known i hu with h | h | ⟨x, h⟩
    · exact .inl h
    · exact .inr (.inl h)
    · rw [ht] at h
      rcases mem_mid.1 h with h | h
      · injection h with h1 h2
        exact .inr (.inr ⟨sn', mem_mid.2 (.inl (by rw [← h1]; rfl))⟩)
      · exact .inr (.inr ⟨x, mem_mid.2 (.inr h)⟩)
  · intro i hu
    rcases hi.work i hu with h | h
    · exact .inl h
    · refine .inr (h.tasks ?_)
      intro t hm hh
      rw [ht] at hm
      rcases mem_mid.1 hm with rfl | hm
      · refine ⟨⟨j, sn'⟩, mem_mid.2 (.inl rfl), ?_⟩
        revert hh
        cases j with
        | send k => exact fun hh => ⟨hh.1, hfresh hh.2⟩
        | merge k r => exact fun hh => hh
        | notify => exact fun hh => hfresh hh
      · exact ⟨t, mem_mid.2 (.inr hm), hh⟩

/-- A follower is known, or something is under way for it. -/
theorem PInv.known' {n : Nat} {hw0 : Int} {s : Sys α} (hi : PInv n hw0 s) {i : Nat} (hu : s.up i = true) :
    s.leader.infos i = s.fpos i ∨ s.reports i ≠ [] ∨ ∃ r sn, (⟨.merge i r, sn⟩ : Task) ∈ s.tasks := by
  rcases hi.known i hu with h | h | ⟨x, h⟩
  · exact .inl h
  · exact .inr (.inl (List.ne_nil_of_mem h))
  · exact .inr (.inr ⟨_, x, h⟩)

theorem PInv.quiet {n : Nat} {hw0 : Int} {big : List α → Bool} {s t : Sys α} (hi : PInv n hw0 s)
    (hs : Quiet n big s t) (hbig : ∀ b ∈ s.leader.log, big b = false) : PInv n hw0 t := by
  have c := hi.core
  cases hs with
  | drain i hin up hp =>
    constructor
    · exact c
    · exact hi.rep
    · intro t h
      rcases List.mem_cons.1 h with rfl | h
      · exact ⟨trivial, hin, up⟩
      · exact hi.task t h
    · exact hi.syn
    · exact hi.down
    · exact hi.upLt
    · intro j hu
      rcases hi.known j hu with h | h | ⟨x, h⟩
      · exact .inl h
      · exact .inr (.inl h)
      · exact .inr (.inr ⟨x, List.mem_cons_of_mem _ h⟩)
    · intro j hu
      rcases hi.work j hu with h | h
      · exact .inl h
      · right
        rcases h with h | ⟨t, ht, hh⟩ | h | h
        · by_cases hj : j = i
          · subst hj
            exact .inr (.inl ⟨⟨.send j, .nothing⟩, List.mem_cons_self, rfl, trivial⟩)
          · left
            show put s.pending i false j = true
            rw [put_ne _ _ hj]; exact h
        · exact .inr (.inl ⟨t, List.mem_cons_of_mem _ ht, hh⟩)
        · exact .inr (.inr (.inl h))
        · exact .inr (.inr (.inr h))
  | readHw pre post j ht =>
    refine hi.read ht ?_ (fun _ => rfl)
    have h0 := hi.task ⟨j, .nothing⟩ (by rw [ht]; exact mem_mid.2 (.inl rfl))
    refine ⟨⟨c.hwGe.2, Int.le_refl _⟩, ?_⟩
    cases j with
    | send i => exact h0.2
    | merge i r =>
      have h1 := h0.2
      have h2 := c.fHw i h1.1
      refine ⟨h1.1, h1.2.1, h1.2.2.1, ?_⟩
      show r.hw ≤ s.leader.hw
      have := h1.2.1
      omega
    | notify => trivial
  | readLeo pre post j h ht =>
    have h0 := hi.task ⟨j, .hw h⟩ (by rw [ht]; exact mem_mid.2 (.inl rfl))
    refine hi.read ht ?_ (fun hf => ?_)
    · refine ⟨⟨h0.1.1, h0.1.2, Int.le_refl _⟩, ?_⟩
      cases j with
      | send i => exact h0.2
      | merge i r =>
        have h1 := h0.2
        have h2 := c.fLeo h1.1
        refine ⟨h1.1, h1.2.1, h1.2.2.1, h1.2.2.2, ?_⟩
        show r.leo ≤ s.leader.leo
        have := h1.2.2.1
        omega
      | notify => trivial
    · show (⟨h, s.leader.leo⟩ : Info) = ⟨s.leader.hw, s.leader.leo⟩
      rw [show h = s.leader.hw from hf]
  | send pre post i p k ht hk =>
    have h0 := hi.task ⟨.send i, .both p⟩ (by rw [ht]; exact mem_mid.2 (.inl rfl))
    obtain ⟨⟨hp1, hp2, hp3⟩, hin, hup⟩ := h0
    have hmem : ∀ j m, m ∈ (match s.message i p k with
          | some m => put s.syncs i (m :: s.syncs i)
          | none => s.syncs) j → m ∈ s.syncs j ∨ (j = i ∧ s.message i p k = some m) := by
      intro j m hm
      cases hmsg : s.message i p k with
      | none => rw [hmsg] at hm; exact .inl hm
      | some m' =>
        rw [hmsg] at hm
        dsimp only at hm
        by_cases hj : j = i
        · subst hj
          rw [put_same] at hm
          rcases List.mem_cons.1 hm with rfl | hm
          · exact .inr ⟨rfl, rfl⟩
          · exact .inl hm
        · rw [put_ne _ _ hj] at hm; exact .inl hm
    have hkeep : ∀ j m, m ∈ s.syncs j → m ∈ (match s.message i p k with
          | some m => put s.syncs i (m :: s.syncs i)
          | none => s.syncs) j := by
      intro j m hm
      cases hmsg : s.message i p k with
      | none => exact hm
      | some m' =>
        dsimp only
        by_cases hj : j = i
        · subst hj; rw [put_same]; exact List.mem_cons_of_mem _ hm
        · rw [put_ne _ _ hj]; exact hm
    constructor
    · exact c
    · exact hi.rep
    · intro t h
      exact hi.task t (by rw [ht]; exact mem_mid.2 (.inr h))
    · intro j m hm
      rcases hmem j m hm with h | ⟨_, h⟩
      · exact hi.syn j m h
      · obtain ⟨h1, h2⟩ := message_at h
        exact ⟨by rw [h1]; exact hp2, h2⟩
    · intro j hu
      obtain ⟨h1, h2⟩ := hi.down j hu
      refine ⟨?_, h2⟩
      have hj : j ≠ i := by rintro rfl; rw [hup] at hu; cases hu
      show (match s.message i p k with
          | some m => put s.syncs i (m :: s.syncs i)
          | none => s.syncs) j = []
      cases s.message i p k with
      | none => exact h1
      | some m => dsimp only; rw [put_ne _ _ hj]; exact h1
    · exact hi.upLt
    · intro j hu
      rcases hi.known j hu with h | h | ⟨x, h⟩
      · exact .inl h
      · exact .inr (.inl h)
      · rw [ht] at h
        rcases mem_mid.1 h with h | h
        · injection h with h1 h2; cases h1
        · exact .inr (.inr ⟨x, h⟩)
    · intro j hu
      rcases hi.work j hu with h | h
      · exact .inl h
      · by_cases he0 : s.leader.infos j = s.pos
        · exact .inl he0
        right
        rcases h with h | ⟨t, htm, hh⟩ | h | ⟨m, hm, hcur⟩
        · exact .inl h
        · rw [ht] at htm
          rcases mem_mid.1 htm with rfl | htm
          · obtain ⟨hij, hf⟩ := hh
            subst hij
            have hf' : p = s.pos := hf
            rcases hi.known' hu with hk' | hr | ⟨r, sn, hmt⟩
            · subst hf'
              obtain ⟨m, h1, h2⟩ := message_current c hbig hin hk' he0 hk
              refine .inr (.inr (.inr ⟨m, ?_, h2⟩))
              show m ∈ (match s.message i s.pos k with
                | some m => put s.syncs i (m :: s.syncs i)
                | none => s.syncs) i
              rw [h1]
              dsimp only
              rw [put_same]
              exact List.mem_cons_self
            · exact .inr (.inr (.inl hr))
            · rw [ht] at hmt
              rcases mem_mid.1 hmt with h | h
              · injection h with h1 h2; cases h1
              · exact .inr (.inl ⟨_, h, rfl⟩)
          · exact .inr (.inl ⟨t, htm, hh⟩)
        · exact .inr (.inr (.inl h))
        · exact .inr (.inr (.inr ⟨m, hkeep j m hm, hcur⟩))
  | receive i pre post m hm =>
    have hup : s.up i = true := by
      cases h : s.up i with
      | true => rfl
      | false => rw [(hi.down i h).1] at hm; simp at hm
    have hin := hi.upLt i hup
    have hmm : m ∈ s.syncs i := by rw [hm]; exact mem_mid.2 (.inl rfl)
    obtain ⟨hs1, hs2⟩ := hi.syn i m hmm
    have hfw := c.fHw i hin
    obtain ⟨r1, r2, r3, r4, r5, r6, r7, r8⟩ := receive_facts c.ne (c.pref i hin) (c.fEq i hin) hfw.2.1 hfw.2.2
      c.leoEq hs1 hs2
    generalize hf' : (s.followers i).receive m = f' at *
    -- followers only grow
    have hgrow : ∀ j, (s.followers j).hw ≤ (put s.followers i f' j).hw ∧
        (s.followers j).leo ≤ (put s.followers i f' j).leo := by
      intro j
      by_cases hj : j = i
      · subst hj; rw [put_same]; exact ⟨r3, r6⟩
      · rw [put_ne _ _ hj]; exact ⟨Int.le_refl _, Int.le_refl _⟩
    have hrep : ∀ j r, r ∈ (if changed (s.followers i) m then put s.reports i (⟨f'.hw, f'.leo⟩ :: s.reports i)
        else s.reports) j → r ∈ s.reports j ∨ (j = i ∧ r = ⟨f'.hw, f'.leo⟩) := by
      intro j r hr
      split at hr
      · by_cases hj : j = i
        · subst hj; rw [put_same] at hr
          rcases List.mem_cons.1 hr with h | h
          · exact .inr ⟨rfl, h⟩
          · exact .inl h
        · rw [put_ne _ _ hj] at hr; exact .inl hr
      · exact .inl hr
    have hrepkeep : ∀ j r, r ∈ s.reports j → r ∈ (if changed (s.followers i) m then
        put s.reports i (⟨f'.hw, f'.leo⟩ :: s.reports i) else s.reports) j := by
      intro j r hr
      split
      · by_cases hj : j = i
        · subst hj; rw [put_same]; exact List.mem_cons_of_mem _ hr
        · rw [put_ne _ _ hj]; exact hr
      · exact hr
    constructor
    · show Core n hw0 s.leader (put s.followers i f') s.start
      constructor
      · exact c.ne
      · exact c.leoEq
      · exact c.hwLeo
      · exact c.hwGe
      · exact c.hwFrom
      · intro j hj
        by_cases hji : j = i
        · subst hji; rw [put_same]; exact r1
        · rw [put_ne _ _ hji]; exact c.pref j hj
      · intro j hj
        by_cases hji : j = i
        · subst hji; rw [put_same]; exact r2
        · rw [put_ne _ _ hji]; exact c.fEq j hj
      · intro j hj
        by_cases hji : j = i
        · subst hji; rw [put_same]; exact ⟨by omega, r4, r5⟩
        · rw [put_ne _ _ hji]; exact c.fHw j hj
      · intro j hj; exact Int.le_trans (c.stored j hj) (hgrow j).2
      · intro j hj
        have := c.info j hj
        exact ⟨Int.le_trans this.1 (hgrow j).1, Int.le_trans this.2 (hgrow j).2⟩
      · exact c.least
      · exact c.alone
    · intro j r hr
      rcases hrep j r hr with h | ⟨rfl, rfl⟩
      · have := hi.rep j r h
        exact ⟨Int.le_trans this.1 (hgrow j).1, Int.le_trans this.2 (hgrow j).2⟩
      · show f'.hw ≤ (put s.followers j f' j).hw ∧ f'.leo ≤ (put s.followers j f' j).leo
        rw [put_same]; exact ⟨Int.le_refl _, Int.le_refl _⟩
    · intro t h
      have h0 := hi.task t h
      obtain ⟨job, seen⟩ := t
      cases job with
      | send j => exact h0
      | merge j r =>
        obtain ⟨a, b, d, e, f⟩ := h0
        exact ⟨a, b, Int.le_trans d (hgrow j).1, Int.le_trans e (hgrow j).2, f⟩
      | notify => exact h0
    · intro j m' hm'
      have hm'' : m' ∈ put s.syncs i (pre ++ post) j := hm'
      by_cases hj : j = i
      · subst hj; rw [put_same] at hm''
        exact hi.syn j m' (by rw [hm]; exact mem_mid.2 (.inr hm''))
      · rw [put_ne _ _ hj] at hm''; exact hi.syn j m' hm''
    · intro j hu
      have hj : j ≠ i := by rintro rfl; rw [hup] at hu; cases hu
      obtain ⟨h1, h2⟩ := hi.down j hu
      refine ⟨?_, ?_⟩
      · show put s.syncs i (pre ++ post) j = []
        rw [put_ne _ _ hj]; exact h1
      · apply List.eq_nil_iff_forall_not_mem.2
        intro r hr
        rcases hrep j r hr with h | ⟨h, _⟩
        · rw [h2] at h; cases h
        · exact hj h
    · exact hi.upLt
    · intro j hu
      have hfp : Sys.fpos { s with followers := put s.followers i f' } j = ⟨(put s.followers i f' j).hw,
        (put s.followers i f' j).leo⟩ := rfl
      by_cases hj : j = i
      · subst hj
        show s.leader.infos j = ⟨(put s.followers j f' j).hw, (put s.followers j f' j).leo⟩ ∨ _
        simp only [Sys.fpos, put_same]
        cases hc : changed (s.followers j) m with
        | true =>
          right; left
          simp only [if_true, put_same]
          exact List.mem_cons_self
        | false =>
          obtain ⟨e1, e2⟩ := r8 hc
          rw [e1, e2]
          exact hi.known j hu
      · simp only [Sys.fpos, put_ne _ _ hj]
        rcases hi.known j hu with h | h | h
        · exact .inl h
        · exact .inr (.inl (hrepkeep j _ h))
        · exact .inr (.inr h)
    · intro j hu
      rcases hi.work j hu with h | h
      · exact .inl h
      · by_cases he0 : s.leader.infos j = s.pos
        · exact .inl he0
        right
        rcases h with h | h | h | ⟨m', hm', hcur⟩
        · exact .inl h
        · exact .inr (.inl h)
        · refine .inr (.inr (.inl ?_))
          obtain ⟨r, hr⟩ := List.exists_mem_of_ne_nil _ h
          exact List.ne_nil_of_mem (hrepkeep j r hr)
        · by_cases hj : j = i
          · subst hj
            rw [hm] at hm'
            rcases mem_mid.1 hm' with rfl | hm'
            · rcases hi.known' hu with hk' | hr | ⟨r, sn, hmt⟩
              · refine .inr (.inr (.inl ?_))
                have := current_changes c hin hk' he0 hcur
                show (if changed (s.followers j) m' then put s.reports j (⟨f'.hw, f'.leo⟩ :: s.reports j)
                  else s.reports) j ≠ []
                rw [this]
                simp only [if_true, put_same]
                simp
              · refine .inr (.inr (.inl ?_))
                obtain ⟨r, hr⟩ := List.exists_mem_of_ne_nil _ hr
                exact List.ne_nil_of_mem (hrepkeep j r hr)
              · exact .inr (.inl ⟨_, hmt, rfl⟩)
            · refine .inr (.inr (.inr ⟨m', ?_, hcur⟩))
              show m' ∈ put s.syncs j (pre ++ post) j
              rw [put_same]; exact hm'
          · refine .inr (.inr (.inr ⟨m', ?_, hcur⟩))
            show m' ∈ put s.syncs i (pre ++ post) j
            rw [put_ne _ _ hj]; exact hm'
  | take i pre post r hr =>
    have hup : s.up i = true := by
      cases h : s.up i with
      | true => rfl
      | false => rw [(hi.down i h).2] at hr; simp at hr
    have hin := hi.upLt i hup
    have hrm : r ∈ s.reports i := by rw [hr]; exact mem_mid.2 (.inl rfl)
    have hsub : ∀ j x, x ∈ put s.reports i (pre ++ post) j → x ∈ s.reports j := by
      intro j x hx
      by_cases hj : j = i
      · subst hj; rw [put_same] at hx; rw [hr]; exact mem_mid.2 (.inr hx)
      · rw [put_ne _ _ hj] at hx; exact hx
    constructor
    · exact c
    · intro j x hx; exact hi.rep j x (hsub j x hx)
    · intro t h
      rcases List.mem_cons.1 h with rfl | h
      · have := hi.rep i r hrm
        exact ⟨trivial, hin, this.1, this.2, trivial⟩
      · exact hi.task t h
    · exact hi.syn
    · intro j hu
      obtain ⟨h1, h2⟩ := hi.down j hu
      refine ⟨h1, List.eq_nil_iff_forall_not_mem.2 fun x hx => ?_⟩
      have := hsub j x hx
      rw [h2] at this; cases this
    · exact hi.upLt
    · intro j hu
      rcases hi.known j hu with h | h | ⟨x, h⟩
      · exact .inl h
      · by_cases hj : j = i
        · subst hj
          rw [hr] at h
          rcases mem_mid.1 h with h | h
          · refine .inr (.inr ⟨.nothing, ?_⟩)
            show (⟨.merge j (s.fpos j), .nothing⟩ : Task) ∈ _ :: _
            rw [h]; exact List.mem_cons_self
          · refine .inr (.inl ?_)
            show _ ∈ put s.reports j (pre ++ post) j
            rw [put_same]; exact h
        · refine .inr (.inl ?_)
          show _ ∈ put s.reports i (pre ++ post) j
          rw [put_ne _ _ hj]; exact h
      · exact .inr (.inr ⟨x, List.mem_cons_of_mem _ h⟩)
    · intro j hu
      rcases hi.work j hu with h | h
      · exact .inl h
      · right
        by_cases hj : j = i
        · subst hj
          exact .inr (.inl ⟨_, List.mem_cons_self, rfl⟩)
        · rcases h with h | ⟨t, ht, hh⟩ | h | h
          · exact .inl h
          · exact .inr (.inl ⟨t, List.mem_cons_of_mem _ ht, hh⟩)
          · refine .inr (.inr (.inl ?_))
            show put s.reports i (pre ++ post) j ≠ []
            rw [put_ne _ _ hj]; exact h
          · exact .inr (.inr (.inr h))
  | merge pre post i r p ht =>
    have h0 := hi.task ⟨.merge i r, .both p⟩ (by rw [ht]; exact mem_mid.2 (.inl rfl))
    obtain ⟨⟨hp1, hp2, hp3⟩, hin, hr1, hr2, ha1, ha2⟩ := h0
    have hnew : r.newer p = false := by
      unfold Info.newer
      simp only [Bool.or_eq_false_iff, decide_eq_false_iff_not]
      omega
    rw [hnew]
    simp only [Bool.false_eq_true, if_false]
    obtain ⟨hmono, c'⟩ := merge_facts c (h := ⟨i, r, p⟩) hin hp1 hp2 hr1 hr2 ha2
    obtain ⟨e1, e2, _⟩ := merge_same n s.leader ⟨i, r, p⟩ true
    have hinf := merge_infos n s.leader ⟨i, r, p⟩ true hin
    constructor
    · exact c'
    · exact hi.rep
    · intro t h
      rcases List.mem_cons.1 h with rfl | h
      · exact ⟨trivial, trivial⟩
      · obtain ⟨h1, h2⟩ := hi.task t (by rw [ht]; exact mem_mid.2 (.inr h))
        refine ⟨?_, h2⟩
        revert h1
        cases t.seen with
        | nothing => exact fun h => h
        | hw x => exact fun h => ⟨h.1, Int.le_trans h.2 hmono⟩
        | both q => exact fun h => ⟨h.1, Int.le_trans h.2.1 hmono, by show _ ≤ (Leader.merge ..).leo; rw [e2]; exact h.2.2⟩
    · intro j m hm
      obtain ⟨h1, h2⟩ := hi.syn j m hm
      refine ⟨Int.le_trans h1 hmono, ?_⟩
      show _ → At (Leader.merge ..).log _ _
      rw [e1]; exact h2
    · exact hi.down
    · exact hi.upLt
    · intro j hu
      rcases hi.known j hu with h | h | ⟨x, h⟩
      · left
        show (Leader.merge ..).infos j = s.fpos j
        rw [hinf j]
        split
        · rename_i hj
          dsimp only at hj
          subst hj
          rw [h]
          unfold Info.update Sys.fpos
          dsimp only
          rw [if_neg (by omega), if_neg (by omega)]
        · exact h
      · exact .inr (.inl h)
      · rw [ht] at h
        rcases mem_mid.1 h with h | h
        · left
          injection h with h1 h2
          injection h1 with h1 h3
          subst h1
          show (Leader.merge ..).infos j = s.fpos j
          rw [hinf j, if_pos rfl]
          have hle := c.info j hin
          rw [← h3]
          unfold Info.update Sys.fpos
          dsimp only
          congr 1
          · split <;> omega
          · split <;> omega
        · exact .inr (.inr ⟨x, List.mem_cons_of_mem _ h⟩)
    · intro j _
      exact .inr (.inr (.inl ⟨⟨.notify, .nothing⟩, List.mem_cons_self, trivial⟩))
  | notify pre post p ht =>
    constructor
    · exact c
    · exact hi.rep
    · intro t h
      exact hi.task t (by rw [ht]; exact mem_mid.2 (.inr h))
    · exact hi.syn
    · exact hi.down
    · exact hi.upLt
    · intro j hu
      rcases hi.known j hu with h | h | ⟨x, h⟩
      · exact .inl h
      · exact .inr (.inl h)
      · rw [ht] at h
        rcases mem_mid.1 h with h | h
        · injection h with h1 h2; cases h1
        · exact .inr (.inr ⟨x, h⟩)
    · intro j hu
      rcases hi.work j hu with h | h
      · exact .inl h
      · by_cases he0 : s.leader.infos j = s.pos
        · exact .inl he0
        right
        rcases h with h | ⟨t, htm, hh⟩ | h | h
        · left
          show (s.pending j || _) = true
          rw [h]; rfl
        · rw [ht] at htm
          rcases mem_mid.1 htm with rfl | htm
          · have hf : p = s.pos := hh
            have hin := hi.upLt j hu
            rcases hi.known' hu with hk' | hr | ⟨r, sn, hmt⟩
            · left
              have hv : (s.leader.infos j).isValid = true := by
                apply validOf
                rw [hk']
                have := c.fHw j hin
                exact ⟨this.1, this.2.1⟩
              have hs : (s.leader.infos j).isSame p = false := by
                cases h : (s.leader.infos j).isSame p with
                | false => rfl
                | true => exact absurd ((isSame_iff.1 h).trans hf) he0
              show (s.pending j || _) = true
              simp [hin, hv, hs]
            · exact .inr (.inr (.inl hr))
            · rw [ht] at hmt
              rcases mem_mid.1 hmt with h | h
              · injection h with h1 h2; cases h1
              · exact .inr (.inl ⟨_, h, rfl⟩)
          · exact .inr (.inl ⟨t, htm, hh⟩)
        · exact .inr (.inr (.inl h))
        · exact .inr (.inr (.inr h))

end Verif.Replication.Progress
