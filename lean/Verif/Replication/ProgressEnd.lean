import Verif.Replication.ProgressRun

/-
The brokers cannot take steps by themselves forever: a measure that every such step lowers.
-/

namespace Verif.Replication.Progress
open Verif.Replication

variable {α : Type}

/-! ### Sums -/

/-- The sum of `f 0 … f (n-1)`. -/
def tot : Nat → (Nat → Nat) → Nat
  | 0, _ => 0
  | n + 1, f => tot n f + f n

theorem tot_le {n : Nat} {f g : Nat → Nat} (h : ∀ i, i < n → f i ≤ g i) : tot n f ≤ tot n g := by
  induction n with
  | zero => exact Nat.le_refl _
  | succ n ih =>
    have h1 := ih fun i hi => h i (by omega)
    have h2 := h n (by omega)
    simp only [tot]; omega

theorem tot_congr {n : Nat} {f g : Nat → Nat} (h : ∀ i, i < n → f i = g i) : tot n f = tot n g :=
  Nat.le_antisymm (tot_le fun i hi => Nat.le_of_eq (h i hi)) (tot_le fun i hi => Nat.le_of_eq (h i hi).symm)

theorem tot_lt {n i : Nat} {f g : Nat → Nat} (h : ∀ i, i < n → f i ≤ g i) (hi : i < n) (hl : f i < g i) :
    tot n f < tot n g := by
  induction n with
  | zero => omega
  | succ n ih =>
    simp only [tot]
    by_cases he : i = n
    · have h1 := tot_le (n := n) fun i hi => h i (by omega)
      subst he
      omega
    · have h1 := ih (fun i hi => h i (by omega)) (by omega)
      have h2 := h n (by omega)
      omega

/-- Two functions that differ at one place. -/
theorem tot_at {n i : Nat} {f g : Nat → Nat} (hi : i < n) (h : ∀ j, j ≠ i → g j = f j) :
    tot n g + f i = tot n f + g i := by
  induction n with
  | zero => omega
  | succ n ih =>
    simp only [tot]
    by_cases he : i = n
    · have h1 : tot n g = tot n f := tot_congr fun j hj => h j (by omega)
      subst he
      omega
    · have h1 := ih (by omega)
      have h2 := h n (by omega)
      omega

theorem tot_add {n c : Nat} {f g : Nat → Nat} (h : ∀ i, i < n → f i ≤ g i + c) : tot n f ≤ tot n g + c * n := by
  induction n with
  | zero => simp [tot]
  | succ n ih =>
    have h1 := ih fun i hi => h i (by omega)
    have h2 := h n (by omega)
    simp only [tot, Nat.mul_succ]; omega

theorem sum_mid {β : Type} (w : β → Nat) (pre post : List β) (x : β) :
    ((pre ++ x :: post).map w).sum = w x + ((pre ++ post).map w).sum := by
  simp only [List.map_append, List.map_cons, List.sum_append, List.sum_cons]; omega

/-! ### The measure -/

/-- A report that the leader will take over something from. -/
def live (i r : Info) : Prop := i.hw < r.hw ∨ i.leo < r.leo

instance (i r : Info) : Decidable (live i r) := by unfold live; infer_instance

/-- Records the follower will skip but report, although the leader knows its position. -/
def bad (l : Leader α) (f : Follower α) (i : Nat) (m : Sync α) : Prop :=
  l.infos i = ⟨f.hw, f.leo⟩ ∧ m.batches.flatten.length > 0 ∧ m.base ≠ f.leo

open Classical in
noncomputable def wSync (n : Nat) (l : Leader α) (f : Follower α) (i : Nat) (m : Sync α) : Nat :=
  if bad l f i m then 13 * n + 8 else 9

def wReport (n : Nat) (l : Leader α) (i : Nat) (r : Info) : Nat := if live (l.infos i) r then 6 else 13 * n + 7

def stage : Seen → Nat
  | .nothing => 2
  | .hw _ => 1
  | .both _ => 0

def wJob (n : Nat) (l : Leader α) : Job → Nat
  | .send _ => 10
  | .merge i r => if live (l.infos i) r then 3 else 13 * n + 4
  | .notify => 13 * n + 1

def wTask (n : Nat) (l : Leader α) (t : Task) : Nat := wJob n l t.job + stage t.seen

noncomputable def wConn (n : Nat) (s : Sys α) (i : Nat) : Nat :=
  13 * (s.pending i).toNat + ((s.syncs i).map (wSync n s.leader (s.followers i) i)).sum +
    ((s.reports i).map (wReport n s.leader i)).sum

/-- How far the leader is from knowing all it can know. -/
def mA (n : Nat) (s : Sys α) : Nat :=
  tot n fun i => (s.leader.leo + 1 - (s.leader.infos i).leo).toNat + (s.leader.leo + 1 - (s.leader.infos i).hw).toNat

/-- How far the followers are behind. -/
def mB (n : Nat) (s : Sys α) : Nat :=
  tot n fun i => (s.leader.leo - (s.followers i).leo).toNat + (s.leader.leo - (s.followers i).hw).toNat

/-- What is under way. -/
noncomputable def mW (n : Nat) (s : Sys α) : Nat := tot n (wConn n s) + (s.tasks.map (wTask n s.leader)).sum

/-- The order: first what the leader knows, then what the followers have, then what is under way. -/
def Lower (n : Nat) (t s : Sys α) : Prop :=
  mA n t < mA n s ∨ (mA n t = mA n s ∧ (mB n t < mB n s ∨ (mB n t = mB n s ∧ mW n t < mW n s)))

theorem Lower.wf (n : Nat) : WellFounded (Lower (α := α) n) := by
  have h : WellFounded (InvImage (Prod.Lex (fun a b : Nat => a < b) (Prod.Lex (fun a b : Nat => a < b) (fun a b : Nat => a < b)))
      fun s : Sys α => (mA n s, mB n s, mW n s)) :=
    InvImage.wf _ (Prod.lex ⟨_, Nat.lt_wfRel.wf⟩ (Prod.lex ⟨_, Nat.lt_wfRel.wf⟩ ⟨_, Nat.lt_wfRel.wf⟩)).wf
  refine Subrelation.wf ?_ h
  intro a b hl
  show Prod.Lex _ _ (mA n a, mB n a, mW n a) (mA n b, mB n b, mW n b)
  rcases hl with h | ⟨h, h' | ⟨h', h''⟩⟩
  · exact .left _ _ h
  · rw [h]; exact .right _ (.left _ _ h')
  · rw [h, h']; exact .right _ (.right _ h'')

/-- A message made from what the leader knows is not skipped. -/
theorem message_not_bad {n : Nat} {hw0 : Int} {s : Sys α} (c : Core n hw0 s.leader s.followers s.start) {i k : Nat}
    (hi : i < n) {p : Info} (hp : p.leo ≤ s.leader.leo) {m : Sync α} (h : s.message i p k = some m) :
    ¬ bad s.leader (s.followers i) i m := by
  rintro ⟨h1, h2, h3⟩
  unfold Sys.message Leader.updates at h
  dsimp only at h
  split at h
  · split at h
    · split at h
      · rename_i base bs hr
        injection h with h; subst h
        have hl : (s.leader.infos i).leo = size (s.followers i).log := by rw [h1]; exact c.fEq i hi
        rw [hl] at hr
        have hlt : size (s.followers i).log < size s.leader.log := by
          rw [← hl, ← c.leoEq]; omega
        obtain ⟨rest, _, _, h4⟩ := readAt_prefix (c.pref i hi) c.ne hlt
        rw [h4] at hr
        injection hr with hr
        injection hr with hr _
        apply h3
        show base = _
        rw [← hr, c.fEq i hi]
      · injection h with h; subst h; simp at h2
    · injection h with h; subst h; simp at h2
  · cases h

/-- Something that leaves positions as they are and makes less of what is under way. -/
theorem lower_of_W {n : Nat} {s t : Sys α} (hl : t.leader.leo = s.leader.leo) (hinf : t.leader.infos = s.leader.infos)
    (hf : ∀ i, (t.followers i).leo = (s.followers i).leo ∧ (t.followers i).hw = (s.followers i).hw)
    (hw : mW n t < mW n s) : Lower n t s := by
  refine .inr ⟨?_, .inr ⟨?_, hw⟩⟩
  · unfold mA; rw [hl, hinf]
  · unfold mB
    apply tot_congr
    intro i _
    rw [hl, (hf i).1, (hf i).2]

theorem PInv.lower {n : Nat} {hw0 : Int} {big : List α → Bool} {s t : Sys α} (hi : PInv n hw0 s)
    (hs : Quiet n big s t) : Lower n t s := by
  have c := hi.core
  cases hs with
  | drain i hin up hp =>
    refine lower_of_W rfl rfl (fun _ => ⟨rfl, rfl⟩) ?_
    generalize ht : ({ s with pending := put s.pending i false, tasks := ⟨.send i, .nothing⟩ :: s.tasks } : Sys α) = t
    have h1 : tot n (wConn n t) + wConn n s i = tot n (wConn n s) + wConn n t i := by
      apply tot_at hin
      intro j hj
      rw [← ht]
      unfold wConn
      dsimp only
      rw [put_ne _ _ hj]
    have h2 : wConn n t i + 13 = wConn n s i := by
      rw [← ht]
      unfold wConn
      dsimp only
      rw [put_same, hp]
      show 13 * 0 + _ + _ + 13 = 13 * 1 + _ + _
      omega
    unfold mW
    have h3 : (t.tasks.map (wTask n t.leader)).sum = 12 + (s.tasks.map (wTask n s.leader)).sum := by
      rw [← ht]; rfl
    omega
  | readHw pre post j ht =>
    refine lower_of_W rfl rfl (fun _ => ⟨rfl, rfl⟩) ?_
    unfold mW
    dsimp only
    rw [ht, sum_mid, sum_mid]
    show tot n (wConn n s) + _ < _
    simp only [wTask, stage]
    omega
  | readLeo pre post j h ht =>
    refine lower_of_W rfl rfl (fun _ => ⟨rfl, rfl⟩) ?_
    unfold mW
    dsimp only
    rw [ht, sum_mid, sum_mid]
    show tot n (wConn n s) + _ < _
    simp only [wTask, stage]
    omega
  | send pre post i p k ht hk =>
    have h0 := hi.task ⟨.send i, .both p⟩ (by rw [ht]; exact mem_mid.2 (.inl rfl))
    obtain ⟨⟨hp1, hp2, hp3⟩, hin, hup⟩ := h0
    refine lower_of_W rfl rfl (fun _ => ⟨rfl, rfl⟩) ?_
    unfold mW
    dsimp only
    rw [ht, sum_mid]
    have hw : wTask n s.leader ⟨.send i, .both p⟩ = 10 := rfl
    rw [hw]
    cases hm : s.message i p k with
    | none =>
      show tot n (wConn n s) + _ < _
      omega
    | some m =>
      dsimp only
      generalize ht' : ({ s with tasks := pre ++ post, syncs := put s.syncs i (m :: s.syncs i) } : Sys α) = t
      have h1 : tot n (wConn n t) + wConn n s i = tot n (wConn n s) + wConn n t i := by
        apply tot_at hin
        intro j hj
        rw [← ht']
        unfold wConn
        dsimp only
        rw [put_ne _ _ hj]
      have h2 : wConn n t i = wConn n s i + 9 := by
        rw [← ht']
        unfold wConn
        dsimp only
        rw [put_same, List.map_cons, List.sum_cons]
        have : wSync n s.leader (s.followers i) i m = 9 := if_neg (message_not_bad c hin hp3 hm)
        omega
      omega
  | receive i pre post m hm =>
    have hup : s.up i = true := by
      cases h : s.up i with
      | true => rfl
      | false => rw [(hi.down i h).1] at hm; simp at hm
    have hin := hi.upLt i hup
    have hmm : m ∈ s.syncs i := by rw [hm]; exact mem_mid.2 (.inl rfl)
    obtain ⟨hs1, hs2⟩ := hi.syn i m hmm
    have hfw := c.fHw i hin
    obtain ⟨r1, r2, r3, r4, r5, r6, r7, r8⟩ := receive_facts c.ne (c.pref i hin) (c.fEq i hin) hfw.2.1 hfw.2.2
      c.leoEq hs1 hs2
    generalize hf' : (s.followers i).receive m = f' at *
    have hle : f'.leo ≤ s.leader.leo := by rw [r2, c.leoEq]; exact size_prefix r1
    by_cases hsame : f'.hw = (s.followers i).hw ∧ f'.leo = (s.followers i).leo
    · obtain ⟨hh, hl⟩ := hsame
      refine lower_of_W rfl rfl ?_ ?_
      · intro j
        show (put s.followers i f' j).leo = _ ∧ (put s.followers i f' j).hw = _
        by_cases hj : j = i
        · subst hj; rw [put_same]; exact ⟨hl, hh⟩
        · rw [put_ne _ _ hj]; exact ⟨rfl, rfl⟩
      · have hws : ∀ x, wSync n s.leader f' i x = wSync n s.leader (s.followers i) i x := by
          intro x
          unfold wSync bad
          rw [hh, hl]
        cases hc : changed (s.followers i) m with
        | false =>
          simp only [Bool.false_eq_true, if_false]
          generalize ht : ({ s with followers := put s.followers i f', syncs := put s.syncs i (pre ++ post) } : Sys α) = t
          have h1 : tot n (wConn n t) + wConn n s i = tot n (wConn n s) + wConn n t i := by
            apply tot_at hin
            intro j hj
            rw [← ht]
            unfold wConn
            dsimp only
            rw [put_ne _ _ hj, put_ne _ _ hj]
          have h2 : wConn n t i + 9 ≤ wConn n s i := by
            rw [← ht]
            unfold wConn
            dsimp only
            rw [put_same, put_same, hm, sum_mid, show wSync n s.leader f' i = wSync n s.leader (s.followers i) i from
              funext hws]
            have : 9 ≤ wSync n s.leader (s.followers i) i m := by
              unfold wSync; split <;> omega
            omega
          unfold mW
          have h3 : (t.tasks.map (wTask n t.leader)).sum = (s.tasks.map (wTask n s.leader)).sum := by
            rw [← ht]
          omega
        | true =>
          simp only [if_true]
          generalize ht : ({ s with followers := put s.followers i f', syncs := put s.syncs i (pre ++ post), reports := put s.reports i (⟨f'.hw, f'.leo⟩ :: s.reports i) } : Sys α) = t
          have h1 : tot n (wConn n t) + wConn n s i = tot n (wConn n s) + wConn n t i := by
            apply tot_at hin
            intro j hj
            rw [← ht]
            unfold wConn
            dsimp only
            rw [put_ne _ _ hj, put_ne _ _ hj, put_ne _ _ hj]
          have h2 : wConn n t i + 1 ≤ wConn n s i := by
            rw [← ht]
            unfold wConn
            dsimp only
            rw [put_same, put_same, put_same, hm, sum_mid,
              show wSync n s.leader f' i = wSync n s.leader (s.followers i) i from funext hws,
              List.map_cons, List.sum_cons]
            have : wReport n s.leader i ⟨f'.hw, f'.leo⟩ + 1 ≤ wSync n s.leader (s.followers i) i m := by
              unfold wReport
              by_cases hlv : live (s.leader.infos i) ⟨f'.hw, f'.leo⟩
              · rw [if_pos hlv]
                unfold wSync; split <;> omega
              · rw [if_neg hlv]
                have hb : bad s.leader (s.followers i) i m := by
                  have h4 := c.info i hin
                  unfold live at hlv
                  dsimp only at hlv
                  have h5 : (s.leader.infos i).hw = (s.followers i).hw := by omega
                  have h6 : (s.leader.infos i).leo = (s.followers i).leo := by omega
                  refine ⟨?_, ?_⟩
                  · rw [← h5, ← h6]
                  · have h7 : m.batches.flatten.length > 0 := by
                      rcases changed_true.1 hc with h | h
                      · exact h
                      · rw [hf'] at h; exact absurd hh h
                    refine ⟨h7, fun he => ?_⟩
                    have := r7 h7 he
                    omega
                unfold wSync
                rw [if_pos hb]
                omega
            omega
          unfold mW
          have h3 : (t.tasks.map (wTask n t.leader)).sum = (s.tasks.map (wTask n s.leader)).sum := by
            rw [← ht]
          omega
    · refine .inr ⟨rfl, .inl ?_⟩
      unfold mB
      dsimp only
      apply tot_lt (i := i) _ hin
      · rw [put_same]
        have := c.hwLeo
        omega
      · intro j hj
        by_cases hji : j = i
        · subst hji
          rw [put_same]; omega
        · rw [put_ne _ _ hji]; exact Nat.le_refl _
  | take i pre post r hr =>
    have hup : s.up i = true := by
      cases h : s.up i with
      | true => rfl
      | false => rw [(hi.down i h).2] at hr; simp at hr
    have hin := hi.upLt i hup
    refine lower_of_W rfl rfl (fun _ => ⟨rfl, rfl⟩) ?_
    generalize ht : ({ s with reports := put s.reports i (pre ++ post), tasks := ⟨.merge i r, .nothing⟩ :: s.tasks } : Sys α) = t
    have h1 : tot n (wConn n t) + wConn n s i = tot n (wConn n s) + wConn n t i := by
      apply tot_at hin
      intro j hj
      rw [← ht]
      unfold wConn
      dsimp only
      rw [put_ne _ _ hj]
    have h2 : wConn n t i + wReport n s.leader i r = wConn n s i := by
      rw [← ht]
      unfold wConn
      dsimp only
      rw [put_same, hr, sum_mid]
      omega
    have h3 : (t.tasks.map (wTask n t.leader)).sum = wTask n s.leader ⟨.merge i r, .nothing⟩ +
        (s.tasks.map (wTask n s.leader)).sum := by
      rw [← ht]; rfl
    have h4 : wTask n s.leader ⟨.merge i r, .nothing⟩ + 1 = wReport n s.leader i r := by
      simp only [wTask, wJob, stage, wReport]
      split <;> omega
    unfold mW
    omega
  | merge pre post i r p ht =>
    have h0 := hi.task ⟨.merge i r, .both p⟩ (by rw [ht]; exact mem_mid.2 (.inl rfl))
    obtain ⟨⟨hp1, hp2, hp3⟩, hin, hr1, hr2, ha1, ha2⟩ := h0
    have hnew : r.newer p = false := by
      unfold Info.newer
      simp only [Bool.or_eq_false_iff, decide_eq_false_iff_not]
      omega
    rw [hnew]
    simp only [Bool.false_eq_true, if_false]
    obtain ⟨e1, e2, _⟩ := merge_same n s.leader ⟨i, r, p⟩ true
    have hinf := merge_infos n s.leader ⟨i, r, p⟩ true hin
    dsimp only at hinf
    have hrl : r.leo ≤ s.leader.leo := Int.le_trans hr2 (c.fLeo hin)
    have hrh : r.hw ≤ s.leader.leo := Int.le_trans hr1 (Int.le_trans (c.fHw i hin).2.1 (c.fLeo hin))
    by_cases hlv : live (s.leader.infos i) r
    · left
      unfold mA
      dsimp only
      rw [e2]
      apply tot_lt (i := i) _ hin
      · rw [hinf i, if_pos rfl]
        unfold live at hlv
        simp only [Info.update]
        split <;> split <;> omega
      · intro j hj
        rw [hinf j]
        split
        · rename_i hji
          subst hji
          simp only [Info.update]
          split <;> split <;> omega
        · exact Nat.le_refl _
    · have hsame : ((s.leader.infos i).update r).1 = s.leader.infos i := by
        unfold live at hlv
        unfold Info.update
        dsimp only
        rw [if_neg (by omega), if_neg (by omega)]
      have hi' : (s.leader.merge n ⟨i, r, p⟩ true).infos = s.leader.infos := by
        funext j
        rw [hinf j]
        split
        · rename_i hji; subst hji; exact hsame
        · rfl
      refine lower_of_W e2 hi' (fun _ => ⟨rfl, rfl⟩) ?_
      have hsy : ∀ j, wSync n (s.leader.merge n ⟨i, r, p⟩ true) (s.followers j) j =
          wSync n s.leader (s.followers j) j := by
        intro j; funext m; unfold wSync bad; rw [hi']
      have hre : ∀ j, wReport n (s.leader.merge n ⟨i, r, p⟩ true) j = wReport n s.leader j := by
        intro j; funext x; unfold wReport; rw [hi']
      have hta : wTask n (s.leader.merge n ⟨i, r, p⟩ true) = wTask n s.leader := by
        funext t
        obtain ⟨job, seen⟩ := t
        cases job with
        | send j => rfl
        | merge j x => simp only [wTask, wJob, hi']
        | notify => rfl
      unfold mW
      dsimp only
      have h1 : tot n (wConn n { s with leader := s.leader.merge n ⟨i, r, p⟩ true, tasks := ⟨.notify, .nothing⟩ :: (pre ++ post) }) =
          tot n (wConn n s) := by
        apply tot_congr
        intro j _
        unfold wConn
        dsimp only
        rw [hsy, hre]
      rw [h1, hta, ht, sum_mid, List.map_cons, List.sum_cons]
      simp only [wTask, wJob, stage, if_neg hlv]
      omega
  | notify pre post p ht =>
    refine lower_of_W rfl rfl (fun _ => ⟨rfl, rfl⟩) ?_
    unfold mW
    dsimp only
    rw [ht, sum_mid]
    have h1 : ∀ q : Nat → Bool, tot n (wConn n { s with tasks := pre ++ post, pending := q }) ≤ tot n (wConn n s) + 13 * n := by
      intro q
      apply tot_add
      intro j _
      unfold wConn
      dsimp only
      have := Bool.toNat_le (q j)
      omega
    have h2 := h1 fun i => s.pending i || (decide (i < n) && ((s.leader.infos i).isValid && !(s.leader.infos i).isSame p))
    simp only [wTask, wJob, stage] at h2 ⊢
    omega

/-- There is no infinite sequence of steps that the brokers take by themselves. -/
theorem PInv.ends {n : Nat} {hw0 : Int} {big : List α → Bool} {s : Sys α} (hi : PInv n hw0 s)
    (hbig : ∀ b ∈ s.leader.log, big b = false) (f : Nat → Sys α) (h0 : f 0 = s)
    (hf : ∀ k, Quiet n big (f k) (f (k + 1))) : False := by
  induction s using (Lower.wf (α := α) n).induction generalizing f with
  | _ s ih =>
    have h1 := hf 0
    rw [h0] at h1
    refine ih (f 1) (hi.lower h1) (hi.quiet h1 hbig) ?_ (fun k => f (k + 1)) rfl fun k => hf (k + 1)
    rw [h1.log]; exact hbig

theorem Quiets.head {n : Nat} {big : List α → Bool} {s t u : Sys α} (h : Quiet n big s t) (hq : Quiets n big t u) :
    Quiets n big s u := by
  induction hq with
  | refl => exact .step (.refl _) h
  | step _ hs ih => exact .step ih hs

theorem PInv.reaches {n : Nat} {hw0 : Int} {big : List α → Bool} {s : Sys α} (hi : PInv n hw0 s)
    (hbig : ∀ b ∈ s.leader.log, big b = false) : ∃ t, Quiets n big s t ∧ Settled n big t := by
  induction s using (Lower.wf (α := α) n).induction with
  | _ s ih =>
    by_cases h : Settled n big s
    · exact ⟨s, .refl _, h⟩
    · obtain ⟨t, ht⟩ := Classical.not_forall.1 h
      have ht := Classical.not_not.1 ht
      obtain ⟨u, h1, h2⟩ := ih t (hi.lower ht) (hi.quiet ht hbig) (by rw [ht.log]; exact hbig)
      exact ⟨u, h1.head ht, h2⟩

end Verif.Replication.Progress
