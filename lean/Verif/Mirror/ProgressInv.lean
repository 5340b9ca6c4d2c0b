import Verif.Mirror.Progress

/-
What is true in every state of mirroring.
-/

namespace Verif.Mirror.Progress
open Verif.Replication Verif.Mirror

variable {α : Type}

theorem updateFrom_le {leo known r : Int} (h : r ≤ leo) :
    updateFrom leo known r = if r < leo then (r, some true) else (if known < 0 then r else known, some false) := by
  unfold updateFrom
  dsimp only
  rw [if_neg (by omega)]

/-- The next records of the source. -/
theorem next_prefix {log tlog : List (List α)} (hne : ∀ b ∈ log, b ≠ []) (hp : tlog <+: log) {m : Msg α}
    (hm : At log m.base m.batches) (hb : m.base = size tlog) : tlog ++ m.batches <+: log := by
  obtain ⟨pre, post, h1, h2⟩ := hm
  have e : tlog = pre := prefix_eq hne hp ⟨m.batches ++ post, by rw [h1, List.append_assoc]⟩ (by rw [← hb, h2])
  rw [e]
  exact ⟨post, h1.symm⟩

theorem flatten_ne {bs : List (List α)} (h : bs.flatten.length ≠ 0) : bs ≠ [] := by
  rintro rfl; exact h rfl

/-- The invariant. -/
structure MInv (s : Sys α) : Prop where
  ne : ∀ b ∈ s.source.log, b ≠ []
  sleo : s.source.leo = size s.source.log
  tleo : s.target.leo = size s.target.log
  pref : s.target.log <+: s.source.log
  stored : s.source.start ≤ s.target.leo
  heardLe : s.heard ≤ s.source.leo
  knownLe : s.known ≤ s.source.leo
  seenOk : ∀ l, s.seen = some l → s.needed = true ∧ 0 ≤ s.known ∧ s.known ≤ l ∧ l ≤ s.source.leo ∧
    (l < s.source.leo → s.heard < s.source.leo)
  reps : ∀ r ∈ s.reports, 0 ≤ r ∧ r ≤ s.target.leo
  sync : ∀ m ∈ s.syncs, m.batches ≠ [] → At s.source.log m.base m.batches
  isDown : s.up = false → s.needed = false ∧ s.seen = none ∧ s.syncs = [] ∧ s.reports = []
  good : s.up = true → (0 ≤ s.known ∧ s.known ≤ s.target.leo) ∨ s.reports ≠ []
  token : s.up = true → s.target.leo < s.source.leo →
    s.reports ≠ [] ∨ s.syncs ≠ [] ∨ (s.needed = true ∧ 0 ≤ s.known) ∨ s.heard < s.source.leo

theorem MInv.le {s : Sys α} (h : MInv s) : s.target.leo ≤ s.source.leo := by
  rw [h.tleo, h.sleo]; exact size_prefix h.pref

theorem MInv.nonneg {s : Sys α} (h : MInv s) : 0 ≤ s.target.leo := by rw [h.tleo]; exact size_nonneg _

theorem MInv.start {s : Sys α} (h : Start s) : MInv s := by
  obtain ⟨i1, i2, i3, i4, i5, i6, i7⟩ := h.idle
  have h0 := size_nonneg s.source.log
  exact {
    ne := h.batches, sleo := h.source, tleo := h.target, pref := h.pref, stored := h.stored
    heardLe := by rw [i2, h.source]; exact h0
    knownLe := by rw [i3, h.source]; omega
    seenOk := fun l hl => by rw [i5] at hl; cases hl
    reps := fun r hr => by rw [i7] at hr; cases hr
    sync := fun m hm => by rw [i6] at hm; cases hm
    isDown := fun _ => ⟨i4, i5, i6, i7⟩
    good := fun hu => by rw [i1] at hu; cases hu
    token := fun hu => by rw [i1] at hu; cases hu }

/-- What survives the end of a connection. -/
theorem MInv.ofDown {s t : Sys α} (h : MInv s) (h1 : t.source = s.source) (h2 : t.target = s.target)
    (h3 : t.heard ≤ s.source.leo) (h4 : t.known ≤ s.source.leo) (h5 : t.up = false) (h6 : t.needed = false)
    (h7 : t.seen = none) (h8 : t.syncs = []) (h9 : t.reports = []) : MInv t where
  ne := by rw [h1]; exact h.ne
  sleo := by rw [h1]; exact h.sleo
  tleo := by rw [h2]; exact h.tleo
  pref := by rw [h1, h2]; exact h.pref
  stored := by rw [h1, h2]; exact h.stored
  heardLe := by rw [h1]; exact h3
  knownLe := by rw [h1]; exact h4
  seenOk := fun l hl => by rw [h7] at hl; cases hl
  reps := fun r hr => by rw [h9] at hr; cases hr
  sync := fun m hm => by rw [h8] at hm; cases hm
  isDown := fun _ => ⟨h6, h7, h8, h9⟩
  good := fun hu => by rw [h5] at hu; cases hu
  token := fun hu => by rw [h5] at hu; cases hu

theorem MInv.drop {s : Sys α} (h : MInv s) : MInv s.drop :=
  h.ofDown rfl rfl h.heardLe h.knownLe rfl rfl rfl rfl rfl

theorem seen_none {s : Sys α} (h : MInv s) (hw : s.Waiting) : s.seen = none := by
  cases hs : s.seen with
  | none => rfl
  | some l => exact absurd ⟨(h.seenOk l hs).1, (h.seenOk l hs).2.1⟩ hw

theorem MInv.quiet {keep : Bool} {big : List α → Bool} {s t : Sys α} (h : MInv s) (hq : Quiet keep big s t) : MInv t := by
  have hle := h.le
  have hnn := h.nonneg
  cases hq with
  | connect hd =>
    exact {
      ne := h.ne, sleo := h.sleo, tleo := h.tleo, pref := h.pref, stored := h.stored
      heardLe := by
        show (if keep = true then s.heard else 0) ≤ s.source.leo
        split
        · exact h.heardLe
        · omega
      knownLe := by
        show (if keep = true then s.known else -1) ≤ s.source.leo
        split
        · exact h.knownLe
        · omega
      seenOk := fun l hl => by cases hl
      reps := fun r hr => by
        rw [List.mem_singleton.1 hr]; exact ⟨hnn, Int.le_refl _⟩
      sync := fun m hm => by cases hm
      isDown := fun hu => by cases hu
      good := fun _ => .inr (by simp)
      token := fun _ _ => .inl (by simp) }
  | listen hu hw hh =>
    have hsn := seen_none h hw
    exact { h with
      heardLe := Int.le_refl _
      seenOk := fun l hl => by
        have hl : s.seen = some l := hl
        rw [hsn] at hl; cases hl
      isDown := fun hd => by
        have hd : s.up = false := hd
        rw [hu] at hd; cases hd
      token := fun _ hlt => by
        rcases h.good hu with hg | hg
        · exact .inr (.inr (.inl ⟨rfl, hg.1⟩))
        · exact .inl hg }
  | update hu hw r rest hr =>
    have hrr := h.reps r (by rw [hr]; simp)
    have hrest : ∀ x ∈ rest, 0 ≤ x ∧ x ≤ s.target.leo := fun x hx => h.reps x (by rw [hr]; simp [hx])
    have hsn := seen_none h hw
    rw [updateFrom_le (by omega)]
    by_cases hlt : r < s.source.leo
    · rw [if_pos hlt]
      exact { h with
        knownLe := Int.le_of_lt hlt
        seenOk := fun l hl => by
          have hl : s.seen = some l := hl
          rw [hsn] at hl; cases hl
        reps := hrest
        isDown := fun hd => by
          have hd : s.up = false := hd
          rw [hu] at hd; cases hd
        good := fun _ => .inl hrr
        token := fun _ _ => .inr (.inr (.inl ⟨rfl, hrr.1⟩)) }
    · rw [if_neg hlt]
      have he : r = s.source.leo := by omega
      have het : s.target.leo = s.source.leo := by omega
      exact { h with
        knownLe := by
          show (if s.known < 0 then r else s.known) ≤ s.source.leo
          have := h.knownLe
          split <;> omega
        seenOk := fun l hl => by
          have hl : s.seen = some l := hl
          rw [hsn] at hl; cases hl
        reps := hrest
        isDown := fun hd => by
          have hd : s.up = false := hd
          rw [hu] at hd; cases hd
        good := fun _ => by
          left
          show 0 ≤ (if s.known < 0 then r else s.known) ∧ (if s.known < 0 then r else s.known) ≤ s.target.leo
          have := h.knownLe
          split <;> omega
        token := fun _ hlt => by
          have hlt : s.target.leo < s.source.leo := hlt
          omega }
  | look hu hn hk hs =>
    exact { h with
      seenOk := fun l hl => by
        injection hl with hl
        subst hl
        exact ⟨hn, hk, h.knownLe, Int.le_refl _, fun hlt => absurd hlt (Int.lt_irrefl _)⟩
      isDown := fun hd => by
        have hd : s.up = false := hd
        rw [hu] at hd; cases hd }
  | send hu l hs k hk =>
    obtain ⟨s1, s2, s3, s4, s5⟩ := h.seenOk l hs
    cases hg : generate s.source l s.known k with
    | error e => exact h.drop
    | ok o =>
      cases o with
      | none =>
        have he : l = s.known := by
          unfold generate at hg
          split at hg
          · assumption
          · split at hg
            · split at hg
              · cases hg
              · split at hg <;> cases hg
            · cases hg
        exact { h with
          seenOk := fun l hl => by cases hl
          isDown := fun hd => by
            have hd : s.up = false := hd
            rw [hu] at hd; cases hd
          token := fun _ hlt => by
            have hlt : s.target.leo < s.source.leo := hlt
            rcases h.good hu with hgd | hgd
            · exact .inr (.inr (.inr (s5 (by omega))))
            · exact .inl hgd }
      | some m =>
        exact { h with
          seenOk := fun l hl => by cases hl
          sync := fun x hx hne => by
            rcases List.mem_append.1 hx with hx | hx
            · exact h.sync x hx hne
            · rw [List.mem_singleton.1 hx] at hne ⊢
              exact generate_at hg hne
          isDown := fun hd => by
            have hd : s.up = false := hd
            rw [hu] at hd; cases hd
          token := fun _ _ => .inr (.inl (by simp)) }
  | receive hu m rest hm =>
    have hrest : ∀ x ∈ rest, x.batches ≠ [] → At s.source.log x.base x.batches :=
      fun x hx => h.sync x (by rw [hm]; simp [hx])
    by_cases ha : accepts s.target m = true
    · rw [if_pos ha]
      obtain ⟨ha1, ha2⟩ := accepts_iff.1 ha
      have hat := h.sync m (by rw [hm]; simp) (flatten_ne ha1)
      have hgrow : s.target.leo ≤ size (s.target.log ++ m.batches) := by
        rw [size_append, h.tleo]
        have := size_nonneg m.batches
        omega
      exact {
        ne := h.ne, sleo := h.sleo, tleo := rfl
        pref := next_prefix h.ne h.pref hat (by rw [ha2, h.tleo])
        stored := Int.le_trans h.stored hgrow
        heardLe := h.heardLe, knownLe := h.knownLe, seenOk := h.seenOk
        reps := fun r hr => by
          show 0 ≤ r ∧ r ≤ size (s.target.log ++ m.batches)
          rcases List.mem_append.1 hr with hr | hr
          · have := h.reps r hr; omega
          · rw [List.mem_singleton.1 hr]
            show 0 ≤ size (s.target.log ++ m.batches) ∧ size (s.target.log ++ m.batches) ≤ size (s.target.log ++ m.batches)
            omega
        sync := hrest
        isDown := fun hd => by
          have hd : s.up = false := hd
          rw [hu] at hd; cases hd
        good := fun _ => .inr (by simp)
        token := fun _ _ => .inl (by simp) }
    · rw [if_neg ha]
      exact { h with
        reps := fun r hr => by
          rcases List.mem_append.1 hr with hr | hr
          · exact h.reps r hr
          · rw [List.mem_singleton.1 hr]; exact ⟨hnn, Int.le_refl _⟩
        sync := hrest
        isDown := fun hd => by
          have hd : s.up = false := hd
          rw [hu] at hd; cases hd
        good := fun _ => .inr (by simp)
        token := fun _ _ => .inl (by simp) }

theorem MInv.outside {s t : Sys α} (h : MInv s) (ho : Outside s t) : MInv t := by
  have hle := h.le
  have hnn := h.nonneg
  cases ho with
  | produce bs hne =>
    have hgrow : s.source.leo ≤ size (s.source.log ++ bs) := by
      rw [size_append, h.sleo]
      have := size_nonneg bs
      omega
    exact {
      ne := fun b hb => (List.mem_append.1 hb).elim (h.ne b) (hne b)
      sleo := rfl, tleo := h.tleo
      pref := h.pref.trans ⟨bs, rfl⟩
      stored := h.stored
      heardLe := Int.le_trans h.heardLe hgrow
      knownLe := Int.le_trans h.knownLe hgrow
      seenOk := fun l hl => by
        obtain ⟨s1, s2, s3, s4, s5⟩ := h.seenOk l hl
        refine ⟨s1, s2, s3, Int.le_trans s4 hgrow, fun hlt => ?_⟩
        have hlt : l < size (s.source.log ++ bs) := hlt
        show s.heard < size (s.source.log ++ bs)
        have := h.heardLe
        by_cases hb : l < s.source.leo
        · have := s5 hb; omega
        · omega
      reps := h.reps
      sync := fun m hm hn => (h.sync m hm hn).mono bs
      isDown := h.isDown, good := h.good
      token := fun hu hlt => by
        have hlt : s.target.leo < size (s.source.log ++ bs) := hlt
        have hh := h.heardLe
        by_cases he : s.source.leo = size (s.source.log ++ bs)
        · rcases h.token hu (by omega) with h1 | h1 | h1 | h1
          · exact .inl h1
          · exact .inr (.inl h1)
          · exact .inr (.inr (.inl h1))
          · refine .inr (.inr (.inr ?_))
            show s.heard < size (s.source.log ++ bs)
            omega
        · refine .inr (.inr (.inr ?_))
          show s.heard < size (s.source.log ++ bs)
          omega }
  | trim start hs ht => exact { h with stored := ht }
  | down => exact h.drop
  | timer hu =>
    exact { h with
      reps := fun r hr => by
        rcases List.mem_append.1 hr with hr | hr
        · exact h.reps r hr
        · rw [List.mem_singleton.1 hr]; exact ⟨hnn, Int.le_refl _⟩
      isDown := fun hd => by
        have hd : s.up = false := hd
        rw [hu] at hd; cases hd
      good := fun _ => .inr (by simp)
      token := fun _ _ => .inl (by simp) }
  | lose n hs =>
    have hd := h.drop
    exact {
      ne := h.ne, sleo := h.sleo, tleo := rfl
      pref := (List.take_prefix _ _).trans h.pref
      stored := hs, heardLe := h.heardLe, knownLe := h.knownLe
      seenOk := hd.seenOk
      reps := fun r hr => by cases hr
      sync := hd.sync, isDown := hd.isDown
      good := fun hu => by cases hu
      token := fun hu => by cases hu }
  | restart => exact h.ofDown rfl rfl (by show (0 : Int) ≤ _; omega) (by show (-1 : Int) ≤ _; omega) rfl rfl rfl rfl rfl

theorem Quiet.source {keep : Bool} {big : List α → Bool} {s t : Sys α} (h : Quiet keep big s t) : t.source = s.source := by
  cases h with
  | update hu hw r rest hr => split <;> rfl
  | send hu l hs k hk => split <;> rfl
  | receive hu m rest hm => split <;> rfl
  | _ => rfl

theorem MInv.run {keep : Bool} {big : List α → Bool} {s t : Sys α} (h : MInv s) (hr : Run keep big s t) : MInv t := by
  induction hr with
  | refl => exact h
  | quiet _ hq ih => exact ih.quiet hq
  | outside _ ho ih => exact ih.outside ho

theorem Run.quiets {keep : Bool} {big : List α → Bool} {r s t : Sys α} (h : Run keep big r s)
    (hq : Quiets keep big s t) : Run keep big r t := by
  induction hq with
  | refl => exact h
  | step _ hs ih => exact .quiet ih hs

/-- When nothing is left to do, the target has everything. -/
theorem MInv.settled {keep : Bool} {big : List α → Bool} {s : Sys α} (h : MInv s) (hs : Settled keep big s) :
    s.up = true ∧ s.target.log = s.source.log := by
  have hu : s.up = true := by
    cases hu : s.up with
    | true => rfl
    | false => exact absurd (.connect s hu) (hs _)
  refine ⟨hu, ?_⟩
  have hw : s.Waiting := by
    rintro ⟨h1, h2⟩
    cases hse : s.seen with
    | none => exact hs _ (.look s hu h1 h2 hse)
    | some l =>
      obtain ⟨k, hk⟩ := Replication.Progress.exists_cut big s.source.log s.known
      exact hs _ (.send s hu l hse k hk)
  have hle := h.le
  have he : s.target.leo = s.source.leo := by
    apply Classical.byContradiction
    intro hne
    rcases h.token hu (by omega) with h1 | h1 | h1 | h1
    · cases hr : s.reports with
      | nil => exact h1 hr
      | cons r rest => exact hs _ (.update s hu hw r rest hr)
    · cases hr : s.syncs with
      | nil => exact h1 hr
      | cons m rest => exact hs _ (.receive s hu m rest hr)
    · exact hw h1
    · exact hs _ (.listen s hu hw (by omega))
  refine prefix_eq h.ne h.pref (List.prefix_refl _) ?_
  rw [← h.tleo, ← h.sleo, he]

end Verif.Mirror.Progress
