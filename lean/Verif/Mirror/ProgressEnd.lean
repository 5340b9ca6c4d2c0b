import Verif.Mirror.ProgressInv
import Verif.Replication.ProgressEnd

/-
Source and target cannot take steps by themselves forever: a measure that every such step lowers.
-/

namespace Verif.Mirror.Progress
open Verif.Replication Verif.Mirror

variable {α : Type}

/-! ### The measure -/

def cReport (t r : Int) : Nat := if r = t then 0 else 1

def wReport (t r : Int) : Nat := if r = t then 6 else 12

def wSync (t : Target α) (m : Msg α) : Nat := if accepts t m = true then 2 else 8

def kA (keep up needed : Bool) (known t : Int) : Nat :=
  if keep = true then (if needed = true ∧ known ≠ t then 1 else 0)
  else (if up = true ∧ 0 ≤ known ∧ known ≠ t then 1 else 0)

def hA (keep : Bool) (heard s : Int) : Nat := if keep = true ∧ heard ≠ s then 1 else 0

def hW (heard s : Int) : Nat := if heard ≠ s then 14 else 0

def nW (needed : Bool) (known t : Int) (seen : Option Int) : Nat :=
  if needed = true ∧ 0 ≤ known then (if known = t then 5 else 11) - seen.isSome.toNat else 0

def uW (up : Bool) : Nat := if up = true then 0 else 40

/-- What the target lacks. -/
def mM (s : Sys α) : Nat := (s.source.leo - s.target.leo).toNat

/-- Wrong beliefs about the target. -/
def mA (keep : Bool) (s : Sys α) : Nat :=
  (s.reports.map (cReport s.target.leo)).sum + kA keep s.up s.needed s.known s.target.leo + hA keep s.heard s.source.leo

/-- What is under way. -/
def mW (s : Sys α) : Nat :=
  hW s.heard s.source.leo + (s.reports.map (wReport s.target.leo)).sum + nW s.needed s.known s.target.leo s.seen +
    (s.syncs.map (wSync s.target)).sum + uW s.up

def Lower (keep : Bool) (t s : Sys α) : Prop :=
  mM t < mM s ∨ (mM t = mM s ∧ (mA keep t < mA keep s ∨ (mA keep t = mA keep s ∧ mW t < mW s)))

theorem Lower.wf (keep : Bool) : WellFounded (Lower (α := α) keep) := by
  have h : WellFounded (InvImage (Prod.Lex (fun a b : Nat => a < b) (Prod.Lex (fun a b : Nat => a < b) (fun a b : Nat => a < b)))
      fun s : Sys α => (mM s, mA keep s, mW s)) :=
    InvImage.wf _ (Prod.lex ⟨_, Nat.lt_wfRel.wf⟩ (Prod.lex ⟨_, Nat.lt_wfRel.wf⟩ ⟨_, Nat.lt_wfRel.wf⟩)).wf
  refine Subrelation.wf ?_ h
  intro a b hl
  show Prod.Lex _ _ (mM a, mA keep a, mW a) (mM b, mA keep b, mW b)
  rcases hl with h | ⟨h, h' | ⟨h', h''⟩⟩
  · exact .left _ _ h
  · rw [h]; exact .right _ (.left _ _ h')
  · rw [h, h']; exact .right _ (.right _ h'')

theorem Lower.mk {keep : Bool} {t s : Sys α} (h1 : mM t = mM s) (h2 : mA keep t ≤ mA keep s) (h3 : mW t < mW s) :
    Lower keep t s := by
  by_cases h : mA keep t = mA keep s
  · exact .inr ⟨h1, .inr ⟨h, h3⟩⟩
  · exact .inr ⟨h1, .inl (by omega)⟩

theorem generate_error {s : Source α} {l known : Int} {k : Nat} {e : Unit} (h : generate s l known k = .error e)
    (hl : known ≤ l) : known < s.start := by
  unfold generate at h
  split at h
  · cases h
  · split at h
    · split at h
      · assumption
      · split at h <;> cases h
    · omega

theorem generate_some {s : Source α} {l known : Int} {k : Nat} {m : Msg α} (h : generate s l known k = .ok (some m)) :
    known < l ∧ s.start ≤ known := by
  unfold generate at h
  split at h
  · cases h
  · split at h
    · split at h
      · cases h
      · omega
    · cases h

/-- Records sent from the end of the target's log are taken. -/
theorem MInv.next {s : Sys α} {big : List α → Bool} (h : MInv s) (hbig : ∀ b ∈ s.source.log, big b = false) {l : Int}
    (hl : l ≤ s.source.leo) (hk : s.known = s.target.leo) {k : Nat}
    (hc : Replication.Progress.Cut big s.source.log s.known k) {m : Msg α}
    (hg : generate s.source l s.known k = .ok (some m)) : accepts s.target m = true := by
  obtain ⟨g1, g2⟩ := generate_some hg
  obtain ⟨rest, hr⟩ := h.pref
  have hkn : s.known = size s.target.log := by rw [hk, h.tleo]
  rw [hkn] at hg hc g1 g2
  rw [generate_next hr.symm h.ne (by rw [← h.sleo]; exact hl) g1 g2] at hg
  injection hg with hg
  injection hg with hg
  have hlt : size s.target.log < size s.source.log := by rw [← h.sleo]; omega
  have hrn : rest ≠ [] := by
    rintro rfl
    rw [← hr, List.append_nil] at hlt
    omega
  have hra := readAt_prefix (pre := s.target.log) (rest := rest) (start := 0) (by rw [hr]; exact h.ne) hrn
  rw [Int.zero_add, hr] at hra
  unfold Replication.Progress.Cut at hc
  rw [hra] at hc
  cases rest with
  | nil => exact absurd rfl hrn
  | cons b rest =>
    have hb : b ∈ s.source.log := by rw [← hr]; simp
    have hk0 : 0 < k := by
      have hc : if big b = true then k = 0 else 0 < k := hc
      rw [hbig b hb] at hc
      simpa using hc
    obtain ⟨k, rfl⟩ : ∃ j, k = j + 1 := ⟨k - 1, by omega⟩
    subst hg
    refine accepts_iff.2 ⟨?_, h.tleo.symm⟩
    have := List.length_pos_iff.2 (h.ne b hb)
    simp only [List.take_succ_cons, List.flatten_cons, List.length_append]
    omega

theorem MInv.lower {keep : Bool} {big : List α → Bool} {s t : Sys α} (h : MInv s)
    (hbig : ∀ b ∈ s.source.log, big b = false) (hq : Quiet keep big s t) : Lower keep t s := by
  have hle := h.le
  have hnn := h.nonneg
  cases hq with
  | connect hd =>
    obtain ⟨d1, d2, d3, d4⟩ := h.isDown hd
    refine .mk rfl ?_ ?_
    · simp only [mA, Sys.drop, d1, d4, hd, List.map_cons, List.map_nil, List.sum_cons, List.sum_nil, cReport, kA, hA]
      cases keep <;> simp
    · simp only [mW, Sys.drop, d1, d2, d3, d4, hd, List.map_cons, List.map_nil, List.sum_cons, List.sum_nil, wReport, hW, nW, uW]
      cases keep
      · simp; split <;> split <;> omega
      · simp
  | listen hu hw hh =>
    have hsn := seen_none h hw
    refine .mk rfl ?_ ?_
    · simp only [mA, kA, hA]
      cases keep
      · simp
      · simp [hh]; split <;> split <;> omega
    · simp only [mW, hW, nW, hsn]
      simp [hh]
      split <;> (try split) <;> omega
  | update hu hw r rest hr =>
    have hrr := h.reps r (by rw [hr]; simp)
    have hsn := seen_none h hw
    rw [updateFrom_le (by omega)]
    by_cases hlt : r < s.source.leo
    · rw [if_pos hlt]
      refine .mk rfl ?_ ?_
      · simp only [mA, kA, hA, hr, hu, List.map_cons, List.sum_cons, cReport]
        cases keep <;> by_cases he : r = s.target.leo <;> simp [he] <;> (try split) <;> omega
      · have hz : nW s.needed s.known s.target.leo s.seen = 0 := if_neg hw
        simp only [mW, hr, hz, List.map_cons, List.sum_cons, wReport]
        simp only [nW, hsn]
        by_cases he : r = s.target.leo <;> simp [he, hrr.1, hnn] <;> (try split) <;> omega
    · rw [if_neg hlt]
      have het : r = s.target.leo := by omega
      refine .mk rfl ?_ ?_
      · simp only [mA, kA, hA, hr, hu, List.map_cons, List.sum_cons, cReport, het]
        cases keep <;> by_cases hk : s.known < 0 <;> simp [hk]
      · simp only [mW, hr, List.map_cons, List.sum_cons, wReport, het]
        simp [nW]
        omega
  | look hu hn hk hs =>
    refine .mk rfl (Nat.le_refl _) ?_
    simp only [mW, nW, hn, hk, hs]
    simp
    split <;> omega
  | send hu l hs k hk =>
    obtain ⟨s1, s2, s3, s4, s5⟩ := h.seenOk l hs
    have hst := h.stored
    cases hg : generate s.source l s.known k with
    | error e =>
      have := generate_error hg s3
      have hne : s.known ≠ s.target.leo := by omega
      refine .inr ⟨rfl, .inl ?_⟩
      simp only [mA, Sys.drop, kA, hA, s1, hu]
      cases keep <;> simp [hne, s2]
    | ok o =>
      cases o with
      | none =>
        refine .mk rfl ?_ ?_
        · simp only [mA, kA, hA, hu]
          cases keep <;> simp
        · simp only [mW, nW, s1, s2, hs]
          simp
          split <;> omega
      | some m =>
        refine .mk rfl ?_ ?_
        · simp only [mA, kA, hA, hu]
          cases keep <;> simp
        · by_cases he : s.known = s.target.leo
          · have ha := h.next hbig s4 he hk hg
            simp only [mW, nW, s1, s2, hs, he, List.map_append, List.sum_append, List.map_cons, List.map_nil, List.sum_cons,
              List.sum_nil, wSync, ha]
            simp [hnn]
            omega
          · simp only [mW, nW, s1, s2, hs, he, List.map_append, List.sum_append, List.map_cons, List.map_nil, List.sum_cons,
              List.sum_nil]
            have : wSync s.target m ≤ 8 := by unfold wSync; split <;> omega
            simp
            omega
  | receive hu m rest hm =>
    by_cases ha : accepts s.target m = true
    · rw [if_pos ha]
      left
      obtain ⟨ha1, ha2⟩ := accepts_iff.1 ha
      have hat := h.sync m (by rw [hm]; simp) (flatten_ne ha1)
      have hp := size_prefix (next_prefix h.ne h.pref hat (by rw [ha2, h.tleo]))
      have hsz : size m.batches = (m.batches.flatten.length : Int) := rfl
      show (s.source.leo - size (s.target.log ++ m.batches)).toNat < (s.source.leo - s.target.leo).toNat
      rw [size_append] at hp ⊢
      rw [h.tleo, h.sleo]
      omega
    · rw [if_neg ha]
      refine .mk rfl ?_ ?_
      · simp [mA, cReport]
      · simp only [mW, hm, List.map_append, List.sum_append, List.map_cons, List.map_nil, List.sum_cons, List.sum_nil, wReport,
          wSync, ha]
        simp
        omega

theorem Quiets.head {keep : Bool} {big : List α → Bool} {s t u : Sys α} (h : Quiet keep big s t)
    (hq : Quiets keep big t u) : Quiets keep big s u := by
  induction hq with
  | refl => exact .step (.refl _) h
  | step _ h2 ih => exact .step ih h2

/-- No infinite sequence of quiet steps. -/
theorem MInv.ends {keep : Bool} {big : List α → Bool} {s : Sys α} (h : MInv s)
    (hbig : ∀ b ∈ s.source.log, big b = false) (f : Nat → Sys α) (h0 : f 0 = s)
    (hs : ∀ i, Quiet keep big (f i) (f (i + 1))) : False := by
  have hall : ∀ i, MInv (f i) ∧ ∀ b ∈ (f i).source.log, big b = false := by
    intro i
    induction i with
    | zero => rw [h0]; exact ⟨h, hbig⟩
    | succ i ih => exact ⟨ih.1.quiet (hs i), by rw [(hs i).source]; exact ih.2⟩
  have key : ∀ x : Sys α, ∀ i, f i = x → False := by
    intro x
    induction x using (Lower.wf keep).induction with
    | _ x ih =>
      intro i hi
      exact ih (f (i + 1)) (by rw [← hi]; exact (hall i).1.lower (hall i).2 (hs i)) (i + 1) rfl
  exact key _ 0 rfl

/-- Rest is reached. -/
theorem MInv.reaches {keep : Bool} {big : List α → Bool} {s : Sys α} (h : MInv s)
    (hbig : ∀ b ∈ s.source.log, big b = false) : ∃ t, Quiets keep big s t ∧ Settled keep big t := by
  induction s using (Lower.wf keep).induction with
  | _ s ih =>
    by_cases hq : ∃ t, Quiet keep big s t
    · obtain ⟨t, ht⟩ := hq
      obtain ⟨u, h1, h2⟩ := ih t (h.lower hbig ht) (h.quiet ht) (by rw [ht.source]; exact hbig)
      exact ⟨u, .head ht h1, h2⟩
    · exact ⟨s, .refl _, fun t ht => hq ⟨t, ht⟩⟩

end Verif.Mirror.Progress
