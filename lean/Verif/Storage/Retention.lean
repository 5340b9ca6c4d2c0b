import Verif.Storage.Read

/-!
# Retention: bookkeeping of sizes, effect of the cleaners
-/

namespace Verif.Storage

variable {α : Type}

/-- The sizes kept for the cleaner are the real ones. -/
def Accounted (r : Replica α) : Prop :=
  r.sizePrev = occupiedPrev r.prev ∧ (r.short = false → r.sizeActive = r.active.occupied)

theorem Accounted.init : Accounted (Replica.init : Replica α) := ⟨rfl, fun _ => rfl⟩

theorem occupiedPrev_append (l m : List (Segment α)) :
    occupiedPrev (l ++ m) = occupiedPrev l + occupiedPrev m := by simp [occupiedPrev]

theorem Accounted.writeBatch {c : Cfg} {r : Replica α} (ha : Accounted r) (h : ReplicaOk r) (io : Bool)
    {b : SBatch α} (hb : HonestBatch b) (hsz : b.size ≤ c.segMax) : Accounted (r.writeBatch c io b).1 := by
  unfold Replica.writeBatch
  split
  · exact ha
  · rcases Segment.append_spec c io h.active hb with ⟨hfull, e⟩ | ⟨_, _, e⟩ | ⟨_, _, s', e, _⟩
    · rw [e]
      dsimp only
      have hne : r.active.file ≠ [] := by
        intro hf; rw [hf, width_nil] at hfull; omega
      have hr := (h.rollOver hne).1
      have hsp : r.rollOver.sizePrev = occupiedPrev r.rollOver.prev := by
        have : r.rollOver.prev = r.prev ++ [r.active.close] := by
          unfold Replica.rollOver
          apply addSegment_last
          intro t ht
          have h1 := (h.prev t ht).2
          show t.base < r.active.base
          omega
        rw [this, occupiedPrev_append]
        show r.sizePrev + _ = _
        rw [ha.1]
        simp [occupiedPrev]
      rcases Segment.append_spec c io hr.active hb with ⟨_, e⟩ | ⟨_, _, e⟩ | ⟨_, _, s', e, _⟩
      · rw [e]; exact ⟨hsp, fun hx => by cases hx⟩
      · rw [e]; exact ⟨hsp, fun hx => by cases hx⟩
      · rw [e]; exact ⟨hsp, fun _ => rfl⟩
    · rw [e]; exact ⟨ha.1, fun hx => by cases hx⟩
    · rw [e]; exact ⟨ha.1, fun _ => rfl⟩

theorem Accounted.writeBatches {c : Cfg} : ∀ (bs : List (SBatch α)) (f : Option Nat) {r : Replica α},
    Accounted r → ReplicaOk r → (∀ b ∈ bs, HonestBatch b) → (∀ b ∈ bs, b.size ≤ c.segMax) →
    Accounted (r.writeBatches c f bs).1
  | [], _, _, ha, _, _, _ => ha
  | b :: bs, f, r, ha, h, hh, hs => by
    have h1 := ha.writeBatch h (decide (f ≠ some 0)) (hh b (by simp)) (hs b (by simp))
    have h2 := (writeBatch_spec c (decide (f ≠ some 0)) h (hh b (by simp)) (hs b (by simp))).1
    unfold Replica.writeBatches
    split
    · rename_i e; rw [e] at h1 h2
      exact Accounted.writeBatches bs _ h1 h2 (fun x hx => hh x (by simp [hx])) fun x hx => hs x (by simp [hx])
    · rename_i e; rw [e] at h1; exact h1

theorem Accounted.step {c : Cfg} {r : Replica α} (ha : Accounted r) (h : ReplicaOk r) (op : Op α)
    (ho : op.Honest) (hn : ∀ k, op ≠ .reopen k) : Accounted (r.step c op).1 := by
  cases op with
  | write set u f =>
    have hw : Accounted (r.write c set u f).1 := by
      unfold Replica.write
      cases hc : checkSizes c set with
      | error e => exact ha
      | ok v =>
        cases v
        have := Accounted.writeBatches (c := c) set f ha h ho fun b hb => (checkSizes_ok c set hc b hb).1
        generalize r.writeBatches c f set = res at *
        obtain ⟨r', x⟩ := res
        cases x with
        | error e => exact this
        | ok v => cases v; cases u <;> exact this
    unfold Replica.step
    dsimp only
    generalize r.write c set u f = res at *
    obtain ⟨r', x⟩ := res
    cases x <;> exact hw
  | updateHw o => exact ha
  | cleanSize =>
    show Accounted (r.cleanSize c)
    unfold Replica.cleanSize
    dsimp only
    split
    · exact ⟨rfl, ha.2⟩
    · exact ha
  | cleanTtl e =>
    show Accounted (r.cleanTtl e)
    unfold Replica.cleanTtl
    dsimp only
    split
    · exact ha
    · exact ⟨rfl, ha.2⟩
  | reopen chk => exact absurd rfl (hn chk)

theorem Accounted.run (c : Cfg) : ∀ (ops : List (Op α)) (r : Replica α), ReplicaOk r → Accounted r →
    (∀ op ∈ ops, op.Honest) → (∀ op ∈ ops, ∀ k, op ≠ .reopen k) → Accounted (r.run c ops).1
  | [], _, _, ha, _, _ => ha
  | op :: ops, r, h, ha, ho, hn => by
    unfold Replica.run
    exact Accounted.run c ops _ (h.step c op (ho op (by simp)))
      (ha.step h op (ho op (by simp)) (hn op (by simp))) (fun o h' => ho o (by simp [h']))
      fun o h' => hn o (by simp [h'])

theorem occupiedPrev_take_le {l : List (Segment α)} {m : Nat} (h : ∀ s ∈ l, s.occupiedClosed ≤ m)
    (k : Nat) : occupiedPrev (l.take k) ≤ k * m := by
  induction l generalizing k with
  | nil => simp [occupiedPrev]
  | cons s l ih =>
    cases k with
    | zero => simp [occupiedPrev]
    | succ k =>
      have h1 := h s (by simp)
      have h2 := ih (fun t ht => h t (by simp [ht])) k
      have h3 : occupiedPrev ((s :: l).take (k + 1)) = s.occupiedClosed + occupiedPrev (l.take k) := by
        simp [occupiedPrev]
      rw [h3, Nat.succ_mul]
      omega

/-- number of segments the size cleaner asks for -/
theorem count_bounds {x m : Nat} (hm : 0 < m) (hx : 0 < x) :
    (x / m + (if 0 < x % m then 1 else 0) - 1) * m < x ∧ 0 < x / m + (if 0 < x % m then 1 else 0) := by
  have hd := Nat.div_add_mod x m
  rw [Nat.mul_comm] at hd
  have hmod := Nat.mod_lt x hm
  by_cases h : 0 < x % m
  · rw [if_pos h, Nat.add_sub_cancel]
    exact ⟨by omega, Nat.succ_pos _⟩
  · rw [if_neg h, Nat.add_zero]
    have hpos : 0 < x / m := by
      rcases Nat.eq_zero_or_pos (x / m) with h0 | h0
      · rw [h0, Nat.zero_mul] at hd; omega
      · exact h0
    refine ⟨?_, hpos⟩
    rw [Nat.sub_mul, Nat.one_mul]
    have : m ≤ x / m * m := Nat.le_mul_of_pos_left m hpos
    omega

end Verif.Storage
