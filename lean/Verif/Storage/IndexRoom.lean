import Verif.Storage.ReplicaInv

/-!
# When the index of the active segment has room
-/

namespace Verif.Storage
variable {α : Type}

/-- An index entry is made only after `interval` bytes of batches since the one before. -/
structure IxRoom (c : Cfg) (s : Segment α) : Prop where
  nonzero : ∀ e ∈ s.ix.slots, e.2 ≠ 0
  len : s.ix.slots.length = s.ix.used
  bytes : s.ix.used * c.ix.interval + s.ix.acc ≤ width s.file
  fits : width s.file ≤ c.segMax

theorem IxRoom.create (c : Cfg) (base : Int) : IxRoom c (Segment.create base : Segment α) :=
  ⟨by simp [Segment.create, Index.empty], rfl, by simp [Segment.create, Index.empty, width],
    by simp [Segment.create, width]⟩

theorem IxRoom.append {c : Cfg} (hi : 0 < c.ix.interval) {io : Bool} {s s' : Segment α} {b : SBatch α} {ok : Bool}
    (h : IxRoom c s) (ha : s.append c io b = .ok (ok, s')) : IxRoom c s' := by
  unfold Segment.append at ha
  split at ha
  · cases ha
  split at ha
  · cases ha
  split at ha
  · cases ha; exact h
  rename_i hfit
  split at ha
  · cases ha
  rename_i hsz
  split at ha
  · cases ha
  split at ha
  · cases ha
  rename_i ix hix
  cases ha
  obtain ⟨h1, h2, h3, -⟩ := h
  have hw : width (s.file ++ [(⟨s.endOff, b⟩ : Stored α)]) = width s.file + b.size := by
    rw [width_append, width_cons, width_nil]
    show _ + ((b.enc s.endOff).length + 0) = _
    have : (b.enc s.endOff).length = b.size := by omega
    omega
  have hf : width (s.file ++ [(⟨s.endOff, b⟩ : Stored α)]) ≤ c.segMax := by rw [hw]; omega
  unfold Index.write at hix
  split at hix
  · cases hix
  split at hix
  · cases hix
    exact ⟨h1, h2, by rw [hw]; show s.ix.used * c.ix.interval + (s.ix.acc + b.size) ≤ _; omega, hf⟩
  rename_i hacc
  split at hix
  · cases hix
    refine ⟨?_, ?_, ?_, hf⟩
    · intro e he
      simp only [List.mem_append, List.mem_cons] at he
      rcases he with he | rfl | he
      · exact h1 e (List.mem_of_mem_take he)
      · show width s.file ≠ 0
        omega
      · exact h1 e (List.mem_of_mem_drop he)
    · show (s.ix.slots.take s.ix.used ++ _ :: s.ix.slots.drop (s.ix.used + 1)).length = s.ix.used + 1
      rw [← h2, List.take_length, List.drop_of_length_le (by omega)]
      simp
    · rw [hw]
      show (s.ix.used + 1) * c.ix.interval + 0 ≤ _
      rw [Nat.add_mul]
      omega
  · cases hix
    exact ⟨h1, h2, by rw [hw]; show s.ix.used * c.ix.interval + s.ix.acc ≤ _; omega, hf⟩

theorem IxRoom.writeBatch {c : Cfg} (hi : 0 < c.ix.interval) {io : Bool} {r : Replica α} {b : SBatch α}
    (h : IxRoom c r.active) : IxRoom c (r.writeBatch c io b).1.active := by
  unfold Replica.writeBatch
  split
  · exact h
  split
  · rename_i s hs; exact h.append hi hs
  · dsimp only
    have hr : IxRoom c r.rollOver.active := IxRoom.create c _
    split
    · rename_i s hs; exact hr.append hi hs
    · exact hr
    · exact hr
    · exact hr
  · exact h
  · exact h

theorem IxRoom.writeBatches {c : Cfg} (hi : 0 < c.ix.interval) : ∀ (bs : List (SBatch α)) (f : Option Nat)
    (r : Replica α), IxRoom c r.active → IxRoom c (r.writeBatches c f bs).1.active
  | [], _, _, h => h
  | b :: bs, f, r, h => by
    have h' := h.writeBatch hi (io := decide (f ≠ some 0)) (b := b)
    unfold Replica.writeBatches
    split
    · rename_i r' hr
      rw [hr] at h'
      exact IxRoom.writeBatches hi bs _ _ h'
    · rename_i r' e hr
      rw [hr] at h'
      exact h'

theorem takeWhile_nonzero {l : List (Nat × Nat)} (h : ∀ e ∈ l, e.2 ≠ 0) :
    (l.takeWhile fun e => e.2 != 0) = l := by
  induction l with
  | nil => rfl
  | cons a l ih =>
    rw [List.takeWhile_cons_of_pos (by simpa using h a (by simp)), ih fun e he => h e (by simp [he])]

theorem IxRoom.reopen {c : Cfg} {chk : ChkFile} {r r' : Replica α} (h : IxRoom c r.active)
    (hr : r.reopen c chk = some r') : IxRoom c r'.active := by
  unfold Replica.reopen Segment.openForWrite Index.reopen at hr
  rw [takeWhile_nonzero h.nonzero] at hr
  dsimp only at hr
  split at hr
  · cases hr
    refine ⟨h.nonzero, rfl, ?_, h.fits⟩
    have := h.bytes
    have := h.len
    show r.active.ix.slots.length * c.ix.interval + 0 ≤ width r.active.file
    rw [this]
    omega
  · cases hr

theorem IxRoom.write {c : Cfg} (hi : 0 < c.ix.interval) {r : Replica α} (h : IxRoom c r.active)
    (set : List (SBatch α)) (u : Bool) (f : Option Nat) : IxRoom c (r.write c set u f).1.active := by
  have hw := IxRoom.writeBatches hi set f r h
  unfold Replica.write
  split
  · exact h
  · split
    · rename_i hb
      rw [hb] at hw; exact hw
    · rename_i hb
      rw [hb] at hw
      dsimp only
      split <;> exact hw

theorem IxRoom.step {c : Cfg} (hi : 0 < c.ix.interval) {r : Replica α} (h : IxRoom c r.active) (op : Op α) :
    IxRoom c (r.step c op).1.active := by
  cases op with
  | write set u f =>
    have hw := h.write hi set u f
    simp only [Replica.step]
    split <;> (rename_i hb; rw [hb] at hw; exact hw)
  | updateHw o => exact h
  | cleanSize => simp only [Replica.step, Replica.cleanSize]; split <;> exact h
  | cleanTtl e => simp only [Replica.step, Replica.cleanTtl]; split <;> exact h
  | reopen chk =>
    simp only [Replica.step]
    cases hr : r.reopen c chk with
    | none => exact h
    | some r' => exact h.reopen hr

theorem IxRoom.run {c : Cfg} (hi : 0 < c.ix.interval) : ∀ (ops : List (Op α)) (r : Replica α), IxRoom c r.active →
    IxRoom c (r.run c ops).1.active
  | [], _, h => h
  | op :: ops, r, h => IxRoom.run hi ops _ (h.step hi op)

theorem IxRoom.opens {c : Cfg} {r : Replica α} (h : IxRoom c r.active) (chk : ChkFile)
    (hs : c.segMax < c.ix.cap * c.ix.interval) : (r.reopen c chk).isSome = true := by
  unfold Replica.reopen Segment.openForWrite Index.reopen
  rw [takeWhile_nonzero h.nonzero]
  dsimp only
  have h1 := h.bytes
  have h2 := h.len
  have h3 := h.fits
  have : r.active.ix.used < c.ix.cap := by
    rcases Nat.lt_or_ge r.active.ix.used c.ix.cap with hh | hh
    · exact hh
    · have := Nat.mul_le_mul_right c.ix.interval hh
      omega
  rw [if_pos (by omega)]
  rfl

end Verif.Storage
