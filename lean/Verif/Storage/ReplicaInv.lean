import Verif.Storage.Replica

/-!
# Invariants of a replica
-/

namespace Verif.Storage
open Verif.Wire (Bytes)

variable {α : Type}

structure ReplicaOk (r : Replica α) : Prop where
  active : ActiveOk r.active
  prev : ∀ s ∈ r.prev, SegOk s ∧ s.base < s.endOff ∧ 0 ≤ s.base ∧ s.endOff ≤ r.active.base
  order : r.prev.Pairwise fun s t => s.endOff ≤ t.base
  nonneg : 0 ≤ r.active.base

theorem ReplicaOk.init : ReplicaOk (Replica.init : Replica α) where
  active := ActiveOk.create 0
  prev := by intro s hs; simp [Replica.init] at hs
  order := List.Pairwise.nil
  nonneg := by simp [Replica.init, Segment.create]

/-! ## Smallest and largest offsets of the closed segments -/

theorem minMax_fold : ∀ (l : List (Segment α)) (m M : Int), 0 ≤ m → (∀ s ∈ l, m ≤ s.base) →
    let res := l.foldl (fun mm s =>
      (if mm.1 < 0 ∨ s.base < mm.1 then s.base else mm.1, if mm.2 < s.endOff then s.endOff else mm.2))
      (m, M)
    res.1 = m ∧ M ≤ res.2 ∧ (∀ s ∈ l, s.endOff ≤ res.2) ∧ (res.2 = M ∨ ∃ s ∈ l, res.2 = s.endOff)
  | [], m, M, _, _ => by simp
  | s :: l, m, M, h0, h => by
    have hs := h s (by simp)
    simp only [List.foldl_cons]
    rw [if_neg (by omega)]
    obtain ⟨h1, h2, h3, h4⟩ := minMax_fold l m (if M < s.endOff then s.endOff else M) h0
      (fun t ht => h t (by simp [ht]))
    refine ⟨h1, ?_, ?_, ?_⟩
    · refine Int.le_trans ?_ h2; split <;> omega
    · intro t ht
      rcases List.mem_cons.1 ht with rfl | ht
      · refine Int.le_trans ?_ h2; split <;> omega
      · exact h3 t ht
    · rcases h4 with h4 | ⟨t, ht, h4⟩
      · by_cases hM : M < s.endOff
        · rw [if_pos hM] at h4; right; exact ⟨s, by simp, by simpa [hM] using h4⟩
        · rw [if_neg hM] at h4; left; simpa [hM] using h4
      · right; exact ⟨t, by simp [ht], h4⟩

theorem minMax_cons {s : Segment α} {l : List (Segment α)} (h0 : 0 ≤ s.base)
    (hl : ∀ t ∈ l, s.base ≤ t.base) :
    (minMax (s :: l)).1 = s.base ∧ ∀ t ∈ s :: l, t.endOff ≤ (minMax (s :: l)).2 := by
  unfold minMax
  simp only [List.foldl_cons]
  rw [if_pos (by omega)]
  obtain ⟨h1, h2, h3, _⟩ := minMax_fold l s.base (if (0 : Int) < s.endOff then s.endOff else 0) h0 hl
  refine ⟨h1, ?_⟩
  intro t ht
  rcases List.mem_cons.1 ht with rfl | ht
  · refine Int.le_trans ?_ h2; split <;> omega
  · exact h3 t ht

theorem ReplicaOk.head_le {r : Replica α} (h : ReplicaOk r) {s : Segment α} {l : List (Segment α)}
    (hp : r.prev = s :: l) : ∀ t ∈ l, s.base ≤ t.base := by
  intro t ht
  have ho := h.order
  rw [hp] at ho
  have := (List.pairwise_cons.1 ho).1 t ht
  have := (h.prev s (by simp [hp])).2.1
  omega

theorem ReplicaOk.minMax_le {r : Replica α} (h : ReplicaOk r) {s : Segment α} (hs : s ∈ r.prev) :
    (minMax r.prev).1 ≤ s.base ∧ 0 ≤ (minMax r.prev).1 ∧ s.endOff ≤ (minMax r.prev).2 := by
  cases hp : r.prev with
  | nil => simp [hp] at hs
  | cons a l =>
    have h0 := (h.prev a (by simp [hp])).2.2.1
    have hle := h.head_le hp
    obtain ⟨h1, h2⟩ := minMax_cons h0 hle
    rw [h1]
    rw [hp] at hs
    refine ⟨?_, h0, h2 s hs⟩
    rcases List.mem_cons.1 hs with rfl | hs
    · omega
    · exact hle s hs

theorem ReplicaOk.logStart_cons {r : Replica α} (h : ReplicaOk r) {s : Segment α}
    {l : List (Segment α)} (hp : r.prev = s :: l) : r.logStart = s.base := by
  have h0 := (h.prev s (by simp [hp])).2.2.1
  have h1 := (minMax_cons h0 (h.head_le hp)).1
  unfold Replica.logStart
  rw [hp, h1, if_neg (by omega)]

theorem Replica.logStart_nil {r : Replica α} (hp : r.prev = []) : r.logStart = r.active.base := by
  unfold Replica.logStart
  rw [hp, if_pos (by show (-1 : Int) < 0; decide)]

/-- Looking for the closed segment containing an offset finds it. -/
theorem ReplicaOk.findSegment_eq {r : Replica α} (h : ReplicaOk r) {s : Segment α} (hs : s ∈ r.prev)
    {off : Int} (h1 : s.base ≤ off) (h2 : off < s.endOff) : findSegment r.prev off = some s := by
  obtain ⟨hmin, hmin0, hmax⟩ := h.minMax_le hs
  obtain ⟨l1, l2, hp⟩ := List.append_of_mem hs
  have hafter : ∀ t ∈ l2, off < t.base := by
    intro t ht
    have ho := h.order
    rw [hp] at ho
    have := (List.pairwise_cons.1 (List.pairwise_append.1 ho).2.1).1 t ht
    omega
  have hlast : ∀ (P : Segment α → Bool), P s = true → (∀ t ∈ l2, P t = false) →
      (r.prev.filter P).getLast? = some s := by
    intro P hP hN
    rw [hp, List.filter_append, List.filter_cons_of_pos hP]
    have : l2.filter P = [] := by
      rw [List.filter_eq_nil_iff]; intro t ht; rw [hN t ht]; simp
    rw [this]
    simp
  unfold findSegment
  rw [if_neg (by omega)]
  split
  · apply hlast
    · simp; omega
    · intro t ht
      have := hafter t ht
      simp; omega
  · rw [if_neg (by omega)]
    apply hlast
    · simp; omega
    · intro t ht
      have := hafter t ht
      simp; omega

theorem findSegment_some {l : List (Segment α)} {off : Int} {s : Segment α}
    (h : findSegment l off = some s) : s ∈ l ∧ s.base ≤ off := by
  unfold findSegment at h
  split at h
  · cases h
  · split at h
    · have hm := List.mem_of_getLast? h
      rw [List.mem_filter] at hm
      refine ⟨hm.1, ?_⟩
      have := hm.2; simp at this; omega
    · split at h
      · cases h
      · have hm := List.mem_of_getLast? h
        rw [List.mem_filter] at hm
        refine ⟨hm.1, ?_⟩
        have := hm.2; simp at this; omega

/-! ## Writing -/

theorem addSegment_last {l : List (Segment α)} {s : Segment α} (h : ∀ t ∈ l, t.base < s.base) :
    addSegment l s = l ++ [s] := by
  unfold addSegment
  rw [List.filter_eq_self.2 (by intro t ht; simpa using h t ht),
    List.filter_eq_nil_iff.2 (by intro t ht; have := h t ht; simp; omega)]
  simp

theorem ReplicaOk.rollOver {r : Replica α} (h : ReplicaOk r) (hne : r.active.file ≠ []) :
    ReplicaOk r.rollOver ∧ r.rollOver.batches = r.batches ∧ r.rollOver.leo = r.leo ∧
      r.rollOver.active = Segment.create r.active.endOff ∧ r.rollOver.hw = r.hw ∧
      r.rollOver.short = r.short := by
  have hlt : r.active.base < r.active.endOff := by
    cases hf : r.active.file with
    | nil => exact absurd hf hne
    | cons b l =>
      have := h.active.chain.mem (b := b) (by simp [hf])
      omega
  have hadd : r.rollOver.prev = r.prev ++ [r.active.close] := by
    unfold Replica.rollOver
    apply addSegment_last
    intro t ht
    have h1 := (h.prev t ht).2
    show t.base < r.active.base
    omega
  refine ⟨⟨ActiveOk.create _, ?_, ?_, ?_⟩, ?_, rfl, rfl, rfl, rfl⟩
  · intro s hs
    show SegOk s ∧ s.base < s.endOff ∧ 0 ≤ s.base ∧ s.endOff ≤ r.active.endOff
    rw [hadd] at hs
    rcases List.mem_append.1 hs with hs | hs
    · obtain ⟨h1, h2, h3, h4⟩ := h.prev s hs
      exact ⟨h1, h2, h3, by omega⟩
    · simp only [List.mem_singleton] at hs
      subst hs
      exact ⟨h.active.toSegOk.close, hlt, h.nonneg, Int.le_refl _⟩
  · rw [hadd]
    rw [List.pairwise_append]
    refine ⟨h.order, by simp, ?_⟩
    intro s hs t ht
    simp only [List.mem_singleton] at ht
    subst ht
    exact (h.prev s hs).2.2.2
  · show 0 ≤ r.active.endOff
    have := h.nonneg; omega
  · unfold Replica.batches
    rw [hadd]
    simp only [List.flatMap_append, List.flatMap_cons, List.flatMap_nil, List.append_nil]
    show _ ++ r.active.file ++ [] = _
    simp

theorem ReplicaOk.setActive {r : Replica α} (h : ReplicaOk r) {s : Segment α} (hs : ActiveOk s)
    (hb : s.base = r.active.base) (n : Nat) :
    ReplicaOk { r with active := s, sizeActive := n } where
  active := hs
  prev := by intro t ht; show _ ∧ _ ∧ _ ∧ t.endOff ≤ s.base; rw [hb]; exact h.prev t ht
  order := h.order
  nonneg := by show 0 ≤ s.base; rw [hb]; exact h.nonneg

theorem ReplicaOk.setFlags {r : Replica α} (h : ReplicaOk r) (b : Bool) :
    ReplicaOk { r with short := b } where
  active := h.active
  prev := h.prev
  order := h.order
  nonneg := h.nonneg

/-- Outcome of writing one batch that passed the size check. -/
theorem writeBatch_spec (c : Cfg) (ioOk : Bool) {r : Replica α} (h : ReplicaOk r) {b : SBatch α}
    (hb : HonestBatch b) (hsz : b.size ≤ c.segMax) :
    ReplicaOk (r.writeBatch c ioOk b).1 ∧ (r.writeBatch c ioOk b).1.hw = r.hw ∧
    (((r.writeBatch c ioOk b).2 = .ok () ∧
        (r.writeBatch c ioOk b).1.batches = r.batches ++ [⟨r.leo, b⟩] ∧
        (r.writeBatch c ioOk b).1.leo = r.leo + b.records.length ∧
        (r.writeBatch c ioOk b).1.short = false) ∨
     ((r.writeBatch c ioOk b).2 ≠ .ok () ∧ (r.writeBatch c ioOk b).1.batches = r.batches ∧
        (r.writeBatch c ioOk b).1.leo = r.leo ∧ (r.short = true ∨ ioOk = false) ∧
        (r.writeBatch c ioOk b).1.short = true)) := by
  unfold Replica.writeBatch
  by_cases hst : r.short = true
  · rw [if_pos hst]
    exact ⟨h, rfl, .inr ⟨by simp, rfl, rfl, .inl hst, hst⟩⟩
  · rw [if_neg hst]
    have hshort : r.short = false := by simpa using hst
    rcases Segment.append_spec c ioOk h.active hb with ⟨hfull, e⟩ | ⟨_, hio, e⟩ | ⟨_, hio, s', e, hs', hbase, hend, hfile⟩
    · -- roll over
      simp only [e]
      have hne : r.active.file ≠ [] := by
        intro hf; rw [hf, width_nil] at hfull; omega
      obtain ⟨hr, hbt, hleo, hact, hhw, hsh⟩ := h.rollOver hne
      rcases Segment.append_spec c ioOk hr.active hb with ⟨hfull2, _⟩ | ⟨_, hio, e2⟩ | ⟨_, hio, s', e2, hs', hbase, hend, hfile⟩
      · rw [hact] at hfull2
        simp only [Segment.create, width_nil] at hfull2
        omega
      · simp only [e2]
        refine ⟨hr.setFlags true, hhw, .inr ⟨by simp, hbt, hleo, .inr hio, trivial⟩⟩
      · simp only [e2]
        refine ⟨hr.setActive hs' hbase _, hhw, .inl ⟨trivial, ?_, ?_, ?_⟩⟩
        · show r.rollOver.prev.flatMap Segment.file ++ s'.file = _
          rw [hfile, ← List.append_assoc]
          show r.rollOver.batches ++ [⟨r.rollOver.leo, b⟩] = _
          rw [hbt, hleo]
        · show s'.endOff = _
          rw [hend]
          show r.rollOver.leo + _ = _
          rw [hleo]
        · show r.rollOver.short = false
          rw [hsh, hshort]
    · simp only [e]
      exact ⟨h.setFlags true, trivial, .inr ⟨by simp, rfl, rfl, .inr hio, trivial⟩⟩
    · simp only [e]
      refine ⟨h.setActive hs' hbase _, trivial, .inl ⟨trivial, ?_, hend, hshort⟩⟩
      show r.prev.flatMap Segment.file ++ s'.file = _
      rw [hfile, ← List.append_assoc]
      rfl

/-- The batches of a record set placed from offset `a` on. -/
def place : Int → List (SBatch α) → List (Stored α)
  | _, [] => []
  | a, b :: bs => ⟨a, b⟩ :: place (a + b.records.length) bs

def recordCount (bs : List (SBatch α)) : Nat := (bs.map fun b => b.records.length).sum

/-- Outcome of writing a list of batches: all of them, or a proper prefix. -/
theorem writeBatches_spec (c : Cfg) : ∀ (bs : List (SBatch α)) (f : Option Nat) (r : Replica α),
    ReplicaOk r → (∀ b ∈ bs, HonestBatch b) → (∀ b ∈ bs, b.size ≤ c.segMax) →
    ReplicaOk (r.writeBatches c f bs).1 ∧ (r.writeBatches c f bs).1.hw = r.hw ∧
    ∃ dn rest, bs = dn ++ rest ∧ (r.writeBatches c f bs).1.batches = r.batches ++ place r.leo dn ∧
      (r.writeBatches c f bs).1.leo = r.leo + recordCount dn ∧
      ((r.writeBatches c f bs).2 = .ok () ↔ rest = []) ∧
      (rest ≠ [] → (r.short = true ∧ dn = []) ∨ f = some dn.length)
  | [], f, r, h, _, _ => ⟨h, rfl, [], [], rfl, by simp [place, Replica.writeBatches],
      by simp [recordCount, Replica.writeBatches], by simp [Replica.writeBatches], by simp⟩
  | b :: bs, f, r, h, hh, hs => by
    obtain ⟨h1, hw, h2⟩ := writeBatch_spec c (decide (f ≠ some 0)) h (hh b (by simp)) (hs b (by simp))
    unfold Replica.writeBatches
    generalize hwb : r.writeBatch c (decide (f ≠ some 0)) b = res at h1 hw h2
    obtain ⟨r', x⟩ := res
    simp only at h1 hw h2
    rcases h2 with ⟨hx, hb', hl', hsh⟩ | ⟨hx, hb', hl', hcause, hsh⟩
    · subst hx
      simp only
      obtain ⟨k1, k2, dn, rest, e1, e2, e3, e4, e5⟩ := writeBatches_spec c bs (f.map (· - 1)) r' h1
        (fun x hx => hh x (by simp [hx])) (fun x hx => hs x (by simp [hx]))
      refine ⟨k1, by rw [k2, hw], b :: dn, rest, by rw [e1]; rfl, ?_, ?_, e4, ?_⟩
      · rw [e2, hb', hl']; simp [place]
      · rw [e3, hl']; simp [recordCount]; omega
      · intro hr
        right
        rcases e5 hr with ⟨hc, _⟩ | hc
        · rw [hsh] at hc; cases hc
        · have hf0 : f ≠ some 0 := by
            intro hf
            -- the write would have failed
            have hb0 := Segment.append_spec c false h.active (hh b (by simp))
            have hok : (r.writeBatch c (decide (f ≠ some 0)) b).2 = .ok () := by rw [hwb]
            rw [hf] at hok
            simp only [ne_eq, not_true_eq_false, decide_false] at hok
            unfold Replica.writeBatch at hok
            split at hok
            · cases hok
            · have noio : ∀ (s : Segment α), ∀ x, s.append c false b ≠ .ok (true, x) := by
                intro s x hx
                unfold Segment.append at hx
                simp only [↓reduceIte] at hx
                repeat' split at hx
                all_goals cases hx
              split at hok
              · rename_i e; exact noio _ _ e
              · dsimp only at hok
                split at hok
                · rename_i e; exact noio _ _ e
                · cases hok
                · cases hok
                · cases hok
              · cases hok
              · cases hok
          cases f with
          | none => simp at hc
          | some k =>
            simp only [Option.map_some, Option.some.injEq] at hc ⊢
            simp only [List.length_cons]
            have : k ≠ 0 := fun e => hf0 (by rw [e])
            omega
    · have : ∃ e, x = .error e := by
        cases x with
        | ok u => exact absurd rfl hx
        | error e => exact ⟨e, rfl⟩
      obtain ⟨e, rfl⟩ := this
      refine ⟨h1, hw, [], b :: bs, rfl, by simp [place, hb'], by simp [recordCount, hl'], by simp, ?_⟩
      intro _
      rcases hcause with hc | hc
      · exact .inl ⟨hc, rfl⟩
      · right; simpa using hc

theorem checkSizes_ok (c : Cfg) : ∀ (bs : List (SBatch α)), checkSizes c bs = .ok () →
    ∀ b ∈ bs, b.size ≤ c.segMax ∧ b.size ≤ c.reqMax
  | [], _, b, hb => by simp at hb
  | a :: bs, h, b, hb => by
    unfold checkSizes at h
    split at h
    · cases h
    · split at h
      · cases h
      · rcases List.mem_cons.1 hb with rfl | hb
        · omega
        · exact checkSizes_ok c bs h b hb

theorem checkSizes_iff (c : Cfg) (bs : List (SBatch α)) :
    checkSizes c bs = .ok () ↔ ∀ b ∈ bs, b.size ≤ c.segMax ∧ b.size ≤ c.reqMax := by
  refine ⟨checkSizes_ok c bs, ?_⟩
  intro h
  induction bs with
  | nil => rfl
  | cons b bs ih =>
    obtain ⟨h1, h2⟩ := h b (by simp)
    unfold checkSizes
    rw [if_neg (by omega), if_neg (by omega)]
    exact ih fun x hx => h x (by simp [hx])

/-- Outcome of a write of honest batches. -/
theorem write_spec (c : Cfg) {r : Replica α} (h : ReplicaOk r) (set : List (SBatch α)) (u : Bool)
    (f : Option Nat) (hh : ∀ b ∈ set, HonestBatch b) :
    ReplicaOk (r.write c set u f).1 ∧
    ∃ dn rest, set = dn ++ rest ∧ (r.write c set u f).1.batches = r.batches ++ place r.leo dn ∧
      (r.write c set u f).1.leo = r.leo + recordCount dn ∧
      ((∃ e, (r.write c set u f).2 = .error e ∧ rest ≠ [] ∧ (r.write c set u f).1.hw = r.hw ∧
          (dn = [] ∨ f = some dn.length)) ∨
       ((r.write c set u f).2 = .ok (r.leo, r.leo + recordCount dn, (set.map SBatch.size).sum) ∧
          rest = [] ∧
          (r.write c set u f).1.hw = if u then r.leo + recordCount dn else r.hw)) := by
  unfold Replica.write
  cases hc : checkSizes c set with
  | error e =>
    simp only
    refine ⟨h, [], set, rfl, by simp [place], by simp [recordCount], .inl ⟨e, rfl, ?_, trivial, .inl rfl⟩⟩
    rintro rfl; cases hc
  | ok v =>
    cases v
    simp only
    obtain ⟨h1, hw, dn, rest, e1, e2, e3, e4, e5⟩ := writeBatches_spec c set f r h hh
      (fun b hb => (checkSizes_ok c set hc b hb).1)
    generalize r.writeBatches c f set = res at *
    obtain ⟨r', x⟩ := res
    simp only at *
    cases x with
    | error e =>
      simp only
      have hne : rest ≠ [] := fun hr => by rw [← e4] at hr; cases hr
      refine ⟨h1, dn, rest, e1, e2, e3, .inl ⟨e, rfl, hne, hw, ?_⟩⟩
      rcases e5 hne with h5 | h5
      · exact .inl h5.2
      · exact .inr h5
    | ok v =>
      cases v
      have hr := e4.1 rfl
      simp only
      cases u with
      | true =>
        simp only [↓reduceIte]
        refine ⟨⟨h1.active, h1.prev, h1.order, h1.nonneg⟩, dn, rest, e1, e2, e3, .inr ⟨?_, hr, e3⟩⟩
        show Except.ok (r.leo, r'.leo, _) = _
        rw [e3]
      | false =>
        simp only [Bool.false_eq_true, ↓reduceIte]
        refine ⟨h1, dn, rest, e1, e2, e3, .inr ⟨?_, hr, hw⟩⟩
        rw [e3]

/-! ## Cleaning and reopening -/

theorem ReplicaOk.filterPrev {r : Replica α} (h : ReplicaOk r) (P : Segment α → Bool) (n : Nat) :
    ReplicaOk { r with prev := r.prev.filter P, sizePrev := n } where
  active := h.active
  prev := fun s hs => h.prev s ((List.mem_filter.1 hs).1)
  order := h.order.filter _
  nonneg := h.nonneg

theorem ReplicaOk.bases_nodup {r : Replica α} (h : ReplicaOk r) :
    r.prev.Pairwise fun s t => s.base < t.base := by
  refine List.Pairwise.imp_of_mem ?_ h.order
  intro s t hs _ hst
  have := (h.prev s hs).2.1
  omega

/-- Removing the first `k` bases removes the first `k` segments. -/
theorem removeSegments_take {l : List (Segment α)} (hd : l.Pairwise fun s t => s.base < t.base)
    (k : Nat) : removeSegments l ((l.map Segment.base).take k) = l.drop k := by
  unfold removeSegments
  conv => lhs; rw [← List.take_append_drop k l]
  rw [List.filter_append]
  have hl : (List.take k (List.map Segment.base (List.take k l ++ List.drop k l)))
      = (List.take k l).map Segment.base := by
    rw [List.take_append_drop, List.map_take]
  rw [hl]
  rw [List.filter_eq_nil_iff.2, List.filter_eq_self.2]
  · rfl
  · intro s hs
    simp only [decide_eq_true_eq, List.mem_map, not_exists, not_and]
    intro t ht he
    have : t.base < s.base := by
      rw [← List.take_append_drop k l, List.pairwise_append] at hd
      exact hd.2.2 t ht s hs
    omega
  · intro s hs
    simp only [decide_eq_true_eq, Classical.not_not]
    exact List.mem_map_of_mem hs

/-- What the size-based cleaner does: drop some of the oldest segments. -/
theorem ReplicaOk.cleanSize_eq {r : Replica α} (h : ReplicaOk r) (c : Cfg) :
    r.cleanSize c =
      let excess := (r.sizePrev + r.sizeActive) - c.partMax
      if 0 < excess then
        let k := excess / c.segMax + if 0 < excess % c.segMax then 1 else 0
        { r with prev := r.prev.drop k, sizePrev := occupiedPrev (r.prev.drop k) }
      else r := by
  unfold Replica.cleanSize
  dsimp only
  split
  · rw [removeSegments_take h.bases_nodup]
  · rfl

theorem ReplicaOk.cleanSize {r : Replica α} (h : ReplicaOk r) (c : Cfg) : ReplicaOk (r.cleanSize c) := by
  unfold Replica.cleanSize
  dsimp only
  split
  · exact h.filterPrev _ _
  · exact h

theorem ReplicaOk.cleanTtl {r : Replica α} (h : ReplicaOk r) (e : Int → Bool) :
    ReplicaOk (r.cleanTtl e) := by
  unfold Replica.cleanTtl
  dsimp only
  split
  · exact h
  · exact h.filterPrev _ _

/-- The time-based cleaner keeps exactly the segments that are not expired. -/
theorem Replica.cleanTtl_prev (r : Replica α) (e : Int → Bool) :
    (r.cleanTtl e).prev = r.prev.filter fun s => !e s.base := by
  unfold Replica.cleanTtl
  dsimp only
  split
  · rename_i hn
    rw [eq_comm, List.filter_eq_self]
    intro s hs
    cases he : e s.base with
    | false => rfl
    | true =>
      have : s ∈ r.prev.filter fun s => e s.base := List.mem_filter.2 ⟨hs, he⟩
      have := List.mem_map_of_mem (f := Segment.base) this
      rw [hn] at this
      cases this
  · show r.prev.filter _ = _
    apply List.filter_congr
    intro s hs
    cases he : e s.base with
    | true =>
      simp only [Bool.not_true, decide_eq_false_iff_not, Classical.not_not]
      exact List.mem_map_of_mem (f := Segment.base) (List.mem_filter.2 ⟨hs, he⟩)
    | false =>
      simp only [Bool.not_false, decide_eq_true_eq]
      intro hm
      obtain ⟨t, ht, hb⟩ := List.mem_map.1 hm
      have := (List.mem_filter.1 ht).2
      rw [hb, he] at this
      cases this

theorem Chain.validatedLeo {a e : Int} {l : List (Stored α)} (h : Chain a l e) (h0 : 0 ≤ a) :
    validatedLeo a l = e := by
  unfold Storage.validatedLeo
  rcases List.eq_nil_or_concat l with rfl | ⟨l', b, rfl⟩
  · exact h
  · rw [List.concat_eq_append] at h ⊢
    rw [List.getLast?_append]
    simp only [List.getLast?_singleton, Option.some_or]
    obtain ⟨x, h1, h2⟩ := Chain.split h
    have := h1.le
    have h3 : b.base = x := h2.1
    have h4 := h2.2.1
    have h5 : b.last + 1 = e := h2.2.2
    have : b.last = b.base + b.batch.delta := rfl
    rw [if_neg (by omega)]
    exact h5

theorem SegOk.openUnknown {s : Segment α} (h : SegOk s) (h0 : 0 ≤ s.base) : SegOk s.openUnknown ∧
    s.openUnknown.base = s.base ∧ s.openUnknown.endOff = s.endOff ∧ s.openUnknown.file = s.file := by
  have e := h.chain.validatedLeo h0
  refine ⟨?_, rfl, e, rfl⟩
  have hc := h.close
  exact ⟨by show Chain s.base s.file (Storage.validatedLeo s.base s.file); rw [e]; exact h.chain,
    hc.slots, hc.honest, hc.used⟩

theorem takeWhile_length_le {β : Type _} (p : β → Bool) : ∀ l : List β, (l.takeWhile p).length ≤ l.length
  | [] => by simp
  | a :: l => by
    rw [List.takeWhile_cons]
    split
    · simp only [List.length_cons]; have := takeWhile_length_le p l; omega
    · simp

theorem ActiveOk.openForWrite {c : Cfg} {s s' : Segment α} (h : ActiveOk s) (h0 : 0 ≤ s.base)
    (ho : s.openForWrite c = some s') : ActiveOk s' ∧ s'.base = s.base ∧ s'.endOff = s.endOff ∧
      s'.file = s.file := by
  unfold Segment.openForWrite at ho
  rw [Option.map_eq_some_iff] at ho
  obtain ⟨ix, hix, rfl⟩ := ho
  have e := h.chain.validatedLeo h0
  unfold Index.reopen at hix
  dsimp only at hix
  split at hix
  · cases hix
    refine ⟨⟨⟨?_, h.slots, h.honest, ?_⟩, ?_⟩, rfl, e, rfl⟩
    · show Chain s.base s.file (Storage.validatedLeo s.base s.file); rw [e]; exact h.chain
    · exact takeWhile_length_le _ _
    · show ((0 : Nat) : Int) + s.base < Storage.validatedLeo s.base s.file ∨ _
      rw [e]
      have := h.chain.le
      by_cases hlt : s.base < s.endOff
      · left; omega
      · right; refine ⟨rfl, ?_⟩; show s.endOff = s.base; omega
  · cases hix

/-- Reopening changes nothing about the stored batches. -/
theorem ReplicaOk.reopen {c : Cfg} {chk : ChkFile} {r r' : Replica α} (h : ReplicaOk r)
    (ho : r.reopen c chk = some r') :
    ReplicaOk r' ∧ r'.batches = r.batches ∧ r'.leo = r.leo ∧
      r'.prev.map (fun s => (s.base, s.endOff, s.file)) = r.prev.map (fun s => (s.base, s.endOff, s.file)) ∧
      r'.active.base = r.active.base ∧
      r'.hw = (let v := readCheckpoint chk r.active.base; if r.leo < v then r.leo else v) := by
  unfold Replica.reopen at ho
  rw [Option.map_eq_some_iff] at ho
  obtain ⟨a, ha, rfl⟩ := ho
  obtain ⟨h1, h2, h3, h4⟩ := h.active.openForWrite h.nonneg ha
  have hprev : ∀ s ∈ r.prev, SegOk s.openUnknown ∧ s.openUnknown.base = s.base ∧
      s.openUnknown.endOff = s.endOff ∧ s.openUnknown.file = s.file :=
    fun s hs => (h.prev s hs).1.openUnknown (h.prev s hs).2.2.1
  have hmap : (r.prev.map Segment.openUnknown).map (fun s => (s.base, s.endOff, s.file))
      = r.prev.map (fun s => (s.base, s.endOff, s.file)) := by
    rw [List.map_map]
    apply List.map_congr_left
    intro s hs
    obtain ⟨_, e1, e2, e3⟩ := hprev s hs
    show (s.openUnknown.base, s.openUnknown.endOff, s.openUnknown.file) = _
    rw [e1, e2, e3]
  refine ⟨⟨h1, ?_, ?_, ?_⟩, ?_, h3, hmap, h2, ?_⟩
  · intro s hs
    obtain ⟨t, ht, rfl⟩ := List.mem_map.1 hs
    obtain ⟨e0, e1, e2, e3⟩ := hprev t ht
    obtain ⟨k1, k2, k3, k4⟩ := h.prev t ht
    refine ⟨e0, by omega, by omega, ?_⟩
    show t.openUnknown.endOff ≤ a.base
    omega
  · rw [List.pairwise_map]
    refine List.Pairwise.imp_of_mem ?_ h.order
    intro s t hs ht hst
    rw [(hprev s hs).2.2.1, (hprev t ht).2.1]; exact hst
  · show 0 ≤ a.base
    rw [h2]; exact h.nonneg
  · unfold Replica.batches
    show (r.prev.map Segment.openUnknown).flatMap Segment.file ++ a.file = _
    rw [h4, List.flatMap_map]
    congr 1
  · show (if a.endOff < readCheckpoint chk a.base then a.endOff else readCheckpoint chk a.base) = _
    rw [h2, h3]
    rfl

theorem ReplicaOk.updateHw {r : Replica α} (h : ReplicaOk r) (o : Int) : ReplicaOk (r.updateHw o) :=
  ⟨h.active, h.prev, h.order, h.nonneg⟩

/-- Operations whose batches are honest. -/
def Op.Honest : Op α → Prop
  | .write set _ _ => ∀ b ∈ set, HonestBatch b
  | _ => True

theorem ReplicaOk.step {r : Replica α} (h : ReplicaOk r) (c : Cfg) (op : Op α) (ho : op.Honest) :
    ReplicaOk (r.step c op).1 := by
  cases op with
  | write set u f =>
    have := (write_spec c h set u f ho).1
    unfold Replica.step
    dsimp only
    generalize r.write c set u f = res at *
    obtain ⟨r', x⟩ := res
    cases x <;> exact this
  | updateHw o => exact h.updateHw o
  | cleanSize => exact h.cleanSize c
  | cleanTtl e => exact h.cleanTtl e
  | reopen chk =>
    unfold Replica.step
    dsimp only
    split
    · rename_i r' hr; exact (h.reopen hr).1
    · exact h

theorem ReplicaOk.run (c : Cfg) : ∀ (ops : List (Op α)) (r : Replica α), ReplicaOk r →
    (∀ op ∈ ops, op.Honest) → ReplicaOk (r.run c ops).1
  | [], _, h, _ => h
  | op :: ops, r, h, ho => by
    unfold Replica.run
    exact ReplicaOk.run c ops _ (h.step c op (ho op (by simp))) fun o h' => ho o (by simp [h'])

end Verif.Storage
