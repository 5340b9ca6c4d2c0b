import Verif.Stream.Filter

/-!
# Look-back of SmartModules (`fluvio-spu/src/smartengine/context.rs`)

Before a SmartModule chain processes records it may be shown records that are already in the partition:
the last `n`, or those that are not older than some age.  A record is decoded together with its timestamp
(`ts`, the batch's first timestamp plus the record's delta); its offset is base offset plus position.
-/

namespace Verif.Smart
open Verif.Wire (Bytes)
open Verif.Storage Verif.Stream

variable {α : Type}

/-- `FileRecordIterator` — fluvio-storage/src/iterators.rs:145-211.  A batch without records ends it. -/
def recordItems : List (FileB α) → List (Int × α)
  | [] => []
  | b :: l => if b.recs.isEmpty then [] else (b.recs.zipIdx.map fun q => (b.base + (q.2 : Int), q.1)) ++ recordItems l

/-- `i64::clamp`; it panics when the bounds are the wrong way round. -/
def clamp (x lo hi : Int) : Option Int :=
  if hi < lo then none else some (if x < lo then lo else if hi < x then hi else x)

/-- The offset from which `lookback_last_iterator` reads — context.rs:155-159 -/
def lookbackFrom (r : Replica α) (last : Nat) : Option Int :=
  if 2 ^ 63 ≤ last then none else clamp (max (r.hw - last) 0) r.logStart r.hw

/-- `lookback_last_iterator` — context.rs:150-178.  `start_offset_info` and `read_records` happen one after
the other without a write in between (the two look-ups of the storage are not atomic in the code).  A
batch that is cut off ends the list here; in the code it is an error. -/
def lookbackLast (rd : Bytes → List α) (r : Replica α) (last : Nat) : Except StErr (List (Int × α)) :=
  match lookbackFrom r last with
  | none => .error .panic
  | some o =>
    match r.readPartition o (2 ^ 32 - 1) .committed with
    | .error e => .error e
    | .ok res =>
      match res.data with
      | none => .ok []
      | some bs => .ok ((recordItems (fileBatches rd bs)).filter fun p => decide (o ≤ p.1))

/-- `header.max_time_stamp` of a batch — fluvio-protocol/src/record/batch.rs:167-176, 463 -/
def maxTsOf (bs : Bytes) : Int :=
  match decFileHeader bs with
  | .ok ((_, _, h), _) => h.maxTimestamp.toInt
  | .error _ => 0

/-- The loop of `read_batches_by_age` — context.rs:211-239; `min` is `min_timestamp`.  The batches are
returned oldest first (240). -/
def ageLoop (rd : Bytes → List α) (r : Replica α) (min : Int) : Nat → Int → Except StErr (List (FileB α))
  | 0, _ => .ok []
  | fuel + 1, off =>
    if off < 0 then .ok []
    else
      match r.readPartition (off - 1) (2 ^ 32 - 1) .committed with
      | .error e => .error e
      | .ok res =>
        match res.data with
        | none => .ok []
        | some bs =>
          match wholeBatches (bs.length + 1) bs with
          | [] => .ok []
          | p :: _ =>
            if maxTsOf p.2.2 < min then .ok []
            else
              match ageLoop rd r min fuel (p.1 - 1) with
              | .error e => .error e
              | .ok l => .ok (l ++ [⟨p.1, p.2.1 - p.1, rd p.2.2⟩])

/-- `read_batches_by_age` — context.rs:206-247.  Each round goes back by at least one offset, so `hw + 1`
rounds suffice. -/
def readBatchesByAge (rd : Bytes → List α) (r : Replica α) (min : Int) : Except StErr (List (FileB α)) :=
  ageLoop rd r min (r.hw.toNat + 1) (r.hw - 1)

/-- `Lookback` — fluvio-smartengine/src/engine/config.rs:46-50.  The age is given as the smallest
timestamp that is recent enough (context.rs:186-189). -/
inductive Lookback where
  | last (n : Nat)
  | age (minTs : Int) (n : Nat)

/-- `lookback_iterator`, `lookback_age_iterator`, `read_records` — context.rs:122-148, 180-204 -/
def lookback (rd : Bytes → List α) (ts : α → Int) (r : Replica α) : Lookback → Except StErr (List (Int × α))
  | .last n => lookbackLast rd r n
  | .age m n =>
    match (if 0 < n then lookbackLast rd r n else (readBatchesByAge rd r m).map recordItems) with
    | .error e => .error e
    | .ok l => .ok (l.filter fun p => decide (m ≤ ts p.2))

/-! ## Specification -/

/-- **Specification.** The committed records, in order. -/
def committed (r : Replica α) : List (Int × α) := r.pairs.filter fun p => decide (p.1 < r.hw)

/-- **Specification.** The last `n` elements of a list. -/
def lastN (n : Nat) (l : List (Int × α)) : List (Int × α) := l.drop (l.length - n)

/-- **Specification.** What a look-back asks for. -/
def wanted (ts : α → Int) (r : Replica α) : Lookback → List (Int × α)
  | .last n => lastN n (committed r)
  | .age m n => (if 0 < n then lastN n (committed r) else committed r).filter fun p => decide (m ≤ ts p.2)

/-! ## Lemmas -/

theorem recordItems_view {l : List (Stored α)} (h : ∀ b ∈ l, HonestBatch b.batch) :
    recordItems (l.map Stored.view) = l.flatMap Stored.pairs := by
  induction l with
  | nil => rfl
  | cons b l ih =>
    have hb := (h b (by simp)).2.1
    have hne : (Stored.view b).recs.isEmpty = false := by
      have h0 := (h b (by simp)).1
      show b.batch.records.isEmpty = false
      cases hr : b.batch.records with
      | nil => rw [hr] at hb; simp at hb; omega
      | cons _ _ => rfl
    rw [List.map_cons, recordItems, hne, if_neg (by simp), ih fun x hx => h x (by simp [hx])]
    rfl

/-- A committed read at a stored offset, and what lies behind it: either not committed or in a segment
that begins behind the offset. -/
theorem read_committed {c : Cfg} {r : Replica α} (h : ReplicaOk r) (hbd : Bounded c r)
    (hc : c.segMax < 2 ^ 32) {b : Stored α} (hb : b ∈ r.batches) {o m : Int} (h1 : b.base ≤ o)
    (h2 : o ≤ b.last) (hm : o ≤ m) :
    ∃ pre run post, r.batches = pre ++ run ++ post ∧ (∀ x ∈ run, x.last < m) ∧
      (b.last < m → ∃ tl, run = b :: tl) ∧
      (run ++ post).head? = some b ∧
      r.read o (some m) (2 ^ 32 - 1) = .ok ⟨r.logStart, r.hw, r.leo, some (content run)⟩ ∧
      ((∃ x, post.head? = some x ∧ m ≤ x.last) ∨
        ∀ x ∈ post, ∃ s ∈ r.prev ++ [r.active], o < s.base ∧ s.base ≤ x.base) := by
  obtain ⟨s, cl, l1, l2, hloc, hbs, hs, h3, h4⟩ := h.locate hb h1 h2
  obtain ⟨pre, post, hf⟩ := List.append_of_mem hbs
  have hseg : width s.file ≤ c.segMax := by
    cases hloc with
    | active hs ho => subst hs; exact hbd.2
    | closed l1 l2 hp ho hf => exact hbd.1 s (by rw [hp]; simp)
  have hwid : width s.file < 2 ^ 32 := by omega
  have htake : ∀ (run : List (Stored α)), width run ≤ width s.file →
      (content run).take (min (width run) (2 ^ 32 - 1)) = content run := by
    intro run hr
    rw [Nat.min_eq_left (by omega), ← content_length, List.take_length]
  by_cases hend : s.endOff ≤ m
  · refine ⟨l1 ++ pre, b :: post, l2, ?_, ?_, fun _ => ⟨post, rfl⟩, rfl, ?_, .inr ?_⟩
    · rw [hloc.batches, hf]; simp
    · intro x hx
      have := hs.chain.mem (b := x) (by rw [hf]; simp only [List.mem_append]; exact .inr hx)
      omega
    · rw [hloc.read h4, hs.slice_full cl hf h1 h2 hend]
      simp only
      rw [bytesAt_run (run := b :: post) (post := []) (by rw [hf]; simp) _ (Nat.min_le_left _ _), htake]
      rw [hf, width_append]; omega
    · intro x hx
      cases hloc with
      | active hs ho => cases hx
      | closed l1 l2 hp ho hf =>
        rw [List.mem_append, List.mem_flatMap] at hx
        rcases hx with ⟨t, ht, hx⟩ | hx
        · have hpw := h.order
          rw [hp, List.pairwise_append] at hpw
          have := (List.pairwise_cons.1 hpw.2.1).1 t ht
          have hch := ((h.prev t (by rw [hp]; simp [ht])).1.chain).mem hx
          exact ⟨t, by rw [hp]; simp [ht], by omega, hch.1⟩
        · exact ⟨r.active, by simp, ho, (h.active.chain.mem hx).1⟩
  · have hch := hs.chain
    rw [hf] at hch
    obtain ⟨x, hx1, hx2⟩ := Chain.split hch
    have hx3 := hx2.1
    obtain ⟨run, cb, post', he, h5, h6⟩ := exists_containing hx2 (off := m) (by omega) (by omega)
    have hf' : s.file = pre ++ (run ++ cb :: post') := by rw [hf, he]
    obtain ⟨y, hy1, hy2⟩ := Chain.split (he ▸ hx2)
    have hy3 := hy2.1
    refine ⟨l1 ++ pre, run, cb :: post' ++ l2, ?_, ?_, ?_, ?_, ?_, .inl ⟨cb, rfl, h6⟩⟩
    · rw [hloc.batches, hf']; simp
    · intro z hz
      have := (hy1.mem hz).2.2
      omega
    · intro hlt
      cases run with
      | nil =>
        rw [List.nil_append] at he
        have : b = cb := by injection he
        subst this
        omega
      | cons z tl =>
        rw [List.cons_append] at he
        have : b = z := by injection he
        subst this
        exact ⟨tl, rfl⟩
    · rw [← List.append_assoc, ← he]; rfl
    · rw [hloc.read h4, hs.slice_bounded cl hwid hf' (b := b) (by rw [← he]; rfl) h1 h2 h5 h6]
      simp only
      rw [bytesAt_run (run := run) (post := cb :: post') hf' _ (Nat.min_le_left _ _), htake]
      rw [hf', width_append, width_append]; omega

/-! ## Consecutive offsets -/

/-- The offsets are `a`, `a + 1`, … -/
def Consec : Int → List (Int × α) → Prop
  | _, [] => True
  | a, x :: l => x.1 = a ∧ Consec (a + 1) l

theorem Consec.append {l m : List (Int × α)} : ∀ {a : Int}, Consec a l → Consec (a + l.length) m →
    Consec a (l ++ m) := by
  induction l with
  | nil => intro a _ h; simpa using h
  | cons x l ih =>
    intro a h1 h2
    refine ⟨h1.1, ih h1.2 ?_⟩
    rw [List.length_cons] at h2
    rw [show a + 1 + (l.length : Int) = a + ((l.length + 1 : Nat) : Int) by omega]
    exact h2

theorem consec_zipIdx (f : Int → Int) (b : Int) (hf : ∀ k : Nat, f k = b + k) : ∀ (l : List α) (k : Nat),
    Consec (b + k) ((l.zipIdx k).map fun q => (f q.2, q.1))
  | [], _ => True.intro
  | x :: l, k => by
    refine ⟨hf k, ?_⟩
    have := consec_zipIdx f b hf l (k + 1)
    rw [show b + (k : Int) + 1 = b + ((k + 1 : Nat) : Int) by omega]
    exact this

theorem consec_pairs (b : Stored α) : Consec b.base b.pairs := by
  have := consec_zipIdx (α := α) (fun k => b.base + k) b.base (fun _ => rfl) b.batch.records 0
  simpa [Stored.pairs] using this

theorem pairs_length (b : Stored α) : b.pairs.length = b.batch.records.length := by simp [Stored.pairs]

theorem consec_chain : ∀ {l : List (Stored α)} {a e : Int}, Chain a l e → (∀ b ∈ l, HonestBatch b.batch) →
    Consec a (l.flatMap Stored.pairs) ∧ ((l.flatMap Stored.pairs).length : Int) = e - a
  | [], a, e, h, _ => by
    have : a = e := h
    simp [Consec, this]
  | b :: l, a, e, h, hh => by
    obtain ⟨k1, k2⟩ := consec_chain (l := l) h.2.2 fun x hx => hh x (by simp [hx])
    have hb := (hh b (by simp)).2.1
    have h0 : b.base = a := h.1
    rw [List.flatMap_cons, List.length_append, pairs_length]
    unfold Stored.last at k1 k2
    refine ⟨(h0 ▸ consec_pairs b).append ?_, by push_cast; omega⟩
    rw [pairs_length, hb, ← h0]
    rwa [← Int.add_assoc]

theorem Consec.filter_ge {l : List (Int × α)} : ∀ {a : Int}, Consec a l → ∀ (o : Int), a ≤ o →
    l.filter (fun p => decide (o ≤ p.1)) = l.drop (o - a).toNat := by
  induction l with
  | nil => intro a _ o _; simp
  | cons x l ih =>
    intro a h o ho
    by_cases hq : o = a
    · subst hq
      have hall : ∀ y ∈ x :: l, decide (o ≤ y.1) = true := by
        have : ∀ {m : List (Int × α)} {a : Int}, Consec a m → ∀ y ∈ m, a ≤ y.1 := by
          intro m
          induction m with
          | nil => intro a _ y hy; cases hy
          | cons z m ihm =>
            intro a hm y hy
            rw [List.mem_cons] at hy
            rcases hy with rfl | hy
            · rw [hm.1]; exact Int.le_refl _
            · have := ihm hm.2 y hy; omega
        intro y hy
        exact decide_eq_true (this h y hy)
      rw [List.filter_eq_self.2 hall]
      simp
    · rw [List.filter_cons_of_neg (by rw [h.1]; simp; omega), ih h.2 o (by omega)]
      rw [show (o - a).toNat = (o - (a + 1)).toNat + 1 by omega, List.drop_succ_cons]

theorem Consec.filter_lt {l : List (Int × α)} : ∀ {a : Int}, Consec a l → ∀ (o : Int), a ≤ o →
    l.filter (fun p => decide (p.1 < o)) = l.take (o - a).toNat := by
  induction l with
  | nil => intro a _ o _; simp
  | cons x l ih =>
    intro a h o ho
    by_cases hq : o = a
    · subst hq
      have hall : ∀ {m : List (Int × α)} {a : Int}, Consec a m → ∀ y ∈ m, a ≤ y.1 := by
        intro m
        induction m with
        | nil => intro a _ y hy; cases hy
        | cons z m ihm =>
          intro a hm y hy
          rw [List.mem_cons] at hy
          rcases hy with rfl | hy
          · rw [hm.1]; exact Int.le_refl _
          · have := ihm hm.2 y hy; omega
      rw [List.filter_eq_nil_iff.2 (by intro y hy; have := hall h y hy; simp; omega)]
      simp
    · rw [List.filter_cons_of_pos (by rw [h.1]; simp; omega), ih h.2 o (by omega)]
      rw [show (o - a).toNat = (o - (a + 1)).toNat + 1 by omega, List.take_succ_cons]

theorem Consec.take {l : List (Int × α)} : ∀ {a : Int} (n : Nat), Consec a l → Consec a (l.take n) := by
  induction l with
  | nil => intro a n _; simp [Consec]
  | cons x l ih =>
    intro a n h
    cases n with
    | zero => simp [Consec]
    | succ n => exact ⟨h.1, ih n h.2⟩

/-! ## The last `n` records -/

/-- A partition in which look-back is used. -/
structure LbOk (c : Cfg) (rd : Bytes → List α) (r : Replica α) : Prop where
  ok : ReplicaOk r
  seamless : Seamless r
  bounded : Bounded c r
  seg : c.segMax < 2 ^ 32
  all : ∀ b ∈ r.batches, RawBatch b.batch ∧ ∀ e, rd (b.batch.enc e) = b.batch.records
  hw_ge : r.logStart ≤ r.hw
  hw_le : r.hw ≤ r.leo
  hw_at : ∀ b ∈ r.batches, b.base < r.hw → b.last < r.hw
  leo : r.leo < 2 ^ 63

theorem LbOk.honest {c : Cfg} {rd : Bytes → List α} {r : Replica α} (h : LbOk c rd r) :
    ∀ b ∈ r.batches, HonestBatch b.batch := by
  intro x hx
  unfold Replica.batches at hx
  rw [List.mem_append, List.mem_flatMap] at hx
  rcases hx with ⟨s, hs, hx⟩ | hx
  · exact (h.ok.prev s hs).1.honest x hx
  · exact h.ok.active.honest x hx

theorem LbOk.start_nonneg {c : Cfg} {rd : Bytes → List α} {r : Replica α} (h : LbOk c rd r) : 0 ≤ r.logStart := by
  cases hp : r.prev with
  | nil => rw [Replica.logStart_nil hp]; exact h.ok.nonneg
  | cons s l => rw [h.ok.logStart_cons hp]; exact (h.ok.prev s (by simp [hp])).2.2.1

theorem LbOk.view {c : Cfg} {rd : Bytes → List α} {r : Replica α} (h : LbOk c rd r)
    {pre run post : List (Stored α)} (he : r.batches = pre ++ run ++ post) :
    fileBatches rd (content run) = run.map Stored.view := by
  have hm : ∀ b ∈ run, b ∈ r.batches := by
    intro b hb; rw [he]; simp [hb]
  apply fileBatches_content
  · intro b hb
    have := (h.seamless : Chain _ _ _).mem (hm b hb)
    have h0 := h.start_nonneg
    have := h.leo
    exact ⟨(h.all b (hm b hb)).1, by unfold Fits64; omega⟩
  · exact fun b hb => h.honest b (hm b hb)
  · exact fun b hb => (h.all b (hm b hb)).2

/-- The offset from which the last `n` committed records are read. -/
def fromLast (r : Replica α) (n : Nat) : Int := max (r.hw - n) r.logStart

theorem LbOk.from_eq {c : Cfg} {rd : Bytes → List α} {r : Replica α} (h : LbOk c rd r) {n : Nat}
    (hn : n < 2 ^ 63) : lookbackFrom r n = some (fromLast r n) := by
  have h0 := h.start_nonneg
  have h1 := h.hw_ge
  unfold lookbackFrom clamp fromLast
  rw [if_neg (by omega), if_neg (by omega)]
  congr 1
  split
  · omega
  · split <;> omega

theorem LbOk.wanted_eq {c : Cfg} {rd : Bytes → List α} {r : Replica α} (h : LbOk c rd r) (n : Nat) :
    lastN n (committed r) = (committed r).filter fun p => decide (fromLast r n ≤ p.1) := by
  obtain ⟨k1, k2⟩ := consec_chain h.seamless h.honest
  have h1 := h.hw_ge
  have h2 := h.hw_le
  have hc : committed r = r.pairs.take (r.hw - r.logStart).toNat := k1.filter_lt r.hw h1
  have hcc : Consec r.logStart (committed r) := by rw [hc]; exact k1.take _
  have hlen : ((committed r).length : Int) = r.hw - r.logStart := by
    rw [hc, List.length_take]
    unfold Replica.pairs
    omega
  rw [hcc.filter_ge _ (by unfold fromLast; omega)]
  unfold lastN fromLast
  congr 1
  omega

/-- Reading from `o` on: what the look-back reads at `o` is the beginning of the committed records from
`o` on — all of them, if no segment begins in between. -/
theorem LbOk.read {c : Cfg} {rd : Bytes → List α} {r : Replica α} (h : LbOk c rd r) {o : Int}
    (h1 : r.logStart ≤ o) (h2 : o ≤ r.hw) :
    ∃ res, r.readPartition o (2 ^ 32 - 1) .committed = .ok res ∧
      ((res.data = none ∧ (committed r).filter (fun p => decide (o ≤ p.1)) = []) ∨
        ∃ bs l, res.data = some bs ∧
          (recordItems (fileBatches rd bs)).filter (fun p => decide (o ≤ p.1)) = l ∧
          (∃ rest, (committed r).filter (fun p => decide (o ≤ p.1)) = l ++ rest) ∧
          ((∀ s ∈ r.prev ++ [r.active], s.base ≤ o ∨ r.hw ≤ s.base) →
            (committed r).filter (fun p => decide (o ≤ p.1)) = l)) := by
  have hle := h.hw_le
  by_cases hend : o = r.leo
  · refine ⟨_, by rw [hend]; exact (h.ok.read_outside (some r.hw) _).1, .inl ⟨rfl, ?_⟩⟩
    rw [List.filter_eq_nil_iff]
    intro p hp
    have := of_decide_eq_true (List.mem_filter.1 hp).2
    simp only [decide_eq_true_eq]
    omega
  · obtain ⟨b, hb, h3, h4⟩ := h.seamless.contains h1 (by omega)
    obtain ⟨pre, run, post, e1, e2, e3, e4, e5, e6⟩ := read_committed h.ok h.bounded h.seg hb h3 h4 h2
    refine ⟨_, e5, .inr ⟨content run, _, rfl, rfl, ?_⟩⟩
    have hch : Chain r.logStart (pre ++ run ++ post) r.leo := e1 ▸ h.seamless
    obtain ⟨y, hy1, hy2⟩ := hch.split
    obtain ⟨z, hz1, hz2⟩ := hy1.split
    have hhon : ∀ x ∈ pre ++ run ++ post, HonestBatch x.batch := by
      intro x hx; exact h.honest x (by rw [e1]; exact hx)
    have hin : ∀ x : Stored α, HonestBatch x.batch → ∀ p ∈ x.pairs, x.base ≤ p.1 ∧ p.1 ≤ x.last := by
      intro x hx p hp
      unfold Stored.pairs at hp
      rw [List.mem_map] at hp
      obtain ⟨q, hq, rfl⟩ := hp
      have := List.snd_lt_of_mem_zipIdx hq
      have := hx.2.1
      unfold Stored.last
      dsimp only
      omega
    have hzb : z ≤ o := by
      have hcat : Chain z (run ++ post) r.leo := hz2.append hy2
      cases hrp : run ++ post with
      | nil => rw [hrp] at e4; cases e4
      | cons x tl =>
        rw [hrp] at e4 hcat
        have hx : x = b := by simpa using e4
        have := hcat.1
        rw [hx] at this
        omega
    have hpre : (pre.flatMap Stored.pairs).filter (fun p => decide (o ≤ p.1)) = [] := by
      rw [List.filter_eq_nil_iff]
      intro p hp
      rw [List.mem_flatMap] at hp
      obtain ⟨x, hx, hp⟩ := hp
      have := hin x (hhon x (by simp [hx])) p hp
      have := hz1.mem hx
      simp only [decide_eq_true_eq]
      omega
    have hsplit : (committed r).filter (fun p => decide (o ≤ p.1)) =
        ((run.flatMap Stored.pairs).filter fun p => decide (o ≤ p.1)) ++
        ((post.flatMap Stored.pairs).filter fun p => decide (p.1 < r.hw)).filter (fun p => decide (o ≤ p.1)) := by
      unfold committed Replica.pairs
      rw [e1, List.flatMap_append, List.flatMap_append, List.filter_append, List.filter_append,
        List.filter_append, List.filter_append]
      have k1 : ((pre.flatMap Stored.pairs).filter fun p => decide (p.1 < r.hw)).filter
          (fun p => decide (o ≤ p.1)) = [] := by
        rw [List.filter_filter, List.filter_congr (q := fun p => decide (p.1 < r.hw) && decide (o ≤ p.1)),
          ← List.filter_filter, hpre]
        · rfl
        · intro x _; rw [Bool.and_comm]
      have k2 : (run.flatMap Stored.pairs).filter (fun p => decide (p.1 < r.hw)) = run.flatMap Stored.pairs := by
        rw [List.filter_eq_self]
        intro p hp
        rw [List.mem_flatMap] at hp
        obtain ⟨x, hx, hp⟩ := hp
        have := hin x (hhon x (by simp [hx])) p hp
        have := e2 x hx
        exact decide_eq_true (by omega)
      rw [k1, k2, List.nil_append]
    have hitems : recordItems (fileBatches rd (content run)) = run.flatMap Stored.pairs := by
      rw [h.view e1, recordItems_view fun x hx => hhon x (by simp [hx])]
    rw [hitems]
    refine ⟨⟨_, hsplit⟩, fun hseg => ?_⟩
    have hpost : ((post.flatMap Stored.pairs).filter fun p => decide (p.1 < r.hw)) = [] := by
      rw [List.filter_eq_nil_iff]
      intro p hp
      rw [List.mem_flatMap] at hp
      obtain ⟨x, hx, hp⟩ := hp
      have hx0 := hin x (hhon x (by simp [hx])) p hp
      have hbase : r.hw ≤ x.base := by
        rcases e6 with ⟨w, hw1, hw2⟩ | hall
        · cases post with
          | nil => cases hx
          | cons w' tl =>
            have : w' = w := by simpa using hw1
            subst this
            have hwb : r.hw ≤ w'.base := by
              by_cases hlt : w'.base < r.hw
              · have := h.hw_at w' (by rw [e1]; simp) hlt
                omega
              · omega
            rw [List.mem_cons] at hx
            rcases hx with rfl | hx
            · exact hwb
            · have := hy2.2.2.mem hx
              have := hy2.2.1
              unfold Stored.last at *
              omega
        · obtain ⟨s, hs, k1, k2⟩ := hall x hx
          rcases hseg s hs with h5 | h5 <;> omega
      simp only [decide_eq_true_eq]
      omega
    rw [hsplit, hpost, List.filter_nil, List.append_nil]

/-! ## Recent records -/

theorem LbOk.whole {c : Cfg} {rd : Bytes → List α} {r : Replica α} (h : LbOk c rd r)
    {pre tl post : List (Stored α)} {b : Stored α} (he : r.batches = pre ++ (b :: tl) ++ post) :
    ∃ rest, wholeBatches ((content (b :: tl)).length + 1) (content (b :: tl)) = (b.base, b.last, b.bytes) :: rest := by
  have hb : b ∈ r.batches := by rw [he]; simp
  have := (h.seamless : Chain _ _ _).mem hb
  have h0 := h.start_nonneg
  have h1 := h.leo
  have hc : content (b :: tl) = b.bytes ++ content tl := by simp [content]
  have hraw : IsRaw b := (h.all b hb).1
  rw [hc, wholeBatches, hraw.readFrom (by unfold Fits64; omega)]
  simp only
  rw [List.take_left' (show b.bytes.length = b.width from rfl)]
  exact ⟨_, rfl⟩

/-- What the loop collects: the newest batches, until the first one that is too old. -/
theorem LbOk.age {c : Cfg} {rd : Bytes → List α} {r : Replica α} (h : LbOk c rd r) (min : Int) :
    ∀ (n : Nat) (l rest : List (Stored α)) (x : Int), r.batches = l ++ rest → Chain r.logStart l x → x ≤ r.hw →
      (∀ b ∈ l, 1 ≤ b.batch.delta) → (r.logStart = 0 ∨ ∃ b ∈ l, maxTsOf b.bytes < min) → x - 1 < n →
      ∃ old new, l = old ++ new ∧ (∀ b, old.getLast? = some b → maxTsOf b.bytes < min) ∧
        ageLoop rd r min n (x - 1) = .ok (new.map Stored.view) := by
  intro n
  induction n with
  | zero =>
    intro l rest x he hch hx hd hs hn
    have h0 := h.start_nonneg
    have := hch.le
    refine ⟨[], l, rfl, by simp, ?_⟩
    cases l with
    | nil => rfl
    | cons b l =>
      have h1 := hd b (by simp)
      have := hch.mem (b := b) (by simp)
      unfold Stored.last at this
      omega
  | succ n ih =>
    intro l rest x he hch hx hd hs hn
    have h0 := h.start_nonneg
    rcases List.eq_nil_or_concat l with rfl | ⟨l', b, rfl⟩
    · have hx0 : r.logStart = x := hch
      rcases hs with hs | ⟨b, hb, _⟩
      · exact ⟨[], [], rfl, by simp, by rw [ageLoop, if_pos (by omega)]; rfl⟩
      · cases hb
    · rw [List.concat_eq_append] at *
      obtain ⟨y, hy1, hy2⟩ := hch.split
      have hbase : b.base = y := hy2.1
      have hend : b.last + 1 = x := hy2.2.2
      have hdb := hd b (by simp)
      have hle := hy1.le
      have hlt : b.base ≤ x - 1 - 1 := by unfold Stored.last at hend; omega
      have hb : b ∈ r.batches := by rw [he]; simp
      obtain ⟨pre, run, post, e1, _, e3, _, e5, _⟩ :=
        read_committed h.ok h.bounded h.seg hb (o := x - 1 - 1) (m := r.hw) hlt (by omega) (by omega)
      obtain ⟨tl, rfl⟩ := e3 (by omega)
      obtain ⟨more, hw⟩ := h.whole e1
      rw [ageLoop, if_neg (by omega)]
      rw [show r.readPartition (x - 1 - 1) (2 ^ 32 - 1) .committed = .ok ⟨r.logStart, r.hw, r.leo,
        some (content (b :: tl))⟩ from e5]
      simp only [hw]
      by_cases hold : maxTsOf b.bytes < min
      · rw [if_pos hold]
        refine ⟨l' ++ [b], [], by simp, ?_, rfl⟩
        intro z hz
        have : z = b := by simpa using hz.symm
        rw [this]; exact hold
      · rw [if_neg hold]
        obtain ⟨old, new, k1, k2, k3⟩ := ih l' (b :: rest) y (by rw [he]; simp) hy1 (by omega)
          (fun z hz => hd z (by simp [hz]))
          (by
            rcases hs with hs | ⟨z, hz, hzo⟩
            · exact .inl hs
            · rw [List.mem_append, List.mem_singleton] at hz
              rcases hz with hz | rfl
              · exact .inr ⟨z, hz, hzo⟩
              · exact absurd hzo hold)
          (by omega)
        refine ⟨old, new ++ [b], by rw [k1, List.append_assoc], k2, ?_⟩
        rw [hbase, k3]
        simp only [List.map_append, List.map_cons, List.map_nil]
        congr 3
        have hrd := (h.all b hb).2 b.base
        show (⟨y, b.last - y, rd (b.batch.enc b.base)⟩ : FileB α) = ⟨b.base, b.batch.delta, b.batch.records⟩
        rw [hrd, ← hbase]
        congr 1
        unfold Stored.last
        omega

end Verif.Smart
