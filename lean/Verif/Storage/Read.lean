import Verif.Storage.ReplicaInv

/-!
# What reads return
-/

namespace Verif.Storage
open Verif.Wire (Bytes)

variable {α : Type}

theorem bytesAt_run {s : Segment α} {pre run post : List (Stored α)}
    (hf : s.file = pre ++ (run ++ post)) (n : Nat) (hn : n ≤ width run) :
    s.bytesAt (width pre) n = (content run).take n := by
  unfold Segment.bytesAt
  rw [hf, content_append, content_append, ← content_length pre, List.drop_left]
  exact List.take_append_of_le_length (by rw [content_length]; exact hn)

theorem SegOk.slice_none {s : Segment α} (h : SegOk s) (closed : Bool) {pre post : List (Stored α)}
    {b : Stored α} {off : Int} (hl : s.file = pre ++ b :: post) (h1 : b.base ≤ off)
    (h2 : off ≤ b.last) : s.slice closed off none = .ok (some (width pre, width (b :: post))) := by
  unfold Segment.slice
  rw [h.find_eq closed hl h1 h2]
  simp only
  rw [hl, width_append, Nat.add_sub_cancel_left]

theorem SegOk.slice_full {s : Segment α} (h : SegOk s) (closed : Bool) {pre post : List (Stored α)}
    {b : Stored α} {off m : Int} (hl : s.file = pre ++ b :: post) (h1 : b.base ≤ off)
    (h2 : off ≤ b.last) (hm : s.endOff ≤ m) :
    s.slice closed off (some m) = .ok (some (width pre, width (b :: post))) := by
  unfold Segment.slice
  rw [h.find_eq closed hl h1 h2]
  simp only
  have e : (if m < s.endOff then m else s.endOff) = s.endOff := if_neg (by omega)
  rw [e, if_pos rfl, hl, width_append, Nat.add_sub_cancel_left]

/-- Bounded read whose bound lies in the same segment, not before the start. -/
theorem SegOk.slice_bounded {s : Segment α} (h : SegOk s) (closed : Bool)
    {pre run post : List (Stored α)} {b c : Stored α} {off m : Int} (hw : width s.file < 2 ^ 32)
    (hl : s.file = pre ++ (run ++ c :: post)) (hb : (run ++ c :: post).head? = some b)
    (h1 : b.base ≤ off) (h2 : off ≤ b.last) (h3 : c.base ≤ m) (h4 : m ≤ c.last) :
    s.slice closed off (some m) = .ok (some (width pre, width run)) := by
  obtain ⟨tl, htl⟩ : ∃ tl, run ++ c :: post = b :: tl := by
    cases hx : run ++ c :: post with
    | nil => rw [hx] at hb; cases hb
    | cons x tl => rw [hx] at hb; cases hb; exact ⟨tl, rfl⟩
  have hfind := h.find_eq closed (hl.trans (by rw [htl])) h1 h2
  have hfind2 := h.find_eq closed (pre := pre ++ run) (post := post) (hl.trans (by simp)) h3 h4
  have hmem := h.chain.mem (b := c) (by rw [hl]; simp)
  have hwid : width pre + width run ≤ width s.file := by
    rw [hl, width_append, width_append]; omega
  unfold Segment.slice
  rw [hfind]
  simp only
  have e : (if m < s.endOff then m else s.endOff) = m := if_pos (by omega)
  rw [e, if_neg (by omega), hfind2]
  have hsub : sub32 (width (pre ++ run)) (width pre) = width run := by
    unfold sub32
    rw [width_append]
    omega
  simp only [hsub]
  unfold Segment.fromTo
  rw [if_neg (by omega)]

theorem SegOk.slice_before {s : Segment α} (h : SegOk s) (closed : Bool) {off m : Int}
    (hm : m < s.base) (h1 : s.base ≤ off) (h2 : off < s.endOff) :
    s.slice closed off (some m) = .error .other := by
  obtain ⟨pre, b, post, hl, h3, h4⟩ := exists_containing h.chain h1 h2
  unfold Segment.slice
  rw [h.find_eq closed hl h3 h4]
  simp only
  have e : (if m < s.endOff then m else s.endOff) = m := if_pos (by omega)
  rw [e, if_neg (by omega)]
  have : s.find closed m = .ok none := by unfold Segment.find; rw [if_pos hm]
  rw [this]

/-- Closed segments refuse a bound that lies before the batch of the start. -/
theorem SegOk.slice_closed_behind {s : Segment α} (h : SegOk s)
    {pre mid post : List (Stored α)} {b c : Stored α} {off m : Int} (hw : width s.file < 2 ^ 31)
    (hl : s.file = pre ++ c :: mid ++ b :: post)
    (h1 : b.base ≤ off) (h2 : off ≤ b.last) (h3 : c.base ≤ m) (h4 : m ≤ c.last) :
    s.slice true off (some m) = .error .other := by
  have hfind := h.find_eq true hl h1 h2
  have hfind2 := h.find_eq true (pre := pre) (post := mid ++ b :: post) (hl.trans (by simp)) h3 h4
  have hmem := h.chain.mem (b := c) (by rw [hl]; simp)
  have hcpos : 0 < c.width := by
    obtain ⟨_, _, h3, h4⟩ := h.honest c (by rw [hl]; simp)
    unfold Stored.width Stored.bytes; rw [h4]; exact h3
  have hwid : width pre + c.width + width mid ≤ width s.file := by
    rw [hl, width_append, width_append, width_cons]; omega
  unfold Segment.slice
  rw [hfind]
  simp only
  have e : (if m < s.endOff then m else s.endOff) = m := if_pos (by omega)
  rw [e, if_neg (by omega), hfind2]
  simp only
  unfold Segment.fromTo
  rw [if_pos]
  refine ⟨rfl, ?_⟩
  unfold sub32
  rw [width_append, width_cons]
  omega

/-- No more than the configured bytes per segment. -/
def Bounded (c : Cfg) (r : Replica α) : Prop :=
  (∀ s ∈ r.prev, width s.file ≤ c.segMax) ∧ width r.active.file ≤ c.segMax

theorem Segment.append_width {c : Cfg} {io : Bool} {s s' : Segment α} {b : SBatch α}
    (h : s.append c io b = .ok (true, s')) : width s'.file ≤ c.segMax := by
  unfold Segment.append at h
  repeat' split at h
  all_goals try (cases h; done)
  cases h
  rename_i h1 h2 _ _ _ _
  rw [width_append, width_cons, width_nil]
  simp only [Stored.width, Stored.bytes]
  simp only [ne_eq, Decidable.not_not] at h2
  omega

theorem Bounded.init (c : Cfg) : Bounded c (Replica.init : Replica α) :=
  ⟨by simp [Replica.init], by simp [Replica.init, Segment.create, width]⟩

theorem Bounded.rollOver {c : Cfg} {r : Replica α} (h : Bounded c r) : Bounded c r.rollOver := by
  refine ⟨?_, by simp [Replica.rollOver, Segment.create, width]⟩
  intro s hs
  simp only [Replica.rollOver, addSegment, List.mem_append, List.mem_filter, List.mem_singleton] at hs
  rcases hs with (hs | rfl) | hs
  · exact h.1 s hs.1
  · exact h.2
  · exact h.1 s hs.1

theorem Bounded.writeBatch {c : Cfg} {r : Replica α} (h : Bounded c r) (io : Bool) (b : SBatch α) :
    Bounded c (r.writeBatch c io b).1 := by
  unfold Replica.writeBatch
  split
  · exact h
  · split
    · rename_i e; exact ⟨h.1, Segment.append_width e⟩
    · dsimp only
      split
      · rename_i e; exact ⟨h.rollOver.1, Segment.append_width e⟩
      · exact h.rollOver
      · exact h.rollOver
      · exact h.rollOver
    · exact h
    · exact h

theorem Bounded.writeBatches {c : Cfg} : ∀ (bs : List (SBatch α)) (f : Option Nat) {r : Replica α},
    Bounded c r → Bounded c (r.writeBatches c f bs).1
  | [], _, _, h => h
  | b :: bs, f, r, h => by
    have := h.writeBatch (decide (f ≠ some 0)) b
    unfold Replica.writeBatches
    split
    · rename_i e; rw [e] at this; exact Bounded.writeBatches bs _ this
    · rename_i e; rw [e] at this; exact this

theorem Bounded.step {c : Cfg} {r : Replica α} (h : Bounded c r) (op : Op α) :
    Bounded c (r.step c op).1 := by
  cases op with
  | write set u f =>
    have hw : Bounded c (r.write c set u f).1 := by
      have := Bounded.writeBatches set f h
      unfold Replica.write
      split
      · exact h
      · generalize r.writeBatches c f set = res at *
        obtain ⟨r', x⟩ := res
        cases x with
        | error e => exact this
        | ok v => cases v; cases u <;> exact this
    unfold Replica.step
    dsimp only
    generalize r.write c set u f = res at *
    obtain ⟨r', x⟩ := res
    cases x <;> exact hw
  | updateHw o => exact h
  | cleanSize =>
    show Bounded c (r.cleanSize c)
    unfold Replica.cleanSize
    dsimp only
    split
    · exact ⟨fun s hs => h.1 s (List.mem_filter.1 hs).1, h.2⟩
    · exact h
  | cleanTtl e =>
    show Bounded c (r.cleanTtl e)
    unfold Replica.cleanTtl
    dsimp only
    split
    · exact h
    · exact ⟨fun s hs => h.1 s (List.mem_filter.1 hs).1, h.2⟩
  | reopen chk =>
    unfold Replica.step
    dsimp only
    split
    · rename_i r' hr
      unfold Replica.reopen at hr
      rw [Option.map_eq_some_iff] at hr
      obtain ⟨a, ha, rfl⟩ := hr
      unfold Segment.openForWrite at ha
      rw [Option.map_eq_some_iff] at ha
      obtain ⟨ix, _, rfl⟩ := ha
      refine ⟨?_, h.2⟩
      intro s hs
      obtain ⟨t, ht, rfl⟩ := List.mem_map.1 hs
      exact h.1 t ht
    · exact h

theorem Bounded.run (c : Cfg) : ∀ (ops : List (Op α)) {r : Replica α}, Bounded c r →
    Bounded c (r.run c ops).1
  | [], _, h => h
  | op :: ops, _, h => Bounded.run c ops (h.step op)

/-- Where a read of an existing offset looks: the segment containing it. -/
inductive Located (r : Replica α) (o : Int) (s : Segment α) : Bool → List (Stored α) → List (Stored α) → Prop
  | active (hs : s = r.active) (ho : s.base ≤ o) :
      Located r o s false (r.prev.flatMap Segment.file) []
  | closed (l1 l2 : List (Segment α)) (hp : r.prev = l1 ++ s :: l2) (ho : o < r.active.base)
      (hf : findSegment r.prev o = some s) :
      Located r o s true (l1.flatMap Segment.file) (l2.flatMap Segment.file ++ r.active.file)

theorem Located.batches {r : Replica α} {o : Int} {s : Segment α} {cl : Bool}
    {l1 l2 : List (Stored α)} (h : Located r o s cl l1 l2) :
    r.batches = l1 ++ s.file ++ l2 := by
  cases h with
  | active hs ho => subst hs; simp [Replica.batches]
  | closed l1 l2 hp ho hf => simp [Replica.batches, hp]

/-- Every stored batch lies in exactly one segment, which the read path finds. -/
theorem ReplicaOk.locate {r : Replica α} (h : ReplicaOk r) {b : Stored α} (hb : b ∈ r.batches)
    {o : Int} (h1 : b.base ≤ o) (h2 : o ≤ b.last) :
    ∃ s cl l1 l2, Located r o s cl l1 l2 ∧ b ∈ s.file ∧ SegOk s ∧ s.base ≤ o ∧ o < s.endOff := by
  unfold Replica.batches at hb
  rw [List.mem_append, List.mem_flatMap] at hb
  rcases hb with ⟨s, hs, hb⟩ | hb
  · obtain ⟨k1, k2, k3, k4⟩ := h.prev s hs
    have := k1.chain.mem hb
    obtain ⟨l1, l2, hp⟩ := List.append_of_mem hs
    refine ⟨s, true, _, _, .closed l1 l2 hp (by omega) ?_, hb, k1, by omega, by omega⟩
    exact h.findSegment_eq hs (by omega) (by omega)
  · have := h.active.chain.mem hb
    exact ⟨r.active, false, _, _, .active rfl (by omega), hb, h.active.toSegOk, by omega, by omega⟩

theorem Located.read {r : Replica α} {o : Int} {s : Segment α} {cl : Bool}
    {l1 l2 : List (Stored α)} (h : Located r o s cl l1 l2) (hend : o < s.endOff) (max : Option Int)
    (n : Nat) :
    r.read o max n = match s.slice cl o max with
      | .error e => .error e
      | .ok none => .error .other
      | .ok (some (pos, len)) => .ok ⟨r.logStart, r.hw, r.leo, some (s.bytesAt pos (min len n))⟩ := by
  unfold Replica.read
  cases h with
  | active hs ho =>
    subst hs
    have : r.leo = r.active.endOff := rfl
    rw [if_pos ho, if_neg (by omega), if_neg (by omega)]
    rfl
  | closed l1 l2 hp ho hf =>
    rw [if_neg (by omega), hf]
    rfl

/-! ## Reads of stored offsets -/

/-- An unbounded read at a stored offset: the batch containing it and what follows in its segment. -/
theorem ReplicaOk.read_stored_width {r : Replica α} (h : ReplicaOk r) {b : Stored α}
    (hb : b ∈ r.batches) {o : Int} (h1 : b.base ≤ o) (h2 : o ≤ b.last) (n : Nat) :
    ∃ pre run post, r.batches = pre ++ (b :: run) ++ post ∧
      r.read o none n = .ok ⟨r.logStart, r.hw, r.leo, some ((content (b :: run)).take n)⟩ ∧
      ∀ c, Bounded c r → width (b :: run) ≤ c.segMax := by
  obtain ⟨s, cl, l1, l2, hloc, hbs, hs, _, h4⟩ := h.locate hb h1 h2
  obtain ⟨pre, post, hf⟩ := List.append_of_mem hbs
  refine ⟨l1 ++ pre, post, l2, ?_, ?_, ?_⟩
  · rw [hloc.batches, hf]; simp
  · rw [hloc.read h4, hs.slice_none cl hf h1 h2]
    simp only
    rw [bytesAt_run (run := b :: post) (post := []) (by rw [hf]; simp) _ (Nat.min_le_left _ _)]
    rw [Nat.min_comm, ← List.take_take, ← content_length, List.take_length]
  · intro c hbd
    have hw : width s.file ≤ c.segMax := by
      cases hloc with
      | active hs _ => rw [hs]; exact hbd.2
      | closed l1 l2 hp _ _ => exact hbd.1 s (by rw [hp]; simp)
    rw [hf, width_append] at hw
    omega

theorem ReplicaOk.read_stored {r : Replica α} (h : ReplicaOk r) {b : Stored α} (hb : b ∈ r.batches)
    {o : Int} (h1 : b.base ≤ o) (h2 : o ≤ b.last) (n : Nat) :
    ∃ pre run post, r.batches = pre ++ (b :: run) ++ post ∧
      r.read o none n = .ok ⟨r.logStart, r.hw, r.leo, some ((content (b :: run)).take n)⟩ := by
  obtain ⟨pre, run, post, h3, h4, _⟩ := h.read_stored_width hb h1 h2 n
  exact ⟨pre, run, post, h3, h4⟩

/-- A read bounded by `m` at a stored offset `o ≤ m`: whole batches that end before `m`. -/
theorem ReplicaOk.read_bounded_width {c : Cfg} {r : Replica α} (h : ReplicaOk r) (hbd : Bounded c r)
    (hc : c.segMax < 2 ^ 32) {b : Stored α} (hb : b ∈ r.batches) {o m : Int} (h1 : b.base ≤ o)
    (h2 : o ≤ b.last) (hm : o ≤ m) (n : Nat) :
    ∃ pre run post, r.batches = pre ++ run ++ post ∧ (∀ x ∈ run, x.last < m) ∧
      (b.last < m → ∃ tl, run = b :: tl) ∧
      r.read o (some m) n = .ok ⟨r.logStart, r.hw, r.leo, some ((content run).take n)⟩ ∧
      (run ++ post).head? = some b ∧ width run ≤ c.segMax := by
  obtain ⟨s, cl, l1, l2, hloc, hbs, hs, _, h4⟩ := h.locate hb h1 h2
  obtain ⟨pre, post, hf⟩ := List.append_of_mem hbs
  have hseg : width s.file ≤ c.segMax := by
    cases hloc with
    | active hs ho => subst hs; exact hbd.2
    | closed l1 l2 hp ho hf => exact hbd.1 s (by rw [hp]; simp)
  have hwid : width s.file < 2 ^ 32 := by omega
  have htake : ∀ (run : List (Stored α)) (k : Nat),
      (content run).take (min (width run) k) = (content run).take k := by
    intro run k
    rw [Nat.min_comm, ← List.take_take, ← content_length, List.take_length]
  by_cases hend : s.endOff ≤ m
  · refine ⟨l1 ++ pre, b :: post, l2, ?_, ?_, fun _ => ⟨post, rfl⟩, ?_, rfl, ?_⟩
    · rw [hloc.batches, hf]; simp
    · intro x hx
      have := hs.chain.mem (b := x) (by rw [hf]; simp only [List.mem_append]; exact .inr hx)
      omega
    · rw [hloc.read h4, hs.slice_full cl hf h1 h2 hend]
      simp only
      rw [bytesAt_run (run := b :: post) (post := []) (by rw [hf]; simp) _ (Nat.min_le_left _ _), htake]
    · rw [hf, width_append] at hseg; omega
  · have hch := hs.chain
    rw [hf] at hch
    obtain ⟨x, hx1, hx2⟩ := Chain.split hch
    have hx3 := hx2.1
    obtain ⟨run, cb, post', he, h5, h6⟩ := exists_containing hx2 (off := m) (by omega) (by omega)
    have hf' : s.file = pre ++ (run ++ cb :: post') := by rw [hf, he]
    obtain ⟨y, hy1, hy2⟩ := Chain.split (he ▸ hx2)
    have hy3 := hy2.1
    refine ⟨l1 ++ pre, run, cb :: post' ++ l2, ?_, ?_, ?_, ?_, ?_, ?_⟩
    · rw [hloc.batches, hf']; simp
    · intro z hz
      have := (hy1.mem hz).2.2
      omega
    · intro hlt
      cases run with
      | nil =>
        rw [List.nil_append] at he
        have : b = cb := by injection he
        subst this
        omega
      | cons z tl =>
        rw [List.cons_append] at he
        have : b = z := by injection he
        subst this
        exact ⟨tl, rfl⟩
    · rw [hloc.read h4, hs.slice_bounded cl hwid hf' (b := b) (by rw [← he]; rfl) h1 h2 h5 h6]
      simp only
      rw [bytesAt_run (run := run) (post := cb :: post') hf' _ (Nat.min_le_left _ _), htake]
    · rw [← List.append_assoc, ← he]; rfl
    · rw [hf', width_append, width_append] at hseg; omega

theorem ReplicaOk.read_bounded {c : Cfg} {r : Replica α} (h : ReplicaOk r) (hbd : Bounded c r)
    (hc : c.segMax < 2 ^ 32) {b : Stored α} (hb : b ∈ r.batches) {o m : Int} (h1 : b.base ≤ o)
    (h2 : o ≤ b.last) (hm : o ≤ m) (n : Nat) :
    ∃ pre run post, r.batches = pre ++ run ++ post ∧ (∀ x ∈ run, x.last < m) ∧
      (b.last < m → ∃ tl, run = b :: tl) ∧
      r.read o (some m) n = .ok ⟨r.logStart, r.hw, r.leo, some ((content run).take n)⟩ := by
  obtain ⟨pre, run, post, e1, e2, e3, e4, _⟩ := h.read_bounded_width hbd hc hb h1 h2 hm n
  exact ⟨pre, run, post, e1, e2, e3, e4⟩

/-- A read bounded by `m < o` in a closed segment: nothing but an error. -/
theorem ReplicaOk.read_behind {c : Cfg} {r : Replica α} (h : ReplicaOk r) (hbd : Bounded c r)
    (hc : c.segMax < 2 ^ 31) {b : Stored α} (hb : b ∈ r.batches) {o m : Int} (h1 : b.base ≤ o)
    (h2 : o ≤ b.last) (hm : m < o) (ho : o < r.active.base) (n : Nat) :
    r.read o (some m) n = .error .other ∨
      r.read o (some m) n = .ok ⟨r.logStart, r.hw, r.leo, some []⟩ := by
  obtain ⟨s, cl, l1, l2, hloc, hbs, hs, h3, h4⟩ := h.locate hb h1 h2
  have hcl : cl = true ∧ width s.file ≤ c.segMax := by
    cases hloc with
    | active hs hb => subst hs; omega
    | closed l1 l2 hp ho hf => exact ⟨rfl, hbd.1 s (by rw [hp]; simp)⟩
  obtain ⟨rfl, hwid⟩ := hcl
  rw [hloc.read h4]
  by_cases hms : m < s.base
  · rw [hs.slice_before true hms h3 h4]
    exact .inl rfl
  · obtain ⟨pre, cb, post, hf, h5, h6⟩ := exists_containing hs.chain (off := m) (by omega) (by omega)
    have hch := hs.chain
    rw [hf] at hch
    obtain ⟨x, hx1, hx2⟩ := Chain.split hch
    have hbs' := hbs
    rw [hf] at hbs'
    rcases List.mem_append.1 hbs' with hbm | hbm
    · have := hx1.mem hbm
      have := hx2.1
      omega
    · rcases List.mem_cons.1 hbm with rfl | hbm
      · right
        rw [hs.slice_bounded true (run := []) (by omega) (by rw [hf]; rfl) (b := b) rfl h1 h2 h5 h6]
        simp [width, Segment.bytesAt]
      · left
        obtain ⟨mid, post', rfl⟩ := List.append_of_mem hbm
        rw [hs.slice_closed_behind (by omega) (pre := pre) (mid := mid) (post := post')
          (by rw [hf]; simp) h1 h2 h5 h6]

/-- Reads of offsets before the log start, at the log end and beyond. -/
theorem ReplicaOk.read_outside {r : Replica α} (h : ReplicaOk r) (m : Option Int) (n : Nat) :
    r.read r.leo m n = .ok ⟨r.logStart, r.hw, r.leo, none⟩ ∧
    (∀ o, r.leo < o → r.read o m n = .error .other) ∧
    (∀ o, o < r.logStart → r.read o m n = .error (.evicted r.logStart)) := by
  have hle : r.active.base ≤ r.leo := h.active.chain.le
  refine ⟨?_, ?_, ?_⟩
  · unfold Replica.read; rw [if_pos hle, if_pos rfl]
  · intro o ho
    unfold Replica.read; rw [if_pos (by omega), if_neg (by omega), if_pos ho]
  · intro o ho
    have hnone : findSegment r.prev o = none ∧ o < r.active.base := by
      cases hp : r.prev with
      | nil =>
        rw [Replica.logStart_nil hp] at ho
        refine ⟨?_, ho⟩
        unfold findSegment
        repeat' split
        all_goals simp
      | cons s l =>
        rw [h.logStart_cons hp] at ho
        have h1 := h.prev s (by simp [hp])
        have h2 := (minMax_cons h1.2.2.1 (h.head_le hp)).1
        refine ⟨?_, by omega⟩
        unfold findSegment
        rw [if_pos (by omega)]
    unfold Replica.read
    rw [if_neg (by omega), hnone.1]

/-- Reads of an offset that is in no stored batch give no data. -/
theorem ReplicaOk.read_absent {r : Replica α} (h : ReplicaOk r) {o : Int}
    (hno : ∀ b ∈ r.batches, ¬ (b.base ≤ o ∧ o ≤ b.last)) (m : Option Int) (n : Nat) :
    (∃ e, r.read o m n = .error e) ∨ r.read o m n = .ok ⟨r.logStart, r.hw, r.leo, none⟩ := by
  by_cases ha : r.active.base ≤ o
  · by_cases h1 : o < r.leo
    · obtain ⟨pre, b, post, hf, h2, h3⟩ := exists_containing h.active.chain ha h1
      exact absurd ⟨h2, h3⟩ (hno b (by unfold Replica.batches; rw [hf]; simp))
    · by_cases h2 : o = r.leo
      · right; rw [h2]; exact (h.read_outside m n).1
      · left; exact ⟨_, (h.read_outside m n).2.1 o (by omega)⟩
  · left
    unfold Replica.read
    rw [if_neg ha]
    cases hs : findSegment r.prev o with
    | none => exact ⟨_, rfl⟩
    | some s =>
      obtain ⟨hm, hb⟩ := findSegment_some hs
      obtain ⟨k1, k2, k3, k4⟩ := h.prev s hm
      have hend : s.endOff ≤ o := by
        refine Int.not_lt.1 fun hlt => ?_
        obtain ⟨pre, b, post, hf, h2, h3⟩ := exists_containing k1.chain hb hlt
        refine absurd ⟨h2, h3⟩ (hno b ?_)
        unfold Replica.batches
        rw [List.mem_append, List.mem_flatMap]
        exact .inl ⟨s, hm, by rw [hf]; simp⟩
      have : s.slice true o m = .ok none := by
        unfold Segment.slice Segment.find
        rw [if_neg (by omega), if_pos hend]
      exact ⟨.other, by simp only [this]⟩

/-! ## Contiguity -/

/-- The stored batches cover the offsets from the log start to the log end without hole. -/
def Seamless (r : Replica α) : Prop := Chain r.logStart r.batches r.leo

theorem ReplicaOk.seamless_of {r : Replica α} (h : ReplicaOk r) {a : Int}
    (hc : Chain a r.batches r.leo) : Seamless r := by
  have : a = r.logStart := by
    cases hp : r.prev with
    | nil =>
      rw [Replica.logStart_nil hp]
      unfold Replica.batches at hc
      rw [hp, List.flatMap_nil, List.nil_append] at hc
      have hact := h.active.chain
      cases hf : r.active.file with
      | nil =>
        rw [hf] at hc hact
        have h1 : a = r.leo := hc
        have h2 : r.active.base = r.active.endOff := hact
        exact h1.trans h2.symm
      | cons b l =>
        rw [hf] at hc hact
        exact hc.1.symm.trans hact.1
    | cons s l =>
      rw [h.logStart_cons hp]
      obtain ⟨k1, k2, _⟩ := h.prev s (by simp [hp])
      have hch := k1.chain
      unfold Replica.batches at hc
      rw [hp, List.flatMap_cons] at hc
      cases hf : s.file with
      | nil =>
        rw [hf] at hch
        have : s.base = s.endOff := hch
        omega
      | cons b t =>
        rw [hf] at hc hch
        exact hc.1.symm.trans hch.1
  subst this
  exact hc

theorem place_chain : ∀ (dn : List (SBatch α)) (a : Int), (∀ b ∈ dn, HonestBatch b) →
    Chain a (place a dn) (a + recordCount dn)
  | [], a, _ => by show a = _; simp [recordCount]
  | b :: bs, a, h => by
    have hb := h b (by simp)
    have ih := place_chain bs (a + b.records.length) fun x hx => h x (by simp [hx])
    refine ⟨rfl, hb.1, ?_⟩
    have e1 : (⟨a, b⟩ : Stored α).last + 1 = a + b.records.length := by
      have := hb.2.1; unfold Stored.last; dsimp only; omega
    have e2 : a + (recordCount (b :: bs) : Nat) = a + b.records.length + (recordCount bs : Nat) := by
      simp [recordCount]; omega
    rw [e1, e2]
    exact ih

theorem batches_drop (r : Replica α) (k : Nat) (n : Nat) :
    r.batches = (r.prev.take k).flatMap Segment.file ++ { r with prev := r.prev.drop k, sizePrev := n }.batches := by
  unfold Replica.batches
  dsimp only
  rw [← List.append_assoc, ← List.flatMap_append, List.take_append_drop]

theorem Seamless.init : Seamless (Replica.init : Replica α) := rfl

theorem Seamless.step {r : Replica α} (hs : Seamless r) (h : ReplicaOk r) (c : Cfg) (op : Op α)
    (ho : op.Honest) (hn : ∀ e, op ≠ .cleanTtl e) : Seamless (r.step c op).1 := by
  have hok := h.step c op ho
  cases op with
  | write set u f =>
    obtain ⟨h1, dn, rest, e1, e2, e3, _⟩ := write_spec c h set u f ho
    have hst : (r.step c (.write set u f)).1 = (r.write c set u f).1 := by
      unfold Replica.step
      dsimp only
      generalize r.write c set u f = res
      obtain ⟨r', x⟩ := res
      cases x <;> rfl
    rw [hst] at hok ⊢
    refine hok.seamless_of (a := r.logStart) ?_
    rw [e2, e3]
    exact Chain.append hs (place_chain dn r.leo fun b hb => ho b (by rw [e1]; simp [hb]))
  | updateHw o => exact hs
  | cleanSize =>
    show Seamless (r.cleanSize c)
    have hok' := h.cleanSize c
    rw [h.cleanSize_eq] at hok' ⊢
    dsimp only at hok' ⊢
    split at hok'
    · rename_i hx
      rw [if_pos hx]
      have hs' := hs
      unfold Seamless at hs'
      rw [batches_drop r _ _] at hs'
      obtain ⟨x, _, hx⟩ := Chain.split hs'
      exact hok'.seamless_of hx
    · rename_i hx
      rw [if_neg hx]; exact hs
  | cleanTtl e => exact absurd rfl (hn e)
  | reopen chk =>
    unfold Replica.step at hok ⊢
    dsimp only at hok ⊢
    cases hr : r.reopen c chk with
    | none => exact hs
    | some r' =>
      obtain ⟨k1, k2, k3, _⟩ := h.reopen hr
      refine k1.seamless_of (a := r.logStart) ?_
      rw [k2, k3]; exact hs

theorem Seamless.run (c : Cfg) : ∀ (ops : List (Op α)) (r : Replica α), ReplicaOk r → Seamless r →
    (∀ op ∈ ops, op.Honest) → (∀ op ∈ ops, ∀ e, op ≠ .cleanTtl e) → Seamless (r.run c ops).1
  | [], _, _, hs, _, _ => hs
  | op :: ops, r, h, hs, ho, hn => by
    unfold Replica.run
    exact Seamless.run c ops _ (h.step c op (ho op (by simp)))
      (hs.step h c op (ho op (by simp)) (hn op (by simp))) (fun o h' => ho o (by simp [h']))
      fun o h' => hn o (by simp [h'])

theorem Seamless.contains {r : Replica α} (hs : Seamless r) {o : Int} (h1 : r.logStart ≤ o)
    (h2 : o < r.leo) : ∃ b ∈ r.batches, b.base ≤ o ∧ o ≤ b.last := by
  obtain ⟨pre, b, post, hf, h3, h4⟩ := exists_containing hs h1 h2
  exact ⟨b, by rw [hf]; simp, h3, h4⟩

end Verif.Storage
