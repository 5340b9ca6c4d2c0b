import Verif.Stream.Run

/-!
# Streams with a filter SmartModule
(`fluvio-spu/src/smartengine/batch.rs`, `services/public/stream_fetch.rs`, `fluvio/src/consumer/mod.rs`)

The SmartModule is a filter that does not fail; it keeps the records it passes as they are.  Timing is as
in `Verif.Storage.Reader`: the partition changes, or the next slice is read, processed, sent, received and
acknowledged.
-/

namespace Verif.Stream
open Verif.Wire (Bytes)
open Verif.Storage

variable {α : Type}

/-- `FileBatch` — fluvio-storage/src/iterators.rs:15-18, smartengine/file_batch.rs: base offset, last
offset delta, records (decompressed and decoded, in the SmartModule). -/
structure FileB (α : Type) where
  base : Int
  delta : Int
  recs : List α

/-- `FileBatchIterator` over a slice — iterators.rs:54-140; `rd` decodes the records of one batch. -/
def fileBatches (rd : Bytes → List α) (bs : Bytes) : List (FileB α) :=
  (wholeBatches (bs.length + 1) bs).map fun p => ⟨p.1, p.2.1 - p.1, rd p.2.2⟩

/-- What a filter leaves of a batch: the records with their own offset deltas (their positions in the
batch, batch.rs:268-286). -/
def passed (p : α → Bool) (recs : List α) : List (Int × α) :=
  (recs.zipIdx.filter fun q => p q.1).map fun q => ((q.2 : Int), q.1)

/-- The output batch: base offset, last offset delta, records with their offset deltas. -/
structure SmOut (α : Type) where
  base : Int
  delta : Int
  recs : List (Int × α)

/-- The loop of `process_batch` — smartengine/batch.rs:41-141; `size` is the encoded size of records, and
`total` the size of the output so far. -/
def processBatches (p : α → Bool) (size : List (Int × α) → Nat) (max : Nat) :
    SmOut α → Nat → List (FileB α) → SmOut α
  | o, _, [] => o
  | o, total, b :: l =>
    let out := passed p b.recs
    if out.isEmpty then
      processBatches p size max (if o.base = -1 then o else { o with delta := o.delta + (b.delta + 1) }) total l
    else
      let base := if o.base = -1 then b.base else o.base
      let recs := out.map fun q => (q.1 + (base - b.base), q.2)
      if max < total + size recs then { o with base := base }
      else
        processBatches p size max ⟨base, o.delta + (b.delta + 1), o.recs ++ recs⟩ (total + size recs) l

/-- `process_batch` — smartengine/batch.rs:41-50 -/
def processBatch (p : α → Bool) (size : List (Int × α) → Nat) (max : Nat) (l : List (FileB α)) : SmOut α :=
  processBatches p size max ⟨-1, -1, []⟩ 0 l

/-- What the client makes of the response: offsets are base offset plus position
(`into_consumer_records_iter`, fluvio-protocol/src/record/batch.rs:288-304), and records before the start
are dropped (fluvio/src/consumer/mod.rs:618-632). -/
def clientTake (start : Int) (o : SmOut α) : List (Int × α) :=
  (o.recs.zipIdx.map fun q => (o.base + (q.2 : Int), q.1.2)).filter fun q => decide (start ≤ q.1)

/-- A filtered stream: isolation, `max_bytes`, start, filter, encoded size. -/
structure FReq (α : Type) where
  iso : Isolation
  maxBytes : Nat
  start : Int
  p : α → Bool
  size : List (Int × α) → Nat

/-- `send_back_records` with SmartModule (stream_fetch.rs:350-471, the slice is read with `u32::MAX` as
limit, 161-167), `send_processed_response` (475-544), the client (`next_offset_for_fetch`,
fluvio-spu-schema/src/fetch/response.rs:85-91), and the acknowledgement. -/
def Reader.fetchF (rd : Bytes → List α) (q : FReq α) (r : Replica α) (x : Reader α) : Reader α :=
  match r.readPartition x.next (2 ^ 32 - 1) q.iso with
  | .ok ⟨_, _, _, some (y :: bs)⟩ =>
    let o := processBatch q.p q.size q.maxBytes (fileBatches rd (y :: bs))
    if o.recs.isEmpty then { x with next := readEnd q.iso r }
    else ⟨o.base + o.delta + 1, x.got ++ clientTake q.start o⟩
  | _ => x

inductive FEv (α : Type) where
  | op (o : Op α)
  | fetch

def fstep (rd : Bytes → List α) (c : Cfg) (q : FReq α) : Replica α × Reader α → FEv α → Replica α × Reader α
  | (r, x), .op o => ((r.step c o).1, x)
  | (r, x), .fetch => (r, Reader.fetchF rd q r x)

def frun (rd : Bytes → List α) (c : Cfg) (q : FReq α) (s : Replica α × Reader α) (es : List (FEv α)) :
    Replica α × Reader α := es.foldl (fstep rd c q) s

/-! ## Processing -/

/-- The file's view of a stored batch. -/
def Stored.view (b : Stored α) : FileB α := ⟨b.base, b.batch.delta, b.batch.records⟩

/-- The values that pass. -/
def passing (p : α → Bool) (l : List (Int × α)) : List α := (l.filter fun q => p q.2).map (·.2)

theorem passed_values (p : α → Bool) (l : List α) : (passed p l).map (·.2) = l.filter p := by
  unfold passed
  rw [List.map_map]
  have : ∀ (l : List α) (k : Nat), ((l.zipIdx k).filter fun q => p q.1).map (fun q => q.1) = l.filter p := by
    intro l
    induction l with
    | nil => intro k; rfl
    | cons a l ih =>
      intro k
      rw [List.zipIdx_cons]
      by_cases h : p a = true
      · rw [List.filter_cons_of_pos (by exact h), List.filter_cons_of_pos h, List.map_cons, ih]
      · rw [List.filter_cons_of_neg (by exact h), List.filter_cons_of_neg h, ih]
  exact this l 0

theorem passing_append (p : α → Bool) (l m : List (Int × α)) :
    passing p (l ++ m) = passing p l ++ passing p m := by
  unfold passing; rw [List.filter_append, List.map_append]

theorem passing_pairs (p : α → Bool) (b : Stored α) : passing p b.pairs = b.batch.records.filter p := by
  unfold passing Stored.pairs
  have : ∀ (l : List α) (k : Nat) (a : Int),
      (((l.zipIdx k).map fun p => (a + (p.2 : Int), p.1)).filter fun q => p q.2).map (·.2) = l.filter p := by
    intro l
    induction l with
    | nil => intro k a; rfl
    | cons x l ih =>
      intro k a
      rw [List.zipIdx_cons, List.map_cons]
      by_cases h : p x = true
      · rw [List.filter_cons_of_pos (by exact h), List.filter_cons_of_pos h, List.map_cons, ih]
      · rw [List.filter_cons_of_neg (by exact h), List.filter_cons_of_neg h, ih]
  exact this _ 0 _

/-- The loop consumes leading batches and emits exactly what passes of them; the output batch ends where
they end.  It stops early only in front of a batch whose output does not fit any more. -/
theorem processBatches_spec (p : α → Bool) (size : List (Int × α) → Nat) (max : Nat) :
    ∀ (l : List (Stored α)) (o : SmOut α) (total : Nat) (a e : Int), Chain a l e → 0 ≤ a →
    (o.base = -1 → o.delta = -1 ∧ o.recs = [] ∧ total = 0) →
    (o.base ≠ -1 → 0 ≤ o.base ∧ o.base + o.delta + 1 = a ∧ o.recs ≠ []) →
    (∀ b ∈ l, ∀ k : Int, size ((passed p b.batch.records).map fun q => (q.1 + k, q.2)) ≤ max) →
    let out := processBatches p size max o total (l.map Stored.view)
    ∃ taken rest x, l = taken ++ rest ∧ Chain a taken x ∧
      out.recs.map (·.2) = o.recs.map (·.2) ++ passing p (taken.flatMap Stored.pairs) ∧
      (out.recs = [] → rest = []) ∧
      (out.recs ≠ [] → out.base + out.delta + 1 = x ∧ (o.base ≠ -1 → out.base = o.base) ∧
        (o.base = -1 → ∃ pre b post, taken = pre ++ b :: post ∧ out.base = b.base ∧
          ∀ y ∈ pre, passed p y.batch.records = [])) := by
  intro l
  induction l with
  | nil =>
    intro o total a e hch h0 ho1 ho2 hsz
    refine ⟨[], [], a, rfl, rfl, by show o.recs.map _ = _; simp [passing], fun _ => rfl, ?_⟩
    intro hne
    have hb : o.base ≠ -1 := fun hb => hne (ho1 hb).2.1
    exact ⟨(ho2 hb).2.1, fun _ => rfl, fun hb' => absurd hb' hb⟩
  | cons b l ih =>
    intro o total a e hch h0 ho1 ho2 hsz
    obtain ⟨c1, c2, c3⟩ := hch
    have hlast : b.last = b.base + b.batch.delta := rfl
    have hpb := passing_pairs p b
    have hpv := passed_values p b.batch.records
    show ∃ taken rest x, b :: l = taken ++ rest ∧ _
    simp only [List.map_cons]
    unfold processBatches
    dsimp only
    by_cases hemp : (passed p (Stored.view b).recs).isEmpty = true
    · rw [if_pos hemp]
      have hnil : passing p b.pairs = [] := by
        rw [hpb, ← hpv]
        have : passed p b.batch.records = [] := List.isEmpty_iff.1 hemp
        rw [this]; rfl
      by_cases hb : o.base = -1
      · rw [if_pos hb]
        obtain ⟨t, rs, x, e1, e2, e3, e4, e5⟩ := ih o total (b.last + 1) e c3 (by omega) ho1
          (fun h => absurd hb h) (fun y hy => hsz y (by simp [hy]))
        refine ⟨b :: t, rs, x, by rw [e1]; rfl, ⟨c1, c2, e2⟩, ?_, e4, ?_⟩
        · rw [e3, List.flatMap_cons, passing_append, hnil, List.nil_append]
        · intro hne
          obtain ⟨f1, f2, f3⟩ := e5 hne
          obtain ⟨pre, y, post, k1, k2, k3⟩ := f3 hb
          refine ⟨f1, f2, fun _ => ⟨b :: pre, y, post, by rw [k1]; rfl, k2, ?_⟩⟩
          intro y' hy'
          rcases List.mem_cons.1 hy' with rfl | hy'
          · exact List.isEmpty_iff.1 hemp
          · exact k3 y' hy'
      · rw [if_neg hb]
        obtain ⟨g1, g2, g3⟩ := ho2 hb
        obtain ⟨t, rs, x, e1, e2, e3, e4, e5⟩ := ih { o with delta := o.delta + ((Stored.view b).delta + 1) } total
          (b.last + 1) e c3 (by omega) (fun h => absurd h hb)
          (fun _ => ⟨g1, by show o.base + (o.delta + (b.batch.delta + 1)) + 1 = _; omega, g3⟩)
          (fun y hy => hsz y (by simp [hy]))
        refine ⟨b :: t, rs, x, by rw [e1]; rfl, ⟨c1, c2, e2⟩, ?_, e4, ?_⟩
        · rw [e3, List.flatMap_cons, passing_append, hnil, List.nil_append]
        · intro hne
          obtain ⟨f1, f2, f3⟩ := e5 hne
          exact ⟨f1, f2, fun h => absurd h hb⟩
    · rw [if_neg hemp]
      have hone : passed p b.batch.records ≠ [] := fun h => hemp (List.isEmpty_iff.2 h)
      have hvals : ∀ k : Int, (((passed p b.batch.records).map fun q => (q.1 + k, q.2)).map (·.2)) = passing p b.pairs := by
        intro k
        rw [List.map_map, hpb, ← hpv]
        rfl
      generalize hbase : (if o.base = -1 then (Stored.view b).base else o.base) = base
      by_cases hbig : max < total + size ((passed p (Stored.view b).recs).map fun q => (q.1 + (base - (Stored.view b).base), q.2))
      · rw [if_pos hbig]
        have hb : o.base ≠ -1 := by
          intro hb
          have := (ho1 hb).2.2
          have h2 := hsz b (by simp) (base - b.base)
          have hbig' : max < total + size ((passed p b.batch.records).map fun q => (q.1 + (base - b.base), q.2)) := hbig
          omega
        rw [if_neg hb] at hbase
        obtain ⟨g1, g2, g3⟩ := ho2 hb
        refine ⟨[], b :: l, a, rfl, rfl, by simp [passing], fun h => absurd h g3, ?_⟩
        intro _
        exact ⟨by show base + o.delta + 1 = a; omega, fun _ => hbase.symm, fun h => absurd h hb⟩
      · rw [if_neg hbig]
        have hnb : base ≠ -1 := by
          rw [← hbase]
          split
          · show b.base ≠ -1; omega
          · assumption
        have hdel : base + (o.delta + ((Stored.view b).delta + 1)) + 1 = b.last + 1 := by
          show base + (o.delta + (b.batch.delta + 1)) + 1 = _
          by_cases hb : o.base = -1
          · rw [if_pos hb] at hbase
            have : b.base = base := hbase
            have := (ho1 hb).1
            omega
          · rw [if_neg hb] at hbase
            have := (ho2 hb).2.1
            omega
        have hb0 : 0 ≤ base := by
          by_cases hb : o.base = -1
          · rw [if_pos hb] at hbase
            have : b.base = base := hbase
            omega
          · rw [if_neg hb] at hbase
            have := (ho2 hb).1
            omega
        obtain ⟨t, rs, x, e1, e2, e3, e4, e5⟩ := ih ⟨base, o.delta + ((Stored.view b).delta + 1),
            o.recs ++ (passed p (Stored.view b).recs).map fun q => (q.1 + (base - (Stored.view b).base), q.2)⟩
          (total + size ((passed p (Stored.view b).recs).map fun q => (q.1 + (base - (Stored.view b).base), q.2)))
          (b.last + 1) e c3 (by omega) (fun h => absurd h hnb)
          (fun _ => ⟨hb0, hdel, by
            intro h
            have := List.append_eq_nil_iff.1 h
            exact hone (List.map_eq_nil_iff.1 this.2)⟩)
          (fun y hy => hsz y (by simp [hy]))
        refine ⟨b :: t, rs, x, by rw [e1]; rfl, ⟨c1, c2, e2⟩, ?_, e4, ?_⟩
        · rw [e3, List.flatMap_cons, passing_append, List.map_append, List.append_assoc]
          congr 2
          exact hvals _
        · intro hne
          obtain ⟨f1, f2, _⟩ := e5 hne
          have hob := f2 hnb
          refine ⟨f1, fun hb => by rw [hob]; show base = _; rw [← hbase, if_neg hb], fun hb => ?_⟩
          rw [hob]
          rw [if_pos hb] at hbase
          exact ⟨[], b, t, rfl, hbase.symm, nofun⟩

theorem processBatch_spec (p : α → Bool) (size : List (Int × α) → Nat) (max : Nat) (l : List (Stored α))
    (a e : Int) (hch : Chain a l e) (h0 : 0 ≤ a)
    (hsz : ∀ b ∈ l, ∀ k : Int, size ((passed p b.batch.records).map fun q => (q.1 + k, q.2)) ≤ max) :
    ∃ taken rest x, l = taken ++ rest ∧ Chain a taken x ∧
      (processBatch p size max (l.map Stored.view)).recs.map (·.2) = passing p (taken.flatMap Stored.pairs) ∧
      ((processBatch p size max (l.map Stored.view)).recs = [] → rest = []) ∧
      ((processBatch p size max (l.map Stored.view)).recs ≠ [] →
        (processBatch p size max (l.map Stored.view)).base +
          (processBatch p size max (l.map Stored.view)).delta + 1 = x ∧
        ∃ pre b post, taken = pre ++ b :: post ∧ (processBatch p size max (l.map Stored.view)).base = b.base ∧
          ∀ y ∈ pre, passed p y.batch.records = []) := by
  obtain ⟨t, r, x, h1, h2, h3, h4, h5⟩ := processBatches_spec p size max l ⟨-1, -1, []⟩ 0 a e hch h0
    (fun _ => ⟨rfl, rfl, rfl⟩) (fun h => absurd rfl h) hsz
  exact ⟨t, r, x, h1, h2, h3, h4, fun h => ⟨(h5 h).1, (h5 h).2.2 rfl⟩⟩

/-! ## One fetch -/

theorem length_le_content : ∀ {l : List (Stored α)}, (∀ b ∈ l, HonestBatch b.batch) → l.length ≤ (content l).length
  | [], _ => Nat.zero_le _
  | b :: l, h => by
    have ih := length_le_content (l := l) fun x hx => h x (by simp [hx])
    have hc : content (b :: l) = b.bytes ++ content l := by simp [content]
    have hb := h b (by simp)
    have hw : b.bytes.length = b.batch.size := hb.2.2.2 b.base
    have := hb.2.2.1
    rw [hc, List.length_append, List.length_cons]
    omega

theorem fileBatches_content {rd : Bytes → List α} {l : List (Stored α)}
    (h : ∀ b ∈ l, IsRaw b ∧ Fits64 b.base) (hh : ∀ b ∈ l, HonestBatch b.batch)
    (hrd : ∀ b ∈ l, ∀ e, rd (b.batch.enc e) = b.batch.records) :
    fileBatches rd (content l) = l.map Stored.view := by
  have hw : ∀ (l : List (Stored α)) (fuel : Nat), (∀ b ∈ l, IsRaw b ∧ Fits64 b.base) → l.length < fuel →
      wholeBatches fuel (content l) = l.map (fun b => (b.base, b.last, b.bytes)) := by
    intro l
    induction l with
    | nil =>
      intro fuel _ hf
      obtain ⟨fuel, rfl⟩ : ∃ k, fuel = k + 1 := ⟨fuel - 1, by simp at hf; omega⟩
      simp [content, wholeBatches, readFrom]
    | cons b l ih =>
      intro fuel h hf
      obtain ⟨fuel, rfl⟩ : ∃ k, fuel = k + 1 := ⟨fuel - 1, by simp at hf; omega⟩
      obtain ⟨hraw, hfit⟩ := h b (by simp)
      have hc : content (b :: l) = b.bytes ++ content l := by simp [content]
      rw [hc]
      unfold wholeBatches
      rw [hraw.readFrom hfit]
      simp only
      rw [List.drop_left' (show b.bytes.length = b.width from rfl),
        List.take_left' (show b.bytes.length = b.width from rfl),
        ih fuel (fun x hx => h x (by simp [hx])) (by simp at hf; omega)]
      rfl
  have hle := length_le_content hh
  unfold fileBatches
  rw [hw l _ h (by omega), List.map_map]
  apply List.map_congr_left
  intro b hb
  show (⟨b.base, b.last - b.base, rd b.bytes⟩ : FileB α) = ⟨b.base, b.batch.delta, b.batch.records⟩
  unfold Stored.bytes
  rw [hrd b hb]
  congr 1
  unfold Stored.last
  omega

/-- **Specification.** The slice read at `o` contains a record that passes, or it reaches the end of what
may be read. -/
def Covered (q : FReq α) (r : Replica α) (o : Int) : Prop :=
  ∀ run bs, Slice r (2 ^ 32 - 1) o run bs →
    r.readPartition o (2 ^ 32 - 1) q.iso = .ok ⟨r.logStart, r.hw, r.leo, some bs⟩ →
    (∃ b ∈ run, ∃ v ∈ b.batch.records, q.p v = true) ∨
      (run.getLast?.map fun b => b.last + 1) = some (readEnd q.iso r)

/-- Each batch's output fits into a response. -/
def FitsOut (q : FReq α) (r : Replica α) : Prop :=
  ∀ b ∈ r.batches, ∀ k : Int, q.size ((passed q.p b.batch.records).map fun x => (x.1 + k, x.2)) ≤ q.maxBytes

structure FilterOk (c : Cfg) (P : SBatch α → Prop) (q : FReq α) (r : Replica α) (x : Reader α) : Prop where
  ok : ReplicaOk r
  seamless : Seamless r
  bounded : Bounded c r
  all : ∀ b ∈ r.batches, P b.batch
  hw : r.hw ≤ r.leo
  nonneg : 0 ≤ q.start
  lo : r.logStart ≤ q.start
  mid : q.start ≤ x.next
  hi : x.next ≤ readEnd q.iso r
  at_ : Boundary r x.next
  got : x.got.map (·.2) = passing q.p (between r q.start x.next)
  exact : (∀ v, q.p v = true) → x.got = between r q.start x.next

theorem clientTake_values {start : Int} {o : SmOut α} (h : start ≤ o.base) :
    (clientTake start o).map (·.2) = o.recs.map (·.2) := by
  unfold clientTake
  rw [List.filter_eq_self.2, List.map_map]
  · have : ∀ (l : List (Int × α)) (k : Nat) (a : Int),
        (l.zipIdx k).map ((fun q : Int × α => q.2) ∘ fun q => (a + (q.2 : Int), q.1.2)) = l.map (·.2) := by
      intro l
      induction l with
      | nil => intro k a; rfl
      | cons x l ih => intro k a; rw [List.zipIdx_cons, List.map_cons, List.map_cons, ih]; rfl
    exact this _ 0 _
  · intro q hq
    rw [List.mem_map] at hq
    obtain ⟨z, _, rfl⟩ := hq
    simp only [decide_eq_true_eq]
    omega

theorem clientTake_eq {start : Int} {o : SmOut α} (h : start ≤ o.base) :
    clientTake start o = shifted o.base (o.recs.map (·.2)) := by
  unfold clientTake shifted
  rw [List.filter_eq_self.2]
  · rw [List.zipIdx_map, List.map_map]; rfl
  · intro q hq
    rw [List.mem_map] at hq
    obtain ⟨z, _, rfl⟩ := hq
    simp only [decide_eq_true_eq]
    omega

/-- What one fetch does, for a decoder that is right for batches with property `P`. -/
theorem FilterOk.fetch {rd : Bytes → List α} {c : Cfg} {P : SBatch α → Prop} {q : FReq α} {r : Replica α}
    {x : Reader α} (hc : c.segMax < 2 ^ 32) (h : FilterOk c P q r x)
    (hP : ∀ b, P b → RawBatch b ∧ ∀ e, rd (b.enc e) = b.records)
    (hleo : r.leo < 2 ^ 63) (hcov : Covered q r x.next) (hfit : FitsOut q r) :
    FilterOk c P q r (Reader.fetchF rd q r x) ∧ x.next ≤ (Reader.fetchF rd q r x).next ∧
    ((Reader.fetchF rd q r x).next = x.next → Unreadable r (readEnd q.iso r) x.next) := by
  have h1 := h.ok; have h2 := h.seamless
  have hlo := h.lo; have hmid := h.mid; have hhi := h.hi; have hnn := h.nonneg
  have hle := readEnd_le (iso := q.iso) h.hw
  rcases readPartition_spec h1 h2 h.bounded hc h.hw q.iso (o := x.next) (by omega) h.hi (2 ^ 32 - 1)
    with ⟨run, bs, hsl, hend, hw, hread⟩ | ⟨hu, hread | hread⟩
  · obtain ⟨⟨pre, post, e1⟩, ⟨b0, tl, e2, hb1, hb2⟩, e3⟩ := hsl
    have hmem : ∀ b ∈ run, b ∈ r.batches := fun b hb => by rw [e1]; simp [hb]
    have hhon : ∀ b ∈ run, HonestBatch b.batch := fun b hb => honest_of_mem h1 (hmem b hb)
    have hbs : bs = content run := by
      rw [e3, List.take_of_length_le]
      rw [content_length]
      omega
    have hch : Chain r.logStart (pre ++ (run ++ post)) r.leo := by
      rw [← List.append_assoc, ← e1]; exact h2
    obtain ⟨y1, c1, c23⟩ := hch.split
    obtain ⟨y2, c2, c3⟩ := c23.split
    have hy1 : y1 = x.next := by
      have k1 : b0.base = y1 := by rw [e2] at c2; exact c2.1
      have k2 := h.at_ b0 (hmem b0 (by rw [e2]; simp)) hb1 hb2
      omega
    subst hy1
    have hfb : fileBatches rd (content run) = run.map Stored.view := by
      apply fileBatches_content
      · intro b hb
        have hm := (h2 : Chain _ _ _).mem (hmem b hb)
        have := (hP b.batch (h.all b (hmem b hb))).1
        have := (Chain.mem c2 hb).1
        exact ⟨‹RawBatch b.batch›, by constructor <;> omega⟩
      · exact hhon
      · exact fun b hb => (hP b.batch (h.all b (hmem b hb))).2
    have hne : bs ≠ [] := by
      rw [hbs]
      intro hnil
      have := length_le_content hhon
      rw [hnil, e2] at this
      simp at this
    obtain ⟨taken, rest, z, t1, t2, t3, t4, t5⟩ := processBatch_spec q.p q.size q.maxBytes run
      x.next y2 c2 (by omega) (fun b hb => hfit b (hmem b hb))
    have hfetch : Reader.fetchF rd q r x =
        (let o := processBatch q.p q.size q.maxBytes (run.map Stored.view)
         if o.recs.isEmpty then { x with next := readEnd q.iso r }
         else ⟨o.base + o.delta + 1, x.got ++ clientTake q.start o⟩) := by
      obtain ⟨y, bs', hbs'⟩ := List.exists_cons_of_ne_nil hne
      have hv : run.map Stored.view = fileBatches rd (y :: bs') := by rw [← hbs', hbs, hfb]
      rw [hv]
      unfold Reader.fetchF
      rw [hread, hbs']
    have hsl' : Slice r (2 ^ 32 - 1) x.next run bs := ⟨⟨pre, post, e1⟩, ⟨b0, tl, e2, hb1, hb2⟩, e3⟩
    have hsplit : between r q.start x.next ++ taken.flatMap Stored.pairs
          = between r q.start x.next ++ (taken.flatMap Stored.pairs).filter (fun q' => q.start ≤ q'.1) := by
      congr 1
      symm
      rw [List.filter_eq_self]
      intro p hp
      have := chain_offsets t2 (fun b hb => hhon b (by rw [t1]; simp [hb])) hp
      simp only [decide_eq_true_eq]
      omega
    rw [hfetch]
    generalize processBatch q.p q.size q.maxBytes (run.map Stored.view) = o at t3 t4 t5
    dsimp only
    by_cases hemp : o.recs = []
    · rw [if_pos (List.isEmpty_iff.2 hemp)]
      have hrest := t4 hemp
      subst hrest
      rw [List.append_nil] at t1
      subst t1
      rw [hemp, List.map_nil] at t3
      obtain ⟨bl, hbl⟩ : ∃ bl, run.getLast? = some bl := by
        rw [e2]; exact ⟨_, List.getLast?_eq_some_getLast (by simp)⟩
      have hreach : bl.last + 1 = readEnd q.iso r := by
        rcases hcov run bs hsl' hread with ⟨b, hb, v, hv, hpv⟩ | hr
        · exfalso
          have hin : v ∈ passing q.p (run.flatMap Stored.pairs) := by
            unfold passing
            rw [List.mem_map]
            obtain ⟨i, hi, hiv⟩ := List.getElem_of_mem hv
            refine ⟨(b.base + (i : Int), v), ?_, rfl⟩
            rw [List.mem_filter]
            refine ⟨?_, hpv⟩
            rw [List.mem_flatMap]
            refine ⟨b, hb, ?_⟩
            unfold Stored.pairs
            rw [List.mem_map]
            refine ⟨(v, i), ?_, rfl⟩
            rw [← hiv]
            exact List.mk_mem_zipIdx_iff_getElem?.2 (List.getElem?_eq_getElem hi)
          rw [← t3] at hin
          cases hin
        · rw [hbl] at hr
          simpa using hr
      obtain ⟨a1, a2, a3, _⟩ := advance (start := q.start) (rest := []) h1 h2
        (by rw [List.append_nil]; exact hsl') hbl (.inr h.at_)
      rw [hreach] at a1 a3 a2
      refine ⟨⟨h1, h2, h.bounded, h.all, h.hw, h.nonneg, h.lo, ?_, Int.le_refl _, a3, ?_, ?_⟩, ?_, ?_⟩
      · show q.start ≤ readEnd q.iso r; omega
      · show x.got.map _ = passing q.p (between r q.start (readEnd q.iso r))
        rw [← a1, ← hsplit, passing_append, ← t3, List.append_nil]
        exact h.got
      · intro hall
        have hnil : run.flatMap Stored.pairs = [] := by
          unfold passing at t3
          rw [List.filter_eq_self.2 (fun a _ => hall a.2)] at t3
          exact List.map_eq_nil_iff.1 t3.symm
        show x.got = between r q.start (readEnd q.iso r)
        rw [← a1, ← hsplit, hnil, List.append_nil]
        exact h.exact hall
      · exact hhi
      · intro heq
        have : readEnd q.iso r = x.next := heq
        omega
    · rw [if_neg (fun hh => hemp (List.isEmpty_iff.1 hh))]
      obtain ⟨u1, bpre, bb, bpost, k1, k2, k3⟩ := t5 hemp
      have u4 : taken ≠ [] := by rw [k1]; simp
      have u3 : x.next ≤ o.base := by
        rw [k2]
        exact (t2.mem (by rw [k1]; simp)).1
      obtain ⟨bl, hbl⟩ : ∃ bl, taken.getLast? = some bl := ⟨_, List.getLast?_eq_some_getLast u4⟩
      have hz : bl.last + 1 = z := by
        have := t2.getLast u4
        rw [hbl] at this
        simpa using this
      obtain ⟨a1, a2, a3, a4⟩ := advance (start := q.start) h1 h2 (by rw [t1] at hsl'; exact hsl') hbl (.inr h.at_)
      rw [hz] at a1 a2 a3
      have hzle : z ≤ readEnd q.iso r := by
        have := hend bl (by rw [t1]; simp [a4])
        omega
      rw [u1]
      refine ⟨⟨h1, h2, h.bounded, h.all, h.hw, h.nonneg, h.lo, ?_, hzle, a3, ?_, ?_⟩, ?_, ?_⟩
      · show q.start ≤ z; omega
      · show (x.got ++ clientTake q.start o).map _ = passing q.p (between r q.start z)
        rw [← a1, ← hsplit, passing_append, List.map_append, h.got, clientTake_values (by omega), t3]
      · intro hall
        show x.got ++ clientTake q.start o = between r q.start z
        have hhon' : ∀ b ∈ taken, HonestBatch b.batch := fun b hb => hhon b (by rw [t1]; simp [hb])
        have hob : o.base = x.next := by
          cases bpre with
          | nil => rw [k1] at t2; rw [k2]; exact t2.1
          | cons y bpre =>
            exfalso
            have hy := k3 y (by simp)
            have hv := passed_values q.p y.batch.records
            rw [hy, List.map_nil, List.filter_eq_self.2 (fun a _ => hall a)] at hv
            have h5 := (hhon' y (by rw [k1]; simp)).2.1
            have h6 := (hhon' y (by rw [k1]; simp)).1
            rw [← hv] at h5
            simp at h5
            omega
        rw [← a1, ← hsplit, h.exact hall, (t2.pairs hhon').1, clientTake_eq (by omega), t3, hob]
        unfold passing
        rw [List.filter_eq_self.2 (fun a _ => hall a.2), (t2.pairs hhon').1]
        congr 2
        unfold shifted
        rw [List.map_map]
        have : ((fun x : Int × α => x.2) ∘ fun p : α × Nat => (x.next + (p.2 : Int), p.1)) = Prod.fst := rfl
        rw [this, List.zipIdx_map_fst]
      · show x.next ≤ z; omega
      · intro heq
        have : z = x.next := heq
        omega
  · have hf : Reader.fetchF rd q r x = x := by unfold Reader.fetchF; rw [hread]
    rw [hf]
    exact ⟨h, Int.le_refl _, fun _ => hu⟩
  · have hf : Reader.fetchF rd q r x = x := by unfold Reader.fetchF; rw [hread]
    rw [hf]
    exact ⟨h, Int.le_refl _, fun _ => hu⟩

/-! ## Runs -/

/-- Operations as in `LiveOp`; fetches only where `Covered` and `FitsOut` hold. -/
def FEv.Good (P : SBatch α → Prop) (q : FReq α) (r : Replica α) (x : Reader α) : FEv α → Prop
  | .op o => LiveOp P r o
  | .fetch => Covered q r x.next ∧ FitsOut q r

def FGood (rd : Bytes → List α) (c : Cfg) (P : SBatch α → Prop) (q : FReq α) :
    Replica α × Reader α → List (FEv α) → Prop
  | _, [] => True
  | s, e :: es => e.Good P q s.1 s.2 ∧ FGood rd c P q (fstep rd c q s e) es

theorem frun_leo (rd : Bytes → List α) (c : Cfg) (P : SBatch α → Prop) (q : FReq α) : ∀ (es : List (FEv α))
    (s : Replica α × Reader α), ReplicaOk s.1 → Seamless s.1 → FGood rd c P q s es →
    s.1.leo ≤ (frun rd c q s es).1.leo
  | [], _, _, _, _ => Int.le_refl _
  | .op o :: es, (r, x), h1, h2, hg => by
    have g := LiveOp.grows h1 h2 c hg.1
    have ih := frun_leo rd c P q es ((r.step c o).1, x) g.ok g.seamless hg.2
    exact Int.le_trans g.le ih
  | .fetch :: es, (r, x), h1, h2, hg =>
    frun_leo rd c P q es (r, Reader.fetchF rd q r x) h1 h2 hg.2

theorem FilterOk.run {rd : Bytes → List α} {c : Cfg} {P : SBatch α → Prop} {q : FReq α}
    (hc : c.segMax < 2 ^ 32) (hP : ∀ b, P b → RawBatch b ∧ ∀ e, rd (b.enc e) = b.records) :
    ∀ (es : List (FEv α)) (s : Replica α × Reader α), FilterOk c P q s.1 s.2 → FGood rd c P q s es →
      (frun rd c q s es).1.leo < 2 ^ 63 → FilterOk c P q (frun rd c q s es).1 (frun rd c q s es).2
  | [], _, h, _, _ => h
  | .op o :: es, (r, x), h, hg, hleo => by
    refine FilterOk.run hc hP es ((r.step c o).1, x) ?_ hg.2 hleo
    have ho : LiveOp P r o := hg.1
    have g := ho.grows h.ok h.seamless c
    have hre := ho.readEnd h.ok h.seamless c h.hw q.iso
    have hhw := ho.hw h.ok h.seamless c h.hw
    have hle := readEnd_le (iso := q.iso) h.hw
    have hn : x.next ≤ readEnd q.iso r := h.hi
    have hbt := g.between (a := q.start) (e := x.next) (by show x.next ≤ r.leo; change readEnd q.iso r ≤ r.leo at hle; omega)
    obtain ⟨b1, _, b3⟩ := ho.honest
    refine ⟨g.ok, g.seamless, h.bounded.step o, all_step h.ok h.all c o b1 b3, hhw.2, h.nonneg, ?_, h.mid,
      Int.le_trans hn hre, g.boundary (by change readEnd q.iso r ≤ r.leo at hle; show x.next ≤ r.leo; omega) h.at_, ?_, ?_⟩
    · show (r.step c o).1.logStart ≤ _; rw [g.start]; exact h.lo
    · show x.got.map _ = passing q.p (between (r.step c o).1 q.start x.next)
      rw [hbt]; exact h.got
    · intro ha
      show x.got = between (r.step c o).1 q.start x.next
      rw [hbt]; exact h.exact ha
  | .fetch :: es, (r, x), h, hg, hleo => by
    have hl := frun_leo rd c P q es (r, Reader.fetchF rd q r x) h.ok h.seamless hg.2
    have hlt : r.leo < 2 ^ 63 := Int.lt_of_le_of_lt hl hleo
    exact FilterOk.run hc hP es (r, Reader.fetchF rd q r x) (h.fetch hc hP hlt hg.1.1 hg.1.2).1 hg.2 hleo

end Verif.Stream
