import Verif.Storage.Recovery
import Verif.Wire.RawBatch

/-!
# Reading a partition from start to end

A reader repeats: fetch from offset `next`, decode, keep the records with offset at least `next`, go on
behind the last batch received.  Two decoders are considered: one that keeps complete batches only, and
the one of the client (`fluvio/src/consumer/mod.rs`).
-/

namespace Verif.Storage
open Verif.Wire

variable {α : Type}

/-- The reader's position and what it has delivered so far. -/
structure Reader (α : Type) where
  next : Int
  got : List (Int × α)

/-- A decoder: given `next` and the bytes fetched, the records to deliver and, if there was any batch,
the offset behind the last one. -/
abbrev Parser (α : Type) := Int → Bytes → List (Int × α) × Option Int

/-- One fetch (uncommitted) of at most `n` bytes. -/
def Reader.fetch (parse : Parser α) (r : Replica α) (n : Nat) (x : Reader α) : Reader α :=
  match r.readPartition x.next n .uncommitted with
  | .ok ⟨_, _, _, some bs⟩ =>
    let p := parse x.next bs
    ⟨p.2.getD x.next, x.got ++ p.1⟩
  | _ => x

/-- What happens: the partition changes, or the reader fetches. -/
inductive Ev (α : Type) where
  | op (o : Op α)
  | fetch (n : Nat)

def Reader.step (parse : Parser α) (c : Cfg) : Replica α × Reader α → Ev α → Replica α × Reader α
  | (r, x), .op o => ((r.step c o).1, x)
  | (r, x), .fetch n => (r, x.fetch parse r n)

def Reader.run (parse : Parser α) (c : Cfg) (s : Replica α × Reader α) (evs : List (Ev α)) :
    Replica α × Reader α := evs.foldl (Reader.step parse c) s

/-! ## Decoders -/

/-- The complete batches at the front of the bytes: base offset and bytes of each. -/
def wholeBatches : Nat → Bytes → List (Int × Int × Bytes)
  | 0, _ => []
  | fuel + 1, bs =>
    match readFrom bs with
    | .batch base last w => (base, last, bs.take w) :: wholeBatches fuel (bs.drop w)
    | _ => []

/-- A decoder that ignores an incomplete batch at the end (as the comment at batch.rs:384 intends);
`rd` decodes the records of one batch. -/
def parseWhole (rd : Bytes → List α) : Parser α := fun next bs =>
  let l := wholeBatches (bs.length + 1) bs
  ((l.flatMap fun p => (rd p.2.2).zipIdx.map fun q => (p.1 + (q.2 : Int), q.1)).filter
      fun q => next ≤ q.1,
   l.getLast?.map fun p => p.2.1 + 1)

/-- `computed_last_offset`, `records_len` — fluvio-protocol/src/record/batch.rs:145-151, 263 -/
def computedLastOffset {R : Type} (b : Batch R) : Int :=
  b.baseOffset.toInt +
    (if b.header.lastOffsetDelta.toInt < 0 then 0 else b.header.lastOffsetDelta.toInt + 1)

/-- The client: `RecordSet<RawRecords>` is decoded from the bytes (data.rs:305-356), each batch is
converted (consumer/mod.rs:310-372; a failing one yields an error item instead of records), records
before `next` are dropped (259-265), and the next fetch starts at `next_offset_for_fetch`
(fluvio-spu-schema/src/fetch/response.rs:85-91). -/
def parseClient (z : Compressor) : Parser Record := fun next bs =>
  match decBatches rawC bs.length bs with
  | .error _ => ([], none)
  | .ok (l, _) =>
    ((l.flatMap fun b => match toMem z b with
        | .error _ => []
        | .ok m => m.records.zipIdx.map fun q => (m.baseOffset.toInt + (q.2 : Int), q.1)).filter
          fun q => next ≤ q.1,
     l.getLast?.map computedLastOffset)

/-- **Specification.** The decoder delivers complete batches: some leading part of those fetched, at
least the first one if it fits. -/
def GoodParse (parse : Parser α) (n : Nat) (l : List (Stored α)) : Prop :=
  ∃ l1 l2, l = l1 ++ l2 ∧
    (∀ next, parse next ((content l).take n)
      = ((l1.flatMap Stored.pairs).filter (fun q => next ≤ q.1), l1.getLast?.map fun b => b.last + 1)) ∧
    (∀ b l', l = b :: l' → b.width ≤ n → l1 ≠ [])

/-! ## Numbered lists -/

/-- `R` numbered from `a` on. -/
def shifted (a : Int) (R : List α) : List (Int × α) := R.zipIdx.map fun p => (a + (p.2 : Int), p.1)

theorem shifted_append (a : Int) (X Y : List α) :
    shifted a (X ++ Y) = shifted a X ++ shifted (a + X.length) Y := by
  unfold shifted
  rw [List.zipIdx_append, List.map_append]
  congr 1
  have := zipIdx_map_shift Y a X.length
  simpa using this

theorem shifted_length (a : Int) (R : List α) : (shifted a R).length = R.length := by simp [shifted]

theorem shifted_mem {a : Int} {R : List α} {q : Int × α} (h : q ∈ shifted a R) :
    a ≤ q.1 ∧ q.1 < a + R.length := by
  unfold shifted at h
  rw [List.mem_map] at h
  obtain ⟨p, hp, rfl⟩ := h
  have := List.mem_zipIdx hp
  simp only
  omega

theorem shifted_filter (a : Int) (R : List α) (k : Nat) (hk : k ≤ R.length) :
    (shifted a R).filter (fun q => decide (a + (k : Int) ≤ q.1)) = (shifted a R).drop k := by
  have h : R = R.take k ++ R.drop k := (List.take_append_drop k R).symm
  have hl : (R.take k).length = k := by rw [List.length_take]; omega
  have e := shifted_append a (R.take k) (R.drop k)
  rw [← h, hl] at e
  rw [e, List.filter_append, List.drop_left' (by rw [shifted_length, hl])]
  rw [List.filter_eq_nil_iff.2, List.filter_eq_self.2, List.nil_append]
  · intro q hq; have := shifted_mem hq; exact decide_eq_true this.1
  · intro q hq
    have := shifted_mem hq
    rw [hl] at this
    simp only [decide_eq_true_eq]; omega

/-- The pairs in a chain of honest batches. -/
theorem Chain.pairs : ∀ {l : List (Stored α)} {a e : Int}, Chain a l e → (∀ b ∈ l, HonestBatch b.batch) →
    l.flatMap Stored.pairs = shifted a (l.flatMap fun b => b.batch.records) ∧
      e = a + (l.flatMap fun b => b.batch.records).length
  | [], _, _, h, _ => by cases h; exact ⟨rfl, by simp⟩
  | b :: l, a, e, h, hh => by
    obtain ⟨h1, h2⟩ := Chain.pairs h.2.2 fun x hx => hh x (by simp [hx])
    have hb := (hh b (by simp)).2.1
    have he : b.last + 1 = a + b.batch.records.length := by
      have := h.1; unfold Stored.last; omega
    rw [List.flatMap_cons, List.flatMap_cons, shifted_append, h1, he]
    refine ⟨?_, ?_⟩
    · congr 1
      unfold Stored.pairs shifted
      rw [h.1]
    · rw [h2, he, List.length_append]; omega

theorem Chain.getLast : ∀ {l : List (Stored α)} {a e : Int}, Chain a l e → l ≠ [] →
    (l.getLast?.map fun b => b.last + 1) = some e
  | [], _, _, _, hne => absurd rfl hne
  | [b], _, _, h, _ => by
    have : b.last + 1 = _ := h.2.2
    simp [this]
  | _ :: _ :: _, _, _, h, _ => by
    rw [List.getLast?_cons_cons]
    exact Chain.getLast h.2.2 (by simp)

/-- The reader has delivered exactly the records before its position. -/
structure ReaderOk (r : Replica α) (x : Reader α) : Prop where
  ok : ReplicaOk r
  seamless : Seamless r
  lo : r.logStart ≤ x.next
  hi : x.next ≤ r.leo
  got : x.got = r.pairs.take (x.next - r.logStart).toNat

theorem honest_of_mem {r : Replica α} (h : ReplicaOk r) {b : Stored α} (hb : b ∈ r.batches) :
    HonestBatch b.batch := by
  unfold Replica.batches at hb
  rw [List.mem_append, List.mem_flatMap] at hb
  rcases hb with ⟨s, hs, hb⟩ | hb
  · exact (h.prev s hs).1.honest b hb
  · exact h.active.honest b hb

/-- One fetch keeps the invariant and, if the batch at the position fits, makes progress. -/
theorem ReaderOk.fetch {parse : Parser α} {r : Replica α} {x : Reader α} (h : ReaderOk r x) (n : Nat)
    (hp : ∀ pre l post, r.batches = pre ++ l ++ post →
      (∀ c, Bounded c r → width l ≤ c.segMax) → GoodParse parse n l) :
    ReaderOk r (x.fetch parse r n) ∧
    (x.next < r.leo → (∀ b ∈ r.batches, b.width ≤ n) → x.next < (x.fetch parse r n).next) := by
  obtain ⟨hok, hs, hlo, hhi, hgot⟩ := h
  by_cases hend : x.next = r.leo
  · have hr := (hok.read_outside none n).1
    have hf : x.fetch parse r n = x := by
      unfold Reader.fetch Replica.readPartition
      rw [hend, hr]
    rw [hf]
    exact ⟨⟨hok, hs, hlo, hhi, hgot⟩, fun hlt => absurd hend (by omega)⟩
  · obtain ⟨b, hb, h3, h4⟩ := hs.contains hlo (by omega)
    obtain ⟨pre, run, post, e1, e2, ew⟩ := hok.read_stored_width hb h3 h4 n
    obtain ⟨l1, l2, hl, hpar, hprog⟩ := hp pre (b :: run) post e1 ew
    have hread : r.readPartition x.next n .uncommitted = .ok ⟨r.logStart, r.hw, r.leo,
        some ((content (b :: run)).take n)⟩ := e2
    have hf : x.fetch parse r n = ⟨(l1.getLast?.map fun b => b.last + 1).getD x.next,
        x.got ++ (l1.flatMap Stored.pairs).filter (fun q => x.next ≤ q.1)⟩ := by
      unfold Reader.fetch
      rw [hread]
      simp only [hpar]
    rw [hf]
    by_cases hne : l1 = []
    · subst hne
      refine ⟨⟨hok, hs, hlo, hhi, ?_⟩, ?_⟩
      · simpa using hgot
      · intro _ hw
        exact absurd rfl (hprog b run rfl (hw b hb))
    · -- split the log around the batches delivered
      have hch : Chain r.logStart (pre ++ (l1 ++ (l2 ++ post))) r.leo := by
        have : r.batches = pre ++ (l1 ++ (l2 ++ post)) := by rw [e1, hl]; simp only [List.append_assoc]
        rw [← this]; exact hs
      have hhon : ∀ y ∈ pre ++ (l1 ++ (l2 ++ post)), HonestBatch y.batch := by
        intro y hy
        apply honest_of_mem hok
        rw [e1, hl]; simpa only [List.append_assoc] using hy
      have hpairs : r.pairs = (pre ++ (l1 ++ (l2 ++ post))).flatMap Stored.pairs := by
        unfold Replica.pairs; rw [e1, hl]; simp only [List.append_assoc]
      obtain ⟨y1, c1, c23⟩ := hch.split
      obtain ⟨y2, c2, c3⟩ := c23.split
      obtain ⟨p1, q1⟩ := c1.pairs fun y hy => hhon y (by simp [hy])
      obtain ⟨p2, q2⟩ := c2.pairs fun y hy => hhon y (by simp [hy])
      obtain ⟨p3, q3⟩ := c3.pairs fun y hy => hhon y (by
        rw [List.mem_append, List.mem_append]; exact .inr (.inr hy))
      rw [List.flatMap_append, List.flatMap_append, p1, p2, p3] at hpairs
      generalize (pre.flatMap fun b => b.batch.records) = R1 at *
      generalize (l1.flatMap fun b => b.batch.records) = R2 at *
      generalize ((l2 ++ post).flatMap fun b => b.batch.records) = R3 at *
      -- where the first batch starts, and where the last one ends
      have hy1 : y1 ≤ x.next := by
        cases l1 with
        | nil => exact absurd rfl hne
        | cons b' l1' =>
          rw [List.cons_append, List.cons.injEq] at hl
          have := c2.1
          rw [← hl.1] at this
          omega
      have hlast : (l1.getLast?.map fun b => b.last + 1) = some y2 := c2.getLast hne
      have hy2 : x.next < y2 := by
        cases l1 with
        | nil => exact absurd rfl hne
        | cons b' l1' =>
          rw [List.cons_append, List.cons.injEq] at hl
          have h5 := c2.2.2.le
          rw [← hl.1] at h5
          omega
      have hy3 := c3.le
      rw [hlast]
      refine ⟨⟨hok, hs, by simp only [Option.getD_some]; omega, hy3, ?_⟩, fun _ _ => hy2⟩
      simp only [Option.getD_some]
      -- the positions as natural numbers
      obtain ⟨k, hk⟩ : ∃ k : Nat, x.next = y1 + k := ⟨(x.next - y1).toNat, by omega⟩
      have hkl : k ≤ R2.length := by omega
      have n1 : (x.next - r.logStart).toNat = (shifted r.logStart R1).length + k := by
        rw [shifted_length]; omega
      have n2 : (y2 - r.logStart).toNat = (shifted r.logStart R1).length + (shifted y1 R2).length := by
        rw [shifted_length, shifted_length]; omega
      rw [p2, hk, shifted_filter y1 R2 k hkl, hgot, n1, n2, hpairs, List.take_length_add_append,
        List.take_length_add_append, List.take_append_of_le_length (by rw [shifted_length]; exact hkl),
        List.take_left, List.append_assoc, List.take_append_drop]

/-! ## The two decoders -/

theorem wholeBatches_take : ∀ (l : List (Stored α)) (n fuel : Nat), (∀ b ∈ l, IsRaw b ∧ Fits64 b.base) →
    l.length < fuel →
    ∃ l1 l2, l = l1 ++ l2 ∧
      wholeBatches fuel ((content l).take n) = l1.map (fun b => (b.base, b.last, b.bytes)) ∧
      (∀ b l', l = b :: l' → b.width ≤ n → l1 ≠ [])
  | [], n, fuel, _, hf => by
    obtain ⟨fuel, rfl⟩ : ∃ k, fuel = k + 1 := ⟨fuel - 1, by simp at hf; omega⟩
    refine ⟨[], [], rfl, ?_, by simp⟩
    simp [content, wholeBatches, readFrom]
  | b :: l, n, fuel, h, hf => by
    obtain ⟨fuel, rfl⟩ : ∃ k, fuel = k + 1 := ⟨fuel - 1, by simp at hf; omega⟩
    obtain ⟨hraw, hfit⟩ := h b (by simp)
    have hc : content (b :: l) = b.bytes ++ content l := by simp [content]
    by_cases hw : b.width ≤ n
    · obtain ⟨l1, l2, e1, e2, _⟩ := wholeBatches_take l (n - b.width) fuel
        (fun x hx => h x (by simp [hx])) (by simp at hf; omega)
      refine ⟨b :: l1, l2, by rw [e1]; rfl, ?_, by simp⟩
      have ht : (content (b :: l)).take n = b.bytes ++ (content l).take (n - b.width) := by
        rw [hc, List.take_append, List.take_of_length_le hw]; rfl
      rw [ht]
      unfold wholeBatches
      rw [hraw.readFrom hfit]
      simp only
      rw [List.drop_left' (show b.bytes.length = b.width from rfl),
        List.take_left' (show b.bytes.length = b.width from rfl), e2]
      rfl
    · refine ⟨[], b :: l, rfl, ?_, ?_⟩
      · have ht : (content (b :: l)).take n = b.bytes.take n := by
          rw [hc, List.take_append_of_le_length (by
            show n ≤ b.width; omega)]
        rw [ht]
        unfold wholeBatches
        by_cases h0 : n = 0
        · subst h0; rw [List.take_zero]; rfl
        · obtain ⟨raw, h1, _, h3⟩ := hraw
          have hb : b.bytes = encBatch rawC { raw with baseOffset := BitVec.ofInt 64 b.base } := by
            unfold Stored.bytes; rw [h1]; rfl
          have hne : b.bytes.length = b.width := rfl
          rw [readFrom_torn { raw with baseOffset := BitVec.ofInt 64 b.base } h3
            (p := b.bytes.take n) (s := b.bytes.drop n)
            (by rw [← hb, List.take_append_drop])
            (by
              intro e
              have := congrArg List.length e
              rw [List.length_take, List.length_nil] at this
              omega)
            (by
              intro e
              have := congrArg List.length e
              rw [List.length_drop, List.length_nil] at this
              omega)]
          rfl
      · intro b' l' he hw'
        rw [List.cons.injEq] at he
        rw [he.1] at hw
        exact absurd hw' hw

theorem width_ge {l : List (Stored α)} (h : ∀ b ∈ l, IsRaw b) : l.length ≤ width l :=
  length_le_width l h

/-- The decoder of complete batches is good whatever the byte limit. -/
theorem parseWhole_good {rd : Bytes → List α} (n : Nat) {l : List (Stored α)}
    (h : ∀ b ∈ l, IsRaw b ∧ Fits64 b.base) (hrd : ∀ b ∈ l, ∀ e, rd (b.batch.enc e) = b.batch.records) :
    GoodParse (parseWhole rd) n l := by
  -- any larger fuel gives the same
  have fuel_irrel : ∀ (f : Nat) (bs : Bytes) (g : Nat), bs.length < f → bs.length < g →
      wholeBatches f bs = wholeBatches g bs := by
    intro f
    induction f with
    | zero => intro bs g h; omega
    | succ f ih =>
      intro bs g h1 h2
      obtain ⟨g, rfl⟩ : ∃ k, g = k + 1 := ⟨g - 1, by omega⟩
      unfold wholeBatches
      split
      · rename_i base last w hr
        have hw : 57 ≤ w ∧ bs.length ≥ 57 := by
          unfold readFrom at hr
          split at hr
          · cases hr
          · split at hr
            · cases hr
            · split at hr
              · cases hr
              · split at hr
                · cases hr
                · split at hr
                  · cases hr
                  · injection hr with _ _ hw; omega
        rw [ih _ g (by rw [List.length_drop]; omega) (by rw [List.length_drop]; omega)]
      · rfl
  obtain ⟨l1, l2, e1, e2, e3⟩ := wholeBatches_take l n
    (l.length + ((content l).take n).length + 1) h (by omega)
  refine ⟨l1, l2, e1, ?_, e3⟩
  intro next
  unfold parseWhole
  dsimp only
  rw [fuel_irrel _ _ (l.length + ((content l).take n).length + 1) (by omega) (by omega), e2]
  congr 1
  · congr 1
    rw [List.flatMap_map]
    have : ∀ (m : List (Stored α)), (∀ b ∈ m, ∀ e, rd (b.batch.enc e) = b.batch.records) →
        (m.flatMap fun b => (rd b.bytes).zipIdx.map fun q => (b.base + (q.2 : Int), q.1))
          = m.flatMap Stored.pairs := by
      intro m hm
      induction m with
      | nil => rfl
      | cons b m ih =>
        rw [List.flatMap_cons, List.flatMap_cons, ih fun x hx => hm x (by simp [hx])]
        congr 1
        unfold Stored.bytes
        rw [hm b (by simp)]
        rfl
    exact this l1 fun b hb => hrd b (by rw [e1]; simp [hb])
  · rw [List.getLast?_map, Option.map_map]
    rfl

/-- What a client sends: a raw batch obtained from records (partition_producer.rs, batch.rs:207-227). -/
def FromClient (z : Compressor) (b : SBatch Record) : Prop :=
  ∃ mem raw, toRaw z mem = some raw ∧ b.records = mem.records ∧ memC.wf mem.records ∧
    b.enc = (ofRaw raw b.records).enc ∧ b.delta = (ofRaw raw b.records).delta ∧
    calcBatchLen rawC raw < 2 ^ 31

theorem FromClient.raw {z : Compressor} {b : SBatch Record} (h : FromClient z b) : RawBatch b := by
  obtain ⟨_, raw, _, _, _, h1, h2, h3⟩ := h
  exact ⟨raw, h1, h2, h3⟩

theorem memoryRecords_toRaw {z : Compressor} (hz : ∀ c bs, z.uncompress c (z.compress c bs) = some bs)
    {mem : Batch (List Record)} {raw : Batch Bytes} (hr : toRaw z mem = some raw)
    (hw : memC.wf mem.records) (b : Batch Bytes) (hh : b.header.attributes = raw.header.attributes)
    (hrec : b.records = raw.records) : memoryRecords z b = .ok mem.records := by
  unfold toRaw at hr
  cases hc : mem.header.compression with
  | none => rw [hc] at hr; cases hr
  | some c =>
    rw [hc] at hr
    simp only [Option.some.injEq] at hr
    unfold memoryRecords
    have : b.header.compression = some c := by
      unfold BatchHeader.compression at hc ⊢
      rw [hh, ← hr]; exact hc
    rw [this]
    have hr' : b.records = z.run c (memC.enc mem.records) := by rw [hrec, ← hr]
    simp only [hr', Compressor.run]
    split
    · exact decodeMemory_enc _ hw
    · rw [hz]; exact decodeMemory_enc _ hw

/-- The client's decoder is good if nothing is cut off. -/
theorem parseClient_good {z : Compressor} (hz : ∀ c bs, z.uncompress c (z.compress c bs) = some bs)
    (n : Nat) {l : List (Stored Record)}
    (h : ∀ b ∈ l, FromClient z b.batch ∧ HonestBatch b.batch ∧ Fits64 b.base) (hn : width l ≤ n) :
    GoodParse (parseClient z) n l := by
  refine ⟨l, [], by simp, ?_, by intro b l' he; rw [he]; simp⟩
  intro next
  rw [List.take_of_length_le (by rw [content_length]; exact hn)]
  -- decoding the bytes batch by batch
  have key : ∀ (l : List (Stored Record)) (fuel : Nat),
      (∀ b ∈ l, FromClient z b.batch ∧ HonestBatch b.batch ∧ Fits64 b.base) →
      (content l).length ≤ fuel →
      ∃ bs : List (Batch Bytes), decBatches rawC fuel (content l) = .ok (bs, []) ∧
        (bs.flatMap fun b => match toMem z b with
          | .error _ => []
          | .ok m => m.records.zipIdx.map fun q => (m.baseOffset.toInt + (q.2 : Int), q.1))
          = l.flatMap Stored.pairs ∧
        bs.getLast?.map computedLastOffset = l.getLast?.map fun b => b.last + 1 := by
    intro l
    induction l with
    | nil =>
      intro fuel _ _
      refine ⟨[], ?_, rfl, rfl⟩
      cases fuel <;> simp [decBatches, content]
    | cons b l ih =>
      intro fuel h hf
      obtain ⟨⟨mem, raw, f1, f2, f3, f4, f5, f6⟩, hhon, hfit⟩ := h b (by simp)
      have hb : b.bytes = encBatch rawC { raw with baseOffset := BitVec.ofInt 64 b.base } := by
        unfold Stored.bytes; rw [f4]; rfl
      have hc : content (b :: l) = b.bytes ++ content l := by simp [content]
      have hpos := encBatch_pos rawC { raw with baseOffset := BitVec.ofInt 64 b.base }
      rw [hc, List.length_append, hb] at hf
      obtain ⟨fuel, rfl⟩ : ∃ k, fuel = k + 1 := ⟨fuel - 1, by omega⟩
      obtain ⟨bs, i1, i2, i3⟩ := ih fuel (fun x hx => h x (by simp [hx])) (by omega)
      refine ⟨asWritten rawC { raw with baseOffset := BitVec.ofInt 64 b.base } :: bs, ?_, ?_, ?_⟩
      · unfold decBatches
        rw [hc, hb, if_pos (by rw [List.length_append]; omega),
          decBatch_enc rawC_law { raw with baseOffset := BitVec.ofInt 64 b.base } trivial f6]
        simp only [i1]
      · rw [List.flatMap_cons, List.flatMap_cons, i2]
        congr 1
        have hm : memoryRecords z (asWritten rawC { raw with baseOffset := BitVec.ofInt 64 b.base })
            = .ok mem.records := memoryRecords_toRaw hz f1 f3 _ rfl rfl
        unfold toMem
        rw [hm]
        simp only [Stored.pairs, f2]
        have : (asWritten rawC { raw with baseOffset := BitVec.ofInt 64 b.base }).baseOffset.toInt
            = b.base := ofInt64_toInt hfit
        rw [this]
      · have hlast : computedLastOffset (asWritten rawC { raw with baseOffset := BitVec.ofInt 64 b.base })
            = b.last + 1 := by
          unfold computedLastOffset Stored.last
          have e1 : (asWritten rawC { raw with baseOffset := BitVec.ofInt 64 b.base }).baseOffset.toInt
            = b.base := ofInt64_toInt hfit
          have e2 : (asWritten rawC
              { raw with baseOffset := BitVec.ofInt 64 b.base }).header.lastOffsetDelta.toInt
              = b.batch.delta := f5.symm
          have := hhon.1
          rw [e1, e2, if_neg (by omega)]
          omega
        cases l with
        | nil =>
          cases bs with
          | nil => simp [hlast]
          | cons x bs =>
            have i3' : ((x :: bs).getLast?).map computedLastOffset = none := i3
            rw [List.getLast?_eq_some_getLast (by simp : x :: bs ≠ [])] at i3'
            cases i3'
        | cons y l =>
          cases bs with
          | nil =>
            exfalso
            have i3' : (none : Option Int) = ((y :: l).getLast?).map fun b => b.last + 1 := i3
            rw [List.getLast?_eq_some_getLast (by simp : y :: l ≠ [])] at i3'
            cases i3'
          | cons x bs => rw [List.getLast?_cons_cons, List.getLast?_cons_cons]; exact i3
  obtain ⟨bs, k1, k2, k3⟩ := key l (content l).length h (Nat.le_refl _)
  unfold parseClient
  rw [k1]
  simp only
  rw [k2, k3]

/-! ## Histories -/

theorem Seamless.logStart_eq {r r' : Replica α} (h : Seamless r) (h' : Seamless r')
    {x : List (Stored α)} (hb : r'.batches = r.batches ++ x) (hx : Chain r.leo x r'.leo) :
    r'.logStart = r.logStart := by
  have h1 : Chain r.logStart r'.batches r'.leo := by rw [hb]; exact Chain.append h hx
  have h2 : Chain r'.logStart r'.batches r'.leo := h'
  generalize r'.batches = l at h1 h2
  cases l with
  | nil =>
    have e1 : r.logStart = r'.leo := h1
    have e2 : r'.logStart = r'.leo := h2
    rw [e1, e2]
  | cons b l =>
    have e1 := h1.1
    have e2 := h2.1
    omega

/-- Operations that keep the log only append to it. -/
theorem keeps_step {r : Replica α} (hok : ReplicaOk r) (c : Cfg) (op : Op α) (ho : op.Honest)
    (hk : op.Keeps) : ∃ x, (r.step c op).1.batches = r.batches ++ x ∧
      Chain r.leo x (r.step c op).1.leo := by
  cases op with
  | write set u f =>
    obtain ⟨_, dn, rest, e1, e2, e3, _⟩ := write_spec c hok set u f ho
    have hst : (r.step c (.write set u f)).1 = (r.write c set u f).1 := by
      unfold Replica.step
      dsimp only
      generalize r.write c set u f = res
      obtain ⟨r', x⟩ := res
      cases x <;> rfl
    rw [hst]
    refine ⟨_, e2, ?_⟩
    rw [e3]
    exact place_chain dn _ fun b hb => ho b (by rw [e1]; exact List.mem_append_left _ hb)
  | updateHw o => exact ⟨[], by simp [Replica.step, Replica.updateHw, Replica.batches], rfl⟩
  | cleanSize => exact hk.elim
  | cleanTtl e => exact hk.elim
  | reopen chk =>
    unfold Replica.step
    dsimp only
    split
    · rename_i r' hr
      obtain ⟨_, k2, k3, _⟩ := hok.reopen hr
      exact ⟨[], by show r'.batches = _; rw [k2]; simp, k3.symm⟩
    · exact ⟨[], by simp, rfl⟩

theorem ReaderOk.op {r : Replica α} {x : Reader α} (h : ReaderOk r x) (c : Cfg) (o : Op α)
    (ho : o.Honest) (hk : o.Keeps) : ReaderOk (r.step c o).1 x ∧ r.leo ≤ (r.step c o).1.leo := by
  obtain ⟨y, hb, hy⟩ := keeps_step h.ok c o ho hk
  have hn : ∀ e, o ≠ .cleanTtl e := by
    intro e he
    rw [he] at hk
    exact hk
  have hs := h.seamless.step h.ok c o ho hn
  have hls := h.seamless.logStart_eq hs hb hy
  have hle := hy.le
  refine ⟨⟨h.ok.step c o ho, hs, by rw [hls]; exact h.lo, by have := h.hi; omega, ?_⟩, hle⟩
  have hp := (h.seamless : Chain _ _ _).pairs fun b hb => honest_of_mem h.ok hb
  have hlen : (x.next - r.logStart).toNat ≤ r.pairs.length := by
    have h1 : r.pairs = shifted r.logStart _ := hp.1
    rw [h1, shifted_length]
    have := hp.2
    have := h.hi
    omega
  rw [hls, h.got]
  unfold Replica.pairs at hlen ⊢
  rw [hb, List.flatMap_append, List.take_append_of_le_length hlen]

/-- Events of which every operation keeps the log, is honest, and writes batches with property `P`. -/
def Ev.Good (P : SBatch α → Prop) : Ev α → Prop
  | .op o => o.Honest ∧ o.Keeps ∧ o.All P
  | .fetch _ => True

/-- The byte limits of the fetches. -/
def Ev.Limit (Q : Nat → Prop) : Ev α → Prop
  | .op _ => True
  | .fetch n => Q n

theorem Reader.run_leo {parse : Parser α} (c : Cfg) {P : SBatch α → Prop} :
    ∀ (evs : List (Ev α)) (s : Replica α × Reader α), ReplicaOk s.1 → (∀ e ∈ evs, e.Good P) →
      s.1.leo ≤ (Reader.run parse c s evs).1.leo
  | [], _, _, _ => Int.le_refl _
  | .fetch n :: evs, (r, x), h, hg =>
    Reader.run_leo c evs (r, x.fetch parse r n) h fun e he => hg e (by simp [he])
  | .op o :: evs, (r, x), h, hg => by
    obtain ⟨h1, h2, _⟩ := hg (.op o) (by simp)
    obtain ⟨y, _, hy⟩ := keeps_step h c o h1 h2
    have := Reader.run_leo (parse := parse) c evs ((r.step c o).1, x) (h.step c o h1) fun e he => hg e (by simp [he])
    have h2 : r.leo ≤ (r.step c o).1.leo := hy.le
    show r.leo ≤ (Reader.run parse c ((r.step c o).1, x) evs).1.leo
    simp only at this
    omega

/-- A decoder that is good for what fetches with limits satisfying `Q` return. -/
def GoodDecoder (parse : Parser α) (c : Cfg) (P : SBatch α → Prop) (Q : Nat → Prop) : Prop :=
  ∀ n l, Q n → width l ≤ c.segMax → (∀ b ∈ l, P b.batch ∧ HonestBatch b.batch ∧ Fits64 b.base) →
    GoodParse parse n l

theorem ReaderOk.fetch' {parse : Parser α} {P : SBatch α → Prop} {Q : Nat → Prop} {c : Cfg}
    (hd : GoodDecoder parse c P Q) {r : Replica α} {x : Reader α} (h : ReaderOk r x)
    (hbd : Bounded c r) (hleo : r.leo < 2 ^ 63) (hP : ∀ b ∈ r.batches, P b.batch) (n : Nat) (hn : Q n) :
    ReaderOk r (x.fetch parse r n) ∧
    (x.next < r.leo → (∀ b ∈ r.batches, b.width ≤ n) → x.next < (x.fetch parse r n).next) := by
  apply h.fetch
  intro pre l post he hw
  apply hd n l hn (hw c hbd)
  intro b hb
  have hm : b ∈ r.batches := by rw [he]; simp [hb]
  refine ⟨hP b hm, honest_of_mem h.ok hm, ?_⟩
  have h1 := (h.seamless : Chain _ _ _).mem hm
  have h2 : 0 ≤ r.logStart := by
    cases hp : r.prev with
    | nil => rw [Replica.logStart_nil hp]; exact h.ok.nonneg
    | cons s l' =>
      rw [h.ok.logStart_cons hp]
      exact (h.ok.prev s (by rw [hp]; simp)).2.2.1
  constructor <;> omega

theorem ReaderOk.run {parse : Parser α} {P : SBatch α → Prop} {Q : Nat → Prop} {c : Cfg}
    (hd : GoodDecoder parse c P Q) : ∀ (evs : List (Ev α)) (r : Replica α) (x : Reader α),
    ReaderOk r x → Bounded c r → (∀ b ∈ r.batches, P b.batch) → (∀ e ∈ evs, e.Good P) →
    (∀ e ∈ evs, e.Limit Q) → (Reader.run parse c (r, x) evs).1.leo < 2 ^ 63 →
    ReaderOk (Reader.run parse c (r, x) evs).1 (Reader.run parse c (r, x) evs).2 ∧
      Bounded c (Reader.run parse c (r, x) evs).1 ∧
      ∀ b ∈ (Reader.run parse c (r, x) evs).1.batches, P b.batch
  | [], _, _, h, hb, hP, _, _, _ => ⟨h, hb, hP⟩
  | .op o :: evs, r, x, h, hb, hP, hg, hl, hleo => by
    obtain ⟨h1, h2, h3⟩ := hg (.op o) (by simp)
    exact ReaderOk.run hd evs (r.step c o).1 x (h.op c o h1 h2).1 (hb.step o)
      (all_step h.ok hP c o h1 h3) (fun e he => hg e (by simp [he])) (fun e he => hl e (by simp [he]))
      hleo
  | .fetch n :: evs, r, x, h, hb, hP, hg, hl, hleo => by
    have hmono := Reader.run_leo (parse := parse) c evs (r, x.fetch parse r n) h.ok
      fun e he => hg e (by simp [he])
    have hr : r.leo < 2 ^ 63 := Int.lt_of_le_of_lt hmono hleo
    exact ReaderOk.run hd evs r _ (h.fetch' hd hb hr hP n (hl (.fetch n) (by simp))).1 hb hP
      (fun e he => hg e (by simp [he])) (fun e he => hl e (by simp [he])) hleo

/-- Enough fetches reach the end. -/
theorem ReaderOk.reaches {parse : Parser α} {P : SBatch α → Prop} {Q : Nat → Prop} {c : Cfg}
    (hd : GoodDecoder parse c P Q) {r : Replica α} (hb : Bounded c r) (hleo : r.leo < 2 ^ 63)
    (hP : ∀ b ∈ r.batches, P b.batch) (n : Nat) (hn : Q n) (hw : ∀ b ∈ r.batches, b.width ≤ n) :
    ∀ (k : Nat) (x : Reader α), ReaderOk r x → (r.leo - x.next).toNat ≤ k →
      ∃ y, Reader.run parse c (r, x) (List.replicate k (.fetch n)) = (r, y) ∧ ReaderOk r y ∧
        y.next = r.leo
  | 0, x, h, hk => ⟨x, rfl, h, by have := h.hi; omega⟩
  | k + 1, x, h, hk => by
    obtain ⟨h1, h2⟩ := h.fetch' hd hb hleo hP n hn
    refine ReaderOk.reaches hd hb hleo hP n hn hw k _ h1 ?_
    by_cases he : x.next < r.leo
    · have := h2 he hw; omega
    · have := h1.lo; have := h.hi
      have hx : x.next = r.leo := by omega
      have hf : x.fetch parse r n = x := by
        have hr := (h.ok.read_outside none n).1
        unfold Reader.fetch Replica.readPartition
        rw [hx, hr]
      rw [hf]; omega

end Verif.Storage
