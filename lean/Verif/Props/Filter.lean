import Verif.Stream.Filter
import Verif.Props.Stream

/-!
# C52: streams with a filter

`passing p l` (in `Verif.Stream.Filter`) are the values of `l` that pass; `Covered` and `FitsOut` are the
situations in which the server does not skip records.
-/

namespace Verif.Props
open Verif.Storage Verif.Wire Verif.Stream

variable {α : Type}

/-- The partition when the filtered stream is opened, at the beginning of a batch. -/
structure OpenedF (c : Cfg) (P : SBatch α → Prop) (ops : List (Op α)) (q : FReq α) : Prop where
  honest : ∀ op ∈ ops, op.Honest
  noTtl : ∀ op ∈ ops, ∀ e, op ≠ .cleanTtl e
  all : ∀ op ∈ ops, op.All P
  hw : (Replica.init.run c ops).1.hw ≤ (Replica.init.run c ops).1.leo
  start_nonneg : 0 ≤ q.start
  start_ge : (Replica.init.run c ops).1.logStart ≤ q.start
  start_le : q.start ≤ readEnd q.iso (Replica.init.run c ops).1
  start_at : ∀ b ∈ (Replica.init.run c ops).1.batches, b.base ≤ q.start → q.start ≤ b.last → b.base = q.start

/-- Every filter, every batch list: the stream delivers exactly the records that pass, once each and in
order, and resumes after the last processed batch (`next`): nothing that passes before `next` is missing,
nothing behind it was delivered; a fetch that does not move on has nothing more to read.  If everything
passes, records are delivered with the offsets at which they are stored.

Missing: with a filter that drops records the delivered offsets are wrong, see
`C52_violated_client_offset`; the restriction to covered fetches and outputs that fit is necessary, see
`C52_violated_skips_segment`, `C52_violated_oversized`; so is the start at a batch boundary, see
`C52_violated_start_inside_batch`. -/
theorem C52_filter_partial (rd : Bytes → List α) (c : Cfg) (hc : c.segMax < 2 ^ 32) (ops : List (Op α))
    (q : FReq α) (h : OpenedF c (fun b => RawBatch b ∧ ∀ e, rd (b.enc e) = b.records) ops q)
    (es : List (FEv α)) :
    let s0 := ((Replica.init.run c ops).1, (⟨q.start, []⟩ : Reader α))
    let s := frun rd c q s0 es
    FGood rd c (fun b => RawBatch b ∧ ∀ e, rd (b.enc e) = b.records) q s0 es → s.1.leo < 2 ^ 63 →
    q.start ≤ s.2.next ∧ s.2.next ≤ readEnd q.iso s.1 ∧
    (∀ b ∈ s.1.batches, b.base ≤ s.2.next → s.2.next ≤ b.last → b.base = s.2.next) ∧
    s.2.got.map (·.2) = passing q.p (s.1.pairs.filter fun p => decide (q.start ≤ p.1 ∧ p.1 < s.2.next)) ∧
    ((∀ v, q.p v = true) →
      s.2.got = s.1.pairs.filter fun p => decide (q.start ≤ p.1 ∧ p.1 < s.2.next)) ∧
    (Covered q s.1 s.2.next → FitsOut q s.1 → (Reader.fetchF rd q s.1 s.2).next = s.2.next →
      ∀ b ∈ s.1.batches, b.base ≤ s.2.next → s.2.next ≤ b.last → readEnd q.iso s.1 ≤ b.last) := by
  intro s0 s hg hleo
  have h0 : FilterOk c (fun b => RawBatch b ∧ ∀ e, rd (b.enc e) = b.records) q s0.1 s0.2 :=
    ⟨ReplicaOk.run c ops Replica.init ReplicaOk.init h.honest,
     Seamless.run c ops Replica.init ReplicaOk.init Seamless.init h.honest h.noTtl,
     Bounded.run c ops (Bounded.init c),
     all_run c ops Replica.init ReplicaOk.init (by intro b hb; cases hb) h.honest h.all,
     h.hw, h.start_nonneg, h.start_ge, Int.le_refl _, h.start_le, h.start_at,
     by show [] = passing q.p (between _ q.start q.start); rw [between_self]; rfl,
     fun _ => (between_self _ _).symm⟩
  have h1 := FilterOk.run hc (fun b hb => hb) es s0 h0 hg hleo
  exact ⟨h1.mid, h1.hi, h1.at_, h1.got, h1.exact, fun k1 k2 k3 => (h1.fetch hc (fun b hb => hb) hleo k1 k2).2.2 k3⟩

/-- The response's next offset: a batch list without gaps, each batch's output fits; whatever the filter,
the output are exactly the records passing in the leading batches `taken`, and the next offset is the one
after `taken`. -/
theorem C52_resume (p : α → Bool) (size : List (Int × α) → Nat) (max : Nat) (l : List (Stored α)) (a e : Int)
    (hch : Chain a l e) (h0 : 0 ≤ a)
    (hsz : ∀ b ∈ l, ∀ k : Int, size ((passed p b.batch.records).map fun q => (q.1 + k, q.2)) ≤ max) :
    let o := processBatch p size max (l.map Stored.view)
    ∃ taken rest, l = taken ++ rest ∧ o.recs.map (·.2) = passing p (taken.flatMap Stored.pairs) ∧
      (o.recs = [] → rest = []) ∧
      (o.recs ≠ [] → ∃ b, taken.getLast? = some b ∧ o.base + o.delta + 1 = b.last + 1) := by
  intro o
  obtain ⟨t, r, x, h1, h2, h3, h4, h5⟩ := processBatch_spec p size max l a e hch h0 hsz
  refine ⟨t, r, h1, h3, h4, fun hne => ?_⟩
  obtain ⟨k1, pre, b, post, k2, _⟩ := h5 hne
  have hn : t ≠ [] := by rw [k2]; simp
  have := h2.getLast hn
  obtain ⟨bl, hbl⟩ : ∃ bl, t.getLast? = some bl := ⟨_, List.getLast?_eq_some_getLast hn⟩
  rw [hbl] at this
  refine ⟨bl, hbl, ?_⟩
  rw [k1]
  simpa using this.symm

/-! Concrete cases: records are bytes. -/

def byteBatch (l : List UInt8) : SBatch UInt8 :=
  ofRaw ⟨0#64, 0#32, { BatchHeader.default with lastOffsetDelta := BitVec.ofNat 32 (l.length - 1) }, 0#32, l⟩ l

def byteRd : Bytes → List UInt8 := fun bs => bs.drop 57

def byteCfg : Cfg := ⟨130, 1000, 10000, ⟨50, 8⟩⟩

/-- passes bytes of at least 10 -/
def bigReq (start : Int) (max : Nat) : FReq UInt8 := ⟨.uncommitted, max, start, fun v => decide (10 ≤ v), List.length⟩

theorem covered_of_all {q : FReq α} {r : Replica α} (h : ∀ b ∈ r.batches, ∃ v ∈ b.batch.records, q.p v = true)
    (o : Int) : Covered q r o := by
  intro run bs hsl _
  obtain ⟨⟨pre, post, e1⟩, ⟨b, tl, e2, _⟩, _⟩ := hsl
  exact .inl ⟨b, by rw [e2]; simp, h b (by rw [e1, e2]; simp)⟩

theorem byteBatch_ok {l : List UInt8} (h : (l.length : Int) = (BitVec.ofNat 32 (l.length - 1)).toInt + 1)
    (h0 : l ≠ []) (h1 : l.length < 1000) :
    HonestBatch (byteBatch l) ∧ RawBatch (byteBatch l) ∧ ∀ e, byteRd ((byteBatch l).enc e) = (byteBatch l).records := by
  refine ⟨ofRaw_honest (show BatchHeader.default.hasSchema = false by decide) h h0, ⟨_, rfl, rfl, ?_⟩, fun e => ?_⟩
  · unfold calcBatchLen
    split
    · show 45 + l.length + 4 < 2 ^ 31; omega
    · show 45 + l.length < 2 ^ 31; omega
  · show (encBatch rawC _).drop 57 = l
    unfold encBatch batchBody
    simp only [← List.append_assoc]
    exact List.drop_left' (by simp [intEnc_length, BatchHeader.hasSchema, BatchHeader.default])

def filterOps : List (Op UInt8) := [Op.write [byteBatch [10, 1], byteBatch [2, 12]] true none]
def filterEvents : List (FEv UInt8) := [.fetch, .op (.write [byteBatch [13]] true none), .fetch]

theorem byte_ok1 : HonestBatch (byteBatch [10, 1]) ∧ RawBatch (byteBatch [10, 1]) ∧
    ∀ e, byteRd ((byteBatch [10, 1]).enc e) = (byteBatch [10, 1]).records :=
  byteBatch_ok (by decide) (by simp) (by decide)
theorem byte_ok2 : HonestBatch (byteBatch [2, 12]) ∧ RawBatch (byteBatch [2, 12]) ∧
    ∀ e, byteRd ((byteBatch [2, 12]).enc e) = (byteBatch [2, 12]).records :=
  byteBatch_ok (by decide) (by simp) (by decide)
theorem byte_ok3 : HonestBatch (byteBatch [13]) ∧ RawBatch (byteBatch [13]) ∧
    ∀ e, byteRd ((byteBatch [13]).enc e) = (byteBatch [13]).records :=
  byteBatch_ok (by decide) (by simp) (by decide)

/-- the hypotheses of `C52_filter_partial` for a stream during which a batch is written -/
example : OpenedF clientCfg (fun b => RawBatch b ∧ ∀ e, byteRd (b.enc e) = b.records) filterOps (bigReq 0 100) ∧
    FGood byteRd clientCfg (fun b => RawBatch b ∧ ∀ e, byteRd (b.enc e) = b.records) (bigReq 0 100)
      ((Replica.init.run clientCfg filterOps).1, ⟨0, []⟩) filterEvents ∧
    (frun byteRd clientCfg (bigReq 0 100) ((Replica.init.run clientCfg filterOps).1, ⟨0, []⟩)
      filterEvents).2.got.map (·.2) = [10, 12, 13] := by
  have hr : (Replica.init.run clientCfg filterOps).1.batches =
      [⟨0, byteBatch [10, 1]⟩, ⟨2, byteBatch [2, 12]⟩] := rfl
  have hr' : ((Replica.init.run clientCfg filterOps).1.step clientCfg (.write [byteBatch [13]] true none)).1.batches =
      [⟨0, byteBatch [10, 1]⟩, ⟨2, byteBatch [2, 12]⟩, ⟨4, byteBatch [13]⟩] := rfl
  refine ⟨⟨?_, ?_, ?_, by decide +kernel, by decide, by decide +kernel, by decide +kernel, ?_⟩,
    ⟨⟨covered_of_all ?_ _, ?_⟩, ?_, ⟨covered_of_all ?_ _, ?_⟩, trivial⟩, by decide +kernel⟩
  · intro op hop
    simp only [filterOps, List.mem_cons, List.not_mem_nil, or_false] at hop
    subst hop
    intro b hb
    simp only [List.mem_cons, List.not_mem_nil, or_false] at hb
    rcases hb with rfl | rfl
    · exact byte_ok1.1
    · exact byte_ok2.1
  · intro op hop e he
    simp only [filterOps, List.mem_cons, List.not_mem_nil, or_false] at hop
    rw [hop] at he; cases he
  · intro op hop
    simp only [filterOps, List.mem_cons, List.not_mem_nil, or_false] at hop
    subst hop
    intro b hb
    simp only [List.mem_cons, List.not_mem_nil, or_false] at hb
    rcases hb with rfl | rfl
    · exact byte_ok1.2
    · exact byte_ok2.2
  · intro b hb
    rw [hr] at hb
    simp only [List.mem_cons, List.not_mem_nil, or_false] at hb
    rcases hb with rfl | rfl
    · intros; rfl
    · intro h1 _
      exact absurd h1 (by show ¬ (2 : Int) ≤ 0; decide)
  · intro b hb
    change b ∈ (Replica.init.run clientCfg filterOps).1.batches at hb
    rw [hr] at hb
    simp only [List.mem_cons, List.not_mem_nil, or_false] at hb
    rcases hb with rfl | rfl
    · exact ⟨10, by decide, by decide⟩
    · exact ⟨12, by decide, by decide⟩
  · intro b hb k
    change b ∈ (Replica.init.run clientCfg filterOps).1.batches at hb
    rw [hr] at hb
    simp only [List.mem_cons, List.not_mem_nil, or_false] at hb
    show List.length _ ≤ 100
    rw [List.length_map]
    rcases hb with rfl | rfl <;> decide
  · intro b hb
    simp only [List.mem_cons, List.not_mem_nil, or_false] at hb
    subst hb
    exact ⟨byte_ok3.1, byte_ok3.2⟩
  · intro b hb
    change b ∈ ((Replica.init.run clientCfg filterOps).1.step clientCfg _).1.batches at hb
    rw [hr'] at hb
    simp only [List.mem_cons, List.not_mem_nil, or_false] at hb
    rcases hb with rfl | rfl | rfl
    · exact ⟨10, by decide, by decide⟩
    · exact ⟨12, by decide, by decide⟩
    · exact ⟨13, by decide, by decide⟩
  · intro b hb k
    change b ∈ ((Replica.init.run clientCfg filterOps).1.step clientCfg _).1.batches at hb
    rw [hr'] at hb
    simp only [List.mem_cons, List.not_mem_nil, or_false] at hb
    show List.length _ ≤ 100
    rw [List.length_map]
    rcases hb with rfl | rfl | rfl <;> decide

example : let r := (Replica.init.run clientCfg [Op.write [byteBatch [10, 11, 1], byteBatch [2, 12]] true none]).1
    (Reader.fetchF byteRd (bigReq 0 100) r ⟨0, []⟩).got.map (·.2) = [10, 11, 12] ∧
    (Reader.fetchF byteRd (bigReq 0 100) r ⟨0, []⟩).next = 5 ∧
    -- a limit of two records: the second batch comes with the next response
    (Reader.fetchF byteRd (bigReq 0 2) r ⟨0, []⟩).got.map (·.2) = [10, 11] ∧
    (Reader.fetchF byteRd (bigReq 0 2) r ⟨0, []⟩).next = 3 := by decide +kernel

/-- C52 fails: a record is delivered with a smaller offset than the one at which it is stored. -/
theorem C52_violated_client_offset :
    let r := (Replica.init.run clientCfg [Op.write [byteBatch [1, 10]] true none]).1
    r.pairs = [(0, 1), (1, 10)] ∧ (Reader.fetchF byteRd (bigReq 0 100) r ⟨0, []⟩).got = [(0, 10)] := by
  decide +kernel

/-- The offset deltas written into the records are wrong as well, from the second batch on: the difference
of the base offsets is taken with the wrong sign. -/
theorem C52_violated_offset_delta :
    (processBatch (fun _ => true) List.length 100
      [⟨0, 1, [10, 11]⟩, ⟨2, 1, [12, 13]⟩] : SmOut Nat).recs = [(0, 10), (1, 11), (-2, 12), (-1, 13)] := by
  decide

/-- When no record of a segment passes, the stream goes on at the end of the partition: what passes in the
later segments is never delivered. -/
theorem C52_violated_skips_segment :
    let r := (Replica.init.run byteCfg
      [Op.write [byteBatch [1, 2], byteBatch [3, 4], byteBatch [10, 11]] true none]).1
    let x := Reader.fetchF byteRd (bigReq 0 100) r ⟨0, []⟩
    r.leo = 6 ∧ r.prev.length = 1 ∧ x.got = [] ∧ x.next = 6 := by decide +kernel

/-- The same when the output of the first batch does not fit into `max_bytes`. -/
theorem C52_violated_oversized :
    let r := (Replica.init.run clientCfg [Op.write [byteBatch [10, 11], byteBatch [12]] true none]).1
    let x := Reader.fetchF byteRd (bigReq 0 1) r ⟨0, []⟩
    r.leo = 3 ∧ x.got = [] ∧ x.next = 3 := by decide +kernel

/-- With a start inside a batch the wrong offsets make the client drop records that pass: record 2 is
stored behind the start, passes, and is not delivered. -/
theorem C52_violated_start_inside_batch :
    let r := (Replica.init.run clientCfg [Op.write [byteBatch [1, 2, 10]] true none]).1
    let x := Reader.fetchF byteRd (bigReq 1 100) r ⟨1, []⟩
    r.pairs = [(0, 1), (1, 2), (2, 10)] ∧ x.got = [] ∧ x.next = 3 := by decide +kernel

end Verif.Props
