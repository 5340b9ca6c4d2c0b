import Verif.Storage.Reader
import Verif.Replication.Hw

/-
A follower (or mirror) storing the bytes the leader sent: the step `Follower.receive` of
`Verif.Replication.Protocol` on the storage of `Verif.Storage`.
-/

namespace Verif.Replication
open Verif.Storage Verif.Wire

variable {α : Type}

/-- `total_records`, `records_len` (crates/fluvio-protocol/src/record/data.rs:289-294,
batch.rs:145-151). -/
def totalRecords (bs : List (Batch Bytes)) : Nat :=
  (bs.map fun b => if b.header.lastOffsetDelta.toInt < 0 then 0
    else (b.header.lastOffsetDelta.toInt + 1).toNat).sum

/-- `base_offset` (data.rs:297-302). -/
def baseOffset : List (Batch Bytes) → Int
  | [] => -1
  | b :: _ => b.baseOffset.toInt

/-- A received raw batch as the storage sees it; `rd` is what a consumer reads out of encoded bytes. -/
def stored (rd : Bytes → List α) (b : Batch Bytes) : SBatch α := ofRaw b (rd (encBatch rawC b))

/-- `update_from_leader` without the watermark part (crates/fluvio-spu/src/replication/follower/state.rs:208-220,
248-262): the record set is decoded from the bytes of the message (data.rs:305-356), and written if it
starts at the end of the log.  `append_record_set` of mirrors does the same
(leader/replica_state.rs:448-469). -/
def receiveBytes (c : Cfg) (rd : Bytes → List α) (r : Replica α) (bytes : Bytes) (f : Option Nat) :
    Replica α × Except StErr Bool :=
  match decBatches rawC bytes.length bytes with
  | .error _ => (r, .error .other)
  | .ok (bs, _) =>
    if totalRecords bs > 0 ∧ baseOffset bs = r.leo then
      match r.write c (bs.map (stored rd)) false f with
      | (r', .ok _) => (r', .ok true)
      | (r', .error e) => (r', .error e)
    else (r, .ok false)

/-- A stored batch of the leader that came in as a raw batch without schema id. -/
def Plain (rd : Bytes → List α) (b : Stored α) : Prop :=
  ∃ raw : Batch Bytes, b.batch = ofRaw raw b.batch.records ∧ raw.header.hasSchema = false ∧
    (∀ e, rd (b.batch.enc e) = b.batch.records) ∧ calcBatchLen rawC raw < 2 ^ 31 ∧
    HonestBatch b.batch ∧ Fits64 b.base

theorem encBatch_asWritten {b : Batch Bytes} (x : BitVec 64) :
    encBatch rawC { asWritten rawC b with baseOffset := x } = encBatch rawC { b with baseOffset := x } := by
  have hb : batchBody rawC { asWritten rawC b with baseOffset := x } =
      batchBody rawC { b with baseOffset := x } := by
    unfold batchBody asWritten BatchHeader.hasSchema
    dsimp only
    split <;> rfl
  unfold encBatch
  rw [hb]
  rfl

theorem stored_asWritten (rd : Bytes → List α) (b : Batch Bytes) (recs : List α)
    (h : rd (encBatch rawC b) = recs) : stored rd (asWritten rawC b) = ofRaw b recs := by
  have he : encBatch rawC (asWritten rawC b) = encBatch rawC b := encBatch_asWritten (b := b) b.baseOffset
  unfold stored
  rw [he, h]
  have hf : (fun base : Int => encBatch rawC { asWritten rawC b with baseOffset := BitVec.ofInt 64 base })
      = fun base => encBatch rawC { b with baseOffset := BitVec.ofInt 64 base } :=
    funext fun e => encBatch_asWritten (b := b) (BitVec.ofInt 64 e)
  unfold ofRaw
  rw [hf]
  rfl

/-- The raw batches behind stored ones. -/
theorem plain_raws {rd : Bytes → List α} : ∀ {l : List (Stored α)}, (∀ b ∈ l, Plain rd b) →
    ∃ raws : List (Batch Bytes), content l = raws.flatMap (encBatch rawC) ∧
      (∀ b ∈ raws, calcBatchLen rawC b < 2 ^ 31) ∧
      raws.map (fun b => stored rd (asWritten rawC b)) = l.map Stored.batch ∧
      raws.map (fun b => b.header.lastOffsetDelta.toInt) = l.map (fun b => b.batch.delta) ∧
      raws.map (fun b => b.baseOffset.toInt) = l.map Stored.base
  | [], _ => ⟨[], rfl, by simp, rfl, rfl, rfl⟩
  | b :: l, h => by
    obtain ⟨raws, e1, e2, e3, e4, e5⟩ := plain_raws (l := l) fun x hx => h x (by simp [hx])
    obtain ⟨raw, h1, h2, h3, h4, h5, h6⟩ := h b (by simp)
    let raw' : Batch Bytes := { raw with baseOffset := BitVec.ofInt 64 b.base }
    have hbytes : b.bytes = encBatch rawC raw' := by
      unfold Stored.bytes
      rw [h1]
      rfl
    refine ⟨raw' :: raws, ?_, ?_, ?_, ?_, ?_⟩
    · show b.bytes ++ content l = _
      rw [e1, hbytes]
      rfl
    · intro x hx
      rcases List.mem_cons.1 hx with rfl | hx
      · exact h4
      · exact e2 x hx
    · simp only [List.map_cons, e3]
      congr 1
      rw [stored_asWritten rd raw' b.batch.records]
      · rw [h1]; rfl
      · rw [← hbytes]; exact h3 b.base
    · simp only [List.map_cons, e4]
      congr 1
      rw [h1]; rfl
    · simp only [List.map_cons, e5]
      congr 1
      exact ofInt64_toInt h6

theorem place_chain : ∀ {l : List (Stored α)} {a e : Int}, Chain a l e →
    (∀ b ∈ l, HonestBatch b.batch) → place a (l.map Stored.batch) = l
  | [], _, _, _, _ => rfl
  | b :: l, a, e, hc, hh => by
    obtain ⟨h1, h2, h3⟩ := hc
    have hb := hh b (by simp)
    unfold Stored.last at h3
    have ih := place_chain h3 fun x hx => hh x (by simp [hx])
    show place a (b.batch :: l.map Stored.batch) = _
    unfold place
    have : a + (b.batch.records.length : Int) = b.base + b.batch.delta + 1 := by
      rw [hb.2.1, h1]; omega
    rw [this, ih, ← h1]

theorem chain_recordCount : ∀ {l : List (Stored α)} {a e : Int}, Chain a l e →
    (∀ b ∈ l, HonestBatch b.batch) → a + (recordCount (l.map Stored.batch) : Int) = e
  | [], a, e, hc, _ => by
    have : a = e := hc
    simp [recordCount, this]
  | b :: l, a, e, hc, hh => by
    obtain ⟨h1, h2, h3⟩ := hc
    have hb := hh b (by simp)
    have ih := chain_recordCount h3 fun x hx => hh x (by simp [hx])
    unfold Stored.last at ih
    unfold recordCount at ih ⊢
    simp only [List.map_cons, List.sum_cons, Int.natCast_add]
    rw [hb.2.1]
    omega

theorem totalRecords_pos {raws : List (Batch Bytes)} {b : Stored α}
    {l : List (Stored α)} (hb : 0 ≤ b.batch.delta)
    (h : raws.map (fun b => b.header.lastOffsetDelta.toInt) = (b :: l).map (fun b => b.batch.delta)) :
    0 < totalRecords (raws.map (asWritten rawC)) := by
  cases raws with
  | nil => simp at h
  | cons x raws =>
    simp only [List.map_cons, List.cons.injEq] at h
    unfold totalRecords
    simp only [List.map_cons, List.sum_cons]
    have : (asWritten rawC x).header.lastOffsetDelta = x.header.lastOffsetDelta := rfl
    rw [this, h.1, if_neg (by omega)]
    omega

/-- Whole batches copied from the leader at the end of the follower's log arrive byte for byte at the
same offsets; if the write fails on the way, a leading part of them. -/
theorem receiveBytes_whole (c : Cfg) {rd : Bytes → List α} {r : Replica α} (hr : ReplicaOk r)
    {l : List (Stored α)} (hne : l ≠ []) {e : Int} (hc : Chain r.leo l e)
    (hp : ∀ b ∈ l, Plain rd b) (f : Option Nat) :
    ReplicaOk (receiveBytes c rd r (content l) f).1 ∧
    ∃ k, (receiveBytes c rd r (content l) f).1.batches = r.batches ++ l.take k ∧
      Chain r.leo (l.take k) (receiveBytes c rd r (content l) f).1.leo ∧
      (((receiveBytes c rd r (content l) f).2 = .ok true ∧ k = l.length ∧
          (receiveBytes c rd r (content l) f).1.leo = e) ∨
        ∃ x, (receiveBytes c rd r (content l) f).2 = .error x) := by
  obtain ⟨raws, e1, e2, e3, e4, e5⟩ := plain_raws hp
  have hhon : ∀ b ∈ l, HonestBatch b.batch := fun b hb => by
    obtain ⟨_, _, _, _, _, h, _⟩ := hp b hb; exact h
  have hdec : decBatches rawC (content l).length (content l) = .ok (raws.map (asWritten rawC), []) := by
    rw [e1]
    exact decBatches_enc rawC_law raws _ (fun _ _ => trivial) e2 (Nat.le_refl _)
  have hset : (raws.map (asWritten rawC)).map (stored rd) = l.map Stored.batch := by
    rw [List.map_map]; exact e3
  have hbase : baseOffset (raws.map (asWritten rawC)) = r.leo := by
    cases l with
    | nil => exact absurd rfl hne
    | cons b l =>
      cases raws with
      | nil => simp at e5
      | cons x raws =>
        simp only [List.map_cons, List.cons.injEq] at e5
        show x.baseOffset.toInt = _
        rw [e5.1]
        exact hc.1
  have htot : 0 < totalRecords (raws.map (asWritten rawC)) := by
    cases l with
    | nil => exact absurd rfl hne
    | cons b l => exact totalRecords_pos hc.2.1 e4
  have hres : receiveBytes c rd r (content l) f =
      (match r.write c (l.map Stored.batch) false f with
        | (r', .ok _) => (r', .ok true)
        | (r', .error e) => (r', .error e)) := by
    unfold receiveBytes
    rw [hdec]
    dsimp only
    rw [if_pos ⟨htot, hbase⟩, hset]
  have hset' : ∀ b ∈ l.map Stored.batch, HonestBatch b := by
    intro b hb
    obtain ⟨x, hx, rfl⟩ := List.mem_map.1 hb
    exact hhon x hx
  obtain ⟨w1, dn, rest, w2, w3, w4, w5⟩ := write_spec c hr (l.map Stored.batch) false f hset'
  have hplace : place r.leo dn = l.take dn.length := by
    have h1 := place_chain hc hhon
    have hd : dn = (l.take dn.length).map Stored.batch := by
      rw [List.map_take, w2, List.take_left' rfl]
    have hsplit : ∀ (xs ys : List (SBatch α)) (a : Int), (place a (xs ++ ys)).take xs.length = place a xs := by
      intro xs ys
      induction xs with
      | nil => intro a; rfl
      | cons x xs ih => intro a; simp only [List.cons_append, place, List.length_cons, List.take_succ_cons, ih]
    rw [w2] at h1
    rw [← hsplit dn rest r.leo, h1]
  have hchain : Chain r.leo (l.take dn.length) (r.leo + recordCount dn) := by
    have hd : dn = (l.take dn.length).map Stored.batch := by
      rw [List.map_take, w2, List.take_left' rfl]
    have h0 := hc
    rw [← List.take_append_drop dn.length l] at h0
    obtain ⟨x, h1, _⟩ := h0.split
    have h2 := chain_recordCount h1 fun b hb => hhon b (List.mem_of_mem_take hb)
    rw [← hd] at h2
    rw [h2]
    exact h1
  rw [hres]
  rcases w5 with ⟨x, hx, _⟩ | ⟨hok, hrest, _⟩
  · have hpair : r.write c (l.map Stored.batch) false f =
        ((r.write c (l.map Stored.batch) false f).1, .error x) := by rw [← hx]
    rw [hpair]
    exact ⟨w1, dn.length, by rw [w3, hplace], by rw [w4]; exact hchain, .inr ⟨x, rfl⟩⟩
  · have hpair : r.write c (l.map Stored.batch) false f =
        ((r.write c (l.map Stored.batch) false f).1,
          .ok (r.leo, r.leo + recordCount dn, ((l.map Stored.batch).map SBatch.size).sum)) := by
      rw [← hok]
    rw [hpair]
    subst hrest
    rw [List.append_nil] at w2
    refine ⟨w1, dn.length, by rw [w3, hplace], by rw [w4]; exact hchain, .inl ⟨rfl, ?_, ?_⟩⟩
    · rw [← w2, List.length_map]
    · rw [w4, ← w2]
      exact chain_recordCount hc hhon

/-- Two places of a batch with the same offset are the same. -/
theorem chain_split_unique : ∀ {A A' B B' : List (Stored α)} {x x' : Stored α} {a e : Int},
    Chain a (A ++ x :: B) e → A ++ x :: B = A' ++ x' :: B' → x.base = x'.base → A = A'
  | [], [], _, _, _, _, _, _, _, _, _ => rfl
  | [], y :: A', B, B', x, x', a, e, hc, he, hx => by
    simp only [List.nil_append, List.cons_append, List.cons.injEq] at he
    obtain ⟨h1, h2, h3⟩ := hc
    have : x' ∈ B := by rw [he.2]; simp
    have := h3.mem this
    unfold Stored.last at this
    omega
  | y :: A, [], B, B', x, x', a, e, hc, he, hx => by
    simp only [List.nil_append, List.cons_append, List.cons.injEq] at he
    obtain ⟨h1, h2, h3⟩ := hc
    have hm : x ∈ A ++ x :: B := by simp
    have := Chain.mem (show Chain (y.last + 1) (A ++ x :: B) e from h3) hm
    unfold Stored.last at this
    rw [he.1] at *
    omega
  | y :: A, y' :: A', B, B', x, x', a, e, hc, he, hx => by
    simp only [List.cons_append, List.cons.injEq] at he
    obtain ⟨h1, h2, h3⟩ := hc
    rw [he.1, chain_split_unique h3 he.2 hx]

/-- One exchange on the storages: the leader reads from the follower's end with a limit that cuts
nothing, the follower stores what it gets. -/
theorem copy_step {c cf : Cfg} {rd : Bytes → List α} {lead g : Replica α} (hl : ReplicaOk lead)
    (hb : Bounded c lead) (hs : Seamless lead) (hp : ∀ b ∈ lead.batches, Plain rd b)
    (hg : ReplicaOk g) (hpre : g.batches <+: lead.batches)
    (hgc : Chain lead.logStart g.batches g.leo) (hlt : g.leo < lead.leo) {n : Nat}
    (hn : c.segMax ≤ n) (f : Option Nat) :
    ∃ res bytes, lead.readPartition g.leo n .uncommitted = .ok res ∧ res.data = some bytes ∧
      ReplicaOk (receiveBytes cf rd g bytes f).1 ∧
      (receiveBytes cf rd g bytes f).1.batches <+: lead.batches ∧
      g.batches <+: (receiveBytes cf rd g bytes f).1.batches ∧
      Chain lead.logStart (receiveBytes cf rd g bytes f).1.batches
        (receiveBytes cf rd g bytes f).1.leo ∧
      (((receiveBytes cf rd g bytes f).2 = .ok true ∧ g.leo < (receiveBytes cf rd g bytes f).1.leo) ∨
        ∃ x, (receiveBytes cf rd g bytes f).2 = .error x) := by
  obtain ⟨rest, hrest⟩ := hpre
  have hchain : Chain lead.logStart lead.batches lead.leo := hs
  have hrc : Chain g.leo rest lead.leo := by
    have := hchain
    rw [← hrest] at this
    obtain ⟨x, h1, h2⟩ := this.split
    have e1 := Chain.pairs hgc fun b hb => by
      obtain ⟨_, _, _, _, _, h, _⟩ := hp b (by rw [← hrest]; simp [hb]); exact h
    have e2 := Chain.pairs h1 fun b hb => by
      obtain ⟨_, _, _, _, _, h, _⟩ := hp b (by rw [← hrest]; simp [hb]); exact h
    have : x = g.leo := by rw [e1.2, e2.2]
    rwa [this] at h2
  cases rest with
  | nil =>
    have : g.leo = lead.leo := hrc
    omega
  | cons b rest =>
    have hbm : b ∈ lead.batches := by rw [← hrest]; simp
    have hbb : b.base = g.leo := hrc.1
    have hbl : b.base ≤ b.last := by have := hrc.2.1; unfold Stored.last; omega
    obtain ⟨pre, run, post, h1, h2, h3⟩ := hl.read_stored_width hbm (Int.le_refl _) hbl n
    have hw := h3 c hb
    have hpe : pre = g.batches := by
      have hc' := hchain
      rw [h1, List.append_assoc] at hc'
      refine chain_split_unique (B := run ++ post) (B' := rest) (x := b) (x' := b) (a := lead.logStart)
        (e := lead.leo) ?_ ?_ rfl
      · simpa using hc'
      · rw [hrest, h1]; simp
    subst hpe
    have htake : (content (b :: run)).take n = content (b :: run) := by
      apply List.take_of_length_le
      rw [content_length]
      omega
    have hcut : b :: rest = (b :: run) ++ post := by
      have := hrest.trans h1
      rw [List.append_assoc] at this
      exact List.append_cancel_left this
    obtain ⟨y, hy1, hy2⟩ := Chain.split (show Chain g.leo ((b :: run) ++ post) lead.leo by rw [← hcut]; exact hrc)
    obtain ⟨q1, k, q2, q3, q4⟩ := receiveBytes_whole cf (rd := rd) hg (l := b :: run) (by simp) hy1
      (fun x hx => hp x (by
        rw [h1, List.append_assoc]
        exact List.mem_append_right _ (List.mem_append_left _ hx))) f
    rw [htake] at h2
    refine ⟨⟨lead.logStart, lead.hw, lead.leo, some (content (b :: run))⟩, content (b :: run), ?_, rfl,
      q1, ?_, ?_, ?_, ?_⟩
    · show lead.read g.leo none n = _
      rw [← hbb]
      exact h2
    · rw [q2, h1, List.append_assoc]
      refine ⟨(b :: run).drop k ++ post, ?_⟩
      rw [List.append_assoc, ← List.append_assoc ((b :: run).take k), List.take_append_drop]
    · rw [q2]; exact ⟨_, rfl⟩
    · rw [q2]; exact hgc.append q3
    · rcases q4 with ⟨r1, r2, r3⟩ | hx
      · left
        refine ⟨r1, ?_⟩
        rw [r3]
        have := hy1.mem (b := b) (by simp)
        omega
      · exact .inr hx

end Verif.Replication
