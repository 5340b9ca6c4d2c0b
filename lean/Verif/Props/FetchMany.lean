import Verif.Broker.FetchMany
import Verif.Props.Fetch

/-!
# C98 A request about many partitions is answered for each of them

The broker starts with no partitions, anything may happen before the request (`es0`) and between looking at one
partition and the next (`sched`).
-/

namespace Verif.Props

open Verif.Storage Verif.Broker.FetchMany Verif.Wire

variable {α : Type}

/-- The broker after a history. -/
def C98.broker (c : Cfg) (es : List (BEv α)) : Broker α := Broker.run c (fun _ => none) es

/-- Histories in which brokers write batches as they come from the wire. -/
def C98.Honest (es : List (BEv α)) : Prop := ∀ k o, .op k o ∈ es → o.Honest

/-- Specification: `a` answers the question for partition `p` of `topic` in the state `b`: the error for a partition
that the broker does not lead; otherwise watermark and start of that partition's log, and bytes of its batches. -/
structure C98_Answers (b : Broker α) (maxBytes : Nat) (iso : Isolation) (topic : Text) (p : PartReq) (a : PartResp) : Prop where
  other : b (topic, p.index) = none → a = ⟨p.index, some .notLeader, 0, 0, []⟩
  range : ∀ r, b (topic, p.index) = some r → a.error = none → a.hw = r.hw ∧ a.logStart = r.logStart
  size : a.records.length ≤ maxBytes
  /-- an offset the partition does not have yet, or no longer has, is an error -/
  behind : ∀ r, b (topic, p.index) = some r → r.leo < p.offset ∨ p.offset < r.logStart →
    a.error ≠ none ∧ a.records = []
  atEnd : ∀ r, b (topic, p.index) = some r → p.offset = r.leo → a.error = none ∧ a.records = []
  /-- for an offset that is stored (and committed, if asked for committed records), the bytes are consecutive batches of
  the partition, the first of which contains the offset, cut only by the limit; if asked so, all are committed -/
  stored : ∀ r, b (topic, p.index) = some r → ∀ x ∈ r.batches, x.base ≤ p.offset →
    p.offset < x.base + x.batch.records.length →
    (iso = .committed → x.base + x.batch.records.length ≤ r.hw) →
    a.error = none ∧ ∃ pre run post, r.batches = pre ++ (x :: run) ++ post ∧
      a.records = ((x :: run).flatMap Stored.bytes).take maxBytes ∧
      (iso = .committed → ∀ y ∈ x :: run, y.base + y.batch.records.length ≤ r.hw)

theorem C98.size {r : Replica α} {o : Int} {m : Option Int} {n : Nat} {x : ReadRes} {d : Bytes} (h : r.read o m n = .ok x)
    (hd : x.data = some d) : d.length ≤ n := by
  have hb : ∀ (s : Segment α) (pos len : Nat), (s.bytesAt pos (min len n)).length ≤ n := by
    intro s pos len
    unfold Segment.bytesAt
    rw [List.length_take]
    omega
  unfold Replica.read at h
  dsimp only at h
  split at h
  · split at h
    · injection h with h; subst h; cases hd
    · split at h
      · cases h
      · split at h
        · cases h
        · cases h
        · injection h with h; subst h
          injection hd with hd; subst hd
          exact hb _ _ _
  · split at h
    · cases h
    · split at h
      · cases h
      · cases h
      · injection h with h; subst h
        injection hd with hd; subst hd
        exact hb _ _ _

theorem C98.read_range {r : Replica α} {o : Int} {m : Option Int} {n : Nat} {x : ReadRes} (h : r.read o m n = .ok x) :
    x.hw = r.hw ∧ x.start = r.logStart := by
  unfold Replica.read at h
  dsimp only at h
  split at h
  · split at h
    · injection h with h; subst h; exact ⟨rfl, rfl⟩
    · split at h
      · cases h
      · split at h
        · cases h
        · cases h
        · injection h with h; subst h; exact ⟨rfl, rfl⟩
  · split at h
    · cases h
    · split at h
      · cases h
      · cases h
      · injection h with h; subst h; exact ⟨rfl, rfl⟩

theorem C98.records (c : Cfg) (hc : c.segMax < 2 ^ 32) (b : Broker α) (hb : History c b Op.Honest) (q : FetchReq)
    (topic : Text) (p : PartReq) (r : Replica α) (hr : b (topic, p.index) = some r) (x : Stored α)
    (hx : x ∈ r.batches) (h1 : x.base ≤ p.offset) (h2 : p.offset < x.base + x.batch.records.length)
    (h3 : q.isolation = .committed → x.base + x.batch.records.length ≤ r.hw) :
    (fetchPart b q topic p).error = none ∧
    ∃ pre run post, r.batches = pre ++ (x :: run) ++ post ∧
      (fetchPart b q topic p).records = ((x :: run).flatMap Stored.bytes).take (asU32 q.maxBytes) ∧
      (q.isolation = .committed → ∀ y ∈ x :: run, y.base + y.batch.records.length ≤ r.hw) := by
  obtain ⟨ops, ho, hro⟩ := hb _ _ hr
  subst hro
  cases hi : q.isolation with
  | committed =>
    obtain ⟨pre, run, post, res, e1, e2, e3, e4⟩ :=
      C11_fetch_committed c ops ho hc x hx p.offset (asU32 q.maxBytes) h1 h2 (h3 hi)
    have hf : fetchPart b q topic p = ⟨p.index, none, res.hw, res.start, res.data.getD []⟩ := by
      simp only [fetchPart, hr, hi, e3]
      rw [e4]; rfl
    rw [hf]
    refine ⟨rfl, pre, run, post, e1, ?_, fun _ => e2⟩
    rw [e4]; rfl
  | uncommitted =>
    obtain ⟨pre, run, post, res, e1, e3, e4⟩ :=
      C11_fetch_stored c ops ho x hx p.offset (asU32 q.maxBytes) h1 h2
    have hf : fetchPart b q topic p = ⟨p.index, none, res.hw, res.start, res.data.getD []⟩ := by
      simp only [fetchPart, hr, hi, e3]
      rw [e4]; rfl
    rw [hf]
    refine ⟨rfl, pre, run, post, e1, ?_, fun h => by cases h⟩
    rw [e4]; rfl

theorem C98.answers (c : Cfg) (hc : c.segMax < 2 ^ 32) (b : Broker α) (hb : History c b Op.Honest) (q : FetchReq) (topic : Text) (p : PartReq) :
    C98_Answers b (asU32 q.maxBytes) q.isolation topic p (fetchPart b q topic p) := by
  have hrec := C98.records c hc b hb q topic p
  cases hk : b (topic, p.index) with
  | none =>
    have he : fetchPart b q topic p = ⟨p.index, some .notLeader, 0, 0, []⟩ := by
      simp only [fetchPart, hk]
    rw [he]
    refine ⟨fun _ => rfl, ?_, Nat.zero_le _, ?_, ?_, ?_⟩ <;> (intro r hr; rw [hk] at hr; cases hr)
  | some r =>
    obtain ⟨ops, ho, hr⟩ := hb _ _ hk
    obtain ⟨⟨res, h1, h1d⟩, h2, h3⟩ := C11_outside c ops ho (asU32 q.maxBytes) q.isolation
    rw [← hr] at h1 h2 h3
    have hread : ∀ x, r.readPartition p.offset (asU32 q.maxBytes) q.isolation = .ok x →
        ∃ m, r.read p.offset m (asU32 q.maxBytes) = .ok x := by
      intro x hx
      cases hi : q.isolation with
      | committed => rw [hi] at hx; exact ⟨_, hx⟩
      | uncommitted => rw [hi] at hx; exact ⟨_, hx⟩
    cases hx : r.readPartition p.offset (asU32 q.maxBytes) q.isolation with
    | error e =>
      have he : fetchPart b q topic p = ⟨p.index, some (.storage e), 0, 0, []⟩ := by
        simp only [fetchPart, hk, hx]
      rw [he] at hrec ⊢
      refine ⟨fun h => (by rw [hk] at h; cases h), fun _ _ h => (by cases h), Nat.zero_le _,
        fun _ _ _ => ⟨fun h => (by cases h), rfl⟩, ?_, hrec⟩
      intro r' hr' hoff
      rw [hk] at hr'
      injection hr' with hr'
      subst hr'
      rw [hoff, h1] at hx
      cases hx
    | ok x =>
      obtain ⟨m, hm⟩ := hread x hx
      have hrg := C98.read_range hm
      have he : fetchPart b q topic p = ⟨p.index, none, x.hw, x.start, x.data.getD []⟩ := by
        simp only [fetchPart, hk, hx]
        cases x.data <;> rfl
      rw [he] at hrec ⊢
      refine ⟨fun h => (by rw [hk] at h; cases h), ?_, ?_, ?_, ?_, hrec⟩
      · intro r' hr' _
        rw [hk] at hr'
        injection hr' with hr'
        subst hr'
        exact hrg
      · cases hd : x.data with
        | none => exact Nat.zero_le _
        | some d => exact C98.size hm hd
      · intro r' hr' hoff
        rw [hk] at hr'
        injection hr' with hr'
        subst hr'
        rcases hoff with hoff | hoff
        · obtain ⟨e, he⟩ := h2 _ hoff
          rw [he] at hx; cases hx
        · rw [h3 _ hoff] at hx; cases hx
      · intro r' hr' hoff
        rw [hk] at hr'
        injection hr' with hr'
        subst hr'
        rw [hoff, h1] at hx
        injection hx with hx
        subst hx
        exact ⟨rfl, by rw [h1d]; rfl⟩

/-- **C98, fetch.**  Whatever happens meanwhile, the response has the topics and partitions of the request in the same
order, and each partition is answered as it was at some moment while the request was handled. -/
theorem C98_fetch_partial (c : Cfg) (hc : c.segMax < 2 ^ 32) (es0 : List (BEv α)) (sched : List (List (BEv α))) (h0 : C98.Honest es0)
    (hs : C98.Honest sched.flatten) (q : FetchReq) :
    (fetch c (C98.broker c es0) sched q).map (fun t => (t.name, t.parts.map (·.index)))
      = q.topics.map (fun t => (t.name, t.parts.map (·.index))) ∧
    ∀ (i : Nat) (t : TopicReq), q.topics[i]? = some t → ∀ (j : Nat) (p : PartReq), t.parts[j]? = some p →
      ∃ rt a es, (fetch c (C98.broker c es0) sched q)[i]? = some rt ∧ rt.parts[j]? = some a ∧ es <+: sched.flatten ∧
        C98_Answers (C98.broker c (es0 ++ es)) (asU32 q.maxBytes) q.isolation t.name p a := by
  obtain ⟨h1, h2⟩ := fetchTopics_spec c q q.topics (C98.broker c es0) sched
  refine ⟨h1, fun i t ht j p hp => ?_⟩
  obtain ⟨rt, a, es, hrt, ha, hpre, hae⟩ := h2 i t ht j p hp
  refine ⟨rt, a, es, hrt, ha, hpre, ?_⟩
  rw [hae]
  have hb : History c (C98.broker c (es0 ++ es)) (Op.Honest (α := α)) := by
    refine History.run _ (fun k r hr => by cases hr) (fun k o ho => ?_)
    rcases List.mem_append.mp ho with ho | ho
    · exact h0 k o ho
    · exact hs k o (hpre.subset ho)
  have he : (C98.broker c es0).run c es = C98.broker c (es0 ++ es) := (Broker.run_append c es0 es _).symm
  rw [he]
  exact C98.answers c hc _ hb q t.name p

/-- Specification of an answer about offsets; `stored` as in the model: what is known of the consumer in the request. -/
def C98_Offsets (b : Broker α) (stored : Option (Key → Option (Option Int))) (topic : Text) (p : Nat) (a : OffPart) :
    Prop :=
  (b (topic, p) = none → a.error = some .notLeader) ∧
  ∀ r, b (topic, p) = some r → a.stable = r.hw ∧
    match stored with
    | none => a.error = none ∧ a.start = r.logStart
    | some f =>
      (∀ o, f (topic, p) = some (some o) → a.error = none ∧ a.start = o + 1) ∧
      (f (topic, p) = some none → a.error = none ∧ a.start = r.logStart) ∧
      (f (topic, p) = none → a.error = some .consumer)

/-- **C98, offsets.**  The same for requests for the offsets of partitions: start of the log and watermark, or for a
consumer the offset behind the one stored. -/
theorem C98_offsets (c : Cfg) (es0 : List (BEv α)) (sched : List (List (BEv α)))
    (stored : Option (Key → Option (Option Int))) (ts : List OffTopicReq) :
    (offsets c stored (C98.broker c es0) sched ts).map (fun t => (t.name, t.parts.map (·.index)))
      = ts.map (fun t => (t.name, t.parts)) ∧
    ∀ (i : Nat) (t : OffTopicReq), ts[i]? = some t → ∀ (j : Nat) (p : Nat), t.parts[j]? = some p →
      ∃ rt a es, (offsets c stored (C98.broker c es0) sched ts)[i]? = some rt ∧ rt.parts[j]? = some a ∧
        es <+: sched.flatten ∧ C98_Offsets (C98.broker c (es0 ++ es)) stored t.name p a := by
  obtain ⟨h1, h2⟩ := offsets_spec c stored ts (C98.broker c es0) sched
  refine ⟨h1, fun i t ht j p hp => ?_⟩
  obtain ⟨rt, a, es, hrt, ha, hpre, hae⟩ := h2 i t ht j p hp
  refine ⟨rt, a, es, hrt, ha, hpre, ?_⟩
  have he : (C98.broker c es0).run c es = C98.broker c (es0 ++ es) := (Broker.run_append c es0 es _).symm
  rw [hae, he]
  generalize C98.broker c (es0 ++ es) = b
  refine ⟨fun hn => by simp only [offPart, hn], fun r hr => ?_⟩
  simp only [offPart, hr]
  cases stored with
  | none => exact ⟨rfl, rfl, rfl⟩
  | some f =>
    cases hf : f (t.name, p) with
    | none => simp [hf]
    | some o => cases o <;> simp [hf]

/-- Violation: the limit of a partition (`FetchPartition::max_bytes`, "the maximum bytes to fetch from this partition")
is never looked at: the answer is the same whatever it is. -/
theorem C98_violated_partition_limit (b : Broker α) (q : FetchReq) (topic : Text) (i : Nat) (o m m' : Int) :
    fetchPart b q topic ⟨i, o, m⟩ = fetchPart b q topic ⟨i, o, m'⟩ := rfl

/-- Partitions with two batches of two records each. -/
def C98.es : List (BEv Nat) :=
  [.lead ("a".toList, 0), .lead ("b".toList, 1), .op ("a".toList, 0) (.write [demoBatch [1, 2], demoBatch [3, 4]] true none),
    .op ("b".toList, 1) (.write [demoBatch [1, 2]] true none)]

def C98.req (m : Int) : FetchReq :=
  ⟨m, .committed, [⟨"a".toList, [⟨0, 0, 1⟩, ⟨7, 0, 1⟩]⟩, ⟨"b".toList, [⟨1, 0, 1⟩]⟩]⟩

/-- Violation: the limit of the request ("the maximum bytes to fetch") holds for each partition, so that the response
has more; and a negative limit is no limit. -/
theorem C98_violated_limit :
    (((fetch demoCfg (C98.broker demoCfg C98.es) [] (C98.req 30)).flatMap (·.parts)).map (·.records.length)).sum = 50 ∧
      ((fetch demoCfg (C98.broker demoCfg C98.es) [] (C98.req (-1))).flatMap (·.parts)).map (·.records.length)
        = [2 * (demoBatch [1, 2]).size, 0, (demoBatch [1, 2]).size] := by
  decide +kernel

/-- Violation: the start for a consumer is not compared with the log: it may lie before its start or behind its end. -/
theorem C98_violated_consumer_start (r : Replica α) (k : Key) (o : Int) :
    (offPart (fun k' => if k' = k then some r else none) (some fun _ => some (some o)) k.1 k.2).start = o + 1 := by
  simp [offPart]

/-! ## The hypotheses can be met -/

example : (fetch demoCfg (C98.broker demoCfg C98.es) [[.op ("a".toList, 0) (.updateHw 2)], [], [.drop ("b".toList, 1)]]
      (C98.req 1000)).map (fun t => (t.name, t.parts.map fun p => (p.index, p.error.isSome, p.hw, p.records.length)))
    = [("a".toList, [(0, false, 2, 20), (7, true, 0, 0)]),
      ("b".toList, [(1, true, 0, 0)])] := by
  decide +kernel

example : (offsets demoCfg none (C98.broker demoCfg C98.es) [] [⟨"a".toList, [0, 3]⟩]).map (fun t => (t.name, t.parts))
    = [("a".toList, [⟨0, none, 0, 4⟩, ⟨3, some .notLeader, 0, 0⟩])] := by
  decide +kernel

example : ∃ r, C98.broker demoCfg C98.es ("a".toList, 0) = some r ∧ r.hw = 4 ∧
    r.batches.map (fun b => (b.base, b.batch.records)) = [(0, [1, 2]), (2, [3, 4])] := by
  refine ⟨_, rfl, ?_, ?_⟩ <;> decide +kernel

example : C98.Honest C98.es := by
  intro k o ho
  simp only [C98.es, List.mem_cons, reduceCtorEq, false_or, List.not_mem_nil, or_false, BEv.op.injEq] at ho
  rcases ho with ⟨_, rfl⟩ | ⟨_, rfl⟩
  · intro b hb
    simp only [List.mem_cons, List.not_mem_nil, or_false] at hb
    rcases hb with rfl | rfl <;> exact demoBatch_honest _ (by decide)
  · intro b hb
    simp only [List.mem_cons, List.not_mem_nil, or_false] at hb
    subst hb
    exact demoBatch_honest _ (by decide)

end Verif.Props
