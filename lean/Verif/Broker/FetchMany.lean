import Verif.Storage.ReplicaInv

/-!
# Requests about many partitions

Models `handle_fetch_request` (`crates/fluvio-spu/src/services/public/fetch_handler.rs`) and `handle_offset_request`
(`crates/fluvio-spu/src/services/public/offset_request.rs`).  Other tasks of the broker run while such a request is
handled: `BEv` are their steps, and the schedule lists those that happen before each partition is looked at.

Left out: metrics; the fields of requests and responses that are not used.  The slice of a file in the response stands
for its bytes at the time of the read: files of the log are only appended to.
-/

namespace Verif.Broker.FetchMany

open Verif.Storage Verif.Wire

variable {α : Type}

abbrev Text := List Char

/-- `ReplicaKey`. -/
abbrev Key := Text × Nat

/-- The replicas the broker leads: `LeadersState`. -/
abbrev Broker (α : Type) := Key → Option (Replica α)

/-- Other tasks: the broker becomes leader of a new partition, stops leading one, or changes a replica. -/
inductive BEv (α : Type)
  | lead (k : Key)
  | drop (k : Key)
  | op (k : Key) (o : Op α)

def Broker.step (c : Cfg) (b : Broker α) : BEv α → Broker α
  | .lead k => fun k' => if k' = k then (match b k with | some r => some r | none => some Replica.init) else b k'
  | .drop k => fun k' => if k' = k then none else b k'
  | .op k o => fun k' => if k' = k then (b k).map fun r => (r.step c o).1 else b k'

def Broker.run (c : Cfg) : Broker α → List (BEv α) → Broker α
  | b, [] => b
  | b, e :: es => Broker.run c (b.step c e) es

/-- `i32 as u32`. -/
def asU32 (x : Int) : Nat := (x % 2 ^ 32).toNat

/-! ## Fetch -/

/-- `FetchPartition`, fluvio-spu-schema/src/fetch/request.rs:80-100. -/
structure PartReq where
  index : Nat
  offset : Int
  maxBytes : Int
deriving DecidableEq, Repr

/-- `FetchableTopic`, request.rs:61-68. -/
structure TopicReq where
  name : Text
  parts : List PartReq
deriving DecidableEq, Repr

/-- `FetchRequest`, request.rs:17-47. -/
structure FetchReq where
  maxBytes : Int
  isolation : Isolation
  topics : List TopicReq

/-- Errors of a partition: `NotLeaderForPartition`, or what the storage answers. -/
inductive PartErr
  | notLeader
  | storage (e : StErr)
deriving DecidableEq

/-- `FetchablePartitionResponse`, fluvio-spu-schema/src/fetch/response.rs; the defaults of the numbers are those of the
type (`FluvioDefault`). -/
structure PartResp where
  index : Nat
  error : Option PartErr
  hw : Int
  logStart : Int
  records : Bytes
deriving DecidableEq

/-- `FetchableTopicResponse`. -/
structure TopicResp where
  name : Text
  parts : List PartResp

/-- `handle_fetch_partition`, fetch_handler.rs:87-146. -/
def fetchPart (b : Broker α) (q : FetchReq) (topic : Text) (p : PartReq) : PartResp :=
  let r : PartResp := ⟨p.index, none, 0, 0, []⟩
  match b (topic, p.index) with
  | none => { r with error := some .notLeader }
  | some s =>
    match s.readPartition p.offset (asU32 q.maxBytes) q.isolation with
    | .ok slice =>
      let r := { r with hw := slice.hw, logStart := slice.start }
      match slice.data with
      | some d => { r with records := d }
      | none => r
    | .error e => { r with error := some (.storage e) }

/-- The loop over the partitions of a topic, fetch_handler.rs:67-79.  The schedule: what happens before each of them. -/
def fetchParts (c : Cfg) (q : FetchReq) (topic : Text) : Broker α → List (List (BEv α)) → List PartReq →
    List PartResp × Broker α × List (List (BEv α))
  | b, sched, [] => ([], b, sched)
  | b, sched, p :: ps =>
    let b := b.run c (sched.headD [])
    let (rs, b', sched') := fetchParts c q topic b sched.tail ps
    (fetchPart b q topic p :: rs, b', sched')

/-- The loop over the topics, fetch_handler.rs:34-38, with `handle_fetch_topic`, 58-82. -/
def fetchTopics (c : Cfg) (q : FetchReq) : Broker α → List (List (BEv α)) → List TopicReq → List TopicResp
  | _, _, [] => []
  | b, sched, t :: ts =>
    let (rs, b', sched') := fetchParts c q t.name b sched t.parts
    ⟨t.name, rs⟩ :: fetchTopics c q b' sched' ts

/-- `handle_fetch_request`, fetch_handler.rs:25-53. -/
def fetch (c : Cfg) (b : Broker α) (sched : List (List (BEv α))) (q : FetchReq) : List TopicResp :=
  fetchTopics c q b sched q.topics

/-! ## Offsets -/

/-- `FetchOffsetTopic`, fluvio-spu-schema/src/server/fetch_offset.rs:56-69. -/
structure OffTopicReq where
  name : Text
  parts : List Nat
deriving DecidableEq, Repr

/-- `FetchOffsetPartitionResponse`, fetch_offset.rs:105-120; the error codes: `none`, `PartitionNotLeader`, or one from
looking up the consumer. -/
inductive OffErr
  | notLeader
  | consumer
deriving DecidableEq

structure OffPart where
  index : Nat
  error : Option OffErr
  start : Int
  stable : Int
deriving DecidableEq

structure OffTopic where
  name : Text
  parts : List OffPart

/-- One partition, offset_request.rs:41-77.  `stored` is `fetch_consumer_offset` (86-111) for the consumer of the
request, if it names one: the offset stored for the partition, if any, or `none` for an error. -/
def offPart (b : Broker α) (stored : Option (Key → Option (Option Int))) (topic : Text) (index : Nat) : OffPart :=
  match b (topic, index) with
  | none => ⟨index, some .notLeader, 0, 0⟩
  | some r =>
    let a : OffPart := ⟨index, none, r.logStart, r.hw⟩
    match stored with
    | none => a
    | some f =>
      match f (topic, index) with
      | some (some o) => { a with start := o + 1 }
      | some none => a
      | none => { a with error := some .consumer }

/-- The loop over the partitions of a topic, offset_request.rs:39-80. -/
def offParts (c : Cfg) (stored : Option (Key → Option (Option Int))) (topic : Text) :
    Broker α → List (List (BEv α)) → List Nat → List OffPart × Broker α × List (List (BEv α))
  | b, sched, [] => ([], b, sched)
  | b, sched, p :: ps =>
    let b := b.run c (sched.headD [])
    let (rs, b', sched') := offParts c stored topic b sched.tail ps
    (offPart b stored topic p :: rs, b', sched')

/-- `handle_offset_request`, offset_request.rs:21-86. -/
def offsets (c : Cfg) (stored : Option (Key → Option (Option Int))) : Broker α → List (List (BEv α)) →
    List OffTopicReq → List OffTopic
  | _, _, [] => []
  | b, sched, t :: ts =>
    let (rs, b', sched') := offParts c stored t.name b sched t.parts
    ⟨t.name, rs⟩ :: offsets c stored b' sched' ts

/-! ## Facts -/

theorem Broker.run_append (c : Cfg) : ∀ (es fs : List (BEv α)) (b : Broker α),
    b.run c (es ++ fs) = (b.run c es).run c fs
  | [], _, _ => rfl
  | e :: es, fs, b => run_append c es fs (b.step c e)

theorem fetchParts_spec (c : Cfg) (q : FetchReq) (topic : Text) :
    ∀ (ps : List PartReq) (b : Broker α) (sched : List (List (BEv α))),
      (fetchParts c q topic b sched ps).1.map (·.index) = ps.map (·.index) ∧
      (∃ es rest, (fetchParts c q topic b sched ps).2.1 = b.run c es ∧
        sched.flatten = es ++ rest ∧ (fetchParts c q topic b sched ps).2.2.flatten = rest) ∧
      ∀ (j : Nat) (p : PartReq), ps[j]? = some p → ∃ a es, (fetchParts c q topic b sched ps).1[j]? = some a ∧ es <+: sched.flatten ∧
        a = fetchPart (b.run c es) q topic p
  | [], b, sched => by
    refine ⟨rfl, ⟨[], sched.flatten, rfl, rfl, rfl⟩, fun j p h => by simp at h⟩
  | p :: ps, b, sched => by
    obtain ⟨h1, ⟨es, rest, h2, h3, h4⟩, h5⟩ := fetchParts_spec c q topic ps (b.run c (sched.headD [])) sched.tail
    have hf : sched.flatten = sched.headD [] ++ sched.tail.flatten := by cases sched <;> simp
    have hx : (fetchPart (b.run c (sched.headD [])) q topic p).index = p.index := by
      unfold fetchPart
      dsimp only
      split
      · rfl
      · split
        · split <;> rfl
        · rfl
    refine ⟨?_, ⟨sched.headD [] ++ es, rest, ?_, ?_, h4⟩, ?_⟩
    · simp only [fetchParts, List.map_cons, h1, hx]
    · simp only [fetchParts, h2, Broker.run_append]
    · rw [hf, h3, List.append_assoc]
    · intro j p' hp
      cases j with
      | zero =>
        simp only [List.getElem?_cons_zero, Option.some.injEq] at hp
        subst hp
        exact ⟨_, sched.headD [], rfl, ⟨sched.tail.flatten, hf.symm⟩, rfl⟩
      | succ j =>
        rw [List.getElem?_cons_succ] at hp
        obtain ⟨a, es', ha, ⟨t, hpre⟩, hae⟩ := h5 j p' hp
        refine ⟨a, sched.headD [] ++ es', by simpa [fetchParts] using ha, ⟨t, ?_⟩, ?_⟩
        · rw [hf, List.append_assoc, hpre]
        · rw [Broker.run_append]; exact hae

theorem fetchTopics_spec (c : Cfg) (q : FetchReq) :
    ∀ (ts : List TopicReq) (b : Broker α) (sched : List (List (BEv α))),
      (fetchTopics c q b sched ts).map (fun t => (t.name, t.parts.map (·.index)))
        = ts.map (fun t => (t.name, t.parts.map (·.index))) ∧
      ∀ (i : Nat) (t : TopicReq), ts[i]? = some t → ∀ (j : Nat) (p : PartReq), t.parts[j]? = some p →
        ∃ (rt : TopicResp) (a : PartResp) (es : List (BEv α)),
        (fetchTopics c q b sched ts)[i]? = some rt ∧ rt.parts[j]? = some a ∧ es <+: sched.flatten ∧
        a = fetchPart (b.run c es) q t.name p
  | [], b, sched => ⟨rfl, fun i t h => by simp at h⟩
  | t :: ts, b, sched => by
    obtain ⟨h1, ⟨es, rest, h2, h3, h4⟩, h5⟩ := fetchParts_spec c q t.name t.parts b sched
    obtain ⟨i1, i2⟩ := fetchTopics_spec c q ts (fetchParts c q t.name b sched t.parts).2.1
      (fetchParts c q t.name b sched t.parts).2.2
    refine ⟨?_, ?_⟩
    · simp only [fetchTopics, List.map_cons, h1, i1]
    · intro i t' ht j p hp
      cases i with
      | zero =>
        simp only [List.getElem?_cons_zero, Option.some.injEq] at ht
        subst ht
        obtain ⟨a, es', ha, hpre, hae⟩ := h5 j p hp
        exact ⟨_, a, es', rfl, ha, hpre, hae⟩
      | succ i =>
        rw [List.getElem?_cons_succ] at ht
        obtain ⟨rt, a, es', hrt, ha, ⟨x, hpre⟩, hae⟩ := i2 i t' ht j p hp
        refine ⟨rt, a, es ++ es', by simpa [fetchTopics] using hrt, ha, ⟨x, ?_⟩, ?_⟩
        · rw [h4] at hpre
          rw [h3, List.append_assoc, hpre]
        · rw [Broker.run_append, ← h2]; exact hae

theorem offParts_spec (c : Cfg) (stored : Option (Key → Option (Option Int))) (topic : Text) :
    ∀ (ps : List Nat) (b : Broker α) (sched : List (List (BEv α))),
      (offParts c stored topic b sched ps).1.map (·.index) = ps ∧
      (∃ es rest, (offParts c stored topic b sched ps).2.1 = b.run c es ∧
        sched.flatten = es ++ rest ∧ (offParts c stored topic b sched ps).2.2.flatten = rest) ∧
      ∀ (j : Nat) (p : Nat), ps[j]? = some p → ∃ a es, (offParts c stored topic b sched ps).1[j]? = some a ∧ es <+: sched.flatten ∧
        a = offPart (b.run c es) stored topic p
  | [], b, sched => by
    refine ⟨rfl, ⟨[], sched.flatten, rfl, rfl, rfl⟩, fun j p h => by simp at h⟩
  | p :: ps, b, sched => by
    obtain ⟨h1, ⟨es, rest, h2, h3, h4⟩, h5⟩ := offParts_spec c stored topic ps (b.run c (sched.headD [])) sched.tail
    have hf : sched.flatten = sched.headD [] ++ sched.tail.flatten := by cases sched <;> simp
    have hx : (offPart (b.run c (sched.headD [])) stored topic p).index = p := by
      unfold offPart
      split
      · rfl
      · split
        · rfl
        · split <;> rfl
    refine ⟨?_, ⟨sched.headD [] ++ es, rest, ?_, ?_, h4⟩, ?_⟩
    · simp only [offParts, List.map_cons, h1, hx]
    · simp only [offParts, h2, Broker.run_append]
    · rw [hf, h3, List.append_assoc]
    · intro j p' hp
      cases j with
      | zero =>
        simp only [List.getElem?_cons_zero, Option.some.injEq] at hp
        subst hp
        exact ⟨_, sched.headD [], rfl, ⟨sched.tail.flatten, hf.symm⟩, rfl⟩
      | succ j =>
        rw [List.getElem?_cons_succ] at hp
        obtain ⟨a, es', ha, ⟨t, hpre⟩, hae⟩ := h5 j p' hp
        refine ⟨a, sched.headD [] ++ es', by simpa [offParts] using ha, ⟨t, ?_⟩, ?_⟩
        · rw [hf, List.append_assoc, hpre]
        · rw [Broker.run_append]; exact hae

theorem offsets_spec (c : Cfg) (stored : Option (Key → Option (Option Int))) :
    ∀ (ts : List OffTopicReq) (b : Broker α) (sched : List (List (BEv α))),
      (offsets c stored b sched ts).map (fun t => (t.name, t.parts.map (·.index)))
        = ts.map (fun t => (t.name, t.parts)) ∧
      ∀ (i : Nat) (t : OffTopicReq), ts[i]? = some t → ∀ (j : Nat) (p : Nat), t.parts[j]? = some p →
        ∃ (rt : OffTopic) (a : OffPart) (es : List (BEv α)),
        (offsets c stored b sched ts)[i]? = some rt ∧ rt.parts[j]? = some a ∧ es <+: sched.flatten ∧
        a = offPart (b.run c es) stored t.name p
  | [], b, sched => ⟨rfl, fun i t h => by simp at h⟩
  | t :: ts, b, sched => by
    obtain ⟨h1, ⟨es, rest, h2, h3, h4⟩, h5⟩ := offParts_spec c stored t.name t.parts b sched
    obtain ⟨i1, i2⟩ := offsets_spec c stored ts (offParts c stored t.name b sched t.parts).2.1
      (offParts c stored t.name b sched t.parts).2.2
    refine ⟨?_, ?_⟩
    · simp only [offsets, List.map_cons, h1, i1]
    · intro i t' ht j p hp
      cases i with
      | zero =>
        simp only [List.getElem?_cons_zero, Option.some.injEq] at ht
        subst ht
        obtain ⟨a, es', ha, hpre, hae⟩ := h5 j p hp
        exact ⟨_, a, es', rfl, ha, hpre, hae⟩
      | succ i =>
        rw [List.getElem?_cons_succ] at ht
        obtain ⟨rt, a, es', hrt, ha, ⟨x, hpre⟩, hae⟩ := i2 i t' ht j p hp
        refine ⟨rt, a, es ++ es', by simpa [offsets] using hrt, ha, ⟨x, ?_⟩, ?_⟩
        · rw [h4] at hpre
          rw [h3, List.append_assoc, hpre]
        · rw [Broker.run_append, ← h2]; exact hae

/-- Every replica has a history of honest operations. -/
def History (c : Cfg) (b : Broker α) (P : Op α → Prop) : Prop :=
  ∀ k r, b k = some r → ∃ ops, (∀ op ∈ ops, P op) ∧ r = (Replica.init.run c ops).1

theorem run_snoc (c : Cfg) (o : Op α) : ∀ (ops : List (Op α)) (r : Replica α),
    (r.run c (ops ++ [o])).1 = ((r.run c ops).1.step c o).1
  | [], _ => rfl
  | p :: ops, r => run_snoc c o ops (r.step c p).1

theorem History.step {c : Cfg} {b : Broker α} {P : Op α → Prop} (h : History c b P) (e : BEv α)
    (he : ∀ k o, e = .op k o → P o) : History c (b.step c e) P := by
  intro k r hr
  cases e with
  | lead k' =>
    simp only [Broker.step] at hr
    split at hr
    · split at hr
      · rename_i r' hb
        injection hr with hr
        subst hr
        exact h _ _ hb
      · injection hr with hr
        subst hr
        exact ⟨[], by simp, rfl⟩
    · exact h _ _ hr
  | drop k' =>
    simp only [Broker.step] at hr
    split at hr
    · cases hr
    · exact h _ _ hr
  | op k' o =>
    simp only [Broker.step] at hr
    split at hr
    · obtain ⟨r', hb, rfl⟩ := Option.map_eq_some_iff.mp hr
      obtain ⟨ops, ho, rfl⟩ := h _ _ hb
      refine ⟨ops ++ [o], ?_, (run_snoc c o ops _).symm⟩
      intro op hop
      rcases List.mem_append.mp hop with hop | hop
      · exact ho op hop
      · rw [List.mem_singleton.mp hop]
        exact he k' o rfl
    · exact h _ _ hr

theorem History.run {c : Cfg} {P : Op α → Prop} : ∀ (es : List (BEv α)) {b : Broker α}, History c b P →
    (∀ k o, .op k o ∈ es → P o) → History c (b.run c es) P
  | [], _, h, _ => h
  | e :: es, _, h, he =>
    History.run es (h.step e fun k o hx => he k o (hx ▸ List.mem_cons_self))
      fun k o hx => he k o (List.mem_cons_of_mem _ hx)

end Verif.Broker.FetchMany
