import Verif.Smart.Batch

/-!
# SmartModules on the way into a partition
(`fluvio-spu/src/services/public/produce_handler.rs`, `replication/leader/replica_state.rs`)

A producer's request may name SmartModules (a fresh chain for each request), and a topic may have a
deduplication filter (one chain as long as the leader runs).
-/

namespace Verif.Smart

variable {μ B ε : Type}

/-- What becomes of the batches of a request. -/
inductive Applied (B ε : Type) where
  /-- the chain failed (`ErrorCode::Other`) -/
  | failed
  /-- a user function returned an error (`SmartModuleRuntimeError`) -/
  | rejected (e : ε × Int)
  /-- one batch takes the place of all batches -/
  | batch (o : OutBatch B)

/-- `apply_smartmodules` — produce_handler.rs:250-305, `transform` — replica_state.rs:363-379, both without
limit.  The conversion to a raw batch keeps the header (batch.rs:206-228). -/
def applyChain (c : List (Inst μ B ε)) (l : List (InBatch B)) : List (Inst μ B ε) × Applied B ε :=
  match smBatch (fun _ => 0) none c l with
  | (c', none) => (c', .failed)
  | (c', some (_, some e)) => (c', .rejected e)
  | (c', some (o, none)) => (c', .batch o)

/-- `records_len` — fluvio-protocol/src/record/batch.rs:144-150 (taken from the header) -/
def OutBatch.recordsLen (o : OutBatch B) : Nat := (o.delta + 1).toNat

/-- `first_timestamp` and `max_time_stamp` of the batch: those of the default header — batch.rs:498-499 -/
def OutBatch.ts (_ : OutBatch B) : Int := -1

/-- `ConsumerRecord::timestamp` — fluvio-protocol/src/record/data.rs:638-645 -/
def recTs (first : Int) (r : Rec B) : Int := if first ≤ 0 then -1 else first + r.tsd

/-- The leader of a topic with deduplication: its chain, and the batches in its log with their base
offsets. -/
structure Leader (μ B ε : Type) where
  chain : List (Inst μ B ε)
  log : List (Int × OutBatch B)
  leo : Int

/-- `LeaderReplicaState::write_record_set` — replica_state.rs:341-361.  The storage puts the batch at the end
and advances by its header's offset delta (fluvio-storage/src/segment.rs, as in `Verif.Storage.Segment`);
`io` says whether it fails, which leaves the log as it was (`Replica.write` with one batch). -/
def Leader.write (x : Leader μ B ε) (l : List (InBatch B)) (io : Bool) : Leader μ B ε × Bool :=
  match applyChain x.chain l with
  | (c', .batch o) =>
    if o.recs.isEmpty || o.recordsLen = 0 then ({ x with chain := c' }, true)
    else if io then ({ x with chain := c' }, false)
    else (⟨c', x.log ++ [(x.leo, o)], x.leo + (o.delta + 1)⟩, true)
  | (c', _) => ({ x with chain := c' }, false)

def Leader.run (x : Leader μ B ε) (ws : List (List (InBatch B) × Bool)) : Leader μ B ε :=
  ws.foldl (fun x w => (x.write w.1 w.2).1) x

/-- What a consumer finds: offsets are base offset plus position (batch.rs:288-304). -/
def OutBatch.pairs (base : Int) (o : OutBatch B) : List (Int × Option B × B) :=
  o.recs.zipIdx.map fun p => (base + (p.2 : Int), p.1.kv)

def Leader.pairs (x : Leader μ B ε) : List (Int × Option B × B) := x.log.flatMap fun p => p.2.pairs p.1

/-- **Specification.** Every module makes exactly one record of each record. -/
def KeepsCount : List (Inst μ B ε) → Prop
  | [] => True
  | i :: l => (match i.fn with | .map _ => True | .aggregate _ => True | _ => False) ∧ KeepsCount l

/-- **Specification.** A batch as producers send it: numbered from 0 or more, with as many records as its
header says. -/
def SentOk (b : InBatch B) : Prop := 0 ≤ b.base ∧ b.delta + 1 = b.recs.length

/-! ## Lemmas -/

theorem take_count {i i' : Inst μ B ε} {r : Rec B} {o : List (Rec B)}
    (hk : match i.fn with | .map _ => True | .aggregate _ => True | _ => False)
    (h : i.take r = some (i', o)) : o.length = 1 ∧ i'.fn = i.fn := by
  obtain ⟨fn, m, a⟩ := i
  unfold Inst.take at h
  cases fn with
  | map f =>
    simp only [Fn.apply] at h
    cases hf : (f m r).2 with
    | error e => rw [hf] at h; cases h
    | ok v =>
      rw [hf] at h
      injection h with h; injection h with h1 h2
      rw [← h1, ← h2]; exact ⟨rfl, rfl⟩
  | aggregate f =>
    simp only [Fn.apply] at h
    cases hf : (f m a r).2 with
    | error e => rw [hf] at h; cases h
    | ok v =>
      rw [hf] at h
      injection h with h; injection h with h1 h2
      rw [← h1, ← h2]; exact ⟨rfl, rfl⟩
  | filter f => exact absurd hk id
  | filterMap f => exact absurd hk id
  | arrayMap f => exact absurd hk id

theorem feedAll_count : ∀ (rs : List (Rec B)) (i i' : Inst μ B ε) (o : List (Rec B)),
    (match i.fn with | .map _ => True | .aggregate _ => True | _ => False) →
    feedAll Inst.take i rs = some (i', o) → o.length = rs.length
  | [], i, i', o, _, h => by
    simp only [feedAll, Option.some.injEq, Prod.mk.injEq] at h
    rw [← h.2]
  | r :: rs, i, i', o, hk, h => by
    simp only [feedAll] at h
    cases h1 : i.take r with
    | none => rw [h1] at h; cases h
    | some x =>
      rw [h1, Option.bind_some] at h
      cases h2 : feedAll Inst.take x.1 rs with
      | none => rw [h2] at h; cases h
      | some y =>
        rw [h2, Option.map_some] at h
        injection h with h; injection h with _ h3
        obtain ⟨k1, k2⟩ := take_count hk h1
        have := feedAll_count rs x.1 y.1 y.2 (by rw [k2]; exact hk) h2
        rw [← h3, List.length_append, List.length_cons, k1, this]
        omega

theorem feed_count : ∀ (c c' : List (Inst μ B ε)) (rs o : List (Rec B)), KeepsCount c →
    feed c rs = some (c', o) → o.length = rs.length
  | [], c', rs, o, _, h => by
    rw [feed_nil] at h
    simp only [Option.some.injEq, Prod.mk.injEq] at h
    rw [h.2]
  | i :: l, c', rs, o, hk, h => by
    rw [feed_cons] at h
    cases h1 : feedAll Inst.take i rs with
    | none => rw [h1] at h; cases h
    | some x =>
      rw [h1, Option.bind_some] at h
      cases h2 : feed l x.2 with
      | none => rw [h2] at h; cases h
      | some y =>
        rw [h2, Option.map_some] at h
        injection h with h; injection h with _ h3
        rw [← h3, feed_count l y.1 x.2 y.2 hk.2 h2, feedAll_count rs i x.1 x.2 hk.1 h1]

theorem span_recs {l : List (InBatch B)} (h : ∀ b ∈ l, SentOk b) : span l = ((allRecs l).length : Int) := by
  induction l with
  | nil => rfl
  | cons b l ih =>
    have h1 := (h b (by simp)).2
    have h2 := ih fun x hx => h x (by simp [hx])
    have h3 : span (b :: l) = (b.delta + 1) + span l := by simp [span]
    have h4 : allRecs (b :: l) = b.recs ++ allRecs l := by simp [allRecs]
    rw [h3, h4, List.length_append, h2, h1]
    omega

/-- The result for batches on which nothing fails. -/
theorem applyChain_ok {c c' : List (Inst μ B ε)} {l : List (InBatch B)} {out : List (Rec B)}
    (hl : ∀ b ∈ l, SentOk b) (h : feed c (allRecs l) = some (c', out)) :
    ∃ o, applyChain c l = (c', .batch o) ∧ o.recs.map Rec.kv = out.map Rec.kv ∧
      (out = [] ∧ o.delta = -1 ∨ ∃ pre b post c2, l = pre ++ b :: post ∧ feed c (allRecs pre) = some (c2, []) ∧
        o.delta + 1 = span (b :: post)) := by
  obtain ⟨c1, o, t, r, e1, e2, c2, out', f1, f2, f3, f4, f5⟩ := smLoop_ok (fun _ => 0) none l c ⟨-1, -1, []⟩ 0
    (fun b hb => by have := (hl b hb).1; omega) (by rw [h]; rfl)
  rcases f5 with ⟨g1, g2⟩ | ⟨g1, _⟩
  · subst g1
    rw [List.append_nil] at e2
    subst e2
    rw [h] at f1
    injection f1 with f1; injection f1 with h1 h2
    subst h1 h2 g2
    refine ⟨o, by unfold applyChain smBatch; rw [e1], by simpa using f2, ?_⟩
    rcases f4 rfl with ⟨k1, k2, _⟩ | ⟨pre, b, post, k1, _, k3, c3, k4⟩
    · exact .inl ⟨k1, k2⟩
    · exact .inr ⟨pre, b, post, c3, k1, k4, by rw [k3]; show -1 + span (b :: post) + 1 = _; omega⟩
  · exact absurd rfl g1

theorem applyChain_fail {c : List (Inst μ B ε)} {l : List (InBatch B)} (h : feed c (allRecs l) = none) :
    (applyChain c l).2 = .failed ∨ ∃ e, (applyChain c l).2 = .rejected e := by
  unfold applyChain smBatch
  rcases smLoop_fail (fun _ => 0) l c ⟨-1, -1, []⟩ 0 h with h1 | ⟨o, e, h1⟩
  · generalize smLoop (fun _ => 0) none c ⟨-1, -1, []⟩ 0 l = y at h1
    obtain ⟨y1, y2⟩ := y
    dsimp only at h1
    subst h1
    exact .inl rfl
  · generalize smLoop (fun _ => 0) none c ⟨-1, -1, []⟩ 0 l = y at h1
    obtain ⟨y1, y2⟩ := y
    dsimp only at h1
    subst h1
    exact .inr ⟨e, rfl⟩

theorem pairs_values (base : Int) (o : OutBatch B) : (o.pairs base).map (·.2) = o.recs.map Rec.kv := by
  unfold OutBatch.pairs
  rw [List.map_map]
  have : ∀ (l : List (Rec B)) (k : Nat),
      (l.zipIdx k).map ((fun p : Int × Option B × B => p.2) ∘ fun p => (base + (p.2 : Int), p.1.kv)) = l.map Rec.kv := by
    intro l
    induction l with
    | nil => intro k; rfl
    | cons r l ih => intro k; rw [List.zipIdx_cons, List.map_cons, List.map_cons, ih]; rfl
  exact this _ 0

end Verif.Smart
