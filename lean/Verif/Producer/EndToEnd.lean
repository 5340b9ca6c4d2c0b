import Verif.Producer.AccWire
import Verif.Storage.Reader

/-!
# From the producer's record to the stored one

Any number of producers for one partition, the requests in flight, and the leader's replica.  A request
carries one entry per batch; the broker handles the entries of a request in order, and other requests'
entries may come in between.  A client may send a request again when no response came
(`send_receive_with_retry`).
-/

namespace Verif.Producer
open Verif.Wire Verif.Storage

/-- `PartitionProduceResponse`: base offset, and whether the error code is `None`. -/
structure Answer where
  base : Int
  ok : Bool
deriving DecidableEq

/-- A produce request of producer `prod` and the responses to its entries so far. -/
structure Req where
  prod : Nat
  batches : List PBatch
  answers : List Answer

structure Sys where
  replica : Replica Record
  acc : Nat → Acc
  /-- the answers to the pushes of each producer -/
  out : Nat → List (Record × PushRes)
  reqs : List Req
  /-- producer, batch, base offset: what `BatchMetadata::base_offset` returned (record.rs:73-105) -/
  told : List (Nat × Nat × Int)
  /-- the operations on the replica so far -/
  trace : List (Op Record)

structure SysCfg where
  acc : AccCfg
  store : Cfg
  z : Compressor
  /-- delivery semantic of the producers -/
  atMostOnce : Bool
  /-- SmartModule given with the requests, as a function on the records of a batch.  Simplification: the
  resulting batch is written like a client's batch. -/
  sm : Option (List Record → List Record)

inductive SysEv where
  | push (p : Nat) (r : Record) (now now' : Int)
  | pushTimeout (p : Nat) (r : Record)
  /-- drain the queue and send the batches (partition_producer.rs:167-261) -/
  | flush (p : Nat) (force : Bool) (linger now : Int)
  /-- send request `i` again -/
  | resend (i : Nat)
  /-- the broker handles the next entry of request `i`; `u`: single replica; `f`: failing file write -/
  | serve (i : Nat) (u : Bool) (f : Option Nat)
  /-- the broker refuses the next entry of request `i` (not leader, mirror, compression, …) -/
  | refuse (i : Nat)
  /-- waiting for the acknowledgement of entry `k` timed out (produce_handler.rs:334-388) -/
  | late (i k : Nat)
  /-- the response of request `i` reaches the client -/
  | respond (i : Nat)
  /-- anything else that happens to the replica -/
  | other (op : Op Record)

def Sys.init : Sys := ⟨Replica.init, fun _ => Acc.init, fun _ => [], [], [], []⟩

/-- The batch as sent and stored: `batch.try_into()?` (partition_producer.rs:213-215) -/
def wireBatch (z : Compressor) (m : MemoryBatch) : Option (SBatch Record) :=
  (toRaw z m.toBatch).map fun raw => ofRaw raw m.records

def upd {β : Type} (f : Nat → β) (i : Nat) (v : β) : Nat → β := fun j => if j = i then v else f j

/-- `handle_produce_topic`, `handle_produce_partition`, `apply_smartmodules` — produce_handler.rs:88-303:
what is written; `none`: the SmartModule dropped everything. -/
def toWrite (c : SysCfg) (b : PBatch) : Option (SBatch Record) :=
  match c.sm with
  | none => wireBatch c.z b.mem
  | some g => if (g b.mem.records).isEmpty then none else wireBatch c.z { b.mem with records := g b.mem.records }

/-- What `base_offset` gets for the batches of an answered request: batches and responses are paired in
order (partition_producer.rs:233-241), an error code makes the record's future fail (record.rs:84-91);
with at-most-once delivery the error code is dropped (accumulator.rs:399-405). -/
def learned (c : SysCfg) (q : Req) : List (Nat × Nat × Int) :=
  (q.batches.zip q.answers).filterMap fun x =>
    if x.2.ok || c.atMostOnce then some (q.prod, x.1.id, x.2.base) else none

def Sys.step (c : SysCfg) (s : Sys) : SysEv → Sys
  | .push p r now now' =>
    let x := (s.acc p).push c.acc r now now'
    { s with acc := upd s.acc p x.1, out := upd s.out p (s.out p ++ [(r, x.2)]) }
  | .pushTimeout p r => { s with out := upd s.out p (s.out p ++ [(r, .timeout)]) }
  | .flush p f l now =>
    let d := (s.acc p).drain f l now
    { s with acc := upd s.acc p d.1, reqs := s.reqs ++ [⟨p, d.2, []⟩] }
  | .resend i =>
    match s.reqs[i]? with
    | none => s
    | some q => { s with reqs := s.reqs ++ [{ q with answers := [] }] }
  | .serve i u f =>
    match s.reqs[i]? with
    | none => s
    | some q =>
      match q.batches[q.answers.length]? with
      | none => s
      | some b =>
        match toWrite c b with
        | none => { s with reqs := s.reqs.set i { q with answers := q.answers ++ [⟨0, true⟩] } }
        | some sb =>
          let op := Op.write [sb] u f
          let a : Answer := match (s.replica.step c.store op).2 with
            | .wrote base _ _ => ⟨base, true⟩
            | _ => ⟨0, false⟩
          { s with
            replica := (s.replica.step c.store op).1
            reqs := s.reqs.set i { q with answers := q.answers ++ [a] }
            trace := s.trace ++ [op] }
  | .refuse i =>
    match s.reqs[i]? with
    | none => s
    | some q =>
      if q.answers.length < q.batches.length then
        { s with reqs := s.reqs.set i { q with answers := q.answers ++ [⟨0, false⟩] } }
      else s
  | .late i k =>
    match s.reqs[i]? with
    | none => s
    | some q =>
      { s with reqs := s.reqs.set i { q with answers := q.answers.modify k fun a => { a with ok := false } } }
  | .respond i =>
    match s.reqs[i]? with
    | none => s
    | some q =>
      if q.answers.length = q.batches.length then { s with told := s.told ++ learned c q } else s
  | .other op => { s with replica := (s.replica.step c.store op).1, trace := s.trace ++ [op] }

def Sys.run (c : SysCfg) (s : Sys) (evs : List SysEv) : Sys := evs.foldl (Sys.step c) s

/-! ## Invariant -/

/-- The records of the batch are at `base`, `base + 1`, … of the log. -/
def Placed (log : List Record) (base : Int) (b : PBatch) : Prop :=
  0 ≤ base ∧ ∀ k r, b.mem.records[k]? = some r → log[base.toNat + k]? = some r

theorem Placed.mono {log : List Record} {base : Int} {b : PBatch} (h : Placed log base b) (l : List Record) :
    Placed (log ++ l) base b := by
  refine ⟨h.1, fun k r hk => ?_⟩
  have := h.2 k r hk
  rw [List.getElem?_append_left]
  · exact this
  · exact (List.getElem?_eq_some_iff.1 this).1

structure ReqOk (s : Sys) (log : List Record) (q : Req) : Prop where
  sent : ∀ b ∈ q.batches, b ∈ (s.acc q.prod).sent
  placed : ∀ (i : Nat) (b : PBatch) (a : Answer), q.batches[i]? = some b → q.answers[i]? = some a →
    a.ok = true → Placed log a.base b

structure SysOk (c : SysCfg) (t0 : Int) (s : Sys) (log : List Record) : Prop where
  acc : ∀ p, AccOk c.acc (s.acc p) (s.out p)
  time : ∀ p, AccTime t0 (s.acc p)
  stores : Stores s.replica log
  reqs : ∀ q ∈ s.reqs, ReqOk s log q
  told : ∀ x ∈ s.told, ∃ b ∈ (s.acc x.1).sent, b.id = x.2.1 ∧ Placed log x.2.2 b

/-- **Specification.** Clock and header counts in range; foreign writes announce their records. -/
def SysEv.Good (t0 : Int) : SysEv → Prop
  | .push _ r now now' => (AccEv.push r now now').Timely t0
  | .other op => op.Honest
  | _ => True

theorem LogStep.grows {log log' : List Record} {op : Op Record} {x : Result} (h : LogStep log op x log') :
    ∃ l, log' = log ++ l := by
  cases h with
  | wrote => exact ⟨_, rfl⟩
  | failed => exact ⟨_, rfl⟩
  | other => exact ⟨[], by rw [List.append_nil]⟩

theorem LogStep.wroteInv {log log' : List Record} {set : List (SBatch Record)} {u : Bool} {f : Option Nat}
    {base leo : Int} {n : Nat} (h : LogStep log (.write set u f) (.wrote base leo n) log') :
    base = log.length ∧ log' = log ++ recordsOf set := by
  generalize hop : Op.write set u f = op at h
  generalize hx : Result.wrote base leo n = x at h
  cases h with
  | wrote set' u' f' bytes => cases hop; cases hx; exact ⟨rfl, rfl⟩
  | failed => cases hx
  | other _ _ hno => exact absurd hop.symm (hno _ _ _)

theorem toBatch_header {c : AccCfg} {m : MemoryBatch} (hm : MemOk c m) (hz : c.compression ≤ 4) :
    m.toBatch.header.hasSchema = false ∧ m.toBatch.header.compression = some c.compression := by
  have hcc : m.compression = c.compression := hm.limits.2.2
  have k1 : ∀ k : Fin 8, decide ((BitVec.ofNat 16 (k.val % 8) &&& 0x10#16) ≠ 0#16) = false := by decide
  have k2 : ∀ k : Fin 5, (let h := ((BitVec.ofNat 16 (k.val % 8)) &&& 0x07#16).toNat
      if h ≤ 4 then some h else none) = some k.val := by decide
  refine ⟨k1 ⟨m.compression, by omega⟩, ?_⟩
  rw [← hcc]
  exact k2 ⟨m.compression, by omega⟩

/-- The batch a producer sends announces its records truthfully. -/
theorem wireBatch_spec {c : AccCfg} {t0 : Int} {m : MemoryBatch} (z : Compressor) (hm : MemOk c m)
    (ht : MemTime t0 m) (hne : m.records ≠ []) (hc : c.maxRequest < 2 ^ 31) (hz : c.compression ≤ 4) :
    ∃ sb, wireBatch z m = some sb ∧ HonestBatch sb ∧ sb.records = m.records ∧
      ((c.compression = 0 ∨ ∀ bs, (z.compress c.compression bs).length ≤ bs.length) → FromClient z sb) := by
  have hwf := hm.wf ht hne hc
  obtain ⟨hs, hcomp⟩ := toBatch_header hm hz
  unfold wireBatch toRaw
  rw [hcomp]
  refine ⟨_, rfl, ?_, rfl, ?_⟩
  · refine ofRaw_honest hs ?_ hne
    have hpos := List.length_pos_iff.2 hne
    have hlt := hwf.1
    show (m.records.length : Int) = (BitVec.ofNat 32 (if m.records.length > 0 then m.records.length - 1
      else m.records.length)).toInt + 1
    rw [if_pos hpos, ofNat_toInt_small 32 (m.records.length - 1) (by omega)]
    omega
  · intro hsmall
    refine ⟨m.toBatch, ⟨m.toBatch.baseOffset, BitVec.ofNat 32 (z.run c.compression (memC.enc m.records)).length,
      m.toBatch.header, m.toBatch.schemaId, z.run c.compression (memC.enc m.records)⟩, ?_, rfl, hwf, rfl, rfl, ?_⟩
    · unfold toRaw
      rw [hcomp]
      rfl
    · unfold calcBatchLen
      rw [if_neg (by rw [hs]; decide)]
      show 45 + (z.run c.compression (memC.enc m.records)).length < 2 ^ 31
      have hlen : (z.run c.compression (memC.enc m.records)).length ≤ (memC.enc m.records).length := by
        unfold Compressor.run
        split
        · exact Nat.le_refl _
        · rcases hsmall with h0 | h0
          · contradiction
          · exact h0 _
      rw [← memC_law.size_eq _ hwf] at hlen
      have := hm.write hne
      rw [rawSize_eq hm] at this
      omega

theorem SysOk.reqOk_mono {s s' : Sys} {log : List Record} {q : Req} (h : ReqOk s log q) (l : List Record)
    (hacc : ∀ p, ∀ b ∈ (s.acc p).sent, b ∈ (s'.acc p).sent) : ReqOk s' (log ++ l) q :=
  ⟨fun b hb => hacc _ b (h.sent b hb), fun i b a h1 h2 h3 => (h.placed i b a h1 h2 h3).mono l⟩

/-- Steps that change only the producers, keeping what was sent. -/
theorem SysOk.setAcc {c : SysCfg} {t0 : Int} {s : Sys} {log : List Record} (h : SysOk c t0 s log) (p : Nat)
    {a : Acc} {o : List (Record × PushRes)} {rs : List Req} (ha : AccOk c.acc a (s.out p ++ o))
    (hT : AccTime t0 a) (hs : ∀ b ∈ (s.acc p).sent, b ∈ a.sent)
    (hr : ∀ q ∈ rs, q ∈ s.reqs ∨ (q.prod = p ∧ q.answers = [] ∧ ∀ b ∈ q.batches, b ∈ a.sent)) :
    SysOk c t0 { s with acc := upd s.acc p a, out := upd s.out p (s.out p ++ o), reqs := rs } log := by
  have hacc : ∀ x, ∀ b ∈ (s.acc x).sent, b ∈ (upd s.acc p a x).sent := by
    intro x b hb
    unfold upd
    split
    · next e => subst e; exact hs b hb
    · exact hb
  refine ⟨?_, ?_, h.stores, ?_, ?_⟩
  · intro x
    show AccOk c.acc (upd s.acc p a x) (upd s.out p (s.out p ++ o) x)
    unfold upd
    split
    · exact ha
    · exact h.acc x
  · intro x
    show AccTime t0 (upd s.acc p a x)
    unfold upd
    split
    · exact hT
    · exact h.time x
  · intro q hq
    rcases hr q hq with hq | ⟨e1, e2, e3⟩
    · have := SysOk.reqOk_mono (s' := { s with acc := upd s.acc p a, out := upd s.out p (s.out p ++ o), reqs := rs })
        (h.reqs q hq) [] hacc
      rwa [List.append_nil] at this
    · refine ⟨fun b hb => ?_, fun i b x _ h2 _ => by rw [e2] at h2; simp at h2⟩
      show b ∈ (upd s.acc p a q.prod).sent
      rw [e1]
      unfold upd
      rw [if_pos rfl]
      exact e3 b hb
  · intro x hx
    obtain ⟨b, h1, h2, h3⟩ := h.told x hx
    exact ⟨b, hacc _ b h1, h2, h3⟩

/-- Steps that replace one request. -/
theorem SysOk.setReq {c : SysCfg} {t0 : Int} {s : Sys} {log : List Record} (h : SysOk c t0 s log) (i : Nat)
    {q' : Req} (hq : ReqOk s log q') : SysOk c t0 { s with reqs := s.reqs.set i q' } log := by
  refine ⟨h.acc, h.time, h.stores, ?_, h.told⟩
  intro q hmem
  rcases List.mem_or_eq_of_mem_set hmem with hm | rfl
  · exact ⟨(h.reqs q hm).sent, (h.reqs q hm).placed⟩
  · exact ⟨hq.sent, hq.placed⟩

/-- Operations on the replica. -/
theorem SysOk.op {c : SysCfg} {t0 : Int} {s : Sys} {log : List Record} (h : SysOk c t0 s log) (op : Op Record)
    (ho : op.Honest) :
    ∃ log', LogStep log op (s.replica.step c.store op).2 log' ∧
      SysOk c t0 { s with replica := (s.replica.step c.store op).1, trace := s.trace ++ [op] } log' := by
  obtain ⟨log', h1, h2, _⟩ := h.stores.step c.store op ho
  obtain ⟨l, rfl⟩ := LogStep.grows h1
  refine ⟨log ++ l, h1, h.acc, h.time, h2, ?_, ?_⟩
  · intro q hq
    exact SysOk.reqOk_mono (h.reqs q hq) l fun _ _ hb => hb
  · intro x hx
    obtain ⟨b, h1, h2, h3⟩ := h.told x hx
    exact ⟨b, h1, h2, h3.mono l⟩

theorem ReqOk.answer {s : Sys} {log : List Record} {q : Req} (h : ReqOk s log q) (a : Answer)
    (ha : ∀ b, q.batches[q.answers.length]? = some b → a.ok = true → Placed log a.base b) :
    ReqOk s log { q with answers := q.answers ++ [a] } := by
  refine ⟨h.sent, ?_⟩
  intro i b x h1 h2 h3
  have h2 : (q.answers ++ [a])[i]? = some x := h2
  rw [List.getElem?_append] at h2
  split at h2
  · exact h.placed i b x h1 h2 h3
  · next hi =>
    have hi0 : i - q.answers.length = 0 := by
      rcases Nat.eq_zero_or_pos (i - q.answers.length) with h0 | h0
      · exact h0
      · rw [List.getElem?_eq_none (by simp; omega)] at h2; cases h2
    rw [hi0] at h2
    have hx : a = x := by simpa using h2
    have hi' : i = q.answers.length := by omega
    subst hx
    rw [hi'] at h1
    exact ha b h1 h3

/-- The invariant is preserved. -/
theorem SysOk.step {c : SysCfg} {t0 : Int} {s : Sys} {log : List Record} (h : SysOk c t0 s log) (e : SysEv)
    (he : e.Good t0) (hc : c.acc.maxRequest < 2 ^ 31) (hz : c.acc.compression ≤ 4) (hsm : c.sm = none)
    (hlo : c.atMostOnce = false) : ∃ log', (∃ l, log' = log ++ l) ∧ SysOk c t0 (s.step c e) log' := by
  cases e with
  | push p r now now' =>
    have hrun := (h.acc p).push r now now'
    have hT : AccTime t0 ((s.acc p).push c.acc r now now').1 := (h.time p).step (e := .push r now now') (h.acc p) he
    refine ⟨log, ⟨[], by simp⟩, h.setAcc p hrun hT ?_ fun q hq => .inl hq⟩
    intro b hb
    have hs : ∀ k a, (createAndNewBatch c.acc r now now' k a).1.sent = a.sent := by
      intro k
      induction k with
      | zero => intro b; rfl
      | succ k ih =>
        intro b
        unfold createAndNewBatch
        split
        · rfl
        · exact ih _
        · rfl
    have : ((s.acc p).push c.acc r now now').1.sent = (s.acc p).sent := by
      unfold Acc.push
      split
      · exact hs _ _
      · split
        · rfl
        · exact hs _ _
        · rfl
    rw [this]; exact hb
  | pushTimeout p r =>
    refine ⟨log, ⟨[], by simp⟩, ?_⟩
    have := h.setAcc p (a := s.acc p) (o := [(r, .timeout)]) (rs := s.reqs)
      ((h.acc p).reject (Nat.le_refl _) rfl) (h.time p) (fun _ hb => hb) fun q hq => .inl hq
    have e : upd s.acc p (s.acc p) = s.acc := by
      funext x; unfold upd; split <;> simp_all
    rw [e] at this
    exact this
  | flush p f l now =>
    refine ⟨log, ⟨[], by simp⟩, ?_⟩
    have hT : AccTime t0 ((s.acc p).drain f l now).1 := (h.time p).step (e := .flush f l now) (h.acc p) trivial
    have hd := (h.acc p).drain f l now
    have := h.setAcc p (o := []) (rs := s.reqs ++ [⟨p, ((s.acc p).drain f l now).2, []⟩])
      (by rw [List.append_nil]; exact hd) hT (fun b hb => List.mem_append_left _ hb) (by
        intro q hq
        rcases List.mem_append.1 hq with hq | hq
        · exact .inl hq
        · rw [List.mem_singleton.1 hq]
          exact .inr ⟨rfl, rfl, fun b hb => List.mem_append_right _ hb⟩)
    have e : upd s.out p (s.out p ++ []) = s.out := by
      funext x; unfold upd; split <;> simp_all
    rw [e] at this
    exact this
  | resend i =>
    refine ⟨log, ⟨[], by simp⟩, ?_⟩
    show SysOk c t0 (match s.reqs[i]? with
      | none => s
      | some q => { s with reqs := s.reqs ++ [{ q with answers := [] }] }) log
    cases hq : s.reqs[i]? with
    | none => exact h
    | some q =>
      have hok := h.reqs q (List.mem_of_getElem? hq)
      refine ⟨h.acc, h.time, h.stores, ?_, h.told⟩
      intro x hx
      rcases List.mem_append.1 hx with hx | hx
      · exact ⟨(h.reqs x hx).sent, (h.reqs x hx).placed⟩
      · rw [List.mem_singleton.1 hx]
        exact ⟨hok.sent, fun i b a _ h2 _ => by simp at h2⟩
  | serve i u f =>
    simp only [Sys.step]
    cases hq : s.reqs[i]? with
    | none => exact ⟨log, ⟨[], by simp⟩, h⟩
    | some q =>
      have hok := h.reqs q (List.mem_of_getElem? hq)
      dsimp only
      cases hb : q.batches[q.answers.length]? with
      | none => exact ⟨log, ⟨[], by simp⟩, h⟩
      | some b =>
        dsimp only
        have hbs := hok.sent b (List.mem_of_getElem? hb)
        have hbm : b ∈ (s.acc q.prod).sent ++ (s.acc q.prod).queue := List.mem_append_left _ hbs
        obtain ⟨sb, e1, e2, e3, _⟩ := wireBatch_spec c.z ((h.acc q.prod).mem b hbm) (h.time q.prod b hbm)
          ((h.acc q.prod).nonempty b hbm) hc hz
        have ew : toWrite c b = some sb := by unfold toWrite; rw [hsm]; exact e1
        rw [ew]
        dsimp only
        obtain ⟨log', hst, hs'⟩ := h.op (.write [sb] u f) (by
          intro x hx; rw [List.mem_singleton.1 hx]; exact e2)
        refine ⟨log', LogStep.grows hst, ?_⟩
        have hok' := hs'.reqs q (List.mem_of_getElem? hq)
        refine hs'.setReq i (hok'.answer _ ?_)
        intro b' hb' hans
        rw [hb] at hb'
        cases hb'
        generalize hres : (s.replica.step c.store (.write [sb] u f)).2 = res at *
        cases res with
        | wrote base leo n =>
          obtain ⟨rfl, rfl⟩ := LogStep.wroteInv hst
          refine ⟨by show (0 : Int) ≤ (log.length : Int); omega, ?_⟩
          intro k r hk
          show (log ++ recordsOf [sb])[(log.length : Int).toNat + k]? = some r
          have hrec : recordsOf [sb] = b.mem.records := by simp [recordsOf, e3]
          rw [Int.toNat_natCast, List.getElem?_append_right (by omega), hrec,
            show log.length + k - log.length = k by omega]
          exact hk
        | failed => exact absurd hans (by decide)
        | done => exact absurd hans (by decide)
  | refuse i =>
    refine ⟨log, ⟨[], by simp⟩, ?_⟩
    simp only [Sys.step]
    cases hq : s.reqs[i]? with
    | none => exact h
    | some q =>
      dsimp only
      split
      · exact h.setReq i ((h.reqs q (List.mem_of_getElem? hq)).answer _ fun b _ hf => absurd hf (by decide))
      · exact h
  | late i k =>
    refine ⟨log, ⟨[], by simp⟩, ?_⟩
    simp only [Sys.step]
    cases hq : s.reqs[i]? with
    | none => exact h
    | some q =>
      have hok := h.reqs q (List.mem_of_getElem? hq)
      refine h.setReq i ⟨hok.sent, ?_⟩
      intro j b a h1 h2 h3
      have h2 : (q.answers.modify k fun a => { a with ok := false })[j]? = some a := h2
      rw [List.getElem?_modify] at h2
      cases hj : q.answers[j]? with
      | none => rw [hj] at h2; cases h2
      | some a' =>
        rw [hj] at h2
        have h2 : (if k = j then { a' with ok := false } else a') = a := by
          simp only [Option.map_some, Option.map_eq_map, Option.some.injEq] at h2
          exact h2
        by_cases hkj : k = j
        · rw [if_pos hkj] at h2; subst h2; cases h3
        · rw [if_neg hkj] at h2; subst h2; exact hok.placed j b a' h1 hj h3
  | respond i =>
    refine ⟨log, ⟨[], by simp⟩, ?_⟩
    simp only [Sys.step]
    cases hq : s.reqs[i]? with
    | none => exact h
    | some q =>
      dsimp only
      have hok := h.reqs q (List.mem_of_getElem? hq)
      split
      · refine ⟨h.acc, h.time, h.stores, fun q hq => ⟨(h.reqs q hq).sent, (h.reqs q hq).placed⟩, ?_⟩
        intro x hx
        rcases List.mem_append.1 hx with hx | hx
        · exact h.told x hx
        · unfold learned at hx
          rw [List.mem_filterMap] at hx
          obtain ⟨⟨b, a⟩, hmem, hx⟩ := hx
          dsimp only at hx
          split at hx
          · next hcond =>
            cases hx
            rw [hlo, Bool.or_false] at hcond
            obtain ⟨j, hj, hje⟩ := List.mem_iff_getElem.1 hmem
            have hz := List.getElem?_eq_getElem hj
            rw [hje] at hz
            rw [List.getElem?_zip_eq_some] at hz
            have hb := List.mem_of_getElem? hz.1
            exact ⟨b, hok.sent b hb, rfl, hok.placed j b a hz.1 hz.2 hcond⟩
          · cases hx
      · exact h
  | other op =>
    obtain ⟨log', hst, h'⟩ := h.op op he
    exact ⟨log', LogStep.grows hst, h'⟩

theorem SysOk.init (c : SysCfg) (t0 : Int) : SysOk c t0 Sys.init [] where
  acc := fun _ => AccOk.init c.acc
  time := fun _ b hb => by simp [Sys.init, Acc.init] at hb
  stores := Stores.init
  reqs := fun q hq => by simp [Sys.init] at hq
  told := fun x hx => by simp [Sys.init] at hx

theorem SysOk.run {c : SysCfg} {t0 : Int} (hc : c.acc.maxRequest < 2 ^ 31) (hz : c.acc.compression ≤ 4)
    (hsm : c.sm = none) (hlo : c.atMostOnce = false) : ∀ (evs : List SysEv) (s : Sys) (log : List Record),
    SysOk c t0 s log → (∀ e ∈ evs, e.Good t0) →
    ∃ log', (∃ l, log' = log ++ l) ∧ SysOk c t0 (s.run c evs) log'
  | [], _, log, h, _ => ⟨log, ⟨[], by simp⟩, h⟩
  | e :: evs, _, _, h, hg => by
    obtain ⟨_, ⟨l1, rfl⟩, h'⟩ := h.step e (hg e (by simp)) hc hz hsm hlo
    obtain ⟨log', ⟨l2, e2⟩, h''⟩ := SysOk.run hc hz hsm hlo evs _ _ h' fun x hx => hg x (List.mem_cons_of_mem _ hx)
    exact ⟨log', ⟨l1 ++ l2, by rw [e2, List.append_assoc]⟩, h''⟩

end Verif.Producer
