import Verif.Producer.EndToEnd
import Verif.Props.Log
import Verif.Props.Reader

/-! # C10: the offset told to the producer is the offset the consumer reads -/

namespace Verif.Props
open Verif.Producer Verif.Wire Verif.Storage

/-- **Specification.** Producer `p` has been told that the record it pushed with this content has this
offset: the base offset of its batch plus the position in the batch — record.rs:148-155. -/
def Told (s : Sys) (p : Nat) (content : BitVec 8 × Option Bytes × Bytes × BitVec 64) (offset : Int) : Prop :=
  ∃ batch base pos, (p, batch, base) ∈ s.told ∧ (content, batch, pos) ∈ accepted (s.out p) ∧
    offset = base + (pos : Int)

theorem replica_run_append (c : Cfg) {α : Type} : ∀ (l m : List (Op α)) (r : Replica α),
    (r.run c (l ++ m)).1 = ((r.run c l).1.run c m).1
  | [], _, _ => rfl
  | op :: l, m, r => replica_run_append c l m (r.step c op).1

/-- The settings: requests below 2^31 bytes, a known codec that does not enlarge, no SmartModule,
at-least-once delivery. -/
structure PlainSys (c : SysCfg) : Prop where
  req : c.acc.maxRequest < 2 ^ 31
  codec : c.acc.compression ≤ 4
  noModule : c.sm = none
  atLeastOnce : c.atMostOnce = false

/-- The operations on the replica account for its state. -/
theorem sys_trace (c : SysCfg) (hp : PlainSys c) (t0 : Int) (P : SBatch Record → Prop)
    (hP : ∀ m, MemOk c.acc m → MemTime t0 m → m.records ≠ [] → ∀ sb, wireBatch c.z m = some sb → P sb) :
    ∀ (evs : List SysEv) (s : Sys) (log : List Record), SysOk c t0 s log → (∀ e ∈ evs, e.Good t0) →
    (∀ e ∈ evs, ∀ op, e = .other op → op.All P) →
    ∃ t, (s.run c evs).trace = s.trace ++ t ∧ (s.run c evs).replica = (s.replica.run c.store t).1 ∧
      (∀ op ∈ t, op.Honest) ∧ (∀ op ∈ t, op.All P) ∧
      ((∀ e ∈ evs, ∀ op, e = .other op → op.Keeps) → ∀ op ∈ t, op.Keeps) ∧
      ((∀ e ∈ evs, ∀ op, e = .other op → ∀ x, op ≠ .cleanTtl x) → ∀ op ∈ t, ∀ x, op ≠ .cleanTtl x)
  | [], s, _, _, _, _ => ⟨[], by simp [Sys.run], rfl, by simp, by simp, by simp, by simp⟩
  | e :: evs, s, log, h, hg, ho => by
    obtain ⟨log', _, h'⟩ := h.step e (hg e (by simp)) hp.req hp.codec hp.noModule hp.atLeastOnce
    obtain ⟨t, e1, e2, e3, e4, e5, e6⟩ := sys_trace c hp t0 P hP evs (s.step c e) log' h'
      (fun x hx => hg x (List.mem_cons_of_mem _ hx)) (fun x hx => ho x (List.mem_cons_of_mem _ hx))
    have key : ∃ t', (s.step c e).trace = s.trace ++ t' ∧
        (s.step c e).replica = (s.replica.run c.store t').1 ∧ (∀ op ∈ t', op.Honest) ∧ (∀ op ∈ t', op.All P) ∧
        ((∀ op, e = .other op → op.Keeps) → ∀ op ∈ t', op.Keeps) ∧
        ((∀ op, e = .other op → ∀ x, op ≠ .cleanTtl x) → ∀ op ∈ t', ∀ x, op ≠ .cleanTtl x) := by
      have same : ∀ s' : Sys, s'.trace = s.trace → s'.replica = s.replica →
          ∃ t', s'.trace = s.trace ++ t' ∧
        s'.replica = (s.replica.run c.store t').1 ∧ (∀ op ∈ t', op.Honest) ∧ (∀ op ∈ t', op.All P) ∧
        ((∀ op, e = .other op → op.Keeps) → ∀ op ∈ t', op.Keeps) ∧
        ((∀ op, e = .other op → ∀ x, op ≠ .cleanTtl x) → ∀ op ∈ t', ∀ x, op ≠ .cleanTtl x) := by
        intro s' h1 h2
        exact ⟨[], by rw [h1, List.append_nil], by rw [h2]; rfl, by simp, by simp, by simp, by simp⟩
      cases e with
      | push p r now now' => exact same _ rfl rfl
      | pushTimeout p r => exact same _ rfl rfl
      | flush p f l now => exact same _ rfl rfl
      | resend i => simp only [Sys.step]; split <;> exact same _ rfl rfl
      | refuse i =>
        simp only [Sys.step]
        split
        · exact same _ rfl rfl
        · split <;> exact same _ rfl rfl
      | late i k => simp only [Sys.step]; split <;> exact same _ rfl rfl
      | respond i =>
        simp only [Sys.step]
        split
        · exact same _ rfl rfl
        · split <;> exact same _ rfl rfl
      | other op =>
        refine ⟨[op], rfl, rfl, ?_, ?_, ?_, ?_⟩
        · intro x hx; rw [List.mem_singleton.1 hx]; exact hg (.other op) (by simp)
        · intro x hx; rw [List.mem_singleton.1 hx]; exact ho (.other op) (by simp) op rfl
        · intro hk x hx; rw [List.mem_singleton.1 hx]; exact hk op rfl
        · intro hk x hx; rw [List.mem_singleton.1 hx]; exact hk op rfl
      | serve i u f =>
        simp only [Sys.step]
        cases hq : s.reqs[i]? with
        | none => exact same _ rfl rfl
        | some q =>
          have hok := h.reqs q (List.mem_of_getElem? hq)
          dsimp only
          cases hb : q.batches[q.answers.length]? with
          | none => exact same _ rfl rfl
          | some b =>
            dsimp only
            have hbs := hok.sent b (List.mem_of_getElem? hb)
            have hbm : b ∈ (s.acc q.prod).sent ++ (s.acc q.prod).queue := List.mem_append_left _ hbs
            obtain ⟨sb, w1, w2, w3, _⟩ := wireBatch_spec c.z ((h.acc q.prod).mem b hbm) (h.time q.prod b hbm)
              ((h.acc q.prod).nonempty b hbm) hp.req hp.codec
            have ew : toWrite c b = some sb := by unfold toWrite; rw [hp.noModule]; exact w1
            rw [ew]
            refine ⟨[.write [sb] u f], rfl, rfl, ?_, ?_, ?_, ?_⟩
            · intro x hx; rw [List.mem_singleton.1 hx]
              intro y hy; rw [List.mem_singleton.1 hy]; exact w2
            · intro x hx; rw [List.mem_singleton.1 hx]
              intro y hy; rw [List.mem_singleton.1 hy]
              exact hP b.mem ((h.acc q.prod).mem b hbm) (h.time q.prod b hbm)
                ((h.acc q.prod).nonempty b hbm) sb w1
            · intro _ x hx; rw [List.mem_singleton.1 hx]; trivial
            · intro _ x hx; rw [List.mem_singleton.1 hx]; intro y; simp
    obtain ⟨t', f1, f2, f3, f4, f5, f6⟩ := key
    refine ⟨t' ++ t, ?_, ?_, ?_, ?_, ?_, ?_⟩
    · show ((s.step c e).run c evs).trace = _
      rw [e1, f1, List.append_assoc]
    · show ((s.step c e).run c evs).replica = _
      rw [e2, f2, replica_run_append]
    · intro op hop
      rcases List.mem_append.1 hop with hop | hop
      · exact f3 op hop
      · exact e3 op hop
    · intro op hop
      rcases List.mem_append.1 hop with hop | hop
      · exact f4 op hop
      · exact e4 op hop
    · intro hk op hop
      rcases List.mem_append.1 hop with hop | hop
      · exact f5 (fun o => hk e (by simp) o) op hop
      · exact e5 (fun x hx => hk x (List.mem_cons_of_mem _ hx)) op hop
    · intro hk op hop
      rcases List.mem_append.1 hop with hop | hop
      · exact f6 (fun o => hk e (by simp) o) op hop
      · exact e6 (fun x hx => hk x (List.mem_cons_of_mem _ hx)) op hop

theorem numbered_mem {α : Type} {log : List α} {o : Int} {y : α} (h : (o, y) ∈ numbered log) :
    ∃ k : Nat, o = k ∧ log[k]? = some y := by
  obtain ⟨k, hk, he⟩ := List.mem_iff_getElem.1 h
  have := numbered_getElem? log k
  rw [List.getElem?_eq_getElem hk, he] at this
  cases hl : log[k]? with
  | none => rw [hl] at this; cases this
  | some a =>
    rw [hl] at this
    simp only [Option.map_some, Option.some.injEq, Prod.mk.injEq] at this
    exact ⟨k, this.1, by rw [hl, this.2]⟩

/-- Any number of producers with any interleaving of pushes, flushes, broker writes (failing or not),
resent requests, timeouts and responses, and any other activity on the partition (other clients'
writes, retention, restarts): if a producer has been told that its record has offset `o`, then the only
record stored at offset `o`, now or later, is that record; and as long as retention removes nothing it
is there.

Missing: at-most-once delivery (`C10_violated_at_most_once`), SmartModules given with the request
(`C10_violated_smartmodule`), and a change of leader (C23). -/
theorem C10_told_offset_partial (c : SysCfg) (hp : PlainSys c) (t0 : Int) (evs : List SysEv)
    (hg : ∀ e ∈ evs, e.Good t0) (p : Nat) (content : BitVec 8 × Option Bytes × Bytes × BitVec 64) (o : Int)
    (ht : Told (Sys.init.run c evs) p content o) :
    ∃ x, payload x = content ∧
      (∀ more, (∀ e ∈ more, SysEv.Good t0 e) → ∀ y,
        (o, y) ∈ (Sys.init.run c (evs ++ more)).replica.pairs → y = x) ∧
      ((∀ e ∈ evs, ∀ op, e = .other op → op.Keeps) → (o, x) ∈ (Sys.init.run c evs).replica.pairs) := by
  obtain ⟨log, _, h⟩ := SysOk.run hp.req hp.codec hp.noModule hp.atLeastOnce evs _ _ (SysOk.init c t0) hg
  obtain ⟨batch, base, pos, h1, h2, rfl⟩ := ht
  obtain ⟨b, hb, hid, hpl⟩ := h.told _ h1
  dsimp only at hb hid
  rw [← (h.acc p).slots, List.mem_flatMap] at h2
  obtain ⟨b', hb', hslot⟩ := h2
  unfold PBatch.slots at hslot
  rw [List.mem_map] at hslot
  obtain ⟨⟨x, k⟩, hx, he⟩ := hslot
  simp only [Prod.mk.injEq] at he
  obtain ⟨e1, e2, e3⟩ := he
  have hbb : b' = b := by
    have hn := (h.acc p).nodup
    obtain ⟨i, hi, hie⟩ := List.mem_iff_getElem.1 hb'
    obtain ⟨j, hj, hje⟩ := List.mem_iff_getElem.1
      (List.mem_append_left ((Sys.init.run c evs).acc p).queue hb)
    have key := (List.getElem_inj hn (i := i) (j := j) (h₀ := by simpa using hi) (h₁ := by simpa using hj)).1 (by
      rw [List.getElem_map, List.getElem_map, hie, hje, e2, hid])
    subst key
    rw [← hie, ← hje]
  subst hbb
  have hk : b'.mem.records[k]? = some x := by
    have := List.mem_zipIdx_iff_getElem?.1 hx
    simpa using this
  subst e3
  have hlog : log[base.toNat + k]? = some x := hpl.2 k x hk
  have hbase : base + (k : Int) = ((base.toNat + k : Nat) : Int) := by
    have h0 : 0 ≤ base := hpl.1
    omega
  refine ⟨x, e1, ?_, ?_⟩
  · intro more hmore y hy
    have hrun : Sys.init.run c (evs ++ more) = (Sys.init.run c evs).run c more := by
      unfold Sys.run; rw [List.foldl_append]
    rw [hrun] at hy
    obtain ⟨log2, ⟨l, rfl⟩, h'⟩ := SysOk.run hp.req hp.codec hp.noModule hp.atLeastOnce more _ _ h hmore
    obtain ⟨n, hn, hy'⟩ := numbered_mem (h'.stores.part.subset hy)
    have hn' : n = base.toNat + k := by omega
    rw [hn', List.getElem?_append_left (List.getElem?_eq_some_iff.1 hlog).1, hlog] at hy'
    cases hy'; rfl
  · intro hk
    obtain ⟨t, f1, f2, f3, _, f5, _⟩ := sys_trace c hp t0 (fun _ => True) (fun _ _ _ _ _ _ => trivial)
      evs _ _ (SysOk.init c t0) hg (by intro e' _ op _; cases op <;> simp [Op.All])
    obtain ⟨log2, _, g2, g3⟩ := C09_offsets_gap_free c.store t f3 (f5 hk)
    have f2 : (Sys.init.run c evs).replica = (Replica.init.run c.store t).1 := f2
    rw [← f2] at g2 g3
    have hlen : log.length = log2.length := by have := h.stores.leo; omega
    have hpart := h.stores.part
    rw [g2] at hpart
    have heq := hpart.eq_of_length (by unfold numbered; simp [hlen])
    rw [g2, heq, hbase]
    have := numbered_getElem? log (base.toNat + k)
    rw [hlog] at this
    exact List.mem_of_getElem? this

/-- **Specification.** The operations among what happens. -/
def opsOf (revs : List (Ev Record)) : List (Op Record) := revs.filterMap fun
  | .op x => some x
  | .fetch _ => none

theorem reader_replica {parse : Parser Record} (c : Cfg) : ∀ (revs : List (Ev Record)) (r : Replica Record)
    (rd : Reader Record), (Reader.run parse c (r, rd) revs).1 = (r.run c (opsOf revs)).1
  | [], _, _ => rfl
  | .op q :: revs, r, rd => reader_replica c revs (r.step c q).1 rd
  | .fetch n :: revs, r, rd => reader_replica c revs r (rd.fetch parse r n)

/-- Every consumer that starts at any moment of such a history (split into `ops` before and the
operations within `revs` after), reads with limits of at least a segment, and gets a record with an
offset told to a producer, gets that producer's record. -/
theorem C10_consumer_partial (c : SysCfg) (hp : PlainSys c)
    (hcomp : c.acc.compression = 0 ∨ ∀ bs, (c.z.compress c.acc.compression bs).length ≤ bs.length)
    (hz : ∀ k bs, c.z.uncompress k (c.z.compress k bs) = some bs) (t0 : Int) (evs : List SysEv)
    (hg : ∀ e ∈ evs, e.Good t0)
    (hother : ∀ e ∈ evs, ∀ op, e = .other op → op.All (FromClient c.z) ∧ ∀ x, op ≠ .cleanTtl x)
    (p : Nat) (content : BitVec 8 × Option Bytes × Bytes × BitVec 64) (o : Int)
    (ht : Told (Sys.init.run c evs) p content o)
    (ops : List (Op Record)) (revs : List (Ev Record))
    (hsplit : (Sys.init.run c evs).trace = ops ++ opsOf revs)
    (hkeep : ∀ e ∈ revs, ∀ x, e = .op x → x.Keeps)
    (hlim : ∀ e ∈ revs, e.Limit (c.store.segMax ≤ ·)) :
    let r0 := (Replica.init.run c.store ops).1
    let s := Reader.run (parseClient c.z) c.store (r0, ⟨r0.logStart, []⟩) revs
    s.1.leo < 2 ^ 63 → ∀ y, (o, y) ∈ s.2.got → payload y = content := by
  intro r0 s hleo y hy
  obtain ⟨x, hx, huniq, _⟩ := C10_told_offset_partial c hp t0 evs hg p content o ht
  obtain ⟨t, f1, f2, f3, f4, _, f6⟩ := sys_trace c hp t0 (FromClient c.z)
    (fun m h1 h2 h3 sb h4 => by
      obtain ⟨sb', e1, _, _, e4⟩ := wireBatch_spec c.z h1 h2 h3 hp.req hp.codec
      rw [e1] at h4; cases h4; exact e4 hcomp)
    evs _ _ (SysOk.init c t0) hg fun e he op h => (hother e he op h).1
  have f6 := f6 fun e he op h => (hother e he op h).2
  have f1 : (Sys.init.run c evs).trace = t := f1
  have f2 : (Sys.init.run c evs).replica = (Replica.init.run c.store t).1 := f2
  rw [f1] at hsplit
  have hmem : ∀ q, Ev.op q ∈ revs → q ∈ t := by
    intro q hq
    rw [hsplit]
    exact List.mem_append_right _ (List.mem_filterMap.2 ⟨_, hq, rfl⟩)
  obtain ⟨h1, _, _⟩ := C13_client_partial c.z hz c.store ops
    (fun q hq => f3 q (by rw [hsplit]; exact List.mem_append_left _ hq))
    (fun q hq => f6 q (by rw [hsplit]; exact List.mem_append_left _ hq))
    (fun q hq => f4 q (by rw [hsplit]; exact List.mem_append_left _ hq)) revs
    (by
      intro e he
      cases e with
      | op q => exact ⟨f3 q (hmem q he), hkeep _ he q rfl, f4 q (hmem q he)⟩
      | fetch n => trivial) hlim hleo
  have hs1 : s.1 = (Sys.init.run c evs).replica := by
    rw [f2, hsplit, replica_run_append]
    show (Reader.run (parseClient c.z) c.store (r0, ⟨r0.logStart, []⟩) revs).1 = (r0.run c.store _).1
    exact reader_replica c.store revs r0 _
  have hin : (o, y) ∈ s.1.pairs := by
    rw [h1] at hy
    exact List.mem_of_mem_take hy
  rw [hs1] at hin
  rw [huniq [] (by simp) y (by rw [List.append_nil]; exact hin)]
  exact hx

/-! Concrete cases -/

def e2eCfg (atMostOnce : Bool) (sm : Option (List Record → List Record)) : SysCfg :=
  ⟨⟨120, 1000, 0⟩, clientCfg, noCompression, atMostOnce, sm⟩

def note (n : Nat) : Record := ⟨⟨0#8, 0#64, 0#64⟩, none, [UInt8.ofNat n], 0#64⟩

/-- Two producers; the first one's request with one batch is handled, resent and handled again after
the second one's; the responses of both copies arrive. -/
def twoProducers : List SysEv :=
  [.push 0 (note 10) 5 5, .push 1 (note 20) 5 5, .push 0 (note 11) 6 6, .flush 0 true 100 7,
   .flush 1 true 100 7, .serve 0 true none, .serve 1 true none, .resend 0, .serve 2 true none,
   .respond 2, .respond 1]

example : PlainSys (e2eCfg false none) := ⟨by decide, by decide, rfl, rfl⟩

example : ∀ e ∈ twoProducers, SysEv.Good 0 e := by
  intro e he
  simp only [twoProducers, List.mem_cons, List.not_mem_nil, or_false] at he
  rcases he with rfl | rfl | rfl | rfl | rfl | rfl | rfl | rfl | rfl | rfl | rfl
  all_goals first | trivial | exact ⟨by decide, by decide, by decide⟩

/-- Producer 0 is told offsets 3 and 4 (those of the second copy), producer 1 offset 2. -/
example : let s := Sys.init.run (e2eCfg false none) twoProducers
    s.told = [(0, 0, 3), (1, 0, 2)] ∧
    s.replica.pairs.map (fun q => (q.1, q.2.value)) = [(0, [10]), (1, [11]), (2, [20]), (3, [10]), (4, [11])] ∧
    accepted (s.out 0) = [(payload (note 10), 0, 0), (payload (note 11), 0, 1)] := by decide +kernel

/-- A consumer that starts reading after the first write, with the others in between. -/
example : let s := Sys.init.run (e2eCfg false none) twoProducers
    let revs := Ev.fetch 1000 :: (s.trace.drop 1).flatMap fun op => [Ev.op op, Ev.fetch 1000]
    let r0 := (Replica.init.run clientCfg (s.trace.take 1)).1
    (Reader.run (parseClient noCompression) clientCfg (r0, ⟨r0.logStart, []⟩) revs).2.got.map
      (fun q => (q.1, q.2.value)) = [(0, [10]), (1, [11]), (2, [20]), (3, [10]), (4, [11])] := by
  decide +kernel

/-- The claim fails with at-most-once delivery: the broker refuses the batch, the producer is told
offset 0, where another record is. -/
theorem C10_violated_at_most_once :
    let s := Sys.init.run (e2eCfg true none)
      [.push 0 (note 10) 5 5, .flush 0 true 100 7, .serve 0 true none,
       .push 1 (note 20) 5 5, .flush 1 true 100 7, .refuse 1, .respond 1]
    Told s 1 (payload (note 20)) 0 ∧ s.replica.pairs.map (fun q => (q.1, q.2.value)) = [(0, [10])] := by
  refine ⟨⟨0, 0, 0, ?_, ?_, rfl⟩, ?_⟩ <;> decide +kernel

/-- It fails when the request carries a SmartModule that drops records: here the first of two is
dropped; the producer is told offsets 0 and 1 for them, offset 0 has the second one. -/
theorem C10_violated_smartmodule :
    let s := Sys.init.run (e2eCfg false (some (List.drop 1)))
      [.push 0 (note 10) 5 5, .push 0 (note 11) 5 5, .flush 0 true 100 7, .serve 0 true none, .respond 0]
    Told s 0 (payload (note 10)) 0 ∧ Told s 0 (payload (note 11)) 1 ∧
    s.replica.pairs.map (fun q => (q.1, q.2.value)) = [(0, [11])] := by
  refine ⟨⟨0, 0, 0, ?_, ?_, rfl⟩, ⟨0, 0, 1, ?_, ?_, rfl⟩, ?_⟩ <;> decide +kernel

/-- If the SmartModule drops all records of a batch, the producer is told that they are stored from offset 0 on
(produce_handler.rs:148-149, 421-426: the answer for the partition has no error and its default offset), where there is
nothing, or a record of somebody else. -/
theorem C10_violated_dropped :
    let s := Sys.init.run (e2eCfg false (some (List.filter fun r => r.value ≠ [11])))
      [.push 0 (note 10) 5 5, .flush 0 true 100 7, .serve 0 true none, .respond 0,
       .push 0 (note 11) 8 8, .flush 0 true 100 9, .serve 1 true none, .respond 1]
    Told s 0 (payload (note 10)) 0 ∧ Told s 0 (payload (note 11)) 0 ∧
    s.replica.pairs.map (fun q => (q.1, q.2.value)) = [(0, [10])] := by
  refine ⟨⟨0, 0, 0, ?_, ?_, rfl⟩, ⟨1, 0, 0, ?_, ?_, rfl⟩, ?_⟩ <;> decide +kernel

end Verif.Props
