import Verif.Producer.FlushReturn

namespace Verif.Props
open Verif.Producer Verif.Wire

/-! ## C74 No accepted record is left in the producer's queue -/

/-- Whatever happened before (any pushes, flushes, failures, in any interleaving), as long as the system
clock was not set back: if a partition's task is left to itself then it takes only a bounded number of
steps, and when it has nothing left to do, however long one waits, each record accepted so far has left
the queue and its channel was used or dropped, so that waiting for its metadata ends. -/
theorem C74_drains_partial (c : PoolCfg) (evs : List PoolEv) (hclock : ∀ e ∈ evs, NotSetBack e) (s : Pool)
    (h : Pool.init.run c evs = some s) (p : Nat) (hp : (s.part p).pushing = none) :
    ∃ bound, ∀ l k t, (s.part p).alone c.linger s.clock l = some (k, t) →
      l.length ≤ bound ∧
      ((∀ (d : Nat) e, t.task c.linger { k with mono := k.mono + d } e = none) →
        t.acc.queue = [] ∧
        ∀ x ∈ accepted (s.part p).out, ∃ o, (x.2.1, o) ∈ t.done) := by
  refine ⟨(s.part p).weight, fun l k t ht => ?_⟩
  obtain ⟨a1, a2, a3, a4, a5⟩ := alone_spec (c := c.acc) l s.clock k (s.part p) t ht (pool_parts h p)
    (pool_timers hclock h p)
  refine ⟨by omega, fun hr => ?_⟩
  obtain ⟨b1, b2⟩ := rest_empty a3 (a5.trans hp) hr
  refine ⟨b1, fun x hx => ?_⟩
  rw [← a4] at hx
  obtain ⟨y, hy, e⟩ := List.mem_map.1 (accepted_done a2 b1 b2 x hx)
  exact ⟨y.2, by rw [← e]; exact hy⟩

/-- Each batch's channel is settled once, and only those of batches that were taken out of the queue. -/
theorem C74_settled_once (c : PoolCfg) (evs : List PoolEv) (s : Pool) (h : Pool.init.run c evs = some s)
    (p : Nat) :
    ((s.part p).done.map Prod.fst).Nodup ∧
    ∀ b ∈ (s.part p).acc.queue, b.id ∉ (s.part p).done.map Prod.fst := by
  have hok := pool_parts h p
  refine ⟨done_nodup hok, fun b hb hm => ?_⟩
  have hn := hok.acc.nodup
  rw [List.map_append] at hn
  refine (List.nodup_append.1 hn).2.2 b.id ?_ b.id (List.mem_map.2 ⟨b, hb, rfl⟩) rfl
  rw [hok.flight]
  exact List.mem_append_left _ hm

private def flushRec : Record := ⟨⟨0#8, 0#64, 0#64⟩, none, [1], 0#64⟩
private def flushCfg : PoolCfg := ⟨⟨16384, 1048576, 0⟩, 100⟩

/-- Push, then the timer runs out: the record is sent without any call of `flush`. -/
example :
    ((Pool.init.run flushCfg [.push 0 flushRec 0 0, .pushEnd 0, .task 0 .onNew, .tick 100, .task 0 .onTimer,
      .task 0 .drain, .task 0 (.answered 0)]).map fun s =>
        ((s.part 0).done, (s.part 0).acc.queue.length, (s.part 0).out.map Prod.snd)) =
      some ([(0, .told)], 0, [.ok 0 0]) := by decide +kernel

/-- If the system clock is set back by 50 ms while a batch waits for a linger time of 100 ms, the timer
fires too early for the batch: it stays in the queue, the timer is gone, and the task has nothing left to
do.  The record stays there until another record opens a new batch or `flush` is called. -/
theorem C74_violated_clock_set_back :
    ∃ s, Pool.init.run flushCfg [.push 0 flushRec 0 0, .pushEnd 0, .task 0 .onNew, .adjust (-50), .tick 100,
        .task 0 .onTimer, .task 0 .drain, .task 0 (.answered 0)] = some s ∧
      accepted (s.part 0).out = [(payload flushRec, 0, 0)] ∧
      (s.part 0).done = [] ∧ (s.part 0).acc.queue ≠ [] ∧
      ∀ (d : Nat) e, (s.part 0).task flushCfg.linger { s.clock with mono := s.clock.mono + d } e = none := by
  refine ⟨_, rfl, by decide +kernel, by decide +kernel, by decide +kernel, ?_⟩
  intro d e
  cases e <;> rfl

/-! ## C75 A flush returns only after everything accepted before was sent -/

/-- Any number of concurrent pushes and flushes, failing requests, timers, cleared errors, clocks: when a
call of `flush` returns successfully, every record accepted before the call was made has left its queue
and the request with it has ended, provided no call of `flush` is dropped by its caller.  Missing: that the
request succeeded (see `C75_delivered_partial`), and dropped calls (`C75_violated_dropped`). -/
theorem C75_waits_partial (c : PoolCfg) (before after : List PoolEv) (fs es : List Nat) (s0 s1 s : Pool)
    (hb : ∀ e ∈ before, NotDropped e) (ha : ∀ e ∈ after, NotDropped e)
    (h0 : Pool.init.run c before = some s0) (h1 : s0.step c (.flushStart fs es) = some s1)
    (h : s1.run c after = some s) (hr : s.calls[s0.calls.length]? = some (.returned true)) :
    ∀ p, ∀ x ∈ accepted (s0.part p).out, ∃ o, (x.2.1, o) ∈ (s.part p).done := by
  have hinv := pool_flush hb h0
  refine flush_returns (c := c) (good := NotDropped)
    (Inv := fun s => (∀ p, PartOk c.acc (s.part p)) ∧ FlushOk s)
    (S := fun v b => ∃ o, (b, o) ∈ v.done) ?_ ?_ ?_ hinv ha trivial
    (fun p hp => (hinv.2.outside p hp).2) h1 h hr
  · intro s e s' hs hg h
    exact ⟨Pool.part_step (Q := fun _ v => PartOk c.acc v) (good := fun _ => True)
      (fun k s e s' h hs => h.task hs) (fun k s r n n' s' _ h hs => h.pushStart hs)
      (fun k s s' h hs => h.pushEnd hs) (fun k s n h => h.congr rfl rfl rfl rfl rfl)
      (fun k s n h => h.congr rfl rfl rfl rfl rfl) (fun k s h => h.congr rfl rfl rfl rfl rfl)
      (fun k s d h => h) (fun k s d _ h => h) s e s' hs.1 trivial h,
      hs.2.step hs.1 (fun i e => by subst e; exact hg) h⟩
  · intro s t b ⟨_, o, hd⟩ ⟨x, hx⟩
    exact ⟨x, by rw [hd]; exact List.mem_append_left _ hx⟩
  · intro s n p q hi hn _ x hx y hy
    obtain ⟨z, hz, e⟩ := List.mem_map.1
      (hi.2.seen _ (List.mem_of_getElem? hn) rfl x hx (by intro hm; cases hm) y hy)
    exact ⟨z.2, by rw [← e]; exact hz⟩

/-- If moreover errors are not cleared, the broker answers for every batch, and the two hash maps of the
producer pool are visited in the same order (always so for topics with one partition), a successful
return means that every record accepted before the call was delivered: the request with it was answered
(at-least-once delivery) or put on the connection (at-most-once). -/
theorem C75_delivered_partial (c : PoolCfg) (before after : List PoolEv) (fs : List Nat) (s0 s1 s : Pool)
    (hb : ∀ e ∈ before, Plain e) (ha : ∀ e ∈ after, Plain e)
    (h0 : Pool.init.run c before = some s0) (h1 : s0.step c (.flushStart fs fs) = some s1)
    (h : s1.run c after = some s) (hr : s.calls[s0.calls.length]? = some (.returned true)) :
    ∀ p, ∀ x ∈ accepted (s0.part p).out, (x.2.1, Outcome.told) ∈ (s.part p).done := by
  have hinv := pool_told hb h0
  refine flush_returns (c := c) (good := Plain)
    (Inv := fun s => (∀ p, PartOk c.acc (s.part p)) ∧ FlushOk s ∧ ToldOk s)
    (S := fun v b => (b, Outcome.told) ∈ v.done) ?_ ?_ ?_ hinv ha (rfl : fs = fs)
    (fun p hp => (hinv.2.1.outside p hp).2) h1 h hr
  · intro s e s' hs hg h
    exact ⟨Pool.part_step (Q := fun _ v => PartOk c.acc v) (good := fun _ => True)
      (fun k s e s' h hs => h.task hs) (fun k s r n n' s' _ h hs => h.pushStart hs)
      (fun k s s' h hs => h.pushEnd hs) (fun k s n h => h.congr rfl rfl rfl rfl rfl)
      (fun k s n h => h.congr rfl rfl rfl rfl rfl) (fun k s h => h.congr rfl rfl rfl rfl rfl)
      (fun k s d h => h) (fun k s d _ h => h) s e s' hs.1 trivial h,
      hs.2.1.step hs.1 (fun i e => by subst e; exact hg) h, hs.2.2.step hs.2.1 hg h⟩
  · intro s t b ⟨_, o, hd⟩ hx
    rw [hd]; exact List.mem_append_left _ hx
  · intro s n p q hi hn he x hx y hy
    have hmem := List.mem_of_getElem? hn
    by_cases hxp : x = p
    · subst hxp
      have hpq : x = q := hi.2.2.same _ hmem (x, q) List.mem_cons_self
      subst hpq
      exact AllDone.told (hi.2.1.seen _ hmem rfl x hx (by intro hm; cases hm)) (hi.2.2.clean x) he y hy
    · refine hi.2.2.told _ hmem rfl x hx ?_ y hy
      intro hm
      exact hxp (by simpa [Flusher.unchecked] using hm)

/-- Two partitions, two records, a flush that waits for both. -/
example :
    (Pool.init.run flushCfg [.push 0 flushRec 0 0, .pushEnd 0, .push 1 flushRec 0 0, .pushEnd 1,
      .flushStart [1, 0] [1, 0], .flushNotify 0, .task 1 .onFlush, .task 1 .drain, .task 1 (.answered 0),
      .flushTake 0, .flushCheck 0, .flushNotify 0, .task 0 .onFlush, .task 0 .drain, .task 0 (.answered 0),
      .flushTake 0, .flushCheck 0]).map (fun s => (s.calls, (s.part 0).done, (s.part 1).done)) =
    some ([.returned true], [(0, .told)], [(0, .told)]) := by decide +kernel

/-- `flush_all_batches` zips two hash maps whose orders are unrelated, so that after flushing one partition
it reads the error of another: with two partitions visited in opposite orders, the flush of partition 0
fails after the error of partition 0 was read, and `flush` returns success although the record of
partition 0 was lost. -/
theorem C75_violated_other_error :
    ∃ s0 s1 s, Pool.init.run flushCfg [.push 0 flushRec 0 0, .pushEnd 0, .push 1 flushRec 0 0, .pushEnd 1]
        = some s0 ∧
      s0.step flushCfg (.flushStart [1, 0] [0, 1]) = some s1 ∧
      s1.run flushCfg [.flushNotify 0, .task 1 .onFlush, .task 1 .drain, .task 1 (.answered 0),
        .flushTake 0, .flushCheck 0, .flushNotify 0, .task 0 .onFlush, .task 0 .drain, .task 0 .failed,
        .flushTake 0, .flushCheck 0] = some s ∧
      s.calls[s0.calls.length]? = some (.returned true) ∧
      (payload flushRec, 0, 0) ∈ accepted (s0.part 0).out ∧
      (s.part 0).done = [(0, .lost)] ∧ (s.part 0).error = true := by
  refine ⟨_, _, _, rfl, rfl, rfl, ?_, ?_, ?_, ?_⟩ <;> decide +kernel

/-- A call of `flush` that its caller drops while it waits (a timeout around it, say) leaves an answer
behind.  The next call takes that answer and returns success before the task has even begun: the record
accepted in between is still in the queue. -/
theorem C75_violated_dropped :
    ∃ s0 s1 s, Pool.init.run flushCfg [.push 0 flushRec 0 0, .pushEnd 0, .flushStart [0] [0], .flushNotify 0,
        .flushCancel 0, .task 0 .onFlush, .task 0 .drain, .task 0 (.answered 0),
        .push 0 flushRec 0 0, .pushEnd 0] = some s0 ∧
      s0.step flushCfg (.flushStart [0] [0]) = some s1 ∧
      s1.run flushCfg [.flushNotify 1, .flushTake 1, .flushCheck 1] = some s ∧
      s.calls[s0.calls.length]? = some (.returned true) ∧
      (payload flushRec, 1, 0) ∈ accepted (s0.part 0).out ∧
      (s.part 0).acc.queue ≠ [] ∧ (s.part 0).done = [(0, .told)] := by
  refine ⟨_, _, _, rfl, rfl, rfl, ?_, ?_, ?_, ?_⟩ <;> decide +kernel

end Verif.Props
