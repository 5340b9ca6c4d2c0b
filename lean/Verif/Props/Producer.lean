import Verif.Producer.AccWire

namespace Verif.Props
open Verif.Producer Verif.Wire

/-! ## C28 Every accepted record is in exactly one batch -/

/-- For every sequence of pushes and flushes of a partition's queue: the contents of all batches (sent
ones in sending order, then the queue), with batch and position, are exactly the accepted records in
the order of acceptance, with the batch and position reported for each; and no two batches have the
same identity.  Hence each accepted record is in exactly one place, and a rejected one nowhere. -/
theorem C28_exactly_once_in_order (c : AccCfg) (evs : List AccEv) :
    let res := Acc.init.run c evs
    (res.1.sent ++ res.1.queue).flatMap PBatch.slots = accepted res.2 ∧
    ((res.1.sent ++ res.1.queue).map PBatch.id).Nodup := by
  have h := AccOk.run evs _ _ (AccOk.init c)
  exact ⟨h.slots, h.nodup⟩

/-- Batches leave the queue in order, whole, and for good: what has been sent stays as it is. -/
theorem C28_sent_is_final (c : AccCfg) (a : Acc) (e : AccEv) :
    ∃ t rest, (a.step c e).1.sent = a.sent ++ t ∧
      (t = [] ∨ (a.queue = t ++ rest ∧ (a.step c e).1.queue = rest)) := by
  cases e with
  | push r now now' =>
    refine ⟨[], [], ?_, .inl rfl⟩
    rw [List.append_nil]
    show (a.push c r now now').1.sent = a.sent
    have hc : ∀ k b, (createAndNewBatch c r now now' k b).1.sent = b.sent := by
      intro k
      induction k with
      | zero => intro b; rfl
      | succ k ih =>
        intro b
        unfold createAndNewBatch
        split
        · rfl
        · exact ih _
        · rfl
    unfold Acc.push
    split
    · exact hc _ _
    · split
      · rfl
      · exact hc _ _
      · rfl
  | pushTimeout r => exact ⟨[], [], by rw [List.append_nil]; rfl, .inl rfl⟩
  | flush f l now =>
    exact ⟨(takeReady f l now a.queue).1, (takeReady f l now a.queue).2, rfl,
      .inr ⟨(takeReady_append f l now a.queue).symm, rfl⟩⟩

/-- An explicit flush leaves nothing behind. -/
theorem C28_flush_takes_all (a : Acc) (l now : Int) : (a.drain true l now).1.queue = [] := by
  show (takeReady true l now a.queue).2 = []
  induction a.queue with
  | nil => rfl
  | cons b q ih => unfold takeReady; rw [if_pos (by simp)]; exact ih

/-! ## C29 Size limits -/

/-- For every sequence of pushes and flushes, every batch (sent or waiting), measured as encoded bytes
before compression: with more than one record it is within the batch size, and in any case within the
request size.

Assumed: request size below 2^31 (batch lengths are 32-bit), timestamps within 24 days (the range of a
varint), header count of the records in range. -/
theorem C29_batch_limits (c : AccCfg) (hc : c.maxRequest < 2 ^ 31) (hz : c.compression < 8) (t0 : Int)
    (evs : List AccEv) (ht : ∀ e ∈ evs, e.Timely t0) :
    let res := Acc.init.run c evs
    ∀ b ∈ res.1.sent ++ res.1.queue,
      (1 < b.mem.records.length → (encBatch memC b.mem.toBatch).length ≤ c.batchSize) ∧
      (encBatch memC b.mem.toBatch).length ≤ c.maxRequest := by
  intro res b hb
  have h := AccOk.run evs _ _ (AccOk.init c)
  have hT : AccTime t0 res.1 := AccTime.run evs _ _ (AccOk.init c) (by
    intro b hb; simp [Acc.init] at hb) ht
  have hm := h.mem b hb
  have hne := h.nonempty b hb
  rw [rawSize_is_length hm (hT b hb) hne hc (by rw [hm.limits.2.2]; exact hz)]
  exact ⟨hm.batch, hm.write hne⟩

/-- The same for the batch as sent, when the compression does not enlarge it (none never does). -/
theorem C29_sent_limits (z : Compressor) (c : AccCfg) (hc : c.maxRequest < 2 ^ 31) (hz : c.compression ≤ 4)
    (hcomp : c.compression = 0 ∨ ∀ bs, (z.compress c.compression bs).length ≤ bs.length) (t0 : Int)
    (evs : List AccEv) (ht : ∀ e ∈ evs, e.Timely t0) :
    let res := Acc.init.run c evs
    ∀ b ∈ res.1.sent ++ res.1.queue, ∃ raw, toRaw z b.mem.toBatch = some raw ∧
      (1 < b.mem.records.length → (encBatch rawC raw).length ≤ c.batchSize) ∧
      (encBatch rawC raw).length ≤ c.maxRequest := by
  intro res b hb
  have hlim := C29_batch_limits c hc (by omega) t0 evs ht b hb
  have h := AccOk.run evs _ _ (AccOk.init c)
  have hT : AccTime t0 res.1 := AccTime.run evs _ _ (AccOk.init c) (by
    intro b hb; simp [Acc.init] at hb) ht
  have hm := h.mem b hb
  have hwf := hm.wf (hT b hb) (h.nonempty b hb) hc
  have hcc : b.mem.compression = c.compression := hm.limits.2.2
  have key : ∀ k : Fin 5, (let h := ((BitVec.ofNat 16 (k.val % 8)) &&& 0x07#16).toNat
      if h ≤ 4 then some h else none) = some k.val := by decide
  have hcodec : b.mem.toBatch.header.compression = some c.compression := by
    rw [← hcc]
    exact key ⟨b.mem.compression, by omega⟩
  unfold toRaw
  rw [hcodec]
  refine ⟨_, rfl, ?_⟩
  have hlen : (z.run c.compression (memC.enc b.mem.toBatch.records)).length ≤ (memC.enc b.mem.records).length := by
    unfold Compressor.run
    split
    · exact Nat.le_refl _
    · rcases hcomp with h0 | h0
      · contradiction
      · exact h0 _
  have hle : (encBatch rawC ⟨b.mem.toBatch.baseOffset,
      BitVec.ofNat 32 (z.run c.compression (memC.enc b.mem.toBatch.records)).length, b.mem.toBatch.header,
      b.mem.toBatch.schemaId, z.run c.compression (memC.enc b.mem.toBatch.records)⟩).length
      ≤ (encBatch memC b.mem.toBatch).length := by
    rw [encBatch_length rawC_law _ trivial, encBatch_length memC_law _ hwf]
    unfold calcBatchLen
    have : memC.size b.mem.toBatch.records = (memC.enc b.mem.records).length := memC_law.size_eq _ hwf
    rw [this]
    show 12 + (if b.mem.toBatch.header.hasSchema then batchHeaderSize +
        (z.run c.compression (memC.enc b.mem.toBatch.records)).length + 4 else
        batchHeaderSize + (z.run c.compression (memC.enc b.mem.toBatch.records)).length) ≤ _
    split <;> omega
  exact ⟨fun h1 => Nat.le_trans hle (hlim.1 h1), Nat.le_trans hle hlim.2⟩

/-- **Specification.** Bytes of a batch holding only this record, stamped with the given delay. -/
def aloneSize (r : Record) (delay : Int) : Nat := 61 + recordC.size (setDeltas r 0 delay)

/-- A record is rejected as too large only if it could not be sent alone, or there is a waiting batch
with which it would exceed the request size.

Missing: the second case should not be a reason, see `C29_violated_rejects_sendable`. -/
theorem C29_rejection_partial (c : AccCfg) (evs : List AccEv) (r : Record) (now now' : Int)
    (hrej : ((Acc.init.run c evs).1.push c r now now').2 = .tooLarge) :
    c.maxRequest < aloneSize r (max 0 (now' - now)) ∨
    ∃ b, (Acc.init.run c evs).1.queue.getLast? = some b ∧
      c.maxRequest < b.mem.rawSize +
        recordC.size (setDeltas r b.mem.records.length (b.mem.elapsed now)) := by
  have h := AccOk.run evs _ _ (AccOk.init c)
  generalize (Acc.init.run c evs).1 = a at *
  have hcreate : ∀ a' : Acc, (createAndNewBatch c r now now' 2 a').2 = .tooLarge →
      c.maxRequest < aloneSize r (max 0 (now' - now)) := by
    intro a' ha
    rcases createAndNewBatch_spec c r now now' 1 a' with ⟨m, _, _, _, he⟩ | ⟨_, he⟩
    · rw [he] at ha; cases ha
    · exact he
  unfold Acc.push at hrej
  cases hq : a.queue.getLast? with
  | none => rw [hq] at hrej; exact .inl (hcreate _ hrej)
  | some b =>
    rw [hq] at hrej
    dsimp only at hrej
    have hbm : b ∈ a.sent ++ a.queue := List.mem_append_right _ (List.mem_of_getLast? hq)
    obtain ⟨_, _, hcase⟩ := (h.mem b hbm).push r now
    generalize b.mem.push r now = res at *
    obtain ⟨m, st⟩ := res
    dsimp only at hcase
    rcases hcase with ⟨rfl, _⟩ | ⟨rfl, _⟩ | ⟨rfl, _, h3⟩
    · cases hrej
    · exact .inl (hcreate _ hrej)
    · exact .inr ⟨b, rfl, h3⟩

/-! Concrete cases -/

def rec (n : Nat) : Record := ⟨⟨0#8, 0#64, 0#64⟩, none, List.replicate n 7, 0#64⟩

/-- batches of up to 100 bytes, requests of up to 130 -/
def smallCfg : AccCfg := ⟨100, 130, 0⟩

/-- Six pushes, one of them rejected, two flushes: the last batch waits. -/
def demoRun : List AccEv :=
  [.push (rec 5) 1000 1000, .push (rec 6) 1003 1003, .push (rec 20) 1004 1005, .flush false 50 1006,
   .push (rec 70) 1007 1007, .push (rec 30) 1010 1010, .flush true 50 1011, .push (rec 1) 1012 1012]

example : (∀ e ∈ demoRun, e.Timely 1000) := by
  intro e he
  simp only [demoRun, List.mem_cons, List.not_mem_nil, or_false] at he
  rcases he with rfl | rfl | rfl | rfl | rfl | rfl | rfl | rfl
  all_goals first | trivial | exact ⟨by decide, by decide, by decide⟩

example : let res := Acc.init.run smallCfg demoRun
    res.2.map (·.2) = [.ok 0 0, .ok 0 1, .ok 1 0, .tooLarge, .ok 2 0, .ok 3 0] ∧
    res.1.sent.map (fun b => (b.id, b.mem.records.map fun r => r.value.length)) = [(0, [5, 6]), (1, [20]), (2, [30])] ∧
    res.1.queue.map (fun b => (b.id, b.mem.records.map fun r => r.value.length)) = [(3, [1])] := by
  decide +kernel

/-- The claim fails for the last part: a record that fits alone is rejected because of the batch that
happens to wait, and accepted when the queue is empty. -/
theorem C29_violated_rejects_sendable :
    let a := (Acc.init.run smallCfg [.push (rec 20) 1000 1000]).1
    aloneSize (rec 50) 0 ≤ smallCfg.maxRequest ∧
    (a.push smallCfg (rec 50) 1000 1000).2 = .tooLarge ∧
    (Acc.init.push smallCfg (rec 50) 1000 1000).2 = .ok 0 0 := by decide +kernel

end Verif.Props
