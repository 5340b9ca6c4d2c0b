import Verif.Producer.AccInv

/-!
# The producer's batches can be encoded
-/

namespace Verif.Producer
open Verif.Wire

theorem recordC_wf_of_size {r : Record}
    (h1 : -2 ^ 31 ≤ r.preamble.timestampDelta.toInt ∧ r.preamble.timestampDelta.toInt < 2 ^ 31)
    (h2 : -2 ^ 31 ≤ r.preamble.offsetDelta.toInt ∧ r.preamble.offsetDelta.toInt < 2 ^ 31)
    (h3 : -2 ^ 31 ≤ r.headers.toInt ∧ r.headers.toInt < 2 ^ 31)
    (hs : recordC.size r < 2 ^ 31) : recordC.wf r := by
  have hs' : recordInnerC.size r < 2 ^ 31 := by
    have : recordInnerC.size r ≤ recordC.size r := Nat.le_add_left _ _
    omega
  have hin : recordInnerC.size r = recordHeaderC.size r.preamble +
      ((optionC recordDataC).size r.key + (recordDataC.size r.value + varintC.size r.headers)) := rfl
  have hd : ∀ b, b.length ≤ recordDataC.size b := fun b => Nat.le_add_left _ _
  have hv : r.value.length < 2 ^ 31 := by have := hd r.value; omega
  have hk : (optionC recordDataC).wf r.key := by
    cases hk : r.key with
    | none => trivial
    | some k =>
      show k.length < 2 ^ 31
      have := hd k
      have e : (optionC recordDataC).size r.key = 1 + recordDataC.size k := by rw [hk]; rfl
      omega
  have hw : recordInnerC.wf r := ⟨⟨trivial, h1, h2⟩, hk, hv, h3⟩
  refine ⟨hw, ?_⟩
  rw [← recordInnerC_rt.size_eq r hw]
  exact hs'

/-- **Specification.** The record's header count is in range (clients send 0), and the clock stays
within 2^31 ms (24 days) of `t0`. -/
def AccEv.Timely (t0 : Int) : AccEv → Prop
  | .push r now now' => (-2 ^ 31 ≤ r.headers.toInt ∧ r.headers.toInt < 2 ^ 31) ∧
      (t0 ≤ now ∧ now < t0 + 2 ^ 31) ∧ (t0 ≤ now' ∧ now' < t0 + 2 ^ 31)
  | _ => True

structure MemTime (t0 : Int) (m : MemoryBatch) : Prop where
  created : t0 ≤ m.created
  times : ∀ r ∈ m.records, (-2 ^ 31 ≤ r.preamble.timestampDelta.toInt ∧ r.preamble.timestampDelta.toInt < 2 ^ 31) ∧
    (-2 ^ 31 ≤ r.headers.toInt ∧ r.headers.toInt < 2 ^ 31)

theorem MemTime.push {t0 : Int} {c : AccCfg} {m : MemoryBatch} (hm : MemOk c m) (h : MemTime t0 m)
    {r : Record} {now : Int}
    (hr : -2 ^ 31 ≤ r.headers.toInt ∧ r.headers.toInt < 2 ^ 31) (hn : t0 ≤ now ∧ now < t0 + 2 ^ 31) :
    MemTime t0 (m.push r now).1 := by
  obtain ⟨_, hcr, hcase⟩ := hm.push r now
  refine ⟨by rw [hcr]; exact h.created, ?_⟩
  rcases hcase with ⟨_, e⟩ | ⟨_, e, _⟩ | ⟨_, e, _⟩
  · rw [e]
    intro x hx
    rcases List.mem_append.1 hx with hx | hx
    · exact h.times x hx
    · rw [List.mem_singleton.1 hx]
      refine ⟨?_, hr⟩
      have hel : 0 ≤ m.elapsed now ∧ m.elapsed now < 2 ^ 31 := by
        have := h.created
        unfold MemoryBatch.elapsed
        omega
      show -2 ^ 31 ≤ (BitVec.ofInt 64 (m.elapsed now)).toInt ∧ (BitVec.ofInt 64 (m.elapsed now)).toInt < 2 ^ 31
      rw [BitVec.toInt_ofInt, Int.bmod_def]
      omega
  · rw [e]; exact h.times
  · rw [e]; exact h.times

theorem MemTime.new {t0 now : Int} (h : t0 ≤ now) (w b c : Nat) : MemTime t0 (MemoryBatch.new w b c now) :=
  ⟨h, by intro r hr; simp [MemoryBatch.new] at hr⟩

def AccTime (t0 : Int) (a : Acc) : Prop := ∀ b ∈ a.sent ++ a.queue, MemTime t0 b.mem

theorem AccTime.create {t0 : Int} {c : AccCfg} {a : Acc} {r : Record} {now now' : Int}
    (hr : -2 ^ 31 ≤ r.headers.toInt ∧ r.headers.toInt < 2 ^ 31) (hn : t0 ≤ now)
    (hn' : t0 ≤ now' ∧ now' < t0 + 2 ^ 31) : ∀ k, AccTime t0 a →
    AccTime t0 (createAndNewBatch c r now now' (k + 1) a).1 := by
  intro k h
  unfold createAndNewBatch
  have hm := (MemTime.new hn c.maxRequest c.batchSize c.compression).push (MemOk.new c now) hr hn'
  have hs := push_new_spec c r now now'
  dsimp only at hs
  generalize (MemoryBatch.new c.maxRequest c.batchSize c.compression now).push r now' = res at *
  obtain ⟨m, st⟩ := res
  dsimp only at hm hs
  rcases hs with ⟨rfl, _⟩ | ⟨rfl, _⟩
  · dsimp only
    intro b hb
    rw [← List.append_assoc] at hb
    rcases List.mem_append.1 hb with hb | hb
    · exact h b hb
    · rw [List.mem_singleton.1 hb]; exact hm
  · exact h

theorem AccTime.setLast {t0 : Int} {a : Acc} (h : AccTime t0 a) {m : MemoryBatch} (hm : MemTime t0 m) :
    AccTime t0 { a with queue := setLast a.queue m } := by
  intro x hx
  have hx : x ∈ a.sent ++ Verif.Producer.setLast a.queue m := hx
  rcases List.eq_nil_or_concat a.queue with hq | ⟨q, b, hq⟩
  · rw [hq] at hx
    apply h; rw [hq]; exact hx
  · rw [List.concat_eq_append] at hq
    rw [hq, setLast_append, ← List.append_assoc] at hx
    rcases List.mem_append.1 hx with hx | hx
    · apply h; rw [hq, ← List.append_assoc]; exact List.mem_append_left _ hx
    · rw [List.mem_singleton.1 hx]; exact hm

theorem AccTime.step {t0 : Int} {c : AccCfg} {a : Acc} {out : List (Record × PushRes)} (hok : AccOk c a out)
    (h : AccTime t0 a) {e : AccEv} (he : e.Timely t0) : AccTime t0 (a.step c e).1 := by
  cases e with
  | push r now now' =>
    obtain ⟨h1, h2, h3⟩ := he
    show AccTime t0 (a.push c r now now').1
    unfold Acc.push
    cases hq : a.queue.getLast? with
    | none => exact AccTime.create h1 h2.1 h3 1 h
    | some b =>
      dsimp only
      have hbm : b ∈ a.sent ++ a.queue := List.mem_append_right _ (List.mem_of_getLast? hq)
      have hm := (h b hbm).push (hok.mem b hbm) h1 h2
      generalize b.mem.push r now = res at *
      obtain ⟨m, st⟩ := res
      dsimp only at hm
      cases st with
      | added off => exact h.setLast hm
      | notAdded => exact AccTime.create h1 h2.1 h3 1 (h.setLast hm)
      | tooLarge => exact h.setLast hm
  | pushTimeout r => exact h
  | flush f l now =>
    have e := drain_all a f l now
    show AccTime t0 (a.drain f l now).1
    unfold AccTime
    rw [e]; exact h

theorem AccTime.run {t0 : Int} {c : AccCfg} : ∀ (evs : List AccEv) (a : Acc) (out : List (Record × PushRes)),
    AccOk c a out → AccTime t0 a → (∀ e ∈ evs, e.Timely t0) → AccTime t0 (a.run c evs).1
  | [], _, _, _, h, _ => h
  | e :: evs, _, _, hok, h, ht =>
    AccTime.run evs _ _ (hok.step e) (h.step hok (ht e (by simp)))
      fun e' he' => ht e' (List.mem_cons_of_mem _ he')

theorem foldl_size_ge : ∀ (rs : List Record) (n : Nat),
    n ≤ rs.foldl (fun sum v => sum + recordC.size v) n ∧
    ∀ r ∈ rs, n + recordC.size r ≤ rs.foldl (fun sum v => sum + recordC.size v) n
  | [], n => ⟨Nat.le_refl _, by intro r hr; cases hr⟩
  | x :: rs, n => by
    obtain ⟨h1, h2⟩ := foldl_size_ge rs (n + recordC.size x)
    refine ⟨by rw [List.foldl_cons]; omega, ?_⟩
    intro r hr
    rw [List.foldl_cons]
    rcases List.mem_cons.1 hr with rfl | hr
    · exact h1
    · have := h2 r hr; omega

/-- a record takes at least one byte (in fact at least 7) -/
theorem recordC_size_pos (r : Record) : 1 ≤ recordC.size r := by
  have : 1 ≤ recordInnerC.size r := by
    have : recordInnerC.size r = (1 + (varintC.size r.preamble.timestampDelta + varintC.size r.preamble.offsetDelta)) +
      ((optionC recordDataC).size r.key + (recordDataC.size r.value + varintC.size r.headers)) := rfl
    omega
  have h2 : recordC.size r = varintC.size (BitVec.ofNat 64 (recordInnerC.size r)) + recordInnerC.size r := rfl
  omega

theorem foldl_size_length : ∀ (rs : List Record) (n : Nat),
    n + rs.length ≤ rs.foldl (fun sum v => sum + recordC.size v) n
  | [], n => Nat.le_refl _
  | x :: rs, n => by
    have := foldl_size_length rs (n + recordC.size x)
    have := recordC_size_pos x
    rw [List.foldl_cons, List.length_cons]; omega

theorem rawSize_eq {c : AccCfg} {m : MemoryBatch} (h : MemOk c m) : m.rawSize = 57 + memC.size m.records := by
  unfold MemoryBatch.rawSize
  rw [h.size]
  show _ + (12 + 45 + 0) = _
  omega

/-- A batch of the producer is well-formed for the encoder. -/
theorem MemOk.wf {c : AccCfg} {t0 : Int} {m : MemoryBatch} (h : MemOk c m) (ht : MemTime t0 m)
    (hne : m.records ≠ []) (hc : c.maxRequest < 2 ^ 31) : memC.wf m.records := by
  have hw := h.write hne
  rw [rawSize_eq h] at hw
  have hlen : 4 + m.records.length ≤ memC.size m.records := foldl_size_length m.records 4
  refine ⟨by omega, ?_⟩
  intro r hr
  have hsz : 4 + recordC.size r ≤ memC.size m.records := (foldl_size_ge m.records 4).2 r hr
  obtain ⟨i, hi, he⟩ := List.mem_iff_getElem.1 hr
  have hoff : r.preamble.offsetDelta = BitVec.ofNat 64 i := h.deltas i r (by
    rw [List.getElem?_eq_getElem hi, he])
  refine recordC_wf_of_size (ht.times r hr).1 ?_ (ht.times r hr).2 (by omega)
  rw [hoff, ofNat_toInt_small 64 i (by omega)]
  omega

/-- The size the producer computes is the number of bytes of the encoded batch (before compression). -/
theorem rawSize_is_length {c : AccCfg} {t0 : Int} {m : MemoryBatch} (h : MemOk c m) (ht : MemTime t0 m)
    (hne : m.records ≠ []) (hc : c.maxRequest < 2 ^ 31) (hcomp : m.compression < 8) :
    (encBatch memC m.toBatch).length = m.rawSize := by
  have hw := h.wf ht hne hc
  rw [encBatch_length memC_law _ hw, rawSize_eq h]
  have hs : m.toBatch.header.hasSchema = false := by
    show decide ((BitVec.ofNat 16 (m.compression % 8) &&& 0x10#16) ≠ 0#16) = false
    have key : ∀ k : Fin 8, decide ((BitVec.ofNat 16 (k.val % 8) &&& 0x10#16) ≠ 0#16) = false := by decide
    exact key ⟨m.compression, hcomp⟩
  unfold calcBatchLen
  rw [if_neg (by rw [hs]; decide)]
  show 12 + (45 + memC.size m.records) = _
  omega

end Verif.Producer
