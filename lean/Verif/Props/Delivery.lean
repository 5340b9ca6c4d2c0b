import Verif.Producer.DeliveryOrder

/-!
# C82: delivery at most once and at least once, and the order of a producer's batches
-/

namespace Verif.Props

open Verif.Producer.Delivery

/-- The batches of one producer (numbered in the order of the queue) are in order in `log` if no batch appears for the
first time after a later one. -/
def DeliveryInOrder (log : List Nat) : Prop :=
  ∀ pre y post, log = pre ++ y :: post → ∀ x ∈ post, x < y → x ∈ pre

/-- **C82, at most once**: in every run, whatever connections break, no batch is stored twice. -/
theorem C82_at_most_once (retries : Nat) (es : List Ev) :
    (run ⟨true, retries⟩ init es).log.Nodup := by
  rw [List.nodup_iff_count]
  intro x
  have := (once_run ⟨true, retries⟩ rfl es).once x
  omega

/-- **C82, success means stored**: with both semantics a batch whose sending is reported as successful is in the log. -/
theorem C82_told_stored (cfg : Cfg) (es : List Ev) :
    ∀ x ∈ (run cfg init es).told, x ∈ (run cfg init es).log := (inv_run cfg es).toldOk

/-- **C82, at least once**: every batch taken from the queue is stored, or its sending is reported as failed, or the
producer is still waiting for the response to the request which contains it. -/
theorem C82_at_least_once (retries : Nat) (es : List Ev) (x : Nat) (hx : x < (run ⟨false, retries⟩ init es).next) :
    x ∈ (run ⟨false, retries⟩ init es).log ∨
    (∃ g ∈ (run ⟨false, retries⟩ init es).failed, x ∈ g) ∨
    ∃ ids c t n, (run ⟨false, retries⟩ init es).phase = .waiting ids c t n ∧ x ∈ ids := by
  rcases acc_run ⟨false, retries⟩ rfl es x hx with h | h | h
  · exact Or.inl ((inv_run _ es).toldOk x h)
  · exact Or.inr (Or.inl (List.mem_flatten.mp h))
  · exact Or.inr (Or.inr h)

/-- **C82, nothing else is stored**: the log contains only batches which were taken from the queue. -/
theorem C82_only_queued (cfg : Cfg) (es : List Ev) :
    ∀ x ∈ (run cfg init es).log, x < (run cfg init es).next := (inv_run cfg es).logLt

/-- **C82, order while nothing fails**: as long as no sending fails, sending at least once keeps the order of the
batches, over any number of connections and repetitions. -/
theorem C82_order_partial (retries : Nat) (es : List Ev) (hf : (run ⟨false, retries⟩ init es).failed = []) :
    DeliveryInOrder (run ⟨false, retries⟩ init es).log := by
  obtain ⟨gs, e, ho, _⟩ := (order_run ⟨false, retries⟩ es).order (Or.inr ⟨rfl, hf⟩)
  rw [e]
  exact ord_first (ho.sub (List.sublist_append_left _ _))

/-- **C82, order on one connection**: with both semantics, and whatever fails, the order is kept as long as the producer
has used one connection only. -/
theorem C82_order_connection (cfg : Cfg) (es : List Ev) (h1 : (run cfg init es).conns.length ≤ 1) :
    DeliveryInOrder (run cfg init es).log := by
  obtain ⟨gs, e, ho, _⟩ := (order_run cfg es).order (Or.inl h1)
  rw [e]
  exact ord_first (ho.sub (List.sublist_append_left _ _))

/-- A run with a repetition and a new connection: the broker is slow, the request is sent again and stored twice. The
order is kept. -/
private def slow : List Ev :=
  [.flush 2 true, .timeout, .serve 0 true, .serve 0 true, .deliver 0, .deliver 0, .flush 1 true, .serve 1 true,
   .deliver 1]

example : (run ⟨false, 1⟩ init slow).log = [0, 1, 0, 1, 2] ∧ (run ⟨false, 1⟩ init slow).failed = [] ∧
    (run ⟨false, 1⟩ init slow).told = [0, 1, 2] ∧ (run ⟨false, 1⟩ init slow).conns.length = 2 := by decide

example : (run ⟨true, 0⟩ init [.flush 2 true, .flush 1 true, .serve 0 true, .lose 0 0, .deliver 0, .flush 1 false]).log
    = [0, 1] := by decide

example : (run ⟨false, 0⟩ init [.flush 2 true, .giveUp, .flush 1 true, .serve 0 true, .serve 0 true, .deliver 0,
    .deliver 0]).log = [0, 1, 2] ∧
    (run ⟨false, 0⟩ init [.flush 2 true, .giveUp, .flush 1 true]).conns.length = 1 := by decide

/-- **C82 is violated, order**: after a timeout the connection is stale, and the next batches are sent on a new one;
the broker may handle them before the batch still waiting on the old one. Batch 0, reported as failed, is stored after
batch 1. -/
theorem C82_violated_order : ∃ es, (run ⟨false, 0⟩ init es).log = [1, 0] ∧ (run ⟨false, 0⟩ init es).failed = [[0]] ∧
    ¬ DeliveryInOrder (run ⟨false, 0⟩ init es).log := by
  have e : (run ⟨false, 0⟩ init [.flush 1 true, .timeout, .flush 1 true, .serve 1 true, .deliver 1, .serve 0 true]).log
      = [1, 0] := by decide
  refine ⟨[.flush 1 true, .timeout, .flush 1 true, .serve 1 true, .deliver 1, .serve 0 true], e, by decide, ?_⟩
  rw [e]
  intro h
  have := h [] 1 [0] rfl 0 (by simp) (by omega)
  cases this

/-- **C82 is violated, order with delivery at most once**: the connection is found broken on the client's side while
the broker has still to handle what was sent on it. No sending is reported as failed. -/
theorem C82_violated_order_once : ∃ es, (run ⟨true, 0⟩ init es).log = [1, 0] ∧ (run ⟨true, 0⟩ init es).failed = [] :=
  ⟨[.flush 1 true, .notice 0, .flush 1 true, .serve 1 true, .deliver 1, .serve 0 true], by decide⟩

/-- **C82, failed but stored**: a batch reported as failed may be in the log, also more than once. -/
theorem C82_violated_failed : ∃ es, (run ⟨false, 1⟩ init es).log = [0, 0] ∧ (run ⟨false, 1⟩ init es).failed = [[0]] ∧
    (run ⟨false, 1⟩ init es).told = [] :=
  ⟨[.flush 1 true, .timeout, .timeout, .serve 0 true, .serve 0 true], by decide⟩

/-- **C82 is violated, repetitions do not reconnect**: the requests of all retries are sent on the connection of the
first one. Once it is broken, the sending fails however many retries there are, and no new connection is made. -/
theorem C82_violated_retry (retries : Nat) :
    let s := run ⟨false, retries⟩ init (.flush 1 true :: .lose 0 0 :: List.replicate (retries + 1) .timeout)
    s.failed = [[0]] ∧ s.log = [] ∧ s.conns.length = 1 := by
  have h : ∀ k (t : Nat) (st : Bool), run ⟨false, retries⟩
      ⟨1, t, [⟨[], [], st, true⟩], .waiting [0] 0 (t - 1) k, [], [], []⟩ (List.replicate (k + 1) .timeout)
      = ⟨1, t + k, [⟨[], [], true, true⟩], .idle, [], [], [[0]]⟩ := by
    intro k
    induction k with
    | zero => intro t st; rfl
    | succ k ih =>
      intro t st
      have := ih (t + 1) true
      rw [show t + (k + 1) = t + 1 + k by omega]
      exact this
  have e : run ⟨false, retries⟩ init (.flush 1 true :: .lose 0 0 :: List.replicate (retries + 1) .timeout)
      = ⟨1, 1 + retries, [⟨[], [], true, true⟩], .idle, [], [], [[0]]⟩ := h retries 1 false
  intro s
  show (run _ _ _).failed = _ ∧ (run _ _ _).log = _ ∧ (run _ _ _).conns.length = _
  rw [e]
  exact ⟨rfl, rfl, rfl⟩

end Verif.Props
