import Verif.Client.Acks

/-!
# C86 — a consumer that keeps reading keeps being served

The broker sends the next response of a stream only when the last one is acknowledged, so an
acknowledgement that gets lost on the client stops the stream for good, without an error.
-/

namespace Verif.Props
open Verif.Client.Acks

namespace Acks

/-- What happens of itself while the application reads: the task sends messages and the broker answers them,
a call waiting for room goes on, a response comes in, the broker sends a response. -/
def Reading (e : Ev) : Prop := e = .take ∨ e = .done true ∨ e = .room ∨ e = .arrive ∨ e = .respond

/-- The broker can come to send one more response, by reading alone. -/
def CanGoOn (s : St) : Prop := ∃ es, (∀ e ∈ es, Reading e) ∧ (s.run es).sent = s.sent + 1

/-- Whatever happens, the broker never sends another response. -/
def Stopped (s : St) : Prop := ∀ es, (s.run es).sent = s.sent

/-- Flushes sent in a way that the application does not wait for: automatic ones, and calls of
`offset_flush` that the application gave up. -/
def quiet (st : Strategy) (es : List Ev) : Nat :=
  match st with
  | .none => 0
  | .manual => es.count .abandon
  | .auto => es.count .abandon + es.count (.record true) + es.count .tick

theorem quiet_eq (st : Strategy) (es : List Ev) : unawaitedAll st es = quiet st es := by
  induction es with
  | nil => cases st <;> rfl
  | cons e es ih =>
    unfold unawaitedAll at ih ⊢
    rw [List.map_cons, List.sum_cons, ih]
    cases st with
    | none => cases e <;> first | rfl | (rename_i b; cases b <;> rfl)
    | manual =>
      simp only [quiet, List.count_cons]
      cases e <;> first | (simp [unawaited]; done) | (simp [unawaited]; omega) |
        (rename_i b; cases b <;> simp [unawaited])
    | auto =>
      simp only [quiet, List.count_cons]
      cases e <;> first | (simp [unawaited]; done) | (simp [unawaited]; omega) |
        (rename_i b; cases b <;> simp [unawaited] <;> omega)

end Acks
open Acks

private theorem goOn_of (st : Strategy) (es : List Ev) (hr : RoomAll (St.init st) es)
    (hd : ((St.init st).run es).dead = false) : CanGoOn ((St.init st).run es) := by
  have h0 : (St.init st).tokens = (St.init st).waiting.toNat := by cases st <;> decide
  have hle := run_tokens es (St.init st) (Nat.le_of_eq h0)
  have hk := run_kept es (St.init st) (Nat.le_of_eq h0) (fun _ => h0) hr
  have hw := (Waits.init st).run es
  generalize (St.init st).run es = s at *
  obtain ⟨fs, hf, hwait, hdead⟩ := served_of_kept s hw hle hk hd
  have hsent : (s.run fs).sent = s.sent := by
    clear hle hk hw hwait hdead hd
    induction fs generalizing s with
    | nil => rfl
    | cons e fs ih =>
      have h1 : (s.step e).sent = s.sent := by
        rcases hf e (by simp) with rfl | rfl | rfl | rfl <;> unfold St.step <;> dsimp only <;>
          (repeat' split) <;> rfl
      exact (ih (s.step e) (fun e' he' => hf e' (by simp [he']))).trans h1
  refine ⟨fs ++ [.respond], ?_, ?_⟩
  · intro e he
    rcases List.mem_append.mp he with he | he
    · rcases hf e he with h | h | h | h
      · exact .inl h
      · exact .inr (.inl h)
      · exact .inr (.inr (.inl h))
      · exact .inr (.inr (.inr (.inl h)))
    · simp at he; exact .inr (.inr (.inr (.inr he)))
  · rw [run_append]
    show ((s.run fs).step .respond).sent = _
    unfold St.step
    dsimp only
    rw [if_neg (by simp [hwait, hdead])]
    show (s.run fs).sent + 1 = _
    rw [hsent]

/-- C86, without automatic flushes: whatever the application does — reading, committing, flushing and waiting
for the flush — the stream can go on as long as the connection lives. -/
theorem C86_goes_on (st : Strategy) (es : List Ev) (h : quiet st es = 0)
    (hd : ((St.init st).run es).dead = false) : CanGoOn ((St.init st).run es) :=
  goOn_of st es (few_roomAll st es (by rw [quiet_eq, h]; decide)) hd

example : quiet .manual [.respond, .arrive, .record true, .commit, .flush, .respond, .tick] = 0
    ∧ quiet .none [.respond, .arrive, .flush, .abandon] = 0
    ∧ ((St.init .manual).run [.respond, .arrive, .record true, .commit, .flush, .respond]).chan
        = [.ack, .flush true] := by decide

/-- C86 in general, with what is missing: the stream can go on while at most 97 flushes were made that the
application does not wait for. -/
theorem C86_goes_on_partial (st : Strategy) (es : List Ev) (h : quiet st es ≤ 97)
    (hd : ((St.init st).run es).dead = false) : CanGoOn ((St.init st).run es) :=
  goOn_of st es (few_roomAll st es (by rw [quiet_eq]; exact Nat.lt_of_le_of_lt (Nat.add_le_add_right h 2) (by decide))) hd

example : quiet .auto ([.respond, .arrive, .take, .done true, .respond] ++ List.replicate 97 (.record true)) = 97 := by
  decide +kernel

/-- The same when each response that came in found room in the channel, however many flushes were made. -/
theorem C86_with_room (st : Strategy) (es : List Ev)
    (h : ∀ pre post, es = pre ++ .arrive :: post → ((St.init st).run pre).chan.length < 100)
    (hd : ((St.init st).run es).dead = false) : CanGoOn ((St.init st).run es) :=
  goOn_of st es h hd

/-- The channel holds at most one acknowledgement, and none before its response has come in: flow control by
the broker bounds them. -/
theorem C86_one_ack (st : Strategy) (es : List Ev) :
    let s := (St.init st).run es
    s.wire.toNat + s.chan.count .ack + (if s.held = some .ack then 1 else 0) ≤ 1 := by
  intro s
  have h := run_tokens es (St.init st) (by cases st <;> decide)
  exact Nat.le_trans h (Bool.toNat_le _)

/-- A flush that the application waits for is answered once the task gets to it: the call does not stay
blocked. -/
theorem C86_flush_returns (st : Strategy) (es : List Ev)
    (hc : ((St.init st).run es).call = .waits) (hd : ((St.init st).run es).dead = false) :
    ∃ fs, (∀ e ∈ fs, e = .take ∨ e = .done true) ∧ (((St.init st).run es).run fs).call = .no := by
  have hw := (Waits.init st).run es
  generalize (St.init st).run es = s at *
  obtain ⟨fs, hf, h1, h2, h3⟩ := drain_all s hd
  refine ⟨fs, hf, ?_⟩
  have hw' := hw.run fs
  have hcall : (s.run fs).call = .waits ∨ (s.run fs).call = .no := by
    clear h1 h2 h3 hw hw' hd
    suffices ∀ t : St, (t.call = .waits ∨ t.call = .no) → (t.run fs).call = .waits ∨ (t.run fs).call = .no from
      this s (.inl hc)
    clear hc
    induction fs with
    | nil => intro t h; exact h
    | cons e fs ih =>
      intro t h
      refine ih (fun e' he' => hf e' (by simp [he'])) (t.step e) ?_
      rcases hf e (by simp) with rfl | rfl <;> unfold St.step <;> dsimp only <;> (repeat' split) <;>
        first | exact h | exact .inr rfl
  rcases hcall with h | h
  · rcases hw' h with hx | hx
    · rw [h1] at hx; cases hx
    · rw [h2] at hx; cases hx
  · exact h

example : ((St.init .manual).run [.respond, .arrive, .record false, .commit, .flush]).call = .waits := by decide

/-- C86 fails: with the automatic strategy and a flush period of zero each record puts a flush into the
channel.  When a hundred records are read before the task gets its turn, the acknowledgement of the next
response finds the channel full and is dropped, and the stream stops for good although the connection
lives. -/
theorem C86_violated_stall :
    let es := [.respond, .arrive, .take, .done true, .respond] ++ List.replicate 100 (.record true) ++ [.arrive]
    let s := (St.init .auto).run es
    s.dead = false ∧ s.sent = 2 ∧ Stopped s := by
  intro es s
  have h : s.dead = false ∧ s.sent = 2 ∧ s.waiting = true ∧ s.tokens = 0 := by decide +kernel
  exact ⟨h.1, h.2.1, fun fs => (stalled_run fs s h.2.2.1 h.2.2.2).2⟩

/-- The same by hand: a hundred flushes that were given up (a time-out around `offset_flush`, say) while the
broker does not answer. -/
theorem C86_violated_abandoned :
    let es := [.respond, .arrive, .take, .done true, .respond, .commit]
      ++ (List.replicate 100 [.flush, .abandon]).flatten ++ [.arrive]
    let s := (St.init .manual).run es
    s.dead = false ∧ s.sent = 2 ∧ Stopped s := by
  intro es s
  have h : s.dead = false ∧ s.sent = 2 ∧ s.waiting = true ∧ s.tokens = 0 := by decide +kernel
  exact ⟨h.1, h.2.1, fun fs => (stalled_run fs s h.2.2.1 h.2.2.2).2⟩

end Verif.Props
