/-!
# A consumer's acknowledgements (`fluvio/src/consumer/{mod,offset,stream}.rs`)

The broker sends the next response of a stream only after the previous one was acknowledged
(`Verif/Stream/Server.lean`).  On the client, acknowledgements share a bounded channel with the flushes of
consumer offsets; a task takes the messages from it one by one and waits for the broker's answer to each.
This is the model of the channel, its task and the calls that put messages into it.
-/

namespace Verif.Client.Acks

/-- `StreamToServer` without `Close` — consumer/mod.rs:97-110.  Offsets are left out: `answer` says that
somebody waits for the answer to a flush. -/
inductive Msg where
  | ack
  | flush (answer : Bool)
deriving DecidableEq

/-- `STREAM_TO_SERVER_CHANNEL_SIZE` — consumer/mod.rs:65 -/
abbrev cap : Nat := 100

inductive Strategy where
  | none
  | manual
  | auto
deriving DecidableEq

/-- A call of `offset_flush` — offset.rs:44-67 -/
inductive Call where
  | no
  /-- waits for room in the channel (`send().await`) -/
  | blocked
  /-- waits for the answer -/
  | waits
deriving DecidableEq

structure St where
  strategy : Strategy
  /-- the channel, oldest message first -/
  chan : List Msg
  /-- the message the task has sent and waits with for the answer -/
  held : Option Msg
  call : Call
  /-- a committed offset has not been flushed (`comitted > flushed`) -/
  dirty : Bool
  /-- the broker waits for the acknowledgement of its last response -/
  waiting : Bool
  /-- this response is on its way to the client -/
  wire : Bool
  /-- the task has ended since the connection failed -/
  dead : Bool
  /-- number of responses sent -/
  sent : Nat
deriving DecidableEq

def St.init (s : Strategy) : St := ⟨s, [], none, .no, false, false, false, false, 0⟩

inductive Ev where
  /-- the broker has something and sends a response (stream_fetch.rs:246-343) -/
  | respond
  /-- the application polls and the response comes in (mod.rs:540-553) -/
  | arrive
  /-- the application gets a record of it (stream.rs:139-156); `due`: the flush period is over -/
  | record (due : Bool)
  /-- the background flusher (stream.rs:227-247) -/
  | tick
  | commit
  | flush
  /-- there is room for the blocked call, which puts its message into the channel -/
  | room
  /-- the application drops its call of `offset_flush` -/
  | abandon
  /-- the task takes the oldest message and sends it (mod.rs:476-523) -/
  | take
  /-- the broker has handled it and the answer is there; `ok`: without an error code -/
  | done (ok : Bool)
  /-- the connection fails -/
  | fail
deriving DecidableEq

/-- `try_flush` — offset.rs:69-81 -/
def St.tryFlush (s : St) : St :=
  if s.dirty ∧ s.chan.length < cap ∧ s.dead = false then
    { s with chan := s.chan ++ [.flush false], dirty := false }
  else s

/-- One step; events that cannot happen in a state leave it unchanged.  Taken as one step: a response that
comes in, and its acknowledgement put into the channel with `try_send`, whose result is not looked at
(mod.rs:545-548; the first response's acknowledgement is sent with `send().await`, 527-532, into a channel
that only the task has access to). -/
def St.step (s : St) : Ev → St
  | .respond =>
    if s.waiting ∨ s.dead then s else { s with waiting := true, wire := true, sent := s.sent + 1 }
  | .arrive =>
    if s.wire ∧ s.call = .no then
      { s with wire := false,
               chan := if s.chan.length < cap ∧ s.dead = false then s.chan ++ [.ack] else s.chan }
    else s
  | .record due =>
    if s.call ≠ .no then s
    else match s.strategy with
    | .auto => if due then ({ s with dirty := true }).tryFlush else { s with dirty := true }
    | _ => s
  | .tick => if s.strategy = .auto then s.tryFlush else s
  | .commit => if s.call ≠ .no ∨ s.strategy = .none then s else { s with dirty := true }
  | .flush =>
    if s.call ≠ .no ∨ s.strategy = .none ∨ s.dirty = false ∨ s.dead then s
    else if s.chan.length < cap then { s with chan := s.chan ++ [.flush true], call := .waits }
    else { s with call := .blocked }
  | .room =>
    if s.call = .blocked ∧ s.chan.length < cap ∧ s.dead = false then
      { s with chan := s.chan ++ [.flush true], call := .waits }
    else s
  | .abandon =>
    { s with call := .no, chan := s.chan.map (fun m => if m = .flush true then .flush false else m),
             held := s.held.map (fun m => if m = .flush true then .flush false else m) }
  | .take =>
    match s.held, s.chan with
    | none, m :: rest => if s.dead then s else { s with held := some m, chan := rest }
    | _, _ => s
  | .done ok =>
    match s.held with
    | none => s
    | some .ack => { s with held := none, waiting := false }
    | some (.flush true) => { s with held := none, call := .no, dirty := if ok then false else s.dirty }
    | some (.flush false) => { s with held := none }
  | .fail => { s with dead := true, held := none, chan := [], call := .no }

def St.run (s : St) (es : List Ev) : St := es.foldl St.step s

/-! ## One acknowledgement for each response -/

/-- Acknowledgements (or responses to be acknowledged) on their way -/
def St.tokens (s : St) : Nat :=
  s.wire.toNat + s.chan.count .ack + (if s.held = some .ack then 1 else 0)

/-- Flushes in the channel and with the task -/
def St.flushes (s : St) : Nat :=
  s.chan.countP (· ≠ .ack) + (if s.held.any (· ≠ .ack) then 1 else 0)

theorem tryFlush_fields (s : St) : s.tryFlush.waiting = s.waiting ∧ s.tryFlush.wire = s.wire
    ∧ s.tryFlush.held = s.held ∧ s.tryFlush.dead = s.dead ∧ s.tryFlush.call = s.call
    ∧ s.tryFlush.strategy = s.strategy ∧ s.tryFlush.sent = s.sent
    ∧ (s.tryFlush.chan = s.chan ∨ (s.tryFlush.chan = s.chan ++ [.flush false] ∧ s.chan.length < cap
        ∧ s.dead = false)) := by
  unfold St.tryFlush
  split
  · rename_i h; exact ⟨rfl, rfl, rfl, rfl, rfl, rfl, rfl, .inr ⟨rfl, h.2.1, h.2.2⟩⟩
  · exact ⟨rfl, rfl, rfl, rfl, rfl, rfl, rfl, .inl rfl⟩

theorem tryFlush_tokens (s : St) : s.tryFlush.tokens = s.tokens := by
  obtain ⟨_, h2, h3, _, _, _, _, h4⟩ := tryFlush_fields s
  unfold St.tokens
  rw [h2, h3]
  rcases h4 with h4 | ⟨h4, _⟩ <;> rw [h4]
  simp [List.count_append]

theorem countAck_map (l : List Msg) :
    (l.map (fun m => if m = .flush true then .flush false else m)).count .ack = l.count .ack := by
  induction l with
  | nil => rfl
  | cons m l ih =>
    rw [List.map_cons, List.count_cons, List.count_cons, ih]
    cases m with
    | ack => rfl
    | flush a => cases a <;> rfl

theorem countFlush_map (l : List Msg) :
    (l.map (fun m => if m = .flush true then .flush false else m)).countP (· ≠ .ack)
      = l.countP (· ≠ .ack) := by
  induction l with
  | nil => rfl
  | cons m l ih =>
    rw [List.map_cons, List.countP_cons, List.countP_cons, ih]
    cases m with
    | ack => rfl
    | flush a => cases a <;> rfl

/-- What one step does to the acknowledgements on their way. -/
theorem step_tokens (s : St) (e : Ev) (h : s.tokens ≤ s.waiting.toNat) :
    (s.step e).tokens ≤ (s.step e).waiting.toNat := by
  cases e with
  | respond =>
    unfold St.step
    dsimp only
    split
    · exact h
    · rename_i hc
      have hw : s.waiting = false := by cases hx : s.waiting <;> simp_all
      rw [hw] at h
      unfold St.tokens at h ⊢
      dsimp only
      simp only [Bool.toNat_false, Bool.toNat_true] at h ⊢
      have : s.wire.toNat = 0 := by omega
      omega
  | arrive =>
    unfold St.step
    dsimp only
    split
    · rename_i hc
      unfold St.tokens at h ⊢
      dsimp only
      rw [hc.1] at h
      simp only [Bool.toNat_false, Bool.toNat_true] at h ⊢
      split
      · rw [List.count_append]
        simp only [List.count_singleton_self]
        omega
      · omega
    · exact h
  | record due =>
    unfold St.step
    dsimp only
    split
    · exact h
    · split
      · split
        · rw [tryFlush_tokens, (tryFlush_fields _).1]; exact h
        · exact h
      · exact h
  | tick =>
    unfold St.step
    dsimp only
    split
    · rw [tryFlush_tokens, (tryFlush_fields _).1]; exact h
    · exact h
  | commit =>
    unfold St.step
    dsimp only
    split <;> exact h
  | flush =>
    unfold St.step
    dsimp only
    split
    · exact h
    · split
      · unfold St.tokens at h ⊢
        simpa [List.count_append] using h
      · exact h
  | room =>
    unfold St.step
    dsimp only
    split
    · unfold St.tokens at h ⊢
      simpa [List.count_append] using h
    · exact h
  | abandon =>
    unfold St.step St.tokens at *
    dsimp only
    rw [countAck_map]
    have : (if s.held.map (fun m => if m = .flush true then .flush false else m) = some .ack then 1 else 0)
        = (if s.held = some .ack then 1 else 0) := by
      cases s.held with
      | none => rfl
      | some m => cases m with
        | ack => rfl
        | flush a => cases a <;> rfl
    rw [this]
    exact h
  | take =>
    unfold St.step
    dsimp only
    split
    · rename_i m rest hh hc
      split
      · exact h
      · unfold St.tokens at h ⊢
        rw [hh, hc] at h
        dsimp only at h ⊢
        rw [List.count_cons] at h
        cases m <;> simp_all <;> omega
    · exact h
  | done ok =>
    unfold St.step
    dsimp only
    split
    · exact h
    · rename_i hh
      unfold St.tokens at h ⊢
      rw [hh] at h
      have : s.waiting.toNat ≤ 1 := Bool.toNat_le _
      simp at h ⊢
      cases hw : s.waiting <;> simp_all <;> omega
    · rename_i hh
      unfold St.tokens at h ⊢
      rw [hh] at h
      simpa using h
    · rename_i hh
      unfold St.tokens at h ⊢
      rw [hh] at h
      simpa using h
  | fail =>
    unfold St.step St.tokens at *
    dsimp only
    simp
    omega

/-- While the connection lives, a step loses the acknowledgement only if a response comes in and finds the
channel full. -/
theorem step_kept (s : St) (e : Ev) (hle : s.tokens ≤ s.waiting.toNat)
    (h : s.dead = false → s.tokens = s.waiting.toNat)
    (hr : e = .arrive → s.chan.length < cap) :
    (s.step e).dead = false → (s.step e).tokens = (s.step e).waiting.toNat := by
  cases e with
  | respond =>
    unfold St.step
    dsimp only
    split
    · exact h
    · rename_i hc
      intro _
      have hw : s.waiting = false := by cases hx : s.waiting <;> simp_all
      rw [hw] at hle
      unfold St.tokens at hle ⊢
      dsimp only
      simp only [Bool.toNat_false, Bool.toNat_true] at hle ⊢
      omega
  | arrive =>
    have hr := hr rfl
    unfold St.step
    dsimp only
    split
    · rename_i hc
      intro hd
      have h := h hd
      unfold St.tokens at h ⊢
      dsimp only at hd ⊢
      rw [if_pos ⟨hr, hd⟩]
      rw [hc.1] at h
      simp only [Bool.toNat_false, Bool.toNat_true] at h ⊢
      rw [List.count_append]
      simp only [List.count_singleton_self]
      omega
    · exact h
  | record due =>
    unfold St.step
    dsimp only
    split
    · exact h
    · split
      · split
        · rw [tryFlush_tokens, (tryFlush_fields _).1, (tryFlush_fields _).2.2.2.1]; exact h
        · exact h
      · exact h
  | tick =>
    unfold St.step
    dsimp only
    split
    · rw [tryFlush_tokens, (tryFlush_fields _).1, (tryFlush_fields _).2.2.2.1]; exact h
    · exact h
  | commit =>
    unfold St.step
    dsimp only
    split <;> exact h
  | flush =>
    unfold St.step
    dsimp only
    split
    · exact h
    · split
      · unfold St.tokens at h ⊢
        simpa [List.count_append] using h
      · exact h
  | room =>
    unfold St.step
    dsimp only
    split
    · unfold St.tokens at h ⊢
      simpa [List.count_append] using h
    · exact h
  | abandon =>
    unfold St.step St.tokens at *
    dsimp only
    rw [countAck_map]
    have : (if s.held.map (fun m => if m = .flush true then .flush false else m) = some .ack then 1 else 0)
        = (if s.held = some .ack then 1 else 0) := by
      cases s.held with
      | none => rfl
      | some m => cases m with
        | ack => rfl
        | flush a => cases a <;> rfl
    rw [this]
    exact h
  | take =>
    unfold St.step
    dsimp only
    split
    · rename_i m rest hh hc
      split
      · exact h
      · intro hd
        have h := h hd
        unfold St.tokens at h ⊢
        rw [hh, hc] at h
        dsimp only at h ⊢
        rw [List.count_cons] at h
        cases m <;> simp_all <;> omega
    · exact h
  | done ok =>
    unfold St.step
    dsimp only
    split
    · exact h
    · rename_i hh
      intro hd
      have h := h hd
      unfold St.tokens at h hle ⊢
      rw [hh] at h
      simp at h ⊢
      cases hw : s.waiting <;> simp_all <;> omega
    · rename_i hh
      unfold St.tokens at h ⊢
      rw [hh] at h
      simpa using h
    · rename_i hh
      unfold St.tokens at h ⊢
      rw [hh] at h
      simpa using h
  | fail => nofun

theorem run_tokens (es : List Ev) : ∀ (s : St), s.tokens ≤ s.waiting.toNat →
    (s.run es).tokens ≤ (s.run es).waiting.toNat := by
  induction es with
  | nil => intro s h; exact h
  | cons e es ih => intro s h; exact ih _ (step_tokens s e h)

/-! ## How full the channel gets -/

/-- Flushes that nobody waits for: of the automatic strategy when the period is over, and of calls that were
dropped -/
def unawaited (st : Strategy) : Ev → Nat
  | .abandon => if st = .none then 0 else 1
  | .record true => if st = .auto then 1 else 0
  | .tick => if st = .auto then 1 else 0
  | _ => 0

def unawaitedAll (st : Strategy) (es : List Ev) : Nat := (es.map (unawaited st)).sum

theorem step_strategy (s : St) (e : Ev) : (s.step e).strategy = s.strategy := by
  unfold St.step
  cases e <;> dsimp only <;> (repeat' split) <;> first | rfl | exact (tryFlush_fields _).2.2.2.2.2.1

theorem step_none (s : St) (e : Ev) (h : s.strategy = .none) (hc : s.call = .no) :
    (s.step e).call = .no := by
  unfold St.step
  cases e <;> dsimp only <;> (repeat' split) <;>
    first | exact hc | exact (tryFlush_fields _).2.2.2.2.1.trans hc | simp_all

theorem flushes_tryFlush (s : St) : s.tryFlush.flushes ≤ s.flushes + 1 := by
  obtain ⟨_, _, h3, _, _, _, _, h4⟩ := tryFlush_fields s
  unfold St.flushes
  rw [h3]
  rcases h4 with h4 | ⟨h4, _⟩ <;> rw [h4]
  · omega
  · rw [List.countP_append]
    simp
    omega

/-- Flushes on their way are the awaited one, or unawaited. -/
theorem step_flushes (s : St) (e : Ev) (k : Nat) (hn : s.strategy = .none → s.call = .no)
    (h : s.flushes ≤ (if s.call = .waits then 1 else 0) + k) :
    (s.step e).flushes ≤ (if (s.step e).call = .waits then 1 else 0) + (k + unawaited s.strategy e) := by
  cases e with
  | respond =>
    unfold St.step
    dsimp only
    split <;> exact h
  | arrive =>
    unfold St.step
    dsimp only
    split
    · unfold St.flushes at h ⊢
      dsimp only
      split
      · simpa [List.countP_append, unawaited] using h
      · exact h
    · exact h
  | record due =>
    unfold St.step
    dsimp only
    split
    · exact Nat.le_trans h (Nat.add_le_add_left (Nat.le_add_right _ _) _)
    · split
      · cases due with
        | false => exact h
        | true =>
          simp only [if_true]
          rw [(tryFlush_fields _).2.2.2.2.1]
          have h2 := flushes_tryFlush { s with dirty := true }
          have h3 : ({ s with dirty := true } : St).flushes = s.flushes := rfl
          rw [h3] at h2
          rename_i hs
          have hu : unawaited s.strategy (.record true) = 1 := by rw [hs]; rfl
          rw [hu]
          dsimp only
          omega
      · exact Nat.le_trans h (Nat.add_le_add_left (Nat.le_add_right _ _) _)
  | tick =>
    unfold St.step
    dsimp only
    split
    · rw [(tryFlush_fields _).2.2.2.2.1]
      have h2 := flushes_tryFlush s
      rename_i hs
      have hu : unawaited s.strategy .tick = 1 := by rw [hs]; rfl
      rw [hu]
      omega
    · exact Nat.le_trans h (Nat.add_le_add_left (Nat.le_add_right _ _) _)
  | commit =>
    unfold St.step
    dsimp only
    split <;> exact h
  | flush =>
    unfold St.step
    dsimp only
    split
    · exact h
    · rename_i hc
      have hcall : s.call = .no := by
        cases hx : s.call <;> simp_all
      rw [hcall] at h
      split
      · unfold St.flushes at h ⊢
        dsimp only [unawaited]
        rw [List.countP_append]
        simp at h ⊢
        omega
      · simp at h ⊢
        exact Nat.le_trans h (Nat.le_add_right _ _)
  | room =>
    unfold St.step
    dsimp only
    split
    · rename_i hc
      rw [hc.1] at h
      unfold St.flushes at h ⊢
      dsimp only [unawaited]
      rw [List.countP_append]
      simp at h ⊢
      omega
    · exact h
  | abandon =>
    have h0 : (s.step .abandon).flushes = s.flushes := by
      unfold St.step St.flushes
      dsimp only
      rw [countFlush_map]
      cases s.held with
      | none => rfl
      | some m => cases m with
        | ack => rfl
        | flush a => cases a <;> rfl
    rw [h0]
    have h1 : (if s.call = .waits then 1 else 0) ≤ 1 := by split <;> omega
    show s.flushes ≤ (if Call.no = .waits then 1 else 0) + _
    cases hs : s.strategy with
    | none => rw [hn hs] at h; simpa [unawaited] using h
    | manual =>
      show _ ≤ _ + (k + 1)
      simp
      omega
    | auto =>
      show _ ≤ _ + (k + 1)
      simp
      omega
  | take =>
    unfold St.step
    dsimp only
    split
    · rename_i m rest hh hc
      split
      · exact h
      · unfold St.flushes at h ⊢
        rw [hh, hc] at h
        dsimp only [unawaited] at h ⊢
        rw [List.countP_cons] at h
        cases m <;> simp_all
    · exact h
  | done ok =>
    unfold St.step
    dsimp only
    split
    · exact h
    · rename_i hh
      unfold St.flushes at h ⊢
      rw [hh] at h
      simpa [unawaited] using h
    · rename_i hh
      unfold St.flushes at h ⊢
      rw [hh] at h
      dsimp only [unawaited] at h ⊢
      have : (if s.call = .waits then 1 else 0) ≤ 1 := by split <;> omega
      simp at h ⊢
      omega
    · rename_i hh
      unfold St.flushes at h ⊢
      rw [hh] at h
      dsimp only [unawaited] at h ⊢
      simp at h ⊢
      omega
  | fail =>
    unfold St.step St.flushes
    simp

theorem length_split (l : List Msg) : l.length = l.count .ack + l.countP (· ≠ .ack) := by
  induction l with
  | nil => rfl
  | cons m l ih =>
    rw [List.length_cons, List.count_cons, List.countP_cons, ih]
    cases m <;> simp <;> omega

theorem chan_le (s : St) : s.chan.length ≤ s.tokens + s.flushes := by
  rw [length_split]
  unfold St.tokens St.flushes
  omega

theorem run_flushes (st : Strategy) (es : List Ev) : ∀ (s : St) (k : Nat), s.strategy = st →
    (s.strategy = .none → s.call = .no) →
    s.flushes ≤ (if s.call = .waits then 1 else 0) + k →
    (s.run es).flushes ≤ (if (s.run es).call = .waits then 1 else 0) + (k + unawaitedAll st es) := by
  induction es with
  | nil => intro s k _ _ h; exact h
  | cons e es ih =>
    intro s k hst hn h
    have := ih _ _ ((step_strategy s e).trans hst)
      (fun hx => have hx := (step_strategy s e).symm.trans hx; step_none s e hx (hn hx))
      (step_flushes s e k hn h)
    rw [hst] at this
    show ((s.step e).run es).flushes ≤ (if ((s.step e).run es).call = .waits then 1 else 0) + _
    unfold unawaitedAll at this ⊢
    rw [List.map_cons, List.sum_cons]
    omega

theorem run_append (s : St) (es fs : List Ev) : s.run (es ++ fs) = (s.run es).run fs := by
  simp [St.run, List.foldl_append]

/-- Each response that comes in after fewer than 98 unawaited flushes finds room. -/
theorem room_of_few (st : Strategy) (es : List Ev) (h : unawaitedAll st es + 2 < cap) :
    ((St.init st).run es).chan.length < cap := by
  have h1 := run_tokens es (St.init st) (by cases st <;> decide)
  have h2 := run_flushes st es (St.init st) 0 rfl (fun _ => rfl) (by cases st <;> decide)
  have h3 := chan_le ((St.init st).run es)
  have h4 : (((St.init st).run es).waiting).toNat ≤ 1 := Bool.toNat_le _
  have h5 : (if ((St.init st).run es).call = .waits then 1 else 0) ≤ 1 := by split <;> omega
  omega

/-- Every response that comes in finds room. -/
def RoomAll (s : St) (es : List Ev) : Prop :=
  ∀ pre post, es = pre ++ .arrive :: post → (s.run pre).chan.length < cap

theorem run_kept (es : List Ev) : ∀ (s : St), s.tokens ≤ s.waiting.toNat →
    (s.dead = false → s.tokens = s.waiting.toNat) → RoomAll s es →
    (s.run es).dead = false → (s.run es).tokens = (s.run es).waiting.toNat := by
  induction es with
  | nil => intro s _ h _; exact h
  | cons e es ih =>
    intro s hle h hr
    refine ih (s.step e) (step_tokens s e hle) (step_kept s e hle h ?_) ?_
    · intro he; subst he; exact hr [] es rfl
    · intro pre post hx
      exact hr (e :: pre) post (by rw [hx]; rfl)

theorem few_roomAll (st : Strategy) (es : List Ev) (h : unawaitedAll st es + 2 < cap) :
    RoomAll (St.init st) es := by
  intro pre post hx
  refine room_of_few st pre ?_
  subst hx
  unfold unawaitedAll at h ⊢
  rw [List.map_append, List.sum_append] at h
  omega

/-! ## A lost acknowledgement -/

theorem stalled_step (s : St) (e : Ev) (hw : s.waiting = true) (ht : s.tokens = 0) :
    (s.step e).waiting = true ∧ (s.step e).tokens = 0 ∧ (s.step e).sent = s.sent := by
  have hwire : s.wire = false := by
    unfold St.tokens at ht
    cases hx : s.wire
    · rfl
    · rw [hx] at ht; simp only [Bool.toNat_true] at ht; omega
  have hh : s.held ≠ some .ack := by
    intro hx; unfold St.tokens at ht; rw [hx] at ht; simp at ht
  cases e with
  | respond => unfold St.step; simp [hw, ht]
  | arrive => unfold St.step; simp [hwire, hw, ht]
  | record due =>
    unfold St.step
    dsimp only
    split
    · exact ⟨hw, ht, rfl⟩
    · split
      · split
        · rw [tryFlush_tokens, (tryFlush_fields _).1, (tryFlush_fields _).2.2.2.2.2.2.1]
          exact ⟨hw, ht, rfl⟩
        · exact ⟨hw, ht, rfl⟩
      · exact ⟨hw, ht, rfl⟩
  | tick =>
    unfold St.step
    dsimp only
    split
    · rw [tryFlush_tokens, (tryFlush_fields _).1, (tryFlush_fields _).2.2.2.2.2.2.1]
      exact ⟨hw, ht, rfl⟩
    · exact ⟨hw, ht, rfl⟩
  | commit => unfold St.step; dsimp only; split <;> exact ⟨hw, ht, rfl⟩
  | flush =>
    unfold St.step
    dsimp only
    split
    · exact ⟨hw, ht, rfl⟩
    · split
      · refine ⟨hw, ?_, rfl⟩
        unfold St.tokens at ht ⊢
        simpa [List.count_append] using ht
      · exact ⟨hw, ht, rfl⟩
  | room =>
    unfold St.step
    dsimp only
    split
    · refine ⟨hw, ?_, rfl⟩
      unfold St.tokens at ht ⊢
      simpa [List.count_append] using ht
    · exact ⟨hw, ht, rfl⟩
  | abandon =>
    refine ⟨hw, ?_, rfl⟩
    unfold St.step St.tokens at *
    dsimp only
    rw [countAck_map]
    cases hx : s.held with
    | none => rw [hx] at ht; simpa using ht
    | some m => cases m with
      | ack => exact absurd hx hh
      | flush a => rw [hx] at ht; cases a <;> simpa using ht
  | take =>
    unfold St.step
    dsimp only
    split
    · rename_i m rest h1 h2
      split
      · exact ⟨hw, ht, rfl⟩
      · refine ⟨hw, ?_, rfl⟩
        unfold St.tokens at ht ⊢
        rw [h1, h2] at ht
        dsimp only at ht ⊢
        rw [List.count_cons] at ht
        cases m <;> simp_all
    · exact ⟨hw, ht, rfl⟩
  | done ok =>
    unfold St.step
    dsimp only
    split
    · exact ⟨hw, ht, rfl⟩
    · rename_i hx; exact absurd hx hh
    all_goals
      rename_i hx
      refine ⟨hw, ?_, rfl⟩
      unfold St.tokens at ht ⊢
      rw [hx] at ht
      simpa using ht
  | fail =>
    refine ⟨hw, ?_, rfl⟩
    unfold St.step St.tokens
    simp [hwire]

theorem stalled_run (es : List Ev) : ∀ (s : St), s.waiting = true → s.tokens = 0 →
    (s.run es).waiting = true ∧ (s.run es).sent = s.sent := by
  induction es with
  | nil => intro s h _; exact ⟨h, rfl⟩
  | cons e es ih =>
    intro s h ht
    obtain ⟨h1, h2, h3⟩ := stalled_step s e h ht
    obtain ⟨h4, h5⟩ := ih _ h1 h2
    exact ⟨h4, h5.trans h3⟩

/-! ## The task catches up -/

/-- A call that waits for the answer has its message in the channel or with the task. -/
def Waits (s : St) : Prop := s.call = .waits → .flush true ∈ s.chan ∨ s.held = some (.flush true)

theorem Waits.tryFlush {s : St} (h : Waits s) : Waits s.tryFlush := by
  obtain ⟨_, _, h3, _, h5, _, _, h4⟩ := tryFlush_fields s
  intro hc
  rw [h5] at hc
  rw [h3]
  rcases h hc with h | h
  · left
    rcases h4 with h4 | ⟨h4, _⟩ <;> rw [h4]
    · exact h
    · exact List.mem_append_left _ h
  · exact .inr h

theorem Waits.step {s : St} (h : Waits s) (e : Ev) : Waits (s.step e) := by
  cases e with
  | respond => unfold St.step; dsimp only; split <;> exact h
  | arrive =>
    unfold St.step
    dsimp only
    split
    · rename_i hc
      intro hx
      rw [hc.2] at hx
      cases hx
    · exact h
  | record due =>
    unfold St.step
    dsimp only
    split
    · exact h
    · split
      · have h' : Waits { s with dirty := true } := h
        split
        · exact h'.tryFlush
        · exact h'
      · exact h
  | tick =>
    unfold St.step
    dsimp only
    split
    · exact h.tryFlush
    · exact h
  | commit => unfold St.step; dsimp only; split <;> exact h
  | flush =>
    unfold St.step
    dsimp only
    split
    · exact h
    · split
      · exact fun _ => .inl (by simp)
      · exact nofun
  | room =>
    unfold St.step
    dsimp only
    split
    · exact fun _ => .inl (by simp)
    · exact h
  | abandon => exact nofun
  | take =>
    unfold St.step
    dsimp only
    split
    · rename_i m rest hh hc
      split
      · exact h
      · intro hx
        rcases h hx with h | h
        · rw [hc] at h
          rcases List.mem_cons.mp h with h | h
          · exact .inr (by rw [← h])
          · exact .inl h
        · rw [hh] at h; cases h
    · exact h
  | done ok =>
    unfold St.step
    dsimp only
    split
    · exact h
    · rename_i hh
      intro hx
      rcases h hx with h | h
      · exact .inl h
      · rw [hh] at h; cases h
    · exact nofun
    · rename_i hh
      intro hx
      rcases h hx with h | h
      · exact .inl h
      · rw [hh] at h; cases h
  | fail => exact nofun

theorem Waits.run (es : List Ev) : ∀ {s : St}, Waits s → Waits (s.run es) := by
  induction es with
  | nil => intro s h; exact h
  | cons e es ih => intro s h; exact ih (h.step e)

theorem Waits.init (st : Strategy) : Waits (St.init st) := nofun

/-- the task finishes the message it has -/
theorem done_held (s : St) (hd : s.dead = false) :
    (s.step (.done true)).held = none ∧ (s.step (.done true)).chan = s.chan
      ∧ (s.step (.done true)).dead = false ∧ (s.step (.done true)).wire = s.wire := by
  unfold St.step
  dsimp only
  split
  · rename_i h; exact ⟨h, rfl, hd, rfl⟩
  all_goals exact ⟨rfl, rfl, hd, rfl⟩

theorem drain (l : List Msg) : ∀ (s : St), s.chan = l → s.held = none → s.dead = false →
    ∃ es, (∀ e ∈ es, e = .take ∨ e = .done true) ∧ (s.run es).chan = [] ∧ (s.run es).held = none
      ∧ (s.run es).dead = false ∧ (s.run es).wire = s.wire := by
  induction l with
  | nil => intro s hc hh hd; exact ⟨[], by simp, hc, hh, hd, rfl⟩
  | cons m l ih =>
    intro s hc hh hd
    have h1 : s.step .take = { s with held := some m, chan := l } := by
      unfold St.step
      rw [hh, hc]
      simp [hd]
    obtain ⟨h2, h3, h4, h5⟩ := done_held (s.step .take) (by rw [h1]; exact hd)
    have h3' : ((s.step .take).step (.done true)).chan = l := by rw [h3, h1]
    have h5' : ((s.step .take).step (.done true)).wire = s.wire := by rw [h5, h1]
    obtain ⟨es, ha, hb, hc', hd', he⟩ := ih _ h3' h2 h4
    refine ⟨.take :: .done true :: es, ?_, hb, hc', hd', he.trans h5'⟩
    intro e hx
    rcases List.mem_cons.mp hx with rfl | hx
    · exact .inl rfl
    · rcases List.mem_cons.mp hx with rfl | hx
      · exact .inr rfl
      · exact ha e hx

/-- Without the application's or the broker's doing, other than answers, the task empties the channel. -/
theorem drain_all (s : St) (hd : s.dead = false) :
    ∃ es, (∀ e ∈ es, e = .take ∨ e = .done true) ∧ (s.run es).chan = [] ∧ (s.run es).held = none
      ∧ (s.run es).dead = false ∧ (s.run es).wire = s.wire := by
  obtain ⟨h1, h2, h3, h4⟩ := done_held s hd
  obtain ⟨es, ha, hb, hc, hd', he⟩ := drain _ (s.step (.done true)) rfl h1 h3
  refine ⟨.done true :: es, ?_, hb, hc, hd', he.trans h4⟩
  intro e hx
  rcases List.mem_cons.mp hx with rfl | hx
  · exact .inr rfl
  · exact ha e hx

/-- The steps of the task, of a call waiting for room, and of the application polling for a response -/
def Serve (e : Ev) : Prop := e = .take ∨ e = .done true ∨ e = .room ∨ e = .arrive

theorem served_of_kept (s : St) (hw : Waits s) (hle : s.tokens ≤ s.waiting.toNat)
    (hk : s.dead = false → s.tokens = s.waiting.toNat) (hd : s.dead = false) :
    ∃ es, (∀ e ∈ es, Serve e) ∧ (s.run es).waiting = false ∧ (s.run es).dead = false := by
  obtain ⟨es, ha, hc, hh, hd', he⟩ := drain_all s hd
  have hser : ∀ e ∈ es, Serve e := fun e hx => by
    rcases ha e hx with h | h
    · exact .inl h
    · exact .inr (.inl h)
  have hroom : RoomAll s es := by
    intro pre post hx
    have : Ev.arrive ∈ es := by rw [hx]; simp
    rcases ha _ this with h | h <;> cases h
  have hk' := run_kept es s hle hk hroom hd'
  have hw' : Waits (s.run es) := hw.run es
  generalize ht : s.run es = t at *
  have htok : t.tokens = t.wire.toNat := by
    unfold St.tokens
    rw [hc, hh]
    simp
  cases hwire : t.wire with
  | false =>
    refine ⟨es, hser, ?_, by rw [ht]; exact hd'⟩
    rw [ht]
    rw [htok, hwire] at hk'
    cases hx : t.waiting
    · rfl
    · rw [hx] at hk'; cases hk'
  | true =>
    cases hcall : t.call with
    | waits =>
      rcases hw' hcall with h | h
      · rw [hc] at h; cases h
      · rw [hh] at h; cases h
    | no =>
      refine ⟨es ++ [.arrive, .take, .done true], ?_, ?_⟩
      · intro e hx
        rcases List.mem_append.mp hx with hx | hx
        · exact hser e hx
        · rcases t with ⟨⟩
          simp at hx
          rcases hx with rfl | rfl | rfl
          · exact .inr (.inr (.inr rfl))
          · exact .inl rfl
          · exact .inr (.inl rfl)
      · rw [run_append, ht]
        obtain ⟨a1, a2, a3, a4, a5, a6, a7, a8, a9⟩ := t
        simp only at hc hh hd' hwire hcall
        subst hc hh hd' hwire hcall
        exact ⟨rfl, rfl⟩
    | blocked =>
      refine ⟨es ++ [.room, .take, .done true, .arrive, .take, .done true], ?_, ?_⟩
      · intro e hx
        rcases List.mem_append.mp hx with hx | hx
        · exact hser e hx
        · simp at hx
          rcases hx with rfl | rfl | rfl | rfl | rfl | rfl
          · exact .inr (.inr (.inl rfl))
          · exact .inl rfl
          · exact .inr (.inl rfl)
          · exact .inr (.inr (.inr rfl))
          · exact .inl rfl
          · exact .inr (.inl rfl)
      · rw [run_append, ht]
        obtain ⟨a1, a2, a3, a4, a5, a6, a7, a8, a9⟩ := t
        simp only at hc hh hd' hwire hcall
        subst hc hh hd' hwire hcall
        exact ⟨rfl, rfl⟩

end Verif.Client.Acks
