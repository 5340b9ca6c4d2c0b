import Verif.Client.PoolHist

/-!
# C78: connections of a client go to the right broker and are shared

Claim: a socket or stream that a client gets for a partition runs over a connection to the broker that led the
partition, according to the client's metadata, when the call began; the connection was made to the address that the
metadata gave for that broker (the local one only if asked for).  There is at most one open connection to each broker.
What is handed out is open, a broken connection is replaced by the next call, and calls for one broker do not wait
for another.

The last sentence is not true of the code.  Streams are opened on the connection in the pool without looking whether
it has ended, so a broken connection is used again and again by `create_stream_with_version` until somebody asks for
a serial socket to the same broker.  And the lock of the whole pool is held while connecting.
-/

namespace Verif.Props

open Verif.Client.Pool

variable {K : Type}

/-- Specification: the address to use for a broker. -/
def C78_wanted (useLocal : Bool) (spu : Spu) (a : String) : Prop :=
  (useLocal = true ∧ spu.localAddr = some a) ∨ ((useLocal = false ∨ spu.localAddr = none) ∧ a = spu.addr)

theorem C78_address (u : Bool) (spu : Spu) : C78_wanted u spu (address u spu) := by
  unfold C78_wanted address
  cases h : spu.localAddr <;> cases u <;> simp

/-- Whatever a call got runs over a connection to the broker that led its partition when the call began, and the
connection goes to the address that the metadata gave for this broker at some point. -/
theorem C78_right_broker (u : Bool) (m : Meta K) (es : List (Ev K)) (i : Nat) (kind : Kind) (l : Int) (c : Nat)
    (h : (run (init u m) es).calls i = some (.got kind l c)) :
    (∃ pre k post, es = pre ++ .begin i kind k :: post ∧ (run (init u m) pre).view.leader k = some l) ∧
    ∃ k, (run (init u m) es).socks[c]? = some k ∧ k.spu = l ∧
      ∃ pre post spu, es = pre ++ post ∧ (run (init u m) pre).view.spu l = some spu ∧ C78_wanted u spu k.addr := by
  obtain ⟨h1, _, _, h4⟩ := history u m es
  obtain ⟨pre, k, ⟨post, hp⟩, hl⟩ := h4 i kind l c h
  obtain ⟨s, hs, hl'⟩ := (inv_run es _ (inv_init u m)).got i kind l c h
  obtain ⟨pre', spu, ⟨post', hp'⟩, hv, ha⟩ := h1 c s hs
  refine ⟨⟨pre, k, post, by rw [← hp]; simp, hl⟩, s, hs, hl', pre', post', spu, hp'.symm, hl' ▸ hv, ?_⟩
  rw [ha]; exact C78_address u spu

/-- At most one open connection to each broker. -/
theorem C78_one_connection (u : Bool) (m : Meta K) (es : List (Ev K)) (c d : Nat) (j k : Sock)
    (hc : (run (init u m) es).socks[c]? = some j) (hd : (run (init u m) es).socks[d]? = some k)
    (hj : j.stale = false) (hk : k.stale = false) (he : j.spu = k.spu) : c = d := by
  have hi := inv_run es _ (inv_init u m)
  exact nodup_mem _ hi.nodup j.spu c d (hi.live c j hc hj) (he ▸ hi.live d k hd hk)

/-- A serial socket is open when it is handed out. -/
theorem C78_serial_open (s : State K) (e : Ev K) (i : Nat) (l : Int) (c : Nat)
    (h0 : s.calls i ≠ some (.got .serial l c)) (h : (step s e).calls i = some (.got .serial l c)) :
    ∃ k, (step s e).socks[c]? = some k ∧ k.stale = false := by
  cases moves s e i with
  | same h1 => rw [h1] at h; exact absurd h h0
  | failed h1 => rw [h1] at h; cases h
  | begun _ _ _ _ _ _ h1 => rw [h1] at h; cases h
  | connecting _ _ _ _ _ h1 => rw [h1] at h; cases h
  | reused kind l' c' _ _ hp hs hsocks h1 =>
    rw [h1] at h; injection h with h; injection h with e1 e2 e3
    subst e1; subst e2; subst e3
    have := hs rfl
    rw [hsocks]
    unfold State.stale at this
    cases hk : s.socks[c']? with
    | none => rw [hk] at this; simp at this
    | some k => rw [hk] at this; exact ⟨k, rfl, by simpa using this⟩
  | connected kind l' a _ hsocks h1 =>
    rw [h1] at h; injection h with h; injection h with e1 e2 e3
    subst e3; rw [hsocks]
    exact ⟨⟨l', a, false⟩, by simp, rfl⟩

/-- A serial call whose broker can be reached gets an open connection whatever has become of the earlier ones: at
once if there is an open one, else by connecting. -/
theorem C78_replaced (u : Bool) (m : Meta K) (es : List (Ev K)) (i : Nat) (l : Int) (spu : Spu)
    (hc : (run (init u m) es).calls i = some (.waiting .serial l)) (hl : (run (init u m) es).lock = none)
    (hv : (run (init u m) es).view.spu l = some spu) (b : Bool) :
    ∃ c k, (run (init u m) (es ++ [.enter i, .connected i true b])).calls i = some (.got .serial l c) ∧
      (run (init u m) (es ++ [.enter i, .connected i true b])).socks[c]? = some k ∧ k.stale = false := by
  rw [run_append]
  generalize run (init u m) es = s at hc hl hv
  show ∃ c k, (step (step s (.enter i)) (.connected i true b)).calls i = _ ∧
    (step (step s (.enter i)) (.connected i true b)).socks[c]? = _ ∧ _
  have conn : ∀ s' : State K, s'.view.spu l = some spu →
      ∃ c k, (step (s'.connect i .serial l) (.connected i true b)).calls i = some (.got .serial l c) ∧
        (step (s'.connect i .serial l) (.connected i true b)).socks[c]? = some k ∧ k.stale = false := by
    intro s' hv'
    refine ⟨s'.socks.length, ⟨l, address s'.useLocal spu, false⟩, ?_, ?_, rfl⟩ <;>
      simp [step, State.connect, hv', State.setCall]
  cases hp : s.pooled l with
  | none =>
    have h : step s (.enter i) = s.connect i .serial l := by simp only [step, hl, hc, hp]
    rw [h]; exact conn s hv
  | some c =>
    cases hst : s.stale c with
    | true =>
      have h : step s (.enter i) = ({ s with pool := s.pool.filter (·.1 ≠ l) } : State K).connect i .serial l := by
        simp only [step, hl, hc, hp, hst]; rfl
      rw [h]; exact conn _ hv
    | false =>
      have h : step s (.enter i) = s.setCall i (.got .serial l c) := by
        simp only [step, hl, hc, hp, hst]; rfl
      have h' : step (s.setCall i (.got .serial l c)) (.connected i true b) = s.setCall i (.got .serial l c) := by
        simp [step, State.setCall]
      rw [h, h']
      unfold State.stale at hst
      cases hk : s.socks[c]? with
      | none => rw [hk] at hst; simp at hst
      | some k =>
        rw [hk] at hst
        exact ⟨c, k, by simp [State.setCall], hk, by simpa using hst⟩

/-- What is missing for streams: a stream is opened on an open connection if the connection in the pool is open. -/
theorem C78_stream_open_partial (s : State K) (e : Ev K) (i : Nat) (l : Int) (c : Nat)
    (hp : ∀ d, s.pooled l = some d → s.stale d = false)
    (h0 : s.calls i ≠ some (.got .stream l c)) (h : (step s e).calls i = some (.got .stream l c)) :
    ∃ k, (step s e).socks[c]? = some k ∧ k.stale = false := by
  cases moves s e i with
  | same h1 => rw [h1] at h; exact absurd h h0
  | failed h1 => rw [h1] at h; cases h
  | begun _ _ _ _ _ _ h1 => rw [h1] at h; cases h
  | connecting _ _ _ _ _ h1 => rw [h1] at h; cases h
  | reused kind l' c' _ _ hp' hs hsocks h1 =>
    rw [h1] at h; injection h with h; injection h with e1 e2 e3
    subst e1; subst e2; subst e3
    have := hp _ hp'
    rw [hsocks]
    unfold State.stale at this
    cases hk : s.socks[c']? with
    | none => rw [hk] at this; simp at this
    | some k => rw [hk] at this; exact ⟨k, rfl, by simpa using this⟩
  | connected kind l' a _ hsocks h1 =>
    rw [h1] at h; injection h with h; injection h with e1 e2 e3
    subst e3; rw [hsocks]
    exact ⟨⟨l', a, false⟩, by simp, rfl⟩

/-- Opening a serial socket first, as the consumer does (`request_stream`,
`crates/fluvio/src/consumer/mod.rs:396`), suffices: as long as the connection of a socket is open, a stream for the
same broker is opened on it. -/
theorem C78_stream_after_serial (u : Bool) (m : Meta K) (es : List (Ev K)) (i j : Nat) (l : Int) (c : Nat) (k : Sock)
    (kind : Kind) (hj : (run (init u m) es).calls j = some (.got kind l c))
    (hk : (run (init u m) es).socks[c]? = some k) (ho : k.stale = false)
    (hc : (run (init u m) es).calls i = some (.waiting .stream l)) (hl : (run (init u m) es).lock = none) :
    (run (init u m) (es ++ [.enter i])).calls i = some (.got .stream l c) ∧
      (run (init u m) (es ++ [.enter i])).socks[c]? = some k := by
  have hi := inv_run es _ (inv_init u m)
  obtain ⟨k', hk', hl'⟩ := hi.got j kind l c hj
  rw [hk] at hk'; injection hk' with hk'; subst hk'
  have hp := pooled_of_mem hi.nodup (hi.live c k hk ho)
  rw [hl'] at hp
  rw [run_append]
  generalize run (init u m) es = s at hc hl hp hk
  have h : step s (.enter i) = s.setCall i (.got .stream l c) := by simp only [step, hl, hc, hp]
  show (step s (.enter i)).calls i = _ ∧ _
  constructor
  · rw [h]; simp [State.setCall]
  · show (step s (.enter i)).socks[c]? = _
    rw [h]; exact hk

namespace C78

/-- Two partitions, led by brokers 1 and 2. -/
def view : Meta Nat := ⟨fun k => if k = 0 then some 1 else if k = 1 then some 2 else none,
  fun i => if i = 1 then some ⟨"one:9005", some "10.0.0.1:9005"⟩ else if i = 2 then some ⟨"two:9005", none⟩ else none⟩

/-- Two calls for the first partition share a connection; it breaks and the third gets a new one. -/
def shared : List (Ev Nat) :=
  [.begin 0 .serial 0, .enter 0, .connected 0 true true, .begin 1 .stream 0, .enter 1, .broken 0,
   .begin 2 .serial 0, .enter 2, .connected 2 true true]

example : (run (init true view) shared).calls 0 = some (.got .serial 1 0) ∧
    (run (init true view) shared).calls 1 = some (.got .stream 1 0) ∧
    (run (init true view) shared).calls 2 = some (.got .serial 1 1) ∧
    (run (init true view) shared).socks = [⟨1, "10.0.0.1:9005", true⟩, ⟨1, "10.0.0.1:9005", false⟩] := by
  decide

/-- The first call's connection has broken. -/
def ended : List (Ev Nat) := [.begin 0 .stream 0, .enter 0, .connected 0 true true, .broken 0]

/-- The hypotheses of `C78_replaced` and `C78_stream_after_serial` can be met. -/
example : (run (init false view) (ended ++ [.begin 1 .serial 0])).calls 1 = some (.waiting .serial 1) ∧
    (run (init false view) (ended ++ [.begin 1 .serial 0])).lock = none ∧
    (run (init false view) (ended ++ [.begin 1 .serial 0])).view.spu 1 = some ⟨"one:9005", some "10.0.0.1:9005"⟩ := by
  decide

example : let es := [Ev.begin 0 .serial 0, .enter 0, .connected 0 true true, .begin 1 .stream 0]
    (run (init false view) es).calls 0 = some (.got .serial 1 0) ∧
    (run (init false view) es).socks[0]? = some ⟨1, "one:9005", false⟩ ∧
    (run (init false view) es).calls 1 = some (.waiting .stream 1) ∧ (run (init false view) es).lock = none := by
  decide

/-- An event by which a serial socket could be asked for. -/
def isSerial : Ev Nat → Bool
  | .begin _ .serial _ => true
  | _ => false

/-- The pool holds the broken connection and nobody is connecting or asking for a serial socket. -/
structure Stuck (s : State Nat) : Prop where
  pooled : s.pooled 1 = some 0
  broken : ∃ k, s.socks[0]? = some k ∧ k.stale = true
  inv : Inv s
  noSerial : ∀ i l, s.calls i ≠ some (.waiting .serial l)
  streams : ∀ i c, s.calls i = some (.got .stream 1 c) → c = 0

theorem pooled_filter {s : State Nat} {l l' : Int} (hn : l' ≠ l) :
    State.pooled { s with pool := s.pool.filter (·.1 ≠ l) } l' = s.pooled l' := by
  unfold State.pooled
  congr 1
  rw [List.find?_filter]
  congr 1
  funext x
  by_cases h : x.1 = l' <;> simp [h, hn]

theorem pooled_step {s : State Nat} (h : Stuck s) (e : Ev Nat) : (step s e).pooled 1 = some 0 := by
  have hpc : ∀ (s' : State Nat) i kind l, (s'.connect i kind l).pooled 1 = s'.pooled 1 := by
    intro s' i kind l; unfold State.connect; split <;> rfl
  cases e with
  | view m => exact h.pooled
  | begin i kind k =>
    simp only [step]
    split
    · split <;> exact h.pooled
    · exact h.pooled
  | enter i =>
    simp only [step]
    split
    · rename_i hc; exact absurd hc (h.noSerial _ _)
    · split
      · exact h.pooled
      · rw [hpc]; exact h.pooled
    · exact h.pooled
  | connected i ok streamOk =>
    simp only [step]
    split
    · rename_i kind l a hc
      have hl : (1 : Int) ≠ l := by
        intro e; subst e
        exact (h.inv.conn i kind 1 a hc).2 0 (pooled_mem h.pooled)
      split
      · split
        · exact h.pooled
        · have := pooled_filter (s := s) hl
          unfold State.pooled at this ⊢
          simp only [] at this ⊢
          rw [List.find?_cons_of_neg (by simpa using hl.symm), this]
          exact h.pooled
      · exact h.pooled
    · exact h.pooled
  | broken c => exact h.pooled
  | dropped i =>
    simp only [step]
    split <;> exact h.pooled

theorem stuck_step {s : State Nat} (h : Stuck s) (e : Ev Nat) (he : isSerial e = false) : Stuck (step s e) := by
  obtain ⟨k, hk, hs⟩ := h.broken
  refine ⟨pooled_step h e, ?_, inv_step h.inv e, ?_, ?_⟩
  · rcases socks_step s e with h1 | ⟨_, _, _, _, _, _, h1⟩ | ⟨c, _, h1⟩
    · rw [h1]; exact ⟨k, hk, hs⟩
    · rw [h1]; exact ⟨k, get_append_left hk, hs⟩
    · rw [h1, List.getElem?_modify, hk]
      refine ⟨_, rfl, ?_⟩
      split
      · rfl
      · exact hs
  · intro i l hc
    cases moves s e i with
    | same h1 => rw [h1] at hc; exact h.noSerial i l hc
    | failed h1 => rw [h1] at hc; cases hc
    | begun kind k l' hb _ _ h1 =>
      rw [h1] at hc; injection hc with hc; injection hc with e1 e2
      subst e1; subst hb; cases he
    | reused _ _ _ _ _ _ _ _ h1 => rw [h1] at hc; cases hc
    | connecting _ _ _ _ _ h1 => rw [h1] at hc; cases hc
    | connected _ _ _ _ _ h1 => rw [h1] at hc; cases hc
  · intro i c hc
    cases moves s e i with
    | same h1 => rw [h1] at hc; exact h.streams i c hc
    | failed h1 => rw [h1] at hc; cases hc
    | begun _ _ _ _ _ _ h1 => rw [h1] at hc; cases hc
    | reused kind l' c' _ _ hp _ _ h1 =>
      rw [h1] at hc; injection hc with hc; injection hc with e1 e2 e3
      subst e2; subst e3
      rw [h.pooled] at hp; injection hp with hp; exact hp.symm
    | connecting _ _ _ _ _ h1 => rw [h1] at hc; cases hc
    | connected kind l' a h0 _ h1 =>
      rw [h1] at hc; injection hc with hc; injection hc with e1 e2 e3
      subst e2
      exact absurd (pooled_mem h.pooled) ((h.inv.conn i kind 1 a h0).2 0)

end C78

/-- Violation: once the connection of a broker has ended, streams go to the dead connection for ever, whatever else
happens, as long as nobody asks for a serial socket: no stream for this broker ever gets another connection. -/
theorem C78_violated_stream (es : List (Ev Nat)) (he : ∀ e ∈ es, C78.isSerial e = false) (i c : Nat)
    (h : (run (init false C78.view) (C78.ended ++ es)).calls i = some (.got .stream 1 c)) :
    ∃ k, (run (init false C78.view) (C78.ended ++ es)).socks[c]? = some k ∧ k.stale = true := by
  have h0 : C78.Stuck (run (init false C78.view) C78.ended) := by
    refine ⟨by decide, ⟨⟨1, "one:9005", true⟩, by decide, rfl⟩, inv_run _ _ (inv_init _ _), ?_, ?_⟩
    · intro i l
      by_cases hi : i = 0
      · subst hi; simp [C78.ended, run, step, init, C78.view, State.setCall, State.connect, State.pooled]
      · simp [C78.ended, run, step, init, C78.view, State.setCall, State.connect, State.pooled, hi]
    · intro i c
      by_cases hi : i = 0
      · subst hi; simp [C78.ended, run, step, init, C78.view, State.setCall, State.connect, State.pooled]
        intro h; exact h.symm
      · simp [C78.ended, run, step, init, C78.view, State.setCall, State.connect, State.pooled, hi]
  have hrun : ∀ (es : List (Ev Nat)) (s : State Nat), (∀ e ∈ es, C78.isSerial e = false) → C78.Stuck s →
      C78.Stuck (run s es) := by
    intro es
    induction es with
    | nil => intro s _ h; exact h
    | cons e es ih =>
      intro s he h
      exact ih (step s e) (fun e' h' => he e' (List.mem_cons_of_mem _ h'))
        (C78.stuck_step h e (he e (List.mem_cons_self ..)))
  rw [run_append] at h ⊢
  have hS := hrun es _ he h0
  rw [hS.streams i c h]
  exact hS.broken

/-- Such streams exist. -/
example : (run (init false C78.view) (C78.ended ++ [.begin 7 .stream 0, .enter 7])).calls 7
    = some (.got .stream 1 0) := by
  decide

/-- Violation: while one call is connecting to broker 1, a call for broker 2, to which there is an open connection,
gets nothing until that attempt ends. -/
theorem C78_violated_blocked (es : List (Ev Nat))
    (he : ∀ e ∈ es, (∀ a b, e ≠ .connected 1 a b) ∧ e ≠ .dropped 1) :
    let start := [Ev.begin 0 .serial 1, .enter 0, .connected 0 true true, .begin 1 .serial 0, .enter 1,
      .begin 2 .serial 1]
    ∀ c, (run (init false C78.view) (start ++ es)).calls 2 ≠ some (.got .serial 2 c) := by
  intro start c
  have key : ∀ (es : List (Ev Nat)) (s : State Nat), (∀ e ∈ es, (∀ a b, e ≠ .connected 1 a b) ∧ e ≠ .dropped 1) →
      Inv s → s.calls 1 = some (.connecting .serial 1 "one:9005") →
      (s.calls 2 = some (.waiting .serial 2) ∨ s.calls 2 = some .failed) →
      (run s es).calls 2 ≠ some (.got .serial 2 c) := by
    intro es
    induction es with
    | nil => intro s _ _ _ h h'; rcases h with h | h <;> rw [run, h] at h' <;> cases h'
    | cons e es ih =>
      intro s he hinv h1 h2
      refine ih (step s e) (fun e' h' => he e' (List.mem_cons_of_mem _ h')) (inv_step hinv e) ?_ ?_
      · cases e with
        | view m => exact h1
        | begin i kind k =>
          simp only [step]
          split
          · rename_i hc
            have : (1 : Nat) ≠ i := by intro e; subst e; rw [h1] at hc; cases hc
            split <;> simp only [setCall_calls, if_neg this] <;> exact h1
          · exact h1
        | enter i =>
          have hl := (hinv.conn 1 _ _ _ h1).1
          have : step s (.enter i) = s := by simp only [step, hl]
          rw [this]; exact h1
        | connected i ok streamOk =>
          have : (1 : Nat) ≠ i := by
            intro e; subst e; exact (he _ (List.mem_cons_self ..)).1 _ _ rfl
          simp only [step]
          split
          · split
            · split <;> simp only [setCall_calls, if_neg this] <;> exact h1
            · simp only [setCall_calls, if_neg this]; exact h1
          · exact h1
        | broken c => exact h1
        | dropped i =>
          have : (1 : Nat) ≠ i := by
            intro e; subst e; exact (he _ (List.mem_cons_self ..)).2 rfl
          simp only [step]
          split
          · simp only [setCall_calls, if_neg this]; exact h1
          · simp only [setCall_calls, if_neg this]; exact h1
          · exact h1
      · have hl := (hinv.conn 1 _ _ _ h1).1
        cases moves s e 2 with
        | same h => rw [h]; exact h2
        | failed h => exact Or.inr h
        | begun _ _ _ _ h0 _ _ => rcases h2 with h2 | h2 <;> rw [h0] at h2 <;> cases h2
        | reused kind l c' hee _ _ _ _ h =>
          subst hee
          have : step s (.enter 2) = s := by simp only [step, hl]
          rw [this]; exact h2
        | connecting kind l spu h0 _ h =>
          exfalso
          have := (inv_step hinv e).conn 2 _ _ _ h
          cases e with
          | enter i =>
            have hsame : step s (.enter i) = s := by simp only [step, hl]
            rw [hsame, h0] at h; cases h
          | view m => have h : s.calls 2 = _ := h; rw [h0] at h; cases h
          | broken m => have h : s.calls 2 = _ := h; rw [h0] at h; cases h
          | begin i kind' k =>
            simp only [step] at h
            split at h
            · split at h <;> simp only [setCall_calls] at h <;> split at h <;> first
                | (cases h; done)
                | (rw [h0] at h; cases h; done)
            · rw [h0] at h; cases h
          | connected i ok streamOk =>
            simp only [step] at h
            split at h
            · split at h
              · split at h <;> simp only [setCall_calls] at h <;> split at h <;> first
                  | (cases h; done)
                  | (rw [h0] at h; cases h; done)
              · simp only [setCall_calls] at h; split at h
                · cases h
                · rw [h0] at h; cases h
            · rw [h0] at h; cases h
          | dropped i =>
            simp only [step] at h
            split at h
            · simp only [setCall_calls] at h; split at h
              · cases h
              · rw [h0] at h; cases h
            · simp only [setCall_calls] at h; split at h
              · cases h
              · rw [h0] at h; cases h
            · rw [h0] at h; cases h
        | connected kind l a h0 _ h => rcases h2 with h2 | h2 <;> rw [h0] at h2 <;> cases h2
  rw [run_append]
  exact key es _ he (inv_run start _ (inv_init _ _)) (by decide) (Or.inl (by decide))

/-- The connection to broker 2 is open all the while. -/
example : (run (init false C78.view) [.begin 0 .serial 1, .enter 0, .connected 0 true true, .begin 1 .serial 0,
    .enter 1, .begin 2 .serial 1, .enter 2]).calls 2 = some (.waiting .serial 2) ∧
    (run (init false C78.view) [.begin 0 .serial 1, .enter 0, .connected 0 true true, .begin 1 .serial 0,
    .enter 1, .begin 2 .serial 1, .enter 2]).socks[0]? = some ⟨2, "two:9005", false⟩ := by
  decide

end Verif.Props
