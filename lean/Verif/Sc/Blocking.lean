/-!
# The lock of a store and the channel of its dispatcher

Handlers of status messages take the read lock of a store, compute actions and send them over a bounded
channel to the metadata dispatcher, which needs the write lock of the same store to carry them out:
`fluvio-sc/src/services/private_api/private_server.rs`,
`fluvio-stream-dispatcher/src/{store/mod.rs,dispatcher/metadata.rs}`,
`fluvio-stream-model/src/store/dual_store.rs`.  Only locks and the length of the channel are modelled.
-/

namespace Verif.Sc.Blocking

/-- a task that handles a message with `n` entries.  `keeps`: the read guard is kept while the actions are sent,
as in `receive_partition_status_update` (private_server.rs:343-380); otherwise it is dropped before, as in
`receive_lrs_update`, `receive_replica_remove` and `receive_mirror_update` (private_server.rs:222-340). -/
inductive Task where
  /-- about to take the read lock -/
  | start (keeps : Bool) (n : Nat)
  /-- `n` actions are still to be sent -/
  | sending (keeps : Bool) (n : Nat)
  | done
deriving DecidableEq

/-- the metadata dispatcher of the store — dispatcher/metadata.rs:102-160 -/
inductive Disp where
  | idle
  /-- an action or a change of the metadata is being carried out -/
  | busy
  /-- `apply_changes` waits for the write lock — dual_store.rs:303-306 -/
  | wantsWrite
deriving DecidableEq

structure State where
  /-- capacity of the channel: 100 — store/mod.rs:68 -/
  cap : Nat
  chan : Nat
  disp : Disp
  tasks : List Task
deriving DecidableEq

/-- the task holds the read lock while other tasks may run -/
def Task.guards : Task → Bool
  | .sending true _ => true
  | _ => false

/-- One task or the dispatcher takes a step.  The lock is `async_lock::RwLock`: while a writer waits no new
reader is admitted. -/
inductive Step : State → State → Prop where
  /-- the read lock is taken, all actions are computed, and the guard dropped if not kept -/
  | lock (c n d k m pre post) (h : d ≠ .wantsWrite) :
      Step ⟨c, n, d, pre ++ .start k m :: post⟩ ⟨c, n, d, pre ++ .sending k m :: post⟩
  /-- `send_action`: waits while the channel is full -/
  | send (c n d k m pre post) (h : n < c) :
      Step ⟨c, n, d, pre ++ .sending k (m + 1) :: post⟩ ⟨c, n + 1, d, pre ++ .sending k m :: post⟩
  /-- the handler returns -/
  | finish (c n d k pre post) :
      Step ⟨c, n, d, pre ++ .sending k 0 :: post⟩ ⟨c, n, d, pre ++ .done :: post⟩
  /-- the dispatcher receives an action -/
  | receive (c n ts) : Step ⟨c, n + 1, .idle, ts⟩ ⟨c, n, .busy, ts⟩
  /-- the metadata service has stored the new status -/
  | stored (c n ts) : Step ⟨c, n, .busy, ts⟩ ⟨c, n, .wantsWrite, ts⟩
  /-- or it failed, or the partition is gone -/
  | failed (c n ts) : Step ⟨c, n, .busy, ts⟩ ⟨c, n, .idle, ts⟩
  /-- `apply_changes` gets the write lock, updates the store and releases it -/
  | write (c n ts) (h : ∀ t ∈ ts, t.guards = false) : Step ⟨c, n, .wantsWrite, ts⟩ ⟨c, n, .idle, ts⟩

/-- something arrives from outside -/
inductive Arrives : State → State → Prop where
  /-- a broker's message, or another task of the controller that sends actions -/
  | task (c n d ts k m) : Arrives ⟨c, n, d, ts⟩ ⟨c, n, d, ts ++ [.start k m]⟩
  /-- a change reported by the metadata service -/
  | change (c n ts) : Arrives ⟨c, n, .idle, ts⟩ ⟨c, n, .busy, ts⟩

/-- `n` steps -/
inductive Steps : Nat → State → State → Prop where
  | refl (s) : Steps 0 s s
  | snoc {n s t u} (h : Steps n s t) (h' : Step t u) : Steps (n + 1) s u

/-- no step is possible -/
def Stuck (s : State) : Prop := ∀ t, ¬ Step s t

/-- all messages are handled -/
def State.AllDone (s : State) : Prop := ∀ t ∈ s.tasks, t = .done

def Task.work : Task → Nat
  | .start _ n => 6 * n + 2
  | .sending _ n => 6 * n + 1
  | .done => 0

def Disp.work : Disp → Nat
  | .idle => 0
  | .busy => 2
  | .wantsWrite => 1

/-- what is still to be done -/
def State.work (s : State) : Nat := (s.tasks.map Task.work).sum + 4 * s.chan + s.disp.work

theorem step_work {s t : State} (h : Step s t) : t.work < s.work := by
  cases h <;> simp [State.work, Task.work, Disp.work] <;> omega

theorem steps_work {n : Nat} {s t : State} (h : Steps n s t) : n + t.work ≤ s.work := by
  induction h with
  | refl => omega
  | snoc _ h' ih => have := step_work h'; omega

/-- the guard is never kept while sending -/
def Task.drops : Task → Bool
  | .start true _ | .sending true _ => false
  | _ => true

def Careful (s : State) : Prop := (∀ t ∈ s.tasks, t.drops = true) ∧ 0 < s.cap

theorem guards_of_drops {t : Task} (h : t.drops = true) : t.guards = false := by
  cases t with
  | sending k n => cases k <;> first | rfl | cases h
  | _ => rfl

private theorem mem_mid {α} {p : α → Prop} {pre post : List α} {a b : α} (h : ∀ x ∈ pre ++ a :: post, p x) (hb : p b) :
    ∀ x ∈ pre ++ b :: post, p x := by
  intro x hx
  rcases List.mem_append.1 hx with hx | hx
  · exact h x (List.mem_append.2 (.inl hx))
  · rcases List.mem_cons.1 hx with rfl | hx
    · exact hb
    · exact h x (List.mem_append.2 (.inr (List.mem_cons_of_mem _ hx)))

theorem careful_step {s t : State} (hc : Careful s) (h : Step s t) : Careful t := by
  obtain ⟨h1, h2⟩ := hc
  cases h with
  | lock c n d k m pre post hd =>
    refine ⟨mem_mid h1 ?_, h2⟩
    have := h1 (.start k m) (List.mem_append.2 (.inr List.mem_cons_self))
    cases k <;> first | rfl | cases this
  | send c n d k m pre post hlt =>
    refine ⟨mem_mid h1 ?_, h2⟩
    have := h1 (.sending k (m + 1)) (List.mem_append.2 (.inr List.mem_cons_self))
    cases k <;> first | rfl | cases this
  | finish c n d k pre post => exact ⟨mem_mid h1 rfl, h2⟩
  | receive c n ts => exact ⟨h1, h2⟩
  | stored c n ts => exact ⟨h1, h2⟩
  | failed c n ts => exact ⟨h1, h2⟩
  | write c n ts hg => exact ⟨h1, h2⟩

theorem careful_steps {n : Nat} {s t : State} (hc : Careful s) (h : Steps n s t) : Careful t := by
  induction h with
  | refl => exact hc
  | snoc _ h' ih => exact careful_step (ih hc) h'

theorem unfinished {ts : List Task} (h : ¬ ∀ t ∈ ts, t = .done) :
    ∃ pre t post, ts = pre ++ t :: post ∧ t ≠ .done := by
  induction ts with
  | nil => exact absurd nofun h
  | cons t ts ih =>
    by_cases ht : t = .done
    · obtain ⟨pre, u, post, e, hu⟩ := ih fun hall => h fun x hx => by
        rcases List.mem_cons.1 hx with rfl | hx
        · exact ht
        · exact hall x hx
      exact ⟨t :: pre, u, post, by rw [e]; rfl, hu⟩
    · exact ⟨[], t, ts, rfl, ht⟩

/-- stuck means: nothing is left to do, or some task keeps the guard and cannot go on -/
theorem stuck_cases {s : State} (hcap : 0 < s.cap) (hs : Stuck s) :
    (s.AllDone ∧ s.chan = 0 ∧ s.disp = .idle) ∨
    (s.disp = .wantsWrite ∧ (∃ t ∈ s.tasks, t.guards = true) ∧ s.cap ≤ s.chan) := by
  obtain ⟨c, n, d, ts⟩ := s
  cases d with
  | busy => exact absurd (Step.stored c n ts) (hs _)
  | idle =>
    cases n with
    | succ n => exact absurd (Step.receive c n ts) (hs _)
    | zero =>
      refine .inl ⟨Classical.byContradiction fun hn => ?_, rfl, rfl⟩
      obtain ⟨pre, t, post, rfl, ht⟩ := unfinished hn
      cases t with
      | done => exact ht rfl
      | start k m => exact hs _ (.lock c 0 .idle k m pre post nofun)
      | sending k m =>
        cases m with
        | zero => exact hs _ (.finish c 0 .idle k pre post)
        | succ m => exact hs _ (.send c 0 .idle k m pre post hcap)
  | wantsWrite =>
    by_cases hg : ∀ t ∈ ts, t.guards = false
    · exact absurd (Step.write c n ts hg) (hs _)
    · have hg' : ∃ t ∈ ts, t.guards = true := Decidable.byContradiction fun hn => hg fun t ht => by
        cases hb : t.guards with
        | false => rfl
        | true => exact absurd ⟨t, ht, hb⟩ hn
      refine .inr ⟨rfl, hg', Decidable.byContradiction fun hlt => ?_⟩
      obtain ⟨t, ht, hb⟩ := hg'
      obtain ⟨pre, post, rfl⟩ := List.append_of_mem ht
      cases t with
      | done => cases hb
      | start k m => cases hb
      | sending k m =>
        cases m with
        | zero => exact hs _ (.finish c n .wantsWrite k pre post)
        | succ m => exact hs _ (.send c n .wantsWrite k m pre post (by simp at hlt; exact hlt))

/-! ## Enough room in the channel -/

/-- actions a task has still to send -/
def Task.todo : Task → Nat
  | .start _ n | .sending _ n => n
  | .done => 0

/-- actions in the channel and still to be sent -/
def State.load (s : State) : Nat := s.chan + (s.tasks.map Task.todo).sum

theorem load_step {s t : State} (h : Step s t) : t.load ≤ s.load ∧ t.cap = s.cap := by
  cases h <;> simp [State.load, Task.todo] <;> omega

theorem load_steps {n : Nat} {s t : State} (h : Steps n s t) : t.load ≤ s.load ∧ t.cap = s.cap := by
  induction h with
  | refl => exact ⟨Nat.le_refl _, rfl⟩
  | snoc _ h' ih =>
    have := load_step h'
    exact ⟨Nat.le_trans this.1 ih.1, this.2.trans ih.2⟩

/-- if everything fits into the channel, then stuck means that nothing is left to do -/
theorem stuck_room {s : State} (hcap : 0 < s.cap) (hroom : s.load ≤ s.cap) (hs : Stuck s) :
    s.AllDone ∧ s.chan = 0 ∧ s.disp = .idle := by
  rcases stuck_cases hcap hs with h | ⟨_, ⟨t, ht, hb⟩, hle⟩
  · exact h
  · obtain ⟨c, n, d, ts⟩ := s
    obtain ⟨pre, post, rfl⟩ := List.append_of_mem ht
    simp only [State.load, List.map_append, List.map_cons, List.sum_append, List.sum_cons] at hroom hle
    cases t with
    | done => cases hb
    | start k m => cases hb
    | sending k m =>
      cases m with
      | zero => exact absurd (Step.finish c n d k pre post) (hs _)
      | succ m =>
        simp only [Task.todo] at hroom
        exact absurd (Step.send c n d k m pre post (by omega)) (hs _)

/-! ## Too many entries -/

/-- a task that can do nothing while a writer waits and the channel is full -/
def Task.waits : Task → Bool
  | .sending _ 0 => false
  | _ => true

/-- a task keeps the guard while it waits for room in the full channel, and the dispatcher waits for the lock -/
structure Frozen (s : State) : Prop where
  disp : s.disp = .wantsWrite
  full : s.cap ≤ s.chan
  guard : ∃ m, .sending true (m + 1) ∈ s.tasks
  waits : ∀ t ∈ s.tasks, t.waits = true

theorem frozen_stuck {s : State} (h : Frozen s) : Stuck s := by
  intro t hst
  obtain ⟨h1, h2, ⟨m, h3⟩, h4⟩ := h
  cases hst with
  | lock c n d k m pre post hd => exact hd h1
  | send c n d k m pre post hlt => exact absurd hlt (Nat.not_lt.2 h2)
  | finish c n d k pre post => exact absurd (h4 _ (List.mem_append.2 (.inr List.mem_cons_self))) (by simp [Task.waits])
  | receive c n ts => cases h1
  | stored c n ts => cases h1
  | failed c n ts => cases h1
  | write c n ts hg => exact absurd (hg _ h3) (by simp [Task.guards])

theorem frozen_arrives {s t : State} (h : Frozen s) (ha : Arrives s t) : Frozen t := by
  obtain ⟨h1, h2, ⟨m, h3⟩, h4⟩ := h
  cases ha with
  | task c n d ts k m' =>
    refine ⟨h1, h2, ⟨m, List.mem_append.2 (.inl h3)⟩, fun t ht => ?_⟩
    rcases List.mem_append.1 ht with ht | ht
    · exact h4 t ht
    · rw [List.mem_singleton.1 ht]; rfl
  | change c n ts => cases h1

theorem steps_trans {n m : Nat} {s t u : State} (h : Steps n s t) (h' : Steps m t u) : Steps (n + m) s u := by
  induction h' with
  | refl => exact h
  | snoc _ hs ih => exact .snoc (ih h) hs

theorem fill (c n m : Nat) (d : Disp) (k : Bool) (rest : List Task) (j : Nat) (h : n + j ≤ c) :
    Steps j ⟨c, n, d, .sending k (m + j) :: rest⟩ ⟨c, n + j, d, .sending k m :: rest⟩ := by
  induction j generalizing m with
  | zero => exact .refl _
  | succ j ih =>
    have h1 := ih (m + 1) (by omega)
    rw [show m + 1 + j = m + (j + 1) by omega] at h1
    exact .snoc h1 (.send c (n + j) d k m [] rest (by omega))

/-- a message with two more entries than fit into the channel can jam it -/
theorem jam {c n : Nat} (hc : 0 < c) (hn : c + 2 ≤ n) (rest : List Task) :
    ∃ k m, Steps k ⟨c, 0, .idle, .start true n :: rest⟩ ⟨c, c, .wantsWrite, .sending true (m + 1) :: rest⟩ := by
  obtain ⟨m, rfl⟩ : ∃ m, n = m + 1 + c + 1 := ⟨n - c - 2, by omega⟩
  have h1 := Steps.snoc (.refl _) (Step.lock c 0 .idle true (m + 1 + c + 1) [] rest nofun)
  have h2 := Steps.snoc h1 (.send c 0 .idle true (m + 1 + c) [] rest hc)
  have h3 := Steps.snoc h2 (.receive c 0 _)
  have h4 := Steps.snoc h3 (.stored c 0 _)
  have h5 := steps_trans h4 (fill c 0 (m + 1) .wantsWrite true rest c (by omega))
  have e : 0 + c = c := Nat.zero_add c
  exact ⟨4 + c, m, by rw [e] at h5; exact h5⟩

end Verif.Sc.Blocking
