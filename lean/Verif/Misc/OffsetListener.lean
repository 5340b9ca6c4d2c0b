/-!
# Publishing and listening to offsets (`fluvio-types/src/event.rs`)

Any number of threads publish, any number of listeners wait.  Every access to the shared value, every
registration and every notification is one step, and the steps of all threads interleave freely (all
accesses are sequentially consistent: event.rs:65).  `event_listener::Event` is modelled by its
documented behaviour: `listen()` registers at once, `notify(usize::MAX)` wakes everyone registered at
that moment.
-/

namespace Verif.Misc

/-- Where a listener is within `listen` — event.rs:166-187. -/
inductive Phase where
  /-- not inside `listen`, or just entering it -/
  | outside
  /-- the first check found nothing new (lines 167-170); not registered yet -/
  | checked
  /-- registered (line 172); `woken`: notified since -/
  | registered (woken : Bool)
  /-- the second check found nothing new (lines 174-177); waiting at line 179 -/
  | waiting (woken : Bool)
deriving DecidableEq

/-- `OffsetChangeListener` — event.rs:119-122; `returned` lists what its calls of `listen` returned,
latest first. -/
structure Listener where
  last : Int
  phase : Phase
  returned : List Int

/-- The publisher's value, the number of publications that have stored their value and not yet
notified, and the listeners. -/
structure Pub where
  value : Int
  pending : Nat
  listeners : Nat → Listener

/-- `change_listener` — event.rs:131-136: `last_value` starts at 0. -/
def Pub.init (v : Int) : Pub := ⟨v, 0, fun _ => ⟨0, .outside, []⟩⟩

/-- first half of `update` — event.rs:98-99 -/
def Pub.store (p : Pub) (v : Int) : Pub := { p with value := v, pending := p.pending + 1 }

/-- being notified -/
def Listener.wake (l : Listener) : Listener :=
  match l.phase with
  | .registered _ => { l with phase := .registered true }
  | .waiting _ => { l with phase := .waiting true }
  | _ => l

/-- second half of `update` — event.rs:100 -/
def Pub.notify (p : Pub) : Pub :=
  { p with pending := p.pending - 1, listeners := fun i => (p.listeners i).wake }

/-- `listen` returns `v`. -/
def Listener.ret (l : Listener) (v : Int) : Listener := ⟨v, .outside, v :: l.returned⟩

/-- The next step of a listener that is listening, given the value of the publisher; `none`: it
sleeps. -/
def Listener.next (l : Listener) (value : Int) : Option Listener :=
  match l.phase with
  | .outside => some (if value ≠ l.last then l.ret value else { l with phase := .checked })
  | .checked => some { l with phase := .registered false }
  | .registered w => some (if value ≠ l.last then l.ret value else { l with phase := .waiting w })
  | .waiting true => some (l.ret value)
  | .waiting false => none

/-- `f` updated at `i`. -/
def setAt {α : Type} (f : Nat → α) (i : Nat) (x : α) : Nat → α := fun j => if j = i then x else f j

/-- One step of some thread. -/
inductive PubStep : Pub → Pub → Prop where
  | store (p : Pub) (v : Int) : PubStep p (p.store v)
  | notify (p : Pub) (h : 0 < p.pending) : PubStep p p.notify
  | listen (p : Pub) (i : Nat) (l : Listener) (h : (p.listeners i).next p.value = some l) :
      PubStep p { p with listeners := setAt p.listeners i l }

inductive PubReach (v : Int) : Pub → Prop where
  | init : PubReach v (Pub.init v)
  | step {p q : Pub} : PubReach v p → PubStep p q → PubReach v q

/-- A listener that sleeps has seen the value, or a notification is on its way. -/
def Awake (p : Pub) : Prop :=
  ∀ i, (p.listeners i).phase = .waiting false → p.value = (p.listeners i).last ∨ 0 < p.pending

theorem wake_waiting {l : Listener} : l.wake.phase ≠ .waiting false := by
  unfold Listener.wake
  split
  · simp
  · simp
  · rename_i h1 h2
    intro h
    exact h2 _ h

/-- Only the waiting phase matters: a registered listener looks at the value once more. -/
theorem Awake.step {p q : Pub} (h : Awake p) (s : PubStep p q) : Awake q := by
  cases s with
  | store v => intro i _; right; show 0 < p.pending + 1; omega
  | notify hp => intro i hi; exact absurd hi wake_waiting
  | listen i l hl =>
    intro j hj
    show p.value = (setAt p.listeners i l j).last ∨ 0 < p.pending
    change (setAt p.listeners i l j).phase = .waiting false at hj
    unfold setAt at hj ⊢
    by_cases hji : j = i
    · rw [if_pos hji] at hj ⊢
      left
      unfold Listener.next at hl
      split at hl
      · cases hl
        split at hj
        · cases hj
        · cases hj
      · cases hl; cases hj
      · cases hl
        split at hj
        · cases hj
        · rename_i hv
          rw [if_neg hv]
          exact Classical.not_not.1 hv
      · cases hl; cases hj
      · cases hl
    · rw [if_neg hji] at hj ⊢
      exact h j hj

theorem Awake.reach {v : Int} {p : Pub} (h : PubReach v p) : Awake p := by
  induction h with
  | init => intro i hi; cases hi
  | step _ s ih => exact ih.step s

/-- What a listener returns last is what it remembers. -/
def Remembers (p : Pub) : Prop :=
  ∀ i, (p.listeners i).last = (p.listeners i).returned.head?.getD 0

theorem wake_fields (l : Listener) : l.wake.last = l.last ∧ l.wake.returned = l.returned := by
  unfold Listener.wake
  split <;> exact ⟨rfl, rfl⟩

theorem Remembers.step {p q : Pub} (h : Remembers p) (s : PubStep p q) : Remembers q := by
  cases s with
  | store v => exact h
  | notify hp =>
    intro i
    show (p.listeners i).wake.last = _
    change _ = (p.listeners i).wake.returned.head?.getD 0
    rw [(wake_fields _).1, (wake_fields _).2]; exact h i
  | listen i l hl =>
    intro j
    show (setAt p.listeners i l j).last = (setAt p.listeners i l j).returned.head?.getD 0
    unfold setAt
    by_cases hji : j = i
    · rw [if_pos hji]
      have hi := h i
      unfold Listener.next at hl
      split at hl
      · cases hl; split
        · rfl
        · exact hi
      · cases hl; exact hi
      · cases hl; split
        · rfl
        · exact hi
      · cases hl; rfl
      · cases hl
    · rw [if_neg hji]; exact h j

theorem Remembers.reach {v : Int} {p : Pub} (h : PubReach v p) : Remembers p := by
  induction h with
  | init => intro i; rfl
  | step _ s ih => exact ih.step s

/-- `k` steps of listener `i` alone. -/
def Listener.steps (value : Int) : Nat → Listener → Option Listener
  | 0, l => some l
  | k + 1, l => (l.next value).bind (Listener.steps value k)

end Verif.Misc
