import Verif.Meta.View

/-!
# Listening for metadata changes (`fluvio-stream-model/src/store/{dual_store,event}.rs`)

Any number of tasks write to a store, any number of listeners wait for changes.  A write is three steps:
changing the store under its lock, storing the new epoch in the publisher, and notifying
(dual_store.rs:276-279, 367-371; event.rs:38-41).  Every access is one step and the steps of all tasks
interleave freely (all accesses are sequentially consistent: event.rs:7).  `event_listener::Event` is
modelled by its documented behaviour: `listen()` registers at once, `notify(usize::MAX)` wakes everyone
registered at that moment.
-/

namespace Verif.Meta

set_option linter.unusedSectionVars false

variable {K Sp St Me : Type} [DecidableEq K] [DecidableEq Sp] [DecidableEq St] [DecidableEq Me]

/-- Where a listener is within `listen` — dual_store.rs:470-489. -/
inductive Phase where
  /-- not inside `listen`, or just entering it -/
  | outside
  /-- the first check found nothing (lines 471-474); not registered yet -/
  | checked
  /-- registered (line 476); `woken`: notified since -/
  | registered (woken : Bool)
  /-- the second check found nothing (lines 478-481); waiting at line 485 -/
  | waiting (woken : Bool)
deriving DecidableEq

/-- `ChangeListener` — dual_store.rs:404-411; `seen` is the content of the store when the listener last
synced (it is not in the code). -/
structure Watcher (K Sp St Me : Type) where
  last : Int
  phase : Phase
  seen : View K (Obj K Sp St Me)

/-- The store with its publisher (`published`: `EventPublisher::change`), the epochs of writes that have
released the lock and not yet been published, oldest first, and the number of publications that have not
yet notified. -/
structure Board (K Sp St Me : Type) where
  store : Store K Sp St Me
  published : Int
  pending : List Int
  notifies : Nat
  watchers : Nat → Watcher K Sp St Me

/-- `LocalStore::default`, `ChangeListener::new` — dual_store.rs:39-50, 430-435 -/
def Board.init : Board K Sp St Me := ⟨Store.init, 0, [], 0, fun _ => ⟨0, .outside, View.empty⟩⟩

/-- `has_change` — dual_store.rs:442-447 -/
def Watcher.hasChange (w : Watcher K Sp St Me) (published : Int) : Prop := w.last < published

instance (w : Watcher K Sp St Me) (p : Int) : Decidable (w.hasChange p) :=
  inferInstanceAs (Decidable (_ < _))

/-- The next step of a listener within `listen`; `none`: it sleeps. -/
def Watcher.next (w : Watcher K Sp St Me) (published : Int) : Option (Watcher K Sp St Me) :=
  match w.phase with
  | .outside => some (if w.hasChange published then w else { w with phase := .checked })
  | .checked => some { w with phase := .registered false }
  | .registered b =>
    some (if w.hasChange published then { w with phase := .outside } else { w with phase := .waiting b })
  | .waiting true => some { w with phase := .outside }
  | .waiting false => none

/-- `sync_changes` — dual_store.rs:512-536 (called when not inside `listen`) -/
def Watcher.sync (w : Watcher K Sp St Me) (s : Store K Sp St Me) : Watcher K Sp St Me :=
  { w with last := s.epoch, seen := s.content }

def Watcher.wake (w : Watcher K Sp St Me) : Watcher K Sp St Me :=
  match w.phase with
  | .registered _ => { w with phase := .registered true }
  | .waiting _ => { w with phase := .waiting true }
  | _ => w

def setAt {α : Type} (f : Nat → α) (i : Nat) (x : α) : Nat → α := fun j => if j = i then x else f j

/-- Whether a write publishes: always for `sync_all`, for `apply_changes` when something changed
(dual_store.rs:349-359). -/
def publishes (s t : Store K Sp St Me) : Bool := decide (s.epoch ≠ t.epoch)

/-- One step of some task.  `inOrder`: whether publications happen in the order of the writes. -/
inductive BoardStep (newer : Me → Me → Bool) (inOrder : Prop) :
    Board K Sp St Me → Board K Sp St Me → Prop where
  /-- a write under the lock -/
  | write (b : Board K Sp St Me) (op : Op K Sp St Me) :
      BoardStep newer inOrder b
        { b with
          store := b.store.step newer op
          pending := if publishes b.store (b.store.step newer op)
            then b.pending ++ [(b.store.step newer op).epoch] else b.pending }
  /-- `store_change`, first half -/
  | publish (b : Board K Sp St Me) (l r : List Int) (e : Int) (h : b.pending = l ++ e :: r)
      (ho : inOrder → l = []) :
      BoardStep newer inOrder b
        { b with published := e, pending := l ++ r, notifies := b.notifies + 1 }
  /-- `store_change`, second half -/
  | notify (b : Board K Sp St Me) (h : 0 < b.notifies) :
      BoardStep newer inOrder b
        { b with notifies := b.notifies - 1, watchers := fun i => (b.watchers i).wake }
  | listen (b : Board K Sp St Me) (i : Nat) (w : Watcher K Sp St Me)
      (h : (b.watchers i).next b.published = some w) :
      BoardStep newer inOrder b { b with watchers := setAt b.watchers i w }
  | sync (b : Board K Sp St Me) (i : Nat) (h : (b.watchers i).phase = .outside) :
      BoardStep newer inOrder b { b with watchers := setAt b.watchers i ((b.watchers i).sync b.store) }

inductive BoardReach (newer : Me → Me → Bool) (inOrder : Prop) : Board K Sp St Me → Prop where
  | init : BoardReach newer inOrder Board.init
  | step {b c : Board K Sp St Me} : BoardReach newer inOrder b → BoardStep newer inOrder b c →
      BoardReach newer inOrder c

/-! ## Invariants -/

/-- A listener that sleeps sees nothing new, or a notification is on its way. -/
def Awake (b : Board K Sp St Me) : Prop :=
  ∀ i, (b.watchers i).phase = .waiting false → b.published ≤ (b.watchers i).last ∨ 0 < b.notifies

/-- A listener's epoch is that of a state of the store which it has seen. -/
def Honest (b : Board K Sp St Me) : Prop :=
  WF b.store ∧ ∀ i, ∃ s, Since s b.store ∧ s.epoch = (b.watchers i).last ∧
    s.content = (b.watchers i).seen

/-- Publications in order: the newest epoch is published or waits to be. -/
def Ordered (b : Board K Sp St Me) : Prop :=
  (b.published :: b.pending).getLast? = some b.store.epoch

theorem wake_phase {w : Watcher K Sp St Me} : w.wake.phase ≠ .waiting false := by
  unfold Watcher.wake
  split
  · simp
  · simp
  · rename_i h1 h2
    intro h
    exact h2 _ h

theorem wake_same (w : Watcher K Sp St Me) : w.wake.last = w.last ∧ w.wake.seen = w.seen := by
  unfold Watcher.wake
  split <;> exact ⟨rfl, rfl⟩

theorem next_same {w v : Watcher K Sp St Me} {p : Int} (h : w.next p = some v) :
    v.last = w.last ∧ v.seen = w.seen := by
  unfold Watcher.next at h
  split at h
  · cases h; split <;> exact ⟨rfl, rfl⟩
  · cases h; exact ⟨rfl, rfl⟩
  · cases h; split <;> exact ⟨rfl, rfl⟩
  · cases h; exact ⟨rfl, rfl⟩
  · cases h

theorem Awake.step {newer : Me → Me → Bool} {o : Prop} {b c : Board K Sp St Me} (h : Awake b)
    (s : BoardStep newer o b c) : Awake c := by
  cases s with
  | write op => exact h
  | publish l r e hp ho => intro i _; right; show 0 < b.notifies + 1; omega
  | notify hn => intro i hi; exact absurd hi wake_phase
  | listen i w hw =>
    intro j hj
    show b.published ≤ (setAt b.watchers i w j).last ∨ 0 < b.notifies
    change (setAt b.watchers i w j).phase = .waiting false at hj
    unfold setAt at hj ⊢
    by_cases hji : j = i
    · rw [if_pos hji] at hj ⊢
      left
      unfold Watcher.next at hw
      split at hw
      · rename_i hph
        cases hw
        split at hj
        · rw [hph] at hj; cases hj
        · cases hj
      · cases hw; cases hj
      · cases hw
        split at hj
        · cases hj
        · rename_i hv
          rw [if_neg hv]
          exact Int.not_lt.1 hv
      · cases hw; cases hj
      · cases hw
    · rw [if_neg hji] at hj ⊢
      exact h j hj
  | sync i hi =>
    intro j hj
    show b.published ≤ (setAt b.watchers i ((b.watchers i).sync b.store) j).last ∨ 0 < b.notifies
    change (setAt b.watchers i ((b.watchers i).sync b.store) j).phase = .waiting false at hj
    unfold setAt at hj ⊢
    by_cases hji : j = i
    · rw [if_pos hji] at hj
      change (b.watchers i).phase = _ at hj
      rw [hi] at hj; cases hj
    · rw [if_neg hji] at hj ⊢
      exact h j hj

theorem Honest.step {newer : Me → Me → Bool} {o : Prop} {b c : Board K Sp St Me} (h : Honest b)
    (s : BoardStep newer o b c) : Honest c := by
  cases s with
  | write op =>
    refine ⟨(step_ok h.1 (Since.refl h.1) op).1, fun i => ?_⟩
    obtain ⟨x, hx, h2⟩ := h.2 i
    exact ⟨x, (step_ok h.1 hx op).2, h2⟩
  | publish l r e hp ho => exact h
  | notify hn =>
    refine ⟨h.1, fun i => ?_⟩
    obtain ⟨x, hx, h2, h3⟩ := h.2 i
    exact ⟨x, hx, h2.trans (wake_same _).1.symm, h3.trans (wake_same _).2.symm⟩
  | listen i w hw =>
    refine ⟨h.1, fun j => ?_⟩
    show ∃ x, Since x b.store ∧ x.epoch = (setAt b.watchers i w j).last ∧
      x.content = (setAt b.watchers i w j).seen
    unfold setAt
    by_cases hji : j = i
    · rw [if_pos hji]
      obtain ⟨x, hx, h2, h3⟩ := h.2 i
      exact ⟨x, hx, h2.trans (next_same hw).1.symm, h3.trans (next_same hw).2.symm⟩
    · rw [if_neg hji]; exact h.2 j
  | sync i hi =>
    refine ⟨h.1, fun j => ?_⟩
    show ∃ x, Since x b.store ∧ x.epoch = (setAt b.watchers i ((b.watchers i).sync b.store) j).last ∧
      x.content = (setAt b.watchers i ((b.watchers i).sync b.store) j).seen
    unfold setAt
    by_cases hji : j = i
    · rw [if_pos hji]
      exact ⟨b.store, Since.refl h.1, rfl, rfl⟩
    · rw [if_neg hji]; exact h.2 j

theorem getLast?_tail {a b : Int} {l : List Int} :
    (a :: (b :: l)).getLast? = (b :: l).getLast? := by
  rw [List.getLast?_cons_cons]

theorem Ordered.step {newer : Me → Me → Bool} {b c : Board K Sp St Me} (h : Ordered b)
    (s : BoardStep newer True b c) : Ordered c := by
  unfold Ordered at h ⊢
  cases s with
  | write op =>
    dsimp only
    split
    · rw [← List.cons_append, List.getLast?_append]
      rfl
    · rename_i hp
      unfold publishes at hp
      simp only [decide_eq_true_eq, ne_eq, Classical.not_not] at hp
      rw [h, hp]
  | publish l r e hp ho =>
    have hl := ho trivial
    subst hl
    rw [hp] at h
    exact h
  | notify hn => exact h
  | listen i w hw => exact h
  | sync i hi => exact h

theorem Awake.reach {newer : Me → Me → Bool} {o : Prop} {b : Board K Sp St Me}
    (h : BoardReach newer o b) : Awake b := by
  induction h with
  | init => intro i hi; cases hi
  | step _ s ih => exact ih.step s

theorem Honest.reach {newer : Me → Me → Bool} {o : Prop} {b : Board K Sp St Me}
    (h : BoardReach newer o b) : Honest b := by
  induction h with
  | init => exact ⟨WF.init, fun i => ⟨Store.init, Since.refl WF.init, rfl, rfl⟩⟩
  | step _ s ih => exact ih.step s

theorem Ordered.reach {newer : Me → Me → Bool} {b : Board K Sp St Me}
    (h : BoardReach newer True b) : Ordered b := by
  induction h with
  | init => rfl
  | step _ s ih => exact ih.step s

end Verif.Meta
