import Verif.Meta.Sync

/-!
# Peers converge to the controller's metadata
-/

namespace Verif.Meta

set_option linter.unusedSectionVars false

variable {K Sp St Me V P : Type} [DecidableEq K] [DecidableEq Sp] [DecidableEq St] [DecidableEq Me]
  [DecidableEq V]

theorem update_fence_fold {newer : Me → Me → Bool} (l : List (Obj K Sp St Me)) :
    ∀ s : Store K Sp St Me, (l.foldl (fun s o => (s.update newer o).1) s).epoch = s.epoch := by
  induction l with
  | nil => intro s; rfl
  | cons o l ih => intro s; rw [List.foldl_cons, ih, (update_fields newer s o).1]

theorem remove_epoch_fold (l : List K) :
    ∀ s : Store K Sp St Me, (l.foldl Store.remove s).epoch = s.epoch := by
  induction l with
  | nil => intro s; rfl
  | cons k l ih => intro s; rw [List.foldl_cons, ih, (remove_fields s k).1]

theorem applyOne_fence_fold {newer : Me → Me → Bool} (l : List (Chg K Sp St Me)) :
    ∀ p : Store K Sp St Me × Bool, (l.foldl (Store.applyOne newer) p).1.fence = p.1.fence := by
  induction l with
  | nil => intro p; rfl
  | cons c l ih =>
    intro p
    rw [List.foldl_cons, ih]
    cases c with
    | mod o => rw [applyOne_fst_update, (update_fields newer p.1 o).2.1]
    | del k => exact (remove_fields p.1 k).2.1

theorem syncAll_epoch {newer : Me → Me → Bool} (s : Store K Sp St Me) (l : List (Obj K Sp St Me)) :
    (s.syncAll newer l).epoch = s.epoch + 1 ∧ (s.syncAll newer l).fence = s.epoch + 1 := by
  unfold Store.syncAll
  dsimp only
  constructor
  · show (_ : Store K Sp St Me).epoch = _
    unfold Store.markFence
    dsimp only
    rw [remove_epoch_fold, update_fence_fold]
    rfl
  · unfold Store.markFence
    dsimp only
    rw [remove_epoch_fold, update_fence_fold]
    rfl

theorem fence_step {newer : Me → Me → Bool} {s : Store K Sp St Me} (hw : WF s) (op : Op K Sp St Me) :
    s.fence ≤ (s.step newer op).fence := by
  cases op with
  | apply l =>
    show s.fence ≤ (s.applyChanges newer l).fence
    rcases applyChanges_cases newer s l with h | h
    · rw [h]; exact Int.le_refl _
    · rw [h, applyOne_fence_fold]; exact Int.le_refl _
  | sync l =>
    show s.fence ≤ (s.syncAll newer l).fence
    rw [(syncAll_epoch s l).2]
    have := hw.fence
    omega

/-- What the peer should know. -/
def expected (a : Peer K Sp St Me V P) (s : Store K Sp St Me) : View K V := fun k => (s.content k).map a.g

/-- What the peer will know when it has processed the messages under way. -/
def Link.coming (view : P → View K V) (x : Link K Sp St Me V P) : View K V :=
  x.queue.foldl View.apply (view x.peer)

/-- The report contains no key both as updated and as deleted, and a full report is not empty (unless the
peer will know nothing anyway). -/
def Link.CleanPush (a : Peer K Sp St Me V P) (view : P → View K V) (x : Link K Sp St Me V P) : Prop :=
  match x.sc.changesSince a.flag x.last with
  | .all l => l ≠ [] ∨ x.coming view = View.empty
  | .changes u d => ∀ o ∈ u, ∀ p ∈ d, o.key ≠ p.key

def Link.CleanRun (newer : Me → Me → Bool) (a : Peer K Sp St Me V P) (view : P → View K V) :
    Link K Sp St Me V P → List (Ev K Sp St Me) → Prop
  | _, [] => True
  | x, e :: es => (e matches .push → x.CleanPush a view) ∧ CleanRun newer a view (x.step newer a e) es

/-- A peer whose store behaves as a view, for objects of which the reported components are sent. -/
structure Peer.Ok (a : Peer K Sp St Me V P) (view : P → View K V) : Prop where
  apply : ∀ p m, view (a.apply p m) = (view p).apply m
  flag : a.flag.isNone = false
  g : ∀ o o', SameIn a.flag (some o) (some o') → a.g o = a.g o'

structure LinkOk (a : Peer K Sp St Me V P) (view : P → View K V) (x : Link K Sp St Me V P) : Prop where
  wf : WF x.sc
  fence : 0 < x.sc.fence
  known : (x.last = 0 ∧ x.queue = []) ∨
    ∃ s0, Since s0 x.sc ∧ s0.epoch = x.last ∧ x.coming view = expected a s0

theorem agree_expected {a : Peer K Sp St Me V P} {view : P → View K V} (ha : a.Ok view)
    {w w' : View K (Obj K Sp St Me)} (h : Agree a.flag w w') :
    (fun k => (w k).map a.g) = fun k => (w' k).map a.g := by
  funext k
  have := h k
  generalize w k = x at this
  generalize w' k = y at this
  cases x <;> cases y
  · rfl
  · cases this
  · cases this
  · rename_i o o'
    show some (a.g o) = some (a.g o')
    rw [ha.g o o' this]

theorem coming_append (a : Peer K Sp St Me V P) (view : P → View K V) (x : Link K Sp St Me V P) :
    (x.push a).coming view = (x.coming view).apply ((x.sc.changesSince a.flag x.last).toMsg a.g) := by
  have e : (x.push a).coming view =
      (if a.skipEmpty && (x.sc.changesSince a.flag x.last).isEmpty then x.queue
        else x.queue ++ [(x.sc.changesSince a.flag x.last).toMsg a.g]).foldl View.apply (view x.peer) := rfl
  rw [e]
  split
  · rename_i h
    have hem : (x.sc.changesSince a.flag x.last).isEmpty = true := by
      revert h; cases a.skipEmpty <;> simp
    have hmsg : (x.sc.changesSince a.flag x.last).toMsg a.g = ⟨[], []⟩ := by
      generalize x.sc.changesSince a.flag x.last = d at hem
      cases d with
      | all l =>
        have : l = [] := by simpa [Delta.isEmpty] using hem
        subst this; rfl
      | changes u d =>
        have : u = [] ∧ d = [] := by simpa [Delta.isEmpty] using hem
        obtain ⟨rfl, rfl⟩ := this; rfl
    rw [hmsg]
    rfl
  · rw [List.foldl_append]; rfl

theorem puts_map (a : Peer K Sp St Me V P) (l : List (Obj K Sp St Me)) :
    (fun k => (View.empty.acts (puts l) k).map a.g) =
      View.empty.acts ((l.map fun o => (o.key, a.g o)).map fun p => .put p.1 p.2) := by
  rw [acts_map]
  unfold puts
  rw [List.map_map, List.map_map]
  rfl

theorem LinkOk.push {a : Peer K Sp St Me V P} {view : P → View K V} (ha : a.Ok view)
    {x : Link K Sp St Me V P} (h : LinkOk a view x) (hc : x.CleanPush a view) :
    LinkOk a view (x.push a) := by
  refine ⟨h.wf, h.fence, Or.inr ⟨x.sc, Since.refl h.wf, rfl, ?_⟩⟩
  rw [coming_append]
  unfold Link.CleanPush at hc
  split at hc
  · rename_i l hl
    rw [hl]
    obtain ⟨_, hl2⟩ := changesSince_all hl
    have hall := all_ok h.wf (l := l) (by rw [hl2])
    unfold expected
    rw [← hall]
    by_cases hne : l = []
    · rcases hc with hc | hc
      · exact absurd hne hc
      · rw [hc, hne]; rfl
    · unfold View.apply Delta.toMsg
      dsimp only
      rw [if_pos (by simpa using hne), puts_map]
  · rename_i u d hd
    rw [hd]
    have hr := changesSince_changes h.wf hd
    rcases h.known with ⟨h1, _⟩ | ⟨s0, hs, he, hk⟩
    · have := hr.fence
      have := h.fence
      omega
    · have hag := delta_const h.wf hs ha.flag (by omega) hr hc (List.Perm.refl _)
      rw [hk]
      show View.acts _ _ = _
      have := agree_expected ha hag
      unfold expected
      rw [← this, acts_map]
      congr 1
      unfold puts dels Delta.toMsg
      dsimp only
      rw [List.map_append, List.map_map, List.map_map]
      rfl

theorem LinkOk.step {newer : Me → Me → Bool} {a : Peer K Sp St Me V P} {view : P → View K V}
    (ha : a.Ok view) {x : Link K Sp St Me V P} (h : LinkOk a view x) (e : Ev K Sp St Me)
    (hc : e matches .push → x.CleanPush a view) : LinkOk a view (x.step newer a e) := by
  cases e with
  | push => exact h.push ha (hc rfl)
  | op o =>
    refine ⟨(step_ok h.wf (Since.refl h.wf) o).1, Int.lt_of_lt_of_le h.fence (fence_step h.wf o), ?_⟩
    rcases h.known with hk | ⟨s0, hs, he, hk⟩
    · exact Or.inl hk
    · exact Or.inr ⟨s0, (step_ok h.wf hs o).2, he, hk⟩
  | recv =>
    obtain ⟨sc, last, queue, peer⟩ := x
    cases queue with
    | nil => exact h
    | cons m q =>
      refine ⟨h.wf, h.fence, ?_⟩
      rcases h.known with ⟨_, hk⟩ | ⟨s0, hs, he, hk⟩
      · cases hk
      · refine Or.inr ⟨s0, hs, he, ?_⟩
        rw [← hk]
        show List.foldl View.apply (view (a.apply peer m)) q = List.foldl View.apply (view peer) (m :: q)
        rw [ha.apply]
        rfl
  | reconnect => exact ⟨h.wf, h.fence, Or.inl ⟨rfl, rfl⟩⟩
  | restart l =>
    refine ⟨(step_ok (newer := newer) WF.init (Since.refl WF.init) (.sync l)).1, ?_, Or.inl ⟨rfl, rfl⟩⟩
    show 0 < (Store.init.syncAll newer l).fence
    rw [(syncAll_epoch _ l).2]
    show (0 : Int) < 0 + 1
    omega

theorem LinkOk.run {newer : Me → Me → Bool} {a : Peer K Sp St Me V P} {view : P → View K V}
    (ha : a.Ok view) (es : List (Ev K Sp St Me)) : ∀ {x : Link K Sp St Me V P}, LinkOk a view x →
    x.CleanRun newer a view es → LinkOk a view (x.run newer a es) := by
  induction es with
  | nil => intro x h _; exact h
  | cons e es ih => intro x h hc; exact ih (h.step ha e hc.1) hc.2

theorem LinkOk.init {newer : Me → Me → Bool} (a : Peer K Sp St Me V P) (view : P → View K V)
    (l : List (Obj K Sp St Me)) (p : P) : LinkOk a view (Link.init newer l p) := by
  refine ⟨(step_ok (newer := newer) WF.init (Since.refl WF.init) (.sync l)).1, ?_, Or.inl ⟨rfl, rfl⟩⟩
  show 0 < (Store.init.syncAll newer l).fence
  rw [(syncAll_epoch _ l).2]
  show (0 : Int) < 0 + 1
  omega

/-- When everything sent has been processed and nothing is new, the peer knows what it should. -/
theorem LinkOk.settled {a : Peer K Sp St Me V P} {view : P → View K V} {x : Link K Sp St Me V P}
    (h : LinkOk a view x) (hl : x.last = x.sc.epoch) (hq : x.queue = []) :
    view x.peer = expected a x.sc := by
  rcases h.known with ⟨h1, _⟩ | ⟨s0, hs, he, hk⟩
  · have := h.fence
    have := h.wf.fence
    omega
  · unfold Link.coming at hk
    rw [hq] at hk
    have : s0.content = x.sc.content := same_epoch h.wf hs (by omega)
    unfold expected at hk ⊢
    rw [← this]
    exact hk

theorem recv_all {newer : Me → Me → Bool} {a : Peer K Sp St Me V P} : ∀ (n : Nat)
    (x : Link K Sp St Me V P), x.queue.length ≤ n →
    let y := x.run newer a (List.replicate n .recv)
    y.sc = x.sc ∧ y.last = x.last ∧ y.queue = [] := by
  intro n
  induction n with
  | zero =>
    intro x h
    exact ⟨rfl, rfl, List.length_eq_zero_iff.1 (Nat.le_zero.1 h)⟩
  | succ n ih =>
    intro x h
    obtain ⟨sc, last, queue, peer⟩ := x
    cases queue with
    | nil => exact ih ⟨sc, last, [], peer⟩ (Nat.zero_le _)
    | cons m q => exact ih ⟨sc, last, q, a.apply peer m⟩ (by simpa using h)

theorem recv_clean {newer : Me → Me → Bool} {a : Peer K Sp St Me V P} {view : P → View K V} :
    ∀ (n : Nat) (x : Link K Sp St Me V P), x.CleanRun newer a view (List.replicate n .recv) := by
  intro n
  induction n with
  | zero => intro x; trivial
  | succ n ih => intro x; exact ⟨fun h => (by cases h), ih _⟩

end Verif.Meta
