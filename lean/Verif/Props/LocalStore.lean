import Verif.Meta.LocalTree

/-!
# C60, C61: the local metadata storage

A run starts with an empty storage and any number of tasks with any programs; a schedule says which task
does its next action.  `at a` below is the storage after a part of the schedule.
-/

namespace Verif.Props
open Verif.Meta Verif.Meta.Local

section
variable {K Sp St : Type} [DecidableEq K]

/-- The storage and tasks after a schedule, from an empty storage. -/
def localSys (tasks : Nat → Prog K Sp St) (sched : List Nat) : Sys K Sp St :=
  Sys.run ⟨fun _ => none, tasks⟩ sched

/-- **Specification.** The object is there all the time from the end of `a` to the end of `a ++ b`. -/
def StaysDuring (tasks : Nat → Prog K Sp St) (k : K) (a b : List Nat) : Prop :=
  ∀ n, ((localSys tasks (a ++ b.take n)).data k).isSome = true

theorem staysDuring_iff {tasks : Nat → Prog K Sp St} {k : K} {a b : List Nat} :
    StaysDuring tasks k a b ↔ Stays (localSys tasks a) k b := by
  unfold StaysDuring Stays localSys
  simp only [run_append]

theorem localSys_keyed (tasks : Nat → Prog K Sp St) (a : List Nat) : Keyed (localSys tasks a).data :=
  Keyed.run a (fun _ _ h => by cases h)

/-! ## C60 -/

/-- A status update, with the item of the version `x` that the caller knows, while `x` is stored: if the
update succeeds, there was a moment when `x` was still the stored version, and the write replaced it by `x`
with the new status and the next revision, leaving everything else as it was.

Missing: the hypothesis that the object is not deleted in between; see the violations below. -/
theorem C60_status_partial (tasks : Nat → Prog K Sp St) (a b : List Nat) (i : Nat) (k : K)
    (x : LObj K Sp St) (st : St) (hx : (localSys tasks a).data k = some x)
    (ht : (localSys tasks a).tasks i = updateStatusOp k x.item st) (hs : StaysDuring tasks k a b)
    (hd : (localSys tasks (a ++ b)).tasks i = .done true) :
    ∃ b₁ b₂, b = b₁ ++ i :: b₂ ∧ (localSys tasks (a ++ b₁)).data k = some x ∧
      ∀ j, (localSys tasks (a ++ b₁ ++ [i])).data j =
        if j = k then some { x with status := st, item := { x.item with rev := x.item.rev + 1 } }
        else (localSys tasks (a ++ b₁)).data j := by
  have hs' := staysDuring_iff.1 hs
  have key := modify_ok (s := localSys tasks a) (k := k) (i := i) (sched := b)
    (f := fun o => { o with item := x.item, status := st })
    (g := fun ok => if ok then .get k fun y => .done y.isSome else .done false)
    (localSys_keyed tasks a) ht (fun o => rfl) rfl hs' ?_ ?_
  · obtain ⟨b₁, b₂, z, h1, h2, h3, h4, h5⟩ := key
    have hzx : z = x := by
      rcases run_rev b₁ hx (Stays.left (b := i :: b₂) (by rw [← h1]; exact hs')) h2 with rfl | hlt
      · rfl
      · have : x.item.rev = z.item.rev := h3
        omega
    subst hzx
    refine ⟨b₁, b₂, h1, ?_, fun j => ?_⟩
    · unfold localSys; rw [run_append]; exact h2
    · unfold localSys
      rw [List.append_assoc, run_append _ a, run_append _ a]
      show ((localSys tasks a).run (b₁ ++ [i])).data j = _
      rw [h4]
      rfl
  · intro n o ho
    refine ⟨rfl, ?_⟩
    have hst : Stays (localSys tasks a) k (b.take n) :=
      Stays.left (b := b.drop n) (by rw [List.take_append_drop]; exact hs')
    rcases run_rev _ hx hst ho with rfl | hlt
    · exact Nat.le_refl _
    · exact Nat.le_of_lt hlt
  · rw [localSys, ← run_append]; exact hd

/-- The same for the specification. -/
theorem C60_spec_partial (tasks : Nat → Prog K Sp St) (a b : List Nat) (i : Nat) (k : K)
    (x : LObj K Sp St) (dflt : St) (sp : Sp) (hx : (localSys tasks a).data k = some x)
    (ht : (localSys tasks a).tasks i = updateSpecOp dflt k x.item sp) (hs : StaysDuring tasks k a b)
    (hd : (localSys tasks (a ++ b)).tasks i = .done true) :
    ∃ b₁ b₂, b = b₁ ++ i :: b₂ ∧ (localSys tasks (a ++ b₁)).data k = some x ∧
      ∀ j, (localSys tasks (a ++ b₁ ++ [i])).data j =
        if j = k then some { x with spec := sp, item := { x.item with rev := x.item.rev + 1 } }
        else (localSys tasks (a ++ b₁)).data j := by
  have hs' := staysDuring_iff.1 hs
  have key := modify_ok (s := localSys tasks a) (k := k) (i := i) (sched := b)
    (f := fun o => { o with item := x.item, spec := sp }) (g := .done)
    (localSys_keyed tasks a) ht (fun o => rfl) rfl hs' ?_ ?_
  · obtain ⟨b₁, b₂, z, h1, h2, h3, h4, h5⟩ := key
    have hzx : z = x := by
      rcases run_rev b₁ hx (Stays.left (b := i :: b₂) (by rw [← h1]; exact hs')) h2 with rfl | hlt
      · rfl
      · have : x.item.rev = z.item.rev := h3
        omega
    subst hzx
    refine ⟨b₁, b₂, h1, ?_, fun j => ?_⟩
    · unfold localSys; rw [run_append]; exact h2
    · unfold localSys
      rw [List.append_assoc, run_append _ a, run_append _ a]
      show ((localSys tasks a).run (b₁ ++ [i])).data j = _
      rw [h4]
      rfl
  · intro n o ho
    refine ⟨rfl, ?_⟩
    have hst : Stays (localSys tasks a) k (b.take n) :=
      Stays.left (b := b.drop n) (by rw [List.take_append_drop]; exact hs')
    rcases run_rev _ hx hst ho with rfl | hlt
    · exact Nat.le_refl _
    · exact Nat.le_of_lt hlt
  · rw [localSys, ← run_append]; exact hd

/-- Updates by key and linking a child have no version of the caller; they change the version that is
stored when they write, whatever it is, and nothing else.

Missing: as above. -/
theorem C60_by_key_partial (tasks : Nat → Prog K Sp St) (a b : List Nat) (i : Nat) (k : K)
    (dflt : St) (sp : Sp) (ht : (localSys tasks a).tasks i = updateSpecByKeyOp dflt k sp)
    (hs : StaysDuring tasks k a b) (hd : (localSys tasks (a ++ b)).tasks i = .done true) :
    ∃ b₁ b₂ z, b = b₁ ++ i :: b₂ ∧ (localSys tasks (a ++ b₁)).data k = some z ∧
      ∀ j, (localSys tasks (a ++ b₁ ++ [i])).data j =
        if j = k then some { z with spec := sp, item := { z.item with rev := z.item.rev + 1 } }
        else (localSys tasks (a ++ b₁)).data j := by
  obtain ⟨b₁, b₂, z, h1, h2, _, h4, _⟩ := modify_ok (s := localSys tasks a) (k := k) (i := i) (sched := b)
    (f := fun o => { o with spec := sp }) (g := .done)
    (localSys_keyed tasks a) ht (fun o => rfl) rfl (staysDuring_iff.1 hs)
    (fun n o ho => ⟨rfl, Nat.le_refl _⟩) (by rw [localSys, ← run_append]; exact hd)
  refine ⟨b₁, b₂, z, h1, ?_, fun j => ?_⟩
  · unfold localSys; rw [run_append]; exact h2
  · unfold localSys
    rw [List.append_assoc, run_append _ a, run_append _ a]
    show ((localSys tasks a).run (b₁ ++ [i])).data j = _
    rw [h4]
    rfl

theorem C60_link_partial (tasks : Nat → Prog K Sp St) (a b : List Nat) (i : Nat) (p : K)
    (c : K × Nat) (ht : (localSys tasks a).tasks i = link p c)
    (hs : StaysDuring tasks p a b) (hd : (localSys tasks (a ++ b)).tasks i = .done true) :
    ∃ b₁ b₂ z z', b = b₁ ++ i :: b₂ ∧ (localSys tasks (a ++ b₁)).data p = some z ∧
      (localSys tasks (a ++ b₁ ++ [i])).data p = some z' ∧ z'.spec = z.spec ∧ z'.status = z.status ∧
      z'.item.parent = z.item.parent ∧ (∀ e, e ∈ z'.item.kids ↔ e = c ∨ e ∈ z.item.kids) ∧
      ∀ j, j ≠ p → (localSys tasks (a ++ b₁ ++ [i])).data j = (localSys tasks (a ++ b₁)).data j := by
  obtain ⟨b₁, b₂, z, h1, h2, _, h4, _⟩ := modify_ok (s := localSys tasks a) (k := p) (i := i) (sched := b)
    (f := fun o => withChild o c) (g := .done)
    (localSys_keyed tasks a) ht (fun o => rfl) rfl (staysDuring_iff.1 hs)
    (fun n o ho => ⟨rfl, Nat.le_refl _⟩) (by rw [localSys, ← run_append]; exact hd)
  have h4' : (localSys tasks (a ++ b₁ ++ [i])).data =
      (localSys tasks (a ++ b₁)).data.set p (some (bump (withChild z c) z.item.rev)) := by
    unfold localSys
    rw [List.append_assoc, run_append _ a, run_append _ a]
    exact h4
  refine ⟨b₁, b₂, z, bump (withChild z c) z.item.rev, h1, ?_, ?_, rfl, rfl, rfl,
    fun e => mem_putChild, fun j hj => ?_⟩
  · unfold localSys; rw [run_append]; exact h2
  · rw [h4', set_same]
  · rw [h4', set_other _ _ hj]

/-- An update with the item of an older version is refused and changes nothing. -/
theorem C60_stale_refused (d : Data K Sp St) (k : K) (y : LObj K Sp St) (hk : y.key = k)
    (hy : d k = some y) (m : Item K) (hm : m.rev < y.item.rev) (dflt st : St) (sp : Sp) :
    (updateStatusOp k m st).exec d = (d, false) ∧ (updateSpecOp dflt k m sp).exec d = (d, false) ∧
    ∀ o : LObj K Sp St, o.key = k → o.item = m → (applyOp o).exec d = (d, false) := by
  refine ⟨?_, ?_, fun o ho hi => ?_⟩
  · unfold updateStatusOp
    rw [exec_get, hy]
    dsimp only
    rw [exec_put_none (accept_stale (x := y) (by show d y.key = _; rw [hk]; exact hy) hm)]
    rfl
  · unfold updateSpecOp
    rw [exec_get, hy]
    dsimp only
    rw [exec_put_none (accept_stale (x := y) (by show d y.key = _; rw [hk]; exact hy) hm)]
    rfl
  · unfold applyOp
    rw [exec_put_none (accept_stale (x := y) (by rw [ho]; exact hy) (by rw [hi]; exact hm))]
    rfl

/-- An update with the stored version's item succeeds when nothing else runs, and changes only what it
says. -/
theorem C60_current_accepted (d : Data K Sp St) (k : K) (y : LObj K Sp St) (hk : y.key = k)
    (hy : d k = some y) (dflt st : St) (sp : Sp) :
    ((updateStatusOp k y.item st).exec d).2 = true ∧ ((updateSpecOp dflt k y.item sp).exec d).2 = true ∧
    ∀ j, ((updateStatusOp k y.item st).exec d).1 j =
        (if j = k then some { y with status := st, item := { y.item with rev := y.item.rev + 1 } } else d j) ∧
      ((updateSpecOp dflt k y.item sp).exec d).1 j =
        (if j = k then some { y with spec := sp, item := { y.item with rev := y.item.rev + 1 } } else d j) := by
  subst hk
  have h1 : (updateStatusOp y.key y.item st).exec d =
      (d.set y.key (some { y with status := st, item := { y.item with rev := y.item.rev + 1 } }), true) := by
    unfold updateStatusOp
    rw [exec_get, hy]
    dsimp only
    rw [exec_put_some (accept_same (o := { y with item := y.item, status := st }) hy (Nat.le_refl _))]
    rw [if_pos rfl, exec_get, set_same]
    rfl
  have h2 : (updateSpecOp dflt y.key y.item sp).exec d =
      (d.set y.key (some { y with spec := sp, item := { y.item with rev := y.item.rev + 1 } }), true) := by
    unfold updateSpecOp
    rw [exec_get, hy]
    dsimp only
    rw [exec_put_some (accept_same (o := { y with item := y.item, spec := sp }) hy (Nat.le_refl _))]
    rfl
  rw [h1, h2]
  exact ⟨rfl, rfl, fun j => ⟨rfl, rfl⟩⟩

end

/-! Concrete runs: key 1 is a topic, 2 and 3 are its partitions. -/

abbrev LO := LObj Nat Nat Nat
abbrev LP := Prog Nat Nat Nat

def localTopic (spec : Nat) : LO := ⟨1, spec, 0, .fresh⟩
def localPart (k : Nat) : LO := ⟨k, 7, 0, ⟨0, some 1, []⟩⟩

def tasksOf (l : List LP) (i : Nat) : LP := (l[i]?).getD (.done true)

def isDone : LP → Option Bool
  | .done ok => some ok
  | _ => none

/-- Two status updates with the same version, a third task's link in between: one of them wins, the other is
refused. -/
example :
    let s := localSys (tasksOf [applyOp (localTopic 10), updateStatusOp 1 .fresh 5, updateStatusOp 1 .fresh 6])
      [0, 1, 2, 2, 1, 2]
    s.data 1 = some ⟨1, 10, 6, ⟨1, none, []⟩⟩ ∧ isDone (s.tasks 2) = some true ∧
    isDone (s.tasks 1) = some false := by
  refine ⟨?_, ?_, ?_⟩ <;> rfl

/-- A status update that succeeds although another task runs in between; the hypotheses of
`C60_status_partial` hold. -/
example :
    let tasks := tasksOf [applyOp (localTopic 10), updateStatusOp 1 .fresh 5, applyOp (localPart 2)]
    (localSys tasks [0]).data 1 = some (localTopic 10) ∧
    (∀ n, ((localSys tasks ([0] ++ [1, 2, 1, 1].take n)).data 1).isSome = true) ∧
    isDone ((localSys tasks ([0] ++ [1, 2, 1, 1])).tasks 1) = some true := by
  refine ⟨rfl, fun n => ?_, rfl⟩
  match n with
  | 0 | 1 | 2 | 3 => rfl
  | n + 4 =>
    rw [List.take_of_length_le (by simp)]
    rfl

/-- A deleted object comes back: creating a partition reads the topic, the topic is deleted (the deletion
reports success), then the partition's task writes the topic with its new child. -/
theorem C60_violated_resurrected :
    let tasks := tasksOf [applyOp (localTopic 10), applyOp (localPart 2), deleteOp 1]
    (localSys tasks [0, 1, 1, 2, 2]).data 1 = none ∧
    isDone ((localSys tasks [0, 1, 1, 2, 2]).tasks 2) = some true ∧
    (localSys tasks [0, 1, 1, 2, 2, 1]).data 1 = some ⟨1, 10, 0, ⟨0, none, [(2, 0)]⟩⟩ := by
  refine ⟨?_, ?_, ?_⟩ <;> rfl

/-- An update with the item of an object that has been deleted creates it again, with the parent and the
revision it had. -/
theorem C60_violated_update_after_delete :
    let tasks := tasksOf [applyOp (localTopic 10), applyOp (localPart 2), deleteOp 1,
      updateSpecOp 0 2 ⟨0, some 1, []⟩ 8]
    (localSys tasks [0, 1, 1, 1, 2, 2, 2]).data 2 = none ∧
    (localSys tasks [0, 1, 1, 1, 2, 2, 2, 3, 3]).data 2 = some ⟨2, 8, 0, ⟨0, some 1, []⟩⟩ ∧
    isDone ((localSys tasks [0, 1, 1, 1, 2, 2, 2, 3, 3]).tasks 3) = some true := by
  refine ⟨?_, ?_, ?_⟩ <;> rfl

/-- Revisions start again from 0: a status computed for a topic that has been deleted is accepted for a
new topic with the same name and another specification. -/
theorem C60_violated_successor :
    let tasks := tasksOf [applyOp (localTopic 10), deleteOp 1, applyOp (localTopic 20),
      updateStatusOp 1 (localTopic 10).item 5]
    (localSys tasks [0]).data 1 = some (localTopic 10) ∧
    (localSys tasks [0, 1, 1]).data 1 = none ∧
    (localSys tasks [0, 1, 1, 2, 3, 3, 3]).data 1 = some ⟨1, 20, 5, ⟨1, none, []⟩⟩ ∧
    isDone ((localSys tasks [0, 1, 1, 2, 3, 3, 3]).tasks 3) = some true := by
  refine ⟨?_, ?_, ?_, ?_⟩ <;> rfl

/-! ## C61 -/

section
variable {K Sp St : Type} [DecidableEq K]

/-- After any sequence of requests as the controller makes them (`Cmd.Honest`), one at a time: every object
that names a parent has one, which lists it.  `own` says which object can be the parent of a key; there are
two levels.

Missing: requests at the same time, and updates of objects that have been deleted meanwhile; see the
violations below. -/
theorem C61_no_orphans_partial (own : K → Option K) (flat : ∀ k p, own k = some p → own p = none)
    (dflt : St) (l : List (Cmd K Sp St)) (hl : HonestRun own dflt (fun _ => none) l) (k : K)
    (o : LObj K Sp St) (p : K) (ho : runCmds dflt (fun _ => none) l k = some o)
    (hp : o.item.parent = some p) :
    ∃ po, runCmds dflt (fun _ => none) l p = some po ∧ ∃ r, (k, r) ∈ po.item.kids := by
  have h := (Tree.run flat dflt l (Tree.empty own) hl).up k o p ho hp
  obtain ⟨_, po, h1, h2⟩ := h
  obtain ⟨c, h3, rfl⟩ := List.mem_map.1 h2
  exact ⟨po, h1, c.2, h3⟩

/-- Deleting an object then succeeds and removes it and every object that has it as parent; objects of
other families stay exactly as they are, and of its own parent and siblings everything but the parent's list
of children and revision.

Missing: as above. -/
theorem C61_delete_cascades_partial (own : K → Option K) (flat : ∀ k p, own k = some p → own p = none)
    (dflt : St) (l : List (Cmd K Sp St)) (hl : HonestRun own dflt (fun _ => none) l) (k : K) :
    let d := runCmds dflt (fun _ => none) l
    let r := (deleteOp k : Prog K Sp St).exec d
    r.2 = true ∧ r.1 k = none ∧
    (∀ j o, d j = some o → o.item.parent = some k → r.1 j = none) ∧
    (∀ j, j ≠ k → own j ≠ some k → own k ≠ some j → r.1 j = d j) ∧
    (∀ j o, own k = some j → d j = some o → ∃ o', r.1 j = some o' ∧ o'.spec = o.spec ∧
      o'.status = o.status ∧ o'.item.parent = o.item.parent ∧
      ∀ e : K × Nat, e.1 ≠ k → (e ∈ o'.item.kids ↔ e ∈ o.item.kids)) := by
  intro d r
  have h := Tree.run flat dflt l (Tree.empty own) hl
  change Tree own d at h
  have hno : ∀ p, own k = some p → p ≠ k := by
    intro p h1 e
    subst e
    have := flat _ _ h1
    rw [h1] at this; cases this
  cases ho : d k with
  | none =>
    have hr : r = (d, true) := by
      show (deleteOp k : Prog K Sp St).exec d = _
      unfold deleteOp
      rw [exec_get, ho]
      rfl
    rw [hr]
    refine ⟨rfl, ho, fun j o hj hp => ?_, fun j _ _ _ => rfl, fun j o _ hj =>
      ⟨o, hj, rfl, rfl, rfl, fun e _ => Iff.rfl⟩⟩
    obtain ⟨_, po, h1, _⟩ := h.up j o k hj hp
    rw [ho] at h1; cases h1
  | some o =>
    obtain ⟨hok, hd⟩ := exec_delete flat h ho
    refine ⟨hok, ?_⟩
    change match o.item.parent with
      | none => ∀ j, r.1 j = if j = k ∨ j ∈ o.item.kids.map Prod.fst then none else d j
      | some p => ∃ po, d p = some po ∧ p ≠ k ∧ o.item.kids = [] ∧
        r.1 = (d.set k none).set p (some (bump (withoutChild po (k, o.item.rev)) po.item.rev)) at hd
    cases hp : o.item.parent with
    | none =>
      rw [hp] at hd
      dsimp only at hd
      have hkids : ∀ j, j ∈ o.item.kids.map Prod.fst → own j = some k := by
        intro j hj
        obtain ⟨c, hc, rfl⟩ := List.mem_map.1 hj
        exact h.down k o ho c hc
      refine ⟨?_, fun j oj hj hpar => ?_, fun j h1 h2 _ => ?_, fun j oj hown hj => ?_⟩
      · rw [hd, if_pos (.inl rfl)]
      · obtain ⟨_, po, h1, h2⟩ := h.up j oj k hj hpar
        rw [ho] at h1; cases h1
        rw [hd, if_pos (.inr h2)]
      · rw [hd, if_neg]
        rintro (e | e)
        · exact h1 e
        · exact h2 (hkids j e)
      · refine ⟨oj, ?_, rfl, rfl, rfl, fun e _ => Iff.rfl⟩
        rw [hd, if_neg]
        · exact hj
        · rintro (e | e)
          · exact hno j hown e
          · have := flat _ _ (hkids j e)
            rw [hown] at this; cases this
    | some p =>
      rw [hp] at hd
      obtain ⟨po, h2, hne, hnil, he⟩ := hd
      obtain ⟨hown, _⟩ := h.up k o p ho hp
      rw [he]
      refine ⟨?_, fun j oj hj hpar => ?_, fun j h3 h4 h5 => ?_, fun j oj hown' hj => ?_⟩
      · rw [set_other _ _ hne.symm, set_same]
      · obtain ⟨_, po', h3, h4⟩ := h.up j oj k hj hpar
        rw [ho] at h3; cases h3
        rw [hnil] at h4; cases h4
      · have : j ≠ p := by rintro rfl; exact h5 hown
        rw [set_other _ _ this, set_other _ _ h3]
      · rw [hown] at hown'
        cases hown'
        rw [h2] at hj; cases hj
        refine ⟨_, set_same .., rfl, rfl, rfl, fun e he' => ?_⟩
        show e ∈ removeChild po.item.kids _ ↔ _
        unfold removeChild
        rw [List.mem_filter]
        simp only [ne_eq, decide_eq_true_eq, and_iff_left_iff_imp]
        intro _ e'
        exact he' (by rw [e'])

end

/-- Topic 1 owns the partitions 2 and 3; topic 4 owns 5. -/
def ownNat : Nat → Option Nat
  | 2 | 3 => some 1
  | 5 => some 4
  | _ => none

theorem ownNat_flat : ∀ k p, ownNat k = some p → ownNat p = none := by
  intro k p h
  unfold ownNat at h
  split at h <;> cases h <;> rfl

/-- A life with two topics, three partitions, updates and a deletion of one partition is honest, and the
deletion of the topic takes the other partition with it. -/
example :
    let l : List (Cmd Nat Nat Nat) := [.apply (localTopic 10), .apply (localPart 2), .apply (localPart 3),
      .apply ⟨4, 1, 0, .fresh⟩, .apply ⟨5, 1, 0, ⟨0, some 4, []⟩⟩, .status 2 ⟨0, some 1, []⟩ 9, .delete 3]
    HonestRun ownNat 0 (fun _ => none) l ∧
    let d := runCmds 0 (fun _ => none) l
    (d 1).map (·.item.kids) = some [(2, 0)] ∧ (d 2).isSome = true ∧
    let r := (deleteOp 1 : LP).exec d
    r.1 1 = none ∧ r.1 2 = none ∧ (r.1 5).isSome = true := by
  refine ⟨⟨?_, ?_, ?_, ?_, ?_, ?_, ?_, ?_⟩, ?_, ?_, ?_, ?_, ?_⟩
  · exact .inl ⟨rfl, rfl, fun p h => by cases h⟩
  · exact .inl ⟨rfl, rfl, fun p h => by cases h; exact ⟨rfl, rfl⟩⟩
  · exact .inl ⟨rfl, rfl, fun p h => by cases h; exact ⟨rfl, rfl⟩⟩
  · exact .inl ⟨rfl, rfl, fun p h => by cases h⟩
  · exact .inl ⟨rfl, rfl, fun p h => by cases h; exact ⟨rfl, rfl⟩⟩
  · exact .inr ⟨localPart 2, rfl, .inl rfl⟩
  · trivial
  · trivial
  all_goals rfl

/-- The topic is updated between the two halves of linking a partition to it: the link is refused, the
partition stays, and deleting the topic does not delete it. -/
theorem C61_violated_lost_link :
    let tasks := tasksOf [applyOp (localTopic 10), applyOp (localPart 2), updateStatusOp 1 .fresh 5, deleteOp 1]
    let s := localSys tasks [0, 1, 1, 2, 2, 2, 1, 3, 3]
    isDone (s.tasks 1) = some false ∧ isDone (s.tasks 2) = some true ∧ isDone (s.tasks 3) = some true ∧
    s.data 1 = none ∧ s.data 2 = some (localPart 2) := by
  refine ⟨?_, ?_, ?_, ?_, ?_⟩ <;> rfl

/-- A partition whose topic does not exist is stored although the request fails, and no request ever deletes
it: deleting it fails because its topic cannot be found. -/
theorem C61_violated_orphan_stays :
    let d := ((applyOp (localPart 2)).exec (fun _ => none))
    d.2 = false ∧ d.1 2 = some (localPart 2) ∧
    ((deleteOp 2 : LP).exec d.1).2 = false ∧ ((deleteOp 2 : LP).exec d.1).1 2 = some (localPart 2) := by
  refine ⟨?_, ?_, ?_, ?_⟩ <;> rfl

/-- A partition that has been updated since it was created and is then deleted stays in its topic's list of
children: entries are compared with the revision they were added with. -/
theorem C61_violated_stale_child :
    let l : List (Cmd Nat Nat Nat) := [.apply (localTopic 10), .apply (localPart 2), .status 2 ⟨0, some 1, []⟩ 9,
      .delete 2]
    let d := runCmds 0 (fun _ => none) l
    d 2 = none ∧ (d 1).map (·.item.kids) = some [(2, 0)] := by
  refine ⟨?_, ?_⟩ <;> rfl

end Verif.Props
