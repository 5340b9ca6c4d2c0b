import Verif.Broker.RolesInv

/-!
# The effect of an action on a single replica
-/

namespace Verif.Broker

open Verif.Meta

set_option linter.unusedSectionVars false

variable {K : Type} [DecidableEq K]

/-- What a broker has of one replica. -/
structure Loc where
  lead : Option Assign
  follow : Option Nat
  recs : Option (List Nat)

def Broker.loc (b : Broker K) (k : K) : Loc := ⟨b.leads.get k, b.follows.get k, b.disk.get k⟩

def Loc.wipe (io : Io) (x : Loc) : Loc := if io.removeOk then { x with recs := none } else x

def Loc.addFollower (io : Io) (a : Assign) (x : Loc) : Loc :=
  match x.follow with
  | some _ => x
  | none => if io.openOk then { x with follow := some a.leader } else x

def Loc.removeReplica (me : Nat) (io : Io) (a : Assign) (x : Loc) : Loc :=
  if a.leader = me then
    match x.lead with
    | some _ => Loc.wipe io { x with lead := none }
    | none => x
  else
    match x.follow with
    | some _ => Loc.wipe io { x with follow := none }
    | none => x

def Loc.act (me : Nat) (io : Io) (c : Change K) (x : Loc) : Loc :=
  match c with
  | .add _ new =>
    if new.deleting then x.removeReplica me io new
    else if new.leader = me then (if io.openOk && io.initOk then { x with lead := some new } else x)
    else if me ∈ new.replicas then x.addFollower io new
    else x
  | .del _ old => x.removeReplica me io old
  | .mod _ new old =>
    if new.deleting then x.removeReplica me io new
    else if new.leader ≠ old.leader then
      if new.leader = me then
        match x.follow with
        | some _ => if io.initOk then { x with lead := some new, follow := none } else { x with follow := none }
        | none => x
      else if old.leader = me then
        match x.lead with
        | some _ => Loc.addFollower io new { x with lead := none }
        | none => x
      else Loc.addFollower io new { x with follow := none }
    else x

theorem loc_eq {b b' : Broker K} {j : K} (h1 : b'.leads.get j = b.leads.get j)
    (h2 : b'.follows.get j = b.follows.get j) (h3 : b'.disk.get j = b.disk.get j) : b'.loc j = b.loc j := by
  unfold Broker.loc
  rw [h1, h2, h3]

theorem dropFollower_follows (b : Broker K) (l : Nat) (k j : K) :
    (b.dropFollower l k).1.follows.get j = if j = k then none else b.follows.get j := by
  unfold Broker.dropFollower
  split
  · rename_i h
    split
    · rename_i e; rw [e, h]
    · rfl
  · exact get_delete _ _ _

theorem dropFollower_found (b : Broker K) (l : Nat) (k : K) :
    (b.dropFollower l k).2 = (b.follows.get k).isSome := by
  unfold Broker.dropFollower
  split
  · rename_i h; rw [h]; rfl
  · rename_i h; rw [h]; rfl

theorem dropFollower_loc (b : Broker K) (l : Nat) (k j : K) :
    (b.dropFollower l k).1.loc j = if j = k then { b.loc j with follow := none } else b.loc j := by
  obtain ⟨_, _, h1, h2⟩ := dropFollower_frame b l k
  unfold Broker.loc
  rw [h1, h2, dropFollower_follows]
  split <;> rfl

theorem addFollower_loc (b : Broker K) (io : Io) (k j : K) (a : Assign) :
    (b.addFollower io k a).1.loc j = if j = k then (b.loc j).addFollower io a else b.loc j := by
  obtain ⟨_, _, h1, h2⟩ := addFollower_frame b io k a
  have h3 : (b.addFollower io k a).1.follows.get j =
      if j = k then ((b.loc j).addFollower io a).follow else b.follows.get j := by
    by_cases e : j = k
    · subst e
      rw [if_pos rfl]
      unfold Broker.addFollower Loc.addFollower
      show _ = (match b.follows.get j with | some _ => b.loc j | none => _ : Loc).follow
      cases hf : b.follows.get j with
      | some l => rfl
      | none =>
        dsimp only
        by_cases ho : io.openOk = true
        · rw [if_pos ho, if_pos ho]
          have : ∀ x : Broker K, (x.checkNew a.leader).follows = x.follows := by
            intro x; unfold Broker.checkNew; split <;> rfl
          show (Broker.checkNew _ a.leader).follows.get j = _
          rw [this]
          show (b.follows.insert j a.leader).get j = _
          rw [get_insert, if_pos rfl]
        · rw [if_neg ho, if_neg ho]
          rfl
    · rw [if_neg e]
      unfold Broker.addFollower
      split
      · rfl
      · split
        · have : ∀ x : Broker K, (x.checkNew a.leader).follows = x.follows := by
            intro x; unfold Broker.checkNew; split <;> rfl
          rw [this]
          show (b.follows.insert k a.leader).get j = _
          rw [get_insert, if_neg e]
        · rfl
  have hl : ∀ x : Loc, (x.addFollower io a).lead = x.lead ∧ (x.addFollower io a).recs = x.recs := by
    intro x
    unfold Loc.addFollower
    split
    · exact ⟨rfl, rfl⟩
    · split <;> exact ⟨rfl, rfl⟩
  show (⟨_, _, _⟩ : Loc) = _
  rw [h1, h2, h3]
  split
  · rw [show (b.loc j).addFollower io a = ⟨((b.loc j).addFollower io a).lead,
      ((b.loc j).addFollower io a).follow, ((b.loc j).addFollower io a).recs⟩ from rfl, (hl _).1, (hl _).2]
    rfl
  · rfl

theorem wipe_loc (b : Broker K) (io : Io) (k j : K) :
    (b.wipe io k).loc j = if j = k then (b.loc j).wipe io else b.loc j := by
  unfold Broker.wipe Loc.wipe
  by_cases h : io.removeOk = true
  · rw [if_pos h, if_pos h]
    show (⟨b.leads.get j, b.follows.get j, (b.disk.delete k).get j⟩ : Loc) = _
    rw [get_delete]
    split <;> rfl
  · rw [if_neg h, if_neg h]
    split <;> rfl

theorem removeReplica_loc (b : Broker K) (io : Io) (k j : K) (a : Assign) :
    (b.removeReplica io k a).1.loc j = if j = k then (b.loc j).removeReplica b.me io a else b.loc j := by
  unfold Broker.removeReplica Loc.removeReplica
  by_cases hm : a.leader = b.me
  · rw [if_pos hm, if_pos hm]
    by_cases e : j = k
    · subst e
      rw [if_pos rfl]
      show Broker.loc (match b.leads.get j with | some _ => _ | none => _ : Broker K × List (Out K)).1 j =
        (match b.leads.get j with | some _ => _ | none => _ : Loc)
      split
      · show (Broker.wipe _ io j).loc j = _
        rw [wipe_loc, if_pos rfl]
        congr 1
        show (⟨(b.leads.delete j).get j, b.follows.get j, b.disk.get j⟩ : Loc) = _
        rw [get_delete, if_pos rfl]
        rfl
      · rfl
    · rw [if_neg e]
      split
      · show (Broker.wipe _ io k).loc j = _
        rw [wipe_loc, if_neg e]
        show (⟨(b.leads.delete k).get j, b.follows.get j, b.disk.get j⟩ : Loc) = _
        rw [get_delete, if_neg e]
        rfl
      · rfl
  · rw [if_neg hm, if_neg hm]
    dsimp only
    rw [dropFollower_found]
    by_cases e : j = k
    · subst e
      rw [if_pos rfl]
      show _ = (match b.follows.get j with | some _ => _ | none => _ : Loc)
      split
      · rename_i hs
        rw [wipe_loc, if_pos rfl, dropFollower_loc, if_pos rfl]
        cases hf : b.follows.get j with
        | none => rw [hf] at hs; cases hs
        | some l => rfl
      · rename_i hs
        rw [dropFollower_loc, if_pos rfl]
        cases hf : b.follows.get j with
        | none => unfold Broker.loc; rw [hf]
        | some l => rw [hf] at hs; exact absurd rfl hs
    · rw [if_neg e]
      split
      · rw [wipe_loc, if_neg e, dropFollower_loc, if_neg e]
      · rw [dropFollower_loc, if_neg e]

theorem insertLead_loc (b : Broker K) (k j : K) (a : Assign) :
    ({ b with leads := b.leads.insert k a } : Broker K).loc j =
      if j = k then { b.loc j with lead := some a } else b.loc j := by
  show (⟨(b.leads.insert k a).get j, b.follows.get j, b.disk.get j⟩ : Loc) = _
  rw [get_insert]
  split <;> rfl

theorem deleteLead_loc (b : Broker K) (k j : K) :
    ({ b with leads := b.leads.delete k } : Broker K).loc j =
      if j = k then { b.loc j with lead := none } else b.loc j := by
  show (⟨(b.leads.delete k).get j, b.follows.get j, b.disk.get j⟩ : Loc) = _
  rw [get_delete]
  split <;> rfl

theorem act_loc (b : Broker K) (io : Io) (c : Change K) (j : K) :
    (b.act io c).1.loc j = if j = c.key then (b.loc j).act b.me io c else b.loc j := by
  cases c with
  | del k o => exact removeReplica_loc b io k j o
  | add k n =>
    show (b.act io _).1.loc j = if j = k then _ else _
    unfold Broker.act Loc.act
    dsimp only
    by_cases h1 : n.deleting = true
    · rw [if_pos h1, if_pos h1]
      exact removeReplica_loc b io k j n
    rw [if_neg h1, if_neg h1]
    by_cases h2 : n.leader = b.me
    · rw [if_pos h2, if_pos h2]
      unfold Broker.addLeader
      by_cases h3 : (io.openOk && io.initOk) = true
      · rw [if_pos h3, if_pos h3]
        exact insertLead_loc b k j n
      · rw [if_neg h3, if_neg h3, ite_self]
    rw [if_neg h2, if_neg h2]
    by_cases h3 : b.me ∈ n.replicas
    · rw [if_pos h3, if_pos h3]
      exact addFollower_loc b io k j n
    · rw [if_neg h3, if_neg h3, ite_self]
  | mod k n o =>
    show (b.act io _).1.loc j = if j = k then _ else _
    unfold Broker.act Loc.act
    dsimp only
    by_cases h1 : n.deleting = true
    · rw [if_pos h1, if_pos h1]
      exact removeReplica_loc b io k j n
    rw [if_neg h1, if_neg h1]
    by_cases h2 : n.leader ≠ o.leader
    · rw [if_pos h2, if_pos h2]
      by_cases h3 : n.leader = b.me
      · rw [if_pos h3, if_pos h3]
        unfold Broker.promote
        dsimp only
        rw [dropFollower_found]
        by_cases e : j = k
        · subst e
          rw [if_pos rfl]
          show _ = (match b.follows.get j with | some _ => _ | none => _ : Loc)
          cases hf : b.follows.get j with
          | none =>
            show (b.dropFollower o.leader j).1.loc j = b.loc j
            rw [dropFollower_loc, if_pos rfl]
            unfold Broker.loc
            rw [hf]
          | some l =>
            rw [if_pos (show (some l).isSome = true from rfl)]
            dsimp only
            by_cases h4 : io.initOk = true
            · rw [if_pos h4, if_pos h4]
              show ({ (b.dropFollower o.leader j).1 with leads := _ } : Broker K).loc j = _
              rw [insertLead_loc, if_pos rfl, dropFollower_loc, if_pos rfl]
            · rw [if_neg h4, if_neg h4]
              rw [dropFollower_loc, if_pos rfl]
        · rw [if_neg e]
          split
          · split
            · show ({ (b.dropFollower o.leader k).1 with leads := _ } : Broker K).loc j = _
              rw [insertLead_loc, if_neg e, dropFollower_loc, if_neg e]
            · rw [dropFollower_loc, if_neg e]
          · rw [dropFollower_loc, if_neg e]
      rw [if_neg h3, if_neg h3]
      by_cases h4 : o.leader = b.me
      · rw [if_pos h4, if_pos h4]
        show (Broker.demote b io k n).loc j = _
        unfold Broker.demote
        by_cases e : j = k
        · subst e
          rw [if_pos rfl]
          show _ = (match b.leads.get j with | some _ => _ | none => _ : Loc)
          cases hf : b.leads.get j with
          | none => rfl
          | some l =>
            dsimp only
            rw [addFollower_loc, if_pos rfl, deleteLead_loc, if_pos rfl]
        · rw [if_neg e]
          split
          · rw [addFollower_loc, if_neg e, deleteLead_loc, if_neg e]
          · rfl
      · rw [if_neg h4, if_neg h4]
        show (Broker.switchLeader b io k n o).loc j = _
        unfold Broker.switchLeader
        rw [addFollower_loc, dropFollower_loc]
        split <;> rfl
    · rw [if_neg h2, if_neg h2, ite_self]

theorem loc_told (b : Broker K) (t : BStore K Assign) (k : K) :
    ({ b with told := t } : Broker K).loc k = b.loc k := rfl

end Verif.Broker
