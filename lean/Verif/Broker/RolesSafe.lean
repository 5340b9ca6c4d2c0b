import Verif.Broker.RolesKey

/-!
# Roles agree with the told assignments
-/

namespace Verif.Broker

open Verif.Meta

set_option linter.unusedSectionVars false

variable {K : Type} [DecidableEq K]

/-- A deletion notice names the same leader as the assignment before it. -/
def Steady (o n : Assign) : Prop := o.deleting = false → n.deleting = true → n.leader = o.leader

/-- What a broker should do about a replica. -/
inductive Duty where
  | nothing
  | lead
  | follow (leader : Nat)
deriving DecidableEq

def duty (me : Nat) : Option Assign → Duty
  | none => .nothing
  | some a =>
    if a.deleting then .nothing
    else if a.leader = me then .lead
    else if me ∈ a.replicas then .follow a.leader
    else .nothing

/-- Successive assignments as they should be for a broker: a deletion is not taken back and is announced
with the known leader; the broker stays a replica or stays none, and if it is none the leader stays; leaders
are replicas. -/
structure Proper (me : Nat) (o n : Assign) : Prop where
  steady : Steady o n
  final : o.deleting = true → n.deleting = true
  member : me ∈ o.replicas ↔ me ∈ n.replicas
  outside : me ∉ n.replicas → n.leader = o.leader
  oldLeader : o.leader ∈ o.replicas
  newLeader : n.leader ∈ n.replicas

def Loc.Safe (me : Nat) (v : Option Assign) (x : Loc) : Prop :=
  (∀ a, x.lead = some a → ∃ t, v = some t ∧ t.leader = me ∧ t.deleting = false) ∧
  (∀ l, x.follow = some l → ∃ t, v = some t ∧ t.leader = l ∧ l ≠ me ∧ t.deleting = false)

def Loc.Does (x : Loc) (d : Duty) : Prop :=
  (x.lead.isSome = true ↔ d = .lead) ∧ ∀ l, x.follow = some l ↔ d = .follow l

theorem Loc.Safe.act {me : Nat} {io : Io} {c : Change K} {x : Loc} (h : x.Safe me c.old)
    (hs : ∀ k n o, c = .mod k n o → Steady o n) : (x.act me io c).Safe me c.new := by
  obtain ⟨ld, fl, rc⟩ := x
  obtain ⟨io1, io2, io3⟩ := io
  cases c with
  | add k n =>
    obtain ⟨nl, nr, nd, nc⟩ := n
    unfold Loc.Safe at *
    simp only [Loc.act, Loc.removeReplica, Loc.addFollower, Loc.wipe, Change.old, Change.new] at *
    grind
  | del k o =>
    obtain ⟨ol, or, od, oc⟩ := o
    unfold Loc.Safe at *
    simp only [Loc.act, Loc.removeReplica, Loc.wipe, Change.old, Change.new] at *
    grind
  | mod k n o =>
    have hst := hs k n o rfl
    obtain ⟨ol, or, od, oc⟩ := o
    obtain ⟨nl, nr, nd, nc⟩ := n
    unfold Loc.Safe at *
    unfold Steady at hst
    simp only [Loc.act, Loc.removeReplica, Loc.addFollower, Loc.wipe, Change.old, Change.new] at *
    grind

theorem Loc.Does.act {me : Nat} {c : Change K} {x : Loc} (h : x.Does (duty me c.old))
    (hs : ∀ k n o, c = .mod k n o → Proper me o n) :
    (x.act me ⟨true, true, true⟩ c).Does (duty me c.new) := by
  obtain ⟨ld, fl, rc⟩ := x
  cases c with
  | add k n =>
    obtain ⟨nl, nr, nd, nc⟩ := n
    unfold Loc.Does at *
    simp only [Loc.act, Loc.removeReplica, Loc.addFollower, Loc.wipe, Change.old, Change.new, duty] at *
    grind
  | del k o =>
    obtain ⟨ol, or, od, oc⟩ := o
    unfold Loc.Does at *
    simp only [Loc.act, Loc.removeReplica, Loc.addFollower, Loc.wipe, Change.old, Change.new, duty] at *
    grind
  | mod k n o =>
    have hst := hs k n o rfl
    obtain ⟨ol, or, od, oc⟩ := o
    obtain ⟨nl, nr, nd, nc⟩ := n
    obtain ⟨h1, h2, h3, h4, h5, h6⟩ := hst
    unfold Loc.Does at *
    unfold Steady at h1
    simp only [Loc.act, Loc.removeReplica, Loc.addFollower, Loc.wipe, Change.old, Change.new, duty] at *
    grind

/-- Records are only kept for replicas that the broker has. -/
def Loc.Held (x : Loc) : Prop := x.recs.getD [] ≠ [] → x.lead.isSome = true ∨ x.follow.isSome = true

theorem Loc.Held.act {me : Nat} {c : Change K} {x : Loc} (h : x.Held) (hsafe : x.Safe me c.old)
    (hs : ∀ k n o, c = .mod k n o → Steady o n) : (x.act me ⟨true, true, true⟩ c).Held := by
  obtain ⟨ld, fl, rc⟩ := x
  cases c with
  | add k n =>
    obtain ⟨nl, nr, nd, nc⟩ := n
    unfold Loc.Held Loc.Safe at *
    simp only [Loc.act, Loc.removeReplica, Loc.addFollower, Loc.wipe, Change.old, Change.new] at *
    grind
  | del k o =>
    obtain ⟨ol, or, od, oc⟩ := o
    unfold Loc.Held Loc.Safe at *
    simp only [Loc.act, Loc.removeReplica, Loc.addFollower, Loc.wipe, Change.old, Change.new] at *
    grind
  | mod k n o =>
    have hst := hs k n o rfl
    obtain ⟨ol, or, od, oc⟩ := o
    obtain ⟨nl, nr, nd, nc⟩ := n
    unfold Loc.Held Loc.Safe at *
    unfold Steady at hst
    simp only [Loc.act, Loc.removeReplica, Loc.addFollower, Loc.wipe, Change.old, Change.new] at *
    grind

end Verif.Broker
