import Verif.Admin.Api
/-!
# C67: a request is carried out only for those whom the policy permits it

Property theorems about the authorization of the controller's public API; the model is in
`Verif/Admin/{Auth,Api}.lean`.
-/

namespace Verif.Props

open Verif.Admin

set_option linter.unusedSectionVars false

/-! ### Specification -/

/-- a permission somebody needs: to do `action` on objects of type `ty`; `inst` is the object for actions
on one existing object -/
structure Need where
  ty : ObjectType
  action : Action
  inst : Option Text

/-- the permission a request needs -/
def needs {V : Type} : Request V → Need
  | .createTopic _ _ _ => ⟨.topic, .create, none⟩
  | .createSpg _ _ _ => ⟨.spuGroup, .create, none⟩
  | .createCustomSpu _ _ _ _ => ⟨.customSpu, .create, none⟩
  | .createSmartModule _ _ _ => ⟨.smartModule, .create, none⟩
  | .createTableFormat _ _ _ => ⟨.tableFormat, .create, none⟩
  | .createMirror _ _ _ => ⟨.mirror, .create, none⟩
  | .updateTopic n _ => ⟨.topic, .update, some n⟩
  | .deleteTopic n _ => ⟨.topic, .delete, some n⟩
  | .deleteCustomSpu k => ⟨.customSpu, .delete, some k.text⟩
  | .deleteSpg n => ⟨.spuGroup, .delete, some n⟩
  | .deleteSmartModule n => ⟨.smartModule, .delete, some n⟩
  | .deleteTableFormat n => ⟨.tableFormat, .delete, some n⟩
  | .deleteMirror n => ⟨.mirror, .delete, some n⟩
  | .list ty _ _ => ⟨ty, .read, none⟩
  | .watch ty => ⟨ty, .read, none⟩
  | .mirrorConnect r => ⟨.mirror, .update, some r⟩

/-- one of the roles of the identity has a permission for this action (or for all actions) on this type,
which is either not tied to an object or tied to just this object -/
def Holds (policy : Policy) (roles : List Text) (n : Need) : Prop :=
  ∃ role objects perms p, role ∈ roles ∧ (role, objects) ∈ policy ∧ (n.ty, perms) ∈ objects ∧ p ∈ perms
    ∧ (p.action = n.action ∨ p.action = .all)
    ∧ (p.instance? = none ∨ ∃ i, n.inst = some i ∧ p.instance? = some i)

/-- a policy lists every role once, and under a role every type once (both are hash maps) -/
def WellFormedPolicy (policy : Policy) : Prop :=
  (policy.map (·.1)).Nodup ∧ ∀ e ∈ policy, (e.2.map (·.1)).Nodup

/-- the request was carried out: something is written, or something of the cluster is shown -/
def CarriedOut {V : Type} (r : List (Effect V) × Response) : Prop :=
  r.1 ≠ [] ∨ (∃ ty n ns, r.2 = .listed ty (n :: ns)) ∨ (∃ ty, r.2 = .watching ty)
    ∨ ∃ ns, r.2 = .mirrored ns

/-- creating anything but mirrors, listing anything but mirrors -/
def typeRequest {V : Type} : Request V → Bool
  | .createTopic _ _ _ | .createSpg _ _ _ | .createCustomSpu _ _ _ _ | .createSmartModule _ _ _
  | .createTableFormat _ _ _ => true
  | .list ty _ _ => ty ≠ .mirror
  | _ => false

/-- deleting anything but mirrors, and changing topics -/
def instanceRequest {V : Type} : Request V → Bool
  | .updateTopic _ _ | .deleteTopic _ _ | .deleteCustomSpu _ | .deleteSpg _ | .deleteSmartModule _
  | .deleteTableFormat _ => true
  | _ => false

/-! ### The decision -/

theorem get_eq_of_mem {κ α : Type} [DecidableEq κ] {m : List (κ × α)} (hnd : (m.map (·.1)).Nodup)
    {k : κ} {v : α} (h : (k, v) ∈ m) : Admin.get m k = some v := by
  induction m with
  | nil => cases h
  | cons e m ih =>
    unfold Admin.get
    rw [List.find?_cons]
    rw [List.map_cons, List.nodup_cons] at hnd
    rcases List.mem_cons.mp h with rfl | h
    · simp
    · have hne : e.1 ≠ k := by
        rintro rfl
        exact hnd.1 (List.mem_map.mpr ⟨_, h, rfl⟩)
      simp only [hne, decide_false]
      exact ih hnd.2 h

theorem evaluate_iff (policy : Policy) (h : WellFormedPolicy policy) (action : Action) (ty : ObjectType)
    (inst : Option Text) (roles : List Text) :
    evaluate policy action ty inst roles = true ↔
      ∃ role objects perms p, role ∈ roles ∧ (role, objects) ∈ policy ∧ (ty, perms) ∈ objects
        ∧ p ∈ perms ∧ permits action inst p = true := by
  unfold evaluate
  rw [List.any_eq_true]
  constructor
  · rintro ⟨role, hr, h'⟩
    cases ho : get policy role with
    | none => rw [ho] at h'; cases h'
    | some objects =>
      rw [ho] at h'
      dsimp only at h'
      cases hp : get objects ty with
      | none => rw [hp] at h'; cases h'
      | some perms =>
        rw [hp] at h'
        dsimp only at h'
        obtain ⟨p, hp1, hp2⟩ := List.any_eq_true.mp h'
        exact ⟨role, objects, perms, p, hr, get_some_mem ho, get_some_mem hp, hp1, hp2⟩
  · rintro ⟨role, objects, perms, p, hr, ho, hp, hm, h'⟩
    refine ⟨role, hr, ?_⟩
    rw [get_eq_of_mem h.1 ho]
    dsimp only
    rw [get_eq_of_mem (h.2 _ ho) hp]
    exact List.any_eq_true.mpr ⟨p, hm, h'⟩

/-- **C67, decision on a type.**  For an action that is not about one existing object the policy says yes
exactly when one of the identity's roles holds a permission for it. -/
theorem C67_decision (policy : Policy) (h : WellFormedPolicy policy) (action : Action)
    (ty : ObjectType) (roles : List Text) :
    evaluate policy action ty none roles = true ↔ Holds policy roles ⟨ty, action, none⟩ := by
  rw [evaluate_iff policy h]
  unfold Holds
  constructor
  · rintro ⟨role, objects, perms, p, h1, h2, h3, h4, h5⟩
    refine ⟨role, objects, perms, p, h1, h2, h3, h4, ?_⟩
    unfold permits at h5
    cases hi : p.instance? <;> rw [hi] at h5 <;> simp at h5
    exact ⟨by simpa using h5, .inl rfl⟩
  · rintro ⟨role, objects, perms, p, h1, h2, h3, h4, h5, h6⟩
    refine ⟨role, objects, perms, p, h1, h2, h3, h4, ?_⟩
    have h6 : p.instance? = none := by
      rcases h6 with h6 | ⟨i, hi, _⟩
      · exact h6
      · cases hi
    unfold permits
    rw [h6]
    simpa using h5

example : evaluate defaultPolicy .create .topic none ["Root".toList] = true := by decide

/-- **C67, decision on one object (partial).**  Whoever holds the permission is let through, and whoever is
let through has a permission for the action whose object's name *contains* the name asked for.  Missing:
that it *is* the name; see `C67_violated_substring`. -/
theorem C67_decision_instance_partial (policy : Policy) (h : WellFormedPolicy policy) (action : Action)
    (ty : ObjectType) (i : Text) (roles : List Text) :
    (Holds policy roles ⟨ty, action, some i⟩ → evaluate policy action ty (some i) roles = true)
    ∧ (evaluate policy action ty (some i) roles = true →
        ∃ role objects perms p, role ∈ roles ∧ (role, objects) ∈ policy ∧ (ty, perms) ∈ objects
          ∧ p ∈ perms ∧ (p.action = action ∨ p.action = .all)
          ∧ (p.instance? = none ∨ ∃ before after, p.instance? = some (before ++ i ++ after))) := by
  constructor
  · rintro ⟨role, objects, perms, p, h1, h2, h3, h4, h5, h6⟩
    refine (evaluate_iff policy h ..).mpr ⟨role, objects, perms, p, h1, h2, h3, h4, ?_⟩
    unfold permits
    rcases h6 with h6 | ⟨j, hj, h6⟩
    · rw [h6]; simpa using h5
    · cases hj
      rw [h6]
      dsimp only
      rw [if_pos ((contains_iff i i).mpr ⟨[], [], by simp⟩)]
      simpa using h5
  · intro he
    obtain ⟨role, objects, perms, p, h1, h2, h3, h4, h5⟩ := (evaluate_iff policy h ..).mp he
    refine ⟨role, objects, perms, p, h1, h2, h3, h4, ?_⟩
    unfold permits at h5
    cases hi : p.instance? with
    | none => rw [hi] at h5; exact ⟨by simpa using h5, .inl rfl⟩
    | some pi =>
      rw [hi] at h5
      dsimp only at h5
      split at h5
      · rename_i hc
        obtain ⟨a, b, hab⟩ := (contains_iff pi i).mp hc
        exact ⟨by simpa using h5, .inr ⟨a, b, by rw [hab]⟩⟩
      · cases h5

/-- **C67 violated: permission for one object reaches others.**  A permission is tied to an object by a
test for a substring (basic.rs:214, `pi.contains(&i)`), so the permission for the mirror `edge-10` is
also one for `edge-1`, for `edge`, and for the empty name. -/
theorem C67_violated_substring :
    ∃ policy roles i, WellFormedPolicy policy
      ∧ evaluate policy .update .mirror (some i) roles = true
      ∧ ¬ Holds policy roles ⟨.mirror, .update, some i⟩ := by
  refine ⟨[("r".toList, [(.mirror, [⟨.update, some "edge-10".toList⟩])])], ["r".toList],
    "edge-1".toList, ⟨by decide, by decide⟩, by decide, ?_⟩
  rintro ⟨role, objects, perms, p, _, h2, h3, h4, _, h6⟩
  simp only [List.mem_singleton, Prod.mk.injEq] at h2
  obtain ⟨_, rfl⟩ := h2
  simp only [List.mem_singleton, Prod.mk.injEq] at h3
  obtain ⟨_, rfl⟩ := h3
  rw [List.mem_singleton] at h4
  subst h4
  rcases h6 with h6 | ⟨j, hj, h6⟩
  · cases h6
  · cases hj
    exact absurd h6 (by decide)

/-! ### The handlers ask -/

section
variable {V : Type} [DecidableEq V]

/-- a refusal: nothing is written and nothing is shown -/
theorem not_carriedOut_of {r : List (Effect V) × Response} (h1 : r.1 = [])
    (h2 : (∃ n c, r.2 = .status n c) ∨ r.2 = .failed ∨ r.2 = .silent ∨ ∃ ty, r.2 = .listed ty []) :
    ¬ CarriedOut r := by
  rintro (h | ⟨ty, n, ns, h⟩ | ⟨ty, h⟩ | ⟨ns, h⟩)
  · exact h h1
  all_goals
    rcases h2 with ⟨m, c, h2⟩ | h2 | h2 | ⟨ty', h2⟩ <;> rw [h2] at h <;> simp at h

theorem guarded_refuses {a : Option Bool} (ha : a ≠ some true) (name : Text)
    (k : List (Effect V) × Response) : ¬ CarriedOut (guarded a name k) := by
  unfold guarded
  match a, ha with
  | none, _ => exact not_carriedOut_of rfl (.inr (.inl rfl))
  | some false, _ => exact not_carriedOut_of rfl (.inl ⟨_, _, rfl⟩)
  | some true, h => exact absurd rfl h

theorem guardedList_refuses {a : Option Bool} (ha : a ≠ some true) (ty : ObjectType)
    (ns : List Text) : ¬ CarriedOut (V := V) (guardedList a ty ns) := by
  unfold guardedList
  match a, ha with
  | none, _ => exact not_carriedOut_of rfl (.inr (.inl rfl))
  | some false, _ => exact not_carriedOut_of rfl (.inr (.inr (.inr ⟨_, rfl⟩)))
  | some true, h => exact absurd rfl h

/-- **C67, the handlers ask (partial).**  Whatever decides — a policy, or anything else that answers yes,
no, or fails: a request to create or list anything but mirrors is carried out only if the answer for the
type is yes, or the decision failed for a custom SPU to be created or SPUs to be listed; a request to
delete anything but mirrors, or to change a topic, only if the answer for the object is yes.  Missing:
mirrors and watches, where nobody asks (`C67_violated_mirrors`, `C67_violated_watch`), connections of remote
clusters and the two cases of a failed decision (`C67_violated_fail_open`). -/
theorem C67_asked_partial (env : Env V) (auth : AuthContext) (c : Cluster V) (reply : Reply)
    (req : Request V) (hc : CarriedOut (handle env auth c reply req)) :
    (typeRequest req = true →
      (∃ a, (needs req).action = a.toAction ∧
        (auth.typeAction (needs req).ty a = some true
          ∨ (auth.typeAction (needs req).ty a = none ∧ ((needs req).ty = .spu ∨ (needs req).ty = .customSpu)))))
    ∧ (instanceRequest req = true →
      ∃ a n, (needs req).action = a.toAction ∧ (needs req).inst = some n
        ∧ auth.instanceAction (needs req).ty a n = some true) := by
  have key : ∀ {a : Option Bool} {n : Text} {k : List (Effect V) × Response},
      CarriedOut (guarded a n k) → a = some true := by
    intro a n k h
    exact Classical.byContradiction fun hn => guarded_refuses hn n k h
  have keyL : ∀ {a : Option Bool} {ty : ObjectType} {ns : List Text},
      CarriedOut (V := V) (guardedList a ty ns) → a = some true := by
    intro a n k h
    exact Classical.byContradiction fun hn => guardedList_refuses hn n k h
  cases req with
  | createTopic n s d => exact ⟨fun _ => ⟨.create, rfl, .inl (key hc)⟩, nofun⟩
  | createSpg n s d => exact ⟨fun _ => ⟨.create, rfl, .inl (key hc)⟩, nofun⟩
  | createCustomSpu n i r d =>
    refine ⟨fun _ => ⟨.create, rfl, ?_⟩, nofun⟩
    show auth.typeAction .customSpu .create = some true ∨ _
    match ha : auth.typeAction .customSpu .create with
    | some true => exact .inl rfl
    | none => exact .inr ⟨rfl, .inr rfl⟩
    | some false =>
      exfalso
      revert hc
      show ¬ CarriedOut (createCustomSpu auth c reply n i r d)
      unfold createCustomSpu guardedOpen
      rw [ha]
      exact not_carriedOut_of rfl (.inl ⟨_, _, rfl⟩)
  | createSmartModule n s d => exact ⟨fun _ => ⟨.create, rfl, .inl (key hc)⟩, nofun⟩
  | createTableFormat n s d =>
    refine ⟨fun _ => ⟨.create, rfl, .inl ?_⟩, nofun⟩
    change CarriedOut (createTableFormat auth c reply n s) at hc
    unfold createTableFormat at hc
    split at hc
    · exact absurd hc (not_carriedOut_of rfl (.inl ⟨_, _, rfl⟩))
    · exact key hc
  | createMirror n s d => exact ⟨nofun, nofun⟩
  | updateTopic n a => exact ⟨nofun, fun _ => ⟨.update, n, rfl, rfl, key hc⟩⟩
  | deleteTopic n f => exact ⟨nofun, fun _ => ⟨.delete, n, rfl, rfl, key hc⟩⟩
  | deleteCustomSpu k => exact ⟨nofun, fun _ => ⟨.delete, k.text, rfl, rfl, key hc⟩⟩
  | deleteSpg n => exact ⟨nofun, fun _ => ⟨.delete, n, rfl, rfl, key hc⟩⟩
  | deleteSmartModule n => exact ⟨nofun, fun _ => ⟨.delete, n, rfl, rfl, key hc⟩⟩
  | deleteTableFormat n => exact ⟨nofun, fun _ => ⟨.delete, n, rfl, rfl, key hc⟩⟩
  | deleteMirror n => exact ⟨nofun, nofun⟩
  | watch ty => exact ⟨nofun, nofun⟩
  | mirrorConnect r => exact ⟨nofun, nofun⟩
  | list ty f s =>
    refine ⟨fun ht => ⟨.read, rfl, ?_⟩, nofun⟩
    change CarriedOut (list env auth c ty f s) at hc
    show auth.typeAction ty .read = some true ∨ (auth.typeAction ty .read = none ∧ (ty = .spu ∨ ty = .customSpu))
    cases ty with
    | topic => exact .inl (keyL hc)
    | spu =>
      match ha : auth.typeAction .spu .read with
      | some true => exact .inl rfl
      | none => exact .inr ⟨rfl, .inl rfl⟩
      | some false =>
        exfalso
        revert hc
        unfold list guardedListOpen
        rw [ha]
        exact not_carriedOut_of rfl (.inr (.inr (.inr ⟨_, rfl⟩)))
    | customSpu => exact .inl (keyL hc)
    | spuGroup => exact .inl (keyL hc)
    | partition => exact .inl (keyL hc)
    | tableFormat => exact .inl (keyL hc)
    | mirror => exact absurd ht (by simp [typeRequest])
    | managedConnector => exact absurd hc (not_carriedOut_of rfl (.inr (.inl rfl)))
    | derivedStream => exact absurd hc (not_carriedOut_of rfl (.inr (.inl rfl)))
    | smartModule =>
      left
      unfold list at hc
      match ha : auth.typeAction .smartModule .read with
      | some true => rfl
      | none =>
        dsimp only at hc
        rw [ha] at hc
        exact absurd hc (not_carriedOut_of rfl (.inr (.inl rfl)))
      | some false =>
        dsimp only at hc
        rw [ha] at hc
        exact absurd hc (not_carriedOut_of rfl (.inr (.inr (.inr ⟨_, rfl⟩))))

/-- **C67, only those permitted (partial).**  With a policy, a request to create or list anything but
mirrors is carried out only if the identity holds the permission it needs.  Missing: all requests about one
existing object — deleting and changing —, which every identity may make (`C67_violated_delete`), and
mirrors and watches. -/
theorem C67_permitted_partial (env : Env V) (policy : Policy) (h : WellFormedPolicy policy)
    (readOnly : Bool) (roles : List Text) (c : Cluster V) (reply : Reply) (req : Request V)
    (ht : typeRequest req = true)
    (hc : CarriedOut (handle env (serverContext (some policy) readOnly roles) c reply req)) :
    Holds policy roles (needs req) := by
  obtain ⟨a, ha, h'⟩ := (C67_asked_partial env _ c reply req hc).1 ht
  have hi : (needs req).inst = none := by cases req <;> first | rfl | cases ht
  have hn : needs req = ⟨(needs req).ty, a.toAction, none⟩ := by rw [← ha, ← hi]
  rw [hn]
  rcases h' with h' | ⟨h', _⟩
  · exact (C67_decision policy h _ _ _).mp (Option.some.inj h')
  · cases h'

/-- **C67, connections of remote clusters.**  A remote cluster whose identity is refused learns nothing,
and its pairing is marked as failed, never as successful; a remote cluster is told of topics only if it is
registered under its name, and then exactly of the topics that have a partition for it. -/
theorem C67_mirror (auth : AuthContext) (c : Cluster V) (remote : Text) :
    (auth.instanceAction .mirror .update remote = some false →
      (mirrorConnect auth c remote).2 = .silent
      ∧ ∀ e ∈ (mirrorConnect auth c remote).1, e = .pairing remote false)
    ∧ ∀ topics, (mirrorConnect auth c remote).2 = .mirrored topics →
      get c.mirrors remote = some (.remote remote)
      ∧ ∀ t, t ∈ topics ↔ ∃ spec remotes, (t, spec) ∈ c.topics ∧ spec.replicas = .home remotes
          ∧ remote ∈ remotes := by
  unfold mirrorConnect
  constructor
  · intro h
    split
    · split
      · rw [h]; exact ⟨rfl, by simp⟩
      · exact ⟨rfl, by simp⟩
    · exact ⟨rfl, by simp⟩
  · intro topics h
    split at h
    · rename_i id hid
      split at h
      · rename_i he
        subst he
        refine ⟨hid, fun t => ?_⟩
        have ht : topics = topicsFor c id := by
          split at h
          · cases h
          · injection h with h; exact h.symm
        rw [ht]
        unfold topicsFor
        simp only [List.mem_map, List.mem_filter]
        constructor
        · rintro ⟨⟨n, s⟩, ⟨h1, h2⟩, rfl⟩
          dsimp only at h2
          split at h2
          · rename_i remotes hr
            exact ⟨s, remotes, h1, hr, by simpa using h2⟩
          · cases h2
        · rintro ⟨s, remotes, h1, h2, h3⟩
          exact ⟨(t, s), ⟨h1, by simp [h2, h3]⟩, rfl⟩
      · cases h
    · cases h

/-- **C67, strangers.**  A principal (the common name of a client's certificate) without an entry in the
bindings of scopes can neither create nor list anything but mirrors. -/
theorem C67_stranger_partial (env : Env V) (policy : Policy) (h : WellFormedPolicy policy)
    (readOnly : Bool) (bindings : List (Text × List Text)) (principal : Text)
    (hb : ∀ scopes, (principal, scopes) ∉ bindings) (c : Cluster V) (reply : Reply) (req : Request V)
    (ht : typeRequest req = true) :
    ¬ CarriedOut (handle env (serverContext (some policy) readOnly (scopesOf bindings principal))
        c reply req) := by
  intro hc
  obtain ⟨role, _, _, _, hr, _⟩ := C67_permitted_partial env policy h readOnly _ c reply req ht hc
  unfold scopesOf at hr
  cases hg : get bindings principal with
  | none => rw [hg] at hr; cases hr
  | some s => exact hb s (get_some_mem hg)

/-- **C67, the permitted are not turned away.**  With a policy, whoever holds the permission a request
needs is never answered that permission is denied, whatever the request. -/
theorem C67_not_refused (env : Env V) (policy : Policy) (h : WellFormedPolicy policy)
    (readOnly : Bool) (roles : List Text) (c : Cluster V) (reply : Reply) (req : Request V)
    (hh : Holds policy roles (needs req)) (n : Text) :
    (handle env (serverContext (some policy) readOnly roles) c reply req).2
      ≠ .status n .permissionDenied := by
  have ht : ∀ ty (a : TypeAction), Holds policy roles ⟨ty, a.toAction, none⟩ →
      (serverContext (some policy) readOnly roles).typeAction ty a = some true := by
    intro ty a h'
    show some (evaluate policy a.toAction ty none roles) = some true
    rw [(C67_decision policy h _ _ _).mpr h']
  have hi : ∀ ty a n, (serverContext (some policy) readOnly roles).instanceAction ty a n = some true :=
    fun _ _ _ => rfl
  cases req with
  | createTopic n s d =>
    show (createTopic ..).2 ≠ _
    unfold createTopic guarded
    rw [ht .topic .create hh]
    dsimp only
    cases hv : validateTopic env c n s with
    | some r =>
      dsimp only
      unfold validateTopic checkDedup at hv
      grind
    | none =>
      dsimp only
      grind
  | createSpg n s d =>
    show (createSpg ..).2 ≠ _
    unfold createSpg guarded store
    rw [ht .spuGroup .create hh]
    grind
  | createCustomSpu n i r d =>
    show (createCustomSpu ..).2 ≠ _
    unfold createCustomSpu guardedOpen store
    rw [ht .customSpu .create hh]
    grind
  | createSmartModule n s d =>
    show (createSmartModule ..).2 ≠ _
    unfold createSmartModule guarded store
    rw [ht .smartModule .create hh]
    grind
  | createTableFormat n s d =>
    show (createTableFormat ..).2 ≠ _
    unfold createTableFormat guarded store
    rw [ht .tableFormat .create hh]
    grind
  | createMirror n s d =>
    show (createMirror ..).2 ≠ _
    unfold createMirror
    grind
  | updateTopic n a =>
    show (updateTopic ..).2 ≠ _
    unfold updateTopic guarded
    rw [hi]
    cases a with
    | addPartitions k => dsimp only; unfold addPartitions; grind
    | addMirror k => dsimp only; unfold addMirror; grind
  | deleteTopic n f =>
    show (deleteTopic ..).2 ≠ _
    unfold deleteTopic guarded store
    rw [hi]
    grind
  | deleteCustomSpu k =>
    show (deleteCustomSpu ..).2 ≠ _
    unfold deleteCustomSpu guarded dropSpu store
    rw [hi]
    grind
  | deleteSpg n =>
    show (deleteSpg ..).2 ≠ _
    unfold deleteSpg guarded store
    rw [hi]
    grind
  | deleteSmartModule n =>
    show (deleteSmartModule ..).2 ≠ _
    unfold deleteSmartModule guarded store
    rw [hi]
    grind
  | deleteTableFormat n =>
    show (deleteTableFormat ..).2 ≠ _
    unfold deleteTableFormat guarded store
    rw [hi]
    grind
  | deleteMirror n =>
    show (deleteMirror ..).2 ≠ _
    unfold deleteMirror store
    grind
  | watch ty => show (watch ty).2 ≠ _; unfold watch; grind
  | mirrorConnect r => show (mirrorConnect ..).2 ≠ _; unfold mirrorConnect; grind
  | list ty f s => show (list ..).2 ≠ _; unfold list guardedList guardedListOpen; grind

end

/-! ### A concrete cluster -/

/-- versions for the examples: there is one -/
def oneVersion : SemVer Unit where
  text _ := "1.0.0".toList
  parse t := if t = "1.0.0".toList then some () else none

/-- all configurations of topics are accepted -/
def lenientEnv : Env Unit where
  semver := oneVersion
  configOk _ := true
  replicasOk _ _ := true

/-- one topic, one registered remote cluster -/
def smallCluster : Cluster Unit where
  topics := [("orders".toList, ⟨.home ["edge-1".toList], false, none, 0⟩)]
  mirrors := [("edge-1".toList, .remote "edge-1".toList)]

/-- readers may read topics; nothing else is permitted to anybody -/
def readerPolicy : Policy := [("reader".toList, [(.topic, [⟨.read, none⟩])])]

def anyReply : Reply := ⟨true, true⟩

theorem readerPolicy_wf : WellFormedPolicy readerPolicy := ⟨by decide, by decide⟩

/-- what `readerPolicy` gives -/
theorem readerPolicy_holds (roles : List Text) (n : Need) (h : Holds readerPolicy roles n) :
    n.ty = .topic ∧ n.action = .read := by
  obtain ⟨role, objects, perms, p, _, h2, h3, h4, h5, _⟩ := h
  simp only [readerPolicy, List.mem_singleton, Prod.mk.injEq] at h2
  obtain ⟨_, rfl⟩ := h2
  simp only [List.mem_singleton, Prod.mk.injEq] at h3
  obtain ⟨h3, rfl⟩ := h3
  rw [List.mem_singleton] at h4
  subst h4
  exact ⟨h3, by rcases h5 with h5 | h5 <;> simp_all⟩

/-- non-vacuity of `C67_permitted_partial` and `C67_not_refused`: a reader lists the topics -/
example : CarriedOut (handle lenientEnv (serverContext (some readerPolicy) false ["reader".toList])
    smallCluster anyReply (.list .topic [] false)) :=
  .inr (.inl ⟨.topic, "orders".toList, [], by decide⟩)

/-- non-vacuity of `C67_stranger_partial`: somebody else is shown nothing -/
example : (handle lenientEnv (serverContext (some readerPolicy) false (scopesOf
    [("alice".toList, ["reader".toList])] "bob".toList)) smallCluster anyReply
    (.list .topic [] false)).2 = .listed .topic [] := by decide

/-- **C67 violated: everybody may delete and change.**  `BasicAuthContext::allow_instance_action` answers
`Ok(true)` without looking at the policy (basic.rs:64-72).  Somebody without any role deletes a topic of a
cluster whose policy permits nothing but reading topics. -/
theorem C67_violated_delete :
    ∃ policy, WellFormedPolicy policy
      ∧ handle lenientEnv (serverContext (some policy) false []) smallCluster anyReply
          (.deleteTopic "orders".toList false)
        = ([.delTopic "orders".toList], .status "orders".toList .ok)
      ∧ handle lenientEnv (serverContext (some policy) false []) smallCluster anyReply
          (.mirrorConnect "edge-1".toList)
        = ([.pairing "edge-1".toList true], .mirrored ["orders".toList])
      ∧ ¬ Holds policy [] ⟨.topic, .delete, some "orders".toList⟩
      ∧ ¬ Holds policy [] ⟨.mirror, .update, some "edge-1".toList⟩ :=
  ⟨readerPolicy, readerPolicy_wf, rfl, rfl,
    fun h => absurd (readerPolicy_holds _ _ h).2 (by decide),
    fun h => absurd (readerPolicy_holds _ _ h).1 (by decide)⟩

/-- **C67 violated: nobody asks about mirrors.**  The handlers that register, unregister and list mirrors do
not consult the authorization at all (mirror/{register,unregister,list}.rs): without any role one registers
a remote cluster, drops one, and sees all of them. -/
theorem C67_violated_mirrors :
    ∃ policy, WellFormedPolicy policy
      ∧ handle lenientEnv (serverContext (some policy) false []) smallCluster anyReply
          (.createMirror "edge-2".toList (.remote "edge-2".toList) false)
        = ([.putMirror "edge-2".toList (.remote "edge-2".toList)], .status "edge-2".toList .ok)
      ∧ handle lenientEnv (serverContext (some policy) false []) smallCluster anyReply
          (.deleteMirror "edge-1".toList)
        = ([.delMirror "edge-1".toList], .status "edge-1".toList .ok)
      ∧ handle lenientEnv (serverContext (some policy) false []) smallCluster anyReply
          (.list .mirror [] false)
        = ([], .listed .mirror ["edge-1".toList])
      ∧ ∀ a i, ¬ Holds policy [] ⟨.mirror, a, i⟩ :=
  ⟨readerPolicy, readerPolicy_wf, rfl, rfl, rfl,
    fun _ _ h => absurd (readerPolicy_holds _ _ h).1 (fun e : ObjectType.mirror = .topic => nomatch e)⟩

/-- **C67 violated: nobody asks about watches.**  `handle_watch_request` has no check (watch.rs:30-93), so
somebody without any role, to whom the list of topics is shown empty, is sent all topics and their changes
on a watch. -/
theorem C67_violated_watch :
    ∃ policy, WellFormedPolicy policy
      ∧ handle lenientEnv (serverContext (some policy) false []) smallCluster anyReply
          (.list .topic [] false) = ([], .listed .topic [])
      ∧ handle lenientEnv (serverContext (some policy) false []) smallCluster anyReply
          (.watch .topic) = ([], .watching .topic)
      ∧ ¬ Holds policy [] ⟨.topic, .read, none⟩ := by
  refine ⟨readerPolicy, readerPolicy_wf, rfl, rfl, ?_⟩
  rintro ⟨role, _, _, _, h, _⟩
  cases h

/-- **C67 violated: a failed decision counts as yes.**  When the authorization fails, creating a custom SPU,
listing the SPUs and connecting a remote cluster go on as if permitted (`if let Ok(authorized) = … &&
!authorized`: register_custom_spus_req.rs:43-55, spu/fetch.rs:69-79, connect.rs:62-84); the other handlers
stop. -/
theorem C67_violated_fail_open :
    ∃ auth : AuthContext, (∀ ty a, auth.typeAction ty a = none)
      ∧ (∀ ty a n, auth.instanceAction ty a n = none)
      ∧ handle lenientEnv auth smallCluster anyReply (.createCustomSpu "spu-7".toList 7 0 false)
        = ([.putSpu "spu-7".toList ⟨7, true, 0⟩], .status "spu-7".toList .ok)
      ∧ handle lenientEnv auth smallCluster anyReply (.mirrorConnect "edge-1".toList)
        = ([.pairing "edge-1".toList true], .mirrored ["orders".toList])
      ∧ handle lenientEnv auth smallCluster anyReply (.createSpg "main".toList 0 false)
        = ([], .failed) :=
  ⟨⟨fun _ _ => none, fun _ _ _ => none⟩, fun _ _ => rfl, fun _ _ _ => rfl, rfl, rfl, rfl⟩

/-- **C67 violated: read-only is not.**  The context "that allows only read only ops" (auth/mod.rs:53) lets
everybody delete and change: only creating is refused.  With read-only metadata a topic is deleted, while
one may not be created. -/
theorem C67_violated_read_only :
    handle lenientEnv (serverContext none true []) smallCluster anyReply
        (.deleteTopic "orders".toList false)
      = ([.delTopic "orders".toList], .status "orders".toList .ok)
    ∧ handle lenientEnv (serverContext none true []) smallCluster anyReply
        (.createTopic "new".toList ⟨.computed 1 1, false, none, 0⟩ false)
      = ([], .status "new".toList .permissionDenied) :=
  ⟨rfl, rfl⟩

/-- **C67 violated: the default policy is not "full permissions" for `Root`.**  It has no entry for
SmartModules, and its entries for mirrors are tied to the objects `user1` and `user2` (basic.rs:233-270), left
over from a test: with it `Root` may not create or list SmartModules.  (The controller does not use this
policy when none is given, init.rs:140-159; it is what an embedding that asks for the default gets.) -/
theorem C67_violated_root :
    evaluate defaultPolicy .create .smartModule none ["Root".toList] = false
    ∧ evaluate defaultPolicy .create .mirror none ["Root".toList] = false
    ∧ evaluate defaultPolicy .create .topic none ["Root".toList] = true := by decide

/-! ### Permissions as text -/

/-- **C67, text of a permission (partial).**  A permission written to a policy file is read back the same,
provided the name of its object has no colon.  Missing: names with colons; see `C67_violated_text`. -/
theorem C67_text_partial (p : ActionUrn) (h : ∀ i, p.instance? = some i → ':' ∉ i) :
    ActionUrn.parse p.text = some p := by
  obtain ⟨a, i⟩ := p
  unfold ActionUrn.text ActionUrn.parse
  cases i with
  | none =>
    dsimp only
    rw [split_free _ _ (text_free a)]
    dsimp only
    rw [parse_text]
    rfl
  | some i =>
    dsimp only
    rw [split_append _ _ _ (text_free a), split_free _ _ (h i rfl)]
    dsimp only
    rw [parse_text]
    rfl

example : ActionUrn.parse "Read:user1".toList = some ⟨.read, some "user1".toList⟩ := by decide

/-- **C67 violated: a colon in a name widens or moves a permission.**  Reading a permission keeps only what
stands between the first and the second colon (basic.rs:130-140). -/
theorem C67_violated_text :
    ∃ p : ActionUrn, ∃ q, ActionUrn.parse p.text = some q ∧ q ≠ p :=
  ⟨⟨.delete, some "eu:orders".toList⟩, ⟨.delete, some "eu".toList⟩, by decide, by decide⟩

end Verif.Props
