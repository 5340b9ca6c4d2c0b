import Verif.Props.Access
/-!
# C68: an administrative request changes exactly the object it names

Property theorems about the handlers of the controller's public API; the model is in `Verif/Admin/Api.lean`.
-/

namespace Verif.Props

open Verif.Admin

set_option linter.unusedSectionVars false

/-! ### Specification -/

/-- any object of the cluster -/
inductive AdminObject (V : Type) where
  | topic (s : TopicSpec)
  | spu (s : SpuSpec)
  | spg (s : Nat)
  | smartModule (s : SmartModuleSpec V)
  | tableFormat (s : Nat)
  | mirror (s : MirrorSpec)

/-- the kinds of objects that requests create and delete -/
inductive AdminKind where
  | topic | spu | spg | smartModule | tableFormat | mirror
deriving DecidableEq

/-- the object of a kind with a name -/
def objectAt {V : Type} (c : Cluster V) : AdminKind → Text → Option (AdminObject V)
  | .topic, n => (Admin.get c.topics n).map .topic
  | .spu, n => (Admin.get c.spus n).map .spu
  | .spg, n => (Admin.get c.spgs n).map .spg
  | .smartModule, n => (Admin.get c.smartModules n).map .smartModule
  | .tableFormat, n => (Admin.get c.tableFormats n).map .tableFormat
  | .mirror, n => (Admin.get c.mirrors n).map .mirror

/-- kind, name and content of the object a request asks to create; a packaged SmartModule is filed under
its package (name, group and version), any other object under the name in the request -/
def creates {V : Type} [DecidableEq V] (S : SemVer V) :
    Request V → Option (AdminKind × Text × AdminObject V)
  | .createTopic n s _ => some (.topic, n, .topic s)
  | .createSpg n s _ => some (.spg, n, .spg s)
  | .createCustomSpu n i r _ => some (.spu, n, .spu ⟨i, true, r⟩)
  | .createSmartModule n s _ =>
    some (.smartModule, (match s.pkg with | some p => p.storeId S | none => n), .smartModule s)
  | .createTableFormat n s _ => some (.tableFormat, n, .tableFormat s)
  | .createMirror n s _ => some (.mirror, n, .mirror s)
  | _ => none

/-- the request is only a trial -/
def isDryRun {V : Type} : Request V → Bool
  | .createTopic _ _ d | .createSpg _ _ d | .createCustomSpu _ _ _ d | .createSmartModule _ _ d
  | .createTableFormat _ _ d | .createMirror _ _ d => d
  | _ => false

/-- the objects a request asks to delete: by name, an SPU also by id, a SmartModule by its qualified name -/
def Deletes {V : Type} [DecidableEq V] (S : SemVer V) (c : Cluster V) :
    Request V → AdminKind → Text → Prop
  | .deleteTopic n _, k, m => k = .topic ∧ m = n
  | .deleteCustomSpu (.name n), k, m => k = .spu ∧ m = n
  | .deleteCustomSpu (.id i), k, m => k = .spu ∧ ∃ s, (m, s) ∈ c.spus ∧ s.id = i
  | .deleteSpg n, k, m => k = .spg ∧ m = n
  | .deleteSmartModule n, k, m =>
    k = .smartModule ∧ ∃ key, fromQualifiedName S n = some key ∧ m = key.storeId S
  | .deleteTableFormat n, k, m => k = .tableFormat ∧ m = n
  | .deleteMirror n, k, m => k = .mirror ∧ m = n
  | _, _, _ => False

section
variable {V : Type} [DecidableEq V]

/-! ### What the writes do -/

theorem objectAt_apply (c : Cluster V) (k : AdminKind) (m : Text) (e : Effect V) :
    objectAt (e.apply c) k m ≠ objectAt c k m →
      (e = .delTopic m ∧ k = .topic) ∨ (e = .delSpu m ∧ k = .spu) ∨ (e = .delSpg m ∧ k = .spg)
      ∨ (e = .delSmartModule m ∧ k = .smartModule) ∨ (e = .delTableFormat m ∧ k = .tableFormat)
      ∨ (e = .delMirror m ∧ k = .mirror)
      ∨ (∃ s, e = .putTopic m s ∧ k = .topic) ∨ (∃ s, e = .putSpu m s ∧ k = .spu)
      ∨ (∃ s, e = .putSpg m s ∧ k = .spg) ∨ (∃ s, e = .putSmartModule m s ∧ k = .smartModule)
      ∨ (∃ s, e = .putTableFormat m s ∧ k = .tableFormat)
      ∨ (∃ s, e = .putMirror m s ∧ k = .mirror) := by
  intro h
  cases e <;> cases k <;> simp only [Effect.apply, objectAt, get_putAt, get_delAt] at h <;>
    first
    | exact absurd rfl h
    | (split at h
       · rename_i hm; subst hm; simp
       · exact absurd rfl h)

/-- a status that reports success -/
def Succeeds (r : Response) : Prop := ∃ n, r = .status n .ok

theorem createTopic_cases (env : Env V) (auth : AuthContext) (c : Cluster V) (reply : Reply) (n : Text)
    (s : TopicSpec) (d : Bool) :
    ((createTopic env auth c reply n s d).1 = []
      ∧ (Succeeds (createTopic env auth c reply n s d).2 → d = true))
    ∨ ((createTopic env auth c reply n s d).1 = [.putTopic n s] ∧ d = false
      ∧ Sc.validateResourceName n = .ok ∧ Admin.get c.topics n = none
      ∧ (Succeeds (createTopic env auth c reply n s d).2 → reply.stored = true)) := by
  unfold createTopic guarded Succeeds
  match auth.typeAction .topic .create with
  | none => exact .inl ⟨rfl, by rintro ⟨_, h⟩; cases h⟩
  | some false => exact .inl ⟨rfl, by rintro ⟨_, h⟩; cases h⟩
  | some true =>
    dsimp only
    cases hv : validateTopic env c n s with
    | some r =>
      refine .inl ⟨rfl, ?_⟩
      rintro ⟨m, h⟩
      dsimp only at h
      subst h
      unfold validateTopic checkDedup at hv
      grind
    | none =>
      dsimp only
      cases d with
      | true => exact .inl ⟨rfl, fun _ => rfl⟩
      | false =>
        refine .inr ⟨rfl, rfl, ?_, ?_, ?_⟩
        · unfold validateTopic at hv; grind
        · have : ¬ (Admin.get c.topics n).isSome = true := by unfold validateTopic at hv; grind
          simpa using this
        · rintro ⟨m, h⟩; grind

theorem createSpg_cases (auth : AuthContext) (reply : Reply) (n : Text) (s : Nat) :
    ((createSpg (V := V) auth reply n s).1 = [] ∧ ¬ Succeeds (createSpg (V := V) auth reply n s).2)
    ∨ ((createSpg (V := V) auth reply n s).1 = [.putSpg n s]
      ∧ (Succeeds (createSpg (V := V) auth reply n s).2 → reply.stored = true)) := by
  unfold createSpg guarded store Succeeds
  match auth.typeAction .spuGroup .create with
  | none => exact .inl ⟨rfl, by rintro ⟨_, h⟩; cases h⟩
  | some false => exact .inl ⟨rfl, by rintro ⟨_, h⟩; cases h⟩
  | some true => exact .inr ⟨rfl, by rintro ⟨m, h⟩; grind⟩

theorem createCustomSpu_cases (auth : AuthContext) (c : Cluster V) (reply : Reply) (n : Text) (i : Int)
    (r : Nat) (d : Bool) :
    ((createCustomSpu auth c reply n i r d).1 = []
      ∧ (Succeeds (createCustomSpu auth c reply n i r d).2 → d = true))
    ∨ ((createCustomSpu auth c reply n i r d).1 = [.putSpu n ⟨i, true, r⟩] ∧ d = false
      ∧ Admin.get c.spus n = none ∧ (∀ e ∈ c.spus, e.2.id ≠ i)
      ∧ (Succeeds (createCustomSpu auth c reply n i r d).2 → reply.stored = true)) := by
  have hid : (spuById c i).isSome = false → ∀ e ∈ c.spus, e.2.id ≠ i := by
    intro h e he hi
    have := List.find?_eq_none.mp (Option.isSome_eq_false_iff.mp h |> Option.isNone_iff_eq_none.mp) e he
    simp [hi] at this
  unfold createCustomSpu guardedOpen store Succeeds
  rcases auth.typeAction .customSpu .create with _ | (_ | _)
  case some.false => exact .inl ⟨rfl, by rintro ⟨_, h⟩; cases h⟩
  all_goals
    dsimp only
    cases h1 : (Admin.get c.spus n).isSome <;> cases h2 : (spuById c i).isSome <;>
      simp only [Bool.or_true, Bool.or_false, Bool.true_or, if_true, Bool.false_or,
        Bool.false_eq_true, if_false]
    · cases d with
      | true => exact .inl ⟨rfl, fun _ => rfl⟩
      | false =>
        refine .inr ⟨rfl, rfl, by simpa using h1, hid h2, ?_⟩
        rintro ⟨m, h⟩; grind
    all_goals exact .inl ⟨trivial, by rintro ⟨_, h⟩; cases h⟩

/-- the name under which a SmartModule is filed -/
def smartModuleId (S : SemVer V) (n : Text) (s : SmartModuleSpec V) : Text :=
  match s.pkg with | some p => p.storeId S | none => n

theorem createSmartModule_cases (env : Env V) (auth : AuthContext) (reply : Reply) (n : Text)
    (s : SmartModuleSpec V) :
    ((createSmartModule env auth reply n s).1 = []
      ∧ ¬ Succeeds (createSmartModule env auth reply n s).2)
    ∨ ((createSmartModule env auth reply n s).1
          = [.putSmartModule (smartModuleId env.semver n s) s]
      ∧ (Succeeds (createSmartModule env auth reply n s).2 → reply.stored = true)) := by
  unfold createSmartModule guarded store Succeeds smartModuleId
  match auth.typeAction .smartModule .create with
  | none => exact .inl ⟨rfl, by rintro ⟨_, h⟩; cases h⟩
  | some false => exact .inl ⟨rfl, by rintro ⟨_, h⟩; cases h⟩
  | some true =>
    dsimp only
    cases s.pkg with
    | none => exact .inr ⟨rfl, by rintro ⟨m, h⟩; grind⟩
    | some p =>
      dsimp only
      cases p.isValid with
      | false => exact .inl ⟨rfl, by rintro ⟨_, h⟩; cases h⟩
      | true => exact .inr ⟨rfl, by rintro ⟨m, h⟩; grind⟩

theorem createTableFormat_cases (auth : AuthContext) (c : Cluster V) (reply : Reply) (n : Text)
    (s : Nat) :
    ((createTableFormat auth c reply n s).1 = [] ∧ ¬ Succeeds (createTableFormat auth c reply n s).2)
    ∨ ((createTableFormat auth c reply n s).1 = [.putTableFormat n s]
      ∧ Admin.get c.tableFormats n = none
      ∧ (Succeeds (createTableFormat auth c reply n s).2 → reply.stored = true)) := by
  unfold createTableFormat guarded store Succeeds
  cases h1 : Admin.get c.tableFormats n with
  | some x => exact .inl ⟨rfl, by rintro ⟨_, h⟩; cases h⟩
  | none =>
    match auth.typeAction .tableFormat .create with
    | none => exact .inl ⟨rfl, by rintro ⟨_, h⟩; cases h⟩
    | some false => exact .inl ⟨rfl, by rintro ⟨_, h⟩; cases h⟩
    | some true => exact .inr ⟨rfl, rfl, by rintro ⟨m, h⟩; grind⟩

theorem createMirror_cases (c : Cluster V) (reply : Reply) (n : Text) (s : MirrorSpec) :
    ((createMirror c reply n s).1 = [] ∧ ¬ Succeeds (createMirror c reply n s).2)
    ∨ ((createMirror c reply n s).1 = [.putMirror n s]
      ∧ (∀ i, Admin.get c.mirrors n ≠ some (.remote i))
      ∧ (Succeeds (createMirror c reply n s).2 → reply.stored = true)) := by
  unfold createMirror Succeeds
  cases c.readOnly with
  | true => exact .inl ⟨rfl, by rintro ⟨_, h⟩; cases h⟩
  | false =>
    rw [if_neg (by simp)]
    match hm : Admin.get c.mirrors n with
    | some (.remote i) => exact .inl ⟨rfl, by rintro ⟨_, h⟩; cases h⟩
    | some (.home i) => exact .inr ⟨rfl, ⟨(by intro i h; cases h), (by rintro ⟨m, h⟩; grind)⟩⟩
    | none => exact .inr ⟨rfl, ⟨(by intro i h; cases h), (by rintro ⟨m, h⟩; grind)⟩⟩

theorem addPartitions_cases (c : Cluster V) (reply : Reply) (n : Text) (k : Nat) :
    ((addPartitions c reply n k).1 = [] ∧ ¬ Succeeds (addPartitions c reply n k).2)
    ∨ (∃ spec p f, Admin.get c.topics n = some spec ∧ spec.system = false
      ∧ spec.replicas = .computed p f
      ∧ (addPartitions c reply n k).1
          = [.putTopic n { spec with replicas := .computed ((p + k) % 2 ^ 32) f }]
      ∧ (Succeeds (addPartitions c reply n k).2 → reply.stored = true)) := by
  unfold addPartitions Succeeds
  cases h1 : Admin.get c.topics n with
  | none => exact .inl ⟨rfl, by rintro ⟨_, h⟩; cases h⟩
  | some spec =>
    dsimp only
    cases h2 : spec.system with
    | true => exact .inl ⟨rfl, by rintro ⟨_, h⟩; cases h⟩
    | false =>
      rw [if_neg (by simp)]
      cases h3 : spec.replicas with
      | computed p f => exact .inr ⟨spec, p, f, rfl, h2, h3, by rw [h2], by rintro ⟨m, h⟩; grind⟩
      | assigned m => exact .inl ⟨rfl, by rintro ⟨_, h⟩; cases h⟩
      | home m => exact .inl ⟨rfl, by rintro ⟨_, h⟩; cases h⟩
      | remote m => exact .inl ⟨rfl, by rintro ⟨_, h⟩; cases h⟩

theorem addMirror_cases (c : Cluster V) (reply : Reply) (n : Text) (r : Text) :
    ((addMirror c reply n r).1 = [] ∧ ¬ Succeeds (addMirror c reply n r).2)
    ∨ (∃ spec rs i, Admin.get c.topics n = some spec ∧ spec.system = false
      ∧ spec.replicas = .home rs ∧ r ∉ rs ∧ Admin.get c.mirrors r = some (.remote i)
      ∧ (addMirror c reply n r).1 = [.putTopic n { spec with replicas := .home (rs ++ [r]) }]
      ∧ (Succeeds (addMirror c reply n r).2 → reply.stored = true)) := by
  unfold addMirror Succeeds
  cases h1 : Admin.get c.topics n with
  | none => exact .inl ⟨rfl, by rintro ⟨_, h⟩; cases h⟩
  | some spec =>
    dsimp only
    match h2 : Admin.get c.mirrors r with
    | none => exact .inl ⟨rfl, by rintro ⟨_, h⟩; cases h⟩
    | some (.home i) => exact .inl ⟨rfl, by rintro ⟨_, h⟩; cases h⟩
    | some (.remote i) =>
      dsimp only
      cases h3 : spec.replicas with
      | computed p f => exact .inl ⟨rfl, by rintro ⟨_, h⟩; cases h⟩
      | assigned m => exact .inl ⟨rfl, by rintro ⟨_, h⟩; cases h⟩
      | remote m =>
        dsimp only
        cases h4 : spec.system
        · exact .inl ⟨rfl, by rintro ⟨_, h⟩; cases h⟩
        · exact .inl ⟨rfl, by rintro ⟨_, h⟩; cases h⟩
      | home rs =>
        dsimp only
        by_cases h5 : r ∈ rs
        · rw [if_pos h5]; exact .inl ⟨rfl, by rintro ⟨_, h⟩; cases h⟩
        · rw [if_neg h5]
          cases h4 : spec.system with
          | true => exact .inl ⟨rfl, by rintro ⟨_, h⟩; cases h⟩
          | false =>
            rw [if_neg (by simp)]
            exact .inr ⟨spec, rs, i, rfl, h4, h3, h5, rfl, by rw [h4], by rintro ⟨m, h⟩; grind⟩

theorem deleteTopic_cases (auth : AuthContext) (c : Cluster V) (reply : Reply) (n : Text) (f : Bool) :
    ((deleteTopic auth c reply n f).1 = [] ∧ ¬ Succeeds (deleteTopic auth c reply n f).2)
    ∨ (∃ spec, Admin.get c.topics n = some spec ∧ (f = true ∨ spec.system = false)
      ∧ (∀ x, spec.replicas ≠ .remote x)
      ∧ (deleteTopic auth c reply n f).1 = [.delTopic n]
      ∧ (Succeeds (deleteTopic auth c reply n f).2 → reply.stored = true)) := by
  unfold deleteTopic guarded store Succeeds
  match auth.instanceAction .topic .delete n with
  | none => exact .inl ⟨rfl, by rintro ⟨_, h⟩; cases h⟩
  | some false => exact .inl ⟨rfl, by rintro ⟨_, h⟩; cases h⟩
  | some true =>
    dsimp only
    cases h1 : Admin.get c.topics n with
    | none => exact .inl ⟨rfl, by rintro ⟨_, h⟩; cases h⟩
    | some spec =>
      dsimp only
      cases hr : spec.replicas
      case remote => exact .inl ⟨rfl, by rintro ⟨_, h⟩; cases h⟩
      all_goals
        dsimp only
        by_cases hs : (!f && spec.system) = true
        · rw [if_pos hs]; exact .inl ⟨rfl, by rintro ⟨_, h⟩; cases h⟩
        · rw [if_neg hs]
          refine .inr ⟨spec, rfl, ?_, by rw [hr]; nofun, rfl, by rintro ⟨m, h⟩; grind⟩
          revert hs
          cases f <;> cases spec.system <;> simp

theorem deleteCustomSpu_cases (auth : AuthContext) (c : Cluster V) (reply : Reply) (k : SpuKey) :
    ((deleteCustomSpu auth c reply k).1 = [] ∧ ¬ Succeeds (deleteCustomSpu auth c reply k).2)
    ∨ (∃ n spec, (n, spec) ∈ c.spus ∧ spec.custom = true
      ∧ (k = .name n ∧ Admin.get c.spus n = some spec ∨ k = .id spec.id)
      ∧ (deleteCustomSpu auth c reply k).1 = [.delSpu n]
      ∧ (Succeeds (deleteCustomSpu auth c reply k).2 → reply.stored = true)) := by
  unfold deleteCustomSpu guarded dropSpu store Succeeds
  match auth.instanceAction .customSpu .delete k.text with
  | none => exact .inl ⟨rfl, by rintro ⟨_, h⟩; cases h⟩
  | some false => exact .inl ⟨rfl, by rintro ⟨_, h⟩; cases h⟩
  | some true =>
    dsimp only
    cases k with
    | name n =>
      dsimp only
      cases h1 : Admin.get c.spus n with
      | none => exact .inl ⟨rfl, by rintro ⟨_, h⟩; cases h⟩
      | some spec =>
        dsimp only
        cases h2 : spec.custom with
        | false => exact .inl ⟨rfl, by rintro ⟨_, h⟩; cases h⟩
        | true =>
          exact .inr ⟨n, spec, get_some_mem h1, h2, .inl ⟨rfl, h1⟩, rfl, by rintro ⟨m, h⟩; grind⟩
    | id i =>
      dsimp only
      cases h1 : spuById c i with
      | none => exact .inl ⟨rfl, by rintro ⟨_, h⟩; cases h⟩
      | some e =>
        obtain ⟨n, spec⟩ := e
        dsimp only
        cases h2 : spec.custom with
        | false => exact .inl ⟨rfl, by rintro ⟨_, h⟩; cases h⟩
        | true =>
          refine .inr ⟨n, spec, List.mem_of_find?_eq_some h1, h2, .inr ?_, rfl, by rintro ⟨m, h⟩; grind⟩
          have := List.find?_some h1
          simp only [decide_eq_true_eq] at this
          rw [this]

theorem deleteSpg_cases (auth : AuthContext) (c : Cluster V) (reply : Reply) (n : Text) :
    ((deleteSpg auth c reply n).1 = [] ∧ ¬ Succeeds (deleteSpg auth c reply n).2)
    ∨ ((deleteSpg auth c reply n).1 = [.delSpg n] ∧ (Admin.get c.spgs n).isSome
      ∧ (Succeeds (deleteSpg auth c reply n).2 → reply.stored = true)) := by
  unfold deleteSpg guarded store Succeeds
  match auth.instanceAction .spuGroup .delete n with
  | none => exact .inl ⟨rfl, by rintro ⟨_, h⟩; cases h⟩
  | some false => exact .inl ⟨rfl, by rintro ⟨_, h⟩; cases h⟩
  | some true =>
    cases h1 : Admin.get c.spgs n with
    | none => exact .inl ⟨rfl, by rintro ⟨_, h⟩; cases h⟩
    | some x => exact .inr ⟨rfl, rfl, by rintro ⟨m, h⟩; grind⟩

theorem deleteSmartModule_cases (env : Env V) (auth : AuthContext) (c : Cluster V) (reply : Reply)
    (n : Text) :
    ((deleteSmartModule env auth c reply n).1 = []
      ∧ ¬ Succeeds (deleteSmartModule env auth c reply n).2)
    ∨ (∃ key, fromQualifiedName env.semver n = some key
      ∧ (deleteSmartModule env auth c reply n).1 = [.delSmartModule (key.storeId env.semver)]
      ∧ (Admin.get c.smartModules (key.storeId env.semver)).isSome
      ∧ (Succeeds (deleteSmartModule env auth c reply n).2 → reply.stored = true)) := by
  unfold deleteSmartModule guarded store Succeeds
  match auth.instanceAction .smartModule .delete n with
  | none => exact .inl ⟨rfl, by rintro ⟨_, h⟩; cases h⟩
  | some false => exact .inl ⟨rfl, by rintro ⟨_, h⟩; cases h⟩
  | some true =>
    dsimp only
    cases h1 : fromQualifiedName env.semver n with
    | none => exact .inl ⟨rfl, by rintro ⟨_, h⟩; cases h⟩
    | some key =>
      dsimp only
      cases h2 : Admin.get c.smartModules (key.storeId env.semver) with
      | none => exact .inl ⟨rfl, by rintro ⟨_, h⟩; cases h⟩
      | some x => exact .inr ⟨key, rfl, rfl, by rw [h2]; rfl, by rintro ⟨m, h⟩; grind⟩

theorem deleteTableFormat_cases (auth : AuthContext) (c : Cluster V) (reply : Reply) (n : Text) :
    ((deleteTableFormat auth c reply n).1 = [] ∧ ¬ Succeeds (deleteTableFormat auth c reply n).2)
    ∨ ((deleteTableFormat auth c reply n).1 = [.delTableFormat n]
      ∧ (Admin.get c.tableFormats n).isSome
      ∧ (Succeeds (deleteTableFormat auth c reply n).2 → reply.stored = true)) := by
  unfold deleteTableFormat guarded store Succeeds
  match auth.instanceAction .tableFormat .delete n with
  | none => exact .inl ⟨rfl, by rintro ⟨_, h⟩; cases h⟩
  | some false => exact .inl ⟨rfl, by rintro ⟨_, h⟩; cases h⟩
  | some true =>
    cases h1 : Admin.get c.tableFormats n with
    | none => exact .inl ⟨rfl, by rintro ⟨_, h⟩; cases h⟩
    | some x => exact .inr ⟨rfl, rfl, by rintro ⟨m, h⟩; grind⟩

theorem deleteMirror_cases (c : Cluster V) (reply : Reply) (n : Text) :
    ((deleteMirror c reply n).1 = [] ∧ ¬ Succeeds (deleteMirror c reply n).2)
    ∨ ((deleteMirror c reply n).1 = [.delMirror n] ∧ (Admin.get c.mirrors n).isSome
      ∧ (Succeeds (deleteMirror c reply n).2 → reply.stored = true)) := by
  unfold deleteMirror store Succeeds
  cases c.readOnly with
  | true => exact .inl ⟨rfl, by rintro ⟨_, h⟩; cases h⟩
  | false =>
    cases h1 : Admin.get c.mirrors n with
    | none => exact .inl ⟨rfl, by rintro ⟨_, h⟩; cases h⟩
    | some x => exact .inr ⟨rfl, rfl, by rintro ⟨m, h⟩; grind⟩

/-- the writes of an update are those of `addPartitions` or `addMirror`, if it gets that far -/
theorem updateTopic_cases (auth : AuthContext) (c : Cluster V) (reply : Reply) (n : Text)
    (a : TopicUpdate) :
    ((updateTopic auth c reply n a).1 = [] ∧ ¬ Succeeds (updateTopic auth c reply n a).2)
    ∨ updateTopic auth c reply n a
        = (match a with
          | .addPartitions k => addPartitions c reply n k
          | .addMirror r => addMirror c reply n r) := by
  unfold updateTopic guarded Succeeds
  match auth.instanceAction .topic .update n with
  | none => exact .inl ⟨rfl, by rintro ⟨_, h⟩; cases h⟩
  | some false => exact .inl ⟨rfl, by rintro ⟨_, h⟩; cases h⟩
  | some true => exact .inr rfl

/-- **C68, creating.**  A request to create an object, if it writes at all, makes the object exist with
exactly the content asked for, and leaves every other object as it was. -/
theorem C68_created (env : Env V) (auth : AuthContext) (c : Cluster V) (reply : Reply)
    (req : Request V) (kind : AdminKind) (name : Text) (o : AdminObject V)
    (hreq : creates env.semver req = some (kind, name, o))
    (hw : (handle env auth c reply req).1 ≠ []) :
    objectAt (applyAll c (handle env auth c reply req).1) kind name = some o
    ∧ ∀ k m, (k, m) ≠ (kind, name) →
        objectAt (applyAll c (handle env auth c reply req).1) k m = objectAt c k m := by
  have frame : ∀ e : Effect V, (handle env auth c reply req).1 = [e] →
      (∀ k m, objectAt (e.apply c) k m ≠ objectAt c k m → (k, m) = (kind, name)) →
      objectAt (e.apply c) kind name = some o →
      objectAt (applyAll c (handle env auth c reply req).1) kind name = some o
      ∧ ∀ k m, (k, m) ≠ (kind, name) →
        objectAt (applyAll c (handle env auth c reply req).1) k m = objectAt c k m := by
    intro e h3 h1 h2
    rw [h3]
    exact ⟨h2, fun k m hn => Classical.byContradiction fun hx => hn (h1 k m hx)⟩
  cases req with
  | createTopic n s d =>
    cases hreq
    rcases createTopic_cases env auth c reply name s d with ⟨h, _⟩ | ⟨h, _⟩
    · exact absurd h hw
    · refine frame _ h ?_ ?_
      · intro k m h'; have := objectAt_apply c k m _ h'; simp at this; simp [this]
      · simp [objectAt, Effect.apply, get_putAt]
  | createSpg n s d =>
    cases hreq
    rcases createSpg_cases (V := V) auth reply name s with ⟨h, _⟩ | ⟨h, _⟩
    · exact absurd h hw
    · refine frame _ h ?_ ?_
      · intro k m h'; have := objectAt_apply c k m _ h'; simp at this; simp [this]
      · simp [objectAt, Effect.apply, get_putAt]
  | createCustomSpu n i r d =>
    cases hreq
    rcases createCustomSpu_cases auth c reply name i r d with ⟨h, _⟩ | ⟨h, _⟩
    · exact absurd h hw
    · refine frame _ h ?_ ?_
      · intro k m h'; have := objectAt_apply c k m _ h'; simp at this; simp [this]
      · simp [objectAt, Effect.apply, get_putAt]
  | createSmartModule n s d =>
    have hreq' : some (AdminKind.smartModule, smartModuleId env.semver n s, AdminObject.smartModule s)
        = some (kind, name, o) := hreq
    cases hreq'
    rcases createSmartModule_cases env auth reply n s with ⟨h, _⟩ | ⟨h, _⟩
    · exact absurd h hw
    · refine frame _ h ?_ ?_
      · intro k m h'; have := objectAt_apply c k m _ h'; simp at this; simp [this]
      · simp [objectAt, Effect.apply, get_putAt]
  | createTableFormat n s d =>
    cases hreq
    rcases createTableFormat_cases auth c reply name s with ⟨h, _⟩ | ⟨h, _⟩
    · exact absurd h hw
    · refine frame _ h ?_ ?_
      · intro k m h'; have := objectAt_apply c k m _ h'; simp at this; simp [this]
      · simp [objectAt, Effect.apply, get_putAt]
  | createMirror n s d =>
    cases hreq
    rcases createMirror_cases c reply name s with ⟨h, _⟩ | ⟨h, _⟩
    · exact absurd h hw
    · refine frame _ h ?_ ?_
      · intro k m h'; have := objectAt_apply c k m _ h'; simp at this; simp [this]
      · simp [objectAt, Effect.apply, get_putAt]
  | _ => exact nomatch hreq

/-- what the writes of `handle` can be, one line per kind of request -/
theorem handle_cases (env : Env V) (auth : AuthContext) (c : Cluster V) (reply : Reply)
    (req : Request V) :
    ((handle env auth c reply req).1 = [] ∧ (Succeeds (handle env auth c reply req).2 → isDryRun req = true))
    ∨ (Succeeds (handle env auth c reply req).2 → reply.stored = true)
      ∧ ((∃ n s, req = .createTopic n s false ∧ (handle env auth c reply req).1 = [.putTopic n s]
          ∧ Sc.validateResourceName n = .ok ∧ Admin.get c.topics n = none)
        ∨ (∃ n s d, req = .createSpg n s d ∧ (handle env auth c reply req).1 = [.putSpg n s])
        ∨ (∃ n i r, req = .createCustomSpu n i r false
          ∧ (handle env auth c reply req).1 = [.putSpu n ⟨i, true, r⟩]
          ∧ Admin.get c.spus n = none ∧ (∀ e ∈ c.spus, e.2.id ≠ i))
        ∨ (∃ n s d, req = .createSmartModule n s d
          ∧ (handle env auth c reply req).1 = [.putSmartModule (smartModuleId env.semver n s) s])
        ∨ (∃ n s d, req = .createTableFormat n s d
          ∧ (handle env auth c reply req).1 = [.putTableFormat n s] ∧ Admin.get c.tableFormats n = none)
        ∨ (∃ n s d, req = .createMirror n s d ∧ (handle env auth c reply req).1 = [.putMirror n s]
          ∧ ∀ i, Admin.get c.mirrors n ≠ some (.remote i))
        ∨ (∃ n k spec p f, req = .updateTopic n (.addPartitions k) ∧ Admin.get c.topics n = some spec
          ∧ spec.system = false ∧ spec.replicas = .computed p f
          ∧ (handle env auth c reply req).1
              = [.putTopic n { spec with replicas := .computed ((p + k) % 2 ^ 32) f }])
        ∨ (∃ n r spec rs i, req = .updateTopic n (.addMirror r) ∧ Admin.get c.topics n = some spec
          ∧ spec.system = false ∧ spec.replicas = .home rs ∧ r ∉ rs
          ∧ Admin.get c.mirrors r = some (.remote i)
          ∧ (handle env auth c reply req).1 = [.putTopic n { spec with replicas := .home (rs ++ [r]) }])
        ∨ (∃ n f spec, req = .deleteTopic n f ∧ Admin.get c.topics n = some spec
          ∧ (f = true ∨ spec.system = false) ∧ (∀ x, spec.replicas ≠ .remote x)
          ∧ (handle env auth c reply req).1 = [.delTopic n])
        ∨ (∃ k n spec, req = .deleteCustomSpu k ∧ (n, spec) ∈ c.spus ∧ spec.custom = true
          ∧ (k = .name n ∧ Admin.get c.spus n = some spec ∨ k = .id spec.id)
          ∧ (handle env auth c reply req).1 = [.delSpu n])
        ∨ (∃ n, req = .deleteSpg n ∧ (Admin.get c.spgs n).isSome
          ∧ (handle env auth c reply req).1 = [.delSpg n])
        ∨ (∃ n key, req = .deleteSmartModule n ∧ fromQualifiedName env.semver n = some key
          ∧ (Admin.get c.smartModules (key.storeId env.semver)).isSome
          ∧ (handle env auth c reply req).1 = [.delSmartModule (key.storeId env.semver)])
        ∨ (∃ n, req = .deleteTableFormat n ∧ (Admin.get c.tableFormats n).isSome
          ∧ (handle env auth c reply req).1 = [.delTableFormat n])
        ∨ (∃ n, req = .deleteMirror n ∧ (Admin.get c.mirrors n).isSome
          ∧ (handle env auth c reply req).1 = [.delMirror n])
        ∨ (∃ r b, req = .mirrorConnect r ∧ (handle env auth c reply req).1 = [.pairing r b])) := by
  cases req with
  | createTopic n s d =>
    rcases createTopic_cases env auth c reply n s d with h | ⟨h1, rfl, h3, h4, h5⟩
    · exact .inl h
    · exact .inr ⟨h5, .inl ⟨n, s, rfl, h1, h3, h4⟩⟩
  | createSpg n s d =>
    rcases createSpg_cases (V := V) auth reply n s with h | ⟨h1, h2⟩
    · exact .inl ⟨h.1, fun h' => absurd h' h.2⟩
    · exact .inr ⟨h2, .inr <| .inl ⟨n, s, d, rfl, h1⟩⟩
  | createCustomSpu n i r d =>
    rcases createCustomSpu_cases auth c reply n i r d with h | ⟨h1, rfl, h3, h4, h5⟩
    · exact .inl h
    · exact .inr ⟨h5, .inr <| .inr <| .inl ⟨n, i, r, rfl, h1, h3, h4⟩⟩
  | createSmartModule n s d =>
    rcases createSmartModule_cases env auth reply n s with h | ⟨h1, h2⟩
    · exact .inl ⟨h.1, fun h' => absurd h' h.2⟩
    · exact .inr ⟨h2, .inr <| .inr <| .inr <| .inl ⟨n, s, d, rfl, h1⟩⟩
  | createTableFormat n s d =>
    rcases createTableFormat_cases auth c reply n s with h | ⟨h1, h2, h3⟩
    · exact .inl ⟨h.1, fun h' => absurd h' h.2⟩
    · exact .inr ⟨h3, .inr <| .inr <| .inr <| .inr <| .inl ⟨n, s, d, rfl, h1, h2⟩⟩
  | createMirror n s d =>
    rcases createMirror_cases c reply n s with h | ⟨h1, h2, h3⟩
    · exact .inl ⟨h.1, fun h' => absurd h' h.2⟩
    · exact .inr ⟨h3, .inr <| .inr <| .inr <| .inr <| .inr <| .inl ⟨n, s, d, rfl, h1, h2⟩⟩
  | updateTopic n a =>
    rcases updateTopic_cases auth c reply n a with h | h
    · exact .inl ⟨h.1, fun h' => absurd h' h.2⟩
    · have hh : handle env auth c reply (.updateTopic n a) = updateTopic auth c reply n a := rfl
      rw [hh, h]
      cases a with
      | addPartitions k =>
        rcases addPartitions_cases c reply n k with h' | ⟨spec, p, f, h1, h2, h3, h4, h5⟩
        · exact .inl ⟨h'.1, fun h'' => absurd h'' h'.2⟩
        · exact .inr ⟨h5, .inr <| .inr <| .inr <| .inr <| .inr <| .inr <|
            .inl ⟨n, k, spec, p, f, rfl, h1, h2, h3, h4⟩⟩
      | addMirror r =>
        rcases addMirror_cases c reply n r with h' | ⟨spec, rs, i, h1, h2, h3, h4, h5, h6, h7⟩
        · exact .inl ⟨h'.1, fun h'' => absurd h'' h'.2⟩
        · exact .inr ⟨h7, .inr <| .inr <| .inr <| .inr <| .inr <| .inr <| .inr <|
            .inl ⟨n, r, spec, rs, i, rfl, h1, h2, h3, h4, h5, h6⟩⟩
  | deleteTopic n f =>
    rcases deleteTopic_cases auth c reply n f with h | ⟨spec, h1, h2, h3, h4, h5⟩
    · exact .inl ⟨h.1, fun h' => absurd h' h.2⟩
    · exact .inr ⟨h5, .inr <| .inr <| .inr <| .inr <| .inr <| .inr <| .inr <| .inr <|
        .inl ⟨n, f, spec, rfl, h1, h2, h3, h4⟩⟩
  | deleteCustomSpu k =>
    rcases deleteCustomSpu_cases auth c reply k with h | ⟨n, spec, h1, h2, h3, h4, h5⟩
    · exact .inl ⟨h.1, fun h' => absurd h' h.2⟩
    · exact .inr ⟨h5, .inr <| .inr <| .inr <| .inr <| .inr <| .inr <| .inr <| .inr <| .inr <|
        .inl ⟨k, n, spec, rfl, h1, h2, h3, h4⟩⟩
  | deleteSpg n =>
    rcases deleteSpg_cases auth c reply n with h | ⟨h1, h2, h3⟩
    · exact .inl ⟨h.1, fun h' => absurd h' h.2⟩
    · exact .inr ⟨h3, .inr <| .inr <| .inr <| .inr <| .inr <| .inr <| .inr <| .inr <| .inr <| .inr <|
        .inl ⟨n, rfl, h2, h1⟩⟩
  | deleteSmartModule n =>
    rcases deleteSmartModule_cases env auth c reply n with h | ⟨key, h1, h2, h3, h4⟩
    · exact .inl ⟨h.1, fun h' => absurd h' h.2⟩
    · exact .inr ⟨h4, .inr <| .inr <| .inr <| .inr <| .inr <| .inr <| .inr <| .inr <| .inr <| .inr <|
        .inr <| .inl ⟨n, key, rfl, h1, h3, h2⟩⟩
  | deleteTableFormat n =>
    rcases deleteTableFormat_cases auth c reply n with h | ⟨h1, h2, h3⟩
    · exact .inl ⟨h.1, fun h' => absurd h' h.2⟩
    · exact .inr ⟨h3, .inr <| .inr <| .inr <| .inr <| .inr <| .inr <| .inr <| .inr <| .inr <| .inr <|
        .inr <| .inr <| .inl ⟨n, rfl, h2, h1⟩⟩
  | deleteMirror n =>
    rcases deleteMirror_cases c reply n with h | ⟨h1, h2, h3⟩
    · exact .inl ⟨h.1, fun h' => absurd h' h.2⟩
    · exact .inr ⟨h3, .inr <| .inr <| .inr <| .inr <| .inr <| .inr <| .inr <| .inr <| .inr <| .inr <|
        .inr <| .inr <| .inr <| .inl ⟨n, rfl, h2, h1⟩⟩
  | list ty f sys =>
    have h : (list env auth c ty f sys).1 = [] ∧ ¬ Succeeds (list env auth c ty f sys).2 := by
      unfold list guardedList guardedListOpen Succeeds
      constructor
      · grind
      · rintro ⟨n, h⟩; grind
    exact .inl ⟨h.1, fun h' => absurd h' h.2⟩
  | watch ty =>
    have h : (watch (V := V) ty).1 = [] ∧ ¬ Succeeds (watch (V := V) ty).2 := by
      unfold watch Succeeds
      constructor
      · grind
      · rintro ⟨n, h⟩; grind
    exact .inl ⟨h.1, fun h' => absurd h' h.2⟩
  | mirrorConnect r =>
    have h : ((mirrorConnect auth c r).1 = [] ∨ ∃ b, (mirrorConnect auth c r).1 = [.pairing r b])
        ∧ ¬ Succeeds (mirrorConnect auth c r).2 := by
      unfold mirrorConnect Succeeds
      constructor
      · grind
      · rintro ⟨n, h⟩; grind
    rcases h with ⟨h | ⟨b, h⟩, h2⟩
    · exact .inl ⟨h, fun h' => absurd h' h2⟩
    · exact .inr ⟨fun h' => absurd h' h2, .inr <| .inr <| .inr <| .inr <| .inr <| .inr <| .inr <|
        .inr <| .inr <| .inr <| .inr <| .inr <| .inr <| .inr ⟨r, b, rfl, h⟩⟩

/-! ### Theorems -/

/-- **C68, one write.**  No request of the public API sends more than one write. -/
theorem C68_one_write (env : Env V) (auth : AuthContext) (c : Cluster V) (reply : Reply)
    (req : Request V) : (handle env auth c reply req).1.length ≤ 1 := by
  rcases handle_cases env auth c reply req with ⟨h, _⟩ | ⟨_, h⟩
  · simp [h]
  · rcases h with ⟨_, _, _, h, _⟩ | ⟨_, _, _, _, h⟩ | ⟨_, _, _, _, h, _⟩ | ⟨_, _, _, _, h⟩
      | ⟨_, _, _, _, h, _⟩ | ⟨_, _, _, _, h, _⟩ | ⟨_, _, _, _, _, _, _, _, _, h⟩
      | ⟨_, _, _, _, _, _, _, _, _, _, _, h⟩ | ⟨_, _, _, _, _, _, _, h⟩ | ⟨_, _, _, _, _, _, _, h⟩
      | ⟨_, _, _, h⟩ | ⟨_, _, _, _, _, h⟩ | ⟨_, _, _, h⟩ | ⟨_, _, _, h⟩ | ⟨_, _, _, h⟩ <;> simp [h]

/-- the request asks to delete something -/
def isDelete : Request V → Bool
  | .deleteTopic .. | .deleteCustomSpu .. | .deleteSpg .. | .deleteSmartModule .. | .deleteTableFormat ..
  | .deleteMirror .. => true
  | _ => false

/-- what applying a single deletion does -/
theorem deleted_frame (c c' : Cluster V) (e : Effect V) (es : List (Effect V)) (kind : AdminKind)
    (name : Text) (hes : es = [e]) (hc : c' = applyAll c es)
    (he : (e = .delTopic name ∧ kind = .topic) ∨ (e = .delSpu name ∧ kind = .spu)
      ∨ (e = .delSpg name ∧ kind = .spg) ∨ (e = .delSmartModule name ∧ kind = .smartModule)
      ∨ (e = .delTableFormat name ∧ kind = .tableFormat) ∨ (e = .delMirror name ∧ kind = .mirror)) :
    objectAt c' kind name = none ∧ ∀ k m, (k, m) ≠ (kind, name) → objectAt c' k m = objectAt c k m := by
  subst hes hc
  have hx : applyAll c [e] = e.apply c := rfl
  rw [hx]
  rcases he with ⟨rfl, rfl⟩ | ⟨rfl, rfl⟩ | ⟨rfl, rfl⟩ | ⟨rfl, rfl⟩ | ⟨rfl, rfl⟩ | ⟨rfl, rfl⟩ <;>
    refine ⟨by simp [objectAt, Effect.apply, get_delAt], fun k m hn =>
      Classical.byContradiction fun h' => ?_⟩ <;>
    (have := objectAt_apply c k m _ h'
     simp at this
     simp [this] at hn)

theorem get_isSome_of_mem {α : Type} {l : List (Text × α)} {n : Text} {x : α} (h : (n, x) ∈ l) :
    (Admin.get l n).isSome = true := by
  unfold Admin.get
  rw [Option.isSome_map, List.find?_isSome]
  exact ⟨(n, x), h, by simp⟩

/-- **C68, deleting.**  A request to delete, if it writes at all, removes one object it names, which existed;
every other object is left as it was. -/
theorem C68_deleted (env : Env V) (auth : AuthContext) (c : Cluster V) (reply : Reply)
    (req : Request V) (hreq : isDelete req = true) (hw : (handle env auth c reply req).1 ≠ []) :
    ∃ kind name, Deletes env.semver c req kind name ∧ (objectAt c kind name).isSome = true
      ∧ objectAt (applyAll c (handle env auth c reply req).1) kind name = none
      ∧ ∀ k m, (k, m) ≠ (kind, name) →
        objectAt (applyAll c (handle env auth c reply req).1) k m = objectAt c k m := by
  rcases handle_cases env auth c reply req with ⟨h, _⟩ | ⟨_, h⟩
  · exact absurd h hw
  · rcases h with ⟨_, _, rfl, _⟩ | ⟨_, _, _, rfl, _⟩ | ⟨_, _, _, rfl, _⟩ | ⟨_, _, _, rfl, _⟩
      | ⟨_, _, _, rfl, _⟩ | ⟨_, _, _, rfl, _⟩ | ⟨_, _, _, _, _, rfl, _⟩
      | ⟨_, _, _, _, _, rfl, _⟩ | ⟨n, f, s, rfl, h1, _, _, h⟩ | ⟨key, n, s, rfl, h1, _, h2, h⟩
      | ⟨n, rfl, h1, h⟩ | ⟨n, key, rfl, h1, h2, h⟩ | ⟨n, rfl, h1, h⟩ | ⟨n, rfl, h1, h⟩
      | ⟨_, _, rfl, _⟩ <;> 
      first | (simp [isDelete] at hreq; done) | (simp [creates] at hreq; done) | skip
    · exact ⟨.topic, n, ⟨rfl, rfl⟩, by simp [objectAt, h1],
        deleted_frame c _ _ _ _ _ h rfl (by simp)⟩
    · refine ⟨.spu, n, ?_, by simpa [objectAt] using get_isSome_of_mem h1,
        deleted_frame c _ _ _ _ _ h rfl (by simp)⟩
      rcases h2 with ⟨rfl, _⟩ | rfl
      · exact ⟨rfl, rfl⟩
      · exact ⟨rfl, s, h1, rfl⟩
    · exact ⟨.spg, n, ⟨rfl, rfl⟩, by simpa [objectAt] using h1,
        deleted_frame c _ _ _ _ _ h rfl (by simp)⟩
    · exact ⟨.smartModule, _, ⟨rfl, key, h1, rfl⟩, by simpa [objectAt] using h2,
        deleted_frame c _ _ _ _ _ h rfl (by simp)⟩
    · exact ⟨.tableFormat, n, ⟨rfl, rfl⟩, by simpa [objectAt] using h1,
        deleted_frame c _ _ _ _ _ h rfl (by simp)⟩
    · exact ⟨.mirror, n, ⟨rfl, rfl⟩, by simpa [objectAt] using h1,
        deleted_frame c _ _ _ _ _ h rfl (by simp)⟩

/-- what a topic should be after an update: the number of partitions grows by the number asked for, or one
remote cluster is added to the list; nothing else about it changes.  (`none`: the update does not fit the
topic.) -/
def updatedTopic (s : TopicSpec) : TopicUpdate → Option TopicSpec
  | .addPartitions k =>
    match s.replicas with
    | .computed p f => some { s with replicas := .computed (p + k) f }
    | _ => none
  | .addMirror r =>
    match s.replicas with
    | .home rs => some { s with replicas := .home (rs ++ [r]) }
    | _ => none

/-- the number of partitions, 0 if they are not computed -/
def partitionCount (s : TopicSpec) : Nat := match s.replicas with | .computed p _ => p | _ => 0

/-- **C68, changing a topic.**  A request to change a topic, if it writes at all, was for an existing topic
that is not a system topic; afterwards the topic is as asked for and every other object is as it was; a
remote cluster is added only if it is registered as one and was not on the list.  Missing: a number of
partitions of 2^32 or more. -/
theorem C68_updated_partial (env : Env V) (auth : AuthContext) (c : Cluster V) (reply : Reply)
    (n : Text) (a : TopicUpdate) (hw : (handle env auth c reply (.updateTopic n a)).1 ≠ [])
    (hsmall : ∀ s k, Admin.get c.topics n = some s → a = .addPartitions k →
      partitionCount s + k < 2 ^ 32) :
    ∃ s s', Admin.get c.topics n = some s ∧ s.system = false ∧ updatedTopic s a = some s'
      ∧ (∀ r, a = .addMirror r → (∃ i, Admin.get c.mirrors r = some (.remote i))
          ∧ ∀ rs, s.replicas = .home rs → r ∉ rs)
      ∧ objectAt (applyAll c (handle env auth c reply (.updateTopic n a)).1) .topic n
          = some (.topic s')
      ∧ ∀ k m, (k, m) ≠ (.topic, n) →
        objectAt (applyAll c (handle env auth c reply (.updateTopic n a)).1) k m = objectAt c k m := by
  have frame : ∀ s, (handle env auth c reply (.updateTopic n a)).1 = [.putTopic n s] →
      objectAt (applyAll c (handle env auth c reply (.updateTopic n a)).1) .topic n = some (.topic s)
      ∧ ∀ k m, (k, m) ≠ (AdminKind.topic, n) →
        objectAt (applyAll c (handle env auth c reply (.updateTopic n a)).1) k m = objectAt c k m := by
    intro s h
    rw [h]
    have hx : applyAll c [Effect.putTopic n s] = (Effect.putTopic n s).apply c := rfl
    rw [hx]
    refine ⟨by simp [objectAt, Effect.apply, get_putAt], fun k m hn =>
      Classical.byContradiction fun h' => ?_⟩
    have := objectAt_apply c k m _ h'
    simp at this
    simp [this] at hn
  rcases handle_cases env auth c reply (.updateTopic n a) with ⟨h, _⟩ | ⟨_, h⟩
  · exact absurd h hw
  · rcases h with ⟨_, _, he, _⟩ | ⟨_, _, _, he, _⟩ | ⟨_, _, _, he, _⟩ | ⟨_, _, _, he, _⟩
      | ⟨_, _, _, he, _⟩ | ⟨_, _, _, he, _⟩ | ⟨n', k, s, p, f, he, h1, h2, h3, h⟩
      | ⟨n', r, s, rs, i, he, h1, h2, h3, h4, h5, h⟩ | ⟨_, _, _, he, _⟩ | ⟨_, _, _, he, _⟩
      | ⟨_, he, _⟩ | ⟨_, _, he, _⟩ | ⟨_, he, _⟩ | ⟨_, he, _⟩ | ⟨_, _, he, _⟩ <;>
      first | (simp at he; done) | skip
    · cases he
      have hs := hsmall s k h1 rfl
      rw [partitionCount, h3] at hs
      dsimp only at hs
      rw [Nat.mod_eq_of_lt hs] at h
      exact ⟨s, _, h1, h2, by rw [updatedTopic, h3], nofun, frame _ h⟩
    · cases he
      refine ⟨s, _, h1, h2, by rw [updatedTopic, h3], ?_, frame _ h⟩
      intro r' hr'
      cases hr'
      refine ⟨⟨i, h5⟩, ?_⟩
      intro rs' hrs'
      rw [h3] at hrs'
      cases hrs'
      exact h4

/-- **C68, the answer.**  Success is reported only for a trial, or when the one write was sent and the
store was seen to change; a request that is refused (or not understood) writes nothing. -/
theorem C68_answer (env : Env V) (auth : AuthContext) (c : Cluster V) (reply : Reply)
    (req : Request V) :
    ((∃ n, (handle env auth c reply req).2 = .status n .ok) →
      isDryRun req = true ∨ ((handle env auth c reply req).1 ≠ [] ∧ reply.stored = true))
    ∧ (∀ n code, (handle env auth c reply req).2 = .status n code →
      code ∉ [Code.ok, .storeError, .notProvisioned] → (handle env auth c reply req).1 = []) := by
  constructor
  · intro h
    rcases handle_cases env auth c reply req with ⟨_, h2⟩ | ⟨h1, h2⟩
    · exact .inl (h2 h)
    · refine .inr ⟨?_, h1 h⟩
      rcases h2 with ⟨_, _, _, h, _⟩ | ⟨_, _, _, _, h⟩ | ⟨_, _, _, _, h, _⟩ | ⟨_, _, _, _, h⟩
        | ⟨_, _, _, _, h, _⟩ | ⟨_, _, _, _, h, _⟩ | ⟨_, _, _, _, _, _, _, _, _, h⟩
        | ⟨_, _, _, _, _, _, _, _, _, _, _, h⟩ | ⟨_, _, _, _, _, _, _, h⟩ | ⟨_, _, _, _, _, _, _, h⟩
        | ⟨_, _, _, h⟩ | ⟨_, _, _, _, _, h⟩ | ⟨_, _, _, h⟩ | ⟨_, _, _, h⟩ | ⟨_, _, _, h⟩ <;> simp [h]
  · intro n code h hc
    simp only [List.mem_cons, List.not_mem_nil, or_false, not_or] at hc
    obtain ⟨h1, h2, h3⟩ := hc
    cases req <;> dsimp only [handle] at h ⊢
    · unfold createTopic guarded at h ⊢; grind
    · unfold createSpg guarded store at h ⊢; grind
    · unfold createCustomSpu guardedOpen store at h ⊢; grind
    · unfold createSmartModule guarded store at h ⊢; grind
    · unfold createTableFormat guarded store at h ⊢; grind
    · unfold createMirror at h ⊢; grind
    · unfold updateTopic guarded at h ⊢
      rename_i nm a
      rcases ha : auth.instanceAction .topic .update nm with _ | (_ | _) <;> rw [ha] at h
      · cases a with
        | addPartitions k =>
          dsimp only at h ⊢
          unfold addPartitions at h ⊢; grind
        | addMirror r =>
          dsimp only at h ⊢
          rcases addMirror_cases c reply nm r with h' | ⟨s, rs, i, g1, g2, g3, g4, g5, g6, _⟩
          · exact h'.1
          · exfalso
            unfold addMirror at h
            rw [g1] at h; dsimp only at h
            rw [g5] at h; dsimp only at h
            rw [g3] at h; dsimp only at h
            rw [if_neg g4, g2, if_neg (by simp)] at h
            grind
    · unfold deleteTopic guarded store at h ⊢; grind
    · unfold deleteCustomSpu guarded dropSpu store at h ⊢; grind
    · unfold deleteSpg guarded store at h ⊢; grind
    · unfold deleteSmartModule guarded store at h ⊢; grind
    · unfold deleteTableFormat guarded store at h ⊢; grind
    · unfold deleteMirror store at h ⊢; grind
    · unfold list guardedList guardedListOpen at h ⊢; grind
    · unfold watch at h ⊢; grind
    · unfold mirrorConnect at h ⊢; grind

/-- **C68, protected objects.**  No request changes or removes a system topic unless it is a forced
deletion of it; none removes a topic mirrored from another cluster or a managed SPU. -/
theorem C68_protected (env : Env V) (auth : AuthContext) (c : Cluster V) (reply : Reply)
    (req : Request V) (n : Text) :
    (∀ s, Admin.get c.topics n = some s → s.system = true → req ≠ .deleteTopic n true →
      Admin.get (applyAll c (handle env auth c reply req).1).topics n = some s)
    ∧ (∀ s x, Admin.get c.topics n = some s → s.replicas = .remote x →
      Admin.get (applyAll c (handle env auth c reply req).1).topics n = some s)
    ∧ (∀ s, s.custom = false → (∀ s', (n, s') ∈ c.spus → s' = s) → Admin.get c.spus n = some s →
      Admin.get (applyAll c (handle env auth c reply req).1).spus n = some s) := by
  rcases handle_cases env auth c reply req with ⟨h, _⟩ | ⟨_, h⟩
  · rw [h]
    exact ⟨fun s h _ _ => h, fun s x h _ => h, fun s _ _ h => h⟩
  · rcases h with ⟨m, t, rfl, h, _, hn⟩ | ⟨_, _, _, _, h⟩ | ⟨m, i, r, _, h, hn, _⟩ | ⟨_, _, _, _, h⟩
      | ⟨_, _, _, _, h, _⟩ | ⟨_, _, _, _, h, _⟩ | ⟨m, k, t, p, f, _, h1, h2, h3, h⟩
      | ⟨m, r, t, rs, i, _, h1, h2, h3, _, _, h⟩ | ⟨m, f, t, rfl, h1, h2, h3, h⟩
      | ⟨k, m, t, _, h1, h2, _, h⟩
      | ⟨_, _, _, h⟩ | ⟨_, _, _, _, _, h⟩ | ⟨_, _, _, h⟩ | ⟨_, _, _, h⟩ | ⟨_, _, _, h⟩ <;>
      (rw [h]
       simp only [applyAll, List.foldl_cons, List.foldl_nil, Effect.apply, get_putAt, get_delAt]
       refine ⟨?_, ?_, ?_⟩ <;> grind)

/-- **C68, nothing is replaced (part).**  A request to create a topic, a custom SPU, a table format or a
mirror, if it writes, was for a name that was free (for a mirror: not that of a remote cluster), and an SPU
for an id that was free.  Missing: SmartModules, SPU groups and home mirrors. -/
theorem C68_never_replaces_partial (env : Env V) (auth : AuthContext) (c : Cluster V) (reply : Reply)
    (req : Request V) (kind : AdminKind) (name : Text) (o : AdminObject V)
    (hreq : creates env.semver req = some (kind, name, o))
    (hw : (handle env auth c reply req).1 ≠ []) :
    (kind ∈ [AdminKind.topic, .spu, .tableFormat] → objectAt c kind name = none)
    ∧ (kind = .mirror → ∀ i, objectAt c kind name ≠ some (.mirror (.remote i)))
    ∧ (∀ s, o = .spu s → ∀ m s', (m, s') ∈ c.spus → s'.id ≠ s.id) := by
  rcases handle_cases env auth c reply req with ⟨h, _⟩ | ⟨_, h⟩
  · exact absurd h hw
  · rcases h with ⟨_, _, rfl, _, _, h⟩ | ⟨_, _, _, rfl, _⟩ | ⟨_, _, _, rfl, _, h, h2⟩ | ⟨_, _, _, rfl, _⟩
      | ⟨_, _, _, rfl, _, h⟩ | ⟨_, _, _, rfl, _, h⟩ | ⟨_, _, _, _, _, rfl, _⟩
      | ⟨_, _, _, _, _, rfl, _⟩ | ⟨n, f, s, rfl, _⟩ | ⟨key, n, s, rfl, _⟩
      | ⟨n, rfl, _⟩ | ⟨n, key, rfl, _⟩ | ⟨n, rfl, _⟩ | ⟨n, rfl, _⟩
      | ⟨_, _, rfl, _⟩ <;> 
      first | (simp [isDelete] at hreq; done) | (simp [creates] at hreq; done) | skip
    all_goals
      cases hreq
    · exact ⟨fun _ => by simp [objectAt, h], nofun, nofun⟩
    · exact ⟨nofun, nofun, nofun⟩
    · exact ⟨fun _ => by simp [objectAt, h], nofun, fun s hs m s' hm => by cases hs; exact h2 _ hm⟩
    · exact ⟨nofun, nofun, nofun⟩
    · exact ⟨fun _ => by simp [objectAt, h], nofun, nofun⟩
    · refine ⟨nofun, fun _ i => ?_, nofun⟩
      have := h i
      simp only [objectAt]
      cases hx : Admin.get c.mirrors name with
      | none => simp
      | some y => rw [hx] at this; simpa using this

/-- **C68, trials (part).**  A trial of creating a topic or a custom SPU writes nothing.  Missing: the other
kinds of objects. -/
theorem C68_dry_run_partial (env : Env V) (auth : AuthContext) (c : Cluster V) (reply : Reply)
    (req : Request V) (kind : AdminKind) (name : Text) (o : AdminObject V)
    (hreq : creates env.semver req = some (kind, name, o)) (hkind : kind = .topic ∨ kind = .spu)
    (hdry : isDryRun req = true) : (handle env auth c reply req).1 = [] := by
  rcases handle_cases env auth c reply req with ⟨h, _⟩ | ⟨_, h⟩
  · exact h
  · rcases h with ⟨_, _, rfl, _⟩ | ⟨_, _, _, rfl, _⟩ | ⟨_, _, _, rfl, _⟩ | ⟨_, _, _, rfl, _⟩
      | ⟨_, _, _, rfl, _⟩ | ⟨_, _, _, rfl, _⟩ | ⟨_, _, _, _, _, rfl, _⟩
      | ⟨_, _, _, _, _, rfl, _⟩ | ⟨n, f, s, rfl, _⟩ | ⟨key, n, s, rfl, _⟩
      | ⟨n, rfl, _⟩ | ⟨n, key, rfl, _⟩ | ⟨n, rfl, _⟩ | ⟨n, rfl, _⟩
      | ⟨_, _, rfl, _⟩ <;> first | (simp [creates] at hreq; done) | (simp [isDryRun] at hdry; done) | skip
    all_goals
      cases hreq
      rcases hkind with h | h <;> exact nomatch h

/-! ### Requests one after the other -/

/-- requests served one after the other, each by somebody with some permissions, each write carried out
before the next request is looked at -/
def serve (env : Env V) (c : Cluster V) : List (AuthContext × Reply × Request V) → Cluster V
  | [] => c
  | (auth, reply, req) :: rest => serve env (applyAll c (handle env auth c reply req).1) rest

/-- every SPU has a name and an id of its own -/
def SpusDistinct (c : Cluster V) : Prop :=
  c.spus.Pairwise (fun a b => a.1 ≠ b.1 ∧ a.2.id ≠ b.2.id)

/-- **C68, ids of SPUs.**  However many requests are served one after the other, SPUs keep names and
ids of their own. -/
theorem C68_spu_ids (env : Env V) (c : Cluster V) (reqs : List (AuthContext × Reply × Request V))
    (hc : SpusDistinct c) : SpusDistinct (serve env c reqs) := by
  induction reqs generalizing c with
  | nil => exact hc
  | cons r rest ih =>
    obtain ⟨auth, reply, req⟩ := r
    refine ih _ ?_
    rcases handle_cases env auth c reply req with ⟨h, _⟩ | ⟨_, h⟩
    · rw [h]; exact hc
    · rcases h with ⟨_, _, _, h, _⟩ | ⟨_, _, _, _, h⟩ | ⟨n, i, r, _, h, h1, h2⟩ | ⟨_, _, _, _, h⟩
        | ⟨_, _, _, _, h, _⟩ | ⟨_, _, _, _, h, _⟩ | ⟨_, _, _, _, _, _, _, _, _, h⟩
        | ⟨_, _, _, _, _, _, _, _, _, _, _, h⟩ | ⟨_, _, _, _, _, _, _, h⟩
        | ⟨_, n, _, _, _, _, _, h⟩
        | ⟨_, _, _, h⟩ | ⟨_, _, _, _, _, h⟩ | ⟨_, _, _, h⟩ | ⟨_, _, _, h⟩ | ⟨_, _, _, h⟩ <;> rw [h] <;>
        first | exact hc | skip
      · refine List.Pairwise.cons ?_ (hc.sublist List.filter_sublist)
        intro e he
        obtain ⟨he1, he2⟩ := List.mem_filter.mp he
        exact ⟨fun e' => (by simpa using he2 : e.1 ≠ n) e'.symm, fun e' => h2 e he1 e'.symm⟩
      · exact hc.sublist List.filter_sublist

/-! ### Lists -/

/-- the objects of a type that a list without filters should show; topics are shown with or without the
system topics -/
def Listable (c : Cluster V) (system : Bool) : ObjectType → Text → Prop
  | .topic, n => ∃ s, (n, s) ∈ c.topics ∧ s.system = system
  | .spu, n => ∃ s, (n, s) ∈ c.spus
  | .customSpu, n => ∃ s, (n, s) ∈ c.spus ∧ s.custom = true
  | .spuGroup, n => ∃ s, (n, s) ∈ c.spgs
  | .tableFormat, n => ∃ s, (n, s) ∈ c.tableFormats
  | .partition, n => (n, system) ∈ c.partitions
  | .mirror, n => ∃ s, (n, s) ∈ c.mirrors
  | .smartModule, n => ∃ s, (n, s) ∈ c.smartModules
  | _, _ => False

/-- there are no filters, or one of them occurs in the name -/
def FilterAdmits (filters : List Text) (n : Text) : Prop :=
  filters = [] ∨ ∃ f ∈ filters, ∃ before after, n = before ++ f ++ after

theorem passes_iff (filters : List Text) (n : Text) :
    passes filters n = true ↔ FilterAdmits filters n := by
  unfold passes FilterAdmits
  simp only [Bool.or_eq_true, List.isEmpty_iff, List.any_eq_true, contains_iff]

/-- **C68, lists (part).**  When reading is permitted, a list of topics, SPUs, custom SPUs, SPU groups or
table formats has exactly the objects of that type whose name passes the filters; without filters this
holds of partitions, mirrors and SmartModules as well.  Missing: filters for the latter. -/
theorem C68_list_partial (env : Env V) (auth : AuthContext) (c : Cluster V) (reply : Reply)
    (ty : ObjectType) (filters : List Text) (system : Bool)
    (hty : ty ∈ [ObjectType.topic, .spu, .customSpu, .spuGroup, .tableFormat]
      ∨ (ty ∈ [ObjectType.partition, .mirror, .smartModule] ∧ filters = []))
    (hauth : auth.typeAction ty .read = some true) :
    ∃ names, (handle env auth c reply (.list ty filters system)).2 = .listed ty names
      ∧ ∀ n, n ∈ names ↔ Listable c system ty n ∧ FilterAdmits filters n := by
  have proj : ∀ {α : Type} (l : List (Text × α)) (n : Text), n ∈ l.map (·.1) ↔ ∃ s, (n, s) ∈ l := by
    intro α l n
    constructor
    · intro h
      obtain ⟨e, h1, h2⟩ := List.mem_map.mp h
      exact ⟨e.2, by rw [← h2]; exact h1⟩
    · rintro ⟨s, h⟩
      exact List.mem_map.mpr ⟨_, h, rfl⟩
  rcases hty with h | ⟨h, rfl⟩
  · simp only [List.mem_cons, List.not_mem_nil, or_false] at h
    rcases h with rfl | rfl | rfl | rfl | rfl <;>
      (dsimp only [handle, list, guardedList, guardedListOpen]
       rw [hauth]
       refine ⟨_, rfl, fun n => ?_⟩
       rw [proj]
       simp only [List.mem_filter, Listable, Bool.and_eq_true, decide_eq_true_eq, passes_iff]
       grind)
  · have hadm : ∀ n, FilterAdmits [] n := fun n => .inl rfl
    simp only [List.mem_cons, List.not_mem_nil, or_false] at h
    rcases h with rfl | rfl | rfl
    · dsimp only [handle, list, guardedList, guardedListOpen]
      rw [hauth]
      refine ⟨_, rfl, fun n => ?_⟩
      rw [proj]
      simp only [List.mem_filter, Listable, decide_eq_true_eq]
      grind
    · refine ⟨_, rfl, fun n => ?_⟩
      rw [proj]
      exact ⟨fun h => ⟨h, hadm n⟩, fun h => h.1⟩
    · dsimp only [handle, list, parseKeys]
      rw [hauth]
      refine ⟨_, rfl, fun n => ?_⟩
      unfold smartModuleNames
      rw [proj]
      simp only [List.mem_filter, Listable, List.isEmpty_nil, Bool.true_or, and_true]
      exact ⟨fun h => ⟨h, hadm n⟩, fun h => h.1⟩

end

/-! ### Examples, and where the code falls short -/

/-- a cluster with one object of every kind -/
def fullCluster : Cluster Unit where
  topics := [("orders".toList, ⟨.computed 2 1, false, none, 0⟩), ("offsets".toList, ⟨.computed 1 1, true, none, 0⟩),
    ("edge".toList, ⟨.remote 0, false, none, 0⟩), ("fan".toList, ⟨.home [], false, none, 0⟩)]
  spus := [("custom-1".toList, ⟨1, true, 0⟩), ("main-0".toList, ⟨0, false, 0⟩)]
  spgs := [("main".toList, 1)]
  smartModules := [("upper".toList, ⟨none, 7⟩)]
  tableFormats := [("wide".toList, 3)]
  mirrors := [("edge-1".toList, .remote "edge-1".toList), ("home".toList, .home 4)]
  partitions := [("orders-0".toList, false), ("orders-1".toList, false), ("offsets-0".toList, true)]

/-- non-vacuity of `C68_created`, `C68_never_replaces_partial`, `C68_answer` -/
example : handle lenientEnv rootContext fullCluster anyReply
      (.createTopic "new".toList ⟨.computed 3 1, false, none, 0⟩ false)
    = ([.putTopic "new".toList ⟨.computed 3 1, false, none, 0⟩], .status "new".toList .ok) := by decide

example : handle lenientEnv rootContext fullCluster anyReply
      (.createTopic "orders".toList ⟨.computed 3 1, false, none, 0⟩ false)
    = ([], .status "orders".toList .alreadyExists) := by decide

/-- an SPU with an id that is in use is refused -/
example : handle lenientEnv rootContext fullCluster anyReply
      (.createCustomSpu "custom-2".toList 1 0 false) = ([], .status "custom-2".toList .alreadyExists) := by
  decide

/-- non-vacuity of `C68_dry_run_partial` -/
example : handle lenientEnv rootContext fullCluster anyReply
      (.createTopic "new".toList ⟨.computed 3 1, false, none, 0⟩ true)
    = ([], .status "new".toList .ok) := by decide

/-- non-vacuity of `C68_deleted`: by name and by id -/
example : handle lenientEnv rootContext fullCluster anyReply (.deleteTopic "orders".toList false)
    = ([.delTopic "orders".toList], .status "orders".toList .ok) := by decide

example : handle lenientEnv rootContext fullCluster anyReply (.deleteCustomSpu (.id 1))
    = ([.delSpu "custom-1".toList], .status "custom-1".toList .ok) := by decide

/-- non-vacuity of `C68_protected` -/
example : handle lenientEnv rootContext fullCluster anyReply (.deleteTopic "offsets".toList false)
    = ([], .status "offsets".toList .systemDeletion)
  ∧ handle lenientEnv rootContext fullCluster anyReply (.deleteTopic "edge".toList true)
    = ([], .status "edge".toList .deleteFromRemote)
  ∧ handle lenientEnv rootContext fullCluster anyReply (.deleteCustomSpu (.id 0))
    = ([], .status "main-0".toList .managedSpu) := by decide

/-- non-vacuity of `C68_updated_partial` -/
example : handle lenientEnv rootContext fullCluster anyReply
      (.updateTopic "orders".toList (.addPartitions 3))
    = ([.putTopic "orders".toList ⟨.computed 5 1, false, none, 0⟩], .status "orders".toList .ok)
  ∧ handle lenientEnv rootContext fullCluster anyReply
      (.updateTopic "fan".toList (.addMirror "edge-1".toList))
    = ([.putTopic "fan".toList ⟨.home ["edge-1".toList], false, none, 0⟩], .status "fan".toList .ok) := by
  decide

/-- non-vacuity of `C68_spu_ids` -/
example : SpusDistinct fullCluster := by unfold SpusDistinct fullCluster; simp

/-- non-vacuity of `C68_list_partial` -/
example : handle lenientEnv rootContext fullCluster anyReply (.list .topic ["e".toList] false)
    = ([], .listed .topic ["orders".toList, "edge".toList]) := by decide

/-- **C68 violated: objects are replaced.**  Creating a SmartModule, an SPU group or a home mirror does not
look whether there is one of that name already (smartmodule/create.rs:43-89, spg/create.rs:46-85,
mirror/register.rs:22-29): the old one is overwritten and success is reported. -/
theorem C68_violated_replace :
    (∃ c' r, handle lenientEnv rootContext fullCluster anyReply
        (.createSmartModule "upper".toList ⟨none, 8⟩ false) = (c', r)
      ∧ objectAt fullCluster .smartModule "upper".toList = some (.smartModule ⟨none, 7⟩)
      ∧ objectAt (applyAll fullCluster c') .smartModule "upper".toList = some (.smartModule ⟨none, 8⟩)
      ∧ r = .status "upper".toList .ok)
    ∧ (∃ c' r, handle lenientEnv rootContext fullCluster anyReply
        (.createSpg "main".toList 2 false) = (c', r)
      ∧ objectAt fullCluster .spg "main".toList = some (.spg 1)
      ∧ objectAt (applyAll fullCluster c') .spg "main".toList = some (.spg 2)
      ∧ r = .status "main".toList .ok)
    ∧ (∃ c' r, handle lenientEnv rootContext fullCluster anyReply
        (.createMirror "home".toList (.home 5) false) = (c', r)
      ∧ objectAt fullCluster .mirror "home".toList = some (.mirror (.home 4))
      ∧ objectAt (applyAll fullCluster c') .mirror "home".toList = some (.mirror (.home 5))
      ∧ r = .status "home".toList .ok) :=
  ⟨⟨_, _, rfl, rfl, rfl, rfl⟩, ⟨_, _, rfl, rfl, rfl, rfl⟩, ⟨_, _, rfl, rfl, rfl, rfl⟩⟩

/-- **C68 violated: trials are carried out.**  Only topics and custom SPUs look at `dry_run`; a trial of
creating any other object creates it. -/
theorem C68_violated_dry_run :
    (handle lenientEnv rootContext fullCluster anyReply (.createSpg "new".toList 2 true)).1
      = [.putSpg "new".toList 2]
    ∧ (handle lenientEnv rootContext fullCluster anyReply
        (.createSmartModule "new".toList ⟨none, 8⟩ true)).1 = [.putSmartModule "new".toList ⟨none, 8⟩]
    ∧ (handle lenientEnv rootContext fullCluster anyReply (.createTableFormat "new".toList 2 true)).1
      = [.putTableFormat "new".toList 2]
    ∧ (handle lenientEnv rootContext fullCluster anyReply
        (.createMirror "new".toList (.remote "new".toList) true)).1
      = [.putMirror "new".toList (.remote "new".toList)] :=
  ⟨rfl, rfl, rfl, rfl⟩

/-- **C68 violated: adding partitions can remove them.**  The new number of partitions is computed modulo
2^32 (a release build; a debug build panics) and is not compared with the old one
(topic/update/add_partition.rs:50-56): adding 4294967295 partitions to a topic with two leaves one. -/
theorem C68_violated_partition_count :
    (handle lenientEnv rootContext fullCluster anyReply
        (.updateTopic "orders".toList (.addPartitions 4294967295)))
      = ([.putTopic "orders".toList ⟨.computed 1 1, false, none, 0⟩], .status "orders".toList .ok)
    ∧ objectAt fullCluster .topic "orders".toList = some (.topic ⟨.computed 2 1, false, none, 0⟩) :=
  ⟨rfl, rfl⟩

/-- **C68 violated: ignored filters.**  Lists of partitions and of mirrors have all of them, whatever the
filters (partition/mod.rs:30-60, mirror/list.rs:15-40). -/
theorem C68_violated_filters :
    handle lenientEnv rootContext fullCluster anyReply (.list .mirror ["home".toList] false)
      = ([], .listed .mirror ["edge-1".toList, "home".toList])
    ∧ handle lenientEnv rootContext fullCluster anyReply (.list .partition ["orders-1".toList] false)
      = ([], .listed .partition ["orders-0".toList, "orders-1".toList])
    ∧ ¬ FilterAdmits ["home".toList] "edge-1".toList := by
  refine ⟨rfl, rfl, fun h => ?_⟩
  have := (passes_iff _ _).mpr h
  revert this
  decide

/-- **C68 violated: two requests at the same time.**  Looking and writing are two steps and nothing is held
in between (topic/create.rs:36-76): two requests to create a topic of the same name, both looking before
either writes, are both answered with success, and the topic of the first is lost. -/
theorem C68_violated_race :
    ∃ n a b, a ≠ b
      ∧ (handle lenientEnv rootContext fullCluster anyReply (.createTopic n a false)).2 = .status n .ok
      ∧ (handle lenientEnv rootContext fullCluster anyReply (.createTopic n b false)).2 = .status n .ok
      ∧ objectAt (applyAll (applyAll fullCluster
            (handle lenientEnv rootContext fullCluster anyReply (.createTopic n a false)).1)
          (handle lenientEnv rootContext fullCluster anyReply (.createTopic n b false)).1) .topic n
        = some (.topic b) :=
  ⟨"new".toList, ⟨.computed 3 1, false, none, 0⟩, ⟨.computed 1 1, false, none, 0⟩, by decide, by decide,
    by decide, rfl⟩

/-- **C68 violated: two requests at the same time, ids.**  In the same way two custom SPUs with one id are
registered; `SpusDistinct` holds before and not after. -/
theorem C68_violated_race_ids :
    SpusDistinct fullCluster
    ∧ (handle lenientEnv rootContext fullCluster anyReply (.createCustomSpu "a".toList 9 0 false)).2
      = .status "a".toList .ok
    ∧ (handle lenientEnv rootContext fullCluster anyReply (.createCustomSpu "b".toList 9 0 false)).2
      = .status "b".toList .ok
    ∧ ¬ SpusDistinct (applyAll (applyAll fullCluster
          (handle lenientEnv rootContext fullCluster anyReply (.createCustomSpu "a".toList 9 0 false)).1)
        (handle lenientEnv rootContext fullCluster anyReply (.createCustomSpu "b".toList 9 0 false)).1) := by
  refine ⟨by unfold SpusDistinct fullCluster; simp, rfl, rfl, fun h => ?_⟩
  have := List.rel_of_pairwise_cons h (a' := ("a".toList, ⟨9, true, 0⟩)) (by decide)
  exact this.2 rfl

end Verif.Props
