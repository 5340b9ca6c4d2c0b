import Verif.Sc.SpuGroupsInv

/-!
# C79, C80: groups of brokers on Kubernetes

C79.  The ids of brokers are unique in the cluster.  A group of brokers takes the ids from `min_id` on; it is started
only after none of its ids was found to belong to a broker of somebody else.

C80.  A broker of a group computes for itself the id under which the controller has registered it, brokers of groups
have different names, and the registered private address is the address of the broker's pod.
-/

namespace Verif.Props

open Verif.Misc Verif.Sc.Groups

/-! ## C79 -/

/-- Specification: ids are unique among the registered brokers. -/
def C79_unique_ids (s : State) : Prop := ∀ e ∈ s.spus, ∀ f ∈ s.spus, e.2.id = f.2.id → e = f

/-- Specification: no broker of another owner has one of the `count` ids from `lo` on. -/
def C79_free (s : State) (uid : Nat) (lo : Int) (count : Nat) : Prop :=
  ∀ e ∈ s.spus, e.2.owner ≠ some uid → ∀ i < count, e.2.id ≠ lo + i

/-- Ids are unique in every run in which the groups were laid out without overlap: every group `n` keeps its first id
`p.base n` and never has more than `p.size n` brokers, these ranges do not overlap, and custom brokers are registered
with ids outside of them.  Missing (see the violations): the code does not enforce this. -/
theorem C79_unique_partial (p : Plan) (es : List Ev)
    (hd : ∀ n m r, .define n m r ∈ es → m = p.base n ∧ r ≤ p.size n)
    (hr : ∀ n id host, .register n id host ∈ es → ∀ m i, i < p.size m → id ≠ p.base m + i) :
    C79_unique_ids (run init es) := by
  have h0 : Unique p init := by
    refine ⟨?_, ?_, List.nodup_nil, ?_⟩ <;> intros <;> simp_all [init]
  have hg : AllGroups (fun n m r => m = p.base n ∧ r ≤ p.size n) init := by
    refine ⟨?_, ?_⟩ <;> intros <;> simp_all [init]
  have h := unique_run es init h0 hg hd hr
  intro e he f hf hid
  exact nodup_eq _ h.nodup e f he hf (h.unique e he f hf hid)

/-- A custom broker is only registered under an id that no other broker has. -/
theorem C79_custom (s : State) (n : Name) (id : Int) (host : Name)
    (h : (step s (.register n id host)).spus ≠ s.spus) : ∀ e ∈ s.spus, e.2.id ≠ id ∧ e.1 ≠ n := by
  simp only [step] at h
  split at h
  · exact absurd rfl h
  · rename_i hno
    simp only [Bool.or_eq_true, not_or, List.any_eq_true, not_exists, not_and, beq_iff_eq, Bool.not_eq_true,
      Option.isSome_eq_false_iff, Option.isNone_iff_eq_none] at hno
    exact fun e he => ⟨hno.2 e he, get_none hno.1 e he⟩

/-- A stateful set exists only for a group that was at some point found free of conflicts, with the specification
and the brokers of that moment (for ids that fit `i32`). -/
theorem C79_started_checked (es : List Ev) (hd : ∀ n m (r : Nat), .define n m r ∈ es → IsI32 m ∧ m + (r : Int) < 2 ^ 31)
    (n : Name) (g : Group) (h : (n, g) ∈ (run init es).sets) :
    ∃ pre post g', es = pre ++ .handle :: post ∧ (run init pre).work.head? = some (n, g') ∧
      C79_free (run init pre) g'.uid g'.minId g'.replicas := by
  obtain ⟨pre, post, g', rest, he, hw, _, hc⟩ := (hist es).sets (n, g) h
  refine ⟨pre, post, g', he, by rw [hw]; rfl, ?_⟩
  have hall := allGroups_run (P := fun _ m r => IsI32 m ∧ m + (r : Int) < 2 ^ 31) pre init
    (by refine ⟨?_, ?_⟩ <;> intros <;> simp_all [init])
    (fun n m r hm => hd n m r (by rw [he]; exact List.mem_append_left _ hm))
  obtain ⟨h1, h2⟩ := hall.work (n, g') (by rw [hw]; exact List.mem_cons_self ..)
  rw [wrap32_id (by unfold IsI32 at h1 ⊢; dsimp only at h1 h2; omega)] at hc
  intro e he' ho i hi hid
  exact isConflict_none hc e he' ho (by omega)

/-- A group in conflict is marked so, whatever was known about it (unless it had been reserved before). -/
theorem C79_conflict_found (s : State) (n : Name) (g g0 : Group) (rest : List (Name × Group))
    (hw : s.work = (n, g) :: rest) (hg : get s.groups n = some g0) (hs : g.status ≠ .reserved)
    (hfit : IsI32 (g.minId + g.replicas)) (hc : ¬ C79_free s g.uid g.minId g.replicas) :
    get (step s .handle).groups n = some { g0 with status := .invalid } := by
  have hsome : ∃ i, g.conflict s.spus = some i := by
    unfold Group.conflict
    rw [if_neg hs, wrap32_id hfit]
    cases hi : isConflict s.spus g.uid g.minId (g.minId + g.replicas) with
    | some i => exact ⟨i, rfl⟩
    | none =>
      exfalso
      apply hc
      intro e he ho i hi' hid
      exact isConflict_none hi e he ho (by omega)
  obtain ⟨i, hi⟩ := hsome
  simp only [step, hw, handleGroup, hi, handleGroup.setStatus, hg]
  exact get_put_self _ _ _

namespace C79

/-- Two groups, one custom broker. -/
def plan : Plan where
  base n := if n = "main".toList then 0 else 100
  size n := if n = "main".toList then 3 else if n = "extra".toList then 2 else 0
  fits := by
    intro n i hi
    unfold IsI32
    split <;> split at hi <;> (try split at hi) <;> omega
  disjoint := by
    intro n m i j hi hj he
    by_cases h1 : n = "main".toList
    · by_cases h2 : m = "main".toList
      · rw [h1, h2]
      · rw [if_pos h1] at hi he
        rw [if_neg h2] at hj he
        omega
    · rw [if_neg h1] at hi he
      by_cases h2 : m = "main".toList
      · rw [if_pos h2] at hj he
        split at hi <;> omega
      · rw [if_neg h2] at hj
        split at hi
        · split at hj
          · rename_i h3 h4; rw [h3, h4]
          · omega
        · omega

def events : List Ev :=
  [.define "main".toList 0 2, .define "extra".toList 100 1, .read, .list, .apply, .handle, .register "c".toList 50 [],
   .apply, .handle, .apply, .read, .handle, .handle, .define "main".toList 0 3]

example : (∀ n m r, .define n m r ∈ events → m = plan.base n ∧ r ≤ plan.size n) ∧
    (∀ n id host, .register n id host ∈ events → ∀ m i, i < plan.size m → id ≠ plan.base m + i) := by
  constructor
  · intro n m r h
    simp only [events, List.mem_cons, Ev.define.injEq, List.not_mem_nil, or_false, reduceCtorEq, false_or] at h
    rcases h with ⟨rfl, rfl, rfl⟩ | ⟨rfl, rfl, rfl⟩ | ⟨rfl, rfl, rfl⟩ <;> decide +kernel
  · intro n id host h m i hi
    simp only [events, List.mem_cons, Ev.register.injEq, List.not_mem_nil, or_false, reduceCtorEq, false_or] at h
    obtain ⟨rfl, rfl, rfl⟩ := h
    simp only [plan] at hi ⊢
    split <;> split at hi <;> (try split at hi) <;> omega

/-- Both groups are started, and three brokers are registered beside the custom one. -/
example : ((run init events).sets.map (·.1)).length = 2 ∧
    (run init events).spus.map (fun e => (e.1, e.2.id))
      = [("main-1".toList, 1), ("main-0".toList, 0), ("c".toList, 50), ("extra-0".toList, 100)] := by
  decide +kernel

end C79

/-- Violation: a group that is in conflict is marked invalid, but its brokers are registered all the same, so two
brokers have the same id. -/
theorem C79_violated_duplicate :
    let s := run init [.define "a".toList 0 1, .list, .apply, .define "b".toList 0 1, .read, .handle, .handle, .list,
      .apply, .apply]
    get s.groups "b".toList = some ⟨2, 0, 1, .invalid⟩ ∧ (get s.spus "b-0".toList).map (·.id) = some 0 ∧
      (get s.spus "a-0".toList).map (·.id) = some 0 := by
  decide +kernel

/-- Violation: two groups with the same ids that are handled before brokers are registered are both reserved and
started. -/
theorem C79_violated_both_started :
    let s := run init [.define "a".toList 0 1, .define "b".toList 0 1, .read, .handle, .handle, .read, .handle, .handle]
    s.sets.map (fun e => (e.1, e.2.minId)) = [("b".toList, 0), ("a".toList, 0)] := by
  decide +kernel

/-- Violation: a reserved group that grows into the ids of another one is not checked again. -/
theorem C79_violated_grows :
    let s := run init [.define "a".toList 0 1, .define "b".toList 1 1, .list, .apply, .apply, .read, .handle, .handle,
      .define "a".toList 0 2, .read, .handle, .handle]
    (s.sets.map fun e => (e.1, e.2.minId, e.2.replicas)) = [("b".toList, 1, 1), ("a".toList, 0, 2)] ∧
      ¬ C79_free s 1 0 2 := by
  refine ⟨by decide +kernel, ?_⟩
  intro h
  exact h ("b-0".toList, ⟨1, some 2, privateHost "b".toList "default".toList 0⟩) (by decide +kernel) (by decide +kernel) 1 (by decide +kernel) rfl

/-- Violation: at the end of the range of `i32` the check looks at an empty range. -/
theorem C79_violated_overflow :
    let s := run init [.register "c".toList 2147483647 [], .define "a".toList 2147483647 1, .read, .handle]
    get s.groups "a".toList = some ⟨1, 2147483647, 1, .reserved⟩ ∧ ¬ C79_free s 1 2147483647 1 := by
  refine ⟨by decide +kernel, ?_⟩
  intro h
  exact h ("c".toList, ⟨2147483647, none, []⟩) (by decide +kernel) (by decide +kernel) 0 (by decide +kernel) rfl

/-- The hypotheses of `C79_conflict_found` can be met. -/
example : let s := run init [.register "c".toList 1 [], .define "a".toList 0 2, .read]
    s.work = [("a".toList, ⟨1, 0, 2, .init⟩)] ∧ get s.groups "a".toList = some ⟨1, 0, 2, .init⟩ ∧
    ¬ C79_free s 1 0 2 := by
  refine ⟨by decide +kernel, by decide +kernel, fun h => ?_⟩
  exact h ("c".toList, ⟨1, none, []⟩) (by decide +kernel) (by decide +kernel) 1 (by decide +kernel) rfl

/-! ## C80 -/

/-- Specification (Kubernetes): the pods of a stateful set are called like it with `-0`, `-1`, … appended. -/
def C80_pod (group : Name) (i : Nat) : Name := setName group ++ '-' :: showNat i

/-- Specification (Kubernetes): the stable address of a pod of a stateful set with a governing service. -/
def C80_pod_host (group ns : Name) (i : Nat) : Name :=
  C80_pod group i ++ '.' :: setName group ++ '.' :: ns ++ ".svc.cluster.local".toList

/-- The process in the pod finds the id under which the controller has registered it. -/
theorem C80_pod_id (ns name : Name) (g : Group) (i : Nat) (hm : IsI32 g.minId) (hi : i < 2 ^ 16) :
    podId (C80_pod name i) (showInt g.minId) = some (asSpu ns name g i).2.id := by
  have h1 : splitLastDash (C80_pod name i) = some (setName name, showNat i) :=
    splitLastDash_append _ (dash_not_mem_showNat i)
  have h2 : parseNum true (2 ^ 31 - 1) (showNat i) = some (i : Int) := parseNum_showNat (by omega)
  have h3 : parseNum true (2 ^ 31 - 1) (showInt g.minId) = some g.minId := by
    unfold IsI32 at hm
    unfold showInt
    split
    · rename_i h0
      rw [parseNum_showNat (by omega)]
      congr 1; omega
    · rename_i h0
      have hp := parseDigits_showNat (max := 2 ^ 31 - 1 + 1) (n := (-g.minId).toNat) (by omega)
      have hne := showNat_ne_nil (-g.minId).toNat
      cases hs : showNat (-g.minId).toNat with
      | nil => exact absurd hs hne
      | cons c cs =>
        rw [hs] at hp
        simp only [parseNum, if_true, hp, Option.map_some, Option.some.injEq]
        show -(((-g.minId).toNat : Nat) : Int) = g.minId
        omega
  unfold podId
  rw [h1]; dsimp only
  rw [h2, h3]
  rfl

/-- Brokers of groups have different names, whatever the names of the groups. -/
theorem C80_names (n m : Name) (i j : Nat) (h : spuName n i = spuName m j) : n = m ∧ i = j := by
  have h1 := splitLastDash_append n (dash_not_mem_showNat i)
  have h2 := splitLastDash_append m (dash_not_mem_showNat j)
  have h' : n ++ '-' :: showNat i = m ++ '-' :: showNat j := h
  rw [h', h2] at h1
  injection h1 with h1
  injection h1 with ha hb
  refine ⟨ha.symm, ?_⟩
  have hi := parseDigits_showNat (max := i + j) (n := i) (by omega)
  have hj := parseDigits_showNat (max := i + j) (n := j) (by omega)
  rw [hb, hi] at hj
  injection hj

/-- Brokers of one group have different ids, even if they wrap around. -/
theorem C80_ids (ns name : Name) (g : Group) (i j : Nat) (hi : i < 2 ^ 16) (hj : j < 2 ^ 16)
    (h : (asSpu ns name g i).2.id = (asSpu ns name g j).2.id) : i = j := by
  have h' : ((i : Int) + g.minId).bmod (2 ^ 32) = ((j : Int) + g.minId).bmod (2 ^ 32) := h
  rw [Int.bmod_def, Int.bmod_def] at h'
  split at h' <;> split at h' <;> omega

/-- The registered private address is the one of the pod for the group `main`. -/
theorem C80_private_host_partial (ns : Name) (g : Group) (i : Nat) :
    (asSpu ns "main".toList g i).2.privateHost = C80_pod_host "main".toList ns i := by
  show privateHost _ _ _ = _
  unfold privateHost C80_pod_host C80_pod setName
  simp

/-- Violation: the address names pods of the group `main` whatever the group is called; for any other group it is
never the address of the pod. -/
theorem C80_violated_private_host (ns name : Name) (hn : name ≠ "main".toList)
    (g : Group) (i : Nat) :
    (asSpu ns name g i).2.privateHost ≠ C80_pod_host name ns i := by
  intro h
  have h : privateHost name ns i = C80_pod_host name ns i := h
  unfold privateHost C80_pod_host C80_pod setName at h
  have : "main".toList ++ '-' :: (showNat i ++ (".fluvio-spg-".toList ++ (name ++ '.' :: (ns ++ ".svc.cluster.local".toList))))
      = name ++ '-' :: (showNat i ++ (".fluvio-spg-".toList ++ (name ++ '.' :: (ns ++ ".svc.cluster.local".toList)))) := by
    have e1 : "fluvio-spg-main-".toList = "fluvio-spg-".toList ++ ("main".toList ++ ['-']) := by decide +kernel
    have e2 : ".fluvio-spg-".toList = '.' :: "fluvio-spg-".toList := by decide +kernel
    rw [e1] at h
    rw [e2] at h ⊢
    simp only [List.append_assoc, List.cons_append, List.nil_append] at h ⊢
    exact List.append_cancel_left h
  exact hn (List.append_cancel_right this).symm

/-- The address a follower would use for the first broker of a group `extra`. -/
example : privateHost "extra".toList "default".toList 0
    = "fluvio-spg-main-0.fluvio-spg-extra.default.svc.cluster.local".toList := by decide +kernel

example : podId "fluvio-spg-my-group-12".toList "100".toList = some 112 := by decide +kernel

end Verif.Props
