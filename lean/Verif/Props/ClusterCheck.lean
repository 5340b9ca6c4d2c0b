import Verif.Cli.ClusterCheck

/-!
# C112: the checks before a cluster is started
-/

namespace Verif.Props

open Verif.Cli.ClusterCheck

namespace C112

variable {σ : Type}

/-- Each check comes after those that provide the components it requires, and these are there. -/
def Ordered : List Component → List (Check σ) → Prop
  | _, [] => True
  | have_, c :: rest => (∀ d ∈ c.requires, d ∈ have_) ∧ Ordered (c.component.toList ++ have_) rest

/-- No check requires what a later one provides. -/
def InOrder (l : List (Check σ)) : Prop :=
  l.Pairwise fun a b => ∀ d ∈ a.requires, b.component ≠ some d

theorem insertBack_perm (x : Check σ) (l : List (Check σ)) : (insertBack x l).Perm (x :: l) := by
  induction l with
  | nil => exact .refl _
  | cons p rest ih =>
    simp only [insertBack]
    split
    · exact (List.Perm.cons p ih).trans (.swap x p rest)
    · exact .refl _

theorem foldl_perm (l acc : List (Check σ)) :
    (l.foldl (fun r x => insertBack x r) acc).Perm (l ++ acc) := by
  induction l generalizing acc with
  | nil => exact .refl _
  | cons x l ih =>
    refine (ih (insertBack x acc)).trans ?_
    refine ((insertBack_perm x acc).append_left l).trans ?_
    exact List.perm_middle

theorem checkCompare_lt {x p : Check σ} (h : checkCompare x p = .lt) : ∃ d ∈ p.requires, x.component = some d := by
  unfold checkCompare at h
  split at h
  · cases h
  · split at h
    · next hp =>
      obtain ⟨d, hd, he⟩ := List.any_eq_true.mp hp
      exact ⟨d, hd, by simpa using he⟩
    · cases h

theorem foldl_inOrder (l acc : List (Check σ)) (h : InOrder (acc.reverse ++ l)) :
    l.foldl (fun r x => insertBack x r) acc = l.reverse ++ acc := by
  induction l generalizing acc with
  | nil => rfl
  | cons x l ih =>
    have hx : insertBack x acc = x :: acc := by
      cases acc with
      | nil => rfl
      | cons p rest =>
        simp only [insertBack]
        split
        · next hlt =>
          obtain ⟨d, hd, he⟩ := checkCompare_lt hlt
          have hp := (List.pairwise_append.mp h).2.2 p (by simp) x (by simp)
          exact absurd he (hp d hd)
        · rfl
    rw [List.foldl_cons, hx, ih (x :: acc) (by simpa using h)]
    simp

/-- The components that the checks of a protocol have registered. -/
def provided (log : List (Check σ × Outcome)) (d : Component) : Prop :=
  ∃ e ∈ log, e.1.component = some d ∧ e.2.good = true

theorem register_mem {comps : List Component} {c : Check σ} {o : Outcome} {d : Component} :
    d ∈ register comps c o ↔ d ∈ comps ∨ (c.component = some d ∧ o.good = true) := by
  unfold register
  cases o.good <;> cases hc : c.component <;> simp [eq_comm, or_comm]

theorem loop_requires (fix : Bool) (comps : List Component) (m : σ) (l : List (Check σ))
    (pre post : List (Check σ × Outcome)) (c : Check σ) (o : Outcome)
    (h : (loop fix comps m l).log = pre ++ (c, o) :: post) :
    o ≠ .skipped ↔ ∀ d ∈ c.requires, d ∈ comps ∨ provided pre d := by
  induction l generalizing comps m pre with
  | nil => simp [loop] at h
  | cons x l ih =>
    simp only [loop] at h
    split at h
    · simp at h
    · next o' m' hv =>
      cases pre with
      | nil =>
        simp only [List.nil_append, List.cons.injEq, Prod.mk.injEq] at h
        obtain ⟨⟨rfl, rfl⟩, _⟩ := h
        have hp : ∀ d, ¬ provided ([] : List (Check σ × Outcome)) d := by
          rintro d ⟨e, he, _⟩; cases he
        unfold visit at hv
        split at hv
        · next hall =>
          refine ⟨fun _ d hd => .inl (by simpa using List.all_eq_true.mp hall d hd), fun _ => ?_⟩
          rintro rfl
          unfold attempt at hv
          split at hv
          · cases hv
          · split at hv
            · split at hv <;> cases hv
            · cases hv
          · cases hv
          · cases hv
        · next hall =>
          cases hv
          refine ⟨fun hn => absurd rfl hn, fun hd => absurd (List.all_eq_true.mpr fun d hdm => ?_) hall⟩
          rcases hd d hdm with hc | hc
          · simpa using hc
          · exact absurd hc (hp d)
      | cons e pre =>
        simp only [List.cons_append, List.cons.injEq] at h
        obtain ⟨he, h⟩ := h
        subst he
        rw [ih _ _ pre h]
        refine forall_congr' fun d => imp_congr_right fun _ => ?_
        rw [register_mem]
        constructor
        · rintro ((hd | hd) | ⟨e, he, hd⟩)
          · exact .inl hd
          · exact .inr ⟨_, List.mem_cons_self, hd⟩
          · exact .inr ⟨e, List.mem_cons_of_mem _ he, hd⟩
        · rintro (hd | ⟨e, he, hd⟩)
          · exact .inl (.inl hd)
          · rcases List.mem_cons.mp he with rfl | he
            · exact .inl (.inr hd)
            · exact .inr ⟨e, he, hd⟩

theorem loop_prefix (fix : Bool) (comps : List Component) (m : σ) (l : List (Check σ)) :
    (loop fix comps m l).log.map (·.1) <+: l ∧
      ((loop fix comps m l).aborted = false → (loop fix comps m l).log.map (·.1) = l) := by
  induction l generalizing comps m with
  | nil => exact ⟨List.prefix_refl _, fun _ => rfl⟩
  | cons x l ih =>
    simp only [loop]
    split
    · exact ⟨List.nil_prefix, fun h => nomatch h⟩
    · next o' m' hv =>
      obtain ⟨h1, h2⟩ := ih (register comps x o') m'
      exact ⟨List.cons_prefix_cons.mpr ⟨rfl, h1⟩, fun h => congrArg (x :: ·) (h2 h)⟩

theorem visit_nofix (comps : List Component) (m m' : σ) (c : Check σ) (o : Outcome)
    (h : visit false comps m c = some (o, m')) : m' = m := by
  unfold visit at h
  split at h
  · unfold attempt at h
    split at h
    · cases h; rfl
    · simp only [Bool.false_eq_true, if_false] at h; cases h; rfl
    · cases h; rfl
    · cases h
  · cases h; rfl

theorem loop_nofix (comps : List Component) (m : σ) (l : List (Check σ)) :
    (loop false comps m l).machine = m := by
  induction l generalizing comps m with
  | nil => rfl
  | cons x l ih =>
    simp only [loop]
    split
    · rfl
    · next o' m' hv =>
      obtain rfl := visit_nofix comps m m' x o' hv
      exact ih _ _

theorem loop_pass (fix : Bool) (comps : List Component) (m : σ) (l : List (Check σ)) (ho : Ordered comps l)
    (hp : ∀ c ∈ l, c.perform m = .pass) :
    (loop fix comps m l).ok = true ∧ (loop fix comps m l).machine = m := by
  induction l generalizing comps with
  | nil => exact ⟨rfl, rfl⟩
  | cons x l ih =>
    have hall : (x.requires.all fun d => comps.contains d) = true :=
      List.all_eq_true.mpr fun d hd => by simpa using ho.1 d hd
    have hv : visit fix comps m x = some (.passed, m) := by
      simp only [visit, hall, if_true, attempt, hp x (by simp)]
    have hr : register comps x .passed = x.component.toList ++ comps := by
      unfold register; cases x.component <;> rfl
    obtain ⟨h1, h2⟩ := ih (x.component.toList ++ comps) ho.2 fun c hc => hp c (by simp [hc])
    simp only [loop, hv, hr]
    refine ⟨?_, h2⟩
    simp only [Report.ok, List.all_cons, Outcome.good, Bool.true_and] at h1 ⊢
    exact h1

end C112
open C112

variable {σ : Type}

/-- **C112.** A check is performed exactly if each component it requires was registered by a check that passed (or
was fixed) before; otherwise it is skipped. -/
theorem C112_requirements (fix : Bool) (l : List (Check σ)) (m : σ) (pre post : List (Check σ × Outcome))
    (c : Check σ) (o : Outcome) (h : (run fix l m).log = pre ++ (c, o) :: post) :
    o ≠ .skipped ↔ ∀ d ∈ c.requires, ∃ e ∈ pre, e.1.component = some d ∧ e.2.good = true := by
  rw [loop_requires fix [] m (sort l) pre post c o h]
  refine forall_congr' fun d => imp_congr_right fun _ => ⟨?_, .inr⟩
  rintro (hd | hd)
  · cases hd
  · exact hd

/-- **C112.** No check is lost and none is made twice: unless a check fails to run, the checks visited are those given,
in another order. -/
theorem C112_each_once (fix : Bool) (l : List (Check σ)) (m : σ) (h : (run fix l m).aborted = false) :
    ((run fix l m).log.map (·.1)).Perm l := by
  have h1 := (loop_prefix fix [] m (sort l)).2 h
  show ((loop fix [] m (sort l)).log.map (·.1)).Perm l
  rw [h1]
  refine (List.reverse_perm _).trans ?_
  simpa using foldl_perm l []

/-- **C112.** The run succeeds only if every check given was performed and passed or was fixed. -/
theorem C112_success (fix : Bool) (l : List (Check σ)) (m : σ) (h : (run fix l m).ok = true) (c : Check σ)
    (hc : c ∈ l) : (c, .passed) ∈ (run fix l m).log ∨ (c, .fixed) ∈ (run fix l m).log := by
  simp only [Report.ok, Bool.and_eq_true, Bool.not_eq_true'] at h
  have hm := (C112_each_once fix l m h.1).symm.mem_iff.mp hc
  obtain ⟨⟨c', o⟩, he, rfl⟩ := List.mem_map.mp hm
  have ho := List.all_eq_true.mp h.2 _ he
  cases o with
  | passed => exact .inl he
  | fixed => exact .inr he
  | fixFailed => cases ho
  | fixDisabled => cases ho
  | bad => cases ho
  | skipped => cases ho

/-- **C112.** Without leave to fix, nothing is changed. -/
theorem C112_no_fix (l : List (Check σ)) (m : σ) : (run false l m).machine = m := loop_nofix [] m (sort l)

/-- **C112.** Checks that are given in an order in which none requires what a later one provides stay in it. -/
theorem C112_order_kept (l : List (Check σ)) (h : InOrder l) : sort l = l := by
  unfold sort
  rw [foldl_inOrder l [] (by simpa using h)]
  simp

/-- **C112 (partial).** Wherever the program makes checks, they are put into an order in which each comes after those
that provide what it requires.  (Not so for other lists, see `C112_violated_order`.) -/
theorem C112_ordered_partial (platform : Nat) (p : Purpose) : Ordered [] (sort (checks platform p)) := by
  cases p with
  | startK8 a b =>
    cases a <;> cases b <;>
      simp [checks, sort, insertBack, checkCompare, Ordered, activeKubernetes, helmVersion, k8Version, sysChart,
        alreadyInstalled]
  | _ =>
    simp [checks, sort, insertBack, checkCompare, Ordered, activeKubernetes, helmVersion, k8Version, sysChart,
      permission, localCluster, cleanLocal, localVersion]

/-- **C112 (partial).** So a machine on which every check passes is accepted and left as it is. -/
theorem C112_accepts_partial (fix : Bool) (platform : Nat) (p : Purpose) (m : Machine)
    (h : ∀ c ∈ checks platform p, c.perform m = .pass) :
    (run fix (checks platform p) m).ok = true ∧ (run fix (checks platform p) m).machine = m := by
  refine loop_pass fix [] m _ (C112_ordered_partial platform p) fun c hc => h c ?_
  refine ((List.reverse_perm _).trans ?_).mem_iff.mp hc
  simpa using foldl_perm (checks platform p) []

/-! ### Examples -/

namespace C112

/-- A machine on which nothing is missing. -/
def fine : Machine := ⟨true, true, some 12500, true, 31000, some [9], some [], true, true, true, true, false, none⟩

end C112

/-- The hypotheses of `C112_accepts_partial` are met, and so are those of `C112_success`. -/
example : (∀ c ∈ checks 9 (.startK8 true false), c.perform fine = .pass) ∧
    (run true (checks 9 (.startK8 true false)) fine).ok = true := by
  refine ⟨?_, by decide⟩
  simp only [checks, if_true, Bool.false_eq_true, if_false, List.cons_append, List.nil_append, List.forall_mem_cons,
    List.not_mem_nil]
  exact ⟨rfl, rfl, rfl, rfl, rfl, fun _ h => h.elim⟩

/-- Without Kubernetes the checks that need it are skipped; helm is checked all the same. -/
example : (run true (checks 9 .startLocalK8) { fine with activeCluster := false }).log.map (fun e => (e.1.label, e.2)) =
    [("Helm", .passed), ("Kubernetes config", .bad), ("Kubernetes version", .skipped),
      ("Fluvio Local Installation", .passed), ("Fluvio Sys Chart", .skipped)] := by decide

/-- A missing system chart is installed. -/
example : (run true (checks 9 (.startK8 true false)) { fine with sysCharts := some [] }).ok = true ∧
    (run true (checks 9 (.startK8 true false)) { fine with sysCharts := some [] }).machine = fine ∧
    (run false (checks 9 (.startK8 true false)) { fine with sysCharts := some [] }).ok = false := by decide

/-- The order of `checkK8` satisfies the hypothesis of `C112_order_kept`. -/
example : InOrder (checks 9 .checkK8) := by
  simp [InOrder, checks, activeKubernetes, helmVersion, k8Version, sysChart, permission]

/-! ### Violations -/

/-- **C112 is violated, order**: the order compares two checks only when one directly requires the other, which is no
order that a sort can use: two checks with an unrelated one between them are not put right.  A list of checks that all
pass is then refused, because one is skipped. -/
theorem C112_violated_order :
    (∀ c ∈ [k8Version, helmVersion, activeKubernetes], c.perform fine = .pass) ∧
    (run true [k8Version, helmVersion, activeKubernetes] fine).ok = false ∧
    ((run true [k8Version, helmVersion, activeKubernetes] fine).log.map (fun e => (e.1.label, e.2))).head? =
      some ("Kubernetes version", .skipped) := by
  refine ⟨?_, by decide, by decide⟩
  simp only [List.forall_mem_cons, List.not_mem_nil]
  exact ⟨rfl, rfl, rfl, fun _ h => h.elim⟩

/-- **C112 is violated, changes by a start that is refused**: on any machine where Fluvio is installed already with a
system chart of another version, starting a cluster is refused, but not before the system chart was replaced by the
one of the new version (an older one, too). -/
theorem C112_violated_changes (platform v : Nat) (app : Nat) (apps : List Nat) (m : Machine) (hv : v ≠ platform)
    (h1 : m.activeCluster = true) (h2 : m.kubectl = true) (h3 : m.helm = true) (h4 : minHelm ≤ m.helmVersion)
    (h5 : m.serverVersion = some minKube) (h6 : m.sysCharts = some [v]) (h7 : m.appCharts = some (app :: apps))
    (h8 : m.installWorks = true) :
    (run true (checks platform (.startK8 true false)) m).ok = false ∧
    (run true (checks platform (.startK8 true false)) m).machine.sysCharts = some [platform] := by
  have h4' : ¬ m.helmVersion < minHelm := by omega
  simp [run, checks, sort, insertBack, checkCompare, loop, visit, attempt, register, Outcome.good, Report.ok,
    activeKubernetes, helmVersion, k8Version, sysChart, alreadyInstalled, setSysChart, h1, h2, h3, h4', h5, h6, h7,
    h8, hv]

/-- **C112 is violated, changes on a machine that is not supported**: with a server of Kubernetes that is too old the
system chart is installed although the start is refused for the version. -/
theorem C112_violated_unsupported :
    let m := { fine with serverVersion := some 10600, sysCharts := some [] }
    (run true (checks 9 (.startK8 true false)) m).ok = false ∧
    (run true (checks 9 (.startK8 true false)) m).machine.sysCharts = some [9] := by decide

end Verif.Props
