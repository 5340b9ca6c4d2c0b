import Verif.Client.Profile

/-!
# C81: profiles of the client

Claim: the current profile exists and its cluster is known.  Adding a profile makes it current with the given
address; renaming a profile keeps its cluster, and it stays current if it was; deleting a profile or an unused cluster
does not change what the other profiles stand for; no command changes any other profile.

Not true of the code: renaming onto an existing profile loses that one; adding a profile overwrites the cluster of the
same name even if other profiles use it; a file that cannot be read is replaced by one with a single profile; and saving
truncates the file first, so an interrupted command leaves such a file.
-/

namespace Verif.Props

open Verif.Client.Profile

private theorem pget_del {V : Type} (l : List (String × V)) (n q : String) :
    look (del l n) q = if q = n then none else look l q := by
  unfold look del
  by_cases h : q = n
  · rw [if_pos h]
    simp only [Option.map_eq_none_iff, List.find?_eq_none, List.mem_filter]
    intro x hx; simp_all
  · rw [if_neg h, List.find?_filter]
    congr 2
    funext x
    by_cases hx : x.1 = q <;> simp [hx, h]

private theorem pget_put {V : Type} (l : List (String × V)) (n q : String) (v : V) :
    look (put l n v) q = if q = n then some v else look l q := by
  by_cases h : q = n
  · subst h; simp [look, put]
  · rw [if_neg h]
    have : look (put l n v) q = look (del l n) q := by
      unfold look put
      rw [List.find?_cons_of_neg (by simpa using fun e => h e.symm)]
    rw [this, pget_del, if_neg h]

/-- Specification: the current profile, if any, exists. -/
def C81_current_exists (c : Config) : Prop := ∀ n, c.current = some n → ∃ k, (n, k) ∈ c.profiles

/-- Specification: every profile refers to a cluster that exists. -/
def C81_complete (c : Config) : Prop := ∀ n k, (n, k) ∈ c.profiles → ∃ x, (k, x) ∈ c.clusters

private theorem pget_mem {V : Type} {l : List (String × V)} {n : String} {v : V} (h : look l n = some v) :
    (n, v) ∈ l := by
  unfold look at h
  obtain ⟨x, hx, rfl⟩ := Option.map_eq_some_iff.mp h
  have hp := List.find?_some hx
  simp only [decide_eq_true_eq] at hp
  rw [← hp]; exact List.mem_of_find?_eq_some hx

private theorem pget_some {V : Type} {l : List (String × V)} {n : String} {v : V} (h : (n, v) ∈ l) :
    ∃ w, look l n = some w := by
  cases hg : look l n with
  | some w => exact ⟨w, rfl⟩
  | none =>
    have := List.find?_eq_none.mp (Option.map_eq_none_iff.mp hg) _ h
    simp at this

private theorem pmem_del {V : Type} {l : List (String × V)} {n : String} {e : String × V} :
    e ∈ del l n ↔ e ∈ l ∧ e.1 ≠ n := by simp [del]

private theorem pmem_put {V : Type} {l : List (String × V)} {n : String} {v : V} {e : String × V} :
    e ∈ put l n v ↔ e = (n, v) ∨ (e ∈ l ∧ e.1 ≠ n) := by simp [put, pmem_del]

private theorem addOrReplace_eq (c : Config) (n addr tls : String) :
    ∃ k : Cluster, k.endpoint = addr ∧ k.tls = tls ∧
      c.addOrReplace n addr tls = ⟨some n, put c.profiles n n, put c.clusters n k⟩ := by
  have hs : ∀ c1 : Config, (Config.setCurrent { c1 with profiles := put c1.profiles n n } n).1
      = ⟨some n, put c1.profiles n n, c1.clusters⟩ := by
    intro c1
    simp [Config.setCurrent, pget_put]
  unfold Config.addOrReplace
  split
  · rename_i k _
    exact ⟨{ k with endpoint := addr, tls := tls }, rfl, rfl, hs _⟩
  · exact ⟨⟨addr, tls, false⟩, rfl, rfl, hs _⟩

/-- Every command keeps the current profile existing, even if interrupted. -/
theorem C81_current (f : File) (cs : List (Cmd × Bool)) (h : ∀ c, f = .config c → C81_current_exists c) :
    ∀ c, execAll f cs = .config c → C81_current_exists c := by
  induction cs generalizing f with
  | nil => exact h
  | cons x cs ih =>
    obtain ⟨cmd, d⟩ := x
    refine ih (exec f cmd d) ?_
    intro c hc
    unfold exec at hc
    split at hc
    · rename_i cfg he
      split at hc
      · injection hc with hc; subst hc
        cases cmd with
        | add n addr tls =>
          simp only [Cmd.exec, Option.some.injEq] at he
          obtain ⟨k, _, _, hk⟩ := addOrReplace_eq f.loadOrNew n addr tls
          rw [← he, hk]
          intro m hm
          injection hm with hm; subst hm
          exact ⟨n, pmem_put.mpr (Or.inl rfl)⟩
        | rename src dst =>
          simp only [Cmd.exec] at he
          obtain ⟨c0, h0, rfl⟩ := Option.map_eq_some_iff.mp he
          have hf : f = .config c0 := by cases f <;> simp_all [File.load]
          have hc0 := h c0 hf
          unfold Config.rename
          split
          · exact hc0
          · rename_i p hp
            intro m hm
            dsimp only at hm ⊢
            split at hm
            · injection hm with hm; subst hm
              exact ⟨p, pmem_put.mpr (Or.inl rfl)⟩
            · rename_i hne
              obtain ⟨k, hk⟩ := hc0 m hm
              have hms : m ≠ src := fun e => hne (e ▸ hm)
              by_cases hmd : m = dst
              · subst hmd; exact ⟨p, pmem_put.mpr (Or.inl rfl)⟩
              · exact ⟨k, pmem_put.mpr (Or.inr ⟨pmem_del.mpr ⟨hk, hms⟩, hmd⟩)⟩
        | switch n =>
          simp only [Cmd.exec] at he
          obtain ⟨c0, h0, he⟩ := Option.bind_eq_some_iff.mp he
          have hf : f = .config c0 := by cases f <;> simp_all [File.load]
          unfold Config.setCurrent at he
          split at he
          · rename_i hs
            simp only [if_true, Option.some.injEq] at he
            rw [← he]
            intro m hm
            injection hm with hm; subst hm
            obtain ⟨k, hk⟩ := Option.isSome_iff_exists.mp hs
            exact ⟨k, pget_mem hk⟩
          · simp at he
        | deleteProfile n =>
          simp only [Cmd.exec] at he
          obtain ⟨c0, h0, he⟩ := Option.bind_eq_some_iff.mp he
          have hf : f = .config c0 := by cases f <;> simp_all [File.load]
          unfold Config.deleteProfile at he
          split at he
          · simp only [if_true, Option.some.injEq] at he
            rw [← he]
            intro m hm
            dsimp only at hm ⊢
            split at hm
            · simp at hm
            · rename_i hne
              obtain ⟨k, hk⟩ := h c0 hf m hm
              exact ⟨k, pmem_del.mpr ⟨hk, fun e => hne (by rw [hm]; exact congrArg some e)⟩⟩
          · simp at he
        | deleteCluster n force =>
          simp only [Cmd.exec] at he
          obtain ⟨c0, h0, he⟩ := Option.bind_eq_some_iff.mp he
          have hf : f = .config c0 := by cases f <;> simp_all [File.load]
          split at he
          · simp at he
          · split at he
            · simp at he
            · injection he with he
              rw [← he]; exact h c0 hf
      · simp at hc
    · subst hc; exact h c rfl

/-- Without `--force` every profile always refers to an existing cluster; so if there is a current profile its cluster
is found. -/
theorem C81_complete_partial (f : File) (cs : List (Cmd × Bool)) (h : ∀ c, f = .config c → C81_complete c)
    (hnf : ∀ n d, (Cmd.deleteCluster n true, d) ∉ cs) : ∀ c, execAll f cs = .config c → C81_complete c := by
  induction cs generalizing f with
  | nil => exact h
  | cons x cs ih =>
    obtain ⟨cmd, d⟩ := x
    refine ih (exec f cmd d) ?_ (fun n d' hm => hnf n d' (List.mem_cons_of_mem _ hm))
    intro c hc
    unfold exec at hc
    split at hc
    · rename_i cfg he
      split at hc
      · injection hc with hc; subst hc
        cases cmd with
        | add n addr tls =>
          simp only [Cmd.exec, Option.some.injEq] at he
          have h0 : C81_complete f.loadOrNew := by
            cases f with
            | config c0 => exact h c0 rfl
            | absent => intro a b hab; simp [File.loadOrNew, File.load, Config.new] at hab
            | unreadable => intro a b hab; simp [File.loadOrNew, File.load, Config.new] at hab
          obtain ⟨k, _, _, hk⟩ := addOrReplace_eq f.loadOrNew n addr tls
          rw [← he, hk]
          intro m j hm
          rcases pmem_put.mp hm with hm | ⟨hm, _⟩
          · injection hm with _ hj; subst hj
            exact ⟨k, pmem_put.mpr (Or.inl rfl)⟩
          · obtain ⟨x, hx⟩ := h0 m j hm
            by_cases hj : j = n
            · subst hj; exact ⟨k, pmem_put.mpr (Or.inl rfl)⟩
            · exact ⟨x, pmem_put.mpr (Or.inr ⟨hx, hj⟩)⟩
        | rename src dst =>
          simp only [Cmd.exec] at he
          obtain ⟨c0, h0, rfl⟩ := Option.map_eq_some_iff.mp he
          have hf : f = .config c0 := by cases f <;> simp_all [File.load]
          have hc0 := h c0 hf
          unfold Config.rename
          split
          · exact hc0
          · rename_i p hp
            intro m j hm
            rcases pmem_put.mp hm with hm | ⟨hm, _⟩
            · injection hm with _ hj; subst hj
              exact hc0 src _ (pget_mem hp)
            · exact hc0 m j (pmem_del.mp hm).1
        | switch n =>
          simp only [Cmd.exec] at he
          obtain ⟨c0, h0, he⟩ := Option.bind_eq_some_iff.mp he
          have hf : f = .config c0 := by cases f <;> simp_all [File.load]
          unfold Config.setCurrent at he
          split at he
          · simp only [if_true, Option.some.injEq] at he
            rw [← he]; exact h c0 hf
          · simp at he
        | deleteProfile n =>
          simp only [Cmd.exec] at he
          obtain ⟨c0, h0, he⟩ := Option.bind_eq_some_iff.mp he
          have hf : f = .config c0 := by cases f <;> simp_all [File.load]
          unfold Config.deleteProfile at he
          split at he
          · simp only [if_true, Option.some.injEq] at he
            rw [← he]
            intro m j hm
            exact h c0 hf m j (pmem_del.mp hm).1
          · simp at he
        | deleteCluster n force =>
          simp only [Cmd.exec] at he
          obtain ⟨c0, h0, he⟩ := Option.bind_eq_some_iff.mp he
          have hf : f = .config c0 := by cases f <;> simp_all [File.load]
          have hforce : force = false := by
            cases force with
            | false => rfl
            | true => exact absurd (List.mem_cons_self ..) (hnf n d)
          subst hforce
          split at he
          · simp at he
          · split at he
            · simp at he
            · rename_i hcon
              injection he with he
              rw [← he]
              simp only [Bool.not_false, Bool.true_and, decide_eq_true_eq, ne_eq, Decidable.not_not] at hcon
              intro m j hm
              obtain ⟨x, hx⟩ := h c0 hf m j hm
              refine ⟨x, pmem_del.mpr ⟨hx, ?_⟩⟩
              intro hj
              have hmem : m ∈ c0.conflicts n :=
                List.mem_map.mpr ⟨(m, j), List.mem_filter.mpr ⟨hm, by simpa using hj⟩, rfl⟩
              rw [hcon] at hmem; simp at hmem
      · simp at hc
    · subst hc; exact h c rfl

/-- What the two invariants are good for: the cluster of the current profile is found. -/
theorem C81_found (c : Config) (n : String) (h1 : C81_current_exists c) (h2 : C81_complete c)
    (hn : c.current = some n) : ∃ x, c.currentCluster = some x ∧ c.clusterOf n = some x := by
  obtain ⟨_, hk⟩ := h1 n hn
  obtain ⟨k, hk⟩ := pget_some hk
  obtain ⟨_, hx⟩ := h2 n k (pget_mem hk)
  obtain ⟨x, hx⟩ := pget_some hx
  refine ⟨x, ?_, ?_⟩
  · simp [Config.currentCluster, hn, hk, hx]
  · simp [Config.clusterOf, hk, hx]

/-- Adding a profile makes it current, with the given address and TLS policy. -/
theorem C81_add (f : File) (n addr tls : String) : ∃ c x, exec f (.add n addr tls) = .config c ∧ c.current = some n ∧
    c.currentCluster = some x ∧ c.clusterOf n = some x ∧ x.endpoint = addr ∧ x.tls = tls := by
  obtain ⟨k, h1, h2, hk⟩ := addOrReplace_eq f.loadOrNew n addr tls
  refine ⟨_, k, rfl, ?_, ?_, ?_, h1, h2⟩
  · rw [hk]
  · rw [hk]; simp [Config.currentCluster, pget_put]
  · rw [hk]; simp [Config.clusterOf, pget_put]

/-- Adding a profile does not change the profiles that use other clusters, if the file can be read. -/
theorem C81_add_others_partial (c : Config) (n addr tls q : String) (hq : q ≠ n) (hc : look c.profiles q ≠ some n) :
    ∃ c', exec (.config c) (.add n addr tls) = .config c' ∧ c'.clusterOf q = c.clusterOf q := by
  obtain ⟨k, _, _, hk⟩ := addOrReplace_eq c n addr tls
  refine ⟨_, rfl, ?_⟩
  show Config.clusterOf (c.addOrReplace n addr tls) q = _
  rw [hk]
  unfold Config.clusterOf
  rw [pget_put, if_neg hq]
  cases hp : look c.profiles q with
  | none => rfl
  | some j =>
    have : j ≠ n := fun e => hc (by rw [hp, e])
    simp [pget_put, this]

/-- Renaming to a free name: the profile keeps its cluster, stays current if it was, all others are as before. -/
theorem C81_rename_partial (c : Config) (src dst p : String) (hp : look c.profiles src = some p)
    (hd : look c.profiles dst = none) (hcur : C81_current_exists c) :
    ∃ c', exec (.config c) (.rename src dst) = .config c' ∧
      c'.clusterOf dst = c.clusterOf src ∧ look c'.profiles src = none ∧
      (∀ q, q ≠ src → q ≠ dst → c'.clusterOf q = c.clusterOf q) ∧
      (c.current = some src → c'.current = some dst) ∧ (c.current ≠ some src → c'.current = c.current) ∧
      c'.currentCluster = c.currentCluster := by
  have hsd : src ≠ dst := by intro e; rw [e, hd] at hp; cases hp
  refine ⟨⟨if c.current = some src then some dst else c.current, put (del c.profiles src) dst p, c.clusters⟩, ?_⟩
  have hsrc : ∀ q, look (put (del c.profiles src) dst p) q
      = if q = dst then some p else if q = src then none else look c.profiles q := by
    intro q; rw [pget_put, pget_del]
  refine ⟨?_, ?_, ?_, ?_, ?_, ?_, ?_⟩
  · simp [exec, Cmd.exec, File.load, Config.rename, hp]
  · simp [Config.clusterOf, hsrc, hp]
  · simp [hsrc, hsd]
  · intro q h1 h2; simp [Config.clusterOf, hsrc, h1, h2]
  · intro h; simp [h]
  · intro h; simp [h]
  · unfold Config.currentCluster
    cases hc : c.current with
    | none => simp
    | some m =>
      by_cases hms : m = src
      · subst hms; simp [hsrc, hp]
      · have hmd : m ≠ dst := by
          intro e; subst e
          obtain ⟨k, hk⟩ := hcur m hc
          obtain ⟨w, hw⟩ := pget_some hk
          rw [hd] at hw; cases hw
        simp [hms, hmd, hsrc]

/-- Deleting a profile: it is gone, it is no longer current, and nothing else changes. -/
theorem C81_delete_profile (c : Config) (n p : String) (hp : look c.profiles n = some p) :
    ∃ c', exec (.config c) (.deleteProfile n) = .config c' ∧ look c'.profiles n = none ∧ c'.current ≠ some n ∧
      (∀ q, q ≠ n → c'.clusterOf q = c.clusterOf q) ∧ (c.current ≠ some n → c'.current = c.current) ∧
      c'.clusters = c.clusters := by
  refine ⟨⟨if c.current = some n then none else c.current, del c.profiles n, c.clusters⟩, ?_⟩
  refine ⟨?_, ?_, ?_, ?_, ?_, rfl⟩
  · simp [exec, Cmd.exec, File.load, Config.deleteProfile, hp]
  · simp [pget_del]
  · dsimp only; split
    · simp
    · assumption
  · intro q hq; simp [Config.clusterOf, pget_del, hq]
  · intro h; simp [h]

/-- Deleting a cluster without `--force` changes nothing any profile stands for. -/
theorem C81_delete_cluster (c c' : Config) (n q : String)
    (h : exec (.config c) (.deleteCluster n false) = .config c') :
    c'.clusterOf q = c.clusterOf q ∧ c'.currentCluster = c.currentCluster ∧ c'.profiles = c.profiles := by
  simp only [exec, Cmd.exec, File.load, Option.bind_some] at h
  have key : c.conflicts n = [] → (c.deleteCluster n).clusterOf q = c.clusterOf q ∧
      (c.deleteCluster n).currentCluster = c.currentCluster ∧ (c.deleteCluster n).profiles = c.profiles := by
    intro hcon
    have hne : ∀ m k, look c.profiles m = some k → k ≠ n := by
      intro m k hk e
      have hmem : m ∈ c.conflicts n :=
        List.mem_map.mpr ⟨(m, k), List.mem_filter.mpr ⟨pget_mem hk, by simpa using e⟩, rfl⟩
      rw [hcon] at hmem; simp at hmem
    have hres : ∀ m, (look c.profiles m).bind (look (del c.clusters n)) = (look c.profiles m).bind (look c.clusters) := by
      intro m
      cases hk : look c.profiles m with
      | none => rfl
      | some k => simp [pget_del, hne m k hk]
    refine ⟨hres q, ?_, rfl⟩
    show (c.current.bind (look c.profiles)).bind (look (del c.clusters n)) = _
    unfold Config.currentCluster
    cases hm : c.current with
    | none => rfl
    | some m => exact hres m
  split at h
  · rename_i cfg he
    split at he
    · simp at he
    · split at he
      · simp at he
      · rename_i hcon
        injection he with he
        simp only [if_true] at h
        injection h with h
        rw [← h, ← he]
        exact key (by simpa using hcon)
  · injection h with h; subst h; exact ⟨rfl, rfl, rfl⟩

namespace C81

/-- Two clusters and two profiles. -/
def two : Config := ⟨some "local", [("local", "local"), ("cloud", "cloud")],
  [("local", ⟨"localhost:9003", "disabled", false⟩), ("cloud", ⟨"cloud:9003", "verified", false⟩)]⟩

example : C81_current_exists two ∧ C81_complete two := by
  constructor
  · intro n hn; injection hn with hn; subst hn; exact ⟨"local", by decide⟩
  · intro n k h
    simp only [two, List.mem_cons, Prod.mk.injEq, List.not_mem_nil, or_false] at h
    rcases h with ⟨_, rfl⟩ | ⟨_, rfl⟩
    · exact ⟨⟨"localhost:9003", "disabled", false⟩, by decide⟩
    · exact ⟨⟨"cloud:9003", "verified", false⟩, by decide⟩

example : look two.profiles "local" = some "local" ∧ look two.profiles "dev" = none ∧
    look two.profiles "cloud" ≠ some "local" := by decide

/-- An unused cluster is deleted, a used one is not. -/
example : exec (.config (two.deleteProfile "cloud").1) (.deleteCluster "cloud" false)
    = .config ⟨some "local", [("local", "local")], [("local", ⟨"localhost:9003", "disabled", false⟩)]⟩ ∧
    exec (.config two) (.deleteCluster "cloud" false) = .config two := by decide

end C81

/-- Violation: renaming onto an existing profile loses that one. -/
theorem C81_violated_rename : ∃ c', exec (.config C81.two) (.rename "local" "cloud") = .config c' ∧
    c'.profiles = [("cloud", "local")] ∧ C81.two.clusterOf "cloud" ≠ c'.clusterOf "cloud" := by
  refine ⟨_, rfl, by decide, by decide⟩

/-- Violation: a renamed profile follows its old name: adding a profile of the old name changes what the renamed one
connects to. -/
theorem C81_violated_add : ∃ c1 c2, exec (.config C81.two) (.rename "local" "prod") = .config c1 ∧
    (c1.clusterOf "prod").map (·.endpoint) = some "localhost:9003" ∧
    exec (.config c1) (.add "local" "other:9003" "disabled") = .config c2 ∧
    (c2.clusterOf "prod").map (·.endpoint) = some "other:9003" := by
  refine ⟨_, _, rfl, by decide, rfl, by decide⟩

/-- Violation: a command that is interrupted while saving leaves a file that cannot be read, and the next `add` replaces
it: all other profiles are lost. -/
theorem C81_violated_lost : ∃ c', execAll (.config C81.two) [(.switch "cloud", false), (.add "dev" "d:9003" "disabled", true)]
    = .config c' ∧ c'.profiles = [("dev", "dev")] ∧ c'.clusters.map (·.1) = ["dev"] := by
  refine ⟨_, rfl, by decide, by decide⟩

/-- Violation (by request): with `--force` a profile is left without its cluster. -/
theorem C81_violated_force : ∃ c', exec (.config C81.two) (.deleteCluster "local" true) = .config c' ∧
    c'.current = some "local" ∧ c'.currentCluster = none := by
  refine ⟨_, rfl, by decide, by decide⟩

end Verif.Props
