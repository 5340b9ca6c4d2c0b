import Verif.Cli.LocalCluster
import Std.Data.String.ToNat

/-! # Lemmas about clusters on the local machine -/

namespace Verif.Cli.LocalCluster

/-- The processes that come with starting several components, from process number `n` on. -/
def launch (c : Config) : List (List String) → Nat → List Proc
  | [], _ => []
  | a :: as, n =>
    ⟨n, c.launcherName, c.launcher :: "run" :: a, true, some (n + 1)⟩ ::
    ⟨n + 1, "fluvio-run", "fluvio-run" :: a, true, none⟩ :: launch c as (n + 2)

theorem launchSpus_procs (c : Config) (is : List Nat) (w : World) :
    (launchSpus c is w).procs =
      w.procs ++ launch c (is.map fun i => spuArgs c (createRelative c.tls i)) w.nextPid := by
  induction is generalizing w with
  | nil => simp [launchSpus, launch]
  | cons i is ih =>
    simp only [launchSpus, ih, List.map_cons, launch]
    simp [spawn, register]

theorem launchSpus_rest (c : Config) (is : List Nat) (w : World) :
    (launchSpus c is w).config = w.config ∧ (launchSpus c is w).profile = w.profile ∧
    (launchSpus c is w).nextPid = w.nextPid + 2 * is.length := by
  induction is generalizing w with
  | nil => simp [launchSpus]
  | cons i is ih =>
    obtain ⟨a, b, d⟩ := ih (spawn c (spuArgs c (createRelative c.tls i)) (register c.dataDir (createRelative c.tls i).id w))
    refine ⟨a.trans rfl, b.trans rfl, d.trans ?_⟩
    simp [spawn, register]; omega

/-- What is started, by how far the start came. -/
def argsOf (c : Config) (e : Env) : List (List String) :=
  scArgs c :: if e.scUp then (List.range c.replicas).map fun i => spuArgs c (createRelative c.tls i) else []

theorem installOnly_procs (c : Config) (e : Env) (w : World) :
    (installOnly c e w).1.procs = w.procs ++ launch c (argsOf c e) w.nextPid := by
  unfold installOnly argsOf
  cases h : c.saveProfile <;> cases h1 : e.scUp <;> cases h2 : e.online <;>
    simp [setProfile, spawn, launchSpus_procs, launch]

theorem installOnly_config (c : Config) (e : Env) (w : World) :
    (installOnly c e w).1.config = (if e.scUp && e.online then some c else w.config) ∧
    (installOnly c e w).2 = (e.scUp && e.online) ∧
    (installOnly c e w).1.profile = (if c.saveProfile then some ⟨"local", some .onThisMachine, false⟩ else w.profile) ∧
    (installOnly c e w).1.nextPid = w.nextPid + 2 * (argsOf c e).length := by
  unfold installOnly argsOf
  cases h : c.saveProfile <;> cases h1 : e.scUp <;> cases h2 : e.online <;>
    simp [setProfile, spawn, launchSpus_rest] <;> omega

theorem mem_launch (c : Config) (as : List (List String)) (n : Nat) (p : Proc) (h : p ∈ launch c as n) :
    (∃ k, p.pid = n + 2 * k ∧ p.waits = some (n + 2 * k + 1) ∧ p.name = c.launcherName ∧ p.mine = true ∧
      ∃ a ∈ as, p.argv = c.launcher :: "run" :: a) ∨
    (∃ k, p.pid = n + 2 * k + 1 ∧ p.waits = none ∧ p.name = "fluvio-run" ∧ p.mine = true ∧
      ∃ a ∈ as, p.argv = "fluvio-run" :: a) := by
  induction as generalizing n with
  | nil => simp [launch] at h
  | cons a as ih =>
    simp only [launch, List.mem_cons] at h
    rcases h with h | h | h
    · left; subst h; exact ⟨0, by simp⟩
    · right; subst h; exact ⟨0, by simp⟩
    · rcases ih _ h with ⟨k, h1, h2, h3, h4, b, hb, h5⟩ | ⟨k, h1, h2, h3, h4, b, hb, h5⟩
      · left
        refine ⟨k + 1, by omega, ?_, h3, h4, b, List.mem_cons_of_mem _ hb, h5⟩
        rw [h2]; congr 1; omega
      · right
        exact ⟨k + 1, by omega, h2, h3, h4, b, List.mem_cons_of_mem _ hb, h5⟩

/-- The processes called `fluvio-run`. -/
theorem launch_components (c : Config) (as : List (List String)) (n : Nat) (hl : c.launcherName ≠ "fluvio-run") :
    ((launch c as n).filter fun p => p.name == "fluvio-run").map Proc.argv = as.map ("fluvio-run" :: ·) := by
  induction as generalizing n with
  | nil => rfl
  | cons a as ih => simp [launch, hl, ih]

theorem kill_sublist (ps : List Proc) : (killLocal ps).Sublist ps := by
  unfold killLocal settle killProc
  exact (List.filter_sublist).trans (List.filter_sublist.trans (List.filter_sublist.trans List.filter_sublist))

/-- No process is called `run` or `cluster` in its own command line. -/
def Plain (ps : List Proc) : Prop := ∀ p ∈ ps, p.argv.head? ≠ some "run" ∧ p.argv.head? ≠ some "cluster"

theorem not_wanted (p : Proc) (h1 : p.argv.head? ≠ some "run") (h2 : p.argv.head? ≠ some "cluster") :
    wanted "fluvio" (some ["run"]) p = false ∧ wanted "fluvio" (some ["cluster", "run"]) p = false := by
  unfold wanted
  rcases ha : p.argv with _ | ⟨a, _ | ⟨b, r⟩⟩ <;> rw [ha] at h1 h2 <;> simp_all

theorem killLocal_plain (ps : List Proc) (h : Plain ps) :
    killLocal ps = settle (ps.filter fun p => !(p.name == "fluvio-run" && p.mine)) := by
  unfold killLocal
  have h1 : killProc "fluvio" (some ["cluster", "run"]) ps = ps := by
    unfold killProc
    rw [List.filter_eq_self]
    intro p hp
    rw [(not_wanted p (h p hp).1 (h p hp).2).2]; rfl
  have h2 : killProc "fluvio" (some ["run"]) ps = ps := by
    unfold killProc
    rw [List.filter_eq_self]
    intro p hp
    rw [(not_wanted p (h p hp).1 (h p hp).2).1]; rfl
  simp only [h1, h2]
  unfold killProc wanted
  simp

/-- Process numbers are below the next one, and processes that wait wait for something that runs. -/
def Tidy (w : World) : Prop :=
  (∀ p ∈ w.procs, p.pid < w.nextPid) ∧
  ∀ p ∈ w.procs, ∀ n, p.waits = some n → ∃ q ∈ w.procs, q.pid = n

theorem mem_settle (ps : List Proc) (p : Proc) :
    p ∈ settle ps ↔ p ∈ ps ∧ ∀ n, p.waits = some n → ∃ q ∈ ps, q.pid = n := by
  unfold settle
  rw [List.mem_filter]
  cases hw : p.waits <;> simp

theorem noneRunning_iff (w : World) : noneRunning w = true ↔ ∀ p ∈ w.procs, p.name ≠ "fluvio-run" := by
  simp [noneRunning]

/-- Ending what a start has started gives the processes from before. -/
theorem kill_launch (w : World) (ht : Tidy w) (hn : ∀ p ∈ w.procs, p.name ≠ "fluvio-run") (hp : Plain w.procs)
    (c : Config) (hc : c.launcher ≠ "run" ∧ c.launcher ≠ "cluster") (as : List (List String)) :
    killLocal (w.procs ++ launch c as w.nextPid) = w.procs := by
  have hpl : Plain (w.procs ++ launch c as w.nextPid) := by
    intro p h
    rcases List.mem_append.1 h with h | h
    · exact hp p h
    · rcases mem_launch c as _ p h with ⟨k, _, _, _, _, a, _, h5⟩ | ⟨k, _, _, _, _, a, _, h5⟩
      · rw [h5]; simpa using hc
      · rw [h5]; simp
  rw [killLocal_plain _ hpl, List.filter_append]
  have hl : w.procs.filter (fun p => !(p.name == "fluvio-run" && p.mine)) = w.procs := by
    rw [List.filter_eq_self]
    intro p h
    simp [hn p h]
  rw [hl]
  have hm : ∀ p ∈ (launch c as w.nextPid).filter (fun p => !(p.name == "fluvio-run" && p.mine)),
      ∃ k, p.pid = w.nextPid + 2 * k ∧ p.waits = some (w.nextPid + 2 * k + 1) := by
    intro p h
    rw [List.mem_filter] at h
    rcases mem_launch c as _ p h.1 with ⟨k, h1, h2, _⟩ | ⟨k, _, _, h3, h4, _⟩
    · exact ⟨k, h1, h2⟩
    · rw [h3, h4] at h; simp at h
  generalize (launch c as w.nextPid).filter (fun p => !(p.name == "fluvio-run" && p.mine)) = L at hm
  unfold settle
  rw [List.filter_append]
  have h1 : w.procs.filter (fun p => match p.waits with
      | none => true
      | some c => (w.procs ++ L).any fun q => q.pid == c) = w.procs := by
    rw [List.filter_eq_self]
    intro p h
    cases hw : p.waits with
    | none => rfl
    | some n =>
      obtain ⟨q, hq, e⟩ := ht.2 p h n hw
      exact List.any_eq_true.2 ⟨q, List.mem_append_left _ hq, by simp [e]⟩
  have h2 : L.filter (fun p => match p.waits with
      | none => true
      | some c => (w.procs ++ L).any fun q => q.pid == c) = [] := by
    rw [List.filter_eq_nil_iff]
    intro p h
    obtain ⟨k, h3, h4⟩ := hm p h
    rw [h4]
    dsimp only
    intro hx
    obtain ⟨q, hq, e⟩ := List.any_eq_true.1 hx
    have e' : q.pid = w.nextPid + 2 * k + 1 := by simpa using e
    rcases List.mem_append.1 hq with hq | hq
    · have := ht.1 q hq; omega
    · obtain ⟨k', h5, _⟩ := hm q hq; omega
  exact (congr (congrArg HAppend.hAppend h1) h2).trans (List.append_nil _)

/-! ### Brokers -/

theorem createRelative_eq (tls : Bool) (i : Nat) (h : i < 5653) :
    createRelative tls i =
      ⟨i + 5001, 9010 + 10 * i, 9011 + 10 * i, if tls then some (9012 + 10 * i) else none⟩ := by
  have e1 : u16 (i + 5001) = i + 5001 := by unfold u16; omega
  have e2 : u16 (i + 5001 + (65536 - 5001)) = i := by unfold u16; omega
  have e3 : u16 (9010 + u16 (i * 10)) = 9010 + 10 * i := by unfold u16; omega
  have e4 : u16 (9010 + 10 * i + 1) = 9011 + 10 * i := by unfold u16; omega
  have e5 : u16 (9011 + 10 * i + 1) = 9012 + 10 * i := by unfold u16; omega
  simp only [createRelative, createAbsolute, e1, e2, e3, e4, e5]

theorem createRelative_id (tls : Bool) (i : Nat) : (createRelative tls i).id = (i + 5001) % 65536 := rfl

/-! ### Executions -/

theorem installOnly_dirs (c : Config) (e : Env) (w : World) (p : String) (d : Dir) (h : w.dirs p = some d) :
    ∃ d', (installOnly c e w).1.dirs p = some d' ∧ d'.records = d.records ∧ d.brokers <+: d'.brokers := by
  have hs : ∀ (is : List Nat) (w : World) (d : Dir), w.dirs p = some d →
      ∃ d', (launchSpus c is w).dirs p = some d' ∧ d'.records = d.records ∧ d.brokers <+: d'.brokers := by
    intro is
    induction is with
    | nil => intro w d h; exact ⟨d, h, rfl, List.prefix_refl _⟩
    | cons i is ih =>
      intro w d h
      have : ∃ d1, (spawn c (spuArgs c (createRelative c.tls i))
            (register c.dataDir (createRelative c.tls i).id w)).dirs p = some d1 ∧ d1.records = d.records ∧
            d.brokers <+: d1.brokers := by
        simp only [spawn, register]
        by_cases hp : p = c.dataDir
        · subst hp
          rw [if_pos rfl, h]
          dsimp only [Option.getD]
          split
          · exact ⟨d, rfl, rfl, List.prefix_refl _⟩
          · exact ⟨_, rfl, rfl, List.prefix_append _ _⟩
        · rw [if_neg hp]; exact ⟨d, h, rfl, List.prefix_refl _⟩
      obtain ⟨d1, h1, h2, h3⟩ := this
      obtain ⟨d2, h4, h5, h6⟩ := ih _ d1 h1
      exact ⟨d2, h4, h5.trans h2, h3.trans h6⟩
  have h0 : ∀ w0 : World, w0.dirs = w.dirs →
      ∃ d', (launchSpus c (List.range c.replicas) w0).dirs p = some d' ∧ d'.records = d.records ∧
        d.brokers <+: d'.brokers := fun w0 e0 => hs _ w0 d (by rw [e0]; exact h)
  unfold installOnly
  cases hsp : c.saveProfile <;> cases h1 : e.scUp <;> cases h2 : e.online <;>
    first
      | exact ⟨d, h, rfl, List.prefix_refl _⟩
      | exact h0 _ rfl

end Verif.Cli.LocalCluster
