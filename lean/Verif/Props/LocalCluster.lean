import Verif.Cli.LocalClusterLemmas

/-!
# C110: a cluster on the local machine is started once, stopped completely, resumed as it was, and deleted only on demand
-/

namespace Verif.Props
namespace C110
open Verif.Cli.LocalCluster

/-! ### Specification -/

/-- The components of clusters which run on the machine. -/
def components (w : World) : List Proc := w.procs.filter fun p => p.name == "fluvio-run"

/-- The word after a given one in a command line. -/
def valueAfter (k : String) : List String → Option String
  | [] => none
  | a :: r => if a = k then r.head? else valueAfter k r

/-- What a component is: a controller (`sc`) or a broker (`spu`), and the number given with `-i`. -/
def role (p : Proc) : Option String × Option String :=
  (p.argv[1]?, if p.argv[1]? = some "spu" then valueAfter "-i" p.argv else none)

/-- The ports a broker listens on. -/
def ports (s : Spu) : List Nat := [s.publicPort, s.privatePort] ++ s.plain.toList

/-- Descriptions of clusters that people give: not more brokers than there are numbers for, and the launcher is not the
program of the components itself. -/
def Sane (c : Config) : Prop := c.replicas ≤ 60535 ∧ c.launcherName ≠ "fluvio-run"

/-- Commands without `--skip-checks`. -/
def Checked : Op → Prop
  | .start c _ => Sane c ∧ c.skipChecks = false
  | .upgrade _ _ n _ _ => n ≠ "fluvio-run"
  | _ => True

/-- A machine on which nothing was done yet. -/
def Fresh (w : World) : Prop := w.procs = [] ∧ w.config = none

end C110
open C110 Verif.Cli.LocalCluster

/-! ### Brokers -/

/-- Every broker of a local cluster of up to 5653 brokers has its own number and its own ports, and none of them is a
port of the controller. -/
theorem C110_brokers_apart (tls : Bool) (i j : Nat) (hi : i < 5653) (hj : j < 5653) (hij : i ≠ j) :
    (createRelative tls i).id ≠ (createRelative tls j).id ∧
    (∀ p ∈ ports (createRelative tls i), p ∉ ports (createRelative tls j)) := by
  rw [createRelative_eq tls i hi, createRelative_eq tls j hj]
  refine ⟨by dsimp only; omega, ?_⟩
  cases tls <;> simp [ports] <;> omega

theorem C110_broker_ports (tls : Bool) (i : Nat) (hi : i < 5653) :
    (ports (createRelative tls i)).Nodup ∧
    ∀ p ∈ ports (createRelative tls i), p < 65536 ∧ p ≠ 9003 ∧ p ≠ 9004 ∧ p ≠ 9005 := by
  rw [createRelative_eq tls i hi]
  cases tls <;> simp [ports] <;> omega

/-- The numbers stay distinct up to 60535 brokers, but the ports do not stay in order: broker 5653 gets port 4, and
brokers 0 and 32768 share their ports. -/
theorem C110_violated_ports : (createRelative false 5653).publicPort = 4 ∧
    ports (createRelative true 0) = ports (createRelative true 32768) := by decide

/-! ### Invariants of executions -/

/-- Process numbers are distinct, and processes wait for components only. -/
def C110.Tidy2 (w : World) : Prop :=
  (w.procs.map Proc.pid).Nodup ∧ (∀ p ∈ w.procs, p.pid < w.nextPid) ∧
  ∀ p ∈ w.procs, ∀ n, p.waits = some n → ∃ q ∈ w.procs, q.pid = n ∧ q.waits = none

def C110.Inv (w : World) : Prop :=
  Tidy2 w ∧ ((components w).map role).Nodup ∧ (∀ c, w.config = some c → Sane c)

private theorem C110.tidy_of (w : World) (h : Tidy2 w) : Tidy w :=
  ⟨h.2.1, fun p hp n hn => let ⟨q, a, b, _⟩ := h.2.2 p hp n hn; ⟨q, a, b⟩⟩

private theorem C110.eq_of_pid (ps : List Proc) (h : (ps.map Proc.pid).Nodup) (p q : Proc) (hp : p ∈ ps) (hq : q ∈ ps)
    (e : p.pid = q.pid) : p = q := by
  induction ps with
  | nil => cases hp
  | cons a r ih =>
    simp only [List.map_cons, List.nodup_cons, List.mem_map] at h
    rcases List.mem_cons.1 hp with hp1 | hp1 <;> rcases List.mem_cons.1 hq with hq1 | hq1
    · rw [hp1, hq1]
    · exact absurd ⟨q, hq1, by rw [← e, hp1]⟩ h.1
    · exact absurd ⟨p, hp1, by rw [e, hq1]⟩ h.1
    · exact ih h.2 hp1 hq1

private theorem C110.tidy_settle (w : World) (h : Tidy2 w) (ps : List Proc) (hs : ps.Sublist w.procs) (w' : World)
    (e : w'.procs = settle ps) (en : w'.nextPid = w.nextPid) : Tidy2 w' := by
  have hsub : (settle ps).Sublist w.procs := List.filter_sublist.trans hs
  refine ⟨?_, ?_, ?_⟩
  · rw [e]; exact (hsub.map Proc.pid).nodup h.1
  · intro p hp; rw [e] at hp; rw [en]; exact h.2.1 p (hsub.subset hp)
  · intro p hp n hn
    rw [e] at hp ⊢
    obtain ⟨hp1, hp2⟩ := (mem_settle ps p).1 hp
    obtain ⟨q, hq, eq⟩ := hp2 n hn
    obtain ⟨q0, hq0, e0, w0⟩ := h.2.2 p (hs.subset hp1) n hn
    have : q = q0 := eq_of_pid _ h.1 q q0 (hs.subset hq) hq0 (eq.trans e0.symm)
    subst this
    exact ⟨q, (mem_settle ps q).2 ⟨hq, fun n hn => by rw [w0] at hn; cases hn⟩, eq, w0⟩

private theorem C110.launch_pids (c : Config) (as : List (List String)) (n : Nat) :
    (launch c as n).map Proc.pid = List.range' n (2 * as.length) := by
  induction as generalizing n with
  | nil => rfl
  | cons a as ih =>
    have : 2 * (a :: as).length = 2 * as.length + 1 + 1 := by simp; omega
    rw [this, List.range'_succ, List.range'_succ]
    simp only [launch, List.map_cons, ih]

private theorem C110.launch_waits (c : Config) (as : List (List String)) (n : Nat) (p : Proc) (h : p ∈ launch c as n)
    (m : Nat) (hm : p.waits = some m) : ∃ q ∈ launch c as n, q.pid = m ∧ q.waits = none := by
  induction as generalizing n with
  | nil => simp [launch] at h
  | cons a as ih =>
    simp only [launch, List.mem_cons] at h
    rcases h with h | h | h
    · subst h
      exact ⟨_, List.mem_cons_of_mem _ List.mem_cons_self, by simpa using hm, rfl⟩
    · subst h; cases hm
    · obtain ⟨q, hq, r⟩ := ih _ h
      exact ⟨q, List.mem_cons_of_mem _ (List.mem_cons_of_mem _ hq), r⟩

private theorem C110.tidy_launch (w : World) (h : Tidy2 w) (c : Config) (as : List (List String)) (w' : World)
    (e : w'.procs = w.procs ++ launch c as w.nextPid) (en : w'.nextPid = w.nextPid + 2 * as.length) : Tidy2 w' := by
  have hl : ∀ p ∈ launch c as w.nextPid, w.nextPid ≤ p.pid ∧ p.pid < w.nextPid + 2 * as.length := by
    intro p hp
    have : p.pid ∈ (launch c as w.nextPid).map Proc.pid := List.mem_map_of_mem hp
    rw [launch_pids, List.mem_range'_1] at this
    omega
  refine ⟨?_, ?_, ?_⟩
  · rw [e, List.map_append, List.nodup_append]
    refine ⟨h.1, by rw [launch_pids]; exact List.nodup_range', ?_⟩
    intro a ha b hb
    obtain ⟨p, hp, rfl⟩ := List.mem_map.1 ha
    obtain ⟨q, hq, rfl⟩ := List.mem_map.1 hb
    have := h.2.1 p hp
    have := hl q hq
    omega
  · intro p hp
    rw [e] at hp; rw [en]
    rcases List.mem_append.1 hp with hp | hp
    · have := h.2.1 p hp; omega
    · exact (hl p hp).2
  · intro p hp n hn
    rw [e] at hp ⊢
    rcases List.mem_append.1 hp with hp | hp
    · obtain ⟨q, hq, r⟩ := h.2.2 p hp n hn
      exact ⟨q, List.mem_append_left _ hq, r⟩
    · obtain ⟨q, hq, r⟩ := launch_waits c as _ p hp n hn
      exact ⟨q, List.mem_append_right _ hq, r⟩

private theorem C110.roles_sublist (w w' : World) (h : ((components w).map role).Nodup) (hs : w'.procs.Sublist w.procs) :
    ((components w').map role).Nodup := ((hs.filter _).map role).nodup h

private theorem C110.addr_ne (n : Nat) : anyAddr n ≠ "-i" := by
  intro h
  have := congrArg String.toList h
  unfold anyAddr at this
  rw [String.toList_append] at this
  have h2 : "0.0.0.0:".toList = ['0', '.', '0', '.', '0', '.', '0', ':'] := by decide
  have h3 : "-i".toList = ['-', 'i'] := by decide
  rw [h2, h3] at this
  simp at this

private theorem C110.after_ne (k a : String) (r : List String) (h : a ≠ k) :
    valueAfter k (a :: r) = valueAfter k r := if_neg h

private theorem C110.after_eq (k b : String) (r : List String) : valueAfter k (k :: b :: r) = some b := if_pos rfl

private theorem C110.after_spu (s : Spu) (c : Config) :
    valueAfter "-i" ("fluvio-run" :: spuArgs c s) = some (toString s.id) := by
  unfold spuArgs
  cases hp : s.plain with
  | none =>
    simp only [List.append_nil, List.cons_append, List.nil_append]
    rw [after_ne _ _ _ (by decide), after_ne _ _ _ (by decide), after_eq]
  | some p =>
    simp only [List.cons_append, List.nil_append]
    rw [after_ne _ _ _ (by decide), after_ne _ _ _ (by decide), after_ne _ _ _ (by decide), after_ne _ _ _ (by decide),
      after_ne _ _ _ (addr_ne p), after_eq]

private theorem C110.role_sc (c : Config) (p : Proc) (h : p.argv = "fluvio-run" :: scArgs c) : role p = (some "sc", none) := by
  unfold role; rw [h]; simp [scArgs]

private theorem C110.role_spu (c : Config) (s : Spu) (p : Proc) (h : p.argv = "fluvio-run" :: spuArgs c s) :
    role p = (some "spu", some (toString s.id)) := by
  unfold role
  rw [h, after_spu]
  have : ("fluvio-run" :: spuArgs c s)[1]? = some "spu" := by unfold spuArgs; simp
  rw [this, if_pos rfl]

private def C110.roleArgs (a : List String) : Option String × Option String := role ⟨0, "", "fluvio-run" :: a, true, none⟩

private theorem C110.roles_of_argv (ps : List Proc) (as : List (List String))
    (h : ps.map Proc.argv = as.map ("fluvio-run" :: ·)) : ps.map role = as.map roleArgs := by
  have e1 : ps.map role = (ps.map Proc.argv).map fun a => role ⟨0, "", a, true, none⟩ := by
    rw [List.map_map]; rfl
  rw [e1, h, List.map_map]; rfl

private theorem C110.roles_launch (c : Config) (hc : Sane c) (e : Env) (n : Nat) :
    (((launch c (argsOf c e) n).filter fun p => p.name == "fluvio-run").map role).Nodup := by
  rw [roles_of_argv _ _ (launch_components c _ n hc.2)]
  unfold argsOf
  rw [List.map_cons, List.nodup_cons]
  have hsc : roleArgs (scArgs c) = (some "sc", none) := role_sc c _ rfl
  have hspu : ∀ s, roleArgs (spuArgs c s) = (some "spu", some (toString s.id)) := fun s => role_spu c s _ rfl
  cases e.scUp with
  | false => simp
  | true =>
    rw [if_pos rfl, List.map_map]
    refine ⟨?_, ?_⟩
    · rw [hsc]
      intro h
      obtain ⟨i, _, h⟩ := List.mem_map.1 h
      simp only [Function.comp, hspu] at h
      exact absurd (congrArg Prod.fst h) (by simp)
    · rw [List.Nodup, List.pairwise_map]
      refine List.Pairwise.imp_of_mem ?_ (List.nodup_range (n := c.replicas))
      intro i j hi hj hij he
      simp only [Function.comp, hspu, createRelative_id] at he
      have h1 := Option.some.inj (congrArg Prod.snd he)
      have h2 : (i + 5001) % 65536 = (j + 5001) % 65536 := Nat.repr_injective h1
      rw [List.mem_range] at hi hj
      have := hc.1
      omega

private theorem C110.inv_install (c : Config) (hc : Sane c) (e : Env) (w : World) (h : Inv w)
    (hn : noneRunning w = true) : Inv (installOnly c e w).1 := by
  obtain ⟨a, _, _, d⟩ := installOnly_config c e w
  have b := installOnly_procs c e w
  refine ⟨tidy_launch w h.1 c _ _ b d, ?_, ?_⟩
  · unfold components
    rw [b, List.filter_append]
    have : w.procs.filter (fun p => p.name == "fluvio-run") = [] := by
      rw [List.filter_eq_nil_iff]
      intro p hp
      simpa using (noneRunning_iff w).1 hn p hp
    rw [this, List.nil_append]
    exact roles_launch c hc e _
  · intro c' hc'
    rw [a] at hc'
    split at hc'
    · cases hc'; exact hc
    · exact h.2.2 c' hc'

private theorem C110.inv_kill (w w' : World) (h : Inv w) (e : w'.procs = killLocal w.procs) (en : w'.nextPid = w.nextPid)
    (hc : ∀ c, w'.config = some c → Sane c) : Inv w' := by
  refine ⟨?_, roles_sublist w w' h.2.1 (by rw [e]; exact kill_sublist _), hc⟩
  refine tidy_settle w h.1 _ ?_ w' e en
  unfold killProc
  exact List.filter_sublist.trans (List.filter_sublist.trans List.filter_sublist)

private theorem C110.inv_step (w : World) (h : Inv w) (o : Op) (ho : Checked o) : Inv (step w o) := by
  cases o with
  | start c e =>
    show Inv (start c e w).1
    unfold start
    split
    · exact h
    · rename_i hx
      have hx' : noneRunning w = true := by
        cases hn : noneRunning w
        · rw [hn, ho.2] at hx; simp at hx
        · rfl
      exact inv_install c ho.1 e w h hx'
  | resume v e =>
    show Inv (resume v e w).1
    unfold resume
    split
    · exact h
    · split
      all_goals first
        | exact h
        | (split
           · exact h
           · rename_i c hc
             split
             · rename_i hx
               simp only [Bool.and_eq_true] at hx
               exact inv_install c (h.2.2 c hc) e w h hx.1
             · exact h)
  | shutdown =>
    show Inv (shutdown w).1
    unfold shutdown
    split
    · exact h
    · split
      all_goals first
        | exact h
        | exact inv_kill w _ h rfl rfl h.2.2
  | delete o =>
    show Inv (delete o w).1
    unfold delete
    split
    · exact h
    · split
      · exact h
      · split
        · exact h
        · dsimp only
          split
          · exact inv_kill w _ h rfl rfl (fun c hc => nomatch hc)
          · exact h
  | upgrade v l n m r =>
    show Inv (upgrade v l n m r w).1
    have hk : Inv (shutdownLocal w) := inv_kill w _ h rfl rfl h.2.2
    unfold upgrade
    split
    · exact h
    · split
      · exact h
      · split
        all_goals first
          | exact h
          | (dsimp only
             split
             · exact hk
             · split
               · exact hk
               · rename_i c hc
                 refine ⟨hk.1, hk.2.1, ?_⟩
                 intro c' hc'
                 cases hc'
                 exact ⟨(hk.2.2 c hc).1, ho⟩)
  | other name argv mine =>
    show Inv (if name = "fluvio-run" then w
      else { w with procs := w.procs ++ [⟨w.nextPid, name, argv, mine, none⟩], nextPid := w.nextPid + 1 })
    split
    · exact h
    · rename_i hx
      refine ⟨⟨?_, ?_, ?_⟩, ?_, h.2.2⟩
      · rw [List.map_append, List.nodup_append]
        refine ⟨h.1.1, by simp, ?_⟩
        intro a ha b hb
        obtain ⟨p, hp, rfl⟩ := List.mem_map.1 ha
        have := h.1.2.1 p hp
        simp at hb
        omega
      · intro p hp
        dsimp only
        rcases List.mem_append.1 hp with hp | hp
        · have := h.1.2.1 p hp; omega
        · simp at hp; subst hp; dsimp only; omega
      · intro p hp n hn
        rcases List.mem_append.1 hp with hp | hp
        · obtain ⟨q, hq, r⟩ := h.1.2.2 p hp n hn
          exact ⟨q, List.mem_append_left _ hq, r⟩
        · simp at hp; subst hp; cases hn
      · unfold components
        dsimp only
        rw [List.filter_append]
        have := h.2.1
        unfold components at this
        simpa [hx] using this
  | gone pid =>
    show Inv { w with procs := settle (w.procs.filter fun p => p.pid != pid) }
    refine ⟨tidy_settle w h.1 _ List.filter_sublist _ rfl rfl, ?_, h.2.2⟩
    refine roles_sublist w _ h.2.1 ?_
    unfold settle
    exact List.filter_sublist.trans List.filter_sublist
  | write dir r => exact h

private theorem C110.inv_run (w : World) (h : Inv w) (ops : List Op) (ho : ∀ o ∈ ops, Checked o) : Inv (run w ops) := by
  induction ops generalizing w with
  | nil => exact h
  | cons o ops ih =>
    exact ih _ (inv_step w h o (ho o List.mem_cons_self)) fun o' h' => ho o' (List.mem_cons_of_mem _ h')

private theorem C110.inv_fresh (w : World) (h : Fresh w) : Inv w := by
  refine ⟨⟨by simp [h.1], by simp [h.1], by simp [h.1]⟩, by simp [components, h.1], ?_⟩
  intro c hc; rw [h.2] at hc; cases hc

/-- Whatever commands people give, without skipping the checks, and whatever else happens on the machine: there is never
more than one controller, nor more than one process of a broker. -/
theorem C110_one_cluster (w : World) (h : Fresh w) (ops : List Op) (ho : ∀ o ∈ ops, Checked o) :
    ((components (run w ops)).map role).Nodup := (inv_run w (inv_fresh w h) ops ho).2.1

/-- A start without `--skip-checks` does nothing if a component of a cluster runs or a cluster was not deleted. -/
theorem C110_start_refused (c : Config) (e : Env) (w : World) (hs : c.skipChecks = false)
    (h : (∃ p ∈ w.procs, p.name = "fluvio-run") ∨ w.config.isSome) : start c e w = (w, false) := by
  unfold start
  have : (noneRunning w && w.config.isNone) = false := by
    rcases h with ⟨p, hp, e⟩ | h
    · have : noneRunning w = false := by
        rw [Bool.eq_false_iff]; intro hx; exact (noneRunning_iff w).1 hx p hp e
      simp [this]
    · cases hc : w.config
      · rw [hc] at h; cases h
      · simp
  simp [hs, this]

/-! ### Stopping -/

/-- A shutdown of a local cluster ends every component that people may end. It keeps all other processes, the saved
description, the profile and every data directory. -/
theorem C110_stopped (w : World) (p : Profile) (hp : w.profile = some p) (hk : p.kind = .onThisMachine)
    (hpl : ∀ q ∈ w.procs, q.argv.head? ≠ some "run" ∧ q.argv.head? ≠ some "cluster") :
    (shutdown w).2 = true ∧
    (∀ q ∈ (shutdown w).1.procs, q ∈ w.procs ∧ ¬ (q.name = "fluvio-run" ∧ q.mine = true)) ∧
    (∀ q ∈ w.procs, q.name ≠ "fluvio-run" → q.waits = none → q ∈ (shutdown w).1.procs) ∧
    (shutdown w).1.config = w.config ∧ (shutdown w).1.profile = w.profile ∧ (shutdown w).1.dirs = w.dirs ∧
    (shutdown w).1.socket = false := by
  have e : shutdown w = (shutdownLocal w, true) := by unfold shutdown; rw [hp]; dsimp only; rw [hk]
  rw [e]
  refine ⟨rfl, ?_, ?_, rfl, rfl, rfl, rfl⟩
  · intro q hq
    have hq' : q ∈ killLocal w.procs := hq
    rw [killLocal_plain _ hpl, mem_settle, List.mem_filter] at hq'
    refine ⟨hq'.1.1, fun ⟨a, b⟩ => ?_⟩
    have := hq'.1.2
    rw [a, b] at this
    simp at this
  · intro q hq hn hw
    show q ∈ killLocal w.procs
    rw [killLocal_plain _ hpl, mem_settle, List.mem_filter]
    refine ⟨⟨hq, by simp [hn]⟩, fun n hx => by rw [hw] at hx; cases hx⟩

/-- Wherever an execution has led: what a start has started, however far it came, a shutdown ends completely, and the
processes are those from before. -/
theorem C110_stop_undoes_start (w0 : World) (h0 : Fresh w0) (ops : List Op) (ho : ∀ o ∈ ops, Checked o) (w : World)
    (hw : w = run w0 ops) (hn : ∀ p ∈ w.procs, p.name ≠ "fluvio-run") (hc : w.config = none)
    (hpl : ∀ q ∈ w.procs, q.argv.head? ≠ some "run" ∧ q.argv.head? ≠ some "cluster")
    (c : Config) (hl : c.launcher ≠ "run" ∧ c.launcher ≠ "cluster") (hs : c.saveProfile = true) (e : Env) :
    (shutdown (start c e w).1).1.procs = w.procs ∧ (start c e w).2 = (e.scUp && e.online) := by
  have hi := inv_run w0 (inv_fresh w0 h0) ops ho
  rw [← hw] at hi
  have he : start c e w = installOnly c e w := by
    unfold start
    rw [(noneRunning_iff w).2 hn, hc]
    simp
  rw [he]
  obtain ⟨_, b, d, _⟩ := installOnly_config c e w
  refine ⟨?_, b⟩
  have : shutdown (installOnly c e w).1 = (shutdownLocal (installOnly c e w).1, true) := by
    unfold shutdown; rw [d, hs]; rfl
  rw [this]
  show killLocal (installOnly c e w).1.procs = w.procs
  rw [installOnly_procs]
  exact kill_launch w (tidy_of w hi.1) hn hpl c hl _

/-! ### Resuming -/

private theorem C110.components_install (c : Config) (hc : c.launcherName ≠ "fluvio-run") (e : Env) (w : World)
    (hn : ∀ p ∈ w.procs, p.name ≠ "fluvio-run") :
    (components (installOnly c e w).1).map Proc.argv = (argsOf c e).map ("fluvio-run" :: ·) := by
  unfold components
  rw [installOnly_procs, List.filter_append]
  have : w.procs.filter (fun p => p.name == "fluvio-run") = [] := by
    rw [List.filter_eq_nil_iff]
    intro p hp
    simpa using hn p hp
  rw [this, List.nil_append]
  exact launch_components c _ _ hc

private theorem C110.start_done (c : Config) (e : Env) (w : World) (h : (start c e w).2 = true) :
    start c e w = installOnly c e w ∧ e = ⟨true, true⟩ := by
  unfold start at h ⊢
  split at h
  · cases h
  · rename_i hx
    rw [if_neg hx]
    rw [(installOnly_config c e w).2.1, Bool.and_eq_true] at h
    obtain ⟨s, o⟩ := e
    obtain ⟨rfl, rfl⟩ := h
    exact ⟨rfl, rfl⟩

/-- A cluster that was started can be resumed with the same version once none of its components runs any more, whatever
else happened on the machine as long as the saved description is the same: the components come back with the same command
lines, and the description stays. -/
theorem C110_resumed (c : Config) (hc : c.launcherName ≠ "fluvio-run") (e : Env) (w w1 : World)
    (hs : (start c e w).2 = true) (hn : ∀ p ∈ w.procs, p.name ≠ "fluvio-run")
    (hcfg : w1.config = (start c e w).1.config) (hn1 : ∀ p ∈ w1.procs, p.name ≠ "fluvio-run")
    (p : Profile) (hp : w1.profile = some p) (hk : p.kind = .onThisMachine) :
    (resume c.version ⟨true, true⟩ w1).2 = (true, true) ∧
    (components (resume c.version ⟨true, true⟩ w1).1).map Proc.argv = (components (start c e w).1).map Proc.argv ∧
    (resume c.version ⟨true, true⟩ w1).1.config = some c := by
  obtain ⟨es, rfl⟩ := start_done c e w hs
  rw [es] at hcfg ⊢
  obtain ⟨a, _, _, _⟩ := installOnly_config c ⟨true, true⟩ w
  have hcf : w1.config = some c := hcfg.trans (a.trans rfl)
  have er : resume c.version ⟨true, true⟩ w1 =
      ((installOnly c ⟨true, true⟩ w1).1, (installOnly c ⟨true, true⟩ w1).2, true) := by
    unfold resume
    rw [hp]; dsimp only; rw [hk]; dsimp only; rw [hcf]; dsimp only
    rw [(noneRunning_iff w1).2 hn1]
    simp
  rw [er]
  obtain ⟨a1, b1, _, _⟩ := installOnly_config c ⟨true, true⟩ w1
  refine ⟨by dsimp only; rw [b1]; rfl, ?_, a1⟩
  rw [components_install c hc _ w hn, components_install c hc _ w1 hn1]

/-- What runs after a start that succeeded: one controller and the wanted number of brokers, with the numbers from 5001
on. -/
theorem C110_started (c : Config) (hc : c.launcherName ≠ "fluvio-run") (hr : c.replicas ≤ 60535) (e : Env) (w : World)
    (hs : (start c e w).2 = true) (hn : ∀ p ∈ w.procs, p.name ≠ "fluvio-run") :
    (components (start c e w).1).map role =
      (some "sc", none) :: (List.range c.replicas).map fun i => (some "spu", some (toString (5001 + i))) := by
  obtain ⟨es, rfl⟩ := start_done c e w hs
  rw [es, roles_of_argv _ _ (components_install c hc _ w hn)]
  unfold argsOf
  rw [List.map_cons, if_pos rfl, List.map_map]
  congr 1
  apply List.map_congr_left
  intro i hi
  rw [List.mem_range] at hi
  have h1 : roleArgs (spuArgs c (createRelative c.tls i)) =
      (some "spu", some (toString (createRelative c.tls i).id)) := role_spu c _ _ rfl
  have h2 : (i + 5001) % 65536 = 5001 + i := by omega
  rw [createRelative_id, h2] at h1
  exact h1

/-- A running cluster is not resumed, nor one of another version, nor one that was never completely started. -/
theorem C110_not_resumed (v : Nat) (e : Env) (w : World)
    (h : (∃ p ∈ w.procs, p.name = "fluvio-run") ∨ w.config = none ∨ ∃ c, w.config = some c ∧ c.version ≠ v) :
    (resume v e w).1 = w ∧ (resume v e w).2.1 = false := by
  unfold resume
  split
  · exact ⟨rfl, rfl⟩
  · split
    all_goals first
      | exact ⟨rfl, rfl⟩
      | (split
         · exact ⟨rfl, rfl⟩
         · rename_i c hc
           rw [if_neg]
           · exact ⟨rfl, rfl⟩
           · simp only [Bool.and_eq_true, not_and]
             intro hn
             rcases h with ⟨p, hp, e⟩ | h | ⟨c', h, hv⟩
             · exact absurd e ((noneRunning_iff w).1 hn p hp)
             · rw [h] at hc; cases hc
             · rw [h] at hc; cases hc; simpa using hv)

/-- Code violation: a resume that fails tells the shell it succeeded, whatever the reason. -/
theorem C110_violated_resume_exit (v : Nat) (e : Env) (w : World) : (resume v e w).2.2 = w.profile.isSome := by
  unfold resume
  split
  · rename_i h; rw [h]; rfl
  · rename_i p h
    rw [h]
    split <;> first
      | rfl
      | (split
         · rfl
         · split <;> rfl)

/-- Code violation: a start whose brokers do not come online in time leaves its components running and saves no
description. Then neither a start nor a resume does anything, until a shutdown. -/
theorem C110_violated_failed_start (c c' : Config) (hs : c'.skipChecks = false) (e : Env)
    (he : (e.scUp && e.online) = false) (w : World) (v : Nat) (e' : Env) :
    (installOnly c e w).2 = false ∧ (installOnly c e w).1.config = w.config ∧
    start c' e' (installOnly c e w).1 = ((installOnly c e w).1, false) ∧
    (resume v e' (installOnly c e w).1).1 = (installOnly c e w).1 := by
  obtain ⟨a, b, _, _⟩ := installOnly_config c e w
  rw [he] at a b
  have hr : ∃ p ∈ (installOnly c e w).1.procs, p.name = "fluvio-run" := by
    rw [installOnly_procs]
    refine ⟨⟨w.nextPid + 1, "fluvio-run", "fluvio-run" :: scArgs c, true, none⟩, ?_, rfl⟩
    apply List.mem_append_right
    simp [argsOf, launch]
  exact ⟨b, a, C110_start_refused c' e' _ hs (.inl hr), (C110_not_resumed v e' _ (.inl hr)).1⟩

/-! ### Data -/

private theorem C110.dirs_step (w : World) (o : Op) (hd : ∀ x, o ≠ .delete x) (p : String) (d : Dir) (h : w.dirs p = some d) :
    ∃ d', (step w o).dirs p = some d' ∧ d.records <+: d'.records ∧ d.brokers <+: d'.brokers := by
  have same : ∃ d', w.dirs p = some d' ∧ d.records <+: d'.records ∧ d.brokers <+: d'.brokers :=
    ⟨d, h, List.prefix_refl _, List.prefix_refl _⟩
  have inst : ∀ c e, ∃ d', (installOnly c e w).1.dirs p = some d' ∧ d.records <+: d'.records ∧ d.brokers <+: d'.brokers := by
    intro c e
    obtain ⟨d', a, b, x⟩ := installOnly_dirs c e w p d h
    exact ⟨d', a, by rw [b]; exact List.prefix_refl _, x⟩
  cases o with
  | start c e =>
    show ∃ d', (start c e w).1.dirs p = some d' ∧ _
    unfold start
    split
    · exact same
    · exact inst c e
  | resume v e =>
    show ∃ d', (resume v e w).1.dirs p = some d' ∧ _
    unfold resume
    split
    · exact same
    · split
      all_goals first
        | exact same
        | (split
           · exact same
           · split
             · exact inst _ e
             · exact same)
  | shutdown =>
    show ∃ d', (shutdown w).1.dirs p = some d' ∧ _
    unfold shutdown
    split
    · exact same
    · split <;> exact same
  | delete o => exact absurd rfl (hd o)
  | upgrade v l n m r =>
    show ∃ d', (upgrade v l n m r w).1.dirs p = some d' ∧ _
    unfold upgrade
    split
    · exact same
    · split
      · exact same
      · split
        all_goals first
          | exact same
          | (dsimp only
             split
             · exact same
             · split <;> exact same)
  | other name argv mine =>
    show ∃ d', (if name = "fluvio-run" then w
      else { w with procs := w.procs ++ [⟨w.nextPid, name, argv, mine, none⟩], nextPid := w.nextPid + 1 }).dirs p = some d' ∧ _
    split <;> exact same
  | gone pid => exact same
  | write dir r =>
    show ∃ d', (if p = dir then (w.dirs dir).map fun d => { d with records := d.records ++ [r] } else w.dirs p) = some d' ∧ _
    split
    · rename_i e; subst e
      rw [h]
      exact ⟨_, rfl, List.prefix_append _ _, List.prefix_refl _⟩
    · exact same

/-- No command but a deletion takes away records or registered brokers from any data directory. -/
theorem C110_data_kept (w : World) (ops : List Op) (hd : ∀ o ∈ ops, ∀ x, o ≠ .delete x) (p : String) (d : Dir)
    (h : w.dirs p = some d) :
    ∃ d', (run w ops).dirs p = some d' ∧ d.records <+: d'.records ∧ d.brokers <+: d'.brokers := by
  induction ops generalizing w d with
  | nil => exact ⟨d, h, List.prefix_refl _, List.prefix_refl _⟩
  | cons o ops ih =>
    obtain ⟨d1, a, b, c⟩ := dirs_step w o (hd o List.mem_cons_self) p d h
    obtain ⟨d2, a2, b2, c2⟩ := ih (step w o) (fun o' h' => hd o' (List.mem_cons_of_mem _ h')) d1 a
    exact ⟨d2, a2, b.trans b2, c.trans c2⟩

/-! ### Deleting -/

/-- Without `--force` nothing is deleted unless people type the name of the cluster. -/
theorem C110_confirmed (o : DeleteOpt) (w : World) (p : Profile) (hp : w.profile = some p) (hf : o.force = false)
    (ht : trim o.typed ≠ p.cluster) : delete o w = (w, none, true) := by
  unfold delete
  rw [hp]
  simp [hf, ht]

/-- A deletion of a local cluster ends its components and removes its description, and its data if these lie in the
default directory. Afterwards a start is not refused. Partial: the data of a cluster with a data directory of its own stay
(`C110_violated_own_dir`). -/
theorem C110_deleted_partial (o : DeleteOpt) (w : World) (p : Profile) (hp : w.profile = some p) (hk : p.kind = .onThisMachine)
    (hf : o.force = true ∨ trim o.typed = p.cluster) (ho : o.k8Only = false ∧ o.sysOnly = false)
    (c : Config) (_hc : w.config = some c) (hd : c.dataDir = defaultDataDir)
    (hpl : ∀ q ∈ w.procs, q.argv.head? ≠ some "run" ∧ q.argv.head? ≠ some "cluster")
    (hm : ∀ q ∈ w.procs, q.name = "fluvio-run" → q.mine = true) :
    (delete o w).2.2 = true ∧ (delete o w).1.config = none ∧ (delete o w).1.dirs c.dataDir = none ∧
    (∀ d, d ≠ c.dataDir → (delete o w).1.dirs d = w.dirs d) ∧
    (∀ q ∈ (delete o w).1.procs, q.name ≠ "fluvio-run") ∧
    ∀ c' e, (start c' e (delete o w).1).2 = (e.scUp && e.online) := by
  have e : delete o w = (uninstallLocal w, some ⟨true, false, false⟩, true) := by
    unfold delete
    rw [hp]
    have : (!o.force && trim o.typed != p.cluster) = false := by
      rcases hf with hf | hf <;> simp [hf]
    dsimp only
    rw [this, hk]
    simp [plan, ho]
  rw [e]
  have hgone : ∀ q ∈ (uninstallLocal w).procs, q.name ≠ "fluvio-run" := by
    intro q hq hn
    have hq' : q ∈ killLocal w.procs := hq
    rw [killLocal_plain _ hpl, mem_settle, List.mem_filter] at hq'
    have := hq'.1.2
    rw [hn, hm q hq'.1.1 hn] at this
    simp at this
  refine ⟨rfl, rfl, ?_, ?_, hgone, ?_⟩
  · show (if c.dataDir = defaultDataDir then none else w.dirs c.dataDir) = none
    rw [if_pos hd]
  · intro d hne
    show (if d = defaultDataDir then none else w.dirs d) = w.dirs d
    rw [if_neg (by rw [← hd]; exact hne)]
  · intro c' e'
    unfold start
    rw [(noneRunning_iff _).2 hgone]
    have : (uninstallLocal w).config.isNone = true := rfl
    rw [this]
    simp only [Bool.and_self, Bool.not_true, Bool.and_false, Bool.false_eq_true, if_false]
    exact (installOnly_config c' e' _).2.1

/-- Code violation: the data of a cluster with a data directory of its own are not deleted, so that the next cluster in
this directory finds all the old records; instead the default directory is removed, whatever lies there. -/
theorem C110_violated_own_dir (o : DeleteOpt) (w : World) (p : Profile) (hp : w.profile = some p)
    (hk : p.kind = .onThisMachine) (hf : o.force = true) (ho : o.k8Only = false ∧ o.sysOnly = false)
    (c : Config) (hd : c.dataDir ≠ defaultDataDir) (d : Dir)
    (hx : w.dirs c.dataDir = some d) (c' : Config) (e' : Env) :
    (delete o w).1.dirs c.dataDir = some d ∧ (delete o w).1.dirs defaultDataDir = none ∧
    ∃ d', (installOnly c' e' (delete o w).1).1.dirs c.dataDir = some d' ∧ d'.records = d.records := by
  have e : delete o w = (uninstallLocal w, some ⟨true, false, false⟩, true) := by
    unfold delete
    rw [hp]
    dsimp only
    rw [hk]
    simp [plan, ho, hf]
  rw [e]
  have h1 : (uninstallLocal w).dirs c.dataDir = some d := by
    show (if c.dataDir = defaultDataDir then none else w.dirs c.dataDir) = some d
    rw [if_neg hd]; exact hx
  obtain ⟨d', a, b, _⟩ := installOnly_dirs c' e' (uninstallLocal w) c.dataDir d h1
  exact ⟨h1, rfl, d', a, b⟩

/-- A deletion touches Kubernetes only for clusters there, and a cluster of the cloud or of Docker is never deleted,
unless the options `--k8` or `--sys` are given. -/
theorem C110_delete_kinds (o : DeleteOpt) (w : World) (p : Profile) (hp : w.profile = some p)
    (ho : o.k8Only = false ∧ o.sysOnly = false) (pl : Plan) (h : (delete o w).2.1 = some pl) :
    p.kind ≠ .cloud ∧ p.kind ≠ .docker ∧ (pl.k8 = true ↔ p.kind = .k8 ∨ p.kind = .localK8) ∧
    (pl.here = true ↔ p.kind ≠ .k8) := by
  unfold delete at h
  rw [hp] at h
  dsimp only at h
  split at h
  · cases h
  · cases hk : p.kind <;> rw [hk] at h <;> simp [plan, ho] at h <;> subst h <;> decide

/-- Code violation: with `--k8` the current cluster is not looked at: people with a cloud profile, which is never deleted,
delete what is installed on Kubernetes after having confirmed the name of the cloud cluster. -/
theorem C110_violated_cloud_delete (w : World) (p : Profile) (hp : w.profile = some p) (_hk : p.kind = .cloud)
    (o : DeleteOpt) (h8 : o.k8Only = true ∧ o.sysOnly = false) (hf : o.force = true) :
    (delete o w).2 = (some ⟨false, true, false⟩, true) := by
  unfold delete
  rw [hp]
  simp [plan, h8, hf]

/-! ### Upgrading -/

/-- An upgrade stops the cluster and changes only version and launcher of its description; a resume with the new version
starts the components with the command lines they had when the cluster was first started (in `w0`). -/
theorem C110_upgraded (v : Nat) (l n : String) (hn : n ≠ "fluvio-run") (m : String → Bool) (hm : m defaultDataDir = true)
    (w : World) (p : Profile) (hp : w.profile = some p) (hk : p.kind = .onThisMachine) (c : Config)
    (hc : w.config = some c)
    (hpl : ∀ q ∈ w.procs, q.argv.head? ≠ some "run" ∧ q.argv.head? ≠ some "cluster")
    (hmine : ∀ q ∈ w.procs, q.name = "fluvio-run" → q.mine = true) (w' : World)
    (hw : w' = (upgrade v l n m none w).1) (w0 : World) (hs : (start c ⟨true, true⟩ w0).2 = true)
    (h0 : ∀ q ∈ w0.procs, q.name ≠ "fluvio-run") (hl : c.launcherName ≠ "fluvio-run") :
    (upgrade v l n m none w).2 = (true, true) ∧ (∀ q ∈ w'.procs, q.name ≠ "fluvio-run") ∧
    w'.dirs = w.dirs ∧ (resume v ⟨true, true⟩ w').2.1 = true ∧
    (c.version ≠ v → (resume c.version ⟨true, true⟩ w').2.1 = false) ∧
    (components (resume v ⟨true, true⟩ w').1).map Proc.argv =
      (components (start c ⟨true, true⟩ w0).1).map Proc.argv := by
  rw [(start_done c _ w0 hs).1, components_install c hl _ w0 h0]
  have e : upgrade v l n m none w =
      ({ shutdownLocal w with config := some { c with version := v, launcher := l, launcherName := n } }, true, true) := by
    unfold upgrade
    rw [hp]
    dsimp only
    rw [if_neg (by simp), hk]
    dsimp only
    rw [hm]
    have : (shutdownLocal w).config = some c := hc
    simp only [Bool.not_true, Bool.false_eq_true, if_false, this]
  rw [e] at hw ⊢
  have hgone : ∀ q ∈ w'.procs, q.name ≠ "fluvio-run" := by
    intro q hq hx
    have hq' : q ∈ killLocal w.procs := by rw [hw] at hq; exact hq
    rw [killLocal_plain _ hpl, mem_settle, List.mem_filter] at hq'
    have := hq'.1.2
    rw [hx, hmine q hq'.1.1 hx] at this
    simp at this
  have hcf : w'.config = some { c with version := v, launcher := l, launcherName := n } := by rw [hw]
  have hpf : w'.profile = some p := by rw [hw]; exact hp
  have er : resume v ⟨true, true⟩ w' =
      ((installOnly { c with version := v, launcher := l, launcherName := n } ⟨true, true⟩ w').1,
       (installOnly { c with version := v, launcher := l, launcherName := n } ⟨true, true⟩ w').2, true) := by
    unfold resume
    rw [hpf]; dsimp only; rw [hk]; dsimp only; rw [hcf]; dsimp only
    rw [(noneRunning_iff w').2 hgone]
    simp
  refine ⟨rfl, hgone, by rw [hw]; rfl, ?_, ?_, ?_⟩
  · rw [er]
    exact (installOnly_config { c with version := v, launcher := l, launcherName := n } ⟨true, true⟩ w').2.1
  · intro hv
    exact (C110_not_resumed c.version _ w' (.inr (.inr ⟨_, hcf, fun h => hv h.symm⟩))).2
  · rw [er]
    exact components_install { c with version := v, launcher := l, launcherName := n } hn ⟨true, true⟩ w' hgone

/-- Code violation: the metadata that are checked before an upgrade are those in the default directory, not those of the
cluster; and an upgrade that fails has stopped the cluster and tells the shell it succeeded. -/
theorem C110_violated_upgrade (v : Nat) (l n : String) (m : String → Bool) (w : World) (p : Profile)
    (hp : w.profile = some p) (hk : p.kind = .onThisMachine) (hm : m defaultDataDir = false) :
    (upgrade v l n m none w).2 = (false, true) ∧ (upgrade v l n m none w).1.procs = killLocal w.procs ∧
    ∀ m' : String → Bool, m' defaultDataDir = m defaultDataDir → upgrade v l n m' none w = upgrade v l n m none w := by
  have e : ∀ m' : String → Bool, m' defaultDataDir = false →
      upgrade v l n m' none w = (shutdownLocal w, false, true) := by
    intro m' h
    unfold upgrade
    rw [hp]
    dsimp only
    rw [if_neg (by simp), hk]
    dsimp only
    rw [h]
    rfl
  refine ⟨by rw [e m hm], by rw [e m hm]; rfl, ?_⟩
  intro m' h
  rw [e m hm, e m' (h.trans hm)]

/-- Code violation: the two searches for processes `fluvio run …` and `fluvio cluster run …` find nothing that a start has
started, as they compare with the whole command line, program included; these processes end only because the components
they wait for end. -/
theorem C110_violated_search (c : Config) (hl : c.launcher ≠ "run" ∧ c.launcher ≠ "cluster") (e : Env) (n : Nat) :
    killProc "fluvio" (some ["run"]) (launch c (argsOf c e) n) = launch c (argsOf c e) n ∧
    killProc "fluvio" (some ["cluster", "run"]) (launch c (argsOf c e) n) = launch c (argsOf c e) n ∧
    ∃ p ∈ launch c (argsOf c e) n, p.name = c.launcherName ∧ p.argv[1]? = some "run" := by
  have hh : ∀ p ∈ launch c (argsOf c e) n, p.argv.head? ≠ some "run" ∧ p.argv.head? ≠ some "cluster" := by
    intro p h
    rcases mem_launch c _ _ p h with ⟨k, _, _, _, _, a, _, h5⟩ | ⟨k, _, _, _, _, a, _, h5⟩
    · rw [h5]; simpa using hl
    · rw [h5]; simp
  refine ⟨?_, ?_, ?_⟩
  · unfold killProc
    rw [List.filter_eq_self]
    intro p hp
    rw [(not_wanted p (hh p hp).1 (hh p hp).2).1]; rfl
  · unfold killProc
    rw [List.filter_eq_self]
    intro p hp
    rw [(not_wanted p (hh p hp).1 (hh p hp).2).2]; rfl
  · exact ⟨_, List.mem_cons_self, rfl, rfl⟩

/-! ### Examples -/

private def C110.w0 : World := ⟨[], 100, none, fun _ => none, false, none⟩
private def C110.conf : Config := { version := 1, dataDir := defaultDataDir, launcher := "/usr/bin/fluvio", replicas := 2 }
private def C110.conf2 : Config := { conf with dataDir := "/data" }
private def C110.up : Env := ⟨true, true⟩
private def C110.ops : List Op :=
  [.other "fluvio" ["fluvio", "consume", "t"] true, .start conf up, .start conf up, .write defaultDataDir 7, .shutdown]
private def C110.w1 : World := run w0 ops

example : Fresh w0 := ⟨rfl, rfl⟩
example : ∀ o ∈ ops, Checked o := by
  intro o ho
  simp only [ops, List.mem_cons, List.not_mem_nil, or_false] at ho
  rcases ho with rfl | rfl | rfl | rfl | rfl <;> simp [Checked, Sane, conf]
-- a started cluster: a controller and two brokers, each with its waiting process
example : (start conf up w0).1.procs.map (fun p => (p.name, p.argv.take 3)) =
    [("fluvio", ["/usr/bin/fluvio", "run", "sc"]), ("fluvio-run", ["fluvio-run", "sc", "--local"]),
     ("fluvio", ["/usr/bin/fluvio", "run", "spu"]), ("fluvio-run", ["fluvio-run", "spu", "-i"]),
     ("fluvio", ["/usr/bin/fluvio", "run", "spu"]), ("fluvio-run", ["fluvio-run", "spu", "-i"])] := by decide
example : (components (start conf up w0).1).map role =
    [(some "sc", none), (some "spu", some "5001"), (some "spu", some "5002")] := by decide
-- after the execution only the unrelated process runs, the record is kept, and a resume brings the cluster back
example : w1.procs.map (·.argv) = [["fluvio", "consume", "t"]] := by decide
example : w1.dirs defaultDataDir = some ⟨[5001, 5002], [7]⟩ := by decide
example : (resume 1 up w1).2 = (true, true) ∧ (components (resume 1 up w1).1).length = 3 := by decide
example : (resume 2 up w1).2 = (false, true) := by decide
-- a deletion, of a cluster with the default directory and of one with its own
example : (delete { typed := " local " } w1).1.dirs defaultDataDir = none := by decide
example : (delete { typed := "loc" } w1).1.dirs defaultDataDir = some ⟨[5001, 5002], [7]⟩ := by decide
example : ((delete { force := true } (start conf2 up w0).1).1.dirs "/data").isSome := by decide
-- an upgrade and a resume with the new version
example : (upgrade 2 "/usr/bin/fluvio2" "fluvio2" (fun _ => true) none w1).2 = (true, true) ∧
    (resume 2 up (upgrade 2 "/usr/bin/fluvio2" "fluvio2" (fun _ => true) none w1).1).2 = (true, true) := by decide

end Verif.Props
