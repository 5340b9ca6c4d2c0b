import Verif.Cli.Channel

/-!
# C113: release channels
-/

namespace Verif.Props

open Verif.Cli.Channel

namespace C113

/-- Every name stands for one channel. -/
def Unique (c : Config) : Prop := c.channels.Pairwise fun a b => a.1 ≠ b.1

/-- There is no configuration yet, or it can be read and the current channel is in it. -/
def Good (s : Stored) : Prop :=
  s = .missing ∨ ∃ c i, s = .config c ∧ (c.current, i) ∈ c.channels

/-- The call goes on to the binary of a channel, with these arguments as the frontend sees them. -/
inductive Forwarded : CmdLine → List String → Prop
  | unparsed (raw) : Forwarded ⟨raw, none⟩ raw
  | other (raw args) : Forwarded ⟨raw, some (false, .other args)⟩ args
  | version (raw) : Forwarded ⟨raw, some (false, .version false none)⟩ []

/-- The text of a strategy. -/
def strategyName (s : Strategy) : String :=
  if s = .version then "version" else if s = .versionGit then "version-git" else "git"

theorem get_mem {c : Config} {n : String} {i : Info} (h : c.get n = some i) : (n, i) ∈ c.channels := by
  simp only [Config.get, Option.map_eq_some_iff] at h
  obtain ⟨x, hf, rfl⟩ := h
  have h1 := List.find?_some hf
  simp only [beq_iff_eq] at h1
  subst h1
  exact List.mem_of_find?_eq_some hf

theorem mem_get_some {c : Config} {n : String} {i : Info} (h : (n, i) ∈ c.channels) : ∃ j, c.get n = some j := by
  simp only [Config.get, Option.map_eq_some_iff]
  cases hf : c.channels.find? fun x => x.1 == n with
  | none => exact absurd (List.find?_eq_none.mp hf _ h) (by simp)
  | some x => exact ⟨x.2, x, rfl, rfl⟩

theorem unique_eq {l : List (String × Info)} (hu : l.Pairwise fun a b => a.1 ≠ b.1) {n : String} {i j : Info}
    (hi : (n, i) ∈ l) (hj : (n, j) ∈ l) : i = j := by
  induction l with
  | nil => cases hi
  | cons x l ih =>
    rw [List.pairwise_cons] at hu
    cases hi with
    | head =>
      cases hj with
      | head => rfl
      | tail _ hj => exact absurd rfl (hu.1 (n, j) hj)
    | tail _ hi =>
      cases hj with
      | head => exact absurd rfl (hu.1 (n, i) hi)
      | tail _ hj => exact ih hu.2 hi hj

theorem mem_get {c : Config} (hu : Unique c) {n : String} {i : Info} (h : (n, i) ∈ c.channels) :
    c.get n = some i := by
  obtain ⟨j, hj⟩ := mem_get_some h
  rw [hj, unique_eq hu h (get_mem hj)]

theorem get_none {c : Config} {n : String} (h : ∀ i, (n, i) ∉ c.channels) : c.get n = none := by
  cases hg : c.get n with
  | none => rfl
  | some i => exact absurd (get_mem hg) (h i)

theorem mem_remove {c : Config} {n m : String} {j : Info} :
    (m, j) ∈ (c.remove n).channels ↔ m ≠ n ∧ (m, j) ∈ c.channels := by
  simp [Config.remove, and_comm]

theorem mem_insert {c : Config} {n m : String} {i j : Info} :
    (m, j) ∈ (c.insert n i).channels ↔ (m = n ∧ j = i) ∨ (m ≠ n ∧ (m, j) ∈ c.channels) := by
  simp only [Config.insert, List.mem_cons, Prod.mk.injEq, mem_remove]

theorem load_of {d : Disk} {p : Path} {c : Config} (h : d.configs p = .config c) : load d p = some c := by
  simp [load, h]

theorem of_load {d : Disk} {p : Path} {c : Config} (h : load d p = some c) : d.configs p = .config c := by
  revert h
  simp only [load]
  cases d.configs p <;> simp

theorem save_same (d : Disk) (p : Path) (c : Config) : (save d p c).configs p = .config c := by simp [save]

theorem save_other (d : Disk) {p q : Path} (c : Config) (h : q ≠ p) : (save d p c).configs q = d.configs q := by
  simp [save, h]

theorem install_configs {e : Env} {d d' : Disk} {n : String} {c : Config} {v : BinVersion}
    (h : install e d n c v = some d') : d'.configs = d.configs ∧ d'.dir = d.dir := by
  revert h
  simp only [install]
  cases c.get n with
  | none => simp
  | some i =>
    simp only
    split
    · simp
    · cases e.fetch v <;> simp <;> rintro rfl <;> exact ⟨rfl, rfl⟩

theorem createBinary_configs {e : Env} {d d' : Disk} {n : String} {c : Config} {b : Path}
    (h : createBinary e d n c b = some d') : d'.configs = d.configs ∧ d'.dir = d.dir := by
  revert h
  simp only [createBinary]
  split
  · simp only [Option.some.injEq]; rintro rfl; exact ⟨rfl, rfl⟩
  · cases parseVersion e n with
    | none => simp
    | some v => exact install_configs

theorem install_files {e : Env} {d d' : Disk} {n : String} {c : Config} {v : BinVersion} {i : Info}
    (hg : c.get n = some i) (h : install e d n c v = some d') :
    ∀ q, d'.file q = true ↔ d.file q = true ∨ (q = i.binary ∧ e.fetch v = .package) := by
  revert h
  simp only [install, hg]
  split
  · simp
  · cases e.fetch v with
    | failed => simp
    | unpublished => simp only [Option.some.injEq]; rintro rfl q; simp
    | package => simp only [Option.some.injEq]; rintro rfl q; simp [or_comm]

theorem insert_get (c : Config) (n : String) (i : Info) : (c.insert n i).get n = some i := by
  simp [Config.get, Config.insert]

theorem switchBinary_configs {e : Env} {d d' : Disk} {n : String} {c : Config}
    (h : switchBinary e d n c = some d') : d'.configs = d.configs ∧ d'.dir = d.dir := by
  revert h
  simp only [switchBinary]
  split
  · cases parseVersion e n with
    | none => simp
    | some v => exact install_configs
  · simp only [Option.some.injEq]; rintro rfl; exact ⟨rfl, rfl⟩

theorem removeFile_configs {d d' : Disk} {p : Path} (h : removeFile d p = some d') : d'.configs = d.configs := by
  revert h; simp only [removeFile]; split
  · simp only [Option.some.injEq]; rintro rfl; rfl
  · simp

theorem removeDirAll_configs {d d' : Disk} {p : Path} (h : removeDirAll d p = some d') :
    d'.configs = d.configs := by
  revert h; simp only [removeDirAll]; split
  · simp only [Option.some.injEq]; rintro rfl; rfl
  · simp

theorem delete_configs {e : Env} {d : Disk} {p : Option Path} {n : String} {c : Config} {i : Info}
    (hc : d.configs (p.getD (location e)) = .config c) (hg : c.get n = some i) :
    (delete e d p (some n)).1.configs = (save d (p.getD (location e)) (c.remove n)).configs := by
  simp only [delete, load_of hc, hg]
  cases h1 : removeFile (save d (p.getD (location e)) (c.remove n)) i.binary with
  | none => rfl
  | some d2 =>
    simp only
    cases h2 : removeDirAll d2 i.extensions with
    | none => exact removeFile_configs h1
    | some d3 => exact (removeDirAll_configs h2).trans (removeFile_configs h1)

theorem forward_spec {e : Env} {v : Vars} {d : Disk} {l : CmdLine} {args : List String} (hl : v.loop = none)
    (h : Forwarded l args) : ∃ cmd, main e v d l = forward e v d false cmd l.raw ∧
      ∀ n, refuses cmd n = (args.contains "update" && isPinned n) := by
  cases h with
  | unparsed _ => exact ⟨.other args, by simp [main, hl], fun _ => rfl⟩
  | other raw args => exact ⟨.other args, by simp [main, hl], fun _ => rfl⟩
  | version raw => exact ⟨.version false none, by simp [main, hl], fun _ => by simp [refuses]⟩

end C113

open C113

/-- What the frontend runs is the binary of the current channel, with the arguments unchanged and the name, the
extensions and the tag strategy of that channel in the environment; nothing on disk is changed. -/
theorem C113_runs_current {e : Env} {v : Vars} {d d' : Disk} {l : CmdLine} {args as : List String} {b : Path}
    {vars : Vars} {c : Config} (hf : isFrontend e v = true) (hl : Forwarded l as)
    (hc : d.configs (location e) = .config c) (h : main e v d l = (d', .ran b args vars)) :
    ∃ i, (c.current, i) ∈ c.channels ∧ b = i.binary ∧ d.file b = true ∧ args = l.raw ∧
      vars.releaseChannel = some c.current ∧ vars.extensionsDir = some i.extensions ∧
      vars.tagStrategy = some (strategyName i.strategy) ∧ d' = d := by
  cases hv : v.loop with
  | some x => simp [main, hv] at h
  | none =>
    obtain ⟨cmd, hm, -⟩ := forward_spec (e := e) (d := d) hv hl
    rw [hm] at h
    simp only [forward, chooseChannel, hf, hc, Bool.not_false, Bool.and_self, if_true] at h
    cases hg : c.get c.current with
    | none => simp [hg] at h
    | some i =>
      simp only [hg, Option.map_some] at h
      split at h
      · simp at h
      · simp only [exec] at h
        split at h
        · rename_i hfile
          simp only [Prod.mk.injEq, Outcome.ran.injEq] at h
          obtain ⟨rfl, rfl, rfl, rfl⟩ := h
          refine ⟨i, get_mem hg, rfl, hfile, rfl, rfl, rfl, ?_, rfl⟩
          simp only [setVars]
          cases i.strategy <;> rfl
        · simp at h

/-- A call reaches the binary of the current channel if that is there, unless it is an update of a pinned version.
Not for all calls: a missing binary and an argument `update` of another command are treated below. -/
theorem C113_reached_partial {e : Env} {v : Vars} {d : Disk} {l : CmdLine} {as : List String} {c : Config} {i : Info}
    (hv : v.loop = none) (hf : isFrontend e v = true) (hl : Forwarded l as)
    (hc : d.configs (location e) = .config c) (hu : Unique c) (hi : (c.current, i) ∈ c.channels)
    (hb : d.file i.binary = true)
    (hup : "update" ∉ as ∨ c.current = "stable" ∨ c.current = "latest" ∨ c.current = "dev") :
    ∃ vars, main e v d l = (d, .ran i.binary l.raw vars) := by
  obtain ⟨cmd, hm, hr⟩ := forward_spec (e := e) (d := d) hv hl
  have hn : refuses cmd c.current = false := by
    rw [hr]
    rcases hup with h | h | h | h
    · simp [h]
    all_goals simp [h, isPinned]
  rw [hm]
  simp only [forward, chooseChannel, hf, hc, Bool.not_false, Bool.and_self, if_true, mem_get hu hi, Option.map_some,
    hn, exec, hb]
  exact ⟨_, rfl⟩

/-- On a pinned version `update` is refused. -/
theorem C113_update_refused {e : Env} {v : Vars} {d : Disk} {l : CmdLine} {as : List String} {c : Config} {i : Info}
    (hv : v.loop = none) (hf : isFrontend e v = true) (hl : Forwarded l as)
    (hc : d.configs (location e) = .config c) (hi : (c.current, i) ∈ c.channels) (hup : "update" ∈ as)
    (h1 : c.current ≠ "stable") (h2 : c.current ≠ "latest") (h3 : c.current ≠ "dev") :
    main e v d l = (d, .updateRefused) := by
  obtain ⟨cmd, hm, hr⟩ := forward_spec (e := e) (d := d) hv hl
  have hn : refuses cmd c.current = true := by
    rw [hr]
    simp [hup, isPinned, h1, h2, h3]
  obtain ⟨j, hj⟩ := mem_get_some hi
  rw [hm]
  simp [forward, chooseChannel, hf, hc, hj, hn]

/-- The first call, other than by the installer, makes a configuration with the stable channel as the only and
current one. -/
theorem C113_first_run {e : Env} {v : Vars} {d : Disk} {l : CmdLine} {as : List String}
    (hv : v.loop = none) (hf : isFrontend e v = true) (hb : v.bootstrap = false) (hl : Forwarded l as)
    (hc : d.configs (location e) = .missing) :
    ∃ i, (main e v d l).1.configs (location e) = .config ⟨"stable", [("stable", i)]⟩ ∧ i.strategy = .version := by
  obtain ⟨cmd, hm, -⟩ := forward_spec (e := e) (d := d) hv hl
  rw [hm]
  refine ⟨stableChannel e, ?_, ?_⟩
  · simp only [forward, chooseChannel, hf, hc, Bool.not_false, Bool.and_self, if_true, firstConfig, hb]
    simp only [Bool.false_eq_true, if_false]
    split <;> simp [save, Config.empty, Config.insert, Config.remove, Config.setCurrent]
  · simp only [stableChannel, newChannel]
    cases e.home <;> rfl

/-- After a switch that succeeds the channel is the current one and in the configuration, and all others are as
before — whatever the configuration was. -/
theorem C113_switch {e : Env} {d : Disk} {n : String} (h : (switch e d none (some n)).2 = true) :
    ∃ c i, (switch e d none (some n)).1.configs (location e) = .config c ∧ c.current = n ∧ (n, i) ∈ c.channels ∧
      ∀ c0, d.configs (location e) = .config c0 →
        (∀ m j, m ≠ n → ((m, j) ∈ c.channels ↔ (m, j) ∈ c0.channels)) ∧
        (∀ j, (n, j) ∈ c0.channels → c.channels = c0.channels) := by
  have hp : loadOrDefault e d none = (location e, (loadOrDefault e d none).2) := by
    simp only [loadOrDefault, Option.getD_none]; cases load d (location e) <;> rfl
  have hc0 : ∀ c0, d.configs (location e) = .config c0 → (loadOrDefault e d none).2 = c0 := by
    intro c0 h0; simp [loadOrDefault, load_of h0]
  revert h hc0
  rw [switch, hp]
  generalize (loadOrDefault e d none).2 = c1
  intro h hc0
  simp only at h ⊢
  cases hg : c1.get n with
  | some i =>
    simp only [Option.isSome_some, if_true, save_same]
    refine ⟨_, i, rfl, rfl, get_mem hg, fun c0 h0 => ?_⟩
    rw [← hc0 c0 h0]
    exact ⟨fun m j _ => Iff.rfl, fun _ _ => rfl⟩
  | none =>
    simp only [hg, Option.isSome_none, Bool.false_eq_true, if_false] at h ⊢
    cases hk : known e n with
    | none => simp [hk] at h
    | some i =>
      simp only [hk] at h ⊢
      cases hs : switchBinary e (save d (location e) ((c1.insert n i).setCurrent n)) n ((c1.insert n i).setCurrent n) with
      | none => simp [hs] at h
      | some d2 =>
        simp only [save_same]
        refine ⟨_, i, rfl, rfl, mem_insert.mpr (Or.inl ⟨rfl, rfl⟩), fun c0 h0 => ?_⟩
        rw [← hc0 c0 h0]
        refine ⟨fun m j hm => ?_, fun j hj => ?_⟩
        · refine mem_insert.trans ⟨?_, fun h => Or.inr ⟨hm, h⟩⟩
          rintro (⟨h, -⟩ | ⟨-, h⟩)
          · exact absurd h hm
          · exact h
        · obtain ⟨k, hk⟩ := mem_get_some hj
          rw [hg] at hk; exact nomatch hk

/-- Switching to a channel of the configuration always succeeds. -/
theorem C113_switch_succeeds {e : Env} {d : Disk} {n : String} {c : Config} {i : Info}
    (hc : d.configs (location e) = .config c) (hi : (n, i) ∈ c.channels) : (switch e d none (some n)).2 = true := by
  obtain ⟨j, hj⟩ := mem_get_some hi
  simp [switch, loadOrDefault, load_of hc, hj]

/-- Switching to a channel that is neither in the configuration nor one of the three known ones fails and changes
nothing. -/
theorem C113_switch_unknown {e : Env} {d : Disk} {n : String} (h1 : n ≠ "stable") (h2 : n ≠ "latest") (h3 : n ≠ "dev")
    (hno : ∀ c, d.configs (location e) = .config c → ∀ i, (n, i) ∉ c.channels) :
    switch e d none (some n) = (d, false) := by
  have hg : (loadOrDefault e d none).2.get n = none := by
    simp only [loadOrDefault, Option.getD_none]
    cases hl : load d (location e) with
    | none => rfl
    | some c => exact get_none (hno c (of_load hl))
  simp [switch, hg, known, h1, h2, h3]

/-- The program is a frontend if `FLUVIO_FRONTEND` says so or, without it, if it is called `fluvio`; otherwise it runs
the `fluvio` beside it as the development channel, whatever the configuration. -/
theorem C113_frontend {e : Env} {v : Vars} :
    isFrontend e v = true ↔
      v.frontend = some true ∨ (v.frontend = none ∧ (e.exeName = "fluvio" ∨ e.exeName = "fluvio.exe")) := by
  simp only [isFrontend]
  cases v.frontend with
  | none => simp
  | some b => simp

theorem C113_development {e : Env} {v : Vars} {d : Disk} {l : CmdLine} {as : List String} (hv : v.loop = none)
    (hf : isFrontend e v = false) (hl : Forwarded l as) (hb : d.file (e.exeDir ++ ["fluvio"]) = true) :
    ∃ vars, main e v d l = (d, .ran (e.exeDir ++ ["fluvio"]) l.raw vars) ∧ vars.releaseChannel = some "dev" ∧
      vars.tagStrategy = some "git" := by
  obtain ⟨cmd, hm, hr⟩ := forward_spec (e := e) (d := d) hv hl
  have hn : refuses cmd "dev" = false := by rw [hr]; simp [isPinned]
  rw [hm]
  refine ⟨setVars v "dev" (devChannel e), ?_, rfl, rfl⟩
  simp only [forward, chooseChannel, hf, Bool.false_and, Bool.false_eq_true, if_false, hn, exec]
  exact congrArg (Prod.mk d) (if_pos hb)

/-- With a configuration that cannot be read nothing is run and nothing changed. -/
theorem C113_unreadable {e : Env} {v : Vars} {d : Disk} {l : CmdLine} {as : List String} (hv : v.loop = none)
    (hf : isFrontend e v = true) (hl : Forwarded l as) (hc : d.configs (location e) = .unreadable) :
    main e v d l = (d, .failed) := by
  obtain ⟨cmd, hm, -⟩ := forward_spec (e := e) (d := d) hv hl
  rw [hm]
  simp [forward, chooseChannel, hf, hc]

/-- Creating a channel in a configuration that can be read adds or replaces this channel only, keeps the current one,
and touches no other configuration; of the files only the binary of the channel can be new. -/
theorem C113_create_partial {e : Env} {d : Disk} {o : CreateOpt} {n : String} {c0 : Config} (hn : o.channel = some n)
    (hc : d.configs (o.config.getD (location e)) = .config c0) (h : (create e d o).2 = true) :
    ∃ c i, (create e d o).1.configs (o.config.getD (location e)) = .config c ∧ c.current = c0.current ∧
      (∀ m j, (m, j) ∈ c.channels ↔ (m = n ∧ j = i) ∨ (m ≠ n ∧ (m, j) ∈ c0.channels)) ∧
      (∀ b, o.binary = some b → i.binary = b) ∧ (∀ x, o.extensions = some x → i.extensions = x) ∧
      (∀ s, o.strategy = some s → i.strategy = s) ∧
      (∀ q, q ≠ o.config.getD (location e) → (create e d o).1.configs q = d.configs q) ∧
      (create e d o).1.dir = d.dir ∧
      ∀ q, (create e d o).1.file q = true → d.file q = true ∨ q = i.binary := by
  have hp : loadOrDefault e d o.config = (o.config.getD (location e), c0) := by simp [loadOrDefault, load_of hc]
  revert h
  simp only [create, hn, hp]
  cases hb : createBinary e d n (c0.insert n (createInfo e o n)) (createInfo e o n).binary with
  | none => simp
  | some d' =>
    intro _
    obtain ⟨h1, h2⟩ := createBinary_configs hb
    refine ⟨_, createInfo e o n, save_same _ _ _, rfl, fun m j => mem_insert, ?_, ?_, ?_, ?_, h2, ?_⟩
    · intro b hb; simp [createInfo, hb]
    · intro b hb; simp [createInfo, hb]
    · intro b hb; simp [createInfo, hb]
    · intro q hq
      rw [save_other _ _ hq, h1]
    · intro q hq
      simp only [save] at hq
      revert hb
      simp only [createBinary]
      split
      · simp only [Option.some.injEq]; rintro rfl; exact Or.inl hq
      · cases parseVersion e n with
        | none => simp
        | some v =>
          intro hi
          exact ((install_files (insert_get _ _ _) hi q).mp hq).imp id (·.1)

/-- A creation that fails changes nothing. -/
theorem C113_create_fails {e : Env} {d : Disk} {o : CreateOpt} (h : (create e d o).2 = false) :
    (create e d o).1 = d := by
  revert h
  simp only [create]
  cases o.channel with
  | none => simp
  | some n =>
    simp only
    split <;> simp

/-- Deleting a channel takes it out of the configuration and leaves the others and the current channel; the files that
go are its binary and those below its directory of extensions. -/
theorem C113_delete {e : Env} {d : Disk} {p : Option Path} {n : String} {c : Config} {i : Info}
    (hc : d.configs (p.getD (location e)) = .config c) (hu : Unique c) (hi : (n, i) ∈ c.channels) :
    (∃ c', (delete e d p (some n)).1.configs (p.getD (location e)) = .config c' ∧ c'.current = c.current ∧
      ∀ m j, (m, j) ∈ c'.channels ↔ m ≠ n ∧ (m, j) ∈ c.channels) ∧
    (∀ q, q ≠ p.getD (location e) → (delete e d p (some n)).1.configs q = d.configs q) ∧
    (∀ q, (delete e d p (some n)).1.file q = false → d.file q = true → q = i.binary ∨ i.extensions <+: q) ∧
    (∀ q, (delete e d p (some n)).1.file q = true → d.file q = true) ∧
    (∀ q, (delete e d p (some n)).1.dir q = false → d.dir q = true → i.extensions <+: q) ∧
    ((delete e d p (some n)).2 = true ↔ d.file i.binary = true ∧ d.dir i.extensions = true) ∧
    ((delete e d p (some n)).2 = true → (delete e d p (some n)).1.file i.binary = false ∧
      ∀ q, i.extensions <+: q → (delete e d p (some n)).1.file q = false ∧
        (delete e d p (some n)).1.dir q = false) := by
  have hg := mem_get hu hi
  refine ⟨⟨c.remove n, ?_, rfl, fun m j => mem_remove⟩, fun q hq => ?_, ?_⟩
  · rw [delete_configs hc hg, save_same]
  · rw [delete_configs hc hg, save_other _ _ hq]
  · simp only [delete, load_of hc, hg, removeFile, save, removeDirAll]
    by_cases hb : d.file i.binary = true
    · by_cases hx : d.dir i.extensions = true
      · simp only [hb, hx, if_true]
        refine ⟨fun q h1 h2 => ?_, fun q h1 => ?_, fun q h1 h2 => ?_, by simp, fun _ => ⟨by simp, fun q hq => ?_⟩⟩
        · simp only [h2, Bool.and_true, Bool.and_eq_false_iff, bne_eq_false_iff_eq, Bool.not_eq_false',
            List.isPrefixOf_iff_prefix] at h1
          exact h1.symm
        · simp only [Bool.and_eq_true] at h1
          exact h1.2.2
        · simp only [h2, Bool.and_true, Bool.not_eq_false', List.isPrefixOf_iff_prefix] at h1
          exact h1
        · simp [List.isPrefixOf_iff_prefix.mpr hq]
      · simp only [hb, hx, if_true, if_false, Bool.false_eq_true]
        refine ⟨fun q h1 h2 => ?_, fun q h1 => ?_, fun q h1 h2 => ?_, by simp, by simp⟩
        · simp only [h2, Bool.and_true, bne_eq_false_iff_eq] at h1
          exact Or.inl h1
        · simp only [Bool.and_eq_true] at h1
          exact h1.2
        · rw [h1] at h2; exact nomatch h2
    · simp only [hb, if_false, Bool.false_eq_true]
      refine ⟨fun q h1 h2 => ?_, fun q h1 => h1, fun q h1 h2 => ?_, by simp, by simp⟩
      · rw [h1] at h2; exact nomatch h2
      · rw [h1] at h2; exact nomatch h2

namespace C113

theorem append_ne {a n m : String} (h : n ≠ m) : a ++ n ≠ a ++ m := by
  intro hh
  apply h
  have := congrArg String.toList hh
  simp only [String.toList_append, List.append_cancel_left_eq] at this
  exact String.ext this

end C113

/-- Channels created without paths share nothing: deleting one leaves the binary and the extensions of the other. -/
theorem C113_default_paths_apart (e : Env) {n m : String} (h : n ≠ m) :
    let i := createInfo e { channel := some n } n
    let j := createInfo e { channel := some m } m
    j.binary ≠ i.binary ∧ ¬ i.extensions <+: j.binary ∧ ∀ rest, ¬ i.extensions <+: j.extensions ++ rest := by
  have h1 : ("fluvio-" ++ m) ≠ "fluvio-" ++ n := append_ne (Ne.symm h)
  have h2 : ("extensions-" ++ n) ≠ "extensions-" ++ m := append_ne h
  have h3 : ("extensions-" ++ n) ≠ "fluvio-" ++ m := by
    intro hh
    have := congrArg (fun s => s.toList.head?) hh
    simp at this
  refine ⟨?_, ?_, fun rest => ?_⟩
  · simp only [createInfo, Option.getD_none, ne_eq, List.append_cancel_left_eq, List.cons.injEq, true_and, and_true]
    exact h1
  · simp only [createInfo, Option.getD_none, List.prefix_append_right_inj, List.cons_prefix_cons, true_and]
    exact fun hh => h3 hh.1
  · simp only [createInfo, Option.getD_none, List.append_assoc, List.prefix_append_right_inj, List.cons_append,
      List.cons_prefix_cons, true_and]
    exact fun hh => h2 hh.1

namespace C113

/-- A call that does not delete the current channel and does not create one in a configuration that cannot be read. -/
def Careful (e : Env) (d : Disk) (l : CmdLine) : Prop :=
  ∀ skip cmd, l.parsed = some (skip, .version false (some cmd)) →
    match cmd with
    | .create o => ∃ c, d.configs (o.config.getD (location e)) = .config c
    | .delete p n => p.getD (location e) = location e → ∀ c, d.configs (location e) = .config c → n ≠ some c.current
    | .switch _ _ => True

/-- The disk after a number of calls. -/
def after (e : Env) (d : Disk) : List (Vars × CmdLine) → Disk
  | [] => d
  | (v, l) :: rest => after e (main e v d l).1 rest

/-- All calls are careful. -/
def AllCareful (e : Env) (d : Disk) : List (Vars × CmdLine) → Prop
  | [] => True
  | (v, l) :: rest => Careful e d l ∧ AllCareful e (main e v d l).1 rest

theorem good_save {d : Disk} {p q : Path} {c : Config} {i : Info} (hd : Good (d.configs q))
    (hi : (c.current, i) ∈ c.channels) : Good ((save d p c).configs q) := by
  by_cases h : q = p
  · subst h; rw [save_same]; exact Or.inr ⟨c, i, rfl, hi⟩
  · rw [save_other _ _ h]; exact hd

theorem switch_good {e : Env} {d : Disk} {p : Option Path} {n : Option String} (hd : Good (d.configs (location e))) :
    Good ((switch e d p n).1.configs (location e)) := by
  simp only [switch]
  cases n with
  | none => exact hd
  | some n =>
    simp only
    cases hg : (loadOrDefault e d p).2.get n with
    | some i => exact good_save hd (get_mem hg)
    | none =>
      simp only [Option.isSome_none, Bool.false_eq_true, if_false]
      cases hk : known e n with
      | none => exact hd
      | some i =>
        simp only
        have h1 : Good ((save d (loadOrDefault e d p).1
            (((loadOrDefault e d p).2.insert n i).setCurrent n)).configs (location e)) :=
          good_save (i := i) hd (mem_insert.mpr (Or.inl ⟨rfl, rfl⟩))
        split
        · exact h1
        · rename_i d2 hs
          exact good_save (i := i) (by rw [(switchBinary_configs hs).1]; exact h1)
            (mem_insert.mpr (Or.inl ⟨rfl, rfl⟩))

theorem create_good {e : Env} {d : Disk} {o : CreateOpt} (hd : Good (d.configs (location e)))
    (hc : ∃ c, d.configs (o.config.getD (location e)) = .config c) :
    Good ((create e d o).1.configs (location e)) := by
  obtain ⟨c, hc⟩ := hc
  cases hs : (create e d o).2 with
  | false => rw [C113_create_fails hs]; exact hd
  | true =>
    cases hn : o.channel with
    | none => simp [create, hn] at hs
    | some n =>
      obtain ⟨c', i, h1, h2, h3, -, -, -, h4, -, -⟩ := C113_create_partial hn hc hs
      by_cases hp : location e = o.config.getD (location e)
      · rw [← hp] at h1 hc
        rcases hd with hd | ⟨c0, j, hd, hj⟩
        · rw [hd] at hc; exact nomatch hc
        · rw [hd] at hc
          cases hc
          refine Or.inr ⟨c', if c.current = n then i else j, h1, ?_⟩
          rw [h2, h3]
          by_cases hcur : c.current = n
          · simp [hcur]
          · simp [hcur, hj]
      · rw [h4 _ hp]; exact hd

theorem delete_good {e : Env} {d : Disk} {p : Option Path} {n : Option String} (hd : Good (d.configs (location e)))
    (hc : p.getD (location e) = location e → ∀ c, d.configs (location e) = .config c → n ≠ some c.current) :
    Good ((delete e d p n).1.configs (location e)) := by
  cases n with
  | none => exact hd
  | some n =>
    cases hl : load d (p.getD (location e)) with
    | none => simpa [delete, hl] using hd
    | some c =>
      cases hg : c.get n with
      | none => simpa [delete, hl, hg] using hd
      | some i =>
        rw [delete_configs (of_load hl) hg]
        by_cases hp : location e = p.getD (location e)
        · have hl' := of_load hl
          rw [← hp] at hl'
          rcases hd with hd | ⟨c0, j, hd, hj⟩
          · rw [hd] at hl'; exact nomatch hl'
          · rw [hd] at hl'
            cases hl'
            rw [← hp, save_same]
            refine Or.inr ⟨_, j, rfl, mem_remove.mpr ⟨fun h => hc hp.symm c hd (congrArg some h.symm), hj⟩⟩
        · rw [save_other _ _ hp]; exact hd

theorem forward_good {e : Env} {v : Vars} {d : Disk} {skip : Bool} {cmd : RootCmd} {raw : List String}
    (hd : Good (d.configs (location e))) : Good ((forward e v d skip cmd raw).1.configs (location e)) := by
  have h : Good ((chooseChannel e v d skip).1.configs (location e)) := by
    simp only [chooseChannel]
    split
    · split
      · exact hd
      · exact hd
      · cases firstConfig e v with
        | none => exact hd
        | some x => exact good_save (i := x.2) hd (mem_insert.mpr (Or.inl ⟨rfl, rfl⟩))
    · exact hd
  revert h
  simp only [forward]
  generalize chooseChannel e v d skip = r
  obtain ⟨d', o⟩ := r
  intro h
  cases o with
  | none => exact h
  | some x => simp only; split <;> exact h

theorem main_good {e : Env} {v : Vars} {d : Disk} {l : CmdLine} (hd : Good (d.configs (location e)))
    (hc : Careful e d l) : Good ((main e v d l).1.configs (location e)) := by
  simp only [main]
  split
  · exact hd
  · split
    · exact forward_good hd
    · exact hd
    · exact hd
    · rename_i skip cmd hp
      have h := hc skip cmd hp
      cases cmd with
      | create o => exact create_good hd h
      | delete p n => exact delete_good hd h
      | switch p n => exact switch_good hd
    · exact forward_good hd
    · exact forward_good hd

end C113

/-- In all histories of calls that never delete the current channel and never create one in a configuration that is not
there, the current channel stays in the configuration and every later call finds it.  Without these conditions see
below. -/
theorem C113_found_partial {e : Env} {d : Disk} (calls : List (Vars × CmdLine)) (hd : Good (d.configs (location e)))
    (hc : AllCareful e d calls) :
    Good ((after e d calls).configs (location e)) ∧
      ∀ v l, v.bootstrap = false → (main e v (after e d calls) l).2 ≠ .failed := by
  have hg : Good ((after e d calls).configs (location e)) := by
    induction calls generalizing d with
    | nil => exact hd
    | cons x rest ih => exact ih (main_good hd hc.1) hc.2
  refine ⟨hg, ?_⟩
  generalize after e d calls = d' at hg
  intro v l hb
  have hfw : ∀ skip cmd raw, (forward e v d' skip cmd raw).2 ≠ .failed := by
    intro skip cmd raw
    have : ∃ d2 x, chooseChannel e v d' skip = (d2, some x) := by
      simp only [chooseChannel]
      split
      · rcases hg with hg | ⟨c, i, hg, hi⟩
        · simp [hg, firstConfig, hb]
        · obtain ⟨j, hj⟩ := mem_get_some hi
          simp [hg, hj]
      · exact ⟨_, _, rfl⟩
    obtain ⟨d2, ⟨n, i⟩, h2⟩ := this
    simp only [forward, h2]
    split
    · simp
    · simp only [exec]; split <;> simp
  simp only [main]
  split
  · simp
  · split
    · exact hfw _ _ _
    · simp
    · simp
    · simp
    · exact hfw _ _ _
    · exact hfw _ _ _

/-! ### Where the claim fails -/

/-- Deleting the current channel is allowed, and from then on no command can be run. -/
theorem C113_violated_delete_current {e : Env} {v : Vars} {d : Disk} {l : CmdLine} {as : List String} {c : Config}
    {i : Info} (hc : d.configs (location e) = .config c) (hu : Unique c) (hi : (c.current, i) ∈ c.channels)
    (hv : v.loop = none) (hf : isFrontend e v = true) (hl : Forwarded l as) :
    (main e v (delete e d none (some c.current)).1 l).2 = .failed := by
  obtain ⟨cmd, hm, -⟩ := forward_spec (e := e) (d := (delete e d none (some c.current)).1) hv hl
  have h1 : (delete e d none (some c.current)).1.configs (location e) = .config (c.remove c.current) := by
    rw [delete_configs (p := none) hc (mem_get hu hi)]; exact save_same _ _ _
  have h2 : (c.remove c.current).get (c.remove c.current).current = none :=
    get_none fun i h => (mem_remove.mp h).1 rfl
  rw [hm]
  simp [forward, chooseChannel, hf, h1, h2]

/-- Creating a channel where the configuration given is missing or cannot be read replaces the default configuration,
whatever it holds, by one with this channel alone and no current one: all other channels are lost. -/
theorem C113_violated_create_replaces {e : Env} {d : Disk} {o : CreateOpt} {n : String} (hn : o.channel = some n)
    (hc : ∀ c, d.configs (o.config.getD (location e)) ≠ .config c) (h : (create e d o).2 = true) :
    ∃ i, (create e d o).1.configs (location e) = .config ⟨"", [(n, i)]⟩ := by
  have hp : loadOrDefault e d o.config = (location e, .empty) := by
    have : load d (o.config.getD (location e)) = none := by
      cases hl : load d (o.config.getD (location e)) with
      | none => rfl
      | some c => exact absurd (of_load hl) (hc c)
    simp [loadOrDefault, this]
  revert h
  simp only [create, hn, hp]
  split
  · simp
  · exact fun _ => ⟨_, save_same _ _ _⟩

/-- So after a channel is created on a new machine no command can be run. -/
theorem C113_violated_create_first {e : Env} {v : Vars} {d : Disk} {n : String} {l : CmdLine} {as : List String}
    (hc : d.configs (location e) = .missing) (h : (create e d { channel := some n }).2 = true) (hn : n ≠ "")
    (hv : v.loop = none) (hf : isFrontend e v = true) (hl : Forwarded l as) :
    (main e v (create e d { channel := some n }).1 l).2 = .failed := by
  obtain ⟨i, hi⟩ := C113_violated_create_replaces (e := e) (d := d) (o := { channel := some n }) rfl
    (by simp [hc]) h
  obtain ⟨cmd, hm, -⟩ := forward_spec (e := e) (d := (create e d { channel := some n }).1) hv hl
  rw [hm]
  simp [forward, chooseChannel, hf, hi, Config.get, hn]

/-- A first switch to the stable channel that fails because the registry does not answer has switched already: the
current channel is one without a binary. -/
theorem C113_violated_switch_fails {e : Env} {d : Disk} {c : Config} (hc : d.configs (location e) = .config c)
    (hno : ∀ i, ("stable", i) ∉ c.channels) (hb : d.file (stableChannel e).binary = false)
    (hf : e.fetch .stable = .failed) :
    (switch e d none (some "stable")).2 = false ∧
      ∃ c' i, (switch e d none (some "stable")).1.configs (location e) = .config c' ∧ c'.current = "stable" ∧
        ("stable", i) ∈ c'.channels ∧ (switch e d none (some "stable")).1.file i.binary = false := by
  have hp : loadOrDefault e d none = (location e, c) := by simp [loadOrDefault, load_of hc]
  have hs : switchBinary e (save d (location e) ((c.insert "stable" (stableChannel e)).setCurrent "stable")) "stable"
      ((c.insert "stable" (stableChannel e)).setCurrent "stable") = none := by
    have h1 : parseVersion e "stable" = some .stable := if_pos (by decide)
    have h2 : ((c.insert "stable" (stableChannel e)).setCurrent "stable").get "stable" = some (stableChannel e) :=
      insert_get _ _ _
    simp [switchBinary, save, hb, h1, install, h2, hf]
  have hr : switch e d none (some "stable") =
      (save d (location e) ((c.insert "stable" (stableChannel e)).setCurrent "stable"), false) := by
    simp [switch, hp, get_none hno, known, hs]
  rw [hr]
  exact ⟨rfl, _, stableChannel e, save_same _ _ _, rfl, mem_insert.mpr (Or.inl ⟨rfl, rfl⟩), hb⟩

/-- A version that is not published gives a channel without a binary, and this is reported as success. -/
theorem C113_violated_unpublished {e : Env} {d : Disk} {n : String} {c : Config}
    (hc : d.configs (location e) = .config c) (h1 : n.toList.map Char.toLower ≠ "stable".toList)
    (h2 : n.toList.map Char.toLower ≠ "latest".toList) (hver : e.isVersion n = true)
    (hb : d.file (createInfo e { channel := some n } n).binary = false) (hf : e.fetch (.tag n) = .unpublished) :
    (create e d { channel := some n }).2 = true ∧
      ∃ c' i, (create e d { channel := some n }).1.configs (location e) = .config c' ∧ (n, i) ∈ c'.channels ∧
        (create e d { channel := some n }).1.file i.binary = false := by
  have hp : parseVersion e n = some (.tag n) := by
    rw [parseVersion, if_neg h1, if_neg h2, if_pos hver]
  have hbin : createBinary e d n (c.insert n (createInfo e { channel := some n } n))
      (createInfo e { channel := some n } n).binary = some d := by
    simp [createBinary, hb, hp, install, insert_get, hf]
  have hr : create e d { channel := some n } =
      (save d (location e) (c.insert n (createInfo e { channel := some n } n)), true) := by
    simp [create, loadOrDefault, load_of hc, hbin]
  rw [hr]
  exact ⟨rfl, _, _, save_same _ _ _, mem_insert.mpr (Or.inl ⟨rfl, rfl⟩), hb⟩

/-- Commands on a channel without a binary do nothing, with the exit status of success. -/
theorem C113_violated_silent {e : Env} {v : Vars} {d : Disk} {l : CmdLine} {as : List String} {c : Config} {i : Info}
    (hv : v.loop = none) (hf : isFrontend e v = true) (hl : Forwarded l as)
    (hc : d.configs (location e) = .config c) (hu : Unique c) (hi : (c.current, i) ∈ c.channels)
    (hb : d.file i.binary = false) (hup : "update" ∉ as) : main e v d l = (d, .silent) := by
  obtain ⟨cmd, hm, hr⟩ := forward_spec (e := e) (d := d) hv hl
  have hn : refuses cmd c.current = false := by rw [hr]; simp [hup]
  rw [hm]
  simp [forward, chooseChannel, hf, hc, mem_get hu hi, hn, exec, hb]

/-- What the frontend runs cannot call the frontend: the variable that is to detect a loop is inherited by all
processes started below. -/
theorem C113_violated_nested {e e' : Env} {v vars : Vars} {d d' d2 : Disk} {l l2 : CmdLine} {b : Path}
    {args : List String} (h : main e v d l = (d', .ran b args vars)) : main e' vars d2 l2 = (d2, .loopDetected) := by
  have hfw : ∀ skip cmd raw, forward e v d skip cmd raw = (d', .ran b args vars) → vars.loop.isSome = true := by
    intro skip cmd raw
    simp only [forward]
    generalize chooseChannel e v d skip = r
    obtain ⟨d3, o⟩ := r
    cases o with
    | none => simp
    | some x =>
      simp only
      split
      · simp
      · simp only [exec]
        split
        · simp only [Prod.mk.injEq, Outcome.ran.injEq, and_imp]
          rintro - - - rfl
          rfl
        · simp
  have hv : vars.loop.isSome = true := by
    revert h
    simp only [main]
    split
    · simp
    · split
      · exact hfw _ _ _
      · simp
      · simp
      · simp
      · exact hfw _ _ _
      · exact hfw _ _ _
  simp [main, hv]

/-- The development channel of the installed frontend is the frontend itself: with it no command can be run. -/
theorem C113_violated_dev {e : Env} {v : Vars} {d : Disk} {l : CmdLine} {as : List String}
    (hv : v.loop = none) (hf : isFrontend e v = true) (hl : Forwarded l as) (hx : e.exeName = "fluvio")
    (hown : d.file (e.exeDir ++ [e.exeName]) = true)
    (hno : ∀ c0, d.configs (location e) = .config c0 → ∀ i, ("dev", i) ∉ c0.channels) :
    ∃ vars, (main e v (switch e d none (some "dev")).1 l).2 = .ran (e.exeDir ++ [e.exeName]) l.raw vars ∧
      ∀ d2 l2, (main e vars d2 l2).2 = .loopDetected := by
  have hg : (loadOrDefault e d none).2.get "dev" = none := by
    simp only [loadOrDefault, Option.getD_none]
    cases hl : load d (location e) with
    | none => rfl
    | some c0 => exact get_none (hno c0 (of_load hl))
  have hp : (loadOrDefault e d none).1 = location e := by
    simp only [loadOrDefault, Option.getD_none]; cases load d (location e) <;> rfl
  have hr : (switch e d none (some "dev")).1.configs (location e) =
      .config (((loadOrDefault e d none).2.insert "dev" (devChannel e)).setCurrent "dev") ∧
      (switch e d none (some "dev")).1.file = d.file := by
    simp [switch, hg, known, hp, switchBinary, save, Config.setCurrent]
  obtain ⟨cmd, hm, hrf⟩ := forward_spec (e := e) (d := (switch e d none (some "dev")).1) hv hl
  have hget : ((((loadOrDefault e d none).2.insert "dev" (devChannel e)).setCurrent "dev").get "dev") =
      some (devChannel e) := insert_get _ _ _
  have hmain : main e v (switch e d none (some "dev")).1 l =
      ((switch e d none (some "dev")).1, .ran (e.exeDir ++ [e.exeName]) l.raw (setVars v "dev" (devChannel e))) := by
    have hcur : (((loadOrDefault e d none).2.insert "dev" (devChannel e)).setCurrent "dev").current = "dev" := rfl
    have hn : refuses cmd "dev" = false := by rw [hrf]; simp [isPinned]
    rw [hx] at hown ⊢
    have hown' : d.file (devChannel e).binary = true := hown
    rw [hm]
    simp only [forward, chooseChannel, hf, hr.1, Bool.not_false, Bool.and_self, if_true, hcur, hget, Option.map_some, hn,
      exec, hr.2, hown', Bool.false_eq_true, if_false]
    rfl
  refine ⟨_, congrArg Prod.snd hmain, fun d2 l2 => ?_⟩
  rw [C113_violated_nested hmain]

/-- Deleting that channel again deletes the frontend. -/
theorem C113_violated_delete_dev {e : Env} {d : Disk} {c : Config} (hc : d.configs (location e) = .config c)
    (hu : Unique c) (hi : ("dev", devChannel e) ∈ c.channels) (hx : e.exeName = "fluvio") :
    (delete e d none (some "dev")).1.file (e.exeDir ++ [e.exeName]) = false := by
  have hg := mem_get hu hi
  by_cases hown : d.file (e.exeDir ++ ["fluvio"]) = true
  · simp only [delete, Option.getD_none, load_of hc, hg, removeFile, save, devChannel, hown, if_true, removeDirAll, hx]
    split
    · rename_i h; split at h <;> simp at h
      simp
    · rename_i h; split at h <;> simp at h
      simp [← h]
  · simp only [Bool.not_eq_true] at hown
    simp [delete, load_of hc, hg, removeFile, save, devChannel, hown, hx]

/-- An argument `update` of any command is taken for the command. -/
theorem C113_violated_update {e : Env} {v : Vars} {d : Disk} {i : Info}
    (hv : v.loop = none) (hf : isFrontend e v = true)
    (hc : d.configs (location e) = .config ⟨"0.11.0", [("0.11.0", i)]⟩) :
    main e v d ⟨["consume", "update"], some (false, .other ["consume", "update"])⟩ = (d, .updateRefused) :=
  C113_update_refused (i := i) hv hf (.other _ _) hc (by simp) (by simp) (by simp) (by simp) (by simp)

/-- `fluvio help` prints nothing and does not reach the binary. -/
theorem C113_violated_help {e : Env} {v : Vars} {d : Disk} {raw : List String} {skip : Bool}
    (hv : v.loop = none) (hf : isFrontend e v = true) :
    main e v d ⟨raw, some (skip, .help)⟩ = (d, .helped false) := by
  simp [main, hv, hf]

/-- A channel that is deleted before its extensions directory exists is reported as failed, although it is gone. -/
theorem C113_violated_delete_reports {e : Env} {d : Disk} {c : Config} {n : String} {i : Info}
    (hc : d.configs (location e) = .config c) (hu : Unique c) (hi : (n, i) ∈ c.channels)
    (hx : d.dir i.extensions = false) :
    (delete e d none (some n)).2 = false ∧
      ∃ c', (delete e d none (some n)).1.configs (location e) = .config c' ∧ ∀ j, (n, j) ∉ c'.channels := by
  obtain ⟨⟨c', h1, -, h2⟩, -, -, -, -, h3, -⟩ := C113_delete (p := none) hc hu hi
  refine ⟨?_, c', h1, fun j hj => ((h2 n j).mp hj).1 rfl⟩
  rw [hx] at h3
  simpa using h3

/-- `create latest` and `switch latest` make different channels: the tags of the images and the directory of the
extensions differ. -/
theorem C113_violated_latest (e : Env) :
    (createInfo e { channel := some "latest" } "latest").strategy ≠ (latestChannel e).strategy ∧
      (createInfo e { channel := some "latest" } "latest").extensions ≠ (latestChannel e).extensions := by
  simp only [createInfo, latestChannel, newChannel, createHome]
  cases e.home <;> simp

/-! ### The hypotheses can be met -/

namespace C113

/-- A machine with a home directory and the frontend installed in it. -/
def machine : Env where
  home := some ["home", "u"]
  exeDir := ["home", "u", ".fluvio", "bin"]
  exeName := "fluvio"
  isVersion := fun s => s == "0.11.0" || s == "0.12.0"
  fetch := fun v => if v = .tag "0.12.0" then .unpublished else if v = .stable then .failed else .package

def pinned : Info := createInfo machine { channel := some "0.11.0" } "0.11.0"

def conf : Config := ⟨"0.11.0", [("0.11.0", pinned)]⟩

def disk : Disk where
  configs := fun p => if p = location machine then .config conf else .missing
  file := fun p => p == ["home", "u", ".fluvio", "bin", "fluvio"] || p == pinned.binary
  dir := fun p => p == pinned.extensions

def fresh : Disk := { disk with configs := fun _ => .missing }

/-- `fluvio topic list` -/
def call : CmdLine := ⟨["topic", "list"], some (false, .other ["topic", "list"])⟩

end C113

example : isFrontend machine {} = true ∧ Forwarded call ["topic", "list"] ∧
    disk.configs (location machine) = .config conf ∧ Unique conf ∧ (conf.current, pinned) ∈ conf.channels ∧
    disk.file pinned.binary = true ∧ disk.dir pinned.extensions = true ∧
    (main machine {} disk call).2 = .ran ["home", "u", ".fluvio", "bin", "fluvio-0.11.0"] ["topic", "list"]
      { loop := some ("0.11.0", ["home", "u", ".fluvio", "bin", "fluvio-0.11.0"]), releaseChannel := some "0.11.0"
        extensionsDir := some ["home", "u", ".fluvio", "bin", "extensions-0.11.0"], tagStrategy := some "version" } :=
  ⟨rfl, .other _ _, by decide, .cons (fun _ h => nomatch h) .nil, by simp [conf], by decide, by decide, by decide⟩

example : (create machine fresh { channel := some "0.12.0" }).2 = true ∧
    (create machine disk { channel := some "latest" }).2 = true ∧
    (create machine disk { channel := some "mine" }).2 = false ∧
    (create machine disk { channel := some "mine", config := some ["other"], binary := some pinned.binary }).2 = true ∧
    (switch machine disk none (some "latest")).2 = true ∧ (switch machine disk none (some "dev")).2 = true ∧
    (delete machine disk none (some "0.11.0")).2 = true ∧
    disk.file (stableChannel machine).binary = false ∧ machine.fetch .stable = .failed := by decide

example : (main { machine with exeName := "fluvio-channel" } {} disk call).2 =
      .ran ["home", "u", ".fluvio", "bin", "fluvio"] ["topic", "list"]
        { loop := some ("dev", ["home", "u", ".fluvio", "bin", "fluvio"]), releaseChannel := some "dev"
          extensionsDir := some ["extensions"], tagStrategy := some "git" } ∧
    (main machine { frontend := some false } disk call).2 ≠ (main machine {} disk call).2 ∧
    (main machine {} { disk with configs := fun _ => .unreadable } call).2 = .failed ∧
    (switch machine disk none (some "0.12.0")).2 = false := by decide

/-- A history with a switch, a deletion of a channel that is not current and a creation. -/
example : AllCareful machine disk
    [({}, ⟨[], some (false, .version false (some (.switch none (some "latest"))))⟩),
     ({}, ⟨[], some (false, .version false (some (.delete none (some "0.11.0"))))⟩),
     ({}, ⟨[], some (false, .version false (some (.create { channel := some "0.11.0" })))⟩),
     ({}, call)] := by
  refine ⟨?_, ?_, ?_, ?_, trivial⟩
  · intro skip cmd h; cases h; trivial
  · intro skip cmd h; cases h
    intro _ c hc
    have : c.current = "latest" := by
      have h2 : (main machine {} disk ⟨[], some (false, .version false (some (.switch none (some "latest"))))⟩).1.configs
          (location machine) = .config ⟨"latest", [("latest", latestChannel machine), ("0.11.0", pinned)]⟩ := by decide
      rw [h2] at hc; cases hc; rfl
    rw [this]; decide
  · intro skip cmd h; cases h
    exact ⟨⟨"latest", [("latest", latestChannel machine)]⟩, by decide⟩
  · intro skip cmd h; cases h

end Verif.Props
