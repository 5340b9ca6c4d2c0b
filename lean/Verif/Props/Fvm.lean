import Verif.Fvm.Lemmas
/-!
# C107: the version manager's active version is the one that runs

The model is in `Verif/Fvm/Model.lean`.
-/

namespace Verif.Props
open Verif.Fvm
set_option linter.unusedSectionVars false

namespace C107

/-- versions are numbers; the body of an artifact is its version -/
def body (_ : String) (v : Nat) : Nat := v

def art (n : String) (v : Nat) : Artifact Nat Nat := ⟨n, v, v⟩
def setOf (v : Nat) (l : List String) : Pkgset Nat Nat := ⟨v, l.map fun n => art n v⟩

abbrev S := Fs Nat Nat

/-- two channels installed one after the other -/
def both : S := final (install true true .latest (setOf 2 ["fluvio", "fluvio-run"]))
  (final (install true true .stable (setOf 1 ["fluvio"])) blank)

/-- **Specification.** The channel whose directory a command is about. -/
def target {V B : Type} (s : Fs V B) : Cmd V B → Option (Chan V)
  | .install _ _ c _ => some c
  | .update _ _ _ => match s.settings with | some (.whole x) => x.1 | _ => none
  | .switch _ => none
  | .uninstall _ c => some c

/-- **Specification.** Package sets are as published, and the active version is not uninstalled. -/
def Allowed {V B : Type} (content : String → V → B) (s : Fs V B) : Cmd V B → Prop
  | .install _ _ _ p => Published content p
  | .update _ _ p => Published content p
  | .switch _ => True
  | .uninstall _ c => ∀ x, s.settings = some (.whole x) → x.1 ≠ some c

/-- **Specification.** States after any number of such commands, one after the other, from nothing installed. -/
inductive Run {V B : Type} [DecidableEq V] (lt : V → V → Bool) (content : String → V → B) : Fs V B → Prop
  | start : Run lt content blank
  | step {s} (cmd : Cmd V B) : Run lt content s → Allowed content s cmd → Run lt content (final (cmd.prog lt) s)

end C107
open C107

variable {V B : Type} [DecidableEq V] {content : String → V → B}

theorem ends_final {α : Type} {p : Prog V B α} {s t : Fs V B} {a : α} (h : Ends p s t a) :
    final p s = t ∧ result p s = some a := by
  unfold Ends at h
  unfold final result
  rw [h]
  exact ⟨rfl, rfl⟩

/-- A switch that is completed: the binaries are those of the version's directory, the settings name it, all other
binaries and all directories are as before. -/
theorem C107_switch (s : Fs V B) (c : Chan V) (d : Dir V B) (m : Manifest V) (hs : s.settings ≠ some .torn)
    (hd : s.dirs c = some d) (hm : d.manifest = some (.whole m)) (hn : (d.files.map (·.1)).Nodup) :
    result (switch c) s = some () ∧ (∀ e ∈ d.files, (final (switch c) s).bin e.1 = some e.2) ∧
    (final (switch c) s).settings = some (.whole (some m.channel, some m.version)) ∧
    (∀ n, (∀ e ∈ d.files, e.1 ≠ n) → (final (switch c) s).bin n = s.bin n) ∧
    (final (switch c) s).dirs = s.dirs := by
  have h : Ends (switch c) s (activated m d.files s) () := by
    unfold switch
    refine (ends_read (a := true) (by rw [hd]; rfl)).then ?_
    exact ends_activate hs hd hm
  obtain ⟨h1, h2⟩ := ends_final h
  obtain ⟨k1, _, k3⟩ := copied_rest d.files s
  rw [h1]
  exact ⟨h2, copied_bin d.files s hn, rfl, k3, k1⟩

/-- An installation that is completed, on whatever was there before: every artifact is there with its contents, as
binary too, and the settings name channel and version. -/
theorem C107_install (s : Fs V B) (rename : Bool) (c : Chan V) (p : Pkgset V B) (hs : s.settings ≠ some .torn)
    (hp : (p.artifacts.map (·.name)).Nodup) (hn : ∀ d, s.dirs c = some d → (d.files.map (·.1)).Nodup) :
    result (install rename true c p) s = some () ∧
    (∀ a ∈ p.artifacts, (final (install rename true c p) s).bin a.name = some (.whole a.body)) ∧
    (final (install rename true c p) s).settings = some (.whole (some c, some p.version)) ∧
    ∃ d, (final (install rename true c p) s).dirs c = some d ∧
      d.manifest = some (.whole ⟨c, p.version, some (p.artifacts.map fun a => (a.name, a.version))⟩) ∧
      ∀ a ∈ p.artifacts, (a.name, File.whole a.body) ∈ d.files := by
  obtain ⟨h1, h2⟩ := ends_final (ends_install hs rename c p)
  have hn' : (((s.dirs c).getD ⟨none, []⟩).files.map (·.1)).Nodup := by
    cases hd : s.dirs c with
    | none => exact List.nodup_nil
    | some d => exact hn d hd
  obtain ⟨k1, _, _, k4, _⟩ := storedFiles_spec p.artifacts ((s.dirs c).getD ⟨none, []⟩).files
  rw [h1]
  refine ⟨h2, ?_, rfl, installedDir c p s, ?_, rfl, k4 hp⟩
  · intro a ha
    exact copied_bin (installedDir c p s).files _ (k1 hn') _ (k4 hp a ha)
  · show (copied _ _).dirs c = _
    rw [(copied_rest _ _).1]
    exact setDir_same c _ s

/-- Commands keep everything as it should be: every directory can be opened and has the versions its manifest
lists, and the binaries are those of the version which the settings name.  Downloads may fail.

Missing: uninstalling the active version (`C107_violated_uninstall`), and stops before a command ends
(`C107_violated_mixture`, `C107_violated_stuck`, `C107_violated_settings`).  The converse — no other binaries than
those of the active version — does not hold (`C107_violated_left`). -/
theorem C107_commands_partial (lt : V → V → Bool) (s : Fs V B) (h : Good content s) (cmd : Cmd V B)
    (ha : Allowed content s cmd) : Good content (final (cmd.prog lt) s) := by
  have hinst : ∀ (u : Fs V B), Good content u → ∀ rename got c p, Published content p →
      Good content (final (install rename got c p) u) := by
    intro u hu rename got c p hp
    cases got with
    | false => exact hu
    | true =>
      rw [(ends_final (ends_install hu.settings rename c p)).1]
      obtain ⟨o1, o2⟩ := old_files hu.dirs c
      have hk := installedDir_ok (c := c) (s := u) o1 o2 hp
      exact good_activated (dirs_setDir hu.dirs hk) (setDir_same c _ u) rfl rfl
  have hopen : ∀ (u : Fs V B), Good content u → ∀ (c : Chan V) (d : Dir V B), u.dirs c = some d →
      ∃ m, d.manifest = some (.whole m) ∧ m.channel = c := by
    intro u hu c d hd
    obtain ⟨m, h1, h2, _⟩ := (hu.dirs c d hd).manifest
    exact ⟨m, h1, h2⟩
  cases cmd with
  | install rename got c p => exact hinst s h rename got c p ha
  | switch c =>
    show Good content (final (switch c) s)
    unfold switch
    cases hd : s.dirs c with
    | none =>
      have : Ends (switch c) s s () := by
        unfold switch
        exact (ends_read (a := false) (by rw [hd]; rfl)).then (ends_ok () s)
      have := (ends_final this).1
      unfold switch at this
      rw [this]
      exact h
    | some d =>
      obtain ⟨m, hm, hc⟩ := hopen s h c d hd
      have : Ends (switch c) s (activated m d.files s) () := by
        unfold switch
        exact (ends_read (a := true) (by rw [hd]; rfl)).then (ends_activate h.settings hd hm)
      have := (ends_final this).1
      unfold switch at this
      rw [this]
      exact good_activated h.dirs hd hm hc
  | uninstall first c =>
    show Good content (final (uninstall first c) s)
    cases hd : s.dirs c with
    | none =>
      have : Ends (uninstall first c) s s () := by
        unfold uninstall
        exact (ends_read (a := none) (by rw [hd])).then (ends_ok () s)
      rw [(ends_final this).1]
      exact h
    | some d =>
      obtain ⟨m, hm, _⟩ := hopen s h c d hd
      obtain ⟨t, e1, e2, e3, e4, e5⟩ := uninstall_end first hd hm
      rw [(ends_final e1).1]
      refine ⟨?_, by rw [e3]; exact h.settings, ?_⟩
      · intro x y hy
        by_cases hx : x = c
        · subst hx; rw [e4] at hy; cases hy
        · rw [e5 x hx] at hy; exact h.dirs x y hy
      · intro x v hxv
        rw [e3] at hxv
        rcases h.active x v hxv with hh | ⟨c', v', h1, h2, d', m', h3, h4, h5, h6⟩
        · exact .inl hh
        · refine .inr ⟨c', v', h1, h2, d', m', ?_, h4, h5, by rw [e2]; exact h6⟩
          have hne : c' ≠ c := by
            intro he
            exact ha (x, v) hxv (by rw [h1, he])
          rw [e5 c' hne]; exact h3
  | update rename got p =>
    show Good content (final (updateCmd lt rename got p) s)
    have h0 := good_settings h
    have hx : final (updateCmd lt rename got p) s = (updateWith lt rename got p (settingsOf s)
        { s with settings := some (.whole (settingsOf s)) }).2.1 := by
      unfold final updateCmd
      rw [then_of (ends_open h.settings)]
    rw [hx]
    generalize hst : settingsOf s = st at *
    generalize hu : ({ s with settings := some (.whole st) } : Fs V B) = u at *
    have hus : u.settings ≠ some .torn := h0.settings
    obtain ⟨c, v⟩ := st
    have hact := h0.active c v (by rw [← hu])
    show Good content (final (updateWith lt rename got p (c, v)) u)
    unfold updateWith
    match c with
    | none => exact h0
    | some (.tag _) => exact h0
    | some (.other _) => exact h0
    | some .latest =>
      match v with
      | none => exact h0
      | some v =>
        dsimp only
        split
        · exact hinst u h0 rename got .latest p ha
        · exact h0
    | some .stable =>
      match v with
      | none => exact h0
      | some v =>
        dsimp only
        split
        · exact hinst u h0 rename got .stable p ha
        · split
          · rcases hact with ⟨hh, _⟩ | ⟨c', v', h1, h2, d, m, h3, h4, h5, h6⟩
            · cases hh
            · injection h1 with h1
              subst h1
              cases hcont : m.contents with
              | none =>
                have : (Prog.read (fun s : Fs V B => ((s.dirs .stable).bind openDir).bind fun y => y.1.contents) u) =
                    ([], u, none) := by
                  unfold Prog.read
                  dsimp only
                  rw [h3]
                  show (_, _, Option.bind (openDir d) _) = _
                  unfold openDir
                  rw [h4]
                  show (_, _, m.contents) = _
                  rw [hcont]
                unfold final Prog.then
                rw [this]
                exact h0
              | some ours =>
                have hr : Ends (.read fun s : Fs V B => ((s.dirs .stable).bind openDir).bind fun y => y.1.contents) u u
                    ours := by
                  refine ends_read ?_
                  rw [h3]
                  show Option.bind (openDir d) _ = _
                  unfold openDir
                  rw [h4]
                  exact hcont
                have := congrArg (fun y => y.1) (then_of (q := fun ours =>
                  if (diff ours p.artifacts).isEmpty then Prog.ok () else
                    update rename got .stable (diff ours p.artifacts)) hr)
                show Good content (Prod.fst (Prog.then _ _ u).2)
                rw [this]
                split
                · exact h0
                · cases got with
                  | false => exact h0
                  | true =>
                    have hsub : (diff ours p.artifacts).Sublist p.artifacts := List.filter_sublist
                    have hk := updatedDir_ok (l := diff ours p.artifacts) (h0.dirs .stable d h3) h4
                      (ha.1.sublist (hsub.map _)) fun a hm => ha.2 a (hsub.subset hm)
                    have he := (ends_final (ends_update hus rename (diff ours p.artifacts) h3 h4)).1
                    show Good content (final (update rename true .stable (diff ours p.artifacts)) u)
                    rw [he]
                    obtain ⟨m', q1, q2, _⟩ := (h0.dirs .stable d h3).manifest
                    rw [h4] at q1
                    injection q1 with q1
                    injection q1 with q1
                    exact good_activated (dirs_setDir h0.dirs hk) (setDir_same _ _ u) rfl (by
                      show m.channel = _
                      rw [q1]; exact q2)
          · exact h0

example : Good body (blank : S) :=
  ⟨fun _ _ h => (nomatch h), fun h => (nomatch h), fun _ _ h => (nomatch h)⟩

example : Published body (setOf 1 ["fluvio", "fluvio-run"]) ∧ both.bin "fluvio" = some (.whole 2) := by
  refine ⟨⟨by decide, ?_⟩, by decide⟩
  intro a ha
  simp [setOf, art] at ha
  rcases ha with rfl | rfl <;> rfl

theorem good_run {lt : V → V → Bool} {s : Fs V B} (h : Run lt content s) : Good content s := by
  induction h with
  | start => exact ⟨fun _ _ h => (nomatch h), fun h => (nomatch h), fun _ _ h => (nomatch h)⟩
  | step cmd _ ha ih => exact C107_commands_partial lt _ ih cmd ha

/-- So after any number of commands, the binaries are those of the version the settings name. -/
theorem C107_run_partial (lt : V → V → Bool) (s : Fs V B) (h : Run lt content s) (c : Chan V) (v : V)
    (hs : s.settings = some (.whole (some c, some v))) :
    ∃ d m, s.dirs c = some d ∧ d.manifest = some (.whole m) ∧ m.version = v ∧ ∀ e ∈ d.files, s.bin e.1 = some e.2 := by
  have hg := good_run h
  rcases hg.active _ _ hs with ⟨h, _⟩ | ⟨c', v', h1, h2, h3⟩
  · cases h
  · injection h1 with h1
    injection h2 with h2
    subst h1 h2
    exact h3

example : Run (fun a b => decide (a < b)) body both ∧ both.settings = some (.whole (some .latest, some 2)) := by
  refine ⟨.step (.install true true .latest (setOf 2 ["fluvio", "fluvio-run"]))
    (.step (.install true true .stable (setOf 1 ["fluvio"])) .start ?_) ?_, by decide⟩
  · refine ⟨by decide, fun a ha => ?_⟩
    simp [setOf, art] at ha
    subst ha; rfl
  · refine ⟨by decide, fun a ha => ?_⟩
    simp [setOf, art] at ha
    rcases ha with rfl | rfl <;> rfl

/-- At every moment of every command, wherever it is stopped, the directories of other channels are as before;
switching changes no directory at all. -/
theorem C107_others (lt : V → V → Bool) (s t : Fs V B) (cmd : Cmd V B) (h : Passes (cmd.prog lt) s t) (c : Chan V)
    (hc : target s cmd ≠ some c) : t.dirs c = s.dirs c := by
  have ho : OnDirs (fun t : Fs V B => t.dirs c = s.dirs c) := fun a b hab ha => by
    show b.dirs c = s.dirs c
    rw [← hab]; exact ha
  have hset : ∀ x, x ≠ c → ∀ d (u : Fs V B), u.dirs c = s.dirs c → (setDir x d u).dirs c = s.dirs c :=
    fun x hx d u hu => (setDir_other d u (fun he => hx he.symm)).trans hu
  rcases h with rfl | h
  · rfl
  cases cmd with
  | install r g x p =>
    exact (always_install ho (hset x fun he => hc (by rw [← he]; rfl)) r g p s rfl).1 t h
  | switch x => exact (always_switch ho x s rfl).1 t h
  | uninstall f x => exact (always_uninstall (hset x fun he => hc (by rw [← he]; rfl)) f s rfl).1 t h
  | update r g p =>
    have h : t ∈ (updateCmd lt r g p s).1 := h
    unfold updateCmd Prog.then at h
    have hop := always_open ho s rfl
    cases hs : openSettings s with
    | mk l x =>
      obtain ⟨u, res⟩ := x
      rw [hs] at h hop
      cases res with
      | none => exact hop.1 t h
      | some st =>
        dsimp only at h
        rcases List.mem_append.1 h with h | h
        · exact hop.1 t h
        · have hst : st.1 ≠ some c := by
            intro he
            unfold openSettings at hs
            unfold target at hc
            cases hss : s.settings with
            | none =>
              rw [hss] at hs
              have := congrArg (fun y => y.2.2) hs
              injection this with this
              rw [← this] at he
              cases he
            | some f =>
              cases f with
              | torn => rw [hss] at hs; cases hs
              | whole x =>
                rw [hss] at hs hc
                have := congrArg (fun y => y.2.2) hs
                injection this with this
                exact hc (by rw [← he, ← this])
          have hP : u.dirs c = s.dirs c := hop.2
          have fin : ∀ q : Prog V B Unit, Always (fun t : Fs V B => t.dirs c = s.dirs c) q → t ∈ (q u).1 →
              t.dirs c = s.dirs c := fun q hq ht => (hq u hP).1 t ht
          refine fin _ ?_ h
          obtain ⟨c1, v1⟩ := st
          unfold updateWith
          match c1, hst with
          | none, _ => exact always_ok _ ()
          | some (.tag _), _ => exact always_ok _ ()
          | some (.other _), _ => exact always_ok _ ()
          | some .latest, hst =>
            have hne : Chan.latest ≠ c := fun he => hst (by rw [he])
            match v1 with
            | none => exact always_ok _ ()
            | some v =>
              dsimp only
              split
              · exact always_install ho (hset _ hne) r g p
              · exact always_ok _ ()
          | some .stable, hst =>
            have hne : Chan.stable ≠ c := fun he => hst (by rw [he])
            match v1 with
            | none => exact always_ok _ ()
            | some v =>
              dsimp only
              split
              · exact always_install ho (hset _ hne) r g p
              · split
                · refine (always_read _ _).then fun ours => ?_
                  split
                  · exact always_ok _ ()
                  · exact always_update ho (hset _ hne) r g _
                · exact always_ok _ ()

omit [DecidableEq V] in
theorem same_name (l : List (Artifact V B)) (hz : (l.map (·.name)).Nodup) :
    ∀ x ∈ l, ∀ y ∈ l, x.name = y.name → x = y := by
  induction l with
  | nil => intro x hx; cases hx
  | cons z l ih =>
    intro x hx y hy he
    rw [List.map_cons, List.nodup_cons] at hz
    rcases List.mem_cons.1 hx with hx | hx
    · rcases List.mem_cons.1 hy with hy | hy
      · rw [hx, hy]
      · exact absurd (List.mem_map.2 ⟨y, hy, by rw [← he, hx]⟩) hz.1
    · rcases List.mem_cons.1 hy with hy | hy
      · exact absurd (List.mem_map.2 ⟨x, hx, by rw [he, hy]⟩) hz.1
      · exact ih hz.2 x hx y hy he

/-- After an update nothing is left to update, if all that upstream has was installed before.  Missing: new
artifacts (`C107_violated_again`). -/
theorem C107_update_partial (ours : List (String × V)) (theirs : List (Artifact V B))
    (hn : (theirs.map (·.name)).Nodup) (h : ∀ a ∈ theirs, ∃ v, (a.name, v) ∈ ours) :
    diff (merge ours (diff ours theirs)) theirs = [] := by
  unfold diff
  rw [List.filter_eq_nil_iff]
  intro a ha
  rw [decide_eq_true_eq, Decidable.not_not]
  by_cases hm : (a.name, a.version) ∈ ours
  · refine List.mem_map.2 ⟨(a.name, a.version), hm, ?_⟩
    cases hf : (theirs.filter fun a => decide ((a.name, a.version) ∉ ours)).find?
        fun x => decide (x.name = (a.name, a.version).1) with
    | none => rfl
    | some b =>
      exfalso
      have hb := List.mem_filter.1 (List.mem_of_find?_eq_some hf)
      have hbn := List.find?_some hf
      rw [decide_eq_true_eq] at hbn
      have : b = a := by
        exact same_name theirs hn b hb.1 a ha hbn
      subst this
      have := hb.2
      rw [decide_eq_true_eq] at this
      exact this hm
  · obtain ⟨v, hv⟩ := h a ha
    refine List.mem_map.2 ⟨(a.name, v), hv, ?_⟩
    have ha' : a ∈ theirs.filter fun a => decide ((a.name, a.version) ∉ ours) :=
      List.mem_filter.2 ⟨ha, by rw [decide_eq_true_eq]; exact hm⟩
    cases hf : (theirs.filter fun a => decide ((a.name, a.version) ∉ ours)).find?
        fun x => decide (x.name = (a.name, v).1) with
    | none =>
      rw [List.find?_eq_none] at hf
      exact absurd (hf a ha') (by simp)
    | some b =>
      have hb := (List.mem_filter.1 (List.mem_of_find?_eq_some hf)).1
      have hbn := List.find?_some hf
      rw [decide_eq_true_eq] at hbn
      dsimp only
      have : b = a := by
        exact same_name theirs hn b hb a ha hbn
      rw [this]

example : diff [("fluvio", 1), ("fluvio-run", 1)] [art "fluvio" 2, art "fluvio-run" 1] = [art "fluvio" 2] ∧
    merge [("fluvio", 1), ("fluvio-run", 1)] [art "fluvio" 2] = [("fluvio", 2), ("fluvio-run", 1)] := ⟨rfl, rfl⟩

/-! ### Violations -/

/-- **C107 violated: an update that is never done.**  The manifest after an update has only the artifacts it had
before (version_installer.rs:70-91).  One that is new upstream is stored, but not recorded, so that it is missing
again at the next update, and at every one after it. -/
theorem C107_violated_again (ours : List (String × V)) (theirs : List (Artifact V B)) (a : Artifact V B)
    (ha : a ∈ theirs) (hn : ∀ e ∈ ours, e.1 ≠ a.name) :
    a ∈ diff ours theirs ∧ a ∈ diff (merge ours (diff ours theirs)) theirs ∧
    ∀ e ∈ merge ours (diff ours theirs), e.1 ≠ a.name := by
  have hk : ∀ e ∈ merge ours (diff ours theirs), e.1 ≠ a.name := by
    intro e he
    obtain ⟨x, hx, rfl⟩ := List.mem_map.1 he
    cases hf : (diff ours theirs).find? fun a => decide (a.name = x.1) with
    | none => exact hn x hx
    | some b =>
      have := List.find?_some hf
      rw [decide_eq_true_eq] at this
      dsimp only
      rw [this]
      exact hn x hx
  refine ⟨List.mem_filter.2 ⟨ha, ?_⟩, List.mem_filter.2 ⟨ha, ?_⟩, hk⟩
  · rw [decide_eq_true_eq]; exact fun hm => hn _ hm rfl
  · rw [decide_eq_true_eq]; exact fun hm => hk _ hm rfl

example : art "fluvio-sc" 1 ∈ diff [("fluvio", 1)] [art "fluvio" 1, art "fluvio-sc" 1] := by
  simp [diff, art]

/-- **C107 violated: binaries are left over.**  After switching to a version without `fluvio-run` there still is
that of the version before; and an installation over an older one keeps what the older one had: the new version's
directory, and so the binaries, have an artifact which its manifest does not list. -/
theorem C107_violated_left :
    ((final (switch .stable) both).bin "fluvio" = some (.whole 1) ∧
      (final (switch .stable) both).bin "fluvio-run" = some (.whole 2)) ∧
    ((final (install true true .latest (setOf 3 ["fluvio"])) both).bin "fluvio" = some (.whole 3) ∧
      ((final (install true true .latest (setOf 3 ["fluvio"])) both).dirs .latest).map (·.files) =
        some [("fluvio-run", .whole 2), ("fluvio", .whole 3)]) := by decide

/-- **C107 violated: the active version is uninstalled.**  The settings go on naming it, and `fvm update` then
fails to open its directory. -/
theorem C107_violated_uninstall :
    let s := final (uninstall true .stable) (final (install true true .stable (setOf 1 ["fluvio"])) (blank : S))
    s.settings = some (.whole (some .stable, some 1)) ∧ s.dirs .stable = none ∧
    result (updateCmd (fun a b => decide (a < b)) true true (setOf 1 ["fluvio"])) s = none := by decide

/-- **C107 violated: a stop while switching** leaves binaries of both versions, and one that is not whole, while
the settings name the old version. -/
theorem C107_violated_mixture :
    ∃ t, Passes (switch .latest) (final (switch .stable) both) t ∧ t.settings = some (.whole (some .stable, some 1)) ∧
      t.bin "fluvio" = some (.whole 2) ∧ t.bin "fluvio-run" = some .torn := by
  refine ⟨((switch .latest (final (switch .stable) both)).1)[4]'(by decide), .inr (List.getElem_mem _), ?_, ?_, ?_⟩ <;>
  decide

/-- **C107 violated: a stop during the first installation** leaves a directory without manifest.  It cannot be
uninstalled (uninstall.rs:45), and no version is listed any more. -/
theorem C107_violated_stuck :
    ∃ t : S, Passes (install true true .latest (setOf 2 ["fluvio"]))
        (final (install true true .stable (setOf 1 ["fluvio"])) blank) t ∧
      (t.dirs .latest).isSome = true ∧ result (uninstall true .latest) t = none ∧
      scan t [.stable, .latest] = none ∧ (scan t [.stable]).isSome = true := by
  refine ⟨((install true true .latest (setOf 2 ["fluvio"])
    (final (install true true .stable (setOf 1 ["fluvio"])) blank)).1)[0]'(by decide),
    .inr (List.getElem_mem _), ?_, ?_, ?_, ?_⟩ <;>
  decide

/-- **C107 violated: settings that are not whole.**  The file is overwritten in place (settings.rs:79-86).  If it
cannot be read, nothing can be installed or switched to without an error, ever: each attempt changes the binaries,
but the settings stay as they are. -/
theorem C107_violated_settings (s : Fs V B) (h : s.settings = some .torn) (rename got : Bool) (c : Chan V)
    (p : Pkgset V B) : result (activate c) s = none ∧ (final (activate c) s).settings = some .torn ∧
      result (install rename got c p) s = none := by
  have hset : ∀ (u : Fs V B), u.settings = some .torn → ∀ m files,
      (setActive m files u).2 = (copied files u, none) := by
    intro u hu m files
    have h1 : Ends (each copyBin files) u (copied files u) () :=
      ends_each (g := fun s e => setBin e.1 (some e.2) s) (fun s e => ends_copy e s) files u
    unfold setActive
    rw [then_of h1]
    unfold Prog.then
    rw [open_torn (by rw [(copied_rest files u).2.1]; exact hu)]
  have hact : ∀ (u : Fs V B), u.settings = some .torn →
      result (activate c) u = none ∧ (final (activate c) u).settings = some .torn := by
    intro u hu
    cases hd : (u.dirs c).bind openDir with
    | none =>
      have : activate c u = ([], u, none) := by
        unfold activate Prog.then Prog.read
        dsimp only
        rw [hd]
      unfold result final
      rw [this]
      exact ⟨rfl, hu⟩
    | some x =>
      have := then_of (q := fun x => setActive x.1 x.2)
        (ends_read (f := fun s : Fs V B => (s.dirs c).bind openDir) hd)
      unfold result final activate
      rw [this, hset u hu]
      exact ⟨rfl, by rw [← hu]; exact (copied_rest x.2 u).2.1⟩
  refine ⟨(hact s h).1, (hact s h).2, ?_⟩
  cases got with
  | false => rfl
  | true =>
    unfold result install
    rw [if_pos rfl, then_of (ends_store rename c p.artifacts s), then_of (ends_manifest c _ _ (setDir_same c _ s))]
    exact (hact (setDir c _ (setDir c _ s)) h).1

example : ∃ t : S, Passes (install true true .stable (setOf 1 ["fluvio"])) blank t ∧ t.settings = some .torn := by
  refine ⟨((install true true .stable (setOf 1 ["fluvio"]) blank).1)[8]'(by decide), .inr (List.getElem_mem _), ?_⟩
  decide

/-- **C107 violated: channels are not ordered.**  Of a version and another name each is less than the other
(fvm/mod.rs:69-80), so the order in which `fvm list` shows them is undefined. -/
theorem C107_violated_order (cmpV : V → V → Ordering) (cmpS : String → String → Ordering) (v : V) (s : String) :
    Chan.cmp cmpV cmpS (.tag v) (.other s) = .lt ∧ Chan.cmp cmpV cmpS (.other s) (.tag v) = .lt := ⟨rfl, rfl⟩

/-- Apart from other names they are: stable, latest, then versions from new to old. -/
theorem C107_order_partial (cmpV : V → V → Ordering) (cmpS : String → String → Ordering)
    (hv : ∀ a b, (cmpV a b).swap = cmpV b a) (a b : Chan V) (ha : ∀ s, a ≠ .other s) (hb : ∀ s, b ≠ .other s) :
    (Chan.cmp cmpV cmpS a b).swap = Chan.cmp cmpV cmpS b a := by
  cases a with
  | other s => exact absurd rfl (ha s)
  | stable => cases b with
    | other s => exact absurd rfl (hb s)
    | _ => rfl
  | latest => cases b with
    | other s => exact absurd rfl (hb s)
    | _ => rfl
  | tag v => cases b with
    | other s => exact absurd rfl (hb s)
    | tag w => exact hv v w
    | _ => rfl

end Verif.Props
