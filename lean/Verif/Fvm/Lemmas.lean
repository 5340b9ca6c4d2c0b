import Verif.Fvm.Model

/-!
# Lemmas about the version manager
-/

namespace Verif.Fvm

set_option linter.unusedSectionVars false

variable {V B : Type} [DecidableEq V]

/-! ## How programs end -/

/-- The program ends without error in `t` with result `a`. -/
def Ends {α : Type} (p : Prog V B α) (s t : Fs V B) (a : α) : Prop := (p s).2 = (t, some a)

theorem then_of {α β : Type} {p : Prog V B α} {q : α → Prog V B β} {s t : Fs V B} {a : α} (h : Ends p s t a) :
    (p.then q s).2 = (q a t).2 := by
  unfold Ends at h
  unfold Prog.then
  cases hp : p s with
  | mk l x =>
    rw [hp] at h
    dsimp only at h
    subst h
    rfl

theorem Ends.then {α β : Type} {p : Prog V B α} {q : α → Prog V B β} {s t u : Fs V B} {a : α} {b : β} (h : Ends p s t a)
    (h2 : Ends (q a) t u b) : Ends (p.then q) s u b := by
  show _ = _
  rw [then_of h]; exact h2

theorem ends_act (f : Fs V B → Fs V B) (s : Fs V B) : Ends (.act f) s (f s) () := rfl
theorem ends_ok {α : Type} (a : α) (s : Fs V B) : Ends (.ok a) s s a := rfl
theorem ends_read {α : Type} {f : Fs V B → Option α} {s : Fs V B} {a : α} (h : f s = some a) : Ends (.read f) s s a := by
  unfold Ends Prog.read; rw [h]

theorem ends_each {β : Type} {f : β → Prog V B Unit} {g : Fs V B → β → Fs V B} (h : ∀ s b, Ends (f b) s (g s b) ()) :
    ∀ (l : List β) (s : Fs V B), Ends (each f l) s (l.foldl g s) ()
  | [], s => rfl
  | b :: l, s => (h s b).then (ends_each h l _)

theorem ends_save (x : Option (Chan V) × Option V) (s : Fs V B) :
    Ends (saveSettings x) s { s with settings := some (.whole x) } () :=
  (ends_act _ _).then (ends_act _ _)

/-- The settings, if they can be read. -/
def settingsOf (s : Fs V B) : Option (Chan V) × Option V :=
  match s.settings with
  | some (.whole x) => x
  | _ => (none, none)

theorem ends_open {s : Fs V B} (h : s.settings ≠ some .torn) :
    Ends openSettings s { s with settings := some (.whole (settingsOf s)) } (settingsOf s) := by
  obtain ⟨d, b, st⟩ := s
  cases st with
  | none => rfl
  | some f =>
    cases f with
    | torn => exact absurd rfl h
    | whole x => rfl

theorem open_torn {s : Fs V B} (h : s.settings = some .torn) : openSettings s = ([], s, none) := by
  unfold openSettings
  rw [h]

theorem setBin_setBin (n : String) (x y : Option (File B)) (s : Fs V B) : setBin n y (setBin n x s) = setBin n y s := by
  unfold setBin
  congr 1
  funext m
  dsimp only
  split <;> rfl

theorem ends_copy (e : String × File B) (s : Fs V B) : Ends (copyBin e) s (setBin e.1 (some e.2) s) () := by
  have : Ends (copyBin e) s (setBin e.1 (some e.2) (setBin e.1 (some .torn) (setBin e.1 none s))) () :=
    (ends_act _ _).then ((ends_act _ _).then (ends_act _ _))
  rwa [setBin_setBin, setBin_setBin] at this

/-- The binaries after copying. -/
def copied (files : List (String × File B)) (s : Fs V B) : Fs V B :=
  files.foldl (fun s e => setBin e.1 (some e.2) s) s

theorem copied_rest : ∀ (files : List (String × File B)) (s : Fs V B),
    (copied files s).dirs = s.dirs ∧ (copied files s).settings = s.settings ∧
    ∀ n, (∀ e ∈ files, e.1 ≠ n) → (copied files s).bin n = s.bin n
  | [], s => ⟨rfl, rfl, fun _ _ => rfl⟩
  | e :: l, s => by
    obtain ⟨h1, h2, h3⟩ := copied_rest l (setBin e.1 (some e.2) s)
    refine ⟨h1, h2, fun n hn => ?_⟩
    show (copied l (setBin e.1 (some e.2) s)).bin n = _
    rw [h3 n fun x hx => hn x (by simp [hx])]
    exact if_neg fun he => hn e (by simp) he.symm

theorem copied_bin : ∀ (files : List (String × File B)) (s : Fs V B), (files.map (·.1)).Nodup →
    ∀ e ∈ files, (copied files s).bin e.1 = some e.2
  | [], _, _, _, he => by cases he
  | x :: l, s, hn, e, he => by
    rw [List.map_cons, List.nodup_cons] at hn
    rcases List.mem_cons.1 he with rfl | he
    · have := (copied_rest l (setBin e.1 (some e.2) s)).2.2 e.1
        fun y hy hey => hn.1 (List.mem_map.2 ⟨y, hy, hey⟩)
      show (copied l (setBin e.1 (some e.2) s)).bin e.1 = _
      rw [this]
      exact if_pos rfl
    · exact copied_bin l _ hn.2 e he

/-- The state after activating a directory. -/
def activated (m : Manifest V) (files : List (String × File B)) (s : Fs V B) : Fs V B :=
  { copied files s with settings := some (.whole (some m.channel, some m.version)) }

theorem ends_setActive {s : Fs V B} (h : s.settings ≠ some .torn) (m : Manifest V) (files : List (String × File B)) :
    Ends (setActive m files) s (activated m files s) () := by
  have h1 : Ends (each copyBin files) s (copied files s) () :=
    ends_each (g := fun s e => setBin e.1 (some e.2) s) (fun s e => ends_copy e s) files s
  refine h1.then ?_
  refine (ends_open (s := copied files s) (by rw [(copied_rest files s).2.1]; exact h)).then ?_
  exact ends_save _ _

theorem ends_activate {s : Fs V B} (h : s.settings ≠ some .torn) {c : Chan V} {d : Dir V B} {m : Manifest V}
    (hd : s.dirs c = some d) (hm : d.manifest = some (.whole m)) : Ends (activate c) s (activated m d.files s) () :=
  (ends_read (f := fun s : Fs V B => (s.dirs c).bind openDir) (a := (m, d.files)) (by
    rw [hd]; show openDir d = _; unfold openDir; rw [hm])).then (ends_setActive h m d.files)

theorem put_put (l : List (String × File B)) (n : String) (x y : File B) : put (put l n x) n y = put l n y := by
  unfold put
  rw [List.filter_append, List.filter_filter]
  simp

theorem put_remove (l : List (String × File B)) (n : String) (y : File B) : put (remove l n) n y = put l n y := by
  unfold put remove
  rw [List.filter_filter]
  simp

theorem inDir_inDir (c : Chan V) (f g : Dir V B → Dir V B) (s : Fs V B) :
    inDir c g (inDir c f s) = inDir c (g ∘ f) s := by
  unfold inDir setDir
  congr 1
  funext x
  dsimp only
  split
  · rw [if_pos rfl, Option.map_map]
  · rfl

/-- An artifact stored. -/
def stored1 (c : Chan V) (s : Fs V B) (a : Artifact V B) : Fs V B :=
  inDir c (fun d => { d with files := put d.files a.name (.whole a.body) }) s

theorem ends_storeOne (rename : Bool) (c : Chan V) (s : Fs V B) (a : Artifact V B) :
    Ends (storeOne rename c a) s (stored1 c s a) () := by
  have e1 : (fun d : Dir V B => { d with files := put d.files a.name (.whole a.body) }) ∘
      (fun d : Dir V B => { d with files := remove d.files a.name }) =
      fun d : Dir V B => { d with files := put d.files a.name (.whole a.body) } := by
    funext d; simp only [Function.comp]; rw [put_remove]
  have e2 : (fun d : Dir V B => { d with files := put d.files a.name (.whole a.body) }) ∘
      (fun d : Dir V B => { d with files := put d.files a.name .torn }) =
      fun d : Dir V B => { d with files := put d.files a.name (.whole a.body) } := by
    funext d; simp only [Function.comp]; rw [put_put]
  unfold storeOne stored1
  cases rename with
  | true =>
    have := (ends_act (inDir c fun d => { d with files := remove d.files a.name }) s).then
      (q := fun _ => (if (true : Bool) then Prog.ok () else .act (inDir c fun d =>
        { d with files := put d.files a.name .torn })).then fun _ =>
          .act (inDir c fun d => { d with files := put d.files a.name (.whole a.body) }))
      ((ends_ok () _).then (ends_act _ _))
    rw [inDir_inDir, e1] at this
    exact this
  | false =>
    have := (ends_act (inDir c fun d => { d with files := remove d.files a.name }) s).then
      (q := fun _ => (if (false : Bool) then Prog.ok () else .act (inDir c fun d =>
        { d with files := put d.files a.name .torn })).then fun _ =>
          .act (inDir c fun d => { d with files := put d.files a.name (.whole a.body) }))
      ((ends_act _ _).then (ends_act _ _))
    rw [inDir_inDir, e2, inDir_inDir, e1] at this
    exact this

/-- The files after storing artifacts. -/
def storedFiles (l : List (Artifact V B)) (files : List (String × File B)) : List (String × File B) :=
  l.foldl (fun fs a => put fs a.name (.whole a.body)) files

theorem stored_eq (c : Chan V) : ∀ (l : List (Artifact V B)) (s : Fs V B) (d : Dir V B), s.dirs c = some d →
    l.foldl (stored1 c) s = setDir c (some { d with files := storedFiles l d.files }) s
  | [], s, d, h => by
    unfold setDir storedFiles
    obtain ⟨ds, b, st⟩ := s
    show (⟨ds, b, st⟩ : Fs V B) = ⟨fun x => if x = c then some d else ds x, b, st⟩
    congr 1
    funext x
    split
    · rename_i hx; rw [hx]; exact h
    · rfl
  | a :: l, s, d, h => by
    have h1 : (stored1 c s a).dirs c = some { d with files := put d.files a.name (.whole a.body) } := by
      show (if c = c then (s.dirs c).map _ else _) = _
      rw [if_pos rfl, h]; rfl
    rw [List.foldl_cons, stored_eq c l _ _ h1]
    unfold setDir
    congr 1
    funext x
    dsimp only
    split
    · rfl
    · rename_i hx; exact if_neg hx

theorem ends_store (rename : Bool) (c : Chan V) (l : List (Artifact V B)) (s : Fs V B) :
    Ends (store rename c l) s
      (setDir c (some { ((s.dirs c).getD ⟨none, []⟩) with files := storedFiles l ((s.dirs c).getD ⟨none, []⟩).files }) s)
      () := by
  unfold store
  refine (ends_read (a := (s.dirs c).isSome) rfl).then ?_
  cases hd : s.dirs c with
  | some d =>
    refine (ends_ok () s).then ?_
    have := ends_each (f := storeOne rename c) (ends_storeOne rename c) l s
    rw [stored_eq c l s d hd] at this
    exact this
  | none =>
    refine (ends_act _ s).then ?_
    have := ends_each (f := storeOne rename c) (ends_storeOne rename c) l (setDir c (some ⟨none, []⟩) s)
    rw [stored_eq c l _ ⟨none, []⟩ (if_pos rfl)] at this
    have e : ∀ y z : Option (Dir V B), setDir c y (setDir c z s) = setDir c y s := by
      intro y z
      unfold setDir
      congr 1
      funext x
      dsimp only
      split <;> rfl
    rw [e] at this
    exact this

theorem ends_manifest (c : Chan V) (m : Manifest V) (s : Fs V B) {d : Dir V B} (hd : s.dirs c = some d) :
    Ends (writeManifest c m) s (setDir c (some { d with manifest := some (.whole m) }) s) () := by
  have := (ends_act (inDir c fun d : Dir V B => { d with manifest := some .torn }) s).then
    (q := fun _ => .act (inDir c fun d => { d with manifest := some (.whole m) })) (ends_act _ _)
  rw [inDir_inDir] at this
  unfold inDir at this
  rw [hd] at this
  exact this

theorem setDir_setDir (c : Chan V) (y z : Option (Dir V B)) (s : Fs V B) : setDir c y (setDir c z s) = setDir c y s := by
  unfold setDir
  congr 1
  funext x
  dsimp only
  split <;> rfl

theorem setDir_same (c : Chan V) (y : Option (Dir V B)) (s : Fs V B) : (setDir c y s).dirs c = y := if_pos rfl
theorem setDir_other {c x : Chan V} (y : Option (Dir V B)) (s : Fs V B) (h : x ≠ c) : (setDir c y s).dirs x = s.dirs x :=
  if_neg h

/-- The directory after an installation. -/
def installedDir (c : Chan V) (p : Pkgset V B) (s : Fs V B) : Dir V B :=
  ⟨some (.whole ⟨c, p.version, some (p.artifacts.map fun a => (a.name, a.version))⟩),
    storedFiles p.artifacts ((s.dirs c).getD ⟨none, []⟩).files⟩

theorem ends_install {s : Fs V B} (h : s.settings ≠ some .torn) (rename : Bool) (c : Chan V) (p : Pkgset V B) :
    Ends (install rename true c p) s (activated ⟨c, p.version, some (p.artifacts.map fun a => (a.name, a.version))⟩
      (installedDir c p s).files (setDir c (some (installedDir c p s)) s)) () := by
  unfold install
  rw [if_pos rfl]
  refine (ends_store rename c p.artifacts s).then ?_
  refine (ends_manifest c _ _ (setDir_same c _ s)).then ?_
  rw [setDir_setDir]
  exact ends_activate (s := setDir c (some (installedDir c p s)) s) h (setDir_same c _ s) rfl

/-- The directory after an update. -/
def updatedDir (l : List (Artifact V B)) (d : Dir V B) (m : Manifest V) : Dir V B :=
  ⟨some (.whole { m with contents := m.contents.map fun x => merge x l }), storedFiles l d.files⟩

theorem ends_update {s : Fs V B} (h : s.settings ≠ some .torn) (rename : Bool) {c : Chan V} (l : List (Artifact V B))
    {d : Dir V B} {m : Manifest V} (hd : s.dirs c = some d) (hm : d.manifest = some (.whole m)) :
    Ends (update rename true c l) s (activated { m with contents := m.contents.map fun x => merge x l }
      (updatedDir l d m).files (setDir c (some (updatedDir l d m)) s)) () := by
  unfold update
  rw [if_pos rfl]
  have h1 := ends_store rename c l s
  rw [hd] at h1
  refine h1.then ?_
  refine (ends_read (a := m) ?_).then ?_
  · rw [setDir_same]
    show Option.map _ (openDir _) = _
    unfold openDir
    show Option.map _ (match d.manifest with | some (.whole m) => _ | _ => none) = _
    rw [hm]
    rfl
  · refine (ends_manifest c _ _ (setDir_same c _ s)).then ?_
    rw [setDir_setDir]
    exact ends_activate (s := setDir c (some (updatedDir l d m)) s) h (setDir_same c _ s) rfl

/-! ## Files -/

theorem mem_put {l : List (String × File B)} {n : String} {x : File B} {e : String × File B} :
    e ∈ put l n x ↔ (e ∈ l ∧ e.1 ≠ n) ∨ e = (n, x) := by
  unfold put
  rw [List.mem_append, List.mem_filter, List.mem_singleton, decide_eq_true_eq]

theorem nodup_put {l : List (String × File B)} (h : (l.map (·.1)).Nodup) (n : String) (x : File B) :
    ((put l n x).map (·.1)).Nodup := by
  unfold put
  rw [List.map_append, List.nodup_append]
  refine ⟨h.sublist (List.filter_sublist.map _), by simp, ?_⟩
  intro a ha b hb hab
  obtain ⟨e, he, rfl⟩ := List.mem_map.1 ha
  have := (List.mem_filter.1 he).2
  simp at hb this
  exact this (hab.trans hb)

theorem storedFiles_spec : ∀ (l : List (Artifact V B)) (files : List (String × File B)),
    ((files.map (·.1)).Nodup → ((storedFiles l files).map (·.1)).Nodup) ∧
    ((∀ e ∈ files, e.2 ≠ .torn) → ∀ e ∈ storedFiles l files, e.2 ≠ .torn) ∧
    (∀ e ∈ files, (∀ a ∈ l, a.name ≠ e.1) → e ∈ storedFiles l files) ∧
    ((l.map (·.name)).Nodup → ∀ a ∈ l, (a.name, File.whole a.body) ∈ storedFiles l files) ∧
    (∀ e ∈ storedFiles l files, e ∈ files ∨ ∃ a ∈ l, e = (a.name, .whole a.body))
  | [], files => ⟨fun h => h, fun h => h, fun _ h _ => h, fun _ _ h => by simp at h, fun _ h => .inl h⟩
  | a :: l, files => by
    obtain ⟨h1, h2, h3, h4, h5⟩ := storedFiles_spec l (put files a.name (.whole a.body))
    refine ⟨fun h => h1 (nodup_put h _ _), fun h => h2 ?_, ?_, ?_, ?_⟩
    · intro e he
      rcases mem_put.1 he with ⟨he, _⟩ | rfl
      · exact h e he
      · intro hc; cases hc
    · intro e he hn
      exact h3 e (mem_put.2 (.inl ⟨he, fun hh => hn a (by simp) hh.symm⟩)) fun x hx => hn x (by simp [hx])
    · intro hn x hx
      rw [List.map_cons, List.nodup_cons] at hn
      rcases List.mem_cons.1 hx with rfl | hx
      · exact h3 (x.name, .whole x.body) (mem_put.2 (.inr rfl))
          fun y hy he => hn.1 (List.mem_map.2 ⟨y, hy, he⟩)
      · exact h4 hn.2 x hx
    · intro e he
      rcases h5 e he with he | ⟨x, hx, rfl⟩
      · rcases mem_put.1 he with ⟨he, _⟩ | rfl
        · exact .inl he
        · exact .inr ⟨a, by simp, rfl⟩
      · exact .inr ⟨x, by simp [hx], rfl⟩

/-! ## What is preserved -/

variable {content : String → V → B}

theorem good_activated {s : Fs V B} {c : Chan V} {d : Dir V B} (hs : ∀ c d, s.dirs c = some d → DirOk content c d)
    (hd : s.dirs c = some d) {m : Manifest V} (hm : d.manifest = some (.whole m)) (hc : m.channel = c) :
    Good content (activated m d.files s) := by
  obtain ⟨h1, _, _⟩ := copied_rest d.files s
  refine ⟨?_, ?_, ?_⟩
  · intro x y h
    exact hs x y (by rw [← h1]; exact h)
  · intro h; cases h
  · intro x v h
    have h : some (File.whole (some m.channel, some m.version)) = some (File.whole (x, v)) := h
    injection h with h
    injection h with h
    injection h with ha hb
    refine .inr ⟨c, m.version, by rw [← ha, hc], hb.symm, d, m, ?_, hm, rfl, ?_⟩
    · show (copied d.files s).dirs c = _
      rw [h1]; exact hd
    · exact copied_bin d.files s (hs c d hd).nodup

theorem dirs_setDir {s : Fs V B} {c : Chan V} {d : Dir V B} (hs : ∀ c d, s.dirs c = some d → DirOk content c d)
    (h : DirOk content c d) : ∀ x y, (setDir c (some d) s).dirs x = some y → DirOk content x y := by
  intro x y hy
  by_cases hx : x = c
  · subst hx
    rw [setDir_same] at hy
    injection hy with hy
    exact hy ▸ h
  · rw [setDir_other _ _ hx] at hy
    exact hs x y hy

theorem old_files {s : Fs V B} (hs : ∀ c d, s.dirs c = some d → DirOk content c d) (c : Chan V) :
    (((s.dirs c).getD ⟨none, []⟩).files.map (·.1)).Nodup ∧ ∀ e ∈ ((s.dirs c).getD ⟨none, []⟩).files, e.2 ≠ .torn := by
  cases hd : s.dirs c with
  | none => exact ⟨List.nodup_nil, fun e he => by cases he⟩
  | some d => exact ⟨(hs c d hd).nodup, (hs c d hd).whole⟩

theorem installedDir_ok {s : Fs V B} {c : Chan V} {p : Pkgset V B}
    (hn : (((s.dirs c).getD ⟨none, []⟩).files.map (·.1)).Nodup)
    (hw : ∀ e ∈ ((s.dirs c).getD ⟨none, []⟩).files, e.2 ≠ .torn) (hp : Published content p) :
    DirOk content c (installedDir c p s) := by
  obtain ⟨k1, k2, _, k4, _⟩ := storedFiles_spec p.artifacts ((s.dirs c).getD ⟨none, []⟩).files
  refine ⟨⟨_, rfl, rfl, ?_⟩, k1 hn, k2 hw⟩
  intro l hl e he
  injection hl with hl
  subst hl
  obtain ⟨a, ha, rfl⟩ := List.mem_map.1 he
  have := k4 hp.1 a ha
  rw [hp.2 a ha] at this
  exact this

theorem updatedDir_ok {c : Chan V} {d : Dir V B} {m : Manifest V} (h : DirOk content c d)
    (hm : d.manifest = some (.whole m)) {l : List (Artifact V B)} (hn : (l.map (·.name)).Nodup)
    (hl : ∀ a ∈ l, a.body = content a.name a.version) : DirOk content c (updatedDir l d m) := by
  obtain ⟨k1, k2, k3, k4, _⟩ := storedFiles_spec l d.files
  obtain ⟨m', e1, e2, e3⟩ := h.manifest
  rw [hm] at e1
  injection e1 with e1
  injection e1 with e1
  subst e1
  refine ⟨⟨_, rfl, e2, ?_⟩, k1 h.nodup, k2 h.whole⟩
  intro y hy e he
  obtain ⟨x, hx, rfl⟩ := Option.map_eq_some_iff.1 hy
  unfold merge at he
  obtain ⟨z, hz, rfl⟩ := List.mem_map.1 he
  show _ ∈ storedFiles l d.files
  cases hf : l.find? fun a => decide (a.name = z.1) with
  | some a =>
    have ha := List.mem_of_find?_eq_some hf
    dsimp only
    have := k4 hn a ha
    rw [hl a ha] at this
    exact this
  | none =>
    rw [List.find?_eq_none] at hf
    exact k3 _ (e3 x hx z hz) fun a ha => by simpa using hf a ha

theorem good_settings {s : Fs V B} (h : Good content s) : Good content { s with settings := some (.whole (settingsOf s)) } := by
  obtain ⟨ds, b, st⟩ := s
  cases st with
  | none =>
    refine ⟨h.dirs, (by intro hc; cases hc), ?_⟩
    intro c v hcv
    injection hcv with hcv
    injection hcv with hcv
    injection hcv with h1 h2
    exact .inl ⟨h1.symm, h2.symm⟩
  | some f =>
    cases f with
    | torn => exact absurd rfl h.settings
    | whole x => exact h

/-! ## At every moment -/

/-- `P` holds at every moment if it holds at the beginning. -/
def Always {α : Type} (P : Fs V B → Prop) (p : Prog V B α) : Prop :=
  ∀ s, P s → (∀ t ∈ (p s).1, P t) ∧ P (p s).2.1

theorem Always.then {α β : Type} {P : Fs V B → Prop} {p : Prog V B α} {q : α → Prog V B β} (h : Always P p)
    (h2 : ∀ a, Always P (q a)) : Always P (p.then q) := by
  intro s hs
  obtain ⟨k1, k2⟩ := h s hs
  unfold Prog.then
  cases hp : p s with
  | mk l x =>
    obtain ⟨t, r⟩ := x
    rw [hp] at k1 k2
    cases r with
    | none => exact ⟨k1, k2⟩
    | some a =>
      obtain ⟨m1, m2⟩ := h2 a t k2
      refine ⟨?_, m2⟩
      intro u hu
      rcases List.mem_append.1 hu with hu | hu
      · exact k1 u hu
      · exact m1 u hu

theorem always_ok {α : Type} (P : Fs V B → Prop) (a : α) : Always P (.ok a) :=
  fun _ hs => ⟨fun _ ht => (nomatch ht), hs⟩

theorem always_fail {α : Type} (P : Fs V B → Prop) : Always P (.fail : Prog V B α) :=
  fun _ hs => ⟨fun _ ht => (nomatch ht), hs⟩

theorem always_read {α : Type} (P : Fs V B → Prop) (f : Fs V B → Option α) : Always P (.read f) :=
  fun _ hs => ⟨fun _ ht => (nomatch ht), hs⟩

theorem always_act {P : Fs V B → Prop} {f : Fs V B → Fs V B} (h : ∀ s, P s → P (f s)) : Always P (.act f) := by
  intro s hs
  refine ⟨?_, h s hs⟩
  intro t ht
  rw [List.mem_singleton.1 ht]
  exact h s hs

theorem always_each {β : Type} {P : Fs V B → Prop} {f : β → Prog V B Unit} (h : ∀ b, Always P (f b)) :
    ∀ l, Always P (each f l)
  | [] => always_ok P ()
  | b :: l => (h b).then fun _ => always_each h l

/-- What does not depend on binaries and settings. -/
def OnDirs (P : Fs V B → Prop) : Prop := ∀ s t : Fs V B, s.dirs = t.dirs → P s → P t

theorem always_save {P : Fs V B → Prop} (h : OnDirs P) (x : Option (Chan V) × Option V) : Always P (saveSettings x) := by
  unfold saveSettings
  refine Always.then (always_act ?_) fun _ => always_act ?_
  · intro s hs; exact h s _ rfl hs
  · intro s hs; exact h s _ rfl hs

theorem always_open {P : Fs V B → Prop} (h : OnDirs P) : Always P openSettings := by
  intro s hs
  unfold openSettings
  split
  · exact ((always_save h _).then fun _ => always_ok P _) s hs
  · exact ⟨fun _ ht => (nomatch ht), hs⟩
  · exact ⟨fun _ ht => (nomatch ht), hs⟩

theorem always_activate {P : Fs V B → Prop} (h : OnDirs P) (c : Chan V) : Always P (activate c) := by
  refine (always_read P _).then fun x => ?_
  refine (always_each (fun e => ?_) x.2).then fun _ => (always_open h).then fun _ => always_save h _
  unfold copyBin
  refine Always.then (always_act ?_) fun _ => Always.then (always_act ?_) fun _ => always_act ?_
  · intro s hs; exact h s _ rfl hs
  · intro s hs; exact h s _ rfl hs
  · intro s hs; exact h s _ rfl hs

theorem always_store {P : Fs V B → Prop} {c : Chan V} (h : ∀ d s, P s → P (setDir c d s)) (rename : Bool)
    (l : List (Artifact V B)) : Always P (store rename c l) := by
  refine (always_read P _).then fun here => ?_
  have h1 : Always P (if here then Prog.ok () else .act (setDir c (some ⟨none, []⟩))) := by
    cases here with
    | true => exact always_ok P ()
    | false => exact always_act fun s hs => h _ s hs
  refine h1.then fun _ => always_each (fun a => ?_) l
  refine (always_act fun s hs => h _ s hs).then fun _ => ?_
  have h2 : Always P (if rename then Prog.ok () else .act (inDir c fun d => { d with files := put d.files a.name .torn })) := by
    cases rename with
    | true => exact always_ok P ()
    | false => exact always_act fun s hs => h _ s hs
  exact h2.then fun _ => always_act fun s hs => h _ s hs

theorem always_manifest {P : Fs V B → Prop} {c : Chan V} (h : ∀ d s, P s → P (setDir c d s)) (m : Manifest V) :
    Always P (writeManifest c m) :=
  (always_act fun s hs => h _ s hs).then fun _ => always_act fun s hs => h _ s hs

theorem always_install {P : Fs V B → Prop} {c : Chan V} (ho : OnDirs P) (h : ∀ d s, P s → P (setDir c d s))
    (rename got : Bool) (p : Pkgset V B) : Always P (install rename got c p) := by
  unfold install
  cases got with
  | false => exact always_fail P
  | true => exact (always_store h rename _).then fun _ => (always_manifest h _).then fun _ => always_activate ho c

theorem always_update {P : Fs V B → Prop} {c : Chan V} (ho : OnDirs P) (h : ∀ d s, P s → P (setDir c d s))
    (rename got : Bool) (l : List (Artifact V B)) : Always P (update rename got c l) := by
  unfold update
  cases got with
  | false => exact always_fail P
  | true =>
    exact (always_store h rename _).then fun _ => (always_read P _).then fun _ =>
      (always_manifest h _).then fun _ => always_activate ho c

theorem always_switch {P : Fs V B → Prop} (ho : OnDirs P) (c : Chan V) : Always P (switch c) := by
  refine (always_read P _).then fun here => ?_
  cases here with
  | true => exact always_activate ho c
  | false => exact always_ok P ()

theorem always_uninstall {P : Fs V B → Prop} {c : Chan V} (h : ∀ d s, P s → P (setDir c d s)) (first : Bool) :
    Always P (uninstall first c) := by
  refine (always_read P _).then fun x => ?_
  cases x with
  | none => exact always_ok P ()
  | some files =>
    have m : Always P (.act (inDir c fun d : Dir V B => { d with manifest := none })) :=
      always_act fun s hs => h _ s hs
    have f : Always P (each (fun e => .act (inDir c fun d : Dir V B => { d with files := remove d.files e.1 })) files) :=
      always_each (fun e => always_act fun s hs => h _ s hs) files
    have g : Always P (if first then (Prog.act (inDir c fun d : Dir V B => { d with manifest := none })).then fun _ =>
          each (fun e => .act (inDir c fun d : Dir V B => { d with files := remove d.files e.1 })) files
        else (each (fun e => .act (inDir c fun d : Dir V B => { d with files := remove d.files e.1 })) files).then fun _ =>
          Prog.act (inDir c fun d : Dir V B => { d with manifest := none })) := by
      cases first with
      | true => exact m.then fun _ => f
      | false => exact f.then fun _ => m
    exact g.then fun _ => always_act fun s hs => h _ s hs

theorem uninstall_end (first : Bool) {c : Chan V} {s : Fs V B} {d : Dir V B} {m : Manifest V} (hd : s.dirs c = some d)
    (hm : d.manifest = some (.whole m)) : ∃ t, Ends (uninstall first c) s t () ∧ t.bin = s.bin ∧
      t.settings = s.settings ∧ t.dirs c = none ∧ ∀ x, x ≠ c → t.dirs x = s.dirs x := by
  have key : ∀ (p : Prog V B Unit), (∃ u, Ends p s u () ∧ u.bin = s.bin ∧ u.settings = s.settings ∧
      ∀ x, x ≠ c → u.dirs x = s.dirs x) → ∃ t, Ends (p.then fun _ => .act (setDir c none)) s t () ∧ t.bin = s.bin ∧
      t.settings = s.settings ∧ t.dirs c = none ∧ ∀ x, x ≠ c → t.dirs x = s.dirs x := by
    rintro p ⟨u, h1, h2, h3, h4⟩
    exact ⟨_, h1.then (ends_act _ _), h2, h3, setDir_same c none u, fun x hx =>
      (setDir_other none u hx).trans (h4 x hx)⟩
  have hf : ∀ (l : List (String × File B)) (u : Fs V B), ∃ w,
      Ends (each (fun e => .act (inDir c fun d : Dir V B => { d with files := remove d.files e.1 })) l) u w () ∧
      w.bin = u.bin ∧ w.settings = u.settings ∧ ∀ x, x ≠ c → w.dirs x = u.dirs x := by
    intro l
    induction l with
    | nil => intro u; exact ⟨u, rfl, rfl, rfl, fun _ _ => rfl⟩
    | cons e l ih =>
      intro u
      obtain ⟨w, h1, h2, h3, h4⟩ := ih (inDir c (fun d : Dir V B => { d with files := remove d.files e.1 }) u)
      exact ⟨w, (ends_act _ u).then h1, h2, h3, fun x hx => (h4 x hx).trans (setDir_other _ u hx)⟩
  have hr : Ends (.read fun s : Fs V B => match s.dirs c with
      | none => some none
      | some d => (openDir d).map fun x => some x.2) s s (some d.files) := by
    refine ends_read ?_
    rw [hd]
    show Option.map _ (openDir d) = _
    unfold openDir
    rw [hm]
    rfl
  have := key (if first then (Prog.act (inDir c fun d : Dir V B => { d with manifest := none })).then fun _ =>
        each (fun e => .act (inDir c fun d : Dir V B => { d with files := remove d.files e.1 })) d.files
      else (each (fun e => .act (inDir c fun d : Dir V B => { d with files := remove d.files e.1 })) d.files).then fun _ =>
        Prog.act (inDir c fun d : Dir V B => { d with manifest := none })) (by
    cases first with
    | true =>
      obtain ⟨w, h1, h2, h3, h4⟩ := hf d.files (inDir c (fun d : Dir V B => { d with manifest := none }) s)
      refine ⟨w, ?_, h2, h3, fun x hx => (h4 x hx).trans (setDir_other _ s hx)⟩
      rw [if_pos rfl]
      exact Ends.then (ends_act _ s) h1
    | false =>
      obtain ⟨w, h1, h2, h3, h4⟩ := hf d.files s
      exact ⟨_, h1.then (ends_act _ _), h2, h3, fun x hx => (setDir_other _ w hx).trans (h4 x hx)⟩)
  obtain ⟨t, h1, h2⟩ := this
  exact ⟨t, hr.then h1, h2⟩

end Verif.Fvm
