import Verif.Props.AdminApi
/-!
# C69: a SmartModule is found, listed and deleted by its qualified name

Property theorems about the names of SmartModules; the model is in `Verif/Admin/Package.lean` and
`Verif/Admin/Api.lean`.
-/

namespace Verif.Props

open Verif.Admin

set_option linter.unusedSectionVars false

/-! ### Specification -/

section
variable {V : Type} [DecidableEq V]

/-- a text refers to a package: it is the name, `group/name`, or `group/name@version`, where the version is
written in any way that reads as the package's -/
def Refers (S : SemVer V) (t : Text) (p : Package V) : Prop :=
  t = p.name ∨ t = p.group ++ '/' :: p.name
  ∨ ∃ ver, S.parse ver = some p.version ∧ t = p.group ++ '/' :: (p.name ++ '@' :: ver)

/-- the names of a package have none of the separators of qualified names -/
def CleanPackage (p : Package V) : Prop := '/' ∉ p.name ∧ '@' ∉ p.name ∧ '/' ∉ p.group

instance (p : Package V) : Decidable (CleanPackage p) := by unfold CleanPackage; infer_instance

/-- each separator occurs at most once -/
def PlainText (t : Text) : Prop := t.count '/' ≤ 1 ∧ t.count '@' ≤ 1

instance (t : Text) : Decidable (PlainText t) := by unfold PlainText; infer_instance

/-! ### Reading qualified names -/

theorem split_of_count_zero (c : Char) (t : Text) (h : c ∉ t) : split c t = [t] := split_free c t h

/-- a text with a separator, at its first occurrence -/
theorem at_first (c : Char) (t : Text) (h : c ∈ t) : ∃ a b, t = a ++ c :: b ∧ c ∉ a := by
  induction t with
  | nil => simp at h
  | cons x t ih =>
    by_cases hx : x = c
    · exact ⟨[], t, by simp [hx], by simp⟩
    · have : c ∈ t := by
        rcases List.mem_cons.mp h with e | e
        · exact absurd e.symm hx
        · exact e
      obtain ⟨a, b, rfl, h2⟩ := ih this
      exact ⟨x :: a, b, rfl, by simp [h2, Ne.symm hx]⟩

/-- the first occurrence is unique -/
theorem first_unique (c : Char) {a a' b b' : Text} (h : a ++ c :: b = a' ++ c :: b') (h1 : c ∉ a)
    (h2 : c ∉ a') : a = a' ∧ b = b' := by
  induction a generalizing a' with
  | nil =>
    cases a' with
    | nil => simpa using h
    | cons x a' =>
      simp only [List.nil_append, List.cons_append, List.cons.injEq] at h
      exact absurd (by simp [h.1]) h2
  | cons x a ih =>
    cases a' with
    | nil =>
      simp only [List.nil_append, List.cons_append, List.cons.injEq] at h
      exact absurd (by simp [h.1]) h1
    | cons x' a' =>
      simp only [List.cons_append, List.cons.injEq] at h
      have := ih h.2 (fun hm => h1 (List.mem_cons_of_mem _ hm)) (fun hm => h2 (List.mem_cons_of_mem _ hm))
      exact ⟨by rw [h.1, this.1], this.2⟩

theorem parse_short (S : SemVer V) (t : Text) (h : '/' ∉ t) :
    fromQualifiedName S t = some ⟨t, none, none⟩ := by
  unfold fromQualifiedName
  rw [split_free _ _ h]

theorem parse_group (S : SemVer V) (g n : Text) (hg : '/' ∉ g) (hn : '/' ∉ n) (hn2 : '@' ∉ n) :
    fromQualifiedName S (g ++ '/' :: n) = some ⟨n, some g, none⟩ := by
  unfold fromQualifiedName
  rw [split_append _ _ _ hg, split_free _ _ hn]
  dsimp only
  rw [split_free _ _ hn2]

theorem parse_full (S : SemVer V) (g n ver : Text) (hg : '/' ∉ g) (hn : '/' ∉ n) (hn2 : '@' ∉ n)
    (hv : '/' ∉ ver) (hv2 : '@' ∉ ver) :
    fromQualifiedName S (g ++ '/' :: (n ++ '@' :: ver))
      = (S.parse ver).map (fun v => ⟨n, some g, some v⟩) := by
  have h1 : '/' ∉ n ++ '@' :: ver := by simp [hn, hv]
  unfold fromQualifiedName
  rw [split_append _ _ _ hg, split_free _ _ h1]
  dsimp only
  rw [split_append _ _ _ hn2, split_free _ _ hv2]
  dsimp only
  cases S.parse ver <;> rfl

/-- **C69, names mean what they say (part).**  A text in which each separator occurs at most once is read as
a key that matches exactly the packages it refers to.  Missing: texts with further separators, and modules
without a package. -/
theorem C69_match_partial (S : SemVer V) (t n : Text) (p : Package V) (ht : PlainText t)
    (hp : CleanPackage p) :
    (∃ k, fromQualifiedName S t = some k ∧ k.isMatch n (some p) = true) ↔ Refers S t p := by
  obtain ⟨hp1, hp2, hp3⟩ := hp
  by_cases h : '/' ∈ t
  · obtain ⟨g, rest, rfl, hg⟩ := at_first '/' t h
    have hrest : '/' ∉ rest := by
      have := ht.1
      rw [List.count_append, List.count_cons_self] at this
      exact List.count_eq_zero.mp (by omega)
    by_cases h2 : '@' ∈ rest
    · obtain ⟨m, ver, rfl, hm⟩ := at_first '@' rest h2
      have hver : '@' ∉ ver := by
        have := ht.2
        rw [List.count_append, List.count_cons_of_ne (by decide), List.count_append,
          List.count_cons_self] at this
        exact List.count_eq_zero.mp (by omega)
      simp only [List.mem_append, List.mem_cons, not_or] at hrest
      obtain ⟨hm1, _, hver1⟩ := hrest
      rw [parse_full S g m ver hg hm1 hm hver1 hver]
      constructor
      · rintro ⟨k, hk, hmatch⟩
        cases hv : S.parse ver with
        | none => rw [hv] at hk; cases hk
        | some v =>
          rw [hv] at hk
          cases hk
          obtain ⟨e1, e2, e3⟩ := (isMatch_some_iff _ _ _).mp hmatch
          dsimp only at e1
          rw [e1, e2 g rfl]
          refine .inr (.inr ⟨ver, ?_, rfl⟩)
          rw [hv, e3 v rfl]
      · rintro (h' | h' | ⟨ver', hv, h'⟩)
        · exact absurd (by rw [← h']; simp) hp1
        · obtain ⟨_, e⟩ := first_unique '/' h' hg hp3
          exact absurd (by rw [← e]; simp) hp2
        · obtain ⟨e1, e2⟩ := first_unique '/' h' hg hp3
          obtain ⟨e3, e4⟩ := first_unique '@' e2 hm hp2
          subst e1 e3 e4
          refine ⟨_, by rw [hv]; rfl, (isMatch_some_iff _ _ _).mpr ⟨rfl, ?_, ?_⟩⟩
          · intro g hg; cases hg; rfl
          · intro v hv; cases hv; rfl
    · rw [parse_group S g rest hg hrest h2]
      constructor
      · rintro ⟨k, hk, hmatch⟩
        cases hk
        obtain ⟨e1, e2, _⟩ := (isMatch_some_iff _ _ _).mp hmatch
        dsimp only at e1
        rw [e1, e2 g rfl]
        exact .inr (.inl rfl)
      · rintro (h' | h' | ⟨ver', hv, h'⟩)
        · exact absurd (by rw [← h']; simp) hp1
        · obtain ⟨e1, e2⟩ := first_unique '/' h' hg hp3
          subst e1 e2
          refine ⟨_, rfl, (isMatch_some_iff _ _ _).mpr ⟨rfl, ?_, nofun⟩⟩
          intro g hg; cases hg; rfl
        · obtain ⟨_, e2⟩ := first_unique '/' h' hg hp3
          exact absurd (by rw [e2]; simp) h2
  · rw [parse_short S t h]
    constructor
    · rintro ⟨k, hk, hmatch⟩
      cases hk
      exact .inl ((isMatch_some_iff _ _ _).mp hmatch).1
    · rintro (h' | h' | ⟨ver', _, h'⟩)
      · exact ⟨_, rfl, (isMatch_some_iff _ _ _).mpr ⟨h', nofun, nofun⟩⟩
      · exact absurd (by rw [h']; simp) h
      · exact absurd (by rw [h']; simp) h

/-- **C69, modules without a package.**  One is found by exactly its name, if that has no `/` (part; with a
`/` see `C69_violated_slash` and `C69_violated_shadow`). -/
theorem C69_match_plain_partial (S : SemVer V) (t n : Text) (ht : '/' ∉ t) :
    (∃ k, fromQualifiedName S t = some k ∧ k.isMatch n (none : Option (Package V)) = true) ↔ t = n := by
  rw [parse_short S t ht]
  constructor
  · rintro ⟨k, hk, h⟩
    cases hk
    simpa [PackageKey.isMatch] using h
  · rintro rfl
    exact ⟨_, rfl, by simp [PackageKey.isMatch]⟩

/-! ### The broker's look-up -/

/-- all modules of a store are packaged and have clean names -/
def AllPackaged {α : Type} (package : α → Option (Package V)) (store : List (Text × α)) : Prop :=
  ∀ e ∈ store, ∃ p, package e.2 = some p ∧ CleanPackage p

/-- **C69, the broker's look-up (part).**  In a store of packaged modules the broker finds a module for a
name exactly if the name refers to one, and the one it finds is referred to. -/
theorem C69_found_partial {α : Type} (S : SemVer V) (package : α → Option (Package V))
    (store : List (Text × α)) (t : Text) (ht : PlainText t) (hs : AllPackaged package store) :
    ((∃ e, findByKey S package store t = some (some e))
      ↔ ∃ e ∈ store, ∃ p, package e.2 = some p ∧ Refers S t p)
    ∧ ∀ e, findByKey S package store t = some (some e) →
        e ∈ store ∧ ∃ p, package e.2 = some p ∧ Refers S t p := by
  have sound : ∀ e, findByKey S package store t = some (some e) →
      e ∈ store ∧ ∃ p, package e.2 = some p ∧ Refers S t p := by
    intro e h
    unfold findByKey at h
    cases hk : fromQualifiedName S t with
    | none => rw [hk] at h; cases h
    | some k =>
      rw [hk] at h
      simp only [Option.some.injEq] at h
      have hm := List.mem_of_find?_eq_some h
      obtain ⟨p, hp, hc⟩ := hs e hm
      have h2 := List.find?_some h
      rw [hp] at h2
      exact ⟨hm, p, hp, (C69_match_partial S t e.1 p ht hc).mp ⟨k, hk, h2⟩⟩
  refine ⟨⟨fun ⟨e, h⟩ => ⟨e, sound e h⟩, ?_⟩, sound⟩
  rintro ⟨e, hm, p, hp, hr⟩
  obtain ⟨p', hp', hc⟩ := hs e hm
  rw [hp] at hp'
  cases hp'
  obtain ⟨k, hk, hmatch⟩ := (C69_match_partial S t e.1 p ht hc).mpr hr
  unfold findByKey
  rw [hk]
  dsimp only
  cases hf : store.find? (fun e => k.isMatch e.1 (package e.2)) with
  | some e' => exact ⟨e', rfl⟩
  | none =>
    have := List.find?_eq_none.mp hf e hm
    rw [hp] at this
    exact absurd hmatch this

/-- **C69, the full name (part).**  In a store of packaged modules with packages of their own, the full name
of a package finds exactly its module. -/
theorem C69_full_name_partial {α : Type} (S : SemVer V) (hS : S.Lawful)
    (package : α → Option (Package V)) (store : List (Text × α)) (e : Text × α) (p : Package V)
    (he : e ∈ store) (hp : package e.2 = some p) (hat : '@' ∉ p.group)
    (hs : AllPackaged package store)
    (huniq : ∀ e₁ ∈ store, ∀ e₂ ∈ store, package e₁.2 = package e₂.2 → e₁ = e₂) :
    findByKey S package store (p.fqdn S) = some (some e) := by
  obtain ⟨p', hp', hc⟩ := hs e he
  rw [hp] at hp'
  cases hp'
  have ht : PlainText (p.fqdn S) := by
    unfold Package.fqdn
    have := hS.noSlash p.version
    have := hS.noAt p.version
    constructor <;> simp [List.count_append, List.count_cons, List.count_eq_zero.mpr, hc.1, hc.2.1, hc.2.2, *]
  obtain ⟨h1, h2⟩ := C69_found_partial S package store (p.fqdn S) ht hs
  obtain ⟨e', he'⟩ := h1.mpr ⟨e, he, p, hp, .inr (.inr ⟨_, hS.round _, rfl⟩)⟩
  obtain ⟨hm, q, hq, hr⟩ := h2 e' he'
  obtain ⟨q', hq', hcq⟩ := hs e' hm
  rw [hq] at hq'
  cases hq'
  have hpq : q = p := by
    unfold Package.fqdn at hr
    rcases hr with h | h | ⟨ver, hv, h⟩
    · exact absurd (by rw [← h]; simp) hcq.1
    · obtain ⟨_, h⟩ := first_unique '/' h hc.2.2 hcq.2.2
      exact absurd (by rw [← h]; simp) hcq.2.1
    · obtain ⟨e1, h⟩ := first_unique '/' h hc.2.2 hcq.2.2
      obtain ⟨e2, e3⟩ := first_unique '@' h hc.2.1 hcq.2.1
      subst e3
      rw [hS.round] at hv
      cases p; cases q
      simp only [Option.some.injEq] at hv e1 e2
      simp [hv, e1, e2]
  subst hpq
  rw [he', huniq e' hm e he (by rw [hq, hp])]

/-! ### The controller's names -/

/-- **C69, filing (part).**  Packages whose name and group have no `-` are filed under different ids.
Missing: names with `-` (`C69_violated_store_id`). -/
theorem C69_store_id_partial (S : SemVer V) (hS : S.Lawful) (p q : Package V) (hp : '-' ∉ p.name)
    (hp2 : '-' ∉ p.group) (hq : '-' ∉ q.name) (hq2 : '-' ∉ q.group)
    (h : p.storeId S = q.storeId S) : p = q := by
  unfold Package.storeId PackageKey.storeId at h
  dsimp only at h
  rw [List.append_assoc, List.append_assoc, List.cons_append, List.cons_append] at h
  obtain ⟨h1, h⟩ := first_unique '-' h hp hq
  obtain ⟨h2, h⟩ := first_unique '-' h hp2 hq2
  have h3 : p.version = q.version := by
    have e1 := hS.round p.version
    rw [h, hS.round] at e1
    exact (Option.some.inj e1).symm
  cases p; cases q
  simp_all

/-- **C69, the full name at the controller.**  A packaged module that was created is deleted by its full
name, and the check of a topic's deduplication accepts that name; every other module stays. -/
theorem C69_created_deleted (env : Env V) (hS : env.semver.Lawful) (auth auth' : AuthContext)
    (c : Cluster V) (reply reply' : Reply) (n : Text) (s : SmartModuleSpec V) (p : Package V) (d : Bool)
    (hp : s.pkg = some p) (hc : CleanPackage p)
    (hcreate : (handle env auth c reply (.createSmartModule n s d)).1 ≠ [])
    (hperm : auth'.instanceAction .smartModule .delete (p.fqdn env.semver) = some true) :
    let c₁ := applyAll c (handle env auth c reply (.createSmartModule n s d)).1
    let del := handle env auth' c₁ reply' (.deleteSmartModule (p.fqdn env.semver))
    objectAt c₁ .smartModule (p.storeId env.semver) = some (.smartModule s)
    ∧ (∀ spec : TopicSpec, spec.dedup = some (p.fqdn env.semver) → checkDedup env c₁ spec = none)
    ∧ del.1 ≠ [] ∧ objectAt (applyAll c₁ del.1) .smartModule (p.storeId env.semver) = none
    ∧ ∀ m, m ≠ p.storeId env.semver →
        objectAt (applyAll c₁ del.1) .smartModule m = objectAt c .smartModule m := by
  intro c₁ del
  have hkey : fromQualifiedName env.semver (p.fqdn env.semver)
      = some ⟨p.name, some p.group, some p.version⟩ := by
    unfold Package.fqdn
    rw [parse_full _ _ _ _ hc.2.2 hc.1 hc.2.1 (hS.noSlash _) (hS.noAt _), hS.round]
    rfl
  obtain ⟨h1, h2⟩ := C68_created env auth c reply (.createSmartModule n s d) .smartModule
    (p.storeId env.semver) (.smartModule s) (by rw [creates, hp]) hcreate
  have hget : Admin.get c₁.smartModules (p.storeId env.semver) = some s := by
    have : (Admin.get c₁.smartModules (p.storeId env.semver)).map AdminObject.smartModule
        = some (.smartModule s) := h1
    cases hg : Admin.get c₁.smartModules (p.storeId env.semver) with
    | none => rw [hg] at this; cases this
    | some x => rw [hg] at this; simp at this; rw [this]
  have hid : PackageKey.storeId env.semver ⟨p.name, some p.group, some p.version⟩
      = p.storeId env.semver := rfl
  have hdel : del = ([.delSmartModule (p.storeId env.semver)],
      .status (p.fqdn env.semver) (if reply'.stored then .ok else .storeError)) := by
    show deleteSmartModule env auth' c₁ reply' (p.fqdn env.semver) = _
    unfold deleteSmartModule guarded store
    rw [hperm, hkey]
    dsimp only
    rw [hid, hget]
    rfl
  refine ⟨h1, ?_, by rw [hdel]; simp, ?_, ?_⟩
  · intro spec hspec
    unfold checkDedup
    rw [hspec]
    dsimp only
    rw [hkey]
    dsimp only
    rw [hid, hget]
    rfl
  · rw [hdel]
    simp [applyAll, Effect.apply, objectAt, get_delAt]
  · intro m hm
    rw [hdel, ← h2 .smartModule m (by simp [hm])]
    show objectAt (Effect.apply c₁ (.delSmartModule (p.storeId env.semver))) .smartModule m = _
    simp only [Effect.apply, objectAt, get_delAt, if_neg hm]
    rfl

/-- every packaged module of the cluster is filed under its package -/
def WellFiled (S : SemVer V) (c : Cluster V) : Prop :=
  ∀ n s p, (n, s) ∈ c.smartModules → s.pkg = some p → n = p.storeId S

/-- **C69, controller and broker agree (part).**  When all modules are packaged, filed under their
packages and have names without separators and `-`, then for a name with group and version the
controller's look-up by id and the broker's look-up succeed alike.  Missing: short names
(`C69_violated_short_name`) and names with `-`. -/
theorem C69_agree_partial (S : SemVer V) (hS : S.Lawful) (c : Cluster V) (g n : Text) (v : V)
    (hfiled : WellFiled S c) (hall : AllPackaged (·.pkg) c.smartModules)
    (hdash : ∀ e ∈ c.smartModules, ∀ p, e.2.pkg = some p → '-' ∉ p.name ∧ '-' ∉ p.group)
    (hn : '-' ∉ n ∧ '/' ∉ n ∧ '@' ∉ n) (hg : '-' ∉ g ∧ '/' ∉ g ∧ '@' ∉ g) :
    (Admin.get c.smartModules (PackageKey.storeId S ⟨n, some g, some v⟩)).isSome = true
      ↔ ∃ e, findByKey S (·.pkg) c.smartModules (Package.fqdn S ⟨n, g, v⟩) = some (some e) := by
  have ht : PlainText (Package.fqdn S ⟨n, g, v⟩) := by
    unfold Package.fqdn
    have := hS.noSlash v
    have := hS.noAt v
    constructor <;> simp [List.count_append, List.count_cons, List.count_eq_zero.mpr, *]
  rw [(C69_found_partial S (·.pkg) c.smartModules _ ht hall).1]
  constructor
  · intro h
    obtain ⟨s, hs⟩ := Option.isSome_iff_exists.mp h
    have hm := get_some_mem hs
    obtain ⟨p, hp, _⟩ := hall _ hm
    have hid : Package.storeId S ⟨n, g, v⟩ = p.storeId S := hfiled _ _ p hm hp
    have hd := hdash _ hm p hp
    have := C69_store_id_partial S hS ⟨n, g, v⟩ p hn.1 hg.1 hd.1 hd.2 hid
    subst this
    exact ⟨_, hm, _, hp, .inr (.inr ⟨_, hS.round _, rfl⟩)⟩
  · rintro ⟨⟨m, s⟩, hm, p, hp, hr⟩
    obtain ⟨p', hp', hc⟩ := hall _ hm
    dsimp only at hp hp'
    rw [hp] at hp'
    cases hp'
    have hpq : p = ⟨n, g, v⟩ := by
      unfold Package.fqdn at hr
      rcases hr with h | h | ⟨ver, hv, h⟩
      · exact absurd (by rw [← h]; simp) hc.1
      · obtain ⟨_, h⟩ := first_unique '/' h hg.2.1 hc.2.2
        exact absurd (by rw [← h]; simp) hc.2.1
      · obtain ⟨e1, h⟩ := first_unique '/' h hg.2.1 hc.2.2
        obtain ⟨e2, e3⟩ := first_unique '@' h hn.2.2 hc.2.1
        dsimp only at e1 e2 e3
        subst e3
        rw [hS.round] at hv
        cases p
        simp only [Option.some.injEq] at hv e1 e2
        simp [hv, e1, e2]
    subst hpq
    have := hfiled m s _ hm hp
    subst this
    exact get_isSome_of_mem hm

/-- **C69, lists (part).**  When all modules are packaged, a list by a name shows exactly the modules
it refers to. -/
theorem C69_list_partial (env : Env V) (auth : AuthContext) (c : Cluster V) (reply : Reply) (t : Text)
    (system : Bool) (ht : PlainText t) (hall : AllPackaged (·.pkg) c.smartModules)
    (hperm : auth.typeAction .smartModule .read = some true) (key : PackageKey V)
    (hkey : fromQualifiedName env.semver t = some key) :
    ∃ names, (handle env auth c reply (.list .smartModule [t] system)).2 = .listed .smartModule names
      ∧ ∀ n, n ∈ names ↔ ∃ s p, (n, s) ∈ c.smartModules ∧ s.pkg = some p ∧ Refers env.semver t p := by
  dsimp only [handle, list, parseKeys]
  rw [hperm, hkey]
  refine ⟨_, rfl, fun n => ?_⟩
  unfold smartModuleNames
  simp only [List.mem_map, List.mem_filter, List.isEmpty_cons, Bool.false_or, List.any_cons,
    List.any_nil, Bool.or_false]
  constructor
  · rintro ⟨⟨m, s⟩, ⟨hm, hmatch⟩, rfl⟩
    obtain ⟨p, hp, hc⟩ := hall _ hm
    dsimp only at hp hmatch
    rw [hp] at hmatch
    exact ⟨s, p, hm, hp, (C69_match_partial env.semver t m p ht hc).mp ⟨key, hkey, hmatch⟩⟩
  · rintro ⟨s, p, hm, hp, hr⟩
    obtain ⟨p', hp', hc⟩ := hall _ hm
    dsimp only at hp'
    rw [hp] at hp'
    cases hp'
    obtain ⟨k, hk, hmatch⟩ := (C69_match_partial env.semver t n p ht hc).mpr hr
    rw [hkey] at hk
    cases hk
    exact ⟨(n, s), ⟨hm, by dsimp only; rw [hp]; exact hmatch⟩, rfl⟩

end

/-! ### Examples, and where the code falls short -/

/-- versions that are plain numbers -/
def natVersion : SemVer Nat where
  text v := List.replicate v 'i'
  parse t := if t.all (· = 'i') then some t.length else none

theorem natVersion_lawful : natVersion.Lawful where
  round v := by
    have : (List.replicate v 'i').all (· = 'i') = true := by
      rw [List.all_eq_true]; intro x hx; simp [List.eq_of_mem_replicate hx]
    simp [natVersion]
  noSlash v h := absurd (List.eq_of_mem_replicate h) (by decide)
  noAt v h := absurd (List.eq_of_mem_replicate h) (by decide)

def natEnv : Env Nat where
  semver := natVersion
  configOk _ := true
  replicasOk _ _ := true

/-- two versions of one module -/
def twoVersions : Cluster Nat where
  smartModules := [("jolt-fluvio-i".toList, ⟨some ⟨"jolt".toList, "fluvio".toList, 1⟩, 10⟩),
    ("jolt-fluvio-ii".toList, ⟨some ⟨"jolt".toList, "fluvio".toList, 2⟩, 20⟩)]

/-- non-vacuity of the theorems above -/
example : AllPackaged (·.pkg) twoVersions.smartModules
    ∧ WellFiled natVersion twoVersions
    ∧ PlainText "fluvio/jolt@ii".toList
    ∧ findByKey natVersion (·.pkg) twoVersions.smartModules "fluvio/jolt@ii".toList
      = some (some ("jolt-fluvio-ii".toList, ⟨some ⟨"jolt".toList, "fluvio".toList, 2⟩, 20⟩))
    ∧ Refers natVersion "fluvio/jolt@ii".toList ⟨"jolt".toList, "fluvio".toList, 2⟩ := by
  refine ⟨?_, ?_, by decide, by decide, .inr (.inr ⟨"ii".toList, by decide, by decide⟩)⟩
  · intro e he
    simp only [twoVersions, List.mem_cons, List.not_mem_nil, or_false] at he
    rcases he with rfl | rfl
    · exact ⟨_, rfl, by decide⟩
    · exact ⟨_, rfl, by decide⟩
  · intro n s p h hp
    simp only [twoVersions, List.mem_cons, List.not_mem_nil, or_false, Prod.mk.injEq] at h
    rcases h with ⟨rfl, rfl⟩ | ⟨rfl, rfl⟩ <;> (cases hp; decide)

example : (handle natEnv rootContext twoVersions anyReply (.createSmartModule "x".toList
      ⟨some ⟨"jolt".toList, "fluvio".toList, 3⟩, 30⟩ false)).1
    = [.putSmartModule "jolt-fluvio-iii".toList ⟨some ⟨"jolt".toList, "fluvio".toList, 3⟩, 30⟩] := by decide

example : handle natEnv rootContext twoVersions anyReply (.list .smartModule ["fluvio/jolt@i".toList] false)
    = ([], .listed .smartModule ["jolt-fluvio-i".toList]) := by decide

/-- **C69 violated: different packages, one id.**  `store_id` joins name, group and version with `-`
(package.rs:98-105, 212-226) and names may have `-` in them, as most do: the module `map` of the group `json-sql` and
the module `map-json` of the group `sql` are filed under one id, so creating the second replaces the
first, for all brokers, and success is reported. -/
theorem C69_violated_store_id :
    ∃ p q : Package Nat, p ≠ q ∧ p.isValid = true ∧ q.isValid = true
      ∧ CleanPackage p ∧ CleanPackage q ∧ p.storeId natVersion = q.storeId natVersion
      ∧ ∀ c : Cluster Nat, ∃ id,
        handle natEnv rootContext c anyReply (.createSmartModule [] ⟨some p, 1⟩ false)
          = ([.putSmartModule id ⟨some p, 1⟩], .status id .ok)
        ∧ handle natEnv rootContext (applyAll c [.putSmartModule id ⟨some p, 1⟩]) anyReply
            (.createSmartModule [] ⟨some q, 2⟩ false)
          = ([.putSmartModule id ⟨some q, 2⟩], .status id .ok) :=
  ⟨⟨"map".toList, "json-sql".toList, 1⟩, ⟨"map-json".toList, "sql".toList, 1⟩, by decide, by decide,
    by decide, by decide, by decide, by decide, fun _ => ⟨_, rfl, rfl⟩⟩

/-- **C69 violated: modules without a package answer to any group and version.**  `is_match` compares only
the name with a module that has no package (package.rs:191-209): asking the broker for
`infinyon/jolt@iii` runs the local module `jolt`, even if the packaged one is there too. -/
theorem C69_violated_shadow :
    findByKey natVersion (fun s : SmartModuleSpec Nat => s.pkg)
      [("jolt".toList, ⟨none, 1⟩),
        ("jolt-infinyon-iii".toList, ⟨some ⟨"jolt".toList, "infinyon".toList, 3⟩, 2⟩)]
      "infinyon/jolt@iii".toList = some (some ("jolt".toList, ⟨none, 1⟩)) := by decide

/-- **C69 violated: what follows a further separator is ignored.**  `from_qualified_name` takes the first
two pieces and drops the rest (package.rs:155-186). -/
theorem C69_violated_trailing :
    fromQualifiedName natVersion "fluvio/jolt/other@iii".toList
      = some ⟨"jolt".toList, some "fluvio".toList, none⟩
    ∧ fromQualifiedName natVersion "fluvio/jolt@i@iii".toList
      = some ⟨"jolt".toList, some "fluvio".toList, some 1⟩
    ∧ ¬ Refers natVersion "fluvio/jolt/other@iii".toList ⟨"jolt".toList, "fluvio".toList, 1⟩ := by
  refine ⟨by decide, by decide, ?_⟩
  rintro (h | h | ⟨ver, hv, h⟩)
  · revert h; decide
  · revert h; decide
  · simp at h

/-- **C69 violated: short names.**  The broker finds a packaged module by its name alone or by group and
name; the controller turns the same texts into ids under which nothing is filed, so that the module cannot be
deleted by them, nor used for the deduplication of a topic. -/
theorem C69_violated_short_name :
    (∃ e, findByKey natVersion (·.pkg) twoVersions.smartModules "jolt".toList = some (some e))
    ∧ (∃ e, findByKey natVersion (·.pkg) twoVersions.smartModules "fluvio/jolt".toList = some (some e))
    ∧ handle natEnv rootContext twoVersions anyReply (.deleteSmartModule "jolt".toList)
      = ([], .status "jolt".toList .notFound)
    ∧ handle natEnv rootContext twoVersions anyReply (.deleteSmartModule "fluvio/jolt".toList)
      = ([], .status "fluvio/jolt".toList .notFound)
    ∧ handle natEnv rootContext twoVersions anyReply
        (.createTopic "t".toList ⟨.computed 1 1, false, some "fluvio/jolt".toList, 0⟩ false)
      = ([], .status "fluvio/jolt".toList .smartModuleNotLoaded) :=
  ⟨⟨_, rfl⟩, ⟨_, rfl⟩, by decide, by decide, by decide⟩

/-- **C69 violated: any version will do.**  With several versions of a module, its short name is whichever
comes first in the broker's hash map: the same modules in another order give another one. -/
theorem C69_violated_ambiguous :
    ∃ a b, a ≠ b
      ∧ findByKey natVersion (·.pkg) twoVersions.smartModules "fluvio/jolt".toList = some (some a)
      ∧ findByKey natVersion (·.pkg) twoVersions.smartModules.reverse "fluvio/jolt".toList
        = some (some b) :=
  ⟨_, _, by decide, rfl, rfl⟩

/-- **C69 violated: a module with `/` in its name.**  Nothing checks the name of a module without a package
on creation.  One named `a/b` cannot be deleted; the attempt deletes a module named `b-a` if there is
one. -/
theorem C69_violated_slash :
    let c₁ := applyAll (V := Nat) {} [.putSmartModule "b-a".toList ⟨none, 2⟩]
    let mk := handle natEnv rootContext c₁ anyReply (.createSmartModule "a/b".toList ⟨none, 1⟩ false)
    let c₂ := applyAll c₁ mk.1
    let del := handle natEnv rootContext c₂ anyReply (.deleteSmartModule "a/b".toList)
    mk.2 = .status "a/b".toList .ok ∧ del.2 = .status "a/b".toList .ok
    ∧ objectAt (applyAll c₂ del.1) .smartModule "a/b".toList = some (.smartModule ⟨none, 1⟩)
    ∧ objectAt (applyAll c₂ del.1) .smartModule "b-a".toList = none :=
  ⟨rfl, rfl, rfl, rfl⟩

end Verif.Props
