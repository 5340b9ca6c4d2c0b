import Verif.Admin.Auth
/-!
# Names of SmartModules (`fluvio-controlplane-metadata/src/smartmodule/package.rs`)

Versions (`semver::Version`, parsed by `lenient_semver`) come from outside libraries and are left
abstract: a type with a printing and a parsing function.
-/

namespace Verif.Admin

/-- `FluvioSemVersion` with `Display` (package.rs:263-267) and `lenient_semver::parse` -/
structure SemVer (V : Type) where
  text : V → Text
  parse : Text → Option V

/-- what is assumed of the two libraries: printing and parsing again gives the same version, and a printed
version has neither of the two separators in it -/
structure SemVer.Lawful {V : Type} (S : SemVer V) : Prop where
  round : ∀ v, S.parse (S.text v) = some v
  noSlash : ∀ v, '/' ∉ S.text v
  noAt : ∀ v, '@' ∉ S.text v

/-- `SmartModulePackage` — package.rs:74-94; the other fields (API version, description, …) take no part
in naming and are left out. -/
structure Package (V : Type) where
  name : Text
  group : Text
  version : V
deriving DecidableEq

/-- `SmartModulePackageKey` — package.rs:142-147 -/
structure PackageKey (V : Type) where
  name : Text
  group : Option Text
  version : Option V
deriving DecidableEq

variable {V : Type} [DecidableEq V]

/-- `SmartModulePackageKey::from_qualified_name` — package.rs:155-186; `none` is the error for an
invalid version. -/
def fromQualifiedName (S : SemVer V) (fqdn : Text) : Option (PackageKey V) :=
  match split '/' fqdn with
  | [] => none
  | [first] => some ⟨first, none, none⟩
  | first :: namePart :: _ =>
    match split '@' namePart with
    | [] => none
    | [second] => some ⟨second, some first, none⟩
    | second :: ver :: _ =>
      match S.parse ver with
      | none => none
      | some v => some ⟨second, some first, some v⟩

/-- `SmartModulePackageKey::is_match` — package.rs:191-209 -/
def PackageKey.isMatch (k : PackageKey V) (name : Text) (package : Option (Package V)) : Bool :=
  match package with
  | some p =>
    if (match k.version with | some v => decide (p.version ≠ v) | none => false) then false
    else if (match k.group with | some g => decide (p.group ≠ g) | none => false) then false
    else k.name = p.name
  | none => k.name = name

/-- `SmartModulePackageKey::store_id` — package.rs:212-226 -/
def PackageKey.storeId (S : SemVer V) (k : PackageKey V) : Text :=
  k.name ++ (match k.group with | some g => '-' :: g | none => [])
    ++ (match k.version with | some v => '-' :: S.text v | none => [])

/-- `SmartModulePackage::store_id` — package.rs:98-105 -/
def Package.storeId (S : SemVer V) (p : Package V) : Text :=
  PackageKey.storeId S ⟨p.name, some p.group, some p.version⟩

/-- `SmartModulePackage::is_valid` — package.rs:107-109 -/
def Package.isValid (p : Package V) : Bool := !p.name.isEmpty && !p.group.isEmpty

/-- `SmartModulePackage::fqdn` — package.rs:111-116 -/
def Package.fqdn (S : SemVer V) (p : Package V) : Text :=
  p.group ++ '/' :: (p.name ++ '@' :: S.text p.version)

/-- `LocalStore<SmartModule>::find_by_pk_key` — fluvio-spu/src/core/smartmodule/metadata.rs:28-38: the
first entry of the broker's store, in the order of iteration, that matches; the outer `none` is the
error. -/
def findByKey {α : Type} (S : SemVer V) (package : α → Option (Package V)) (store : List (Text × α))
    (fqdn : Text) : Option (Option (Text × α)) :=
  match fromQualifiedName S fqdn with
  | none => none
  | some k => some (store.find? (fun e => k.isMatch e.1 (package e.2)))

/-! ### Facts about splitting -/

theorem split_cons_iff (c : Char) (t a : Text) (r : List Text) :
    split c t = a :: r ↔
      c ∉ a ∧ ((r = [] ∧ t = a) ∨ ∃ t', t = a ++ c :: t' ∧ split c t' = r) := by
  constructor
  · intro h
    induction t generalizing a with
    | nil =>
      simp only [split, List.cons.injEq] at h
      obtain ⟨rfl, rfl⟩ := h
      exact ⟨by simp, .inl ⟨rfl, rfl⟩⟩
    | cons x t ih =>
      rw [split] at h
      split at h
      · rename_i hx
        subst hx
        cases h
        exact ⟨by simp, .inr ⟨t, rfl, rfl⟩⟩
      · rename_i hx
        cases hs : split c t with
        | nil => exact absurd hs (split_ne_nil c t)
        | cons s rest =>
          rw [hs] at h
          cases h
          obtain ⟨h1, h2⟩ := ih s hs
          refine ⟨fun hm => ?_, ?_⟩
          · rcases List.mem_cons.mp hm with e | e
            · exact hx e.symm
            · exact h1 e
          · rcases h2 with ⟨rfl, rfl⟩ | ⟨t', rfl, h3⟩
            · exact .inl ⟨rfl, rfl⟩
            · exact .inr ⟨t', rfl, h3⟩
  · rintro ⟨h, ⟨rfl, rfl⟩ | ⟨t', rfl, rfl⟩⟩
    · exact split_free c _ h
    · exact split_append c a t' h

theorem isMatch_some_iff (k : PackageKey V) (name : Text) (p : Package V) :
    k.isMatch name (some p) = true ↔
      k.name = p.name ∧ (∀ g, k.group = some g → g = p.group)
        ∧ (∀ v, k.version = some v → v = p.version) := by
  obtain ⟨n, g, v⟩ := k
  unfold PackageKey.isMatch
  cases g <;> cases v <;> simp <;> grind

end Verif.Admin
