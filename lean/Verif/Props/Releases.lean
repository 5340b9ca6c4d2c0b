import Verif.Hub.Releases

/-
C96: the latest release of a package is the newest one published for the target.
-/

namespace Verif.Props
open Verif.Hub.Releases

variable {V T : Type} [DecidableEq V] [DecidableEq T]

namespace C96

/-- Versions are numbers; even ones are stable. -/
def vers : Vers Nat := ⟨fun a b => decide (a ≤ b), fun a => decide (a % 2 = 0)⟩

theorem ok : vers.Ok where
  total := fun a b => by simp [vers]; omega
  trans := fun a b c => by simp [vers]; omega
  antisymm := fun a b => by simp [vers]; omega

/-- Releases for Linux (0) and another system (1). -/
def adds : List (Nat × Nat) := [(4, 0), (2, 0), (4, 1), (7, 0), (6, 1), (4, 0)]

end C96

/-- **Exactly what was published.**  However releases are published, a package has each version once, oldest first, with
exactly the targets it was published for. -/
theorem C96_published {vs : Vers V} (ok : vs.Ok) (adds : List (V × T)) :
    (publish vs adds).Pairwise (fun a b => vs.le a.version b.version = true ∧ a.version ≠ b.version) ∧
    (∀ r ∈ publish vs adds, r.targets.Nodup) ∧
    ∀ v t, (∃ r ∈ publish vs adds, r.version = v ∧ t ∈ r.targets) ↔ (v, t) ∈ adds := by
  have h := Inv.publish ok adds
  refine ⟨?_, fun r hr => (h.targets r hr).1, h.mem⟩
  have hd : (publish vs adds).Pairwise fun a b => a.version ≠ b.version := List.pairwise_map.1 h.distinct
  exact h.sorted.and hd

example : publish C96.vers C96.adds = [⟨2, false, [0]⟩, ⟨4, false, [0, 1]⟩, ⟨6, false, [1]⟩, ⟨7, false, [0]⟩] := by decide

/-- **The latest release for a target.**  It was published for the target, it is stable unless other releases are asked
for, and nothing newer is.  If there is no result, no such release was published.

Partial: for packages made by publishing; an index may contain releases in any order (`C96_violated_order`) and
withdrawn ones (`C96_violated_yanked`). -/
theorem C96_latest_partial {vs : Vers V} (ok : vs.Ok) (adds : List (V × T)) (t : T) (prerelease : Bool) :
    (∀ r, latestFor vs (publish vs adds) t prerelease = some r →
      (r.version, t) ∈ adds ∧ (prerelease = true ∨ vs.stable r.version = true) ∧
      ∀ v, (v, t) ∈ adds → (prerelease = true ∨ vs.stable v = true) → vs.le v r.version = true) ∧
    (latestFor vs (publish vs adds) t prerelease = none →
      ∀ v, (v, t) ∈ adds → prerelease = false ∧ vs.stable v = false) := by
  have h := Inv.publish ok adds
  constructor
  · intro r hr
    obtain ⟨h1, h2, h3⟩ := find_last ok h.sorted hr
    simp only [Bool.and_eq_true, Bool.or_eq_true, decide_eq_true_eq] at h2
    refine ⟨(h.mem _ _).1 ⟨r, h1, rfl, h2.2⟩, h2.1, fun v hv hp => ?_⟩
    obtain ⟨x, hx, e1, e2⟩ := (h.mem v t).2 hv
    rw [← e1]
    refine h3 x hx ?_
    simp only [Bool.and_eq_true, Bool.or_eq_true, decide_eq_true_eq]
    exact ⟨by rw [e1]; exact hp, e2⟩
  · intro hn v hv
    obtain ⟨x, hx, e1, e2⟩ := (h.mem v t).2 hv
    have := List.find?_eq_none.1 hn x (by simpa using hx)
    simp only [Bool.and_eq_true, Bool.or_eq_true, decide_eq_true_eq] at this
    rw [e1] at this
    cases prerelease with
    | true => exact absurd ⟨.inl rfl, e2⟩ this
    | false =>
      refine ⟨rfl, ?_⟩
      cases hs : vs.stable v with
      | false => rfl
      | true => exact absurd ⟨.inr hs, e2⟩ this

example : latestFor C96.vers (publish C96.vers C96.adds) 0 false = some ⟨4, false, [0, 1]⟩ ∧
    latestFor C96.vers (publish C96.vers C96.adds) 0 true = some ⟨7, false, [0]⟩ ∧
    latestFor C96.vers (publish C96.vers C96.adds) 2 true = none := by decide

/-- The latest release of all is the newest published one. -/
theorem C96_newest {vs : Vers V} (ok : vs.Ok) (adds : List (V × T)) :
    (∀ r, latest (publish vs adds) = some r → (∃ t, (r.version, t) ∈ adds) ∧
      ∀ v t, (v, t) ∈ adds → vs.le v r.version = true) ∧
    (latest (publish vs adds) = none → adds = []) := by
  have h := Inv.publish ok adds
  constructor
  · intro r hr
    have hr' : (publish vs adds).reverse.find? (fun _ => true) = some r := by
      unfold latest at hr
      rw [List.getLast?_eq_head?_reverse] at hr
      cases hs : (publish vs adds).reverse with
      | nil => rw [hs] at hr; cases hr
      | cons x xs => rw [hs] at hr; injection hr with hr; rw [hr]; simp
    obtain ⟨h1, _, h3⟩ := find_last ok h.sorted hr'
    refine ⟨?_, fun v t hv => ?_⟩
    · apply Classical.byContradiction
      intro hno
      have hempty : r.targets = [] := by
        cases ht : r.targets with
        | nil => rfl
        | cons t ts => exact absurd ⟨t, (h.mem _ _).1 ⟨r, h1, rfl, by rw [ht]; simp⟩⟩ hno
      exact h.some r h1 hempty
    · obtain ⟨x, hx, e1, _⟩ := (h.mem v t).2 hv
      rw [← e1]
      exact h3 x hx (by simp)
  · intro hn
    have hn : publish vs adds = [] := List.getLast?_eq_none_iff.1 hn
    cases adds with
    | nil => rfl
    | cons a as =>
      obtain ⟨x, hx, _⟩ := (h.mem a.1 a.2).2 (by simp)
      rw [hn] at hx
      cases hx

example : latest (publish C96.vers C96.adds) = some ⟨7, false, [0]⟩ := by decide

/-- All releases for a target are listed. -/
theorem C96_listed {vs : Vers V} (ok : vs.Ok) (adds : List (V × T)) (t : T) (v : V) :
    (∃ r ∈ releasesFor (publish vs adds) t, r.version = v) ↔ (v, t) ∈ adds := by
  rw [← (Inv.publish ok adds).mem v t]
  unfold releasesFor
  constructor
  · rintro ⟨r, hr, e⟩
    obtain ⟨h1, h2⟩ := List.mem_filter.1 hr
    exact ⟨r, h1, e, by simpa using h2⟩
  · rintro ⟨r, hr, e1, e2⟩
    exact ⟨r, List.mem_filter.2 ⟨hr, by simpa using e2⟩, e1⟩

omit [DecidableEq V] in
/-- **Violation.**  "If a release is yanked, no client should ever try to download it" (package.rs:160): a withdrawn
release is the latest release for its target, and is what `fluvio update` and `fluvio install` download. -/
theorem C96_violated_yanked (vs : Vers V) (rs : List (Release V T)) (r : Release V T) (t : T) (prerelease : Bool)
    (hy : r.yanked = true) (ht : t ∈ r.targets) (hs : prerelease = true ∨ vs.stable r.version = true) :
    ∃ x, latestFor vs (rs ++ [r]) t prerelease = some x ∧ x.yanked = true := by
  refine ⟨r, ?_, hy⟩
  unfold latestFor
  rw [List.reverse_append]
  show (r :: rs.reverse).find? _ = _
  rw [List.find?_cons_of_pos]
  simp only [Bool.and_eq_true, Bool.or_eq_true, decide_eq_true_eq]
  exact ⟨hs, ht⟩

example : latestFor C96.vers [⟨2, false, [0]⟩, ⟨4, true, [0]⟩] 0 false = some ⟨4, true, [0]⟩ := by decide

/-- **Violation.**  Releases of an index are taken to be sorted, but nothing checks this: an older release may be the
latest, also after another target was added to a release. -/
theorem C96_violated_order : ∃ rs : List (Release Nat Nat),
    latestFor C96.vers rs 0 false = some ⟨2, false, [0]⟩ ∧ latestFor C96.vers (add C96.vers rs 4 1) 0 false = some ⟨2, false, [0]⟩ ∧
    (⟨4, false, [0]⟩ : Release Nat Nat) ∈ rs ∧ C96.vers.le 4 2 = false :=
  ⟨[⟨4, false, [0]⟩, ⟨2, false, [0]⟩], by decide⟩

end Verif.Props
