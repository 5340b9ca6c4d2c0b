/-
The releases of a package in the package index.

Models crates/fluvio-package-index/src/package.rs.  Versions come from the crate `semver`: a linearly ordered type of which
it is known whether a version is stable (no pre-release and no build part).  Targets are any type with equality.
-/

namespace Verif.Hub.Releases

variable {V T : Type} [DecidableEq V] [DecidableEq T]

/-- `Release` — package.rs:156-165 -/
structure Release (V T : Type) where
  version : V
  yanked : Bool
  targets : List T
deriving DecidableEq

/-- Versions of `semver`: their order, and which are stable. -/
structure Vers (V : Type) where
  le : V → V → Bool
  stable : V → Bool

/-- A linear order. -/
structure Vers.Ok (vs : Vers V) : Prop where
  total : ∀ a b, vs.le a b = true ∨ vs.le b a = true
  trans : ∀ a b c, vs.le a b = true → vs.le b c = true → vs.le a c = true
  antisymm : ∀ a b, vs.le a b = true → vs.le b a = true → a = b

/-- `Release::new`, `Release::add_target` — package.rs:167-184 -/
def Release.addTarget (r : Release V T) (t : T) : Release V T := if t ∈ r.targets then r else { r with targets := r.targets ++ [t] }

def insert (vs : Vers V) (r : Release V T) : List (Release V T) → List (Release V T)
  | [] => [r]
  | x :: xs => if vs.le r.version x.version then r :: x :: xs else x :: insert vs r xs

/-- `sort_by` on the version: a stable sort (the algorithm of the standard library is another one). -/
def sort (vs : Vers V) (rs : List (Release V T)) : List (Release V T) := rs.foldr (insert vs) []

/-- The first release of this version gets the target; `none`: there is none. -/
def update (v : V) (t : T) : List (Release V T) → Option (List (Release V T))
  | [] => none
  | r :: rs => if r.version = v then some (r.addTarget t :: rs) else (update v t rs).map (r :: ·)

/-- `add_release` — package.rs:85-104 -/
def add (vs : Vers V) (rs : List (Release V T)) (v : V) (t : T) : List (Release V T) :=
  match update v t rs with
  | some rs => rs
  | none => sort vs (rs ++ [⟨v, false, [t]⟩])

/-- `latest_release` — package.rs:54-60 -/
def latest (rs : List (Release V T)) : Option (Release V T) := rs.getLast?

/-- `latest_release_for_target` — package.rs:66-78 -/
def latestFor (vs : Vers V) (rs : List (Release V T)) (t : T) (prerelease : Bool) : Option (Release V T) :=
  rs.reverse.find? fun r => (prerelease || vs.stable r.version) && decide (t ∈ r.targets)

/-- `releases_for_target` — package.rs:106-111 -/
def releasesFor (rs : List (Release V T)) (t : T) : List (Release V T) := rs.filter fun r => decide (t ∈ r.targets)

/-- A package to which releases are added. -/
def publish (vs : Vers V) (adds : List (V × T)) : List (Release V T) := adds.foldl (fun rs a => add vs rs a.1 a.2) []

/-! ### Lemmas -/

def Sorted (vs : Vers V) (rs : List (Release V T)) : Prop :=
  rs.Pairwise fun a b => vs.le a.version b.version = true

omit [DecidableEq V] [DecidableEq T] in
theorem mem_insert {vs : Vers V} {r x : Release V T} {rs : List (Release V T)} : x ∈ insert vs r rs ↔ x = r ∨ x ∈ rs := by
  induction rs with
  | nil => simp [insert]
  | cons y ys ih =>
    unfold insert
    split
    · simp
    · rw [List.mem_cons, ih, List.mem_cons]
      constructor
      · rintro (h | h | h)
        · exact .inr (.inl h)
        · exact .inl h
        · exact .inr (.inr h)
      · rintro (h | h | h)
        · exact .inr (.inl h)
        · exact .inl h
        · exact .inr (.inr h)

omit [DecidableEq V] [DecidableEq T] in
theorem mem_sort {vs : Vers V} {x : Release V T} {rs : List (Release V T)} : x ∈ sort vs rs ↔ x ∈ rs := by
  induction rs with
  | nil => exact Iff.rfl
  | cons y ys ih =>
    show x ∈ insert vs y (sort vs ys) ↔ _
    rw [mem_insert, ih, List.mem_cons]

omit [DecidableEq V] [DecidableEq T] in
theorem insert_sorted {vs : Vers V} (ok : vs.Ok) {r : Release V T} {rs : List (Release V T)} (h : Sorted vs rs) :
    Sorted vs (insert vs r rs) := by
  induction rs with
  | nil => exact List.pairwise_singleton _ _
  | cons y ys ih =>
    obtain ⟨h1, h2⟩ := List.pairwise_cons.1 h
    unfold insert
    split
    · rename_i hle
      refine List.pairwise_cons.2 ⟨fun x hx => ?_, h⟩
      rcases List.mem_cons.1 hx with rfl | hx
      · exact hle
      · exact ok.trans _ _ _ hle (h1 x hx)
    · rename_i hle
      refine List.pairwise_cons.2 ⟨fun x hx => ?_, ih h2⟩
      rcases mem_insert.1 hx with rfl | hx
      · exact (ok.total y.version x.version).resolve_right hle
      · exact h1 x hx

omit [DecidableEq V] [DecidableEq T] in
theorem sort_sorted {vs : Vers V} (ok : vs.Ok) (rs : List (Release V T)) : Sorted vs (sort vs rs) := by
  induction rs with
  | nil => exact List.Pairwise.nil
  | cons y ys ih => exact insert_sorted ok ih

omit [DecidableEq V] [DecidableEq T] in
theorem insert_perm {vs : Vers V} {r : Release V T} {rs : List (Release V T)} : (insert vs r rs).Perm (r :: rs) := by
  induction rs with
  | nil => exact .refl _
  | cons y ys ih =>
    unfold insert
    split
    · exact .refl _
    · exact (ih.cons y).trans (.swap _ _ _)

omit [DecidableEq V] [DecidableEq T] in
theorem sort_perm {vs : Vers V} (rs : List (Release V T)) : (sort vs rs).Perm rs := by
  induction rs with
  | nil => exact .refl _
  | cons y ys ih => exact insert_perm.trans (ih.cons y)

theorem update_none {v : V} {t : T} {rs : List (Release V T)} (h : update v t rs = none) : ∀ r ∈ rs, r.version ≠ v := by
  induction rs with
  | nil => intro r hr; cases hr
  | cons y ys ih =>
    unfold update at h
    split at h
    · cases h
    · rename_i hv
      rw [Option.map_eq_none_iff] at h
      intro r hr
      rcases List.mem_cons.1 hr with rfl | hr
      · exact hv
      · exact ih h r hr

theorem update_some {v : V} {t : T} {rs rs' : List (Release V T)} (h : update v t rs = some rs') :
    ∃ pre r post, rs = pre ++ r :: post ∧ rs' = pre ++ r.addTarget t :: post ∧ r.version = v := by
  induction rs generalizing rs' with
  | nil => cases h
  | cons y ys ih =>
    unfold update at h
    split at h
    · rename_i hv
      injection h with h
      exact ⟨[], y, ys, rfl, h.symm, hv⟩
    · rw [Option.map_eq_some_iff] at h
      obtain ⟨zs, h1, rfl⟩ := h
      obtain ⟨pre, r, post, h2, h3, h4⟩ := ih h1
      exact ⟨y :: pre, r, post, by rw [h2]; rfl, by rw [h3]; rfl, h4⟩

omit [DecidableEq V] in
theorem addTarget_version (r : Release V T) (t : T) : (r.addTarget t).version = r.version ∧ (r.addTarget t).yanked = r.yanked := by
  unfold Release.addTarget
  split <;> exact ⟨rfl, rfl⟩

omit [DecidableEq V] in
theorem mem_addTarget {r : Release V T} {t x : T} : x ∈ (r.addTarget t).targets ↔ x ∈ r.targets ∨ x = t := by
  unfold Release.addTarget
  split
  · rename_i h
    exact ⟨.inl, fun h' => h'.elim id fun e => e ▸ h⟩
  · simp

/-- The invariant of published packages. -/
structure Inv (vs : Vers V) (rs : List (Release V T)) (has : V → T → Prop) : Prop where
  sorted : Sorted vs rs
  distinct : (rs.map (·.version)).Nodup
  targets : ∀ r ∈ rs, r.targets.Nodup ∧ r.yanked = false
  some : ∀ r ∈ rs, r.targets ≠ []
  mem : ∀ v t, (∃ r ∈ rs, r.version = v ∧ t ∈ r.targets) ↔ has v t

theorem Inv.add {vs : Vers V} (ok : vs.Ok) {rs : List (Release V T)} {has : V → T → Prop} (h : Inv vs rs has) (v : V) (t : T) :
    Inv vs (add vs rs v t) (fun v' t' => has v' t' ∨ (v' = v ∧ t' = t)) := by
  unfold Releases.add
  split
  · rename_i rs' hu
    obtain ⟨pre, r, post, h1, h2, h3⟩ := update_some hu
    have hv : rs'.map (·.version) = rs.map (·.version) := by
      rw [h1, h2]
      simp [(addTarget_version r t).1]
    have hmem : ∀ x, x ∈ rs' → x = r.addTarget t ∨ x ∈ rs := by
      intro x hx
      rw [h2] at hx
      rw [h1]
      simp only [List.mem_append, List.mem_cons] at hx ⊢
      rcases hx with hx | hx | hx
      · exact .inr (.inl hx)
      · exact .inl hx
      · exact .inr (.inr (.inr hx))
    refine ⟨?_, by rw [hv]; exact h.distinct, ?_, ?_, ?_⟩
    · have hs := h.sorted
      unfold Sorted at hs ⊢
      rw [h1] at hs
      rw [h2]
      rw [List.pairwise_append, List.pairwise_cons] at hs ⊢
      rw [(addTarget_version r t).1]
      refine ⟨hs.1, hs.2.1, fun a ha b hb => ?_⟩
      rcases List.mem_cons.1 hb with rfl | hb
      · rw [(addTarget_version r t).1]; exact hs.2.2 a ha r (by simp)
      · exact hs.2.2 a ha b (by simp [hb])
    · intro x hx
      rcases hmem x hx with rfl | hx
      · obtain ⟨t1, t2⟩ := h.targets r (by rw [h1]; simp)
        refine ⟨?_, by rw [(addTarget_version r t).2]; exact t2⟩
        unfold Release.addTarget
        split
        · exact t1
        · rename_i hn
          show (r.targets ++ [t]).Nodup
          rw [List.nodup_append]
          exact ⟨t1, by simp, fun a ha b hb => by rw [List.mem_singleton.1 hb]; exact fun e => hn (e ▸ ha)⟩
      · exact h.targets x hx
    · intro x hx
      rcases hmem x hx with rfl | hx
      · intro he
        have : t ∈ (r.addTarget t).targets := mem_addTarget.2 (.inr rfl)
        rw [he] at this
        cases this
      · exact h.some x hx
    · intro v' t'
      rw [← h.mem v' t']
      constructor
      · rintro ⟨x, hx, e1, e2⟩
        rcases hmem x hx with rfl | hx
        · rw [(addTarget_version r t).1] at e1
          rcases mem_addTarget.1 e2 with e2 | e2
          · exact .inl ⟨r, by rw [h1]; simp, e1, e2⟩
          · exact .inr ⟨by rw [← e1, h3], e2⟩
        · exact .inl ⟨x, hx, e1, e2⟩
      · rintro (⟨x, hx, e1, e2⟩ | ⟨rfl, rfl⟩)
        · rw [h1] at hx
          simp only [List.mem_append, List.mem_cons] at hx
          rcases hx with hx | rfl | hx
          · exact ⟨x, by rw [h2]; simp [hx], e1, e2⟩
          · exact ⟨x.addTarget t, by rw [h2]; simp, by rw [(addTarget_version x t).1, e1], mem_addTarget.2 (.inl e2)⟩
          · exact ⟨x, by rw [h2]; simp [hx], e1, e2⟩
        · exact ⟨r.addTarget t', by rw [h2]; simp, by rw [(addTarget_version r t').1, h3], mem_addTarget.2 (.inr rfl)⟩
  · rename_i hu
    have hnone := update_none hu
    have hp := sort_perm (vs := vs) (rs ++ [⟨v, false, [t]⟩])
    refine ⟨sort_sorted ok _, ?_, ?_, ?_, ?_⟩
    · rw [(hp.map _).nodup_iff, List.map_append, List.nodup_append]
      refine ⟨h.distinct, by simp, fun a ha b hb => ?_⟩
      simp only [List.map_cons, List.map_nil, List.mem_singleton] at hb
      obtain ⟨r, hr, rfl⟩ := List.mem_map.1 ha
      rw [hb]
      exact hnone r hr
    · intro x hx
      rw [mem_sort, List.mem_append] at hx
      rcases hx with hx | hx
      · exact h.targets x hx
      · rw [List.mem_singleton.1 hx]; exact ⟨by simp, rfl⟩
    · intro x hx
      rw [mem_sort, List.mem_append] at hx
      rcases hx with hx | hx
      · exact h.some x hx
      · rw [List.mem_singleton.1 hx]; simp
    · intro v' t'
      rw [← h.mem v' t']
      constructor
      · rintro ⟨x, hx, e1, e2⟩
        rw [mem_sort, List.mem_append] at hx
        rcases hx with hx | hx
        · exact .inl ⟨x, hx, e1, e2⟩
        · rw [List.mem_singleton.1 hx] at e1 e2
          exact .inr ⟨e1.symm, List.mem_singleton.1 e2⟩
      · rintro (⟨x, hx, e1, e2⟩ | ⟨rfl, rfl⟩)
        · exact ⟨x, mem_sort.2 (List.mem_append_left _ hx), e1, e2⟩
        · exact ⟨⟨v', false, [t']⟩, mem_sort.2 (List.mem_append_right _ (by simp)), rfl, by simp⟩

theorem Inv.publish {vs : Vers V} (ok : vs.Ok) (adds : List (V × T)) : Inv vs (publish vs adds) fun v t => (v, t) ∈ adds := by
  have gen : ∀ (adds : List (V × T)) (rs : List (Release V T)) (has : V → T → Prop), Inv vs rs has →
      Inv vs (adds.foldl (fun rs a => Releases.add vs rs a.1 a.2) rs) fun v t => has v t ∨ (v, t) ∈ adds := by
    intro adds
    induction adds with
    | nil =>
      intro rs has h
      exact ⟨h.sorted, h.distinct, h.targets, h.some, fun v t => (h.mem v t).trans (by simp)⟩
    | cons a adds ih =>
      intro rs has h
      have h1 := ih _ _ (h.add ok a.1 a.2)
      refine ⟨h1.sorted, h1.distinct, h1.targets, h1.some, fun v t => (h1.mem v t).trans ?_⟩
      obtain ⟨v0, t0⟩ := a
      rw [List.mem_cons, or_assoc, Prod.mk.injEq]
  have h := gen adds [] (fun _ _ => False) ⟨List.Pairwise.nil, by simp, (fun _ hr => by cases hr), (fun _ hr => by cases hr), fun v t => by simp⟩
  exact ⟨h.sorted, h.distinct, h.targets, h.some, fun v t => (h.mem v t).trans (by simp)⟩

omit [DecidableEq V] [DecidableEq T] in
/-- The last release with a property is the newest. -/
theorem find_last {vs : Vers V} (ok : vs.Ok) {p : Release V T → Bool} {rs : List (Release V T)} (hs : Sorted vs rs)
    {r : Release V T} (h : rs.reverse.find? p = some r) :
    r ∈ rs ∧ p r = true ∧ ∀ x ∈ rs, p x = true → vs.le x.version r.version = true := by
  obtain ⟨h1, as, bs, h2, h3⟩ := List.find?_eq_some_iff_append.1 h
  have h4 : rs = bs.reverse ++ r :: as.reverse := by
    have := congrArg List.reverse h2
    simpa using this
  refine ⟨by rw [h4]; simp, h1, fun x hx hp => ?_⟩
  unfold Sorted at hs
  rw [h4] at hx hs
  rw [List.pairwise_append] at hs
  simp only [List.mem_append, List.mem_cons, List.mem_reverse] at hx
  rcases hx with hx | rfl | hx
  · exact hs.2.2 x (by simpa using hx) r (by simp)
  · exact (ok.total _ _).elim id id
  · have := h3 x hx
    rw [hp] at this
    cases this

end Verif.Hub.Releases
