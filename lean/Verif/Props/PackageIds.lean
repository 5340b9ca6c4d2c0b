import Verif.Hub.PackageId

/-
C95: a package id means the same package however it is written.
-/

namespace Verif.Props
open Verif.Hub.PackageId

variable {U V : Type}

namespace C95

/-- URLs that start with `h` and end with a slash. -/
def urls : Urls { s : Text // s.head? = some 'h' ∧ s.getLast? = some '/' } where
  parse := fun s => if h : s.head? = some 'h' ∧ s.getLast? = some '/' then some ⟨s, h⟩ else none
  str := fun u => u.1

theorem urlsOk : urls.Ok where
  back := fun u => dif_pos u.2
  slash := fun s u h => by
    have e : urls.parse (s ++ ['/']) = if h : (s ++ ['/']).head? = some 'h' ∧ (s ++ ['/']).getLast? = some '/' then
      some ⟨s ++ ['/'], h⟩ else none := rfl
    rw [e] at h
    split at h
    · injection h with h
      exact ⟨s, by rw [← h]; rfl⟩
    · cases h

/-- Versions that are digits. -/
def digits : Vers (Fin 10) where
  parse := fun s => match s with
    | [c] => if h : 48 ≤ c.toNat ∧ c.toNat < 58 then some ⟨c.toNat - 48, by omega⟩ else none
    | _ => none
  str := fun d => [Char.ofNat (48 + d.1)]

theorem digitsOk : digits.Ok where
  back := by decide +kernel
  clean := by decide +kernel

end C95

private theorem grp_clean {us : Urls U} {vs : Vers V} {i : Id U V} (h : Plain us vs i) : '/' ∉ i.grp ∧ ':' ∉ i.grp := by
  unfold Id.grp
  cases hg : i.group with
  | none => exact ⟨by decide, by decide⟩
  | some g => exact h.group g hg

private theorem parse_show {us : Urls U} {vs : Vers V} (uok : us.Ok) (vok : vs.Ok) {i : Id U V} (h : Plain us vs i)
    {q : Bool} (hq : q = true → i.version ≠ none) :
    ∃ g, parse us vs q (i.show us vs) = some ⟨i.registry, g, i.name, i.version⟩ ∧ parseGroup (some i.grp) = some g := by
  obtain ⟨h1, h2⟩ := parseNameVersion_show vok h hq
  obtain ⟨g, h3, h4⟩ := parseGroup_plain (grp_clean h)
  refine ⟨g, ?_, h3⟩
  have hs : i.show us vs = (match i.registry with | some u => us.str u | none => []) ++ (i.grp ++ '/' :: tailText vs i) := rfl
  rw [hs]
  cases hr : i.registry with
  | none =>
    show parse us vs q ([] ++ (i.grp ++ '/' :: tailText vs i)) = _
    rw [List.nil_append, parse_two us vs q (grp_clean h).1 h2, h1, h3]
    rfl
  | some u =>
    obtain ⟨w, hw, hl⟩ := h.registry u hr
    show parse us vs q (us.str u ++ (i.grp ++ '/' :: tailText vs i)) = _
    have e : us.str u ++ (i.grp ++ '/' :: tailText vs i) = w ++ '/' :: (i.grp ++ '/' :: tailText vs i) := by
      rw [hw]; simp
    rw [e, parse_three us vs q w (grp_clean h).1 h2, h1, h3, if_neg hl, ← hw, uok.back]
    rfl

/-- **Written and read back.**  An id that is written and read again means the same version of the same package, both as
`PackageId` and, if it has a version, as `PackageId<WithVersion>`.

Partial: not for tags that look like a version (`C95_violated_tag`) and for registries that end with two slashes
(`C95_violated_slashes`). -/
theorem C95_read_back_partial {us : Urls U} {vs : Vers V} (uok : us.Ok) (vok : vs.Ok) (d : U) {i : Id U V}
    (h : Plain us vs i) (required : Bool) (hq : required = true → i.version ≠ none) :
    ∃ j, parse us vs required (i.show us vs) = some j ∧ Same d i j := by
  obtain ⟨g, h1, h2⟩ := parse_show uok vok h hq
  exact ⟨_, h1, rfl, (parseGroup_some h2).symm, rfl, rfl⟩

/-- Different packages and versions are written differently. -/
theorem C95_distinct {us : Urls U} {vs : Vers V} (uok : us.Ok) (vok : vs.Ok) (d : U) {i j : Id U V}
    (hi : Plain us vs i) (hj : Plain us vs j) (h : i.show us vs = j.show us vs) : Same d i j := by
  obtain ⟨a, ha, hsa⟩ := C95_read_back_partial uok vok d hi false (fun h => by cases h)
  obtain ⟨b, hb, hsb⟩ := C95_read_back_partial uok vok d hj false (fun h => by cases h)
  rw [h, hb] at ha
  injection ha with ha
  subst ha
  exact ⟨hsa.1.trans hsb.1.symm, hsa.2.1.trans hsb.2.1.symm, hsa.2.2.1.trans hsb.2.2.1.symm,
    hsa.2.2.2.trans hsb.2.2.2.symm⟩

/-- **`uid` tells packages apart.**  It is the same exactly for ids of the same registry, group and name. -/
theorem C95_uid {us : Urls U} {vs : Vers V} (uok : us.Ok) {d : U} {i j : Id U V} (hi : Plain us vs i) (hj : Plain us vs j)
    (hd : ∃ w, us.str d = w ++ ['/']) :
    i.uid us d = j.uid us d ↔ i.reg d = j.reg d ∧ i.grp = j.grp ∧ i.name = j.name := by
  have hreg : ∀ k : Id U V, Plain us vs k → ∃ w, us.str (k.reg d) = w ++ ['/'] := by
    intro k hk
    unfold Id.reg
    cases hr : k.registry with
    | none => exact hd
    | some u =>
      obtain ⟨w, hw, _⟩ := hk.registry u hr
      exact ⟨w, hw⟩
  constructor
  · intro h
    obtain ⟨w1, e1⟩ := hreg i hi
    obtain ⟨w2, e2⟩ := hreg j hj
    unfold Id.uid at h
    rw [e1, e2] at h
    have h : w1 ++ '/' :: (i.grp ++ '/' :: i.name) = w2 ++ '/' :: (j.grp ++ '/' :: j.name) := by simpa using h
    have h : (w1 ++ '/' :: i.grp) ++ '/' :: i.name = (w2 ++ '/' :: j.grp) ++ '/' :: j.name := by simpa using h
    have h := congrArg (split '/') h
    rw [split_append _ _ hi.name.1, split_append _ _ hj.name.1, split_append _ _ (grp_clean hi).1,
      split_append _ _ (grp_clean hj).1] at h
    obtain ⟨h1, h2⟩ := List.append_inj' h rfl
    obtain ⟨h3, h4⟩ := List.append_inj' h1 rfl
    have h5 := congrArg (join '/') h3
    rw [join_split, join_split] at h5
    have h6 : us.str (i.reg d) = us.str (j.reg d) := by rw [e1, e2, h5]
    have h7 := uok.back (i.reg d)
    rw [h6, uok.back] at h7
    injection h7 with h7
    injection h4 with h4
    injection h2 with h2
    exact ⟨h7.symm, h4, h2⟩
  · rintro ⟨h1, h2, h3⟩
    unfold Id.uid
    rw [h1, h2, h3]

/-- The end of a text: name and version. -/
def C95.Ends (vs : Vers V) (t : Text) (i : Id U V) : Prop :=
  (t = i.name ∧ i.version = none) ∨
    ∃ v, t = i.name ++ ':' :: v ∧ i.version = parseVersion vs v ∧ i.version ≠ none

/-- **What is read is what is written.**  A text that is accepted is a name, a group and a name, or a registry, a group
and a name, with or without a version, and the id says so.

Partial: a registry that is not a URL is read as the default one (`C95_violated_registry`). -/
theorem C95_sound_partial {us : Urls U} {vs : Vers V} {required : Bool} {s : Text} {i : Id U V}
    (h : parse us vs required s = some i) : (required = true → i.version ≠ none) ∧
      ∃ t, C95.Ends vs t i ∧ '/' ∉ t ∧
        ((s = t ∧ i.registry = none ∧ i.grp = defaultGroup) ∨
         (s = i.grp ++ '/' :: t ∧ i.registry = none) ∨
         (∃ w, s = w ++ '/' :: (i.grp ++ '/' :: t) ∧
           i.registry = us.parse (if w.getLast? = some '/' then w else w ++ ['/']))) := by
  have hj := join_split '/' s
  have hc := split_clean (c := '/') s
  have hfin : ∀ (t : Text) (nv : Text × Option (PVersion V)) (i : Id U V), parseNameVersion vs required t = some nv →
      i.name = nv.1 → i.version = nv.2 → (required = true → i.version ≠ none) ∧ C95.Ends vs t i := by
    intro t nv i ht h1 h2
    rcases parseNameVersion_some ht with ⟨hq, ht', hn⟩ | ⟨v, pv, ht', hn, hv⟩
    · exact ⟨fun h => absurd (hq.symm.trans h) (by decide), .inl ⟨by rw [h1, ht'], by rw [h2, hn]⟩⟩
    · exact ⟨fun _ => by rw [h2, hn]; simp, .inr ⟨v, by rw [h1, ht'], by rw [h2, hn, hv], by rw [h2, hn]; simp⟩⟩
  cases hr : (split '/' s).reverse with
  | nil => exact absurd (List.reverse_eq_nil_iff.1 hr) (split_ne _ _)
  | cons last rest =>
    have hs : split '/' s = rest.reverse ++ [last] := by
      have := congrArg List.reverse hr
      simpa using this
    have hlast : '/' ∉ last := hc last (by rw [hs]; simp)
    cases rest with
    | nil =>
      rw [hs] at hj
      have hj : last = s := hj
      subst hj
      rw [parse_one us vs required hlast, Option.map_eq_some_iff] at h
      obtain ⟨nv, h1, rfl⟩ := h
      obtain ⟨f1, f2⟩ := hfin last nv ⟨none, none, nv.1, nv.2⟩ h1 rfl rfl
      exact ⟨f1, last, f2, hlast, .inl ⟨rfl, rfl, rfl⟩⟩
    | cons g more =>
      have hg : '/' ∉ g := hc g (by rw [hs]; simp)
      cases more with
      | nil =>
        rw [hs] at hj
        have hj : g ++ '/' :: last = s := hj
        subst hj
        rw [parse_two us vs required hg hlast, Option.bind_eq_some_iff] at h
        obtain ⟨nv, h1, h⟩ := h
        rw [Option.map_eq_some_iff] at h
        obtain ⟨g', h2, rfl⟩ := h
        obtain ⟨f1, f2⟩ := hfin last nv ⟨none, g', nv.1, nv.2⟩ h1 rfl rfl
        refine ⟨f1, last, f2, hlast, .inr (.inl ⟨?_, rfl⟩)⟩
        show g ++ '/' :: last = g'.getD defaultGroup ++ '/' :: last
        rw [parseGroup_some h2]
      | cons m more =>
        rw [hs] at hj
        have hne : (m :: more).reverse ≠ [] := by simp
        have e : (g :: m :: more).reverse ++ [last] = ((m :: more).reverse ++ [g]) ++ [last] := by simp
        have hj : join '/' (m :: more).reverse ++ '/' :: (g ++ '/' :: last) = s := by
          rw [e, join_snoc (by simp), join_snoc hne] at hj
          simpa using hj
        rw [← hj, parse_three us vs required _ hg hlast, Option.bind_eq_some_iff] at h
        obtain ⟨nv, h1, h⟩ := h
        rw [Option.map_eq_some_iff] at h
        obtain ⟨g', h2, rfl⟩ := h
        refine ⟨(hfin last nv _ h1 rfl rfl).1, last, (hfin last nv _ h1 rfl rfl).2, hlast,
          .inr (.inr ⟨join '/' (m :: more).reverse, ?_, rfl⟩)⟩
        show s = join '/' (m :: more).reverse ++ '/' :: (g'.getD defaultGroup ++ '/' :: last)
        rw [parseGroup_some h2, hj]

-- a full id, read, written, and read without its version
example : ∃ i, parse C95.urls C95.digits true "https://x/v1/group/name:7".toList = some i ∧
    i.show C95.urls C95.digits = "https://x/v1/group/name:7".toList ∧ i.grp = "group".toList ∧ i.name = "name".toList ∧
    i.version = some (.semver 7) ∧ i.registry.isSome = true :=
  ⟨⟨some ⟨"https://x/v1/".toList, by decide⟩, some "group".toList, "name".toList, some (.semver 7)⟩, by decide +kernel,
    by decide +kernel, rfl, rfl, rfl, rfl⟩
example : parse C95.urls C95.digits false "fluvio/name".toList = some ⟨none, none, "name".toList, none⟩ := by decide +kernel
example : parse C95.urls C95.digits true "fluvio/name".toList = none := by decide +kernel
example : parse C95.urls C95.digits false "name:latest".toList =
    some ⟨none, none, "name".toList, some (.tag "latest".toList)⟩ := by decide +kernel
-- the hypotheses are met by ids with registry, group and version
example : Plain C95.urls C95.digits ⟨some ⟨"https://x/v1/".toList, by decide⟩, some "group".toList, "name".toList,
    some (.semver 7)⟩ where
  name := by decide
  group := fun g h => by injection h with h; subst h; decide
  registry := fun u h => by
    injection h with h; subst h
    exact ⟨"https://x/v1".toList, by decide, by decide⟩
  tag := fun t h => by cases h

/-! ### Violations -/

/-- **Violation.**  A registry that is not a URL is dropped: the text is read as a package of the default registry. -/
theorem C95_violated_registry (us : Urls U) (vs : Vers V) (required : Bool) (w g s : Text) (hg : '/' ∉ g) (hs : '/' ∉ s)
    (hw : us.parse (if w.getLast? = some '/' then w else w ++ ['/']) = none) :
    parse us vs required (w ++ '/' :: (g ++ '/' :: s)) = parse us vs required (g ++ '/' :: s) := by
  rw [parse_three us vs required w hg hs, parse_two us vs required hg hs, hw]

-- the registry `packages.example.com` lacks `https://`
example : parse C95.urls C95.digits true "packages.example.com/v1/group/name:7".toList =
    some ⟨none, some "group".toList, "name".toList, some (.semver 7)⟩ := by decide +kernel

/-- **Violation.**  The registry of an id plays no role for what is downloaded, and from where. -/
theorem C95_violated_ignored (vs : Vers V) (d : U) {i j : Id U V} (hg : i.grp = j.grp) (hn : i.name = j.name) (v : V)
    (target : Text) (_ : i.reg d ≠ j.reg d) : i.download vs v target = j.download vs v target := by
  unfold Id.download
  rw [hg, hn]

example : ∃ i j, parse C95.urls C95.digits false "https://x/v1/group/name".toList = some i ∧
    parse C95.urls C95.digits false "group/name".toList = some j ∧
    i.reg ⟨"https://y/".toList, by decide⟩ ≠ j.reg ⟨"https://y/".toList, by decide⟩ ∧ i.grp = j.grp ∧ i.name = j.name :=
  ⟨⟨some ⟨"https://x/v1/".toList, by decide⟩, some "group".toList, "name".toList, none⟩,
    ⟨none, some "group".toList, "name".toList, none⟩, by decide +kernel, by decide +kernel, by decide, rfl, rfl⟩

/-- **Violation.**  A tag may look like a version, and is read back as this version. -/
theorem C95_violated_tag (us : Urls U) {vs : Vers V} (ok : vs.Ok) (v : V)
    (ha : (vs.str v).all (fun c => decide (c.toNat < 128)) = true) :
    parseTag (vs.str v) = some (vs.str v) ∧
    parse us vs true (Id.show us vs (⟨none, none, ['n'], some (.tag (vs.str v))⟩ : Id U V)) =
      some ⟨none, none, ['n'], some (.semver v)⟩ := by
  obtain ⟨c1, c2⟩ := ok.clean v
  refine ⟨if_pos ⟨ha, c1⟩, ?_⟩
  have e : Id.show us vs (⟨none, none, ['n'], some (.tag (vs.str v))⟩ : Id U V) =
      defaultGroup ++ '/' :: (['n'] ++ ':' :: vs.str v) := rfl
  have hn : parseNameVersion vs true (['n'] ++ ':' :: vs.str v) = some (['n'], some (.semver v)) := by
    unfold parseNameVersion
    rw [split_append _ _ c2, split_none (by decide)]
    simp [parseName, parseVersion, ok.back]
  rw [e, parse_two us vs true (by decide) (by simp [c1]), hn]
  rfl

example : (C95.digits.str 7).all (fun c => decide (c.toNat < 128)) = true := by decide

/-- **Violation.**  The empty text is the id of a package, whose name is empty, and so are the empty group and the empty
tag. -/
theorem C95_violated_empty (us : Urls U) {vs : Vers V} (h : vs.parse [] = none) :
    parse us vs false [] = some ⟨none, none, [], none⟩ ∧
    parse us vs true ['/', ':'] = some ⟨none, some [], [], some (.tag [])⟩ := by
  refine ⟨rfl, ?_⟩
  have : parse us vs true ([] ++ '/' :: [':']) = some ⟨none, some [], [], some (.tag [])⟩ := by
    rw [parse_two us vs true (by decide) (by decide)]
    have hn : parseNameVersion vs true [':'] = some ([], some (.tag [])) := by
      have hs : split ':' [':'] = [[], []] := by decide
      unfold parseNameVersion
      rw [hs]
      simp [parseName, parseVersion, h, parseTag]
    rw [hn]
    rfl
  exact this

example : C95.digits.parse [] = none := rfl

/-- **Violation.**  A registry whose text ends with two slashes loses one of them each time the id is written and
read. -/
theorem C95_violated_slashes (us : Urls U) (vs : Vers V) {w : Text} {u u' : U}
    (h1 : us.parse (w ++ ['/', '/']) = some u) (h2 : us.str u = w ++ ['/', '/']) (h3 : us.parse (w ++ ['/']) = some u')
    (hne : u ≠ u') :
    parse us vs false (w ++ "///g/n".toList) = some ⟨some u, some ['g'], ['n'], none⟩ ∧
    ∃ j, parse us vs false (Id.show us vs (⟨some u, some ['g'], ['n'], none⟩ : Id U V)) = some j ∧
      j.registry = some u' ∧ j.registry ≠ some u := by
  have hn : parseNameVersion vs false ['n'] = some (['n'], none) := rfl
  have hg : parseGroup (some ['g']) = some (some ['g']) := by decide
  constructor
  · have e : w ++ "///g/n".toList = (w ++ ['/', '/']) ++ '/' :: (['g'] ++ '/' :: ['n']) := by simp
    rw [e, parse_three us vs false _ (by decide) (by decide), hn, hg, if_pos (by simp), h1]
    rfl
  · have e : Id.show us vs (⟨some u, some ['g'], ['n'], none⟩ : Id U V) = (w ++ ['/']) ++ '/' :: (['g'] ++ '/' :: ['n']) := by
      show us.str u ++ _ = _
      rw [h2]
      simp [Id.grp]
    rw [e, parse_three us vs false _ (by decide) (by decide), hn, hg, if_pos (by simp), h3]
    exact ⟨_, rfl, rfl, fun h => hne (by injection h with h; exact h.symm)⟩

example : ∃ u u', C95.urls.parse ("h".toList ++ ['/', '/']) = some u ∧ C95.urls.str u = "h".toList ++ ['/', '/'] ∧
    C95.urls.parse ("h".toList ++ ['/']) = some u' ∧ u ≠ u' :=
  ⟨⟨"h//".toList, by decide⟩, ⟨"h/".toList, by decide⟩, by decide, by decide, by decide, by decide⟩

end Verif.Props
