/-
Ids of packages in the package index.

Models crates/fluvio-package-index/src/{package_id.rs,version.rs,tags.rs,http.rs}.  URLs and semantic versions come from
other crates (`url`, `semver`) and are parameters; the laws assumed of them are in `Urls.Ok` and `Vers.Ok`.  Which error
is reported is left out.
-/

namespace Verif.Hub.PackageId

abbrev Text := List Char

/-- The crate `url`: `Url::parse` and `Url::as_str`. -/
structure Urls (U : Type) where
  parse : Text → Option U
  str : U → Text

/-- The crate `semver`: `Version::parse` and `Display`. -/
structure Vers (V : Type) where
  parse : Text → Option V
  str : V → Text

/-- `str::split` at a character: never empty. -/
def split (c : Char) : Text → List Text
  | [] => [[]]
  | x :: xs =>
    if x = c then [] :: split c xs
    else match split c xs with
      | [] => [[x]]
      | s :: r => (x :: s) :: r

/-- `[&str]::join`. -/
def join (c : Char) : List Text → Text
  | [] => []
  | [s] => s
  | s :: r => s ++ c :: join c r

/-- `PackageVersion` — version.rs:16-19 -/
inductive PVersion (V : Type) where
  | semver (v : V)
  | tag (t : Text)
deriving DecidableEq

/-- `PackageId` — package_id.rs:189-194; in `PackageId<WithVersion>` the version is never `none`. -/
structure Id (U V : Type) where
  registry : Option U
  group : Option Text
  name : Text
  version : Option (PVersion V)
deriving DecidableEq

variable {U V : Type}

/-- `DEFAULT_GROUP` — package_id.rs:32 -/
def defaultGroup : Text := ['f', 'l', 'u', 'v', 'i', 'o']

/-- `TagName::from_str` — tags.rs:19-33 -/
def parseTag (s : Text) : Option Text := if s.all (fun c => decide (c.toNat < 128)) ∧ '/' ∉ s then some s else none

/-- `PackageVersion::from_str` — version.rs:24-38 -/
def parseVersion (vs : Vers V) (s : Text) : Option (PVersion V) :=
  match vs.parse s with
  | some v => some (.semver v)
  | none => (parseTag s).map .tag

/-- `Display for PackageVersion` — version.rs:53-60 -/
def showVersion (vs : Vers V) : PVersion V → Text
  | .semver v => vs.str v
  | .tag t => t

/-- `from_str` of names and groups — package_id.rs:77-85 -/
def parseName (s : Text) : Option Text := if '/' ∈ s then none else if ':' ∈ s then none else some s

/-- `Registry::try_from_segments` — package_id.rs:13-25 -/
def parseRegistry (us : Urls U) (segs : List Text) : Option U :=
  if segs = [] then none
  else us.parse (if (join '/' segs).getLast? = some '/' then join '/' segs else join '/' segs ++ ['/'])

/-- The group of a text — package_id.rs:333-337, 371-375 -/
def parseGroup : Option Text → Option (Option Text)
  | none => some none
  | some g => if g = defaultGroup then some none else (parseName g).map some

/-- The name and the version — package_id.rs:323-331, 357-369; `required`: for `PackageId<WithVersion>` -/
def parseNameVersion (vs : Vers V) (required : Bool) (s : Text) : Option (Text × Option (PVersion V)) :=
  match split ':' s with
  | [n] => if required then none else (parseName n).map fun n => (n, none)
  | [n, v] => (parseName n).bind fun n => (parseVersion vs v).map fun v => (n, some v)
  | _ => none

/-- `from_str` — package_id.rs:317-387 -/
def parse (us : Urls U) (vs : Vers V) (required : Bool) (s : Text) : Option (Id U V) :=
  match (split '/' s).reverse with
  | [] => none
  | last :: rest =>
    (parseNameVersion vs required last).bind fun nv =>
      (parseGroup rest.head?).map fun g => ⟨parseRegistry us rest.tail.reverse, g, nv.1, nv.2⟩

/-- `registry()` — package_id.rs:198-203; `d` is the default registry -/
def Id.reg (d : U) (i : Id U V) : U := i.registry.getD d

/-- `group()` — package_id.rs:206-211 -/
def Id.grp (i : Id U V) : Text := i.group.getD defaultGroup

/-- `Display` — package_id.rs:390-420 -/
def Id.show (us : Urls U) (vs : Vers V) (i : Id U V) : Text :=
  (match i.registry with | some u => us.str u | none => []) ++ (i.grp ++ '/' :: (i.name ++
    (match i.version with | some v => ':' :: showVersion vs v | none => [])))

/-- `uid` — package_id.rs:248-250 -/
def Id.uid (us : Urls U) (d : U) (i : Id U V) : Text := us.str (i.reg d) ++ (i.grp ++ '/' :: i.name)

/-- `contains("windows")` -/
def contains (w : Text) : Text → Bool
  | [] => w.isPrefixOf []
  | x :: xs => w.isPrefixOf (x :: xs) || contains w xs

/-- What `request_release_download` asks the server of `base_url` for — http.rs:62-84 -/
def Id.download (vs : Vers V) (i : Id U V) (v : V) (target : Text) : Text :=
  join '/' ["packages".toList, i.grp, i.name, vs.str v, target,
    if contains "windows".toList target then i.name ++ ".exe".toList else i.name]

/-! ### Specification vocabulary -/

/-- What is assumed of URLs: the text of a URL is parsed as this URL, and the text of a URL parsed from a text that ends
with a slash ends with one. -/
structure Urls.Ok (us : Urls U) : Prop where
  back : ∀ u, us.parse (us.str u) = some u
  slash : ∀ s u, us.parse (s ++ ['/']) = some u → ∃ w, us.str u = w ++ ['/']

/-- What is assumed of versions: the text of a version is parsed as this version, and has neither slashes nor colons. -/
structure Vers.Ok (vs : Vers V) : Prop where
  back : ∀ v, vs.parse (vs.str v) = some v
  clean : ∀ v, '/' ∉ vs.str v ∧ ':' ∉ vs.str v

/-- **Specification.** Two ids mean the same version of the same package. -/
def Same (d : U) (a b : Id U V) : Prop :=
  a.reg d = b.reg d ∧ a.grp = b.grp ∧ a.name = b.name ∧ a.version = b.version

/-- **Specification.** The id could have been read from a text: names without slash and colon, a registry whose text
ends with exactly one slash, and a version that is a semantic version or a tag that does not look like one. -/
structure Plain (us : Urls U) (vs : Vers V) (i : Id U V) : Prop where
  name : '/' ∉ i.name ∧ ':' ∉ i.name
  group : ∀ g, i.group = some g → '/' ∉ g ∧ ':' ∉ g
  registry : ∀ u, i.registry = some u → ∃ w, us.str u = w ++ ['/'] ∧ w.getLast? ≠ some '/'
  tag : ∀ t, i.version = some (.tag t) → vs.parse t = none ∧ '/' ∉ t ∧ ':' ∉ t ∧ t.all (fun c => decide (c.toNat < 128)) = true

/-! ### Lemmas -/

theorem split_ne (c : Char) (s : Text) : split c s ≠ [] := by
  cases s with
  | nil => simp [split]
  | cons x xs =>
    unfold split
    split
    · simp
    · split <;> simp

theorem split_none {c : Char} {s : Text} (h : c ∉ s) : split c s = [s] := by
  induction s with
  | nil => rfl
  | cons x xs ih =>
    rw [List.mem_cons, not_or] at h
    unfold split
    rw [if_neg (fun e => h.1 e.symm), ih h.2]

theorem split_append {c : Char} (a b : Text) (h : c ∉ b) : split c (a ++ c :: b) = split c a ++ [b] := by
  induction a with
  | nil =>
    show split c (c :: b) = _
    unfold split
    rw [if_pos rfl, split_none h]
    rfl
  | cons x xs ih =>
    show split c (x :: (xs ++ c :: b)) = _
    unfold split
    rw [ih]
    split
    · rfl
    · cases hs : split c xs with
      | nil => exact absurd hs (split_ne _ _)
      | cons y ys => rfl

theorem split_clean {c : Char} (s : Text) : ∀ p ∈ split c s, c ∉ p := by
  induction s with
  | nil => intro p hp; rw [List.mem_singleton.1 hp]; simp
  | cons x xs ih =>
    intro p hp
    unfold split at hp
    split at hp
    · rcases List.mem_cons.1 hp with rfl | hp
      · simp
      · exact ih p hp
    · rename_i hx
      cases hs : split c xs with
      | nil => exact absurd hs (split_ne _ _)
      | cons y ys =>
        rw [hs] at hp ih
        rcases List.mem_cons.1 hp with rfl | hp
        · rw [List.mem_cons, not_or]
          exact ⟨fun e => hx e.symm, ih y (by simp)⟩
        · exact ih p (by simp [hp])

theorem join_cons {c : Char} {s : Text} {r : List Text} (h : r ≠ []) : join c (s :: r) = s ++ c :: join c r := by
  cases r with
  | nil => exact absurd rfl h
  | cons => rfl

theorem join_split (c : Char) (s : Text) : join c (split c s) = s := by
  induction s with
  | nil => rfl
  | cons x xs ih =>
    unfold split
    split
    · rename_i hx
      rw [join_cons (split_ne _ _), ih, hx]; rfl
    · cases hs : split c xs with
      | nil => exact absurd hs (split_ne _ _)
      | cons y ys =>
        rw [hs] at ih
        show join c ((x :: y) :: ys) = _
        cases ys with
        | nil => rw [← ih]; rfl
        | cons z zs =>
          rw [join_cons (by simp)]
          rw [join_cons (by simp)] at ih
          rw [← ih]; rfl

theorem join_snoc {c : Char} {r : List Text} (h : r ≠ []) (s : Text) : join c (r ++ [s]) = join c r ++ c :: s := by
  induction r with
  | nil => exact absurd rfl h
  | cons x xs ih =>
    cases xs with
    | nil => rfl
    | cons y ys =>
      show join c (x :: (y :: ys ++ [s])) = _
      have h1 : (y :: ys : List Text) ≠ [] := by simp
      have h2 : (y :: ys ++ [s] : List Text) ≠ [] := by simp
      rw [join_cons h2, ih h1, join_cons h1]
      simp

/-! ### Reading -/

theorem parseName_clean {s : Text} (h : '/' ∉ s ∧ ':' ∉ s) : parseName s = some s := by
  unfold parseName
  rw [if_neg h.1, if_neg h.2]

theorem parseName_some {s t : Text} (h : parseName s = some t) : t = s ∧ '/' ∉ s ∧ ':' ∉ s := by
  unfold parseName at h
  split at h
  · cases h
  · split at h
    · cases h
    · injection h with h
      exact ⟨h.symm, by assumption, by assumption⟩

theorem parse_one (us : Urls U) (vs : Vers V) (q : Bool) {s : Text} (h : '/' ∉ s) :
    parse us vs q s = (parseNameVersion vs q s).map fun nv => ⟨none, none, nv.1, nv.2⟩ := by
  unfold parse
  rw [split_none h]
  simp only [List.reverse_cons, List.reverse_nil, List.nil_append, List.head?_nil, List.tail_nil, parseGroup, Option.map_some,
    parseRegistry, if_true]
  cases parseNameVersion vs q s <;> rfl

theorem parse_two (us : Urls U) (vs : Vers V) (q : Bool) {g s : Text} (hg : '/' ∉ g) (h : '/' ∉ s) :
    parse us vs q (g ++ '/' :: s) = (parseNameVersion vs q s).bind fun nv =>
      (parseGroup (some g)).map fun g => ⟨none, g, nv.1, nv.2⟩ := by
  unfold parse
  rw [split_append _ _ h, split_none hg]
  simp only [List.cons_append, List.nil_append, List.reverse_cons, List.reverse_nil, List.head?_cons, List.tail_cons,
    parseRegistry, if_true]

theorem parse_three (us : Urls U) (vs : Vers V) (q : Bool) (w : Text) {g s : Text} (hg : '/' ∉ g) (h : '/' ∉ s) :
    parse us vs q (w ++ '/' :: (g ++ '/' :: s)) = (parseNameVersion vs q s).bind fun nv =>
      (parseGroup (some g)).map fun g =>
        ⟨us.parse (if w.getLast? = some '/' then w else w ++ ['/']), g, nv.1, nv.2⟩ := by
  have e : w ++ '/' :: (g ++ '/' :: s) = (w ++ '/' :: g) ++ '/' :: s := by simp
  unfold parse
  rw [e, split_append _ _ h, split_append _ _ hg]
  simp only [List.reverse_append, List.reverse_cons, List.reverse_nil, List.nil_append, List.cons_append, List.head?_cons,
    List.tail_cons, List.reverse_reverse, parseRegistry, if_neg (split_ne _ _), join_split]

theorem parseGroup_plain {g : Text} (h : '/' ∉ g ∧ ':' ∉ g) : ∃ g', parseGroup (some g) = some g' ∧ g'.getD defaultGroup = g := by
  by_cases hd : g = defaultGroup
  · exact ⟨none, if_pos hd, hd.symm⟩
  · exact ⟨some g, (if_neg hd).trans (by rw [parseName_clean h]; rfl), rfl⟩

theorem parseGroup_some {g : Text} {g' : Option Text} (h : parseGroup (some g) = some g') : g'.getD defaultGroup = g := by
  have h : (if g = defaultGroup then some none else (parseName g).map some) = some g' := h
  split at h
  · rename_i hd
    injection h with h
    rw [← h, hd]; rfl
  · rw [Option.map_eq_some_iff] at h
    obtain ⟨x, hx, rfl⟩ := h
    exact (parseName_some hx).1

/-- The text of a name and a version. -/
def tailText (vs : Vers V) (i : Id U V) : Text :=
  i.name ++ (match i.version with | some v => ':' :: showVersion vs v | none => [])

theorem parseVersion_show {vs : Vers V} (ok : vs.Ok) {v : PVersion V}
    (h : ∀ t, v = .tag t → vs.parse t = none ∧ '/' ∉ t ∧ ':' ∉ t ∧ t.all (fun c => decide (c.toNat < 128)) = true) :
    parseVersion vs (showVersion vs v) = some v ∧ '/' ∉ showVersion vs v ∧ ':' ∉ showVersion vs v := by
  cases v with
  | semver v => exact ⟨by simp [parseVersion, showVersion, ok.back], ok.clean v⟩
  | tag t =>
    obtain ⟨h1, h2, h3, h4⟩ := h t rfl
    refine ⟨?_, h2, h3⟩
    show parseVersion vs t = _
    unfold parseVersion parseTag
    rw [h1, if_pos ⟨h4, h2⟩]
    rfl

theorem parseNameVersion_show {us : Urls U} {vs : Vers V} (ok : vs.Ok) {i : Id U V} (h : Plain us vs i) {q : Bool}
    (hq : q = true → i.version ≠ none) :
    parseNameVersion vs q (tailText vs i) = some (i.name, i.version) ∧ '/' ∉ tailText vs i := by
  unfold tailText
  cases hv : i.version with
  | none =>
    have hqf : q = false := by
      cases q with
      | false => rfl
      | true => exact absurd hv (hq rfl)
    have e : i.name ++ [] = i.name := List.append_nil _
    show parseNameVersion vs q (i.name ++ []) = _ ∧ _ ∉ i.name ++ []
    rw [e]
    refine ⟨?_, h.name.1⟩
    unfold parseNameVersion
    rw [split_none h.name.2, hqf]
    simp [parseName_clean h.name]
  | some v =>
    obtain ⟨v1, v2, v3⟩ := parseVersion_show ok (v := v) fun t ht => h.tag t (by rw [hv, ht])
    show parseNameVersion vs q (i.name ++ ':' :: showVersion vs v) = _ ∧ _ ∉ i.name ++ ':' :: showVersion vs v
    refine ⟨?_, ?_⟩
    · unfold parseNameVersion
      rw [split_append _ _ v3, split_none h.name.2]
      simp [parseName_clean h.name, v1]
    · simp [h.name.1, v2]

theorem parseNameVersion_some {vs : Vers V} {q : Bool} {s : Text} {nv : Text × Option (PVersion V)}
    (h : parseNameVersion vs q s = some nv) :
    (q = false ∧ s = nv.1 ∧ nv.2 = none) ∨ (∃ t v, s = nv.1 ++ ':' :: t ∧ nv.2 = some v ∧ parseVersion vs t = some v) := by
  have hj := join_split ':' s
  unfold parseNameVersion at h
  split at h
  · rename_i n hs
    rw [hs] at hj
    split at h
    · cases h
    · rename_i hq
      rw [Option.map_eq_some_iff] at h
      obtain ⟨x, hx, rfl⟩ := h
      exact .inl ⟨by simpa using hq, by rw [(parseName_some hx).1]; exact hj.symm, rfl⟩
  · rename_i n v hs
    rw [hs] at hj
    rw [Option.bind_eq_some_iff] at h
    obtain ⟨x, hx, h⟩ := h
    rw [Option.map_eq_some_iff] at h
    obtain ⟨y, hy, rfl⟩ := h
    exact .inr ⟨v, y, by rw [(parseName_some hx).1]; exact hj.symm, rfl, hy⟩
  · cases h

end Verif.Hub.PackageId
