import Verif.Connector.Secret

/-!
# C101 Secrets get into the configuration of a connector, and only where they belong

Names of secrets are identifiers.  The configuration of a connector is rendered with the values of the secrets it
declares; if one of them has no value, or one is used that is not declared, there is no configuration at all.
-/

namespace Verif.Props

open Verif.Connector

/-! ## Names -/

/-- Specification: letters, digits and underscores of ASCII, not beginning with a digit. -/
def C101_first : Text := "abcdefghijklmnopqrstuvwxyzABCDEFGHIJKLMNOPQRSTUVWXYZ_".toList
def C101_rest : Text := C101_first ++ "0123456789".toList

theorem C101.char_of (c : Char) (h : c.toNat < 128) : c ∈ (List.range 128).map Char.ofNat := by
  refine List.mem_map.mpr ⟨c.toNat, List.mem_range.mpr h, ?_⟩
  exact Char.ofNat_toNat c

theorem C101.alnum (c : Char) : (isAsciiAlnum c || c == '_') = true ↔ c ∈ C101_rest := by
  by_cases h : c.toNat < 128
  · have : ∀ c ∈ (List.range 128).map Char.ofNat, ((isAsciiAlnum c || c == '_') = true ↔ c ∈ C101_rest) := by
      decide +kernel
    exact this c (C101.char_of c h)
  · constructor
    · intro h'
      rw [Bool.or_eq_true] at h'
      rcases h' with h' | h'
      · simp only [isAsciiAlnum, isAsciiDigit, Bool.or_eq_true, Bool.and_eq_true, decide_eq_true_eq] at h'
        omega
      · rw [beq_iff_eq] at h'
        subst h'
        exact absurd (by decide) h
    · intro h'
      have : ∀ c ∈ C101_rest, c.toNat < 128 := by decide +kernel
      exact absurd (this c h') h

theorem C101.digit (c : Char) (hc : c ∈ C101_rest) : isAsciiDigit c = false ↔ c ∈ C101_first := by
  have : ∀ c ∈ C101_rest, (isAsciiDigit c = false ↔ c ∈ C101_first) := by decide +kernel
  exact this c hc

theorem C101_name (n : Text) :
    validName n = true ↔ ∃ c rest, n = c :: rest ∧ c ∈ C101_first ∧ ∀ x ∈ rest, x ∈ C101_rest := by
  cases n with
  | nil => exact ⟨fun h => (nomatch h), fun ⟨_, _, h, _⟩ => (nomatch h)⟩
  | cons c rest =>
    have hall : (c :: rest).all (fun c => isAsciiAlnum c || c == '_') = true ↔
        c ∈ C101_rest ∧ ∀ x ∈ rest, x ∈ C101_rest := by
      rw [List.all_eq_true]
      constructor
      · intro h
        exact ⟨(C101.alnum c).mp (h c (List.mem_cons_self ..)),
          fun x hx => (C101.alnum x).mp (h x (List.mem_cons_of_mem _ hx))⟩
      · intro h x hx
        rcases List.mem_cons.mp hx with rfl | hx
        · exact (C101.alnum _).mpr h.1
        · exact (C101.alnum _).mpr (h.2 x hx)
    unfold validName
    dsimp only
    constructor
    · intro h
      split at h
      · rename_i ha
        obtain ⟨h1, h2⟩ := hall.mp ha
        rw [Bool.not_eq_true'] at h
        exact ⟨c, rest, rfl, (C101.digit c h1).mp h, h2⟩
      · cases h
    · rintro ⟨c', rest', he, h1, h2⟩
      injection he with he1 he2
      subst he1; subst he2
      have hc : c ∈ C101_rest := List.mem_append_left _ h1
      rw [if_pos (hall.mpr ⟨hc, h2⟩), (C101.digit c hc).mpr h1]
      rfl

example : validName "api_key2".toList = true := by decide +kernel
example : validName "2nd".toList = false := by decide +kernel
example : validName "a-b".toList = false := by decide +kernel

/-! ## Rendering -/

/-- Specification: the text of a template when the names stand for `val`. -/
def C101_text (val : Text → Text) (segs : List Seg) : Text :=
  segs.flatMap fun s => match s with | .lit t => t | .var _ n => val n

/-- The names a template uses are secrets that are declared. -/
def C101_Uses (names : List Text) (segs : List Seg) : Prop :=
  ∀ c n, Seg.var c n ∈ segs → c = "secrets".toList ∧ n ∈ names

theorem C101.renderSegs_spec (ctx : List (Text × Text)) : ∀ segs : List Seg,
    ((∀ c n, Seg.var c n ∈ segs → c = "secrets".toList ∧ ∃ v, ctx.lookup n = some v) →
      renderSegs ctx segs = .ok (C101_text (fun n => (ctx.lookup n).getD []) segs)) ∧
    (∀ out, renderSegs ctx segs = .ok out →
      ∀ c n, Seg.var c n ∈ segs → c = "secrets".toList ∧ ∃ v, ctx.lookup n = some v)
  | [] => ⟨fun _ => rfl, fun _ _ _ _ h => absurd h List.not_mem_nil⟩
  | s :: segs => by
    obtain ⟨ih1, ih2⟩ := C101.renderSegs_spec ctx segs
    cases s with
    | lit t =>
      refine ⟨fun h => ?_, fun out h c n hm => ?_⟩
      · rw [renderSegs, ih1 fun c n hm => h c n (List.mem_cons_of_mem _ hm)]
        rfl
      · rw [renderSegs] at h
        cases hr : renderSegs ctx segs with
        | error e => rw [hr] at h; cases h
        | ok o =>
          rcases List.mem_cons.mp hm with hm | hm
          · cases hm
          · exact ih2 o hr c n hm
    | var c n =>
      refine ⟨fun h => ?_, fun out h c' n' hm => ?_⟩
      · obtain ⟨hc, v, hv⟩ := h c n (List.mem_cons_self ..)
        rw [renderSegs, if_pos hc, hv]
        dsimp only
        rw [ih1 fun c n hm => h c n (List.mem_cons_of_mem _ hm)]
        dsimp only [C101_text]
        rw [List.flatMap_cons]
        dsimp only
        rw [hv]
        rfl
      · rw [renderSegs] at h
        by_cases hc : c = "secrets".toList
        · rw [if_pos hc] at h
          cases hl : ctx.lookup n with
          | none => rw [hl] at h; cases h
          | some v =>
            rw [hl] at h
            dsimp only at h
            cases hr : renderSegs ctx segs with
            | error e => rw [hr] at h; cases h
            | ok o =>
              rcases List.mem_cons.mp hm with hm | hm
              · injection hm with h1 h2
                subst h1; subst h2
                exact ⟨hc, v, hl⟩
              · exact ih2 o hr c' n' hm
        · rw [if_neg hc] at h
          cases h

/-- Rendering succeeds exactly if every secret declared has a value and every value used is a secret declared; the result
is then the template with the values in their places. -/
theorem C101_render (s : Store) (d : Declared) (segs : List Seg) (out : Text) :
    render s d segs = .ok out ↔
      ∃ val : Text → Text, (∀ n ∈ d.secrets, s.read n = .ok (val n)) ∧ C101_Uses d.secrets segs ∧
        out = C101_text val segs := by
  have htext : ∀ (f g : Text → Text), (∀ c n, Seg.var c n ∈ segs → f n = g n) → C101_text f segs = C101_text g segs := by
    intro f g h
    unfold C101_text
    induction segs with
    | nil => rfl
    | cons x xs ih =>
      rw [List.flatMap_cons, List.flatMap_cons, ih fun c n hm => h c n (List.mem_cons_of_mem _ hm)]
      cases x with
      | lit t => rfl
      | var c n => dsimp only; rw [h c n (List.mem_cons_self ..)]
  unfold render
  constructor
  · intro h
    cases hc : contextValues s d.secrets with
    | error e => rw [hc] at h; cases h
    | ok ctx =>
      rw [hc] at h
      dsimp only at h
      obtain ⟨h1, h2⟩ := contextValues_ok s _ _ hc
      obtain ⟨g1, g2⟩ := C101.renderSegs_spec ctx segs
      refine ⟨fun n => (ctx.lookup n).getD [], fun n hn => ?_, fun c n hm => ?_, ?_⟩
      · obtain ⟨v, hv1, hv2⟩ := h1 n hn
        rw [hv1]
        show _ = Except.ok ((ctx.lookup n).getD [])
        rw [hv2]
        rfl
      · obtain ⟨e, v, hv⟩ := g2 out h c n hm
        refine ⟨e, ?_⟩
        by_cases hn : n ∈ d.secrets
        · exact hn
        · rw [h2 n hn] at hv; cases hv
      · rw [g1 (g2 out h)] at h
        injection h with h
        exact h.symm
  · rintro ⟨val, hv, hu, rfl⟩
    obtain ⟨ctx, hc⟩ := contextValues_exists s d.secrets fun n hn => ⟨_, hv n hn⟩
    obtain ⟨h1, _⟩ := contextValues_ok s _ _ hc
    rw [hc]
    dsimp only
    have hl : ∀ c n, Seg.var c n ∈ segs → ctx.lookup n = some (val n) := by
      intro c n hm
      obtain ⟨v, hv1, hv2⟩ := h1 n (hu c n hm).2
      rw [hv n (hu c n hm).2] at hv1
      injection hv1 with hv1
      rw [hv2, hv1]
    rw [(C101.renderSegs_spec ctx segs).1 fun c n hm => ⟨(hu c n hm).1, _, hl c n hm⟩]
    rw [htext _ val fun c n hm => by rw [hl c n hm]; rfl]

/-- Secrets that are not declared do not matter. -/
theorem C101_only_declared (s t : Store) (d : Declared) (segs : List Seg) (h : ∀ n ∈ d.names, s.read n = t.read n) :
    render s d segs = render t d segs := by
  unfold render
  rw [contextValues_congr s t d.secrets fun n hn => h n (by
    obtain ⟨v, ns⟩ := d
    cases v <;> first | exact hn | cases hn)]

/-- With an API version the secrets declared are those listed. -/
theorem C101_declared_partial (d : Declared) (h : d.version ≠ .v0) (n : Text) : n ∈ d.secrets ↔ n ∈ d.names := by
  obtain ⟨v, ns⟩ := d
  cases v
  · exact absurd rfl h
  · exact Iff.rfl
  · exact Iff.rfl

/-- **Violation**: without an API version the secrets listed are dropped: a configuration that uses one is refused,
whatever the store has. -/
theorem C101_violated_unversioned (s : Store) (n : Text) (names : List Text) :
    render s ⟨.v0, names⟩ [.var "secrets".toList n] = .error .undefined := rfl

/-! ## Lines -/

/-- Values without line breaks do not change which lines a configuration has: the number of line breaks in the result is
that in the template. -/
theorem C101_lines_partial (s : Store) (d : Declared) (segs : List Seg) (out : Text) (h : render s d segs = .ok out)
    (hv : ∀ n ∈ d.secrets, ∀ v, s.read n = .ok v → '\n' ∉ v) :
    out.count '\n' = (segs.map fun x => match x with | .lit t => t.count '\n' | .var _ _ => 0).sum := by
  obtain ⟨val, h1, h2, rfl⟩ := (C101_render s d segs out).mp h
  clear h
  unfold C101_text
  induction segs with
  | nil => rfl
  | cons x xs ih =>
    have ih := ih fun c n hm => h2 c n (List.mem_cons_of_mem _ hm)
    rw [List.flatMap_cons, List.count_append, ih, List.map_cons, List.sum_cons]
    cases x with
    | lit t => rfl
    | var c n =>
      have hn := (h2 c n (List.mem_cons_self ..)).2
      dsimp only
      rw [List.count_eq_zero.mpr (hv n hn _ (h1 n hn))]

/-- **Violation**: the value of a secret is inserted into the text of the configuration before it is parsed, so that a
value with a line break (from the environment) adds entries to it. -/
theorem C101_violated_injection :
    ∃ (s : Store) (d : Declared) (segs : List Seg), render s d segs =
      .ok "password: x\ntopic: other".toList ∧ segs = [.lit "password: ".toList, .var "secrets".toList "pw".toList] :=
  ⟨.env fun _ => some "x\ntopic: other".toList, ⟨.v1, ["pw".toList]⟩, _, by decide +kernel, rfl⟩

/-! ## The file of secrets -/

/-- A file with lines `name=value` for distinct names gives each its value, and none to other names. -/
theorem C101_file_partial (kvs : List (Text × Text)) (hk : ∀ p ∈ kvs, validName p.1 = true)
    (hd : (kvs.map (·.1)).Nodup)
    (hv : ∀ p ∈ kvs, (∀ c ∈ p.2.head?, isWs c = false) ∧ (∀ c ∈ p.2.getLast?, isWs c = false)) (n : Text)
    (hn : validName n = true) :
    (∀ v, (n, v) ∈ kvs → (Store.file (some (kvs.map fun p => some (p.1 ++ '=' :: p.2)))).read n = .ok v) ∧
    (n ∉ kvs.map (·.1) →
      (Store.file (some (kvs.map fun p => some (p.1 ++ '=' :: p.2)))).read n = .error .notFound) := by
  have hws : ∀ c ∈ C101_rest, isWs c = false ∧ c ≠ '=' := by decide +kernel
  have hmem : ∀ m, validName m = true → ∀ c ∈ m, c ∈ C101_rest := by
    intro m hm c hc
    obtain ⟨x, rest, rfl, h1, h2⟩ := (C101_name m).mp hm
    rcases List.mem_cons.mp hc with rfl | hc
    · exact List.mem_append_left _ h1
    · exact h2 c hc
  have htrim : ∀ m, validName m = true → trim m = m := fun m hm =>
    trim_of (fun c hc => (hws c (hmem m hm c (List.mem_of_mem_head? hc))).1)
      (fun c hc => (hws c (hmem m hm c (List.mem_of_mem_getLast? hc))).1)
  show (∀ v, (n, v) ∈ kvs → readLines n _ = .ok v) ∧ (n ∉ kvs.map (·.1) → readLines n _ = .error .notFound)
  induction kvs with
  | nil => exact ⟨fun v h => absurd h List.not_mem_nil, fun _ => rfl⟩
  | cons p kvs ih =>
    have hp := hk p (List.mem_cons_self ..)
    rw [List.map_cons, List.nodup_cons] at hd
    obtain ⟨ih1, ih2⟩ := ih (fun q hq => hk q (List.mem_cons_of_mem _ hq)) hd.2
      (fun q hq => hv q (List.mem_cons_of_mem _ hq))
    rw [List.map_cons, readLines, splitEq_of _ _ (fun h => (hws '=' (hmem _ hp _ h)).2 rfl)]
    dsimp only
    rw [htrim _ hp, htrim _ hn, trim_of (hv p (List.mem_cons_self ..)).1 (hv p (List.mem_cons_self ..)).2]
    refine ⟨fun v h => ?_, fun h => ?_⟩
    · rcases List.mem_cons.mp h with h | h
      · subst h
        rw [if_pos rfl]
      · have hne : p.1 ≠ n := fun e => hd.1 (by rw [e]; exact List.mem_map.mpr ⟨(n, v), h, rfl⟩)
        rw [if_neg hne]
        exact ih1 v h
    · rw [List.map_cons, List.mem_cons, not_or] at h
      rw [if_neg (Ne.symm h.1)]
      exact ih2 h.2

example : (Store.file (some [some "key1=value1".toList, some "pw=a=b".toList])).read "pw".toList
    = .ok "a=b".toList := by decide +kernel

/-- A secret in the environment is the variable with its name; without it there is none. -/
theorem C101_env (vars : Text → Option Text) (n v : Text) :
    ((Store.env vars).read n = .ok v ↔ vars n = some v) ∧
    ((Store.env vars).read n = .error .notFound ↔ vars n = none) := by
  unfold Store.read
  dsimp only
  cases vars n with
  | none => exact ⟨⟨fun h => (nomatch h), fun h => (nomatch h)⟩, fun _ => rfl, fun _ => rfl⟩
  | some w =>
    refine ⟨⟨fun h => ?_, fun h => ?_⟩, fun h => (nomatch h), fun h => (nomatch h)⟩
    · injection h with h
      rw [h]
    · injection h with h
      rw [h]

/-- **Violation**: blanks around a value do not belong to it: the same secret in the environment and in a file are two
values. -/
theorem C101_violated_trim :
    (Store.file (some [some "pw= x ".toList])).read "pw".toList = .ok "x".toList ∧
    (Store.env fun _ => some " x ".toList).read "pw".toList = .ok " x ".toList := by decide +kernel

/-! ## Secrets as values -/

/-- Values that are no secrets are read as they were written. -/
theorem C101_value_partial (s : Text) : SecretString.de (SecretString.ser (.plain s)) = some (.plain s) := rfl

/-- Secrets in the form documented are read. -/
theorem C101_reference (n : Text) :
    SecretString.de (.map [("secret".toList, .map [("name".toList, .str n)])]) = some (.secret n) := rfl

/-- **Violation**: a secret that was written is not read again: it is written with a tag (`!secret`), which the visitor
does not know. -/
theorem C101_violated_reference (n : Text) : SecretString.de (SecretString.ser (.secret n)) = none := rfl

/-- What is logged does not tell the value. -/
theorem C101_debug (s t : Text) : (SecretString.plain s).debug = (SecretString.plain t).debug := rfl

/-- A value stands for itself, a secret for what the store has. -/
theorem C101_resolve (st : Store) :
    (∀ s, (SecretString.plain s).resolve st = .ok s) ∧ (∀ n, (SecretString.secret n).resolve st = st.read n) :=
  ⟨fun _ => rfl, fun _ => rfl⟩

example : render (.env fun n => if n = "k".toList then some "v".toList else none) ⟨.v2, ["k".toList]⟩
    [.lit "key: ".toList, .var "secrets".toList "k".toList, .lit "\n".toList] = .ok "key: v\n".toList := by
  decide +kernel

end Verif.Props
