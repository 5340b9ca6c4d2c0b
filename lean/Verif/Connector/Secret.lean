import Verif.Cli.Produce

/-!
# Secrets of connectors

Models `crates/fluvio-connector-package/src/secret.rs` and `src/render/`: names of secrets, the stores they are read
from, and how they get into the configuration of a connector.

Left out: the parser of templates (minijinja), of which only literal text and `${{ secrets.name }}` or
`${{ other.name }}` are used, already parsed; the parser of YAML, whose result (the secrets declared) is given.
-/

namespace Verif.Connector

abbrev Text := List Char

/-! ## Names -/

def isAsciiDigit (c : Char) : Bool := 48 ≤ c.toNat && c.toNat ≤ 57

def isAsciiAlnum (c : Char) : Bool :=
  isAsciiDigit c || (65 ≤ c.toNat && c.toNat ≤ 90) || (97 ≤ c.toNat && c.toNat ≤ 122)

/-- `SecretName::validate`, config/mod.rs:344-369. -/
def validName (n : Text) : Bool :=
  match n with
  | [] => false
  | c :: _ => if n.all (fun c => isAsciiAlnum c || c == '_') then !isAsciiDigit c else false

/-! ## Stores -/

/-- `char::is_whitespace` of the standard library: the property `White_Space` of Unicode. -/
def isWs (c : Char) : Bool :=
  let n := c.toNat
  (9 ≤ n && n ≤ 13) || n == 32 || n == 0x85 || n == 0xA0 || n == 0x1680 || (0x2000 ≤ n && n ≤ 0x200A) || n == 0x2028
    || n == 0x2029 || n == 0x202F || n == 0x205F || n == 0x3000

/-- `str::trim`. -/
def trim (t : Text) : Text := ((t.dropWhile isWs).reverse.dropWhile isWs).reverse

/-- `str::split_once('=')`. -/
def splitEq : Text → Option (Text × Text)
  | [] => none
  | c :: rest => if c = '=' then some ([], rest) else (splitEq rest).map fun kv => (c :: kv.1, kv.2)

inductive Err
  /-- the file cannot be opened or read -/
  | io
  /-- `value not found for secret name` -/
  | notFound
  /-- the template uses something that is not there (`UndefinedBehavior::Strict`) -/
  | undefined
deriving DecidableEq, Repr

/-- The loop of `FileSecretStore::read`, secret.rs:82-96.  The lines of the file (`BufRead::lines`); `none`: a line that
is no UTF-8. -/
def readLines (name : Text) : List (Option Text) → Except Err Text
  | [] => .error .notFound
  | none :: _ => .error .io
  | some l :: rest =>
    match splitEq l with
    | some (k, v) => if trim k = trim name then .ok (trim v) else readLines name rest
    | none => readLines name rest

/-- `EnvSecretStore` and `FileSecretStore`, secret.rs:24-30.  Simplified: the environment and the file do not change. -/
inductive Store
  | env (vars : Text → Option Text)
  | file (lines : Option (List (Option Text)))

/-- `SecretStore::read`, secret.rs:75-97. -/
def Store.read (s : Store) (name : Text) : Except Err Text :=
  match s with
  | .env vars => match vars name with | some v => .ok v | none => .error .notFound
  | .file none => .error .io
  | .file (some ls) => readLines name ls

/-! ## Rendering -/

/-- The versions of configurations, config/mod.rs:38-46. -/
inductive Version
  | v0 | v1 | v2
deriving DecidableEq, Repr

/-- The configuration as it is parsed for the context: version and names of `secrets` in `meta`. -/
structure Declared where
  version : Version
  names : List Text

/-- `ConnectorConfig::secrets`, config/mod.rs:636-642.  Simplified: a set there, a list here. -/
def Declared.secrets (d : Declared) : List Text :=
  match d.version with
  | .v0 => []
  | .v1 => d.names
  | .v2 => d.names

/-- A piece of the template: text, or a value `context.name`. -/
inductive Seg
  | lit (t : Text)
  | var (context name : Text)
deriving DecidableEq, Repr

/-- `extract_context_values`, render/context.rs:31-42: all secrets declared are read; the first error is the result. -/
def contextValues (s : Store) : List Text → Except Err (List (Text × Text))
  | [] => .ok []
  | n :: ns =>
    match s.read n with
    | .error e => .error e
    | .ok v =>
      match contextValues s ns with
      | .error e => .error e
      | .ok vs => .ok ((n, v) :: vs)

/-- The template engine: values are inserted as they are (no escaping for templates without a file name). -/
def renderSegs (ctx : List (Text × Text)) : List Seg → Except Err Text
  | [] => .ok []
  | .lit t :: rest =>
    match renderSegs ctx rest with
    | .ok out => .ok (t ++ out)
    | .error e => .error e
  | .var c n :: rest =>
    if c = "secrets".toList then
      match ctx.lookup n with
      | none => .error .undefined
      | some v =>
        match renderSegs ctx rest with
        | .ok out => .ok (v ++ out)
        | .error e => .error e
    else .error .undefined

/-- `render_config_str`, render/mod.rs:43-88. -/
def render (s : Store) (d : Declared) (segs : List Seg) : Except Err Text :=
  match contextValues s d.secrets with
  | .error e => .error e
  | .ok ctx => renderSegs ctx segs

/-! ## Secrets as values -/

/-- `SecretKind`, secret.rs:32-37. -/
inductive SecretString
  | plain (s : Text)
  | secret (name : Text)
deriving DecidableEq, Repr

/-- YAML as serde_yaml 0.9 presents it; a tag other than the standard ones makes it an enumeration. -/
inductive Y
  | int (i : Int)
  | str (s : Text)
  | seq (l : List Y)
  | map (l : List (Text × Y))
  | tagged (tag : Text) (v : Y)

/-- `SecretString::resolve`, `resolve_from`, secret.rs:45-57. -/
def SecretString.resolve (store : Store) : SecretString → Except Err Text
  | .plain s => .ok s
  | .secret n => store.read n

/-- `Serialize for SecretString`, secret.rs:157-167: the enumeration gets a tag (see the test `test_ser_struct`). -/
def SecretString.ser : SecretString → Y
  | .plain s => .str s
  | .secret n => .tagged "secret".toList (.map [("name".toList, .str n)])

/-- `Deserialize for SecretString`, secret.rs:120-155: a string, or a map with one key for the variant
(`MapAccessDeserializer`).  A value with a tag is given to `visit_enum`, which the visitor does not have. -/
def SecretString.de : Y → Option SecretString
  | .str s => some (.plain s)
  | .map [(k, .str s)] => if k = "string".toList then some (.plain s) else none
  | .map [(k, .map [(f, .str n)])] =>
    if k = "secret".toList ∧ f = "name".toList then some (.secret n) else none
  | _ => none

/-- `Debug for SecretString`, secret.rs:169-178.  Simplified: no quotes around the name. -/
def SecretString.debug : SecretString → Text
  | .plain _ => "SecretString(\"****\")".toList
  | .secret n => "SecretString(Secret { name: ".toList ++ n ++ " })".toList

/-! ## Facts -/

theorem trim_of {t : Text} (h1 : ∀ c ∈ t.head?, isWs c = false) (h2 : ∀ c ∈ t.getLast?, isWs c = false) :
    trim t = t := by
  have e : ∀ l : Text, (∀ c ∈ l.head?, isWs c = false) → l.dropWhile isWs = l := by
    intro l hl
    cases l with
    | nil => rfl
    | cons c l => rw [List.dropWhile_cons_of_neg (by rw [hl c rfl]; exact Bool.false_ne_true)]
  unfold trim
  rw [e t h1, e t.reverse (by rw [List.head?_reverse]; exact h2), List.reverse_reverse]

theorem splitEq_of (k v : Text) (h : '=' ∉ k) : splitEq (k ++ '=' :: v) = some (k, v) := by
  induction k with
  | nil => rfl
  | cons c k ih =>
    simp only [List.mem_cons, not_or] at h
    rw [List.cons_append, splitEq, if_neg (Ne.symm h.1), ih h.2]
    rfl

theorem contextValues_ok (s : Store) : ∀ (ns : List Text) (ctx : List (Text × Text)), contextValues s ns = .ok ctx →
    (∀ n, n ∈ ns → ∃ v, s.read n = .ok v ∧ ctx.lookup n = some v) ∧ (∀ n, n ∉ ns → ctx.lookup n = none)
  | [], ctx, h => by
    injection h with h
    subst h
    exact ⟨fun n hn => absurd hn List.not_mem_nil, fun _ _ => rfl⟩
  | m :: ns, ctx, h => by
    rw [contextValues] at h
    cases hr : s.read m with
    | error e => rw [hr] at h; cases h
    | ok v =>
      rw [hr] at h
      dsimp only at h
      cases hc : contextValues s ns with
      | error e => rw [hc] at h; cases h
      | ok vs =>
        rw [hc] at h
        injection h with h
        subst h
        obtain ⟨h1, h2⟩ := contextValues_ok s ns vs hc
        refine ⟨fun n hn => ?_, fun n hn => ?_⟩
        · rw [List.lookup_cons]
          by_cases hnm : n = m
          · subst hnm
            exact ⟨v, hr, by simp⟩
          · obtain ⟨w, hw1, hw2⟩ := h1 n ((List.mem_cons.mp hn).resolve_left hnm)
            refine ⟨w, hw1, ?_⟩
            rw [show (n == m) = false from by simpa using hnm]
            exact hw2
        · rw [List.mem_cons, not_or] at hn
          rw [List.lookup_cons, show (n == m) = false from by simpa using hn.1]
          exact h2 n hn.2

theorem contextValues_exists (s : Store) : ∀ ns : List Text, (∀ n ∈ ns, ∃ v, s.read n = .ok v) →
    ∃ ctx, contextValues s ns = .ok ctx
  | [], _ => ⟨[], rfl⟩
  | m :: ns, h => by
    obtain ⟨v, hv⟩ := h m (List.mem_cons_self ..)
    obtain ⟨vs, hvs⟩ := contextValues_exists s ns fun n hn => h n (List.mem_cons_of_mem _ hn)
    exact ⟨(m, v) :: vs, by rw [contextValues, hv]; dsimp only; rw [hvs]⟩

theorem contextValues_congr (s t : Store) : ∀ ns : List Text, (∀ n ∈ ns, s.read n = t.read n) →
    contextValues s ns = contextValues t ns
  | [], _ => rfl
  | m :: ns, h => by
    rw [contextValues, contextValues, h m (List.mem_cons_self ..),
      contextValues_congr s t ns fun n hn => h n (List.mem_cons_of_mem _ hn)]

end Verif.Connector
