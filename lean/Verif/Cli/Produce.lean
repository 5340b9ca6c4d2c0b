import Verif.Wire.Basic

/-!
# The command `fluvio produce`

Models `crates/fluvio-cli/src/client/produce/mod.rs` and `UserInputRecords` of
`crates/fluvio-cli-common/src/user_input.rs`: which records the command hands to the producer and whether it reports
success.  The producer itself is a parameter (`Net`); see C33 and others for it.

Left out: settings of the producer, smart modules, the terminal.
-/

namespace Verif.Cli.Produce

open Verif.Wire

abbrev Text := List Char

/-! ## Lines (the standard library) -/

/-- `BufRead::lines` takes away a carriage return at the end of a line. -/
def dropCr (l : Bytes) : Bytes := if l.getLast? = some 13 then l.dropLast else l

/-- `BufRead::lines`: `cur` is what was read of the current line.  A last line without line feed counts if it is not
empty; it keeps its carriage return. -/
def linesFrom : Bytes → Bytes → List Bytes
  | cur, [] => if cur = [] then [] else [cur]
  | cur, c :: rest => if c = 10 then dropCr cur :: linesFrom [] rest else linesFrom (cur ++ [c]) rest

def lines (input : Bytes) : List Bytes := linesFrom [] input

/-- `str::split_once`: at the first occurrence of the separator.  Texts are their UTF-8 bytes, which does not matter for
finding a text in a text. -/
def splitOnce (sep : Bytes) : Bytes → Option (Bytes × Bytes)
  | [] => if sep.isPrefixOf [] then some ([], []) else none
  | c :: rest =>
    if sep.isPrefixOf (c :: rest) then some ([], (c :: rest).drop sep.length)
    else (splitOnce sep rest).map fun kv => (c :: kv.1, kv.2)

/-! ## The command -/

/-- `ProduceOpt`, produce/mod.rs:62-184, as far as it is used here.  `--key` and `--key-separator` exclude each other
(the group `RecordKey`), and so do `--key-separator` and `--raw`. -/
structure Opts where
  key : Option Bytes
  sep : Option Bytes
  raw : Bool
  atMostOnce : Bool

/-- A record: key and value. -/
abbrev Rec := Option Bytes × Bytes

/-- Where the input comes from: a file that cannot be read or has some content, or the standard input. -/
inductive Src
  | file (content : Option Bytes)
  | stdin (content : Bytes)

/-- What the producer answers: whether the `n`-th call of `send` succeeds, whether the `n`-th record is acknowledged
when waited for, and whether `flush` succeeds. -/
structure Net where
  send : Nat → Bool
  ack : Nat → Bool
  flush : Bool

/-- `produce_line` and `produce_key_value`, produce/mod.rs:425-465: the record for a line, if any. -/
def lineRec (o : Opts) (line : Bytes) : Option Rec :=
  match o.sep with
  | some s => (splitOnce s line).map fun kv => (some kv.1, kv.2)
  | none =>
    match o.key with
    | some k => some (some k, line)
    | none => some (none, line)

/-- The loop over the lines of a file, produce/mod.rs:370-378.  Result: the records handed over, and whether it came to
its end. -/
def fileLoop (o : Opts) (net : Net) : List Rec → List Bytes → List Rec × Bool
  | acc, [] => (acc, true)
  | acc, l :: ls =>
    match lineRec o l with
    | none => fileLoop o net acc ls
    | some r => if net.send acc.length then fileLoop o net (acc ++ [r]) ls else (acc, false)

/-- `producer_stdin`, produce/mod.rs:401-423: each record is waited for before the next line. -/
def stdinLoop (o : Opts) (net : Net) : List Rec → List Bytes → List Rec × Bool
  | acc, [] => (acc, true)
  | acc, l :: ls =>
    match lineRec o l with
    | none => stdinLoop o net acc ls
    | some r =>
      if net.send acc.length then
        if o.atMostOnce || net.ack acc.length then stdinLoop o net (acc ++ [r]) ls else (acc ++ [r], false)
      else (acc, false)

/-- `produce_lines`, produce/mod.rs:367-399.  Lines that are not UTF-8 are errors, at which the input ends
(`map_while`, `while let Some(Ok(line))`).  `valid`: the line is UTF-8. -/
def produceLines (valid : Bytes → Bool) (o : Opts) (net : Net) : Src → List Rec × Bool
  | .file none => ([], false)
  | .file (some d) =>
    match fileLoop o net [] ((lines d).takeWhile valid) with
    | (sent, true) => (sent, o.atMostOnce || (List.range sent.length).all net.ack)
    | (sent, false) => (sent, false)
  | .stdin d => stdinLoop o net [] ((lines d).takeWhile valid)

/-- The input as one record: `UserInputRecords::try_from`, user_input.rs:82-103, `unwrap_or_default`,
produce/mod.rs:321-337, and its conversion to the data of a record, user_input.rs:41-52. -/
def rawRec (o : Opts) : Src → Rec
  | .file none => (none, [])
  | .file (some d) => (o.key, d)
  | .stdin d => (o.key, d)

/-- `process_raw_file`, produce/mod.rs:319-355. -/
def produceRaw (o : Opts) (net : Net) (src : Src) : List Rec × Bool :=
  if net.send 0 then ([rawRec o src], o.atMostOnce || net.ack 0) else ([], false)

/-- The part of `process_client` that produces, produce/mod.rs:295-308: the records handed to the producer, and whether
the command reports success. -/
def produce (valid : Bytes → Bool) (o : Opts) (net : Net) (src : Src) : List Rec × Bool :=
  match if o.raw then produceRaw o net src else produceLines valid o net src with
  | (sent, true) => (sent, net.flush)
  | (sent, false) => (sent, false)

/-! ## `--mirror` -/

/-- `ReplicaSpec` of a topic as far as it is used: no mirror; home: the remote cluster of each partition and its flag
`source`; remote: name of the home cluster, the flag `target`, the number of partitions. -/
inductive Replicas
  | plain
  | home (partitions : List (Text × Bool))
  | remote (cluster : Text) (target : Bool) (partitions : Nat)

/-- The closure in `find_map`, produce/mod.rs:239-267, with `as_partition_maps` (topic/spec.rs:836-846, 917-933), which
number the partitions from zero. -/
def mirrorOf (mirror : Text) : Replicas → Option Nat
  | .home ps => ps.findIdx? fun p => p.1 = mirror && p.2
  | .remote c target n => if c = mirror && target && n ≠ 0 then some 0 else none
  | .plain => none

/-- The partition for `--mirror`, produce/mod.rs:236-273, among all topics (`admin.all`). -/
def mirrorPartition (mirror : Text) (topics : List (Text × Replicas)) : Option Nat :=
  topics.findSome? fun t => mirrorOf mirror t.2

/-- `PartitionMirrorConfig::accept_traffic`, fluvio-controlplane-metadata/src/partition/spec.rs:172-189: whether the
broker accepts records for partition `p` of a topic (produce_handler.rs:118-126). -/
def accepts : Replicas → Nat → Bool
  | .plain, _ => true
  | .home ps, p => match ps[p]? with | some x => x.2 | none => false
  | .remote _ target n, p => !target && p < n

/-! ## Facts -/

theorem linesFrom_line (cur l rest : Bytes) (h : (10 : UInt8) ∉ l) :
    linesFrom cur (l ++ 10 :: rest) = dropCr (cur ++ l) :: linesFrom [] rest := by
  induction l generalizing cur with
  | nil => simp [linesFrom]
  | cons c l ih =>
    simp only [List.mem_cons, not_or] at h
    rw [List.cons_append, linesFrom, if_neg (Ne.symm h.1), ih _ h.2, List.append_assoc]
    rfl

theorem linesFrom_last (cur l : Bytes) (h : (10 : UInt8) ∉ l) :
    linesFrom cur l = if cur ++ l = [] then [] else [cur ++ l] := by
  induction l generalizing cur with
  | nil => simp [linesFrom]
  | cons c l ih =>
    simp only [List.mem_cons, not_or] at h
    rw [linesFrom, if_neg (Ne.symm h.1), ih _ h.2, List.append_assoc]
    rfl

theorem dropCr_of {l : Bytes} (h : l.getLast? ≠ some 13) : dropCr l = l := if_neg h

/-- Every line ends with a line feed, or the last one, if it is not empty, does not. -/
theorem lines_of (ls : List Bytes) (h : ∀ l ∈ ls, (10 : UInt8) ∉ l ∧ l.getLast? ≠ some 13) (last : Bytes)
    (hl : (10 : UInt8) ∉ last) :
    lines (ls.flatMap (· ++ [10]) ++ last) = ls ++ if last = [] then [] else [last] := by
  unfold lines
  induction ls with
  | nil => rw [List.flatMap_nil, List.nil_append, linesFrom_last _ _ hl]; rfl
  | cons l ls ih =>
    have h' := h l (List.mem_cons_self ..)
    rw [List.flatMap_cons, List.append_assoc, List.append_assoc]
    have : [10] ++ (List.flatMap (· ++ [10]) ls ++ last) = (10 : UInt8) :: (List.flatMap (· ++ [10]) ls ++ last) := rfl
    rw [this, linesFrom_line _ _ _ h'.1, List.nil_append, dropCr_of h'.2,
      ih (fun x hx => h x (List.mem_cons_of_mem _ hx))]
    rfl

theorem splitOnce_sound {sep : Bytes} : ∀ {l k v : Bytes}, splitOnce sep l = some (k, v) →
    l = k ++ sep ++ v ∧ ∀ k' v', l = k' ++ sep ++ v' → k.length ≤ k'.length := by
  intro l
  induction l with
  | nil =>
    intro k v h
    rw [splitOnce] at h
    split at h
    · rename_i hp
      injection h with h
      injection h with h1 h2
      subst h1; subst h2
      have : sep = [] := by
        have := List.isPrefixOf_iff_prefix.mp hp
        exact List.prefix_nil.mp this
      subst this
      exact ⟨rfl, fun _ _ _ => Nat.zero_le _⟩
    · cases h
  | cons c rest ih =>
    intro k v h
    rw [splitOnce] at h
    split at h
    · rename_i hp
      injection h with h
      injection h with h1 h2
      subst h1; subst h2
      obtain ⟨t, ht⟩ := List.isPrefixOf_iff_prefix.mp hp
      refine ⟨?_, fun _ _ _ => Nat.zero_le _⟩
      rw [← ht, List.drop_left]
      rfl
    · rename_i hp
      obtain ⟨kv, h1, h2⟩ := Option.map_eq_some_iff.mp h
      injection h2 with h2 h3
      subst h2; subst h3
      obtain ⟨e1, e2⟩ := ih (k := kv.1) (v := kv.2) h1
      refine ⟨by rw [e1]; rfl, fun k' v' hk => ?_⟩
      cases k' with
      | nil =>
        exact absurd (List.isPrefixOf_iff_prefix.mpr ⟨v', by rw [hk]; rfl⟩) hp
      | cons c' k' =>
        simp only [List.cons_append, List.cons.injEq] at hk
        have := e2 k' v' hk.2
        simp only [List.length_cons]
        omega

theorem splitOnce_none {sep : Bytes} : ∀ {l : Bytes}, splitOnce sep l = none → ∀ k v, l ≠ k ++ sep ++ v := by
  intro l
  induction l with
  | nil =>
    intro h k v hk
    rw [splitOnce] at h
    split at h
    · cases h
    · rename_i hp
      have : sep = [] := by
        have := congrArg List.length hk
        simp only [List.length_nil, List.length_append] at this
        exact List.eq_nil_of_length_eq_zero (by omega)
      subst this
      exact hp rfl
  | cons c rest ih =>
    intro h k v hk
    rw [splitOnce] at h
    split at h
    · cases h
    · rename_i hp
      cases k with
      | nil => exact hp (List.isPrefixOf_iff_prefix.mpr ⟨v, by rw [hk]; rfl⟩)
      | cons c' k =>
        simp only [List.cons_append, List.cons.injEq] at hk
        exact ih (Option.map_eq_none_iff.mp h) k v hk.2

/-- What the loops hand over: a beginning of the records of the lines. -/
theorem fileLoop_prefix (o : Opts) (net : Net) : ∀ (ls : List Bytes) (acc : List Rec),
    (∃ rs, rs <+: ls.filterMap (lineRec o) ∧ (fileLoop o net acc ls).1 = acc ++ rs ∧
      ((fileLoop o net acc ls).2 = true → rs = ls.filterMap (lineRec o))) ∧
    ((∀ n, net.send n = true) → (fileLoop o net acc ls).2 = true) := by
  intro ls
  induction ls with
  | nil => intro acc; exact ⟨⟨[], List.nil_prefix, by simp [fileLoop], fun _ => rfl⟩, fun _ => rfl⟩
  | cons l ls ih =>
    intro acc
    rw [fileLoop]
    cases hl : lineRec o l with
    | none =>
      rw [List.filterMap_cons_none hl]
      exact ih acc
    | some r =>
      rw [List.filterMap_cons_some hl]
      dsimp only
      cases hs : net.send acc.length with
      | false =>
        exact ⟨⟨[], List.nil_prefix, (List.append_nil _).symm, fun h => by cases h⟩,
          fun h => by rw [h] at hs; cases hs⟩
      | true =>
        obtain ⟨⟨rs, h1, h2, h3⟩, h4⟩ := ih (acc ++ [r])
        refine ⟨⟨r :: rs, List.cons_prefix_cons.mpr ⟨rfl, h1⟩, ?_, fun h => ?_⟩, h4⟩
        · rw [if_pos rfl, h2, List.append_assoc]; rfl
        · rw [h3 h]

theorem stdinLoop_prefix (o : Opts) (net : Net) : ∀ (ls : List Bytes) (acc : List Rec),
    (∃ rs, rs <+: ls.filterMap (lineRec o) ∧ (stdinLoop o net acc ls).1 = acc ++ rs ∧
      ((stdinLoop o net acc ls).2 = true → rs = ls.filterMap (lineRec o) ∧
        (o.atMostOnce = false → ∀ n, acc.length ≤ n → n < acc.length + rs.length → net.ack n = true))) ∧
    ((∀ n, net.send n = true) → (∀ n, net.ack n = true) → (stdinLoop o net acc ls).2 = true) := by
  intro ls
  induction ls with
  | nil =>
    intro acc
    exact ⟨⟨[], List.nil_prefix, by simp [stdinLoop], fun _ => ⟨rfl, fun _ n h1 h2 => by
      simp only [List.length_nil] at h2; omega⟩⟩, fun _ _ => rfl⟩
  | cons l ls ih =>
    intro acc
    rw [stdinLoop]
    cases hl : lineRec o l with
    | none =>
      rw [List.filterMap_cons_none hl]
      exact ih acc
    | some r =>
      rw [List.filterMap_cons_some hl]
      dsimp only
      cases hs : net.send acc.length with
      | false =>
        exact ⟨⟨[], List.nil_prefix, (List.append_nil _).symm, fun h => by cases h⟩,
          fun h => by rw [h] at hs; cases hs⟩
      | true =>
        rw [if_pos rfl]
        cases ha : (o.atMostOnce || net.ack acc.length) with
        | false =>
          refine ⟨⟨[r], List.cons_prefix_cons.mpr ⟨rfl, List.nil_prefix⟩, rfl, fun h => by cases h⟩, fun _ h => ?_⟩
          rw [h, Bool.or_true] at ha; cases ha
        | true =>
          obtain ⟨⟨rs, h1, h2, h3⟩, h4⟩ := ih (acc ++ [r])
          refine ⟨⟨r :: rs, List.cons_prefix_cons.mpr ⟨rfl, h1⟩, ?_, fun h => ?_⟩, h4⟩
          · rw [if_pos rfl, h2, List.append_assoc]; rfl
          · obtain ⟨h5, h6⟩ := h3 h
            refine ⟨by rw [h5], fun ho n hn1 hn2 => ?_⟩
            rw [ho, Bool.false_or] at ha
            by_cases hn : n = acc.length
            · rw [hn]; exact ha
            · refine h6 ho n ?_ ?_ <;> simp only [List.length_append, List.length_cons, List.length_nil] at hn2 ⊢ <;> omega

end Verif.Cli.Produce
