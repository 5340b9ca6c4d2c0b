import Verif.Cli.Produce

/-!
# C99 What is typed is what is sent

`fluvio produce` sends each line of its input as one record, in order, with its key, and reports success only if all of
them arrived; with `--raw` the whole input is one record.
-/

namespace Verif.Props

open Verif.Cli.Produce Verif.Wire

/-- Specification: the record for a line.  With a separator the key is what stands before its first occurrence. -/
def C99_Rec (o : Opts) (line : Bytes) (r : Rec) : Prop :=
  match o.sep with
  | none => r = (o.key, line)
  | some s => ∃ k v, r = (some k, v) ∧ line = k ++ s ++ v ∧ ∀ k' v', line = k' ++ s ++ v' → k.length ≤ k'.length

/-- Specification: a text made of lines; the last one may lack its line feed. -/
def C99_text (ls : List Bytes) (feed : Bool) : Bytes :=
  match ls.getLast? with
  | none => []
  | some l => ls.dropLast.flatMap (· ++ [10]) ++ l ++ if feed then [10] else []

/-- The source has the content `d`. -/
def C99_content : Src → Option Bytes
  | .file d => d
  | .stdin d => some d

theorem C99.lines_text (ls : List Bytes) (feed : Bool) (h : ∀ l ∈ ls, (10 : UInt8) ∉ l ∧ l.getLast? ≠ some 13)
    (hf : feed = false → ls.getLast? ≠ some []) : lines (C99_text ls feed) = ls := by
  unfold C99_text
  cases hl : ls.getLast? with
  | none => rw [List.getLast?_eq_none_iff.mp hl]; rfl
  | some l =>
    obtain ⟨pre, rfl⟩ := List.getLast?_eq_some_iff.mp hl
    dsimp only
    rw [List.dropLast_concat]
    cases feed with
    | true =>
      have := lines_of (pre ++ [l]) h [] (List.not_mem_nil)
      rw [List.flatMap_append] at this
      simpa using this
    | false =>
      have hne : l ≠ [] := fun he => hf rfl (by rw [hl, he])
      have := lines_of pre (fun x hx => h x (List.mem_append_left _ hx)) l (h l (by simp)).1
      rw [if_neg hne] at this
      simpa using this

theorem C99.lineRec_spec (o : Opts) (l : Bytes) (hs : ∀ s, o.sep = some s → ∃ k v, l = k ++ s ++ v) :
    ∃ r, lineRec o l = some r ∧ C99_Rec o l r := by
  unfold Cli.Produce.lineRec C99_Rec
  cases ho : o.sep with
  | none =>
    dsimp only
    cases hk : o.key with
    | none => exact ⟨_, rfl, rfl⟩
    | some k => exact ⟨_, rfl, rfl⟩
  | some s =>
    dsimp only
    cases hsp : splitOnce s l with
    | none =>
      obtain ⟨k, v, hl⟩ := hs s ho
      exact absurd hl (splitOnce_none hsp k v)
    | some kv =>
      obtain ⟨h1, h2⟩ := splitOnce_sound (k := kv.1) (v := kv.2) hsp
      exact ⟨_, rfl, kv.1, kv.2, rfl, h1, h2⟩

theorem C99.records (o : Opts) : ∀ ls : List Bytes, (∀ l ∈ ls, ∀ s, o.sep = some s → ∃ k v, l = k ++ s ++ v) →
    (ls.filterMap (lineRec o)).length = ls.length ∧
    ∀ (i : Nat) (r : Rec), (ls.filterMap (lineRec o))[i]? = some r → ∃ l, ls[i]? = some l ∧ C99_Rec o l r
  | [], _ => ⟨rfl, fun i r h => by simp at h⟩
  | l :: ls, h => by
    obtain ⟨r, hr, hR⟩ := C99.lineRec_spec o l (h l (List.mem_cons_self ..))
    obtain ⟨h1, h2⟩ := C99.records o ls fun x hx => h x (List.mem_cons_of_mem _ hx)
    rw [List.filterMap_cons_some hr]
    refine ⟨by simp [h1], fun i r' hr' => ?_⟩
    cases i with
    | zero =>
      simp only [List.getElem?_cons_zero, Option.some.injEq] at hr'
      subst hr'
      exact ⟨l, rfl, hR⟩
    | succ i =>
      rw [List.getElem?_cons_succ] at hr'
      rw [List.getElem?_cons_succ]
      exact h2 i r' hr'

/-- What `produce` does with lines. -/
theorem C99.produce_spec (valid : Bytes → Bool) (o : Opts) (net : Net) (src : Src) (d : Bytes) (hr : o.raw = false)
    (hd : C99_content src = some d) :
    (produce valid o net src).1 <+: ((lines d).takeWhile valid).filterMap (lineRec o) ∧
    ((produce valid o net src).2 = true →
      (produce valid o net src).1 = ((lines d).takeWhile valid).filterMap (lineRec o) ∧
      (o.atMostOnce = false → ∀ n, n < (produce valid o net src).1.length → net.ack n = true)) ∧
    ((∀ n, net.send n = true) → (∀ n, net.ack n = true) → net.flush = true → (produce valid o net src).2 = true) := by
  have key : ∀ p : List Rec × Bool, produceLines valid o net src = p →
      produce valid o net src = (p.1, p.2 && net.flush) := by
    intro p hp
    unfold Cli.Produce.produce
    rw [if_neg (by rw [hr]; exact Bool.false_ne_true), hp]
    obtain ⟨s, b⟩ := p
    cases b <;> rfl
  cases src with
  | file c =>
    have hc : c = some d := hd
    subst hc
    have hk := key _ rfl
    simp only [produceLines] at hk
    obtain ⟨⟨rs, h1, h2, h3⟩, h4⟩ := fileLoop_prefix o net ((lines d).takeWhile valid) []
    generalize fileLoop o net [] ((lines d).takeWhile valid) = q at hk h2 h3 h4
    obtain ⟨s, b⟩ := q
    dsimp only at h2 h3 h4
    rw [List.nil_append] at h2
    subst h2
    rw [hk]
    cases b with
    | false => exact ⟨h1, fun h => by simp at h, fun h => by cases h4 h⟩
    | true =>
      refine ⟨h1, fun h => ?_, fun _ ha hf => ?_⟩
      · simp only [Bool.and_eq_true, Bool.or_eq_true] at h
        refine ⟨h3 rfl, fun ho n hn => ?_⟩
        have := h.1
        rw [ho] at this
        simp only [Bool.false_eq_true, false_or, List.all_eq_true, List.mem_range] at this
        exact this n hn
      · simp [ha, hf]
  | stdin c =>
    have hc : c = d := by injection hd
    subst hc
    have hk := key _ rfl
    simp only [produceLines] at hk
    obtain ⟨⟨rs, h1, h2, h3⟩, h4⟩ := stdinLoop_prefix o net ((lines c).takeWhile valid) []
    generalize stdinLoop o net [] ((lines c).takeWhile valid) = q at hk h2 h3 h4
    obtain ⟨s, b⟩ := q
    dsimp only at h2 h3 h4
    rw [List.nil_append] at h2
    subst h2
    rw [hk]
    refine ⟨h1, fun h => ?_, fun hs ha hf => ?_⟩
    · simp only [Bool.and_eq_true] at h
      obtain ⟨h5, h6⟩ := h3 h.1
      exact ⟨h5, fun ho n hn => h6 ho n (Nat.zero_le _) (by simpa using hn)⟩
    · simp [h4 hs ha, hf]

/-- **C99, lines.**  For a text of lines that are UTF-8 (and contain the separator, if there is one): the records handed
to the producer are those of the lines from the first on; if the command reports success they are those of all lines,
and all were acknowledged unless the user asked for at most once; and it reports success if nothing fails. -/
theorem C99_lines_partial (valid : Bytes → Bool) (o : Opts) (net : Net) (src : Src) (ls : List Bytes) (feed : Bool)
    (hr : o.raw = false) (hsrc : C99_content src = some (C99_text ls feed))
    (hl : ∀ l ∈ ls, (10 : UInt8) ∉ l ∧ l.getLast? ≠ some 13) (hf : feed = false → ls.getLast? ≠ some [])
    (hv : ∀ l ∈ ls, valid l = true) (hs : ∀ l ∈ ls, ∀ s, o.sep = some s → ∃ k v, l = k ++ s ++ v) :
    (∀ (i : Nat) (r : Rec), (produce valid o net src).1[i]? = some r → ∃ l, ls[i]? = some l ∧ C99_Rec o l r) ∧
    ((produce valid o net src).2 = true → (produce valid o net src).1.length = ls.length ∧
      (o.atMostOnce = false → ∀ n, n < ls.length → net.ack n = true)) ∧
    ((∀ n, net.send n = true) → (∀ n, net.ack n = true) → net.flush = true → (produce valid o net src).2 = true) := by
  obtain ⟨h1, h2, h3⟩ := C99.produce_spec valid o net src _ hr hsrc
  have htw : ls.takeWhile valid = ls := by simpa using List.takeWhile_append_of_pos (l₂ := []) hv
  rw [C99.lines_text ls feed hl hf, htw] at h1 h2
  obtain ⟨h4, h5⟩ := C99.records o ls hs
  refine ⟨fun i r hi => h5 i r ?_, fun h => ?_, h3⟩
  · obtain ⟨t, ht⟩ := h1
    rw [← ht, List.getElem?_append_left (List.getElem?_eq_some_iff.mp hi).1]
    exact hi
  · obtain ⟨h6, h7⟩ := h2 h
    rw [h6, h4] at *
    exact ⟨rfl, h7⟩

/-- **C99, raw.**  With `--raw` a readable input is one record, unchanged, and with the key; success means that it was
sent and, unless asked for at most once, acknowledged. -/
theorem C99_raw_partial (valid : Bytes → Bool) (o : Opts) (net : Net) (src : Src) (d : Bytes) (hr : o.raw = true)
    (hsrc : C99_content src = some d) :
    ((produce valid o net src).2 = true → (produce valid o net src).1 = [(o.key, d)] ∧
      (o.atMostOnce = false → net.ack 0 = true)) ∧
    (net.send 0 = true → net.ack 0 = true → net.flush = true → (produce valid o net src).2 = true) := by
  have hrec : rawRec o src = (o.key, d) := by
    cases src with
    | file c => have : c = some d := hsrc; subst this; rfl
    | stdin c => have : c = d := by injection hsrc
                 subst this; rfl
  unfold Cli.Produce.produce
  rw [if_pos hr, produceRaw, hrec]
  cases net.send 0 with
  | false => exact ⟨fun h => (nomatch h), fun h => (nomatch h)⟩
  | true =>
    rw [if_pos rfl]
    cases hb : (o.atMostOnce || net.ack 0) with
    | false =>
      refine ⟨fun h => (nomatch h), fun _ h => ?_⟩
      rw [h, Bool.or_true] at hb; cases hb
    | true =>
      refine ⟨fun _ => ⟨rfl, fun ho => ?_⟩, fun _ _ h => h⟩
      rw [ho, Bool.false_or] at hb
      exact hb

/-- Violation: a line that is not UTF-8 ends the input.  The lines after it are not sent, and the command reports success
(`map_while(|it| it.ok())`, produce/mod.rs:372). -/
theorem C99_violated_not_text (valid : Bytes → Bool) (net : Net) (ls : List Bytes) (bad : Bytes) (rest : List Bytes)
    (hl : ∀ l ∈ ls ++ bad :: rest, (10 : UInt8) ∉ l ∧ l.getLast? ≠ some 13) (hv : ∀ l ∈ ls, valid l = true)
    (hb : valid bad = false) (h1 : ∀ n, net.send n = true) (h2 : ∀ n, net.ack n = true) (h3 : net.flush = true) :
    produce valid ⟨none, none, false, false⟩ net (.file (some (C99_text (ls ++ bad :: rest) true)))
      = (ls.map fun l => (none, l), true) := by
  obtain ⟨_, h5, h6⟩ := C99.produce_spec valid ⟨none, none, false, false⟩ net
    (.file (some (C99_text (ls ++ bad :: rest) true))) _ rfl rfl
  rw [C99.lines_text _ true hl (fun h => by cases h)] at h5
  have ht : (ls ++ bad :: rest).takeWhile valid = ls := by
    rw [List.takeWhile_append_of_pos hv, List.takeWhile_cons_of_neg (by rw [hb]; exact Bool.false_ne_true),
      List.append_nil]
  have hm : ∀ ls : List Bytes, ls.filterMap (lineRec ⟨none, none, false, false⟩) = ls.map fun l => (none, l) := by
    intro ls
    exact congrFun (List.filterMap_eq_map (f := fun l : Bytes => ((none, l) : Rec))) ls
  rw [ht, hm] at h5
  exact Prod.ext (h5 (h6 h1 h2 h3)).1 (h6 h1 h2 h3)

/-- Violation: a line without the separator is skipped, and the command reports success. -/
theorem C99_violated_separator (valid : Bytes → Bool) (net : Net) (s l : Bytes) (hn : (10 : UInt8) ∉ l)
    (hcr : l.getLast? ≠ some 13) (hs : ∀ k v, l ≠ k ++ s ++ v) (h1 : ∀ n, net.send n = true)
    (h2 : ∀ n, net.ack n = true) (h3 : net.flush = true) :
    produce valid ⟨none, some s, false, false⟩ net (.stdin (l ++ [10])) = ([], true) := by
  obtain ⟨h4, _, h6⟩ := C99.produce_spec valid ⟨none, some s, false, false⟩ net (.stdin (l ++ [10])) _ rfl rfl
  have hl : lines (l ++ [10]) = [l] := by
    have := C99.lines_text [l] true (by simpa using ⟨hn, hcr⟩) (fun h => by cases h)
    simpa [C99_text] using this
  have hr : ∀ x ∈ [l].takeWhile valid, lineRec ⟨none, some s, false, false⟩ x = none := by
    intro x hx
    have hx := (List.takeWhile_prefix valid).subset hx
    rw [List.mem_singleton] at hx
    subst hx
    simp only [lineRec]
    cases hsp : splitOnce s x with
    | none => rfl
    | some kv => exact absurd (splitOnce_sound (k := kv.1) (v := kv.2) hsp).1 (hs _ _)
  rw [hl, List.filterMap_eq_nil_iff.mpr hr] at h4
  exact Prod.ext (List.prefix_nil.mp h4) (h6 h1 h2 h3)

/-- Violation: `--raw` with a file that cannot be read sends an empty record without the key, and reports success
(`unwrap_or_default`). -/
theorem C99_violated_raw_unreadable (valid : Bytes → Bool) (o : Opts) (net : Net) (hr : o.raw = true)
    (h1 : net.send 0 = true) (h2 : net.ack 0 = true) (h3 : net.flush = true) :
    produce valid o net (.file none) = ([(none, [])], true) := by
  unfold Cli.Produce.produce
  rw [if_pos hr, produceRaw, h1, h2, if_pos rfl, Bool.or_true]
  dsimp only [rawRec]
  rw [h3]

/-! ## `--mirror` -/

/-- `--mirror` at home, if no other topic is a mirror: the partition of the topic for that remote cluster, and the broker
accepts records for it. -/
theorem C99_mirror_partial (m name : Text) (ps : List (Text × Bool)) (topics : List (Text × Replicas))
    (ho : ∀ t ∈ topics, t ≠ (name, .home ps) → t.2 = .plain) (p : Nat)
    (h : mirrorPartition m topics = some p) :
    ps[p]? = some (m, true) ∧ accepts (.home ps) p = true := by
  obtain ⟨t, hm, hp⟩ := List.exists_of_findSome?_eq_some h
  have : t.2 = .home ps := by
    by_cases he : t = (name, .home ps)
    · rw [he]
    · rw [ho t hm he] at hp; cases hp
  rw [this] at hp
  simp only [mirrorOf] at hp
  have hg : ps[p]? = some (m, true) := by
    obtain ⟨hlt, h1, _⟩ := List.findIdx?_eq_some_iff_getElem.mp hp
    rw [List.getElem?_eq_getElem hlt]
    simp only [Bool.and_eq_true, decide_eq_true_eq] at h1
    exact congrArg some (Prod.ext h1.1 h1.2)
  exact ⟨hg, by simp [accepts, hg]⟩

/-- Violation: the partition is looked for in all topics, whatever topic the records are for.  Producing to `b` for the
remote cluster `m`, records go to the partition of another cluster. -/
theorem C99_violated_mirror_topic (m x a b : Text) :
    mirrorPartition m [(a, .home [(m, true)]), (b, .home [(x, true), (m, true)])] = some 0 := by
  simp [mirrorPartition, mirrorOf]

/-- Violation: on a remote cluster `--mirror` finds just the partitions whose brokers refuse records, and fails if the
topic accepts them. -/
theorem C99_violated_mirror_remote (m name c : Text) (target : Bool) (n : Nat) :
    (∀ p, mirrorPartition m [(name, .remote c target n)] = some p → accepts (.remote c target n) p = false) ∧
    (target = false → mirrorPartition m [(name, .remote c target n)] = none) := by
  cases target <;> simp [mirrorPartition, mirrorOf, accepts]

/-- Without `--raw`, a file that cannot be read is an error. -/
theorem C99_unreadable (valid : Bytes → Bool) (o : Opts) (net : Net) (h : o.raw = false) :
    produce valid o net (.file none) = ([], false) := by
  unfold produce
  rw [if_neg (by rw [h]; exact Bool.false_ne_true)]
  rfl

/-! ## The hypotheses can be met -/

def C99.net : Net := ⟨fun _ => true, fun _ => true, true⟩

/-- `k=a` and `l=b=c` with the separator `=`. -/
example : produce (fun l => l.all (· < 128)) ⟨none, some [61], false, false⟩ C99.net
    (.file (some (C99_text [[107, 61, 97], [108, 61, 98, 61, 99]] true)))
    = ([(some [107], [97]), (some [108], [98, 61, 99])], true) := by
  decide +kernel

example : produce (fun l => l.all (· < 128)) ⟨some [1], none, false, false⟩ ⟨fun _ => true, (· < 1), true⟩
    (.stdin (C99_text [[97], [], [98]] false)) = ([(some [1], [97]), (some [1], [])], false) := by
  decide +kernel

/-- The second of three lines is not ASCII, hence for this `valid` no text. -/
example : produce (fun l => l.all (· < 128)) ⟨none, none, false, false⟩ C99.net
    (.file (some (C99_text [[97], [200], [98]] true))) = ([(none, [97])], true) := by
  decide +kernel

example : ∀ k v : Bytes, ([97, 98] : Bytes) ≠ k ++ [61] ++ v := by
  intro k v h
  have : (61 : UInt8) ∈ ([97, 98] : Bytes) := by rw [h]; simp
  revert this
  decide

example : mirrorPartition ['m'] [(['a'], .plain), (['b'], .home [(['x'], true), (['m'], true)])] = some 1 := by
  decide +kernel

end Verif.Props
