import Verif.Connector.Consumer

/-!
# C102 A connector consumes what its configuration says

The settings of a connector for its consumer are read as they were written; the consumer gets the partitions, the start,
the consumer identifier, the strategy, the flush period and the size that are set, and defaults otherwise.
-/

namespace Verif.Props

open Verif.Connector
open Verif.Cli.Consume (Offset)

/-! ## Reading and writing -/

/-- Partitions are read as they were written. -/
theorem C102_partition_roundtrip (p : PartCfg)
    (h : match p with | .all => True | .one n => n < 2 ^ 32 | .many ns => ∀ n ∈ ns, n < 2 ^ 32) :
    PartCfg.de p.ser = some p := by
  cases p with
  | all => rfl
  | one n => show (deU32 (.int n)).map PartCfg.one = _; rw [deU32_int h]; rfl
  | many ns => show (deSeq _).map PartCfg.many = _; rw [deSeq_ser ns h]; rfl

/-- Specification: what a value for partitions means. -/
inductive C102_Parts : Y → PartCfg → Prop
  | all : C102_Parts (.str "all".toList) .all
  | one (n : Nat) : n < 2 ^ 32 → C102_Parts (.int n) (.one n)
  | many (ns : List Nat) : (∀ n ∈ ns, n < 2 ^ 32) → C102_Parts (.seq (ns.map fun (n : Nat) => .int n)) (.many ns)

theorem C102.deU32_spec {y : Y} {n : Nat} (h : deU32 y = some n) : y = .int n ∧ n < 2 ^ 32 := by
  cases y with
  | int i =>
    rw [deU32] at h
    split at h
    · rename_i hi
      injection h with h
      subst h
      exact ⟨by rw [Int.toNat_of_nonneg hi.1], by omega⟩
    · cases h
  | str _ => cases h
  | seq _ => cases h
  | map _ => cases h
  | tagged _ _ => cases h

theorem C102.deSeq_spec : ∀ {l : List Y} {ns : List Nat}, deSeq l = some ns →
    l = (ns.map fun (n : Nat) => Y.int n) ∧ ∀ n ∈ ns, n < 2 ^ 32
  | [], ns, h => by injection h with h; subst h; exact ⟨rfl, fun _ h => absurd h List.not_mem_nil⟩
  | y :: l, ns, h => by
    rw [deSeq] at h
    cases hy : deU32 y with
    | none => rw [hy] at h; cases h
    | some p =>
      rw [hy] at h
      obtain ⟨ms, h1, rfl⟩ := Option.map_eq_some_iff.mp h
      obtain ⟨e1, e2⟩ := C102.deU32_spec hy
      obtain ⟨e3, e4⟩ := C102.deSeq_spec h1
      refine ⟨by rw [e1, e3]; rfl, fun n hn => ?_⟩
      rcases List.mem_cons.mp hn with rfl | hn
      · exact e2
      · exact e4 n hn

/-- Exactly the number of a partition, a sequence of such numbers and the word `all` are accepted. -/
theorem C102_partition (y : Y) (p : PartCfg) : PartCfg.de y = some p ↔ C102_Parts y p := by
  constructor
  · intro h
    cases y with
    | int i =>
      obtain ⟨n, h1, rfl⟩ := Option.map_eq_some_iff.mp (show (deU32 (.int i)).map PartCfg.one = some p from h)
      obtain ⟨e1, e2⟩ := C102.deU32_spec h1
      rw [e1]
      exact .one n e2
    | str s =>
      rw [PartCfg.de] at h
      split at h
      · rename_i hs
        injection h with h
        subst h; subst hs
        exact .all
      · cases h
    | seq l =>
      obtain ⟨ns, h1, rfl⟩ := Option.map_eq_some_iff.mp (show (deSeq l).map PartCfg.many = some p from h)
      obtain ⟨e1, e2⟩ := C102.deSeq_spec h1
      rw [e1]
      exact .many ns e2
    | map _ => cases h
    | tagged _ _ => cases h
  · intro h
    cases h with
    | all => rfl
    | one n hn => exact C102_partition_roundtrip (.one n) hn
    | many ns hn => exact C102_partition_roundtrip (.many ns) hn

example : C102_Parts (.seq [.int 0, .int 3]) (.many [0, 3]) := .many [0, 3] (by decide)

/-- Starts are read as they were written. -/
theorem C102_start_roundtrip (o : OffCfg)
    (h : match o with
      | .absolute i => -2 ^ 63 ≤ i ∧ i < 2 ^ 63
      | .fromBeginning n | .fromEnd n => n < 2 ^ 32
      | .beginning | .ending => True) : OffCfg.de o.ser = some o := by
  cases o with
  | absolute i =>
    show (deI64 (.int i)).map OffCfg.absolute = _
    rw [deI64, if_pos h]; rfl
  | beginning => rfl
  | fromBeginning n => show (deU32 (.int n)).map OffCfg.fromBeginning = _; rw [deU32_int h]; rfl
  | ending => rfl
  | fromEnd n => show (deU32 (.int n)).map OffCfg.fromEnd = _; rw [deU32_int h]; rfl

/-! ## The consumer -/

/-- Specification: the position in the partition that a start means, if the log is from `lo` to `hi`. -/
def C102_position (lo hi : Int) : OffCfg → Int
  | .absolute i => i
  | .beginning => lo
  | .fromBeginning n => lo + n
  | .ending => hi
  | .fromEnd n => hi - n

/-- The position that an offset of the client means (`fluvio/src/offset.rs`, see C31), within the log. -/
def C102_at (lo hi : Int) : Offset → Int
  | .fromBeginning n => lo + n
  | .fromEnd n => hi - n
  | .absolute n => n

/-- What the settings say; sizes up to 2 GiB. -/
structure C102_Follows (df : Defaults) (topic : Text) (c : Params) (k : Consumer) : Prop where
  topic : k.topic = topic
  id : k.id = c.id
  all : c.partition = .all → ∀ n, k.reads n = List.range n
  one : ∀ p, c.partition = .one p → ∀ n, k.reads n = [p]
  many : ∀ ps, c.partition = .many ps → ps ≠ [] → ∀ n, k.reads n = ps
  start : ∀ o s, c.offset = some o → o.start = some s → ∀ lo hi, C102_at lo hi k.start = C102_position lo hi s
  startDefault : (∀ o s, c.offset = some o → o.start ≠ some s) → ∀ lo hi, C102_at lo hi k.start = hi
  strategy : ∀ o, c.offset = some o → k.strategy = o.strategy
  strategyDefault : c.offset = none → k.strategy = .none
  flush : ∀ o f, c.offset = some o → o.flush = some f → k.flush = f
  flushDefault : (∀ o f, c.offset = some o → o.flush ≠ some f) → k.flush = df.flush
  size : ∀ m, c.maxBytes = some m → m < 2 ^ 31 → k.maxBytes = m
  sizeDefault : c.maxBytes = none → k.maxBytes = df.maxBytes

theorem C102.consumerOf_spec {df : Defaults} {topic : Text} {c : Params} {k : Consumer}
    (h : consumerOf df topic (some c) = some k) :
    ∃ s, startFor c.offset = some s ∧
      k = ⟨topic, partsOf c.partition, c.id, s, strategyFor c.offset, flushFor df c.offset, sizeFor df c.maxBytes⟩ := by
  unfold consumerOf at h
  dsimp only [Option.bind_some, Option.map_some, Option.getD_some] at h
  split at h
  · cases h
  · rename_i s hs
    split at h
    · cases h
    · injection h with h
      exact ⟨s, hs, h.symm⟩

/-- The settings get to the consumer.  Partitions: a sequence of none (`C102_violated_none`) is left out; sizes up to
2 GiB, the rest: `C102_violated_size`. -/
theorem C102_settings_partial (df : Defaults) (topic : Text) (c : Params) (k : Consumer)
    (h : consumerOf df topic (some c) = some k) : C102_Follows df topic c k := by
  obtain ⟨s, hs, rfl⟩ := C102.consumerOf_spec h
  clear h
  obtain ⟨part, mb, id, off⟩ := c
  dsimp only at hs ⊢
  have hstart : ∀ s' t lo hi, startOf s' = some t → C102_at lo hi t = C102_position lo hi s' := by
    intro s' t lo hi hst
    cases s' with
    | absolute i =>
      rw [startOf] at hst
      split at hst
      · cases hst
      · injection hst with hst
        subst hst
        show ((i.toNat : Nat) : Int) = i
        omega
    | beginning => injection hst with hst; subst hst; show lo + ((0 : Nat) : Int) = lo; omega
    | fromBeginning n => injection hst with hst; subst hst; rfl
    | ending => injection hst with hst; subst hst; show hi - ((0 : Nat) : Int) = hi; omega
    | fromEnd n => injection hst with hst; subst hst; rfl
  have h0 : ∀ lo hi, C102_at lo hi (.fromEnd 0) = hi := by
    intro lo hi; show hi - ((0 : Nat) : Int) = hi; omega
  constructor
  case topic => rfl
  case id => rfl
  case all => intro hp n; dsimp only at hp; subst hp; rfl
  case one => intro p hp n; dsimp only at hp; subst hp; rfl
  case many => intro ps hp hne n; dsimp only at hp; subst hp; exact if_neg hne
  case start =>
    intro o s' ho hos lo hi
    dsimp only at ho
    subst ho
    rw [startFor, hos] at hs
    exact hstart s' s lo hi hs
  case startDefault =>
    intro hd lo hi
    cases off with
    | none => injection hs with hs; subst hs; exact h0 lo hi
    | some o =>
      rw [startFor] at hs
      cases ho : o.start with
      | none => rw [ho] at hs; injection hs with hs; subst hs; exact h0 lo hi
      | some s' => exact absurd ho (hd o s' rfl)
  case strategy => intro o ho; dsimp only at ho; subst ho; rfl
  case strategyDefault => intro ho; dsimp only at ho; subst ho; rfl
  case flush =>
    intro o f ho hf
    dsimp only at ho
    subst ho
    show flushFor df (some o) = f
    rw [flushFor, hf]
  case flushDefault =>
    intro hd
    cases off with
    | none => rfl
    | some o =>
      cases hf : o.flush with
      | none => show flushFor df (some o) = _; rw [flushFor, hf]
      | some f => exact absurd hf (hd o f rfl)
  case size => intro m hm hlt; dsimp only at hm; subst hm; dsimp only; rw [sizeFor, asI32_of hlt]
  case sizeDefault => intro hm; dsimp only at hm; subst hm; rfl

/-- A connector is refused exactly if it starts at a negative offset, or saves offsets without a consumer identifier. -/
theorem C102_refused (df : Defaults) (topic : Text) (c : Params) :
    consumerOf df topic (some c) = none ↔
      (∃ o i, c.offset = some o ∧ o.start = some (.absolute i) ∧ i < 0) ∨
      (c.id = none ∧ ∃ o, c.offset = some o ∧ o.strategy ≠ .none) := by
  obtain ⟨part, mb, id, off⟩ := c
  unfold consumerOf
  dsimp only [Option.bind_some, Option.map_some, Option.getD_some]
  cases off with
  | none => simp [startFor, strategyFor]
  | some o =>
    obtain ⟨st, sg, fl⟩ := o
    dsimp only [startFor, strategyFor]
    cases st with
    | none =>
      dsimp only
      by_cases hs : sg = .none <;> by_cases hi : id = none <;> simp [hs, hi]
    | some s =>
      cases s with
      | absolute i =>
        dsimp only [startOf]
        by_cases hlt : i < 0
        · simp [hlt]
        · by_cases hs : sg = .none <;> by_cases hi : id = none <;> simp [hs, hi, hlt]
      | beginning => by_cases hs : sg = .none <;> by_cases hi : id = none <;> simp [hs, hi, startOf]
      | fromBeginning n => by_cases hs : sg = .none <;> by_cases hi : id = none <;> simp [hs, hi, startOf]
      | ending => by_cases hs : sg = .none <;> by_cases hi : id = none <;> simp [hs, hi, startOf]
      | fromEnd n => by_cases hs : sg = .none <;> by_cases hi : id = none <;> simp [hs, hi, startOf]

/-- Without settings a connector reads all partitions from their ends and saves no offsets. -/
theorem C102_defaults (df : Defaults) (topic : Text) :
    ∃ k, consumerOf df topic none = some k ∧ k.topic = topic ∧ (∀ n, k.reads n = List.range n) ∧ k.id = none ∧
      (∀ lo hi, C102_at lo hi k.start = hi) ∧ k.strategy = .none ∧ k.flush = df.flush ∧ k.maxBytes = df.maxBytes :=
  ⟨_, rfl, rfl, fun _ => rfl, rfl, fun lo hi => by show hi - ((0 : Nat) : Int) = hi; omega, rfl, rfl, rfl⟩

example : (consumerOf ⟨10, 1000⟩ "t".toList (some ⟨.many [1, 2], some 500, some "c".toList,
    some ⟨some (.fromEnd 3), .auto, none⟩⟩)) =
    some ⟨"t".toList, [1, 2], some "c".toList, .fromEnd 3, .auto, 10, 500⟩ := by decide +kernel

/-- **Violation**: an empty sequence of partitions means all of them. -/
theorem C102_violated_none (df : Defaults) (topic : Text) (n : Nat) :
    ∃ k, consumerOf df topic (some ⟨.many [], none, none, none⟩) = some k ∧ k.reads n = List.range n :=
  ⟨_, rfl, rfl⟩

/-- **Violation**: a partition named twice is read twice, so that its records are consumed twice. -/
theorem C102_violated_twice (df : Defaults) (topic : Text) (p n : Nat) :
    ∃ k, consumerOf df topic (some ⟨.many [p, p], none, none, none⟩) = some k ∧ k.reads n = [p, p] :=
  ⟨_, rfl, rfl⟩

/-- **Violation**: sizes of 2 GiB and more are cut to 32 bits (`as i32`): 3 GiB is negative, 4 GiB and one byte is one. -/
theorem C102_violated_size (df : Defaults) (topic : Text) :
    (∃ k, consumerOf df topic (some ⟨.all, some (3 * 2 ^ 30), none, none⟩) = some k ∧ k.maxBytes = -2 ^ 30) ∧
    (∃ k, consumerOf df topic (some ⟨.all, some (2 ^ 32 + 1), none, none⟩) = some k ∧ k.maxBytes = 1) :=
  by
  refine ⟨⟨_, rfl, ?_⟩, ⟨_, rfl, ?_⟩⟩ <;> dsimp only [Option.bind_some] <;> rw [sizeFor] <;> decide +kernel

/-! ## The topic -/

/-- A topic is created exactly if the server has none of that name, as the configuration of the connector says; the
connector goes on only if there is one then. -/
theorem C102_topic {Spec : Type} (topics : List Text) (create : Bool) (name : Text) (given : Option Spec) (dflt : Spec) :
    ((ensureTopic topics create name given dflt).1 = none ↔ name ∈ topics) ∧
    (∀ x, (ensureTopic topics create name given dflt).1 = some x →
      x.1 = name ∧ (∀ s, given = some s → x.2 = s) ∧ (given = none → x.2 = dflt)) ∧
    ((ensureTopic topics create name given dflt).2 = true ↔ name ∈ topics ∨ create = true) := by
  unfold ensureTopic
  have hany : topics.any (· == name) = true ↔ name ∈ topics := by
    rw [List.any_eq_true]
    exact ⟨fun ⟨x, h1, h2⟩ => by rw [beq_iff_eq] at h2; subst h2; exact h1, fun h => ⟨name, h, by simp⟩⟩
  by_cases h : name ∈ topics
  · rw [if_pos (hany.mpr h)]
    exact ⟨by simp [h], fun x hx => (by cases hx), by simp [h]⟩
  · rw [if_neg fun h' => h (hany.mp h')]
    refine ⟨by simp [h], fun x hx => ?_, by simp [h]⟩
    injection hx with hx
    subst hx
    exact ⟨rfl, fun s hs => by subst hs; rfl, fun hs => by subst hs; rfl⟩

example : ensureTopic ["ab".toList] true "a".toList none 7 = (some ("a".toList, 7), true) := by decide +kernel

end Verif.Props
