import Verif.Connector.Secret
import Verif.Cli.Consume

/-!
# Settings of a connector for its consumer

Models `ConsumerPartitionConfig`, `OffsetConfig` (`crates/fluvio-connector-package/src/config/mod.rs:394-583`) as they
are written and read, and `consumer_stream_from_config`, `ensure_topic_exists` of `crates/fluvio-connector-common/src`.

Left out: smart modules, the client identifier, durations other than as numbers.
-/

namespace Verif.Connector

open Verif.Cli.Consume (Offset)

/-! ## Reading and writing -/

/-- `ConsumerPartitionConfig`, config/mod.rs:413-419. -/
inductive PartCfg
  | all
  | one (p : Nat)
  | many (ps : List Nat)
deriving DecidableEq, Repr

/-- `Serialize for ConsumerPartitionConfig`, config/mod.rs:479-496. -/
def PartCfg.ser : PartCfg → Y
  | .all => .str "all".toList
  | .one p => .int p
  | .many ps => .seq (ps.map fun (p : Nat) => .int p)

/-- A `u32`: other numbers and other values are refused. -/
def deU32 : Y → Option Nat
  | .int i => if 0 ≤ i ∧ i < 2 ^ 32 then some i.toNat else none
  | _ => none

/-- `PartitionConfigVisitor::visit_seq`, config/mod.rs:457-466. -/
def deSeq : List Y → Option (List Nat)
  | [] => some []
  | y :: ys =>
    match deU32 y with
    | none => none
    | some p => (deSeq ys).map (p :: ·)

/-- `Deserialize for ConsumerPartitionConfig`, config/mod.rs:421-477. -/
def PartCfg.de : Y → Option PartCfg
  | .str s => if s = "all".toList then some .all else none
  | .int i => (deU32 (.int i)).map .one
  | .seq l => (deSeq l).map .many
  | _ => none

/-- `OffsetConfig`, config/mod.rs:508-515. -/
inductive OffCfg
  | absolute (i : Int)
  | beginning
  | fromBeginning (n : Nat)
  | ending
  | fromEnd (n : Nat)
deriving DecidableEq, Repr

/-- `Serialize for OffsetConfig`, config/mod.rs:517-542. -/
def OffCfg.ser : OffCfg → Y
  | .absolute i => .map [("absolute".toList, .int i)]
  | .beginning => .str "beginning".toList
  | .fromBeginning n => .map [("from-beginning".toList, .int n)]
  | .ending => .str "end".toList
  | .fromEnd n => .map [("from-end".toList, .int n)]

/-- An `i64`. -/
def deI64 : Y → Option Int
  | .int i => if -2 ^ 63 ≤ i ∧ i < 2 ^ 63 then some i else none
  | _ => none

/-- `Deserialize for OffsetConfig`, config/mod.rs:544-593; more than one entry is an error (the rest of the map must be
empty when the visitor returns). -/
def OffCfg.de : Y → Option OffCfg
  | .str s =>
    if s = "beginning".toList then some .beginning
    else if s = "end".toList then some .ending
    else none
  | .map [(k, v)] =>
    if k = "absolute".toList then (deI64 v).map .absolute
    else if k = "from-beginning".toList then (deU32 v).map .fromBeginning
    else if k = "from-end".toList then (deU32 v).map .fromEnd
    else none
  | _ => none

/-! ## The consumer -/

/-- `OffsetStrategyConfig` and `OffsetManagementStrategy`. -/
inductive Strategy
  | none | manual | auto
deriving DecidableEq, Repr

/-- `ConsumerOffsetConfig`, config/mod.rs:498-506. -/
structure OffsetPart where
  start : Option OffCfg
  strategy : Strategy
  flush : Option Nat

/-- `ConsumerParameters`, config/mod.rs:279-296. -/
structure Params where
  partition : PartCfg
  maxBytes : Option Nat
  id : Option Text
  offset : Option OffsetPart

/-- `ConsumerConfigExt`, fluvio/src/consumer/config.rs:80-108, as far as it is set here. -/
structure Consumer where
  topic : Text
  partition : List Nat
  id : Option Text
  start : Offset
  strategy : Strategy
  flush : Nat
  maxBytes : Int
deriving DecidableEq, Repr

/-- The defaults of the builder, fluvio/src/consumer/config.rs:13, 102: ten seconds; the size of a fetch. -/
structure Defaults where
  flush : Nat
  maxBytes : Int

/-- `as i32` of a `u64`. -/
def asI32 (n : Nat) : Int := (n : Int).bmod (2 ^ 32)

/-- The start in `consumer_stream_from_config`, consumer.rs:46-53; `Offset::absolute` refuses negative numbers. -/
def startOf : OffCfg → Option Offset
  | .absolute i => if i < 0 then none else some (.absolute i.toNat)
  | .beginning => some (.fromBeginning 0)
  | .fromBeginning n => some (.fromBeginning n)
  | .ending => some (.fromEnd 0)
  | .fromEnd n => some (.fromEnd n)

/-- The partitions given to the builder, consumer.rs:57-67. -/
def partsOf : PartCfg → List Nat
  | .one p => [p]
  | .all => []
  | .many ps => ps

/-- The start, consumer.rs:31, 45-54: the end unless it is set. -/
def startFor : Option OffsetPart → Option Offset
  | none => some (.fromEnd 0)
  | some o => match o.start with | none => some (.fromEnd 0) | some s => startOf s

/-- The strategy, consumer.rs:36-41. -/
def strategyFor : Option OffsetPart → Strategy
  | none => .none
  | some o => o.strategy

/-- The flush period, consumer.rs:42-44. -/
def flushFor (df : Defaults) : Option OffsetPart → Nat
  | none => df.flush
  | some o => match o.flush with | none => df.flush | some f => f

/-- The size, consumer.rs:68-70. -/
def sizeFor (df : Defaults) : Option Nat → Int
  | none => df.maxBytes
  | some m => asI32 m

/-- `consumer_stream_from_config`, consumer.rs:15-80, up to the configuration of the consumer, with
`ConsumerConfigExtBuilder::build`, fluvio/src/consumer/config.rs:158-173. -/
def consumerOf (df : Defaults) (topic : Text) (c : Option Params) : Option Consumer :=
  let off := c.bind (·.offset)
  let id := c.bind (·.id)
  match startFor off with
  | none => none
  | some s =>
    if strategyFor off ≠ .none ∧ id = none then none
    else some ⟨topic, partsOf ((c.map (·.partition)).getD .all), id, s, strategyFor off, flushFor df off,
      sizeFor df (c.bind (·.maxBytes))⟩

/-- The partitions a consumer reads, fluvio/src/fluvio.rs:409-415, of a topic with `n` partitions. -/
def Consumer.reads (k : Consumer) (n : Nat) : List Nat := if k.partition = [] then List.range n else k.partition

/-! ## The topic -/

/-- `ensure_topic_exists`, lib.rs:45-69.  `topics`: what the server lists for this name, which may be more than the topic;
`create`: whether creating succeeds.  The topic created, if any, and the result.  `given`: the configuration of the
topic (version 0.2.0), `dflt`: `TopicSpec::new_computed(1, 1, Some(false))`. -/
def ensureTopic {Spec : Type} (topics : List Text) (create : Bool) (name : Text) (given : Option Spec) (dflt : Spec) :
    Option (Text × Spec) × Bool :=
  if topics.any (· == name) then (none, true) else (some (name, given.getD dflt), create)

/-! ## Facts -/

theorem deU32_int {p : Nat} (h : p < 2 ^ 32) : deU32 (.int p) = some p := by
  rw [deU32, if_pos ⟨by omega, by omega⟩]
  rfl

theorem deSeq_ser : ∀ ps : List Nat, (∀ p ∈ ps, p < 2 ^ 32) → deSeq (ps.map fun (p : Nat) => Y.int p) = some ps
  | [], _ => rfl
  | p :: ps, h => by
    rw [List.map_cons, deSeq, deU32_int (h p (List.mem_cons_self ..))]
    dsimp only
    rw [deSeq_ser ps fun q hq => h q (List.mem_cons_of_mem _ hq)]
    rfl

theorem asI32_of {n : Nat} (h : n < 2 ^ 31) : asI32 n = n := by
  unfold asI32
  rw [Int.bmod_def]
  omega

end Verif.Connector
