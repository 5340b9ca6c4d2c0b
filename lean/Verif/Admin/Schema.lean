import Verif.Wire.Universe

/-!
# The administrative objects and requests as protocol types

(`fluvio-controlplane-metadata/src/*/spec.rs`, `fluvio-sc-schema/src/objects/*.rs`)

Structs are nests of pairs in the order of their fields, enums nests of sums in the order of their
tags.  Version numbers of fields are those of the attributes.
-/

namespace Verif.Admin.Schema
open Verif.Wire

/-- The format of a type in each version. -/
abbrev Fmt (α : Type) : Type := Int → Codec α

abbrev U16 := BitVec (8 * 2)
abbrev U32 := BitVec (8 * 4)
abbrev U64 := BitVec (8 * 8)

/-- The kinds of objects, one for each `Spec` implementation that is used in administrative requests
(`MirroringConnect` is not). -/
inductive Kind
  | topic | spu | customSpu | smartModule | partition | spuGroup | tableFormat | mirror
deriving DecidableEq, Repr

/-- `Spec::LABEL` — fluvio-controlplane-metadata/src/{topic,spu,smartmodule,partition,spg,tableformat,
mirror}/mod.rs (topic 25, spu 20 and 84, smartmodule 24, partition 21, spg 20, tableformat 17,
mirror 20). -/
def Kind.label : Kind → String
  | .topic => "Topic"
  | .spu => "SPU"
  | .customSpu => "CustomSpu"
  | .smartModule => "SmartModule"
  | .partition => "Partition"
  | .spuGroup => "SpuGroup"
  | .tableFormat => "TableFormat"
  | .mirror => "Mirror"

/-! ## Topics -/

abbrev Enum1 := Unit ⊕ Empty
abbrev Enum2 := Unit ⊕ Enum1
abbrev Enum3 := Unit ⊕ Enum2
abbrev Enum6 := Unit ⊕ Unit ⊕ Unit ⊕ Enum3

/-- Enums of one, two and three variants without fields and with these tags. -/
def enum1T (a : BitVec (8 * 1)) : Ty Enum1 := .enumCons 1 a .unit (.enumNil 1)

def enum2T (a b : BitVec (8 * 1)) : Ty Enum2 := .enumCons 1 a .unit (enum1T b)
def enum3T (a b c : BitVec (8 * 1)) : Ty Enum3 := .enumCons 1 a .unit (enum2T b c)

/-- `CompressionAlgorithm` — topic/spec.rs:996-1010. -/
def compressionT : Ty Enum6 :=
  .enumCons 1 0#8 .unit (.enumCons 1 1#8 .unit (.enumCons 1 2#8 .unit (enum3T 3#8 4#8 5#8)))

/-- the default, `Any` — topic/spec.rs:1005-1007 -/
def compressionAny : Enum6 := .inr (.inr (.inr (.inr (.inl ()))))

abbrev PartitionMirror := (String × String × U32 × String × Bool) ⊕ ((String × String × Bool) ⊕ Empty)

/-- `PartitionMirrorConfig` with `RemotePartitionConfig` and `HomePartitionConfig` —
partition/spec.rs:121-133, 201-245. -/
def partitionMirrorT : Ty PartitionMirror :=
  .enumCons 1 0#8
    (.pair .string (.pair .string (.pair (.int 4) (.pair .string (.field 18 none .bool false)))))
    (.enumCons 1 1#8 (.pair .string (.pair .string (.field 18 none .bool false))) (.enumNil 1))

abbrev PartitionMap := U32 × List U32 × Option PartitionMirror

/-- `PartitionMap` — topic/spec.rs:599-614. -/
def partitionMapT : Ty PartitionMap :=
  .pair (.int 4) (.pair (.vec (.int 4)) (.field 14 none (.option partitionMirrorT) none))

abbrev TopicMirror :=
  (String × List (U32 × String × String) × Bool) ⊕ ((List (String × String × Bool) × Bool) ⊕ Empty)

/-- `MirrorConfig` with `RemoteMirrorConfig` and `HomeMirrorConfig` — topic/spec.rs:616-627, 698-706,
797-812, 877-902. -/
def topicMirrorT : Ty TopicMirror :=
  .enumCons 1 0#8
    (.pair .string (.pair (.vec (.pair (.int 4) (.pair .string .string))) (.field 18 none .bool false)))
    (.enumCons 1 1#8
      (.pair (.vec (.pair .string (.pair .string (.field 18 none .bool false))))
        (.field 18 none .bool false))
      (.enumNil 1))

abbrev Replicas := List PartitionMap ⊕ ((U32 × U32 × Bool) ⊕ (TopicMirror ⊕ Empty))

/-- `ReplicaSpec` — topic/spec.rs:196-212, 359-375, 414-420.  The macro ignores the `min_version` of
the variant `Mirror`. -/
def replicasT : Ty Replicas :=
  .enumCons 1 0#8 (.vec partitionMapT)
    (.enumCons 1 1#8 (.pair (.int 4) (.pair (.int 4) .bool))
      (.enumCons 1 2#8 topicMirrorT (.enumNil 1)))

abbrev Dedup := (U64 × Option (BitVec 64 × BitVec 32)) × (String × List (String × String))

/-- `Deduplication` — topic/deduplication.rs:6-65. -/
def dedupT : Ty Dedup :=
  .pair (.pair (.int 8) (.option .duration))
    (.pair .string (.map (fun a b => decide (a < b)) .string .string))

abbrev TopicRest :=
  Option (U32 ⊕ Empty) × Option (Option U32 × Option U64) × Enum6 × Option Dedup × Bool
abbrev Topic := Replicas × TopicRest

/-- `TopicSpec` — topic/spec.rs:18-42, 941-988. -/
def topicT : Ty Topic :=
  .pair replicasT
    (.pair (.field 3 none (.option (.enumCons 1 0#8 (.int 4) (.enumNil 1))) none)
      (.pair (.field 4 none (.option (.pair (.option (.int 4)) (.option (.int 8)))) none)
        (.pair (.field 6 none compressionT compressionAny)
          (.pair (.field 12 none (.option dedupT) none) (.field 13 none .bool false)))))

/-! ## SPUs and groups -/

abbrev Endpoint := U16 × String × Enum2
abbrev CustomSpu :=
  U32 × (U16 × List (Option String × Option String) × Enum2) × Endpoint × Option String ×
    Option Endpoint

/-- `Endpoint` — spu/spec.rs:265-275, 335-343. -/
def endpointT : Ty Endpoint := .pair (.int 2) (.pair .string (enum2T 0#8 1#8))

/-- `CustomSpuSpec` — spu/spec.rs:128-142, 176-186, 238-243. -/
def customSpuT : Ty CustomSpu :=
  .pair (.int 4)
    (.pair (.pair (.int 2)
        (.pair (.vec (.pair (.option .string) (.option .string))) (enum2T 0#8 1#8)))
      (.pair endpointT (.pair (.option .string) (.option endpointT))))

abbrev SpuGroup :=
  U16 × U32 × Option String × Option (Option U16) × Option (Option String × Option String) ×
    List (String × String)

/-- `SpuGroupSpec` — spg/spec.rs:6-35, 47-66, 88-97. -/
def spuGroupT : Ty SpuGroup :=
  .pair (.int 2) (.pair (.int 4) (.pair (.option .string) (.pair (.option (.option (.int 2)))
    (.pair (.option (.pair (.option .string) (.option .string))) (.vec (.pair .string .string))))))

/-! ## Table formats and mirrors -/

abbrev Column :=
  Option String × Option String × Option Enum3 × String × Option String × Option Bool × Option Bool ×
    Option Enum3 × Option Enum3
abbrev TableFormat := String × Option Enum1 × Option (List Column) × Option String

/-- `TableFormatSpec` — tableformat/spec.rs:5-17, 39-86, 132-144. -/
def tableFormatT : Ty TableFormat :=
  .pair .string (.pair (.option (enum1T 0#8)) (.pair (.option (.vec
    (.pair (.option .string) (.pair (.option .string) (.pair (.option (enum3T 0#8 1#8 2#8))
      (.pair .string (.pair (.option .string) (.pair (.option .bool) (.pair (.option .bool)
        (.pair (.option (enum3T 0#8 1#8 2#8)) (.option (enum3T 0#8 1#8 2#8))))))))))))
    (.option .string)))

abbrev Mirror :=
  String ⊕ ((String × String × String × Option (String × String × String × String)) ⊕ Empty)

/-- `MirrorSpec` — mirror/spec.rs:5-13, 31-40, 58-93. -/
def mirrorT : Ty Mirror :=
  .enumCons 1 0#8 .string
    (.enumCons 1 1#8 (.pair .string (.pair .string (.pair .string
      (.option (.pair .string (.pair .string (.pair .string .string))))))) (.enumNil 1))

/-! ## SmartModules -/

abbrev Package :=
  String × String × String × String × Option String × Option String × Enum2 × Option String
abbrev Meta := Package × List (String × Option String × Bool)
abbrev Wasm := Enum2 × Bytes
abbrev SmartModule := Option Meta × Option U32 × Wasm

/-- `SmartModulePackage` — smartmodule/package.rs:67-92, 126-138.  Versions are modelled as their
texts (254-283: written with `to_string`, read with `parse`). -/
def packageT : Ty Package :=
  .pair .string (.pair .string (.pair .string (.pair .string (.pair (.option .string)
    (.pair (.option .string) (.pair (.field 19 none (enum2T 0#8 1#8) (.inl ()))
      (.option .string)))))))

/-- `SmartModuleMetadata` — smartmodule/package.rs:14-23, params.rs:7-34. -/
def metaT : Ty Meta :=
  .pair packageT (.map (fun a b => decide (a < b)) .string (.pair (.option .string) .bool))

/-- `SmartModuleWasm` — smartmodule/spec.rs:105-111, 152-167. -/
def wasmT : Ty Wasm := .pair (enum2T 0#8 1#8) .byteBuf

/-- The fields of `SmartModuleSpec` in the second format — smartmodule/spec.rs:61-63, 80-82. -/
def smartModule2T : Ty SmartModule :=
  .pair (.option metaT) (.pair (.option (.int 4)) wasmT)

/-- `SmartModuleSpecV1` — smartmodule/spec_v1.rs:5-61. -/
def smartModule1T : Ty (Enum2 × Enum3 × Option (Enum1 × String) × Wasm × Option (List String)) :=
  .pair (enum2T 0#8 1#8) (.pair (enum3T 0#8 1#8 2#8)
    (.pair (.option (.pair (enum1T 0#8) .string)) (.pair wasmT (.option (.vec .string)))))

/-- What is written in the first format: the defaults around the code. -/
def asV1 (x : SmartModule) : Enum2 × Enum3 × Option (Enum1 × String) × Wasm × Option (List String) :=
  (.inl (), .inl (), none, x.2.2, none)

/-- `SmartModuleSpec` — smartmodule/spec.rs:26-87 (`V2_FORMAT = 10`): before version 10 only the code
is transmitted, in the place it has in the first format. -/
def smartModuleF : Fmt SmartModule := fun ver =>
  if ver < 10 then
    { enc := fun x => (smartModule1T.codec ver).enc (asV1 x)
      dec := (smartModule1T.codec ver).dec.bind fun y => Dec.pure (none, none, y.2.2.2.1)
      size := fun x => (smartModule1T.codec ver).size (asV1 x)
      wf := fun x => x.1 = none ∧ x.2.1 = none ∧ (smartModule1T.codec ver).wf (asV1 x) }
  else smartModule2T.codec ver

/-! ## Requests -/

/-- `CustomSpuKey` — spu/mod.rs:102-105, 134-193: a text tells the variant. -/
def customSpuKeyC : Codec (String ⊕ U32) where
  enc
    | .inl n => stringC.enc "Name" ++ stringC.enc n
    | .inr i => stringC.enc "Id" ++ (intC 4).enc i
  dec := stringC.dec.bind fun typ =>
    if typ = "Name" then stringC.dec.bind fun n => Dec.pure (.inl n)
    else if typ = "Id" then (intC 4).dec.bind fun i => Dec.pure (.inr i)
    else Dec.fail .invalid
  size
    | .inl n => stringC.size "Name" + stringC.size n
    | .inr i => stringC.size "Id" + (intC 4).size i
  wf
    | .inl n => stringC.wf n
    | .inr _ => True

/-- Two values one after the other. -/
def pairF {α β : Type} (f : Fmt α) (g : Fmt β) : Fmt (α × β) := fun ver => pairC (f ver) (g ver)

/-- The types of `S` for creating — sc-schema/src/*/mod.rs (`CreatableAdminSpec`); SPUs and partitions
cannot be created. -/
@[reducible] def Kind.Spec : Kind → Type
  | .topic => Topic
  | .customSpu => CustomSpu
  | .smartModule => SmartModule
  | .spuGroup => SpuGroup
  | .tableFormat => TableFormat
  | .mirror => Mirror
  | .spu => Empty
  | .partition => Empty

/-- Their formats. -/
def Kind.specF : (k : Kind) → Fmt k.Spec
  | .topic => fun ver => topicT.codec ver
  | .customSpu => fun ver => customSpuT.codec ver
  | .smartModule => smartModuleF
  | .spuGroup => fun ver => spuGroupT.codec ver
  | .tableFormat => fun ver => tableFormatT.codec ver
  | .mirror => fun ver => mirrorT.codec ver
  | .spu => fun ver => (Ty.enumNil 1).codec ver
  | .partition => fun ver => (Ty.enumNil 1).codec ver

abbrev Common := String × Bool × Option U32

/-- `CommonCreateRequest` — objects/create.rs:12-18. -/
def commonT : Ty Common :=
  .pair .string (.pair .bool (.field 7 none (.option (.int 4)) none))

/-- `CreateRequest` — objects/create.rs:20-25. -/
def createF (k : Kind) : Fmt (Common × k.Spec) := pairF (fun ver => commonT.codec ver) k.specF

/-- The requests that are carried by `TypeBuffer`. -/
inductive Api
  | list | watch | delete | update
deriving DecidableEq, Repr

/-- The types of keys — sc-schema/src/*/mod.rs (`DeleteKey`, `UpdateKey`). -/
@[reducible] def Kind.Key : Kind → Type
  | .customSpu => String ⊕ U32
  | .spu => Empty
  | .partition => Empty
  | _ => String

/-- `S::UpdateAction` — sc-schema/src/*/mod.rs, controlplane-metadata/src/topic/update.rs:3-21. -/
@[reducible] def Kind.Action : Kind → Type
  | .topic => U32 ⊕ ((String × Bool) ⊕ Empty)
  | .mirror => Empty
  | _ => String

/-- The contents of a request about objects of kind `k`. -/
@[reducible] def Req : Api → Kind → Type
  | .list, _ => List String × Bool × Bool
  | .watch, _ => U64 × Bool
  | .delete, k => k.Key × Bool
  | .update, k => k.Key × k.Action

def Kind.keyF : (k : Kind) → Fmt k.Key
  | .customSpu => fun _ => customSpuKeyC
  | .spu => fun ver => (Ty.enumNil 1).codec ver
  | .partition => fun ver => (Ty.enumNil 1).codec ver
  | .topic => fun ver => Ty.string.codec ver
  | .smartModule => fun ver => Ty.string.codec ver
  | .spuGroup => fun ver => Ty.string.codec ver
  | .tableFormat => fun ver => Ty.string.codec ver
  | .mirror => fun ver => Ty.string.codec ver

def topicActionT : Ty (U32 ⊕ ((String × Bool) ⊕ Empty)) :=
  .enumCons 1 0#8 (.int 4) (.enumCons 1 1#8 (.pair .string .bool) (.enumNil 1))

def Kind.actionF : (k : Kind) → Fmt k.Action
  | .topic => fun ver => topicActionT.codec ver
  | .mirror => fun ver => (Ty.enumNil 1).codec ver
  | .spu => fun ver => Ty.string.codec ver
  | .partition => fun ver => Ty.string.codec ver
  | .customSpu => fun ver => Ty.string.codec ver
  | .smartModule => fun ver => Ty.string.codec ver
  | .spuGroup => fun ver => Ty.string.codec ver
  | .tableFormat => fun ver => Ty.string.codec ver

/-- `ListRequest`, with `ListFilters` — objects/list.rs:14-30, 66-74. -/
def listT : Ty (List String × Bool × Bool) :=
  .pair (.vec .string) (.pair (.field 10 none .bool false) (.field 13 none .bool false))

/-- `WatchRequest` — objects/watch.rs:18-26. -/
def watchT : Ty (U64 × Bool) := .pair (.int 8) (.field 10 none .bool false)

/-- `force` — objects/delete.rs:22-23. -/
def forceT : Ty Bool := .field 13 none .bool false

/-- The formats of the requests — also `DeleteRequest` (objects/delete.rs:19-24) and `UpdateRequest`
(objects/update.rs:18-22). -/
def reqF : (a : Api) → (k : Kind) → Fmt (Req a k)
  | .list, _ => fun ver => listT.codec ver
  | .watch, _ => fun ver => watchT.codec ver
  | .delete, k => pairF k.keyF (fun ver => forceT.codec ver)
  | .update, k => pairF k.keyF k.actionF

end Verif.Admin.Schema
