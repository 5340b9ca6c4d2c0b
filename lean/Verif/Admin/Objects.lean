import Verif.Admin.Schema

/-!
# The dynamic encoding of administrative requests (`fluvio-sc-schema/src/objects/`)

Requests travel as a label, a length and the encoded request; the receiver picks the type by the
label (`downcast`).  Before version 11 (`DYN_OBJ`) requests were written without the length, or with a
numerical type; the receiver decodes those and encodes them again.
-/

namespace Verif.Admin.Objects
open Verif.Wire Verif.Admin.Schema

/-- `DYN_OBJ` — objects/mod.rs:19. -/
def dynObj : Int := 11
/-- `COMMON_VERSION` — objects/mod.rs:18. -/
def commonVersion : Int := 19

/-- `TypeBuffer`, `CreateTypeBuffer` — objects/metadata.rs:88-94, objects/create.rs:101-108. -/
structure TypeBuffer where
  version : Int
  ty : String
  buf : Bytes
deriving DecidableEq

/-- `TypeBuffer::encode` — objects/metadata.rs:97-111. -/
def TypeBuffer.of {α : Type} (label : String) (f : Fmt α) (x : α) (ver : Int) : TypeBuffer :=
  ⟨ver, label, (f ver).enc x⟩

/-- `impl Encoder for TypeBuffer` — objects/metadata.rs:154-169. -/
def TypeBuffer.enc (tb : TypeBuffer) (ver : Int) : Bytes :=
  stringC.enc tb.ty ++
    ((if ver ≥ dynObj then intEnc 4 (BitVec.ofNat (8 * 4) tb.buf.length) else []) ++ tb.buf)

/-- `write_size` — objects/metadata.rs:143-152. -/
def TypeBuffer.size (tb : TypeBuffer) (ver : Int) : Nat :=
  stringC.size tb.ty + tb.buf.length + (if ver ≥ dynObj then 4 else 0)

/-- `impl Decoder for TypeBuffer` — objects/metadata.rs:172-200. -/
def TypeBuffer.dec (ver : Int) : Dec TypeBuffer :=
  stringC.dec.bind fun ty => (intDec 4).bind fun len => (takeN len.toNat).bind fun buf =>
    Dec.pure ⟨ver, ty, buf⟩

/-- `TypeBuffer::downcast` — objects/metadata.rs:118-133: what follows the value in the buffer is
ignored. -/
def TypeBuffer.downcast {α : Type} (tb : TypeBuffer) (label : String) (f : Fmt α) :
    Except Err (Option α) :=
  if tb.ty = label then
    match (f tb.version).dec tb.buf with
    | .ok (x, _) => .ok (some x)
    | .error e => .error e
  else .ok none

/-! ## Lists, watches, deletions, changes -/

/-- The kind with this label (the arms of the classic decoders). -/
def kindOf (s : String) : Option Kind :=
  if s = Kind.topic.label then some .topic
  else if s = Kind.spu.label then some .spu
  else if s = Kind.tableFormat.label then some .tableFormat
  else if s = Kind.customSpu.label then some .customSpu
  else if s = Kind.spuGroup.label then some .spuGroup
  else if s = Kind.smartModule.label then some .smartModule
  else if s = Kind.partition.label then some .partition
  else if s = Kind.mirror.label then some .mirror
  else none

/-- Which kinds the classic decoders know — objects/classic.rs:117-173 (lists, watches), 325-366
(deletions).  There is none for changes. -/
def classicKnows : Api → Kind → Bool
  | .update, _ => false
  | _, .mirror => false
  | .delete, .spu => false
  | .delete, .partition => false
  | _, _ => true

/-- The classic decoding — objects/classic.rs:105-183, 313-375 and the re-encoding as version
`DYN_OBJ` without the header, 206-210, 397-401. -/
def classicDec (a : Api) (ver : Int) : Dec TypeBuffer :=
  stringC.dec.bind fun typ =>
    match kindOf typ with
    | none => Dec.fail .invalid
    | some k =>
      if classicKnows a k then
        (reqF a k ver).dec.bind fun x => Dec.pure ⟨dynObj, k.label, (reqF a k dynObj).enc x⟩
      else Dec.fail .invalid

/-- `impl Decoder for ObjectApi{List,Watch,Delete,Update}Request` — objects/classic.rs:195-214,
386-405; objects/update.rs:45-47 (derived). -/
def reqDec (a : Api) (ver : Int) : Dec TypeBuffer :=
  if a = .update ∨ ver ≥ dynObj then TypeBuffer.dec ver else classicDec a ver

/-- What the client sends: `try_encode_from`, then the encoder — objects/{list,watch,delete,update}.rs
(delete.rs:54-56). -/
def reqEnc (a : Api) (k : Kind) (x : Req a k) (ver : Int) : Bytes :=
  (TypeBuffer.of k.label (reqF a k) x ver).enc ver

/-- What the server asks for each kind: `downcast` — objects/delete.rs:58-60. -/
def reqDowncast (a : Api) (k : Kind) (tb : TypeBuffer) : Except Err (Option (Req a k)) :=
  tb.downcast k.label (reqF a k)

/-! ## Creations -/

/-- `CREATE_TYPE` — objects/classic.rs:588, 604, 619, 634, 649, 664. -/
def createType : Kind → BitVec (8 * 1)
  | .topic => 0#8
  | .customSpu => 1#8
  | .spuGroup => 2#8
  | .smartModule => 4#8
  | .tableFormat => 5#8
  | .mirror => 6#8
  | .spu => 0#8
  | .partition => 0#8

/-- The arms of the classic decoder — objects/classic.rs:537-583; there is none for mirrors. -/
def kindOfType (t : BitVec (8 * 1)) : Option Kind :=
  if t = createType .topic then some .topic
  else if t = createType .tableFormat then some .tableFormat
  else if t = createType .customSpu then some .customSpu
  else if t = createType .spuGroup then some .spuGroup
  else if t = createType .smartModule then some .smartModule
  else none

/-- `ClassicObjectApiCreateRequest` (derived), `ClassicObjectCreateRequest` — objects/classic.rs:
492-523. -/
def classicCreateEnc (ver : Int) (k : Kind) (x : Common × k.Spec) : Bytes :=
  (commonT.codec ver).enc x.1 ++ (intEnc 1 (createType k) ++ (k.specF ver).enc x.2)

/-- … and its decoder, objects/classic.rs:528-585. -/
def classicCreateDec (ver : Int) : Dec (Common × (k : Kind) × k.Spec) :=
  (commonT.codec ver).dec.bind fun c => (intDec 1).bind fun t =>
    match kindOfType t with
    | none => Dec.fail .invalid
    | some k => (k.specF ver).dec.bind fun x => Dec.pure (c, ⟨k, x⟩)

/-- What the client sends: `CreateTypeBuffer::encode` and its encoder — objects/create.rs:110-138,
177-192. -/
def createEnc (k : Kind) (x : Common × k.Spec) (ver : Int) : Bytes :=
  if ver ≥ dynObj then (TypeBuffer.of k.label (createF k) x ver).enc ver
  else classicCreateEnc ver k x

/-- `write_size` — objects/create.rs:168-174. -/
def createSize (k : Kind) (x : Common × k.Spec) (ver : Int) : Nat :=
  if ver ≥ dynObj then (TypeBuffer.of k.label (createF k) x ver).size ver
  else (classicCreateEnc ver k x).length

/-- `impl Decoder for ObjectApiCreateRequest` — objects/create.rs:75-99: classic requests are encoded
again at `COMMON_VERSION`, but the version of the request is kept. -/
def createDec (ver : Int) : Dec TypeBuffer :=
  if ver ≥ dynObj then TypeBuffer.dec ver
  else (classicCreateDec ver).bind fun r =>
    Dec.pure ⟨ver, r.2.1.label, classicCreateEnc commonVersion r.2.1 (r.1, r.2.2)⟩

/-- `CreateTypeBuffer::downcast` — objects/create.rs:147-176. -/
def createDowncast (k : Kind) (tb : TypeBuffer) : Except Err (Option (Common × k.Spec)) :=
  if tb.ty = k.label then
    if tb.version < dynObj then
      match classicCreateDec tb.version tb.buf with
      | .error e => .error e
      | .ok (r, _) => .ok (if h : r.2.1 = k then some (r.1, h ▸ r.2.2) else none)
    else
      match (createF k tb.version).dec tb.buf with
      | .error e => .error e
      | .ok (x, _) => .ok (some x)
  else .ok none

end Verif.Admin.Objects
