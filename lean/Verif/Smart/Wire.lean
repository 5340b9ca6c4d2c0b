import Verif.Smart.Chain
import Verif.Wire.Record
import Verif.Wire.Universe

/-!
# What travels between the host and a SmartModule
(`fluvio-smartmodule/src/{input,output}.rs`, `fluvio-protocol/src/link/smartmodule.rs`,
`fluvio-smartengine/src/engine/wasmtime/{engine,instance}.rs`, `transforms/*.rs`,
`fluvio-smartmodule-derive/src/generator/*.rs`)

`Verif.Smart.Chain` runs the modules of a chain on records.  Here the records, the accumulator, the results
and the errors are encoded by one side and decoded by the other, at the version of the module instance.  The
memory of a guest holds less than 4 GiB, so that lengths fit the 32-bit numbers passed with a pointer;
allocation in the guest either works or is a trap.  Fuel and memory limits are traps as in
`Verif.Smart.Chain`; metrics, `init` and `look_back` calls are not modelled here.
-/

namespace Verif.Smart
open Verif.Wire

/-- `SmartModuleKind` — fluvio-protocol/src/link/smartmodule.rs:74-92 -/
inductive Kind where
  | filter | map | arrayMap | aggregate | filterMap | join | generic
deriving DecidableEq

/-- The tags of the variants — link/smartmodule.rs:76-91.  (`min_version` of a variant has no effect:
fluvio-protocol-derive/src/{ser,de}.rs look at it for fields only.) -/
def Kind.tag : Kind → BitVec (8 * 1)
  | .filter => 0 | .map => 1 | .arrayMap => 2 | .aggregate => 3 | .filterMap => 4 | .join => 5 | .generic => 6

/-- The derived codec of an enum without fields: a one-byte tag; unknown tags are invalid. -/
def kindC : Codec Kind where
  enc k := intEnc 1 k.tag
  dec := (intDec 1).bind fun t =>
    if t = 0 then Dec.pure .filter
    else if t = 1 then Dec.pure .map
    else if t = 2 then Dec.pure .arrayMap
    else if t = 3 then Dec.pure .aggregate
    else if t = 4 then Dec.pure .filterMap
    else if t = 5 then Dec.pure .join
    else if t = 6 then Dec.pure .generic
    else Dec.fail .invalid
  size _ := 1
  wf _ := True

/-- `SmartModuleTransformRuntimeError` — link/smartmodule.rs:12-24 -/
structure RtError where
  hint : String
  offset : BitVec 64
  kind : Kind
  key : Option Bytes
  value : Bytes
deriving DecidableEq

/-- The derived codec of `SmartModuleTransformRuntimeError` — link/smartmodule.rs:11-24 -/
def rtErrorC : Codec RtError :=
  isoC (pairC stringC (pairC (intC 8) (pairC kindC (pairC (optionC recordDataC) recordDataC))))
    (fun x => ⟨x.1, x.2.1, x.2.2.1, x.2.2.2.1, x.2.2.2.2⟩)
    (fun e => (e.hint, e.offset, e.kind, e.key, e.value))

/-- `SmartModuleOutput` — fluvio-smartmodule/src/output.rs:11-17 -/
structure Out where
  successes : List Record
  error : Option RtError
deriving DecidableEq

/-- The derived codec of `SmartModuleOutput` — output.rs:11-17 -/
def outC : Codec Out :=
  isoC (pairC (vecC recordC) (optionC rtErrorC)) (fun x => ⟨x.1, x.2⟩) (fun o => (o.successes, o.error))

/-- `Vec<u8>`: a 32-bit length and the bytes, one by one — fluvio-protocol/src/core/encoder.rs:49-77,
decoder.rs:39-75. -/
def rawC : Codec Bytes :=
  isoC (vecC (intC 1)) (fun l => l.map fun b => UInt8.ofBitVec b) (fun l => l.map UInt8.toBitVec)

/-- `SmartModuleExtraParams`: a map of strings and the look-back of old versions — input.rs:17-22, 57-62 -/
def paramsT : Ty (List (String × String) × Option (BitVec 64 × Option (BitVec 64 × BitVec 32))) :=
  .pair (.map (fun a b => decide (a < b)) .string .string)
    (.field 20 none (.option (.pair (.int 8) (.field 21 none (.option .duration) none))) none)

/-- `SmartModuleInput` — input.rs:79-97.  The constructors (`new`, `try_from_records`, input.rs:99-106,
165-177) leave `params` and `join_record` at their defaults, and nothing sets them afterwards; they are
encoded but not part of this structure. -/
structure Input where
  baseOffset : BitVec 64
  raw : Bytes
  baseTimestamp : BitVec 64

/-- The derived codec of `SmartModuleInput` — input.rs:79-97: `params` until version 22, `join_record` from 16
until 22, `base_timestamp` from 22. -/
def inputC (v : Int) : Codec Input :=
  isoC (pairC (intC 8) (pairC rawC (pairC (fieldC 0 (some 22) v (paramsT.codec v) ([], none))
      (pairC (fieldC 16 (some 22) v rawC []) (fieldC 22 none v (intC 8) 0)))))
    (fun x => ⟨x.1, x.2.1, x.2.2.2.2⟩) (fun i => (i.baseOffset, i.raw, ([], none), [], i.baseTimestamp))

/-- `SmartModuleAggregateInput` — input.rs:193-199 -/
def aggInputC (v : Int) : Codec (Input × Bytes) := pairC (inputC v) rawC

/-- `SmartModuleAggregateOutput`: the accumulator is part of it from version 16 — output.rs:35-41 -/
def aggOutC (v : Int) : Codec (Out × Bytes) := pairC outC (fieldC 16 none v rawC [])

/-- `SmartModuleInput::try_from_records` and the setters — input.rs:165-177, 112-122 -/
def mkInput (base ts : BitVec 64) (rs : List Record) : Input := ⟨base, (vecC recordC).enc rs, ts⟩

variable {μ : Type}

/-- What a call of the guest's function leaves: its return value and what it copied out with
`copy_records`. -/
structure Ret where
  status : BitVec 32
  copied : Option Bytes

/-- Undecodable input: the guest returns a status without copying anything out, or panics. -/
def refused (status : Int) (e : Err) : Option Ret :=
  if e = .panic then none else some ⟨BitVec.ofInt 32 status, none⟩

/-- The generated function around a transforming loop — generator/transform.rs:22-60, mod.rs:42-88:
decode the input, decode the records, run the loop (`body`, which sees the records with the base offset and
the base timestamp), encode the output.  `none` is a trap. -/
def guestMain (v : Int) (body : μ → BitVec 64 → BitVec 64 → List Record → μ × Option Out) (m : μ)
    (bytes : Bytes) : μ × Option Ret :=
  match (inputC v).dec bytes with
  | .error e => (m, refused (-11) e)
  | .ok (i, _) =>
    match (vecC recordC).dec i.raw with
    | .error e => (m, refused (-11) e)
    | .ok (rs, _) =>
      match body m i.baseOffset i.baseTimestamp rs with
      | (m', none) => (m', none)
      | (m', some o) => (m', some ⟨BitVec.ofNat 32 o.successes.length, some (outC.enc o)⟩)

/-- The generated function of an aggregate — generator/aggregate.rs:39-110: the loop also gets and leaves the
accumulator. -/
def aggMain (v : Int) (body : μ → Bytes → BitVec 64 → BitVec 64 → List Record → μ × Option (Out × Bytes)) (m : μ)
    (bytes : Bytes) : μ × Option Ret :=
  match (aggInputC v).dec bytes with
  | .error e => (m, refused (-11) e)
  | .ok ((i, acc), _) =>
    match (vecC recordC).dec i.raw with
    | .error e => (m, refused (-22) e)
    | .ok (rs, _) =>
      match body m acc i.baseOffset i.baseTimestamp rs with
      | (m', none) => (m', none)
      | (m', some o) => (m', some ⟨BitVec.ofNat 32 o.1.successes.length, some ((aggOutC v).enc o)⟩)

/-- Why a call of the host fails. -/
inductive CallErr where
  | trap
  | status (n : Int)
  | decode
deriving DecidableEq

/-- What the host makes of a finished call: a negative status is an error, otherwise what was copied out last
is decoded (nothing copied is no bytes) — transforms/simple_transform.rs:66-76, aggregate.rs:85-97,
instance.rs:204-213 -/
def readBack {α : Type} (c : Codec α) : Option Ret → Except CallErr α
  | none => .error .trap
  | some r =>
    if r.status.toInt < 0 then .error (.status r.status.toInt)
    else match c.dec (r.copied.getD []) with
      | .error _ => .error .decode
      | .ok (o, _) => .ok o

/-- `SimpleTansform::process` — transforms/simple_transform.rs:55-77, with `write_input` (instance.rs:186-202):
the input is encoded at the version of the instance, which is also passed to the guest. -/
def hostCall (v : Int) (body : μ → BitVec 64 → BitVec 64 → List Record → μ × Option Out) (m : μ) (i : Input) :
    μ × Except CallErr Out :=
  ((guestMain v body m ((inputC v).enc i)).1, readBack outC (guestMain v body m ((inputC v).enc i)).2)

/-- `SmartModuleAggregate::process` — transforms/aggregate.rs:71-98; the result has the new accumulator. -/
def aggCall (v : Int) (body : μ → Bytes → BitVec 64 → BitVec 64 → List Record → μ × Option (Out × Bytes)) (m : μ)
    (acc : Bytes) (i : Input) : μ × Except CallErr (Out × Bytes) :=
  ((aggMain v body m ((aggInputC v).enc (i, acc))).1,
    readBack (aggOutC v) (aggMain v body m ((aggInputC v).enc (i, acc))).2)

/-! ## The loops of the guest on encoded records -/

/-- What a user function sees of a record. -/
def toRec (r : Record) : Rec Bytes := ⟨r.preamble.offsetDelta.toInt, r.preamble.timestampDelta.toInt, r.key, r.value⟩

/-- `Record::new_key_value` — fluvio-protocol/src/record/data.rs: default preamble, no headers. -/
def newRecord (k : Option Bytes) (v : Bytes) : Record := ⟨⟨0, 0, 0⟩, k, v, 0⟩

variable {ε : Type}

/-- One round of the loops (see `Fn.apply`), on the records with their attributes and headers. -/
def Fn.applyW (fn : Fn μ Bytes ε) (m : μ) (acc : Bytes) (r : Record) :
    μ × Except (Fail ε) (Bytes × List Record) :=
  match fn with
  | .filter f => ((f m (toRec r)).1, (f m (toRec r)).2.map fun ok => (acc, if ok then [r] else []))
  | .map f => ((f m (toRec r)).1, (f m (toRec r)).2.map fun kv => (acc, [{ r with key := kv.1, value := kv.2 }]))
  | .filterMap f => ((f m (toRec r)).1, (f m (toRec r)).2.map fun o => match o with
      | some kv => (acc, [{ r with key := kv.1, value := kv.2 }])
      | none => (acc, []))
  | .arrayMap f => ((f m (toRec r)).1, (f m (toRec r)).2.map fun kvs => (acc, kvs.map fun kv => newRecord kv.1 kv.2))
  | .aggregate f => ((f m acc (toRec r)).1, (f m acc (toRec r)).2.map fun v => (v, [{ r with value := v }]))

/-- The kind named in errors — generator/{filter,map,filter_map,array_map,aggregate}.rs -/
def Fn.kind : Fn μ Bytes ε → Kind
  | .filter _ => .filter
  | .map _ => .map
  | .filterMap _ => .filterMap
  | .arrayMap _ => .arrayMap
  | .aggregate _ => .aggregate

/-- `SmartModuleTransformRuntimeError::new` — link/smartmodule.rs:26-43 (the sum wraps around) -/
def mkError (kind : Kind) (base : BitVec 64) (r : Record) (hint : String) : RtError :=
  ⟨hint, base + r.preamble.offsetDelta, kind, r.key, r.value⟩

/-- The loop of the guest (see `guestLoop`): memory, accumulator and output at the end; `none` after a trap.
A user error is written as a text (`format!("{error:?}")`), which is what `ε` is here. -/
def loopW (fn : Fn μ Bytes String) (base : BitVec 64) : μ → Bytes → List Record → μ × Option (Out × Bytes)
  | m, a, [] => (m, some (⟨[], none⟩, a))
  | m, a, r :: rs =>
    match fn.applyW m a r with
    | (m', .error .trap) => (m', none)
    | (m', .error (.err e)) => (m', some (⟨[], some (mkError fn.kind base r e)⟩, a))
    | (m', .ok (a', o)) =>
      match loopW fn base m' a' rs with
      | (m'', none) => (m'', none)
      | (m'', some (out, a'')) => (m'', some (⟨o ++ out.successes, out.error⟩, a''))

/-- `SmartModuleInstance` — instance.rs:24-32.  The user function may depend on the base offset and the base
timestamp of the batch (`SmartModuleRecord`, fluvio-smartmodule/src/lib.rs). -/
structure WInst (μ : Type) where
  version : Int
  fn : BitVec 64 → BitVec 64 → Fn μ Bytes String
  /-- the module exports `aggregate` -/
  isAgg : Bool
  mem : μ
  acc : Bytes
  ok : isAgg = false → ∀ b t, (fn b t).kind ≠ .aggregate

/-- `SmartModuleInstance::process` — instance.rs:60-86: aggregates keep the accumulator that came back. -/
def WInst.process (w : WInst μ) (i : Input) : WInst μ × Except CallErr Out :=
  if w.isAgg then
    match aggCall w.version (fun m a b t rs => loopW (w.fn b t) b m a rs) w.mem w.acc i with
    | (m, .error e) => ({ w with mem := m }, .error e)
    | (m, .ok (o, a)) => ({ w with mem := m, acc := a }, .ok o)
  else
    match hostCall w.version (fun m b t rs => ((loopW (w.fn b t) b m [] rs).1,
        (loopW (w.fn b t) b m [] rs).2.map Prod.fst)) w.mem i with
    | (m, r) => ({ w with mem := m }, r)

/-- `SmartModuleChainInstance::process` — engine.rs:176-223: the output of a module is encoded into the input
of the next one, with the base offset and timestamp of the batch; with no module the records are decoded and
returned. -/
def wireProcess (base ts : BitVec 64) : List (WInst μ) → Input → List (WInst μ) × Except CallErr Out
  | [], i =>
    match (vecC recordC).dec i.raw with
    | .error _ => ([], .error .decode)
    | .ok (rs, _) => ([], .ok ⟨rs, none⟩)
  | [w], i => ([(w.process i).1], (w.process i).2)
  | w :: w2 :: ws, i =>
    match w.process i with
    | (w', .error e) => (w' :: w2 :: ws, .error e)
    | (w', .ok o) =>
      match o.error with
      | some _ => (w' :: w2 :: ws, .ok o)
      | none => (w' :: (wireProcess base ts (w2 :: ws) (mkInput base ts o.successes)).1,
          (wireProcess base ts (w2 :: ws) (mkInput base ts o.successes)).2)

/-! ## Specification vocabulary -/

/-- **Specification.** Records whose encoding stays below 2 GiB, with deltas in the 32-bit range. -/
def RecsFit (rs : List Record) : Prop :=
  (∀ r ∈ rs, (-2 ^ 31 ≤ r.preamble.timestampDelta.toInt ∧ r.preamble.timestampDelta.toInt < 2 ^ 31) ∧
    (-2 ^ 31 ≤ r.preamble.offsetDelta.toInt ∧ r.preamble.offsetDelta.toInt < 2 ^ 31) ∧
    (-2 ^ 31 ≤ r.headers.toInt ∧ r.headers.toInt < 2 ^ 31)) ∧
  (rs.map fun r => (r.key.getD []).length + r.value.length + 40).sum < 2 ^ 31 - 4

/-- **Specification.** An output that fits: its records do, and the text of an error is shorter than 32 KiB. -/
def OutFits (o : Out) : Prop :=
  RecsFit o.successes ∧ ∀ e, o.error = some e →
    e.hint.utf8ByteSize < 2 ^ 15 ∧ (e.key.getD []).length < 2 ^ 31 ∧ e.value.length < 2 ^ 31

/-- **Specification.** The same limits, on what user functions see of records. -/
def Limits (rs : List (Rec Bytes)) : Prop :=
  (∀ r ∈ rs, (-2 ^ 31 ≤ r.tsd ∧ r.tsd < 2 ^ 31) ∧ (-2 ^ 31 ≤ r.delta ∧ r.delta < 2 ^ 31)) ∧
  (rs.map fun r => (r.key.getD []).length + r.val.length + 40).sum < 2 ^ 31 - 4

/-- **Specification.** A module as the chain on records sees it: its user function is called with the base
offset of the batch, and with the base timestamp if its version has one. -/
def WInst.inst (base ts : BitVec 64) (w : WInst μ) : Inst μ Bytes String :=
  ⟨w.fn base (if 22 ≤ w.version then ts else 0), w.mem, if w.isAgg then w.acc else []⟩

/-- **Specification.** The module with the memory and the accumulator of a module on records. -/
def WInst.with (w : WInst μ) (i : Inst μ Bytes String) : WInst μ :=
  { w with mem := i.mem, acc := if w.isAgg then i.acc else w.acc }

/-! ## Laws of the codecs -/

theorem kindC_rt : RoundTrips kindC where
  roundtrip k rest _ := by
    simp only [kindC]
    rw [Dec.bind_ok (intDec_intEnc 1 _ rest)]
    cases k <;> rfl
  size_eq k _ := by simp [kindC, intEnc]

theorem rtErrorC_rt : RoundTrips rtErrorC :=
  isoC_rt (pairC_rt stringC_lawful.toRoundTrips (pairC_rt (intC_lawful 8).toRoundTrips
    (pairC_rt kindC_rt (pairC_rt (optionC_rt recordDataC_rt) recordDataC_rt)))) fun _ => rfl

theorem outC_rt : RoundTrips outC :=
  isoC_rt (pairC_rt (vecC_rt recordC_rt) (optionC_rt rtErrorC_rt)) fun _ => rfl

theorem rawC_rt : RoundTrips rawC :=
  isoC_rt (vecC_rt (intC_lawful 1).toRoundTrips) fun l => by
    rw [List.map_map]
    conv => rhs; rw [← List.map_id l]
    rfl

theorem rawC_wf {b : Bytes} (h : b.length < 2 ^ 31) : rawC.wf b :=
  ⟨by rw [List.length_map]; exact h, fun _ _ => trivial⟩

theorem fieldC_rt {α : Type} {min : Int} {max : Option Int} {v : Int} {c : Codec α} {d : α} (hc : RoundTrips c) :
    RoundTrips (fieldC min max v c d) := by
  cases hv : inVersion min max v with
  | true => rw [fieldC_in _ _ hv]; exact hc
  | false => rw [fieldC_out _ _ hv]; exact (absentC_lawful d).toRoundTrips

theorem paramsT_ok : paramsT.ok := ⟨⟨trivial, trivial⟩, trivial, trivial⟩

theorem paramsT_wf (v : Int) : (fieldC 0 (some 22) v (paramsT.codec v) ([], none)).wf ([], none) := by
  cases hv : inVersion 0 (some 22) v with
  | true =>
    rw [fieldC_in _ _ hv]
    refine ⟨⟨by decide, nofun, List.Pairwise.nil⟩, ?_⟩
    show (fieldC 20 none v _ none).wf none
    cases hv : inVersion 20 none v with
    | true => rw [fieldC_in _ _ hv]; trivial
    | false => rw [fieldC_out _ _ hv]; rfl
  | false => rw [fieldC_out _ _ hv]; rfl

/-- What the guest sees of an input. -/
def Input.seen (v : Int) (i : Input) : Input := { i with baseTimestamp := if 22 ≤ v then i.baseTimestamp else 0 }

theorem inputC_dec (v : Int) (i : Input) (rest : Bytes) (h : i.raw.length < 2 ^ 31) :
    (inputC v).dec ((inputC v).enc i ++ rest) = .ok (i.seen v, rest) := by
  have hrt : RoundTrips (inputC v) :=
    isoC_rt (pairC_rt (intC_lawful 8).toRoundTrips (pairC_rt rawC_rt (pairC_rt
      (fieldC_rt (Ty.lawful v paramsT paramsT_ok).toRoundTrips) (pairC_rt (fieldC_rt rawC_rt)
        (fieldC_rt (intC_lawful 8).toRoundTrips))))) fun _ => rfl
  have henc : (inputC v).enc i = (inputC v).enc (i.seen v) := by
    simp only [inputC, isoC, pairC, Input.seen]
    by_cases hv : 22 ≤ v
    · simp only [hv, ↓reduceIte]
    · have : inVersion 22 none v = false := by simp only [inVersion]; simpa using hv
      simp only [fieldC, this, Bool.false_eq_true, ↓reduceIte]
  rw [henc]
  refine hrt.roundtrip _ rest ⟨trivial, rawC_wf h, paramsT_wf v, ?_, ?_⟩
  · cases hv : inVersion 16 (some 22) v with
    | true => rw [fieldC_in _ _ hv]; exact rawC_wf (show (0 : Nat) < 2 ^ 31 by decide)
    | false => rw [fieldC_out _ _ hv]; rfl
  · by_cases hv : 22 ≤ v
    · rw [fieldC_in _ _ (by simp only [inVersion]; simpa using hv)]; trivial
    · rw [fieldC_out _ _ (by simp only [inVersion]; simpa using hv)]
      show (if 22 ≤ v then i.baseTimestamp else 0) = 0
      rw [if_neg hv]

theorem RecsFit.fits {rs : List Record} (h : RecsFit rs) : ∀ r ∈ rs, r.fits := by
  intro r hr
  refine ⟨(h.1 r hr).1, (h.1 r hr).2.1, (h.1 r hr).2.2, ?_⟩
  have h2 := h.2
  have : (r.key.getD []).length + r.value.length + 40 ≤
      (rs.map fun r => (r.key.getD []).length + r.value.length + 40).sum := by
    clear h2 h
    induction rs with
    | nil => cases hr
    | cons x xs ih =>
      rw [List.map_cons, List.sum_cons]
      rcases List.mem_cons.1 hr with rfl | hr
      · omega
      · have := ih hr; omega
  omega

theorem RecsFit.count {rs : List Record} (h : RecsFit rs) : rs.length < 2 ^ 31 := by
  have h2 := h.2
  have : rs.length ≤ (rs.map fun r => (r.key.getD []).length + r.value.length + 40).sum := by
    clear h2 h
    induction rs with
    | nil => simp
    | cons x xs ih => rw [List.map_cons, List.sum_cons, List.length_cons]; omega
  omega

theorem RecsFit.wf {rs : List Record} (h : RecsFit rs) : (vecC recordC).wf rs :=
  ⟨h.count, fun r hr => (h.fits r hr).wf⟩

theorem recordC_length {r : Record} (h : r.fits) :
    (recordC.enc r).length ≤ (r.key.getD []).length + r.value.length + 40 := by
  have hw := h.wf
  have l6 := varintC_enc_length _ (ofNat_wf _ hw.2)
  obtain ⟨h1, h2, h3, h4⟩ := h
  have hv : r.value.length < 2 ^ 31 := by omega
  simp only [recordC, List.length_append]
  have : (recordInnerC.enc r).length ≤ (r.key.getD []).length + r.value.length + 32 := by
    simp only [recordInnerC, recordHeaderC, isoC, pairC, List.length_append]
    have l1 := varintC_enc_length _ h1
    have l2 := varintC_enc_length _ h2
    have l3 := varintC_enc_length _ h3
    have l0 : ((intC 1).enc r.preamble.attributes).length = 1 := by simp [intC, intEnc]
    have l4 : (recordDataC.enc r.value).length ≤ 5 + r.value.length := by
      simp only [recordDataC, List.length_append]
      have := varintC_enc_length _ (ofNat_wf r.value.length hv); omega
    have l5 : ((optionC recordDataC).enc r.key).length ≤ 6 + (r.key.getD []).length := by
      cases hk : r.key with
      | none => simp [optionC, boolC]
      | some k =>
        rw [hk] at h4
        have := varintC_enc_length _ (ofNat_wf k.length (by simp at h4; omega))
        simp only [optionC, boolC, recordDataC, List.length_append, List.length_cons, List.length_nil,
          Option.getD_some]
        omega
    omega
  omega

theorem RecsFit.raw {rs : List Record} (h : RecsFit rs) : ((vecC recordC).enc rs).length < 2 ^ 31 := by
  have hf := h.fits
  have h2 := h.2
  have : (rs.flatMap recordC.enc).length ≤
      (rs.map fun r => (r.key.getD []).length + r.value.length + 40).sum := by
    clear h2 h
    induction rs with
    | nil => simp
    | cons x xs ih =>
      rw [List.map_cons, List.sum_cons, List.flatMap_cons, List.length_append]
      have := ih fun r hr => hf r (List.mem_cons_of_mem _ hr)
      have := recordC_length (hf x List.mem_cons_self)
      omega
  simp only [vecC, List.length_append, beEnc_length]
  omega

theorem OutFits.wf {o : Out} (h : OutFits o) : outC.wf o := by
  refine ⟨h.1.wf, ?_⟩
  obtain ⟨s, e⟩ := o
  cases e with
  | none => trivial
  | some e =>
    obtain ⟨h1, h2, h3⟩ := h.2 e rfl
    refine ⟨?_, trivial, trivial, ?_, h3⟩
    · show (strBytes e.hint).length < 2 ^ 15
      unfold strBytes
      simpa using h1
    · show (optionC recordDataC).wf e.key
      cases hk : e.key with
      | none => trivial
      | some k => rw [hk] at h2; exact h2

/-! ## A call -/

theorem status_nonneg {n : Nat} (h : n < 2 ^ 31) : ¬ (BitVec.ofNat 32 n).toInt < 0 := by
  rw [ofNat_toInt_small 32 n (by omega)]; omega

theorem guestMain_ok {v : Int} {body : μ → BitVec 64 → BitVec 64 → List Record → μ × Option Out} {m m' : μ}
    {bytes rest rest' : Bytes} {i : Input} {rs : List Record} {o : Option Out}
    (hd : (inputC v).dec bytes = .ok (i, rest)) (hr : (vecC recordC).dec i.raw = .ok (rs, rest'))
    (hb : body m i.baseOffset i.baseTimestamp rs = (m', o)) :
    guestMain v body m bytes =
      (m', o.map fun x => ⟨BitVec.ofNat 32 x.successes.length, some (outC.enc x)⟩) := by
  unfold guestMain
  rw [hd]
  dsimp only
  rw [hr]
  dsimp only
  rw [hb]
  cases o <;> rfl

theorem aggMain_ok {v : Int} {body : μ → Bytes → BitVec 64 → BitVec 64 → List Record → μ × Option (Out × Bytes)}
    {m m' : μ} {bytes rest rest' acc : Bytes} {i : Input} {rs : List Record} {o : Option (Out × Bytes)}
    (hd : (aggInputC v).dec bytes = .ok ((i, acc), rest)) (hr : (vecC recordC).dec i.raw = .ok (rs, rest'))
    (hb : body m acc i.baseOffset i.baseTimestamp rs = (m', o)) :
    aggMain v body m bytes =
      (m', o.map fun x => ⟨BitVec.ofNat 32 x.1.successes.length, some ((aggOutC v).enc x)⟩) := by
  unfold aggMain
  rw [hd]
  dsimp only
  rw [hr]
  dsimp only
  rw [hb]
  cases o <;> rfl

theorem readBack_ok {α : Type} {c : Codec α} {n : Nat} (hn : n < 2 ^ 31) {bytes rest : Bytes} {x : α}
    (h : c.dec bytes = .ok (x, rest)) : readBack c (some ⟨BitVec.ofNat 32 n, some bytes⟩) = .ok x := by
  unfold readBack
  dsimp only
  rw [if_neg (status_nonneg hn), Option.getD_some, h]

theorem hostCall_eq (v : Int) (body : μ → BitVec 64 → BitVec 64 → List Record → μ × Option Out) (m : μ)
    (base ts : BitVec 64) (rs : List Record) (h : RecsFit rs) (m' : μ) (o : Option Out)
    (hb : body m base (if 22 ≤ v then ts else 0) rs = (m', o)) (ho : ∀ x, o = some x → OutFits x) :
    hostCall v body m (mkInput base ts rs) = (m', match (generalizing := false) o with | none => .error .trap | some x => .ok x) := by
  have hd := inputC_dec v (mkInput base ts rs) [] h.raw
  have hr := (vecC_rt recordC_rt).roundtrip rs [] h.wf
  simp only [List.append_nil] at hd hr
  have hg := guestMain_ok (body := body) (m := m) hd hr hb
  unfold hostCall
  rw [hg]
  cases o with
  | none => rfl
  | some x =>
    have hx := ho x rfl
    have hdec := outC_rt.roundtrip x [] hx.wf
    rw [List.append_nil] at hdec
    rw [Option.map_some, readBack_ok hx.1.count hdec]

theorem aggCall_eq (v : Int) (body : μ → Bytes → BitVec 64 → BitVec 64 → List Record → μ × Option (Out × Bytes))
    (m : μ) (acc : Bytes) (base ts : BitVec 64) (rs : List Record) (h : RecsFit rs) (ha : acc.length < 2 ^ 31)
    (m' : μ) (o : Option (Out × Bytes))
    (hb : body m acc base (if 22 ≤ v then ts else 0) rs = (m', o))
    (ho : ∀ x, o = some x → OutFits x.1 ∧ x.2.length < 2 ^ 31) :
    aggCall v body m acc (mkInput base ts rs) =
      (m', match (generalizing := false) o with
        | none => .error .trap
        | some x => .ok (x.1, if 16 ≤ v then x.2 else [])) := by
  have hd0 := inputC_dec v (mkInput base ts rs) (rawC.enc acc) h.raw
  have hacc := rawC_rt.roundtrip acc [] (rawC_wf ha)
  have hr := (vecC_rt recordC_rt).roundtrip rs [] h.wf
  simp only [List.append_nil] at hacc hr
  have hd : (aggInputC v).dec ((aggInputC v).enc (mkInput base ts rs, acc)) =
      .ok (((mkInput base ts rs).seen v, acc), []) := by
    simp only [aggInputC, pairC]
    rw [Dec.bind_ok hd0, Dec.bind_ok hacc]
    rfl
  have hg := aggMain_ok (body := body) (m := m) hd hr hb
  unfold aggCall
  rw [hg]
  cases o with
  | none => rfl
  | some x =>
    obtain ⟨hx, hxa⟩ := ho x rfl
    have hdec : (aggOutC v).dec ((aggOutC v).enc x) = .ok ((x.1, if 16 ≤ v then x.2 else []), []) := by
      simp only [aggOutC, pairC]
      by_cases hv : 16 ≤ v
      · have hin : inVersion 16 none v = true := by simp only [inVersion]; simpa using hv
        have h2 := rawC_rt.roundtrip x.2 [] (rawC_wf hxa)
        rw [List.append_nil] at h2
        rw [fieldC_in _ _ hin, Dec.bind_ok (outC_rt.roundtrip x.1 _ hx.wf), Dec.bind_ok h2, if_pos hv]
        rfl
      · have hin : inVersion 16 none v = false := by simp only [inVersion]; simpa using hv
        rw [fieldC_out _ _ hin, Dec.bind_ok (outC_rt.roundtrip x.1 _ hx.wf), if_neg hv]
        rfl
    rw [Option.map_some, readBack_ok hx.1.count hdec]

/-! ## The loop on encoded records and the loop on records -/

theorem applyW_eq (fn : Fn μ Bytes ε) (m : μ) (a : Bytes) (r : Record) :
    (fn.applyW m a r).1 = (fn.apply m a (toRec r)).1 ∧
    (fn.applyW m a r).2.map (fun x => (x.1, x.2.map toRec)) = (fn.apply m a (toRec r)).2 := by
  cases fn with
  | filter f =>
    refine ⟨rfl, ?_⟩
    simp only [Fn.applyW, Fn.apply]
    cases (f m (toRec r)).2 with
    | error e => rfl
    | ok b => cases b <;> rfl
  | map f =>
    refine ⟨rfl, ?_⟩
    simp only [Fn.applyW, Fn.apply]
    cases (f m (toRec r)).2 <;> rfl
  | filterMap f =>
    refine ⟨rfl, ?_⟩
    simp only [Fn.applyW, Fn.apply]
    cases (f m (toRec r)).2 with
    | error e => rfl
    | ok b => cases b <;> rfl
  | arrayMap f =>
    refine ⟨rfl, ?_⟩
    simp only [Fn.applyW, Fn.apply]
    cases (f m (toRec r)).2 with
    | error e => rfl
    | ok b =>
      simp only [Except.map, List.map_map]
      rfl
  | aggregate f =>
    refine ⟨rfl, ?_⟩
    simp only [Fn.applyW, Fn.apply]
    cases (f m a (toRec r)).2 <;> rfl

/-- Headers of what comes out of a round. -/
theorem applyW_headers {fn : Fn μ Bytes ε} {m : μ} {a : Bytes} {r : Record} {a' : Bytes} {o : List Record}
    (h : (fn.applyW m a r).2 = .ok (a', o)) : ∀ x ∈ o, x.headers = 0 ∨ x.headers = r.headers := by
  cases fn with
  | filter f =>
    simp only [Fn.applyW] at h
    cases hf : (f m (toRec r)).2 with
    | error e => rw [hf] at h; cases h
    | ok b =>
      rw [hf] at h
      injection h with h
      injection h with h1 h2
      subst h2
      intro x hx
      cases b with
      | false => cases hx
      | true => rw [List.mem_singleton.1 hx]; exact .inr rfl
  | map f =>
    simp only [Fn.applyW] at h
    cases hf : (f m (toRec r)).2 with
    | error e => rw [hf] at h; cases h
    | ok b =>
      rw [hf] at h
      injection h with h
      injection h with h1 h2
      subst h2
      intro x hx
      rw [List.mem_singleton.1 hx]; exact .inr rfl
  | filterMap f =>
    simp only [Fn.applyW] at h
    cases hf : (f m (toRec r)).2 with
    | error e => rw [hf] at h; cases h
    | ok b =>
      rw [hf] at h
      cases b with
      | none =>
        injection h with h
        injection h with h1 h2
        subst h2
        nofun
      | some kv =>
        injection h with h
        injection h with h1 h2
        subst h2
        intro x hx
        rw [List.mem_singleton.1 hx]; exact .inr rfl
  | arrayMap f =>
    simp only [Fn.applyW] at h
    cases hf : (f m (toRec r)).2 with
    | error e => rw [hf] at h; cases h
    | ok b =>
      rw [hf] at h
      injection h with h
      injection h with h1 h2
      subst h2
      intro x hx
      obtain ⟨kv, _, rfl⟩ := List.mem_map.1 hx
      exact .inl rfl
  | aggregate f =>
    simp only [Fn.applyW] at h
    cases hf : (f m a (toRec r)).2 with
    | error e => rw [hf] at h; cases h
    | ok b =>
      rw [hf] at h
      injection h with h
      injection h with h1 h2
      subst h2
      intro x hx
      rw [List.mem_singleton.1 hx]; exact .inr rfl

/-- The accumulator after a round. -/
theorem apply_acc {fn : Fn μ Bytes ε} {m : μ} {a : Bytes} {r : Rec Bytes} {a' : Bytes} {o : List (Rec Bytes)}
    (h : (fn.apply m a r).2 = .ok (a', o)) :
    if fn.kind = .aggregate then ∃ x ∈ o, x.val = a' else a' = a := by
  cases fn with
  | aggregate f =>
    rw [if_pos (show (Fn.aggregate f).kind = .aggregate from rfl)]
    simp only [Fn.apply] at h
    cases hf : (f m a r).2 with
    | error e => rw [hf] at h; cases h
    | ok b =>
      rw [hf] at h
      injection h with h
      injection h with h1 h2
      subst h1 h2
      exact ⟨_, List.mem_singleton.2 rfl, rfl⟩
  | filter f =>
    rw [if_neg nofun]
    simp only [Fn.apply] at h
    cases hf : (f m r).2 with
    | error e => rw [hf] at h; cases h
    | ok b => rw [hf] at h; injection h with h; injection h with h1 h2; exact h1.symm
  | map f =>
    rw [if_neg nofun]
    simp only [Fn.apply] at h
    cases hf : (f m r).2 with
    | error e => rw [hf] at h; cases h
    | ok b => rw [hf] at h; injection h with h; injection h with h1 h2; exact h1.symm
  | filterMap f =>
    rw [if_neg nofun]
    simp only [Fn.apply] at h
    cases hf : (f m r).2 with
    | error e => rw [hf] at h; cases h
    | ok b =>
      rw [hf] at h
      cases b with
      | none => injection h with h; injection h with h1 h2; exact h1.symm
      | some kv => injection h with h; injection h with h1 h2; exact h1.symm
  | arrayMap f =>
    rw [if_neg nofun]
    simp only [Fn.apply] at h
    cases hf : (f m r).2 with
    | error e => rw [hf] at h; cases h
    | ok b => rw [hf] at h; injection h with h; injection h with h1 h2; exact h1.symm

theorem guestLoop_acc (fn : Fn μ Bytes ε) : ∀ (rs : List (Rec Bytes)) (m : μ) (a : Bytes),
    (fn.kind ≠ .aggregate → (guestLoop fn m a rs).acc = a) ∧
    ((guestLoop fn m a rs).acc = a ∨ ∃ x ∈ (guestLoop fn m a rs).out, x.val = (guestLoop fn m a rs).acc)
  | [], m, a => ⟨fun _ => rfl, .inl rfl⟩
  | r :: rs, m, a => by
    simp only [guestLoop]
    cases h : fn.apply m a r with
    | mk m' x =>
      cases x with
      | error e => exact ⟨fun _ => rfl, .inl rfl⟩
      | ok y =>
        obtain ⟨a', o⟩ := y
        have h2 := apply_acc (fn := fn) (m := m) (a := a) (r := r) (by rw [h])
        obtain ⟨i1, i2⟩ := guestLoop_acc fn rs m' a'
        refine ⟨fun hk => ?_, ?_⟩
        · rw [if_neg hk] at h2
          dsimp only
          rw [i1 hk, h2]
        · dsimp only
          rcases i2 with i2 | ⟨x, hx, i2⟩
          · by_cases hk : fn.kind = .aggregate
            · rw [if_pos hk] at h2
              obtain ⟨x, hx, h3⟩ := h2
              exact .inr ⟨x, List.mem_append_left _ hx, by rw [h3, i2]⟩
            · rw [if_neg hk] at h2
              exact .inl (by rw [i2, h2])
          · exact .inr ⟨x, List.mem_append_right _ hx, i2⟩

/-- What the two loops have to do with each other. -/
structure LoopRel (fn : Fn μ Bytes String) (base : BitVec 64) (m : μ) (a : Bytes) (rs : List Record) : Prop where
  mem : (loopW fn base m a rs).1 = (guestLoop fn m a (rs.map toRec)).mem
  res : match (guestLoop fn m a (rs.map toRec)).fail with
    | some (.trap, _) => (loopW fn base m a rs).2 = none
    | some (.err e, x) => ∃ out pre r post, rs = pre ++ r :: post ∧ toRec r = x ∧
        (loopW fn base m a rs).2 =
          some (⟨out, some (mkError fn.kind base r e)⟩, (guestLoop fn m a (rs.map toRec)).acc) ∧
        out.map toRec = (guestLoop fn m a (rs.map toRec)).out
    | none => ∃ out, (loopW fn base m a rs).2 = some (⟨out, none⟩, (guestLoop fn m a (rs.map toRec)).acc) ∧
        out.map toRec = (guestLoop fn m a (rs.map toRec)).out

theorem loopRel (fn : Fn μ Bytes String) (base : BitVec 64) : ∀ (rs : List Record) (m : μ) (a : Bytes),
    LoopRel fn base m a rs
  | [], m, a => ⟨rfl, [], rfl, rfl⟩
  | r :: rs, m, a => by
    obtain ⟨e1, e2⟩ := applyW_eq fn m a r
    cases hw : fn.applyW m a r with
    | mk m' x =>
    rw [hw] at e1 e2
    cases x with
    | error e =>
      have hg : fn.apply m a (toRec r) = (m', .error e) := Prod.ext e1.symm e2.symm
      cases e with
      | trap =>
        refine ⟨?_, ?_⟩
        · simp only [loopW, hw, guestLoop, List.map_cons, hg]
        · simp only [loopW, hw, guestLoop, List.map_cons, hg]
      | err e =>
        refine ⟨?_, ?_⟩
        · simp only [loopW, hw, guestLoop, List.map_cons, hg]
        · simp only [loopW, hw, guestLoop, List.map_cons, hg]
          exact ⟨[], [], r, rs, rfl, rfl, rfl, rfl⟩
    | ok y =>
      obtain ⟨a', o⟩ := y
      have hg : fn.apply m a (toRec r) = (m', .ok (a', o.map toRec)) := Prod.ext e1.symm e2.symm
      obtain ⟨i1, i2⟩ := loopRel fn base rs m' a'
      cases hl : loopW fn base m' a' rs with
      | mk m'' y =>
      rw [hl] at i1 i2
      constructor
      · simp only [loopW, hw, guestLoop, List.map_cons, hg, hl]
        rw [← i1]
        cases y <;> rfl
      · simp only [loopW, hw, guestLoop, List.map_cons, hg, hl]
        cases hf : (guestLoop fn m' a' (rs.map toRec)).fail with
        | none =>
          rw [hf] at i2
          obtain ⟨out, i3, i4⟩ := i2
          dsimp only at i3
          subst i3
          exact ⟨o ++ out, rfl, by rw [List.map_append, i4]⟩
        | some z =>
          obtain ⟨e, x⟩ := z
          rw [hf] at i2
          cases e with
          | trap => dsimp only at i2; subst i2; rfl
          | err e =>
            obtain ⟨out, pre, r', post, i3, i4, i5, i6⟩ := i2
            dsimp only at i5
            subst i5
            exact ⟨o ++ out, r :: pre, r', post, by rw [i3]; rfl, i4, rfl, by rw [List.map_append, i6]⟩

theorem loopW_headers (fn : Fn μ Bytes String) (base : BitVec 64) : ∀ (rs : List Record) (m : μ) (a : Bytes)
    (o : Out) (a' : Bytes), (loopW fn base m a rs).2 = some (o, a') →
    ∀ x ∈ o.successes, x.headers = 0 ∨ ∃ r ∈ rs, x.headers = r.headers
  | [], m, a, o, a', h => by
    simp only [loopW, Option.some.injEq, Prod.mk.injEq] at h
    rw [← h.1]
    nofun
  | r :: rs, m, a, o, a', h => by
    simp only [loopW] at h
    cases hw : fn.applyW m a r with
    | mk m' x =>
    rw [hw] at h
    cases x with
    | error e =>
      cases e with
      | trap => cases h
      | err e =>
        simp only [Option.some.injEq, Prod.mk.injEq] at h
        rw [← h.1]
        nofun
    | ok y =>
      obtain ⟨a2, o2⟩ := y
      dsimp only at h
      have hh := applyW_headers (fn := fn) (m := m) (a := a) (r := r) (by rw [hw])
      have ih := loopW_headers fn base rs m' a2
      cases hl : loopW fn base m' a2 rs with
      | mk m'' y =>
      rw [hl] at h ih
      cases y with
      | none => cases h
      | some z =>
        obtain ⟨out, a3⟩ := z
        simp only [Option.some.injEq, Prod.mk.injEq] at h
        obtain ⟨h1, h2⟩ := h
        subst h1
        intro x hx
        rcases List.mem_append.1 hx with hx | hx
        · rcases hh x hx with h | h
          · exact .inl h
          · exact .inr ⟨r, List.mem_cons_self, h⟩
        · rcases ih out a3 rfl x hx with h | ⟨r', hr, h⟩
          · exact .inl h
          · exact .inr ⟨r', List.mem_cons_of_mem _ hr, h⟩

theorem recsFit_iff (rs : List Record) : RecsFit rs ↔ Limits (rs.map toRec) ∧
    ∀ r ∈ rs, -2 ^ 31 ≤ r.headers.toInt ∧ r.headers.toInt < 2 ^ 31 := by
  have : ((rs.map toRec).map fun r => (r.key.getD []).length + r.val.length + 40) =
      rs.map fun r => (r.key.getD []).length + r.value.length + 40 := by
    rw [List.map_map]; rfl
  unfold RecsFit Limits
  rw [this]
  constructor
  · rintro ⟨h1, h2⟩
    refine ⟨⟨fun r hr => ?_, h2⟩, fun r hr => (h1 r hr).2.2⟩
    obtain ⟨x, hx, rfl⟩ := List.mem_map.1 hr
    exact ⟨(h1 x hx).1, (h1 x hx).2.1⟩
  · rintro ⟨⟨h1, h2⟩, h3⟩
    exact ⟨fun r hr => ⟨(h1 _ (List.mem_map.2 ⟨r, hr, rfl⟩)).1, (h1 _ (List.mem_map.2 ⟨r, hr, rfl⟩)).2, h3 r hr⟩, h2⟩

theorem Limits.val {rs : List (Rec Bytes)} (h : Limits rs) {x : Rec Bytes} (hx : x ∈ rs) :
    (x.key.getD []).length < 2 ^ 31 ∧ x.val.length < 2 ^ 31 := by
  have h2 := h.2
  have : (x.key.getD []).length + x.val.length + 40 ≤
      (rs.map fun r => (r.key.getD []).length + r.val.length + 40).sum := by
    clear h2 h
    induction rs with
    | nil => cases hx
    | cons y ys ih =>
      rw [List.map_cons, List.sum_cons]
      rcases List.mem_cons.1 hx with rfl | hx
      · omega
      · have := ih hx; omega
  omega

/-! ## A module and a chain -/

/-- What a wire-level result says on records. -/
def Agrees (r : Except CallErr Out) (o : Option (Output Bytes String)) : Prop :=
  match o with
  | none => r = .error .trap
  | some o => ∃ out, r = .ok out ∧ out.successes.map toRec = o.successes ∧
      out.error.map (fun e => (e.hint, e.offset.toInt)) = o.error

theorem offset_toInt (base : BitVec 64) (d : BitVec 64) (h : 0 ≤ base.toInt ∧ base.toInt < 2 ^ 63 - 2 ^ 31)
    (hd : -2 ^ 31 ≤ d.toInt ∧ d.toInt < 2 ^ 31) : (base + d).toInt = base.toInt + d.toInt := by
  rw [BitVec.toInt_add, Int.bmod_eq_of_le]
  · simp only [Nat.reducePow]; omega
  · simp only [Nat.reducePow]; omega

/-- What the host gets from a loop. -/
def resOf : Option (Out × Bytes) → Except CallErr Out
  | none => .error .trap
  | some x => .ok x.1

/-- The accumulator after a loop. -/
def accOf (a : Bytes) : Option (Out × Bytes) → Bytes
  | none => a
  | some x => x.2

/-- The limits on one call: what goes in and what comes out. -/
structure CallFits (base ts : BitVec 64) (w : WInst μ) (rs : List Record) : Prop where
  offset : 0 ≤ base.toInt ∧ base.toInt < 2 ^ 63 - 2 ^ 31
  input : RecsFit rs
  acc : w.acc.length < 2 ^ 31
  version : w.isAgg = true → 16 ≤ w.version
  output : ∀ o, ((w.inst base ts).process base.toInt (rs.map toRec)).2 = some o →
    Limits o.successes ∧ ∀ e, o.error = some e → e.1.utf8ByteSize < 2 ^ 15

theorem WInst.process_eq {base ts : BitVec 64} {w : WInst μ} {rs : List Record} (h : CallFits base ts w rs) :
    (w.process (mkInput base ts rs)).1 = w.with ((w.inst base ts).process base.toInt (rs.map toRec)).1 ∧
    Agrees (w.process (mkInput base ts rs)).2 ((w.inst base ts).process base.toInt (rs.map toRec)).2 ∧
    (∀ out, (w.process (mkInput base ts rs)).2 = .ok out →
      ∀ x ∈ out.successes, x.headers = 0 ∨ ∃ r ∈ rs, x.headers = r.headers) ∧
    (w.process (mkInput base ts rs)).1.acc.length < 2 ^ 31 := by
  obtain ⟨hbase, hin, hacc, hver, hout⟩ := h
  -- the loop of this module
  generalize hfn : w.fn base (if 22 ≤ w.version then ts else 0) = fn
  generalize ha : (if w.isAgg then w.acc else []) = a
  have hal : a.length < 2 ^ 31 := by
    rw [← ha]
    split
    · exact hacc
    · exact (show (0 : Nat) < 2 ^ 31 by decide)
  have hinst : w.inst base ts = ⟨fn, w.mem, a⟩ := by simp only [WInst.inst, hfn, ha]
  rw [hinst] at hout ⊢
  obtain ⟨hm, hres⟩ := loopRel fn base rs w.mem a
  have hhead := loopW_headers fn base rs w.mem a
  have hag := guestLoop_acc fn (rs.map toRec) w.mem a
  generalize hg : guestLoop fn w.mem a (rs.map toRec) = g at hm hres hag
  generalize hl : loopW fn base w.mem a rs = l at hm hres hhead
  obtain ⟨m', lo⟩ := l
  dsimp only at hm hres hhead
  subst hm
  -- what the module computes fits and agrees
  have key : (∀ x, lo = some x → OutFits x.1 ∧ x.2 = g.acc ∧ x.2.length < 2 ^ 31) ∧
      Agrees (resOf lo)
        ((⟨fn, w.mem, a⟩ : Inst μ Bytes String).process base.toInt (rs.map toRec)).2 ∧
      ((⟨fn, w.mem, a⟩ : Inst μ Bytes String).process base.toInt (rs.map toRec)).1 =
        ⟨fn, g.mem, accOf a lo⟩ := by
    have hacc' : ∀ o, ((⟨fn, w.mem, a⟩ : Inst μ Bytes String).process base.toInt (rs.map toRec)).2 = some o →
        o.successes = g.out → g.acc.length < 2 ^ 31 := by
      intro o h1 h2
      rcases hag.2 with h | ⟨x, hx, h⟩
      · rw [h]; exact hal
      · rw [← h]; exact ((hout o h1).1.val (by rw [h2]; exact hx)).2
    simp only [Inst.process, hg] at hout hacc' ⊢
    cases hf : g.fail with
    | none =>
      rw [hf] at hres hout hacc'
      obtain ⟨out, h1, h2⟩ := hres
      subst h1
      refine ⟨fun x hx => ?_, ⟨_, rfl, h2, rfl⟩, rfl⟩
      injection hx with hx
      subst hx
      refine ⟨⟨(recsFit_iff out).2 ⟨by rw [h2]; exact (hout _ rfl).1, fun x hx => ?_⟩, nofun⟩, rfl,
        hacc' _ rfl rfl⟩
      rcases hhead _ _ rfl x hx with h | ⟨r, hr, h⟩
      · rw [h]; decide
      · rw [h]; exact (hin.1 r hr).2.2
    | some z =>
      obtain ⟨e, x⟩ := z
      rw [hf] at hres hout hacc'
      cases e with
      | trap =>
        dsimp only at hres
        subst hres
        exact ⟨nofun, rfl, rfl⟩
      | err e =>
        obtain ⟨out, pre, r, post, h0, h1, h2, h3⟩ := hres
        subst h2
        have hr : r ∈ rs := by rw [h0]; exact List.mem_append_right _ List.mem_cons_self
        refine ⟨fun y hy => ?_, ⟨_, rfl, h3, ?_⟩, rfl⟩
        · injection hy with hy
          subst hy
          refine ⟨⟨(recsFit_iff out).2 ⟨by rw [h3]; exact (hout _ rfl).1, fun x hx => ?_⟩, fun y hy => ?_⟩, rfl,
            hacc' _ rfl rfl⟩
          · rcases hhead _ _ rfl x hx with h | ⟨r, hr, h⟩
            · rw [h]; decide
            · rw [h]; exact (hin.1 r hr).2.2
          · injection hy with hy
            subst hy
            have hv := ((recsFit_iff rs).1 hin).1.val (List.mem_map.2 ⟨r, hr, rfl⟩)
            exact ⟨(hout _ rfl).2 _ rfl, hv.1, hv.2⟩
        · show some (e, (base + r.preamble.offsetDelta).toInt) = some (e, base.toInt + x.delta)
          rw [offset_toInt base _ hbase (hin.1 r hr).2.1, ← h1]
          rfl
  obtain ⟨k1, k2, k3⟩ := key
  rw [k3]
  unfold WInst.process
  by_cases hagg : w.isAgg = true
  · rw [if_pos hagg] at ha
    have hc := aggCall_eq w.version (fun m a b t rs => loopW (w.fn b t) b m a rs) w.mem w.acc base ts rs hin hacc
      g.mem lo (by rw [hfn, ha, hl]) (fun x hx => ⟨(k1 x hx).1, (k1 x hx).2.2⟩)
    rw [if_pos hagg, hc]
    cases lo with
    | none =>
      refine ⟨?_, k2, nofun, hacc⟩
      simp only [WInst.with, if_pos hagg, ← ha, accOf]
    | some x =>
      dsimp only
      rw [if_pos (hver hagg)]
      refine ⟨?_, k2, ?_, (k1 x rfl).2.2⟩
      · simp only [WInst.with, if_pos hagg, accOf]
      · intro out ho
        injection ho with ho
        subst ho
        exact hhead x.1 x.2 rfl
  · rw [if_neg hagg] at ha
    subst ha
    have hc := hostCall_eq w.version (fun m b t rs => ((loopW (w.fn b t) b m [] rs).1,
        (loopW (w.fn b t) b m [] rs).2.map Prod.fst)) w.mem base ts rs hin g.mem (lo.map Prod.fst)
        (by rw [hfn, hl]) (fun x hx => by
          cases lo with
          | none => cases hx
          | some y => injection hx with hx; subst hx; exact (k1 y rfl).1)
    rw [if_neg hagg, hc]
    cases lo with
    | none =>
      refine ⟨?_, k2, nofun, hacc⟩
      simp only [WInst.with, if_neg hagg]
    | some x =>
      refine ⟨?_, k2, ?_, hacc⟩
      · simp only [WInst.with, if_neg hagg]
      · intro out ho
        injection ho with ho
        subst ho
        exact hhead x.1 x.2 rfl

theorem chainProcess_cons {B ε : Type} (base : Int) (i : Inst μ B ε) (l : List (Inst μ B ε)) (rs : List (Rec B)) :
    chainProcess base (i :: l) rs =
      match i.process base rs with
      | (i', none) => (i' :: l, none)
      | (i', some o) =>
        match o.error with
        | some e => (i' :: l, some ⟨o.successes, some e⟩)
        | none => (i' :: (chainProcess base l o.successes).1, (chainProcess base l o.successes).2) := by
  cases l with
  | cons j l => rfl
  | nil =>
    simp only [chainProcess]
    cases h : i.process base rs with
    | mk i' o =>
      cases o with
      | none => rfl
      | some o =>
        obtain ⟨s, e⟩ := o
        cases e <;> rfl

theorem wireProcess_nil (base ts : BitVec 64) {i : Input} {rs : List Record} {rest : Bytes}
    (h : (vecC recordC).dec i.raw = .ok (rs, rest)) :
    wireProcess base ts ([] : List (WInst μ)) i = ([], .ok ⟨rs, none⟩) := by
  unfold wireProcess
  rw [h]

theorem wireProcess_one (base ts : BitVec 64) (w : WInst μ) (i : Input) :
    wireProcess base ts [w] i = ([(w.process i).1], (w.process i).2) := rfl

/-- With no module after this one the output is not encoded again. -/
theorem wireProcess_cons (base ts : BitVec 64) (w : WInst μ) (ws : List (WInst μ)) (i : Input)
    (hfit : ∀ out, (w.process i).2 = .ok out → RecsFit out.successes) :
    wireProcess base ts (w :: ws) i =
      match w.process i with
      | (w', .error e) => (w' :: ws, .error e)
      | (w', .ok o) =>
        match o.error with
        | some _ => (w' :: ws, .ok o)
        | none => (w' :: (wireProcess base ts ws (mkInput base ts o.successes)).1,
            (wireProcess base ts ws (mkInput base ts o.successes)).2) := by
  cases ws with
  | cons j l => rfl
  | nil =>
    rw [wireProcess_one]
    generalize w.process i = x at hfit ⊢
    obtain ⟨w', o⟩ := x
    cases o with
    | error e => rfl
    | ok o =>
      have hr := (vecC_rt recordC_rt).roundtrip o.successes [] (hfit o rfl).wf
      rw [List.append_nil] at hr
      obtain ⟨s, e⟩ := o
      cases e with
      | some e => rfl
      | none =>
        dsimp only
        rw [wireProcess_nil base ts (i := mkInput base ts s) hr]

theorem wireProcess_eq (base ts : BitVec 64) (hbase : 0 ≤ base.toInt ∧ base.toInt < 2 ^ 63 - 2 ^ 31) :
    ∀ (ws : List (WInst μ)) (rs : List Record),
    (∀ r ∈ rs, -2 ^ 31 ≤ r.headers.toInt ∧ r.headers.toInt < 2 ^ 31) →
    (∀ w ∈ ws, w.acc.length < 2 ^ 31 ∧ (w.isAgg = true → 16 ≤ w.version)) →
    (∀ k o, (chainProcess base.toInt ((ws.map (WInst.inst base ts)).take k) (rs.map toRec)).2 = some o →
      Limits o.successes ∧ ∀ e, o.error = some e → e.1.utf8ByteSize < 2 ^ 15) →
    (wireProcess base ts ws (mkInput base ts rs)).1 =
      List.zipWith WInst.with ws (chainProcess base.toInt (ws.map (WInst.inst base ts)) (rs.map toRec)).1 ∧
    Agrees (wireProcess base ts ws (mkInput base ts rs)).2
      (chainProcess base.toInt (ws.map (WInst.inst base ts)) (rs.map toRec)).2 ∧
    ∀ w ∈ (wireProcess base ts ws (mkInput base ts rs)).1, w.acc.length < 2 ^ 31
  | [], rs, hh, _, hlim => by
    have hf : RecsFit rs := (recsFit_iff rs).2 ⟨(hlim 0 _ rfl).1, hh⟩
    have hr := (vecC_rt recordC_rt).roundtrip rs [] hf.wf
    rw [List.append_nil] at hr
    rw [wireProcess_nil base ts (i := mkInput base ts rs) hr]
    exact ⟨rfl, ⟨_, rfl, rfl, rfl⟩, nofun⟩
  | w :: ws, rs, hh, hw, hlim => by
    have hf : RecsFit rs := (recsFit_iff rs).2 ⟨(hlim 0 _ rfl).1, hh⟩
    have hc : CallFits base ts w rs := by
      refine ⟨hbase, hf, (hw w List.mem_cons_self).1, (hw w List.mem_cons_self).2, fun o ho => ?_⟩
      refine hlim 1 o ?_
      simp only [List.map_cons, List.take_succ_cons, List.take_zero, chainProcess]
      exact ho
    obtain ⟨p1, p2, p3, p4⟩ := w.process_eq hc
    have hagree := p2
    -- what comes out fits
    have hofit : ∀ out, (w.process (mkInput base ts rs)).2 = .ok out → RecsFit out.successes := by
      intro out ho
      cases hp : ((w.inst base ts).process base.toInt (rs.map toRec)).2 with
      | none => rw [hp, ho] at p2; cases p2
      | some o =>
        rw [hp, ho] at p2
        obtain ⟨out', h1, h2, _⟩ := p2
        injection h1 with h1
        subst h1
        refine (recsFit_iff _).2 ⟨by rw [h2]; exact (hc.output o hp).1, fun x hx => ?_⟩
        rcases p3 out ho x hx with h | ⟨r, hr, h⟩
        · rw [h]; decide
        · rw [h]; exact hh r hr
    rw [wireProcess_cons base ts w ws _ hofit, List.map_cons, chainProcess_cons]
    have hlim' : ∀ o, ((w.inst base ts).process base.toInt (rs.map toRec)).2 = some ⟨o, none⟩ → ∀ k o',
        (chainProcess base.toInt ((ws.map (WInst.inst base ts)).take k) o).2 = some o' →
        Limits o'.successes ∧ ∀ e, o'.error = some e → e.1.utf8ByteSize < 2 ^ 15 := by
      intro o ho k o' h
      refine hlim (k + 1) o' ?_
      rw [List.map_cons, List.take_succ_cons, chainProcess_cons]
      cases hp : (w.inst base ts).process base.toInt (rs.map toRec) with
      | mk i' y =>
        rw [hp] at ho
        dsimp only at ho
        subst ho
        exact h
    have hacc : ∀ w ∈ ws, w.acc.length < 2 ^ 31 := fun x hx => (hw x (List.mem_cons_of_mem _ hx)).1
    have hzip : List.zipWith WInst.with ws (ws.map (WInst.inst base ts)) = ws := by
      clear hlim hw hlim' hacc
      induction ws with
      | nil => rfl
      | cons x xs ih =>
        rw [List.map_cons, List.zipWith_cons_cons, ih]
        congr 1
        simp only [WInst.with, WInst.inst]
        by_cases h : x.isAgg = true
        · simp only [if_pos h]
        · simp only [if_neg h]
    cases hp : (w.inst base ts).process base.toInt (rs.map toRec) with
    | mk i' y =>
    cases hq : w.process (mkInput base ts rs) with
    | mk w' z =>
    rw [hp, hq] at hagree p1
    rw [hq] at p3 p4 hofit
    rw [hp] at hlim'
    dsimp only at hagree p1 p3 p4 hofit hlim' ⊢
    cases y with
    | none =>
      have hz : z = .error .trap := hagree
      subst hz
      refine ⟨?_, rfl, fun x hx => ?_⟩
      · dsimp only
        rw [List.zipWith_cons_cons, hzip, p1]
      · rcases List.mem_cons.1 hx with rfl | hx
        · exact p4
        · exact hacc x hx
    | some o =>
      obtain ⟨out, h1, h2, h3⟩ := hagree
      subst h1
      obtain ⟨s, e⟩ := o
      obtain ⟨s', e'⟩ := out
      dsimp only at h2 h3
      cases e with
      | some e =>
        cases e' with
        | none => cases h3
        | some e' =>
          refine ⟨?_, ⟨_, rfl, h2, h3⟩, fun x hx => ?_⟩
          · dsimp only
            rw [List.zipWith_cons_cons, hzip, p1]
          · rcases List.mem_cons.1 hx with rfl | hx
            · exact p4
            · exact hacc x hx
      | none =>
        cases e' with
        | some e' => cases h3
        | none =>
          subst h2
          obtain ⟨q1, q2, q3⟩ := wireProcess_eq base ts hbase ws s'
            (fun x hx => by
              rcases p3 _ rfl x hx with h | ⟨r, hr, h⟩
              · rw [h]; decide
              · rw [h]; exact hh r hr)
            (fun x hx => hw x (List.mem_cons_of_mem _ hx)) (hlim' _ rfl)
          refine ⟨?_, q2, fun x hx => ?_⟩
          · dsimp only
            rw [List.zipWith_cons_cons, q1, p1]
          · rcases List.mem_cons.1 hx with rfl | hx
            · exact p4
            · exact q3 x hx

/-! ## Errors -/

/-- An error of the loop is about the first record whose user function failed; the successes are those of the
records before. -/
theorem loopW_err (fn : Fn μ Bytes String) (base : BitVec 64) : ∀ (rs : List Record) (m : μ) (a : Bytes)
    (o : Out) (a' : Bytes) (e : RtError), (loopW fn base m a rs).2 = some (o, a') → o.error = some e →
    ∃ pre r post m1 a1, rs = pre ++ r :: post ∧ loopW fn base m a pre = (m1, some (⟨o.successes, none⟩, a1)) ∧
      (fn.applyW m1 a1 r).2 = .error (.err e.hint) ∧ e = mkError fn.kind base r e.hint
  | [], m, a, o, a', e, h, he => by
    simp only [loopW, Option.some.injEq, Prod.mk.injEq] at h
    rw [← h.1] at he
    cases he
  | r :: rs, m, a, o, a', e, h, he => by
    simp only [loopW] at h
    cases hw : fn.applyW m a r with
    | mk m' x =>
    rw [hw] at h
    cases x with
    | error f =>
      cases f with
      | trap => cases h
      | err f =>
        simp only [Option.some.injEq, Prod.mk.injEq] at h
        rw [← h.1] at he ⊢
        injection he with he
        subst he
        exact ⟨[], r, rs, m, a, rfl, rfl, by rw [hw]; rfl, rfl⟩
    | ok y =>
      obtain ⟨a2, o2⟩ := y
      dsimp only at h
      have ih := loopW_err fn base rs m' a2
      cases hl : loopW fn base m' a2 rs with
      | mk m'' y =>
      rw [hl] at h ih
      cases y with
      | none => cases h
      | some z =>
        obtain ⟨out, a3⟩ := z
        simp only [Option.some.injEq, Prod.mk.injEq] at h
        obtain ⟨h1, h2⟩ := h
        subst h1
        obtain ⟨pre, r', post, m1, a1, k1, k2, k3, k4⟩ := ih out a3 e rfl he
        refine ⟨r :: pre, r', post, m1, a1, by rw [k1]; rfl, ?_, k3, k4⟩
        simp only [loopW, hw, k2]

/-- A length of 32 KiB or more is taken for a negative number, and the text for what follows. -/
theorem string_long {s : String} (h1 : 2 ^ 15 ≤ (strBytes s).length) (h2 : (strBytes s).length < 2 ^ 16)
    (rest : Bytes) : stringC.dec (stringC.enc s ++ rest) = .ok ("", strBytes s ++ rest) := by
  simp only [stringC, List.append_assoc]
  rw [Dec.bind_ok (intDec_beEnc 2 _ _), if_pos]
  rw [BitVec.toInt_eq_toNat_cond, BitVec.toNat_ofNat, Nat.mod_eq_of_lt (by omega), if_neg (by omega)]
  omega

theorem kindC_unknown {b : UInt8} (hb : 6 < b.toNat) (rest : Bytes) : kindC.dec (b :: rest) = .error .invalid := by
  have hi : intDec 1 (b :: rest) = .ok (BitVec.ofNat 8 b.toNat, rest) := by
    have := intDec_beEnc 1 b.toNat rest
    have e : beEnc 1 b.toNat = [b] := by simp [beEnc]
    rw [e] at this
    exact this
  simp only [kindC]
  rw [Dec.bind_ok hi]
  have hne : ∀ k : Nat, k ≤ 6 → BitVec.ofNat 8 b.toNat ≠ BitVec.ofNat 8 k := by
    intro k hk h
    have := congrArg BitVec.toNat h
    rw [BitVec.toNat_ofNat, BitVec.toNat_ofNat] at this
    have hb' := b.toNat_lt
    omega
  rw [if_neg (show ¬ (BitVec.ofNat 8 b.toNat : BitVec (8 * 1)) = 0 from hne 0 (by omega)),
    if_neg (show ¬ (BitVec.ofNat 8 b.toNat : BitVec (8 * 1)) = 1 from hne 1 (by omega)),
    if_neg (show ¬ (BitVec.ofNat 8 b.toNat : BitVec (8 * 1)) = 2 from hne 2 (by omega)),
    if_neg (show ¬ (BitVec.ofNat 8 b.toNat : BitVec (8 * 1)) = 3 from hne 3 (by omega)),
    if_neg (show ¬ (BitVec.ofNat 8 b.toNat : BitVec (8 * 1)) = 4 from hne 4 (by omega)),
    if_neg (show ¬ (BitVec.ofNat 8 b.toNat : BitVec (8 * 1)) = 5 from hne 5 (by omega)),
    if_neg (show ¬ (BitVec.ofNat 8 b.toNat : BitVec (8 * 1)) = 6 from hne 6 (by omega))]
  rfl

theorem rtErrorC_long {e : RtError} (h1 : 2 ^ 15 ≤ (strBytes e.hint).length)
    (h2 : (strBytes e.hint).length < 2 ^ 16) (h9 : ∀ b, (strBytes e.hint)[8]? = some b → 6 < b.toNat)
    (rest : Bytes) : rtErrorC.dec (rtErrorC.enc e ++ rest) = .error .invalid := by
  generalize hs : strBytes e.hint = l at h1 h2 h9
  have hl : ∃ x b y, l = x ++ b :: y ∧ x.length = 8 := by
    refine ⟨l.take 8, l[8]'(by omega), l.drop 9, ?_, by rw [List.length_take]; omega⟩
    rw [← List.drop_eq_getElem_cons, List.take_append_drop]
  obtain ⟨x, b, y, rfl, hx⟩ := hl
  have hb : 6 < b.toNat := h9 b (by rw [List.getElem?_append_right (by omega), hx]; rfl)
  have hbe : beEnc 8 (beVal x) = x := by rw [← hx]; exact beEnc_beVal x
  have hi : ∀ r, (intC 8).dec (x ++ b :: y ++ r) = .ok (BitVec.ofNat 64 (beVal x), b :: y ++ r) := by
    intro r
    have := intDec_beEnc 8 (beVal x) (b :: y ++ r)
    rw [hbe, ← List.append_assoc] at this
    exact this
  simp only [rtErrorC, isoC, pairC, List.append_assoc]
  refine bind_error ?_
  rw [Dec.bind_ok (string_long (by rw [hs]; omega) (by rw [hs]; omega) _), hs]
  refine bind_error ?_
  rw [Dec.bind_ok (hi _)]
  exact bind_error (bind_error (kindC_unknown hb _))

theorem outC_long {s : List Record} {e : RtError} (hs : RecsFit s) (h1 : 2 ^ 15 ≤ (strBytes e.hint).length)
    (h2 : (strBytes e.hint).length < 2 ^ 16) (h9 : ∀ b, (strBytes e.hint)[8]? = some b → 6 < b.toNat) :
    outC.dec (outC.enc ⟨s, some e⟩) = .error .invalid := by
  have hd := rtErrorC_long h1 h2 h9 []
  rw [List.append_nil] at hd
  have ho : (optionC rtErrorC).dec ((optionC rtErrorC).enc (some e)) = .error .invalid := by
    simp only [optionC]
    rw [Dec.bind_ok (boolC_lawful.roundtrip true _ trivial), if_pos rfl]
    exact bind_error hd
  simp only [outC, isoC, pairC]
  refine bind_error ?_
  rw [Dec.bind_ok ((vecC_rt recordC_rt).roundtrip s _ hs.wf)]
  exact bind_error ho

theorem readBack_err {α : Type} {c : Codec α} {n : Nat} (hn : n < 2 ^ 31) {bytes : Bytes} {e : Err}
    (h : c.dec bytes = .error e) : readBack c (some ⟨BitVec.ofNat 32 n, some bytes⟩) = .error .decode := by
  unfold readBack
  dsimp only
  rw [if_neg (status_nonneg hn), Option.getD_some, h]

/-- An error with a long text makes the whole output of the call unreadable. -/
theorem hostCall_long (v : Int) (body : μ → BitVec 64 → BitVec 64 → List Record → μ × Option Out) (m : μ)
    (base ts : BitVec 64) (rs : List Record) (h : RecsFit rs) (m' : μ) (s : List Record) (e : RtError)
    (hb : body m base (if 22 ≤ v then ts else 0) rs = (m', some ⟨s, some e⟩)) (hs : RecsFit s)
    (h1 : 2 ^ 15 ≤ (strBytes e.hint).length) (h2 : (strBytes e.hint).length < 2 ^ 16)
    (h9 : ∀ b, (strBytes e.hint)[8]? = some b → 6 < b.toNat) :
    hostCall v body m (mkInput base ts rs) = (m', .error .decode) := by
  have hd := inputC_dec v (mkInput base ts rs) [] h.raw
  have hr := (vecC_rt recordC_rt).roundtrip rs [] h.wf
  simp only [List.append_nil] at hd hr
  have hg := guestMain_ok (body := body) (m := m) hd hr hb
  unfold hostCall
  rw [hg, Option.map_some, readBack_err (n := s.length) hs.count (outC_long hs h1 h2 h9)]

end Verif.Smart
