import Verif.Wire.Universe
import Verif.Wire.RawBatch

/-!
# C03, C04, C47 — protocol values

`Ty.fits`, `Ty.seenAt` (in `Verif.Wire.Universe`) and `Record.fits` are the specification vocabulary:
they mention neither encoders nor decoders.
-/

namespace Verif.Props
open Verif.Wire

/-- **C03.** For every protocol type without versioned fields and every value within the limits of the
length prefixes: decoding the encoding followed by anything returns the value and leaves exactly what
followed; the announced size is the number of bytes produced.  (`ver` is the protocol version passed
around; it has no influence here.) -/
theorem C03_roundtrip {α : Type} (t : Ty α) (ht : t.ok) (hu : t.unversioned) (ver : Int) (v : α)
    (hv : t.fits ver v) (rest : Bytes) :
    (t.codec ver).dec ((t.codec ver).enc v ++ rest) = .ok (v, rest) ∧
      (t.codec ver).size v = ((t.codec ver).enc v).length := by
  obtain ⟨hw, -, -⟩ := t.seenAt_wf ver (t.unversioned_keysPlain hu) v hv
  rw [t.seenAt_unversioned ver hu] at hw
  exact ⟨(t.lawful ver ht).roundtrip v rest hw, (t.lawful ver ht).size_eq v hw⟩

/-- **C03.** Values of the same type with the same encoding are equal, and no encoding is a proper
prefix of another. -/
theorem C03_prefix_free {α : Type} (t : Ty α) (ht : t.ok) (hu : t.unversioned) (ver : Int) (v w : α)
    (hv : t.fits ver v) (hw : t.fits ver w) (tl : Bytes)
    (h : (t.codec ver).enc w = (t.codec ver).enc v ++ tl) : v = w ∧ tl = [] := by
  have a := (C03_roundtrip t ht hu ver v hv tl).1
  have b := (C03_roundtrip t ht hu ver w hw []).1
  rw [List.append_nil, h, a] at b
  simp only [Except.ok.injEq, Prod.mk.injEq] at b
  exact b

/-- an ordered map from strings to optional lists of (integer, duration) pairs -/
def sampleTy : Ty (List (String × Option (List (BitVec (8 * 4) × (BitVec 64 × BitVec 32))))) :=
  .map (fun a b => decide (a < b)) .string (.option (.vec (.pair (.int 4) .duration)))

example : sampleTy.ok ∧ sampleTy.unversioned ∧
    sampleTy.fits 0 [("a", none), ("b", some [(7#32, 1#64, 5#32)])] := by
  refine ⟨⟨trivial, trivial, trivial⟩, ⟨trivial, trivial, trivial⟩, ?_, ?_, ?_⟩
  · decide
  · intro e he
    simp only [List.mem_cons, List.not_mem_nil, or_false] at he
    rcases he with rfl | rfl
    · refine ⟨by show "a".utf8ByteSize < 2 ^ 15; decide, ?_⟩
      intro x hx
      exact absurd hx (by simp)
    · refine ⟨by show "b".utf8ByteSize < 2 ^ 15; decide, ?_⟩
      intro x hx
      simp only [Option.some.injEq] at hx
      subst hx
      refine ⟨by decide, ?_⟩
      intro y hy
      simp only [List.mem_cons, List.not_mem_nil, or_false] at hy
      subst hy
      exact ⟨trivial, by show (5#32).toNat < 1000000000; decide⟩
  · simp [List.pairwise_cons]

/-- A three-variant enum with one-byte tags satisfies the well-formedness of types. -/
example : (Ty.enumCons 1 0#8 .unit (.enumCons 1 1#8 .string (.enumCons 1 5#8 .bool (.enumNil 1)))).ok :=
  ⟨trivial, ⟨trivial, ⟨trivial, trivial, [], .nil, by decide⟩, [5#8], .cons _ _ _ .nil, by decide⟩,
    [1#8, 5#8], .cons _ _ _ (.cons _ _ _ .nil), by decide⟩

/-- **C03 (why the limits are needed).** The encoder writes any string, but a string of 2^15 to 2^16-1
bytes is read back as the empty string, its bytes being left in the stream (the length is written as
an unsigned and read as a signed 16-bit number). -/
theorem C03_long_string_misread (s : String) (h1 : 2 ^ 15 ≤ s.utf8ByteSize) (h2 : s.utf8ByteSize < 2 ^ 16)
    (rest : Bytes) : ∃ bytes, bytes.length = s.utf8ByteSize ∧
      (Ty.string.codec 0).dec ((Ty.string.codec 0).enc s ++ rest) = .ok ("", bytes ++ rest) := by
  have hb : (strBytes s).length = s.utf8ByteSize := by unfold strBytes; simp
  refine ⟨strBytes s, hb, ?_⟩
  simp only [Ty.codec, stringC, List.append_assoc]
  rw [Dec.bind_ok (intDec_beEnc 2 _ _)]
  have : (BitVec.ofNat (8 * 2) (strBytes s).length).toInt ≤ 0 := by
    rw [hb, BitVec.toInt_eq_toNat_cond]
    simp only [BitVec.toNat_ofNat]
    rw [Nat.mod_eq_of_lt (by omega), if_neg (by omega)]
    omega
  simp only [if_pos this]

/-- **C04 (partial).** For every protocol type without byte buffers (and every version), every
truncation of an encoding is answered by an error.  Missing: `ByteBuf` (the decoder panics,
`C04_violated_bytebuf_panic`) and batches decoded outside a record set
(`C04_violated_batch_accepted`). -/
theorem C04_values_partial {α : Type} (t : Ty α) (ht : t.ok) (hk : t.keysPlain) (hb : t.noByteBuf)
    (ver : Int) (v : α) (hv : t.fits ver v) (cut rest : Bytes)
    (h : (t.codec ver).enc v = cut ++ rest) (hne : rest ≠ []) :
    (t.codec ver).dec cut = .error .eof ∨ (t.codec ver).dec cut = .error .invalid := by
  obtain ⟨hw, he, -⟩ := t.seenAt_wf ver hk v hv
  obtain ⟨e, h1, h2⟩ := t.prefixSafe ver ht hb _ hw cut rest (he.trans h) hne
  cases e
  · exact .inl h1
  · exact .inr h1
  · exact absurd rfl h2

example : (Ty.pair .bool (.vec .string)).ok ∧ (Ty.pair .bool (.vec .string)).keysPlain ∧
    (Ty.pair .bool (.vec .string)).noByteBuf ∧ ((Ty.pair .bool (.vec .string)).fits 0 (true, ["x"])) ∧
    ((Ty.pair .bool (.vec .string)).codec 0).enc (true, ["x"]) = [1, 0, 0, 0, 1, 0] ++ [1, 120] := by
  refine ⟨⟨trivial, trivial⟩, ⟨trivial, trivial⟩, ⟨trivial, trivial⟩, ⟨trivial, by decide, ?_⟩, by decide⟩
  intro v hv
  simp only [List.mem_cons, List.not_mem_nil, or_false] at hv
  subst hv
  show "x".utf8ByteSize < 2 ^ 15
  decide

/-- **C04 (partial).** Byte buffers included, no truncated encoding is ever read as a value (but the
decoder may panic instead of reporting an error). -/
theorem C04_never_misread_partial {α : Type} (t : Ty α) (ht : t.ok) (hk : t.keysPlain)
    (ver : Int) (v : α) (hv : t.fits ver v) (cut rest : Bytes)
    (h : (t.codec ver).enc v = cut ++ rest) (hne : rest ≠ []) :
    ∀ w left, (t.codec ver).dec cut ≠ .ok (w, left) := by
  obtain ⟨hw, he, -⟩ := t.seenAt_wf ver hk v hv
  obtain ⟨e, h1⟩ := (t.lawful ver ht).rejects_prefix _ hw cut rest (he.trans h) hne
  intro w left hh
  rw [h1] at hh
  cases hh

/-- **C04.** Truncated records are reported. -/
theorem C04_record (r : Record) (hr : r.fits) (cut rest : Bytes) (h : recordC.enc r = cut ++ rest)
    (hne : rest ≠ []) : recordC.dec cut = .error .eof ∨ recordC.dec cut = .error .invalid := by
  obtain ⟨e, h1, h2⟩ := recordC_safe r hr.wf cut rest h hne
  cases e
  · exact .inl h1
  · exact .inr h1
  · exact absurd rfl h2

def sampleRecord : Record := ⟨⟨0#8, 3#64, 1#64⟩, some [7, 8], [1, 2, 3], 0#64⟩

theorem sampleRecord_fits : sampleRecord.fits := by
  refine ⟨?_, ?_, ?_, ?_⟩ <;> decide

example : sampleRecord.fits ∧ recordC.enc sampleRecord = [24, 0, 6, 2, 1, 4, 7, 8, 6, 1, 2] ++ [3, 0] :=
  ⟨sampleRecord_fits, by decide⟩

/-- **C04.** Truncated record sets are reported (for in-memory and for raw records). -/
theorem C04_record_set {R : Type} (rc : RecordsC R) (bs : List (Batch R)) (cut rest : Bytes)
    (hlen : (encSet rc bs).length < 2 ^ 31) (h : encSet rc bs = cut ++ rest) (hne : rest ≠ []) :
    decSet rc cut = .error .eof := by
  refine decSet_prefix bs cut rest ?_ h hne
  unfold encSet at hlen
  rw [List.length_append] at hlen
  omega

def sampleBatch : Batch Bytes := ⟨5#64, 0#32, .default, 0#32, [1, 2, 3]⟩

example : (encSet rawC [sampleBatch]).length = 64 := by decide +kernel
example : decSet rawC ((encSet rawC [sampleBatch]).take 63) = .error .eof := by decide +kernel

/-- **C04 (violated).** A truncated byte buffer makes the decoder panic. -/
theorem C04_violated_bytebuf_panic :
    (Ty.byteBuf.codec 0).enc [1, 2] = [0, 0, 0, 2, 1] ++ [2] ∧
      (Ty.byteBuf.codec 0).dec [0, 0, 0, 2, 1] = .error .panic := by decide

/-- **C04 (violated).** A batch cut inside its records and decoded on its own is accepted, with fewer
record bytes than were written. -/
theorem C04_violated_batch_accepted :
    ∃ b, decBatch rawC ((encBatch rawC sampleBatch).take 59) = .ok (b, []) ∧ b.records = [1, 2] := by
  refine ⟨⟨5#64, 48#32, { BatchHeader.default with crc := crc32c (batchBody rawC sampleBatch) }, 0#32,
    [1, 2]⟩, ?_, rfl⟩
  decide +kernel

/-- **C04 (violated).** The payload type of keys and values, decoded on its own, accepts a truncated
encoding (inside a record the record's length protects it, `C04_record`). -/
theorem C04_violated_record_data :
    recordDataC.enc [1, 2, 3] = [6, 1, 2] ++ [3] ∧ recordDataC.dec [6, 1, 2] = .ok ([1, 2], []) := by
  decide

/-- **C47.** For every message type with versioned fields and every version: decoding at that version
what was encoded at that version returns what exists in the version and defaults elsewhere
(`Ty.seenAt`), leaves what follows, and the announced size is right. -/
theorem C47_versioned {α : Type} (t : Ty α) (ht : t.ok) (hk : t.keysPlain) (ver : Int) (v : α)
    (hv : t.fits ver v) (rest : Bytes) :
    (t.codec ver).dec ((t.codec ver).enc v ++ rest) = .ok (t.seenAt ver v, rest) ∧
      (t.codec ver).size v = ((t.codec ver).enc v).length := by
  obtain ⟨hw, he, hs⟩ := t.seenAt_wf ver hk v hv
  have l := t.lawful ver ht
  refine ⟨?_, ?_⟩
  · rw [← he]; exact l.roundtrip _ rest hw
  · rw [← hs, ← he]; exact l.size_eq _ hw

/-- a struct `{ a: String, #[min_version = 2, max_version = 4] b: Vec<u16>, #[min_version = 3] c: bool }` -/
def sampleMsg : Ty (String × List (BitVec (8 * 2)) × Bool) :=
  .pair .string (.pair (.field 2 (some 4) (.vec (.int 2)) []) (.field 3 none .bool false))

example : sampleMsg.ok ∧ sampleMsg.keysPlain := ⟨⟨trivial, trivial, trivial⟩, trivial, trivial, trivial⟩
example : sampleMsg.seenAt 1 ("x", [7#16], true) = ("x", [], false) := by decide
example : sampleMsg.seenAt 2 ("x", [7#16], true) = ("x", [7#16], false) := by decide
example : sampleMsg.seenAt 5 ("x", [7#16], true) = ("x", [], true) := by decide
example : sampleMsg.fits 5 ("x", [7#16], true) := by
  refine ⟨by show "x".utf8ByteSize < 2 ^ 15; decide, ?_, fun _ => trivial⟩
  intro h
  exact ⟨by decide, fun _ _ => trivial⟩
example : (sampleMsg.codec 2).enc ("x", [7#16], true) = [0, 1, 120, 0, 0, 0, 1, 0, 7] := by decide

end Verif.Props
