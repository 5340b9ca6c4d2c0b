import Verif.Wire.PrefixSafe

/-!
# Records (`fluvio-protocol/src/record/data.rs`)
-/

namespace Verif.Wire

/-- A codec seen through a one-to-one correspondence (a Rust struct as nested pairs). -/
def isoC {α β} (c : Codec α) (to : α → β) (from_ : β → α) : Codec β where
  enc v := c.enc (from_ v)
  dec := c.dec.bind fun a => Dec.pure (to a)
  size v := c.size (from_ v)
  wf v := c.wf (from_ v)

theorem isoC_rt {α β} {c : Codec α} {to : α → β} {from_ : β → α} (hc : RoundTrips c)
    (h : ∀ v, to (from_ v) = v) : RoundTrips (isoC c to from_) where
  roundtrip v rest hv := by
    simp only [isoC]
    rw [Dec.bind_ok (hc.roundtrip _ rest hv), h]; rfl
  size_eq v hv := hc.size_eq _ hv

/-- `RecordData` — data.rs:206-225 (encode), 227-247 (decode).  The decoder takes `len` bytes, or all
that is left when there are fewer: `src.take(len)`.  A negative length makes
`BytesMut::with_capacity(len as usize)` panic.  (Running out of memory on a huge length is not
modelled.) -/
def recordDataC : Codec Bytes where
  enc b := varintC.enc (BitVec.ofNat 64 b.length) ++ b
  dec := varintC.dec.bind fun len => fun bs =>
    if len.toInt < 0 then .error .panic else .ok (bs.take len.toNat, bs.drop len.toNat)
  size b := varintC.size (BitVec.ofNat 64 b.length) + b.length
  wf b := b.length < 2 ^ 31

/-- data.rs:395-402 -/
structure RecordHeader where
  attributes : BitVec (8 * 1)
  timestampDelta : BitVec 64
  offsetDelta : BitVec 64
deriving DecidableEq

/-- data.rs:440-448 (`Record<RecordData>`; `headers` is a plain `i64`). -/
structure Record where
  preamble : RecordHeader
  key : Option Bytes
  value : Bytes
  headers : BitVec 64
deriving DecidableEq

/-- derived codec of `RecordHeader` (two `#[varint]` fields) — data.rs:395-402 -/
def recordHeaderC : Codec RecordHeader :=
  isoC (pairC (intC 1) (pairC varintC varintC)) (fun x => ⟨x.1, x.2.1, x.2.2⟩)
    (fun h => (h.attributes, h.timestampDelta, h.offsetDelta))

/-- The part of a record after its length: data.rs:541-544 (encode), 574-578 (decode). -/
def recordInnerC : Codec Record :=
  isoC (pairC recordHeaderC (pairC (optionC recordDataC) (pairC recordDataC varintC)))
    (fun x => ⟨x.1, x.2.1, x.2.2.1, x.2.2.2⟩) (fun r => (r.preamble, r.key, r.value, r.headers))

/-- `Record<RecordData>` — data.rs:528-535 (size), 537-551 (encode), 554-582 (decode). -/
def recordC : Codec Record where
  enc r := varintC.enc (BitVec.ofNat 64 (recordInnerC.enc r).length) ++ recordInnerC.enc r
  dec := varintC.dec.bind fun len => fun bs =>
    if (bs.length : Int) < len.toInt then .error .eof else recordInnerC.dec bs
  size r := varintC.size (BitVec.ofNat 64 (recordInnerC.size r)) + recordInnerC.size r
  wf r := recordInnerC.wf r ∧ (recordInnerC.enc r).length < 2 ^ 31

/-- **Specification.** What a record may contain: deltas and header count in the 32-bit range, key and
value together a little less than 2^31 bytes. -/
def Record.fits (r : Record) : Prop :=
  (-2 ^ 31 ≤ r.preamble.timestampDelta.toInt ∧ r.preamble.timestampDelta.toInt < 2 ^ 31) ∧
  (-2 ^ 31 ≤ r.preamble.offsetDelta.toInt ∧ r.preamble.offsetDelta.toInt < 2 ^ 31) ∧
  (-2 ^ 31 ≤ r.headers.toInt ∧ r.headers.toInt < 2 ^ 31) ∧
  (r.key.getD []).length + r.value.length + 32 ≤ 2 ^ 31

/-! ## Laws -/

theorem recordDataC_rt : RoundTrips recordDataC where
  roundtrip b rest h := by
    have h' : b.length < 2 ^ 31 := h
    simp only [recordDataC, List.append_assoc]
    rw [Dec.bind_ok (varintC_lawful.roundtrip _ _ (ofNat_wf _ h'))]
    have hi := ofNat_toInt_small 64 b.length (by omega)
    have hn : (BitVec.ofNat 64 b.length).toNat = b.length := by
      rw [BitVec.toNat_ofNat]; exact Nat.mod_eq_of_lt (by omega)
    simp only [hi, hn]
    rw [if_neg (by omega), List.take_left' rfl, List.drop_left' rfl]
  size_eq b h := by
    simp only [recordDataC, List.length_append]
    rw [varintC_lawful.size_eq _ (ofNat_wf _ h)]

theorem recordHeaderC_rt : RoundTrips recordHeaderC :=
  isoC_rt (pairC_rt (intC_lawful 1).toRoundTrips
    (pairC_rt varintC_lawful.toRoundTrips varintC_lawful.toRoundTrips)) fun _ => rfl

theorem recordInnerC_rt : RoundTrips recordInnerC :=
  isoC_rt (pairC_rt recordHeaderC_rt (pairC_rt (optionC_rt recordDataC_rt)
    (pairC_rt recordDataC_rt varintC_lawful.toRoundTrips))) fun _ => rfl

theorem recordC_rt : RoundTrips recordC where
  roundtrip r rest h := by
    simp only [recordC, List.append_assoc]
    rw [Dec.bind_ok (varintC_lawful.roundtrip _ _ (ofNat_wf _ h.2))]
    have hi := ofNat_toInt_small 64 (recordInnerC.enc r).length (by have := h.2; omega)
    rw [hi]
    rw [if_neg (by rw [List.length_append]; omega)]
    exact recordInnerC_rt.roundtrip r rest h.1
  size_eq r h := by
    simp only [recordC, List.length_append]
    rw [recordInnerC_rt.size_eq r h.1, varintC_lawful.size_eq _ (ofNat_wf _ h.2)]

theorem recordC_safe : PrefixSafe recordC := by
  intro r h p s he hs
  rcases prefix_split he hs with ⟨s', h1, h2⟩ | ⟨p', h1, h2⟩
  · obtain ⟨e, he, hp⟩ := varintC_safe _ (ofNat_wf _ h.2) p s' h1 h2
    exact ⟨e, bind_error he, hp⟩
  · subst h1
    have hl := prefix_length h2 hs
    refine ⟨.eof, ?_, by decide⟩
    simp only [recordC]
    rw [Dec.bind_ok (varintC_lawful.roundtrip _ _ (ofNat_wf _ h.2)),
      ofNat_toInt_small 64 (recordInnerC.enc r).length (by have := h.2; omega), if_pos (by omega)]

theorem leb_length_le : ∀ (k n : Nat), n < 128 ^ (k + 1) → (leb (k + 1) n).length ≤ k + 1 := by
  intro k
  induction k with
  | zero =>
    intro n h
    have : n < 128 := by omega
    simp [leb, this]
  | succ k ih =>
    intro n h
    have hp : 128 ^ (k + 1 + 1) = 128 ^ (k + 1) * 128 := Nat.pow_succ ..
    rw [show leb (k + 1 + 1) n = if n < 128 then [UInt8.ofNat n]
          else UInt8.ofNat (n % 128 + 128) :: leb (k + 1) (n / 128) from rfl]
    split
    · simp
    · have := ih (n / 128) (by omega)
      simp only [List.length_cons]; omega

theorem varintC_enc_length (v : BitVec 64) (h : varintC.wf v) : (varintC.enc v).length ≤ 5 := by
  have e := varintC_enc v.toInt h.1 h.2
  rw [BitVec.ofInt_toInt] at e
  have hz := zigNat_lt _ h.1 h.2
  rw [e, ← leb_fuel 4 10 _ (Nat.lt_of_lt_of_le hz (by decide)) (by decide)]
  exact leb_length_le 4 _ (Nat.lt_of_lt_of_le hz (by decide))

theorem Record.fits.wf {r : Record} (h : r.fits) : recordC.wf r := by
  obtain ⟨h1, h2, h3, h4⟩ := h
  have hv : r.value.length < 2 ^ 31 := by omega
  have hk : (optionC recordDataC).wf r.key := by
    cases hk : r.key with
    | none => trivial
    | some k => rw [hk] at h4; show k.length < 2 ^ 31; simp at h4; omega
  refine ⟨⟨⟨trivial, h1, h2⟩, hk, hv, h3⟩, ?_⟩
  simp only [recordInnerC, recordHeaderC, isoC, pairC, List.length_append]
  have l1 := varintC_enc_length _ h1
  have l2 := varintC_enc_length _ h2
  have l3 := varintC_enc_length _ h3
  have l0 : ((intC 1).enc r.preamble.attributes).length = 1 := by simp [intC, intEnc]
  have l4 : (recordDataC.enc r.value).length ≤ 5 + r.value.length := by
    simp only [recordDataC, List.length_append]
    have := varintC_enc_length _ (ofNat_wf r.value.length hv); omega
  have l5 : ((optionC recordDataC).enc r.key).length ≤ 6 + (r.key.getD []).length := by
    cases hk : r.key with
    | none => simp [optionC, boolC]
    | some k =>
      rw [hk] at h4
      have := varintC_enc_length _ (ofNat_wf k.length (by simp at h4; omega))
      simp only [optionC, boolC, recordDataC, List.length_append, List.length_cons, List.length_nil,
        Option.getD_some]
      omega
  omega

end Verif.Wire
