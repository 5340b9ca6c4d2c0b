import Verif.Wire.Prim

/-!
# The protocol's value codecs (`fluvio-protocol/src/core/{encoder,decoder,bytebuf}.rs`)

A `Codec α` bundles `Encoder::encode`, `Encoder::write_size` and `Decoder::decode_from` of one Rust
type.  `decode` is always applied to a default value (that is what `decode_from`, `Vec`, `Option`,
`BTreeMap` and the derive macro do).  Destination buffers are growable, so the "not enough capacity"
errors of the encoders do not occur.  `wf` collects the limits imposed by the width of length
prefixes.
-/

namespace Verif.Wire

structure Codec (α : Type) where
  enc : α → Bytes
  dec : Dec α
  size : α → Nat
  /-- the value respects the limits of the length prefixes -/
  wf : α → Prop

/-- What one wants from a codec: decoding inverts encoding and the announced size is right. -/
structure RoundTrips {α} (c : Codec α) : Prop where
  roundtrip : ∀ v rest, c.wf v → c.dec (c.enc v ++ rest) = .ok (v, rest)
  size_eq : ∀ v, c.wf v → c.size v = (c.enc v).length

/-- Moreover the decoder's success does not depend on bytes it does not consume. -/
structure Lawful {α} (c : Codec α) : Prop extends RoundTrips c where
  loc : Local c.dec
  suf : Suffix c.dec

/-- `PhantomData` — encoder.rs:104-118, decoder.rs:98-105. -/
def unitC : Codec Unit where
  enc _ := []
  dec := Dec.pure ()
  size _ := 0
  wf _ := True

/-- Fixed-width integers and floats (as bit patterns), `n` bytes — encoder.rs:176-391,
decoder.rs:158-306. -/
def intC (n : Nat) : Codec (BitVec (8 * n)) where
  enc := intEnc n
  dec := intDec n
  size _ := n
  wf _ := True

/-- `bool` — encoder.rs:152-174, decoder.rs:133-156. -/
def boolC : Codec Bool where
  enc b := [if b then 1 else 0]
  dec := (takeN 1).bind fun xs =>
    if xs = [0] then Dec.pure false else if xs = [1] then Dec.pure true else Dec.fail .invalid
  size _ := 1
  wf _ := True

/-- `Duration` as seconds and nanoseconds — encoder.rs:393-412, decoder.rs:308-327.
`Duration::new(secs, nanos)` carries whole seconds out of `nanos` (and panics on overflow). -/
def durationC : Codec (BitVec 64 × BitVec 32) where
  enc d := beEnc 8 d.1.toNat ++ beEnc 4 d.2.toNat
  dec := (takeN 12).bind fun xs =>
    let secs := beVal (xs.take 8)
    let nanos := beVal (xs.drop 8)
    if secs + nanos / 1000000000 < 2 ^ 64 then
      Dec.pure (BitVec.ofNat 64 (secs + nanos / 1000000000), BitVec.ofNat 32 (nanos % 1000000000))
    else Dec.fail .panic
  size _ := 12
  wf d := d.2.toNat < 1000000000

/-- Bytes of a Rust `String` (UTF-8, as in Lean). -/
def strBytes (s : String) : Bytes := s.toByteArray.data.toList

/-- `String` — encoder.rs:414-448 (`put_u16(len as u16)` then the bytes), decoder.rs:340-373
(`get_i16`, `len <= 0` yields the default, otherwise `take(len)` must be valid UTF-8 of length `len`). -/
def stringC : Codec String where
  enc s := beEnc 2 (strBytes s).length ++ strBytes s
  dec := (intDec 2).bind fun len => fun bs =>
    if len.toInt ≤ 0 then .ok ("", bs)
    else
      match String.fromUTF8? ⟨(bs.take len.toNat).toArray⟩ with
      | none => .error .invalid
      | some s => if (bs.take len.toNat).length ≠ len.toNat then .error .eof
          else .ok (s, bs.drop len.toNat)
  size s := 2 + (strBytes s).length
  wf s := (strBytes s).length < 2 ^ 15

/-- `ByteBuf` — bytebuf.rs:44-87.  `copy_to_bytes(len)` panics when fewer bytes remain. -/
def byteBufC : Codec Bytes where
  enc b := beEnc 4 b.length ++ b
  dec := (intDec 4).bind fun len => fun bs =>
    if len.toNat < 1 then .ok ([], bs)
    else if bs.length < len.toNat then .error .panic
    else .ok (bs.take len.toNat, bs.drop len.toNat)
  size b := 4 + b.length
  wf b := b.length < 2 ^ 32

/-- Variable-length `i64` — encoder.rs:359-371, decoder.rs:329-338.  The encoder does not terminate
on values for which `varintEncode` is `none`; they are excluded by `wf`. -/
def varintC : Codec (BitVec 64) where
  enc n := (varintEncode n).getD []
  dec := fun bs =>
    match varintDecode bs with
    | .error e => .error e
    | .ok ((n, _), rest) => .ok (n, rest)
  size n := (varintSize n).getD 0
  wf n := -2 ^ 31 ≤ n.toInt ∧ n.toInt < 2 ^ 31

/-- Varint-prefixed bytes: written by `RecordData::encode` (record/data.rs:214-224), read by
`Vec<u8>::decode_varint` (decoder.rs:375-402). -/
def varBytesC : Codec Bytes where
  enc b := varintC.enc (BitVec.ofNat 64 b.length) ++ b
  dec := varintC.dec.bind fun len => fun bs =>
    if len.toInt < 1 then .ok ([], bs)
    else if (bs.take len.toNat).length ≠ len.toNat then .error .eof
    else .ok (bs.take len.toNat, bs.drop len.toNat)
  size b := varintC.size (BitVec.ofNat 64 b.length) + b.length
  wf b := b.length < 2 ^ 31

/-- `Option<M>` — encoder.rs:79-102, decoder.rs:77-96. -/
def optionC {α} (c : Codec α) : Codec (Option α) where
  enc
    | some v => boolC.enc true ++ c.enc v
    | none => boolC.enc false
  dec := boolC.dec.bind fun b =>
    if b then c.dec.bind fun v => Dec.pure (some v) else Dec.pure none
  size
    | some v => 1 + c.size v
    | none => 1
  wf
    | some v => c.wf v
    | none => True

/-- `for _ in 0..len { value.decode(src)?; item.push(value) }` — decoder.rs:63-75. -/
def decN {α} (d : Dec α) : Nat → Dec (List α)
  | 0 => Dec.pure []
  | n + 1 => d.bind fun v => (decN d n).bind fun vs => Dec.pure (v :: vs)

/-- `Vec<M>` — encoder.rs:49-77, decoder.rs:39-61. -/
def vecC {α} (c : Codec α) : Codec (List α) where
  enc vs := beEnc 4 vs.length ++ vs.flatMap c.enc
  dec := (intDec 4).bind fun len =>
    if len.toInt < 1 then Dec.pure [] else decN c.dec len.toInt.toNat
  size vs := vs.foldl (fun sum v => sum + c.size v) 4
  wf vs := vs.length < 2 ^ 31 ∧ ∀ v ∈ vs, c.wf v

/-- `BTreeMap::insert` on the sorted list of entries, for a key order `lt`. -/
def mapInsert {κ ν} (lt : κ → κ → Bool) (k : κ) (v : ν) : List (κ × ν) → List (κ × ν)
  | [] => [(k, v)]
  | (k', v') :: t =>
    if lt k' k then (k', v') :: mapInsert lt k v t
    else if lt k k' then (k, v) :: (k', v') :: t
    else (k', v) :: t

/-- The loop of `BTreeMap::decode` — decoder.rs:119-126. -/
def decMap {κ ν} (lt : κ → κ → Bool) (dk : Dec κ) (dv : Dec ν) :
    Nat → List (κ × ν) → Dec (List (κ × ν))
  | 0, m => Dec.pure m
  | n + 1, m => dk.bind fun k => dv.bind fun v => decMap lt dk dv n (mapInsert lt k v m)

/-- `BTreeMap<K, V>` as its list of entries in iteration order, for any key order `lt`
— encoder.rs:120-150, decoder.rs:107-131. -/
def mapC {κ ν} (lt : κ → κ → Bool) (ck : Codec κ) (cv : Codec ν) : Codec (List (κ × ν)) where
  enc m := beEnc 2 m.length ++ m.flatMap fun e => ck.enc e.1 ++ cv.enc e.2
  dec := (intDec 2).bind fun len => decMap lt ck.dec cv.dec len.toNat []
  size m := m.foldl (fun len e => len + ck.size e.1 + cv.size e.2) 2
  wf m := m.length < 2 ^ 16 ∧ (∀ e ∈ m, ck.wf e.1 ∧ cv.wf e.2) ∧
    m.Pairwise fun a b => lt a.1 b.1 = true

/-- Two consecutive struct fields (derive macro, `fluvio-protocol-derive/src/{ser,de}.rs`). -/
def pairC {α β} (a : Codec α) (b : Codec β) : Codec (α × β) where
  enc v := a.enc v.1 ++ b.enc v.2
  dec := a.dec.bind fun x => b.dec.bind fun y => Dec.pure (x, y)
  size v := a.size v.1 + b.size v.2
  wf v := a.wf v.1 ∧ b.wf v.2

/-- End of the `match typ { … _ => InvalidData }` of a derived enum decoder with an `n`-byte tag
(`fluvio-protocol-derive/src/de.rs`). -/
def enumNilC (n : Nat) : Codec Empty where
  enc e := nomatch e
  dec := (intDec n).bind fun _ => Dec.fail .invalid
  size e := nomatch e
  wf _ := True

/-- One arm of a derived enum: tag, then the variant's fields (`ser.rs`, `de.rs`).  The derived
decoder reads the tag once and matches; trying the arms one after the other on the same input is the
same function. -/
def enumConsC {α β} (n : Nat) (tag : BitVec (8 * n)) (p : Codec α) (rest : Codec β) :
    Codec (α ⊕ β) where
  enc
    | .inl v => intEnc n tag ++ p.enc v
    | .inr w => rest.enc w
  dec := fun bs =>
    match intDec n bs with
    | .error e => .error e
    | .ok (t, bs') =>
      if t = tag then (p.dec.bind fun v => Dec.pure (.inl v)) bs'
      else (rest.dec.bind fun w => Dec.pure (.inr w)) bs
  size
    | .inl v => n + p.size v
    | .inr w => rest.size w
  wf
    | .inl v => p.wf v
    | .inr w => rest.wf w

/-! ## Laws -/

theorem unitC_lawful : Lawful unitC where
  roundtrip _ _ _ := rfl
  size_eq _ _ := rfl
  loc := Local.pure _
  suf := Suffix.pure _

theorem intC_lawful (n : Nat) : Lawful (intC n) where
  roundtrip v rest _ := intDec_intEnc n v rest
  size_eq v _ := by simp [intC, intEnc]
  loc := intDec_local n
  suf := intDec_suffix n

theorem boolC_lawful : Lawful boolC where
  roundtrip v rest _ := by cases v <;> rfl
  size_eq v _ := rfl
  loc := (takeN_local 1).bind fun xs => by
    repeat' split
    · exact Local.pure _
    · exact Local.pure _
    · exact Local.fail _
  suf := (takeN_suffix 1).bind fun xs => by
    repeat' split
    · exact Suffix.pure _
    · exact Suffix.pure _
    · exact Suffix.fail _

theorem durationC_lawful : Lawful durationC where
  roundtrip v rest h := by
    obtain ⟨s, ns⟩ := v
    have hl : (beEnc 8 s.toNat ++ beEnc 4 ns.toNat).length = 12 := by simp
    have h' : ns.toNat < 1000000000 := h
    simp only [durationC]
    rw [Dec.bind_ok (takeN_append' 12 _ rest hl)]
    have e1 : (beEnc 8 s.toNat ++ beEnc 4 ns.toNat).take 8 = beEnc 8 s.toNat := by
      rw [List.take_append_of_le_length (by simp), List.take_of_length_le (by simp)]
    have e2 : (beEnc 8 s.toNat ++ beEnc 4 ns.toNat).drop 8 = beEnc 4 ns.toNat := by
      rw [List.drop_append_of_le_length (by simp), List.drop_of_length_le (by simp)]; rfl
    have hs := s.isLt
    have hn := ns.isLt
    have p8 : 256 ^ 8 = 2 ^ 64 := by decide
    have p4 : 256 ^ 4 = 2 ^ 32 := by decide
    rw [e1, e2, beVal_beEnc, beVal_beEnc, p8, p4, Nat.mod_eq_of_lt hs, Nat.mod_eq_of_lt hn,
      Nat.div_eq_of_lt h', Nat.mod_eq_of_lt h']
    simp [Dec.pure, hs]
  size_eq v _ := by simp [durationC]
  loc := (takeN_local 12).bind fun xs => by
    dsimp only; split
    · exact Local.pure _
    · exact Local.fail _
  suf := (takeN_suffix 12).bind fun xs => by
    dsimp only; split
    · exact Suffix.pure _
    · exact Suffix.fail _

theorem ofNat_toInt_small (w n : Nat) (h : 2 * n < 2 ^ w) : (BitVec.ofNat w n).toInt = n := by
  have : (BitVec.ofNat w n).toNat = n := by rw [BitVec.toNat_ofNat]; exact Nat.mod_eq_of_lt (by omega)
  rw [BitVec.toInt_eq_toNat_of_lt (by rw [this]; exact h), this]

theorem fromUTF8_strBytes (s : String) : String.fromUTF8? ⟨(strBytes s).toArray⟩ = some s := by
  unfold strBytes
  simp only [Array.toArray_toList]
  unfold String.fromUTF8?
  rw [dif_pos s.isValidUTF8]
  rfl

theorem intDec_beEnc (n x : Nat) (rest : Bytes) :
    intDec n (beEnc n x ++ rest) = .ok (BitVec.ofNat (8 * n) x, rest) := by
  unfold intDec
  rw [Dec.bind_ok (takeN_append' n _ rest (beEnc_length _ _))]
  simp only [Dec.pure, beVal_beEnc]
  congr 2
  apply BitVec.eq_of_toNat_eq
  rw [BitVec.toNat_ofNat, BitVec.toNat_ofNat, pow256, Nat.mod_mod]

/-- Reading `len` bytes of a longer input: the common part of the locality proofs. -/
theorem take_append_local {bs tl : Bytes} {n : Nat} (h : (bs.take n).length = n) :
    (bs ++ tl).take n = bs.take n ∧ (bs ++ tl).drop n = bs.drop n ++ tl := by
  have : n ≤ bs.length := by rw [List.length_take] at h; omega
  exact ⟨List.take_append_of_le_length this, List.drop_append_of_le_length this⟩

theorem stringC_lawful : Lawful stringC where
  roundtrip s rest h := by
    have h' : (strBytes s).length < 2 ^ 15 := h
    simp only [stringC, List.append_assoc]
    rw [Dec.bind_ok (intDec_beEnc 2 _ _)]
    have hi := ofNat_toInt_small (8 * 2) (strBytes s).length (by omega)
    have hn : (BitVec.ofNat (8 * 2) (strBytes s).length).toNat = (strBytes s).length := by
      rw [BitVec.toNat_ofNat]; exact Nat.mod_eq_of_lt (by omega)
    simp only [hi, hn]
    by_cases h0 : (strBytes s).length = 0
    · have hnil : strBytes s = [] := List.length_eq_zero_iff.1 h0
      have hs : s = "" := by
        have := fromUTF8_strBytes s
        rw [hnil] at this
        have e := fromUTF8_strBytes ""
        have : strBytes "" = [] := rfl
        simp_all
      rw [if_pos (by omega), hnil, hs]; rfl
    · rw [if_neg (by omega), List.take_left' rfl, List.drop_left' rfl, fromUTF8_strBytes]
      simp
  size_eq s _ := by simp [stringC]; 
  loc := (intDec_local 2).bind fun len => by
    intro bs a rest h tl
    dsimp only at h ⊢
    split at h
    · rename_i hz
      simp only [Except.ok.injEq, Prod.mk.injEq] at h
      rw [if_pos hz, h.1, h.2]
    · rename_i hz
      rw [if_neg hz]
      split at h
      · simp at h
      · rename_i s hs
        split at h
        · simp at h
        · rename_i hl
          simp only [ne_eq, Decidable.not_not] at hl
          obtain ⟨e1, e2⟩ := take_append_local (tl := tl) hl
          rw [e1, e2, hs]
          simp only [ne_eq, hl, not_true, ↓reduceIte]
          simp only [Except.ok.injEq, Prod.mk.injEq] at h ⊢
          exact ⟨h.1, by rw [h.2]⟩
  suf := (intDec_suffix 2).bind fun len => by
    intro bs a rest h
    dsimp only at h
    split at h
    · simp only [Except.ok.injEq, Prod.mk.injEq] at h
      exact ⟨[], by rw [h.2]; rfl⟩
    · split at h
      · simp at h
      · split at h
        · simp at h
        · simp only [Except.ok.injEq, Prod.mk.injEq] at h
          exact ⟨bs.take len.toNat, by rw [← h.2, List.take_append_drop]⟩

theorem byteBufC_lawful : Lawful byteBufC where
  roundtrip b rest h := by
    have h' : b.length < 2 ^ 32 := h
    simp only [byteBufC, List.append_assoc]
    rw [Dec.bind_ok (intDec_beEnc 4 _ _)]
    have hn : (BitVec.ofNat (8 * 4) b.length).toNat = b.length := by
      rw [BitVec.toNat_ofNat]; exact Nat.mod_eq_of_lt (by omega)
    simp only [hn]
    by_cases h0 : b.length = 0
    · rw [if_pos (by omega), List.length_eq_zero_iff.1 h0]; rfl
    · rw [if_neg (by omega), if_neg (by simp), List.take_left' rfl, List.drop_left' rfl]
  size_eq s _ := by simp [byteBufC]
  loc := (intDec_local 4).bind fun len => by
    intro bs a rest h tl
    dsimp only at h ⊢
    split at h
    · rename_i hz
      simp only [Except.ok.injEq, Prod.mk.injEq] at h
      rw [if_pos hz, h.1, h.2]
    · rename_i hz
      rw [if_neg hz]
      split at h
      · simp at h
      · rename_i hl
        obtain ⟨e1, e2⟩ := take_append_local (tl := tl) (bs := bs) (n := len.toNat)
          (by rw [List.length_take]; omega)
        rw [e1, e2, if_neg (by simp; omega)]
        simp only [Except.ok.injEq, Prod.mk.injEq] at h ⊢
        exact ⟨h.1, by rw [h.2]⟩
  suf := (intDec_suffix 4).bind fun len => by
    intro bs a rest h
    dsimp only at h
    split at h
    · simp only [Except.ok.injEq, Prod.mk.injEq] at h
      exact ⟨[], by rw [h.2]; rfl⟩
    · split at h
      · simp at h
      · simp only [Except.ok.injEq, Prod.mk.injEq] at h
        exact ⟨bs.take len.toNat, by rw [← h.2, List.take_append_drop]⟩

theorem decLoop_suffix : ∀ (bs : Bytes) (num : BitVec 64) (shift : Nat) r s' rest,
    decLoop bs num shift = .ok (r, s', rest) → ∃ used, bs = used ++ rest
  | [], _, _, _, _, _, h => by simp [decLoop] at h
  | b :: bs, num, shift, r, s', rest, h => by
    simp only [decLoop] at h
    split at h
    · simp at h
    · split at h
      · simp only [Except.ok.injEq, Prod.mk.injEq] at h
        exact ⟨[b], by rw [h.2.2]; rfl⟩
      · obtain ⟨u, hu⟩ := decLoop_suffix bs _ _ _ _ _ h
        exact ⟨b :: u, by rw [hu]; rfl⟩

theorem varintC_enc (n : Int) (h1 : -2 ^ 31 ≤ n) (h2 : n < 2 ^ 31) :
    varintC.enc (BitVec.ofInt 64 n) = leb 11 (zigNat n) := by
  simp [varintC, varintEncode_eq n h1 h2]

theorem varintC_lawful : Lawful varintC where
  roundtrip n rest h := by
    obtain ⟨h1, h2⟩ := h
    have e := varintC_enc n.toInt h1 h2
    rw [BitVec.ofInt_toInt] at e
    rw [e]
    have d := varintDecode_leb n.toInt h1 h2 rest
    rw [BitVec.ofInt_toInt] at d
    simp only [varintC, d]
  size_eq n h := by
    obtain ⟨h1, h2⟩ := h
    have e := varintEncode_eq n.toInt h1 h2
    rw [BitVec.ofInt_toInt] at e
    simp only [varintC, varintSize, sizeLoop_eq]
    unfold varintEncode at e ⊢
    rw [e]; rfl
  loc := by
    intro bs a rest h tl
    simp only [varintC] at h ⊢
    cases hd : varintDecode bs with
    | error e => simp [hd] at h
    | ok x =>
      obtain ⟨r, rest'⟩ := x
      rw [varintDecode_local bs r rest' tl hd]
      simp only [hd, Except.ok.injEq, Prod.mk.injEq] at h ⊢
      exact ⟨h.1, by rw [h.2]⟩
  suf := by
    intro bs a rest h
    simp only [varintC] at h
    cases hd : varintDecode bs with
    | error e => simp [hd] at h
    | ok x =>
      obtain ⟨r, rest'⟩ := x
      simp only [hd, Except.ok.injEq, Prod.mk.injEq] at h
      unfold varintDecode at hd
      cases hl : decLoop bs 0#64 0 with
      | error e => simp [hl] at hd
      | ok y =>
        obtain ⟨a', b', c'⟩ := y
        simp only [hl, Except.ok.injEq, Prod.mk.injEq] at hd
        obtain ⟨u, hu⟩ := decLoop_suffix _ _ _ _ _ _ hl
        exact ⟨u, by rw [← h.2, ← hd.2]; exact hu⟩

theorem ofNat_wf (n : Nat) (h : n < 2 ^ 31) : varintC.wf (BitVec.ofNat 64 n) := by
  have := ofNat_toInt_small 64 n (by omega)
  simp only [varintC, this]
  omega

theorem varBytesC_lawful : Lawful varBytesC where
  roundtrip b rest h := by
    have h' : b.length < 2 ^ 31 := h
    simp only [varBytesC, List.append_assoc]
    rw [Dec.bind_ok (varintC_lawful.roundtrip _ _ (ofNat_wf _ h'))]
    have hi := ofNat_toInt_small 64 b.length (by omega)
    have hn : (BitVec.ofNat 64 b.length).toNat = b.length := by
      rw [BitVec.toNat_ofNat]; exact Nat.mod_eq_of_lt (by omega)
    simp only [hi, hn]
    by_cases h0 : b.length = 0
    · rw [if_pos (by omega), List.length_eq_zero_iff.1 h0]; rfl
    · rw [if_neg (by omega), List.take_left' rfl, List.drop_left' rfl]
      simp
  size_eq b h := by
    simp only [varBytesC, List.length_append]
    rw [varintC_lawful.size_eq _ (ofNat_wf _ h)]
  loc := varintC_lawful.loc.bind fun len => by
    intro bs a rest h tl
    dsimp only at h ⊢
    split at h
    · rename_i hz
      simp only [Except.ok.injEq, Prod.mk.injEq] at h
      rw [if_pos hz, h.1, h.2]
    · rename_i hz
      rw [if_neg hz]
      split at h
      · simp at h
      · rename_i hl
        simp only [ne_eq, Decidable.not_not] at hl
        obtain ⟨e1, e2⟩ := take_append_local (tl := tl) hl
        rw [e1, e2, if_neg (by simpa using hl)]
        simp only [Except.ok.injEq, Prod.mk.injEq] at h ⊢
        exact ⟨h.1, by rw [h.2]⟩
  suf := varintC_lawful.suf.bind fun len => by
    intro bs a rest h
    dsimp only at h
    split at h
    · simp only [Except.ok.injEq, Prod.mk.injEq] at h
      exact ⟨[], by rw [h.2]; rfl⟩
    · split at h
      · simp at h
      · simp only [Except.ok.injEq, Prod.mk.injEq] at h
        exact ⟨bs.take len.toNat, by rw [← h.2, List.take_append_drop]⟩

theorem optionC_rt {α} {c : Codec α} (hc : RoundTrips c) : RoundTrips (optionC c) where
  roundtrip v rest h := by
    cases v with
    | none => rfl
    | some v =>
      simp only [optionC, List.append_assoc]
      rw [Dec.bind_ok (boolC_lawful.roundtrip true _ trivial), if_pos rfl,
        Dec.bind_ok (hc.roundtrip v rest h)]
      rfl
  size_eq v h := by
    cases v with
    | none => rfl
    | some v => simp only [optionC, List.length_append, hc.size_eq v h]; rfl

theorem optionC_lawful {α} {c : Codec α} (hc : Lawful c) : Lawful (optionC c) where
  toRoundTrips := optionC_rt hc.toRoundTrips
  loc := boolC_lawful.loc.bind fun b => by
    split
    · exact hc.loc.bind fun _ => Local.pure _
    · exact Local.pure _
  suf := boolC_lawful.suf.bind fun b => by
    split
    · exact hc.suf.bind fun _ => Suffix.pure _
    · exact Suffix.pure _

theorem decN_roundtrip {α} {c : Codec α} (hc : RoundTrips c) (rest : Bytes) :
    ∀ vs : List α, (∀ v ∈ vs, c.wf v) →
      decN c.dec vs.length (vs.flatMap c.enc ++ rest) = .ok (vs, rest)
  | [], _ => rfl
  | v :: vs, h => by
    simp only [List.length_cons, decN, List.flatMap_cons, List.append_assoc]
    rw [Dec.bind_ok (hc.roundtrip v _ (h v (by simp))),
      Dec.bind_ok (decN_roundtrip hc rest vs fun w hw => h w (by simp [hw]))]
    rfl

theorem decN_local {α} {d : Dec α} (hd : Local d) : ∀ n, Local (decN d n)
  | 0 => Local.pure _
  | n + 1 => hd.bind fun _ => (decN_local hd n).bind fun _ => Local.pure _

theorem decN_suffix {α} {d : Dec α} (hd : Suffix d) : ∀ n, Suffix (decN d n)
  | 0 => Suffix.pure _
  | n + 1 => hd.bind fun _ => (decN_suffix hd n).bind fun _ => Suffix.pure _

theorem foldl_size {α} (c : Codec α) (hc : RoundTrips c) : ∀ (vs : List α) (k : Nat),
    (∀ v ∈ vs, c.wf v) →
    vs.foldl (fun sum v => sum + c.size v) k = k + (vs.flatMap c.enc).length
  | [], k, _ => by simp
  | v :: vs, k, h => by
    simp only [List.foldl_cons, List.flatMap_cons, List.length_append]
    rw [foldl_size c hc vs _ (fun w hw => h w (by simp [hw])), hc.size_eq v (h v (by simp))]
    omega

theorem vecC_rt {α} {c : Codec α} (hc : RoundTrips c) : RoundTrips (vecC c) where
  roundtrip vs rest h := by
    obtain ⟨hl, hw⟩ := h
    simp only [vecC, List.append_assoc]
    rw [Dec.bind_ok (intDec_beEnc 4 _ _)]
    have hi := ofNat_toInt_small (8 * 4) vs.length (by omega)
    rw [hi]
    by_cases h0 : vs.length = 0
    · rw [if_pos (by omega), List.length_eq_zero_iff.1 h0]; rfl
    · rw [if_neg (by omega)]
      exact decN_roundtrip hc rest vs hw
  size_eq vs h := by
    simp only [vecC, List.length_append, beEnc_length]
    exact foldl_size c hc vs 4 h.2

theorem vecC_lawful {α} {c : Codec α} (hc : Lawful c) : Lawful (vecC c) where
  toRoundTrips := vecC_rt hc.toRoundTrips
  loc := (intDec_local 4).bind fun len => by
    split
    · exact Local.pure _
    · exact decN_local hc.loc _
  suf := (intDec_suffix 4).bind fun len => by
    split
    · exact Suffix.pure _
    · exact decN_suffix hc.suf _

theorem mapInsert_append {κ ν} (lt : κ → κ → Bool) (k : κ) (v : ν) :
    ∀ m : List (κ × ν), (∀ e ∈ m, lt e.1 k = true) → mapInsert lt k v m = m ++ [(k, v)]
  | [], _ => rfl
  | (k', v') :: t, h => by
    simp only [mapInsert]
    rw [if_pos (h (k', v') (by simp)), mapInsert_append lt k v t fun e he => h e (by simp [he])]
    rfl

theorem decMap_roundtrip {κ ν} (lt : κ → κ → Bool) {ck : Codec κ} {cv : Codec ν} (hk : Lawful ck)
    (hv : Lawful cv) (rest : Bytes) : ∀ (m acc : List (κ × ν)),
    (∀ e ∈ m, ck.wf e.1 ∧ cv.wf e.2) → (acc ++ m).Pairwise (fun a b => lt a.1 b.1 = true) →
    decMap lt ck.dec cv.dec m.length acc ((m.flatMap fun e => ck.enc e.1 ++ cv.enc e.2) ++ rest)
      = .ok (acc ++ m, rest)
  | [], acc, _, _ => by simp [decMap, Dec.pure]
  | (k, v) :: m, acc, h, hp => by
    simp only [List.length_cons, decMap, List.flatMap_cons, List.append_assoc]
    obtain ⟨h1, h2⟩ := h (k, v) (by simp)
    rw [Dec.bind_ok (hk.roundtrip k _ h1), Dec.bind_ok (hv.roundtrip v _ h2)]
    have : mapInsert lt k v acc = acc ++ [(k, v)] := by
      apply mapInsert_append
      intro e he
      rw [List.pairwise_append] at hp
      exact hp.2.2 e he (k, v) (by simp)
    rw [this, decMap_roundtrip lt hk hv rest m (acc ++ [(k, v)]) (fun e he => h e (by simp [he]))
      (by simpa using hp)]
    simp

theorem decMap_local {κ ν} (lt : κ → κ → Bool) {dk : Dec κ} {dv : Dec ν} (hk : Local dk)
    (hv : Local dv) : ∀ n m, Local (decMap lt dk dv n m)
  | 0, _ => Local.pure _
  | n + 1, _ => hk.bind fun _ => hv.bind fun _ => decMap_local lt hk hv n _

theorem decMap_suffix {κ ν} (lt : κ → κ → Bool) {dk : Dec κ} {dv : Dec ν} (hk : Suffix dk)
    (hv : Suffix dv) : ∀ n m, Suffix (decMap lt dk dv n m)
  | 0, _ => Suffix.pure _
  | n + 1, _ => hk.bind fun _ => hv.bind fun _ => decMap_suffix lt hk hv n _

theorem foldl_map_size {κ ν} {ck : Codec κ} {cv : Codec ν} (hk : Lawful ck) (hv : Lawful cv) :
    ∀ (m : List (κ × ν)) (n : Nat), (∀ e ∈ m, ck.wf e.1 ∧ cv.wf e.2) →
    m.foldl (fun len e => len + ck.size e.1 + cv.size e.2) n
      = n + (m.flatMap fun e => ck.enc e.1 ++ cv.enc e.2).length
  | [], n, _ => by simp
  | e :: m, n, h => by
    simp only [List.foldl_cons, List.flatMap_cons, List.length_append]
    obtain ⟨h1, h2⟩ := h e (by simp)
    rw [foldl_map_size hk hv m _ (fun w hw => h w (by simp [hw])), hk.size_eq _ h1, hv.size_eq _ h2]
    omega

theorem mapC_lawful {κ ν} (lt : κ → κ → Bool) {ck : Codec κ} {cv : Codec ν} (hk : Lawful ck)
    (hv : Lawful cv) : Lawful (mapC lt ck cv) where
  roundtrip m rest h := by
    obtain ⟨hl, hw, hp⟩ := h
    simp only [mapC, List.append_assoc]
    rw [Dec.bind_ok (intDec_beEnc 2 _ _)]
    have hn : (BitVec.ofNat (8 * 2) m.length).toNat = m.length := by
      rw [BitVec.toNat_ofNat]; exact Nat.mod_eq_of_lt (by omega)
    rw [hn]
    simpa using decMap_roundtrip lt hk hv rest m [] hw (by simpa using hp)
  size_eq m h := by
    simp only [mapC, List.length_append, beEnc_length]
    exact foldl_map_size hk hv m 2 h.2.1
  loc := (intDec_local 2).bind fun _ => decMap_local lt hk.loc hv.loc _ _
  suf := (intDec_suffix 2).bind fun _ => decMap_suffix lt hk.suf hv.suf _ _

theorem pairC_rt {α β} {a : Codec α} {b : Codec β} (ha : RoundTrips a) (hb : RoundTrips b) :
    RoundTrips (pairC a b) where
  roundtrip v rest h := by
    simp only [pairC, List.append_assoc]
    rw [Dec.bind_ok (ha.roundtrip v.1 _ h.1), Dec.bind_ok (hb.roundtrip v.2 _ h.2)]
    rfl
  size_eq v h := by
    simp only [pairC, List.length_append, ha.size_eq _ h.1, hb.size_eq _ h.2]

theorem pairC_lawful {α β} {a : Codec α} {b : Codec β} (ha : Lawful a) (hb : Lawful b) :
    Lawful (pairC a b) where
  toRoundTrips := pairC_rt ha.toRoundTrips hb.toRoundTrips
  loc := ha.loc.bind fun _ => hb.loc.bind fun _ => Local.pure _
  suf := ha.suf.bind fun _ => hb.suf.bind fun _ => Suffix.pure _

theorem enumNilC_lawful (n : Nat) : Lawful (enumNilC n) where
  roundtrip v := nomatch v
  size_eq v := nomatch v
  loc := (intDec_local n).bind fun _ => Local.fail _
  suf := (intDec_suffix n).bind fun _ => Suffix.fail _

/-- Every encoding of `c` starts with an `n`-byte tag taken from `tags`. -/
def StartsWith {α} (c : Codec α) (n : Nat) (tags : List (BitVec (8 * n))) : Prop :=
  ∀ v rest, ∃ t ∈ tags, ∃ bs', intDec n (c.enc v ++ rest) = .ok (t, bs')

theorem enumConsC_lawful {α β} (n : Nat) (tag : BitVec (8 * n)) {p : Codec α} {r : Codec β}
    (hp : Lawful p) (hr : Lawful r) (tags : List (BitVec (8 * n))) (hs : StartsWith r n tags)
    (hd : tag ∉ tags) : Lawful (enumConsC n tag p r) where
  roundtrip v rest h := by
    cases v with
    | inl v =>
      simp only [enumConsC, List.append_assoc, intDec_intEnc, ↓reduceIte]
      rw [Dec.bind_ok (hp.roundtrip v rest h)]
      rfl
    | inr w =>
      simp only [enumConsC]
      obtain ⟨t, ht, bs', e⟩ := hs w rest
      rw [e]
      have : t ≠ tag := fun hh => hd (hh ▸ ht)
      simp only [this, ↓reduceIte]
      rw [Dec.bind_ok (hr.roundtrip w rest h)]
      rfl
  size_eq v h := by
    cases v with
    | inl v => simp only [enumConsC, List.length_append, hp.size_eq v h, intEnc, beEnc_length]
    | inr w => exact hr.size_eq w h
  loc := by
    intro bs a rest h tl
    simp only [enumConsC] at h ⊢
    cases hd : intDec n bs with
    | error e => simp [hd] at h
    | ok x =>
      obtain ⟨t, bs'⟩ := x
      rw [intDec_local n bs t bs' hd tl]
      simp only [hd] at h ⊢
      split
      · rename_i ht; rw [if_pos ht] at h
        exact (hp.loc.bind fun _ => Local.pure _) _ _ _ h tl
      · rename_i ht; rw [if_neg ht] at h
        exact (hr.loc.bind fun _ => Local.pure _) _ _ _ h tl
  suf := by
    intro bs a rest h
    simp only [enumConsC] at h
    cases hd : intDec n bs with
    | error e => simp [hd] at h
    | ok x =>
      obtain ⟨t, bs'⟩ := x
      simp only [hd] at h
      obtain ⟨u, hu⟩ := intDec_suffix n bs t bs' hd
      split at h
      · obtain ⟨u', hu'⟩ := (hp.suf.bind fun _ => Suffix.pure _) _ _ _ h
        exact ⟨u ++ u', by rw [hu, hu', List.append_assoc]⟩
      · exact (hr.suf.bind fun _ => Suffix.pure _) _ _ _ h

/-- A lawful codec rejects every strict prefix of an encoding. -/
theorem Lawful.rejects_prefix {α} {c : Codec α} (hc : Lawful c) (v : α) (hv : c.wf v)
    (p s : Bytes) (h : c.enc v = p ++ s) (hs : s ≠ []) : ∃ e, c.dec p = .error e := by
  cases hd : c.dec p with
  | error e => exact ⟨e, rfl⟩
  | ok x =>
    obtain ⟨a, rest⟩ := x
    have h1 := hc.loc p a rest hd s
    have h2 := hc.roundtrip v [] hv
    rw [List.append_nil, h, h1] at h2
    simp only [Except.ok.injEq, Prod.mk.injEq, List.append_eq_nil_iff] at h2
    exact absurd h2.2.2 hs

end Verif.Wire
