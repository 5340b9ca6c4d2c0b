import Verif.Wire.PrefixSafe

/-!
# A universe of protocol types

`Ty α` describes the protocol types whose values are (in one-to-one correspondence with) `α`: basic
types, containers, and what `#[derive(Encoder, Decoder)]` builds from them, including the
`min_version`/`max_version` attributes of struct fields.
-/

namespace Verif.Wire

/-- Names of protocol types.  A derived struct is a nest of `pair`s of its fields, a derived enum a
nest of `enumCons`. -/
inductive Ty : Type → Type 1
  | unit : Ty Unit
  | bool : Ty Bool
  | int (n : Nat) : Ty (BitVec (8 * n))
  | duration : Ty (BitVec 64 × BitVec 32)
  | string : Ty String
  | byteBuf : Ty Bytes
  | varint : Ty (BitVec 64)
  | varBytes : Ty Bytes
  | option {α} (t : Ty α) : Ty (Option α)
  | vec {α} (t : Ty α) : Ty (List α)
  | map {κ ν} (lt : κ → κ → Bool) (k : Ty κ) (v : Ty ν) : Ty (List (κ × ν))
  | pair {α β} (a : Ty α) (b : Ty β) : Ty (α × β)
  | enumNil (n : Nat) : Ty Empty
  | enumCons {α β} (n : Nat) (tag : BitVec (8 * n)) (p : Ty α) (r : Ty β) : Ty (α ⊕ β)
  /-- a struct field with `min_version = min` and optional `max_version`; `dflt` is its default -/
  | field {α} (min : Int) (max : Option Int) (t : Ty α) (dflt : α) : Ty α

/-- `if (min..=max).contains(&version)` / `if version >= min` —
fluvio-protocol-derive/src/ast/prop.rs:51-92, 110-152. -/
def inVersion (min : Int) (max : Option Int) (version : Int) : Bool :=
  match max with
  | some m => decide (min ≤ version) && decide (version ≤ m)
  | none => decide (min ≤ version)

/-- A struct field: encoded, decoded and counted only if the version is in range, otherwise the
decoder leaves the default — fluvio-protocol-derive/src/ser.rs:101-146, 215-247, de.rs:79-123.
(The macro ignores the version range of a `varint` field, which is therefore described by
`Ty.varint` without `Ty.field`.) -/
def fieldC {α} (min : Int) (max : Option Int) (version : Int) (c : Codec α) (dflt : α) : Codec α where
  enc v := if inVersion min max version then c.enc v else []
  dec := if inVersion min max version then c.dec else Dec.pure dflt
  size v := if inVersion min max version then c.size v else 0
  wf v := if inVersion min max version then c.wf v else v = dflt

/-- Encoder, decoder and size of a protocol type at a version. -/
def Ty.codec (ver : Int) : {α : Type} → Ty α → Codec α
  | _, .unit => unitC
  | _, .bool => boolC
  | _, .int n => intC n
  | _, .duration => durationC
  | _, .string => stringC
  | _, .byteBuf => byteBufC
  | _, .varint => varintC
  | _, .varBytes => varBytesC
  | _, .option t => optionC (t.codec ver)
  | _, .vec t => vecC (t.codec ver)
  | _, .map lt k v => mapC lt (k.codec ver) (v.codec ver)
  | _, .pair a b => pairC (a.codec ver) (b.codec ver)
  | _, .enumNil n => enumNilC n
  | _, .enumCons n tag p r => enumConsC n tag (p.codec ver) (r.codec ver)
  | _, .field min max t d => fieldC min max ver (t.codec ver) d

/-- `r` is the rest of an enum with `n`-byte tags, and has these tags. -/
inductive IsEnum (n : Nat) : {β : Type} → Ty β → List (BitVec (8 * n)) → Prop
  | nil : IsEnum n (.enumNil n) []
  | cons {α β tags} (tag : BitVec (8 * n)) (p : Ty α) (r : Ty β) :
      IsEnum n r tags → IsEnum n (.enumCons n tag p r) (tag :: tags)

/-- Well-formed types: the tags of an enum are pairwise different (the Rust compiler warns about an
unreachable arm otherwise; all enums of the code satisfy it). -/
def Ty.ok : {α : Type} → Ty α → Prop
  | _, .option t => t.ok
  | _, .vec t => t.ok
  | _, .map _ k v => k.ok ∧ v.ok
  | _, .pair a b => a.ok ∧ b.ok
  | _, .enumCons n tag p r => p.ok ∧ r.ok ∧ ∃ tags, IsEnum n r tags ∧ tag ∉ tags
  | _, .field _ _ t _ => t.ok
  | _, _ => True

/-- The type contains no `ByteBuf` (whose decoder panics on truncated input). -/
def Ty.noByteBuf : {α : Type} → Ty α → Prop
  | _, .byteBuf => False
  | _, .option t => t.noByteBuf
  | _, .vec t => t.noByteBuf
  | _, .map _ k v => k.noByteBuf ∧ v.noByteBuf
  | _, .pair a b => a.noByteBuf ∧ b.noByteBuf
  | _, .enumCons _ _ p r => p.noByteBuf ∧ r.noByteBuf
  | _, .field _ _ t _ => t.noByteBuf
  | _, _ => True

theorem fieldC_in {α} {min : Int} {max : Option Int} {ver : Int} (c : Codec α) (d : α)
    (h : inVersion min max ver = true) : fieldC min max ver c d = c := by
  simp only [fieldC, h, ↓reduceIte]

/-- A field outside its version range. -/
def absentC {α} (d : α) : Codec α where
  enc _ := []
  dec := Dec.pure d
  size _ := 0
  wf v := v = d

theorem fieldC_out {α} {min : Int} {max : Option Int} {ver : Int} (c : Codec α) (d : α)
    (h : inVersion min max ver = false) : fieldC min max ver c d = absentC d := by
  simp only [fieldC, h, absentC]; rfl

theorem absentC_lawful {α} (d : α) : Lawful (absentC d) where
  roundtrip v rest h := by have : v = d := h; subst this; rfl
  size_eq _ _ := rfl
  loc := Local.pure _
  suf := Suffix.pure _

theorem absentC_safe {α} (d : α) : PrefixSafe (absentC d) := by
  intro v _ p s h hs
  have : p ++ s = [] := h.symm
  simp at this; exact absurd this.2 hs

theorem IsEnum.startsWith {n : Nat} {β : Type} {r : Ty β} {tags : List (BitVec (8 * n))} (ver : Int)
    (h : IsEnum n r tags) : StartsWith (r.codec ver) n tags := by
  induction h with
  | nil => intro v; exact nomatch v
  | cons tag p r _ ih =>
    intro v rest
    cases v with
    | inl v =>
      refine ⟨tag, by simp, (p.codec ver).enc v ++ rest, ?_⟩
      simp only [Ty.codec, enumConsC, List.append_assoc]
      exact intDec_intEnc n tag _
    | inr w =>
      obtain ⟨t, ht, x⟩ := ih w rest
      exact ⟨t, by simp [ht], x⟩

theorem Ty.lawful (ver : Int) : ∀ {α : Type} (t : Ty α), t.ok → Lawful (t.codec ver)
  | _, .unit, _ => unitC_lawful
  | _, .bool, _ => boolC_lawful
  | _, .int n, _ => intC_lawful n
  | _, .duration, _ => durationC_lawful
  | _, .string, _ => stringC_lawful
  | _, .byteBuf, _ => byteBufC_lawful
  | _, .varint, _ => varintC_lawful
  | _, .varBytes, _ => varBytesC_lawful
  | _, .option t, h => optionC_lawful (Ty.lawful ver t h)
  | _, .vec t, h => vecC_lawful (Ty.lawful ver t h)
  | _, .map lt k v, h => mapC_lawful lt (Ty.lawful ver k h.1) (Ty.lawful ver v h.2)
  | _, .pair a b, h => pairC_lawful (Ty.lawful ver a h.1) (Ty.lawful ver b h.2)
  | _, .enumNil n, _ => enumNilC_lawful n
  | _, .enumCons n tag p r, h => by
    obtain ⟨hp, hr, tags, he, hd⟩ := h
    exact enumConsC_lawful n tag (Ty.lawful ver p hp) (Ty.lawful ver r hr) tags (he.startsWith ver) hd
  | _, .field min max t d, h => by
    simp only [Ty.codec]
    cases hv : inVersion min max ver with
    | true => rw [fieldC_in _ _ hv]; exact Ty.lawful ver t h
    | false => rw [fieldC_out _ _ hv]; exact absentC_lawful d

theorem Ty.prefixSafe (ver : Int) : ∀ {α : Type} (t : Ty α), t.ok → t.noByteBuf →
    PrefixSafe (t.codec ver)
  | _, .unit, _, _ => unitC_safe
  | _, .bool, _, _ => boolC_safe
  | _, .int n, _, _ => intC_safe n
  | _, .duration, _, _ => durationC_safe
  | _, .string, _, _ => stringC_safe
  | _, .byteBuf, _, h => h.elim
  | _, .varint, _, _ => varintC_safe
  | _, .varBytes, _, _ => varBytesC_safe
  | _, .option t, h, hb => optionC_safe (Ty.prefixSafe ver t h hb)
  | _, .vec t, h, hb => vecC_safe (Ty.lawful ver t h) (Ty.prefixSafe ver t h hb)
  | _, .map lt k v, h, hb => mapC_safe lt (Ty.lawful ver k h.1) (Ty.lawful ver v h.2)
      (Ty.prefixSafe ver k h.1 hb.1) (Ty.prefixSafe ver v h.2 hb.2)
  | _, .pair a b, h, hb => pairC_safe (Ty.lawful ver a h.1) (Ty.prefixSafe ver a h.1 hb.1)
      (Ty.prefixSafe ver b h.2 hb.2)
  | _, .enumNil n, _, _ => enumNilC_safe n
  | _, .enumCons n tag p r, h, hb => by
    obtain ⟨hp, hr, tags, he, hd⟩ := h
    exact enumConsC_safe n tag (Ty.prefixSafe ver p hp hb.1) (Ty.prefixSafe ver r hr hb.2) tags
      (he.startsWith ver) hd
  | _, .field min max t d, h, hb => by
    simp only [Ty.codec]
    cases hv : inVersion min max ver with
    | true => rw [fieldC_in _ _ hv]; exact Ty.prefixSafe ver t h hb
    | false => rw [fieldC_out _ _ hv]; exact absentC_safe d

/-! ## Specification vocabulary -/

/-- **Specification.** The limits a value must respect: lengths fit the length prefixes, varints are in
the 32-bit range, map entries are listed in key order, durations are normalised.  Independent of
encoders and decoders; fields absent from the version are not constrained. -/
def Ty.fits (ver : Int) : {α : Type} → Ty α → α → Prop
  | _, .unit, _ => True
  | _, .bool, _ => True
  | _, .int _, _ => True
  | _, .duration, d => d.2.toNat < 1000000000
  | _, .string, s => s.utf8ByteSize < 2 ^ 15
  | _, .byteBuf, b => b.length < 2 ^ 32
  | _, .varint, n => -2 ^ 31 ≤ n.toInt ∧ n.toInt < 2 ^ 31
  | _, .varBytes, b => b.length < 2 ^ 31
  | _, .option t, v => ∀ x, v = some x → t.fits ver x
  | _, .vec t, vs => vs.length < 2 ^ 31 ∧ ∀ v ∈ vs, t.fits ver v
  | _, .map lt k v, m => m.length < 2 ^ 16 ∧ (∀ e ∈ m, k.fits ver e.1 ∧ v.fits ver e.2) ∧
      m.Pairwise fun a b => lt a.1 b.1 = true
  | _, .pair a b, v => a.fits ver v.1 ∧ b.fits ver v.2
  | _, .enumNil _, _ => True
  | _, .enumCons _ _ p _, .inl v => p.fits ver v
  | _, .enumCons _ _ _ r, .inr w => r.fits ver w
  | _, .field min max t _, v => (min ≤ ver ∧ ∀ m ∈ max, ver ≤ m) → t.fits ver v

/-- **Specification.** What a peer speaking version `ver` sees of a value: every field that does not
exist in `ver` has its default, everything else is unchanged. -/
def Ty.seenAt (ver : Int) : {α : Type} → Ty α → α → α
  | _, .option t, v => v.map (t.seenAt ver)
  | _, .vec t, vs => vs.map (t.seenAt ver)
  | _, .map _ k v, m => m.map fun e => (k.seenAt ver e.1, v.seenAt ver e.2)
  | _, .pair a b, v => (a.seenAt ver v.1, b.seenAt ver v.2)
  | _, .enumCons _ _ p _, .inl v => .inl (p.seenAt ver v)
  | _, .enumCons _ _ _ r, .inr w => .inr (r.seenAt ver w)
  | _, .field min max t d, v =>
    if min ≤ ver ∧ ∀ m ∈ max, ver ≤ m then t.seenAt ver v else d
  | _, _, v => v

/-- The type has no field with a version range. -/
def Ty.unversioned : {α : Type} → Ty α → Prop
  | _, .option t => t.unversioned
  | _, .vec t => t.unversioned
  | _, .map _ k v => k.unversioned ∧ v.unversioned
  | _, .pair a b => a.unversioned ∧ b.unversioned
  | _, .enumCons _ _ p r => p.unversioned ∧ r.unversioned
  | _, .field _ _ _ _ => False
  | _, _ => True

/-- Keys of maps have no versioned fields (all maps of the code have string or integer keys). -/
def Ty.keysPlain : {α : Type} → Ty α → Prop
  | _, .option t => t.keysPlain
  | _, .vec t => t.keysPlain
  | _, .map _ k v => k.unversioned ∧ v.keysPlain
  | _, .pair a b => a.keysPlain ∧ b.keysPlain
  | _, .enumCons _ _ p r => p.keysPlain ∧ r.keysPlain
  | _, .field _ _ t _ => t.keysPlain
  | _, _ => True

theorem inVersion_iff {min : Int} {max : Option Int} {ver : Int} :
    inVersion min max ver = true ↔ (min ≤ ver ∧ ∀ m ∈ max, ver ≤ m) := by
  cases max <;> simp [inVersion, Option.mem_def]

theorem Ty.seenAt_unversioned (ver : Int) : ∀ {α : Type} (t : Ty α), t.unversioned → ∀ v,
    t.seenAt ver v = v
  | _, .unit, _, _ => rfl
  | _, .bool, _, _ => rfl
  | _, .int _, _, _ => rfl
  | _, .duration, _, _ => rfl
  | _, .string, _, _ => rfl
  | _, .byteBuf, _, _ => rfl
  | _, .varint, _, _ => rfl
  | _, .varBytes, _, _ => rfl
  | _, .option t, h, v => by
    simp only [Ty.seenAt]
    cases v with
    | none => rfl
    | some v => simp [Ty.seenAt_unversioned ver t h v]
  | _, .vec t, h, v => by
    simp only [Ty.seenAt]
    rw [show t.seenAt ver = id from funext (Ty.seenAt_unversioned ver t h)]; simp
  | _, .map _ k w, h, v => by
    simp only [Ty.seenAt]
    rw [show k.seenAt ver = id from funext (Ty.seenAt_unversioned ver k h.1),
      show w.seenAt ver = id from funext (Ty.seenAt_unversioned ver w h.2)]; simp
  | _, .pair a b, h, v => by
    simp only [Ty.seenAt, Ty.seenAt_unversioned ver a h.1, Ty.seenAt_unversioned ver b h.2]
  | _, .enumNil _, _, _ => rfl
  | _, .enumCons _ _ p _, h, .inl v => by simp only [Ty.seenAt, Ty.seenAt_unversioned ver p h.1]
  | _, .enumCons _ _ _ r, h, .inr v => by simp only [Ty.seenAt, Ty.seenAt_unversioned ver r h.2]
  | _, .field _ _ _ _, h, _ => h.elim

theorem Ty.unversioned_keysPlain : ∀ {α : Type} (t : Ty α), t.unversioned → t.keysPlain
  | _, .unit, _ => trivial
  | _, .bool, _ => trivial
  | _, .int _, _ => trivial
  | _, .duration, _ => trivial
  | _, .string, _ => trivial
  | _, .byteBuf, _ => trivial
  | _, .varint, _ => trivial
  | _, .varBytes, _ => trivial
  | _, .option t, h => Ty.unversioned_keysPlain t h
  | _, .vec t, h => Ty.unversioned_keysPlain t h
  | _, .map _ _ v, h => ⟨h.1, Ty.unversioned_keysPlain v h.2⟩
  | _, .pair a b, h => ⟨Ty.unversioned_keysPlain a h.1, Ty.unversioned_keysPlain b h.2⟩
  | _, .enumNil _, _ => trivial
  | _, .enumCons _ _ p r, h => ⟨Ty.unversioned_keysPlain p h.1, Ty.unversioned_keysPlain r h.2⟩
  | _, .field _ _ _ _, h => h.elim

/-- The limits of the specification imply the codec's own well-formedness of what is seen, and the
encoder ignores what is not seen. -/
theorem Ty.seenAt_wf (ver : Int) : ∀ {α : Type} (t : Ty α), t.keysPlain → ∀ v, t.fits ver v →
    (t.codec ver).wf (t.seenAt ver v) ∧ (t.codec ver).enc (t.seenAt ver v) = (t.codec ver).enc v ∧
      (t.codec ver).size (t.seenAt ver v) = (t.codec ver).size v
  | _, .unit, _, _, _ => ⟨trivial, rfl, rfl⟩
  | _, .bool, _, _, _ => ⟨trivial, rfl, rfl⟩
  | _, .int _, _, _, _ => ⟨trivial, rfl, rfl⟩
  | _, .duration, _, _, h => ⟨h, rfl, rfl⟩
  | _, .string, _, s, h => by
    refine ⟨?_, rfl, rfl⟩
    have : s.utf8ByteSize < 2 ^ 15 := h
    show (strBytes s).length < 2 ^ 15
    unfold strBytes; simpa using this
  | _, .byteBuf, _, _, h => ⟨h, rfl, rfl⟩
  | _, .varint, _, _, h => ⟨h, rfl, rfl⟩
  | _, .varBytes, _, _, h => ⟨h, rfl, rfl⟩
  | _, .option t, hk, v, h => by
    cases v with
    | none => exact ⟨trivial, rfl, rfl⟩
    | some v =>
      obtain ⟨a, b, c⟩ := Ty.seenAt_wf ver t hk v (h v rfl)
      refine ⟨a, ?_, ?_⟩
      · simp only [Ty.codec, optionC, Ty.seenAt, Option.map_some, b]
      · simp only [Ty.codec, optionC, Ty.seenAt, Option.map_some, c]
  | _, .vec t, hk, vs, h => by
    have ih := fun v hv => Ty.seenAt_wf ver t hk v (h.2 v hv)
    refine ⟨⟨by simpa [Ty.seenAt] using h.1, ?_⟩, ?_, ?_⟩
    · intro w hw
      simp only [Ty.seenAt, List.mem_map] at hw
      obtain ⟨v, hv, rfl⟩ := hw
      exact (ih v hv).1
    · simp only [Ty.codec, vecC, Ty.seenAt, List.length_map, List.flatMap_map]
      congr 1
      simp only [List.flatMap_def]
      congr 1
      exact List.map_congr_left fun v hv => (ih v hv).2.1
    · simp only [Ty.codec, vecC, Ty.seenAt, List.foldl_map]
      clear h
      generalize 4 = k0
      induction vs generalizing k0 with
      | nil => rfl
      | cons v vs ih' =>
        simp only [List.foldl_cons]
        rw [(ih v (by simp)).2.2, ih' (fun w hw => ih w (by simp [hw]))]
  | _, .map lt k w, hk, m, h => by
    have ek : ∀ x, k.seenAt ver x = x := Ty.seenAt_unversioned ver k hk.1
    have ih := fun e he => Ty.seenAt_wf ver w hk.2 _ (h.2.1 e he).2
    have wk := fun e he => Ty.seenAt_wf ver k (Ty.unversioned_keysPlain k hk.1) _ (h.2.1 e he).1
    refine ⟨⟨by simpa [Ty.seenAt] using h.1, ?_, ?_⟩, ?_, ?_⟩
    · intro x hx
      simp only [Ty.seenAt, List.mem_map] at hx
      obtain ⟨e, he, rfl⟩ := hx
      exact ⟨(wk e he).1, (ih e he).1⟩
    · simp only [Ty.seenAt, ek]
      rw [List.pairwise_map]
      exact h.2.2
    · simp only [Ty.codec, mapC, Ty.seenAt, List.length_map, List.flatMap_map, ek]
      congr 1
      simp only [List.flatMap_def]
      congr 1
      exact List.map_congr_left fun e he => by rw [(ih e he).2.1]
    · simp only [Ty.codec, mapC, Ty.seenAt, List.foldl_map, ek]
      clear h wk
      generalize 2 = k0
      induction m generalizing k0 with
      | nil => rfl
      | cons e m ih' =>
        simp only [List.foldl_cons]
        rw [(ih e (by simp)).2.2, ih' (fun w hw => ih w (by simp [hw]))]
  | _, .pair a b, hk, v, h => by
    obtain ⟨a1, a2, a3⟩ := Ty.seenAt_wf ver a hk.1 v.1 h.1
    obtain ⟨b1, b2, b3⟩ := Ty.seenAt_wf ver b hk.2 v.2 h.2
    exact ⟨⟨a1, b1⟩, by simp only [Ty.codec, pairC, Ty.seenAt, a2, b2],
      by simp only [Ty.codec, pairC, Ty.seenAt, a3, b3]⟩
  | _, .enumNil _, _, v, _ => nomatch v
  | _, .enumCons _ _ p _, hk, .inl v, h => by
    obtain ⟨a1, a2, a3⟩ := Ty.seenAt_wf ver p hk.1 v h
    exact ⟨a1, by simp only [Ty.codec, enumConsC, Ty.seenAt, a2],
      by simp only [Ty.codec, enumConsC, Ty.seenAt, a3]⟩
  | _, .enumCons _ _ _ r, hk, .inr v, h => by
    obtain ⟨a1, a2, a3⟩ := Ty.seenAt_wf ver r hk.2 v h
    exact ⟨a1, by simp only [Ty.codec, enumConsC, Ty.seenAt, a2],
      by simp only [Ty.codec, enumConsC, Ty.seenAt, a3]⟩
  | _, .field min max t d, hk, v, h => by
    simp only [Ty.codec, Ty.seenAt]
    cases hv : inVersion min max ver with
    | true =>
      have hv' := inVersion_iff.1 hv
      rw [fieldC_in _ _ hv, if_pos hv']
      exact Ty.seenAt_wf ver t hk v (h hv')
    | false =>
      have hv' : ¬ (min ≤ ver ∧ ∀ m ∈ max, ver ≤ m) := fun hh => by
        have := inVersion_iff.2 hh; rw [hv] at this; exact absurd this (by decide)
      rw [fieldC_out _ _ hv, if_neg hv']
      exact ⟨rfl, rfl, rfl⟩

end Verif.Wire
