import Verif.Admin.Objects

/-!
# Lemmas about the dynamic encoding
-/

namespace Verif.Admin.Objects
open Verif.Wire Verif.Admin.Schema

/-! ## Specification vocabulary -/

/-- **Specification.** What version `ver` can express of a SmartModule: before version 10 its code
only. -/
def smartModuleSeen (ver : Int) (x : SmartModule) : SmartModule :=
  if ver < 10 then (none, none, x.2.2) else smartModule2T.seenAt ver x

/-- **Specification.** Lengths fit their prefixes. -/
def smartModuleFits (ver : Int) (x : SmartModule) : Prop :=
  if ver < 10 then x.2.2.2.length < 2 ^ 32 else smartModule2T.fits ver x

/-- **Specification.** What version `ver` can express of an object to be created. -/
def specSeen : (k : Kind) → Int → k.Spec → k.Spec
  | .topic, ver, x => topicT.seenAt ver x
  | .customSpu, _, x => x
  | .smartModule, ver, x => smartModuleSeen ver x
  | .spuGroup, _, x => x
  | .tableFormat, _, x => x
  | .mirror, _, x => x
  | .spu, _, x => x
  | .partition, _, x => x

/-- **Specification.** Lengths fit their prefixes. -/
def specFits : (k : Kind) → Int → k.Spec → Prop
  | .topic, ver, x => topicT.fits ver x
  | .customSpu, ver, x => customSpuT.fits ver x
  | .smartModule, ver, x => smartModuleFits ver x
  | .spuGroup, ver, x => spuGroupT.fits ver x
  | .tableFormat, ver, x => tableFormatT.fits ver x
  | .mirror, ver, x => mirrorT.fits ver x
  | .spu, _, _ => True
  | .partition, _, _ => True

/-- **Specification.** What version `ver` can express of a request: the flags `summary` (from version
10), `system` and `force` (from version 13) are off in older versions. -/
def reqSeen : (a : Api) → (k : Kind) → Int → Req a k → Req a k
  | .list, _, ver, x =>
    (x.1, (if 10 ≤ ver then x.2.1 else false), (if 13 ≤ ver then x.2.2 else false))
  | .watch, _, ver, x => (x.1, if 10 ≤ ver then x.2 else false)
  | .delete, _, ver, x => (x.1, if 13 ≤ ver then x.2 else false)
  | .update, _, _, x => x

/-- **Specification.** Names are shorter than 32 KiB. -/
def keyFits : (k : Kind) → k.Key → Prop
  | .customSpu, .inl n => n.utf8ByteSize < 2 ^ 15
  | .customSpu, .inr _ => True
  | .spu, _ => True
  | .partition, _ => True
  | .topic, n => String.utf8ByteSize n < 2 ^ 15
  | .smartModule, n => String.utf8ByteSize n < 2 ^ 15
  | .spuGroup, n => String.utf8ByteSize n < 2 ^ 15
  | .tableFormat, n => String.utf8ByteSize n < 2 ^ 15
  | .mirror, n => String.utf8ByteSize n < 2 ^ 15

/-- **Specification.** … -/
def actionFits : (k : Kind) → k.Action → Prop
  | .topic, .inl _ => True
  | .topic, .inr (.inl (c, _)) => String.utf8ByteSize c < 2 ^ 15
  | .mirror, _ => True
  | .spu, s => String.utf8ByteSize s < 2 ^ 15
  | .partition, s => String.utf8ByteSize s < 2 ^ 15
  | .customSpu, s => String.utf8ByteSize s < 2 ^ 15
  | .smartModule, s => String.utf8ByteSize s < 2 ^ 15
  | .spuGroup, s => String.utf8ByteSize s < 2 ^ 15
  | .tableFormat, s => String.utf8ByteSize s < 2 ^ 15

/-- **Specification.** Names are shorter than 32 KiB, lists shorter than 2³¹. -/
def reqFits : (a : Api) → (k : Kind) → Req a k → Prop
  | .list, _, x => x.1.length < 2 ^ 31 ∧ ∀ n ∈ x.1, n.utf8ByteSize < 2 ^ 15
  | .watch, _, _ => True
  | .delete, k, x => keyFits k x.1
  | .update, k, x => keyFits k x.1 ∧ actionFits k x.2

/-! ## Described formats -/

/-- A format transmits what `seen` says of the values that satisfy `fits`. -/
structure Described {α : Type} (c : Codec α) (seen : α → α) (fits : α → Prop) : Prop where
  lawful : Lawful c
  wf : ∀ x, fits x → c.wf (seen x) ∧ c.enc (seen x) = c.enc x ∧ c.size (seen x) = c.size x

theorem Described.roundtrip {α : Type} {c : Codec α} {seen : α → α} {fits : α → Prop}
    (h : Described c seen fits) (x : α) (hx : fits x) (rest : Bytes) :
    c.dec (c.enc x ++ rest) = .ok (seen x, rest) := by
  obtain ⟨w, e, -⟩ := h.wf x hx
  rw [← e]
  exact h.lawful.roundtrip _ rest w

theorem Described.size {α : Type} {c : Codec α} {seen : α → α} {fits : α → Prop}
    (h : Described c seen fits) (x : α) (hx : fits x) : c.size x = (c.enc x).length := by
  obtain ⟨w, e, s⟩ := h.wf x hx
  rw [← e, ← s]
  exact h.lawful.size_eq _ w

theorem Described.ofTy {α : Type} (t : Ty α) (ho : t.ok) (hk : t.keysPlain) (ver : Int) :
    Described (t.codec ver) (t.seenAt ver) (t.fits ver) :=
  ⟨t.lawful ver ho, fun x hx => t.seenAt_wf ver hk x hx⟩

theorem Described.ofPlain {α : Type} (t : Ty α) (ho : t.ok) (hu : t.unversioned) (ver : Int) :
    Described (t.codec ver) (fun x => x) (t.fits ver) := by
  have := Described.ofTy t ho (t.unversioned_keysPlain hu) ver
  rwa [show t.seenAt ver = fun x => x from funext (t.seenAt_unversioned ver hu)] at this

theorem Described.pair {α β : Type} {c : Codec α} {d : Codec β} {s : α → α} {t : β → β}
    {p : α → Prop} {q : β → Prop} (hc : Described c s p) (hd : Described d t q) :
    Described (pairC c d) (fun x => (s x.1, t x.2)) (fun x => p x.1 ∧ q x.2) where
  lawful := pairC_lawful hc.lawful hd.lawful
  wf x hx := by
    obtain ⟨a1, a2, a3⟩ := hc.wf x.1 hx.1
    obtain ⟨b1, b2, b3⟩ := hd.wf x.2 hx.2
    exact ⟨⟨a1, b1⟩, by simp only [pairC, a2, b2], by simp only [pairC, a3, b3]⟩

theorem Described.weaken {α : Type} {c : Codec α} {s : α → α} {p q : α → Prop}
    (h : Described c s p) (hq : ∀ x, q x → p x) : Described c s q :=
  ⟨h.lawful, fun x hx => h.wf x (hq x hx)⟩

theorem Described.congr {α : Type} {c : Codec α} {s t : α → α} {p : α → Prop}
    (h : Described c s p) (e : ∀ x, s x = t x) : Described c t p := by
  rwa [show s = t from funext e] at h

/-- Types without versioned fields have one format. -/
theorem codec_unversioned (v w : Int) : ∀ {α : Type} (t : Ty α), t.unversioned →
    t.codec v = t.codec w
  | _, .unit, _ => rfl
  | _, .bool, _ => rfl
  | _, .int _, _ => rfl
  | _, .duration, _ => rfl
  | _, .string, _ => rfl
  | _, .byteBuf, _ => rfl
  | _, .varint, _ => rfl
  | _, .varBytes, _ => rfl
  | _, .option t, h => by simp only [Ty.codec, codec_unversioned v w t h]
  | _, .vec t, h => by simp only [Ty.codec, codec_unversioned v w t h]
  | _, .map _ k t, h => by
    simp only [Ty.codec, codec_unversioned v w k h.1, codec_unversioned v w t h.2]
  | _, .pair a b, h => by
    simp only [Ty.codec, codec_unversioned v w a h.1, codec_unversioned v w b h.2]
  | _, .enumNil _, _ => rfl
  | _, .enumCons _ _ p r, h => by
    simp only [Ty.codec, codec_unversioned v w p h.1, codec_unversioned v w r h.2]
  | _, .field _ _ _ _, h => h.elim

/-! ## The types are well-formed -/

theorem enum1_ok (a : BitVec (8 * 1)) : (enum1T a).ok := ⟨trivial, trivial, [], .nil, by simp⟩

theorem enum2_ok {a b : BitVec (8 * 1)} (h : a ≠ b) : (enum2T a b).ok :=
  ⟨trivial, enum1_ok b, [b], .cons b _ _ .nil, by simpa using h⟩

theorem enum3_ok {a b c : BitVec (8 * 1)} (hab : a ≠ b) (hac : a ≠ c) (hbc : b ≠ c) :
    (enum3T a b c).ok :=
  ⟨trivial, enum2_ok hbc, [b, c], .cons b _ _ (.cons c _ _ .nil), by simp [hab, hac]⟩

theorem compression_ok : compressionT.ok :=
  ⟨trivial, ⟨trivial, ⟨trivial, enum3_ok (by decide) (by decide) (by decide), [3#8, 4#8, 5#8],
    .cons _ _ _ (.cons _ _ _ (.cons _ _ _ .nil)), by decide⟩, [2#8, 3#8, 4#8, 5#8],
    .cons _ _ _ (.cons _ _ _ (.cons _ _ _ (.cons _ _ _ .nil))), by decide⟩,
    [1#8, 2#8, 3#8, 4#8, 5#8],
    .cons _ _ _ (.cons _ _ _ (.cons _ _ _ (.cons _ _ _ (.cons _ _ _ .nil)))), by decide⟩

theorem partitionMirror_ok : partitionMirrorT.ok :=
  ⟨⟨trivial, trivial, trivial, trivial, trivial⟩,
    ⟨⟨trivial, trivial, trivial⟩, trivial, [], .nil, by simp⟩, [1#8], .cons _ _ _ .nil, by decide⟩

theorem topicMirror_ok : topicMirrorT.ok :=
  ⟨⟨trivial, ⟨trivial, trivial, trivial⟩, trivial⟩,
    ⟨⟨⟨trivial, trivial, trivial⟩, trivial⟩, trivial, [], .nil, by simp⟩,
    [1#8], .cons _ _ _ .nil, by decide⟩

theorem replicas_ok : replicasT.ok :=
  ⟨⟨trivial, trivial, partitionMirror_ok⟩,
    ⟨⟨trivial, trivial, trivial⟩, ⟨topicMirror_ok, trivial, [], .nil, by simp⟩, [2#8],
      .cons _ _ _ .nil, by decide⟩, [1#8, 2#8], .cons _ _ _ (.cons _ _ _ .nil), by decide⟩

theorem topic_ok : topicT.ok :=
  ⟨replicas_ok, ⟨trivial, trivial, [], .nil, by simp⟩, ⟨trivial, trivial⟩, compression_ok,
    ⟨⟨trivial, trivial⟩, trivial, trivial, trivial⟩, trivial⟩

theorem topic_keysPlain : topicT.keysPlain :=
  ⟨⟨⟨trivial, trivial, ⟨trivial, trivial, trivial, trivial, trivial⟩, ⟨trivial, trivial, trivial⟩,
      trivial⟩, ⟨trivial, trivial, trivial⟩,
      ⟨⟨trivial, ⟨trivial, trivial, trivial⟩, trivial⟩, ⟨⟨trivial, trivial, trivial⟩, trivial⟩,
        trivial⟩, trivial⟩,
    ⟨trivial, trivial⟩, ⟨trivial, trivial⟩,
    ⟨trivial, trivial, trivial, trivial, trivial, trivial, trivial⟩,
    ⟨⟨trivial, trivial⟩, trivial, trivial, trivial⟩, trivial⟩

theorem endpoint_ok : endpointT.ok := ⟨trivial, trivial, enum2_ok (by decide)⟩

theorem customSpu_ok : customSpuT.ok :=
  ⟨trivial, ⟨trivial, ⟨trivial, trivial⟩, enum2_ok (by decide)⟩, endpoint_ok, trivial, endpoint_ok⟩

theorem customSpu_plain : customSpuT.unversioned :=
  ⟨trivial, ⟨trivial, ⟨trivial, trivial⟩, trivial, trivial, trivial⟩,
    ⟨trivial, trivial, trivial, trivial, trivial⟩, trivial,
    ⟨trivial, trivial, trivial, trivial, trivial⟩⟩

theorem spuGroup_ok : spuGroupT.ok :=
  ⟨trivial, trivial, trivial, trivial, ⟨trivial, trivial⟩, trivial, trivial⟩

theorem spuGroup_plain : spuGroupT.unversioned :=
  ⟨trivial, trivial, trivial, trivial, ⟨trivial, trivial⟩, trivial, trivial⟩

theorem tableFormat_ok : tableFormatT.ok :=
  ⟨trivial, enum1_ok _, ⟨trivial, trivial, enum3_ok (by decide) (by decide) (by decide), trivial,
    trivial, trivial, trivial, enum3_ok (by decide) (by decide) (by decide),
    enum3_ok (by decide) (by decide) (by decide)⟩, trivial⟩

theorem enum3_plain (a b c : BitVec (8 * 1)) : (enum3T a b c).unversioned :=
  ⟨trivial, trivial, trivial, trivial⟩

theorem tableFormat_plain : tableFormatT.unversioned :=
  ⟨trivial, ⟨trivial, trivial⟩, ⟨trivial, trivial, enum3_plain _ _ _, trivial, trivial, trivial,
    trivial, enum3_plain _ _ _, enum3_plain _ _ _⟩, trivial⟩

theorem mirror_ok : mirrorT.ok :=
  ⟨trivial, ⟨⟨trivial, trivial, trivial, trivial, trivial, trivial, trivial⟩, trivial, [], .nil,
    by simp⟩, [1#8], .cons _ _ _ .nil, by decide⟩

theorem mirror_plain : mirrorT.unversioned :=
  ⟨trivial, ⟨trivial, trivial, trivial, trivial, trivial, trivial, trivial⟩, trivial⟩

theorem wasm_ok : wasmT.ok := ⟨enum2_ok (by decide), trivial⟩

theorem smartModule2_ok : smartModule2T.ok :=
  ⟨⟨⟨trivial, trivial, trivial, trivial, trivial, trivial, enum2_ok (by decide), trivial⟩, trivial,
    trivial, trivial⟩, trivial, wasm_ok⟩

theorem smartModule2_keysPlain : smartModule2T.keysPlain :=
  ⟨⟨⟨trivial, trivial, trivial, trivial, trivial, trivial, ⟨trivial, trivial, trivial⟩, trivial⟩,
    trivial, trivial, trivial⟩, trivial, ⟨trivial, trivial, trivial⟩, trivial⟩

theorem smartModule1_ok : smartModule1T.ok :=
  ⟨enum2_ok (by decide), enum3_ok (by decide) (by decide) (by decide), ⟨enum1_ok _, trivial⟩,
    wasm_ok, trivial⟩

theorem smartModule1_plain : smartModule1T.unversioned :=
  ⟨⟨trivial, trivial, trivial⟩, enum3_plain _ _ _, ⟨⟨trivial, trivial⟩, trivial⟩,
    ⟨⟨trivial, trivial, trivial⟩, trivial⟩, trivial⟩

theorem smartModule1_fits (ver : Int) (x : SmartModule) (h : x.2.2.2.length < 2 ^ 32) :
    smartModule1T.fits ver (asV1 x) := by
  refine ⟨trivial, trivial, nofun, ⟨?_, h⟩, nofun⟩
  obtain ⟨-, -, f, -⟩ := x
  rcases f with _ | _ | e
  · trivial
  · trivial
  · exact nomatch e

theorem smartModule_described (ver : Int) :
    Described (smartModuleF ver) (smartModuleSeen ver) (smartModuleFits ver) := by
  by_cases hv : ver < 10
  · have d := Described.ofPlain smartModule1T smartModule1_ok smartModule1_plain ver
    refine ⟨⟨⟨?_, ?_⟩, ?_, ?_⟩, ?_⟩
    · intro x rest hw
      simp only [smartModuleF, if_pos hv] at hw ⊢
      rw [Dec.bind_ok (d.lawful.roundtrip _ rest hw.2.2)]
      obtain ⟨a, b, c⟩ := x
      simp only at hw
      obtain ⟨rfl, rfl, -⟩ := hw
      rfl
    · intro x hw
      simp only [smartModuleF, if_pos hv] at hw ⊢
      exact d.lawful.size_eq _ hw.2.2
    · simp only [smartModuleF, if_pos hv]
      exact d.lawful.loc.bind fun _ => Local.pure _
    · simp only [smartModuleF, if_pos hv]
      exact d.lawful.suf.bind fun _ => Suffix.pure _
    · intro x hx
      simp only [smartModuleFits, if_pos hv] at hx
      simp only [smartModuleF, smartModuleSeen, if_pos hv]
      refine ⟨⟨trivial, trivial, ?_⟩, rfl, rfl⟩
      exact (d.wf _ (smartModule1_fits ver (none, none, x.2.2) hx)).1
  · have d := Described.ofTy smartModule2T smartModule2_ok smartModule2_keysPlain ver
    have e1 : smartModuleF ver = smartModule2T.codec ver := by simp only [smartModuleF, if_neg hv]
    have e2 : smartModuleSeen ver = smartModule2T.seenAt ver := by
      funext x; simp only [smartModuleSeen, if_neg hv]
    have e3 : smartModuleFits ver = smartModule2T.fits ver := by
      funext x; simp only [smartModuleFits, if_neg hv]
    rw [e1, e2, e3]; exact d

theorem never_described (ver : Int) (s : Empty → Empty) (p : Empty → Prop) :
    Described ((Ty.enumNil 1).codec ver) s p :=
  ⟨enumNilC_lawful 1, fun x _ => nomatch x⟩

theorem spec_described (k : Kind) (ver : Int) :
    Described (k.specF ver) (specSeen k ver) (specFits k ver) := by
  cases k with
  | topic => exact Described.ofTy topicT topic_ok topic_keysPlain ver
  | customSpu => exact Described.ofPlain customSpuT customSpu_ok customSpu_plain ver
  | smartModule => exact smartModule_described ver
  | spuGroup => exact Described.ofPlain spuGroupT spuGroup_ok spuGroup_plain ver
  | tableFormat => exact Described.ofPlain tableFormatT tableFormat_ok tableFormat_plain ver
  | mirror => exact Described.ofPlain mirrorT mirror_ok mirror_plain ver
  | spu => exact never_described ver _ _
  | partition => exact never_described ver _ _

theorem common_described (ver : Int) :
    Described (commonT.codec ver) (commonT.seenAt ver) (commonT.fits ver) :=
  Described.ofTy commonT ⟨trivial, trivial, trivial⟩ ⟨trivial, trivial, trivial⟩ ver

theorem create_described (k : Kind) (ver : Int) :
    Described (createF k ver) (fun x => (commonT.seenAt ver x.1, specSeen k ver x.2))
      (fun x => commonT.fits ver x.1 ∧ specFits k ver x.2) :=
  (common_described ver).pair (spec_described k ver)

/-! ## Keys and requests -/

theorem string_described (ver : Int) :
    Described (Ty.string.codec ver) (fun x => x) (fun s => s.utf8ByteSize < 2 ^ 15) :=
  Described.ofPlain Ty.string trivial trivial ver

theorem string_wf {s : String} (h : s.utf8ByteSize < 2 ^ 15) : stringC.wf s := by
  show (strBytes s).length < 2 ^ 15
  unfold strBytes; simpa using h

theorem customSpuKey_lawful : Lawful customSpuKeyC where
  roundtrip x rest h := by
    cases x with
    | inl n =>
      simp only [customSpuKeyC, List.append_assoc]
      rw [Dec.bind_ok (stringC_lawful.roundtrip "Name" _ (string_wf (by decide))), if_pos rfl,
        Dec.bind_ok (stringC_lawful.roundtrip n rest h)]
      rfl
    | inr i =>
      simp only [customSpuKeyC, List.append_assoc]
      rw [Dec.bind_ok (stringC_lawful.roundtrip "Id" _ (string_wf (by decide))), if_neg (by decide),
        if_pos rfl, Dec.bind_ok ((intC_lawful 4).roundtrip i rest trivial)]
      rfl
  size_eq x h := by
    cases x with
    | inl n =>
      simp only [customSpuKeyC, List.length_append]
      rw [stringC_lawful.size_eq _ (string_wf (by decide)), stringC_lawful.size_eq n h]
    | inr i =>
      simp only [customSpuKeyC, List.length_append]
      rw [stringC_lawful.size_eq _ (string_wf (by decide)), (intC_lawful 4).size_eq i trivial]
  loc := by
    refine stringC_lawful.loc.bind fun t => ?_
    split
    · exact stringC_lawful.loc.bind fun _ => Local.pure _
    · split
      · exact (intC_lawful 4).loc.bind fun _ => Local.pure _
      · exact Local.fail _
  suf := by
    refine stringC_lawful.suf.bind fun t => ?_
    split
    · exact stringC_lawful.suf.bind fun _ => Suffix.pure _
    · split
      · exact (intC_lawful 4).suf.bind fun _ => Suffix.pure _
      · exact Suffix.fail _

theorem key_described (k : Kind) (ver : Int) :
    Described (k.keyF ver) (fun x => x) (keyFits k) := by
  cases k with
  | customSpu =>
    refine ⟨customSpuKey_lawful, fun x hx => ⟨?_, rfl, rfl⟩⟩
    cases x with
    | inl n => exact string_wf hx
    | inr i => trivial
  | spu => exact never_described ver _ _
  | partition => exact never_described ver _ _
  | topic => exact string_described ver
  | smartModule => exact string_described ver
  | spuGroup => exact string_described ver
  | tableFormat => exact string_described ver
  | mirror => exact string_described ver

theorem topicAction_ok : topicActionT.ok :=
  ⟨trivial, ⟨⟨trivial, trivial⟩, trivial, [], .nil, by simp⟩, [1#8], .cons _ _ _ .nil, by decide⟩

theorem action_described (k : Kind) (ver : Int) :
    Described (k.actionF ver) (fun x => x) (actionFits k) := by
  cases k with
  | topic =>
    refine (Described.ofPlain topicActionT topicAction_ok
      ⟨trivial, ⟨trivial, trivial⟩, trivial⟩ ver).weaken fun x hx => ?_
    rcases x with _ | x | x
    · trivial
    · exact ⟨hx, trivial⟩
    · exact nomatch x
  | mirror => exact never_described ver _ _
  | spu => exact string_described ver
  | partition => exact string_described ver
  | customSpu => exact string_described ver
  | smartModule => exact string_described ver
  | spuGroup => exact string_described ver
  | tableFormat => exact string_described ver

theorem req_described (a : Api) (k : Kind) (ver : Int) :
    Described (reqF a k ver) (reqSeen a k ver) (reqFits a k) := by
  cases a with
  | list =>
    refine ((Described.ofTy listT ⟨trivial, trivial, trivial⟩ ⟨trivial, trivial, trivial⟩
      ver).weaken ?_).congr ?_
    · intro x hx
      exact ⟨hx, fun _ => trivial, fun _ => trivial⟩
    · intro x
      simp only [listT, Ty.seenAt, reqSeen, Option.mem_def, reduceCtorEq, false_implies,
        implies_true, and_true]
      simp
  | watch =>
    refine ((Described.ofTy watchT ⟨trivial, trivial⟩ ⟨trivial, trivial⟩ ver).weaken ?_).congr ?_
    · intro x hx
      exact ⟨trivial, fun _ => trivial⟩
    · intro x
      simp only [watchT, Ty.seenAt, reqSeen, Option.mem_def, reduceCtorEq, false_implies,
        implies_true, and_true]
  | delete =>
    refine (((key_described k ver).pair (Described.ofTy forceT trivial trivial ver)).weaken
      ?_).congr ?_
    · intro x hx
      exact ⟨hx, fun _ => trivial⟩
    · intro x
      simp only [forceT, Ty.seenAt, reqSeen, Option.mem_def, reduceCtorEq, false_implies,
        implies_true, and_true]
  | update => exact (key_described k ver).pair (action_described k ver)

/-! ## Labels -/

theorem label_wf (k : Kind) : stringC.wf k.label := by
  apply string_wf
  cases k <;> decide

theorem label_inj {k k' : Kind} (h : k.label = k'.label) : k = k' := by
  cases k <;> cases k' <;> first | rfl | exact absurd h (by decide)

theorem kindOf_label (k : Kind) : kindOf k.label = some k := by
  cases k <;> decide

/-! ## `TypeBuffer` -/

theorem typeBuffer_roundtrip (ver : Int) (hv : 11 ≤ ver) (label : String)
    (hl : label.utf8ByteSize < 2 ^ 15) (buf : Bytes) (hb : buf.length < 2 ^ 32) (v' : Int)
    (rest : Bytes) :
    TypeBuffer.dec ver ((TypeBuffer.mk v' label buf).enc ver ++ rest) =
      .ok (⟨ver, label, buf⟩, rest) := by
  have hv' : ver ≥ dynObj := hv
  simp only [TypeBuffer.enc, if_pos hv', List.append_assoc, TypeBuffer.dec]
  rw [Dec.bind_ok (stringC_lawful.roundtrip label _ (string_wf hl)),
    Dec.bind_ok (intDec_intEnc 4 _ _),
    show (BitVec.ofNat (8 * 4) buf.length).toNat = buf.length by
      rw [BitVec.toNat_ofNat]; exact Nat.mod_eq_of_lt (by simpa using hb),
    Dec.bind_ok (takeN_append buf rest)]
  rfl

theorem typeBuffer_downcast {α : Type} {f : Fmt α} {ver : Int} {seen : α → α} {fits : α → Prop}
    (h : Described (f ver) seen fits) (label : String) (x : α) (hx : fits x) :
    (TypeBuffer.mk ver label ((f ver).enc x)).downcast label f = .ok (some (seen x)) := by
  have := h.roundtrip x hx []
  rw [List.append_nil] at this
  simp only [TypeBuffer.downcast, if_pos, this]

theorem typeBuffer_other {α : Type} {f : Fmt α} (tb : TypeBuffer) (label : String)
    (h : label ≠ tb.ty) : tb.downcast label f = .ok none := by
  simp only [TypeBuffer.downcast, if_neg (Ne.symm h)]

theorem typeBuffer_size (tb : TypeBuffer) (hl : tb.ty.utf8ByteSize < 2 ^ 15) (ver : Int) :
    tb.size ver = (tb.enc ver).length := by
  simp only [TypeBuffer.size, TypeBuffer.enc, List.length_append]
  rw [stringC_lawful.size_eq _ (string_wf hl)]
  split
  · simp only [intEnc, beEnc_length]; omega
  · simp only [List.length_nil]; omega

end Verif.Admin.Objects
