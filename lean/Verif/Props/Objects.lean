import Verif.Admin.ObjectsLemmas

/-!
# C73 — administrative requests arrive as they were sent

The specification vocabulary (`specSeen`, `reqSeen`: what a version can express; `specFits`, `reqFits`:
lengths fit their prefixes) is at the beginning of `Verif.Admin.ObjectsLemmas`.
-/

namespace Verif.Props
open Verif.Wire Verif.Admin.Schema Verif.Admin.Objects

/-- **C73.** The dynamic envelope itself, for every label and every type of contents (also those of
answers): from version 11 on the receiver gets exactly what the version can express when it asks for
the label, nothing when it asks for another label, and what follows in the stream is untouched; the
announced size is the number of bytes. -/
theorem C73_envelope {α : Type} (t : Ty α) (ho : t.ok) (hk : t.keysPlain) (label : String)
    (hl : label.utf8ByteSize < 2 ^ 15) (ver : Int) (hv : 11 ≤ ver) (x : α) (hx : t.fits ver x)
    (hb : ((t.codec ver).enc x).length < 2 ^ 32) (rest : Bytes) :
    let sent := TypeBuffer.of label (fun v => t.codec v) x ver
    sent.size ver = (sent.enc ver).length ∧
      ∃ tb, TypeBuffer.dec ver (sent.enc ver ++ rest) = .ok (tb, rest) ∧
        tb.downcast label (fun v => t.codec v) = .ok (some (t.seenAt ver x)) ∧
        ∀ (β : Type) (f : Fmt β) (other : String), other ≠ label → tb.downcast other f = .ok none := by
  refine ⟨typeBuffer_size _ hl ver, _, typeBuffer_roundtrip ver hv label hl _ hb ver rest, ?_, ?_⟩
  · exact typeBuffer_downcast (f := fun v => t.codec v) (Described.ofTy t ho hk ver) label x hx
  · intro β f other ho
    exact typeBuffer_other _ _ ho

example : ∃ tb, TypeBuffer.dec 12 ((TypeBuffer.of "Topic" (fun v => commonT.codec v)
      ("t", true, some 5#32) 12).enc 12 ++ [9]) = .ok (tb, [9]) ∧
    tb.downcast "Topic" (fun v => commonT.codec v) = .ok (some ("t", true, some 5#32)) ∧
    tb.downcast "SPU" (fun v => commonT.codec v) = .ok none := by
  obtain ⟨-, tb, h1, h2, h3⟩ := C73_envelope commonT ⟨trivial, trivial, trivial⟩
    ⟨trivial, trivial, trivial⟩ "Topic" (by decide) 12 (by decide) ("t", true, some 5#32)
    ⟨by show "t".utf8ByteSize < _; decide, trivial, fun _ _ _ => trivial⟩ (by decide) [9]
  exact ⟨tb, h1, h2, h3 _ _ "SPU" (by decide)⟩

private theorem reqSeen_old (a : Api) (k : Kind) (ver : Int) (hv : ver < 11) (x : Req a k) :
    reqSeen a k 11 (reqSeen a k ver x) = reqSeen a k ver x := by
  cases a with
  | list =>
    simp only [reqSeen]
    rw [if_pos (by decide), if_neg (show ¬ (13 : Int) ≤ 11 by decide),
      if_neg (show ¬ (13 : Int) ≤ ver by omega)]
  | watch =>
    simp only [reqSeen]
    rw [if_pos (by decide)]
  | delete =>
    simp only [reqSeen]
    rw [if_neg (show ¬ (13 : Int) ≤ 11 by decide), if_neg (show ¬ (13 : Int) ≤ ver by omega)]
  | update => rfl

private theorem reqFits_seen (a : Api) (k : Kind) (ver : Int) (x : Req a k) (h : reqFits a k x) :
    reqFits a k (reqSeen a k ver x) := by
  cases a <;> exact h

/-- **C73.** Requests to list, watch, delete and change: in every version in which the server knows
the kind of object (changes: from version 11 on; the others in every version, mirrors from version 11
on), the server that asks for the kind gets exactly what the version can express of the request, asking
for any other kind gives nothing, and the rest of the stream is untouched.
Missing: changes before version 11 (`C73_violated_update`) and mirrors before version 11
(`C73_violated_mirror`). -/
theorem C73_requests_partial (a : Api) (k : Kind) (x : Req a k) (ver : Int)
    (hk : 11 ≤ ver ∨ (a ≠ .update ∧ k ≠ .mirror)) (hx : reqFits a k x)
    (hb : ((reqF a k ver).enc x).length < 2 ^ 32) (rest : Bytes) :
    ∃ tb, reqDec a ver (reqEnc a k x ver ++ rest) = .ok (tb, rest) ∧
      reqDowncast a k tb = .ok (some (reqSeen a k ver x)) ∧
      ∀ k', k' ≠ k → reqDowncast a k' tb = .ok none := by
  have hl : k.label.utf8ByteSize < 2 ^ 15 := by cases k <;> decide
  by_cases hv : 11 ≤ ver
  · refine ⟨⟨ver, k.label, (reqF a k ver).enc x⟩, ?_, ?_, ?_⟩
    · have hd : ver ≥ dynObj := hv
      rw [reqDec, if_pos (Or.inr hd)]
      exact typeBuffer_roundtrip ver hv k.label hl _ hb ver rest
    · exact typeBuffer_downcast (req_described a k ver) k.label x hx
    · intro k' hk'
      exact typeBuffer_other _ _ fun h => hk' (label_inj h)
  · obtain ⟨ha, hm⟩ := hk.resolve_left hv
    have hd : ¬ ver ≥ dynObj := hv
    have hkn : classicKnows a k = true := by
      cases a <;> cases k <;> first | rfl | exact absurd rfl ha | exact absurd rfl hm | exact nomatch x.1
    refine ⟨⟨dynObj, k.label, (reqF a k dynObj).enc (reqSeen a k ver x)⟩, ?_, ?_, ?_⟩
    · rw [reqDec, if_neg (by simp only [not_or]; exact ⟨ha, hd⟩), reqEnc, TypeBuffer.of,
        TypeBuffer.enc, if_neg hd]
      simp only [List.nil_append, List.append_assoc]
      rw [classicDec, Dec.bind_ok (stringC_lawful.roundtrip _ _ (label_wf k)), kindOf_label]
      dsimp only
      rw [if_pos hkn, Dec.bind_ok ((req_described a k ver).roundtrip x hx rest)]
      rfl
    · have := typeBuffer_downcast (req_described a k dynObj) k.label (reqSeen a k ver x)
        (reqFits_seen a k ver x hx)
      rw [show reqSeen a k dynObj (reqSeen a k ver x) = _ from reqSeen_old a k ver (by omega) x] at this
      exact this
    · intro k' hk'
      exact typeBuffer_other _ _ fun h => hk' (label_inj h)

example : ∃ tb, reqDec .delete 3 (reqEnc .delete .customSpu (.inr 7#32, true) 3 ++ [1, 2]) =
      .ok (tb, [1, 2]) ∧
    reqDowncast .delete .customSpu tb = .ok (some (.inr 7#32, false)) ∧
    ∀ k', k' ≠ .customSpu → reqDowncast .delete k' tb = .ok none :=
  C73_requests_partial .delete .customSpu (.inr 7#32, true) 3 (.inr ⟨by decide, by decide⟩) trivial
    (by decide) [1, 2]

/-- **C73.** Requests to create, from version 11 on: for every kind of object, every object. -/
theorem C73_create_partial (k : Kind) (x : Common × k.Spec) (ver : Int) (hv : 11 ≤ ver)
    (hc : commonT.fits ver x.1) (hx : specFits k ver x.2)
    (hb : ((createF k ver).enc x).length < 2 ^ 32) (rest : Bytes) :
    createSize k x ver = (createEnc k x ver).length ∧
      ∃ tb, createDec ver (createEnc k x ver ++ rest) = .ok (tb, rest) ∧
        createDowncast k tb = .ok (some (x.1, specSeen k ver x.2)) ∧
        ∀ k', k' ≠ k → createDowncast k' tb = .ok none := by
  have hl : k.label.utf8ByteSize < 2 ^ 15 := by cases k <;> decide
  have hd : ver ≥ dynObj := hv
  refine ⟨?_, ⟨ver, k.label, (createF k ver).enc x⟩, ?_, ?_, ?_⟩
  · rw [createSize, if_pos hd, createEnc, if_pos hd]
    exact typeBuffer_size _ hl ver
  · rw [createDec, if_pos hd, createEnc, if_pos hd]
    exact typeBuffer_roundtrip ver hv k.label hl _ hb ver rest
  · have hnd : ¬ ver < dynObj := Int.not_lt.2 hd
    have h := (create_described k ver).roundtrip x ⟨hc, hx⟩ []
    rw [List.append_nil] at h
    simp only [createDowncast, if_pos, if_neg hnd, h]
    congr 3
    simp only [commonT, Ty.seenAt, Option.mem_def, reduceCtorEq, false_implies, implies_true, and_true]
    rw [if_pos (by omega)]
    simp
  · intro k' hk'
    simp only [createDowncast, if_neg (show ¬ k.label = k'.label from fun h => hk' (label_inj h).symm)]

example : ∃ tb, createDec 19 (createEnc .spuGroup (("g", false, none), (3#16, 10#32, none, none, none, [])) 19) =
      .ok (tb, []) ∧
    createDowncast .spuGroup tb = .ok (some (("g", false, none), (3#16, 10#32, none, none, none, []))) := by
  have := (C73_create_partial .spuGroup (("g", false, none), (3#16, 10#32, none, none, none, [])) 19
    (by decide) ⟨by show "g".utf8ByteSize < _; decide, trivial, fun _ => nofun⟩
    ⟨trivial, trivial, nofun, nofun, nofun, by decide, nofun⟩ (by decide) []).2
  rw [List.append_nil] at this
  obtain ⟨tb, h1, h2, -⟩ := this
  exact ⟨tb, h1, h2⟩

/-! ## Requests of old clients to create something (versions 9 and 10) -/

/-- **Specification.** Objects whose requests of version 9 and 10 survive: table formats, groups and
custom SPUs, topics whose replicas the controller assigns, and in version 10 SmartModules without
package. -/
def survivesOld : (k : Kind) → Int → k.Spec → Prop
  | .topic, _, x => ∃ r, x.1 = .inr (.inl r)
  | .smartModule, ver, x => ver = 10 ∧ x.1 = none
  | .customSpu, _, _ => True
  | .spuGroup, _, _ => True
  | .tableFormat, _, _ => True
  | _, _, _ => False

private theorem common_enc (v w : Int) (hv : 7 ≤ v) (hw : 7 ≤ w) (c : Common) :
    (commonT.codec v).enc c = (commonT.codec w).enc c := by
  have a : inVersion 7 none v = true := by simp [inVersion, hv]
  have b : inVersion 7 none w = true := by simp [inVersion, hw]
  simp only [commonT, Ty.codec, fieldC_in _ _ a, fieldC_in _ _ b]

private theorem common_seen (v : Int) (hv : 7 ≤ v) (c : Common) : commonT.seenAt v c = c := by
  simp only [commonT, Ty.seenAt, Option.mem_def, reduceCtorEq, false_implies, implies_true, and_true]
  rw [if_pos hv]
  simp

private theorem field_seen {α : Type} {min ver : Int} (t : Ty α) (hu : t.unversioned) (d x : α)
    (h : min ≤ ver) : (Ty.field min none t d).seenAt ver x = x := by
  rw [Ty.seenAt, if_pos ⟨h, nofun⟩, Ty.seenAt_unversioned ver t hu]

private theorem field_unseen {α : Type} {min ver : Int} (t : Ty α) (d x : α) (h : ver < min) :
    (Ty.field min none t d).seenAt ver x = d := by
  rw [Ty.seenAt, if_neg (fun hh => by omega)]

private theorem compression_plain : compressionT.unversioned :=
  ⟨trivial, trivial, trivial, trivial, trivial, trivial, trivial⟩

private theorem topic_again (ver : Int) (hv : 9 ≤ ver) (hv' : ver < 11) (x : Topic)
    (hx : ∃ r, x.1 = .inr (.inl r)) :
    ∃ extra, (topicT.codec 19).enc (topicT.seenAt ver x) =
      (topicT.codec ver).enc x ++ extra := by
  obtain ⟨r0, cp, st, co, dd, sy⟩ := x
  obtain ⟨⟨p, f, i⟩, hr⟩ := hx
  simp only at hr
  subst hr
  have i3 : inVersion 3 none ver = true := by simp [inVersion]; omega
  have i4 : inVersion 4 none ver = true := by simp [inVersion]; omega
  have i6 : inVersion 6 none ver = true := by simp [inVersion]; omega
  have i12 : inVersion 12 none ver = false := by simp [inVersion]; omega
  have i13 : inVersion 13 none ver = false := by simp [inVersion]; omega
  have j3 : inVersion 3 none 19 = true := by decide
  have j4 : inVersion 4 none 19 = true := by decide
  have j6 : inVersion 6 none 19 = true := by decide
  have j12 : inVersion 12 none 19 = true := by decide
  have j13 : inVersion 13 none 19 = true := by decide
  refine ⟨(Ty.codec 19 (.option dedupT)).enc none ++ boolC.enc false, ?_⟩
  have e6 : compressionT.codec 19 = compressionT.codec ver :=
    codec_unversioned _ _ _ compression_plain
  have hs : topicT.seenAt ver (.inr (.inl (p, f, i)), cp, st, co, dd, sy) =
      (.inr (.inl (p, f, i)), cp, st, co, none, false) := by
    show (replicasT.seenAt ver (.inr (.inl (p, f, i))),
      (Ty.field 3 none (.option (.enumCons 1 0#8 (.int 4) (.enumNil 1))) none).seenAt ver cp,
      (Ty.field 4 none (.option (.pair (.option (.int 4)) (.option (.int 8)))) none).seenAt ver st,
      (Ty.field 6 none compressionT compressionAny).seenAt ver co,
      (Ty.field 12 none (.option dedupT) none).seenAt ver dd,
      (Ty.field 13 none .bool false).seenAt ver sy) = _
    rw [field_unseen _ _ dd (by omega), field_unseen _ _ sy (by omega),
      field_seen _ (by exact ⟨trivial, trivial⟩) _ cp (by omega),
      field_seen _ (by exact ⟨trivial, trivial⟩) _ st (by omega),
      field_seen _ compression_plain _ co (by omega)]
    rfl
  rw [hs]
  simp only [topicT, Ty.codec, pairC, fieldC_in _ _ j3, fieldC_in _ _ j4, fieldC_in _ _ j6,
    fieldC_in _ _ j12, fieldC_in _ _ j13, fieldC_in _ _ i3, fieldC_in _ _ i4, fieldC_in _ _ i6,
    fieldC_out _ _ i12, fieldC_out _ _ i13, absentC, e6, replicasT, enumConsC, List.append_nil,
    List.append_assoc]

private theorem spec_again (k : Kind) (ver : Int) (hv : 9 ≤ ver) (hv' : ver < 11) (x : k.Spec)
    (hs : survivesOld k ver x) :
    ∃ extra, (k.specF 19).enc (specSeen k ver x) = (k.specF ver).enc x ++ extra := by
  cases k with
  | topic => exact topic_again ver hv hv' x hs
  | customSpu =>
    refine ⟨[], ?_⟩
    rw [List.append_nil]
    show (customSpuT.codec 19).enc x = (customSpuT.codec ver).enc x
    rw [codec_unversioned 19 ver customSpuT customSpu_plain]
  | spuGroup =>
    refine ⟨[], ?_⟩
    rw [List.append_nil]
    show (spuGroupT.codec 19).enc x = (spuGroupT.codec ver).enc x
    rw [codec_unversioned 19 ver spuGroupT spuGroup_plain]
  | tableFormat =>
    refine ⟨[], ?_⟩
    rw [List.append_nil]
    show (tableFormatT.codec 19).enc x = (tableFormatT.codec ver).enc x
    rw [codec_unversioned 19 ver tableFormatT tableFormat_plain]
  | smartModule =>
    obtain ⟨rfl, h2⟩ := hs
    obtain ⟨m, u, w⟩ := x
    simp only at h2
    subst h2
    refine ⟨[], ?_⟩
    rw [List.append_nil]
    show (smartModule2T.codec 19).enc (smartModule2T.seenAt 10 (none, u, w)) =
      (smartModule2T.codec 10).enc (none, u, w)
    have hw : wasmT.unversioned := ⟨⟨trivial, trivial, trivial⟩, trivial⟩
    have : smartModule2T.seenAt 10 (none, u, w) = (none, u, w) := by
      show (_, _, _) = (_, _, _)
      rw [Ty.seenAt_unversioned 10 wasmT hw, Ty.seenAt_unversioned 10 (.option (.int 4)) trivial]
      rfl
    rw [this]
    simp only [smartModule2T, Ty.codec, pairC, optionC, codec_unversioned 19 10 wasmT hw]
  | mirror => exact hs.elim
  | spu => exact hs.elim
  | partition => exact hs.elim

/-- **C73.** Requests of old clients (versions 9 and 10) to create an object of the kinds listed in
`survivesOld`: the server gets what the version can express.
Missing: the others (`C73_violated_assigned`, `C73_violated_package`, `C73_violated_smartmodule`,
`C73_violated_mirror`). -/
theorem C73_create_old_partial (k : Kind) (x : Common × k.Spec) (ver : Int) (hv : 9 ≤ ver)
    (hv' : ver < 11) (hs : survivesOld k ver x.2) (hc : commonT.fits ver x.1)
    (hx : specFits k ver x.2) (rest : Bytes) :
    createSize k x ver = (createEnc k x ver).length ∧
      ∃ tb, createDec ver (createEnc k x ver ++ rest) = .ok (tb, rest) ∧
        createDowncast k tb = .ok (some (x.1, specSeen k ver x.2)) ∧
        ∀ k', k' ≠ k → createDowncast k' tb = .ok none := by
  have hd : ¬ ver ≥ dynObj := Int.not_le.2 hv'
  have hd' : ver < dynObj := hv'
  have ht : kindOfType (createType k) = some k := by
    cases k <;> first | decide | exact hs.elim
  have hcs : commonT.seenAt ver x.1 = x.1 := common_seen ver (by omega) x.1
  have hdec : ∀ tail, classicCreateDec ver (classicCreateEnc ver k x ++ tail) =
      .ok ((x.1, ⟨k, specSeen k ver x.2⟩), tail) := by
    intro tail
    simp only [classicCreateDec, classicCreateEnc, List.append_assoc]
    rw [Dec.bind_ok ((common_described ver).roundtrip x.1 hc _), Dec.bind_ok (intDec_intEnc 1 _ _), ht]
    dsimp only
    rw [Dec.bind_ok ((spec_described k ver).roundtrip x.2 hx tail), hcs]
    rfl
  obtain ⟨extra, he⟩ := spec_again k ver hv hv' x.2 hs
  refine ⟨?_, ⟨ver, k.label, classicCreateEnc commonVersion k (x.1, specSeen k ver x.2)⟩, ?_, ?_, ?_⟩
  · rw [createSize, if_neg hd, createEnc, if_neg hd]
  · rw [createDec, if_neg hd, createEnc, if_neg hd, Dec.bind_ok (hdec rest)]
    rfl
  · have e : classicCreateEnc commonVersion k (x.1, specSeen k ver x.2) =
        classicCreateEnc ver k x ++ extra := by
      simp only [classicCreateEnc, commonVersion, he, List.append_assoc,
        common_enc 19 ver (by decide) (by omega)]
    simp only [createDowncast, if_pos, if_pos hd', e, hdec, dite_true]
  · intro k' hk'
    simp only [createDowncast, if_neg (show ¬ k.label = k'.label from fun h => hk' (label_inj h).symm)]

example : ∃ tb, createDec 10 (createEnc .topic (("t", false, none), .inr (.inl (2#32, 1#32, false)),
      some (.inl 60#32), none, compressionAny, none, false) 10 ++ [1]) = .ok (tb, [1]) ∧
    createDowncast .topic tb = .ok (some (("t", false, none), .inr (.inl (2#32, 1#32, false)),
      some (.inl 60#32), none, compressionAny, none, false)) := by
  obtain ⟨-, tb, h1, h2, -⟩ := C73_create_old_partial .topic
    (("t", false, none), .inr (.inl (2#32, 1#32, false)),
      some (.inl 60#32), none, compressionAny, none, false) 10 (by decide) (by decide) ⟨_, rfl⟩
    ⟨by show "t".utf8ByteSize < _; decide, trivial, fun _ => nofun⟩
    ⟨⟨trivial, trivial, trivial⟩, fun _ x hx => by cases hx; trivial, fun _ => nofun,
      fun _ => trivial, fun _ => nofun, fun _ => trivial⟩ [1]
  exact ⟨tb, h1, h2⟩

/-! ### What goes wrong -/

/-- What the server makes of a request to create an object. -/
def createReceived (k : Kind) (x : Common × k.Spec) (ver : Int) :
    Except Err (Option (Common × k.Spec)) :=
  match createDec ver (createEnc k x ver) with
  | .ok (tb, _) => createDowncast k tb
  | .error e => .error e

/-- **C73 is violated.**  A request of version 9 or 10 to create an object is decoded, encoded again at
version 19 and decoded once more at the original version (`objects/create.rs:87-95`).  A topic with one
partition assigned to SPU 1, kept for an hour, without compression restrictions: the byte of the absent
mirror (since version 14) is taken for the absence of a retention time, and everything after it is
shifted: the topic is created without retention time and with compression switched off. -/
theorem C73_violated_assigned :
    createReceived .topic
        (("t", false, none), .inl [(0#32, [1#32], none)], some (.inl 3600#32), none, compressionAny,
          none, false) 10 =
      .ok (some (("t", false, none), .inl [(0#32, [1#32], none)], none, some (none, none), .inl (),
        none, false)) ∧
    specSeen .topic 10
        (.inl [(0#32, [1#32], none)], some (.inl 3600#32), none, compressionAny, none, false) =
      (.inl [(0#32, [1#32], none)], some (.inl 3600#32), none, compressionAny, none, false) := by
  exact ⟨rfl, rfl⟩

/-- **C73 is violated.**  The same with two partitions: the request is not understood at all. -/
theorem C73_violated_two_partitions :
    createReceived .topic
        (("t", false, none), .inl [(0#32, [1#32], none), (1#32, [2#32], none)], none, none,
          compressionAny, none, false) 10 = .error .eof := by
  rfl

/-- **C73 is violated.**  A SmartModule with a package, sent by a client of version 10: the visibility
(since version 19) shifts what follows. -/
theorem C73_violated_package :
    createReceived .smartModule
        (("m", false, none),
          some (("m", "g", "0.1.0", "0.1.0", none, none, .inr (.inl ()), some "r"), []), none,
          (.inl (), [1, 2, 3])) 10 = .error .eof := by
  rfl

/-- **C73 is violated.**  A SmartModule sent by a client of version 9: it is encoded again in the second
format and then read in the first, where the code is found at another place; `ByteBuf` then reads
beyond the end, which is a panic. -/
theorem C73_violated_smartmodule :
    createReceived .smartModule (("m", false, none), none, none, (.inl (), [1, 2, 3])) 9 =
      .error .panic := by
  rfl

/-- **C73 is violated.**  Mirrors cannot be created or deleted by clients of a version before 11,
although the encoders know them (`objects/classic.rs:475, 517`): the classic decoders have no arm for
them. -/
theorem C73_violated_mirror (c : Common) (m : Mirror) (name : String) (force : Bool) (ver : Int)
    (hv : ver < 11) (hc : commonT.fits ver c) (rest : Bytes) :
    createDec ver (createEnc .mirror (c, m) ver ++ rest) = .error .invalid ∧
      reqDec .delete ver (reqEnc .delete .mirror (name, force) ver ++ rest) = .error .invalid := by
  have hd : ¬ ver ≥ dynObj := Int.not_le.2 hv
  constructor
  · rw [createDec, if_neg hd, createEnc, if_neg hd]
    simp only [classicCreateDec, classicCreateEnc, List.append_assoc]
    apply bind_error
    rw [Dec.bind_ok ((common_described ver).roundtrip c hc _), Dec.bind_ok (intDec_intEnc 1 _ _)]
    rfl
  · rw [reqDec, if_neg (by simp only [not_or]; exact ⟨by decide, hd⟩), reqEnc, TypeBuffer.of,
      TypeBuffer.enc, if_neg hd]
    simp only [List.nil_append, List.append_assoc]
    rw [classicDec, Dec.bind_ok (stringC_lawful.roundtrip _ _ (label_wf .mirror)), kindOf_label]
    rfl

/-- **C73 is violated.**  A request to add a partition in version 10, which the server accepts
(`MIN_API_VERSION` is 1): the client writes no length, the server expects one. -/
theorem C73_violated_update :
    (reqDec .update 10 (reqEnc .update .topic ("t", .inl 1#32) 10)).toOption = none := by
  decide +kernel

/-! ## Damaged messages -/

/-- **C73.** From version 11 on a truncated message is refused with an error (never understood as
another request, no panic): for every request of every kind. -/
theorem C73_truncated (label : String) (hl : label.utf8ByteSize < 2 ^ 15) (buf : Bytes)
    (hb : buf.length < 2 ^ 32) (ver : Int) (hv : 11 ≤ ver) (p s : Bytes) (hs : s ≠ [])
    (h : (TypeBuffer.mk ver label buf).enc ver = p ++ s) :
    ∃ e, TypeBuffer.dec ver p = .error e ∧ e ≠ .panic := by
  have hd : ver ≥ dynObj := hv
  simp only [TypeBuffer.enc, if_pos hd] at h
  rcases prefix_split h hs with ⟨s', h1, h2⟩ | ⟨p', rfl, h2⟩
  · obtain ⟨e, he, hn⟩ := stringC_safe label (string_wf hl) p s' h1 h2
    exact ⟨e, bind_error he, hn⟩
  · simp only [TypeBuffer.dec]
    rw [Dec.bind_ok (stringC_lawful.roundtrip label _ (string_wf hl))]
    rcases prefix_split h2 hs with ⟨s'', h3, h4⟩ | ⟨p'', rfl, h4⟩
    · have := prefix_length h3 h4
      simp only [intEnc, beEnc_length] at this
      exact ⟨.eof, bind_error (intDec_short this), by decide⟩
    · rw [Dec.bind_ok (intDec_intEnc 4 _ _),
        show (BitVec.ofNat (8 * 4) buf.length).toNat = buf.length by
          rw [BitVec.toNat_ofNat]; exact Nat.mod_eq_of_lt (by simpa using hb)]
      exact ⟨.eof, bind_error (takeN_short (prefix_length h4 hs)), by decide⟩

example : ∃ e, TypeBuffer.dec 19 ([0, 1] ++ ([120, 0, 0])) = .error e ∧ e ≠ .panic := by
  refine C73_truncated "x" (by decide) [7, 8] (by decide) 19 (by decide) [0, 1, 120, 0, 0] [0, 2, 7, 8]
    (by decide) (by decide)

end Verif.Props
