import Verif.Net.Cluster

/-!
# Lemmas about the messages within a cluster
-/

namespace Verif.Net.Cluster
open Verif.Wire Verif.Admin.Schema Verif.Net.Spu
open Verif.Admin.Objects (enum2_ok enum3_ok endpoint_ok partitionMirror_ok compression_ok smartModule2_ok
  smartModule2_keysPlain mirror_ok mirror_plain)

variable {α : Type}

/-- A description all of whose fields exist at `ver`. -/
theorem Sends.whole (t : Ty α) (ho : t.ok) (hk : t.keysPlain) (ver : Int) (hs : ∀ x, t.seenAt ver x = x)
    {f : α → Prop} (hf : ∀ x, f x → t.fits ver x) : Sends (t.codec ver) (fun x => x) f :=
  (Sends.ofTy t ho hk ver).mono hf fun x _ => hs x

theorem Sends.plain (t : Ty α) (ho : t.ok) (hu : t.unversioned) (ver : Int) {f : α → Prop}
    (hf : ∀ x, f x → t.fits ver x) : Sends (t.codec ver) (fun x => x) f :=
  Sends.whole t ho (t.unversioned_keysPlain hu) ver (t.seenAt_unversioned ver hu) hf

theorem pairStat_ok : pairStatT.ok :=
  ⟨trivial, ⟨trivial, ⟨trivial, ⟨trivial, ⟨trivial, ⟨trivial, trivial, [], .nil, by simp⟩,
    [5], .cons _ _ _ .nil, by decide⟩,
    [4, 5], .cons _ _ _ (.cons _ _ _ .nil), by decide⟩,
    [3, 4, 5], .cons _ _ _ (.cons _ _ _ (.cons _ _ _ .nil)), by decide⟩,
    [2, 3, 4, 5], .cons _ _ _ (.cons _ _ _ (.cons _ _ _ (.cons _ _ _ .nil))), by decide⟩,
    [1, 2, 3, 4, 5], .cons _ _ _ (.cons _ _ _ (.cons _ _ _ (.cons _ _ _ (.cons _ _ _ .nil)))), by decide⟩

theorem mirrorStat_ok : mirrorStatT.ok := ⟨enum2_ok (by decide), pairStat_ok, pairStat_ok, trivial⟩

theorem pairStat_plain : pairStatT.unversioned := ⟨trivial, trivial, trivial, trivial, trivial, trivial, trivial⟩

theorem enum2_plain (a b : BitVec (8 * 1)) : (enum2T a b).unversioned := ⟨trivial, trivial, trivial⟩

theorem mirrorStat_plain : mirrorStatT.unversioned :=
  ⟨enum2_plain _ _, pairStat_plain, pairStat_plain, trivial⟩

theorem resolution_ok : resolutionT.ok :=
  ⟨trivial, ⟨trivial, enum3_ok (by decide) (by decide) (by decide), [2, 3, 4],
    .cons _ _ _ (.cons _ _ _ (.cons _ _ _ .nil)), by decide⟩, [1, 2, 3, 4],
    .cons _ _ _ (.cons _ _ _ (.cons _ _ _ (.cons _ _ _ .nil))), by decide⟩

theorem resolution_plain : resolutionT.unversioned := ⟨trivial, trivial, trivial, trivial, trivial, trivial⟩

theorem control_ok {S : Type} {t : Ty S} (h : t.ok) : (controlT t).ok := ⟨trivial, ⟨enum2_ok (by decide), h⟩, h⟩

theorem control_keys {S : Type} {t : Ty S} (h : t.keysPlain) : (controlT t).keysPlain :=
  ⟨trivial, ⟨Ty.unversioned_keysPlain _ (enum2_plain _ _), h⟩, h⟩

theorem control_seen {S : Type} (t : Ty S) (ver : Int) (x : Control S) :
    (controlT t).seenAt ver x = controlSeen (t.seenAt ver) x := by
  simp only [Ty.seenAt, controlSeen]
  refine congrArg (x.1, ·) (congrArg (·, x.2.2.map (t.seenAt ver)) ?_)
  refine List.map_congr_left fun m _ => ?_
  rw [Ty.seenAt_unversioned ver _ (enum2_plain _ _)]

theorem spuSpec_ok : spuSpecT.ok :=
  ⟨trivial, enum2_ok (by decide), ⟨trivial, ⟨trivial, trivial⟩, enum2_ok (by decide)⟩, endpoint_ok, trivial, endpoint_ok⟩

theorem endpoint_plain : endpointT.unversioned := ⟨trivial, trivial, enum2_plain _ _⟩

theorem spuSpec_keys : spuSpecT.keysPlain :=
  ⟨trivial, Ty.unversioned_keysPlain _ (enum2_plain _ _),
    ⟨trivial, ⟨trivial, trivial⟩, Ty.unversioned_keysPlain _ (enum2_plain _ _)⟩,
    Ty.unversioned_keysPlain _ endpoint_plain, trivial,
    Ty.unversioned_keysPlain endpointT endpoint_plain⟩

theorem spuSpec_seen (x : SpuSpec) : spuSpecT.seenAt 0 x = spuSeen x := by
  obtain ⟨i, ty, p, e, r, l⟩ := x
  have h1 := Ty.seenAt_unversioned 0 (.pair (.int 4) (.pair (enum2T 0#8 1#8)
    (.pair (.pair (.int 2) (.pair (.vec (.pair (.option .string) (.option .string))) (enum2T 0#8 1#8)))
      (.pair endpointT (.option .string)))))
    ⟨trivial, enum2_plain _ _, ⟨trivial, ⟨trivial, trivial⟩, enum2_plain _ _⟩, endpoint_plain, trivial⟩ (i, ty, p, e, r)
  have h2 : spuSpecT.seenAt 0 (i, ty, p, e, r, l) =
    (i, (enum2T 0#8 1#8).seenAt 0 ty,
      (Ty.pair (.int 2) (.pair (.vec (.pair (.option .string) (.option .string))) (enum2T 0#8 1#8))).seenAt 0 p,
      endpointT.seenAt 0 e, (Ty.option .string).seenAt 0 r, none) := rfl
  have h3 : (i, (enum2T 0#8 1#8).seenAt 0 ty,
      (Ty.pair (.int 2) (.pair (.vec (.pair (.option .string) (.option .string))) (enum2T 0#8 1#8))).seenAt 0 p,
      endpointT.seenAt 0 e, (Ty.option .string).seenAt 0 r) = (i, ty, p, e, r) := h1
  simp only [Prod.mk.injEq, true_and] at h3
  rw [h2, h3.1, h3.2.1, h3.2.2.1, h3.2.2.2]
  rfl

theorem smartModule_seen (x : String × SmartModule) :
    (Ty.pair .string smartModule2T).seenAt 10 x = smartModuleSeen x := by
  obtain ⟨n, m, c, w⟩ := x
  have hw := Ty.seenAt_unversioned 10 Admin.Schema.wasmT ⟨enum2_plain _ _, trivial⟩ w
  simp only [smartModule2T, metaT, packageT, Ty.seenAt, smartModuleSeen, Prod.mk.injEq, true_and, hw]
  simp

theorem partitionMirror_seen (x : PartitionMirror) : partitionMirrorT.seenAt 18 x = x := by
  rcases x with x | x | x
  · simp [partitionMirrorT, Ty.seenAt]
  · simp [partitionMirrorT, Ty.seenAt]
  · exact nomatch x

theorem replicaInfo_ok : replicaInfoT.ok :=
  ⟨⟨trivial, trivial⟩, trivial, trivial, partitionMirror_ok, trivial, ⟨trivial, trivial, [], .nil, by simp⟩,
    ⟨trivial, trivial⟩, compression_ok, ⟨trivial, trivial⟩, trivial, trivial, trivial⟩

theorem compression_plain : compressionT.unversioned := ⟨trivial, trivial, trivial, trivial, trivial, trivial, trivial⟩

theorem dedup_plain : dedupT.unversioned := ⟨⟨trivial, trivial⟩, trivial, trivial, trivial⟩

theorem replicaInfo_keys : replicaInfoT.keysPlain :=
  ⟨⟨trivial, trivial⟩, trivial, trivial, ⟨⟨trivial, trivial, trivial, trivial, trivial⟩, ⟨trivial, trivial, trivial⟩,
    trivial⟩, trivial, ⟨trivial, trivial⟩, ⟨trivial, trivial⟩, Ty.unversioned_keysPlain _ compression_plain,
    Ty.unversioned_keysPlain _ dedup_plain⟩

theorem replicaInfo_seen (x : Replica) : replicaInfoT.seenAt 18 x = x := by
  obtain ⟨k, l, r, m, b, c, s, z, d⟩ := x
  have h1 := Ty.seenAt_unversioned 18 (.pair (.vec (.int 4)) (.pair (.option (.enumCons 1 0#8 (.int 4) (.enumNil 1)))
      (.pair (.option (.pair (.option (.int 4)) (.option (.int 8)))) (.pair compressionT (.option dedupT)))))
    ⟨trivial, ⟨trivial, trivial⟩, ⟨trivial, trivial⟩, compression_plain, dedup_plain⟩ (r, c, s, z, d)
  have h2 : m.map (partitionMirrorT.seenAt 18) = m := by
    cases m with
    | none => rfl
    | some m => simp only [Option.map_some, partitionMirror_seen]
  have h3 : replicaInfoT.seenAt 18 (k, l, r, m, b, c, s, z, d) =
    ((k.1, k.2), l, (Ty.vec (.int 4)).seenAt 18 r, m.map (partitionMirrorT.seenAt 18), b,
      (Ty.option (.enumCons 1 0#8 (.int 4) (.enumNil 1))).seenAt 18 c,
      (Ty.option (.pair (.option (.int 4)) (.option (.int 8)))).seenAt 18 s, compressionT.seenAt 18 z,
      (Ty.option dedupT).seenAt 18 d) := rfl
  have h4 : ((Ty.vec (.int 4)).seenAt 18 r, (Ty.option (.enumCons 1 0#8 (.int 4) (.enumNil 1))).seenAt 18 c,
      (Ty.option (.pair (.option (.int 4)) (.option (.int 8)))).seenAt 18 s, compressionT.seenAt 18 z,
      (Ty.option dedupT).seenAt 18 d) = (r, c, s, z, d) := h1
  simp only [Prod.mk.injEq] at h4
  rw [h3, h2, h4.1, h4.2.1, h4.2.2.1, h4.2.2.2.1, h4.2.2.2.2]

theorem controlSeen_id {S : Type} {f : S → S} (h : ∀ x, f x = x) (c : Control S) : controlSeen f c = c := by
  have : f = id := funext h
  subst this
  simp [controlSeen]

theorem peerPart_sends : Sends (peerPartitionC errorCodeC setC)
    (fun p => { p with records := p.records.map (asWritten rawC) })
    (fun p => p.error.fits ∧ batchesFit p.records) :=
  (((Sends.int 4).pair (errorCode_sends.pair ((Sends.int 8).pair ((Sends.int 8).pair set_sends)))).struct).mono
    (fun _ h => ⟨trivial, h.1, trivial, trivial, h.2⟩) fun _ _ => rfl

theorem mirrorSync_sends : Sends (mirrorSyncC setC)
    (fun p => { p with records := p.records.map (asWritten rawC) }) (fun p => batchesFit p.records) :=
  (((Sends.int 8).pair ((Sends.int 8).pair set_sends)).struct).mono
    (fun _ h => ⟨trivial, trivial, h⟩) fun _ _ => rfl

theorem req_sends (a : Api) : Sends (reqC a.version.toInt a) (reqSeen a) (reqFits a) := by
  cases a with
  | syncRecords => exact (topic_sends peerPart_sends).vec
  | homeSync => exact mirrorSync_sends
  | remoteSync => exact mirrorSync_sends
  | registerSpu => exact Sends.int 4
  | updateLrs =>
    exact Sends.whole (Api.reqT .updateLrs rfl)
      ⟨⟨⟨trivial, trivial⟩, ⟨trivial, trivial, trivial⟩, ⟨trivial, trivial, trivial⟩, trivial, trivial⟩, trivial, trivial⟩
      ⟨⟨⟨trivial, trivial⟩, ⟨trivial, trivial, trivial⟩, ⟨trivial, trivial, trivial⟩, trivial, trivial⟩, trivial, trivial⟩
      1 (fun x => by simp [Api.reqT, Ty.seenAt])
      fun x h => ⟨⟨h.1, fun l hl => ⟨⟨(h.2 l hl).1, trivial⟩, ⟨trivial, trivial, trivial⟩,
        ⟨(h.2 l hl).2, fun _ _ => ⟨trivial, trivial, trivial⟩⟩, trivial, fun _ => trivial⟩⟩, trivial, trivial⟩
  | replicaRemoved =>
    exact Sends.plain (Api.reqT .replicaRemoved rfl) ⟨⟨trivial, trivial⟩, trivial⟩ ⟨⟨trivial, trivial⟩, trivial⟩ 0
      fun x h => ⟨⟨h, trivial⟩, trivial⟩
  | mirrorStat =>
    exact Sends.plain (Api.reqT .mirrorStat rfl) ⟨trivial, mirrorStat_ok⟩ ⟨trivial, mirrorStat_plain⟩ 0 fun x h => h
  | partitionStat =>
    refine Sends.plain (Api.reqT .partitionStat rfl) ⟨⟨trivial, trivial⟩, resolution_ok⟩
      ⟨⟨trivial, trivial⟩, resolution_plain⟩ 0 fun x h => ⟨h.1, fun p hp => ⟨⟨h.2 p hp, trivial⟩, ?_⟩⟩
    rcases p with ⟨k, (_ | _ | _ | _ | _ | x)⟩ <;> first | exact trivial | exact nomatch x
  | updateSpu =>
    exact (Sends.ofTy (Api.reqT .updateSpu rfl) (control_ok spuSpec_ok) (control_keys spuSpec_keys) 0).mono
      (fun x h => h) fun x _ => by
        show (controlT spuSpecT).seenAt 0 x = _
        rw [control_seen, funext spuSpec_seen]; rfl
  | updateReplica =>
    exact Sends.whole (Api.reqT .updateReplica rfl) (control_ok replicaInfo_ok) (control_keys replicaInfo_keys) 18
      (fun x => by
        show (controlT replicaInfoT).seenAt 18 x = _
        rw [control_seen]; exact controlSeen_id replicaInfo_seen x) fun x h => h
  | updateSmartModule =>
    exact (Sends.ofTy (Api.reqT .updateSmartModule rfl) (control_ok ⟨trivial, smartModule2_ok⟩)
      (control_keys ⟨trivial, smartModule2_keysPlain⟩) 10).mono (fun x h => h) fun x _ => by
        show (controlT (.pair .string smartModule2T)).seenAt 10 x = _
        rw [control_seen, funext smartModule_seen]; rfl
  | updateMirror =>
    exact Sends.plain (Api.reqT .updateMirror rfl) (control_ok ⟨trivial, mirror_ok⟩)
      ⟨trivial, ⟨enum2_plain _ _, trivial, mirror_plain⟩, trivial, mirror_plain⟩ 0 fun x h => h
  | fetchStream =>
    exact Sends.plain (Api.reqT .fetchStream rfl) ⟨trivial, trivial, trivial, trivial⟩
      ⟨trivial, trivial, trivial, trivial⟩ 0 fun x _ => ⟨trivial, trivial, trivial, trivial⟩
  | fetchConsumerOffset =>
    exact Sends.plain (Api.reqT .fetchConsumerOffset rfl) ⟨⟨trivial, trivial⟩, trivial⟩ ⟨⟨trivial, trivial⟩, trivial⟩ 25
      fun x h => ⟨⟨h.1, trivial⟩, h.2⟩
  | updateConsumerOffset =>
    exact Sends.plain (Api.reqT .updateConsumerOffset rfl) ⟨⟨trivial, trivial⟩, trivial, trivial⟩
      ⟨⟨trivial, trivial⟩, trivial, trivial⟩ 25 fun x h => ⟨⟨h.1, trivial⟩, h.2, trivial⟩
  | updateOffsets =>
    exact Sends.plain (Api.reqT .updateOffsets rfl) ⟨⟨trivial, trivial⟩, trivial, trivial⟩
      ⟨⟨trivial, trivial⟩, trivial, trivial⟩ 0 fun x h => ⟨h.1, fun p hp => ⟨⟨h.2 p hp, trivial⟩, trivial, trivial⟩⟩
  | rejectOffset =>
    exact Sends.plain (Api.reqT .rejectOffset rfl) ⟨trivial, trivial⟩
      ⟨trivial, trivial⟩ 0 fun x h => ⟨h.1, fun p hp => ⟨h.2 p hp, trivial⟩⟩
  | homeOffset =>
    exact Sends.plain (Api.reqT .homeOffset rfl) ⟨⟨trivial, trivial⟩, trivial, trivial⟩
      ⟨⟨trivial, trivial⟩, trivial, trivial⟩ 1 fun x h => ⟨⟨h, trivial⟩, trivial, trivial⟩
  | remoteOffset =>
    exact Sends.plain (Api.reqT .remoteOffset rfl) ⟨⟨trivial, trivial⟩, trivial, trivial⟩
      ⟨⟨trivial, trivial⟩, trivial, trivial⟩ 1 fun x h => ⟨⟨h, trivial⟩, trivial, trivial⟩

theorem resp_sends (a : Api) : Sends (respC a) (fun y => y) (respFits a) := by
  cases a with
  | registerSpu =>
    exact (errorCode_sends.pair Sends.string.option).mono (fun _ h => h) fun x _ => by simp
  | fetchStream => exact (Sends.int 4).option.mono (fun _ _ _ _ => trivial) fun x _ => by simp
  | fetchConsumerOffset =>
    exact (errorCode_sends.pair (Sends.int 8).option).mono (fun _ h => ⟨h, fun _ _ => trivial⟩) fun x _ => by simp
  | updateConsumerOffset => exact errorCode_sends
  | _ => exact (Sends.ofRt unitC_lawful.toRoundTrips).mono (fun _ _ => trivial) fun _ _ => rfl

theorem ofKey_key (a : Api) : a.service.ofKey a.key = some a := by cases a <;> rfl

theorem decodeRequest_of {h : Header} {a : Api} {bytes : Bytes} {x : a.Req} {rest : Bytes} (hc : short h.clientId)
    (hk : h.apiKey = a.key) (hd : (reqC h.apiVersion.toInt a).dec bytes = .ok (x, rest)) :
    decodeRequest a.service (reqHeaderC.enc h ++ bytes) = .ok ((h, ⟨a, x⟩), rest) := by
  unfold decodeRequest
  rw [Dec.bind_ok (header_sends.dec h hc bytes), hk, ofKey_key a]
  dsimp only
  rw [Dec.bind_ok hd]
  rfl

end Verif.Net.Cluster
