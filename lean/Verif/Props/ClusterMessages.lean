import Verif.Net.ClusterLemmas

/-!
# Messages within a cluster and between mirrored clusters

C91: what controller, brokers and mirrors tell each other arrives as it was sent.

Each kind of message is sent at one fixed version.  For two of them that version is older than a field of their
contents, which therefore never arrives: the local public endpoint of brokers and the visibility of SmartModules.
-/

namespace Verif.Props
open Verif.Wire Verif.Net Verif.Net.Spu Verif.Net.Cluster

/-- **C91**, except for the two fields (`reqSeen`).  Whatever is put in a message of any kind, the service it is for
gets a message of that kind, with the same header and contents, and nothing of what follows on the connection is
touched.  The announced length is the length sent. -/
theorem C91_message_partial (a : Cluster.Api) (x : a.Req) (correlation : BitVec 32) (client : String)
    (hc : short client) (hx : Cluster.reqFits a x) (rest : Bytes) :
    Cluster.decodeRequest a.service (Cluster.encodeRequest (header a correlation client) a x ++ rest) =
      .ok ((⟨a.key, a.version, correlation, client⟩, ⟨a, Cluster.reqSeen a x⟩), rest) ∧
    Cluster.requestSize (header a correlation client) a x =
      (Cluster.encodeRequest (header a correlation client) a x).length := by
  have hs := Cluster.req_sends a
  constructor
  · unfold Cluster.encodeRequest
    rw [List.append_assoc]
    exact Cluster.decodeRequest_of (h := header a correlation client) hc rfl (hs.dec x hx rest)
  · unfold Cluster.requestSize Cluster.encodeRequest
    rw [List.length_append, header_sends.size _ hc]
    congr 1
    exact hs.size x hx

private theorem sf {v : Int} {s : String} (h : short s) : Ty.string.fits v s := h

/-- A replica with a mirror, cleanup, limits and deduplication. -/
def c91Replica : Replica :=
  (("t", 3), 1, [1, 2], some (.inl ("edge", "b", 5, "h:1", true)), false, some (.inl 3600), some (some 10, none),
    .inl (), some ((100, some (5, 0)), ("dedup", [("a", "1"), ("b", "2")])))

private theorem c91_mirror :
    (Ty.option Admin.Schema.partitionMirrorT).fits 18 (some (.inl ("edge", "b", 5, "h:1", true))) := by
  intro m hm; cases hm
  exact ⟨sf (by decide), sf (by decide), trivial, sf (by decide), fun _ => trivial⟩

private theorem c91_dedup : (Ty.option Admin.Schema.dedupT).fits 18
    (some ((100, some (5, 0)), ("dedup", [("a", "1"), ("b", "2")]))) := by
  intro m hm; cases hm
  have hd : Ty.duration.fits 18 (5, 0) := show (0 : BitVec 32).toNat < _ by decide
  refine ⟨⟨trivial, fun d hd' => by cases hd'; exact hd⟩, sf (by decide), by decide, ?_, ?_⟩
  · intro e he
    simp only [List.mem_cons, List.not_mem_nil, or_false] at he
    rcases he with rfl | rfl <;> exact ⟨sf (by decide), sf (by decide)⟩
  · exact .cons (fun b hb => by rw [List.mem_singleton.1 hb]; decide +kernel) (.cons nofun .nil)

private theorem c91_replica : replicaInfoT.fits 18 c91Replica :=
  ⟨⟨sf (s := "t") (by decide), trivial⟩, trivial, ⟨by decide, fun _ _ => trivial⟩, c91_mirror, trivial,
    fun m hm => by cases hm; trivial, fun m hm => by cases hm; exact ⟨fun _ _ => trivial, fun _ _ => trivial⟩,
    trivial, c91_dedup⟩

/-- The hypotheses are met by an update of that replica … -/
example : Cluster.reqFits .updateReplica (7, [(.inl (), c91Replica)], []) := by
  show (controlT replicaInfoT).fits 18 (7, [(.inl (), c91Replica)], [])
  refine ⟨trivial, ⟨by decide, fun m hm => ?_⟩, ⟨by decide, fun _ h => absurd h List.not_mem_nil⟩⟩
  rw [List.mem_singleton.1 hm]
  exact ⟨trivial, c91_replica⟩

/-- … and of the status of its replicas. -/
example : Cluster.reqFits .updateLrs ([(("t", 3), (1, 5, 7), [(2, 5, 6)], 100, 2)], 0, 0) :=
  ⟨by decide, fun l hl => by rw [List.mem_singleton.1 hl]; exact ⟨by decide, by decide⟩⟩

/-- **C91.** The replicas a broker is told to lead or follow, the mirrors, what brokers report about replicas,
partitions and mirrors, and offsets arrive completely. -/
theorem C91_complete (a : Cluster.Api) (x : a.Req)
    (ha : a ∉ [.updateSpu, .updateSmartModule, .syncRecords, .homeSync, .remoteSync])
    (correlation : BitVec 32) (client : String) (hc : short client) (hx : Cluster.reqFits a x) (rest : Bytes) :
    Cluster.decodeRequest a.service (Cluster.encodeRequest (header a correlation client) a x ++ rest) =
      .ok ((⟨a.key, a.version, correlation, client⟩, ⟨a, x⟩), rest) := by
  have h := (C91_message_partial a x correlation client hc hx rest).1
  have hs : Cluster.reqSeen a x = x := by
    cases a <;> first | rfl | exact absurd (by decide) ha
  rw [hs] at h
  exact h

/-- **C91.** Batches sent to a follower or a mirror arrive with their offsets, producers, times and records. -/
theorem C91_batches (p : MirrorSync (List (Batch Bytes))) (b : Batch Bytes) (hb : b ∈ p.records) :
    ∃ b' ∈ (Cluster.reqSeen .remoteSync p).records, b'.baseOffset = b.baseOffset ∧
      { b'.header with crc := 0 } = { b.header with crc := 0 } ∧
      b'.records = b.records :=
  ⟨asWritten rawC b, List.mem_map_of_mem hb, rfl, rfl, rfl⟩

/-- A broker whose clients in the same network use another address. -/
def c91Spu : SpuSpec := (1, .inl (), (9005, [(some "h", none)], .inl ()), (9006, "h", .inl ()), none,
  some (9007, "local", .inl ()))

/-- **C91 fails for brokers.**  `UpdateSpuRequest` is sent at version 0 and `public_endpoint_local` exists from
version 1 (spu/spec.rs:38, update_spu.rs:12-15): a broker is never told the local public endpoint of another one. -/
theorem C91_violated_spu : ∃ x : Cluster.Api.Req .updateSpu, Cluster.reqFits .updateSpu x ∧
    ∀ correlation, ∃ y : Cluster.Api.Req .updateSpu, y ≠ x ∧
      Cluster.decodeRequest .broker (Cluster.encodeRequest (header .updateSpu correlation "sc") .updateSpu x) =
        .ok ((header .updateSpu correlation "sc", ⟨.updateSpu, y⟩), []) := by
  have hx : Cluster.reqFits .updateSpu (1, [], [c91Spu]) := by
    refine ⟨trivial, ⟨by decide, nofun⟩, by decide, fun m hm => ?_⟩
    rw [List.mem_singleton.1 hm]
    refine ⟨trivial, trivial, ⟨trivial, ⟨by decide, fun i hi => ?_⟩, trivial⟩, ⟨trivial, sf (s := "h") (by decide), trivial⟩, nofun, ?_⟩
    · rw [List.mem_singleton.1 hi]
      exact ⟨fun s hs => by cases hs; exact sf (by decide), nofun⟩
    · intro hv; exact absurd hv.1 (by decide)
  refine ⟨(1, [], [c91Spu]), hx, fun correlation => ⟨(1, [], [spuSeen c91Spu]), ?_, ?_⟩⟩
  · intro he
    exact absurd (congrArg (fun c : Control SpuSpec => c.2.2.map fun s => s.2.2.2.2.2.isSome) he) (by decide)
  have h := (C91_message_partial .updateSpu (1, [], [c91Spu]) correlation "sc" (by decide) hx []).1
  rw [List.append_nil] at h
  exact h

/-- A SmartModule anyone may use. -/
def c91SmartModule : String × Verif.Admin.Schema.SmartModule :=
  ("f", some (("f", "g", "0.1.0", "0.1.0", none, none, .inr (.inl ()), none), []), none, (.inl (), [0]))

/-- **C91 fails for SmartModules.**  `UpdateSmartModuleRequest` is sent at version 10 and `visibility` exists from
version 19 (smartmodule/package.rs:84, update_smartmodule.rs:21): to a broker every SmartModule is private. -/
theorem C91_violated_smartmodule : ∃ x : Cluster.Api.Req .updateSmartModule, Cluster.reqFits .updateSmartModule x ∧
    ∀ correlation, ∃ y : Cluster.Api.Req .updateSmartModule, y ≠ x ∧
      Cluster.decodeRequest .broker
          (Cluster.encodeRequest (header .updateSmartModule correlation "sc") .updateSmartModule x) =
        .ok ((header .updateSmartModule correlation "sc", ⟨.updateSmartModule, y⟩), []) := by
  have hx : Cluster.reqFits .updateSmartModule (1, [], [c91SmartModule]) := by
    refine ⟨trivial, ⟨by decide, nofun⟩, by decide, fun m hm => ?_⟩
    rw [List.mem_singleton.1 hm]
    refine ⟨sf (s := "f") (by decide), ?_, nofun, trivial, show ([0] : Bytes).length < 2 ^ 32 by decide⟩
    intro i hi
    cases hi
    exact ⟨⟨sf (by decide), sf (by decide), sf (by decide), sf (by decide), nofun, nofun, fun _ => trivial, nofun⟩, by decide, nofun, .nil⟩
  refine ⟨(1, [], [c91SmartModule]), hx, fun correlation => ⟨(1, [], [smartModuleSeen c91SmartModule]), ?_, ?_⟩⟩
  · intro he
    exact absurd (congrArg (fun c : Control (String × Verif.Admin.Schema.SmartModule) =>
      c.2.2.map fun m => m.2.1.map fun i => i.1.2.2.2.2.2.2.1.isLeft) he) (by decide)
  have h := (C91_message_partial .updateSmartModule (1, [], [c91SmartModule]) correlation "sc" (by decide) hx []).1
  rw [List.append_nil] at h
  exact h

/-- **Specification.** The keys a service knows. -/
def serviceKeys : Service → List Nat
  | .controller => [2000, 2001, 2002, 2003, 2004]
  | .broker => [1001, 1002, 1003, 1004]
  | .peer => [0, 1, 2]
  | .leader => [0]
  | .follower => [0, 1]
  | .mirrorHome => [0, 1]
  | .mirrorRemote => [0, 1]

/-- **C91.** A message with a key the service does not know is refused, not taken for another. -/
theorem C91_unknown_key (s : Service) (h : Header) (hc : short h.clientId) (hk : h.apiKey.toNat ∉ serviceKeys s)
    (rest : Bytes) : Cluster.decodeRequest s (reqHeaderC.enc h ++ rest) = .error .invalid := by
  unfold Cluster.decodeRequest
  rw [Dec.bind_ok (header_sends.dec h hc rest)]
  have hne : ∀ k : BitVec 16, k.toNat ∈ serviceKeys s → h.apiKey ≠ k := fun k hm he => hk (by rw [he]; exact hm)
  have hn : s.ofKey h.apiKey = none := by
    cases s with
    | controller =>
      simp only [Service.ofKey]
      rw [if_neg (hne 2000 (by decide)), if_neg (hne 2001 (by decide)), if_neg (hne 2002 (by decide)),
        if_neg (hne 2003 (by decide)), if_neg (hne 2004 (by decide))]
    | broker =>
      simp only [Service.ofKey]
      rw [if_neg (hne 1001 (by decide)), if_neg (hne 1002 (by decide)), if_neg (hne 1003 (by decide)),
        if_neg (hne 1004 (by decide))]
    | peer =>
      simp only [Service.ofKey]
      rw [if_neg (hne 0 (by decide)), if_neg (hne 1 (by decide)), if_neg (hne 2 (by decide))]
    | leader => simp only [Service.ofKey]; rw [if_neg (hne 0 (by decide))]
    | follower => simp only [Service.ofKey]; rw [if_neg (hne 0 (by decide)), if_neg (hne 1 (by decide))]
    | mirrorHome => simp only [Service.ofKey]; rw [if_neg (hne 0 (by decide)), if_neg (hne 1 (by decide))]
    | mirrorRemote => simp only [Service.ofKey]; rw [if_neg (hne 0 (by decide)), if_neg (hne 1 (by decide))]
  rw [hn]
  rfl

/-- A request of a client is refused by the controller's service for brokers. -/
example : (⟨1003, 0, 1, "c"⟩ : Header).apiKey.toNat ∉ serviceKeys .controller := by decide

/-- **C91.** The answer given to a message is decoded by its sender, with the number of the message. -/
theorem C91_answer (a : Cluster.Api) (y : a.Resp) (correlation : BitVec 32) (client : String)
    (hy : Cluster.respFits a y) (rest : Bytes) :
    Cluster.decodeResponse a (Cluster.encodeResponse (header a correlation client) a y ++ rest) =
      .ok ((correlation, y), rest) := by
  unfold Cluster.decodeResponse Cluster.encodeResponse
  rw [List.append_assoc, Dec.bind_ok ((Sends.int 4).dec _ trivial _), Dec.bind_ok ((Cluster.resp_sends a).dec y hy rest)]
  rfl

/-- The hypothesis is met by the refusal of a broker. -/
example : Cluster.respFits .registerSpu (.spuRegisterationFailed, some "unknown") :=
  ⟨trivial, fun s hs => by cases hs; decide⟩

end Verif.Props
