import Verif.Net.SpuLemmas

/-!
# Requests to a broker and its answers

C90: requests of clients and the answers of a broker arrive as they were sent, as far as the version spoken has
the fields.

Limits on sizes are those of the length prefixes: texts shorter than 32 KiB (`short`), lists shorter than 2³¹,
record sets below 2 GiB and without a schema (C07).
-/

namespace Verif.Props
open Verif.Wire Verif.Net Verif.Net.Spu

/-- **C90.** Whatever a client puts in a request — of any kind, at any version —, the broker gets a request of that
kind with the same header and the same contents as far as the version has the fields (`reqSeen`; a produce timeout
arrives in whole milliseconds), and nothing of what follows on the connection is touched.  The announced length is
the length sent. -/
theorem C90_request (h : Header) (a : Api) (x : a.Req) (bytes : Bytes) (hk : h.apiKey = a.key)
    (hc : short h.clientId) (hx : reqFits a x) (he : encodeRequest h a x = some bytes) (rest : Bytes) :
    decodeRequest (bytes ++ rest) = .ok ((h, ⟨a, reqSeen h.apiVersion.toInt a x⟩), rest) ∧
      requestSize h a x = bytes.length := by
  unfold encodeRequest at he
  cases hn : encodable a x with
  | false => rw [hn] at he; cases he
  | true =>
    rw [hn] at he
    cases he
    have hs := req_sends h.apiVersion.toInt a
    constructor
    · rw [List.append_assoc]
      exact decodeRequest_of hc hk (hs.dec x ⟨hn, hx⟩ rest)
    · unfold requestSize
      rw [List.length_append, header_sends.size h hc, hs.size x ⟨hn, hx⟩]

/-- A request to produce one batch to partition 2 of "t", within 1.5 s, as read by the leader only … -/
def c90Produce : Produce :=
  ⟨none, true, 1500000000, [⟨"t", [⟨2, [⟨0, 0, BatchHeader.default, 0, [1, 2, 3]⟩]⟩]⟩], []⟩

/-- … and one to stream "t" from offset 7 through a filter named "f". -/
def c90Stream : StreamFetch :=
  ⟨"t", 2, 7, 1000, .inr (.inl ()), [], none, none, [(.inl "f", .inl (), ([("k", "v")], none), some "f")], some "me"⟩

/-- The hypotheses are met by a request to produce and one to stream through a filter. -/
example : reqFits .produce c90Produce ∧ (encodeRequest ⟨0, 25, 1, "c"⟩ .produce c90Produce).isSome ∧
    (⟨0, 25, 1, "c"⟩ : Header).apiKey = Api.produce.key ∧ short "c" := by
  refine ⟨⟨nofun, ⟨by decide, ?_⟩, by decide, nofun⟩, by decide +kernel, rfl, by decide⟩
  intro t ht
  rw [List.mem_singleton.1 ht]
  refine ⟨by decide, by decide, ?_⟩
  intro p hp
  rw [List.mem_singleton.1 hp]
  exact ⟨by decide, fun b hb => by rw [List.mem_singleton.1 hb]; decide⟩

example : reqFits .streamFetch c90Stream ∧ (⟨1003, 25, 2, "c"⟩ : Header).apiKey = Api.streamFetch.key := by
  refine ⟨⟨by decide, by decide, nofun, nofun, ⟨by decide, ?_⟩, ?_⟩, rfl⟩
  · intro i hi
    rw [List.mem_singleton.1 hi]
    refine ⟨show short "f" by decide, trivial, ⟨by decide, ?_, by simp, nofun⟩, ?_⟩
    · intro e he; rw [List.mem_singleton.1 he]; exact ⟨by decide, by decide⟩
    · intro s hs; cases hs; decide
  · intro s hs; cases hs; decide

/-- What a broker sees of it at version 17 is a stream without the filter and without the consumer. -/
example : (reqSeen 17 .streamFetch c90Stream).smartmodules = [] ∧ (reqSeen 17 .streamFetch c90Stream).consumerId = none ∧
    (reqSeen 17 .streamFetch c90Stream).offset = 7 := ⟨rfl, rfl, rfl⟩

/-- **C90.** The only requests that are not sent are those to produce with a timeout of 2³¹ milliseconds or more. -/
theorem C90_unsendable (h : Header) (a : Api) (x : a.Req) :
    encodeRequest h a x = none ↔ ∃ p : Produce, (⟨a, x⟩ : (a : Api) × a.Req) = ⟨.produce, p⟩ ∧ 2 ^ 31 * 1000000 ≤ p.timeout := by
  constructor
  · intro hn
    cases a with
    | produce =>
      refine ⟨x, rfl, ?_⟩
      unfold encodeRequest at hn
      split at hn
      · cases hn
      · rename_i hq
        have : ¬ x.timeout / 1000000 < 2 ^ 31 := fun hh => hq (decide_eq_true hh)
        omega
    | _ => exact nomatch (show some _ = none from hn)
  · rintro ⟨p, he, ht⟩
    cases he
    unfold encodeRequest
    have : ¬ encodable .produce p = true := fun hh => by
      have : p.timeout / 1000000 < 2 ^ 31 := of_decide_eq_true hh
      omega
    rw [if_neg this]

/-- **C90.** The broker's answer, encoded for the request it decoded, is decoded by the client that sent the request
to the number of that request and the answer given, as far as the version has the fields. -/
theorem C90_exchange (semver : String → Bool) (h h' : Header) (a : Api) (x : a.Req) (z : (a : Api) × a.Req)
    (bytes left : Bytes) (y : a.Resp) (hk : h.apiKey = a.key) (hc : short h.clientId) (hx : reqFits a x)
    (hy : respFits semver a y) (he : encodeRequest h a x = some bytes)
    (hd : decodeRequest bytes = .ok ((h', z), left)) (rest : Bytes) :
    z.1 = a ∧ left = [] ∧
    decodeResponse semver h a (encodeResponse semver h' a y ++ rest)
      = .ok ((h.correlationId, respSeen h.apiVersion.toInt a y), rest) ∧
    responseSize semver h' a y = (encodeResponse semver h' a y).length := by
  have h1 := (C90_request h a x bytes hk hc hx he []).1
  rw [List.append_nil, hd] at h1
  cases h1
  have hs := resp_sends semver h.apiVersion.toInt a
  refine ⟨rfl, rfl, ?_, ?_⟩
  · unfold encodeResponse
    rw [List.append_assoc]
    exact decodeResponse_of (hs.dec y hy rest)
  · unfold responseSize encodeResponse
    rw [List.length_append, hs.size y hy]
    congr 1

/-- The hypothesis on the answer is met by a refusal with a reason. -/
example : respFits (fun _ => true) .deleteConsumerOffset (.other "no") := by
  show ErrorCode.fits (.other "no"); show String.utf8ByteSize _ < _; decide

/-- **C90.** A request with a key the broker does not know is refused, not taken for another. -/
theorem C90_unknown_key (h : Header) (hc : short h.clientId)
    (hk : h.apiKey.toNat ∉ [0, 1, 18, 1002, 1003, 1005, 1006, 1007, 1008, 2000]) (rest : Bytes) :
    decodeRequest (reqHeaderC.enc h ++ rest) = .error .invalid := by
  unfold decodeRequest
  rw [Dec.bind_ok (header_sends.dec h hc rest)]
  have hn : Api.ofKey h.apiKey = none := by
    have hne : ∀ k : BitVec 16, k.toNat ∈ [0, 1, 18, 1002, 1003, 1005, 1006, 1007, 1008, 2000] → h.apiKey ≠ k :=
      fun k hm he => hk (by rw [he]; exact hm)
    unfold Api.ofKey
    rw [if_neg (hne 18 (by decide)), if_neg (hne 0 (by decide)), if_neg (hne 1 (by decide)),
      if_neg (hne 1002 (by decide)), if_neg (hne 1003 (by decide)), if_neg (hne 1005 (by decide)),
      if_neg (hne 1006 (by decide)), if_neg (hne 1007 (by decide)), if_neg (hne 1008 (by decide)),
      if_neg (hne 2000 (by decide))]
  rw [hn]
  rfl

/-- The key of a request to the controller is not one of these. -/
example : (⟨1001, 0, 1, "c"⟩ : Header).apiKey.toNat ∉ [0, 1, 18, 1002, 1003, 1005, 1006, 1007, 1008, 2000] := by decide

/-- **C90.** Every error arrives as that error, with its details. -/
theorem C90_error (e : ErrorCode) (he : e.fits) (rest : Bytes) :
    errorCodeC.dec (errorCodeC.enc e ++ rest) = .ok (e, rest) ∧ errorCodeC.size e = (errorCodeC.enc e).length :=
  ⟨errorCode_sends.dec e he rest, errorCode_sends.size e he⟩

/-- **C90.** Success, and nothing else, is sent as zero. -/
theorem C90_success (e : ErrorCode) : (errorCodeC.enc e).take 2 = [0, 0] ↔ e = .noError := by
  have ht : (errorCodeC.enc e).take 2 = intEnc 2 (BitVec.ofInt (8 * 2) e.tag) := by
    show (intEnc 2 (BitVec.ofInt (8 * 2) e.tag) ++ e.payload).take 2 = _
    exact List.take_left' (intEnc_length 2 _)
  rw [ht]
  have hz : e.tag = 0 ↔ e = .noError := by cases e <;> simp [ErrorCode.tag]
  rw [← hz]
  constructor
  · intro h
    have h1 := intDec_intEnc 2 (BitVec.ofInt (8 * 2) e.tag) []
    rw [h] at h1
    have h2 : intDec 2 ([0, 0] ++ []) = .ok (0, []) := rfl
    rw [h2] at h1
    have h3 : (BitVec.ofInt (8 * 2) e.tag).toInt = e.tag := by cases e <;> rfl
    rw [← h3, ← (Prod.mk.inj (Except.ok.inj h1)).1]
    rfl
  · intro h; rw [h]; rfl

/-- **Specification.** The numbers of error codes. -/
def knownErrors : List Int :=
  [-1, 0, 2, 1, 6, 7, 10, 13, 56, 60, 61, 71, 72, 73, 1000, 1001, 1002, 1003, 1004, 2000, 2001, 2002, 2003,
   2004, 2005, 2006, 2007, 2008, 3000, 3001, 3002, 3003, 3004, 3005, 5000, 5001, 5002, 6000, 6001, 6002, 6003,
   6004, 6005, 6006, 6007, 6008, 7000, 7001, 7002, 8000, 8001, 8002, 8003, 9000, 10000, 10001, 11001, 11002,
   11003, 11004, 11005, 11006, 12001, 12002]

/-- **C90.** Numbers that stand for no error code are refused. -/
theorem C90_unknown_error (t : BitVec (8 * 2)) (rest : Bytes)
    (ht : t.toInt ∉ knownErrors) :
    errorCodeC.dec (intEnc 2 t ++ rest) = .error .invalid := by
  simp only [errorCodeC]
  rw [Dec.bind_ok (intDec_intEnc 2 t rest)]
  have hne : ∀ k : Int, k ∈ knownErrors → t.toInt ≠ k :=
    fun k hm he => ht (by rw [he]; exact hm)
  unfold errorCodeDec
  rw [if_neg (hne (-1) (by decide)), if_neg (hne (0) (by decide)), if_neg (hne (2) (by decide)), if_neg (hne (1)
    (by decide)), if_neg (hne (6) (by decide)), if_neg (hne (7) (by decide)), if_neg (hne (10) (by decide)), if_neg
    (hne (13) (by decide)), if_neg (hne (56) (by decide)), if_neg (hne (60) (by decide)), if_neg (hne (61) (by
    decide)), if_neg (hne (71) (by decide)), if_neg (hne (72) (by decide)), if_neg (hne (73) (by decide)), if_neg
    (hne (1000) (by decide)), if_neg (hne (1001) (by decide)), if_neg (hne (1002) (by decide)), if_neg (hne (1003)
    (by decide)), if_neg (hne (1004) (by decide)), if_neg (hne (2000) (by decide)), if_neg (hne (2001) (by
    decide)), if_neg (hne (2002) (by decide)), if_neg (hne (2003) (by decide)), if_neg (hne (2004) (by decide)),
    if_neg (hne (2005) (by decide)), if_neg (hne (2006) (by decide)), if_neg (hne (2007) (by decide)), if_neg (hne
    (2008) (by decide)), if_neg (hne (3000) (by decide)), if_neg (hne (3001) (by decide)), if_neg (hne (3002) (by
    decide)), if_neg (hne (3003) (by decide)), if_neg (hne (3004) (by decide)), if_neg (hne (3005) (by decide)),
    if_neg (hne (5000) (by decide)), if_neg (hne (5001) (by decide)), if_neg (hne (5002) (by decide)), if_neg (hne
    (6000) (by decide)), if_neg (hne (6001) (by decide)), if_neg (hne (6002) (by decide)), if_neg (hne (6003) (by
    decide)), if_neg (hne (6004) (by decide)), if_neg (hne (6005) (by decide)), if_neg (hne (6006) (by decide)),
    if_neg (hne (6007) (by decide)), if_neg (hne (6008) (by decide)), if_neg (hne (7000) (by decide)), if_neg (hne
    (7001) (by decide)), if_neg (hne (7002) (by decide)), if_neg (hne (8000) (by decide)), if_neg (hne (8001) (by
    decide)), if_neg (hne (8002) (by decide)), if_neg (hne (8003) (by decide)), if_neg (hne (9000) (by decide)),
    if_neg (hne (10000) (by decide)), if_neg (hne (10001) (by decide)), if_neg (hne (11001) (by decide)), if_neg
    (hne (11002) (by decide)), if_neg (hne (11003) (by decide)), if_neg (hne (11004) (by decide)), if_neg (hne
    (11005) (by decide)), if_neg (hne (11006) (by decide)), if_neg (hne (12001) (by decide)), if_neg (hne (12002)
    (by decide))]
  rfl

end Verif.Props
