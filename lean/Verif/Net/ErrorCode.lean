import Verif.Smart.Wire

/-!
# The error codes of the protocol (`fluvio-protocol/src/link/error_code.rs`)

One constructor for each variant, with its fields.  `SmartModuleInitRuntimeError` has a text only
(link/smartmodule.rs:117-122) and is given as that text.
-/

namespace Verif.Net
open Verif.Wire

/-- `RequestKind` — api/mod.rs:161-167: one variant, tag 0. -/
def requestKindC : Codec Unit where
  enc _ := intEnc 1 0#8
  dec := (intDec 1).bind fun t => if t = 0#8 then Dec.pure () else Dec.fail .invalid
  size _ := 1
  wf _ := True

/-- `ErrorCode` — link/error_code.rs:14-243 -/
inductive ErrorCode where
  | unknownServerError
  | noError
  | other (text : String)
  | offsetOutOfRange
  | notLeaderForPartition
  | requestTimedOut (millis : BitVec (8 * 8))
  | messageTooLarge
  | permissionDenied
  | storageError
  | invalidCreateRequest
  | invalidDeleteRequest
  | offsetEvicted (a b : BitVec (8 * 8))
  | partitionFull (topic : String) (partition : BitVec (8 * 4))
  | partitionShortCircuited
  | spuError
  | spuRegisterationFailed
  | spuOffline
  | spuNotFound
  | spuAlreadyExists
  | topicError
  | topicNotFound
  | topicAlreadyExists
  | topicPendingInitialization
  | topicInvalidConfiguration
  | topicNotProvisioned
  | topicInvalidName
  | topicDeleted
  | topicInvalidReplicaType
  | partitionPendingInitialization
  | partitionNotLeader
  | fetchSessionNotFoud
  | offsetFlushRequestError (text : String)
  | offsetManagementDisabled
  | maxRetryReached
  | managedConnectorError
  | managedConnectorNotFound
  | managedConnectorAlreadyExists
  | smartModuleError
  | smartModuleNotFound (text : String)
  | smartModuleInvalid (text : String) (name : Option String)
  | smartModuleInvalidExports (a b : String)
  | smartModuleRuntimeError (e : Smart.RtError)
  | smartModuleChainInitError (text : String)
  | smartModuleInitError (text : String)
  | smartModuleLookBackError (text : String)
  | smartModuleMemoryLimitExceeded (a b : BitVec (8 * 8))
  | tableFormatError
  | tableFormatNotFound
  | tableFormatAlreadyExists
  | derivedStreamObjectError
  | derivedStreamNotFound (text : String)
  | derivedStreamJoinFetchError
  | derivedStreamInvalid (text : String)
  | compressionError
  | deduplicationSmartModuleNotLoaded
  | deduplicationSmartModuleNameInvalid (text : String)
  | mirrorNotFound
  | mirrorAlreadyExists
  | mirrorProduceFromHome
  | mirrorDeleteFromRemote
  | mirrorInvalidType
  | mirrorProduceFromRemoteNotAllowed
  | systemSpecDeletionAttempt (a b : String)
  | systemSpecUpdatingAttempt (a b : String)
deriving DecidableEq

/-- `#[fluvio(tag = …)]` — link/error_code.rs:19-242 -/
def ErrorCode.tag : ErrorCode → Int
  | .unknownServerError => -1
  | .noError => 0
  | .other .. => 2
  | .offsetOutOfRange => 1
  | .notLeaderForPartition => 6
  | .requestTimedOut .. => 7
  | .messageTooLarge => 10
  | .permissionDenied => 13
  | .storageError => 56
  | .invalidCreateRequest => 60
  | .invalidDeleteRequest => 61
  | .offsetEvicted .. => 71
  | .partitionFull .. => 72
  | .partitionShortCircuited => 73
  | .spuError => 1000
  | .spuRegisterationFailed => 1001
  | .spuOffline => 1002
  | .spuNotFound => 1003
  | .spuAlreadyExists => 1004
  | .topicError => 2000
  | .topicNotFound => 2001
  | .topicAlreadyExists => 2002
  | .topicPendingInitialization => 2003
  | .topicInvalidConfiguration => 2004
  | .topicNotProvisioned => 2005
  | .topicInvalidName => 2006
  | .topicDeleted => 2007
  | .topicInvalidReplicaType => 2008
  | .partitionPendingInitialization => 3000
  | .partitionNotLeader => 3001
  | .fetchSessionNotFoud => 3002
  | .offsetFlushRequestError .. => 3003
  | .offsetManagementDisabled => 3004
  | .maxRetryReached => 3005
  | .managedConnectorError => 5000
  | .managedConnectorNotFound => 5001
  | .managedConnectorAlreadyExists => 5002
  | .smartModuleError => 6000
  | .smartModuleNotFound .. => 6001
  | .smartModuleInvalid .. => 6002
  | .smartModuleInvalidExports .. => 6003
  | .smartModuleRuntimeError .. => 6004
  | .smartModuleChainInitError .. => 6005
  | .smartModuleInitError .. => 6006
  | .smartModuleLookBackError .. => 6007
  | .smartModuleMemoryLimitExceeded .. => 6008
  | .tableFormatError => 7000
  | .tableFormatNotFound => 7001
  | .tableFormatAlreadyExists => 7002
  | .derivedStreamObjectError => 8000
  | .derivedStreamNotFound .. => 8001
  | .derivedStreamJoinFetchError => 8002
  | .derivedStreamInvalid .. => 8003
  | .compressionError => 9000
  | .deduplicationSmartModuleNotLoaded => 10000
  | .deduplicationSmartModuleNameInvalid .. => 10001
  | .mirrorNotFound => 11001
  | .mirrorAlreadyExists => 11002
  | .mirrorProduceFromHome => 11003
  | .mirrorDeleteFromRemote => 11004
  | .mirrorInvalidType => 11005
  | .mirrorProduceFromRemoteNotAllowed => 11006
  | .systemSpecDeletionAttempt .. => 12001
  | .systemSpecUpdatingAttempt .. => 12002

/-- The fields of a variant, in the order of declaration (fluvio-protocol-derive/src/ser.rs). -/
def ErrorCode.payload : ErrorCode → Bytes
  | .other s => stringC.enc s
  | .requestTimedOut n => (pairC (intC 8) requestKindC).enc (n, ())
  | .offsetEvicted a b => (pairC (intC 8) (intC 8)).enc (a, b)
  | .partitionFull s p => (pairC stringC (intC 4)).enc (s, p)
  | .offsetFlushRequestError s => stringC.enc s
  | .smartModuleNotFound s => stringC.enc s
  | .smartModuleInvalid s o => (pairC stringC (optionC stringC)).enc (s, o)
  | .smartModuleInvalidExports s t => (pairC stringC stringC).enc (s, t)
  | .smartModuleRuntimeError e => Smart.rtErrorC.enc e
  | .smartModuleChainInitError s => stringC.enc s
  | .smartModuleInitError s => stringC.enc s
  | .smartModuleLookBackError s => stringC.enc s
  | .smartModuleMemoryLimitExceeded a b => (pairC (intC 8) (intC 8)).enc (a, b)
  | .derivedStreamNotFound s => stringC.enc s
  | .derivedStreamInvalid s => stringC.enc s
  | .deduplicationSmartModuleNameInvalid s => stringC.enc s
  | .systemSpecDeletionAttempt s t => (pairC stringC stringC).enc (s, t)
  | .systemSpecUpdatingAttempt s t => (pairC stringC stringC).enc (s, t)
  | _ => []

/-- Their announced size. -/
def ErrorCode.payloadSize : ErrorCode → Nat
  | .other s => stringC.size s
  | .requestTimedOut n => (pairC (intC 8) requestKindC).size (n, ())
  | .offsetEvicted a b => (pairC (intC 8) (intC 8)).size (a, b)
  | .partitionFull s p => (pairC stringC (intC 4)).size (s, p)
  | .offsetFlushRequestError s => stringC.size s
  | .smartModuleNotFound s => stringC.size s
  | .smartModuleInvalid s o => (pairC stringC (optionC stringC)).size (s, o)
  | .smartModuleInvalidExports s t => (pairC stringC stringC).size (s, t)
  | .smartModuleRuntimeError e => Smart.rtErrorC.size e
  | .smartModuleChainInitError s => stringC.size s
  | .smartModuleInitError s => stringC.size s
  | .smartModuleLookBackError s => stringC.size s
  | .smartModuleMemoryLimitExceeded a b => (pairC (intC 8) (intC 8)).size (a, b)
  | .derivedStreamNotFound s => stringC.size s
  | .derivedStreamInvalid s => stringC.size s
  | .deduplicationSmartModuleNameInvalid s => stringC.size s
  | .systemSpecDeletionAttempt s t => (pairC stringC stringC).size (s, t)
  | .systemSpecUpdatingAttempt s t => (pairC stringC stringC).size (s, t)
  | _ => 0

/-- The arms of the derived decoder, by tag (fluvio-protocol-derive/src/de.rs:179-282). -/
def errorCodeDec (t : Int) : Dec ErrorCode :=
  if t = -1 then Dec.pure .unknownServerError
  else if t = 0 then Dec.pure .noError
  else if t = 2 then stringC.dec.bind fun x => Dec.pure (.other x)
  else if t = 1 then Dec.pure .offsetOutOfRange
  else if t = 6 then Dec.pure .notLeaderForPartition
  else if t = 7 then (pairC (intC 8) requestKindC).dec.bind fun x => Dec.pure (.requestTimedOut x.1)
  else if t = 10 then Dec.pure .messageTooLarge
  else if t = 13 then Dec.pure .permissionDenied
  else if t = 56 then Dec.pure .storageError
  else if t = 60 then Dec.pure .invalidCreateRequest
  else if t = 61 then Dec.pure .invalidDeleteRequest
  else if t = 71 then (pairC (intC 8) (intC 8)).dec.bind fun x => Dec.pure (.offsetEvicted x.1 x.2)
  else if t = 72 then (pairC stringC (intC 4)).dec.bind fun x => Dec.pure (.partitionFull x.1 x.2)
  else if t = 73 then Dec.pure .partitionShortCircuited
  else if t = 1000 then Dec.pure .spuError
  else if t = 1001 then Dec.pure .spuRegisterationFailed
  else if t = 1002 then Dec.pure .spuOffline
  else if t = 1003 then Dec.pure .spuNotFound
  else if t = 1004 then Dec.pure .spuAlreadyExists
  else if t = 2000 then Dec.pure .topicError
  else if t = 2001 then Dec.pure .topicNotFound
  else if t = 2002 then Dec.pure .topicAlreadyExists
  else if t = 2003 then Dec.pure .topicPendingInitialization
  else if t = 2004 then Dec.pure .topicInvalidConfiguration
  else if t = 2005 then Dec.pure .topicNotProvisioned
  else if t = 2006 then Dec.pure .topicInvalidName
  else if t = 2007 then Dec.pure .topicDeleted
  else if t = 2008 then Dec.pure .topicInvalidReplicaType
  else if t = 3000 then Dec.pure .partitionPendingInitialization
  else if t = 3001 then Dec.pure .partitionNotLeader
  else if t = 3002 then Dec.pure .fetchSessionNotFoud
  else if t = 3003 then stringC.dec.bind fun x => Dec.pure (.offsetFlushRequestError x)
  else if t = 3004 then Dec.pure .offsetManagementDisabled
  else if t = 3005 then Dec.pure .maxRetryReached
  else if t = 5000 then Dec.pure .managedConnectorError
  else if t = 5001 then Dec.pure .managedConnectorNotFound
  else if t = 5002 then Dec.pure .managedConnectorAlreadyExists
  else if t = 6000 then Dec.pure .smartModuleError
  else if t = 6001 then stringC.dec.bind fun x => Dec.pure (.smartModuleNotFound x)
  else if t = 6002 then (pairC stringC (optionC stringC)).dec.bind fun x => Dec.pure (.smartModuleInvalid x.1 x.2)
  else if t = 6003 then (pairC stringC stringC).dec.bind fun x => Dec.pure (.smartModuleInvalidExports x.1 x.2)
  else if t = 6004 then Smart.rtErrorC.dec.bind fun x => Dec.pure (.smartModuleRuntimeError x)
  else if t = 6005 then stringC.dec.bind fun x => Dec.pure (.smartModuleChainInitError x)
  else if t = 6006 then stringC.dec.bind fun x => Dec.pure (.smartModuleInitError x)
  else if t = 6007 then stringC.dec.bind fun x => Dec.pure (.smartModuleLookBackError x)
  else if t = 6008 then (pairC (intC 8) (intC 8)).dec.bind fun x => Dec.pure (.smartModuleMemoryLimitExceeded x.1 x.2)
  else if t = 7000 then Dec.pure .tableFormatError
  else if t = 7001 then Dec.pure .tableFormatNotFound
  else if t = 7002 then Dec.pure .tableFormatAlreadyExists
  else if t = 8000 then Dec.pure .derivedStreamObjectError
  else if t = 8001 then stringC.dec.bind fun x => Dec.pure (.derivedStreamNotFound x)
  else if t = 8002 then Dec.pure .derivedStreamJoinFetchError
  else if t = 8003 then stringC.dec.bind fun x => Dec.pure (.derivedStreamInvalid x)
  else if t = 9000 then Dec.pure .compressionError
  else if t = 10000 then Dec.pure .deduplicationSmartModuleNotLoaded
  else if t = 10001 then stringC.dec.bind fun x => Dec.pure (.deduplicationSmartModuleNameInvalid x)
  else if t = 11001 then Dec.pure .mirrorNotFound
  else if t = 11002 then Dec.pure .mirrorAlreadyExists
  else if t = 11003 then Dec.pure .mirrorProduceFromHome
  else if t = 11004 then Dec.pure .mirrorDeleteFromRemote
  else if t = 11005 then Dec.pure .mirrorInvalidType
  else if t = 11006 then Dec.pure .mirrorProduceFromRemoteNotAllowed
  else if t = 12001 then (pairC stringC stringC).dec.bind fun x => Dec.pure (.systemSpecDeletionAttempt x.1 x.2)
  else if t = 12002 then (pairC stringC stringC).dec.bind fun x => Dec.pure (.systemSpecUpdatingAttempt x.1 x.2)
  else Dec.fail .invalid

/-- The codec of `ErrorCode`: a two-byte tag (`#[repr(i16)]`), then the fields. -/
def errorCodeC : Codec ErrorCode where
  enc e := intEnc 2 (BitVec.ofInt (8 * 2) e.tag) ++ e.payload
  dec := (intDec 2).bind fun t => errorCodeDec t.toInt
  size e := 2 + e.payloadSize
  wf _ := True

/-- **Specification.** Texts are shorter than 32 KiB, keys and values shorter than 2 GiB. -/
def ErrorCode.fits : ErrorCode → Prop
  | .other s => s.utf8ByteSize < 2 ^ 15
  | .partitionFull s _ => s.utf8ByteSize < 2 ^ 15
  | .offsetFlushRequestError s => s.utf8ByteSize < 2 ^ 15
  | .smartModuleNotFound s => s.utf8ByteSize < 2 ^ 15
  | .smartModuleInvalid s o => s.utf8ByteSize < 2 ^ 15 ∧ ∀ x, o = some x → x.utf8ByteSize < 2 ^ 15
  | .smartModuleInvalidExports s t => s.utf8ByteSize < 2 ^ 15 ∧ t.utf8ByteSize < 2 ^ 15
  | .smartModuleRuntimeError e => e.hint.utf8ByteSize < 2 ^ 15 ∧ (∀ k, e.key = some k → k.length < 2 ^ 31) ∧ e.value.length < 2 ^ 31
  | .smartModuleChainInitError s => s.utf8ByteSize < 2 ^ 15
  | .smartModuleInitError s => s.utf8ByteSize < 2 ^ 15
  | .smartModuleLookBackError s => s.utf8ByteSize < 2 ^ 15
  | .derivedStreamNotFound s => s.utf8ByteSize < 2 ^ 15
  | .derivedStreamInvalid s => s.utf8ByteSize < 2 ^ 15
  | .deduplicationSmartModuleNameInvalid s => s.utf8ByteSize < 2 ^ 15
  | .systemSpecDeletionAttempt s t => s.utf8ByteSize < 2 ^ 15 ∧ t.utf8ByteSize < 2 ^ 15
  | .systemSpecUpdatingAttempt s t => s.utf8ByteSize < 2 ^ 15 ∧ t.utf8ByteSize < 2 ^ 15
  | _ => True

/-! ## Lemmas -/

theorem requestKindC_rt : RoundTrips requestKindC where
  roundtrip v rest _ := by
    simp only [requestKindC]
    rw [Dec.bind_ok (intDec_intEnc 1 _ _)]; rfl
  size_eq _ _ := by simp [requestKindC, intEnc]

theorem string_wf {s : String} (h : s.utf8ByteSize < 2 ^ 15) : stringC.wf s := by
  show (strBytes s).length < 2 ^ 15
  unfold strBytes; simpa using h

theorem opt_wf {o : Option String} (h : ∀ x, o = some x → x.utf8ByteSize < 2 ^ 15) :
    (optionC stringC).wf o := by
  cases o with
  | none => exact trivial
  | some x => exact string_wf (h x rfl)

theorem rt_wf {e : Smart.RtError} (h : e.hint.utf8ByteSize < 2 ^ 15 ∧
    (∀ k, e.key = some k → k.length < 2 ^ 31) ∧ e.value.length < 2 ^ 31) : Smart.rtErrorC.wf e := by
  refine ⟨string_wf h.1, trivial, trivial, ?_, h.2.2⟩
  show (optionC recordDataC).wf e.key
  cases hk : e.key with
  | none => exact trivial
  | some k => exact h.2.1 k hk

theorem timedOut_rt : RoundTrips (pairC (intC 8) requestKindC) :=
  pairC_rt (intC_lawful 8).toRoundTrips requestKindC_rt

private theorem step {α : Type} {c : Codec α} (hc : RoundTrips c) (f : α → ErrorCode) (x : α) (hx : c.wf x)
    (rest : Bytes) : (c.dec.bind fun x => Dec.pure (f x)) (c.enc x ++ rest) = .ok (f x, rest) := by
  rw [Dec.bind_ok (hc.roundtrip _ _ hx)]; rfl

theorem errorCodeDec_tag (e : ErrorCode) (h : e.fits) (rest : Bytes) :
    errorCodeDec e.tag (e.payload ++ rest) = .ok (e, rest) := by
  cases e with
  | unknownServerError => rfl
  | noError => rfl
  | other s => exact step stringC_lawful.toRoundTrips ErrorCode.other s (string_wf h) rest
  | offsetOutOfRange => rfl
  | notLeaderForPartition => rfl
  | requestTimedOut n => exact step timedOut_rt (fun x => .requestTimedOut x.1) (n, ()) ⟨trivial, trivial⟩ rest
  | messageTooLarge => rfl
  | permissionDenied => rfl
  | storageError => rfl
  | invalidCreateRequest => rfl
  | invalidDeleteRequest => rfl
  | offsetEvicted a b => exact step (pairC_lawful (intC_lawful 8) (intC_lawful 8)).toRoundTrips (fun x => .offsetEvicted x.1 x.2) (a, b) ⟨trivial, trivial⟩ rest
  | partitionFull s p => exact step (pairC_lawful stringC_lawful (intC_lawful 4)).toRoundTrips (fun x => .partitionFull x.1 x.2) (s, p) ⟨string_wf h, trivial⟩ rest
  | partitionShortCircuited => rfl
  | spuError => rfl
  | spuRegisterationFailed => rfl
  | spuOffline => rfl
  | spuNotFound => rfl
  | spuAlreadyExists => rfl
  | topicError => rfl
  | topicNotFound => rfl
  | topicAlreadyExists => rfl
  | topicPendingInitialization => rfl
  | topicInvalidConfiguration => rfl
  | topicNotProvisioned => rfl
  | topicInvalidName => rfl
  | topicDeleted => rfl
  | topicInvalidReplicaType => rfl
  | partitionPendingInitialization => rfl
  | partitionNotLeader => rfl
  | fetchSessionNotFoud => rfl
  | offsetFlushRequestError s => exact step stringC_lawful.toRoundTrips ErrorCode.offsetFlushRequestError s (string_wf h) rest
  | offsetManagementDisabled => rfl
  | maxRetryReached => rfl
  | managedConnectorError => rfl
  | managedConnectorNotFound => rfl
  | managedConnectorAlreadyExists => rfl
  | smartModuleError => rfl
  | smartModuleNotFound s => exact step stringC_lawful.toRoundTrips ErrorCode.smartModuleNotFound s (string_wf h) rest
  | smartModuleInvalid s o => exact step (pairC_lawful stringC_lawful (optionC_lawful stringC_lawful)).toRoundTrips (fun x => .smartModuleInvalid x.1 x.2) (s, o) ⟨string_wf h.1, opt_wf h.2⟩ rest
  | smartModuleInvalidExports s t => exact step (pairC_lawful stringC_lawful stringC_lawful).toRoundTrips (fun x => .smartModuleInvalidExports x.1 x.2) (s, t) ⟨string_wf h.1, string_wf h.2⟩ rest
  | smartModuleRuntimeError e => exact step Smart.rtErrorC_rt ErrorCode.smartModuleRuntimeError e (rt_wf h) rest
  | smartModuleChainInitError s => exact step stringC_lawful.toRoundTrips ErrorCode.smartModuleChainInitError s (string_wf h) rest
  | smartModuleInitError s => exact step stringC_lawful.toRoundTrips ErrorCode.smartModuleInitError s (string_wf h) rest
  | smartModuleLookBackError s => exact step stringC_lawful.toRoundTrips ErrorCode.smartModuleLookBackError s (string_wf h) rest
  | smartModuleMemoryLimitExceeded a b => exact step (pairC_lawful (intC_lawful 8) (intC_lawful 8)).toRoundTrips (fun x => .smartModuleMemoryLimitExceeded x.1 x.2) (a, b) ⟨trivial, trivial⟩ rest
  | tableFormatError => rfl
  | tableFormatNotFound => rfl
  | tableFormatAlreadyExists => rfl
  | derivedStreamObjectError => rfl
  | derivedStreamNotFound s => exact step stringC_lawful.toRoundTrips ErrorCode.derivedStreamNotFound s (string_wf h) rest
  | derivedStreamJoinFetchError => rfl
  | derivedStreamInvalid s => exact step stringC_lawful.toRoundTrips ErrorCode.derivedStreamInvalid s (string_wf h) rest
  | compressionError => rfl
  | deduplicationSmartModuleNotLoaded => rfl
  | deduplicationSmartModuleNameInvalid s => exact step stringC_lawful.toRoundTrips ErrorCode.deduplicationSmartModuleNameInvalid s (string_wf h) rest
  | mirrorNotFound => rfl
  | mirrorAlreadyExists => rfl
  | mirrorProduceFromHome => rfl
  | mirrorDeleteFromRemote => rfl
  | mirrorInvalidType => rfl
  | mirrorProduceFromRemoteNotAllowed => rfl
  | systemSpecDeletionAttempt s t => exact step (pairC_lawful stringC_lawful stringC_lawful).toRoundTrips (fun x => .systemSpecDeletionAttempt x.1 x.2) (s, t) ⟨string_wf h.1, string_wf h.2⟩ rest
  | systemSpecUpdatingAttempt s t => exact step (pairC_lawful stringC_lawful stringC_lawful).toRoundTrips (fun x => .systemSpecUpdatingAttempt x.1 x.2) (s, t) ⟨string_wf h.1, string_wf h.2⟩ rest

theorem payload_size (e : ErrorCode) (h : e.fits) : e.payloadSize = e.payload.length := by
  cases e with
  | unknownServerError => rfl
  | noError => rfl
  | other s => exact stringC_lawful.toRoundTrips.size_eq s (string_wf h)
  | offsetOutOfRange => rfl
  | notLeaderForPartition => rfl
  | requestTimedOut n => exact timedOut_rt.size_eq (n, ()) ⟨trivial, trivial⟩
  | messageTooLarge => rfl
  | permissionDenied => rfl
  | storageError => rfl
  | invalidCreateRequest => rfl
  | invalidDeleteRequest => rfl
  | offsetEvicted a b => exact (pairC_lawful (intC_lawful 8) (intC_lawful 8)).toRoundTrips.size_eq (a, b) ⟨trivial, trivial⟩
  | partitionFull s p => exact (pairC_lawful stringC_lawful (intC_lawful 4)).toRoundTrips.size_eq (s, p) ⟨string_wf h, trivial⟩
  | partitionShortCircuited => rfl
  | spuError => rfl
  | spuRegisterationFailed => rfl
  | spuOffline => rfl
  | spuNotFound => rfl
  | spuAlreadyExists => rfl
  | topicError => rfl
  | topicNotFound => rfl
  | topicAlreadyExists => rfl
  | topicPendingInitialization => rfl
  | topicInvalidConfiguration => rfl
  | topicNotProvisioned => rfl
  | topicInvalidName => rfl
  | topicDeleted => rfl
  | topicInvalidReplicaType => rfl
  | partitionPendingInitialization => rfl
  | partitionNotLeader => rfl
  | fetchSessionNotFoud => rfl
  | offsetFlushRequestError s => exact stringC_lawful.toRoundTrips.size_eq s (string_wf h)
  | offsetManagementDisabled => rfl
  | maxRetryReached => rfl
  | managedConnectorError => rfl
  | managedConnectorNotFound => rfl
  | managedConnectorAlreadyExists => rfl
  | smartModuleError => rfl
  | smartModuleNotFound s => exact stringC_lawful.toRoundTrips.size_eq s (string_wf h)
  | smartModuleInvalid s o => exact (pairC_lawful stringC_lawful (optionC_lawful stringC_lawful)).toRoundTrips.size_eq (s, o) ⟨string_wf h.1, opt_wf h.2⟩
  | smartModuleInvalidExports s t => exact (pairC_lawful stringC_lawful stringC_lawful).toRoundTrips.size_eq (s, t) ⟨string_wf h.1, string_wf h.2⟩
  | smartModuleRuntimeError e => exact Smart.rtErrorC_rt.size_eq e (rt_wf h)
  | smartModuleChainInitError s => exact stringC_lawful.toRoundTrips.size_eq s (string_wf h)
  | smartModuleInitError s => exact stringC_lawful.toRoundTrips.size_eq s (string_wf h)
  | smartModuleLookBackError s => exact stringC_lawful.toRoundTrips.size_eq s (string_wf h)
  | smartModuleMemoryLimitExceeded a b => exact (pairC_lawful (intC_lawful 8) (intC_lawful 8)).toRoundTrips.size_eq (a, b) ⟨trivial, trivial⟩
  | tableFormatError => rfl
  | tableFormatNotFound => rfl
  | tableFormatAlreadyExists => rfl
  | derivedStreamObjectError => rfl
  | derivedStreamNotFound s => exact stringC_lawful.toRoundTrips.size_eq s (string_wf h)
  | derivedStreamJoinFetchError => rfl
  | derivedStreamInvalid s => exact stringC_lawful.toRoundTrips.size_eq s (string_wf h)
  | compressionError => rfl
  | deduplicationSmartModuleNotLoaded => rfl
  | deduplicationSmartModuleNameInvalid s => exact stringC_lawful.toRoundTrips.size_eq s (string_wf h)
  | mirrorNotFound => rfl
  | mirrorAlreadyExists => rfl
  | mirrorProduceFromHome => rfl
  | mirrorDeleteFromRemote => rfl
  | mirrorInvalidType => rfl
  | mirrorProduceFromRemoteNotAllowed => rfl
  | systemSpecDeletionAttempt s t => exact (pairC_lawful stringC_lawful stringC_lawful).toRoundTrips.size_eq (s, t) ⟨string_wf h.1, string_wf h.2⟩
  | systemSpecUpdatingAttempt s t => exact (pairC_lawful stringC_lawful stringC_lawful).toRoundTrips.size_eq (s, t) ⟨string_wf h.1, string_wf h.2⟩

end Verif.Net
