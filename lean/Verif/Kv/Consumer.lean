import Verif.Kv.StoreInv
import Verif.Wire.Batch

/-!
# Consumer offsets (`fluvio-spu/src/kv/consumer.rs`, `services/public/consumer_handler.rs`)

The store of consumer offsets of the leader of the consumer-offset partition.  Requests forwarded from
other processing units end in the same functions.  Modification times are taken from the event.
-/

set_option linter.unusedSectionVars false

namespace Verif.Kv
open Verif.Wire

/-- `ReplicaKey` — fluvio-protocol/src/record/replica.rs:9-12 -/
structure RKey where
  topic : String
  partition : BitVec 32
deriving DecidableEq

/-- `ConsumerOffsetKey` — consumer.rs:31-35 -/
structure CKey where
  replica : RKey
  consumer : String
deriving DecidableEq

/-- `ConsumerOffset` — consumer.rs:38-42 -/
structure COffset where
  offset : BitVec 64
  modified : BitVec 64
deriving DecidableEq

/-- derived codecs — consumer.rs:31, 38, replica.rs:8 -/
def consumerTypes : Types CKey COffset where
  key := isoC (pairC (pairC stringC (intC 4)) stringC) (fun x => ⟨⟨x.1.1, x.1.2⟩, x.2⟩)
    (fun k => ((k.replica.topic, k.replica.partition), k.consumer))
  value := isoC (pairC (intC 8) (intC 8)) (fun x => ⟨x.1, x.2⟩) (fun v => (v.offset, v.modified))

variable {L Fault Ext : Type}

/-- `ConsumerOffsetStorage` — consumer.rs:44-49; `kv.cache = none` while the entry is missing in
`SharedConsumerOffsetStorages`. -/
structure CStore (L : Type) where
  kv : Store CKey COffset L
  changes : Nat

/-- What is outside the control of the code: the outcome of the append of the change, and iteration
order and outcome of the append of the flush. -/
structure Env (Fault : Type) where
  change : Fault
  order : List (CKey × COffset) → List (CKey × COffset)
  flush : Fault

/-- `get_or_insert` — consumer.rs:52-69 -/
def CStore.load (api : LogApi L Fault Ext) (s : CStore L) : CStore L :=
  match s.kv.cache with
  | some _ => s
  | none => ⟨s.kv.load consumerTypes api, 0⟩

/-- `maybe_flush` after a change with outcome `ok` — consumer.rs:91-97, 106-113, 115-127 -/
def CStore.changed (api : LogApi L Fault Ext) (threshold : Nat) (s : CStore L) (e : Env Fault)
    (r : Store CKey COffset L × Bool) : CStore L × Bool :=
  if s.changes + 1 > threshold then
    match r.1.flush consumerTypes api e.order e.flush with
    | (kv, true) => (⟨kv, 0⟩, r.2)
    | (kv, false) => (⟨kv, s.changes + 1⟩, false)
  else (⟨r.1, s.changes + 1⟩, r.2)

/-- `update_offset_for_leader` — consumer_handler.rs:236-255, consumer.rs:115-127 -/
def CStore.commit (api : LogApi L Fault Ext) (threshold : Nat) (s : CStore L) (k : CKey) (v : COffset)
    (e : Env Fault) : CStore L × Bool :=
  match (s.load api).kv.cache with
  | none => (s.load api, false)
  | some _ => (s.load api).changed api threshold e ((s.load api).kv.put consumerTypes api k v e.change)

/-- `delete` — consumer.rs:106-113 -/
def CStore.deleteKey (api : LogApi L Fault Ext) (threshold : Nat) (s : CStore L) (k : CKey)
    (e : Env Fault) : CStore L × Bool :=
  match (s.load api).kv.cache with
  | none => (s.load api, false)
  | some _ => (s.load api).changed api threshold e ((s.load api).kv.delete consumerTypes api k e.change)

/-- the loop of `delete_by_replica_key` — consumer.rs:189-192 -/
def CStore.deleteAll (api : LogApi L Fault Ext) (threshold : Nat) (env : CKey → Env Fault) :
    CStore L → List CKey → CStore L × Bool
  | s, [] => (s, true)
  | s, k :: ks =>
    match s.deleteKey api threshold k (env k) with
    | (s', true) => s'.deleteAll api threshold env ks
    | (s', false) => (s', false)

/-- `delete_by_replica_key` — consumer.rs:172-195, core/global_context.rs:492-511; `order`: iteration
order of the hash map -/
def CStore.deleteReplica (api : LogApi L Fault Ext) (threshold : Nat) (s : CStore L) (r : RKey)
    (order : List CKey → List CKey) (env : CKey → Env Fault) : CStore L × Bool :=
  match (s.load api).kv.cache with
  | none => (s.load api, false)
  | some m => (s.load api).deleteAll api threshold env
      (order ((m.filter fun e => decide (e.1.replica = r)).map (·.1)))

/-- the offset known for a consumer (`none`: error) — offset_request.rs:86-116, services/internal -/
def CStore.offsetOf (api : LogApi L Fault Ext) (s : CStore L) (k : CKey) : Option (Option (BitVec 64)) :=
  (s.load api).kv.cache.map fun m => (lookup m k).map (·.offset)

/-- `handle_fetch_consumers` — consumer_handler.rs:183-234.  `known` says which replicas exist. -/
def CStore.fetch (api : LogApi L Fault Ext) (s : CStore L) (byReplica : Option RKey)
    (byConsumer : Option String) (known : RKey → Bool) : Option (List (CKey × COffset)) :=
  (s.load api).kv.cache.map fun m => m.filter fun e =>
    decide (∀ r, byReplica = some r → e.1.replica = r) &&
    decide (∀ c, byConsumer = some c → e.1.consumer = c) && known e.1.replica

/-! ## Histories -/

inductive CEv (Fault Ext : Type) where
  | commit (k : CKey) (v : COffset) (e : Env Fault)
  | delete (k : CKey) (e : Env Fault)
  | deleteReplica (r : RKey) (order : List CKey → List CKey) (env : CKey → Env Fault)
  | read
  | restart
  | other (x : Ext)

def CStore.step (api : LogApi L Fault Ext) (threshold : Nat) (s : CStore L) :
    CEv Fault Ext → CStore L × Bool
  | .commit k v e => s.commit api threshold k v e
  | .delete k e => s.deleteKey api threshold k e
  | .deleteReplica r o e => s.deleteReplica api threshold r o e
  | .read => (s.load api, true)
  | .restart => (⟨{ s.kv with cache := none }, 0⟩, true)
  | .other x => ({ s with kv := { s.kv with log := api.other s.kv.log x } }, true)

/-- **Specification.** The changes an event asks for, given what a client sees listed for a replica just
before, and whether the event was answered with success. -/
def changesOf (listed : RKey → List CKey) (ok : Bool) : CEv Fault Ext → List (Act CKey COffset)
  | .commit k v _ => [⟨k, some v, ok⟩]
  | .delete k _ => [⟨k, none, ok⟩]
  | .deleteReplica r _ _ => (listed r).map fun k => ⟨k, none, ok⟩
  | _ => []

/-- the keys listed for a replica -/
def CStore.listed (api : LogApi L Fault Ext) (s : CStore L) (r : RKey) : List CKey :=
  ((s.fetch api (some r) none fun _ => true).getD []).map (·.1)

/-- A history of events with `Ok` from `s0` to `s'` with its changes. -/
inductive CRun (Ok : CEv Fault Ext → Prop) (api : LogApi L Fault Ext) (threshold : Nat) (s0 : CStore L) :
    CStore L → List (Act CKey COffset) → Prop
  | start : CRun Ok api threshold s0 s0 []
  | step {s acts} (e : CEv Fault Ext) : Ok e → CRun Ok api threshold s0 s acts →
      CRun Ok api threshold s0 (s.step api threshold e).1
        (acts ++ changesOf (s.listed api) (s.step api threshold e).2 e)

/-! ## Invariant -/

theorem consumerTypes_good : consumerTypes.Good where
  key := isoC_rt (pairC_rt (pairC_rt stringC_lawful.toRoundTrips (intC_lawful 4).toRoundTrips)
    stringC_lawful.toRoundTrips) fun _ => rfl
  value := isoC_rt (pairC_rt (intC_lawful 8).toRoundTrips (intC_lawful 8).toRoundTrips) fun _ => rfl

/-- **Specification.** Names short enough for the wire. -/
def CKey.Short (k : CKey) : Prop :=
  k.replica.topic.utf8ByteSize < 2 ^ 15 ∧ k.consumer.utf8ByteSize < 2 ^ 15

theorem strBytes_length (s : String) : (strBytes s).length = s.utf8ByteSize := by
  unfold strBytes
  rw [Array.length_toList]
  rfl

theorem keyOk {k : CKey} (h : k.Short) : KeyOk consumerTypes k := by
  have h1 : (strBytes k.replica.topic).length < 2 ^ 15 := by rw [strBytes_length]; exact h.1
  have h2 : (strBytes k.consumer).length < 2 ^ 15 := by rw [strBytes_length]; exact h.2
  refine ⟨⟨⟨h1, trivial⟩, h2⟩, ?_⟩
  have e : (consumerTypes.key.enc k).length = (stringC.enc k.replica.topic).length +
      (intEnc 4 k.replica.partition).length + (stringC.enc k.consumer).length := by
    show ((stringC.enc _ ++ (intC 4).enc _) ++ stringC.enc _).length = _
    rw [List.length_append, List.length_append]
    rfl
  have e1 : ∀ s, (stringC.enc s).length = 2 + (strBytes s).length := by
    intro s
    show (beEnc 2 _ ++ _).length = _
    rw [List.length_append, beEnc_length]
  rw [e, e1, e1, intEnc_length]
  omega

theorem valOk (v : COffset) : ValOk consumerTypes v := by
  refine ⟨⟨trivial, trivial⟩, ?_⟩
  show (intEnc 8 v.offset ++ intEnc 8 v.modified).length < _
  rw [List.length_append, intEnc_length, intEnc_length]
  omega

def Env.Ok (e : Env Fault) : Prop := ∀ m, (e.order m).Perm m

/-- requests the wire can carry; hash maps iterate over each entry once -/
def CEv.Ok : CEv Fault Ext → Prop
  | .commit k _ e => k.Short ∧ e.Ok
  | .delete k e => k.Short ∧ e.Ok
  | .deleteReplica _ o env => (∀ l, (o l).Perm l) ∧ ∀ k, (env k).Ok
  | _ => True

variable {api : LogApi L Fault Ext} {Holds : L → List Bytes → List Bytes → Prop}

def CInv (Holds : L → List Bytes → List Bytes → Prop) (s : CStore L) (acts : List (Act CKey COffset)) : Prop :=
  ∃ gone kept, Inv consumerTypes Holds s.kv acts gone kept

theorem explained_snoc_iff {κ ν : Type} {acts : List (Act κ ν)} {a : Act κ ν} {k : κ} {r : Option ν} :
    Explained (acts ++ [a]) k r ↔
      (a.key = k ∧ a.effect = r) ∨ ((a.key = k → a.ok = false) ∧ Explained acts k r) := by
  constructor
  · rintro (⟨o, x, n, he, h1, h2, h3⟩ | ⟨h1, h2⟩)
    · rcases List.eq_nil_or_concat n with rfl | ⟨n', y, rfl⟩
      · obtain ⟨rfl, hx⟩ := List.append_inj' he rfl
        have hx := (List.cons.inj hx).1
        subst hx
        exact .inl ⟨h1, h2⟩
      · rw [List.concat_eq_append] at he h3
        have he' : acts ++ [a] = (o ++ x :: n') ++ [y] := by rw [he]; simp
        obtain ⟨rfl, hx⟩ := List.append_inj' he' rfl
        have hx := (List.cons.inj hx).1
        subst hx
        exact .inr ⟨h3 a (by simp), .inl ⟨o, x, n', rfl, h1, h2, fun b hb => h3 b (by simp [hb])⟩⟩
    · exact .inr ⟨h2 a (by simp), .inr ⟨h1, fun b hb => h2 b (by simp [hb])⟩⟩
  · rintro (⟨h1, h2⟩ | ⟨h1, h2⟩)
    · exact .inl ⟨acts, a, [], rfl, h1, h2, by simp⟩
    · rcases h2 with ⟨o, b, n, rfl, e1, e2, e3⟩ | ⟨e1, e2⟩
      · refine .inl ⟨o, b, n ++ [a], by simp, e1, e2, ?_⟩
        intro y hy hk
        rcases List.mem_append.1 hy with hy | hy
        · exact e3 y hy hk
        · rw [List.mem_singleton] at hy; subst hy; exact h1 hk
      · refine .inr ⟨e1, ?_⟩
        intro y hy hk
        rcases List.mem_append.1 hy with hy | hy
        · exact e2 y hy hk
        · rw [List.mem_singleton] at hy; subst hy; exact h1 hk

theorem Explained.weaken {κ ν : Type} {acts : List (Act κ ν)} {k k' : κ} {e : Option ν} {b b' : Bool} {r : Option ν}
    (hb : b' = true → b = true) (h : Explained (acts ++ [⟨k, e, b⟩]) k' r) :
    Explained (acts ++ [⟨k, e, b'⟩]) k' r := by
  rw [explained_snoc_iff] at h ⊢
  rcases h with h | ⟨h1, h2⟩
  · exact .inl h
  · refine .inr ⟨fun hk => ?_, h2⟩
    have : b = false := h1 hk
    cases b' with
    | false => rfl
    | true => rw [hb rfl] at this; cases this

theorem Explained.skip {κ ν : Type} {acts : List (Act κ ν)} {a : Act κ ν} {k : κ} {r : Option ν}
    (h : Explained acts k r) (hk : a.key = k → a.ok = false) : Explained (acts ++ [a]) k r :=
  explained_snoc_iff.2 (.inr ⟨hk, h⟩)

/-- after deletions of the keys `ks` -/
theorem explained_deletes_iff {κ ν : Type} {k : κ} {r : Option ν} {ok : Bool} : ∀ (ks : List κ)
    {acts : List (Act κ ν)}, Explained (acts ++ ks.map fun x => ⟨x, none, ok⟩) k r ↔
      (k ∈ ks ∧ r = none) ∨ ((k ∈ ks → ok = false) ∧ Explained acts k r)
  | [], acts => by simp
  | x :: ks, acts => by
    have e : (acts ++ (x :: ks).map fun x => (⟨x, none, ok⟩ : Act κ ν)) =
        (acts ++ [⟨x, none, ok⟩]) ++ ks.map fun x => ⟨x, none, ok⟩ := by simp
    rw [e, explained_deletes_iff ks, explained_snoc_iff, List.mem_cons]
    dsimp only
    grind

theorem CInv.mono {s : CStore L} {acts acts' : List (Act CKey COffset)} (h : CInv Holds s acts)
    (hm : ∀ k r, Explained acts k r → Explained acts' k r) : CInv Holds s acts' := by
  obtain ⟨g, k, h⟩ := h
  exact ⟨g, k, h.holds, h.entOk, h.goneOk, fun k' => hm _ _ (h.stored k'), fun m hmm =>
    ⟨(h.cached m hmm).1, (h.cached m hmm).2.1, fun k' => hm _ _ ((h.cached m hmm).2.2 k')⟩⟩

theorem CStore.load_kv (api : LogApi L Fault Ext) (s : CStore L) :
    (s.load api).kv = s.kv.load consumerTypes api := by
  unfold CStore.load Store.load
  cases hc : s.kv.cache with
  | some m => rfl
  | none => simp only

theorem CInv.load (hl : api.Keeps Holds) {s : CStore L} {acts : List (Act CKey COffset)} (h : CInv Holds s acts) :
    CInv Holds (s.load api) acts := by
  obtain ⟨g, k, h⟩ := h
  refine ⟨g, k, ?_⟩
  rw [CStore.load_kv]
  exact (h.load hl consumerTypes_good).1

/-- a change and possibly a flush -/
theorem CInv.changed (hl : api.Keeps Holds) (threshold : Nat) {s : CStore L} {acts : List (Act CKey COffset)}
    {e : Env Fault} (he : e.Ok) {kv : Store CKey COffset L} {ok : Bool} {k : CKey} {eff : Option COffset}
    {g : List (Ent CKey COffset)} {kp : List (Ent CKey COffset)}
    (h : Inv consumerTypes Holds kv (acts ++ [⟨k, eff, ok⟩]) g kp) :
    CInv Holds (s.changed api threshold e (kv, ok)).1
      (acts ++ [⟨k, eff, (s.changed api threshold e (kv, ok)).2⟩]) := by
  unfold CStore.changed
  by_cases ht : s.changes + 1 > threshold
  · rw [if_pos ht]
    obtain ⟨g', k', hf, _⟩ := h.step hl consumerTypes_good (.flush e.order e.flush) he
    simp only [Store.step, actOf, List.append_nil] at hf
    cases hr : kv.flush consumerTypes api e.order e.flush with
    | mk kv' ok' =>
      rw [hr] at hf
      cases ok' with
      | true => exact ⟨g', k', hf⟩
      | false =>
        refine CInv.mono (s := ⟨kv', _⟩) ⟨g', k', hf⟩ ?_
        intro k'' r hx
        exact hx.weaken nofun
  · rw [if_neg ht]
    exact ⟨g, kp, h⟩

theorem CInv.commit (hl : api.Keeps Holds) (threshold : Nat) {s : CStore L} {acts : List (Act CKey COffset)}
    (h : CInv Holds s acts) (k : CKey) (v : COffset) {e : Env Fault} (he : e.Ok) (hk : k.Short) :
    CInv Holds (s.commit api threshold k v e).1 (acts ++ [⟨k, some v, (s.commit api threshold k v e).2⟩]) := by
  have hL := h.load hl
  unfold CStore.commit
  cases hc : (s.load api).kv.cache with
  | none => exact hL.mono fun k' r hx => hx.skip fun _ => rfl
  | some m =>
    obtain ⟨g, kp, hI⟩ := hL
    obtain ⟨g', k', hf, _⟩ := hI.step hl consumerTypes_good (.put k v e.change) ⟨keyOk hk, valOk v⟩
    simp only [Store.step, actOf] at hf
    dsimp only
    exact CInv.changed hl threshold he hf

theorem CInv.deleteKey (hl : api.Keeps Holds) (threshold : Nat) {s : CStore L} {acts : List (Act CKey COffset)}
    (h : CInv Holds s acts) (k : CKey) {e : Env Fault} (he : e.Ok) (hk : KeyOk consumerTypes k) :
    CInv Holds (s.deleteKey api threshold k e).1 (acts ++ [⟨k, none, (s.deleteKey api threshold k e).2⟩]) := by
  have hL := h.load hl
  unfold CStore.deleteKey
  cases hc : (s.load api).kv.cache with
  | none => exact hL.mono fun k' r hx => hx.skip fun _ => rfl
  | some m =>
    obtain ⟨g, kp, hI⟩ := hL
    obtain ⟨g', k', hf, _⟩ := hI.step hl consumerTypes_good (.delete k e.change) hk
    simp only [Store.step, actOf] at hf
    dsimp only
    exact CInv.changed hl threshold he hf

theorem CInv.deleteAll (hl : api.Keeps Holds) (threshold : Nat) {env : CKey → Env Fault} (he : ∀ k, (env k).Ok) :
    ∀ (ks : List CKey) {s : CStore L} {acts : List (Act CKey COffset)}, CInv Holds s acts →
      (∀ k ∈ ks, KeyOk consumerTypes k) →
      CInv Holds (s.deleteAll api threshold env ks).1
        (acts ++ ks.map fun k => ⟨k, none, (s.deleteAll api threshold env ks).2⟩)
  | [], s, acts, h, _ => by simpa [CStore.deleteAll] using h
  | k :: ks, s, acts, h, hk => by
    have h1 := h.deleteKey hl threshold k (he k) (hk k List.mem_cons_self)
    have hk' : ∀ k ∈ ks, KeyOk consumerTypes k := fun x hx => hk x (List.mem_cons_of_mem _ hx)
    cases hd : s.deleteKey api threshold k (env k) with
    | mk s' ok =>
      rw [hd] at h1
      cases ok with
      | false =>
        have e1 : s.deleteAll api threshold env (k :: ks) = (s', false) := by
          simp only [CStore.deleteAll, hd]
        rw [e1]
        refine h1.mono fun k' r hx => ?_
        have := (explained_deletes_iff (ok := false) ks).2 (.inr ⟨fun _ => rfl, hx⟩)
        simpa using this
      | true =>
        have e1 : s.deleteAll api threshold env (k :: ks) = s'.deleteAll api threshold env ks := by
          simp only [CStore.deleteAll, hd]
        rw [e1]
        have h2 : CInv Holds s' (acts ++ [⟨k, none, (s'.deleteAll api threshold env ks).2⟩]) :=
          h1.mono fun k' r hx => hx.weaken fun _ => rfl
        have h3 := CInv.deleteAll hl threshold he ks h2 hk'
        simpa using h3

theorem Explained.perm_map {κ ν : Type} {acts : List (Act κ ν)} {ks ks' : List κ} (hp : ks.Perm ks') {ok : Bool}
    {k : κ} {r : Option ν} (h : Explained (acts ++ ks.map fun x => ⟨x, none, ok⟩) k r) :
    Explained (acts ++ ks'.map fun x => ⟨x, none, ok⟩) k r := by
  rw [explained_deletes_iff] at h ⊢
  rw [← hp.mem_iff]
  exact h

theorem CStore.listed_eq (api : LogApi L Fault Ext) {s : CStore L} {m : List (CKey × COffset)}
    (h : (s.load api).kv.cache = some m) (r : RKey) :
    s.listed api r = (m.filter fun e => decide (e.1.replica = r)).map (·.1) := by
  unfold CStore.listed CStore.fetch
  rw [h]
  simp

theorem CInv.step (hl : api.Keeps Holds) (threshold : Nat) {s : CStore L} {acts : List (Act CKey COffset)}
    (h : CInv Holds s acts) (e : CEv Fault Ext) (he : e.Ok) :
    CInv Holds (s.step api threshold e).1
      (acts ++ changesOf (s.listed api) (s.step api threshold e).2 e) := by
  cases e with
  | commit k v e => exact h.commit hl threshold k v he.2 he.1
  | delete k e => exact h.deleteKey hl threshold k he.2 (keyOk he.1)
  | deleteReplica r o env =>
    have hL := h.load hl
    simp only [CStore.step, changesOf]
    unfold CStore.deleteReplica
    cases hc : (s.load api).kv.cache with
    | none =>
      refine hL.mono fun k' r' hx => ?_
      exact (explained_deletes_iff _).2 (.inr ⟨fun _ => rfl, hx⟩)
    | some m =>
      rw [CStore.listed_eq api hc]
      dsimp only
      have hkeys : ∀ k ∈ o ((m.filter fun e => decide (e.1.replica = r)).map (·.1)), KeyOk consumerTypes k := by
        intro k hk
        obtain ⟨x, hx, rfl⟩ := List.mem_map.1 ((he.1 _).mem_iff.1 hk)
        obtain ⟨g, kp, hI⟩ := hL
        exact ((hI.cached m hc).2.1 x (List.mem_filter.1 hx).1).1
      refine (hL.deleteAll hl threshold he.2 _ hkeys).mono fun k' r' hx => ?_
      exact hx.perm_map (he.1 _)
  | read => simpa [CStore.step, changesOf] using h.load hl
  | restart =>
    obtain ⟨g, kp, hI⟩ := h
    simp only [CStore.step, changesOf, List.append_nil]
    exact ⟨g, kp, hI.holds, hI.entOk, hI.goneOk, hI.stored, fun m hm => by cases hm⟩
  | other x =>
    obtain ⟨g, kp, hI⟩ := h
    obtain ⟨g', kp', hf, _⟩ := hI.step hl consumerTypes_good (.other x) trivial
    simp only [CStore.step, changesOf, List.append_nil]
    simp only [Store.step, actOf, List.append_nil] at hf
    exact ⟨g', kp', hf⟩

/-! ## The content of the map after a request -/

theorem CStore.offsetOf_cache (api : LogApi L Fault Ext) {s : CStore L} {m : List (CKey × COffset)}
    (h : s.kv.cache = some m) (k : CKey) : s.offsetOf api k = some ((lookup m k).map (·.offset)) := by
  have : (s.load api).kv.cache = some m := by
    unfold CStore.load
    rw [h]
    exact h
  unfold CStore.offsetOf
  rw [this]
  rfl

theorem Store.flush_cache {κ ν : Type} [DecidableEq κ] (t : Types κ ν) (api : LogApi L Fault Ext) {s : Store κ ν L}
    {m : List (κ × ν)} (h : s.cache = some m) (o : List (κ × ν) → List (κ × ν)) (f : Fault) :
    (s.flush t api o f).1.cache = some m := by
  have : (s.load t api).cache = some m := by
    unfold Store.load
    rw [h]
    exact h
  simp only [Store.flush, this]

theorem CStore.changed_cache (api : LogApi L Fault Ext) (threshold : Nat) (s : CStore L) (e : Env Fault)
    {r : Store CKey COffset L × Bool} {m : List (CKey × COffset)} (h : r.1.cache = some m) :
    (s.changed api threshold e r).1.kv.cache = some m ∧
    ((s.changed api threshold e r).2 = true → r.2 = true) := by
  unfold CStore.changed
  by_cases ht : s.changes + 1 > threshold
  · rw [if_pos ht]
    have hf := Store.flush_cache consumerTypes api h e.order e.flush
    cases hr : r.1.flush consumerTypes api e.order e.flush with
    | mk kv ok =>
      rw [hr] at hf
      cases ok with
      | true => exact ⟨hf, id⟩
      | false => exact ⟨hf, nofun⟩
  · rw [if_neg ht]
    exact ⟨h, id⟩

theorem CStore.load_idem (api : LogApi L Fault Ext) {s : CStore L} {m : List (CKey × COffset)}
    (h : (s.load api).kv.cache = some m) : ((s.load api).kv.load consumerTypes api).cache = some m := by
  unfold Store.load
  rw [h]
  exact h

theorem CStore.commit_cache (api : LogApi L Fault Ext) (threshold : Nat) {s : CStore L} (k : CKey) (v : COffset)
    (e : Env Fault) {m : List (CKey × COffset)} (h : (s.load api).kv.cache = some m) :
    ∃ m', (s.commit api threshold k v e).1.kv.cache = some m' ∧ (∀ k', k' ≠ k → lookup m' k' = lookup m k') ∧
      ((s.commit api threshold k v e).2 = true → lookup m' k = some v) := by
  unfold CStore.commit
  rw [h]
  dsimp only
  have hl := CStore.load_idem api h
  have hp : ∃ m', ((s.load api).kv.put consumerTypes api k v e.change).1.cache = some m' ∧
      (∀ k', k' ≠ k → lookup m' k' = lookup m k') ∧
      (((s.load api).kv.put consumerTypes api k v e.change).2 = true → lookup m' k = some v) := by
    unfold Store.put
    rw [hl]
    dsimp only
    cases ha : api.append (s.load api).kv.log [entryC.enc (.updated (consumerTypes.key.enc k)
      (consumerTypes.value.enc v))] e.change with
    | mk l ok =>
      cases ok with
      | true =>
        refine ⟨insert m k v, rfl, ?_, fun _ => ?_⟩
        · intro k' hk; rw [lookup_insert, if_neg (Ne.symm hk)]
        · rw [lookup_insert, if_pos rfl]
      | false => exact ⟨m, rfl, fun _ _ => rfl, nofun⟩
  obtain ⟨m', h1, h2, h3⟩ := hp
  obtain ⟨c1, c2⟩ := CStore.changed_cache api threshold (s.load api) e h1
  exact ⟨m', c1, h2, fun ho => h3 (c2 ho)⟩

theorem CStore.deleteKey_cache (api : LogApi L Fault Ext) (threshold : Nat) {s : CStore L} (k : CKey)
    (e : Env Fault) {m : List (CKey × COffset)} (h : (s.load api).kv.cache = some m) :
    (s.deleteKey api threshold k e).1.kv.cache = some (erase m k) := by
  unfold CStore.deleteKey
  rw [h]
  dsimp only
  have hl := CStore.load_idem api h
  refine (CStore.changed_cache api threshold (s.load api) e ?_).1
  simp only [Store.delete, hl]

theorem CStore.deleteAll_cache (api : LogApi L Fault Ext) (threshold : Nat) (env : CKey → Env Fault) :
    ∀ (ks : List CKey) {s : CStore L} {m : List (CKey × COffset)}, s.kv.cache = some m →
    ∃ m', (s.deleteAll api threshold env ks).1.kv.cache = some m' ∧ (∀ k, k ∉ ks → lookup m' k = lookup m k) ∧
      ((s.deleteAll api threshold env ks).2 = true → ∀ k ∈ ks, lookup m' k = none)
  | [], s, m, h => ⟨m, h, fun _ _ => rfl, fun _ k hk => by cases hk⟩
  | x :: ks, s, m, h => by
    have hl : (s.load api).kv.cache = some m := by
      unfold CStore.load
      rw [h]
      exact h
    have h1 := CStore.deleteKey_cache api threshold x (env x) hl
    cases hd : s.deleteKey api threshold x (env x) with
    | mk s' ok =>
      rw [hd] at h1
      cases ok with
      | false =>
        have e1 : s.deleteAll api threshold env (x :: ks) = (s', false) := by
          simp only [CStore.deleteAll, hd]
        rw [e1]
        refine ⟨erase m x, h1, ?_, nofun⟩
        intro k hk
        rw [lookup_erase, if_neg]
        rintro rfl
        exact hk List.mem_cons_self
      | true =>
        have e1 : s.deleteAll api threshold env (x :: ks) = s'.deleteAll api threshold env ks := by
          simp only [CStore.deleteAll, hd]
        rw [e1]
        obtain ⟨m', h2, h3, h4⟩ := CStore.deleteAll_cache api threshold env ks h1
        refine ⟨m', h2, ?_, ?_⟩
        · intro k hk
          rw [h3 k (fun hh => hk (List.mem_cons_of_mem _ hh)), lookup_erase, if_neg]
          rintro rfl
          exact hk List.mem_cons_self
        · intro ho k hk
          by_cases hin : k ∈ ks
          · exact h4 ho k hin
          · rcases List.mem_cons.1 hk with rfl | hk
            · rw [h3 k hin, lookup_erase, if_pos rfl]
            · exact absurd hk hin

end Verif.Kv
