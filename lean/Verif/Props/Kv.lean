import Verif.Kv.ReplicaLog
import Verif.Kv.Consumer

/-!
# C24, C25: the key-value store and consumer offsets
-/

namespace Verif.Props
open Verif.Wire Verif.Storage Verif.Kv

variable {κ ν : Type} [DecidableEq κ]

/-- An empty store on a new partition. -/
def freshStore : Store κ ν (Replica Record) := ⟨none, Replica.init⟩

theorem freshInv (t : Types κ ν) (c : Cfg) : Inv t (Holds c) (freshStore (κ := κ) (ν := ν)) [] [] [] where
  holds := Holds.init c
  entOk := nofun
  goneOk := nofun
  stored := fun _ => .inr ⟨rfl, nofun⟩
  cached := nofun

/-- **C24.** After any sequence of puts, deletes, flushes, restarts, reopenings of the partition and
retention, with any appends failing, restart the store and load it.  If that fails, retention has
removed something from the partition.  Otherwise every key occurs once, and its value is the effect of
a put or delete that no *successful* put or delete of the key follows; if all changes of the key
succeeded, it is the last value put unless deleted since. -/
theorem C24_restart_partial (t : Types κ ν) (ht : t.Good) (z : Compressor) (c : Cfg) (hc : c.segMax < 2 ^ 31)
    (evs : List (Ev κ ν (Option Nat) KvExt)) (hok : ∀ e ∈ evs, e.Ok t)
    (s : Store κ ν (Replica Record)) (acts : List (Act κ ν))
    (hs : s = (freshStore.run t (replicaLog z c) evs).1)
    (ha : acts = actsOf evs (freshStore.run t (replicaLog z c) evs).2)
    (s' : Store κ ν (Replica Record)) (hs' : s' = (s.step t (replicaLog z c) .restart).1.load t (replicaLog z c)) :
    (s'.entries = none → 0 < s.log.logStart) ∧
    ∀ m, s'.entries = some m → (m.map (·.1)).Nodup ∧
      ∀ k, s'.get k = some (lookup m k) ∧ Explained acts k (lookup m k) ∧
        ((∀ a ∈ acts, a.key = k → a.ok = true) → lookup m k = lastOf acts k) := by
  subst hs hs' ha
  have hkeep := replicaLog_keeps z hc
  obtain ⟨g, kp, hI, _⟩ := (freshInv t c).run hkeep ht evs hok
  rw [List.nil_append] at hI
  obtain ⟨g', kp', hI', hg⟩ := hI.step hkeep ht .restart trivial
  have hg := hg (by intro x; exact nofun)
  subst hg
  simp only [actOf, List.append_nil] at hI'
  obtain ⟨hL, hlog, hnone, _⟩ := hI'.load hkeep ht
  refine ⟨?_, ?_⟩
  · intro hn
    obtain ⟨_, hgone, _⟩ := hnone hn
    have hst := hI.holds.start
    rw [List.length_map] at hst
    have : 0 < g'.length := List.length_pos_iff.2 hgone
    omega
  · intro m hm
    obtain ⟨hd, _, hex⟩ := hL.cached m hm
    refine ⟨hd, fun k => ⟨?_, hex k, (hex k).exact⟩⟩
    unfold Store.get
    exact congrArg (Option.map fun m => lookup m k) hm

/-- **C24**, while the store runs: what `get` answers. -/
theorem C24_get_partial (t : Types κ ν) (ht : t.Good) (z : Compressor) (c : Cfg) (hc : c.segMax < 2 ^ 31)
    (evs : List (Ev κ ν (Option Nat) KvExt)) (hok : ∀ e ∈ evs, e.Ok t)
    (s : Store κ ν (Replica Record)) (acts : List (Act κ ν))
    (hs : s = (freshStore.run t (replicaLog z c) evs).1)
    (ha : acts = actsOf evs (freshStore.run t (replicaLog z c) evs).2) (k : κ) (r : Option ν)
    (hg : s.get k = some r) :
    Explained acts k r ∧ ((∀ a ∈ acts, a.key = k → a.ok = true) → r = lastOf acts k) := by
  subst hs ha
  obtain ⟨g, kp, hI, _⟩ := (freshInv t c).run (replicaLog_keeps z hc) ht evs hok
  rw [List.nil_append] at hI
  unfold Store.get at hg
  cases hm : (freshStore.run t (replicaLog z c) evs).1.cache with
  | none => rw [hm] at hg; cases hg
  | some m =>
    rw [hm] at hg
    have hr : r = lookup m k := (Option.some.inj hg).symm
    subst hr
    exact ⟨(hI.cached m hm).2.2 k, ((hI.cached m hm).2.2 k).exact⟩

/-- **C24.** An interrupted change: all earlier changes succeeded, the last one did not report success
(its append failed, or the process ended); after the restart every key has the value before or the value
after the interrupted change. -/
theorem C24_interrupted (t : Types κ ν) (ht : t.Good) (z : Compressor) (c : Cfg) (hc : c.segMax < 2 ^ 31)
    (evs : List (Ev κ ν (Option Nat) KvExt)) (hok : ∀ e ∈ evs, e.Ok t) (acts : List (Act κ ν)) (a : Act κ ν)
    (ha : actsOf evs (freshStore.run t (replicaLog z c) evs).2 = acts ++ [a])
    (hall : ∀ b ∈ acts, b.ok = true) (m : List (κ × ν))
    (hm : (((freshStore.run t (replicaLog z c) evs).1.step t (replicaLog z c) .restart).1.load t
      (replicaLog z c)).entries = some m) :
    ∀ k, lookup m k = lastOf acts k ∨ (k = a.key ∧ lookup m k = a.effect) := by
  intro k
  have h := (((C24_restart_partial t ht z c hc evs hok _ _ rfl rfl _ rfl).2 m hm).2 k).2.1
  rw [ha, explained_snoc_iff] at h
  rcases h with ⟨h1, h2⟩ | ⟨_, h2⟩
  · exact .inr ⟨h1.symm, h2.symm⟩
  · exact .inl (h2.exact fun b hb _ => hall b hb)

/-! ### Concrete stores -/

/-- byte keys and values -/
def byteTypes : Types (BitVec 8) (BitVec 8) := ⟨intC 1, intC 1⟩

theorem byteTypes_good : byteTypes.Good := ⟨(intC_lawful 1).toRoundTrips, (intC_lawful 1).toRoundTrips⟩

theorem byteOk (k v : BitVec 8) : KeyOk byteTypes k ∧ ValOk byteTypes v := by
  refine ⟨⟨trivial, ?_⟩, trivial, ?_⟩
  all_goals
    show (intEnc 1 _).length < _
    rw [intEnc_length]
    decide

def kvCfg : Cfg := ⟨1000, 1000, 1000, ⟨1000, 10⟩⟩
/-- a segment holds two small batches -/
def kvCfgSmall : Cfg := ⟨200, 1000, 1000, ⟨1000, 10⟩⟩

def noZip : Compressor := ⟨fun _ b => b, fun _ _ => none⟩

/-- put 1 ↦ 7, put 2 ↦ 8, delete 1, checkpoint, put 2 ↦ 9 fails -/
def kvHistory : List (Ev (BitVec 8) (BitVec 8) (Option Nat) KvExt) :=
  [.put 1 7 none, .put 2 8 none, .delete 1 none, .flush id none, .other .reopen, .put 2 9 (some 0)]

/-- the hypotheses of the theorems are met, and the value of 2 survives -/
example : (∀ e ∈ kvHistory, e.Ok byteTypes) ∧
    (freshStore.run byteTypes (replicaLog noZip kvCfg) kvHistory).2 =
      [some true, some true, some true, some true, none, some false] ∧
    (((freshStore.run byteTypes (replicaLog noZip kvCfg) kvHistory).1.step byteTypes (replicaLog noZip kvCfg)
      .restart).1.load byteTypes (replicaLog noZip kvCfg)).entries = some [(2, 8)] := by
  refine ⟨?_, ?_⟩
  · intro e he
    simp only [kvHistory, List.mem_cons, List.not_mem_nil, or_false] at he
    rcases he with rfl | rfl | rfl | rfl | rfl | rfl
    · exact byteOk _ _
    · exact byteOk _ _
    · exact (byteOk _ 0).1
    · intro m; exact List.Perm.refl _
    · trivial
    · exact byteOk _ _
  · decide +kernel

/-- **C24 does not hold as stated**: a delete whose append fails removes the value from the running store
(log.rs:41-46: the map first); after a restart the value is back. -/
theorem C24_violated_failed_delete :
    let h : List (Ev (BitVec 8) (BitVec 8) (Option Nat) KvExt) := [.put 1 7 none, .delete 1 (some 0)]
    let out := freshStore.run byteTypes (replicaLog noZip kvCfg) h
    out.2 = [some true, some false] ∧ out.1.get 1 = some none ∧
    ((out.1.step byteTypes (replicaLog noZip kvCfg) .restart).1.load byteTypes (replicaLog noZip kvCfg)).get 1 =
      some (some 7) := by
  decide +kernel

/-- **C24 does not hold as stated**: retention may remove the segment with the last checkpoint (the
partition's retention period is seven days, fluvio-sc/src/controllers/topics/controller.rs:205-236, and a
checkpoint is only written after a hundred changes); then the store can never be loaded again, and
everything in it, including what was just put, is lost. -/
theorem C24_violated_retention :
    let h : List (Ev (BitVec 8) (BitVec 8) (Option Nat) KvExt) :=
      [.put 1 7 none, .put 2 8 none, .put 3 9 none, .other (.expire 2)]
    let out := freshStore.run byteTypes (replicaLog noZip kvCfgSmall) h
    out.2 = [some true, some true, some true, none] ∧ out.1.get 3 = some (some 9) ∧
    ((out.1.step byteTypes (replicaLog noZip kvCfgSmall) .restart).1.load byteTypes
      (replicaLog noZip kvCfgSmall)).get 3 = none := by
  decide +kernel

/-- **C24 does not hold as stated** when the watermark file is older than the log at a restart: the log
is read from the watermark (kv.rs:70-72), so newer entries are ignored. -/
theorem C24_violated_old_watermark :
    let h : List (Ev (BitVec 8) (BitVec 8) (Option Nat) KvExt) := [.put 1 7 none, .put 1 8 none]
    let out := freshStore.run byteTypes (replicaLog noZip kvCfg) h
    out.2 = [some true, some true] ∧
    (Store.load byteTypes (replicaLog noZip kvCfg)
      (⟨none, (out.1.log.step kvCfg (.reopen (.value 1))).1⟩ : Store (BitVec 8) (BitVec 8) _)).get 1 = some (some 7) := by
  decide +kernel

/-! ## Consumer offsets -/

/-- no consumer offsets, on a new partition -/
def freshOffsets : CStore (Replica Record) := ⟨freshStore, 0⟩

theorem crun_inv {z : Compressor} {c : Cfg} (hc : c.segMax < 2 ^ 31) {threshold : Nat} {s : CStore (Replica Record)}
    {acts : List (Act CKey COffset)} (hr : CRun CEv.Ok (replicaLog z c) threshold freshOffsets s acts) :
    CInv (Holds c) s acts := by
  induction hr with
  | start => exact ⟨[], [], freshInv consumerTypes c⟩
  | step e he _ ih => exact ih.step (replicaLog_keeps z hc) threshold e he

/-- **C25.** Consumers commit and delete offsets, partitions are deleted, the processing unit restarts,
the consumer-offset partition is reopened and subject to retention, appends may fail.  Reading the
offset of a consumer on a partition fails only if retention has removed something from the
consumer-offset partition.  Otherwise it gives the offset of a commit for that consumer and partition
(or nothing after a deletion) that no *accepted* commit or deletion for the same consumer and partition
follows.  If all requests for them were accepted, it is the last commit's offset unless deleted since. -/
theorem C25_offsets_partial (z : Compressor) (c : Cfg) (hc : c.segMax < 2 ^ 31) (threshold : Nat)
    (s : CStore (Replica Record)) (acts : List (Act CKey COffset))
    (hr : CRun CEv.Ok (replicaLog z c) threshold freshOffsets s acts) (k : CKey) :
    (s.offsetOf (replicaLog z c) k = none → 0 < s.kv.log.logStart) ∧
    ∀ r, s.offsetOf (replicaLog z c) k = some r →
      ∃ v, r = v.map COffset.offset ∧ Explained acts k v ∧
        ((∀ a ∈ acts, a.key = k → a.ok = true) → v = lastOf acts k) := by
  have h := crun_inv hc hr
  have hkeep := replicaLog_keeps z hc
  obtain ⟨g, kp, hI⟩ := h
  obtain ⟨hL, hlog, hnone, _⟩ := hI.load hkeep consumerTypes_good
  unfold CStore.offsetOf
  rw [CStore.load_kv]
  cases hm : (s.kv.load consumerTypes (replicaLog z c)).cache with
  | none =>
    refine ⟨fun _ => ?_, nofun⟩
    obtain ⟨_, hgone, _⟩ := hnone hm
    have hst := hI.holds.start
    rw [List.length_map] at hst
    have : 0 < g.length := List.length_pos_iff.2 hgone
    omega
  | some m =>
    refine ⟨nofun, ?_⟩
    intro r hr'
    have hx := (hL.cached m hm).2.2 k
    exact ⟨lookup m k, (Option.some.inj hr').symm, hx, hx.exact⟩

/-- **C25.** One request: an accepted commit is read back and leaves everything else as it was; so does a
rejected one. -/
theorem C25_commit (z : Compressor) (c : Cfg) (threshold : Nat) (s : CStore (Replica Record)) (k : CKey)
    (v : COffset) (e : Env (Option Nat)) (r : Option (BitVec 64)) :
    ((s.commit (replicaLog z c) threshold k v e).2 = true →
      (s.commit (replicaLog z c) threshold k v e).1.offsetOf (replicaLog z c) k = some (some v.offset)) ∧
    ∀ k', k' ≠ k → s.offsetOf (replicaLog z c) k' = some r →
      (s.commit (replicaLog z c) threshold k v e).1.offsetOf (replicaLog z c) k' = some r := by
  cases hm : (s.load (replicaLog z c)).kv.cache with
  | none =>
    refine ⟨?_, ?_⟩
    · unfold CStore.commit; rw [hm]; exact nofun
    · intro k' _ h; unfold CStore.offsetOf at h; rw [hm] at h; cases h
  | some m =>
    obtain ⟨m', h1, h2, h3⟩ := CStore.commit_cache (replicaLog z c) threshold k v e hm
    refine ⟨?_, ?_⟩
    · intro ho
      rw [CStore.offsetOf_cache _ h1, h3 ho]
      rfl
    · intro k' hk h
      rw [CStore.offsetOf_cache _ h1, h2 k' hk]
      unfold CStore.offsetOf at h
      rw [hm] at h
      exact h

/-- **C25.** Deleting one consumer's offset on a partition. -/
theorem C25_delete (z : Compressor) (c : Cfg) (threshold : Nat) (s : CStore (Replica Record)) (k : CKey)
    (e : Env (Option Nat)) (r : Option (BitVec 64)) :
    ((s.deleteKey (replicaLog z c) threshold k e).2 = true →
      (s.deleteKey (replicaLog z c) threshold k e).1.offsetOf (replicaLog z c) k = some none) ∧
    ∀ k', k' ≠ k → s.offsetOf (replicaLog z c) k' = some r →
      (s.deleteKey (replicaLog z c) threshold k e).1.offsetOf (replicaLog z c) k' = some r := by
  cases hm : (s.load (replicaLog z c)).kv.cache with
  | none =>
    refine ⟨?_, ?_⟩
    · unfold CStore.deleteKey; rw [hm]; exact nofun
    · intro k' _ h; unfold CStore.offsetOf at h; rw [hm] at h; cases h
  | some m =>
    have h1 := CStore.deleteKey_cache (replicaLog z c) threshold k e hm
    refine ⟨?_, ?_⟩
    · intro _
      rw [CStore.offsetOf_cache _ h1, lookup_erase, if_pos rfl]
      rfl
    · intro k' hk h
      rw [CStore.offsetOf_cache _ h1, lookup_erase, if_neg (Ne.symm hk)]
      unfold CStore.offsetOf at h
      rw [hm] at h
      exact h

/-- **C25.** Deleting the offsets of a partition: if accepted, no consumer has an offset on it any more;
offsets on other partitions are as before in any case. -/
theorem C25_delete_replica (z : Compressor) (c : Cfg) (threshold : Nat) (s : CStore (Replica Record)) (p : RKey)
    (order : List CKey → List CKey) (ho : ∀ l, (order l).Perm l) (env : CKey → Env (Option Nat))
    (r : Option (BitVec 64)) :
    ((s.deleteReplica (replicaLog z c) threshold p order env).2 = true → ∀ k, k.replica = p →
      (s.deleteReplica (replicaLog z c) threshold p order env).1.offsetOf (replicaLog z c) k = some none) ∧
    ∀ k, k.replica ≠ p → s.offsetOf (replicaLog z c) k = some r →
      (s.deleteReplica (replicaLog z c) threshold p order env).1.offsetOf (replicaLog z c) k = some r := by
  unfold CStore.deleteReplica
  cases hm : (s.load (replicaLog z c)).kv.cache with
  | none =>
    refine ⟨nofun, ?_⟩
    intro k' _ h; unfold CStore.offsetOf at h; rw [hm] at h; cases h
  | some m =>
    dsimp only
    obtain ⟨m', h1, h2, h3⟩ := CStore.deleteAll_cache (replicaLog z c) threshold env
      (order ((m.filter fun e => decide (e.1.replica = p)).map (·.1))) hm
    refine ⟨?_, ?_⟩
    · intro hok k hk
      rw [CStore.offsetOf_cache _ h1]
      have : lookup m' k = none := by
        by_cases hin : k ∈ order ((m.filter fun e => decide (e.1.replica = p)).map (·.1))
        · exact h3 hok k hin
        · rw [h2 k hin]
          cases hl : lookup m k with
          | none => rfl
          | some v =>
            exfalso
            have hmem := lookup_mem hl
            exact hin ((ho _).mem_iff.2 (List.mem_map.2 ⟨(k, v), List.mem_filter.2 ⟨hmem, by simpa using hk⟩, rfl⟩))
      rw [this]
      rfl
    · intro k hk h
      have hnin : k ∉ order ((m.filter fun e => decide (e.1.replica = p)).map (·.1)) := by
        intro hin
        obtain ⟨x, hx, rfl⟩ := List.mem_map.1 ((ho _).mem_iff.1 hin)
        have := (List.mem_filter.1 hx).2
        exact hk (by simpa using this)
      rw [CStore.offsetOf_cache _ h1, h2 k hnin]
      unfold CStore.offsetOf at h
      rw [hm] at h
      exact h

/-- **C25.** Listing: an answer lists every consumer of the addressed partition and name whose partition
exists, with the offset a read gives, each once, and nothing else. -/
theorem C25_fetch (z : Compressor) (c : Cfg) (hc : c.segMax < 2 ^ 31) (threshold : Nat)
    (s : CStore (Replica Record)) (acts : List (Act CKey COffset))
    (hr : CRun CEv.Ok (replicaLog z c) threshold freshOffsets s acts)
    (p : Option RKey) (name : Option String) (known : RKey → Bool) (l : List (CKey × COffset))
    (hl : s.fetch (replicaLog z c) p name known = some l) :
    (l.map (·.1)).Nodup ∧ ∀ k o, (∃ v, (k, v) ∈ l ∧ v.offset = o) ↔
      (s.offsetOf (replicaLog z c) k = some (some o) ∧ (p = none ∨ p = some k.replica) ∧
        (name = none ∨ name = some k.consumer) ∧ known k.replica = true) := by
  have hL := (crun_inv hc hr).load (replicaLog_keeps z hc)
  obtain ⟨g, kp, hI⟩ := hL
  unfold CStore.fetch at hl
  unfold CStore.offsetOf
  cases hm : (s.load (replicaLog z c)).kv.cache with
  | none => rw [hm] at hl; cases hl
  | some m =>
    rw [hm] at hl
    have hle := (Option.some.inj hl).symm
    subst hle
    have hd := (hI.cached m hm).1
    refine ⟨hd.sublist (List.filter_sublist.map _), ?_⟩
    intro k o
    have hp : (∀ r, p = some r → k.replica = r) ↔ (p = none ∨ p = some k.replica) := by
      cases p with
      | none => simp
      | some q => simp [eq_comm]
    have hn : (∀ r, name = some r → k.consumer = r) ↔ (name = none ∨ name = some k.consumer) := by
      cases name with
      | none => simp
      | some q => simp [eq_comm]
    have hlk : ((lookup m k).map COffset.offset = some o) ↔ ∃ v, (k, v) ∈ m ∧ v.offset = o := by
      constructor
      · intro h
        cases hx : lookup m k with
        | none => rw [hx] at h; cases h
        | some v =>
          rw [hx] at h
          exact ⟨v, lookup_mem hx, Option.some.inj h⟩
      · rintro ⟨v, hv, rfl⟩
        rw [lookup_of_mem hd hv]
        rfl
    simp only [Option.map_some, Option.some.injEq, hlk, List.mem_filter, Bool.and_eq_true, decide_eq_true_eq, hp, hn]
    constructor
    · rintro ⟨v, ⟨h1, ⟨h2, h3⟩, h4⟩, h5⟩
      exact ⟨⟨v, h1, h5⟩, h2, h3, h4⟩
    · rintro ⟨⟨v, h1, h5⟩, h2, h3, h4⟩
      exact ⟨v, ⟨h1, ⟨h2, h3⟩, h4⟩, h5⟩

/-! ### Concrete offsets -/

def good : Env (Option Nat) := ⟨none, id, none⟩

def keyA : CKey := ⟨⟨"a", 0⟩, "x"⟩
def keyB : CKey := ⟨⟨"b", 0⟩, "x"⟩

/-- The state of the hypotheses: two commits for `a`, one for `b`, the partition `b` deleted, restart. -/
def someOffsets : CStore (Replica Record) :=
  ([.commit keyA ⟨4, 0⟩ good, .commit keyB ⟨5, 0⟩ good, .commit keyA ⟨6, 0⟩ good,
    .deleteReplica keyB.replica id (fun _ => good), .restart] : List (CEv (Option Nat) KvExt)).foldl
    (fun s e => (s.step (replicaLog noZip kvCfg) 1 e).1) freshOffsets

example : someOffsets.offsetOf (replicaLog noZip kvCfg) keyA = some (some 6) ∧
    someOffsets.offsetOf (replicaLog noZip kvCfg) keyB = some none ∧
    someOffsets.fetch (replicaLog noZip kvCfg) none (some "x") (fun _ => true) = some [(keyA, ⟨6, 0⟩)] := by
  decide +kernel

theorem foldl_crun {L Fault Ext : Type} {api : LogApi L Fault Ext} {P : CEv Fault Ext → Prop} {th : Nat} {s0 : CStore L} :
    ∀ (es : List (CEv Fault Ext)) {s : CStore L} {acts : List (Act CKey COffset)}, (∀ e ∈ es, P e) →
      CRun P api th s0 s acts → ∃ acts', CRun P api th s0 (es.foldl (fun s e => (s.step api th e).1) s) acts'
  | [], _, acts, _, h => ⟨acts, h⟩
  | e :: es, _, _, hp, h =>
    foldl_crun es (fun x hx => hp x (List.mem_cons_of_mem _ hx)) (.step e (hp e List.mem_cons_self) h)

example : ∃ acts, CRun CEv.Ok (replicaLog noZip kvCfg) 1 freshOffsets someOffsets acts := by
  refine foldl_crun _ ?_ .start
  have hg : good.Ok := fun m => List.Perm.refl _
  intro e he
  simp only [List.mem_cons, List.not_mem_nil, or_false] at he
  rcases he with rfl | rfl | rfl | rfl | rfl
  · exact ⟨⟨by decide, by decide⟩, hg⟩
  · exact ⟨⟨by decide, by decide⟩, hg⟩
  · exact ⟨⟨by decide, by decide⟩, hg⟩
  · exact ⟨fun l => List.Perm.refl _, fun _ => hg⟩
  · trivial

/-- **C25 does not hold as stated**: when the periodic flush after a stored commit fails, the commit is
answered with an error (consumer.rs:125) although its offset is what is read from then on, even after a
restart. -/
theorem C25_violated_stored_but_rejected :
    let out := freshOffsets.commit (replicaLog noZip kvCfg) 0 keyA ⟨4, 0⟩ ⟨none, id, some 0⟩
    out.2 = false ∧ out.1.offsetOf (replicaLog noZip kvCfg) keyA = some (some 4) ∧
    (out.1.step (replicaLog noZip kvCfg) 0 .restart).1.offsetOf (replicaLog noZip kvCfg) keyA = some (some 4) := by
  decide +kernel

/-- **C25 does not hold as stated**: a deletion whose append failed hides the offset, so that deleting the
partition's offsets, reported as successful, skips it; after a restart the offset is back. -/
theorem C25_violated_deleted_offset_returns :
    let api := replicaLog noZip kvCfg
    let s1 := (freshOffsets.commit api 9 keyA ⟨4, 0⟩ good).1
    let s2 := (s1.deleteKey api 9 keyA ⟨some 0, id, none⟩).1
    let out := s2.deleteReplica api 9 keyA.replica id fun _ => good
    out.2 = true ∧ out.1.offsetOf api keyA = some none ∧
    (out.1.step api 9 .restart).1.offsetOf api keyA = some (some 4) := by
  decide +kernel

end Verif.Props
