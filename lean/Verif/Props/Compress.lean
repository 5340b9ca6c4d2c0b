import Verif.Smart.Compress
import Verif.Props.Batch

/-!
# C84: the compression a topic requires is the compression of its log
-/

namespace Verif.Props

open Verif.Wire Verif.Smart.Compress
open Verif.Sc.TopicSettings (Alg)

/-- The codec a topic requires; `any` leaves the choice to producers. -/
def requiredCodec : Alg → Option Codec
  | .any => none
  | .none => some .none
  | .gzip => some .gzip
  | .snappy => some .snappy
  | .lz4 => some .lz4
  | .zstd => some .zstd

/-- The lowest three bits of the attributes of a batch name the codec. -/
def HasCodec (b : Batch Bytes) (c : Codec) : Prop := b.header.attributes.toNat % 8 = c.code

/-- A batch names a codec, the required one if the topic requires one. -/
def CodecOk (topic : Alg) (b : Batch Bytes) : Prop :=
  ∃ c, HasCodec b c ∧ ∀ q, requiredCodec topic = some q → c = q

private theorem mask_mod (a : BitVec 16) : (a &&& 0x07#16).toNat = a.toNat % 8 := by
  rw [BitVec.toNat_and]
  exact Nat.and_two_pow_sub_one_eq_mod a.toNat 3

private theorem compression_iff (b : Batch Bytes) (c : Codec) :
    b.header.compression = some c.code ↔ HasCodec b c := by
  unfold BatchHeader.compression HasCodec
  dsimp only
  have e : (b.header.attributes &&& 0x07#16).toNat = b.header.attributes.toNat % 8 := mask_mod _
  rw [e]
  have hc : c.code ≤ 4 := by cases c <;> decide
  split
  · exact ⟨fun h => by injection h, fun h => by rw [h]⟩
  · exact ⟨nofun, fun h => by omega⟩

private theorem code_of {b : Batch Bytes} {n : Nat} (h : b.header.compression = some n) : ∃ c : Codec, n = c.code := by
  have := compression_le h
  have : n = 0 ∨ n = 1 ∨ n = 2 ∨ n = 3 ∨ n = 4 := by omega
  rcases this with h | h | h | h | h <;> subst h
  · exact ⟨.none, rfl⟩
  · exact ⟨.gzip, rfl⟩
  · exact ⟨.snappy, rfl⟩
  · exact ⟨.lz4, rfl⟩
  · exact ⟨.zstd, rfl⟩

private theorem code_inj {c d : Codec} (h : c.code = d.code) : c = d := by cases c <;> cases d <;> first | rfl | cases h

private theorem valid_iff (topic : Alg) (l : List (Batch Bytes)) : valid topic l = true ↔ ∀ b ∈ l, CodecOk topic b := by
  unfold valid
  rw [List.all_eq_true]
  apply forall_congr'
  intro b
  apply forall_congr'
  intro _
  constructor
  · intro h
    split at h
    · cases h
    · rename_i n hn
      obtain ⟨c, hc⟩ := code_of hn
      subst hc
      refine ⟨c, (compression_iff b c).1 hn, ?_⟩
      intro q hq
      cases topic <;> simp only [requiredCodec] at hq <;> first
        | (cases hq; done)
        | (injection hq with hq; subst hq; exact code_inj (by simpa using h))
  · rintro ⟨c, h1, h2⟩
    rw [(compression_iff b c).2 h1]
    cases topic <;> first
      | rfl
      | (have := h2 _ rfl; subst this; rfl)

private theorem ok_of_fixed {topic : Alg} {b : Batch Bytes} {n : Nat} (hb : b.header.compression = some n)
    (hq : ∀ q, requiredCodec topic = some q → n = q.code) : CodecOk topic b := by
  obtain ⟨c, hc⟩ := code_of hb
  subst hc
  exact ⟨c, (compression_iff b c).1 hb, fun q h => code_inj (hq q h)⟩

private theorem transform_ok {σ : Type} {z : Compressor} {f : Chain σ} {topic : Alg} {s s' : σ} {l l' : List (Batch Bytes)}
    (h : transform z f s l = (s', some l')) (hl : ∀ b ∈ l, CodecOk topic b) : ∀ b ∈ l', CodecOk topic b := by
  unfold transform at h
  split at h
  · rename_i s1 o hloop
    injection h with _ h
    split at h
    · injection h with h; subst h; nofun
    · rename_i hne
      cases hr : toRaw z o with
      | none => rw [hr] at h; cases h
      | some b =>
        rw [hr] at h
        injection h with h
        subst h
        intro b' hb'
        have := List.mem_singleton.mp hb'
        subst this
        have hh := toRaw_some hr
        cases hq : requiredCodec topic with
        | none =>
          have hk := loop_known z f l s start (by rw [start_compression]; rfl) _ _ _ hloop
          rw [← hh] at hk
          cases hc : b'.header.compression with
          | none => rw [hc] at hk; cases hk
          | some n => exact ok_of_fixed hc (by rw [hq]; nofun)
        | some q =>
          have hall : ∀ b ∈ l, b.header.compression = some q.code := by
            intro b hb
            obtain ⟨c, h1, h2⟩ := hl b hb
            have := h2 q hq
            subst this
            exact (compression_iff b c).2 h1
          have hf := loop_fixed z f l s start hall (fixed_start _) _ _ _ hloop
          rcases hf with ⟨_, _, h3⟩ | hf
          · rw [h3] at hne; exact absurd rfl hne
          · rw [← hh] at hf
            exact ok_of_fixed hf (by rw [hq]; intro q' e; injection e with e; rw [e])
  · injection h with _ h; cases h

private theorem store_ok {σ : Type} {topic : Alg} {x : Leader σ} (d : Option σ) {l : List (Batch Bytes)} (w : Option Nat)
    (hx : ∀ b ∈ x.log, CodecOk topic b) (hl : ∀ b ∈ l, CodecOk topic b) : ∀ b ∈ (x.store d l w).1.log, CodecOk topic b := by
  unfold Leader.store
  split
  · exact hx
  · split
    · intro b hb
      rcases List.mem_append.mp hb with h | h
      · exact hx b h
      · exact hl b (List.mem_of_mem_take h)
    · intro b hb
      rcases List.mem_append.mp hb with h | h
      · exact hx b h
      · exact hl b h

private theorem produce_ok {σ : Type} {z : Compressor} {sm dd : Chain σ} {topic : Alg} {x : Leader σ} (r : Request σ)
    (hx : ∀ b ∈ x.log, CodecOk topic b) : ∀ b ∈ (x.produce z sm dd topic r).1.log, CodecOk topic b := by
  unfold Leader.produce
  split
  · exact hx
  · split
    · exact hx
    · unfold Leader.write
      split
      · rename_i l _ _ hv
        have hv := (valid_iff topic l).1 hv
        split
        · exact store_ok _ _ hx hv
        · split
          · exact hx
          · rename_i ht
            exact store_ok _ _ hx (transform_ok ht hv)
      · exact hx

/-- **C84, the log**: whatever batches producers send, through whatever SmartModules and whatever deduplication filter,
with whatever failures of the storage, every batch of the log names a codec, and if the topic requires one, that one. -/
theorem C84_log {σ : Type} (z : Compressor) (dd : Chain σ) (topic : Alg) (x : Leader σ)
    (hx : ∀ b ∈ x.log, CodecOk topic b) (rs : List (Chain σ × Request σ)) :
    ∀ b ∈ (x.run z dd topic rs).log, CodecOk topic b := by
  induction rs generalizing x with
  | nil => exact hx
  | cons r rs ih => exact ih _ (produce_ok r.2 hx)

/-- A batch of 3 bytes, whose attributes are the given ones. -/
private def raw (attr : BitVec 16) (bytes : Bytes) : Batch Bytes :=
  ⟨0#64, 0#32, { BatchHeader.default with attributes := attr, lastOffsetDelta := 0#32 }, 0#32, bytes⟩

/-- Codecs which put their number in front of the bytes. -/
private def tagging : Compressor :=
  ⟨fun c bs => UInt8.ofNat c :: bs, fun c bs => match bs with
    | b :: l => if b = UInt8.ofNat c then some l else none
    | [] => none⟩

private def oneRecord : Record := ⟨⟨0, 0, 0⟩, none, [7], 0⟩

/-- Makes a record of every batch. -/
private def every : Chain Nat := fun n _ _ _ => (n + 1, some ([oneRecord], false))

/-- Makes a record of no batch. -/
private def never : Chain Nat := fun n _ _ _ => (n + 1, some ([], false))

example : ((⟨none, []⟩ : Leader Nat).run tagging every .gzip
    [(every, ⟨none, [raw 1 [1, 0]], none⟩), (every, ⟨none, [raw 0 [0]], none⟩), (every, ⟨some 0, [raw 1 [1, 5], raw 2 [2, 5]], none⟩)]).log.map
      (fun b => b.header.attributes.toNat) = [1, 1] := by decide +kernel

/-- **C84, the producer**: a producer can be made exactly if its configuration names no codec other than the required
one; without configuration it always can. Its batches are accepted: with neither SmartModules nor deduplication, and
without failures of the storage, they are stored as they are. -/
theorem C84_producer (topic : Alg) (config : Option Codec) :
    (determine topic config = none ↔ ∃ x q, config = some x ∧ requiredCodec topic = some q ∧ x ≠ q) ∧
    (∀ x, determine topic (some x) = some x ∨ determine topic (some x) = none) ∧
    ∀ c, determine topic config = some c →
      ∀ (σ : Type) (z : Compressor) (sm dd : Chain σ) (log l : List (Batch Bytes)),
        (∀ b ∈ l, ∃ h, b.header = setCompression h c.code) → totalRecords l ≠ 0 →
        (⟨none, log⟩ : Leader σ).produce z sm dd topic ⟨none, l, none⟩ = (⟨none, log ++ l⟩, .ok) := by
  refine ⟨?_, ?_, ?_⟩
  · cases config with
    | none => cases topic <;> exact ⟨nofun, nofun⟩
    | some x =>
      cases ht : topic <;> cases hx : x <;>
        simp [determine, requiredCodec]
  · intro x
    cases topic <;> cases x <;> first | exact Or.inl rfl | exact Or.inr rfl
  · intro c hc σ z sm dd log l hl ht
    have hq : ∀ q, requiredCodec topic = some q → c = q := by
      intro q hq
      cases topic <;> simp only [requiredCodec] at hq <;> first
        | (cases hq; done)
        | (injection hq with hq; subst hq
           cases config with
           | none => simp only [determine] at hc; injection hc with hc; exact hc.symm
           | some x => cases x <;> simp only [determine] at hc <;> first
              | (cases hc; done)
              | (injection hc with hc; exact hc.symm))
    have hv : valid topic l = true := by
      rw [valid_iff]
      intro b hb
      obtain ⟨h, hh⟩ := hl b hb
      have h4 : c.code ≤ 4 := by cases c <;> decide
      exact ⟨c, (compression_iff b c).1 (by rw [hh]; exact compression_set h c.code h4), hq⟩
    unfold Leader.produce
    dsimp only
    rw [if_neg ht]
    unfold Leader.write
    rw [if_pos hv]
    dsimp only
    unfold Leader.store
    rw [if_neg ht]

example : determine .gzip none = some .gzip ∧ determine .gzip (some .lz4) = none ∧ determine .any (some .lz4) = some .lz4 ∧
    (∃ h, (raw 1 [1, 0]).header = setCompression h Codec.gzip.code) ∧ totalRecords [raw 1 [1, 0]] ≠ 0 :=
  ⟨rfl, rfl, rfl, ⟨(raw 0 [1, 0]).header, by decide⟩, by decide⟩

/-- **C84, refusal**: a request without SmartModules but with a batch of another codec, or with an unknown one, stores
nothing and is refused for its compression; and any request refused so leaves the leader as it was. -/
theorem C84_refused {σ : Type} (z : Compressor) (sm dd : Chain σ) (topic : Alg) (x : Leader σ) (r : Request σ) :
    (r.chain = none → totalRecords r.batches ≠ 0 → (∃ b ∈ r.batches, ¬ CodecOk topic b) →
      x.produce z sm dd topic r = (x, .compressionError)) ∧
    ((x.produce z sm dd topic r).2 = .compressionError → (x.produce z sm dd topic r).1 = x) := by
  constructor
  · intro hc ht ⟨b, hb, hn⟩
    unfold Leader.produce
    rw [hc]
    dsimp only
    rw [if_neg ht]
    unfold Leader.write
    rw [if_neg (fun h => hn ((valid_iff topic _).1 h b hb))]
  · intro h
    unfold Leader.produce at h ⊢
    split at h
    · cases h
    · split at h
      · cases h
      · rename_i l hl ht
        rw [if_neg ht]
        unfold Leader.write at h ⊢
        split at h
        · exfalso
          have hs : ∀ (d : Option σ) (l : List (Batch Bytes)) w, (x.store d l w).2 ≠ .compressionError := by
            intro d l w
            unfold Leader.store
            split
            · nofun
            · split <;> nofun
          split at h
          · exact hs _ _ _ h
          · split at h
            · cases h
            · exact hs _ _ _ h
        · rename_i hv
          rw [if_neg hv]

example : ¬ CodecOk .gzip (raw 2 [2]) ∧ ¬ CodecOk .any (raw 5 [2]) ∧ totalRecords [raw 2 [2]] ≠ 0 := by
  refine ⟨?_, ?_, by decide⟩
  · rintro ⟨c, h, hq⟩
    have := hq .gzip rfl
    subst this
    exact absurd h (by unfold HasCodec; decide)
  · rintro ⟨c, h, _⟩
    unfold HasCodec at h
    cases c <;> exact absurd h (by decide)

/-- **C84, SmartModules**: batches of the required codec are never refused for their compression, whatever the request's
SmartModules make of them (records or none). -/
theorem C84_smartmodules {σ : Type} (z : Compressor) (sm dd : Chain σ) (topic : Alg) (x : Leader σ) (r : Request σ)
    (hr : ∀ b ∈ r.batches, CodecOk topic b) : (x.produce z sm dd topic r).2 ≠ .compressionError := by
  have hs : ∀ (d : Option σ) (l : List (Batch Bytes)) w, (x.store d l w).2 ≠ .compressionError := by
    intro d l w
    unfold Leader.store
    split
    · nofun
    · split <;> nofun
  have hw : ∀ l w, valid topic l = true → (x.write z dd topic l w).2 ≠ .compressionError := by
    intro l w hv
    unfold Leader.write
    rw [if_pos hv]
    split
    · exact hs _ _ _
    · split
      · nofun
      · exact hs _ _ _
  unfold Leader.produce
  cases hc : r.chain with
  | none =>
    dsimp only
    split
    · nofun
    · exact hw _ _ ((valid_iff topic _).2 hr)
  | some s =>
    dsimp only
    cases ha : applySm z sm s r.batches with
    | none => nofun
    | some l =>
      dsimp only
      split
      · nofun
      · rename_i ht
        apply hw
        rw [valid_iff]
        unfold applySm at ha
        split at ha
        · rename_i o hloop
          cases hraw : toRaw z o with
          | none => rw [hraw] at ha; cases ha
          | some b =>
            rw [hraw] at ha
            injection ha with ha
            subst ha
            have hh := toRaw_some hraw
            have hpair : loop z sm s start r.batches = ((loop z sm s start r.batches).1, some (o, false)) := by
              rw [← hloop]
            intro b' hb'
            have := List.mem_singleton.mp hb'
            subst this
            cases hq : requiredCodec topic with
            | none =>
              have hk := loop_known z sm _ s start (by rw [start_compression]; rfl) _ _ _ hpair
              rw [← hh] at hk
              cases hc : b'.header.compression with
              | none => rw [hc] at hk; cases hk
              | some n => exact ok_of_fixed hc (by rw [hq]; nofun)
            | some q =>
              have hall : ∀ b ∈ r.batches, b.header.compression = some q.code := by
                intro b hb
                obtain ⟨c, h1, h2⟩ := hr b hb
                have := h2 q hq
                subst this
                exact (compression_iff b c).2 h1
              have hf := loop_fixed z sm _ s start hall (fixed_start _) _ _ _ hpair
              rcases hf with ⟨_, h2, _⟩ | hf
              · exfalso
                apply ht
                unfold totalRecords recordsLen
                rw [List.map_cons, hh, h2]
                rfl
              · rw [← hh] at hf
                exact ok_of_fixed hf (by rw [hq]; intro q' e; injection e with e; rw [e])
        · cases ha

example : CodecOk .gzip (raw 1 [1, 0]) ∧
    ((⟨none, []⟩ : Leader Nat).produce tagging every never .gzip ⟨some 0, [raw 1 [1, 0]], none⟩).2 = .ok ∧
    ((⟨none, []⟩ : Leader Nat).produce tagging never never .gzip ⟨some 0, [raw 1 [1, 0]], none⟩).2 = .filtered :=
  ⟨⟨.gzip, by unfold HasCodec; decide, by intro q h; injection h⟩, by decide +kernel, by decide +kernel⟩

/-- The same batch up to its compression: the same uncompressed bytes, base offset, base timestamp and number of
records. -/
def SamePlain (z : Compressor) (a b : Batch Bytes) : Prop :=
  a.baseOffset = b.baseOffset ∧ a.header.firstTimestamp = b.header.firstTimestamp ∧
  a.header.lastOffsetDelta = b.header.lastOffsetDelta ∧ uncompressed z a = uncompressed z b

/-- The same batches up to their compression. -/
inductive AllSamePlain (z : Compressor) : List (Batch Bytes) → List (Batch Bytes) → Prop
  | nil : AllSamePlain z [] []
  | cons {a b : Batch Bytes} {l l' : List (Batch Bytes)} (h : SamePlain z a b) (t : AllSamePlain z l l') :
    AllSamePlain z (a :: l) (b :: l')

/-- Batches which differ in the attributes only. -/
private def Alike (a b : Batch (List Record)) : Prop :=
  a.baseOffset = b.baseOffset ∧ a.records = b.records ∧ a.header.lastOffsetDelta = b.header.lastOffsetDelta

private theorem alike_addTo {z : Compressor} {o o' : Batch (List Record)} {a b : Batch Bytes} (rs : List Record) (ho : Alike o o')
    (hb : SamePlain z a b) : Alike (addTo o a rs) (addTo o' b rs) := by
  obtain ⟨h1, h2, h3⟩ := ho
  obtain ⟨g1, _, g3, _⟩ := hb
  unfold addTo
  dsimp only
  cases rs with
  | nil =>
    simp only [List.isEmpty_nil, if_true]
    rw [h1, g3]
    split
    · exact ⟨h1, h2, h3⟩
    · exact ⟨rfl, h2, by dsimp only; rw [h3]⟩
  | cons r rs =>
    simp only [List.isEmpty_cons, Bool.false_eq_true, if_false]
    by_cases h : o'.baseOffset = -1#64
    · simp only [h1, h, if_true, g1]
      split
      · refine ⟨rfl, by dsimp only; rw [h2], ?_⟩
        cases a.header.compression <;> cases b.header.compression <;> exact h3
      · refine ⟨rfl, by dsimp only; rw [h2], ?_⟩
        dsimp only
        rw [g3]
        congr 1
        cases a.header.compression <;> cases b.header.compression <;> exact h3
    · simp only [h1, h, if_false, g1]
      exact ⟨rfl, by dsimp only; rw [h2], by dsimp only; rw [h3, g3]⟩

private theorem alike_loop {σ : Type} {z : Compressor} (f : Chain σ) : ∀ (l l' : List (Batch Bytes)),
    AllSamePlain z l l' → ∀ (s : σ) (o o' : Batch (List Record)), Alike o o' →
    (loop z f s o l).1 = (loop z f s o' l').1 ∧
    ((loop z f s o l).2 = none ∧ (loop z f s o' l').2 = none ∨
      ∃ p p' e, (loop z f s o l).2 = some (p, e) ∧ (loop z f s o' l').2 = some (p', e) ∧ Alike p p') := by
  intro l l' h
  induction h with
  | nil => intro s o o' ho; exact ⟨rfl, Or.inr ⟨o, o', false, rfl, rfl, ho⟩⟩
  | cons hb _ ih =>
    rename_i a b l l' _
    intro s o o' ho
    unfold loop
    rw [hb.2.2.2, hb.1, hb.2.1]
    cases uncompressed z b with
    | none => exact ⟨rfl, Or.inl ⟨rfl, rfl⟩⟩
    | some bs =>
      dsimp only
      cases f s b.baseOffset b.header.firstTimestamp bs with
      | mk s' out =>
        cases out with
        | none => exact ⟨rfl, Or.inl ⟨rfl, rfl⟩⟩
        | some p =>
          obtain ⟨rs, err⟩ := p
          dsimp only
          have ha := alike_addTo rs ho hb
          cases err with
          | true => exact ⟨rfl, Or.inr ⟨_, _, true, rfl, rfl, ha⟩⟩
          | false => exact ih s' _ _ ha

private theorem raw_alike {z : Compressor} (hz : ∀ c bs, z.uncompress c (z.compress c bs) = some bs)
    {o o' : Batch (List Record)} {b b' : Batch Bytes} (hb : toRaw z o = some b) (hb' : toRaw z o' = some b')
    (h : o.records = o'.records) : uncompressed z b = uncompressed z b' ∧ memoryRecords z b = memoryRecords z b' := by
  have key : ∀ (o : Batch (List Record)) (b : Batch Bytes), toRaw z o = some b →
      uncompressed z b = some (memC.enc o.records) ∧ memoryRecords z b = decodeMemory (memC.enc o.records) := by
    intro o b hb
    unfold toRaw at hb
    unfold memoryRecords uncompressed
    split at hb
    · cases hb
    · rename_i c hc
      injection hb with hb
      subst hb
      dsimp only
      rw [hc]
      dsimp only
      unfold Compressor.run
      by_cases h0 : c = 0
      · rw [if_pos h0, if_pos h0, if_pos h0]; exact ⟨rfl, rfl⟩
      · rw [if_neg h0, if_neg h0, if_neg h0, hz]; exact ⟨rfl, rfl⟩
  rw [(key o b hb).1, (key o b hb).2, (key o' b' hb').1, (key o' b' hb').2, h]
  exact ⟨rfl, rfl⟩

private theorem loop_raw {σ : Type} {z : Compressor} {f : Chain σ} {s : σ} {m : List (Batch Bytes)} {o : Batch (List Record)}
    {e : Bool} (hm : (loop z f s start m).2 = some (o, e)) : ∃ b, toRaw z o = some b := by
  have hk := loop_known z f m s start (by rw [start_compression]; rfl) (loop z f s start m).1 o e (by rw [← hm])
  unfold toRaw
  cases hc : o.header.compression with
  | none => rw [hc] at hk; cases hk
  | some c => exact ⟨_, rfl⟩

/-- **C84, transparent**: SmartModules and consumers do not see the compression. For requests with the same batches up to
compression, either the chain fails on both, or the batches which take their place are the same up to compression, and
consumers decode them with the same result. -/
theorem C84_transparent {σ : Type} (z : Compressor) (hz : ∀ c bs, z.uncompress c (z.compress c bs) = some bs)
    (f : Chain σ) (s : σ) (l l' : List (Batch Bytes)) (h : AllSamePlain z l l') :
    (applySm z f s l = none ∧ applySm z f s l' = none) ∨
    ∃ b b', applySm z f s l = some [b] ∧ applySm z f s l' = some [b'] ∧ b.baseOffset = b'.baseOffset ∧
      b.header.lastOffsetDelta = b'.header.lastOffsetDelta ∧ uncompressed z b = uncompressed z b' ∧
      memoryRecords z b = memoryRecords z b' := by
  obtain ⟨_, ⟨h1, h2⟩ | ⟨p, p', e, h1, h2, g1, g2, g3⟩⟩ := alike_loop f l l' h s start start ⟨rfl, rfl, rfl⟩
  · left
    unfold applySm
    rw [h1, h2]
    exact ⟨rfl, rfl⟩
  · cases e with
    | true =>
      left
      unfold applySm
      rw [h1, h2]
      exact ⟨rfl, rfl⟩
    | false =>
      right
      obtain ⟨b, hb⟩ := loop_raw h1
      obtain ⟨b', hb'⟩ := loop_raw h2
      obtain ⟨k1, k2⟩ := raw_alike hz hb hb' g2
      have base : ∀ (o : Batch (List Record)) (b : Batch Bytes), toRaw z o = some b → b.baseOffset = o.baseOffset := by
        intro o b hb
        unfold toRaw at hb
        split at hb
        · cases hb
        · injection hb with hb; rw [← hb]
      refine ⟨b, b', ?_, ?_, ?_, ?_, k1, k2⟩
      · unfold applySm; rw [h1]; dsimp only; rw [hb]; rfl
      · unfold applySm; rw [h2]; dsimp only; rw [hb']; rfl
      · rw [base _ _ hb, base _ _ hb', g1]
      · rw [toRaw_some hb, toRaw_some hb', g3]

example : (∀ c bs, tagging.uncompress c (tagging.compress c bs) = some bs) ∧
    AllSamePlain tagging [raw 1 [1, 5], raw 2 [2, 6]] [raw 0 [5], raw 1 [1, 6]] ∧
    (applySm tagging every 0 [raw 1 [1, 5], raw 2 [2, 6]]).isSome := by
  refine ⟨?_, .cons ⟨rfl, rfl, rfl, ?_⟩ (.cons ⟨rfl, rfl, rfl, ?_⟩ .nil), ?_⟩
  · intro c bs; simp [tagging]
  · decide +kernel
  · decide +kernel
  · decide +kernel

/-- **Specification.** The keys and values which a chain makes of batches, one after the other; `none` if it fails or a
batch cannot be uncompressed. -/
def chainOutput {σ : Type} (z : Compressor) (f : Chain σ) (s : σ) : List (Batch Bytes) → Option (List (Option Bytes × Bytes))
  | [] => some []
  | b :: l =>
    match uncompressed z b with
    | none => none
    | some bs =>
      match f s b.baseOffset b.header.firstTimestamp bs with
      | (s', some (rs, false)) => (chainOutput z f s' l).map (rs.map (fun r => (r.key, r.value)) ++ ·)
      | _ => none

private theorem addTo_kv (o : Batch (List Record)) (b : Batch Bytes) (rs : List Record) :
    (addTo o b rs).records.map (fun r => (r.key, r.value)) =
      o.records.map (fun r => (r.key, r.value)) ++ rs.map (fun r => (r.key, r.value)) := by
  have hm : ∀ k (rs : List Record), (rs.map (addBase k)).map (fun r => (r.key, r.value)) = rs.map (fun r => (r.key, r.value)) := by
    intro k rs; rw [List.map_map]; rfl
  unfold addTo
  dsimp only
  cases rs with
  | nil =>
    simp only [List.isEmpty_nil, if_true, List.map_nil, List.append_nil]
    split <;> rfl
  | cons r rs =>
    simp only [List.isEmpty_cons, Bool.false_eq_true, if_false]
    by_cases h : o.baseOffset = -1#64
    · simp only [if_pos h]
      split <;> rw [List.map_append, hm]
    · simp only [if_neg h]
      rw [List.map_append, hm]

private theorem loop_kv {σ : Type} {z : Compressor} (f : Chain σ) : ∀ (l : List (Batch Bytes)) (s : σ)
    (o : Batch (List Record)) out, chainOutput z f s l = some out →
    ∃ o', (loop z f s o l).2 = some (o', false) ∧
      o'.records.map (fun r => (r.key, r.value)) = o.records.map (fun r => (r.key, r.value)) ++ out := by
  intro l
  induction l with
  | nil => intro s o out h; injection h with h; subst h; exact ⟨o, rfl, by simp⟩
  | cons b l ih =>
    intro s o out h
    unfold chainOutput at h
    unfold loop
    cases hu : uncompressed z b with
    | none => rw [hu] at h; cases h
    | some bs =>
      rw [hu] at h
      dsimp only at h ⊢
      split at h
      · rename_i s' rs hf
        cases hc : chainOutput z f s' l with
        | none => rw [hc] at h; cases h
        | some rest =>
          rw [hc] at h
          injection h with h
          obtain ⟨o', h1, h2⟩ := ih s' (addTo o b rs) rest hc
          rw [hf]
          refine ⟨o', h1, ?_⟩
          rw [h2, addTo_kv, ← h, List.append_assoc]
      · cases h

/-- **C84, readable**: what SmartModules make of a request's batches, whatever their codecs, is what consumers find in
the batch which takes their place: the same keys and values in the same order (if the records can be encoded at all). -/
theorem C84_readable {σ : Type} (z : Compressor) (hz : ∀ c bs, z.uncompress c (z.compress c bs) = some bs)
    (f : Chain σ) (s : σ) (l : List (Batch Bytes)) (out : List (Option Bytes × Bytes))
    (h : chainOutput z f s l = some out) :
    ∃ b rs, applySm z f s l = some [b] ∧ rs.map (fun r : Record => (r.key, r.value)) = out ∧
      uncompressed z b = some (memC.enc rs) ∧ (memC.wf rs → memoryRecords z b = .ok rs) := by
  obtain ⟨o, h1, h2⟩ := loop_kv f l s start out h
  obtain ⟨b, hb⟩ := loop_raw h1
  refine ⟨b, o.records, ?_, by rw [h2]; rfl, ?_⟩
  · unfold applySm; rw [h1]; dsimp only; rw [hb]; rfl
  · unfold toRaw at hb
    unfold memoryRecords uncompressed
    split at hb
    · cases hb
    · rename_i c hc
      injection hb with hb
      subst hb
      dsimp only
      rw [hc]
      dsimp only
      unfold Compressor.run
      by_cases h0 : c = 0
      · rw [if_pos h0, if_pos h0, if_pos h0]; exact ⟨rfl, fun hw => decodeMemory_enc _ hw⟩
      · rw [if_neg h0, if_neg h0, if_neg h0, hz]; exact ⟨rfl, fun hw => decodeMemory_enc _ hw⟩

example : chainOutput tagging every 0 [raw 1 [1, 5], raw 2 [2, 6]] = some [(none, [7]), (none, [7])] := by decide +kernel

end Verif.Props
