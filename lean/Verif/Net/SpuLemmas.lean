import Verif.Net.Spu

/-!
# Lemmas about the messages of a broker
-/

namespace Verif.Net.Spu
open Verif.Wire

/-! ## Specification vocabulary -/

/-- **Specification.** Parameters of a SmartModule: the look-back exists from version 20, its age from 21. -/
def paramsSeen (v : Int) (p : List (String × String) × Option (BitVec 64 × Option (BitVec 64 × BitVec 32))) :
    List (String × String) × Option (BitVec 64 × Option (BitVec 64 × BitVec 32)) :=
  (p.1, if 20 ≤ v then p.2.map fun l => (l.1, if 21 ≤ v then l.2 else none) else none)

/-- **Specification.** Invocation of a SmartModule: its name is sent from version 25. -/
def invSeen (v : Int) (i : Invocation) : Invocation :=
  (i.1, i.2.1, paramsSeen v i.2.2.1, if 25 ≤ v then i.2.2.2 else none)

/-- **Specification.** What version `v` can express of a request. -/
def reqSeen (v : Int) : (a : Api) → a.Req → a.Req
  | .apiVersion, x => if 1 ≤ v then x else ("", "", "")
  | .produce, x =>
    { x with
      timeout := x.timeout - x.timeout % 1000000
      topics := x.topics.map fun t =>
        { t with partitions := t.partitions.map fun p => { p with records := p.records.map (asWritten rawC) } }
      smartmodules := x.smartmodules.map (invSeen v) }
  | .fetch, x =>
    { x with
      maxBytes := if 3 ≤ v then x.maxBytes else 0
      isolation := if 4 ≤ v then x.isolation else .inl ()
      topics := x.topics.map fun t => (t.1, t.2.map fun p =>
        { p with epoch := if 9 ≤ v then p.epoch else 0, logStart := if 5 ≤ v then p.logStart else 0 })
      forgotten := if 7 ≤ v then x.forgotten else [] }
  | .fetchOffsets, x => (x.1, if v = 23 then x.2 else none)
  | .streamFetch, x =>
    { x with
      wasm := if 11 ≤ v ∧ v ≤ 18 then x.wasm else []
      smartmodule := if 16 ≤ v ∧ v ≤ 18 then x.smartmodule.map (invSeen v) else none
      derivedstream := if 16 ≤ v ∧ v ≤ 18 then x.derivedstream.map fun d => (d.1, paramsSeen v d.2) else none
      smartmodules := if 18 ≤ v then x.smartmodules.map (invSeen v) else []
      consumerId := if 23 ≤ v then x.consumerId else none }
  | .fetchConsumerOffsets, x => if 24 ≤ v then x else none
  | .updateOffsets, x => x
  | .updateConsumerOffset, x => x
  | .deleteConsumerOffset, x => x
  | .startMirror, x => x

/-- **Specification.** A text is shorter than 32 KiB. -/
abbrev short (s : String) : Prop := s.utf8ByteSize < 2 ^ 15

/-- **Specification.** A list has fewer than 2³¹ elements, each of which is all right. -/
abbrev listFits {α : Type} (f : α → Prop) (l : List α) : Prop := l.length < 2 ^ 31 ∧ ∀ x ∈ l, f x

/-- **Specification.** … -/
abbrev optFits {α : Type} (f : α → Prop) (o : Option α) : Prop := ∀ x, o = some x → f x

/-- **Specification.** Less than 2 GiB of batches, none of them marked as having a schema. -/
def batchesFit (bs : List (Batch Bytes)) : Prop :=
  (bs.map fun b => 57 + b.records.length).sum < 2 ^ 31 ∧ ∀ b ∈ bs, b.header.hasSchema = false

/-- **Specification.** Parameters: fewer than 2¹⁶, in the order of their names, texts short, the age normalised. -/
def paramsFit (p : List (String × String) × Option (BitVec 64 × Option (BitVec 64 × BitVec 32))) : Prop :=
  p.1.length < 2 ^ 16 ∧ (∀ e ∈ p.1, short e.1 ∧ short e.2) ∧ (p.1.Pairwise fun a b => a.1 < b.1) ∧
    optFits (fun l => optFits (fun d => d.2.toNat < 1000000000) l.2) p.2

/-- **Specification.** The accumulator of an aggregate, names of a join. -/
def contextFits : Unit ⊕ List (BitVec (8 * 1)) ⊕ String ⊕ (String × String) ⊕ Empty → Prop
  | .inl () => True
  | .inr (.inl acc) => acc.length < 2 ^ 31
  | .inr (.inr (.inl s)) => short s
  | .inr (.inr (.inr (.inl p))) => short p.1 ∧ short p.2

/-- **Specification.** … -/
def kindFits : Unit ⊕ Unit ⊕ Unit ⊕ List (BitVec (8 * 1)) ⊕ Unit ⊕ String ⊕ (String × String) ⊕
    (Unit ⊕ List (BitVec (8 * 1)) ⊕ String ⊕ (String × String) ⊕ Empty) ⊕ Empty → Prop
  | .inl () => True
  | .inr (.inl ()) => True
  | .inr (.inr (.inl ())) => True
  | .inr (.inr (.inr (.inl acc))) => acc.length < 2 ^ 31
  | .inr (.inr (.inr (.inr (.inl ())))) => True
  | .inr (.inr (.inr (.inr (.inr (.inl s))))) => short s
  | .inr (.inr (.inr (.inr (.inr (.inr (.inl p)))))) => short p.1 ∧ short p.2
  | .inr (.inr (.inr (.inr (.inr (.inr (.inr (.inl c))))))) => contextFits c

/-- **Specification.** … -/
def wasmFits : String ⊕ List (BitVec (8 * 1)) ⊕ Empty → Prop
  | .inl s => short s
  | .inr (.inl code) => code.length < 2 ^ 31

/-- **Specification.** … -/
def invFits (i : Invocation) : Prop :=
  wasmFits i.1 ∧ kindFits i.2.1 ∧ paramsFit i.2.2.1 ∧ optFits short i.2.2.2

/-- **Specification.** Texts are shorter than 32 KiB, lists than 2³¹. -/
def reqFits : (a : Api) → a.Req → Prop
  | .apiVersion, x => short x.1 ∧ short x.2.1 ∧ short x.2.2
  | .produce, x => optFits short x.transactionalId ∧
      listFits (fun t => short t.name ∧ listFits (fun p => batchesFit p.records) t.partitions) x.topics ∧
      listFits invFits x.smartmodules
  | .fetch, x => listFits (fun t => short t.1 ∧ t.2.length < 2 ^ 31) x.topics ∧
      listFits (fun t => short t.1 ∧ t.2.length < 2 ^ 31) x.forgotten
  | .fetchOffsets, x => listFits (fun t => short t.1 ∧ t.2.length < 2 ^ 31) x.1 ∧ optFits short x.2
  | .streamFetch, x => short x.topic ∧ x.wasm.length < 2 ^ 31 ∧ optFits invFits x.smartmodule ∧
      optFits (fun d => short d.1 ∧ paramsFit d.2) x.derivedstream ∧ listFits invFits x.smartmodules ∧
      optFits short x.consumerId
  | .updateOffsets, x => x.length < 2 ^ 31
  | .updateConsumerOffset, _ => True
  | .deleteConsumerOffset, x => short x.1.1 ∧ short x.2
  | .fetchConsumerOffsets, x => optFits (fun f => optFits (fun k => short k.1) f.1 ∧ optFits short f.2) x
  | .startMirror, x => short x.1 ∧ short x.2

/-- **Specification.** The next filter offset is sent from version 11. -/
def partSeen (v : Int) (p : FetchPartition ErrorCode (List (Batch Bytes))) :
    FetchPartition ErrorCode (List (Batch Bytes)) :=
  { p with nextFilter := if 11 ≤ v then p.nextFilter else 0, records := p.records.map (asWritten rawC) }

/-- **Specification.** … -/
def partFits (p : FetchPartition ErrorCode (List (Batch Bytes))) : Prop :=
  p.error.fits ∧ optFits (fun l => l.length < 2 ^ 31) p.aborted ∧ batchesFit p.records

/-- **Specification.** What version `v` can express of an answer. -/
def respSeen (v : Int) : (a : Api) → a.Resp → a.Resp
  | .apiVersion, y => y
  | .produce, y => (y.1.map fun t => (t.1, t.2.map fun p =>
      { p with appendTime := if 2 ≤ v then p.appendTime else 0, logStart := if 5 ≤ v then p.logStart else 0 }),
      if 1 ≤ v then y.2 else 0)
  | .fetch, y => { y with topics := y.topics.map fun t => { t with partitions := t.partitions.map (partSeen v) } }
  | .streamFetch, y => { y with partition := partSeen v y.partition }
  | .fetchOffsets, y => y
  | .updateOffsets, y => y
  | .updateConsumerOffset, y => y
  | .deleteConsumerOffset, y => y
  | .fetchConsumerOffsets, y => y
  | .startMirror, y => y

/-- **Specification.** … and the announced platform version is one. -/
def respFits (semver : String → Bool) : (a : Api) → a.Resp → Prop
  | .apiVersion, y => y.1.fits ∧ y.2.1.length < 2 ^ 31 ∧ short y.2.2 ∧ semver y.2.2 = true
  | .produce, y => listFits (fun t => short t.1 ∧ listFits (fun p => p.error.fits) t.2) y.1
  | .fetch, y => y.error.fits ∧ listFits (fun t => short t.name ∧ listFits partFits t.partitions) y.topics
  | .streamFetch, y => short y.topic ∧ partFits y.partition
  | .fetchOffsets, y => listFits (fun t => short t.1 ∧ listFits (fun p => p.1.fits) t.2) y
  | .updateOffsets, y => listFits (fun p => p.2.fits) y
  | .updateConsumerOffset, y => y.2.fits
  | .deleteConsumerOffset, y => ErrorCode.fits y
  | .fetchConsumerOffsets, y => y.1.fits ∧ listFits (fun c => short c.1 ∧ short c.2.1.1) y.2
  | .startMirror, _ => True

/-! ## Formats that transmit part of a value -/

/-- Values satisfying `fits` arrive as `seen`, and their size is announced correctly. -/
structure Sends {α : Type} (c : Codec α) (seen : α → α) (fits : α → Prop) : Prop where
  dec : ∀ x, fits x → ∀ rest, c.dec (c.enc x ++ rest) = .ok (seen x, rest)
  size : ∀ x, fits x → c.size x = (c.enc x).length

variable {α β : Type}

theorem Sends.ofRt {c : Codec α} (h : RoundTrips c) : Sends c (fun x => x) c.wf :=
  ⟨fun x hx rest => h.roundtrip x rest hx, fun x hx => h.size_eq x hx⟩

theorem Sends.mono {c : Codec α} {s s' : α → α} {f f' : α → Prop} (h : Sends c s f) (hf : ∀ x, f' x → f x)
    (hs : ∀ x, f' x → s x = s' x) : Sends c s' f' :=
  ⟨fun x hx rest => by rw [← hs x hx]; exact h.dec x (hf x hx) rest, fun x hx => h.size x (hf x hx)⟩

theorem Sends.string : Sends stringC (fun x => x) short :=
  (Sends.ofRt stringC_lawful.toRoundTrips).mono (fun _ h => string_wf h) fun _ _ => rfl

theorem Sends.int (n : Nat) : Sends (intC n) (fun x => x) (fun _ => True) :=
  (Sends.ofRt (intC_lawful n).toRoundTrips).mono (fun _ h => h) fun _ _ => rfl

theorem Sends.pair {a : Codec α} {b : Codec β} {sa : α → α} {sb : β → β} {fa : α → Prop} {fb : β → Prop}
    (ha : Sends a sa fa) (hb : Sends b sb fb) :
    Sends (pairC a b) (fun x => (sa x.1, sb x.2)) (fun x => fa x.1 ∧ fb x.2) where
  dec x hx rest := by
    simp only [pairC, List.append_assoc]
    rw [Dec.bind_ok (ha.dec x.1 hx.1 _), Dec.bind_ok (hb.dec x.2 hx.2 _)]
    rfl
  size x hx := by simp only [pairC, List.length_append, ha.size _ hx.1, hb.size _ hx.2]

theorem Sends.option {c : Codec α} {s : α → α} {f : α → Prop} (h : Sends c s f) :
    Sends (optionC c) (fun o => o.map s) (optFits f) where
  dec v hx rest := by
    cases v with
    | none => rfl
    | some v =>
      simp only [optionC, List.append_assoc]
      rw [Dec.bind_ok (boolC_lawful.roundtrip true _ trivial), if_pos rfl, Dec.bind_ok (h.dec v (hx v rfl) rest)]
      rfl
  size v hx := by
    cases v with
    | none => rfl
    | some v => simp only [optionC, List.length_append, h.size v (hx v rfl)]; rfl

theorem decN_sends {c : Codec α} {s : α → α} {f : α → Prop} (h : Sends c s f) (rest : Bytes) :
    ∀ vs : List α, (∀ v ∈ vs, f v) → decN c.dec vs.length (vs.flatMap c.enc ++ rest) = .ok (vs.map s, rest)
  | [], _ => rfl
  | v :: vs, hv => by
    simp only [List.length_cons, decN, List.flatMap_cons, List.append_assoc]
    rw [Dec.bind_ok (h.dec v (hv v (by simp)) _),
      Dec.bind_ok (decN_sends h rest vs fun w hw => hv w (by simp [hw]))]
    rfl

theorem foldl_sends {c : Codec α} {s : α → α} {f : α → Prop} (h : Sends c s f) : ∀ (vs : List α) (k : Nat),
    (∀ v ∈ vs, f v) → vs.foldl (fun sum v => sum + c.size v) k = k + (vs.flatMap c.enc).length
  | [], k, _ => by simp
  | v :: vs, k, hv => by
    simp only [List.foldl_cons, List.flatMap_cons, List.length_append]
    rw [foldl_sends h vs _ (fun w hw => hv w (by simp [hw])), h.size v (hv v (by simp))]
    omega

theorem Sends.vec {c : Codec α} {s : α → α} {f : α → Prop} (h : Sends c s f) :
    Sends (vecC c) (fun l => l.map s) (listFits f) where
  dec vs hx rest := by
    obtain ⟨hl, hw⟩ := hx
    simp only [vecC, List.append_assoc]
    rw [Dec.bind_ok (intDec_beEnc 4 _ _)]
    have hi := ofNat_toInt_small (8 * 4) vs.length (by omega)
    rw [hi]
    by_cases h0 : vs.length = 0
    · rw [if_pos (by omega), List.length_eq_zero_iff.1 h0]; rfl
    · rw [if_neg (by omega)]
      exact decN_sends h rest vs hw
  size vs hx := by
    simp only [vecC, List.length_append, beEnc_length]
    exact foldl_sends h vs 4 hx.2

theorem Sends.field {c : Codec α} {s : α → α} {f : α → Prop} (min : Int) (max : Option Int) (ver : Int) (d : α)
    (h : Sends c s f) : Sends (fieldC min max ver c d) (fun x => if inVersion min max ver then s x else d) f := by
  cases hv : inVersion min max ver with
  | true => rw [fieldC_in _ _ hv]; exact h.mono (fun _ hx => hx) fun x _ => by simp
  | false =>
    rw [fieldC_out _ _ hv]
    exact ⟨fun x _ rest => by simp [absentC, Dec.pure], fun _ _ => rfl⟩

theorem Sends.struct {to : β → α} {back : α → β} {c : Codec α} {s : α → α} {f : α → Prop} (h : Sends c s f) :
    Sends (structC to back c) (fun v => back (s (to v))) (fun v => f (to v)) where
  dec v hx rest := by
    show (c.dec.bind fun a => Dec.pure (back a)) (c.enc (to v) ++ rest) = _
    rw [Dec.bind_ok (h.dec _ hx rest)]
    rfl
  size v hx := h.size _ hx

theorem Sends.ofTy (t : Ty α) (ho : t.ok) (hk : t.keysPlain) (ver : Int) :
    Sends (t.codec ver) (t.seenAt ver) (t.fits ver) where
  dec x hx rest := by
    obtain ⟨w, e, -⟩ := t.seenAt_wf ver hk x hx
    rw [← e]
    exact (t.lawful ver ho).roundtrip _ rest w
  size x hx := by
    obtain ⟨w, e, s⟩ := t.seenAt_wf ver hk x hx
    rw [← e, ← s]
    exact (t.lawful ver ho).size_eq _ w

/-! ## Parts -/

theorem errorCode_sends : Sends errorCodeC (fun e => e) ErrorCode.fits where
  dec e h rest := by
    simp only [errorCodeC, List.append_assoc]
    rw [Dec.bind_ok (intDec_intEnc 2 _ _)]
    have ht : (BitVec.ofInt (8 * 2) e.tag).toInt = e.tag := by cases e <;> rfl
    rw [ht]
    exact errorCodeDec_tag e h rest
  size e h := by
    simp only [errorCodeC, List.length_append, intEnc_length, payload_size e h]

theorem flatMap_length (bs : List (Batch Bytes)) (hs : ∀ b ∈ bs, b.header.hasSchema = false) :
    (bs.flatMap (encBatch rawC)).length = (bs.map fun b => 57 + b.records.length).sum := by
  induction bs with
  | nil => rfl
  | cons b bs ih =>
    simp only [List.flatMap_cons, List.length_append, List.map_cons, List.sum_cons]
    rw [ih fun x hx => hs x (by simp [hx]), encBatch_length rawC_law b trivial]
    simp only [calcBatchLen, hs b (by simp), Bool.false_eq_true, ↓reduceIte, batchHeaderSize]
    have : rawC.size b.records = b.records.length := rfl
    omega

theorem set_sends : Sends setC (fun bs => bs.map (asWritten rawC)) batchesFit where
  dec bs h rest := decSet_enc rawC_law bs rest (fun _ _ => trivial) (by rw [flatMap_length bs h.2]; exact h.1)
  size bs h := by
    have := sizeSet_eq rawC_law bs (fun _ _ => trivial)
    have hn : bs.filter (fun b => b.header.hasSchema) = [] := by
      rw [List.filter_eq_nil_iff]
      intro b hb; rw [h.2 b hb]; decide
    rw [hn] at this
    exact this

theorem params_sends (ver : Int) : Sends (Smart.paramsT.codec ver) (paramsSeen ver) paramsFit := by
  refine (Sends.ofTy Smart.paramsT Smart.paramsT_ok ⟨⟨trivial, trivial⟩, trivial, trivial⟩ ver).mono ?_ ?_
  · rintro ⟨m, l⟩ ⟨h1, h2, h3, h4⟩
    refine ⟨⟨h1, h2, ?_⟩, ?_⟩
    · exact h3.imp fun h => decide_eq_true h
    · intro _ x hx
      exact ⟨trivial, fun _ d hd => h4 x hx d hd⟩
  · rintro ⟨m, l⟩ -
    have hm : (m.map fun e => (e.1, e.2)) = m := List.map_id m
    simp only [Smart.paramsT, Ty.seenAt, paramsSeen, Option.mem_def]
    simp only [reduceCtorEq, false_implies, implies_true, and_true, Option.map_id_fun', id]
    rw [hm]

theorem wasm_ok : wasmT.ok := ⟨trivial, ⟨trivial, trivial, [], .nil, by simp⟩, [1], .cons _ _ _ .nil, by decide⟩

theorem isolation_ok : isolationT.ok :=
  ⟨trivial, ⟨trivial, trivial, [], .nil, by simp⟩, [1], .cons _ _ _ .nil, by decide⟩

theorem context_ok : contextT.ok :=
  ⟨trivial, ⟨trivial, ⟨trivial, ⟨⟨trivial, trivial⟩, trivial, [], .nil, by simp⟩, [3], .cons _ _ _ .nil, by decide⟩,
    [2, 3], .cons _ _ _ (.cons _ _ _ .nil), by decide⟩, [1, 2, 3], .cons _ _ _ (.cons _ _ _ (.cons _ _ _ .nil)), by decide⟩

theorem kind_ok : kindT.ok :=
  ⟨trivial, ⟨trivial, ⟨trivial, ⟨trivial, ⟨trivial, ⟨trivial, ⟨⟨trivial, trivial⟩, ⟨context_ok, trivial,
    [], .nil, by simp⟩,
    [7], .cons _ _ _ .nil, by decide⟩,
    [6, 7], .cons _ _ _ (.cons _ _ _ .nil), by decide⟩,
    [5, 6, 7], .cons _ _ _ (.cons _ _ _ (.cons _ _ _ .nil)), by decide⟩,
    [4, 5, 6, 7], .cons _ _ _ (.cons _ _ _ (.cons _ _ _ (.cons _ _ _ .nil))), by decide⟩,
    [3, 4, 5, 6, 7], .cons _ _ _ (.cons _ _ _ (.cons _ _ _ (.cons _ _ _ (.cons _ _ _ .nil)))), by decide⟩,
    [2, 3, 4, 5, 6, 7], .cons _ _ _ (.cons _ _ _ (.cons _ _ _ (.cons _ _ _ (.cons _ _ _ (.cons _ _ _ .nil))))), by decide⟩,
    [1, 2, 3, 4, 5, 6, 7],
    .cons _ _ _ (.cons _ _ _ (.cons _ _ _ (.cons _ _ _ (.cons _ _ _ (.cons _ _ _ (.cons _ _ _ .nil)))))), by decide⟩

theorem isolation_sends (ver : Int) : Sends (isolationT.codec ver) (fun x => x) (fun _ => True) := by
  refine (Sends.ofTy isolationT isolation_ok ⟨trivial, trivial, trivial⟩ ver).mono ?_ ?_
  · rintro (_ | _ | x) - <;> first | exact trivial | exact nomatch x
  · rintro (_ | _ | x) - <;> first | rfl | exact nomatch x

theorem wasm_sends (ver : Int) : Sends (wasmT.codec ver) (fun x => x) wasmFits := by
  have hu : wasmT.unversioned := ⟨trivial, trivial, trivial⟩
  refine (Sends.ofTy wasmT wasm_ok (wasmT.unversioned_keysPlain hu) ver).mono ?_
    (fun x _ => wasmT.seenAt_unversioned ver hu x)
  rintro (s | c | x) h
  · exact h
  · exact ⟨h, fun _ _ => trivial⟩
  · exact nomatch x

theorem context_fits (ver : Int) : ∀ x, contextFits x → contextT.fits ver x := by
  rintro (_ | c | s | p | x) h
  · exact trivial
  · exact ⟨h, fun _ _ => trivial⟩
  · exact h
  · exact h
  · exact nomatch x

theorem kind_sends (ver : Int) : Sends (kindT.codec ver) (fun x => x) kindFits := by
  have hu : kindT.unversioned := ⟨trivial, trivial, trivial, trivial, trivial, trivial, ⟨trivial, trivial⟩,
    ⟨trivial, trivial, trivial, ⟨trivial, trivial⟩, trivial⟩, trivial⟩
  refine (Sends.ofTy kindT kind_ok (kindT.unversioned_keysPlain hu) ver).mono ?_
    (fun x _ => kindT.seenAt_unversioned ver hu x)
  rintro (_ | _ | _ | c | _ | s | p | c | x) h
  · exact trivial
  · exact trivial
  · exact trivial
  · exact ⟨h, fun _ _ => trivial⟩
  · exact trivial
  · exact h
  · exact h
  · exact context_fits ver c h
  · exact nomatch x

theorem inVersion_none (min ver : Int) : inVersion min none ver = decide (min ≤ ver) := rfl

theorem invocation_sends (ver : Int) : Sends (invocationT.codec ver) (invSeen ver) invFits :=
  ((wasm_sends ver).pair ((kind_sends ver).pair ((params_sends ver).pair
    ((Sends.string.option).field 25 none ver none)))).mono (fun _ h => h) fun x _ => by
      simp only [invSeen, inVersion_none, decide_eq_true_eq, Option.map_id_fun', id]

/-! ## Requests -/

theorem topic_sends {P : Type} {c : Codec P} {s : P → P} {f : P → Prop} (h : Sends c s f) :
    Sends (topicC c) (fun t => { t with partitions := t.partitions.map s })
      (fun t => short t.name ∧ listFits f t.partitions) :=
  (Sends.string.pair h.vec).struct

theorem producePart_sends : Sends (producePartitionC setC)
    (fun p => { p with records := p.records.map (asWritten rawC) }) (fun p => batchesFit p.records) :=
  (((Sends.int 4).pair set_sends).struct).mono (fun _ h => ⟨trivial, h⟩) fun _ _ => rfl

theorem produceRaw_sends (ver : Int) : Sends (produceRequestC (invocationT.codec ver) setC)
    (fun r => { r with
      topics := r.topics.map fun t =>
        { t with partitions := t.partitions.map fun p => { p with records := p.records.map (asWritten rawC) } }
      smartmodules := r.smartmodules.map (invSeen ver) })
    (fun r => optFits short r.transactionalId ∧
      listFits (fun t => short t.name ∧ listFits (fun p => batchesFit p.records) t.partitions) r.topics ∧
      listFits invFits r.smartmodules) :=
  ((Sends.string.option.pair ((Sends.int 2).pair ((Sends.int 4).pair
    ((topic_sends producePart_sends).vec.pair (invocation_sends ver).vec)))).struct).mono
    (fun _ h => ⟨h.1, trivial, trivial, h.2.1, h.2.2⟩) fun x _ => by
      simp only [Option.map_id_fun', id]

theorem produce_sends (ver : Int) : Sends (produceC ver) (reqSeen ver .produce)
    (fun x => encodable .produce x = true ∧ reqFits .produce x) where
  dec x h rest := by
    have ht : x.timeout / 1000000 < 2 ^ 31 := of_decide_eq_true h.1
    have hr := (produceRaw_sends ver).dec x.raw h.2 rest
    unfold produceC
    dsimp only
    rw [Dec.bind_ok hr]
    have hi := ofNat_toInt_small 32 (x.timeout / 1000000) (by omega)
    have hn : (BitVec.ofNat 32 (x.timeout / 1000000)).toNat = x.timeout / 1000000 := by
      rw [BitVec.toNat_ofNat]; exact Nat.mod_eq_of_lt (by omega)
    simp only [Produce.raw, hi, hn]
    rw [if_neg (by omega)]
    simp only [Dec.pure, reqSeen, Except.ok.injEq, Prod.mk.injEq, and_true]
    have h1 : x.timeout / 1000000 * 1000000 = x.timeout - x.timeout % 1000000 := by omega
    rw [h1]
    have hb : ∀ c : Bool, decide ((if c = true then (-1 : BitVec 16) else 1).toInt < 0) = c := by decide
    congr 1
    exact hb _
  size x h := (produceRaw_sends ver).size x.raw h.2

theorem fetchPart_sends (ver : Int) : Sends (fetchPartC ver)
    (fun p => { p with epoch := if 9 ≤ ver then p.epoch else 0, logStart := if 5 ≤ ver then p.logStart else 0 })
    (fun _ => True) :=
  (((Sends.int 4).pair (((Sends.int 4).field 9 none ver 0).pair ((Sends.int 8).pair
    (((Sends.int 8).field 5 none ver 0).pair (Sends.int 4))))).struct).mono
    (fun _ _ => ⟨trivial, trivial, trivial, trivial, trivial⟩) fun x _ => by
      simp only [inVersion_none, decide_eq_true_eq]

theorem forgotten_sends (ver : Int) : Sends (forgottenT.codec ver)
    (fun x => (if 7 ≤ ver then x.1 else "", if 7 ≤ ver then x.2 else []))
    (fun x => short x.1 ∧ x.2.length < 2 ^ 31) := by
  have h1 := (Sends.string.field 7 none ver "").pair ((Sends.int 4).vec.field 7 none ver [])
  have h2 : forgottenT.codec ver =
      pairC (fieldC 7 none ver stringC "") (fieldC 7 none ver (vecC (intC 4)) []) := rfl
  rw [h2]
  refine Sends.mono h1 ?_ ?_
  · rintro ⟨n, l⟩ ⟨hn, hl⟩
    exact ⟨hn, hl, fun _ _ => trivial⟩
  · rintro ⟨n, l⟩ -
    simp only [inVersion_none, decide_eq_true_eq, List.map_id']

theorem fetch_sends (ver : Int) : Sends (fetchC ver) (reqSeen ver .fetch) (reqFits .fetch) := by
  have h1 := (isolation_sends ver).field 4 none ver (.inl ())
  have h2 := (Sends.string.pair (fetchPart_sends ver).vec).vec
  have h3 := (forgotten_sends ver).vec.field 7 none ver []
  have h4 := (Sends.int 4).pair ((Sends.int 4).pair (((Sends.int 4).field 3 none ver 0).pair (h1.pair (h2.pair h3))))
  unfold fetchC
  refine (Sends.struct h4).mono ?_ ?_
  · intro x h
    exact ⟨trivial, trivial, trivial, trivial,
      ⟨h.1.1, fun t ht => ⟨(h.1.2 t ht).1, (h.1.2 t ht).2, fun _ _ => trivial⟩⟩, h.2⟩
  · intro x _
    simp only [reqSeen, inVersion_none, decide_eq_true_eq]
    by_cases hv : 7 ≤ ver
    · simp only [if_pos hv]
      rw [List.map_id']
    · simp only [if_neg hv]

theorem inVersion_some (min max ver : Int) :
    (inVersion min (some max) ver = true) = (min ≤ ver ∧ ver ≤ max) := by
  simp [inVersion]

theorem streamFetch_sends (ver : Int) :
    Sends (streamFetchReqC ver) (reqSeen ver .streamFetch) (reqFits .streamFetch) := by
  refine ((Sends.string.pair ((Sends.int 4).pair ((Sends.int 8).pair ((Sends.int 4).pair
    ((isolation_sends ver).pair (((Sends.int 1).vec.field 11 (some 18) ver []).pair
    (((invocation_sends ver).option.field 16 (some 18) ver none).pair
    (((Sends.string.pair (params_sends ver)).option.field 16 (some 18) ver none).pair
    (((invocation_sends ver).vec.field 18 none ver []).pair
      (Sends.string.option.field 23 none ver none)))))))))).struct).mono ?_ ?_
  · intro x h
    exact ⟨h.1, trivial, trivial, trivial, trivial, ⟨h.2.1, fun _ _ => trivial⟩, h.2.2.1, h.2.2.2.1,
      h.2.2.2.2.1, h.2.2.2.2.2⟩
  · intro x _
    simp only [reqSeen, inVersion_none, inVersion_some, decide_eq_true_eq, List.map_id', Option.map_id_fun', id]

theorem req_sends (ver : Int) (a : Api) :
    Sends (reqC ver a) (reqSeen ver a) (fun x => encodable a x = true ∧ reqFits a x) := by
  cases a with
  | apiVersion =>
    refine ((Sends.string.field 1 none ver "").pair ((Sends.string.field 1 none ver "").pair
      (Sends.string.field 1 none ver ""))).mono (fun _ h => h.2) fun x _ => ?_
    simp only [reqSeen, inVersion_none, decide_eq_true_eq]
    split <;> rfl
  | produce => exact produce_sends ver
  | fetch => exact (fetch_sends ver).mono (fun _ h => h.2) fun _ _ => rfl
  | fetchOffsets =>
    refine ((Sends.string.pair (Sends.int 4).vec).vec.pair (Sends.string.option.field 23 (some 23) ver none)).mono
      (fun _ h => ⟨⟨h.2.1.1, fun t ht => ⟨(h.2.1.2 t ht).1, (h.2.1.2 t ht).2, fun _ _ => trivial⟩⟩, h.2.2⟩) fun x _ => ?_
    have hv : (23 ≤ ver ∧ ver ≤ 23) = (ver = 23) := by apply propext; omega
    simp only [reqSeen, inVersion_some, hv, List.map_id', Option.map_id_fun', id]
  | streamFetch => exact (streamFetch_sends ver).mono (fun _ h => h.2) fun _ _ => rfl
  | updateOffsets =>
    refine ((Sends.int 8).pair (Sends.int 4)).vec.mono (fun _ h => ⟨h.2, fun _ _ => ⟨trivial, trivial⟩⟩) fun x _ => ?_
    simp only [reqSeen, List.map_id']
  | updateConsumerOffset =>
    exact ((Sends.int 8).pair (Sends.int 4)).mono (fun _ _ => ⟨trivial, trivial⟩) fun x _ => rfl
  | deleteConsumerOffset =>
    exact ((Sends.string.pair (Sends.int 4)).pair Sends.string).mono (fun _ h => ⟨⟨h.2.1, trivial⟩, h.2.2⟩)
      fun x _ => rfl
  | fetchConsumerOffsets =>
    refine (((Sends.string.pair (Sends.int 4)).option.pair Sends.string.option).option.field 24 none ver none).mono
      (fun _ h x hx => ⟨fun k hk => ⟨(h.2 x hx).1 k hk, trivial⟩, (h.2 x hx).2⟩) fun x _ => ?_
    simp only [reqSeen, inVersion_none, decide_eq_true_eq, Option.map_id_fun', id]
  | startMirror => exact (Sends.string.pair Sends.string).mono (fun _ h => h.2) fun x _ => rfl

/-! ## Answers -/

theorem platform_sends (semver : String → Bool) :
    Sends (platformC semver) (fun x => x) (fun s => short s ∧ semver s = true) where
  dec s h rest := by
    simp only [platformC]
    rw [Dec.bind_ok (Sends.string.dec s h.1 rest), if_pos h.2]; rfl
  size s h := Sends.string.size s h.1

theorem producedPart_sends (ver : Int) : Sends (producedPartC ver)
    (fun p => { p with appendTime := if 2 ≤ ver then p.appendTime else 0,
                       logStart := if 5 ≤ ver then p.logStart else 0 })
    (fun p => p.error.fits) :=
  (((Sends.int 4).pair (errorCode_sends.pair ((Sends.int 8).pair (((Sends.int 8).field 2 none ver 0).pair
    ((Sends.int 8).field 5 none ver 0))))).struct).mono
    (fun _ h => ⟨trivial, h, trivial, trivial, trivial⟩) fun x _ => by
      simp only [inVersion_none, decide_eq_true_eq]

theorem fetchedPart_sends (ver : Int) : Sends (fetchPartitionC ver errorCodeC setC) (partSeen ver) partFits :=
  (((Sends.int 4).pair (errorCode_sends.pair ((Sends.int 8).pair (((Sends.int 8).field 11 none ver 0).pair
    ((Sends.int 8).pair (((Sends.int 8).pair (Sends.int 8)).vec.option.pair set_sends)))))).struct).mono
    (fun _ h => ⟨trivial, h.1, trivial, trivial, trivial,
      fun l hl => ⟨h.2.1 l hl, fun _ _ => ⟨trivial, trivial⟩⟩, h.2.2⟩) fun x _ => by
      simp only [partSeen, inVersion_none, decide_eq_true_eq, List.map_id', Option.map_id_fun', id]

theorem resp_sends (semver : String → Bool) (ver : Int) (a : Api) :
    Sends (respC semver ver a) (respSeen ver a) (respFits semver a) := by
  cases a with
  | apiVersion =>
    refine (errorCode_sends.pair (((Sends.int 2).pair ((Sends.int 2).pair (Sends.int 2))).vec.pair
      (platform_sends semver))).mono (fun _ h => ⟨h.1, ⟨h.2.1, fun _ _ => ⟨trivial, trivial, trivial⟩⟩, h.2.2⟩)
      fun x _ => ?_
    simp only [respSeen, List.map_id']
  | produce =>
    refine ((Sends.string.pair (producedPart_sends ver).vec).vec.pair ((Sends.int 4).field 1 none ver 0)).mono
      (fun _ h => ⟨h, trivial⟩) fun x _ => ?_
    simp only [respSeen, inVersion_none, decide_eq_true_eq]
  | fetch =>
    exact (((Sends.int 4).pair (errorCode_sends.pair ((Sends.int 4).pair
      (topic_sends (fetchedPart_sends ver)).vec))).struct).mono (fun _ h => ⟨trivial, h.1, trivial, h.2⟩)
      fun x _ => rfl
  | fetchOffsets =>
    refine (Sends.string.pair (errorCode_sends.pair ((Sends.int 4).pair ((Sends.int 8).pair (Sends.int 8)))).vec).vec.mono
      (fun _ h => ⟨h.1, fun t ht => ⟨(h.2 t ht).1, (h.2 t ht).2.1,
        fun p hp => ⟨(h.2 t ht).2.2 p hp, trivial, trivial, trivial⟩⟩⟩) fun x _ => ?_
    simp only [respSeen, List.map_id']
  | streamFetch =>
    exact ((Sends.string.pair ((Sends.int 4).pair (fetchedPart_sends ver))).struct).mono
      (fun _ h => ⟨h.1, trivial, h.2⟩) fun x _ => rfl
  | updateOffsets =>
    refine ((Sends.int 4).pair errorCode_sends).vec.mono (fun _ h => ⟨h.1, fun p hp => ⟨trivial, h.2 p hp⟩⟩) fun x _ => ?_
    simp only [respSeen, List.map_id']
  | updateConsumerOffset =>
    exact ((Sends.int 8).pair errorCode_sends).mono (fun _ h => ⟨trivial, h⟩) fun x _ => rfl
  | deleteConsumerOffset => exact errorCode_sends
  | fetchConsumerOffsets =>
    refine (errorCode_sends.pair (Sends.string.pair ((Sends.string.pair (Sends.int 4)).pair
      ((Sends.int 8).pair (Sends.int 8)))).vec).mono
      (fun _ h => ⟨h.1, h.2.1, fun c hc => ⟨(h.2.2 c hc).1, ⟨(h.2.2 c hc).2, trivial⟩, trivial, trivial⟩⟩) fun x _ => ?_
    simp only [respSeen, List.map_id']
  | startMirror =>
    exact (Sends.ofRt unitC_lawful.toRoundTrips).mono (fun _ _ => trivial) fun _ _ => rfl

/-! ## Messages -/

theorem header_sends : Sends reqHeaderC (fun h => h) (fun h => short h.clientId) :=
  (((Sends.int 2).pair ((Sends.int 2).pair ((Sends.int 4).pair Sends.string))).struct).mono
    (fun _ h => ⟨trivial, trivial, trivial, h⟩) fun _ _ => rfl

theorem ofKey_key (a : Api) : Api.ofKey a.key = some a := by cases a <;> rfl

theorem decodeRequest_of {h : Header} {a : Api} {bytes : Bytes} {x : a.Req} {rest : Bytes} (hc : short h.clientId)
    (hk : h.apiKey = a.key) (hd : (reqC h.apiVersion.toInt a).dec bytes = .ok (x, rest)) :
    decodeRequest (reqHeaderC.enc h ++ bytes) = .ok ((h, ⟨a, x⟩), rest) := by
  unfold decodeRequest
  rw [Dec.bind_ok (header_sends.dec h hc bytes), hk, ofKey_key a]
  dsimp only
  rw [Dec.bind_ok hd]
  rfl

theorem decodeResponse_of {semver : String → Bool} {h : Header} {a : Api} {bytes : Bytes} {y : a.Resp} {rest : Bytes}
    (hd : (respC semver h.apiVersion.toInt a).dec bytes = .ok (y, rest)) :
    decodeResponse semver h a ((intC 4).enc h.correlationId ++ bytes) = .ok ((h.correlationId, y), rest) := by
  unfold decodeResponse
  rw [Dec.bind_ok ((Sends.int 4).dec h.correlationId trivial bytes), Dec.bind_ok hd]
  rfl

end Verif.Net.Spu
