import Verif.Storage.LogSpec
import Verif.Wire.Batch
import Verif.Wire.PrefixSafe

/-!
# Log files as bytes: scanning and repair (`fluvio-storage/src/{batch,validator,segment}.rs`)

The broker stores raw batches (`Batch<RawRecords>`); here they are put in relation with the batch lists
of `Verif.Storage.Segment`.
-/

namespace Verif.Storage
open Verif.Wire

variable {α : Type}

/-- A raw batch as the storage sees it; `records` are the records a consumer gets out of it.  The base
offset is set when it is written (mut_records.rs / segment.rs:430), and `write_size` announces its
size. -/
def ofRaw (b : Batch Bytes) (records : List α) : SBatch α where
  delta := b.header.lastOffsetDelta.toInt
  records := records
  size := sizeBatch rawC b
  enc := fun base => encBatch rawC { b with baseOffset := BitVec.ofInt 64 base }

/-- `decode_from_file_buf` — fluvio-protocol/src/record/batch.rs:167-176 -/
def decFileHeader : Dec (BitVec 64 × BitVec 32 × BatchHeader) :=
  (intDec 8).bind fun base => (intDec 4).bind fun len => headerC.dec.bind fun h =>
    Dec.pure (base, len, h)

/-- Result of reading at some position of a log file. -/
inductive FileRead where
  /-- end of file -/
  | done
  /-- `NotEnoughHeader` or `NotEnoughContent` -/
  | short
  /-- `batch_len` smaller than a header (subtraction underflows) -/
  | panic
  | batch (base last : Int) (width : Nat)
deriving DecidableEq

/-- `FileBatchPos::read_from` for batch headers — storage/batch.rs:61-149, file.rs:48-70 (`bs`: the
bytes of the file from the position on) -/
def readFrom (bs : Bytes) : FileRead :=
  if bs.length = 0 then .done
  else if bs.length < 57 then .short
  else
    match decFileHeader bs with
    | .error _ => .panic
    | .ok ((base, len, h), rest) =>
      if asUsize len < batchHeaderSize then .panic
      else if rest.length < asUsize len - batchHeaderSize then .short
      else .batch base.toInt (base.toInt + h.lastOffsetDelta.toInt) (57 + (asUsize len - batchHeaderSize))

/-- A batch found in a file: base offset, last offset, position, length. -/
structure Found where
  base : Int
  last : Int
  pos : Nat
  width : Nat
deriving DecidableEq

inductive ScanEnd where
  | clean
  | torn
  | belowBase
  | panic
deriving DecidableEq

/-- `validate_with_stream` — validator.rs:107-211: the batches accepted, and how the scan ended. -/
def scan (segBase : Int) : Nat → Bytes → Nat → List Found × ScanEnd
  | 0, _, _ => ([], .panic)
  | fuel + 1, bs, pos =>
    match readFrom bs with
    | .done => ([], .clean)
    | .short => ([], .torn)
    | .panic => ([], .panic)
    | .batch base last w =>
      if base < segBase then ([], .belowBase)
      else
        let (l, e) := scan segBase fuel (bs.drop w) (pos + w)
        (⟨base, last, pos, w⟩ :: l, e)

/-- `LogValidator::leo` — validator.rs:213-220 -/
def foundLeo (segBase : Int) (l : List Found) : Int :=
  match l.getLast? with
  | none => segBase
  | some f => if f.last = -1 then segBase else f.last + 1

/-- `last_valid_file_pos` -/
def foundEnd (l : List Found) : Nat :=
  match l.getLast? with
  | none => 0
  | some f => f.pos + f.width

/-- `validate_and_repair` — segment.rs:354-381: the repaired file and the end offset; `none` when the
partition cannot be opened. -/
def repair (segBase : Int) (file : Bytes) : Option (Bytes × Int) :=
  let (l, e) := scan segBase (file.length + 1) file 0
  match e with
  | .clean => some (file, foundLeo segBase l)
  | .torn => some (file.take (foundEnd l), foundLeo segBase l)
  | .belowBase => none
  | .panic => none

/-! ## Reading what was written -/

/-- A stored batch whose bytes are those of a raw batch. -/
def IsRaw (b : Stored α) : Prop :=
  ∃ raw : Batch Bytes, b.batch.enc = (ofRaw raw b.batch.records).enc ∧
    b.batch.delta = (ofRaw raw b.batch.records).delta ∧ calcBatchLen rawC raw < 2 ^ 31

/-- Offsets fit the 64-bit field. -/
def Fits64 (x : Int) : Prop := -2 ^ 63 ≤ x ∧ x < 2 ^ 63

theorem ofInt64_toInt {x : Int} (h : Fits64 x) : (BitVec.ofInt 64 x).toInt = x := by
  obtain ⟨h1, h2⟩ := h
  rw [BitVec.toInt_ofInt, Int.bmod_def]
  omega

theorem decFileHeader_enc (raw : Batch Bytes) (rest : Bytes) :
    decFileHeader (intEnc 8 raw.baseOffset ++ (intEnc 4 (BitVec.ofNat 32 (calcBatchLen rawC raw)) ++
      (headerC.enc { raw.header with crc := crc32c (batchBody rawC raw) } ++ rest)))
    = .ok ((raw.baseOffset, BitVec.ofNat 32 (calcBatchLen rawC raw),
        { raw.header with crc := crc32c (batchBody rawC raw) }), rest) := by
  unfold decFileHeader
  rw [Dec.bind_ok (intDec_intEnc 8 _ _), Dec.bind_ok (intDec_intEnc 4 _ _),
    Dec.bind_ok (headerC_rt.roundtrip _ _ (headerC_wf _))]
  rfl

theorem calcBatchLen_ge (raw : Batch Bytes) : 45 ≤ calcBatchLen rawC raw := by
  unfold calcBatchLen batchHeaderSize; split <;> omega

theorem asUsize_ofNat {n : Nat} (h : n < 2 ^ 31) : asUsize (BitVec.ofNat 32 n) = n := by
  have hi := ofNat_toInt_small 32 n (by omega)
  have ht : (BitVec.ofNat 32 n).toNat = n := by
    rw [BitVec.toNat_ofNat]; exact Nat.mod_eq_of_lt (by omega)
  unfold asUsize; rw [hi, ht, if_neg (by omega)]

/-- A raw batch without schema id whose header announces its records is honest. -/
theorem ofRaw_honest {raw : Batch Bytes} {records : List α} (hs : raw.header.hasSchema = false)
    (h : (records.length : Int) = raw.header.lastOffsetDelta.toInt + 1) (h0 : records ≠ []) :
    HonestBatch (ofRaw raw records) := by
  have hpos : 0 < records.length := List.length_pos_iff.2 h0
  refine ⟨by show 0 ≤ raw.header.lastOffsetDelta.toInt; omega, h, ?_, fun e => ?_⟩
  · show 0 < sizeBatch rawC raw
    unfold sizeBatch batchPreambleSize; omega
  · show (encBatch rawC { raw with baseOffset := BitVec.ofInt 64 e }).length = sizeBatch rawC raw
    rw [encBatch_length rawC_law _ trivial]
    unfold sizeBatch calcBatchLen batchPreambleSize batchHeaderSize
    simp only [hs, Bool.false_eq_true, ↓reduceIte]
    omega

/-- The encoding is 57 header bytes and the content. -/
theorem encBatch_split (raw : Batch Bytes) : ∃ hdr body, encBatch rawC raw = hdr ++ body ∧
    hdr.length = 57 ∧ body.length + 45 = calcBatchLen rawC raw ∧
    ∀ rest, decFileHeader (hdr ++ rest) = .ok ((raw.baseOffset,
      BitVec.ofNat 32 (calcBatchLen rawC raw),
      { raw.header with crc := crc32c (batchBody rawC raw) }), rest) := by
  refine ⟨intEnc 8 raw.baseOffset ++ (intEnc 4 (BitVec.ofNat 32 (calcBatchLen rawC raw)) ++
      headerC.enc { raw.header with crc := crc32c (batchBody rawC raw) }),
    (if raw.header.hasSchema then intEnc 4 raw.schemaId else []) ++ rawC.enc raw.records, ?_, ?_, ?_, ?_⟩
  · rw [encBatch_eq]; simp only [List.append_assoc]
  · simp only [List.length_append, intEnc_length, headerC_enc_length]
  · have h1 := encBatch_length rawC_law raw trivial
    rw [encBatch_eq] at h1
    simp only [List.length_append, intEnc_length, headerC_enc_length] at h1 ⊢
    omega
  · intro rest
    simp only [List.append_assoc]
    exact decFileHeader_enc raw rest

theorem readFrom_enc (raw : Batch Bytes) (hlen : calcBatchLen rawC raw < 2 ^ 31) (rest : Bytes) :
    readFrom (encBatch rawC raw ++ rest) = .batch raw.baseOffset.toInt
      (raw.baseOffset.toInt + raw.header.lastOffsetDelta.toInt) (encBatch rawC raw).length := by
  obtain ⟨hdr, body, he, h1, h2, h3⟩ := encBatch_split raw
  have hge := calcBatchLen_ge raw
  rw [he, List.append_assoc]
  unfold readFrom
  rw [if_neg (by simp only [List.length_append]; omega),
    if_neg (by simp only [List.length_append]; omega), h3]
  simp only [asUsize_ofNat hlen, batchHeaderSize]
  rw [if_neg (by omega), if_neg (by simp only [List.length_append]; omega)]
  congr 1
  simp only [List.length_append]
  omega

theorem readFrom_torn (raw : Batch Bytes) (hlen : calcBatchLen rawC raw < 2 ^ 31) {p s : Bytes}
    (he : encBatch rawC raw = p ++ s) (hp : p ≠ []) (hs : s ≠ []) : readFrom p = .short := by
  obtain ⟨hdr, body, he', h1, h2, h3⟩ := encBatch_split raw
  have hpl : p.length ≠ 0 := by simpa using hp
  unfold readFrom
  rw [if_neg hpl]
  by_cases hshort : p.length < 57
  · rw [if_pos hshort]
  · rw [if_neg hshort]
    have hpre : p = hdr ++ p.drop 57 := by
      have e := he'.symm.trans he
      have e1 := congrArg (List.take 57) e
      rw [List.take_left' h1, List.take_append_of_le_length (by omega)] at e1
      conv => lhs; rw [← List.take_append_drop 57 p]
      rw [e1]
    have hl := congrArg List.length (he'.symm.trans he)
    simp only [List.length_append] at hl
    have hsl : s.length ≠ 0 := by simpa using hs
    have hge := calcBatchLen_ge raw
    rw [hpre, h3]
    simp only [asUsize_ofNat hlen, batchHeaderSize]
    rw [if_neg (by omega), if_pos (by rw [List.length_drop]; omega)]

theorem readFrom_nil : readFrom [] = .done := rfl

/-- What the scan of a file must find. -/
def listed : Nat → List (Stored α) → List Found
  | _, [] => []
  | pos, b :: l => ⟨b.base, b.last, pos, b.width⟩ :: listed (pos + b.width) l

theorem IsRaw.width_pos {b : Stored α} (h : IsRaw b) : 57 ≤ b.width := by
  obtain ⟨raw, h1, _, _⟩ := h
  unfold Stored.width Stored.bytes
  rw [h1]
  exact encBatch_pos rawC _

theorem IsRaw.readFrom {b : Stored α} (h : IsRaw b) (hf : Fits64 b.base) (rest : Bytes) :
    Storage.readFrom (b.bytes ++ rest) = .batch b.base b.last b.width := by
  obtain ⟨raw, h1, h2, h3⟩ := h
  have hb : b.bytes = encBatch rawC { raw with baseOffset := BitVec.ofInt 64 b.base } := by
    unfold Stored.bytes; rw [h1]; rfl
  have := readFrom_enc { raw with baseOffset := BitVec.ofInt 64 b.base } h3 rest
  rw [← hb] at this
  rw [this]
  have e : (BitVec.ofInt 64 b.base).toInt = b.base := ofInt64_toInt hf
  show FileRead.batch (BitVec.ofInt 64 b.base).toInt _ _ = _
  unfold Stored.last
  rw [h2]
  congr 1
  show (BitVec.ofInt 64 b.base).toInt + _ = _
  rw [e]; rfl

/-- Scanning the bytes of a list of batches, followed by a possibly incomplete one. -/
theorem scan_content (segBase : Int) : ∀ (l : List (Stored α)) (tail : Bytes) (pos fuel : Nat),
    (∀ b ∈ l, IsRaw b) → (∀ b ∈ l, segBase ≤ b.base ∧ Fits64 b.base) →
    (readFrom tail = .done ∨ readFrom tail = .short) → l.length < fuel →
    scan segBase fuel (content l ++ tail) pos
      = (listed pos l, if readFrom tail = .done then .clean else .torn)
  | [], tail, pos, fuel, _, _, ht, hf => by
    obtain ⟨fuel, rfl⟩ : ∃ k, fuel = k + 1 := ⟨fuel - 1, by simp at hf; omega⟩
    unfold scan
    show (match readFrom tail with
      | .done => _
      | .short => _
      | .panic => _
      | .batch base last w => _) = _
    rcases ht with ht | ht
    · rw [ht]; rfl
    · rw [ht]; rfl
  | b :: l, tail, pos, fuel, hr, hb, ht, hf => by
    obtain ⟨fuel, rfl⟩ : ∃ k, fuel = k + 1 := ⟨fuel - 1, by simp at hf; omega⟩
    have hbr := hr b (by simp)
    obtain ⟨h1, h2⟩ := hb b (by simp)
    have ih := scan_content segBase l tail (pos + b.width) fuel (fun x hx => hr x (by simp [hx]))
      (fun x hx => hb x (by simp [hx])) ht (by simp at hf; omega)
    have hc : content (b :: l) ++ tail = b.bytes ++ (content l ++ tail) := by simp [content]
    rw [hc]
    unfold scan
    rw [hbr.readFrom h2]
    simp only
    have hd : (b.bytes ++ (content l ++ tail)).drop b.width = content l ++ tail := List.drop_left' rfl
    rw [if_neg (by omega), hd, ih]
    rfl

theorem listed_getLast? : ∀ (l : List (Stored α)) (pos : Nat),
    (listed pos l).getLast?.map (fun f => (f.last, f.pos + f.width))
      = l.getLast?.map (fun b => (b.last, pos + width l))
  | [], _ => rfl
  | [b], pos => by simp [listed, width]
  | a :: b :: l, pos => by
    have ih := listed_getLast? (b :: l) (pos + a.width)
    have e1 : (listed pos (a :: b :: l)).getLast? = (listed (pos + a.width) (b :: l)).getLast? := by
      conv => lhs; unfold listed
      unfold listed
      rw [List.getLast?_cons_cons]
    rw [e1, ih, List.getLast?_cons_cons]
    congr 1
    funext x
    rw [width_cons a]
    congr 1
    omega

theorem foundEnd_listed (l : List (Stored α)) : foundEnd (listed 0 l) = width l := by
  have h := listed_getLast? l 0
  unfold foundEnd
  cases hl : (listed 0 l).getLast? with
  | none =>
    rw [hl, Option.map_none] at h
    have : l.getLast? = none := by
      cases hx : l.getLast? with
      | none => rfl
      | some b => rw [hx] at h; cases h
    rw [List.getLast?_eq_none_iff] at this
    subst this; rfl
  | some f =>
    rw [hl, Option.map_some] at h
    cases hx : l.getLast? with
    | none => rw [hx] at h; cases h
    | some b =>
      rw [hx, Option.map_some, Option.some.injEq, Prod.mk.injEq] at h
      simp only
      omega

theorem foundLeo_listed (segBase : Int) (l : List (Stored α)) :
    foundLeo segBase (listed 0 l) = validatedLeo segBase l := by
  have h := listed_getLast? l 0
  unfold foundLeo validatedLeo
  cases hl : (listed 0 l).getLast? with
  | none =>
    rw [hl, Option.map_none] at h
    cases hx : l.getLast? with
    | none => rfl
    | some b => rw [hx] at h; cases h
  | some f =>
    rw [hl, Option.map_some] at h
    cases hx : l.getLast? with
    | none => rw [hx] at h; cases h
    | some b =>
      rw [hx, Option.map_some, Option.some.injEq, Prod.mk.injEq] at h
      simp only
      rw [h.1]

theorem length_le_width : ∀ (l : List (Stored α)), (∀ b ∈ l, IsRaw b) → l.length ≤ width l
  | [], _ => by simp
  | b :: l, h => by
    have := (h b (by simp)).width_pos
    have := length_le_width l fun x hx => h x (by simp [hx])
    rw [width_cons, List.length_cons]
    omega

/-- Repairing a file that consists of complete batches and an incomplete one. -/
theorem repair_content (segBase : Int) (l : List (Stored α)) (tail : Bytes) (hr : ∀ b ∈ l, IsRaw b)
    (hb : ∀ b ∈ l, segBase ≤ b.base ∧ Fits64 b.base)
    (ht : readFrom tail = .done ∨ readFrom tail = .short) :
    repair segBase (content l ++ tail) = some (content l, validatedLeo segBase l) := by
  unfold repair
  have hlen := length_le_width l hr
  rw [scan_content segBase l tail 0 _ hr hb ht
    (by rw [List.length_append, content_length]; omega)]
  dsimp only
  rcases ht with ht | ht
  · have htail : tail = [] := by
      unfold readFrom at ht
      split at ht
      · rename_i h; exact List.eq_nil_of_length_eq_zero h
      · split at ht
        · cases ht
        · split at ht
          · cases ht
          · split at ht
            · cases ht
            · split at ht <;> cases ht
    subst htail
    rw [ht]
    simp only [↓reduceIte, List.append_nil]
    rw [foundLeo_listed]
  · rw [ht]
    simp only [reduceCtorEq, ↓reduceIte]
    rw [foundLeo_listed, foundEnd_listed, ← content_length, List.take_left]

/-- The byte-level scan from a position agrees with `streamFrom` on the batch list, which is what
`Segment.find` uses. -/
theorem scan_from (segBase : Int) (pre post : List (Stored α)) (hr : ∀ b ∈ pre ++ post, IsRaw b)
    (hb : ∀ b ∈ pre ++ post, segBase ≤ b.base ∧ Fits64 b.base) (fuel : Nat) (hf : post.length < fuel) :
    scan segBase fuel ((content (pre ++ post)).drop (width pre)) (width pre)
      = (listed (width pre) post, .clean) := by
  have h := scan_content segBase post [] (width pre) fuel (fun b h => hr b (by simp [h]))
    (fun b h => hb b (by simp [h])) (.inl rfl) hf
  rw [content_append, ← content_length pre, List.drop_left]
  rw [List.append_nil] at h
  rw [content_length, h]
  rfl

/-! ## Whole partitions -/

/-- A batch whose bytes are those of a raw batch. -/
def RawBatch (b : SBatch α) : Prop :=
  ∃ raw : Batch Bytes, b.enc = (ofRaw raw b.records).enc ∧ b.delta = (ofRaw raw b.records).delta ∧
    calcBatchLen rawC raw < 2 ^ 31

/-- Operations that write raw batches. -/
def Op.Raw : Op α → Prop
  | .write set _ _ => ∀ b ∈ set, RawBatch b
  | _ => True

theorem mem_place : ∀ {dn : List (SBatch α)} {a : Int} {b : Stored α}, b ∈ place a dn → b.batch ∈ dn
  | [], _, _, h => by simp [place] at h
  | x :: dn, a, b, h => by
    unfold place at h
    rcases List.mem_cons.1 h with rfl | h
    · simp
    · exact List.mem_cons_of_mem _ (mem_place h)

/-- Operations that write batches with property `P`. -/
def Op.All (P : SBatch α → Prop) : Op α → Prop
  | .write set _ _ => ∀ b ∈ set, P b
  | _ => True

theorem all_step {P : SBatch α → Prop} {r : Replica α} (hok : ReplicaOk r)
    (h : ∀ b ∈ r.batches, P b.batch) (c : Cfg) (op : Op α) (ho : op.Honest) (hraw : op.All P) :
    ∀ b ∈ (r.step c op).1.batches, P b.batch := by
  cases op with
  | write set u f =>
    obtain ⟨_, dn, rest, e1, e2, _⟩ := write_spec c hok set u f ho
    have hst : (r.step c (.write set u f)).1 = (r.write c set u f).1 := by
      unfold Replica.step
      dsimp only
      generalize r.write c set u f = res
      obtain ⟨r', x⟩ := res
      cases x <;> rfl
    rw [hst, e2]
    intro b hb
    rcases List.mem_append.1 hb with hb | hb
    · exact h b hb
    · exact hraw _ (by rw [e1]; exact List.mem_append_left _ (mem_place hb))
  | updateHw o => exact h
  | cleanSize =>
    intro b hb
    apply h
    have : (r.cleanSize c).batches.Sublist r.batches := by
      unfold Replica.cleanSize
      dsimp only
      split
      · exact List.Sublist.append (sublist_flatMap _ List.filter_sublist) (List.Sublist.refl _)
      · exact List.Sublist.refl _
    exact this.subset hb
  | cleanTtl e =>
    intro b hb
    apply h
    have : (r.cleanTtl e).batches.Sublist r.batches := by
      unfold Replica.cleanTtl
      dsimp only
      split
      · exact List.Sublist.refl _
      · exact List.Sublist.append (sublist_flatMap _ List.filter_sublist) (List.Sublist.refl _)
    exact this.subset hb
  | reopen chk =>
    unfold Replica.step
    dsimp only
    split
    · rename_i r' hr
      show ∀ b ∈ r'.batches, _
      rw [(hok.reopen hr).2.1]; exact h
    · exact h

theorem all_run {P : SBatch α → Prop} (c : Cfg) : ∀ (ops : List (Op α)) (r : Replica α), ReplicaOk r →
    (∀ b ∈ r.batches, P b.batch) → (∀ op ∈ ops, op.Honest) → (∀ op ∈ ops, op.All P) →
    ∀ b ∈ (r.run c ops).1.batches, P b.batch
  | [], _, _, h, _, _ => h
  | op :: ops, r, hok, h, ho, hr => by
    unfold Replica.run
    exact all_run c ops _ (hok.step c op (ho op (by simp)))
      (all_step hok h c op (ho op (by simp)) (hr op (by simp)))
      (fun o h' => ho o (by simp [h'])) fun o h' => hr o (by simp [h'])

theorem Op.Raw.all {op : Op α} (h : op.Raw) : op.All RawBatch := by
  cases op <;> exact h

theorem raw_run (c : Cfg) (ops : List (Op α)) (r : Replica α) (hok : ReplicaOk r)
    (h : ∀ b ∈ r.batches, RawBatch b.batch) (ho : ∀ op ∈ ops, op.Honest) (hr : ∀ op ∈ ops, op.Raw) :
    ∀ b ∈ (r.run c ops).1.batches, RawBatch b.batch :=
  all_run c ops r hok h ho fun op hop => (hr op hop).all

/-- The log files of a partition: base offset (the file name) and content; `cut` are the bytes that
follow the last complete batch of the active one. -/
def Replica.onDisk (r : Replica α) (cut : Bytes) : List (Int × Bytes) :=
  r.prev.map (fun s => (s.base, content s.file)) ++ [(r.active.base, content r.active.file ++ cut)]

/-- Opening all the log files (segments.rs:40-93, replica.rs:216-301): base offset, content afterwards,
end offset.  (A torn closed file would not be truncated by the code; this does not occur here.) -/
def openDisk (files : List (Int × Bytes)) : Option (List (Int × Bytes × Int)) :=
  files.mapM fun p => (repair p.1 p.2).map fun x => (p.1, x.1, x.2)

theorem mapM_some {β γ : Type _} {f : β → Option γ} {g : β → γ} : ∀ {l : List β},
    (∀ x ∈ l, f x = some (g x)) → l.mapM f = some (l.map g)
  | [], _ => rfl
  | x :: l, h => by
    rw [List.mapM_cons, h x (by simp), mapM_some fun y hy => h y (by simp [hy])]
    rfl

theorem ReplicaOk.openDisk {r : Replica α} (h : ReplicaOk r) (hraw : ∀ b ∈ r.batches, RawBatch b.batch)
    (hleo : r.leo < 2 ^ 63) {cut : Bytes} (hcut : readFrom cut = .done ∨ readFrom cut = .short) :
    openDisk (r.onDisk cut) = some (r.prev.map (fun s => (s.base, content s.file, s.endOff)) ++
      [(r.active.base, content r.active.file, r.leo)]) := by
  have hprev : ∀ s ∈ r.prev, repair s.base (content s.file) = some (content s.file, s.endOff) := by
    intro s hs
    obtain ⟨h1, h2, h3, h4⟩ := h.prev s hs
    have := repair_content s.base s.file []
      (fun b hb => hraw b (by
        unfold Replica.batches
        exact List.mem_append_left _ (List.mem_flatMap.2 ⟨s, hs, hb⟩)))
      (fun b hb => by
        have hm := h1.chain.mem hb
        have hle := h.active.chain.le
        have : r.leo = r.active.endOff := rfl
        refine ⟨hm.1, ?_, ?_⟩ <;> omega)
      (.inl rfl)
    rw [List.append_nil, h1.chain.validatedLeo (by omega)] at this
    exact this
  have hact := repair_content r.active.base r.active.file cut
      (fun b hb => hraw b (by
        unfold Replica.batches
        exact List.mem_append_right _ hb))
      (fun b hb => by
        have hm := h.active.chain.mem hb
        have hn := h.nonneg
        have : r.leo = r.active.endOff := rfl
        refine ⟨hm.1, ?_, ?_⟩ <;> omega)
      hcut
  rw [h.active.chain.validatedLeo h.nonneg] at hact
  unfold Storage.openDisk Replica.onDisk
  have e : (r.prev.map (fun s => (s.base, content s.file)) ++
      [(r.active.base, content r.active.file ++ cut)]).mapM
        (fun p => (repair p.1 p.2).map fun x => (p.1, x.1, x.2))
      = some ((r.prev.map fun s => (s.base, content s.file, s.endOff)) ++
        [(r.active.base, content r.active.file, r.active.endOff)]) := by
    rw [List.mapM_append, List.mapM_map]
    rw [mapM_some (g := fun s : Segment α => (s.base, content s.file, s.endOff))]
    · simp only [List.mapM_cons, List.mapM_nil, hact]
      rfl
    · intro s hs
      show (repair s.base (content s.file)).map _ = _
      rw [hprev s hs]
      rfl
  exact e

end Verif.Storage
