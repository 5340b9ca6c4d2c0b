import Verif.Storage.Index

/-!
# Log segments (`fluvio-storage/src/{segment,mut_records,records}.rs`)

A log file is modelled as the list of batches written to it, each with its bytes; byte positions are
sums of byte lengths.  `Verif.Storage.Recovery` shows that scanning the bytes of such a file yields
exactly this list.
-/

namespace Verif.Storage
open Verif.Wire (Bytes)

/-- A batch handed to the storage: `last_offset_delta` of its header, the records a consumer gets out
of it, its announced size (`write_size`), and its encoding for each base offset. -/
structure SBatch (α : Type) where
  delta : Int
  records : List α
  size : Nat
  enc : Int → Bytes

/-- A batch in a log file, with the base offset it was given. -/
structure Stored (α : Type) where
  base : Int
  batch : SBatch α

variable {α : Type}

/-- `get_last_offset` — fluvio-protocol/src/record/batch.rs:141-143 -/
def Stored.last (b : Stored α) : Int := b.base + b.batch.delta
def Stored.bytes (b : Stored α) : Bytes := b.batch.enc b.base
def Stored.width (b : Stored α) : Nat := b.bytes.length

/-- Configuration: `segment_max_bytes`, `max_request_size`, `max_partition_size`, index settings
(config.rs).  The settings are taken as constant while the partition is open. -/
structure Cfg where
  segMax : Nat
  reqMax : Nat
  partMax : Nat
  ix : IxCfg

/-- Failures of storage operations; `panic` is a failed assertion in the code. -/
inductive StErr where
  | emptyBatch
  | batchExceededSegment
  | batchTooBig
  | shortCircuited
  | io
  | other
  | evicted (nextAvailable : Int)
  | panic
deriving DecidableEq

/-- `Segment` — segment.rs:43-56; `file` is the content of the log file. -/
structure Segment (α : Type) where
  base : Int
  endOff : Int
  file : List (Stored α)
  ix : Index

/-- total length in bytes -/
def width (l : List (Stored α)) : Nat := (l.map Stored.width).sum

/-- the bytes of a log file -/
def content (l : List (Stored α)) : Bytes := l.flatMap Stored.bytes

/-- `MutableSegment::create` — segment.rs:303-322 -/
def Segment.create (base : Int) : Segment α := ⟨base, base, [], Index.empty⟩

/-- `append_batch` with `MutFileRecords::write_batch` — segment.rs:413-455, mut_records.rs:132-178.
`ioOk = false` stands for a failing file write.  Byte counts are natural numbers (`u32` in the code: no
difference as long as `segment_max_bytes < 2^31`).  What a failed write leaves in the file beyond the
recorded length is not part of the state (it is cut off by `Recovery` when the log is reopened). -/
def Segment.append (c : Cfg) (ioOk : Bool) (s : Segment α) (b : SBatch α) :
    Except StErr (Bool × Segment α) :=
  if b.delta < 0 then .error .emptyBatch
  else if s.endOff < s.base then .error .other
  else if b.size + width s.file > c.segMax then .ok (false, s)
  else if (b.enc s.endOff).length ≠ b.size then .error .panic
  else if ioOk = false then .error .io
  else
    match s.ix.write c.ix (s.endOff - s.base).toNat (width s.file) b.size with
    | none => .error .panic
    | some ix => .ok (true, ⟨s.base, s.endOff + b.delta + 1, s.file ++ [⟨s.endOff, b⟩], ix⟩)

/-- `close` and `as_segment` — segment.rs:390-399 -/
def Segment.close (s : Segment α) : Segment α := { s with ix := s.ix.close }

/-- `occupied_memory` of the active segment — segment.rs:229-231, mut_index.rs:255-258 -/
def Segment.occupied (s : Segment α) : Nat := 8 * s.ix.used + width s.file

/-- `occupied_memory` of a closed segment — segment.rs:229-231, index.rs:174-176 -/
def Segment.occupiedClosed (s : Segment α) : Nat := 8 * s.ix.closedEntries.length + width s.file

/-- The batch headers read from byte position `p` on (`BatchHeaderStream` positioned at `p`) —
segment.rs:97-105, batch.rs:61-149.  `none`: `p` is not the start of a batch, so garbage is decoded. -/
def streamFrom : List (Stored α) → Nat → Option (List (Stored α))
  | l, 0 => some l
  | [], _ + 1 => some []
  | b :: l, p + 1 => if b.width ≤ p + 1 then streamFrom l (p + 1 - b.width) else none

/-- The scanning loop of `find_offset_position` — segment.rs:204-224 -/
def scanFor (off : Int) : List (Stored α) → Nat → Option (Stored α × Nat)
  | [], _ => none
  | b :: l, pos => if off ≤ b.last then some (b, pos) else scanFor off l (pos + b.width)

/-- `find_offset_position` — segment.rs:179-227.  (`as Size` casts of offset differences are not
modelled: offsets within one segment differ by less than 2^32.) -/
def Segment.find (closed : Bool) (s : Segment α) (off : Int) :
    Except StErr (Option (Stored α × Nat)) :=
  if off < s.base then .ok none
  else if s.endOff ≤ off then .ok none
  else
    let d := (off - s.base).toNat
    let p := match (if closed then s.ix.findClosed d else s.ix.find d) with
      | none => 0
      | some e => e.2
    match streamFrom s.file p with
    | none => .error .other
    | some l => .ok (scanFor off l p)

/-- `u32` subtraction in a release build -/
def sub32 (a b : Nat) : Nat := (a + 2 ^ 32 - b) % 2 ^ 32

/-- `as_file_slice_from_to`: the read-only records check the length (records.rs:173-182), the active
ones do not (mut_records.rs:214-217). -/
def Segment.fromTo (closed : Bool) (s : Segment α) (pos len : Nat) : Except StErr (Option (Nat × Nat)) :=
  if closed ∧ width s.file < len then .error .other else .ok (some (pos, len))

/-- `records_slice` — segment.rs:116-175: position and length of the file slice. -/
def Segment.slice (closed : Bool) (s : Segment α) (start : Int) (max : Option Int) :
    Except StErr (Option (Nat × Nat)) :=
  match s.find closed start with
  | .error e => .error e
  | .ok none => .ok none
  | .ok (some (_, pos)) =>
    match max with
    | none => .ok (some (pos, width s.file - pos))
    | some m =>
      let m' := if m < s.endOff then m else s.endOff
      if m' = s.endOff then .ok (some (pos, width s.file - pos))
      else
        match s.find closed m' with
        | .error e => .error e
        | .ok none => .error .other
        | .ok (some (_, epos)) => s.fromTo closed pos (sub32 epos pos)

/-- Bytes delivered for a file slice. -/
def Segment.bytesAt (s : Segment α) (pos len : Nat) : Bytes := ((content s.file).drop pos).take len

/-! ## Well-formedness -/

/-- **Specification.** The batches cover the offsets from `a` to `e` without gap or overlap. -/
def Chain : Int → List (Stored α) → Int → Prop
  | a, [], e => a = e
  | a, b :: l, e => b.base = a ∧ 0 ≤ b.batch.delta ∧ Chain (b.last + 1) l e

/-- Every batch occupies at least one byte, and its header announces its records and its size. -/
def HonestBatch (b : SBatch α) : Prop :=
  0 ≤ b.delta ∧ (b.records.length : Int) = b.delta + 1 ∧ 0 < b.size ∧ ∀ e, (b.enc e).length = b.size

/-- An index entry points to the start of a batch and carries its relative offset. -/
def EntryOk (base : Int) (file : List (Stored α)) (e : Nat × Nat) : Prop :=
  ∃ pre b post, file = pre ++ b :: post ∧ e.2 = width pre ∧ (e.1 : Int) = b.base - base

structure SegOk (s : Segment α) : Prop where
  chain : Chain s.base s.file s.endOff
  /-- including slots left over from before a reopening -/
  slots : ∀ e ∈ s.ix.slots, EntryOk s.base s.file e
  honest : ∀ b ∈ s.file, HonestBatch b.batch
  used : s.ix.used ≤ s.ix.slots.length

theorem width_append (l m : List (Stored α)) : width (l ++ m) = width l + width m := by
  simp [width]

theorem width_cons (b : Stored α) (m : List (Stored α)) : width (b :: m) = b.width + width m := by
  simp [width]

theorem width_nil : width ([] : List (Stored α)) = 0 := rfl

theorem content_length (l : List (Stored α)) : (content l).length = width l := by
  simp [content, width, List.length_flatMap]; rfl

theorem content_append (l m : List (Stored α)) : content (l ++ m) = content l ++ content m := by
  simp [content]

theorem Chain.append : ∀ {l m : List (Stored α)} {a x e : Int}, Chain a l x → Chain x m e →
    Chain a (l ++ m) e
  | [], _, _, _, _, h, h' => by cases h; exact h'
  | _ :: _, _, _, _, _, h, h' => ⟨h.1, h.2.1, Chain.append h.2.2 h'⟩

theorem Chain.split : ∀ {l m : List (Stored α)} {a e : Int}, Chain a (l ++ m) e →
    ∃ x, Chain a l x ∧ Chain x m e
  | [], _, a, _, h => ⟨a, rfl, h⟩
  | _ :: _, _, _, _, h => by
    obtain ⟨x, h1, h2⟩ := Chain.split h.2.2
    exact ⟨x, ⟨h.1, h.2.1, h1⟩, h2⟩

theorem Chain.le : ∀ {l : List (Stored α)} {a e : Int}, Chain a l e → a ≤ e
  | [], _, _, h => by cases h; omega
  | b :: l, a, e, h => by
    have := Chain.le h.2.2
    have h1 := h.1; have h2 := h.2.1
    unfold Stored.last at this; omega

theorem Chain.mem {l : List (Stored α)} {a e : Int} (h : Chain a l e) {b : Stored α} (hb : b ∈ l) :
    a ≤ b.base ∧ b.base ≤ b.last ∧ b.last < e := by
  obtain ⟨pre, post, rfl⟩ := List.append_of_mem hb
  obtain ⟨x, h1, h2⟩ := Chain.split h
  have := h1.le
  have h3 := h2.2.2.le
  have := h2.1; have := h2.2.1
  unfold Stored.last at *; omega

theorem streamFrom_width : ∀ (pre post : List (Stored α)), (∀ b ∈ pre, 0 < b.width) →
    streamFrom (pre ++ post) (width pre) = some post
  | [], post, _ => by unfold streamFrom; rfl
  | b :: pre, post, h => by
    have hb := h b (by simp)
    rw [width_cons, List.cons_append]
    obtain ⟨k, hk⟩ : ∃ k, b.width + width pre = k + 1 := ⟨b.width + width pre - 1, by omega⟩
    rw [hk]
    unfold streamFrom
    rw [if_pos (by omega), ← hk, Nat.add_sub_cancel_left]
    exact streamFrom_width pre post fun x hx => h x (by simp [hx])

/-- Scanning a chain finds the batch containing the offset. -/
theorem scanFor_skip (off : Int) : ∀ (pre l : List (Stored α)) (p : Nat), (∀ b ∈ pre, b.last < off) →
    scanFor off (pre ++ l) p = scanFor off l (p + width pre)
  | [], l, p, _ => by simp [width]
  | b :: pre, l, p, h => by
    have hb := h b (by simp)
    rw [List.cons_append]
    conv => lhs; unfold scanFor
    rw [if_neg (by omega), scanFor_skip off pre l _ fun x hx => h x (by simp [hx]), width_cons,
      Nat.add_assoc]

theorem exists_containing : ∀ {l : List (Stored α)} {a e : Int}, Chain a l e → ∀ {off : Int},
    a ≤ off → off < e → ∃ pre b post, l = pre ++ b :: post ∧ b.base ≤ off ∧ off ≤ b.last
  | [], _, _, h, _, _, _ => by cases h; omega
  | b :: l, a, e, h, off, h1, h2 => by
    by_cases hb : off ≤ b.last
    · exact ⟨[], b, l, rfl, by have := h.1; omega, hb⟩
    · obtain ⟨pre, c, post, rfl, h3, h4⟩ := exists_containing h.2.2 (off := off) (by omega) h2
      exact ⟨b :: pre, c, post, rfl, h3, h4⟩

theorem scanFor_chain {l pre post : List (Stored α)} {b : Stored α} {a e off : Int}
    (h : Chain a l e) (hl : l = pre ++ b :: post) (h1 : b.base ≤ off) (h2 : off ≤ b.last) (p : Nat) :
    scanFor off l p = some (b, p + width pre) := by
  subst hl
  obtain ⟨x, hx, hy⟩ := Chain.split h
  rw [scanFor_skip]
  · unfold scanFor; rw [if_pos h2]
  · intro c hc
    have := (hx.mem hc).2.2
    have := hy.1
    omega

theorem SegOk.entries {s : Segment α} (h : SegOk s) : ∀ e ∈ s.ix.entries, EntryOk s.base s.file e :=
  fun e he => h.slots e (List.mem_of_mem_take he)

/-- The lookup through the index gives the batch that contains the offset, at its position. -/
theorem SegOk.find_eq {s : Segment α} (h : SegOk s) (closed : Bool) {pre post : List (Stored α)}
    {b : Stored α} {off : Int} (hl : s.file = pre ++ b :: post) (h1 : b.base ≤ off)
    (h2 : off ≤ b.last) : s.find closed off = .ok (some (b, width pre)) := by
  have hm := h.chain.mem (b := b) (by rw [hl]; simp)
  unfold Segment.find
  rw [if_neg (by omega), if_neg (by omega)]
  have hpos : ∀ x ∈ s.file, 0 < x.width := by
    intro x hx
    obtain ⟨_, _, h3, h4⟩ := h.honest x hx
    unfold Stored.width Stored.bytes; rw [h4]; exact h3
  have key : ∀ e : Nat × Nat, EntryOk s.base s.file e → e.1 ≤ (off - s.base).toNat →
      ∃ l, streamFrom s.file e.2 = some l ∧ scanFor off l e.2 = some (b, width pre) := by
    intro e he hle
    obtain ⟨pre', b', post', hf, hp, hd⟩ := he
    have hstream := streamFrom_width pre' (b' :: post') (fun x hx => hpos x (by rw [hf]; simp [hx]))
    refine ⟨b' :: post', by rw [hf, hp]; exact hstream, ?_⟩
    have hall := scanFor_chain h.chain hl h1 h2 0
    rw [hf, scanFor_skip off pre' (b' :: post') 0, Nat.zero_add, Nat.zero_add] at hall
    · rw [hp]; exact hall
    · intro c hc
      have hch := h.chain
      rw [hf] at hch
      obtain ⟨x, hx, hy⟩ := Chain.split hch
      have h5 := (hx.mem hc).2.2
      have h6 := hy.1
      omega
  have zero : ∃ l, streamFrom s.file 0 = some l ∧ scanFor off l 0 = some (b, width pre) := by
    refine ⟨s.file, by unfold streamFrom; rfl, ?_⟩
    have := scanFor_chain h.chain hl h1 h2 0
    rwa [Nat.zero_add] at this
  have fin : ∀ p, (∃ l, streamFrom s.file p = some l ∧ scanFor off l p = some (b, width pre)) →
      (match streamFrom s.file p with
        | none => Except.error StErr.other
        | some l => .ok (scanFor off l p)) = .ok (some (b, width pre)) := by
    rintro p ⟨l, e1, e2⟩; rw [e1]; simp only [e2]
  dsimp only
  apply fin
  cases closed with
  | false =>
    simp only [Bool.false_eq_true, ↓reduceIte]
    cases hf : s.ix.find (off - s.base).toNat with
    | none => exact zero
    | some e => obtain ⟨hm1, hm2⟩ := Index.find_mem hf; exact key e (h.entries e hm1) hm2
  | true =>
    simp only [↓reduceIte]
    cases hf : s.ix.findClosed (off - s.base).toNat with
    | none => exact zero
    | some e =>
      rcases Index.findClosed_mem hf with ⟨hm1, hm2⟩ | rfl
      · exact key e (h.entries e hm1) hm2
      · exact zero

theorem SegOk.create (base : Int) : SegOk (Segment.create base : Segment α) where
  chain := rfl
  slots := by intro e he; simp [Segment.create, Index.empty] at he
  honest := by intro b hb; simp [Segment.create] at hb
  used := by simp [Segment.create, Index.empty]

theorem EntryOk.append {base : Int} {file : List (Stored α)} {e : Nat × Nat}
    (h : EntryOk base file e) (m : List (Stored α)) : EntryOk base (file ++ m) e := by
  obtain ⟨pre, b, post, rfl, h1, h2⟩ := h
  exact ⟨pre, b, post ++ m, by simp, h1, h2⟩

theorem Index.write_slots {c : IxCfg} {ix ix' : Index} {d p n : Nat}
    (h : ix.write c d p n = some ix') (hu : ix.used ≤ ix.slots.length) :
    (∀ e ∈ ix'.slots, e ∈ ix.slots ∨ e = (d, p)) ∧
      ix'.used ≤ ix'.slots.length ∧ ix'.lastDelta = d := by
  unfold Index.write at h
  split at h
  · cases h
  · split at h
    · cases h; exact ⟨fun e he => .inl he, hu, rfl⟩
    · split at h
      · cases h
        refine ⟨?_, ?_, rfl⟩
        · intro e he
          simp only [List.mem_append, List.mem_cons] at he
          rcases he with he | he | he
          · exact .inl (List.mem_of_mem_take he)
          · exact .inr he
          · exact .inl (List.mem_of_mem_drop he)
        · simp only [List.length_append, List.length_take, List.length_cons, List.length_drop]; omega
      · cases h; exact ⟨fun e he => .inl he, hu, rfl⟩

/-- The index never fails its assertion: the last offset it was given is that of the previous batch. -/
structure ActiveOk (s : Segment α) : Prop extends SegOk s where
  last : (s.ix.lastDelta : Int) + s.base < s.endOff ∨ (s.ix.lastDelta = 0 ∧ s.endOff = s.base)

theorem ActiveOk.create (base : Int) : ActiveOk (Segment.create base : Segment α) where
  toSegOk := SegOk.create base
  last := .inr ⟨rfl, rfl⟩

/-- What an append does to a well-formed segment. -/
theorem Segment.append_spec (c : Cfg) (ioOk : Bool) {s : Segment α} (h : ActiveOk s) {b : SBatch α}
    (hb : HonestBatch b) :
    (c.segMax < b.size + width s.file ∧ s.append c ioOk b = .ok (false, s)) ∨
    (b.size + width s.file ≤ c.segMax ∧ ioOk = false ∧ s.append c ioOk b = .error .io) ∨
    (b.size + width s.file ≤ c.segMax ∧ ioOk = true ∧ ∃ s', s.append c ioOk b = .ok (true, s') ∧
      ActiveOk s' ∧ s'.base = s.base ∧ s'.endOff = s.endOff + b.records.length ∧
      s'.file = s.file ++ [⟨s.endOff, b⟩]) := by
  obtain ⟨h0, h1, h2, h3⟩ := hb
  have hle := h.chain.le
  unfold Segment.append
  rw [if_neg (by omega), if_neg (by omega)]
  by_cases hfull : b.size + width s.file > c.segMax
  · left; exact ⟨hfull, by rw [if_pos hfull]⟩
  · right
    rw [if_neg hfull, if_neg (by rw [h3]; simp)]
    cases ioOk with
    | false => left; exact ⟨by omega, rfl, by simp⟩
    | true =>
      right
      refine ⟨by omega, rfl, ?_⟩
      rw [if_neg (by simp)]
      have hlast := h.last
      cases hw : s.ix.write c.ix (s.endOff - s.base).toNat (width s.file) b.size with
      | none =>
        exfalso
        unfold Index.write at hw
        split at hw
        · rename_i hc
          rcases hc with hc | hc <;> omega
        · split at hw <;> (try split at hw) <;> cases hw
      | some ix =>
        obtain ⟨he, hu, hl⟩ := Index.write_slots hw h.used
        refine ⟨_, rfl, ?_, rfl, by dsimp only; omega, rfl⟩
        refine ⟨⟨?_, ?_, ?_, hu⟩, ?_⟩
        · refine Chain.append h.chain ⟨rfl, h0, ?_⟩
          show s.endOff + b.delta + 1 = s.endOff + b.delta + 1
          rfl
        · intro e hem
          rcases he e hem with hx | rfl
          · exact (h.slots e hx).append _
          · exact ⟨s.file, ⟨s.endOff, b⟩, [], rfl, rfl, by dsimp only; omega⟩
        · intro x hx
          rcases List.mem_append.1 hx with hx | hx
          · exact h.honest x hx
          · simp only [List.mem_singleton] at hx; subst hx; exact ⟨h0, h1, h2, h3⟩
        · left
          dsimp only; rw [hl]; omega

theorem SegOk.close {s : Segment α} (h : SegOk s) : SegOk s.close where
  chain := h.chain
  honest := h.honest
  used := by
    have := h.used
    simp only [Segment.close, Index.close, List.length_take]; omega
  slots := by
    intro e he
    exact h.slots e (List.mem_of_mem_take he)

end Verif.Storage
