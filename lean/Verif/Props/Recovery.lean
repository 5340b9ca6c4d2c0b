import Verif.Storage.IndexRoom
import Verif.Storage.Recovery
import Verif.Props.Fetch
import Verif.Props.Codec

/-!
# C14: crash recovery

`r.onDisk cut` are the log files of partition `r` with the bytes `cut` after the last complete batch;
`openDisk` is what the code makes of them when it opens the partition.  The process dies, the operating
system does not: what was written to the file is there.
-/

namespace Verif.Props
open Verif.Storage Verif.Wire

variable {α : Type}

/-- After any history, if the active log file ends with any proper prefix of the encoding of the batch
being written: opening keeps every file's complete batches byte for byte, discards the prefix, and finds
the right end offset. -/
theorem C14_files (c : Cfg) (ops : List (Op α)) (hh : ∀ op ∈ ops, op.Honest)
    (hraw : ∀ op ∈ ops, op.Raw) (hleo : (Replica.init.run c ops).1.leo < 2 ^ 63)
    (next : SBatch α) (hnext : RawBatch next) (cut missing : Bytes)
    (hcut : next.enc (Replica.init.run c ops).1.leo = cut ++ missing) (hmiss : missing ≠ []) :
    openDisk ((Replica.init.run c ops).1.onDisk cut)
      = some ((Replica.init.run c ops).1.prev.map (fun s => (s.base, content s.file, s.endOff)) ++
          [((Replica.init.run c ops).1.active.base, content (Replica.init.run c ops).1.active.file,
            (Replica.init.run c ops).1.leo)]) := by
  have hok := ReplicaOk.run c ops Replica.init ReplicaOk.init hh
  have hr := raw_run c ops Replica.init ReplicaOk.init (by intro b hb; cases hb) hh hraw
  generalize (Replica.init.run c ops).1 = r at *
  apply hok.openDisk hr hleo
  by_cases hc : cut = []
  · subst hc; exact .inl rfl
  · right
    obtain ⟨raw, h1, _, h3⟩ := hnext
    rw [h1] at hcut
    exact readFrom_torn { raw with baseOffset := BitVec.ofInt 64 r.leo } h3 hcut hc hmiss

/-- A write of `set` interrupted in batch `k` leaves the batches before it, with their offsets. -/
theorem C14_interrupted_write (c : Cfg) (ops : List (Op α)) (hh : ∀ op ∈ ops, op.Honest)
    (set : List (SBatch α)) (hset : ∀ b ∈ set, HonestBatch b) (u : Bool) (k : Nat) (hk : k < set.length)
    (hfit : ∀ b ∈ set, b.size ≤ c.segMax ∧ b.size ≤ c.reqMax)
    (hshort : (Replica.init.run c ops).1.short = false) :
    (Replica.init.run c (ops ++ [.write set u (some k)])).1.batches
        = (Replica.init.run c ops).1.batches ++ place (Replica.init.run c ops).1.leo (set.take k) ∧
    (Replica.init.run c (ops ++ [.write set u (some k)])).1.leo
        = (Replica.init.run c ops).1.leo + (recordsOf (set.take k)).length := by
  have hok := ReplicaOk.run c ops Replica.init ReplicaOk.init hh
  have happ : ∀ (l : List (Op α)) (r : Replica α), (r.run c (l ++ [.write set u (some k)])).1
      = ((r.run c l).1.step c (.write set u (some k))).1 := by
    intro l
    induction l with
    | nil => intro r; rfl
    | cons x l ih => intro r; exact ih _
  rw [happ]
  generalize (Replica.init.run c ops).1 = r at *
  have hst : (r.step c (.write set u (some k))).1 = (r.write c set u (some k)).1 := by
    unfold Replica.step
    dsimp only
    generalize r.write c set u (some k) = res
    obtain ⟨r', x⟩ := res
    cases x <;> rfl
  rw [hst]
  have hcs := (checkSizes_iff c set).2 hfit
  have key : ∀ (bs : List (SBatch α)) (k : Nat) (r : Replica α), ReplicaOk r →
      (∀ b ∈ bs, HonestBatch b) → (∀ b ∈ bs, b.size ≤ c.segMax) → r.short = false → k < bs.length →
      ∃ r' e, r.writeBatches c (some k) bs = (r', .error e) ∧
        r'.batches = r.batches ++ place r.leo (bs.take k) ∧ r'.leo = r.leo + recordCount (bs.take k) := by
    intro bs k r h1 h2 h3 h4 h5
    obtain ⟨_, _, dn, rest, e1, e2, e3, e4, e5⟩ := writeBatches_spec c bs (some k) r h1 h2 h3
    have hrest : rest ≠ [] := by
      intro hr
      rw [hr, List.append_nil] at e1
      have hok := e4.2 hr
      clear e1 e2 e3 e4 e5
      exfalso
      -- the failing batch makes the loop fail
      have : ∀ (bs : List (SBatch α)) (k : Nat) (r : Replica α), k < bs.length →
          (r.writeBatches c (some k) bs).2 = .ok () → False := by
        intro bs
        induction bs with
        | nil => intro k r hk; simp at hk
        | cons b bs ih =>
          intro k r hk hw
          unfold Replica.writeBatches at hw
          cases k with
          | zero =>
            have hf : ∀ s : Segment α, ∀ s', s.append c false b ≠ .ok (true, s') := by
              intro s s'
              unfold Segment.append
              split
              · simp
              · split
                · simp
                · split
                  · simp
                  · split <;> simp
            have : ∀ r', (r.writeBatch c false b) ≠ (r', .ok ()) := by
              intro r'
              unfold Replica.writeBatch
              split
              · simp
              · split
                · rename_i heq; exact absurd heq (hf _ _)
                · dsimp only
                  split
                  · rename_i heq; exact absurd heq (hf _ _)
                  · simp
                  · simp
                  · simp
                · simp
                · simp
            simp only [ne_eq, not_true_eq_false, decide_false] at hw
            generalize hres : r.writeBatch c false b = res at hw
            obtain ⟨r', x⟩ := res
            cases x with
            | ok x => exact this r' hres
            | error e => cases hw
          | succ k =>
            generalize hres : r.writeBatch c (decide (some (k + 1) ≠ some 0)) b = res at hw
            obtain ⟨r', x⟩ := res
            cases x with
            | ok x => exact ih k r' (by simpa using hk) hw
            | error e => cases hw
      exact this bs k r h5 hok
    rcases e5 hrest with ⟨hx, _⟩ | hk'
    · rw [h4] at hx; cases hx
    · have hk'' : k = dn.length := by simpa using hk'
      have htake : bs.take k = dn := by rw [e1, hk'']; exact List.take_left
      generalize hres : r.writeBatches c (some k) bs = res at *
      obtain ⟨r', x⟩ := res
      cases x with
      | ok x => exact absurd (e4.1 rfl) hrest
      | error e => exact ⟨r', e, rfl, by rw [htake]; exact e2, by rw [htake]; exact e3⟩
  obtain ⟨r', e, h1, h2, h3⟩ := key set k r hok hset (fun b hb => (hfit b hb).1) hshort hk
  unfold Replica.write
  rw [hcs, h1]
  exact ⟨h2, by rw [← recordCount_eq]; exact h3⟩

/-- Once reopened, the partition holds the same batches with the same bytes and offsets, and the next
write continues at the following offset.

Missing: the reopening itself can fail when the offset index of the active segment is full
(`C14_violated_index_full`). -/
theorem C14_reopened_partial (c : Cfg) (ops : List (Op α)) (hh : ∀ op ∈ ops, op.Honest) (chk : ChkFile)
    (r' : Replica α) (hopen : (Replica.init.run c ops).1.reopen c chk = some r') :
    r'.batches = (Replica.init.run c ops).1.batches ∧ r'.leo = (Replica.init.run c ops).1.leo ∧
    r'.prev.map (fun s => (s.base, content s.file, s.endOff)) ++
        [(r'.active.base, content r'.active.file, r'.leo)]
      = (Replica.init.run c ops).1.prev.map (fun s => (s.base, content s.file, s.endOff)) ++
        [((Replica.init.run c ops).1.active.base, content (Replica.init.run c ops).1.active.file,
          (Replica.init.run c ops).1.leo)] ∧
    ∀ (set : List (SBatch α)) (u : Bool), set ≠ [] → (∀ b ∈ set, HonestBatch b) →
      (∀ b ∈ set, b.size ≤ c.segMax ∧ b.size ≤ c.reqMax) →
      ∃ n, (r'.write c set u none).2
          = .ok ((Replica.init.run c ops).1.leo,
              (Replica.init.run c ops).1.leo + (recordsOf set).length, n) ∧
        (r'.write c set u none).1.pairs = (Replica.init.run c ops).1.pairs ++
          (recordsOf set).zipIdx.map fun p => ((Replica.init.run c ops).1.leo + (p.2 : Int), p.1) := by
  have hok := ReplicaOk.run c ops Replica.init ReplicaOk.init hh
  generalize (Replica.init.run c ops).1 = r at *
  obtain ⟨h1, h2, h3, h4, h5, _⟩ := hok.reopen hopen
  have hact : r'.active.file = r.active.file := by
    unfold Replica.reopen at hopen
    rw [Option.map_eq_some_iff] at hopen
    obtain ⟨a, ha, rfl⟩ := hopen
    exact (hok.active.openForWrite hok.nonneg ha).2.2.2
  have hsh : r'.short = false := by
    unfold Replica.reopen at hopen
    rw [Option.map_eq_some_iff] at hopen
    obtain ⟨a, _, rfl⟩ := hopen
    rfl
  refine ⟨h2, h3, ?_, ?_⟩
  · have : r'.prev.map (fun s => (s.base, content s.file, s.endOff))
        = r.prev.map (fun s => (s.base, content s.file, s.endOff)) := by
      have := congrArg (List.map fun x : Int × Int × List (Stored α) => (x.1, content x.2.2, x.2.1)) h4
      simpa [List.map_map, Function.comp_def] using this
    rw [this, h5, hact, h3]
  · intro set u hne hset hfit
    have hcs := (checkSizes_iff c set).2 hfit
    obtain ⟨_, dn, rest, e1, e2, e3, e4⟩ := write_spec c h1 set u none hset
    rcases e4 with ⟨e, he, hr, _, _⟩ | ⟨he, hr, _⟩
    · exfalso
      obtain ⟨_, _, dn', rest', f1, _, _, f4, f5⟩ :=
        writeBatches_spec c set none r' h1 hset fun b hb => (hfit b hb).1
      have hr' : rest' = [] := by
        apply Classical.byContradiction
        intro hne'
        rcases f5 hne' with ⟨hx, _⟩ | hx
        · rw [hsh] at hx; cases hx
        · cases hx
      have := f4.2 hr'
      unfold Replica.write at he
      rw [hcs] at he
      generalize r'.writeBatches c none set = res at *
      obtain ⟨x, y⟩ := res
      simp only at this
      subst this
      cases he
    · subst hr
      rw [List.append_nil] at e1
      subst e1
      refine ⟨_, by rw [he, h3, recordCount_eq], ?_⟩
      unfold Replica.pairs
      rw [e2, List.flatMap_append, pairs_place, h2, h3]

/-- The process may also die after the batch reached the log file and before its index entry was
written: the batch is kept, and every stored offset can be read. -/
theorem C14_batch_without_index_entry (c : Cfg) (ops : List (Op α)) (hh : ∀ op ∈ ops, op.Honest)
    (hraw : ∀ op ∈ ops, op.Raw) (next : SBatch α) (hnext : RawBatch next) (hhon : HonestBatch next)
    (hleo : (Replica.init.run c ops).1.leo + next.records.length < 2 ^ 63) :
    let r := (Replica.init.run c ops).1
    let r2 : Replica α := { r with active := { r.active with
      endOff := r.leo + next.records.length, file := r.active.file ++ [⟨r.leo, next⟩] } }
    openDisk (r.onDisk (next.enc r.leo))
      = some (r.prev.map (fun s => (s.base, content s.file, s.endOff)) ++
          [(r.active.base, content r.active.file ++ next.enc r.leo, r.leo + next.records.length)]) ∧
    ∀ chk r3, r2.reopen c chk = some r3 →
      r3.batches = r.batches ++ [⟨r.leo, next⟩] ∧ r3.leo = r.leo + next.records.length ∧
      ∀ b ∈ r3.batches, ∀ o n, b.base ≤ o → o < b.base + b.batch.records.length →
        ∃ pre run post res, r3.batches = pre ++ (b :: run) ++ post ∧
          r3.readPartition o n .uncommitted = .ok res ∧
          res.data = some (((b :: run).flatMap Stored.bytes).take n) := by
  intro r r2
  have hok : ReplicaOk r := ReplicaOk.run c ops Replica.init ReplicaOk.init hh
  have hr : ∀ b ∈ r.batches, RawBatch b.batch :=
    raw_run c ops Replica.init ReplicaOk.init (by intro b hb; cases hb) hh hraw
  have hch : Chain r.active.base (r.active.file ++ [⟨r.leo, next⟩]) (r.leo + next.records.length) := by
    refine hok.active.chain.append ⟨rfl, hhon.1, ?_⟩
    have := hhon.2.1
    show r.leo + next.delta + 1 = _
    omega
  have hok2 : ReplicaOk r2 := by
    refine ⟨⟨⟨hch, fun e he => (hok.active.slots e he).append _, ?_, hok.active.used⟩, ?_⟩, hok.prev,
      hok.order, hok.nonneg⟩
    · intro b hb
      rcases List.mem_append.1 hb with hb | hb
      · exact hok.active.honest b hb
      · rw [List.mem_singleton] at hb; subst hb; exact hhon
    · left
      have h1 := hok.active.last
      have h2 := hhon.1
      have h3 := hhon.2.1
      have hl : r.leo = r.active.endOff := rfl
      show (r.active.ix.lastDelta : Int) + r.active.base < r.leo + next.records.length
      omega
  have hb2 : r2.batches = r.batches ++ [⟨r.leo, next⟩] := by
    show r.prev.flatMap Segment.file ++ (r.active.file ++ [_]) = _
    rw [← List.append_assoc]; rfl
  have hr2 : ∀ b ∈ r2.batches, RawBatch b.batch := by
    rw [hb2]
    intro b hb
    rcases List.mem_append.1 hb with hb | hb
    · exact hr b hb
    · rw [List.mem_singleton] at hb; subst hb; exact hnext
  refine ⟨?_, ?_⟩
  · have h := hok2.openDisk hr2 hleo (cut := []) (.inl rfl)
    have e1 : content (r.active.file ++ [⟨r.leo, next⟩]) = content r.active.file ++ next.enc r.leo := by
      rw [content_append]; simp [content, Stored.bytes]
    have e2 : r2.onDisk [] = r.onDisk (next.enc r.leo) := by
      show r.prev.map _ ++ [(r.active.base, content (r.active.file ++ [⟨r.leo, next⟩]) ++ [])] = _
      rw [List.append_nil, e1]; rfl
    rw [e2] at h
    rw [h]
    show some (_ ++ [(r.active.base, content (r.active.file ++ [⟨r.leo, next⟩]), _)]) = _
    rw [e1]; rfl
  · intro chk r3 hopen
    obtain ⟨h1, h2, h3, _⟩ := hok2.reopen hopen
    refine ⟨h2.trans hb2, h3, ?_⟩
    intro b hb o n ho1 ho2
    have hhb : HonestBatch b.batch := by
      unfold Replica.batches at hb
      rw [List.mem_append, List.mem_flatMap] at hb
      rcases hb with ⟨s, hs, hb⟩ | hb
      · exact (h1.prev s hs).1.honest b hb
      · exact h1.active.honest b hb
    have := hhb.2.1
    obtain ⟨pre, run, post, e1, e2⟩ := h1.read_stored hb ho1 (by unfold Stored.last; omega) n
    exact ⟨pre, run, post, _, e1, e2, rfl⟩

/-- The process may die while a new segment is started (`roll_over`, replica.rs:459-474): after the full
segment's index was cut to its entries (`closed`), or after the new log file was created and before or after
its index was (a missing index file is created when the partition is opened).  Opening then finds all
batches, the right end offset, and, with the new file there, always succeeds. -/
theorem C14_roll_over (c : Cfg) (ops : List (Op α)) (hh : ∀ op ∈ ops, op.Honest)
    (hraw : ∀ op ∈ ops, op.Raw) (hleo : (Replica.init.run c ops).1.leo < 2 ^ 63)
    (hne : (Replica.init.run c ops).1.active.file ≠ []) :
    let r := (Replica.init.run c ops).1
    let closed : Replica α := { r with active := r.active.close }
    openDisk (r.onDisk [] ++ [(r.leo, [])])
      = some (r.prev.map (fun s => (s.base, content s.file, s.endOff)) ++
          [(r.active.base, content r.active.file, r.leo), (r.leo, [], r.leo)]) ∧
    (∀ chk r', closed.reopen c chk = some r' → r'.batches = r.batches ∧ r'.leo = r.leo) ∧
    (0 < c.ix.cap → ∀ chk, ∃ r', r.rollOver.reopen c chk = some r' ∧ r'.batches = r.batches ∧
      r'.leo = r.leo ∧ r'.onDisk [] = r.onDisk [] ++ [(r.leo, [])]) := by
  intro r closed
  have hok : ReplicaOk r := ReplicaOk.run c ops Replica.init ReplicaOk.init hh
  have hr : ∀ b ∈ r.batches, RawBatch b.batch :=
    raw_run c ops Replica.init ReplicaOk.init (by intro b hb; cases hb) hh hraw
  obtain ⟨hroll, hb, hl, ha, _, _⟩ := hok.rollOver hne
  have hadd : r.rollOver.prev = r.prev ++ [r.active.close] := by
    unfold Replica.rollOver
    apply addSegment_last
    intro t ht
    have h1 := (hok.prev t ht).2
    show t.base < r.active.base
    omega
  have hdisk : r.rollOver.onDisk [] = r.onDisk [] ++ [(r.leo, [])] := by
    unfold Replica.onDisk
    rw [hadd, ha, List.map_append, List.append_nil, List.append_nil]
    rfl
  refine ⟨?_, ?_, ?_⟩
  · have h := hroll.openDisk (by rw [hb]; exact hr) (by rw [hl]; exact hleo) (cut := []) (.inl rfl)
    rw [hdisk] at h
    rw [h, hadd, ha, List.map_append, List.append_assoc]
    rfl
  · intro chk r' ho
    have hcl : ReplicaOk closed :=
      ⟨⟨hok.active.toSegOk.close, hok.active.last⟩, hok.prev, hok.order, hok.nonneg⟩
    obtain ⟨_, h2, h3, _⟩ := hcl.reopen ho
    exact ⟨h2, h3⟩
  · intro hcap chk
    have hopen : ∃ r', r.rollOver.reopen c chk = some r' := by
      unfold Replica.reopen Segment.openForWrite
      rw [ha]
      show ∃ r', Option.map _ (Option.map _ (ite (0 < c.ix.cap) _ _)) = some r'
      rw [if_pos hcap]
      exact ⟨_, rfl⟩
    obtain ⟨r', ho⟩ := hopen
    obtain ⟨h1, h2, h3, h4, h5, _⟩ := hroll.reopen ho
    refine ⟨r', ho, h2.trans hb, h3.trans hl, ?_⟩
    rw [← hdisk]
    unfold Replica.onDisk
    have hact : r'.active.file = r.rollOver.active.file := by
      unfold Replica.reopen at ho
      rw [Option.map_eq_some_iff] at ho
      obtain ⟨a, ha', rfl⟩ := ho
      exact (hroll.active.openForWrite hroll.nonneg ha').2.2.2
    rw [hact, h5]
    congr 1
    have := congrArg (List.map fun x : Int × Int × List (Stored α) => (x.1, content x.2.2)) h4
    simpa [List.map_map, Function.comp_def] using this

/-- The process may die while retention removes segments (the log file goes first, then its index;
segment.rs:297-303): opening finds exactly the segments that are left. -/
theorem C14_during_retention (c : Cfg) (ops : List (Op α)) (hh : ∀ op ∈ ops, op.Honest)
    (hraw : ∀ op ∈ ops, op.Raw) (hleo : (Replica.init.run c ops).1.leo < 2 ^ 63) (left : Int → Bool) :
    let r := (Replica.init.run c ops).1
    let prev := r.prev.filter fun s => left s.base
    openDisk (prev.map (fun s => (s.base, content s.file)) ++ [(r.active.base, content r.active.file)])
      = some (prev.map (fun s => (s.base, content s.file, s.endOff)) ++
          [(r.active.base, content r.active.file, r.leo)]) := by
  intro r prev
  have hok : ReplicaOk r := ReplicaOk.run c ops Replica.init ReplicaOk.init hh
  have hr : ∀ b ∈ r.batches, RawBatch b.batch :=
    raw_run c ops Replica.init ReplicaOk.init (by intro b hb; cases hb) hh hraw
  have h := (hok.filterPrev (fun s => left s.base) 0).openDisk (cut := []) ?_ hleo (.inl rfl)
  · unfold Replica.onDisk at h
    rw [List.append_nil] at h
    exact h
  · intro b hb
    refine hr b ?_
    unfold Replica.batches at hb ⊢
    rcases List.mem_append.1 hb with hb | hb
    · obtain ⟨s, hs, hb⟩ := List.mem_flatMap.1 hb
      exact List.mem_append_left _ (List.mem_flatMap.2 ⟨s, (List.mem_filter.1 hs).1, hb⟩)
    · exact List.mem_append_right _ hb

/-- The link between bytes and batch lists used throughout: from the start of any batch of any segment,
decoding headers from the bytes yields exactly the remaining batches (offsets, positions, lengths). -/
theorem C14_scan_is_list (c : Cfg) (ops : List (Op α)) (hh : ∀ op ∈ ops, op.Honest)
    (hraw : ∀ op ∈ ops, op.Raw) (hleo : (Replica.init.run c ops).1.leo < 2 ^ 63)
    (s : Segment α) (hs : s ∈ (Replica.init.run c ops).1.prev ∨ s = (Replica.init.run c ops).1.active)
    (pre post : List (Stored α)) (hsplit : s.file = pre ++ post) :
    scan s.base (post.length + 1) ((content s.file).drop (width pre)) (width pre)
      = (listed (width pre) post, .clean) := by
  have hok := ReplicaOk.run c ops Replica.init ReplicaOk.init hh
  have hr := raw_run c ops Replica.init ReplicaOk.init (by intro b hb; cases hb) hh hraw
  generalize (Replica.init.run c ops).1 = r at *
  have hl : r.leo = r.active.endOff := rfl
  have hle := hok.active.chain.le
  have hn := hok.nonneg
  rw [hsplit]
  apply scan_from
  · intro b hb
    rw [← hsplit] at hb
    refine hr b ?_
    unfold Replica.batches
    rcases hs with hs | rfl
    · exact List.mem_append_left _ (List.mem_flatMap.2 ⟨s, hs, hb⟩)
    · exact List.mem_append_right _ hb
  · intro b hb
    rw [← hsplit] at hb
    rcases hs with hs | rfl
    · obtain ⟨h1, h2, h3, h4⟩ := hok.prev s hs
      have := h1.chain.mem hb
      refine ⟨this.1, ?_, ?_⟩ <;> omega
    · have := hok.active.chain.mem hb
      refine ⟨this.1, ?_, ?_⟩ <;> omega
  · omega

/-! Concrete cases -/

/-- one raw batch of two records and three payload bytes -/
def twoRecords : SBatch Nat :=
  ofRaw { sampleBatch with header := { BatchHeader.default with lastOffsetDelta := 1#32 } } [7, 8]

theorem twoRecords_raw : RawBatch twoRecords := ⟨_, rfl, rfl, by decide⟩

theorem twoRecords_honest : HonestBatch twoRecords :=
  ofRaw_honest (by decide) (by decide) (by decide)

def rawCfg : Cfg := ⟨150, 100, 1000, ⟨50, 8⟩⟩

def rawOps : List (Op Nat) :=
  [.write [twoRecords] true none, .write [twoRecords, twoRecords] true none,
   .write [twoRecords, twoRecords] true (some 1)]

example : (∀ op ∈ rawOps, op.Honest) ∧ (∀ op ∈ rawOps, op.Raw) := by
  constructor <;> intro op h <;>
    simp only [rawOps, List.mem_cons, List.not_mem_nil, or_false] at h <;>
    rcases h with rfl | rfl | rfl <;> intro b hb <;>
    simp only [List.mem_cons, List.not_mem_nil, or_false, or_self] at hb <;> subst hb
  all_goals first | exact twoRecords_honest | exact twoRecords_raw

/-- the fourth batch was written, the fifth interrupted -/
example : (Replica.init.run rawCfg rawOps).1.leo = 8 := by decide +kernel
example : (Replica.init.run rawCfg rawOps).1.prev.length = 2 := by decide +kernel
/-- a crash while the third segment is started -/
example : (Replica.init.run rawCfg (rawOps.take 2)).1.active.file.length = 1 ∧ 0 < rawCfg.ix.cap := by
  decide +kernel
/-- a crash in the middle of the fifth batch -/
example : (openDisk ((Replica.init.run rawCfg rawOps).1.onDisk ((twoRecords.enc 8).take 58))).map
    (List.map fun x => (x.1, x.2.1.length, x.2.2)) = some [(0, 120, 4), (4, 120, 8), (8, 0, 8)] := by
  decide +kernel

/-- The claim fails when the offset index of the active segment is full: the partition cannot be opened
any more, although its log is intact. -/
theorem C14_violated_index_full :
    let c : Cfg := ⟨1000, 100, 1000, ⟨50, 1⟩⟩
    let r := (Replica.init.run c [Op.write [twoRecords, twoRecords, twoRecords] true none]).1
    r.leo = 6 ∧ (r.reopen c (.value 6)).isNone = true := by decide +kernel

/-- This cannot happen when the index is large enough for a segment: as an index entry is made for at most
every `interval` bytes, `cap` entries suffice for segments of less than `cap * interval` bytes (by default
1 310 720 entries, one for 4096 bytes, and segments of 1 GB).  Then the partition can be opened again at every
point of its life, whatever is found in the checkpoint file. -/
theorem C14_opens_partial (c : Cfg) (hi : 0 < c.ix.interval) (hs : c.segMax < c.ix.cap * c.ix.interval)
    (ops : List (Op α)) (chk : ChkFile) :
    ((Replica.init.run c ops).1.reopen c chk).isSome = true :=
  (IxRoom.run hi ops _ (IxRoom.create c 0)).opens chk hs

example : ((Replica.init.run ⟨1000, 200, 1000, ⟨50, 21⟩⟩
      [Op.write [twoRecords, twoRecords, twoRecords] true none, .reopen (.value 3),
        .write [twoRecords, twoRecords] true none]).1.reopen ⟨1000, 200, 1000, ⟨50, 21⟩⟩ .missing).isSome = true :=
  C14_opens_partial _ (by decide) (by decide) _ _

/-- A batch with a schema id announces four bytes less than it encodes to, so that writing it to any
segment with room for it fails an assertion. -/
theorem C09_schema_batch_panics (c : Cfg) (s : Segment α) (io : Bool) (raw : Batch Bytes)
    (records : List α) (hs : raw.header.hasSchema = true) (hd : 0 ≤ raw.header.lastOffsetDelta.toInt)
    (hseg : s.base ≤ s.endOff) (hroom : sizeBatch rawC raw + width s.file ≤ c.segMax) :
    s.append c io (ofRaw raw records) = .error .panic := by
  unfold Segment.append
  rw [if_neg (by show ¬ raw.header.lastOffsetDelta.toInt < 0; omega), if_neg (by omega),
    if_neg (by show ¬ sizeBatch rawC raw + width s.file > c.segMax; omega), if_pos]
  show (encBatch rawC { raw with baseOffset := BitVec.ofInt 64 s.endOff }).length ≠ sizeBatch rawC raw
  rw [encBatch_length rawC_law _ trivial]
  unfold sizeBatch calcBatchLen batchHeaderSize
  simp only [hs, ↓reduceIte, batchPreambleSize]
  omega

end Verif.Props
