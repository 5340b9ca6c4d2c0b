import Verif.Storage.Reader
import Verif.Props.Recovery
import Verif.Props.Batch

/-!
# C13: reading a partition from start to end

The reader starts at the log start of a partition with any history; while it reads, records are
written, watermarks move and the partition is reopened, in any interleaving.  `Replica.pairs` are the
stored records with their offsets, in order (their offsets are consecutive, see C09).
-/

namespace Verif.Props
open Verif.Storage Verif.Wire

variable {α : Type}

theorem ReaderOk.start {r : Replica α} (h : ReplicaOk r) (hs : Seamless r) :
    ReaderOk r ⟨r.logStart, []⟩ :=
  ⟨h, hs, Int.le_refl _, (hs : Chain _ _ _).le, by simp⟩

/-- The general form, for any decoder that delivers complete batches only. -/
theorem reader_exactly_once {parse : Parser α} {P : SBatch α → Prop} {Q : Nat → Prop} (c : Cfg)
    (hd : GoodDecoder parse c P Q) (ops : List (Op α)) (hh : ∀ op ∈ ops, op.Honest)
    (hn : ∀ op ∈ ops, ∀ e, op ≠ .cleanTtl e) (hP : ∀ op ∈ ops, op.All P)
    (evs : List (Ev α)) (hg : ∀ e ∈ evs, e.Good P) (hl : ∀ e ∈ evs, e.Limit Q) :
    let r0 := (Replica.init.run c ops).1
    let s := Reader.run parse c (r0, ⟨r0.logStart, []⟩) evs
    s.1.leo < 2 ^ 63 →
    s.2.got = s.1.pairs.take (s.2.next - r0.logStart).toNat ∧ s.2.next ≤ s.1.leo ∧
    ∀ n k, Q n → (∀ b ∈ s.1.batches, b.width ≤ n) → (s.1.leo - s.2.next).toNat ≤ k →
      (Reader.run parse c s (List.replicate k (.fetch n))).2 = ⟨s.1.leo, s.1.pairs⟩ := by
  intro r0 s hleo
  have hok : ReplicaOk r0 := ReplicaOk.run c ops Replica.init ReplicaOk.init hh
  have hs : Seamless r0 := Seamless.run c ops Replica.init ReplicaOk.init Seamless.init hh hn
  have hb : Bounded c r0 := Bounded.run c ops (Bounded.init c)
  have hall : ∀ b ∈ r0.batches, P b.batch :=
    all_run c ops Replica.init ReplicaOk.init (by intro b hb; cases hb) hh hP
  obtain ⟨h1, h2, h3⟩ := ReaderOk.run hd evs r0 _ (ReaderOk.start hok hs) hb hall hg hl hleo
  have hls : s.1.logStart = r0.logStart := by
    have : ∀ (evs : List (Ev α)) (r : Replica α) (x : Reader α), ReplicaOk r → Seamless r →
        (∀ e ∈ evs, e.Good P) → (Reader.run parse c (r, x) evs).1.logStart = r.logStart := by
      intro evs
      induction evs with
      | nil => intro r x _ _ _; rfl
      | cons e evs ih =>
        intro r x hr hsr hg
        cases e with
        | fetch n => exact ih r _ hr hsr fun e he => hg e (by simp [he])
        | op o =>
          obtain ⟨g1, g2, _⟩ := hg (.op o) (by simp)
          have hn : ∀ e, o ≠ .cleanTtl e := by
            intro e he
            rw [he] at g2
            exact g2
          have hs' := hsr.step hr c o g1 hn
          obtain ⟨y, hy1, hy2⟩ := keeps_step hr c o g1 g2
          have := ih (r.step c o).1 x (hr.step c o g1) hs' fun e he => hg e (by simp [he])
          exact this.trans (hsr.logStart_eq hs' hy1 hy2)
    exact this evs r0 _ hok hs hg
  refine ⟨?_, h1.hi, ?_⟩
  · rw [← hls]; exact h1.got
  · intro n k hn hw hk
    obtain ⟨y, e1, e2, e3⟩ := ReaderOk.reaches hd h2 hleo h3 n hn hw k s.2 h1 hk
    have e1' : Reader.run parse c s (List.replicate k (.fetch n)) = (s.1, y) := e1
    rw [e1']
    have hgot := e2.got
    rw [e3, List.take_of_length_le] at hgot
    · obtain ⟨yn, yg⟩ := y
      simp only at hgot e3 ⊢
      rw [hgot, e3]
    · have hp := (e2.seamless : Chain _ _ _).pairs fun b hb => honest_of_mem e2.ok hb
      have h5 : s.1.pairs = shifted s.1.logStart _ := hp.1
      have h6 := hp.2
      rw [h5, shifted_length]
      omega

/-- A reader that decodes complete batches, whatever the byte limits of its fetches: at any moment it
has received exactly the records before its position, once each and in order; and with a limit that
admits every batch it reaches the end in at most as many fetches as there are records left, having
received the whole log.  `rd` decodes the records of one batch.

Missing: this is not how the client decodes, see `C13_violated_truncated_batch`; for the client see
`C13_client_partial`. -/
theorem C13_reader_partial (c : Cfg) (rd : Bytes → List α) (ops : List (Op α))
    (hh : ∀ op ∈ ops, op.Honest) (hn : ∀ op ∈ ops, ∀ e, op ≠ .cleanTtl e)
    (hP : ∀ op ∈ ops, op.All fun b => RawBatch b ∧ ∀ e, rd (b.enc e) = b.records)
    (evs : List (Ev α)) (hg : ∀ e ∈ evs, e.Good fun b => RawBatch b ∧ ∀ e, rd (b.enc e) = b.records) :
    let r0 := (Replica.init.run c ops).1
    let s := Reader.run (parseWhole rd) c (r0, ⟨r0.logStart, []⟩) evs
    s.1.leo < 2 ^ 63 →
    s.2.got = s.1.pairs.take (s.2.next - r0.logStart).toNat ∧ s.2.next ≤ s.1.leo ∧
    ∀ n k, (∀ b ∈ s.1.batches, b.width ≤ n) → (s.1.leo - s.2.next).toNat ≤ k →
      (Reader.run (parseWhole rd) c s (List.replicate k (.fetch n))).2 = ⟨s.1.leo, s.1.pairs⟩ := by
  intro r0 s hleo
  have hd : GoodDecoder (parseWhole rd) c
      (fun b => RawBatch b ∧ ∀ e, rd (b.enc e) = b.records) (fun _ => True) := by
    intro n l _ _ hl
    exact parseWhole_good n (fun b hb => ⟨(hl b hb).1.1, (hl b hb).2.2⟩) fun b hb => (hl b hb).1.2
  obtain ⟨h1, h2, h3⟩ := reader_exactly_once c hd ops hh hn hP evs hg
    (fun e _ => by cases e <;> trivial) hleo
  exact ⟨h1, h2, fun n k => h3 n k trivial⟩

/-- The client as it is, when no fetch is cut off: with byte limits of at least a segment it receives
every record exactly once, in order, and reaches the end. -/
theorem C13_client_partial (z : Compressor) (hz : ∀ c bs, z.uncompress c (z.compress c bs) = some bs)
    (c : Cfg) (ops : List (Op Record))
    (hh : ∀ op ∈ ops, op.Honest) (hn : ∀ op ∈ ops, ∀ e, op ≠ .cleanTtl e)
    (hP : ∀ op ∈ ops, op.All (FromClient z))
    (evs : List (Ev Record)) (hg : ∀ e ∈ evs, e.Good (FromClient z))
    (hl : ∀ e ∈ evs, e.Limit (c.segMax ≤ ·)) :
    let r0 := (Replica.init.run c ops).1
    let s := Reader.run (parseClient z) c (r0, ⟨r0.logStart, []⟩) evs
    s.1.leo < 2 ^ 63 →
    s.2.got = s.1.pairs.take (s.2.next - r0.logStart).toNat ∧ s.2.next ≤ s.1.leo ∧
    ∀ n k, c.segMax ≤ n → (∀ b ∈ s.1.batches, b.width ≤ n) → (s.1.leo - s.2.next).toNat ≤ k →
      (Reader.run (parseClient z) c s (List.replicate k (.fetch n))).2 = ⟨s.1.leo, s.1.pairs⟩ := by
  have hd : GoodDecoder (parseClient z) c (FromClient z) (c.segMax ≤ ·) := by
    intro n l hn hw hl
    exact parseClient_good hz n hl (by omega)
  exact reader_exactly_once c hd ops hh hn hP evs hg hl

/-! Concrete cases -/

def noCompression : Compressor := ⟨fun _ b => b, fun _ b => some b⟩

/-- A batch of two records as a client sends it. -/
def clientRaw : Batch Bytes :=
  ⟨0#64, 0#32, { BatchHeader.default with lastOffsetDelta := 1#32 }, 0#32,
    memC.enc [sampleRecord, sampleRecord]⟩

def clientBatch : SBatch Record := ofRaw clientRaw [sampleRecord, sampleRecord]

theorem clientBatch_ok : HonestBatch clientBatch ∧ FromClient noCompression clientBatch := by
  refine ⟨ofRaw_honest (by decide) (by decide) (by decide), ?_⟩
  refine ⟨⟨0#64, 0#32, { BatchHeader.default with lastOffsetDelta := 1#32 }, 0#32,
    [sampleRecord, sampleRecord]⟩, { clientRaw with batchLen := BitVec.ofNat 32 clientRaw.records.length },
    rfl, rfl, ?_, ?_, rfl, by decide⟩
  · refine ⟨by decide, ?_⟩
    intro r hr
    simp only [List.mem_cons, List.not_mem_nil, or_false, or_self] at hr
    subst hr
    exact sampleRecord_fits.wf
  · funext e
    rfl

def clientCfg : Cfg := ⟨1000, 1000, 10000, ⟨50, 8⟩⟩

/-- a reader that is already reading when the third batch arrives -/
example : (Reader.run (parseClient noCompression) clientCfg
    ((Replica.init.run clientCfg [Op.write [clientBatch, clientBatch] true none]).1, ⟨0, []⟩)
    [.fetch 1000, .op (.write [clientBatch] true none), .fetch 1000]).2.got.map (·.1)
    = [0, 1, 2, 3, 4, 5] := by decide +kernel

/-- The claim fails for the client when a byte limit (here larger than every batch) cuts a batch: the
records behind the cut are never delivered, and the client goes on behind them. -/
theorem C13_violated_truncated_batch :
    let r := (Replica.init.run clientCfg [Op.write [clientBatch, clientBatch] true none]).1
    let s := Reader.run (parseClient noCompression) clientCfg (r, ⟨0, []⟩)
      (List.replicate 4 (.fetch (2 * clientBatch.size - 1)))
    r.leo = 4 ∧ s.2.next = 4 ∧ s.2.got.map (·.1) = [0, 1, 2] := by decide +kernel

end Verif.Props
