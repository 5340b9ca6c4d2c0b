import Verif.Replication.Store
import Verif.Props.Reader
import Verif.Replication.Ack

/-!
# C19 on the stored bytes

One exchange between a leader and a follower with real storages: the leader has gone through any
history without age-based retention, the follower's log is a prefix of the leader's, batch by batch
(offset, bytes and records), and the leader answers a report of the follower's end.
-/

namespace Verif.Props
open Verif.Storage Verif.Wire Verif.Replication

variable {α : Type}

/-- If the byte limit of the message cuts no batch (a limit of at least a segment), the follower's
log is again a prefix of the leader's afterwards, longer than before unless its write failed. -/
theorem C19_bytes_partial (c cf : Cfg) (rd : Bytes → List α) (ops : List (Op α))
    (hh : ∀ op ∈ ops, op.Honest) (hn : ∀ op ∈ ops, ∀ e, op ≠ .cleanTtl e) (g : Replica α)
    (hg : ReplicaOk g) (n : Nat) (hcut : c.segMax ≤ n) (f : Option Nat) :
    let lead := (Replica.init.run c ops).1
    (∀ b ∈ lead.batches, Plain rd b) → g.batches <+: lead.batches →
    Chain lead.logStart g.batches g.leo → g.leo < lead.leo →
    ∃ res bytes, lead.readPartition g.leo n .uncommitted = .ok res ∧ res.data = some bytes ∧
      (let w := receiveBytes cf rd g bytes f
       ReplicaOk w.1 ∧ w.1.batches <+: lead.batches ∧ g.batches <+: w.1.batches ∧
        Chain lead.logStart w.1.batches w.1.leo ∧
        ((w.2 = .ok true ∧ g.leo < w.1.leo) ∨ ∃ x, w.2 = .error x)) := by
  intro lead hp hpre hgc hlt
  exact copy_step (ReplicaOk.run c ops Replica.init ReplicaOk.init hh)
    (Bounded.run c ops (Bounded.init c))
    (Seamless.run c ops Replica.init ReplicaOk.init Seamless.init hh hn) hp hg hpre hgc hlt hcut f

/-! Concrete cases: the batches of `clientCfg` in C13 -/

/-- What a consumer reads out of an encoded batch. -/
def clientRead (bs : Bytes) : List Record :=
  match decBatches rawC bs.length bs with
  | .ok (b :: _, _) => match toMem noCompression b with
    | .ok m => m.records
    | .error _ => []
  | _ => []

def clientLog : Replica Record := (Replica.init.run clientCfg [Op.write [clientBatch, clientBatch] false none]).1

/-- the whole log in one message -/
example :
    let bytes := ((clientLog.readPartition 0 1000 .uncommitted).toOption.bind (·.data)).getD []
    let w := receiveBytes clientCfg clientRead Replica.init bytes none
    w.2 = .ok true ∧ w.1.leo = 4 ∧ content w.1.batches = content clientLog.batches := by decide +kernel

/-- A limit that cuts the second batch, although it is larger than each batch: the follower stores the
part it got as a complete batch.  Its end offset then equals the leader's, so the rest is never sent;
the last record is committed once the follower reports, and lost if the follower becomes leader. -/
theorem C19_violated_cut_batch :
    let bytes := ((clientLog.readPartition 0 (2 * clientBatch.size - 1) .uncommitted).toOption.bind
      (·.data)).getD []
    let w := receiveBytes clientCfg clientRead Replica.init bytes none
    w.2 = .ok true ∧ w.1.leo = clientLog.leo ∧ content w.1.batches ≠ content clientLog.batches ∧
    (w.1.batches.flatMap fun b => b.batch.records).length = 3 ∧
    (clientLog.batches.flatMap fun b => b.batch.records).length = 4 := by decide +kernel

/-- The same cut makes an acknowledgement wrong.  A leader with one follower wrote two batches; the
follower got them cut by one byte and reports its end; the leader merges the report, the watermark
passes the write, and the producer waiting with committed isolation is told success, although the
last acknowledged record is not on the follower and, both ends being equal, no message will bring it. -/
theorem C22_violated_cut_batch :
    let bytes := ((clientLog.readPartition 0 (2 * clientBatch.size - 1) .uncommitted).toOption.bind
      (·.data)).getD []
    let follower := (receiveBytes clientCfg clientRead Replica.init bytes none).1
    let leader : Leader Record :=
      ⟨clientLog.batches.map (fun b => b.batch.records), clientLog.leo, 0, fun _ => ⟨0, 0⟩, false⟩
    let after := leader.merge 1 ⟨0, ⟨0, follower.leo⟩, ⟨leader.hw, leader.leo⟩⟩ true
    waitForAcks true clientLog.leo leader.hw [after.hw] = .none ∧
    (clientLog.batches.flatMap fun b => b.batch.records).length = 4 ∧
    (follower.batches.flatMap fun b => b.batch.records).length = 3 ∧
    (after.updates 0 ⟨after.hw, after.leo⟩ 10).map (fun m => m.batches.length) = some 0 := by
  decide +kernel

/-- The batches of the concrete case meet the hypothesis `Plain`. -/
theorem clientBatch_plain (o : Int) (ho : Fits64 o) : Plain clientRead ⟨o, clientBatch⟩ := by
  refine ⟨clientRaw, rfl, by decide, ?_, by decide, clientBatch_ok.1, ho⟩
  intro e
  show clientRead (encBatch rawC { clientRaw with baseOffset := BitVec.ofInt 64 e }) = _
  generalize BitVec.ofInt 64 e = x
  have h := decBatches_enc rawC_law [{ clientRaw with baseOffset := x }]
    (encBatch rawC { clientRaw with baseOffset := x }).length (fun _ _ => trivial)
    (by intro b hb; simp only [List.mem_singleton] at hb; subst hb; show calcBatchLen rawC clientRaw < 2 ^ 31; decide) (by simp)
  simp only [List.flatMap_cons, List.flatMap_nil, List.append_nil, List.map_cons, List.map_nil] at h
  unfold clientRead
  rw [h]
  have e1 : memoryRecords noCompression (asWritten rawC { clientRaw with baseOffset := x })
      = memoryRecords noCompression clientRaw := by
    have h1 : (asWritten rawC { clientRaw with baseOffset := x }).header.compression
      = clientRaw.header.compression := by simp [asWritten, BatchHeader.compression]
    have h2 : (asWritten rawC { clientRaw with baseOffset := x }).records = clientRaw.records := by
      simp [asWritten]
    unfold memoryRecords
    rw [h1, h2]
  have e2 : memoryRecords noCompression clientRaw = .ok clientBatch.records := by decide +kernel
  dsimp only
  unfold toMem
  rw [e1, e2]

end Verif.Props
