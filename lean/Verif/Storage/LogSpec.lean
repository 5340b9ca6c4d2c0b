import Verif.Storage.Read

/-!
# Specification of a partition log, and the refinement

A partition is, for its users, a list of records; the offset of a record is its position.
-/

namespace Verif.Storage

variable {α : Type}

/-- **Specification.** `log[k]` paired with its offset `k`. -/
def numbered (log : List α) : List (Int × α) := log.zipIdx.map fun p => ((p.2 : Int), p.1)

/-- **Specification.** The records of a record set, in order. -/
def recordsOf (set : List (SBatch α)) : List α := set.flatMap SBatch.records

/-- The (offset, record) pairs a consumer sees in a batch: base offset plus position —
fluvio-protocol/src/record/batch.rs:288-304 -/
def Stored.pairs (b : Stored α) : List (Int × α) :=
  b.batch.records.zipIdx.map fun p => (b.base + (p.2 : Int), p.1)

/-- Everything stored in the partition. -/
def Replica.pairs (r : Replica α) : List (Int × α) := r.batches.flatMap Stored.pairs

/-- **Specification.** What one operation may do to the log: a successful write appends all the records
and reports the old and the new end; a failed write appends at most some of the leading batches; nothing
else changes the log. -/
inductive LogStep : List α → Op α → Result → List α → Prop
  | wrote (log : List α) (set : List (SBatch α)) (u : Bool) (f : Option Nat) (bytes : Nat) :
      LogStep log (.write set u f)
        (.wrote log.length (log.length + (recordsOf set).length) bytes) (log ++ recordsOf set)
  | failed (log : List α) (dn rest : List (SBatch α)) (u : Bool) (f : Option Nat)
      (hcut : dn = [] ∨ f = some dn.length) (hrest : rest ≠ []) :
      LogStep log (.write (dn ++ rest) u f) .failed (log ++ recordsOf dn)
  | other (log : List α) (op : Op α) (x : Result) (hop : ∀ set u f, op ≠ .write set u f) :
      LogStep log op x log

/-- **Specification.** A sequence of operations. -/
inductive LogRun : List α → List (Op α) → List Result → List α → Prop
  | nil (log : List α) : LogRun log [] [] log
  | cons {log log' log'' : List α} {op : Op α} {x : Result} {ops : List (Op α)} {xs : List Result} :
      LogStep log op x log' → LogRun log' ops xs log'' → LogRun log (op :: ops) (x :: xs) log''

theorem zipIdx_map_shift (l : List α) (a : Int) (k : Nat) :
    (l.zipIdx k).map (fun p => (a + (p.2 : Int), p.1)) = l.zipIdx.map fun p => (a + (k : Int) + (p.2 : Int), p.1) := by
  induction l generalizing a k with
  | nil => rfl
  | cons x l ih =>
    simp only [List.zipIdx_cons, List.map_cons, Nat.zero_add]
    rw [ih a (k + 1), ih (a + k) 1]
    congr 1
    · simp
    · apply List.map_congr_left
      intro p _
      simp only [Prod.mk.injEq, and_true]
      omega

theorem numbered_append (l m : List α) :
    numbered (l ++ m) = numbered l ++ m.zipIdx.map fun p => ((l.length : Int) + (p.2 : Int), p.1) := by
  unfold numbered
  rw [List.zipIdx_append, List.map_append]
  congr 1
  have := zipIdx_map_shift m 0 l.length
  simp only [Int.zero_add] at this
  simpa using this

theorem pairs_place : ∀ (dn : List (SBatch α)) (a : Int),
    (place a dn).flatMap Stored.pairs = (recordsOf dn).zipIdx.map fun p => (a + (p.2 : Int), p.1)
  | [], _ => rfl
  | b :: bs, a => by
    unfold place
    rw [List.flatMap_cons, pairs_place bs]
    unfold recordsOf
    rw [List.flatMap_cons, List.zipIdx_append, List.map_append]
    congr 1
    have := zipIdx_map_shift (List.flatMap SBatch.records bs) a b.records.length
    rw [Nat.zero_add]
    exact this.symm

theorem sublist_flatMap {β γ : Type _} (f : β → List γ) {l m : List β} (h : l.Sublist m) :
    (l.flatMap f).Sublist (m.flatMap f) := by
  induction h with
  | slnil => exact List.Sublist.refl _
  | cons a _ ih =>
    rw [List.flatMap_cons]; exact ih.trans (List.sublist_append_right _ _)
  | cons_cons a _ ih =>
    rw [List.flatMap_cons, List.flatMap_cons]; exact (List.Sublist.refl _).append ih

theorem recordCount_eq (dn : List (SBatch α)) : recordCount dn = (recordsOf dn).length := by
  unfold recordCount recordsOf
  rw [List.length_flatMap]

/-- The state `r` stores (all or part of) `log`. -/
structure Stores (r : Replica α) (log : List α) : Prop where
  ok : ReplicaOk r
  leo : r.leo = log.length
  part : r.pairs.Sublist (numbered log)

/-- An operation that removes nothing. -/
def Op.Keeps : Op α → Prop
  | .cleanSize | .cleanTtl _ => False
  | _ => True

/-- One step of the refinement. -/
theorem Stores.step {r : Replica α} {log : List α} (h : Stores r log) (c : Cfg) (op : Op α)
    (ho : op.Honest) :
    ∃ log', LogStep log op (r.step c op).2 log' ∧ Stores (r.step c op).1 log' ∧
      (op.Keeps → r.pairs = numbered log → (r.step c op).1.pairs = numbered log') := by
  have hok := h.ok.step c op ho
  cases op with
  | write set u f =>
    obtain ⟨h1, dn, rest, e1, e2, e3, e4⟩ := write_spec c h.ok set u f ho
    have hpairs : (r.write c set u f).1.pairs = r.pairs ++
        (recordsOf dn).zipIdx.map fun p => ((log.length : Int) + (p.2 : Int), p.1) := by
      unfold Replica.pairs
      rw [e2, List.flatMap_append, pairs_place, h.leo]
    have hst : (r.step c (.write set u f)).1 = (r.write c set u f).1 := by
      unfold Replica.step
      dsimp only
      generalize r.write c set u f = res
      obtain ⟨r', x⟩ := res
      cases x <;> rfl
    refine ⟨log ++ recordsOf dn, ?_, ⟨hok, ?_, ?_⟩, ?_⟩
    · rcases e4 with ⟨e, he, hr, _, hcut⟩ | ⟨he, hr, _⟩
      · have : (r.step c (.write set u f)).2 = .failed := by
          unfold Replica.step
          dsimp only
          generalize r.write c set u f = res at *
          obtain ⟨r', x⟩ := res
          simp only at he
          subst he
          rfl
        rw [this, e1]
        exact .failed log dn rest u f hcut hr
      · subst hr
        have hset : set = dn := by rw [e1, List.append_nil]
        subst hset
        have : (r.step c (.write set u f)).2 =
            .wrote log.length (log.length + (recordsOf set).length) (set.map SBatch.size).sum := by
          unfold Replica.step
          dsimp only
          rw [h.leo, recordCount_eq] at he
          generalize r.write c set u f = res at *
          obtain ⟨r', x⟩ := res
          simp only at he
          subst he
          rfl
        rw [this]
        exact .wrote log set u f _
    · rw [hst, e3, h.leo, recordCount_eq]; simp
    · rw [hst, hpairs, numbered_append]
      exact h.part.append (List.Sublist.refl _)
    · intro _ hp
      rw [hst, hpairs, hp, numbered_append]
  | updateHw o => exact ⟨log, .other _ _ _ (by intros; simp), ⟨hok, h.leo, h.part⟩, fun _ hp => hp⟩
  | cleanSize =>
    refine ⟨log, .other _ _ _ (by intros; simp), ⟨hok, ?_, ?_⟩, fun hk => hk.elim⟩
    · show (r.cleanSize c).leo = _
      rw [← h.leo]; unfold Replica.cleanSize; dsimp only; split <;> rfl
    · refine List.Sublist.trans ?_ h.part
      show (r.cleanSize c).pairs.Sublist _
      unfold Replica.cleanSize
      dsimp only
      split
      · apply sublist_flatMap _
        exact List.Sublist.append (sublist_flatMap _ List.filter_sublist) (List.Sublist.refl _)
      · exact List.Sublist.refl _
  | cleanTtl e =>
    refine ⟨log, .other _ _ _ (by intros; simp), ⟨hok, ?_, ?_⟩, fun hk => hk.elim⟩
    · show (r.cleanTtl e).leo = _
      rw [← h.leo]; unfold Replica.cleanTtl; dsimp only; split <;> rfl
    · refine List.Sublist.trans ?_ h.part
      show (r.cleanTtl e).pairs.Sublist _
      unfold Replica.cleanTtl
      dsimp only
      split
      · exact List.Sublist.refl _
      · apply sublist_flatMap _
        exact List.Sublist.append (sublist_flatMap _ List.filter_sublist) (List.Sublist.refl _)
  | reopen chk =>
    unfold Replica.step at hok ⊢
    dsimp only at hok ⊢
    cases hr : r.reopen c chk with
    | none => exact ⟨log, .other _ _ _ (by intros; simp), h, fun _ hp => hp⟩
    | some r' =>
      obtain ⟨k1, k2, k3, _⟩ := h.ok.reopen hr
      have hp : r'.pairs = r.pairs := by unfold Replica.pairs; rw [k2]
      refine ⟨log, .other _ _ _ (by intros; simp), ⟨k1, by rw [← h.leo]; exact k3, by
        show r'.pairs.Sublist _; rw [hp]; exact h.part⟩, fun _ h' => ?_⟩
      show r'.pairs = _
      rw [hp, h']

theorem Stores.run (c : Cfg) : ∀ (ops : List (Op α)) (r : Replica α) (log : List α), Stores r log →
    (∀ op ∈ ops, op.Honest) →
    ∃ log', LogRun log ops (r.run c ops).2 log' ∧ Stores (r.run c ops).1 log' ∧
      ((∀ op ∈ ops, op.Keeps) → r.pairs = numbered log → (r.run c ops).1.pairs = numbered log')
  | [], r, log, h, _ => ⟨log, .nil log, h, fun _ hp => hp⟩
  | op :: ops, r, log, h, ho => by
    obtain ⟨log1, s1, s2, s3⟩ := h.step c op (ho op (by simp))
    obtain ⟨log2, t1, t2, t3⟩ := Stores.run c ops _ log1 s2 fun o h' => ho o (by simp [h'])
    refine ⟨log2, .cons s1 t1, t2, ?_⟩
    intro hk hp
    exact t3 (fun o h' => hk o (by simp [h'])) (s3 (hk op (by simp)) hp)

theorem Stores.init : Stores (Replica.init : Replica α) [] where
  ok := ReplicaOk.init
  leo := rfl
  part := by
    show ([] : List (Int × α)).Sublist _
    exact List.nil_sublist _

end Verif.Storage
