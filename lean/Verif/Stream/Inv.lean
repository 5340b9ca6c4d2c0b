import Verif.Stream.Server

/-!
# The invariant of a stream
-/

namespace Verif.Stream
open Verif.Wire (Bytes)
open Verif.Storage

variable {α : Type}

/-! ## What is sent -/

/-- **Specification.** `bs` is what is stored from the batch containing `o` on: the batches `run`, one
after the other, cut after `n` bytes. -/
def Slice (r : Replica α) (n : Nat) (o : Int) (run : List (Stored α)) (bs : Bytes) : Prop :=
  (∃ pre post, r.batches = pre ++ run ++ post) ∧
  (∃ b tl, run = b :: tl ∧ b.base ≤ o ∧ o ≤ b.last) ∧
  bs = (content run).take n

/-- **Specification.** The slices follow each other: the first starts with the batch containing `start`,
the consumer takes some leading batches (at least one) of each, and the next one starts right behind
them.  The last argument is the offset behind what was taken of the last slice. -/
inductive Sent (r : Replica α) (n : Nat) (start : Int) : List Bytes → Int → Prop
  | none : Sent r n start [] start
  | more {l : List Bytes} {o : Int} {bs : Bytes} {taken rest : List (Stored α)} {b : Stored α} :
      Sent r n start l o → Slice r n o (taken ++ rest) bs → taken.getLast? = some b →
      Sent r n start (l ++ [bs]) (b.last + 1)

/-! ## Reading -/

/-- The batch containing `o`, if there is one, starts at `o`. -/
def Boundary (r : Replica α) (o : Int) : Prop := ∀ b ∈ r.batches, b.base ≤ o → o ≤ b.last → b.base = o

/-- No batch that contains `o` ends before `e`. -/
def Unreadable (r : Replica α) (e o : Int) : Prop := ∀ b ∈ r.batches, b.base ≤ o → o ≤ b.last → e ≤ b.last

/-- A read within the readable part: batches from the one containing the offset on, or nothing because
no such batch is readable. -/
theorem readPartition_spec {c : Cfg} {r : Replica α} (h : ReplicaOk r) (hs : Seamless r)
    (hbd : Bounded c r) (hc : c.segMax < 2 ^ 32) (hhw : r.hw ≤ r.leo) (iso : Isolation) {o : Int}
    (h1 : r.logStart ≤ o) (h2 : o ≤ readEnd iso r) (n : Nat) :
    (∃ run bs, Slice r n o run bs ∧ (∀ x ∈ run, x.last < readEnd iso r) ∧ width run ≤ c.segMax ∧
      r.readPartition o n iso = .ok ⟨r.logStart, r.hw, r.leo, some bs⟩) ∨
    (Unreadable r (readEnd iso r) o ∧
      (r.readPartition o n iso = .ok ⟨r.logStart, r.hw, r.leo, some []⟩ ∨
       r.readPartition o n iso = .ok ⟨r.logStart, r.hw, r.leo, none⟩)) := by
  have hle : o ≤ r.leo := by cases iso <;> simp only [readEnd] at h2 <;> omega
  by_cases hend : o = r.leo
  · right
    refine ⟨?_, .inr ?_⟩
    · intro b hb _ h4
      have := (hs : Chain _ _ _).mem hb
      omega
    · cases iso
      · rw [hend]; exact (h.read_outside _ n).1
      · rw [hend]; exact (h.read_outside _ n).1
  · obtain ⟨b, hb, h3, h4⟩ := hs.contains h1 (by omega)
    have huniq : ∀ x ∈ r.batches, x.base ≤ o → o ≤ x.last → x.last = b.last := by
      intro x hx h5 h6
      obtain ⟨pre, post, hf⟩ := List.append_of_mem hb
      have hch : Chain r.logStart (pre ++ b :: post) r.leo := by rw [← hf]; exact hs
      obtain ⟨y, k1, k2⟩ := hch.split
      rw [hf, List.mem_append, List.mem_cons] at hx
      rcases hx with hx | rfl | hx
      · have := k1.mem hx; have := k2.1; omega
      · rfl
      · have := k2.2.2.mem hx; omega
    cases iso with
    | uncommitted =>
      left
      obtain ⟨pre, run, post, e1, e2, e3⟩ := h.read_stored_width hb h3 h4 n
      refine ⟨b :: run, _, ⟨⟨pre, post, e1⟩, ⟨b, run, rfl, h3, h4⟩, rfl⟩, ?_, e3 c hbd, e2⟩
      intro x hx
      exact ((hs : Chain _ _ _).mem (b := x) (by rw [e1]; simp only [List.mem_append]; exact .inl (.inr hx))).2.2
    | committed =>
      obtain ⟨pre, run, post, e1, e2, e3, e4, e5, e6⟩ := h.read_bounded_width hbd hc hb h3 h4 h2 n
      by_cases hlt : b.last < r.hw
      · obtain ⟨tl, rfl⟩ := e3 hlt
        exact .inl ⟨b :: tl, _, ⟨⟨pre, post, e1⟩, ⟨b, tl, rfl, h3, h4⟩, rfl⟩, e2, e6, e4⟩
      · right
        have hrun : run = [] := by
          cases run with
          | nil => rfl
          | cons x tl =>
            have : x = b := by simpa using e5
            exact absurd (e2 x (by simp)) (by rw [this]; exact hlt)
        subst hrun
        refine ⟨?_, .inl ?_⟩
        · intro x hx h5 h6
          rw [huniq x hx h5 h6]
          exact Int.not_lt.1 hlt
        · rw [show content ([] : List (Stored α)) = [] from rfl, List.take_nil] at e4
          exact e4

/-! ## What the client makes of it -/

/-- The records from `a` on and before `e`. -/
def between (r : Replica α) (a e : Int) : List (Int × α) :=
  r.pairs.filter fun q => decide (a ≤ q.1 ∧ q.1 < e)

theorem between_self (r : Replica α) (a : Int) : between r a a = [] := by
  unfold between
  rw [List.filter_eq_nil_iff]
  intro q _ h
  have := of_decide_eq_true h
  omega

theorem chain_offsets {l : List (Stored α)} {a e : Int} (h : Chain a l e)
    (hh : ∀ b ∈ l, HonestBatch b.batch) {q : Int × α} (hq : q ∈ l.flatMap Stored.pairs) :
    a ≤ q.1 ∧ q.1 < e := by
  obtain ⟨h1, h2⟩ := h.pairs hh
  rw [h1] at hq
  have := shifted_mem hq
  omega

/-- Taking the leading batches of a slice moves on exactly to their end. -/
theorem advance {r : Replica α} (h : ReplicaOk r) (hs : Seamless r) {n : Nat} {o start : Int}
    {taken rest : List (Stored α)} {bs : Bytes} {b : Stored α} (hsl : Slice r n o (taken ++ rest) bs)
    (hl : taken.getLast? = some b) (hb : o = start ∨ Boundary r o) :
    between r start o ++ (taken.flatMap Stored.pairs).filter (fun q => start ≤ q.1)
      = between r start (b.last + 1) ∧
    o < b.last + 1 ∧ Boundary r (b.last + 1) ∧ b ∈ taken := by
  obtain ⟨⟨pre, post, e1⟩, ⟨x, tl, e2, h3, h4⟩, _⟩ := hsl
  obtain ⟨tk, htk⟩ : ∃ tk, taken = x :: tk := by
    cases taken with
    | nil => cases hl
    | cons y tk => rw [List.cons_append, List.cons.injEq] at e2; exact ⟨tk, by rw [e2.1]⟩
  have e1' : r.batches = pre ++ (taken ++ (rest ++ post)) := by rw [e1]; simp only [List.append_assoc]
  have hch : Chain r.logStart (pre ++ (taken ++ (rest ++ post))) r.leo := by rw [← e1']; exact hs
  obtain ⟨y1, c1, c23⟩ := hch.split
  obtain ⟨y2, c2, c3⟩ := c23.split
  have hy2 : b.last + 1 = y2 := by
    have := c2.getLast (by rw [htk]; simp)
    rw [hl] at this
    simpa using this
  have hx : x ∈ r.batches := by rw [e1', htk]; simp
  have hy1 : x.base = y1 := by rw [htk] at c2; exact c2.1
  have hlast : x.last + 1 ≤ y2 := by rw [htk] at c2; exact c2.2.2.le
  have hon : ∀ l : List (Stored α), (∀ z ∈ l, z ∈ r.batches) → ∀ z ∈ l, HonestBatch z.batch :=
    fun l hl z hz => honest_of_mem h (hl z hz)
  have o1 : ∀ q ∈ pre.flatMap Stored.pairs, r.logStart ≤ q.1 ∧ q.1 < y1 := fun q hq =>
    chain_offsets c1 (hon pre fun z hz => by rw [e1']; simp [hz]) hq
  have o2 : ∀ q ∈ taken.flatMap Stored.pairs, y1 ≤ q.1 ∧ q.1 < y2 := fun q hq =>
    chain_offsets c2 (hon taken fun z hz => by rw [e1']; simp [hz]) hq
  have o3 : ∀ q ∈ (rest ++ post).flatMap Stored.pairs, y2 ≤ q.1 ∧ q.1 < r.leo := fun q hq =>
    chain_offsets c3 (hon _ fun z hz => by rw [e1']; exact List.mem_append_right _ (List.mem_append_right _ hz)) hq
  refine ⟨?_, by omega, ?_, List.mem_of_getLast? hl⟩
  · have hp : r.pairs = pre.flatMap Stored.pairs ++ (taken.flatMap Stored.pairs ++
        (rest ++ post).flatMap Stored.pairs) := by
      unfold Replica.pairs; rw [e1', List.flatMap_append, List.flatMap_append]
    unfold between
    rw [hp, List.filter_append, List.filter_append, List.filter_append, List.filter_append]
    have f3 : ∀ e : Int, e ≤ y2 → ((rest ++ post).flatMap Stored.pairs).filter
        (fun q => decide (start ≤ q.1 ∧ q.1 < e)) = [] := by
      intro e he
      rw [List.filter_eq_nil_iff]
      intro q hq hd
      have := o3 q hq; have := of_decide_eq_true hd; omega
    rw [f3 o (by omega), f3 (b.last + 1) (by omega), List.append_nil, List.append_nil]
    have f2 : (taken.flatMap Stored.pairs).filter (fun q => decide (start ≤ q.1 ∧ q.1 < o)) = [] := by
      rw [List.filter_eq_nil_iff]
      intro q hq hd
      have h5 := o2 q hq; have h6 := of_decide_eq_true hd
      rcases hb with hb | hb
      · omega
      · have := hb x hx h3 h4; omega
    rw [f2, List.append_nil]
    congr 1
    · apply List.filter_congr
      intro q hq
      have := o1 q hq
      exact decide_eq_decide.2 ⟨fun hd => ⟨hd.1, by omega⟩, fun hd => ⟨hd.1, by omega⟩⟩
    · apply List.filter_congr
      intro q hq
      have := o2 q hq
      exact decide_eq_decide.2 ⟨fun hd => ⟨hd, by omega⟩, fun hd => hd.1⟩
  · intro z hz h5 h6
    rw [e1', ← List.append_assoc, List.mem_append] at hz
    rcases hz with hz | hz
    · have := (c1.append c2).mem hz; omega
    · have := c3.mem hz; omega

/-! ## Growth of the log -/

/-- `r'` is `r` with more batches at the end. -/
structure Grows (r r' : Replica α) : Prop where
  ok : ReplicaOk r'
  seamless : Seamless r'
  start : r'.logStart = r.logStart
  more : ∃ x, r'.batches = r.batches ++ x ∧ Chain r.leo x r'.leo

theorem Grows.slice {r r' : Replica α} (g : Grows r r') {n : Nat} {o : Int} {run : List (Stored α)}
    {bs : Bytes} (h : Slice r n o run bs) : Slice r' n o run bs := by
  obtain ⟨x, hx, _⟩ := g.more
  obtain ⟨⟨pre, post, e⟩, h2, h3⟩ := h
  exact ⟨⟨pre, post ++ x, by rw [hx, e]; simp only [List.append_assoc]⟩, h2, h3⟩

theorem Grows.sent {r r' : Replica α} (g : Grows r r') {n : Nat} {start : Int} {l : List Bytes} {o : Int}
    (h : Sent r n start l o) : Sent r' n start l o := by
  induction h with
  | none => exact .none
  | more _ h2 h3 ih => exact .more ih (g.slice h2) h3

theorem Grows.le {r r' : Replica α} (g : Grows r r') : r.leo ≤ r'.leo := by
  obtain ⟨x, _, hx⟩ := g.more
  exact hx.le

theorem Grows.boundary {r r' : Replica α} (g : Grows r r') {o : Int} (ho : o ≤ r.leo)
    (h : Boundary r o) : Boundary r' o := by
  obtain ⟨x, hx, hc⟩ := g.more
  intro b hb h1 h2
  rw [hx, List.mem_append] at hb
  rcases hb with hb | hb
  · exact h b hb h1 h2
  · have := hc.mem hb; omega

theorem Grows.unreadable {r r' : Replica α} (g : Grows r r') {e o : Int} (he : e ≤ r.leo)
    (h : Unreadable r e o) : Unreadable r' e o := by
  obtain ⟨x, hx, hc⟩ := g.more
  intro b hb h1 h2
  rw [hx, List.mem_append] at hb
  rcases hb with hb | hb
  · exact h b hb h1 h2
  · have := hc.mem hb; omega

theorem Grows.between {r r' : Replica α} (g : Grows r r') {a e : Int} (he : e ≤ r.leo) :
    between r' a e = between r a e := by
  obtain ⟨x, hx, hc⟩ := g.more
  unfold Stream.between Replica.pairs
  rw [hx, List.flatMap_append, List.filter_append]
  have : (x.flatMap Stored.pairs).filter (fun q => decide (a ≤ q.1 ∧ q.1 < e)) = [] := by
    rw [List.filter_eq_nil_iff]
    intro q hq hd
    have h1 := chain_offsets hc (fun b hb => honest_of_mem g.ok (by rw [hx]; simp [hb])) hq
    have := of_decide_eq_true hd
    omega
  rw [this, List.append_nil]

theorem LiveOp.honest {P : SBatch α → Prop} {r : Replica α} {o : Op α} (h : LiveOp P r o) :
    o.Honest ∧ o.Keeps ∧ o.All P := by
  cases o with
  | write set u f => exact ⟨fun b hb => (h b hb).1, trivial, fun b hb => (h b hb).2⟩
  | updateHw o => exact ⟨trivial, trivial, trivial⟩
  | cleanSize => exact h.elim
  | cleanTtl e => exact h.elim
  | reopen chk => exact h.elim

theorem LiveOp.grows {P : SBatch α → Prop} {r : Replica α} (hok : ReplicaOk r) (hs : Seamless r) (c : Cfg)
    {o : Op α} (h : LiveOp P r o) : Grows r (r.step c o).1 := by
  obtain ⟨h1, h2, _⟩ := h.honest
  obtain ⟨x, e1, e2⟩ := keeps_step hok c o h1 h2
  have hn : ∀ e, o ≠ .cleanTtl e := by
    intro e he
    rw [he] at h2
    exact h2
  have hs' := hs.step hok c o h1 hn
  exact ⟨hok.step c o h1, hs', hs.logStart_eq hs' e1 e2, x, e1, e2⟩

theorem writeBatch_hw (c : Cfg) (io : Bool) (r : Replica α) (b : SBatch α) :
    (r.writeBatch c io b).1.hw = r.hw := by
  unfold Replica.writeBatch
  split
  · rfl
  · split
    · rfl
    · dsimp only
      split <;> rfl
    · rfl
    · rfl

theorem writeBatches_hw (c : Cfg) : ∀ (bs : List (SBatch α)) (f : Option Nat) (r : Replica α),
    (r.writeBatches c f bs).1.hw = r.hw
  | [], _, _ => rfl
  | b :: bs, f, r => by
    have := writeBatch_hw c (decide (f ≠ some 0)) r b
    unfold Replica.writeBatches
    split
    · rename_i r' e
      rw [e] at this
      rw [writeBatches_hw c bs _ r', this]
    · rename_i r' e' e
      rw [e] at this
      exact this

/-- The watermark rises and stays within the log. -/
theorem LiveOp.hw {P : SBatch α → Prop} {r : Replica α} (hok : ReplicaOk r) (hs : Seamless r) (c : Cfg)
    (hle : r.hw ≤ r.leo) {o : Op α} (h : LiveOp P r o) :
    r.hw ≤ (r.step c o).1.hw ∧ (r.step c o).1.hw ≤ (r.step c o).1.leo := by
  have g := h.grows hok hs c
  have hg := g.le
  cases o with
  | write set u f =>
    have hst : (r.step c (.write set u f)).1 = (r.write c set u f).1 := by
      unfold Replica.step
      dsimp only
      generalize r.write c set u f = res
      obtain ⟨r', x⟩ := res
      cases x <;> rfl
    have key : (r.write c set u f).1.hw = r.hw ∨ (r.write c set u f).1.hw = (r.write c set u f).1.leo := by
      unfold Replica.write
      split
      · exact .inl rfl
      · have := writeBatches_hw c set f r
        split
        · rename_i r' e e'
          rw [e'] at this
          exact .inl this
        · rename_i r' e'
          rw [e'] at this
          dsimp only
          cases u
          · exact .inl this
          · exact .inr rfl
    rw [hst] at hg ⊢
    rcases key with key | key
    · rw [key]; omega
    · rw [key]; omega
  | updateHw o => exact h
  | cleanSize => exact h.elim
  | cleanTtl e => exact h.elim
  | reopen chk => exact h.elim

theorem LiveOp.readEnd {P : SBatch α → Prop} {r : Replica α} (hok : ReplicaOk r) (hs : Seamless r)
    (c : Cfg) (hle : r.hw ≤ r.leo) {o : Op α} (h : LiveOp P r o) (iso : Isolation) :
    readEnd iso r ≤ readEnd iso (r.step c o).1 := by
  cases iso
  · exact (h.hw hok hs c hle).1
  · exact (h.grows hok hs c).le

end Verif.Stream
