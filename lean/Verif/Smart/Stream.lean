import Verif.Smart.Batch

/-!
# Streams through stateful SmartModules (`fluvio-spu/src/services/public/stream_fetch.rs`)

The chain of a stream lives as long as the stream.  Here the partition is a list of batches that grows, and
a fetch reads any number of batches from the one that contains the next offset on (segments, isolation and
the limits of a read are in `Verif.Stream.Filter`); the response is received and acknowledged before the
next fetch.
-/

namespace Verif.Smart
open Verif.Stream (FileB processBatches SmOut passed)

variable {μ B ε : Type}

def InBatch.last (b : InBatch B) : Int := b.base + b.delta

/-- Server and client of a stream. -/
structure SStream (μ B ε : Type) where
  chain : List (Inst μ B ε)
  /-- the offset the server reads from (stream_fetch.rs:299-330: the consumer's acknowledgement) -/
  next : Int
  /-- what the consumer has got -/
  got : List (Option B × B)
  /-- the stream has ended with an error, or reported one -/
  error : Bool

/-- `send_back_records` with SmartModules (stream_fetch.rs:350-471), `send_processed_response` (475-544),
and the client, which drops records numbered before the start (fluvio/src/consumer/mod.rs:618-632). `slice`
is what was read, `fin` the end of what may be read. -/
def SStream.process (size : List (Rec B) → Nat) (max : Option Nat) (start : Int) (s : SStream μ B ε)
    (slice : List (InBatch B)) (fin : Int) : SStream μ B ε :=
  match smBatch size max s.chain slice with
  | (c', none) => { s with chain := c', error := true }
  | (c', some (o, e)) =>
    ⟨c', if o.recs.isEmpty then fin else o.base + o.delta + 1,
      s.got ++ ((o.recs.zipIdx.filter fun p => decide (start ≤ o.base + (p.2 : Int))).map fun p => p.1.kv),
      s.error || e.isSome⟩

/-- The batches from the one that contains `next` on. -/
def readable (next : Int) (log : List (InBatch B)) : List (InBatch B) :=
  log.dropWhile fun b => decide (b.last < next)

inductive SEv (B : Type) where
  | append (b : InBatch B)
  /-- a fetch that reads `n + 1` batches, or as many as there are -/
  | fetch (n : Nat)

/-- The offset behind the last batch. -/
def endOf (log : List (InBatch B)) : Int := (log.getLast?.map fun b => b.last + 1).getD 0

def sstep (size : List (Rec B) → Nat) (max : Option Nat) (start : Int) :
    List (InBatch B) × SStream μ B ε → SEv B → List (InBatch B) × SStream μ B ε
  | (log, s), .append b => (log ++ [b], s)
  | (log, s), .fetch n =>
    match (readable s.next log).take (n + 1) with
    | [] => (log, s)
    | b :: l => (log, s.process size max start (b :: l) (endOf log))

def srun (size : List (Rec B) → Nat) (max : Option Nat) (start : Int) (x : List (InBatch B) × SStream μ B ε)
    (es : List (SEv B)) : List (InBatch B) × SStream μ B ε := es.foldl (sstep size max start) x

/-- **Specification.** Batches without gaps from offset `a` on, each with as many records as it says. -/
def Gapless : Int → List (InBatch B) → Prop
  | _, [] => True
  | a, b :: l => b.base = a ∧ 0 ≤ b.delta ∧ b.delta + 1 = b.recs.length ∧ Gapless (b.last + 1) l

/-! ## The loop of `Verif.Stream.Filter` is a special case -/

/-- The records of a stored batch, with their positions as offset deltas. -/
def viewRecs {α : Type} (l : List α) : List (Rec α) := l.zipIdx.map fun p => ⟨p.2, 0, none, p.1⟩

def viewBatch {α : Type} (ts : Int) (b : FileB α) : InBatch α := ⟨b.base, b.delta, ts, viewRecs b.recs⟩

theorem smLoop_filter {α : Type} (p : α → Bool) (size : List (Int × α) → Nat) (max : Nat) (m : μ) (a : α) (ts : Int) :
    ∀ (l : List (FileB α)) (o : OutBatch α) (total : Nat),
    (∀ b ∈ l, b.base ≠ -1) →
    let i : Inst μ α ε := ⟨.filter fun m r => (m, .ok (p r.val)), m, a⟩
    let res := smLoop (fun rs => size (rs.map fun r => (r.delta, r.val))) (some max) [i] o total (l.map (viewBatch ts))
    ∃ o', res = ([i], some (o', none)) ∧ processBatches p size max ⟨o.base, o.delta, o.recs.map fun r => (r.delta, r.val)⟩
      total l = ⟨o'.base, o'.delta, o'.recs.map fun r => (r.delta, r.val)⟩ := by
  intro l
  have hone : ∀ (base : Int) (l : List α) , chainProcess base
      [(⟨.filter fun m r => (m, .ok (p r.val)), m, a⟩ : Inst μ α ε)] (viewRecs l) =
      ([⟨.filter fun m r => (m, .ok (p r.val)), m, a⟩], some ⟨(viewRecs l).filter fun r => p r.val, none⟩) := by
    intro base l
    apply chainProcess_ok
    rw [feed_single]
    generalize viewRecs l = rs
    suffices feedAll Inst.take (⟨.filter fun m r => (m, .ok (p r.val)), m, a⟩ : Inst μ α ε) rs =
      some (⟨.filter fun m r => (m, .ok (p r.val)), m, a⟩, rs.filter fun r => p r.val) by rw [this]; rfl
    induction rs with
    | nil => rfl
    | cons r rs ih =>
      simp only [feedAll]
      have : Inst.take (⟨.filter fun m r => (m, .ok (p r.val)), m, a⟩ : Inst μ α ε) r =
        some (⟨.filter fun m r => (m, .ok (p r.val)), m, a⟩, if p r.val then [r] else []) := rfl
      rw [this, Option.bind_some, ih, Option.map_some, List.filter_cons]
      cases p r.val <;> rfl
  have hpass : ∀ l : List α, ((viewRecs l).filter fun r => p r.val).map (fun r => (r.delta, r.val)) = passed p l := by
    intro l
    unfold viewRecs passed
    rw [List.filter_map, List.map_map]
    rfl
  induction l with
  | nil => intro o total _; exact ⟨o, rfl, rfl⟩
  | cons b l ih =>
    intro o total hb
    have hbb := hb b (by simp)
    have ih' := fun o total => ih o total fun y hy => hb y (by simp [hy])
    dsimp only
    rw [List.map_cons]
    unfold smLoop processBatches
    rw [show (viewBatch ts b).recs = viewRecs b.recs from rfl, hone]
    dsimp only
    have hpb := hpass b.recs
    generalize hrs : (viewRecs b.recs).filter (fun r => p r.val) = rs at hpb
    rw [← hpb]
    by_cases hemp : rs.isEmpty = true
    · have hemp2 : (rs.map fun r => (r.delta, r.val)).isEmpty = true := by rw [List.isEmpty_iff.1 hemp]; rfl
      rw [if_pos hemp, if_pos hemp2]
      by_cases hob : o.base = -1
      · rw [if_pos hob, if_pos hob]
        exact ih' o total
      · rw [if_neg hob, if_neg hob]
        exact ih' { o with delta := o.delta + (b.delta + 1) } total
    · have hne : (rs.map fun r => (r.delta, r.val)).isEmpty = false := by
        cases rs with
        | nil => exact absurd rfl hemp
        | cons _ _ => rfl
      have hne2 : ¬ (rs.map fun r => (r.delta, r.val)).isEmpty = true := by rw [hne]; exact Bool.false_ne_true
      rw [if_neg hemp, if_neg hne2]
      rw [show (viewBatch ts b).base = b.base from rfl, show (viewBatch ts b).delta = b.delta from rfl]
      generalize hbase : (if o.base = -1 then b.base else o.base) = base
      have hbn : base ≠ -1 := by
        rw [← hbase]; split
        · exact hbb
        · assumption
      have hmap : (rs.map (Rec.addBase (base - b.base))).map (fun r => (r.delta, r.val)) =
          (rs.map fun r => (r.delta, r.val)).map fun q => (q.1 + (base - b.base), q.2) := by
        rw [List.map_map, List.map_map]; rfl
      rw [hmap]
      generalize hsz : size ((rs.map fun r => (r.delta, r.val)).map fun q => (q.1 + (base - b.base), q.2)) = n
      by_cases hx : max < total + n
      · rw [if_pos (show exceeds (total + n) (some max) = true from decide_eq_true hx), if_pos hx]
        exact ⟨_, rfl, rfl⟩
      · rw [if_neg (by show ¬ decide (max < total + n) = true; simpa using hx), if_neg hx, if_neg hbn]
        obtain ⟨o', k1, k2⟩ := ih' ⟨base, o.delta + (b.delta + 1), o.recs ++ rs.map (Rec.addBase (base - b.base))⟩
          (total + n)
        refine ⟨o', k1, ?_⟩
        rw [← k2]
        simp only [List.map_append, hmap]

/-! ## Streams -/

theorem Gapless.mem : ∀ {l : List (InBatch B)} {a : Int}, Gapless a l → ∀ b ∈ l, a ≤ b.base ∧ 0 ≤ b.delta
  | [], _, _, b, hb => by cases hb
  | x :: l, a, h, b, hb => by
    obtain ⟨h1, h2, _, h4⟩ := h
    rcases List.mem_cons.1 hb with rfl | hb
    · exact ⟨by omega, h2⟩
    · have := Gapless.mem h4 b hb
      unfold InBatch.last at this
      exact ⟨by omega, this.2⟩

/-- where batches from `a` on end -/
def endFrom : Int → List (InBatch B) → Int
  | a, [] => a
  | _, b :: l => endFrom (b.last + 1) l

theorem Gapless.append : ∀ {l m : List (InBatch B)} {a : Int},
    Gapless a (l ++ m) ↔ Gapless a l ∧ Gapless (endFrom a l) m
  | [], m, a => by simp [Gapless, endFrom]
  | x :: l, m, a => by
    simp only [List.cons_append, Gapless, endFrom, Gapless.append (l := l)]
    exact ⟨fun ⟨h1, h2, h3, h4, h5⟩ => ⟨⟨h1, h2, h3, h4⟩, h5⟩, fun ⟨⟨h1, h2, h3, h4⟩, h5⟩ => ⟨h1, h2, h3, h4, h5⟩⟩

theorem endFrom_append : ∀ (l m : List (InBatch B)) (a : Int), endFrom a (l ++ m) = endFrom (endFrom a l) m
  | [], _, _ => rfl
  | _ :: l, m, _ => endFrom_append l m _

theorem endFrom_span : ∀ {l : List (InBatch B)} {a : Int}, Gapless a l → endFrom a l = a + span l
  | [], a, _ => by simp [endFrom, span]
  | b :: l, a, h => by
    have h1 := endFrom_span h.2.2.2
    have h2 : span (b :: l) = (b.delta + 1) + span l := by simp [span]
    have h3 := h.1
    unfold InBatch.last at h1
    show endFrom (b.base + b.delta + 1) l = _
    rw [h1, h2]; omega

theorem endFrom_ge {l : List (InBatch B)} {a : Int} (h : Gapless a l) : a ≤ endFrom a l := by
  induction l generalizing a with
  | nil => exact Int.le_refl _
  | cons b l ih =>
    obtain ⟨h1, h2, _, h4⟩ := h
    have := ih h4
    unfold InBatch.last at this
    show a ≤ endFrom (b.base + b.delta + 1) l
    omega

theorem endOf_endFrom {l : List (InBatch B)} (h : l ≠ []) (a : Int) : endOf l = endFrom a l := by
  unfold endOf
  induction l generalizing a with
  | nil => exact absurd rfl h
  | cons b l ih =>
    cases l with
    | nil => rfl
    | cons y l =>
      rw [List.getLast?_cons_cons]
      exact ih (by simp) (b.last + 1)

theorem readable_append {taken rest : List (InBatch B)} {a : Int} (h : Gapless a (taken ++ rest)) :
    readable (endFrom a taken) (taken ++ rest) = rest := by
  obtain ⟨h1, h2⟩ := Gapless.append.1 h
  unfold readable
  have hdrop : ∀ (t : List (InBatch B)) (a x : Int), Gapless a t → endFrom a t ≤ x →
      (t ++ rest).dropWhile (fun b => decide (b.last < x)) = rest.dropWhile (fun b => decide (b.last < x)) := by
    intro t
    induction t with
    | nil => intro a x _ _; rfl
    | cons b t ih =>
      intro a x hg hx
      have h3 := endFrom_ge hg.2.2.2
      have h4 : endFrom (b.last + 1) t ≤ x := hx
      rw [List.cons_append, List.dropWhile_cons_of_pos (by simp only [decide_eq_true_eq]; omega)]
      exact ih (b.last + 1) x hg.2.2.2 h4
  rw [hdrop taken a _ h1 (Int.le_refl _)]
  cases rest with
  | nil => rfl
  | cons b rest =>
    obtain ⟨h3, h4, _⟩ := h2
    rw [List.dropWhile_cons_of_neg]
    simp only [decide_eq_true_eq]
    unfold InBatch.last
    omega

end Verif.Smart
