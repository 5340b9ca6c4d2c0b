import Verif.Smart.Stream
import Verif.Props.SmartProduce

/-!
# C59: streams through stateful SmartModules

`feed` (in `Verif.Smart.Chain`) sends records through the chain one at a time; `Gapless` is in
`Verif.Smart.Stream`.
-/

namespace Verif.Props
open Verif.Smart Verif.Stream

variable {μ B ε : Type}

/-- A run in which batches are appended without gaps, no response is cut off by the limit, and each slice
read contains some output or reaches the end. -/
def SGood (size : List (Rec B) → Nat) (max : Option Nat) (start : Int) :
    List (InBatch B) × SStream μ B ε → List (SEv B) → Prop
  | _, [] => True
  | (log, s), .append b :: es => (b.base = endOf log ∧ 0 ≤ b.delta ∧ b.delta + 1 = b.recs.length) ∧
      SGood size max start (log ++ [b], s) es
  | (log, s), .fetch n :: es =>
    (let slice := (readable s.next log).take (n + 1)
     smBatch size max s.chain slice = smBatch size none s.chain slice ∧
     ((∃ c o e, smBatch size none s.chain slice = (c, some (o, e)) ∧ o.recs ≠ []) ∨ (readable s.next log).length ≤ n + 1)) ∧
    SGood size max start (sstep size max start (log, s) (.fetch n)) es

/-- What holds of a stream at any time: `before` are the batches before the start. -/
structure StreamInv (c0 : List (Inst μ B ε)) (a start : Int) (before : List (InBatch B)) (log : List (InBatch B))
    (s : SStream μ B ε) (taken rest : List (InBatch B)) (out : List (Rec B)) : Prop where
  log_eq : log = before ++ (taken ++ rest)
  gapless : Gapless a log
  start_eq : endFrom a before = start
  ne : log ≠ []
  next : s.next = endFrom start taken
  fed : feed c0 (allRecs taken) = some (s.chain, out)
  got : s.got = out.map Rec.kv
  noErr : s.error = false

theorem StreamInv.fetch {size : List (Rec B) → Nat} {max : Option Nat} {c0 : List (Inst μ B ε)} {a start : Int}
    {before log taken rest : List (InBatch B)} {s : SStream μ B ε} {out : List (Rec B)}
    (h0 : 0 ≤ a) (hnf : ∀ rs, (feed c0 rs).isSome) (h : StreamInv c0 a start before log s taken rest out) (n : Nat)
    (hcut : smBatch size max s.chain ((readable s.next log).take (n + 1)) =
      smBatch size none s.chain ((readable s.next log).take (n + 1)))
    (hcov : (∃ c o e, smBatch size none s.chain ((readable s.next log).take (n + 1)) = (c, some (o, e)) ∧ o.recs ≠ []) ∨
      (readable s.next log).length ≤ n + 1) :
    (sstep size max start (log, s) (.fetch n)).1 = log ∧
    ∃ taken' rest' out', StreamInv c0 a start before log (sstep size max start (log, s) (.fetch n)).2 taken' rest' out' := by
  have hread : readable s.next log = rest := by
    rw [h.next, h.log_eq, ← List.append_assoc, ← h.start_eq, ← endFrom_append]
    exact readable_append (by rw [List.append_assoc, ← h.log_eq]; exact h.gapless)
  rw [hread] at hcut hcov
  unfold sstep
  dsimp only
  rw [hread]
  cases hsl : rest.take (n + 1) with
  | nil => exact ⟨rfl, taken, rest, out, h⟩
  | cons b0 l0 =>
    refine ⟨rfl, ?_⟩
    dsimp only
    have hgl : Gapless start (taken ++ rest) := by
      have := h.gapless
      rw [h.log_eq, Gapless.append, h.start_eq] at this
      exact this.2
    have hg2 := (Gapless.append.1 hgl).2
    rw [← hsl]
    -- the slice and what remains
    have hrest : rest = rest.take (n + 1) ++ rest.drop (n + 1) := (List.take_append_drop _ _).symm
    generalize hS : rest.take (n + 1) = sl at *
    generalize hR : rest.drop (n + 1) = rm at *
    have hstart : 0 ≤ start := by
      have h1 := h.gapless
      rw [h.log_eq, Gapless.append] at h1
      have := endFrom_ge h1.1
      have := h.start_eq
      omega
    have hge : start ≤ endFrom start taken := endFrom_ge (Gapless.append.1 hgl).1
    have hgs : Gapless (endFrom start taken) sl := by rw [hrest] at hg2; exact (Gapless.append.1 hg2).1
    have hbase : ∀ b ∈ sl, b.base ≠ -1 := by
      intro b hb
      have := (hgs.mem b hb).1
      omega
    have hsome : (feed s.chain (allRecs sl)).isSome := by
      have h1 := hnf (allRecs (taken ++ sl))
      have h2 : allRecs (taken ++ sl) = allRecs taken ++ allRecs sl := by simp [allRecs]
      rw [h2, feed_append, h.fed, Option.bind_some] at h1
      cases hh : feed s.chain (allRecs sl) with
      | none => rw [hh] at h1; cases h1
      | some _ => rfl
    obtain ⟨c1, o, t, r, e1, e2, c2, out', f1, f2, _, f4, f5⟩ := smLoop_ok size none sl s.chain ⟨-1, -1, []⟩ 0
      hbase hsome
    rcases f5 with ⟨g1, g2⟩ | ⟨g1, _⟩
    · subst g1
      rw [List.append_nil] at e2
      subst e2
      subst g2
      have hb : smBatch size max s.chain sl = (c1, some (o, none)) := by rw [hcut]; exact e1
      unfold SStream.process
      rw [hb]
      dsimp only
      have hfed : feed c0 (allRecs (taken ++ sl)) = some (c1, out ++ out') := by
        have h2 : allRecs (taken ++ sl) = allRecs taken ++ allRecs sl := by simp [allRecs]
        rw [h2, feed_append, h.fed, Option.bind_some, f1]; rfl
      have hkv : o.recs.map Rec.kv = out'.map Rec.kv := by simpa using f2
      have hlog : log = before ++ ((taken ++ sl) ++ rm) := by rw [h.log_eq, hrest, List.append_assoc]
      refine ⟨taken ++ sl, rm, out ++ out', hlog, h.gapless, h.start_eq, h.ne, ?_, hfed, ?_, ?_⟩
      · -- the next offset
        dsimp only
        by_cases hemp : o.recs.isEmpty = true
        · rw [if_pos hemp]
          have hlen : rest.length ≤ n + 1 := by
            rcases hcov with ⟨c, o2, e, k1, k2⟩ | k
            · have k3 : smBatch size none s.chain sl = (c1, some (o, none)) := e1
              rw [k3] at k1
              injection k1 with _ k1
              injection k1 with k1
              injection k1 with k1 _
              subst k1
              exact absurd (List.isEmpty_iff.1 hemp) k2
            · exact k
          have hrm : rm = [] := by rw [← hR]; exact List.drop_eq_nil_of_le hlen
          subst hrm
          rw [List.append_nil] at hlog
          rw [endOf_endFrom h.ne a, hlog, endFrom_append, h.start_eq]
        · rw [if_neg hemp]
          have hne : out' ≠ [] := by
            intro hn
            rw [hn] at hkv
            exact hemp (List.isEmpty_iff.2 (List.map_eq_nil_iff.1 hkv))
          rcases f4 rfl with ⟨k1, _⟩ | ⟨pre, b, post, k1, k2, k3, _⟩
          · exact absurd k1 hne
          · rw [k2, k3, endFrom_append, k1, endFrom_append]
            rw [k1, Gapless.append] at hgs
            have h4 := hgs.2.1
            have h5 := endFrom_span hgs.2
            rw [h5, ← h4]
            show b.base + (-1 + span (b :: post)) + 1 = _
            omega
      · -- what the consumer gets
        dsimp only
        rw [h.got, List.map_append]
        congr 1
        by_cases hne : o.recs = []
        · rw [hne] at hkv ⊢
          rw [← hkv]; rfl
        · have hob : start ≤ o.base := by
            rcases f4 rfl with ⟨k1, _⟩ | ⟨pre, b, post, k1, k2, _⟩
            · rw [k1] at hkv
              exact absurd (List.map_eq_nil_iff.1 hkv) hne
            · have := (hgs.mem b (by rw [k1]; simp)).1
              omega
          rw [List.filter_eq_self.2 (by intro p _; simp only [decide_eq_true_eq]; omega), ← hkv]
          have : ∀ (l : List (Rec B)) (k : Nat), (l.zipIdx k).map (fun p => p.1.kv) = l.map Rec.kv := by
            intro l
            induction l with
            | nil => intro k; rfl
            | cons r l ih => intro k; rw [List.zipIdx_cons, List.map_cons, List.map_cons, ih]
          exact this _ 0
      · dsimp only
        rw [h.noErr]; rfl
    · exact absurd rfl g1

theorem StreamInv.run {size : List (Rec B) → Nat} {max : Option Nat} {c0 : List (Inst μ B ε)} {a start : Int}
    {before : List (InBatch B)} (h0 : 0 ≤ a) (hnf : ∀ rs, (feed c0 rs).isSome) :
    ∀ (es : List (SEv B)) (log taken rest : List (InBatch B)) (s : SStream μ B ε) (out : List (Rec B)),
    StreamInv c0 a start before log s taken rest out → SGood size max start (log, s) es →
    ∃ taken' rest' out', StreamInv c0 a start before (srun size max start (log, s) es).1
      (srun size max start (log, s) es).2 taken' rest' out'
  | [], log, taken, rest, s, out, h, _ => ⟨taken, rest, out, h⟩
  | .append b :: es, log, taken, rest, s, out, h, hg => by
    obtain ⟨⟨k1, k2, k3⟩, hg⟩ := hg
    refine StreamInv.run h0 hnf es (log ++ [b]) taken (rest ++ [b]) s out
      ⟨by rw [h.log_eq]; simp, ?_, h.start_eq, by simp, h.next, h.fed, h.got, h.noErr⟩ hg
    rw [Gapless.append]
    exact ⟨h.gapless, by rw [k1, endOf_endFrom h.ne a], k2, k3, trivial⟩
  | .fetch n :: es, log, taken, rest, s, out, h, hg => by
    obtain ⟨⟨k1, k2⟩, hg⟩ := hg
    obtain ⟨e1, taken', rest', out', h'⟩ := h.fetch h0 hnf n k1 k2
    have hs : sstep size max start (log, s) (.fetch n) = (log, (sstep size max start (log, s) (.fetch n)).2) :=
      Prod.ext e1 rfl
    have := StreamInv.run h0 hnf es log taken' rest' _ out' h' (by rw [← hs]; exact hg)
    rw [← hs] at this
    exact this

/-- A stream that starts at the beginning of a batch, through modules that do not fail: at any time the
consumer has got exactly what the chain makes of the records between the start and the next offset, each
record having passed the chain once.

Missing: a response that is cut off by the limit lets records pass the chain twice, see
`C59_violated_twice`; with a start inside a batch the chain sees earlier records, see
`C59_violated_start_inside`. -/
theorem C59_once_partial (size : List (Rec B) → Nat) (max : Option Nat) (c : List (Inst μ B ε)) (a start : Int)
    (before log : List (InBatch B)) (h0 : 0 ≤ a) (hlog : Gapless a (before ++ log)) (hne : before ++ log ≠ [])
    (hstart : start = endFrom a before) (hnf : ∀ rs, (feed c rs).isSome) (es : List (SEv B))
    (hg : SGood size max start (before ++ log, ⟨c, start, [], false⟩) es) :
    let x := srun size max start (before ++ log, ⟨c, start, [], false⟩) es
    x.2.error = false ∧
    ∃ out, feed c (allRecs (x.1.filter fun b => decide (start ≤ b.base ∧ b.base < x.2.next))) = some (x.2.chain, out) ∧
      x.2.got = out.map Rec.kv := by
  intro x
  obtain ⟨t, r, out, h⟩ := StreamInv.run (size := size) (max := max) (before := before) h0 hnf es (before ++ log) [] log
    ⟨c, start, [], false⟩ [] ⟨rfl, hlog, hstart.symm, hne, rfl, by simp [allRecs, feed, feedAll], rfl, rfl⟩ hg
  refine ⟨h.noErr, out, ?_, h.got⟩
  have hgap := h.gapless
  have hsplit := h.log_eq
  change x.1 = _ at hsplit
  change Gapless a x.1 at hgap
  rw [hsplit] at hgap ⊢
  have hnext : x.2.next = endFrom start t := h.next
  obtain ⟨g1, g2⟩ := Gapless.append.1 hgap
  rw [← hstart] at g2
  obtain ⟨g3, g4⟩ := Gapless.append.1 g2
  have hlast : ∀ (l : List (InBatch B)) (a : Int), Gapless a l → ∀ b ∈ l, b.base < endFrom a l := by
    intro l
    induction l with
    | nil => intro a _ b hb; cases hb
    | cons y l ih =>
      intro a hg b hb
      have h4 := endFrom_ge hg.2.2.2
      have h5 := hg.2.1
      unfold InBatch.last at h4
      rcases List.mem_cons.1 hb with rfl | hb
      · show _ < endFrom (b.base + b.delta + 1) l; omega
      · exact ih _ hg.2.2.2 b hb
  rw [List.filter_append, List.filter_append, List.filter_eq_nil_iff.2, List.filter_eq_self.2, List.filter_eq_nil_iff.2,
    List.nil_append, List.append_nil]
  · exact h.fed
  · intro b hb
    have := (g4.mem b hb).1
    simp only [decide_eq_true_eq]
    omega
  · intro b hb
    have := (g3.mem b hb).1
    have := hlast t start g3 b hb
    simp only [decide_eq_true_eq]
    omega
  · intro b hb
    have := hlast before a g1 b hb
    simp only [decide_eq_true_eq]
    omega

/-! Concrete cases -/

def stored (base : Int) (l : List Nat) : InBatch Nat := ⟨base, l.length - 1, 1000, numRecs l⟩

def summing : Inst Unit Nat Nat := ⟨pureAggregate fun a r => a + r.val, (), 0⟩

/-- `summing` never fails -/
theorem summing_total : ∀ rs : List (Rec Nat), (feed [summing] rs).isSome := by
  intro rs
  obtain ⟨o, h, _⟩ := C57_aggregate (μ := Unit) (ε := Nat) (fun a r => a + r.val) () 0 0 rs
  rw [C57_record_by_record] at h
  rw [show feed [summing] rs = _ from h]
  rfl

/-- a stream from offset 1 on, during which a batch is written -/
def sumEvents : List (SEv Nat) := [.fetch 0, .append (stored 3 [4, 5]), .fetch 5, .fetch 0]

/-- the hypotheses of `C59_once_partial` -/
example : Gapless 0 [stored 0 [1], stored 1 [2, 3]] ∧ endFrom 0 [stored 0 [1]] = 1 ∧
    SGood List.length (some 2) 1 ([stored 0 [1], stored 1 [2, 3]], ⟨[summing], 1, [], false⟩) sumEvents ∧
    (srun List.length (some 2) 1 ([stored 0 [1], stored 1 [2, 3]], ⟨[summing], 1, [], false⟩) sumEvents).2.got.map (·.2) =
      [2, 5, 9, 14] := by
  refine ⟨⟨rfl, by decide, rfl, rfl, by decide, rfl, trivial⟩, rfl, ⟨⟨rfl, .inr (by decide)⟩, ⟨rfl, by decide, rfl⟩,
    ⟨rfl, .inr (by decide)⟩, ⟨rfl, .inr (by decide)⟩, trivial⟩, by decide⟩

/-- Running sums of 1, 2, 3: the consumer gets 1, 5, 11 instead of 1, 3, 6.  A response holds one record
here; the chain has processed the batch that does not fit any more, and processes it again for the next
response (batch.rs:78, 103-110). -/
theorem C59_violated_twice :
    (srun List.length (some 1) 0 ([stored 0 [1], stored 1 [2], stored 2 [3]], ⟨[summing], 0, [], false⟩)
      [.fetch 1, .fetch 1, .fetch 1]).2.got.map (·.2) = [1, 5, 11] ∧
    ((feed [summing] (allRecs [stored 0 [1], stored 1 [2], stored 2 [3]])).map fun x => x.2.map (·.val)) =
      some [1, 3, 6] := by decide

/-- A stream that starts at offset 1, inside a batch: the first record is part of all sums. -/
theorem C59_violated_start_inside :
    (srun List.length none 1 ([stored 0 [1, 2, 3]], ⟨[summing], 1, [], false⟩) [.fetch 0]).2.got.map (·.2) = [3, 6] ∧
    ((feed [summing] ((numRecs [1, 2, 3]).drop 1)).map fun x => x.2.map (·.val)) = some [2, 5] := by decide

end Verif.Props
