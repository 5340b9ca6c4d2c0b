import Verif.Smart.DedupRun

/-!
# C104: a topic with deduplication stores each value once within its bounds, and loses none

The filter is the one of the repository's example (`filter_hashset`); the leader, its log and its look-back
are as in `Verif.Smart.Dedup`.
-/

namespace Verif.Props
open Verif.Smart Verif.Smart.Dedup

namespace C104

/-- values are numbers, all of them valid -/
def lt (a b : Nat) : Bool := decide (a ≤ b)
def all (_ : Nat) : Bool := true

/-- a topic that remembers two records -/
def two : Spec := ⟨2, none, "dedup", []⟩

/-- a request with one batch, as producers send it -/
def req (l : List Nat) : Ev Nat := .write [sent l] false

def go (d : Spec) (es : List (Ev Nat)) : Option (List Nat) := (run lt all 0 d blank es).map Node.stored

end C104
open C104

variable {B : Type} [DecidableEq B] (le : B → B → Bool) (valid : B → Bool) (zero : B)

/-- The module is given the count of the topic's bounds, unless the count does not fit a 32-bit number, or
the user's own parameters have another one. -/
theorem C104_count (d : Spec) (h : ∀ x ∈ d.withs, x.1 ≠ "count") :
    (d.count < 2 ^ 32 → initFn (params d) = some (BSet.new d.count : BSet B)) ∧
    (2 ^ 32 ≤ d.count → (initFn (params d) : Option (BSet B)) = none) := by
  rw [init_count h]
  have hm : maxUsize = 4294967295 := by decide
  have h2 : (2 : Nat) ^ 32 = 4294967296 := by decide
  rw [hm, h2]
  exact ⟨fun h => if_pos (by omega), fun h => if_neg (by omega)⟩

example : ∀ x ∈ two.withs, x.1 ≠ "count" := by simp [two]

/-- The filter alone: as long as it has not seen 2^32 values, it lets a value through exactly if it is not
among the last `n` it has let through. -/
theorem C104_filter (n : Nat) (rs : List (Rec B)) (h : rs.length < 2 ^ 32) (hv : ∀ r ∈ rs, valid r.val = true) :
    ∃ c' out, feed [⟨filterFn le valid, BSet.new n, zero⟩] rs = some (c', out) ∧ out.Sublist rs ∧
      out.map (·.val) = (rs.map (·.val)).foldl (keep n) [] := by
  have hm : maxUsize = 4294967295 := by decide
  have h2 : (2 : Nat) ^ 32 = 4294967296 := by decide
  rw [h2] at h
  refine ⟨_, _, by rw [feed_single, feed_pass (zero := zero) rs _ hv]; rfl,
    (pass_keys (le := le) rs (BSet.new n) [] (by simp [BSet.new])).2.2, ?_⟩
  obtain ⟨_, k, _⟩ := Good.pass (le := le) rs (BSet.new n) [] (new_good n) (by rw [hm]; show 0 + _ ≤ _; omega)
  simpa [BSet.new] using k

/-- the example of the module's own test -/
example : [1, 3, 2, 3, 1, 5, 1].foldl (keep 3) [] = [1, 3, 2, 5, 1] ∧
    (feed [⟨filterFn lt all, BSet.new 3, 0⟩] ((sent [1, 3, 2, 3, 1, 5, 1]).recs)).map (fun x => x.2.map (·.val)) =
      some [1, 3, 2, 5, 1] := by decide

/-- What `keep` means: of any `n + 1` values kept in a row no two are the same; every value offered is
kept at least once; and values are kept in the order in which they are offered. -/
theorem C104_meaning (n : Nat) (vs : List B) :
    (∀ i, (((vs.foldl (keep n) []).drop i).take (n + 1)).Nodup) ∧ (∀ v ∈ vs, v ∈ vs.foldl (keep n) []) ∧
    (vs.foldl (keep n) []).Sublist vs := by
  obtain ⟨k1, ⟨t, k2, k3⟩, k4⟩ := foldl_keep n vs [] (by intro i; simp)
  exact ⟨k1, k4, by rw [k2]; simpa using k3⟩

/-- No value is lost: whatever restarts there are and however the high watermark moves, if no write fails
then the leader runs, the log has every value offered, and nothing but values offered, in their order. -/
theorem C104_kept (d : Spec) (now : Int) (es : List (Ev B)) (hc : d.count < 2 ^ 32)
    (hw : ∀ x ∈ d.withs, x.1 ≠ "count") (hs : ∀ e ∈ es, Sound valid e) :
    ∃ y, run le valid zero d blank (.restart now :: es) = some y ∧ (∀ v ∈ offered es, v ∈ y.stored) ∧
      y.stored.Sublist (offered es) := by
  have hi := (C104_count (B := B) d hw).1 hc
  obtain ⟨x, e1, e2, e3⟩ := start_safe (le := le) (valid := valid) (zero := zero) (x := blank) (now := now) hi
    (by intro v hv; cases hv)
  obtain ⟨y, f1, f2, t, f3, f4⟩ := run_safe hi es x e2 hs
  refine ⟨y, ?_, f2, by rw [f3, e3]; simpa [blank, Node.stored, Leader.pairs] using f4⟩
  show (start le valid zero d now blank).bind _ = _
  rw [e1]; exact f1

/-- three requests, a commit and a restart between them -/
example : (∀ e ∈ [req [1, 2], .commit 2, .restart 7, req [2, 3]], Sound all e) ∧
    go two (.restart 0 :: [req [1, 2], .commit 2, .restart 7, req [2, 3]]) = some [1, 2, 3] := by
  refine ⟨?_, by decide⟩
  intro e he
  simp only [List.mem_cons, List.not_mem_nil, or_false] at he
  rcases he with rfl | rfl | rfl | rfl
  · exact ⟨rfl, fun b hb => by simp at hb; rw [hb]; exact sent_ok _, fun _ _ => rfl⟩
  · trivial
  · trivial
  · exact ⟨rfl, fun b hb => by simp at hb; rw [hb]; exact sent_ok _, fun _ _ => rfl⟩

/-- Deduplication is exact: with bounds that are a count alone, if no write fails and every restart finds
all records committed and numbered without gap, then the log has exactly the values which deduplication
keeps: one that is not among the last `count` stored is stored, one that is among them is not.

Missing: with an age, a restart forgets everything (`C104_violated_age`); with gaps (which deduplication
itself makes) or records not yet committed it forgets some (`C104_violated_gap`,
`C104_violated_uncommitted`); two batches in a request have the same numbers (`C104_violated_batches`);
after a failed write values are remembered that are not stored (`C104_violated_failed`); after 2^32 values
the filter forgets the wrong ones (`C104_violated_seq`). -/
theorem C104_exact_partial (d : Spec) (now : Int) (es : List (Ev B)) (hc : d.count < 2 ^ 32)
    (hw : ∀ x ∈ d.withs, x.1 ≠ "count") (ha : d.age = none) (hs : ∀ e ∈ es, Sound valid e)
    (hcalm : Calm le valid zero d blank (.restart now :: es)) (hlen : (offered es).length < 2 ^ 32) :
    ∃ y, run le valid zero d blank (.restart now :: es) = some y ∧
      y.stored = (offered es).foldl (keep d.count) [] := by
  have hi := (C104_count (B := B) d hw).1 hc
  have hm : maxUsize = 4294967295 := by decide
  have h2 : (2 : Nat) ^ 32 = 4294967296 := by decide
  obtain ⟨x, e1, e2, e3⟩ := start_exact (le := le) (valid := valid) (zero := zero) (x := blank) (now := now) (m := 0)
    hi ha (by intro v hv; cases hv) (Nat.le_refl 0) (by intro p hp; cases hp) (blank_apart _) blank_dense (Nat.zero_le _)
  obtain ⟨y, f1, f2⟩ := run_exact hi ha es x 0 e2 hs (hcalm.2 x e1) (by rw [hm]; rw [h2] at hlen; omega)
  refine ⟨y, ?_, by rw [f2, e3]; rfl⟩
  show (start le valid zero d now blank).bind _ = _
  rw [e1]; exact f1

/-- a restart between writes, all committed and without gap: 2 is known, 1 is not any more -/
example : Calm lt all 0 two blank [.restart 0, req [1, 2, 3], .commit 3, .restart 7, req [2], req [1]] ∧
    go two [.restart 0, req [1, 2, 3], .commit 3, .restart 7, req [2], req [1]] = some [1, 2, 3, 1] ∧
    [1, 2, 3, 2, 1].foldl (keep two.count) [] = [1, 2, 3, 1] := by
  refine ⟨⟨blank_dense, ?_⟩, by decide, by decide⟩
  rintro y h; injection h with h; subst h
  refine ⟨trivial, ?_⟩
  rintro y h; injection h with h; subst h
  refine ⟨trivial, ?_⟩
  rintro y h; injection h with h; subst h
  refine ⟨⟨by decide, by decide, by decide⟩, ?_⟩
  rintro y h; injection h with h; subst h
  refine ⟨trivial, ?_⟩
  rintro y h; injection h with h; subst h
  exact ⟨trivial, fun _ _ => trivial⟩

/-! ## Where the code falls short -/

/-- With an age the look-back shows the filter nothing, however recent the records are: a batch written by
the leader's own chain has the timestamp −1, so a record is taken for as old as 1970 (batch.rs:41-51, where
the batch's header is the default one, and context.rs:196-203).  A leader that starts again has forgotten
all values. -/
theorem C104_violated_age (d : Spec) (a : Nat) (ha : d.age = some a) (x : Node B) (now : Int)
    (hnow : (a : Int) ≤ now) (hts : ∀ p ∈ x.leader.log, ∀ r ∈ p.2.recs, r.tsd ≤ now - a) :
    look d now x = [] := by
  have key : ∀ i ∈ x.leader.log.flatMap itemsOf, ¬ (now - a ≤ i.ts) := by
    intro i hi
    obtain ⟨p, hp, hi⟩ := List.mem_flatMap.1 hi
    obtain ⟨r, hr, rfl⟩ := List.mem_map.1 hi
    have := hts p hp r hr
    show ¬ (now - a ≤ p.2.ts + r.tsd)
    have e : p.2.ts = -1 := rfl
    rw [e]
    omega
  unfold look
  rw [ha]
  show lookAge _ _ _ _ = []
  unfold lookAge
  rw [List.filter_eq_nil_iff]
  intro i hi
  rw [decide_eq_true_eq]
  split at hi
  · obtain ⟨p, hp, hi'⟩ := List.mem_flatMap.1 (List.mem_filter.1 hi).1
    exact key i (List.mem_flatMap.2 ⟨p, (List.mem_filter.1 hp).1, hi'⟩)
  · rw [if_neg (by omega)] at hi
    cases hi

/-- with the bounds the command line sets by default (5 records, 5 s), a restart within the same
millisecond: the value is stored again -/
example : go ⟨5, some 5000, "dedup", []⟩ [.restart 1000000, req [7], .commit 1, .restart 1000000, req [7]] =
    some [7, 7] := by decide

/-- Deduplication itself leaves gaps in the numbers of records, and the look-back takes the last `count`
numbers for the last `count` records: after a restart the only record of the log, which is also the last, is
stored again. -/
theorem C104_violated_gap :
    go two [.restart 0, req [7, 7, 7, 7], .commit 4, .restart 1, req [7]] = some [7, 7] ∧
    ([7, 7, 7, 7, 7].foldl (keep two.count) []) = [7] := by decide

/-- The look-back takes committed records only: what a leader has stored, but its followers have not, is
stored again after a restart. -/
theorem C104_violated_uncommitted :
    go two [.restart 0, req [7], .restart 1, req [7]] = some [7, 7] ∧
    go two [.restart 0, req [7], .commit 1, .restart 1, req [7]] = some [7] := by decide

/-- Two batches of a request both begin at the offset 0, and the records keep the numbers they have there:
the second batch's record is taken for an older one.  After a restart it is stored again although it is the
last record of the log (and the look-back takes in three). -/
theorem C104_violated_batches :
    go ⟨3, none, "dedup", []⟩ [.restart 0, .write [sent [1, 2, 3], sent [4, 5]] false, .commit 5, .restart 1, req [5]] =
      some [1, 2, 3, 4, 5, 5] := by decide

/-- When the storage fails, the producer is told so, but the filter remembers the values: sent again they
are dropped, and the producer is told that they are stored.  (replica_state.rs:349-358: `transform` comes
before the write.) -/
theorem C104_violated_failed :
    go two [.restart 0, .write [sent [7]] true, req [7]] = some [] ∧
    ((run lt all 0 two blank [.restart 0, .write [sent [7]] true]).map fun x => (x.leader.write [sent [7]] false).2) =
      some true := by decide

/-- The same when one record of a request is no text: the whole request is refused, but the values before
that record are remembered. -/
theorem C104_violated_refused :
    let ok : Nat → Bool := fun v => v != 9
    (run lt ok 0 two blank [.restart 0, req [7, 9], req [7]]).map Node.stored = some [] := by decide

/-- Parameters of the user come after those of the bounds: the filter may remember fewer records than the
bounds say. -/
theorem C104_violated_override :
    go ⟨3, none, "dedup", [("count", ['1'])]⟩ [.restart 0, req [1], req [2], req [1]] = some [1, 2, 1] ∧
    [1, 2, 1].foldl (keep 3) [] = [1, 2] := by decide

/-- A count of 2^32 or more is accepted for a topic, but the module cannot be initialised: there is no leader. -/
theorem C104_violated_large (d : Spec) (h : 2 ^ 32 ≤ d.count) (hw : ∀ x ∈ d.withs, x.1 ≠ "count") (now : Int)
    (x : Node B) : start le valid zero d now x = none := by
  unfold start
  rw [(C104_count d hw).2 h]

theorem C104.insert_same (k : Nat) (b : Nat) (s : BSet Nat) (hk : s.inner = [(b, k)]) (hl : s.limit = 1) :
    s.insert lt b = (⟨[(b, k)], 1, min (s.seq + 1) maxUsize⟩, false) := by
  unfold BSet.insert
  rw [hk, hl]
  simp

theorem C104.pass_same (b : Nat) : ∀ (n : Nat) (s : BSet Nat), s.inner = [(b, 1)] → s.limit = 1 → s.seq ≤ maxUsize →
    pass lt s (List.replicate n ⟨0, 0, none, b⟩) = (⟨[(b, 1)], 1, min (s.seq + n) maxUsize⟩, [])
  | 0, s, h1, h2, h3 => by
    obtain ⟨i, l, q⟩ := s
    dsimp only at h1 h2 h3
    subst h1 h2
    show (_, _) = _
    rw [Nat.add_zero, Nat.min_eq_left h3]
  | n + 1, s, h1, h2, h3 => by
    rw [List.replicate_succ, pass, C104.insert_same 1 b s h1 h2]
    dsimp only
    rw [C104.pass_same b n _ rfl rfl (by dsimp only; omega)]
    dsimp only
    rw [if_neg Bool.false_ne_true, List.nil_append]
    congr 2
    omega

/-- The numbers of the filter end at 2^32 − 1; from then on all new values have this number, and the one
that is forgotten is not the oldest but the first in alphabetical order — the newest of all, here.  A filter
that remembers one value lets 1 through twice in a row.  (lib.rs:62: `saturating_add`.) -/
theorem C104_violated_seq :
    let rs := List.replicate (2 ^ 32) 5 ++ [6, 1, 1]
    ((pass lt (BSet.new 1) (rs.map fun v => ⟨0, 0, none, v⟩)).2.map (·.val)) = [5, 6, 1, 1] ∧
    rs.foldl (keep 1) [] = [5, 6, 1] := by
  have hm : maxUsize = 4294967295 := by decide
  have h2 : (2 : Nat) ^ 32 = 4294967295 + 1 := by decide
  have hpa : ∀ (l m : List (Rec Nat)) (s : BSet Nat),
      pass lt s (l ++ m) = ((pass lt (pass lt s l).1 m).1, (pass lt s l).2 ++ (pass lt (pass lt s l).1 m).2) := by
    intro l
    induction l with
    | nil => intro m s; rfl
    | cons r l ih => intro m s; rw [List.cons_append, pass, ih, pass]; simp
  have hka : ∀ n, (List.replicate n 5).foldl (keep 1) [5] = [5] := by
    intro n
    induction n with
    | zero => rfl
    | succ n ih => rw [List.replicate_succ, List.foldl_cons, show keep 1 [5] 5 = [5] by decide, ih]
  dsimp only
  rw [h2, List.replicate_succ]
  constructor
  · rw [List.cons_append, List.map_cons, List.map_append, List.map_replicate]
    have e1 : (BSet.new 1 : BSet Nat).insert lt 5 = (⟨[(5, 1)], 1, 1⟩, true) := by
      unfold BSet.insert BSet.new
      rw [hm]
      decide
    rw [pass, e1]
    dsimp only
    rw [hpa, C104.pass_same 5 4294967295 _ rfl rfl (by rw [hm]; show 1 ≤ _; omega), hm]
    dsimp only
    rw [show min (1 + 4294967295) 4294967295 = 4294967295 by omega]
    have i1 : (⟨[(5, 1)], 1, 4294967295⟩ : BSet Nat).insert lt 6 = (⟨[(6, 4294967295)], 1, 4294967295⟩, true) := by
      unfold BSet.insert; rw [hm]; decide
    have i2 : (⟨[(6, 4294967295)], 1, 4294967295⟩ : BSet Nat).insert lt 1 = (⟨[(6, 4294967295)], 1, 4294967295⟩, true) := by
      unfold BSet.insert; rw [hm]; decide
    simp only [List.map_cons, List.map_nil, pass, i1, i2]
    rfl
  · rw [List.cons_append, List.foldl_cons, List.foldl_append, show keep 1 [] 5 = [5] by decide, hka]
    decide

end Verif.Props
