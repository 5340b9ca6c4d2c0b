import Verif.Smart.Produce

/-!
# Topics with deduplication
(`fluvio-spu/src/smartengine/mod.rs`, `replication/leader/replica_state.rs`, `smartengine/context.rs`,
`smartmodule/examples/filter_hashset`)

The leader of a topic with deduplication runs a filter on all records it is asked to store, and shows it
the last records of the log when it starts.  The filter is a SmartModule of the user; the one modelled here
is the example of the repository, which remembers the last `count` values it has let through.
-/

namespace Verif.Smart.Dedup
open Verif.Smart

variable {B : Type} [DecidableEq B]

/-! ## The filter -/

/-- `usize::MAX` of a SmartModule, which is compiled for wasm32. -/
def maxUsize : Nat := 2 ^ 32 - 1

/-- `BoundedHashSet` — smartmodule/examples/filter_hashset/src/lib.rs:46-50.  The map is a list of keys with
their numbers; no key occurs twice. -/
structure BSet (B : Type) where
  inner : List (B × Nat)
  limit : Nat
  seq : Nat
deriving DecidableEq

/-- `BoundedHashSet::new` — lib.rs:53-59 -/
def BSet.new (limit : Nat) : BSet B := ⟨[], limit, 0⟩

/-- The element `min_by` finds: the smallest number, and of several the one that comes first in the order of
keys `le` in which the map iterates. -/
def pick (le : B → B → Bool) : List (B × Nat) → Option (B × Nat)
  | [] => none
  | x :: l =>
    match pick le l with
    | none => some x
    | some y => if x.2 < y.2 ∨ (x.2 = y.2 ∧ le x.1 y.1) then some x else some y

/-- `BoundedHashSet::remove_first` — lib.rs:76-82 -/
def removeFirst (le : B → B → Bool) (l : List (B × Nat)) : List (B × Nat) :=
  match pick le l with
  | none => l
  | some x => l.filter fun y => decide (y.1 ≠ x.1)

/-- `BoundedHashSet::insert` — lib.rs:61-74 -/
def BSet.insert (le : B → B → Bool) (s : BSet B) (v : B) : BSet B × Bool :=
  let seq := min (s.seq + 1) maxUsize
  let new := decide (v ∉ s.inner.map (·.1))
  let inner := if new then s.inner ++ [(v, seq)] else s.inner
  (⟨if s.limit < inner.length then removeFirst le inner else inner, s.limit, seq⟩, new)

/-- `filter` — lib.rs:15-19; `valid` says which values are UTF-8.  The set is a static variable of the
module, hence its memory. -/
def filterFn (le : B → B → Bool) (valid : B → Bool) : Fn (BSet B) B Unit :=
  .filter fun s r => if valid r.val then ((s.insert le r.val).1, .ok (s.insert le r.val).2) else (s, .error (.err ()))

/-- `look_back` — lib.rs:21-26, called for each record of the input until one fails
(fluvio-smartmodule-derive/src/generator/look_back.rs). -/
def lookBackFn (le : B → B → Bool) (valid : B → Bool) : BSet B → List B → Option (BSet B)
  | s, [] => some s
  | s, v :: l => if valid v then lookBackFn le valid (s.insert le v).1 l else none

/-! ## The invocation -/

/-- `Deduplication`, `Bounds`, `Filter`, `Transform` —
fluvio-controlplane-metadata/src/topic/deduplication.rs:15-80; the age in milliseconds. -/
structure Spec where
  count : Nat
  age : Option Nat
  uses : String
  withs : List (String × List Char)

/-- `BTreeMap::insert` -/
def put (m : List (String × List Char)) (k : String) (v : List Char) : List (String × List Char) :=
  (k, v) :: m.filter fun x => decide (x.1 ≠ k)

/-- `BTreeMap::get` -/
def get (m : List (String × List Char)) (k : String) : Option (List Char) :=
  (m.find? fun x => decide (x.1 = k)).map (·.2)

/-- The parameters in `dedup_to_invocation` — fluvio-spu/src/smartengine/mod.rs:192-199 -/
def params (d : Spec) : List (String × List Char) :=
  let m := put [] "count" (Nat.toDigits 10 d.count)
  let m := match d.age with
    | some a => put m "age" (Nat.toDigits 10 a)
    | none => m
  d.withs.foldl (fun m x => put m x.1 x.2) m

/-- `from_str_radix` of the standard library takes a plus sign. -/
def stripPlus : List Char → List Char
  | '+' :: t => t
  | t => t

/-- `str::parse::<usize>` on wasm32 -/
def parseUsize (s : List Char) : Option Nat :=
  let t := stripPlus s
  if t ≠ [] ∧ t.all Char.isDigit ∧ Nat.ofDigitChars 10 t 0 ≤ maxUsize then some (Nat.ofDigitChars 10 t 0) else none

/-- `init` — filter_hashset/src/lib.rs:28-37 -/
def initFn (m : List (String × List Char)) : Option (BSet B) :=
  match get m "count" with
  | some s => (parseUsize s).map BSet.new
  | none => some (BSet.new (maxUsize - 1))

/-! ## The leader -/

/-- A leader together with its high watermark. -/
structure Node (B : Type) where
  leader : Leader (BSet B) B Unit
  hw : Int

/-- A record as `FileRecordIterator` makes it — fluvio-storage/src/iterators.rs:196-208: its offset is the
batch's base plus its own delta, its timestamp the batch's plus its own delta; the batch's is −1
(`OutBatch.ts`). -/
structure Item (B : Type) where
  off : Int
  ts : Int
  val : B
deriving DecidableEq

def itemsOf (p : Int × OutBatch B) : List (Item B) :=
  p.2.recs.map fun r => ⟨p.1 + r.delta, p.2.ts + r.tsd, r.val⟩

/-- `lookback_last_iterator` — context.rs:150-178: whole batches below the high watermark, and of them the
records from the offset on.  The log begins at 0 and is one segment; batches that end before the offset are
not read, which makes no difference to those records with an offset as large. -/
def lookLast (log : List (Int × OutBatch B)) (hw : Int) (last : Nat) : List (Item B) :=
  ((log.filter fun p => decide (p.1 + p.2.delta < hw)).flatMap itemsOf).filter
    fun i => decide (max (hw - last) 0 ≤ i.off)

/-- `lookback_age_iterator` — context.rs:180-204.  Without a count, `read_batches_by_age` (206-247) takes
batches whose `max_time_stamp` is recent enough; here all have the one of the default header. -/
def lookAge (log : List (Int × OutBatch B)) (hw : Int) (last : Nat) (minTs : Int) : List (Item B) :=
  (if 0 < last then lookLast log hw last
   else if minTs ≤ -1 then (log.filter fun p => decide (p.1 + p.2.delta < hw)).flatMap itemsOf
   else []).filter fun i => decide (minTs ≤ i.ts)

/-- `lookback_iterator` — context.rs:134-148, with the look-back of `dedup_to_invocation` (mod.rs:188-191,
fluvio-smartengine/src/engine/config.rs:109-119); `now` in milliseconds. -/
def look (d : Spec) (now : Int) (x : Node B) : List (Item B) :=
  match d.age with
  | none => lookLast x.leader.log x.hw d.count
  | some a => lookAge x.leader.log x.hw d.count (now - a)

/-- `Uninit::init` — replica_state.rs:478-493: a leader starts on what is in the storage.  None if the module
cannot be initialised or the look-back fails; there is no leader then.  `zero` is the accumulator, which a
filter does not use. -/
def start (le : B → B → Bool) (valid : B → Bool) (zero : B) (d : Spec) (now : Int) (x : Node B) : Option (Node B) :=
  match initFn (params d) with
  | none => none
  | some s =>
    match lookBackFn le valid s ((look d now x).map (·.val)) with
    | none => none
    | some s' => some { x with leader := { x.leader with chain := [⟨filterFn le valid, s', zero⟩] } }

/-- What happens to a leader. -/
inductive Ev (B : Type) where
  /-- a request to store records; `io` says whether the storage fails -/
  | write (l : List (InBatch B)) (io : Bool)
  /-- the high watermark moves -/
  | commit (hw : Int)
  /-- the process stops and starts again -/
  | restart (now : Int)

/-- One event.  The high watermark does not go back nor beyond the end (C09). -/
def step (le : B → B → Bool) (valid : B → Bool) (zero : B) (d : Spec) (x : Node B) : Ev B → Option (Node B)
  | .write l io => some { x with leader := (x.leader.write l io).1 }
  | .commit h => some { x with hw := if x.hw ≤ h ∧ h ≤ x.leader.leo then h else x.hw }
  | .restart now => start le valid zero d now x

def run (le : B → B → Bool) (valid : B → Bool) (zero : B) (d : Spec) : Node B → List (Ev B) → Option (Node B)
  | x, [] => some x
  | x, e :: l => (step le valid zero d x e).bind fun y => run le valid zero d y l

/-- A new topic's replica before its leader starts. -/
def blank : Node B := ⟨⟨[], [], 0⟩, 0⟩

/-- The values in the log, as consumers see them. -/
def Node.stored (x : Node B) : List B := x.leader.pairs.map (·.2.2)

/-! ## Specification -/

/-- **Specification.** The last `n` elements. -/
def latest (n : Nat) (l : List B) : List B := l.drop (l.length - n)

/-- **Specification.** What deduplication keeps: a value that is not among the last `n` kept. -/
def keep (n : Nat) (kept : List B) (v : B) : List B := if v ∈ latest n kept then kept else kept ++ [v]

/-- **Specification.** The values producers ask to store. -/
def offered : List (Ev B) → List B
  | [] => []
  | .write l _ :: es => (allRecs l).map (·.val) ++ offered es
  | _ :: es => offered es

/-- **Specification.** A write as it should be: batches as producers make them, text, and no failure of the
storage. -/
def Sound (valid : B → Bool) : Ev B → Prop
  | .write l io => io = false ∧ (∀ b ∈ l, SentOk b) ∧ ∀ r ∈ allRecs l, valid r.val = true
  | _ => True

/-- **Specification.** All is committed, and the records of the log are numbered 0, 1, 2, … without gap; the number
of a record is the base of its batch plus its own. -/
def Dense (x : Node B) : Prop :=
  x.hw = x.leader.leo ∧ x.leader.leo = x.stored.length ∧
  (x.leader.log.flatMap fun p => p.2.recs.map fun r => p.1 + r.delta) =
    (List.range x.stored.length).map fun k : Nat => (k : Int)

/-- **Specification.** Restarts happen only in such states. -/
def Calm (le : B → B → Bool) (valid : B → Bool) (zero : B) (d : Spec) : Node B → List (Ev B) → Prop
  | _, [] => True
  | x, e :: l => (match e with | .restart _ => Dense x | _ => True) ∧
    ∀ y, step le valid zero d x e = some y → Calm le valid zero d y l

/-! ## Lemmas about the set -/

variable {le : B → B → Bool} {valid : B → Bool} {zero : B}

/-- The set holds the last `limit` of the values, with ascending numbers. -/
structure Good (s : BSet B) (kept : List B) : Prop where
  keys : s.inner.map (·.1) = latest s.limit kept
  asc : (s.inner.map (·.2)).Pairwise (· < ·)
  top : ∀ x ∈ s.inner, x.2 ≤ s.seq
  nodup : (s.inner.map (·.1)).Nodup

theorem latest_length (n : Nat) (l : List B) : (latest n l).length = min n l.length := by
  unfold latest; rw [List.length_drop]; omega

theorem pick_asc : ∀ (x : B × Nat) (l : List (B × Nat)), (∀ y ∈ l, x.2 < y.2) → pick le (x :: l) = some x
  | x, [], _ => rfl
  | x, y :: l, h => by
    rw [pick]
    cases hp : pick le (y :: l) with
    | none => rfl
    | some z =>
      have hz : z ∈ y :: l := by
        have : ∀ (l : List (B × Nat)) (z : B × Nat), pick le l = some z → z ∈ l := by
          intro l
          induction l with
          | nil => intro z h; cases h
          | cons a l ih =>
            intro z h
            rw [pick] at h
            cases hq : pick le l with
            | none => rw [hq] at h; injection h with h; rw [h]; simp
            | some w =>
              rw [hq] at h
              dsimp only at h
              split at h
              · injection h with h; rw [h]; simp
              · injection h with h; rw [← h]; exact List.mem_cons_of_mem _ (ih w hq)
        exact this _ _ hp
      dsimp only
      rw [if_pos (.inl (h z hz))]

theorem removeFirst_asc {l : List (B × Nat)} (h1 : (l.map (·.2)).Pairwise (· < ·)) (h2 : (l.map (·.1)).Nodup) :
    removeFirst le l = l.tail := by
  cases l with
  | nil => rfl
  | cons x l =>
    rw [List.map_cons, List.pairwise_cons] at h1
    rw [List.map_cons, List.nodup_cons] at h2
    unfold removeFirst
    rw [pick_asc x l fun y hy => h1.1 y.2 (List.mem_map.2 ⟨y, hy, rfl⟩)]
    dsimp only
    rw [List.filter_cons, if_neg (by simp), List.tail_cons, List.filter_eq_self]
    intro y hy
    rw [decide_eq_true_eq]
    intro he
    exact h2.1 (List.mem_map.2 ⟨y, hy, he⟩)

theorem latest_snoc (n : Nat) (l : List B) (v : B) :
    latest n (l ++ [v]) = if n < (latest n l).length + 1 then (latest n l ++ [v]).tail else latest n l ++ [v] := by
  rw [latest_length]
  unfold latest
  rw [List.length_append, List.length_singleton]
  by_cases h : l.length < n
  · rw [if_neg (by omega), show l.length + 1 - n = 0 by omega, show l.length - n = 0 by omega]; rfl
  · rw [if_pos (by omega), show l.length + 1 - n = (l.length - n) + 1 by omega]
    rw [← List.drop_one, show l.drop (l.length - n) ++ [v] = (l ++ [v]).drop (l.length - n) from
      (by rw [List.drop_append_of_le_length (by omega)]), List.drop_drop]

theorem Good.insert {s : BSet B} {kept : List B} (h : Good s kept) (hs : s.seq + 1 ≤ maxUsize) (v : B) :
    Good (s.insert le v).1 (keep s.limit kept v) ∧ ((s.insert le v).2 = decide (v ∉ latest s.limit kept)) ∧
    (s.insert le v).1.limit = s.limit ∧ (s.insert le v).1.seq = s.seq + 1 := by
  have hlen : s.inner.length = (latest s.limit kept).length := by rw [← h.keys, List.length_map]
  have hle : s.inner.length ≤ s.limit := by rw [hlen, latest_length]; omega
  refine ⟨?_, by unfold BSet.insert; rw [h.keys], rfl, by show min (s.seq + 1) maxUsize = _; omega⟩
  unfold BSet.insert keep
  rw [h.keys, Nat.min_eq_left hs]
  by_cases hv : v ∈ latest s.limit kept
  · rw [if_pos hv]
    simp only [hv, not_true_eq_false, decide_false, Bool.false_eq_true, if_false]
    rw [if_neg (by omega)]
    exact ⟨h.keys, h.asc, fun x hx => Nat.le_succ_of_le (h.top x hx), h.nodup⟩
  · rw [if_neg hv]
    simp only [hv, not_false_eq_true, decide_true, if_true]
    have a1 : ((s.inner ++ [(v, s.seq + 1)]).map (·.2)).Pairwise (· < ·) := by
      rw [List.map_append, List.pairwise_append]
      refine ⟨h.asc, by simp, ?_⟩
      intro a ha b hb
      obtain ⟨x, hx, rfl⟩ := List.mem_map.1 ha
      have := h.top x hx
      simp at hb
      omega
    have a2 : ((s.inner ++ [(v, s.seq + 1)]).map (·.1)).Nodup := by
      rw [List.map_append, List.nodup_append]
      refine ⟨h.nodup, by simp, ?_⟩
      intro a ha b hb
      rw [h.keys] at ha
      simp at hb
      rintro rfl
      exact hv (hb ▸ ha)
    have a3 : (s.inner ++ [(v, s.seq + 1)]).map (·.1) = latest s.limit kept ++ [v] := by
      rw [List.map_append, h.keys]; rfl
    have a4 : ∀ x ∈ s.inner ++ [(v, s.seq + 1)], x.2 ≤ s.seq + 1 := by
      intro x hx
      rcases List.mem_append.1 hx with hx | hx
      · exact Nat.le_succ_of_le (h.top x hx)
      · simp at hx; rw [hx]; exact Nat.le_refl _
    rw [removeFirst_asc a1 a2]
    have a5 : (s.inner ++ [(v, s.seq + 1)]).length = (latest s.limit kept).length + 1 := by
      rw [List.length_append, hlen]; rfl
    rw [a5]
    by_cases hb : s.limit < (latest s.limit kept).length + 1
    · rw [if_pos hb]
      refine ⟨?_, ?_, ?_, ?_⟩
      · dsimp only
        rw [latest_snoc, if_pos hb, List.map_tail, a3]
      · dsimp only
        rw [List.map_tail]; exact a1.tail
      · exact fun x hx => a4 x (List.mem_of_mem_tail hx)
      · dsimp only
        rw [List.map_tail]; exact List.Pairwise.tail a2
    · rw [if_neg hb]
      exact ⟨by dsimp only; rw [latest_snoc, if_neg hb, a3], a1, a4, a2⟩

/-- Records through the filter: the set afterwards and the records that pass. -/
def pass (le : B → B → Bool) : BSet B → List (Rec B) → BSet B × List (Rec B)
  | s, [] => (s, [])
  | s, r :: l => ((pass le (s.insert le r.val).1 l).1,
      (if (s.insert le r.val).2 then [r] else []) ++ (pass le (s.insert le r.val).1 l).2)

theorem feed_pass : ∀ (rs : List (Rec B)) (s : BSet B), (∀ r ∈ rs, valid r.val = true) →
    feedAll Inst.take ⟨filterFn le valid, s, zero⟩ rs =
      some (⟨filterFn le valid, (pass le s rs).1, zero⟩, (pass le s rs).2)
  | [], s, _ => rfl
  | r :: rs, s, h => by
    have h1 := h r (by simp)
    have ht : Inst.take ⟨filterFn le valid, s, zero⟩ r =
        some (⟨filterFn le valid, (s.insert le r.val).1, zero⟩, if (s.insert le r.val).2 then [r] else []) := by
      unfold Inst.take filterFn Fn.apply
      simp only [h1, if_true, Except.map]
    rw [feedAll, ht, Option.bind_some]
    dsimp only
    rw [feed_pass rs _ fun x hx => h x (by simp [hx])]
    rfl

theorem Good.pass : ∀ (rs : List (Rec B)) (s : BSet B) (kept : List B), Good s kept →
    s.seq + rs.length ≤ maxUsize →
    Good (pass le s rs).1 ((rs.map (·.val)).foldl (keep s.limit) kept) ∧
    kept ++ (Dedup.pass le s rs).2.map (·.val) = (rs.map (·.val)).foldl (keep s.limit) kept ∧
    (Dedup.pass le s rs).1.limit = s.limit ∧ (Dedup.pass le s rs).1.seq = s.seq + rs.length
  | [], s, kept, h, _ => ⟨h, by simp [Dedup.pass], rfl, rfl⟩
  | r :: rs, s, kept, h, hs => by
    rw [List.length_cons] at hs
    obtain ⟨g1, g2, g3, g4⟩ := h.insert (le := le) (by omega) r.val
    obtain ⟨k1, k2, k3, k4⟩ := Good.pass rs (s.insert le r.val).1 (keep s.limit kept r.val) g1 (by rw [g4]; omega)
    rw [g3] at k1 k2 k3
    refine ⟨k1, ?_, k3, by rw [Dedup.pass]; dsimp only; rw [k4, g4, List.length_cons]; omega⟩
    rw [List.map_cons, List.foldl_cons, ← k2, Dedup.pass]
    dsimp only
    rw [g2, List.map_append, ← List.append_assoc]
    congr 1
    unfold keep
    by_cases hv : r.val ∈ latest s.limit kept
    · rw [if_pos hv]; simp [hv]
    · rw [if_neg hv]; simp [hv]

/-- The look-back is the filter without its answers. -/
theorem lookBack_pass : ∀ (vs : List B) (s : BSet B), (∀ v ∈ vs, valid v = true) →
    lookBackFn le valid s vs = some (pass le s (vs.map fun v => ⟨0, 0, none, v⟩)).1
  | [], s, _ => rfl
  | v :: vs, s, h => by
    rw [lookBackFn, if_pos (h v (by simp)), lookBack_pass vs _ fun x hx => h x (by simp [hx])]
    rfl

theorem new_good (n : Nat) : Good (BSet.new n : BSet B) [] :=
  ⟨by simp [BSet.new, latest], by simp [BSet.new], by simp [BSet.new], by simp [BSet.new]⟩

theorem latest_of_le {n : Nat} {l : List B} (h : l.length ≤ n) : latest n l = l := by
  unfold latest; rw [show l.length - n = 0 by omega]; rfl

theorem foldl_keep_nodup (n : Nat) : ∀ (vs kept : List B), (kept ++ vs).Nodup →
    vs.foldl (keep n) kept = kept ++ vs
  | [], kept, _ => by simp
  | v :: vs, kept, h => by
    have hv : v ∉ latest n kept := by
      intro hm
      have : v ∈ kept := List.mem_of_mem_drop hm
      rw [List.nodup_append] at h
      exact h.2.2 v this v (by simp) rfl
    rw [List.foldl_cons, keep, if_neg hv, foldl_keep_nodup n vs _ (by rw [List.append_assoc]; exact h)]
    simp

/-! What `keep` does -/

/-- Among `n + 1` values in a row none occurs twice. -/
def Apart (n : Nat) (l : List B) : Prop := ∀ i, ((l.drop i).take (n + 1)).Nodup

theorem apart_snoc {n : Nat} {l : List B} {v : B} (h : Apart n l) (hv : v ∉ latest n l) : Apart n (l ++ [v]) := by
  intro i
  by_cases hi : l.length < i
  · rw [List.drop_eq_nil_of_le (by rw [List.length_append]; simp; omega)]; simp
  · rw [List.drop_append_of_le_length (by omega), List.take_append]
    by_cases hk : n + 1 ≤ (l.drop i).length
    · rw [show n + 1 - (l.drop i).length = 0 by omega]
      simpa using h i
    · have h2 := h i
      rw [List.nodup_append]
      refine ⟨h2, (List.take_sublist _ _).nodup (by simp), ?_⟩
      intro a ha b hb hab
      have hb' : b = v := by simpa using List.mem_of_mem_take hb
      rw [hab, hb'] at ha
      apply hv
      have ha' := List.mem_of_mem_take ha
      unfold latest
      rw [List.length_drop] at hk
      have : l.drop i = (l.drop (l.length - n)).drop (i - (l.length - n)) := by
        rw [List.drop_drop]; congr 1; omega
      rw [this] at ha'
      exact List.mem_of_mem_drop ha'

theorem foldl_keep (n : Nat) : ∀ (vs kept : List B), Apart n kept →
    Apart n (vs.foldl (keep n) kept) ∧ (∃ t, vs.foldl (keep n) kept = kept ++ t ∧ t.Sublist vs) ∧
    ∀ v ∈ vs, v ∈ vs.foldl (keep n) kept
  | [], kept, h => ⟨h, ⟨[], by simp, by simp⟩, by simp⟩
  | v :: vs, kept, h => by
    by_cases hv : v ∈ latest n kept
    · obtain ⟨k1, ⟨t, k2, k3⟩, k4⟩ := foldl_keep n vs kept h
      rw [List.foldl_cons, keep, if_pos hv]
      refine ⟨k1, ⟨t, k2, k3.cons _⟩, ?_⟩
      intro w hw
      rcases List.mem_cons.1 hw with rfl | hw
      · rw [k2]; exact List.mem_append_left _ (List.mem_of_mem_drop hv)
      · exact k4 w hw
    · obtain ⟨k1, ⟨t, k2, k3⟩, k4⟩ := foldl_keep n vs (kept ++ [v]) (apart_snoc h hv)
      rw [List.foldl_cons, keep, if_neg hv]
      refine ⟨k1, ⟨v :: t, by rw [k2]; simp, k3.cons_cons _⟩, ?_⟩
      intro w hw
      rcases List.mem_cons.1 hw with rfl | hw
      · rw [k2]; simp
      · exact k4 w hw

theorem Apart.latest {n : Nat} {l : List B} (h : Apart n l) : (Dedup.latest n l).Nodup := by
  have := h (l.length - n)
  rw [List.take_of_length_le (by rw [List.length_drop]; omega)] at this
  exact this

theorem latest_latest (n : Nat) (l : List B) : latest n (latest n l) = latest n l :=
  latest_of_le (by rw [latest_length]; omega)

end Verif.Smart.Dedup
