/-
Offset bookkeeping of the leader and the high-watermark computation.

Models crates/fluvio-storage/src/lib.rs (`OffsetInfo`) and `compute_hw` in
crates/fluvio-spu/src/replication/leader/replica_state.rs.
-/

namespace Verif.Replication

/-- `OffsetInfo` (crates/fluvio-storage/src/lib.rs:43-47).  Offsets are `i64` in the code and
unbounded integers here; every offset the model builds is the length of a log or comes from a
message, and no arithmetic is done on them in the modelled functions except comparison. -/
structure Info where
  hw : Int
  leo : Int
deriving DecidableEq, Repr

/-- `Default` (crates/fluvio-storage/src/lib.rs:49-53). -/
def Info.unknown : Info := ⟨-1, -1⟩

/-- `is_valid` (crates/fluvio-storage/src/lib.rs:78-80). -/
def Info.isValid (i : Info) : Bool := !(i.hw == -1 || i.leo == -1) && decide (i.leo ≥ i.hw)

/-- `update` (crates/fluvio-storage/src/lib.rs:85-96): the merged value and whether it changed. -/
def Info.update (i o : Info) : Info × Bool :=
  (⟨if o.hw > i.hw then o.hw else i.hw, if o.leo > i.leo then o.leo else i.leo⟩,
    decide (o.hw > i.hw) || decide (o.leo > i.leo))

/-- `newer` (crates/fluvio-storage/src/lib.rs:99-101). -/
def Info.newer (i o : Info) : Bool := decide (i.leo > o.leo) || decide (i.hw > o.hw)

/-- `is_same` (crates/fluvio-storage/src/lib.rs:103-105). -/
def Info.isSame (i o : Info) : Bool := i.hw == o.hw && i.leo == o.leo

/-- `is_committed` (crates/fluvio-storage/src/lib.rs:108-110). -/
def Info.isCommitted (i : Info) : Bool := i.leo == i.hw

/-! ### The min-heap

`BinaryHeap<Reverse<Offset>>` is represented by the ascending list of its elements; `peek` is the
head.  Heap order inside the array is not modelled (standard library). -/

/-- Insert into an ascending list. -/
def heapInsert (x : Int) : List Int → List Int
  | [] => [x]
  | y :: l => if x ≤ y then x :: y :: l else y :: heapInsert x l

/-- `BinaryHeap::from` (leader/replica_state.rs:574). -/
def heapFrom (l : List Int) : List Int := l.foldr heapInsert []

/-- One turn of the loop replacing the smallest element (leader/replica_state.rs:578-584). -/
def heapReplace (h : List Int) (leo : Int) : List Int :=
  match h with
  | [] => []
  | mn :: rest => if mn < leo then heapInsert leo rest else h

/-- `compute_hw` (crates/fluvio-spu/src/replication/leader/replica_state.rs:546-586).  `followers`
are the `leo`s of the follower map in iteration order.  `minReplica` is a `u16`; the subtraction
`min_replica - 1` for 0 would overflow (panic in debug builds), here `0 - 1 = 0`: the caller always
passes the number of replicas, which includes the leader. -/
def computeHw (leaderHw : Int) (minReplica : Nat) (followers : List Int) : Option Int :=
  let minLrs := min (minReplica - 1) followers.length
  let qualified := followers.filter (fun leo => decide (leo > leaderHw))
  if minLrs = 0 then qualified.max?
  else if qualified.length < minLrs then none
  else ((qualified.drop minLrs).foldl heapReplace (heapFrom (qualified.take minLrs))).head?

/-! ### Counting -/

/-- How many of the offsets are at least `y`. -/
def atLeast (y : Int) (l : List Int) : Nat := l.countP (fun x => decide (y ≤ x))

theorem atLeast_cons (y x : Int) (l : List Int) :
    atLeast y (x :: l) = atLeast y l + if y ≤ x then 1 else 0 := by
  unfold atLeast
  rw [List.countP_cons]
  simp

theorem atLeast_append (y : Int) (l l' : List Int) :
    atLeast y (l ++ l') = atLeast y l + atLeast y l' := List.countP_append

theorem atLeast_le (y : Int) (l : List Int) : atLeast y l ≤ l.length := List.countP_le_length

theorem atLeast_anti {y z : Int} (h : y ≤ z) (l : List Int) : atLeast z l ≤ atLeast y l := by
  apply List.countP_mono_left
  intro x _ hx
  simp only [decide_eq_true_eq] at hx ⊢
  omega

theorem atLeast_perm {l l' : List Int} (h : l.Perm l') (y : Int) : atLeast y l = atLeast y l' :=
  h.countP_eq _

theorem heapInsert_length (x : Int) (l : List Int) : (heapInsert x l).length = l.length + 1 := by
  induction l with
  | nil => rfl
  | cons y l ih => unfold heapInsert; split <;> simp [ih]

theorem heapInsert_mem {x z : Int} {l : List Int} : z ∈ heapInsert x l ↔ z = x ∨ z ∈ l := by
  induction l with
  | nil => simp [heapInsert]
  | cons y l ih =>
    unfold heapInsert
    split
    · simp
    · simp only [List.mem_cons, ih]
      constructor
      · rintro (h | h | h) <;> simp [h]
      · rintro (h | h | h) <;> simp [h]

theorem heapInsert_sorted {x : Int} {l : List Int} (h : l.Pairwise (· ≤ ·)) :
    (heapInsert x l).Pairwise (· ≤ ·) := by
  induction l with
  | nil => simp [heapInsert]
  | cons y l ih =>
    unfold heapInsert
    rw [List.pairwise_cons] at h
    split
    · rename_i hxy
      rw [List.pairwise_cons]
      refine ⟨?_, List.pairwise_cons.2 h⟩
      intro a ha
      rcases List.mem_cons.1 ha with rfl | ha
      · exact hxy
      · exact Int.le_trans hxy (h.1 a ha)
    · rename_i hxy
      rw [List.pairwise_cons]
      refine ⟨?_, ih h.2⟩
      intro a ha
      rcases heapInsert_mem.1 ha with rfl | ha
      · omega
      · exact h.1 a ha

theorem heapInsert_atLeast (x y : Int) (l : List Int) :
    atLeast y (heapInsert x l) = atLeast y l + if y ≤ x then 1 else 0 := by
  induction l with
  | nil => simp [heapInsert, atLeast_cons]
  | cons z l ih =>
    unfold heapInsert
    split
    · rw [atLeast_cons]
    · rw [atLeast_cons, ih, atLeast_cons]; omega

theorem heapFrom_length (l : List Int) : (heapFrom l).length = l.length := by
  induction l with
  | nil => rfl
  | cons x l ih => unfold heapFrom at *; simp [heapInsert_length, ih]

theorem heapFrom_sorted (l : List Int) : (heapFrom l).Pairwise (· ≤ ·) := by
  induction l with
  | nil => simp [heapFrom]
  | cons x l ih => exact heapInsert_sorted ih

theorem heapFrom_atLeast (l : List Int) (y : Int) : atLeast y (heapFrom l) = atLeast y l := by
  induction l with
  | nil => rfl
  | cons x l ih =>
    show atLeast y (heapInsert x (heapFrom l)) = _
    rw [heapInsert_atLeast, ih, atLeast_cons]

theorem atLeast_all {y : Int} {l : List Int} (h : ∀ x ∈ l, y ≤ x) : atLeast y l = l.length := by
  unfold atLeast
  rw [List.countP_eq_length]
  intro x hx
  simp [h x hx]

theorem atLeast_none {y : Int} {l : List Int} (h : ∀ x ∈ l, x < y) : atLeast y l = 0 := by
  unfold atLeast
  rw [List.countP_eq_zero]
  intro x hx
  have := h x hx
  simp; omega

/-- The heap holds the `m` largest of the offsets seen. -/
def TopOf (m : Nat) (h seen : List Int) : Prop :=
  h.Pairwise (· ≤ ·) ∧ h.length = m ∧ ∀ y, atLeast y h = min m (atLeast y seen)

theorem TopOf.step {m : Nat} {h seen : List Int} (ht : TopOf m h seen) (x : Int) :
    TopOf m (heapReplace h x) (seen ++ [x]) := by
  obtain ⟨hs, hl, hc⟩ := ht
  cases h with
  | nil =>
    refine ⟨hs, hl, ?_⟩
    intro y
    have : m = 0 := by simpa using hl.symm
    subst this
    simp [heapReplace, atLeast]
  | cons mn rest =>
    have hs' := List.pairwise_cons.1 hs
    have hlen : rest.length + 1 = m := by simpa using hl
    unfold heapReplace
    dsimp only
    split
    · rename_i hlt
      refine ⟨heapInsert_sorted hs'.2, by rw [heapInsert_length]; exact hlen, ?_⟩
      intro y
      have hy := hc y
      rw [heapInsert_atLeast, atLeast_append]
      rw [atLeast_cons] at hy
      have h1 : atLeast y [x] = if y ≤ x then 1 else 0 := by simp [atLeast]
      rw [h1]
      have hr := atLeast_le y rest
      by_cases hym : y ≤ mn
      · have : atLeast y rest = rest.length :=
          atLeast_all (fun z hz => Int.le_trans hym (hs'.1 z hz))
        have : y ≤ x := by omega
        simp only [if_pos hym, if_pos this] at *
        omega
      · simp only [if_neg hym] at hy
        split <;> omega
    · rename_i hlt
      refine ⟨hs, hl, ?_⟩
      intro y
      have hy := hc y
      rw [atLeast_append]
      have h1 : atLeast y [x] = if y ≤ x then 1 else 0 := by simp [atLeast]
      rw [h1]
      by_cases hym : y ≤ mn
      · have : atLeast y (mn :: rest) = m := by
          rw [← hl]
          apply atLeast_all
          intro z hz
          rcases List.mem_cons.1 hz with rfl | hz
          · exact hym
          · exact Int.le_trans hym (hs'.1 z hz)
        omega
      · rw [if_neg (by omega)]
        omega

theorem TopOf.fold {m : Nat} {h seen : List Int} (ht : TopOf m h seen) (more : List Int) :
    TopOf m (more.foldl heapReplace h) (seen ++ more) := by
  induction more generalizing h seen with
  | nil => simpa using ht
  | cons x more ih =>
    rw [List.foldl_cons]
    have := ih (ht.step x)
    simpa using this

theorem TopOf.start (l : List Int) : TopOf l.length (heapFrom l) l :=
  ⟨heapFrom_sorted l, heapFrom_length l, fun y => by
    rw [heapFrom_atLeast]; have := atLeast_le y l; omega⟩

/-- The smallest of the top `m` is held by `m`, and nothing larger is. -/
theorem TopOf.head {m : Nat} {h seen : List Int} (ht : TopOf m h seen) (hm : 0 < m) :
    ∃ x, h.head? = some x ∧ x ∈ h ∧ m ≤ atLeast x seen ∧ ∀ y, x < y → atLeast y seen < m := by
  obtain ⟨hs, hl, hc⟩ := ht
  cases h with
  | nil => simp at hl; omega
  | cons x rest =>
    have hs' := List.pairwise_cons.1 hs
    refine ⟨x, rfl, by simp, ?_, ?_⟩
    · have h1 : atLeast x (x :: rest) = m := by
        rw [← hl]
        apply atLeast_all
        intro z hz
        rcases List.mem_cons.1 hz with rfl | hz
        · exact Int.le_refl _
        · exact hs'.1 z hz
      have := hc x
      omega
    · intro y hy
      have h1 := hc y
      rw [atLeast_cons, if_neg (by omega)] at h1
      have h2 := atLeast_le y rest
      have h3 : rest.length + 1 = m := by simpa using hl
      omega

theorem atLeast_filter {hw y : Int} (hy : hw < y) (l : List Int) :
    atLeast y (l.filter (fun x => decide (x > hw))) = atLeast y l := by
  unfold atLeast
  rw [List.countP_filter]
  apply List.countP_congr
  intro x _
  simp only [decide_eq_true_eq, Bool.and_eq_true]
  omega

theorem filter_length_eq (hw : Int) (l : List Int) :
    (l.filter (fun x => decide (x > hw))).length = atLeast (hw + 1) l := by
  rw [← List.countP_eq_length_filter]
  unfold atLeast
  apply List.countP_congr
  intro x _
  simp only [decide_eq_true_eq]
  omega

/-- With at least one follower required: the exact meaning of the result. -/
theorem computeHw_some {hw : Int} {minReplica : Nat} {followers : List Int}
    (hm : 0 < min (minReplica - 1) followers.length) {x : Int} :
    computeHw hw minReplica followers = some x ↔
      hw < x ∧ min (minReplica - 1) followers.length ≤ atLeast x followers ∧
        ∀ y, x < y → atLeast y followers < min (minReplica - 1) followers.length := by
  generalize hmd : min (minReplica - 1) followers.length = m at *
  unfold computeHw
  dsimp only
  rw [hmd, if_neg (by omega), filter_length_eq]
  split
  · rename_i hlt
    constructor
    · intro h; simp at h
    · rintro ⟨h1, h2, _⟩
      have := atLeast_anti (show hw + 1 ≤ x by omega) followers
      omega
  · rename_i hge
    have hge : m ≤ atLeast (hw + 1) followers := by omega
    generalize hq : followers.filter (fun leo => decide (leo > hw)) = q
    have hql : m ≤ q.length := by rw [← hq, filter_length_eq]; exact hge
    have ht : TopOf m ((q.drop m).foldl heapReplace (heapFrom (q.take m))) q := by
      have h0 := TopOf.start (q.take m)
      rw [List.length_take, Nat.min_eq_left hql] at h0
      have := h0.fold (q.drop m)
      rwa [List.take_append_drop] at this
    obtain ⟨z, hz, _, hz1, hz2⟩ := ht.head hm
    rw [hz]
    have hall : ∀ y, hw < y → atLeast y q = atLeast y followers := by
      intro y hy; rw [← hq]; exact atLeast_filter hy _
    have hzw : hw < z := by
      apply Classical.byContradiction
      intro hn
      have := hz2 (hw + 1) (by omega)
      rw [hall _ (by omega)] at this
      omega
    constructor
    · intro h
      injection h with h
      subst h
      refine ⟨hzw, ?_, ?_⟩
      · rw [← hall _ hzw]; exact hz1
      · intro y hy
        rw [← hall _ (by omega)]
        exact hz2 y hy
    · rintro ⟨h1, h2, h3⟩
      congr 1
      rcases Int.lt_trichotomy z x with h | h | h
      · have := hz2 x h
        rw [hall _ h1] at this
        omega
      · exact h
      · have := h3 z h
        rw [← hall _ hzw] at this
        omega

theorem computeHw_none {hw : Int} {minReplica : Nat} {followers : List Int}
    (hm : 0 < min (minReplica - 1) followers.length) :
    computeHw hw minReplica followers = none ↔
      atLeast (hw + 1) followers < min (minReplica - 1) followers.length := by
  generalize hmd : min (minReplica - 1) followers.length = m at *
  unfold computeHw
  dsimp only
  rw [hmd, if_neg (by omega), filter_length_eq]
  split
  · simp_all
  · rename_i hge
    generalize hq : followers.filter (fun leo => decide (leo > hw)) = q
    have hql : m ≤ q.length := by rw [← hq, filter_length_eq]; omega
    have ht : TopOf m ((q.drop m).foldl heapReplace (heapFrom (q.take m))) q := by
      have h0 := TopOf.start (q.take m)
      rw [List.length_take, Nat.min_eq_left hql] at h0
      have := h0.fold (q.drop m)
      rwa [List.take_append_drop] at this
    obtain ⟨z, hz, _⟩ := ht.head hm
    rw [hz]
    simp; omega

/-- All followers required (the only count the server uses): the result is past the old watermark
and every follower has reached it. -/
theorem computeHw_all {hw : Int} {followers : List Int} {x : Int}
    (h : computeHw hw (followers.length + 1) followers = some x) :
    hw < x ∧ ∀ l ∈ followers, x ≤ l := by
  by_cases h0 : followers = []
  · subst h0
    simp [computeHw] at h
  · have hl : 0 < followers.length := List.length_pos_iff.2 h0
    have hmin : min (followers.length + 1 - 1) followers.length = followers.length := by omega
    have := (computeHw_some (by omega)).1 h
    rw [hmin] at this
    refine ⟨this.1, ?_⟩
    have hc : atLeast x followers = followers.length := by
      have := atLeast_le x followers; omega
    unfold atLeast at hc
    rw [List.countP_eq_length] at hc
    intro l hl
    simpa using hc l hl

theorem computeHw_all_ge {hw : Int} {followers : List Int} {x z : Int}
    (h : computeHw hw (followers.length + 1) followers = some x)
    (hz : ∀ l ∈ followers, z ≤ l) : z ≤ x := by
  by_cases h0 : followers = []
  · subst h0
    simp [computeHw] at h
  · have hl : 0 < followers.length := List.length_pos_iff.2 h0
    have hmin : min (followers.length + 1 - 1) followers.length = followers.length := by omega
    have := (computeHw_some (by omega)).1 h
    rw [hmin] at this
    apply Classical.byContradiction
    intro hn
    have h1 := this.2.2 z (by omega)
    rw [atLeast_all hz] at h1
    omega

end Verif.Replication
