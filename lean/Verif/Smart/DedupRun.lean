import Verif.Smart.Dedup
import Verif.Props.SmartProduce

/-!
# Topics with deduplication: lemmas about the leader
-/

namespace Verif.Smart.Dedup
open Verif.Smart

variable {B : Type} [DecidableEq B] {le : B → B → Bool} {valid : B → Bool} {zero : B} {d : Spec}

/-- The batches of the log end before the log's end. -/
def LogOk (x : Node B) : Prop := ∀ p ∈ x.leader.log, p.1 + p.2.delta < x.leader.leo

theorem LogOk.write {x : Node B} (h : LogOk x) (l : List (InBatch B)) (io : Bool) :
    LogOk { x with leader := (x.leader.write l io).1 } := by
  unfold LogOk Leader.write at *
  generalize applyChain x.leader.chain l = y
  obtain ⟨c', a⟩ := y
  cases a with
  | failed => exact h
  | rejected e => exact h
  | batch o =>
    dsimp only
    split
    · exact h
    · split
      · exact h
      · rename_i h1 _
        intro p hp
        have hd : 0 < o.delta + 1 := by
          have : ¬ o.recordsLen = 0 := by
            intro hn; apply h1; rw [decide_eq_true hn, Bool.or_true]
          unfold OutBatch.recordsLen at this
          omega
        rcases List.mem_append.1 hp with hp | hp
        · have := h p hp
          show _ < x.leader.leo + (o.delta + 1)
          omega
        · simp at hp
          rw [hp]
          show x.leader.leo + o.delta < x.leader.leo + (o.delta + 1)
          omega

theorem itemsOf_val (p : Int × OutBatch B) : (itemsOf p).map (·.val) = p.2.recs.map (·.val) := by
  unfold itemsOf; rw [List.map_map]; rfl

theorem stored_eq (x : Node B) : x.stored = x.leader.log.flatMap fun p => p.2.recs.map (·.val) := by
  unfold Node.stored Leader.pairs
  induction x.leader.log with
  | nil => rfl
  | cons p l ih =>
    rw [List.flatMap_cons, List.flatMap_cons, List.map_append, ih]
    congr 1
    have h := congrArg (List.map (·.2)) (pairs_values p.1 p.2)
    rw [List.map_map, List.map_map] at h
    exact h

theorem items_val (l : List (Int × OutBatch B)) :
    (l.flatMap itemsOf).map (·.val) = l.flatMap fun p => p.2.recs.map (·.val) := by
  induction l with
  | nil => rfl
  | cons p l ih => rw [List.flatMap_cons, List.flatMap_cons, List.map_append, ih, itemsOf_val]

theorem items_off (l : List (Int × OutBatch B)) :
    (l.flatMap itemsOf).map (·.off) = l.flatMap fun p => p.2.recs.map fun r => p.1 + r.delta := by
  induction l with
  | nil => rfl
  | cons p l ih =>
    rw [List.flatMap_cons, List.flatMap_cons, List.map_append, ih, itemsOf, List.map_map]
    rfl

/-- Items numbered in a row: those from an offset on are the end of the list. -/
theorem filter_off : ∀ (l : List (Item B)) (s k : Nat),
    l.map (·.off) = (List.range' s l.length).map (fun k : Nat => (k : Int)) →
    l.filter (fun i => decide ((k : Int) ≤ i.off)) = l.drop (k - s)
  | [], s, k, _ => by simp
  | i :: l, s, k, h => by
    rw [List.length_cons, List.range'_succ, List.map_cons, List.map_cons] at h
    injection h with h1 h2
    have ih := filter_off l (s + 1) k h2
    rw [List.filter_cons, h1]
    by_cases hk : k ≤ s
    · rw [if_pos (by rw [decide_eq_true_eq]; omega), ih, show k - (s + 1) = 0 by omega, show k - s = 0 by omega]
      rfl
    · rw [if_neg (by rw [decide_eq_true_eq]; omega), ih, show k - s = (k - (s + 1)) + 1 by omega]
      rfl

theorem look_dense {x : Node B} (hl : LogOk x) (h : Dense x) (hd : d.age = none) (now : Int) :
    (look d now x).map (·.val) = latest d.count x.stored := by
  obtain ⟨h1, h2, h3⟩ := h
  have hlen : (x.leader.log.flatMap itemsOf).length = x.stored.length := by
    rw [stored_eq, ← items_val, List.length_map]
  have hf : (x.leader.log.filter fun p => decide (p.1 + p.2.delta < x.hw)) = x.leader.log := by
    rw [List.filter_eq_self]
    intro p hp
    rw [decide_eq_true_eq, h1]
    exact hl p hp
  unfold look
  rw [hd]
  show (lookLast x.leader.log x.hw d.count).map (·.val) = _
  unfold lookLast
  rw [hf]
  have hmax : max (x.hw - (d.count : Int)) 0 = ((x.stored.length - d.count : Nat) : Int) := by
    rw [h1, h2]; omega
  rw [hmax, filter_off _ 0 _ (by rw [items_off, h3, hlen, List.range_eq_range']), List.map_drop, items_val, ← stored_eq]
  rfl

theorem look_mem {x : Node B} {now : Int} {i : Item B} (h : i ∈ look d now x) : i.val ∈ x.stored := by
  have key : ∀ i ∈ x.leader.log.flatMap itemsOf, i.val ∈ x.stored := by
    intro i hi
    rw [stored_eq, ← items_val]
    exact List.mem_map.2 ⟨i, hi, rfl⟩
  have sub : ∀ i ∈ (x.leader.log.filter fun p => decide (p.1 + p.2.delta < x.hw)).flatMap itemsOf,
      i ∈ x.leader.log.flatMap itemsOf := by
    intro i hi
    obtain ⟨p, hp, hi⟩ := List.mem_flatMap.1 hi
    exact List.mem_flatMap.2 ⟨p, (List.mem_filter.1 hp).1, hi⟩
  unfold look at h
  cases hd : d.age with
  | none =>
    rw [hd] at h
    exact key i (sub i (List.mem_filter.1 h).1)
  | some a =>
    rw [hd] at h
    have h1 := (List.mem_filter.1 h).1
    split at h1
    · exact key i (sub i (List.mem_filter.1 h1).1)
    · split at h1
      · exact key i (sub i h1)
      · cases h1

/-! ## Values are not lost -/

theorem removeFirst_sub {l : List (B × Nat)} {y : B × Nat} (h : y ∈ removeFirst le l) : y ∈ l := by
  unfold removeFirst at h
  split at h
  · exact h
  · exact (List.mem_filter.1 h).1

theorem insert_keys (s : BSet B) (v : B) :
    (∀ y ∈ (s.insert le v).1.inner, y.1 ∈ s.inner.map (·.1) ∨ (y.1 = v ∧ (s.insert le v).2 = true)) ∧
    ((s.insert le v).2 = false → v ∈ s.inner.map (·.1)) := by
  unfold BSet.insert
  dsimp only
  by_cases hv : v ∈ s.inner.map (·.1)
  · simp only [hv, not_true_eq_false, decide_false, Bool.false_eq_true, if_false]
    refine ⟨fun y hy => .inl ?_, fun _ => trivial⟩
    split at hy
    · exact List.mem_map.2 ⟨y, removeFirst_sub hy, rfl⟩
    · exact List.mem_map.2 ⟨y, hy, rfl⟩
  · simp only [hv, not_false_eq_true, decide_true, if_true]
    refine ⟨fun y hy => ?_, fun h => by cases h⟩
    have hy' : y ∈ s.inner ++ [(v, min (s.seq + 1) maxUsize)] := by
      split at hy
      · exact removeFirst_sub hy
      · exact hy
    rcases List.mem_append.1 hy' with hy' | hy'
    · exact .inl (List.mem_map.2 ⟨y, hy', rfl⟩)
    · simp at hy'; exact .inr ⟨by rw [hy'], trivial⟩

theorem pass_keys : ∀ (rs : List (Rec B)) (s : BSet B) (K : List B), (∀ y ∈ s.inner, y.1 ∈ K) →
    (∀ y ∈ (pass le s rs).1.inner, y.1 ∈ K ++ (pass le s rs).2.map (·.val)) ∧
    (∀ r ∈ rs, r.val ∈ K ++ (pass le s rs).2.map (·.val)) ∧ (pass le s rs).2.Sublist rs
  | [], s, K, h => ⟨fun y hy => List.mem_append_left _ (h y hy), by simp, .slnil⟩
  | r :: rs, s, K, h => by
    obtain ⟨i1, i2⟩ := insert_keys (le := le) s r.val
    have hK : ∀ x ∈ s.inner.map (·.1), x ∈ K := by
      intro x hx
      obtain ⟨y, hy, rfl⟩ := List.mem_map.1 hx
      exact h y hy
    rw [pass]
    dsimp only
    cases hb : (s.insert le r.val).2 with
    | false =>
      obtain ⟨k1, k2, k3⟩ := pass_keys rs (s.insert le r.val).1 K fun y hy => by
        rcases i1 y hy with h1 | ⟨_, h1⟩
        · exact hK _ h1
        · rw [hb] at h1; cases h1
      rw [if_neg Bool.false_ne_true, List.nil_append]
      refine ⟨k1, ?_, k3.cons _⟩
      intro x hx
      rcases List.mem_cons.1 hx with rfl | hx
      · exact List.mem_append_left _ (hK _ (i2 hb))
      · exact k2 x hx
    | true =>
      obtain ⟨k1, k2, k3⟩ := pass_keys rs (s.insert le r.val).1 (K ++ [r.val]) fun y hy => by
        rcases i1 y hy with h1 | ⟨h1, _⟩
        · exact List.mem_append_left _ (hK _ h1)
        · rw [h1]; simp
      rw [if_pos rfl, List.singleton_append, List.map_cons]
      rw [List.append_assoc, List.singleton_append] at k1 k2
      refine ⟨k1, ?_, k3.cons_cons _⟩
      intro x hx
      rcases List.mem_cons.1 hx with rfl | hx
      · simp
      · exact k2 x hx

/-- The filter remembers only what is stored. -/
structure Safe (le : B → B → Bool) (valid : B → Bool) (zero : B) (x : Node B) : Prop where
  chain : ∃ s, x.leader.chain = [⟨filterFn le valid, s, zero⟩] ∧ ∀ y ∈ s.inner, y.1 ∈ x.stored
  ok : ∀ v ∈ x.stored, valid v = true

/-- One write on which nothing fails. -/
theorem write_pass {x : Node B} {s : BSet B} (hc : x.leader.chain = [⟨filterFn le valid, s, zero⟩])
    {l : List (InBatch B)} (hl : ∀ b ∈ l, SentOk b) (hv : ∀ r ∈ allRecs l, valid r.val = true) :
    let y : Node B := { x with leader := (x.leader.write l false).1 }
    (x.leader.write l false).2 = true ∧
    y.leader.chain = [⟨filterFn le valid, (pass le s (allRecs l)).1, zero⟩] ∧
    y.stored = x.stored ++ (pass le s (allRecs l)).2.map (·.val) := by
  have hf : feed x.leader.chain (allRecs l) =
      some ([⟨filterFn le valid, (pass le s (allRecs l)).1, zero⟩], (pass le s (allRecs l)).2) := by
    rw [hc, feed_single, feed_pass (zero := zero) (allRecs l) s hv]; rfl
  obtain ⟨h0, h1, h2, _⟩ := Verif.Props.write_ok x.leader l _ _ hl hf
  refine ⟨h0, h1, ?_⟩
  have h3 := congrArg (List.map (·.2)) h2
  rw [List.map_append, List.map_map, List.map_map, List.map_map] at h3
  exact h3

theorem Safe.write {x : Node B} (h : Safe le valid zero x) {l : List (InBatch B)} (hl : ∀ b ∈ l, SentOk b)
    (hv : ∀ r ∈ allRecs l, valid r.val = true) :
    let y : Node B := { x with leader := (x.leader.write l false).1 }
    Safe le valid zero y ∧ (∀ r ∈ allRecs l, r.val ∈ y.stored) ∧
    ∃ t, y.stored = x.stored ++ t ∧ t.Sublist ((allRecs l).map (·.val)) := by
  obtain ⟨s, hc, hs⟩ := h.chain
  obtain ⟨_, h1, h2⟩ := write_pass hc hl hv
  obtain ⟨k1, k2, k3⟩ := pass_keys (le := le) (allRecs l) s x.stored hs
  refine ⟨⟨⟨_, h1, fun y hy => ?_⟩, fun v hx => ?_⟩, fun r hr => ?_, _, h2, k3.map _⟩
  · rw [h2]; exact k1 y hy
  · rw [h2] at hx
    rcases List.mem_append.1 hx with hx | hx
    · exact h.ok v hx
    · obtain ⟨r, hr, rfl⟩ := List.mem_map.1 hx
      exact hv r (k3.subset hr)
  · rw [h2]; exact k2 r hr

theorem start_ok {x : Node B} {now : Int} {n : Nat} (hi : initFn (params d) = some (BSet.new n : BSet B))
    (hv : ∀ v ∈ x.stored, valid v = true) :
    start le valid zero d now x = some { x with leader := { x.leader with chain :=
      [⟨filterFn le valid, (pass le (BSet.new n) (((look d now x).map (·.val)).map fun v => ⟨0, 0, none, v⟩)).1, zero⟩] } } := by
  unfold start
  rw [hi]
  dsimp only
  rw [lookBack_pass _ _ fun v hm => ?_]
  obtain ⟨i, hi, rfl⟩ := List.mem_map.1 hm
  exact hv _ (look_mem hi)

theorem start_safe {x : Node B} {now : Int} {n : Nat} (hi : initFn (params d) = some (BSet.new n : BSet B))
    (hv : ∀ v ∈ x.stored, valid v = true) :
    ∃ y, start le valid zero d now x = some y ∧ Safe le valid zero y ∧ y.stored = x.stored := by
  refine ⟨_, start_ok hi hv, ⟨⟨_, rfl, ?_⟩, hv⟩, rfl⟩
  intro y hy
  obtain ⟨k1, _, k3⟩ := pass_keys (le := le) (((look d now x).map (·.val)).map fun v => (⟨0, 0, none, v⟩ : Rec B))
    (BSet.new n) [] (by simp [BSet.new])
  have := k1 y hy
  rw [List.nil_append] at this
  obtain ⟨r, hr, h1⟩ := List.mem_map.1 this
  obtain ⟨v, hm, rfl⟩ := List.mem_map.1 (k3.subset hr)
  obtain ⟨i, hi', rfl⟩ := List.mem_map.1 hm
  rw [← h1]
  exact look_mem hi'

theorem run_safe {n : Nat} (hi : initFn (params d) = some (BSet.new n : BSet B)) :
    ∀ (es : List (Ev B)) (x : Node B), Safe le valid zero x → (∀ e ∈ es, Sound valid e) →
    ∃ y, run le valid zero d x es = some y ∧ (∀ v ∈ offered es, v ∈ y.stored) ∧
      ∃ t, y.stored = x.stored ++ t ∧ t.Sublist (offered es)
  | [], x, _, _ => ⟨x, rfl, by simp [offered], [], by simp, by simp⟩
  | e :: es, x, h, hs => by
    have hs' : ∀ e ∈ es, Sound valid e := fun e he => hs e (by simp [he])
    cases e with
    | write l io =>
      obtain ⟨rfl, h1, h2⟩ := hs (.write l io) (by simp)
      obtain ⟨k1, k2, t, k3, k4⟩ := h.write h1 h2
      obtain ⟨y, e1, e2, t', e3, e4⟩ := run_safe hi es _ k1 hs'
      refine ⟨y, e1, ?_, t ++ t', by rw [e3, k3, List.append_assoc], ?_⟩
      · intro v hv
        rcases List.mem_append.1 hv with hv | hv
        · obtain ⟨r, hr, rfl⟩ := List.mem_map.1 hv
          rw [e3]; exact List.mem_append_left _ (k2 r hr)
        · exact e2 v hv
      · exact k4.append e4
    | commit hw =>
      have k1 : Safe le valid zero { x with hw := if x.hw ≤ hw ∧ hw ≤ x.leader.leo then hw else x.hw } := ⟨h.chain, h.ok⟩
      exact run_safe hi es _ k1 hs'
    | restart now =>
      obtain ⟨y, e1, e2, e3⟩ := start_safe (le := le) (zero := zero) (now := now) hi h.ok
      obtain ⟨z, f1, f2, f3⟩ := run_safe hi es y e2 hs'
      refine ⟨z, ?_, f2, by rw [← e3]; exact f3⟩
      show (start le valid zero d now x).bind _ = _
      rw [e1]; exact f1

/-! ## Nothing is stored twice -/

/-- The filter remembers the last values of the log; `m` bounds what it has counted. -/
structure Exact (le : B → B → Bool) (valid : B → Bool) (zero : B) (n m : Nat) (x : Node B) : Prop where
  chain : ∃ s, x.leader.chain = [⟨filterFn le valid, s, zero⟩] ∧ Good s x.stored ∧ s.limit = n ∧ s.seq ≤ m
  ok : ∀ v ∈ x.stored, valid v = true
  len : x.stored.length ≤ m
  log : LogOk x
  apart : Apart n x.stored

theorem Good.of_latest {s : BSet B} {k k' : List B} (h : Good s k) (e : latest s.limit k = latest s.limit k') :
    Good s k' := ⟨by rw [h.keys, e], h.asc, h.top, h.nodup⟩

theorem start_exact {x : Node B} {now : Int} {m : Nat}
    (hi : initFn (params d) = some (BSet.new d.count : BSet B)) (ha : d.age = none)
    (hv : ∀ v ∈ x.stored, valid v = true) (hlen : x.stored.length ≤ m) (hlog : LogOk x)
    (hap : Apart d.count x.stored) (hd : Dense x) (hm : m ≤ maxUsize) :
    ∃ y, start le valid zero d now x = some y ∧ Exact le valid zero d.count m y ∧ y.stored = x.stored := by
  refine ⟨_, start_ok hi hv, ⟨⟨_, rfl, ?_⟩, hv, hlen, hlog, hap⟩, rfl⟩
  rw [look_dense hlog hd ha]
  have hle : (latest d.count x.stored).length ≤ m := by rw [latest_length]; omega
  obtain ⟨g1, _, g3, g4⟩ := Good.pass (le := le) ((latest d.count x.stored).map fun v => (⟨0, 0, none, v⟩ : Rec B))
    (BSet.new d.count) [] (new_good _) (by rw [List.length_map]; show 0 + _ ≤ _; omega)
  rw [List.map_map] at g1
  have hid : (latest d.count x.stored).map ((fun r : Rec B => r.val) ∘ fun v => ⟨0, 0, none, v⟩) =
      latest d.count x.stored := by
    have : ((fun r : Rec B => r.val) ∘ fun v => (⟨0, 0, none, v⟩ : Rec B)) = id := rfl
    rw [this, List.map_id]
  rw [hid, show (BSet.new d.count : BSet B).limit = d.count from rfl,
    foldl_keep_nodup d.count _ [] (by simpa using hap.latest), List.nil_append] at g1
  have g3' : (pass le (BSet.new d.count) ((latest d.count x.stored).map fun v => (⟨0, 0, none, v⟩ : Rec B))).1.limit =
    d.count := g3
  refine ⟨g1.of_latest (by rw [g3']; exact latest_latest _ _), g3', ?_⟩
  rw [g4, List.length_map]
  show 0 + _ ≤ m
  omega

theorem Exact.write {n m : Nat} {x : Node B} (h : Exact le valid zero n m x) {l : List (InBatch B)}
    (hl : ∀ b ∈ l, SentOk b) (hv : ∀ r ∈ allRecs l, valid r.val = true) (hm : m + (allRecs l).length ≤ maxUsize) :
    let y : Node B := { x with leader := (x.leader.write l false).1 }
    Exact le valid zero n (m + (allRecs l).length) y ∧
    y.stored = ((allRecs l).map (·.val)).foldl (keep n) x.stored := by
  obtain ⟨s, hc, hg, hn, hs⟩ := h.chain
  obtain ⟨_, h1, h2⟩ := write_pass hc hl hv
  obtain ⟨k1, k2, k3, k4⟩ := Good.pass (le := le) (allRecs l) s x.stored hg (by omega)
  rw [hn] at k1 k2
  have h3 := h2.trans k2
  obtain ⟨a1, ⟨t, a2, a3⟩, _⟩ := foldl_keep n ((allRecs l).map (·.val)) x.stored h.apart
  refine ⟨⟨⟨_, h1, by rw [h3]; exact k1, by rw [k3, hn], by rw [k4]; omega⟩, ?_, ?_, h.log.write l false,
    by rw [h3]; exact a1⟩, h3⟩
  · intro v hx
    rw [h3, a2] at hx
    rcases List.mem_append.1 hx with hx | hx
    · exact h.ok v hx
    · obtain ⟨r, hr, rfl⟩ := List.mem_map.1 (a3.subset hx)
      exact hv r hr
  · rw [h3, a2, List.length_append]
    have := a3.length_le
    rw [List.length_map] at this
    have := h.len
    omega

theorem run_exact (hi : initFn (params d) = some (BSet.new d.count : BSet B)) (ha : d.age = none) :
    ∀ (es : List (Ev B)) (x : Node B) (m : Nat), Exact le valid zero d.count m x → (∀ e ∈ es, Sound valid e) →
    Calm le valid zero d x es → m + (offered es).length ≤ maxUsize →
    ∃ y, run le valid zero d x es = some y ∧ y.stored = (offered es).foldl (keep d.count) x.stored
  | [], x, _, _, _, _, _ => ⟨x, rfl, rfl⟩
  | e :: es, x, m, h, hs, hc, hm => by
    have hs' : ∀ e ∈ es, Sound valid e := fun e he => hs e (by simp [he])
    cases e with
    | write l io =>
      obtain ⟨rfl, h1, h2⟩ := hs (.write l io) (by simp)
      have hm' : m + (allRecs l).length + (offered es).length ≤ maxUsize := by
        have : (offered (Ev.write l false :: es)).length = (allRecs l).length + (offered es).length := by
          simp [offered]
        omega
      obtain ⟨k1, k2⟩ := h.write h1 h2 (by omega)
      obtain ⟨y, e1, e2⟩ := run_exact hi ha es _ _ k1 hs' (hc.2 _ rfl) hm'
      refine ⟨y, e1, ?_⟩
      rw [e2, k2, offered, List.foldl_append]
    | commit hw =>
      have k1 : Exact le valid zero d.count m
          { x with hw := if x.hw ≤ hw ∧ hw ≤ x.leader.leo then hw else x.hw } := ⟨h.chain, h.ok, h.len, h.log, h.apart⟩
      exact run_exact hi ha es _ _ k1 hs' (hc.2 _ rfl) hm
    | restart now =>
      have hm2 : m + (offered es).length ≤ maxUsize := hm
      obtain ⟨y, e1, e2, e3⟩ := start_exact (le := le) (valid := valid) (zero := zero) (now := now) (m := m) hi ha h.ok h.len
        h.log h.apart hc.1 (by omega)
      obtain ⟨z, f1, f2⟩ := run_exact hi ha es y m e2 hs' (hc.2 y e1) hm2
      refine ⟨z, ?_, by rw [f2, e3]; rfl⟩
      show (start le valid zero d now x).bind _ = _
      rw [e1]; exact f1

theorem blank_dense : Dense (blank : Node B) := ⟨rfl, rfl, rfl⟩

theorem blank_apart (n : Nat) : Apart n (blank : Node B).stored := by
  intro i
  show ((([] : List B).drop i).take (n + 1)).Nodup
  simp

/-! ## Parameters -/

theorem get_put (m : List (String × List Char)) (k k' : String) (v : List Char) :
    get (put m k v) k' = if k = k' then some v else get m k' := by
  unfold get put
  by_cases h : k = k'
  · rw [if_pos h, List.find?_cons_of_pos (by simpa using h)]; rfl
  · rw [if_neg h, List.find?_cons_of_neg (by simpa using h)]
    congr 1
    induction m with
    | nil => rfl
    | cons x m ih =>
      rw [List.filter_cons]
      by_cases hx : x.1 = k
      · rw [if_neg (by simpa using hx), ih, List.find?_cons_of_neg (by simp [hx, h])]
      · rw [if_pos (by simpa using hx), List.find?_cons, List.find?_cons, ih]

theorem get_withs (k : String) : ∀ (w m : List (String × List Char)), (∀ x ∈ w, x.1 ≠ k) →
    get (w.foldl (fun m x => put m x.1 x.2) m) k = get m k
  | [], m, _ => rfl
  | x :: w, m, h => by
    rw [List.foldl_cons, get_withs k w _ fun y hy => h y (by simp [hy]), get_put, if_neg (h x (by simp))]

theorem parse_digits (n : Nat) : parseUsize (Nat.toDigits 10 n) = if n ≤ maxUsize then some n else none := by
  have hne : Nat.toDigits 10 n ≠ [] := by
    intro h
    have := Nat.length_toDigits_pos (b := 10) (n := n)
    rw [h] at this
    exact absurd this (Nat.lt_irrefl 0)
  have hall : ∀ c ∈ Nat.toDigits 10 n, c.isDigit = true := fun c hc =>
    Nat.isDigit_of_mem_toDigits (by decide) (by decide) hc
  have hval : Nat.ofDigitChars 10 (Nat.toDigits 10 n) 0 = n := Nat.ofDigitChars_toDigits (by decide) (by decide)
  have ht : stripPlus (Nat.toDigits 10 n) = Nat.toDigits 10 n := by
    unfold stripPlus
    cases h : Nat.toDigits 10 n with
    | nil => rfl
    | cons c t =>
      have hc := hall c (by rw [h]; simp)
      split
      · rename_i heq
        injection heq with h1 _
        subst h1
        exact absurd hc (by decide)
      · rfl
  unfold parseUsize
  dsimp only
  rw [ht, hval]
  by_cases hn : n ≤ maxUsize
  · rw [if_pos ⟨hne, List.all_eq_true.2 hall, hn⟩, if_pos hn]
  · rw [if_neg (fun h => hn h.2.2), if_neg hn]

theorem params_count (h : ∀ x ∈ d.withs, x.1 ≠ "count") : get (params d) "count" = some (Nat.toDigits 10 d.count) := by
  unfold params
  dsimp only
  rw [get_withs _ _ _ h]
  cases d.age with
  | none => dsimp only; rw [get_put, if_pos rfl]
  | some a => dsimp only; rw [get_put, if_neg (by decide), get_put, if_pos rfl]

theorem init_count (h : ∀ x ∈ d.withs, x.1 ≠ "count") :
    (initFn (params d) : Option (BSet B)) = if d.count ≤ maxUsize then some (BSet.new d.count) else none := by
  unfold initFn
  rw [params_count h]
  dsimp only
  rw [parse_digits]
  split <;> rfl

end Verif.Smart.Dedup
