import Verif.Producer.Partitioner

namespace Verif.Props
open Verif.Producer Verif.Wire

/-! ## C26 Keyed records -/

/-- Whatever else is sent and whichever partitions become available or unavailable, as long as the
partition count stays `n`: any two records with the same key go to the same partition, and it exists.
Holds for every hash function. -/
theorem C26_same_key_same_partition (hash : Bytes → Nat) (n : Nat) (hn : 0 < n) (s : PState)
    (evs : List PEv) (hc : ∀ st ∈ s.states hash evs, st.count = n) (key : Bytes) :
    ∃ p, p < n ∧ ∀ o ∈ s.run hash evs, o.1 = some key → o.2 = some p := by
  refine ⟨hash key % n, Nat.mod_lt _ hn, ?_⟩
  induction evs generalizing s with
  | nil => intro o ho; simp [PState.run] at ho
  | cons e evs ih =>
    have h0 : s.count = n := hc s (PState.head_states hash s _)
    have ih' := ih (s.step hash e).1 fun st hst => hc st (by
      unfold PState.states; exact List.mem_cons_of_mem _ hst)
    intro o ho hk
    unfold PState.run at ho
    cases e with
    | send k =>
      have e2 : (s.step hash (.send k)).2 = some (k, (s.partition hash k).2) := rfl
      rw [e2] at ho
      rcases List.mem_cons.1 ho with h | h
      · subst h
        have hk' : k = some key := hk
        subst hk'
        show partitionSiphash hash key s.count = _
        unfold partitionSiphash
        rw [if_neg (by omega), h0]
      · exact ih' o h hk
    | setCount m => exact ih' o ho hk
    | setAvailable m f => exact ih' o ho hk

/-- The hypothesis is met while partitions come and go. -/
example : let evs := [PEv.send (some [1]), .setAvailable 3 (· ≠ 1), .send none, .send (some [1]),
      .setAvailable 3 (fun _ => false), .send (some [1])]
    (∀ st ∈ (PState.init 3).states List.length evs, st.count = 3) ∧
    (PState.init 3).run List.length evs =
      [(some [1], some 1), (none, some 0), (some [1], some 1), (some [1], some 1)] := by decide

/-! ## C27 Records without key -/

/-- **Specification.** The partitions records without key are spread over: the available ones, or all
if availability is not known yet. -/
def targets (s : PState) : List Nat := if s.available = [] then List.range s.count else s.available

/-- **Specification.** Number of records without key sent to partition `p`. -/
def sentTo (l : List (Option Bytes × Option Nat)) (p : Nat) : Nat := l.countP fun o => o == (none, some p)

/-- **Specification.** Number of records without key. -/
def unkeyed : List PEv → Nat
  | [] => 0
  | .send none :: evs => unkeyed evs + 1
  | _ :: evs => unkeyed evs

theorem partition_none (hash : Bytes → Nat) (s : PState) (h : targets s ≠ []) :
    s.partition hash none = ({ s with index := (s.index + 1) % 2 ^ 32 },
      (targets s)[s.index % (targets s).length]?) := by
  unfold targets at *
  unfold PState.partition
  dsimp only
  by_cases ha : s.available = []
  · rw [if_pos ha] at *
    have hc : s.count ≠ 0 := by intro hc; rw [hc] at h; exact h rfl
    have hlt := Nat.mod_lt s.index (Nat.pos_of_ne_zero hc)
    rw [if_pos (by rw [ha]; rfl), if_neg hc, List.length_range, List.getElem?_range hlt]
  · rw [if_neg ha] at *
    rw [if_neg (by simpa using ha)]

theorem sentTo_run (hash : Bytes → Nat) (L : List Nat) (hne : L ≠ []) (hnd : L.Nodup) (a : Nat)
    (ha : a < L.length) (evs : List PEv) (s : PState)
    (hL : ∀ st ∈ s.states hash evs, targets st = L) (hw : s.index + unkeyed evs ≤ 2 ^ 32) :
    sentTo (s.run hash evs) L[a] = hits L.length a s.index (unkeyed evs) := by
  induction evs generalizing s with
  | nil => rfl
  | cons e evs ih =>
    have h0 : targets s = L := hL s (PState.head_states hash s _)
    have hL' : ∀ st ∈ (s.step hash e).1.states hash evs, targets st = L := fun st hst => hL st (by
      unfold PState.states; exact List.mem_cons_of_mem _ hst)
    have ih' := ih (s.step hash e).1 hL'
    cases e with
    | send k =>
      have e2 : (s.step hash (.send k)).2 = some (k, (s.partition hash k).2) := rfl
      have e1 : (s.step hash (.send k)).1 = (s.partition hash k).1 := rfl
      unfold PState.run
      rw [e2]
      cases k with
      | some key =>
        have : (s.step hash (.send (some key))).1 = s := rfl
        rw [this] at ih' ⊢
        unfold sentTo
        rw [List.countP_cons_of_neg (by simp)]
        exact ih' hw
      | none =>
        have hp := partition_none hash s (by rw [h0]; exact hne)
        rw [h0] at hp
        rw [e1, hp] at ih'
        rw [e1, hp]
        have hpos := List.length_pos_iff.2 hne
        have hlt := Nat.mod_lt s.index hpos
        have hu : unkeyed (.send none :: evs) = unkeyed evs + 1 := rfl
        rw [hu] at hw ⊢
        unfold hits
        unfold sentTo at ih' ⊢
        rw [List.countP_cons, List.getElem?_eq_getElem hlt]
        have hrun : List.countP (fun o => o == (none, some L[a]))
            (PState.run hash { s with index := (s.index + 1) % 2 ^ 32 } evs)
            = hits L.length a (s.index + 1) (unkeyed evs) := by
          by_cases hz : unkeyed evs = 0
          · rw [hz]
            have := ih'
            rw [hz] at this
            exact this (by show (s.index + 1) % 2 ^ 32 + 0 ≤ 2 ^ 32; omega)
          · have hm : (s.index + 1) % 2 ^ 32 = s.index + 1 := Nat.mod_eq_of_lt (by omega)
            have := ih' (by show (s.index + 1) % 2 ^ 32 + unkeyed evs ≤ 2 ^ 32; rw [hm]; omega)
            rw [this]
            show hits L.length a ((s.index + 1) % 2 ^ 32) _ = _
            rw [hm]
        show List.countP _ (PState.run hash { s with index := (s.index + 1) % 2 ^ 32 } evs) + _ = _
        rw [hrun, Nat.add_comm]
        congr 1
        have hinj : L[s.index % L.length] = L[a] ↔ s.index % L.length = a :=
          (List.getElem_inj hnd)
        by_cases hh : s.index % L.length = a
        · rw [if_pos hh, if_pos]; simp [hinj.2 hh]
        · rw [if_neg hh, if_neg]
          simpa using fun he => hh (hinj.1 he)
    | setCount m => exact ih' hw
    | setAvailable m f => exact ih' hw

/-- While the set `L` of targets stays the same (all partitions, or the available ones), the numbers of
records without key sent to any two of them differ by at most one: for any run from any position of the
counter that does not reach its wrap-around, with any keyed records in between. -/
theorem C27_even (hash : Bytes → Nat) (L : List Nat) (hnd : L.Nodup) (s : PState) (evs : List PEv)
    (hL : ∀ st ∈ s.states hash evs, targets st = L) (hw : s.index + unkeyed evs ≤ 2 ^ 32)
    (p q : Nat) (hp : p ∈ L) (hq : q ∈ L) :
    sentTo (s.run hash evs) p ≤ sentTo (s.run hash evs) q + 1 := by
  obtain ⟨a, ha, rfl⟩ := List.mem_iff_getElem.1 hp
  obtain ⟨b, hb, rfl⟩ := List.mem_iff_getElem.1 hq
  have hne : L ≠ [] := List.ne_nil_of_mem hp
  rw [sentTo_run hash L hne hnd a ha evs s hL hw, sentTo_run hash L hne hnd b hb evs s hL hw]
  exact hits_even ha hb _ _

theorem all_online (n : Nat) : (List.range n).filter (fun _ => true) = List.range n := by simp

/-- In particular, when all `n` partitions are online: from the start of the producer, before and after
it learns which partitions are available, over all partitions. -/
theorem C27_even_all_online (hash : Bytes → Nat) (n : Nat) (evs : List PEv)
    (ho : ∀ e ∈ evs, (∃ k, e = .send k) ∨ e = .setCount n ∨ e = .setAvailable n fun _ => true)
    (hw : unkeyed evs ≤ 2 ^ 32) (p q : Nat) (hp : p < n) (hq : q < n) :
    sentTo ((PState.init n).run hash evs) p ≤ sentTo ((PState.init n).run hash evs) q + 1 := by
  refine C27_even hash (List.range n) List.nodup_range _ evs ?_ (by simpa [PState.init] using hw) p q
    (List.mem_range.2 hp) (List.mem_range.2 hq)
  have hinit : (PState.init n).count = n ∧
      ((PState.init n).available = [] ∨ (PState.init n).available = List.range n) := ⟨rfl, .inl rfl⟩
  revert hinit
  generalize PState.init n = s
  intro hs
  clear hw
  have htar : ∀ t : PState, t.count = n ∧ (t.available = [] ∨ t.available = List.range n) →
      targets t = List.range n := by
    intro t ht
    unfold targets
    split
    · rw [ht.1]
    · rcases ht.2 with h | h
      · contradiction
      · exact h
  induction evs generalizing s with
  | nil => intro st hst; rw [List.mem_singleton.1 hst]; exact htar s hs
  | cons e evs ih =>
    intro st hst
    rcases List.mem_cons.1 hst with h | h
    · rw [h]; exact htar s hs
    · refine ih (fun e he => ho e (List.mem_cons_of_mem _ he)) _ ?_ st h
      rcases ho e List.mem_cons_self with ⟨k, rfl⟩ | rfl | rfl
      · cases k with
        | some k => exact hs
        | none =>
          have e : (s.step hash (.send none)).1 = (s.partition hash none).1 := rfl
          rw [e]
          unfold PState.partition
          dsimp only
          split <;> exact hs
      · exact ⟨rfl, hs.2⟩
      · exact ⟨hs.1, .inr (all_online n)⟩

/-- Every chosen partition exists, for records with and without key, as long as the number of
partitions never decreases. -/
theorem C27_valid (hash : Bytes → Nat) (s : PState) (hpos : 0 < s.count)
    (hs : ∀ p ∈ s.available, p < s.count) (evs : List PEv)
    (hg : ∀ pre e post, evs = pre ++ e :: post →
      let t := pre.foldl (fun t e => (PState.step hash t e).1) s
      match e with
      | .send _ => True
      | .setCount n => t.count ≤ n
      | .setAvailable n _ => n ≤ t.count) :
    let final := evs.foldl (fun t e => (PState.step hash t e).1) s
    ∀ o ∈ s.run hash evs, ∃ p, o.2 = some p ∧ p < final.count := by
  induction evs generalizing s with
  | nil => intro _ o ho; simp [PState.run] at ho
  | cons e evs ih =>
    intro final o ho
    have hg0 := hg [] e evs rfl
    have hinv : 0 < (s.step hash e).1.count ∧ s.count ≤ (s.step hash e).1.count ∧
        ∀ p ∈ (s.step hash e).1.available, p < (s.step hash e).1.count := by
      cases e with
      | send k =>
        cases k with
        | some k => exact ⟨hpos, Nat.le_refl _, hs⟩
        | none =>
          show 0 < (s.partition hash none).1.count ∧ s.count ≤ (s.partition hash none).1.count ∧
            ∀ p ∈ (s.partition hash none).1.available, p < (s.partition hash none).1.count
          unfold PState.partition
          dsimp only
          split <;> exact ⟨hpos, Nat.le_refl _, hs⟩
      | setCount n =>
        have hg0 : s.count ≤ n := hg0
        exact ⟨Nat.lt_of_lt_of_le hpos hg0, hg0, fun p hp => Nat.lt_of_lt_of_le (hs p hp) hg0⟩
      | setAvailable n f =>
        have hg0 : n ≤ s.count := hg0
        refine ⟨hpos, Nat.le_refl _, fun p hp => ?_⟩
        have := List.mem_range.1 (List.mem_filter.1 hp).1
        exact Nat.lt_of_lt_of_le this hg0
    have hg' : ∀ pre e' post, evs = pre ++ e' :: post →
      let t := pre.foldl (fun t e => (PState.step hash t e).1) (s.step hash e).1
      match e' with
      | .send _ => True
      | .setCount n => t.count ≤ n
      | .setAvailable n _ => n ≤ t.count := fun pre e' post h => hg (e :: pre) e' post (by rw [h]; rfl)
    have ih' := ih (s.step hash e).1 hinv.1 hinv.2.2 hg'
    have hmono : ∀ (evs : List PEv) (t : PState), (∀ pre e post, evs = pre ++ e :: post →
        let u := pre.foldl (fun t e => (PState.step hash t e).1) t
        match e with
        | .send _ => True
        | .setCount n => u.count ≤ n
        | .setAvailable n _ => n ≤ u.count) →
        t.count ≤ (evs.foldl (fun t e => (PState.step hash t e).1) t).count := by
      intro evs
      induction evs with
      | nil => intro t _; exact Nat.le_refl _
      | cons e evs ih =>
        intro t ht
        refine Nat.le_trans ?_ (ih (t.step hash e).1 fun pre e' post h => ht (e :: pre) e' post (by rw [h]; rfl))
        have h0 := ht [] e evs rfl
        cases e with
        | send k =>
          cases k with
          | some k => exact Nat.le_refl _
          | none =>
            show t.count ≤ (t.partition hash none).1.count
            unfold PState.partition
            dsimp only
            split <;> exact Nat.le_refl _
        | setCount n => exact h0
        | setAvailable n f => exact Nat.le_refl _
    have hfin : s.count ≤ final.count :=
      Nat.le_trans hinv.2.1 (hmono evs (s.step hash e).1 hg')
    unfold PState.run at ho
    cases e with
    | send k =>
      have e2 : (s.step hash (.send k)).2 = some (k, (s.partition hash k).2) := rfl
      rw [e2] at ho
      rcases List.mem_cons.1 ho with h | h
      · subst h
        have key : ∃ p, (s.partition hash k).2 = some p ∧ p < s.count := by
          cases k with
          | some k =>
            refine ⟨hash k % s.count, ?_, Nat.mod_lt _ hpos⟩
            show partitionSiphash hash k s.count = _
            unfold partitionSiphash
            rw [if_neg (by omega)]
          | none =>
            have hlen : targets s ≠ [] := by
              unfold targets
              split
              · intro h; have := congrArg List.length h; simp at this; omega
              · assumption
            rw [partition_none hash s hlen]
            have hlt := Nat.mod_lt s.index (List.length_pos_iff.2 hlen)
            refine ⟨_, List.getElem?_eq_getElem hlt, ?_⟩
            have hmem := List.getElem_mem hlt
            generalize (targets s)[s.index % (targets s).length] = x at *
            unfold targets at hmem
            split at hmem
            · exact List.mem_range.1 hmem
            · exact hs _ hmem
        obtain ⟨p, h1, h2⟩ := key
        exact ⟨p, h1, Nat.lt_of_lt_of_le h2 hfin⟩
      · exact ih' o h
    | setCount m => exact ih' o ho
    | setAvailable m f => exact ih' o ho

/-- Five records without key over three partitions, a keyed one in between, availability learned
meanwhile. -/
example : let evs := [PEv.send none, .send none, .setAvailable 3 (fun _ => true), .send (some [7]), .send none,
      .send none, .send none]
    (PState.init 3).run List.length evs =
      [(none, some 0), (none, some 1), (some [7], some 1), (none, some 2), (none, some 0), (none, some 1)] ∧
    sentTo ((PState.init 3).run List.length evs) 0 = 2 ∧ sentTo ((PState.init 3).run List.length evs) 2 = 1 := by
  decide

/-- A changing set of available partitions, all choices within. -/
example : (⟨4, 3, [0, 2]⟩ : PState).run List.length [.send none, .setAvailable 3 (· = 1), .send none,
    .setCount 4, .setAvailable 4 (fun _ => true), .send none] =
    [(none, some 0), (none, some 1), (none, some 2)] := by decide

/-- Across the wrap-around of the counter the evenness is lost: with three partitions, three records in
a row go to partitions 0, 0 and 1. -/
theorem C27_violated_wraparound :
    (⟨2 ^ 32 - 1, 3, []⟩ : PState).run List.length [.send none, .send none, .send none] =
      [(none, some 0), (none, some 0), (none, some 1)] := by decide

end Verif.Props
