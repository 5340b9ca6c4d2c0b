import Verif.Sc.Placement

/-!
# C38, C39: assignment of replicas to SPUs
-/

namespace Verif.Props
open Verif.Sc

/-- an SPU with this id is online -/
def IsOnline (spus : List Spu) (s : Int) : Prop := ∃ u ∈ spus, u.online = true ∧ u.id = s

/-- **C38.** Whatever the SPUs, the existing partitions and the topic's present map: either nothing is
assigned, or the map has exactly the entries `0, …, n-1`, each with `rf` replicas; a present entry
with `rf` replicas is kept, every other one is new and on pairwise different online SPUs.  (The first
replica becomes the leader when the partition is created: `C43_creates_missing`.) -/
theorem C38_valid (spus : List Spu) (parts : List PartSpec) (n rf : Nat) (actual : RMap) :
    generate spus parts n rf actual = [] ∨
      ((generate spus parts n rf actual).map (·.1) = List.range n ∧
       ∀ p, p < n → ∃ rs, (generate spus parts n rf actual).get p = some rs ∧ rs.length = rf ∧
         (∀ old, actual.get p = some old → old.length = rf → rs = old) ∧
         ((∀ old, actual.get p = some old → old.length ≠ rf) →
            rs.Nodup ∧ ∀ s ∈ rs, IsOnline spus s)) := by
  unfold generate
  split
  · exact .inl rfl
  · rcases assign_trace (onlineIds spus) rf actual n 0 (groupBySpu parts) [] nofun with h | ⟨l, g', ht, he⟩
    · exact .inl h
    · right
      rw [he, List.nil_append]
      have hk := ht.keys
      have hk' : l.map (·.1) = List.range n := by rw [hk, List.range_eq_range']
      refine ⟨hk', fun p hp => ?_⟩
      have hmem : p ∈ l.map (·.1) := by rw [hk']; exact List.mem_range.2 hp
      obtain ⟨e, hel, rfl⟩ := List.mem_map.1 hmem
      have hget := find_of_nodup l (by rw [hk']; exact List.nodup_range) e hel
      refine ⟨e.2, hget, ?_⟩
      rcases ht.entries e hel with h | ⟨h, h1, h2, h3⟩
      · have ⟨ha, hb⟩ := kept_some h
        refine ⟨hb, fun old ho hl => ?_, fun hno => absurd hb (hno _ ha)⟩
        rw [ha] at ho
        exact Option.some.inj ho
      · refine ⟨h1, fun old ho hl => absurd hl (kept_none h ho), fun _ => ⟨h2, fun s hs => ?_⟩⟩
        exact (mem_onlineIds spus s).1 (h3 s hs)

/-- **C38.** Nothing is assigned only for lack of online SPUs (or because some online SPU is full:
65535 leaders or followers). -/
theorem C38_complete (spus : List Spu) (parts : List PartSpec) (n rf : Nat) (actual : RMap) (hn : 0 < n)
    (ids : List Int) (hids : ids.Nodup) (hon : ∀ s ∈ ids, IsOnline spus s) (henough : rf ≤ ids.length)
    (hload : ∀ s, leadersOf parts s + n < 65536 ∧ followersOf parts s + n < 65536) :
    (generate spus parts n rf actual).map (·.1) = List.range n := by
  have hcount : ¬ spus.length < rf := by
    have hsub : ids ⊆ spus.map (·.id) := fun s hs => by
      obtain ⟨u, hu, _, e⟩ := hon s hs
      exact List.mem_map.2 ⟨u, hu, e⟩
    have := List.Nodup.length_le_of_subset hids hsub
    rw [List.length_map] at this
    omega
  rcases C38_valid spus parts n rf actual with h | h
  · exfalso
    unfold generate at h
    rw [if_neg hcount] at h
    have hx := groupBySpu_exact parts (fun s => by have := hload s; omega) (fun s => by have := hload s; omega)
    obtain ⟨res, h1, h2, h3⟩ := assign_fails (.inr hn) h (fun s _ => by
      rw [(hx s).1, (hx s).2]; exact hload s)
    have hsub : ids ⊆ res := fun s hs => h1 s ((mem_onlineIds spus s).2 (hon s hs))
    have := List.Nodup.length_le_of_subset hids hsub
    omega
  · exact h.1

/-- **C39 (partial).** Each newly placed replica goes to an SPU that has, among the online SPUs not
already used for that partition, the least load at that moment: leaders for the first replica,
followers for the others, counting the existing partitions and those placed earlier in this run.
Missing: loads of 65536 and more, where the counters wrap (`C39_violated_wrap`). -/
theorem C39_least_load_partial (spus : List Spu) (parts : List PartSpec) (n rf : Nat) (actual : RMap)
    (hrf : 0 < rf) (hload : ∀ s, leadersOf parts s < 65536 ∧ followersOf parts s < 65536)
    (before : RMap) (p : Nat) (rs : List Int) (after : RMap)
    (hsplit : generate spus parts n rf actual = before ++ (p, rs) :: after)
    (hnew : ∀ old, actual.get p = some old → old.length ≠ rf)
    (i : Nat) (hi : i < rs.length) (t : Int) (ht : IsOnline spus t) (hfree : t ∉ rs.take i) :
    loadOf (parts ++ newOnes actual rf before) (i == 0) rs[i]
      ≤ loadOf (parts ++ newOnes actual rf before) (i == 0) t := by
  unfold generate at hsplit
  split at hsplit
  · cases before <;> cases hsplit
  · rcases assign_trace (onlineIds spus) rf actual n 0 (groupBySpu parts) [] nofun with h | ⟨l, g', htr, he⟩
    · rw [h] at hsplit; cases before <;> cases hsplit
    · rw [he, List.nil_append] at hsplit
      have hq : isNew actual rf p = true := by
        unfold isNew
        split
        · rename_i old ho; simpa using hnew old ho
        · rfl
      exact (htr.least hrf (groupBySpu_exact parts (fun s => (hload s).1) (fun s => (hload s).2))).2
        before p rs after hsplit hq i hi t ((mem_onlineIds spus t).2 ht) hfree

/-- the leaders a map gives to an SPU -/
def leadersIn (m : RMap) (s : Int) : Nat := (m.filter fun e => e.2.head? == some s).length

/-- **C39 (partial).** An online SPU that leads a newly placed partition has afterwards at most one
leader more than any other online SPU, whatever the load before.  Missing: loads of 65536 and more. -/
theorem C39_spread_partial (spus : List Spu) (parts : List PartSpec) (n rf : Nat) (actual : RMap)
    (hrf : 0 < rf) (hload : ∀ s, leadersOf parts s < 65536 ∧ followersOf parts s < 65536) (s t : Int)
    (ht : IsOnline spus t) (added : List PartSpec)
    (hadded : added = newOnes actual rf (generate spus parts n rf actual)) :
    leadersOf added s = 0 ∨
      leadersOf parts s + leadersOf added s ≤ leadersOf parts t + leadersOf added t + 1 := by
  subst hadded
  unfold generate
  split
  · exact .inl rfl
  · rcases assign_trace (onlineIds spus) rf actual n 0 (groupBySpu parts) [] nofun with h | ⟨l, g', htr, he⟩
    · rw [h]; exact .inl rfl
    · rw [he, List.nil_append]
      have hx := groupBySpu_exact parts (fun s => (hload s).1) (fun s => (hload s).2)
      have hx' := (htr.least hrf hx).1
      have := htr.spread.2 s t ((mem_onlineIds spus t).2 ht)
      rw [(hx' s).1, (hx' t).1, (hx s).1, leadersOf_append, leadersOf_append] at this
      omega

/-- **C39.** On a fresh cluster the numbers of leaders on any two online SPUs differ by at most one. -/
theorem C39_fresh_balanced (spus : List Spu) (n rf : Nat) (s t : Int) (hs : IsOnline spus s)
    (ht : IsOnline spus t) :
    leadersIn (generate spus [] n rf []) s ≤ leadersIn (generate spus [] n rf []) t + 1 ∧
    leadersIn (generate spus [] n rf []) t ≤ leadersIn (generate spus [] n rf []) s + 1 := by
  by_cases hrf : 0 < rf
  · have key : ∀ s, leadersOf (newOnes [] rf (generate spus [] n rf [])) s
        = leadersIn (generate spus [] n rf []) s := by
      intro s
      rcases C38_valid spus [] n rf [] with h | ⟨hk, hv⟩
      · rw [h]; rfl
      · have hlen : ∀ e ∈ generate spus [] n rf [], e.2.length = rf := by
          intro e he
          have hp : e.1 < n := by
            have : e.1 ∈ (generate spus [] n rf []).map (·.1) := List.mem_map.2 ⟨e, he, rfl⟩
            rw [hk] at this
            exact List.mem_range.1 this
          obtain ⟨rs, hg, hl, _⟩ := hv e.1 hp
          rw [find_of_nodup _ (by rw [hk]; exact List.nodup_range) e he] at hg
          rw [Option.some.inj hg]; exact hl
        generalize generate spus [] n rf [] = m at hlen
        unfold leadersOf newOnes leadersIn
        clear hk hv
        induction m with
        | nil => rfl
        | cons e rest ih =>
          have ih := ih fun x hx => hlen x (List.mem_cons_of_mem _ hx)
          have hl := hlen e List.mem_cons_self
          have hnew : isNew [] rf e.1 = true := rfl
          rw [show (e :: rest).filter (fun e => isNew [] rf e.1) = e :: rest.filter (fun e => isNew [] rf e.1)
            from List.filter_cons_of_pos hnew, List.map_cons]
          obtain ⟨q, rs⟩ := e
          cases rs with
          | nil => simp at hl; omega
          | cons a r2 =>
            by_cases ha : a = s
            · rw [List.filter_cons_of_pos (by simp [ledByFirst, ha]), List.filter_cons_of_pos (by simp [ha])]
              simpa using ih
            · rw [List.filter_cons_of_neg (by simp [ledByFirst, ha]), List.filter_cons_of_neg (by simp [ha])]
              exact ih
    have h0 : ∀ s, leadersOf [] s = 0 := fun _ => rfl
    have hl : ∀ s, leadersOf [] s < 65536 ∧ followersOf [] s < 65536 := fun s => by
      show 0 < 65536 ∧ 0 < 65536; omega
    have a := C39_spread_partial spus [] n rf [] hrf hl s t ht _ rfl
    have b := C39_spread_partial spus [] n rf [] hrf hl t s hs _ rfl
    rw [key, key, h0, h0] at a
    rw [key, key, h0, h0] at b
    omega
  · have hz : rf = 0 := by omega
    subst hz
    have key : ∀ s, leadersIn (generate spus [] n 0 []) s = 0 := by
      intro s
      rcases C38_valid spus [] n 0 [] with h | ⟨hk, hv⟩
      · rw [h]; rfl
      · unfold leadersIn
        rw [List.length_eq_zero_iff, List.filter_eq_nil_iff]
        intro e he
        have hp : e.1 < n := by
          have : e.1 ∈ (generate spus [] n 0 []).map (·.1) := List.mem_map.2 ⟨e, he, rfl⟩
          rw [hk] at this
          exact List.mem_range.1 this
        obtain ⟨rs, hg, hl, _⟩ := hv e.1 hp
        rw [find_of_nodup _ (by rw [hk]; exact List.nodup_range) e he] at hg
        have : e.2 = [] := by rw [Option.some.inj hg]; exact List.length_eq_zero_iff.1 hl
        rw [this]; simp
    rw [key, key]; omega

/-- `k` partitions led by SPU 0 and one by SPU 1 -/
def c39Parts (k : Nat) : List PartSpec := List.replicate k ⟨0, [0]⟩ ++ [⟨1, [1]⟩]

theorem c39Parts_leaders (k : Nat) : leadersOf (c39Parts k) 0 = k ∧ leadersOf (c39Parts k) 1 = 1 := by
  unfold leadersOf c39Parts
  rw [List.filter_append, List.filter_append, List.filter_replicate, List.filter_replicate]
  simp

theorem c39_wrapped (g : Groups) (g0 : (g 0).leaders = 0) (g1 : (g 1).leaders = 1) :
    assign [0, 1] 1 [] 1 0 g [] = [(0, [0])] := by
  have hf : findSuitable g [0, 1] [] true = some 0 := by
    simp [findSuitable, scan, Load.weight, g0, g1]
  have hp : place [0, 1] 1 0 g [] = some (g.incLeaders 0, [0]) := by
    unfold place
    rw [show ((0 : Nat) == 0) = true from rfl, hf]
    rfl
  simp only [assign, kept, RMap.get, hp]
  rfl

/-- **C39 is violated** for very large loads: the counters are 16 bits wide and wrap in release builds
(store.rs:143, 191), so an SPU that leads 65536 partitions is taken for an idle one. -/
theorem C39_violated_wrap : ∃ parts : List PartSpec,
    leadersOf parts 0 = 65536 ∧ leadersOf parts 1 = 1 ∧
      generate [⟨0, true⟩, ⟨1, true⟩] parts 1 1 [] = [(0, [0])] := by
  have key : ∀ k, k % 65536 = 0 →
      generate [⟨0, true⟩, ⟨1, true⟩] (c39Parts k) 1 1 [] = [(0, [0])] := by
    intro k hk
    have hm := groupBySpu_mod (c39Parts k)
    have g0 := (hm 0).1
    have g1 := (hm 1).1
    rw [(c39Parts_leaders k).1, hk] at g0
    rw [(c39Parts_leaders k).2] at g1
    have hon : onlineIds [⟨0, true⟩, ⟨1, true⟩] = [0, 1] := by decide +kernel
    unfold generate
    rw [hon]
    exact c39_wrapped _ g0 g1
  exact ⟨c39Parts 65536, (c39Parts_leaders _).1, (c39Parts_leaders _).2, key _ rfl⟩

/-- non-vacuity: five SPUs of which one is offline, three existing partitions, a topic that grows
from one to four partitions with two replicas each -/
def c38Spus : List Spu := [⟨3, true⟩, ⟨0, true⟩, ⟨1, true⟩, ⟨2, false⟩]
def c38Parts : List PartSpec := [⟨0, [0, 1]⟩, ⟨0, [0]⟩, ⟨1, [1, 3]⟩]

example : generate c38Spus c38Parts 4 2 [(0, [0, 1])] = [(0, [0, 1]), (1, [3, 0]), (2, [1, 0]), (3, [3, 1])] := by
  decide +kernel
-- too few SPUs online
example : generate c38Spus c38Parts 4 4 [(0, [0, 1])] = [] := by decide +kernel
example : ∃ u ∈ c38Spus, u.online = true ∧ u.id = 3 := by decide
example : ∀ s ∈ [(0 : Int), 1, 3], leadersOf c38Parts s + 4 < 65536 ∧ followersOf c38Parts s + 4 < 65536 := by
  decide
-- a fresh cluster: eight partitions on three SPUs
example : ([0, 1, 3].map (leadersIn (generate c38Spus [] 8 2 []))) = [3, 3, 2] := by decide +kernel

end Verif.Props
