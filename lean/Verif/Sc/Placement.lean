import Verif.Sc.Scheduler

/-! # Facts about the scheduler -/

namespace Verif.Sc

/-! ## Loads, counted in the plain way -/

/-- the number of partitions led by an SPU -/
def leadersOf (ps : List PartSpec) (s : Int) : Nat := (ps.filter fun p => decide (p.leader = s)).length

/-- the number of follower replicas on an SPU -/
def followersOf (ps : List PartSpec) (s : Int) : Nat :=
  (ps.map fun p => (p.replicas.filter fun r => decide (r = s ∧ r ≠ p.leader)).length).sum

/-- the load that counts for placing the leader, or a follower -/
def loadOf (ps : List PartSpec) (asLeader : Bool) (s : Int) : Nat :=
  if asLeader then leadersOf ps s else followersOf ps s

/-- a partition with these replicas, the first one leading -/
def ledByFirst (rs : List Int) : PartSpec := ⟨rs.headD 0, rs⟩

theorem leadersOf_append (a b : List PartSpec) (s : Int) :
    leadersOf (a ++ b) s = leadersOf a s + leadersOf b s := by
  simp [leadersOf]

theorem followersOf_append (a b : List PartSpec) (s : Int) :
    followersOf (a ++ b) s = followersOf a s + followersOf b s := by
  simp [followersOf]

/-- the counters are the loads -/
def Exact (g : Groups) (ps : List PartSpec) : Prop :=
  ∀ s, (g s).leaders = leadersOf ps s ∧ (g s).followers = followersOf ps s

/-- the counters are the loads modulo 2^16 -/
def Mod (g : Groups) (ps : List PartSpec) : Prop :=
  ∀ s, (g s).leaders = leadersOf ps s % 65536 ∧ (g s).followers = followersOf ps s % 65536

theorem addFollowers (l : List Int) (ld : Int) (g : Groups) (s : Int) :
    (l.foldl (fun g r => if r ≠ ld then g.incFollowers r else g) g s).leaders = (g s).leaders ∧
    (l.foldl (fun g r => if r ≠ ld then g.incFollowers r else g) g s).followers % 65536 =
      ((g s).followers + (l.filter fun r => decide (r = s ∧ r ≠ ld)).length) % 65536 := by
  induction l generalizing g with
  | nil => exact ⟨rfl, rfl⟩
  | cons x rest ih =>
    rw [List.foldl_cons]
    have := ih (if x ≠ ld then g.incFollowers x else g)
    rw [this.1, this.2, List.filter_cons]
    by_cases hx : x = ld
    · simp [hx]
    · rw [if_pos hx]
      by_cases hs : x = s
      · subst hs
        simp only [hx, Groups.incFollowers, if_pos, ne_eq, not_false_eq_true, and_self, decide_true, List.length_cons]
        refine ⟨trivial, ?_⟩
        omega
      · have hs' : ¬ s = x := fun e => hs e.symm
        simp only [Groups.incFollowers, if_neg hs']
        simp [hs]

theorem addFollowers_lt (l : List Int) (ld : Int) (g : Groups) (s : Int) (h : (g s).followers < 65536) :
    (l.foldl (fun g r => if r ≠ ld then g.incFollowers r else g) g s).followers < 65536 := by
  induction l generalizing g with
  | nil => exact h
  | cons x rest ih =>
    rw [List.foldl_cons]
    apply ih
    split
    · unfold Groups.incFollowers
      split
      · exact Nat.mod_lt _ (by decide)
      · exact h
    · exact h

theorem groupBySpu_mod (ps : List PartSpec) : Mod (groupBySpu ps) ps := by
  have key : ∀ (l : List PartSpec) (g : Groups) (qs : List PartSpec), Mod g qs →
      Mod (l.foldl Groups.addPart g) (qs ++ l) := by
    intro l
    induction l with
    | nil => intro g qs h; simpa using h
    | cons p rest ih =>
      intro g qs h
      rw [List.foldl_cons]
      have : qs ++ p :: rest = (qs ++ [p]) ++ rest := by simp
      rw [this]
      apply ih
      intro s
      have hs := h s
      have ha := addFollowers p.replicas p.leader (g.incLeaders p.leader) s
      have hl : (g.incLeaders p.leader s).followers = (g s).followers := by
        unfold Groups.incLeaders; split <;> rfl
      have hlt : (g s).followers < 65536 := by rw [hs.2]; exact Nat.mod_lt _ (by decide)
      have hlt2 := addFollowers_lt p.replicas p.leader (g.incLeaders p.leader) s (by rw [hl]; exact hlt)
      rw [leadersOf_append, followersOf_append]
      unfold Groups.addPart
      constructor
      · rw [ha.1]
        unfold Groups.incLeaders
        by_cases he : s = p.leader
        · simp only [if_pos he]
          have : leadersOf [p] s = 1 := by simp [leadersOf, he]
          rw [this, hs.1]
          omega
        · simp only [if_neg he]
          have he' : ¬ p.leader = s := fun e => he e.symm
          have : leadersOf [p] s = 0 := by
            simp [leadersOf, he']
          rw [this, hs.1]
          rfl
      · rw [hl] at ha
        have : followersOf [p] s = (p.replicas.filter fun r => decide (r = s ∧ r ≠ p.leader)).length := by
          simp [followersOf]
        rw [this]
        have h2 := ha.2
        rw [Nat.mod_eq_of_lt hlt2] at h2
        rw [h2, hs.2]
        omega
  have := key ps Groups.empty [] (fun s => ⟨rfl, rfl⟩)
  rw [List.nil_append] at this
  exact this

theorem groupBySpu_exact (ps : List PartSpec) (h1 : ∀ s, leadersOf ps s < 65536)
    (h2 : ∀ s, followersOf ps s < 65536) : Exact (groupBySpu ps) ps := by
  intro s
  have := groupBySpu_mod ps s
  rw [Nat.mod_eq_of_lt (h1 s), Nat.mod_eq_of_lt (h2 s)] at this
  exact this

/-! ## Placing one partition -/

/-- the replicas placed, whatever the load -/
theorem place_valid {online : List Int} {k r : Nat} {g g' : Groups} {reserved rs : List Int}
    (h : place online k r g reserved = some (g', rs)) (hn : reserved.Nodup) :
    (∃ new, rs = reserved ++ new ∧ new.length = k ∧ ∀ s ∈ new, s ∈ online) ∧ rs.Nodup := by
  induction k generalizing r g reserved with
  | zero =>
    simp only [place, Option.some.injEq, Prod.mk.injEq] at h
    exact ⟨⟨[], by simp [h.2], rfl, nofun⟩, h.2 ▸ hn⟩
  | succ k ih =>
    unfold place at h
    split at h
    · cases h
    · rename_i s hs
      have hf := findSuitable_some hs
      have hn2 : (reserved ++ [s]).Nodup := by
        rw [List.nodup_append]
        refine ⟨hn, by simp, ?_⟩
        intro a ha b hb e
        rw [List.mem_singleton.1 hb] at e
        exact hf.2.1 (e ▸ ha)
      obtain ⟨⟨new, e, el, eo⟩, hnd⟩ := ih h hn2
      refine ⟨⟨s :: new, by rw [e]; simp, by simp [el], fun t ht => ?_⟩, hnd⟩
      rcases List.mem_cons.1 ht with rfl | ht
      · exact hf.1
      · exact eo t ht

/-- the followers placed, and what they do to the counters -/
theorem place_followers {online : List Int} {k r : Nat} {g g' : Groups} {reserved rs : List Int}
    (h : place online k (r + 1) g reserved = some (g', rs)) :
    ∃ new, rs = reserved ++ new ∧
      (∀ s, (g' s).leaders = (g s).leaders) ∧
      (∀ s, s ∈ reserved → (g' s).followers = (g s).followers) ∧
      (∀ s, s ∉ reserved → (g' s).followers = (g s).followers + new.count s) ∧
      ∀ i (hi : i < new.length), ∀ t ∈ online, t ∉ reserved ++ new.take i →
        (g new[i]).followers ≤ (g t).followers := by
  induction k generalizing r g reserved with
  | zero =>
    simp only [place, Option.some.injEq, Prod.mk.injEq] at h
    exact ⟨[], by simp [h.2], fun _ => by rw [h.1], fun _ _ => by rw [h.1], fun _ _ => by rw [h.1]; rfl,
      fun i hi => absurd hi (Nat.not_lt_zero _)⟩
  | succ k ih =>
    unfold place at h
    split at h
    · cases h
    · rename_i s hs
      rw [if_neg (by omega)] at h
      have hf := findSuitable_some hs
      have hr : (r + 1 == 0) = false := by simp
      rw [hr] at hf
      have hw : (g s).followers < 65535 := hf.2.2.1
      obtain ⟨new, e, e1, e2, e3, e4⟩ := ih h
      have hinc : ∀ t, t ≠ s → g.incFollowers s t = g t := fun t ht => by
        unfold Groups.incFollowers; rw [if_neg ht]
      have hincs : (g.incFollowers s s).followers = (g s).followers + 1 := by
        unfold Groups.incFollowers; rw [if_pos rfl]; show _ % _ = _; omega
      have hincl : ∀ t, (g.incFollowers s t).leaders = (g t).leaders := fun t => by
        unfold Groups.incFollowers; split <;> rfl
      refine ⟨s :: new, by rw [e]; simp, fun t => by rw [e1, hincl], fun t ht => ?_, fun t ht => ?_, ?_⟩
      · have hne : t ≠ s := fun c => hf.2.1 (c ▸ ht)
        rw [e2 t (List.mem_append_left _ ht), hinc t hne]
      · by_cases hts : t = s
        · subst hts
          rw [e2 t (by simp), hincs, List.count_cons_self]
          -- not placed again
          have : new.count t = 0 := by
            rw [List.count_eq_zero]
            intro hmem
            have hv : ∀ (k r : Nat) (g g' : Groups) (res rs : List Int) (nw : List Int),
                place online k r g res = some (g', rs) → rs = res ++ nw → t ∈ res → t ∉ nw := by
              intro k
              induction k with
              | zero =>
                intro r g g' res rs nw hp he _ 
                simp only [place, Option.some.injEq, Prod.mk.injEq] at hp
                rw [← hp.2] at he
                have : nw = [] := by simpa using he
                rw [this]; exact List.not_mem_nil
              | succ k ih2 =>
                intro r g g' res rs nw hp he hres
                unfold place at hp
                split at hp
                · cases hp
                · rename_i s' hs'
                  have hf' := findSuitable_some hs'
                  cases nw with
                  | nil => exact List.not_mem_nil
                  | cons a nw' =>
                    have hpref : ∃ z, rs = (res ++ [s']) ++ z := by
                      have : ∀ (k r : Nat) (g g' : Groups) (res rs : List Int),
                          place online k r g res = some (g', rs) → ∃ z, rs = res ++ z := by
                        intro k
                        induction k with
                        | zero =>
                          intro r g g' res rs hp
                          simp only [place, Option.some.injEq, Prod.mk.injEq] at hp
                          exact ⟨[], by simp [hp.2]⟩
                        | succ k ih3 =>
                          intro r g g' res rs hp
                          unfold place at hp
                          split at hp
                          · cases hp
                          · obtain ⟨z, hz⟩ := ih3 _ _ _ _ _ hp
                            exact ⟨_ :: z, by rw [hz]; simp; rfl⟩
                      exact this _ _ _ _ _ _ hp
                    obtain ⟨z, hz⟩ := hpref
                    have hz2 : a = s' ∧ nw' = z := by
                      have : res ++ a :: nw' = res ++ (s' :: z) := by rw [← he, hz]; simp
                      have := List.append_cancel_left this
                      exact ⟨(List.cons.inj this).1, (List.cons.inj this).2⟩
                    rw [hz2.1, hz2.2]
                    intro hm
                    rcases List.mem_cons.1 hm with h1 | h1
                    · exact hf'.2.1 (h1 ▸ hres)
                    · exact ih2 _ _ _ _ _ z hp hz (List.mem_append_left _ hres) h1
            exact hv _ _ _ _ _ _ _ h e (by simp) hmem
          omega
        · have : t ∉ reserved ++ [s] := by
            intro hm
            rcases List.mem_append.1 hm with hm | hm
            · exact ht hm
            · exact hts (List.mem_singleton.1 hm)
          rw [e3 t this, hinc t hts, List.count_cons_of_ne (fun c => hts c.symm)]
      · intro i hi t ht hnot
        cases i with
        | zero =>
          have : t ∉ reserved := by simpa using hnot
          exact hf.2.2.2 t ht this
        | succ i =>
          have hi' : i < new.length := by simpa using hi
          have hnot' : t ∉ (reserved ++ [s]) ++ new.take i := by simpa using hnot
          have := e4 i hi' t ht hnot'
          have hts : t ≠ s := by
            intro c; exact hnot' (by simp [c])
          rw [hinc t hts] at this
          show (g new[i]).followers ≤ _
          by_cases hns : new[i] = s
          · rw [hns] at this
            rw [hincs] at this
            rw [hns]
            omega
          · rwa [hinc _ hns] at this

/-- one partition placed -/
theorem place_one {online : List Int} {rf : Nat} {g g' : Groups} {rs : List Int}
    (h : place online rf 0 g [] = some (g', rs)) :
    (∀ s, (g' s).leaders = (g s).leaders + if rs.head? = some s then 1 else 0) ∧
    (∀ s, (g' s).followers = (g s).followers + rs.tail.count s) ∧
    ∀ i (hi : i < rs.length), ∀ t ∈ online, t ∉ rs.take i →
      (g rs[i]).weight (i == 0) ≤ (g t).weight (i == 0) := by
  cases rf with
  | zero =>
    simp only [place, Option.some.injEq, Prod.mk.injEq] at h
    rw [← h.1, ← h.2]
    exact ⟨fun s => by simp, fun s => by simp, fun i hi => absurd hi (Nat.not_lt_zero _)⟩
  | succ k =>
    have hv := place_valid h List.nodup_nil
    unfold place at h
    split at h
    · cases h
    · rename_i s hs
      rw [if_pos rfl] at h
      have hf := findSuitable_some hs
      have hw : (g s).leaders < 65535 := hf.2.2.1
      obtain ⟨new, e, e1, e2, e3, e4⟩ := place_followers h
      have e' : rs = s :: new := by simpa using e
      subst e'
      have hnd : s ∉ new := (List.nodup_cons.1 hv.2).1
      have hinc : ∀ t, t ≠ s → g.incLeaders s t = g t := fun t ht => by
        unfold Groups.incLeaders; rw [if_neg ht]
      have hincs : (g.incLeaders s s).leaders = (g s).leaders + 1 := by
        unfold Groups.incLeaders; rw [if_pos rfl]; show _ % _ = _; omega
      have hincf : ∀ t, (g.incLeaders s t).followers = (g t).followers := fun t => by
        unfold Groups.incLeaders; split <;> rfl
      refine ⟨fun t => ?_, fun t => ?_, ?_⟩
      · rw [e1]
        by_cases ht : t = s
        · subst ht; simp [hincs]
        · rw [hinc t ht, if_neg]; · rfl
          simpa using fun c => ht (Eq.symm c)
      · by_cases ht : t = s
        · subst ht
          rw [e2 t (by simp), hincf]
          simp [List.count_eq_zero.2 hnd]
        · rw [e3 t (by simpa using ht), hincf]
          rfl
      · intro i hi t ht hnot
        cases i with
        | zero => exact hf.2.2.2 t ht (by simp)
        | succ i =>
          have hi' : i < new.length := by simpa using hi
          have := e4 i hi' t ht (by simpa using hnot)
          rw [hincf, hincf] at this
          exact this

theorem place_none {online : List Int} {k r : Nat} {g : Groups} {reserved : List Int}
    (h : place online k r g reserved = none) (hn : reserved.Nodup)
    (hb : ∀ s ∈ online, s ∉ reserved → (g s).leaders < 65535 ∧ (g s).followers < 65535) :
    ∃ res : List Int, res.Nodup ∧ (∀ s ∈ online, s ∈ res) ∧ res.length < reserved.length + k := by
  induction k generalizing r g reserved with
  | zero => simp [place] at h
  | succ k ih =>
    unfold place at h
    split at h
    · rename_i hs
      refine ⟨reserved, hn, fun s hs' => ?_, by omega⟩
      apply Classical.byContradiction
      intro hni
      have h1 := findSuitable_none hs s hs' hni
      have h2 := hb s hs' hni
      unfold Load.weight at h1
      split at h1 <;> omega
    · rename_i s hs
      have hf := findSuitable_some hs
      have hn2 : (reserved ++ [s]).Nodup := by
        rw [List.nodup_append]
        refine ⟨hn, by simp, ?_⟩
        intro a ha b hb e
        rw [List.mem_singleton.1 hb] at e
        exact hf.2.1 (e ▸ ha)
      obtain ⟨res, a, b, c⟩ := ih h hn2 (by
        intro t ht hnt
        have hts : t ≠ s := fun c => hnt (by simp [c])
        have hb' := hb t ht (fun c => hnt (List.mem_append_left _ c))
        split
        · unfold Groups.incLeaders; rw [if_neg hts]; exact hb'
        · unfold Groups.incFollowers; rw [if_neg hts]; exact hb')
      exact ⟨res, a, b, by simp at c; omega⟩

/-! ## All partitions -/

/-- the entries a successful run adds, with the counters before and after -/
inductive Trace (online : List Int) (rf : Nat) (actual : RMap) :
    Nat → Nat → Groups → RMap → Groups → Prop
  | done (p g) : Trace online rf actual 0 p g [] g
  | keep {k p g l g' rs} : kept actual rf p = some rs → Trace online rf actual k (p + 1) g l g' →
      Trace online rf actual (k + 1) p g ((p, rs) :: l) g'
  | new {k p g l g' g1 rs} : kept actual rf p = none → place online rf 0 g [] = some (g1, rs) →
      Trace online rf actual k (p + 1) g1 l g' →
      Trace online rf actual (k + 1) p g ((p, rs) :: l) g'

theorem assign_trace (online : List Int) (rf : Nat) (actual : RMap) (k p : Nat) (g : Groups) (m : RMap)
    (hm : ∀ e ∈ m, e.1 < p) :
    assign online rf actual k p g m = [] ∨
      ∃ l g', Trace online rf actual k p g l g' ∧ assign online rf actual k p g m = m ++ l := by
  induction k generalizing p g m with
  | zero => exact .inr ⟨[], g, .done p g, by simp [assign]⟩
  | succ k ih =>
    have step : ∀ rs, ∀ e ∈ m.insert p rs, e.1 < p + 1 := by
      intro rs e he
      rcases RMap.mem_insert_key _ _ _ _ he with rfl | he
      · exact Nat.lt_succ_self _
      · have := hm e he; omega
    unfold assign
    split
    · rename_i rs hk
      rcases ih (p + 1) g (m.insert p rs) (step rs) with h | ⟨l, g', ht, he⟩
      · exact .inl h
      · exact .inr ⟨(p, rs) :: l, g', .keep hk ht, by rw [he, RMap.insert_last _ _ _ hm]; simp⟩
    · rename_i hk
      split
      · exact .inl rfl
      · rename_i g1 rs hp
        rcases ih (p + 1) g1 (m.insert p rs) (step rs) with h | ⟨l, g', ht, he⟩
        · exact .inl h
        · exact .inr ⟨(p, rs) :: l, g', .new hk hp ht, by rw [he, RMap.insert_last _ _ _ hm]; simp⟩

theorem Trace.keys {online : List Int} {rf : Nat} {actual : RMap} {k p : Nat} {g g' : Groups} {l : RMap}
    (h : Trace online rf actual k p g l g') : l.map (·.1) = List.range' p k := by
  induction h with
  | done => rfl
  | keep _ _ ih => rw [List.map_cons, ih]; rfl
  | new _ _ _ ih => rw [List.map_cons, ih]; rfl

theorem kept_some {actual : RMap} {rf p : Nat} {rs : List Int} (h : kept actual rf p = some rs) :
    actual.get p = some rs ∧ rs.length = rf := by
  unfold kept at h
  split at h
  · rename_i rs' he
    split at h
    · cases h; exact ⟨he, by assumption⟩
    · cases h
  · cases h

theorem kept_none {actual : RMap} {rf p : Nat} (h : kept actual rf p = none) {rs : List Int}
    (hg : actual.get p = some rs) : rs.length ≠ rf := by
  unfold kept at h
  rw [hg] at h
  simp only at h
  split at h
  · cases h
  · assumption

theorem Trace.entries {online : List Int} {rf : Nat} {actual : RMap} {k p : Nat} {g g' : Groups} {l : RMap}
    (h : Trace online rf actual k p g l g') : ∀ e ∈ l,
      (kept actual rf e.1 = some e.2) ∨
      (kept actual rf e.1 = none ∧ e.2.length = rf ∧ e.2.Nodup ∧ ∀ s ∈ e.2, s ∈ online) := by
  induction h with
  | done => nofun
  | keep hk _ ih =>
    intro e he
    rcases List.mem_cons.1 he with rfl | he
    · exact .inl hk
    · exact ih e he
  | new hk hp _ ih =>
    intro e he
    rcases List.mem_cons.1 he with rfl | he
    · have ⟨⟨nw, a, b, c⟩, d⟩ := place_valid hp List.nodup_nil
      rw [List.nil_append] at a
      subst a
      exact .inr ⟨hk, b, d, c⟩
    · exact ih e he

theorem find_of_nodup (l : RMap) (h : (l.map (·.1)).Nodup) (e : Nat × List Int) (he : e ∈ l) :
    RMap.get l e.1 = some e.2 := by
  induction l with
  | nil => cases he
  | cons x rest ih =>
    rw [List.map_cons, List.nodup_cons] at h
    unfold RMap.get
    rw [List.find?_cons]
    rcases List.mem_cons.1 he with rfl | he
    · simp
    · have : (x.1 == e.1) = false := by
        have : x.1 ≠ e.1 := fun c => h.1 (c ▸ List.mem_map.2 ⟨e, he, rfl⟩)
        simpa using this
      rw [this]
      exact ih h.2 he

/-! ## Loads along a run -/

/-- whether partition `p` has to be placed anew: it has no replicas yet, or not `rf` many -/
def isNew (actual : RMap) (rf p : Nat) : Bool :=
  match actual.get p with
  | some old => old.length != rf
  | none => true

/-- the newly placed partitions among the entries of a map -/
def newOnes (actual : RMap) (rf : Nat) (m : RMap) : List PartSpec :=
  (m.filter fun e => isNew actual rf e.1).map fun e => ledByFirst e.2

theorem isNew_kept {actual : RMap} {rf p : Nat} : isNew actual rf p = true ↔ kept actual rf p = none := by
  unfold isNew kept
  cases actual.get p with
  | none => simp
  | some old => simp

theorem newOnes_keep {actual : RMap} {rf p : Nat} {rs : List Int} {l : RMap}
    (h : kept actual rf p = some rs) : newOnes actual rf ((p, rs) :: l) = newOnes actual rf l := by
  unfold newOnes
  rw [List.filter_cons_of_neg]
  rw [isNew_kept, h]; simp

theorem newOnes_new {actual : RMap} {rf p : Nat} {rs : List Int} {l : RMap}
    (h : kept actual rf p = none) :
    newOnes actual rf ((p, rs) :: l) = ledByFirst rs :: newOnes actual rf l := by
  unfold newOnes
  rw [List.filter_cons_of_pos (by simpa using isNew_kept.2 h)]
  rfl

theorem exact_place {online : List Int} {rf : Nat} {g g' : Groups} {rs : List Int} {ps : List PartSpec}
    (h : place online rf 0 g [] = some (g', rs)) (hrf : 0 < rf) (hg : Exact g ps) :
    Exact g' (ps ++ [ledByFirst rs]) := by
  have ⟨h1, h2, _⟩ := place_one h
  have ⟨⟨nw, e, el, _⟩, hnd⟩ := place_valid h List.nodup_nil
  rw [List.nil_append] at e
  subst e
  cases rs with
  | nil => simp at el; omega
  | cons a rest =>
    have hna : a ∉ rest := (List.nodup_cons.1 hnd).1
    intro s
    rw [h1, h2, leadersOf_append, followersOf_append, (hg s).1, (hg s).2]
    constructor
    · congr 1
      by_cases hs : a = s
      · simp [leadersOf, ledByFirst, hs]
      · simp [leadersOf, ledByFirst, hs]
    · congr 1
      have : followersOf [ledByFirst (a :: rest)] s
          = ((a :: rest).filter fun r => decide (r = s ∧ r ≠ a)).length := by
        simp [followersOf, ledByFirst]
      rw [this, List.filter_cons_of_neg (by simp), List.count_eq_length_filter, List.tail_cons]
      congr 1
      apply List.filter_congr
      intro x hx
      have : x ≠ a := fun c => hna (c ▸ hx)
      simp only [this, ne_eq, not_false_eq_true, and_true, BEq.beq]

/-- along a run, each newly placed replica goes to a least loaded SPU -/
theorem Trace.least {online : List Int} {rf : Nat} {actual : RMap} {k p : Nat} {g g' : Groups} {l : RMap}
    (h : Trace online rf actual k p g l g') (hrf : 0 < rf) {ps : List PartSpec} (hg : Exact g ps) :
    Exact g' (ps ++ newOnes actual rf l) ∧
    ∀ pre q rs post, l = pre ++ (q, rs) :: post → isNew actual rf q = true →
      ∀ i (hi : i < rs.length), ∀ t ∈ online, t ∉ rs.take i →
        loadOf (ps ++ newOnes actual rf pre) (i == 0) rs[i]
          ≤ loadOf (ps ++ newOnes actual rf pre) (i == 0) t := by
  induction h generalizing ps with
  | done => exact ⟨by simpa [newOnes] using hg, fun pre q rs post h => by cases pre <;> cases h⟩
  | @keep k p g l g' rs0 hk _ ih =>
    have ⟨i1, i2⟩ := ih hg
    refine ⟨by rw [newOnes_keep hk]; exact i1, fun pre q rs post e hq => ?_⟩
    cases pre with
    | nil =>
      rw [List.nil_append] at e
      have := (List.cons.inj e).1
      cases this
      rw [isNew_kept, hk] at hq
      cases hq
    | cons x pre =>
      have e' := List.cons.inj e
      rw [← e'.1, newOnes_keep hk]
      exact i2 pre q rs post e'.2 hq
  | @new k p g l g' g1 rs0 hk hp _ ih =>
    have hx := exact_place hp hrf hg
    have ⟨i1, i2⟩ := ih hx
    refine ⟨by rw [newOnes_new hk]; simpa using i1, fun pre q rs post e hq => ?_⟩
    cases pre with
    | nil =>
      rw [List.nil_append] at e
      have := (List.cons.inj e).1
      cases this
      intro i hi t ht hnot
      have := (place_one hp).2.2 i hi t ht hnot
      unfold Load.weight at this
      unfold loadOf
      have e0 : ps ++ newOnes actual rf [] = ps := by simp [newOnes]
      rw [e0]
      split
      · rename_i hi0
        rw [if_pos hi0, if_pos hi0] at this
        rwa [← (hg _).1, ← (hg _).1]
      · rename_i hi0
        rw [if_neg hi0, if_neg hi0] at this
        rwa [← (hg _).2, ← (hg _).2]
    | cons x pre =>
      have e' := List.cons.inj e
      rw [← e'.1, newOnes_new hk]
      have := i2 pre q rs post e'.2 hq
      simpa using this

/-- an SPU that leads a newly placed partition ends with at most one leader more than any other -/
theorem Trace.spread {online : List Int} {rf : Nat} {actual : RMap} {k p : Nat} {g g' : Groups} {l : RMap}
    (h : Trace online rf actual k p g l g') :
    (∀ s, (g s).leaders ≤ (g' s).leaders) ∧
    ∀ s t, t ∈ online → (g' s).leaders = (g s).leaders ∨ (g' s).leaders ≤ (g' t).leaders + 1 := by
  induction h with
  | done => exact ⟨fun _ => Nat.le_refl _, fun _ _ _ => .inl rfl⟩
  | keep _ _ ih => exact ih
  | @new k p g l g' g1 rs0 hk hp _ ih =>
    have ⟨h1, _, h3⟩ := place_one hp
    have hmono : ∀ s, (g s).leaders ≤ (g1 s).leaders := fun s => by rw [h1]; omega
    refine ⟨fun s => Nat.le_trans (hmono s) (ih.1 s), fun s t ht => ?_⟩
    rcases ih.2 s t ht with h | h
    · by_cases hs : rs0.head? = some s
      · right
        have h4 : (g s).leaders ≤ (g t).leaders := by
          cases rs0 with
          | nil => cases hs
          | cons a rest =>
            have : a = s := by simpa using hs
            subst this
            exact h3 0 (by simp) t ht (by simp)
        have := h1 s
        rw [if_pos hs] at this
        have := hmono t
        have := ih.1 t
        omega
      · left
        have := h1 s
        rw [if_neg hs] at this
        omega
    · exact .inr h

/-- a run that cannot be completed -/
theorem assign_fails {online : List Int} {rf : Nat} {actual : RMap} {k p : Nat} {g : Groups} {m : RMap}
    (hm : m ≠ [] ∨ 0 < k) (h : assign online rf actual k p g m = [])
    (hb : ∀ s ∈ online, (g s).leaders + k < 65536 ∧ (g s).followers + k < 65536) :
    ∃ res : List Int, (∀ s ∈ online, s ∈ res) ∧ res.Nodup ∧ res.length < rf := by
  have ins : ∀ (m : RMap) p rs, m.insert p rs ≠ [] := by
    intro m p rs
    cases m with
    | nil => simp [RMap.insert]
    | cons e rest => unfold RMap.insert; split; · simp
                     split <;> simp
  induction k generalizing p g m with
  | zero =>
    unfold assign at h
    rcases hm with hm | hm
    · exact absurd h hm
    · omega
  | succ k ih =>
    unfold assign at h
    split at h
    · exact ih (.inl (ins _ _ _)) h fun s hs => by have := hb s hs; omega
    · split at h
      · rename_i hp
        obtain ⟨res, a, b, c⟩ := place_none hp List.nodup_nil fun s hs _ => by have := hb s hs; omega
        exact ⟨res, b, a, by simpa using c⟩
      · rename_i g1 rs hp
        have ⟨h1, h2, _⟩ := place_one hp
        have ⟨⟨nw, e, _, _⟩, hnd⟩ := place_valid hp List.nodup_nil
        refine ih (.inl (ins _ _ _)) h fun s hs => ?_
        have := hb s hs
        rw [h1, h2]
        have hc : rs.tail.count s ≤ 1 := by
          have : rs.tail.Nodup := hnd.sublist (List.tail_sublist _)
          exact List.nodup_iff_count.1 this s
        constructor
        · split <;> omega
        · omega

end Verif.Sc
