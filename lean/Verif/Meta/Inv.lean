import Verif.Meta.Store

/-!
# What the epochs in a metadata store mean

`Since s t`: `t` is a later state of the store `s`.
-/

namespace Verif.Meta

set_option linter.unusedSectionVars false

variable {K Sp St Me : Type} [DecidableEq K] [DecidableEq Sp] [DecidableEq St] [DecidableEq Me]

/-- Well-formed store. -/
structure WF (s : Store K Sp St Me) : Prop where
  nodup : (s.values.map (·.obj.key)).Nodup
  le : ∀ v ∈ s.values, v.specE ≤ s.epoch ∧ v.statusE ≤ s.epoch ∧ v.itemE ≤ s.epoch
  del : ∀ d ∈ s.deleted, d.statusE = d.specE ∧ d.itemE = d.specE ∧ d.specE ≤ s.epoch
  again : ∀ d ∈ s.deleted, ∀ v ∈ s.values, v.obj.key = d.obj.key →
    d.specE ≤ v.specE ∧ d.specE ≤ v.statusE ∧ d.specE ≤ v.itemE
  fence : 0 ≤ s.fence ∧ s.fence ≤ s.epoch

/-- `v` of the later store against the earlier store `s`: a component not stamped since is old. -/
def Old (s : Store K Sp St Me) (v : Entry K Sp St Me) : Prop :=
  (v.specE ≤ s.epoch → ∃ w, s.find v.obj.key = some w ∧ w.obj.spec = v.obj.spec) ∧
  (v.statusE ≤ s.epoch → ∃ w, s.find v.obj.key = some w ∧ w.obj.status = v.obj.status) ∧
  (v.itemE ≤ s.epoch → ∃ w, s.find v.obj.key = some w ∧ w.obj.item = v.obj.item)

structure Since (s t : Store K Sp St Me) : Prop where
  le : s.epoch ≤ t.epoch
  old : t.fence ≤ s.epoch → ∀ v ∈ t.values, Old s v
  gone : t.fence ≤ s.epoch → ∀ k w, s.find k = some w →
    (∃ v, t.find k = some v) ∨ ∃ d ∈ t.deleted, d.obj.key = k ∧ s.epoch < d.specE

theorem find_some {s : Store K Sp St Me} {k : K} {v : Entry K Sp St Me} (h : s.find k = some v) :
    v ∈ s.values ∧ v.obj.key = k := by
  unfold Store.find at h
  have h2 := List.find?_some h
  exact ⟨List.mem_of_find?_eq_some h, by simpa using h2⟩

theorem find_none {s : Store K Sp St Me} {k : K} :
    s.find k = none ↔ ∀ v ∈ s.values, v.obj.key ≠ k := by
  unfold Store.find
  rw [List.find?_eq_none]
  simp

theorem find_of_nodup : ∀ {l : List (Entry K Sp St Me)}, (l.map (·.obj.key)).Nodup →
    ∀ v ∈ l, l.find? (fun e => decide (e.obj.key = v.obj.key)) = some v := by
  intro l
  induction l with
  | nil => intro _ v hv; cases hv
  | cons a l ih =>
    intro hn v hv
    simp only [List.map_cons, List.nodup_cons, List.mem_map, not_exists, not_and] at hn
    rcases List.mem_cons.1 hv with h | h
    · subst h; simp
    · have : a.obj.key ≠ v.obj.key := fun e => hn.1 v h e.symm
      rw [List.find?_cons_of_neg (by simpa using this)]
      exact ih hn.2 v h

theorem WF.find {s : Store K Sp St Me} (h : WF s) {v : Entry K Sp St Me} (hv : v ∈ s.values) :
    s.find v.obj.key = some v := find_of_nodup h.nodup v hv

theorem WF.init : WF (Store.init : Store K Sp St Me) :=
  ⟨List.nodup_nil, nofun, nofun, nofun, ⟨Int.le_refl _, Int.le_refl _⟩⟩

theorem WF.bump {s : Store K Sp St Me} (h : WF s) : WF s.bump := by
  refine ⟨h.nodup, ?_, ?_, h.again, ?_⟩
  · intro v hv
    have := h.le v hv
    show v.specE ≤ s.epoch + 1 ∧ v.statusE ≤ s.epoch + 1 ∧ v.itemE ≤ s.epoch + 1
    omega
  · intro d hd
    have := h.del d hd
    show d.statusE = d.specE ∧ d.itemE = d.specE ∧ d.specE ≤ s.epoch + 1
    omega
  · have := h.fence
    show 0 ≤ s.fence ∧ s.fence ≤ s.epoch + 1
    omega

theorem Since.refl {s : Store K Sp St Me} (h : WF s) : Since s s := by
  refine ⟨Int.le_refl _, ?_, ?_⟩
  · intro _ v hv
    exact ⟨fun _ => ⟨v, h.find hv, rfl⟩, fun _ => ⟨v, h.find hv, rfl⟩, fun _ => ⟨v, h.find hv, rfl⟩⟩
  · intro _ k w hw; exact Or.inl ⟨w, hw⟩

theorem Since.bump {s t : Store K Sp St Me} (h : Since s t) :
    Since s t.bump ∧ s.epoch < t.bump.epoch := by
  have := h.le
  refine ⟨⟨?_, h.old, h.gone⟩, ?_⟩
  · show s.epoch ≤ t.epoch + 1; omega
  · show s.epoch < t.epoch + 1; omega

/-! ## `update` -/

theorem update_fields (newer : Me → Me → Bool) (s : Store K Sp St Me) (o : Obj K Sp St Me) :
    (s.update newer o).1.epoch = s.epoch ∧ (s.update newer o).1.fence = s.fence ∧
    (s.update newer o).1.deleted = s.deleted := by
  unfold Store.update
  split
  · dsimp only; split <;> exact ⟨rfl, rfl, rfl⟩
  · exact ⟨rfl, rfl, rfl⟩

theorem merge_key (old : Entry K Sp St Me) (new : Obj K Sp St Me) (f : Flag) (e : Int) :
    (old.merge new f e).obj = new := rfl

/-- Every value after an update is an old one of another key, or the value of the updated key. -/
theorem mem_update {newer : Me → Me → Bool} {s : Store K Sp St Me} {o : Obj K Sp St Me}
    {v : Entry K Sp St Me} (hv : v ∈ (s.update newer o).1.values) :
    v ∈ s.values ∨
    (∃ old, s.find o.key = some old ∧ (old.obj.diff newer o).isNone = false ∧
      v = old.merge o (old.obj.diff newer o) s.epoch) ∨
    (s.find o.key = none ∧ v = ⟨o, s.epoch, s.epoch, s.epoch⟩) := by
  unfold Store.update at hv
  split at hv
  · rename_i old hold
    dsimp only at hv
    split at hv
    · exact Or.inl hv
    · rename_i hf
      rcases List.mem_map.1 hv with ⟨x, hx, he⟩
      split at he
      · exact Or.inr (Or.inl ⟨old, hold, by simpa using hf, he.symm⟩)
      · exact Or.inl (he ▸ hx)
  · rename_i hnone
    rcases List.mem_append.1 hv with h | h
    · exact Or.inl h
    · exact Or.inr (Or.inr ⟨hnone, by simpa using h⟩)

theorem update_keys {newer : Me → Me → Bool} {s : Store K Sp St Me} {o : Obj K Sp St Me} :
    (s.update newer o).1.values.map (·.obj.key) = s.values.map (·.obj.key) ∨
    (s.find o.key = none ∧
      (s.update newer o).1.values.map (·.obj.key) = s.values.map (·.obj.key) ++ [o.key]) := by
  unfold Store.update
  split
  · dsimp only
    split
    · exact Or.inl rfl
    · left
      rw [List.map_map]
      apply List.map_congr_left
      intro v _
      simp only [Function.comp]
      split
      · rename_i h; rw [merge_key]; exact h.symm
      · rfl
  · rename_i h
    right
    exact ⟨h, by simp⟩

theorem WF.update {newer : Me → Me → Bool} {s : Store K Sp St Me} (h : WF s) (o : Obj K Sp St Me) :
    WF (s.update newer o).1 := by
  obtain ⟨e1, e2, e3⟩ := update_fields newer s o
  refine ⟨?_, ?_, ?_, ?_, ?_⟩
  · rcases update_keys (newer := newer) (s := s) (o := o) with hk | ⟨hn, hk⟩
    · rw [hk]; exact h.nodup
    · rw [hk, List.nodup_append]
      refine ⟨h.nodup, by simp, ?_⟩
      intro a ha b hb
      rcases List.mem_map.1 ha with ⟨v, hv, rfl⟩
      rw [List.mem_singleton.1 hb]
      exact find_none.1 hn v hv
  · intro v hv
    rw [e1]
    rcases mem_update hv with hv | ⟨old, hold, _, rfl⟩ | ⟨_, rfl⟩
    · exact h.le v hv
    · have := h.le old (find_some hold).1
      unfold Entry.merge
      refine ⟨?_, ?_, ?_⟩ <;> (dsimp only; split <;> omega)
    · simp
  · rw [e1, e3]; exact h.del
  · intro d hd v hv hk
    rw [e3] at hd
    rcases mem_update hv with hv | ⟨old, hold, _, rfl⟩ | ⟨_, rfl⟩
    · exact h.again d hd v hv hk
    · have ho := find_some hold
      have := h.again d hd old ho.1 (ho.2.trans hk)
      have := h.del d hd
      unfold Entry.merge
      refine ⟨?_, ?_, ?_⟩ <;> (dsimp only; split <;> omega)
    · have := h.del d hd
      dsimp only
      omega
  · rw [e1, e2]; exact h.fence

theorem find_isSome_iff {s : Store K Sp St Me} {k : K} :
    (∃ v, s.find k = some v) ↔ k ∈ s.values.map (·.obj.key) := by
  constructor
  · rintro ⟨v, hv⟩
    exact List.mem_map.2 ⟨v, (find_some hv).1, (find_some hv).2⟩
  · intro h
    rcases hf : s.find k with _ | v
    · rcases List.mem_map.1 h with ⟨v, hv, hk⟩
      exact absurd hk (find_none.1 hf v hv)
    · exact ⟨v, rfl⟩

theorem Since.update {newer : Me → Me → Bool} {s t : Store K Sp St Me} (h : Since s t)
    (hlt : s.epoch < t.epoch) (o : Obj K Sp St Me) : Since s (t.update newer o).1 := by
  obtain ⟨e1, e2, e3⟩ := update_fields newer t o
  refine ⟨by rw [e1]; exact h.le, ?_, ?_⟩
  · intro hf v hv
    rw [e2] at hf
    rcases mem_update hv with hv | ⟨old, hold, _, rfl⟩ | ⟨_, rfl⟩
    · exact h.old hf v hv
    · have ho := find_some hold
      have h1 := h.old hf old ho.1
      unfold Old at h1 ⊢
      rw [ho.2] at h1
      rename_i hnn
      have hnew : ¬ newer old.obj.item o.item = true := by
        intro h4
        unfold Obj.diff at hnn
        rw [if_pos h4] at hnn
        cases hnn
      have hd : old.obj.diff newer o = ⟨decide (old.obj.spec ≠ o.spec),
          decide (old.obj.status ≠ o.status), decide (old.obj.item ≠ o.item)⟩ := by
        unfold Obj.diff; rw [if_neg hnew]
      rw [hd]
      unfold Entry.merge
      · dsimp only
        simp only [decide_eq_true_eq, ne_eq]
        refine ⟨?_, ?_, ?_⟩
        · intro hle
          by_cases hs : old.obj.spec = o.spec
          · rw [if_neg (by simpa using hs)] at hle
            obtain ⟨w, hw1, hw2⟩ := h1.1 hle
            exact ⟨w, hw1, hw2.trans hs⟩
          · rw [if_pos hs] at hle; omega
        · intro hle
          by_cases hs : old.obj.status = o.status
          · rw [if_neg (by simpa using hs)] at hle
            obtain ⟨w, hw1, hw2⟩ := h1.2.1 hle
            exact ⟨w, hw1, hw2.trans hs⟩
          · rw [if_pos hs] at hle; omega
        · intro hle
          by_cases hs : old.obj.item = o.item
          · rw [if_neg (by simpa using hs)] at hle
            obtain ⟨w, hw1, hw2⟩ := h1.2.2 hle
            exact ⟨w, hw1, hw2.trans hs⟩
          · rw [if_pos hs] at hle; omega
    · unfold Old
      dsimp only
      refine ⟨?_, ?_, ?_⟩ <;> (intro _; omega)
  · intro hf k w hk
    rw [e2] at hf
    rw [e3]
    rcases h.gone hf k w hk with hv | hd
    · left
      rw [find_isSome_iff] at hv ⊢
      rcases update_keys (newer := newer) (s := t) (o := o) with h' | ⟨_, h'⟩
      · rw [h']; exact hv
      · rw [h']; exact List.mem_append_left _ hv
    · exact Or.inr hd

/-! ## `remove` -/

theorem remove_fields (s : Store K Sp St Me) (k : K) :
    (s.remove k).epoch = s.epoch ∧ (s.remove k).fence = s.fence ∧
    (s.remove k).values = s.values.filter fun v => decide (v.obj.key ≠ k) := by
  unfold Store.remove
  split
  · exact ⟨rfl, rfl, rfl⟩
  · rename_i h
    refine ⟨rfl, rfl, ?_⟩
    rw [List.filter_eq_self.2]
    intro v hv
    simpa using find_none.1 h v hv

theorem remove_deleted (s : Store K Sp St Me) (k : K) :
    (s.find k = none ∧ (s.remove k).deleted = s.deleted) ∨
    ∃ old, s.find k = some old ∧ (s.remove k).deleted = s.deleted ++ [old.setEpoch s.epoch] := by
  unfold Store.remove
  split
  · rename_i old h
    exact Or.inr ⟨old, h, rfl⟩
  · rename_i h
    exact Or.inl ⟨h, rfl⟩

theorem WF.remove {s : Store K Sp St Me} (h : WF s) (k : K) : WF (s.remove k) := by
  obtain ⟨e1, e2, e3⟩ := remove_fields s k
  have hsub : ∀ v ∈ (s.remove k).values, v ∈ s.values ∧ v.obj.key ≠ k := by
    intro v hv
    rw [e3] at hv
    have := List.mem_filter.1 hv
    exact ⟨this.1, by simpa using this.2⟩
  refine ⟨?_, ?_, ?_, ?_, by rw [e1, e2]; exact h.fence⟩
  · rw [e3]
    exact h.nodup.sublist ((List.filter_sublist).map _)
  · intro v hv; rw [e1]; exact h.le v (hsub v hv).1
  · intro d hd
    rw [e1]
    rcases remove_deleted s k with ⟨_, hD⟩ | ⟨old, _, hD⟩
    · rw [hD] at hd; exact h.del d hd
    · rw [hD] at hd
      rcases List.mem_append.1 hd with hd | hd
      · exact h.del d hd
      · rw [List.mem_singleton.1 hd]
        exact ⟨rfl, rfl, Int.le_refl _⟩
  · intro d hd v hv hk
    obtain ⟨hv1, hv2⟩ := hsub v hv
    rcases remove_deleted s k with ⟨_, hD⟩ | ⟨old, ho, hD⟩
    · rw [hD] at hd; exact h.again d hd v hv1 hk
    · rw [hD] at hd
      rcases List.mem_append.1 hd with hd | hd
      · exact h.again d hd v hv1 hk
      · rw [List.mem_singleton.1 hd] at hk
        exact absurd (hk.trans (find_some ho).2) hv2

theorem Since.remove {s t : Store K Sp St Me} (h : Since s t) (hlt : s.epoch < t.epoch) (k : K) :
    Since s (t.remove k) := by
  obtain ⟨e1, e2, e3⟩ := remove_fields t k
  refine ⟨by rw [e1]; exact h.le, ?_, ?_⟩
  · intro hf v hv
    rw [e2] at hf
    rw [e3] at hv
    exact h.old hf v (List.mem_filter.1 hv).1
  · intro hf k' w hk
    rw [e2] at hf
    rcases h.gone hf k' w hk with ⟨v, hv⟩ | ⟨d, hd, hd'⟩
    · by_cases hkk : k' = k
      · right
        subst hkk
        rcases remove_deleted t k' with ⟨hn, _⟩ | ⟨old, ho, hD⟩
        · rw [hn] at hv; cases hv
        · refine ⟨old.setEpoch t.epoch, by rw [hD]; simp, (find_some ho).2, ?_⟩
          exact hlt
      · left
        rw [find_isSome_iff, e3]
        have := find_some hv
        exact List.mem_map.2 ⟨v, List.mem_filter.2 ⟨this.1, by simpa [this.2] using hkk⟩, this.2⟩
    · right
      rcases remove_deleted t k with ⟨_, hD⟩ | ⟨old, _, hD⟩
      · exact ⟨d, by rw [hD]; exact hd, hd'⟩
      · exact ⟨d, by rw [hD]; exact List.mem_append_left _ hd, hd'⟩

/-! ## Whole operations -/

/-- What every part of an operation preserves. -/
structure Mid (s t : Store K Sp St Me) : Prop where
  wf : WF t
  since : Since s t
  lt : s.epoch < t.epoch

theorem Mid.update {newer : Me → Me → Bool} {s t : Store K Sp St Me} (h : Mid s t)
    (o : Obj K Sp St Me) : Mid s (t.update newer o).1 :=
  ⟨h.wf.update o, h.since.update h.lt o, by rw [(update_fields newer t o).1]; exact h.lt⟩

theorem Mid.remove {s t : Store K Sp St Me} (h : Mid s t) (k : K) : Mid s (t.remove k) :=
  ⟨h.wf.remove k, h.since.remove h.lt k, by rw [(remove_fields t k).1]; exact h.lt⟩

theorem Mid.bump {s t : Store K Sp St Me} (hw : WF t) (h : Since s t) : Mid s t.bump :=
  ⟨hw.bump, h.bump.1, h.bump.2⟩

theorem applyOne_fst_update (newer : Me → Me → Bool) (p : Store K Sp St Me × Bool) (o : Obj K Sp St Me) :
    (Store.applyOne newer p (.mod o)).1 = (p.1.update newer o).1 := by
  unfold Store.applyOne
  dsimp only
  split <;> rename_i h <;> rw [h]

theorem Mid.applyOne {newer : Me → Me → Bool} {s : Store K Sp St Me} {p : Store K Sp St Me × Bool}
    (h : Mid s p.1) (c : Chg K Sp St Me) : Mid s (Store.applyOne newer p c).1 := by
  cases c with
  | mod o => rw [applyOne_fst_update]; exact h.update o
  | del k => exact h.remove k

theorem Mid.applyAll {newer : Me → Me → Bool} {s : Store K Sp St Me} (l : List (Chg K Sp St Me)) :
    ∀ {p : Store K Sp St Me × Bool}, Mid s p.1 → Mid s (l.foldl (Store.applyOne newer) p).1 := by
  induction l with
  | nil => intro p h; exact h
  | cons c l ih => intro p h; exact ih (h.applyOne c)

theorem update_unchanged {newer : Me → Me → Bool} {s : Store K Sp St Me} {o : Obj K Sp St Me}
    {s' : Store K Sp St Me} {f : Flag} (h : s.update newer o = (s', some f)) (hf : f.isNone = true) :
    s' = s := by
  unfold Store.update at h
  split at h
  · dsimp only at h
    split at h
    · cases h; rfl
    · rename_i h2
      cases h
      exact absurd hf h2
  · cases h

theorem applyOne_unchanged {newer : Me → Me → Bool} {p : Store K Sp St Me × Bool} {c : Chg K Sp St Me}
    (h : (Store.applyOne newer p c).2 = false) : Store.applyOne newer p c = p := by
  obtain ⟨s, b⟩ := p
  cases c with
  | del k => cases h
  | mod o =>
    rcases hu : s.update newer o with ⟨s', _ | f⟩
    · have : Store.applyOne newer (s, b) (.mod o) = (s', true) := by
        unfold Store.applyOne; dsimp only; rw [hu]
      rw [this] at h; cases h
    · have e : Store.applyOne newer (s, b) (.mod o) = (s', b || !f.isNone) := by
        unfold Store.applyOne; dsimp only; rw [hu]
      rw [e] at h ⊢
      simp only [Bool.or_eq_false_iff, Bool.not_eq_false'] at h
      rw [update_unchanged hu h.2, h.1, h.2]
      rfl

theorem applyAll_unchanged {newer : Me → Me → Bool} (l : List (Chg K Sp St Me)) :
    ∀ {p : Store K Sp St Me × Bool}, (l.foldl (Store.applyOne newer) p).2 = false →
      l.foldl (Store.applyOne newer) p = p := by
  induction l with
  | nil => intro p _; rfl
  | cons c l ih =>
    intro p h
    have h1 : l.foldl (Store.applyOne newer) (Store.applyOne newer p c) = Store.applyOne newer p c := ih h
    have h2 : (Store.applyOne newer p c).2 = false := by
      rw [← h1]; exact h
    show l.foldl (Store.applyOne newer) (Store.applyOne newer p c) = p
    rw [h1]
    exact applyOne_unchanged h2

theorem applyChanges_cases (newer : Me → Me → Bool) (s : Store K Sp St Me) (l : List (Chg K Sp St Me)) :
    s.applyChanges newer l = s ∨
    s.applyChanges newer l = (l.foldl (Store.applyOne newer) (s.bump, false)).1 := by
  unfold Store.applyChanges
  dsimp only
  split
  · exact Or.inr rfl
  · rename_i h
    left
    rw [applyAll_unchanged l (by simpa using h)]
    show Store.mk (s.epoch + 1 - 1) s.fence s.values s.deleted = s
    rw [Int.add_sub_cancel]

theorem Mid.updateAll {newer : Me → Me → Bool} {s : Store K Sp St Me} (l : List (Obj K Sp St Me)) :
    ∀ {t : Store K Sp St Me}, Mid s t → Mid s (l.foldl (fun s o => (s.update newer o).1) t) := by
  induction l with
  | nil => intro t h; exact h
  | cons o l ih => intro t h; exact ih (h.update o)

theorem Mid.removeAll {s : Store K Sp St Me} (l : List K) :
    ∀ {t : Store K Sp St Me}, Mid s t → Mid s (l.foldl Store.remove t) := by
  induction l with
  | nil => intro t h; exact h
  | cons k l ih => intro t h; exact ih (h.remove k)

theorem Mid.markFence {s t : Store K Sp St Me} (h : Mid s t) : WF t.markFence ∧ Since s t.markFence := by
  refine ⟨⟨h.wf.nodup, h.wf.le, nofun, nofun, ?_⟩, ⟨h.since.le, ?_, ?_⟩⟩
  · have := h.wf.fence
    exact ⟨Int.le_trans this.1 this.2, Int.le_refl _⟩
  · intro hf
    have : t.epoch ≤ s.epoch := hf
    have := h.lt
    omega
  · intro hf
    have : t.epoch ≤ s.epoch := hf
    have := h.lt
    omega

theorem step_ok {newer : Me → Me → Bool} {s t : Store K Sp St Me} (hw : WF t) (h : Since s t)
    (op : Op K Sp St Me) : WF (t.step newer op) ∧ Since s (t.step newer op) := by
  cases op with
  | apply l =>
    show WF (t.applyChanges newer l) ∧ Since s (t.applyChanges newer l)
    rcases applyChanges_cases newer t l with he | he
    · rw [he]; exact ⟨hw, h⟩
    · rw [he]
      have := Mid.applyAll (newer := newer) l (p := (t.bump, false)) (Mid.bump hw h)
      exact ⟨this.wf, this.since⟩
  | sync l =>
    exact (Mid.removeAll _ (Mid.updateAll (newer := newer) l (Mid.bump hw h))).markFence

theorem run_ok {newer : Me → Me → Bool} (ops : List (Op K Sp St Me)) :
    ∀ {s t : Store K Sp St Me}, WF t → Since s t →
      WF (t.run newer ops) ∧ Since s (t.run newer ops) := by
  induction ops with
  | nil => intro s t hw h; exact ⟨hw, h⟩
  | cons op ops ih =>
    intro s t hw h
    obtain ⟨h1, h2⟩ := step_ok (newer := newer) hw h op
    exact ih h1 h2

end Verif.Meta
