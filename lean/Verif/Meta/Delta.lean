import Verif.Meta.View

/-!
# Applying the reported changes
-/

namespace Verif.Meta

set_option linter.unusedSectionVars false

variable {K Sp St Me : Type} [DecidableEq K] [DecidableEq Sp] [DecidableEq St] [DecidableEq Me]

theorem put_key {m : Upd K (Obj K Sp St Me)} {l : List (Obj K Sp St Me)} (h : m ∈ puts l) :
    ∃ o ∈ l, m = .put o.key o := by
  rcases List.mem_map.1 h with ⟨o, ho, e⟩
  exact ⟨o, ho, e.symm⟩

theorem del_key {m : Upd K (Obj K Sp St Me)} {l : List (Obj K Sp St Me)} (h : m ∈ dels l) :
    ∃ o ∈ l, m = .del o.key := by
  rcases List.mem_map.1 h with ⟨o, ho, e⟩
  exact ⟨o, ho, e.symm⟩

/-- The two lists of an incremental report. -/
structure Reported (t : Store K Sp St Me) (f : Flag) (e : Int) (u d : List (Obj K Sp St Me)) : Prop where
  fence : t.fence ≤ e
  up : u = (t.values.filter (Entry.since f e)).map Entry.obj
  del : d = (t.deleted.filter (Entry.since f e)).map Entry.obj

theorem filter_at_epoch {t : Store K Sp St Me} (hw : WF t) (f : Flag) :
    t.values.filter (Entry.since f t.epoch) = [] ∧ t.deleted.filter (Entry.since f t.epoch) = [] := by
  constructor
  · rw [List.filter_eq_nil_iff]
    intro v hv
    have := hw.le v hv
    unfold Entry.since
    simp only [Bool.or_eq_true, Bool.and_eq_true, decide_eq_true_eq]
    omega
  · rw [List.filter_eq_nil_iff]
    intro d hd hs
    have h1 := since_deleted hw hd hs
    have h2 := hw.del d hd
    omega

theorem changesSince_changes {t : Store K Sp St Me} (hw : WF t) {f : Flag} {e : Int}
    {u d : List (Obj K Sp St Me)} (h : t.changesSince f e = .changes u d) : Reported t f e u d := by
  unfold Store.changesSince at h
  split at h
  · cases h
  · rename_i hf
    split at h
    · rename_i he
      cases h
      obtain ⟨h1, h2⟩ := filter_at_epoch hw f
      exact ⟨by omega, by rw [he, h1]; rfl, by rw [he, h2]; rfl⟩
    · cases h
      exact ⟨by omega, rfl, rfl⟩

theorem changesSince_all {t : Store K Sp St Me} {f : Flag} {e : Int}
    {l : List (Obj K Sp St Me)} (h : t.changesSince f e = .all l) :
    e < t.fence ∧ l = t.values.map Entry.obj := by
  unfold Store.changesSince at h
  split at h
  · cases h; exact ⟨‹_›, rfl⟩
  · split at h <;> cases h

theorem up_of_key {t : Store K Sp St Me} (hw : WF t) {f : Flag} {e : Int} {v : Entry K Sp St Me} {k : K}
    (hv : t.find k = some v) {o : Obj K Sp St Me}
    (ho : o ∈ (t.values.filter (Entry.since f e)).map Entry.obj) (hk : o.key = k) : o = v.obj := by
  rcases List.mem_map.1 ho with ⟨x, hx, rfl⟩
  have := hw.find (List.mem_filter.1 hx).1
  rw [hk, hv] at this
  cases this
  rfl

/-- Messages about one key that all agree, in any order. -/
theorem delta_const {s t : Store K Sp St Me} (hw : WF t) (h : Since s t) {f : Flag}
    (hf : f.isNone = false) {e : Int} (he : e ≤ s.epoch) {u d : List (Obj K Sp St Me)}
    (hr : Reported t f e u d) (hdis : ∀ o ∈ u, ∀ p ∈ d, o.key ≠ p.key)
    {l : List (Upd K (Obj K Sp St Me))} (hl : l.Perm (puts u ++ dels d)) :
    Agree f (s.content.acts l) t.content := by
  intro k
  have key := delta_at hw h hf he hr.fence k
  have hmem : ∀ m, m ∈ l ↔ m ∈ puts u ∨ m ∈ dels d := fun m => by rw [hl.mem_iff, List.mem_append]
  have hc : t.content k = (t.find k).map Entry.obj := rfl
  rw [hc]
  split at key
  · rename_i hn
    rw [hn]
    have : s.content.acts l k = none := by
      apply acts_const
      · intro m hm hk
        rcases (hmem m).1 hm with hm | hm
        · obtain ⟨o, ho, rfl⟩ := put_key hm
          rw [hr.up] at ho
          rcases List.mem_map.1 ho with ⟨x, hx, rfl⟩
          exact absurd hk (key.1 x (List.mem_filter.1 hx).1)
        · obtain ⟨o, ho, rfl⟩ := del_key hm
          rfl
      · rcases key.2 with h1 | ⟨x, hx, hs, hk⟩
        · left; unfold Store.content; rw [h1]; rfl
        · right
          refine ⟨.del x.obj.key, (hmem _).2 (Or.inr ?_), hk⟩
          refine List.mem_map.2 ⟨x.obj, ?_, rfl⟩
          rw [hr.del]
          exact List.mem_map_of_mem (List.mem_filter.2 ⟨hx, hs⟩)
    rw [this]
    trivial
  · rename_i v hv
    rw [hv]
    show SameIn f (s.content.acts l k) (some v.obj)
    have hvk := find_some hv
    rcases hsv : v.since f e with _ | _
    · rw [hsv] at key
      rcases key with key | ⟨hd, hsame⟩
      · cases key
      · rw [acts_untouched]
        · exact hsame
        · intro m hm hk
          rcases (hmem m).1 hm with hm | hm
          · obtain ⟨o, ho, rfl⟩ := put_key hm
            rw [hr.up] at ho
            rcases List.mem_map.1 ho with ⟨x, hx, rfl⟩
            have hx' := List.mem_filter.1 hx
            have := hw.find hx'.1
            rw [show x.obj.key = k from hk, hv] at this
            cases this
            rw [hsv] at hx'
            exact absurd hx'.2 (by simp)
          · obtain ⟨o, ho, rfl⟩ := del_key hm
            rw [hr.del] at ho
            rcases List.mem_map.1 ho with ⟨x, hx, rfl⟩
            have hx' := List.mem_filter.1 hx
            exact hd x hx'.1 hx'.2 hk
    · have hvu : v.obj ∈ u := by
        rw [hr.up]; exact List.mem_map_of_mem (List.mem_filter.2 ⟨hvk.1, hsv⟩)
      have : s.content.acts l k = some v.obj := by
        apply acts_const
        · intro m hm hk
          rcases (hmem m).1 hm with hm | hm
          · obtain ⟨o, ho, rfl⟩ := put_key hm
            rw [hr.up] at ho
            rw [up_of_key hw hv ho hk]
            rfl
          · obtain ⟨o, ho, rfl⟩ := del_key hm
            exact absurd (hvk.2.trans (Eq.symm hk)) (hdis v.obj hvu o ho)
        · right
          exact ⟨.put v.obj.key v.obj, (hmem _).2 (Or.inl (List.mem_map.2 ⟨v.obj, hvu, rfl⟩)), hvk.2⟩
      rw [this]
      exact SameIn.rfl

/-- Deletions before updates, each in any order. -/
theorem delta_deletes_first {s t : Store K Sp St Me} (hw : WF t) (h : Since s t) {f : Flag}
    (hf : f.isNone = false) {e : Int} (he : e ≤ s.epoch) {u d : List (Obj K Sp St Me)}
    (hr : Reported t f e u d) {u' d' : List (Obj K Sp St Me)} (hu : u'.Perm u) (hd : d'.Perm d) :
    Agree f (s.content.acts (dels d' ++ puts u')) t.content := by
  intro k
  have key := delta_at hw h hf he hr.fence k
  have hc : t.content k = (t.find k).map Entry.obj := rfl
  rw [hc, acts_append]
  split at key
  · rename_i hn
    rw [hn]
    have : (s.content.acts (dels d')).acts (puts u') k = none := by
      rw [acts_untouched]
      · apply acts_const
        · intro m hm hk
          obtain ⟨o, ho, rfl⟩ := del_key hm
          rfl
        · rcases key.2 with h1 | ⟨x, hx, hs, hk⟩
          · left; unfold Store.content; rw [h1]; rfl
          · right
            refine ⟨.del x.obj.key, List.mem_map.2 ⟨x.obj, hd.mem_iff.2 ?_, rfl⟩, hk⟩
            rw [hr.del]
            exact List.mem_map_of_mem (List.mem_filter.2 ⟨hx, hs⟩)
      · intro m hm hk
        obtain ⟨o, ho, rfl⟩ := put_key hm
        rw [hu.mem_iff, hr.up] at ho
        rcases List.mem_map.1 ho with ⟨x, hx, rfl⟩
        exact key.1 x (List.mem_filter.1 hx).1 hk
    rw [this]
    trivial
  · rename_i v hv
    rw [hv]
    show SameIn f ((s.content.acts (dels d')).acts (puts u') k) (some v.obj)
    have hvk := find_some hv
    rcases hsv : v.since f e with _ | _
    · rw [hsv] at key
      rcases key with key | ⟨hdel, hsame⟩
      · cases key
      · rw [acts_untouched, acts_untouched]
        · exact hsame
        · intro m hm hk
          obtain ⟨o, ho, rfl⟩ := del_key hm
          rw [hd.mem_iff, hr.del] at ho
          rcases List.mem_map.1 ho with ⟨x, hx, rfl⟩
          have hx' := List.mem_filter.1 hx
          exact hdel x hx'.1 hx'.2 hk
        · intro m hm hk
          obtain ⟨o, ho, rfl⟩ := put_key hm
          rw [hu.mem_iff, hr.up] at ho
          rcases List.mem_map.1 ho with ⟨x, hx, rfl⟩
          have hx' := List.mem_filter.1 hx
          have := hw.find hx'.1
          rw [show x.obj.key = k from hk, hv] at this
          cases this
          rw [hsv] at hx'
          exact absurd hx'.2 (by simp)
    · have hvu : v.obj ∈ u := by
        rw [hr.up]; exact List.mem_map_of_mem (List.mem_filter.2 ⟨hvk.1, hsv⟩)
      have : (s.content.acts (dels d')).acts (puts u') k = some v.obj := by
        apply acts_const
        · intro m hm hk
          obtain ⟨o, ho, rfl⟩ := put_key hm
          rw [hu.mem_iff, hr.up] at ho
          rw [up_of_key hw hv ho hk]
          rfl
        · right
          exact ⟨.put v.obj.key v.obj, List.mem_map.2 ⟨v.obj, hu.mem_iff.2 hvu, rfl⟩, hvk.2⟩
      rw [this]
      exact SameIn.rfl

end Verif.Meta
