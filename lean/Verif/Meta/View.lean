import Verif.Meta.Inv

/-!
# What a subscriber knows

Specification side: a view assigns a value to some keys; updates and deletions change it in the obvious
way.  `Store.content` is the view of everything in a store.
-/

namespace Verif.Meta

set_option linter.unusedSectionVars false

abbrev View (K V : Type) := K → Option V

inductive Upd (K V : Type) where
  | put (k : K) (v : V)
  | del (k : K)
deriving DecidableEq

variable {K V : Type} [DecidableEq K]

def View.act (w : View K V) : Upd K V → View K V
  | .put k v => fun j => if j = k then some v else w j
  | .del k => fun j => if j = k then none else w j

def View.acts (w : View K V) (l : List (Upd K V)) : View K V := l.foldl View.act w

def View.empty : View K V := fun _ => none

def Upd.key : Upd K V → K
  | .put k _ => k
  | .del k => k

def Upd.val : Upd K V → Option V
  | .put _ v => some v
  | .del _ => none

theorem act_eq (w : View K V) (m : Upd K V) (k : K) :
    w.act m k = if k = m.key then m.val else w k := by
  cases m <;> rfl

theorem acts_append (w : View K V) (l m : List (Upd K V)) : w.acts (l ++ m) = (w.acts l).acts m :=
  List.foldl_append

theorem acts_cons (w : View K V) (m : Upd K V) (l : List (Upd K V)) :
    w.acts (m :: l) = (w.act m).acts l := rfl

theorem acts_untouched (l : List (Upd K V)) (k : K) : ∀ (w : View K V), (∀ m ∈ l, m.key ≠ k) →
    w.acts l k = w k := by
  induction l with
  | nil => intro w _; rfl
  | cons m l ih =>
    intro w h
    rw [acts_cons, ih _ fun m hm => h m (by simp [hm]), act_eq, if_neg fun e => h m (by simp) e.symm]

/-- When all messages about `k` say the same, their order does not matter. -/
theorem acts_const (l : List (Upd K V)) (k : K) (x : Option V) : ∀ (w : View K V),
    (∀ m ∈ l, m.key = k → m.val = x) → (w k = x ∨ ∃ m ∈ l, m.key = k) → w.acts l k = x := by
  induction l with
  | nil =>
    intro w _ h
    rcases h with h | ⟨m, hm, _⟩
    · exact h
    · cases hm
  | cons m l ih =>
    intro w h1 h2
    rw [acts_cons]
    apply ih _ fun m hm => h1 m (by simp [hm])
    rw [act_eq]
    by_cases hk : k = m.key
    · rw [if_pos hk]
      exact Or.inl (h1 m (by simp) hk.symm)
    · rw [if_neg hk]
      rcases h2 with h | ⟨m', hm', hk'⟩
      · exact Or.inl h
      · rcases List.mem_cons.1 hm' with e | e
        · exact absurd (e ▸ hk'.symm) hk
        · exact Or.inr ⟨m', e, hk'⟩

variable {Sp St Me : Type} [DecidableEq Sp] [DecidableEq St] [DecidableEq Me]

/-- Everything in the store. -/
def Store.content (s : Store K Sp St Me) : View K (Obj K Sp St Me) := fun k => (s.find k).map Entry.obj

/-- Equal in the components that the flag selects. -/
def SameIn (f : Flag) : Option (Obj K Sp St Me) → Option (Obj K Sp St Me) → Prop
  | none, none => True
  | some a, some b =>
    a.key = b.key ∧ (f.spec = true → a.spec = b.spec) ∧ (f.status = true → a.status = b.status) ∧
    (f.item = true → a.item = b.item)
  | _, _ => False

def Agree (f : Flag) (w w' : View K (Obj K Sp St Me)) : Prop := ∀ k, SameIn f (w k) (w' k)

theorem SameIn.rfl {f : Flag} {a : Option (Obj K Sp St Me)} : SameIn f a a := by
  cases a
  · trivial
  · exact ⟨Eq.refl _, fun _ => Eq.refl _, fun _ => Eq.refl _, fun _ => Eq.refl _⟩

theorem agree_full {w w' : View K (Obj K Sp St Me)} (h : Agree Flag.full w w') : w = w' := by
  funext k
  have := h k
  generalize w k = a at this
  generalize w' k = b at this
  cases a <;> cases b
  · rfl
  · cases this
  · cases this
  · rename_i a b
    obtain ⟨h1, h2, h3, h4⟩ := this
    obtain ⟨a1, a2, a3, a4⟩ := a
    obtain ⟨b1, b2, b3, b4⟩ := b
    have e2 := h2 rfl
    have e3 := h3 rfl
    have e4 := h4 rfl
    dsimp only at h1 e2 e3 e4
    rw [h1, e2, e3, e4]

/-! ## The reported changes -/

theorem since_false {f : Flag} {e : Int} {v : Entry K Sp St Me} (h : v.since f e = false) :
    (f.spec = true → v.specE ≤ e) ∧ (f.status = true → v.statusE ≤ e) ∧ (f.item = true → v.itemE ≤ e) := by
  unfold Entry.since at h
  simp only [Bool.or_eq_false_iff, Bool.and_eq_false_iff, decide_eq_false_iff_not, Int.not_lt] at h
  refine ⟨fun hf => ?_, fun hf => ?_, fun hf => ?_⟩
  · rcases h.1.1 with h | h
    · rw [hf] at h; cases h
    · exact h
  · rcases h.1.2 with h | h
    · rw [hf] at h; cases h
    · exact h
  · rcases h.2 with h | h
    · rw [hf] at h; cases h
    · exact h

theorem since_true {f : Flag} {e : Int} {v : Entry K Sp St Me} (hf : f.isNone = false)
    (h1 : e < v.specE) (h2 : e < v.statusE) (h3 : e < v.itemE) : v.since f e = true := by
  unfold Entry.since
  unfold Flag.isNone at hf
  simp only [Bool.and_eq_false_iff, Bool.not_eq_false'] at hf
  simp only [Bool.or_eq_true, Bool.and_eq_true, decide_eq_true_eq]
  rcases hf with (hf | hf) | hf
  · exact Or.inl (Or.inl ⟨hf, h1⟩)
  · exact Or.inl (Or.inr ⟨hf, h2⟩)
  · exact Or.inr ⟨hf, h3⟩

theorem since_deleted {f : Flag} {e : Int} {t : Store K Sp St Me} (h : WF t) {d : Entry K Sp St Me}
    (hd : d ∈ t.deleted) (hs : d.since f e = true) : e < d.specE := by
  unfold Entry.since at hs
  obtain ⟨h1, h2, _⟩ := h.del d hd
  rw [h1, h2] at hs
  simp only [Bool.or_eq_true, Bool.and_eq_true, decide_eq_true_eq] at hs
  rcases hs with (hs | hs) | hs <;> exact hs.2

/-- One key, when the changes are incremental: what the messages about it say. -/
theorem delta_at {s t : Store K Sp St Me} (hw : WF t) (h : Since s t) {f : Flag}
    (hf : f.isNone = false) {e : Int} (he : e ≤ s.epoch) (hfe : t.fence ≤ e) (k : K) :
    match t.find k with
    | none =>
      (∀ v ∈ t.values, v.obj.key ≠ k) ∧
      (s.find k = none ∨ ∃ d ∈ t.deleted, d.since f e = true ∧ d.obj.key = k)
    | some v =>
      v.since f e = true ∨
      ((∀ d ∈ t.deleted, d.since f e = true → d.obj.key ≠ k) ∧
        SameIn f (s.content k) (some v.obj)) := by
  split
  · rename_i hn
    refine ⟨find_none.1 hn, ?_⟩
    rcases hsk : s.find k with _ | w
    · exact Or.inl rfl
    · right
      rcases h.gone (by omega) k w hsk with ⟨v, hv⟩ | ⟨d, hd, hk, hlt⟩
      · rw [hn] at hv; cases hv
      · obtain ⟨h1, h2, _⟩ := hw.del d hd
        exact ⟨d, hd, since_true hf (by omega) (by omega) (by omega), hk⟩
  · rename_i v hv
    obtain ⟨hv1, hv2⟩ := find_some hv
    rcases hsv : v.since f e with _ | _
    · right
      obtain ⟨g1, g2, g3⟩ := since_false hsv
      constructor
      · intro d hd hds hk
        have hlt := since_deleted hw hd hds
        obtain ⟨a1, a2, a3⟩ := hw.again d hd v hv1 (hv2.trans hk.symm)
        have := since_true (f := f) (e := e) (v := v) hf (by omega) (by omega) (by omega)
        rw [hsv] at this; cases this
      · obtain ⟨o1, o2, o3⟩ := h.old (by omega) v hv1
        rw [hv2] at o1 o2 o3
        have hsome : ∃ w, s.find k = some w := by
          unfold Flag.isNone at hf
          simp only [Bool.and_eq_false_iff, Bool.not_eq_false'] at hf
          rcases hf with (hf | hf) | hf
          · obtain ⟨w, hw, _⟩ := o1 (by have := g1 hf; omega); exact ⟨w, hw⟩
          · obtain ⟨w, hw, _⟩ := o2 (by have := g2 hf; omega); exact ⟨w, hw⟩
          · obtain ⟨w, hw, _⟩ := o3 (by have := g3 hf; omega); exact ⟨w, hw⟩
        obtain ⟨w, hsw⟩ := hsome
        have hc : s.content k = some w.obj := by unfold Store.content; rw [hsw]; rfl
        rw [hc]
        refine ⟨(find_some hsw).2.trans hv2.symm, fun hf => ?_, fun hf => ?_, fun hf => ?_⟩
        · obtain ⟨w', hw', hx⟩ := o1 (by have := g1 hf; omega)
          rw [hsw] at hw'; cases hw'; exact hx
        · obtain ⟨w', hw', hx⟩ := o2 (by have := g2 hf; omega)
          rw [hsw] at hw'; cases hw'; exact hx
        · obtain ⟨w', hw', hx⟩ := o3 (by have := g3 hf; omega)
          rw [hsw] at hw'; cases hw'; exact hx
    · exact Or.inl rfl

/-- With the same epoch nothing has changed. -/
theorem same_epoch {s t : Store K Sp St Me} (hw : WF t) (h : Since s t) (he : t.epoch ≤ s.epoch) :
    s.content = t.content := by
  apply agree_full
  intro k
  have hfe := hw.fence.2
  have := delta_at hw h (f := Flag.full) rfl (Int.le_refl _) (by omega) k
  unfold Store.content
  split at this
  · rename_i hn
    rw [hn]
    rcases this.2 with h1 | ⟨d, hd, hs, _⟩
    · rw [h1]; trivial
    · have h1 := since_deleted hw hd hs
      have h2 := hw.del d hd
      omega
  · rename_i v hv
    rw [hv]
    rcases this with hs | ⟨_, hs⟩
    · have h2 := hw.le v (find_some hv).1
      unfold Entry.since at hs
      simp only [Bool.or_eq_true, Bool.and_eq_true, decide_eq_true_eq] at hs
      omega
    · exact hs

/-- The updates as messages. -/
def puts (l : List (Obj K Sp St Me)) : List (Upd K (Obj K Sp St Me)) := l.map fun o => .put o.key o

/-- The deletions as messages. -/
def dels (l : List (Obj K Sp St Me)) : List (Upd K (Obj K Sp St Me)) := l.map fun o => .del o.key

/-- A subscriber that gets everything. -/
theorem all_ok {t : Store K Sp St Me} (hw : WF t) {l : List (Obj K Sp St Me)}
    (hl : l.Perm (t.values.map Entry.obj)) : View.empty.acts (puts l) = t.content := by
  funext k
  unfold Store.content
  rcases hk : t.find k with _ | v
  · show View.empty.acts (puts l) k = none
    rw [acts_untouched]
    · rfl
    · intro m hm
      rcases List.mem_map.1 hm with ⟨o, ho, rfl⟩
      rcases List.mem_map.1 (hl.mem_iff.1 ho) with ⟨v, hv, rfl⟩
      exact find_none.1 hk v hv
  · show View.empty.acts (puts l) k = some v.obj
    have ⟨hv1, hv2⟩ := find_some hk
    apply acts_const
    · intro m hm he
      rcases List.mem_map.1 hm with ⟨o, ho, rfl⟩
      rcases List.mem_map.1 (hl.mem_iff.1 ho) with ⟨x, hx, rfl⟩
      have := hw.find hx
      have he' : x.obj.key = k := he
      rw [he', hk] at this
      cases this
      rfl
    · right
      exact ⟨.put v.obj.key v.obj, List.mem_map.2 ⟨v.obj, hl.mem_iff.2 (List.mem_map_of_mem hv1), rfl⟩, hv2⟩

end Verif.Meta
