import Verif.Producer.PoolInv

/-!
# Invariant of `flush`
-/

namespace Verif.Producer
open Verif.Wire

theorem AllDone.mono {s t : Part} (h : s.AllDone) (ho : t.out = s.out) {o : List (Nat × Outcome)}
    (hd : t.done = s.done ++ o) : t.AllDone := by
  intro x hx
  rw [ho] at hx
  rw [hd, List.map_append]
  exact List.mem_append_left _ (h x hx)

theorem noFlush_iff {s : Pool} : s.noFlush = true ↔ ¬ ∃ f ∈ s.calls, f.active = true := by
  unfold Pool.noFlush
  rw [List.all_eq_true]
  constructor
  · intro h ⟨f, hf, ha⟩
    have := h f hf
    rw [ha] at this; cases this
  · intro h f hf
    cases ha : f.active with
    | false => rfl
    | true => exact absurd ⟨f, hf, ha⟩ h

theorem noPush_all {s : Pool} (h : s.noPush = true) (ho : ∀ p, p ∉ s.ids → (s.part p).pushing = none) :
    ∀ p, (s.part p).pushing = none := by
  intro p
  by_cases hp : p ∈ s.ids
  · have := List.all_eq_true.1 h p hp
    exact Option.isNone_iff_eq_none.1 this
  · exact ho p hp

/-- Replacing one call by another. -/
theorem mem_set_cases {l : List Flusher} {i : Nat} {f g : Flusher} (h : g ∈ l.set i f) : g ∈ l ∨ g = f := by
  rcases List.mem_or_eq_of_mem_set h with h | h
  · exact .inl h
  · exact .inr h

theorem count_set {l : List Flusher} {i : Nat} {f g : Flusher} {w : Flusher → Bool} (hi : l[i]? = some g) :
    (l.set i f).countP w + (if w g then 1 else 0) = l.countP w + (if w f then 1 else 0) := by
  obtain ⟨hlt, hg⟩ := List.getElem?_eq_some_iff.1 hi
  rw [List.countP_set hlt, hg]
  by_cases hw : w g = true
  · have : 0 < l.countP w := List.countP_pos_iff.2 ⟨g, List.mem_of_getElem? hi, hw⟩
    simp only [hw, if_true]
    omega
  · simp only [hw, Bool.false_eq_true, if_false]
    omega

/-- Replacing a partition by one that differs only in counters of flush events keeps what concerns the
queue. -/
theorem pushStart_same {c : AccCfg} {s v : Part} {r : Record} {now now' : Int}
    (h : s.pushStart c r now now' = some v) :
    v.flushReq = s.flushReq ∧ v.phase = s.phase ∧ v.flushed = s.flushed ∧ v.acc = s.acc ∧ v.done = s.done ∧
    v.error = s.error := by
  unfold Part.pushStart at h
  split at h
  · injection h with h; subst h; exact ⟨rfl, rfl, rfl, rfl, rfl, rfl⟩
  · split at h
    · cases h
    · injection h with h; subst h; exact ⟨rfl, rfl, rfl, rfl, rfl, rfl⟩

theorem pushEnd_same {s v : Part} (h : s.pushEnd = some v) :
    v.flushReq = s.flushReq ∧ v.phase = s.phase ∧ v.flushed = s.flushed ∧ v.pushing = none ∧
    s.pushing ≠ none ∧ v.done = s.done ∧ v.error = s.error := by
  unfold Part.pushEnd at h
  split at h
  · cases h
  · rename_i a r x e
    injection h with h; subst h
    exact ⟨rfl, rfl, rfl, rfl, by rw [e]; nofun, rfl, rfl⟩

theorem FlushOk.step {c : PoolCfg} {s s' : Pool} {e : PoolEv} (hok : ∀ p, PartOk c.acc (s.part p))
    (h : FlushOk s) (hg : ∀ i, e ≠ .flushCancel i) (hs : s.step c e = some s') : FlushOk s' := by
  cases e with
  | push p r now now' =>
    simp only [Pool.step] at hs
    split at hs
    case isFalse => cases hs
    case isTrue hc =>
      simp only [Bool.and_eq_true, decide_eq_true_eq] at hc
      have hnf := noFlush_iff.1 hc.1.1.2
      obtain ⟨v, hv, hs⟩ := Option.map_eq_some_iff.1 hs
      subst hs
      obtain ⟨e1, e2, e3, e4, e5, _⟩ := pushStart_same hv
      obtain ⟨q1, q2, q3⟩ := h.quiet hnf p
      refine ⟨?_, ?_, ?_, fun ha => absurd ha hnf, ?_, fun f hf ha => absurd ⟨f, hf, ha⟩ hnf⟩
      · intro q
        have := h.tokens q
        by_cases hq : q = p
        · subst hq
          show _ = (setPart s.part q v q).flushReq + (if (setPart s.part q v q).phase.isManual then 1 else 0) +
            (setPart s.part q v q).flushed
          rw [setPart_same, e1, e2, e3]; exact this
        · show _ = (setPart s.part p v q).flushReq + (if (setPart s.part p v q).phase.isManual then 1 else 0) +
            (setPart s.part p v q).flushed
          rw [setPart_other _ _ hq]; exact this
      · intro q hf
        have hf : 0 < (setPart s.part p v q).flushed := hf
        by_cases hq : q = p
        · subst hq
          rw [setPart_same, e3, q3] at hf; omega
        · show (setPart s.part p v q).acc.queue = [] ∧ (setPart s.part p v q).inflight = []
          rw [setPart_other _ _ hq] at hf ⊢
          exact h.empty q hf
      · intro q bs hp
        have hp : (setPart s.part p v q).phase = _ := hp
        show (setPart s.part p v q).acc.queue = []
        by_cases hq : q = p
        · subst hq
          rw [setPart_same, e2] at hp
          rw [hp] at q2; cases q2
        · rw [setPart_other _ _ hq] at hp ⊢
          exact h.drained q bs hp
      · intro q hq
        have hq : q ∉ (if p ∈ s.ids then s.ids else s.ids ++ [p]) := hq
        have hqi : q ∉ s.ids := by
          intro hm
          apply hq
          split
          · exact hm
          · exact List.mem_append_left _ hm
        have hqp : q ≠ p := by
          intro e; subst e
          apply hq
          rw [if_neg hqi]; simp
        show (setPart s.part p v q).pushing = none ∧ (setPart s.part p v q).out = []
        rw [setPart_other _ _ hqp]
        exact h.outside q hqi
  | pushEnd p =>
    simp only [Pool.step] at hs
    obtain ⟨v, hv, hs⟩ := Option.map_eq_some_iff.1 hs
    subst hs
    obtain ⟨e1, e2, e3, e4, e5, _⟩ := pushEnd_same hv
    have hnf : ¬ ∃ f ∈ s.calls, f.active = true := fun ha => e5 (h.lock ha p)
    obtain ⟨q1, q2, q3⟩ := h.quiet hnf p
    refine ⟨?_, ?_, ?_, fun ha => absurd ha hnf, ?_, fun f hf ha => absurd ⟨f, hf, ha⟩ hnf⟩
    · intro q
      have := h.tokens q
      show _ = (setPart s.part p v q).flushReq + (if (setPart s.part p v q).phase.isManual then 1 else 0) +
            (setPart s.part p v q).flushed
      by_cases hq : q = p
      · subst hq
        rw [setPart_same, e1, e2, e3]; exact this
      · rw [setPart_other _ _ hq]; exact this
    · intro q hf
      have hf : 0 < (setPart s.part p v q).flushed := hf
      by_cases hq : q = p
      · subst hq
        rw [setPart_same, e3, q3] at hf; omega
      · show (setPart s.part p v q).acc.queue = [] ∧ (setPart s.part p v q).inflight = []
        rw [setPart_other _ _ hq] at hf ⊢
        exact h.empty q hf
    · intro q bs hp
      have hp : (setPart s.part p v q).phase = _ := hp
      show (setPart s.part p v q).acc.queue = []
      by_cases hq : q = p
      · subst hq
        rw [setPart_same, e2] at hp
        rw [hp] at q2; cases q2
      · rw [setPart_other _ _ hq] at hp ⊢
        exact h.drained q bs hp
    · intro q hq
      have hqp : q ≠ p := fun e => e5 (by rw [← e]; exact (h.outside q hq).1)
      show (setPart s.part p v q).pushing = none ∧ (setPart s.part p v q).out = []
      rw [setPart_other _ _ hqp]
      exact h.outside q hq
  | task p e =>
    simp only [Pool.step] at hs
    split at hs
    case isFalse => cases hs
    case isTrue hp =>
      obtain ⟨v, hv, hs⟩ := Option.map_eq_some_iff.1 hs
      subst hs
      obtain ⟨o1, o2⟩ := task_out hv
      obtain ⟨o, o3⟩ := task_done hv
      refine ⟨?_, ?_, ?_, ?_, ?_, ?_⟩
      · intro q
        have := h.tokens q
        show _ = (setPart s.part p v q).flushReq + (if (setPart s.part p v q).phase.isManual then 1 else 0) +
            (setPart s.part p v q).flushed
        by_cases hq : q = p
        · subst hq
          rw [setPart_same, task_tokens hv]; exact this
        · rw [setPart_other _ _ hq]; exact this
      · intro q hf
        have hf : 0 < (setPart s.part p v q).flushed := hf
        show (setPart s.part p v q).acc.queue = [] ∧ (setPart s.part p v q).inflight = []
        by_cases hq : q = p
        · subst hq
          rw [setPart_same] at hf ⊢
          rcases task_flushed hv with hh | ⟨⟨bs, h1⟩, h2, h3⟩
          · obtain ⟨h4, h5⟩ := h.empty q (by omega)
            exact task_empty hv h4 h5
          · exact ⟨by rw [h2]; exact h.drained q bs h1, h3⟩
        · rw [setPart_other _ _ hq] at hf ⊢
          exact h.empty q hf
      · intro q bs hph
        have hph : (setPart s.part p v q).phase = _ := hph
        show (setPart s.part p v q).acc.queue = []
        by_cases hq : q = p
        · subst hq
          rw [setPart_same] at hph ⊢
          exact task_drained hv hph
        · rw [setPart_other _ _ hq] at hph ⊢
          exact h.drained q bs hph
      · intro ha q
        show (setPart s.part p v q).pushing = none
        by_cases hq : q = p
        · subst hq
          rw [setPart_same, o2]; exact h.lock ha q
        · rw [setPart_other _ _ hq]; exact h.lock ha q
      · intro q hq
        have hqp : q ≠ p := fun e => hq (by rw [e]; exact hp)
        show (setPart s.part p v q).pushing = none ∧ (setPart s.part p v q).out = []
        rw [setPart_other _ _ hqp]
        exact h.outside q hq
      · intro f hf ha q hq hr
        have := h.seen f hf ha q hq hr
        show (setPart s.part p v q).AllDone
        by_cases hqp : q = p
        · subst hqp
          rw [setPart_same]
          exact AllDone.mono this o1 o3
        · rw [setPart_other _ _ hqp]; exact this
  | flushStart fs es =>
    simp only [Pool.step] at hs
    split at hs
    case isFalse => cases hs
    case isTrue hc =>
      simp only [Bool.and_eq_true] at hc
      obtain ⟨⟨hnp, hfs⟩, hes⟩ := hc
      injection hs with hs; subst hs
      have hfs := List.isPerm_iff.1 hfs
      have hes := List.isPerm_iff.1 hes
      refine ⟨?_, h.empty, h.drained, ?_, h.outside, ?_⟩
      · intro p
        show (s.calls ++ _).countP _ = _
        have hz : [if fs.isEmpty = true then Flusher.returned true else Flusher.next (fs.zip es)].countP
            (Flusher.waitsFor p) = 0 := by cases fs <;> rfl
        rw [List.countP_append, h.tokens p, hz, Nat.add_zero]
      · intro _
        exact noPush_all hnp fun p hp => (h.outside p hp).1
      · intro f hf ha p hp hr
        rcases List.mem_append.1 hf with hf | hf
        · exact h.seen f hf ha p hp hr
        · exfalso
          rw [List.mem_singleton] at hf
          subst hf
          split at ha
          · cases ha
          · rename_i hne
            rw [if_neg hne] at hr
            apply hr
            show p ∈ (fs.zip es).map Prod.fst
            rw [List.map_fst_zip (by rw [hfs.length_eq, hes.length_eq]; exact Nat.le_refl _)]
            exact hfs.mem_iff.2 hp
  | flushNotify i =>
    simp only [Pool.step] at hs
    split at hs
    case h_2 => cases hs
    case h_1 p q l hi =>
      injection hs with hs; subst hs
      have hmem := List.mem_of_getElem? hi
      have key : ∀ x, (setPart s.part p { s.part p with flushReq := (s.part p).flushReq + 1 } x).acc = (s.part x).acc ∧
          (setPart s.part p { s.part p with flushReq := (s.part p).flushReq + 1 } x).phase = (s.part x).phase ∧
          (setPart s.part p { s.part p with flushReq := (s.part p).flushReq + 1 } x).flushed = (s.part x).flushed ∧
          (setPart s.part p { s.part p with flushReq := (s.part p).flushReq + 1 } x).pushing = (s.part x).pushing ∧
          (setPart s.part p { s.part p with flushReq := (s.part p).flushReq + 1 } x).out = (s.part x).out ∧
          (setPart s.part p { s.part p with flushReq := (s.part p).flushReq + 1 } x).done = (s.part x).done := by
        intro x
        by_cases hx : x = p
        · subst hx; rw [setPart_same]; exact ⟨rfl, rfl, rfl, rfl, rfl, rfl⟩
        · rw [setPart_other _ _ hx]; exact ⟨rfl, rfl, rfl, rfl, rfl, rfl⟩
      refine ⟨?_, ?_, ?_, ?_, ?_, ?_⟩
      · intro x
        have ht := h.tokens x
        have hc := count_set (f := .waiting ((p, q) :: l)) (w := Flusher.waitsFor x) hi
        show (s.calls.set i _).countP _ = (setPart s.part p _ x).flushReq +
          (if (setPart s.part p _ x).phase.isManual then 1 else 0) + (setPart s.part p _ x).flushed
        rw [(key x).2.1, (key x).2.2.1]
        have w1 : (Flusher.next ((p, q) :: l)).waitsFor x = false := rfl
        have w2 : (Flusher.waiting ((p, q) :: l)).waitsFor x = decide (p = x) := rfl
        rw [w1, w2] at hc
        by_cases hx : x = p
        · subst hx
          rw [setPart_same]
          simp only [decide_true, if_true, Bool.false_eq_true, if_false] at hc
          show _ = (s.part x).flushReq + 1 + _ + _
          omega
        · rw [setPart_other _ _ hx]
          have : decide (p = x) = false := decide_eq_false fun e => hx e.symm
          rw [this] at hc
          simp only [Bool.false_eq_true, if_false] at hc
          omega
      · intro x hf
        show (setPart s.part p _ x).acc.queue = [] ∧ Part.inflight (setPart s.part p _ x) = []
        have hf : 0 < (setPart s.part p _ x).flushed := hf
        unfold Part.inflight
        rw [(key x).1, (key x).2.1]
        rw [(key x).2.2.1] at hf
        exact h.empty x hf
      · intro x bs hp
        have hp : (setPart s.part p _ x).phase = _ := hp
        show (setPart s.part p _ x).acc.queue = []
        rw [(key x).2.1] at hp
        rw [(key x).1]
        exact h.drained x bs hp
      · intro _ x
        show (setPart s.part p _ x).pushing = none
        rw [(key x).2.2.2.1]
        exact h.lock ⟨_, hmem, rfl⟩ x
      · intro x hx
        show (setPart s.part p _ x).pushing = none ∧ (setPart s.part p _ x).out = []
        rw [(key x).2.2.2.1, (key x).2.2.2.2.1]
        exact h.outside x hx
      · intro f hf ha x hx hr
        show Part.AllDone (setPart s.part p _ x)
        unfold Part.AllDone
        rw [(key x).2.2.2.2.1, (key x).2.2.2.2.2]
        rcases mem_set_cases hf with hf | hf
        · exact h.seen f hf ha x hx hr
        · subst hf
          exact h.seen _ hmem rfl x hx hr
  | flushTake i =>
    simp only [Pool.step] at hs
    split at hs
    case h_2 => cases hs
    case h_1 p q l hi =>
      split at hs
      case isFalse => cases hs
      case isTrue hfl =>
      injection hs with hs; subst hs
      have hmem := List.mem_of_getElem? hi
      have key : ∀ x, (setPart s.part p { s.part p with flushed := (s.part p).flushed - 1 } x).acc = (s.part x).acc ∧
          (setPart s.part p { s.part p with flushed := (s.part p).flushed - 1 } x).phase = (s.part x).phase ∧
          (setPart s.part p { s.part p with flushed := (s.part p).flushed - 1 } x).flushReq = (s.part x).flushReq ∧
          (setPart s.part p { s.part p with flushed := (s.part p).flushed - 1 } x).pushing = (s.part x).pushing ∧
          (setPart s.part p { s.part p with flushed := (s.part p).flushed - 1 } x).out = (s.part x).out ∧
          (setPart s.part p { s.part p with flushed := (s.part p).flushed - 1 } x).done = (s.part x).done ∧
          (setPart s.part p { s.part p with flushed := (s.part p).flushed - 1 } x).flushed ≤ (s.part x).flushed := by
        intro x
        by_cases hx : x = p
        · subst hx; rw [setPart_same]
          exact ⟨rfl, rfl, rfl, rfl, rfl, rfl, Nat.sub_le _ _⟩
        · rw [setPart_other _ _ hx]; exact ⟨rfl, rfl, rfl, rfl, rfl, rfl, Nat.le_refl _⟩
      refine ⟨?_, ?_, ?_, ?_, ?_, ?_⟩
      · intro x
        have ht := h.tokens x
        have hc := count_set (f := .taken ((p, q) :: l)) (w := Flusher.waitsFor x) hi
        show (s.calls.set i _).countP _ = (setPart s.part p _ x).flushReq +
          (if (setPart s.part p _ x).phase.isManual then 1 else 0) + (setPart s.part p _ x).flushed
        rw [(key x).2.1, (key x).2.2.1]
        have w1 : (Flusher.taken ((p, q) :: l)).waitsFor x = false := rfl
        have w2 : (Flusher.waiting ((p, q) :: l)).waitsFor x = decide (p = x) := rfl
        rw [w1, w2] at hc
        by_cases hx : x = p
        · subst hx
          rw [setPart_same]
          simp only [decide_true, if_true, Bool.false_eq_true, if_false] at hc
          show _ = _ + _ + ((s.part x).flushed - 1)
          omega
        · rw [setPart_other _ _ hx]
          have : decide (p = x) = false := decide_eq_false fun e => hx e.symm
          rw [this] at hc
          simp only [Bool.false_eq_true, if_false] at hc
          omega
      · intro x hf
        show (setPart s.part p _ x).acc.queue = [] ∧ Part.inflight (setPart s.part p _ x) = []
        have hf : 0 < (setPart s.part p _ x).flushed := hf
        unfold Part.inflight
        rw [(key x).1, (key x).2.1]
        exact h.empty x (Nat.lt_of_lt_of_le hf (key x).2.2.2.2.2.2)
      · intro x bs hp
        have hp : (setPart s.part p _ x).phase = _ := hp
        show (setPart s.part p _ x).acc.queue = []
        rw [(key x).2.1] at hp
        rw [(key x).1]
        exact h.drained x bs hp
      · intro _ x
        show (setPart s.part p _ x).pushing = none
        rw [(key x).2.2.2.1]
        exact h.lock ⟨_, hmem, rfl⟩ x
      · intro x hx
        show (setPart s.part p _ x).pushing = none ∧ (setPart s.part p _ x).out = []
        rw [(key x).2.2.2.1, (key x).2.2.2.2.1]
        exact h.outside x hx
      · intro f hf ha x hx hr
        show Part.AllDone (setPart s.part p _ x)
        unfold Part.AllDone
        rw [(key x).2.2.2.2.1, (key x).2.2.2.2.2.1]
        rcases mem_set_cases hf with hf | hf
        · exact h.seen f hf ha x hx hr
        · subst hf
          by_cases hxp : x = p
          · subst hxp
            obtain ⟨h1, h2⟩ := h.empty x hfl
            exact accepted_done (hok x) h1 h2
          · refine h.seen _ hmem rfl x hx ?_
            intro hm
            have hm : x ∈ (p :: l.map Prod.fst) := hm
            rcases List.mem_cons.1 hm with e | hm
            · exact hxp e
            · exact hr hm
  | flushCheck i =>
    simp only [Pool.step] at hs
    split at hs
    case h_2 => cases hs
    case h_1 p q l hi =>
      injection hs with hs; subst hs
      have hmem := List.mem_of_getElem? hi
      have hw : ∀ x (b : Bool), (if b then Flusher.returned false else if l.isEmpty then .returned true
          else .next l).waitsFor x = false := by
        intro x b
        split
        · rfl
        · split <;> rfl
      refine ⟨?_, h.empty, h.drained, ?_, h.outside, ?_⟩
      · intro x
        have hc := count_set (f := if (s.part q).error then Flusher.returned false else
          if l.isEmpty then .returned true else .next l) (w := Flusher.waitsFor x) hi
        rw [hw] at hc
        have w1 : (Flusher.taken ((p, q) :: l)).waitsFor x = false := rfl
        rw [w1] at hc
        simp only [Bool.false_eq_true, if_false] at hc
        show (s.calls.set i _).countP _ = _
        rw [← h.tokens x]
        omega
      · intro _ x
        exact h.lock ⟨_, hmem, rfl⟩ x
      · intro f hf ha x hx hr
        rcases mem_set_cases hf with hf | hf
        · exact h.seen f hf ha x hx hr
        · subst hf
          refine h.seen _ hmem rfl x hx ?_
          split at ha
          · cases ha
          · rename_i h1
            split at ha
            · cases ha
            · rename_i h2
              rw [if_neg h1, if_neg h2] at hr
              exact hr
  | flushCancel i => exact absurd rfl (hg i)
  | clearErrors =>
    simp only [Pool.step] at hs
    split at hs
    · injection hs with hs; subst hs
      exact ⟨h.tokens, h.empty, h.drained, h.lock, h.outside, h.seen⟩
    · cases hs
  | tick d =>
    simp only [Pool.step] at hs
    injection hs with hs; subst hs
    exact ⟨h.tokens, h.empty, h.drained, h.lock, h.outside, h.seen⟩
  | adjust d =>
    simp only [Pool.step] at hs
    injection hs with hs; subst hs
    exact ⟨h.tokens, h.empty, h.drained, h.lock, h.outside, h.seen⟩

/-! ## Requests that failed -/

/-- Nothing that the stronger statement excludes: no call is dropped, errors are not cleared, every
batch of an answered request has a response, and the two maps are visited in the same order. -/
def Plain : PoolEv → Prop
  | .flushCancel _ => False
  | .clearErrors => False
  | .task _ (.answered n) => n = 0
  | .flushStart fs es => fs = es
  | _ => True

def Part.AllTold (s : Part) : Prop := ∀ x ∈ accepted s.out, (x.2.1, Outcome.told) ∈ s.done

def Part.Clean (s : Part) : Prop := s.error = false → ∀ x ∈ s.done, x.2 = Outcome.told

theorem AllTold.mono {s t : Part} (h : s.AllTold) (ho : t.out = s.out) {o : List (Nat × Outcome)}
    (hd : t.done = s.done ++ o) : t.AllTold := by
  intro x hx
  rw [ho] at hx
  rw [hd]
  exact List.mem_append_left _ (h x hx)

theorem AllDone.told {s : Part} (h : s.AllDone) (hc : s.Clean) (he : s.error = false) : s.AllTold := by
  intro x hx
  obtain ⟨y, hy, e⟩ := List.mem_map.1 (h x hx)
  have := hc he y hy
  obtain ⟨y1, y2⟩ := y
  have e : y1 = x.2.1 := e
  have this : y2 = .told := this
  subst e this
  exact hy

theorem outcomes_told {bs : List PBatch} : ∀ x ∈ outcomes bs 0, x.2 = Outcome.told := by
  intro x hx
  unfold outcomes at hx
  obtain ⟨y, hy, rfl⟩ := List.mem_map.1 hx
  have := List.snd_lt_of_mem_zipIdx hy
  show (if y.2 < bs.length - 0 then Outcome.told else .lost) = .told
  rw [if_pos (by omega)]

theorem Clean.task {L : Nat} {k : Clock} {s s' : Part} {e : TaskEv} (h : s.Clean)
    (hg : ∀ n, e = .answered n → n = 0) (hs : s.task L k e = some s') : s'.Clean := by
  cases e <;> simp only [Part.task] at hs
  case onTimer =>
    split at hs
    · cases hs
    · split at hs
      · injection hs with hs; subst hs; exact h
      · cases hs
  case answered n =>
    have := hg n rfl
    subst this
    split at hs
    · injection hs with hs; subst hs
      rename_i w bs _
      intro he x hx
      rw [(flushEnd_same _ _).2.2.2.2.2.2.2.2] at he
      rw [(flushEnd_same _ _).2.2.2.1] at hx
      rcases List.mem_append.1 hx with hx | hx
      · exact h he x hx
      · exact outcomes_told x hx
    · cases hs
  case failed =>
    split at hs
    · injection hs with hs; subst hs
      intro he
      rw [(flushEnd_same _ _).2.2.2.2.2.2.2.2] at he
      cases he
    · cases hs
  all_goals
    split at hs
    · injection hs with hs; subst hs; exact h
    · cases hs

structure ToldOk (s : Pool) : Prop where
  clean : ∀ p, (s.part p).Clean
  same : ∀ f ∈ s.calls, ∀ x ∈ f.unchecked, x.1 = x.2
  told : ∀ f ∈ s.calls, f.active = true → ∀ p ∈ s.ids, p ∉ f.unchecked.map Prod.fst → (s.part p).AllTold

theorem ToldOk.init : ToldOk Pool.init :=
  ⟨fun p _ x hx => (by cases hx), fun f hf => (by cases hf), fun f hf => (by cases hf)⟩

theorem zip_self_eq {fs : List Nat} : ∀ x ∈ fs.zip fs, x.1 = x.2 := by
  induction fs with
  | nil => intro x hx; cases hx
  | cons a fs ih =>
    intro x hx
    rcases List.mem_cons.1 hx with rfl | hx
    · rfl
    · exact ih x hx

theorem ToldOk.step {c : PoolCfg} {s s' : Pool} {e : PoolEv} (hf : FlushOk s) (h : ToldOk s) (hg : Plain e)
    (hs : s.step c e = some s') : ToldOk s' := by
  cases e with
  | push p r now now' =>
    simp only [Pool.step] at hs
    split at hs
    case isFalse => cases hs
    case isTrue hc =>
      simp only [Bool.and_eq_true, decide_eq_true_eq] at hc
      have hnf := noFlush_iff.1 hc.1.1.2
      obtain ⟨v, hv, hs⟩ := Option.map_eq_some_iff.1 hs
      subst hs
      obtain ⟨e1, e2, e3, e4, e5, e6⟩ := pushStart_same hv
      refine ⟨?_, h.same, fun f hm ha => absurd ⟨f, hm, ha⟩ hnf⟩
      intro q
      show (setPart s.part p v q).Clean
      by_cases hq : q = p
      · subst hq
        rw [setPart_same]
        unfold Part.Clean
        rw [e5, e6]
        exact h.clean q
      · rw [setPart_other _ _ hq]; exact h.clean q
  | pushEnd p =>
    simp only [Pool.step] at hs
    obtain ⟨v, hv, hs⟩ := Option.map_eq_some_iff.1 hs
    subst hs
    obtain ⟨e1, e2, e3, e4, e5, e6, e7⟩ := pushEnd_same hv
    have hnf : ¬ ∃ f ∈ s.calls, f.active = true := fun ha => e5 (hf.lock ha p)
    refine ⟨?_, h.same, fun f hm ha => absurd ⟨f, hm, ha⟩ hnf⟩
    intro q
    show (setPart s.part p v q).Clean
    by_cases hq : q = p
    · subst hq
      rw [setPart_same]
      unfold Part.Clean
      rw [e6, e7]
      exact h.clean q
    · rw [setPart_other _ _ hq]; exact h.clean q
  | task p e =>
    simp only [Pool.step] at hs
    split at hs
    case isFalse => cases hs
    case isTrue hp =>
      obtain ⟨v, hv, hs⟩ := Option.map_eq_some_iff.1 hs
      subst hs
      obtain ⟨o1, o2⟩ := task_out hv
      obtain ⟨o, o3⟩ := task_done hv
      refine ⟨?_, h.same, ?_⟩
      · intro q
        show (setPart s.part p v q).Clean
        by_cases hq : q = p
        · subst hq
          rw [setPart_same]
          refine Clean.task (h.clean q) ?_ hv
          intro n e; subst e; exact hg
        · rw [setPart_other _ _ hq]; exact h.clean q
      · intro f hm ha q hq hr
        have := h.told f hm ha q hq hr
        show (setPart s.part p v q).AllTold
        by_cases hqp : q = p
        · subst hqp
          rw [setPart_same]
          exact AllTold.mono this o1 o3
        · rw [setPart_other _ _ hqp]; exact this
  | flushStart fs es =>
    have hg : fs = es := hg
    subst hg
    simp only [Pool.step] at hs
    split at hs
    case isFalse => cases hs
    case isTrue hc =>
      simp only [Bool.and_eq_true] at hc
      obtain ⟨⟨hnp, hfs⟩, hes⟩ := hc
      injection hs with hs; subst hs
      have hfs := List.isPerm_iff.1 hfs
      refine ⟨h.clean, ?_, ?_⟩
      · intro f hm x hx
        rcases List.mem_append.1 hm with hm | hm
        · exact h.same f hm x hx
        · rw [List.mem_singleton] at hm
          subst hm
          split at hx
          · cases hx
          · exact zip_self_eq x hx
      · intro f hm ha p hp hr
        rcases List.mem_append.1 hm with hm | hm
        · exact h.told f hm ha p hp hr
        · exfalso
          rw [List.mem_singleton] at hm
          subst hm
          split at ha
          · cases ha
          · rename_i hne
            rw [if_neg hne] at hr
            apply hr
            show p ∈ (fs.zip fs).map Prod.fst
            rw [List.map_fst_zip (Nat.le_refl _)]
            exact hfs.mem_iff.2 hp
  | flushNotify i =>
    simp only [Pool.step] at hs
    split at hs
    case h_2 => cases hs
    case h_1 p q l hi =>
      injection hs with hs; subst hs
      have hmem := List.mem_of_getElem? hi
      have key : ∀ x, (setPart s.part p { s.part p with flushReq := (s.part p).flushReq + 1 } x).out = (s.part x).out ∧
          (setPart s.part p { s.part p with flushReq := (s.part p).flushReq + 1 } x).done = (s.part x).done ∧
          (setPart s.part p { s.part p with flushReq := (s.part p).flushReq + 1 } x).error = (s.part x).error := by
        intro x
        by_cases hx : x = p
        · subst hx; rw [setPart_same]; exact ⟨rfl, rfl, rfl⟩
        · rw [setPart_other _ _ hx]; exact ⟨rfl, rfl, rfl⟩
      refine ⟨?_, ?_, ?_⟩
      · intro x
        show Part.Clean (setPart s.part p _ x)
        unfold Part.Clean
        rw [(key x).2.1, (key x).2.2]
        exact h.clean x
      · intro f hm x hx
        rcases mem_set_cases hm with hm | hm
        · exact h.same f hm x hx
        · subst hm; exact h.same _ hmem x hx
      · intro f hm ha x hx hr
        show Part.AllTold (setPart s.part p _ x)
        unfold Part.AllTold
        rw [(key x).1, (key x).2.1]
        rcases mem_set_cases hm with hm | hm
        · exact h.told f hm ha x hx hr
        · subst hm
          exact h.told _ hmem rfl x hx hr
  | flushTake i =>
    simp only [Pool.step] at hs
    split at hs
    case h_2 => cases hs
    case h_1 p q l hi =>
      split at hs
      case isFalse => cases hs
      case isTrue hfl =>
      injection hs with hs; subst hs
      have hmem := List.mem_of_getElem? hi
      have key : ∀ x, (setPart s.part p { s.part p with flushed := (s.part p).flushed - 1 } x).out = (s.part x).out ∧
          (setPart s.part p { s.part p with flushed := (s.part p).flushed - 1 } x).done = (s.part x).done ∧
          (setPart s.part p { s.part p with flushed := (s.part p).flushed - 1 } x).error = (s.part x).error := by
        intro x
        by_cases hx : x = p
        · subst hx; rw [setPart_same]; exact ⟨rfl, rfl, rfl⟩
        · rw [setPart_other _ _ hx]; exact ⟨rfl, rfl, rfl⟩
      refine ⟨?_, ?_, ?_⟩
      · intro x
        show Part.Clean (setPart s.part p _ x)
        unfold Part.Clean
        rw [(key x).2.1, (key x).2.2]
        exact h.clean x
      · intro f hm x hx
        rcases mem_set_cases hm with hm | hm
        · exact h.same f hm x hx
        · subst hm; exact h.same _ hmem x hx
      · intro f hm ha x hx hr
        show Part.AllTold (setPart s.part p _ x)
        unfold Part.AllTold
        rw [(key x).1, (key x).2.1]
        rcases mem_set_cases hm with hm | hm
        · exact h.told f hm ha x hx hr
        · subst hm
          exact h.told _ hmem rfl x hx hr
  | flushCheck i =>
    simp only [Pool.step] at hs
    split at hs
    case h_2 => cases hs
    case h_1 p q l hi =>
      injection hs with hs; subst hs
      have hmem := List.mem_of_getElem? hi
      refine ⟨h.clean, ?_, ?_⟩
      · intro f hm x hx
        rcases mem_set_cases hm with hm | hm
        · exact h.same f hm x hx
        · subst hm
          split at hx
          · cases hx
          · split at hx
            · cases hx
            · exact h.same _ hmem x (List.mem_cons_of_mem _ hx)
      · intro f hm ha x hx hr
        rcases mem_set_cases hm with hm | hm
        · exact h.told f hm ha x hx hr
        · subst hm
          split at ha
          · cases ha
          · rename_i h1
            split at ha
            · cases ha
            · rename_i h2
              rw [if_neg h1, if_neg h2] at hr
              have hr : x ∉ l.map Prod.fst := hr
              by_cases hxp : x = p
              · subst hxp
                have hpq : x = q := h.same _ hmem (x, q) List.mem_cons_self
                subst hpq
                exact AllDone.told (hf.seen _ hmem rfl x hx hr) (h.clean x) (by simpa using h1)
              · refine h.told _ hmem rfl x hx ?_
                intro hm
                have hm : x ∈ p :: l.map Prod.fst := hm
                rcases List.mem_cons.1 hm with e | hm
                · exact hxp e
                · exact hr hm
  | flushCancel i => exact absurd hg id
  | clearErrors => exact absurd hg id
  | tick d =>
    simp only [Pool.step] at hs
    injection hs with hs; subst hs
    exact ⟨h.clean, h.same, h.told⟩
  | adjust d =>
    simp only [Pool.step] at hs
    injection hs with hs; subst hs
    exact ⟨h.clean, h.same, h.told⟩

/-- No call of `flush` is dropped. -/
def NotDropped : PoolEv → Prop
  | .flushCancel _ => False
  | _ => True

theorem pool_flush {c : PoolCfg} {evs : List PoolEv} {s : Pool} (hg : ∀ e ∈ evs, NotDropped e)
    (h : Pool.init.run c evs = some s) : (∀ p, PartOk c.acc (s.part p)) ∧ FlushOk s := by
  have := Pool.run_ind (c := c) (P := fun s => (∀ p, PartOk c.acc (s.part p)) ∧ FlushOk s) (good := NotDropped)
    (fun s e s' hs hg h => ⟨Pool.part_step (Q := fun _ v => PartOk c.acc v) (good := fun _ => True)
      (fun k s e s' h hs => h.task hs) (fun k s r n n' s' _ h hs => h.pushStart hs)
      (fun k s s' h hs => h.pushEnd hs) (fun k s n h => h.congr rfl rfl rfl rfl rfl)
      (fun k s n h => h.congr rfl rfl rfl rfl rfl) (fun k s h => h.congr rfl rfl rfl rfl rfl)
      (fun k s d h => h) (fun k s d _ h => h) s e s' hs.1 trivial h,
      hs.2.step hs.1 (fun i e => by subst e; exact hg) h⟩)
  exact this evs Pool.init s hg ⟨fun _ => PartOk.init _, FlushOk.init⟩ h

theorem Plain.notDropped {e : PoolEv} (h : Plain e) : NotDropped e := by
  cases e with
  | flushCancel i => exact h
  | _ => trivial

theorem pool_told {c : PoolCfg} {evs : List PoolEv} {s : Pool} (hg : ∀ e ∈ evs, Plain e)
    (h : Pool.init.run c evs = some s) :
    (∀ p, PartOk c.acc (s.part p)) ∧ FlushOk s ∧ ToldOk s := by
  have := Pool.run_ind (c := c) (P := fun s => (∀ p, PartOk c.acc (s.part p)) ∧ FlushOk s ∧ ToldOk s)
    (good := Plain)
    (fun s e s' hs hg h => ⟨Pool.part_step (Q := fun _ v => PartOk c.acc v) (good := fun _ => True)
      (fun k s e s' h hs => h.task hs) (fun k s r n n' s' _ h hs => h.pushStart hs)
      (fun k s s' h hs => h.pushEnd hs) (fun k s n h => h.congr rfl rfl rfl rfl rfl)
      (fun k s n h => h.congr rfl rfl rfl rfl rfl) (fun k s h => h.congr rfl rfl rfl rfl rfl)
      (fun k s d h => h) (fun k s d _ h => h) s e s' hs.1 trivial h,
      hs.2.1.step hs.1 (fun i e => by subst e; exact hg) h, hs.2.2.step hs.2.1 hg h⟩)
  exact this evs Pool.init s hg ⟨fun _ => PartOk.init _, FlushOk.init, ToldOk.init⟩ h

end Verif.Producer
