import Verif.Producer.FlushInv

/-!
# The moment at which a call of `flush` returns
-/

namespace Verif.Producer
open Verif.Wire

theorem pushStart_out {c : AccCfg} {s v : Part} {r : Record} {now now' : Int}
    (h : s.pushStart c r now now' = some v) : v.out = s.out := by
  unfold Part.pushStart at h
  split at h
  · injection h with h; subst h; rfl
  · split at h
    · cases h
    · injection h with h; subst h; rfl

theorem pushEnd_out {s v : Part} (h : s.pushEnd = some v) : ∃ o, v.out = s.out ++ o := by
  unfold Part.pushEnd at h
  split at h
  · cases h
  · injection h with h; subst h; exact ⟨_, rfl⟩

def Grows (s t : Part) : Prop := (∃ o, t.out = s.out ++ o) ∧ (∃ o, t.done = s.done ++ o)

theorem Grows.refl (s : Part) : Grows s s := ⟨⟨[], (List.append_nil _).symm⟩, ⟨[], (List.append_nil _).symm⟩⟩

theorem Grows.set {f : Nat → Part} {p : Nat} {v : Part} (h : Grows (f p) v) : ∀ q, Grows (f q) (setPart f p v q) := by
  intro q
  by_cases e : q = p
  · subst e; rw [setPart_same]; exact h
  · rw [setPart_other _ _ e]; exact Grows.refl _

theorem step_grows {c : PoolCfg} {s s' : Pool} {e : PoolEv} (hs : s.step c e = some s') :
    (∀ p, Grows (s.part p) (s'.part p)) ∧ (∀ p ∈ s.ids, p ∈ s'.ids) := by
  cases e with
  | push p r now now' =>
    simp only [Pool.step] at hs
    split at hs
    case isFalse => cases hs
    case isTrue hc =>
      obtain ⟨v, hv, hs⟩ := Option.map_eq_some_iff.1 hs
      subst hs
      refine ⟨Grows.set ⟨⟨[], by rw [pushStart_out hv, List.append_nil]⟩,
        ⟨[], by rw [(pushStart_same hv).2.2.2.2.1, List.append_nil]⟩⟩, ?_⟩
      intro q hq
      show q ∈ (if p ∈ s.ids then s.ids else s.ids ++ [p])
      split
      · exact hq
      · exact List.mem_append_left _ hq
  | pushEnd p =>
    simp only [Pool.step] at hs
    obtain ⟨v, hv, hs⟩ := Option.map_eq_some_iff.1 hs
    subst hs
    exact ⟨Grows.set ⟨pushEnd_out hv, ⟨[], by rw [(pushEnd_same hv).2.2.2.2.2.1, List.append_nil]⟩⟩,
      fun _ h => h⟩
  | task p e =>
    simp only [Pool.step] at hs
    split at hs
    case isFalse => cases hs
    case isTrue hp =>
      obtain ⟨v, hv, hs⟩ := Option.map_eq_some_iff.1 hs
      subst hs
      exact ⟨Grows.set ⟨⟨[], by rw [(task_out hv).1, List.append_nil]⟩, task_done hv⟩, fun _ h => h⟩
  | flushStart fs es =>
    simp only [Pool.step] at hs
    split at hs
    · injection hs with hs; subst hs; exact ⟨fun _ => Grows.refl _, fun _ h => h⟩
    · cases hs
  | flushNotify i =>
    simp only [Pool.step] at hs
    split at hs
    · injection hs with hs; subst hs
      exact ⟨Grows.set (Grows.refl _), fun _ h => h⟩
    · cases hs
  | flushTake i =>
    simp only [Pool.step] at hs
    split at hs
    · split at hs
      · injection hs with hs; subst hs
        exact ⟨Grows.set (Grows.refl _), fun _ h => h⟩
      · cases hs
    · cases hs
  | flushCheck i =>
    simp only [Pool.step] at hs
    split at hs
    · injection hs with hs; subst hs; exact ⟨fun _ => Grows.refl _, fun _ h => h⟩
    · cases hs
  | flushCancel i =>
    simp only [Pool.step] at hs
    split at hs
    · split at hs
      · injection hs with hs; subst hs; exact ⟨fun _ => Grows.refl _, fun _ h => h⟩
      · cases hs
    · cases hs
  | clearErrors =>
    simp only [Pool.step] at hs
    split at hs
    · injection hs with hs; subst hs; exact ⟨fun _ => Grows.refl _, fun _ h => h⟩
    · cases hs
  | tick d =>
    simp only [Pool.step] at hs
    injection hs with hs; subst hs; exact ⟨fun _ => Grows.refl _, fun _ h => h⟩
  | adjust d =>
    simp only [Pool.step] at hs
    injection hs with hs; subst hs; exact ⟨fun _ => Grows.refl _, fun _ h => h⟩

theorem set_call {l : List Flusher} {i n : Nat} {f g x : Flusher} (hi : l[i]? = some g) (hn : l[n]? = some x) :
    (n = i ∧ x = g ∧ (l.set i f)[n]? = some f) ∨ (l.set i f)[n]? = some x := by
  by_cases e : i = n
  · subst e
    left
    rw [hi] at hn
    injection hn with hn
    obtain ⟨hlt, _⟩ := List.getElem?_eq_some_iff.1 hi
    exact ⟨rfl, hn.symm, List.getElem?_set_self hlt⟩
  · right
    rw [List.getElem?_set_ne e]; exact hn

/-- A call comes to return successfully only by reading the error of its last pair. -/
theorem step_call {c : PoolCfg} {s s' : Pool} {e : PoolEv} (hs : s.step c e = some s') {n : Nat} {x : Flusher}
    (hn : s.calls[n]? = some x) :
    ∃ y, s'.calls[n]? = some y ∧ (y = x ∨ y ≠ .returned true ∨
      ∃ p q, x = .taken [(p, q)] ∧ (s.part q).error = false) := by
  have same : s'.calls = s.calls → ∃ y, s'.calls[n]? = some y ∧ (y = x ∨ y ≠ .returned true ∨
      ∃ p q, x = .taken [(p, q)] ∧ (s.part q).error = false) :=
    fun h => ⟨x, by rw [h]; exact hn, .inl rfl⟩
  cases e with
  | push p r now now' =>
    simp only [Pool.step] at hs
    split at hs
    case isFalse => cases hs
    case isTrue hc =>
      obtain ⟨v, hv, hs⟩ := Option.map_eq_some_iff.1 hs
      subst hs
      exact same rfl
  | pushEnd p =>
    simp only [Pool.step] at hs
    obtain ⟨v, hv, hs⟩ := Option.map_eq_some_iff.1 hs
    subst hs
    exact same rfl
  | task p e =>
    simp only [Pool.step] at hs
    split at hs
    case isFalse => cases hs
    case isTrue hp =>
      obtain ⟨v, hv, hs⟩ := Option.map_eq_some_iff.1 hs
      subst hs
      exact same rfl
  | flushStart fs es =>
    simp only [Pool.step] at hs
    split at hs
    · injection hs with hs; subst hs
      refine ⟨x, ?_, .inl rfl⟩
      show (s.calls ++ _)[n]? = some x
      obtain ⟨hlt, _⟩ := List.getElem?_eq_some_iff.1 hn
      rw [List.getElem?_append_left hlt]; exact hn
    · cases hs
  | flushNotify i =>
    simp only [Pool.step] at hs
    split at hs
    · rename_i p q l hi
      injection hs with hs; subst hs
      rcases set_call (f := .waiting ((p, q) :: l)) hi hn with ⟨_, _, h⟩ | h
      · exact ⟨_, h, .inr (.inl nofun)⟩
      · exact ⟨_, h, .inl rfl⟩
    · cases hs
  | flushTake i =>
    simp only [Pool.step] at hs
    split at hs
    · rename_i p q l hi
      split at hs
      · injection hs with hs; subst hs
        rcases set_call (f := .taken ((p, q) :: l)) hi hn with ⟨_, _, h⟩ | h
        · exact ⟨_, h, .inr (.inl nofun)⟩
        · exact ⟨_, h, .inl rfl⟩
      · cases hs
    · cases hs
  | flushCheck i =>
    simp only [Pool.step] at hs
    split at hs
    · rename_i p q l hi
      injection hs with hs; subst hs
      rcases set_call (f := if (s.part q).error then Flusher.returned false else
          if l.isEmpty then .returned true else .next l) hi hn with ⟨_, hx, h⟩ | h
      · refine ⟨_, h, .inr ?_⟩
        split
        · exact .inl nofun
        · rename_i he
          split
          · rename_i hl
            refine .inr ⟨p, q, ?_, by simpa using he⟩
            rw [hx, List.isEmpty_iff.1 hl]
          · exact .inl nofun
      · exact ⟨_, h, .inl rfl⟩
    · cases hs
  | flushCancel i =>
    simp only [Pool.step] at hs
    split at hs
    · rename_i f hi
      split at hs
      · injection hs with hs; subst hs
        rcases set_call (f := .cancelled) hi hn with ⟨_, _, h⟩ | h
        · exact ⟨_, h, .inr (.inl nofun)⟩
        · exact ⟨_, h, .inl rfl⟩
      · cases hs
    · cases hs
  | clearErrors =>
    simp only [Pool.step] at hs
    split at hs
    · injection hs with hs; subst hs; exact same rfl
    · cases hs
  | tick d =>
    simp only [Pool.step] at hs
    injection hs with hs; subst hs; exact same rfl
  | adjust d =>
    simp only [Pool.step] at hs
    injection hs with hs; subst hs; exact same rfl

/-- From the start of a call to its successful return: `S` holds of every batch of a record accepted
before, if it holds of all batches when the call returns, and lasts. -/
theorem flush_returns {c : PoolCfg} {good : PoolEv → Prop} {Inv : Pool → Prop} {S : Part → Nat → Prop}
    (hinv : ∀ s e s', Inv s → good e → s.step c e = some s' → Inv s')
    (hmono : ∀ s t b, Grows s t → S s b → S t b)
    (hret : ∀ (s : Pool) (n p q : Nat), Inv s → s.calls[n]? = some (Flusher.taken [(p, q)]) → (s.part q).error = false →
      ∀ x ∈ s.ids, ∀ y ∈ accepted (s.part x).out, S (s.part x) y.2.1)
    {s0 s1 s : Pool} {fs es : List Nat} {evs : List PoolEv} (h0 : Inv s0) (hg : ∀ e ∈ evs, good e)
    (hg0 : good (.flushStart fs es))
    (hout : ∀ p, p ∉ s0.ids → (s0.part p).out = [])
    (h1 : s0.step c (.flushStart fs es) = some s1) (h : s1.run c evs = some s)
    (hr : s.calls[s0.calls.length]? = some (.returned true)) :
    ∀ p, ∀ y ∈ accepted (s0.part p).out, S (s.part p) y.2.1 := by
  let P : Pool → Prop := fun t => Inv t ∧ (∀ p, Grows (s0.part p) (t.part p)) ∧ (∀ p ∈ s0.ids, p ∈ t.ids) ∧
    ∃ f, t.calls[s0.calls.length]? = some f ∧
      (f = .returned true → ∀ p ∈ s0.ids, ∀ y ∈ accepted (s0.part p).out, S (t.part p) y.2.1)
  have hP1 : P s1 := by
    refine ⟨hinv _ _ _ h0 hg0 h1, (step_grows h1).1, (step_grows h1).2, ?_⟩
    simp only [Pool.step] at h1
    split at h1
    · rename_i hc
      simp only [Bool.and_eq_true] at hc
      injection h1 with h1; subst h1
      refine ⟨_, List.getElem?_concat_length, ?_⟩
      intro he p hp
      exfalso
      split at he
      · rename_i hf
        have hfs := List.isPerm_iff.1 hc.1.2
        rw [List.isEmpty_iff.1 hf] at hfs
        rw [List.nil_perm.1 hfs] at hp
        cases hp
      · cases he
    · cases h1
  have hP : P s := by
    refine Pool.run_ind (c := c) (P := P) (good := good) ?_ evs s1 s hg hP1 h
    intro t e t' ⟨a1, a2, a3, f, a4, a5⟩ hge hst
    obtain ⟨g1, g2⟩ := step_grows hst
    have gr : ∀ p, Grows (s0.part p) (t'.part p) := by
      intro p
      obtain ⟨⟨o1, b1⟩, o2, b2⟩ := a2 p
      obtain ⟨⟨o3, b3⟩, o4, b4⟩ := g1 p
      exact ⟨⟨o1 ++ o3, by rw [b3, b1, List.append_assoc]⟩, ⟨o2 ++ o4, by rw [b4, b2, List.append_assoc]⟩⟩
    refine ⟨hinv _ _ _ a1 hge hst, gr, fun p hp => g2 p (a3 p hp), ?_⟩
    obtain ⟨y, hy, hc⟩ := step_call hst a4
    refine ⟨y, hy, ?_⟩
    intro he p hp z hz
    rcases hc with hc | hc | ⟨p', q', hx, herr⟩
    · exact hmono _ _ _ (g1 p) (a5 (by rw [← hc]; exact he) p hp z hz)
    · exact absurd he hc
    · subst hx
      apply hmono _ _ _ (g1 p)
      refine hret t _ p' q' a1 a4 herr p (a3 p hp) z ?_
      obtain ⟨⟨o1, b1⟩, _⟩ := a2 p
      rw [b1, accepted_append]
      exact List.mem_append_left _ hz
  obtain ⟨_, _, _, f, hf, hS⟩ := hP
  intro p y hy
  rw [hr] at hf
  injection hf with hf
  by_cases hp : p ∈ s0.ids
  · exact hS hf.symm p hp y hy
  · rw [hout p hp] at hy
    cases hy

end Verif.Producer
