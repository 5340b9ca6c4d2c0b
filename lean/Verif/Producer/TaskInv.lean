import Verif.Producer.Task

/-!
# Invariants of the producer's tasks
-/

namespace Verif.Producer
open Verif.Wire

/-! ## What a push does to the queue -/

theorem push_created (m : MemoryBatch) (r : Record) (now : Int) : (m.push r now).1.created = m.created := by
  unfold MemoryBatch.push
  dsimp only
  split
  · rfl
  · split <;> rfl

theorem create_queue (c : AccCfg) (r : Record) (now now' : Int) : ∀ (k : Nat) (a : Acc),
    (createAndNewBatch c r now now' k a).1.sent = a.sent ∧
    ∀ b ∈ (createAndNewBatch c r now now' k a).1.queue,
      b ∈ a.queue ∨ (b.mem.created = now ∧ 0 < (createTokens c r now now' k).2)
  | 0, a => ⟨rfl, fun b hb => .inl hb⟩
  | k + 1, a => by
    have hcr := push_created (MemoryBatch.new c.maxRequest c.batchSize c.compression now) r now'
    unfold createAndNewBatch createTokens
    generalize (MemoryBatch.new c.maxRequest c.batchSize c.compression now).push r now' = res at *
    obtain ⟨m, st⟩ := res
    have hcr : m.created = now := hcr
    have key : ∀ b, b ∈ a.queue ++ [(⟨a.nextId, m⟩ : PBatch)] → b ∈ a.queue ∨ b.mem.created = now := by
      intro b hb
      rcases List.mem_append.1 hb with h | h
      · exact .inl h
      · rw [List.mem_singleton] at h; subst h; exact .inr hcr
    cases st with
    | added off =>
      refine ⟨rfl, fun b hb => ?_⟩
      rcases key b hb with h | h
      · exact .inl h
      · exact .inr ⟨h, Nat.one_pos⟩
    | notAdded =>
      have ih := create_queue c r now now' k
        { a with queue := a.queue ++ [⟨a.nextId, m⟩], nextId := a.nextId + 1 }
      refine ⟨ih.1, fun b hb => ?_⟩
      rcases ih.2 b hb with h | h
      · rcases key b h with h | h
        · exact .inl h
        · exact .inr ⟨h, Nat.succ_pos _⟩
      · exact .inr ⟨h.1, Nat.succ_pos _⟩
    | tooLarge => exact ⟨rfl, fun b hb => .inl hb⟩

theorem setLast_created {q : List PBatch} {b0 : PBatch} {m : MemoryBatch} (h : q.getLast? = some b0)
    (hm : m.created = b0.mem.created) :
    ∀ b ∈ setLast q m, ∃ b' ∈ q, b.mem.created = b'.mem.created := by
  intro b hb
  unfold setLast at hb
  rw [h] at hb
  rcases List.mem_append.1 hb with hb | hb
  · exact ⟨b, List.dropLast_subset q hb, rfl⟩
  · rw [List.mem_singleton] at hb
    subst hb
    exact ⟨b0, List.mem_of_getLast? h, hm⟩

/-- Batches in the queue after a push were there before or are new, in which case an event is given. -/
theorem push_queue (c : AccCfg) (a : Acc) (r : Record) (now now' : Int) :
    (a.push c r now now').1.sent = a.sent ∧
    ∀ b ∈ (a.push c r now now').1.queue, (∃ b' ∈ a.queue, b.mem.created = b'.mem.created) ∨
      (b.mem.created = now ∧ 0 < (a.pushTokens c r now now').2) := by
  unfold Acc.push Acc.pushTokens
  cases hl : a.queue.getLast? with
  | none =>
    have h := create_queue c r now now' 2 a
    exact ⟨h.1, fun b hb => (h.2 b hb).imp (fun h => ⟨b, h, rfl⟩) id⟩
  | some b0 =>
    dsimp only
    have hcr := push_created b0.mem r now
    generalize b0.mem.push r now = res at *
    obtain ⟨m, st⟩ := res
    have hs := setLast_created hl hcr
    cases st with
    | added off => exact ⟨rfl, fun b hb => .inl (hs b hb)⟩
    | notAdded =>
      have h := create_queue c r now now' 2 { a with queue := setLast a.queue m }
      exact ⟨h.1, fun b hb => (h.2 b hb).imp (hs b) id⟩
    | tooLarge => exact ⟨rfl, fun b hb => .inl (hs b hb)⟩

theorem takeReady_all {force : Bool} {linger now : Int} : ∀ {q : List PBatch},
    (∀ b ∈ q, force = true ∨ linger ≤ b.mem.elapsed now) → (takeReady force linger now q).2 = []
  | [], _ => rfl
  | b :: q, h => by
    unfold takeReady
    rw [if_pos]
    · exact takeReady_all fun b hb => h b (List.mem_cons_of_mem _ hb)
    · rcases h b List.mem_cons_self with h | h <;> simp [h]

theorem takeReady_subset (force : Bool) (linger now : Int) (q : List PBatch) :
    ∀ b ∈ (takeReady force linger now q).2, b ∈ q := by
  intro b hb
  rw [← takeReady_append force linger now q]
  exact List.mem_append_right _ hb

theorem takeReady_nil (force : Bool) (linger now : Int) : takeReady force linger now [] = ([], []) := rfl

/-! ## One partition: batches are accounted for -/

def Part.inflight (s : Part) : List PBatch :=
  match s.phase with
  | .sending _ bs => bs
  | _ => []

def Part.pendingQueue (s : Part) : List PBatch :=
  match s.pushing with
  | none => []
  | some (a, _, _) => a.queue

structure PartOk (c : AccCfg) (s : Part) : Prop where
  acc : AccOk c s.acc s.out
  pend : ∀ a r x, s.pushing = some (a, r, x) → AccOk c a (s.out ++ [(r, x)]) ∧ a.sent = s.acc.sent
  flight : s.acc.sent.map PBatch.id = s.done.map Prod.fst ++ s.inflight.map PBatch.id

theorem PartOk.init (c : AccCfg) : PartOk c Part.init :=
  ⟨AccOk.init c, (by intro a r x h; cases h), rfl⟩

theorem outcomes_ids (bs : List PBatch) (n : Nat) : (outcomes bs n).map Prod.fst = bs.map PBatch.id := by
  unfold outcomes
  rw [List.map_map]
  show bs.zipIdx.map (PBatch.id ∘ Prod.fst) = _
  rw [← List.map_map, List.zipIdx_map_fst]

theorem flushEnd_same (s : Part) (w : Why) :
    (s.flushEnd w).acc = s.acc ∧ (s.flushEnd w).pushing = s.pushing ∧ (s.flushEnd w).out = s.out ∧
    (s.flushEnd w).done = s.done ∧ (s.flushEnd w).phase = .idle ∧ (s.flushEnd w).new = s.new ∧
    (s.flushEnd w).full = s.full ∧ (s.flushEnd w).flushReq = s.flushReq ∧
    (s.flushEnd w).error = s.error := by
  cases w <;> exact ⟨rfl, rfl, rfl, rfl, rfl, rfl, rfl, rfl, rfl⟩

theorem PartOk.congr {c : AccCfg} {s t : Part} (h : PartOk c s) (ha : t.acc = s.acc) (hp : t.pushing = s.pushing)
    (ho : t.out = s.out) (hd : t.done = s.done) (hi : t.inflight = s.inflight) : PartOk c t := by
  refine ⟨by rw [ha, ho]; exact h.acc, ?_, by rw [ha, hd, hi]; exact h.flight⟩
  intro a r x e
  rw [hp] at e
  rw [ho, ha]
  exact h.pend a r x e

theorem PartOk.finish {c : AccCfg} {s : Part} (h : PartOk c s) {w : Why} {bs : List PBatch}
    (hp : s.phase = .sending w bs) (n : Nat) (e : Bool) :
    PartOk c (Part.flushEnd { s with done := s.done ++ outcomes bs n, error := e } w) := by
  obtain ⟨ha, hq, ho, hd, hph, _⟩ :=
    flushEnd_same { s with done := s.done ++ outcomes bs n, error := e } w
  refine ⟨by rw [ha, ho]; exact h.acc, ?_, ?_⟩
  · intro a r x e
    rw [hq] at e
    rw [ho, ha]
    exact h.pend a r x e
  · have hf := h.flight
    unfold Part.inflight at hf ⊢
    rw [hp] at hf
    rw [ha, hd, hph]
    show s.acc.sent.map PBatch.id = (s.done ++ outcomes bs n).map Prod.fst ++ [].map PBatch.id
    rw [List.map_append, outcomes_ids, List.map_nil, List.append_nil]
    exact hf

theorem PartOk.task {c : AccCfg} {s s' : Part} (h : PartOk c s) {L : Nat} {k : Clock} {e : TaskEv}
    (hs : s.task L k e = some s') : PartOk c s' := by
  cases e with
  | onFlush =>
    simp only [Part.task] at hs
    split at hs
    case isFalse => cases hs
    case isTrue hc =>
      injection hs with hs; subst hs
      exact h.congr rfl rfl rfl rfl (by unfold Part.inflight; rw [hc.1])
  | onFull =>
    simp only [Part.task] at hs
    split at hs
    case isFalse => cases hs
    case isTrue hc =>
      injection hs with hs; subst hs
      exact h.congr rfl rfl rfl rfl (by unfold Part.inflight; rw [hc.1])
  | onNew =>
    simp only [Part.task] at hs
    split at hs
    case isFalse => cases hs
    case isTrue hc =>
      injection hs with hs; subst hs
      exact h.congr rfl rfl rfl rfl rfl
  | onTimer =>
    simp only [Part.task] at hs
    split at hs
    case h_1 => cases hs
    case h_2 d hd =>
      split at hs
      case isFalse => cases hs
      case isTrue hc =>
        injection hs with hs; subst hs
        exact h.congr rfl rfl rfl rfl (by unfold Part.inflight; rw [hc.1])
  | drain =>
    simp only [Part.task] at hs
    split at hs
    case h_2 => cases hs
    case h_1 w hph hpu =>
      injection hs with hs; subst hs
      refine ⟨h.acc.drain _ _ _, ?_, ?_⟩
      · intro a r x e
        have e : s.pushing = some (a, r, x) := e
        rw [hpu] at e; cases e
      · have hf := h.flight
        unfold Part.inflight at hf ⊢
        rw [hph] at hf
        dsimp only at hf ⊢
        rw [List.map_nil, List.append_nil] at hf
        show (s.acc.sent ++ (takeReady _ _ _ s.acc.queue).1).map PBatch.id = _
        rw [List.map_append, hf]
        rfl
  | answered n =>
    simp only [Part.task] at hs
    split at hs
    case h_2 => cases hs
    case h_1 w bs hph =>
      injection hs with hs; subst hs
      exact h.finish hph n s.error
  | failed =>
    simp only [Part.task] at hs
    split at hs
    case h_2 => cases hs
    case h_1 w bs hph =>
      injection hs with hs; subst hs
      exact h.finish hph bs.length true

theorem PartOk.pushStart {c : AccCfg} {s s' : Part} (h : PartOk c s) {r : Record} {now now' : Int}
    (hs : s.pushStart c r now now' = some s') : PartOk c s' := by
  unfold Part.pushStart at hs
  split at hs
  · injection hs with hs; subst hs; exact h
  · split at hs
    · cases hs
    · injection hs with hs; subst hs
      refine ⟨h.acc, ?_, h.flight⟩
      intro a r' x e
      have e : some ((s.acc.push c r now now').1, r, (s.acc.push c r now now').2) = some (a, r', x) := e
      injection e with e
      injection e with e1 e2
      injection e2 with e2 e3
      subst e1 e2 e3
      exact ⟨h.acc.push r now now', (push_queue c s.acc r now now').1⟩

theorem PartOk.pushEnd {c : AccCfg} {s s' : Part} (h : PartOk c s) (hs : s.pushEnd = some s') : PartOk c s' := by
  unfold Part.pushEnd at hs
  split at hs
  · cases hs
  · rename_i a r x e
    injection hs with hs; subst hs
    obtain ⟨h1, h2⟩ := h.pend a r x e
    refine ⟨h1, (by intro _ _ _ e; cases e), ?_⟩
    show a.sent.map PBatch.id = _
    rw [h2]
    exact h.flight

/-! ## One partition: the timer -/

structure TimerOk (L : Nat) (k : Clock) (s : Part) : Prop where
  past : ∀ b ∈ s.acc.queue ++ s.pendingQueue, b.mem.created ≤ k.wall
  due : s.new = 0 → ∀ b ∈ s.acc.queue ++ s.pendingQueue,
    ∃ d, s.timer = some d ∧ b.mem.created + L ≤ d + k.skew
  fired : s.phase = .connecting .timer → ∃ d, s.timer = some d ∧ d ≤ k.mono
  after : ∀ w bs, s.phase = .sending w bs → w ≠ .full → s.new = 0 → s.acc.queue ++ s.pendingQueue = []

theorem TimerOk.init (L : Nat) (k : Clock) : TimerOk L k Part.init := by
  refine ⟨?_, ?_, ?_, ?_⟩
  · intro b hb; cases hb
  · intro _ b hb; cases hb
  · intro h; cases h
  · intro w bs h; cases h

theorem TimerOk.later {L : Nat} {k k' : Clock} {s : Part} (h : TimerOk L k s) (hm : k.mono ≤ k'.mono)
    (hk : k.skew ≤ k'.skew) : TimerOk L k' s := by
  refine ⟨?_, ?_, ?_, h.after⟩
  · intro b hb
    have := h.past b hb
    unfold Clock.wall at *
    omega
  · intro hn b hb
    obtain ⟨d, h1, h2⟩ := h.due hn b hb
    exact ⟨d, h1, by omega⟩
  · intro hp
    obtain ⟨d, h1, h2⟩ := h.fired hp
    exact ⟨d, h1, by omega⟩

theorem TimerOk.finish {L : Nat} {k : Clock} {s : Part} (h : TimerOk L k s) {w : Why} {bs : List PBatch}
    (hp : s.phase = .sending w bs) (o : List (Nat × Outcome)) (e : Bool) :
    TimerOk L k (Part.flushEnd { s with done := o, error := e } w) := by
  cases w with
  | full =>
    exact ⟨h.past, h.due, fun h => (by cases h), fun w bs h => by cases h⟩
  | manual =>
    refine ⟨h.past, ?_, fun h => (by cases h), fun w bs h => by cases h⟩
    intro hn b hb
    have hn : s.new = 0 := hn
    have hb : b ∈ s.acc.queue ++ s.pendingQueue := hb
    rw [h.after _ _ hp (by decide) hn] at hb
    cases hb
  | timer =>
    refine ⟨h.past, ?_, fun h => (by cases h), fun w bs h => by cases h⟩
    intro hn b hb
    have hn : s.new = 0 := hn
    have hb : b ∈ s.acc.queue ++ s.pendingQueue := hb
    rw [h.after _ _ hp (by decide) hn] at hb
    cases hb

theorem TimerOk.task {L : Nat} {k : Clock} {s s' : Part} (h : TimerOk L k s) {e : TaskEv}
    (hs : s.task L k e = some s') : TimerOk L k s' := by
  cases e with
  | onFlush =>
    simp only [Part.task] at hs
    split at hs
    case isFalse => cases hs
    case isTrue hc =>
      injection hs with hs; subst hs
      exact ⟨h.past, h.due, fun h => (by cases h), fun w bs h => by cases h⟩
  | onFull =>
    simp only [Part.task] at hs
    split at hs
    case isFalse => cases hs
    case isTrue hc =>
      injection hs with hs; subst hs
      exact ⟨h.past, h.due, fun h => (by cases h), fun w bs h => by cases h⟩
  | onNew =>
    simp only [Part.task] at hs
    split at hs
    case isFalse => cases hs
    case isTrue hc =>
      injection hs with hs; subst hs
      refine ⟨h.past, ?_, ?_, ?_⟩
      · intro _ b hb
        refine ⟨k.mono + L, rfl, ?_⟩
        have := h.past b hb
        unfold Clock.wall at this
        omega
      · intro hp
        have hp : s.phase = _ := hp
        rw [hc.1] at hp; cases hp
      · intro w bs hp
        have hp : s.phase = _ := hp
        rw [hc.1] at hp; cases hp
  | onTimer =>
    simp only [Part.task] at hs
    split at hs
    case h_1 => cases hs
    case h_2 d hd =>
      split at hs
      case isFalse => cases hs
      case isTrue hc =>
        injection hs with hs; subst hs
        exact ⟨h.past, h.due, fun _ => ⟨d, hd, hc.2⟩, fun w bs h => by cases h⟩
  | drain =>
    simp only [Part.task] at hs
    split at hs
    case h_2 => cases hs
    case h_1 w hph hpu =>
      injection hs with hs; subst hs
      have hsub : ∀ b, b ∈ (s.acc.drain (w = .manual) L k.wall).1.queue ++ s.pendingQueue →
          b ∈ s.acc.queue ++ s.pendingQueue := by
        intro b hb
        rcases List.mem_append.1 hb with hb | hb
        · exact List.mem_append_left _ (takeReady_subset _ _ _ _ b hb)
        · exact List.mem_append_right _ hb
      refine ⟨fun b hb => h.past b (hsub b hb), fun hn b hb => h.due hn b (hsub b hb),
        fun h => (by cases h), ?_⟩
      intro w' bs hp hw hn
      have hp : Phase.sending w (s.acc.drain (w = .manual) L k.wall).2 = .sending w' bs := hp
      injection hp with hp _
      subst hp
      have hpq : s.pendingQueue = [] := by unfold Part.pendingQueue; rw [hpu]
      show (takeReady _ _ _ s.acc.queue).2 ++ s.pendingQueue = []
      rw [hpq, List.append_nil]
      apply takeReady_all
      intro b hb
      cases w with
      | full => exact absurd rfl hw
      | manual => exact .inl rfl
      | timer =>
        right
        obtain ⟨d, h1, h2⟩ := h.fired hph
        obtain ⟨d', h3, h4⟩ := h.due hn b (List.mem_append_left _ hb)
        rw [h1] at h3
        injection h3 with h3
        unfold MemoryBatch.elapsed Clock.wall
        omega
  | answered n =>
    simp only [Part.task] at hs
    split at hs
    case h_2 => cases hs
    case h_1 w bs hph =>
      injection hs with hs; subst hs
      exact h.finish hph _ s.error
  | failed =>
    simp only [Part.task] at hs
    split at hs
    case h_2 => cases hs
    case h_1 w bs hph =>
      injection hs with hs; subst hs
      exact h.finish hph _ true

theorem TimerOk.pushStart {c : AccCfg} {L : Nat} {k : Clock} {s s' : Part} (h : TimerOk L k s) {r : Record}
    {now now' : Int} (hn : now ≤ k.wall) (hs : s.pushStart c r now now' = some s') : TimerOk L k s' := by
  unfold Part.pushStart at hs
  split at hs
  · injection hs with hs; subst hs; exact h
  · split at hs
    · cases hs
    · injection hs with hs; subst hs
      have hq := (push_queue c s.acc r now now').2
      have hold : ∀ b ∈ s.acc.queue, b ∈ s.acc.queue ++ s.pendingQueue :=
        fun b hb => List.mem_append_left _ hb
      refine ⟨?_, ?_, h.fired, ?_⟩
      · intro b hb
        rcases List.mem_append.1 hb with hb | hb
        · exact h.past b (hold b hb)
        · rcases hq b hb with ⟨b', hb', e⟩ | ⟨e, _⟩
          · rw [e]; exact h.past b' (hold b' hb')
          · rw [e]; exact hn
      · intro h0 b hb
        have h0 : s.new + (s.acc.pushTokens c r now now').2 = 0 := h0
        rcases List.mem_append.1 hb with hb | hb
        · exact h.due (by omega) b (hold b hb)
        · rcases hq b hb with ⟨b', hb', e⟩ | ⟨_, e⟩
          · rw [e]; exact h.due (by omega) b' (hold b' hb')
          · omega
      · intro w bs hp hw h0
        have h0 : s.new + (s.acc.pushTokens c r now now').2 = 0 := h0
        have he := h.after w bs hp hw (by omega)
        have hnil : s.acc.queue = [] := (List.append_eq_nil_iff.1 he).1
        show s.acc.queue ++ (s.acc.push c r now now').1.queue = []
        rw [hnil, List.nil_append]
        apply List.eq_nil_iff_forall_not_mem.2
        intro b hb
        rcases hq b hb with ⟨b', hb', _⟩ | ⟨_, e⟩
        · rw [hnil] at hb'; cases hb'
        · omega

theorem TimerOk.pushEnd {L : Nat} {k : Clock} {s s' : Part} (h : TimerOk L k s)
    (hs : s.pushEnd = some s') : TimerOk L k s' := by
  unfold Part.pushEnd at hs
  split at hs
  · cases hs
  · rename_i a r x e
    injection hs with hs; subst hs
    have hsub : ∀ b, b ∈ a.queue ++ [] → b ∈ s.acc.queue ++ s.pendingQueue := by
      intro b hb
      rw [List.append_nil] at hb
      apply List.mem_append_right
      unfold Part.pendingQueue; rw [e]; exact hb
    refine ⟨fun b hb => h.past b (hsub b hb), fun hn b hb => h.due hn b (hsub b hb), h.fired, ?_⟩
    intro w bs hp hw hn
    have he := h.after w bs hp hw hn
    apply List.eq_nil_iff_forall_not_mem.2
    intro b hb
    have := hsub b hb
    rw [he] at this
    cases this

theorem TimerOk.congr {L : Nat} {k : Clock} {s t : Part} (h : TimerOk L k s) (ha : t.acc = s.acc)
    (hp : t.pushing = s.pushing) (hn : t.new = s.new) (ht : t.timer = s.timer) (hph : t.phase = s.phase) :
    TimerOk L k t := by
  have e : t.pendingQueue = s.pendingQueue := by unfold Part.pendingQueue; rw [hp]
  refine ⟨?_, ?_, ?_, ?_⟩
  · rw [ha, e]; exact h.past
  · rw [ha, e, hn, ht]; exact h.due
  · rw [hph, ht]; exact h.fired
  · rw [ha, e, hn, hph]; exact h.after

end Verif.Producer
