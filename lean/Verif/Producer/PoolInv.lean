import Verif.Producer.TaskInv

/-!
# Invariants of the whole producer
-/

namespace Verif.Producer
open Verif.Wire

theorem Pool.run_ind {c : PoolCfg} {P : Pool → Prop} {good : PoolEv → Prop}
    (H : ∀ s e s', P s → good e → s.step c e = some s' → P s') :
    ∀ (evs : List PoolEv) (s s' : Pool), (∀ e ∈ evs, good e) → P s → s.run c evs = some s' → P s'
  | [], s, s', _, hs, h => by
    injection h with h; subst h; exact hs
  | e :: evs, s, s', hg, hs, h => by
    simp only [Pool.run] at h
    split at h
    · cases h
    · rename_i s1 h1
      exact Pool.run_ind H evs s1 s' (fun e he => hg e (List.mem_cons_of_mem _ he))
        (H s e s1 hs (hg e List.mem_cons_self) h1) h

theorem Pool.run_append {c : PoolCfg} : ∀ (l m : List PoolEv) (s : Pool),
    s.run c (l ++ m) = (s.run c l).bind fun t => t.run c m
  | [], _, _ => rfl
  | e :: l, m, s => by
    simp only [List.cons_append, Pool.run]
    cases s.step c e with
    | none => rfl
    | some t => exact Pool.run_append l m t

theorem setPart_same (f : Nat → Part) (p : Nat) (v : Part) : setPart f p v p = v := by
  unfold setPart; rw [if_pos rfl]

theorem setPart_other (f : Nat → Part) {p q : Nat} (v : Part) (h : q ≠ p) : setPart f p v q = f q := by
  unfold setPart; rw [if_neg h]

/-- A fact about one partition and the clock that every change preserves holds everywhere. -/
theorem Pool.part_step {c : PoolCfg} {Q : Clock → Part → Prop} {good : PoolEv → Prop}
    (htask : ∀ k (s : Part) e s', Q k s → s.task c.linger k e = some s' → Q k s')
    (hstart : ∀ (k : Clock) (s : Part) r now now' s', now ≤ k.wall → Q k s → s.pushStart c.acc r now now' = some s' → Q k s')
    (hend : ∀ k (s : Part) s', Q k s → s.pushEnd = some s' → Q k s')
    (hreq : ∀ k s n, Q k s → Q k { s with flushReq := n })
    (hfl : ∀ k s n, Q k s → Q k { s with flushed := n })
    (herr : ∀ k s, Q k s → Q k { s with error := false })
    (htick : ∀ (k : Clock) s (d : Nat), Q k s → Q { k with mono := k.mono + d } s)
    (hadj : ∀ (k : Clock) s d, good (.adjust d) → Q k s → Q { k with skew := k.skew + d } s) :
    ∀ (s : Pool) (e : PoolEv) (s' : Pool), (∀ p, Q s.clock (s.part p)) → good e → s.step c e = some s' →
      ∀ p, Q s'.clock (s'.part p) := by
  have hset : ∀ (k : Clock) (f : Nat → Part) (p : Nat) (v : Part), (∀ q, Q k (f q)) → Q k v →
      ∀ q, Q k (setPart f p v q) := by
    intro k f p v h hv q
    by_cases e : q = p
    · subst e; rw [setPart_same]; exact hv
    · rw [setPart_other _ _ e]; exact h q
  intro s e s' hs hg h
  cases e with
  | push p r now now' =>
    simp only [Pool.step] at h
    split at h
    case isFalse => cases h
    case isTrue hc =>
      simp only [Bool.and_eq_true, decide_eq_true_eq] at hc
      obtain ⟨v, hv, h⟩ := Option.map_eq_some_iff.1 h
      subst h
      exact hset _ _ _ _ hs (hstart _ _ _ _ _ _ hc.1.2 (hs p) hv)
  | pushEnd p =>
    simp only [Pool.step] at h
    obtain ⟨v, hv, h⟩ := Option.map_eq_some_iff.1 h
    subst h
    exact hset _ _ _ _ hs (hend _ _ _ (hs p) hv)
  | task p e =>
    simp only [Pool.step] at h
    split at h
    case isFalse => cases h
    case isTrue hc =>
      obtain ⟨v, hv, h⟩ := Option.map_eq_some_iff.1 h
      subst h
      exact hset _ _ _ _ hs (htask _ _ _ _ (hs p) hv)
  | flushStart fs es =>
    simp only [Pool.step] at h
    split at h
    case isFalse => cases h
    case isTrue hc => injection h with h; subst h; exact hs
  | flushNotify i =>
    simp only [Pool.step] at h
    split at h
    · injection h with h; subst h
      exact hset _ _ _ _ hs (hreq _ _ _ (hs _))
    · cases h
  | flushTake i =>
    simp only [Pool.step] at h
    split at h
    · split at h
      · injection h with h; subst h
        exact hset _ _ _ _ hs (hfl _ _ _ (hs _))
      · cases h
    · cases h
  | flushCheck i =>
    simp only [Pool.step] at h
    split at h
    · injection h with h; subst h; exact hs
    · cases h
  | flushCancel i =>
    simp only [Pool.step] at h
    split at h
    · split at h
      · injection h with h; subst h; exact hs
      · cases h
    · cases h
  | clearErrors =>
    simp only [Pool.step] at h
    split at h
    · injection h with h; subst h
      exact fun p => herr _ _ (hs p)
    · cases h
  | tick d =>
    simp only [Pool.step] at h
    injection h with h; subst h
    exact fun p => htick _ _ d (hs p)
  | adjust d =>
    simp only [Pool.step] at h
    injection h with h; subst h
    exact fun p => hadj _ _ d hg (hs p)

theorem pool_parts {c : PoolCfg} {evs : List PoolEv} {s : Pool} (h : Pool.init.run c evs = some s) :
    ∀ p, PartOk c.acc (s.part p) := by
  have := Pool.run_ind (c := c) (P := fun s => ∀ p, PartOk c.acc (s.part p)) (good := fun _ => True)
    (fun s e s' hs hg h => Pool.part_step (Q := fun _ v => PartOk c.acc v) (good := fun _ => True)
      (fun k s e s' h hs => h.task hs) (fun k s r n n' s' _ h hs => h.pushStart hs)
      (fun k s s' h hs => h.pushEnd hs) (fun k s n h => h.congr rfl rfl rfl rfl rfl)
      (fun k s n h => h.congr rfl rfl rfl rfl rfl) (fun k s h => h.congr rfl rfl rfl rfl rfl)
      (fun k s d h => h) (fun k s d _ h => h) s e s' hs hg h)
  exact this evs Pool.init s (fun _ _ => trivial) (fun _ => PartOk.init _) h

/-- The system clock is never set back. -/
def NotSetBack : PoolEv → Prop
  | .adjust d => 0 ≤ d
  | _ => True

theorem pool_timers {c : PoolCfg} {evs : List PoolEv} {s : Pool} (hg : ∀ e ∈ evs, NotSetBack e)
    (h : Pool.init.run c evs = some s) : ∀ p, TimerOk c.linger s.clock (s.part p) := by
  have := Pool.run_ind (c := c) (P := fun s => ∀ p, TimerOk c.linger s.clock (s.part p)) (good := NotSetBack)
    (fun s e s' hs hg h => Pool.part_step (Q := fun k v => TimerOk c.linger k v) (good := NotSetBack)
      (fun k s e s' h hs => h.task hs) (fun k s r n n' s' hn h hs => h.pushStart hn hs)
      (fun k s s' h hs => h.pushEnd hs) (fun k s n h => h.congr rfl rfl rfl rfl rfl)
      (fun k s n h => h.congr rfl rfl rfl rfl rfl) (fun k s h => h.congr rfl rfl rfl rfl rfl)
      (fun k s d h => h.later (by show k.mono ≤ k.mono + (d : Int); omega) (Int.le_refl _))
      (fun k s d hd h => h.later (Int.le_refl _) (by
        have hd : 0 ≤ d := hd
        show k.skew ≤ k.skew + d; omega)) s e s' hs hg h)
  exact this evs Pool.init s hg (fun _ => TimerOk.init _ _) h

/-! ## How many steps a task takes on its own -/

def Part.weight (s : Part) : Nat :=
  3 * s.full + 3 * s.flushReq + 4 * s.new +
    (match s.phase with
      | .idle => (match s.timer with | some _ => 3 | none => 0)
      | .connecting w => 2 + (match w, s.timer with | .full, some _ => 3 | _, _ => 0)
      | .sending w _ => 1 + (match w, s.timer with | .full, some _ => 3 | _, _ => 0))

theorem weight_task {L : Nat} {k : Clock} {s s' : Part} {e : TaskEv} (hs : s.task L k e = some s') :
    s'.weight < s.weight := by
  obtain ⟨acc, pushing, out, full, new, flushReq, flushed, timer, phase, error, done⟩ := s
  cases e with
  | onFlush =>
    simp only [Part.task] at hs
    split at hs
    case isFalse => cases hs
    case isTrue hc =>
      obtain ⟨h1, h2⟩ := hc
      subst h1
      injection hs with hs; subst hs
      simp only [Part.weight]
      cases timer <;> simp only <;> omega
  | onFull =>
    simp only [Part.task] at hs
    split at hs
    case isFalse => cases hs
    case isTrue hc =>
      obtain ⟨h1, h2⟩ := hc
      subst h1
      injection hs with hs; subst hs
      simp only [Part.weight]
      cases timer <;> simp only <;> omega
  | onNew =>
    simp only [Part.task] at hs
    split at hs
    case isFalse => cases hs
    case isTrue hc =>
      obtain ⟨h1, h2⟩ := hc
      subst h1
      injection hs with hs; subst hs
      simp only [Part.weight]
      cases timer <;> simp only <;> omega
  | onTimer =>
    simp only [Part.task] at hs
    split at hs
    case h_1 => cases hs
    case h_2 =>
      split at hs
      case isFalse => cases hs
      case isTrue hc =>
        obtain ⟨h1, h2⟩ := hc
        subst h1
        injection hs with hs; subst hs
        simp only [Part.weight]
        omega
  | drain =>
    simp only [Part.task] at hs
    split at hs
    case h_2 => cases hs
    case h_1 w hph hpu =>
      injection hs with hs; subst hs
      simp only [Part.weight]
      omega
  | answered n =>
    simp only [Part.task] at hs
    split at hs
    case h_2 => cases hs
    case h_1 =>
      rename_i w bs
      injection hs with hs; subst hs
      cases w <;> cases timer <;> simp only [Part.weight, Part.flushEnd] <;> omega
  | failed =>
    simp only [Part.task] at hs
    split at hs
    case h_2 => cases hs
    case h_1 =>
      rename_i w bs
      injection hs with hs; subst hs
      cases w <;> cases timer <;> simp only [Part.weight, Part.flushEnd] <;> omega

/-- **Specification.** The task of a partition left to itself: before each of its steps some time may
pass. -/
def Part.alone (L : Nat) : Clock → Part → List (Nat × TaskEv) → Option (Clock × Part)
  | k, s, [] => some (k, s)
  | k, s, (d, e) :: l =>
    match s.task L { k with mono := k.mono + d } e with
    | none => none
    | some s' => Part.alone L { k with mono := k.mono + d } s' l

theorem task_out {L : Nat} {k : Clock} {s s' : Part} {e : TaskEv} (hs : s.task L k e = some s') :
    s'.out = s.out ∧ s'.pushing = s.pushing := by
  cases e <;> simp only [Part.task] at hs
  case onTimer =>
    split at hs
    · cases hs
    · split at hs
      · injection hs with hs; subst hs; exact ⟨rfl, rfl⟩
      · cases hs
  case answered =>
    split at hs
    · injection hs with hs; subst hs
      exact ⟨(flushEnd_same _ _).2.2.1, (flushEnd_same _ _).2.1⟩
    · cases hs
  case failed =>
    split at hs
    · injection hs with hs; subst hs
      exact ⟨(flushEnd_same _ _).2.2.1, (flushEnd_same _ _).2.1⟩
    · cases hs
  all_goals
    split at hs
    · injection hs with hs; subst hs; exact ⟨rfl, rfl⟩
    · cases hs

theorem alone_spec {c : AccCfg} {L : Nat} : ∀ (l : List (Nat × TaskEv)) (k k' : Clock) (s t : Part),
    s.alone L k l = some (k', t) → PartOk c s → TimerOk L k s →
    l.length + t.weight ≤ s.weight ∧ PartOk c t ∧ TimerOk L k' t ∧ t.out = s.out ∧ t.pushing = s.pushing
  | [], k, k', s, t, h, h1, h2 => by
    injection h with h; injection h with ha hb; subst ha hb
    exact ⟨by simp, h1, h2, rfl, rfl⟩
  | (d, e) :: l, k, k', s, t, h, h1, h2 => by
    simp only [Part.alone] at h
    split at h
    · cases h
    · rename_i s' hs
      have h2' : TimerOk L { k with mono := k.mono + (d : Int) } s :=
        h2.later (by show k.mono ≤ k.mono + (d : Int); omega) (Int.le_refl _)
      obtain ⟨a1, a2, a3, a4, a5⟩ := alone_spec l _ k' s' t h (h1.task hs) (h2'.task hs)
      have hw := weight_task hs
      obtain ⟨b1, b2⟩ := task_out hs
      exact ⟨by rw [List.length_cons]; omega, a2, a3, a4.trans b1, a5.trans b2⟩

/-- When the task has nothing to do any more, even later, the queue is empty and every batch is settled. -/
theorem rest_empty {L : Nat} {k : Clock} {s : Part} (h2 : TimerOk L k s)
    (hp : s.pushing = none)
    (hr : ∀ (d : Nat) e, s.task L { k with mono := k.mono + d } e = none) :
    s.acc.queue = [] ∧ s.inflight = [] := by
  have hidle : s.phase = .idle := by
    cases hph : s.phase with
    | idle => rfl
    | connecting w =>
      have := hr 0 .drain
      simp only [Part.task, hph, hp] at this
      cases this
    | sending w bs =>
      have := hr 0 .failed
      simp only [Part.task, hph] at this
      cases this
  have hnew : s.new = 0 := by
    rcases Nat.eq_zero_or_pos s.new with h | h
    · exact h
    · have := hr 0 .onNew
      simp only [Part.task] at this
      rw [if_pos ⟨hidle, h⟩] at this
      cases this
  have htimer : s.timer = none := by
    cases ht : s.timer with
    | none => rfl
    | some d =>
      have := hr (d - k.mono).toNat .onTimer
      simp only [Part.task, ht] at this
      rw [if_pos ⟨hidle, by show d ≤ k.mono + ((d - k.mono).toNat : Int); omega⟩] at this
      cases this
  constructor
  · apply List.eq_nil_iff_forall_not_mem.2
    intro b hb
    obtain ⟨d, hd, _⟩ := h2.due hnew b (List.mem_append_left _ hb)
    rw [htimer] at hd
    cases hd
  · unfold Part.inflight; rw [hidle]

theorem accepted_done {c : AccCfg} {s : Part} (h : PartOk c s) (hq : s.acc.queue = []) (hi : s.inflight = []) :
    ∀ x ∈ accepted s.out, x.2.1 ∈ s.done.map Prod.fst := by
  intro x hx
  rw [← h.acc.slots, hq, List.append_nil] at hx
  obtain ⟨b, hb, hx⟩ := List.mem_flatMap.1 hx
  unfold PBatch.slots at hx
  obtain ⟨y, _, rfl⟩ := List.mem_map.1 hx
  have hf := h.flight
  rw [hi, List.map_nil, List.append_nil] at hf
  rw [← hf]
  exact List.mem_map.2 ⟨b, hb, rfl⟩

theorem done_nodup {c : AccCfg} {s : Part} (h : PartOk c s) : (s.done.map Prod.fst).Nodup := by
  have hn := h.acc.nodup
  rw [List.map_append] at hn
  have hs := (List.nodup_append.1 hn).1
  rw [h.flight] at hs
  exact (List.nodup_append.1 hs).1

/-! ## Calls of `flush` -/

/-- The call waits for the answer of partition `p`. -/
def Flusher.waitsFor (p : Nat) : Flusher → Bool
  | .waiting ((q, _) :: _) => q = p
  | _ => false

/-- The partitions whose batches the call has not yet seen flushed. -/
def Flusher.rest : Flusher → List (Nat × Nat)
  | .next l => l
  | .waiting l => l
  | .taken l => l.tail
  | _ => []

/-- The partitions whose flush and error the call has not yet dealt with. -/
def Flusher.unchecked : Flusher → List (Nat × Nat)
  | .next l => l
  | .waiting l => l
  | .taken l => l
  | _ => []

def Phase.isManual : Phase → Bool
  | .connecting .manual => true
  | .sending .manual _ => true
  | _ => false

def Part.AllDone (s : Part) : Prop := ∀ x ∈ accepted s.out, x.2.1 ∈ s.done.map Prod.fst

structure FlushOk (s : Pool) : Prop where
  tokens : ∀ p, s.calls.countP (Flusher.waitsFor p) =
    (s.part p).flushReq + (if (s.part p).phase.isManual then 1 else 0) + (s.part p).flushed
  empty : ∀ p, 0 < (s.part p).flushed → (s.part p).acc.queue = [] ∧ (s.part p).inflight = []
  drained : ∀ p bs, (s.part p).phase = .sending .manual bs → (s.part p).acc.queue = []
  lock : (∃ f ∈ s.calls, f.active = true) → ∀ p, (s.part p).pushing = none
  outside : ∀ p, p ∉ s.ids → (s.part p).pushing = none ∧ (s.part p).out = []
  seen : ∀ f ∈ s.calls, f.active = true → ∀ p ∈ s.ids, p ∉ f.rest.map Prod.fst → (s.part p).AllDone

theorem FlushOk.init : FlushOk Pool.init := by
  refine ⟨fun p => rfl, ?_, ?_, ?_, ?_, ?_⟩
  · intro p h; cases h
  · intro p bs h; cases h
  · intro ⟨f, hf, _⟩; cases hf
  · intro p _; exact ⟨rfl, rfl⟩
  · intro f hf; cases hf

theorem waitsFor_active {p : Nat} {f : Flusher} (h : f.waitsFor p = true) : f.active = true := by
  cases f with
  | waiting l => rfl
  | _ => cases h

/-- Whoever may push knows that nobody waits. -/
theorem FlushOk.quiet {s : Pool} (h : FlushOk s) (hn : ¬ ∃ f ∈ s.calls, f.active = true) (p : Nat) :
    (s.part p).flushReq = 0 ∧ (s.part p).phase.isManual = false ∧ (s.part p).flushed = 0 := by
  have h0 : s.calls.countP (Flusher.waitsFor p) = 0 := by
    apply List.countP_eq_zero.2
    intro f hf hw
    exact hn ⟨f, hf, waitsFor_active hw⟩
  have := h.tokens p
  rw [h0] at this
  refine ⟨by omega, ?_, by omega⟩
  cases hm : (s.part p).phase.isManual with
  | false => rfl
  | true => rw [hm] at this; simp at this; omega

theorem task_done {L : Nat} {k : Clock} {s s' : Part} {e : TaskEv} (hs : s.task L k e = some s') :
    ∃ o, s'.done = s.done ++ o := by
  cases e <;> simp only [Part.task] at hs
  case onTimer =>
    split at hs
    · cases hs
    · split at hs
      · injection hs with hs; subst hs; exact ⟨[], (List.append_nil _).symm⟩
      · cases hs
  case answered =>
    split at hs
    · injection hs with hs; subst hs
      exact ⟨_, (flushEnd_same _ _).2.2.2.1⟩
    · cases hs
  case failed =>
    split at hs
    · injection hs with hs; subst hs
      exact ⟨_, (flushEnd_same _ _).2.2.2.1⟩
    · cases hs
  all_goals
    split at hs
    · injection hs with hs; subst hs; exact ⟨[], (List.append_nil _).symm⟩
    · cases hs

/-- What a step of the task does to the count of answers owed. -/
theorem task_tokens {L : Nat} {k : Clock} {s s' : Part} {e : TaskEv} (hs : s.task L k e = some s') :
    s'.flushReq + (if s'.phase.isManual then 1 else 0) + s'.flushed =
      s.flushReq + (if s.phase.isManual then 1 else 0) + s.flushed := by
  obtain ⟨acc, pushing, out, full, new, flushReq, flushed, timer, phase, error, done⟩ := s
  cases e <;> simp only [Part.task] at hs
  case onFlush =>
    split at hs
    · rename_i hc
      obtain ⟨h1, h2⟩ := hc
      subst h1
      injection hs with hs; subst hs
      show flushReq - 1 + 1 + flushed = flushReq + 0 + flushed
      omega
    · cases hs
  case onFull =>
    split at hs
    · rename_i hc
      obtain ⟨h1, h2⟩ := hc
      subst h1
      injection hs with hs; subst hs
      rfl
    · cases hs
  case onNew =>
    split at hs
    · injection hs with hs; subst hs; rfl
    · cases hs
  case onTimer =>
    split at hs
    · cases hs
    · split at hs
      · rename_i hc
        obtain ⟨h1, h2⟩ := hc
        subst h1
        injection hs with hs; subst hs
        rfl
      · cases hs
  case drain =>
    split at hs
    · injection hs with hs; subst hs
      rename_i w
      cases w <;> rfl
    · cases hs
  case answered n =>
    split at hs
    · injection hs with hs; subst hs
      rename_i w bs
      cases w
      · show flushReq + 0 + (flushed + 1) = flushReq + 1 + flushed
        omega
      · rfl
      · rfl
    · cases hs
  case failed =>
    split at hs
    · injection hs with hs; subst hs
      rename_i w bs
      cases w
      · show flushReq + 0 + (flushed + 1) = flushReq + 1 + flushed
        omega
      · rfl
      · rfl
    · cases hs

/-- An empty queue stays empty in a step of the task, and nothing gets into flight from it. -/
theorem task_empty {L : Nat} {k : Clock} {s s' : Part} {e : TaskEv} (hs : s.task L k e = some s')
    (hq : s.acc.queue = []) (hi : s.inflight = []) : s'.acc.queue = [] ∧ s'.inflight = [] := by
  obtain ⟨acc, pushing, out, full, new, flushReq, flushed, timer, phase, error, done⟩ := s
  have hq : acc.queue = [] := hq
  cases e <;> simp only [Part.task] at hs
  case onTimer =>
    split at hs
    · cases hs
    · split at hs
      · injection hs with hs; subst hs; exact ⟨hq, rfl⟩
      · cases hs
  case drain =>
    split at hs
    · injection hs with hs; subst hs
      rename_i w
      refine ⟨?_, ?_⟩
      · show (takeReady _ _ _ acc.queue).2 = []
        rw [hq]; rfl
      · show (takeReady _ _ _ acc.queue).1 = []
        rw [hq]; rfl
    · cases hs
  case answered n =>
    split at hs
    · injection hs with hs; subst hs
      rename_i w bs
      cases w <;> exact ⟨hq, rfl⟩
    · cases hs
  case failed =>
    split at hs
    · injection hs with hs; subst hs
      rename_i w bs
      cases w <;> exact ⟨hq, rfl⟩
    · cases hs
  case onNew =>
    split at hs
    · injection hs with hs; subst hs; exact ⟨hq, hi⟩
    · cases hs
  all_goals
    split at hs
    · injection hs with hs; subst hs; exact ⟨hq, rfl⟩
    · cases hs

/-- A new answer is given only at the end of a flush that was asked for. -/
theorem task_flushed {L : Nat} {k : Clock} {s s' : Part} {e : TaskEv} (hs : s.task L k e = some s') :
    s'.flushed = s.flushed ∨
      (∃ bs, s.phase = .sending .manual bs) ∧ s'.acc = s.acc ∧ s'.inflight = [] := by
  obtain ⟨acc, pushing, out, full, new, flushReq, flushed, timer, phase, error, done⟩ := s
  cases e <;> simp only [Part.task] at hs
  case onTimer =>
    split at hs
    · cases hs
    · split at hs
      · injection hs with hs; subst hs; exact .inl rfl
      · cases hs
  case answered n =>
    split at hs
    · injection hs with hs; subst hs
      rename_i w bs
      cases w
      · exact .inr ⟨⟨bs, rfl⟩, rfl, rfl⟩
      · exact .inl rfl
      · exact .inl rfl
    · cases hs
  case failed =>
    split at hs
    · injection hs with hs; subst hs
      rename_i w bs
      cases w
      · exact .inr ⟨⟨bs, rfl⟩, rfl, rfl⟩
      · exact .inl rfl
      · exact .inl rfl
    · cases hs
  all_goals
    split at hs
    · injection hs with hs; subst hs; exact .inl rfl
    · cases hs

/-- Draining for a flush that was asked for leaves nothing; other steps do not touch such a phase. -/
theorem task_drained {L : Nat} {k : Clock} {s s' : Part} {e : TaskEv} (hs : s.task L k e = some s')
    {bs : List PBatch} (hp : s'.phase = .sending .manual bs) : s'.acc.queue = [] := by
  obtain ⟨acc, pushing, out, full, new, flushReq, flushed, timer, phase, error, done⟩ := s
  cases e <;> simp only [Part.task] at hs
  case onTimer =>
    split at hs
    · cases hs
    · split at hs
      · injection hs with hs; subst hs; cases hp
      · cases hs
  case drain =>
    split at hs
    · injection hs with hs; subst hs
      rename_i w
      injection hp with hp _
      subst hp
      exact takeReady_all fun b _ => .inl rfl
    · cases hs
  case answered n =>
    split at hs
    · injection hs with hs; subst hs
      rw [(flushEnd_same _ _).2.2.2.2.1] at hp
      cases hp
    · cases hs
  case failed =>
    split at hs
    · injection hs with hs; subst hs
      rw [(flushEnd_same _ _).2.2.2.2.1] at hp
      cases hp
    · cases hs
  case onNew =>
    split at hs
    · rename_i hc
      injection hs with hs; subst hs
      have hp : phase = _ := hp
      obtain ⟨h1, _⟩ := hc
      have h1 : phase = _ := h1
      rw [h1] at hp; cases hp
    · cases hs
  all_goals
    split at hs
    · injection hs with hs; subst hs; cases hp
    · cases hs

end Verif.Producer
