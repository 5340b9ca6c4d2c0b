import Verif.Sc.Health

/-!
# C71 — an SPU is shown as online exactly while it is connected
-/

namespace Verif.Props

open Verif.Sc.Health

/-- The specification of silence: the time (number of seconds passed) and the time at which the
controller last heard of the SPU on connection `cid`, read off the history of events. -/
def clockAndHeard (cid : Nat) (es : List Ev) : Nat × Option Nat :=
  es.foldl (fun (p : Nat × Option Nat) e => match e with
    | .advance => (p.1 + 1, p.2)
    | .register c _ => if c = cid then (p.1, some p.1) else p
    | .message c => if c = cid then (p.1, some p.1) else p
    | _ => p) (0, none)

/-- The SPU that registered last on connection `cid`. -/
def spuOn (cid : Nat) (es : List Ev) : Option Int :=
  es.foldl (fun p e => match e with
    | .register c id => if c = cid then some id else p
    | _ => p) none

/-- Increments of the counter of health changes never overlap in this run. -/
def NoOverlappingIncrements (spus : List SpuObj) (es : List Ev) : Prop :=
  Always (fun s e => e = .load → s.loaded = []) (State.init spus) es

/-- In this run an SPU registers only when it has no other open connection. -/
def NoSecondConnection (spus : List SpuObj) (es : List Ev) : Prop :=
  Always (fun s e => ∀ cid id, e = .register cid id → ∀ c ∈ s.conns, c.spu ≠ id) (State.init spus) es

theorem always_imp {ok ok' : State → Ev → Prop} (h : ∀ s e, ok s e → ok' s e) {s : State} {es : List Ev}
    (ha : Always ok s es) : Always ok' s es := by
  induction es generalizing s with
  | nil => trivial
  | cons e es ih => exact ⟨h s e ha.1, fun t ht => ih (ha.2 t ht)⟩

theorem inv_of_run {spus : List SpuObj} (hn : (spus.map (·.key)).Nodup) {es : List Ev} {t : State}
    (h : run (State.init spus) es = some t) (ha : NoOverlappingIncrements spus es) : Inv t := by
  refine inv_run (inv_init hn) (always_imp (fun s e h => ?_) ha) h
  cases e <;> first | exact h rfl | trivial

theorem conn_of_run {spus : List SpuObj} {es : List Ev} {t : State}
    (h : run (State.init spus) es = some t) (ha : NoSecondConnection spus es) : ConnInv t := by
  refine conn_run (conn_init spus) (always_imp (fun s e h => ?_) ha) h
  cases e <;> first | exact h _ _ rfl | trivial

/-- the health map has an entry exactly for the SPUs that have registered -/
theorem known_iff_registered {spus : List SpuObj} {es : List Ev} {t : State}
    (h : run (State.init spus) es = some t) (id : Int) :
    t.health id ≠ none ↔ ∃ cid, Ev.register cid id ∈ es := by
  have key : ∀ (es : List Ev) (s : State), (∀ c ∈ s.conns, s.health c.spu ≠ none) → run s es = some t →
      (t.health id ≠ none ↔ s.health id ≠ none ∨ ∃ cid, Ev.register cid id ∈ es) := by
    intro es
    induction es with
    | nil => intro s _ h; cases h; simp
    | cons e es ih =>
      intro s hc h
      rw [run] at h
      cases hs : step s e with
      | none => rw [hs] at h; cases h
      | some u =>
        rw [hs] at h
        have hend : ∀ c ∈ s.conns, u = endConn s c → (∀ d ∈ u.conns, u.health d.spu ≠ none) ∧
            (u.health id ≠ none ↔ s.health id ≠ none) := by
          intro c hcm hu
          subst hu
          refine ⟨fun d hd => ?_, ?_⟩
          · have hd := (List.mem_filter.1 hd).1
            show (if d.spu = c.spu then some false else s.health d.spu) ≠ none
            split
            · nofun
            · exact hc d hd
          · show (if id = c.spu then some false else s.health id) ≠ none ↔ _
            split
            · rename_i e1; rw [e1]; simpa using hc c hcm
            · exact Iff.rfl
        have hu : (∀ d ∈ u.conns, u.health d.spu ≠ none) ∧
            (u.health id ≠ none ↔ s.health id ≠ none ∨ ∃ cid, e = .register cid id) := by
          cases e with
          | register cid spu =>
            rw [step] at hs
            split at hs
            · cases hs
            · split at hs
              · cases hs
                refine ⟨fun d hd => ?_, ?_⟩
                · show (if d.spu = spu then some true else s.health d.spu) ≠ none
                  split
                  · nofun
                  · rename_i hne
                    rcases List.mem_append.1 hd with hd | hd
                    · exact hc d hd
                    · rw [List.mem_singleton.1 hd] at hne; exact absurd rfl hne
                · show (if id = spu then some true else s.health id) ≠ none ↔ _
                  split
                  · rename_i e1; subst e1; simp
                  · rename_i hne
                    exact ⟨.inl, fun h => h.resolve_right fun ⟨_, e1⟩ => by injection e1 with _ e2; exact hne e2.symm⟩
              · cases hs
          | message cid =>
            rw [step] at hs
            split at hs
            · cases hs
              refine ⟨fun d hd => ?_, by simp⟩
              obtain ⟨c, hcm, rfl⟩ := List.mem_map.1 hd
              have := hc c hcm
              split <;> exact this
            · cases hs
          | expire cid =>
            rw [step] at hs
            split at hs
            · cases hs
            · rename_i c hf
              split at hs
              · cases hs
                have := hend c (List.mem_of_find?_eq_some hf) rfl
                exact ⟨this.1, by rw [this.2]; simp⟩
              · cases hs
          | close cid =>
            rw [step] at hs
            split at hs
            · cases hs
            · rename_i c hf
              cases hs
              have := hend c (List.mem_of_find?_eq_some hf) rfl
              exact ⟨this.1, by rw [this.2]; simp⟩
          | advance | load | snapshot | decide | write | finish | restart | store i | apply =>
            rw [step] at hs
            split at hs <;> cases hs <;> exact ⟨hc, by simp⟩
          | putSpu o => cases hs; exact ⟨hc, by simp⟩
          | removeSpu k => cases hs; exact ⟨hc, by simp⟩
          | wakeStore | wakeHealth =>
            rw [step] at hs
            split at hs
            · split at hs <;> cases hs
              exact ⟨hc, by simp⟩
            · cases hs
        rw [ih u hu.1 h, hu.2, or_assoc]
        refine or_congr Iff.rfl ⟨?_, ?_⟩
        · rintro (⟨cid, rfl⟩ | ⟨cid, hm⟩)
          · exact ⟨cid, List.mem_cons_self⟩
          · exact ⟨cid, List.mem_cons_of_mem _ hm⟩
        · rintro ⟨cid, hm⟩
          rcases List.mem_cons.1 hm with e1 | hm
          · exact .inl ⟨cid, e1.symm⟩
          · exact .inr ⟨cid, hm⟩
  rw [key es (State.init spus) nofun h]
  exact ⟨fun h => h.resolve_left fun c => c rfl, .inr⟩

/-- Whatever SPUs connect, disconnect and fall silent, and however the tasks of the controller are
interleaved: when the controller has nothing left to do, every stored SPU that has registered since the
controller was started is shown as online if it has a connection and as offline if it has none.

Missing from the full claim: SPUs that have not registered since the start keep the status they had
(`C71_violated_after_restart`), an SPU must not open a connection while an older one is still open
(`C71_violated_reconnect`), and increments of the counter must not overlap
(`C71_violated_increments`). -/
theorem C71_online_iff_connected_partial (spus : List SpuObj) (hn : (spus.map (·.key)).Nodup)
    (es : List Ev) (t : State) (h : run (State.init spus) es = some t)
    (h1 : NoOverlappingIncrements spus es) (h2 : NoSecondConnection spus es) (hq : t.Quiet)
    (o : SpuObj) (ho : o ∈ t.spus) (hr : ∃ cid, Ev.register cid o.id ∈ es) :
    o.status = (if ∃ c ∈ t.conns, c.spu = o.id then Res.online else Res.offline) := by
  have hh := (known_iff_registered h o.id).2 hr
  cases hv : t.health o.id with
  | none => exact absurd hv hh
  | some v =>
    rw [quiet_agree (inv_of_run hn h h1) hq o ho v hv]
    have := (conn_of_run h h2).health o.id
    rw [hv] at this
    cases v with
    | true => rw [if_pos (this.1 rfl)]; rfl
    | false => rw [if_neg fun c => nomatch this.2 c]; rfl

/-- Until the SPUs do something again, the controller can always come to rest by its own events alone,
without a connection being opened or closed; with the theorem above the status is then right. -/
theorem C71_settles_partial (spus : List SpuObj) (hn : (spus.map (·.key)).Nodup)
    (es : List Ev) (t : State) (h : run (State.init spus) es = some t)
    (h1 : NoOverlappingIncrements spus es) :
    ∃ (es' : List Ev) (u : State), (∀ e ∈ es', e.internal = true) ∧ run t es' = some u ∧ u.Quiet ∧
      u.conns = t.conns := by
  obtain ⟨u, ⟨es', h1, h2⟩, h3, _, h5, _⟩ := settles (inv_of_run hn h h1)
  exact ⟨es', u, h1, h2, h3, h5⟩

theorem run_snoc {s t : State} {l : List Ev} {e : Ev} (h : run s (l ++ [e]) = some t) :
    ∃ u, run s l = some u ∧ step u e = some t := by
  induction l generalizing s with
  | nil =>
    rw [List.nil_append, run] at h
    cases hs : step s e with
    | none => rw [hs] at h; cases h
    | some u => rw [hs] at h; cases h; exact ⟨s, rfl, hs⟩
  | cons a l ih =>
    rw [List.cons_append, run] at h
    rw [run]
    cases hs : step s a with
    | none => rw [hs] at h; cases h
    | some u => rw [hs] at h; exact ih h

/-- the timers of the connections follow the history -/
theorem timers {spus : List SpuObj} {es : List Ev} {t : State} (h : run (State.init spus) es = some t) :
    (∀ cid, (clockAndHeard cid es).1 = t.now) ∧
    ∀ c ∈ t.conns, (clockAndHeard c.cid es).2 = some c.last ∧ c.last ≤ t.now ∧ t.now ≤ c.last + 90 ∧
      spuOn c.cid es = some c.spu := by
  have hsnoc : ∀ cid l e, clockAndHeard cid (l ++ [e]) = (match e with
      | .advance => ((clockAndHeard cid l).1 + 1, (clockAndHeard cid l).2)
      | .register c _ => if c = cid then ((clockAndHeard cid l).1, some (clockAndHeard cid l).1) else clockAndHeard cid l
      | .message c => if c = cid then ((clockAndHeard cid l).1, some (clockAndHeard cid l).1) else clockAndHeard cid l
      | _ => clockAndHeard cid l) := by
    intro cid l e
    unfold clockAndHeard
    rw [List.foldl_append]
    rfl
  have ssnoc : ∀ cid l e, spuOn cid (l ++ [e]) = (match e with
      | .register c id => if c = cid then some id else spuOn cid l
      | _ => spuOn cid l) := by
    intro cid l e
    unfold spuOn
    rw [List.foldl_append]
    rfl
  induction hr : es.reverse generalizing es t with
  | nil =>
    have : es = [] := by simpa using hr
    subst this
    cases h
    exact ⟨fun _ => rfl, nofun⟩
  | cons e l ih =>
    have : es = l.reverse ++ [e] := by rw [← List.reverse_reverse es, hr, List.reverse_cons]
    subst this
    obtain ⟨u, hu, hs⟩ := run_snoc h
    obtain ⟨h1, h2⟩ := ih hu (by simp)
    have same : (∀ cid, spuOn cid (l.reverse ++ [e]) = spuOn cid l.reverse) → (∀ cid, clockAndHeard cid (l.reverse ++ [e]) = clockAndHeard cid l.reverse) → t.now = u.now →
        (∀ c ∈ t.conns, c ∈ u.conns) →
        ((∀ cid, (clockAndHeard cid (l.reverse ++ [e])).1 = t.now) ∧
        ∀ c ∈ t.conns, (clockAndHeard c.cid (l.reverse ++ [e])).2 = some c.last ∧ c.last ≤ t.now ∧ t.now ≤ c.last + 90 ∧
      spuOn c.cid (l.reverse ++ [e]) = some c.spu) := by
      intro a' a b c
      refine ⟨fun cid => by rw [a, b]; exact h1 cid, fun d hd => by rw [a, b, a']; exact h2 d (c d hd)⟩
    cases e with
    | register cid spu =>
      rw [step] at hs
      split at hs
      · cases hs
      · rename_i hcid
        have hcid : ∀ c ∈ u.conns, c.cid ≠ cid := by simpa using hcid
        split at hs
        · cases hs
          refine ⟨fun k => ?_, fun c hc => ?_⟩
          · rw [hsnoc]; dsimp only; split <;> exact h1 k
          · rcases List.mem_append.1 hc with hc | hc
            · rw [hsnoc, ssnoc]; dsimp only
              rw [if_neg fun e => hcid c hc e.symm, if_neg fun e => hcid c hc e.symm]
              exact h2 c hc
            · rw [List.mem_singleton.1 hc, hsnoc, ssnoc]; dsimp only
              rw [if_pos rfl, if_pos rfl, h1]
              exact ⟨rfl, Nat.le_refl _, Nat.le_add_right _ _, rfl⟩
        · cases hs
    | message cid =>
      rw [step] at hs
      split at hs
      · cases hs
        refine ⟨fun k => ?_, fun c hc => ?_⟩
        · rw [hsnoc]; dsimp only; split <;> exact h1 k
        · obtain ⟨d, hd, rfl⟩ := List.mem_map.1 hc
          by_cases hk : d.cid = cid
          · rw [if_pos hk, hsnoc, ssnoc]; dsimp only
            rw [if_pos hk.symm, h1]
            exact ⟨rfl, Nat.le_refl _, Nat.le_add_right _ _, (h2 d hd).2.2.2⟩
          · rw [if_neg hk, hsnoc, ssnoc]; dsimp only
            rw [if_neg fun e => hk e.symm]
            exact h2 d hd
      · cases hs
    | advance =>
      rw [step] at hs
      split at hs
      · rename_i hall
        cases hs
        refine ⟨fun k => by rw [hsnoc]; dsimp only; rw [h1], fun c hc => ?_⟩
        rw [hsnoc, ssnoc]; dsimp only
        have h3 := h2 c hc
        have h4 := of_decide_eq_true (List.all_eq_true.1 hall c hc)
        rw [healthDuration] at h4
        exact ⟨h3.1, by omega, by omega, h3.2.2.2⟩
      · cases hs
    | expire cid =>
      rw [step] at hs
      split at hs
      · cases hs
      · split at hs
        · cases hs; exact same (fun k => by rw [ssnoc]) (fun k => by rw [hsnoc]) rfl fun c hc => (List.mem_filter.1 hc).1
        · cases hs
    | close cid =>
      rw [step] at hs
      split at hs
      · cases hs
      · cases hs; exact same (fun k => by rw [ssnoc]) (fun k => by rw [hsnoc]) rfl fun c hc => (List.mem_filter.1 hc).1
    | load | snapshot | decide | write | finish | restart | store i | apply =>
      rw [step] at hs
      split at hs <;> cases hs <;> exact same (fun k => by rw [ssnoc]) (fun k => by rw [hsnoc]) rfl fun c hc => hc
    | putSpu o => cases hs; exact same (fun k => by rw [ssnoc]) (fun k => by rw [hsnoc]) rfl fun c hc => hc
    | removeSpu k => cases hs; exact same (fun k => by rw [ssnoc]) (fun k => by rw [hsnoc]) rfl fun c hc => hc
    | wakeStore | wakeHealth =>
      rw [step] at hs
      split at hs
      · split at hs <;> cases hs
        exact same (fun k => by rw [ssnoc]) (fun k => by rw [hsnoc]) rfl fun c hc => hc
      · cases hs

/-- A connection stays open only if the SPU was heard of on it in the last 90 seconds, and it is only
given up for silence if the SPU was not. -/
theorem C71_silence (spus : List SpuObj) (es : List Ev) (t : State) (h : run (State.init spus) es = some t) :
    (∀ c ∈ t.conns, ∃ at_, (clockAndHeard c.cid es).2 = some at_ ∧ (clockAndHeard c.cid es).1 ≤ at_ + 90) ∧
    ∀ cid, (step t (.expire cid)).isSome →
      ∃ at_, (clockAndHeard cid es).2 = some at_ ∧ at_ + 90 ≤ (clockAndHeard cid es).1 := by
  obtain ⟨h1, h2⟩ := timers h
  refine ⟨fun c hc => ⟨c.last, (h2 c hc).1, by rw [h1]; exact (h2 c hc).2.2.1⟩, fun cid hs => ?_⟩
  rw [step] at hs
  split at hs
  · cases hs
  · rename_i c hf
    split at hs
    · rename_i hle
      have hc : c.cid = cid := by simpa using List.find?_some hf
      subst hc
      exact ⟨c.last, (h2 c (List.mem_of_find?_eq_some hf)).1, by rw [h1]; exact hle⟩
    · cases hs

/-- So an SPU that has registered and is shown as online when the controller is at rest was heard of in
the last 90 seconds. -/
theorem C71_online_is_alive_partial (spus : List SpuObj) (hn : (spus.map (·.key)).Nodup)
    (es : List Ev) (t : State) (h : run (State.init spus) es = some t)
    (h1 : NoOverlappingIncrements spus es) (h2 : NoSecondConnection spus es) (hq : t.Quiet)
    (o : SpuObj) (ho : o ∈ t.spus) (hr : ∃ cid, Ev.register cid o.id ∈ es) (hon : o.status = .online) :
    ∃ cid at_, spuOn cid es = some o.id ∧ (clockAndHeard cid es).2 = some at_ ∧
      (clockAndHeard cid es).1 ≤ at_ + 90 := by
  have := C71_online_iff_connected_partial spus hn es t h h1 h2 hq o ho hr
  rw [hon] at this
  split at this
  · rename_i hc
    obtain ⟨c, hc, ho⟩ := hc
    obtain ⟨a, ha⟩ := (C71_silence spus es t h).1 c hc
    exact ⟨c.cid, a, by rw [((timers h).2 c hc).2.2.2, ho], ha⟩
  · cases this

/-! ## Concrete runs -/

/-- a turn of the controller's loop that finds `n` changes, and carrying them out -/
def turn (n : Nat) : List Ev :=
  [.snapshot, .decide] ++ List.replicate n .write ++ [.finish] ++ List.replicate n .apply

def twoSpus : List SpuObj := [⟨0, 5001, .init⟩, ⟨1, 5002, .init⟩]

/-- both SPUs connect and one of them disconnects -/
def exampleRun : List Ev :=
  turn 0 ++ [.register 0 5001, .load, .store 0, .register 1 5002, .load, .store 0, .wakeHealth] ++ turn 2 ++
  [.wakeStore] ++ turn 0 ++ [.close 1, .load, .store 0, .wakeHealth] ++ turn 1 ++ [.wakeStore] ++ turn 0

/-- what can be seen of a state: the stored SPUs, the connected SPUs, whether the controller is at rest -/
def view (s : Option State) : Option (List SpuObj × List Int × Bool) :=
  s.map fun s => (s.spus, s.conns.map (·.spu), decide (s.phase = .waiting ∧ s.dirty = false ∧
    s.seen = s.counter ∧ s.bumps = 0 ∧ s.loaded = [] ∧ s.queue = []))

theorem quiet_of_view {s : Option State} {a b} (h : view s = some (a, b, true)) :
    ∃ t, s = some t ∧ t.spus = a ∧ t.conns.map (·.spu) = b ∧ t.Quiet := by
  cases s with
  | none => cases h
  | some t =>
    refine ⟨t, rfl, ?_⟩
    simp only [view, Option.map_some, Option.some.injEq, Prod.mk.injEq, decide_eq_true_eq] at h
    exact ⟨h.1, h.2.1, h.2.2⟩

example : view (run (State.init twoSpus) exampleRun) =
    some ([⟨0, 5001, .online⟩, ⟨1, 5002, .offline⟩], [5001], true) := by decide +kernel

/-- a boolean check of a condition on a concrete run -/
def holds (ok : State → Ev → Bool) : State → List Ev → Bool
  | _, [] => true
  | s, e :: es => ok s e && match step s e with
    | none => true
    | some t => holds ok t es

theorem holds_sound {ok : State → Ev → Bool} {s : State} {es : List Ev} (h : holds ok s es = true) :
    Always (fun s e => ok s e = true) s es := by
  induction es generalizing s with
  | nil => trivial
  | cons e es ih =>
    simp only [holds, Bool.and_eq_true] at h
    refine ⟨h.1, fun t ht => ih ?_⟩
    have := h.2
    rw [ht] at this
    exact this

def atomicOk (s : State) : Ev → Bool
  | .load => decide (s.loaded = [])
  | _ => true

def soleOk (s : State) : Ev → Bool
  | .register _ id => s.conns.all fun c => c.spu ≠ id
  | _ => true

theorem atomic_of_holds {spus : List SpuObj} {es : List Ev} (h : holds atomicOk (State.init spus) es = true) :
    NoOverlappingIncrements spus es :=
  always_imp (fun s e h he => by subst he; exact of_decide_eq_true h) (holds_sound h)

theorem sole_of_holds {spus : List SpuObj} {es : List Ev} (h : holds soleOk (State.init spus) es = true) :
    NoSecondConnection spus es :=
  always_imp (fun s e h cid id he => by subst he; simpa [soleOk] using h) (holds_sound h)

example : NoOverlappingIncrements twoSpus exampleRun ∧ NoSecondConnection twoSpus exampleRun :=
  ⟨atomic_of_holds (by decide +kernel), sole_of_holds (by decide +kernel)⟩

/-- ninety seconds of silence end a connection, a message in between keeps it -/
example : (run (State.init twoSpus) ([.register 0 5001] ++ List.replicate 90 .advance ++ [.expire 0])).isSome = true ∧
    run (State.init twoSpus) ([.register 0 5001] ++ List.replicate 91 .advance) = none ∧
    run (State.init twoSpus) ([.register 0 5001] ++ List.replicate 89 .advance ++ [.message 0, .advance, .expire 0]) = none := by
  refine ⟨by decide +kernel, ?_, ?_⟩ <;> exact Option.isNone_iff_eq_none.1 (by decide +kernel)

/-! ## Where the code breaks the claim -/

/-- SPU 5001 connects; it connects a second time before its first connection ends. -/
def reconnects : List Ev :=
  turn 0 ++ [.register 0 5001, .load, .store 0, .wakeHealth] ++ turn 1 ++ [.wakeStore] ++ turn 0 ++
  [.register 1 5001, .close 0, .load, .store 0, .wakeHealth] ++ turn 1 ++ [.wakeStore] ++ turn 0

/-- An SPU loses its connection and connects again before the controller has noticed (it may take the
controller 90 seconds): the end of the old connection marks the SPU as unhealthy although the new one is
alive.  The controller comes to rest showing a connected SPU as offline.  It stays so however long the
SPU goes on sending messages. -/
theorem C71_violated_reconnect :
    ∃ t, run (State.init twoSpus) reconnects = some t ∧ NoOverlappingIncrements twoSpus reconnects ∧
      t.Quiet ∧ t.conns.map (·.spu) = [5001] ∧ (⟨0, 5001, .offline⟩ : SpuObj) ∈ t.spus ∧
      ∀ es u, (∀ e ∈ es, e.internal = true ∨ e = .message 1 ∨ e = .advance) → run t es = some u →
        u.Quiet ∧ u.conns.map (·.spu) = [5001] ∧ (⟨0, 5001, .offline⟩ : SpuObj) ∈ u.spus := by
  obtain ⟨t, h1, h2, h3, h4⟩ := quiet_of_view (s := run (State.init twoSpus) reconnects)
    (a := [⟨0, 5001, .offline⟩, ⟨1, 5002, .init⟩]) (b := [5001]) (by decide +kernel)
  have h5 : (⟨0, 5001, .offline⟩ : SpuObj) ∈ t.spus := by rw [h2]; exact List.mem_cons_self
  refine ⟨t, h1, atomic_of_holds (by decide +kernel), h4, h3, h5, ?_⟩
  clear h1 h2
  intro es u
  induction es generalizing t with
  | nil => intro _ h; cases h; exact ⟨h4, h3, h5⟩
  | cons e es ih =>
    intro hall h
    rw [run] at h
    cases hs : step t e with
    | none => rw [hs] at h; cases h
    | some v =>
      rw [hs] at h
      replace h : run v es = some u := h
      have hrest := fun e' he' => hall e' (List.mem_cons_of_mem _ he')
      obtain ⟨q1, q2, q3, q4, q5, q6⟩ := h4
      rcases hall e List.mem_cons_self with hi | rfl | rfl
      · exfalso
        cases e <;> first | (simp [Ev.internal] at hi; done) | (simp [step, q1, q2, q3, q4, q5, q6] at hs; done)
      · rw [step] at hs
        split at hs
        · cases hs
          refine ih _ ?_ ?_ ?_ hrest h
          rotate_left
          · exact ⟨q1, q2, q3, q4, q5, q6⟩
          · exact h5
          rw [← h3, List.map_map]
          refine List.map_congr_left fun c _ => ?_
          dsimp only [Function.comp_apply]
          split <;> rfl
        · cases hs
      · rw [step] at hs
        split at hs
        · cases hs
          refine ih _ ?_ ?_ ?_ hrest h
          · exact h3
          · exact ⟨q1, q2, q3, q4, q5, q6⟩
          · exact h5
        · cases hs

/-- A controller that is started again finds the status it stored before; an SPU that has died in the
meantime never registers, so it has no entry in the health map and is shown as online for ever. -/
theorem C71_violated_after_restart :
    ∃ t, run (State.init [⟨0, 5001, .online⟩]) (turn 0) = some t ∧ t.Quiet ∧ t.conns = [] ∧
      t.spus = [⟨0, 5001, .online⟩] := by
  obtain ⟨t, h1, h2, h3, h4⟩ := quiet_of_view (s := run (State.init [⟨0, 5001, .online⟩]) (turn 0))
    (a := [⟨0, 5001, .online⟩]) (b := []) (by decide +kernel)
  exact ⟨t, h1, h4, by simpa using h3, h2⟩

def fourSpus : List SpuObj := [⟨0, 1, .init⟩, ⟨1, 2, .init⟩, ⟨2, 3, .init⟩, ⟨3, 4, .init⟩]

/-- The increment for SPU 1 reads the counter and is delayed; SPUs 2 and 3 connect; the controller deals
with all three; then the delayed increment sets the counter back, and the one for SPU 4 raises it to the
value the controller has already seen. -/
def overlapping : List Ev :=
  turn 0 ++ [.register 0 1, .load, .register 1 2, .load, .store 1, .register 2 3, .load, .store 1, .wakeHealth] ++
  turn 3 ++ [.wakeStore, .snapshot, .decide, .store 0, .register 3 4, .load, .store 0, .finish]

/-- `update_increment` reads and writes the counter separately, so that overlapping increments can set
it back: the connection of SPU 4 goes unnoticed.  (The notifications happen while the controller is not
inside `listen`, where they would wake it.) -/
theorem C71_violated_increments :
    ∃ t, run (State.init fourSpus) overlapping = some t ∧ NoSecondConnection fourSpus overlapping ∧ t.Quiet ∧
      t.conns.map (·.spu) = [1, 2, 3, 4] ∧ (⟨3, 4, .init⟩ : SpuObj) ∈ t.spus := by
  obtain ⟨t, h1, h2, h3, h4⟩ := quiet_of_view (s := run (State.init fourSpus) overlapping)
    (a := [⟨0, 1, .online⟩, ⟨1, 2, .online⟩, ⟨2, 3, .online⟩, ⟨3, 4, .init⟩]) (b := [1, 2, 3, 4]) (by decide +kernel)
  exact ⟨t, h1, sole_of_holds (by decide +kernel), h4, h3, by rw [h2]; simp⟩

end Verif.Props
