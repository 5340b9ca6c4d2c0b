import Verif.Net.Mux

/-!
# C45, C54: responses on a shared connection
-/

namespace Verif.Props
open Verif.Net.Mux

/-! ## Specification, in terms of the events alone -/

/-- the number of calls begun -/
def begins (evs : List Event) : Nat :=
  evs.countP fun
    | .begin _ => true
    | _ => false

/-- the events after call `h` was entered in the table -/
def since (h : Nat) : List Event → List Event
  | [] => []
  | e :: rest => if e = .register h then rest else since h rest

/-- the responses with correlation id `id` that arrived -/
def responses (id : Nat) (evs : List Event) : List Payload :=
  evs.filterMap fun
    | .frame i p => if i = id then some p else none
    | _ => none

/-- the responses meant for call `h`: below wrap-around its correlation id is `h + 1` -/
def meant (h : Nat) (evs : List Event) : List Payload := responses (h + 1) (since h evs)

/-! ## Facts about the specification -/

theorem since_snoc (h : Nat) (evs : List Event) (e : Event) :
    since h (evs ++ [e]) = if .register h ∈ evs then since h evs ++ [e] else [] := by
  induction evs with
  | nil =>
    show (if e = .register h then [] else since h []) = _
    split <;> rfl
  | cons x rest ih =>
    show (if x = .register h then rest ++ [e] else since h (rest ++ [e])) =
      if .register h ∈ x :: rest then (if x = .register h then rest else since h rest) ++ [e] else []
    by_cases hx : x = .register h
    · rw [if_pos hx, if_pos hx, if_pos (by rw [hx]; exact List.mem_cons_self)]
    · rw [if_neg hx, if_neg hx, ih]
      have : (.register h ∈ x :: rest) ↔ .register h ∈ rest := by
        constructor
        · intro hm
          rcases List.mem_cons.1 hm with e | hm
          · exact absurd e.symm hx
          · exact hm
        · exact List.mem_cons_of_mem _
      by_cases hm : .register h ∈ rest
      · rw [if_pos hm, if_pos (this.2 hm)]
      · rw [if_neg hm, if_neg (fun c => hm (this.1 c))]

theorem since_none (h : Nat) (evs : List Event) (hn : .register h ∉ evs) : since h evs = [] := by
  induction evs with
  | nil => rfl
  | cons x rest ih =>
    unfold since
    rw [if_neg (fun e => hn (by rw [e]; exact List.mem_cons_self))]
    exact ih fun c => hn (List.mem_cons_of_mem _ c)

theorem meant_none (h : Nat) (evs : List Event) (hn : .register h ∉ evs) : meant h evs = [] := by
  unfold meant; rw [since_none h evs hn]; rfl

theorem meant_frame (h : Nat) (evs : List Event) (p : Payload) (hm : .register h ∈ evs) :
    meant h (evs ++ [.frame (h + 1) p]) = meant h evs ++ [p] := by
  unfold meant
  rw [since_snoc, if_pos hm]
  unfold responses
  rw [List.filterMap_append]
  simp

theorem meant_other (h : Nat) (evs : List Event) (e : Event) (hne : ∀ p, e ≠ .frame (h + 1) p) :
    meant h (evs ++ [e]) = meant h evs := by
  unfold meant
  rw [since_snoc]
  by_cases hm : .register h ∈ evs
  · rw [if_pos hm]
    unfold responses
    rw [List.filterMap_append]
    have : [e].filterMap (fun | .frame i p => if i = h + 1 then some p else none | _ => none) = ([] : List Payload) := by
      cases e with
      | frame i p =>
        have : i ≠ h + 1 := fun c => hne p (by rw [c])
        simp [this]
      | _ => rfl
    rw [this, List.append_nil]
  · rw [if_neg hm, since_none h evs hm]

theorem meant_mono (h : Nat) (evs : List Event) (e : Event) : meant h evs <+: meant h (evs ++ [e]) := by
  by_cases hm : .register h ∈ evs
  · unfold meant
    rw [since_snoc, if_pos hm]
    unfold responses
    rw [List.filterMap_append]
    exact List.prefix_append _ _
  · rw [meant_none h evs hm]
    exact List.nil_prefix

/-! ## The invariant -/

/-- the message the dispatcher is waiting to hand to call `h` -/
def flight (s : State) (h : Nat) : List Payload :=
  match s.mode with
  | .blocked h' p => if h' = h then [p] else []
  | _ => []

/-- the messages of a stream that were taken or are queued -/
def gotten (c : Call) : List Payload := (c.out ++ c.queue).filterMap id

/-- what holds of one call to which `m` was addressed -/
def Good (m fl : List Payload) (tab : Prop) (c : Call) : Prop :=
  match c.kind with
  | .serial => c.out.length ≤ 1 ∧ (c.phase ≠ .done → c.out = []) ∧ (∀ p, some p ∈ c.out → p ∈ m) ∧
      (∀ p, c.slot = some p → p ∈ m) ∧ (c.phase ≠ .allocated → c.phase ≠ .done → tab)
  | .queue cap => 0 < cap ∧ c.queue.length ≤ cap ∧
      (c.closed = false → gotten c ++ fl = m ∧ (c.phase ≠ .allocated → tab)) ∧
      (c.closed = true → gotten c <+: m)

structure MuxInv (evs : List Event) (s : State) : Prop where
  count : s.calls.length = begins evs
  counter : s.counter = (s.calls.length + 1) % 2 ^ 32
  ids : ∀ h c, s.calls[h]? = some c → c.id = (h + 1) % 2 ^ 32
  fresh : ∀ h c, s.calls[h]? = some c → c.phase = .allocated → .register h ∉ evs
  known : ∀ h, .register h ∈ evs → h < s.calls.length
  table : ∀ e ∈ s.senders, .register e.2 ∈ evs ∧ ∃ c, s.calls[e.2]? = some c ∧ c.id = e.1
  block : ∀ h p, s.mode = .blocked h p → ∃ c cap, s.calls[h]? = some c ∧ c.kind = .queue cap
  good : ∀ h c, s.calls[h]? = some c → Good (meant h evs) (flight s h) ((c.id, h) ∈ s.senders) c

theorem upd_get (s : State) (h j : Nat) (f : Call → Call) :
    (s.upd h f).calls[j]? = if h = j then (s.calls[j]?).map f else s.calls[j]? := by
  unfold State.upd
  rw [List.getElem?_modify]
  split <;> simp_all

theorem upd_length (s : State) (h : Nat) (f : Call → Call) : (s.upd h f).calls.length = s.calls.length := by
  unfold State.upd
  simp

theorem begins_snoc (evs : List Event) (e : Event) (h : ∀ k, e ≠ .begin k) : begins (evs ++ [e]) = begins evs := by
  unfold begins
  rw [List.countP_append]
  cases e with
  | begin k => exact absurd rfl (h k)
  | _ => rfl

/-- events that neither begin nor register a call -/
theorem inv_gen {evs : List Event} {s s' : State} {e : Event} (inv : MuxInv evs s)
    (hb : ∀ k, e ≠ .begin k) (hr : ∀ h, e ≠ .register h)
    (hlen : s'.calls.length = s.calls.length) (hcnt : s'.counter = s.counter)
    (hcalls : ∀ (h : Nat) (c' : Call), s'.calls[h]? = some c' → ∃ c, s.calls[h]? = some c ∧ c'.id = c.id ∧ c'.kind = c.kind ∧
      (c'.phase = .allocated → c.phase = .allocated) ∧
      (Good (meant h evs) (flight s h) ((c.id, h) ∈ s.senders) c →
        Good (meant h (evs ++ [e])) (flight s' h) ((c.id, h) ∈ s'.senders) c'))
    (htab : ∀ x ∈ s'.senders, x ∈ s.senders)
    (hblock : ∀ (h : Nat) p, s'.mode = .blocked h p → ∃ c cap, s.calls[h]? = some c ∧ c.kind = .queue cap) : MuxInv (evs ++ [e]) s' := by
  have hm : ∀ h, .register h ∈ evs ++ [e] → .register h ∈ evs := by
    intro h hm
    rcases List.mem_append.1 hm with hm | hm
    · exact hm
    · exact absurd (List.mem_singleton.1 hm).symm (hr h)
  have hget : ∀ (h : Nat) (c : Call), s.calls[h]? = some c → ∃ c', s'.calls[h]? = some c' := by
    intro h c hc
    have := (List.getElem?_eq_some_iff.1 hc).1
    exact ⟨_, List.getElem?_eq_getElem (by omega)⟩
  refine ⟨?_, ?_, ?_, ?_, ?_, ?_, ?_, ?_⟩
  · rw [hlen, inv.count, begins_snoc evs e hb]
  · rw [hcnt, hlen]; exact inv.counter
  · intro h c' hc'
    obtain ⟨c, hc, e1, _⟩ := hcalls h c' hc'
    rw [e1]; exact inv.ids h c hc
  · intro h c' hc' ha hreg
    obtain ⟨c, hc, _, _, h3, _⟩ := hcalls h c' hc'
    exact inv.fresh h c hc (h3 ha) (hm h hreg)
  · intro h hreg
    rw [hlen]; exact inv.known h (hm h hreg)
  · intro x hx
    obtain ⟨h1, c, hc, h2⟩ := inv.table x (htab x hx)
    obtain ⟨c', hc'⟩ := hget _ c hc
    obtain ⟨c2, hc2, e1, _⟩ := hcalls _ c' hc'
    rw [hc] at hc2
    cases hc2
    exact ⟨List.mem_append_left _ h1, c', hc', e1.trans h2⟩
  · intro h p hmode
    obtain ⟨c, cap, hc, hk⟩ := hblock h p hmode
    obtain ⟨c', hc'⟩ := hget _ c hc
    obtain ⟨c2, hc2, _, e2, _⟩ := hcalls _ c' hc'
    rw [hc] at hc2
    cases hc2
    exact ⟨c', cap, hc', e2.trans hk⟩
  · intro h c' hc'
    obtain ⟨c, hc, e1, _, _, h4⟩ := hcalls h c' hc'
    rw [e1]
    exact h4 (inv.good h c hc)

/-- events that change one call at most, and neither the table nor the set of ids -/
theorem inv_change {evs : List Event} {s s' : State} {e : Event} (inv : MuxInv evs s)
    (hb : ∀ k, e ≠ .begin k) (hr : ∀ h, e ≠ .register h) (hf : ∀ i p, e ≠ .frame i p)
    (hlen : s'.calls.length = s.calls.length) (hcnt : s'.counter = s.counter)
    (hcalls : ∀ (h : Nat) (c' : Call), s'.calls[h]? = some c' → ∃ c, s.calls[h]? = some c ∧ c'.id = c.id ∧ c'.kind = c.kind ∧
      (c'.phase = .allocated → c.phase = .allocated) ∧
      (Good (meant h evs) (flight s h) ((c.id, h) ∈ s.senders) c →
        Good (meant h evs) (flight s' h) ((c.id, h) ∈ s'.senders) c'))
    (htab : ∀ x ∈ s'.senders, x ∈ s.senders)
    (hblock : ∀ h p, s'.mode = .blocked h p → s.mode = .blocked h p) : MuxInv (evs ++ [e]) s' := by
  refine inv_gen inv hb hr hlen hcnt (fun h c' hc' => ?_) htab (fun h p hm => inv.block h p (hblock h p hm))
  obtain ⟨c, hc, h1, h2, h3, h4⟩ := hcalls h c' hc'
  refine ⟨c, hc, h1, h2, h3, fun hg => ?_⟩
  rw [meant_other h evs e (fun p => hf _ p)]
  exact h4 hg

/-- the same when a single call is changed -/
theorem inv_upd {evs : List Event} {s : State} {e : Event} {h : Nat} {c : Call} (f : Call → Call)
    (inv : MuxInv evs s)
    (hb : ∀ k, e ≠ .begin k) (hr : ∀ h, e ≠ .register h) (hf : ∀ i p, e ≠ .frame i p)
    (hc : s.calls[h]? = some c) (hid : (f c).id = c.id) (hk : (f c).kind = c.kind)
    (hp : (f c).phase = .allocated → c.phase = .allocated)
    (hg : Good (meant h evs) (flight s h) ((c.id, h) ∈ s.senders) c →
      Good (meant h evs) (flight s h) ((c.id, h) ∈ s.senders) (f c)) :
    MuxInv (evs ++ [e]) (s.upd h f) := by
  refine inv_change inv hb hr hf (upd_length s h f) rfl ?_ (fun _ hx => hx) (fun _ _ hm => hm)
  intro j c' hc'
  rw [upd_get] at hc'
  by_cases hj : h = j
  · subst hj
    rw [if_pos rfl, hc] at hc'
    cases hc'
    exact ⟨c, hc, hid, hk, hp, hg⟩
  · rw [if_neg hj] at hc'
    exact ⟨c', hc', rfl, rfl, id, id⟩

theorem mem_remove {l : List (Nat × Nat)} {id : Nat} {x : Nat × Nat} : x ∈ remove l id ↔ x ∈ l ∧ x.1 ≠ id := by
  unfold remove
  rw [List.mem_filter]
  simp

theorem lookup_some {l : List (Nat × Nat)} {id h : Nat} (hl : lookup l id = some h) : (id, h) ∈ l := by
  unfold lookup at hl
  cases hf : l.find? fun e => e.1 == id with
  | none => rw [hf] at hl; cases hl
  | some x =>
    rw [hf] at hl
    have h1 := List.mem_of_find?_eq_some hf
    have h2 := List.find?_some hf
    simp at h2 hl
    rw [← h2, ← hl]
    exact h1

theorem lookup_isSome {l : List (Nat × Nat)} {id h : Nat} (hm : (id, h) ∈ l) : ∃ h', lookup l id = some h' := by
  unfold lookup
  cases hf : l.find? fun e => e.1 == id with
  | none => exact absurd (BEq.refl id) (List.find?_eq_none.1 hf (id, h) hm)
  | some x => exact ⟨_, rfl⟩

theorem mem_retained {s : State} {x : Nat × Nat} {c : Call} (hx : x ∈ s.senders) (hc : s.calls[x.2]? = some c)
    (ho : c.closed = false ∨ c.kind = .serial) : x ∈ retained s := by
  unfold retained
  rw [List.mem_filter, hc]
  rcases ho with ho | ho <;> simp [hx, ho]

theorem retained_sub {s : State} {x : Nat × Nat} (hx : x ∈ retained s) : x ∈ s.senders :=
  (List.mem_filter.1 hx).1

theorem flight_free {s : State} (h : s.free = true) (j : Nat) : flight s j = [] := by
  unfold State.free at h
  unfold flight
  cases hm : s.mode <;> simp_all

/-- below wrap-around the calls in the table are found under their own ids -/
theorem table_own {evs : List Event} {s : State} (inv : MuxInv evs s) (hsmall : s.calls.length < 2 ^ 32)
    {i h : Nat} (hm : (i, h) ∈ s.senders) : i = h + 1 ∧ h < s.calls.length ∧ .register h ∈ evs := by
  obtain ⟨h1, c, hc, h2⟩ := inv.table _ hm
  have := inv.ids h c hc
  have hl := (List.getElem?_eq_some_iff.1 hc).1
  rw [h2] at this
  rw [Nat.mod_eq_of_lt (by omega)] at this
  exact ⟨this, hl, h1⟩

theorem inv_begin {evs : List Event} {s : State} (inv : MuxInv evs s) (k : Kind) (hk : k ≠ .queue 0) :
    MuxInv (evs ++ [.begin k]) { s with
      counter := (s.counter + 1) % 2 ^ 32
      calls := s.calls ++ [{ id := s.counter, kind := k, phase := .allocated }] } := by
  have hm : ∀ h, .register h ∈ evs ++ [.begin k] → .register h ∈ evs := by
    intro h hm
    rcases List.mem_append.1 hm with hm | hm
    · exact hm
    · cases List.mem_singleton.1 hm
  have hold : ∀ (h : Nat) (c : Call), s.calls[h]? = some c →
      (s.calls ++ [{ id := s.counter, kind := k, phase := .allocated }])[h]? = some c := by
    intro h c hc
    rw [List.getElem?_append_left (List.getElem?_eq_some_iff.1 hc).1]
    exact hc
  have hcases : ∀ (h : Nat) (c : Call),
      (s.calls ++ [{ id := s.counter, kind := k, phase := .allocated }])[h]? = some c →
      s.calls[h]? = some c ∨ (h = s.calls.length ∧ c = { id := s.counter, kind := k, phase := .allocated }) := by
    intro h c hc
    by_cases hl : h < s.calls.length
    · rw [List.getElem?_append_left hl] at hc
      exact .inl hc
    · rw [List.getElem?_append_right (by omega)] at hc
      have := (List.getElem?_eq_some_iff.1 hc).1
      have hz : h - s.calls.length = 0 := by simpa using this
      rw [hz] at hc
      simp at hc
      exact .inr ⟨by omega, hc.symm⟩
  have hnew : .register s.calls.length ∉ evs := fun c => Nat.lt_irrefl _ (inv.known _ c)
  refine ⟨?_, ?_, ?_, ?_, ?_, ?_, ?_, ?_⟩
  · show (s.calls ++ [_]).length = _
    unfold begins
    rw [List.countP_append, List.length_append, inv.count]
    rfl
  · show (s.counter + 1) % 2 ^ 32 = ((s.calls ++ [_]).length + 1) % 2 ^ 32
    rw [inv.counter, List.length_append, Nat.mod_add_mod]
    rfl
  · intro h c hc
    rcases hcases h c hc with hc | ⟨rfl, rfl⟩
    · exact inv.ids h c hc
    · exact inv.counter
  · intro h c hc ha hreg
    rcases hcases h c hc with hc | ⟨rfl, rfl⟩
    · exact inv.fresh h c hc ha (hm h hreg)
    · exact hnew (hm _ hreg)
  · intro h hreg
    show h < (s.calls ++ [_]).length
    rw [List.length_append]
    have := inv.known h (hm h hreg)
    omega
  · intro x hx
    obtain ⟨h1, c, hc, h2⟩ := inv.table x hx
    exact ⟨List.mem_append_left _ h1, c, hold _ c hc, h2⟩
  · intro h p hmode
    obtain ⟨c, cap, hc, hk⟩ := inv.block h p hmode
    exact ⟨c, cap, hold _ c hc, hk⟩
  · intro h c hc
    rw [meant_other h evs (.begin k) nofun]
    rcases hcases h c hc with hc | ⟨rfl, rfl⟩
    · exact inv.good h c hc
    · rw [meant_none _ evs hnew]
      have hfl : flight s s.calls.length = [] := by
        unfold flight
        cases hmode : s.mode with
        | blocked h' p =>
          obtain ⟨c, cap, hc, _⟩ := inv.block h' p hmode
          have := (List.getElem?_eq_some_iff.1 hc).1
          show (if h' = s.calls.length then _ else _) = _
          rw [if_neg (by omega)]
        | _ => rfl
      have hfl' : flight { s with
          counter := (s.counter + 1) % 2 ^ 32
          calls := s.calls ++ [{ id := s.counter, kind := k, phase := .allocated }] } s.calls.length = [] := hfl
      rw [hfl']
      cases k with
      | serial => exact ⟨by simp, fun _ => rfl, nofun, nofun, fun h => absurd rfl h⟩
      | queue cap =>
        refine ⟨Nat.pos_of_ne_zero fun c => hk (by rw [c]), by simp, fun _ => ⟨rfl, fun c => absurd rfl c⟩, nofun⟩

theorem inv_register {evs : List Event} {s : State} {h : Nat} {c : Call} (inv : MuxInv evs s)
    (hsmall : s.calls.length < 2 ^ 32) (hc : s.calls[h]? = some c) (ha : c.phase = .allocated)
    (tab : List (Nat × Nat)) (hsub : ∀ x ∈ tab, x ∈ s.senders)
    (hkeep : ∀ x ∈ s.senders, ∀ c', s.calls[x.2]? = some c' → c'.closed = false ∨ c'.kind = .serial → x ∈ tab) :
    MuxInv (evs ++ [.register h])
      ({ s with senders := insert tab c.id h }.upd h fun c => { c with phase := .registered }) := by
  have hnew := inv.fresh h c hc ha
  have hlt := (List.getElem?_eq_some_iff.1 hc).1
  have hidh : c.id = h + 1 := by
    rw [inv.ids h c hc, Nat.mod_eq_of_lt (by omega)]
  have hget : ∀ (j : Nat) (c' : Call),
      ({ s with senders := insert tab c.id h }.upd h fun c => { c with phase := .registered }).calls[j]? = some c' →
      (j = h ∧ c' = { c with phase := .registered }) ∨ (j ≠ h ∧ s.calls[j]? = some c') := by
    intro j c' hc'
    rw [upd_get] at hc'
    by_cases hj : h = j
    · subst hj
      rw [if_pos rfl] at hc'
      have hc2 : (s.calls[h]?).map _ = some c' := hc'
      rw [hc] at hc2
      cases hc2
      exact .inl ⟨rfl, rfl⟩
    · rw [if_neg hj] at hc'
      exact .inr ⟨fun e => hj e.symm, hc'⟩
  have hback : ∀ (j : Nat) (c' : Call), s.calls[j]? = some c' →
      ∃ c2, ({ s with senders := insert tab c.id h }.upd h fun c => { c with phase := .registered }).calls[j]? = some c2 ∧
        c2.id = c'.id ∧ c2.kind = c'.kind := by
    intro j c' hc'
    rw [upd_get]
    by_cases hj : h = j
    · subst hj
      rw [if_pos rfl]
      refine ⟨{ c' with phase := .registered }, ?_, rfl, rfl⟩
      show (s.calls[h]?).map _ = _
      rw [hc']
      rfl
    · rw [if_neg hj]
      exact ⟨c', hc', rfl, rfl⟩
  have hreg : ∀ j, j ≠ h → .register j ∈ evs ++ [.register h] → .register j ∈ evs := by
    intro j hj hm
    rcases List.mem_append.1 hm with hm | hm
    · exact hm
    · cases List.mem_singleton.1 hm
      exact absurd rfl hj
  refine ⟨?_, ?_, ?_, ?_, ?_, ?_, ?_, ?_⟩
  · rw [upd_length, begins_snoc evs (.register h) nofun]; exact inv.count
  · rw [upd_length]; exact inv.counter
  · intro j c' hc'
    rcases hget j c' hc' with ⟨rfl, rfl⟩ | ⟨_, hc'⟩
    · exact inv.ids _ c hc
    · exact inv.ids j c' hc'
  · intro j c' hc' hp hm
    rcases hget j c' hc' with ⟨rfl, rfl⟩ | ⟨hj, hc'⟩
    · cases hp
    · exact inv.fresh j c' hc' hp (hreg j hj hm)
  · intro j hm
    rw [upd_length]
    by_cases hj : j = h
    · rw [hj]; exact hlt
    · exact inv.known j (hreg j hj hm)
  · intro x hx
    have hx : x ∈ insert tab c.id h := hx
    rcases List.mem_cons.1 hx with rfl | hx
    · obtain ⟨c2, hc2, e, _⟩ := hback h c hc
      exact ⟨List.mem_append_right _ (List.mem_singleton.2 rfl), c2, hc2, e⟩
    · obtain ⟨h1, c', hc', h2⟩ := inv.table x (hsub x (mem_remove.1 hx).1)
      obtain ⟨c2, hc2, e, _⟩ := hback _ c' hc'
      exact ⟨List.mem_append_left _ h1, c2, hc2, e.trans h2⟩
  · intro j p hmode
    obtain ⟨c', cap, hc', hk⟩ := inv.block j p hmode
    obtain ⟨c2, hc2, _, e⟩ := hback _ c' hc'
    exact ⟨c2, cap, hc2, e.trans hk⟩
  · intro j c' hc'
    rw [meant_other j evs (.register h) nofun]
    have hfl : flight ({ s with senders := insert tab c.id h }.upd h fun c => { c with phase := .registered }) j =
      flight s j := rfl
    rw [hfl]
    rcases hget j c' hc' with ⟨rfl, rfl⟩ | ⟨hj, hc'⟩
    · have hg := inv.good _ c hc
      unfold Good at hg ⊢
      cases hk : c.kind with
      | serial =>
        rw [hk] at hg
        exact ⟨hg.1, fun _ => hg.2.1 (by rw [ha]; nofun), hg.2.2.1, hg.2.2.2.1, fun _ _ => List.mem_cons_self⟩
      | queue cap =>
        rw [hk] at hg
        refine ⟨hg.1, hg.2.1, fun ho => ⟨(hg.2.2.1 ho).1, fun _ => List.mem_cons_self⟩, hg.2.2.2⟩
    · have hg := inv.good j c' hc'
      have hstay : (c'.id, j) ∈ s.senders → c'.closed = false ∨ c'.kind = .serial →
          (c'.id, j) ∈ insert tab c.id h := by
        intro hin ho
        have hl := (List.getElem?_eq_some_iff.1 hc').1
        have hidj : c'.id = j + 1 := by
          rw [inv.ids j c' hc', Nat.mod_eq_of_lt (by omega)]
        refine List.mem_cons_of_mem _ (mem_remove.2 ⟨hkeep _ hin c' hc' ho, ?_⟩)
        show c'.id ≠ c.id
        omega
      unfold Good at hg ⊢
      cases hk : c'.kind with
      | serial =>
        rw [hk] at hg
        refine ⟨hg.1, hg.2.1, hg.2.2.1, hg.2.2.2.1, fun hp hp' => ?_⟩
        exact hstay (hg.2.2.2.2 hp hp') (.inr hk)
      | queue cap =>
        rw [hk] at hg
        refine ⟨hg.1, hg.2.1, fun ho => ⟨(hg.2.2.1 ho).1, fun hp => ?_⟩, hg.2.2.2⟩
        exact hstay ((hg.2.2.1 ho).2 hp) (.inl ho)

theorem prefix_mem {a b : List Payload} (h : a <+: b) {p : Payload} (hp : p ∈ a) : p ∈ b := h.subset hp

/-- a frame that does not reach a call leaves it good -/
theorem good_skip {evs : List Event} {s : State} (inv : MuxInv evs s) (hrun : s.mode = .running)
    (hsmall : s.calls.length < 2 ^ 32) {i : Nat} {p : Payload} {h : Nat} {c : Call}
    (hc : s.calls[h]? = some c) (hmiss : lookup s.senders i = some h → c.closed = true ∧ c.kind ≠ .serial)
    (hg : Good (meant h evs) (flight s h) ((c.id, h) ∈ s.senders) c) :
    Good (meant h (evs ++ [.frame i p])) [] ((c.id, h) ∈ s.senders) c := by
  have hfl : flight s h = [] := by unfold flight; rw [hrun]
  rw [hfl] at hg
  by_cases hi : i = h + 1
  · subst hi
    have hmono := meant_mono h evs (.frame (h + 1) p)
    have hidh : c.id = h + 1 := by
      rw [inv.ids h c hc, Nat.mod_eq_of_lt]
      have := (List.getElem?_eq_some_iff.1 hc).1
      omega
    unfold Good at hg ⊢
    cases hk : c.kind with
    | serial =>
      rw [hk] at hg
      exact ⟨hg.1, hg.2.1, fun p hp => prefix_mem hmono (hg.2.2.1 p hp), fun p hp => prefix_mem hmono (hg.2.2.2.1 p hp), hg.2.2.2.2⟩
    | queue cap =>
      rw [hk] at hg
      refine ⟨hg.1, hg.2.1, fun ho => ?_, fun hcl => (hg.2.2.2 hcl).trans hmono⟩
      have hh := hg.2.2.1 ho
      by_cases ha : c.phase = .allocated
      · have hn := inv.fresh h c hc ha
        have : meant h (evs ++ [.frame (h + 1) p]) = meant h evs := by
          rw [meant_none h evs hn]
          refine meant_none h _ fun hm => ?_
          rcases List.mem_append.1 hm with hm | hm
          · exact hn hm
          · cases List.mem_singleton.1 hm
        rw [this]
        exact hh
      · have hin := hh.2 ha
        rw [hidh] at hin
        obtain ⟨h', hl⟩ := lookup_isSome hin
        have hown := table_own inv hsmall (lookup_some hl)
        have : h' = h := by omega
        rw [this] at hl
        rw [(hmiss hl).1] at ho
        cases ho
  · rw [meant_other h evs _ (fun q e => hi (by injection e))]
    exact hg

theorem inv_frame {evs : List Event} {s : State} (inv : MuxInv evs s) (hrun : s.mode = .running)
    (hsmall : s.calls.length < 2 ^ 32) (i : Nat) (p : Payload) :
    MuxInv (evs ++ [.frame i p]) (s.deliver i p) := by
  have hfl : ∀ (s' : State) h, s'.mode = .running → flight s' h = [] := by
    intro s' h hm
    unfold flight; rw [hm]
  have same : (∀ h c, s.calls[h]? = some c → lookup s.senders i = some h → c.closed = true ∧ c.kind ≠ .serial) →
      MuxInv (evs ++ [.frame i p]) s := by
    intro hmiss
    refine inv_gen inv nofun nofun rfl rfl (fun h c hc => ⟨c, hc, rfl, rfl, id, fun hg => ?_⟩) (fun _ hx => hx)
      (fun h p hm => by rw [hrun] at hm; cases hm)
    rw [hfl s h hrun]
    exact good_skip inv hrun hsmall hc (hmiss h c hc) hg
  unfold State.deliver
  cases hl : lookup s.senders i with
  | none => exact same (fun h c _ hl' => by rw [hl] at hl'; cases hl')
  | some h =>
    have hown := table_own inv hsmall (lookup_some hl)
    obtain ⟨rfl, hlt, hreg⟩ := hown
    have hc : s.calls[h]? = some s.calls[h] := List.getElem?_eq_getElem hlt
    generalize hcc : s.calls[h] = c at hc
    dsimp only
    rw [hc]
    dsimp only
    have other : ∀ (s' : State) (f : Call → Call), s'.mode = .running → s' = s.upd h f → (f c).id = c.id →
        (f c).kind = c.kind → (f c).phase = c.phase →
        (Good (meant h evs) [] ((c.id, h) ∈ s.senders) c →
          Good (meant h evs ++ [p]) [] ((c.id, h) ∈ s.senders) (f c)) →
        MuxInv (evs ++ [.frame (h + 1) p]) s' := by
      rintro s' f hm rfl hid hk hp hg
      refine inv_gen inv nofun nofun (upd_length s h f) rfl (fun j c' hc' => ?_) (fun _ hx => hx)
        (fun h p hm' => by rw [hm] at hm'; cases hm')
      rw [upd_get] at hc'
      by_cases hj : h = j
      · subst hj
        rw [if_pos rfl, hc] at hc'
        cases hc'
        refine ⟨c, hc, hid, hk, fun e => hp ▸ e, fun hg' => ?_⟩
        rw [hfl _ h hm, meant_frame h evs p hreg]
        rw [hfl s h hrun] at hg'
        exact hg hg'
      · rw [if_neg hj] at hc'
        refine ⟨c', hc', rfl, rfl, id, fun hg' => ?_⟩
        rw [hfl _ j hm]
        refine good_skip inv hrun hsmall hc' (fun e => ?_) hg'
        rw [hl] at e
        cases e
        exact absurd rfl hj
    cases hk : c.kind with
    | serial =>
      refine other _ _ hrun rfl rfl rfl rfl fun hg => ?_
      unfold Good at hg ⊢
      rw [hk] at hg
      rw [show (Call.notify { c with slot := some p }).kind = .serial from hk]
      refine ⟨hg.1, hg.2.1, fun q hq => List.mem_append_left _ (hg.2.2.1 q hq), fun q hq => ?_, hg.2.2.2.2⟩
      cases hq
      exact List.mem_append_right _ (List.mem_singleton.2 rfl)
    | queue cap =>
      dsimp only
      by_cases ho : c.closed = true
      · rw [if_pos ho]
        refine same fun h' c' hc' hl' => ?_
        rw [hl] at hl'
        cases hl'
        rw [hc] at hc'
        cases hc'
        exact ⟨ho, by rw [hk]; nofun⟩
      · rw [if_neg ho]
        have ho : c.closed = false := by simpa using ho
        by_cases hroom : c.room = true
        · rw [if_pos hroom]
          refine other _ _ hrun rfl rfl rfl rfl fun hg => ?_
          unfold Good at hg ⊢
          rw [hk] at hg
          rw [show ({ c with queue := c.queue ++ [some p] } : Call).kind = .queue cap from hk]
          unfold Call.room at hroom
          rw [hk] at hroom
          refine ⟨hg.1, ?_, fun _ => ⟨?_, (hg.2.2.1 ho).2⟩, fun c' => by rw [show c.closed = true from c'] at ho; cases ho⟩
          · show (c.queue ++ [some p]).length ≤ cap
            simp at hroom ⊢
            omega
          · rw [← (hg.2.2.1 ho).1]
            unfold gotten
            simp
        · rw [if_neg hroom]
          refine inv_gen inv nofun nofun rfl rfl (fun j c' hc' => ⟨c', hc', rfl, rfl, id, fun hg => ?_⟩)
            (fun _ hx => hx) (fun h' p' hm => ?_)
          · by_cases hj : h = j
            · subst hj
              have hc' : s.calls[h]? = some c' := hc'
              rw [hc] at hc'
              cases hc'
              rw [hfl s h hrun] at hg
              have : flight { s with mode := .blocked h p } h = [p] := by
                unfold flight; simp
              rw [this, meant_frame h evs p hreg]
              unfold Good at hg ⊢
              rw [hk] at hg ⊢
              refine ⟨hg.1, hg.2.1, fun _ => ⟨?_, (hg.2.2.1 ho).2⟩, fun c' => by rw [c'] at ho; cases ho⟩
              rw [← (hg.2.2.1 ho).1, List.append_nil]
            · have : flight { s with mode := .blocked h p } j = [] := by
                unfold flight; simp [hj]
              rw [this]
              refine good_skip inv hrun hsmall hc' (fun e => ?_) hg
              rw [hl] at e
              cases e
              exact absurd rfl hj
          · cases hm
            exact ⟨c, cap, hc, hk⟩

/-- `Good` in the two cases -/
theorem good_serial {m fl : List Payload} {tab : Prop} {c : Call} (hk : c.kind = .serial) :
    Good m fl tab c ↔ c.out.length ≤ 1 ∧ (c.phase ≠ .done → c.out = []) ∧ (∀ p, some p ∈ c.out → p ∈ m) ∧
      (∀ p, c.slot = some p → p ∈ m) ∧ (c.phase ≠ .allocated → c.phase ≠ .done → tab) := by
  unfold Good; rw [hk]

theorem good_queue {m fl : List Payload} {tab : Prop} {c : Call} {cap : Nat} (hk : c.kind = .queue cap) :
    Good m fl tab c ↔ 0 < cap ∧ c.queue.length ≤ cap ∧
      (c.closed = false → gotten c ++ fl = m ∧ (c.phase ≠ .allocated → tab)) ∧
      (c.closed = true → gotten c <+: m) := by
  unfold Good; rw [hk]

/-- closing a stream -/
theorem good_closed {m fl : List Payload} {tab tab' : Prop} {c c' : Call} (fl' : List Payload)
    (hk : ∃ cap, c.kind = .queue cap ∧ c'.kind = .queue cap)
    (hq : c'.queue = c.queue) (ho : c'.out = c.out) (hcl : c'.closed = true) (hg : Good m fl tab c) :
    Good m fl' tab' c' := by
  obtain ⟨cap, h1, h2⟩ := hk
  rw [good_queue h1] at hg
  rw [good_queue h2]
  have hgot : gotten c' = gotten c := by unfold gotten; rw [hq, ho]
  refine ⟨hg.1, (by rw [hq]; exact hg.2.1), (fun e => by rw [hcl] at e; cases e), fun _ => ?_⟩
  rw [hgot]
  cases hc : c.closed with
  | true => exact hg.2.2.2 hc
  | false =>
    rw [← (hg.2.2.1 hc).1]
    exact List.prefix_append _ _

theorem inv_remove {evs : List Event} {s : State} {e : Event} {h : Nat} {c : Call} (x : List (Option Payload))
    (inv : MuxInv evs s) (hsmall : s.calls.length < 2 ^ 32)
    (hb : ∀ k, e ≠ .begin k) (hr : ∀ h, e ≠ .register h) (hf : ∀ i p, e ≠ .frame i p)
    (hc : s.calls[h]? = some c) (hk : c.kind = .serial)
    (hx : x.length ≤ 1) (hp : ∀ p, some p ∈ x → c.slot = some p) (f : Call → Call)
    (hfc : f c = { c with phase := .done, out := x }) :
    MuxInv (evs ++ [e]) ({ s with senders := remove s.senders c.id }.upd h f) := by
  refine inv_change inv hb hr hf (upd_length _ h f) rfl ?_ (fun y hy => (mem_remove.1 hy).1) (fun _ _ hm => hm)
  intro j c' hc'
  rw [upd_get] at hc'
  by_cases hj : h = j
  · subst hj
    rw [if_pos rfl] at hc'
    have hc2 : (s.calls[h]?).map f = some c' := hc'
    rw [hc] at hc2
    cases hc2
    rw [hfc]
    refine ⟨c, hc, rfl, rfl, nofun, fun hg => ?_⟩
    rw [good_serial hk] at hg
    rw [good_serial (c := { c with phase := .done, out := x }) hk]
    exact ⟨hx, fun h => absurd rfl h, fun p hp' => hg.2.2.2.1 p (hp p hp'), hg.2.2.2.1, fun _ h => absurd rfl h⟩
  · rw [if_neg hj] at hc'
    have hc' : s.calls[j]? = some c' := hc'
    refine ⟨c', hc', rfl, rfl, id, fun hg => ?_⟩
    have hne : c'.id ≠ c.id := by
      have h1 := (List.getElem?_eq_some_iff.1 hc).1
      have h2 := (List.getElem?_eq_some_iff.1 hc').1
      rw [inv.ids j c' hc', inv.ids h c hc, Nat.mod_eq_of_lt (by omega), Nat.mod_eq_of_lt (by omega)]
      omega
    cases hk' : c'.kind with
    | serial =>
      rw [good_serial hk'] at hg ⊢
      exact ⟨hg.1, hg.2.1, hg.2.2.1, hg.2.2.2.1, fun a b => mem_remove.2 ⟨hg.2.2.2.2 a b, hne⟩⟩
    | queue cap =>
      rw [good_queue hk'] at hg ⊢
      exact ⟨hg.1, hg.2.1, fun ho => ⟨(hg.2.2.1 ho).1, fun hp => mem_remove.2 ⟨(hg.2.2.1 ho).2 hp, hne⟩⟩, hg.2.2.2⟩

theorem kind_cases (c : Call) : c.kind = .serial ∨ ∃ cap, c.kind = .queue cap := by
  cases c.kind with
  | serial => exact .inl rfl
  | queue cap => exact .inr ⟨cap, rfl⟩

theorem mux_step {evs : List Event} {s s' : State} {e : Event} (inv : MuxInv evs s) (h : step s e = some s')
    (hsmall : s'.calls.length < 2 ^ 32) : MuxInv (evs ++ [e]) s' := by
  cases e with
  | begin k =>
    unfold step at h
    dsimp only at h
    split at h
    · cases h
    · rename_i hk
      cases h
      exact inv_begin inv k hk
  | register j =>
    unfold step at h
    dsimp only at h
    split at h
    · rename_i c hc
      split at h
      · rename_i hcond
        split at h
        · cases h
          rw [upd_length] at hsmall
          exact inv_register inv hsmall hc hcond.2 _ (fun _ hx => hx) (fun x hx _ _ _ => hx)
        · cases h
          rw [upd_length] at hsmall
          exact inv_register inv hsmall hc hcond.2 _ (fun _ hx => retained_sub hx)
            (fun x hx c' hc' ho => mem_retained hx hc' ho)
      · cases h
    · cases h
  | listen j =>
    unfold step at h
    dsimp only at h
    split at h
    · rename_i c hc
      split at h
      · rename_i hcond
        cases h
        refine inv_upd _ inv nofun nofun nofun hc rfl rfl nofun fun hg => ?_
        rw [good_serial hcond.1] at hg
        rw [good_serial (c := { c with phase := .listening }) hcond.1]
        exact ⟨hg.1, fun _ => hg.2.1 (by rw [hcond.2]; nofun), hg.2.2.1, hg.2.2.2.1,
          fun _ _ => hg.2.2.2.2 (by rw [hcond.2]; nofun) (by rw [hcond.2]; nofun)⟩
      · cases h
    · cases h
  | sent j =>
    unfold step at h
    dsimp only at h
    split at h
    · rename_i c hc
      split at h
      · rename_i hcond
        cases h
        refine inv_upd _ inv nofun nofun nofun hc rfl rfl nofun fun hg => ?_
        rcases kind_cases c with hk | ⟨cap, hk⟩
        · have hph : c.phase = .listening := by
            rcases hcond with ⟨_, h2⟩ | ⟨h1, _⟩
            · exact h2
            · exact absurd hk h1
          rw [good_serial hk] at hg
          rw [good_serial (c := { c with phase := .waiting }) hk]
          exact ⟨hg.1, fun _ => hg.2.1 (by rw [hph]; nofun), hg.2.2.1, hg.2.2.2.1,
            fun _ _ => hg.2.2.2.2 (by rw [hph]; nofun) (by rw [hph]; nofun)⟩
        · have hph : c.phase ≠ .allocated := by
            rcases hcond with ⟨h1, _⟩ | ⟨_, h2⟩
            · rw [hk] at h1; cases h1
            · rw [h2]; nofun
          rw [good_queue hk] at hg
          rw [good_queue (c := { c with phase := .waiting }) hk]
          exact ⟨hg.1, hg.2.1, fun ho => ⟨(hg.2.2.1 ho).1, fun _ => (hg.2.2.1 ho).2 hph⟩, hg.2.2.2⟩
      · cases h
    · cases h
  | sendFailed j =>
    unfold step at h
    dsimp only at h
    split at h
    · rename_i c hc
      split at h
      · rename_i hcond
        cases h
        refine inv_upd _ inv nofun nofun nofun hc rfl rfl nofun fun hg => ?_
        rw [good_serial hcond.1] at hg
        rw [good_serial (c := { c with phase := .done, out := [none] }) hcond.1]
        exact ⟨by simp, fun h => absurd rfl h, (fun p hp => by simp at hp), hg.2.2.2.1, fun _ h => absurd rfl h⟩
      · split at h
        · rename_i hcond
          cases h
          refine inv_upd _ inv nofun nofun nofun hc rfl rfl nofun fun hg => ?_
          rcases kind_cases c with hk | ⟨cap, hk⟩
          · exact absurd hk hcond.1
          · exact good_closed _ ⟨cap, hk, hk⟩ rfl rfl rfl hg
        · cases h
    · cases h
  | frame i p =>
    unfold step at h
    dsimp only at h
    split at h
    · rename_i hrun
      cases h
      refine inv_frame inv hrun ?_ i p
      unfold State.deliver at hsmall
      split at hsmall
      · exact hsmall
      · split at hsmall
        · exact hsmall
        · split at hsmall
          · rw [upd_length] at hsmall; exact hsmall
          · split at hsmall
            · exact hsmall
            · split at hsmall
              · rw [upd_length] at hsmall; exact hsmall
              · exact hsmall
    · cases h
  | resume =>
    unfold step at h
    dsimp only at h
    split at h
    · rename_i j p hmode
      split at h
      · rename_i c hc
        obtain ⟨c2, cap, hc2, hk⟩ := inv.block j p hmode
        rw [hc] at hc2
        cases hc2
        have hflo : ∀ i, i ≠ j → flight s i = [] := by
          intro i hi
          unfold flight; rw [hmode]
          show (if j = i then _ else _) = _
          rw [if_neg (fun e => hi e.symm)]
        have hfl : flight s j = [p] := by
          unfold flight; rw [hmode]
          exact if_pos rfl
        split at h
        · rename_i hcl
          cases h
          refine inv_change inv nofun nofun nofun rfl rfl (fun i c' hc' => ⟨c', hc', rfl, rfl, id, fun hg => ?_⟩)
            (fun _ hx => hx) nofun
          show Good _ [] _ _
          by_cases hi : i = j
          · subst hi
            have hc' : s.calls[i]? = some c' := hc'
            rw [hc] at hc'
            cases hc'
            exact good_closed _ ⟨cap, hk, hk⟩ rfl rfl hcl hg
          · rw [hflo i hi] at hg
            exact hg
        · rename_i hcl
          have hcl : c.closed = false := by simpa using hcl
          split at h
          · rename_i hroom
            cases h
            refine inv_change inv nofun nofun nofun (upd_length _ _ _) rfl (fun i c' hc' => ?_) (fun _ hx => hx) nofun
            rw [upd_get] at hc'
            by_cases hi : j = i
            · subst hi
              rw [if_pos rfl] at hc'
              have hc' : (s.calls[j]?).map _ = some c' := hc'
              rw [hc] at hc'
              cases hc'
              refine ⟨c, hc, rfl, rfl, id, fun hg => ?_⟩
              show Good _ [] _ _
              rw [hfl, good_queue hk] at hg
              rw [good_queue (c := { c with queue := c.queue ++ [some p] }) hk]
              unfold Call.room at hroom
              rw [hk] at hroom
              refine ⟨hg.1, ?_, fun _ => ⟨?_, (hg.2.2.1 hcl).2⟩, fun e => by rw [show c.closed = true from e] at hcl; cases hcl⟩
              · show (c.queue ++ [some p]).length ≤ cap
                simp at hroom ⊢
                omega
              · rw [← (hg.2.2.1 hcl).1]
                unfold gotten
                simp
            · rw [if_neg hi] at hc'
              refine ⟨c', hc', rfl, rfl, id, fun hg => ?_⟩
              rw [hflo i (fun e => hi e.symm)] at hg
              exact hg
          · cases h
      · cases h
    · cases h
  | take j =>
    unfold step at h
    dsimp only at h
    split at h
    · rename_i c hc
      split at h
      · rename_i hp
        split at h
        · rename_i hk
          split at h
          · cases h
            rw [upd_length] at hsmall
            refine inv_remove (e := .take j) [c.slot] inv hsmall nofun nofun nofun hc hk (by simp) (fun p hp => ?_)
              (fun c => { c with phase := .done, out := [c.slot] }) rfl
            exact (List.mem_singleton.1 hp).symm
          · cases h
        · rename_i cap hk
          split at h
          · cases h
          · rename_i x rest hq
            cases h
            refine inv_upd _ inv nofun nofun nofun hc rfl rfl id fun hg => ?_
            rw [good_queue hk] at hg
            rw [good_queue (c := { c with queue := rest, out := c.out ++ [x] }) hk]
            have hgot : gotten { c with queue := rest, out := c.out ++ [x] } = gotten c := by
              unfold gotten
              rw [hq]
              simp
            rw [hgot]
            refine ⟨hg.1, ?_, hg.2.2⟩
            have := hg.2.1
            rw [hq] at this
            simp at this ⊢
            omega
      · cases h
    · cases h
  | timeout j =>
    unfold step at h
    dsimp only at h
    split at h
    · rename_i c hc
      split at h
      · rename_i hcond
        cases h
        rw [upd_length] at hsmall
        refine inv_remove (e := .timeout j) [none] inv hsmall nofun nofun nofun hc hcond.1 (by simp) (fun p hp => ?_)
          (fun c => { c with phase := .done, out := [none] }) rfl
        simp at hp
      · cases h
    · cases h
  | drop j =>
    unfold step at h
    dsimp only at h
    split at h
    · rename_i c hc
      split at h
      · cases h
      · rename_i hp
        cases h
        refine inv_upd _ inv nofun nofun nofun hc rfl rfl nofun fun hg => ?_
        rcases kind_cases c with hk | ⟨cap, hk⟩
        · rw [good_serial hk] at hg
          rw [good_serial (c := { c with phase := .done, closed := true }) hk]
          exact ⟨hg.1, fun h => absurd rfl h, hg.2.2.1, hg.2.2.2.1, fun _ h => absurd rfl h⟩
        · exact good_closed _ ⟨cap, hk, hk⟩ rfl rfl rfl hg
    · cases h
  | eof =>
    unfold step at h
    dsimp only at h
    split at h
    · rename_i hrun
      cases h
      refine inv_change inv nofun nofun nofun rfl rfl (fun i c' hc' => ⟨c', hc', rfl, rfl, id, fun hg => ?_⟩)
        (fun _ hx => hx) nofun
      have : flight s i = [] := by unfold flight; rw [hrun]
      rw [this] at hg
      exact hg
    · cases h
  | closeStep j =>
    unfold step at h
    dsimp only at h
    split at h
    · rename_i rest hmode
      split at h
      · split at h
        · rename_i c hc
          split at h
          · rename_i c2 hclose
            cases h
            refine inv_change inv nofun nofun nofun (upd_length s j _) rfl (fun i c' hc' => ?_) (fun _ hx => hx) nofun
            have hfl : ∀ i, flight s i = [] := by intro i; unfold flight; rw [hmode]
            have hc' : (s.upd j fun _ => c2).calls[i]? = some c' := hc'
            rw [upd_get] at hc'
            by_cases hi : j = i
            · subst hi
              rw [if_pos rfl, hc] at hc'
              cases hc'
              unfold Call.close at hclose
              split at hclose
              · rename_i hk
                cases hclose
                refine ⟨c, hc, rfl, rfl, id, fun hg => ?_⟩
                show Good _ [] _ _
                rw [good_serial hk] at hg
                rw [good_serial (c := Call.notify { c with slot := none }) hk]
                exact ⟨hg.1, hg.2.1, hg.2.2.1, nofun, hg.2.2.2.2⟩
              · rename_i cap hk
                split at hclose
                · cases hclose
                  refine ⟨c, hc, rfl, rfl, id, fun hg => ?_⟩
                  rw [hfl] at hg
                  exact hg
                · split at hclose
                  · rename_i hroom
                    cases hclose
                    refine ⟨c, hc, rfl, rfl, id, fun hg => ?_⟩
                    show Good _ [] _ _
                    rw [hfl, good_queue hk] at hg
                    rw [good_queue (c := { c with queue := c.queue ++ [none] }) hk]
                    have hgot : gotten { c with queue := c.queue ++ [none] } = gotten c := by
                      unfold gotten
                      simp
                    rw [hgot]
                    refine ⟨hg.1, ?_, hg.2.2⟩
                    unfold Call.room at hroom
                    rw [hk] at hroom
                    show (c.queue ++ [none]).length ≤ cap
                    simp at hroom ⊢
                    omega
                  · cases hclose
            · rw [if_neg hi] at hc'
              refine ⟨c', hc', rfl, rfl, id, fun hg => ?_⟩
              rw [hfl] at hg
              exact hg
          · cases h
        · cases h
      · cases h
    · cases h
  | closeDone =>
    unfold step at h
    dsimp only at h
    split at h
    · rename_i hm
      cases h
      refine inv_change inv nofun nofun nofun rfl rfl (fun i c' hc' => ⟨c', hc', rfl, rfl, id, fun hg => ?_⟩)
        (fun _ hx => hx) nofun
      have : flight s i = [] := by unfold flight; rw [hm]
      rw [this] at hg
      exact hg
    · cases h
  | terminate =>
    unfold step at h
    dsimp only at h
    split at h
    · rename_i hrun
      cases h
      have hfl : ∀ i, flight s i = [] := by intro i; unfold flight; rw [hrun]
      refine inv_change (e := .terminate) inv nofun nofun nofun List.length_mapIdx rfl (fun i c' hc' => ?_)
        (fun _ hx => hx) nofun
      have hc' : (s.calls.mapIdx fun h c => if s.senders.any (fun e => e.2 == h) then c.terminate else c)[i]? = some c' := hc'
      rw [List.getElem?_mapIdx] at hc'
      cases hc : s.calls[i]? with
      | none => rw [hc] at hc'; cases hc'
      | some c =>
        rw [hc] at hc'
        simp only [Option.map_some, Option.some.injEq] at hc'
        split at hc'
        · cases hc'
          have hcases : (c.kind = .serial ∧ c.terminate = Call.notify { c with slot := none }) ∨
              (∃ cap, c.kind = .queue cap ∧ c.terminate = { c with closed := true }) := by
            unfold Call.terminate
            cases hk : c.kind with
            | serial => exact .inl ⟨rfl, rfl⟩
            | queue cap => exact .inr ⟨cap, rfl, rfl⟩
          rcases hcases with ⟨hk, ht⟩ | ⟨cap, hk, ht⟩
          · rw [ht]
            refine ⟨c, rfl, rfl, rfl, id, fun hg => ?_⟩
            rw [good_serial hk] at hg
            rw [good_serial (c := Call.notify { c with slot := none }) hk]
            exact ⟨hg.1, hg.2.1, hg.2.2.1, nofun, hg.2.2.2.2⟩
          · rw [ht]
            exact ⟨c, rfl, rfl, rfl, id, fun hg => good_closed _ ⟨cap, hk, hk⟩ rfl rfl rfl hg⟩
        · cases hc'
          refine ⟨_, rfl, rfl, rfl, id, fun hg => ?_⟩
          rw [hfl] at hg
          exact hg
    · cases h

theorem mux_init : MuxInv [] State.init :=
  ⟨rfl, rfl, nofun, nofun, nofun, nofun, nofun, nofun⟩

theorem step_length {s s' : State} {e : Event} (h : step s e = some s') : s.calls.length ≤ s'.calls.length := by
  cases e with
  | begin k =>
    unfold step at h
    dsimp only at h
    split at h
    · cases h
    · cases h
      simp
  | terminate =>
    unfold step at h
    dsimp only at h
    split at h
    · cases h
      simp
    · cases h
  | frame i p =>
    unfold step at h
    dsimp only at h
    split at h
    · cases h
      unfold State.deliver
      split
      · simp
      · split
        · simp
        · split
          · simp [upd_length]
          · split
            · simp
            · split
              · simp [upd_length]
              · simp
    · cases h
  | _ =>
    unfold step at h
    dsimp only at h
    repeat' split at h
    all_goals first | cases h; simp [upd_length]; done | cases h

theorem mux_reach {evs : List Event} {s : State} (h : Reach evs s) (hsmall : s.calls.length < 2 ^ 32) :
    MuxInv evs s := by
  induction h with
  | init => exact mux_init
  | snoc _ hs ih => exact mux_step (ih (Nat.lt_of_le_of_lt (step_length hs) hsmall)) hs hsmall

/-! ## C45 -/

theorem count_begins {evs : List Event} {s : State} (h : Reach evs s) : s.calls.length = begins evs := by
  induction h with
  | init => rfl
  | @snoc evs e s s' _ hs ih =>
    cases e with
    | begin k =>
      unfold step at hs
      dsimp only at hs
      split at hs
      · cases hs
      · cases hs
        show (s.calls ++ [_]).length = _
        rw [List.length_append, ih]
        unfold begins
        rw [List.countP_append]
        rfl
    | terminate =>
      rw [begins_snoc _ .terminate nofun, ← ih]
      unfold step at hs
      dsimp only at hs
      split at hs
      · cases hs
        simp
      · cases hs
    | frame i p =>
      rw [begins_snoc _ (.frame i p) nofun, ← ih]
      unfold step at hs
      dsimp only at hs
      split at hs
      · cases hs
        unfold State.deliver
        split
        · simp
        · split
          · simp
          · split
            · simp [upd_length]
            · split
              · simp
              · split
                · simp [upd_length]
                · simp
      · cases hs
    | _ =>
      rw [begins_snoc _ _ (by exact nofun), ← ih]
      unfold step at hs
      dsimp only at hs
      repeat' split at hs
      all_goals first | cases hs; simp [upd_length]; done | cases hs

theorem begins_small {evs : List Event} {s : State} (h : Reach evs s) (hb : begins evs < 2 ^ 32) :
    MuxInv evs s := mux_reach h (by rw [count_begins h]; exact hb)

/-- **C45, requests.** A request gets at most one answer, and if it is a response then it is one that
carried its correlation id and arrived after it was registered. -/
theorem C45_request (evs : List Event) (s : State) (hr : Reach evs s) (hb : begins evs < 2 ^ 32)
    (h : Nat) (c : Call) (hc : s.calls[h]? = some c) (hk : c.kind = .serial) :
    c.out.length ≤ 1 ∧ ∀ p, some p ∈ c.out → p ∈ meant h evs := by
  have hg := (begins_small hr hb).good h c hc
  rw [good_serial hk] at hg
  exact ⟨hg.1, hg.2.2.1⟩

/-- **C45, streams.** The messages a stream has handed out and still holds, in this order, are the
messages with its correlation id that arrived since it was registered, in server order, without gap or
repetition: all of them (counting the one the dispatcher holds in its hands) while the stream is open,
an initial part of them once it was closed. -/
theorem C45_stream (evs : List Event) (s : State) (hr : Reach evs s) (hb : begins evs < 2 ^ 32)
    (h : Nat) (c : Call) (cap : Nat) (hc : s.calls[h]? = some c) (hk : c.kind = .queue cap) :
    (c.out ++ c.queue).filterMap id <+: meant h evs ∧
    (c.closed = false → (∀ p, s.mode ≠ .blocked h p) → (c.out ++ c.queue).filterMap id = meant h evs) ∧
    (∀ p, c.closed = false → s.mode = .blocked h p → (c.out ++ c.queue).filterMap id ++ [p] = meant h evs) := by
  have hg := (begins_small hr hb).good h c hc
  rw [good_queue hk] at hg
  refine ⟨?_, ?_, ?_⟩
  · cases hcl : c.closed with
    | true => exact hg.2.2.2 hcl
    | false => rw [← (hg.2.2.1 hcl).1]; exact List.prefix_append _ _
  · intro hcl hm
    have hfl : flight s h = [] := by
      unfold flight
      split
      · rename_i h' p hm'
        split
        · rename_i e
          subst e
          exact absurd hm' (hm p)
        · rfl
      · rfl
    rw [← (hg.2.2.1 hcl).1, hfl, List.append_nil]
    rfl
  · intro p hcl hm
    have hfl : flight s h = [p] := by
      unfold flight
      rw [hm]
      exact if_pos rfl
    rw [← (hg.2.2.1 hcl).1, hfl]
    rfl

/-- **C45, isolation.** A frame changes no call but the one whose correlation id it carries, and nothing
at all if that call is not registered (unknown id) or was already answered, timed out or closed. -/
theorem C45_isolation (evs : List Event) (s s' : State) (hr : Reach evs s) (hb : begins evs < 2 ^ 32)
    (i : Nat) (p : Payload) (hs : step s (.frame i p) = some s') :
    (∀ h, h + 1 ≠ i → s'.calls[h]? = s.calls[h]?) ∧
    s'.senders = s.senders ∧
    ((∀ h, (i, h) ∉ s.senders) → s' = s) := by
  have inv := begins_small hr hb
  have hsmall : s.calls.length < 2 ^ 32 := by rw [inv.count]; exact hb
  unfold step at hs
  dsimp only at hs
  split at hs
  · cases hs
    unfold State.deliver
    cases hl : lookup s.senders i with
    | none => exact ⟨fun _ _ => rfl, rfl, fun _ => rfl⟩
    | some h =>
      have hm := lookup_some hl
      have hown := table_own inv hsmall hm
      have hupd : ∀ f : Call → Call, (∀ j, j + 1 ≠ i → (s.upd h f).calls[j]? = s.calls[j]?) := by
        intro f j hj
        rw [upd_get, if_neg (by omega)]
      dsimp only
      refine ⟨fun j hj => ?_, ?_, fun hn => absurd hm (hn h)⟩
      · split
        · rfl
        · split
          · exact hupd _ j hj
          · split
            · rfl
            · split
              · exact hupd _ j hj
              · rfl
      · split
        · rfl
        · split
          · rfl
          · split
            · rfl
            · split <;> rfl
  · cases hs

/-- **C45, delivery.** When the response to a waiting request arrives, the request can complete at once,
and then with that response. -/
theorem C45_delivered (evs : List Event) (s s' : State) (hr : Reach evs s) (hb : begins evs < 2 ^ 32)
    (h : Nat) (c : Call) (p : Payload) (hc : s.calls[h]? = some c) (hk : c.kind = .serial)
    (hw : c.phase = .waiting)
    (hs : step s (.frame (h + 1) p) = some s') :
    ∃ s'' c'', step s' (.take h) = some s'' ∧ s''.calls[h]? = some c'' ∧ c''.out = [some p] := by
  have inv := begins_small hr hb
  have hin : (c.id, h) ∈ s.senders :=
    ((good_serial hk).1 (inv.good h c hc)).2.2.2.2 (by rw [hw]; nofun) (by rw [hw]; nofun)
  have hsmall : s.calls.length < 2 ^ 32 := by rw [inv.count]; exact hb
  have hid : c.id = h + 1 := by
    rw [inv.ids h c hc, Nat.mod_eq_of_lt]
    have := (List.getElem?_eq_some_iff.1 hc).1
    omega
  unfold step at hs
  dsimp only at hs
  split at hs
  · rename_i hrun
    cases hs
    rw [hid] at hin
    obtain ⟨h', hl⟩ := lookup_isSome hin
    have hown := table_own inv hsmall (lookup_some hl)
    have : h' = h := by omega
    subst this
    have hd : s.deliver (h' + 1) p = s.upd h' fun c => Call.notify { c with slot := some p } := by
      unfold State.deliver
      rw [hl]
      dsimp only
      rw [hc]
      dsimp only
      rw [hk]
    rw [hd]
    have hget : (s.upd h' fun c => Call.notify { c with slot := some p }).calls[h']? =
        some (Call.notify { c with slot := some p }) := by
      rw [upd_get, if_pos rfl, hc]
      rfl
    unfold step
    dsimp only
    rw [hget]
    dsimp only
    have h1 : (Call.notify { c with slot := some p }).phase = .waiting := hw
    have h2 : (Call.notify { c with slot := some p }).kind = .serial := hk
    have h3 : (Call.notify { c with slot := some p }).notified = true := by
      unfold Call.notify
      rw [hw]
      simp
    have h4 : (s.upd h' fun c => Call.notify { c with slot := some p }).free = true := by
      show (match s.mode with | .running | .finished => true | _ => false) = true
      rw [hrun]
    rw [if_pos h1, h2]
    dsimp only
    rw [if_pos ⟨h4, h3⟩]
    refine ⟨_, { (Call.notify { c with slot := some p }) with phase := .done, out := [some p] }, rfl, ?_, rfl⟩
    rw [upd_get, if_pos rfl]
    show Option.map _ ((s.upd h' fun c => Call.notify { c with slot := some p }).calls[h']?) = _
    rw [hget]
    rfl
  · cases hs

/-- running a list of events -/
def exec (s : State) : List Event → Option State
  | [] => some s
  | e :: rest => match step s e with
    | none => none
    | some s' => exec s' rest

theorem exec_append (s : State) (a b : List Event) :
    exec s (a ++ b) = match exec s a with | none => none | some s' => exec s' b := by
  induction a generalizing s with
  | nil => rfl
  | cons e rest ih =>
    show (match step s e with | none => none | some s' => exec s' (rest ++ b)) = match (match step s e with | none => none | some s' => exec s' rest) with | none => none | some s' => exec s' b
    cases step s e with
    | none => rfl
    | some s' => exact ih s'

theorem reach_exec {evs : List Event} {s : State} (h : Reach evs s) : exec State.init evs = some s := by
  induction h with
  | init => rfl
  | snoc _ hs ih =>
    rw [exec_append, ih]
    show (match step _ _ with | none => none | some s' => exec s' []) = _
    rw [hs]
    rfl

theorem exec_reach {evs : List Event} {s : State} (h : Reach evs s) (more : List Event) (s' : State)
    (he : exec s more = some s') : Reach (evs ++ more) s' := by
  induction more generalizing evs s with
  | nil =>
    cases he
    rw [List.append_nil]
    exact h
  | cons e rest ih =>
    unfold exec at he
    cases hs : step s e with
    | none => rw [hs] at he; cases he
    | some s1 =>
      rw [hs] at he
      have := ih (h.snoc hs) he
      rw [List.append_assoc] at this
      exact this

/-- two requests and a stream with interleaved responses, one of them unknown -/
def busy : List Event :=
  [.begin .serial, .begin (.queue 10), .register 1, .register 0, .begin .serial, .sent 1, .listen 0, .frame 2 20,
   .sent 0, .register 2, .listen 2, .sent 2, .frame 3 30, .frame 99 7, .frame 2 21, .take 1, .frame 1 10,
   .take 0, .frame 1 11, .take 2, .frame 2 22]

/-- the hypotheses of the C45 theorems are met; the first request got 10, the third 30, the stream
20, 21, 22; the repeated response 11 to the first request changed nothing -/
example : ∃ s, Reach busy s ∧ begins busy < 2 ^ 32 ∧
    s.calls.map (·.out) = [[some 10], [some 20], [some 30]] ∧
    s.calls.map (·.queue) = [[], [some 21, some 22], []] ∧
    meant 1 busy = [20, 21, 22] ∧ meant 0 busy = [10, 11] ∧ meant 2 busy = [30] := by
  refine ⟨(exec State.init busy).get (by decide), ?_, by decide, by decide, by decide, by decide, by decide, by decide⟩
  exact exec_reach .init busy _ (Option.some_get _).symm

theorem many_begins (n : Nat) : ∀ {evs : List Event} {s : State}, Reach evs s →
    ∃ evs' s' l, Reach (evs ++ evs') s' ∧ s'.calls = s.calls ++ l ∧ l.length = n ∧ s'.senders = s.senders ∧
      s'.mode = s.mode ∧ responses 1 evs' = [] := by
  induction n with
  | zero => exact fun {evs s} h => ⟨[], s, [], by rw [List.append_nil]; exact h, by simp, rfl, rfl, rfl, rfl⟩
  | succ n ih =>
    intro evs s h
    obtain ⟨evs', s', l, hr, hc, hl, hs, hm, hf⟩ := ih h
    have hst : step s' (.begin .serial) = some { s' with
        counter := (s'.counter + 1) % 2 ^ 32
        calls := s'.calls ++ [{ id := s'.counter, kind := .serial, phase := .allocated }] } := rfl
    refine ⟨evs' ++ [.begin .serial], { s' with
        counter := (s'.counter + 1) % 2 ^ 32
        calls := s'.calls ++ [{ id := s'.counter, kind := .serial, phase := .allocated }] },
      l ++ [{ id := s'.counter, kind := .serial, phase := .allocated }], ?_, ?_, ?_, hs, hm, ?_⟩
    · rw [← List.append_assoc]
      exact hr.snoc hst
    · show s'.calls ++ [_] = _
      rw [hc, List.append_assoc]
    · rw [List.length_append, hl]; rfl
    · unfold responses at hf ⊢
      rw [List.filterMap_append, hf]
      rfl

theorem wrapped_counter {evs : List Event} {s : State} (h : Reach evs s) : s.counter = (begins evs + 1) % 2 ^ 32 := by
  induction h with
  | init => rfl
  | @snoc evs e s s' _ hs ih =>
    cases e with
    | begin k =>
      unfold step at hs
      dsimp only at hs
      split at hs
      · cases hs
      · cases hs
        show (s.counter + 1) % 2 ^ 32 = _
        rw [ih, Nat.mod_add_mod]
        unfold begins
        rw [List.countP_append]
        rfl
    | terminate =>
      rw [begins_snoc _ .terminate nofun, ← ih]
      unfold step at hs
      dsimp only at hs
      split at hs
      · cases hs
        rfl
      · cases hs
    | frame i p =>
      rw [begins_snoc _ (.frame i p) nofun, ← ih]
      unfold step at hs
      dsimp only at hs
      split at hs
      · cases hs
        unfold State.deliver
        split
        · rfl
        · split
          · rfl
          · split
            · rfl
            · split
              · rfl
              · split <;> rfl
      · cases hs
    | _ =>
      rw [begins_snoc _ _ (by exact nofun), ← ih]
      unfold step at hs
      dsimp only at hs
      repeat' split at hs
      all_goals first | cases hs; rfl; done | cases hs

/-- **C45 is false without the bound**: after 2^32 requests the ids start again at 1, and the response
to a stream that is still open goes to an unrelated request. -/
theorem C45_violated_wrap : ∃ (evs : List Event) (s : State) (c₀ c : Call), Reach evs s ∧
    s.calls[0]? = some c₀ ∧ c₀.kind = .queue 1 ∧ c₀.closed = false ∧ c₀.phase = .waiting ∧
    meant 0 evs = [7] ∧ c₀.out = [] ∧ c₀.queue = [] ∧
    s.calls[2 ^ 32]? = some c ∧ c.out = [some 7] := by
  have h0 : Reach [.begin (.queue 1), .register 0, .sent 0]
      ⟨2, [{ id := 1, kind := .queue 1, phase := .waiting }], [(1, 0)], .running⟩ :=
    exec_reach .init [.begin (.queue 1), .register 0, .sent 0] _ rfl
  obtain ⟨evs', s1, l, hr1, hc1, hl1, hs1, hm1, hf1⟩ := many_begins (2 ^ 32 - 1) h0
  have hlen1 : s1.calls.length = 2 ^ 32 := by rw [hc1, List.length_append, hl1]; rfl
  have hctr : s1.counter = 1 := by
    rw [wrapped_counter hr1, ← count_begins hr1, hlen1]
  generalize hN : (2 ^ 32 : Nat) = N at *
  have hN0 : 0 < N := by omega
  -- begin
  let c1 : Call := { id := 1, kind := .serial, phase := .allocated }
  let s2 : State := { s1 with counter := (s1.counter + 1) % N, calls := s1.calls ++ [c1] }
  have hs2 : step s1 (.begin .serial) = some s2 := by
    show some { s1 with
      counter := (s1.counter + 1) % 2 ^ 32
      calls := s1.calls ++ [{ id := s1.counter, kind := .serial, phase := .allocated }] } = some s2
    rw [hctr, hN]
    show _ = some { s1 with counter := (s1.counter + 1) % N, calls := s1.calls ++ [c1] }
    rw [hctr]
  have hget2 : s2.calls[N]? = some c1 := by
    show (s1.calls ++ [c1])[N]? = _
    rw [List.getElem?_append_right (by omega), hlen1]
    simp
  have hget0 : s2.calls[0]? = some { id := 1, kind := .queue 1, phase := .waiting } := by
    show (s1.calls ++ [c1])[0]? = _
    rw [hc1]
    rfl
  have hmode2 : s2.mode = .running := hm1
  -- register
  let s3 := { s2 with senders := insert s2.senders 1 N }.upd N fun c => { c with phase := .registered }
  have hs3 : step s2 (.register N) = some s3 := by
    unfold step
    dsimp only
    rw [hget2]
    dsimp only
    have : s2.free = true := by unfold State.free; rw [hmode2]
    rw [if_pos ⟨this, rfl⟩]
  have hget3 : s3.calls[N]? = some { c1 with phase := .registered } := by
    rw [upd_get, if_pos rfl]
    show Option.map _ s2.calls[N]? = _
    rw [hget2]; rfl
  -- listen
  let s4 := s3.upd N fun c => { c with phase := .listening }
  have hs4 : step s3 (.listen N) = some s4 := by
    unfold step
    dsimp only
    rw [hget3]
    dsimp only
    rw [if_pos ⟨rfl, rfl⟩]
  have hget4 : s4.calls[N]? = some { c1 with phase := .listening } := by
    rw [upd_get, if_pos rfl, hget3]; rfl
  -- sent
  let s5 := s4.upd N fun c => { c with phase := .waiting }
  have hs5 : step s4 (.sent N) = some s5 := by
    unfold step
    dsimp only
    rw [hget4]
    dsimp only
    rw [if_pos (.inl ⟨rfl, rfl⟩)]
  have hget5 : s5.calls[N]? = some { c1 with phase := .waiting } := by
    rw [upd_get, if_pos rfl, hget4]; rfl
  -- the response to the stream
  let s6 := s5.upd N fun c => Call.notify { c with slot := some 7 }
  have hs6 : step s5 (.frame 1 7) = some s6 := by
    unfold step
    dsimp only
    rw [if_pos (show s5.mode = .running from hmode2)]
    unfold State.deliver
    have : lookup s5.senders 1 = some N := rfl
    rw [this]
    dsimp only
    rw [hget5]
  have hget6 : s6.calls[N]? = some { c1 with phase := .waiting, slot := some 7, notified := true } := by
    rw [upd_get, if_pos rfl, hget5]; rfl
  -- taken by the request
  let s7 := { s6 with senders := remove s6.senders 1 }.upd N fun c => { c with phase := .done, out := [c.slot] }
  have hs7 : step s6 (.take N) = some s7 := by
    unfold step
    dsimp only
    rw [hget6]
    dsimp only
    have : s6.free = true := by
      show (match s2.mode with | .running | .finished => true | _ => false) = true
      rw [hmode2]
    rw [if_pos rfl, if_pos ⟨this, rfl⟩]
  have hkeep : s7.calls[0]? = some { id := 1, kind := .queue 1, phase := .waiting } := by
    have hne : ¬ N = 0 := by omega
    rw [upd_get, if_neg hne]
    show s6.calls[0]? = _
    rw [upd_get, if_neg hne, upd_get, if_neg hne, upd_get, if_neg hne, upd_get, if_neg hne]
    exact hget0
  refine ⟨_, s7, _, { c1 with phase := .done, slot := some 7, notified := true, out := [some 7] }, (((((hr1.snoc hs2).snoc hs3).snoc hs4).snoc hs5).snoc hs6).snoc hs7, hkeep, rfl, rfl, rfl,
    ?_, rfl, rfl, ?_, rfl⟩
  · rw [meant_other 0 _ (.take N) nofun, meant_frame 0 _ 7 (by simp), meant_other 0 _ (.sent N) nofun,
      meant_other 0 _ (.listen N) nofun, meant_other 0 _ (.register N) nofun,
      meant_other 0 _ (.begin .serial) nofun]
    show responses 1 (.sent 0 :: evs') ++ [7] = [7]
    have : responses 1 (.sent 0 :: evs') = responses 1 evs' := rfl
    rw [this, hf1]
    rfl
  · show _ = some { c1 with phase := .done, slot := some 7, notified := true, out := [some 7] }
    rw [upd_get, if_pos rfl]
    show Option.map _ s6.calls[N]? = _
    rw [hget6]
    rfl

/-! ## C54 -/

/-- **C54 (partial).** While every open stream has room in its queue, the dispatcher does not wait: any
frame is handled at once, and so (`C45_delivered`) every waiting request can complete when its response
arrives.

Missing from the full claim: streams whose consumer does not keep up, `C54_violated_stall`. -/
theorem C54_prompt_partial (s : State) (hrun : s.mode = .running)
    (hroom : ∀ (h : Nat) (c : Call), s.calls[h]? = some c → c.kind ≠ .serial → c.closed = false → c.room = true)
    (i : Nat) (p : Payload) : ∃ s', step s (.frame i p) = some s' ∧ s'.mode = .running := by
  unfold step
  dsimp only
  rw [if_pos hrun]
  refine ⟨_, rfl, ?_⟩
  unfold State.deliver
  split
  · exact hrun
  · split
    · exact hrun
    · rename_i h c hc
      split
      · exact hrun
      · rename_i cap hk
        split
        · exact hrun
        · rename_i hcl
          rw [if_pos (hroom _ c hc (by rw [hk]; nofun) (by simpa using hcl))]
          exact hrun

/-- **C54.** When the dispatcher waits for a stream, it continues as soon as the consumer of that stream
takes a message or drops the stream. -/
theorem C54_resumes (evs : List Event) (s s' : State) (hr : Reach evs s) (hb : begins evs < 2 ^ 32)
    (h : Nat) (p : Payload) (hm : s.mode = .blocked h p)
    (hs : step s (.take h) = some s' ∨ step s (.drop h) = some s') :
    ∃ s'', step s' .resume = some s'' ∧ s''.mode = .running := by
  have inv := begins_small hr hb
  obtain ⟨c, cap, hc, hk⟩ := inv.block h p hm
  have hg := (good_queue hk).1 (inv.good h c hc)
  have goal : ∀ (s' : State) (c' : Call), s'.mode = .blocked h p → s'.calls[h]? = some c' →
      c'.closed = true ∨ c'.room = true → ∃ s'', step s' .resume = some s'' ∧ s''.mode = .running := by
    intro s' c' hm' hc' hor
    unfold step
    dsimp only
    rw [hm']
    dsimp only
    rw [hc']
    dsimp only
    by_cases hcl : c'.closed = true
    · rw [if_pos hcl]; exact ⟨_, rfl, rfl⟩
    · rw [if_neg hcl, if_pos (hor.resolve_left hcl)]; exact ⟨_, rfl, rfl⟩
  rcases hs with hs | hs
  · unfold step at hs
    dsimp only at hs
    rw [hc] at hs
    dsimp only at hs
    split at hs
    · rw [hk] at hs
      dsimp only at hs
      split at hs
      · cases hs
      · rename_i x rest hq
        cases hs
        refine goal _ { c with queue := rest, out := c.out ++ [x] } hm (by rw [upd_get, if_pos rfl, hc]; rfl) (.inr ?_)
        unfold Call.room
        show (match c.kind with | .serial => false | .queue cap => decide (rest.length < cap)) = true
        rw [hk]
        have := hg.2.1
        rw [hq] at this
        simp at this ⊢
        omega
    · cases hs
  · unfold step at hs
    dsimp only at hs
    rw [hc] at hs
    dsimp only at hs
    split at hs
    · cases hs
    · cases hs
      exact goal _ { c with phase := .done, closed := true } hm (by rw [upd_get, if_pos rfl, hc]; rfl) (.inl rfl)

/-- a stream whose queue (of length 1) is full receives another message while a request is waiting -/
def stalled : List Event :=
  [.begin (.queue 1), .register 0, .sent 0, .begin .serial, .register 1, .listen 1, .sent 1, .frame 1 10, .frame 1 11]

/-- what stays true as long as nobody reads the stream -/
structure Stuck (s : State) : Prop where
  mode : s.mode = .blocked 0 11
  stream : ∃ c, s.calls[0]? = some c ∧ c.kind = .queue 1 ∧ c.closed = false ∧ c.phase = .waiting ∧ c.queue = [some 10]
  request : ∃ c, s.calls[1]? = some c ∧ c.kind = .serial ∧ c.out = [] ∧ (c.phase = .waiting ∨ c.phase = .done)

theorem stuck_step {s s' : State} {e : Event} (hs : Stuck s) (h : step s e = some s') (ht : e ≠ .take 0)
    (hd : e ≠ .drop 0) : Stuck s' ∧ (∀ i p, e ≠ .frame i p) ∧ e ≠ .timeout 1 ∧ e ≠ .take 1 ∧ e ≠ .terminate ∧
      ∀ j, e ≠ .register j := by
  obtain ⟨hm, ⟨c0, hc0, hk0, hcl0, hp0, hq0⟩, ⟨c1, hc1, hk1, ho1, hp1⟩⟩ := hs
  have hfree : s.free = false := by unfold State.free; rw [hm]
  have lt0 := (List.getElem?_eq_some_iff.1 hc0).1
  have lt1 := (List.getElem?_eq_some_iff.1 hc1).1
  have other : ∀ (j : Nat) (f : Call → Call), j ≠ 0 → j ≠ 1 → Stuck (s.upd j f) := by
    intro j f h0 h1
    refine ⟨hm, ⟨c0, ?_, hk0, hcl0, hp0, hq0⟩, ⟨c1, ?_, hk1, ho1, hp1⟩⟩
    · rw [upd_get, if_neg h0]; exact hc0
    · rw [upd_get, if_neg h1]; exact hc1
  cases e with
  | begin k =>
    unfold step at h
    dsimp only at h
    split at h
    · cases h
    · cases h
      refine ⟨⟨hm, ⟨c0, ?_, hk0, hcl0, hp0, hq0⟩, ⟨c1, ?_, hk1, ho1, hp1⟩⟩, nofun, nofun, nofun, nofun, nofun⟩
      · show (s.calls ++ _)[0]? = _
        rw [List.getElem?_append_left lt0]; exact hc0
      · show (s.calls ++ _)[1]? = _
        rw [List.getElem?_append_left lt1]; exact hc1
  | register j =>
    unfold step at h
    dsimp only at h
    split at h
    · rw [if_neg (by rw [hfree]; exact fun c => absurd c.1 nofun)] at h
      cases h
    · cases h
  | listen j =>
    unfold step at h
    dsimp only at h
    split at h
    · rename_i c hc
      split at h
      · rename_i hcond
        cases h
        refine ⟨other j _ ?_ ?_, nofun, nofun, nofun, nofun, nofun⟩
        · rintro rfl
          rw [hc0] at hc; cases hc
          rw [hk0] at hcond
          exact absurd hcond.1 nofun
        · rintro rfl
          rw [hc1] at hc; cases hc
          rcases hp1 with e | e <;> rw [e] at hcond <;> exact absurd hcond.2 nofun
      · cases h
    · cases h
  | sent j =>
    unfold step at h
    dsimp only at h
    split at h
    · rename_i c hc
      split at h
      · rename_i hcond
        cases h
        refine ⟨other j _ ?_ ?_, nofun, nofun, nofun, nofun, nofun⟩
        · rintro rfl
          rw [hc0] at hc; cases hc
          rw [hp0] at hcond
          rcases hcond with ⟨_, e⟩ | ⟨_, e⟩ <;> cases e
        · rintro rfl
          rw [hc1] at hc; cases hc
          rcases hp1 with e | e <;> rw [e] at hcond <;> rcases hcond with ⟨_, e⟩ | ⟨_, e⟩ <;> cases e
      · cases h
    · cases h
  | sendFailed j =>
    unfold step at h
    dsimp only at h
    split at h
    · rename_i c hc
      split at h
      · rename_i hcond
        cases h
        refine ⟨other j _ ?_ ?_, nofun, nofun, nofun, nofun, nofun⟩
        · rintro rfl
          rw [hc0] at hc; cases hc
          rw [hp0] at hcond
          exact absurd hcond.2 nofun
        · rintro rfl
          rw [hc1] at hc; cases hc
          rcases hp1 with e | e <;> rw [e] at hcond <;> exact absurd hcond.2 nofun
      · split at h
        · rename_i hcond
          cases h
          refine ⟨other j _ ?_ ?_, nofun, nofun, nofun, nofun, nofun⟩
          · rintro rfl
            rw [hc0] at hc; cases hc
            rw [hp0] at hcond
            exact absurd hcond.2 nofun
          · rintro rfl
            rw [hc1] at hc; cases hc
            rcases hp1 with e | e <;> rw [e] at hcond <;> exact absurd hcond.2 nofun
        · cases h
    · cases h
  | frame i p =>
    unfold step at h
    dsimp only at h
    rw [hm, if_neg nofun] at h
    cases h
  | resume =>
    unfold step at h
    dsimp only at h
    rw [hm] at h
    dsimp only at h
    rw [hc0] at h
    dsimp only at h
    rw [hcl0, if_neg nofun] at h
    have : c0.room = false := by
      unfold Call.room
      rw [hk0, hq0]
      rfl
    rw [this, if_neg nofun] at h
    cases h
  | take j =>
    have hj0 : j ≠ 0 := fun e => ht (by rw [e])
    unfold step at h
    dsimp only at h
    split at h
    · rename_i c hc
      split at h
      · split at h
        · rw [if_neg (by rw [hfree]; exact fun c => absurd c.1 nofun)] at h
          cases h
        · rename_i cap hk
          have hj1 : j ≠ 1 := by
            rintro rfl
            rw [hc1] at hc; cases hc
            rw [hk1] at hk; cases hk
          split at h
          · cases h
          · cases h
            exact ⟨other j _ hj0 hj1, nofun, nofun, fun e => hj1 (by injection e), nofun, nofun⟩
      · cases h
    · cases h
  | timeout j =>
    unfold step at h
    dsimp only at h
    split at h
    · rw [if_neg (by rw [hfree]; exact fun c => absurd c.2.2 nofun)] at h
      cases h
    · cases h
  | drop j =>
    have hj0 : j ≠ 0 := fun e => hd (by rw [e])
    unfold step at h
    dsimp only at h
    split at h
    · rename_i c hc
      split at h
      · cases h
      · cases h
        refine ⟨?_, nofun, nofun, nofun, nofun, nofun⟩
        by_cases hj1 : j = 1
        · subst hj1
          refine ⟨hm, ⟨c0, ?_, hk0, hcl0, hp0, hq0⟩, ⟨{ c1 with phase := .done, closed := true }, ?_, hk1, ho1, .inr rfl⟩⟩
          · rw [upd_get, if_neg nofun]; exact hc0
          · rw [upd_get, if_pos rfl, hc1]; rfl
        · exact other j _ hj0 hj1
    · cases h
  | eof =>
    unfold step at h
    dsimp only at h
    rw [hm, if_neg nofun] at h
    cases h
  | closeStep j =>
    unfold step at h
    dsimp only at h
    rw [hm] at h
    cases h
  | closeDone =>
    unfold step at h
    dsimp only at h
    rw [hm, if_neg nofun] at h
    cases h
  | terminate =>
    unfold step at h
    dsimp only at h
    rw [hm, if_neg nofun] at h
    cases h

/-- **C54 is false**: the dispatcher waits for room in the queue of one stream with the table of senders
locked.  Until that stream is read or dropped, no response is delivered to anyone, no new request can be
registered, and the waiting request does not even time out. -/
theorem C54_violated_stall : ∃ s, Reach stalled s ∧
    (∃ c, s.calls[1]? = some c ∧ c.phase = .waiting) ∧
    ∀ more s', Reach (stalled ++ more) s' → .take 0 ∉ more → .drop 0 ∉ more →
      (∃ c, s'.calls[1]? = some c ∧ c.out = []) ∧
      ∀ e ∈ more, (∀ i p, e ≠ .frame i p) ∧ e ≠ .timeout 1 ∧ e ≠ .take 1 ∧ e ≠ .terminate ∧ ∀ j, e ≠ .register j := by
  have hr : Reach stalled ((exec State.init stalled).get (by decide)) :=
    exec_reach .init stalled _ (Option.some_get _).symm
  have hstuck : Stuck ((exec State.init stalled).get (by decide)) :=
    ⟨by decide, ⟨_, rfl, by decide, by decide, by decide, by decide⟩, ⟨_, rfl, by decide, by decide, .inl (by decide)⟩⟩
  refine ⟨_, hr, ⟨_, rfl, by decide⟩, fun more s' hr' ht hd => ?_⟩
  suffices Stuck s' ∧ ∀ e ∈ more, (∀ i p, e ≠ .frame i p) ∧ e ≠ .timeout 1 ∧ e ≠ .take 1 ∧ e ≠ .terminate ∧
      ∀ j, e ≠ .register j by
    obtain ⟨⟨_, _, c, hc, _, ho, _⟩, h2⟩ := this
    exact ⟨⟨c, hc, ho⟩, h2⟩
  have he := reach_exec hr'
  rw [exec_append, reach_exec hr] at he
  dsimp only at he
  clear hr' hr
  revert hstuck he
  generalize (exec State.init stalled).get (by decide) = s
  intro hstuck he
  induction more generalizing s with
  | nil =>
    cases he
    exact ⟨hstuck, nofun⟩
  | cons e rest ih =>
    unfold exec at he
    cases hs : step s e with
    | none => rw [hs] at he; cases he
    | some s1 =>
      rw [hs] at he
      have ⟨h1, h2⟩ := stuck_step hstuck hs (fun c => ht (by rw [c]; exact List.mem_cons_self))
        (fun c => hd (by rw [c]; exact List.mem_cons_self))
      have ⟨h3, h4⟩ := ih (fun c => ht (List.mem_cons_of_mem _ c)) (fun c => hd (List.mem_cons_of_mem _ c)) s1 h1 he
      refine ⟨h3, fun e' he' => ?_⟩
      rcases List.mem_cons.1 he' with rfl | he'
      · exact h2
      · exact h4 e' he'

/-- the hypotheses of `C54_resumes` can be met -/
example : ∃ s s', Reach stalled s ∧ begins stalled < 2 ^ 32 ∧ s.mode = .blocked 0 11 ∧ step s (.take 0) = some s' :=
  ⟨(exec State.init stalled).get (by decide), (exec State.init (stalled ++ [.take 0])).get (by decide),
    exec_reach .init stalled _ (Option.some_get _).symm, by decide, by decide, by decide⟩

/-- the hypotheses of `C45_delivered` and `C54_prompt_partial` can be met: request 0 is waiting when its
response arrives, and the stream has room -/
example : ∃ s s' c, Reach (busy.take 16) s ∧ begins (busy.take 16) < 2 ^ 32 ∧ s.calls[0]? = some c ∧ c.kind = .serial ∧
    c.phase = .waiting ∧ step s (.frame 1 10) = some s' ∧ s.mode = .running ∧
    (∀ c ∈ s.calls, c.kind ≠ .serial → c.closed = false → c.room = true) :=
  ⟨(exec State.init (busy.take 16)).get (by decide), (exec State.init (busy.take 17)).get (by decide), _,
    exec_reach .init (busy.take 16) _ (Option.some_get _).symm, by decide, rfl, by decide, by decide, by decide,
    by decide, by decide⟩

end Verif.Props
