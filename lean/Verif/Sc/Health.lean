/-!
# Which SPUs are online

The connections of the SPUs to the controller (`fluvio-sc/src/services/private_api/private_server.rs`),
the health map they maintain (`fluvio-sc/src/stores/spu/mod.rs`) and the controller that copies it into
the status of the SPUs (`fluvio-sc/src/controllers/spus/controller.rs`).  All of these are concurrent
tasks; an event below is a piece of one task that no other task can interrupt.
-/

namespace Verif.Sc.Health

/-- `SpuStatusResolution` — fluvio-controlplane-metadata/src/spu/status.rs:63-73 -/
inductive Res where
  | online | offline | init
deriving DecidableEq

/-- an SPU in the controller's store: its key, `spec.id` and status; the other fields do not matter here -/
structure SpuObj where
  key : Nat
  id : Int
  status : Res
deriving DecidableEq

/-- a connection in `dispatch_loop`: the SPU that registered on it and the time (in seconds) of the last
message, at which `health_check_timer` was set — private_server.rs:69-218 -/
structure Conn where
  cid : Nat
  spu : Int
  last : Nat
deriving DecidableEq

/-- where `SpuController::inner_loop` stands: before `clone_values`; between that and reading the health
map; with changes still to be sent; in the `select!` — controller.rs:50-130 -/
inductive Phase where
  | start
  | decide (snap : List SpuObj)
  | writing (rest : List (Nat × Res))
  | waiting
deriving DecidableEq

/-- * `health`: `HealthCheck::health`, a map from SPU ids — stores/spu/mod.rs:45-48
* `bumps`: calls of `update_increment` that have not yet read the counter; `loaded`: the values read by
  those that have not yet written it — fluvio-types/src/event.rs:98-107
* `counter`, `seen`: the counter of the publisher and `last_value` of the controller's listener
* `dirty`: the store has changed since the `last_change` of the controller's store listener
* `queue`: status updates sent to the metadata dispatcher and not yet carried out -/
structure State where
  now : Nat
  conns : List Conn
  health : Int → Option Bool
  bumps : Nat
  loaded : List Nat
  counter : Nat
  seen : Nat
  spus : List SpuObj
  dirty : Bool
  queue : List (Nat × Res)
  phase : Phase

/-- `HEALTH_DURATION` — private_server.rs:48 -/
def healthDuration : Nat := 90

/-- a controller that has just been started over the stored SPUs -/
def State.init (spus : List SpuObj) : State :=
  ⟨0, [], fun _ => none, 0, [], 0, 0, spus, false, [], .start⟩

/-- `HealthCheck::update`: the entry is inserted, and listeners are told if it is new or different; they
are told after the lock is released — stores/spu/mod.rs:78-93 -/
def State.update (s : State) (id : Int) (b : Bool) : State :=
  { s with
    health := fun i => if i = id then some b else s.health i
    bumps := if s.health id = some b then s.bumps else s.bumps + 1 }

/-- `set_online` / `set_offline` — status.rs:53-60 -/
def toRes (b : Bool) : Res := if b then .online else .offline

/-- the change `sync_store` makes for one SPU — controller.rs:86-118 -/
def changeOf (health : Int → Option Bool) (o : SpuObj) : Option (Nat × Res) :=
  match health o.id with
  | none => none
  | some h =>
    if o.status = .init then some (o.key, toRes h)
    else if (o.status == .online) != h then some (o.key, toRes h)
    else none

/-- a status written into the store by the metadata dispatcher; an unknown key is ignored -/
def setStatus (l : List SpuObj) (k : Nat) (r : Res) : List SpuObj :=
  l.map fun o => if o.key = k then { o with status := r } else o

/-- an SPU put into the store, replacing one with the same key -/
def put (l : List SpuObj) (o : SpuObj) : List SpuObj := l.filter (·.key ≠ o.key) ++ [o]

inductive Ev where
  /-- an SPU registers on connection `cid` and the controller records it as healthy;
  `validate_spu_for_registered` — private_server.rs:79-109 -/
  | register (cid : Nat) (spu : Int)
  /-- a message arrives on the connection and the timer is set again — private_server.rs:161-187 -/
  | message (cid : Nat)
  /-- the timer of the connection expires: the loop ends and the SPU is recorded as unhealthy —
  private_server.rs:156-159, 115-117 -/
  | expire (cid : Nat)
  /-- the loop ends because the stream ends or fails or a message cannot be sent —
  private_server.rs:188-195, 111-117 -/
  | close (cid : Nat)
  /-- a second passes.  Timers are assumed to fire in time. -/
  | advance
  /-- a pending `update_increment` reads the counter — event.rs:106 -/
  | load
  /-- the `i`-th of those writes it and notifies — event.rs:99-102 -/
  | store (i : Nat)
  /-- an SPU is added or changed in the store (a change of its spec, or of its status from outside) -/
  | putSpu (o : SpuObj)
  /-- an SPU is removed from the store -/
  | removeSpu (k : Nat)
  /-- `clone_values` — controller.rs:81 -/
  | snapshot
  /-- the health map is read and the changes are collected — controller.rs:83-120 -/
  | decide
  /-- `update_status` for one SPU: the update is sent.  The code then waits until the object is newer, or
  times out; here it may go on at any time. — controller.rs:122-127 -/
  | write
  /-- all changes are sent; the `select!` is reached — controller.rs:129, 63 -/
  | finish
  /-- `update_status` fails: `inner_loop` is left and started again, with new listeners —
  controller.rs:126, 41-45, 53-58 -/
  | restart
  /-- the store listener wakes the loop; `load_last` — controller.rs:64-66 -/
  | wakeStore
  /-- the health listener wakes the loop; `listen` remembers the value — controller.rs:69, event.rs:166-184.
  That a notification wakes a waiting listener even if the value is the same is left out. -/
  | wakeHealth
  /-- the metadata dispatcher carries out a status update; the listeners of the store are told if the
  object changes — fluvio-stream-dispatcher/src/dispatcher/metadata.rs:220-243.  That the storage refuses
  an update is left out. -/
  | apply
deriving DecidableEq

def endConn (s : State) (c : Conn) : State :=
  State.update { s with conns := s.conns.filter (·.cid ≠ c.cid) } c.spu false

/-- one event; `none` if it cannot happen in the state -/
def step (s : State) : Ev → Option State
  | .register cid spu =>
    if s.conns.any (·.cid = cid) then none
    else if s.spus.any (·.id = spu) then
      some (State.update { s with conns := s.conns ++ [⟨cid, spu, s.now⟩] } spu true)
    else none
  | .message cid =>
    if s.conns.any (·.cid = cid) then
      some { s with conns := s.conns.map fun c => if c.cid = cid then { c with last := s.now } else c }
    else none
  | .expire cid =>
    match s.conns.find? (·.cid = cid) with
    | none => none
    | some c => if c.last + healthDuration ≤ s.now then some (endConn s c) else none
  | .close cid =>
    match s.conns.find? (·.cid = cid) with
    | none => none
    | some c => some (endConn s c)
  | .advance =>
    if s.conns.all (fun c => s.now < c.last + healthDuration) then some { s with now := s.now + 1 } else none
  | .load =>
    if s.bumps = 0 then none else some { s with bumps := s.bumps - 1, loaded := s.loaded ++ [s.counter] }
  | .store i =>
    match s.loaded[i]? with
    | none => none
    | some v => some { s with loaded := s.loaded.eraseIdx i, counter := v + 1 }
  | .putSpu o => some { s with spus := put s.spus o, dirty := true }
  | .removeSpu k => some { s with spus := s.spus.filter (·.key ≠ k), dirty := true }
  | .snapshot =>
    match s.phase with
    | .start => some { s with phase := .decide s.spus }
    | _ => none
  | .decide =>
    match s.phase with
    | .decide snap => some { s with phase := .writing (snap.filterMap (changeOf s.health)) }
    | _ => none
  | .write =>
    match s.phase with
    | .writing (c :: rest) => some { s with phase := .writing rest, queue := s.queue ++ [c] }
    | _ => none
  | .finish =>
    match s.phase with
    | .writing [] => some { s with phase := .waiting }
    | _ => none
  | .restart =>
    match s.phase with
    | .writing _ => some { s with phase := .start, dirty := false, seen := 0 }
    | _ => none
  | .wakeStore =>
    match s.phase with
    | .waiting => if s.dirty then some { s with phase := .start, dirty := false } else none
    | _ => none
  | .wakeHealth =>
    match s.phase with
    | .waiting => if s.seen ≠ s.counter then some { s with phase := .start, seen := s.counter } else none
    | _ => none
  | .apply =>
    match s.queue with
    | [] => none
    | (k, r) :: q =>
      some { s with queue := q, spus := setStatus s.spus k r,
                    dirty := s.dirty || decide (setStatus s.spus k r ≠ s.spus) }

def run (s : State) : List Ev → Option State
  | [] => some s
  | e :: es => match step s e with
    | none => none
    | some s' => run s' es

/-- the events of the controller itself, which happen whatever the SPUs do -/
def Ev.internal : Ev → Bool
  | .load | .store _ | .snapshot | .decide | .write | .finish | .wakeStore | .wakeHealth | .apply => true
  | _ => false

/-- nothing is left to do for the controller -/
def State.Quiet (s : State) : Prop :=
  s.phase = .waiting ∧ s.dirty = false ∧ s.seen = s.counter ∧ s.bumps = 0 ∧ s.loaded = [] ∧ s.queue = []

theorem run_append {s t : State} {l l' : List Ev} (h : run s l = some t) : run s (l ++ l') = run t l' := by
  induction l generalizing s with
  | nil => cases h; rfl
  | cons e l ih =>
    rw [List.cons_append, run]
    rw [run] at h
    cases hs : step s e with
    | none => rw [hs] at h; cases h
    | some s' => rw [hs] at h; exact ih h

/-! ## Settling: the status agrees with the health map -/

/-- the status the last of these updates gives to the SPU with key `k` -/
def lastFor (k : Nat) : List (Nat × Res) → Option Res
  | [] => none
  | a :: l => match lastFor k l with
    | some r => some r
    | none => if a.1 = k then some a.2 else none

theorem lastFor_append (k : Nat) (l l' : List (Nat × Res)) :
    lastFor k (l ++ l') = (lastFor k l').or (lastFor k l) := by
  induction l with
  | nil => simp [lastFor]
  | cons a l ih =>
    rw [List.cons_append, lastFor, ih, lastFor]
    cases lastFor k l' <;> cases lastFor k l <;> rfl

theorem lastFor_none {k : Nat} {l : List (Nat × Res)} (h : ∀ a ∈ l, a.1 ≠ k) : lastFor k l = none := by
  induction l with
  | nil => rfl
  | cons a l ih =>
    rw [lastFor, ih fun b hb => h b (List.mem_cons_of_mem _ hb)]
    exact if_neg (h a List.mem_cons_self)

theorem lastFor_of_unique {k : Nat} {r : Res} {l : List (Nat × Res)} (hm : (k, r) ∈ l)
    (hn : (l.map (·.1)).Nodup) : lastFor k l = some r := by
  induction l with
  | nil => cases hm
  | cons a l ih =>
    rw [List.map_cons, List.nodup_cons] at hn
    rw [lastFor]
    rcases List.mem_cons.1 hm with e | hm
    · subst e
      rw [lastFor_none (k := k)]
      · simp
      · intro b hb e
        exact hn.1 (List.mem_map.2 ⟨b, hb, e⟩)
    · rw [ih hm hn.2]

/-- the updates still under way: sent, and still to be sent -/
def State.underWay (s : State) : List (Nat × Res) :=
  s.queue ++ match s.phase with
    | .writing rest => rest
    | _ => []

/-- something will wake the controller -/
def State.Called (s : State) : Prop :=
  s.dirty = true ∨ s.seen ≠ s.counter ∨ s.bumps ≠ 0 ∨ s.loaded ≠ []

/-- the invariant behind settling -/
structure Inv (s : State) : Prop where
  keys : (s.spus.map (·.key)).Nodup
  le : s.seen ≤ s.counter
  one : s.loaded = [] ∨ s.loaded = [s.counter]
  snap : ∀ l, s.phase = .decide l → (l.map (·.key)).Nodup ∧ (s.dirty = true ∨ ∀ o ∈ s.spus, o ∈ l)
  agree : (s.phase = .waiting ∨ ∃ l, s.phase = .writing l) → s.Called ∨
    ∀ o ∈ s.spus, ∀ h, s.health o.id = some h →
      o.status = toRes h ∨ lastFor o.key s.underWay = some (toRes h)

theorem changeOf_key {health o c} (h : changeOf health o = some c) : c.1 = o.key := by
  unfold changeOf at h
  split at h
  · cases h
  · split at h
    · cases h; rfl
    · split at h
      · cases h; rfl
      · cases h

theorem changeOf_some {health : Int → Option Bool} {o : SpuObj} {h : Bool} (hh : health o.id = some h)
    (hne : o.status ≠ toRes h) : changeOf health o = some (o.key, toRes h) := by
  unfold changeOf
  rw [hh]
  revert hne
  cases o.status <;> cases h <;> simp [toRes]

theorem changeOf_none {health : Int → Option Bool} {o : SpuObj} {h : Bool} (hh : health o.id = some h)
    (he : o.status = toRes h) : changeOf health o = none := by
  unfold changeOf
  rw [hh, he]
  cases h <;> simp [toRes]

theorem changes_nodup {health : Int → Option Bool} {l : List SpuObj} (hn : (l.map (·.key)).Nodup) :
    ((l.filterMap (changeOf health)).map (·.1)).Nodup := by
  induction l with
  | nil => exact List.nodup_nil
  | cons o l ih =>
    rw [List.map_cons, List.nodup_cons] at hn
    rw [List.filterMap_cons]
    cases hc : changeOf health o with
    | none => exact ih hn.2
    | some c =>
      refine List.nodup_cons.2 ⟨fun hm => hn.1 ?_, ih hn.2⟩
      obtain ⟨d, hd, e⟩ := List.mem_map.1 hm
      obtain ⟨o', ho', hc'⟩ := List.mem_filterMap.1 hd
      exact List.mem_map.2 ⟨o', ho', by rw [← changeOf_key hc', e]; exact changeOf_key hc⟩

theorem setStatus_keys (l : List SpuObj) (k : Nat) (r : Res) :
    (setStatus l k r).map (·.key) = l.map (·.key) := by
  unfold setStatus
  rw [List.map_map]
  refine List.map_congr_left fun o _ => ?_
  dsimp only [Function.comp_apply]
  split <;> rfl

/-- writing a status that no SPU lacks changes nothing -/
theorem setStatus_same {l : List SpuObj} {k : Nat} {r : Res} (h : setStatus l k r = l) :
    ∀ o ∈ l, o.key = k → o.status = r := by
  induction l with
  | nil => exact nofun
  | cons x l ih =>
    intro o ho hk
    unfold setStatus at h
    rw [List.map_cons] at h
    injection h with h1 h2
    rcases List.mem_cons.1 ho with rfl | ho
    · rw [if_pos hk] at h1
      rw [← h1]
    · exact ih h2 o ho hk

theorem put_keys {l : List SpuObj} (hn : (l.map (·.key)).Nodup) (o : SpuObj) :
    ((put l o).map (·.key)).Nodup := by
  unfold put
  rw [List.map_append, List.nodup_append]
  refine ⟨(List.Sublist.map _ List.filter_sublist).nodup hn, by simp, ?_⟩
  intro a ha b hb e
  obtain ⟨x, hx, rfl⟩ := List.mem_map.1 ha
  rw [List.map_singleton, List.mem_singleton] at hb
  exact of_decide_eq_true (List.mem_filter.1 hx).2 (e.trans hb)

theorem inv_init {spus : List SpuObj} (hn : (spus.map (·.key)).Nodup) : Inv (State.init spus) where
  keys := hn
  le := Nat.le_refl _
  one := .inl rfl
  snap := fun l h => nomatch h
  agree := fun h => by rcases h with h | ⟨l, h⟩ <;> cases h

theorem called_update {s : State} {id : Int} {b : Bool} (h : s.Called) : (s.update id b).Called := by
  unfold State.Called State.update at *
  dsimp only
  rcases h with h | h | h | h
  · exact .inl h
  · exact .inr (.inl h)
  · refine .inr (.inr (.inl ?_))
    split <;> omega
  · exact .inr (.inr (.inr h))

theorem inv_update {s : State} (hi : Inv s) (id : Int) (b : Bool) : Inv (s.update id b) where
  keys := hi.keys
  le := hi.le
  one := hi.one
  snap := hi.snap
  agree := fun hp => by
    by_cases hs : s.health id = some b
    · rcases hi.agree hp with h | h
      · exact .inl (called_update h)
      · refine .inr fun o ho v hv => ?_
        refine h o ho v ?_
        unfold State.update at hv
        dsimp only at hv
        split at hv
        · rename_i e; rw [e, hs]; exact hv
        · exact hv
    · refine .inl (.inr (.inr (.inl ?_)))
      show (if s.health id = some b then s.bumps else s.bumps + 1) ≠ 0
      rw [if_neg hs]; omega

theorem inv_conns {s : State} (hi : Inv s) (c : List Conn) (n : Nat) :
    Inv { s with conns := c, now := n } :=
  ⟨hi.keys, hi.le, hi.one, hi.snap, hi.agree⟩

/-- what settling needs of a run: increments of the counter are not interleaved -/
def Ev.atomicIn (s : State) : Ev → Prop
  | .load => s.loaded = []
  | _ => True

theorem inv_step {s t : State} {e : Ev} (hi : Inv s) (ha : e.atomicIn s) (h : step s e = some t) : Inv t := by
  cases e with
  | register cid spu =>
    rw [step] at h
    split at h
    · cases h
    · split at h
      · cases h; exact inv_update (inv_conns hi _ s.now) _ _
      · cases h
  | message cid =>
    rw [step] at h
    split at h
    · cases h; exact inv_conns hi _ s.now
    · cases h
  | expire cid =>
    rw [step] at h
    split at h
    · cases h
    · split at h
      · cases h; exact inv_update (inv_conns hi _ s.now) _ _
      · cases h
  | close cid =>
    rw [step] at h
    split at h
    · cases h
    · cases h; exact inv_update (inv_conns hi _ s.now) _ _
  | advance =>
    rw [step] at h
    split at h
    · cases h; exact inv_conns hi s.conns _
    · cases h
  | load =>
    rw [step] at h
    split at h
    · cases h
    · cases h
      have ha : s.loaded = [] := ha
      refine ⟨hi.keys, hi.le, .inr (by rw [ha]; rfl), hi.snap, fun _ => .inl (.inr (.inr (.inr ?_)))⟩
      rw [ha]; simp
  | store i =>
    rw [step] at h
    split at h
    · cases h
    · rename_i v hv
      cases h
      rcases hi.one with h0 | h1
      · rw [h0] at hv; cases hv
      · rw [h1] at hv
        cases i with
        | zero =>
          cases hv
          refine ⟨hi.keys, Nat.le_succ_of_le hi.le, .inl (by rw [h1]; rfl), hi.snap, fun _ => .inl (.inr (.inl ?_))⟩
          have := hi.le
          show s.seen ≠ s.counter + 1
          omega
        | succ i => cases hv
  | putSpu o =>
    cases h
    exact ⟨put_keys hi.keys o, hi.le, hi.one, fun l hl => ⟨(hi.snap l hl).1, .inl rfl⟩, fun _ => .inl (.inl rfl)⟩
  | removeSpu k =>
    cases h
    exact ⟨(List.Sublist.map _ List.filter_sublist).nodup hi.keys, hi.le, hi.one,
      fun l hl => ⟨(hi.snap l hl).1, .inl rfl⟩, fun _ => .inl (.inl rfl)⟩
  | snapshot =>
    rw [step] at h
    split at h
    · cases h
      refine ⟨hi.keys, hi.le, hi.one, fun l hl => ?_, fun hp => ?_⟩
      · cases hl; exact ⟨hi.keys, .inr fun o ho => ho⟩
      · rcases hp with hp | ⟨l, hp⟩ <;> cases hp
    · cases h
  | decide =>
    rw [step] at h
    split at h
    · rename_i snap hp
      cases h
      refine ⟨hi.keys, hi.le, hi.one, nofun, fun _ => ?_⟩
      have ⟨hn, hd⟩ := hi.snap snap hp
      rcases hd with hd | hd
      · exact .inl (.inl hd)
      · refine .inr fun o ho v hv => ?_
        by_cases he : o.status = toRes v
        · exact .inl he
        · refine .inr ?_
          show lastFor o.key (s.queue ++ snap.filterMap (changeOf s.health)) = some (toRes v)
          rw [lastFor_append, lastFor_of_unique (List.mem_filterMap.2 ⟨o, hd o ho, changeOf_some hv he⟩)
            (changes_nodup hn)]
          rfl
    · cases h
  | write =>
    rw [step] at h
    split at h
    · rename_i c rest hp
      cases h
      refine ⟨hi.keys, hi.le, hi.one, nofun, fun _ => ?_⟩
      rcases hi.agree (.inr ⟨_, hp⟩) with hc | hag
      · exact .inl hc
      · refine .inr fun o ho v hv => ?_
        have := hag o ho v hv
        rw [State.underWay, hp] at this
        rw [State.underWay]
        dsimp only at this ⊢
        rw [List.append_assoc]
        exact this
    · cases h
  | finish =>
    rw [step] at h
    split at h
    · rename_i hp
      cases h
      refine ⟨hi.keys, hi.le, hi.one, nofun, fun _ => ?_⟩
      rcases hi.agree (.inr ⟨_, hp⟩) with hc | hag
      · exact .inl hc
      · refine .inr fun o ho v hv => ?_
        have := hag o ho v hv
        rw [State.underWay, hp] at this
        exact this
    · cases h
  | restart =>
    rw [step] at h
    split at h
    · cases h
      refine ⟨hi.keys, Nat.zero_le _, hi.one, nofun, fun hp => ?_⟩
      rcases hp with hp | ⟨l, hp⟩ <;> cases hp
    · cases h
  | wakeStore =>
    rw [step] at h
    split at h
    · split at h
      · cases h
        refine ⟨hi.keys, hi.le, hi.one, nofun, fun hp => ?_⟩
        rcases hp with hp | ⟨l, hp⟩ <;> cases hp
      · cases h
    · cases h
  | wakeHealth =>
    rw [step] at h
    split at h
    · split at h
      · cases h
        refine ⟨hi.keys, Nat.le_refl _, hi.one, nofun, fun hp => ?_⟩
        rcases hp with hp | ⟨l, hp⟩ <;> cases hp
      · cases h
    · cases h
  | apply =>
    rw [step] at h
    split at h
    · cases h
    · rename_i k r q hq
      cases h
      by_cases he : setStatus s.spus k r = s.spus
      · rw [he]
        have hd : (s.dirty || decide (s.spus ≠ s.spus)) = s.dirty := by simp
        rw [hd]
        refine ⟨hi.keys, hi.le, hi.one, hi.snap, fun hp => ?_⟩
        rcases hi.agree hp with hc | hag
        · exact .inl hc
        · refine .inr fun o ho v hv => ?_
          rcases hag o ho v hv with h1 | h1
          · exact .inl h1
          · rw [State.underWay, hq, List.cons_append, lastFor] at h1
            rw [State.underWay]
            dsimp only
            generalize hl : lastFor o.key (q ++ _) = x at h1 ⊢
            cases x with
            | some y => exact .inr h1
            | none =>
              dsimp only at h1
              split at h1
              · rename_i hk
                cases h1
                exact .inl (setStatus_same he o ho hk.symm)
              · cases h1
      · have hd : (s.dirty || decide (setStatus s.spus k r ≠ s.spus)) = true := by
          rw [decide_eq_true he, Bool.or_true]
        rw [hd]
        exact ⟨by rw [setStatus_keys]; exact hi.keys, hi.le, hi.one,
          fun l hl => ⟨(hi.snap l hl).1, .inl rfl⟩, fun _ => .inl (.inl rfl)⟩

/-- every event of the run satisfies `ok` in the state in which it happens -/
def Always (ok : State → Ev → Prop) : State → List Ev → Prop
  | _, [] => True
  | s, e :: es => ok s e ∧ ∀ t, step s e = some t → Always ok t es

theorem run_ind {P : State → Prop} {ok : State → Ev → Prop}
    (hs : ∀ s t e, P s → ok s e → step s e = some t → P t) {s t : State} {es : List Ev}
    (hp : P s) (ha : Always ok s es) (h : run s es = some t) : P t := by
  induction es generalizing s with
  | nil => cases h; exact hp
  | cons e es ih =>
    rw [run] at h
    cases he : step s e with
    | none => rw [he] at h; cases h
    | some u => rw [he] at h; exact ih (hs s u e hp ha.1 he) (ha.2 u he) h

theorem inv_run {s t : State} {es : List Ev} (hi : Inv s) (ha : Always (fun s e => e.atomicIn s) s es)
    (h : run s es = some t) : Inv t :=
  run_ind (fun _ _ _ => inv_step) hi ha h

theorem quiet_agree {s : State} (hi : Inv s) (hq : s.Quiet) :
    ∀ o ∈ s.spus, ∀ h, s.health o.id = some h → o.status = toRes h := by
  obtain ⟨h1, h2, h3, h4, h5, h6⟩ := hq
  intro o ho h hh
  rcases hi.agree (.inl h1) with hc | hag
  · rcases hc with c | c | c | c
    · rw [h2] at c; cases c
    · exact absurd h3 c
    · exact absurd h4 c
    · exact absurd h5 c
  · rcases hag o ho h hh with h7 | h7
    · exact h7
    · rw [State.underWay, h1, h6] at h7
      cases h7

/-! ## Settling happens -/

/-- `t` is reached from `s` by the controller's own events -/
def Reaches (s t : State) : Prop := ∃ es, (∀ e ∈ es, e.internal = true) ∧ run s es = some t

theorem Reaches.refl (s : State) : Reaches s s := ⟨[], nofun, rfl⟩

theorem Reaches.trans {s t u : State} (h : Reaches s t) (h' : Reaches t u) : Reaches s u := by
  obtain ⟨l, hl, e⟩ := h
  obtain ⟨l', hl', e'⟩ := h'
  refine ⟨l ++ l', fun x hx => ?_, by rw [run_append e, e']⟩
  rcases List.mem_append.1 hx with hx | hx
  · exact hl x hx
  · exact hl' x hx

theorem Reaches.one {s t : State} (e : Ev) (hi : e.internal = true) (h : step s e = some t) : Reaches s t :=
  ⟨[e], fun x hx => by rw [List.mem_singleton.1 hx]; exact hi, by rw [run, h]; rfl⟩

theorem inj_of_nodup {α β : Type} {f : α → β} {l : List α} (hn : (l.map f).Nodup) {x y : α}
    (hx : x ∈ l) (hy : y ∈ l) (e : f x = f y) : x = y := by
  induction l with
  | nil => cases hx
  | cons z l ih =>
    rw [List.map_cons, List.nodup_cons] at hn
    rcases List.mem_cons.1 hx with rfl | h1
    · rcases List.mem_cons.1 hy with rfl | h2
      · rfl
      · exact absurd (List.mem_map.2 ⟨y, h2, e.symm⟩) hn.1
    · rcases List.mem_cons.1 hy with rfl | h2
      · exact absurd (List.mem_map.2 ⟨x, h1, e⟩) hn.1
      · exact ih hn.2 h1 h2

/-- the status every SPU has after these updates -/
def applyAll (l : List SpuObj) (cs : List (Nat × Res)) : List SpuObj :=
  cs.foldl (fun l c => setStatus l c.1 c.2) l

theorem applyAll_eq (l : List SpuObj) (cs : List (Nat × Res)) :
    applyAll l cs = l.map fun o => { o with status := (lastFor o.key cs).getD o.status } := by
  induction cs generalizing l with
  | nil => exact (List.map_id'' (fun o => rfl) l).symm
  | cons c cs ih =>
    show applyAll (setStatus l c.1 c.2) cs = _
    rw [ih]
    unfold setStatus
    rw [List.map_map]
    refine List.map_congr_left fun o _ => ?_
    dsimp only [Function.comp_apply]
    rw [lastFor]
    by_cases hk : o.key = c.1
    · rw [if_pos hk]
      dsimp only
      cases lastFor o.key cs with
      | none => dsimp only; rw [if_pos hk.symm]; rfl
      | some r => rfl
    · rw [if_neg hk]
      cases lastFor o.key cs with
      | none => dsimp only; rw [if_neg fun e => hk e.symm]
      | some r => rfl

/-- the updates sent are carried out -/
theorem reach_drained (s : State) :
    ∃ d : Bool, Reaches s { s with queue := [], spus := applyAll s.spus s.queue, dirty := d } ∧
      (s.queue = [] → d = s.dirty) := by
  obtain ⟨now, conns, health, bumps, loaded, counter, seen, spus, dirty, queue, phase⟩ := s
  dsimp only
  induction queue generalizing spus dirty with
  | nil => exact ⟨dirty, Reaches.refl _, fun _ => rfl⟩
  | cons c q ih =>
    obtain ⟨d, hd, _⟩ := ih (setStatus spus c.1 c.2) (dirty || decide (setStatus spus c.1 c.2 ≠ spus))
    exact ⟨d, (Reaches.one .apply rfl rfl).trans hd, nofun⟩

/-- the changes found are sent -/
theorem reach_sent (s : State) (l : List (Nat × Res)) (hp : s.phase = .writing l) :
    Reaches s { s with phase := .waiting, queue := s.queue ++ l } := by
  obtain ⟨now, conns, health, bumps, loaded, counter, seen, spus, dirty, queue, phase⟩ := s
  dsimp only at hp ⊢
  subst hp
  induction l generalizing queue with
  | nil =>
    rw [List.append_nil]
    exact Reaches.one .finish rfl rfl
  | cons c l ih =>
    have := ih (queue ++ [c])
    rw [List.append_assoc] at this
    exact (Reaches.one .write rfl rfl).trans this

/-- pending increments are carried out -/
theorem reach_bumped (s : State) (h1 : s.loaded = [] ∨ s.loaded = [s.counter]) (h2 : s.seen ≤ s.counter) :
    ∃ n, s.seen ≤ n ∧ Reaches s { s with bumps := 0, loaded := [], counter := n } := by
  obtain ⟨now, conns, health, bumps, loaded, counter, seen, spus, dirty, queue, phase⟩ := s
  dsimp only at h1 h2 ⊢
  have key : ∀ b c, seen ≤ c → ∃ n, seen ≤ n ∧
      Reaches ⟨now, conns, health, b, [], c, seen, spus, dirty, queue, phase⟩
        ⟨now, conns, health, 0, [], n, seen, spus, dirty, queue, phase⟩ := by
    intro b
    induction b with
    | zero => exact fun c hc => ⟨c, hc, Reaches.refl _⟩
    | succ b ih =>
      intro c hc
      obtain ⟨n, hn, hr⟩ := ih (c + 1) (by omega)
      exact ⟨n, hn, ((Reaches.one .load rfl rfl).trans (Reaches.one (.store 0) rfl rfl)).trans hr⟩
  rcases h1 with h1 | h1
  · subst h1; exact key bumps counter h2
  · subst h1
    obtain ⟨n, hn, hr⟩ := key bumps (counter + 1) (by omega)
    exact ⟨n, hn, (Reaches.one (.store 0) rfl rfl).trans hr⟩

/-- every SPU whose health is known shows it -/
def State.Agree (s : State) : Prop :=
  ∀ o ∈ s.spus, ∀ h, s.health o.id = some h → o.status = toRes h

/-- one turn of the loop -/
theorem reach_cycle (s : State) (hk : (s.spus.map (·.key)).Nodup) (hp : s.phase = .start) (hq : s.queue = []) :
    ∃ d spus', Reaches s { s with phase := .waiting, spus := spus', dirty := d } ∧
      (spus'.map (·.key)).Nodup ∧
      (∀ o ∈ spus', ∀ h, s.health o.id = some h → o.status = toRes h) ∧
      (s.Agree → d = s.dirty) := by
  obtain ⟨now, conns, health, bumps, loaded, counter, seen, spus, dirty, queue, phase⟩ := s
  dsimp only at hk hp hq ⊢
  subst hp hq
  have r1 : Reaches ⟨now, conns, health, bumps, loaded, counter, seen, spus, dirty, [], .start⟩
      ⟨now, conns, health, bumps, loaded, counter, seen, spus, dirty, [],
        .writing (spus.filterMap (changeOf health))⟩ :=
    (Reaches.one .snapshot rfl rfl).trans (Reaches.one .decide rfl rfl)
  have r2 := reach_sent ⟨now, conns, health, bumps, loaded, counter, seen, spus, dirty, [],
        .writing (spus.filterMap (changeOf health))⟩ _ rfl
  obtain ⟨d, r3, hd⟩ := reach_drained ⟨now, conns, health, bumps, loaded, counter, seen, spus, dirty,
    spus.filterMap (changeOf health), .waiting⟩
  refine ⟨d, applyAll spus (spus.filterMap (changeOf health)), (r1.trans r2).trans r3, ?_, ?_, ?_⟩
  · rw [applyAll_eq, List.map_map]
    exact hk
  · intro o ho h hh
    rw [applyAll_eq] at ho
    obtain ⟨o', ho', rfl⟩ := List.mem_map.1 ho
    dsimp only at hh ⊢
    by_cases he : o'.status = toRes h
    · cases hl : lastFor o'.key (spus.filterMap (changeOf health)) with
      | none => exact he
      | some r =>
        exfalso
        rw [lastFor_none] at hl
        · cases hl
        · intro a ha e
          obtain ⟨x, hx, hc⟩ := List.mem_filterMap.1 ha
          have hxo : x = o' := by
            have hkey : x.key = o'.key := by rw [← changeOf_key hc, e]
            exact inj_of_nodup hk hx ho' hkey
          rw [hxo, changeOf_none hh he] at hc
          cases hc
    · rw [lastFor_of_unique (List.mem_filterMap.2 ⟨o', ho', changeOf_some hh he⟩) (changes_nodup hk)]
      rfl
  · intro hag
    refine hd ?_
    refine List.filterMap_eq_nil_iff.2 fun o ho => ?_
    cases hh : health o.id with
    | none => unfold changeOf; rw [hh]
    | some h => exact changeOf_none hh (hag o ho h hh)

/-- from every state the controller comes to rest by itself -/
theorem settles {s : State} (hi : Inv s) :
    ∃ t, Reaches s t ∧ t.Quiet ∧ t.health = s.health ∧ t.conns = s.conns ∧ t.now = s.now := by
  obtain ⟨n, hn, r1⟩ := reach_bumped s hi.one hi.le
  -- the loop reaches the `select!`
  have w : ∃ q, Reaches { s with bumps := 0, loaded := [], counter := n }
      { s with bumps := 0, loaded := [], counter := n, phase := .waiting, queue := q } := by
    cases hp : s.phase with
    | start =>
      have := reach_sent { s with bumps := 0, loaded := [], counter := n, phase := .writing (s.spus.filterMap (changeOf s.health)) } _ rfl
      exact ⟨_, ((Reaches.one .snapshot rfl rfl).trans (Reaches.one .decide rfl rfl)).trans this⟩
    | decide l =>
      have := reach_sent { s with bumps := 0, loaded := [], counter := n, phase := .writing (l.filterMap (changeOf s.health)) } _ rfl
      exact ⟨_, (Reaches.one .decide rfl rfl).trans this⟩
    | writing l => exact ⟨_, reach_sent { s with bumps := 0, loaded := [], counter := n, phase := .writing l } l rfl⟩
    | waiting =>
      exact ⟨s.queue, Reaches.refl _⟩
  obtain ⟨q, r2⟩ := w
  obtain ⟨d, r3, _⟩ := reach_drained { s with bumps := 0, loaded := [], counter := n, phase := .waiting, queue := q }
  dsimp only at r3
  have hk : ((applyAll s.spus q).map (·.key)).Nodup := by
    rw [applyAll_eq, List.map_map]; exact hi.keys
  -- from here the state is determined by SPUs, `dirty` and `seen`
  have rest : ∀ (spus : List SpuObj) (d : Bool) (m : Nat), (spus.map (·.key)).Nodup → ∃ t,
      Reaches { s with bumps := 0, loaded := [], counter := n, phase := .waiting, queue := [], spus := spus, dirty := d, seen := m } t ∧
      t.Quiet ∧ t.health = s.health ∧ t.conns = s.conns ∧ t.now = s.now := by
    -- once everything agrees
    have agreed : ∀ (spus : List SpuObj) (d : Bool), (spus.map (·.key)).Nodup →
        (∀ o ∈ spus, ∀ h, s.health o.id = some h → o.status = toRes h) → ∃ t,
        Reaches { s with bumps := 0, loaded := [], counter := n, phase := .waiting, queue := [], spus := spus, dirty := d, seen := n } t ∧
        t.Quiet ∧ t.health = s.health ∧ t.conns = s.conns ∧ t.now = s.now := by
      intro spus d hk hag
      cases d with
      | false => exact ⟨_, Reaches.refl _, ⟨rfl, rfl, rfl, rfl, rfl, rfl⟩, rfl, rfl, rfl⟩
      | true =>
        obtain ⟨d, spus', r, _, _, hd⟩ := reach_cycle { s with bumps := 0, loaded := [], counter := n, phase := .start, queue := [], spus := spus, dirty := false, seen := n } hk rfl rfl
        have : d = false := hd hag
        subst this
        exact ⟨_, (Reaches.one .wakeStore rfl rfl).trans r, ⟨rfl, rfl, rfl, rfl, rfl, rfl⟩, rfl, rfl, rfl⟩
    have clean : ∀ (spus : List SpuObj) (m : Nat), (spus.map (·.key)).Nodup → ∃ t,
        Reaches { s with bumps := 0, loaded := [], counter := n, phase := .waiting, queue := [], spus := spus, dirty := false, seen := m } t ∧
        t.Quiet ∧ t.health = s.health ∧ t.conns = s.conns ∧ t.now = s.now := by
      intro spus m hk
      by_cases hm : m = n
      · exact ⟨_, Reaches.refl _, ⟨rfl, rfl, hm, rfl, rfl, rfl⟩, rfl, rfl, rfl⟩
      · obtain ⟨d, spus', r, hk', hag, _⟩ := reach_cycle { s with bumps := 0, loaded := [], counter := n, phase := .start, queue := [], spus := spus, dirty := false, seen := n } hk rfl rfl
        obtain ⟨t, r', h⟩ := agreed spus' d hk' hag
        exact ⟨t, ((Reaches.one .wakeHealth rfl (by simp only [step]; rw [if_pos hm])).trans r).trans r', h⟩
    intro spus d m hk
    cases d with
    | false => exact clean spus m hk
    | true =>
      obtain ⟨d, spus', r, hk', hag, _⟩ := reach_cycle { s with bumps := 0, loaded := [], counter := n, phase := .start, queue := [], spus := spus, dirty := false, seen := m } hk rfl rfl
      have rw1 := (Reaches.one (s := { s with bumps := 0, loaded := [], counter := n, phase := .waiting, queue := [], spus := spus, dirty := true, seen := m }) .wakeStore rfl rfl).trans r
      by_cases hm : m = n
      · subst hm
        obtain ⟨t, r', h⟩ := agreed spus' d hk' hag
        exact ⟨t, rw1.trans r', h⟩
      · obtain ⟨d2, spus2, r2, hk2, hag2, _⟩ := reach_cycle { s with bumps := 0, loaded := [], counter := n, phase := .start, queue := [], spus := spus', dirty := d, seen := n } hk' rfl rfl
        obtain ⟨t, r', h⟩ := agreed spus2 d2 hk2 hag2
        exact ⟨t, ((rw1.trans (Reaches.one .wakeHealth rfl (by simp only [step]; rw [if_pos hm]))).trans r2).trans r', h⟩
  obtain ⟨t, r4, h⟩ := rest _ d s.seen hk
  exact ⟨t, ((r1.trans r2).trans r3).trans r4, h⟩

/-! ## Connections -/

/-- an SPU registers only while it has no other connection -/
def Ev.soleIn (s : State) : Ev → Prop
  | .register _ spu => ∀ c ∈ s.conns, c.spu ≠ spu
  | _ => True

structure ConnInv (s : State) : Prop where
  cids : (s.conns.map (·.cid)).Nodup
  spus : (s.conns.map (·.spu)).Nodup
  health : ∀ id, s.health id = some true ↔ ∃ c ∈ s.conns, c.spu = id

theorem conn_end {s : State} (hi : ConnInv s) {c : Conn} (hc : c ∈ s.conns) : ConnInv (endConn s c) where
  cids := (List.Sublist.map _ List.filter_sublist).nodup hi.cids
  spus := (List.Sublist.map _ List.filter_sublist).nodup hi.spus
  health := fun id => by
    show (if id = c.spu then some false else s.health id) = some true ↔
      ∃ d ∈ s.conns.filter (·.cid ≠ c.cid), d.spu = id
    split
    · rename_i e
      refine ⟨nofun, fun ⟨d, hd, hs⟩ => ?_⟩
      have ⟨hd1, hd2⟩ := List.mem_filter.1 hd
      have : d = c := inj_of_nodup hi.spus hd1 hc (hs.trans e)
      rw [this] at hd2
      simp at hd2
    · rename_i hne
      rw [hi.health]
      refine ⟨fun ⟨d, hd, hs⟩ => ⟨d, List.mem_filter.2 ⟨hd, ?_⟩, hs⟩, fun ⟨d, hd, hs⟩ => ⟨d, (List.mem_filter.1 hd).1, hs⟩⟩
      refine decide_eq_true fun e => hne ?_
      rw [← hs, inj_of_nodup hi.cids hd hc e]

theorem conn_step {s t : State} {e : Ev} (hi : ConnInv s) (ha : e.soleIn s) (h : step s e = some t) :
    ConnInv t := by
  cases e with
  | register cid spu =>
    rw [step] at h
    split at h
    · cases h
    · rename_i hcid
      split at h
      · cases h
        have hcid : ∀ c ∈ s.conns, c.cid ≠ cid := by simpa using hcid
        refine ⟨?_, ?_, fun id => ?_⟩
        · show ((s.conns ++ [(⟨cid, spu, s.now⟩ : Conn)]).map (·.cid)).Nodup
          rw [List.map_append, List.nodup_append]
          refine ⟨hi.cids, by simp, fun a h1 b h2 => ?_⟩
          obtain ⟨c, hc, rfl⟩ := List.mem_map.1 h1
          have : b = cid := by simpa using h2
          rw [this]; exact hcid c hc
        · show ((s.conns ++ [(⟨cid, spu, s.now⟩ : Conn)]).map (·.spu)).Nodup
          rw [List.map_append, List.nodup_append]
          refine ⟨hi.spus, by simp, fun a h1 b h2 => ?_⟩
          obtain ⟨c, hc, rfl⟩ := List.mem_map.1 h1
          have : b = spu := by simpa using h2
          rw [this]; exact ha c hc
        · show (if id = spu then some true else s.health id) = some true ↔ ∃ c ∈ s.conns ++ [_], c.spu = id
          split
          · rename_i e
            exact ⟨fun _ => ⟨_, List.mem_append.2 (.inr List.mem_cons_self), e.symm⟩, fun _ => rfl⟩
          · rename_i hne
            rw [hi.health]
            refine ⟨fun ⟨c, hc, hs⟩ => ⟨c, List.mem_append.2 (.inl hc), hs⟩, fun ⟨c, hc, hs⟩ => ?_⟩
            rcases List.mem_append.1 hc with hc | hc
            · exact ⟨c, hc, hs⟩
            · rw [List.mem_singleton.1 hc] at hs
              exact absurd hs.symm hne
      · cases h
  | message cid =>
    rw [step] at h
    split at h
    · cases h
      have hm : ∀ (f : Conn → Nat), (∀ c : Conn, f { c with last := s.now } = f c) →
          (s.conns.map fun c => if c.cid = cid then { c with last := s.now } else c).map f = s.conns.map f := by
        intro f hf
        rw [List.map_map]
        refine List.map_congr_left fun c _ => ?_
        dsimp only [Function.comp_apply]
        split
        · exact hf c
        · rfl
      have hms : (s.conns.map fun c => if c.cid = cid then { c with last := s.now } else c).map (·.spu) = s.conns.map (·.spu) := by
        rw [List.map_map]
        refine List.map_congr_left fun c _ => ?_
        dsimp only [Function.comp_apply]
        split <;> rfl
      refine ⟨?_, ?_, fun id => ?_⟩
      · show (List.map _ (List.map _ s.conns)).Nodup
        rw [hm (·.cid) fun _ => rfl]; exact hi.cids
      · show (List.map _ (List.map _ s.conns)).Nodup
        rw [hms]; exact hi.spus
      · have e1 : ∀ l : List Conn, (∃ c ∈ l, c.spu = id) ↔ id ∈ l.map (·.spu) := fun l => by
          rw [List.mem_map]
        rw [e1]
        show s.health id = some true ↔ id ∈ List.map _ (List.map _ s.conns)
        rw [hms, ← e1]
        exact hi.health id
    · cases h
  | expire cid =>
    rw [step] at h
    split at h
    · cases h
    · rename_i c hc
      split at h
      · cases h; exact conn_end hi (List.mem_of_find?_eq_some hc)
      · cases h
  | close cid =>
    rw [step] at h
    split at h
    · cases h
    · rename_i c hc
      cases h; exact conn_end hi (List.mem_of_find?_eq_some hc)
  | advance =>
    rw [step] at h
    split at h
    · cases h; exact ⟨hi.cids, hi.spus, hi.health⟩
    · cases h
  | load =>
    rw [step] at h
    split at h
    · cases h
    · cases h; exact ⟨hi.cids, hi.spus, hi.health⟩
  | store i =>
    rw [step] at h
    split at h
    · cases h
    · cases h; exact ⟨hi.cids, hi.spus, hi.health⟩
  | putSpu o => cases h; exact ⟨hi.cids, hi.spus, hi.health⟩
  | removeSpu k => cases h; exact ⟨hi.cids, hi.spus, hi.health⟩
  | snapshot | decide | write | finish | restart =>
    rw [step] at h
    split at h
    · cases h; exact ⟨hi.cids, hi.spus, hi.health⟩
    · cases h
  | wakeStore | wakeHealth =>
    rw [step] at h
    split at h
    · split at h
      · cases h; exact ⟨hi.cids, hi.spus, hi.health⟩
      · cases h
    · cases h
  | apply =>
    rw [step] at h
    split at h
    · cases h
    · cases h; exact ⟨hi.cids, hi.spus, hi.health⟩

theorem conn_run {s t : State} {es : List Ev} (hi : ConnInv s) (ha : Always (fun s e => e.soleIn s) s es)
    (h : run s es = some t) : ConnInv t :=
  run_ind (fun _ _ _ => conn_step) hi ha h

theorem conn_init (spus : List SpuObj) : ConnInv (State.init spus) :=
  ⟨List.nodup_nil, List.nodup_nil, fun _ => ⟨nofun, fun ⟨_, h, _⟩ => nomatch h⟩⟩

end Verif.Sc.Health
