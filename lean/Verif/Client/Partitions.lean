import Verif.Client.CommitInv

/-!
# A consumer of several partitions (`fluvio/src/fluvio.rs`, `fluvio/src/consumer/stream.rs`)

Which partitions a consumer opens, how their streams are merged, and what `offset_commit` and
`offset_flush` of the merged stream do with the offsets of the partitions.
-/

namespace Verif.Client.Partitions
open Verif.Client

abbrev Text := List Char

/-- What of `ReplicaSpec` decides about partitions — topic/spec.rs.  `plain`: computed or assigned
replicas; `home`: one partition for each remote cluster (`HomeMirrorConfig::partitions`); `remote`: the
home cluster's name and the number of `home_spus` (`RemoteMirrorConfig`). -/
inductive Replicas where
  | plain (count : Nat)
  | home (remotes : List Text)
  | remote (home : Text) (spus : Nat)
deriving DecidableEq

/-- `TopicSpec::partitions` — topic/spec.rs -/
def Replicas.partitions : Replicas → Nat
  | .plain n => n
  | .home rs => rs.length
  | .remote _ n => n

/-- the fields of `ConsumerConfigExt` read here — consumer/config.rs:85-150.  `partitions` in the order of
the calls of `partition()` (config.rs:180-183), which appends. -/
structure Config where
  mirror : Option Text
  partitions : List Nat

/-- `mirror_partition` — fluvio.rs:381-411; the partition maps are numbered from 0 in the order of the
configuration (topic/spec.rs:836-846, 917-933). -/
def mirrorPartition (c : Config) (r : Replicas) : Option Nat :=
  match c.mirror with
  | none => none
  | some m =>
    match r with
    | .home remotes => remotes.findIdx? (fun x => decide (x = m))
    | .remote home spus => if spus ≠ 0 ∧ home = m then some 0 else none
    | .plain _ => none

/-- `partitions` — fluvio.rs:413-419 -/
def selected (c : Config) (r : Replicas) : List Nat :=
  match mirrorPartition c r with
  | some p => [p]
  | none => if c.partitions.isEmpty then List.range r.partitions else c.partitions

/-- What a partition's stream yields: a record with its offset, or an error. -/
inductive Item (α : Type) where
  | record (offset : Int) (value : α)
  | error
deriving DecidableEq

/-- `SinglePartitionConsumerStream` — stream.rs:40-43.  `rest`: what the inner stream yields from now on
until it ends (which records these are: C31, C32); `sess`: its store of offsets, its channel and the offset
stored on the server for this consumer and partition (`Verif.Client.Commit`). -/
structure Single (α : Type) where
  part : Nat
  rest : List (Item α)
  sess : Session

def Single.on (x : Single α) (e : CmEv) : Single α := { x with sess := (x.sess.step e).1 }

/-- `MultiplePartitionConsumerStream` — stream.rs:35-38; `managed`: the strategy is `Manual`, otherwise
`None` (the automatic strategy is not modelled here); `flushing`: a call of `offset_flush` is running.
Simplified: streams of the same partition do not share the offset stored on the server. -/
structure Multi (α : Type) where
  streams : List (Single α)
  managed : Bool
  flushing : Bool

/-- `consumer_with_config_inner` — fluvio.rs:363-427: the streams are opened one after another, the first
failure is the result.  `env p`: what the stream of partition `p` yields and the offset stored for it;
`none`: it cannot be opened. -/
def openAll (env : Nat → Option (List (Item α) × Option Int)) : List Nat → Option (List (Single α))
  | [] => some []
  | p :: ps =>
    match env p with
    | none => none
    | some (items, stored) =>
      match openAll env ps with
      | none => none
      | some xs => some (⟨p, items, Session.start .manual stored⟩ :: xs)

def consumer (c : Config) (r : Replicas) (managed : Bool)
    (env : Nat → Option (List (Item α) × Option Int)) : Option (Multi α) :=
  match openAll env (selected c r) with
  | none => none
  | some xs => some ⟨xs, managed, false⟩

/-- What the application sees. -/
inductive Obs (α : Type) where
  /-- an item of the `i`th stream, which is of partition `part` -/
  | got (i : Nat) (part : Nat) (item : Item α)
  /-- the merged stream has ended -/
  | ended
  | commit (ok : Bool)
  | flush (ok : Bool)
deriving DecidableEq

inductive MEv where
  /-- the application polls and the `i`th stream is the one that has something -/
  | poll (i : Nat)
  /-- the application polls and no stream has anything -/
  | pollNone
  | commit
  /-- the application calls `offset_flush`: the first poll of the joined futures -/
  | flush
  /-- a later poll: the answer for the `i`th stream is there -/
  | resume (i : Nat)
  /-- the application drops the call of `offset_flush` -/
  | abandon
  /-- the task of the `i`th stream that talks to the server handles its oldest message -/
  | serve (i : Nat) (w : Served)

/-- The first poll of `try_join_all`: the futures in order up to the first failure. -/
def beginFlush : List (Single α) → List (Single α) × Bool
  | [] => ([], true)
  | x :: xs =>
    if (x.sess.step .flush).2 = some false then (x.on .flush :: xs, false)
    else (x.on .flush :: (beginFlush xs).1, (beginFlush xs).2)

/-- nobody waits for an answer -/
def idle (xs : List (Single α)) : Bool := xs.all (fun x => decide (x.sess.waiting = .no))

/-- `try_join_all` after a poll without failure: done when all are done. -/
def joined (m : Multi α) (xs : List (Single α)) : Multi α × List (Obs α) :=
  if idle xs then ({ m with streams := xs, flushing := false }, [.flush true])
  else ({ m with streams := xs, flushing := true }, [])

/-- `try_join_all` after a failure: the other futures are dropped. -/
def failed (m : Multi α) (xs : List (Single α)) : Multi α × List (Obs α) :=
  ({ m with streams := xs.map (·.on .cancel), flushing := false }, [.flush false])

/-- The merged stream: `poll_next` with `select_all` (stream.rs:211-224; an ended stream is dropped, the
end of all is the end) over `poll_next` of the single streams (stream.rs:139-156), `offset_commit`
(195-203) and `offset_flush` (205-208). -/
def Multi.step (m : Multi α) : MEv → Multi α × List (Obs α)
  | .poll i =>
    if m.flushing then (m, [])
    else match m.streams[i]? with
    | none => (m, [])
    | some x =>
      match x.rest with
      | [] => (m, [])
      | .record o v :: rest =>
        ({ m with streams := m.streams.set i { (x.on (.deliver o false false)) with rest := rest } },
          [.got i x.part (.record o v)])
      | .error :: rest => ({ m with streams := m.streams.set i { x with rest := rest } }, [.got i x.part .error])
  | .pollNone =>
    if m.flushing = false ∧ (m.streams.all (·.rest.isEmpty)) = true then (m, [.ended]) else (m, [])
  | .commit =>
    if m.flushing then (m, [])
    else if m.managed then ({ m with streams := m.streams.map (·.on .commit) }, [.commit true])
    else (m, [.commit m.streams.isEmpty])
  | .flush =>
    if m.flushing then (m, [])
    else if m.managed then
      if (beginFlush m.streams).2 then joined m (beginFlush m.streams).1
      else failed m (beginFlush m.streams).1
    else (m, [.flush m.streams.isEmpty])
  | .resume i =>
    if m.flushing then
      match m.streams[i]? with
      | none => (m, [])
      | some x =>
        match (x.sess.step .flushed).2 with
        | none => (m, [])
        | some true => joined m (m.streams.set i (x.on .flushed))
        | some false => failed m (m.streams.set i (x.on .flushed))
    else (m, [])
  | .abandon =>
    if m.flushing then ({ m with streams := m.streams.map (·.on .cancel), flushing := false }, [])
    else (m, [])
  | .serve i w =>
    match m.streams[i]? with
    | none => (m, [])
    | some x => ({ m with streams := m.streams.set i (x.on (.serve w)) }, [])

/-- The state after a history, and what the application saw. -/
def Multi.run (m : Multi α) : List MEv → Multi α × List (Obs α)
  | [] => (m, [])
  | e :: es =>
    let r := m.step e
    let q := r.1.run es
    (q.1, r.2 ++ q.2)

/-! ## Selection -/

theorem findIdx?_eq_getElem {l : List Text} {m : Text} {p : Nat}
    (h : l.findIdx? (fun x => decide (x = m)) = some p) : l[p]? = some m := by
  rw [List.findIdx?_eq_some_iff_getElem] at h
  obtain ⟨hp, h1, _⟩ := h
  rw [List.getElem?_eq_getElem hp]
  simpa using h1

theorem openAll_some (env : Nat → Option (List (Item α) × Option Int)) : ∀ (ps : List Nat)
    (xs : List (Single α)), openAll env ps = some xs →
    xs.length = ps.length ∧ ∀ (i : Nat) (x : Single α), xs[i]? = some x →
      ps[i]? = some x.part ∧ ∃ stored, env x.part = some (x.rest, stored)
        ∧ x.sess = Session.start .manual stored
  | [], xs, h => by
    simp only [openAll, Option.some.injEq] at h
    subst h
    exact ⟨rfl, by intro i x h; simp at h⟩
  | p :: ps, xs, h => by
    unfold openAll at h
    cases he : env p with
    | none => rw [he] at h; cases h
    | some a =>
      obtain ⟨items, stored⟩ := a
      rw [he] at h
      dsimp only at h
      cases ho : openAll env ps with
      | none => rw [ho] at h; cases h
      | some ys =>
        rw [ho] at h
        injection h with h
        subst h
        obtain ⟨h1, h2⟩ := openAll_some env ps ys ho
        refine ⟨by simp [h1], ?_⟩
        intro i x hx
        cases i with
        | zero =>
          simp only [List.getElem?_cons_zero, Option.some.injEq] at hx
          subst hx
          exact ⟨rfl, stored, he, rfl⟩
        | succ i =>
          rw [List.getElem?_cons_succ] at hx ⊢
          exact h2 i x hx

theorem openAll_none (env : Nat → Option (List (Item α) × Option Int)) : ∀ (ps : List Nat),
    openAll env ps = none ↔ ∃ p ∈ ps, env p = none
  | [] => by simp [openAll]
  | p :: ps => by
    have ih := openAll_none env ps
    unfold openAll
    cases he : env p with
    | none => simp [he]
    | some a =>
      dsimp only
      cases ho : openAll env ps with
      | none => rw [ho] at ih; simp only [true_iff] at ih ⊢; obtain ⟨q, h1, h2⟩ := ih; exact ⟨q, by simp [h1], h2⟩
      | some ys =>
        rw [ho] at ih
        simp only [reduceCtorEq, false_iff] at ih ⊢
        rintro ⟨q, h1, h2⟩
        rcases List.mem_cons.mp h1 with rfl | h1
        · rw [he] at h2; cases h2
        · exact ih ⟨q, h1, h2⟩

/-! ## Merging -/

/-- What was got from the `i`th stream. -/
def itemsOf (i : Nat) (log : List (Obs α)) : List (Item α) :=
  log.filterMap (fun o => match o with
    | .got j _ it => if j = i then some it else none
    | _ => none)

theorem itemsOf_append (i : Nat) (a b : List (Obs α)) :
    itemsOf i (a ++ b) = itemsOf i a ++ itemsOf i b := by simp [itemsOf]

theorem beginFlush_get : ∀ (xs : List (Single α)) (i : Nat) (y : Single α),
    (beginFlush xs).1[i]? = some y → ∃ x, xs[i]? = some x ∧ (y = x ∨ y = x.on .flush)
  | [], i, y, h => by simp [beginFlush] at h
  | x :: xs, i, y, h => by
    unfold beginFlush at h
    split at h
    · cases i with
      | zero => simp at h; exact ⟨x, rfl, .inr h.symm⟩
      | succ i => exact ⟨y, by simpa using h, .inl rfl⟩
    · cases i with
      | zero => simp at h; exact ⟨x, rfl, .inr h.symm⟩
      | succ i =>
        rw [List.getElem?_cons_succ] at h ⊢
        exact beginFlush_get xs i y h

theorem beginFlush_length : ∀ (xs : List (Single α)), (beginFlush xs).1.length = xs.length
  | [] => rfl
  | x :: xs => by
    unfold beginFlush
    split
    · rfl
    · simp [beginFlush_length xs]

theorem beginFlush_ok : ∀ (xs : List (Single α)), (beginFlush xs).2 = true → ∀ (i : Nat) (y : Single α),
    (beginFlush xs).1[i]? = some y →
    ∃ x, xs[i]? = some x ∧ y = x.on .flush ∧ (x.sess.step .flush).2 ≠ some false
  | [], _, i, y, h => by simp [beginFlush] at h
  | x :: xs, hok, i, y, h => by
    unfold beginFlush at h hok
    split at h
    · rename_i hf; rw [if_pos hf] at hok; cases hok
    · rename_i hf
      rw [if_neg hf] at hok
      cases i with
      | zero => simp at h; exact ⟨x, rfl, h.symm, hf⟩
      | succ i =>
        rw [List.getElem?_cons_succ] at h ⊢
        exact beginFlush_ok xs hok i y h

/-- What an event does to the `i`th stream. -/
structure Effect (m : Multi α) (e : MEv) (i : Nat) (x y : Single α) : Prop where
  part : y.part = x.part
  items : itemsOf i (m.step e).2 ++ y.rest = x.rest
  parts : ∀ p it, Obs.got i p it ∈ (m.step e).2 → p = x.part

theorem joined_items (m : Multi α) (xs : List (Single α)) (i : Nat) : itemsOf i (joined m xs).2 = [] := by
  unfold joined; split <;> rfl

theorem joined_got (m : Multi α) (xs : List (Single α)) (i p : Nat) (it : Item α) :
    Obs.got i p it ∉ (joined m xs).2 := by
  unfold joined; split <;> simp

theorem joined_streams (m : Multi α) (xs : List (Single α)) : (joined m xs).1.streams = xs := by
  unfold joined; split <;> rfl

theorem step_effect (m : Multi α) (e : MEv) :
    (m.step e).1.streams.length = m.streams.length ∧
    ∀ (i : Nat) (y : Single α), (m.step e).1.streams[i]? = some y →
      ∃ x, m.streams[i]? = some x ∧ Effect m e i x y := by
  have same : ∀ (r : Multi α × List (Obs α)), m.step e = r →
      (r.1.streams = m.streams) → (∀ i, itemsOf i r.2 = []) → (∀ i p it, Obs.got i p it ∉ r.2) →
      (m.step e).1.streams.length = m.streams.length ∧
      ∀ (i : Nat) (y : Single α), (m.step e).1.streams[i]? = some y →
        ∃ x, m.streams[i]? = some x ∧ Effect m e i x y := by
    intro r hr h1 h2 h3
    rw [hr, h1]
    refine ⟨rfl, fun i y hy => ⟨y, hy, rfl, ?_, ?_⟩⟩
    · rw [hr, h2]; rfl
    · intro p it h; rw [hr] at h; exact absurd h (h3 i p it)
  have mapped : ∀ (r : Multi α × List (Obs α)) (xs : List (Single α)), m.step e = r →
      r.1.streams = xs → xs.length = m.streams.length →
      (∀ (i : Nat) (y : Single α), xs[i]? = some y → ∃ x, m.streams[i]? = some x ∧ y.part = x.part ∧ y.rest = x.rest) →
      (∀ i, itemsOf i r.2 = []) → (∀ i p it, Obs.got i p it ∉ r.2) →
      (m.step e).1.streams.length = m.streams.length ∧
      ∀ (i : Nat) (y : Single α), (m.step e).1.streams[i]? = some y →
        ∃ x, m.streams[i]? = some x ∧ Effect m e i x y := by
    intro r xs hr h1 h2 hx h3 h4
    rw [hr, h1]
    refine ⟨h2, fun i y hy => ?_⟩
    obtain ⟨x, hx1, hx2, hx3⟩ := hx i y hy
    refine ⟨x, hx1, hx2, ?_, ?_⟩
    · rw [hr, h3, hx3]; rfl
    · intro p it h; rw [hr] at h; exact absurd h (h4 i p it)
  have setted : ∀ (xs : List (Single α)) (k : Nat) (x z : Single α), xs = m.streams.set k z →
      m.streams[k]? = some x → z.part = x.part → z.rest = x.rest →
      xs.length = m.streams.length ∧
      ∀ (i : Nat) (y : Single α), xs[i]? = some y →
        ∃ x, m.streams[i]? = some x ∧ y.part = x.part ∧ y.rest = x.rest := by
    intro xs k x z hxs hk hp hr
    subst hxs
    refine ⟨by simp, fun i y hy => ?_⟩
    rw [List.getElem?_set] at hy
    split at hy
    · subst_vars
      split at hy
      · cases hy; exact ⟨x, hk, hp, hr⟩
      · cases hy
    · exact ⟨y, hy, rfl, rfl⟩
  have mapOn : ∀ (xs : List (Single α)) (ev : CmEv),
      (∀ (i : Nat) (y : Single α), xs[i]? = some y → ∃ x, m.streams[i]? = some x ∧ y.part = x.part ∧ y.rest = x.rest) →
      ∀ (i : Nat) (y : Single α), (xs.map (·.on ev))[i]? = some y →
        ∃ x, m.streams[i]? = some x ∧ y.part = x.part ∧ y.rest = x.rest := by
    intro xs ev hx i y hy
    rw [List.getElem?_map] at hy
    cases hz : xs[i]? with
    | none => rw [hz] at hy; cases hy
    | some z =>
      rw [hz] at hy
      cases hy
      exact hx i z hz
  have refl' : ∀ (i : Nat) (y : Single α), m.streams[i]? = some y →
      ∃ x, m.streams[i]? = some x ∧ y.part = x.part ∧ y.rest = x.rest := fun i y h => ⟨y, h, rfl, rfl⟩
  have beg : ∀ (i : Nat) (y : Single α), (beginFlush m.streams).1[i]? = some y →
      ∃ x, m.streams[i]? = some x ∧ y.part = x.part ∧ y.rest = x.rest := by
    intro i y h
    obtain ⟨x, hx, h' | h'⟩ := beginFlush_get _ i y h
    · subst h'; exact ⟨y, hx, rfl, rfl⟩
    · subst h'; exact ⟨x, hx, rfl, rfl⟩
  cases e with
  | poll k =>
    cases hf : m.flushing with
    | true => exact same (m, []) (by simp [Multi.step, hf]) rfl (fun _ => rfl) (by simp)
    | false =>
      cases hk : m.streams[k]? with
      | none => exact same (m, []) (by simp [Multi.step, hf, hk]) rfl (fun _ => rfl) (by simp)
      | some x =>
        cases hr : x.rest with
        | nil => exact same (m, []) (by simp [Multi.step, hf, hk, hr]) rfl (fun _ => rfl) (by simp)
        | cons it rest =>
          have key : ∃ z : Single α, z.part = x.part ∧ z.rest = rest ∧
              m.step (.poll k) = ({ m with streams := m.streams.set k z }, [.got k x.part it]) := by
            cases it with
            | record o v =>
              exact ⟨{ (x.on (.deliver o false false)) with rest := rest }, rfl, rfl,
                by simp [Multi.step, hf, hk, hr]⟩
            | error => exact ⟨{ x with rest := rest }, rfl, rfl, by simp [Multi.step, hf, hk, hr]⟩
          obtain ⟨z, hz1, hz2, hz3⟩ := key
          rw [hz3]
          refine ⟨by simp, fun i y hy => ?_⟩
          dsimp only at hy
          rw [List.getElem?_set] at hy
          split at hy
          · subst_vars
            split at hy
            · cases hy
              refine ⟨x, hk, hz1, ?_, ?_⟩
              · rw [hz3, hr]; simp [itemsOf]
              · intro p it' h
                rw [hz3] at h
                simp at h
                exact h.1
            · cases hy
          · rename_i hne
            refine ⟨y, hy, rfl, ?_, ?_⟩
            · rw [hz3]; simp [itemsOf, hne]
            · intro p it' h
              rw [hz3] at h
              simp at h
              exact absurd h.1.symm hne
  | pollNone =>
    by_cases h : m.flushing = false ∧ (m.streams.all (·.rest.isEmpty)) = true
    · exact same (m, [.ended]) (by unfold Multi.step; rw [if_pos h]) rfl (fun _ => rfl) (by simp)
    · exact same (m, []) (by unfold Multi.step; rw [if_neg h]) rfl (fun _ => rfl) (by simp)
  | commit =>
    cases hf : m.flushing with
    | true => exact same (m, []) (by simp [Multi.step, hf]) rfl (fun _ => rfl) (by simp)
    | false =>
      cases hm : m.managed with
      | false =>
        exact same (m, [.commit m.streams.isEmpty]) (by simp [Multi.step, hf, hm]) rfl (fun _ => rfl) (by simp)
      | true =>
        exact mapped ({ m with streams := m.streams.map (·.on .commit) }, [.commit true]) _
          (by simp [Multi.step, hf, hm]) rfl (by simp) (mapOn _ _ refl') (fun _ => rfl) (by simp)
  | flush =>
    cases hf : m.flushing with
    | true => exact same (m, []) (by simp [Multi.step, hf]) rfl (fun _ => rfl) (by simp)
    | false =>
      cases hm : m.managed with
      | false =>
        exact same (m, [.flush m.streams.isEmpty]) (by simp [Multi.step, hf, hm]) rfl (fun _ => rfl) (by simp)
      | true =>
        cases hb : (beginFlush m.streams).2 with
        | true =>
          exact mapped (joined m (beginFlush m.streams).1) _ (by simp [Multi.step, hf, hm, hb])
            (joined_streams ..) (beginFlush_length _) beg (fun i => joined_items _ _ i) (fun i p it => joined_got _ _ i p it)
        | false =>
          exact mapped (failed m (beginFlush m.streams).1) ((beginFlush m.streams).1.map (·.on .cancel)) (by simp [Multi.step, hf, hm, hb])
            rfl (by rw [List.length_map, beginFlush_length]) (mapOn _ _ beg) (fun _ => rfl) (by simp [failed])
  | resume k =>
    cases hf : m.flushing with
    | false => exact same (m, []) (by simp [Multi.step, hf]) rfl (fun _ => rfl) (by simp)
    | true =>
      cases hk : m.streams[k]? with
      | none => exact same (m, []) (by simp [Multi.step, hf, hk]) rfl (fun _ => rfl) (by simp)
      | some x =>
        have hs := setted _ k x (x.on .flushed) rfl hk rfl rfl
        cases hr : (x.sess.step .flushed).2 with
        | none => exact same (m, []) (by simp [Multi.step, hf, hk, hr]) rfl (fun _ => rfl) (by simp)
        | some b =>
          cases b with
          | true =>
            exact mapped (joined m (m.streams.set k (x.on .flushed))) _ (by simp [Multi.step, hf, hk, hr])
              (joined_streams ..) hs.1 hs.2 (fun i => joined_items _ _ i) (fun i p it => joined_got _ _ i p it)
          | false =>
            exact mapped (failed m (m.streams.set k (x.on .flushed)))
              ((m.streams.set k (x.on .flushed)).map (·.on .cancel)) (by simp [Multi.step, hf, hk, hr])
              rfl (by rw [List.length_map, List.length_set]) (mapOn _ _ hs.2) (fun _ => rfl) (by simp [failed])
  | abandon =>
    cases hf : m.flushing with
    | false => exact same (m, []) (by simp [Multi.step, hf]) rfl (fun _ => rfl) (by simp)
    | true =>
      exact mapped ({ m with streams := m.streams.map (·.on .cancel), flushing := false }, []) _
        (by simp [Multi.step, hf]) rfl (by simp) (mapOn _ _ refl') (fun _ => rfl) (by simp)
  | serve k w =>
    cases hk : m.streams[k]? with
    | none => exact same (m, []) (by simp [Multi.step, hk]) rfl (fun _ => rfl) (by simp)
    | some x =>
      have hs := setted _ k x (x.on (.serve w)) rfl hk rfl rfl
      exact mapped ({ m with streams := m.streams.set k (x.on (.serve w)) }, []) _
        (by simp [Multi.step, hk]) rfl hs.1 hs.2 (fun _ => rfl) (by simp)

/-- Through a whole history the `i`th stream's items are handed over in order and none is lost. -/
theorem run_effect : ∀ (es : List MEv) (m : Multi α),
    (m.run es).1.streams.length = m.streams.length ∧
    ∀ (i : Nat) (y : Single α), (m.run es).1.streams[i]? = some y →
      ∃ x, m.streams[i]? = some x ∧ y.part = x.part ∧ itemsOf i (m.run es).2 ++ y.rest = x.rest
        ∧ ∀ p it, Obs.got i p it ∈ (m.run es).2 → p = x.part
  | [], m => ⟨rfl, fun i y hy => ⟨y, hy, rfl, rfl, by intro p it h; simp [Multi.run] at h⟩⟩
  | e :: es, m => by
    obtain ⟨l1, s1⟩ := step_effect m e
    obtain ⟨l2, s2⟩ := run_effect es (m.step e).1
    refine ⟨l2.trans l1, fun i y hy => ?_⟩
    obtain ⟨x, hx, hp, hi, hg⟩ := s2 i y hy
    obtain ⟨w, hw, he⟩ := s1 i x hx
    refine ⟨w, hw, hp.trans he.part, ?_, ?_⟩
    · show itemsOf i ((m.step e).2 ++ ((m.step e).1.run es).2) ++ y.rest = w.rest
      rw [itemsOf_append, List.append_assoc, hi, he.items]
    · intro p it h
      rcases List.mem_append.mp h with h | h
      · exact he.parts p it h
      · rw [hg p it h, he.part]

theorem run_append : ∀ (es fs : List MEv) (m : Multi α),
    m.run (es ++ fs) = (((m.run es).1.run fs).1, (m.run es).2 ++ ((m.run es).1.run fs).2)
  | [], fs, m => by simp [Multi.run]
  | e :: es, fs, m => by
    show ((((m.step e).1.run (es ++ fs))).1, (m.step e).2 ++ ((m.step e).1.run (es ++ fs)).2) = _
    rw [run_append es fs]
    simp [Multi.run, List.append_assoc]

/-! ## Committing and flushing -/

/-- What the application knows of the `i`th stream. -/
def toldStep (i : Nat) (t : Told) : Obs α → Told
  | .got j _ (.record o _) => if j = i then { t with given := t.given ++ [o] } else t
  | .commit true => t.commit
  | _ => t

def told (i : Nat) (log : List (Obs α)) (t : Told) : Told := log.foldl (toldStep i) t

/-- What holds of every stream of a managed consumer. -/
structure Good (i : Nat) (flushing : Bool) (init : Option Int) (t : Told) (x : Single α) : Prop where
  sess : Sess init t x.sess
  flu : Flushing x.sess
  off : flushing = false → x.sess.waiting = .no
  on : flushing = true → x.sess.waiting = .no → x.sess.loc.flushed = x.sess.loc.committed
  pos : ∀ o v, Item.record o v ∈ x.rest → 0 ≤ o

theorem cancel_waiting (s : Session) : (s.step .cancel).1.waiting = .no := rfl

theorem Good.cancel {i : Nat} {init : Option Int} {t : Told} {x : Single α}
    (h1 : Sess init t x.sess) (h2 : Flushing x.sess) (h5 : ∀ o v, Item.record o v ∈ x.rest → 0 ≤ o) :
    Good i false init t (x.on .cancel) :=
  ⟨h1.step .cancel trivial, (h2.step h1 .cancel trivial).1, fun _ => rfl, nofun, h5⟩

theorem flush_step {s : Session} (hw : s.waiting = .no) :
    ((s.step .flush).2 ≠ some false) →
      ((s.step .flush).1.waiting = .no → (s.step .flush).1.loc.committed ≤ (s.step .flush).1.loc.flushed) := by
  unfold Session.step
  dsimp only
  rw [if_neg (by simp [hw])]
  split
  · rename_i h; intro _ _; exact h
  · split
    · intro h; exact absurd rfl h
    · intro _ h; cases h

theorem flushed_step {s : Session} {b : Bool} (h : (s.step .flushed).2 = some b) :
    (s.step .flushed).1.waiting = .no ∧
      (b = true → (s.step .flushed).1.loc.flushed = (s.step .flushed).1.loc.committed) := by
  cases hw : s.waiting with
  | no => simp [Session.step, hw] at h
  | answer => simp [Session.step, hw] at h
  | got c =>
    cases c with
    | true => simp [Session.step, hw]
    | false =>
      simp [Session.step, hw] at h ⊢
      simp [h]

theorem serve_step (s : Session) (w : Served) :
    (s.step (.serve w)).1.loc = s.loc ∧
      (s.waiting = .no → (∀ m ∈ s.queue, m.answer = false) → (s.step (.serve w)).1.waiting = .no) ∧
      ((s.step (.serve w)).1.waiting = .no → s.waiting = .no) := by
  unfold Session.step
  dsimp only
  split
  · exact ⟨rfl, fun h _ => h, fun h => h⟩
  · split
    · exact ⟨rfl, fun h _ => h, fun h => h⟩
    · rename_i m q hq
      refine ⟨rfl, ?_, ?_⟩
      · intro h1 h2
        have := h2 m (by rw [hq]; simp)
        simp [this, h1]
      · dsimp only
        intro h
        split at h
        · cases h
        · exact h

/-- All streams of the consumer. -/
def AllGood (inits : List (Option Int)) (log : List (Obs α)) (m : Multi α) : Prop :=
  ∀ (i : Nat) (x : Single α), m.streams[i]? = some x →
    ∃ init, inits[i]? = some init ∧ Good i m.flushing init (told i log Told.start) x

theorem told_append (i : Nat) (a b : List (Obs α)) (t : Told) :
    told i (a ++ b) t = told i b (told i a t) := by simp [told, List.foldl_append]

theorem on_flush_manual {s : Session} (h : s.waiting = .no) : CmEv.Possible s .flush := h

/-- the step of a flush that all streams joined -/
theorem joined_good (inits : List (Option Int)) (log : List (Obs α)) (m : Multi α) (xs : List (Single α))
    (h : ∀ (i : Nat) (x : Single α), xs[i]? = some x →
      ∃ init, inits[i]? = some init ∧ Good i true init (told i log Told.start) x) :
    AllGood inits (log ++ (joined m xs).2) (joined m xs).1 := by
  unfold joined
  split
  · rename_i hid
    intro i x hx
    obtain ⟨init, h1, h2⟩ := h i x hx
    refine ⟨init, h1, ?_⟩
    rw [told_append]
    have : x.sess.waiting = .no := by
      have hmem : x ∈ xs := List.mem_of_getElem? hx
      have := List.all_eq_true.mp hid x hmem
      simpa using this
    exact ⟨h2.sess, h2.flu, fun _ => this, nofun, h2.pos⟩
  · intro i x hx
    obtain ⟨init, h1, h2⟩ := h i x hx
    refine ⟨init, h1, ?_⟩
    rw [told_append]
    exact h2

theorem failed_good (inits : List (Option Int)) (log : List (Obs α)) (m : Multi α) (xs : List (Single α))
    (h : ∀ (i : Nat) (x : Single α), xs[i]? = some x →
      ∃ init, inits[i]? = some init ∧ Sess init (told i log Told.start) x.sess ∧ Flushing x.sess
        ∧ ∀ o v, Item.record o v ∈ x.rest → 0 ≤ o) :
    AllGood inits (log ++ (failed m xs).2) (failed m xs).1 := by
  intro i y hy
  have hy : (xs.map (·.on .cancel))[i]? = some y := hy
  rw [List.getElem?_map] at hy
  cases hz : xs[i]? with
  | none => rw [hz] at hy; cases hy
  | some z =>
    rw [hz] at hy
    cases hy
    obtain ⟨init, h1, h2, h3, h4⟩ := h i z hz
    refine ⟨init, h1, ?_⟩
    rw [told_append]
    exact Good.cancel h2 h3 h4

theorem step_good (inits : List (Option Int)) (log : List (Obs α)) (m : Multi α) (hm : m.managed = true)
    (h : AllGood inits log m) (e : MEv) :
    AllGood inits (log ++ (m.step e).2) (m.step e).1 ∧ (m.step e).1.managed = true := by
  have same : ∀ (obs : List (Obs α)), m.step e = (m, obs) → (∀ i t, told i obs t = t) →
      AllGood inits (log ++ (m.step e).2) (m.step e).1 ∧ (m.step e).1.managed = true := by
    intro obs hr ht
    rw [hr]
    refine ⟨fun i x hx => ?_, hm⟩
    obtain ⟨init, h1, h2⟩ := h i x hx
    refine ⟨init, h1, ?_⟩
    rw [told_append, ht]
    exact h2
  have jm : ∀ xs, (joined m xs).1.managed = true := by
    intro xs; unfold joined; split <;> exact hm
  cases e with
  | poll k =>
    cases hf : m.flushing with
    | true => exact same [] (by simp [Multi.step, hf]) (fun _ _ => rfl)
    | false =>
      cases hk : m.streams[k]? with
      | none => exact same [] (by simp [Multi.step, hf, hk]) (fun _ _ => rfl)
      | some x =>
        cases hr : x.rest with
        | nil => exact same [] (by simp [Multi.step, hf, hk, hr]) (fun _ _ => rfl)
        | cons it rest =>
          obtain ⟨init, hi, hg⟩ := h k x hk
          have hg' := hg
          cases it with
          | record o v =>
            have e1 : m.step (.poll k) 
                = ({ m with streams := m.streams.set k { (x.on (.deliver o false false)) with rest := rest } },
                [.got k x.part (.record o v)]) := by simp [Multi.step, hf, hk, hr]
            rw [e1]
            refine ⟨fun i y hy => ?_, hm⟩
            dsimp only at hy
            rw [List.getElem?_set] at hy
            rw [told_append]
            split at hy
            · rename_i heq
              subst heq
              split at hy
              · cases hy
                refine ⟨init, hi, ?_⟩
                have hw := hg.off hf
                have ho : 0 ≤ o := hg.pos o v (by rw [hr]; simp)
                have hp : CmEv.Possible x.sess (.deliver o false false) := ⟨hw, ho⟩
                have hs := hg.sess.step _ hp
                rw [hg.flu.manual] at hs
                have hl := (hg.flu.step hg.sess _ hp).1
                refine ⟨?_, hl, ?_, by rw [hf]; nofun, ?_⟩
                · have : told k [Obs.got k x.part (Item.record o v)] (told k log Told.start)
                      = Told.step .manual (told k log Told.start) (.deliver o false false) := by
                    simp [told, toldStep, Told.step]
                  rw [this]
                  exact hs
                · intro _
                  show (x.sess.step (.deliver o false false)).1.waiting = .no
                  simp [Session.step, hw, hg.flu.manual]
                · intro o' v' hm'
                  exact hg.pos o' v' (by rw [hr]; exact List.mem_cons_of_mem _ hm')
              · cases hy
            · rename_i hne
              obtain ⟨init', h1, h2⟩ := h i y hy
              refine ⟨init', h1, ?_⟩
              have : told i [Obs.got k x.part (Item.record o v)] (told i log Told.start)
                  = told i log Told.start := by simp [told, toldStep, hne]
              rw [this]
              exact h2
          | error =>
            have e1 : m.step (.poll k) = ({ m with streams := m.streams.set k { x with rest := rest } },
                [.got k x.part .error]) := by simp [Multi.step, hf, hk, hr]
            rw [e1]
            refine ⟨fun i y hy => ?_, hm⟩
            dsimp only at hy
            rw [List.getElem?_set] at hy
            rw [told_append]
            have ht : told i [Obs.got k x.part (Item.error : Item α)] (told i log Told.start)
                  = told i log Told.start := by simp [told, toldStep]
            rw [ht]
            split at hy
            · rename_i heq
              subst heq
              split at hy
              · cases hy
                exact ⟨init, hi, hg.sess, hg.flu, hg.off, hg.on,
                  fun o' v' hm' => hg.pos o' v' (by rw [hr]; exact List.mem_cons_of_mem _ hm')⟩
              · cases hy
            · exact h i y hy
  | pollNone =>
    by_cases h' : m.flushing = false ∧ (m.streams.all (·.rest.isEmpty)) = true
    · exact same [.ended] (by unfold Multi.step; rw [if_pos h']) (fun _ _ => rfl)
    · exact same [] (by unfold Multi.step; rw [if_neg h']) (fun _ _ => rfl)
  | commit =>
    cases hf : m.flushing with
    | true => exact same [] (by simp [Multi.step, hf]) (fun _ _ => rfl)
    | false =>
      have e1 : m.step .commit = ({ m with streams := m.streams.map (·.on .commit) }, [.commit true]) := by
        simp [Multi.step, hf, hm]
      rw [e1]
      refine ⟨fun i y hy => ?_, hm⟩
      dsimp only at hy
      rw [List.getElem?_map] at hy
      cases hz : m.streams[i]? with
      | none => rw [hz] at hy; cases hy
      | some z =>
        rw [hz] at hy
        cases hy
        obtain ⟨init, h1, hg⟩ := h i z hz
        have hw := hg.off hf
        have hs := hg.sess.step .commit hw
        rw [hg.flu.manual] at hs
        refine ⟨init, h1, ?_⟩
        rw [told_append]
        refine ⟨hs, (hg.flu.step hg.sess .commit hw).1, ?_, by rw [hf]; nofun, hg.pos⟩
        intro _
        show (z.sess.step .commit).1.waiting = .no
        simp [Session.step, hw]
  | flush =>
    cases hf : m.flushing with
    | true => exact same [] (by simp [Multi.step, hf]) (fun _ _ => rfl)
    | false =>
      cases hb : (beginFlush m.streams).2 with
      | true =>
        have e1 : m.step .flush = joined m (beginFlush m.streams).1 := by simp [Multi.step, hf, hm, hb]
        rw [e1]
        refine ⟨joined_good inits log m _ ?_, jm _⟩
        intro i y hy
        obtain ⟨x, hx, rfl, hne⟩ := beginFlush_ok _ hb i y hy
        obtain ⟨init, h1, hg⟩ := h i x hx
        have hw := hg.off hf
        have hs := hg.sess.step .flush hw
        rw [hg.flu.manual] at hs
        refine ⟨init, h1, hs, (hg.flu.step hg.sess .flush hw).1, nofun, ?_, hg.pos⟩
        intro _ hw'
        have := flush_step hw hne hw'
        have := hs.flu
        show (x.sess.step .flush).1.loc.flushed = (x.sess.step .flush).1.loc.committed
        omega
      | false =>
        have e1 : m.step .flush = failed m (beginFlush m.streams).1 := by simp [Multi.step, hf, hm, hb]
        rw [e1]
        refine ⟨failed_good inits log m _ ?_, hm⟩
        intro i y hy
        obtain ⟨x, hx, h'⟩ := beginFlush_get _ i y hy
        obtain ⟨init, h1, hg⟩ := h i x hx
        rcases h' with rfl | rfl
        · exact ⟨init, h1, hg.sess, hg.flu, hg.pos⟩
        · have hw := hg.off hf
          have hs := hg.sess.step .flush hw
          rw [hg.flu.manual] at hs
          exact ⟨init, h1, hs, (hg.flu.step hg.sess .flush hw).1, hg.pos⟩
  | resume k =>
    cases hf : m.flushing with
    | false => exact same [] (by simp [Multi.step, hf]) (fun _ _ => rfl)
    | true =>
      cases hk : m.streams[k]? with
      | none => exact same [] (by simp [Multi.step, hf, hk]) (fun _ _ => rfl)
      | some x =>
        obtain ⟨init, hi, hg⟩ := h k x hk
        have hs := hg.sess.step .flushed trivial
        rw [hg.flu.manual] at hs
        have hl := (hg.flu.step hg.sess .flushed trivial).1
        cases hr : (x.sess.step .flushed).2 with
        | none => exact same [] (by simp [Multi.step, hf, hk, hr]) (fun _ _ => rfl)
        | some b =>
          cases b with
          | true =>
            have e1 : m.step (.resume k) = joined m (m.streams.set k (x.on .flushed)) := by
              simp [Multi.step, hf, hk, hr]
            rw [e1]
            refine ⟨joined_good inits log m _ ?_, jm _⟩
            intro i y hy
            rw [List.getElem?_set] at hy
            split at hy
            · rename_i heq
              subst heq
              split at hy
              · cases hy
                exact ⟨init, hi, hs, hl, nofun, fun _ _ => (flushed_step hr).2 rfl, hg.pos⟩
              · cases hy
            · obtain ⟨init', h1, h2⟩ := h i y hy
              rw [hf] at h2
              exact ⟨init', h1, h2⟩
          | false =>
            have e1 : m.step (.resume k) = failed m (m.streams.set k (x.on .flushed)) := by
              simp [Multi.step, hf, hk, hr]
            rw [e1]
            refine ⟨failed_good inits log m _ ?_, hm⟩
            intro i y hy
            rw [List.getElem?_set] at hy
            split at hy
            · rename_i heq
              subst heq
              split at hy
              · cases hy
                exact ⟨init, hi, hs, hl, hg.pos⟩
              · cases hy
            · obtain ⟨init', h1, h2⟩ := h i y hy
              exact ⟨init', h1, h2.sess, h2.flu, h2.pos⟩
  | abandon =>
    cases hf : m.flushing with
    | false => exact same [] (by simp [Multi.step, hf]) (fun _ _ => rfl)
    | true =>
      have e1 : m.step .abandon
          = ({ m with streams := m.streams.map (·.on .cancel), flushing := false }, []) := by
        simp [Multi.step, hf]
      rw [e1]
      refine ⟨fun i y hy => ?_, hm⟩
      dsimp only at hy
      rw [List.getElem?_map] at hy
      cases hz : m.streams[i]? with
      | none => rw [hz] at hy; cases hy
      | some z =>
        rw [hz] at hy
        cases hy
        obtain ⟨init, h1, hg⟩ := h i z hz
        refine ⟨init, h1, ?_⟩
        rw [List.append_nil]
        exact Good.cancel hg.sess hg.flu hg.pos
  | serve k w =>
    cases hk : m.streams[k]? with
    | none => exact same [] (by simp [Multi.step, hk]) (fun _ _ => rfl)
    | some x =>
      have e1 : m.step (.serve k w) = ({ m with streams := m.streams.set k (x.on (.serve w)) }, []) := by
        simp [Multi.step, hk]
      rw [e1]
      refine ⟨fun i y hy => ?_, hm⟩
      dsimp only at hy
      rw [List.getElem?_set] at hy
      rw [List.append_nil]
      split at hy
      · rename_i heq
        subst heq
        split at hy
        · cases hy
          obtain ⟨init, hi, hg⟩ := h k x hk
          have hs := hg.sess.step (.serve w) trivial
          rw [hg.flu.manual] at hs
          obtain ⟨q1, q2, q3⟩ := serve_step x.sess w
          refine ⟨init, hi, hs, (hg.flu.step hg.sess (.serve w) trivial).1, ?_, ?_, hg.pos⟩
          · intro hff
            have hw := hg.off hff
            exact q2 hw (hg.flu.k2 hw)
          · intro hff hw
            show (x.sess.step (.serve w)).1.loc.flushed = (x.sess.step (.serve w)).1.loc.committed
            rw [q1]
            exact hg.on hff (q3 hw)
        · cases hy
      · exact h i y hy

theorem run_good (inits : List (Option Int)) : ∀ (es : List MEv) (log : List (Obs α)) (m : Multi α),
    m.managed = true → AllGood inits log m →
    AllGood inits (log ++ (m.run es).2) (m.run es).1 ∧ (m.run es).1.managed = true
  | [], log, m, hm, h => by simpa [Multi.run] using ⟨h, hm⟩
  | e :: es, log, m, hm, h => by
    obtain ⟨h1, h2⟩ := step_good inits log m hm h e
    have := run_good inits es _ _ h2 h1
    rw [List.append_assoc] at this
    exact this

theorem joined_true (m : Multi α) (xs : List (Single α)) (h : Obs.flush true ∈ (joined m xs).2) :
    idle xs = true := by
  unfold joined at h
  split at h
  · assumption
  · simp at h

theorem idle_get {xs : List (Single α)} (h : idle xs = true) {i : Nat} {x : Single α}
    (hx : xs[i]? = some x) : x.sess.waiting = .no := by
  simpa using List.all_eq_true.mp h x (List.mem_of_getElem? hx)

/-- When `offset_flush` succeeds, every stream's committed offset has been flushed. -/
theorem step_flushed (inits : List (Option Int)) (log : List (Obs α)) (m : Multi α)
    (hm : m.managed = true) (h : AllGood inits log m) (e : MEv) (hok : Obs.flush true ∈ (m.step e).2)
    (i : Nat) (y : Single α) (hy : (m.step e).1.streams[i]? = some y) :
    y.sess.loc.flushed = y.sess.loc.committed := by
  cases e with
  | poll k =>
    exfalso
    unfold Multi.step at hok
    dsimp only at hok
    repeat' split at hok
    all_goals simp at hok
  | pollNone =>
    exfalso
    unfold Multi.step at hok
    dsimp only at hok
    split at hok <;> simp at hok
  | commit =>
    exfalso
    unfold Multi.step at hok
    dsimp only at hok
    repeat' split at hok
    all_goals simp at hok
  | flush =>
    cases hf : m.flushing with
    | true => simp [Multi.step, hf] at hok
    | false =>
      cases hb : (beginFlush m.streams).2 with
      | false => simp [Multi.step, hf, hm, hb, failed] at hok
      | true =>
        have e1 : m.step .flush = joined m (beginFlush m.streams).1 := by simp [Multi.step, hf, hm, hb]
        rw [e1] at hok hy
        rw [joined_streams] at hy
        have hw' := idle_get (joined_true _ _ hok) hy
        obtain ⟨x, hx, rfl, hne⟩ := beginFlush_ok _ hb i y hy
        obtain ⟨init, h1, hg⟩ := h i x hx
        have hw := hg.off hf
        have hs := hg.sess.step .flush hw
        have := flush_step hw hne hw'
        have := hs.flu
        show (x.sess.step .flush).1.loc.flushed = (x.sess.step .flush).1.loc.committed
        omega
  | resume k =>
    cases hf : m.flushing with
    | false => simp [Multi.step, hf] at hok
    | true =>
      cases hk : m.streams[k]? with
      | none => simp [Multi.step, hf, hk] at hok
      | some x =>
        cases hr : (x.sess.step .flushed).2 with
        | none => simp [Multi.step, hf, hk, hr] at hok
        | some b =>
          cases b with
          | false => simp [Multi.step, hf, hk, hr, failed] at hok
          | true =>
            have e1 : m.step (.resume k) = joined m (m.streams.set k (x.on .flushed)) := by
              simp [Multi.step, hf, hk, hr]
            rw [e1] at hok hy
            rw [joined_streams] at hy
            have hw' := idle_get (joined_true _ _ hok) hy
            rw [List.getElem?_set] at hy
            split at hy
            · rename_i heq
              subst heq
              split at hy
              · cases hy
                exact (flushed_step hr).2 rfl
              · cases hy
            · obtain ⟨init', h1, h2⟩ := h i y hy
              exact h2.on hf hw'
  | abandon =>
    exfalso
    unfold Multi.step at hok
    dsimp only at hok
    split at hok <;> simp at hok
  | serve k w =>
    exfalso
    unfold Multi.step at hok
    dsimp only at hok
    split at hok <;> simp at hok

theorem openAll_good (env : Nat → Option (List (Item α) × Option Int)) (ps : List Nat)
    (xs : List (Single α)) (h : openAll env ps = some xs) (managed : Bool)
    (hpos : ∀ p items stored, env p = some (items, stored) → ∀ o v, Item.record o v ∈ items → 0 ≤ o) :
    AllGood (xs.map (·.sess.stored)) [] ⟨xs, managed, false⟩ := by
  intro i x hx
  obtain ⟨_, h2⟩ := openAll_some env ps xs h
  obtain ⟨_, stored, he, hs⟩ := h2 i x hx
  refine ⟨stored, ?_, ?_⟩
  · have hx' : xs[i]? = some x := hx
    rw [List.getElem?_map, hx']
    show some x.sess.stored = _
    rw [hs]; rfl
  · refine ⟨by rw [hs]; exact Sess.start .manual stored, by rw [hs]; exact Flushing.start stored,
      fun _ => by rw [hs]; rfl, nofun, ?_⟩
    intro o v hm
    exact hpos _ _ _ he o v hm

end Verif.Client.Partitions
