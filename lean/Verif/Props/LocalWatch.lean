import Verif.Meta.LocalWatchInv

/-!
# C62: the controller's copy of the local metadata storage
-/

namespace Verif.Props
open Verif.Meta Verif.Meta.Local

section
variable {K Sp St : Type} [DecidableEq K] [DecidableEq Sp] [DecidableEq St]

/-- Every change has arrived and the dispatcher waits for the next one. -/
def AllArrived (w : Watch K Sp St) : Prop :=
  w.phase = .idle ∧ w.written = [] ∧ w.sending = [] ∧ w.queue = []

/-- **Specification.** The dispatcher's cache has the stored objects, with their specifications, statuses
and revisions, and no others. -/
def Mirrors (w : Watch K Sp St) : Prop :=
  ∀ k, ((w.cache.values.find? fun e => decide (e.obj.key = k)).map (·.obj)) = w.data k

/-- However changes, their sending and the work of the dispatcher are interleaved: when all changes have
arrived, the cache mirrors the storage.

Missing: changes sent in another order than they were written, and listings with an older revision of a
cached object; see the violations below. -/
theorem C62_converges_partial (d : Data K Sp St) (hd : ∀ k o, d k = some o → o.key = k)
    (w : Watch K Sp St) (h : Watch.Steps True True (Watch.init d) w) (hs : AllArrived w) : Mirrors w := by
  have hi := (Watch.Inv.init (d := d) hd).steps trivial h
  have hp := hi.phase
  unfold Watch.PhaseOk at hp
  rw [hs.1] at hp
  intro k
  have := hp.2 k
  unfold Watch.coming at this
  rw [hs.2.1, hs.2.2.1, hs.2.2.2] at this
  exact this

/-- When writers stop and the dispatcher gets no more actions, everything arrives. -/
theorem C62_settles (w : Watch K Sp St) (hp : w.phase = .idle) :
    ∃ u, Watch.Steps True True w u ∧ AllArrived u ∧ u.data = w.data := by
  suffices H : ∀ n (w : Watch K Sp St), w.phase = .idle →
      3 * w.written.length + 2 * w.sending.length + w.queue.length = n →
      ∀ v, Watch.Steps True True v w → ∃ u, Watch.Steps True True v u ∧ AllArrived u ∧ u.data = w.data from
    H _ w hp rfl w (.refl w)
  intro n
  induction n using Nat.strongRecOn with
  | _ n ih =>
    intro w hp hn v hv
    have go : ∀ u, Watch.Step True True w u → u.phase = .idle → u.data = w.data →
        3 * u.written.length + 2 * u.sending.length + u.queue.length < n →
        ∃ x, Watch.Steps True True v x ∧ AllArrived x ∧ x.data = w.data := by
      intro u hu h1 h2 h3
      obtain ⟨x, h4, h5, h6⟩ := ih _ h3 u h1 rfl v (hv.tail hu)
      exact ⟨x, h4, h5, h6.trans h2⟩
    cases hq : w.queue with
    | cons p q =>
      refine go _ (Watch.Step.recv p q hp hq) hp rfl ?_
      dsimp only
      rw [hq] at hn
      simp only [List.length_cons] at hn
      omega
    | nil =>
      cases hs : w.sending with
      | cons p q =>
        refine go _ (Watch.Step.send 0 p (by rw [hs]; rfl) (fun _ => rfl)
          (by rw [hq]; exact Nat.succ_pos _)) hp rfl ?_
        dsimp only
        rw [hs, hq] at hn
        rw [hs, hq]
        simp only [List.length_cons, List.eraseIdx_zero, List.tail_cons, List.length_append,
          List.length_nil] at hn ⊢
        omega
      | nil =>
        cases hw : w.written with
        | cons p q =>
          refine go _ (Watch.Step.stamp 0 p (by rw [hw]; rfl) (fun _ => rfl)) hp rfl ?_
          dsimp only
          rw [hw, hs, hq] at hn
          rw [hw, hs, hq]
          simp only [List.length_cons, List.eraseIdx_zero, List.tail_cons, List.length_append,
            List.length_nil] at hn ⊢
          omega
        | nil => exact ⟨w, hv, ⟨hp, hw, hs, hq⟩, rfl⟩

theorem numbers_below {order clean : Prop} {d : Data K Sp St} {w : Watch K Sp St}
    (h : Watch.Steps order clean (Watch.init d) w) :
    (∀ p ∈ w.queue, p.1 < w.version) ∧ ∀ p ∈ w.sending, p.1 < w.version := by
  induction h with
  | refl => exact ⟨nofun, nofun⟩
  | tail _ b ih =>
    obtain ⟨h1, h2⟩ := ih
    cases b with
    | stamp i p hi ho =>
      refine ⟨fun p hp => Nat.lt_succ_of_lt (h1 p hp), fun q hq => ?_⟩
      rcases List.mem_append.1 hq with e | e
      · exact Nat.lt_succ_of_lt (h2 q e)
      · cases List.mem_singleton.1 e
        exact Nat.lt_succ_self _
    | send i p hi ho hc =>
      refine ⟨fun q hq => ?_, fun q hq => h2 q (List.mem_of_mem_eraseIdx hq)⟩
      rcases List.mem_append.1 hq with e | e
      · exact h1 q e
      · cases List.mem_singleton.1 e
        exact h2 p (List.mem_of_getElem? hi)
    | recv p q hp hq => exact ⟨fun x hx => h1 x (by rw [hq]; exact List.mem_cons_of_mem _ hx), h2⟩
    | write => exact ⟨h1, h2⟩
    | remove => exact ⟨h1, h2⟩
    | act => exact ⟨h1, h2⟩
    | finish => exact ⟨h1, h2⟩
    | retrieve => exact ⟨h1, h2⟩
    | keep => exact ⟨h1, h2⟩
    | timer => exact ⟨h1, h2⟩
    | version => exact ⟨h1, h2⟩
    | list => exact ⟨h1, h2⟩
    | sync => exact ⟨h1, h2⟩

/-- Whatever has gone wrong before (any order of sending, any listing): when a listing begins with no change
on its way to the queue, none is made until it ends, and it has no older revision of a cached object, then
the cache mirrors the storage, and what is left in the queue is ignored. -/
theorem C62_resync (d : Data K Sp St) (w : Watch K Sp St)
    (h : Watch.Steps False False (Watch.init d) w) (hp : w.phase = .listing)
    (l : List (LObj K Sp St)) (hl : Lists l w.data)
    (hc : ∀ o ∈ l, ∀ c, w.cache.content o.key = some c → c.item.rev ≤ o.item.rev) :
    ∃ u, Watch.Steps False False w u ∧ u.phase = .idle ∧ u.data = w.data ∧ Mirrors u ∧
      ∀ p ∈ u.queue, p.1 < u.since := by
  have s1 := (Watch.Steps.refl (order := False) (clean := False) w).tail (.version hp)
  have s2 := s1.tail (.list w.version l rfl hl)
  have s3 := s2.tail (.sync w.version l rfl (fun h => h.elim))
  exact ⟨_, s3, rfl, rfl, fun k => content_sync w.cache hl hc k, (numbers_below h).1⟩

end

/-! Concrete runs. -/

abbrev LW := Watch Nat Nat Nat

/-- An object of the given key, specification and revision. -/
def wobj (k spec rev : Nat) : LObj Nat Nat Nat := ⟨k, spec, 0, ⟨rev, none, []⟩⟩

def wdata : List (LObj Nat Nat Nat) → Data Nat Nat Nat
  | [] => fun _ => none
  | o :: l => (wdata l).set o.key (some o)

theorem lists_wdata : ∀ {l : List (LObj Nat Nat Nat)}, (l.map (·.key)).Nodup → Lists l (wdata l) := by
  intro l
  induction l with
  | nil => intro _; exact ⟨List.nodup_nil, fun k o => ⟨nofun, fun h => by cases h.1⟩⟩
  | cons a l ih =>
    intro hn
    have hn' := List.nodup_cons.1 hn
    refine ⟨hn, fun k o => ?_⟩
    have hi := (ih hn'.2).2 k o
    show (if k = a.key then some a else wdata l k) = some o ↔ _
    by_cases e : k = a.key
    · subst e
      rw [if_pos rfl]
      constructor
      · rintro h; cases h; exact ⟨List.mem_cons_self, rfl⟩
      · rintro ⟨h1, h2⟩
        rcases List.mem_cons.1 h1 with e | e
        · rw [e]
        · exact absurd (List.mem_map.2 ⟨o, e, h2⟩) hn'.1
    · rw [if_neg e, hi]
      constructor
      · rintro ⟨h1, h2⟩; exact ⟨List.mem_cons_of_mem _ h1, h2⟩
      · rintro ⟨h1, h2⟩
        rcases List.mem_cons.1 h1 with e' | e'
        · subst e'; exact absurd h2.symm e
        · exact ⟨e', h2⟩

/-- The dispatcher has listed the objects that were there at the start. -/
theorem wstart {order clean : Prop} {l : List (LObj Nat Nat Nat)} (h : (l.map (·.key)).Nodup) :
    Watch.Steps order clean (Watch.init (wdata l))
      ⟨wdata l, 0, [], [], [], Store.init.syncAll newer l, 0, .idle⟩ :=
  ((((Watch.Steps.refl _).tail (.version rfl)).tail (.list 0 l rfl (lists_wdata h))).tail
    (.sync 0 l rfl fun _ o _ c hc => by cases hc))

/-- A run in which an object is updated and deleted, and another one is created, with everything arriving
in order: the hypotheses of `C62_converges_partial` hold. -/
example : ∃ w : LW, Watch.Steps True True (Watch.init (wdata [wobj 1 10 5])) w ∧ AllArrived w ∧
    w.data 1 = none ∧ w.data 2 = some (wobj 2 20 0) ∧ w.cache.content 2 = some (wobj 2 20 0) := by
  have s := wstart (order := True) (clean := True) (l := [wobj 1 10 5]) (by decide)
  have s := s.tail (.write false (wobj 1 11 5) (wobj 1 11 6) nofun rfl)
  have s := s.tail (.remove false 1 nofun rfl)
  have s := s.tail (.stamp 0 _ rfl fun _ => rfl)
  have s := s.tail (.write false (wobj 2 20 0) (wobj 2 20 0) nofun rfl)
  have s := s.tail (.stamp 0 _ rfl fun _ => rfl)
  have s := s.tail (.send 0 _ rfl (fun _ => rfl) (by decide))
  have s := s.tail (.recv _ _ rfl rfl)
  have s := s.tail (.send 0 _ rfl (fun _ => rfl) (by decide))
  have s := s.tail (.stamp 0 _ rfl fun _ => rfl)
  have s := s.tail (.recv _ _ rfl rfl)
  have s := s.tail (.send 0 _ rfl (fun _ => rfl) (by decide))
  have s := s.tail (.recv _ _ rfl rfl)
  exact ⟨_, s, ⟨rfl, rfl, rfl, rfl⟩, rfl, rfl, rfl⟩

/-- One task updates an object, another deletes it; the change under the lock and its sending are two
steps, and the deletion is sent first.  All changes have arrived, the object is deleted, and the controller
still has it. -/
theorem C62_violated_reordered : ∃ w : LW, Watch.Steps False True (Watch.init (wdata [wobj 1 10 5])) w ∧
    AllArrived w ∧ w.data 1 = none ∧ w.cache.content 1 = some (wobj 1 11 6) := by
  have s := wstart (order := False) (clean := True) (l := [wobj 1 10 5]) (by decide)
  have s := s.tail (.write false (wobj 1 11 5) (wobj 1 11 6) nofun rfl)
  have s := s.tail (.remove false 1 nofun rfl)
  have s := s.tail (.stamp 1 _ rfl nofun)
  have s := s.tail (.stamp 0 _ rfl nofun)
  have s := s.tail (.send 0 _ rfl nofun (by decide))
  have s := s.tail (.send 0 _ rfl nofun (by decide))
  have s := s.tail (.recv _ _ rfl rfl)
  have s := s.tail (.recv _ _ rfl rfl)
  exact ⟨_, s, ⟨rfl, rfl, rfl, rfl⟩, rfl, rfl⟩

/-- An object is deleted and created again with another specification, and the reconciliation timer fires
before the dispatcher has read the two changes: the listing is ignored because its revision is lower than
the cached one, and the changes are ignored because they are older than the listing. -/
theorem C62_violated_recreated : ∃ w : LW, Watch.Steps True False (Watch.init (wdata [wobj 1 10 5])) w ∧
    AllArrived w ∧ w.data 1 = some (wobj 1 20 0) ∧ w.cache.content 1 = some (wobj 1 10 5) := by
  have s := wstart (order := True) (clean := False) (l := [wobj 1 10 5]) (by decide)
  have s := s.tail (.remove false 1 nofun rfl)
  have s := s.tail (.write false (wobj 1 20 0) (wobj 1 20 0) nofun rfl)
  have s := s.tail (.stamp 0 _ rfl fun _ => rfl)
  have s := s.tail (.stamp 0 _ rfl fun _ => rfl)
  have s := s.tail (.send 0 _ rfl (fun _ => rfl) (by decide))
  have s := s.tail (.send 0 _ rfl (fun _ => rfl) (by decide))
  have s := s.tail (.timer rfl)
  have s := s.tail (.version rfl)
  have s := s.tail (.list 2 [wobj 1 20 0] rfl ⟨by decide, fun k o => by
    show (if k = 1 then some (wobj 1 20 0) else if k = 1 then none else if k = 1 then _ else none) = some o ↔ _
    by_cases e : k = 1
    · subst e
      rw [if_pos rfl]
      constructor
      · rintro h; cases h; exact ⟨List.mem_cons_self, rfl⟩
      · rintro ⟨h, _⟩; rw [List.mem_singleton.1 h]
    · rw [if_neg e, if_neg e, if_neg e]
      constructor
      · rintro h; cases h
      · rintro ⟨h1, h2⟩
        rw [List.mem_singleton.1 h1] at h2
        exact absurd h2.symm e⟩)
  have s := s.tail (.sync 2 _ rfl nofun)
  have s := s.tail (.recv _ _ rfl rfl)
  have s := s.tail (.recv _ _ rfl rfl)
  exact ⟨_, s, ⟨rfl, rfl, rfl, rfl⟩, rfl, rfl⟩

/-! ### The queue is full -/

/-- The dispatcher is in an action, the queue is full, and a change of the dispatcher is on its way. -/
def Jammed {K Sp St : Type} (w : Watch K Sp St) : Prop :=
  w.phase = .busy ∧ w.queue.length = capacity ∧
  ((∃ c, (true, c) ∈ w.written) ∨ ∃ n c, (n, true, c) ∈ w.sending)

theorem jammed_step {K Sp St : Type} [DecidableEq K] [DecidableEq Sp] [DecidableEq St] {order clean : Prop}
    {w u : Watch K Sp St} (h : Jammed w) (hs : Watch.Step order clean w u) :
    Jammed u ∧ u.cache = w.cache ∧ u.queue = w.queue := by
  obtain ⟨h1, h2, h3⟩ := h
  have clash : ∀ {p : Phase K Sp St}, w.phase = p → p ≠ .busy → False := by
    intro p e hne
    exact hne (e.symm.trans h1)
  cases hs with
  | write own o o' hp ha =>
    refine ⟨⟨h1, h2, ?_⟩, rfl, rfl⟩
    rcases h3 with ⟨c, hc⟩ | h3
    · exact .inl ⟨c, List.mem_append_left _ hc⟩
    · exact .inr h3
  | remove own k hp hk =>
    refine ⟨⟨h1, h2, ?_⟩, rfl, rfl⟩
    rcases h3 with ⟨c, hc⟩ | h3
    · exact .inl ⟨c, List.mem_append_left _ hc⟩
    · exact .inr h3
  | stamp i p hi ho =>
    refine ⟨⟨h1, h2, ?_⟩, rfl, rfl⟩
    rcases h3 with ⟨c, hc⟩ | ⟨n, c, hc⟩
    · by_cases e : p = (true, c)
      · subst e
        exact .inr ⟨w.version, c, List.mem_append_right _ List.mem_cons_self⟩
      · refine .inl ⟨c, ?_⟩
        obtain ⟨j, hj, he⟩ := List.mem_iff_getElem.1 hc
        refine List.mem_eraseIdx_iff_getElem?.2 ⟨j, ?_, by rw [List.getElem?_eq_getElem hj, he]⟩
        rintro rfl
        rw [List.getElem?_eq_getElem hj, he] at hi
        cases hi
        exact e rfl
    · exact .inr ⟨n, c, List.mem_append_left _ hc⟩
  | send i p hi ho hc => omega
  | recv p q hp hq => exact (clash hp nofun).elim
  | act hp => exact (clash hp nofun).elim
  | finish hp hsent =>
    exfalso
    rcases h3 with ⟨c, hc⟩ | ⟨n, c, hc⟩
    · cases hsent.1 _ hc
    · cases hsent.2 _ hc
  | retrieve k o hp hsent hd =>
    exfalso
    rcases h3 with ⟨c, hc⟩ | ⟨n, c, hc⟩
    · cases hsent.1 _ hc
    · cases hsent.2 _ hc
  | keep o hp => exact (clash hp nofun).elim
  | timer hp => exact (clash hp nofun).elim
  | version hp => exact (clash hp nofun).elim
  | list v l hp hl => exact (clash hp nofun).elim
  | sync v l hp hc => exact (clash hp nofun).elim

theorem jammed_steps {K Sp St : Type} [DecidableEq K] [DecidableEq Sp] [DecidableEq St] {order clean : Prop}
    {w u : Watch K Sp St} (h : Jammed w) (hs : Watch.Steps order clean w u) :
    Jammed u ∧ u.cache = w.cache ∧ u.queue = w.queue := by
  induction hs with
  | refl => exact ⟨h, rfl, rfl⟩
  | tail _ b ih =>
    obtain ⟨h1, h2, h3⟩ := jammed_step ih.1 b
    exact ⟨h1, h2.trans ih.2.1, h3.trans ih.2.2⟩

/-- Partitions `0` to `100`. -/
def manyParts : List (LObj Nat Nat Nat) := (List.range 101).map fun k => wobj k 7 0

theorem manyParts_keys : (manyParts.map (·.key)).Nodup := by
  have : manyParts.map (·.key) = List.range 101 := by
    unfold manyParts
    rw [List.map_map]
    exact List.map_id _
  rw [this]
  exact List.nodup_range

theorem delete_many : ∀ n, n ≤ 100 → ∃ w : LW, Watch.Steps True True (Watch.init (wdata manyParts)) w ∧
    w.phase = .idle ∧ w.queue.length = n ∧ w.written = [] ∧ w.sending = [] ∧
    (∀ k, n ≤ k → w.data k = wdata manyParts k) := by
  intro n
  induction n with
  | zero => intro _; exact ⟨_, wstart manyParts_keys, rfl, rfl, rfl, rfl, fun _ _ => rfl⟩
  | succ n ih =>
    intro hn
    obtain ⟨w, h1, h2, h3, h4, h5, h6⟩ := ih (by omega)
    have hsome : (w.data n).isSome = true := by
      rw [h6 n (Nat.le_refl _), ((lists_wdata manyParts_keys).2 n (wobj n 7 0)).2
        ⟨List.mem_map.2 ⟨n, List.mem_range.2 (by omega), rfl⟩, rfl⟩]
      rfl
    have s := h1.tail (.remove false n nofun hsome)
    have s := s.tail (.stamp 0 (false, .del n) (by rw [h4]; rfl) fun _ => rfl)
    have s := s.tail (.send 0 (w.version, false, .del n) (by rw [h5]; rfl) (fun _ => rfl)
      (by show w.queue.length < 100; omega))
    refine ⟨_, s, h2, ?_, ?_, ?_, fun k hk => ?_⟩
    · show (w.queue ++ [_]).length = n + 1
      rw [List.length_append, h3]; rfl
    · show (w.written ++ [_]).eraseIdx 0 = []
      rw [h4]; rfl
    · show (w.sending ++ [_]).eraseIdx 0 = []
      rw [h5]; rfl
    · show (if k = n then none else w.data k) = _
      rw [if_neg (by omega)]
      exact h6 k (by omega)

/-- A topic with at least 100 partitions is deleted by the dispatcher of topics, which fills the queue of the
dispatcher of partitions; this one has just begun to update another partition.  It waits for room in the queue
that only it empties: whatever happens afterwards, it receives nothing and does nothing any more. -/
theorem C62_violated_deadlock :
    ∃ w : LW, Watch.Steps True True (Watch.init (wdata manyParts)) w ∧
      ∀ order clean u, Watch.Steps order clean w u →
        u.phase = .busy ∧ u.cache = w.cache ∧ u.queue = w.queue ∧ w.queue ≠ [] := by
  obtain ⟨w, h1, h2, h3, h4, h5, h6⟩ := delete_many 100 (Nat.le_refl _)
  have hd : w.data 100 = some (wobj 100 7 0) := by
    rw [h6 100 (Nat.le_refl _)]
    exact ((lists_wdata manyParts_keys).2 100 (wobj 100 7 0)).2
      ⟨List.mem_map.2 ⟨100, List.mem_range.2 (by omega), rfl⟩, rfl⟩
  have s := h1.tail (.act h2)
  have s := s.tail (.write true { wobj 100 7 0 with status := 1 }
    { wobj 100 7 0 with status := 1, item := ⟨1, none, []⟩ } (fun _ => rfl) (by
      show accept w.data _ = _
      unfold accept
      rw [show w.data ({ wobj 100 7 0 with status := 1 } : LObj Nat Nat Nat).key =
        some (wobj 100 7 0) from hd]
      rfl))
  refine ⟨_, s, fun order clean u hu => ?_⟩
  have hst := jammed_steps (by exact ⟨rfl, h3, .inl ⟨_, List.mem_append_right _ List.mem_cons_self⟩⟩) hu
  refine ⟨hst.1.1, hst.2.1, hst.2.2, fun e => ?_⟩
  change w.queue = [] at e
  rw [e] at h3
  cases h3

end Verif.Props
