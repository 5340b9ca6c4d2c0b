/-!
# The streams of a broker's connections (`fluvio-spu/src/services/public/`)

Each connection has a table of its streams (`StreamPublishers`), through which acknowledgements
(offset_update.rs) and committed offsets (consumer_handler.rs) find the stream they are for.  Each leader
replica has a list of the publishers of the streams that read from it, through which the streams are told
that the topic was deleted (replica_state.rs).  This is the model of both.

Not modelled: what the streams send (`Verif/Stream/Server.lean`), how committed offsets are kept
(`Verif/Kv`), and the clean-up of the lists from publishers that no longer exist.
-/

namespace Verif.Stream.Sessions

/-- `INIT_OFFSET`, `TOPIC_DELETED` — fluvio-types/src/event.rs:63-64 -/
abbrev initOffset : Int := -1
abbrev topicDeleted : Int := -2

/-- How a stream's task ended: with the answer `TopicDeleted`, or with the connection -/
inductive End where
  | deleted
  | closed
deriving DecidableEq

/-- A stream: `StreamPublisher` (stream_fetch.rs:619-630) and what its task knows.  The replica is one
number; `gen` tells one leader state from the next for the same replica. -/
structure Stream where
  conn : Nat
  id : Nat
  replica : Nat
  gen : Nat
  consumer : Option Nat
  /-- the value of the publisher, and the value its listener returned last (event.rs:131-136) -/
  value : Int
  seen : Int
  /-- the leader's list has the publisher -/
  listed : Bool
  ended : Option End
deriving DecidableEq

structure Broker where
  streams : List Stream
  /-- `stream_id_seq` of each connection -/
  seq : Nat → Nat
  /-- `publishers` of each connection: (connection, stream id) to the position in `streams` -/
  table : List ((Nat × Nat) × Nat)
  /-- `leaders_state`: the leader state of each replica -/
  leader : Nat → Option Nat
  gens : Nat
  closed : List Nat
  /-- committed offsets, newest first: (replica, consumer) and offset -/
  stored : List ((Nat × Nat) × Int)

def Broker.init : Broker := ⟨[], fun _ => 0, [], fun _ => none, 0, [], []⟩

/-- `get_publisher` — stream_fetch.rs:672-674 -/
def Broker.lookup (b : Broker) (c id : Nat) : Option Nat := (b.table.find? (·.1 = (c, id))).map (·.2)

def setAt (f : Nat → Nat) (k v : Nat) : Nat → Nat := fun x => if x = k then v else f x

def setLeader (f : Nat → Option Nat) (k : Nat) (v : Option Nat) : Nat → Option Nat :=
  fun x => if x = k then v else f x

inductive Ev where
  /-- the broker becomes leader of a replica -/
  | lead (r : Nat)
  /-- a connection asks for a stream: the leader state is found and the publisher made
  (`start`, stream_fetch.rs:66-73; `create_new_publisher`, 650-669) -/
  | start (c r : Nat) (consumer : Option Nat)
  /-- the publisher is put into the leader's list (`register_offset_publisher`, replica_state.rs:417-434) -/
  | register (i : Nat)
  /-- `handle_offset_update` — offset_update.rs:13-55, one update -/
  | ack (c id : Nat) (offset : Int)
  /-- `handle_update` — consumer_handler.rs:108-155 -/
  | commit (c id : Nat) (offset : Int)
  /-- the stream's task looks at its publisher (stream_fetch.rs:253-262) -/
  | listen (i : Nat)
  /-- `remove_leader_replica` — core/global_context.rs:400-424, with `signal_topic_deleted`,
  replica_state.rs:436-444 -/
  | remove (r : Nat)
  /-- `demote_replica` — core/global_context.rs:452-466: the broker goes on as a follower -/
  | demote (r : Nat)
  /-- the connection ends -/
  | close (c : Nat)
deriving DecidableEq

inductive Reply where
  | ok
  | notLeader
  | noSession
  | noConsumer
deriving DecidableEq

/-- The task's look at the publisher. -/
def Stream.listen (s : Stream) : Stream :=
  if s.ended.isSome ∨ s.value = s.seen then s
  else if s.value = topicDeleted then { s with seen := s.value, ended := some .deleted }
  else { s with seen := s.value }

/-- `signal_topic_deleted` for one of the streams -/
def Stream.signal (g : Nat) (s : Stream) : Stream :=
  if s.gen = g ∧ s.listed then { s with value := topicDeleted } else s

def Stream.close (c : Nat) (s : Stream) : Stream :=
  if s.conn = c ∧ s.ended = none then { s with ended := some .closed } else s

/-- One step with the answer given.  A connection that ended is not heard of again.  `stream_id_seq` is a
`u32` and wraps around (as in a release build). -/
def Broker.step (b : Broker) : Ev → Broker × Reply
  | .lead r => ({ b with leader := setLeader b.leader r (some b.gens), gens := b.gens + 1 }, .ok)
  | .start c r consumer =>
    if c ∈ b.closed then (b, .ok)
    else match b.leader r with
    | none => (b, .notLeader)
    | some g =>
      let id := (b.seq c + 1) % 2 ^ 32
      ({ b with
          streams := b.streams ++ [⟨c, id, r, g, consumer, initOffset, 0, false, none⟩],
          seq := setAt b.seq c id,
          table := ((c, id), b.streams.length) :: b.table }, .ok)
  | .register i => ({ b with streams := b.streams.modify i (fun s => { s with listed := true }) }, .ok)
  | .ack c id o =>
    match b.lookup c id with
    | none => (b, .noSession)
    | some i => ({ b with streams := b.streams.modify i (fun s => { s with value := o }) }, .ok)
  | .commit c id o =>
    match (b.lookup c id).bind (b.streams[·]?) with
    | none => (b, .noSession)
    | some s =>
      match s.consumer with
      | none => (b, .noConsumer)
      | some k => ({ b with stored := ((s.replica, k), o) :: b.stored }, .ok)
  | .listen i => ({ b with streams := b.streams.modify i Stream.listen }, .ok)
  | .remove r =>
    match b.leader r with
    | none => (b, .ok)
    | some g =>
      ({ b with leader := setLeader b.leader r none, streams := b.streams.map (Stream.signal g) }, .ok)
  | .demote r => ({ b with leader := setLeader b.leader r none }, .ok)
  | .close c =>
    ({ b with closed := c :: b.closed, streams := b.streams.map (Stream.close c),
              table := b.table.filter (·.1.1 ≠ c) }, .ok)

def Broker.run (b : Broker) (es : List Ev) : Broker := es.foldl (fun b e => (b.step e).1) b

/-- the broker after a step -/
abbrev Broker.next (b : Broker) (e : Ev) : Broker := (b.step e).1

theorem run_cons (b : Broker) (e : Ev) (es : List Ev) : b.run (e :: es) = (b.next e).run es := rfl

theorem run_append (b : Broker) (es fs : List Ev) : b.run (es ++ fs) = (b.run es).run fs := by
  simp [Broker.run, List.foldl_append]

/-! ## One stream -/

/-- What never changes about a stream -/
def Stream.Same (s t : Stream) : Prop :=
  t.conn = s.conn ∧ t.id = s.id ∧ t.replica = s.replica ∧ t.gen = s.gen ∧ t.consumer = s.consumer

theorem Stream.Same.rfl' (s : Stream) : s.Same s := ⟨rfl, rfl, rfl, rfl, rfl⟩

theorem Stream.Same.trans {s t u : Stream} (h : s.Same t) (k : t.Same u) : s.Same u :=
  ⟨k.1.trans h.1, k.2.1.trans h.2.1, k.2.2.1.trans h.2.2.1, k.2.2.2.1.trans h.2.2.2.1,
    k.2.2.2.2.trans h.2.2.2.2⟩

/-- What a step does to the stream at position `i`. -/
def Broker.touch (b : Broker) (e : Ev) (i : Nat) (s : Stream) : Stream :=
  match e with
  | .register j => if j = i then { s with listed := true } else s
  | .ack c id o => if b.lookup c id = some i then { s with value := o } else s
  | .listen j => if j = i then s.listen else s
  | .remove r => match b.leader r with
    | some g => s.signal g
    | none => s
  | .close c => s.close c
  | _ => s

theorem step_get (b : Broker) (e : Ev) (i : Nat) (s : Stream) (h : b.streams[i]? = some s) :
    (b.next e).streams[i]? = some (b.touch e i s) := by
  cases e with
  | lead r => exact h
  | start c r k =>
    unfold Broker.next Broker.step Broker.touch
    dsimp only
    split
    · exact h
    · split
      · exact h
      · have : i < b.streams.length := (List.getElem?_eq_some_iff.mp h).1
        dsimp only
        rw [List.getElem?_append_left this]
        exact h
  | register j =>
    unfold Broker.next Broker.step Broker.touch
    dsimp only
    rw [List.getElem?_modify, h]
    simp only [Option.map_eq_map, Option.map_some]
  | ack c id o =>
    unfold Broker.next Broker.step Broker.touch
    dsimp only
    cases hl : b.lookup c id with
    | none => simpa using h
    | some j =>
      dsimp only
      rw [List.getElem?_modify, h]
      simp only [Option.map_eq_map, Option.map_some, Option.some.injEq]
  | commit c id o =>
    unfold Broker.next Broker.step Broker.touch
    dsimp only
    split
    · exact h
    · split <;> exact h
  | listen j =>
    unfold Broker.next Broker.step Broker.touch
    dsimp only
    rw [List.getElem?_modify, h]
    simp only [Option.map_eq_map, Option.map_some]
  | remove r =>
    unfold Broker.next Broker.step Broker.touch
    dsimp only
    cases b.leader r with
    | none => exact h
    | some g =>
      dsimp only
      rw [List.getElem?_map, h]
      rfl
  | demote r => exact h
  | close c =>
    unfold Broker.next Broker.step Broker.touch
    dsimp only
    rw [List.getElem?_map, h]
    rfl

theorem listen_same (s : Stream) : s.Same s.listen := by
  unfold Stream.listen
  split
  · exact .rfl' s
  · split <;> exact ⟨rfl, rfl, rfl, rfl, rfl⟩

theorem touch_same (b : Broker) (e : Ev) (i : Nat) (s : Stream) : s.Same (b.touch e i s) := by
  unfold Broker.touch
  cases e with
  | listen j =>
    dsimp only
    split
    · exact listen_same s
    · exact .rfl' s
  | remove r =>
    dsimp only
    split
    · unfold Stream.signal; split <;> exact ⟨rfl, rfl, rfl, rfl, rfl⟩
    · exact .rfl' s
  | close c =>
    dsimp only
    unfold Stream.close; split <;> exact ⟨rfl, rfl, rfl, rfl, rfl⟩
  | register j => dsimp only; split <;> exact ⟨rfl, rfl, rfl, rfl, rfl⟩
  | ack c id o => dsimp only; split <;> exact ⟨rfl, rfl, rfl, rfl, rfl⟩
  | _ => exact .rfl' s

/-! ## The tables -/

/-- streams of a connection -/
def Broker.own (b : Broker) (c : Nat) : List Stream := b.streams.filter (·.conn = c)

structure Inv (b : Broker) : Prop where
  /-- ids are given in order, around after 2^32 -/
  ids : ∀ c, (b.own c).map Stream.id = (List.range (b.own c).length).map (fun k => (k + 1) % 2 ^ 32)
  seq : ∀ c, b.seq c = (b.own c).length % 2 ^ 32
  /-- entries point to streams -/
  entry : ∀ c id i, ((c, id), i) ∈ b.table → c ∉ b.closed ∧ ∃ s, b.streams[i]? = some s ∧ s.conn = c ∧ s.id = id
  /-- each stream of an open connection has an entry -/
  has : ∀ (i : Nat) (s : Stream), b.streams[i]? = some s → s.conn ∉ b.closed → ((s.conn, s.id), i) ∈ b.table
  gens : ∀ (r g : Nat), b.leader r = some g → g < b.gens
  sgens : ∀ (i : Nat) (s : Stream), b.streams[i]? = some s → s.gen < b.gens
  one : ∀ (r r' g : Nat), b.leader r = some g → b.leader r' = some g → r = r'
  own : ∀ (i : Nat) (s : Stream) (r : Nat), b.streams[i]? = some s → b.leader r = some s.gen → s.replica = r
  fresh : ∀ (i : Nat) (s : Stream), b.streams[i]? = some s → s.ended = none → s.seen ≠ topicDeleted
  gone : ∀ (i : Nat) (s : Stream), b.streams[i]? = some s → s.conn ∈ b.closed → s.ended ≠ none

theorem length_next (b : Broker) (e : Ev) (h : ∀ c r k, e ≠ .start c r k) :
    (b.next e).streams.length = b.streams.length := by
  cases e with
  | start c r k => exact absurd rfl (h c r k)
  | lead r => rfl
  | demote r => rfl
  | register j => simp [Broker.next, Broker.step]
  | listen j => simp [Broker.next, Broker.step]
  | close c => simp [Broker.next, Broker.step]
  | ack c id o => unfold Broker.next Broker.step; dsimp only; split <;> simp
  | commit c id o => unfold Broker.next Broker.step; dsimp only; (repeat' split) <;> rfl
  | remove r => unfold Broker.next Broker.step; dsimp only; split <;> simp

/-- Without a new stream, the streams are the same ones. -/
theorem get_back (b : Broker) (e : Ev) (h : ∀ c r k, e ≠ .start c r k) (i : Nat) (t : Stream)
    (ht : (b.next e).streams[i]? = some t) : ∃ s, b.streams[i]? = some s ∧ t = b.touch e i s := by
  have hi : i < b.streams.length := by
    rw [← length_next b e h]; exact (List.getElem?_eq_some_iff.mp ht).1
  refine ⟨b.streams[i], List.getElem?_eq_getElem hi, ?_⟩
  have := step_get b e i _ (List.getElem?_eq_getElem hi)
  rw [this] at ht
  exact (Option.some.inj ht).symm

theorem filter_same {l m : List Stream} (c : Nat) (hl : m.length = l.length)
    (h : ∀ (i : Nat) (s : Stream), l[i]? = some s → ∃ t, m[i]? = some t ∧ s.Same t) :
    (m.filter (·.conn = c)).map Stream.id = (l.filter (·.conn = c)).map Stream.id := by
  induction l generalizing m with
  | nil => cases m with
    | nil => rfl
    | cons a m => simp at hl
  | cons a l ih =>
    cases m with
    | nil => simp at hl
    | cons b m =>
      obtain ⟨t, ht, hs⟩ := h 0 a rfl
      simp at ht
      subst ht
      have := ih (m := m) (by simpa using hl) (fun i s hi => h (i + 1) s hi)
      rw [List.filter_cons, List.filter_cons]
      have hc : (decide (b.conn = c)) = decide (a.conn = c) := by rw [hs.1]
      rw [hc]
      split
      · rw [List.map_cons, List.map_cons, this, hs.2.1]
      · exact this

theorem own_next (b : Broker) (e : Ev) (h : ∀ c r k, e ≠ .start c r k) (c : Nat) :
    ((b.next e).own c).map Stream.id = (b.own c).map Stream.id :=
  filter_same c (length_next b e h) (fun i s hs => ⟨_, step_get b e i s hs, touch_same b e i s⟩)

theorem own_length (b : Broker) (e : Ev) (h : ∀ c r k, e ≠ .start c r k) (c : Nat) :
    ((b.next e).own c).length = (b.own c).length := by
  have := congrArg List.length (own_next b e h c)
  simpa using this

theorem touch_ended (b : Broker) (e : Ev) (i : Nat) (s : Stream) (h : s.ended ≠ none) :
    (b.touch e i s).ended = s.ended := by
  unfold Broker.touch
  cases e with
  | listen j =>
    dsimp only
    split
    · unfold Stream.listen
      rw [if_pos (.inl (Option.isSome_iff_ne_none.mpr h))]
    · rfl
  | remove r =>
    dsimp only
    split
    · unfold Stream.signal; split <;> rfl
    · rfl
  | close c =>
    dsimp only
    unfold Stream.close
    rw [if_neg (fun hx => h hx.2)]
  | register j => dsimp only; split <;> rfl
  | ack c id o => dsimp only; split <;> rfl
  | _ => rfl

theorem touch_fresh (b : Broker) (e : Ev) (i : Nat) (s : Stream)
    (h : s.ended = none → s.seen ≠ topicDeleted) :
    (b.touch e i s).ended = none → (b.touch e i s).seen ≠ topicDeleted := by
  unfold Broker.touch
  cases e with
  | listen j =>
    dsimp only
    split
    · unfold Stream.listen
      split
      · exact h
      · split
        · nofun
        · rename_i hv; exact fun _ => hv
    · exact h
  | remove r =>
    dsimp only
    split
    · unfold Stream.signal; split <;> exact h
    · exact h
  | close c =>
    dsimp only
    unfold Stream.close
    split
    · nofun
    · exact h
  | register j => dsimp only; split <;> exact h
  | ack c id o => dsimp only; split <;> exact h
  | _ => exact h

theorem Inv.init : Inv Broker.init := by
  constructor <;> simp [Broker.init, Broker.own]

theorem range_succ_map (n : Nat) (f : Nat → Nat) :
    (List.range (n + 1)).map f = (List.range n).map f ++ [f n] := by
  rw [List.range_succ, List.map_append]; rfl

theorem Inv.start {b : Broker} (h : Inv b) (c r : Nat) (k : Option Nat) : Inv (b.next (.start c r k)) := by
  unfold Broker.next Broker.step
  dsimp only
  split
  · exact h
  · rename_i hcl
    split
    · exact h
    · rename_i g hg
      dsimp only
      generalize hid : (b.seq c + 1) % 2 ^ 32 = id
      have hown : ∀ c', Broker.own { b with streams := b.streams ++ [⟨c, id, r, g, k, initOffset, 0, false, none⟩], seq := setAt b.seq c id, table := ((c, id), b.streams.length) :: b.table } c'
          = if c' = c then b.own c' ++ [⟨c, id, r, g, k, initOffset, 0, false, none⟩] else b.own c' := by
        intro c'
        unfold Broker.own
        dsimp only
        rw [List.filter_append]
        by_cases hx : c' = c
        · rw [if_pos hx, hx]; simp
        · rw [if_neg hx]
          simp [show c ≠ c' from fun hh => hx hh.symm]
      have hlast : ∀ (i : Nat) (s : Stream),
          (b.streams ++ [⟨c, id, r, g, k, initOffset, 0, false, none⟩])[i]? = some s →
          b.streams[i]? = some s ∨ (i = b.streams.length ∧ s = ⟨c, id, r, g, k, initOffset, 0, false, none⟩) := by
        intro i s hs
        rcases Nat.lt_or_ge i b.streams.length with hi | hi
        · rw [List.getElem?_append_left hi] at hs; exact .inl hs
        · rw [List.getElem?_append_right hi] at hs
          right
          rcases Nat.eq_or_lt_of_le hi with hi | hi
          · rw [← hi] at hs
            simp at hs
            exact ⟨hi.symm, hs.symm⟩
          · rw [List.getElem?_eq_none (by simp; omega)] at hs
            cases hs
      constructor
      · intro c'
        rw [hown]
        split
        · rename_i hx
          subst hx
          rw [List.map_append, h.ids, List.length_append, List.length_singleton, range_succ_map]
          congr 1
          simp only [List.map_cons, List.map_nil]
          rw [← hid, h.seq]
          congr 1
          omega
        · exact h.ids c'
      · intro c'
        rw [hown]
        dsimp only [setAt]
        split
        · rename_i hx
          subst hx
          rw [List.length_append, List.length_singleton, ← hid, h.seq]
          omega
        · exact h.seq c'
      · intro c' id' i hx
        dsimp only at hx ⊢
        rcases List.mem_cons.mp hx with hx | hx
        · simp only [Prod.mk.injEq] at hx
          obtain ⟨⟨rfl, rfl⟩, rfl⟩ := hx
          exact ⟨hcl, ⟨c', id', r, g, k, initOffset, 0, false, none⟩, by simp, rfl, rfl⟩
        · obtain ⟨h1, s, h2, h3, h4⟩ := h.entry _ _ _ hx
          refine ⟨h1, s, ?_, h3, h4⟩
          rw [List.getElem?_append_left (List.getElem?_eq_some_iff.mp h2).1]
          exact h2
      · intro i s hs hc
        dsimp only at hs hc ⊢
        rcases hlast i s hs with hs | ⟨rfl, rfl⟩
        · exact List.mem_cons_of_mem _ (h.has i s hs hc)
        · exact List.mem_cons_self
      · exact h.gens
      · intro i s hs
        rcases hlast i s hs with hs | ⟨rfl, rfl⟩
        · exact h.sgens i s hs
        · exact h.gens r g hg
      · exact h.one
      · intro i s r' hs hr
        rcases hlast i s hs with hs | ⟨rfl, rfl⟩
        · exact h.own i s r' hs hr
        · exact h.one r r' g hg hr
      · intro i s hs he
        rcases hlast i s hs with hs | ⟨rfl, rfl⟩
        · exact h.fresh i s hs he
        · exact (by decide : (0 : Int) ≠ topicDeleted)
      · intro i s hs hc
        rcases hlast i s hs with hs | ⟨rfl, rfl⟩
        · exact h.gone i s hs hc
        · exact absurd hc hcl

/-- Steps other than new streams keep most of the tables. -/
theorem step_tables (b : Broker) (e : Ev) (h : ∀ c r k, e ≠ .start c r k) :
    (b.next e).seq = b.seq ∧
    ((∃ c, e = .close c) ∨ ((b.next e).table = b.table ∧ (b.next e).closed = b.closed)) ∧
    ((∃ r, e = .lead r) ∨ ((b.next e).gens = b.gens
      ∧ ∀ r g, (b.next e).leader r = some g → b.leader r = some g)) := by
  have hset : ∀ (r r' g : Nat), setLeader b.leader r none r' = some g → b.leader r' = some g := by
    intro r r' g hx
    unfold setLeader at hx
    split at hx
    · cases hx
    · exact hx
  cases e with
  | start c r k => exact absurd rfl (h c r k)
  | lead r => exact ⟨rfl, .inr ⟨rfl, rfl⟩, .inl ⟨r, rfl⟩⟩
  | demote r => exact ⟨rfl, .inr ⟨rfl, rfl⟩, .inr ⟨rfl, fun r' g hx => hset r r' g hx⟩⟩
  | register j => exact ⟨rfl, .inr ⟨rfl, rfl⟩, .inr ⟨rfl, fun _ _ hx => hx⟩⟩
  | listen j => exact ⟨rfl, .inr ⟨rfl, rfl⟩, .inr ⟨rfl, fun _ _ hx => hx⟩⟩
  | close c => exact ⟨rfl, .inl ⟨c, rfl⟩, .inr ⟨rfl, fun _ _ hx => hx⟩⟩
  | ack c id o =>
    unfold Broker.next Broker.step; dsimp only
    split <;> exact ⟨rfl, .inr ⟨rfl, rfl⟩, .inr ⟨rfl, fun _ _ hx => hx⟩⟩
  | commit c id o =>
    unfold Broker.next Broker.step; dsimp only
    split
    · exact ⟨rfl, .inr ⟨rfl, rfl⟩, .inr ⟨rfl, fun _ _ hx => hx⟩⟩
    · split <;> exact ⟨rfl, .inr ⟨rfl, rfl⟩, .inr ⟨rfl, fun _ _ hx => hx⟩⟩
  | remove r =>
    unfold Broker.next Broker.step; dsimp only
    split
    · exact ⟨rfl, .inr ⟨rfl, rfl⟩, .inr ⟨rfl, fun _ _ hx => hx⟩⟩
    · exact ⟨rfl, .inr ⟨rfl, rfl⟩, .inr ⟨rfl, fun r' g hx => hset r r' g hx⟩⟩

theorem Inv.other {b : Broker} (h : Inv b) (e : Ev) (he : ∀ c r k, e ≠ .start c r k) : Inv (b.next e) := by
  obtain ⟨hseq, htab, hlead⟩ := step_tables b e he
  have hback := get_back b e he
  constructor
  · intro c
    rw [own_next b e he, own_length b e he]
    exact h.ids c
  · intro c
    rw [hseq, own_length b e he]
    exact h.seq c
  · intro c id i hx
    rcases htab with ⟨c', rfl⟩ | ⟨h1, h2⟩
    · have hx' : ((c, id), i) ∈ b.table.filter (·.1.1 ≠ c') := hx
      obtain ⟨hx', hne⟩ := List.mem_filter.mp hx'
      obtain ⟨h1, s, h2, h3, h4⟩ := h.entry _ _ _ hx'
      refine ⟨?_, _, step_get b _ i s h2, ?_, ?_⟩
      · intro hm
        rcases List.mem_cons.mp hm with hm | hm
        · simp at hne; exact hne hm
        · exact h1 hm
      · exact (touch_same b _ i s).1.trans h3
      · exact (touch_same b _ i s).2.1.trans h4
    · rw [h1] at hx
      rw [h2]
      obtain ⟨h1, s, h2, h3, h4⟩ := h.entry _ _ _ hx
      exact ⟨h1, _, step_get b _ i s h2, (touch_same b _ i s).1.trans h3, (touch_same b _ i s).2.1.trans h4⟩
  · intro i t ht hc
    obtain ⟨s, hs, rfl⟩ := hback i t ht
    have hsame := touch_same b e i s
    rw [hsame.1] at hc
    rw [hsame.1, hsame.2.1]
    rcases htab with ⟨c', rfl⟩ | ⟨h1, h2⟩
    · have hc' : s.conn ∉ c' :: b.closed := hc
      rw [List.mem_cons, not_or] at hc'
      refine List.mem_filter.mpr ⟨h.has i s hs hc'.2, ?_⟩
      simpa using hc'.1
    · rw [h2] at hc
      rw [h1]
      exact h.has i s hs hc
  · intro r g hg
    rcases hlead with ⟨r', rfl⟩ | ⟨h1, h2⟩
    · have hg : setLeader b.leader r' (some b.gens) r = some g := hg
      show g < b.gens + 1
      unfold setLeader at hg
      split at hg
      · simp at hg; omega
      · have := h.gens r g hg; omega
    · rw [h1]; exact h.gens r g (h2 r g hg)
  · intro i t ht
    obtain ⟨s, hs, rfl⟩ := hback i t ht
    rw [(touch_same b e i s).2.2.2.1]
    have := h.sgens i s hs
    rcases hlead with ⟨r', rfl⟩ | ⟨h1, h2⟩
    · show _ < b.gens + 1
      omega
    · rw [h1]; exact this
  · intro r r' g hr hr'
    rcases hlead with ⟨x, rfl⟩ | ⟨h1, h2⟩
    · have hr : setLeader b.leader x (some b.gens) r = some g := hr
      have hr' : setLeader b.leader x (some b.gens) r' = some g := hr'
      unfold setLeader at hr hr'
      split at hr <;> split at hr'
      · rename_i a c; exact a.trans c.symm
      · simp at hr
        have := h.gens r' g hr'
        omega
      · simp at hr'
        have := h.gens r g hr
        omega
      · exact h.one r r' g hr hr'
    · exact h.one r r' g (h2 r g hr) (h2 r' g hr')
  · intro i t r ht hr
    obtain ⟨s, hs, rfl⟩ := hback i t ht
    rw [(touch_same b e i s).2.2.2.1] at hr
    rw [(touch_same b e i s).2.2.1]
    rcases hlead with ⟨x, rfl⟩ | ⟨h1, h2⟩
    · have hr : setLeader b.leader x (some b.gens) r = some s.gen := hr
      unfold setLeader at hr
      split at hr
      · simp at hr
        have := h.sgens i s hs
        omega
      · exact h.own i s r hs hr
    · exact h.own i s r hs (h2 r _ hr)
  · intro i t ht
    obtain ⟨s, hs, rfl⟩ := hback i t ht
    exact touch_fresh b e i s (h.fresh i s hs)
  · intro i t ht hc
    obtain ⟨s, hs, rfl⟩ := hback i t ht
    rw [(touch_same b e i s).1] at hc
    rcases htab with ⟨c', rfl⟩ | ⟨h1, h2⟩
    · have hc : s.conn ∈ c' :: b.closed := hc
      by_cases hn : s.ended = none
      · rcases List.mem_cons.mp hc with hc | hc
        · show (s.close c').ended ≠ none
          unfold Stream.close
          rw [if_pos ⟨hc, hn⟩]
          nofun
        · exact absurd hn (h.gone i s hs hc)
      · rw [touch_ended b _ i s hn]; exact hn
    · rw [h2] at hc
      have hn := h.gone i s hs hc
      rw [touch_ended b e i s hn]; exact hn

theorem Inv.step {b : Broker} (h : Inv b) (e : Ev) : Inv (b.next e) := by
  by_cases hs : ∃ c r k, e = .start c r k
  · obtain ⟨c, r, k, rfl⟩ := hs; exact h.start c r k
  · exact h.other e (fun c r k hx => hs ⟨c, r, k, hx⟩)

theorem Inv.run (es : List Ev) : ∀ {b : Broker}, Inv b → Inv (b.run es) := by
  induction es with
  | nil => intro b h; exact h
  | cons e es ih => intro b h; exact ih (h.step e)

end Verif.Stream.Sessions
