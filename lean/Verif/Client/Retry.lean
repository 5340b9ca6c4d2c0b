import Verif.Client.Offset

/-!
# Reconnecting consumers (`fluvio/src/consumer/retry.rs`)

The retry stream wraps the streams of all partitions of a topic.  A partition stream opened at offset
`s` yields the committed records from `s` on, in order (C31, C32), until the connection breaks; if its
next record has been removed by retention it reports `OffsetEvicted`.
-/

namespace Verif.Client

variable {α : Type}

/-- A partition: every record ever committed (offset = index) and the offset below which records have
been removed. -/
structure Part (α : Type) where
  full : List α
  base : Nat

/-- The log end as the client sees it. -/
def Part.stable (p : Part α) : Int := p.full.length

/-- `ConsumerRetryStream` — retry.rs:37-71: the partitions, `next_offset_to_read`, and for every partition
stream of the current connection the offset it yields next (`none`: the stream could not be opened). -/
structure Retry (α : Type) where
  parts : List (Part α)
  next : Option Int
  cursors : List (Option Int)
  /-- delivered to the application: partition, offset, record; latest last -/
  out : List (Nat × Int × α)

/-- `next_offset` — retry.rs:72-80 -/
def nextPosition (start : Position) (next : Option Int) : Position :=
  match next with
  | none => start
  | some n => (Position.mkAbsolute n).getD start

/-- `consumer_with_config_inner` — fluvio.rs:363-424: all partitions are opened with the same position. -/
def open_ (p : Position) (parts : List (Part α)) : List (Option Int) :=
  parts.map fun q => p.resolve q.base q.stable none

def Retry.connect (start : Position) (parts : List (Part α)) : Retry α :=
  ⟨parts, none, open_ start parts, []⟩

/-- reconnecting — retry.rs:222-249 -/
def Retry.reconnect (start : Position) (r : Retry α) : Retry α :=
  { r with cursors := open_ (nextPosition start r.next) r.parts }

inductive RtEv (α : Type) where
  /-- the stream of partition `p` has something to yield -/
  | poll (p : Nat)
  /-- the connection is lost and reestablished -/
  | lost
  /-- records are committed to partition `p` -/
  | grow (p : Nat) (rs : List α)
  /-- retention removes everything before `b` from partition `p` -/
  | trim (p : Nat) (b : Nat)

/-- One poll — retry.rs:135-165 (a record: remember the offset behind it), 257-309 (`OffsetEvicted`:
remember the next available offset and reconnect). -/
def Retry.poll (start : Position) (r : Retry α) (p : Nat) : Retry α :=
  match r.parts[p]?, r.cursors[p]? with
  | some q, some (some c) =>
    if c < q.base then { r with next := some q.base }.reconnect start
    else match q.full[c.toNat]? with
    | none => r
    | some x =>
      { r with next := some (c + 1), cursors := r.cursors.set p (some (c + 1)),
               out := r.out ++ [(p, c, x)] }
  | _, _ => r

def Retry.step (start : Position) (r : Retry α) : RtEv α → Retry α
  | .poll p => r.poll start p
  | .lost => r.reconnect start
  | .grow p rs => { r with parts := r.parts.modify p fun q => { q with full := q.full ++ rs } }
  | .trim p b => { r with parts := r.parts.modify p fun q => { q with base := max q.base (min b q.full.length) } }

def Retry.run (start : Position) (r : Retry α) (es : List (RtEv α)) : Retry α :=
  es.foldl (Retry.step start) r

/-! ## One partition -/

/-- The delivered records are genuine and increasing, everything from the first of them to where the
stream goes on has been delivered or removed by retention. -/
structure Rt (q : Part α) (c : Option Int) (r : Retry α) : Prop where
  parts : r.parts = [q]
  cursors : r.cursors = [c]
  base : q.base ≤ q.full.length
  genuine : ∀ e ∈ r.out, e.1 = 0 ∧ 0 ≤ e.2.1 ∧ q.full[e.2.1.toNat]? = some e.2.2
  inc : r.out.Pairwise fun a b => a.2.1 < b.2.1
  nonneg : ∀ x, c = some x → 0 ≤ x
  next : r.out ≠ [] → ∃ n, r.next = some n ∧ c = some n ∧ ∀ a ∈ r.out, a.2.1 < n ∧
    ∀ o, a.2.1 ≤ o → o < n → o < q.base ∨ ∃ e ∈ r.out, e.2.1 = o

def RetryOk (r : Retry α) : Prop := ∃ q c, Rt q c r

theorem resolve_nonneg {p : Position} {s t : Int} {c : Option Int} {x : Int}
    (h : p.resolve s t c = some x) : 0 ≤ x := by
  unfold Position.resolve at h
  rw [Option.map_eq_some_iff] at h
  obtain ⟨y, _, rfl⟩ := h
  omega

theorem RetryOk.connect (start : Position) (q : Part α) (h : q.base ≤ q.full.length) :
    RetryOk (Retry.connect start [q]) :=
  ⟨q, start.resolve q.base q.stable none, rfl, rfl, h, by simp [Retry.connect],
    by simp [Retry.connect], fun _ hx => resolve_nonneg hx, by simp [Retry.connect]⟩

theorem nextPosition_resolve (start : Position) {n : Int} (hn : 0 ≤ n) (s t : Int) :
    (nextPosition start (some n)).resolve s t none = some n := by
  unfold nextPosition Position.mkAbsolute
  simp only [if_neg (show ¬ n < 0 by omega), Option.getD_some]
  show some (max n 0) = some n
  rw [Int.max_eq_left hn]

theorem Rt.reconnect {start : Position} {q : Part α} {c : Option Int} {r : Retry α} (h : Rt q c r) :
    Rt q ((nextPosition start r.next).resolve q.base q.stable none) (r.reconnect start) := by
  obtain ⟨h1, h2, h3, h4, h5, h6, h7⟩ := h
  refine ⟨h1, ?_, h3, h4, h5, fun _ hx => resolve_nonneg hx, ?_⟩
  · unfold Retry.reconnect open_
    rw [h1]; rfl
  · intro hne
    obtain ⟨n, e1, e2, e3⟩ := h7 hne
    have hn : 0 ≤ n := h6 n e2
    exact ⟨n, e1, by rw [e1]; exact nextPosition_resolve start hn _ _, e3⟩

theorem Rt.poll {start : Position} {q : Part α} {c : Option Int} {r : Retry α} (h : Rt q c r) (p : Nat) :
    RetryOk (r.poll start p) := by
  unfold Retry.poll
  have hr : RetryOk r := ⟨q, c, h⟩
  obtain ⟨h1, h2, h3, h4, h5, h6, h7⟩ := h
  rw [h1, h2]
  cases p with
  | succ p => simpa using hr
  | zero =>
    rw [List.getElem?_cons_zero, List.getElem?_cons_zero]
    cases c with
    | none => exact hr
    | some c =>
      have hc : 0 ≤ c := h6 c rfl
      dsimp only
      split
      · -- the next record is gone
        rename_i hlt
        refine ⟨q, some q.base, rfl, ?_, h3, h4, h5, ?_, ?_⟩
        · unfold Retry.reconnect open_
          dsimp only
          rw [List.map_cons, List.map_nil, nextPosition_resolve start (by omega)]
        · intro x hx; cases hx; omega
        · intro hne
          obtain ⟨n, e1, e2, e3⟩ := h7 hne
          cases e2
          refine ⟨q.base, rfl, rfl, ?_⟩
          intro a ha
          obtain ⟨k1, k2⟩ := e3 a ha
          refine ⟨by omega, ?_⟩
          intro o ho1 ho2
          exact .inl ho2
      · split
        · exact hr
        · rename_i hge x hx
          refine ⟨q, some (c + 1), rfl, ?_, h3, ?_, ?_, ?_, ?_⟩
          · rfl
          · intro e he
            rcases List.mem_append.1 he with he | he
            · exact h4 e he
            · rw [List.mem_singleton.1 he]; exact ⟨rfl, hc, hx⟩
          · show (r.out ++ [_]).Pairwise _
            rw [List.pairwise_append]
            refine ⟨h5, List.pairwise_singleton _ _, ?_⟩
            intro a ha b hb
            rw [List.mem_singleton.1 hb]
            obtain ⟨n, e1, e2, e3⟩ := h7 (List.ne_nil_of_mem ha)
            cases e2
            exact (e3 a ha).1
          · intro y hy; cases hy; omega
          · intro _
            refine ⟨c + 1, rfl, rfl, ?_⟩
            intro a ha
            rcases List.mem_append.1 ha with ha | ha
            · obtain ⟨n, e1, e2, e3⟩ := h7 (List.ne_nil_of_mem ha)
              cases e2
              obtain ⟨k1, k2⟩ := e3 a ha
              refine ⟨by omega, ?_⟩
              intro o ho1 ho2
              by_cases hoc : o = c
              · exact .inr ⟨(0, c, x), by simp, hoc.symm⟩
              · rcases k2 o ho1 (by omega) with h' | ⟨e, he, h'⟩
                · exact .inl h'
                · exact .inr ⟨e, by simp [he], h'⟩
            · rw [List.mem_singleton.1 ha]
              refine ⟨by show c < c + 1; omega, ?_⟩
              intro o ho1 ho2
              have ho1' : c ≤ o := ho1
              exact .inr ⟨(0, c, x), by simp, by show c = o; omega⟩

theorem RetryOk.step {start : Position} {r : Retry α} (h : RetryOk r) (e : RtEv α) :
    RetryOk (r.step start e) := by
  obtain ⟨q, c, h⟩ := h
  cases e with
  | lost => exact ⟨q, _, h.reconnect⟩
  | poll p => exact h.poll p
  | grow p rs =>
    obtain ⟨h1, h2, h3, h4, h5, h6, h7⟩ := h
    cases p with
    | zero =>
      refine ⟨{ q with full := q.full ++ rs }, c, ?_, h2, ?_, ?_, h5, h6, h7⟩
      · show r.parts.modify 0 _ = _
        rw [h1]; rfl
      · show q.base ≤ (q.full ++ rs).length
        rw [List.length_append]; omega
      · intro e he
        obtain ⟨k1, k2, k3⟩ := h4 e he
        refine ⟨k1, k2, ?_⟩
        show (q.full ++ rs)[e.2.1.toNat]? = _
        have hlt : e.2.1.toNat < q.full.length := by
          refine Nat.lt_of_not_le fun hge => ?_
          rw [List.getElem?_eq_none hge] at k3; cases k3
        rw [List.getElem?_append_left hlt]; exact k3
    | succ p =>
      refine ⟨q, c, ?_, h2, h3, h4, h5, h6, h7⟩
      show r.parts.modify (p + 1) _ = _
      rw [h1]; simp
  | trim p b =>
    obtain ⟨h1, h2, h3, h4, h5, h6, h7⟩ := h
    cases p with
    | zero =>
      refine ⟨{ q with base := max q.base (min b q.full.length) }, c, ?_, h2, ?_, h4, h5, h6, ?_⟩
      · show r.parts.modify 0 _ = _
        rw [h1]; rfl
      · show max q.base (min b q.full.length) ≤ q.full.length
        omega
      · intro hne
        obtain ⟨n, e1, e2, e3⟩ := h7 hne
        refine ⟨n, e1, e2, ?_⟩
        intro a ha
        obtain ⟨k1, k2⟩ := e3 a ha
        refine ⟨k1, ?_⟩
        intro o ho1 ho2
        rcases k2 o ho1 ho2 with h' | h'
        · left
          show o < ((max q.base (min b q.full.length) : Nat) : Int)
          omega
        · exact .inr h'
    | succ p =>
      refine ⟨q, c, ?_, h2, h3, h4, h5, h6, h7⟩
      show r.parts.modify (p + 1) _ = _
      rw [h1]; simp

theorem RetryOk.run {start : Position} : ∀ (es : List (RtEv α)) {r : Retry α}, RetryOk r →
    RetryOk (r.run start es)
  | [], _, h => h
  | e :: es, _, h => RetryOk.run es (h.step e)

end Verif.Client
