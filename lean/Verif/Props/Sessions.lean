import Verif.Stream.Sessions

/-!
# C87, C88 — streams of a broker's connections

C87: an acknowledgement or a committed offset reaches the stream that it names.  C88: streams are told when
their topic is deleted, and only then.
-/

namespace Verif.Props
open Verif.Stream.Sessions

namespace Sessions

/-- Number of streams that a connection has opened -/
def opened (b : Broker) (c : Nat) : Nat := b.streams.countP (·.conn = c)

/-- The stream at position `i` is the one that connection `c`, still open, knows as `id`. -/
def Names (b : Broker) (c id i : Nat) : Prop :=
  c ∉ b.closed ∧ ∃ s, b.streams[i]? = some s ∧ s.conn = c ∧ s.id = id

/-- Two lists of streams agree except at position `i`, where the second has the value `o`. -/
def OnlyValue (l m : List Stream) (i : Nat) (o : Int) : Prop :=
  ∀ (j : Nat), m[j]? = if j = i then l[j]?.map (fun s => { s with value := o }) else l[j]?

end Sessions
open Sessions

private theorem opened_eq (b : Broker) (c : Nat) : opened b c = (b.own c).length := by
  unfold opened Broker.own
  rw [List.countP_eq_length_filter]

private theorem filter_take {l : List Stream} {c i : Nat} {s : Stream} (hs : l[i]? = some s) (hc : s.conn = c) :
    (l.filter (·.conn = c))[((l.take i).filter (·.conn = c)).length]? = some s := by
  induction l generalizing i with
  | nil => simp at hs
  | cons a l ih =>
    cases i with
    | zero =>
      simp at hs
      subst hs
      simp [hc]
    | succ i =>
      have hs : l[i]? = some s := by simpa using hs
      rw [List.take_succ_cons, List.filter_cons, List.filter_cons]
      split
      · rw [List.length_cons, List.getElem?_cons_succ]; exact ih hs
      · exact ih hs

/-- C87: the streams of a connection get the ids 1, 2, 3, … in the order in which they are opened. -/
theorem C87_ids (es : List Ev) (c i : Nat) (s : Stream)
    (hn : opened (Broker.init.run es) c < 2 ^ 32)
    (hs : (Broker.init.run es).streams[i]? = some s) (hc : s.conn = c) :
    s.id = ((Broker.init.run es).streams.take i).countP (·.conn = c) + 1 := by
  have h := Inv.init.run es
  generalize Broker.init.run es = b at *
  have h1 := filter_take hs hc
  rw [List.countP_eq_length_filter]
  generalize hk : ((b.streams.take i).filter (·.conn = c)).length = k at *
  rw [opened_eq] at hn
  have hlt : k < (b.own c).length := by
    unfold Broker.own; exact (List.getElem?_eq_some_iff.mp h1).1
  have h2 : ((b.own c).map Stream.id)[k]? = some s.id := by
    rw [List.getElem?_map]
    unfold Broker.own
    rw [h1]; rfl
  rw [h.ids, List.getElem?_map, List.getElem?_range hlt] at h2
  simp at h2
  rw [← h2, Nat.mod_eq_of_lt (by omega)]

private theorem names_unique {es : List Ev} {c id i j : Nat}
    (hn : opened (Broker.init.run es) c < 2 ^ 32)
    (hi : Names (Broker.init.run es) c id i) (hj : Names (Broker.init.run es) c id j) : i = j := by
  obtain ⟨_, s, hs, hsc, hsi⟩ := hi
  obtain ⟨_, t, ht, htc, hti⟩ := hj
  have h1 := C87_ids es c i s hn hs hsc
  have h2 := C87_ids es c j t hn ht htc
  rw [hsi] at h1
  rw [hti] at h2
  have h3 : ((Broker.init.run es).streams.take i).countP (·.conn = c)
      = ((Broker.init.run es).streams.take j).countP (·.conn = c) := by omega
  generalize Broker.init.run es = b at *
  suffices ∀ (i j : Nat) (s t : Stream), i < j → b.streams[i]? = some s → s.conn = c →
      (b.streams.take i).countP (·.conn = c) < (b.streams.take j).countP (·.conn = c) by
    rcases Nat.lt_trichotomy i j with h | h | h
    · have := this i j s t h hs hsc; omega
    · exact h
    · have := this j i t s h ht htc; omega
  intro i j s _ hij hs hc
  have h4 : (b.streams.take (i + 1)).countP (·.conn = c) = (b.streams.take i).countP (·.conn = c) + 1 := by
    rw [List.take_add_one, hs, List.countP_append]
    simp [hc]
  have h5 : (b.streams.take (i + 1)).Sublist (b.streams.take j) := by
    have : b.streams.take (i + 1) = (b.streams.take j).take (i + 1) := by
      rw [List.take_take, Nat.min_eq_left (by omega)]
    rw [this]
    exact List.take_sublist _ _
  have := h5.countP_le (p := fun s => decide (s.conn = c))
  omega

private theorem lookup_names {es : List Ev} {c id i : Nat}
    (hn : opened (Broker.init.run es) c < 2 ^ 32) :
    (Broker.init.run es).lookup c id = some i ↔ Names (Broker.init.run es) c id i := by
  have h := Inv.init.run es
  have hu := @names_unique es c id
  generalize Broker.init.run es = b at *
  unfold Broker.lookup
  constructor
  · intro hx
    cases hf : b.table.find? (·.1 = (c, id)) with
    | none => rw [hf] at hx; cases hx
    | some e =>
      rw [hf] at hx
      obtain ⟨k, j⟩ := e
      have hm := List.mem_of_find?_eq_some hf
      have hp := List.find?_some hf
      simp at hx hp
      subst hx hp
      exact h.entry c id j hm
  · intro hx
    obtain ⟨hcl, s, hs, hc, hi⟩ := hx
    have hm := h.has i s hs (by rw [hc]; exact hcl)
    rw [hc, hi] at hm
    cases hf : b.table.find? (·.1 = (c, id)) with
    | none =>
      have := List.find?_eq_none.mp hf _ hm
      simp at this
    | some e =>
      obtain ⟨k, j⟩ := e
      have hm' := List.mem_of_find?_eq_some hf
      have hp := List.find?_some hf
      simp at hp
      subst hp
      have := hu hn (h.entry c id j hm') ⟨hcl, s, hs, hc, hi⟩
      rw [this]
      rfl

/-- C87: an acknowledgement changes exactly the stream of its connection that it names … -/
theorem C87_ack (es : List Ev) (c id i : Nat) (o : Int)
    (hn : opened (Broker.init.run es) c < 2 ^ 32) (hi : Names (Broker.init.run es) c id i) :
    ((Broker.init.run es).step (.ack c id o)).2 = .ok ∧
    OnlyValue (Broker.init.run es).streams ((Broker.init.run es).step (.ack c id o)).1.streams i o ∧
    ((Broker.init.run es).step (.ack c id o)).1.stored = (Broker.init.run es).stored := by
  have hl := (lookup_names hn).mpr hi
  generalize Broker.init.run es = b at *
  unfold Broker.step
  dsimp only
  rw [hl]
  refine ⟨rfl, ?_, rfl⟩
  intro j
  show (b.streams.modify i _)[j]? = _
  rw [List.getElem?_modify]
  by_cases hx : j = i
  · subst hx; simp
  · rw [if_neg hx]
    have hx' : i ≠ j := fun hh => hx hh.symm
    cases b.streams[j]? <;> simp [hx']

/-- … and one that names no stream of its connection is refused and changes nothing. -/
theorem C87_ack_unknown (es : List Ev) (c id : Nat) (o : Int)
    (hn : opened (Broker.init.run es) c < 2 ^ 32) (hi : ∀ i, ¬ Names (Broker.init.run es) c id i) :
    (Broker.init.run es).step (.ack c id o) = (Broker.init.run es, .noSession) := by
  have hl : (Broker.init.run es).lookup c id = none := by
    cases hx : (Broker.init.run es).lookup c id with
    | none => rfl
    | some i => exact absurd ((lookup_names hn).mp hx) (hi i)
  generalize Broker.init.run es = b at *
  unfold Broker.step
  dsimp only
  rw [hl]

/-- C87: an offset committed through a stream is stored for that stream's partition and consumer, and refused
if the stream has no consumer id. -/
theorem C87_commit (es : List Ev) (c id i : Nat) (o : Int) (s : Stream)
    (hn : opened (Broker.init.run es) c < 2 ^ 32) (hi : Names (Broker.init.run es) c id i)
    (hs : (Broker.init.run es).streams[i]? = some s) :
    ((Broker.init.run es).step (.commit c id o)).1.streams = (Broker.init.run es).streams ∧
    match s.consumer with
    | some k => ((Broker.init.run es).step (.commit c id o)).2 = .ok ∧
        ((Broker.init.run es).step (.commit c id o)).1.stored
          = ((s.replica, k), o) :: (Broker.init.run es).stored
    | none => ((Broker.init.run es).step (.commit c id o)).2 = .noConsumer ∧
        ((Broker.init.run es).step (.commit c id o)).1.stored = (Broker.init.run es).stored := by
  have hl := (lookup_names hn).mpr hi
  generalize Broker.init.run es = b at *
  unfold Broker.step
  dsimp only
  rw [hl, Option.bind_some, hs]
  dsimp only
  cases s.consumer <;> exact ⟨rfl, rfl, rfl⟩

theorem C87_commit_unknown (es : List Ev) (c id : Nat) (o : Int)
    (hn : opened (Broker.init.run es) c < 2 ^ 32) (hi : ∀ i, ¬ Names (Broker.init.run es) c id i) :
    (Broker.init.run es).step (.commit c id o) = (Broker.init.run es, .noSession) := by
  have hl : (Broker.init.run es).lookup c id = none := by
    cases hx : (Broker.init.run es).lookup c id with
    | none => rfl
    | some i => exact absurd ((lookup_names hn).mp hx) (hi i)
  generalize Broker.init.run es = b at *
  unfold Broker.step
  dsimp only
  rw [hl]
  rfl

/-- two connections with three streams -/
private def ex : List Ev := [.lead 5, .lead 6, .start 1 5 (some 9), .start 2 5 none, .start 1 6 none,
  .register 0, .register 1, .register 2]

example : opened (Broker.init.run ex) 1 = 2 ∧ Names (Broker.init.run ex) 1 2 2 ∧ Names (Broker.init.run ex) 2 1 1
    ∧ ¬ Names (Broker.init.run ex) 2 2 2 := by
  refine ⟨by decide, ⟨by decide, _, rfl, rfl, rfl⟩, ⟨by decide, _, rfl, rfl, rfl⟩, ?_⟩
  rintro ⟨_, s, hs, hc, _⟩
  simp [Broker.run, ex, Broker.step, Broker.init, setLeader, setAt] at hs
  subst hs
  simp at hc

/-! ## C88 -/

/-- C88: a stream that is told that its topic was deleted was on the list of a leader replica when that
replica, the one the stream reads, was removed — or its own client acknowledged the offset −2. -/
theorem C88_only_deleted (es : List Ev) (i : Nat) (s : Stream)
    (hs : (Broker.init.run es).streams[i]? = some s) (he : s.ended = some .deleted) :
    (∃ pre post t, es = pre ++ .remove s.replica :: post ∧ (Broker.init.run pre).streams[i]? = some t
        ∧ t.listed = true ∧ (Broker.init.run pre).leader s.replica = some t.gen) ∨
    (∃ id, .ack s.conn id topicDeleted ∈ es) := by
  suffices ∀ n (es : List Ev), es.length = n → ∀ s, (Broker.init.run es).streams[i]? = some s →
      (s.value = topicDeleted ∨ s.ended = some .deleted) →
      (∃ pre post t, es = pre ++ .remove s.replica :: post ∧ (Broker.init.run pre).streams[i]? = some t
          ∧ t.listed = true ∧ (Broker.init.run pre).leader s.replica = some t.gen) ∨
      (∃ id, .ack s.conn id topicDeleted ∈ es) from this _ es rfl s hs (.inr he)
  clear hs he s es
  intro n
  induction n with
  | zero =>
    intro es hes s hs
    rw [List.length_eq_zero_iff.mp hes] at hs
    simp [Broker.run, Broker.init] at hs
  | succ n ih =>
    intro es hes t ht hd
    have hne : es ≠ [] := by intro hx; rw [hx] at hes; cases hes
    obtain ⟨es, e, rfl⟩ : ∃ es' e, es = es' ++ [e] := ⟨_, _, (List.dropLast_concat_getLast hne).symm⟩
    have hlen : es.length = n := by simpa using hes
    have hinv := Inv.init.run es
    rw [run_append] at ht
    have ih := ih es hlen
    -- the claim for the earlier events carries over
    have lift : ∀ s : Stream, s.conn = t.conn → s.replica = t.replica →
        ((∃ pre post u, es = pre ++ .remove s.replica :: post ∧ (Broker.init.run pre).streams[i]? = some u
          ∧ u.listed = true ∧ (Broker.init.run pre).leader s.replica = some u.gen) ∨
        (∃ id, .ack s.conn id topicDeleted ∈ es)) →
        ((∃ pre post u, es ++ [e] = pre ++ .remove t.replica :: post ∧ (Broker.init.run pre).streams[i]? = some u
          ∧ u.listed = true ∧ (Broker.init.run pre).leader t.replica = some u.gen) ∨
        (∃ id, .ack t.conn id topicDeleted ∈ es ++ [e])) := by
      intro s h1 h2 h
      rw [h1, h2] at h
      rcases h with ⟨pre, post, u, h3, h4⟩ | ⟨id, h3⟩
      · exact .inl ⟨pre, post ++ [e], u, by rw [h3]; simp, h4⟩
      · exact .inr ⟨id, List.mem_append_left _ h3⟩
    by_cases hst : ∃ c r k, e = .start c r k
    · obtain ⟨c, r, k, rfl⟩ := hst
      have ht' : ((Broker.init.run es).next (.start c r k)).streams[i]? = some t := ht
      by_cases hi : i < (Broker.init.run es).streams.length
      · have := step_get (Broker.init.run es) (.start c r k) i _ (List.getElem?_eq_getElem hi)
        rw [this] at ht'
        have ht' : (Broker.init.run es).streams[i] = t := Option.some.inj ht'
        refine lift t rfl rfl (ih t ?_ hd)
        rw [List.getElem?_eq_getElem hi, ht']
      · exfalso
        unfold Broker.next Broker.step at ht'
        dsimp only at ht'
        split at ht'
        · exact hi (List.getElem?_eq_some_iff.mp ht').1
        · split at ht'
          · exact hi (List.getElem?_eq_some_iff.mp ht').1
          · dsimp only at ht'
            rw [List.getElem?_append_right (Nat.le_of_not_lt hi)] at ht'
            have := (List.mem_of_getElem? ht')
            simp at this
            subst this
            rcases hd with hd | hd
            · exact absurd hd (show (-1 : Int) ≠ -2 by decide)
            · cases hd
    · have hst : ∀ c r k, e ≠ .start c r k := fun c r k hx => hst ⟨c, r, k, hx⟩
      obtain ⟨s, hs, rfl⟩ := get_back (Broker.init.run es) e hst i t ht
      have hsame := touch_same (Broker.init.run es) e i s
      by_cases hd0 : s.value = topicDeleted ∨ s.ended = some .deleted
      · exact lift s hsame.1.symm hsame.2.2.1.symm (ih s hs hd0)
      · rw [hsame.1, hsame.2.2.1] at *
        rw [not_or] at hd0
        cases e with
        | listen j =>
          exfalso
          unfold Broker.touch at hd
          dsimp only at hd
          split at hd
          · unfold Stream.listen at hd
            split at hd
            · rcases hd with hd | hd
              · exact hd0.1 hd
              · exact hd0.2 hd
            · rw [if_neg hd0.1] at hd
              rcases hd with hd | hd
              · exact hd0.1 hd
              · exact hd0.2 hd
          · rcases hd with hd | hd
            · exact hd0.1 hd
            · exact hd0.2 hd
        | remove r =>
          unfold Broker.touch at hd
          dsimp only at hd
          cases hl : (Broker.init.run es).leader r with
          | none =>
            rw [hl] at hd
            rcases hd with hd | hd
            · exact absurd hd hd0.1
            · exact absurd hd hd0.2
          | some g =>
            rw [hl] at hd
            dsimp only at hd
            unfold Stream.signal at hd
            split at hd
            · rename_i hg
              have hr : s.replica = r := hinv.own i s r hs (by rw [hl, hg.1])
              left
              refine ⟨es, [], s, by rw [hr], hs, hg.2, ?_⟩
              rw [hr, hl, hg.1]
            · rcases hd with hd | hd
              · exact absurd hd hd0.1
              · exact absurd hd hd0.2
        | ack c id o =>
          unfold Broker.touch at hd
          dsimp only at hd
          split at hd
          · rename_i hl
            rcases hd with hd | hd
            · right
              have hd : o = topicDeleted := hd
              unfold Broker.lookup at hl
              cases hf : (Broker.init.run es).table.find? (·.1 = (c, id)) with
              | none => rw [hf] at hl; cases hl
              | some x =>
                obtain ⟨k, j⟩ := x
                rw [hf] at hl
                have hm := List.mem_of_find?_eq_some hf
                have hp := List.find?_some hf
                simp at hl hp
                subst hl hp
                obtain ⟨_, s', hs', hc', _⟩ := hinv.entry c id j hm
                rw [hs] at hs'
                have := Option.some.inj hs'
                subst this
                exact ⟨id, by rw [hc', ← hd]; simp⟩
            · exact absurd hd hd0.2
          · rcases hd with hd | hd
            · exact absurd hd hd0.1
            · exact absurd hd hd0.2
        | close c =>
          exfalso
          unfold Broker.touch at hd
          dsimp only at hd
          unfold Stream.close at hd
          split at hd
          · rcases hd with hd | hd
            · exact hd0.1 hd
            · cases hd
          · rcases hd with hd | hd
            · exact hd0.1 hd
            · exact hd0.2 hd
        | register j =>
          exfalso
          unfold Broker.touch at hd
          dsimp only at hd
          split at hd
          · rcases hd with hd | hd
            · exact hd0.1 hd
            · exact hd0.2 hd
          · rcases hd with hd | hd
            · exact hd0.1 hd
            · exact hd0.2 hd
        | start c r k => exact absurd rfl (hst c r k)
        | lead r => exact absurd hd (by rw [not_or]; exact hd0)
        | demote r => exact absurd hd (by rw [not_or]; exact hd0)
        | commit c id o => exact absurd hd (by rw [not_or]; exact hd0)

/-- C88: removing one replica does nothing to streams that read another. -/
theorem C88_others_unaffected (es : List Ev) (r i : Nat) (s : Stream)
    (hs : (Broker.init.run es).streams[i]? = some s) (hr : s.replica ≠ r) :
    ((Broker.init.run es).step (.remove r)).1.streams[i]? = some s := by
  have h := Inv.init.run es
  rw [step_get _ _ i s hs]
  unfold Broker.touch
  dsimp only
  cases hl : (Broker.init.run es).leader r with
  | none => rfl
  | some g =>
    dsimp only
    unfold Stream.signal
    rw [if_neg (fun hx => hr (h.own i s r hs (by rw [hl, hx.1])))]

example : (Broker.init.run ex).streams.map Stream.replica = [5, 5, 6] := by decide

/-- C88, with what is missing: a stream that is on its leader's list when the topic is deleted is told so when
its task looks, if no acknowledgement for it arrives in between and its connection lives. -/
theorem C88_told_partial (es fs : List Ev) (i : Nat) (s : Stream)
    (hs : (Broker.init.run es).streams[i]? = some s) (hopen : s.ended = none) (hlist : s.listed = true)
    (hlead : (Broker.init.run es).leader s.replica = some s.gen)
    (hack : ∀ id o, .ack s.conn id o ∉ fs) (hclose : .close s.conn ∉ fs) :
    ∃ t, (Broker.init.run (es ++ [.remove s.replica] ++ fs ++ [.listen i])).streams[i]? = some t
      ∧ t.ended = some .deleted := by
  have hinv := Inv.init.run es
  have hfresh := hinv.fresh i s hs hopen
  rw [run_append, run_append, run_append]
  generalize hb : Broker.init.run es = b at *
  -- after the removal
  have h1 : (b.run [.remove s.replica]).streams[i]? = some { s with value := topicDeleted } := by
    have := step_get b (.remove s.replica) i s hs
    unfold Broker.touch at this
    dsimp only at this
    rw [hlead] at this
    dsimp only at this
    unfold Stream.signal at this
    rw [if_pos ⟨rfl, hlist⟩] at this
    exact this
  have hinv1 : Inv (b.run [.remove s.replica]) := hinv.run _
  generalize b.run [.remove s.replica] = b1 at *
  -- it stays so, or the stream has ended
  suffices ∀ (fs : List Ev) (b1 : Broker) (u : Stream), Inv b1 → b1.streams[i]? = some u → u.conn = s.conn →
      ((u.value = topicDeleted ∧ u.ended = none) ∨ u.ended = some .deleted) →
      (∀ id o, .ack s.conn id o ∉ fs) → .close s.conn ∉ fs →
      ∃ t, (b1.run fs).streams[i]? = some t ∧
        ((t.value = topicDeleted ∧ t.ended = none ∧ t.seen ≠ topicDeleted) ∨ t.ended = some .deleted) by
    obtain ⟨t, ht, hd⟩ := this fs b1 _ hinv1 h1 rfl (.inl ⟨rfl, hopen⟩) hack hclose
    refine ⟨_, step_get _ (.listen i) i t ht, ?_⟩
    unfold Broker.touch
    dsimp only
    rw [if_pos rfl]
    rcases hd with ⟨h2, h3, h4⟩ | h2
    · unfold Stream.listen
      rw [if_neg (by rw [h3, h2]; simp; exact fun hx => h4 hx.symm), if_pos h2]
    · unfold Stream.listen
      rw [if_pos (.inl (by rw [h2]; rfl)), h2]
  clear hack hclose h1 hinv1 b1 fs
  intro fs
  induction fs with
  | nil =>
    intro b1 u hinv hu _ hd _ _
    refine ⟨u, hu, ?_⟩
    rcases hd with ⟨h1, h2⟩ | h
    · exact .inl ⟨h1, h2, hinv.fresh i u hu h2⟩
    · exact .inr h
  | cons e fs ih =>
    intro b1 u hinv hu hc hd hack hclose
    refine ih (b1.next e) _ (hinv.step e) (step_get b1 e i u hu) ((touch_same b1 e i u).1.trans hc) ?_
      (fun id o hx => hack id o (List.mem_cons_of_mem _ hx)) (fun hx => hclose (List.mem_cons_of_mem _ hx))
    rcases hd with ⟨hv, hn⟩ | hd
    · unfold Broker.touch
      cases e with
      | listen j =>
        dsimp only
        split
        · unfold Stream.listen
          split
          · exact .inl ⟨hv, hn⟩
          · first | exact .inr rfl | (rw [if_pos hv]; exact .inr rfl) | exact absurd hv ‹_›
        · exact .inl ⟨hv, hn⟩
      | remove r =>
        dsimp only
        split
        · unfold Stream.signal
          split
          · exact .inl ⟨rfl, hn⟩
          · exact .inl ⟨hv, hn⟩
        · exact .inl ⟨hv, hn⟩
      | close c =>
        dsimp only
        unfold Stream.close
        rw [if_neg]
        · exact .inl ⟨hv, hn⟩
        · rintro ⟨hx, _⟩
          rw [hc] at hx
          exact hclose (by rw [hx]; simp)
      | register j => dsimp only; split <;> exact .inl ⟨hv, hn⟩
      | ack c id o =>
        dsimp only
        rw [if_neg]
        · exact .inl ⟨hv, hn⟩
        · intro hl
          unfold Broker.lookup at hl
          cases hf : b1.table.find? (·.1 = (c, id)) with
          | none => rw [hf] at hl; cases hl
          | some x =>
            obtain ⟨k, j⟩ := x
            rw [hf] at hl
            have hm := List.mem_of_find?_eq_some hf
            have hp := List.find?_some hf
            simp at hl hp
            subst hl hp
            obtain ⟨_, s', hs', hc', _⟩ := hinv.entry c id j hm
            rw [hu] at hs'
            have := Option.some.inj hs'
            subst this
            exact hack id o (by rw [← hc, hc']; simp)
      | _ => exact .inl ⟨hv, hn⟩
    · exact .inr ((touch_ended b1 e i u (by rw [hd]; nofun)).trans hd)

example : ∃ s, (Broker.init.run ex).streams[0]? = some s ∧ s.ended = none ∧ s.listed = true
    ∧ (Broker.init.run ex).leader s.replica = some s.gen := ⟨_, rfl, rfl, rfl, rfl⟩

/-- C88 fails: an acknowledgement that arrives between the deletion and the task's next look takes the place
of the notice, and the stream, though listed, goes on waiting. -/
theorem C88_violated_overwritten :
    let es : List Ev := [.lead 5, .start 1 5 none, .register 0, .listen 0, .remove 5, .ack 1 1 10, .listen 0]
    ∃ s, (Broker.init.run es).streams[0]? = some s ∧ s.ended = none
      ∧ (Broker.init.run es).leader s.replica = none ∧ s.value = s.seen :=
  ⟨_, rfl, rfl, rfl, rfl⟩

/-- C88 fails: a stream that has found its leader but is not yet on the list when the topic is deleted is not
told. -/
theorem C88_violated_unlisted :
    let es : List Ev := [.lead 5, .start 1 5 none, .remove 5, .register 0, .listen 0]
    ∃ s, (Broker.init.run es).streams[0]? = some s ∧ s.ended = none ∧ s.listed = true
      ∧ (Broker.init.run es).leader s.replica = none ∧ s.value = s.seen :=
  ⟨_, rfl, rfl, rfl, rfl, rfl⟩

/-- C88 fails: streams are not told when the broker stops leading the partition because another broker was
elected; they go on waiting on the state of the former leader. -/
theorem C88_violated_demoted :
    let es : List Ev := [.lead 5, .start 1 5 none, .register 0, .listen 0, .demote 5, .listen 0]
    ∃ s, (Broker.init.run es).streams[0]? = some s ∧ s.ended = none ∧ s.listed = true
      ∧ (Broker.init.run es).leader s.replica = none ∧ s.value = s.seen :=
  ⟨_, rfl, rfl, rfl, rfl, rfl⟩

/-- A stream whose leader state is gone and that has seen what there is stays as it is unless its own
connection does something: nothing else wakes it. -/
theorem C88_left_alone (es fs : List Ev) (i : Nat) (s : Stream)
    (hs : (Broker.init.run es).streams[i]? = some s) (hv : s.value = s.seen)
    (hgone : ∀ r, (Broker.init.run es).leader r ≠ some s.gen)
    (hack : ∀ id o, .ack s.conn id o ∉ fs) (hclose : .close s.conn ∉ fs) :
    ∃ t, (Broker.init.run (es ++ fs)).streams[i]? = some t ∧ t.ended = s.ended ∧ t.value = s.value := by
  rw [run_append]
  have hinv := Inv.init.run es
  generalize Broker.init.run es = b at *
  suffices ∀ (fs : List Ev) (b : Broker) (u : Stream), Inv b → b.streams[i]? = some u → u.Same s →
      u.value = u.seen → (∀ r, b.leader r ≠ some u.gen) → (∀ id o, .ack s.conn id o ∉ fs) → .close s.conn ∉ fs →
      ∃ t, (b.run fs).streams[i]? = some t ∧ t.ended = u.ended ∧ t.value = u.value from
    this fs b s hinv hs (.rfl' s) hv hgone hack hclose
  clear hs hv hgone hack hclose hinv b fs
  intro fs
  induction fs with
  | nil => intro b u _ hu _ _ _ _ _; exact ⟨u, hu, rfl, rfl⟩
  | cons e fs ih =>
    intro b u hinv hu hsame hv hg hack hclose
    have key : ∃ t, b.touch e i u = t ∧ t.ended = u.ended ∧ t.value = u.value ∧ t.seen = u.seen := by
      refine ⟨_, rfl, ?_⟩
      unfold Broker.touch
      cases e with
      | listen j =>
        dsimp only
        split
        · unfold Stream.listen; rw [if_pos (.inr hv)]; exact ⟨rfl, rfl, rfl⟩
        · exact ⟨rfl, rfl, rfl⟩
      | remove r =>
        dsimp only
        split
        · rename_i g hl
          unfold Stream.signal
          rw [if_neg (fun hx => hg r (by rw [hl, hx.1]))]
          exact ⟨rfl, rfl, rfl⟩
        · exact ⟨rfl, rfl, rfl⟩
      | close c =>
        dsimp only
        unfold Stream.close
        rw [if_neg]
        · exact ⟨rfl, rfl, rfl⟩
        · rintro ⟨hx, _⟩
          exact hclose (by rw [hsame.1, hx]; simp)
      | register j => dsimp only; split <;> exact ⟨rfl, rfl, rfl⟩
      | ack c id o =>
        dsimp only
        rw [if_neg]
        · exact ⟨rfl, rfl, rfl⟩
        · intro hl
          unfold Broker.lookup at hl
          cases hf : b.table.find? (·.1 = (c, id)) with
          | none => rw [hf] at hl; cases hl
          | some x =>
            obtain ⟨k, j⟩ := x
            rw [hf] at hl
            have hm := List.mem_of_find?_eq_some hf
            have hp := List.find?_some hf
            simp at hl hp
            subst hl hp
            obtain ⟨_, s', hs', hc', _⟩ := hinv.entry c id j hm
            rw [hu] at hs'
            have := Option.some.inj hs'
            subst this
            exact hack id o (by rw [hsame.1, hc']; simp)
      | _ => exact ⟨rfl, rfl, rfl⟩
    obtain ⟨t, ht, h1, h2, h3⟩ := key
    have hget := step_get b e i u hu
    have hts := touch_same b e i u
    rw [ht] at hget hts
    have hg' : ∀ r, (b.next e).leader r ≠ some t.gen := by
      intro r hr
      rw [hts.2.2.2.1] at hr
      by_cases hst : ∃ c r k, e = .start c r k
      · obtain ⟨c, r', k, rfl⟩ := hst
        refine hg r ?_
        unfold Broker.next Broker.step at hr
        dsimp only at hr
        split at hr
        · exact hr
        · split at hr <;> exact hr
      · obtain ⟨_, _, hl⟩ := step_tables b e (fun c r k hx => hst ⟨c, r, k, hx⟩)
        rcases hl with ⟨x, rfl⟩ | ⟨_, h2⟩
        · have hr : setLeader b.leader x (some b.gens) r = some u.gen := hr
          unfold setLeader at hr
          split at hr
          · simp at hr
            have := hinv.sgens i u hu
            omega
          · exact hg r hr
        · exact hg r (h2 r _ hr)
    obtain ⟨w, hw, h4, h5⟩ := ih (b.next e) t (hinv.step e) hget
      ⟨hsame.1.trans hts.1.symm, hsame.2.1.trans hts.2.1.symm, hsame.2.2.1.trans hts.2.2.1.symm,
        hsame.2.2.2.1.trans hts.2.2.2.1.symm, hsame.2.2.2.2.trans hts.2.2.2.2.symm⟩
      (by rw [h2, h3]; exact hv) hg'
      (fun id o hx => hack id o (List.mem_cons_of_mem _ hx)) (fun hx => hclose (List.mem_cons_of_mem _ hx))
    exact ⟨w, hw, h4.trans h1, h5.trans h2⟩

/-- So the stream of the demoted broker waits until the consumer gives up. -/
theorem C88_violated_demoted_forever (fs : List Ev) (hack : ∀ id o, .ack 1 id o ∉ fs) (hclose : .close 1 ∉ fs) :
    ∃ t, (Broker.init.run ([.lead 5, .start 1 5 none, .register 0, .listen 0, .demote 5] ++ fs)).streams[0]?
      = some t ∧ t.ended = none ∧ t.value = initOffset := by
  refine C88_left_alone [.lead 5, .start 1 5 none, .register 0, .listen 0, .demote 5] fs 0
    ⟨1, 1, 5, 0, none, -1, -1, true, none⟩ (by decide) rfl ?_ hack hclose
  intro r
  show setLeader (setLeader (fun _ => none) 5 (some 0)) 5 none r ≠ _
  unfold setLeader
  split
  · nofun
  · nofun

end Verif.Props
