import Verif.Producer.Accumulator

/-!
# Invariant of the producer's queue
-/

namespace Verif.Producer
open Verif.Wire

/-- **Specification.** What the user gave: everything of a record except the two deltas, which the
producer fills in. -/
def payload (r : Record) : BitVec 8 × Option Bytes × Bytes × BitVec 64 :=
  (r.preamble.attributes, r.key, r.value, r.headers)

theorem payload_setDeltas (r : Record) (o : Nat) (e : Int) : payload (setDeltas r o e) = payload r := rfl

/-- **Specification.** The contents of a batch: payload, batch, position. -/
def PBatch.slots (b : PBatch) : List ((BitVec 8 × Option Bytes × Bytes × BitVec 64) × Nat × Nat) :=
  b.mem.records.zipIdx.map fun x => (payload x.1, b.id, x.2)

/-- **Specification.** The accepted pushes, in order: payload and reported batch and position. -/
def accepted (out : List (Record × PushRes)) :
    List ((BitVec 8 × Option Bytes × Bytes × BitVec 64) × Nat × Nat) :=
  out.filterMap fun o => match o.2 with
    | .ok b i => some (payload o.1, b, i)
    | _ => none

theorem accepted_append (l m : List (Record × PushRes)) : accepted (l ++ m) = accepted l ++ accepted m := by
  simp [accepted]

structure MemOk (c : AccCfg) (m : MemoryBatch) : Prop where
  limits : m.batchLimit = c.batchSize ∧ m.writeLimit = c.maxRequest ∧ m.compression = c.compression
  size : m.currentSize = memC.size m.records
  deltas : ∀ i r, m.records[i]? = some r → r.preamble.offsetDelta = BitVec.ofNat 64 i
  write : m.records ≠ [] → m.rawSize ≤ c.maxRequest
  batch : 1 < m.records.length → m.rawSize ≤ c.batchSize

theorem MemOk.new (c : AccCfg) (now : Int) :
    MemOk c (MemoryBatch.new c.maxRequest c.batchSize c.compression now) where
  limits := ⟨rfl, rfl, rfl⟩
  size := rfl
  deltas := by intro i r h; simp [MemoryBatch.new] at h
  write := by intro h; exact absurd rfl h
  batch := by intro h; simp [MemoryBatch.new] at h

theorem memC_size_append (rs : List Record) (r : Record) :
    memC.size (rs ++ [r]) = memC.size rs + recordC.size r := by
  simp [memC, vecC]

/-- What pushing does. -/
theorem MemOk.push {c : AccCfg} {m : MemoryBatch} (h : MemOk c m) (r : Record) (now : Int) :
    MemOk c (m.push r now).1 ∧ (m.push r now).1.created = m.created ∧
    (((m.push r now).2 = .added m.records.length ∧
        (m.push r now).1.records = m.records ++ [setDeltas r m.records.length (m.elapsed now)]) ∨
     ((m.push r now).2 = .notAdded ∧ (m.push r now).1.records = m.records ∧ m.records ≠ [] ∧
        (m.push r now).1.fullFlag = true) ∨
     ((m.push r now).2 = .tooLarge ∧ (m.push r now).1.records = m.records ∧
        c.maxRequest < m.rawSize + recordC.size (setDeltas r m.records.length (m.elapsed now)))) := by
  obtain ⟨hb, hw, hc⟩ := h.limits
  have hfull : MemOk c { m with fullFlag := true } :=
    ⟨h.limits, h.size, h.deltas, h.write, h.batch⟩
  unfold MemoryBatch.push
  dsimp only
  by_cases h1 : m.rawSize + recordC.size (setDeltas r m.records.length (m.elapsed now)) > m.writeLimit
  · rw [if_pos h1]
    exact ⟨hfull, rfl, .inr (.inr ⟨rfl, rfl, by rw [← hw]; exact h1⟩)⟩
  · rw [if_neg h1]
    by_cases h2 : ¬m.records.length = 0 ∧
        m.rawSize + recordC.size (setDeltas r m.records.length (m.elapsed now)) > m.batchLimit
    · rw [if_pos h2]
      refine ⟨hfull, rfl, .inr (.inl ⟨rfl, rfl, ?_, rfl⟩)⟩
      intro hn; exact h2.1 (by rw [hn]; rfl)
    · rw [if_neg h2]
      refine ⟨?_, rfl, .inl ⟨rfl, rfl⟩⟩
      generalize hr : setDeltas r m.records.length (m.elapsed now) = r' at *
      have hraw : ∀ f, ({ m with
          fullFlag := f
          currentSize := m.currentSize + recordC.size r'
          records := m.records ++ [r'] } : MemoryBatch).rawSize = m.rawSize + recordC.size r' := by
        intro f; unfold MemoryBatch.rawSize; dsimp only; omega
      refine ⟨h.limits, ?_, ?_, ?_, ?_⟩
      · show m.currentSize + recordC.size r' = _
        rw [memC_size_append, h.size]
      · intro i x hx
        have hx : (m.records ++ [r'])[i]? = some x := hx
        rw [List.getElem?_append] at hx
        split at hx
        · exact h.deltas i x hx
        · have hi : i - m.records.length = 0 := by
            rcases Nat.eq_zero_or_pos (i - m.records.length) with h0 | h0
            · exact h0
            · rw [List.getElem?_eq_none (by simp; omega)] at hx; cases hx
          rw [hi] at hx
          have hxr : r' = x := by simpa using hx
          have hi' : i = m.records.length := by omega
          rw [← hxr, ← hr, hi']; rfl
      · intro _
        rw [hraw, ← hw]; omega
      · intro hl
        have hl : 1 < (m.records ++ [r']).length := hl
        rw [List.length_append] at hl
        rw [hraw, ← hb]
        have hne : ¬ m.records.length = 0 := by
          have e1 : [r'].length = 1 := rfl
          omega
        have : ¬ (m.rawSize + recordC.size r' > m.batchLimit) := fun hh => h2 ⟨hne, hh⟩
        omega

structure AccOk (c : AccCfg) (a : Acc) (out : List (Record × PushRes)) : Prop where
  mem : ∀ b ∈ a.sent ++ a.queue, MemOk c b.mem
  nonempty : ∀ b ∈ a.sent ++ a.queue, b.mem.records ≠ []
  ids : ∀ b ∈ a.sent ++ a.queue, b.id < a.nextId
  nodup : ((a.sent ++ a.queue).map PBatch.id).Nodup
  slots : (a.sent ++ a.queue).flatMap PBatch.slots = accepted out

theorem AccOk.init (c : AccCfg) : AccOk c Acc.init [] where
  mem := by intro b h; simp [Acc.init] at h
  nonempty := by intro b h; simp [Acc.init] at h
  ids := by intro b h; simp [Acc.init] at h
  nodup := by simp [Acc.init]
  slots := rfl

theorem push_new_spec (c : AccCfg) (r : Record) (now now' : Int) :
    let m0 := MemoryBatch.new c.maxRequest c.batchSize c.compression now
    ((m0.push r now').2 = .added 0 ∧ MemOk c (m0.push r now').1 ∧
      (m0.push r now').1.records = [setDeltas r 0 (m0.elapsed now')]) ∨
    ((m0.push r now').2 = .tooLarge ∧
      c.maxRequest < m0.rawSize + recordC.size (setDeltas r 0 (m0.elapsed now'))) := by
  intro m0
  obtain ⟨h1, _, h2⟩ := (MemOk.new c now).push r now'
  rcases h2 with ⟨h2, h3⟩ | ⟨_, _, h3, _⟩ | ⟨h2, _, h3⟩
  · exact .inl ⟨h2, h1, h3⟩
  · exact absurd rfl h3
  · exact .inr ⟨h2, h3⟩

/-- A batch is created for the record unless it is too large on its own; the other branch of
`create_and_new_batch` is never taken. -/
theorem createAndNewBatch_spec (c : AccCfg) (r : Record) (now now' : Int) (k : Nat) (a : Acc) :
    (∃ m, MemOk c m ∧ m.records.length = 1 ∧ m.records.map payload = [payload r] ∧
      createAndNewBatch c r now now' (k + 1) a =
        ({ a with queue := a.queue ++ [⟨a.nextId, m⟩], nextId := a.nextId + 1 }, .ok a.nextId 0)) ∨
    (createAndNewBatch c r now now' (k + 1) a = ({ a with nextId := a.nextId + 1 }, .tooLarge) ∧
      c.maxRequest < (MemoryBatch.new c.maxRequest c.batchSize c.compression now).rawSize +
        recordC.size (setDeltas r 0 (max 0 (now' - now)))) := by
  have h := push_new_spec c r now now'
  dsimp only at h
  unfold createAndNewBatch
  rcases h with ⟨h1, h2, h3⟩ | ⟨h1, h2⟩
  · left
    generalize (MemoryBatch.new c.maxRequest c.batchSize c.compression now).push r now' = res at *
    obtain ⟨m, st⟩ := res
    dsimp only at h1 h2 h3
    subst h1
    refine ⟨m, h2, by rw [h3]; rfl, by rw [h3]; rfl, rfl⟩
  · right
    refine ⟨?_, h2⟩
    generalize (MemoryBatch.new c.maxRequest c.batchSize c.compression now).push r now' = res at *
    obtain ⟨m, st⟩ := res
    dsimp only at h1
    subst h1
    rfl

theorem slots_of_map {m : MemoryBatch} {id : Nat} {r : Record} (h : m.records.map payload = [payload r]) :
    PBatch.slots ⟨id, m⟩ = [(payload r, id, 0)] := by
  unfold PBatch.slots
  dsimp only
  generalize m.records = l at *
  cases l with
  | nil => simp at h
  | cons x l =>
    cases l with
    | nil =>
      have : payload x = payload r := by simpa using h
      simp [this]
    | cons y l => simp at h

theorem AccOk.addBatch {c : AccCfg} {a : Acc} {out : List (Record × PushRes)} (h : AccOk c a out)
    {r : Record} {m : MemoryBatch} (hm : MemOk c m) (hl : m.records.length = 1)
    (hp : m.records.map payload = [payload r]) :
    AccOk c { a with queue := a.queue ++ [⟨a.nextId, m⟩], nextId := a.nextId + 1 }
      (out ++ [(r, .ok a.nextId 0)]) := by
  have hmem : ∀ b, b ∈ a.sent ++ (a.queue ++ [⟨a.nextId, m⟩]) → b ∈ a.sent ++ a.queue ∨ b = ⟨a.nextId, m⟩ := by
    intro b hb
    simp only [List.mem_append, List.mem_singleton] at hb ⊢
    rcases hb with h | h | h
    · exact .inl (.inl h)
    · exact .inl (.inr h)
    · exact .inr h
  refine ⟨?_, ?_, ?_, ?_, ?_⟩
  · intro b hb
    rcases hmem b hb with hb | rfl
    · exact h.mem b hb
    · exact hm
  · intro b hb
    rcases hmem b hb with hb | rfl
    · exact h.nonempty b hb
    · intro hn; rw [hn] at hl; cases hl
  · intro b hb
    rcases hmem b hb with hb | rfl
    · exact Nat.lt_succ_of_lt (h.ids b hb)
    · exact Nat.lt_succ_self _
  · show ((a.sent ++ (a.queue ++ [(⟨a.nextId, m⟩ : PBatch)])).map PBatch.id).Nodup
    rw [← List.append_assoc, List.map_append, List.nodup_append]
    refine ⟨h.nodup, by simp, ?_⟩
    intro x hx y hy
    obtain ⟨b, hb, rfl⟩ := List.mem_map.1 hx
    have : y = a.nextId := by simpa using hy
    have := h.ids b hb
    omega
  · show (a.sent ++ (a.queue ++ [(⟨a.nextId, m⟩ : PBatch)])).flatMap PBatch.slots = _
    rw [← List.append_assoc, List.flatMap_append, h.slots, accepted_append]
    congr 1
    rw [List.flatMap_cons, List.flatMap_nil, List.append_nil, slots_of_map hp]
    rfl

theorem setLast_append (q : List PBatch) (b : PBatch) (m : MemoryBatch) :
    setLast (q ++ [b]) m = q ++ [{ b with mem := m }] := by
  unfold setLast; simp

/-- Replacing the last batch. -/
theorem AccOk.replaceLast {c : AccCfg} {a : Acc} {out : List (Record × PushRes)} (h : AccOk c a out)
    {q : List PBatch} {b : PBatch} (hq : a.queue = q ++ [b]) {m : MemoryBatch} (hm : MemOk c m)
    (hne : m.records ≠ []) {o : List (Record × PushRes)}
    (hs : PBatch.slots ⟨b.id, m⟩ = b.slots ++ accepted o) :
    AccOk c { a with queue := setLast a.queue m } (out ++ o) := by
  have e : a.sent ++ setLast a.queue m = (a.sent ++ q) ++ [⟨b.id, m⟩] := by
    rw [hq, setLast_append, List.append_assoc]
  have e0 : a.sent ++ a.queue = (a.sent ++ q) ++ [b] := by rw [hq, List.append_assoc]
  have hmem : ∀ x, x ∈ a.sent ++ setLast a.queue m → x ∈ a.sent ++ a.queue ∨ x = ⟨b.id, m⟩ := by
    intro x hx
    rw [e] at hx
    rw [e0]
    rcases List.mem_append.1 hx with h | h
    · exact .inl (List.mem_append_left _ h)
    · exact .inr (by simpa using h)
  have hb : b ∈ a.sent ++ a.queue := by rw [e0]; simp
  refine ⟨?_, ?_, ?_, ?_, ?_⟩
  · intro x hx
    rcases hmem x hx with hx | rfl
    · exact h.mem x hx
    · exact hm
  · intro x hx
    rcases hmem x hx with hx | rfl
    · exact h.nonempty x hx
    · exact hne
  · intro x hx
    rcases hmem x hx with hx | rfl
    · exact h.ids x hx
    · exact h.ids b hb
  · show ((a.sent ++ setLast a.queue m).map PBatch.id).Nodup
    have := h.nodup
    rw [e0, List.map_append] at this
    rw [e, List.map_append]
    exact this
  · show (a.sent ++ setLast a.queue m).flatMap PBatch.slots = _
    have hh := h.slots
    rw [e0, List.flatMap_append, List.flatMap_cons, List.flatMap_nil, List.append_nil] at hh
    rw [e, List.flatMap_append, List.flatMap_cons, List.flatMap_nil, List.append_nil, hs, accepted_append,
      ← List.append_assoc, hh]

theorem AccOk.reject {c : AccCfg} {a : Acc} {out : List (Record × PushRes)} (h : AccOk c a out)
    {n : Nat} (hn : a.nextId ≤ n) {o : List (Record × PushRes)} (ho : accepted o = []) :
    AccOk c { a with nextId := n } (out ++ o) :=
  ⟨h.mem, h.nonempty, fun b hb => Nat.lt_of_lt_of_le (h.ids b hb) hn, h.nodup, by
    rw [accepted_append, ho, List.append_nil]; exact h.slots⟩

theorem slots_added (id : Nat) (m m' : MemoryBatch) (r r' : Record) (h : m'.records = m.records ++ [r'])
    (hp : payload r' = payload r) :
    PBatch.slots ⟨id, m'⟩ = PBatch.slots ⟨id, m⟩ ++ accepted [(r, .ok id m.records.length)] := by
  unfold PBatch.slots
  dsimp only
  rw [h, List.zipIdx_append, List.map_append]
  simp [hp, accepted]

theorem AccOk.push {c : AccCfg} {a : Acc} {out : List (Record × PushRes)} (h : AccOk c a out)
    (r : Record) (now now' : Int) :
    AccOk c (a.push c r now now').1 (out ++ [(r, (a.push c r now now').2)]) := by
  unfold Acc.push
  rcases List.eq_nil_or_concat a.queue with hq | ⟨q, b, hq⟩
  · have e : a.queue.getLast? = none := by rw [hq]; rfl
    rw [e]
    dsimp only
    rcases createAndNewBatch_spec c r now now' 1 a with ⟨m, hm, hl, hp, he⟩ | ⟨he, _⟩
    · rw [he]; exact h.addBatch hm hl hp
    · rw [he]; exact h.reject (Nat.le_succ _) rfl
  · rw [List.concat_eq_append] at hq
    have e : a.queue.getLast? = some b := by rw [hq]; simp
    rw [e]
    dsimp only
    have hbm : b ∈ a.sent ++ a.queue := by rw [hq]; simp
    obtain ⟨h1, _, h2⟩ := (h.mem b hbm).push r now
    have hne := h.nonempty b hbm
    generalize hres : b.mem.push r now = res at *
    obtain ⟨m, st⟩ := res
    dsimp only at h1 h2
    rcases h2 with ⟨rfl, h3⟩ | ⟨rfl, h3, _⟩ | ⟨rfl, h3, _⟩
    · dsimp only
      exact h.replaceLast hq h1 (by rw [h3]; simp) (slots_added b.id b.mem m r _ h3 rfl)
    · dsimp only
      have h' := h.replaceLast hq h1 (by rw [h3]; exact hne) (o := []) (by
        show PBatch.slots ⟨b.id, m⟩ = b.slots ++ []
        unfold PBatch.slots; dsimp only; rw [h3, List.append_nil])
      rw [List.append_nil] at h'
      rcases createAndNewBatch_spec c r now now' 1 { a with queue := setLast a.queue m } with
        ⟨m', hm, hl, hp, he⟩ | ⟨he, _⟩
      · rw [he]; exact h'.addBatch hm hl hp
      · rw [he]; exact h'.reject (Nat.le_succ _) rfl
    · dsimp only
      exact h.replaceLast hq h1 (by rw [h3]; exact hne) (by
        unfold PBatch.slots; dsimp only; rw [h3]; simp [accepted])

theorem takeReady_append (f : Bool) (l now : Int) : ∀ q : List PBatch,
    (takeReady f l now q).1 ++ (takeReady f l now q).2 = q
  | [] => rfl
  | b :: q => by
    unfold takeReady
    split
    · dsimp only
      rw [List.cons_append, takeReady_append f l now q]
    · rfl

theorem drain_all (a : Acc) (f : Bool) (l now : Int) :
    (a.drain f l now).1.sent ++ (a.drain f l now).1.queue = a.sent ++ a.queue := by
  show a.sent ++ (takeReady f l now a.queue).1 ++ (takeReady f l now a.queue).2 = _
  rw [List.append_assoc, takeReady_append]

theorem AccOk.drain {c : AccCfg} {a : Acc} {out : List (Record × PushRes)} (h : AccOk c a out)
    (f : Bool) (l now : Int) : AccOk c (a.drain f l now).1 out := by
  have e := drain_all a f l now
  have en : (a.drain f l now).1.nextId = a.nextId := rfl
  exact ⟨by rw [e]; exact h.mem, by rw [e]; exact h.nonempty, by rw [e, en]; exact h.ids,
    by rw [e]; exact h.nodup, by rw [e]; exact h.slots⟩

theorem AccOk.step {c : AccCfg} {a : Acc} {out : List (Record × PushRes)} (h : AccOk c a out) (e : AccEv) :
    AccOk c (a.step c e).1 (out ++ (a.step c e).2.toList) := by
  cases e with
  | push r now now' => exact h.push r now now'
  | pushTimeout r =>
    exact h.reject (Nat.le_refl _) rfl
  | flush f l now =>
    show AccOk c (a.drain f l now).1 (out ++ [])
    rw [List.append_nil]; exact h.drain f l now

theorem AccOk.run {c : AccCfg} : ∀ (evs : List AccEv) (a : Acc) (out : List (Record × PushRes)),
    AccOk c a out → AccOk c (a.run c evs).1 (out ++ (a.run c evs).2)
  | [], a, out, h => by simpa [Acc.run] using h
  | e :: evs, a, out, h => by
    have := AccOk.run evs _ _ (h.step e)
    rw [List.append_assoc] at this
    exact this

end Verif.Producer
