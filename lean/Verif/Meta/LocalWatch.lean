import Verif.Meta.LocalInv
import Verif.Meta.Sync

/-!
# From the local metadata storage to the dispatcher's cache

One kind of objects.  Writers (any number of tasks, among them the dispatcher of this kind itself) change
the storage under its lock, and after that send the change to the queue that the dispatcher reads
(`SpecStore::apply`, `delete_item`, `send_update`).  The dispatcher
(`fluvio-stream-dispatcher/src/dispatcher/metadata.rs`) keeps a cache, the `LocalStore` of
`Verif.Meta.Store` that the controller works with.
-/

namespace Verif.Meta.Local

set_option linter.unusedSectionVars false

variable {K Sp St : Type} [DecidableEq K] [DecidableEq Sp] [DecidableEq St]

abbrev Cache (K Sp St : Type) := Store K Sp St (Item K)
abbrev LChg (K Sp St : Type) := Chg K Sp St (Item K)

/-- Where the dispatcher is. -/
inductive Phase (K Sp St : Type) where
  /-- waiting in `select!` — metadata.rs:118-160 -/
  | idle
  /-- in `process_ws_action` — metadata.rs:195-303 -/
  | busy
  /-- `update_status` has returned this object — metadata.rs:229-242 -/
  | holding (o : LObj K Sp St)
  /-- at the beginning of `retrieve_items` — local.rs:413-416 -/
  | listing
  /-- it has read the version — local.rs:417-420 -/
  | stamped (v : Nat)
  /-- it has read the objects — local.rs:421-428 -/
  | listed (v : Nat) (l : List (LObj K Sp St))

/-- The storage of one kind (`SpecStore`, local.rs:284-290) and its dispatcher (metadata.rs:36-45).
A change that has been written and not yet sent carries whether the dispatcher itself is sending it. -/
structure Watch (K Sp St : Type) where
  data : Data K Sp St
  version : Nat
  /-- written, `send_update` not yet begun -/
  written : List (Bool × LChg K Sp St)
  /-- version taken, not yet in the queue — local.rs:529-531 -/
  sending : List (Nat × Bool × LChg K Sp St)
  queue : List (Nat × LChg K Sp St)
  cache : Cache K Sp St
  /-- the version that the watch stream was opened with — local.rs:503-513 -/
  since : Nat
  phase : Phase K Sp St

/-- After loading the files. -/
def Watch.init (d : Data K Sp St) : Watch K Sp St := ⟨d, 0, [], [], [], Store.init, 0, .listing⟩

/-- `MAX_UPDATES_CAPACITY` — local.rs:119 -/
def capacity : Nat := 100

/-- The list has exactly the objects that are stored (the values of a map, in any order). -/
def Lists (l : List (LObj K Sp St)) (d : Data K Sp St) : Prop :=
  (l.map (·.key)).Nodup ∧ ∀ k o, d k = some o ↔ o ∈ l ∧ o.key = k

/-- The dispatcher has nothing left to send. -/
def Watch.sent (w : Watch K Sp St) : Prop :=
  (∀ p ∈ w.written, p.1 = false) ∧ ∀ p ∈ w.sending, p.2.1 = false

/-- A step.  `order` says that changes are numbered and sent in the order in which they were written,
`clean` that a listing never has an older revision of an object than the cache. -/
inductive Watch.Step (order clean : Prop) : Watch K Sp St → Watch K Sp St → Prop
  /-- the block under the lock in `SpecStore::apply` — local.rs:475-491 -/
  | write {w : Watch K Sp St} (own : Bool) (o o' : LObj K Sp St) (hp : own = true → w.phase = .busy)
      (h : accept w.data o = some o') :
      Step order clean w
        { w with data := w.data.set o.key (some o'), written := w.written ++ [(own, .mod o')] }
  /-- the block under the lock in `SpecStore::delete_item` — local.rs:452-462 -/
  | remove {w : Watch K Sp St} (own : Bool) (k : K) (hp : own = true → w.phase = .busy)
      (h : (w.data k).isSome = true) :
      Step order clean w
        { w with data := w.data.set k none, written := w.written ++ [(own, .del k)] }
  /-- `fetch_add` in `send_update` — local.rs:529-532 -/
  | stamp {w : Watch K Sp St} (i : Nat) (p : Bool × LChg K Sp St) (h : w.written[i]? = some p)
      (ho : order → i = 0) :
      Step order clean w { w with version := w.version + 1, written := w.written.eraseIdx i,
                                  sending := w.sending ++ [(w.version, p)] }
  /-- the end of `send` — local.rs:534; it waits while the queue is full -/
  | send {w : Watch K Sp St} (i : Nat) (p : Nat × Bool × LChg K Sp St) (h : w.sending[i]? = some p)
      (ho : order → i = 0) (hc : w.queue.length < capacity) :
      Step order clean w
        { w with sending := w.sending.eraseIdx i, queue := w.queue ++ [(p.1, p.2.2)] }
  /-- a change from the watch stream, if it is not filtered out — metadata.rs:128-138, local.rs:504-511 -/
  | recv {w : Watch K Sp St} (p : Nat × LChg K Sp St) (q : List (Nat × LChg K Sp St))
      (hp : w.phase = .idle) (h : w.queue = p :: q) :
      Step order clean w
        { w with queue := q,
                 cache := if w.since ≤ p.1 then w.cache.applyChanges newer [p.2] else w.cache }
  /-- an action from the controller arrives — metadata.rs:146-151 -/
  | act {w : Watch K Sp St} (hp : w.phase = .idle) : Step order clean w { w with phase := .busy }
  /-- the action ends — metadata.rs:195-303 -/
  | finish {w : Watch K Sp St} (hp : w.phase = .busy) (hs : w.sent) :
      Step order clean w { w with phase := .idle }
  /-- the action is a status update, and the object is read after it — local.rs:245 -/
  | retrieve {w : Watch K Sp St} (k : K) (o : LObj K Sp St) (hp : w.phase = .busy) (hs : w.sent)
      (h : w.data k = some o) :
      Step order clean w { w with phase := .holding o }
  /-- and put into the cache — metadata.rs:241-242 -/
  | keep {w : Watch K Sp St} (o : LObj K Sp St) (hp : w.phase = .holding o) :
      Step order clean w
        { w with phase := .idle, cache := w.cache.applyChanges newer [.mod o] }
  /-- the timer of the reconciliation loop — metadata.rs:123-126 -/
  | timer {w : Watch K Sp St} (hp : w.phase = .idle) : Step order clean w { w with phase := .listing }
  /-- local.rs:417-420 -/
  | version {w : Watch K Sp St} (hp : w.phase = .listing) :
      Step order clean w { w with phase := .stamped w.version }
  /-- local.rs:421-428 -/
  | list {w : Watch K Sp St} (v : Nat) (l : List (LObj K Sp St)) (hp : w.phase = .stamped v)
      (hl : Lists l w.data) :
      Step order clean w { w with phase := .listed v l }
  /-- `sync_all`, and a new watch stream since that version — metadata.rs:189, 116 -/
  | sync {w : Watch K Sp St} (v : Nat) (l : List (LObj K Sp St)) (hp : w.phase = .listed v l)
      (hc : clean → ∀ o ∈ l, ∀ c, w.cache.content o.key = some c → c.item.rev ≤ o.item.rev) :
      Step order clean w { w with phase := .idle, since := v, cache := w.cache.syncAll newer l }

/-- Any number of steps. -/
inductive Watch.Steps (order clean : Prop) : Watch K Sp St → Watch K Sp St → Prop
  | refl (w : Watch K Sp St) : Steps order clean w w
  | tail {u v w : Watch K Sp St} (a : Steps order clean u v) (b : Watch.Step order clean v w) :
      Steps order clean u w

/-! ### The cache -/

/-- What one change of its key does to an object of the cache. -/
def merge1 : Option (LObj K Sp St) → Option (LObj K Sp St) → Option (LObj K Sp St)
  | _, none => none
  | none, some o => some o
  | some x, some o => if newer x.item o.item then some x else some o

theorem merge1_le {x o : LObj K Sp St} (h : x.item.rev ≤ o.item.rev) :
    merge1 (some x) (some o) = some o := by
  show (if newer x.item o.item then some x else some o) = some o
  rw [if_neg]
  unfold newer
  simpa using h

theorem content_update_any (s : Cache K Sp St) (o : LObj K Sp St) (k : K) :
    (s.update newer o).1.content k = if k = o.key then merge1 (s.content k) (some o) else s.content k := by
  cases hf : s.find o.key with
  | none =>
    rw [content_update o (fun old h => by rw [hf] at h; cases h)]
    show (if k = o.key then some o else s.content k) = _
    by_cases e : k = o.key
    · subst e
      rw [if_pos rfl, if_pos rfl]
      unfold Store.content
      rw [hf]
      rfl
    · rw [if_neg e, if_neg e]
  | some old =>
    cases hn : newer old.obj.item o.item with
    | false =>
      rw [content_update o (fun x h => by rw [hf] at h; cases h; exact hn)]
      show (if k = o.key then some o else s.content k) = _
      by_cases e : k = o.key
      · subst e
        rw [if_pos rfl, if_pos rfl]
        unfold Store.content
        rw [hf]
        show _ = if newer old.obj.item o.item then some old.obj else some o
        rw [hn]
        rfl
      · rw [if_neg e, if_neg e]
    | true =>
      have : (s.update newer o).1 = s := by
        unfold Store.update
        rw [hf]
        have hd : old.obj.diff newer o = ⟨false, false, false⟩ := by
          unfold Obj.diff
          rw [hn]; rfl
        dsimp only
        rw [hd]
        rfl
      rw [this]
      by_cases e : k = o.key
      · subst e
        rw [if_pos rfl]
        unfold Store.content
        rw [hf]
        show _ = if newer old.obj.item o.item then some old.obj else some o
        rw [hn]
        rfl
      · rw [if_neg e]

theorem content_applyChanges_one (s : Cache K Sp St) (c : LChg K Sp St) (k : K) :
    (s.applyChanges newer [c]).content k =
      match c with
      | .mod o => if k = o.key then merge1 (s.content k) (some o) else s.content k
      | .del j => if k = j then none else s.content k := by
  have h : (s.applyChanges newer [c]).content = (Store.applyOne newer (s.bump, false) c).1.content := by
    unfold Store.applyChanges
    dsimp only [List.foldl]
    split <;> rfl
  rw [h]
  cases c with
  | mod o =>
    rw [applyOne_fst_update, content_update_any]
    rfl
  | del j =>
    show (s.bump.remove j).content k = _
    rw [content_remove]
    rfl

theorem content_updates (l : List (LObj K Sp St)) : ∀ (s : Cache K Sp St), (l.map (·.key)).Nodup → ∀ k,
    (l.foldl (fun s o => (s.update newer o).1) s).content k =
      match l.find? (fun o => decide (o.key = k)) with
      | some o => merge1 (s.content k) (some o)
      | none => s.content k := by
  induction l with
  | nil => intro s _ k; rfl
  | cons o l ih =>
    intro s hn k
    simp only [List.map_cons, List.nodup_cons] at hn
    rw [List.foldl_cons, ih _ hn.2]
    by_cases e : o.key = k
    · have : l.find? (fun o => decide (o.key = k)) = none := by
        rw [List.find?_eq_none]
        intro x hx
        simp only [decide_eq_true_eq]
        rintro hxk
        exact hn.1 (List.mem_map.2 ⟨x, hx, hxk.trans e.symm⟩)
      rw [this, List.find?_cons_of_pos (by simpa using e)]
      dsimp only
      rw [content_update_any, if_pos e.symm]
    · rw [List.find?_cons_of_neg (by simpa using e)]
      have : (s.update newer o).1.content k = s.content k := by
        rw [content_update_any, if_neg (Ne.symm e)]
      cases l.find? (fun o => decide (o.key = k)) <;> dsimp only <;> rw [this]

theorem content_removes (l : List K) : ∀ (s : Cache K Sp St) (k : K),
    (l.foldl Store.remove s).content k = if k ∈ l then none else s.content k := by
  induction l with
  | nil => intro s k; simp
  | cons j l ih =>
    intro s k
    rw [List.foldl_cons, ih, content_remove]
    show (if k ∈ l then none else if k = j then none else s.content k) = _
    by_cases h1 : k ∈ l
    · rw [if_pos h1, if_pos (List.mem_cons_of_mem _ h1)]
    · rw [if_neg h1]
      by_cases h2 : k = j
      · rw [if_pos h2, if_pos (by rw [h2]; exact List.mem_cons_self)]
      · rw [if_neg h2, if_neg (by simp [h1, h2])]

theorem content_sync (s : Cache K Sp St) {l : List (LObj K Sp St)} {d : Data K Sp St} (hl : Lists l d)
    (hc : ∀ o ∈ l, ∀ c, s.content o.key = some c → c.item.rev ≤ o.item.rev) (k : K) :
    (s.syncAll newer l).content k = d k := by
  unfold Store.syncAll
  show ((_ : List K).foldl Store.remove _).content k = _
  rw [content_removes, content_updates _ _ hl.1]
  have hb : s.bump.content k = s.content k := rfl
  rw [hb]
  cases hf : l.find? (fun o => decide (o.key = k)) with
  | some o =>
    have ho := List.mem_of_find?_eq_some hf
    have hk : o.key = k := by simpa using List.find?_some hf
    rw [(hl.2 k o).2 ⟨ho, hk⟩, if_neg]
    · dsimp only
      cases hs : s.content k with
      | none => rfl
      | some c =>
        have := hc o ho c (by rw [hk]; exact hs)
        exact merge1_le this
    · intro h
      have := (List.mem_filter.1 h).2
      simp only [decide_eq_true_eq] at this
      exact this (List.mem_map.2 ⟨o, ho, hk⟩)
  | none =>
    dsimp only
    have hd : d k = none := by
      cases hx : d k with
      | none => rfl
      | some x =>
        have := (hl.2 k x).1 hx
        have h2 := List.find?_eq_none.1 hf x this.1
        simp only [decide_eq_true_eq] at h2
        exact absurd this.2 h2
    rw [hd]
    by_cases h : k ∈ (s.values.map (·.obj.key)).filter fun k => decide (k ∉ l.map (·.key))
    · rw [if_pos h]
    · rw [if_neg h]
      cases hs : s.find k with
      | none => unfold Store.content; rw [hs]; rfl
      | some v =>
        refine absurd (List.mem_filter.2 ⟨find_isSome_iff.1 ⟨v, hs⟩, ?_⟩) h
        simp only [decide_eq_true_eq]
        rintro hm
        obtain ⟨o, ho, hk⟩ := List.mem_map.1 hm
        have h2 := List.find?_eq_none.1 hf o ho
        simp only [decide_eq_true_eq] at h2
        exact h2 hk

/-! ### Histories of one object -/

/-- The values a key takes one after another: the first one is free, a deletion needs something to delete,
and an update increases the revision. -/
def Chain : Option (LObj K Sp St) → List (Option (LObj K Sp St)) → Prop
  | _, [] => True
  | y, u :: l =>
    (match y, u with
      | none, none => False
      | some x, some o => x.item.rev ≤ o.item.rev
      | _, _ => True) ∧ Chain u l

/-- The value at the end. -/
def final (y : Option (LObj K Sp St)) (l : List (Option (LObj K Sp St))) : Option (LObj K Sp St) :=
  l.getLast?.getD y

theorem final_cons (y u : Option (LObj K Sp St)) (l : List (Option (LObj K Sp St))) :
    final y (u :: l) = final u l := by
  unfold final
  cases l with
  | nil => rfl
  | cons a l =>
    rw [List.getLast?_cons_cons]
    cases h : (a :: l).getLast? with
    | none => simp at h
    | some z => rfl

theorem final_snoc (y u : Option (LObj K Sp St)) (l : List (Option (LObj K Sp St))) :
    final y (l ++ [u]) = u := by
  unfold final; simp

theorem Chain.snoc {u : Option (LObj K Sp St)} : ∀ {l : List (Option (LObj K Sp St))}
    {y : Option (LObj K Sp St)}, Chain y l → Chain (final y l) [u] → Chain y (l ++ [u]) := by
  intro l
  induction l with
  | nil => intro y _ h; exact h
  | cons a l ih =>
    intro y h hu
    rw [final_cons] at hu
    exact ⟨h.1, ih h.2 hu⟩

theorem Chain.drop : ∀ {a b : List (Option (LObj K Sp St))} {y : Option (LObj K Sp St)},
    Chain y (a ++ b) → Chain (final y a) b ∧ final (final y a) b = final y (a ++ b) := by
  intro a
  induction a with
  | nil => intro b y h; exact ⟨h, rfl⟩
  | cons u a ih =>
    intro b y h
    rw [final_cons, List.cons_append, final_cons]
    exact ih h.2

/-- What a cached value becomes. -/
def fold1 (c : Option (LObj K Sp St)) (l : List (Option (LObj K Sp St))) : Option (LObj K Sp St) :=
  l.foldl merge1 c

theorem merge1_chain {y u : Option (LObj K Sp St)} (h : Chain y [u]) : merge1 y u = u := by
  match y, u, h with
  | _, none, _ => cases y <;> rfl
  | none, some _, _ => rfl
  | some x, some o, h =>
    have h1 : x.item.rev ≤ o.item.rev := h.1
    exact merge1_le h1

theorem fold_chain : ∀ {l : List (Option (LObj K Sp St))} {y : Option (LObj K Sp St)}, Chain y l →
    fold1 y l = final y l := by
  intro l
  induction l with
  | nil => intro y _; rfl
  | cons u l ih =>
    intro y h
    show fold1 (merge1 y u) l = _
    rw [merge1_chain ⟨h.1, trivial⟩, final_cons]
    exact ih h.2

/-- A deletion makes the cached value irrelevant. -/
theorem fold_del : ∀ {l : List (Option (LObj K Sp St))} {y : Option (LObj K Sp St)}, Chain y l →
    none ∈ l → ∀ c, fold1 c l = final y l := by
  intro l
  induction l with
  | nil => intro y _ h; cases h
  | cons u l ih =>
    intro y h hm c
    rw [final_cons]
    show fold1 (merge1 c u) l = _
    by_cases hl : none ∈ l
    · exact ih h.2 hl _
    · rcases List.mem_cons.1 hm with e | e
      · subst e
        have : merge1 c none = none := by cases c <;> rfl
        rw [this]
        exact fold_chain h.2
      · exact absurd e hl

/-- Without deletions, a cached value that is not newer than the final one does not matter. -/
theorem fold_mods : ∀ {l : List (Option (LObj K Sp St))} {y : Option (LObj K Sp St)} {o : LObj K Sp St},
    Chain y l → none ∉ l → l ≠ [] → final y l = some o →
    ∀ c, (∀ x, c = some x → x.item.rev ≤ o.item.rev) → fold1 c l = some o := by
  intro l
  induction l with
  | nil => intro y o _ _ h; exact absurd rfl h
  | cons u l ih =>
    intro y o h hn _ hf c hc
    rw [final_cons] at hf
    cases u with
    | none => exact absurd List.mem_cons_self hn
    | some z =>
      show fold1 (merge1 c (some z)) l = _
      have hz : z.item.rev ≤ o.item.rev := by
        clear ih hc
        have hn' : none ∉ l := fun e => hn (List.mem_cons_of_mem _ e)
        have h2 := h.2
        clear h hn
        induction l generalizing z with
        | nil => cases hf; exact Nat.le_refl _
        | cons u l ih =>
          cases u with
          | none => exact absurd List.mem_cons_self hn'
          | some z' =>
            rw [final_cons] at hf
            exact Nat.le_trans h2.1 (ih z' (by simp) hf (fun e => hn' (List.mem_cons_of_mem _ e)) h2.2)
      have hm : ∀ x, merge1 c (some z) = some x → x.item.rev ≤ o.item.rev := by
        intro x hx
        cases c with
        | none => cases hx; exact hz
        | some c =>
          unfold merge1 at hx
          dsimp only at hx
          split at hx
          · cases hx; exact hc _ rfl
          · cases hx; exact hz
      by_cases hl : l = []
      · subst hl
        cases hf
        cases c with
        | none => rfl
        | some c =>
          exact merge1_le (hc c rfl)
      · exact ih h.2 (fun e => hn (List.mem_cons_of_mem _ e)) hl hf _ hm

/-- Repeating a history from its final value changes nothing. -/
theorem fold_final {l : List (Option (LObj K Sp St))} {y : Option (LObj K Sp St)} (h : Chain y l) :
    fold1 (final y l) l = final y l := by
  by_cases hd : none ∈ l
  · exact fold_del h hd _
  · by_cases hl : l = []
    · subst hl; rfl
    · cases hf : final y l with
      | none =>
        exfalso
        unfold final at hf
        rw [List.getLast?_eq_some_getLast hl] at hf
        have : l.getLast hl = none := hf
        exact hd (this ▸ List.getLast_mem hl)
      | some o => exact fold_mods h hd hl hf _ fun x hx => by cases hx; exact Nat.le_refl _

theorem fold_middle {a b : List (Option (LObj K Sp St))} {y : Option (LObj K Sp St)}
    (h : Chain y (a ++ b)) (ha : Chain y a) : fold1 (final y a) (a ++ b) = final y (a ++ b) := by
  obtain ⟨h1, h2⟩ := h.drop
  show (a ++ b).foldl merge1 (final y a) = _
  rw [List.foldl_append]
  have : a.foldl merge1 (final y a) = final y a := fold_final ha
  rw [this, ← h2]
  exact fold_chain h1

theorem Chain.take : ∀ {a b : List (Option (LObj K Sp St))} {y : Option (LObj K Sp St)},
    Chain y (a ++ b) → Chain y a := by
  intro a
  induction a with
  | nil => intro b y _; trivial
  | cons u a ih => intro b y h; exact ⟨h.1, ih h.2⟩

end Verif.Meta.Local
