import Verif.Meta.Delta

/-!
# The controller's metadata at clients and brokers

The controller sends the changes of a store to each client that watches it
(`fluvio-sc/src/services/public_api/watch.rs`) and to each broker
(`fluvio-sc/src/services/private_api/private_server.rs`); they apply them to their own stores
(`fluvio/src/sync/controller.rs`, `fluvio-spu/src/core/store.rs`).  A connection is a queue.
-/

namespace Verif.Meta

set_option linter.unusedSectionVars false

variable {K V : Type} [DecidableEq K] [DecidableEq V]

/-- `MetadataUpdate` — fluvio-sc-schema/src/objects/watch.rs:108-135, and the broker's requests of the
same form (fluvio-controlplane/src/spu_api). -/
structure Msg (K V : Type) where
  all : List (K × V)
  changes : List (Upd K V)
deriving DecidableEq

section controller
variable {Sp St Me : Type} [DecidableEq Sp] [DecidableEq St] [DecidableEq Me]

/-- The message for a list of changes — watch.rs:190-217, private_server.rs:399-413; `g` extracts what is
sent of an object.  Updates come first, then deletions. -/
def Delta.toMsg (g : Obj K Sp St Me → V) : Delta K Sp St Me → Msg K V
  | .all l => ⟨l.map fun o => (o.key, g o), []⟩
  | .changes u d => ⟨[], u.map (fun o => .put o.key (g o)) ++ d.map fun o => .del o.key⟩

/-- `EpochChanges::is_empty` — epoch_map.rs:304-309 -/
def Delta.isEmpty : Delta K Sp St Me → Bool
  | .all l => l.isEmpty
  | .changes u d => u.isEmpty && d.isEmpty

/-- The controller's store, what the listener of one connection has seen, the messages under way, and
the peer. -/
structure Link (K Sp St Me V P : Type) where
  sc : Store K Sp St Me
  last : Int
  queue : List (Msg K V)
  peer : P

inductive Ev (K Sp St Me : Type) where
  /-- the controller's store changes -/
  | op (o : Op K Sp St Me)
  /-- the controller sends what is new -/
  | push
  /-- the peer processes the next message -/
  | recv
  /-- the connection breaks and is established anew -/
  | reconnect
  /-- the controller restarts and loads its metadata (dispatcher/metadata.rs:109, 168-191) -/
  | restart (l : List (Obj K Sp St Me))

/-- A kind of peer: what is sent of an object, which changes are reported, whether empty reports are
sent, how messages are applied and what happens to the peer's store at a new connection. -/
structure Peer (K Sp St Me V P : Type) where
  g : Obj K Sp St Me → V
  flag : Flag
  skipEmpty : Bool
  apply : P → Msg K V → P
  renew : P → P

variable {P : Type}

/-- `sync_and_send_changes` — watch.rs:171-243; `send_spu_spec_changes` and its siblings —
private_server.rs:383-429 ff.  Simplified: the broker's variant also returns early when the published
epoch is not newer, which only skips reports that are empty. -/
def Link.push (a : Peer K Sp St Me V P) (x : Link K Sp St Me V P) : Link K Sp St Me V P :=
  let d := x.sc.changesSince a.flag x.last
  { x with
    last := x.sc.epoch
    queue := if a.skipEmpty && d.isEmpty then x.queue else x.queue ++ [d.toMsg a.g] }

def Link.step (newer : Me → Me → Bool) (a : Peer K Sp St Me V P) (x : Link K Sp St Me V P) :
    Ev K Sp St Me → Link K Sp St Me V P
  | .op o => { x with sc := x.sc.step newer o }
  | .push => x.push a
  | .recv =>
    match x.queue with
    | [] => x
    | m :: q => { x with queue := q, peer := a.apply x.peer m }
  | .reconnect => { x with last := 0, queue := [], peer := a.renew x.peer }
  | .restart l => ⟨Store.init.syncAll newer l, 0, [], a.renew x.peer⟩

def Link.run (newer : Me → Me → Bool) (a : Peer K Sp St Me V P) (x : Link K Sp St Me V P)
    (l : List (Ev K Sp St Me)) : Link K Sp St Me V P := l.foldl (Link.step newer a) x

/-- The controller has loaded its metadata, the peer connects. -/
def Link.init (newer : Me → Me → Bool) (l : List (Obj K Sp St Me)) (p : P) : Link K Sp St Me V P :=
  ⟨Store.init.syncAll newer l, 0, [], p⟩

end controller

/-! ## The client's store -/

section client
variable {Sp St : Type} [DecidableEq Sp] [DecidableEq St]

/-- `LocalMetadataItem::default()` everywhere (metadata.rs:76-86), so no object is newer than another
(local.rs:24-26). -/
def neverNewer : Unit → Unit → Bool := fun _ _ => false

/-- `sync_metadata` — controller.rs:147-205 -/
def clientApply (s : Store K Sp St Unit) (m : Msg K (Sp × St)) : Store K Sp St Unit :=
  if m.all ≠ [] then s.syncAll neverNewer (m.all.map fun p => ⟨p.1, p.2.1, p.2.2, ()⟩)
  else if m.changes ≠ [] then
    s.applyChanges neverNewer (m.changes.map fun
      | .put k v => .mod ⟨k, v.1, v.2, ()⟩
      | .del k => .del k)
  else s

def clientView (s : Store K Sp St Unit) : View K (Sp × St) :=
  fun k => (s.find k).map fun e => (e.obj.spec, e.obj.status)

end client

/-! ## The broker's store -/

/-- `LocalStore(BTreeMap)` of a broker — fluvio-spu/src/core/store.rs:47-50.  Simplified: the key under
which the broker stores an object is the controller's (it is the SPU id, replica id or name there). -/
abbrev BStore (K V : Type) := List (K × V)

def BStore.get (s : BStore K V) (k : K) : Option V := (s.find? fun p => decide (p.1 = k)).map (·.2)

/-- `insert` — store.rs:95-97 -/
def BStore.insert (s : BStore K V) (k : K) (v : V) : BStore K V :=
  s.filter (fun p => decide (p.1 ≠ k)) ++ [(k, v)]

/-- `delete` — store.rs:99-101 -/
def BStore.delete (s : BStore K V) (k : K) : BStore K V := s.filter fun p => decide (p.1 ≠ k)

/-- one round of the loop of `sync_all` — store.rs:155-170 -/
def BStore.syncOne (x : BStore K V × List K) (p : K × V) : BStore K V × List K :=
  (x.1.insert p.1 p.2,
    match x.1.get p.1 with
    | some _ => x.2.filter fun k => decide (k ≠ p.1)
    | none => x.2)

/-- `sync_all` — store.rs:143-193 -/
def BStore.syncAll (s : BStore K V) (l : List (K × V)) : BStore K V :=
  let r := l.foldl BStore.syncOne (s, s.map (·.1))
  r.2.foldl BStore.delete r.1

/-- `apply_changes` — store.rs:197-245 -/
def BStore.applyChanges (s : BStore K V) (l : List (Upd K V)) : BStore K V :=
  l.foldl (fun s m => match m with | .put k v => s.insert k v | .del k => s.delete k) s

/-- `apply` — store.rs:130-138, also fluvio-spu/src/control_plane/dispatcher.rs:364-381 -/
def brokerApply (s : BStore K V) (m : Msg K V) : BStore K V :=
  if m.all ≠ [] then s.syncAll m.all else s.applyChanges m.changes

/-! ## Both apply messages as expected -/

/-- What a message means: everything, or changes. -/
def View.apply (w : View K V) (m : Msg K V) : View K V :=
  if m.all ≠ [] then View.empty.acts (m.all.map fun p => .put p.1 p.2) else w.acts m.changes

theorem find_filter_ne {β : Type} (key : β → K) (l : List β) (k j : K) :
    (l.filter fun b => decide (key b ≠ k)).find? (fun b => decide (key b = j)) =
      if j = k then none else l.find? fun b => decide (key b = j) := by
  induction l with
  | nil => simp
  | cons b l ih =>
    by_cases h1 : key b = k
    · rw [List.filter_cons_of_neg (by simpa using h1), ih]
      split
      · rfl
      · rename_i h2
        rw [List.find?_cons_of_neg (by simpa using fun e : key b = j => h2 (e.symm.trans h1))]
    · rw [List.filter_cons_of_pos (by simpa using h1)]
      by_cases h3 : key b = j
      · rw [List.find?_cons_of_pos (by simpa using h3), List.find?_cons_of_pos (by simpa using h3),
          if_neg fun e => h1 (h3.trans e)]
      · rw [List.find?_cons_of_neg (by simpa using h3), List.find?_cons_of_neg (by simpa using h3), ih]

theorem get_delete (s : BStore K V) (k j : K) :
    (s.delete k).get j = if j = k then none else s.get j := by
  unfold BStore.get BStore.delete
  rw [find_filter_ne (fun p : K × V => p.1)]
  split <;> rfl

theorem get_insert (s : BStore K V) (k : K) (v : V) (j : K) :
    (s.insert k v).get j = if j = k then some v else s.get j := by
  unfold BStore.get BStore.insert
  rw [List.find?_append, find_filter_ne (fun p : K × V => p.1)]
  by_cases h : j = k
  · rw [if_pos h, if_pos h]
    simp [h]
  · rw [if_neg h, if_neg h]
    have : List.find? (fun p => decide (p.1 = j)) [(k, v)] = none := by
      simp [Ne.symm h]
    rw [this, Option.or_none]

theorem get_applyChanges (l : List (Upd K V)) : ∀ s : BStore K V,
    (s.applyChanges l).get = View.acts s.get l := by
  induction l with
  | nil => intro s; rfl
  | cons m l ih =>
    intro s
    rw [acts_cons]
    cases m with
    | put k v =>
      show ((s.insert k v).applyChanges l).get = _
      rw [ih]
      congr 1
      funext j
      exact get_insert s k v j
    | del k =>
      show ((s.delete k).applyChanges l).get = _
      rw [ih]
      congr 1
      funext j
      exact get_delete s k j

theorem get_deletes (l : List K) : ∀ (s : BStore K V) (j : K),
    (l.foldl BStore.delete s).get j = if j ∈ l then none else s.get j := by
  induction l with
  | nil => intro s j; simp
  | cons k l ih =>
    intro s j
    rw [List.foldl_cons, ih, get_delete]
    by_cases h1 : j ∈ l
    · rw [if_pos h1, if_pos (by simp [h1])]
    · rw [if_neg h1]
      by_cases h2 : j = k
      · rw [if_pos h2, if_pos (by simp [h2])]
      · rw [if_neg h2, if_neg (by simp [h1, h2])]

theorem get_some_iff {s : BStore K V} {k : K} : (∃ v, s.get k = some v) ↔ k ∈ s.map (·.1) := by
  unfold BStore.get
  constructor
  · rintro ⟨v, hv⟩
    rcases hf : s.find? (fun p => decide (p.1 = k)) with _ | p
    · rw [hf] at hv; cases hv
    · have h2 := List.find?_some hf
      exact List.mem_map.2 ⟨p, List.mem_of_find?_eq_some hf, by simpa using h2⟩
  · intro h
    rcases hf : s.find? (fun p => decide (p.1 = k)) with _ | p
    · rcases List.mem_map.1 h with ⟨p, hp, hk⟩
      rw [List.find?_eq_none] at hf
      exact absurd hk (by simpa using hf p hp)
    · exact ⟨p.2, by rw [hf]; rfl⟩

/-- The keys that the loop of `sync_all` leaves over are those that were there and did not arrive; keys
that are inserted before they would be left over do no harm. -/
theorem syncOne_fold (l : List (K × V)) : ∀ (x : BStore K V × List K),
    (∀ k ∈ x.2, ∃ v, x.1.get k = some v) →
    (l.foldl BStore.syncOne x).1.get = View.acts x.1.get (l.map fun p => .put p.1 p.2) ∧
    ∀ k, k ∈ (l.foldl BStore.syncOne x).2 ↔ k ∈ x.2 ∧ k ∉ l.map (·.1) := by
  induction l with
  | nil => intro x _; exact ⟨rfl, fun k => by simp⟩
  | cons p l ih =>
    intro x hx
    rw [List.foldl_cons]
    have hrest : ∀ k, k ∈ (BStore.syncOne x p).2 ↔ k ∈ x.2 ∧ k ≠ p.1 := by
      intro k
      unfold BStore.syncOne
      dsimp only
      split
      · simp
      · rename_i hn
        constructor
        · intro hk
          refine ⟨hk, fun e => ?_⟩
          obtain ⟨v, hv⟩ := hx k hk
          rw [e, hn] at hv
          cases hv
        · exact fun h => h.1
    have hfst : (BStore.syncOne x p).1.get = View.act x.1.get (.put p.1 p.2) := by
      funext j; exact get_insert _ _ _ _
    obtain ⟨h1, h2⟩ := ih (BStore.syncOne x p) (by
      intro k hk
      obtain ⟨hk1, hk2⟩ := (hrest k).1 hk
      rw [hfst]
      obtain ⟨v, hv⟩ := hx k hk1
      exact ⟨v, by rw [act_eq, if_neg (show ¬k = (Upd.put p.1 p.2).key from hk2)]; exact hv⟩)
    refine ⟨?_, ?_⟩
    · rw [h1, List.map_cons, acts_cons, hfst]
    · intro k
      rw [h2 k, hrest k, List.map_cons, List.mem_cons, not_or]
      constructor
      · rintro ⟨⟨a, b⟩, c⟩; exact ⟨a, b, c⟩
      · rintro ⟨a, b, c⟩; exact ⟨⟨a, b⟩, c⟩

theorem acts_from (l : List (Upd K V)) (k : K) (h : ∃ m ∈ l, m.key = k) : ∀ (w w' : View K V),
    w.acts l k = w'.acts l k := by
  induction l with
  | nil => obtain ⟨m, hm, _⟩ := h; cases hm
  | cons m l ih =>
    intro w w'
    rw [acts_cons, acts_cons]
    by_cases hl : ∃ m ∈ l, m.key = k
    · exact ih hl _ _
    · have hnot : ∀ m ∈ l, m.key ≠ k := fun m hm e => hl ⟨m, hm, e⟩
      rw [acts_untouched _ _ _ hnot, acts_untouched _ _ _ hnot, act_eq, act_eq]
      obtain ⟨m', hm', hk⟩ := h
      rcases List.mem_cons.1 hm' with e | e
      · rw [if_pos (by rw [← e]; exact hk.symm), if_pos (by rw [← e]; exact hk.symm)]
      · exact absurd hk (hnot m' e)

theorem get_syncAll (s : BStore K V) (l : List (K × V)) :
    (s.syncAll l).get = View.empty.acts (l.map fun p => .put p.1 p.2) := by
  obtain ⟨h1, h2⟩ := syncOne_fold l (s, s.map (·.1)) (fun k hk => get_some_iff.2 hk)
  funext k
  unfold BStore.syncAll
  dsimp only
  rw [get_deletes, h1]
  by_cases hk : k ∈ l.map (·.1)
  · rw [if_neg fun h => ((h2 k).1 h).2 hk]
    apply acts_from
    rcases List.mem_map.1 hk with ⟨p, hp, e⟩
    exact ⟨.put p.1 p.2, List.mem_map.2 ⟨p, hp, rfl⟩, e⟩
  · have hnot : ∀ m ∈ l.map (fun p => Upd.put p.1 p.2), m.key ≠ k := by
      intro m hm e
      rcases List.mem_map.1 hm with ⟨p, hp, rfl⟩
      exact hk (List.mem_map.2 ⟨p, hp, e⟩)
    rw [acts_untouched _ _ View.empty hnot]
    by_cases hs : k ∈ s.map (·.1)
    · rw [if_pos ((h2 k).2 ⟨hs, hk⟩)]; rfl
    · rw [if_neg fun h => hs ((h2 k).1 h).1, acts_untouched _ _ _ hnot]
      rcases hg : s.get k with _ | v
      · rfl
      · exact absurd (get_some_iff.1 ⟨v, hg⟩) hs

theorem brokerApply_get (s : BStore K V) (m : Msg K V) :
    (brokerApply s m).get = View.apply s.get m := by
  unfold brokerApply View.apply
  split
  · exact get_syncAll s m.all
  · exact get_applyChanges m.changes s

/-! ### The client -/

section client
variable {Sp St : Type} [DecidableEq Sp] [DecidableEq St]

theorem find_update {Me : Type} [DecidableEq Me] {newer : Me → Me → Bool} {s : Store K Sp St Me}
    (o : Obj K Sp St Me) (j : K) (hn : ∀ old, s.find o.key = some old → newer old.obj.item o.item = false) :
    ((s.update newer o).1.find j).map Entry.obj = if j = o.key then some o else (s.find j).map Entry.obj := by
  unfold Store.update
  split
  · rename_i old hold
    have hnew := hn old hold
    have hd : old.obj.diff newer o = ⟨decide (old.obj.spec ≠ o.spec),
        decide (old.obj.status ≠ o.status), decide (old.obj.item ≠ o.item)⟩ := by
      unfold Obj.diff; rw [if_neg (by simp [hnew])]
    dsimp only
    split
    · rename_i hf
      rw [hd] at hf
      unfold Flag.isNone at hf
      simp only [Bool.and_eq_true, Bool.not_eq_true', decide_eq_false_iff_not, ne_eq,
        Classical.not_not] at hf
      have he : old.obj = o := by
        obtain ⟨⟨h1, h2⟩, h3⟩ := hf
        have h0 := (find_some hold).2
        obtain ⟨oo, _, _, _⟩ := old
        obtain ⟨a, b, c, d⟩ := o
        obtain ⟨a', b', c', d'⟩ := oo
        dsimp only at h0 h1 h2 h3
        rw [h0, h1, h2, h3]
      by_cases hj : j = o.key
      · rw [if_pos hj, hj, hold, ← he]; rfl
      · rw [if_neg hj]
    · unfold Store.find
      dsimp only
      rw [List.find?_map]
      have hcomp : ((fun e : Entry K Sp St Me => decide (e.obj.key = j)) ∘
          fun v => if v.obj.key = o.key then old.merge o (old.obj.diff newer o) s.epoch else v) =
          fun e => decide (e.obj.key = j) := by
        funext e
        simp only [Function.comp]
        split
        · rename_i he
          rw [merge_key, he]
        · rfl
      rw [hcomp]
      change Option.map Entry.obj (Option.map _ (s.find j)) = if j = o.key then some o else Option.map Entry.obj (s.find j)
      rcases hj : s.find j with _ | v
      · rw [if_neg]
        · rfl
        · intro e; rw [e, hold] at hj; cases hj
      · have hv := find_some hj
        by_cases hjk : j = o.key
        · rw [if_pos hjk]
          simp only [Option.map_some]
          rw [if_pos (hv.2.trans hjk), merge_key]
        · rw [if_neg hjk]
          simp only [Option.map_some]
          rw [if_neg (fun e => hjk (hv.2.symm.trans e))]
  · rename_i hnone
    unfold Store.find
    dsimp only
    rw [List.find?_append]
    change Option.map Entry.obj ((s.find j).or _) = if j = o.key then some o else Option.map Entry.obj (s.find j)
    by_cases hj : j = o.key
    · rw [if_pos hj, hj, hnone]
      simp
    · rw [if_neg hj]
      have : List.find? (fun e : Entry K Sp St Me => decide (e.obj.key = j))
          [⟨o, s.epoch, s.epoch, s.epoch⟩] = none := by
        simp [Ne.symm hj]
      rw [this, Option.or_none]

theorem content_update {Me : Type} [DecidableEq Me] {newer : Me → Me → Bool} {s : Store K Sp St Me}
    (o : Obj K Sp St Me) (hn : ∀ old, s.find o.key = some old → newer old.obj.item o.item = false) :
    (s.update newer o).1.content = s.content.act (.put o.key o) := by
  funext j
  exact find_update o j hn

theorem content_remove {Me : Type} [DecidableEq Me] (s : Store K Sp St Me) (k : K) :
    (s.remove k).content = s.content.act (.del k) := by
  funext j
  unfold Store.content Store.find
  rw [(remove_fields s k).2.2, find_filter_ne (fun e : Entry K Sp St Me => e.obj.key), act_eq]
  show _ = if j = k then none else Option.map Entry.obj (s.find j)
  split <;> rfl

/-- `LSUpdate`s as changes of a view. -/
def Chg.toUpd {Me : Type} : Chg K Sp St Me → Upd K (Obj K Sp St Me)
  | .mod o => .put o.key o
  | .del k => .del k

theorem content_applyOne (p : Store K Sp St Unit × Bool) (c : Chg K Sp St Unit) :
    (Store.applyOne neverNewer p c).1.content = p.1.content.act c.toUpd := by
  cases c with
  | mod o => rw [applyOne_fst_update]; exact content_update o fun _ _ => rfl
  | del k => exact content_remove p.1 k

theorem content_applyAll (l : List (Chg K Sp St Unit)) : ∀ p : Store K Sp St Unit × Bool,
    (l.foldl (Store.applyOne neverNewer) p).1.content = p.1.content.acts (l.map Chg.toUpd) := by
  induction l with
  | nil => intro p; rfl
  | cons c l ih =>
    intro p
    rw [List.foldl_cons, ih, List.map_cons, acts_cons, content_applyOne]

theorem content_applyChanges (s : Store K Sp St Unit) (l : List (Chg K Sp St Unit)) :
    (s.applyChanges neverNewer l).content = s.content.acts (l.map Chg.toUpd) := by
  have h := content_applyAll l (s.bump, false)
  unfold Store.applyChanges
  dsimp only
  split
  · exact h
  · exact h

theorem content_updateAll (l : List (Obj K Sp St Unit)) : ∀ s : Store K Sp St Unit,
    (l.foldl (fun s o => (s.update neverNewer o).1) s).content = s.content.acts (puts l) := by
  induction l with
  | nil => intro s; rfl
  | cons o l ih =>
    intro s
    rw [List.foldl_cons, ih]
    show _ = (s.content.act (.put o.key o)).acts (puts l)
    rw [content_update o fun _ _ => rfl]

theorem content_removeAll (l : List K) : ∀ s : Store K Sp St Unit,
    (l.foldl Store.remove s).content = s.content.acts (l.map .del) := by
  induction l with
  | nil => intro s; rfl
  | cons k l ih =>
    intro s
    rw [List.foldl_cons, ih, content_remove, List.map_cons, acts_cons]

theorem content_syncAll (s : Store K Sp St Unit) (l : List (Obj K Sp St Unit)) :
    (s.syncAll neverNewer l).content = View.empty.acts (puts l) := by
  have e : (s.syncAll neverNewer l).content = (s.content.acts (puts l)).acts
      (((s.values.map (·.obj.key)).filter fun k => decide (k ∉ l.map (·.key))).map .del) := by
    unfold Store.syncAll
    dsimp only
    show ((_ : List K).foldl Store.remove _).content = _
    rw [content_removeAll, content_updateAll]
    rfl
  rw [e]
  funext k
  by_cases hk : k ∈ l.map (·.key)
  · rw [acts_untouched]
    · apply acts_from
      rcases List.mem_map.1 hk with ⟨o, ho, he⟩
      exact ⟨.put o.key o, List.mem_map.2 ⟨o, ho, rfl⟩, he⟩
    · intro m hm hmk
      rcases List.mem_map.1 hm with ⟨j, hj, rfl⟩
      have := (List.mem_filter.1 hj).2
      rw [show j = k from hmk] at this
      simp only [decide_eq_true_eq] at this
      exact this hk
  · have hnot : ∀ m ∈ puts l, m.key ≠ k := by
      intro m hm e
      obtain ⟨o, ho, rfl⟩ := put_key hm
      exact hk (List.mem_map.2 ⟨o, ho, e⟩)
    rw [acts_untouched _ _ View.empty hnot]
    apply acts_const (x := none)
    · intro m hm _
      rcases List.mem_map.1 hm with ⟨j, _, rfl⟩
      rfl
    · rw [acts_untouched _ _ _ hnot]
      rcases hf : s.find k with _ | v
      · left; unfold Store.content; rw [hf]; rfl
      · right
        refine ⟨.del k, List.mem_map.2 ⟨k, List.mem_filter.2 ⟨?_, by simpa using hk⟩, rfl⟩, rfl⟩
        exact find_isSome_iff.1 ⟨v, hf⟩

/-- The client's view is its content without the item. -/
theorem clientView_eq (s : Store K Sp St Unit) :
    clientView s = fun k => (s.content k).map fun o => (o.spec, o.status) := by
  funext k
  unfold clientView Store.content
  rw [Option.map_map]
  rfl

theorem acts_map {V W : Type} (h : V → W) (l : List (Upd K V)) : ∀ w : View K V,
    (fun k => (w.acts l k).map h) =
      View.acts (fun k => (w k).map h) (l.map fun
        | .put k v => .put k (h v)
        | .del k => .del k) := by
  induction l with
  | nil => intro w; rfl
  | cons m l ih =>
    intro w
    rw [acts_cons, ih, List.map_cons, acts_cons]
    congr 1
    funext k
    cases m with
    | put j v =>
      show Option.map h (if k = j then some v else w k) = if k = j then some (h v) else (w k).map h
      split <;> rfl
    | del j =>
      show Option.map h (if k = j then none else w k) = if k = j then none else (w k).map h
      split <;> rfl

theorem clientApply_view (s : Store K Sp St Unit) (m : Msg K (Sp × St)) :
    clientView (clientApply s m) = View.apply (clientView s) m := by
  unfold clientApply View.apply
  split
  · rw [clientView_eq, content_syncAll, acts_map]
    unfold puts
    rw [List.map_map, List.map_map]
    rfl
  · split
    · rw [clientView_eq, content_applyChanges, acts_map, clientView_eq, List.map_map, List.map_map]
      congr 1
      conv => rhs; rw [← List.map_id m.changes]
      apply List.map_congr_left
      intro x _
      cases x <;> rfl
    · rename_i h
      have : m.changes = [] := Classical.not_not.1 h
      rw [this]
      rfl

end client

end Verif.Meta
