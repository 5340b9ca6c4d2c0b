import Verif.Kv.Store

/-!
# The key-value store: specification and invariant
-/

set_option linter.unusedSectionVars false

namespace Verif.Kv
open Verif.Wire

variable {κ ν L Fault Ext : Type}

/-! ## Specification -/

/-- **Specification.** One change somebody asked for: a value for a key (`none`: no value), and whether
the store reported success. -/
structure Act (κ ν : Type) where
  key : κ
  effect : Option ν
  ok : Bool

/-- **Specification.** The changes of a history with their outcomes. -/
def actsOf : List (Ev κ ν Fault Ext) → List (Option Bool) → List (Act κ ν)
  | .put k v _ :: evs, some ok :: xs => ⟨k, some v, ok⟩ :: actsOf evs xs
  | .delete k _ :: evs, some ok :: xs => ⟨k, none, ok⟩ :: actsOf evs xs
  | _ :: evs, _ :: xs => actsOf evs xs
  | _, _ => []

/-- **Specification.** `r` is a legitimate content of `k` after the changes `acts`: the effect of a
change of `k` not followed by a *successful* change of `k`, or nothing if no change of `k` succeeded. -/
def Explained (acts : List (Act κ ν)) (k : κ) (r : Option ν) : Prop :=
  (∃ older a newer, acts = older ++ a :: newer ∧ a.key = k ∧ a.effect = r ∧
    ∀ b ∈ newer, b.key = k → b.ok = false) ∨
  (r = none ∧ ∀ b ∈ acts, b.key = k → b.ok = false)

/-- **Specification.** The last successful change of `k`. -/
def lastOf [DecidableEq κ] (acts : List (Act κ ν)) (k : κ) : Option ν :=
  acts.foldl (fun r a => if a.key = k ∧ a.ok = true then a.effect else r) none

/-- **Assumption on a log**, to be proved for each implementation: `Holds l gone kept` says that the log
received the byte strings `gone ++ kept` and still has `kept`. -/
structure LogApi.Keeps (api : LogApi L Fault Ext) (Holds : L → List Bytes → List Bytes → Prop) : Prop where
  append_ok : ∀ l g k b f, Holds l g k → b ≠ [] → (api.append l b f).2 = true →
    Holds (api.append l b f).1 g (k ++ b)
  append_failed : ∀ l g k b f, Holds l g k → b ≠ [] → (api.append l b f).2 = false →
    Holds (api.append l b f).1 g k ∨ Holds (api.append l b f).1 g (k ++ b)
  other : ∀ l g k x, Holds l g k → ∃ t d, k = t ++ d ∧ Holds (api.other l x) (g ++ t) d
  read : ∀ l g k, Holds l g k → ∃ junk, api.readFromEnd l = k.reverse.map some ++ junk ∧
    (g = [] → junk = []) ∧ (g ≠ [] → ∃ j, junk = none :: j)

/-! ## Maps -/

variable [DecidableEq κ]

theorem lookup_cons (e : κ × ν) (m : List (κ × ν)) (k : κ) :
    lookup (e :: m) k = if e.1 = k then some e.2 else lookup m k := by
  unfold lookup
  rw [List.find?_cons]
  by_cases h : e.1 = k
  · simp [h]
  · simp [h]

theorem lookup_erase (m : List (κ × ν)) (k k' : κ) :
    lookup (erase m k) k' = if k = k' then none else lookup m k' := by
  induction m with
  | nil => simp [erase, lookup]
  | cons e m ih =>
    unfold erase at ih ⊢
    rw [List.filter_cons]
    by_cases h : e.1 = k
    · simp only [h, ne_eq, not_true_eq_false, decide_false, Bool.false_eq_true, ↓reduceIte, lookup_cons]
      rw [ih]
      by_cases h' : k = k'
      · simp [h']
      · simp [h']
    · simp only [h, ne_eq, not_false_eq_true, decide_true, ↓reduceIte, lookup_cons]
      rw [ih]
      by_cases h' : k = k'
      · subst h'; simp [h]
      · simp [h']

theorem lookup_insert (m : List (κ × ν)) (k : κ) (v : ν) (k' : κ) :
    lookup (insert m k v) k' = if k = k' then some v else lookup m k' := by
  unfold insert
  rw [lookup_cons, lookup_erase]
  by_cases h : k = k'
  · simp [h]
  · simp [h]

/-- no key occurs twice -/
def Distinct (m : List (κ × ν)) : Prop := (m.map (·.1)).Nodup

theorem Distinct.erase {m : List (κ × ν)} (h : Distinct m) (k : κ) : Distinct (erase m k) := by
  unfold Distinct Kv.erase at *
  exact h.sublist (List.filter_sublist.map _)

theorem Distinct.insert {m : List (κ × ν)} (h : Distinct m) (k : κ) (v : ν) : Distinct (insert m k v) := by
  have h1 := h.erase k
  unfold Distinct Kv.insert at *
  rw [List.map_cons, List.nodup_cons]
  refine ⟨?_, h1⟩
  intro hk
  obtain ⟨e, he, hek⟩ := List.mem_map.1 hk
  have := (List.mem_filter.1 he).2
  simp [hek] at this

theorem lookup_of_mem {m : List (κ × ν)} (h : Distinct m) {e : κ × ν} (he : e ∈ m) :
    lookup m e.1 = some e.2 := by
  induction m with
  | nil => cases he
  | cons a m ih =>
    unfold Distinct at h ih
    rw [List.map_cons, List.nodup_cons] at h
    rw [lookup_cons]
    rcases List.mem_cons.1 he with rfl | hm
    · simp
    · have : a.1 ≠ e.1 := fun hh => h.1 (hh ▸ List.mem_map.2 ⟨e, hm, rfl⟩)
      simp only [this, ↓reduceIte]
      exact ih h.2 hm

theorem lookup_none {m : List (κ × ν)} {k : κ} (h : k ∉ m.map (·.1)) : lookup m k = none := by
  induction m with
  | nil => rfl
  | cons a m ih =>
    rw [List.map_cons, List.mem_cons, not_or] at h
    rw [lookup_cons, if_neg (fun hh => h.1 hh.symm), ih h.2]

theorem lookup_mem {m : List (κ × ν)} {k : κ} {v : ν} (h : lookup m k = some v) : (k, v) ∈ m := by
  induction m with
  | nil => cases h
  | cons a m ih =>
    rw [lookup_cons] at h
    by_cases hk : a.1 = k
    · simp only [hk, ↓reduceIte, Option.some.injEq] at h
      rw [← hk, ← h]
      exact List.mem_cons_self
    · rw [if_neg hk] at h
      exact List.mem_cons_of_mem _ (ih h)

/-! ## Entries at the level of keys and values -/

/-- an entry before its key and value are encoded -/
inductive Ent (κ ν : Type) where
  | upd (k : κ) (v : ν)
  | del (k : κ)
  | chk

def Ent.enc (t : Types κ ν) : Ent κ ν → Bytes
  | .upd k v => entryC.enc (.updated (t.key.enc k) (t.value.enc v))
  | .del k => entryC.enc (.deleted (t.key.enc k))
  | .chk => entryC.enc .checkpoint

/-- the limits of the length prefixes -/
def KeyOk (t : Types κ ν) (k : κ) : Prop := t.key.wf k ∧ (t.key.enc k).length < 2 ^ 31
def ValOk (t : Types κ ν) (v : ν) : Prop := t.value.wf v ∧ (t.value.enc v).length < 2 ^ 31

def Ent.Ok (t : Types κ ν) : Ent κ ν → Prop
  | .upd k v => KeyOk t k ∧ ValOk t v
  | .del k => KeyOk t k
  | .chk => True

/-- the map after the entries of a log -/
def apply (m : List (κ × ν)) : Ent κ ν → List (κ × ν)
  | .upd k v => insert m k v
  | .del k => erase m k
  | .chk => []

def content (es : List (Ent κ ν)) : List (κ × ν) := es.foldl apply []

theorem bytesC_rt : RoundTrips bytesC :=
  isoC_rt (vecC_rt (intC_lawful 1).toRoundTrips) fun v => by
    rw [List.map_map]
    conv => rhs; rw [← List.map_id v]
    rfl

theorem bytesC_wf {b : Bytes} (h : b.length < 2 ^ 31) : bytesC.wf b := by
  unfold bytesC isoC vecC
  refine ⟨?_, ?_⟩
  · simpa using h
  · intro x _
    trivial

/-- `enumConsC` without the locality laws. -/
theorem enumConsC_rt {α β} (n : Nat) (tag : BitVec (8 * n)) {p : Codec α} {r : Codec β}
    (hp : RoundTrips p) (hr : RoundTrips r) (tags : List (BitVec (8 * n))) (hs : StartsWith r n tags)
    (hd : tag ∉ tags) : RoundTrips (enumConsC n tag p r) where
  roundtrip v rest h := by
    cases v with
    | inl v =>
      simp only [enumConsC, List.append_assoc, intDec_intEnc, ↓reduceIte]
      rw [Dec.bind_ok (hp.roundtrip v rest h)]
      rfl
    | inr w =>
      simp only [enumConsC]
      obtain ⟨t, ht, bs', e⟩ := hs w rest
      rw [e]
      have : t ≠ tag := fun hh => hd (hh ▸ ht)
      simp only [this, ↓reduceIte]
      rw [Dec.bind_ok (hr.roundtrip w rest h)]
      rfl
  size_eq v h := by
    cases v with
    | inl v => simp only [enumConsC, List.length_append, hp.size_eq v h, intEnc, beEnc_length]
    | inr w => exact hr.size_eq w h

theorem startsWith_cons {α β} (n : Nat) (tag : BitVec (8 * n)) {p : Codec α} {r : Codec β}
    (tags : List (BitVec (8 * n))) (hs : StartsWith r n tags) :
    StartsWith (enumConsC n tag p r) n (tag :: tags) := by
  intro v rest
  cases v with
  | inl v =>
    refine ⟨tag, List.mem_cons_self, p.enc v ++ rest, ?_⟩
    simp only [enumConsC, List.append_assoc, intDec_intEnc]
  | inr w =>
    obtain ⟨t, ht, bs', e⟩ := hs w rest
    exact ⟨t, List.mem_cons_of_mem _ ht, bs', e⟩

theorem startsWith_nil (n : Nat) : StartsWith (enumNilC n) n [] := fun v => nomatch v

theorem entryC_rt : RoundTrips entryC := by
  apply isoC_rt
  · have h2 := enumConsC_rt 1 2#8 (unitC_lawful.toRoundTrips) (enumNilC_lawful 1).toRoundTrips []
      (startsWith_nil 1) (by simp)
    have s2 := startsWith_cons 1 2#8 (p := unitC) [] (startsWith_nil 1)
    have h1 := enumConsC_rt 1 1#8 bytesC_rt h2 _ s2 (by decide)
    have s1 := startsWith_cons 1 1#8 (p := bytesC) _ s2
    exact enumConsC_rt 1 0#8 (pairC_rt bytesC_rt bytesC_rt) h1 _ s1 (by decide)
  · intro v
    cases v <;> rfl

theorem decodeAs_enc {α : Type} {c : Codec α} (hc : RoundTrips c) {v : α} (h : c.wf v) :
    decodeAs c (c.enc v) = some v := by
  have := hc.roundtrip v [] h
  rw [List.append_nil] at this
  unfold decodeAs
  rw [this]

/-- the entry as stored -/
def Ent.entry (t : Types κ ν) : Ent κ ν → Entry
  | .upd k v => .updated (t.key.enc k) (t.value.enc v)
  | .del k => .deleted (t.key.enc k)
  | .chk => .checkpoint

theorem Ent.decode (t : Types κ ν) (e : Ent κ ν) (h : e.Ok t) :
    decodeAs entryC (e.enc t) = some (e.entry t) := by
  cases e with
  | upd k v =>
    exact decodeAs_enc entryC_rt (v := .updated (t.key.enc k) (t.value.enc v))
      ⟨bytesC_wf h.1.2, bytesC_wf h.2.2⟩
  | del k => exact decodeAs_enc entryC_rt (v := .deleted (t.key.enc k)) (bytesC_wf h.2)
  | chk => exact decodeAs_enc entryC_rt (v := .checkpoint) trivial

/-! ## Replay -/

/-- The codecs of keys and values are right. -/
structure Types.Good (t : Types κ ν) : Prop where
  key : RoundTrips t.key
  value : RoundTrips t.value

def Ent.isChk : Ent κ ν → Bool
  | .chk => true
  | _ => false

theorem Ent.entry_chk (t : Types κ ν) (e : Ent κ ν) :
    decide (some (e.entry t) ≠ some Entry.checkpoint) = !e.isChk := by
  cases e <;> simp [Ent.entry, Ent.isChk]

theorem replayLoop_ents {t : Types κ ν} (ht : t.Good) : ∀ (es : List (Ent κ ν)) (m : List (κ × ν)),
    (∀ e ∈ es, e.Ok t) → (∀ e ∈ es, e.isChk = false) →
    replayLoop t (es.map fun e => some (e.entry t)) m = some (es.foldl apply m)
  | [], m, _, _ => rfl
  | e :: es, m, h, hc => by
    have ih := fun m => replayLoop_ents ht es m (fun e he => h e (List.mem_cons_of_mem _ he))
      (fun e he => hc e (List.mem_cons_of_mem _ he))
    have h0 := h e List.mem_cons_self
    cases e with
    | upd k v =>
      simp only [List.map_cons, Ent.entry, replayLoop, List.foldl_cons, apply]
      rw [decodeAs_enc ht.key h0.1.1, decodeAs_enc ht.value h0.2.1]
      exact ih _
    | del k =>
      simp only [List.map_cons, Ent.entry, replayLoop, List.foldl_cons, apply]
      rw [decodeAs_enc ht.key h0.1]
      exact ih _
    | chk => simp [Ent.isChk] at hc

theorem replayLoop_none (t : Types κ ν) : ∀ (es : List (Option Entry)) (m : List (κ × ν)), none ∈ es →
    replayLoop t es m = none
  | [], _, h => by cases h
  | none :: es, m, _ => by unfold replayLoop; rfl
  | some .checkpoint :: es, m, _ => by unfold replayLoop; rfl
  | some (.updated k v) :: es, m, h => by
    have h' : none ∈ es := by
      rcases List.mem_cons.1 h with h | h
      · cases h
      · exact h
    unfold replayLoop
    split
    · exact replayLoop_none t es _ h'
    · rfl
  | some (.deleted k) :: es, m, h => by
    have h' : none ∈ es := by
      rcases List.mem_cons.1 h with h | h
      · cases h
      · exact h
    unfold replayLoop
    split
    · exact replayLoop_none t es _ h'
    · rfl

/-- split a list at its last checkpoint -/
theorem last_checkpoint : ∀ (es : List (Ent κ ν)),
    (∀ e ∈ es, e.isChk = false) ∨ ∃ a b, es = a ++ Ent.chk :: b ∧ ∀ e ∈ b, e.isChk = false
  | [] => .inl (by simp)
  | e :: es => by
    rcases last_checkpoint es with h | ⟨a, b, rfl, hb⟩
    · cases e with
      | chk => exact .inr ⟨[], es, rfl, h⟩
      | upd k v =>
        left; intro x hx
        rcases List.mem_cons.1 hx with rfl | hx
        · rfl
        · exact h x hx
      | del k =>
        left; intro x hx
        rcases List.mem_cons.1 hx with rfl | hx
        · rfl
        · exact h x hx
    · exact .inr ⟨e :: a, b, rfl, hb⟩

theorem tail_append (t : Types κ ν) : ∀ (b : List (Ent κ ν)) (rest : List (Option Bytes)), (∀ e ∈ b, e.Ok t) →
    (∀ e ∈ b, e.isChk = false) →
    tail (b.reverse.map (fun e => some (e.enc t)) ++ rest) =
      b.reverse.map (fun e => some (e.entry t)) ++ tail rest := by
  intro b rest ho hb
  have key : ∀ (l : List (Ent κ ν)), (∀ e ∈ l, e.Ok t) → (∀ e ∈ l, e.isChk = false) →
      tail (l.map (fun e => some (e.enc t)) ++ rest) = l.map (fun e => some (e.entry t)) ++ tail rest := by
    intro l
    induction l with
    | nil => intros; rfl
    | cons e l ih =>
      intro h1 h2
      unfold tail at ih ⊢
      simp only [List.map_cons, List.cons_append, Option.bind_some]
      rw [Ent.decode t e (h1 e List.mem_cons_self), List.takeWhile_cons, Ent.entry_chk,
        h2 e List.mem_cons_self]
      simp only [Bool.not_false, ↓reduceIte, List.cons.injEq, true_and]
      exact ih (fun x hx => h1 x (List.mem_cons_of_mem _ hx)) (fun x hx => h2 x (List.mem_cons_of_mem _ hx))
  exact key b.reverse (fun e he => ho e (List.mem_reverse.1 he)) (fun e he => hb e (List.mem_reverse.1 he))

theorem content_checkpoint (a b : List (Ent κ ν)) : content (a ++ Ent.chk :: b) = content b := by
  unfold content
  rw [List.foldl_append, List.foldl_cons]
  rfl

/-- Replaying what is left of a log gives the content of the whole log, or fails. -/
theorem replay_kept {t : Types κ ν} (ht : t.Good) (gone kept : List (Ent κ ν)) (junk : List (Option Bytes))
    (hk : ∀ e ∈ kept, e.Ok t) (h0 : gone = [] → junk = []) (h1 : gone ≠ [] → ∃ j, junk = none :: j) :
    (replay t (kept.reverse.map (fun e => some (e.enc t)) ++ junk) = some (content (gone ++ kept)) ∧
      (gone = [] ∨ Ent.chk ∈ kept)) ∨
    (replay t (kept.reverse.map (fun e => some (e.enc t)) ++ junk) = none ∧ gone ≠ [] ∧ Ent.chk ∉ kept) := by
  rcases last_checkpoint kept with hn | ⟨a, b, rfl, hb⟩
  · have hnc : Ent.chk ∉ kept := fun h => by simpa [Ent.isChk] using hn _ h
    unfold replay
    rw [tail_append t kept junk hk hn]
    by_cases hg : gone = []
    · left
      rw [h0 hg, hg]
      refine ⟨?_, .inl rfl⟩
      have : tail ([] : List (Option Bytes)) = [] := rfl
      rw [this, List.append_nil, ← List.map_reverse, List.reverse_reverse,
        replayLoop_ents ht kept [] hk hn]
      rfl
    · right
      obtain ⟨j, hj⟩ := h1 hg
      refine ⟨?_, hg, hnc⟩
      apply replayLoop_none
      rw [List.mem_reverse, hj]
      apply List.mem_append_right
      unfold tail
      rw [List.map_cons, List.takeWhile_cons]
      simp
  · left
    have hb' : ∀ e ∈ b, e.Ok t := fun e he => hk e (by simp [he])
    refine ⟨?_, .inr (by simp)⟩
    unfold replay
    have e1 : (a ++ Ent.chk :: b).reverse.map (fun e => some (e.enc t)) ++ junk =
        b.reverse.map (fun e => some (e.enc t)) ++
          (some (Ent.enc t .chk) :: (a.reverse.map (fun e => some (e.enc t)) ++ junk)) := by
      simp
    rw [e1, tail_append t b _ hb' hb]
    have e2 : tail (some (Ent.enc t (.chk : Ent κ ν)) :: (a.reverse.map (fun e => some (e.enc t)) ++ junk)) = [] := by
      unfold tail
      rw [List.map_cons, Option.bind_some, Ent.decode t .chk trivial, List.takeWhile_cons]
      simp [Ent.entry]
    rw [e2, List.append_nil, ← List.map_reverse, List.reverse_reverse, replayLoop_ents ht b [] hb' hb,
      ← List.append_assoc, content_checkpoint]
    rfl

/-! ## Contents -/

theorem content_snoc (es : List (Ent κ ν)) (e : Ent κ ν) : content (es ++ [e]) = apply (content es) e := by
  unfold content
  rw [List.foldl_append]
  rfl

theorem Distinct.content (es : List (Ent κ ν)) : Distinct (content es) := by
  have key : ∀ (es : List (Ent κ ν)) (m : List (κ × ν)), Distinct m → Distinct (es.foldl apply m) := by
    intro es
    induction es with
    | nil => intro m h; exact h
    | cons e es ih =>
      intro m h
      rw [List.foldl_cons]
      apply ih
      cases e with
      | upd k v => exact h.insert k v
      | del k => exact h.erase k
      | chk => simp [Distinct, apply]
  exact key es [] (by simp [Distinct])

/-- What a checkpoint with the content `m` leaves in the log. -/
def snapshot (m : List (κ × ν)) : List (Ent κ ν) := .chk :: m.map fun e => .upd e.1 e.2

theorem lookup_foldl_upd : ∀ (l : List (κ × ν)) (m : List (κ × ν)) (k : κ), Distinct l →
    lookup ((l.map fun e => Ent.upd e.1 e.2).foldl apply m) k =
      if k ∈ l.map (·.1) then lookup l k else lookup m k
  | [], m, k, _ => by simp
  | e :: l, m, k, h => by
    have h2 : Distinct l := by
      unfold Distinct at *; rw [List.map_cons, List.nodup_cons] at h; exact h.2
    have h1 : e.1 ∉ l.map (·.1) := by
      unfold Distinct at *; rw [List.map_cons, List.nodup_cons] at h; exact h.1
    rw [List.map_cons, List.foldl_cons, lookup_foldl_upd l _ k h2]
    simp only [apply, lookup_insert, lookup_cons, List.map_cons, List.mem_cons]
    by_cases hk : e.1 = k
    · subst hk
      simp [h1]
    · have hk' : ¬ k = e.1 := fun hh => hk hh.symm
      simp only [hk, hk', ↓reduceIte, false_or]

theorem lookup_perm {m m' : List (κ × ν)} (h : m'.Perm m) (hd : Distinct m) (k : κ) :
    lookup m' k = lookup m k := by
  have hd' : Distinct m' := (h.map (fun e : κ × ν => e.1)).nodup_iff.2 hd
  cases hl : lookup m k with
  | none =>
    apply lookup_none
    intro hk
    obtain ⟨e, he, rfl⟩ := List.mem_map.1 hk
    rw [lookup_of_mem hd (h.mem_iff.1 he)] at hl
    cases hl
  | some v => exact lookup_of_mem hd' (h.mem_iff.2 (lookup_mem hl))

theorem content_snapshot (es : List (Ent κ ν)) {m m' : List (κ × ν)} (h : m'.Perm m) (hd : Distinct m) (k : κ) :
    lookup (content (es ++ snapshot m')) k = lookup m k := by
  have hd' : Distinct m' := (h.map (fun e : κ × ν => e.1)).nodup_iff.2 hd
  unfold snapshot
  rw [content_checkpoint]
  unfold content
  rw [lookup_foldl_upd m' [] k hd', ← lookup_perm h hd]
  by_cases hk : k ∈ m'.map (·.1)
  · rw [if_pos hk]
  · rw [if_neg hk, lookup_none hk]
    rfl

/-! ## Explained contents -/

theorem Explained.snoc {acts : List (Act κ ν)} {a : Act κ ν} {k : κ} {r : Option ν}
    (h : (a.key = k ∧ a.effect = r) ∨ ((a.key = k → a.ok = false) ∧ Explained acts k r)) :
    Explained (acts ++ [a]) k r := by
  rcases h with ⟨h1, h2⟩ | ⟨h1, h2 | h2⟩
  · exact .inl ⟨acts, a, [], rfl, h1, h2, by simp⟩
  · obtain ⟨o, b, n, rfl, e1, e2, e3⟩ := h2
    refine .inl ⟨o, b, n ++ [a], by simp, e1, e2, ?_⟩
    intro x hx hk
    rcases List.mem_append.1 hx with hx | hx
    · exact e3 x hx hk
    · rw [List.mem_singleton] at hx; subst hx; exact h1 hk
  · refine .inr ⟨h2.1, ?_⟩
    intro x hx hk
    rcases List.mem_append.1 hx with hx | hx
    · exact h2.2 x hx hk
    · rw [List.mem_singleton] at hx; subst hx; exact h1 hk

theorem lastOf_snoc (acts : List (Act κ ν)) (a : Act κ ν) (k : κ) :
    lastOf (acts ++ [a]) k = if a.key = k ∧ a.ok = true then a.effect else lastOf acts k := by
  unfold lastOf
  rw [List.foldl_append]
  rfl

/-- If no change of `k` failed, the only legitimate content is the last change. -/
theorem Explained.exact {acts : List (Act κ ν)} {k : κ} {r : Option ν} (h : Explained acts k r)
    (hok : ∀ a ∈ acts, a.key = k → a.ok = true) : r = lastOf acts k := by
  have skip : ∀ (l : List (Act κ ν)) (x : Option ν), (∀ b ∈ l, b.key = k → b.ok = false) →
      (∀ a ∈ l, a.key = k → a.ok = true) →
      l.foldl (fun r a => if a.key = k ∧ a.ok = true then a.effect else r) x = x := by
    intro l
    induction l with
    | nil => intros; rfl
    | cons b l ih =>
      intro x h1 h2
      rw [List.foldl_cons]
      have : ¬ (b.key = k ∧ b.ok = true) := by
        rintro ⟨hk, hb⟩
        rw [h1 b List.mem_cons_self hk] at hb
        cases hb
      rw [if_neg this]
      exact ih x (fun b hb => h1 b (List.mem_cons_of_mem _ hb)) (fun b hb => h2 b (List.mem_cons_of_mem _ hb))
  rcases h with ⟨o, a, n, rfl, e1, e2, e3⟩ | ⟨rfl, e3⟩
  · unfold lastOf
    rw [List.foldl_append, List.foldl_cons, skip n _ e3 (fun a ha => hok a (by simp [ha]))]
    rw [if_pos ⟨e1, hok a (by simp) e1⟩, e2]
  · unfold lastOf
    rw [skip acts none e3 hok]

/-! ## The invariant -/

/-- The store's state after the changes `acts`. -/
structure Inv (t : Types κ ν) (Holds : L → List Bytes → List Bytes → Prop) (s : Store κ ν L)
    (acts : List (Act κ ν)) (gone kept : List (Ent κ ν)) : Prop where
  holds : Holds s.log (gone.map (Ent.enc t)) (kept.map (Ent.enc t))
  entOk : ∀ e ∈ kept, e.Ok t
  goneOk : ∀ e ∈ gone, e.Ok t
  stored : ∀ k, Explained acts k (lookup (content (gone ++ kept)) k)
  cached : ∀ m, s.cache = some m → Distinct m ∧ (∀ e ∈ m, KeyOk t e.1 ∧ ValOk t e.2) ∧
    ∀ k, Explained acts k (lookup m k)

/-- Requests within the limits of the length prefixes; `flush` sees every entry of the map once. -/
def Ev.Ok (t : Types κ ν) : Ev κ ν Fault Ext → Prop
  | .put k v _ => KeyOk t k ∧ ValOk t v
  | .delete k _ => KeyOk t k
  | .flush o _ => ∀ m, (o m).Perm m
  | _ => True

theorem contentOk {t : Types κ ν} (es : List (Ent κ ν)) (h : ∀ e ∈ es, e.Ok t) :
    ∀ e ∈ content es, KeyOk t e.1 ∧ ValOk t e.2 := by
  have key : ∀ (es : List (Ent κ ν)) (m : List (κ × ν)), (∀ e ∈ es, e.Ok t) →
      (∀ e ∈ m, KeyOk t e.1 ∧ ValOk t e.2) → ∀ e ∈ es.foldl apply m, KeyOk t e.1 ∧ ValOk t e.2 := by
    intro es
    induction es with
    | nil => intro m _ hm; exact hm
    | cons a es ih =>
      intro m he hm
      rw [List.foldl_cons]
      apply ih _ (fun e h => he e (List.mem_cons_of_mem _ h))
      have h0 := he a List.mem_cons_self
      cases a with
      | upd k v =>
        intro e hin
        unfold apply insert at hin
        rcases List.mem_cons.1 hin with rfl | hin
        · exact h0
        · exact hm e (List.mem_filter.1 hin).1
      | del k =>
        intro e hin
        exact hm e (List.mem_filter.1 hin).1
      | chk => intro e hin; cases hin
  exact key es [] h (by simp)

variable {t : Types κ ν} {api : LogApi L Fault Ext} {Holds : L → List Bytes → List Bytes → Prop}

/-- Loading. -/
theorem Inv.load (hl : api.Keeps Holds) (ht : t.Good) {s : Store κ ν L} {acts : List (Act κ ν)}
    {gone kept : List (Ent κ ν)} (h : Inv t Holds s acts gone kept) :
    Inv t Holds (s.load t api) acts gone kept ∧ (s.load t api).log = s.log ∧
    ((s.load t api).cache = none → s.cache = none ∧ gone ≠ [] ∧ Ent.chk ∉ kept) ∧
    (s.cache = none → ∀ m, (s.load t api).cache = some m → m = content (gone ++ kept)) := by
  unfold Store.load
  cases hc : s.cache with
  | some m =>
    refine ⟨h, rfl, ?_, ?_⟩
    · intro e; simp [hc] at e
    · intro e; cases e
  | none =>
    obtain ⟨junk, e1, e2, e3⟩ := hl.read _ _ _ h.holds
    have er : (kept.map (Ent.enc t)).reverse.map some = kept.reverse.map fun e => some (e.enc t) := by
      rw [← List.map_reverse, List.map_map]; rfl
    rw [er] at e1
    have hrep := replay_kept ht gone kept junk h.entOk
      (fun hg => e2 (by rw [hg]; rfl)) (fun hg => e3 (by simpa using hg))
    rw [← e1] at hrep
    refine ⟨⟨h.holds, h.entOk, h.goneOk, h.stored, ?_⟩, rfl, ?_, ?_⟩
    · intro m hm
      dsimp only at hm
      rcases hrep with ⟨hr, _⟩ | ⟨hr, _⟩
      · rw [hr] at hm
        cases hm
        refine ⟨Distinct.content _, contentOk _ ?_, h.stored⟩
        intro e he
        rcases List.mem_append.1 he with he | he
        · exact h.goneOk e he
        · exact h.entOk e he
      · rw [hr] at hm; cases hm
    · intro hm
      dsimp only at hm
      rcases hrep with ⟨hr, _⟩ | ⟨_, hg, hk⟩
      · rw [hr] at hm; cases hm
      · exact ⟨rfl, hg, hk⟩
    · intro _ m hm
      dsimp only at hm
      rcases hrep with ⟨hr, _⟩ | ⟨hr, _⟩
      · rw [hr] at hm; cases hm; rfl
      · rw [hr] at hm; cases hm

/-- what an event adds to the changes -/
def actOf : Ev κ ν Fault Ext → Option Bool → List (Act κ ν)
  | .put k v _, some ok => [⟨k, some v, ok⟩]
  | .delete k _, some ok => [⟨k, none, ok⟩]
  | _, _ => []

theorem actsOf_cons (e : Ev κ ν Fault Ext) (x : Option Bool) (evs : List (Ev κ ν Fault Ext))
    (xs : List (Option Bool)) : actsOf (e :: evs) (x :: xs) = actOf e x ++ actsOf evs xs := by
  cases e <;> cases x <;> simp [actsOf, actOf]

/-- Appending entries to the log, with either outcome. -/
theorem append_holds (hl : api.Keeps Holds) {l : L} {gone kept : List (Ent κ ν)} (f : Fault)
    (es : List (Ent κ ν)) (hne : es ≠ []) (h : Holds l (gone.map (Ent.enc t)) (kept.map (Ent.enc t))) :
    ∃ kept', Holds (api.append l (es.map (Ent.enc t)) f).1 (gone.map (Ent.enc t)) (kept'.map (Ent.enc t)) ∧
      (kept' = kept ++ es ∨ ((api.append l (es.map (Ent.enc t)) f).2 = false ∧ kept' = kept)) := by
  have hne' : es.map (Ent.enc t) ≠ [] := by simpa using hne
  cases ho : (api.append l (es.map (Ent.enc t)) f).2 with
  | true =>
    exact ⟨kept ++ es, by rw [List.map_append]; exact hl.append_ok l _ _ _ f h hne' ho, .inl rfl⟩
  | false =>
    rcases hl.append_failed l _ _ _ f h hne' ho with h1 | h1
    · exact ⟨kept, h1, .inr ⟨rfl, rfl⟩⟩
    · exact ⟨kept ++ es, by rw [List.map_append]; exact h1, .inl rfl⟩

theorem Explained.failed {acts : List (Act κ ν)} {a : Act κ ν} {k : κ} {r : Option ν}
    (h : Explained acts k r) (hk : a.key = k → a.ok = false) : Explained (acts ++ [a]) k r :=
  Explained.snoc (.inr ⟨hk, h⟩)

/-- Every event keeps the invariant; nothing is lost from the log except by `other`. -/
theorem Inv.step (hl : api.Keeps Holds) (ht : t.Good) {s : Store κ ν L} {acts : List (Act κ ν)}
    {gone kept : List (Ent κ ν)} (h : Inv t Holds s acts gone kept) (e : Ev κ ν Fault Ext) (he : e.Ok t) :
    ∃ gone' kept', Inv t Holds (s.step t api e).1 (acts ++ actOf e (s.step t api e).2) gone' kept' ∧
      ((∀ x, e ≠ .other x) → gone' = gone) := by
  obtain ⟨hL, hlog, _, _⟩ := h.load hl ht
  cases e with
  | put k v f =>
    cases hc : (s.load t api).cache with
    | none =>
      have e1 : s.put t api k v f = (s.load t api, false) := by unfold Store.put; rw [hc]
      refine ⟨gone, kept, ?_, fun _ => rfl⟩
      simp only [Store.step, e1, actOf]
      refine ⟨hL.holds, hL.entOk, hL.goneOk, fun k' => (hL.stored k').failed (fun _ => rfl), ?_⟩
      intro m hm
      rw [hc] at hm; cases hm
    | some m =>
      obtain ⟨hd, hmok, hmex⟩ := hL.cached m hc
      obtain ⟨kept', hh, hcase⟩ := append_holds (t := t) hl (l := s.log) (gone := gone) (kept := kept) f
        [Ent.upd k v] (by simp) (by rw [← hlog]; exact hL.holds)
      have henc : [Ent.upd k v].map (Ent.enc t) = [entryC.enc (.updated (t.key.enc k) (t.value.enc v))] := rfl
      rw [henc] at hh hcase
      have hstored : ∀ ok, (kept' = kept ++ [Ent.upd k v] ∨ (ok = false ∧ kept' = kept)) →
          ∀ k', Explained (acts ++ [⟨k, some v, ok⟩]) k' (lookup (content (gone ++ kept')) k') := by
        intro ok hkase k'
        rcases hkase with rfl | ⟨rfl, rfl⟩
        · rw [← List.append_assoc, content_snoc]
          simp only [apply]
          rw [lookup_insert]
          by_cases hk : k = k'
          · rw [if_pos hk]
            exact Explained.snoc (.inl ⟨hk, rfl⟩)
          · rw [if_neg hk]
            exact Explained.snoc (.inr ⟨fun hh => absurd hh hk, h.stored k'⟩)
        · exact (h.stored k').failed fun _ => rfl
      have hentOk : ∀ e ∈ kept', e.Ok t := by
        rcases hcase with rfl | ⟨_, rfl⟩
        · intro e hin
          rcases List.mem_append.1 hin with hin | hin
          · exact h.entOk e hin
          · rw [List.mem_singleton] at hin; subst hin; exact he
        · exact h.entOk
      refine ⟨gone, kept', ?_, fun _ => rfl⟩
      cases ha : api.append s.log [entryC.enc (.updated (t.key.enc k) (t.value.enc v))] f with
      | mk l ok =>
        rw [ha] at hh hcase
        dsimp only at hh hcase
        cases ok with
        | true =>
          have e1 : s.put t api k v f = (⟨some (insert m k v), l⟩, true) := by
            unfold Store.put; rw [hc]; dsimp only; rw [ha]
          simp only [Store.step, e1, actOf]
          refine ⟨hh, hentOk, h.goneOk, hstored true hcase, ?_⟩
          intro m' hm'
          cases hm'
          refine ⟨hd.insert k v, ?_, ?_⟩
          · intro e hin
            rcases List.mem_cons.1 hin with rfl | hin
            · exact he
            · exact hmok e (List.mem_filter.1 hin).1
          · intro k'
            rw [lookup_insert]
            by_cases hk : k = k'
            · rw [if_pos hk]
              exact Explained.snoc (.inl ⟨hk, rfl⟩)
            · rw [if_neg hk]
              exact Explained.snoc (.inr ⟨fun hh => absurd hh hk, hmex k'⟩)
        | false =>
          have e1 : s.put t api k v f = (⟨some m, l⟩, false) := by
            unfold Store.put; rw [hc]; dsimp only; rw [ha]
          simp only [Store.step, e1, actOf]
          refine ⟨hh, hentOk, h.goneOk, hstored false hcase, ?_⟩
          intro m' hm'
          cases hm'
          exact ⟨hd, hmok, fun k' => (hmex k').failed fun _ => rfl⟩
  | delete k f =>
    cases hc : (s.load t api).cache with
    | none =>
      have e1 : s.delete t api k f = (s.load t api, false) := by unfold Store.delete; rw [hc]
      refine ⟨gone, kept, ?_, fun _ => rfl⟩
      simp only [Store.step, e1, actOf]
      refine ⟨hL.holds, hL.entOk, hL.goneOk, fun k' => (hL.stored k').failed (fun _ => rfl), ?_⟩
      intro m hm
      rw [hc] at hm; cases hm
    | some m =>
      obtain ⟨hd, hmok, hmex⟩ := hL.cached m hc
      obtain ⟨kept', hh, hcase⟩ := append_holds (t := t) hl (l := s.log) (gone := gone) (kept := kept) f
        [Ent.del k] (by simp) (by rw [← hlog]; exact hL.holds)
      have henc : [(Ent.del k : Ent κ ν)].map (Ent.enc t) = [entryC.enc (.deleted (t.key.enc k))] := rfl
      rw [henc] at hh hcase
      refine ⟨gone, kept', ?_, fun _ => rfl⟩
      cases ha : api.append s.log [entryC.enc (.deleted (t.key.enc k))] f with
      | mk l ok =>
        rw [ha] at hh hcase
        dsimp only at hh hcase
        have e1 : s.delete t api k f = (⟨some (erase m k), l⟩, ok) := by
          simp only [Store.delete, hc, ha]
        simp only [Store.step, e1, actOf]
        refine ⟨hh, ?_, h.goneOk, ?_, ?_⟩
        · rcases hcase with rfl | ⟨_, rfl⟩
          · intro e hin
            rcases List.mem_append.1 hin with hin | hin
            · exact h.entOk e hin
            · rw [List.mem_singleton] at hin; subst hin; exact he
          · exact h.entOk
        · intro k'
          rcases hcase with rfl | ⟨rfl, rfl⟩
          · rw [← List.append_assoc, content_snoc]
            simp only [apply]
            rw [lookup_erase]
            by_cases hk : k = k'
            · rw [if_pos hk]
              exact Explained.snoc (.inl ⟨hk, rfl⟩)
            · rw [if_neg hk]
              exact Explained.snoc (.inr ⟨fun hh => absurd hh hk, h.stored k'⟩)
          · exact (h.stored k').failed fun _ => rfl
        · intro m' hm'
          cases hm'
          refine ⟨hd.erase k, fun e hin => hmok e (List.mem_filter.1 hin).1, ?_⟩
          intro k'
          rw [lookup_erase]
          by_cases hk : k = k'
          · rw [if_pos hk]
            exact Explained.snoc (.inl ⟨hk, rfl⟩)
          · rw [if_neg hk]
            exact Explained.snoc (.inr ⟨fun hh => absurd hh hk, hmex k'⟩)
  | flush o f =>
    cases hc : (s.load t api).cache with
    | none =>
      have e1 : s.flush t api o f = (s.load t api, false) := by unfold Store.flush; rw [hc]
      refine ⟨gone, kept, ?_, fun _ => rfl⟩
      simp only [Store.step, e1, actOf, List.append_nil]
      exact hL
    | some m =>
      obtain ⟨hd, hmok, hmex⟩ := hL.cached m hc
      obtain ⟨kept', hh, hcase⟩ := append_holds (t := t) hl (l := s.log) (gone := gone) (kept := kept) f
        (snapshot (o m)) (by simp [snapshot]) (by rw [← hlog]; exact hL.holds)
      have henc : (snapshot (o m)).map (Ent.enc t) = entryC.enc .checkpoint ::
          (o m).map fun e => entryC.enc (.updated (t.key.enc e.1) (t.value.enc e.2)) := by
        unfold snapshot
        rw [List.map_cons, List.map_map]
        rfl
      rw [henc] at hh hcase
      refine ⟨gone, kept', ?_, fun _ => rfl⟩
      cases ha : api.append s.log (entryC.enc .checkpoint ::
          (o m).map fun e => entryC.enc (.updated (t.key.enc e.1) (t.value.enc e.2))) f with
      | mk l ok =>
        rw [ha] at hh hcase
        dsimp only at hh hcase
        have e1 : s.flush t api o f = (⟨some m, l⟩, ok) := by
          simp only [Store.flush, hc, ha]
        simp only [Store.step, e1, actOf, List.append_nil]
        refine ⟨hh, ?_, h.goneOk, ?_, ?_⟩
        · rcases hcase with rfl | ⟨_, rfl⟩
          · intro e hin
            rcases List.mem_append.1 hin with hin | hin
            · exact h.entOk e hin
            · rcases List.mem_cons.1 hin with rfl | hin
              · trivial
              · obtain ⟨x, hx, rfl⟩ := List.mem_map.1 hin
                exact hmok x ((he m).mem_iff.1 hx)
          · exact h.entOk
        · intro k'
          rcases hcase with rfl | ⟨rfl, rfl⟩
          · rw [← List.append_assoc, content_snapshot _ (he m) hd]
            exact hmex k'
          · exact h.stored k'
        · intro m' hm'
          cases hm'
          exact ⟨hd, hmok, hmex⟩
  | restart =>
    refine ⟨gone, kept, ?_, fun _ => rfl⟩
    simp only [Store.step, actOf, List.append_nil]
    exact ⟨h.holds, h.entOk, h.goneOk, h.stored, fun m hm => by cases hm⟩
  | load =>
    refine ⟨gone, kept, ?_, fun _ => rfl⟩
    simp only [Store.step, actOf, List.append_nil]
    exact hL
  | other x =>
    obtain ⟨tt, d, e1, e2⟩ := hl.other _ _ _ x h.holds
    obtain ⟨k1, k2, rfl, rfl, rfl⟩ := List.map_eq_append_iff.1 e1
    refine ⟨gone ++ k1, k2, ?_, fun hx => absurd rfl (hx x)⟩
    simp only [Store.step, actOf, List.append_nil]
    refine ⟨by rw [List.map_append]; exact e2, fun e he => h.entOk e (by simp [he]), ?_, ?_, h.cached⟩
    · intro e he
      rcases List.mem_append.1 he with he | he
      · exact h.goneOk e he
      · exact h.entOk e (by simp [he])
    · intro k
      rw [List.append_assoc]
      exact h.stored k

theorem Inv.run (hl : api.Keeps Holds) (ht : t.Good) : ∀ (evs : List (Ev κ ν Fault Ext)) {s : Store κ ν L}
    {acts : List (Act κ ν)} {gone kept : List (Ent κ ν)}, Inv t Holds s acts gone kept →
    (∀ e ∈ evs, e.Ok t) →
    ∃ gone' kept', Inv t Holds (s.run t api evs).1 (acts ++ actsOf evs (s.run t api evs).2) gone' kept' ∧
      ((∀ e ∈ evs, ∀ x, e ≠ .other x) → gone' = gone)
  | [], s, acts, gone, kept, h, _ => ⟨gone, kept, by simpa [Store.run, actsOf] using h, fun _ => rfl⟩
  | e :: evs, s, acts, gone, kept, h, he => by
    obtain ⟨g1, k1, h1, hg1⟩ := h.step hl ht e (he e List.mem_cons_self)
    obtain ⟨g2, k2, h2, hg2⟩ := Inv.run hl ht evs h1 (fun x hx => he x (List.mem_cons_of_mem _ hx))
    refine ⟨g2, k2, ?_, ?_⟩
    · simp only [Store.run, actsOf_cons]
      rw [← List.append_assoc]
      exact h2
    · intro hx
      rw [hg2 (fun x hin => hx x (List.mem_cons_of_mem _ hin)), hg1 (hx e List.mem_cons_self)]

end Verif.Kv
