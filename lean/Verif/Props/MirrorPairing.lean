import Verif.Mirror.Pairing

/-!
# C111: the partitions of a mirrored topic are paired one to one

A partition of a mirrored topic at the home cluster belongs to one remote cluster and exchanges records with the
partition of the same topic there, and with nothing else.
-/

namespace Verif.Props

open Verif.Mirror.Pairing

namespace C111

/-- Every partition of every mirrored topic names the replica of its own topic and has the topic's direction. -/
def Named (h : Home) : Prop :=
  ∀ t T, h.topics t = some T → ∀ p ∈ T.parts, p.replica = replicaName t 0 ∧ p.source = T.source

/-- No topic has two partitions for the same remote cluster. -/
def Distinct (h : Home) : Prop := ∀ t T, h.topics t = some T → (T.parts.map (·.cluster)).Nodup

/-- The file of `--mirror-apply` lists each cluster once. -/
def Once : Ev → Prop
  | .apply _ cs _ => cs.Nodup
  | _ => True

/-- The topic is not deleted at the home cluster. -/
def Keeps (t : String) : Ev → Prop
  | .delete t' => t' ≠ t
  | _ => True

/-- The topic is not deleted at the home cluster and no broker there changes its address. -/
def Calm (t : String) : Ev → Prop
  | .delete t' => t' ≠ t
  | .move _ _ => False
  | _ => True

/-- `order` lists the partitions that the broker leads. -/
def Lists (h : Home) (s : Int) (order : List Rep) : Prop := ∀ r, r ∈ order ↔ Leads h s r

theorem replicaName_inj {a b : String} (h : replicaName a 0 = replicaName b 0) : a = b := by
  have h' := congrArg String.toList h
  simp only [replicaName, String.toList_append] at h'
  exact String.toList_injective (List.append_cancel_right (List.append_cancel_right h'))

theorem put_same {α : Type} (f : String → α) (k : String) (a : α) : put f k a k = a := by simp [put]

theorem put_other {α : Type} (f : String → α) {k t : String} (a : α) (h : t ≠ k) : put f k a t = f t := by
  simp [put, h]

/-! ### Topics of the home cluster -/

/-- What an event can do to a topic of the home cluster. -/
inductive Change (h : Home) (e : Ev) (t : String) : Option HTopic → Prop
  | same : Change h e t (h.topics t)
  | gone : e = .delete t → Change h e t none
  | applied (cs : List String) (b : Bool) : e = .apply t cs b → h.topics t = none →
      Change h e t (some ((fromSimple t cs).setHomeToRemote b))
  | emptied (b : Bool) : h.topics t = none → Change h e t (some (createEmpty b))
  | added (T : HTopic) (c : String) : h.topics t = some T → (∀ p ∈ T.parts, p.cluster ≠ c) →
      Change h e t (some { T with parts := T.parts ++ [⟨c, replicaName t 0, T.source⟩] })

theorem insert_change (h : Home) (e : Ev) (k : String) (X : Option HTopic) (t : String)
    (hx : ∀ T, X = some T → t = k → h.topics t = none → Change h e t (some T)) :
    Change h e t ((h.insert k X).topics t) := by
  unfold Home.insert
  split
  · next T hk =>
    by_cases htk : t = k
    · subst htk; simp only [put_same]; exact hx T rfl rfl hk
    · simp only [put_other _ _ htk]; exact .same
  · exact .same

theorem change (hid rid : String) (w : World) (e : Ev) (t : String) :
    Change w.home e t ((step hid rid w e).home.topics t) := by
  cases e with
  | apply k cs b =>
    refine insert_change _ _ _ _ _ fun T hT htk h0 => ?_
    subst htk
    simp only [createApply] at hT
    split at hT
    · cases hT; exact .applied cs b rfl h0
    · cases hT
  | empty k b =>
    refine insert_change _ _ _ _ _ fun T hT htk h0 => ?_
    cases hT; exact .emptied b h0
  | add k c =>
    simp only [step, Home.extend]
    split
    · next T hk =>
      split
      · next T' hT' =>
        by_cases htk : t = k
        · subst htk
          simp only [put_same]
          simp only [addMirror] at hT'
          split at hT'
          · split at hT'
            · cases hT'
            · next hn =>
              cases hT'
              refine .added T c hk fun p hp hc => hn ?_
              exact List.any_eq_true.mpr ⟨p, hp, by simp [hc]⟩
          · cases hT'
        · simp only [put_other _ _ htk]; exact .same
      · exact .same
    · exact .same
  | delete k =>
    simp only [step]
    by_cases htk : t = k
    · subst htk; simp only [put_same]; exact .gone rfl
    · simp only [put_other _ _ htk]; exact .same
  | assign k i s =>
    simp only [step, Home.assign]
    split
    · split <;> exact .same
    · exact .same
  | spu s a => simp only [step]; split <;> exact .same
  | move s a => simp only [step]; split <;> exact .same
  | mirrors l => exact .same
  | sync => exact .same
  | resolve k => exact .same
  | create k => exact .same
  | start k => exact .same
  | own k => exact .same
  | restart => exact .same

theorem named_step {hid rid : String} {w : World} (h : Named w.home) (e : Ev) :
    Named (step hid rid w e).home := by
  intro t T hT
  have hc := change hid rid w e t
  rw [hT] at hc
  generalize hx : some T = x at hc
  cases hc with
  | same => exact h t T hx.symm
  | gone _ => cases hx
  | applied cs b _ _ =>
    cases hx
    intro p hp
    simp only [HTopic.setHomeToRemote, fromSimple, List.map_map, List.mem_map, Function.comp] at hp
    obtain ⟨c, _, rfl⟩ := hp
    exact ⟨rfl, rfl⟩
  | emptied b _ => cases hx; intro p hp; simp [createEmpty] at hp
  | added T₀ c h0 _ =>
    cases hx
    intro p hp
    rcases List.mem_append.mp hp with hp | hp
    · exact h t T₀ h0 p hp
    · obtain rfl := List.mem_singleton.mp hp; exact ⟨rfl, rfl⟩

theorem distinct_step {hid rid : String} {w : World} (h : Distinct w.home) (e : Ev) (ho : Once e) :
    Distinct (step hid rid w e).home := by
  intro t T hT
  have hc := change hid rid w e t
  rw [hT] at hc
  generalize hx : some T = x at hc
  cases hc with
  | same => exact h t T hx.symm
  | gone _ => cases hx
  | applied cs b he _ =>
    cases hx
    subst he
    have : (((fromSimple t cs).setHomeToRemote b).parts.map (·.cluster)) = cs := by
      simp [HTopic.setHomeToRemote, fromSimple, Function.comp_def]
    rw [this]; exact ho
  | emptied b _ => cases hx; simp [createEmpty]
  | added T₀ c h0 hn =>
    cases hx
    simp only [List.map_append, List.map_cons, List.map_nil]
    refine List.nodup_append.mpr ⟨h t T₀ h0, by simp, ?_⟩
    intro a ha b hb hab
    obtain ⟨p, hp, rfl⟩ := List.mem_map.mp ha
    exact hn p hp (hab.trans (List.mem_singleton.mp hb))

theorem run_induction {hid rid : String} (P : World → Prop) (Q : Ev → Prop)
    (hstep : ∀ w e, P w → Q e → P (step hid rid w e)) (es : List Ev) (w : World) (h : P w)
    (hq : ∀ e ∈ es, Q e) : P (run hid rid w es) := by
  induction es generalizing w with
  | nil => exact h
  | cons e es ih =>
    exact ih _ (hstep w e h (hq e (by simp))) fun e' he' => hq e' (by simp [he'])

theorem named_run (hid rid : String) (es : List Ev) : Named (run hid rid init es).home :=
  run_induction (fun w => Named w.home) (fun _ => True) (fun _ e h _ => named_step h e) es init
    (fun t T h => nomatch h) fun _ _ => trivial

theorem distinct_run (hid rid : String) (es : List Ev) (ho : ∀ e ∈ es, Once e) :
    Distinct (run hid rid init es).home :=
  run_induction (fun w => Distinct w.home) Once (fun _ e h he => distinct_step h e he) es init
    (fun t T h => nomatch h) ho

/-! ### The broker that serves a connection -/

theorem serve_sound {h : Home} (hn : Named h) {s : Int} {order : List Rep} (ho : ∀ r ∈ order, Leads h s r)
    {c k : String} {r : Rep} (hs : serve order c k = some r) :
    Leads h s r ∧ r.part.cluster = c ∧ k = replicaName r.topic 0 := by
  have hm := List.mem_of_find?_eq_some hs
  have hp := List.find?_some hs
  simp only [Bool.and_eq_true, beq_iff_eq] at hp
  obtain ⟨T, hT, hi, hl⟩ := ho r hm
  refine ⟨⟨T, hT, hi, hl⟩, hp.1, ?_⟩
  rw [← hp.2]
  exact (hn _ T hT r.part (List.mem_of_getElem? hi)).1

theorem same_index {T : HTopic} (hd : (T.parts.map (·.cluster)).Nodup) {i j : Nat} {p q : HPart}
    (hi : T.parts[i]? = some p) (hj : T.parts[j]? = some q) (hpq : p.cluster = q.cluster) : i = j := by
  have hlt : i < (T.parts.map (·.cluster)).length := by
    rw [List.length_map]
    exact (List.getElem?_eq_some_iff.mp hi).1
  refine (List.getElem?_inj hlt hd).mp ?_
  simp [hi, hj, hpq]

theorem serve_unique {h : Home} (hn : Named h) (hd : Distinct h) {s : Int} {order : List Rep}
    (ho : Lists h s order) {t : String} {T : HTopic} {i : Nat} {p : HPart} (hT : h.topics t = some T)
    (hi : T.parts[i]? = some p) (hl : h.leader t i = some s) :
    serve order p.cluster (replicaName t 0) = some ⟨t, i, p⟩ := by
  have hmem : (⟨t, i, p⟩ : Rep) ∈ order := (ho _).mpr ⟨T, hT, hi, hl⟩
  have hrep := (hn t T hT p (List.mem_of_getElem? hi)).1
  cases hs : serve order p.cluster (replicaName t 0) with
  | none =>
    have := List.find?_eq_none.mp hs _ hmem
    simp [hrep] at this
  | some r =>
    obtain ⟨⟨T', hT', hr, _⟩, hc, hk⟩ := serve_sound hn (fun r hr => (ho r).mp hr) hs
    obtain ⟨rt, ri, rp⟩ := r
    have hrt : t = rt := replicaName_inj hk
    subst hrt
    have hTT : T = T' := Option.some.inj (hT.symm.trans hT')
    subst hTT
    have hij : i = ri := same_index (hd t T hT) hi hr hc.symm
    subst hij
    have : p = rp := Option.some.inj (hi.symm.trans hr)
    subst this
    rfl

/-! ### What a remote cluster is told -/

theorem message_eq {h : Home} {rid t : String} {m : Msg} :
    message h rid t = some m ↔ ∃ T i s, h.topics t = some T ∧ T.parts.findIdx? (fun p => p.cluster == rid) = some i ∧
      h.leader t i = some s ∧ h.addr s = some m.endpoint ∧ m.spu = s ∧ m.source = T.source := by
  obtain ⟨a, b, c⟩ := m
  simp only [message, Option.bind_eq_some_iff, Option.map_eq_some_iff]
  constructor
  · rintro ⟨T, hT, i, hi, s, hs, e, he, hm⟩
    cases hm
    exact ⟨T, i, _, hT, hi, hs, he, rfl, rfl⟩
  · rintro ⟨T, i, s, hT, hi, hs, he, rfl, rfl⟩
    exact ⟨T, hT, i, hi, _, hs, _, he, rfl⟩

/-- Topics that stay keep their first partitions. -/
theorem grows {hid rid : String} {w : World} {e : Ev} {t : String} (hk : Keeps t e) {T : HTopic}
    (hT : w.home.topics t = some T) : ∃ l, (step hid rid w e).home.topics t = some { T with parts := T.parts ++ l } := by
  have hc := change hid rid w e t
  generalize hx : (step hid rid w e).home.topics t = x at hc
  cases hc with
  | same => exact ⟨[], by simp [hT]⟩
  | gone he => subst he; exact absurd rfl hk
  | applied cs b _ h0 => rw [hT] at h0; cases h0
  | emptied b h0 => rw [hT] at h0; cases h0
  | added T₀ c h0 _ =>
    rw [hT] at h0; cases h0
    exact ⟨_, rfl⟩

theorem leader_step {hid rid : String} {w : World} {e : Ev} {t : String} (hk : Keeps t e) {i : Nat} {s : Int}
    (h : w.home.leader t i = some s) : (step hid rid w e).home.leader t i = some s := by
  cases e with
  | delete k => simp only [step, put_other _ _ (Ne.symm hk), h]
  | assign k j s' =>
    simp only [step, Home.assign]
    split
    · next hn =>
      split
      · by_cases htk : t = k
        · subst htk
          simp only [put_same]
          split
          · next hij => subst hij; rw [h] at hn; cases hn
          · exact h
        · simp only [put_other _ _ htk, h]
      · exact h
    · exact h
  | apply k cs b => simp only [step, Home.insert]; split <;> exact h
  | empty k b => simp only [step, Home.insert]; split <;> exact h
  | add k c =>
    simp only [step, Home.extend]
    split
    · split <;> exact h
    · exact h
  | spu s' a => simp only [step]; split <;> exact h
  | move s' a => simp only [step]; split <;> exact h
  | mirrors l => exact h
  | sync => exact h
  | resolve k => exact h
  | create k => exact h
  | start k => exact h
  | own k => exact h
  | restart => exact h

/-- Addresses stay known, and stay as they are unless a broker moves. -/
theorem addr_step {hid rid : String} {w : World} (e : Ev) {s : Int} {a : String} (h : w.home.addr s = some a) :
    ∃ a', (step hid rid w e).home.addr s = some a' ∧ ((∀ s' a', e ≠ .move s' a') → a' = a) := by
  cases e with
  | spu s' b =>
    simp only [step]
    split
    · exact ⟨a, h, fun _ => rfl⟩
    · next hn =>
      simp only [Home.setAddr]
      split
      · next hs => subst hs; rw [h] at hn; exact absurd rfl hn
      · exact ⟨a, h, fun _ => rfl⟩
  | move s' b =>
    simp only [step]
    split
    · simp only [Home.setAddr]
      split
      · exact ⟨b, rfl, fun hm => absurd rfl (hm s' b)⟩
      · exact ⟨a, h, fun _ => rfl⟩
    · exact ⟨a, h, fun _ => rfl⟩
  | apply k cs b => refine ⟨a, ?_, fun _ => rfl⟩; simp only [step, Home.insert]; split <;> exact h
  | empty k b => refine ⟨a, ?_, fun _ => rfl⟩; simp only [step, Home.insert]; split <;> exact h
  | add k c =>
    refine ⟨a, ?_, fun _ => rfl⟩
    simp only [step, Home.extend]
    split
    · split <;> exact h
    · exact h
  | assign k i s' =>
    refine ⟨a, ?_, fun _ => rfl⟩
    simp only [step, Home.assign]
    split
    · split <;> exact h
    · exact h
  | delete k => exact ⟨a, h, fun _ => rfl⟩
  | mirrors l => exact ⟨a, h, fun _ => rfl⟩
  | sync => exact ⟨a, h, fun _ => rfl⟩
  | resolve k => exact ⟨a, h, fun _ => rfl⟩
  | create k => exact ⟨a, h, fun _ => rfl⟩
  | start k => exact ⟨a, h, fun _ => rfl⟩
  | own k => exact ⟨a, h, fun _ => rfl⟩
  | restart => exact ⟨a, h, fun _ => rfl⟩

theorem message_step {hid rid : String} {w : World} {e : Ev} {t : String} (hk : Keeps t e) {m : Msg}
    (h : message w.home rid t = some m) :
    ∃ m', message (step hid rid w e).home rid t = some m' ∧ ((∀ s' a', e ≠ .move s' a') → m' = m) := by
  obtain ⟨T, i, s, hT, hi, hl, ha, hs, hsrc⟩ := message_eq.mp h
  obtain ⟨l, hT'⟩ := grows (hid := hid) (rid := rid) hk hT
  obtain ⟨a', ha', hsame⟩ := addr_step (hid := hid) (rid := rid) e ha
  refine ⟨⟨m.source, m.spu, a'⟩, message_eq.mpr ⟨_, i, s, hT', ?_, leader_step hk hl, ha', hs, hsrc⟩, fun hm => ?_⟩
  · simp [List.findIdx?_append, hi]
  · rw [hsame hm]

theorem calm_keeps {t : String} {e : Ev} (h : Calm t e) : Keeps t e ∧ ∀ s a, e ≠ .move s a := by
  cases e <;> first | exact ⟨h, fun _ _ => Ev.noConfusion⟩ | exact ⟨trivial, fun _ _ => Ev.noConfusion⟩ | exact h.elim

/-! ### The remote cluster -/

/-- Everything the remote cluster knows about mirroring the topic satisfies `G`, and one task at most mirrors it. -/
structure RInv (G : RConf → Prop) (t : String) (r : Remote) : Prop where
  spec : ∀ T c, r.topics t = some T → T.spec = some c → G c
  res : ∀ T c, r.topics t = some T → T.resolved = some (some c) → G c
  part : ∀ c, r.part t = some (some c) → G c
  task : ∀ c, (t, c) ∈ r.tasks → G c
  led : r.led t = true → (r.topics t).isSome
  partTopic : (r.part t).isSome → (r.topics t).isSome
  one : (r.tasks.filter fun e => e.1 == t).length ≤ 1
  free : r.led t = false → (r.tasks.filter fun e => e.1 == t) = []

theorem RInv.mono {G G' : RConf → Prop} {t : String} {r : Remote} (h : RInv G t r) (hg : ∀ c, G c → G' c) :
    RInv G' t r :=
  ⟨fun T c a b => hg c (h.spec T c a b), fun T c a b => hg c (h.res T c a b), fun c a => hg c (h.part c a),
    fun c a => hg c (h.task c a), h.led, h.partTopic, h.one, h.free⟩

/-- A topic whose message still comes is not deleted. -/
theorem sync_kept {G : RConf → Prop} {t hid : String} {r : Remote} {x : Option Msg} (h : RInv G t r)
    (hG : ∀ c, G c → x.isSome) (ht : (r.topics t).isSome) :
    (syncTopic hid x (r.topics t)).isSome := by
  cases hx : x with
  | some m => cases r.topics t <;> rfl
  | none =>
    cases hT : r.topics t with
    | none => rw [hT] at ht; exact ht
    | some T =>
      obtain ⟨sp, rs⟩ := T
      cases sp with
      | none => rfl
      | some c =>
        have := hG c (h.spec _ c hT rfl)
        rw [hx] at this; cases this

theorem rinv_sync {G : RConf → Prop} {t hid : String} {r : Remote} {snap : String → Option Msg} (h : RInv G t r)
    (hG : ∀ c, G c → (snap t).isSome) (hm : ∀ m, snap t = some m → G (conf hid m)) :
    RInv G t (r.sync hid snap) := by
  have hres : ∀ T c, syncTopic hid (snap t) (r.topics t) = some T →
      (T.spec = some c → G c) ∧ (T.resolved = some (some c) → G c) := by
    intro T c hT
    cases hx : snap t with
    | some m =>
      cases hr : r.topics t with
      | none =>
        rw [hx, hr] at hT; cases hT
        exact ⟨fun e => by cases e; exact hm m hx, fun e => nomatch e⟩
      | some T₀ =>
        rw [hx, hr] at hT; cases hT
        exact ⟨fun e => by cases e; exact hm m hx, fun e => h.res T₀ c hr e⟩
    | none =>
      cases hr : r.topics t with
      | none => rw [hx, hr] at hT; cases hT
      | some T₀ =>
        obtain ⟨sp, rs⟩ := T₀
        cases sp with
        | none => rw [hx, hr] at hT; cases hT; exact ⟨(fun e => nomatch e), fun e => h.res _ c hr e⟩
        | some c' =>
          have := hG c' (h.spec _ c' hr rfl)
          rw [hx] at this; cases this
  refine ⟨fun T c hT => (hres T c hT).1, fun T c hT => (hres T c hT).2, ?_, h.task, ?_, ?_, h.one, ?_⟩
  · intro c hc
    simp only [Remote.sync] at hc
    split at hc
    · exact h.part c hc
    · cases hc
  · intro hl
    simp only [Remote.sync, Bool.and_eq_true] at hl
    exact hl.1
  · intro hp
    simp only [Remote.sync] at hp
    split at hp
    · assumption
    · cases hp
  · intro hl
    simp only [Remote.sync, Bool.and_eq_false_iff] at hl
    rcases hl with hl | hl
    · cases hled : r.led t with
      | false => exact h.free hled
      | true =>
        have := sync_kept (hid := hid) h hG (h.led hled)
        rw [this] at hl; cases hl
    · exact h.free hl

theorem rinv_resolve {G : RConf → Prop} {t : String} {r : Remote} (h : RInv G t r) (k : String) :
    RInv G t (r.resolve k) := by
  unfold Remote.resolve
  split
  · next sp hk =>
    by_cases htk : t = k
    · subst htk
      refine ⟨?_, ?_, h.part, h.task, fun _ => by simp [put_same], fun _ => by simp [put_same], h.one, h.free⟩
      · intro T c hT hc
        simp only [put_same] at hT; cases hT
        exact h.spec _ c hk hc
      · intro T c hT hc
        simp only [put_same] at hT; cases hT
        exact h.spec _ c hk (Option.some.inj hc)
    · refine ⟨?_, ?_, h.part, h.task, ?_, ?_, h.one, h.free⟩ <;> simp only [put_other _ _ htk]
      · exact h.spec
      · exact h.res
      · exact h.led
      · exact h.partTopic
  · exact h

theorem rinv_create {G : RConf → Prop} {t : String} {r : Remote} (h : RInv G t r) (k : String) :
    RInv G t (r.create k) := by
  unfold Remote.create
  split
  · next c hk hn =>
    refine ⟨h.spec, h.res, ?_, h.task, h.led, ?_, h.one, h.free⟩
    · intro c' hc'
      by_cases htk : t = k
      · subst htk
        simp only [put_same] at hc'
        exact h.res _ c' hk hc'
      · simp only [put_other _ _ htk] at hc'
        exact h.part c' hc'
    · by_cases htk : t = k
      · subst htk; intro _; simp [hk]
      · simp only [put_other _ _ htk]; exact h.partTopic
  · exact h

theorem rinv_start {G : RConf → Prop} {t : String} {r : Remote} (h : RInv G t r) (k : String) :
    RInv G t (r.start k) := by
  unfold Remote.start
  split
  · next c hp hl =>
    by_cases htk : t = k
    · subst htk
      refine ⟨h.spec, h.res, h.part, ?_, fun _ => h.partTopic (by simp [hp]), h.partTopic, ?_, ?_⟩
      · intro c' hc'
        rcases List.mem_append.mp hc' with hc' | hc'
        · exact h.task c' hc'
        · cases List.mem_singleton.mp hc'; exact h.part _ hp
      · simp only [List.filter_append, h.free hl]
        simp
      · intro hf; simp only [put_same] at hf; cases hf
    · have hkt : (k == t) = false := by simp [Ne.symm htk]
      refine ⟨h.spec, h.res, h.part, ?_, ?_, h.partTopic, ?_, ?_⟩
      · intro c' hc'
        rcases List.mem_append.mp hc' with hc' | hc'
        · exact h.task c' hc'
        · cases List.mem_singleton.mp hc'; exact absurd rfl htk
      · simp only [put_other _ _ htk]; exact h.led
      · simp only [List.filter_append, List.filter_cons, hkt, List.filter_nil]
        simpa using h.one
      · simp only [put_other _ _ htk, List.filter_append, List.filter_cons, hkt, List.filter_nil]
        intro hf
        simpa using h.free hf
  · next hp hl =>
    by_cases htk : t = k
    · subst htk
      refine ⟨h.spec, h.res, h.part, h.task, fun _ => h.partTopic (by simp [hp]), h.partTopic, h.one, ?_⟩
      intro hf; simp only [put_same] at hf; cases hf
    · refine ⟨h.spec, h.res, h.part, h.task, ?_, h.partTopic, h.one, ?_⟩ <;> simp only [put_other _ _ htk]
      · exact h.led
      · exact h.free
  · exact h

theorem rinv_own {G : RConf → Prop} {t : String} {r : Remote} (h : RInv G t r) (k : String) :
    RInv G t (r.own k) := by
  unfold Remote.own
  split
  · next hk =>
    by_cases htk : t = k
    · subst htk
      refine ⟨?_, ?_, h.part, h.task, fun _ => by simp [put_same], fun _ => by simp [put_same], h.one, h.free⟩
      · intro T c hT hc
        simp only [put_same] at hT; cases hT; cases hc
      · intro T c hT hc
        simp only [put_same] at hT; cases hT; cases hc
    · refine ⟨?_, ?_, h.part, h.task, ?_, ?_, h.one, h.free⟩ <;> simp only [put_other _ _ htk]
      · exact h.spec
      · exact h.res
      · exact h.led
      · exact h.partTopic
  · exact h

theorem rinv_restart {G : RConf → Prop} {t : String} {r : Remote} (h : RInv G t r) : RInv G t r.restart :=
  ⟨h.spec, h.res, h.part, (fun c hc => nomatch hc), (fun e => nomatch e), h.partTopic, Nat.zero_le _, fun _ => rfl⟩

/-- The configuration is what the home cluster tells now. -/
def Current (hid rid t : String) (w : World) (c : RConf) : Prop :=
  message w.home rid t = some ⟨c.target, c.spu, c.endpoint⟩ ∧ c.home = hid

theorem current_step {hid rid t : String} {w : World} {e : Ev} (hc : Calm t e) (c : RConf)
    (h : Current hid rid t w c) : Current hid rid t (step hid rid w e) c := by
  obtain ⟨hk, hm⟩ := calm_keeps hc
  obtain ⟨m', h1, h2⟩ := message_step (hid := hid) hk h.1
  exact ⟨by rw [h1, h2 hm], h.2⟩

theorem rinv_step {hid rid t : String} {w : World} (h : RInv (Current hid rid t w) t w.remote) (e : Ev)
    (hc : Calm t e) : RInv (Current hid rid t (step hid rid w e)) t (step hid rid w e).remote := by
  have h' := h.mono fun c hcur => current_step (e := e) hc c hcur
  cases e with
  | sync =>
    refine rinv_sync h' (fun c hcur => ?_) fun m hm => ⟨hm, rfl⟩
    have hcur' : message w.home rid t = some ⟨c.target, c.spu, c.endpoint⟩ := hcur.1
    rw [hcur']; rfl
  | resolve k => exact rinv_resolve h' k
  | create k => exact rinv_create h' k
  | start k => exact rinv_start h' k
  | own k => exact rinv_own h' k
  | restart => exact rinv_restart h'
  | spu s a =>
    have : (step hid rid w (.spu s a)).remote = w.remote := by simp only [step]; split <;> rfl
    rw [this]; exact h'
  | move s a => exact hc.elim
  | apply k cs b => exact h'
  | empty k b => exact h'
  | add k c => exact h'
  | delete k => exact h'
  | mirrors l => exact h'
  | assign k i s => exact h'

theorem rinv_run (hid rid t : String) (es : List Ev) (hc : ∀ e ∈ es, Calm t e) :
    RInv (Current hid rid t (run hid rid init es)) t (run hid rid init es).remote :=
  run_induction (fun w => RInv (Current hid rid t w) t w.remote) (Calm t) (fun _ e h he => rinv_step h e he) es init
    ⟨(fun _ _ h => nomatch h), (fun _ _ h => nomatch h), (fun _ h => nomatch h), (fun _ h => nomatch h),
      (fun h => nomatch h), (fun h => nomatch h), Nat.zero_le _, fun _ => rfl⟩ hc

/-- The partition of a topic that exists at the remote cluster and that the home cluster keeps. -/
structure Stuck (rid t : String) (x : Option RConf) (w : World) : Prop where
  told : (message w.home rid t).isSome
  topic : (w.remote.topics t).isSome
  part : w.remote.part t = some x
  task : ∀ c, (t, c) ∈ w.remote.tasks → x = some c

theorem stuck_step {hid rid t : String} {x : Option RConf} {w : World} (h : Stuck rid t x w) (e : Ev)
    (hk : Keeps t e) : Stuck rid t x (step hid rid w e) := by
  have htold : (message (step hid rid w e).home rid t).isSome := by
    obtain ⟨m, hm⟩ := Option.isSome_iff_exists.mp h.told
    obtain ⟨m', h1, _⟩ := message_step (hid := hid) hk hm
    rw [h1]; rfl
  cases e with
  | sync =>
    obtain ⟨m, hm⟩ := Option.isSome_iff_exists.mp h.told
    have hs : (syncTopic hid (message w.home rid t) (w.remote.topics t)).isSome := by
      rw [hm]; cases w.remote.topics t <;> rfl
    refine ⟨htold, hs, ?_, h.task⟩
    simp only [step, Remote.sync, hs, if_true]; exact h.part
  | resolve k =>
    refine ⟨htold, ?_, ?_, ?_⟩ <;> simp only [step, Remote.resolve] <;> split
    · by_cases htk : t = k
      · subst htk; simp [put_same]
      · simp only [put_other _ _ htk]; exact h.topic
    · exact h.topic
    · exact h.part
    · exact h.part
    · exact h.task
    · exact h.task
  | create k =>
    refine ⟨htold, ?_, ?_, ?_⟩ <;> simp only [step, Remote.create] <;> split
    · exact h.topic
    · exact h.topic
    · next hn =>
      by_cases htk : t = k
      · subst htk; rw [h.part] at hn; cases hn
      · simp only [put_other _ _ htk]; exact h.part
    · exact h.part
    · exact h.task
    · exact h.task
  | start k =>
    refine ⟨htold, ?_, ?_, ?_⟩ <;> simp only [step, Remote.start] <;> split
    · exact h.topic
    · exact h.topic
    · exact h.topic
    · exact h.part
    · exact h.part
    · exact h.part
    · next c hp _ =>
      intro c' hc'
      rcases List.mem_append.mp hc' with hc' | hc'
      · exact h.task c' hc'
      · cases List.mem_singleton.mp hc'
        exact Option.some.inj (h.part.symm.trans hp)
    · exact h.task
    · exact h.task
  | own k =>
    refine ⟨htold, ?_, ?_, ?_⟩ <;> simp only [step, Remote.own] <;> split
    · by_cases htk : t = k
      · subst htk; simp [put_same]
      · simp only [put_other _ _ htk]; exact h.topic
    · exact h.topic
    · exact h.part
    · exact h.part
    · exact h.task
    · exact h.task
  | restart => exact ⟨htold, h.topic, h.part, fun c hc => nomatch hc⟩
  | spu s a =>
    have : (step hid rid w (.spu s a)).remote = w.remote := by simp only [step]; split <;> rfl
    exact ⟨htold, by rw [this]; exact h.topic, by rw [this]; exact h.part, by rw [this]; exact h.task⟩
  | move s a =>
    have : (step hid rid w (.move s a)).remote = w.remote := by simp only [step]; split <;> rfl
    exact ⟨htold, by rw [this]; exact h.topic, by rw [this]; exact h.part, by rw [this]; exact h.task⟩
  | apply k cs b => exact ⟨htold, h.topic, h.part, h.task⟩
  | empty k b => exact ⟨htold, h.topic, h.part, h.task⟩
  | add k c => exact ⟨htold, h.topic, h.part, h.task⟩
  | delete k => exact ⟨htold, h.topic, h.part, h.task⟩
  | mirrors l => exact ⟨htold, h.topic, h.part, h.task⟩
  | assign k i s => exact ⟨htold, h.topic, h.part, h.task⟩

theorem stuck_run {hid rid t : String} {x : Option RConf} {w : World} (h : Stuck rid t x w) (es : List Ev)
    (hk : ∀ e ∈ es, Keeps t e) : Stuck rid t x (run hid rid w es) :=
  run_induction (fun w => Stuck rid t x w) (Keeps t) (fun _ e h he => stuck_step h e he) es w h hk

end C111
open C111

/-- **C111.** A partition of the home cluster is served only to the remote cluster it is for, and only to the
partition of its own topic there: in any run, whatever broker is asked and in whatever order it looks through its
partitions, the partition found for replica `k` of cluster `c` exists, is led there, is for `c`, and `k` is
partition 0 of the same topic. -/
theorem C111_own_cluster (hid rid : String) (es : List Ev) (s : Int) (order : List Rep)
    (ho : ∀ r ∈ order, Leads (run hid rid init es).home s r) (c k : String) (r : Rep)
    (h : serve order c k = some r) :
    Leads (run hid rid init es).home s r ∧ r.part.cluster = c ∧ k = replicaName r.topic 0 :=
  serve_sound (named_run hid rid es) ho h

/-- **C111.** Two topics never meet: requests for partition 0 of `t` are answered by a partition of `t` only. -/
theorem C111_own_topic (hid rid : String) (es : List Ev) (s : Int) (order : List Rep)
    (ho : ∀ r ∈ order, Leads (run hid rid init es).home s r) (c t : String) (r : Rep)
    (h : serve order c (replicaName t 0) = some r) : r.topic = t :=
  (replicaName_inj (serve_sound (named_run hid rid es) ho h).2.2).symm

/-- **C111 (partial).** If each cluster is listed once in the files topics are created from, then, however topics are
created, extended and deleted, no topic has two partitions for the same cluster, and the broker that leads the
partition for a cluster serves it with this partition, in whatever order it looks through its partitions. -/
theorem C111_one_to_one_partial (hid rid : String) (es : List Ev) (ho : ∀ e ∈ es, Once e) (t : String) (T : HTopic)
    (hT : (run hid rid init es).home.topics t = some T) :
    (∀ (i j : Nat) (p q : HPart), T.parts[i]? = some p → T.parts[j]? = some q → p.cluster = q.cluster → i = j) ∧
    ∀ (i : Nat) (p : HPart) (s : Int) (order : List Rep), T.parts[i]? = some p →
      (run hid rid init es).home.leader t i = some s → Lists (run hid rid init es).home s order →
      serve order p.cluster (replicaName t 0) = some ⟨t, i, p⟩ :=
  ⟨fun _ _ _ _ hi hj hpq => same_index (distinct_run hid rid es ho t T hT) hi hj hpq,
    fun _ _ _ _ hi hl hord => serve_unique (named_run hid rid es) (distinct_run hid rid es ho) hord hT hi hl⟩

/-- **C111 (partial).** As long as the topic is not deleted at the home cluster and no broker there changes its
address (and each cluster is listed once): every task of the remote cluster that mirrors the topic connects to the
address of the broker that leads the partition for this remote cluster, is served by exactly this partition, and one
of the two sides is the source and the other the target. -/
theorem C111_connected_partial (hid rid t : String) (es : List Ev) (ho : ∀ e ∈ es, Once e)
    (hc : ∀ e ∈ es, Calm t e) (c : RConf) (h : (t, c) ∈ (run hid rid init es).remote.tasks) :
    ∃ T i p s, (run hid rid init es).home.topics t = some T ∧ T.parts[i]? = some p ∧ p.cluster = rid ∧
      (run hid rid init es).home.leader t i = some s ∧ (run hid rid init es).home.addr s = some c.endpoint ∧
      p.source = c.target ∧
      ∀ order, Lists (run hid rid init es).home s order →
        serve order rid (replicaName t 0) = some ⟨t, i, p⟩ := by
  have hcur := (rinv_run hid rid t es hc).task c h
  obtain ⟨T, i, s, hT, hi, hl, ha, hs, hsrc⟩ := message_eq.mp hcur.1
  obtain ⟨hlt, hp, _⟩ := List.findIdx?_eq_some_iff_getElem.mp hi
  have hget : T.parts[i]? = some T.parts[i] := List.getElem?_eq_getElem hlt
  have hcl : T.parts[i].cluster = rid := by simpa using hp
  refine ⟨T, i, T.parts[i], s, hT, hget, hcl, hl, ha, ?_, fun order hord => ?_⟩
  · exact (named_run hid rid es t T hT _ (List.getElem_mem hlt)).2.trans hsrc.symm
  · have := serve_unique (named_run hid rid es) (distinct_run hid rid es ho) hord hT hget hl
    rwa [hcl] at this

/-- **C111 (partial).** Under the same conditions at most one task mirrors the topic. -/
theorem C111_one_task_partial (hid rid t : String) (es : List Ev) (hc : ∀ e ∈ es, Calm t e) :
    ((run hid rid init es).remote.tasks.filter fun e => e.1 == t).length ≤ 1 :=
  (rinv_run hid rid t es hc).one

/-- **C111.** The pairing comes about: if the home cluster has a partition for the remote cluster with a leader whose
address is known, and the remote cluster has no topic of this name, then a message, the evaluations of the topic and
the start of the partition give a task for it, with the address of that leader. -/
theorem C111_established (hid rid t : String) (w : World) (T : HTopic) (p : HPart)
    (hT : w.home.topics t = some T) (hp : p ∈ T.parts) (hcl : p.cluster = rid)
    (hl : ∀ i, i < T.parts.length → ∃ s a, w.home.leader t i = some s ∧ w.home.addr s = some a)
    (h1 : w.remote.topics t = none) (h2 : w.remote.part t = none) (h3 : w.remote.led t = false) :
    ∃ i q s a, T.parts[i]? = some q ∧ q.cluster = rid ∧ w.home.leader t i = some s ∧ w.home.addr s = some a ∧
      (t, (⟨hid, s, a, T.source⟩ : RConf)) ∈
        (run hid rid w [.sync, .resolve t, .create t, .start t]).remote.tasks := by
  have hex : ∃ i, T.parts.findIdx? (fun p => p.cluster == rid) = some i := by
    cases hf : T.parts.findIdx? (fun p => p.cluster == rid) with
    | some i => exact ⟨i, rfl⟩
    | none =>
      have := List.findIdx?_eq_none_iff.mp hf p hp
      simp [hcl] at this
  obtain ⟨i, hi⟩ := hex
  obtain ⟨hlt, hq, _⟩ := List.findIdx?_eq_some_iff_getElem.mp hi
  obtain ⟨s, a, hs, ha⟩ := hl i hlt
  have hm : message w.home rid t = some ⟨T.source, s, a⟩ :=
    message_eq.mpr ⟨T, i, s, hT, hi, hs, ha, rfl, rfl⟩
  refine ⟨i, T.parts[i], s, a, List.getElem?_eq_getElem hlt, by simpa using hq, hs, ha, ?_⟩
  simp [run, step, Remote.sync, Remote.resolve, Remote.create, Remote.start, hm, h1, h2, h3, syncTopic, conf, put]

/-! ### Examples -/

namespace C111

/-- Two topics for two remote clusters on one broker, the second topic from home to remote. -/
def setup : List Ev :=
  [.mirrors [("r", true), ("q", true)], .spu 1 "old:9010", .apply "t" ["q", "r"] false, .empty "u" true,
    .add "u" "r", .add "u" "r", .assign "t" 0 1, .assign "t" 1 1, .assign "u" 0 1]

/-- … and the remote cluster `r` follows. -/
def follow : List Ev := [.sync, .resolve "t", .create "t", .start "t", .resolve "u", .create "u", .start "u"]

end C111

/-- The hypotheses of the theorems are met: each cluster is listed once, nothing is deleted or moved … -/
example : (∀ e ∈ setup ++ follow, Once e) ∧ ∀ e ∈ setup ++ follow, Calm "t" e := by
  simp only [setup, follow, List.cons_append, List.nil_append, List.forall_mem_cons, List.not_mem_nil]
  simp [Once, Calm]

/-- … and both topics get a task; adding `r` twice to `u` has no effect. -/
example : (run "home" "r" init (setup ++ follow)).remote.tasks =
    [("t", ⟨"home", 1, "old:9010", false⟩), ("u", ⟨"home", 1, "old:9010", true⟩)] ∧
    (run "home" "r" init (setup ++ follow)).home.topics "u" = some ⟨[⟨"r", "u-0", true⟩], true⟩ := by
  decide

/-- The broker finds partition 1 of `t` for `r` and partition 0 for `q`. -/
example : let order : List Rep := [⟨"u", 0, ⟨"r", "u-0", true⟩⟩, ⟨"t", 1, ⟨"r", "t-0", false⟩⟩, ⟨"t", 0, ⟨"q", "t-0", false⟩⟩]
    serve order "r" "t-0" = some ⟨"t", 1, ⟨"r", "t-0", false⟩⟩ ∧
    serve order "q" "t-0" = some ⟨"t", 0, ⟨"q", "t-0", false⟩⟩ ∧ serve order "q" "u-0" = none := by
  decide

/-! ### Violations -/

/-- **C111 is violated, a cluster listed twice**: nothing refuses a file with the same cluster twice (`add-mirror`
would).  The topic gets two partitions for the cluster; which of the two is served depends on the order in which the
broker's hash map is read, so that it can change when the broker restarts. -/
theorem C111_violated_twice :
    let w := run "home" "r" init [.mirrors [("r", true)], .spu 1 "a:1", .apply "t" ["r", "r"] false,
      .assign "t" 0 1, .assign "t" 1 1]
    let p : HPart := ⟨"r", "t-0", false⟩
    Leads w.home 1 ⟨"t", 0, p⟩ ∧ Leads w.home 1 ⟨"t", 1, p⟩ ∧
    serve [⟨"t", 0, p⟩, ⟨"t", 1, p⟩] "r" "t-0" = some ⟨"t", 0, p⟩ ∧
    serve [⟨"t", 1, p⟩, ⟨"t", 0, p⟩] "r" "t-0" = some ⟨"t", 1, p⟩ := by
  refine ⟨⟨⟨[⟨"r", "t-0", false⟩, ⟨"r", "t-0", false⟩], false⟩, by decide, by decide, by decide⟩,
    ⟨⟨[⟨"r", "t-0", false⟩, ⟨"r", "t-0", false⟩], false⟩, by decide, by decide, by decide⟩, by decide, by decide⟩

/-- **C111.** Of several partitions for a cluster a remote cluster is only ever told the leader of the first; a second
one led by another broker is never connected to. -/
theorem C111_only_first (h : Home) (rid t : String) (T : HTopic) (i : Nat) (m : Msg)
    (hT : h.topics t = some T) (hi : T.parts.findIdx? (fun p => p.cluster == rid) = some i)
    (hm : message h rid t = some m) : h.leader t i = some m.spu := by
  obtain ⟨T', i', s, hT', hi', hl, _, hs, _⟩ := message_eq.mp hm
  rw [hT] at hT'; cases hT'
  rw [hi] at hi'; cases hi'
  rw [hl, hs]

/-- **C111 is violated, a broker that moves**: when the public address of the home broker changes, the remote cluster
is told and puts the new address into the topic, but the partition keeps the old one, and so do the tasks that
mirror it: in whatever way things go on, restarts included, as long as the topic is not deleted at the home cluster,
no task ever connects to the new address. -/
theorem C111_violated_moved :
    let w := run "home" "r" init (setup ++ follow ++ [.move 1 "new:9010", .sync])
    w.home.addr 1 = some "new:9010" ∧
    (w.remote.topics "t").bind (·.spec) = some ⟨"home", 1, "new:9010", false⟩ ∧
    ∀ es, (∀ e ∈ es, Keeps "t" e) →
      (run "home" "r" w es).remote.part "t" = some (some ⟨"home", 1, "old:9010", false⟩) ∧
      ∀ c, ("t", c) ∈ (run "home" "r" w es).remote.tasks → c.endpoint = "old:9010" := by
  refine ⟨by decide, by decide, fun es hk => ?_⟩
  have h0 : Stuck "r" "t" (some ⟨"home", 1, "old:9010", false⟩)
      (run "home" "r" init (setup ++ follow ++ [.move 1 "new:9010", .sync])) := by
    refine ⟨by decide, by decide, by decide, ?_⟩
    have : (run "home" "r" init (setup ++ follow ++ [.move 1 "new:9010", .sync])).remote.tasks =
      [("t", ⟨"home", 1, "old:9010", false⟩), ("u", ⟨"home", 1, "old:9010", true⟩)] := by decide
    rw [this]
    intro c hc
    simp at hc
    rw [hc]
  have h := stuck_run (hid := "home") h0 es hk
  refine ⟨h.part, fun c hc => ?_⟩
  have := h.task c hc
  cases this
  rfl

/-- **C111 is violated, a topic that is taken over**: when the remote cluster has a topic of its own with the name of
a topic mirrored to it, its specification becomes that of a mirrored topic, but its partition is not touched: it is
never mirrored, as long as the topic is not deleted at the home cluster. -/
theorem C111_violated_taken_over :
    let w := run "home" "r" init ([.own "t", .resolve "t", .create "t"] ++ setup ++ follow)
    (w.remote.topics "t").bind (·.spec) = some ⟨"home", 1, "old:9010", false⟩ ∧
    ∀ es, (∀ e ∈ es, Keeps "t" e) → ∀ c, ("t", c) ∉ (run "home" "r" w es).remote.tasks := by
  refine ⟨by decide, fun es hk c hc => ?_⟩
  have h0 : Stuck "r" "t" none
      (run "home" "r" init ([.own "t", .resolve "t", .create "t"] ++ setup ++ follow)) := by
    refine ⟨by decide, by decide, by decide, ?_⟩
    have : (run "home" "r" init ([.own "t", .resolve "t", .create "t"] ++ setup ++ follow)).remote.tasks =
      [("u", ⟨"home", 1, "old:9010", true⟩)] := by decide
    rw [this]
    intro c hc
    simp at hc
  exact nomatch (stuck_run (hid := "home") h0 es hk).task c hc

/-- **C111 is violated, a topic that is made anew**: the task that mirrors a partition does not end when the
partition is deleted.  After the topic was deleted and created again there are two tasks, and the old one, which
still holds the old records, is served by the new partition. -/
theorem C111_violated_old_task :
    let w := run "home" "r" init (setup ++ follow ++ [.delete "t", .sync, .apply "t" ["r"] false, .assign "t" 0 1,
      .sync, .resolve "t", .create "t", .start "t"])
    w.remote.tasks.filter (fun e => e.1 == "t") =
      [("t", ⟨"home", 1, "old:9010", false⟩), ("t", ⟨"home", 1, "old:9010", false⟩)] ∧
    Leads w.home 1 ⟨"t", 0, ⟨"r", "t-0", false⟩⟩ := by
  refine ⟨by decide, ⟨⟨[⟨"r", "t-0", false⟩], false⟩, by decide, by decide, by decide⟩⟩

/-- **C111 is violated, a direction that is changed**: when the new topic has the other direction, the old task takes
itself for the source and so does the partition that serves it. -/
theorem C111_violated_direction :
    let w := run "home" "r" init (setup ++ follow ++ [.delete "t", .sync, .apply "t" ["r"] true, .assign "t" 0 1])
    ("t", (⟨"home", 1, "old:9010", false⟩ : RConf)) ∈ w.remote.tasks ∧
    Leads w.home 1 ⟨"t", 0, ⟨"r", "t-0", true⟩⟩ := by
  refine ⟨by decide, ⟨⟨[⟨"r", "t-0", true⟩], true⟩, by decide, by decide, by decide⟩⟩

end Verif.Props
