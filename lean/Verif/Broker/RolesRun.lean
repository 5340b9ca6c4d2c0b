import Verif.Broker.RolesSafe

/-!
# Controllers of followed leaders; runs
-/

namespace Verif.Broker

open Verif.Meta

set_option linter.unusedSectionVars false

variable {K : Type} [DecidableEq K]

/-! ## Controllers -/

structure Grouped (b : Broker K) : Prop where
  nodup : (b.follows.map (·.1)).Nodup
  served : ∀ k l, b.follows.get k = some l → l ∈ b.groups

/-- No controller without a replica. -/
def Needed (b : Broker K) : Prop := ∀ l ∈ b.groups, ∃ k, b.follows.get k = some l

theorem Grouped.congr {b b' : Broker K} (h : Grouped b) (h1 : b'.follows = b.follows)
    (h2 : b'.groups = b.groups) : Grouped b' := by
  refine ⟨by rw [h1]; exact h.nodup, ?_⟩
  rw [h1, h2]
  exact h.served

theorem Needed.congr {b b' : Broker K} (h : Needed b) (h1 : b'.follows = b.follows)
    (h2 : b'.groups = b.groups) : Needed b' := by
  unfold Needed
  rw [h1, h2]
  exact h

theorem nodup_delete {V : Type} {s : BStore K V} (h : (s.map (·.1)).Nodup) (k : K) :
    ((s.delete k).map (·.1)).Nodup := by
  unfold BStore.delete
  exact h.sublist (List.filter_sublist.map _)

theorem nodup_insert {V : Type} {s : BStore K V} (h : (s.map (·.1)).Nodup) (k : K) (v : V) :
    ((s.insert k v).map (·.1)).Nodup := by
  unfold BStore.insert
  rw [List.map_append, List.nodup_append]
  refine ⟨nodup_delete h k, by simp, ?_⟩
  intro a ha b hb e
  obtain ⟨p, hp, rfl⟩ := List.mem_map.1 ha
  rw [List.map_singleton, List.mem_singleton] at hb
  have := (List.mem_filter.1 hp).2
  simp only [ne_eq, decide_eq_true_eq] at this
  exact this (e.trans hb)

theorem get_of_mem {V : Type} {s : BStore K V} (h : (s.map (·.1)).Nodup) {p : K × V} (hp : p ∈ s) :
    s.get p.1 = some p.2 := by
  induction s with
  | nil => cases hp
  | cons q s ih =>
    rw [List.map_cons, List.nodup_cons] at h
    unfold BStore.get
    rcases List.mem_cons.1 hp with rfl | hp
    · rw [List.find?_cons_of_pos (by simp)]; rfl
    · have hne : q.1 ≠ p.1 := fun e => h.1 (e ▸ List.mem_map.2 ⟨p, hp, rfl⟩)
      rw [List.find?_cons_of_neg (by simpa using hne)]
      exact ih h.2 hp

theorem mem_of_get {V : Type} {s : BStore K V} {k : K} {v : V} (h : s.get k = some v) : (k, v) ∈ s := by
  unfold BStore.get at h
  rcases hf : s.find? (fun p => decide (p.1 = k)) with _ | p
  · rw [hf] at h; cases h
  · rw [hf] at h
    have h1 := List.mem_of_find?_eq_some hf
    have h2 := List.find?_some hf
    simp only [decide_eq_true_eq] at h2
    simp only [Option.map_some, Option.some.injEq] at h
    rw [← h2, ← h]
    exact h1

theorem Grouped.drop {b : Broker K} (h : Grouped b) (l : Nat) (k : K) :
    Grouped (b.dropFollower l k).1 := by
  unfold Broker.dropFollower
  split
  · exact h
  · refine ⟨nodup_delete h.nodup k, ?_⟩
    intro j l' hj
    have hj' : (b.follows.delete k).get j = some l' := hj
    have hold : b.follows.get j = some l' := by
      rw [get_delete] at hj'
      split at hj'
      · cases hj'
      · exact hj'
    have hm := h.served j l' hold
    show l' ∈ ite _ _ _
    split
    · exact hm
    · rename_i hany
      rw [List.mem_filter]
      refine ⟨hm, ?_⟩
      simp only [ne_eq, decide_eq_true_eq]
      rintro rfl
      apply hany
      rw [List.any_eq_true]
      exact ⟨(j, l'), mem_of_get hj', by simp⟩

theorem Needed.drop {b : Broker K} (h : Needed b) (hg : Grouped b) {l : Nat} {k : K}
    (hl : ∀ l', b.follows.get k = some l' → l = l') : Needed (b.dropFollower l k).1 := by
  unfold Broker.dropFollower
  split
  · exact h
  · rename_i l0 h0
    have hl0 := hl l0 h0
    intro l' hl'
    have hm : l' ∈ ite _ _ _ := hl'
    by_cases e : l' = l
    · split at hm
      · rename_i hany
        rw [List.any_eq_true] at hany
        obtain ⟨p, hp, hpl⟩ := hany
        simp only [decide_eq_true_eq] at hpl
        refine ⟨p.1, ?_⟩
        rw [e, ← hpl]
        exact get_of_mem (nodup_delete hg.nodup k) hp
      · have := (List.mem_filter.1 hm).2
        simp only [ne_eq, decide_eq_true_eq] at this
        exact absurd e this
    · have hin : l' ∈ b.groups := by
        split at hm
        · exact hm
        · exact (List.mem_filter.1 hm).1
      obtain ⟨j, hj⟩ := h l' hin
      refine ⟨j, ?_⟩
      show (b.follows.delete k).get j = _
      rw [get_delete, if_neg]
      · exact hj
      · rintro rfl
        rw [h0] at hj
        cases hj
        exact e hl0.symm

theorem checkNew_eq (b : Broker K) (l : Nat) :
    (b.checkNew l).follows = b.follows ∧ (∀ x, x ∈ (b.checkNew l).groups ↔ x ∈ b.groups ∨ x = l) := by
  unfold Broker.checkNew
  split
  · rename_i h
    exact ⟨rfl, fun x => ⟨Or.inl, fun hx => hx.elim id fun e => e ▸ h⟩⟩
  · refine ⟨rfl, fun x => ?_⟩
    show x ∈ b.groups ++ [l] ↔ _
    simp

theorem Grouped.add {b : Broker K} (h : Grouped b) (io : Io) (k : K) (a : Assign) :
    Grouped (b.addFollower io k a).1 := by
  unfold Broker.addFollower
  split
  · exact h
  · split
    · obtain ⟨h1, h2⟩ := checkNew_eq { b with follows := b.follows.insert k a.leader } a.leader
      refine ⟨?_, ?_⟩
      · show ((Broker.checkNew _ _).follows.map _).Nodup
        rw [h1]
        exact nodup_insert h.nodup k a.leader
      · intro j l hj
        have hj' : (Broker.checkNew _ _).follows.get j = some l := hj
        rw [h1] at hj'
        have hj2 : (b.follows.insert k a.leader).get j = some l := hj'
        refine (h2 l).2 ?_
        rw [get_insert] at hj2
        split at hj2
        · cases hj2; exact Or.inr rfl
        · exact Or.inl (h.served j l hj2)
    · exact h

theorem Needed.add {b : Broker K} (h : Needed b) (io : Io) (k : K) (a : Assign) :
    Needed (b.addFollower io k a).1 := by
  unfold Broker.addFollower
  split
  · exact h
  · rename_i h0
    split
    · obtain ⟨h1, h2⟩ := checkNew_eq { b with follows := b.follows.insert k a.leader } a.leader
      intro l hl
      have := (h2 l).1 hl
      show ∃ j, (Broker.checkNew _ _).follows.get j = some l
      rw [h1]
      show ∃ j, (b.follows.insert k a.leader).get j = some l
      rcases this with hl | rfl
      · obtain ⟨j, hj⟩ := h l hl
        refine ⟨j, ?_⟩
        rw [get_insert, if_neg]
        · exact hj
        · rintro rfl; rw [h0] at hj; cases hj
      · exact ⟨k, by rw [get_insert, if_pos rfl]⟩
    · exact h

/-- Any property that the elementary operations on followers keep, given what they are told to drop. -/
theorem act_groups {J : Broker K → Prop} {io : Io}
    (hc : ∀ b b' : Broker K, J b → b'.follows = b.follows → b'.groups = b.groups → J b')
    (hadd : ∀ (b : Broker K) k a, J b → J (b.addFollower io k a).1)
    {b : Broker K} {c : Change K}
    (hdrop : ∀ l, (∀ n, c.new = some n → c.old = none → l = n.leader) →
      (∀ o, c = .del c.key o → l = o.leader) →
      (∀ n o, c = .mod c.key n o → l = o.leader ∨ (n.deleting = true ∧ l = n.leader)) →
      J (b.dropFollower l c.key).1) (h : J b) : J (b.act io c).1 := by
  have hrem : ∀ k a, (a.leader ≠ b.me → J (b.dropFollower a.leader k).1) →
      J (b.removeReplica io k a).1 := by
    intro k a hd
    unfold Broker.removeReplica
    split
    · split
      · exact hc b _ h (wipe_frame _ _ _).2.2.2.1 (wipe_frame _ _ _).2.2.2.2
      · exact h
    · rename_i hne
      dsimp only
      split
      · exact hc _ _ (hd hne) (wipe_frame _ _ _).2.2.2.1 (wipe_frame _ _ _).2.2.2.2
      · exact hd hne
  cases c with
  | add k n =>
    show J (ite _ _ _ : Broker K × List (Out K)).1
    split
    · refine hrem k n fun _ => hdrop n.leader ?_ nofun nofun
      intro n' hn _; cases hn; rfl
    · split
      · unfold Broker.addLeader
        split
        · exact hc b _ h rfl rfl
        · exact h
      · split
        · exact hadd b k n h
        · exact h
  | del k o =>
    exact hrem k o fun _ => hdrop o.leader nofun (by rintro o' ⟨⟩; rfl) nofun
  | mod k n o =>
    show J (ite _ _ _ : Broker K × List (Out K)).1
    have hdo : J (b.dropFollower o.leader k).1 :=
      hdrop o.leader (fun _ _ h => by cases h) nofun (by rintro n' o' ⟨⟩; exact Or.inl rfl)
    split
    · rename_i hd
      exact hrem k n fun _ => hdrop n.leader (fun _ _ h => by cases h) nofun
        (by rintro n' o' ⟨⟩; exact Or.inr ⟨hd, rfl⟩)
    · split
      · split
        · unfold Broker.promote
          dsimp only
          split
          · split
            · exact hc _ _ hdo rfl rfl
            · exact hdo
          · exact hdo
        · split
          · show J (Broker.demote b io k n)
            unfold Broker.demote
            split
            · exact hadd _ _ _ (hc b _ h rfl rfl)
            · exact h
          · exact hadd _ _ _ hdo
      · exact h

theorem Grouped.act {b : Broker K} (h : Grouped b) (io : Io) (c : Change K) : Grouped (b.act io c).1 :=
  act_groups (J := Grouped) (fun _ _ h h1 h2 => h.congr h1 h2) (fun _ k a h => h.add io k a)
    (fun l _ _ _ => h.drop l c.key) h

theorem Needed.act {b : Broker K} (h : Needed b) (hg : Grouped b) (io : Io) (c : Change K)
    (hsafe : (b.loc c.key).Safe b.me c.old) (hs : ∀ k n o, c = .mod k n o → Steady o n) :
    Needed (b.act io c).1 := by
  refine act_groups (J := Needed) (fun _ _ h h1 h2 => h.congr h1 h2) (fun _ k a h => h.add io k a) ?_ h
  intro l h1 h2 h3
  refine h.drop hg ?_
  intro l' hl'
  obtain ⟨t, ht, htl, hne, hd⟩ := hsafe.2 l' hl'
  cases c with
  | add k n => cases ht
  | del k o =>
    have ht' : o = t := Option.some.inj ht
    subst ht'
    exact (h2 _ rfl).trans htl
  | mod k n o =>
    have ht' : o = t := Option.some.inj ht
    subst ht'
    rcases h3 n o rfl with e | ⟨hnd, e⟩
    · exact e.trans htl
    · exact e.trans ((hs k n o rfl hd hnd).trans htl)

/-! ## Runs -/

/-- Nothing fails. -/
def Fine : Event K → Prop
  | .update ios _ => ∀ io ∈ ios, io = ⟨true, true, true⟩
  | _ => True

def Running : Event K → Prop
  | .restart => False
  | _ => True

structure SafeAll (b : Broker K) (w : View K Assign) : Prop where
  safe : ∀ k, (b.loc k).Safe b.me (w k)
  grouped : Grouped b
  needed : Needed b

theorem loc_setAt {P : Option Assign → Loc → Prop} {b : Broker K} {io : Io} {c : Change K}
    {w : View K Assign} (h : ∀ k, P (w k) (b.loc k)) (hc : P c.new ((b.loc c.key).act b.me io c)) (k : K) :
    P (setAt w c.key c.new k) ((b.act io c).1.loc k) := by
  rw [act_loc]
  unfold setAt
  split
  · rename_i e; rw [e]; exact hc
  · exact h k

theorem SafeAll.act {b : Broker K} {w : View K Assign} (h : SafeAll b w) (io : Io) (c : Change K)
    (hw : w c.key = c.old) (hs : ∀ k n o, c = .mod k n o → Steady o n) :
    SafeAll (b.act io c).1 (setAt w c.key c.new) := by
  have hk := h.safe c.key
  rw [hw] at hk
  refine ⟨?_, h.grouped.act io c, h.needed.act h.grouped io c hk hs⟩
  rw [(act_told b io c).2]
  exact loc_setAt (P := fun v x => x.Safe b.me v) h.safe (hk.act hs)

theorem SafeAll.step {b : Broker K} (h : SafeAll b b.told.get) (e : Event K)
    (hm : ∀ ios m, e = .update ios m → ∀ k n o, .mod k n o ∈ actionsOf b.told m → Steady o n) :
    SafeAll (b.step e) (b.step e).told.get := by
  cases e with
  | update ios m =>
    have hsteady := hm ios m rfl
    show SafeAll (b.update ios m).1 (b.update ios m).1.told.get
    rw [(update_told b ios m).1]
    refine actAll_ind (Q := fun _ => True) (P := fun c => ∀ k n o, c = .mod k n o → Steady o n)
      (J := SafeAll) trivial ?_ (Chain.actions b.told m) ?_ (fun _ _ => trivial) ⟨h.safe, ?_, ?_⟩
    · intro b io c w hJ hw hs _
      exact hJ.act io c hw hs
    · rintro c hc k n o rfl
      exact hsteady k n o hc
    · exact h.grouped.congr rfl rfl
    · exact h.needed.congr rfl rfl
  | write k rs =>
    show SafeAll (ite _ _ _) (Broker.told (ite _ _ _)).get
    split
    · refine ⟨fun j => ?_, h.grouped.congr rfl rfl, h.needed.congr rfl rfl⟩
      exact h.safe j
    · exact h
  | restart =>
    refine ⟨fun k => ?_, ⟨List.nodup_nil, nofun⟩, nofun⟩
    exact ⟨nofun, nofun⟩

theorem SafeAll.init (me : Nat) : SafeAll (Broker.init me : Broker K) (Broker.init me : Broker K).told.get :=
  ⟨fun _ => ⟨nofun, nofun⟩, ⟨List.nodup_nil, nofun⟩, nofun⟩

theorem SafeAll.run (es : List (Event K)) {b : Broker K} (h : SafeAll b b.told.get)
    (hs : ∀ k, Successive Steady (b.told.get k) (heard k es)) : SafeAll (b.run es) (b.run es).told.get :=
  run_ind (E := fun _ => True) (Inv := fun b => SafeAll b b.told.get)
    (fun _ e hb _ hm => hb.step e hm) es b h (fun _ _ => trivial) hs

theorem Grouped.run (es : List (Event K)) {b : Broker K} (h : Grouped b) : Grouped (b.run es) := by
  refine run_ind (R := fun _ _ => True) (E := fun _ => True) (Inv := Grouped) ?_ es b h
    (fun _ _ => trivial) ?_
  · intro b e hb _ _
    cases e with
    | update ios m =>
      exact actAll_ind (P := fun _ => True) (Q := fun _ => True) (J := fun b _ => Grouped b) trivial
        (fun b io c w hJ _ _ _ => hJ.act io c) (Chain.actions b.told m) (fun _ _ => trivial)
        (fun _ _ => trivial) (hb.congr rfl rfl)
    | write k rs =>
      show Grouped (ite _ _ _)
      split
      · exact hb.congr rfl rfl
      · exact hb
    | restart => exact ⟨List.nodup_nil, nofun⟩
  · intro k
    have : ∀ (l : List (Option Assign)) v, Successive (fun _ _ => True) v l := by
      intro l
      induction l with
      | nil => intro v; trivial
      | cons x l ih => intro v; exact ⟨fun _ _ _ _ => trivial, ih x⟩
    exact this _ _

def DoesAll (b : Broker K) (w : View K Assign) : Prop := ∀ k, (b.loc k).Does (duty b.me (w k))

theorem DoesAll.step {b : Broker K} (h : DoesAll b b.told.get) (e : Event K) (hf : Fine e)
    (hm : ∀ ios m, e = .update ios m → ∀ k n o, .mod k n o ∈ actionsOf b.told m → Proper b.me o n) :
    DoesAll (b.step e) (b.step e).told.get := by
  cases e with
  | update ios m =>
    have hp := hm ios m rfl
    show DoesAll (b.update ios m).1 (b.update ios m).1.told.get
    rw [(update_told b ios m).1]
    refine (actAll_ind (Q := fun io => io = ⟨true, true, true⟩)
      (P := fun c => ∀ k n o, c = .mod k n o → Proper b.me o n)
      (J := fun x w => x.me = b.me ∧ DoesAll x w) (b := { b with told := brokerApply b.told m }) rfl ?_ (Chain.actions b.told m) ?_ hf ⟨rfl, h⟩).2
    · rintro x io c w ⟨hme, hJ⟩ hw hs rfl
      refine ⟨(act_told x _ c).2.trans hme, ?_⟩
      unfold DoesAll
      rw [(act_told x _ c).2]
      refine loc_setAt (P := fun v y => y.Does (duty x.me v)) hJ ?_
      have hk := hJ c.key
      rw [hw] at hk
      exact hk.act (by rw [hme]; exact hs)
    · rintro c hc k n o rfl
      exact hp k n o hc
  | write k rs =>
    show DoesAll (ite _ _ _) (Broker.told (ite _ _ _)).get
    split
    · exact h
    · exact h
  | restart =>
    intro k
    exact ⟨⟨nofun, nofun⟩, fun l => ⟨nofun, nofun⟩⟩

theorem DoesAll.run (me : Nat) (es : List (Event K)) (hf : ∀ e ∈ es, Fine e)
    (hs : ∀ k, Successive (Proper me) none (heard k es)) :
    DoesAll ((Broker.init me).run es) ((Broker.init me).run es).told.get := by
  have := run_ind (E := Fine) (R := Proper me)
    (Inv := fun b => b.me = me ∧ DoesAll b b.told.get) (K := K) ?_ es (Broker.init me) ⟨rfl, ?_⟩ hf hs
  · exact this.2
  · rintro b e ⟨hme, hb⟩ he hm
    exact ⟨(step_me b e).trans hme, hb.step e he (by rw [hme]; exact hm)⟩
  · intro k
    exact ⟨⟨nofun, nofun⟩, fun l => ⟨nofun, nofun⟩⟩

structure HeldAll (b : Broker K) (w : View K Assign) : Prop where
  safe : SafeAll b w
  held : ∀ k, (b.loc k).Held

theorem HeldAll.step {b : Broker K} (h : HeldAll b b.told.get) (e : Event K) (hf : Fine e)
    (hr : Running e)
    (hm : ∀ ios m, e = .update ios m → ∀ k n o, .mod k n o ∈ actionsOf b.told m → Steady o n) :
    HeldAll (b.step e) (b.step e).told.get := by
  refine ⟨h.safe.step e hm, ?_⟩
  cases e with
  | update ios m =>
    have hp := hm ios m rfl
    show ∀ k, ((b.update ios m).1.loc k).Held
    refine (actAll_ind (Q := fun io => io = ⟨true, true, true⟩)
      (P := fun c => ∀ k n o, c = .mod k n o → Steady o n)
      (J := HeldAll) (b := { b with told := brokerApply b.told m }) rfl ?_ (Chain.actions b.told m) ?_ hf
      ⟨⟨h.safe.safe, h.safe.grouped.congr rfl rfl, h.safe.needed.congr rfl rfl⟩, h.held⟩).held
    · rintro x io c w hJ hw hs rfl
      refine ⟨hJ.safe.act _ c hw hs, ?_⟩
      have hk := hJ.safe.safe c.key
      rw [hw] at hk
      exact loc_setAt (P := fun _ y => y.Held) (w := w) hJ.held ((hJ.held c.key).act hk hs)
    · rintro c hc k n o rfl
      exact hp k n o hc
  | write k rs =>
    intro j
    show (Broker.loc (ite _ _ _) j).Held
    split
    · rename_i hc
      intro _
      by_cases e : j = k
      · rw [e]
        rw [Bool.or_eq_true] at hc
        exact hc
      · refine h.held j ?_
        have : (b.disk.insert k (b.records k ++ rs)).get j = b.disk.get j := by
          rw [get_insert, if_neg e]
        rename_i hne
        show (b.disk.get j).getD [] ≠ []
        rw [← this]
        exact hne
    · exact h.held j
  | restart => exact hr.elim

theorem HeldAll.run (me : Nat) (es : List (Event K)) (hf : ∀ e ∈ es, Fine e) (hr : ∀ e ∈ es, Running e)
    (hs : ∀ k, Successive Steady none (heard k es)) :
    HeldAll ((Broker.init me).run es) ((Broker.init me).run es).told.get :=
  run_ind (E := fun e => Fine e ∧ Running e) (R := Steady)
    (Inv := fun b : Broker K => HeldAll b b.told.get)
    (fun _ e hb he hm => hb.step e he.1 he.2 hm) es (Broker.init me)
    ⟨SafeAll.init me, fun _ h => absurd rfl h⟩ (fun e he => ⟨hf e he, hr e he⟩) hs

/-! ## Data -/

/-- An action changes the records of a replica only when it removes the replica. -/
theorem recs_act {me : Nat} {io : Io} {c : Change K} {x : Loc}
    (h : ∃ n, c.new = some n ∧ n.deleting = false) : (x.act me io c).recs = x.recs := by
  obtain ⟨n', hn, hd⟩ := h
  obtain ⟨ld, fl, rc⟩ := x
  cases c with
  | add k n =>
    cases hn
    simp only [Loc.act, Loc.addFollower]
    grind
  | del k o => cases hn
  | mod k n o =>
    cases hn
    simp only [Loc.act, Loc.addFollower]
    grind

/-- New values of the actions for `k` are what was heard about it. -/
theorem new_changes {k : K} {v : Option Assign} (l : List (Upd K Assign)) : ∀ s : BStore K Assign,
    (∃ c ∈ changesOf s l, c.key = k ∧ c.new = v) →
    v ∈ l.filterMap fun u => if u.key = k then some u.val else none := by
  induction l with
  | nil => rintro s ⟨c, hc, _⟩; cases hc
  | cons u l ih =>
    rintro s ⟨c, hc, hk, hv⟩
    rw [List.mem_filterMap]
    cases u with
    | put j a =>
      rcases List.mem_append.1 (show c ∈ putChange s j a ++ changesOf (s.insert j a) l from hc) with h | h
      · refine ⟨.put j a, by simp, ?_⟩
        unfold putChange at h
        split at h
        · split at h
          · cases h
          · rw [List.mem_singleton] at h
            subst h; subst hk
            show (if j = j then some (some a) else none) = some v
            rw [if_pos rfl, ← hv]; rfl
        · rw [List.mem_singleton] at h
          subst h; subst hk
          show (if j = j then some (some a) else none) = some v
          rw [if_pos rfl, ← hv]; rfl
      · have := ih _ ⟨c, h, hk, hv⟩
        obtain ⟨u, hu, e⟩ := List.mem_filterMap.1 this
        exact ⟨u, by simp [hu], e⟩
    | del j =>
      rcases List.mem_append.1 (show c ∈ delChange s j ++ changesOf (s.delete j) l from hc) with h | h
      · refine ⟨.del j, by simp, ?_⟩
        unfold delChange at h
        split at h
        · rw [List.mem_singleton] at h
          subst h; subst hk
          show (if j = j then some none else none) = some v
          rw [if_pos rfl, ← hv]; rfl
        · cases h
      · have := ih _ ⟨c, h, hk, hv⟩
        obtain ⟨u, hu, e⟩ := List.mem_filterMap.1 this
        exact ⟨u, by simp [hu], e⟩

theorem new_syncs {k : K} {v : Option Assign} (l : List (K × Assign)) : ∀ s : BStore K Assign,
    (∃ c ∈ syncChanges s l, c.key = k ∧ c.new = v) →
    v ∈ l.filterMap fun p => if p.1 = k then some (some p.2) else none := by
  induction l with
  | nil => rintro s ⟨c, hc, _⟩; cases hc
  | cons p l ih =>
    rintro s ⟨c, hc, hk, hv⟩
    rw [List.mem_filterMap]
    rcases List.mem_append.1 (show c ∈ putChange s p.1 p.2 ++ syncChanges (s.insert p.1 p.2) l from hc)
      with h | h
    · refine ⟨p, by simp, ?_⟩
      unfold putChange at h
      split at h
      · split at h
        · cases h
        · rw [List.mem_singleton] at h
          subst h; subst hk
          show (if p.1 = p.1 then some (some p.2) else none) = some v
          rw [if_pos rfl, ← hv]; rfl
      · rw [List.mem_singleton] at h
        subst h; subst hk
        show (if p.1 = p.1 then some (some p.2) else none) = some v
        rw [if_pos rfl, ← hv]; rfl
    · have := ih _ ⟨c, h, hk, hv⟩
      obtain ⟨u, hu, e⟩ := List.mem_filterMap.1 this
      exact ⟨u, by simp [hu], e⟩

theorem key_drops {c : Change K} (l : List K) : ∀ s : BStore K Assign, c ∈ dropChanges s l →
    c.key ∈ l ∧ c.new = none := by
  induction l with
  | nil => intro s h; cases h
  | cons j l ih =>
    intro s h
    rcases List.mem_append.1 (show c ∈ delChange s j ++ dropChanges (s.delete j) l from h) with h | h
    · unfold delChange at h
      split at h
      · rw [List.mem_singleton] at h
        subst h
        exact ⟨by simp [Change.key], rfl⟩
      · cases h
    · have := ih _ h
      exact ⟨by simp [this.1], this.2⟩

theorem new_actions {s : BStore K Assign} {m : Msg K Assign} {c : Change K} (h : c ∈ actionsOf s m) :
    c.new ∈ heardMsg c.key m := by
  unfold actionsOf at h
  unfold heardMsg
  split at h
  · rename_i ha
    rw [if_pos ha]
    dsimp only at h ⊢
    rcases List.mem_append.1 h with h | h
    · have := new_syncs m.all s ⟨c, h, rfl, rfl⟩
      split
      · rename_i he; rw [he] at this; cases this
      · exact this
    · obtain ⟨h1, h2⟩ := key_drops _ _ h
      have h3 := ((syncOne_fold m.all (s, s.map (·.1)) (fun k hk => get_some_iff.2 hk)).2 c.key).1 h1
      rw [h2, if_pos]
      · simp
      · rw [List.filterMap_eq_nil_iff]
        intro p hp
        rw [if_neg]
        exact fun e => h3.2 (List.mem_map.2 ⟨p, hp, e⟩)
  · rename_i ha
    rw [if_neg ha]
    exact new_changes m.changes s ⟨c, h, rfl, rfl⟩

theorem recs_actAll (k : K) (cs : List (Change K)) : ∀ (b : Broker K) (ios : List Io),
    (∀ c ∈ cs, c.key = k → ∃ n, c.new = some n ∧ n.deleting = false) →
    (b.actAll ios cs).1.records k = b.records k := by
  induction cs with
  | nil => intro b ios _; rfl
  | cons c cs ih =>
    intro b ios h
    show ((b.act _ c).1.actAll ios.tail cs).1.records k = _
    rw [ih _ _ fun c hc => h c (by simp [hc])]
    show ((b.act _ c).1.loc k).recs.getD [] = (b.loc k).recs.getD []
    rw [act_loc]
    split
    · rename_i e
      rw [recs_act (h c (by simp) e.symm)]
    · rfl

/-- Nothing heard about `k` says that it is to be removed. -/
def Kept (k : K) (e : Event K) : Prop :=
  match e with
  | .update _ m => ∀ v ∈ heardMsg k m, ∃ n, v = some n ∧ n.deleting = false
  | _ => True

theorem recs_step (b : Broker K) (e : Event K) (k : K) (h : Kept k e) :
    (b.step e).records k = b.records k ∨
      ∃ rs, e = .write k rs ∧ (b.step e).records k = b.records k ++ rs := by
  cases e with
  | update ios m =>
    left
    show (b.update ios m).1.records k = _
    unfold Broker.update
    rw [recs_actAll]
    · rfl
    · rintro c hc rfl
      exact h _ (new_actions hc)
  | write j rs =>
    show Broker.records (ite _ _ _) k = _ ∨ ∃ rs', _ ∧ Broker.records (ite _ _ _) k = _
    split
    · by_cases e : k = j
      · right
        subst e
        refine ⟨rs, rfl, ?_⟩
        show ((b.disk.insert k (b.records k ++ rs)).get k).getD [] = _
        rw [get_insert, if_pos rfl]
        rfl
      · left
        show ((b.disk.insert j (b.records j ++ rs)).get k).getD [] = _
        rw [get_insert, if_neg e]
        rfl
    · exact Or.inl rfl
  | restart => exact Or.inl rfl

theorem recs_run (k : K) (es : List (Event K)) : ∀ b : Broker K, (∀ e ∈ es, Kept k e) →
    b.records k <+: (b.run es).records k := by
  induction es with
  | nil => intro b _; exact List.prefix_refl _
  | cons e es ih =>
    intro b h
    refine List.IsPrefix.trans ?_ (ih (b.step e) fun e he => h e (by simp [he]))
    rcases recs_step b e k (h e (by simp)) with h | ⟨rs, _, h⟩
    · rw [h]; exact List.prefix_refl _
    · rw [h]; exact List.prefix_append _ _

end Verif.Broker
