import Verif.Broker.Roles

/-!
# Invariants of a broker's roles
-/

namespace Verif.Broker

open Verif.Meta

set_option linter.unusedSectionVars false

variable {K : Type} [DecidableEq K]

/-! ## What a broker hears about one replica -/

/-- What a message says about `k`, in order: an assignment, or that there is none. -/
def heardMsg (k : K) (m : Msg K Assign) : List (Option Assign) :=
  if m.all ≠ [] then
    let l := m.all.filterMap fun p => if p.1 = k then some (some p.2) else none
    if l = [] then [none] else l
  else m.changes.filterMap fun u => if u.key = k then some u.val else none

def heardEvent (k : K) : Event K → List (Option Assign)
  | .update _ m => heardMsg k m
  | .write _ _ => []
  | .restart => [none]

/-- What the broker hears about `k` during a run; a restart makes it forget. -/
def heard (k : K) (es : List (Event K)) : List (Option Assign) := es.flatMap (heardEvent k)

/-- Successive assignments are related. -/
def Successive (R : Assign → Assign → Prop) : Option Assign → List (Option Assign) → Prop
  | _, [] => True
  | v, x :: l => (∀ o n, v = some o → x = some n → R o n) ∧ Successive R x l

theorem Successive.append {R : Assign → Assign → Prop} (l1 l2 : List (Option Assign)) :
    ∀ v, Successive R v (l1 ++ l2) ↔ Successive R v l1 ∧ Successive R (l1.getLastD v) l2 := by
  induction l1 with
  | nil => intro v; exact ⟨fun h => ⟨trivial, h⟩, fun h => h.2⟩
  | cons x l ih =>
    intro v
    show (_ ∧ Successive R x (l ++ l2)) ↔ _
    rw [ih x]
    have : (x :: l).getLastD v = l.getLastD x := by cases l <;> rfl
    rw [this]
    exact ⟨fun h => ⟨⟨h.1, h.2.1⟩, h.2.2⟩, fun h => ⟨h.1.1, h.1.2, h.2⟩⟩

/-! ## Actions follow the told assignments -/

def Change.key : Change K → K
  | .add k _ => k
  | .mod k _ _ => k
  | .del k _ => k

def Change.old : Change K → Option Assign
  | .add _ _ => none
  | .mod _ _ o => some o
  | .del _ o => some o

def Change.new : Change K → Option Assign
  | .add _ n => some n
  | .mod _ n _ => some n
  | .del _ _ => none

def setAt (w : View K Assign) (k : K) (v : Option Assign) : View K Assign :=
  fun j => if j = k then v else w j

inductive Chain : View K Assign → List (Change K) → View K Assign → Prop
  | nil (w) : Chain w [] w
  | cons (w w' : View K Assign) (c : Change K) (cs : List (Change K)) :
    w c.key = c.old → Chain (setAt w c.key c.new) cs w' → Chain w (c :: cs) w'

theorem Chain.append {w1 w2 w3 : View K Assign} {l1 l2 : List (Change K)} (h1 : Chain w1 l1 w2)
    (h2 : Chain w2 l2 w3) : Chain w1 (l1 ++ l2) w3 := by
  induction h1 with
  | nil w => exact h2
  | cons w w' c cs h _ ih => exact .cons _ _ _ _ h (ih h2)

theorem setAt_insert (s : BStore K Assign) (k : K) (a : Assign) :
    (s.insert k a).get = setAt s.get k (some a) := by
  funext j; exact get_insert s k a j

theorem setAt_delete (s : BStore K Assign) (k : K) : (s.delete k).get = setAt s.get k none := by
  funext j; exact get_delete s k j

theorem setAt_same {w : View K Assign} {k : K} {v : Option Assign} (h : w k = v) : setAt w k v = w := by
  funext j
  unfold setAt
  split
  · rename_i e; rw [e, h]
  · rfl

theorem Chain.put (s : BStore K Assign) (k : K) (a : Assign) :
    Chain s.get (putChange s k a) (s.insert k a).get := by
  unfold putChange
  rw [setAt_insert]
  split
  · rename_i o ho
    split
    · rename_i e
      rw [setAt_same (by rw [ho, e])]
      exact .nil _
    · exact .cons _ _ _ _ ho (.nil _)
  · rename_i ho
    exact .cons _ _ _ _ ho (.nil _)

theorem Chain.drop (s : BStore K Assign) (k : K) : Chain s.get (delChange s k) (s.delete k).get := by
  unfold delChange
  rw [setAt_delete]
  split
  · rename_i o ho
    exact .cons _ _ _ _ ho (.nil _)
  · rename_i ho
    rw [setAt_same ho]
    exact .nil _

theorem Chain.changes (l : List (Upd K Assign)) : ∀ s : BStore K Assign,
    Chain s.get (changesOf s l) (s.applyChanges l).get := by
  induction l with
  | nil => intro s; exact .nil _
  | cons u l ih =>
    intro s
    cases u with
    | put k a => exact (Chain.put s k a).append (ih (s.insert k a))
    | del k => exact (Chain.drop s k).append (ih (s.delete k))

theorem fst_syncOne (l : List (K × Assign)) : ∀ x : BStore K Assign × List K,
    (l.foldl BStore.syncOne x).1 = l.foldl (fun s p => BStore.insert s p.1 p.2) x.1 := by
  induction l with
  | nil => intro x; rfl
  | cons p l ih => intro x; rw [List.foldl_cons, ih]; rfl

theorem Chain.syncs (l : List (K × Assign)) : ∀ s : BStore K Assign,
    Chain s.get (syncChanges s l) (l.foldl (fun s p => BStore.insert s p.1 p.2) s).get := by
  induction l with
  | nil => intro s; exact .nil _
  | cons p l ih => intro s; exact (Chain.put s p.1 p.2).append (ih _)

theorem Chain.drops (l : List K) : ∀ s : BStore K Assign,
    Chain s.get (dropChanges s l) (l.foldl BStore.delete s).get := by
  induction l with
  | nil => intro s; exact .nil _
  | cons p l ih => intro s; exact (Chain.drop s p).append (ih _)

theorem Chain.actions (s : BStore K Assign) (m : Msg K Assign) :
    Chain s.get (actionsOf s m) (brokerApply s m).get := by
  unfold actionsOf brokerApply
  split
  · dsimp only
    refine Chain.append (Chain.syncs m.all s) ?_
    rw [← fst_syncOne m.all (s, s.map (·.1))]
    exact Chain.drops _ _
  · exact Chain.changes m.changes s

/-! ## Reported modifications are successive assignments -/

theorem mods_put {s : BStore K Assign} {j k : K} {a n o : Assign}
    (h : .mod k n o ∈ putChange s j a) : j = k ∧ n = a ∧ s.get k = some o := by
  unfold putChange at h
  split at h
  · rename_i o' ho
    split at h
    · cases h
    · rw [List.mem_singleton] at h
      cases h
      exact ⟨rfl, rfl, ho⟩
  · rw [List.mem_singleton] at h; cases h

theorem mods_drop {s : BStore K Assign} {j k : K} {n o : Assign} (h : .mod k n o ∈ delChange s j) :
    False := by
  unfold delChange at h
  split at h
  · rw [List.mem_singleton] at h; cases h
  · cases h

theorem mods_drops {k : K} {n o : Assign} (l : List K) : ∀ s : BStore K Assign,
    .mod k n o ∈ dropChanges s l → False := by
  induction l with
  | nil => intro s h; cases h
  | cons j l ih =>
    intro s h
    rcases List.mem_append.1 h with h | h
    · exact mods_drop h
    · exact ih _ h

theorem mods_changes {R : Assign → Assign → Prop} {k : K} {n o : Assign} (l : List (Upd K Assign)) :
    ∀ s : BStore K Assign,
    Successive R (s.get k) (l.filterMap fun u => if u.key = k then some u.val else none) →
    .mod k n o ∈ changesOf s l → R o n := by
  induction l with
  | nil => intro s _ h; cases h
  | cons u l ih =>
    intro s hs h
    rw [List.filterMap_cons] at hs
    cases u with
    | put j a =>
      have h' : .mod k n o ∈ putChange s j a ++ changesOf (s.insert j a) l := h
      by_cases hj : j = k
      · rw [if_pos (show (Upd.put j a).key = k from hj)] at hs
        rcases List.mem_append.1 h' with h' | h'
        · obtain ⟨_, rfl, ho⟩ := mods_put h'
          exact hs.1 o n ho rfl
        · refine ih (s.insert j a) ?_ h'
          rw [get_insert, if_pos hj.symm]
          exact hs.2
      · rw [if_neg (show ¬(Upd.put j a).key = k from hj)] at hs
        rcases List.mem_append.1 h' with h' | h'
        · exact absurd (mods_put h').1 hj
        · refine ih (s.insert j a) ?_ h'
          rw [get_insert, if_neg fun e => hj e.symm]
          exact hs
    | del j =>
      have h' : .mod k n o ∈ delChange s j ++ changesOf (s.delete j) l := h
      rcases List.mem_append.1 h' with h' | h'
      · exact (mods_drop h').elim
      by_cases hj : j = k
      · rw [if_pos (show (Upd.del j : Upd K Assign).key = k from hj)] at hs
        refine ih (s.delete j) ?_ h'
        rw [get_delete, if_pos hj.symm]
        exact hs.2
      · rw [if_neg (show ¬(Upd.del j : Upd K Assign).key = k from hj)] at hs
        refine ih (s.delete j) ?_ h'
        rw [get_delete, if_neg fun e => hj e.symm]
        exact hs

theorem mods_syncs {R : Assign → Assign → Prop} {k : K} {n o : Assign} (l : List (K × Assign)) :
    ∀ s : BStore K Assign,
    Successive R (s.get k) (l.filterMap fun p => if p.1 = k then some (some p.2) else none) →
    .mod k n o ∈ syncChanges s l → R o n := by
  induction l with
  | nil => intro s _ h; cases h
  | cons p l ih =>
    intro s hs h
    rw [List.filterMap_cons] at hs
    have h' : .mod k n o ∈ putChange s p.1 p.2 ++ syncChanges (s.insert p.1 p.2) l := h
    by_cases hj : p.1 = k
    · rw [if_pos hj] at hs
      rcases List.mem_append.1 h' with h' | h'
      · obtain ⟨_, rfl, ho⟩ := mods_put h'
        exact hs.1 o _ ho rfl
      · refine ih _ ?_ h'
        rw [get_insert, if_pos hj.symm]
        exact hs.2
    · rw [if_neg hj] at hs
      rcases List.mem_append.1 h' with h' | h'
      · exact absurd (mods_put h').1 hj
      · refine ih _ ?_ h'
        rw [get_insert, if_neg fun e => hj e.symm]
        exact hs

theorem mods_actions {R : Assign → Assign → Prop} {s : BStore K Assign} {m : Msg K Assign} {k : K}
    {n o : Assign} (hs : Successive R (s.get k) (heardMsg k m)) (h : .mod k n o ∈ actionsOf s m) :
    R o n := by
  unfold actionsOf at h
  unfold heardMsg at hs
  split at h
  · rename_i ha
    rw [if_pos ha] at hs
    dsimp only at h hs
    rcases List.mem_append.1 h with h | h
    · split at hs
      · rename_i he
        exact mods_syncs m.all s (by rw [he]; trivial) h
      · exact mods_syncs m.all s hs h
    · exact (mods_drops _ _ h).elim
  · rename_i ha
    rw [if_neg ha] at hs
    exact mods_changes m.changes s hs h

/-- What has been told at last is what was heard last. -/
theorem last_changes (k : K) (l : List (Upd K Assign)) : ∀ w : View K Assign,
    w.acts l k = (l.filterMap fun u => if u.key = k then some u.val else none).getLastD (w k) := by
  induction l with
  | nil => intro w; rfl
  | cons u l ih =>
    intro w
    rw [acts_cons, ih, act_eq, List.filterMap_cons]
    by_cases hj : u.key = k
    · rw [if_pos hj, if_pos hj.symm]
      generalize l.filterMap _ = q
      cases q <;> rfl
    · rw [if_neg hj, if_neg fun e => hj e.symm]

theorem last_msg (s : BStore K Assign) (m : Msg K Assign) (k : K) :
    (brokerApply s m).get k = (heardMsg k m).getLastD (s.get k) := by
  rw [brokerApply_get]
  unfold View.apply heardMsg
  split
  · rw [last_changes]
    have : (m.all.map fun p => Upd.put p.1 p.2).filterMap
        (fun u => if u.key = k then some u.val else none) =
        m.all.filterMap fun p => if p.1 = k then some (some p.2) else none := by
      rw [List.filterMap_map]; rfl
    rw [this]
    dsimp only
    generalize m.all.filterMap _ = q
    cases q with
    | nil => rfl
    | cons x q =>
      rw [if_neg (List.cons_ne_nil _ _)]
      cases q <;> rfl
  · exact last_changes k m.changes _

/-! ## Induction over runs -/

theorem actAll_ind {P : Change K → Prop} {Q : Io → Prop} {J : Broker K → View K Assign → Prop}
    (hQ : Q ⟨true, true, true⟩)
    (hstep : ∀ b io c w, J b w → w c.key = c.old → P c → Q io →
      J (b.act io c).1 (setAt w c.key c.new)) {w w' : View K Assign} {cs : List (Change K)}
    (hc : Chain w cs w') :
    ∀ {b : Broker K} {ios : List Io}, (∀ c ∈ cs, P c) → (∀ io ∈ ios, Q io) → J b w →
      J (b.actAll ios cs).1 w' := by
  induction hc with
  | nil w => intro b ios _ _ h; exact h
  | cons w w' c cs hk _ ih =>
    intro b ios hP hio h
    refine ih (fun c hc => hP c (by simp [hc])) (fun io hi => hio io (List.mem_of_mem_tail hi)) ?_
    refine hstep b _ c w h hk (hP c (by simp)) ?_
    cases ios with
    | nil => exact hQ
    | cons io ios => exact hio io (by simp)

theorem dropFollower_frame (b : Broker K) (l : Nat) (k : K) :
    (b.dropFollower l k).1.told = b.told ∧ (b.dropFollower l k).1.me = b.me ∧
    (b.dropFollower l k).1.leads = b.leads ∧ (b.dropFollower l k).1.disk = b.disk := by
  unfold Broker.dropFollower
  split <;> exact ⟨rfl, rfl, rfl, rfl⟩

theorem addFollower_frame (b : Broker K) (io : Io) (k : K) (a : Assign) :
    (b.addFollower io k a).1.told = b.told ∧ (b.addFollower io k a).1.me = b.me ∧
    (b.addFollower io k a).1.leads = b.leads ∧ (b.addFollower io k a).1.disk = b.disk := by
  unfold Broker.addFollower Broker.checkNew
  split
  · exact ⟨rfl, rfl, rfl, rfl⟩
  · split
    · split <;> exact ⟨rfl, rfl, rfl, rfl⟩
    · exact ⟨rfl, rfl, rfl, rfl⟩

theorem wipe_frame (b : Broker K) (io : Io) (k : K) :
    (b.wipe io k).told = b.told ∧ (b.wipe io k).me = b.me ∧ (b.wipe io k).leads = b.leads ∧
    (b.wipe io k).follows = b.follows ∧ (b.wipe io k).groups = b.groups := by
  unfold Broker.wipe
  split <;> exact ⟨rfl, rfl, rfl, rfl, rfl⟩

theorem act_told (b : Broker K) (io : Io) (c : Change K) :
    (b.act io c).1.told = b.told ∧ (b.act io c).1.me = b.me := by
  have hrem : ∀ k a, (b.removeReplica io k a).1.told = b.told ∧ (b.removeReplica io k a).1.me = b.me := by
    intro k a
    unfold Broker.removeReplica
    split
    · split
      · exact ⟨(wipe_frame _ _ _).1, (wipe_frame _ _ _).2.1⟩
      · exact ⟨rfl, rfl⟩
    · dsimp only
      split
      · rw [(wipe_frame _ _ _).1, (wipe_frame _ _ _).2.1]
        exact ⟨(dropFollower_frame _ _ _).1, (dropFollower_frame _ _ _).2.1⟩
      · exact ⟨(dropFollower_frame _ _ _).1, (dropFollower_frame _ _ _).2.1⟩
  cases c with
  | add k n =>
    show (ite _ _ _ : Broker K × List (Out K)).1.told = _ ∧ (ite _ _ _ : Broker K × List (Out K)).1.me = _
    split
    · exact hrem k n
    · split
      · unfold Broker.addLeader
        split <;> exact ⟨rfl, rfl⟩
      · split
        · exact ⟨(addFollower_frame _ _ _ _).1, (addFollower_frame _ _ _ _).2.1⟩
        · exact ⟨rfl, rfl⟩
  | del k o => exact hrem k o
  | mod k n o =>
    show (ite _ _ _ : Broker K × List (Out K)).1.told = _ ∧ (ite _ _ _ : Broker K × List (Out K)).1.me = _
    split
    · exact hrem k n
    · split
      · split
        · unfold Broker.promote
          dsimp only
          have := dropFollower_frame b o.leader k
          split
          · split <;> exact ⟨this.1, this.2.1⟩
          · exact ⟨this.1, this.2.1⟩
        · split
          · show (Broker.demote b io k n).told = _ ∧ (Broker.demote b io k n).me = _
            unfold Broker.demote
            split
            · exact ⟨(addFollower_frame _ _ _ _).1, (addFollower_frame _ _ _ _).2.1⟩
            · exact ⟨rfl, rfl⟩
          · show (Broker.switchLeader b io k n o).told = _ ∧ (Broker.switchLeader b io k n o).me = _
            unfold Broker.switchLeader
            rw [(addFollower_frame _ _ _ _).1, (addFollower_frame _ _ _ _).2.1]
            exact ⟨(dropFollower_frame _ _ _).1, (dropFollower_frame _ _ _).2.1⟩
      · exact ⟨rfl, rfl⟩

theorem actAll_told (cs : List (Change K)) : ∀ (b : Broker K) (ios : List Io),
    (b.actAll ios cs).1.told = b.told ∧ (b.actAll ios cs).1.me = b.me := by
  induction cs with
  | nil => intro b ios; exact ⟨rfl, rfl⟩
  | cons c cs ih =>
    intro b ios
    have h1 := ih (b.act (ios.head?.getD ⟨true, true, true⟩) c).1 ios.tail
    have h2 := act_told b (ios.head?.getD ⟨true, true, true⟩) c
    exact ⟨h1.1.trans h2.1, h1.2.trans h2.2⟩

theorem update_told (b : Broker K) (ios : List Io) (m : Msg K Assign) :
    (b.update ios m).1.told = brokerApply b.told m ∧ (b.update ios m).1.me = b.me :=
  actAll_told _ _ _

theorem step_told (b : Broker K) (e : Event K) (k : K) :
    (b.step e).told.get k = (heardEvent k e).getLastD (b.told.get k) := by
  cases e with
  | update ios m =>
    show (b.update ios m).1.told.get k = _
    rw [(update_told b ios m).1]
    exact last_msg _ _ _
  | write k rs =>
    show (ite _ _ _ : Broker K).told.get _ = _
    split <;> rfl
  | restart => rfl

theorem step_me (b : Broker K) (e : Event K) : (b.step e).me = b.me := by
  cases e with
  | update ios m => exact (update_told b ios m).2
  | write k rs =>
    show (ite _ _ _ : Broker K).me = _
    split <;> rfl
  | restart => rfl

theorem run_me (es : List (Event K)) : ∀ b : Broker K, (b.run es).me = b.me := by
  induction es with
  | nil => intro b; rfl
  | cons e es ih => intro b; exact (ih _).trans (step_me b e)

theorem run_told (k : K) (es : List (Event K)) : ∀ b : Broker K,
    (b.run es).told.get k = (heard k es).getLastD (b.told.get k) := by
  induction es with
  | nil => intro b; rfl
  | cons e es ih =>
    intro b
    show ((b.step e).run es).told.get k = _
    rw [ih, step_told]
    show _ = (heardEvent k e ++ heard k es).getLastD _
    generalize heardEvent k e = l1
    generalize heard k es = l2
    rcases List.eq_nil_or_concat l2 with rfl | ⟨q, x, rfl⟩
    · simp
    · simp [List.getLastD_eq_getLast?]

/-- Induction over a run in which successive assignments are related by `R` and events are of a kind. -/
theorem run_ind {R : Assign → Assign → Prop} {E : Event K → Prop} {Inv : Broker K → Prop}
    (hstep : ∀ b e, Inv b → E e →
      (∀ ios m, e = .update ios m → ∀ k n o, .mod k n o ∈ actionsOf b.told m → R o n) → Inv (b.step e))
    (es : List (Event K)) : ∀ b : Broker K, Inv b → (∀ e ∈ es, E e) →
    (∀ k, Successive R (b.told.get k) (heard k es)) → Inv (b.run es) := by
  induction es with
  | nil => intro b h _ _; exact h
  | cons e es ih =>
    intro b h hE hs
    have hs' : ∀ k, Successive R (b.told.get k) (heardEvent k e) ∧
        Successive R ((heardEvent k e).getLastD (b.told.get k)) (heard k es) := by
      intro k
      exact (Successive.append _ _ _).1 (hs k)
    refine ih (b.step e) (hstep b e h (hE e (by simp)) ?_) (fun e he => hE e (by simp [he])) ?_
    · rintro ios m rfl k n o hm
      exact mods_actions (hs' k).1 hm
    · intro k
      rw [step_told]
      exact (hs' k).2

end Verif.Broker
