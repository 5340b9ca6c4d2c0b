import Verif.Meta.LocalInv

/-!
# Parents and children in the local metadata storage, one operation at a time
-/

namespace Verif.Meta.Local

set_option linter.unusedSectionVars false

variable {K Sp St : Type} [DecidableEq K]

/-- A request to the storage. -/
inductive Cmd (K Sp St : Type) where
  | apply (o : LObj K Sp St)
  | spec (k : K) (m : Item K) (sp : Sp)
  | specByKey (k : K) (sp : Sp)
  | status (k : K) (m : Item K) (st : St)
  | delete (k : K)

def Cmd.prog (dflt : St) : Cmd K Sp St → Prog K Sp St
  | .apply o => applyOp o
  | .spec k m sp => updateSpecOp dflt k m sp
  | .specByKey k sp => updateSpecByKeyOp dflt k sp
  | .status k m st => updateStatusOp k m st
  | .delete k => deleteOp k

/-- The item a caller gives is the one stored, or an older one. -/
def Known (d : Data K Sp St) (k : K) (m : Item K) : Prop :=
  ∃ x, d k = some x ∧ (m = x.item ∨ m.rev < x.item.rev)

/-- Requests as the controller makes them.  `own k` is the object that the kind and name of `k` make its
parent (the topic of a partition), if there is one.  New objects come without children and, if they name a
parent, with one that exists; existing objects are updated with an item that has been read. -/
def Cmd.Honest (own : K → Option K) (d : Data K Sp St) : Cmd K Sp St → Prop
  | .apply o =>
    (d o.key = none ∧ o.item.kids = [] ∧
      ∀ p, o.item.parent = some p → own o.key = some p ∧ (d p).isSome = true) ∨
    Known d o.key o.item
  | .spec k m _ => (d k = none ∧ m.kids = [] ∧ m.parent = none) ∨ Known d k m
  | .specByKey _ _ => True
  | .status k m _ => d k = none ∨ Known d k m
  | .delete _ => True

/-- Requests one after another, each when the one before has finished. -/
def runCmds (dflt : St) (d : Data K Sp St) (l : List (Cmd K Sp St)) : Data K Sp St :=
  l.foldl (fun d c => ((c.prog dflt).exec d).1) d

/-- All of them are honest. -/
def HonestRun (own : K → Option K) (dflt : St) : Data K Sp St → List (Cmd K Sp St) → Prop
  | _, [] => True
  | d, c :: l => c.Honest own d ∧ HonestRun own dflt ((c.prog dflt).exec d).1 l

structure Tree (own : K → Option K) (d : Data K Sp St) : Prop where
  keyed : Keyed d
  up : ∀ k o p, d k = some o → o.item.parent = some p →
    own k = some p ∧ ∃ po, d p = some po ∧ k ∈ po.item.kids.map Prod.fst
  down : ∀ k o, d k = some o → ∀ c ∈ o.item.kids, own c.1 = some k

theorem Tree.empty (own : K → Option K) : Tree own (fun _ => none : Data K Sp St) :=
  ⟨fun _ _ h => by simp at h, fun _ _ _ h => by simp at h, fun _ _ h => by simp at h⟩

theorem Tree.replace {own : K → Option K} {d : Data K Sp St} (h : Tree own d) {k : K}
    {x y : LObj K Sp St} (hx : d k = some x) (hk : y.key = k) (hp : y.item.parent = x.item.parent)
    (hd : ∀ c ∈ y.item.kids, own c.1 = some k)
    (hu : ∀ j o, d j = some o → o.item.parent = some k → j ∈ y.item.kids.map Prod.fst) :
    Tree own (d.set k (some y)) := by
  refine ⟨h.keyed.set fun o ho => by cases ho; exact hk, fun j o p hj hpar => ?_, fun j o hj => ?_⟩
  · have hpar' : ∃ o', d j = some o' ∧ o'.item.parent = some p := by
      by_cases e : j = k
      · subst e
        rw [set_same] at hj; cases hj
        exact ⟨x, hx, by rw [← hp]; exact hpar⟩
      · rw [set_other _ _ e] at hj
        exact ⟨o, hj, hpar⟩
    obtain ⟨o', h1, h2⟩ := hpar'
    obtain ⟨h3, po, h4, h5⟩ := h.up j o' p h1 h2
    refine ⟨h3, ?_⟩
    by_cases e : p = k
    · subst e
      exact ⟨y, set_same .., hu j o' h1 h2⟩
    · exact ⟨po, by rw [set_other _ _ e]; exact h4, h5⟩
  · by_cases e : j = k
    · subst e
      rw [set_same] at hj; cases hj
      exact hd
    · rw [set_other _ _ e] at hj
      exact h.down j o hj

/-- Updating an object without touching its place. -/
theorem Tree.update {own : K → Option K} {d : Data K Sp St} (h : Tree own d) {k : K}
    {x y : LObj K Sp St} (hx : d k = some x) (hk : y.key = k) (hp : y.item.parent = x.item.parent)
    (hc : y.item.kids = x.item.kids) : Tree own (d.set k (some y)) :=
  h.replace hx hk hp (by rw [hc]; exact h.down k x hx) fun j o hj hpar => by
    obtain ⟨_, po, h4, h5⟩ := h.up j o k hj hpar
    rw [hx] at h4; cases h4
    rw [hc]; exact h5

theorem Tree.add {own : K → Option K} {d : Data K Sp St} (h : Tree own d) {k : K} {y : LObj K Sp St}
    (hx : d k = none) (hk : y.key = k) (hc : y.item.kids = [])
    (hp : ∀ p, y.item.parent = some p → own k = some p ∧
      ∃ po, d p = some po ∧ k ∈ po.item.kids.map Prod.fst) : Tree own (d.set k (some y)) := by
  have hne : ∀ {p po}, d p = some po → p ≠ k := by
    intro p po h1 e
    subst e
    rw [hx] at h1; cases h1
  refine ⟨h.keyed.set fun o ho => by cases ho; exact hk, fun j o p hj hpar => ?_, fun j o hj => ?_⟩
  · have : own j = some p ∧ ∃ po, d p = some po ∧ j ∈ po.item.kids.map Prod.fst := by
      by_cases e : j = k
      · subst e
        rw [set_same] at hj; cases hj
        exact hp p hpar
      · rw [set_other _ _ e] at hj
        exact h.up j o p hj hpar
    obtain ⟨h1, po, h2, h3⟩ := this
    exact ⟨h1, po, by rw [set_other _ _ (hne h2)]; exact h2, h3⟩
  · by_cases e : j = k
    · subst e
      rw [set_same] at hj; cases hj
      rw [hc]; intro c hm; cases hm
    · rw [set_other _ _ e] at hj
      exact h.down j o hj

/-- Taking away a set of objects together with all their children. -/
theorem Tree.remove {own : K → Option K} {d e : Data K Sp St} (h : Tree own d) (gone : K → Prop)
    [DecidablePred gone] (he : ∀ j, e j = if gone j then none else d j)
    (hg : ∀ j o p, d j = some o → o.item.parent = some p → gone p → gone j) : Tree own e := by
  have hs : ∀ {j o}, e j = some o → d j = some o ∧ ¬ gone j := by
    intro j o hj
    rw [he] at hj
    by_cases g : gone j
    · rw [if_pos g] at hj; cases hj
    · rw [if_neg g] at hj; exact ⟨hj, g⟩
  refine ⟨fun j o hj => h.keyed j o (hs hj).1, fun j o p hj hpar => ?_,
    fun j o hj => h.down j o (hs hj).1⟩
  obtain ⟨h1, po, h2, h3⟩ := h.up j o p (hs hj).1 hpar
  refine ⟨h1, po, ?_, h3⟩
  rw [he, if_neg fun g => (hs hj).2 (hg j o p (hs hj).1 hpar g)]
  exact h2

/-! ### The requests -/

theorem accept_same {d : Data K Sp St} {o x : LObj K Sp St} (hx : d o.key = some x)
    (hr : x.item.rev ≤ o.item.rev) : accept d o = some (bump o x.item.rev) := by
  unfold accept
  rw [hx]
  dsimp only
  rw [if_neg (by unfold newer; simp; omega)]
  rfl

theorem accept_stale {d : Data K Sp St} {o x : LObj K Sp St} (hx : d o.key = some x)
    (hr : o.item.rev < x.item.rev) : accept d o = none := by
  unfold accept
  rw [hx]
  dsimp only
  rw [if_pos (by unfold newer; simp; omega)]

theorem accept_new {d : Data K Sp St} {o : LObj K Sp St} (hx : d o.key = none) :
    accept d o = some o := by
  unfold accept
  rw [hx]

theorem exec_put_some {d : Data K Sp St} {o o' : LObj K Sp St} {next : Bool → Prog K Sp St}
    (h : accept d o = some o') : (Prog.put o next).exec d = (next true).exec (d.set o.key (some o')) := by
  rw [Prog.exec, h]

theorem exec_put_none {d : Data K Sp St} {o : LObj K Sp St} {next : Bool → Prog K Sp St}
    (h : accept d o = none) : (Prog.put o next).exec d = (next false).exec d := by
  rw [Prog.exec, h]

theorem exec_get (d : Data K Sp St) (k : K) (next : Option (LObj K Sp St) → Prog K Sp St) :
    (Prog.get k next).exec d = (next (d k)).exec d := by rw [Prog.exec]

theorem set_comm (d : Data K Sp St) {k j : K} (x y : Option (LObj K Sp St)) (h : k ≠ j) :
    (d.set k x).set j y = (d.set j y).set k x := by
  funext i
  unfold Data.set
  by_cases h1 : i = j
  · by_cases h2 : i = k
    · exact absurd (h2.symm.trans h1) h
    · rw [if_pos h1, if_neg h2, if_pos h1]
  · rw [if_neg h1, if_neg h1]

/-- A parent with one more child. -/
def withChild (po : LObj K Sp St) (c : K × Nat) : LObj K Sp St :=
  { po with item := { po.item with kids := putChild po.item.kids c } }

/-- A parent with one child less. -/
def withoutChild (po : LObj K Sp St) (c : K × Nat) : LObj K Sp St :=
  { po with item := { po.item with kids := removeChild po.item.kids c } }

theorem exec_link {d : Data K Sp St} {p : K} {c : K × Nat} {po : LObj K Sp St} (hk : Keyed d)
    (hp : d p = some po) :
    (link p c : Prog K Sp St).exec d = (d.set p (some (bump (withChild po c) po.item.rev)), true) := by
  unfold link
  rw [exec_get, hp]
  dsimp only
  have hkey : (withChild po c).key = p := hk p po hp
  show (Prog.put (withChild po c) Prog.done).exec d = _
  rw [exec_put_some (accept_same (o := withChild po c) (x := po) (by rw [hkey]; exact hp)
    (Nat.le_refl _)), hkey]
  rfl

theorem mem_putChild {kids : List (K × Nat)} {c x : K × Nat} :
    x ∈ putChild kids c ↔ x = c ∨ x ∈ kids := by
  unfold putChild
  split
  · rename_i h
    constructor
    · exact .inr
    · rintro (rfl | h')
      · exact h
      · exact h'
  · simp only [List.mem_append, List.mem_singleton]
    exact or_comm

theorem keys_putChild {kids : List (K × Nat)} {c : K × Nat} {j : K} :
    j ∈ (putChild kids c).map Prod.fst ↔ j = c.1 ∨ j ∈ kids.map Prod.fst := by
  simp only [List.mem_map, mem_putChild]
  constructor
  · rintro ⟨x, rfl | h, rfl⟩
    · exact .inl rfl
    · exact .inr ⟨x, h, rfl⟩
  · rintro (rfl | ⟨x, h, rfl⟩)
    · exact ⟨c, .inl rfl, rfl⟩
    · exact ⟨x, .inr h, rfl⟩

theorem Tree.link {own : K → Option K} {d : Data K Sp St} (h : Tree own d) {p : K} {c : K × Nat}
    {po : LObj K Sp St} (hp : d p = some po) (hc : own c.1 = some p) :
    Tree own (d.set p (some (bump (withChild po c) po.item.rev))) := by
  refine h.replace hp (h.keyed p po hp) rfl ?_ ?_
  · intro x hx
    rcases mem_putChild.1 hx with rfl | hx
    · exact hc
    · exact h.down p po hp x hx
  · intro j o hj hpar
    obtain ⟨_, po', h4, h5⟩ := h.up j o p hj hpar
    rw [hp] at h4; cases h4
    exact keys_putChild.2 (.inr h5)

theorem Tree.apply {own : K → Option K} (flat : ∀ k p, own k = some p → own p = none)
    {d : Data K Sp St} (h : Tree own d) {o : LObj K Sp St}
    (ho : (Cmd.apply o).Honest own d) : Tree own ((applyOp o).exec d).1 := by
  have hflat : ∀ {k p}, own k = some p → p ≠ k := by
    intro k p h1 e
    subst e
    have := flat _ _ h1
    rw [h1] at this; cases this
  unfold applyOp
  rcases ho with ⟨hn, hc, hpar⟩ | ⟨x, hx, hm⟩
  · rw [exec_put_some (accept_new hn), if_pos rfl]
    cases hp : o.item.parent with
    | none =>
      exact h.add hn rfl hc fun p hp' => by rw [hp] at hp'; cases hp'
    | some p =>
      obtain ⟨h1, h2⟩ := hpar p hp
      obtain ⟨po, h3⟩ := Option.isSome_iff_exists.1 h2
      have hne := hflat h1
      have hk1 : Keyed (d.set o.key (some o)) := h.keyed.set fun x hx => by cases hx; rfl
      dsimp only
      rw [exec_link hk1 (po := po) (by rw [set_other _ _ hne]; exact h3)]
      dsimp only
      rw [set_comm _ _ _ (Ne.symm hne)]
      refine (h.link (c := (o.key, o.item.rev)) h3 h1).add ?_ rfl hc ?_
      · rw [set_other _ _ (Ne.symm hne)]; exact hn
      · intro p' hp'
        rw [hp] at hp'; cases hp'
        exact ⟨h1, _, set_same .., keys_putChild.2 (.inl rfl)⟩
  · rcases hm with hm | hm
    · rw [exec_put_some (accept_same hx (by rw [hm]; exact Nat.le_refl _)), if_pos rfl]
      have h1 : Tree own (d.set o.key (some (bump o x.item.rev))) :=
        h.update hx rfl (by rw [← hm]; rfl) (by rw [← hm]; rfl)
      cases hp : o.item.parent with
      | none => exact h1
      | some p =>
        obtain ⟨h2, po, h3, _⟩ := h.up o.key x p hx (by rw [← hm]; exact hp)
        have h4 : (d.set o.key (some (bump o x.item.rev))) p = some po := by
          rw [set_other _ _ (hflat h2)]; exact h3
        dsimp only
        rw [exec_link h1.keyed h4]
        exact h1.link h4 h2
    · rw [exec_put_none (accept_stale hx hm)]
      exact h

/-- What a deletion leaves. -/
theorem exec_delete {own : K → Option K} (flat : ∀ k p, own k = some p → own p = none)
    {d : Data K Sp St} (h : Tree own d) {k : K} {o : LObj K Sp St} (ho : d k = some o) :
    ((deleteOp k : Prog K Sp St).exec d).2 = true ∧
    match o.item.parent with
    | none => ∀ j, ((deleteOp k : Prog K Sp St).exec d).1 j =
        if j = k ∨ j ∈ o.item.kids.map Prod.fst then none else d j
    | some p => ∃ po, d p = some po ∧ p ≠ k ∧ o.item.kids = [] ∧
        ((deleteOp k : Prog K Sp St).exec d).1 =
          (d.set k none).set p (some (bump (withoutChild po (k, o.item.rev)) po.item.rev)) := by
  unfold deleteOp
  rw [exec_get, ho]
  dsimp only
  cases hp : o.item.parent with
  | none =>
    dsimp only
    exact exec_removeAll d k _
  | some p =>
    dsimp only
    obtain ⟨h1, po, h2, h3⟩ := h.up k o p ho hp
    have hne : p ≠ k := by
      intro e
      subst e
      have := flat _ _ h1
      rw [h1] at this; cases this
    have hnil : o.item.kids = [] := by
      cases hk : o.item.kids with
      | nil => rfl
      | cons c l =>
        have := h.down k o ho c (by rw [hk]; simp)
        have := flat _ _ this
        rw [h1] at this; cases this
    rw [exec_get, h2]
    dsimp only
    have hkey : (withoutChild po (k, o.item.rev)).key = p := h.keyed p po h2
    have hput := exec_put_some (d := d) (next := fun ok => if ok = true then removeAll k o.item.kids
        else Prog.done false)
      (accept_same (o := withoutChild po (k, o.item.rev)) (x := po) (by rw [hkey]; exact h2)
        (Nat.le_refl _))
    rw [hkey] at hput
    have hput' : (Prog.put { po with item := { po.item with
          kids := removeChild po.item.kids (k, o.item.rev) } }
        fun ok => if ok = true then removeAll k o.item.kids else Prog.done false).exec d
        = (removeAll k o.item.kids).exec
            (d.set p (some (bump (withoutChild po (k, o.item.rev)) po.item.rev))) := hput
    rw [hput', hnil]
    refine ⟨rfl, po, rfl, hne, rfl, ?_⟩
    exact set_comm _ _ _ hne

theorem Tree.delete {own : K → Option K} (flat : ∀ k p, own k = some p → own p = none)
    {d : Data K Sp St} (h : Tree own d) (k : K) : Tree own ((deleteOp k : Prog K Sp St).exec d).1 := by
  cases ho : d k with
  | none =>
    unfold deleteOp
    rw [exec_get, ho]
    exact h
  | some o =>
    have hd := (exec_delete flat h ho).2
    cases hp : o.item.parent with
    | none =>
      rw [hp] at hd
      refine h.remove (fun j => j = k ∨ j ∈ o.item.kids.map Prod.fst) hd ?_
      rintro j oj p hj hpar (rfl | hmem)
      · obtain ⟨_, po, h2, h3⟩ := h.up j oj _ hj hpar
        rw [ho] at h2; cases h2
        exact .inr h3
      · exfalso
        obtain ⟨h1, _⟩ := h.up j oj p hj hpar
        obtain ⟨c, hc, rfl⟩ := List.mem_map.1 hmem
        have h2 := h.down k o ho c hc
        have h3 := flat _ _ h1
        rw [h2] at h3; cases h3
    | some p =>
      rw [hp] at hd
      obtain ⟨po, h2, hne, hnil, he⟩ := hd
      rw [he]
      have h1 : Tree own (d.set k none) := by
        refine h.remove (fun j => j = k) (fun j => rfl) ?_
        rintro j oj q hj hpar rfl
        obtain ⟨_, po', h4, h5⟩ := h.up j oj _ hj hpar
        rw [ho] at h4; cases h4
        rw [hnil] at h5; cases h5
      have hp2 : (d.set k none) p = some po := by rw [set_other _ _ hne]; exact h2
      refine h1.replace hp2 (h.keyed p po h2) rfl ?_ ?_
      · intro c hc
        exact h.down p po h2 c (List.mem_filter.1 hc).1
      · intro j oj hj hpar
        have hjk : j ≠ k := by
          intro e
          subst e
          rw [set_same] at hj; cases hj
        obtain ⟨_, po', h4, h5⟩ := h1.up j oj p hj hpar
        rw [hp2] at h4; cases h4
        obtain ⟨c, hc, rfl⟩ := List.mem_map.1 h5
        refine List.mem_map.2 ⟨c, List.mem_filter.2 ⟨hc, ?_⟩, rfl⟩
        simp only [ne_eq, decide_eq_true_eq]
        intro e
        exact hjk (by rw [e])

theorem Tree.cmd {own : K → Option K} (flat : ∀ k p, own k = some p → own p = none) (dflt : St)
    {d : Data K Sp St} (h : Tree own d) (c : Cmd K Sp St) (hc : c.Honest own d) :
    Tree own ((c.prog dflt).exec d).1 := by
  cases c with
  | apply o => exact h.apply flat hc
  | delete k => exact h.delete flat k
  | spec k m sp =>
    show Tree own ((updateSpecOp dflt k m sp).exec d).1
    unfold updateSpecOp
    rw [exec_get]
    rcases hc with ⟨hn, h1, h2⟩ | ⟨x, hx, hm⟩
    · rw [hn]
      dsimp only
      rw [exec_put_some (accept_new (by exact hn))]
      exact h.add hn rfl h1 fun p hp => by rw [show m.parent = some p from hp] at h2; cases h2
    · rw [hx]
      dsimp only
      have hkx : x.key = k := h.keyed k x hx
      rcases hm with hm | hm
      · rw [exec_put_some (accept_same (x := x) (by show d x.key = _; rw [hkx]; exact hx)
          (by show _ ≤ m.rev; rw [hm]; exact Nat.le_refl _))]
        show Tree own (d.set x.key _)
        rw [hkx]
        exact h.update hx rfl (by rw [← hm]; rfl) (by rw [← hm]; rfl)
      · rw [exec_put_none (accept_stale (x := x) (by show d x.key = _; rw [hkx]; exact hx) hm)]
        exact h
  | specByKey k sp =>
    show Tree own ((updateSpecByKeyOp dflt k sp).exec d).1
    unfold updateSpecByKeyOp
    rw [exec_get]
    cases hx : d k with
    | none =>
      dsimp only
      rw [exec_put_some (accept_new (by exact hx))]
      exact h.add hx rfl rfl fun p hp => by cases hp
    | some x =>
      dsimp only
      have hkx : x.key = k := h.keyed k x hx
      rw [exec_put_some (accept_same (o := { x with spec := sp }) (x := x)
          (by show d x.key = _; rw [hkx]; exact hx) (Nat.le_refl _))]
      show Tree own (d.set x.key _)
      rw [hkx]
      exact h.update hx rfl rfl rfl
  | status k m st =>
    show Tree own ((updateStatusOp k m st).exec d).1
    unfold updateStatusOp
    rw [exec_get]
    rcases hc with hn | ⟨x, hx, hm⟩
    · rw [hn]; exact h
    · rw [hx]
      dsimp only
      have hkx : x.key = k := h.keyed k x hx
      rcases hm with hm | hm
      · rw [exec_put_some (accept_same (x := x) (by show d x.key = _; rw [hkx]; exact hx)
          (by show _ ≤ m.rev; rw [hm]; exact Nat.le_refl _))]
        show Tree own (d.set x.key _)
        rw [hkx]
        exact h.update hx rfl (by rw [← hm]; rfl) (by rw [← hm]; rfl)
      · rw [exec_put_none (accept_stale (x := x) (by show d x.key = _; rw [hkx]; exact hx) hm)]
        exact h

theorem Tree.run {own : K → Option K} (flat : ∀ k p, own k = some p → own p = none) (dflt : St)
    (l : List (Cmd K Sp St)) : ∀ {d : Data K Sp St}, Tree own d → HonestRun own dflt d l →
    Tree own (runCmds dflt d l) := by
  induction l with
  | nil => intro d h _; exact h
  | cons c l ih => intro d h hl; exact ih (h.cmd flat dflt c hl.1) hl.2

end Verif.Meta.Local
