import Verif.Meta.Local

/-!
# Lemmas about the local metadata storage
-/

namespace Verif.Meta.Local

set_option linter.unusedSectionVars false

variable {K Sp St : Type} [DecidableEq K]

/-- Every object is stored under its own key. -/
def Keyed (d : Data K Sp St) : Prop := ∀ k o, d k = some o → o.key = k

theorem set_same (d : Data K Sp St) (k : K) (x : Option (LObj K Sp St)) : d.set k x k = x := by
  simp [Data.set]

theorem set_other (d : Data K Sp St) {k j : K} (x : Option (LObj K Sp St)) (h : j ≠ k) :
    d.set k x j = d j := by
  simp [Data.set, h]

theorem accept_key {d : Data K Sp St} {o o' : LObj K Sp St} (h : accept d o = some o') :
    o'.key = o.key := by
  unfold accept at h
  split at h
  · split at h
    · cases h
    · cases h; rfl
  · cases h; rfl

theorem accept_some {d : Data K Sp St} {o o' x : LObj K Sp St} (hx : d o.key = some x)
    (h : accept d o = some o') :
    x.item.rev ≤ o.item.rev ∧ o' = { o with item := { o.item with rev := x.item.rev + 1 } } := by
  unfold accept at h
  rw [hx] at h
  dsimp only at h
  split at h
  · cases h
  · rename_i hn
    cases h
    unfold newer at hn
    simp only [decide_eq_true_eq, Nat.not_lt] at hn
    exact ⟨hn, rfl⟩

theorem Keyed.set {d : Data K Sp St} (h : Keyed d) {k : K} {x : Option (LObj K Sp St)}
    (hx : ∀ o, x = some o → o.key = k) : Keyed (d.set k x) := by
  intro j o hj
  by_cases e : j = k
  · subst e
    rw [set_same] at hj
    exact hx o hj
  · rw [set_other _ _ e] at hj
    exact h j o hj

theorem Keyed.step {d : Data K Sp St} (h : Keyed d) (p : Prog K Sp St) : Keyed (p.step d).1 := by
  cases p with
  | done ok => exact h
  | get k next => exact h
  | put o next =>
    unfold Prog.step
    dsimp only
    cases ha : accept d o with
    | none => exact h
    | some o' => exact h.set fun x hx => by cases hx; exact accept_key ha
  | del k next => exact h.set fun x hx => by cases hx

theorem Keyed.run {s : Sys K Sp St} (sched : List Nat) (h : Keyed s.data) : Keyed (s.run sched).data := by
  induction sched generalizing s with
  | nil => exact h
  | cons i l ih => exact ih (s := s.step i) (h.step _)

/-- While an object stays, its revision grows with every change. -/
theorem step_rev {d : Data K Sp St} (p : Prog K Sp St) {k : K} {x y : LObj K Sp St}
    (hx : d k = some x) (hy : (p.step d).1 k = some y) : y = x ∨ x.item.rev < y.item.rev := by
  cases p with
  | done ok => rw [show (Prog.step d (.done ok)).1 = d from rfl, hx] at hy; cases hy; exact .inl rfl
  | get j next => rw [show (Prog.step d (.get j next)).1 = d from rfl, hx] at hy; cases hy; exact .inl rfl
  | put o next =>
    unfold Prog.step at hy
    dsimp only at hy
    cases ha : accept d o with
    | none => rw [ha] at hy; dsimp only at hy; rw [hx] at hy; cases hy; exact .inl rfl
    | some o' =>
      rw [ha] at hy
      dsimp only at hy
      by_cases e : k = o.key
      · rw [e, set_same] at hy
        cases hy
        obtain ⟨_, h2⟩ := accept_some (e ▸ hx) ha
        right
        rw [h2]
        exact Nat.lt_succ_self _
      · rw [set_other _ _ e, hx] at hy
        cases hy
        exact .inl rfl
  | del j next =>
    unfold Prog.step at hy
    dsimp only at hy
    by_cases e : k = j
    · rw [e, set_same] at hy; cases hy
    · rw [set_other _ _ e, hx] at hy; cases hy; exact .inl rfl

/-- The object `k` is there at the beginning, at the end, and at all times in between. -/
def Stays (s : Sys K Sp St) (k : K) (sched : List Nat) : Prop :=
  ∀ n, ((s.run (sched.take n)).data k).isSome = true

theorem run_append (s : Sys K Sp St) (a b : List Nat) : s.run (a ++ b) = (s.run a).run b :=
  List.foldl_append

theorem Stays.left {s : Sys K Sp St} {k : K} {a b : List Nat} (h : Stays s k (a ++ b)) : Stays s k a := by
  intro n
  have := h (min n a.length)
  rw [List.take_append_of_le_length (by omega)] at this
  by_cases hn : n ≤ a.length
  · rwa [Nat.min_eq_left hn] at this
  · rw [Nat.min_eq_right (by omega), List.take_length] at this
    rw [List.take_of_length_le (by omega)]
    exact this

theorem Stays.right {s : Sys K Sp St} {k : K} {a b : List Nat} (h : Stays s k (a ++ b)) :
    Stays (s.run a) k b := by
  intro n
  have := h (a.length + n)
  rw [List.take_length_add_append, run_append] at this
  exact this

theorem Stays.last {s : Sys K Sp St} {k : K} {a : List Nat} (h : Stays s k a) :
    ∃ y, (s.run a).data k = some y := by
  have := h a.length
  rw [List.take_length] at this
  exact Option.isSome_iff_exists.1 this

theorem run_rev {k : K} (sched : List Nat) : ∀ {s : Sys K Sp St} {x y : LObj K Sp St},
    s.data k = some x → Stays s k sched → (s.run sched).data k = some y →
    y = x ∨ x.item.rev < y.item.rev := by
  induction sched with
  | nil =>
    intro s x y hx _ hy
    rw [show (s.run []).data = s.data from rfl, hx] at hy
    cases hy
    exact .inl rfl
  | cons i l ih =>
    intro s x y hx hs hy
    have h1 : Stays (s.run [i]) k l := Stays.right (a := [i]) hs
    obtain ⟨z, hz⟩ := Stays.last (Stays.left (a := [i]) hs)
    have hz' : ((s.tasks i).step s.data).1 k = some z := hz
    have h2 := ih hz h1 hy
    rcases step_rev _ hx hz' with rfl | hlt
    · exact h2
    · rcases h2 with rfl | h2
      · exact .inr hlt
      · exact .inr (by omega)

/-- A task that is not scheduled stays where it is. -/
theorem run_idle {i : Nat} (sched : List Nat) : ∀ {s : Sys K Sp St}, i ∉ sched →
    (s.run sched).tasks i = s.tasks i := by
  induction sched with
  | nil => intro s _; rfl
  | cons j l ih =>
    intro s h
    rw [List.mem_cons, not_or] at h
    show ((s.step j).run l).tasks i = _
    rw [ih h.2]
    show (if i = j then _ else s.tasks i) = _
    rw [if_neg h.1]

theorem step_task (s : Sys K Sp St) (i : Nat) : (s.step i).tasks i = ((s.tasks i).step s.data).2 := by
  show (if i = i then _ else _) = _
  rw [if_pos rfl]

theorem step_data (s : Sys K Sp St) (i : Nat) : (s.step i).data = ((s.tasks i).step s.data).1 := rfl

/-- A finished task stays finished. -/
theorem run_done {i : Nat} {ok : Bool} (sched : List Nat) : ∀ {s : Sys K Sp St},
    s.tasks i = .done ok → (s.run sched).tasks i = .done ok := by
  induction sched with
  | nil => intro s h; exact h
  | cons j l ih =>
    intro s h
    refine ih (s := s.step j) ?_
    by_cases e : i = j
    · subst e
      rw [step_task, h]; rfl
    · show (if i = j then _ else s.tasks i) = _
      rw [if_neg e]; exact h

/-- The new version of an object. -/
def bump (o : LObj K Sp St) (r : Nat) : LObj K Sp St := { o with item := { o.item with rev := r + 1 } }

/-- A task about to write: the write is refused, or the object is still the one that was read. -/
theorem put_current {s : Sys K Sp St} {k : K} {x o : LObj K Sp St} {next : Bool → Prog K Sp St}
    (hx : s.data k = some x) {sched : List Nat} (hs : Stays s k sched) {i : Nat}
    (ht : (s.run sched).tasks i = .put o next) (ho : o.key = k) (hr : o.item.rev ≤ x.item.rev) :
    ((s.run sched).data k = some x ∧ o.item.rev = x.item.rev ∧
      ((s.run sched).step i).data = (s.run sched).data.set k (some (bump o x.item.rev)) ∧
      ((s.run sched).step i).tasks i = next true) ∨
    (((s.run sched).step i).data = (s.run sched).data ∧ ((s.run sched).step i).tasks i = next false) := by
  rw [step_data, step_task, ht]
  unfold Prog.step
  dsimp only
  cases ha : accept (s.run sched).data o with
  | none => exact .inr ⟨rfl, rfl⟩
  | some o' =>
    left
    obtain ⟨y, hy⟩ := hs.last
    obtain ⟨h1, h2⟩ := accept_some (x := y) (by rw [ho]; exact hy) ha
    rcases run_rev sched hx hs hy with rfl | hlt
    · refine ⟨hy, by omega, ?_, rfl⟩
      subst ho; rw [h2]; rfl
    · omega

/-- Operations that read an object and write it back changed. -/
theorem modify_ok {s : Sys K Sp St} {k : K} {i : Nat} {f : LObj K Sp St → LObj K Sp St}
    {g : Bool → Prog K Sp St} {next : Option (LObj K Sp St) → Prog K Sp St}
    (hk : Keyed s.data)
    (ht : s.tasks i = .get k next) (hn : ∀ o, next (some o) = .put (f o) g) (hg : g false = .done false)
    {sched : List Nat} (hs : Stays s k sched)
    (hf : ∀ n o, (s.run (sched.take n)).data k = some o → (f o).key = o.key ∧ (f o).item.rev ≤ o.item.rev)
    (hd : (s.run sched).tasks i = .done true) :
    ∃ a b z, sched = a ++ i :: b ∧ (s.run a).data k = some z ∧ (f z).item.rev = z.item.rev ∧
      (s.run (a ++ [i])).data = (s.run a).data.set k (some (bump (f z) z.item.rev)) ∧
      (s.run (a ++ [i])).tasks i = g true := by
  have hi : i ∈ sched := by
    apply Classical.byContradiction
    intro h
    rw [run_idle _ h, ht] at hd
    cases hd
  obtain ⟨a1, b1, rfl, hna⟩ := List.eq_append_cons_of_mem hi
  have hsa : Stays s k (a1 ++ [i]) := Stays.left (b := b1) (by rw [List.append_assoc]; exact hs)
  obtain ⟨z, hz⟩ := (Stays.left hsa).last
  have hb : b1 = b1 := rfl
  have ht1 : (s.run a1).tasks i = .get k next := by rw [run_idle _ hna, ht]
  have ht2 : (s.run (a1 ++ [i])).tasks i = .put (f z) g := by
    rw [run_append]
    show ((s.run a1).step i).tasks i = _
    rw [step_task, ht1]
    show next ((s.run a1).data k) = _
    rw [hz, hn]
  have hz2 : (s.run (a1 ++ [i])).data k = some z := by
    rw [run_append]
    show ((s.run a1).step i).data k = _
    rw [step_data, ht1]
    exact hz
  have hfz := hf a1.length z (by rw [List.take_left]; exact hz)
  have hd2 : ((s.run (a1 ++ [i])).run b1).tasks i = .done true := by
    rw [← run_append, List.append_assoc]; exact hd
  have hs2 : Stays (s.run (a1 ++ [i])) k b1 := Stays.right (by rw [List.append_assoc]; exact hs)
  have hi2 : i ∈ b1 := by
    apply Classical.byContradiction
    intro h
    rw [run_idle _ h, ht2] at hd2
    cases hd2
  obtain ⟨a2, b2, rfl, hna2⟩ := List.eq_append_cons_of_mem hi2
  have hzk : (f z).key = k := by rw [hfz.1]; exact (Keyed.run _ hk) k z hz
  have := put_current (next := g) hz2 hs2.left (i := i) (o := f z)
    (by rw [run_idle _ hna2, ht2]) hzk hfz.2
  rcases this with ⟨h1, h2, h3, h4⟩ | ⟨h3, h4⟩
  · refine ⟨a1 ++ [i] ++ a2, b2, z, by simp, ?_, h2, ?_, ?_⟩
    · rw [run_append]; exact h1
    · rw [run_append, run_append s (a1 ++ [i]) a2]; exact h3
    · rw [run_append, run_append s (a1 ++ [i]) a2]; exact h4
  · exfalso
    have e : (s.run (a1 ++ [i])).run (a2 ++ i :: b2) =
        (((s.run (a1 ++ [i])).run a2).step i).run b2 := by rw [run_append]; rfl
    rw [e] at hd2
    rw [run_done b2 (h4.trans hg)] at hd2
    cases hd2

/-! ### One operation at a time -/

theorem exec_removeAll (d : Data K Sp St) (k : K) (l : List (K × Nat)) :
    ((removeAll k l : Prog K Sp St).exec d).2 = true ∧
    ∀ j, ((removeAll k l : Prog K Sp St).exec d).1 j =
      if j = k ∨ j ∈ l.map Prod.fst then none else d j := by
  induction l generalizing d with
  | nil =>
    refine ⟨rfl, fun j => ?_⟩
    show d.set k none j = _
    unfold Data.set
    by_cases h : j = k <;> simp [h]
  | cons c l ih =>
    have h := ih (d.set c.1 none)
    refine ⟨h.1, fun j => ?_⟩
    show ((removeAll k l : Prog K Sp St).exec (d.set c.1 none)).1 j = _
    rw [h.2 j]
    by_cases h1 : j = k
    · simp [h1]
    · by_cases h2 : j ∈ l.map Prod.fst
      · rw [if_pos (.inr h2), if_pos (.inr (by simp only [List.map_cons, List.mem_cons]; exact .inr h2))]
      · rw [if_neg (by simp only [h1, h2, or_self, not_false_eq_true])]
        unfold Data.set
        by_cases h3 : j = c.1
        · rw [if_pos h3, if_pos (.inr (by simp [h3]))]
        · rw [if_neg h3, if_neg]
          simp only [List.map_cons, List.mem_cons, h1, h2, h3, or_self, not_false_eq_true]

end Verif.Meta.Local
