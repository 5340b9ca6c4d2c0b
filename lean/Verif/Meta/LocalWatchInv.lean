import Verif.Meta.LocalWatch

/-!
# The dispatcher's cache and the changes still to come

With changes sent in the order in which they were written, applying all of them to the cache gives the
storage.
-/

namespace Verif.Meta.Local

set_option linter.unusedSectionVars false

variable {K Sp St : Type} [DecidableEq K] [DecidableEq Sp] [DecidableEq St]

/-- The values that changes give to a key. -/
def only (k : K) (l : List (LChg K Sp St)) : List (Option (LObj K Sp St)) :=
  l.filterMap fun
    | .mod o => if o.key = k then some (some o) else none
    | .del j => if j = k then some none else none

theorem only_append (k : K) (a b : List (LChg K Sp St)) : only k (a ++ b) = only k a ++ only k b :=
  List.filterMap_append

/-- The changes still to come that are numbered from `v` on or not numbered yet. -/
def Watch.coming (w : Watch K Sp St) (v : Nat) : List (LChg K Sp St) :=
  ((w.queue ++ w.sending.map fun p => (p.1, p.2.2)).filter fun p => decide (v ≤ p.1)).map (·.2) ++
    w.written.map (·.2)

/-- The numbers of the changes in the queue and on the way to it. -/
def Watch.numbers (w : Watch K Sp St) : List Nat := w.queue.map (·.1) ++ w.sending.map (·.1)

/-- Applying `l` to the values `c` gives the storage. -/
def Leads (d : Data K Sp St) (c : K → Option (LObj K Sp St)) (l : List (LChg K Sp St)) : Prop :=
  ∀ k, fold1 (c k) (only k l) = d k

def Watch.PhaseOk (w : Watch K Sp St) : Prop :=
  match w.phase with
  | .idle | .busy => w.since ≤ w.version ∧ Leads w.data w.cache.content (w.coming w.since)
  | .holding o => w.since ≤ w.version ∧ Leads w.data w.cache.content (w.coming w.since) ∧
      ∃ y a b, only o.key (w.coming w.since) = a ++ b ∧ Chain y (a ++ b) ∧ final y a = some o ∧
        final y (a ++ b) = w.data o.key
  | .listing => True
  | .stamped v => v ≤ w.version
  | .listed v l => v ≤ w.version ∧ ∃ d, Lists l d ∧ Leads w.data d (w.coming v)

structure Watch.Inv (w : Watch K Sp St) : Prop where
  keyed : Keyed w.data
  sorted : w.numbers.Pairwise (· < ·)
  below : ∀ n ∈ w.numbers, n < w.version
  hist : ∀ k, ∃ y, Chain y (only k (w.coming 0)) ∧ final y (only k (w.coming 0)) = w.data k
  phase : w.PhaseOk

theorem merge1_none (c : Option (LObj K Sp St)) : merge1 c none = none := by cases c <;> rfl

theorem final_append (y : Option (LObj K Sp St)) : ∀ a b : List (Option (LObj K Sp St)),
    final y (a ++ b) = final (final y a) b := by
  intro a b
  induction a generalizing y with
  | nil => rfl
  | cons u a ih => rw [List.cons_append, final_cons, final_cons, ih]

theorem Chain.append : ∀ {a b : List (Option (LObj K Sp St))} {y : Option (LObj K Sp St)},
    Chain y a → Chain (final y a) b → Chain y (a ++ b) := by
  intro a
  induction a with
  | nil => intro b y _ h; exact h
  | cons u a ih =>
    intro b y h hb
    rw [final_cons] at hb
    exact ⟨h.1, ih h.2 hb⟩

theorem fold1_append (c : Option (LObj K Sp St)) (a b : List (Option (LObj K Sp St))) :
    fold1 c (a ++ b) = fold1 (fold1 c a) b := List.foldl_append

theorem filter_suffix {β : Type} (f : β → Nat) (v : Nat) : ∀ {l : List β}, (l.map f).Pairwise (· < ·) →
    ∃ a, l = a ++ l.filter fun p => decide (v ≤ f p) := by
  intro l
  induction l with
  | nil => intro _; exact ⟨[], rfl⟩
  | cons p l ih =>
    intro h
    rw [List.map_cons, List.pairwise_cons] at h
    by_cases hp : v ≤ f p
    · refine ⟨[], ?_⟩
      rw [List.nil_append, List.filter_eq_self.2]
      intro x hx
      rcases List.mem_cons.1 hx with e | e
      · subst e; simpa using hp
      · have := h.1 (f x) (List.mem_map.2 ⟨x, e, rfl⟩)
        simp only [decide_eq_true_eq]
        omega
    · obtain ⟨a, ha⟩ := ih h.2
      refine ⟨p :: a, ?_⟩
      rw [List.filter_cons_of_neg (by simpa using hp), List.cons_append, ← ha]

theorem Watch.coming_suffix {w : Watch K Sp St} (h : w.numbers.Pairwise (· < ·)) (v : Nat) :
    ∃ a, w.coming 0 = a ++ w.coming v := by
  have hs : ((w.queue ++ w.sending.map fun p => (p.1, p.2.2)).map (·.1)).Pairwise (· < ·) := by
    rw [List.map_append, List.map_map]
    exact h
  obtain ⟨a, ha⟩ := filter_suffix (fun p : Nat × LChg K Sp St => p.1) v hs
  refine ⟨a.map (·.2), ?_⟩
  unfold Watch.coming
  have h0 : ((w.queue ++ w.sending.map fun p => (p.1, p.2.2)).filter fun p => decide (0 ≤ p.1)) =
      w.queue ++ w.sending.map fun p => (p.1, p.2.2) := by
    rw [List.filter_eq_self]
    intro x _
    simp
  rw [h0, ← List.append_assoc, ← List.map_append]
  exact congrArg (fun l => l.map (·.2) ++ w.written.map (·.2)) ha

theorem Watch.Inv.chain {w : Watch K Sp St} (h : w.Inv) (v : Nat) (k : K) :
    ∃ y, Chain y (only k (w.coming v)) ∧ final y (only k (w.coming v)) = w.data k := by
  obtain ⟨y, h1, h2⟩ := h.hist k
  obtain ⟨a, ha⟩ := coming_suffix h.sorted v
  rw [ha, only_append] at h1 h2
  obtain ⟨h3, h4⟩ := h1.drop
  exact ⟨_, h3, h4.trans h2⟩

theorem Watch.Inv.replay {w : Watch K Sp St} (h : w.Inv) (v : Nat) : Leads w.data w.data (w.coming v) := by
  intro k
  obtain ⟨y, h1, h2⟩ := h.chain v k
  rw [← h2]
  exact fold_final h1

/-! ### Writes -/

/-- The change `c` makes `d'` of `d`. -/
def Makes (d d' : Data K Sp St) (c : LChg K Sp St) : Prop :=
  ∀ k, Chain (d k) (only k [c]) ∧ final (d k) (only k [c]) = d' k

theorem Leads.snoc {d d' : Data K Sp St} {f : K → Option (LObj K Sp St)} {l : List (LChg K Sp St)}
    {c : LChg K Sp St} (h : Leads d f l) (hm : Makes d d' c) : Leads d' f (l ++ [c]) := by
  intro k
  rw [only_append, fold1_append, h k, fold_chain (hm k).1]
  exact (hm k).2

theorem coming_write (w : Watch K Sp St) (d' : Data K Sp St) (own : Bool) (c : LChg K Sp St) (v : Nat) :
    ({ w with data := d', written := w.written ++ [(own, c)] } : Watch K Sp St).coming v =
      w.coming v ++ [c] := by
  unfold Watch.coming
  simp

theorem Watch.Inv.grown {w u : Watch K Sp St} (h : w.Inv) (hk : Keyed u.data) {c : LChg K Sp St}
    (hm : Makes w.data u.data c) (hc : u.cache = w.cache) (hs : u.since = w.since) (hp : u.phase = w.phase)
    (hv : u.version = w.version) (hn : u.numbers = w.numbers) (he : ∀ v, u.coming v = w.coming v ++ [c]) :
    u.Inv := by
  refine ⟨hk, by rw [hn]; exact h.sorted, by rw [hn, hv]; exact h.below, fun k => ?_, ?_⟩
  · obtain ⟨y, h1, h2⟩ := h.hist k
    rw [he, only_append]
    refine ⟨y, h1.append (by rw [h2]; exact (hm k).1), ?_⟩
    rw [final_append, h2]
    exact (hm k).2
  · have hw := h.phase
    unfold PhaseOk at hw ⊢
    rw [hp, hc, hs, hv]
    cases e : w.phase with
    | idle =>
      rw [e] at hw
      exact ⟨hw.1, by rw [he]; exact hw.2.snoc hm⟩
    | busy =>
      rw [e] at hw
      exact ⟨hw.1, by rw [he]; exact hw.2.snoc hm⟩
    | holding o =>
      rw [e] at hw
      obtain ⟨h1, h2, y, a, b, h3, h4, h5, h6⟩ := hw
      refine ⟨h1, by rw [he]; exact h2.snoc hm, y, a, b ++ only o.key [c], ?_, ?_, h5, ?_⟩
      · rw [he, only_append, h3, List.append_assoc]
      · rw [← List.append_assoc]
        exact h4.append (by rw [h6]; exact (hm o.key).1)
      · rw [← List.append_assoc, final_append, h6]
        exact (hm o.key).2
    | listing => trivial
    | stamped v =>
      rw [e] at hw
      exact hw
    | listed v l =>
      rw [e] at hw
      obtain ⟨h1, d, h2, h3⟩ := hw
      exact ⟨h1, d, h2, by rw [he]; exact h3.snoc hm⟩

theorem Watch.Inv.write {w : Watch K Sp St} (h : w.Inv) {d' : Data K Sp St} (hk : Keyed d') (own : Bool)
    {c : LChg K Sp St} (hm : Makes w.data d' c) :
    ({ w with data := d', written := w.written ++ [(own, c)] } : Watch K Sp St).Inv :=
  h.grown hk hm rfl rfl rfl rfl rfl (coming_write w d' own c)

theorem makes_mod {d : Data K Sp St} {o o' : LObj K Sp St} (h : accept d o = some o') :
    Makes d (d.set o.key (some o')) (.mod o') := by
  have hk := accept_key h
  intro k
  unfold only
  by_cases e : o'.key = k
  · subst e
    have : (List.filterMap (fun (x : LChg K Sp St) => match x with
        | .mod o => if o.key = o'.key then some (some o) else none
        | .del j => if j = o'.key then some none else none) [.mod o']) = [some o'] := by simp
    rw [this, hk, set_same]
    refine ⟨⟨?_, trivial⟩, rfl⟩
    cases hd : d o.key with
    | none => trivial
    | some x =>
      have := (accept_some hd h).2
      subst this
      exact Nat.le_succ _
  · have : (List.filterMap (fun (x : LChg K Sp St) => match x with
        | .mod o => if o.key = k then some (some o) else none
        | .del j => if j = k then some none else none) [.mod o']) = [] := by simp [e]
    rw [this, set_other _ _ (by rw [← hk]; exact Ne.symm e)]
    exact ⟨trivial, rfl⟩

theorem makes_del {d : Data K Sp St} {j : K} (h : (d j).isSome = true) :
    Makes d (d.set j none) (.del j) := by
  intro k
  unfold only
  by_cases e : j = k
  · subst e
    have : (List.filterMap (fun (x : LChg K Sp St) => match x with
        | .mod o => if o.key = j then some (some o) else none
        | .del i => if i = j then some none else none) [.del j]) = [none] := by simp
    rw [this, set_same]
    refine ⟨⟨?_, trivial⟩, rfl⟩
    cases hd : d j with
    | none => rw [hd] at h; cases h
    | some x => trivial
  · have : (List.filterMap (fun (x : LChg K Sp St) => match x with
        | .mod o => if o.key = k then some (some o) else none
        | .del i => if i = k then some none else none) [.del j]) = [] := by simp [e]
    rw [this, set_other _ _ (Ne.symm e)]
    exact ⟨trivial, rfl⟩

/-! ### Sending -/

/-- The same changes to come, from every number that matters. -/
theorem Watch.Inv.moved {w u : Watch K Sp St} (h : w.Inv) (hd : u.data = w.data) (hc : u.cache = w.cache)
    (hs : u.since = w.since) (hp : u.phase = w.phase) (hv : w.version ≤ u.version)
    (h1 : u.numbers.Pairwise (· < ·)) (h2 : ∀ n ∈ u.numbers, n < u.version)
    (he : ∀ v, v ≤ w.version → u.coming v = w.coming v) : u.Inv := by
  refine ⟨by rw [hd]; exact h.keyed, h1, h2, fun k => ?_, ?_⟩
  · rw [he 0 (Nat.zero_le _), hd]
    exact h.hist k
  · have hw := h.phase
    unfold PhaseOk at hw ⊢
    rw [hp, hd, hc, hs]
    cases e : w.phase with
    | idle =>
      rw [e] at hw
      exact ⟨Nat.le_trans hw.1 hv, by rw [he _ hw.1]; exact hw.2⟩
    | busy =>
      rw [e] at hw
      exact ⟨Nat.le_trans hw.1 hv, by rw [he _ hw.1]; exact hw.2⟩
    | holding o =>
      rw [e] at hw
      exact ⟨Nat.le_trans hw.1 hv, by rw [he _ hw.1]; exact hw.2⟩
    | listing => trivial
    | stamped v =>
      rw [e] at hw
      exact Nat.le_trans hw hv
    | listed v l =>
      rw [e] at hw
      exact ⟨Nat.le_trans hw.1 hv, by rw [he _ hw.1]; exact hw.2⟩

theorem Watch.Inv.step {clean : Prop} (hcl : clean) {w u : Watch K Sp St} (h : w.Inv)
    (hs : Watch.Step True clean w u) : u.Inv := by
  cases hs with
  | write own o o' hp ha =>
    exact h.write (h.keyed.set fun x hx => by cases hx; exact accept_key ha) own (makes_mod ha)
  | remove own k hp hk => exact h.write (h.keyed.set fun x hx => by cases hx) own (makes_del hk)
  | stamp i p hi ho =>
    cases ho trivial
    cases hw : w.written with
    | nil => rw [hw] at hi; cases hi
    | cons p' rest =>
      rw [hw] at hi
      cases hi
      have hn : ∀ s, ({ w with version := w.version + 1, written := rest, sending := s } :
          Watch K Sp St).numbers = w.queue.map (·.1) ++ s.map (·.1) := fun _ => rfl
      refine h.moved rfl rfl rfl rfl (Nat.le_succ _) ?_ ?_ fun v hv => ?_
      · show (w.queue.map (·.1) ++ (w.sending ++ [(w.version, p)]).map (·.1)).Pairwise (· < ·)
        rw [List.map_append, ← List.append_assoc, List.pairwise_append]
        refine ⟨h.sorted, by simp, fun a ha b hb => ?_⟩
        simp only [List.map_cons, List.map_nil, List.mem_singleton] at hb
        subst hb
        exact h.below a ha
      · intro n hn
        change n ∈ w.queue.map (·.1) ++ (w.sending ++ [(w.version, p)]).map (·.1) at hn
        show n < w.version + 1
        rw [List.map_append, ← List.append_assoc] at hn
        rcases List.mem_append.1 hn with e | e
        · have := h.below n e
          omega
        · simp only [List.map_cons, List.map_nil, List.mem_singleton] at e
          omega
      · unfold coming
        dsimp only
        rw [hw, List.map_append, ← List.append_assoc, List.filter_append, List.map_append]
        simp [hv]
  | send i p hi ho hc =>
    cases ho trivial
    cases hw : w.sending with
    | nil => rw [hw] at hi; cases hi
    | cons p' rest =>
      rw [hw] at hi
      cases hi
      have hnum : ({ w with sending := rest, queue := w.queue ++ [(p.1, p.2.2)] } : Watch K Sp St).numbers =
          w.numbers := by
        unfold numbers
        dsimp only
        rw [hw]
        simp
      refine h.moved rfl rfl rfl rfl (Nat.le_refl _) ?_ ?_ fun v hv => ?_
      · exact hnum ▸ h.sorted
      · exact hnum ▸ h.below
      · unfold coming
        dsimp only
        rw [hw]
        simp
  | recv p q hp hq =>
    have hsort := h.sorted
    have hbel := h.below
    unfold numbers at hsort hbel
    rw [hq, List.map_cons, List.cons_append, List.pairwise_cons] at hsort
    have hcom : ∀ v, w.coming v =
        (if v ≤ p.1 then [p.2] else []) ++ ({ w with queue := q } : Watch K Sp St).coming v := by
      intro v
      unfold coming
      rw [hq]
      by_cases e : v ≤ p.1
      · rw [if_pos e, List.cons_append, List.filter_cons_of_pos (by simpa using e)]
        rfl
      · rw [if_neg e, List.cons_append, List.filter_cons_of_neg (by simpa using e)]
        rfl
    have hph := h.phase
    unfold PhaseOk at hph
    rw [hp] at hph
    refine ⟨h.keyed, hsort.2, fun n hn => hbel n (by rw [hq]; exact List.mem_cons_of_mem _ hn),
      fun k => ?_, ?_⟩
    · obtain ⟨y, h1, h2⟩ := h.hist k
      rw [hcom 0, only_append] at h1 h2
      obtain ⟨h3, h4⟩ := h1.drop
      exact ⟨_, h3, h4.trans h2⟩
    · unfold PhaseOk
      dsimp only
      rw [hp]
      refine ⟨hph.1, fun k => ?_⟩
      have hl := hph.2 k
      rw [hcom w.since, only_append, fold1_append] at hl
      rw [← hl]
      show fold1 _ (only k (({ w with queue := q } : Watch K Sp St).coming w.since)) = _
      congr 1
      by_cases e : w.since ≤ p.1
      · rw [if_pos e, if_pos e, content_applyChanges_one]
        cases hc : p.2 with
        | mod o =>
          dsimp only
          by_cases ek : o.key = k
          · rw [if_pos ek.symm]
            have : only k [(.mod o : LChg K Sp St)] = [some o] := by simp [only, ek]
            rw [this]
            rfl
          · rw [if_neg (Ne.symm ek)]
            have : only k [(.mod o : LChg K Sp St)] = [] := by simp [only, ek]
            rw [this]
            rfl
        | del j =>
          dsimp only
          by_cases ek : j = k
          · rw [if_pos ek.symm]
            have : only k [(.del j : LChg K Sp St)] = [none] := by simp [only, ek]
            rw [this]
            exact (merge1_none (w.cache.content k)).symm
          · rw [if_neg (Ne.symm ek)]
            have : only k [(.del j : LChg K Sp St)] = [] := by simp [only, ek]
            rw [this]
            rfl
      · rw [if_neg e, if_neg e]
        rfl
  | act hp =>
    refine ⟨h.keyed, h.sorted, h.below, h.hist, ?_⟩
    have hph := h.phase
    unfold PhaseOk at hph
    rw [hp] at hph
    exact hph
  | finish hp hsent =>
    refine ⟨h.keyed, h.sorted, h.below, h.hist, ?_⟩
    have hph := h.phase
    unfold PhaseOk at hph
    rw [hp] at hph
    exact hph
  | retrieve k o hp hsent hd =>
    refine ⟨h.keyed, h.sorted, h.below, h.hist, ?_⟩
    have hph := h.phase
    unfold PhaseOk at hph
    rw [hp] at hph
    have hk := h.keyed k o hd
    subst hk
    obtain ⟨y, h1, h2⟩ := h.chain w.since o.key
    refine ⟨hph.1, hph.2, y, only o.key (w.coming w.since), [], ?_, ?_, ?_, ?_⟩
    · rw [List.append_nil]; rfl
    · rw [List.append_nil]; exact h1
    · rw [h2]; exact hd
    · rw [List.append_nil]; exact h2
  | keep o hp =>
    refine ⟨h.keyed, h.sorted, h.below, h.hist, ?_⟩
    have hph := h.phase
    unfold PhaseOk at hph
    rw [hp] at hph
    obtain ⟨h1, h2, y, a, b, h3, h4, h5, h6⟩ := hph
    refine ⟨h1, fun k => ?_⟩
    show fold1 ((w.cache.applyChanges newer [.mod o]).content k) (only k (w.coming w.since)) = w.data k
    rw [content_applyChanges_one]
    dsimp only
    by_cases ek : k = o.key
    · subst ek
      rw [if_pos rfl]
      have hm : merge1 (w.cache.content o.key) (some o) = w.cache.content o.key ∨
          merge1 (w.cache.content o.key) (some o) = some o := by
        cases hc : w.cache.content o.key with
        | none => exact .inr rfl
        | some c =>
          unfold merge1
          dsimp only
          split
          · exact .inl rfl
          · exact .inr rfl
      rcases hm with e | e
      · rw [e]; exact h2 o.key
      · rw [e, h3, ← h5, fold_middle h4 h4.take, h6]
    · rw [if_neg ek]
      exact h2 k
  | timer hp => exact ⟨h.keyed, h.sorted, h.below, h.hist, trivial⟩
  | version hp => exact ⟨h.keyed, h.sorted, h.below, h.hist, Nat.le_refl _⟩
  | list v l hp hl =>
    refine ⟨h.keyed, h.sorted, h.below, h.hist, ?_⟩
    have hph := h.phase
    unfold PhaseOk at hph
    rw [hp] at hph
    exact ⟨hph, w.data, hl, h.replay v⟩
  | sync v l hp hc =>
    refine ⟨h.keyed, h.sorted, h.below, h.hist, ?_⟩
    have hph := h.phase
    unfold PhaseOk at hph
    rw [hp] at hph
    obtain ⟨h1, d, h2, h3⟩ := hph
    refine ⟨h1, fun k => ?_⟩
    show fold1 ((w.cache.syncAll newer l).content k) (only k (w.coming v)) = w.data k
    rw [content_sync w.cache h2 (hc hcl) k]
    exact h3 k

theorem Watch.Inv.steps {clean : Prop} (hcl : clean) {w u : Watch K Sp St} (h : w.Inv)
    (hs : Watch.Steps True clean w u) : u.Inv := by
  induction hs with
  | refl => exact h
  | tail _ b ih => exact ih.step hcl b

theorem Watch.Inv.init {d : Data K Sp St} (hd : Keyed d) : (Watch.init d).Inv :=
  ⟨hd, List.Pairwise.nil, (fun n hn => by cases hn), fun k => ⟨d k, trivial, rfl⟩, trivial⟩

end Verif.Meta.Local
