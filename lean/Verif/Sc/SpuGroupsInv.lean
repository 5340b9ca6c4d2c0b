import Verif.Sc.SpuGroups

/-! Lemmas about the groups of brokers. -/

namespace Verif.Sc.Groups

open Verif.Misc

theorem mem_del {V : Type} {l : List (Name × V)} {n : Name} {e : Name × V} :
    e ∈ del l n ↔ e ∈ l ∧ e.1 ≠ n := by
  simp [del, List.mem_filter]

theorem mem_put {V : Type} {l : List (Name × V)} {n : Name} {v : V} {e : Name × V} :
    e ∈ put l n v ↔ e = (n, v) ∨ (e ∈ l ∧ e.1 ≠ n) := by
  simp [put, mem_del]

theorem get_mem {V : Type} {l : List (Name × V)} {n : Name} {v : V} (h : get l n = some v) : (n, v) ∈ l := by
  unfold get at h
  cases hf : l.find? (·.1 = n) with
  | none => rw [hf] at h; simp at h
  | some x =>
    rw [hf] at h
    have hm := List.mem_of_find?_eq_some hf
    have hp := List.find?_some hf
    simp only [decide_eq_true_eq] at hp
    simp only [Option.map_some, Option.some.injEq] at h
    rw [← hp, ← h]; exact hm

theorem get_put_self {V : Type} (l : List (Name × V)) (n : Name) (v : V) : get (put l n v) n = some v := by
  simp [get, put]

theorem get_none {V : Type} {l : List (Name × V)} {n : Name} (h : get l n = none) : ∀ e ∈ l, e.1 ≠ n := by
  intro e he hn
  unfold get at h
  have := List.find?_eq_none.mp (Option.map_eq_none_iff.mp h) e he
  simp [hn] at this

theorem nodup_del {V : Type} (l : List (Name × V)) (n : Name) (h : (l.map (·.1)).Nodup) :
    ((del l n).map (·.1)).Nodup := List.Sublist.nodup (List.Sublist.map _ List.filter_sublist) h

theorem nodup_put {V : Type} (l : List (Name × V)) (n : Name) (v : V) (h : (l.map (·.1)).Nodup) :
    ((put l n v).map (·.1)).Nodup := by
  simp only [put, List.map_cons, List.nodup_cons, List.mem_map, not_exists, not_and]
  exact ⟨fun e he => (mem_del.mp he).2, nodup_del l n h⟩

theorem nodup_eq {V : Type} : ∀ (l : List (Name × V)) (_ : (l.map (·.1)).Nodup) (e f : Name × V),
    e ∈ l → f ∈ l → e.1 = f.1 → e = f
  | [], _, _, _, h, _, _ => nomatch h
  | x :: l, hn, e, f, he, hf, hk => by
    simp only [List.map_cons, List.nodup_cons, List.mem_map, not_exists, not_and] at hn
    rcases List.mem_cons.mp he with rfl | he'
    · rcases List.mem_cons.mp hf with rfl | hf'
      · rfl
      · exact absurd hk.symm (hn.1 f hf')
    · rcases List.mem_cons.mp hf with rfl | hf'
      · exact absurd hk (hn.1 e he')
      · exact nodup_eq l hn.2 e f he' hf' hk

theorem wrap32_id {x : Int} (h : IsI32 x) : wrap32 x = x := by
  unfold IsI32 at h
  unfold wrap32
  rw [Int.bmod_def]
  split <;> omega

theorem isConflict_none {spus : List (Name × Broker)} {uid : Nat} {a b : Int} (h : isConflict spus uid a b = none) :
    ∀ e ∈ spus, e.2.owner ≠ some uid → ¬ (a ≤ e.2.id ∧ e.2.id < b) := by
  intro e he ho hr
  have := List.find?_eq_none.mp (Option.map_eq_none_iff.mp h) e he
  have ho' : e.2.isOwned uid = false := by simpa [Broker.isOwned] using ho
  simp [ho', hr.1, hr.2] at this

theorem isConflict_some {spus : List (Name × Broker)} {uid : Nat} {a b i : Int} (h : isConflict spus uid a b = some i) :
    ∃ e ∈ spus, e.2.owner ≠ some uid ∧ e.2.id = i ∧ a ≤ i ∧ i < b := by
  unfold isConflict at h
  obtain ⟨e, he, hi⟩ := Option.map_eq_some_iff.mp h
  have hp := List.find?_some he
  simp only [Bool.and_eq_true, Bool.not_eq_true', decide_eq_true_eq] at hp
  refine ⟨e, List.mem_of_find?_eq_some he, ?_, hi, hi ▸ hp.2.1, hi ▸ hp.2.2⟩
  simpa [Broker.isOwned] using hp.1

theorem run_append : ∀ (es fs : List Ev) (s : State), run s (es ++ fs) = run (run s es) fs
  | [], _, _ => rfl
  | e :: es, fs, s => run_append es fs (step s e)

theorem run_snoc (s : State) (pre : List Ev) (e : Ev) : run s (pre ++ [e]) = step (run s pre) e := by
  rw [run_append]; rfl

theorem run_ind {P : List Ev → Prop} (h0 : P []) (hs : ∀ pre e, P pre → P (pre ++ [e])) : ∀ es, P es := by
  intro es
  have : ∀ n, n ≤ es.length → P (es.take n) := by
    intro n
    induction n with
    | zero => intro _; simpa using h0
    | succ n ih =>
      intro hn
      rw [List.take_succ_eq_append_getElem (by omega)]
      exact hs _ _ (ih (by omega))
  simpa using this es.length (Nat.le_refl _)

/-! ## Groups stay what people made them -/

/-- All groups that exist or are under way have property `P`, which does not depend on uid and status. -/
structure AllGroups (P : Name → Int → Nat → Prop) (s : State) : Prop where
  groups : ∀ e ∈ s.groups, P e.1 e.2.minId e.2.replicas
  work : ∀ e ∈ s.work, P e.1 e.2.minId e.2.replicas

theorem allGroups_setStatus {P : Name → Int → Nat → Prop} {s : State} (h : AllGroups P s) (n : Name)
    (r : Resolution) : AllGroups P (handleGroup.setStatus s n r) := by
  unfold handleGroup.setStatus
  split
  · rename_i g hg
    refine ⟨?_, h.work⟩
    intro e he
    rcases mem_put.mp he with rfl | ⟨he, _⟩
    · exact h.groups (n, g) (get_mem hg)
    · exact h.groups e he
  · exact h

theorem allGroups_step {P : Name → Int → Nat → Prop} {s : State} (h : AllGroups P s) (e : Ev)
    (he : ∀ n m r, e = .define n m r → P n m r) : AllGroups P (step s e) := by
  cases e with
  | define n m r =>
    have hP := he n m r rfl
    simp only [step]
    split
    · refine ⟨?_, h.work⟩
      intro e he
      rcases mem_put.mp he with rfl | ⟨he, _⟩
      · exact hP
      · exact h.groups e he
    · refine ⟨?_, h.work⟩
      intro e he
      rcases mem_put.mp he with rfl | ⟨he, _⟩
      · exact hP
      · exact h.groups e he
  | remove n =>
    simp only [step]
    split
    · exact ⟨fun e he => h.groups e (mem_del.mp he).1, h.work⟩
    · exact h
  | read =>
    simp only [step]
    split
    · exact ⟨h.groups, h.groups⟩
    · exact h
  | handle =>
    simp only [step]
    split
    · rename_i n g rest hw
      have h' : AllGroups P { s with work := rest } :=
        ⟨h.groups, fun e he => h.work e (by rw [hw]; exact List.mem_cons_of_mem _ he)⟩
      unfold handleGroup
      split
      · exact allGroups_setStatus h' n _
      · split
        · exact ⟨h'.groups, h'.work⟩
        · exact allGroups_setStatus h' n _
    · exact h
  | list =>
    simp only [step]
    split
    · exact ⟨h.groups, h.work⟩
    · exact h
  | apply =>
    simp only [step]
    split
    · exact ⟨h.groups, h.work⟩
    · exact h
  | register n id host =>
    simp only [step]
    split
    · exact h
    · exact ⟨h.groups, h.work⟩
  | unregister n =>
    simp only [step]
    split
    · split
      · exact ⟨h.groups, h.work⟩
      · exact h
    · exact h

theorem allGroups_run {P : Name → Int → Nat → Prop} : ∀ (es : List Ev) (s : State), AllGroups P s →
    (∀ n m r, .define n m r ∈ es → P n m r) → AllGroups P (run s es)
  | [], _, h, _ => h
  | e :: es, s, h, he => allGroups_run es (step s e)
      (allGroups_step h e (fun n m r hr => he n m r (hr ▸ List.mem_cons_self ..)))
      (fun n m r hr => he n m r (List.mem_cons_of_mem _ hr))

/-! ## Ids do not clash if the groups were laid out without overlap -/

/-- A plan: the ids each group may use. -/
structure Plan where
  base : Name → Int
  size : Name → Nat
  fits : ∀ n i, i < size n → IsI32 (base n + i)
  disjoint : ∀ n m i j, i < size n → j < size m → base n + i = base m + j → n = m

def Plan.Member (p : Plan) (name : Name) (id : Int) : Prop :=
  ∃ n i, i < p.size n ∧ name = spuName n i ∧ id = p.base n + i

def Plan.Outside (p : Plan) (id : Int) : Prop := ∀ n i, i < p.size n → id ≠ p.base n + i

structure Unique (p : Plan) (s : State) : Prop where
  applies : ∀ e ∈ s.applies, p.Member e.1 e.2.id
  spus : ∀ e ∈ s.spus, p.Member e.1 e.2.id ∨ p.Outside e.2.id
  nodup : (s.spus.map (·.1)).Nodup
  unique : ∀ e ∈ s.spus, ∀ f ∈ s.spus, e.2.id = f.2.id → e.1 = f.1

theorem Plan.member_eq (p : Plan) {a b : Name} {i : Int} (ha : p.Member a i) (hb : p.Member b i) : a = b := by
  obtain ⟨n, k, hk, rfl, rfl⟩ := ha
  obtain ⟨m, j, hj, rfl, he⟩ := hb
  have := p.disjoint n m k j hk hj he
  subst this
  have : k = j := by omega
  rw [this]

theorem unique_sub {p : Plan} {s s' : State} (h : Unique p s) (ha : s'.applies = s.applies)
    (hs : s'.spus.Sublist s.spus) : Unique p s' :=
  ⟨fun e he => h.applies e (ha ▸ he), fun e he => h.spus e (hs.subset he),
   List.Sublist.nodup (List.Sublist.map _ hs) h.nodup,
   fun e he f hf => h.unique e (hs.subset he) f (hs.subset hf)⟩

theorem setStatus_rest (s : State) (n : Name) (r : Resolution) :
    (handleGroup.setStatus s n r).applies = s.applies ∧ (handleGroup.setStatus s n r).spus = s.spus ∧
    (handleGroup.setStatus s n r).sets = s.sets ∧ (handleGroup.setStatus s n r).work = s.work := by
  unfold handleGroup.setStatus
  split <;> exact ⟨rfl, rfl, rfl, rfl⟩

theorem handle_rest (s : State) (n : Name) (g : Group) :
    (handleGroup s n g).applies = s.applies ∧ (handleGroup s n g).spus = s.spus ∧
    (handleGroup s n g).work = s.work := by
  unfold handleGroup
  split
  · exact ⟨(setStatus_rest s n _).1, (setStatus_rest s n _).2.1, (setStatus_rest s n _).2.2.2⟩
  · split
    · exact ⟨rfl, rfl, rfl⟩
    · exact ⟨(setStatus_rest s n _).1, (setStatus_rest s n _).2.1, (setStatus_rest s n _).2.2.2⟩

theorem unique_step {p : Plan} {s : State} (h : Unique p s)
    (hg : AllGroups (fun n m r => m = p.base n ∧ r ≤ p.size n) s) (e : Ev)
    (he : ∀ n id host, e = .register n id host → p.Outside id) : Unique p (step s e) := by
  cases e with
  | define n m r =>
    simp only [step]
    split <;> exact unique_sub h rfl (List.Sublist.refl _)
  | remove n =>
    simp only [step]
    split
    · exact unique_sub h rfl List.filter_sublist
    · exact h
  | read =>
    simp only [step]
    split
    · exact unique_sub h rfl (List.Sublist.refl _)
    · exact h
  | handle =>
    simp only [step]
    split
    · rename_i n g rest _
      have := handle_rest { s with work := rest } n g
      exact unique_sub h this.1 (by rw [this.2.1]; exact List.Sublist.refl _)
    · exact h
  | list =>
    simp only [step]
    split
    · refine ⟨?_, h.spus, h.nodup, h.unique⟩
      intro e he
      obtain ⟨x, hx, he⟩ := List.mem_flatMap.mp he
      obtain ⟨i, hi, rfl⟩ := List.mem_map.mp he
      obtain ⟨hm, hr⟩ := hg.groups x hx
      have hi' : i < p.size x.1 := Nat.lt_of_lt_of_le (List.mem_range.mp hi) hr
      refine ⟨x.1, i, hi', rfl, ?_⟩
      show computeSpuId x.2.minId i = _
      unfold computeSpuId
      rw [hm, Int.add_comm]
      exact wrap32_id (p.fits x.1 i hi')
    · exact h
  | apply =>
    simp only [step]
    split
    · rename_i n b rest hA
      have hb := h.applies (n, b) (by rw [hA]; exact List.mem_cons_self ..)
      refine ⟨fun e he => h.applies e (by rw [hA]; exact List.mem_cons_of_mem _ he), ?_, nodup_put _ _ _ h.nodup, ?_⟩
      · intro e he
        rcases mem_put.mp he with rfl | ⟨he, _⟩
        · exact Or.inl hb
        · exact h.spus e he
      · have hnew : ∀ f ∈ s.spus, b.id = f.2.id → n = f.1 := by
          intro f hf hid
          rcases h.spus f hf with hm | ho
          · exact p.member_eq hb (hid ▸ hm)
          · obtain ⟨m, i, hi, _, hbid⟩ := hb
            exact absurd (hid ▸ hbid) (ho m i hi)
        intro e he f hf hid
        rcases mem_put.mp he with rfl | ⟨he, _⟩
        · rcases mem_put.mp hf with rfl | ⟨hf, _⟩
          · rfl
          · exact hnew f hf hid
        · rcases mem_put.mp hf with rfl | ⟨hf, _⟩
          · exact (hnew e he hid.symm).symm
          · exact h.unique e he f hf hid
    · exact h
  | register n id host =>
    have hout := he n id host rfl
    simp only [step]
    split
    · exact h
    · rename_i hno
      simp only [Bool.or_eq_true, not_or, List.any_eq_true, not_exists, not_and, beq_iff_eq] at hno
      refine ⟨h.applies, ?_, nodup_put _ _ _ h.nodup, ?_⟩
      · intro e he
        rcases mem_put.mp he with rfl | ⟨he, _⟩
        · exact Or.inr hout
        · exact h.spus e he
      · intro e he f hf hid
        rcases mem_put.mp he with rfl | ⟨he, _⟩
        · rcases mem_put.mp hf with rfl | ⟨hf, _⟩
          · rfl
          · exact absurd hid.symm (hno.2 f hf)
        · rcases mem_put.mp hf with rfl | ⟨hf, _⟩
          · exact absurd hid (hno.2 e he)
          · exact h.unique e he f hf hid
  | unregister n =>
    simp only [step]
    split
    · split
      · exact unique_sub h rfl List.filter_sublist
      · exact h
    · exact h

theorem unique_run {p : Plan} : ∀ (es : List Ev) (s : State), Unique p s →
    AllGroups (fun n m r => m = p.base n ∧ r ≤ p.size n) s →
    (∀ n m r, .define n m r ∈ es → m = p.base n ∧ r ≤ p.size n) →
    (∀ n id host, .register n id host ∈ es → p.Outside id) → Unique p (run s es)
  | [], _, h, _, _, _ => h
  | e :: es, s, h, hg, hd, hr => unique_run es (step s e)
      (unique_step h hg e (fun n id host he => hr n id host (he ▸ List.mem_cons_self ..)))
      (allGroups_step hg e (fun n m r he => hd n m r (he ▸ List.mem_cons_self ..)))
      (fun n m r h' => hd n m r (List.mem_cons_of_mem _ h'))
      (fun n id host h' => hr n id host (List.mem_cons_of_mem _ h'))

/-! ## Which groups get pods -/

/-- At some `handle` in `es`, group `n` was found free of conflicts, as `g`, with the brokers of that moment. -/
def Checked (es : List Ev) (n : Name) : Prop :=
  ∃ pre post g rest, es = pre ++ .handle :: post ∧ (run init pre).work = (n, g) :: rest ∧ g.status ≠ .reserved ∧
    isConflict (run init pre).spus g.uid g.minId (wrap32 (g.minId + g.replicas)) = none

theorem Checked.mono {es : List Ev} {n : Name} (h : Checked es n) (e : Ev) : Checked (es ++ [e]) n := by
  obtain ⟨pre, post, g, rest, rfl, h⟩ := h
  exact ⟨pre, post ++ [e], g, rest, by simp, h⟩

/-- Groups that are reserved, anywhere, and groups with stateful sets have been checked. -/
structure Hist (es : List Ev) (s : State) : Prop where
  groups : ∀ e ∈ s.groups, e.2.status = .reserved → Checked es e.1
  work : ∀ e ∈ s.work, e.2.status = .reserved → Checked es e.1
  sets : ∀ e ∈ s.sets, Checked es e.1

theorem Hist.mono {es : List Ev} {s : State} (h : Hist es s) (e : Ev) : Hist (es ++ [e]) s :=
  ⟨fun x hx hr => (h.groups x hx hr).mono e, fun x hx hr => (h.work x hx hr).mono e,
   fun x hx => (h.sets x hx).mono e⟩

theorem hist_setStatus {es : List Ev} {s : State} (h : Hist es s) (n : Name) (r : Resolution)
    (hr : r = .reserved → Checked es n) : Hist es (handleGroup.setStatus s n r) := by
  unfold handleGroup.setStatus
  split
  · refine ⟨?_, h.work, h.sets⟩
    intro e he hs
    rcases mem_put.mp he with rfl | ⟨he, _⟩
    · exact hr hs
    · exact h.groups e he hs
  · exact h

theorem hist (es : List Ev) : Hist es (run init es) := by
  induction es using run_ind with
  | h0 => refine ⟨?_, ?_, ?_⟩ <;> intros <;> simp_all [run, init]
  | hs pre e ih =>
    rw [run_snoc]
    have hm := ih.mono e
    cases e with
    | define n m r =>
      simp only [step]
      split
      · rename_i g hg
        refine ⟨?_, hm.work, hm.sets⟩
        intro e he hs
        rcases mem_put.mp he with rfl | ⟨he, _⟩
        · exact hm.groups (n, g) (get_mem hg) hs
        · exact hm.groups e he hs
      · refine ⟨?_, hm.work, hm.sets⟩
        intro e he hs
        rcases mem_put.mp he with rfl | ⟨he, _⟩
        · cases hs
        · exact hm.groups e he hs
    | remove n =>
      simp only [step]
      split
      · exact ⟨fun e he => hm.groups e (mem_del.mp he).1, hm.work, fun e he => hm.sets e (mem_del.mp he).1⟩
      · exact hm
    | read =>
      simp only [step]
      split
      · exact ⟨hm.groups, hm.groups, hm.sets⟩
      · exact hm
    | handle =>
      simp only [step]
      split
      · rename_i n g rest hw
        have h' : Hist (pre ++ [.handle]) { run init pre with work := rest } :=
          ⟨hm.groups, fun e he => hm.work e (by rw [hw]; exact List.mem_cons_of_mem _ he), hm.sets⟩
        unfold handleGroup
        split
        · exact hist_setStatus h' n _ (by intro h; cases h)
        · rename_i hc
          split
          · rename_i hr
            refine ⟨h'.groups, h'.work, ?_⟩
            intro e he
            rcases mem_put.mp he with rfl | ⟨he, _⟩
            · exact hm.work (n, g) (by rw [hw]; exact List.mem_cons_self ..) hr
            · exact h'.sets e he
          · rename_i hr
            refine hist_setStatus h' n _ (fun _ => ?_)
            refine ⟨pre, [], g, rest, rfl, hw, hr, ?_⟩
            unfold Group.conflict at hc
            rw [if_neg hr] at hc
            exact hc
      · exact hm
    | list =>
      simp only [step]
      split
      · exact ⟨hm.groups, hm.work, hm.sets⟩
      · exact hm
    | apply =>
      simp only [step]
      split
      · exact ⟨hm.groups, hm.work, hm.sets⟩
      · exact hm
    | register n id host =>
      simp only [step]
      split
      · exact hm
      · exact ⟨hm.groups, hm.work, hm.sets⟩
    | unregister n =>
      simp only [step]
      split
      · split
        · exact ⟨hm.groups, hm.work, hm.sets⟩
        · exact hm
      · exact hm

end Verif.Sc.Groups
