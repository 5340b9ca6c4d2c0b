import Verif.Client.PoolInv

/-! Where the connections and calls of a run come from. -/

namespace Verif.Client.Pool

variable {K : Type}

theorem useLocal_connect (s : State K) (i : Nat) (kind : Kind) (l : Int) :
    (s.connect i kind l).useLocal = s.useLocal := by
  unfold State.connect; split <;> rfl

theorem socks_connect (s : State K) (i : Nat) (kind : Kind) (l : Int) :
    (s.connect i kind l).socks = s.socks := by
  unfold State.connect; split <;> rfl

theorem calls_connect (s : State K) (i j : Nat) (kind : Kind) (l : Int) :
    (s.connect i kind l).calls j = s.calls j ∨ (j = i ∧ (s.connect i kind l).calls j = some .failed) ∨
      ∃ spu, s.view.spu l = some spu ∧ j = i ∧
        (s.connect i kind l).calls j = some (.connecting kind l (address s.useLocal spu)) := by
  unfold State.connect
  split
  · rename_i spu hs
    simp only [setCall_calls]
    split
    · rename_i e; exact Or.inr (Or.inr ⟨spu, hs, e, rfl⟩)
    · exact Or.inl rfl
  · simp only [setCall_calls]
    split
    · rename_i e; exact Or.inr (Or.inl ⟨e, rfl⟩)
    · exact Or.inl rfl

/-- How a call changes in one step. -/
inductive Moves (s : State K) (e : Ev K) (j : Nat) : Prop
  | same (h : (step s e).calls j = s.calls j)
  | failed (h : (step s e).calls j = some .failed)
  | begun (kind : Kind) (k : K) (l : Int) (he : e = .begin j kind k) (h0 : s.calls j = none)
      (hl : s.view.leader k = some l) (h : (step s e).calls j = some (.waiting kind l))
  | reused (kind : Kind) (l : Int) (c : Nat) (he : e = .enter j) (h0 : s.calls j = some (.waiting kind l))
      (hp : s.pooled l = some c) (hs : kind = .serial → s.stale c = false) (hsocks : (step s e).socks = s.socks)
      (h : (step s e).calls j = some (.got kind l c))
  | connecting (kind : Kind) (l : Int) (spu : Spu) (h0 : s.calls j = some (.waiting kind l))
      (hv : s.view.spu l = some spu) (h : (step s e).calls j = some (.connecting kind l (address s.useLocal spu)))
  | connected (kind : Kind) (l : Int) (a : String) (h0 : s.calls j = some (.connecting kind l a))
      (hsocks : (step s e).socks = s.socks ++ [⟨l, a, false⟩])
      (h : (step s e).calls j = some (.got kind l s.socks.length))

theorem moves_set {s : State K} {e : Ev K} {i j : Nat} {p : Phase}
    (h : (step s e).calls = (s.setCall i p).calls) (hne : j ≠ i) : Moves s e j :=
  .same (by rw [h, setCall_calls, if_neg hne])

theorem moves_set_self {s : State K} {e : Ev K} {i : Nat} {p : Phase}
    (h : (step s e).calls = (s.setCall i p).calls) : (step s e).calls i = some p := by
  rw [h, setCall_calls, if_pos rfl]

theorem moves_failed {s : State K} {e : Ev K} {i j : Nat}
    (h : (step s e).calls = (s.setCall i .failed).calls) : Moves s e j := by
  by_cases hj : j = i
  · subst hj; exact .failed (moves_set_self h)
  · exact moves_set h hj

theorem moves_connect {s s' : State K} {e : Ev K} {i j : Nat} {kind : Kind} {l : Int}
    (h : step s e = s'.connect i kind l) (hc : s'.calls = s.calls) (hv : s'.view = s.view)
    (hu : s'.useLocal = s.useLocal) (h0 : s.calls i = some (.waiting kind l)) : Moves s e j := by
  rcases calls_connect s' i j kind l with h1 | ⟨rfl, h1⟩ | ⟨spu, hs, rfl, h1⟩
  · exact .same (by rw [h, h1, hc])
  · exact .failed (by rw [h, h1])
  · rw [hu] at h1; exact .connecting kind l spu h0 (hv ▸ hs) (by rw [h, h1])

theorem moves (s : State K) (e : Ev K) (j : Nat) : Moves s e j := by
  cases e with
  | view m => exact .same rfl
  | begin i kind k =>
    cases hc : s.calls i with
    | none =>
      cases hl : s.view.leader k with
      | none =>
        have h : step s (.begin i kind k) = s.setCall i .failed := by simp only [step, hc, hl]
        exact moves_failed (by rw [h])
      | some l =>
        have h : step s (.begin i kind k) = s.setCall i (.waiting kind l) := by simp only [step, hc, hl]
        by_cases hj : j = i
        · subst hj; exact .begun kind k l rfl hc hl (moves_set_self (by rw [h]))
        · exact moves_set (by rw [h]) hj
    | some p =>
      have h : step s (.begin i kind k) = s := by simp only [step, hc]
      exact .same (by rw [h])
  | enter i =>
    by_cases hlock : s.lock = none
    · by_cases hcall : ∃ kind l, s.calls i = some (.waiting kind l)
      · obtain ⟨kind, l, hcall⟩ := hcall
        cases kind with
        | serial =>
          cases hp : s.pooled l with
          | none =>
            have h : step s (.enter i) = s.connect i .serial l := by simp only [step, hlock, hcall, hp]
            exact moves_connect h rfl rfl rfl hcall
          | some c =>
            cases hst : s.stale c with
            | true =>
              have h : step s (.enter i) =
                  ({ s with pool := s.pool.filter (·.1 ≠ l) } : State K).connect i .serial l := by
                simp only [step, hlock, hcall, hp, hst]; rfl
              exact moves_connect h rfl rfl rfl hcall
            | false =>
              have h : step s (.enter i) = s.setCall i (.got .serial l c) := by
                simp only [step, hlock, hcall, hp, hst]; rfl
              by_cases hj : j = i
              · subst hj
                exact .reused .serial l c rfl hcall hp (fun _ => hst) (by rw [h]; rfl) (moves_set_self (by rw [h]))
              · exact moves_set (by rw [h]) hj
        | stream =>
          cases hp : s.pooled l with
          | none =>
            have h : step s (.enter i) = s.connect i .stream l := by simp only [step, hlock, hcall, hp]
            exact moves_connect h rfl rfl rfl hcall
          | some c =>
            have h : step s (.enter i) = s.setCall i (.got .stream l c) := by
              simp only [step, hlock, hcall, hp]
            by_cases hj : j = i
            · subst hj
              exact .reused .stream l c rfl hcall hp (by intro h; cases h) (by rw [h]; rfl)
                (moves_set_self (by rw [h]))
            · exact moves_set (by rw [h]) hj
      · have h : step s (.enter i) = s := by
          simp only [step]
          split
          · rename_i h; exact absurd ⟨_, _, h⟩ hcall
          · rename_i h; exact absurd ⟨_, _, h⟩ hcall
          · rfl
        exact .same (by rw [h])
    · have h : step s (.enter i) = s := by
        simp only [step]
        split
        · rename_i h _; exact absurd h hlock
        · rename_i h _; exact absurd h hlock
        · rfl
      exact .same (by rw [h])
  | connected i ok streamOk =>
    by_cases hcall : ∃ kind l a, s.calls i = some (.connecting kind l a)
    · obtain ⟨kind, l, a, hcall⟩ := hcall
      cases ok with
      | false =>
        refine moves_failed (i := i) ?_
        simp only [step, hcall]; rfl
      | true =>
        by_cases hk : kind = .stream ∧ streamOk = false
        · refine moves_failed (i := i) ?_
          simp only [step, hcall, if_pos hk, if_true]
        · have h : step s (.connected i true streamOk) = { s.setCall i (.got kind l s.socks.length) with
              socks := s.socks ++ [⟨l, a, false⟩], pool := (l, s.socks.length) :: s.pool.filter (·.1 ≠ l),
              lock := none } := by
            simp only [step, hcall, if_neg hk, if_true]
          by_cases hj : j = i
          · subst hj
            exact .connected kind l a hcall (by rw [h]) (moves_set_self (by rw [h]))
          · exact moves_set (by rw [h]) hj
    · refine .same ?_
      simp only [step]
      split
      · rename_i h; exact absurd ⟨_, _, _, h⟩ hcall
      · rfl
  | broken c => exact .same rfl
  | dropped i =>
    cases hc : s.calls i with
    | none => exact .same (by simp only [step, hc])
    | some p =>
      cases p with
      | waiting _ _ => exact moves_failed (i := i) (by simp only [step, hc])
      | connecting _ _ _ => exact moves_failed (i := i) (by simp only [step, hc])
      | got _ _ _ => exact .same (by simp only [step, hc])
      | failed => exact .same (by simp only [step, hc])

/-- How the list of connections changes in one step. -/
theorem socks_step (s : State K) (e : Ev K) :
    (step s e).socks = s.socks ∨
    (∃ i kind l a b, s.calls i = some (.connecting kind l a) ∧ (step s e).socks = s.socks ++ [⟨l, a, b⟩]) ∨
    (∃ c, e = .broken c ∧ (step s e).socks = s.socks.modify c fun x => { x with stale := true }) := by
  cases e with
  | view m => exact Or.inl rfl
  | begin i kind k =>
    refine Or.inl ?_
    simp only [step]
    split
    · split <;> rfl
    · rfl
  | enter i =>
    refine Or.inl ?_
    simp only [step]
    split
    · split
      · split
        · rw [socks_connect]
        · rfl
      · rw [socks_connect]
    · split
      · rfl
      · rw [socks_connect]
    · rfl
  | connected i ok streamOk =>
    simp only [step]
    split
    · rename_i kind l a hc
      split
      · split
        · exact Or.inr (Or.inl ⟨i, kind, l, a, true, hc, rfl⟩)
        · exact Or.inr (Or.inl ⟨i, kind, l, a, false, hc, rfl⟩)
      · exact Or.inl rfl
    · exact Or.inl rfl
  | broken c => exact Or.inr (Or.inr ⟨c, rfl, rfl⟩)
  | dropped i =>
    refine Or.inl ?_
    simp only [step]
    split <;> rfl

theorem useLocal_step (s : State K) (e : Ev K) : (step s e).useLocal = s.useLocal := by
  cases e with
  | view m => rfl
  | begin i kind k =>
    simp only [step]
    split
    · split <;> rfl
    · rfl
  | enter i =>
    simp only [step]
    split
    · split
      · split
        · rw [useLocal_connect]
        · rfl
      · rw [useLocal_connect]
    · split
      · rfl
      · rw [useLocal_connect]
    · rfl
  | connected i ok streamOk =>
    simp only [step]
    split
    · split
      · split <;> rfl
      · rfl
    · rfl
  | broken c => rfl
  | dropped i =>
    simp only [step]
    split <;> rfl

theorem useLocal_run : ∀ (es : List (Ev K)) (s : State K), (run s es).useLocal = s.useLocal
  | [], _ => rfl
  | e :: es, s => (useLocal_run es (step s e)).trans (useLocal_step s e)

/-- Reasoning along a run: what holds of the empty prefix and passes from each prefix to the next holds of all. -/
theorem run_ind {P : List (Ev K) → Prop} (h0 : P []) (hs : ∀ pre e, P pre → P (pre ++ [e])) : ∀ es, P es := by
  intro es
  have : ∀ n, n ≤ es.length → P (es.take n) := by
    intro n
    induction n with
    | zero => intro _; simpa using h0
    | succ n ih =>
      intro hn
      rw [List.take_succ_eq_append_getElem (by omega)]
      exact hs _ _ (ih (by omega))
  simpa using this es.length (Nat.le_refl _)

theorem run_snoc (s : State K) (pre : List (Ev K)) (e : Ev K) : run s (pre ++ [e]) = step (run s pre) e := by
  rw [run_append]; rfl

/-- At some point of `es` the view of the client gave broker `l` an entry with address `a`. -/
def Known (s : State K) (es : List (Ev K)) (l : Int) (a : String) : Prop :=
  ∃ pre spu, pre <+: es ∧ (run s pre).view.spu l = some spu ∧ a = address s.useLocal spu

/-- Call `i` began in `es`, and its partition's leader was then `l`. -/
def Asked (s : State K) (es : List (Ev K)) (i : Nat) (kind : Kind) (l : Int) : Prop :=
  ∃ pre k, (pre ++ [.begin i kind k]) <+: es ∧ (run s pre).view.leader k = some l

theorem Known.mono {s : State K} {es : List (Ev K)} {l : Int} {a : String} (h : Known s es l a) (e : Ev K) :
    Known s (es ++ [e]) l a := by
  obtain ⟨pre, spu, hp, h⟩ := h
  exact ⟨pre, spu, hp.trans (List.prefix_append ..), h⟩

theorem Asked.mono {s : State K} {es : List (Ev K)} {i : Nat} {kind : Kind} {l : Int} (h : Asked s es i kind l)
    (e : Ev K) : Asked s (es ++ [e]) i kind l := by
  obtain ⟨pre, k, hp, h⟩ := h
  exact ⟨pre, k, hp.trans (List.prefix_append ..), h⟩

/-- The history of every call and connection. -/
theorem history (u : Bool) (m : Meta K) (es : List (Ev K)) :
    (∀ (c : Nat) (k : Sock), (run (init u m) es).socks[c]? = some k → Known (init u m) es k.spu k.addr) ∧
    (∀ i kind l, (run (init u m) es).calls i = some (.waiting kind l) → Asked (init u m) es i kind l) ∧
    (∀ i kind l a, (run (init u m) es).calls i = some (.connecting kind l a) →
      Asked (init u m) es i kind l ∧ Known (init u m) es l a) ∧
    (∀ i kind l c, (run (init u m) es).calls i = some (.got kind l c) → Asked (init u m) es i kind l) := by
  induction es using run_ind with
  | h0 => refine ⟨?_, ?_, ?_, ?_⟩ <;> intros <;> simp_all [run, init]
  | hs pre e ih =>
    obtain ⟨ih1, ih2, ih3, ih4⟩ := ih
    rw [run_snoc]
    refine ⟨?_, ?_, ?_, ?_⟩
    · intro c k hk
      rcases socks_step (run (init u m) pre) e with h | ⟨i, kind, l, a, b, hc, h⟩ | ⟨d, _, h⟩
      · rw [h] at hk; exact (ih1 c k hk).mono e
      · rw [h] at hk
        rcases get_append hk with hk | ⟨_, rfl⟩
        · exact (ih1 c k hk).mono e
        · exact (ih3 i kind l a hc).2.mono e
      · rw [h, List.getElem?_modify] at hk
        cases hd : (run (init u m) pre).socks[c]? with
        | none => rw [hd] at hk; simp at hk
        | some k0 =>
          rw [hd] at hk
          simp only [Option.map_eq_map, Option.map_some, Option.some.injEq] at hk
          have := (ih1 c k0 hd).mono e
          split at hk <;> subst hk <;> exact this
    · intro i kind l hc
      cases moves (run (init u m) pre) e i with
      | same h => rw [h] at hc; exact (ih2 i kind l hc).mono e
      | failed h => rw [h] at hc; cases hc
      | begun kind' k l' he h0 hl h =>
        rw [h] at hc; injection hc with hc; injection hc with h1 h2
        subst h1; subst h2; subst he
        exact ⟨pre, k, List.prefix_rfl, hl⟩
      | reused _ _ _ _ _ _ _ _ h => rw [h] at hc; cases hc
      | connecting _ _ _ _ _ h => rw [h] at hc; cases hc
      | connected _ _ _ _ _ h => rw [h] at hc; cases hc
    · intro i kind l a hc
      cases moves (run (init u m) pre) e i with
      | same h => rw [h] at hc; exact ⟨(ih3 i kind l a hc).1.mono e, (ih3 i kind l a hc).2.mono e⟩
      | failed h => rw [h] at hc; cases hc
      | begun _ _ _ _ _ _ h => rw [h] at hc; cases hc
      | reused _ _ _ _ _ _ _ _ h => rw [h] at hc; cases hc
      | connecting kind' l' spu h0 hv h =>
        rw [h] at hc; injection hc with hc; injection hc with h1 h2 h3
        subst h1; subst h2; subst h3
        refine ⟨(ih2 i _ _ h0).mono e, pre, spu, List.prefix_append .., hv, ?_⟩
        rw [useLocal_run]
      | connected _ _ _ _ _ h => rw [h] at hc; cases hc
    · intro i kind l c hc
      cases moves (run (init u m) pre) e i with
      | same h => rw [h] at hc; exact (ih4 i kind l c hc).mono e
      | failed h => rw [h] at hc; cases hc
      | begun _ _ _ _ _ _ h => rw [h] at hc; cases hc
      | reused kind' l' c' _ h0 _ _ _ h =>
        rw [h] at hc; injection hc with hc; injection hc with h1 h2 h3
        subst h1; subst h2
        exact (ih2 i _ _ h0).mono e
      | connecting _ _ _ _ _ h => rw [h] at hc; cases hc
      | connected kind' l' a h0 _ h =>
        rw [h] at hc; injection hc with hc; injection hc with h1 h2 h3
        subst h1; subst h2
        exact (ih3 i _ _ a h0).1.mono e

end Verif.Client.Pool
