import Verif.Client.Pool

/-! Invariants of the pool of connections. -/

namespace Verif.Client.Pool

variable {K : Type}

/-- What holds in every state that can be reached. -/
structure Inv (s : State K) : Prop where
  pool : ∀ l c, (l, c) ∈ s.pool → ∃ k, s.socks[c]? = some k ∧ k.spu = l
  nodup : (s.pool.map (·.1)).Nodup
  live : ∀ c k, s.socks[c]? = some k → k.stale = false → (k.spu, c) ∈ s.pool
  conn : ∀ i kind l a, s.calls i = some (.connecting kind l a) → s.lock = some i ∧ ∀ c, (l, c) ∉ s.pool
  got : ∀ i kind l c, s.calls i = some (.got kind l c) → ∃ k, s.socks[c]? = some k ∧ k.spu = l

theorem setCall_calls (s : State K) (i j : Nat) (p : Phase) :
    (s.setCall i p).calls j = if j = i then some p else s.calls j := rfl

theorem pooled_mem {s : State K} {l : Int} {c : Nat} (h : s.pooled l = some c) : (l, c) ∈ s.pool := by
  unfold State.pooled at h
  cases hf : s.pool.find? (·.1 = l) with
  | none => rw [hf] at h; simp at h
  | some x =>
    rw [hf] at h
    have hm := List.mem_of_find?_eq_some hf
    have hp := List.find?_some hf
    simp only [decide_eq_true_eq] at hp
    simp only [Option.map_some, Option.some.injEq] at h
    rw [← hp, ← h]; exact hm

theorem pooled_none {s : State K} {l : Int} (h : s.pooled l = none) (c : Nat) : (l, c) ∉ s.pool := by
  unfold State.pooled at h
  intro hm
  have := List.find?_eq_none.mp (Option.map_eq_none_iff.mp h) _ hm
  simp at this

theorem nodup_mem : ∀ (p : List (Int × Nat)) (_ : (p.map (·.1)).Nodup) (l : Int) (c d : Nat),
    (l, c) ∈ p → (l, d) ∈ p → c = d
  | [], _, _, _, _, h, _ => nomatch h
  | x :: p, hn, l, c, d, hc, hd => by
    simp only [List.map_cons, List.nodup_cons, List.mem_map, not_exists, not_and] at hn
    rcases List.mem_cons.mp hc with rfl | hc'
    · rcases List.mem_cons.mp hd with h | hd'
      · injection h with _ h2; exact h2.symm
      · exact absurd (rfl : (l, d).1 = l) (hn.1 (l, d) hd')
    · rcases List.mem_cons.mp hd with rfl | hd'
      · exact absurd (rfl : (l, c).1 = l) (hn.1 (l, c) hc')
      · exact nodup_mem p hn.2 l c d hc' hd'

theorem pooled_of_mem {s : State K} (hn : (s.pool.map (·.1)).Nodup) {l : Int} {c : Nat} (h : (l, c) ∈ s.pool) :
    s.pooled l = some c := by
  cases hp : s.pooled l with
  | none => exact absurd h (pooled_none hp c)
  | some d => rw [nodup_mem s.pool hn l c d h (pooled_mem hp)]

theorem mem_filter_ne {p : List (Int × Nat)} {l l' : Int} {c : Nat} :
    (l', c) ∈ p.filter (·.1 ≠ l) ↔ (l', c) ∈ p ∧ l' ≠ l := by
  simp [List.mem_filter]

theorem nodup_filter (p : List (Int × Nat)) (l : Int) (h : (p.map (·.1)).Nodup) :
    ((p.filter (·.1 ≠ l)).map (·.1)).Nodup :=
  List.Sublist.nodup (List.Sublist.map _ List.filter_sublist) h

theorem stale_of {s : State K} {c : Nat} {k : Sock} (h : s.socks[c]? = some k) : s.stale c = k.stale := by
  unfold State.stale; rw [h]; rfl

/-- A call is finished otherwise than by connecting. -/
theorem inv_setCall {s : State K} (h : Inv s) (i : Nat) (p : Phase)
    (hc : ∀ kind l a, p ≠ .connecting kind l a)
    (hg : ∀ kind l c, p = .got kind l c → ∃ k, s.socks[c]? = some k ∧ k.spu = l) : Inv (s.setCall i p) where
  pool := h.pool
  nodup := h.nodup
  live := h.live
  conn := by
    intro j kind l a hj
    rw [setCall_calls] at hj
    split at hj
    · injection hj with hj; exact absurd hj (hc _ _ _)
    · exact h.conn j kind l a hj
  got := by
    intro j kind l c hj
    rw [setCall_calls] at hj
    split at hj
    · injection hj with hj; exact hg _ _ _ hj
    · exact h.got j kind l c hj

theorem inv_connect {s : State K} (h : Inv s) (hl : s.lock = none) (i : Nat) (kind : Kind) (l : Int)
    (hp : ∀ c, (l, c) ∉ s.pool) : Inv (s.connect i kind l) := by
  unfold State.connect
  split
  · refine ⟨h.pool, h.nodup, h.live, ?_, ?_⟩
    · intro j kind' l' a hj
      simp only [setCall_calls] at hj
      split at hj
      · rename_i e
        injection hj with hj
        injection hj with _ h2 _
        subst e; subst h2
        exact ⟨rfl, hp⟩
      · have := (h.conn j kind' l' a hj).1
        rw [hl] at this; simp at this
    · intro j kind' l' c hj
      simp only [setCall_calls] at hj
      split at hj
      · injection hj with hj; simp at hj
      · exact h.got j kind' l' c hj
  · exact inv_setCall h _ _ (by intros; simp) (by intros _ _ _ h; simp at h)

theorem inv_unlock {s : State K} (h : Inv s) (i : Nat) (kind : Kind) (l : Int) (a : String)
    (hi : s.calls i = some (.connecting kind l a)) : Inv { s.setCall i .failed with lock := none } where
  pool := h.pool
  nodup := h.nodup
  live := h.live
  conn := by
    intro j kind' l' a' hj
    simp only [setCall_calls] at hj
    split at hj
    · injection hj with hj; simp at hj
    · rename_i hne
      have h1 := (h.conn j kind' l' a' hj).1
      have h2 := (h.conn i kind l a hi).1
      rw [h1] at h2; injection h2 with h2; exact absurd h2 hne
  got := by
    intro j kind' l' c hj
    simp only [setCall_calls] at hj
    split at hj
    · injection hj with hj; simp at hj
    · exact h.got j kind' l' c hj

theorem get_append {xs : List Sock} {y k : Sock} {c : Nat} (h : (xs ++ [y])[c]? = some k) :
    xs[c]? = some k ∨ (c = xs.length ∧ k = y) := by
  rw [List.getElem?_append] at h
  split at h
  · exact Or.inl h
  · rename_i hc
    by_cases e : c = xs.length
    · subst e; simp at h; exact Or.inr ⟨rfl, h.symm⟩
    · rw [List.getElem?_eq_none (by simp; omega)] at h; cases h

theorem get_append_left {xs : List Sock} {y k : Sock} {c : Nat} (h : xs[c]? = some k) :
    (xs ++ [y])[c]? = some k := by
  have := (List.getElem?_eq_some_iff.mp h).1
  rw [List.getElem?_append_left this]; exact h

theorem inv_step {s : State K} (h : Inv s) (e : Ev K) : Inv (step s e) := by
  cases e with
  | view m => exact ⟨h.pool, h.nodup, h.live, h.conn, h.got⟩
  | begin i kind k =>
    simp only [step]
    split
    · split
      · exact inv_setCall h _ _ (by intros; simp) (by intros _ _ _ h; simp at h)
      · exact inv_setCall h _ _ (by intros; simp) (by intros _ _ _ h; simp at h)
    · exact h
  | enter i =>
    simp only [step]
    split
    · rename_i l hlock hcall
      split
      · rename_i c hc
        have hmem := pooled_mem hc
        split
        · rename_i hst
          refine inv_connect (s := { s with pool := s.pool.filter (·.1 ≠ l) }) ?_ hlock i _ l ?_
          · refine ⟨?_, nodup_filter _ _ h.nodup, ?_, ?_, h.got⟩
            · intro l' c' hm
              exact h.pool l' c' (mem_filter_ne.mp hm).1
            · intro c' k hk hs
              refine mem_filter_ne.mpr ⟨h.live c' k hk hs, ?_⟩
              intro e
              have hm' := h.live c' k hk hs
              rw [e] at hm'
              have := nodup_mem _ h.nodup l c c' hmem hm'
              subst this
              rw [stale_of (s := s) hk, hs] at hst; simp at hst
            · intro j kind l' a hj
              have := h.conn j kind l' a hj
              exact ⟨this.1, fun c' hm => this.2 c' (mem_filter_ne.mp hm).1⟩
          · intro c' hm; exact (mem_filter_ne.mp hm).2 rfl
        · refine inv_setCall h _ _ (by intros; simp) ?_
          intro kind l' c' he
          injection he with _ h2 h3
          subst h2; subst h3
          exact h.pool _ _ hmem
      · rename_i hc
        exact inv_connect h hlock i _ l (pooled_none hc)
    · rename_i l hlock hcall
      split
      · rename_i c hc
        refine inv_setCall h _ _ (by intros; simp) ?_
        intro kind l' c' he
        injection he with _ h2 h3
        subst h2; subst h3
        exact h.pool _ _ (pooled_mem hc)
      · rename_i hc
        exact inv_connect h hlock i _ l (pooled_none hc)
    · exact h
  | connected i ok streamOk =>
    simp only [step]
    split
    · rename_i kind l a hcall
      have hu := inv_unlock h i kind l a hcall
      have hno := (h.conn i kind l a hcall).2
      split
      · split
        · refine ⟨?_, h.nodup, ?_, hu.conn, ?_⟩
          · intro l' c' hm
            obtain ⟨k, hk, e⟩ := h.pool l' c' hm
            exact ⟨k, get_append_left hk, e⟩
          · intro c' k hk hs
            rcases get_append hk with hk | ⟨_, rfl⟩
            · exact h.live c' k hk hs
            · simp at hs
          · intro j kind' l' c' hj
            obtain ⟨k, hk, e⟩ := hu.got j kind' l' c' hj
            exact ⟨k, get_append_left hk, e⟩
        · have hnew : (s.socks ++ [(⟨l, a, false⟩ : Sock)])[s.socks.length]? = some ⟨l, a, false⟩ := by simp
          refine ⟨?_, ?_, ?_, ?_, ?_⟩
          · intro l' c' hm
            rcases List.mem_cons.mp hm with h1 | h1
            · injection h1 with h1 h2
              subst h1; subst h2
              exact ⟨_, hnew, rfl⟩
            · obtain ⟨k, hk, e⟩ := h.pool l' c' (mem_filter_ne.mp h1).1
              exact ⟨k, get_append_left hk, e⟩
          · simp only [List.map_cons, List.nodup_cons]
            refine ⟨?_, nodup_filter _ _ h.nodup⟩
            intro hm
            obtain ⟨x, hx, e⟩ := List.mem_map.mp hm
            exact (mem_filter_ne (l' := x.1) (c := x.2).mp hx).2 e
          · intro c' k hk hs
            rcases get_append hk with hk | ⟨rfl, rfl⟩
            · have hm := h.live c' k hk hs
              refine List.mem_cons_of_mem _ (mem_filter_ne.mpr ⟨hm, ?_⟩)
              intro e; rw [e] at hm; exact hno _ hm
            · exact List.mem_cons_self ..
          · intro j kind' l' a' hj
            simp only [setCall_calls] at hj
            split at hj
            · injection hj with hj; simp at hj
            · rename_i hne
              have h1 := (h.conn j kind' l' a' hj).1
              have h2 := (h.conn i kind l a hcall).1
              rw [h1] at h2; injection h2 with h2; exact absurd h2 hne
          · intro j kind' l' c' hj
            simp only [setCall_calls] at hj
            split at hj
            · injection hj with hj
              injection hj with _ h2 h3
              subst h2; subst h3
              exact ⟨_, hnew, rfl⟩
            · obtain ⟨k, hk, e⟩ := h.got j kind' l' c' hj
              exact ⟨k, get_append_left hk, e⟩
      · exact hu
    · exact h
  | broken c =>
    simp only [step]
    have hget : ∀ (d : Nat) (k : Sock), (s.socks.modify c fun x => { x with stale := true })[d]? = some k →
        ∃ k0, s.socks[d]? = some k0 ∧ k.spu = k0.spu ∧ (k.stale = false → k0.stale = false) := by
      intro d k hk
      rw [List.getElem?_modify] at hk
      cases hd : s.socks[d]? with
      | none => rw [hd] at hk; simp at hk
      | some k0 =>
        rw [hd] at hk
        simp only [Option.map_eq_map, Option.map_some, Option.some.injEq] at hk
        refine ⟨k0, rfl, ?_⟩
        split at hk <;> subst hk <;> simp
    have hput : ∀ (d : Nat) (k0 : Sock), s.socks[d]? = some k0 →
        ∃ k, (s.socks.modify c fun x => { x with stale := true })[d]? = some k ∧ k.spu = k0.spu := by
      intro d k0 hd
      rw [List.getElem?_modify, hd]
      refine ⟨_, rfl, ?_⟩
      split <;> rfl
    refine ⟨?_, h.nodup, ?_, h.conn, ?_⟩
    · intro l' c' hm
      obtain ⟨k, hk, e⟩ := h.pool l' c' hm
      obtain ⟨k', hk', e'⟩ := hput c' k hk
      exact ⟨k', hk', e'.trans e⟩
    · intro c' k hk hs
      obtain ⟨k0, hk0, e, hs0⟩ := hget c' k hk
      rw [e]; exact h.live c' k0 hk0 (hs0 hs)
    · intro j kind' l' c' hj
      obtain ⟨k, hk, e⟩ := h.got j kind' l' c' hj
      obtain ⟨k', hk', e'⟩ := hput c' k hk
      exact ⟨k', hk', e'.trans e⟩
  | dropped i =>
    simp only [step]
    split
    · exact inv_setCall h _ _ (by intros; simp) (by intros _ _ _ h; simp at h)
    · rename_i hc; exact inv_unlock h i _ _ _ hc
    · exact h

theorem inv_run : ∀ (es : List (Ev K)) (s : State K), Inv s → Inv (run s es)
  | [], _, h => h
  | e :: es, s, h => inv_run es (step s e) (inv_step h e)

theorem inv_init (u : Bool) (m : Meta K) : Inv (init u m) := by
  refine ⟨?_, List.nodup_nil, ?_, ?_, ?_⟩ <;> intros <;> simp_all [init]

theorem run_append : ∀ (es fs : List (Ev K)) (s : State K), run s (es ++ fs) = run (run s es) fs
  | [], _, _ => rfl
  | e :: es, fs, s => run_append es fs (step s e)

end Verif.Client.Pool
