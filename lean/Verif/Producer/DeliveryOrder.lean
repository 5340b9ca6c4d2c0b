import Verif.Producer.DeliveryInv

/-!
# Order and number of copies of the batches in the log
-/

namespace Verif.Producer.Delivery

/-! ### The groups waiting at the broker -/

theorem mem_pend {cs : List Conn} {g : List Nat} (h : g ∈ pend cs) :
    ∃ (i : Nat) (k : Conn), cs[i]? = some k ∧ ∃ r ∈ k.sent, r.ids = g := by
  obtain ⟨k, hk, hg⟩ := List.mem_flatMap.mp h
  obtain ⟨r, hr, e⟩ := List.mem_map.mp hg
  obtain ⟨i, hi, e'⟩ := List.mem_iff_getElem.mp hk
  exact ⟨i, k, by rw [List.getElem?_eq_getElem hi, e'], r, hr, e⟩

theorem pend_sub {cs : List Conn} {c : Nat} {f : Conn → Conn}
    (hf : ∀ k, cs[c]? = some k → (f k).sent.Sublist k.sent) : (pend (cs.modify c f)).Sublist (pend cs) := by
  cases hc : cs[c]? with
  | none => rw [modify_none f hc]; exact List.Sublist.refl _
  | some k =>
    have hk := hf k hc
    obtain ⟨a, b, e, hl⟩ := split_at hc
    subst e
    rw [modify_split f hl, pend_append, pend_append]
    refine List.Sublist.append (List.Sublist.refl _) ?_
    show ((f k).sent.map _ ++ pend b).Sublist (k.sent.map _ ++ pend b)
    exact List.Sublist.append (hk.map _) (List.Sublist.refl _)

theorem pend_same {cs : List Conn} {c : Nat} {f : Conn → Conn} (hf : ∀ k, (f k).sent = k.sent) :
    pend (cs.modify c f) = pend cs := by
  cases hc : cs[c]? with
  | none => rw [modify_none f hc]
  | some k =>
    obtain ⟨a, b, e, hl⟩ := split_at hc
    subst e
    rw [modify_split f hl, pend_append, pend_append]
    show _ ++ ((f k).sent.map _ ++ pend b) = _ ++ (k.sent.map _ ++ pend b)
    rw [hf]

theorem get_modify_self {cs : List Conn} {c : Nat} {k : Conn} (f : Conn → Conn) (h : cs[c]? = some k) :
    (cs.modify c f)[c]? = some (f k) := by
  rw [List.getElem?_modify, h]; simp

theorem pend_send {cs : List Conn} {c : Nat} {r : Req} (h : Only c cs) :
    pend (cs.modify c (·.send r)) = pend cs ∨ pend (cs.modify c (·.send r)) = pend cs ++ [r.ids] := by
  cases hc : cs[c]? with
  | none => rw [modify_none _ hc]; exact Or.inl rfl
  | some k =>
    rw [pend_only (only_modify _ h) (get_modify_self _ hc), pend_only h hc]
    unfold Conn.send
    split
    · exact Or.inl rfl
    · right; simp

/-! ### Groups in order -/

/-- Two groups of batches in the order of their sending: copies of each other, or one before the other. -/
def Rel (a b : List Nat) : Prop := a = b ∨ ∀ x ∈ a, ∀ y ∈ b, x < y

structure Ord (gs : List (List Nat)) : Prop where
  pw : gs.Pairwise Rel
  sorted : ∀ g ∈ gs, g.Pairwise (· < ·)

theorem Ord.sub {a b : List (List Nat)} (h : Ord b) (hs : a.Sublist b) : Ord a :=
  ⟨h.pw.sublist hs, fun g hg => h.sorted g (hs.subset hg)⟩

theorem Ord.snoc {a : List (List Nat)} (h : Ord a) {g : List Nat} (hg : g.Pairwise (· < ·)) (hr : ∀ x ∈ a, Rel x g) :
    Ord (a ++ [g]) := by
  constructor
  · rw [List.pairwise_append]
    refine ⟨h.pw, List.pairwise_singleton _ _, ?_⟩
    intro x hx y hy
    rw [List.mem_singleton.mp hy]
    exact hr x hx
  · intro x hx
    rcases List.mem_append.mp hx with hx | hx
    · exact h.sorted x hx
    · rw [List.mem_singleton.mp hx]; exact hg

/-- No batch appears for the first time after a later one. -/
theorem ord_first {gs : List (List Nat)} (h : Ord gs) : ∀ pre y post, gs.flatten = pre ++ y :: post →
    ∀ x ∈ post, x < y → x ∈ pre := by
  induction gs with
  | nil => intro pre y post e; simp at e
  | cons g gs ih =>
    intro pre y post e x hx hlt
    have hpw := List.pairwise_cons.mp h.pw
    have hg : g.Pairwise (· < ·) := h.sorted g (by simp)
    have ht : Ord gs := ⟨hpw.2, fun g' hg' => h.sorted g' (by simp [hg'])⟩
    rw [List.flatten_cons] at e
    rcases List.append_eq_append_iff.mp e with ⟨m, hm, e'⟩ | ⟨m, hm, e'⟩
    · -- the whole of `g` lies in `pre`
      subst hm
      exact List.mem_append_right _ (ih ht m y post e' x hx hlt)
    · cases m with
      | nil =>
        simp at hm e'
        subst hm
        have := ih ht [] y post (by simpa using e'.symm) x hx hlt
        simp at this
      | cons z m =>
        simp at e'
        obtain ⟨rfl, e'⟩ := e'
        -- `g = pre ++ y :: m`
        subst e'
        subst hm
        have hsplit := List.pairwise_append.mp hg
        have hym := (List.pairwise_cons.mp hsplit.2.1).1
        rcases List.mem_append.mp hx with hx | hx
        · have := hym x hx
          omega
        · obtain ⟨g', hg', hxg⟩ := List.mem_flatten.mp hx
          rcases hpw.1 g' hg' with e | hb
          · rw [← e] at hxg
            rcases List.mem_append.mp hxg with hx | hx
            · exact hx
            · rcases List.mem_cons.mp hx with e | hx
              · omega
              · have := hym x hx
                omega
          · have := hb y (by simp) x hxg
            omega

/-! ### The invariant -/

/-- One connection only, or sending at least once without any failure. -/
def Calm (cfg : Cfg) (s : State) : Prop := s.conns.length ≤ 1 ∨ (cfg.atMostOnce = false ∧ s.failed = [])

/-- What is outstanding as long as nothing failed. -/
def Clean (s : State) : Prop :=
  match s.phase with
  | .idle => ∀ (i : Nat) (k : Conn), s.conns[i]? = some k → k.sent = []
  | .waiting _ c t _ => Only c s.conns ∧ ∀ k, s.conns[c]? = some k →
      (∀ pre r post, k.sent = pre ++ r :: post → r.tag = t → post = []) ∧
      (∀ a ∈ k.resp, a.tag = t → k.sent = [])

structure Order (cfg : Cfg) (s : State) : Prop where
  clean : cfg.atMostOnce = false → s.failed = [] → Clean s
  order : Calm cfg s → ∃ gs, s.log = gs.flatten ∧ Ord (gs ++ pend s.conns) ∧
    ∀ ids c t n, s.phase = .waiting ids c t n → ids.Pairwise (· < ·) ∧ ∀ g ∈ gs ++ pend s.conns, Rel g ids

theorem order_init (cfg : Cfg) : Order cfg init := by
  constructor
  · intro _ _ i k hk; cases hk
  · intro _
    refine ⟨[], rfl, ⟨List.Pairwise.nil, ?_⟩, ?_⟩
    · intro g hg; cases hg
    · intro ids c t n h; cases h

theorem only_of_clean {s : State} (h : Clean s) {c : Nat} {k : Conn} (hk : s.conns[c]? = some k) (hs : k.sent ≠ []) :
    Only c s.conns := by
  unfold Clean at h
  split at h
  · exact absurd (h c k hk) hs
  · rename_i c' t n hp
    have : c = c' := by
      apply Classical.byContradiction
      intro hne
      exact hs (h.1 c k hk hne)
    subst this
    exact h.1

theorem only_of_idle {s : State} (h : Clean s) (hp : s.phase = .idle) (c : Nat) : Only c s.conns := by
  unfold Clean at h
  rw [hp] at h
  intro i k hk _
  exact h i k hk

theorem only_connect {cs : List Conn} {c : Nat} (h : Only c cs) : Only c (connect cs) := by
  intro i k hk hi
  rcases connect_get hk with hk | hk
  · exact h i k hk hi
  · rw [hk]

theorem range_sorted (a n : Nat) : (List.range' a n).Pairwise (· < ·) := List.pairwise_lt_range'

/-- The part of the invariant about the order is kept by changes of the connections which take requests away. -/
theorem order_less {s : State} {cs : List Conn} {p : Phase} (hp : p = .idle ∨ p = s.phase)
    (hs : (pend cs).Sublist (pend s.conns))
    (h : ∃ gs, s.log = gs.flatten ∧ Ord (gs ++ pend s.conns) ∧
      ∀ ids c t n, s.phase = .waiting ids c t n → ids.Pairwise (· < ·) ∧ ∀ g ∈ gs ++ pend s.conns, Rel g ids) :
    ∃ gs, s.log = gs.flatten ∧ Ord (gs ++ pend cs) ∧
      ∀ ids c t n, p = .waiting ids c t n → ids.Pairwise (· < ·) ∧ ∀ g ∈ gs ++ pend cs, Rel g ids := by
  obtain ⟨gs, e, ho, hw⟩ := h
  have hsub := List.Sublist.append (List.Sublist.refl gs) hs
  refine ⟨gs, e, ho.sub hsub, ?_⟩
  intro ids c t n hp'
  rcases hp with hp | hp
  · rw [hp] at hp'; cases hp'
  · obtain ⟨h1, h2⟩ := hw ids c t n (hp ▸ hp')
    exact ⟨h1, fun g hg => h2 g (hsub.subset hg)⟩

/-- Sending the group `ids`, which comes after all others or is a copy of the last. -/
theorem order_send {log : List Nat} {cs cs' : List Conn} {ids : List Nat} {p : Phase} {gs : List (List Nat)}
    (he : log = gs.flatten) (ho : Ord (gs ++ pend cs)) (hs : ids.Pairwise (· < ·))
    (hr : ∀ g ∈ gs ++ pend cs, Rel g ids) (hpend : pend cs' = pend cs ∨ pend cs' = pend cs ++ [ids])
    (hp : p = .idle ∨ ∃ c t n, p = .waiting ids c t n) :
    ∃ gs, log = gs.flatten ∧ Ord (gs ++ pend cs') ∧
      ∀ ids c t n, p = .waiting ids c t n → ids.Pairwise (· < ·) ∧ ∀ g ∈ gs ++ pend cs', Rel g ids := by
  refine ⟨gs, he, ?_, ?_⟩
  · rcases hpend with e | e
    · rw [e]; exact ho
    · rw [e, ← List.append_assoc]; exact ho.snoc hs hr
  · intro ids' c t n hp'
    rcases hp with hp | ⟨_, _, _, hp⟩
    · rw [hp] at hp'; cases hp'
    · rw [hp] at hp'; cases hp'
      refine ⟨hs, ?_⟩
      intro g hg
      rcases hpend with e | e
      · rw [e] at hg; exact hr g hg
      · rw [e, ← List.append_assoc] at hg
        rcases List.mem_append.mp hg with hg | hg
        · exact hr g hg
        · exact Or.inl (List.mem_singleton.mp hg)

/-- The current wait with a fresh tag after sending on connection `c`. -/
theorem clean_send {s : State} (hi : Inv s) {cs : List Conn} {c n nx : Nat} {ids : List Nat} (ho : Only c cs)
    (hsub : ∀ k, cs[c]? = some k → ∃ (j : Nat) (k' : Conn), (s.conns[j]? = some k' ∨ k' = ⟨[], [], false, false⟩) ∧
      k.sent = k'.sent ∧ k.resp = k'.resp) :
    Clean { s with next := nx, nextTag := s.nextTag + 1, conns := cs.modify c (·.send ⟨ids, s.nextTag⟩),
                   phase := .waiting ids c s.nextTag n } := by
  refine ⟨only_modify _ ho, ?_⟩
  intro k hk
  rcases get_modify hk with ⟨h', _⟩ | ⟨_, k0, h0, e⟩
  · exact absurd rfl h'
  · subst e
    obtain ⟨j, k', hj, e1, e2⟩ := hsub k0 h0
    have hold : ∀ r ∈ k0.sent, r.tag ≠ s.nextTag := by
      intro r hr
      rw [e1] at hr
      rcases hj with hj | hj
      · exact Nat.ne_of_lt (hi.sentTag j k' hj r hr)
      · subst hj; cases hr
    have holdr : ∀ a ∈ k0.resp, a.tag ≠ s.nextTag := by
      intro r hr
      rw [e2] at hr
      rcases hj with hj | hj
      · exact Nat.ne_of_lt (hi.respTag j k' hj r hr)
      · subst hj; cases hr
    constructor
    · intro pre r post e ht
      unfold Conn.send at e
      split at e
      · exact absurd ht (hold r (by rw [e]; simp))
      · simp only at e
        rcases List.eq_nil_or_concat post with hp | ⟨post', z, hp⟩
        · exact hp
        · subst hp
          have e' : k0.sent ++ [⟨ids, s.nextTag⟩] = (pre ++ r :: post') ++ [z] := by rw [e]; simp
          have := (List.append_inj' e' rfl).1
          exact absurd ht (hold r (by rw [this]; simp))
    · intro a ha ht
      rw [send_resp] at ha
      exact absurd ht (holdr a ha)

theorem clean_less {s : State} (h : Clean s) {cs : List Conn} {p : Phase} {fl : List (List Nat)} {tl : List Nat} {nx : Nat}
    (hp : p = s.phase)
    (hsub : ∀ (i : Nat) (k : Conn), cs[i]? = some k → k.sent = [] ∨ ∃ k', s.conns[i]? = some k' ∧
      (∃ m, k'.sent = k.sent ++ m) ∧ (∀ a ∈ k.resp, a ∈ k'.resp)) :
    Clean { s with next := nx, conns := cs, phase := p, failed := fl, told := tl } := by
  subst hp
  unfold Clean at h ⊢
  simp only
  split at h
  · rename_i hp
    intro i k hk
    rcases hsub i k hk with e | ⟨k', h1, ⟨m, e⟩, _⟩
    · exact e
    · have := h i k' h1
      rw [e] at this
      exact (List.append_eq_nil_iff.mp this).1
  · rename_i ids c t n hp
    refine ⟨?_, ?_⟩
    · intro i k hk hne
      rcases hsub i k hk with e | ⟨k', h1, ⟨m, e⟩, _⟩
      · exact e
      · have := h.1 i k' h1 hne
        rw [e] at this
        exact (List.append_eq_nil_iff.mp this).1
    · intro k hk
      rcases hsub c k hk with e | ⟨k', h1, ⟨m, e⟩, h3⟩
      · refine ⟨?_, fun _ _ _ => e⟩
        intro pre r post e'
        rw [e] at e'
        simp at e'
      · obtain ⟨h4, h5⟩ := h.2 k' h1
        constructor
        · intro pre r post e' ht
          have := h4 pre r (post ++ m) (by rw [e, e']; simp) ht
          exact (List.append_eq_nil_iff.mp this).1
        · intro a ha ht
          have := h5 a (h3 a ha) ht
          rw [e] at this
          exact (List.append_eq_nil_iff.mp this).1

theorem less_of_modify {cs : List Conn} {c : Nat} {f : Conn → Conn}
    (hf : ∀ k, cs[c]? = some k → (∃ m, k.sent = (f k).sent ++ m) ∧ (∀ a ∈ (f k).resp, a ∈ k.resp)) :
    ∀ (i : Nat) (k : Conn), (cs.modify c f)[i]? = some k → k.sent = [] ∨ ∃ k', cs[i]? = some k' ∧
      (∃ m, k'.sent = k.sent ++ m) ∧ (∀ a ∈ k.resp, a ∈ k'.resp) := by
  intro i k hk
  rcases get_modify hk with ⟨_, h'⟩ | ⟨e1, k0, h0, e⟩
  · exact Or.inr ⟨k, h', ⟨[], by simp⟩, fun a ha => ha⟩
  · subst e; subst e1
    exact Or.inr ⟨k0, h0, (hf k0 h0).1, (hf k0 h0).2⟩

theorem modify_length (cs : List Conn) (c : Nat) (f : Conn → Conn) : (cs.modify c f).length = cs.length := by simp

theorem order_step (cfg : Cfg) (s : State) (e : Ev) (hi : Inv s) (h : Order cfg s) : Order cfg (step cfg s e) := by
  cases e with
  | flush n ok =>
    simp only [step]
    split
    · rename_i hp
      split
      · -- sent
        have hidle : cfg.atMostOnce = false → s.failed = [] → ∀ c, Only c (connect s.conns) := fun h1 h2 c =>
          only_connect (only_of_idle (h.clean h1 h2) hp c)
        constructor
        · intro h1 h2
          rw [if_neg (by simp [h1])]
          refine clean_send hi (hidle h1 h2 _) ?_
          intro k hk
          exact ⟨_, k, connect_get hk, rfl, rfl⟩
        · intro hc
          have honly : Only ((connect s.conns).length - 1) (connect s.conns) := by
            rcases hc with hc | hc
            · simp only [modify_length] at hc
              obtain ⟨k, hk⟩ := connect_last s.conns
              exact only_single hc hk
            · exact hidle hc.1 hc.2 _
          have hcalm : Calm cfg s := by
            rcases hc with hc | hc
            · simp only [modify_length] at hc
              exact Or.inl (Nat.le_trans (connect_length s.conns).1 hc)
            · exact Or.inr hc
          obtain ⟨gs, e, ho, _⟩ := h.order hcalm
          refine order_send (cs := connect s.conns) e ?_ (range_sorted s.next n) ?_ (pend_send honly) ?_
          · rw [connect_pend]; exact ho
          · intro g hg
            rw [connect_pend] at hg
            right
            intro x hx y hy
            have hy' := (mem_range hy).1
            have hx' : x < s.next := by
              rcases List.mem_append.mp hg with hg | hg
              · exact hi.logLt x (by rw [e]; exact List.mem_flatten.mpr ⟨g, hg, hx⟩)
              · obtain ⟨i, k, hk, r, hr, e'⟩ := mem_pend hg
                exact hi.sentLt i k hk r hr x (e' ▸ hx)
            omega
          · simp only
            cases cfg.atMostOnce
            · exact Or.inr ⟨_, _, _, rfl⟩
            · exact Or.inl rfl
      · -- sending failed
        constructor
        · intro h1 h2
          exact absurd (List.append_eq_nil_iff.mp h2).2 (by simp)
        · intro hc
          have hcalm : Calm cfg s := by
            rcases hc with hc | hc
            · exact Or.inl (Nat.le_trans (connect_length s.conns).1 hc)
            · exact Or.inr ⟨hc.1, (List.append_eq_nil_iff.mp hc.2).1⟩
          refine order_less (s := s) (p := s.phase) (Or.inr rfl) ?_ (h.order hcalm)
          rw [connect_pend]; exact List.Sublist.refl _
    · exact h
  | serve c good =>
    simp only [step]
    split
    · rename_i r rest resp stale dead hc
      rw [set_modify hc]
      constructor
      · intro h1 h2
        have hcl := h.clean h1 h2
        have honly := only_of_clean hcl hc (by simp)
        show Clean _
        unfold Clean at hcl ⊢
        simp only
        split at hcl
        · exact absurd (hcl c _ hc) (by simp)
        · rename_i ids c' t n hp
          have : c = c' := by
            apply Classical.byContradiction
            intro hne
            have := hcl.1 c _ hc hne
            simp at this
          subst this
          obtain ⟨h3, h4⟩ := hcl.2 _ hc
          refine ⟨only_modify _ honly, ?_⟩
          intro k hk
          rcases get_modify hk with ⟨h', _⟩ | ⟨_, k0, h0, e⟩
          · exact absurd rfl h'
          · subst e
            constructor
            · intro pre x post e ht
              exact h3 (r :: pre) x post (by simp only at e; simp [e]) ht
            · intro a ha ht
              rcases List.mem_append.mp ha with ha | ha
              · exact absurd (h4 a ha ht) (by simp)
              · rw [List.mem_singleton.mp ha] at ht
                exact h3 [] r rest rfl ht
      · intro hcalm
        have hcalm' : Calm cfg s := by
          rcases hcalm with h' | h'
          · simp only [modify_length] at h'; exact Or.inl h'
          · exact Or.inr h'
        have honly : Only c s.conns := by
          rcases hcalm' with h' | h'
          · exact only_single h' hc
          · exact only_of_clean (h.clean h'.1 h'.2) hc (by simp)
        obtain ⟨gs, e, ho, hw⟩ := h.order hcalm'
        have hp1 := pend_only honly hc
        have hp2 := pend_only (only_modify (fun _ => ⟨rest, resp ++ [⟨r.tag, r.ids, good⟩], stale, dead⟩) honly)
          (get_modify_self _ hc)
        simp only [List.map_cons] at hp1 hp2
        rw [hp1] at ho hw
        simp only
        rw [hp2]
        cases good with
        | true =>
          refine ⟨gs ++ [r.ids], by simp [e], ?_, ?_⟩
          · simpa using ho
          · intro ids c' t n hp
            have := hw ids c' t n hp
            simpa using this
        | false =>
          have hsub : (gs ++ rest.map (·.ids)).Sublist (gs ++ r.ids :: rest.map (·.ids)) :=
            List.Sublist.append (List.Sublist.refl _) (List.sublist_cons_self _ _)
          refine ⟨gs, by simp [e], ho.sub hsub, ?_⟩
          intro ids c' t n hp
          obtain ⟨h1, h2⟩ := hw ids c' t n hp
          exact ⟨h1, fun g hg => h2 g (hsub.subset hg)⟩
    · exact h
  | deliver c =>
    simp only [step]
    split
    · rename_i sent a rest stale dead hc
      rw [set_modify hc]
      have hless := less_of_modify (cs := s.conns) (c := c) (f := fun _ => ⟨sent, rest, stale, dead⟩) (by
        intro k hk
        rw [hc] at hk; cases hk
        exact ⟨⟨[], by simp⟩, fun a ha => List.mem_cons_of_mem _ ha⟩)
      have hsub : (pend (s.conns.modify c fun _ => ⟨sent, rest, stale, dead⟩)).Sublist (pend s.conns) := by
        refine pend_sub ?_
        intro k hk
        rw [hc] at hk; cases hk
        exact List.Sublist.refl _
      have hcalm : ∀ fl p tl, (∀ x ∈ s.failed, x ∈ fl) → 
          Calm cfg { s with
            conns := s.conns.modify c (fun _ => ⟨sent, rest, stale, dead⟩), phase := p, failed := fl, told := tl } →
          Calm cfg s := by
        intro fl p tl hfl h'
        rcases h' with h' | h'
        · simp only [modify_length] at h'; exact Or.inl h'
        · refine Or.inr ⟨h'.1, ?_⟩
          have h2 := h'.2
          simp only at h2
          cases hf : s.failed with
          | nil => rfl
          | cons y ys =>
            have := hfl y (by rw [hf]; simp)
            rw [h2] at this
            cases this
      have plain : ∀ fl tl, (∀ x ∈ s.failed, x ∈ fl) → 
          Order cfg { s with
            conns := s.conns.modify c (fun _ => ⟨sent, rest, stale, dead⟩), failed := fl, told := tl } := by
        intro fl tl hfl
        constructor
        · intro h1 h2
          have h2' : s.failed = [] := by
            simp only at h2
            cases hf : s.failed with
            | nil => rfl
            | cons y ys =>
              have := hfl y (by rw [hf]; simp)
              rw [h2] at this
              cases this
          exact clean_less (h.clean h1 h2') rfl hless
        · intro hc'
          exact order_less (s := s) (p := s.phase) (Or.inr rfl) hsub (h.order (hcalm fl s.phase tl hfl hc'))
      split
      · split
        · exact plain s.failed _ (fun x hx => hx)
        · exact plain _ s.told (fun x hx => List.mem_append_left _ hx)
      · split
        · rename_i ids c' tag n hp
          split
          · rename_i ht
            obtain ⟨rfl, ht⟩ := ht
            have done : ∀ fl tl, (∀ x ∈ s.failed, x ∈ fl) → 
                Order cfg { s with
                  conns := s.conns.modify c' (fun _ => ⟨sent, rest, stale, dead⟩), phase := .idle, failed := fl, told := tl } := by
              intro fl tl hfl
              constructor
              · intro h1 h2
                have h2' : s.failed = [] := by
                  simp only at h2
                  cases hf : s.failed with
                  | nil => rfl
                  | cons y ys =>
                    have := hfl y (by rw [hf]; simp)
                    rw [h2] at this
                    cases this
                have hcl := h.clean h1 h2'
                unfold Clean at hcl
                rw [hp] at hcl
                show ∀ (i : Nat) (k : Conn), _ = some k → k.sent = []
                intro i k hk
                rcases get_modify hk with ⟨hne, h'⟩ | ⟨_, k0, h0, e⟩
                · exact hcl.1 i k h' hne
                · subst e
                  exact (hcl.2 _ hc).2 a (by simp) ht
              · intro hc'
                exact order_less (s := s) (p := .idle) (Or.inl rfl) hsub (h.order (hcalm fl .idle tl hfl hc'))
            split
            · exact done s.failed _ (fun x hx => hx)
            · exact done _ s.told (fun x hx => List.mem_append_left _ hx)
          · have := plain s.failed s.told (fun x hx => hx)
            rw [hp] at this
            simpa [hp] using this
        · exact plain s.failed s.told (fun x hx => hx)
    · exact h
  | timeout =>
    simp only [step]
    split
    · rename_i ids c tag retries hp
      split
      · constructor
        · intro h1 h2
          exact absurd (List.append_eq_nil_iff.mp h2).2 (by simp)
        · intro hc
          have hcalm : Calm cfg s := by
            rcases hc with hc | hc
            · simp only [modify_length] at hc; exact Or.inl hc
            · exact Or.inr ⟨hc.1, (List.append_eq_nil_iff.mp hc.2).1⟩
          refine order_less (s := s) (p := .idle) (Or.inl rfl) ?_ (h.order hcalm)
          exact pend_sub fun x _ => List.Sublist.refl _
      · rename_i k
        constructor
        · intro h1 h2
          have hcl := h.clean h1 h2
          unfold Clean at hcl
          rw [hp] at hcl
          refine clean_send hi (only_modify _ hcl.1) ?_ (nx := s.next)
          intro k hk
          rcases get_modify hk with ⟨h', _⟩ | ⟨_, k0, h0, e⟩
          · exact absurd rfl h'
          · subst e; exact ⟨c, k0, Or.inl h0, rfl, rfl⟩
        · intro hc
          have hcalm : Calm cfg s := by
            rcases hc with hc | hc
            · simp only [modify_length] at hc; exact Or.inl hc
            · exact Or.inr hc
          obtain ⟨gs, e, ho, hw⟩ := h.order hcalm
          obtain ⟨h3, h4⟩ := hw ids c tag _ hp
          have hpm : pend (s.conns.modify c fun x => { x with stale := true }) = pend s.conns := pend_same (fun _ => rfl)
          have honly : s.conns[c]? = none ∨ Only c s.conns := by
            rcases hcalm with h' | h'
            · cases hcc : s.conns[c]? with
              | none => exact Or.inl rfl
              | some kk => exact Or.inr (only_single h' hcc)
            · have hcl := h.clean h'.1 h'.2
              unfold Clean at hcl
              rw [hp] at hcl
              exact Or.inr hcl.1
          have hpend : pend ((s.conns.modify c fun x => { x with stale := true }).modify c (·.send ⟨ids, s.nextTag⟩))
                = pend (s.conns.modify c fun x => { x with stale := true }) ∨
              pend ((s.conns.modify c fun x => { x with stale := true }).modify c (·.send ⟨ids, s.nextTag⟩))
                = pend (s.conns.modify c fun x => { x with stale := true }) ++ [ids] := by
            rcases honly with hn | honly
            · rw [modify_none _ hn, modify_none _ hn]; exact Or.inl rfl
            · exact pend_send (only_modify _ honly)
          refine order_send (cs := s.conns.modify c fun x => { x with stale := true }) e ?_ h3 ?_
            hpend (Or.inr ⟨_, _, _, rfl⟩)
          · rw [hpm]; exact ho
          · rw [hpm]; exact h4
    · exact h
  | giveUp =>
    simp only [step]
    split
    · rename_i ids c tag n hp
      constructor
      · intro h1 h2
        exact absurd (List.append_eq_nil_iff.mp h2).2 (by simp)
      · intro hc
        have hcalm : Calm cfg s := by
          rcases hc with hc | hc
          · exact Or.inl hc
          · exact Or.inr ⟨hc.1, (List.append_eq_nil_iff.mp hc.2).1⟩
        exact order_less (s := s) (p := .idle) (Or.inl rfl) (List.Sublist.refl _) (h.order hcalm)
    · exact h
  | lose c k =>
    constructor
    · intro h1 h2
      refine clean_less (fl := s.failed) (tl := s.told) (nx := s.next) (h.clean h1 h2) rfl (less_of_modify ?_)
      intro x _
      exact ⟨⟨x.sent.drop k, (List.take_append_drop _ _).symm⟩, fun a ha => ha⟩
    · intro hc
      have hcalm : Calm cfg s := by
        rcases hc with hc | hc
        · simp only [step, modify_length] at hc; exact Or.inl hc
        · exact Or.inr hc
      exact order_less (s := s) (p := s.phase) (Or.inr rfl) (pend_sub fun x _ => List.take_sublist _ _) (h.order hcalm)
  | notice c =>
    constructor
    · intro h1 h2
      refine clean_less (fl := s.failed) (tl := s.told) (nx := s.next) (h.clean h1 h2) rfl (less_of_modify ?_)
      intro x _
      exact ⟨⟨[], by simp⟩, fun a ha => ha⟩
    · intro hc
      have hcalm : Calm cfg s := by
        rcases hc with hc | hc
        · simp only [step, modify_length] at hc; exact Or.inl hc
        · exact Or.inr hc
      refine order_less (s := s) (p := s.phase) (Or.inr rfl) ?_ (h.order hcalm)
      exact pend_sub fun x _ => List.Sublist.refl _

theorem order_run (cfg : Cfg) (es : List Ev) : Order cfg (run cfg init es) :=
  (run_inv (fun s => Inv s ∧ Order cfg s) (fun s e h => ⟨inv_step cfg s e h.1, order_step cfg s e h.1 h.2⟩) init
    ⟨inv_init, order_init cfg⟩ es).2

/-! ### Copies -/

/-- At most one copy of every batch at the broker, in the log or waiting. -/
structure Once (s : State) : Prop where
  once : ∀ x, s.log.count x + (pend s.conns).flatten.count x ≤ 1
  fresh : ∀ x, s.next ≤ x → s.log.count x + (pend s.conns).flatten.count x = 0
  idle : s.phase = .idle

theorem once_init : Once init := ⟨fun _ => by simp [init, pend], fun _ _ => by simp [init, pend], rfl⟩

theorem count_range (a n x : Nat) : (List.range' a n).count x ≤ 1 :=
  List.nodup_iff_count.mp (List.nodup_range' (step := 1)) x

theorem pend_send_count (cs : List Conn) (c : Nat) (r : Req) (x : Nat) :
    (pend (cs.modify c (·.send r))).flatten.count x ≤ (pend cs).flatten.count x + r.ids.count x := by
  cases hc : cs[c]? with
  | none => rw [modify_none _ hc]; omega
  | some k =>
    obtain ⟨a, b, e, hl⟩ := split_at hc
    subst e
    rw [modify_split _ hl, pend_append, pend_append]
    have h1 : pend (k.send r :: b) = (k.send r).sent.map (·.ids) ++ pend b := rfl
    have h2 : pend (k :: b) = k.sent.map (·.ids) ++ pend b := rfl
    rw [h1, h2]
    unfold Conn.send
    split
    · omega
    · simp [List.count_append, List.flatten_append]
      omega

theorem sub_count {a b : List (List Nat)} (h : a.Sublist b) (x : Nat) : a.flatten.count x ≤ b.flatten.count x :=
  List.Sublist.count_le x (by
    induction h with
    | slnil => exact List.Sublist.refl _
    | cons g _ ih => rw [List.flatten_cons]; exact ih.trans (List.sublist_append_right _ _)
    | cons_cons g _ ih =>
      rw [List.flatten_cons, List.flatten_cons]
      exact List.Sublist.append (List.Sublist.refl _) ih)

theorem once_less {s : State} (h : Once s) {cs : List Conn} {fl : List (List Nat)} {tl : List Nat} {nx : Nat}
    (hnx : s.next ≤ nx) (hs : (pend cs).Sublist (pend s.conns)) :
    Once { s with next := nx, conns := cs, failed := fl, told := tl } := by
  refine ⟨?_, ?_, h.idle⟩
  · intro x
    have := h.once x
    have := sub_count hs x
    show s.log.count x + (pend cs).flatten.count x ≤ 1
    omega
  · intro x hx
    have hx' : s.next ≤ x := Nat.le_trans hnx hx
    have := h.fresh x hx'
    have := sub_count hs x
    show s.log.count x + (pend cs).flatten.count x = 0
    omega

theorem once_step (cfg : Cfg) (ha : cfg.atMostOnce = true) (s : State) (e : Ev) (h : Once s) : Once (step cfg s e) := by
  cases e with
  | flush n ok =>
    simp only [step]
    rw [h.idle]
    simp only
    split
    · have key : ∀ x, (pend ((connect s.conns).modify ((connect s.conns).length - 1)
          (·.send ⟨List.range' s.next n, s.nextTag⟩))).flatten.count x
          ≤ (pend s.conns).flatten.count x + (List.range' s.next n).count x := by
        intro x
        have := pend_send_count (connect s.conns) ((connect s.conns).length - 1) ⟨List.range' s.next n, s.nextTag⟩ x
        rw [connect_pend] at this
        exact this
      refine ⟨?_, ?_, rfl⟩
      · intro x
        have h1 := key x
        have h2 := h.once x
        dsimp only
        rcases Nat.lt_or_ge x s.next with hx | hx
        · have : (List.range' s.next n).count x = 0 := by
            rw [List.count_eq_zero]
            intro hm
            have := (mem_range hm).1
            omega
          omega
        · have := h.fresh x hx
          have := count_range s.next n x
          omega
      · intro x hx
        simp only at hx
        have h1 := key x
        have h2 := h.fresh x (by omega)
        have : (List.range' s.next n).count x = 0 := by
          rw [List.count_eq_zero]
          intro hm
          have := (mem_range hm).2
          omega
        dsimp only
        omega
    · have := once_less h (cs := connect s.conns) (nx := s.next + n) (fl := s.failed ++ [List.range' s.next n])
        (tl := s.told) (by omega) (by rw [connect_pend]; exact List.Sublist.refl _)
      simpa [h.idle] using this
  | serve c good =>
    simp only [step]
    split
    · rename_i r rest resp stale dead hc
      rw [set_modify hc]
      obtain ⟨a, b, e, hl⟩ := split_at hc
      have key : ∀ x, (pend (s.conns.modify c fun _ => ⟨rest, resp ++ [⟨r.tag, r.ids, good⟩], stale, dead⟩)).flatten.count x
          + r.ids.count x = (pend s.conns).flatten.count x := by
        intro x
        rw [e, modify_split _ hl, pend_append, pend_append]
        have h1 : ∀ q : List Resp, pend ((⟨rest, q, stale, dead⟩ : Conn) :: b) = rest.map (·.ids) ++ pend b :=
          fun _ => rfl
        have h2 : pend ((⟨r :: rest, resp, stale, dead⟩ : Conn) :: b) = (r.ids :: rest.map (·.ids)) ++ pend b := rfl
        rw [h1, h2]
        simp only [List.flatten_append, List.flatten_cons, List.count_append]
        omega
      refine ⟨?_, ?_, h.idle⟩
      · intro x
        have h1 := key x
        have h2 := h.once x
        show (if good then s.log ++ r.ids else s.log).count x + _ ≤ 1
        cases good with
        | true => simp only [if_true, List.count_append]; omega
        | false => simp only [Bool.false_eq_true, if_false]; omega
      · intro x hx
        have h1 := key x
        have h2 := h.fresh x hx
        show (if good then s.log ++ r.ids else s.log).count x + _ = 0
        cases good with
        | true => simp only [if_true, List.count_append]; omega
        | false => simp only [Bool.false_eq_true, if_false]; omega
    · exact h
  | deliver c =>
    simp only [step]
    split
    · rename_i sent a rest stale dead hc
      rw [set_modify hc]
      have hsub : (pend (s.conns.modify c fun _ => ⟨sent, rest, stale, dead⟩)).Sublist (pend s.conns) := by
        refine pend_sub ?_
        intro k hk
        rw [hc] at hk; cases hk
        exact List.Sublist.refl _
      rw [ha]
      simp only [if_true]
      split
      · exact once_less h (fl := s.failed) (Nat.le_refl _) hsub
      · exact once_less h (tl := s.told) (Nat.le_refl _) hsub
    · exact h
  | timeout => simp only [step]; rw [h.idle]; exact h
  | giveUp => simp only [step]; rw [h.idle]; exact h
  | lose c k =>
    exact once_less h (fl := s.failed) (tl := s.told) (Nat.le_refl _) (pend_sub fun x _ => List.take_sublist _ _)
  | notice c =>
    exact once_less h (fl := s.failed) (tl := s.told) (Nat.le_refl _) (pend_sub fun x _ => List.Sublist.refl _)

theorem once_run (cfg : Cfg) (ha : cfg.atMostOnce = true) (es : List Ev) : Once (run cfg init es) :=
  run_inv Once (once_step cfg ha) init once_init es

/-! ### Nothing is forgotten -/

/-- Every batch taken from the queue is reported or in the request which is waited for. -/
def Accounted (s : State) : Prop :=
  ∀ x, x < s.next → x ∈ s.told ∨ x ∈ s.failed.flatten ∨ ∃ ids c t n, s.phase = .waiting ids c t n ∧ x ∈ ids

theorem acc_step (cfg : Cfg) (ha : cfg.atMostOnce = false) (s : State) (e : Ev) (h : Accounted s) :
    Accounted (step cfg s e) := by
  cases e with
  | flush n ok =>
    simp only [step]
    split
    · rename_i hp
      have old : ∀ x, x < s.next → x ∈ s.told ∨ x ∈ s.failed.flatten := by
        intro x hx
        rcases h x hx with h | h | ⟨_, _, _, _, e, _⟩
        · exact Or.inl h
        · exact Or.inr h
        · rw [hp] at e; cases e
      split
      · intro x hx
        simp only at hx
        rcases Nat.lt_or_ge x s.next with hl | hl
        · rcases old x hl with h | h
          · exact Or.inl h
          · exact Or.inr (Or.inl h)
        · refine Or.inr (Or.inr ⟨List.range' s.next n, (connect s.conns).length - 1, s.nextTag,
            cfg.retries, ?_, by simp; omega⟩)
          simp [ha]
      · intro x hx
        simp only at hx ⊢
        rcases Nat.lt_or_ge x s.next with hl | hl
        · rcases old x hl with h | h
          · exact Or.inl h
          · refine Or.inr (Or.inl ?_)
            rw [List.flatten_append]
            exact List.mem_append_left _ h
        · refine Or.inr (Or.inl ?_)
          rw [List.flatten_append]
          refine List.mem_append_right _ ?_
          simp
          omega
    · exact h
  | serve c good =>
    simp only [step]
    split
    · exact h
    · exact h
  | deliver c =>
    simp only [step]
    split
    · rw [ha]
      simp only [Bool.false_eq_true, if_false]
      split
      · rename_i ids c' tag n hp
        split
        · have old : ∀ x, x < s.next → x ∈ s.told ∨ x ∈ s.failed.flatten ∨ x ∈ ids := by
            intro x hx
            rcases h x hx with h | h | ⟨_, _, _, _, e, h⟩
            · exact Or.inl h
            · exact Or.inr (Or.inl h)
            · rw [hp] at e; cases e; exact Or.inr (Or.inr h)
          split
          · intro x hx
            rcases old x hx with h | h | h
            · exact Or.inl (List.mem_append_left _ h)
            · exact Or.inr (Or.inl h)
            · exact Or.inl (List.mem_append_right _ h)
          · intro x hx
            simp only [List.flatten_append, List.mem_append]
            rcases old x hx with h | h | h
            · exact Or.inl h
            · exact Or.inr (Or.inl (Or.inl h))
            · exact Or.inr (Or.inl (Or.inr (by simpa using h)))
        · intro x hx
          exact h x hx
      · rename_i hp
        intro x hx
        exact h x hx
    · exact h
  | timeout =>
    simp only [step]
    split
    · rename_i ids c tag retries hp
      have old : ∀ x, x < s.next → x ∈ s.told ∨ x ∈ s.failed.flatten ∨ x ∈ ids := by
        intro x hx
        rcases h x hx with h | h | ⟨_, _, _, _, e, h⟩
        · exact Or.inl h
        · exact Or.inr (Or.inl h)
        · rw [hp] at e; cases e; exact Or.inr (Or.inr h)
      split
      · intro x hx
        simp only [List.flatten_append, List.mem_append]
        rcases old x hx with h | h | h
        · exact Or.inl h
        · exact Or.inr (Or.inl (Or.inl h))
        · exact Or.inr (Or.inl (Or.inr (by simpa using h)))
      · intro x hx
        rcases old x hx with h | h | h
        · exact Or.inl h
        · exact Or.inr (Or.inl h)
        · exact Or.inr (Or.inr ⟨ids, _, _, _, rfl, h⟩)
    · exact h
  | giveUp =>
    simp only [step]
    split
    · rename_i ids c tag retries hp
      intro x hx
      simp only [List.flatten_append, List.mem_append]
      rcases h x hx with h | h | ⟨_, _, _, _, e, h⟩
      · exact Or.inl h
      · exact Or.inr (Or.inl (Or.inl h))
      · rw [hp] at e; cases e; exact Or.inr (Or.inl (Or.inr (by simpa using h)))
    · exact h
  | lose c k => exact h
  | notice c => exact h

theorem acc_run (cfg : Cfg) (ha : cfg.atMostOnce = false) (es : List Ev) : Accounted (run cfg init es) :=
  run_inv Accounted (acc_step cfg ha) init (fun x hx => absurd hx (by simp [init])) es

end Verif.Producer.Delivery
