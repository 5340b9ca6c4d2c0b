import Verif.Producer.Delivery

/-!
# Invariants of the sending of batches
-/

namespace Verif.Producer.Delivery

theorem run_append (cfg : Cfg) (s : State) (as bs : List Ev) :
    run cfg s (as ++ bs) = run cfg (run cfg s as) bs := by
  induction as generalizing s with
  | nil => rfl
  | cons a as ih => exact ih _

theorem run_inv {cfg : Cfg} (P : State → Prop) (h : ∀ s e, P s → P (step cfg s e)) (s : State) (hs : P s)
    (es : List Ev) : P (run cfg s es) := by
  induction es generalizing s with
  | nil => exact hs
  | cons e es ih => exact ih _ (h s e hs)

/-! ### Changing one connection -/

theorem get_modify {cs : List Conn} {c i : Nat} {f : Conn → Conn} {k : Conn} (h : (cs.modify c f)[i]? = some k) :
    (i ≠ c ∧ cs[i]? = some k) ∨ (i = c ∧ ∃ k0, cs[c]? = some k0 ∧ k = f k0) := by
  rw [List.getElem?_modify] at h
  by_cases hi : c = i
  · subst hi
    cases hc : cs[c]? with
    | none => rw [hc] at h; cases h
    | some k0 =>
      rw [hc] at h
      simp at h
      exact Or.inr ⟨rfl, k0, rfl, h.symm⟩
  · cases hc : cs[i]? with
    | none => rw [hc] at h; cases h
    | some k0 =>
      rw [hc] at h
      simp [hi] at h
      exact Or.inl ⟨fun e => hi e.symm, by rw [h]⟩

theorem set_modify {cs : List Conn} {c : Nat} {k k' : Conn} (h : cs[c]? = some k) :
    cs.set c k' = cs.modify c (fun _ => k') := by
  apply List.ext_getElem?
  intro i
  rw [List.getElem?_set, List.getElem?_modify]
  by_cases hi : c = i
  · subst hi
    rw [h]
    have : c < cs.length := by
      rcases Nat.lt_or_ge c cs.length with hl | hl
      · exact hl
      · rw [List.getElem?_eq_none hl] at h; cases h
    simp [this]
  · simp [hi]

/-- The groups of batches which wait at the broker. -/
def pend (cs : List Conn) : List (List Nat) := cs.flatMap fun c => c.sent.map (·.ids)

theorem pend_append (a b : List Conn) : pend (a ++ b) = pend a ++ pend b := List.flatMap_append

/-- Splitting the list of connections at one of them. -/
theorem split_at {cs : List Conn} {c : Nat} {k : Conn} (h : cs[c]? = some k) :
    ∃ a b, cs = a ++ k :: b ∧ a.length = c := by
  induction cs generalizing c with
  | nil => cases h
  | cons x xs ih =>
    cases c with
    | zero => simp at h; subst h; exact ⟨[], xs, rfl, rfl⟩
    | succ c =>
      obtain ⟨a, b, e, hl⟩ := ih (c := c) (by simpa using h)
      exact ⟨x :: a, b, by rw [e]; rfl, by simp [hl]⟩

theorem modify_split {a b : List Conn} {k : Conn} {c : Nat} (f : Conn → Conn) (hl : a.length = c) :
    (a ++ k :: b).modify c f = a ++ f k :: b := by
  subst hl
  induction a with
  | nil => rfl
  | cons x xs ih => simpa using ih

theorem modify_none {cs : List Conn} {c : Nat} (f : Conn → Conn) (h : cs[c]? = none) : cs.modify c f = cs := by
  apply List.ext_getElem?
  intro i
  rw [List.getElem?_modify]
  by_cases hi : c = i
  · subst hi; rw [h]; rfl
  · simp [hi]

/-- Only connection `c` has requests waiting at the broker. -/
def Only (c : Nat) (cs : List Conn) : Prop := ∀ (i : Nat) (k : Conn), cs[i]? = some k → i ≠ c → k.sent = []

theorem pend_empty {cs : List Conn} (h : ∀ k ∈ cs, k.sent = []) : pend cs = [] := by
  induction cs with
  | nil => rfl
  | cons k ks ih =>
    show k.sent.map _ ++ pend ks = []
    rw [h k (by simp), ih (fun k' hk => h k' (by simp [hk]))]
    rfl

theorem pend_only {cs : List Conn} {c : Nat} {k : Conn} (h : Only c cs) (hk : cs[c]? = some k) :
    pend cs = k.sent.map (·.ids) := by
  obtain ⟨a, b, e, hl⟩ := split_at hk
  subst e
  have ha : pend a = [] := by
    refine pend_empty ?_
    intro x hx
    obtain ⟨i, hi, e⟩ := List.mem_iff_getElem.mp hx
    refine h i x ?_ (by omega)
    rw [List.getElem?_append_left hi, List.getElem?_eq_getElem hi, e]
  have hb : pend b = [] := by
    refine pend_empty ?_
    intro x hx
    obtain ⟨i, hi, e⟩ := List.mem_iff_getElem.mp hx
    refine h (a.length + (i + 1)) x ?_ (by omega)
    rw [List.getElem?_append_right (by omega)]
    simp only [Nat.add_sub_cancel_left, List.getElem?_cons_succ]
    rw [List.getElem?_eq_getElem hi, e]
  rw [pend_append, ha]
  show [] ++ (k.sent.map _ ++ pend b) = _
  rw [hb]
  simp

theorem only_modify {cs : List Conn} {c : Nat} (f : Conn → Conn) (h : Only c cs) : Only c (cs.modify c f) := by
  intro i k hk hi
  rcases get_modify hk with ⟨_, h'⟩ | ⟨e, _⟩
  · exact h i k h' hi
  · exact absurd e hi

theorem only_single {cs : List Conn} {c : Nat} {k : Conn} (h : cs.length ≤ 1) (hk : cs[c]? = some k) : Only c cs := by
  intro i k' hk' hi
  have hc : c < cs.length := by
    rcases Nat.lt_or_ge c cs.length with hl | hl
    · exact hl
    · rw [List.getElem?_eq_none hl] at hk; cases hk
  have hi' : i < cs.length := by
    rcases Nat.lt_or_ge i cs.length with hl | hl
    · exact hl
    · rw [List.getElem?_eq_none hl] at hk'; cases hk'
  omega

/-! ### Connecting -/

theorem connect_cases (cs : List Conn) : connect cs = cs ∧ cs ≠ [] ∨ connect cs = cs ++ [⟨[], [], false, false⟩] := by
  unfold connect
  cases h : cs.getLast? with
  | none =>
    have : cs = [] := by simpa using h
    subst this
    exact Or.inr rfl
  | some c =>
    simp only
    split
    · exact Or.inr rfl
    · exact Or.inl ⟨rfl, by intro e; subst e; cases h⟩

theorem connect_get {cs : List Conn} {i : Nat} {k : Conn} (h : (connect cs)[i]? = some k) :
    cs[i]? = some k ∨ k = ⟨[], [], false, false⟩ := by
  rcases connect_cases cs with ⟨e, _⟩ | e
  · rw [e] at h; exact Or.inl h
  · rw [e] at h
    rcases Nat.lt_or_ge i cs.length with hl | hl
    · rw [List.getElem?_append_left hl] at h; exact Or.inl h
    · rw [List.getElem?_append_right hl] at h
      have := List.mem_of_getElem? h
      exact Or.inr (List.mem_singleton.mp this)

theorem connect_pend (cs : List Conn) : pend (connect cs) = pend cs := by
  rcases connect_cases cs with ⟨e, _⟩ | e
  · rw [e]
  · rw [e, pend_append]; simp [pend]

theorem connect_length (cs : List Conn) : cs.length ≤ (connect cs).length ∧ 0 < (connect cs).length := by
  rcases connect_cases cs with ⟨e, h⟩ | e
  · rw [e]; exact ⟨Nat.le_refl _, List.length_pos_iff.mpr h⟩
  · rw [e]; simp

theorem connect_last (cs : List Conn) : ∃ k, (connect cs)[(connect cs).length - 1]? = some k := by
  have := (connect_length cs).2
  exact ⟨_, List.getElem?_eq_getElem (by omega)⟩

/-! ### Tags, and what is stored -/

/-- Facts which hold always. -/
structure Inv (s : State) : Prop where
  sentTag : ∀ (i : Nat) (k : Conn), s.conns[i]? = some k → ∀ r ∈ k.sent, r.tag < s.nextTag
  respTag : ∀ (i : Nat) (k : Conn), s.conns[i]? = some k → ∀ a ∈ k.resp, a.tag < s.nextTag
  waitTag : ∀ ids c t n, s.phase = .waiting ids c t n → t < s.nextTag
  waitSent : ∀ ids c t n, s.phase = .waiting ids c t n → ∀ (i : Nat) (k : Conn), s.conns[i]? = some k → ∀ r ∈ k.sent, r.tag = t →
    r.ids = ids
  waitResp : ∀ ids c t n, s.phase = .waiting ids c t n → ∀ (i : Nat) (k : Conn), s.conns[i]? = some k → ∀ a ∈ k.resp, a.tag = t →
    a.ids = ids
  respOk : ∀ (i : Nat) (k : Conn), s.conns[i]? = some k → ∀ a ∈ k.resp, a.ok = true → ∀ x ∈ a.ids, x ∈ s.log
  toldOk : ∀ x ∈ s.told, x ∈ s.log
  logLt : ∀ x ∈ s.log, x < s.next
  sentLt : ∀ (i : Nat) (k : Conn), s.conns[i]? = some k → ∀ r ∈ k.sent, ∀ x ∈ r.ids, x < s.next
  waitLt : ∀ ids c t n, s.phase = .waiting ids c t n → ∀ x ∈ ids, x < s.next

theorem inv_init : Inv init := by
  constructor <;> intros <;> simp_all [init]

theorem send_sent {k : Conn} {r x : Req} (h : x ∈ (k.send r).sent) : x ∈ k.sent ∨ x = r := by
  unfold Conn.send at h
  split at h
  · exact Or.inl h
  · rcases List.mem_append.mp h with h | h
    · exact Or.inl h
    · exact Or.inr (List.mem_singleton.mp h)

theorem send_resp (k : Conn) (r : Req) : (k.send r).resp = k.resp := by
  unfold Conn.send; split <;> rfl

theorem mem_range {x a n : Nat} (h : x ∈ List.range' a n) : a ≤ x ∧ x < a + n := by
  simpa using h

/-- Sending a request with a fresh tag keeps the facts about tags. -/
theorem inv_send {s : State} (h : Inv s) {cs : List Conn} {c : Nat} {ids : List Nat} {nx : Nat} {p : Phase}
    (hsub : ∀ (i : Nat) (k : Conn), cs[i]? = some k → ∃ (j : Nat) (k' : Conn), (s.conns[j]? = some k' ∨ k' = ⟨[], [], false, false⟩) ∧
      k.sent = k'.sent ∧ k.resp = k'.resp)
    (hnx : s.next ≤ nx) (hids : ∀ x ∈ ids, x < nx)
    (hp : p = .idle ∨ ∃ c' n, p = .waiting ids c' s.nextTag n) :
    Inv { s with next := nx, nextTag := s.nextTag + 1, conns := cs.modify c (·.send ⟨ids, s.nextTag⟩), phase := p } := by
  have hsent : ∀ (i : Nat) (k : Conn), (cs.modify c (·.send ⟨ids, s.nextTag⟩))[i]? = some k → ∀ r ∈ k.sent,
      r = ⟨ids, s.nextTag⟩ ∨ ∃ (j : Nat) (k' : Conn), s.conns[j]? = some k' ∧ r ∈ k'.sent := by
    intro i k hk r hr
    have old : ∀ (i : Nat) (k : Conn), cs[i]? = some k → r ∈ k.sent → ∃ (j : Nat) (k' : Conn), s.conns[j]? = some k' ∧ r ∈ k'.sent := by
      intro i k hk hr
      obtain ⟨j, k', hj, e, _⟩ := hsub i k hk
      rcases hj with hj | hj
      · exact ⟨j, k', hj, e ▸ hr⟩
      · subst hj; rw [e] at hr; cases hr
    rcases get_modify hk with ⟨_, h'⟩ | ⟨_, k0, h0, e⟩
    · exact Or.inr (old i k h' hr)
    · subst e
      rcases send_sent hr with hr | hr
      · exact Or.inr (old c k0 h0 hr)
      · exact Or.inl hr
  have hresp : ∀ (i : Nat) (k : Conn), (cs.modify c (·.send ⟨ids, s.nextTag⟩))[i]? = some k → ∀ a ∈ k.resp,
      ∃ (j : Nat) (k' : Conn), s.conns[j]? = some k' ∧ a ∈ k'.resp := by
    intro i k hk a ha
    have old : ∀ (i : Nat) (k : Conn), cs[i]? = some k → a ∈ k.resp → ∃ (j : Nat) (k' : Conn), s.conns[j]? = some k' ∧ a ∈ k'.resp := by
      intro i k hk ha
      obtain ⟨j, k', hj, _, e⟩ := hsub i k hk
      rcases hj with hj | hj
      · exact ⟨j, k', hj, e ▸ ha⟩
      · subst hj; rw [e] at ha; cases ha
    rcases get_modify hk with ⟨_, h'⟩ | ⟨_, k0, h0, e⟩
    · exact old i k h' ha
    · subst e
      rw [send_resp] at ha
      exact old c k0 h0 ha
  constructor
  · intro i k hk r hr
    rcases hsent i k hk r hr with e | ⟨j, k', h1, h2⟩
    · subst e; exact Nat.lt_succ_self _
    · exact Nat.lt_succ_of_lt (h.sentTag j k' h1 r h2)
  · intro i k hk a ha
    obtain ⟨j, k', h1, h2⟩ := hresp i k hk a ha
    exact Nat.lt_succ_of_lt (h.respTag j k' h1 a h2)
  · intro ids' c' t n hw
    rcases hp with hp | ⟨_, _, hp⟩
    · subst hp; cases hw
    · subst hp; cases hw; exact Nat.lt_succ_self _
  · intro ids' c' t n hw i k hk r hr ht
    rcases hp with hp | ⟨_, _, hp⟩
    · subst hp; cases hw
    · subst hp; cases hw
      rcases hsent i k hk r hr with e | ⟨j, k', h1, h2⟩
      · subst e; rfl
      · exact absurd ht (Nat.ne_of_lt (h.sentTag j k' h1 r h2))
  · intro ids' c' t n hw i k hk a ha ht
    rcases hp with hp | ⟨_, _, hp⟩
    · subst hp; cases hw
    · subst hp; cases hw
      obtain ⟨j, k', h1, h2⟩ := hresp i k hk a ha
      exact absurd ht (Nat.ne_of_lt (h.respTag j k' h1 a h2))
  · intro i k hk a ha
    obtain ⟨j, k', h1, h2⟩ := hresp i k hk a ha
    exact h.respOk j k' h1 a h2
  · exact h.toldOk
  · intro x hx; exact Nat.lt_of_lt_of_le (h.logLt x hx) hnx
  · intro i k hk r hr x hx
    rcases hsent i k hk r hr with e | ⟨j, k', h1, h2⟩
    · subst e; exact hids x hx
    · exact Nat.lt_of_lt_of_le (h.sentLt j k' h1 r h2 x hx) hnx
  · intro ids' c' t n hw x hx
    rcases hp with hp | ⟨_, _, hp⟩
    · subst hp; cases hw
    · subst hp; cases hw; exact hids x hx

/-- Changes which only take requests or responses away keep the facts. -/
theorem inv_less {s : State} (h : Inv s) {cs : List Conn} {nx : Nat} {p : Phase} {fl : List (List Nat)} {tl : List Nat}
    (hsub : ∀ (i : Nat) (k : Conn), cs[i]? = some k → (∀ r ∈ k.sent, ∃ (j : Nat) (k' : Conn), s.conns[j]? = some k' ∧ r ∈ k'.sent) ∧
      (∀ a ∈ k.resp, ∃ (j : Nat) (k' : Conn), s.conns[j]? = some k' ∧ a ∈ k'.resp))
    (hnx : s.next ≤ nx) (hp : p = .idle ∨ p = s.phase) (htl : ∀ x ∈ tl, x ∈ s.log) :
    Inv { s with next := nx, conns := cs, phase := p, failed := fl, told := tl } := by
  constructor
  · intro i k hk r hr
    obtain ⟨j, k', h1, h2⟩ := (hsub i k hk).1 r hr
    exact h.sentTag j k' h1 r h2
  · intro i k hk r hr
    obtain ⟨j, k', h1, h2⟩ := (hsub i k hk).2 r hr
    exact h.respTag j k' h1 r h2
  · intro ids' c' t n hw
    rcases hp with hp | hp
    · subst hp; cases hw
    · exact h.waitTag ids' c' t n (hp ▸ hw)
  · intro ids' c' t n hw i k hk r hr ht
    obtain ⟨j, k', h1, h2⟩ := (hsub i k hk).1 r hr
    rcases hp with hp | hp
    · subst hp; cases hw
    · exact h.waitSent ids' c' t n (hp ▸ hw) j k' h1 r h2 ht
  · intro ids' c' t n hw i k hk r hr ht
    obtain ⟨j, k', h1, h2⟩ := (hsub i k hk).2 r hr
    rcases hp with hp | hp
    · subst hp; cases hw
    · exact h.waitResp ids' c' t n (hp ▸ hw) j k' h1 r h2 ht
  · intro i k hk a ha
    obtain ⟨j, k', h1, h2⟩ := (hsub i k hk).2 a ha
    exact h.respOk j k' h1 a h2
  · exact htl
  · intro x hx; exact Nat.lt_of_lt_of_le (h.logLt x hx) hnx
  · intro i k hk r hr x hx
    obtain ⟨j, k', h1, h2⟩ := (hsub i k hk).1 r hr
    exact Nat.lt_of_lt_of_le (h.sentLt j k' h1 r h2 x hx) hnx
  · intro ids' c' t n hw x hx
    rcases hp with hp | hp
    · subst hp; cases hw
    · exact Nat.lt_of_lt_of_le (h.waitLt ids' c' t n (hp ▸ hw) x hx) hnx

/-- Changing one connection by taking away. -/
theorem less_modify {cs : List Conn} {c : Nat} {f : Conn → Conn}
    (hf : ∀ k, cs[c]? = some k → (∀ r ∈ (f k).sent, r ∈ k.sent) ∧ (∀ a ∈ (f k).resp, a ∈ k.resp)) :
    ∀ (i : Nat) (k : Conn), (cs.modify c f)[i]? = some k → (∀ r ∈ k.sent, ∃ (j : Nat) (k' : Conn), cs[j]? = some k' ∧ r ∈ k'.sent) ∧
      (∀ a ∈ k.resp, ∃ (j : Nat) (k' : Conn), cs[j]? = some k' ∧ a ∈ k'.resp) := by
  intro i k hk
  rcases get_modify hk with ⟨_, h'⟩ | ⟨_, k0, h0, e⟩
  · exact ⟨fun r hr => ⟨i, k, h', hr⟩, fun a ha => ⟨i, k, h', ha⟩⟩
  · subst e
    exact ⟨fun r hr => ⟨c, k0, h0, (hf k0 h0).1 r hr⟩, fun a ha => ⟨c, k0, h0, (hf k0 h0).2 a ha⟩⟩

theorem inv_step (cfg : Cfg) (s : State) (e : Ev) (h : Inv s) : Inv (step cfg s e) := by
  cases e with
  | flush n ok =>
    simp only [step]
    split
    · rename_i hp
      split
      · refine inv_send h (cs := connect s.conns) ?_ (by omega) ?_ ?_
        · intro i k hk
          exact ⟨i, k, connect_get hk, rfl, rfl⟩
        · intro x hx; exact (mem_range hx).2
        · cases cfg.atMostOnce
          · exact Or.inr ⟨_, _, rfl⟩
          · exact Or.inl rfl
      · refine inv_less h (cs := connect s.conns) (p := s.phase) ?_ (by omega) (Or.inr rfl) h.toldOk
        intro i k hk
        rcases connect_get hk with hk | hk
        · exact ⟨fun r hr => ⟨i, k, hk, hr⟩, fun a ha => ⟨i, k, hk, ha⟩⟩
        · subst hk; exact ⟨fun r hr => (by cases hr), fun r hr => (by cases hr)⟩
    · exact h
  | serve c good =>
    simp only [step]
    split
    · rename_i r rest resp stale dead hc
      rw [set_modify hc]
      have hsent : ∀ (i : Nat) (k : Conn), (s.conns.modify c fun _ => ⟨rest, resp ++ [⟨r.tag, r.ids, good⟩], stale, dead⟩)[i]? = some k →
          ∀ x ∈ k.sent, ∃ (j : Nat) (k' : Conn), s.conns[j]? = some k' ∧ x ∈ k'.sent := by
        intro i k hk x hx
        rcases get_modify hk with ⟨_, h'⟩ | ⟨_, k0, h0, e⟩
        · exact ⟨i, k, h', hx⟩
        · subst e; exact ⟨c, _, hc, List.mem_cons_of_mem _ hx⟩
      have hresp : ∀ (i : Nat) (k : Conn), (s.conns.modify c fun _ => ⟨rest, resp ++ [⟨r.tag, r.ids, good⟩], stale, dead⟩)[i]? = some k →
          ∀ a ∈ k.resp, (∃ (j : Nat) (k' : Conn), s.conns[j]? = some k' ∧ a ∈ k'.resp) ∨ a = ⟨r.tag, r.ids, good⟩ := by
        intro i k hk x hx
        rcases get_modify hk with ⟨_, h'⟩ | ⟨_, k0, h0, e⟩
        · exact Or.inl ⟨i, k, h', hx⟩
        · subst e
          rcases List.mem_append.mp hx with hx | hx
          · exact Or.inl ⟨c, _, hc, hx⟩
          · exact Or.inr (List.mem_singleton.mp hx)
      have hlog : ∀ x, x ∈ s.log → x ∈ (if good then s.log ++ r.ids else s.log) := by
        intro x hx; split
        · exact List.mem_append_left _ hx
        · exact hx
      have hr : r ∈ (⟨r :: rest, resp, stale, dead⟩ : Conn).sent := by simp
      constructor
      · intro i k hk x hx
        obtain ⟨j, k', h1, h2⟩ := hsent i k hk x hx
        exact h.sentTag j k' h1 x h2
      · intro i k hk a ha
        rcases hresp i k hk a ha with ⟨j, k', h1, h2⟩ | e
        · exact h.respTag j k' h1 a h2
        · subst e; exact h.sentTag c _ hc r hr
      · exact h.waitTag
      · intro ids c' t n hw i k hk x hx ht
        obtain ⟨j, k', h1, h2⟩ := hsent i k hk x hx
        exact h.waitSent ids c' t n hw j k' h1 x h2 ht
      · intro ids c' t n hw i k hk a ha ht
        rcases hresp i k hk a ha with ⟨j, k', h1, h2⟩ | e
        · exact h.waitResp ids c' t n hw j k' h1 a h2 ht
        · subst e; exact h.waitSent ids c' t n hw c _ hc r hr ht
      · intro i k hk a ha hok x hx
        rcases hresp i k hk a ha with ⟨j, k', h1, h2⟩ | e
        · exact hlog x (h.respOk j k' h1 a h2 hok x hx)
        · subst e
          simp only at hok
          subst hok
          exact List.mem_append_right _ hx
      · intro x hx; exact hlog x (h.toldOk x hx)
      · intro x hx
        simp only at hx
        split at hx
        · rcases List.mem_append.mp hx with hx | hx
          · exact h.logLt x hx
          · exact h.sentLt c _ hc r hr x hx
        · exact h.logLt x hx
      · intro i k hk x hx
        obtain ⟨j, k', h1, h2⟩ := hsent i k hk x hx
        exact h.sentLt j k' h1 x h2
      · exact h.waitLt
    · exact h
  | deliver c =>
    simp only [step]
    split
    · rename_i sent a rest stale dead hc
      have hsub := less_modify (cs := s.conns) (c := c) (f := fun _ => ⟨sent, rest, stale, dead⟩) (by
        intro k hk
        rw [hc] at hk; cases hk
        exact ⟨fun r hr => hr, fun a ha => List.mem_cons_of_mem _ ha⟩)
      rw [← set_modify hc] at hsub
      have ha : a ∈ (⟨sent, a :: rest, stale, dead⟩ : Conn).resp := by simp
      split
      · split
        · rename_i hok
          refine inv_less h (fl := s.failed) hsub (Nat.le_refl _) (Or.inr rfl) ?_
          intro x hx
          rcases List.mem_append.mp hx with hx | hx
          · exact h.toldOk x hx
          · exact h.respOk c _ hc a ha hok x hx
        · exact inv_less h hsub (Nat.le_refl _) (Or.inr rfl) h.toldOk
      · split
        · rename_i ids c' tag n hp
          split
          · rename_i ht
            split
            · rename_i hok
              refine inv_less h (fl := s.failed) hsub (Nat.le_refl _) (Or.inl rfl) ?_
              intro x hx
              rcases List.mem_append.mp hx with hx | hx
              · exact h.toldOk x hx
              · have := h.waitResp ids c' tag n hp c _ hc a ha ht.2
                exact h.respOk c _ hc a ha hok x (this ▸ hx)
            · exact inv_less h hsub (Nat.le_refl _) (Or.inl rfl) h.toldOk
          · exact inv_less h hsub (Nat.le_refl _) (Or.inr rfl) h.toldOk
        · exact inv_less h hsub (Nat.le_refl _) (Or.inr rfl) h.toldOk
    · exact h
  | timeout =>
    simp only [step]
    split
    · rename_i ids c tag retries hp
      split
      · refine inv_less h (less_modify ?_) (Nat.le_refl _) (Or.inl rfl) h.toldOk
        intro k _; exact ⟨fun r hr => hr, fun a ha => ha⟩
      · rename_i k
        refine inv_send h (cs := s.conns.modify c fun x => { x with stale := true }) (nx := s.next) ?_ (Nat.le_refl _)
          (h.waitLt ids c tag _ hp) (Or.inr ⟨_, _, rfl⟩)
        intro i k hk
        rcases get_modify hk with ⟨_, h'⟩ | ⟨_, k0, h0, e⟩
        · exact ⟨i, k, Or.inl h', rfl, rfl⟩
        · subst e; exact ⟨c, k0, Or.inl h0, rfl, rfl⟩
    · exact h
  | giveUp =>
    simp only [step]
    split
    · refine inv_less h ?_ (Nat.le_refl _) (Or.inl rfl) h.toldOk
      intro i k hk
      exact ⟨fun r hr => ⟨i, k, hk, hr⟩, fun a ha => ⟨i, k, hk, ha⟩⟩
    · exact h
  | lose c k =>
    refine inv_less h (fl := s.failed) (less_modify ?_) (Nat.le_refl _) (Or.inr rfl) h.toldOk
    intro x _; exact ⟨fun r hr => List.mem_of_mem_take hr, fun a ha => ha⟩
  | notice c =>
    refine inv_less h (fl := s.failed) (less_modify ?_) (Nat.le_refl _) (Or.inr rfl) h.toldOk
    intro x _; exact ⟨fun r hr => hr, fun a ha => ha⟩

theorem inv_run (cfg : Cfg) (es : List Ev) : Inv (run cfg init es) :=
  run_inv Inv (inv_step cfg) init inv_init es

end Verif.Producer.Delivery
