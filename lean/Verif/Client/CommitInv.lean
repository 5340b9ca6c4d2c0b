import Verif.Client.Commit

/-!
# Invariants of committing
-/

namespace Verif.Client

theorem max_snoc (l : List Int) (o : Int) (ho : -1 ≤ o) :
    (l ++ [o]).max? = some (max (l.max?.getD (-1)) o) := by
  cases l with
  | nil => simp; omega
  | cons a l =>
    rw [List.cons_append, List.max?_cons', List.max?_cons', List.foldl_append]
    rfl

theorem max_getD_mem {l : List Int} {v : Int} (h : l.max? = some v) : v ∈ l := List.max?_mem h

/-- What holds with both strategies. -/
structure Sess (init : Option Int) (t : Told) (s : Session) : Prop where
  seen : s.loc.seen = t.given.max?.getD (-1)
  pos : ∀ o ∈ t.given, 0 ≤ o
  com : s.loc.committed = t.last.getD (-1)
  comle : s.loc.committed ≤ s.loc.seen
  flu : s.loc.flushed ≤ s.loc.committed
  flu0 : -1 ≤ s.loc.flushed
  last : ∀ v, t.last = some v → v ∈ t.all
  que : ∀ m ∈ s.queue, m.offset ∈ t.all
  sto : s.stored = init ∨ ∃ v ∈ t.all, s.stored = some v

theorem Sess.start (m : Mode) (init : Option Int) : Sess init Told.start (Session.start m init) :=
  ⟨rfl, by simp [Told.start], rfl, by simp [Session.start, LocalStore.new],
    by simp [Session.start, LocalStore.new], by simp [Session.start, LocalStore.new],
    by simp [Told.start], by simp [Session.start], .inl rfl⟩

/-- A commit. -/
theorem Sess.commit {init : Option Int} {t : Told} {s : Session} (h : Sess init t s) :
    Sess init t.commit { s with loc := s.loc.commit } := by
  obtain ⟨h1, h2, h3, h4, h5, h6, h7, h8, h9⟩ := h
  unfold Told.commit
  cases hm : t.given.max? with
  | none =>
    have hs : s.loc.seen = -1 := by rw [h1, hm]; rfl
    have hc : s.loc.committed = -1 := by omega
    refine ⟨h1, h2, ?_, Int.le_refl _, ?_, h6, h7, h8, h9⟩
    · show s.loc.seen = t.last.getD (-1); omega
    · show s.loc.flushed ≤ s.loc.seen; omega
  | some v =>
    have hs : s.loc.seen = v := by rw [h1, hm]; rfl
    refine ⟨?_, h2, ?_, Int.le_refl _, ?_, h6, ?_, ?_, ?_⟩
    · exact h1
    · exact hs
    · show s.loc.flushed ≤ s.loc.seen; omega
    · intro w hw
      have : v = w := Option.some.inj hw
      simp [this]
    · intro m hmq
      simp [h8 m hmq]
    · rcases h9 with h9 | ⟨w, hw, h9⟩
      · exact .inl h9
      · exact .inr ⟨w, by simp [hw], h9⟩

theorem Sess.update {init : Option Int} {t : Told} {s : Session} (h : Sess init t s) {o : Int}
    (ho : 0 ≤ o) : Sess init { t with given := t.given ++ [o] } { s with loc := s.loc.update o } := by
  obtain ⟨h1, h2, h3, h4, h5, h6, h7, h8, h9⟩ := h
  refine ⟨?_, ?_, h3, ?_, h5, h6, h7, h8, h9⟩
  · show max s.loc.seen o = _
    rw [max_snoc _ _ (by omega), h1]; rfl
  · intro x hx
    rcases List.mem_append.1 hx with hx | hx
    · exact h2 x hx
    · rw [List.mem_singleton.1 hx]; exact ho
  · show s.loc.committed ≤ max s.loc.seen o
    omega

theorem Sess.tryFlush {init : Option Int} {t : Told} {s : Session} (h : Sess init t s) (room : Bool) :
    Sess init t (s.tryFlush room) := by
  unfold Session.tryFlush
  split
  · exact h
  · rename_i hlt
    split
    · obtain ⟨h1, h2, h3, h4, h5, h6, h7, h8, h9⟩ := h
      refine ⟨h1, h2, h3, h4, Int.le_refl _, ?_, h7, ?_, h9⟩
      · show -1 ≤ s.loc.committed; omega
      · intro m hm
        rcases List.mem_append.1 hm with hm | hm
        · exact h8 m hm
        · rw [List.mem_singleton.1 hm]
          show s.loc.committed ∈ _
          cases hl : t.last with
          | none => rw [hl] at h3; simp at h3; omega
          | some v => rw [hl] at h3; simp at h3; rw [h3]; exact h7 v hl
    · exact h

theorem Sess.step {init : Option Int} {t : Told} {s : Session} (h : Sess init t s) (e : CmEv)
    (hp : e.Possible s) : Sess init (t.step s.mode e) (s.step e).1 := by
  cases e with
  | deliver o tick room =>
    obtain ⟨hw, ho⟩ := hp
    have hn : ¬ s.waiting ≠ .no := by simp [hw]
    have hu := h.update ho
    unfold Session.step Told.step
    dsimp only
    rw [if_neg hn]
    cases hm : s.mode with
    | manual => rw [hm] at hu; simpa using hu
    | auto =>
      simp only [if_pos]
      have hc : Sess init ({ t with given := t.given ++ [o] } : Told).commit
          { s with loc := (s.loc.update o).commit } := hu.commit
      rw [hm] at hc
      split
      · exact hc.tryFlush room
      · exact hc
  | commit =>
    have hn : ¬ s.waiting ≠ .no := fun hc => hc hp
    unfold Session.step Told.step
    dsimp only
    rw [if_neg hn]
    exact h.commit
  | flush =>
    have hn : ¬ s.waiting ≠ .no := fun hc => hc hp
    unfold Session.step Told.step
    dsimp only
    rw [if_neg hn]
    split
    · exact h
    · rename_i hlt
      split
      · exact h
      · obtain ⟨h1, h2, h3, h4, h5, h6, h7, h8, h9⟩ := h
        refine ⟨h1, h2, h3, h4, h5, h6, h7, ?_, h9⟩
        intro m hm
        rcases List.mem_append.1 hm with hm | hm
        · exact h8 m hm
        · rw [List.mem_singleton.1 hm]
          show s.loc.committed ∈ _
          cases hl : t.last with
          | none => rw [hl] at h3; simp at h3; omega
          | some v => rw [hl] at h3; simp at h3; rw [h3]; exact h7 v hl
  | flushed =>
    obtain ⟨h1, h2, h3, h4, h5, h6, h7, h8, h9⟩ := h
    unfold Session.step Told.step
    dsimp only
    split
    · exact ⟨h1, h2, h3, h4, Int.le_refl _, by show -1 ≤ s.loc.committed; omega, h7, h8, h9⟩
    · exact ⟨h1, h2, h3, h4, h5, h6, h7, h8, h9⟩
    · exact ⟨h1, h2, h3, h4, h5, h6, h7, h8, h9⟩
  | cancel =>
    obtain ⟨h1, h2, h3, h4, h5, h6, h7, h8, h9⟩ := h
    refine ⟨h1, h2, h3, h4, h5, h6, h7, ?_, h9⟩
    intro m hm
    obtain ⟨m', hm', rfl⟩ := List.mem_map.1 hm
    exact h8 m' hm'
  | auto room =>
    unfold Session.step Told.step
    dsimp only
    split
    · exact h.tryFlush room
    · exact h
  | dropped room =>
    have hn : ¬ s.waiting ≠ .no := fun hc => hc hp
    unfold Session.step Told.step
    dsimp only
    rw [if_neg hn]
    split
    · exact h.commit.tryFlush room
    · exact h
  | serve w =>
    unfold Session.step Told.step
    dsimp only
    split
    · exact h
    · split
      · exact h
      · rename_i m q hq
        obtain ⟨h1, h2, h3, h4, h5, h6, h7, h8, h9⟩ := h
        refine ⟨h1, h2, h3, h4, h5, h6, h7, ?_, ?_⟩
        · intro x hx
          dsimp only at hx
          split at hx
          · cases hx
          · exact h8 x (by rw [hq]; simp [hx])
        · dsimp only
          split
          · exact .inr ⟨m.offset, h8 m (by rw [hq]; simp), rfl⟩
          · exact h9
  | closed =>
    unfold Session.step Told.step
    dsimp only
    obtain ⟨h1, h2, h3, h4, h5, h6, h7, h8, h9⟩ := h
    split
    · exact ⟨h1, h2, h3, h4, h5, h6, h7, h8, h9⟩
    · exact ⟨h1, h2, h3, h4, h5, h6, h7, h8, h9⟩
  | reconnect =>
    have hn : ¬ s.waiting ≠ .no := fun hc => hc hp
    unfold Session.step Told.step
    dsimp only
    rw [if_neg hn]
    exact ⟨rfl, by simp, rfl, by simp [Session.start, LocalStore.new],
      by simp [Session.start, LocalStore.new], by simp [Session.start, LocalStore.new],
      by simp, by simp [Session.start], h.sto⟩

theorem tryFlush_mode (s : Session) (room : Bool) : (s.tryFlush room).mode = s.mode := by
  unfold Session.tryFlush
  split
  · rfl
  · split <;> rfl

theorem step_mode (s : Session) (e : CmEv) : (s.step e).1.mode = s.mode := by
  cases e <;> unfold Session.step <;> dsimp only
  case deliver o tick room =>
    split
    · rfl
    · split
      · rename_i h; rfl
      · rename_i h; split
        · rw [tryFlush_mode]
        · rfl
  case commit => split <;> rfl
  case flush => repeat' split
                all_goals rfl
  case flushed => split <;> rfl
  case auto room =>
    split
    · rw [tryFlush_mode]
    · rfl
  case dropped room =>
    repeat' split
    · rfl
    · rw [tryFlush_mode]
    · rfl
  case serve w => repeat' split
                  all_goals rfl
  case closed => split <;> rfl
  case reconnect => split <;> rfl

theorem Sess.run {init : Option Int} : ∀ (es : List CmEv) {t : Told} {s : Session}, Sess init t s →
    PossibleAll s es → Sess init (t.run s.mode es) (s.run es)
  | [], _, _, h, _ => h
  | e :: es, t, s, h, hp => by
    have := Sess.run es (h.step e hp.1) hp.2
    rw [step_mode] at this
    exact this

/-- Commits are of records given. -/
def Told.Ok (D : List Int) (t : Told) : Prop := (∀ o ∈ t.given, o ∈ D) ∧ ∀ o ∈ t.all, o ∈ D

theorem Told.Ok.commit {D : List Int} {t : Told} (h : t.Ok D) : t.commit.Ok D := by
  unfold Told.commit
  split
  · exact h
  · rename_i v hv
    refine ⟨h.1, ?_⟩
    intro o ho
    rcases List.mem_append.1 ho with ho | ho
    · exact h.2 o ho
    · rw [List.mem_singleton.1 ho]; exact h.1 v (max_getD_mem hv)

/-- The offsets of the records delivered. -/
def delivered : List CmEv → List Int
  | [] => []
  | .deliver o _ _ :: es => o :: delivered es
  | _ :: es => delivered es

theorem Told.Ok.run (m : Mode) (D : List Int) : ∀ (es : List CmEv) (t : Told), t.Ok D →
    (∀ o ∈ delivered es, o ∈ D) → (t.run m es).Ok D
  | [], _, h, _ => h
  | e :: es, t, h, hd => by
    have hstep : (t.step m e).Ok D ∧ (∀ o ∈ delivered es, o ∈ D) := by
      cases e with
      | deliver o tick room =>
        have hd' : o ∈ D ∧ ∀ x ∈ delivered es, x ∈ D :=
          ⟨hd o (by simp [delivered]), fun x hx => hd x (by simp [delivered, hx])⟩
        refine ⟨?_, hd'.2⟩
        have hg : ({ t with given := t.given ++ [o] } : Told).Ok D := by
          refine ⟨?_, h.2⟩
          intro x hx
          rcases List.mem_append.1 hx with hx | hx
          · exact h.1 x hx
          · rw [List.mem_singleton.1 hx]; exact hd'.1
        unfold Told.step
        dsimp only
        split
        · exact hg.commit
        · exact hg
      | commit => exact ⟨h.commit, hd⟩
      | dropped r =>
        refine ⟨?_, hd⟩
        unfold Told.step
        dsimp only
        split
        · exact h.commit
        · exact h
      | reconnect => exact ⟨⟨nofun, h.2⟩, hd⟩
      | flush => exact ⟨h, hd⟩
      | flushed => exact ⟨h, hd⟩
      | cancel => exact ⟨h, hd⟩
      | auto r => exact ⟨h, hd⟩
      | serve w => exact ⟨h, hd⟩
      | closed => exact ⟨h, hd⟩
    exact Told.Ok.run m D es _ hstep.1 hstep.2

/-! ## The stored offset does not decrease -/

/-- Everything on its way to the server lies between the stored offset and the last commit. -/
structure Rising (top : Int) (s : Session) : Prop where
  seen : s.loc.seen ≤ top
  top0 : -1 ≤ top
  com : s.loc.committed ≤ s.loc.seen
  flu : -1 ≤ s.loc.flushed
  que : ∀ m ∈ s.queue, m.offset ≤ s.loc.committed
  sorted : s.queue.Pairwise fun a b => a.offset ≤ b.offset
  sto : ∀ a, s.stored = some a → a ≤ top ∧ (s.loc.committed ≠ -1 → a ≤ s.loc.committed) ∧
    (s.loc.seen ≠ -1 → a ≤ s.loc.seen) ∧ ∀ m ∈ s.queue, a ≤ m.offset
  com0 : -1 ≤ s.loc.committed

theorem Rising.commit {top : Int} {s : Session} (h : Rising top s) :
    Rising top { s with loc := s.loc.commit } := by
  obtain ⟨h1, h2, h3, h4, h5, h6, h7, h8⟩ := h
  refine ⟨h1, h2, Int.le_refl _, h4, ?_, h6, ?_, ?_⟩
  · intro m hm
    have := h5 m hm
    show m.offset ≤ s.loc.seen
    omega
  · intro a ha
    obtain ⟨k1, k2, k3, k4⟩ := h7 a ha
    exact ⟨k1, k3, k3, k4⟩
  · show -1 ≤ s.loc.seen; omega

theorem Rising.update {top : Int} {s : Session} (h : Rising top s) {o : Int} (ho : top < o) :
    Rising o { s with loc := s.loc.update o } := by
  obtain ⟨h1, h2, h3, h4, h5, h6, h7, h8⟩ := h
  refine ⟨?_, by omega, ?_, h4, h5, h6, ?_, h8⟩
  · show max s.loc.seen o ≤ o; omega
  · show s.loc.committed ≤ max s.loc.seen o; omega
  · intro a ha
    obtain ⟨k1, k2, k3, k4⟩ := h7 a ha
    refine ⟨by omega, k2, ?_, k4⟩
    intro _
    show a ≤ max s.loc.seen o
    omega

theorem Rising.enqueue {top : Int} {s : Session} (h : Rising top s) (hne : s.loc.committed ≠ -1)
    (b : Bool) (l : LocalStore) (hl : l.seen = s.loc.seen ∧ l.committed = s.loc.committed ∧ -1 ≤ l.flushed)
    (w : Waiting) :
    Rising top { s with queue := s.queue ++ [⟨s.loc.committed, b⟩], loc := l, waiting := w } := by
  obtain ⟨h1, h2, h3, h4, h5, h6, h7, h8⟩ := h
  obtain ⟨l1, l2, l3⟩ := hl
  have mem : ∀ m : FlushMsg, m ∈ s.queue ++ [⟨s.loc.committed, b⟩] → m ∈ s.queue ∨
      m = ⟨s.loc.committed, b⟩ := by
    intro m hm
    rcases List.mem_append.1 hm with hm | hm
    · exact .inl hm
    · exact .inr (List.mem_singleton.1 hm)
  refine ⟨?_, h2, ?_, l3, ?_, ?_, ?_, ?_⟩
  · show l.seen ≤ top; rw [l1]; exact h1
  · show l.committed ≤ l.seen; rw [l1, l2]; exact h3
  · intro m hm
    show m.offset ≤ l.committed
    rw [l2]
    rcases mem m hm with hm | rfl
    · exact h5 m hm
    · exact Int.le_refl _
  · show (s.queue ++ [_]).Pairwise _
    rw [List.pairwise_append]
    refine ⟨h6, List.pairwise_singleton _ _, ?_⟩
    intro x hx y hy
    rw [List.mem_singleton.1 hy]
    exact h5 x hx
  · intro a ha
    obtain ⟨k1, k2, k3, k4⟩ := h7 a ha
    refine ⟨k1, ?_, ?_, ?_⟩
    · show l.committed ≠ -1 → a ≤ l.committed; rw [l2]; exact k2
    · show l.seen ≠ -1 → a ≤ l.seen; rw [l1]; exact k3
    · intro m hm
      rcases mem m hm with hm | rfl
      · exact k4 m hm
      · exact k2 hne
  · show -1 ≤ l.committed; rw [l2]; exact h8

theorem Rising.tryFlush {top : Int} {s : Session} (h : Rising top s) (room : Bool) :
    Rising top (s.tryFlush room) := by
  unfold Session.tryFlush
  split
  · exact h
  · rename_i hlt
    have := h.flu
    split
    · exact h.enqueue (by omega) false { s.loc with flushed := s.loc.committed }
        ⟨rfl, rfl, by show -1 ≤ s.loc.committed; exact h.com0⟩ s.waiting
    · exact h

/-- Records that are still to come lie above `top`. -/
def Above (top : Int) (es : List CmEv) : Prop :=
  (∀ o ∈ delivered es, top < o) ∧ (delivered es).Pairwise (· < ·)

/-- The largest offset delivered so far. -/
def raise (top : Int) : CmEv → Int
  | .deliver o _ _ => o
  | _ => top

theorem Above.step {top : Int} {e : CmEv} {es : List CmEv} (h : Above top (e :: es)) :
    Above (raise top e) es := by
  cases e with
  | deliver o tick room =>
    obtain ⟨h1, h2⟩ := h
    unfold delivered at h1 h2
    rw [List.pairwise_cons] at h2
    exact ⟨h2.1, h2.2⟩
  | _ => exact h

theorem Rising.step {top : Int} {s : Session} (h : Rising top s) (e : CmEv) (es : List CmEv)
    (hp : e.Possible s) (ha : Above top (e :: es)) :
    Rising (raise top e) (s.step e).1 ∧
      (∀ a, s.stored = some a → ∃ b, (s.step e).1.stored = some b ∧ a ≤ b) := by
  have keep : ∀ a : Int, s.stored = some a → ∃ b, s.stored = some b ∧ a ≤ b :=
    fun a h => ⟨a, h, Int.le_refl _⟩
  have stf : ∀ (u : Session) r, (u.tryFlush r).stored = u.stored := by
    intro u r
    unfold Session.tryFlush
    split
    · rfl
    · split <;> rfl
  cases e with
  | deliver o tick room =>
    have hn : ¬ s.waiting ≠ .no := by simp [hp.1]
    have ho : top < o := ha.1 o (by simp [delivered])
    have hu := h.update ho
    unfold Session.step raise
    dsimp only
    rw [if_neg hn]
    cases hm : s.mode with
    | manual => rw [hm] at hu; exact ⟨hu, keep⟩
    | auto =>
      have hc : Rising o { s with loc := (s.loc.update o).commit } := hu.commit
      rw [hm] at hc
      dsimp only
      split
      · exact ⟨hc.tryFlush room, by rw [stf]; exact keep⟩
      · exact ⟨hc, keep⟩
  | commit =>
    have hn : ¬ s.waiting ≠ .no := fun hc => hc hp
    unfold Session.step raise
    dsimp only
    rw [if_neg hn]
    exact ⟨h.commit, keep⟩
  | flush =>
    have hn : ¬ s.waiting ≠ .no := fun hc => hc hp
    unfold Session.step raise
    dsimp only
    rw [if_neg hn]
    split
    · exact ⟨h, keep⟩
    · rename_i hlt
      have := h.flu
      split
      · exact ⟨h, keep⟩
      · exact ⟨h.enqueue (by omega) true s.loc ⟨rfl, rfl, h.flu⟩ .answer, keep⟩
  | flushed =>
    obtain ⟨h1, h2, h3, h4, h5, h6, h7, h8⟩ := h
    unfold Session.step raise
    dsimp only
    split
    · exact ⟨⟨h1, h2, h3, h8, h5, h6, h7, h8⟩, keep⟩
    · exact ⟨⟨h1, h2, h3, h4, h5, h6, h7, h8⟩, keep⟩
    · exact ⟨⟨h1, h2, h3, h4, h5, h6, h7, h8⟩, keep⟩
  | cancel =>
    obtain ⟨h1, h2, h3, h4, h5, h6, h7, h8⟩ := h
    refine ⟨⟨h1, h2, h3, h4, ?_, ?_, ?_, h8⟩, keep⟩
    · intro m hm
      obtain ⟨m', hm', rfl⟩ := List.mem_map.1 hm
      exact h5 m' hm'
    · show (s.queue.map _).Pairwise _
      rw [List.pairwise_map]
      exact h6
    · intro a ha
      obtain ⟨k1, k2, k3, k4⟩ := h7 a ha
      refine ⟨k1, k2, k3, ?_⟩
      intro m hm
      obtain ⟨m', hm', rfl⟩ := List.mem_map.1 hm
      exact k4 m' hm'
  | auto room =>
    unfold Session.step raise
    dsimp only
    split
    · exact ⟨h.tryFlush room, by rw [stf]; exact keep⟩
    · exact ⟨h, keep⟩
  | dropped room =>
    have hn : ¬ s.waiting ≠ .no := fun hc => hc hp
    unfold Session.step raise
    dsimp only
    rw [if_neg hn]
    split
    · exact ⟨h.commit.tryFlush room, by rw [stf]; exact keep⟩
    · exact ⟨h, keep⟩
  | serve w =>
    unfold Session.step raise
    dsimp only
    split
    · exact ⟨h, keep⟩
    · split
      · exact ⟨h, keep⟩
      · rename_i m q hq
        obtain ⟨h1, h2, h3, h4, h5, h6, h7, h8⟩ := h
        rw [hq] at h5 h6 h7
        rw [List.pairwise_cons] at h6
        have hm := h5 m (by simp)
        refine ⟨⟨h1, h2, h3, h4, ?_, ?_, ?_, h8⟩, ?_⟩
        · intro x hx
          dsimp only at hx
          split at hx
          · cases hx
          · exact h5 x (by simp [hx])
        · dsimp only
          split
          · exact List.Pairwise.nil
          · exact h6.2
        · intro a ha
          dsimp only at ha ⊢
          have hqq : ∀ x ∈ (if w.breaks = true then [] else q), x ∈ q := by
            intro x hx
            split at hx
            · cases hx
            · exact hx
          split at ha
          · have : m.offset = a := Option.some.inj ha
            subst this
            exact ⟨by omega, fun _ => hm, fun _ => by omega, fun x hx => h6.1 x (hqq x hx)⟩
          · obtain ⟨k1, k2, k3, k4⟩ := h7 a ha
            exact ⟨k1, k2, k3, fun x hx => k4 x (by simp [hqq x hx])⟩
        · intro a ha
          dsimp only
          split
          · exact ⟨m.offset, rfl, (h7 a ha).2.2.2 m (by simp)⟩
          · exact ⟨a, ha, Int.le_refl _⟩
  | closed =>
    unfold Session.step raise
    dsimp only
    obtain ⟨h1, h2, h3, h4, h5, h6, h7, h8⟩ := h
    split
    · exact ⟨⟨h1, h2, h3, h4, h5, h6, h7, h8⟩, keep⟩
    · exact ⟨⟨h1, h2, h3, h4, h5, h6, h7, h8⟩, keep⟩
  | reconnect =>
    have hn : ¬ s.waiting ≠ .no := fun hc => hc hp
    unfold Session.step raise
    dsimp only
    rw [if_neg hn]
    refine ⟨⟨h.top0, h.top0, Int.le_refl _, Int.le_refl _, by simp [Session.start],
      List.Pairwise.nil, ?_, Int.le_refl _⟩, keep⟩
    intro a ha
    exact ⟨(h.sto a ha).1, by simp [Session.start, LocalStore.new],
      by simp [Session.start, LocalStore.new], by simp [Session.start]⟩

theorem Rising.run : ∀ (es : List CmEv) {top : Int} {s : Session}, Rising top s → PossibleAll s es →
    Above top es → ∀ a, s.stored = some a → ∃ b, (s.run es).stored = some b ∧ a ≤ b
  | [], _, _, _, _, _, a, h => ⟨a, h, Int.le_refl _⟩
  | e :: es, top, s, h, hp, ha, a, hst => by
    obtain ⟨h1, h2⟩ := h.step e es hp.1 ha
    obtain ⟨b, hb, hab⟩ := h2 a hst
    obtain ⟨c, hc, hbc⟩ := Rising.run es h1 hp.2 ha.step b hb
    exact ⟨c, hc, by omega⟩

theorem Rising.after : ∀ (es es' : List CmEv) {top : Int} {s : Session}, Rising top s →
    PossibleAll s (es ++ es') → Above top (es ++ es') →
    ∃ top', Rising top' (s.run es) ∧ PossibleAll (s.run es) es' ∧ Above top' es'
  | [], _, top, _, h, hp, ha => ⟨top, h, hp, ha⟩
  | e :: es, es', _, _, h, hp, ha =>
    Rising.after es es' (h.step e (es ++ es') hp.1 ha).1 hp.2 ha.step

/-! ## Flushing with explicit commits -/

structure Flushing (s : Session) : Prop where
  manual : s.mode = .manual
  k1 : s.loc.flushed = s.loc.committed → s.loc.committed ≠ -1 →
    s.stored = some s.loc.committed ∧ s.queue = []
  k2 : s.waiting = .no → ∀ m ∈ s.queue, m.answer = false
  k3 : s.waiting = .answer → s.queue = [] ∨
    ∃ q, s.queue = q ++ [⟨s.loc.committed, true⟩] ∧ ∀ m ∈ q, m.answer = false
  k4 : s.waiting = .got true → s.stored = some s.loc.committed
  k5 : ∀ b, s.waiting = .got b → s.queue = []
  k6 : s.waiting ≠ .no → s.loc.flushed < s.loc.committed

theorem Flushing.step {init : Option Int} {t : Told} {s : Session} (hs : Sess init t s)
    (h : Flushing s) (e : CmEv) (hp : e.Possible s) :
    Flushing (s.step e).1 ∧ ((s.step e).2 = some true → s.loc.committed ≠ -1 →
      (s.step e).1.stored = some s.loc.committed) := by
  obtain ⟨h0, k1, k2, k3, k4, k5, k6⟩ := h
  have hno : ¬ s.mode = .auto := by rw [h0]; simp
  cases e with
  | deliver o tick room =>
    have hn : ¬ s.waiting ≠ .no := by simp [hp.1]
    unfold Session.step
    dsimp only
    rw [if_neg hn, h0]
    exact ⟨⟨rfl, k1, k2, k3, k4, k5, k6⟩, by simp⟩
  | commit =>
    have hw : s.waiting = .no := hp
    have hn : ¬ s.waiting ≠ .no := fun hc => hc hp
    unfold Session.step
    dsimp only
    rw [if_neg hn]
    refine ⟨⟨h0, ?_, k2, ?_, ?_, k5, ?_⟩, by simp⟩
    · intro hf hne
      have hf' : s.loc.flushed = s.loc.seen := hf
      have := hs.comle
      have := hs.flu
      have he : s.loc.committed = s.loc.seen := by omega
      have hne' : s.loc.seen ≠ -1 := hne
      obtain ⟨q1, q2⟩ := k1 (by omega) (by omega)
      exact ⟨by show s.stored = some s.loc.seen; rw [q1, he], q2⟩
    · intro hw'; rw [show s.waiting = Waiting.answer from hw'] at hw; cases hw
    · intro hw'; rw [show s.waiting = Waiting.got true from hw'] at hw; cases hw
    · intro hw'; exact absurd hw hw'
  | flush =>
    have hw : s.waiting = .no := hp
    have hn : ¬ s.waiting ≠ .no := fun hc => hc hp
    have hfl := hs.flu
    unfold Session.step
    dsimp only
    rw [if_neg hn]
    split
    · exact ⟨⟨h0, k1, k2, k3, k4, k5, k6⟩, fun _ hne => (k1 (by omega) hne).1⟩
    · split
      · exact ⟨⟨h0, k1, k2, k3, k4, k5, k6⟩, by simp⟩
      · refine ⟨⟨h0, ?_, by simp, fun _ => .inr ⟨s.queue, rfl, k2 hw⟩, by simp, by simp, ?_⟩, by simp⟩
        · intro hf; exfalso; dsimp only at hf; omega
        · intro _; show s.loc.flushed < s.loc.committed; omega
  | flushed =>
    unfold Session.step
    dsimp only
    split
    · rename_i hw
      refine ⟨⟨h0, ?_, ?_, by simp, by simp, by simp, by simp⟩, fun _ _ => k4 hw⟩
      · intro _ _; exact ⟨k4 hw, k5 _ hw⟩
      · intro _ m hm
        have : s.queue = [] := k5 _ hw
        rw [show m ∈ s.queue ↔ m ∈ ([] : List FlushMsg) by rw [this]] at hm
        cases hm
    · rename_i hw
      refine ⟨⟨h0, ?_, ?_, by simp, by simp, by simp, by simp⟩, by simp⟩
      · exact k1
      · intro _ m hm
        have : s.queue = [] := k5 _ hw
        rw [show m ∈ s.queue ↔ m ∈ ([] : List FlushMsg) by rw [this]] at hm
        cases hm
    · exact ⟨⟨h0, k1, k2, k3, k4, k5, k6⟩, by simp⟩
  | cancel =>
    unfold Session.step
    dsimp only
    refine ⟨⟨h0, ?_, ?_, by simp, by simp, by simp, by simp⟩, by simp⟩
    · intro hf hne
      obtain ⟨q1, q2⟩ := k1 hf hne
      exact ⟨q1, by show s.queue.map _ = []; rw [q2]; rfl⟩
    · intro _ m hm
      obtain ⟨m', _, rfl⟩ := List.mem_map.1 hm
      rfl
  | auto room =>
    unfold Session.step
    dsimp only
    rw [if_neg hno]
    exact ⟨⟨h0, k1, k2, k3, k4, k5, k6⟩, by simp⟩
  | dropped room =>
    unfold Session.step
    dsimp only
    rw [if_neg hno]
    split <;> exact ⟨⟨h0, k1, k2, k3, k4, k5, k6⟩, by simp⟩
  | closed =>
    unfold Session.step
    dsimp only
    split
    · exact ⟨⟨h0, k1, k2, k3, k4, k5, k6⟩, by simp⟩
    · exact ⟨⟨h0, k1, k2, k3, k4, k5, k6⟩, by simp⟩
  | reconnect =>
    have hn : ¬ s.waiting ≠ .no := fun hc => hc hp
    unfold Session.step
    dsimp only
    rw [if_neg hn]
    refine ⟨⟨h0, ?_, by simp [Session.start], by simp [Session.start], by simp [Session.start],
      by simp [Session.start], by simp [Session.start]⟩, by simp⟩
    intro _ hne; exact absurd rfl hne
  | serve w =>
    unfold Session.step
    dsimp only
    split
    · exact ⟨⟨h0, k1, k2, k3, k4, k5, k6⟩, by simp⟩
    · split
      · exact ⟨⟨h0, k1, k2, k3, k4, k5, k6⟩, by simp⟩
      · rename_i m q hq
        have hfl := hs.flu
        refine ⟨⟨h0, ?_, ?_, ?_, ?_, ?_, ?_⟩, by simp⟩
        · intro hf hne
          obtain ⟨_, q2⟩ := k1 hf hne
          rw [hq] at q2; cases q2
        · -- not waiting: the queue holds abandoned messages only
          intro hw x hx
          dsimp only at hw hx
          have hxq : x ∈ q := by
            split at hx
            · cases hx
            · exact hx
          split at hw
          · cases hw
          · exact k2 hw x (by rw [hq]; simp [hxq])
        · intro hw
          dsimp only at hw ⊢
          split at hw
          · cases hw
          · rename_i hma
            rcases k3 hw with h' | ⟨q', e1, e2⟩
            · rw [hq] at h'; cases h'
            · by_cases hb : w.breaks = true
              · left; rw [if_pos hb]
              · rw [if_neg hb]
                right
                rw [hq] at e1
                cases q' with
                | nil =>
                  rw [List.nil_append, List.cons.injEq] at e1
                  rw [e1.1] at hma
                  exact absurd rfl hma
                | cons y q' =>
                  rw [List.cons_append, List.cons.injEq] at e1
                  exact ⟨q', e1.2, fun x hx => e2 x (by simp [hx])⟩
        · intro hw
          dsimp only at hw ⊢
          have hwait : m.answer = true → s.queue = [⟨s.loc.committed, true⟩] := by
            intro hma
            cases hwt : s.waiting with
            | no => have := k2 hwt m (by rw [hq]; simp); rw [this] at hma; cases hma
            | got b => have := k5 b hwt; rw [hq] at this; cases this
            | answer =>
              rcases k3 hwt with h' | ⟨q', e1, e2⟩
              · rw [hq] at h'; cases h'
              · rw [hq] at e1 ⊢
                cases q' with
                | nil => exact e1
                | cons y q' =>
                  rw [List.cons_append, List.cons.injEq] at e1
                  have := e2 y (by simp)
                  rw [← e1.1, hma] at this; cases this
          split at hw
          · rename_i hma
            have hok : w = .stored := by
              cases w <;> simp_all [Served.ok]
            have := hwait hma
            rw [hq, List.cons.injEq] at this
            rw [hok, this.1]
            rfl
          · have := k5 true hw
            rw [hq] at this; cases this
        · intro b hw
          dsimp only at hw ⊢
          split at hw
          · rename_i hma
            cases hwt : s.waiting with
            | no => have := k2 hwt m (by rw [hq]; simp); rw [this] at hma; cases hma
            | got b => have := k5 b hwt; rw [hq] at this; cases this
            | answer =>
              rcases k3 hwt with h' | ⟨q', e1, e2⟩
              · rw [hq] at h'; cases h'
              · rw [hq] at e1
                cases q' with
                | nil =>
                  rw [List.nil_append, List.cons.injEq] at e1
                  rw [e1.2]; split <;> rfl
                | cons y q' =>
                  rw [List.cons_append, List.cons.injEq] at e1
                  have := e2 y (by simp)
                  rw [← e1.1, hma] at this; cases this
          · have := k5 b hw
            rw [hq] at this; cases this
        · intro hw
          dsimp only at hw ⊢
          apply k6
          intro hwt
          have := k2 hwt m (by rw [hq]; simp)
          rw [if_neg (by rw [this]; simp)] at hw
          exact hw hwt

theorem Flushing.start (stored : Option Int) : Flushing (Session.start .manual stored) :=
  ⟨rfl, by intro _ h; exact absurd rfl h, by simp [Session.start], by simp [Session.start],
    by simp [Session.start], by simp [Session.start], by simp [Session.start]⟩

theorem Flushing.run {init : Option Int} : ∀ (es : List CmEv) {t : Told} {s : Session}, Sess init t s →
    Flushing s → PossibleAll s es → Flushing (s.run es)
  | [], _, _, _, h, _ => h
  | e :: es, _, _, hs, h, hp =>
    Flushing.run es (hs.step e hp.1) (h.step hs e hp.1).1 hp.2

theorem possible_append : ∀ (es es' : List CmEv) (s : Session), PossibleAll s (es ++ es') →
    PossibleAll s es ∧ PossibleAll (s.run es) es'
  | [], _, _, h => ⟨trivial, h⟩
  | _ :: es, es', _, h =>
    let ⟨h1, h2⟩ := possible_append es es' _ h.2
    ⟨⟨h.1, h1⟩, h2⟩

end Verif.Client
