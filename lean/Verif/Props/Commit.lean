import Verif.Client.CommitInv

/-!
# C33: committing consumer offsets
-/

namespace Verif.Props
open Verif.Client

/-- The offset stored on the server is the one found there at the start or one that the application was
given and committed: for both strategies and every interleaving of records, commits, flushes (also
abandoned ones), background flushes, server answers, lost connections and reconnections. -/
theorem C33_never_ahead (m : Mode) (init : Option Int) (es : List CmEv)
    (hp : PossibleAll (Session.start m init) es) (v : Int)
    (h : ((Session.start m init).run es).stored = some v) :
    init = some v ∨ (v ∈ (Told.start.run m es).all ∧ v ∈ delivered es) := by
  have hs := Sess.run es (Sess.start m init) hp
  have hok := Told.Ok.run m (delivered es) es Told.start ⟨nofun, nofun⟩ fun o ho => ho
  rcases hs.sto with h1 | ⟨w, hw, h1⟩
  · left; rw [← h1, h]
  · right
    rw [h] at h1
    cases h1
    exact ⟨hw, hok.2 v hw⟩

/-- It never decreases, if records are delivered in increasing order behind the offset found at the
start (which is how a stored position is resumed, see C30 and C34). -/
theorem C33_never_decreases (m : Mode) (init : Option Int) (es es' : List CmEv)
    (hp : PossibleAll (Session.start m init) (es ++ es'))
    (h0 : ∀ o ∈ delivered (es ++ es'), 0 ≤ o ∧ ∀ v, init = some v → v < o)
    (hinc : (delivered (es ++ es')).Pairwise (· < ·)) (a : Int)
    (ha : ((Session.start m init).run es).stored = some a) :
    ∃ b, ((Session.start m init).run (es ++ es')).stored = some b ∧ a ≤ b := by
  have htop : -1 ≤ max (init.getD (-1)) (-1) := by omega
  have hr : Rising (max (init.getD (-1)) (-1)) (Session.start m init) := by
    refine ⟨htop, htop, Int.le_refl _, Int.le_refl _, by simp [Session.start], List.Pairwise.nil, ?_,
      Int.le_refl _⟩
    intro x hx
    have : init = some x := hx
    refine ⟨by rw [this]; simp; omega, ?_, ?_, by simp [Session.start]⟩
    · intro h; exact absurd rfl h
    · intro h; exact absurd rfl h
  have hab : Above (max (init.getD (-1)) (-1)) (es ++ es') := by
    refine ⟨?_, hinc⟩
    intro o ho
    obtain ⟨h1, h2⟩ := h0 o ho
    cases hi : init with
    | none => simp; omega
    | some v => have := h2 v hi; simp; omega
  obtain ⟨top', r1, r2, r3⟩ := Rising.after es es' hr hp hab
  obtain ⟨b, hb, hle⟩ := Rising.run es' r1 r2 r3 a ha
  refine ⟨b, ?_, hle⟩
  unfold Session.run at hb ⊢
  rw [List.foldl_append]
  exact hb

/-- With explicit commits: whenever a call of `offset_flush` succeeds, the server holds the offset of
the last commit of this session.

Missing: the automatic strategy (`C33_violated_auto`), and a commit made before a reconnection
(`C33_violated_reconnect`). -/
theorem C33_flush_partial (init : Option Int) (es : List CmEv) (e : CmEv)
    (hp : PossibleAll (Session.start .manual init) (es ++ [e])) (v : Int)
    (hok : (((Session.start .manual init).run es).step e).2 = some true)
    (hl : (Told.start.run .manual es).last = some v) :
    ((Session.start .manual init).run (es ++ [e])).stored = some v := by
  obtain ⟨hp1, hp2⟩ := possible_append es [e] _ hp
  have hs := Sess.run es (Sess.start .manual init) hp1
  have hf := Flushing.run es (Sess.start .manual init) (Flushing.start init) hp1
  have hc : ((Session.start .manual init).run es).loc.committed = v := by
    have := hs.com
    rw [show (Session.start .manual init).mode = .manual from rfl, hl] at this
    exact this
  have hv : v ≠ -1 := by
    have h1 := hs.last v hl
    have h2 := (Told.Ok.run .manual (delivered es) es Told.start ⟨nofun, nofun⟩ fun o ho => ho).2 v h1
    have h3 : ∀ (es : List CmEv) (s : Session), PossibleAll s es → ∀ o ∈ delivered es, 0 ≤ o := by
      intro es
      induction es with
      | nil => intro s _ o ho; cases ho
      | cons e es ih =>
        intro s hp o ho
        cases e with
        | deliver o' t r =>
          unfold delivered at ho
          rcases List.mem_cons.1 ho with rfl | ho
          · exact hp.1.2
          · exact ih _ hp.2 o ho
        | _ => exact ih _ hp.2 o ho
    have := h3 es _ hp1 v h2
    omega
  have := (hf.step hs e hp2.1).2 hok (by rw [hc]; exact hv)
  rw [hc] at this
  unfold Session.run
  rw [List.foldl_append]
  exact this

/-- two records, a commit, a flush that the server carries out -/
def commitRun : List CmEv :=
  [.deliver 0 false false, .deliver 1 false false, .commit, .deliver 2 false false, .flush, .serve .stored]

example : PossibleAll (Session.start .manual none) (commitRun ++ [.flushed]) ∧
    (((Session.start .manual none).run commitRun).step .flushed).2 = some true ∧
    (Told.start.run .manual commitRun).last = some 1 ∧
    ((Session.start .manual none).run commitRun).stored = some 1 :=
  ⟨by simp [PossibleAll, CmEv.Possible, commitRun, Session.start, Session.step, LocalStore.new,
      LocalStore.update, LocalStore.commit],
    by decide, by decide, by decide⟩

/-- The claim fails with the automatic strategy: a record is delivered (and so committed) while the
flush period is over, the message to the server is marked as flushed when it is queued, so that
`offset_commit` and `offset_flush` then succeed at once although the server has nothing; it may even
refuse the message later, and no flush will send it again. -/
theorem C33_violated_auto :
    let es := [CmEv.deliver 5 true true, .commit]
    let s := (Session.start .auto none).run es
    (s.step .flush).2 = some true ∧ (Told.start.run .auto es).last = some 5 ∧ s.stored = none ∧
    ((s.run [.serve .refused]).step .flush).2 = some true ∧
    (s.run [.serve .refused, .flush]).stored = none := by decide

/-- It also fails when the stream reconnects between commit and flush: the new stream has its own store
of offsets, in which nothing is committed, so the flush succeeds without sending anything. -/
theorem C33_violated_reconnect :
    let es := [CmEv.deliver 5 false false, .commit, .reconnect, .deliver 6 false false]
    let s := (Session.start .manual none).run es
    (s.step .flush).2 = some true ∧ s.stored = none ∧ (Told.start.run .manual es).all = [5] := by decide

/-- The stored offset decreases when a consumer with a stored offset reads from an earlier position:
neither the client nor the server compares the two. -/
theorem C33_violated_earlier_start :
    ((Session.start .manual (some 9)).run
      [.deliver 3 false false, .commit, .flush, .serve .stored]).stored = some 3 := by decide

end Verif.Props
