import Verif.Stream.Run

/-!
# A stream that is not stopped catches up
-/

namespace Verif.Stream
open Verif.Wire (Bytes)
open Verif.Storage

variable {α : Type}

/-- What sending leaves alone; it does not end the stream. -/
theorem send_fields {q : Req} {c : Cfg} {s : Conn α} {next : Int} (hc : c.segMax < 2 ^ 32)
    (h1 : ReplicaOk s.r) (h2 : Seamless s.r) (h3 : Bounded c s.r) (h4 : s.r.hw ≤ s.r.leo)
    (h5 : s.r.logStart ≤ next) (h6 : next ≤ readEnd q.iso s.r) :
    (s.send q next).ended = s.ended ∧ (s.send q next).r = s.r ∧ (s.send q next).acks = s.acks ∧
    (s.send q next).ackPub = s.ackPub ∧ (s.send q next).ackSeen = s.ackSeen ∧
    (s.send q next).pubEnd = s.pubEnd ∧ (s.send q next).seenEnd = s.seenEnd := by
  rcases readPartition_spec h1 h2 h3 hc h4 q.iso h5 h6 q.maxBytes
    with ⟨run, bs, _, _, _, hread⟩ | ⟨_, hread | hread⟩
  · unfold Conn.send; rw [hread]; cases bs <;> exact ⟨rfl, rfl, rfl, rfl, rfl, rfl, rfl⟩
  · unfold Conn.send; rw [hread]; exact ⟨rfl, rfl, rfl, rfl, rfl, rfl, rfl⟩
  · unfold Conn.send; rw [hread]; exact ⟨rfl, rfl, rfl, rfl, rfl, rfl, rfl⟩

theorem onLeader_eq {q : Req} {s : Conn α} {k : Int} (h1 : s.ended = false) (h2 : s.known = some k) :
    s.onLeader q = if s.pubEnd ≤ k then { s with seenEnd := s.pubEnd, last := s.pubEnd }
      else ({ s with seenEnd := s.pubEnd } : Conn α).send q k := by
  obtain ⟨r, la, kn, en, pe, se, ap, as, w, a, g, sn, ar⟩ := s
  simp only at h1 h2
  subst h1; subst h2
  rfl

/-- What can follow without anything happening to the partition. -/
def Leads (parse : Parser α) (c : Cfg) (q : Req) (P : SBatch α → Prop) (s : Conn α)
    (G : Conn α → Prop) : Prop :=
  ∃ es, (∀ e ∈ es, e ≠ .stop ∧ ∀ o, e ≠ .op o) ∧ TimelyAll parse c q P s es ∧ G (s.run parse c q es)

theorem Leads.done {parse : Parser α} {c : Cfg} {q : Req} {P : SBatch α → Prop} {s : Conn α}
    {G : Conn α → Prop} (h : G s) : Leads parse c q P s G := ⟨[], by simp, trivial, h⟩

theorem Leads.step {parse : Parser α} {c : Cfg} {q : Req} {P : SBatch α → Prop} {s : Conn α}
    {G : Conn α → Prop} (e : StEv α) (h1 : e ≠ .stop) (h2 : ∀ o, e ≠ .op o) (h3 : e.Timely P s)
    (h : Leads parse c q P (s.step parse c q e) G) : Leads parse c q P s G := by
  obtain ⟨es, k1, k2, k3⟩ := h
  refine ⟨e :: es, ?_, ⟨h3, k2⟩, k3⟩
  intro e' he'
  rcases List.mem_cons.1 he' with rfl | he'
  · exact ⟨h1, h2⟩
  · exact k1 e' he'

/-- A running stream with the partition `r`, all of whose batches fit into a response. -/
structure Running (q : Req) (c : Cfg) (P : SBatch α → Prop) (r : Replica α) (s : Conn α) (next : Int) : Prop where
  inv : StreamOk q c P s next
  on : s.ended = false
  same : s.r = r

/-- Streams with a slice under way and at most `d` records ahead catch up. -/
def Flies (parse : Parser α) (c : Cfg) (q : Req) (P : SBatch α → Prop) (r : Replica α) (d : Nat) : Prop :=
  ∀ s next, Running q c P r s next → s.wire ≠ [] → readEnd q.iso r - next ≤ d →
    Leads parse c q P s fun s' => s'.Quiescent q ∧ s'.r = r

section
variable {parse : Parser α} {c : Cfg} {q : Req} {P : SBatch α → Prop} {r : Replica α}

/-- All values are current: quiescent, or a slice is under way. -/
theorem leads_current {d : Nat} (hf : Flies parse c q P r d)
    {s : Conn α} {next : Int} (h : Running q c P r s next) (hd : readEnd q.iso r - next ≤ d)
    (h1 : s.acks = []) (h2 : s.Quiet) (h3 : s.pubEnd = readEnd q.iso r) (h4 : s.seenEnd = s.pubEnd) :
    Leads parse c q P s fun s' => s'.Quiescent q ∧ s'.r = r := by
  by_cases hwire : s.wire = []
  · by_cases hq : s.ackPub = s.ackSeen
    · exact .done ⟨⟨hwire, h1, hq, by rw [h.same]; exact h3, h4⟩, h.same⟩
    · have hm1 : s.ackPub = -1 := h2.elim (fun h' => absurd h' hq) (·.1)
      refine .step .consumer nofun nofun hq (.done ?_)
      have hst : s.step parse c q .consumer = { s with ackSeen := s.ackPub } := by
        show Conn.onConsumer q _ = _
        unfold Conn.onConsumer
        rw [if_neg (by rw [h.on]; decide)]
        dsimp only
        rw [if_pos hm1]
      rw [hst]
      exact ⟨⟨hwire, h1, rfl, by rw [h.same]; exact h3, h4⟩, h.same⟩
  · exact hf s next h hwire hd

theorem leads_idle (hc : c.segMax < 2 ^ 32) {d : Nat}
    (hf : Flies parse c q P r d) {s : Conn α} {next : Int} (h : Running q c P r s next)
    (hd : readEnd q.iso r - next ≤ d) (h1 : s.acks = []) (h2 : s.Quiet) (hk : s.known = some next) :
    Leads parse c q P s fun s' => s'.Quiescent q ∧ s'.r = r := by
  obtain ⟨hinv, hon, hsame⟩ := h
  refine .step .publish nofun nofun trivial ?_
  refine .step .leader nofun nofun trivial ?_
  have hp : StreamOk q c P (s.step parse c q .publish) next := by
    have h6 := hinv.seen; have h7 := hinv.pub
    refine ⟨hinv.ok, hinv.seamless, hinv.bounded, hinv.all, hinv.hw, ?_, Int.le_refl _, hinv.nonneg,
      hinv.lo, hinv.mid, hinv.hi, hinv.got, hinv.at_, hinv.last, ?_⟩
    · show s.seenEnd ≤ readEnd q.iso s.r; omega
    · cases hinv.phase with
      | flying l bs run hwire hacks hq hpub hk' => exact absurd (hk.symm.trans hk') nofun
      | answered hwire hacks hq hpub hk' => exact absurd (hk.symm.trans hk') nofun
      | published hwire hacks hpub hseen hk' => exact absurd (hk.symm.trans hk') nofun
      | stuck l bs hwire hacks hq hpub hk' => exact absurd (hk.symm.trans hk') nofun
      | idle hwire hacks hq hpub hk' hs hlive harr => exact .idle hwire hacks hq hpub hk' hs hlive harr
  have hl := hp.onLeader hc
  have hlo := hinv.lo; have hmid := hinv.mid
  have hfields := send_fields (q := q) (s := { s with pubEnd := readEnd q.iso s.r, seenEnd := readEnd q.iso s.r })
    hc hinv.ok hinv.seamless hinv.bounded hinv.hw (next := next) (by show s.r.logStart ≤ _; omega) hinv.hi
  have hst : (s.step parse c q .publish).onLeader q =
      if readEnd q.iso s.r ≤ next then
        { s with pubEnd := readEnd q.iso s.r, seenEnd := readEnd q.iso s.r, last := readEnd q.iso s.r }
      else ({ s with pubEnd := readEnd q.iso s.r, seenEnd := readEnd q.iso s.r } : Conn α).send q next := by
    exact onLeader_eq (s := s.step parse c q .publish) hon hk
  show Leads parse c q P ((s.step parse c q .publish).onLeader q) _
  rw [hst] at hl ⊢
  split at hl
  · rename_i hle
    rw [if_pos hle]
    exact leads_current hf ⟨hl, hon, hsame⟩ hd h1 h2 (by rw [← hsame]) rfl
  · rename_i hle
    rw [if_neg hle]
    obtain ⟨f1, f2, f3, f4, f5, f6, f7⟩ := hfields
    refine leads_current hf ⟨hl, f1.trans hon, f2.trans hsame⟩ hd (f3.trans h1) ?_
      (f6.trans (by rw [← hsame])) (f7.trans f6.symm)
    unfold Conn.Quiet; rw [f4, f5]; exact h2

theorem leads_rest (hc : c.segMax < 2 ^ 32) (hw : ∀ b ∈ r.batches, b.width ≤ q.maxBytes) {d : Nat}
    (hf : Flies parse c q P r d) {s : Conn α} {next : Int} (h : Running q c P r s next)
    (hd : readEnd q.iso r - next ≤ d) :
    Leads parse c q P s fun s' => s'.Quiescent q ∧ s'.r = r := by
  -- the acknowledgement has been published
  have pub : ∀ {s : Conn α}, Running q c P r s next → s.acks = [] → s.ackPub = next → s.ackSeen < next →
      Leads parse c q P s fun s' => s'.Quiescent q ∧ s'.r = r := by
    intro s h h1 h2 h3
    refine .step .consumer nofun nofun (by show s.ackPub ≠ s.ackSeen; omega) ?_
    have hinv := h.inv
    have hlo := hinv.lo; have hmid := hinv.mid; have h0 := hinv.nonneg
    have h' := hinv.onConsumer hc (by omega)
    have hst : s.onConsumer q = if s.last ≤ s.ackPub then { s with ackSeen := s.ackPub, known := some s.ackPub }
        else ({ s with ackSeen := s.ackPub } : Conn α).send q s.ackPub := by
      unfold Conn.onConsumer
      rw [if_neg (by rw [h.on]; decide)]
      dsimp only
      rw [if_neg (by omega)]
    show Leads parse c q P (s.onConsumer q) _
    rw [hst] at h' ⊢
    split at h'
    · rename_i hle
      rw [if_pos hle]
      exact leads_idle hc hf ⟨h', h.on, h.same⟩ hd h1 (.inl rfl) (congrArg some h2)
    · rename_i hle
      rw [if_neg hle]
      obtain ⟨f1, f2, f3, f4, f5, _, _⟩ := send_fields (q := q) (s := { s with ackSeen := s.ackPub }) hc
        hinv.ok hinv.seamless hinv.bounded hinv.hw (next := s.ackPub)
        (by show s.r.logStart ≤ _; omega) (by rw [h2]; exact hinv.hi)
      have hrun : Running q c P r (({ s with ackSeen := s.ackPub } : Conn α).send q s.ackPub) next :=
        ⟨h', f1.trans h.on, f2.trans h.same⟩
      cases h'.phase with
      | flying l bs run hwire => exact hf _ next hrun (by rw [hwire]; simp) hd
      | answered hwire hacks => rw [f3] at hacks; exact absurd (h1.symm.trans hacks) nofun
      | published hwire hacks hpub hseen => rw [f5] at hseen; exact absurd hseen (by show ¬ s.ackPub < next; omega)
      | stuck l bs hwire hacks hq hpub hk hsent hs harr hbig =>
        obtain ⟨b, hb, hb'⟩ := hbig
        rw [hrun.same] at hb
        exact absurd (hw b hb) hb'
      | idle hwire hacks hq hpub hk hs hlive harr => exact leads_idle hc hf hrun hd hacks hq hk
  have hinv := h.inv
  cases hinv.phase with
  | flying l bs run hwire => exact hf s next h (by rw [hwire]; simp) hd
  | idle hwire hacks hq hpub hk hs hlive harr => exact leads_idle hc hf h hd hacks hq hk
  | stuck l bs hwire hacks hq hpub hk hsent hs harr hbig =>
    obtain ⟨b, hb, hb'⟩ := hbig
    rw [h.same] at hb
    exact absurd (hw b hb) hb'
  | published hwire hacks hpub hseen hk hs harr => exact pub h hacks hpub hseen
  | answered hwire hacks hq hpub hk hs harr hpos =>
    refine .step .ack nofun nofun trivial ?_
    have h' := hinv.onAck
    have hst : s.onAck = { s with acks := [], ackPub := next, arrived := s.arrived + 1 } := by
      unfold Conn.onAck; rw [hacks]
    show Leads parse c q P s.onAck _
    rw [hst] at h' ⊢
    refine pub ⟨h', h.on, h.same⟩ rfl rfl ?_
    show s.ackSeen < next
    have := hinv.nonneg
    rcases hq with hq | ⟨hq, hq'⟩ <;> omega

theorem flies {Q : Nat → Prop} (hc : c.segMax < 2 ^ 32) (hd : GoodDecoder parse c P Q) (hn : Q q.maxBytes)
    (hleo : r.leo < 2 ^ 63) (hw : ∀ b ∈ r.batches, b.width ≤ q.maxBytes) :
    ∀ d, Flies parse c q P r d := by
  intro d
  induction d with
  | zero =>
    intro s next h hwire hdist
    have hinv := h.inv
    exfalso
    cases hinv.phase with
    | flying l bs run hw' hacks hq hpub hk hsent hs hsl hend hw harr =>
      obtain ⟨_, ⟨b, tl, e, h1, h2⟩, _⟩ := hsl
      have := hend b (by rw [e]; simp)
      rw [h.same] at this
      omega
    | answered hw' => exact hwire hw'
    | published hw' => exact hwire hw'
    | idle hw' => exact hwire hw'
    | stuck l bs hw' => exact hwire hw'
  | succ d ih =>
    intro s next h hwire hdist
    refine .step .receive nofun nofun trivial ?_
    obtain ⟨n', k1, k2, k3⟩ := h.inv.onReceive hd hn (by rw [h.same]; exact hleo)
    have k4 := k3 hwire (by rw [h.same]; exact hw)
    have hst : (s.onReceive parse q).ended = s.ended ∧ (s.onReceive parse q).r = s.r := by
      unfold Conn.onReceive; split <;> exact ⟨rfl, rfl⟩
    exact leads_rest hc hw ih ⟨k2, hst.1.trans h.on, hst.2.trans h.same⟩ (by omega)

/-- From every state of a running stream the quiescent state can be reached. -/
theorem leads_quiescent {Q : Nat → Prop} (hc : c.segMax < 2 ^ 32) (hd : GoodDecoder parse c P Q)
    (hn : Q q.maxBytes) {s : Conn α} {next : Int} (h : StreamOk q c P s next) (hon : s.ended = false)
    (hleo : s.r.leo < 2 ^ 63) (hw : ∀ b ∈ s.r.batches, b.width ≤ q.maxBytes) :
    Leads parse c q P s fun s' => s'.Quiescent q ∧ s'.r = s.r :=
  leads_rest hc hw (flies hc hd hn hleo hw (readEnd q.iso s.r - next).toNat) ⟨h, hon, rfl⟩ (by omega)

end

end Verif.Stream
