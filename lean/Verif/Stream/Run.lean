import Verif.Stream.Inv

/-!
# The invariant holds in every execution
-/

namespace Verif.Stream
open Verif.Wire (Bytes)
open Verif.Storage

variable {α : Type}

/-- No acknowledgement waits to be seen by the server task. -/
def Conn.Quiet (s : Conn α) : Prop := s.ackPub = s.ackSeen ∨ (s.ackPub = -1 ∧ s.ackSeen = 0)

/-- Where the conversation stands; `next` is the offset behind what the client has taken. -/
inductive Phase (q : Req) (c : Cfg) (s : Conn α) (next : Int) : Prop
  /-- a slice is under way to the client -/
  | flying (l : List Bytes) (bs : Bytes) (run : List (Stored α)) (hwire : s.wire = [bs]) (hacks : s.acks = [])
      (hq : s.Quiet) (hpub : s.ackPub ≤ next) (hk : s.known = none) (hsent : s.sent = l ++ [bs])
      (hs : Sent s.r q.maxBytes q.start l next) (hsl : Slice s.r q.maxBytes next run bs)
      (hend : ∀ x ∈ run, x.last < readEnd q.iso s.r) (hw : width run ≤ c.segMax)
      (harr : s.arrived = l.length)
  /-- its acknowledgement is under way to the server -/
  | answered (hwire : s.wire = []) (hacks : s.acks = [next]) (hq : s.Quiet) (hpub : s.ackPub < next)
      (hk : s.known = none) (hs : Sent s.r q.maxBytes q.start s.sent next)
      (harr : s.arrived + 1 = s.sent.length) (hpos : q.start < next)
  /-- its acknowledgement has been published -/
  | published (hwire : s.wire = []) (hacks : s.acks = []) (hpub : s.ackPub = next)
      (hseen : s.ackSeen < next) (hk : s.known = none) (hs : Sent s.r q.maxBytes q.start s.sent next)
      (harr : s.arrived = s.sent.length)
  /-- the server knows that the client has everything before `next` -/
  | idle (hwire : s.wire = []) (hacks : s.acks = []) (hq : s.Quiet) (hpub : s.ackPub ≤ next)
      (hk : s.known = some next) (hs : Sent s.r q.maxBytes q.start s.sent next)
      (hlive : s.seenEnd ≤ next ∨ (∃ b ∈ s.r.batches, ¬ b.width ≤ q.maxBytes) ∨
        Unreadable s.r s.seenEnd next)
      (harr : s.arrived = s.sent.length)
  /-- the client could not take anything of the slice and does not answer -/
  | stuck (l : List Bytes) (bs : Bytes) (hwire : s.wire = []) (hacks : s.acks = []) (hq : s.Quiet)
      (hpub : s.ackPub ≤ next) (hk : s.known = none) (hsent : s.sent = l ++ [bs])
      (hs : Sent s.r q.maxBytes q.start l next) (harr : s.arrived = l.length)
      (hbig : ∃ b ∈ s.r.batches, ¬ b.width ≤ q.maxBytes) (hsl : ∃ run, Slice s.r q.maxBytes next run bs)

structure StreamOk (q : Req) (c : Cfg) (P : SBatch α → Prop) (s : Conn α) (next : Int) : Prop where
  ok : ReplicaOk s.r
  seamless : Seamless s.r
  bounded : Bounded c s.r
  all : ∀ b ∈ s.r.batches, P b.batch
  hw : s.r.hw ≤ s.r.leo
  seen : s.seenEnd ≤ s.pubEnd
  pub : s.pubEnd ≤ readEnd q.iso s.r
  nonneg : 0 ≤ q.start
  lo : s.r.logStart ≤ q.start
  mid : q.start ≤ next
  hi : next ≤ readEnd q.iso s.r
  got : s.got = between s.r q.start next
  at_ : next = q.start ∨ Boundary s.r next
  last : s.known = none → s.seenEnd ≤ s.last
  phase : Phase q c s next

theorem readEnd_le {iso : Isolation} {r : Replica α} (h : r.hw ≤ r.leo) : readEnd iso r ≤ r.leo := by
  cases iso
  · exact h
  · exact Int.le_refl _

/-- Sending from where the client is. -/
theorem StreamOk.send {q : Req} {c : Cfg} {P : SBatch α → Prop} {s : Conn α} {next : Int}
    (hc : c.segMax < 2 ^ 32)
    (h1 : ReplicaOk s.r) (h2 : Seamless s.r) (h3 : Bounded c s.r) (h4 : ∀ b ∈ s.r.batches, P b.batch)
    (h5 : s.r.hw ≤ s.r.leo) (h6 : s.seenEnd ≤ s.pubEnd) (h7 : s.pubEnd ≤ readEnd q.iso s.r)
    (h0 : 0 ≤ q.start)
    (h8 : s.r.logStart ≤ q.start) (h9 : q.start ≤ next) (h10 : next ≤ readEnd q.iso s.r)
    (h11 : s.got = between s.r q.start next) (h12 : next = q.start ∨ Boundary s.r next)
    (g1 : s.wire = []) (g2 : s.acks = []) (g3 : s.Quiet) (g4 : s.ackPub ≤ next)
    (g5 : Sent s.r q.maxBytes q.start s.sent next) (g6 : s.arrived = s.sent.length) :
    StreamOk q c P (s.send q next) next := by
  have hspec := readPartition_spec h1 h2 h3 hc h5 q.iso (o := next) (by omega) h10 q.maxBytes
  -- nothing to send
  have hempty : ∀ d, s.r.readPartition next q.maxBytes q.iso = .ok ⟨s.r.logStart, s.r.hw, s.r.leo, d⟩ →
      (d = none ∨ d = some []) →
      ((∃ b ∈ s.r.batches, ¬ b.width ≤ q.maxBytes) ∨ Unreadable s.r (readEnd q.iso s.r) next) →
      StreamOk q c P (s.send q next) next := by
    intro d hd hd' hu
    have hsend : s.send q next = { s with last := next, known := some next } := by
      unfold Conn.send
      rw [hd]
      rcases hd' with rfl | rfl <;> rfl
    rw [hsend]
    refine ⟨h1, h2, h3, h4, h5, h6, h7, h0, h8, h9, h10, h11, h12, nofun, ?_⟩
    refine .idle g1 g2 g3 g4 rfl g5 ?_ g6
    right
    rcases hu with hu | hu
    · exact .inl hu
    · refine .inr fun b hb k1 k2 => ?_
      have := hu b hb k1 k2
      show s.seenEnd ≤ b.last
      omega
  rcases hspec with ⟨run, bs, hsl, hend, hw, hread⟩ | ⟨hu, hread | hread⟩
  · cases bs with
    | nil =>
      refine hempty _ hread (.inr rfl) (.inl ?_)
      obtain ⟨⟨pre, post, e1⟩, ⟨b, tl, e2, _⟩, e3⟩ := hsl
      have hb : b ∈ s.r.batches := by rw [e1, e2]; simp
      refine ⟨b, hb, fun hle => ?_⟩
      have hlen := congrArg List.length e3
      rw [List.length_take, content_length, e2, List.length_nil] at hlen
      have hwid : width (b :: tl) = b.width + width tl := by simp [width]
      have hpos : 0 < b.width := by
        have hh := honest_of_mem h1 hb
        have : b.width = b.batch.size := hh.2.2.2 b.base
        rw [this]; exact hh.2.2.1
      omega
    | cons x bs =>
      have hsend : s.send q next = { s with
          last := readEnd q.iso s.r
          known := none
          wire := s.wire ++ [x :: bs]
          sent := s.sent ++ [x :: bs] } := by
        unfold Conn.send
        rw [hread]
      rw [hsend]
      refine ⟨h1, h2, h3, h4, h5, h6, h7, h0, h8, h9, h10, h11, h12, ?_, ?_⟩
      · intro _; show s.seenEnd ≤ readEnd q.iso s.r; omega
      · exact .flying s.sent (x :: bs) run (by show s.wire ++ _ = _; rw [g1]; rfl) g2 g3 g4 rfl rfl g5 hsl
          hend hw g6
  · exact hempty _ hread (.inr rfl) (.inr hu)
  · exact hempty _ hread (.inl rfl) (.inr hu)

theorem StreamOk.start {q : Req} {c : Cfg} {P : SBatch α → Prop} {r : Replica α} {pub : Int}
    (hc : c.segMax < 2 ^ 32) (h1 : ReplicaOk r) (h2 : Seamless r) (h3 : Bounded c r)
    (h4 : ∀ b ∈ r.batches, P b.batch) (h5 : r.hw ≤ r.leo) (h6 : 0 ≤ pub)
    (h7 : pub ≤ readEnd q.iso r) (h0 : 0 ≤ q.start) (h8 : r.logStart ≤ q.start)
    (h9 : q.start ≤ readEnd q.iso r) :
    StreamOk q c P (Conn.start q r pub) q.start :=
  StreamOk.send (s := Conn.new r pub) hc h1 h2 h3 h4 h5 h6 h7 h0 h8 (Int.le_refl _) h9
    (between_self r q.start).symm (.inl rfl) rfl rfl (.inr ⟨rfl, rfl⟩)
    (by show (-1 : Int) ≤ q.start; omega) .none rfl

theorem StreamOk.op {q : Req} {c : Cfg} {P : SBatch α → Prop} {s : Conn α} {next : Int}
    (h : StreamOk q c P s next) {o : Op α} (ho : LiveOp P s.r o) :
    StreamOk q c P { s with r := (s.r.step c o).1 } next := by
  have g := ho.grows h.ok h.seamless c
  have hre := ho.readEnd h.ok h.seamless c h.hw q.iso
  have hhw := ho.hw h.ok h.seamless c h.hw
  have hle := readEnd_le (iso := q.iso) h.hw
  have hn := h.hi
  obtain ⟨b1, _, b3⟩ := ho.honest
  have hsub : ∀ b ∈ s.r.batches, b ∈ (s.r.step c o).1.batches := by
    obtain ⟨x, hx, _⟩ := g.more
    intro b hb
    rw [hx]; exact List.mem_append_left _ hb
  refine ⟨g.ok, g.seamless, h.bounded.step o, all_step h.ok h.all c o b1 b3, hhw.2, h.seen, ?_, h.nonneg,
    ?_, h.mid, ?_, ?_, ?_, h.last, ?_⟩
  · have := h.pub; show s.pubEnd ≤ readEnd q.iso (s.r.step c o).1; omega
  · show (s.r.step c o).1.logStart ≤ _; rw [g.start]; exact h.lo
  · show next ≤ readEnd q.iso (s.r.step c o).1; omega
  · show s.got = Stream.between (s.r.step c o).1 _ _
    rw [g.between (by omega)]; exact h.got
  · exact h.at_.imp id fun hb => g.boundary (by omega) hb
  · cases h.phase with
    | flying l bs run hwire hacks hq hpub hk hsent hs hsl hend hw harr =>
      exact .flying l bs run hwire hacks hq hpub hk hsent (g.sent hs) (g.slice hsl)
        (fun x hx => Int.lt_of_lt_of_le (hend x hx) hre) hw harr
    | answered hwire hacks hq hpub hk hs harr hpos => exact .answered hwire hacks hq hpub hk (g.sent hs) harr hpos
    | published hwire hacks hpub hseen hk hs harr => exact .published hwire hacks hpub hseen hk (g.sent hs) harr
    | idle hwire hacks hq hpub hk hs hlive harr =>
      refine .idle hwire hacks hq hpub hk (g.sent hs) (hlive.imp id (Or.imp ?_ ?_)) harr
      · exact fun ⟨b, hb, hw⟩ => ⟨b, hsub b hb, hw⟩
      · have := h.pub; have := h.seen
        exact fun hu => g.unreadable (e := s.seenEnd) (by omega) hu
    | stuck l bs hwire hacks hq hpub hk hsent hs harr hbig hsl =>
      obtain ⟨b, hb, hw⟩ := hbig
      exact .stuck l bs hwire hacks hq hpub hk hsent (g.sent hs) harr ⟨b, hsub b hb, hw⟩
        (hsl.imp fun _ h => g.slice h)

theorem StreamOk.onLeader {q : Req} {c : Cfg} {P : SBatch α → Prop} {s : Conn α} {next : Int}
    (hc : c.segMax < 2 ^ 32) (h : StreamOk q c P s next) : StreamOk q c P (s.onLeader q) next := by
  obtain ⟨h1, h2, h3, h4, h5, h6, h7, h0, h8, h9, h10, h11, h12, h13, hp⟩ := h
  unfold Conn.onLeader
  split
  · exact ⟨h1, h2, h3, h4, h5, h6, h7, h0, h8, h9, h10, h11, h12, h13, hp⟩
  · dsimp only
    cases hp with
    | flying l bs run hwire hacks hq hpub hk hsent hs hsl hend hw harr =>
      rw [hk]
      exact ⟨h1, h2, h3, h4, h5, Int.le_refl _, h7, h0, h8, h9, h10, h11, h12, fun _ => Int.le_refl _,
        .flying l bs run hwire hacks hq hpub rfl hsent hs hsl hend hw harr⟩
    | answered hwire hacks hq hpub hk hs harr hpos =>
      rw [hk]
      exact ⟨h1, h2, h3, h4, h5, Int.le_refl _, h7, h0, h8, h9, h10, h11, h12, fun _ => Int.le_refl _,
        .answered hwire hacks hq hpub rfl hs harr hpos⟩
    | published hwire hacks hpub hseen hk hs harr =>
      rw [hk]
      exact ⟨h1, h2, h3, h4, h5, Int.le_refl _, h7, h0, h8, h9, h10, h11, h12, fun _ => Int.le_refl _,
        .published hwire hacks hpub hseen rfl hs harr⟩
    | stuck l bs hwire hacks hq hpub hk hsent hs harr hbig hsl =>
      rw [hk]
      exact ⟨h1, h2, h3, h4, h5, Int.le_refl _, h7, h0, h8, h9, h10, h11, h12, fun _ => Int.le_refl _,
        .stuck l bs hwire hacks hq hpub rfl hsent hs harr hbig hsl⟩
    | idle hwire hacks hq hpub hk hs hlive harr =>
      rw [hk]
      dsimp only
      split
      · rename_i hle
        exact ⟨h1, h2, h3, h4, h5, Int.le_refl _, h7, h0, h8, h9, h10, h11, h12, nofun,
          .idle hwire hacks hq hpub rfl hs (.inl hle) harr⟩
      · exact StreamOk.send hc h1 h2 h3 h4 h5 (Int.le_refl _) h7 h0 h8 h9 h10 h11 h12 hwire hacks hq hpub hs harr

theorem StreamOk.onConsumer {q : Req} {c : Cfg} {P : SBatch α → Prop} {s : Conn α} {next : Int}
    (hc : c.segMax < 2 ^ 32) (h : StreamOk q c P s next) (ht : s.ackPub ≠ s.ackSeen) :
    StreamOk q c P (s.onConsumer q) next := by
  obtain ⟨h1, h2, h3, h4, h5, h6, h7, h0, h8, h9, h10, h11, h12, h13, hp⟩ := h
  unfold Conn.onConsumer
  split
  · exact ⟨h1, h2, h3, h4, h5, h6, h7, h0, h8, h9, h10, h11, h12, h13, hp⟩
  · dsimp only
    have quiet : s.Quiet → s.ackPub = -1 := fun hq => hq.elim (fun e => absurd e ht) (·.1)
    cases hp with
    | flying l bs run hwire hacks hq hpub hk hsent hs hsl hend hw harr =>
      rw [if_pos (quiet hq)]
      exact ⟨h1, h2, h3, h4, h5, h6, h7, h0, h8, h9, h10, h11, h12, h13,
        .flying l bs run hwire hacks (.inl rfl) hpub hk hsent hs hsl hend hw harr⟩
    | answered hwire hacks hq hpub hk hs harr hpos =>
      rw [if_pos (quiet hq)]
      exact ⟨h1, h2, h3, h4, h5, h6, h7, h0, h8, h9, h10, h11, h12, h13,
        .answered hwire hacks (.inl rfl) hpub hk hs harr hpos⟩
    | stuck l bs hwire hacks hq hpub hk hsent hs harr hbig hsl =>
      rw [if_pos (quiet hq)]
      exact ⟨h1, h2, h3, h4, h5, h6, h7, h0, h8, h9, h10, h11, h12, h13,
        .stuck l bs hwire hacks (.inl rfl) hpub hk hsent hs harr hbig hsl⟩
    | idle hwire hacks hq hpub hk hs hlive harr =>
      rw [if_pos (quiet hq)]
      exact ⟨h1, h2, h3, h4, h5, h6, h7, h0, h8, h9, h10, h11, h12, h13,
        .idle hwire hacks (.inl rfl) hpub hk hs hlive harr⟩
    | published hwire hacks hpub hseen hk hs harr =>
      rw [if_neg (by omega)]
      split
      · rename_i hle
        refine ⟨h1, h2, h3, h4, h5, h6, h7, h0, h8, h9, h10, h11, h12, nofun,
          .idle hwire hacks (.inl rfl) (by show s.ackPub ≤ next; omega)
            (by show some s.ackPub = _; rw [hpub]) hs (.inl ?_) harr⟩
        have := h13 hk
        show s.seenEnd ≤ next
        omega
      · subst hpub
        exact StreamOk.send hc h1 h2 h3 h4 h5 h6 h7 h0 h8 h9 h10 h11 h12 hwire hacks (.inl rfl)
          (Int.le_refl _) hs harr

theorem StreamOk.onReceive {parse : Parser α} {q : Req} {c : Cfg} {P : SBatch α → Prop} {Q : Nat → Prop}
    (hd : GoodDecoder parse c P Q) (hn : Q q.maxBytes) {s : Conn α} {next : Int}
    (h : StreamOk q c P s next) (hleo : s.r.leo < 2 ^ 63) :
    ∃ next', next ≤ next' ∧ StreamOk q c P (s.onReceive parse q) next' ∧
      (s.wire ≠ [] → (∀ b ∈ s.r.batches, b.width ≤ q.maxBytes) → next < next') := by
  have hh := h
  obtain ⟨h1, h2, h3, h4, h5, h6, h7, h0, h8, h9, h10, h11, h12, h13, hp⟩ := h
  unfold Conn.onReceive
  cases hp with
  | answered hwire hacks hq hpub hk hs harr hpos => rw [hwire]; exact ⟨next, Int.le_refl _, hh, fun h' => absurd rfl h'⟩
  | published hwire hacks hpub hseen hk hs harr => rw [hwire]; exact ⟨next, Int.le_refl _, hh, fun h' => absurd rfl h'⟩
  | idle hwire hacks hq hpub hk hs hlive harr => rw [hwire]; exact ⟨next, Int.le_refl _, hh, fun h' => absurd rfl h'⟩
  | stuck l bs hwire hacks hq hpub hk hsent hs harr hbig hsl => rw [hwire]; exact ⟨next, Int.le_refl _, hh, fun h' => absurd rfl h'⟩
  | flying l bs run hwire hacks hq hpub hk hsent hs hsl hend hw harr =>
    rw [hwire]
    dsimp only
    have hmem : ∀ b ∈ run, b ∈ s.r.batches := by
      obtain ⟨⟨pre, post, e1⟩, _⟩ := hsl
      intro b hb
      rw [e1]; simp [hb]
    have hls : 0 ≤ s.r.logStart := by
      cases hp : s.r.prev with
      | nil => rw [Replica.logStart_nil hp]; exact h1.nonneg
      | cons x l' =>
        rw [h1.logStart_cons hp]
        exact (h1.prev x (by rw [hp]; simp)).2.2.1
    obtain ⟨taken, rest, e1, e2, e3⟩ := hd q.maxBytes run hn hw fun b hb => ⟨h4 b (hmem b hb),
      honest_of_mem h1 (hmem b hb), by
        have := (h2 : Chain _ _ _).mem (hmem b hb)
        constructor <;> omega⟩
    have hbs := hsl.2.2
    rw [hbs, e2 q.start]
    cases htk : taken.getLast? with
    | none =>
      have htk' : taken = [] := List.getLast?_eq_none_iff.1 htk
      subst htk'
      have hbig : ∃ b ∈ s.r.batches, ¬ b.width ≤ q.maxBytes := by
        obtain ⟨_, ⟨b, tl, hb, _⟩, _⟩ := hsl
        exact ⟨b, hmem b (by rw [hb]; simp), fun hle => e3 b tl hb hle rfl⟩
      refine ⟨next, Int.le_refl _, ⟨h1, h2, h3, h4, h5, h6, h7, h0, h8, h9, h10, ?_, h12, h13, ?_⟩, ?_⟩
      rotate_left 2
      · obtain ⟨b, hb, hb'⟩ := hbig
        exact fun _ hw => absurd (hw b hb) hb'
      · show s.got ++ _ = _; simpa using h11
      · refine .stuck l bs rfl ?_ hq hpub hk hsent hs harr ?_ ⟨_, hsl⟩
        · show s.acks ++ _ = _; rw [hacks]; rfl
        · exact hbig
    | some b =>
      rw [e1] at hsl
      obtain ⟨a1, a2, a3, a4⟩ := advance h1 h2 hsl htk h12
      refine ⟨b.last + 1, by omega, ⟨h1, h2, h3, h4, h5, h6, h7, h0, h8, by omega, ?_, ?_, .inr a3, h13, ?_⟩,
        fun _ _ => a2⟩
      · have := hend b (by rw [e1]; simp [a4])
        show b.last + 1 ≤ readEnd q.iso s.r
        omega
      · show s.got ++ _ = _
        rw [h11, a1]
      · refine .answered rfl ?_ hq (by show s.ackPub < _; omega) hk ?_ ?_ (by omega)
        · show s.acks ++ _ = _; rw [hacks]; rfl
        · show Sent s.r q.maxBytes q.start s.sent (b.last + 1)
          rw [hsent]
          exact .more hs hsl htk
        · show s.arrived + 1 = s.sent.length
          rw [hsent, harr]; simp

theorem StreamOk.onAck {q : Req} {c : Cfg} {P : SBatch α → Prop} {s : Conn α} {next : Int}
    (h : StreamOk q c P s next) : StreamOk q c P s.onAck next := by
  have hh := h
  obtain ⟨h1, h2, h3, h4, h5, h6, h7, h0, h8, h9, h10, h11, h12, h13, hp⟩ := h
  unfold Conn.onAck
  cases hp with
  | published hwire hacks hpub hseen hk hs harr => rw [hacks]; exact hh
  | idle hwire hacks hq hpub hk hs hlive harr => rw [hacks]; exact hh
  | stuck l bs hwire hacks hq hpub hk hsent hs harr hbig hsl => rw [hacks]; exact hh
  | flying l bs run hwire hacks hq hpub hk hsent hs hsl hend hw harr => rw [hacks]; exact hh
  | answered hwire hacks hq hpub hk hs harr hpos =>
    rw [hacks]
    refine ⟨h1, h2, h3, h4, h5, h6, h7, h0, h8, h9, h10, h11, h12, h13,
      .published hwire rfl rfl ?_ hk hs harr⟩
    show s.ackSeen < next
    rcases hq with hq | ⟨hq, hq'⟩
    · omega
    · omega

theorem send_r (q : Req) (s : Conn α) (o : Int) : (s.send q o).r = s.r := by
  unfold Conn.send
  split <;> rfl

theorem step_r (parse : Parser α) (c : Cfg) (q : Req) (s : Conn α) (e : StEv α)
    (h : ∀ o, e ≠ .op o) : (s.step parse c q e).r = s.r := by
  cases e with
  | op o => exact absurd rfl (h o)
  | publish => rfl
  | stop => rfl
  | leader =>
    show (s.onLeader q).r = s.r
    unfold Conn.onLeader
    split
    · rfl
    · dsimp only
      split
      · rfl
      · split
        · rfl
        · exact send_r q _ _
  | consumer =>
    show (s.onConsumer q).r = s.r
    unfold Conn.onConsumer
    split
    · rfl
    · dsimp only
      split
      · rfl
      · split
        · rfl
        · exact send_r q _ _
  | receive =>
    show (s.onReceive parse q).r = s.r
    unfold Conn.onReceive
    split <;> rfl
  | ack =>
    show s.onAck.r = s.r
    unfold Conn.onAck
    split <;> rfl

theorem run_leo (parse : Parser α) (c : Cfg) (q : Req) (P : SBatch α → Prop) : ∀ (es : List (StEv α))
    (s : Conn α), ReplicaOk s.r → Seamless s.r → TimelyAll parse c q P s es →
    s.r.leo ≤ (s.run parse c q es).r.leo
  | [], _, _, _, _ => Int.le_refl _
  | e :: es, s, h1, h2, ht => by
    have ih := run_leo parse c q P es (s.step parse c q e)
    show s.r.leo ≤ ((s.step parse c q e).run parse c q es).r.leo
    by_cases he : ∃ o, e = .op o
    · obtain ⟨o, rfl⟩ := he
      have g := LiveOp.grows h1 h2 c ht.1
      have h3 : s.r.leo ≤ (s.step parse c q (.op o)).r.leo := g.le
      exact Int.le_trans h3 (ih g.ok g.seamless ht.2)
    · have hr := step_r parse c q s e (fun o ho => he ⟨o, ho⟩)
      have := ih (by rw [hr]; exact h1) (by rw [hr]; exact h2) ht.2
      rw [hr] at this
      exact this

theorem StreamOk.step {parse : Parser α} {q : Req} {c : Cfg} {P : SBatch α → Prop} {Q : Nat → Prop}
    (hc : c.segMax < 2 ^ 32) (hd : GoodDecoder parse c P Q) (hn : Q q.maxBytes) {s : Conn α} {next : Int}
    (h : StreamOk q c P s next) (hleo : s.r.leo < 2 ^ 63) (e : StEv α) (ht : e.Timely P s) :
    ∃ next', next ≤ next' ∧ StreamOk q c P (s.step parse c q e) next' := by
  cases e with
  | op o => exact ⟨next, Int.le_refl _, h.op ht⟩
  | publish =>
    have h6 := h.seen; have h7 := h.pub
    refine ⟨next, Int.le_refl _, h.ok, h.seamless, h.bounded, h.all, h.hw, ?_, Int.le_refl _, h.nonneg,
      h.lo, h.mid, h.hi, h.got, h.at_, h.last, ?_⟩
    · show s.seenEnd ≤ readEnd q.iso s.r; omega
    · cases h.phase with
      | flying l bs run hwire hacks hq hpub hk hsent hs hsl hend hw harr =>
        exact .flying l bs run hwire hacks hq hpub hk hsent hs hsl hend hw harr
      | answered hwire hacks hq hpub hk hs harr hpos =>
        exact .answered hwire hacks hq hpub hk hs harr hpos
      | published hwire hacks hpub hseen hk hs harr =>
        exact .published hwire hacks hpub hseen hk hs harr
      | idle hwire hacks hq hpub hk hs hlive harr => exact .idle hwire hacks hq hpub hk hs hlive harr
      | stuck l bs hwire hacks hq hpub hk hsent hs harr hbig hsl =>
        exact .stuck l bs hwire hacks hq hpub hk hsent hs harr hbig hsl
  | leader => exact ⟨next, Int.le_refl _, h.onLeader hc⟩
  | consumer => exact ⟨next, Int.le_refl _, h.onConsumer hc ht⟩
  | receive =>
    obtain ⟨n', k1, k2, _⟩ := h.onReceive hd hn hleo
    exact ⟨n', k1, k2⟩
  | ack => exact ⟨next, Int.le_refl _, h.onAck⟩
  | stop =>
    refine ⟨next, Int.le_refl _, h.ok, h.seamless, h.bounded, h.all, h.hw, h.seen, h.pub, h.nonneg,
      h.lo, h.mid, h.hi, h.got, h.at_, h.last, ?_⟩
    cases h.phase with
    | flying l bs run hwire hacks hq hpub hk hsent hs hsl hend hw harr =>
      exact .flying l bs run hwire hacks hq hpub hk hsent hs hsl hend hw harr
    | answered hwire hacks hq hpub hk hs harr hpos =>
      exact .answered hwire hacks hq hpub hk hs harr hpos
    | published hwire hacks hpub hseen hk hs harr =>
      exact .published hwire hacks hpub hseen hk hs harr
    | idle hwire hacks hq hpub hk hs hlive harr => exact .idle hwire hacks hq hpub hk hs hlive harr
    | stuck l bs hwire hacks hq hpub hk hsent hs harr hbig hsl =>
      exact .stuck l bs hwire hacks hq hpub hk hsent hs harr hbig hsl

theorem StreamOk.run {parse : Parser α} {q : Req} {c : Cfg} {P : SBatch α → Prop} {Q : Nat → Prop}
    (hc : c.segMax < 2 ^ 32) (hd : GoodDecoder parse c P Q) (hn : Q q.maxBytes) :
    ∀ (es : List (StEv α)) (s : Conn α) (next : Int), StreamOk q c P s next →
      TimelyAll parse c q P s es → (s.run parse c q es).r.leo < 2 ^ 63 →
      ∃ next', next ≤ next' ∧ StreamOk q c P (s.run parse c q es) next'
  | [], _, next, h, _, _ => ⟨next, Int.le_refl _, h⟩
  | e :: es, s, next, h, ht, hleo => by
    have hl := run_leo parse c q P (e :: es) s h.ok h.seamless ht
    obtain ⟨n1, h1, h2⟩ := h.step hc hd hn (by omega) e ht.1
    obtain ⟨n2, h3, h4⟩ := StreamOk.run hc hd hn es _ n1 h2 ht.2 hleo
    exact ⟨n2, by omega, h4⟩

/-- Nothing is under way, and both listeners have returned the current values. -/
def Conn.Quiescent (q : Req) (s : Conn α) : Prop :=
  s.wire = [] ∧ s.acks = [] ∧ s.ackPub = s.ackSeen ∧ s.pubEnd = readEnd q.iso s.r ∧ s.seenEnd = s.pubEnd

/-- In a quiescent state everything readable has been received. -/
theorem StreamOk.quiescent {q : Req} {c : Cfg} {P : SBatch α → Prop} {s : Conn α} {next : Int}
    (h : StreamOk q c P s next) (hw : ∀ b ∈ s.r.batches, b.width ≤ q.maxBytes) (hq : s.Quiescent q) :
    readEnd q.iso s.r ≤ next ∨ Unreadable s.r (readEnd q.iso s.r) next := by
  obtain ⟨q1, q2, q3, q4, q5⟩ := hq
  cases h.phase with
  | flying l bs run hwire => rw [q1] at hwire; cases hwire
  | answered hwire hacks => rw [q2] at hacks; cases hacks
  | published hwire hacks hpub hseen => omega
  | stuck l bs hwire hacks hq hpub hk hsent hs harr hbig hsl =>
    obtain ⟨b, hb, hb'⟩ := hbig
    exact absurd (hw b hb) hb'
  | idle hwire hacks hq hpub hk hs hlive harr =>
    rw [q5, q4] at hlive
    rcases hlive with h' | ⟨b, hb, hb'⟩ | h'
    · exact .inl h'
    · exact absurd (hw b hb) hb'
    · exact .inr h'

end Verif.Stream
