import Verif.Stream.Progress
import Verif.Misc.OffsetListener
import Verif.Props.Reader

/-!
# C31, C32: consumer streams

`Slice` and `Sent` (in `Verif.Stream.Inv`) say what a slice is and what it means that slices follow each
other.
-/

namespace Verif.Props
open Verif.Storage Verif.Wire Verif.Stream

variable {α : Type}

/-- **Specification.** The stored records from `start` on, of the batches that lie entirely before the
end up to which the stream may read. -/
def readable (iso : Isolation) (r : Replica α) (start : Int) : List (Int × α) :=
  ((r.batches.filter fun b => decide (b.last < readEnd iso r)).flatMap Stored.pairs).filter
    fun p => decide (start ≤ p.1)

/-- **Specification.** No batch is cut by `e`: a batch beginning before `e` ends before it. -/
def Uncut (r : Replica α) (e : Int) : Prop := ∀ b ∈ r.batches, b.base < e → b.last < e

theorem filter_flatMap_congr {β : Type} (p : α → Bool) (f : α → List β) (g g' : β → Bool) :
    ∀ l : List α, (∀ b ∈ l, p b = true → (f b).filter g = (f b).filter g') →
      (∀ b ∈ l, p b = false → (f b).filter g' = []) →
      ((l.filter p).flatMap f).filter g = (l.flatMap f).filter g'
  | [], _, _ => rfl
  | b :: l, h1, h2 => by
    have ih := filter_flatMap_congr p f g g' l (fun x hx => h1 x (by simp [hx])) fun x hx => h2 x (by simp [hx])
    by_cases hp : p b = true
    · rw [List.filter_cons_of_pos hp, List.flatMap_cons, List.flatMap_cons, List.filter_append,
        List.filter_append, ih, h1 b (by simp) hp]
    · rw [List.filter_cons_of_neg hp, List.flatMap_cons, List.filter_append, ih,
        h2 b (by simp) (by simpa using hp)]
      rfl

theorem pairs_offsets {r : Replica α} (h : ReplicaOk r) {b : Stored α} (hb : b ∈ r.batches) {p : Int × α}
    (hp : p ∈ b.pairs) : b.base ≤ p.1 ∧ p.1 ≤ b.last := by
  have h1 := honest_of_mem h hb
  have h2 : p ∈ shifted b.base b.batch.records := hp
  have h3 := shifted_mem h2
  have h4 := h1.2.1
  unfold Stored.last
  omega

theorem readable_eq {r : Replica α} (h : ReplicaOk r) (hs : Seamless r) {iso : Isolation} {start next : Int}
    (h1 : r.logStart ≤ next) (h2 : next ≤ readEnd iso r) (h3 : r.hw ≤ r.leo)
    (h4 : next = start ∨ Boundary r next)
    (h5 : readEnd iso r ≤ next ∨ Unreadable r (readEnd iso r) next) :
    between r start next = readable iso r start := by
  symm
  unfold readable between Replica.pairs
  have hle := readEnd_le (iso := iso) h3
  apply filter_flatMap_congr
  · intro b hb hp
    have hp' := of_decide_eq_true hp
    have hnext : b.last < next := by
      rcases h5 with h5 | h5
      · omega
      · by_cases hx : b.last < next
        · exact hx
        · exfalso
          have hlt : next < r.leo := by
            have := (hs : Chain _ _ _).mem hb; omega
          obtain ⟨pre, b0, post, e, k1, k2⟩ := exists_containing hs h1 hlt
          have hb0 : b0 ∈ r.batches := by rw [e]; simp
          have k3 := h5 b0 hb0 k1 k2
          rw [e, List.mem_append, List.mem_cons] at hb
          have hch : Chain r.logStart (pre ++ (b0 :: post)) r.leo := by rw [← e]; exact hs
          obtain ⟨y, c1, c2⟩ := hch.split
          rcases hb with hb | hb | hb
          · have := c1.mem hb; have := c2.1; omega
          · subst hb; omega
          · have := c2.2.2.mem hb; omega
    apply List.filter_congr
    intro p hpp
    have := pairs_offsets h hb hpp
    exact decide_eq_decide.2 ⟨fun hd => ⟨hd, by omega⟩, fun hd => hd.1⟩
  · intro b hb hp
    have hp' := of_decide_eq_false hp
    rw [List.filter_eq_nil_iff]
    intro p hpp hd
    have := pairs_offsets h hb hpp
    have hd' := of_decide_eq_true hd
    rcases h4 with h4 | h4
    · omega
    · have := h4 b hb (by omega) (by omega); omega

theorem readable_uncut {r : Replica α} (h : ReplicaOk r) {iso : Isolation} {start : Int}
    (hu : Uncut r (readEnd iso r)) : readable iso r start = between r start (readEnd iso r) := by
  unfold readable between Replica.pairs
  apply filter_flatMap_congr
  · intro b hb hp
    have hp' := of_decide_eq_true hp
    apply List.filter_congr
    intro p hpp
    have := pairs_offsets h hb hpp
    exact decide_eq_decide.2 ⟨fun hd => ⟨hd, by omega⟩, fun hd => hd.1⟩
  · intro b hb hp
    have hp' := of_decide_eq_false hp
    rw [List.filter_eq_nil_iff]
    intro p hpp hd
    have := pairs_offsets h hb hpp
    have hd' := of_decide_eq_true hd
    have := hu b hb (by omega)
    omega

/-- The partition when the stream is opened: any history without expiry by time. -/
structure Opened (c : Cfg) (P : SBatch α → Prop) (ops : List (Op α)) (q : Req) (pub : Int) : Prop where
  honest : ∀ op ∈ ops, op.Honest
  noTtl : ∀ op ∈ ops, ∀ e, op ≠ .cleanTtl e
  all : ∀ op ∈ ops, op.All P
  hw : (Replica.init.run c ops).1.hw ≤ (Replica.init.run c ops).1.leo
  pub_nonneg : 0 ≤ pub
  pub_le : pub ≤ readEnd q.iso (Replica.init.run c ops).1
  start_nonneg : 0 ≤ q.start
  start_ge : (Replica.init.run c ops).1.logStart ≤ q.start
  start_le : q.start ≤ readEnd q.iso (Replica.init.run c ops).1

/-- **Specification.** What a stream delivers, in state `s`: slices that follow each other from the batch
containing the start, each sent only after the previous one was acknowledged; what the application has
are exactly the stored records from the start up to what was taken; and when everything that was sent
has been acknowledged and all published offsets have been seen, that is everything readable. -/
structure Delivers (q : Req) (s : Conn α) : Prop where
  slices : ∃ l next, Sent s.r q.maxBytes q.start l next ∧
    (s.sent = l ∨ ∃ run bs, s.sent = l ++ [bs] ∧ Slice s.r q.maxBytes next run bs)
  waits : s.arrived ≤ s.sent.length ∧ s.sent.length ≤ s.arrived + 1
  quiet : s.Quiescent q → (∀ b ∈ s.r.batches, b.width ≤ q.maxBytes) → s.got = readable q.iso s.r q.start


theorem StreamOk.delivers {q : Req} {c : Cfg} {P : SBatch α → Prop} {s : Conn α} {next : Int}
    (h : StreamOk q c P s next) : Delivers q s := by
  refine ⟨?_, ?_, ?_⟩
  · cases h.phase with
    | flying l bs run hwire hacks hq hpub hk hsent hs hsl hend hw harr =>
      exact ⟨l, next, hs, .inr ⟨run, bs, hsent, hsl⟩⟩
    | answered hwire hacks hq hpub hk hs harr hpos => exact ⟨_, next, hs, .inl rfl⟩
    | published hwire hacks hpub hseen hk hs harr => exact ⟨_, next, hs, .inl rfl⟩
    | idle hwire hacks hq hpub hk hs hlive harr => exact ⟨_, next, hs, .inl rfl⟩
    | stuck l bs hwire hacks hq hpub hk hsent hs harr hbig hsl =>
      obtain ⟨run, hsl⟩ := hsl
      exact ⟨l, next, hs, .inr ⟨run, bs, hsent, hsl⟩⟩
  · cases h.phase with
    | flying l bs run hwire hacks hq hpub hk hsent hs hsl hend hw harr =>
      rw [hsent, harr, List.length_append]; exact ⟨by omega, Nat.le_refl _⟩
    | answered hwire hacks hq hpub hk hs harr hpos => omega
    | published hwire hacks hpub hseen hk hs harr => omega
    | idle hwire hacks hq hpub hk hs hlive harr => omega
    | stuck l bs hwire hacks hq hpub hk hsent hs harr hbig hsl =>
      rw [hsent, harr, List.length_append]; exact ⟨by omega, Nat.le_refl _⟩
  · intro hq hw
    rw [h.got]
    have := h.lo; have := h.mid
    exact readable_eq h.ok h.seamless (by omega) h.hi h.hw h.at_ (h.quiescent hw hq)

theorem Opened.start {c : Cfg} {P : SBatch α → Prop} {ops : List (Op α)} {q : Req} {pub : Int}
    (hc : c.segMax < 2 ^ 32) (h : Opened c P ops q pub) :
    StreamOk q c P (Conn.start q (Replica.init.run c ops).1 pub) q.start :=
  .start hc (ReplicaOk.run c ops Replica.init ReplicaOk.init h.honest)
    (Seamless.run c ops Replica.init ReplicaOk.init Seamless.init h.honest h.noTtl)
    (Bounded.run c ops (Bounded.init c))
    (all_run c ops Replica.init ReplicaOk.init (by intro b hb; cases hb) h.honest h.all)
    h.hw h.pub_nonneg h.pub_le h.start_nonneg h.start_ge h.start_le

/-- The general form, for any decoder that delivers complete batches only. -/
theorem stream_delivers {parse : Parser α} {P : SBatch α → Prop} {Q : Nat → Prop} {c : Cfg}
    (hc : c.segMax < 2 ^ 32) (hd : GoodDecoder parse c P Q) {ops : List (Op α)} {q : Req} {pub : Int}
    (hn : Q q.maxBytes) (h : Opened c P ops q pub) (es : List (StEv α)) :
    let s0 := Conn.start q (Replica.init.run c ops).1 pub
    let s := s0.run parse c q es
    TimelyAll parse c q P s0 es → s.r.leo < 2 ^ 63 →
    Delivers q s ∧
    (∃ next, q.start ≤ next ∧ next ≤ readEnd q.iso s.r ∧ s.got = between s.r q.start next) ∧
    (s.ended = false → (∀ b ∈ s.r.batches, b.width ≤ q.maxBytes) →
      ∃ es', (∀ e ∈ es', e ≠ .stop ∧ ∀ o, e ≠ .op o) ∧ TimelyAll parse c q P s es' ∧
        (s.run parse c q es').got = readable q.iso s.r q.start) := by
  intro s0 s ht hleo
  obtain ⟨next, _, hs⟩ := StreamOk.run hc hd hn es s0 q.start (h.start hc) ht hleo
  refine ⟨StreamOk.delivers hs, ⟨next, hs.mid, hs.hi, hs.got⟩, fun hon hw => ?_⟩
  obtain ⟨es', k1, k2, k3, k4⟩ := leads_quiescent hc hd hn hs hon hleo hw
  obtain ⟨next', _, hs'⟩ := StreamOk.run hc hd hn es' s next hs k2 (by rw [k4]; exact hleo)
  refine ⟨es', k1, k2, ?_⟩
  have := (StreamOk.delivers hs').quiet k3 (by rw [k4]; exact hw)
  rw [k4] at this
  exact this

theorem clientDecoder (z : Compressor) (hz : ∀ c bs, z.uncompress c (z.compress c bs) = some bs) (c : Cfg) :
    GoodDecoder (parseClient z) c (FromClient z) (c.segMax ≤ ·) := by
  intro n l hn hw hl
  exact parseClient_good hz n hl (by omega)

theorem wholeDecoder (rd : Bytes → List α) (c : Cfg) :
    GoodDecoder (parseWhole rd) c (fun b => RawBatch b ∧ ∀ e, rd (b.enc e) = b.records) (fun _ => True) := by
  intro n l _ _ hl
  exact parseWhole_good n (fun b hb => ⟨(hl b hb).1.1, (hl b hb).2.2⟩) fun b hb => (hl b hb).1.2

/-- A stream from any offset within the readable part of a partition with any history, while records are
written, watermarks rise, offsets are published and seen, responses and acknowledgements travel, all in
any interleaving: the slices follow each other, one acknowledgement apart; and from every state that is
not stopped the conversation can go on until everything readable has been received.

Missing: retention and reopening while the stream runs; byte limits below the segment size (the client
then loses records, `C13_violated_truncated_batch`; see `C31_reader_partial`); and late notifications of
acknowledgements, for which the claim is false: `C31_violated_late_notification`. -/
theorem C31_client_partial (z : Compressor) (hz : ∀ c bs, z.uncompress c (z.compress c bs) = some bs)
    (c : Cfg) (hc : c.segMax < 2 ^ 32) (ops : List (Op Record)) (q : Req) (pub : Int)
    (hn : c.segMax ≤ q.maxBytes) (h : Opened c (FromClient z) ops q pub) (es : List (StEv Record)) :
    let s0 := Conn.start q (Replica.init.run c ops).1 pub
    let s := s0.run (parseClient z) c q es
    TimelyAll (parseClient z) c q (FromClient z) s0 es → s.r.leo < 2 ^ 63 →
    Delivers q s ∧
    (s.ended = false → (∀ b ∈ s.r.batches, b.width ≤ q.maxBytes) →
      ∃ es', (∀ e ∈ es', e ≠ .stop ∧ ∀ o, e ≠ .op o) ∧
        TimelyAll (parseClient z) c q (FromClient z) s es' ∧
        (s.run (parseClient z) c q es').got = readable q.iso s.r q.start) := by
  intro s0 s ht hleo
  obtain ⟨h1, _, h3⟩ := stream_delivers hc (clientDecoder z hz c) hn h es ht hleo
  exact ⟨h1, h3⟩

/-- The same for a client that decodes complete batches only, with any byte limit. -/
theorem C31_reader_partial (rd : Bytes → List α) (c : Cfg) (hc : c.segMax < 2 ^ 32) (ops : List (Op α))
    (q : Req) (pub : Int)
    (h : Opened c (fun b => RawBatch b ∧ ∀ e, rd (b.enc e) = b.records) ops q pub) (es : List (StEv α)) :
    let s0 := Conn.start q (Replica.init.run c ops).1 pub
    let s := s0.run (parseWhole rd) c q es
    TimelyAll (parseWhole rd) c q (fun b => RawBatch b ∧ ∀ e, rd (b.enc e) = b.records) s0 es →
    s.r.leo < 2 ^ 63 →
    Delivers q s ∧
    (s.ended = false → (∀ b ∈ s.r.batches, b.width ≤ q.maxBytes) →
      ∃ es', (∀ e ∈ es', e ≠ .stop ∧ ∀ o, e ≠ .op o) ∧
        TimelyAll (parseWhole rd) c q (fun b => RawBatch b ∧ ∀ e, rd (b.enc e) = b.records) s es' ∧
        (s.run (parseWhole rd) c q es').got = readable q.iso s.r q.start) := by
  intro s0 s ht hleo
  obtain ⟨h1, _, h3⟩ := stream_delivers hc (wholeDecoder rd c) trivial h es ht hleo
  exact ⟨h1, h3⟩

/-- What the application sees, for every start offset and however the log is divided into batches: the
stored records from the start on, in order, up to some offset; and in a quiescent state up to the end of
what may be read (if that is not inside a batch). -/
theorem C32_client_partial (z : Compressor) (hz : ∀ c bs, z.uncompress c (z.compress c bs) = some bs)
    (c : Cfg) (hc : c.segMax < 2 ^ 32) (ops : List (Op Record)) (q : Req) (pub : Int)
    (hn : c.segMax ≤ q.maxBytes) (h : Opened c (FromClient z) ops q pub) (es : List (StEv Record)) :
    let s0 := Conn.start q (Replica.init.run c ops).1 pub
    let s := s0.run (parseClient z) c q es
    TimelyAll (parseClient z) c q (FromClient z) s0 es → s.r.leo < 2 ^ 63 →
    (∃ next, q.start ≤ next ∧ next ≤ readEnd q.iso s.r ∧
      s.got = s.r.pairs.filter fun p => decide (q.start ≤ p.1 ∧ p.1 < next)) ∧
    (s.Quiescent q → (∀ b ∈ s.r.batches, b.width ≤ q.maxBytes) → Uncut s.r (readEnd q.iso s.r) →
      s.got = s.r.pairs.filter fun p => decide (q.start ≤ p.1 ∧ p.1 < readEnd q.iso s.r)) := by
  intro s0 s ht hleo
  obtain ⟨h1, h2, _⟩ := stream_delivers hc (clientDecoder z hz c) hn h es ht hleo
  refine ⟨h2, fun hq hw hu => ?_⟩
  obtain ⟨next, _, hs⟩ := StreamOk.run hc (clientDecoder z hz c) hn es s0 q.start (h.start hc) ht hleo
  rw [h1.quiet hq hw]
  exact readable_uncut hs.ok hu

/-- `TakeRecords::poll_next` (streams with `disable_continuous`) — fluvio/src/consumer/mod.rs:643-701, on
the batches of each response; `remaining` starts as last stable offset minus start offset
(mod.rs:422-424, 569-570). -/
def takeResponses : Int → List (List (Stored α)) → List (List (Stored α))
  | _, [] => []
  | remaining, resp :: l =>
    if remaining ≤ 0 then []
    else resp :: takeResponses (max 0 (remaining - (resp.map fun b => b.batch.records.length).sum)) l

/-- If the start offset begins a batch, a stream that is not continuous delivers all records up to the
stable offset. -/
theorem C32_take_partial (stable : Int) : ∀ (resps : List (List (Stored α))) (start e : Int),
    Chain start resps.flatten e → (∀ b ∈ resps.flatten, HonestBatch b.batch) →
    ((takeResponses (stable - start) resps).flatten.flatMap Stored.pairs).filter (fun p => decide (p.1 < stable))
      = (resps.flatten.flatMap Stored.pairs).filter fun p => decide (p.1 < stable)
  | [], _, _, _, _ => rfl
  | resp :: l, start, e, hch, hh => by
    unfold takeResponses
    split
    · rename_i hle
      symm
      rw [show ([] : List (List (Stored α))).flatten.flatMap Stored.pairs = [] from rfl, List.filter_nil,
        List.filter_eq_nil_iff]
      intro p hp hd
      have := chain_offsets hch hh hp
      have := of_decide_eq_true hd
      omega
    · rename_i hlt
      rw [List.flatten_cons] at hch hh ⊢
      obtain ⟨x, h1, h2⟩ := hch.split
      have hx := (h1.pairs fun b hb => hh b (List.mem_append_left _ hb)).2
      have ih := C32_take_partial stable l x e h2 fun b hb => hh b (List.mem_append_right _ hb)
      rw [List.flatten_cons, List.flatMap_append, List.flatMap_append, List.filter_append,
        List.filter_append, ← ih]
      congr 4
      have hlen : ((resp.map fun b => b.batch.records.length).sum : Nat) =
          (resp.flatMap fun b => b.batch.records).length := by
        rw [List.length_flatMap]
      rw [hlen]
      by_cases hc : stable ≤ x
      · rw [show max 0 (stable - start - ((resp.flatMap fun b => b.batch.records).length : Int)) = 0 by omega]
        have : ∀ m : Int, m ≤ 0 → ∀ l : List (List (Stored α)), takeResponses m l = [] := by
          intro m hm l
          cases l with
          | nil => rfl
          | cons a l => unfold takeResponses; rw [if_pos hm]
        rw [this 0 (Int.le_refl _), this (stable - x) (by omega)]
      · congr 1
        omega

/-! Concrete cases: partitions with batches of two records. -/

def streamReq : Req := ⟨.uncommitted, 1000, 1⟩

theorem streamReq_opened :
    Opened clientCfg (FromClient noCompression) [Op.write [clientBatch, clientBatch] true none] streamReq 4 where
  honest := by
    intro op hop
    simp only [List.mem_cons, List.not_mem_nil, or_false] at hop
    subst hop
    intro b hb
    simp only [List.mem_cons, List.not_mem_nil, or_false, or_self] at hb
    subst hb; exact clientBatch_ok.1
  noTtl := by
    intro op hop e he
    simp only [List.mem_cons, List.not_mem_nil, or_false] at hop
    rw [hop] at he; cases he
  all := by
    intro op hop
    simp only [List.mem_cons, List.not_mem_nil, or_false] at hop
    subst hop
    intro b hb
    simp only [List.mem_cons, List.not_mem_nil, or_false, or_self] at hb
    subst hb; exact clientBatch_ok.2
  hw := by decide +kernel
  pub_nonneg := by decide
  pub_le := by decide +kernel
  start_nonneg := by decide
  start_ge := by decide +kernel
  start_le := by decide +kernel

def streamEvents : List (StEv Record) :=
  [.receive, .op (.write [clientBatch] true none), .ack, .publish, .consumer, .leader, .leader, .receive, .ack,
   .consumer]

/-- The start lies inside the first batch; a batch is written while the first slice is under way. -/
example : TimelyAll (parseClient noCompression) clientCfg streamReq (FromClient noCompression)
      (Conn.start streamReq (Replica.init.run clientCfg [Op.write [clientBatch, clientBatch] true none]).1 4)
      streamEvents ∧
    (let s := (Conn.start streamReq
        (Replica.init.run clientCfg [Op.write [clientBatch, clientBatch] true none]).1 4).run
          (parseClient noCompression) clientCfg streamReq streamEvents
     s.got.map (·.1) = [1, 2, 3, 4, 5] ∧ s.sent.length = 2 ∧ s.arrived = 2 ∧ s.r.leo < 2 ^ 63) := by
  refine ⟨⟨trivial, ?_, trivial, trivial, ?_, trivial, trivial, trivial, trivial, ?_, trivial⟩, ?_⟩
  · intro b hb
    simp only [List.mem_cons, List.not_mem_nil, or_false] at hb
    subst hb
    exact clientBatch_ok
  · show (_ : Int) ≠ _
    decide +kernel
  · show (_ : Int) ≠ _
    decide +kernel
  · decide +kernel

/-- a chain of two responses, cut in the middle of the second -/
example : Chain 0 [[⟨0, clientBatch⟩], [⟨2, clientBatch⟩]].flatten 4 ∧
    (takeResponses 3 [[⟨0, clientBatch⟩], [⟨2, clientBatch⟩]]).length = 2 ∧
    (takeResponses 2 [[⟨0, clientBatch⟩], [⟨2, clientBatch⟩]]).length = 1 :=
  ⟨⟨rfl, by decide +kernel, by decide +kernel, by decide +kernel, by show (_ : Int) = _; decide +kernel⟩,
    by decide +kernel, by decide +kernel⟩

/-- C31 fails when the notification of an acknowledgement comes late: the listener returns the value once
more, and the slice is sent a second time before the first one is acknowledged.  The application receives
records twice. -/
theorem C31_violated_late_notification :
    let r := (Replica.init.run clientCfg [Op.write [clientBatch, clientBatch, clientBatch] true none]).1
    let q : Req := ⟨.uncommitted, clientBatch.size, 0⟩
    let s := (Conn.start q r 6).run (parseClient noCompression) clientCfg q
      [.receive, .ack, .consumer, .consumer, .receive, .receive]
    s.sent.length = 3 ∧ s.arrived = 1 ∧ s.got.map (·.1) = [0, 1, 2, 3, 2, 3] := by decide +kernel

/-- A listener may return the same value twice: it takes the new value in its second check and is then
woken by the notification that belonged to it. -/
theorem C31_late_notification_happens :
    ∃ p, Misc.PubReach (-1) p ∧ (p.listeners 0).returned = [2, 2] := by
  open Misc in
  let p0 := Pub.init (-1)
  let p1 := p0.store 2
  let p2 : Pub := { p1 with listeners := setAt p1.listeners 0 ⟨2, .outside, [2]⟩ }
  let p3 : Pub := { p2 with listeners := setAt p2.listeners 0 ⟨2, .checked, [2]⟩ }
  let p4 : Pub := { p3 with listeners := setAt p3.listeners 0 ⟨2, .registered false, [2]⟩ }
  let p5 := p4.notify
  let p6 : Pub := { p5 with listeners := setAt p5.listeners 0 ⟨2, .waiting true, [2]⟩ }
  let p7 : Pub := { p6 with listeners := setAt p6.listeners 0 ⟨2, .outside, [2, 2]⟩ }
  refine ⟨p7, ?_, rfl⟩
  have h1 : PubReach (-1) p1 := .step .init (.store _ _)
  have h2 : PubReach (-1) p2 := .step h1 (.listen _ 0 _ rfl)
  have h3 : PubReach (-1) p3 := .step h2 (.listen _ 0 _ rfl)
  have h4 : PubReach (-1) p4 := .step h3 (.listen _ 0 _ rfl)
  have h5 : PubReach (-1) p5 := .step h4 (.notify _ (by decide))
  have h6 : PubReach (-1) p6 := .step h5 (.listen _ 0 _ rfl)
  exact .step h6 (.listen _ 0 _ rfl)

/-- A batch larger than the byte limit stops the stream for good: nothing is delivered, nothing is
acknowledged, and new records do not help. -/
theorem C31_violated_starvation :
    let r := (Replica.init.run clientCfg [Op.write [clientBatch] true none]).1
    let q : Req := ⟨.uncommitted, 10, 0⟩
    let s := (Conn.start q r 2).run (parseClient noCompression) clientCfg q
      [.receive, .consumer, .op (.write [clientBatch] true none), .publish, .leader]
    s.ended = false ∧ s.got = [] ∧ s.wire = [] ∧ s.acks = [] ∧ s.ackPub = s.ackSeen ∧ s.seenEnd = 4 ∧
    s.pubEnd = 4 ∧ s.r.leo = 4 := by
  refine ⟨by decide +kernel, by decide +kernel, by decide +kernel, by decide +kernel, by decide +kernel,
    by decide +kernel, by decide +kernel, by decide +kernel⟩

/-- C32 fails for streams that are not continuous when the start lies inside a batch: the records before
the start are counted, and the stream ends early.  (Start 1, stable offset 4: record 3 is missing.) -/
theorem C32_violated_take_records :
    let resps : List (List (Stored Record)) := [[⟨0, clientBatch⟩, ⟨2, { clientBatch with
      records := [sampleRecord], delta := 0 }⟩], [⟨3, { clientBatch with records := [sampleRecord], delta := 0 }⟩]]
    Chain 0 resps.flatten 4 ∧
    (((takeResponses (4 - 1) resps).flatten.flatMap Stored.pairs).filter fun p => decide (1 ≤ p.1)).map (·.1)
      = [1, 2] := by
  refine ⟨⟨rfl, by decide +kernel, by decide +kernel, by decide +kernel, by decide +kernel, by decide +kernel,
    by show (_ : Int) = _; decide +kernel⟩, by decide +kernel⟩

end Verif.Props
