import Verif.Wire.Codec

/-!
# Frames on a connection (`fluvio-protocol/src/codec/mod.rs`)

Every message is preceded by its length, four bytes.
-/

namespace Verif.Net
open Verif.Wire

/-- Result of one call of the decoder. -/
inductive Decoded where
  /-- `Ok(None)`: wait for more bytes -/
  | wait
  | message (m rest : Bytes)
  | panic
deriving DecidableEq

/-- `FluvioCodec::decode` — codec/mod.rs:31-69.  `packet_len + 4` is computed in `i32`; the model
follows the release build, where it wraps around (a debug build panics). -/
def decode (buf : Bytes) : Decoded :=
  if buf.length = 0 then .wait
  else if 4 ≤ buf.length then
    match intDec 4 buf with
    | .error _ => .panic
    | .ok (len, _) =>
      let n : BitVec 64 := (len + 4#32).signExtend 64
      if n.toNat ≤ buf.length then
        if n.toNat < 4 then .panic
        else .message ((buf.take n.toNat).drop 4) (buf.drop n.toNat)
      else .wait
  else .wait

/-- `tokio_util`'s `FramedRead`: the decoder is called on the buffered bytes until it wants more.
The first argument bounds the number of calls. `none`: the decoder panicked. -/
def drain : Nat → Bytes → Option (List Bytes × Bytes)
  | 0, buf => some ([], buf)
  | fuel + 1, buf =>
    match decode buf with
    | .wait => some ([], buf)
    | .panic => none
    | .message m rest => (drain fuel rest).map fun p => (m :: p.1, p.2)

/-- A packet arrives: it is appended to the buffer. -/
def feed (buf packet : Bytes) : Option (List Bytes × Bytes) :=
  drain ((buf ++ packet).length + 1) (buf ++ packet)

/-- All packets of a connection: the messages delivered and what remains buffered. -/
def receive : Bytes → List Bytes → Option (List Bytes × Bytes)
  | buf, [] => some ([], buf)
  | buf, p :: ps =>
    match feed buf p with
    | none => none
    | some (ms, buf') => (receive buf' ps).map fun q => (ms ++ q.1, q.2)

/-- `FluvioCodec::encode` — codec/mod.rs:84-107: the announced size as `i32`, then the bytes. -/
def encodeFrame {α} (c : Codec α) (v : α) : Bytes :=
  intEnc 4 (BitVec.ofNat 32 (c.size v)) ++ c.enc v

/-- A message with its length in front. -/
def frame (m : Bytes) : Bytes := intEnc 4 (BitVec.ofNat 32 m.length) ++ m

theorem frame_length (m : Bytes) : (frame m).length = m.length + 4 := by
  unfold frame intEnc
  rw [List.length_append, beEnc_length]; omega

theorem encodeFrame_eq {α} {c : Codec α} (hc : RoundTrips c) {v : α} (hv : c.wf v) :
    encodeFrame c v = frame (c.enc v) := by
  unfold encodeFrame frame
  rw [hc.size_eq v hv]

theorem len_eq {n : Nat} (h : n + 4 < 2 ^ 31) :
    ((BitVec.ofNat 32 n + 4#32).signExtend 64).toNat = n + 4 := by
  have h1 : (BitVec.ofNat 32 n + 4#32) = BitVec.ofNat 32 (n + 4) := by
    rw [BitVec.ofNat_add]
  rw [h1, BitVec.toNat_signExtend]
  have hm : (BitVec.ofNat 32 (n + 4)).msb = false := by
    rw [BitVec.msb_eq_false_iff_two_mul_lt, BitVec.toNat_ofNat, Nat.mod_eq_of_lt (by omega)]; omega
  rw [hm]
  simp only [Bool.false_eq_true, if_false, Nat.add_zero,
    BitVec.toNat_setWidth, BitVec.toNat_ofNat]
  omega

/-- A complete frame at the front of the buffer is taken. -/
theorem decode_frame {m : Bytes} (hm : m.length + 4 < 2 ^ 31) (rest : Bytes) :
    decode (frame m ++ rest) = .message m rest := by
  have hl : (frame m ++ rest).length = m.length + 4 + rest.length := by
    rw [List.length_append, frame_length]
  unfold decode
  rw [if_neg (by omega), if_pos (by omega)]
  have hd : intDec 4 (frame m ++ rest) = .ok (BitVec.ofNat 32 m.length, m ++ rest) := by
    unfold frame
    rw [List.append_assoc]; exact intDec_intEnc 4 _ _
  rw [hd]
  dsimp only
  rw [len_eq hm, if_pos (by omega), if_neg (by omega)]
  have e1 : (frame m ++ rest).take (m.length + 4) = frame m := by
    rw [← frame_length m]; exact List.take_left
  have e2 : (frame m ++ rest).drop (m.length + 4) = rest := by
    rw [← frame_length m]; exact List.drop_left
  have e3 : (frame m).drop 4 = m := by
    unfold frame
    exact List.drop_left' (by unfold intEnc; rw [beEnc_length])
  rw [e1, e2, e3]

theorem prefix4 {a b : Bytes} (h : a <+: b) (h4 : 4 ≤ a.length) :
    ∃ x, intDec 4 a = .ok x ∧ ∃ y, intDec 4 b = .ok y ∧ x.1 = y.1 := by
  obtain ⟨t, rfl⟩ := h
  have : ∃ x, intDec 4 a = .ok x := by
    unfold intDec Dec.bind takeN
    rw [if_neg (by omega)]
    exact ⟨_, rfl⟩
  obtain ⟨⟨v, r⟩, hx⟩ := this
  exact ⟨_, hx, _, intDec_local 4 _ _ _ hx t, rfl⟩

/-- An incomplete frame is waited for. -/
theorem decode_short {m part : Bytes} (hm : m.length + 4 < 2 ^ 31) (hp : part <+: frame m)
    (hne : part ≠ frame m) : decode part = .wait := by
  have hlen : part.length < m.length + 4 := by
    have h1 := hp.length_le
    rw [frame_length] at h1
    rcases Nat.lt_or_ge part.length (m.length + 4) with h | h
    · exact h
    · exact absurd (hp.eq_of_length (by rw [frame_length]; omega)) hne
  unfold decode
  split
  · rfl
  · split
    · rename_i h4
      obtain ⟨x, hx, y, hy, hxy⟩ := prefix4 hp h4
      have hd : intDec 4 (frame m) = .ok (BitVec.ofNat 32 m.length, m) := by
        unfold frame; exact intDec_intEnc 4 _ _
      rw [hd] at hy
      cases hy
      obtain ⟨v, r⟩ := x
      dsimp only at hxy
      subst hxy
      rw [hx]
      dsimp only
      rw [len_eq hm, if_neg (by omega)]
    · rfl

theorem drain_message {buf m rest : Bytes} {fuel : Nat} (h : decode buf = .message m rest) :
    drain (fuel + 1) buf = (drain fuel rest).map fun p => (m :: p.1, p.2) := by
  simp only [drain, h]

theorem drain_wait {buf : Bytes} {fuel : Nat} (h : decode buf = .wait) :
    drain (fuel + 1) buf = some ([], buf) := by
  simp only [drain, h]

/-- **Specification.** `ms` is what `bytes` carries completely and `rest` what is left over: a proper
part of the next frame. -/
def Split (bytes : Bytes) (all ms : List Bytes) (rest : Bytes) : Prop :=
  ∃ later, all = ms ++ later ∧ bytes = ms.flatMap frame ++ rest ∧
    match later with
    | [] => rest = []
    | m :: _ => rest <+: frame m ∧ rest ≠ frame m

/-- Draining delivers all complete frames. -/
theorem drain_split : ∀ (all : List Bytes) (buf : Bytes) (fuel : Nat),
    (∀ m ∈ all, m.length + 4 < 2 ^ 31) → buf <+: all.flatMap frame → buf.length < fuel →
    ∃ ms rest, drain fuel buf = some (ms, rest) ∧ Split buf all ms rest := by
  intro all
  induction all with
  | nil =>
    intro buf fuel _ hp hf
    have : buf = [] := by simpa using hp
    subst this
    refine ⟨[], [], ?_, [], rfl, rfl, rfl⟩
    cases fuel with
    | zero => rfl
    | succ n => simp [drain, decode]
  | cons m all ih =>
    intro buf fuel hm hp hf
    cases fuel with
    | zero => omega
    | succ fuel =>
      rcases Nat.lt_or_ge buf.length (frame m).length with hlt | hge
      · have hpm : buf <+: frame m := by
          rw [List.flatMap_cons] at hp
          exact List.prefix_of_prefix_length_le hp (List.prefix_append _ _) (Nat.le_of_lt hlt)
        have hne : buf ≠ frame m := by rintro rfl; exact Nat.lt_irrefl _ hlt
        refine ⟨[], buf, ?_, m :: all, rfl, rfl, hpm, hne⟩
        exact drain_wait (decode_short (hm m (by simp)) hpm hne)
      · rw [List.flatMap_cons] at hp
        obtain ⟨r, rfl⟩ : frame m <+: buf :=
          List.prefix_of_prefix_length_le (List.prefix_append _ _) hp hge
        have hr : r <+: all.flatMap frame := (List.prefix_append_right_inj _).1 hp
        have hfl := frame_length m
        rw [List.length_append] at hf
        obtain ⟨ms, rest, h1, later, h2, h3, h4⟩ :=
          ih r fuel (fun x hx => hm x (by simp [hx])) hr (by omega)
        refine ⟨m :: ms, rest, ?_, later, by rw [h2]; rfl, ?_, h4⟩
        · rw [drain_message (decode_frame (hm m (by simp)) r), h1]; rfl
        · simp only [h3, List.flatMap_cons, List.append_assoc]

/-- Whatever the packets, the messages delivered are those completely received. -/
theorem receive_split : ∀ (packets : List Bytes) (all : List Bytes) (buf : Bytes),
    (∀ m ∈ all, m.length + 4 < 2 ^ 31) → buf ++ packets.flatten <+: all.flatMap frame →
    (∃ later, all = later ∧ match later with
      | [] => buf = []
      | m :: _ => buf <+: frame m ∧ buf ≠ frame m) →
    ∃ ms rest, receive buf packets = some (ms, rest) ∧ Split (buf ++ packets.flatten) all ms rest := by
  intro packets
  induction packets with
  | nil =>
    intro all buf _ _ hb
    obtain ⟨later, rfl, hb⟩ := hb
    exact ⟨[], buf, rfl, all, rfl, by simp, hb⟩
  | cons p ps ih =>
    intro all buf hm hp _
    rw [List.flatten_cons, ← List.append_assoc] at hp
    have hp1 : buf ++ p <+: all.flatMap frame := (List.prefix_append _ _).trans hp
    obtain ⟨ms, rest, h1, later, h2, h3, h4⟩ :=
      drain_split all (buf ++ p) ((buf ++ p).length + 1) hm hp1 (by omega)
    subst h2
    have hp2 : rest ++ ps.flatten <+: later.flatMap frame := by
      rw [h3, List.append_assoc, List.flatMap_append] at hp
      exact (List.prefix_append_right_inj _).1 hp
    obtain ⟨ms', rest', g1, later', g2, g3, g4⟩ :=
      ih later rest (fun x hx => hm x (by simp [hx])) hp2 ⟨later, rfl, h4⟩
    subst g2
    refine ⟨ms ++ ms', rest', ?_, later', by rw [List.append_assoc], ?_, g4⟩
    · unfold receive feed
      rw [h1]
      dsimp only
      rw [g1]; rfl
    · rw [List.flatten_cons, ← List.append_assoc, h3, List.append_assoc, g3, List.flatMap_append,
        List.append_assoc]

/-! ### Length fields no encoder writes -/

theorem decode_negative {buf rest : Bytes} {len : BitVec 32} (h : intDec 4 buf = .ok (len, rest))
    (h4 : 4 ≤ buf.length) (h1 : -4 ≤ len.toInt) (h2 : len.toInt < 0) : decode buf = .panic := by
  have hn : ((len + 4#32).signExtend 64).toNat < 4 := by
    have h3 : (len + 4#32).toInt = len.toInt + 4 := by
      rw [BitVec.toInt_add, show (4#32).toInt = 4 from rfl, Int.bmod_eq_of_le] <;> omega
    have h5 : ((len + 4#32).signExtend 64).toInt = len.toInt + 4 := by
      rw [BitVec.toInt_signExtend_of_le (by omega), h3]
    have h6 := BitVec.toInt_eq_toNat_cond ((len + 4#32).signExtend 64)
    split at h6 <;> omega
  unfold decode
  rw [if_neg (by omega), if_pos h4, h]
  dsimp only
  rw [if_pos (by omega), if_pos hn]

theorem decode_waits {buf rest : Bytes} {len : BitVec 32} (h : intDec 4 buf = .ok (len, rest))
    (h4 : 4 ≤ buf.length) (hb : buf.length < 2 ^ 63) (h2 : len.toInt < -4 ∨ 2 ^ 31 - 4 ≤ len.toInt) :
    decode buf = .wait := by
  have hlo := BitVec.le_toInt len
  have hhi := @BitVec.toInt_lt _ len
  have hn : 2 ^ 63 ≤ ((len + 4#32).signExtend 64).toNat := by
    have h3 : (len + 4#32).toInt < 0 := by
      rw [BitVec.toInt_add, show (4#32).toInt = 4 from rfl]
      rcases h2 with h2 | h2
      · rw [Int.bmod_eq_of_le] <;> omega
      · unfold Int.bmod; dsimp only; split <;> omega
    have h5 : ((len + 4#32).signExtend 64).toInt = (len + 4#32).toInt :=
      BitVec.toInt_signExtend_of_le (by omega)
    have h6 := BitVec.toInt_eq_toNat_cond ((len + 4#32).signExtend 64)
    split at h6 <;> omega
  unfold decode
  rw [if_neg (by omega), if_pos h4, h]
  dsimp only
  rw [if_neg (by omega)]

end Verif.Net
