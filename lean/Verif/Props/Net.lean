import Verif.Net.Frame
import Verif.Net.Version
import Verif.Wire.Universe

namespace Verif.Props
open Verif.Net Verif.Wire

/-! ## C46 Version negotiation -/

/-- **Specification.** The server announces support for version `v` of the API `key`. -/
def ServerSupports (table : List ApiVersionKey) (key v : Int) : Prop :=
  ∃ e ∈ table, e.apiKey = key ∧ e.minVersion ≤ v ∧ v ≤ e.maxVersion

/-- **Specification.** The client can speak version `v`. -/
def ClientSupports (r : RequestType) (v : Int) : Prop := r.minVersion ≤ v ∧ v ≤ r.maxVersion

/-- **Specification.** A table with proper ranges and one entry per API. -/
def ProperTable (table : List ApiVersionKey) : Prop :=
  (∀ e ∈ table, e.minVersion ≤ e.maxVersion) ∧ table.Pairwise fun a b => a.apiKey ≠ b.apiKey

theorem lookup_sound {r : RequestType} {table : List ApiVersionKey} {v : Int}
    (h : lookupVersion r table = some v) :
    ∃ e ∈ table, e.apiKey = r.apiKey ∧ r.minVersion ≤ e.maxVersion ∧ e.minVersion ≤ r.maxVersion ∧
      v = min r.maxVersion e.maxVersion := by
  induction table with
  | nil => cases h
  | cons e t ih =>
    unfold lookupVersion at h
    split at h
    · rename_i hk
      split at h
      · rename_i hv
        cases h
        exact ⟨e, by simp, hk, hv.1, hv.2, rfl⟩
      · obtain ⟨x, hx, hrest⟩ := ih h
        exact ⟨x, by simp [hx], hrest⟩
    · obtain ⟨x, hx, hrest⟩ := ih h
      exact ⟨x, by simp [hx], hrest⟩

theorem lookup_none {r : RequestType} {table : List ApiVersionKey} (h : lookupVersion r table = none) :
    ∀ e ∈ table, e.apiKey = r.apiKey → ¬ (r.minVersion ≤ e.maxVersion ∧ e.minVersion ≤ r.maxVersion) := by
  induction table with
  | nil => intro e he; cases he
  | cons x t ih =>
    unfold lookupVersion at h
    intro e he hk
    split at h
    · split at h
      · cases h
      · rename_i hv
        rcases List.mem_cons.1 he with rfl | he
        · exact hv
        · exact ih h e he hk
    · rename_i hx
      rcases List.mem_cons.1 he with rfl | he
      · exact absurd hk hx
      · exact ih h e he hk

/-- **C46.** With a proper server table, the version looked up is the highest one that both sides
support, and there is none exactly if no version is supported by both. -/
theorem C46_highest_common (r : RequestType) (table : List ApiVersionKey)
    (hr : r.minVersion ≤ r.maxVersion) (ht : ProperTable table) :
    (∀ v, lookupVersion r table = some v ↔
      (ClientSupports r v ∧ ServerSupports table r.apiKey v ∧
        ∀ w, ClientSupports r w → ServerSupports table r.apiKey w → w ≤ v)) ∧
    (lookupVersion r table = none ↔
      ∀ v, ¬ (ClientSupports r v ∧ ServerSupports table r.apiKey v)) := by
  have huniq : ∀ a ∈ table, ∀ b ∈ table, a.apiKey = b.apiKey → a = b := by
    intro a ha b hb hab
    obtain ⟨i, hi, rfl⟩ := List.getElem_of_mem ha
    obtain ⟨j, hj, rfl⟩ := List.getElem_of_mem hb
    have hp := List.pairwise_iff_getElem.1 ht.2
    rcases Nat.lt_trichotomy i j with h | h | h
    · exact absurd hab (hp i j hi hj h)
    · subst h; rfl
    · exact absurd hab.symm (hp j i hj hi h)
  have hsome : ∀ v, lookupVersion r table = some v →
      (ClientSupports r v ∧ ServerSupports table r.apiKey v ∧
        ∀ w, ClientSupports r w → ServerSupports table r.apiKey w → w ≤ v) := by
    intro v hv
    obtain ⟨e, he, hk, h1, h2, rfl⟩ := lookup_sound hv
    have h3 := ht.1 e he
    refine ⟨⟨by omega, by omega⟩, ⟨e, he, hk, by omega, by omega⟩, ?_⟩
    intro w hw hs
    obtain ⟨e', he', hk', h4, h5⟩ := hs
    have := huniq e he e' he' (by rw [hk, hk'])
    subst this
    have := hw.2
    omega
  have hnone : lookupVersion r table = none →
      ∀ v, ¬ (ClientSupports r v ∧ ServerSupports table r.apiKey v) := by
    intro hn v hv
    obtain ⟨⟨h1, h2⟩, e, he, hk, h3, h4⟩ := hv
    exact lookup_none hn e he hk ⟨by omega, by omega⟩
  refine ⟨fun v => ⟨hsome v, ?_⟩, hnone, ?_⟩
  · intro ⟨h1, h2, h3⟩
    cases hl : lookupVersion r table with
    | none => exact absurd ⟨h1, h2⟩ (hnone hl v)
    | some w =>
      have hw := hsome w hl
      have a := h3 w hw.1 hw.2.1
      have b := hw.2.2 v h1 h2
      congr 1; omega
  · intro h
    cases hl : lookupVersion r table with
    | none => rfl
    | some w => exact absurd ⟨(hsome w hl).1, (hsome w hl).2.1⟩ (h w)

/-- The tables the servers send are proper, whatever `COMMON_VERSION` is (at least 15). -/
theorem C46_server_tables (common : Int) (old : Bool) (h : 15 ≤ common) :
    ProperTable (spuTable common old) ∧ ProperTable (scTable common) := by
  constructor
  · constructor
    · intro e he
      simp only [spuTable, List.mem_cons, List.not_mem_nil, or_false] at he
      rcases he with rfl | rfl | rfl | rfl | rfl <;> dsimp only <;> (try split) <;> omega
    · simp [spuTable]
  · constructor
    · intro e he
      simp only [scTable, List.mem_cons, List.not_mem_nil, or_false] at he
      rcases he with rfl | rfl | rfl | rfl | rfl | rfl <;> dsimp only <;> omega
    · simp [scTable]

/-- Non-vacuity: a stream-fetch request of an older client against the SPU table; an unknown API. -/
example : lookupVersion ⟨1003, 10, 20, 20⟩ (spuTable 25 false) = some 20 := by decide
example : lookupVersion ⟨1003, 10, 30, 30⟩ (spuTable 25 false) = some 25 := by decide
example : lookupVersion ⟨1002, 10, 24, 24⟩ (spuTable 25 false) = none := by decide

/-- What is sent if there is no common version: the request goes out all the same, with the client's
default version (finding: nothing stops the client). -/
theorem C46_sent_anyway : ∃ r table, ProperTable table ∧ r.minVersion ≤ r.maxVersion ∧
    lookupVersion r table = none ∧
    ¬ ServerSupports table r.apiKey (headerVersion r (lookupVersion r table)) := by
  refine ⟨⟨1002, 10, 24, 24⟩, spuTable 25 false, (C46_server_tables 25 false (by omega)).1,
    by decide, by decide, ?_⟩
  rintro ⟨e, he, hk, h1, h2⟩
  have hv : headerVersion ⟨1002, 10, 24, 24⟩ (lookupVersion ⟨1002, 10, 24, 24⟩ (spuTable 25 false)) = 24 := by
    decide
  rw [hv] at h1 h2
  simp only [spuTable, List.mem_cons, List.not_mem_nil, or_false] at he
  rcases he with rfl | rfl | rfl | rfl | rfl <;> simp at hk h1 h2

/-! ## C51 Frames -/

/-- **C51.** Values written one after another, each with its length in front, are all delivered, in
order and nothing else, however the bytes are cut into packets; and each delivered message decodes to
the value sent.  (A message must be shorter than 2^31 - 4 bytes.) -/
theorem C51_frames {α : Type} (c : Codec α) (hc : RoundTrips c) (vs : List α)
    (hv : ∀ v ∈ vs, c.wf v ∧ (c.enc v).length + 4 < 2 ^ 31) (packets : List Bytes)
    (hp : packets.flatten = vs.flatMap (encodeFrame c)) :
    ∃ ms, receive [] packets = some (ms, []) ∧ ms.map c.dec = vs.map fun v => .ok (v, []) := by
  have hfm : vs.flatMap (encodeFrame c) = (vs.map c.enc).flatMap frame := by
    rw [List.flatMap_map]
    clear hp
    induction vs with
    | nil => rfl
    | cons v vs ih =>
      rw [List.flatMap_cons, List.flatMap_cons, encodeFrame_eq hc (hv v (by simp)).1,
        ih (fun w hw => hv w (by simp [hw]))]
  have hlen : ∀ m ∈ vs.map c.enc, m.length + 4 < 2 ^ 31 := by
    intro m hm
    obtain ⟨v, hv', rfl⟩ := List.mem_map.1 hm
    exact (hv v hv').2
  rw [hfm] at hp
  have hstart : ∃ later, vs.map c.enc = later ∧ match later with
      | [] => ([] : Bytes) = []
      | m :: _ => [] <+: frame m ∧ [] ≠ frame m := by
    refine ⟨_, rfl, ?_⟩
    cases vs.map c.enc with
    | nil => rfl
    | cons m l =>
      refine ⟨List.nil_prefix, fun h => ?_⟩
      have := frame_length m
      rw [← h] at this
      simp at this
  obtain ⟨ms, rest, h1, later, h2, h3, h4⟩ := receive_split packets (vs.map c.enc) [] hlen
    (by rw [List.nil_append, hp]; exact List.prefix_rfl) hstart
  rw [List.nil_append, hp, h2, List.flatMap_append] at h3
  have h5 : later.flatMap frame = rest := List.append_cancel_left h3
  have h6 : later = [] := by
    cases later with
    | nil => rfl
    | cons m l =>
      obtain ⟨h7, h8⟩ := h4
      rw [List.flatMap_cons] at h5
      have h9 := h7.length_le
      rw [← h5, List.length_append] at h9
      have : l.flatMap frame = [] := List.length_eq_zero_iff.1 (by omega)
      rw [this, List.append_nil] at h5
      exact absurd h5.symm h8
  subst h6
  rw [List.append_nil] at h2
  have h10 : rest = [] := h4
  subst h10
  refine ⟨ms, h1, ?_⟩
  rw [← h2, List.map_map]
  apply List.map_congr_left
  intro v hv'
  have := hc.roundtrip v [] (hv v hv').1
  rw [List.append_nil] at this
  exact this

/-- **C51, at any moment.** If only part of the bytes has arrived, exactly the messages completely
received have been delivered. -/
theorem C51_so_far (all : List Bytes) (hm : ∀ m ∈ all, m.length + 4 < 2 ^ 31) (packets : List Bytes)
    (hp : packets.flatten <+: all.flatMap frame) :
    ∃ ms rest, receive [] packets = some (ms, rest) ∧ ms <+: all ∧
      packets.flatten = ms.flatMap frame ++ rest ∧
      ∀ m l, all = ms ++ m :: l → rest.length < (frame m).length := by
  have hstart : ∃ later, all = later ∧ match later with
      | [] => ([] : Bytes) = []
      | m :: _ => [] <+: frame m ∧ [] ≠ frame m := by
    refine ⟨_, rfl, ?_⟩
    cases all with
    | nil => rfl
    | cons m l =>
      refine ⟨List.nil_prefix, fun h => ?_⟩
      have := frame_length m
      rw [← h] at this
      simp at this
  obtain ⟨ms, rest, h1, later, h2, h3, h4⟩ := receive_split packets all [] hm (by simpa using hp) hstart
  refine ⟨ms, rest, h1, ⟨later, h2.symm⟩, by simpa using h3, ?_⟩
  intro m l he
  rw [h2] at he
  have := List.append_cancel_left he
  subst this
  obtain ⟨h5, h6⟩ := h4
  rcases Nat.lt_or_ge rest.length (frame m).length with h | h
  · exact h
  · exact absurd (h5.eq_of_length (Nat.le_antisymm h5.length_le h)) h6

/-- Non-vacuity: two booleans and a string, cut after the third and the seventh byte. -/
example : receive [] [[0, 0, 0], [1, 1, 0, 0], [0, 1, 0]] = some ([[1], [0]], []) := by decide +kernel
example : (encodeFrame boolC true ++ encodeFrame boolC false) = [0, 0, 0, 1, 1, 0, 0, 0, 1, 0] := by
  decide +kernel
example : receive [] [[0, 0, 0], [1, 1, 0, 0], [0]] = some ([[1]], [0, 0, 0]) := by decide +kernel

/-- A length field between -4 and -1 (no encoder writes one) makes the receiver panic, and one below -4
or close to 2^31 makes it wait for ever (finding: the length is not checked). -/
theorem C51_bad_length (buf rest : Bytes) (len : BitVec 32) (h : intDec 4 buf = .ok (len, rest))
    (h4 : 4 ≤ buf.length) (hb : buf.length < 2 ^ 63) :
    (-4 ≤ len.toInt → len.toInt < 0 → decode buf = .panic) ∧
    (len.toInt < -4 ∨ 2 ^ 31 - 4 ≤ len.toInt → decode buf = .wait) :=
  ⟨fun h1 h2 => decode_negative h h4 h1 h2, fun h2 => decode_waits h h4 hb h2⟩

example : decode [0xff, 0xff, 0xff, 0xff, 1, 2] = .panic := by decide +kernel

end Verif.Props
