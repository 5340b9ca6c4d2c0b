import Verif.Wire.Codec

/-!
# Truncated encodings are reported as errors (not as panics)
-/

namespace Verif.Wire

/-- Every strict prefix of an encoding is answered by a reported error (not by a panic). -/
def PrefixSafe {α} (c : Codec α) : Prop :=
  ∀ v, c.wf v → ∀ p s, c.enc v = p ++ s → s ≠ [] → ∃ e, c.dec p = .error e ∧ e ≠ .panic

theorem takeN_short {n : Nat} {p : Bytes} (h : p.length < n) : takeN n p = .error .eof := by
  simp [takeN, h]

theorem intDec_short {n : Nat} {p : Bytes} (h : p.length < n) : intDec n p = .error .eof := by
  simp [intDec, Dec.bind, takeN_short h]

theorem bind_error {α β} {d : Dec α} {f : α → Dec β} {bs : Bytes} {e : Err} (h : d bs = .error e) :
    d.bind f bs = .error e := by
  simp [Dec.bind, h]

theorem prefix_length {xs p s : Bytes} (h : xs = p ++ s) (hs : s ≠ []) : p.length < xs.length := by
  have := List.length_pos_iff.2 hs
  rw [h, List.length_append]; omega

/-- A strict prefix of `a ++ b` is a strict prefix of `a`, or `a` followed by a strict prefix of `b`. -/
theorem prefix_split {a b p s : Bytes} (h : a ++ b = p ++ s) (_hs : s ≠ []) :
    (∃ s', a = p ++ s' ∧ s' ≠ []) ∨ (∃ p', p = a ++ p' ∧ b = p' ++ s) := by
  rcases List.append_eq_append_iff.1 h with ⟨x, h1, h2⟩ | ⟨x, h1, h2⟩
  · exact .inr ⟨x, h1, h2⟩
  · by_cases hx : x = []
    · subst hx
      refine .inr ⟨[], ?_, ?_⟩
      · simpa using h1.symm
      · simpa using h2.symm
    · exact .inl ⟨x, h1, hx⟩

theorem unitC_safe : PrefixSafe unitC := by
  intro v _ p s h hs
  have : p ++ s = [] := h.symm
  simp at this; exact absurd this.2 hs

theorem intC_safe (n : Nat) : PrefixSafe (intC n) := by
  intro v _ p s h hs
  have := prefix_length h hs
  simp only [intC, intEnc, beEnc_length] at this
  exact ⟨.eof, intDec_short this, by decide⟩

theorem boolC_safe : PrefixSafe boolC := by
  intro v _ p s h hs
  have := prefix_length h hs
  simp only [boolC, List.length_cons, List.length_nil] at this
  exact ⟨.eof, bind_error (takeN_short (by omega)), by decide⟩

theorem durationC_safe : PrefixSafe durationC := by
  intro v _ p s h hs
  have := prefix_length h hs
  simp only [durationC, List.length_append, beEnc_length] at this
  exact ⟨.eof, bind_error (takeN_short (by omega)), by decide⟩

theorem stringC_safe : PrefixSafe stringC := by
  intro v hv p s h hs
  have hv' : (strBytes v).length < 2 ^ 15 := hv
  rcases prefix_split h hs with ⟨s', h1, h2⟩ | ⟨p', h1, h2⟩
  · have := prefix_length h1 h2
    simp only [beEnc_length] at this
    exact ⟨.eof, bind_error (intDec_short (by omega)), by decide⟩
  · subst h1
    have hl := prefix_length h2 hs
    simp only [stringC]
    rw [Dec.bind_ok (intDec_beEnc 2 _ _)]
    have hi := ofNat_toInt_small (8 * 2) (strBytes v).length (by omega)
    have hn : (BitVec.ofNat (8 * 2) (strBytes v).length).toNat = (strBytes v).length := by
      rw [BitVec.toNat_ofNat]; exact Nat.mod_eq_of_lt (by omega)
    simp only [hi, hn]
    rw [if_neg (by omega)]
    split
    · exact ⟨_, rfl, by decide⟩
    · rw [if_pos (by rw [List.length_take]; omega)]
      exact ⟨_, rfl, by decide⟩

theorem leb_prefix_eof : ∀ (fuel n : Nat) (p s : Bytes) (num : BitVec 64) (shift : Nat),
    n < 128 ^ (fuel + 1) → shift + 7 * fuel < 64 → leb (fuel + 1) n = p ++ s → s ≠ [] →
    decLoop p num shift = .error .eof := by
  intro fuel
  induction fuel with
  | zero =>
    intro n p s num shift h _ he hs
    have : n < 128 := by omega
    have hl := prefix_length he hs
    unfold leb at hl
    simp only [if_pos this, List.length_cons, List.length_nil] at hl
    have : p = [] := List.length_eq_zero_iff.1 (by omega)
    subst this; rfl
  | succ f ih =>
    intro n p s num shift h hsh he hs
    unfold leb at he
    by_cases hv : n < 128
    · rw [if_pos hv] at he
      have hl := prefix_length he hs
      have : p = [] := List.length_eq_zero_iff.1 (by
        simp only [List.length_cons, List.length_nil] at hl; clear h; omega)
      subst this; rfl
    · rw [if_neg hv] at he
      cases p with
      | nil => rfl
      | cons b p =>
        simp only [List.cons_append, List.cons.injEq] at he
        obtain ⟨hb, he⟩ := he
        simp only [decLoop]
        rw [if_neg (by omega)]
        have hb' : b.toNat = n % 128 + 128 := by
          rw [← hb, UInt8.toNat_ofNat']; omega
        rw [if_neg (fun hh => by have := (dec_stop _).1 hh; omega)]
        have hp : 128 ^ (f + 1 + 1) = 128 ^ (f + 1) * 128 := Nat.pow_succ ..
        exact ih (n / 128) p s _ _ (by omega) (by omega) he hs

theorem leb_fuel : ∀ (a b n : Nat), n < 128 ^ (a + 1) → a ≤ b → leb (a + 1) n = leb (b + 1) n := by
  intro a
  induction a with
  | zero =>
    intro b n h _
    have : n < 128 := by omega
    simp only [leb, if_pos this]
  | succ a ih =>
    intro b n h hb
    obtain ⟨b', rfl⟩ : ∃ b', b = b' + 1 := ⟨b - 1, by omega⟩
    have hp : 128 ^ (a + 1 + 1) = 128 ^ (a + 1) * 128 := Nat.pow_succ ..
    have e := ih b' (n / 128) (by omega) (by omega)
    rw [show leb (a + 1 + 1) n = if n < 128 then [UInt8.ofNat n]
          else UInt8.ofNat (n % 128 + 128) :: leb (a + 1) (n / 128) from rfl,
      show leb (b' + 1 + 1) n = if n < 128 then [UInt8.ofNat n]
          else UInt8.ofNat (n % 128 + 128) :: leb (b' + 1) (n / 128) from rfl, e]

theorem varintC_safe : PrefixSafe varintC := by
  intro v hv p s h hs
  have e := varintC_enc v.toInt hv.1 hv.2
  rw [BitVec.ofInt_toInt] at e
  have hz := zigNat_lt _ hv.1 hv.2
  rw [e, ← leb_fuel 4 10 _ (Nat.lt_of_lt_of_le hz (by decide)) (by decide)] at h
  refine ⟨.eof, ?_, by decide⟩
  simp only [varintC, varintDecode]
  rw [leb_prefix_eof 4 (zigNat v.toInt) p s 0#64 0 (Nat.lt_of_lt_of_le hz (by decide)) (by decide) h hs]

theorem varBytesC_safe : PrefixSafe varBytesC := by
  intro v hv p s h hs
  have hv' : v.length < 2 ^ 31 := hv
  rcases prefix_split h hs with ⟨s', h1, h2⟩ | ⟨p', h1, h2⟩
  · obtain ⟨e, he, hp⟩ := varintC_safe _ (ofNat_wf _ hv') p s' h1 h2
    exact ⟨e, bind_error he, hp⟩
  · subst h1
    have hl := prefix_length h2 hs
    simp only [varBytesC]
    rw [Dec.bind_ok (varintC_lawful.roundtrip _ _ (ofNat_wf _ hv'))]
    have hi := ofNat_toInt_small 64 v.length (by omega)
    have hn : (BitVec.ofNat 64 v.length).toNat = v.length := by
      rw [BitVec.toNat_ofNat]; exact Nat.mod_eq_of_lt (by omega)
    simp only [hi, hn]
    rw [if_neg (by omega), if_pos (by rw [List.length_take]; omega)]
    exact ⟨_, rfl, by decide⟩

theorem optionC_safe {α} {c : Codec α} (hs : PrefixSafe c) : PrefixSafe (optionC c) := by
  intro v hv p s h hne
  cases v with
  | none =>
    obtain ⟨e, he, hp⟩ := boolC_safe false trivial p s h hne
    exact ⟨e, bind_error he, hp⟩
  | some v =>
    rcases prefix_split h hne with ⟨s', h1, h2⟩ | ⟨p', h1, h2⟩
    · obtain ⟨e, he, hp⟩ := boolC_safe true trivial p s' h1 h2
      exact ⟨e, bind_error he, hp⟩
    · subst h1
      obtain ⟨e, he, hp⟩ := hs v hv p' s h2 hne
      refine ⟨e, ?_, hp⟩
      simp only [optionC]
      rw [Dec.bind_ok (boolC_lawful.roundtrip true _ trivial), if_pos rfl, bind_error he]

theorem pairC_safe {α β} {a : Codec α} {b : Codec β} (la : Lawful a) (ha : PrefixSafe a)
    (hb : PrefixSafe b) : PrefixSafe (pairC a b) := by
  intro v hv p s h hne
  rcases prefix_split h hne with ⟨s', h1, h2⟩ | ⟨p', h1, h2⟩
  · obtain ⟨e, he, hp⟩ := ha v.1 hv.1 p s' h1 h2
    exact ⟨e, bind_error he, hp⟩
  · subst h1
    obtain ⟨e, he, hp⟩ := hb v.2 hv.2 p' s h2 hne
    refine ⟨e, ?_, hp⟩
    simp only [pairC]
    rw [Dec.bind_ok (la.roundtrip v.1 _ hv.1), bind_error he]

theorem decN_safe {α} {c : Codec α} (lc : Lawful c) (hc : PrefixSafe c) : ∀ (vs : List α) (p s : Bytes),
    (∀ v ∈ vs, c.wf v) → vs.flatMap c.enc = p ++ s → s ≠ [] →
    ∃ e, decN c.dec vs.length p = .error e ∧ e ≠ .panic
  | [], p, s, _, h, hs => by simp at h; exact absurd h.2 hs
  | v :: vs, p, s, hw, h, hs => by
    simp only [List.flatMap_cons] at h
    simp only [List.length_cons, decN]
    rcases prefix_split h hs with ⟨s', h1, h2⟩ | ⟨p', h1, h2⟩
    · obtain ⟨e, he, hp⟩ := hc v (hw v (by simp)) p s' h1 h2
      exact ⟨e, bind_error he, hp⟩
    · subst h1
      obtain ⟨e, he, hp⟩ := decN_safe lc hc vs p' s (fun w hh => hw w (by simp [hh])) h2 hs
      refine ⟨e, ?_, hp⟩
      rw [Dec.bind_ok (lc.roundtrip v _ (hw v (by simp))), bind_error he]

theorem vecC_safe {α} {c : Codec α} (lc : Lawful c) (hc : PrefixSafe c) : PrefixSafe (vecC c) := by
  intro vs hv p s h hne
  obtain ⟨hl, hw⟩ := hv
  rcases prefix_split h hne with ⟨s', h1, h2⟩ | ⟨p', h1, h2⟩
  · have := prefix_length h1 h2
    simp only [beEnc_length] at this
    exact ⟨.eof, bind_error (intDec_short (by omega)), by decide⟩
  · subst h1
    simp only [vecC]
    rw [Dec.bind_ok (intDec_beEnc 4 _ _)]
    have hi := ofNat_toInt_small (8 * 4) vs.length (by omega)
    rw [hi]
    by_cases h0 : vs.length = 0
    · rw [List.length_eq_zero_iff.1 h0] at h2
      simp at h2; exact absurd h2.2 hne
    · rw [if_neg (by omega)]
      exact decN_safe lc hc vs p' s hw h2 hne

theorem decMap_safe {κ ν} (lt : κ → κ → Bool) {ck : Codec κ} {cv : Codec ν} (lk : Lawful ck)
    (lv : Lawful cv) (hk : PrefixSafe ck) (hv : PrefixSafe cv) : ∀ (m acc : List (κ × ν)) (p s : Bytes),
    (∀ e ∈ m, ck.wf e.1 ∧ cv.wf e.2) →
    (m.flatMap fun e => ck.enc e.1 ++ cv.enc e.2) = p ++ s → s ≠ [] →
    ∃ e, decMap lt ck.dec cv.dec m.length acc p = .error e ∧ e ≠ .panic
  | [], _, p, s, _, h, hs => by simp at h; exact absurd h.2 hs
  | e :: m, acc, p, s, hw, h, hs => by
    simp only [List.flatMap_cons, List.append_assoc] at h
    obtain ⟨w1, w2⟩ := hw e (by simp)
    simp only [List.length_cons, decMap]
    rcases prefix_split h hs with ⟨s', h1, h2⟩ | ⟨p', h1, h2⟩
    · obtain ⟨e, he, hp⟩ := hk e.1 w1 p s' h1 h2
      exact ⟨e, bind_error he, hp⟩
    · subst h1
      rw [Dec.bind_ok (lk.roundtrip e.1 _ w1)]
      rcases prefix_split h2 hs with ⟨s'', h3, h4⟩ | ⟨p'', h3, h4⟩
      · obtain ⟨e, he, hp⟩ := hv e.2 w2 p' s'' h3 h4
        exact ⟨e, bind_error he, hp⟩
      · subst h3
        rw [Dec.bind_ok (lv.roundtrip e.2 _ w2)]
        exact decMap_safe lt lk lv hk hv m _ p'' s (fun w hh => hw w (by simp [hh])) h4 hs

theorem mapC_safe {κ ν} (lt : κ → κ → Bool) {ck : Codec κ} {cv : Codec ν} (lk : Lawful ck)
    (lv : Lawful cv) (hk : PrefixSafe ck) (hv : PrefixSafe cv) : PrefixSafe (mapC lt ck cv) := by
  intro m hm p s h hne
  obtain ⟨hl, hw, hp⟩ := hm
  rcases prefix_split h hne with ⟨s', h1, h2⟩ | ⟨p', h1, h2⟩
  · have := prefix_length h1 h2
    simp only [beEnc_length] at this
    exact ⟨.eof, bind_error (intDec_short (by omega)), by decide⟩
  · subst h1
    simp only [mapC]
    rw [Dec.bind_ok (intDec_beEnc 2 _ _)]
    have hn : (BitVec.ofNat (8 * 2) m.length).toNat = m.length := by
      rw [BitVec.toNat_ofNat]; exact Nat.mod_eq_of_lt (by omega)
    rw [hn]
    exact decMap_safe lt lk lv hk hv m [] p' s hw h2 hne

theorem enumNilC_safe (n : Nat) : PrefixSafe (enumNilC n) := fun v => nomatch v

theorem enumConsC_safe {α β} (n : Nat) (tag : BitVec (8 * n)) {p : Codec α} {r : Codec β}
    (sp : PrefixSafe p) (sr : PrefixSafe r) (tags : List (BitVec (8 * n)))
    (hs : StartsWith r n tags) (hd : tag ∉ tags) : PrefixSafe (enumConsC n tag p r) := by
  intro v hv q s h hne
  cases v with
  | inl v =>
    rcases prefix_split h hne with ⟨s', h1, h2⟩ | ⟨p', h1, h2⟩
    · have := prefix_length h1 h2
      simp only [intEnc, beEnc_length] at this
      refine ⟨.eof, ?_, by decide⟩
      simp only [enumConsC, intDec_short this]
    · subst h1
      obtain ⟨e, he, hp⟩ := sp v hv p' s h2 hne
      refine ⟨e, ?_, hp⟩
      simp only [enumConsC, intDec_intEnc, ↓reduceIte]
      rw [bind_error he]
  | inr w =>
    simp only [enumConsC] at h
    obtain ⟨e, he, hp⟩ := sr w hv q s h hne
    by_cases hq : q.length < n
    · refine ⟨.eof, ?_, by decide⟩
      simp only [enumConsC, intDec_short hq]
    · obtain ⟨t, ht, bs', e1⟩ := hs w []
      rw [List.append_nil, h] at e1
      cases hd' : intDec n q with
      | error e =>
        exfalso
        simp only [intDec, Dec.bind, takeN, if_neg hq, Dec.pure] at hd'
        cases hd'
      | ok x =>
        obtain ⟨t', q'⟩ := x
        have := intDec_local n q t' q' hd' s
        rw [this] at e1
        simp only [Except.ok.injEq, Prod.mk.injEq] at e1
        have hne : t' ≠ tag := fun hh => hd (by rw [← hh, e1.1]; exact ht)
        refine ⟨e, ?_, hp⟩
        simp only [enumConsC, hd', hne, ↓reduceIte]
        rw [bind_error he]

end Verif.Wire
