import Verif.Smart.Wire

/-!
# C89: the host and a SmartModule understand each other

`Verif.Smart.Wire` encodes what the host passes to a module instance and what comes back, at the version of
the instance; the generated code of the guest decodes, runs the user function over the records and encodes.
The theorems say that nothing of this is noticed: the result is what the loop of the guest computes directly
on the records, as in `Verif.Smart.Chain` (C57).
-/

namespace Verif.Props
open Verif.Wire Verif.Smart

variable {μ : Type}

/-- A call, for any version and whatever the loop in the guest does: it is run on exactly the records, the base
offset and (from version 22; before, a zero) the base timestamp that the host has, and the host gets exactly
the records and the error the loop leaves — or an error of the call, if the guest is aborted. -/
theorem C89_call (v : Int) (body : μ → BitVec 64 → BitVec 64 → List Record → μ × Option Out) (m : μ)
    (base ts : BitVec 64) (rs : List Record) (h : RecsFit rs)
    (hout : ∀ o, (body m base (if 22 ≤ v then ts else 0) rs).2 = some o → OutFits o) :
    hostCall v body m (mkInput base ts rs) =
      ((body m base (if 22 ≤ v then ts else 0) rs).1,
        match (generalizing := false) (body m base (if 22 ≤ v then ts else 0) rs).2 with
        | none => .error .trap
        | some o => .ok o) :=
  hostCall_eq v body m base ts rs h _ _ rfl hout

/-- The call of an aggregate: the loop also gets the accumulator that the host keeps, and the host gets the
one the loop leaves (at versions before 16: nothing). -/
theorem C89_aggregate (v : Int)
    (body : μ → Bytes → BitVec 64 → BitVec 64 → List Record → μ × Option (Out × Bytes)) (m : μ) (acc : Bytes)
    (base ts : BitVec 64) (rs : List Record) (h : RecsFit rs) (ha : acc.length < 2 ^ 31)
    (hout : ∀ o, (body m acc base (if 22 ≤ v then ts else 0) rs).2 = some o → OutFits o.1 ∧ o.2.length < 2 ^ 31) :
    aggCall v body m acc (mkInput base ts rs) =
      ((body m acc base (if 22 ≤ v then ts else 0) rs).1,
        match (generalizing := false) (body m acc base (if 22 ≤ v then ts else 0) rs).2 with
        | none => .error .trap
        | some o => .ok (o.1, if 16 ≤ v then o.2 else [])) :=
  aggCall_eq v body m acc base ts rs h ha _ _ rfl hout

/-- A chain: with everything encoded and decoded between host and guests, at whatever versions, the chain does
what the chain on records (`chainProcess`, described by C57) does — same output, same error text, same
offset of the failing record, same memory and accumulators afterwards.  Required: the sizes of what each module
is given and puts out stay in the limits, and texts of errors below 32 KiB. -/
theorem C89_chain_partial (base ts : BitVec 64) (hbase : 0 ≤ base.toInt ∧ base.toInt < 2 ^ 63 - 2 ^ 31)
    (ws : List (WInst μ)) (rs : List Record)
    (hh : ∀ r ∈ rs, -2 ^ 31 ≤ r.headers.toInt ∧ r.headers.toInt < 2 ^ 31)
    (hw : ∀ w ∈ ws, w.acc.length < 2 ^ 31 ∧ (w.isAgg = true → 16 ≤ w.version))
    (hlim : ∀ k o, (chainProcess base.toInt ((ws.map (WInst.inst base ts)).take k) (rs.map toRec)).2 = some o →
      Limits o.successes ∧ ∀ e, o.error = some e → e.1.utf8ByteSize < 2 ^ 15) :
    (wireProcess base ts ws (mkInput base ts rs)).1 =
      List.zipWith WInst.with ws (chainProcess base.toInt (ws.map (WInst.inst base ts)) (rs.map toRec)).1 ∧
    match (chainProcess base.toInt (ws.map (WInst.inst base ts)) (rs.map toRec)).2 with
    | none => (wireProcess base ts ws (mkInput base ts rs)).2 = .error .trap
    | some o => ∃ out, (wireProcess base ts ws (mkInput base ts rs)).2 = .ok out ∧
        out.successes.map toRec = o.successes ∧
        out.error.map (fun e => (e.hint, e.offset.toInt)) = o.error := by
  obtain ⟨h1, h2, _⟩ := wireProcess_eq base ts hbase ws rs hh hw hlim
  refine ⟨h1, ?_⟩
  unfold Agrees at h2
  generalize chainProcess base.toInt (ws.map (WInst.inst base ts)) (rs.map toRec) = c at h2 ⊢
  obtain ⟨c1, c2⟩ := c
  cases c2 with
  | none => exact h2
  | some o => exact h2

/-- The accumulators stay in the limits, so that the next batch can be processed. -/
theorem C89_again_partial (base ts : BitVec 64) (hbase : 0 ≤ base.toInt ∧ base.toInt < 2 ^ 63 - 2 ^ 31)
    (ws : List (WInst μ)) (rs : List Record)
    (hh : ∀ r ∈ rs, -2 ^ 31 ≤ r.headers.toInt ∧ r.headers.toInt < 2 ^ 31)
    (hw : ∀ w ∈ ws, w.acc.length < 2 ^ 31 ∧ (w.isAgg = true → 16 ≤ w.version))
    (hlim : ∀ k o, (chainProcess base.toInt ((ws.map (WInst.inst base ts)).take k) (rs.map toRec)).2 = some o →
      Limits o.successes ∧ ∀ e, o.error = some e → e.1.utf8ByteSize < 2 ^ 15) :
    ∀ w ∈ (wireProcess base ts ws (mkInput base ts rs)).1, w.acc.length < 2 ^ 31 :=
  (wireProcess_eq base ts hbase ws rs hh hw hlim).2.2

/-- What an error says.  `rs` are the records given to a module, `fn` its user function: the records before
the one in the error have been processed (`o.successes` is what became of them), the user function failed on
this one with this text, and the error has its offset, key and value and the kind of the module. -/
theorem C89_error (fn : Fn μ Bytes String) (base : BitVec 64) (m : μ) (a : Bytes) (rs : List Record)
    (o : Out) (a' : Bytes) (e : RtError) (h : (loopW fn base m a rs).2 = some (o, a')) (he : o.error = some e) :
    ∃ pre r post, ∃ i : Inst μ Bytes String, rs = pre ++ r :: post ∧
      feed [⟨fn, m, a⟩] (pre.map toRec) = some ([i], o.successes.map toRec) ∧
      (fn.apply i.mem i.acc (toRec r)).2 = .error (.err e.hint) ∧
      e.offset = base + r.preamble.offsetDelta ∧ e.key = r.key ∧ e.value = r.value ∧
      (match fn with
        | .filter _ => e.kind = .filter
        | .map _ => e.kind = .map
        | .filterMap _ => e.kind = .filterMap
        | .arrayMap _ => e.kind = .arrayMap
        | .aggregate _ => e.kind = .aggregate) := by
  obtain ⟨pre, r, post, m1, a1, h1, h2, h3, h4⟩ := loopW_err fn base rs m a o a' e h he
  obtain ⟨hm, hr⟩ := loopRel fn base pre m a
  rw [h2] at hm hr
  refine ⟨pre, r, post, ⟨fn, m1, a1⟩, h1, ?_, ?_, by rw [h4]; rfl, by rw [h4]; rfl, by rw [h4]; rfl,
    by rw [h4]; cases fn <;> rfl⟩
  · cases hf : (guestLoop fn m a (pre.map toRec)).fail with
    | none =>
      rw [hf] at hr
      obtain ⟨out, k1, k2⟩ := hr
      injection k1 with k1
      injection k1 with k1 k3
      injection k1 with k1
      subst k1
      have hc : chainProcess base.toInt [(⟨fn, m, a⟩ : Inst μ Bytes String)] (pre.map toRec) =
          ([⟨fn, m1, a1⟩], some ⟨o.successes.map toRec, none⟩) := by
        simp only [chainProcess, Inst.process, hf]
        rw [← hm, ← k3, ← k2]
      cases hfd : feed [(⟨fn, m, a⟩ : Inst μ Bytes String)] (pre.map toRec) with
      | none =>
        rcases chainProcess_fail _ base.toInt _ hfd with h | ⟨o', e', h⟩
        · rw [hc] at h; cases h
        · rw [hc] at h; cases h
      | some x =>
        have hx := chainProcess_ok _ base.toInt _ x.1 x.2 hfd
        rw [hc] at hx
        injection hx with hx1 hx2
        injection hx2 with hx2
        injection hx2 with hx2 _
        rw [hx1, hx2]
    | some z =>
      rw [hf] at hr
      obtain ⟨f, x⟩ := z
      cases f with
      | trap => cases hr
      | err f =>
        obtain ⟨out, p', r', q', _, _, k, _⟩ := hr
        injection k with k
        injection k with k _
        injection k with _ k
        cases k
  · have := (applyW_eq fn m1 a1 r).2
    rw [h3] at this
    exact this.symm

private theorem readBack_status {α : Type} {c : Codec α} {b : BitVec 32} {n : Int} {x : Option Bytes} (hb : b.toInt = n)
    (hn : n < 0) : readBack c (some ⟨b, x⟩) = .error (.status n) := by
  unfold readBack
  dsimp only
  rw [hb, if_pos hn]

private theorem guestMain_bad {v : Int} {body : μ → BitVec 64 → BitVec 64 → List Record → μ × Option Out} {m : μ}
    {bytes rest : Bytes} {i : Input} {e : Err} (hd : (inputC v).dec bytes = .ok (i, rest))
    (hr : (vecC recordC).dec i.raw = .error e) : guestMain v body m bytes = (m, refused (-11) e) := by
  unfold guestMain
  rw [hd]
  dsimp only
  rw [hr]

private theorem aggMain_bad {v : Int}
    {body : μ → Bytes → BitVec 64 → BitVec 64 → List Record → μ × Option (Out × Bytes)} {m : μ} {bytes rest acc : Bytes}
    {i : Input} {e : Err} (hd : (aggInputC v).dec bytes = .ok ((i, acc), rest))
    (hr : (vecC recordC).dec i.raw = .error e) : aggMain v body m bytes = (m, refused (-22) e) := by
  unfold aggMain
  rw [hd]
  dsimp only
  rw [hr]

private theorem readBack_refused {α : Type} {c : Codec α} {k : Int} {e : Err} (hb : (BitVec.ofInt 32 k).toInt = k)
    (hk : k < 0) : readBack c (refused k e) = .error (if e = .panic then .trap else .status k) := by
  unfold refused
  by_cases hp : e = .panic
  · rw [if_pos hp, if_pos hp]; unfold readBack; dsimp only
  · rw [if_neg hp, if_neg hp, readBack_status hb hk]

/-- Records that cannot be decoded — the host passes on the bytes of a batch as they are stored — never reach a user
function: memory and accumulator stay as they were, and the host is told the cause, or that the call ended with a panic;
it never takes the call for a successful one without records. -/
theorem C89_garbled (v : Int) (i : Input) (hl : i.raw.length < 2 ^ 31) (e : Err) (he : (vecC recordC).dec i.raw = .error e) :
    (∀ (body : μ → BitVec 64 → BitVec 64 → List Record → μ × Option Out) (m : μ),
      hostCall v body m i = (m, .error (if e = .panic then CallErr.trap else CallErr.status (-11)))) ∧
    ∀ (body : μ → Bytes → BitVec 64 → BitVec 64 → List Record → μ × Option (Out × Bytes)) (m : μ) (acc : Bytes),
      acc.length < 2 ^ 31 → aggCall v body m acc i = (m, .error (if e = .panic then .trap else .status (-22))) := by
  constructor
  · intro body m
    have hd := inputC_dec v i [] hl
    rw [List.append_nil] at hd
    have hraw : (i.seen v).raw = i.raw := rfl
    have he' : (vecC recordC).dec (i.seen v).raw = .error e := by rw [hraw]; exact he
    have hg : guestMain v body m ((inputC v).enc i) = (m, refused (-11) e) := guestMain_bad hd he'
    unfold hostCall
    rw [hg]
    dsimp only
    rw [readBack_refused (by decide) (by decide)]
  · intro body m acc ha
    have hd0 := inputC_dec v i (rawC.enc acc) hl
    have hacc := rawC_rt.roundtrip acc [] (rawC_wf ha)
    rw [List.append_nil] at hacc
    have hd : (aggInputC v).dec ((aggInputC v).enc (i, acc)) = .ok ((i.seen v, acc), []) := by
      simp only [aggInputC, pairC]
      rw [Dec.bind_ok hd0, Dec.bind_ok hacc]
      rfl
    have hraw : (i.seen v).raw = i.raw := rfl
    have he' : (vecC recordC).dec (i.seen v).raw = .error e := by rw [hraw]; exact he
    have hg : aggMain v body m ((aggInputC v).enc (i, acc)) = (m, refused (-22) e) := aggMain_bad hd he'
    unfold aggCall
    rw [hg]
    dsimp only
    rw [readBack_refused (by decide) (by decide)]

/-- The bytes end within the number of records. -/
example : ∃ e, (vecC recordC).dec [0, 0, 1] = .error e ∧ e ≠ .panic := by
  refine ⟨.eof, ?_, by decide⟩
  have h : intDec 4 [0, 0, 1] = .error .eof := by rfl
  simp only [vecC, Dec.bind, h]

/-! ## Violation -/

/-- The text of 32768 letters. -/
def longText : String := String.ofList (List.replicate 32768 'a')

theorem letters_bytes (n : Nat) : strBytes (String.ofList (List.replicate n 'a')) = List.replicate n 97 := by
  have h : ∀ n : Nat, (List.replicate n 'a').flatMap String.utf8EncodeChar = List.replicate n 97 := by
    intro n
    induction n with
    | zero => rfl
    | succ n ih =>
      rw [List.replicate_succ, List.flatMap_cons, ih, List.replicate_succ]
      rfl
  unfold strBytes
  rw [String.toByteArray_ofList, List.utf8Encode, h]
  simp

theorem longText_bytes : strBytes longText = List.replicate 32768 97 := letters_bytes 32768

private def rec1 : Record := ⟨⟨0, 0, 0⟩, none, [1], 0⟩
private def rec2 : Record := ⟨⟨0, 0, 1⟩, none, [2], 0⟩

/-- A filter that keeps the value 1 and fails on others, with a text. -/
private def picky (text : String) : Fn Unit Bytes String :=
  .filter fun m r => (m, if r.val = [1] then .ok true else .error (.err text))

private def pickyW (v : Int) (text : String) : WInst Unit :=
  ⟨v, fun _ _ => picky text, false, (), [], fun _ _ _ => nofun⟩

/-- **Finding.** The text of a user error (`format!("{error:?}")`, which for an `eyre` report has all causes
and the location) is encoded as a string with a 16-bit length that is read as a signed number.  If it has
32 KiB or more, the host cannot read the output of the call: instead of the records processed so far and the
error with the record it is about, the caller gets a decoding error. -/
theorem C89_violated_long_error (v : Int) :
    (chainProcess 0 [(pickyW v longText).inst 0 0] [toRec rec1, toRec rec2]).2 =
      some ⟨[toRec rec1], some (longText, 1)⟩ ∧
    (wireProcess 0 0 [pickyW v longText] (mkInput 0 0 [rec1, rec2])).2 = .error .decode := by
  constructor
  · rfl
  · have hf : RecsFit [rec1, rec2] := by
      refine ⟨fun r hr => ?_, by decide⟩
      simp only [List.mem_cons, List.not_mem_nil, or_false] at hr
      rcases hr with rfl | rfl <;> decide
    have hs : RecsFit [rec1] := by
      refine ⟨fun r hr => ?_, by decide⟩
      simp only [List.mem_cons, List.not_mem_nil, or_false] at hr
      subst hr
      decide
    have hc := hostCall_long v (fun m b t rs => ((loopW ((pickyW v longText).fn b t) b m [] rs).1,
        (loopW ((pickyW v longText).fn b t) b m [] rs).2.map Prod.fst)) () 0 0 [rec1, rec2] hf () [rec1]
        ⟨longText, 1, .filter, none, [2]⟩ rfl hs
        (by rw [longText_bytes, List.length_replicate]; decide)
        (by rw [longText_bytes, List.length_replicate]; decide)
        (by
          intro b hb
          rw [longText_bytes, List.getElem?_replicate] at hb
          split at hb
          · injection hb with hb; subst hb; decide
          · cases hb)
    rw [wireProcess_one]
    unfold WInst.process
    rw [if_neg nofun]
    have hv : (pickyW v longText).version = v := rfl
    have hm : (pickyW v longText).mem = () := rfl
    rw [hv, hm, hc]

/-- The hypotheses of the theorems about a chain are met, for the same module with a short text. -/
example : let ws := [pickyW 22 "no", pickyW 25 "never"]
    (∀ w ∈ ws, w.acc.length < 2 ^ 31 ∧ (w.isAgg = true → 16 ≤ w.version)) ∧
    ∀ k o, (chainProcess 0 ((ws.map (WInst.inst 0 0)).take k) [toRec rec1, toRec rec2]).2 = some o →
      Limits o.successes ∧ ∀ e, o.error = some e → e.1.utf8ByteSize < 2 ^ 15 := by
  intro ws
  refine ⟨?_, ?_⟩
  · intro w hw
    simp only [ws, List.mem_cons, List.not_mem_nil, or_false] at hw
    rcases hw with rfl | rfl
    · exact ⟨by decide, nofun⟩
    · exact ⟨by decide, nofun⟩
  · intro k o h
    have hl1 : Limits [toRec rec1] := by
      refine ⟨fun r hr => ?_, by decide⟩
      rw [List.mem_singleton] at hr
      subst hr
      decide
    have hl2 : Limits [toRec rec1, toRec rec2] := by
      refine ⟨fun r hr => ?_, by decide⟩
      simp only [List.mem_cons, List.not_mem_nil, or_false] at hr
      rcases hr with rfl | rfl <;> decide
    match k with
    | 0 =>
      have : (⟨[toRec rec1, toRec rec2], none⟩ : Output Bytes String) = o := Option.some.inj h
      subst this
      exact ⟨hl2, nofun⟩
    | 1 =>
      have : (⟨[toRec rec1], some ("no", 1)⟩ : Output Bytes String) = o := Option.some.inj h
      subst this
      exact ⟨hl1, fun e he => by injection he with he; subst he; decide⟩
    | k + 2 =>
      have hk : (ws.map (WInst.inst 0 0)).take (k + 2) = ws.map (WInst.inst 0 0) := by
        simp [ws]
      rw [hk] at h
      have : (⟨[toRec rec1], some ("no", 1)⟩ : Output Bytes String) = o := Option.some.inj h
      subst this
      exact ⟨hl1, fun e he => by injection he with he; subst he; decide⟩

/-- The hypotheses of the theorem about a call are met. -/
example : RecsFit [rec1, rec2] ∧ OutFits ⟨[rec1], some ⟨"no", 1, .filter, none, [2]⟩⟩ := by
  have hs : ∀ l : List Record, (∀ r ∈ l, r = rec1 ∨ r = rec2) → l.length ≤ 2 → RecsFit l := by
    intro l hl hn
    refine ⟨fun r hr => ?_, ?_⟩
    · rcases hl r hr with rfl | rfl <;> decide
    · match l, hl, hn with
      | [], _, _ => decide
      | [a], hl, _ => rcases hl a (by simp) with rfl | rfl <;> decide
      | [a, b], hl, _ =>
        rcases hl a (by simp) with rfl | rfl <;> rcases hl b (by simp) with rfl | rfl <;> decide
      | _ :: _ :: _ :: _, _, hn => simp at hn
  exact ⟨hs _ (by simp) (by decide), hs _ (by simp) (by decide), fun e he => by injection he with he; subst he; decide⟩

end Verif.Props
