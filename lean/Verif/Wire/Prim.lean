import Verif.Wire.Varint

/-!
# Decoder combinators and fixed-width integers

`Local d`: what `d` returns does not depend on what follows the bytes it consumed.
-/

namespace Verif.Wire

/-- Sequential composition of decoders (`?` in the Rust code). -/
def Dec.bind {α β} (d : Dec α) (f : α → Dec β) : Dec β := fun bs =>
  match d bs with
  | .error e => .error e
  | .ok (a, rest) => f a rest

def Dec.pure {α} (a : α) : Dec α := fun bs => .ok (a, bs)

def Dec.fail {α} (e : Err) : Dec α := fun _ => .error e

/-- Success does not depend on the bytes after the consumed ones. -/
def Local {α} (d : Dec α) : Prop :=
  ∀ bs a rest, d bs = .ok (a, rest) → ∀ tl, d (bs ++ tl) = .ok (a, rest ++ tl)

/-- The decoder returns a suffix of its input. -/
def Suffix {α} (d : Dec α) : Prop :=
  ∀ bs a rest, d bs = .ok (a, rest) → ∃ used, bs = used ++ rest

theorem Local.bind {α β} {d : Dec α} {f : α → Dec β} (hd : Local d) (hf : ∀ a, Local (f a)) :
    Local (d.bind f) := by
  intro bs b rest h tl
  unfold Dec.bind at h ⊢
  cases hx : d bs with
  | error e => simp [hx] at h
  | ok x =>
    obtain ⟨a, r⟩ := x
    rw [hd bs a r hx tl]
    simp only [hx] at h
    exact hf a r b rest h tl

theorem Suffix.bind {α β} {d : Dec α} {f : α → Dec β} (hd : Suffix d) (hf : ∀ a, Suffix (f a)) :
    Suffix (d.bind f) := by
  intro bs b rest h
  unfold Dec.bind at h
  cases hx : d bs with
  | error e => simp [hx] at h
  | ok x =>
    obtain ⟨a, r⟩ := x
    simp only [hx] at h
    obtain ⟨u1, e1⟩ := hd bs a r hx
    obtain ⟨u2, e2⟩ := hf a r b rest h
    exact ⟨u1 ++ u2, by rw [e1, e2, List.append_assoc]⟩

theorem Local.pure {α} (a : α) : Local (Dec.pure a) := by
  intro bs b rest h tl
  simp only [Dec.pure, Except.ok.injEq, Prod.mk.injEq] at h ⊢
  exact ⟨h.1, by rw [h.2]⟩

theorem Suffix.pure {α} (a : α) : Suffix (Dec.pure a) := by
  intro bs b rest h
  simp only [Dec.pure, Except.ok.injEq, Prod.mk.injEq] at h
  exact ⟨[], by rw [h.2]; rfl⟩

theorem Local.fail {α} (e : Err) : Local (Dec.fail (α := α) e) := by
  intro bs b rest h; simp [Dec.fail] at h

theorem Suffix.fail {α} (e : Err) : Suffix (Dec.fail (α := α) e) := by
  intro bs b rest h; simp [Dec.fail] at h

theorem Dec.bind_ok {α β} {d : Dec α} {f : α → Dec β} {bs : Bytes} {a : α} {r : Bytes}
    (h : d bs = .ok (a, r)) : d.bind f bs = f a r := by
  simp [Dec.bind, h]

/-- Take exactly `n` bytes, or report `UnexpectedEof`: the `if src.remaining() < n { return Err }`
idiom of decoder.rs. -/
def takeN (n : Nat) : Dec Bytes := fun bs =>
  if bs.length < n then .error .eof else .ok (bs.take n, bs.drop n)

theorem takeN_append (xs rest : Bytes) : takeN xs.length (xs ++ rest) = .ok (xs, rest) := by
  simp [takeN]

theorem takeN_append' (n : Nat) (xs rest : Bytes) (h : xs.length = n) :
    takeN n (xs ++ rest) = .ok (xs, rest) := by
  subst h; exact takeN_append xs rest

theorem takeN_local (n : Nat) : Local (takeN n) := by
  intro bs a rest h tl
  unfold takeN at h ⊢
  split at h
  · simp at h
  · rename_i hl
    simp only [Except.ok.injEq, Prod.mk.injEq] at h
    rw [if_neg (by simp; omega), List.take_append_of_le_length (by omega),
      List.drop_append_of_le_length (by omega), h.1, h.2]

theorem takeN_suffix (n : Nat) : Suffix (takeN n) := by
  intro bs a rest h
  unfold takeN at h
  split at h
  · simp at h
  · simp only [Except.ok.injEq, Prod.mk.injEq] at h
    exact ⟨bs.take n, by rw [← h.2, List.take_append_drop]⟩

theorem takeN_length {n : Nat} {bs a rest : Bytes} (h : takeN n bs = .ok (a, rest)) : a.length = n := by
  unfold takeN at h
  split at h
  · simp at h
  · simp only [Except.ok.injEq, Prod.mk.injEq] at h
    rw [← h.1]; simp; omega

/-- `put_u8/u16/u32/u64` and their signed versions: `n` bytes, most significant first. -/
def beEnc : (n : Nat) → Nat → Bytes
  | 0, _ => []
  | n + 1, x => UInt8.ofNat (x / 256 ^ n) :: beEnc n x

/-- Value of a big-endian byte string (`get_u8/u16/u32/u64`). -/
def beVal : Bytes → Nat
  | [] => 0
  | b :: bs => b.toNat * 256 ^ bs.length + beVal bs

@[simp] theorem beEnc_length (n x : Nat) : (beEnc n x).length = n := by
  induction n with
  | zero => rfl
  | succ n ih => simp [beEnc, ih]

theorem beVal_beEnc (n x : Nat) : beVal (beEnc n x) = x % 256 ^ n := by
  induction n with
  | zero => simp [beEnc, beVal, Nat.mod_one]
  | succ n ih =>
    simp only [beEnc, beVal, beEnc_length, ih]
    have hp : 256 ^ (n + 1) = 256 ^ n * 256 := Nat.pow_succ _ _
    rw [UInt8.toNat_ofNat', hp, Nat.mod_mul, Nat.add_comm, Nat.mul_comm]

theorem beVal_lt (bs : Bytes) : beVal bs < 256 ^ bs.length := by
  induction bs with
  | nil => simp [beVal]
  | cons b bs ih =>
    simp only [beVal, List.length_cons, Nat.pow_succ]
    have := b.toNat_lt
    have : b.toNat * 256 ^ bs.length ≤ 255 * 256 ^ bs.length := Nat.mul_le_mul_right _ (by omega)
    omega

theorem beEnc_beVal (bs : Bytes) : beEnc bs.length (beVal bs) = bs := by
  have gen : ∀ (bs : Bytes) (k : Nat), beEnc bs.length (k * 256 ^ bs.length + beVal bs) = bs := by
    intro bs
    induction bs with
    | nil => intro k; rfl
    | cons b bs ih =>
      intro k
      simp only [List.length_cons, beEnc, beVal]
      have hl := beVal_lt bs
      have hp : 0 < 256 ^ bs.length := Nat.pow_pos (by decide)
      have hrw : k * 256 ^ (bs.length + 1) + (b.toNat * 256 ^ bs.length + beVal bs)
          = (k * 256 + b.toNat) * 256 ^ bs.length + beVal bs := by
        rw [Nat.pow_succ, Nat.add_mul, Nat.mul_assoc k, Nat.mul_comm 256]; omega
      rw [hrw, ih]
      congr 1
      apply UInt8.toNat_inj.1
      rw [UInt8.toNat_ofNat', Nat.add_comm, Nat.add_mul_div_right _ _ hp, Nat.div_eq_of_lt hl]
      have := b.toNat_lt
      omega
  simpa using gen bs 0

/-- `decode` of an integer of `n` bytes — decoder.rs:158-306. -/
def intDec (n : Nat) : Dec (BitVec (8 * n)) :=
  (takeN n).bind fun xs => Dec.pure (BitVec.ofNat (8 * n) (beVal xs))

/-- `encode` of an integer of `n` bytes — encoder.rs:176-391. -/
def intEnc (n : Nat) (x : BitVec (8 * n)) : Bytes := beEnc n x.toNat

theorem pow256 (n : Nat) : 256 ^ n = 2 ^ (8 * n) := by
  rw [Nat.pow_mul]

theorem intDec_intEnc (n : Nat) (x : BitVec (8 * n)) (rest : Bytes) :
    intDec n (intEnc n x ++ rest) = .ok (x, rest) := by
  unfold intDec intEnc
  rw [Dec.bind_ok (takeN_append' n _ rest (beEnc_length _ _))]
  simp only [Dec.pure, beVal_beEnc]
  congr 2
  apply BitVec.eq_of_toNat_eq
  rw [BitVec.toNat_ofNat, pow256, Nat.mod_mod]
  exact Nat.mod_eq_of_lt x.isLt

theorem intDec_local (n : Nat) : Local (intDec n) :=
  (takeN_local n).bind fun _ => Local.pure _

theorem intDec_suffix (n : Nat) : Suffix (intDec n) :=
  (takeN_suffix n).bind fun _ => Suffix.pure _

end Verif.Wire
