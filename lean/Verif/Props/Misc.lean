import Verif.Misc.OffsetListener
import Verif.Misc.PartitionName
import Verif.Sc.Name

namespace Verif.Props
open Verif.Misc Verif.Sc

/-! ## C44 Resource names -/

/-- **Specification.** The characters a name may contain. -/
def nameChar (c : Char) : Prop := c ∈ "abcdefghijklmnopqrstuvwxyz0123456789-".toList

theorem le_iff (a c : Char) : a ≤ c ↔ a.toNat ≤ c.toNat := Iff.rfl

theorem char_of_nat {c d : Char} (h : c.toNat = d.toNat) : c = d := Char.toNat_inj.1 h

theorem isOk_iff (c : Char) : (isAsciiLowercase c || isAsciiDigit c || c == '-') = true ↔ nameChar c := by
  unfold nameChar isAsciiLowercase isAsciiDigit
  simp only [Bool.or_eq_true, Bool.and_eq_true, decide_eq_true_eq, beq_iff_eq, le_iff]
  constructor
  · intro h
    have hn : (97 ≤ c.toNat ∧ c.toNat ≤ 122) ∨ (48 ≤ c.toNat ∧ c.toNat ≤ 57) ∨ c.toNat = 45 := by
      rcases h with (h | h) | h
      · exact .inl h
      · exact .inr (.inl h)
      · subst h; exact .inr (.inr rfl)
    have hx : ∀ n : Nat, (97 ≤ n ∧ n ≤ 122) ∨ (48 ≤ n ∧ n ≤ 57) ∨ n = 45 →
        Char.ofNat n ∈ "abcdefghijklmnopqrstuvwxyz0123456789-".toList := by
      intro n hn
      have : n < 123 := by omega
      revert hn
      have key : ∀ m : Fin 123, ((97 ≤ m.val ∧ m.val ≤ 122) ∨ (48 ≤ m.val ∧ m.val ≤ 57) ∨ m.val = 45) →
        Char.ofNat m.val ∈ "abcdefghijklmnopqrstuvwxyz0123456789-".toList := by decide +kernel
      exact key ⟨n, this⟩
    have := hx c.toNat hn
    rwa [Char.ofNat_toNat] at this
  · intro h
    have key : ∀ d ∈ "abcdefghijklmnopqrstuvwxyz0123456789-".toList,
        ((97 ≤ d.toNat ∧ d.toNat ≤ 122) ∨ (48 ≤ d.toNat ∧ d.toNat ≤ 57)) ∨ d = '-' := by decide +kernel
    exact key c h

theorem utf8Size_nameChar {c : Char} (h : nameChar c) : c.utf8Size = 1 := by
  have key : ∀ d ∈ "abcdefghijklmnopqrstuvwxyz0123456789-".toList, d.utf8Size = 1 := by decide +kernel
  exact key c h

theorem byteLen_ge (name : List Char) : name.length ≤ byteLen name := by
  unfold byteLen
  induction name with
  | nil => simp
  | cons c l ih =>
    have := Char.utf8Size_pos c
    simp only [List.length_cons, List.map_cons, List.sum_cons]; omega

theorem byteLen_eq {name : List Char} (h : ∀ c ∈ name, nameChar c) : byteLen name = name.length := by
  unfold byteLen
  induction name with
  | nil => rfl
  | cons c l ih =>
    have h1 := ih (fun d hd => h d (by simp [hd]))
    have h2 := utf8Size_nameChar (h c (by simp))
    simp only [List.length_cons, List.map_cons, List.sum_cons]; omega

/-- **C44, what is proved.** A name is accepted if and only if it has at most 63 characters, all of
them lower-case letters, digits or '-', and neither starts nor ends with '-'.  Missing: the empty name
must be rejected (`C44_violated_empty`). -/
theorem C44_accepted_partial (name : List Char) :
    validateResourceName name = .ok ↔
      (name.length ≤ 63 ∧ (∀ c ∈ name, nameChar c) ∧ name.head? ≠ some '-' ∧
        name.getLast? ≠ some '-') := by
  unfold validateResourceName
  constructor
  · intro h
    split at h
    · cases h
    · rename_i hl
      split at h
      · rename_i hc
        simp only [Bool.and_eq_true, List.all_eq_true, Bool.not_eq_true', beq_eq_false_iff_ne, ne_eq] at hc
        have := byteLen_ge name
        unfold maxNameLen at hl
        exact ⟨by omega, fun c hx => (isOk_iff c).1 (hc.1.1 c hx), hc.2, hc.1.2⟩
      · cases h
  · rintro ⟨h1, h2, h3, h4⟩
    rw [if_neg (by rw [byteLen_eq h2]; unfold maxNameLen; omega), if_pos]
    simp only [Bool.and_eq_true, List.all_eq_true, Bool.not_eq_true', beq_eq_false_iff_ne, ne_eq]
    exact ⟨⟨fun c hx => (isOk_iff c).2 (h2 c hx), h4⟩, h3⟩

/-- The empty name is accepted, contrary to C44. -/
theorem C44_violated_empty : validateResourceName [] = .ok := by decide

example : validateResourceName "prices-list-2".toList = .ok := by decide +kernel
example : validateResourceName "-helloworld".toList = .invalidCharacter := by decide +kernel
example : validateResourceName "größe".toList = .invalidCharacter := by decide +kernel
/-- 40 characters of two bytes are too long, although only 63 characters are the limit. -/
example : validateResourceName (List.replicate 40 'ö') = .lengthExceeded := by decide +kernel

/-! ## C49 Partition names -/

/-- **C49 for replica keys** (`ReplicaKey`: partition numbers are `u32`).  The name is parsed back, and
different keys have different names, whatever the topic is called. -/
theorem C49_replica_key (t1 t2 : List Char) (p1 p2 : Nat) (h1 : p1 < 2 ^ 32) (h2 : p2 < 2 ^ 32) :
    decompose false (2 ^ 32 - 1) (partitionName t1 p1) = some (t1, (p1 : Int)) ∧
    (partitionName t1 p1 = partitionName t2 p2 → t1 = t2 ∧ p1 = p2) := by
  have d1 := decompose_name (signed := false) (max := 2 ^ 32 - 1) t1 (n := p1) (by omega)
  have d2 := decompose_name (signed := false) (max := 2 ^ 32 - 1) t2 (n := p2) (by omega)
  refine ⟨d1, fun h => ?_⟩
  rw [h, d2] at d1
  simp only [Option.some.injEq, Prod.mk.injEq] at d1
  exact ⟨d1.1.symm, by omega⟩

/-- **C49 for `create_partition_name`** (partition numbers are `i32`).  Proved for all numbers that are
not negative; missing: negative ones (`C49_violated_negative`). -/
theorem C49_signed_partial (t1 t2 : List Char) (p1 p2 : Int) (h1 : 0 ≤ p1) (h1' : p1 < 2 ^ 31)
    (h2 : 0 ≤ p2) (h2' : p2 < 2 ^ 31) :
    decompose true (2 ^ 31 - 1) (partitionName t1 p1) = some (t1, p1) ∧
    (partitionName t1 p1 = partitionName t2 p2 → t1 = t2 ∧ p1 = p2) := by
  have d1 := decompose_name (signed := true) (max := 2 ^ 31 - 1) t1 (n := p1.toNat) (by omega)
  have d2 := decompose_name (signed := true) (max := 2 ^ 31 - 1) t2 (n := p2.toNat) (by omega)
  rw [Int.toNat_of_nonneg h1] at d1
  rw [Int.toNat_of_nonneg h2] at d2
  refine ⟨d1, fun h => ?_⟩
  rw [h, d2] at d1
  simp only [Option.some.injEq, Prod.mk.injEq] at d1
  exact ⟨d1.1.symm, d1.2.symm⟩

/-- A negative number is read back as another topic with the opposite number, and that pair has the
same name. -/
theorem C49_violated_negative (t : List Char) (n : Nat) (h0 : 0 < n) (h : n < 2 ^ 31) :
    decompose true (2 ^ 31 - 1) (partitionName t (-(n : Int))) = some (t ++ ['-'], (n : Int)) ∧
    partitionName t (-(n : Int)) = partitionName (t ++ ['-']) n ∧
    ((t, -(n : Int)) ≠ (t ++ ['-'], (n : Int))) := by
  refine ⟨decompose_negative t h0 (by omega), ?_, ?_⟩
  · unfold partitionName showInt
    rw [if_neg (by omega), if_pos (by omega)]
    simp
  · simp

/-- **Specification.** The value of decimal digits. -/
def decimal (s : List Char) : Nat := s.foldl (fun n c => 10 * n + (c.toNat - '0'.toNat)) 0

private theorem parseDigits_sound {max : Nat} : ∀ {s : List Char} {acc n : Nat}, parseDigits max acc s = some n →
    (∀ c ∈ s, '0' ≤ c ∧ c ≤ '9') ∧ n = s.foldl (fun n c => 10 * n + (c.toNat - '0'.toNat)) acc ∧ (acc ≤ max → n ≤ max)
  | [], acc, n, h => by
    simp only [parseDigits, Option.some.injEq] at h
    exact ⟨fun _ hc => absurd hc List.not_mem_nil, by simp [h], fun ha => by omega⟩
  | c :: s, acc, n, h => by
    simp only [parseDigits] at h
    split at h
    · cases h
    · rename_i d hd
      split at h
      · split at h
        · rename_i h1 h2
          obtain ⟨i1, i2, i3⟩ := parseDigits_sound h
          unfold digit at hd
          split at hd
          · rename_i hc
            injection hd with hd
            refine ⟨fun x hx => ?_, ?_, fun _ => i3 h2⟩
            · rcases List.mem_cons.1 hx with rfl | hx
              · exact ⟨Char.le_def.2 hc.1, Char.le_def.2 hc.2⟩
              · exact i1 x hx
            · rw [i2, List.foldl_cons, ← hd, Nat.mul_comm acc 10]
              rfl
          · cases hd
        · cases h
      · cases h

/-- Whatever is accepted as a name consists of the topic, a dash, possibly a plus sign, and decimal digits; the number
is their value and in range. -/
theorem C49_parse_sound (signed : Bool) (max : Nat) (name t : List Char) (p : Int)
    (h : decompose signed max name = some (t, p)) :
    ∃ sign ds, name = t ++ '-' :: (sign ++ ds) ∧ (sign = [] ∨ sign = ['+']) ∧ ds ≠ [] ∧
      (∀ c ∈ ds, '0' ≤ c ∧ c ≤ '9') ∧ p = (decimal ds : Int) ∧ decimal ds ≤ max := by
  unfold decompose at h
  split at h
  · cases h
  · rename_i a b hs
    split at h
    · cases h
    · rename_i hb
      rw [Option.map_eq_some_iff] at h
      obtain ⟨x, hx, he⟩ := h
      cases he
      obtain ⟨h1, h2⟩ := splitLastDash_some hs
      unfold parseNum at hx
      split at hx
      · cases hx
      · cases hx
      · cases hx
      · rename_i cs hn
        rw [Option.map_eq_some_iff] at hx
        obtain ⟨n, hn', rfl⟩ := hx
        obtain ⟨d1, d2, d3⟩ := parseDigits_sound hn'
        exact ⟨['+'], cs, h1, .inr rfl, fun h0 => hn (by rw [h0]), d1, by rw [d2]; rfl, by
          have := d3 (Nat.zero_le _)
          rw [d2] at this
          exact this⟩
      · exact absurd (by simp) h2
      · rw [Option.map_eq_some_iff] at hx
        obtain ⟨n, hn', rfl⟩ := hx
        obtain ⟨d1, d2, d3⟩ := parseDigits_sound hn'
        exact ⟨[], b, h1, .inl rfl, hb, d1, by rw [d2]; rfl, by
          have := d3 (Nat.zero_le _)
          rw [d2] at this
          exact this⟩

example : partitionName "my-topic-1".toList 12 = "my-topic-1-12".toList := by decide +kernel
example : decompose false (2 ^ 32 - 1) "my-topic-1-12".toList = some ("my-topic-1".toList, 12) := by
  decide +kernel
/-- A leading '+' is accepted, so that parsing is not the inverse of printing on all strings. -/
example : decompose false (2 ^ 32 - 1) "t-+5".toList = some ("t".toList, 5) := by decide +kernel
example : decompose false (2 ^ 32 - 1) "t-4294967296".toList = none := by decide +kernel

/-! ## C50 Offset listeners -/

/-- **C50, no waiting.** A listener that starts to listen while the published value differs from the
last one it returned gets the published value at once. -/
theorem C50_no_wait (l : Listener) (value : Int) (hl : l.phase = .outside) (h : value ≠ l.last) :
    l.next value = some ⟨value, .outside, value :: l.returned⟩ := by
  unfold Listener.next
  rw [hl]
  dsimp only
  rw [if_pos h]; rfl

/-- **C50, never stuck.** In every reachable state in which the published value differs from what a
listener returned last, and every publication has finished notifying, the listener returns the
published value within two steps of its own. -/
theorem C50_never_stuck (v : Int) (p : Pub) (h : PubReach v p) (i : Nat)
    (hne : p.value ≠ (p.listeners i).last) (hp : p.pending = 0) :
    ∃ k, k ≤ 2 ∧ Listener.steps p.value k (p.listeners i) =
      some ⟨p.value, .outside, p.value :: (p.listeners i).returned⟩ := by
  have ha := Awake.reach h i
  generalize p.listeners i = l at hne ha ⊢
  obtain ⟨last, phase, returned⟩ := l
  dsimp only at hne ha ⊢
  cases phase with
  | outside =>
    refine ⟨1, by omega, ?_⟩
    simp only [Listener.steps, Listener.next, if_pos hne, Option.bind_some, Listener.ret]
  | checked =>
    refine ⟨2, by omega, ?_⟩
    simp only [Listener.steps, Listener.next, if_pos hne, Option.bind_some, Listener.ret]
  | registered w =>
    refine ⟨1, by omega, ?_⟩
    simp only [Listener.steps, Listener.next, if_pos hne, Option.bind_some, Listener.ret]
  | waiting w =>
    cases w with
    | true =>
      refine ⟨1, by omega, ?_⟩
      simp only [Listener.steps, Listener.next, Option.bind_some, Listener.ret]
    | false =>
      rcases ha rfl with h1 | h1
      · exact absurd h1 hne
      · omega

/-- The remaining notifications are carried out. -/
def notifyAll : Nat → Pub → Pub
  | 0, p => p
  | k + 1, p => notifyAll k p.notify

theorem notifyAll_facts (v : Int) : ∀ (k : Nat) (p : Pub), PubReach v p → p.pending = k →
    PubReach v (notifyAll k p) ∧ (notifyAll k p).pending = 0 ∧ (notifyAll k p).value = p.value ∧
      ∀ i, ((notifyAll k p).listeners i).last = (p.listeners i).last := by
  intro k
  induction k with
  | zero => intro p h hp; exact ⟨h, hp, rfl, fun _ => rfl⟩
  | succ k ih =>
    intro p h hp
    have h1 : PubReach v p.notify := .step h (.notify p (by omega))
    obtain ⟨a, b, c, d⟩ := ih p.notify h1 (by show p.pending - 1 = k; omega)
    refine ⟨a, b, c, fun i => ?_⟩
    have := d i
    rw [show notifyAll (k + 1) p = notifyAll k p.notify from rfl, this]
    exact (wake_fields _).1

/-- **C50, unseen data.** Whatever has happened, once the publications under way have notified, a
listener that has not returned the published value does so within two steps of its own: it never sleeps
on unseen data. -/
theorem C50_unseen_data (v : Int) (p : Pub) (h : PubReach v p) (i : Nat)
    (hne : p.value ≠ (p.listeners i).last) :
    ∃ k l, k ≤ 2 ∧ Listener.steps p.value k ((notifyAll p.pending p).listeners i) = some l ∧
      l.last = p.value ∧ l.returned.head? = some p.value := by
  obtain ⟨a, b, c, d⟩ := notifyAll_facts v p.pending p h rfl
  obtain ⟨k, hk, hs⟩ := C50_never_stuck v _ a i (by rw [c, d]; exact hne) b
  rw [c] at hs
  exact ⟨k, _, hk, hs, rfl, rfl⟩

/-- **C50, the final value.** When nothing is under way any more and a listener sleeps, the last value
it returned is the published one (or it has returned nothing and the published value is still 0, the
value a listener starts from). -/
theorem C50_final_value (v : Int) (p : Pub) (h : PubReach v p) (i : Nat) (hp : p.pending = 0)
    (hs : (p.listeners i).phase = .waiting false) :
    (p.listeners i).returned.head? = some p.value ∨ ((p.listeners i).returned = [] ∧ p.value = 0) := by
  have h1 := Awake.reach h i hs
  have h2 := Remembers.reach h i
  have h3 : p.value = (p.listeners i).last := by
    rcases h1 with h1 | h1
    · exact h1
    · omega
  rw [h2] at h3
  cases hr : (p.listeners i).returned with
  | nil => right; rw [hr] at h3; exact ⟨rfl, h3⟩
  | cons a l => left; rw [hr] at h3; simp only [List.head?_cons, Option.getD_some] at h3 ⊢; rw [h3]

/-- **C50, only published values are returned.** What `listen` returns is the value published at that
moment. -/
theorem C50_returns_current (p q : Pub) (s : PubStep p q) (i : Nat) :
    (q.listeners i).returned = (p.listeners i).returned ∨
      (q.listeners i).returned = p.value :: (p.listeners i).returned := by
  cases s with
  | store v => exact .inl rfl
  | notify hp => exact .inl (wake_fields _).2
  | listen j l hl =>
    show (setAt p.listeners j l i).returned = _ ∨ (setAt p.listeners j l i).returned = _
    unfold setAt
    by_cases hij : i = j
    · rw [if_pos hij]
      subst hij
      unfold Listener.next at hl
      split at hl
      · cases hl; split
        · exact .inr rfl
        · exact .inl rfl
      · cases hl; exact .inl rfl
      · cases hl; split
        · exact .inr rfl
        · exact .inl rfl
      · cases hl; exact .inr rfl
      · cases hl
    · rw [if_neg hij]; exact .inl rfl

/-- A listener goes to sleep, a value is stored (not yet notified): reachable, and unseen. -/
def run50 : Pub :=
  ({ Pub.init 0 with listeners := setAt (Pub.init 0).listeners 3 ⟨0, .waiting false, []⟩ }).store 7

theorem run50_reach : PubReach 0 run50 ∧ run50.value ≠ (run50.listeners 3).last ∧ run50.pending = 1 ∧
    (run50.listeners 3).phase = .waiting false := by
  refine ⟨?_, by decide, rfl, rfl⟩
  have s0 : PubReach 0 (Pub.init 0) := .init
  have s1 := PubReach.step s0 (.listen _ 3 ⟨0, .checked, []⟩ rfl)
  have s2 := PubReach.step s1 (.listen _ 3 ⟨0, .registered false, []⟩ rfl)
  have s3 := PubReach.step s2 (.listen _ 3 ⟨0, .waiting false, []⟩ rfl)
  have s4 := PubReach.step s3 (.store _ 7)
  have e : ∀ f : Nat → Listener, ∀ a b c, setAt (setAt (setAt f 3 a) 3 b) 3 c = setAt f 3 c := by
    intro f a b c
    funext j
    unfold setAt
    split <;> rfl
  unfold run50
  dsimp only at s4
  rw [e] at s4
  exact s4

end Verif.Props
