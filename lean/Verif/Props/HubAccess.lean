import Verif.Hub.Access

/-!
# C114: the identity used for the hub
-/

namespace Verif.Props

open Verif.Hub.Access

namespace C114

/-- The two keys of a profile belong together and the private one can be read. -/
def Paired (c : Crypto) (p : Profile) : Prop :=
  ∃ k, k.length = 32 ∧ keypair p = some k ∧ p.pubkey = toHex (c.public_ k)

/-- All profiles with a key on disk are paired. -/
def AllPaired (c : Crypto) (d : Disk) : Prop :=
  ∀ f p, d.files f = some (.profile p) → p.pkgkey ≠ [] → Paired c p

/-- The disks that come about from one without a hub directory, by loads and changes of the hub id, each of which can
be interrupted after any write. -/
inductive Reached (c : Crypto) : Disk → Prop
  | new : Reached c ⟨true, false, fun _ => none⟩
  | load {d d' : Disk} (k : Key) (hk : k.length = 32) (given : Option String) (h : Reached c d)
      (hd : d' ∈ (Verif.Hub.Access.load c k d given).1) : Reached c d'
  | hubid {d d' : Disk} (k : Key) (hk : k.length = 32) (given : Option String) (p : Profile) (status : Nat) (id : String)
      (h : Reached c d) (hp : (Verif.Hub.Access.load c k d given).2 = some p)
      (hd : d' ∈ setHubid c (final d (Verif.Hub.Access.load c k d given).1) status id p) : Reached c d'

theorem unhex_hex (n : Fin 16) : unhexDigit (hexDigit n) = some n := by
  revert n; decide

theorem decode_toHex (k : Key) : decodeHex (toHex k) = some k := by
  induction k with
  | nil => rfl
  | cons b k ih =>
    simp only [toHex, decodeHex, unhex_hex, ih, Option.some.injEq, List.cons.injEq, and_true]
    apply Fin.ext
    simp only
    omega

theorem fromHex_toHex {k : Key} (h : k.length = 32) : fromHex (toHex k) = some k := by
  simp [fromHex, decode_toHex, fromSecretBytes, h]

theorem toHex_length (k : Key) : (toHex k).length = 2 * k.length := by
  induction k with
  | nil => rfl
  | cons b k ih => simp only [toHex, List.length_cons, ih]; omega

theorem toHex_ne {k : Key} (h : k.length = 32) : toHex k ≠ [] := by
  intro hh
  have := toHex_length k
  rw [hh, h] at this
  simp at this

theorem toHex_inj {k k' : Key} (h : toHex k = toHex k') : k = k' := by
  have h1 := decode_toHex k
  rw [h, decode_toHex] at h1
  exact (Option.some.inj h1).symm

theorem gen_paired (c : Crypto) {k : Key} (h : k.length = 32) (p : Profile) : Paired c (genKey c k p) :=
  ⟨k, h, fromHex_toHex h, rfl⟩

theorem write_paired {c : Crypto} {d : Disk} {n : String} {x : Content} (hd : AllPaired c d)
    (hx : ∀ p, x = .profile p → p.pkgkey ≠ [] → Paired c p) : AllPaired c (write d n x) := by
  intro f p hf hp
  simp only [write] at hf
  split at hf
  · exact hx p (Option.some.inj hf) hp
  · exact hd f p hf hp

theorem writeHash_paired {c : Crypto} {d d' : Disk} {p : Profile} (hd : AllPaired c d)
    (hp : p.pkgkey ≠ [] → Paired c p) (h : d' ∈ writeHash c d p) : AllPaired c d' := by
  have h1 : AllPaired c (write d (c.hash p.hubid p.pubkey) (.profile p)) :=
    write_paired hd (fun q hq => by cases hq; exact hp)
  simp only [writeHash, List.mem_cons, List.not_mem_nil, or_false] at h
  rcases h with rfl | rfl
  · exact h1
  · exact write_paired h1 (fun q hq => nomatch hq)

theorem final_paired {c : Crypto} {d : Disk} {ds : List Disk} (hd : AllPaired c d) (h : ∀ d' ∈ ds, AllPaired c d') :
    AllPaired c (final d ds) := by
  simp only [final]
  cases hl : ds.getLast? with
  | none => exact hd
  | some x => exact h x (List.mem_of_getLast? hl)

theorem resolve_paired {c : Crypto} {k : Key} (hk : k.length = 32) {d d' : Disk} {given : Option String}
    (hd : AllPaired c d) (h : d' ∈ (resolve c k d given).1) : AllPaired c d' := by
  revert h
  cases given with
  | some p => simp [resolve]
  | none =>
    simp only [resolve]
    cases d.files "hcurrent" with
    | some x => cases x <;> simp
    | none =>
      simp only
      split
      · simp
      · intro h
        have h1 : AllPaired c { d with dir := true } := hd
        have h2 : AllPaired c (write { d with dir := true } "default" (.profile (genKey c k ⟨"", [], []⟩))) :=
          write_paired h1 (fun q hq _ => by cases hq; exact gen_paired c hk _)
        simp only [List.mem_cons, List.not_mem_nil, or_false] at h
        rcases h with rfl | rfl | rfl
        · exact h1
        · exact h2
        · exact write_paired h2 (fun q hq => nomatch hq)

theorem readProfile_paired {c : Crypto} {k : Key} (hk : k.length = 32) {d : Disk} {n : String} (hd : AllPaired c d) :
    (∀ d' ∈ (readProfile c k d n).1, AllPaired c d') ∧
      ∀ p, (readProfile c k d n).2 = some p → Paired c p := by
  simp only [readProfile]
  cases hf : d.files n with
  | none => simp
  | some x =>
    cases x with
    | text s => simp
    | profile p =>
      simp only
      split
      · refine ⟨fun d' h => writeHash_paired hd (fun _ => gen_paired c hk p) h, fun q hq => ?_⟩
        cases hq
        exact gen_paired c hk p
      · rename_i hne
        refine ⟨by simp, fun q hq => ?_⟩
        cases hq
        exact hd n _ hf hne

theorem load_paired {c : Crypto} {k : Key} (hk : k.length = 32) {d : Disk} {given : Option String}
    (hd : AllPaired c d) :
    (∀ d' ∈ (load c k d given).1, AllPaired c d') ∧ ∀ p, (load c k d given).2 = some p → Paired c p := by
  have h1 : ∀ d' ∈ (resolve c k d given).1, AllPaired c d' := fun d' h => resolve_paired hk hd h
  revert h1
  simp only [load]
  generalize resolve c k d given = r
  obtain ⟨ds, o⟩ := r
  intro h1
  cases o with
  | none => exact ⟨h1, by simp⟩
  | some n =>
    obtain ⟨h2, h3⟩ := readProfile_paired hk (n := n) (final_paired hd h1)
    refine ⟨fun d' h => ?_, h3⟩
    rcases List.mem_append.mp h with h | h
    · exact h1 d' h
    · exact h2 d' h

theorem reached_paired {c : Crypto} {d : Disk} (h : Reached c d) : AllPaired c d := by
  induction h with
  | new => intro f p hf; exact nomatch hf
  | load k hk given _ hd ih => exact (load_paired hk ih).1 _ hd
  | hubid k hk given p status id _ hp hd ih =>
    obtain ⟨h1, h2⟩ := load_paired (given := given) hk ih
    revert hd
    simp only [setHubid]
    split
    · intro hd
      exact writeHash_paired (p := { p with hubid := id }) (final_paired ih h1) (fun _ => h2 p hp) hd
    · simp

theorem writeHash_final (c : Crypto) (d : Disk) (p : Profile) :
    (final d (writeHash c d p)).files "hcurrent" = some (.text (c.hash p.hubid p.pubkey)) ∧
      (final d (writeHash c d p)).files (c.hash p.hubid p.pubkey) = some (.profile p) := by
  have := c.hash_ne p.hubid p.pubkey
  simp [final, writeHash, write, this]

theorem load_pointer {c : Crypto} {k : Key} {d : Disk} {n : String} {p : Profile}
    (h1 : d.files "hcurrent" = some (.text n)) (h2 : d.files n = some (.profile p)) (h3 : p.pkgkey ≠ []) :
    load c k d none = ([], some p) := by
  simp [load, resolve, h1, final, readProfile, h2, h3]

end C114

open C114

/-- In all histories, with interruptions at any point, a profile that is loaded has a key pair that belongs together and
can be used for signing. -/
theorem C114_pair {c : Crypto} {d : Disk} (h : Reached c d) {k : Key} (hk : k.length = 32) {given : Option String}
    {p : Profile} (hp : (load c k d given).2 = some p) : Paired c p :=
  (load_paired hk (reached_paired h)).2 p hp

/-- Loading the current profile gives the same identity each time: whatever key the first load generated, the second
one generates none, writes nothing and returns the same. -/
theorem C114_same {c : Crypto} {d : Disk} {k k' : Key} (hk : k.length = 32) {p : Profile}
    (h : (load c k d none).2 = some p) :
    load c k' (final d (load c k d none).1) none = ([], some p) := by
  revert h
  cases hc : d.files "hcurrent" with
  | none =>
    by_cases hd : (d.dir || !d.parent) = true
    · simp [load, resolve, hc, hd]
    · intro h
      have hne := toHex_ne hk
      simp [load, resolve, hc, hd, final, readProfile, write, genKey, hne] at h ⊢
      exact h
  | some x =>
    cases x with
    | profile q => simp [load, resolve, hc]
    | text n =>
      have hl : load c k d none = readProfile c k d n := by simp [load, resolve, hc, final]
      rw [hl]
      simp only [readProfile]
      cases hf : d.files n with
      | none => simp
      | some y =>
        cases y with
        | text s => simp
        | profile q =>
          simp only
          split
          · intro h
            cases h
            obtain ⟨h1, h2⟩ := writeHash_final c d (genKey c k q)
            exact load_pointer h1 h2 (toHex_ne hk)
          · rename_i hne
            intro h
            cases h
            exact load_pointer hc hf hne

/-- A profile that has a key is used as it is, whether it is named or the current one, and nothing is written. -/
theorem C114_kept {c : Crypto} {d : Disk} {n : String} {p : Profile} (hf : d.files n = some (.profile p))
    (hp : p.pkgkey ≠ []) (k : Key) :
    load c k d (some n) = ([], some p) ∧ (d.files "hcurrent" = some (.text n) → load c k d none = ([], some p)) := by
  refine ⟨?_, fun hc => load_pointer hc hf hp⟩
  simp [load, resolve, final, readProfile, hf, hp]

/-- On a new machine the first load makes an identity and later loads find it. -/
theorem C114_first {c : Crypto} {k : Key} :
    ∃ p, (load c k ⟨true, false, fun _ => none⟩ none).2 = some p ∧ (k.length = 32 → keypair p = some k) := by
  cases k with
  | nil => simp [load, resolve, final, readProfile, write, genKey, toHex]
  | cons b k =>
    refine ⟨genKey c (b :: k) ⟨"", [], []⟩, ?_, fun h => fromHex_toHex h⟩
    simp [load, resolve, final, readProfile, write, genKey, toHex]

/-- A hub id that the hub accepts is in the current profile from then on, with the same keys; if it is refused nothing
is written. -/
theorem C114_hubid {c : Crypto} {d : Disk} {p : Profile} (hp : p.pkgkey ≠ []) (status : Nat) (id : String) (k : Key) :
    (status = 200 ∨ status = 201 →
      load c k (final d (setHubid c d status id p)) none = ([], some ⟨id, p.pkgkey, p.pubkey⟩)) ∧
    (status ≠ 200 → status ≠ 201 → setHubid c d status id p = []) := by
  refine ⟨fun h => ?_, fun h1 h2 => by simp [setHubid, hubidAccepted, h1, h2]⟩
  have hs : setHubid c d status id p = writeHash c d ⟨id, p.pkgkey, p.pubkey⟩ := by
    rcases h with rfl | rfl <;> simp [setHubid, hubidAccepted]
  rw [hs]
  obtain ⟨h1, h2⟩ := writeHash_final c d ⟨id, p.pkgkey, p.pubkey⟩
  exact load_pointer h1 h2 hp

/-- The remote is that of the flag, else that of the variable, else that named by the cloud of the login unless this is
the public one, else the public hub. -/
theorem C114_remote (flag env login : Option String) (ask : String → Option String) :
    (∀ r, flag = some r → remote flag env login ask = r) ∧
    (∀ r, flag = none → env = some r → remote flag env login ask = r) ∧
    (∀ l r, flag = none → env = none → login = some l → l ≠ "https://infinyon.cloud" → ask l = some r →
      remote flag env login ask = r) ∧
    (flag = none → env = none → (∀ l, login = some l → l = "https://infinyon.cloud" ∨ ask l = none) →
      remote flag env login ask = "https://hub.infinyon.cloud") := by
  refine ⟨?_, ?_, ?_, ?_⟩
  · rintro r rfl; rfl
  · rintro r rfl rfl; rfl
  · rintro l r rfl rfl rfl hl ha
    simp [remote, hl, ha]
  · rintro rfl rfl h
    cases login with
    | none => rfl
    | some l =>
      rcases h l rfl with h | h
      · simp [remote, h]
      · simp [remote, h]

/-- Keys survive being written as text and as files; a text of another length and a file of the other kind are
refused. -/
theorem C114_key_roundtrip (k : Key) (hk : k.length = 32) (umask : Nat) (old : Option KeyFile) (valid : Key → Bool) :
    fromHex (toHex k) = some k ∧ readKeypair (writeKeypair umask old k) = some k ∧
      (valid k = true → readPublic valid (writePublic umask old k) = some k) ∧
      readKeypair (writePublic umask old k) = none ∧ readPublic valid (writeKeypair umask old k) = none := by
  refine ⟨fromHex_toHex hk, ?_, fun hv => ?_, ?_, ?_⟩
  · simp [readKeypair, writeKeypair, setPermsOwnerRw, fromSecretBytes, hk]
  · simp [readPublic, writePublic, hk, hv]
  · simp [readKeypair, writePublic]
  · simp [readPublic, writeKeypair, setPermsOwnerRw]

namespace C114

theorem decode_length : ∀ (s : List Char) {k : Key}, decodeHex s = some k → s.length = 2 * k.length
  | [], k, h => by cases h; rfl
  | [_], _, h => nomatch h
  | a :: b :: rest, k, h => by
    simp only [decodeHex] at h
    split at h
    · rename_i x y k' _ _ hr
      cases h
      simp only [List.length_cons, decode_length rest hr]
      omega
    · exact nomatch h

end C114

/-- A text that is read as a key has 64 digits. -/
theorem C114_key_length {s : List Char} {k : Key} (h : fromHex s = some k) : s.length = 64 ∧ k.length = 32 := by
  simp only [fromHex] at h
  cases hd : decodeHex s with
  | none => simp [hd] at h
  | some k' =>
    simp only [hd, fromSecretBytes] at h
    split at h
    · rename_i hl
      cases h
      exact ⟨by rw [decode_length s hd, hl], hl⟩
    · exact nomatch h

/-- With one organisation its token is sent, as bearer token; without a login no token is sent. -/
theorem C114_token_partial (org tok t3 : String) (v3 : Option String) :
    authHeader (readToken (some [(org, tok)]) v3) = some (some ("Bearer " ++ tok)) ∧
      authHeader (readToken none (some t3)) = some (some t3) ∧ authHeader (readToken none none) = some none := by
  simp [authHeader, readToken, Token.get]

/-! ### Where the claim fails -/

/-- A first load that is interrupted between making the directory and writing the pointer makes all later loads of the
current profile fail. -/
theorem C114_violated_interrupted {c : Crypto} (k : Key) :
    ∃ d ∈ (load c k ⟨true, false, fun _ => none⟩ none).1, ∀ k', load c k' d none = ([], none) := by
  refine ⟨⟨true, true, fun _ => none⟩, ?_, fun k' => by simp [load, resolve]⟩
  simp [load, resolve]

/-- A profile without keys that is named by `FLUVIO_HUB_PROFILE` gets a new key at each load, and each load makes the new
identity the current one. -/
theorem C114_violated_named {c : Crypto} {d : Disk} {n : String} {p : Profile} (hf : d.files n = some (.profile p))
    (hp : p.pkgkey = []) {k k' : Key} (hk : k.length = 32) (hne : k ≠ k')
    (hn : n ≠ "hcurrent") (hh : ∀ i x, c.hash i x ≠ n) :
    (∃ q q', (load c k d (some n)).2 = some q ∧
      (load c k' (final d (load c k d (some n)).1) (some n)).2 = some q' ∧ q.pkgkey ≠ q'.pkgkey) ∧
    ∀ k2, load c k2 (final d (load c k d (some n)).1) none = ([], some (genKey c k p)) := by
  have hl : load c k d (some n) = (writeHash c d (genKey c k p), some (genKey c k p)) := by
    simp [load, resolve, final, readProfile, hf, hp]
  rw [hl]
  refine ⟨⟨genKey c k p, genKey c k' p, rfl, ?_, fun h => hne (toHex_inj h)⟩, fun k2 => ?_⟩
  · have : (final d (writeHash c d (genKey c k p))).files n = some (.profile p) := by
      simp [final, writeHash, write, hn, Ne.symm (hh _ _), hf]
    simp [load, resolve, final, readProfile] at this ⊢
    simp [this, hp]
  · obtain ⟨h1, h2⟩ := writeHash_final c d (genKey c k p)
    exact load_pointer h1 h2 (toHex_ne hk)

/-- With a named profile a new hub id is reported as set, but the named profile keeps the old one. -/
theorem C114_violated_named_hubid {c : Crypto} {d : Disk} {n id : String} {p : Profile}
    (hf : d.files n = some (.profile p)) (hp : p.pkgkey ≠ []) (hn : n ≠ "hcurrent") (hh : ∀ i x, c.hash i x ≠ n)
    (k : Key) : (load c k (final d (setHubid c d 201 id p)) (some n)).2 = some p := by
  have : (final d (setHubid c d 201 id p)).files n = some (.profile p) := by
    simp [setHubid, hubidAccepted, final, writeHash, write, hn, Ne.symm (hh _ _), hf]
  rw [(C114_kept this hp k).1]

/-- The file of the private key can be read by everybody with the usual mask: the restricted mode is computed but never
set. -/
theorem C114_violated_private (k : Key) :
    (writeKeypair 0o022 none k).mode = 0o644 ∧ (writeKeypair 0o022 none k).mode ≠ 0o600 := by
  simp [writeKeypair, setPermsOwnerRw, createMode]

/-- With several organisations the token depends on the order in which the map is read. -/
theorem C114_violated_org : ∃ orgs orgs' : List (String × String), orgs.Perm orgs' ∧
    authHeader (readToken (some orgs) none) ≠ authHeader (readToken (some orgs') none) :=
  ⟨[("a", "1"), ("b", "2")], [("b", "2"), ("a", "1")], .swap _ _ _, by decide⟩

/-- A login of the new kind without an organisation hides a valid one of the old kind: the request is sent without
token. -/
theorem C114_violated_hidden (t3 : String) : authHeader (readToken (some []) (some t3)) = some none := by
  simp [authHeader, readToken]

/-! ### The hypotheses can be met -/

namespace C114

def crypto : Crypto where
  public_ := fun k => k.reverse
  hash := fun _ _ => "h"
  hash_ne := by simp

def key (b : Fin 256) : Key := List.replicate 32 b

/-- A machine after a load, with a profile `work` without keys added by hand. -/
def disk : Disk := write (final ⟨true, false, fun _ => none⟩ (load crypto (key 7) ⟨true, false, fun _ => none⟩ none).1)
  "work" (.profile ⟨"me", [], []⟩)

end C114

example : (load crypto (key 7) ⟨true, false, fun _ => none⟩ none).1.length = 3 ∧ (key 7).length = 32 ∧ key 1 ≠ key 2 ∧
    disk.files "work" = some (.profile ⟨"me", [], []⟩) ∧ ("work" ≠ "hcurrent") ∧
    (∀ i x, crypto.hash i x ≠ "work") ∧ ((load crypto (key 1) disk none).2.map keypair) = some (some (key 7)) ∧
    ((load crypto (key 1) disk (some "work")).2.map keypair) = some (some (key 1)) := by
  refine ⟨by decide, rfl, by decide, by decide, by decide, fun _ _ => by simp [crypto], by decide, by decide⟩

example : ∃ d, Reached crypto d ∧ (load crypto (key 1) d none).2 =
    some ⟨"me", toHex (key 7), toHex (key 7)⟩ := by
  refine ⟨_, .hubid (key 7) rfl none ⟨"", toHex (key 7), toHex (key 7)⟩ 201 "me" .new (by decide) (.tail _ (.head _)), ?_⟩
  decide

end Verif.Props
