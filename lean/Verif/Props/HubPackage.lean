import Verif.Hub.PackageLemmas

/-
C93: a package of the hub that verifies is the package that was signed.
-/

namespace Verif.Props
open Verif.Hub

variable {D K P S : Type}

private theorem answer_append {c : Scheme D K P S} {f : Format D K S} {a : List (Entry D)} (hf : Flat a)
    (hu : Unsigned a) (s : PkgSig K S) (r : Bool) :
    Answer c f (a ++ [⟨signName 0, f.ser s⟩]) s.pubkey r ↔ r = verifySig c (a ++ [⟨signName 0, f.ser s⟩]) s := by
  unfold Answer
  rw [sigs_append hf hu s]
  dsimp only
  constructor
  · rintro (⟨p, s', h1, _, h3⟩ | ⟨h, _⟩)
    · split at h1
      · injection h1 with h1; subst h1; exact h3
      · cases h1
    · exact absurd rfl (h (signName 0) s (if_pos rfl))
  · intro h
    exact .inl ⟨signName 0, s, if_pos rfl, rfl, h⟩

private theorem not_signName {a : List (Entry D)} (hu : Unsigned a) {e : Entry D} (he : e ∈ a) : signName 0 ≠ e.path := by
  intro h
  exact hu e he (h ▸ stem_signName)

private theorem made_verifies {c : Scheme D K P S} {k : P} {a : List (Entry D)} (hf : Flat a) (hd : Distinct a)
    (hu : Unsigned a) (x : D) : verifySig c (a ++ [⟨signName 0, x⟩]) (made c k a) = true := by
  rw [made_iff (flat_append hf x) hd]
  intro e he
  refine ⟨e.data, ?_, c.correct k e.data⟩
  rw [lastFile_append, if_neg (not_signName hu he)]
  exact lastFile_of hd he

/-- **C93 (a).** A package that has been signed verifies with the key of the signer, and with no key it was not signed
with.  The package has no directories, no two files of the same name, and no signature before. -/
theorem C93_signed_partial (c : Scheme D K P S) (f : Format D K S) (k : P) (a b : List (Entry D)) (hf : Flat a)
    (hd : Distinct a) (hu : Unsigned a) (h : sign c f k a = some b) (key : K) (r : Bool) :
    Answer c f b key r ↔ (r = true ↔ key = c.pub k) := by
  rw [sign_eq hu h]
  by_cases hk : key = c.pub k
  · subst hk
    have h1 := answer_append (c := c) (f := f) hf hu (made c k a) r
    rw [made_verifies hf hd hu] at h1
    simp only [iff_true]
    exact h1
  · unfold Answer
    rw [sigs_append hf hu]
    simp only [hk, iff_false, Bool.not_eq_true]
    constructor
    · rintro (⟨p, s', h1, h2, _⟩ | ⟨_, h⟩)
      · split at h1
        · injection h1 with h1; rw [← h1] at h2; exact absurd h2.symm hk
        · cases h1
      · exact h
    · intro h
      refine .inr ⟨fun p s h1 => ?_, h⟩
      split at h1
      · injection h1 with h1; rw [← h1]; exact fun h => hk h.symm
      · cases h1

/-- **C93 (b).** Signing a package changes nothing that can be read from it: every file it has keeps its contents, and
only a signature file is added. -/
theorem C93_contents (c : Scheme D K P S) (f : Format D K S) (k : P) (a b : List (Entry D)) (h : sign c f k a = some b)
    (p : Path) : (∀ d, topFile a p = some d → topFile b p = some d) ∧
      (topFile a p = none → ∀ d, topFile b p = some d → stem p.base = signBase ∧ p.dir = []) := by
  unfold sign at h
  split at h
  · cases h
  · injection h with h
    subst h
    unfold topFile
    rw [List.find?_append]
    constructor
    · intro d h
      cases hf : a.find? (fun e => decide (e.path = p)) with
      | none => rw [hf] at h; cases h
      | some e => rw [hf] at h; exact h
    · intro h d hd
      cases hf : a.find? (fun e => decide (e.path = p)) with
      | some e => rw [hf] at h; cases h
      | none =>
        rw [hf] at hd
        rw [Option.none_or, List.find?_singleton] at hd
        split at hd
        · rename_i hp
          have hp := of_decide_eq_true hp
          rw [← hp]
          exact ⟨stem_numbered _, rfl⟩
        · cases hd

/-- **C93 (c).** If a package verifies with a key, and the only signature with that key in it is one made for the
package `a`, then every file of `a` is in it with the contents it had when signed.  The received package has no
directories and no two files of the same name. -/
theorem C93_intact_partial (c : Scheme D K P S) (f : Format D K S) (k : P) (hb : Binding c k) (a b : List (Entry D))
    (hda : Distinct a) (hf : Flat b) (hd : Distinct b)
    (hmade : ∀ e ∈ b, ∀ s, f.de e.data = some s → s.pubkey = c.pub k →
      s = ⟨a.map (fun e => ⟨e.path, some (c.sign k e.data)⟩), c.pub k⟩)
    (h : Answer c f b (c.pub k) true) (p : Path) (d : D) (hp : topFile a p = some d) : topFile b p = some d := by
  unfold Answer at h
  cases hs : sigs f b with
  | none => rw [hs] at h; cases h
  | some m =>
    rw [hs] at h
    rcases h with ⟨q, s, h1, h2, h3⟩ | ⟨_, h⟩
    · unfold sigs at hs
      rw [sigs_flat _ _ hf] at hs
      rcases sigsPure_mem hs h1 with h' | ⟨e, he, h'⟩
      · cases h'
      · have hm := hmade e he s h' h2
        have hv : verifySig c b (made c k a) = true := by rw [h3, hm]; rfl
        rw [made_iff hf hda] at hv
        obtain ⟨d', h4, h5⟩ := hv ⟨p, d⟩ (topFile_mem hp)
        have := hb _ _ h5
        dsimp only at this h4
        subst this
        exact topFile_of hd (lastFile_mem h4)
    · cases h

/-- **C93 (d).** The archive of a package's files: if their names differ, each can be read under its name. -/
theorem C93_assembled_partial (fs : Path → Option D) (ps : List Path) (es : List (Entry D))
    (hn : (ps.map (·.base)).Nodup) (h : assembleBlob fs ps = some es) (p : Path) (hp : p ∈ ps) :
    ∃ d, fs p = some d ∧ topFile es ⟨[], p.base⟩ = some d := by
  induction ps generalizing es with
  | nil => cases hp
  | cons q ps ih =>
    rw [List.map_cons, List.nodup_cons] at hn
    unfold assembleBlob at h
    cases hq : fs q with
    | none => rw [hq] at h; cases h
    | some d =>
      rw [hq] at h
      cases hr : assembleBlob fs ps with
      | none => rw [hr] at h; cases h
      | some es' =>
        rw [hr] at h
        injection h with h
        subst h
        rcases List.mem_cons.1 hp with rfl | hp
        · exact ⟨d, hq, by simp [topFile]⟩
        · obtain ⟨d', h1, h2⟩ := ih es' hn.2 hr hp
          refine ⟨d', h1, ?_⟩
          have hne : q.base ≠ p.base := fun he => hn.1 (List.mem_map.2 ⟨p, hp, he.symm⟩)
          rw [← h2]
          unfold topFile
          rw [List.find?_cons]
          have : ¬ ((⟨[], q.base⟩ : Path) = ⟨[], p.base⟩) := by
            intro he
            injection he with _ he
            exact hne he
          simp only [this, decide_false]

/-- **C93, violated.** Anyone can make any package verify with any public key: a signature file that names the key and
lists no files is accepted (package.rs:486-499 — of no files, all are verified).  The list of files is not signed. -/
theorem C93_violated_forged (c : Scheme D K P S) (f : Format D K S) (key : K) (a : List (Entry D)) (hf : Flat a)
    (hu : Unsigned a) (r : Bool) : Answer c f (a ++ [⟨signName 0, f.ser ⟨[], key⟩⟩]) key r ↔ r = true := by
  have h := answer_append (c := c) (f := f) hf hu ⟨[], key⟩ r
  have hv : verifySig c (a ++ [⟨signName 0, f.ser ⟨[], key⟩⟩]) ⟨[], key⟩ = true := by
    rw [verifySig_iff (flat_append hf _)]
    · intro x hx; cases hx
    · intro x hx; cases hx
    · exact List.nodup_nil
  rw [hv] at h
  exact h

/-- **C93, violated.** A signed package to which another file with the name of an existing one is prepended still
verifies — the last of the two is — but the other is read. -/
theorem C93_violated_duplicate (c : Scheme D K P S) (f : Format D K S) (k : P) (a b : List (Entry D)) (hf : Flat a)
    (hd : Distinct a) (hu : Unsigned a) (h : sign c f k a = some b) (e : Entry D) (he : e ∈ a) (evil : D) :
    Answer c f (⟨e.path, evil⟩ :: b) (c.pub k) true ∧ topFile (⟨e.path, evil⟩ :: b) e.path = some evil := by
  have hf' : Flat (⟨e.path, evil⟩ :: a) := by
    intro x hx
    rcases List.mem_cons.1 hx with rfl | hx
    · exact hf e he
    · exact hf x hx
  have hu' : Unsigned (⟨e.path, evil⟩ :: a) := by
    intro x hx
    rcases List.mem_cons.1 hx with rfl | hx
    · exact hu e he
    · exact hu x hx
  rw [sign_eq hu h]
  constructor
  · rw [← List.cons_append]
    refine (answer_append hf' hu' (made c k a) true).2 ?_
    symm
    rw [made_iff (flat_append hf' _) hd]
    intro x hx
    refine ⟨x.data, ?_, c.correct k x.data⟩
    rw [lastFile_append, if_neg (not_signName hu hx), lastFile_cons, lastFile_of hd hx]
  · simp [topFile]

/-- **C93, violated.** Files of different packages of one signer can be put together, and the signatures with them: the
result verifies (package.rs:232-241 sign the contents of each file alone, not the name, the version or the other files). -/
theorem C93_violated_mixed (c : Scheme D K P S) (f : Format D K S) (k : P) (a a' : List (Entry D)) (m : List (Entry D))
    (hm : ∀ e ∈ m, e ∈ a ∨ e ∈ a') (hf : Flat m) (hd : Distinct m) (hu : Unsigned m) :
    ∃ s : PkgSig K S,
      (∀ x ∈ s.files, x ∈ a.map (fun e => (⟨e.path, some (c.sign k e.data)⟩ : FileSig S)) ∨
        x ∈ a'.map (fun e => (⟨e.path, some (c.sign k e.data)⟩ : FileSig S))) ∧
      s.files.map (·.name) = m.map (·.path) ∧ Answer c f (m ++ [⟨signName 0, f.ser s⟩]) (c.pub k) true := by
  refine ⟨made c k m, fun x hx => ?_, made_names c k m, ?_⟩
  · obtain ⟨e, he, rfl⟩ := List.mem_map.1 hx
    rcases hm e he with h | h
    · exact .inl (List.mem_map.2 ⟨e, h, rfl⟩)
    · exact .inr (List.mem_map.2 ⟨e, h, rfl⟩)
  · exact (answer_append hf hu (made c k m) true).2 (made_verifies hf hd hu _).symm

/-- **C93, violated.** A package signed twice verifies with no key: the second signature file has the name of the
first (package.rs:217 compares the whole name, `signature.0`, with `signature`). -/
theorem C93_violated_twice (c : Scheme D K P S) (f : Format D K S) (k k' : P) (hb : Binding c k')
    (hk : c.pub k ≠ c.pub k') (a b b' : List (Entry D)) (hf : Flat a) (hd : Distinct a) (hu : Unsigned a)
    (h : sign c f k a = some b) (h' : sign c f k' b = some b') (key : K) (r : Bool) (hr : Answer c f b' key r) :
    r = false := by
  have e1 := sign_eq hu h
  have hcount : b.countP (fun e => decide (e.path.base = signBase)) = 0 := by
    rw [e1, List.countP_append, unsigned_count hu]; rfl
  have e2 : b' = b ++ [⟨signName 0, f.ser (made c k' b)⟩] := by
    unfold sign at h'
    split at h'
    · cases h'
    · injection h' with h'
      rw [← h', hcount]
      rfl
  have hfb : Flat b := by rw [e1]; exact flat_append hf _
  have hfb' : Flat b' := by rw [e2]; exact flat_append hfb _
  have hdb : Distinct b := by
    rw [e1]
    unfold Distinct
    rw [List.map_append, List.nodup_append]
    refine ⟨hd, by simp, ?_⟩
    intro x hx y hy hxy
    obtain ⟨e, he, rfl⟩ := List.mem_map.1 hx
    rw [List.map_singleton, List.mem_singleton] at hy
    exact not_signName hu he (hxy.trans hy).symm
  have hs : sigs f b' = some (fun q => if q = signName 0 then some (made c k' b) else
      if q = signName 0 then some (made c k a) else none) := by
    unfold sigs
    rw [sigs_flat _ _ hfb', e2, e1, List.append_assoc, sigsPure_unsigned _ _ _ hu]
    simp only [List.singleton_append]
    unfold sigsPure
    rw [if_pos stem_signName, f.de_ser]
    dsimp only
    unfold sigsPure
    rw [if_pos stem_signName, f.de_ser]
    rfl
  unfold Answer at hr
  rw [hs] at hr
  rcases hr with ⟨p, s, h1, h2, h3⟩ | ⟨_, h⟩
  · have hsm : made c k' b = s := by
      dsimp only at h1
      split at h1
      · injection h1
      · cases h1
    rw [h3, ← hsm, Bool.eq_false_iff]
    intro hv
    rw [made_iff hfb' hdb] at hv
    obtain ⟨d, h4, h5⟩ := hv ⟨signName 0, f.ser (made c k a)⟩ (by rw [e1]; simp)
    rw [e2, lastFile_append, if_pos rfl] at h4
    injection h4 with h4
    have h6 := hb _ _ h5
    rw [← h4] at h6
    have h7 := congrArg f.de h6
    rw [f.de_ser, f.de_ser] at h7
    injection h7 with h7
    exact hk (congrArg PkgSig.pubkey h7).symm
  · exact h

/-- **C93, violated.** Of two files with the same name in different directories, only the first can be read from the
assembled package (package.rs:90-103 keep only the name). -/
theorem C93_violated_same_name (fs : Path → Option D) (p q : Path) (h : p.base = q.base) (d d' : D)
    (hp : fs p = some d) (hq : fs q = some d') :
    ∃ es, assembleBlob fs [p, q] = some es ∧ topFile es ⟨[], q.base⟩ = some d := by
  refine ⟨[⟨⟨[], p.base⟩, d⟩, ⟨⟨[], q.base⟩, d'⟩], ?_, ?_⟩
  · simp [assembleBlob, hp, hq]
  · simp [topFile, h]

/-! ### A concrete scheme -/

namespace HubExample

/-- Documents: a text, or a signature file.  A signature is the private key with the document. -/
inductive Doc where
  | text (n : Nat)
  | sig (files : List (Path × Option (Nat × Doc))) (key : Nat)

def format : Format Doc Nat (Nat × Doc) where
  ser s := .sig (s.files.map (fun x => (x.name, x.sig))) s.pubkey
  de
    | .text _ => none
    | .sig l k => some ⟨l.map (fun x => ⟨x.1, x.2⟩), k⟩
  de_ser s := by
    cases s with
    | mk files key =>
      dsimp only
      rw [List.map_map]
      exact congrArg (fun l => some (PkgSig.mk l key)) (List.map_id files)

open Classical in
noncomputable def scheme : Scheme Doc Nat Nat (Nat × Doc) where
  pub k := k + 100
  sign k d := (k, d)
  verify key d s := decide (key = s.1 + 100 ∧ d = s.2)
  correct k d := by simp

theorem binding (k : Nat) : Binding scheme k := by
  intro d d' h
  unfold scheme at h
  simp only [decide_eq_true_eq] at h
  exact h.2

/-- A package of metadata and contents. -/
def pkg (n : Nat) : List (Entry Doc) :=
  [⟨⟨[], "package-meta.yaml".toList⟩, .text n⟩, ⟨⟨[], "manifest.tar.gz".toList⟩, .text (n + 1)⟩]

theorem flat (n : Nat) : Flat (pkg n) := by
  intro e he
  simp [pkg] at he
  rcases he with rfl | rfl <;> rfl

theorem distinct (n : Nat) : Distinct (pkg n) := by
  show [(⟨[], "package-meta.yaml".toList⟩ : Path), ⟨[], "manifest.tar.gz".toList⟩].Nodup
  decide

theorem unsigned (n : Nat) : Unsigned (pkg n) := by
  intro e he
  simp [pkg] at he
  rcases he with rfl | rfl
  · show stem "package-meta.yaml".toList ≠ signBase
    decide
  · show stem "manifest.tar.gz".toList ≠ signBase
    decide

theorem signed (k n : Nat) :
    sign scheme format k (pkg n) = some (pkg n ++ [⟨signName 0, format.ser (made scheme k (pkg n))⟩]) := by
  unfold sign
  rw [unsigned_count (unsigned n)]
  rfl

/-- (a) The signed package verifies with the key of the signer. -/
example : Answer scheme format (pkg 7 ++ [⟨signName 0, format.ser (made scheme 1 (pkg 7))⟩]) 101 true :=
  (C93_signed_partial scheme format 1 (pkg 7) _ (flat 7) (distinct 7) (unsigned 7) (signed 1 7) 101 true).2
    (by simp [scheme])

/-- (a) It does not with another. -/
example : ¬ Answer scheme format (pkg 7 ++ [⟨signName 0, format.ser (made scheme 1 (pkg 7))⟩]) 102 true := by
  rw [C93_signed_partial scheme format 1 (pkg 7) _ (flat 7) (distinct 7) (unsigned 7) (signed 1 7) 102 true]
  simp [scheme]

/-- (b) The metadata can still be read. -/
example : topFile (pkg 7 ++ [⟨signName 0, format.ser (made scheme 1 (pkg 7))⟩])
    ⟨[], "package-meta.yaml".toList⟩ = some (.text 7) :=
  (C93_contents scheme format 1 (pkg 7) _ (signed 1 7) _).1 _ rfl

/-- (c) A package with the signature made for `pkg 7` that verifies has the files of `pkg 7`. -/
example (d d' : Doc) (hd : ∀ s, format.de d ≠ some s) (hd' : ∀ s, format.de d' ≠ some s)
    (h : Answer scheme format [⟨⟨[], "package-meta.yaml".toList⟩, d⟩, ⟨⟨[], "manifest.tar.gz".toList⟩, d'⟩,
      ⟨signName 0, format.ser (made scheme 1 (pkg 7))⟩] 101 true) : d = .text 7 ∧ d' = .text 8 := by
  have key := C93_intact_partial scheme format 1 (binding 1) (pkg 7) _ (distinct 7)
    (by intro e he; simp at he; rcases he with rfl | rfl | rfl <;> rfl)
    (by
      show [(⟨[], "package-meta.yaml".toList⟩ : Path), ⟨[], "manifest.tar.gz".toList⟩, signName 0].Nodup
      decide)
    (by
      intro e he s hs _
      simp at he
      rcases he with rfl | rfl | rfl
      · exact absurd hs (hd s)
      · exact absurd hs (hd' s)
      · rw [format.de_ser] at hs
        injection hs with hs
        rw [← hs]; rfl) h
  constructor
  · have := key ⟨[], "package-meta.yaml".toList⟩ (.text 7) rfl
    injection this
  · have := key ⟨[], "manifest.tar.gz".toList⟩ (.text 8) rfl
    injection this

/-- (d) Two files. -/
example : ∃ d, topFile [⟨⟨[], ['a']⟩, 1⟩, ⟨⟨[], ['b']⟩, 2⟩] ⟨[], ['b']⟩ = some d ∧ d = 2 := by
  obtain ⟨d, h1, h2⟩ := C93_assembled_partial
    (fun p => if p.base = ['a'] then some 1 else if p.base = ['b'] then some 2 else none)
    [⟨[['x']], ['a']⟩, ⟨[['y']], ['b']⟩] _ (by decide) rfl ⟨[['y']], ['b']⟩ (by decide)
  exact ⟨d, h2, by simpa using h1.symm⟩

/-- Any package passes as one of the holder of key 101. -/
example : Answer scheme format (pkg 666 ++ [⟨signName 0, format.ser ⟨[], 101⟩⟩]) 101 true :=
  (C93_violated_forged scheme format 101 (pkg 666) (flat _) (unsigned _) true).2 rfl

/-- A package signed by two people is rejected with the key of either. -/
example : ∃ b b', sign scheme format 1 (pkg 7) = some b ∧ sign scheme format 2 b = some b' ∧
    (∀ key, ¬ Answer scheme format b' key true) := by
  refine ⟨_, _, signed 1 7, rfl, fun key h => ?_⟩
  have := C93_violated_twice scheme format 1 2 (binding 2) (by simp [scheme]) (pkg 7) _ _ (flat 7) (distinct 7)
    (unsigned 7) (signed 1 7) rfl key true h
  cases this

end HubExample

end Verif.Props
