import Verif.Hub.Package

/-
Lemmas about `Verif.Hub.Package`.
-/

namespace Verif.Hub

variable {D K P S : Type}

theorem find_of_nodup {β : Type} (key : β → Path) {l : List β} (h : (l.map key).Nodup) {x : β} (hx : x ∈ l) :
    l.find? (fun y => decide (key y = key x)) = some x := by
  induction l with
  | nil => cases hx
  | cons a l ih =>
    rw [List.map_cons, List.nodup_cons] at h
    rcases List.mem_cons.1 hx with rfl | hx
    · simp
    · have : key a ≠ key x := fun he => h.1 (he ▸ List.mem_map.2 ⟨x, hx, rfl⟩)
      rw [List.find?_cons]
      simp only [this, decide_false]
      exact ih h.2 hx

theorem find_reverse_of_nodup {β : Type} (key : β → Path) {l : List β} (h : (l.map key).Nodup) {x : β} (hx : x ∈ l) :
    l.reverse.find? (fun y => decide (key y = key x)) = some x := by
  apply find_of_nodup key
  · rw [List.map_reverse]; exact List.pairwise_reverse.2 (h.imp fun h => h.symm)
  · exact List.mem_reverse.2 hx

/-- The last entry with a path. -/
def lastFile (a : List (Entry D)) (p : Path) : Option D :=
  (a.reverse.find? (fun e => decide (e.path = p))).map (·.data)

theorem topFile_of {a : List (Entry D)} (h : Distinct a) {e : Entry D} (he : e ∈ a) : topFile a e.path = some e.data := by
  unfold topFile
  rw [find_of_nodup (fun e : Entry D => e.path) h he]; rfl

theorem lastFile_of {a : List (Entry D)} (h : Distinct a) {e : Entry D} (he : e ∈ a) :
    lastFile a e.path = some e.data := by
  unfold lastFile
  rw [find_reverse_of_nodup (fun e : Entry D => e.path) h he]; rfl

theorem topFile_mem {a : List (Entry D)} {p : Path} {d : D} (h : topFile a p = some d) : ⟨p, d⟩ ∈ a := by
  unfold topFile at h
  cases hf : a.find? (fun e => decide (e.path = p)) with
  | none => rw [hf] at h; cases h
  | some e =>
    rw [hf] at h
    injection h with h
    have h1 : e.path = p := by have := List.find?_some hf; simpa using this
    have h2 := List.mem_of_find?_eq_some hf
    rw [← h, ← h1]; exact h2

theorem lastFile_mem {a : List (Entry D)} {p : Path} {d : D} (h : lastFile a p = some d) : ⟨p, d⟩ ∈ a := by
  have : topFile a.reverse p = some d := h
  exact List.mem_reverse.1 (topFile_mem this)

theorem lastFile_append (a : List (Entry D)) (x : Entry D) (p : Path) :
    lastFile (a ++ [x]) p = if x.path = p then some x.data else lastFile a p := by
  unfold lastFile
  rw [List.reverse_append, List.reverse_singleton, List.singleton_append, List.find?_cons]
  by_cases h : x.path = p
  · simp [h]
  · simp [h]

theorem lastFile_cons (a : List (Entry D)) (x : Entry D) (p : Path) :
    lastFile (x :: a) p = match lastFile a p with | some d => some d | none => if x.path = p then some x.data else none := by
  unfold lastFile
  rw [List.reverse_cons, List.find?_append]
  cases a.reverse.find? (fun e => decide (e.path = p)) with
  | some e => rfl
  | none =>
    by_cases h : x.path = p
    · simp [h]
    · simp [h]

/-! ### Signatures of flat archives -/

/-- `sigsFrom` without the temporary directory. -/
def sigsPure (f : Format D K S) (acc : Path → Option (PkgSig K S)) :
    List (Entry D) → Option (Path → Option (PkgSig K S))
  | [] => some acc
  | e :: es =>
    if stem e.path.base = signBase then
      match f.de e.data with
      | none => none
      | some ps => sigsPure f (fun q => if q = e.path then some ps else acc q) es
    else sigsPure f acc es

theorem flat_path {p : Path} (h : p.dir = []) : (⟨[], p.base⟩ : Path) = p := by
  cases p; cases h; rfl

theorem sigs_flat (f : Format D K S) (a : List (Entry D)) (h : Flat a) (t : Temp D) (acc : Path → Option (PkgSig K S)) :
    sigsFrom f t acc a = sigsPure f acc a := by
  induction a generalizing t acc with
  | nil => rfl
  | cons e es ih =>
    have h1 := h e (by simp)
    have h2 : Flat es := fun x hx => h x (by simp [hx])
    unfold sigsFrom sigsPure
    dsimp only
    rw [flat_path h1]
    simp only [Temp.write, if_true]
    split
    · cases f.de e.data with
      | none => rfl
      | some ps => exact ih h2 _ _
    · exact ih h2 _ _

theorem sigsPure_unsigned (f : Format D K S) (a rest : List (Entry D)) (h : Unsigned a)
    (acc : Path → Option (PkgSig K S)) : sigsPure f acc (a ++ rest) = sigsPure f acc rest := by
  induction a with
  | nil => rfl
  | cons e es ih =>
    rw [List.cons_append]
    show (if stem e.path.base = signBase then _ else _) = _
    rw [if_neg (h e (by simp))]
    exact ih fun x hx => h x (by simp [hx])

/-- Every signature found is the contents of an entry. -/
theorem sigsPure_mem {f : Format D K S} {a : List (Entry D)} {acc m : Path → Option (PkgSig K S)}
    (h : sigsPure f acc a = some m) {p : Path} {s : PkgSig K S} (hp : m p = some s) :
    acc p = some s ∨ ∃ e ∈ a, f.de e.data = some s := by
  induction a generalizing acc with
  | nil =>
    injection h with h
    rw [h]; exact .inl hp
  | cons e es ih =>
    unfold sigsPure at h
    split at h
    · cases hd : f.de e.data with
      | none => rw [hd] at h; cases h
      | some ps =>
        rw [hd] at h
        rcases ih h with h' | ⟨x, hx, h'⟩
        · split at h'
          · injection h' with h'
            exact .inr ⟨e, by simp, by rw [hd, h']⟩
          · exact .inl h'
        · exact .inr ⟨x, by simp [hx], h'⟩
    · rcases ih h with h' | ⟨x, hx, h'⟩
      · exact .inl h'
      · exact .inr ⟨x, by simp [hx], h'⟩

/-! ### Verification of flat archives -/

/-- `verFrom` without the temporary directory. -/
def verPure (v : D → S → Bool) (m : Path → Option (Ver S)) : List (Entry D) → Option (Path → Option (Ver S))
  | [] => some m
  | e :: es =>
    match m e.path with
    | none => verPure v m es
    | some iv =>
      match iv.sig with
      | none => none
      | some s => verPure v (fun q => if q = e.path then some ⟨some s, true, v e.data s⟩ else m q) es

theorem ver_flat (v : D → S → Bool) (a : List (Entry D)) (h : Flat a) (t : Temp D) (m : Path → Option (Ver S)) :
    verFrom v t m a = verPure v m a := by
  induction a generalizing t m with
  | nil => rfl
  | cons e es ih =>
    have h1 := h e (by simp)
    have h2 : Flat es := fun x hx => h x (by simp [hx])
    unfold verFrom verPure
    cases m e.path with
    | none => exact ih h2 _ _
    | some iv =>
      dsimp only
      rw [flat_path h1]
      simp only [Temp.write, if_true]
      cases iv.sig with
      | none => rfl
      | some s => exact ih h2 _ _

/-- What the table says in the end: the last entry with a path counts. -/
theorem verPure_spec (v : D → S → Bool) (a : List (Entry D)) (m : Path → Option (Ver S))
    (hm : ∀ p iv, m p = some iv → ∃ s, iv.sig = some s) :
    ∃ m', verPure v m a = some m' ∧ ∀ p iv s, m p = some iv → iv.sig = some s →
      m' p = match lastFile a p with
        | none => some iv
        | some d => some ⟨some s, true, v d s⟩ := by
  induction a generalizing m with
  | nil => exact ⟨m, rfl, fun p iv s h _ => h⟩
  | cons e es ih =>
    unfold verPure
    cases hq : m e.path with
    | none =>
      obtain ⟨m', h1, h2⟩ := ih m hm
      refine ⟨m', h1, fun p iv s h hs => ?_⟩
      rw [h2 p iv s h hs, lastFile_cons]
      cases lastFile es p with
      | some d => rfl
      | none =>
        have : e.path ≠ p := by rintro rfl; rw [hq] at h; cases h
        rw [if_neg this]
    | some iv0 =>
      dsimp only
      obtain ⟨s0, hs0⟩ := hm _ _ hq
      rw [hs0]
      dsimp only
      obtain ⟨m', h1, h2⟩ := ih (fun q => if q = e.path then some ⟨some s0, true, v e.data s0⟩ else m q) (by
        intro p iv h
        split at h
        · injection h with h; rw [← h]; exact ⟨s0, rfl⟩
        · exact hm p iv h)
      refine ⟨m', h1, fun p iv s h hs => ?_⟩
      rw [lastFile_cons]
      by_cases hp : p = e.path
      · subst hp
        have e1 : iv0 = iv := by rw [hq] at h; injection h
        subst e1
        have e2 : s0 = s := by rw [hs0] at hs; injection hs
        subst e2
        rw [h2 e.path ⟨some s0, true, v e.data s0⟩ s0 (if_pos rfl) rfl]
        cases lastFile es e.path with
        | some d => rfl
        | none => simp
      · rw [h2 p iv s (by rw [if_neg hp]; exact h) hs]
        cases lastFile es p with
        | some d => rfl
        | none =>
          rw [if_neg (fun h => hp h.symm)]

/-- The signature `package_sign` makes. -/
def made (c : Scheme D K P S) (k : P) (a : List (Entry D)) : PkgSig K S :=
  ⟨a.map (fun e => ⟨e.path, some (c.sign k e.data)⟩), c.pub k⟩

theorem table_some {files : List (FileSig S)} {p : Path} {iv : Ver S} (h : table files p = some iv) :
    ∃ x ∈ files, x.name = p ∧ iv = ⟨x.sig, false, false⟩ := by
  unfold table at h
  cases hf : files.reverse.find? (fun s => decide (s.name = p)) with
  | none => rw [hf] at h; cases h
  | some x =>
    rw [hf] at h
    injection h with h
    have h1 : x.name = p := by have := List.find?_some hf; simpa using this
    exact ⟨x, List.mem_reverse.1 (List.mem_of_find?_eq_some hf), h1, h.symm⟩

theorem table_of {files : List (FileSig S)} (h : (files.map (·.name)).Nodup) {x : FileSig S} (hx : x ∈ files) :
    table files x.name = some ⟨x.sig, false, false⟩ := by
  unfold table
  rw [find_reverse_of_nodup (fun x : FileSig S => x.name) h hx]; rfl

/-- Verification of a flat archive with signatures that can be decoded, for distinct names. -/
theorem verifySig_iff {c : Scheme D K P S} {a : List (Entry D)} {s : PkgSig K S} (hf : Flat a)
    (hs : ∀ x ∈ s.files, ∃ y, x.sig = some y) (hd : (s.files.map (·.name)).Nodup) :
    verifySig c a s = true ↔ ∀ x ∈ s.files, ∃ y d, x.sig = some y ∧ lastFile a x.name = some d ∧
      c.verify s.pubkey d y = true := by
  unfold verifySig
  rw [ver_flat _ _ hf]
  obtain ⟨m', h1, h2⟩ := verPure_spec (c.verify s.pubkey) a (table s.files) (by
    intro p iv h
    obtain ⟨x, hx, _, rfl⟩ := table_some h
    exact hs x hx)
  rw [h1]
  dsimp only
  rw [List.all_eq_true]
  constructor
  · intro h x hx
    obtain ⟨y, hy⟩ := hs x hx
    have h3 := h x hx
    rw [h2 x.name _ y (table_of hd hx) hy] at h3
    cases hl : lastFile a x.name with
    | none => rw [hl] at h3; simp at h3
    | some d =>
      rw [hl] at h3
      exact ⟨y, d, hy, rfl, by simpa using h3⟩
  · intro h x hx
    obtain ⟨y, d, hy, hl, hv⟩ := h x hx
    rw [h2 x.name _ y (table_of hd hx) hy, hl]
    simpa using hv

theorem made_names (c : Scheme D K P S) (k : P) (a : List (Entry D)) :
    (made c k a).files.map (·.name) = a.map (·.path) := by
  unfold made
  rw [List.map_map]
  rfl

theorem made_iff {c : Scheme D K P S} {k : P} {a b : List (Entry D)} (hf : Flat b) (hd : Distinct a) :
    verifySig c b (made c k a) = true ↔
      ∀ e ∈ a, ∃ d, lastFile b e.path = some d ∧ c.verify (c.pub k) d (c.sign k e.data) = true := by
  rw [verifySig_iff hf]
  · constructor
    · intro h e he
      obtain ⟨y, d, h1, h2, h3⟩ := h ⟨e.path, some (c.sign k e.data)⟩ (List.mem_map.2 ⟨e, he, rfl⟩)
      injection h1 with h1
      subst h1
      exact ⟨d, h2, h3⟩
    · intro h x hx
      obtain ⟨e, he, rfl⟩ := List.mem_map.1 hx
      obtain ⟨d, h1, h2⟩ := h e he
      exact ⟨_, d, rfl, h1, h2⟩
  · intro x hx
    obtain ⟨e, _, rfl⟩ := List.mem_map.1 hx
    exact ⟨_, rfl⟩
  · rw [made_names]; exact hd

theorem stem_signBase : stem signBase = signBase := by decide

theorem stem_signName : stem (signName 0).base = signBase := by decide

theorem beforeDot_none {l : List Char} (h : '.' ∉ l) : beforeDot l = none := by
  induction l with
  | nil => rfl
  | cons c l ih =>
    unfold beforeDot
    rw [ih fun hm => h (List.mem_cons_of_mem _ hm)]
    dsimp only
    rw [if_neg]
    rintro rfl
    exact h (by simp)

theorem beforeDot_append {l r : List Char} (h : '.' ∉ r) : beforeDot (l ++ '.' :: r) = some l := by
  induction l with
  | nil =>
    rw [List.nil_append]
    unfold beforeDot
    rw [beforeDot_none h]
    rfl
  | cons c l ih =>
    rw [List.cons_append]
    unfold beforeDot
    rw [ih]

theorem stem_numbered (n : Nat) : stem (signName n).base = signBase := by
  have h : '.' ∉ Nat.toDigits 10 n := by
    intro hm
    have := Nat.isDigit_of_mem_toDigits (by decide) (by decide) hm
    revert this
    decide
  unfold stem signName
  rw [beforeDot_append h]
  rfl

theorem unsigned_count {a : List (Entry D)} (h : Unsigned a) :
    a.countP (fun e => decide (e.path.base = signBase)) = 0 := by
  rw [List.countP_eq_zero]
  intro e he hb
  have hb : e.path.base = signBase := by simpa using hb
  exact h e he (by rw [hb]; exact stem_signBase)

theorem sign_eq {c : Scheme D K P S} {f : Format D K S} {k : P} {a b : List (Entry D)} (hu : Unsigned a)
    (h : sign c f k a = some b) : b = a ++ [⟨signName 0, f.ser (made c k a)⟩] := by
  unfold sign at h
  split at h
  · cases h
  · injection h with h
    rw [← h, unsigned_count hu]
    rfl

theorem flat_append {a : List (Entry D)} (h : Flat a) (d : D) : Flat (a ++ [⟨signName 0, d⟩]) := by
  intro e he
  rcases List.mem_append.1 he with he | he
  · exact h e he
  · rw [List.mem_singleton.1 he]; rfl

theorem sigs_append {f : Format D K S} {a : List (Entry D)} (hf : Flat a) (hu : Unsigned a) (s : PkgSig K S) :
    sigs f (a ++ [⟨signName 0, f.ser s⟩]) = some (fun q => if q = signName 0 then some s else none) := by
  unfold sigs
  rw [sigs_flat _ _ (flat_append hf _), sigsPure_unsigned _ _ _ hu]
  unfold sigsPure
  rw [if_pos stem_signName, f.de_ser]
  rfl

end Verif.Hub
