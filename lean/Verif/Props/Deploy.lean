import Verif.Connector.Deploy

/-!
# C115: local deployments of connectors
-/

namespace Verif.Props

open Verif.Connector.Deploy

namespace C115

/-- The entries of the index file. -/
def entries (w : World) : List Entry := w.index.getD []

/-- No two entries have the same name. -/
def Unique (w : World) : Prop := (entries w).Pairwise fun a b => a.name ≠ b.name

/-- Each connector that runs is in the index. -/
def Tracked (w : World) : Prop :=
  ∀ pid n, w.procs pid = some (.connector n) → ∃ e ∈ entries w, e.pid = pid ∧ e.name = n

/-- Under the process id of each entry its connector runs, or nothing. -/
def Owned (w : World) : Prop :=
  ∀ e ∈ entries w, w.procs e.pid = none ∨ w.procs e.pid = some (.connector e.name)

/-- What happens on the machine. -/
inductive Event
  | start (packageOk configOk : Bool) (n : String) (pid : Nat) (tmp : Option Nat)
  | shutdown (dies : Nat → Bool) (n : String)
  | exit (pid : Nat)
  | other (pid : Nat)
  /-- the index file is damaged or removed -/
  | lose

def step (w : World) : Event → World
  | .start p c n pid tmp => (start w p c n pid tmp).1
  | .shutdown dies n => (shutdown w dies n).1
  | .exit pid => exit w pid
  | .other pid => other w pid
  | .lose => { w with index := none }

def run (w : World) : List Event → World
  | [] => w
  | ev :: rest => run (step w ev) rest

/-- An event in which names are not started twice, process ids that the index holds are not given again, processes end
when they are told to, and the index stays. -/
def Orderly (w : World) : Event → Prop
  | .start _ _ n pid _ => (∀ e ∈ entries w, e.name ≠ n ∧ e.pid ≠ pid) ∧ w.procs pid = none
  | .shutdown dies _ => ∀ pid, dies pid = true
  | .exit _ => True
  | .other pid => (∀ e ∈ entries w, e.pid ≠ pid) ∧ w.procs pid = none
  | .lose => False

def AllOrderly (w : World) : List Event → Prop
  | [] => True
  | ev :: rest => Orderly w ev ∧ AllOrderly (step w ev) rest

theorem find_none {l : List Entry} {n : String} (h : ∀ e ∈ l, e.name ≠ n) : findByName l n = none := by
  simp only [findByName, List.find?_eq_none, beq_iff_eq]
  exact h

theorem find_some {l : List Entry} (hu : l.Pairwise fun a b => a.name ≠ b.name) {e : Entry} (h : e ∈ l) :
    findByName l e.name = some e := by
  induction l with
  | nil => cases h
  | cons x l ih =>
    rw [List.pairwise_cons] at hu
    simp only [findByName, List.find?_cons]
    cases h with
    | head => simp
    | tail _ h =>
      have : (x.name == e.name) = false := by simpa using hu.1 e h
      rw [this]
      exact ih hu.2 h

theorem find_mem {l : List Entry} {n : String} {e : Entry} (h : findByName l n = some e) : e ∈ l ∧ e.name = n :=
  ⟨List.mem_of_find?_eq_some h, by simpa using List.find?_some h⟩

/-- The rest after a removal is the index without that name. -/
theorem erase_eq {l : List Entry} (hu : l.Pairwise fun a b => a.name ≠ b.name) (n : String) :
    (l.eraseP fun e => e.name == n) = l.filter fun e => e.name ≠ n := by
  induction l with
  | nil => rfl
  | cons x l ih =>
    rw [List.pairwise_cons] at hu
    by_cases hx : x.name = n
    · have : l.filter (fun e => decide (e.name ≠ n)) = l := by
        rw [List.filter_eq_self]
        intro e he
        simpa [← hx] using (hu.1 e he).symm
      simp only [List.eraseP_cons, hx, beq_self_eq_true, cond_true]
      rw [List.filter_cons, if_neg (by simp [hx]), this]
    · have hb : (x.name == n) = false := by simpa using hx
      simp only [List.eraseP_cons, hb, cond_false, ih hu.2]
      rw [List.filter_cons, if_pos (by simp [hx])]

theorem start_taken {w : World} {n : String} (h : ∃ e ∈ entries w, e.name = n) (pid : Nat) (tmp : Option Nat) :
    start w true true n pid tmp = (spawn (unpack w tmp) pid n, false) := by
  have hl : loadIndex (spawn (unpack w tmp) pid n) = entries w := by cases tmp <;> rfl
  have : findByName (entries w) n ≠ none := by
    simp only [findByName, ne_eq, List.find?_eq_none, beq_iff_eq]
    obtain ⟨e, he, hn⟩ := h
    exact fun hh => hh e he hn
  cases hf : findByName (entries w) n with
  | none => exact absurd hf this
  | some e => simp [start, store, insertEntry, hl, hf]

theorem start_free {w : World} {n : String} (h : ∀ e ∈ entries w, e.name ≠ n) (pid : Nat) (tmp : Option Nat) :
    start w true true n pid tmp =
      ({ spawn (unpack w tmp) pid n with index := some (entries w ++ [⟨pid, n, tmp⟩]) }, true) := by
  have hl : loadIndex (spawn (unpack w tmp) pid n) = entries w := by cases tmp <;> rfl
  simp [start, store, insertEntry, hl, find_none h]

theorem unpack_index (w : World) (tmp : Option Nat) :
    (unpack w tmp).index = w.index ∧ (unpack w tmp).procs = w.procs := by
  cases tmp <;> exact ⟨rfl, rfl⟩

/-- What the index can be after `start`. -/
theorem start_entries (w : World) (p c : Bool) (n : String) (pid : Nat) (tmp : Option Nat) :
    (entries (start w p c n pid tmp).1 = entries w) ∨
      ((∀ e ∈ entries w, e.name ≠ n) ∧ entries (start w p c n pid tmp).1 = entries w ++ [⟨pid, n, tmp⟩]) := by
  have hu : entries (unpack w tmp) = entries w := by cases tmp <;> rfl
  cases p with
  | false => exact Or.inl rfl
  | true =>
    cases c with
    | false => exact Or.inl (by simpa [start] using hu)
    | true =>
      by_cases h : ∃ e ∈ entries w, e.name = n
      · rw [start_taken h]; exact Or.inl hu
      · have h' : ∀ e ∈ entries w, e.name ≠ n := fun e he hn => h ⟨e, he, hn⟩
        rw [start_free h']; exact Or.inr ⟨h', rfl⟩

theorem kill_index (w : World) (dies : Nat → Bool) (pid : Nat) :
    (kill w dies pid).index = w.index ∧ (kill w dies pid).dirs = w.dirs := by
  simp only [kill]; split <;> exact ⟨rfl, rfl⟩

theorem shutdown_entries (w : World) (dies : Nat → Bool) (n : String) :
    (entries (shutdown w dies n).1).Sublist (entries w) := by
  simp only [shutdown]
  cases hf : findByName (loadIndex w) n with
  | none => exact List.Sublist.refl _
  | some e =>
    simp only
    cases e.tmp with
    | none => exact List.eraseP_sublist
    | some t =>
      simp only
      cases removeDir (kill w dies e.pid) t with
      | none =>
        simp only [entries, (kill_index w dies e.pid).1]
        exact List.Sublist.refl _
      | some w2 => exact List.eraseP_sublist

end C115

open C115

/-- In all histories, whatever happens on the machine, no name stands twice in the index. -/
theorem C115_unique (evs : List Event) {w : World} (hw : Unique w) : Unique (run w evs) := by
  induction evs generalizing w with
  | nil => exact hw
  | cons ev rest ih =>
    apply ih
    cases ev with
    | start p c n pid tmp =>
      simp only [step, Unique]
      rcases start_entries w p c n pid tmp with h | ⟨h1, h⟩
      · rw [h]; exact hw
      · rw [h, List.pairwise_append]
        refine ⟨hw, by simp, fun a ha b hb => ?_⟩
        simp only [List.mem_singleton] at hb
        subst hb
        exact h1 a ha
    | shutdown dies n => exact List.Pairwise.sublist (shutdown_entries w dies n) hw
    | exit pid => exact hw
    | other pid => exact hw
    | lose => exact .nil

/-- A start succeeds exactly if package and configuration are good and the name is free; then the connector runs and is
the last in the index, and nothing else has changed. -/
theorem C115_start (w : World) (p c : Bool) (n : String) (pid : Nat) (tmp : Option Nat) :
    ((start w p c n pid tmp).2 = true ↔ p = true ∧ c = true ∧ ∀ e ∈ entries w, e.name ≠ n) ∧
    ((start w p c n pid tmp).2 = true →
      entries (start w p c n pid tmp).1 = entries w ++ [⟨pid, n, tmp⟩] ∧
      (start w p c n pid tmp).1.procs pid = some (.connector n) ∧
      (∀ q, q ≠ pid → (start w p c n pid tmp).1.procs q = w.procs q) ∧
      ∀ q, (start w p c n pid tmp).1.dirs q = true ↔ w.dirs q = true ∨ tmp = some q) ∧
    ((start w p c n pid tmp).2 = false → entries (start w p c n pid tmp).1 = entries w) := by
  have hu : entries (unpack w tmp) = entries w := by cases tmp <;> rfl
  cases p with
  | false => simp [start]
  | true =>
    cases c with
    | false => simp [start, hu]
    | true =>
      by_cases h : ∃ e ∈ entries w, e.name = n
      · rw [start_taken h]
        refine ⟨⟨(fun h => nomatch h), fun h' => ?_⟩, (fun h => nomatch h), fun _ => hu⟩
        obtain ⟨e, he, hn⟩ := h
        exact absurd hn (h'.2.2 e he)
      · have h' : ∀ e ∈ entries w, e.name ≠ n := fun e he hn => h ⟨e, he, hn⟩
        rw [start_free h']
        refine ⟨⟨fun _ => ⟨rfl, rfl, h'⟩, fun _ => rfl⟩, fun _ => ⟨rfl, ?_, fun q hq => ?_, fun q => ?_⟩,
          (fun h => nomatch h)⟩
        · simp [spawn]
        · simp [spawn, hq, (unpack_index w tmp).2]
        · cases tmp with
          | none => simp [spawn, unpack]
          | some t =>
            simp only [spawn, unpack, Bool.or_eq_true, decide_eq_true_eq, Option.some.injEq]
            constructor
            · rintro (h | h)
              · exact Or.inr h.symm
              · exact Or.inl h
            · rintro (h | h)
              · exact Or.inr h
              · exact Or.inl h.symm

/-- A shutdown of a connector in the index whose temporary directory, if it has one, is there, and whose process ends
when told to: the entry, the process and the directory go, all others stay.  Not in general, see below. -/
theorem C115_shutdown_partial {w : World} (hu : Unique w) {e : Entry} (he : e ∈ entries w) {dies : Nat → Bool}
    (hd : dies e.pid = true) (ht : ∀ t, e.tmp = some t → w.dirs t = true) :
    (shutdown w dies e.name).2 = true ∧
      entries (shutdown w dies e.name).1 = (entries w).filter (fun x => x.name ≠ e.name) ∧
      (shutdown w dies e.name).1.procs e.pid = none ∧
      (∀ q, q ≠ e.pid → (shutdown w dies e.name).1.procs q = w.procs q) ∧
      ∀ q, (shutdown w dies e.name).1.dirs q = true ↔ w.dirs q = true ∧ e.tmp ≠ some q := by
  have hf : findByName (loadIndex w) e.name = some e := find_some hu he
  have hr : ((loadIndex w).eraseP fun x => x.name == e.name) = (entries w).filter (fun x => x.name ≠ e.name) :=
    erase_eq hu e.name
  cases hx : e.tmp with
  | none =>
    have hs : shutdown w dies e.name =
        ({ kill w dies e.pid with index := some ((entries w).filter (fun x => x.name ≠ e.name)) }, true) := by
      simp only [shutdown, hf, hx, hr]
    rw [hs]
    refine ⟨rfl, rfl, ?_, fun q hq => ?_, fun q => ?_⟩
    · simp [kill, hd]
    · simp [kill, hd, hq]
    · simp [kill, hd]
  | some t =>
    have hs : shutdown w dies e.name =
        ({ kill w dies e.pid with
            dirs := fun q => q != t && w.dirs q, index := some ((entries w).filter (fun x => x.name ≠ e.name)) },
          true) := by
      simp only [shutdown, hf, hx, hr, removeDir, (kill_index w dies e.pid).2, ht t hx, if_true]
    rw [hs]
    refine ⟨rfl, rfl, ?_, fun q hq => ?_, fun q => ?_⟩
    · simp [kill, hd]
    · simp [kill, hd, hq]
    · simp only [Bool.and_eq_true, bne_iff_ne, ne_eq, Option.some.injEq]
      constructor
      · rintro ⟨h1, h2⟩; exact ⟨h2, fun h => h1 h.symm⟩
      · rintro ⟨h1, h2⟩; exact ⟨fun h => h2 h.symm, h1⟩

/-- A shutdown of a name that is not in the index touches nothing. -/
theorem C115_shutdown_unknown {w : World} {n : String} (h : ∀ e ∈ entries w, e.name ≠ n) (dies : Nat → Bool) :
    entries (shutdown w dies n).1 = entries w ∧ (shutdown w dies n).1.procs = w.procs ∧
      (shutdown w dies n).1.dirs = w.dirs := by
  have hf : findByName (loadIndex w) n = none := find_none h
  simp only [shutdown, hf, and_self, and_true]
  rfl

namespace C115

theorem shutdown_procs {w : World} {dies : Nat → Bool} (hd : ∀ pid, dies pid = true) (n : String) :
    (shutdown w dies n).1.procs = w.procs ∨
      ∃ e, findByName (loadIndex w) n = some e ∧
        (shutdown w dies n).1.procs = fun q => if q = e.pid then none else w.procs q := by
  simp only [shutdown]
  cases hf : findByName (loadIndex w) n with
  | none => exact Or.inl rfl
  | some e =>
    refine Or.inr ⟨e, rfl, ?_⟩
    have hk : (kill w dies e.pid).procs = fun q => if q = e.pid then none else w.procs q := by simp [kill, hd]
    simp only
    cases e.tmp with
    | none => exact hk
    | some t =>
      simp only [removeDir]
      split
      · exact hk
      · rename_i h; split at h
        · cases h; exact hk
        · exact nomatch h

theorem step_good {w : World} {ev : Event} (hu : Unique w) (ht : Tracked w) (ho : Owned w) (h : Orderly w ev) :
    Tracked (step w ev) ∧ Owned (step w ev) := by
  cases ev with
  | start p c n pid tmp =>
    obtain ⟨hfree, hnone⟩ := h
    have hsame : ∀ {w'}, entries w' = entries w → w'.procs = w.procs → Tracked w' ∧ Owned w' := by
      intro w' h1 h2
      refine ⟨fun q m hq => ?_, fun e he => ?_⟩
      · rw [h1]; rw [h2] at hq; exact ht q m hq
      · rw [h1] at he; rw [h2]; exact ho e he
    have hun : entries (unpack w tmp) = entries w := by cases tmp <;> rfl
    cases p with
    | false => exact hsame rfl rfl
    | true =>
      cases c with
      | false => exact hsame (by simpa [step, start] using hun) (by simpa [step, start] using (unpack_index w tmp).2)
      | true =>
        simp only [step, start_free fun e he => (hfree e he).1]
        refine ⟨fun q m hq => ?_, fun e he => ?_⟩
        · by_cases hqp : q = pid
          · subst hqp
            simp only [spawn, if_true, Option.some.injEq, Proc.connector.injEq] at hq
            subst hq
            exact ⟨⟨q, n, tmp⟩, by simp [entries], rfl, rfl⟩
          · simp only [spawn, hqp, if_false, (unpack_index w tmp).2] at hq
            obtain ⟨e, he, h1⟩ := ht q m hq
            exact ⟨e, List.mem_append_left _ he, h1⟩
        · rcases List.mem_append.mp (show e ∈ entries w ++ [⟨pid, n, tmp⟩] from he) with he | he
          · simp only [spawn, (hfree e he).2, if_false, (unpack_index w tmp).2]
            exact ho e he
          · simp only [List.mem_singleton] at he
            subst he
            exact Or.inr (by simp [spawn])
  | shutdown dies n =>
    have hsub := (shutdown_entries w dies n).subset
    rcases shutdown_procs (w := w) h n with hp | ⟨e, hf, hp⟩
    · by_cases hn : ∃ e ∈ entries w, e.name = n
      · obtain ⟨e, he, rfl⟩ := hn
        have hf : findByName (loadIndex w) e.name = some e := find_some hu he
        -- the process has ended already
        have hnone : w.procs e.pid = none := by
          have : (shutdown w dies e.name).1.procs e.pid = none := by
            have hk : (kill w dies e.pid).procs e.pid = none := by simp [kill, h e.pid]
            simp only [shutdown, hf]
            cases e.tmp with
            | none => exact hk
            | some t =>
              simp only [removeDir]
              split
              · exact hk
              · rename_i h2; split at h2
                · cases h2; exact hk
                · exact nomatch h2
          rw [hp] at this; exact this
        refine ⟨fun q m hq => ?_, fun x hx => ?_⟩
        · simp only [step, hp] at hq
          obtain ⟨x, hx, h1, h2⟩ := ht q m hq
          refine ⟨x, ?_, h1, h2⟩
          have hne : x.name ≠ e.name := by
            intro hh
            have := find_some hu hx
            rw [hh] at this
            have hxe : x = e := by
              have h3 : findByName (entries w) e.name = some e := hf
              rw [this] at h3; exact Option.some.inj h3
            rw [hxe] at h1
            rw [← h1, hnone] at hq; exact nomatch hq
          simp only [step, shutdown, hf]
          have hmem : x ∈ (loadIndex w).eraseP fun e' => e'.name == e.name :=
            (List.mem_eraseP_of_neg (by simpa using hne)).mpr hx
          cases e.tmp with
          | none => exact hmem
          | some t =>
            simp only
            cases removeDir (kill w dies e.pid) t with
            | none => simp only [entries, (kill_index w dies e.pid).1]; exact hx
            | some w2 => exact hmem
        · simp only [step, hp]; exact ho x (hsub hx)
      · have hn' : ∀ e ∈ entries w, e.name ≠ n := fun e he hh => hn ⟨e, he, hh⟩
        obtain ⟨h1, h2, -⟩ := C115_shutdown_unknown hn' dies
        refine ⟨fun q m hq => ?_, fun x hx => ?_⟩
        · simp only [step, h2] at hq; simp only [step, h1]; exact ht q m hq
        · simp only [step, h1] at hx; simp only [step, h2]; exact ho x hx
    · refine ⟨fun q m hq => ?_, fun x hx => ?_⟩
      · simp only [step, hp] at hq
        split at hq
        · exact nomatch hq
        · rename_i hqe
          obtain ⟨x, hx, h1, h2⟩ := ht q m hq
          refine ⟨x, ?_, h1, h2⟩
          have hne : x.name ≠ n := by
            intro hh
            have h3 := find_some hu hx
            rw [hh] at h3
            have h4 : findByName (entries w) n = some e := hf
            rw [h4] at h3
            cases h3
            exact hqe h1.symm
          simp only [step, shutdown, hf]
          have hmem : x ∈ (loadIndex w).eraseP fun e' => e'.name == n :=
            (List.mem_eraseP_of_neg (by simpa using hne)).mpr hx
          cases e.tmp with
          | none => exact hmem
          | some t =>
            simp only
            cases removeDir (kill w dies e.pid) t with
            | none => simp only [entries, (kill_index w dies e.pid).1]; exact hx
            | some w2 => exact hmem
      · simp only [step, hp]
        by_cases hq : x.pid = e.pid
        · exact Or.inl (if_pos hq)
        · rw [if_neg hq]; exact ho x (hsub hx)
  | exit pid =>
    refine ⟨fun q m hq => ?_, fun x hx => ?_⟩
    · simp only [step, exit] at hq
      split at hq
      · exact nomatch hq
      · exact ht q m hq
    · simp only [step, exit]
      by_cases hq : x.pid = pid
      · exact Or.inl (if_pos hq)
      · rw [if_neg hq]; exact ho x hx
  | other pid =>
    refine ⟨fun q m hq => ?_, fun x hx => ?_⟩
    · simp only [step, other] at hq
      split at hq
      · simp at hq
      · exact ht q m hq
    · simp only [step, other]
      rw [if_neg (h.1 x hx)]
      exact ho x hx
  | lose => exact h.elim

end C115

/-- In orderly histories every connector that runs is in the index, and `list` says of each entry whether its connector
runs.  What happens otherwise is shown below. -/
theorem C115_tracked_partial (evs : List Event) {w : World} (hu : Unique w) (ht : Tracked w) (ho : Owned w)
    (h : AllOrderly w evs) :
    Tracked (run w evs) ∧
      ∀ n b, (n, b) ∈ list (run w evs) →
        (b = true ↔ ∃ e ∈ entries (run w evs), e.name = n ∧ (run w evs).procs e.pid = some (.connector n)) := by
  have key : Unique (run w evs) ∧ Tracked (run w evs) ∧ Owned (run w evs) := by
    induction evs generalizing w with
    | nil => exact ⟨hu, ht, ho⟩
    | cons ev rest ih =>
      obtain ⟨h1, h2⟩ := step_good hu ht ho h.1
      exact ih (C115_unique [ev] hu) h1 h2 h.2
  obtain ⟨k1, k2, k3⟩ := key
  refine ⟨k2, fun n b hb => ?_⟩
  simp only [list, List.mem_map, Prod.mk.injEq] at hb
  obtain ⟨e, he, rfl, rfl⟩ := hb
  constructor
  · intro hs
    refine ⟨e, he, rfl, ?_⟩
    rcases k3 e he with h | h
    · rw [h] at hs; exact nomatch hs
    · exact h
  · rintro ⟨x, hx, hn, hp⟩
    have h1 := find_some k1 hx
    have h2 := find_some k1 (show e ∈ entries (run w evs) from he)
    rw [hn, h2] at h1
    cases h1
    simp [hp]

/-- `list` has the entries of the index, each once and in order. -/
theorem C115_list (w : World) : (list w).map Prod.fst = (entries w).map Entry.name := by
  simp [list, entries, loadIndex]

/-! ### Where the claim fails -/

/-- Starting a connector under a name that is taken is refused only after the process was started: it runs, and no
shutdown of any name ends it. -/
theorem C115_violated_orphan {w : World} {n : String} (hn : ∃ e ∈ entries w, e.name = n) {pid : Nat}
    (hp : ∀ e ∈ entries w, e.pid ≠ pid) (tmp : Option Nat) :
    (start w true true n pid tmp).2 = false ∧
      (start w true true n pid tmp).1.procs pid = some (.connector n) ∧
      ∀ dies m, (shutdown (start w true true n pid tmp).1 dies m).1.procs pid = some (.connector n) := by
  rw [start_taken hn]
  have hpr : (spawn (unpack w tmp) pid n).procs pid = some (.connector n) := by simp [spawn]
  refine ⟨rfl, hpr, fun dies m => ?_⟩
  have hl : loadIndex (spawn (unpack w tmp) pid n) = entries w := by cases tmp <;> rfl
  simp only [shutdown, hl]
  cases hf : findByName (entries w) m with
  | none => exact hpr
  | some e =>
    have hk : (kill (spawn (unpack w tmp) pid n) dies e.pid).procs pid = some (.connector n) := by
      simp only [kill]
      split
      · simp only
        rw [if_neg (fun h => hp e (find_mem hf).1 h.symm)]
        exact hpr
      · exact hpr
    simp only
    cases e.tmp with
    | none => exact hk
    | some t =>
      simp only [removeDir]
      split
      · exact hk
      · rename_i h; split at h
        · cases h; exact hk
        · exact nomatch h

/-- Such a process is not ended by any sequence of shutdowns. -/
theorem C115_violated_orphan_kept (cmds : List ((Nat → Bool) × String)) {w : World} {pid : Nat}
    (hp : ∀ e ∈ entries w, e.pid ≠ pid) :
    (run w (cmds.map fun c => .shutdown c.1 c.2)).procs pid = w.procs pid := by
  induction cmds generalizing w with
  | nil => rfl
  | cons c rest ih =>
    simp only [List.map_cons, run, step]
    rw [ih fun e he => hp e ((shutdown_entries w c.1 c.2).subset he)]
    simp only [shutdown]
    cases hf : findByName (loadIndex w) c.2 with
    | none => rfl
    | some e =>
      have hk : (kill w c.1 e.pid).procs pid = w.procs pid := by
        simp only [kill]
        split
        · exact if_neg fun h => hp e (find_mem hf).1 h.symm
        · rfl
      simp only
      cases e.tmp with
      | none => exact hk
      | some t =>
        simp only [removeDir]
        split
        · exact hk
        · rename_i h; split at h
          · cases h; exact hk
          · exact nomatch h

/-- If the temporary directory of a connector is gone, shutting it down ends the process but fails and keeps the entry;
nothing has changed that would let the next shutdown succeed, and a start under the name is refused. -/
theorem C115_violated_stuck {w : World} (hu : Unique w) {e : Entry} (he : e ∈ entries w) {t : Nat}
    (ht : e.tmp = some t) (hd : w.dirs t = false) (dies : Nat → Bool) :
    (shutdown w dies e.name).2 = false ∧ entries (shutdown w dies e.name).1 = entries w ∧
      (dies e.pid = true → (shutdown w dies e.name).1.procs e.pid = none) ∧
      (shutdown w dies e.name).1.dirs t = false ∧
      ∀ pid tmp, (start (shutdown w dies e.name).1 true true e.name pid tmp).2 = false := by
  have hf : findByName (loadIndex w) e.name = some e := find_some hu he
  have hs : shutdown w dies e.name = (kill w dies e.pid, false) := by
    simp only [shutdown, hf, ht, removeDir, (kill_index w dies e.pid).2, hd, Bool.false_eq_true, if_false]
  have hk : entries (kill w dies e.pid) = entries w := by simp [entries, (kill_index w dies e.pid).1]
  rw [hs]
  refine ⟨rfl, hk, fun h => by simp [kill, h], by rw [(kill_index w dies e.pid).2]; exact hd, fun pid tmp => ?_⟩
  rw [start_taken ⟨e, by rw [hk]; exact he, rfl⟩]

/-- A connector that has ended and whose process id was given to another program is listed as running, and shutting it
down ends that program. -/
theorem C115_violated_pid {w : World} (hu : Unique w) {e : Entry} (he : e ∈ entries w) (ht : e.tmp = none)
    (hp : w.procs e.pid = some .other) {dies : Nat → Bool} (hd : dies e.pid = true) :
    (e.name, true) ∈ list w ∧ (shutdown w dies e.name).1.procs e.pid = none := by
  refine ⟨?_, (C115_shutdown_partial hu he hd (by simp [ht])).2.2.1⟩
  simp only [list, List.mem_map, Prod.mk.injEq]
  exact ⟨e, he, rfl, by simp [hp]⟩

/-- With an index that cannot be read the next start replaces it by one with the new connector alone. -/
theorem C115_violated_lost {w : World} (hi : w.index = none) (n : String) (pid : Nat) (tmp : Option Nat) :
    (start w true true n pid tmp).2 = true ∧ (start w true true n pid tmp).1.index = some [⟨pid, n, tmp⟩] := by
  have he : entries w = [] := by simp [entries, hi]
  rw [start_free (by simp [he])]
  simp [he]

/-- A connector that does not end on the signal is taken out of the index although it runs on. -/
theorem C115_violated_signal {w : World} (hu : Unique w) {e : Entry} (he : e ∈ entries w) (ht : e.tmp = none)
    {dies : Nat → Bool} (hd : dies e.pid = false) :
    (shutdown w dies e.name).2 = true ∧ (∀ x ∈ entries (shutdown w dies e.name).1, x.name ≠ e.name) ∧
      (shutdown w dies e.name).1.procs = w.procs := by
  have hf : findByName (loadIndex w) e.name = some e := find_some hu he
  have hs : shutdown w dies e.name =
      ({ w with index := some ((entries w).filter (fun x => x.name ≠ e.name)) }, true) := by
    have hr : ((loadIndex w).eraseP fun x => x.name == e.name) = (entries w).filter (fun x => x.name ≠ e.name) :=
      erase_eq hu e.name
    simp only [shutdown, hf, ht, hr, kill, hd, Bool.false_eq_true, if_false]
  rw [hs]
  refine ⟨rfl, fun x hx => ?_, rfl⟩
  simpa using (List.mem_filter.mp (show x ∈ (entries w).filter (fun x => x.name ≠ e.name) from hx)).2

/-- A start from a package that is refused for its configuration leaves the directory with the binary behind, to which
no entry refers. -/
theorem C115_violated_leftover (w : World) (n : String) (pid t : Nat) :
    (start w true false n pid (some t)).2 = false ∧ (start w true false n pid (some t)).1.dirs t = true ∧
      entries (start w true false n pid (some t)).1 = entries w := by
  simp [start, unpack, entries]

/-! ### The hypotheses can be met -/

namespace C115

/-- Two connectors, the first from a package. -/
def world : World :=
  run ⟨none, fun _ => none, fun _ => false⟩ [.start true true "a" 10 (some 1), .start true true "b" 11 none]

end C115

example : entries world = [⟨10, "a", some 1⟩, ⟨11, "b", none⟩] ∧ list world = [("a", true), ("b", true)] ∧
    (shutdown world (fun _ => true) "a").2 = true ∧ list (exit world 10) = [("a", false), ("b", true)] ∧
    (other (exit world 11) 11).procs 11 = some .other ∧
    (start world true true "a" 12 none).2 = false := by decide

example : Unique world ∧ Tracked world ∧ Owned world := by
  have h0 : Unique ⟨none, fun _ => none, fun _ => false⟩ := .nil
  refine ⟨C115_unique _ h0, ?_⟩
  have h : entries world = [⟨10, "a", some 1⟩, ⟨11, "b", none⟩] := by decide
  refine ⟨fun pid n hp => ?_, fun e he => ?_⟩
  · rw [h]
    by_cases h1 : pid = 11
    · subst h1
      have : world.procs 11 = some (.connector "b") := by decide
      rw [this] at hp; cases hp
      exact ⟨⟨11, "b", none⟩, by simp, rfl, rfl⟩
    · by_cases h2 : pid = 10
      · subst h2
        have : world.procs 10 = some (.connector "a") := by decide
        rw [this] at hp; cases hp
        exact ⟨⟨10, "a", some 1⟩, by simp, rfl, rfl⟩
      · simp [world, run, step, start, unpack, spawn, store, insertEntry, loadIndex, findByName, h1, h2] at hp
  · rw [h] at he
    simp only [List.mem_cons, List.not_mem_nil, or_false] at he
    rcases he with rfl | rfl <;> exact Or.inr (by decide)

/-- An orderly history with a crash and a new start. -/
example : AllOrderly world [.exit 10, .shutdown (fun _ => true) "a", .start true true "a" 12 none, .other 13] := by
  refine ⟨trivial, fun _ => rfl, ⟨?_, by decide⟩, ⟨?_, by decide⟩, trivial⟩ <;> decide

end Verif.Props
