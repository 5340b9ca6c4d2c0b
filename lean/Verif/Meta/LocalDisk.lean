import Verif.Meta.LocalInv

/-!
# The files of the local metadata storage

One kind of objects.  Each object is a file in YAML; writing and reading it back is taken to give the same
object (`serde`), so a file is either whole or torn.  The file of an object is written and removed while the
lock of the kind is held, so there is at most one writer at a time.
-/

namespace Verif.Meta.Local

set_option linter.unusedSectionVars false

variable {K Sp St : Type} [DecidableEq K]

/-- A file: `none` is one that does not parse. -/
abbrev File (K Sp St : Type) := Option (LObj K Sp St)

/-- What the operating system does with an operation on a file. -/
inductive Io where
  | ok
  /-- it fails without effect -/
  | fails
  /-- writing fails after the file has been emptied by `File::create` -/
  | torn
deriving DecidableEq

/-- `SpecStore` with its directory — local.rs:284-290 -/
structure Disk (K Sp St : Type) where
  mem : Data K Sp St
  files : K → Option (File K Sp St)

/-- `SpecPointer::flush` — local.rs:576-580 -/
def flush (files : K → Option (File K Sp St)) (o : LObj K Sp St) : Io → K → Option (File K Sp St)
  | .ok => fun j => if j = o.key then some (some o) else files j
  | .fails => files
  | .torn => fun j => if j = o.key then some none else files j

/-- `SpecStore::apply` — local.rs:469-494: the object is in memory before it is flushed, and stays there
when flushing fails.  The result says whether the operation succeeds. -/
def Disk.apply (s : Disk K Sp St) (o : LObj K Sp St) (io : Io) : Disk K Sp St × Bool :=
  match accept s.mem o with
  | some o' => (⟨s.mem.set o.key (some o'), flush s.files o' io⟩, io == .ok)
  | none => (s, false)

/-- `SpecStore::delete_item` and `SpecPointer::delete` — local.rs:452-467, 570-574: a failing removal is only
logged. -/
def Disk.delete (s : Disk K Sp St) (k : K) (io : Io) : Disk K Sp St × Bool :=
  match s.mem k with
  | some _ =>
    (⟨s.mem.set k none, if io = .ok then fun j => if j = k then none else s.files j else s.files⟩, true)
  | none => (s, true)

/-- `SpecStore::load` — local.rs:381-411: `d` is what is loaded; a single file that does not parse makes it
fail. -/
def Loads (files : K → Option (File K Sp St)) (d : Data K Sp St) : Prop :=
  (∀ k, files k ≠ some none) ∧ ∀ k, d k = (files k).join

/-- What happens to the storage. -/
inductive DEv (K Sp St : Type) where
  | apply (o : LObj K Sp St) (io : Io)
  | delete (k : K) (io : Io)

def DEv.key : DEv K Sp St → K
  | .apply o _ => o.key
  | .delete k _ => k

def DEv.io : DEv K Sp St → Io
  | .apply _ io => io
  | .delete _ io => io

def Disk.step (s : Disk K Sp St) : DEv K Sp St → Disk K Sp St
  | .apply o io => (s.apply o io).1
  | .delete k io => (s.delete k io).1

/-- Operations and restarts, the latter with an exact copy of the files. -/
inductive Disk.Reach (s : Disk K Sp St) : Disk K Sp St → Prop
  | refl : Reach s s
  | op {t : Disk K Sp St} (h : Reach s t) (e : DEv K Sp St) (he : e.io = .ok) : Reach s (t.step e)
  | restart {t : Disk K Sp St} (h : Reach s t) (d : Data K Sp St) (hd : Loads t.files d) :
      Reach s ⟨d, t.files⟩

/-- The file of an object is as in memory. -/
def Disk.Same (s : Disk K Sp St) (k : K) : Prop := s.files k = (s.mem k).map some

theorem same_other {s : Disk K Sp St} {k : K} (e : DEv K Sp St) (hk : e.key ≠ k) :
    (s.step e).mem k = s.mem k ∧ (s.step e).files k = s.files k := by
  cases e with
  | apply o io =>
    show (s.apply o io).1.mem k = _ ∧ (s.apply o io).1.files k = _
    unfold Disk.apply
    cases ha : accept s.mem o with
    | none => exact ⟨rfl, rfl⟩
    | some o' =>
      have hne : k ≠ o.key := fun e => hk e.symm
      have hne' : k ≠ o'.key := by rw [accept_key ha]; exact hne
      dsimp only
      refine ⟨set_other _ _ hne, ?_⟩
      cases io
      · exact if_neg hne'
      · rfl
      · exact if_neg hne'
  | delete j io =>
    show (s.delete j io).1.mem k = _ ∧ (s.delete j io).1.files k = _
    unfold Disk.delete
    cases s.mem j with
    | none => exact ⟨rfl, rfl⟩
    | some x =>
      have hne : k ≠ j := fun e => hk e.symm
      dsimp only
      refine ⟨set_other _ _ hne, ?_⟩
      split
      · exact if_neg hne
      · rfl

theorem same_ok {s : Disk K Sp St} (e : DEv K Sp St) (he : e.io = .ok) (h : s.Same e.key) :
    (s.step e).Same e.key := by
  cases e with
  | apply o io =>
    cases he
    show (s.apply o .ok).1.files o.key = ((s.apply o .ok).1.mem o.key).map some
    unfold Disk.apply
    cases ha : accept s.mem o with
    | none => exact h
    | some o' =>
      dsimp only
      rw [set_same]
      exact if_pos (accept_key ha).symm
  | delete j io =>
    cases he
    show (s.delete j .ok).1.files j = ((s.delete j .ok).1.mem j).map some
    unfold Disk.delete
    cases hj : s.mem j with
    | none =>
      show s.files j = (s.mem j).map some
      exact h
    | some x =>
      dsimp only
      rw [set_same, if_pos rfl]
      exact if_pos rfl

theorem step_keyed {s : Disk K Sp St} (e : DEv K Sp St) (h : Keyed s.mem) : Keyed (s.step e).mem := by
  cases e with
  | apply o io =>
    show Keyed (s.apply o io).1.mem
    unfold Disk.apply
    cases ha : accept s.mem o with
    | none => exact h
    | some o' => exact h.set fun x hx => by cases hx; exact accept_key ha
  | delete j io =>
    show Keyed (s.delete j io).1.mem
    unfold Disk.delete
    cases hj : s.mem j with
    | none => exact h
    | some x => exact h.set fun x hx => by cases hx

theorem loads_same {s : Disk K Sp St} {d : Data K Sp St} (h : ∀ k, s.Same k) (hd : Loads s.files d) :
    d = s.mem := by
  funext k
  rw [hd.2 k, h k]
  cases s.mem k <;> rfl

theorem same_loads {s : Disk K Sp St} (h : ∀ k, s.Same k) : Loads s.files s.mem := by
  refine ⟨fun k hk => ?_, fun k => ?_⟩
  · rw [h k] at hk
    cases hm : s.mem k with
    | none => rw [hm] at hk; cases hk
    | some x => rw [hm] at hk; cases hk
  · rw [h k]
    cases s.mem k <;> rfl

theorem reach_same {s t : Disk K Sp St} (hk : Keyed s.mem) (h : ∀ k, s.Same k) (hr : Disk.Reach s t) :
    Keyed t.mem ∧ ∀ k, t.Same k := by
  induction hr with
  | refl => exact ⟨hk, h⟩
  | op _ e he ih =>
    refine ⟨step_keyed e ih.1, fun k => ?_⟩
    by_cases ek : e.key = k
    · subst ek
      exact same_ok e he (ih.2 _)
    · obtain ⟨h1, h2⟩ := same_other e ek
      unfold Disk.Same
      rw [h1, h2]
      exact ih.2 k
  | restart _ d hd ih =>
    have := loads_same ih.2 hd
    subst this
    exact ih

end Verif.Meta.Local
