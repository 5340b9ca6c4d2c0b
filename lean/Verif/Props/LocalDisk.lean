import Verif.Meta.LocalDisk

/-!
# C63: the local metadata storage survives restarts
-/

namespace Verif.Props
open Verif.Meta Verif.Meta.Local

section
variable {K Sp St : Type} [DecidableEq K]

/-- The storage when its directory is new. -/
def emptyDisk : Disk K Sp St := ⟨fun _ => none, fun _ => none⟩

/-- After any operations and restarts in which the file system does not fail: the storage can be loaded, and
what is loaded is exactly what was in memory, including revisions, parents and children.

Missing: failing file operations and crashes in the middle of one; see the violations below. -/
theorem C63_restart_partial (s : Disk K Sp St) (h : Disk.Reach emptyDisk s) :
    Loads s.files s.mem ∧ ∀ d, Loads s.files d → d = s.mem := by
  have hs := (reach_same (s := (emptyDisk : Disk K Sp St)) (fun _ _ h => by cases h) (fun _ => rfl) h).2
  exact ⟨same_loads hs, fun d hd => loads_same hs hd⟩

/-- Whatever failed before, also on the same object: after an operation on it that reported no failure the
file is as in memory if it was so before, and operations on other objects, failing or not, change neither.

Missing: as above; an operation after a failed one does not repair the file unless it writes it. -/
theorem C63_each_partial (s : Disk K Sp St) (hs : ∀ k o, s.mem k = some o → o.key = k)
    (k : K) (hk : s.files k = (s.mem k).map some) (l : List (DEv K Sp St))
    (hl : ∀ e ∈ l, e.key = k → e.io = .ok) :
    (l.foldl Disk.step s).files k = ((l.foldl Disk.step s).mem k).map some := by
  induction l generalizing s with
  | nil => exact hk
  | cons e l ih =>
    refine ih _ (step_keyed e hs) ?_ fun x hx => hl x (List.mem_cons_of_mem _ hx)
    by_cases ek : e.key = k
    · subst ek
      exact same_ok e (hl e List.mem_cons_self rfl) hk
    · obtain ⟨h1, h2⟩ := same_other e ek
      rw [h1, h2]
      exact hk

end

def dobj (k spec rev : Nat) : LObj Nat Nat Nat := ⟨k, spec, 0, ⟨rev, none, []⟩⟩

/-- Creating, updating, deleting and restarting. -/
example : ∃ s : Disk Nat Nat Nat, Disk.Reach emptyDisk s ∧ s.mem 1 = some (dobj 1 11 1) ∧ s.mem 2 = none := by
  have h := Disk.Reach.refl (s := (emptyDisk : Disk Nat Nat Nat))
  have h := h.op (.apply (dobj 1 10 0) .ok) rfl
  have h := h.op (.apply (dobj 2 10 0) .ok) rfl
  have h := h.op (.apply (dobj 1 11 0) .ok) rfl
  have h := h.op (.delete 2 .ok) rfl
  have h := h.restart _ (C63_restart_partial _ h).1
  exact ⟨_, h, rfl, rfl⟩

/-- A crash between emptying a file and writing it (or a full disk) leaves a file that does not parse: at the
next start nothing of the kind can be loaded, neither this object nor any other. -/
theorem C63_violated_torn :
    let s := [DEv.apply (dobj 1 10 0) .ok, .apply (dobj 2 10 0) .ok, .apply (dobj 1 11 0) .torn].foldl
      Disk.step (emptyDisk : Disk Nat Nat Nat)
    s.files 2 = some (some (dobj 2 10 0)) ∧ ∀ d, ¬ Loads s.files d := by
  refine ⟨rfl, fun d h => h.1 1 rfl⟩

/-- A file that cannot be removed: the deletion reports success, and the object is back after a restart. -/
theorem C63_violated_removal :
    let s := ([DEv.apply (dobj 1 10 0) .ok].foldl Disk.step (emptyDisk : Disk Nat Nat Nat)).delete 1 .fails
    s.2 = true ∧ s.1.mem 1 = none ∧ ∀ d, Loads s.1.files d → d 1 = some (dobj 1 10 0) := by
  refine ⟨rfl, rfl, fun d h => h.2 1⟩

/-- A file that cannot be written: the operation reports an error, its effect is visible until the next
restart and gone afterwards. -/
theorem C63_violated_failed_write :
    let s := ([DEv.apply (dobj 1 10 0) .ok].foldl Disk.step (emptyDisk : Disk Nat Nat Nat)).apply (dobj 1 11 0) .fails
    s.2 = false ∧ s.1.mem 1 = some (dobj 1 11 1) ∧ ∀ d, Loads s.1.files d → d 1 = some (dobj 1 10 0) := by
  refine ⟨rfl, rfl, fun d h => h.2 1⟩

end Verif.Props
