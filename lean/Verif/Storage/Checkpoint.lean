import Verif.Storage.Replica

/-!
# The high watermark checkpoint file (`fluvio-storage/src/checkpoint.rs`)

A background task writes the published offset to the file.  Writing the eight bytes is taken as atomic.
-/

namespace Verif.Storage

/-- The running checkpoint: `CheckPoint`, its `OffsetPublisher`, and the `LazyWriter` task —
checkpoint.rs:46-52, 122-127. -/
structure Chk where
  /-- content of the file; `none`: not exactly 8 bytes (just created) -/
  file : Option Int
  /-- `LazyWriter::offset`: the value read when the file was opened -/
  known : Int
  /-- the published offset -/
  cur : Int
  /-- last value the writer's listener has returned -/
  seen : Int

/-- What is found when the partition is opened. -/
def Chk.found (file : Option (Option Int)) : ChkFile :=
  match file with
  | none => .missing
  | some none => .unreadable
  | some (some v) => .value v

/-- `CheckPoint::create` — checkpoint.rs:57-101; `none`: there is no file. -/
def Chk.open (file : Option (Option Int)) (initial : Int) : Chk :=
  match file with
  | none => ⟨none, 0, initial, 0⟩
  | some none => ⟨none, 0, 0, 0⟩
  | some (some v) => ⟨some v, v, v, 0⟩

/-- `CheckPoint::write` — checkpoint.rs:114-117 -/
def Chk.update (k : Chk) (v : Int) : Chk := { k with cur := v }

/-- One turn of `write_loop` — checkpoint.rs:147-173, with `OffsetChangeListener::listen`
(fluvio-types/src/event.rs:166-187), which returns when the value differs from the last one returned,
or when it was woken by an update (`woken`). -/
def Chk.writer (k : Chk) (woken : Bool) : Chk :=
  if k.cur = k.seen ∧ woken = false then k
  else { k with seen := k.cur, file := if k.cur = k.known then k.file else some k.cur }

inductive ChkOp where
  | update (v : Int)
  | writer (woken : Bool)

def Chk.step (k : Chk) : ChkOp → Chk
  | .update v => k.update v
  | .writer w => k.writer w

def Chk.run (k : Chk) (ops : List ChkOp) : Chk := ops.foldl Chk.step k

theorem Chk.open_cur (file : Option (Option Int)) (initial : Int) :
    (Chk.open file initial).cur = readCheckpoint (Chk.found file) initial := by
  match file with
  | none => rfl
  | some none => rfl
  | some (some v) => rfl

def Chk.Inv (k : Chk) : Prop := k.seen = k.known ∨ k.seen = 0 ∨ k.file = some k.seen

theorem Chk.Inv.open (file : Option (Option Int)) (initial : Int) : (Chk.open file initial).Inv := by
  match file with
  | none => exact .inr (.inl rfl)
  | some none => exact .inr (.inl rfl)
  | some (some v) => exact .inr (.inl rfl)

theorem Chk.Inv.step {k : Chk} (h : k.Inv) (op : ChkOp) : (k.step op).Inv ∧ (k.step op).known = k.known := by
  cases op with
  | update v => exact ⟨h, rfl⟩
  | writer w =>
    show (k.writer w).Inv ∧ (k.writer w).known = k.known
    unfold Chk.writer
    split
    · exact ⟨h, rfl⟩
    · refine ⟨?_, rfl⟩
      by_cases hk : k.cur = k.known
      · exact .inl hk
      · right; right
        show (if k.cur = k.known then k.file else some k.cur) = some k.cur
        rw [if_neg hk]

theorem Chk.Inv.run : ∀ (ops : List ChkOp) {k : Chk}, k.Inv → (k.run ops).Inv ∧ (k.run ops).known = k.known
  | [], _, h => ⟨h, rfl⟩
  | op :: ops, k, h => by
    have h1 := h.step op
    have h2 := Chk.Inv.run ops h1.1
    exact ⟨h2.1, h2.2.trans h1.2⟩

end Verif.Storage
