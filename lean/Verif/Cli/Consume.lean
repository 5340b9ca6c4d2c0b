import Verif.Wire.Basic

/-!
# The command `fluvio consume`

Models `crates/fluvio-cli/src/client/consume/mod.rs`: where the command starts, which records of the stream it prints,
where it stops, and how it prints them.  The stream is a parameter; see C31, C32, C63 for it.

Left out: smart modules, tables on the screen, templates (`--format`) beyond whether they can be rendered.
-/

namespace Verif.Cli.Consume

abbrev Text := List Char

/-! ## Where to start -/

/-- `Offset` of the client, `fluvio/src/offset.rs`: from the beginning, from the end, or absolute. -/
inductive Offset
  | fromBeginning (n : Nat)
  | fromEnd (n : Nat)
  | absolute (n : Nat)
deriving DecidableEq, Repr

/-- The options for the start, mod.rs:129-144; they exclude each other. -/
structure Start where
  beginning : Bool
  head : Option Nat
  tail : Option Nat
  start : Option Nat
deriving DecidableEq, Repr

/-- `calculate_offset`, mod.rs:762-776; `Offset::end()` is `from_end(0)`. -/
def calculateOffset (s : Start) : Offset :=
  if s.beginning then .fromBeginning 0
  else match s.head with
    | some n => .fromBeginning n
    | none =>
      match s.start with
      | some n => .absolute n
      | none =>
        match s.tail with
        | some n => .fromEnd n
        | none => .fromEnd 0

/-- The check in `consume_records`, mod.rs:371-381: an end before the start is refused. -/
def crossing (start : Option Nat) (stop : Option Nat) : Bool :=
  match stop, start with
  | some e, some s => e < s
  | _, _ => false

/-! ## What is printed -/

/-- A record of the stream. -/
structure Rec where
  part : Nat
  offset : Int
  key : Option Text
  value : Text
deriving DecidableEq, Repr

/-- `ConsumeOutputType`, mod.rs:782-790, without the tables that are drawn on the screen. -/
inductive Output
  | dynamic | text | binary | json | raw | table | fullTable
deriving DecidableEq, Repr

/-- How values are formatted: `record_format.rs` and the template.  `none`: the value cannot be formatted. -/
structure Format where
  fmt : Output → Text → Option Text
  template : Option (Rec → Option Text)

/-- `--key-value`, `--output`, `--end`. -/
structure Opts where
  keyValue : Bool
  output : Output
  stop : Option Nat

/-- `print_record`, mod.rs:602-700, without a terminal: the line printed, if any.  The outer `none` is a panic
(`unreachable!`, mod.rs:645). -/
def printRecord (o : Opts) (f : Format) (r : Rec) : Option (Option Text) :=
  let v : Option (Option Text) :=
    match f.template with
    | some t => some (t r)
    | none => if o.output = .fullTable then none else some (f.fmt o.output r.value)
  match v with
  | none => none
  | some v =>
    if o.output = .fullTable then some none
    else match v with
      | some v =>
        if o.keyValue then some (some ('[' :: (r.key.getD "null".toList ++ ']' :: ' ' :: v))) else some (some v)
      | none => some none

/-- What happens to the loop: the stream yields a record or an error, or ends; or the user stops the command. -/
inductive Item
  | record (r : Rec)
  | error
  | stop
deriving DecidableEq, Repr

/-- How the command ends. -/
inductive End
  | done | failed | panicked
deriving DecidableEq, Repr

/-- The loop without a terminal, mod.rs:534-580: the records printed with their lines, and how it ends. -/
def loop (o : Opts) (f : Format) : List Item → List (Rec × Text) × End
  | [] => ([], .done)
  | .error :: _ => ([], .failed)
  | .stop :: _ => ([], .done)
  | .record r :: rest =>
    match printRecord o f r with
    | none => ([], .panicked)
    | some line =>
      let out := match line with | some l => [(r, l)] | none => []
      match o.stop with
      | some e =>
        if (e : Int) ≤ r.offset then (out, .done)
        else let (ls, w) := loop o f rest; (out ++ ls, w)
      | none => let (ls, w) := loop o f rest; (out ++ ls, w)

/-! ## Facts -/

/-- The line of a record, if one is printed. -/
def lineOf (o : Opts) (f : Format) (r : Rec) : Option (Rec × Text) := ((printRecord o f r).bind id).map fun l => (r, l)

theorem printRecord_some (o : Opts) (f : Format) (ho : o.output ≠ .fullTable) (r : Rec) :
    ∃ l, printRecord o f r = some l := by
  unfold printRecord
  cases f.template with
  | some t => dsimp only; rw [if_neg ho]; cases t r <;> dsimp only <;> (try split) <;> exact ⟨_, rfl⟩
  | none =>
    dsimp only; rw [if_neg ho]; dsimp only; rw [if_neg ho]
    cases f.fmt o.output r.value <;> dsimp only <;> (try split) <;> exact ⟨_, rfl⟩

theorem loop_free (o : Opts) (f : Format) (ho : o.output ≠ .fullTable) (hs : o.stop = none) :
    ∀ (rs : List Rec) (rest : List Item), loop o f (rs.map .record ++ rest)
      = (rs.filterMap (lineOf o f) ++ (loop o f rest).1, (loop o f rest).2)
  | [], rest => rfl
  | r :: rs, rest => by
    rw [List.map_cons, List.cons_append, loop]
    obtain ⟨l, hl⟩ := printRecord_some o f ho r
    rw [hl, hs]
    dsimp only
    rw [loop_free o f ho hs rs rest]
    cases l with
    | none => rw [List.filterMap_cons_none (by rw [lineOf, hl]; rfl)]; rfl
    | some l => rw [List.filterMap_cons_some (b := (r, l)) (by rw [lineOf, hl]; rfl)]; rfl

/-- Records before the end. -/
theorem loop_before (o : Opts) (f : Format) (ho : o.output ≠ .fullTable) (e : Nat) (hs : o.stop = some e) :
    ∀ (rs : List Rec) (rest : List Item), (∀ r ∈ rs, r.offset < e) → loop o f (rs.map .record ++ rest)
      = (rs.filterMap (lineOf o f) ++ (loop o f rest).1, (loop o f rest).2)
  | [], rest, _ => rfl
  | r :: rs, rest, h => by
    rw [List.map_cons, List.cons_append, loop]
    obtain ⟨l, hl⟩ := printRecord_some o f ho r
    have hr := h r (List.mem_cons_self ..)
    rw [hl, hs]
    dsimp only
    rw [if_neg (by omega), loop_before o f ho e hs rs rest fun x hx => h x (List.mem_cons_of_mem _ hx)]
    cases l with
    | none => rw [List.filterMap_cons_none (by rw [lineOf, hl]; rfl)]; rfl
    | some l => rw [List.filterMap_cons_some (b := (r, l)) (by rw [lineOf, hl]; rfl)]; rfl

/-- The first record at the end or behind it is the last one. -/
theorem loop_end (o : Opts) (f : Format) (ho : o.output ≠ .fullTable) (e : Nat) (hs : o.stop = some e) (r : Rec)
    (he : (e : Int) ≤ r.offset) (rest : List Item) :
    loop o f (.record r :: rest) = ([r].filterMap (lineOf o f), .done) := by
  rw [loop]
  obtain ⟨l, hl⟩ := printRecord_some o f ho r
  rw [hl, hs]
  dsimp only
  rw [if_pos he]
  cases l with
  | none => rw [List.filterMap_cons_none (by rw [lineOf, hl]; rfl)]; rfl
  | some l => rw [List.filterMap_cons_some (b := (r, l)) (by rw [lineOf, hl]; rfl)]; rfl

end Verif.Cli.Consume
