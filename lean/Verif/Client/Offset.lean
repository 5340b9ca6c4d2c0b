/-!
# Start positions of consumers (`fluvio/src/offset.rs`, `fluvio/src/consumer/mod.rs`)

Offsets are `i64`; sums are taken modulo 2^64 as in a release build (a debug build panics instead when
one of them overflows, which needs a position within 2^32 of the largest `i64`).
-/

namespace Verif.Client

/-- `OffsetInner` — offset.rs:12-17 -/
inductive Position where
  | absolute (o : Int)
  | fromBeginning (n : Nat)
  | fromEnd (n : Nat)
deriving DecidableEq

/-- Two's complement `i64` arithmetic. -/
def wrap64 (x : Int) : Int := x.bmod (2 ^ 64)

/-- `Ord::clamp`; `none`: it panics because the bounds are the wrong way round. -/
def clamp (x lo hi : Int) : Option Int :=
  if hi < lo then none else some (if x < lo then lo else if hi < x then hi else x)

/-- `OffsetInner::resolve` — offset.rs:20-39; `start` and `stable` come from the leader
(`start_offset`, `last_stable_offset`), `consumer` is the stored consumer position. -/
def Position.resolveInner (p : Position) (start stable : Int) (consumer : Option Int) : Option Int :=
  match p with
  | .absolute o => some o
  | .fromBeginning n => clamp (wrap64 (consumer.getD start + n)) start stable
  | .fromEnd n => clamp (wrap64 (consumer.getD stable - n)) start stable

/-- `Offset::resolve` — offset.rs:300-312 -/
def Position.resolve (p : Position) (start stable : Int) (consumer : Option Int) : Option Int :=
  (p.resolveInner start stable consumer).map fun o => max o 0

/-- `Offset::absolute` — offset.rs:128-135 -/
def Position.mkAbsolute (o : Int) : Option Position := if o < 0 then none else some (.absolute o)

/-- What `request_stream` passes as consumer position: the stored offset is that of the last record
processed — consumer/mod.rs:398-421 -/
def consumerPosition (stored : Option Int) : Option Int := stored.map (· + 1)

/-- The start of a new stream — consumer/mod.rs:382-428 -/
def startOffset (p : Position) (start stable : Int) (stored : Option Int) : Option Int :=
  p.resolve start stable (consumerPosition stored)

theorem wrap64_of_fits {x : Int} (h1 : -2 ^ 63 ≤ x) (h2 : x < 2 ^ 63) : wrap64 x = x := by
  unfold wrap64
  rw [Int.bmod_def]
  split <;> omega

end Verif.Client
