/-!
# Common vocabulary of the wire-format model

Bytes are `UInt8`, a buffer is a list of bytes, a decoder consumes a prefix of the buffer.
-/

namespace Verif.Wire

/-- Outcomes other than success.  `eof` and `invalid` are the `ErrorKind`s used by
`fluvio-protocol/src/core/decoder.rs`; `panic` stands for a Rust panic (index, arithmetic overflow in
a debug build, `Buf::advance` past the end). -/
inductive Err where
  | eof
  | invalid
  | panic
deriving DecidableEq, Repr

deriving instance DecidableEq for Except

abbrev Bytes := List UInt8

/-- What `decode(&mut self, src: &mut T, version)` does: either fails, or yields a value and the
unread rest of the buffer. -/
abbrev Dec (α : Type) := Bytes → Except Err (α × Bytes)

end Verif.Wire
