import Verif.Model.LengthPrefix
/-
The public calls of the length-prefix encoder as a state machine:
util/src/length_prefix_encoding/encoder.rs, with `usize` arithmetic.
-/
namespace Verif.LengthPrefix

/-- `usize` addition. `rel`: compiled without overflow checks (wraps); otherwise an overflow is a
panic (`none`). -/
def addUsize (rel : Bool) (a b : Nat) : Option Nat :=
  if a + b < 2 ^ 64 then some (a + b) else if rel then some ((a + b) % 2 ^ 64) else none

namespace Enc

/-- The public calls that change an encoder. -/
inductive Call where
  /-- encoder.rs:459-466 -/
  | setHeader (h : Bytes)
  /-- encoder.rs:469-476 `encode_and_set_header`, `set_message_len` -/
  | setMessageLen (len : Nat)
  /-- encoder.rs:479-486 -/
  | setPos (pos : Nat)
  /-- encoder.rs:489-493 -/
  | setHeaderOffset (off : Nat)
  /-- encoder.rs:496-498 -/
  | setMessageOffset (off : Nat)
  /-- encoder.rs:501-503 -/
  | advance (off : Nat)
  /-- encoder.rs:506-511 -/
  | setLenPos (len pos : Nat)
  /-- encoder.rs:355-357 -/
  | restart
  /-- encoder.rs:360-366 -/
  | restartWith (len : Nat)
  /-- encoder.rs:255-258 -/
  | clear
  /-- encoder.rs:579-586 -/
  | zeroize
  /-- encoder.rs:335-352 -/
  | write (o : IoOut)
  /-- encoder.rs:280-294 -/
  | writeAll (os : List IoOut)
  /-- encoder.rs:551-576: the buffer is written through one of the `_mut` accessors (the whole buffer
  is replaced by one of the same length) -/
  | fill (buf : Bytes)
  deriving DecidableEq, Repr, Inhabited

/-- A call that either yields a new encoder or leaves the old one alone. -/
def keep (e : Enc) : Except EncErr Enc → Except EncErr Unit × Enc
  | .ok e' => (.ok (), e')
  | .error x => (.error x, e)

/-- `set_writing_position` at a position computed with `usize` arithmetic. -/
def setPosAt (e : Enc) : Option Nat → Except EncErr Unit × Enc
  | none => (.error .panic, e)
  | some p => keep e (e.setPos p)

/-- One public call: what it returns (without the byte counts of the writing functions, see
`Enc.write`), and the encoder afterwards. A `writeAll` cut short by the end of the schedule counts as
returned. -/
def call (rel : Bool) (e : Enc) : Call → Except EncErr Unit × Enc
  | .setHeader h => keep e (e.setHeader h)
  | .setMessageLen n => keep e (e.setMessageLen n)
  | .setPos p => keep e (e.setPos p)
  | .setHeaderOffset o => keep e (e.setHeaderOffset o)
  | .setMessageOffset o => e.setPosAt (addUsize rel o headerSize)
  | .advance o => e.setPosAt (addUsize rel e.pos o)
  | .setLenPos l p => e.setLenPos l p
  | .restart => keep e e.restart
  | .restartWith l => e.restartWith l
  | .clear => keep e e.clear
  | .zeroize => keep e e.zeroize
  | .write o =>
    match e.write o with
    | (.ok _, e1, _) => (.ok (), e1)
    | (.error x, e1, _) => (.error x, e1)
  | .writeAll os =>
    match e.writeAll os with
    | (some r, e1, _) => (r, e1)
    | (none, e1, _) => (.ok (), e1)
  | .fill b => (.ok (), { e with buf := b })

/-- What Rust's types guarantee about the arguments: `usize` values, an 8 byte array, a mutable slice
keeps its length. -/
def Call.Typed (e : Enc) : Call → Prop
  | .setHeader h => h.length = 8
  | .setMessageLen n | .setPos n | .setHeaderOffset n | .setMessageOffset n | .advance n | .restartWith n => n < 2 ^ 64
  | .setLenPos l p => l < 2 ^ 64 ∧ p < 2 ^ 64
  | .fill b => b.length = e.buf.length
  | _ => True

end Enc
end Verif.LengthPrefix
