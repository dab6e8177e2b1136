import Verif.Model.Base
/-
Model of the length-prefix framing of the API and broker sockets:
util/src/length_prefix_encoding/encoder.rs and decoder.rs.

`usize` is 64 bit, so `u64 as usize` and `usize as u64` lose nothing; additions of offsets that
overflow 64 bits are not modelled (offsets are bounded by buffer lengths).
-/
namespace Verif.LengthPrefix

/-- encoder.rs:23, decoder.rs:26 `HEADER_SIZE`. -/
def headerSize : Nat := 8

/-- The `io::ErrorKind`s the framing code distinguishes. -/
inductive IoKind where
  | interrupted | wouldBlock | unexpectedEof | other
  deriving DecidableEq, Repr, Inhabited

/-- What the environment answers to one `read` or `write` call: a number of bytes it is willing to
transfer, or an error. The contract of `io::Read`/`io::Write` caps the number by the slice. -/
inductive IoOut where
  | ok (n : Nat)
  | err (k : IoKind)
  deriving DecidableEq, Repr, Inhabited

/-! ### Encoder -/

/-- encoder.rs:172-176 `LengthPrefixEncoder`. -/
structure Enc where
  buf : Bytes
  header : Bytes
  pos : Nat
  deriving DecidableEq, Repr, Inhabited

/-- encoder.rs:25-79: the three sanity errors, and a panic (slice out of bounds, failed `unwrap`). -/
inductive EncErr where
  | outOfBuffer | outOfMessage | outOfHeader | tooLarge | panic
  | io (k : IoKind)
  deriving DecidableEq, Repr, Inhabited

namespace Enc

/-- encoder.rs:424-436 `decode_header`, `message_len`. -/
def messageLen (e : Enc) : Nat := leNat e.header
/-- encoder.rs:449-451 `header_offset`. -/
def headerOffset (e : Enc) : Nat := min e.pos headerSize
/-- encoder.rs:454-456 `message_offset`. -/
def messageOffset (e : Enc) : Nat := e.pos - headerSize
/-- encoder.rs:439-441 `encoded_message_bytes`. -/
def encodedMessageBytes (e : Enc) : Nat := e.messageLen + headerSize

/-- encoder.rs:389-391 `message`; `none`: slice out of bounds. -/
def message (e : Enc) : Option Bytes :=
  if e.messageLen ≤ e.buf.length then some (e.buf.take e.messageLen) else none
/-- encoder.rs:394-396 `header_written`. -/
def headerWritten (e : Enc) : Bytes := e.header.take e.headerOffset
/-- encoder.rs:399-401 `header_left`. -/
def headerLeft (e : Enc) : Bytes := e.header.drop e.headerOffset
/-- encoder.rs:404-406 `message_written`. -/
def messageWritten (e : Enc) : Option Bytes :=
  match e.message with
  | none => none
  | some m => if e.messageOffset ≤ m.length then some (m.take e.messageOffset) else none
/-- encoder.rs:409-411 `message_left`. -/
def messageLeft (e : Enc) : Option Bytes :=
  match e.message with
  | none => none
  | some m => if e.messageOffset ≤ m.length then some (m.drop e.messageOffset) else none

/-- encoder.rs:369-381 `next_slice_to_write`. -/
def nextSlice (e : Enc) : Option Bytes :=
  if e.headerLeft ≠ [] then some e.headerLeft else e.messageLeft

/-- encoder.rs:384-386 `exhausted`. -/
def exhausted (e : Enc) : Option Bool := e.nextSlice.map (fun s => s.isEmpty)

/-- encoder.rs:459-466 `set_header` (a transaction, 513-525: on error nothing changes). -/
def setHeader (e : Enc) (h : Bytes) : Except EncErr Enc :=
  let t := { e with header := h }
  if ¬ t.messageLen ≤ t.buf.length then .error .tooLarge
  else if ¬ t.messageOffset ≤ t.messageLen then .error .outOfMessage
  else .ok t

/-- encoder.rs:469-476 `encode_and_set_header`, `set_message_len`. -/
def setMessageLen (e : Enc) (len : Nat) : Except EncErr Enc := e.setHeader (toLE 8 len)

/-- encoder.rs:479-486 `set_writing_position`. -/
def setPos (e : Enc) (pos : Nat) : Except EncErr Enc :=
  let t := { e with pos := pos }
  if ¬ t.messageOffset ≤ t.buf.length then .error .outOfBuffer
  else if ¬ t.messageOffset ≤ t.messageLen then .error .outOfMessage
  else .ok t

/-- `Result::unwrap` -/
def unwrap {α : Type} : Except EncErr α → Except EncErr α
  | .ok a => .ok a
  | .error _ => .error .panic

/-- encoder.rs:489-493 `set_header_offset`. -/
def setHeaderOffset (e : Enc) (off : Nat) : Except EncErr Enc :=
  if ¬ off ≤ headerSize then .error .outOfHeader else unwrap (e.setPos off)

/-- encoder.rs:496-498 `set_message_offset`. -/
def setMessageOffset (e : Enc) (off : Nat) : Except EncErr Enc := e.setPos (off + headerSize)

/-- encoder.rs:501-503 `advance`. -/
def advance (e : Enc) (off : Nat) : Except EncErr Enc := e.setPos (e.pos + off)

/-- encoder.rs:506-511 `set_msg_len_and_position`: result and state (kept on error). -/
def setLenPos (e : Enc) (len pos : Nat) : Except EncErr Unit × Enc :=
  let e0 := { e with pos := 0 }
  match e0.setMessageLen len with
  | .error x => (.error x, e0)
  | .ok e1 =>
    match e1.setPos pos with
    | .error x => (.error x, e1)
    | .ok e2 => (.ok (), e2)

/-- encoder.rs:255-258 `clear`. -/
def clear (e : Enc) : Except EncErr Enc :=
  match e.setLenPos 0 0 with
  | (.error _, _) => .error .panic
  | (.ok (), e1) => unwrap (e1.setMessageOffset 0)

/-- encoder.rs:180-185 `from_buffer`. -/
def fromBuffer (buf : Bytes) : Except EncErr Enc :=
  clear { buf := buf, header := List.replicate 8 0, pos := 0 }

/-- encoder.rs:360-366 `restart_write_with_new_message`: the `PositionOutOfBufferBounds` error has
no counterpart in the result type, its conversion is unwrapped. -/
def restartWith (e : Enc) (len : Nat) : Except EncErr Unit × Enc :=
  match e.setLenPos len 0 with
  | (.error .outOfBuffer, e1) => (.error .panic, e1)
  | r => r

/-- encoder.rs:355-357 `restart_write`. -/
def restart (e : Enc) : Except EncErr Enc := unwrap (e.setPos 0)

/-- encoder.rs:188-193 `from_message`. -/
def fromMessage (msg : Bytes) : Except EncErr Enc :=
  match fromBuffer msg with
  | .error x => .error x
  | .ok e =>
    match e.restartWith e.buf.length with
    | (.error _, _) => .error .panic
    | (.ok (), e1) => .ok e1

/-- encoder.rs:200-204 `from_short_message`. -/
def fromShortMessage (msg : Bytes) (len : Nat) : Except EncErr Enc :=
  match fromMessage msg with
  | .error x => .error x
  | .ok e => e.setMessageLen len

/-- encoder.rs:207-211 `from_parts`. -/
def fromParts (buf : Bytes) (len pos : Nat) : Except EncErr Enc :=
  match fromBuffer buf with
  | .error x => .error x
  | .ok e =>
    match e.setLenPos len pos with
    | (.error x, _) => .error x
    | (.ok (), e1) => .ok e1

/-- encoder.rs:579-586 `zeroize`. -/
def zeroize (e : Enc) : Except EncErr Enc :=
  clear { buf := List.replicate e.buf.length 0, header := List.replicate 8 0, pos := 0 }

/-- encoder.rs:335-352 `write_to_stdio`: result `(bytes_written, done)`, new state, and the bytes
the writer accepted. -/
def write (e : Enc) (o : IoOut) : Except EncErr (Nat × Bool) × Enc × Bytes :=
  match e.nextSlice with
  | none => (.error .panic, e, [])
  | some slice =>
    if slice.isEmpty then (.ok (0, true), e, [])
    else
      match o with
      | .err k => (.error (.io k), e, [])
      | .ok n =>
        let n := min n slice.length
        match e.advance n with
        | .error _ => (.error .panic, e, slice.take n)
        | .ok e1 =>
          match e1.exhausted with
          | none => (.error .panic, e1, slice.take n)
          | some done => (.ok (n, done), e1, slice.take n)

/-- encoder.rs:280-294 `write_all_to_stdio`; the outer `none` means the schedule ended while the
call was still in progress. -/
def writeAll (e : Enc) : List IoOut → Option (Except EncErr Unit) × Enc × Bytes
  | [] => (none, e, [])
  | o :: os =>
    match e.write o with
    | (.ok (_, true), e1, w) => (some (.ok ()), e1, w)
    | (.ok (_, false), e1, w) => let (r, e2, w2) := e1.writeAll os; (r, e2, w ++ w2)
    | (.error (.io .interrupted), e1, w) => let (r, e2, w2) := e1.writeAll os; (r, e2, w ++ w2)
    | (.error x, e1, w) => (some (.error x), e1, w)

end Enc

/-! ### Decoder -/

/-- decoder.rs:154-158 `LengthPrefixDecoder`. -/
structure Dec where
  header : Bytes
  buf : Bytes
  off : Nat
  deriving DecidableEq, Repr, Inhabited

/-- decoder.rs:32-48, 110-118: errors of the decoder, and panics. -/
inductive DecErr where
  | tooLarge (msgSize bufSize : Nat)
  | io (k : IoKind)
  | outOfBuffer | outOfMessage
  | panic
  deriving DecidableEq, Repr, Inhabited

/-- The part of the decoder a slice points into. -/
inductive Region where
  | header | message
  deriving DecidableEq, Repr, Inhabited

namespace Dec

/-- decoder.rs:172-176 `new`. -/
def new (buf : Bytes) : Dec := { header := List.replicate 8 0, buf := buf, off := 0 }

/-- decoder.rs:181-183, 581-587 `clear`, `zeroize`. -/
def clear (d : Dec) : Dec :=
  { header := List.replicate d.header.length 0, buf := List.replicate d.buf.length 0, off := 0 }

/-- decoder.rs:428-430 `header_buffer_offset`. -/
def headerOffset (d : Dec) : Nat := min d.off headerSize
/-- decoder.rs:433-435 `message_buffer_offset`. -/
def messageOffset (d : Dec) : Nat := d.off - headerSize
/-- decoder.rs:438-440 `has_header`. -/
def hasHeader (d : Dec) : Bool := d.headerOffset = headerSize
/-- decoder.rs:501-511 `get_header`, `message_size`. -/
def getHeader (d : Dec) : Option Nat := if d.headerOffset = headerSize then some (leNat d.header) else none

/-- decoder.rs:376-383 `ensure_sufficient_msg_buffer` with 78-81. -/
def ensureBuf (d : Dec) : Except DecErr Unit :=
  match d.getHeader with
  | none => .ok ()
  | some sz => if sz ≤ d.buf.length then .ok () else .error (.tooLarge sz d.buf.length)

/-- decoder.rs:477-480 `message_buffer_avail().len()`; the slice panics when out of bounds. -/
def availLen (d : Dec) : Except DecErr Nat :=
  if d.messageOffset ≤ d.buf.length then .ok d.messageOffset else .error .panic

/-- decoder.rs:443-450 `has_message`. -/
def hasMessage (d : Dec) : Except DecErr Bool :=
  match d.ensureBuf with
  | .error e => .error e
  | .ok () =>
    match d.getHeader with
    | none => .ok false
    | some sz => match d.availLen with | .error e => .error e | .ok n => .ok (n = sz)

/-- decoder.rs:519-530 `message_fragment(_mut)`: the message part of the buffer. -/
def fragment (d : Dec) : Except DecErr (Option Bytes) :=
  match d.ensureBuf with
  | .error e => .error e
  | .ok () => .ok (d.getHeader.map (fun sz => d.buf.take sz))

/-- decoder.rs:533-546 `message_fragment_avail(_mut)`. -/
def fragmentAvail (d : Dec) : Except DecErr (Option Bytes) :=
  match d.availLen with
  | .error e => .error e
  | .ok off =>
    match d.fragment with
    | .error e => .error e
    | .ok none => .ok none
    | .ok (some f) => if off ≤ f.length then .ok (some (f.take off)) else .error .panic

/-- decoder.rs:549-560 `message_fragment_left(_mut)`. -/
def fragmentLeft (d : Dec) : Except DecErr (Option Bytes) :=
  match d.availLen with
  | .error e => .error e
  | .ok off =>
    match d.fragment with
    | .error e => .error e
    | .ok none => .ok none
    | .ok (some f) => if off ≤ f.length then .ok (some (f.drop off)) else .error .panic

/-- decoder.rs:565-578 `message(_mut)`. -/
def message (d : Dec) : Except DecErr (Option Bytes) :=
  match d.fragmentAvail with
  | .error e => .error e
  | .ok none => .ok none
  | .ok (some f) => .ok (if some f.length = d.getHeader then some f else none)

/-- decoder.rs:331-351 `next_slice_to_write_to`: the region and its length. -/
def nextSlice (d : Dec) : Except DecErr (Option (Region × Nat)) :=
  if (d.header.drop d.headerOffset).length ≠ 0 then
    .ok (some (.header, (d.header.drop d.headerOffset).length))
  else
    match d.fragmentLeft with
    | .error e => .error e
    | .ok none => .ok none
    | .ok (some f) => .ok (if f.length ≠ 0 then some (.message, f.length) else none)

/-- The effect of `r.read(buf)` on the decoder: `bs` lands at the start of the slice (the offset is
the current one). -/
def fill (d : Dec) (g : Region) (bs : Bytes) : Dec :=
  match g with
  | .header => { d with header := d.header.take d.headerOffset ++ bs ++ d.header.drop (d.headerOffset + bs.length) }
  | .message => { d with buf := d.buf.take d.messageOffset ++ bs ++ d.buf.drop (d.messageOffset + bs.length) }

/-- decoder.rs:356-371 `advance`. The size check uses the header as complete *before* advancing. -/
def advance (d : Dec) (count : Nat) : Except DecErr Dec :=
  let off := d.off + count
  let msgOff := off - headerSize
  if ¬ msgOff ≤ d.buf.length then .error .outOfBuffer
  else if ¬ (d.getHeader.map (fun s => decide (msgOff ≤ s))).getD true then .error .outOfMessage
  else .ok { d with off := off }

/-- decoder.rs:300-323 `read_from_stdio` on the byte stream `src`: result `(bytes_read, message)`,
new state, rest of the stream. -/
def read (d : Dec) (src : Bytes) (o : IoOut) : Except DecErr (Nat × Option Bytes) × Dec × Bytes :=
  match d.nextSlice with
  | .error e => (.error e, d, src)
  | .ok none =>
    match d.message with
    | .error e => (.error e, d, src)
    | .ok m => (.ok (0, m), d, src)
  | .ok (some (g, len)) =>
    match o with
    | .err k => (.error (.io k), d, src)
    | .ok n =>
      let n := min n (min len src.length)
      let d1 := d.fill g (src.take n)
      match d1.advance n with
      | .error _ => (.error .panic, d1, src.drop n)
      | .ok d2 =>
        match d2.message with
        | .error .panic => (.error .panic, d2, src.drop n)
        | .error _ => (.ok (n, none), d2, src.drop n)
        | .ok m => (.ok (n, m), d2, src.drop n)

/-- decoder.rs:257-285 `read_all_from_stdio`; the outer `none` means the schedule ended while the
call was still in progress. -/
def readAll (d : Dec) (src : Bytes) : List IoOut → Option (Except DecErr Bytes) × Dec × Bytes
  | [] => (none, d, src)
  | o :: os =>
    match d.read src o with
    | (.ok (_, some _), d1, src1) =>
      match d1.message with
      | .ok (some m) => (some (.ok m), d1, src1)
      | _ => (some (.error .panic), d1, src1)
    | (.ok (0, none), d1, src1) => (some (.error (.io .unexpectedEof)), d1, src1)
    | (.ok (_ + 1, none), d1, src1) => d1.readAll src1 os
    | (.error (.io .interrupted), d1, src1) => d1.readAll src1 os
    | (.error e, d1, src1) => (some (.error e), d1, src1)

/-- A non-blocking receiver: calls `read_from_stdio` once per outcome, takes each complete message,
clears the decoder and goes on; I/O errors are retried later, an oversized frame ends the session
(rosenpass/src/api/mio/connection.rs:216-246 drives the decoder this way). -/
def receive (d : Dec) (src : Bytes) : List IoOut → List Bytes × Option DecErr × Dec × Bytes
  | [] => ([], none, d, src)
  | o :: os =>
    match d.read src o with
    | (.ok (_, some m), d1, src1) =>
      let (ms, r) := d1.clear.receive src1 os
      (m :: ms, r)
    | (.ok (_, none), d1, src1) => d1.receive src1 os
    | (.error (.io _), d1, src1) => d1.receive src1 os
    | (.error e, d1, src1) => ([], some e, d1, src1)

end Dec
end Verif.LengthPrefix
