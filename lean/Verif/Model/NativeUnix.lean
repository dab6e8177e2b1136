import Verif.Model.Broker
import Verif.Model.FileIO
/-
Model of wireguard-broker/src/brokers/native_unix.rs: the broker that runs the `wg` command, its configuration and the encoding
of the extra parameters (`postcard` of `Vec<String>`).

Strings are byte strings; that they are valid UTF-8 is checked where the code checks it. `postcard` is an external crate: its format for
`Vec<String>` (a varint count, then each string as varint length and bytes; `from_bytes` ignores bytes after the value) is modelled here.
-/
namespace Verif.NativeUnix

/-- postcard: a `usize` as little-endian groups of seven bits, the high bit set on all but the last. -/
def varint (n : Nat) : Bytes :=
  if h : n < 128 then [UInt8.ofNat n] else UInt8.ofNat (n % 128 + 128) :: varint (n / 128)
  termination_by n
  decreasing_by omega

/-- postcard `to_allocvec(&Vec<String>)`, native_unix.rs 250-260 -/
def encodeParams (ps : List Bytes) : Bytes := varint ps.length ++ ps.flatMap fun p => varint p.length ++ p

/-- postcard `try_take_varint_usize` for 64-bit `usize`: at most ten bytes, the tenth at most 1. `i` bytes have been read. -/
def takeVarint : Nat → Bytes → Option (Nat × Bytes)
  | _, [] => none
  | i, b :: r =>
    if 10 ≤ i then none
    else if b.toNat < 128 then (if i = 9 ∧ 1 < b.toNat then none else some (b.toNat, r))
    else
      match takeVarint (i + 1) r with
      | none => none
      | some (v, r') => some (b.toNat % 128 + 128 * v, r')

/-- one `String`: length, bytes, check of UTF-8 -/
def takeString (b : Bytes) : Option (Bytes × Bytes) :=
  match takeVarint 0 b with
  | none => none
  | some (n, r) => if n ≤ r.length ∧ Broker.utf8 (r.take n) = true then some (r.take n, r.drop n) else none

/-- `n` strings -/
def takeStrings : Nat → Bytes → Option (List Bytes)
  | 0, _ => some []
  | n + 1, b =>
    match takeString b with
    | none => none
    | some (p, r) =>
      match takeStrings n r with
      | none => none
      | some ps => some (p :: ps)

/-- postcard `from_bytes::<Vec<String>>`, native_unix.rs 295-296; what follows the value is ignored. -/
def decodeParams (b : Bytes) : Option (List Bytes) :=
  match takeVarint 0 b with
  | none => none
  | some (n, r) => takeStrings n r

/-- `SerializedBrokerConfig`, wireguard-broker/src/lib.rs 69-80 -/
structure Ser where
  iface : Bytes
  peerId : Bytes
  psk : Bytes
  params : Bytes
  deriving DecidableEq, Repr

/-- `NativeUnixBrokerConfigBase`, native_unix.rs 175-186 -/
structure Base where
  iface : Bytes
  peerId : Bytes
  params : Bytes
  deriving DecidableEq, Repr

/-- `create_config`, native_unix.rs 263-272 -/
def Base.config (b : Base) (psk : Bytes) : Ser := ⟨b.iface, b.peerId, psk, b.params⟩

/-- `peer_id_b64`, native_unix.rs 214-225 -/
def peerIdB64 (s : Bytes) : Option Bytes :=
  match FileIO.b64Decode s (List.replicate 32 0) with
  | .ok b => some b
  | .error _ => none

/-- The builder as it is used in rp/src/exchange.rs 508-514 and rosenpass/src/cli.rs 470-478: peer id, interface, extra parameters. -/
def build (peer iface : Bytes) (ps : List Bytes) : Option Base :=
  match peerIdB64 peer with
  | none => none
  | some id => some ⟨iface, id, encodeParams ps⟩

/-- what the operating system does with the command: how starting it ends, how the writes to its standard input go, and how it exits (`none`: `wait` fails) -/
structure Env where
  spawn : Bool
  writes : List FileIO.Out
  exit : Option Nat
  deriving Repr

/-- a command that was started: its arguments, and what was written to its standard input before that was closed -/
structure Cmd where
  prog : Bytes
  args : List Bytes
  stdin : Bytes
  deriving DecidableEq, Repr

/-- ASCII text -/
def txt (s : String) : Bytes := s.toUTF8.data.toList

/-- `set_psk`, native_unix.rs 82-136, with the conversion of 288-304. Result: `true` for `Ok`; the command that was run. The encoded
key always fits (`MAX_B64_KEY_SIZE` = 53); failures to write and of the command are only logged. A writer that keeps being interrupted is left out (`none` of `writeAll` counts
as the end). -/
def setPsk (c : Ser) (e : Env) : Bool × Option Cmd :=
  if Broker.utf8 c.iface = true then
    match decodeParams c.params with
    | none => (false, none)
    | some ps =>
      if e.spawn then
        match FileIO.b64Encode c.psk (32 * 5 / 3) with
        | .error _ => (true, some ⟨txt "wg", [txt "set", c.iface, txt "peer", FileIO.b64Enc c.peerId, txt "preshared-key", txt "/dev/stdin"] ++ ps, []⟩)
        | .ok s =>
          let (_, w) := FileIO.writeAll s e.writes
          (true, some ⟨txt "wg", [txt "set", c.iface, txt "peer", FileIO.b64Enc c.peerId, txt "preshared-key", txt "/dev/stdin"] ++ ps, w⟩)
      else (false, none)
  else (false, none)

end Verif.NativeUnix
