import Verif.Model.FileIO
/-
Model of secret-memory/src/serialization.rs: keys in configuration and exchange formats (serde), as base64 strings.
The serde formats themselves are not modelled: a value is the string handed to / received from the format.
`base64::engine::general_purpose::STANDARD` is specified (RFC 4648 alphabet, canonical padding required, bits after
the last byte must be zero), not modelled. It accepts the empty string.
-/
namespace Verif.Serialization
open FileIO (b64Enc b64DecBlocks)

/-- serialization.rs:7-9 `encode_b64`. -/
def encodeB64 (b : Bytes) : Bytes := b64Enc b

/-- serialization.rs:11-15 `decode_b64`; `none` is an error. -/
def decodeB64 (s : Bytes) : Option Bytes :=
  match b64DecBlocks s with
  | none => none
  | some d => if b64Enc d = s then some d else none

/-- serialization.rs:37-41, 59-63, 79-83 `Serialize for {Secret, Public, PublicBox}<N>`: the string given to the
serializer. -/
def serialize (value : Bytes) : Bytes := encodeB64 value

/-- serialization.rs:43-57, 65-77, 85-100 `Deserialize for {Secret, Public, PublicBox}<N>`: the visitor decodes the
string, then the length must be exactly `N`. -/
def deserialize (n : Nat) (s : Bytes) : Option Bytes :=
  match decodeB64 s with
  | none => none
  | some d => if d.length ≠ n then none else some d

end Verif.Serialization
