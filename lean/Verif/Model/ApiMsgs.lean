import Verif.Model.Base
/-
Model of the API's message formats: rosenpass/src/api/boilerplate/{message_type,payload,request_ref,response_ref,
byte_slice_ext,message_trait,request_response}.rs and util/src/zerocopy/ref_maker.rs.

`addr` is the address of a buffer. Reading the message type as a `u128` in place needs alignment 16
(`zerocopy::Ref::from_bytes` refuses otherwise); the message structures themselves are packed.
Integers are little endian (x86, ARM).
-/
namespace Verif.Api

/-- message_type.rs:47-62 `RequestMsgType`, `ResponseMsgType`. -/
inductive Kind where
  | ping | supplyKeypair | addListenSocket | addPskBroker
  deriving DecidableEq, Repr

/-- request or response -/
inductive Dir where
  | request | response
  deriving DecidableEq, Repr

/-- message_type.rs:11-36: the message types, as `u128` given by little-endian bytes. -/
def raw : Dir → Kind → Nat
  | .request, .ping => leNat [0x23, 0x97, 0x3e, 0xcc, 0xc4, 0x41, 0x70, 0x4d, 0x0b, 0x02, 0xea, 0x31, 0x45, 0xd3, 0x49, 0x99]
  | .response, .ping => leNat [0x4e, 0xc7, 0xf6, 0xf0, 0x2b, 0xbc, 0xba, 0x64, 0x48, 0xf1, 0xda, 0x14, 0xc7, 0xcf, 0x02, 0x60]
  | .request, .supplyKeypair => leNat [0xac, 0x91, 0xa5, 0xa6, 0x4f, 0x4b, 0x21, 0xd0, 0xac, 0x7f, 0x9b, 0x55, 0x74, 0xf7, 0x35, 0x29]
  | .response, .supplyKeypair => leNat [0xf2, 0xdc, 0x49, 0xbd, 0xe2, 0x61, 0x5f, 0x10, 0x40, 0xb7, 0x3c, 0x16, 0xec, 0x61, 0xed, 0xb9]
  | .request, .addListenSocket => leNat [0x3f, 0x21, 0x43, 0x4f, 0x87, 0xcc, 0xa0, 0x8c, 0x02, 0xc4, 0x61, 0xe4, 0x08, 0x16, 0xc7, 0xda]
  | .response, .addListenSocket => leNat [0x45, 0xd5, 0x0f, 0x0d, 0x93, 0xf0, 0x61, 0x05, 0x98, 0xf2, 0x94, 0x69, 0x5d, 0xfd, 0x5f, 0x36]
  | .request, .addPskBroker => leNat [0xd7, 0x98, 0xb8, 0xdc, 0xbd, 0x61, 0x5c, 0xab, 0x8d, 0xf1, 0xc6, 0x3d, 0xe4, 0xeb, 0xa2, 0xd1]
  | .response, .addPskBroker => leNat [0xbd, 0x25, 0xe4, 0x18, 0xff, 0xb0, 0x69, 0x30, 0x24, 0x8b, 0x21, 0x7e, 0x2f, 0xae, 0xe3, 0x53]

/-- payload.rs:30-34, 111-113, 172-176, ...: the size of the payload: 256 bytes of echo, nothing, or a `u128` status. -/
def payloadSize : Dir → Kind → Nat
  | _, .ping => 256
  | .request, _ => 0
  | .response, _ => 16

/-- message_type.rs:64-84 `message_size` with payload.rs:14-21 `Envelope`. -/
def size (d : Dir) (k : Kind) : Nat := 16 + payloadSize d k

/-- message_type.rs:86-99, 113-126 `TryFrom<RawMsgType>`. -/
def ofRaw (d : Dir) (v : Nat) : Option Kind :=
  if v = raw d .ping then some .ping
  else if v = raw d .supplyKeypair then some .supplyKeypair
  else if v = raw d .addListenSocket then some .addListenSocket
  else if v = raw d .addPskBroker then some .addPskBroker
  else none

/-- ref_maker.rs:120-127 `RefMaker<_, u128>::parse`, message_type.rs:172-180: size must be exact, address aligned. -/
def parseType (d : Dir) (addr : Nat) (buf : Bytes) : Option Kind :=
  if buf.length = 16 ∧ addr % 16 = 0 then ofRaw d (leNat buf) else none

/-- byte_slice_ext.rs:25-29, 49-53 `request_msg_type_from_prefix`, `response_msg_type_from_prefix`. -/
def typeFromPrefix (d : Dir) (addr : Nat) (buf : Bytes) : Option Kind :=
  if 16 ≤ buf.length then parseType d addr (buf.take 16) else none

/-- byte_slice_ext.rs:34-38, 58-62 `request_msg_type_from_suffix`, `response_msg_type_from_suffix`. -/
def typeFromSuffix (d : Dir) (addr : Nat) (buf : Bytes) : Option Kind :=
  if 16 ≤ buf.length then parseType d (addr + (buf.length - 16)) (buf.drop (buf.length - 16)) else none

/-- A parsed message refers to some bytes of the buffer (request_ref.rs:157-162 `RequestRef`). -/
structure Msg where
  kind : Kind
  bytes : Bytes
  deriving DecidableEq, Repr

/-- request_ref.rs:108-121 `RequestRefMaker::parse`: the size must be exact. -/
def Maker.parse (d : Dir) (k : Kind) (buf : Bytes) : Option Msg :=
  if buf.length = size d k then some ⟨k, buf⟩ else none

/-- request_ref.rs:43-45, response_ref.rs:47-49 `parse`. -/
def parse (d : Dir) (addr : Nat) (buf : Bytes) : Option Msg :=
  match typeFromPrefix d addr buf with
  | none => none
  | some k => Maker.parse d k buf

/-- request_ref.rs:49-51, 124-132, response_ref.rs:53-55 `parse_from_prefix`. -/
def parseFromPrefix (d : Dir) (addr : Nat) (buf : Bytes) : Option Msg :=
  match typeFromPrefix d addr buf with
  | none => none
  | some k => if size d k ≤ buf.length then Maker.parse d k (buf.take (size d k)) else none

/-- request_ref.rs:55-57, 135-143, response_ref.rs:59-61 `parse_from_suffix`: the type is taken from the start of the
buffer (100, 104), the message from its end. -/
def parseFromSuffix (d : Dir) (addr : Nat) (buf : Bytes) : Option Msg :=
  match typeFromPrefix d addr buf with
  | none => none
  | some k => if size d k ≤ buf.length then Maker.parse d k (buf.drop (buf.length - size d k)) else none

/-- payload.rs:51-56 `from_payload`, in wire form. -/
def encode (d : Dir) (k : Kind) (payload : Bytes) : Bytes := toLE 16 (raw d k) ++ payload

/-- byte_slice_ext.rs:125-127 etc. `*_response_from_prefix` on a response buffer: the part that is used. -/
def slot (d : Dir) (k : Kind) (res : Bytes) : Option Bytes :=
  if size d k ≤ res.length then some (res.take (size d k)) else none

/-- payload.rs:105-107 etc. `init`: sets the message type. -/
def init (d : Dir) (k : Kind) (m : Bytes) : Bytes := toLE 16 (raw d k) ++ m.drop 16

/-- the payload of a message -/
def payload (m : Bytes) : Bytes := m.drop 16

/-- an assignment to the payload -/
def setPayload (m : Bytes) (p : Bytes) : Bytes := m.take 16 ++ p

/-- payload.rs:99-103 etc. `setup`: a zeroed message with its type, in a buffer of exactly its size. -/
def setup (d : Dir) (k : Kind) (buf : Bytes) : Option Bytes :=
  if buf.length = size d k then some (init d k (List.replicate buf.length 0)) else none

/-- request_response.rs:25-29 `setup_response_from_prefix`: the whole buffer afterwards. -/
def setupFromPrefix (d : Dir) (k : Kind) (buf : Bytes) : Option Bytes :=
  if size d k ≤ buf.length then (setup d k (buf.take (size d k))).map (· ++ buf.drop (size d k)) else none

/-- request_response.rs:32-36 `setup_response_from_suffix` (which calls `from_prefix`). -/
def setupFromSuffix (d : Dir) (k : Kind) (buf : Bytes) : Option Bytes := setupFromPrefix d k buf

end Verif.Api
